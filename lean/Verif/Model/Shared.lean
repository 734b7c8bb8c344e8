import Verif.Model.Alias

/-!
# Workers that share a read-only input

In the other modules the input of a call is an `InBuf` and reading it is not a scheduling point.  Here the input lies in memory
next to the output, every load of one of its bytes is a step of its own, interleaved in any way with the steps of the other
workers, and several workers may load the same byte.  A worker may read the bytes of the output span `w` and of the input span
`i`, and write those of the output span only.
-/

namespace Verif

/-- One step of one worker: a load from the output span or from the input span (`x[i]`, src/kernels/quantize.inl:148), or a store
to the output span (jobs in a thread pool, src/piquant.cpp:203-210). -/
inductive StepR (w i : Win) : Cfg → Cfg → Prop
  | rd {c : Cfg} {t a : Nat} {k : Nat → Prog Unit} (h : c.jobs[t]? = some (.rd a k)) (ha : w.has a = true ∨ i.has a = true) :
      StepR w i c ⟨c.jobs.set t (k (c.mem a)), c.mem⟩
  | wr {c : Cfg} {t a b : Nat} {k : Prog Unit} (h : c.jobs[t]? = some (.wr a b k)) (ha : w.has a = true) :
      StepR w i c ⟨c.jobs.set t k, c.mem.set a b⟩

/-- Reachable by some schedule in `n` steps (src/piquant.cpp:203-210). -/
inductive ReachR (w i : Win) (c : Cfg) : Nat → Cfg → Prop
  | refl : ReachR w i c 0 c
  | tail {n : Nat} {d e : Cfg} (h : ReachR w i c n d) (s : StepR w i d e) : ReachR w i c (n + 1) e

/-- Some worker has faulted with a fault outside `E`, or is about to load a byte outside both spans, or to store outside the
output span (src/piquant.cpp:203-210). -/
def Cfg.FaultyR (E : Fault → Prop) (w i : Win) (c : Cfg) : Prop :=
  ∃ p ∈ c.jobs, (∃ f, p = .fail f ∧ ¬ E f) ∨ (∃ a k, p = .rd a k ∧ w.has a = false ∧ i.has a = false) ∨
    ∃ a b k, p = .wr a b k ∧ w.has a = false

/-- A data race: one worker is about to store to a byte another one is about to load or store (src/piquant.cpp:203-210). -/
def Cfg.RaceR (c : Cfg) : Prop :=
  ∃ (s t a b : Nat) (p : Prog Unit) (k : Prog Unit), s ≠ t ∧ c.jobs[s]? = some (.wr a b k) ∧ c.jobs[t]? = some p ∧ p.pending = some a

/-- As `AllSchedules`, with a read-only input span `i` (src/piquant.cpp:197-211). -/
structure AllSchedulesR (E : Fault → Prop) (w i : Win) (jobs : List (Prog Unit)) (m0 : Mem) (Q : Mem → Prop) : Prop where
  safe : ∀ n c, ReachR w i ⟨jobs, m0⟩ n c → ¬ c.FaultyR E w i
  raceFree : ∀ n c, ReachR w i ⟨jobs, m0⟩ n c → ¬ c.RaceR
  progress : ∀ n c, ReachR w i ⟨jobs, m0⟩ n c → ¬ c.Stopped → ∃ d, StepR w i c d
  bounded : ∃ N, ∀ n c, ReachR w i ⟨jobs, m0⟩ n c → n ≤ N
  input : ∀ n c, ReachR w i ⟨jobs, m0⟩ n c → ∀ a, i.has a = true → c.mem a = m0 a
  post : ∀ n c, ReachR w i ⟨jobs, m0⟩ n c → c.Done → Q c.mem

/-- A worker whose loads from the span `i` all happen before the call: they return what `m0` holds (`x[i]`,
src/kernels/quantize.inl:148; a `PIQUANT_RESTRICT` pointer, src/kernels/quantize.inl:132). -/
def Prog.early {α : Type} (i : Win) (m0 : Mem) : Prog α → Prog α
  | .ret a => .ret a
  | .fail f => .fail f
  | .rd a k => if i.has a then (k (m0 a)).early i m0 else .rd a (fun b => (k b).early i m0)
  | .wr a b k => .wr a b (k.early i m0)

end Verif

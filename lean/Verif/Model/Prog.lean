/-!
# Worker programs

A kernel invocation is modelled as a program whose only effects are single-byte reads and
writes of the *output* buffer (absolute addresses) and failure.  The input buffer is
read-only for the whole call (`PIQUANT_RESTRICT`, src/piquant_internal.hpp:25: the spans do
not alias), so input reads are not scheduling points; they are bounds-checked.

Multi-byte and vector stores/loads of output memory are sequences of single-byte accesses:
this is the finest granularity, so every tearing of a vector access is a possible schedule.
-/

namespace Verif

/-- Everything that can go wrong in a call.  `panic` is `piquant::panic` (src/piquant.cpp:88-98),
`ub` is undefined behaviour of a scalar C++ operation (float-to-int out of range, signed
overflow), `diverge` is a loop that does not terminate. -/
inductive Fault
  | ub | oobRead | oobWrite | misaligned | divZero | panic | diverge
deriving DecidableEq, Repr

/-- A worker program returning `α` (a worker of src/piquant.cpp:203-209). -/
inductive Prog (α : Type) where
  | ret (a : α)
  | fail (f : Fault)
  | rd (addr : Nat) (k : Nat → Prog α)
  | wr (addr : Nat) (b : Nat) (k : Prog α)

namespace Prog

/-- Sequencing of statements (any function body, e.g. src/piquant.cpp:132-176). -/
def bind {α β : Type} : Prog α → (α → Prog β) → Prog β
  | ret a, k => k a
  | fail f, _ => fail f
  | rd a f, k => rd a (fun b => bind (f b) k)
  | wr a b p, k => wr a b (bind p k)

instance : Monad Prog where
  pure := ret
  bind := bind

end Prog

/-- Memory holding the output buffer, by absolute byte address (`std::span<std::byte> out`, src/piquant.cpp:277-308). -/
abbrev Mem := Nat → Nat

/-- A byte store (`o[i] = …`, src/kernels/quantize.inl:148). -/
def Mem.set (m : Mem) (a b : Nat) : Mem := fun x => if x = a then b else m x

/-- A half-open address range (the extent of the span, src/piquant.cpp:277-308). -/
structure Win where
  lo : Nat
  hi : Nat
deriving DecidableEq, Repr

/-- Membership of an address in the range (the span of src/piquant.cpp:277-308). -/
def Win.has (w : Win) (a : Nat) : Bool := w.lo ≤ a && a < w.hi

/-- Run a program alone, with accesses allowed in `w` only (one worker, src/piquant.cpp:132-176). -/
def Prog.run {α : Type} (w : Win) : Prog α → Mem → Except Fault (α × Mem)
  | .ret a, m => .ok (a, m)
  | .fail f, _ => .error f
  | .rd a k, m => if w.has a then (k (m a)).run w m else .error .oobRead
  | .wr a b k, m => if w.has a then k.run w (m.set a b) else .error .oobWrite

/-! ## Concurrent execution of several workers -/

/-- The workers still running and the shared output memory (src/piquant.cpp:203-210). -/
structure Cfg where
  jobs : List (Prog Unit)
  mem : Mem

/-- The address a program accesses next, if any (a load or store of a kernel, e.g. src/kernels/quantize.inl:148). -/
def Prog.pending {α : Type} : Prog α → Option Nat
  | .rd a _ => some a
  | .wr a _ _ => some a
  | _ => none

/-- One step of one worker: any worker may move (arbitrary scheduling,
src/piquant.cpp:203-210: jobs are handed to a thread pool and joined). -/
inductive Step (w : Win) : Cfg → Cfg → Prop
  | rd {c : Cfg} {t a : Nat} {k : Nat → Prog Unit} (h : c.jobs[t]? = some (.rd a k)) (ha : w.has a = true) :
      Step w c ⟨c.jobs.set t (k (c.mem a)), c.mem⟩
  | wr {c : Cfg} {t a b : Nat} {k : Prog Unit} (h : c.jobs[t]? = some (.wr a b k)) (ha : w.has a = true) :
      Step w c ⟨c.jobs.set t k, c.mem.set a b⟩

/-- Reachable by some schedule in `n` steps (src/piquant.cpp:203-210). -/
inductive Reach (w : Win) (c : Cfg) : Nat → Cfg → Prop
  | refl : Reach w c 0 c
  | tail {n : Nat} {d e : Cfg} (h : Reach w c n d) (s : Step w d e) : Reach w c (n + 1) e

/-- No fault is allowed (no failure of src/piquant.cpp:88-98 and no undefined behaviour). -/
def NoFault : Fault → Prop := fun _ => False
/-- Only undefined behaviour of a scalar operation is allowed (the conversion src/kernels/quantize.inl:24). -/
def OnlyUb : Fault → Prop := fun f => f = .ub

/-- Some worker has faulted with a fault outside `E`, or is about to access memory outside the
window (src/piquant.cpp:203-210). -/
def Cfg.Faulty (E : Fault → Prop) (w : Win) (c : Cfg) : Prop :=
  ∃ p ∈ c.jobs, (∃ f, p = .fail f ∧ ¬ E f) ∨ ∃ a, p.pending = some a ∧ w.has a = false

/-- Two different workers are about to access the same output byte (src/piquant.cpp:203-210). -/
def Cfg.Race (c : Cfg) : Prop :=
  ∃ (s t a : Nat) (p q : Prog Unit), s ≠ t ∧ c.jobs[s]? = some p ∧ c.jobs[t]? = some q ∧
    p.pending = some a ∧ q.pending = some a

/-- All workers have finished (`join`, src/piquant.cpp:210). -/
def Cfg.Done (c : Cfg) : Prop := ∀ p ∈ c.jobs, p = .ret ()
/-- All workers have finished or faulted (src/piquant.cpp:203-210). -/
def Cfg.Stopped (c : Cfg) : Prop := ∀ p ∈ c.jobs, p = .ret () ∨ ∃ f, p = .fail f

/-- What is claimed of a parallel call, for *every* schedule of its workers: no reachable state
has a worker faulting (except with a fault in `E`), accessing memory outside `w`, or racing with
another; an unfinished call can always continue; every schedule stops after a bounded number of
steps; and if all workers finish, the memory satisfies `Q`.
With `E = NoFault` no worker ever faults, so every maximal schedule ends with all workers
finished (src/piquant.cpp:197-211). -/
structure AllSchedules (E : Fault → Prop) (w : Win) (jobs : List (Prog Unit)) (m0 : Mem) (Q : Mem → Prop) : Prop where
  safe : ∀ n c, Reach w ⟨jobs, m0⟩ n c → ¬ c.Faulty E w
  raceFree : ∀ n c, Reach w ⟨jobs, m0⟩ n c → ¬ c.Race
  progress : ∀ n c, Reach w ⟨jobs, m0⟩ n c → ¬ c.Stopped → ∃ d, Step w c d
  bounded : ∃ N, ∀ n c, Reach w ⟨jobs, m0⟩ n c → n ≤ N
  post : ∀ n c, Reach w ⟨jobs, m0⟩ n c → c.Done → Q c.mem

/-- The workers one after another, in order (jobs of src/piquant.cpp:203-209 in turn). -/
def runSeq (w : Win) : List (Prog Unit) → Mem → Except Fault Mem
  | [], m => .ok m
  | p :: ps, m => match p.run w m with
    | .ok (_, m') => runSeq w ps m'
    | .error f => .error f

/-! ## Building blocks -/

/-- C++ `for (; cond(i); i += step) body(i)`; returns the final `i`.  `fuel` bounds the
number of iterations; running out of fuel is the fault `diverge` (src/kernels/quantize.inl:62, 83, 147;
src/kernels/kernels_specialized.inl:52, 57). -/
def forI (cond : Nat → Bool) (step : Nat) (body : Nat → Prog Unit) : Nat → Nat → Prog Nat
  | 0, i => if cond i then .fail .diverge else pure i
  | fuel + 1, i => if cond i then do body i; forI cond step body fuel (i + step) else pure i

/-- Read-only input memory: `size` accessible bytes (`std::span<const std::byte> in`, src/piquant.cpp:277-308). -/
structure InBuf where
  size : Nat
  data : Nat → Nat

/-- Byte write to the output (src/kernels/quantize.inl:148). -/
def wrB (a b : Nat) : Prog Unit := .wr a b (pure ())
/-- Byte read from the output (src/kernels/quantize.inl:70). -/
def rdB (a : Nat) : Prog Nat := .rd a pure

/-- Store `n` bytes at `a` (`o[i] = …`, src/kernels/dequantize.inl:134-138). -/
def stBytes (a : Nat) : (n : Nat) → (Nat → Nat) → Prog Unit
  | 0, _ => pure ()
  | n + 1, f => do stBytes a n f; wrB (a + n) (f n)

/-- Load `n` bytes of output memory at `a` (`o[i] += …`, src/kernels/dequantize.inl:137-138). -/
def ldBytes (a : Nat) : Nat → Prog (Nat → Nat)
  | 0 => pure (fun _ => 0)
  | n + 1 => do
    let f ← ldBytes a n
    let b ← rdB (a + n)
    pure (fun j => if j = n then b else f j)

/-- Bounds check for an input access of `n` bytes at `a` (`x[i]`, src/kernels/quantize.inl:148). -/
def chkIn (x : InBuf) (a n : Nat) : Prog Unit :=
  if a + n ≤ x.size then pure () else .fail .oobRead

end Verif

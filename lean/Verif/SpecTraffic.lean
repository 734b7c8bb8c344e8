import Verif.Spec

/-!
# Memory traffic of a call

Vocabulary for the accesses of a call to the output buffer: which worker reads or writes which byte,
in which order.
-/

namespace Verif.Spec

/-- Reading or writing. -/
inductive Kind
  | read | write
deriving DecidableEq

/-- One access to one output byte. -/
structure Access where
  worker : Nat
  kind : Kind
  addr : Nat
deriving DecidableEq

/-- An execution from `c` to `d` with the log of its accesses, the latest first. -/
inductive Log (w : Win) (c : Cfg) : List Access → Cfg → Prop
  | refl : Log w c [] c
  | rd {l : List Access} {d : Cfg} {t a : Nat} {k : Nat → Prog Unit} (h : Log w c l d)
      (hj : d.jobs[t]? = some (.rd a k)) (ha : w.has a = true) :
      Log w c (⟨t, .read, a⟩ :: l) ⟨d.jobs.set t (k (d.mem a)), d.mem⟩
  | wr {l : List Access} {d : Cfg} {t a b : Nat} {k : Prog Unit} (h : Log w c l d)
      (hj : d.jobs[t]? = some (.wr a b k)) (ha : w.has a = true) :
      Log w c (⟨t, .write, a⟩ :: l) ⟨d.jobs.set t k, d.mem.set a b⟩

/-- How often byte `a` is read. -/
def reads (l : List Access) (a : Nat) : Nat := l.countP (fun e => decide (e.kind = .read ∧ e.addr = a))
/-- How often byte `a` is written. -/
def writes (l : List Access) (a : Nat) : Nat := l.countP (fun e => decide (e.kind = .write ∧ e.addr = a))

/-- What byte `a` held before the call is never looked at: every read of a byte comes after a write of it. -/
def OnlyOwn (l : List Access) : Prop :=
  ∀ later t a earlier, l = later ++ ⟨t, .read, a⟩ :: earlier → ∃ s, ⟨s, .write, a⟩ ∈ earlier

end Verif.Spec

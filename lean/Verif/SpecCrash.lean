import Verif.Spec

/-!
# Looking at a call midway

Vocabulary for calls that are observed, or interrupted for good (a crash, a kill), at any moment.
-/

namespace Verif.Spec

/-- `m` is the memory at some moment of some execution of the call started in `m0`: any schedule,
after any number of memory accesses. -/
def During (call : Except Fault (List (Prog Unit))) (w : Win) (m0 m : Mem) : Prop :=
  ∃ js k d, call = .ok js ∧ Reach w ⟨js, m0⟩ k d ∧ d.mem = m

/-- `m` and `m'` are the memories at two moments of one execution, `m'` not before `m`. -/
def Later (call : Except Fault (List (Prog Unit))) (w : Win) (m0 m m' : Mem) : Prop :=
  ∃ js k d k' e, call = .ok js ∧ Reach w ⟨js, m0⟩ k d ∧ Reach w d k' e ∧ d.mem = m ∧ e.mem = m'

end Verif.Spec

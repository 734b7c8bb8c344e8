import Verif.Spec
import Verif.Model.Session

/-!
# Specification of programs of several threads (C69)

Nothing here refers to interleavings: what a thread's calls may touch, which calls are legal, and what they leave in memory
when they are made one after the other.
-/

namespace Verif
open Spec

/-- The calls of a thread one after the other, the workers of every call one after the other. -/
inductive SeqRun : Mt → (Mem → Plan) → Mem → Mem → Prop
  | done {g : Mt} {P : Mem → Plan} {m : Mem} (h : P m = .done) : SeqRun g P m m
  | call {g g' : Mt} {r : Req} {P k : Mem → Plan} {js : List (Prog Unit)} {m m1 m2 : Mem} (h : P m = .call r k) (hc : r.issue g = (g', .ok js))
      (h1 : runSeq r.win js m = .ok m1) (h2 : SeqRun g' k m1 m2) : SeqRun g P m m2

/-- A plan that writes and looks only at a region of memory. -/
def Plan.Local (R : Nat → Prop) : Plan → Prop
  | .done => True
  | .call r k => (∀ a, r.win.has a = true → R a) ∧ (∀ m m' : Mem, (∀ a, R a → m a = m' a) → k m = k m') ∧ ∀ m, (k m).Local R

/-- Legal arguments of a call (`n` elements). -/
def Req.Legal : Req → Prop
  | .quantize c x dtIn _ outSize dtOut _ _ _ => ∃ n, outSize = bytes dtOut.bits n ∧ QArgs c.threads x dtIn dtOut n
  | .dequantize c x inSize dtIn _ outSize dtOut _ _ _ => ∃ n, inSize = bytes dtIn.bits n ∧ outSize = dtOut.stride * n ∧ DArgs c.threads x dtIn dtOut n ∧ Readable dtIn dtOut n x.size
  | .fused c x dt _ outSize qt _ _ _ _ => ∃ n, outSize = dt.stride * n ∧ QArgs c.threads x dt qt n

/-- All calls of a plan are legal, whatever the thread finds in memory. -/
def Plan.Legal : Plan → Prop
  | .done => True
  | .call r k => r.Legal ∧ ∀ m, (k m).Legal

/-- What is claimed of a program, for *every* interleaving of its threads and of the workers of their calls: no worker
faults (except with a fault in `E`) or leaves its output span, no call is rejected, no two workers race; a thread that has
neither finished nor died of a fault can move, whatever the others do; every execution is finite, with a common bound; and
every state satisfies `Q`. -/
structure AllRuns (E : Fault → Prop) (s0 : Sys) (Q : Sys → Prop) : Prop where
  safe : ∀ n s, SysReach s0 n s → ∀ (t : Nat) (c : Caller), s.callers[t]? = some c → ¬ c.Faulty E s.mem
  raceFree : ∀ n s, SysReach s0 n s → ¬ s.Race
  progress : ∀ n s, SysReach s0 n s → ∀ (t : Nat) (c : Caller), s.callers[t]? = some c → ¬ c.Finished s.mem → ¬ c.Dead →
    ∃ c' m', CStep c s.mem c' m'
  bounded : ∃ N, ∀ n s, SysReach s0 n s → n ≤ N
  holds : ∀ n s, SysReach s0 n s → Q s

end Verif

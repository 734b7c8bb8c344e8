import Verif.Model.Rng

/-!
# A program that uses the library

Several threads of the caller, each making one call after the other (every call blocks until its workers have been joined:
src/piquant.cpp:203-210), all of them at the same time, on shared or separate contexts.  The workers of all calls in
flight run in any interleaving: a pool shared by several calls restricts the order of their workers, so its executions are
among these.
-/

namespace Verif

/-- The output span of a request (src/piquant.cpp:277-369). -/
def Req.win (r : Req) : Win := ⟨r.out.1, r.out.1 + r.out.2⟩

/-- What a thread of the caller does: stop, or make a call and go on in a way that may depend on what it finds in memory
when the call has returned (the next call may take its input from the output of earlier ones). (callers of src/piquant.cpp:277-369)
-/
inductive Plan
  | done
  | call (r : Req) (k : Mem → Plan)

/-- A thread of the caller: its random generator (`thread_local`, piquant.cpp:194-195), what it does when the current call
has returned, the output span of the current call, and the workers of the current call. -/
structure Caller where
  gen : Mt
  next : Mem → Plan
  win : Win
  cur : List (Prog Unit)

/-- The current call has returned (`join`, src/piquant.cpp:210). -/
def Caller.Idle (c : Caller) : Prop := ∀ p ∈ c.cur, p = .ret ()

/-- One step of one thread: a worker of its current call accesses the output memory, or, when the call has returned
(`join`, piquant.cpp:210), the thread looks at the memory and makes the next call.  (The look is one step: the theorems let
a thread look only at memory no other thread writes.) -/
inductive CStep : Caller → Mem → Caller → Mem → Prop
  | rd {c : Caller} {m : Mem} {j a : Nat} {k : Nat → Prog Unit} (h : c.cur[j]? = some (.rd a k)) (ha : c.win.has a = true) :
      CStep c m ⟨c.gen, c.next, c.win, c.cur.set j (k (m a))⟩ m
  | wr {c : Caller} {m : Mem} {j a b : Nat} {k : Prog Unit} (h : c.cur[j]? = some (.wr a b k)) (ha : c.win.has a = true) :
      CStep c m ⟨c.gen, c.next, c.win, c.cur.set j k⟩ (m.set a b)
  | issue {c : Caller} {m : Mem} {r : Req} {k : Mem → Plan} {g : Mt} {js : List (Prog Unit)} (hi : c.Idle) (ht : c.next m = .call r k)
      (hc : r.issue c.gen = (g, .ok js)) : CStep c m ⟨g, k, r.win, js⟩ m

/-- All threads and the output memory they share (src/piquant.cpp:194-211). -/
structure Sys where
  callers : List Caller
  mem : Mem

/-- Any thread may move (src/piquant.cpp:203-210). -/
inductive SysStep : Sys → Sys → Prop
  | mk {s : Sys} {t : Nat} {c c' : Caller} {m' : Mem} (h : s.callers[t]? = some c) (hs : CStep c s.mem c' m') :
      SysStep s ⟨s.callers.set t c', m'⟩

/-- Reachable in `n` steps (src/piquant.cpp:203-210). -/
inductive SysReach (s : Sys) : Nat → Sys → Prop
  | refl : SysReach s 0 s
  | tail {n : Nat} {d e : Sys} (h : SysReach s n d) (st : SysStep d e) : SysReach s (n + 1) e

/-- A worker of the current call has faulted with a fault outside `E` or is about to access memory outside the output span
of its call, or the next call would be rejected (abort the process) (src/piquant.cpp:88-98, 203-210). -/
def Caller.Faulty (E : Fault → Prop) (c : Caller) (m : Mem) : Prop :=
  (∃ p ∈ c.cur, (∃ f, p = .fail f ∧ ¬ E f) ∨ ∃ a, p.pending = some a ∧ c.win.has a = false) ∨
  (c.Idle ∧ ∃ r k f, c.next m = .call r k ∧ (r.issue c.gen).2 = .error f)

/-- Two different workers, of the same or of different calls, are about to access the same output byte (src/piquant.cpp:203-210). -/
def Sys.Race (s : Sys) : Prop :=
  ∃ (t u i j a : Nat) (c d : Caller) (p q : Prog Unit), (t ≠ u ∨ i ≠ j) ∧ s.callers[t]? = some c ∧ s.callers[u]? = some d ∧
    c.cur[i]? = some p ∧ d.cur[j]? = some q ∧ p.pending = some a ∧ q.pending = some a

/-- A thread that has made all its calls (src/piquant.cpp:210). -/
def Caller.Finished (c : Caller) (m : Mem) : Prop := c.Idle ∧ c.next m = .done
/-- A thread whose current call cannot go on because a worker has faulted (src/piquant.cpp:210). -/
def Caller.Dead (c : Caller) : Prop := (∀ p ∈ c.cur, p = .ret () ∨ ∃ f, p = .fail f) ∧ ∃ p ∈ c.cur, ∃ f, p = .fail f

/-- The program at its start: every thread with its seed and what it does (src/piquant.cpp:194-195). -/
def Sys.start (ts : List (Nat × Plan)) (m : Mem) : Sys := ⟨ts.map (fun t => ⟨Mt.init t.1, fun _ => t.2, ⟨0, 0⟩, []⟩), m⟩

end Verif

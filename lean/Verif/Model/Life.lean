import Mathlib.Data.List.Basic

/-!
# Lifetime of the native contexts behind Python `Context` objects

python/src/piquant/__init__.py:64-80 and src/capi.cpp:19-26.

The Python interpreter is modelled by its documented effect on these objects: `weakref.finalize(obj, f, *args)`
registers a finalizer that runs once, when `obj` becomes unreachable or when the interpreter exits (`atexit` is true by
default); a running method keeps its `self` reachable; `copy.copy` makes a second object with the same attributes
without calling `__init__`.  Calls in progress and the shutdown may belong to different threads (cffi releases the
interpreter lock during a native call).

Simplification: at exit all pending finalizers run in one step.  Not modelled: `os.fork`, a finalizer called by hand.
-/

namespace Verif.Life

/-- What the native library sees, in order (src/capi.cpp:19-26). -/
inductive Ev
  | create (n : Nat)    -- `piquant_context_create` returns native context `n` (capi.cpp:19-22)
  | enter (n : Nat)     -- a native call on context `n` begins
  | leave (n : Nat)     -- and ends
  | destroy (n : Nat)   -- `piquant_context_destroy` (capi.cpp:24-26)
deriving DecidableEq, Repr

/-- What a Python program (any of its threads, or the interpreter) does next (python/src/piquant/__init__.py:64-144). -/
inductive Op
  | new                 -- `Context(...)` (__init__.py:65-71)
  | copy (k : Nat)      -- `copy.copy` of object `k`
  | enter (k : Nat)     -- a method of object `k` calls the library (__init__.py:82-144)
  | leave (k : Nat)     -- one of the calls in progress on object `k` returns
  | drop (k : Nat)      -- the last reference to object `k` disappears
  | exit                -- the interpreter runs its exit handlers
deriving DecidableEq, Repr

/-- A Python `Context` object: its attribute `_ctx`, the number of methods running on it, whether it is reachable
(python/src/piquant/__init__.py:64-80). -/
structure Obj where
  native : Nat
  busy : Nat
  alive : Bool
deriving DecidableEq, Repr

/-- The objects created so far, the registered finalizers (object, native context), the number of native contexts
(python/src/piquant/__init__.py:64-80). -/
structure World where
  objs : List Obj
  pending : List (Nat × Nat)
  natives : Nat
deriving DecidableEq, Repr

/-- Nothing created yet (python/src/piquant/__init__.py:64-80). -/
def World.init : World := ⟨[], [], 0⟩

/-- One step: the new state and the calls into the library, or `none` if the step is impossible
(python/src/piquant/__init__.py:64-144). -/
def step (w : World) : Op → Option (World × List Ev)
  | .new =>
    -- `self._ctx = C.piquant_context_create(...)`; `weakref.finalize(self, C.piquant_context_destroy, self._ctx)` (70-71)
    some (⟨w.objs ++ [⟨w.natives, 0, true⟩], w.pending ++ [(w.objs.length, w.natives)], w.natives + 1⟩, [.create w.natives])
  | .copy k =>
    match w.objs[k]? with
    | some o => if o.alive then some ({ w with objs := w.objs ++ [⟨o.native, 0, true⟩] }, []) else none
    | none => none
  | .enter k =>
    match w.objs[k]? with
    | some o => if o.alive then some ({ w with objs := w.objs.set k { o with busy := o.busy + 1 } }, [.enter o.native]) else none
    | none => none
  | .leave k =>
    match w.objs[k]? with
    | some o => if 0 < o.busy then some ({ w with objs := w.objs.set k { o with busy := o.busy - 1 } }, [.leave o.native]) else none
    | none => none
  | .drop k =>
    match w.objs[k]? with
    | some o => if o.alive && o.busy == 0 then
        some ({ w with objs := w.objs.set k { o with alive := false }, pending := w.pending.filter (fun f => f.1 ≠ k) },
          (w.pending.filter (fun f => f.1 = k)).map (fun f => .destroy f.2))
      else none
    | none => none
  | .exit => some ({ w with pending := [] }, w.pending.reverse.map (fun f => .destroy f.2))

/-- A history of steps, with everything the library saw (python/src/piquant/__init__.py:64-144). -/
def run (w : World) : List Op → Option (World × List Ev)
  | [] => some (w, [])
  | op :: ops =>
    match step w op with
    | none => none
    | some (w', e) =>
      match run w' ops with
      | none => none
      | some (w'', e') => some (w'', e ++ e')

end Verif.Life

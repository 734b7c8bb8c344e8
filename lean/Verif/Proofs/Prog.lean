import Verif.Model.Prog

namespace Verif

namespace Prog

@[simp] theorem bind_eq {α β : Type} (p : Prog α) (k : α → Prog β) : (p >>= k) = p.bind k := rfl
@[simp] theorem pure_eq {α : Type} (a : α) : (pure a : Prog α) = .ret a := rfl
@[simp] theorem ret_bind {α β : Type} (a : α) (k : α → Prog β) : (Prog.ret a).bind k = k a := rfl
@[simp] theorem fail_bind {α β : Type} (f : Fault) (k : α → Prog β) : (Prog.fail f).bind k = .fail f := rfl

theorem bind_assoc {α β γ : Type} (p : Prog α) (k : α → Prog β) (l : β → Prog γ) :
    (p.bind k).bind l = p.bind (fun a => (k a).bind l) := by
  induction p with
  | ret a => rfl
  | fail f => rfl
  | rd a f ih => simp [bind, ih]
  | wr a b p ih => simp [bind, ih]

theorem bind_ret {α : Type} (p : Prog α) : p.bind .ret = p := by
  induction p with
  | ret a => rfl
  | fail f => rfl
  | rd a f ih => simp [bind, ih]
  | wr a b p ih => simp [bind, ih]

theorem run_bind {α β : Type} (w : Win) (p : Prog α) (k : α → Prog β) (m : Mem) :
    (p.bind k).run w m = match p.run w m with
      | .ok (a, m') => (k a).run w m'
      | .error f => .error f := by
  induction p generalizing m with
  | ret a => rfl
  | fail f => rfl
  | rd a f ih => simp only [bind, run]; split <;> simp [ih]
  | wr a b p ih => simp only [bind, run]; split <;> simp [ih]

end Prog

/-- Hoare triple: from every memory satisfying `P`, the program run alone inside the window either
ends in `Q` or stops with one of the faults in `E` (`E = NoFault`: total correctness). -/
def Triple (E : Fault → Prop) {α : Type} (w : Win) (P : Mem → Prop) (p : Prog α) (Q : α → Mem → Prop) : Prop :=
  ∀ m, P m → match p.run w m with
    | .ok (a, m') => Q a m'
    | .error f => E f

namespace Triple
variable {E : Fault → Prop} {α β : Type} {w : Win} {P : Mem → Prop}

theorem ok {p : Prog α} {Q : α → Mem → Prop} (h : Triple NoFault w P p Q) {m : Mem} (hm : P m) :
    ∃ a m', p.run w m = .ok (a, m') ∧ Q a m' := by
  have := h m hm
  split at this
  · rename_i a m' he; exact ⟨a, m', he, this⟩
  · exact absurd this (fun h => h)

theorem ret {a : α} {Q : α → Mem → Prop} (h : ∀ m, P m → Q a m) : Triple E w P (.ret a) Q :=
  fun m hm => h m hm

theorem fail {f : Fault} {Q : α → Mem → Prop} (h : E f) : Triple E w P (.fail f) Q :=
  fun _ _ => h

theorem bind {p : Prog α} {k : α → Prog β} {Q : α → Mem → Prop} {R : β → Mem → Prop}
    (hp : Triple E w P p Q) (hk : ∀ a, Triple E w (Q a) (k a) R) : Triple E w P (p.bind k) R := by
  intro m hm
  have h1 := hp m hm
  rw [Prog.run_bind]
  cases hr : p.run w m with
  | error f => rw [hr] at h1; exact h1
  | ok am => obtain ⟨a, m'⟩ := am; rw [hr] at h1; exact hk a m' h1

theorem conseq {p : Prog α} {P' : Mem → Prop} {Q Q' : α → Mem → Prop}
    (h : Triple E w P' p Q') (hp : ∀ m, P m → P' m) (hq : ∀ a m, Q' a m → Q a m) : Triple E w P p Q := by
  intro m hm
  have h1 := h m (hp m hm)
  split at h1
  · exact hq _ _ h1
  · exact h1

theorem weaken {p : Prog α} {Q Q' : α → Mem → Prop}
    (h : Triple E w P p Q') (hq : ∀ a m, Q' a m → Q a m) : Triple E w P p Q := h.conseq (fun _ h => h) hq

theorem pre {p : Prog α} {P' : Mem → Prop} {Q : α → Mem → Prop}
    (h : Triple E w P' p Q) (hp : ∀ m, P m → P' m) : Triple E w P p Q := h.conseq hp (fun _ _ h => h)

theorem faults {E' : Fault → Prop} {p : Prog α} {Q : α → Mem → Prop} (h : Triple E' w P p Q)
    (he : ∀ f, E' f → E f) : Triple E w P p Q := by
  intro m hm
  have h1 := h m hm
  split at h1
  · exact h1
  · exact he _ h1

/-- The precondition's pure facts may be used. -/
theorem ofPre {p : Prog α} {Q : α → Mem → Prop} {φ : Prop} (hφ : ∀ m, P m → φ)
    (h : φ → Triple E w P p Q) : Triple E w P p Q := fun m hm => h (hφ m hm) m hm

/-- Pull a pure conjunct out of the precondition. -/
theorem pull {p : Prog α} {Q : α → Mem → Prop} {φ : Prop}
    (h : φ → Triple E w P p Q) : Triple E w (fun m => P m ∧ φ) p Q := fun m hm => h hm.2 m hm.1

/-- Sequencing when the first program's result is known up to a pure predicate. -/
theorem bindPure {p : Prog α} {k : α → Prog β} {φ : α → Prop} {R : β → Mem → Prop}
    (hp : Triple E w P p (fun a m => P m ∧ φ a)) (hk : ∀ a, φ a → Triple E w P (k a) R) :
    Triple E w P (p.bind k) R := bind hp (fun a => pull (hk a))

end Triple

theorem Triple.wrB {E : Fault → Prop} {w : Win} {P : Mem → Prop} {Q : Unit → Mem → Prop} {a b : Nat} (hw : w.has a = true)
    (h : ∀ m, P m → Q () (m.set a b)) : Triple E w P (Verif.wrB a b) Q := by
  intro m hm
  simpa [Verif.wrB, Prog.run, hw] using h m hm

theorem Triple.rdB {E : Fault → Prop} {w : Win} {P : Mem → Prop} {Q : Nat → Mem → Prop} {a : Nat} (hw : w.has a = true)
    (h : ∀ m, P m → Q (m a) m) : Triple E w P (Verif.rdB a) Q := by
  intro m hm
  simpa [Verif.rdB, Prog.run, hw] using h m hm

theorem Triple.chkIn {E : Fault → Prop} {w : Win} {P : Mem → Prop} {x : InBuf} {a n : Nat} (h : a + n ≤ x.size) :
    Triple E w P (Verif.chkIn x a n) (fun _ => P) := by
  intro m hm
  simpa [Verif.chkIn, h, Prog.run] using hm

/-- The output state after the first `len` bytes at `o` have been produced: those bytes satisfy
`Ok`, everything else is as in `m0`. -/
def Inv (m0 : Mem) (o : Nat) (Ok : Nat → Nat → Prop) (len : Nat) (m : Mem) : Prop :=
  (∀ a, ¬ (o ≤ a ∧ a < o + len) → m a = m0 a) ∧ ∀ j, j < len → Ok j (m (o + j))

theorem Inv.zero (m0 : Mem) (o : Nat) (Ok : Nat → Nat → Prop) : Inv m0 o Ok 0 m0 :=
  ⟨fun _ _ => rfl, fun _ h => absurd h (Nat.not_lt_zero _)⟩

theorem Inv.set {m0 : Mem} {o len b : Nat} {Ok : Nat → Nat → Prop} {m : Mem} (h : Inv m0 o Ok len m)
    (hb : Ok len b) : Inv m0 o Ok (len + 1) (m.set (o + len) b) := by
  constructor
  · intro a ha
    have : a ≠ o + len := by omega
    simp only [Mem.set, this, if_false]
    exact h.1 a (by omega)
  · intro j hj
    by_cases hjl : j = len
    · subst hjl; simpa [Mem.set] using hb
    · have : o + j ≠ o + len := by omega
      simp only [Mem.set, this, if_false]
      exact h.2 j (by omega)

theorem Inv.mono {m0 : Mem} {o len : Nat} {Ok Ok' : Nat → Nat → Prop} {m : Mem} (h : Inv m0 o Ok len m)
    (hok : ∀ j b, j < len → Ok j b → Ok' j b) : Inv m0 o Ok' len m :=
  ⟨h.1, fun j hj => hok j _ hj (h.2 j hj)⟩

theorem Triple.stBytes {E : Fault → Prop} {w : Win} {m0 : Mem} {o len n : Nat} {Ok : Nat → Nat → Prop} {f : Nat → Nat} {a : Nat}
    (ha : a = o + len) (hlo : w.lo ≤ o) (hhi : o + len + n ≤ w.hi) (hok : ∀ k, k < n → Ok (len + k) (f k)) :
    Triple E w (Inv m0 o Ok len) (Verif.stBytes a n f) (fun _ => Inv m0 o Ok (len + n)) := by
  subst ha
  induction n with
  | zero => exact Triple.ret (fun m h => h)
  | succ n ih =>
    refine Triple.bind (ih (by omega) (fun k hk => hok k (by omega))) (fun _ => ?_)
    refine Triple.wrB ?_ ?_
    · simp [Win.has]; omega
    · intro m hm
      have := hm.set (b := f n) (hok n (by omega))
      rwa [show o + (len + n) = o + len + n by omega] at this

theorem Triple.ldBytes {E : Fault → Prop} {w : Win} {P : Mem → Prop} {a n : Nat} (hlo : w.lo ≤ a) (hhi : a + n ≤ w.hi) :
    Triple E w P (Verif.ldBytes a n) (fun f m => P m ∧ ∀ j, j < n → f j = m (a + j)) := by
  induction n with
  | zero => exact Triple.ret (fun m h => ⟨h, fun _ h => absurd h (Nat.not_lt_zero _)⟩)
  | succ n ih =>
    refine Triple.bind (ih (by omega)) (fun f => ?_)
    refine Triple.bind (Q := fun b m => (P m ∧ ∀ j, j < n → f j = m (a + j)) ∧ b = m (a + n)) ?_ (fun b => ?_)
    · refine Triple.rdB ?_ (fun m hm => ⟨hm, rfl⟩)
      simp [Win.has]; omega
    · refine Triple.ret (fun m hm => ⟨hm.1.1, fun j hj => ?_⟩)
      by_cases h : j = n
      · subst h; simpa using hm.2
      · simpa [h] using hm.1.2 j (by omega)

/-- Loop rule. `I i` is the invariant at index `i`. -/
theorem Triple.forI {E : Fault → Prop} {w : Win} {I : Nat → Mem → Prop} {cond : Nat → Bool} {step : Nat}
    {body : Nat → Prog Unit} {fuel i N : Nat} (hstep : 0 < step) (hN : ∀ i, cond i = true → i < N)
    (hfuel : N ≤ i + fuel)
    (hbody : ∀ i, cond i = true → Triple E w (I i) (body i) (fun _ => I (i + step))) :
    Triple E w (I i) (Verif.forI cond step body fuel i)
      (fun i' m => I i' m ∧ cond i' = false ∧ i ≤ i') := by
  induction fuel generalizing i with
  | zero =>
    unfold Verif.forI
    have : cond i = false := by
      cases h : cond i with
      | false => rfl
      | true => have := hN i h; omega
    simp only [this]
    exact Triple.ret (fun m h => ⟨h, this, Nat.le_refl _⟩)
  | succ fuel ih =>
    unfold Verif.forI
    by_cases hc : cond i = true
    · simp only [hc, if_true]
      refine Triple.bind (hbody i hc) (fun _ => ?_)
      exact (ih (i := i + step) (by omega)).weaken (fun a m h => ⟨h.1, h.2.1, by omega⟩)
    · simp only [hc]
      exact Triple.ret (fun m h => ⟨h, by simpa using hc, Nat.le_refl _⟩)

theorem Triple.iff {E : Fault → Prop} {α : Type} {w : Win} {P : Mem → Prop} {p : Prog α} {Q : α → Mem → Prop} :
    Triple E w P p Q ↔ ∀ m, P m → match p.run w m with
      | .ok (a, m') => Q a m'
      | .error f => E f := Iff.rfl

/-- Use the invariant's pure consequences at each memory. -/
theorem Triple.perMem {E : Fault → Prop} {α : Type} {w : Win} {P : Mem → Prop} {p : Prog α} {Q : α → Mem → Prop}
    (h : ∀ m, P m → Triple E w (fun m' => m' = m) p Q) : Triple E w P p Q :=
  fun m hm => h m hm m rfl

attribute [irreducible] Triple

end Verif

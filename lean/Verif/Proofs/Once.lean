import Verif.Proofs.Fresh
import Verif.Proofs.Calls

/-! # Programs that write every output byte at most once -/

namespace Verif
open Simd

/-- The addresses written are ascending, from `lo` on; in `X` a byte may be written, read back and
masked to its low nibble.  A result `a` satisfies `P a`, and everything written before lies below `g a`. -/
inductive AscI {α : Type} (X : Nat → Prop) (g : α → Nat) (P : α → Prop) : Prog α → Nat → Prop
  | ret {a : α} {lo : Nat} (h : lo ≤ g a) (hP : P a) : AscI X g P (.ret a) lo
  | fail {f : Fault} {lo : Nat} : AscI X g P (.fail f) lo
  | rd {a lo : Nat} {k : Nat → Prog α} (h : ∀ b, AscI X g P (k b) lo) : AscI X g P (.rd a k) lo
  | wr {a b lo : Nat} {k : Prog α} (hl : lo ≤ a) (h : AscI X g P k (a + 1)) : AscI X g P (.wr a b k) lo
  | mask {a b lo : Nat} {k : Prog α} (hX : X a) (hl : lo ≤ a) (h : AscI X g P k (a + 1)) :
      AscI X g P (.wr a b (.rd a (fun p => .wr a (p &&& 15) k))) lo

/-- `AscI`, arguments in the order of execution. -/
abbrev Asc {α : Type} (X : Nat → Prop) (p : Prog α) (lo : Nat) (g : α → Nat) (P : α → Prop) : Prop := AscI X g P p lo

section
variable {α β : Type} {X : Nat → Prop}

theorem Asc.lower {p : Prog α} {lo lo' : Nat} {g : α → Nat} {P : α → Prop} (h : Asc X p lo' g P) (hl : lo ≤ lo') : Asc X p lo g P := by
  induction h generalizing lo with
  | ret h hP => exact .ret (le_trans hl h) hP
  | fail => exact .fail
  | rd h ih => exact .rd (fun b => ih b hl)
  | wr hl' h ih => exact .wr (le_trans hl hl') h
  | mask hX hl' h ih => exact .mask hX (le_trans hl hl') h

theorem Asc.bind {p : Prog α} {k : α → Prog β} {lo : Nat} {g : α → Nat} {P : α → Prop} {g' : β → Nat} {P' : β → Prop}
    (h : Asc X p lo g P) (hk : ∀ a, P a → Asc X (k a) (g a) g' P') : Asc X (p >>= k) lo g' P' := by
  show Asc X (p.bind k) lo g' P'
  induction h with
  | ret h hP => exact (hk _ hP).lower h
  | fail => exact .fail
  | rd h ih => exact .rd (fun b => ih b)
  | wr hl' h ih => exact .wr hl' ih
  | mask hX hl' h ih => exact .mask hX hl' ih

theorem Asc.seq {p : Prog Unit} {q : Prog β} {lo : Nat} (mid : Nat) {g' : β → Nat} {P' : β → Prop}
    (h : Asc X p lo (fun _ => mid) (fun _ => True)) (hk : Asc X q mid g' P') : Asc X (do p; q) lo g' P' :=
  h.bind (fun _ _ => hk)

theorem Asc.weaken {p : Prog α} {lo : Nat} {g g' : α → Nat} {P P' : α → Prop} (h : Asc X p lo g P) (hg : ∀ a, P a → g a ≤ g' a ∧ P' a) :
    Asc X p lo g' P' := by
  induction h with
  | ret h hP => exact .ret (le_trans h (hg _ hP).1) (hg _ hP).2
  | fail => exact .fail
  | rd h ih => exact .rd (fun b => ih b)
  | wr hl' h ih => exact .wr hl' ih
  | mask hX hl' h ih => exact .mask hX hl' ih

/-- Nothing is written. -/
def NoWr (p : Prog α) : Prop := ∀ (X : Nat → Prop) (lo : Nat), Asc X p lo (fun _ => lo) (fun _ => True)

theorem NoWr.bind {p : Prog α} {k : α → Prog β} (hp : NoWr p) (hk : ∀ a, NoWr (k a)) : NoWr (p >>= k) :=
  fun X lo => (hp X lo).bind (fun a _ => hk a X lo)
theorem NoWr.pure (a : α) : NoWr (pure a : Prog α) := fun _ _ => .ret (le_refl _) trivial
theorem NoWr.fail (f : Fault) : NoWr (.fail f : Prog α) := fun _ _ => .fail
theorem NoWr.ite {c : Prop} [Decidable c] {p q : Prog α} (hp : NoWr p) (hq : NoWr q) : NoWr (if c then p else q) := by
  split <;> assumption
theorem NoWr.rdB (a : Nat) : NoWr (Verif.rdB a) := fun _ _ => .rd (fun _ => .ret (le_refl _) trivial)

/-- A program that writes nothing, followed by `k`. -/
theorem NoWr.then {p : Prog α} {k : α → Prog β} {lo : Nat} {g : β → Nat} {P : β → Prop} (hp : NoWr p) (hk : ∀ a, Asc X (k a) lo g P) :
    Asc X (p >>= k) lo g P := (hp X lo).bind (fun a _ => hk a)

theorem Asc.fail (f : Fault) {lo : Nat} {g : α → Nat} {P : α → Prop} : Asc X (.fail f : Prog α) lo g P := AscI.fail
theorem Asc.pure {a : α} {lo : Nat} {g : α → Nat} {P : α → Prop} (h : lo ≤ g a) (hP : P a) : Asc X (pure a : Prog α) lo g P := AscI.ret h hP

theorem Asc.ite {c : Prop} [Decidable c] {p q : Prog α} {lo : Nat} {g : α → Nat} {P : α → Prop} (hp : c → Asc X p lo g P) (hq : ¬ c → Asc X q lo g P) :
    Asc X (if c then p else q) lo g P := by
  split
  · next h => exact hp h
  · next h => exact hq h

theorem Asc.wrB {a b lo : Nat} {g : Unit → Nat} (h : lo ≤ a) (hg : a + 1 ≤ g ()) : Asc X (Verif.wrB a b) lo g (fun _ => True) :=
  AscI.wr h (AscI.ret hg trivial)

theorem Asc.stBytes' {a n lo : Nat} {f : Nat → Nat} (h : lo ≤ a) : Asc X (Verif.stBytes a n f) lo (fun _ => a + n) (fun _ => True) := by
  induction n with
  | zero => exact AscI.ret h trivial
  | succ n ih => exact ih.bind (fun _ _ => .wrB (le_refl _) (le_refl _))

theorem Asc.stBytes {a n lo : Nat} {f : Nat → Nat} {g : Unit → Nat} (h : lo ≤ a) (hg : a + n ≤ g ()) : Asc X (Verif.stBytes a n f) lo g (fun _ => True) :=
  (Asc.stBytes' h).weaken (fun _ _ => ⟨hg, trivial⟩)

theorem Asc.forI {cond : Nat → Bool} {step : Nat} {body : Nat → Prog Unit} (g : Nat → Nat) (P : Nat → Prop)
    (h : ∀ i, P i → cond i = true → Asc X (body i) (g i) (fun _ => g (i + step)) (fun _ => True) ∧ P (i + step)) (fuel i : Nat) (hi : P i) :
    Asc X (Verif.forI cond step body fuel i) (g i) g (fun j => P j ∧ cond j = false) := by
  induction fuel generalizing i with
  | zero =>
    unfold Verif.forI
    split
    · exact AscI.fail
    · next hc => exact AscI.ret (le_refl _) ⟨hi, by simpa using hc⟩
  | succ n ih =>
    unfold Verif.forI
    split
    · next hc => exact (h i hi hc).1.bind (fun _ _ => ih _ (h i hi hc).2)
    · next hc => exact AscI.ret (le_refl _) ⟨hi, by simpa using hc⟩

/-- A loop none of whose properties matter but where it has written. -/
theorem Asc.for' {cond : Nat → Bool} {step : Nat} {body : Nat → Prog Unit} (g : Nat → Nat)
    (h : ∀ i, Asc X (body i) (g i) (fun _ => g (i + step)) (fun _ => True)) {fuel i lo : Nat} (hl : lo ≤ g i) :
    Asc X (Verif.forI cond step body fuel i) lo g (fun _ => True) :=
  ((Asc.forI g (fun _ => True) (fun i _ _ => ⟨h i, trivial⟩) fuel i trivial).lower hl).weaken (fun _ _ => ⟨le_refl _, trivial⟩)

end

theorem NoWr.chkIn (x : InBuf) (a n : Nat) : NoWr (Verif.chkIn x a n) := .ite (.pure _) (.fail _)
theorem NoWr.ldX (ft : FT) (x : InBuf) (off i : Nat) : NoWr (Verif.ldX ft x off i) := (NoWr.chkIn _ _ _).bind (fun _ => .pure _)
theorem NoWr.ldQ (x : InBuf) (off i : Nat) : NoWr (Verif.ldQ x off i) := (NoWr.chkIn _ _ _).bind (fun _ => .pure _)
theorem NoWr.toIntAdd (w : Nat) (r : F32) (zp : ℤ) : NoWr (Verif.toIntAdd w r zp) := by
  unfold Verif.toIntAdd
  split
  · exact .fail _
  · exact .ite (.pure _) (.fail _)
theorem NoWr.subI (w : Nat) (a b : ℤ) : NoWr (Verif.subI w a b) := .ite (.pure _) (.fail _)
theorem NoWr.qNearest32 (q : Nat) (v inv : F32) (zp : ℤ) : NoWr (Verif.qNearest32 q v inv zp) := (NoWr.toIntAdd _ _ _).bind (fun _ => .pure _)
theorem NoWr.qStep (mode : RoundMode) (q : Nat) (v τ inv : F32) (zp : ℤ) : NoWr (Verif.qStep mode q v τ inv zp) := by
  cases mode
  · exact (NoWr.toIntAdd _ _ _).bind (fun _ => .pure _)
  · exact (NoWr.toIntAdd _ _ _).bind (fun _ => .pure _)
theorem NoWr.loadu_ps (n : Nat) (x : InBuf) (off i : Nat) : NoWr (Simd.loadu_ps n x off i) := (NoWr.chkIn _ _ _).bind (fun _ => .pure _)
theorem NoWr.loadu_u16 (n : Nat) (x : InBuf) (off i : Nat) : NoWr (Simd.loadu_u16 n x off i) := (NoWr.chkIn _ _ _).bind (fun _ => .pure _)
theorem NoWr.loadu_u8 (n : Nat) (x : InBuf) (off i : Nat) : NoWr (Simd.loadu_u8 n x off i) := (NoWr.chkIn _ _ _).bind (fun _ => .pure _)
theorem NoWr.loadBf16 (n : Nat) (x : InBuf) (off i : Nat) : NoWr (Verif.loadBf16 n x off i) := (NoWr.loadu_u16 _ _ _ _).bind (fun _ => .pure _)
theorem NoWr.ldBytes (a n : Nat) : NoWr (Verif.ldBytes a n) := by
  induction n with
  | zero => exact .pure _
  | succ n ih => exact ih.bind (fun _ => (NoWr.rdB _).bind (fun _ => .pure _))
theorem NoWr.loado_ps (n a : Nat) : NoWr (Simd.loado_ps n a) := (NoWr.ldBytes _ _).bind (fun _ => .pure _)
theorem NoWr.loado_u16 (n a : Nat) : NoWr (Simd.loado_u16 n a) := (NoWr.ldBytes _ _).bind (fun _ => .pure _)
theorem NoWr.dqStepF32 (b : Bool) (q : Nat) (s : F32) (zp : ℤ) : NoWr (Verif.dqStepF32 b q s zp) := (NoWr.subI _ _ _).bind (fun _ => .pure _)
theorem NoWr.dqStepBf16 (q : Nat) (s : F32) (zp : ℤ) : NoWr (Verif.dqStepBf16 q s zp) := (NoWr.subI _ _ _).bind (fun _ => .pure _)
theorem NoWr.dqStep32 (b : Bool) (q : Nat) (s : F32) (zp : ℤ) : NoWr (Verif.dqStep32 b q s zp) := (NoWr.subI _ _ _).bind (fun _ => .pure _)

section
variable {X : Nat → Prop}

theorem Asc.storeu {n : Nat} {a k lo : Nat} {v : V n Nat} {g : Unit → Nat} (h : lo ≤ a) (hg : a + k ≤ g ()) : Asc X (Simd.storeu a k v) lo g (fun _ => True) :=
  .stBytes h hg
theorem Asc.stream {n : Nat} {a lo : Nat} {v : V n Nat} {g : Unit → Nat} (h : lo ≤ a) (hg : a + n ≤ g ()) : Asc X (Simd.stream a v) lo g (fun _ => True) :=
  .ite (fun _ => .stBytes h hg) (fun _ => .fail _)

theorem Asc.u8Loop {ft : FT} {x : InBuf} {off o n : Nat} {inv : F32} {zp : ℤ} {c : Nat → Bool} {i lo : Nat} (h : lo ≤ o + i) :
    Asc X (Verif.u8Loop ft x off o n inv zp c i) lo (fun i => o + i) (fun _ => True) :=
  .for' (fun i => o + i) (fun _ => ((NoWr.ldX _ _ _ _).bind (fun _ => .qNearest32 _ _ _ _)).then (fun _ => .wrB (le_refl _) (by omega))) h

/-- The state of the uint4 loops: an even index within the tensor. -/
def Ev (n : Nat) (i : Nat) : Prop := i % 2 = 0 ∧ i ≤ n

theorem Asc.quantU4From {ft : FT} {step : F32 → Prog Nat} {x : InBuf} {off o n i0 : Nat} (hs : ∀ v, NoWr (step v)) (hX : n % 2 = 1 → X (o + n / 2))
    (hi : Ev n i0) : Asc X (Verif.quantU4From ft step x off o n i0) (o + i0 / 2) (fun _ => o + n) (fun _ => True) := by
  unfold Verif.quantU4From
  refine Asc.bind (Asc.forI (fun i => o + i / 2) (Ev n) (fun i he hc => ⟨?_, ?_⟩) n i0 hi) (fun i hP => ?_)
  · exact (NoWr.ldX _ _ _ _).then (fun _ => (NoWr.ldX _ _ _ _).then (fun _ => (hs _).then (fun _ => (hs _).then (fun _ => .wrB (le_refl _) (by omega)))))
  · have := of_decide_eq_true hc
    unfold Ev at *
    omega
  · obtain ⟨⟨h1, h2⟩, h3⟩ := hP
    have h3 := of_decide_eq_false h3
    refine .ite (fun ho => ?_) (fun _ => .pure (by omega) trivial)
    have e : o + i / 2 = o + n / 2 := by omega
    refine (NoWr.ldX _ _ _ _).then (fun _ => (hs _).then (fun _ => (hs _).then (fun _ => ?_)))
    rw [e]
    exact AscI.mask (hX ho) (le_refl _) (AscI.ret (by show o + n / 2 + 1 ≤ o + n; omega) trivial)

theorem Asc.quantU2 {ft : FT} {step : F32 → Prog Nat} {x : InBuf} {off o n : Nat} (hs : ∀ v, NoWr (step v)) :
    Asc X (Verif.quantU2 ft step x off o n) o (fun _ => o + n) (fun _ => True) := by
  unfold Verif.quantU2
  have h1 : ∀ (j : Nat) (g : Nat → Nat), NoWr (do let a ← Verif.ldX ft x off j; let q ← step a; (Pure.pure (g q) : Prog Nat)) := fun j g =>
    (NoWr.ldX _ _ _ _).bind (fun _ => (hs _).bind (fun _ => .pure _))
  refine Asc.bind ((Asc.forI (fun i => o + i / 4) (fun i => i % 4 = 0 ∧ i ≤ n) (fun i he hc => ⟨?_, ?_⟩) n 0 (by omega)).lower (by omega)) (fun i hP => ?_)
  · exact (NoWr.ldX _ _ _ _).then (fun _ => (NoWr.ldX _ _ _ _).then (fun _ => (NoWr.ldX _ _ _ _).then (fun _ => (NoWr.ldX _ _ _ _).then (fun _ =>
      (hs _).then (fun _ => (hs _).then (fun _ => (hs _).then (fun _ => (hs _).then (fun _ => .wrB (le_refl _) (by omega)))))))))
  · have := of_decide_eq_true hc
    omega
  · obtain ⟨⟨h1', h2⟩, h3⟩ := hP
    have h3 := of_decide_eq_false h3
    refine .ite (fun ho => ?_) (fun _ => .pure (by omega) trivial)
    dsimp only
    exact (NoWr.ite (h1 _ _) (.pure _)).then (fun _ => (NoWr.ite (h1 _ _) (.pure _)).then (fun _ => (h1 _ _).then (fun _ => .wrB (le_refl _) (by omega))))

theorem NoWr.u2StepPacked {step : F32 → Prog Nat} (hs : ∀ v, NoWr (step v)) (a b c d : F32) : NoWr (Verif.u2StepPacked step a b c d) :=
  (hs _).bind (fun _ => (hs _).bind (fun _ => (hs _).bind (fun _ => (hs _).bind (fun _ => .pure _))))

theorem Asc.quantBf16U2Scalar {step : F32 → Prog Nat} {x : InBuf} {off o n i0 lo : Nat} (hs : ∀ v, NoWr (step v)) (hl : lo ≤ o + i0 / 4) (h4 : i0 % 4 = 0 ∧ i0 ≤ n) :
    Asc X (Verif.quantBf16U2Scalar step x off o n i0) lo (fun _ => o + n) (fun _ => True) := by
  unfold Verif.quantBf16U2Scalar
  have h1 : ∀ (j : Nat) (g : Nat → Nat), NoWr (do let a ← Verif.ldX .bf16 x off j; let q ← Verif.u2StepPacked step a f0 f0 f0; (Pure.pure (g q) : Prog Nat)) := fun j g =>
    (NoWr.ldX _ _ _ _).bind (fun _ => (NoWr.u2StepPacked hs _ _ _ _).bind (fun _ => .pure _))
  refine Asc.bind ((Asc.forI (fun i => o + i / 4) (fun i => i % 4 = 0 ∧ i ≤ n) (fun i he hc => ⟨?_, ?_⟩) n i0 h4).lower hl) (fun i hP => ?_)
  · exact (NoWr.ldX _ _ _ _).then (fun _ => (NoWr.ldX _ _ _ _).then (fun _ => (NoWr.ldX _ _ _ _).then (fun _ => (NoWr.ldX _ _ _ _).then (fun _ =>
      (NoWr.u2StepPacked hs _ _ _ _).then (fun _ => .wrB (le_refl _) (by omega))))))
  · have := of_decide_eq_true hc
    omega
  · obtain ⟨⟨h1', h2⟩, h3⟩ := hP
    have h3 := of_decide_eq_false h3
    refine .ite (fun ho => ?_) (fun _ => .pure (by omega) trivial)
    dsimp only
    exact (NoWr.ite (h1 _ _) (.pure _)).then (fun _ => (NoWr.ite (h1 _ _) (.pure _)).then (fun _ => (h1 _ _).then (fun _ => .wrB (le_refl _) (by omega))))

/-- A vector loop of a uint4 kernel: `step` elements at a time, from the start. -/
theorem Asc.u4Vec {o n m step : Nat} {body : Nat → Prog Unit} (hm : m + 1 = step) (h2 : step % 2 = 0)
    (h : ∀ i, Asc X (body i) (o + i / 2) (fun _ => o + i / 2 + step / 2) (fun _ => True)) :
    Asc X (Verif.forI (fun i => i + m < n) step body n 0) o (fun i => o + i / 2) (Ev n) :=
  ((Asc.forI (fun i => o + i / 2) (Ev n) (fun i he hc => ⟨(h i).weaken (fun _ _ => ⟨by omega, trivial⟩), by
    have := of_decide_eq_true hc
    unfold Ev at *
    omega⟩) n 0 (by unfold Ev; omega)).lower (by omega)).weaken (fun _ hP => ⟨le_refl _, hP.1⟩)

/-- A vector loop of the uint2 kernel. -/
theorem Asc.u2Vec {o n m step : Nat} {body : Nat → Prog Unit} (hm : m + 1 = step) (h2 : step % 4 = 0)
    (h : ∀ i, Asc X (body i) (o + i / 4) (fun _ => o + i / 4 + step / 4) (fun _ => True)) :
    Asc X (Verif.forI (fun i => i + m < n) step body n 0) o (fun i => o + i / 4) (fun i => i % 4 = 0 ∧ i ≤ n) :=
  ((Asc.forI (fun i => o + i / 4) (fun i => i % 4 = 0 ∧ i ≤ n) (fun i he hc => ⟨(h i).weaken (fun _ _ => ⟨by omega, trivial⟩), by
    have := of_decide_eq_true hc
    omega⟩) n 0 (by omega)).lower (by omega)).weaken (fun _ hP => ⟨le_refl _, hP.1⟩)

end

/-- `Asc` with nothing said about the end. -/
inductive Once {α : Type} (X : Nat → Prop) : Prog α → Nat → Prop
  | ret {a : α} {lo : Nat} : Once X (.ret a) lo
  | fail {f : Fault} {lo : Nat} : Once X (.fail f) lo
  | rd {a lo : Nat} {k : Nat → Prog α} (h : ∀ b, Once X (k b) lo) : Once X (.rd a k) lo
  | wr {a b lo : Nat} {k : Prog α} (hl : lo ≤ a) (h : Once X k (a + 1)) : Once X (.wr a b k) lo
  | mask {a b lo : Nat} {k : Prog α} (hX : X a) (hl : lo ≤ a) (h : Once X k (a + 1)) :
      Once X (.wr a b (.rd a (fun p => .wr a (p &&& 15) k))) lo

theorem Asc.once {α : Type} {X : Nat → Prop} {p : Prog α} {lo : Nat} {g : α → Nat} {P : α → Prop} (h : Asc X p lo g P) : Once X p lo := by
  induction h with
  | ret h hP => exact .ret
  | fail => exact .fail
  | rd h ih => exact .rd (fun b => ih b)
  | wr hl' h ih => exact .wr hl' ih
  | mask hX hl' h ih => exact .mask hX hl' ih

theorem Once.lower {α : Type} {X : Nat → Prop} {p : Prog α} {lo lo' : Nat} (h : Once X p lo') (hl : lo ≤ lo') : Once X p lo := by
  induction h generalizing lo with
  | ret => exact .ret
  | fail => exact .fail
  | rd h ih => exact .rd (fun b => ih b hl)
  | wr hl' h ih => exact .wr (le_trans hl hl') h
  | mask hX hl' h ih => exact .mask hX (le_trans hl hl') h

theorem Asc.andThen {α β : Type} {X : Nat → Prop} {p : Prog α} {k : α → Prog β} {lo : Nat} {g : α → Nat} {P : α → Prop} (h : Asc X p lo g P)
    (hk : ∀ a, P a → Once X (k a) (g a)) : Once X (p >>= k) lo := by
  show Once X (p.bind k) lo
  induction h with
  | ret h hP => exact (hk _ hP).lower h
  | fail => exact .fail
  | rd h ih => exact .rd (fun b => ih b)
  | wr hl' h ih => exact .wr hl' ih
  | mask hX hl' h ih => exact .mask hX hl' ih

theorem Once.pure {α : Type} {X : Nat → Prop} {a : α} {lo : Nat} : Once X (Pure.pure a : Prog α) lo := .ret

/-- Loads, then the stores. -/
macro "loads" : tactic => `(tactic| repeat (first
  | (with_reducible refine NoWr.then (NoWr.loadu_ps _ _ _ _) (fun _ => ?_))
  | (with_reducible refine NoWr.then (NoWr.loadBf16 _ _ _ _) (fun _ => ?_))
  | (with_reducible refine NoWr.then (NoWr.loadu_u16 _ _ _ _) (fun _ => ?_))
  | (with_reducible refine NoWr.then (NoWr.loadu_u8 _ _ _ _) (fun _ => ?_))))

/-- One vector store. -/
macro "st" : tactic => `(tactic| first
  | (with_reducible refine Asc.stream ?_ ?_) <;> omega
  | (with_reducible refine Asc.storeu ?_ ?_) <;> omega)

section
variable {X : Nat → Prop} {isa : Isa} {x : InBuf} {off o n : Nat} {scale τ : F32} {zp : ℤ}

theorem Asc.pure0 {lo : Nat} {g : Nat → Nat} (h : lo ≤ g 0) : Asc X (Pure.pure 0 : Prog Nat) lo g (fun _ => True) := AscI.ret h trivial

theorem Once.quantF32U8 : Once X (Verif.quantF32U8 isa x off o n scale zp) o := by
  unfold Verif.quantF32U8
  dsimp only
  refine Asc.andThen (g := fun i => o + i) (P := fun _ => True) ?_ (fun i _ => (Asc.u8Loop (le_refl _)).andThen (fun _ _ => .pure))
  cases isa <;> dsimp only
  · exact .pure (by omega) trivial
  · refine (Asc.u8Loop (by omega)).bind (fun i _ => Asc.for' (fun i => o + i) (fun i => ?_) (le_refl _))
    loads
    st
  · refine (Asc.u8Loop (by omega)).bind (fun i _ => Asc.for' (fun i => o + i) (fun i => ?_) (le_refl _))
    loads
    st
  · refine (Asc.u8Loop (by omega)).bind (fun i _ => Asc.for' (fun i => o + i) (fun i => ?_) (le_refl _))
    loads
    with_reducible refine Asc.seq (o + i + 16) ?_ (Asc.seq (o + i + 32) ?_ (Asc.seq (o + i + 48) ?_ ?_)) <;> st
  · refine (Asc.u8Loop (by omega)).bind (fun i _ => Asc.for' (fun i => o + i) (fun i => ?_) (le_refl _))
    loads
    with_reducible refine Asc.seq (o + i + 16) ?_ (Asc.seq (o + i + 32) ?_ (Asc.seq (o + i + 48) ?_ ?_)) <;> st
  · refine Asc.for' (fun i => o + i) (fun i => ?_) (by omega)
    loads
    st

theorem Once.quantBf16U8 : Once X (Verif.quantBf16U8 isa x off o n scale zp) o := by
  unfold Verif.quantBf16U8
  dsimp only
  refine Asc.andThen (g := fun i => o + i) (P := fun _ => True) ?_ (fun i _ => (Asc.u8Loop (le_refl _)).andThen (fun _ _ => .pure))
  cases isa <;> dsimp only
  · exact .pure (by omega) trivial
  · refine (Asc.u8Loop (by omega)).bind (fun i _ => Asc.for' (fun i => o + i) (fun i => ?_) (le_refl _))
    loads
    with_reducible refine Asc.seq (o + i + 16) ?_ ?_ <;> st
  · refine (Asc.u8Loop (by omega)).bind (fun i _ => Asc.for' (fun i => o + i) (fun i => ?_) (le_refl _))
    loads
    st
  · refine Asc.for' (fun i => o + i) (fun i => ?_) (by omega)
    loads
    with_reducible refine Asc.seq (o + i + 16) ?_ (Asc.seq (o + i + 32) ?_ (Asc.seq (o + i + 48) ?_ ?_)) <;> st
  · refine Asc.for' (fun i => o + i) (fun i => ?_) (by omega)
    loads
    with_reducible refine Asc.seq (o + i + 16) ?_ (Asc.seq (o + i + 32) ?_ (Asc.seq (o + i + 48) ?_ ?_)) <;> st
  · exact .pure (by omega) trivial

theorem ev0 : Ev n 0 := ⟨rfl, by omega⟩

theorem Once.quantF32U4 (hX : n % 2 = 1 → X (o + n / 2)) : Once X (Verif.quantF32U4 isa x off o n scale zp) o := by
  unfold Verif.quantF32U4
  dsimp only
  refine Asc.andThen (g := fun i => o + i / 2) (P := Ev n) ?_ (fun i hi => (Asc.quantU4From (fun _ => .qNearest32 _ _ _ _) hX hi).once)
  cases isa <;> dsimp only
  · exact .pure (by omega) ev0
  all_goals first
    | exact .pure (by omega) ev0
    | (refine Asc.u4Vec rfl rfl (fun i => ?_); loads; st)

theorem Once.quantBf16U4 (hX : n % 2 = 1 → X (o + n / 2)) : Once X (Verif.quantBf16U4 isa x off o n scale zp) o := by
  unfold Verif.quantBf16U4
  dsimp only
  refine Asc.andThen (g := fun i => o + i / 2) (P := Ev n) ?_ (fun i hi => (Asc.quantU4From (fun _ => .qNearest32 _ _ _ _) hX hi).once)
  cases isa <;> dsimp only
  all_goals first
    | exact .pure (by omega) ev0
    | (refine Asc.u4Vec rfl rfl (fun i => ?_); loads; st)
    | (refine Asc.u4Vec rfl rfl (fun i => ?_); loads; with_reducible refine Asc.seq (o + i / 2 + 8) ?_ ?_ <;> st)

theorem Once.quantBf16U2 : Once X (Verif.quantBf16U2 isa x off o n scale zp) o := by
  unfold Verif.quantBf16U2
  dsimp only
  refine Asc.andThen (g := fun i => o + i / 4) (P := fun i => i % 4 = 0 ∧ i ≤ n) ?_ (fun i hi => (Asc.quantBf16U2Scalar (fun _ => .qNearest32 _ _ _ _) (le_refl _) hi).once)
  cases isa <;> dsimp only
  all_goals first
    | exact .pure (by omega) (by omega)
    | (refine Asc.u2Vec rfl rfl (fun i => ?_); loads; st)

theorem Once.quantGeneric {ft : FT} {dt : DType} {mode : RoundMode} (hX : dt = .uint4 → n % 2 = 1 → X (o + n / 2)) :
    Once X (Verif.quantGeneric isa ft dt mode x off o n scale τ zp) o := by
  have hg : Once X (quantGenericU8 ft mode x off o n τ (invScale scale) zp) o := by
    unfold Verif.quantGenericU8
    exact (Asc.for' (fun i => o + i) (fun _ => ((NoWr.ldX _ _ _ _).bind (fun _ => .qStep _ _ _ _ _ _)).then (fun _ => .wrB (le_refl _) (by omega))) (le_refl _)).andThen
      (fun _ _ => .pure)
  unfold Verif.quantGeneric
  split
  · exact .quantF32U8
  · exact .quantF32U4 (hX rfl)
  · exact .quantBf16U8
  · exact .quantBf16U4 (hX rfl)
  · exact .quantBf16U2
  · exact (Asc.quantU4From (fun _ => .qStep _ _ _ _ _ _) (hX rfl) ev0).once
  · exact (Asc.quantU2 (fun _ => .qStep _ _ _ _ _ _)).once
  · exact hg

end

/-! ## Dequantization -/

section
variable {X : Nat → Prop} {isa : Isa} {fz : Fuse} {op : ReduceOp} {x : InBuf} {off o n : Nat} {scale τ : F32} {zp : ℤ}

theorem Asc.putF32 {a lo : Nat} {v : Term} {g : Unit → Nat} (h : lo ≤ a) (hg : a + 4 ≤ g ()) : Asc X (Verif.putF32 op a v) lo g (fun _ => True) := by
  cases op
  · exact .stBytes h hg
  · exact ((NoWr.ldBytes _ _).bind (fun _ => .pure _)).then (fun _ => .stBytes h hg)
theorem Asc.putBf16 {a v lo : Nat} {g : Unit → Nat} (h : lo ≤ a) (hg : a + 2 ≤ g ()) : Asc X (Verif.putBf16 op a v) lo g (fun _ => True) := by
  cases op
  · exact .stBytes h hg
  · exact ((NoWr.ldBytes _ _).bind (fun _ => .pure _)).then (fun _ => .stBytes h hg)

/-- `put i q` writes element `i` of size `e`. -/
def Puts (X : Nat → Prop) (e o : Nat) (put : Nat → Nat → Prog Unit) : Prop := ∀ i q, Asc X (put i q) (o + e * i) (fun _ => o + e * (i + 1)) (fun _ => True)

theorem puts32 {b : Bool} : Puts X 4 o (putDq32 b op o scale zp) := fun _ _ => (NoWr.dqStep32 _ _ _ _).then (fun _ => .putF32 (le_refl _) (by omega))
theorem puts64 {b : Bool} : Puts X 4 o (putDq64 b op o scale zp) := fun _ _ => (NoWr.dqStepF32 _ _ _ _).then (fun _ => .putF32 (le_refl _) (by omega))
theorem puts32b : Puts X 2 o (putDq32b op o scale zp) := fun _ _ => (NoWr.dqStep32 _ _ _ _).then (fun _ => .putBf16 (le_refl _) (by omega))

theorem NoWr.accF32 {k a : Nat} {rs : List (V k Term)} : NoWr (Verif.accF32 op a rs) := by
  induction rs generalizing a with
  | nil => exact .pure _
  | cons v vs ih =>
    refine NoWr.bind ?_ (fun _ => ih.bind (fun _ => .pure _))
    cases op
    · exact .pure _
    · exact (NoWr.loado_ps _ _).bind (fun _ => .pure _)
theorem NoWr.accBf16 {k a : Nat} {rs : List (V k Term)} : NoWr (Verif.accBf16 op a rs) := by
  induction rs generalizing a with
  | nil => exact .pure _
  | cons v vs ih =>
    refine NoWr.bind ?_ (fun _ => ih.bind (fun _ => .pure _))
    cases op
    · exact .pure _
    · exact (NoWr.loado_u16 _ _).bind (fun _ => .pure _)

theorem Asc.storeF32s {k a lo : Nat} {rs : List (V k F32)} (h : lo ≤ a) : Asc X (Verif.storeF32s a rs) lo (fun _ => a + 4 * k * rs.length) (fun _ => True) := by
  induction rs generalizing a lo with
  | nil => exact .pure (by omega) trivial
  | cons v vs ih =>
    refine Asc.seq (a + 4 * k) (.stBytes h (le_refl _)) ((ih (le_refl _)).weaken (fun _ _ => ⟨?_, trivial⟩))
    simp only [List.length_cons, Nat.mul_add, Nat.mul_one]; omega
theorem Asc.storeBf16s {k a lo : Nat} {rs : List (V k F32)} (h : lo ≤ a) : Asc X (Verif.storeBf16s isa a rs) lo (fun _ => a + 2 * k * rs.length) (fun _ => True) := by
  induction rs generalizing a lo with
  | nil => exact .pure (by omega) trivial
  | cons v vs ih =>
    refine Asc.seq (a + 2 * k) (.stBytes h (le_refl _)) ((ih (le_refl _)).weaken (fun _ _ => ⟨?_, trivial⟩))
    simp only [List.length_cons, Nat.mul_add, Nat.mul_one]; omega

theorem accF32_len {k a lo : Nat} {rs : List (V k Term)} : Asc X (Verif.accF32 op a rs) lo (fun _ => lo) (fun r => r.length = rs.length) := by
  induction rs generalizing a with
  | nil => exact .pure (le_refl _) rfl
  | cons v vs ih =>
    refine NoWr.then ?_ (fun _ => ih.bind (fun r hr => .pure (le_refl _) (by simp only [List.length_cons]; omega)))
    cases op
    · exact .pure _
    · exact (NoWr.loado_ps _ _).bind (fun _ => .pure _)
theorem accBf16_len {k a lo : Nat} {rs : List (V k Term)} : Asc X (Verif.accBf16 op a rs) lo (fun _ => lo) (fun r => r.length = rs.length) := by
  induction rs generalizing a with
  | nil => exact .pure (le_refl _) rfl
  | cons v vs ih =>
    refine NoWr.then ?_ (fun _ => ih.bind (fun r hr => .pure (le_refl _) (by simp only [List.length_cons]; omega)))
    cases op
    · exact .pure _
    · exact (NoWr.loado_u16 _ _).bind (fun _ => .pure _)

theorem Asc.emitF32 {k a lo : Nat} {rs : List (V k Term)} {g : Unit → Nat} (h : lo ≤ a) (hg : a + 4 * k * rs.length ≤ g ()) :
    Asc X (Verif.emitF32 op a rs) lo g (fun _ => True) :=
  accF32_len.bind (fun r hr => (Asc.storeF32s h).weaken (fun _ _ => ⟨by rw [hr]; exact hg, trivial⟩))
theorem Asc.emitBf16 {k a lo : Nat} {rs : List (V k Term)} {g : Unit → Nat} (h : lo ≤ a) (hg : a + 2 * k * rs.length ≤ g ()) :
    Asc X (Verif.emitBf16 isa op a rs) lo g (fun _ => True) :=
  accBf16_len.bind (fun r hr => (Asc.storeBf16s h).weaken (fun _ _ => ⟨by rw [hr]; exact hg, trivial⟩))

theorem Once.dqU8Loop {e i : Nat} {put : Nat → Nat → Prog Unit} (hp : Puts X e o put) : Once X (Verif.dqU8Loop put x off n i) (o + e * i) :=
  (Asc.for' (fun i => o + e * i) (fun _ => (NoWr.ldQ _ _ _).then (fun _ => hp _ _)) (le_refl _)).andThen (fun _ _ => .pure)

theorem Once.dqU4From {e i : Nat} {put : Nat → Nat → Prog Unit} (hp : Puts X e o put) (hi : Ev n i) : Once X (Verif.dqU4From put x off n i) (o + e * i) := by
  unfold Verif.dqU4From
  refine (Asc.forI (fun i => o + e * i) (Ev n) (fun i he hc => ⟨?_, ?_⟩) n i hi).andThen (fun i hP => ?_)
  · exact (NoWr.ldQ _ _ _).then (fun _ => .seq _ (hp _ _) (hp _ _))
  · have := of_decide_eq_true hc
    unfold Ev at *
    omega
  · obtain ⟨⟨h1, h2⟩, h3⟩ := hP
    have h3 := of_decide_eq_false h3
    split
    · have e : n - 1 = i := by omega
      rw [e]
      exact ((NoWr.ldQ _ _ _).then (fun _ => hp _ _)).once
    · exact .pure

theorem Asc.opt {e c : Nat} {b : Prop} [Decidable b] {put : Nat → Nat → Prog Unit} {q : Nat} (hp : Puts X e o put) :
    Asc X (if b then put c q else (Pure.pure () : Prog Unit)) (o + e * c) (fun _ => o + e * (c + 1)) (fun _ => True) :=
  .ite (fun _ => hp _ _) (fun _ => .pure (by simp only [Nat.mul_add]; omega) trivial)

theorem Once.dqU2From {e i : Nat} {put : Nat → Nat → Prog Unit} (hp : Puts X e o put) : Once X (Verif.dqU2From put x off n i) (o + e * i) := by
  unfold Verif.dqU2From
  refine (Asc.for' (fun i => o + e * i) (fun _ => (NoWr.ldQ _ _ _).then (fun _ => .seq _ (hp _ _) (.seq _ (hp _ _) (.seq _ (hp _ _) (hp _ _))))) (le_refl _)).andThen (fun i _ => ?_)
  split
  · refine Asc.once (g := fun _ => o + e * (i + 3)) (P := fun _ => True) ((NoWr.ldQ _ _ _).then (fun p => ?_))
    have h3 : ∀ {lo : Nat}, lo ≤ o + e * (i + 2) → Asc X (if 3 ≤ n - i then put (i + 2) ((p >>> 4) &&& 3) else (Pure.pure () : Prog Unit)) lo (fun _ => o + e * (i + 3)) (fun _ => True) :=
      fun h => (Asc.opt hp).lower h
    have h2 : ∀ {lo : Nat}, lo ≤ o + e * (i + 1) → Asc X (if 2 ≤ n - i then (do put (i + 1) ((p >>> 2) &&& 3); if 3 ≤ n - i then put (i + 2) ((p >>> 4) &&& 3) else (Pure.pure () : Prog Unit))
        else (do (Pure.pure () : Prog Unit); if 3 ≤ n - i then put (i + 2) ((p >>> 4) &&& 3) else (Pure.pure () : Prog Unit))) lo (fun _ => o + e * (i + 3)) (fun _ => True) :=
      fun h => .ite (fun _ => .seq _ ((hp _ _).lower h) (h3 (le_refl _))) (fun _ => h3 (le_trans h (by simp only [Nat.mul_add]; omega)))
    exact .ite (fun _ => .seq _ (hp _ _) (h2 (le_refl _))) (fun _ => h2 (by simp only [Nat.mul_add]; omega))
  · exact .pure

theorem Once.dequantUint2 {e : Nat} {put putSet : Nat → Nat → Prog Unit} (hp : Puts X e o put) (hp' : Puts X e o putSet) :
    Once X (Verif.dequantUint2 put putSet x off n) o := by
  unfold Verif.dequantUint2
  refine (Asc.for' (fun i => o + e * i) (fun _ => (NoWr.ldQ _ _ _).then (fun _ => .seq _ (hp _ _) (.seq _ (hp _ _) (.seq _ (hp _ _) (hp _ _))))) (by omega)).andThen (fun i _ => ?_)
  refine Asc.andThen (NoWr.ldQ _ _ _ X _) (fun p _ => ?_)
  split
  · exact (hp' _ _).once
  · exact (Asc.seq _ (hp' _ _) (hp' _ _)).once
  · exact (Asc.seq _ (hp' _ _) (.seq _ (hp' _ _) (hp' _ _))).once
  · exact .pure

/-- A vector loop of a dequantize kernel. -/
theorem Asc.dqVec {e m step : Nat} {body : Nat → Prog Unit} (hm : m + 1 = step) (h2 : step % 2 = 0)
    (h : ∀ i, Asc X (body i) (o + e * i) (fun _ => o + e * i + e * step) (fun _ => True)) :
    Asc X (Verif.forI (fun i => i + m < n) step body n 0) o (fun i => o + e * i) (Ev n) :=
  ((Asc.forI (fun i => o + e * i) (Ev n) (fun i he hc => ⟨(h i).weaken (fun _ _ => ⟨by simp only [Nat.mul_add]; omega, trivial⟩), by
    have := of_decide_eq_true hc
    unfold Ev at *
    omega⟩) n 0 ev0).lower (by omega)).weaken (fun _ hP => ⟨le_refl _, hP.1⟩)

/-- A group of stores. -/
macro "em" : tactic => `(tactic| first
  | (with_reducible refine Asc.emitF32 (by omega) ?_)
    (simp only [List.length_map, List.length_append, List.length_cons, List.length_nil, expandAvx2, expandSse, expandWords, expand512, unpackCrumbs]; omega)
  | (with_reducible refine Asc.emitBf16 (by omega) ?_)
    (simp only [List.length_map, List.length_append, List.length_cons, List.length_nil, expandAvx2, expandSse, expandWords, expand512, unpackCrumbs]; omega))

theorem Once.dequantU8F32 : Once X (Verif.dequantU8F32 isa fz op x off o n scale zp) o := by
  unfold Verif.dequantU8F32
  refine Asc.andThen (g := fun i => o + 4 * i) (P := Ev n) ?_ (fun i _ => .dqU8Loop puts32)
  cases isa <;> dsimp only
  all_goals first
    | exact .pure (by omega) ev0
    | (refine Asc.dqVec rfl rfl (fun i => ?_); loads; em)

theorem Once.dequantU8Bf16 : Once X (Verif.dequantU8Bf16 isa fz op x off o n scale zp) o := by
  unfold Verif.dequantU8Bf16
  refine Asc.andThen (g := fun i => o + 2 * i) (P := Ev n) ?_ (fun i _ => .dqU8Loop puts32b)
  cases isa <;> dsimp only
  all_goals first
    | exact .pure (by omega) ev0
    | (refine Asc.dqVec rfl rfl (fun i => ?_); loads; em)

theorem Once.dequantU4F32 : Once X (Verif.dequantU4F32 isa fz op x off o n scale zp) o := by
  unfold Verif.dequantU4F32
  refine Asc.andThen (g := fun i => o + 4 * i) (P := Ev n) ?_ (fun i hi => .dqU4From puts32 hi)
  cases isa <;> dsimp only
  all_goals first
    | exact .pure (by omega) ev0
    | (refine Asc.dqVec rfl rfl (fun i => ?_); loads; em)
    | (refine Asc.dqVec rfl rfl (fun i => ?_); loads; (with_reducible refine Asc.seq (o + 4 * i + 64) ?_ ?_) <;> em)

theorem Once.dequantU4Bf16 : Once X (Verif.dequantU4Bf16 isa op x off o n scale zp) o := by
  unfold Verif.dequantU4Bf16
  refine Asc.andThen (g := fun i => o + 2 * i) (P := Ev n) ?_ (fun i hi => .dqU4From puts32b hi)
  cases isa <;> dsimp only
  all_goals first
    | exact .pure (by omega) ev0
    | (refine Asc.dqVec rfl rfl (fun i => ?_); loads; em)

theorem Once.dequantU2Bf16 : Once X (Verif.dequantU2Bf16 isa op x off o n scale zp) o := by
  unfold Verif.dequantU2Bf16
  dsimp only
  refine Asc.andThen (g := fun i => o + 2 * i) (P := Ev n) ?_ (fun i hi => .dqU2From (fun _ _ => .putBf16 (le_refl _) (by omega)))
  have hd : ∀ (src base : Nat), Asc X (do
      let b ← loadu_u8 16 x off src
      Verif.emitBf16 (n := 16) isa op (o + 2 * base) ((unpackCrumbs b).map (fun z => dqFma scale zp (cvtepu8_epi32 z (by omega))))) (o + 2 * base)
      (fun _ => o + 2 * base + 128) (fun _ => True) := by
    intro src base
    loads; em
  have hb : ∀ i, Asc X (do
      (do
        let b ← loadu_u8 16 x off (i / 4)
        Verif.emitBf16 (n := 16) isa op (o + 2 * i) ((unpackCrumbs b).map (fun z => dqFma scale zp (cvtepu8_epi32 z (by omega)))))
      (do
        let b ← loadu_u8 16 x off (i / 4 + 16)
        Verif.emitBf16 (n := 16) isa op (o + 2 * (i + 64)) ((unpackCrumbs b).map (fun z => dqFma scale zp (cvtepu8_epi32 z (by omega)))))
      (do
        let b ← loadu_u8 16 x off (i / 4 + 32)
        Verif.emitBf16 (n := 16) isa op (o + 2 * (i + 128)) ((unpackCrumbs b).map (fun z => dqFma scale zp (cvtepu8_epi32 z (by omega)))))
      (do
        let b ← loadu_u8 16 x off (i / 4 + 48)
        Verif.emitBf16 (n := 16) isa op (o + 2 * (i + 192)) ((unpackCrumbs b).map (fun z => dqFma scale zp (cvtepu8_epi32 z (by omega)))))) (o + 2 * i)
      (fun _ => o + 2 * i + 2 * 256) (fun _ => True) := fun i =>
    .seq _ (hd _ _) (.seq _ ((hd _ _).lower (by omega)) (.seq _ ((hd _ _).lower (by omega)) ((hd _ _).lower (by omega) |>.weaken (fun _ _ => ⟨by omega, trivial⟩))))
  cases isa <;> dsimp only
  · exact .pure (by omega) ev0
  · exact .pure (by omega) ev0
  · exact .pure (by omega) ev0
  · exact Asc.dqVec rfl rfl hb
  · exact Asc.dqVec rfl rfl hb
  · exact .pure (by omega) ev0

theorem Once.dequantGeneric {ft : FT} {dt : DType} : Once X (Verif.dequantGeneric isa fz dt ft op x off o n scale zp) o := by
  unfold Verif.dequantGeneric
  split
  · exact .dequantU8F32
  · exact .dequantU4F32
  · exact .dequantU8Bf16
  · exact .dequantU4Bf16
  · exact .dequantU2Bf16
  · exact .dequantUint2 puts64 puts64
  · exact .fail

theorem Once.requantGeneric {ft : FT} {dt : DType} {mode : RoundMode} : Once X (Verif.requantGeneric fz ft dt mode op x off o n scale τ zp) o := by
  unfold Verif.requantGeneric
  refine (Asc.for' (fun i => o + ft.size * i) (fun i => ?_) (by omega)).andThen (fun _ _ => .pure)
  refine (NoWr.ldX _ _ _ _).then (fun _ => (NoWr.qStep _ _ _ _ _ _).then (fun _ => ?_))
  cases ft
  · exact (NoWr.dqStepF32 _ _ _ _).then (fun _ => .putF32 (by show o + 4 * i ≤ _; omega) (by show _ ≤ o + 4 * (i + 1); omega))
  · exact (NoWr.dqStepBf16 _ _ _).then (fun _ => .putBf16 (by show o + 2 * i ≤ _; omega) (by show _ ≤ o + 2 * (i + 1); omega))

end
end Verif

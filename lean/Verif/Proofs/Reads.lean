import Verif.Proofs.Once

/-! # Programs that read every output byte at most once -/

namespace Verif
open Simd

/-- The output bytes read are ascending, from `lo` on, and all in `X`.  A result `a` satisfies `P a`, and everything read before
lies below `g a`. -/
inductive RdI {α : Type} (X : Nat → Prop) (g : α → Nat) (P : α → Prop) : Prog α → Nat → Prop
  | ret {a : α} {lo : Nat} (h : lo ≤ g a) (hP : P a) : RdI X g P (.ret a) lo
  | fail {f : Fault} {lo : Nat} : RdI X g P (.fail f) lo
  | rd {a lo : Nat} {k : Nat → Prog α} (hX : X a) (hl : lo ≤ a) (h : ∀ b, RdI X g P (k b) (a + 1)) : RdI X g P (.rd a k) lo
  | wr {a b lo : Nat} {k : Prog α} (h : RdI X g P k lo) : RdI X g P (.wr a b k) lo

/-- `RdI`, arguments in the order of execution. -/
abbrev RAsc {α : Type} (X : Nat → Prop) (p : Prog α) (lo : Nat) (g : α → Nat) (P : α → Prop) : Prop := RdI X g P p lo

section
variable {α β : Type} {X : Nat → Prop}

theorem RAsc.lower {p : Prog α} {lo lo' : Nat} {g : α → Nat} {P : α → Prop} (h : RAsc X p lo' g P) (hl : lo ≤ lo') : RAsc X p lo g P := by
  induction h generalizing lo with
  | ret h hP => exact .ret (le_trans hl h) hP
  | fail => exact .fail
  | rd hX hl' h ih => exact .rd hX (le_trans hl hl') h
  | wr h ih => exact .wr (ih hl)

theorem RAsc.bind {p : Prog α} {k : α → Prog β} {lo : Nat} {g : α → Nat} {P : α → Prop} {g' : β → Nat} {P' : β → Prop}
    (h : RAsc X p lo g P) (hk : ∀ a, P a → RAsc X (k a) (g a) g' P') : RAsc X (p >>= k) lo g' P' := by
  show RAsc X (p.bind k) lo g' P'
  induction h with
  | ret h hP => exact (hk _ hP).lower h
  | fail => exact .fail
  | rd hX hl h ih => exact .rd hX hl (fun b => ih b)
  | wr h ih => exact .wr ih

theorem RAsc.seq {p : Prog Unit} {q : Prog β} {lo : Nat} (mid : Nat) {g' : β → Nat} {P' : β → Prop}
    (h : RAsc X p lo (fun _ => mid) (fun _ => True)) (hk : RAsc X q mid g' P') : RAsc X (do p; q) lo g' P' :=
  h.bind (fun _ _ => hk)

theorem RAsc.weaken {p : Prog α} {lo : Nat} {g g' : α → Nat} {P P' : α → Prop} (h : RAsc X p lo g P) (hg : ∀ a, P a → g a ≤ g' a ∧ P' a) :
    RAsc X p lo g' P' := by
  induction h with
  | ret h hP => exact .ret (le_trans h (hg _ hP).1) (hg _ hP).2
  | fail => exact .fail
  | rd hX hl h ih => exact .rd hX hl (fun b => ih b)
  | wr h ih => exact .wr ih

/-- No output byte is read. -/
def NoR (p : Prog α) : Prop := ∀ (X : Nat → Prop) (lo : Nat), RAsc X p lo (fun _ => lo) (fun _ => True)

theorem NoR.bind {p : Prog α} {k : α → Prog β} (hp : NoR p) (hk : ∀ a, NoR (k a)) : NoR (p >>= k) :=
  fun X lo => (hp X lo).bind (fun a _ => hk a X lo)
theorem NoR.pure (a : α) : NoR (pure a : Prog α) := fun _ _ => .ret (le_refl _) trivial
theorem NoR.fail (f : Fault) : NoR (.fail f : Prog α) := fun _ _ => .fail
theorem NoR.ite {c : Prop} [Decidable c] {p q : Prog α} (hp : NoR p) (hq : NoR q) : NoR (if c then p else q) := by
  split <;> assumption

/-- A program that writes nothing, followed by `k`. -/
theorem NoR.then {p : Prog α} {k : α → Prog β} {lo : Nat} {g : β → Nat} {P : β → Prop} (hp : NoR p) (hk : ∀ a, RAsc X (k a) lo g P) :
    RAsc X (p >>= k) lo g P := (hp X lo).bind (fun a _ => hk a)

theorem RAsc.fail (f : Fault) {lo : Nat} {g : α → Nat} {P : α → Prop} : RAsc X (.fail f : Prog α) lo g P := RdI.fail
theorem RAsc.pure {a : α} {lo : Nat} {g : α → Nat} {P : α → Prop} (h : lo ≤ g a) (hP : P a) : RAsc X (pure a : Prog α) lo g P := RdI.ret h hP

theorem RAsc.ite {c : Prop} [Decidable c] {p q : Prog α} {lo : Nat} {g : α → Nat} {P : α → Prop} (hp : c → RAsc X p lo g P) (hq : ¬ c → RAsc X q lo g P) :
    RAsc X (if c then p else q) lo g P := by
  split
  · next h => exact hp h
  · next h => exact hq h

theorem RAsc.wrB {a b lo : Nat} {g : Unit → Nat} (h : lo ≤ a) (hg : a + 1 ≤ g ()) : RAsc X (Verif.wrB a b) lo g (fun _ => True) :=
  RdI.wr (RdI.ret (by omega) trivial)

theorem RAsc.stBytes' {a n lo : Nat} {f : Nat → Nat} (h : lo ≤ a) : RAsc X (Verif.stBytes a n f) lo (fun _ => a + n) (fun _ => True) := by
  induction n with
  | zero => exact RdI.ret h trivial
  | succ n ih => exact ih.bind (fun _ _ => .wrB (le_refl _) (le_refl _))

theorem RAsc.stBytes0 {a n lo : Nat} {f : Nat → Nat} {g : Unit → Nat} (hg : lo ≤ g ()) : RAsc X (Verif.stBytes a n f) lo g (fun _ => True) := by
  have : RAsc X (Verif.stBytes a n f) lo (fun _ => lo) (fun _ => True) := by
    induction n with
    | zero => exact RdI.ret (le_refl _) trivial
    | succ n ih => exact ih.bind (fun _ _ => RdI.wr (RdI.ret (le_refl _) trivial))
  exact this.weaken (fun _ _ => ⟨hg, trivial⟩)

theorem RAsc.stBytes {a n lo : Nat} {f : Nat → Nat} {g : Unit → Nat} (h : lo ≤ a) (hg : a + n ≤ g ()) : RAsc X (Verif.stBytes a n f) lo g (fun _ => True) :=
  (RAsc.stBytes' h).weaken (fun _ _ => ⟨hg, trivial⟩)

theorem RAsc.forI {cond : Nat → Bool} {step : Nat} {body : Nat → Prog Unit} (g : Nat → Nat) (P : Nat → Prop)
    (h : ∀ i, P i → cond i = true → RAsc X (body i) (g i) (fun _ => g (i + step)) (fun _ => True) ∧ P (i + step)) (fuel i : Nat) (hi : P i) :
    RAsc X (Verif.forI cond step body fuel i) (g i) g (fun j => P j ∧ cond j = false) := by
  induction fuel generalizing i with
  | zero =>
    unfold Verif.forI
    split
    · exact RdI.fail
    · next hc => exact RdI.ret (le_refl _) ⟨hi, by simpa using hc⟩
  | succ n ih =>
    unfold Verif.forI
    split
    · next hc => exact (h i hi hc).1.bind (fun _ _ => ih _ (h i hi hc).2)
    · next hc => exact RdI.ret (le_refl _) ⟨hi, by simpa using hc⟩

/-- A loop none of whose properties matter but where it has written. -/
theorem RAsc.for' {cond : Nat → Bool} {step : Nat} {body : Nat → Prog Unit} (g : Nat → Nat)
    (h : ∀ i, RAsc X (body i) (g i) (fun _ => g (i + step)) (fun _ => True)) {fuel i lo : Nat} (hl : lo ≤ g i) :
    RAsc X (Verif.forI cond step body fuel i) lo g (fun _ => True) :=
  ((RAsc.forI g (fun _ => True) (fun i _ _ => ⟨h i, trivial⟩) fuel i trivial).lower hl).weaken (fun _ _ => ⟨le_refl _, trivial⟩)

end

theorem NoR.chkIn (x : InBuf) (a n : Nat) : NoR (Verif.chkIn x a n) := .ite (.pure _) (.fail _)
theorem NoR.ldX (ft : FT) (x : InBuf) (off i : Nat) : NoR (Verif.ldX ft x off i) := (NoR.chkIn _ _ _).bind (fun _ => .pure _)
theorem NoR.ldQ (x : InBuf) (off i : Nat) : NoR (Verif.ldQ x off i) := (NoR.chkIn _ _ _).bind (fun _ => .pure _)
theorem NoR.toIntAdd (w : Nat) (r : F32) (zp : ℤ) : NoR (Verif.toIntAdd w r zp) := by
  unfold Verif.toIntAdd
  split
  · exact .fail _
  · exact .ite (.pure _) (.fail _)
theorem NoR.subI (w : Nat) (a b : ℤ) : NoR (Verif.subI w a b) := .ite (.pure _) (.fail _)
theorem NoR.qNearest32 (q : Nat) (v inv : F32) (zp : ℤ) : NoR (Verif.qNearest32 q v inv zp) := (NoR.toIntAdd _ _ _).bind (fun _ => .pure _)
theorem NoR.qStep (mode : RoundMode) (q : Nat) (v τ inv : F32) (zp : ℤ) : NoR (Verif.qStep mode q v τ inv zp) := by
  cases mode
  · exact (NoR.toIntAdd _ _ _).bind (fun _ => .pure _)
  · exact (NoR.toIntAdd _ _ _).bind (fun _ => .pure _)
theorem NoR.loadu_ps (n : Nat) (x : InBuf) (off i : Nat) : NoR (Simd.loadu_ps n x off i) := (NoR.chkIn _ _ _).bind (fun _ => .pure _)
theorem NoR.loadu_u16 (n : Nat) (x : InBuf) (off i : Nat) : NoR (Simd.loadu_u16 n x off i) := (NoR.chkIn _ _ _).bind (fun _ => .pure _)
theorem NoR.loadu_u8 (n : Nat) (x : InBuf) (off i : Nat) : NoR (Simd.loadu_u8 n x off i) := (NoR.chkIn _ _ _).bind (fun _ => .pure _)
theorem NoR.loadBf16 (n : Nat) (x : InBuf) (off i : Nat) : NoR (Verif.loadBf16 n x off i) := (NoR.loadu_u16 _ _ _ _).bind (fun _ => .pure _)
theorem NoR.dqStepF32 (b : Bool) (q : Nat) (s : F32) (zp : ℤ) : NoR (Verif.dqStepF32 b q s zp) := (NoR.subI _ _ _).bind (fun _ => .pure _)
theorem NoR.dqStepBf16 (q : Nat) (s : F32) (zp : ℤ) : NoR (Verif.dqStepBf16 q s zp) := (NoR.subI _ _ _).bind (fun _ => .pure _)
theorem NoR.dqStep32 (b : Bool) (q : Nat) (s : F32) (zp : ℤ) : NoR (Verif.dqStep32 b q s zp) := (NoR.subI _ _ _).bind (fun _ => .pure _)

section
variable {X : Nat → Prop}

theorem RAsc.storeu {n : Nat} {a k lo : Nat} {v : V n Nat} {g : Unit → Nat} (h : lo ≤ a) (hg : a + k ≤ g ()) : RAsc X (Simd.storeu a k v) lo g (fun _ => True) :=
  .stBytes h hg
theorem RAsc.stream {n : Nat} {a lo : Nat} {v : V n Nat} {g : Unit → Nat} (h : lo ≤ a) (hg : a + n ≤ g ()) : RAsc X (Simd.stream a v) lo g (fun _ => True) :=
  .ite (fun _ => .stBytes h hg) (fun _ => .fail _)

theorem RAsc.u8Loop {ft : FT} {x : InBuf} {off o n : Nat} {inv : F32} {zp : ℤ} {c : Nat → Bool} {i lo : Nat} (h : lo ≤ o + i) :
    RAsc X (Verif.u8Loop ft x off o n inv zp c i) lo (fun i => o + i) (fun _ => True) :=
  .for' (fun i => o + i) (fun _ => ((NoR.ldX _ _ _ _).bind (fun _ => .qNearest32 _ _ _ _)).then (fun _ => .wrB (le_refl _) (by omega))) h


theorem RAsc.quantU4From {ft : FT} {step : F32 → Prog Nat} {x : InBuf} {off o n i0 : Nat} (hs : ∀ v, NoR (step v)) (hX : n % 2 = 1 → X (o + n / 2))
    (hi : Ev n i0) : RAsc X (Verif.quantU4From ft step x off o n i0) (o + i0 / 2) (fun _ => o + n) (fun _ => True) := by
  unfold Verif.quantU4From
  refine RAsc.bind (RAsc.forI (fun i => o + i / 2) (Ev n) (fun i he hc => ⟨?_, ?_⟩) n i0 hi) (fun i hP => ?_)
  · exact (NoR.ldX _ _ _ _).then (fun _ => (NoR.ldX _ _ _ _).then (fun _ => (hs _).then (fun _ => (hs _).then (fun _ => .wrB (le_refl _) (by omega)))))
  · have := of_decide_eq_true hc
    unfold Ev at *
    omega
  · obtain ⟨⟨h1, h2⟩, h3⟩ := hP
    have h3 := of_decide_eq_false h3
    refine .ite (fun ho => ?_) (fun _ => .pure (by omega) trivial)
    have e : o + i / 2 = o + n / 2 := by omega
    refine (NoR.ldX _ _ _ _).then (fun _ => (hs _).then (fun _ => (hs _).then (fun _ => ?_)))
    rw [e]
    exact RdI.wr (RdI.rd (hX ho) (le_refl _) (fun _ => RdI.wr (RdI.ret (by show o + n / 2 + 1 ≤ o + n; omega) trivial)))

theorem RAsc.quantU2 {ft : FT} {step : F32 → Prog Nat} {x : InBuf} {off o n : Nat} (hs : ∀ v, NoR (step v)) :
    RAsc X (Verif.quantU2 ft step x off o n) o (fun _ => o + n) (fun _ => True) := by
  unfold Verif.quantU2
  have h1 : ∀ (j : Nat) (g : Nat → Nat), NoR (do let a ← Verif.ldX ft x off j; let q ← step a; (Pure.pure (g q) : Prog Nat)) := fun j g =>
    (NoR.ldX _ _ _ _).bind (fun _ => (hs _).bind (fun _ => .pure _))
  refine RAsc.bind ((RAsc.forI (fun i => o + i / 4) (fun i => i % 4 = 0 ∧ i ≤ n) (fun i he hc => ⟨?_, ?_⟩) n 0 (by omega)).lower (by omega)) (fun i hP => ?_)
  · exact (NoR.ldX _ _ _ _).then (fun _ => (NoR.ldX _ _ _ _).then (fun _ => (NoR.ldX _ _ _ _).then (fun _ => (NoR.ldX _ _ _ _).then (fun _ =>
      (hs _).then (fun _ => (hs _).then (fun _ => (hs _).then (fun _ => (hs _).then (fun _ => .wrB (le_refl _) (by omega)))))))))
  · have := of_decide_eq_true hc
    omega
  · obtain ⟨⟨h1', h2⟩, h3⟩ := hP
    have h3 := of_decide_eq_false h3
    refine .ite (fun ho => ?_) (fun _ => .pure (by omega) trivial)
    dsimp only
    exact (NoR.ite (h1 _ _) (.pure _)).then (fun _ => (NoR.ite (h1 _ _) (.pure _)).then (fun _ => (h1 _ _).then (fun _ => .wrB (le_refl _) (by omega))))

theorem NoR.u2StepPacked {step : F32 → Prog Nat} (hs : ∀ v, NoR (step v)) (a b c d : F32) : NoR (Verif.u2StepPacked step a b c d) :=
  (hs _).bind (fun _ => (hs _).bind (fun _ => (hs _).bind (fun _ => (hs _).bind (fun _ => .pure _))))

theorem RAsc.quantBf16U2Scalar {step : F32 → Prog Nat} {x : InBuf} {off o n i0 lo : Nat} (hs : ∀ v, NoR (step v)) (hl : lo ≤ o + i0 / 4) (h4 : i0 % 4 = 0 ∧ i0 ≤ n) :
    RAsc X (Verif.quantBf16U2Scalar step x off o n i0) lo (fun _ => o + n) (fun _ => True) := by
  unfold Verif.quantBf16U2Scalar
  have h1 : ∀ (j : Nat) (g : Nat → Nat), NoR (do let a ← Verif.ldX .bf16 x off j; let q ← Verif.u2StepPacked step a f0 f0 f0; (Pure.pure (g q) : Prog Nat)) := fun j g =>
    (NoR.ldX _ _ _ _).bind (fun _ => (NoR.u2StepPacked hs _ _ _ _).bind (fun _ => .pure _))
  refine RAsc.bind ((RAsc.forI (fun i => o + i / 4) (fun i => i % 4 = 0 ∧ i ≤ n) (fun i he hc => ⟨?_, ?_⟩) n i0 h4).lower hl) (fun i hP => ?_)
  · exact (NoR.ldX _ _ _ _).then (fun _ => (NoR.ldX _ _ _ _).then (fun _ => (NoR.ldX _ _ _ _).then (fun _ => (NoR.ldX _ _ _ _).then (fun _ =>
      (NoR.u2StepPacked hs _ _ _ _).then (fun _ => .wrB (le_refl _) (by omega))))))
  · have := of_decide_eq_true hc
    omega
  · obtain ⟨⟨h1', h2⟩, h3⟩ := hP
    have h3 := of_decide_eq_false h3
    refine .ite (fun ho => ?_) (fun _ => .pure (by omega) trivial)
    dsimp only
    exact (NoR.ite (h1 _ _) (.pure _)).then (fun _ => (NoR.ite (h1 _ _) (.pure _)).then (fun _ => (h1 _ _).then (fun _ => .wrB (le_refl _) (by omega))))

/-- A vector loop of a uint4 kernel: `step` elements at a time, from the start. -/
theorem RAsc.u4Vec {o n m step : Nat} {body : Nat → Prog Unit} (hm : m + 1 = step) (h2 : step % 2 = 0)
    (h : ∀ i, RAsc X (body i) (o + i / 2) (fun _ => o + i / 2 + step / 2) (fun _ => True)) :
    RAsc X (Verif.forI (fun i => i + m < n) step body n 0) o (fun i => o + i / 2) (Ev n) :=
  ((RAsc.forI (fun i => o + i / 2) (Ev n) (fun i he hc => ⟨(h i).weaken (fun _ _ => ⟨by omega, trivial⟩), by
    have := of_decide_eq_true hc
    unfold Ev at *
    omega⟩) n 0 (by unfold Ev; omega)).lower (by omega)).weaken (fun _ hP => ⟨le_refl _, hP.1⟩)

/-- A vector loop of the uint2 kernel. -/
theorem RAsc.u2Vec {o n m step : Nat} {body : Nat → Prog Unit} (hm : m + 1 = step) (h2 : step % 4 = 0)
    (h : ∀ i, RAsc X (body i) (o + i / 4) (fun _ => o + i / 4 + step / 4) (fun _ => True)) :
    RAsc X (Verif.forI (fun i => i + m < n) step body n 0) o (fun i => o + i / 4) (fun i => i % 4 = 0 ∧ i ≤ n) :=
  ((RAsc.forI (fun i => o + i / 4) (fun i => i % 4 = 0 ∧ i ≤ n) (fun i he hc => ⟨(h i).weaken (fun _ _ => ⟨by omega, trivial⟩), by
    have := of_decide_eq_true hc
    omega⟩) n 0 (by omega)).lower (by omega)).weaken (fun _ hP => ⟨le_refl _, hP.1⟩)

end

/-- `RAsc` with nothing said about the end. -/
inductive ROnce {α : Type} (X : Nat → Prop) : Prog α → Nat → Prop
  | ret {a : α} {lo : Nat} : ROnce X (.ret a) lo
  | fail {f : Fault} {lo : Nat} : ROnce X (.fail f) lo
  | rd {a lo : Nat} {k : Nat → Prog α} (hX : X a) (hl : lo ≤ a) (h : ∀ b, ROnce X (k b) (a + 1)) : ROnce X (.rd a k) lo
  | wr {a b lo : Nat} {k : Prog α} (h : ROnce X k lo) : ROnce X (.wr a b k) lo

theorem RAsc.once {α : Type} {X : Nat → Prop} {p : Prog α} {lo : Nat} {g : α → Nat} {P : α → Prop} (h : RAsc X p lo g P) : ROnce X p lo := by
  induction h with
  | ret h hP => exact .ret
  | fail => exact .fail
  | rd hX hl h ih => exact .rd hX hl (fun b => ih b)
  | wr h ih => exact .wr ih

theorem ROnce.lower {α : Type} {X : Nat → Prop} {p : Prog α} {lo lo' : Nat} (h : ROnce X p lo') (hl : lo ≤ lo') : ROnce X p lo := by
  induction h generalizing lo with
  | ret => exact .ret
  | fail => exact .fail
  | rd hX hl' h ih => exact .rd hX (le_trans hl hl') h
  | wr h ih => exact .wr (ih hl)

theorem RAsc.andThen {α β : Type} {X : Nat → Prop} {p : Prog α} {k : α → Prog β} {lo : Nat} {g : α → Nat} {P : α → Prop} (h : RAsc X p lo g P)
    (hk : ∀ a, P a → ROnce X (k a) (g a)) : ROnce X (p >>= k) lo := by
  show ROnce X (p.bind k) lo
  induction h with
  | ret h hP => exact (hk _ hP).lower h
  | fail => exact .fail
  | rd hX hl h ih => exact .rd hX hl (fun b => ih b)
  | wr h ih => exact .wr ih

theorem ROnce.pure {α : Type} {X : Nat → Prop} {a : α} {lo : Nat} : ROnce X (Pure.pure a : Prog α) lo := .ret

/-- Loads, then the stores. -/
macro "rloads" : tactic => `(tactic| repeat (first
  | (with_reducible refine NoR.then (NoR.loadu_ps _ _ _ _) (fun _ => ?_))
  | (with_reducible refine NoR.then (NoR.loadBf16 _ _ _ _) (fun _ => ?_))
  | (with_reducible refine NoR.then (NoR.loadu_u16 _ _ _ _) (fun _ => ?_))
  | (with_reducible refine NoR.then (NoR.loadu_u8 _ _ _ _) (fun _ => ?_))))

/-- One vector store. -/
macro "rst" : tactic => `(tactic| first
  | (with_reducible refine RAsc.stream ?_ ?_) <;> omega
  | (with_reducible refine RAsc.storeu ?_ ?_) <;> omega)

section
variable {X : Nat → Prop} {isa : Isa} {x : InBuf} {off o n : Nat} {scale τ : F32} {zp : ℤ}

theorem RAsc.pure0 {lo : Nat} {g : Nat → Nat} (h : lo ≤ g 0) : RAsc X (Pure.pure 0 : Prog Nat) lo g (fun _ => True) := RdI.ret h trivial

theorem ROnce.quantF32U8 : ROnce X (Verif.quantF32U8 isa x off o n scale zp) o := by
  unfold Verif.quantF32U8
  dsimp only
  refine RAsc.andThen (g := fun i => o + i) (P := fun _ => True) ?_ (fun i _ => (RAsc.u8Loop (le_refl _)).andThen (fun _ _ => .pure))
  cases isa <;> dsimp only
  · exact .pure (by omega) trivial
  · refine (RAsc.u8Loop (by omega)).bind (fun i _ => RAsc.for' (fun i => o + i) (fun i => ?_) (le_refl _))
    rloads
    rst
  · refine (RAsc.u8Loop (by omega)).bind (fun i _ => RAsc.for' (fun i => o + i) (fun i => ?_) (le_refl _))
    rloads
    rst
  · refine (RAsc.u8Loop (by omega)).bind (fun i _ => RAsc.for' (fun i => o + i) (fun i => ?_) (le_refl _))
    rloads
    with_reducible refine RAsc.seq (o + i + 16) ?_ (RAsc.seq (o + i + 32) ?_ (RAsc.seq (o + i + 48) ?_ ?_)) <;> rst
  · refine (RAsc.u8Loop (by omega)).bind (fun i _ => RAsc.for' (fun i => o + i) (fun i => ?_) (le_refl _))
    rloads
    with_reducible refine RAsc.seq (o + i + 16) ?_ (RAsc.seq (o + i + 32) ?_ (RAsc.seq (o + i + 48) ?_ ?_)) <;> rst
  · refine RAsc.for' (fun i => o + i) (fun i => ?_) (by omega)
    rloads
    rst

theorem ROnce.quantBf16U8 : ROnce X (Verif.quantBf16U8 isa x off o n scale zp) o := by
  unfold Verif.quantBf16U8
  dsimp only
  refine RAsc.andThen (g := fun i => o + i) (P := fun _ => True) ?_ (fun i _ => (RAsc.u8Loop (le_refl _)).andThen (fun _ _ => .pure))
  cases isa <;> dsimp only
  · exact .pure (by omega) trivial
  · refine (RAsc.u8Loop (by omega)).bind (fun i _ => RAsc.for' (fun i => o + i) (fun i => ?_) (le_refl _))
    rloads
    with_reducible refine RAsc.seq (o + i + 16) ?_ ?_ <;> rst
  · refine (RAsc.u8Loop (by omega)).bind (fun i _ => RAsc.for' (fun i => o + i) (fun i => ?_) (le_refl _))
    rloads
    rst
  · refine RAsc.for' (fun i => o + i) (fun i => ?_) (by omega)
    rloads
    with_reducible refine RAsc.seq (o + i + 16) ?_ (RAsc.seq (o + i + 32) ?_ (RAsc.seq (o + i + 48) ?_ ?_)) <;> rst
  · refine RAsc.for' (fun i => o + i) (fun i => ?_) (by omega)
    rloads
    with_reducible refine RAsc.seq (o + i + 16) ?_ (RAsc.seq (o + i + 32) ?_ (RAsc.seq (o + i + 48) ?_ ?_)) <;> rst
  · exact .pure (by omega) trivial


theorem ROnce.quantF32U4 (hX : n % 2 = 1 → X (o + n / 2)) : ROnce X (Verif.quantF32U4 isa x off o n scale zp) o := by
  unfold Verif.quantF32U4
  dsimp only
  refine RAsc.andThen (g := fun i => o + i / 2) (P := Ev n) ?_ (fun i hi => (RAsc.quantU4From (fun _ => .qNearest32 _ _ _ _) hX hi).once)
  cases isa <;> dsimp only
  · exact .pure (by omega) ev0
  all_goals first
    | exact .pure (by omega) ev0
    | (refine RAsc.u4Vec rfl rfl (fun i => ?_); rloads; rst)

theorem ROnce.quantBf16U4 (hX : n % 2 = 1 → X (o + n / 2)) : ROnce X (Verif.quantBf16U4 isa x off o n scale zp) o := by
  unfold Verif.quantBf16U4
  dsimp only
  refine RAsc.andThen (g := fun i => o + i / 2) (P := Ev n) ?_ (fun i hi => (RAsc.quantU4From (fun _ => .qNearest32 _ _ _ _) hX hi).once)
  cases isa <;> dsimp only
  all_goals first
    | exact .pure (by omega) ev0
    | (refine RAsc.u4Vec rfl rfl (fun i => ?_); rloads; rst)
    | (refine RAsc.u4Vec rfl rfl (fun i => ?_); rloads; with_reducible refine RAsc.seq (o + i / 2 + 8) ?_ ?_ <;> rst)

theorem ROnce.quantBf16U2 : ROnce X (Verif.quantBf16U2 isa x off o n scale zp) o := by
  unfold Verif.quantBf16U2
  dsimp only
  refine RAsc.andThen (g := fun i => o + i / 4) (P := fun i => i % 4 = 0 ∧ i ≤ n) ?_ (fun i hi => (RAsc.quantBf16U2Scalar (fun _ => .qNearest32 _ _ _ _) (le_refl _) hi).once)
  cases isa <;> dsimp only
  all_goals first
    | exact .pure (by omega) (by omega)
    | (refine RAsc.u2Vec rfl rfl (fun i => ?_); rloads; rst)

theorem ROnce.quantGeneric {ft : FT} {dt : DType} {mode : RoundMode} (hX : dt = .uint4 → n % 2 = 1 → X (o + n / 2)) :
    ROnce X (Verif.quantGeneric isa ft dt mode x off o n scale τ zp) o := by
  have hg : ROnce X (quantGenericU8 ft mode x off o n τ (invScale scale) zp) o := by
    unfold Verif.quantGenericU8
    exact (RAsc.for' (fun i => o + i) (fun _ => ((NoR.ldX _ _ _ _).bind (fun _ => .qStep _ _ _ _ _ _)).then (fun _ => .wrB (le_refl _) (by omega))) (le_refl _)).andThen
      (fun _ _ => .pure)
  unfold Verif.quantGeneric
  split
  · exact .quantF32U8
  · exact .quantF32U4 (hX rfl)
  · exact .quantBf16U8
  · exact .quantBf16U4 (hX rfl)
  · exact .quantBf16U2
  · exact (RAsc.quantU4From (fun _ => .qStep _ _ _ _ _ _) (hX rfl) ev0).once
  · exact (RAsc.quantU2 (fun _ => .qStep _ _ _ _ _ _)).once
  · exact hg

end

/-! ## Dequantization -/

section
variable {X : Nat → Prop} {isa : Isa} {fz : Fuse} {op : ReduceOp} {x : InBuf} {off o n : Nat} {scale τ : F32} {zp : ℤ}

theorem RAsc.ldBytes {a n lo : Nat} (hX : ∀ a, X a) (h : lo ≤ a) : RAsc X (Verif.ldBytes a n) lo (fun _ => a + n) (fun _ => True) := by
  induction n with
  | zero => exact .pure h trivial
  | succ n ih => exact ih.bind (fun f _ => RdI.rd (hX _) (le_refl _) (fun b => RdI.ret (le_refl _) trivial))

theorem RAsc.ldF32 {a lo : Nat} (hX : ∀ a, X a) (h : lo ≤ a) : RAsc X (Verif.ldF32 a) lo (fun _ => a + 4) (fun _ => True) :=
  (RAsc.ldBytes hX h).bind (fun _ _ => .pure (le_refl _) trivial)
theorem RAsc.ldU16 {a lo : Nat} (hX : ∀ a, X a) (h : lo ≤ a) : RAsc X (Verif.ldU16 a) lo (fun _ => a + 2) (fun _ => True) :=
  (RAsc.ldBytes hX h).bind (fun _ _ => .pure (le_refl _) trivial)
theorem RAsc.loado_ps {k a lo : Nat} (hX : ∀ a, X a) (h : lo ≤ a) : RAsc X (Simd.loado_ps k a) lo (fun _ => a + 4 * k) (fun _ => True) :=
  (RAsc.ldBytes hX h).bind (fun _ _ => .pure (le_refl _) trivial)
theorem RAsc.loado_u16 {k a lo : Nat} (hX : ∀ a, X a) (h : lo ≤ a) : RAsc X (Simd.loado_u16 k a) lo (fun _ => a + 2 * k) (fun _ => True) :=
  (RAsc.ldBytes hX h).bind (fun _ _ => .pure (le_refl _) trivial)

theorem RAsc.putF32 (hX : op = .add → ∀ a, X a) {a lo : Nat} {v : Term} {g : Unit → Nat} (h : lo ≤ a) (hg : a + 4 ≤ g ()) : RAsc X (Verif.putF32 op a v) lo g (fun _ => True) := by
  cases op
  · exact .stBytes h hg
  · exact (RAsc.ldF32 (hX rfl) h).bind (fun _ _ => RAsc.stBytes0 hg)
theorem RAsc.putBf16 (hX : op = .add → ∀ a, X a) {a v lo : Nat} {g : Unit → Nat} (h : lo ≤ a) (hg : a + 2 ≤ g ()) : RAsc X (Verif.putBf16 op a v) lo g (fun _ => True) := by
  cases op
  · exact .stBytes h hg
  · exact (RAsc.ldU16 (hX rfl) h).bind (fun _ _ => RAsc.stBytes0 hg)

/-- `put i q` reads element `i` of size `e`, if any. -/
def RPuts (X : Nat → Prop) (e o : Nat) (put : Nat → Nat → Prog Unit) : Prop := ∀ i q, RAsc X (put i q) (o + e * i) (fun _ => o + e * (i + 1)) (fun _ => True)

theorem rputs32 (hX : op = .add → ∀ a, X a) {b : Bool} : RPuts X 4 o (putDq32 b op o scale zp) := fun _ _ => (NoR.dqStep32 _ _ _ _).then (fun _ => .putF32 hX (le_refl _) (by omega))
theorem rputs64 (hX : op = .add → ∀ a, X a) {b : Bool} : RPuts X 4 o (putDq64 b op o scale zp) := fun _ _ => (NoR.dqStepF32 _ _ _ _).then (fun _ => .putF32 hX (le_refl _) (by omega))
theorem rputs32b (hX : op = .add → ∀ a, X a) : RPuts X 2 o (putDq32b op o scale zp) := fun _ _ => (NoR.dqStep32 _ _ _ _).then (fun _ => .putBf16 hX (le_refl _) (by omega))

theorem RAsc.storeF32s {k a lo : Nat} {rs : List (V k F32)} : RAsc X (Verif.storeF32s a rs) lo (fun _ => lo) (fun _ => True) := by
  induction rs generalizing a with
  | nil => exact .pure (le_refl _) trivial
  | cons v vs ih => exact RAsc.seq lo (RAsc.stBytes0 (le_refl _)) ih
theorem RAsc.storeBf16s {k a lo : Nat} {rs : List (V k F32)} : RAsc X (Verif.storeBf16s isa a rs) lo (fun _ => lo) (fun _ => True) := by
  induction rs generalizing a with
  | nil => exact .pure (le_refl _) trivial
  | cons v vs ih => exact RAsc.seq lo (RAsc.stBytes0 (le_refl _)) ih

theorem RAsc.accF32 (hX : op = .add → ∀ a, X a) {k a lo : Nat} {rs : List (V k Term)} (h : lo ≤ a) :
    RAsc X (Verif.accF32 op a rs) lo (fun _ => a + 4 * k * rs.length) (fun _ => True) := by
  induction rs generalizing a lo with
  | nil => exact .pure (by simp only [List.length_nil, Nat.mul_zero]; omega) trivial
  | cons v vs ih =>
    refine RAsc.bind (g := fun _ => a + 4 * k) (P := fun _ => True) ?_ (fun _ _ => (ih (le_refl _)).bind (fun _ _ => .pure (by
      simp only [List.length_cons, Nat.mul_add, Nat.mul_one]; omega) trivial))
    cases op
    · exact .pure (by omega) trivial
    · exact (RAsc.loado_ps (hX rfl) h).bind (fun _ _ => .pure (le_refl _) trivial)
theorem RAsc.accBf16 (hX : op = .add → ∀ a, X a) {k a lo : Nat} {rs : List (V k Term)} (h : lo ≤ a) :
    RAsc X (Verif.accBf16 op a rs) lo (fun _ => a + 2 * k * rs.length) (fun _ => True) := by
  induction rs generalizing a lo with
  | nil => exact .pure (by simp only [List.length_nil, Nat.mul_zero]; omega) trivial
  | cons v vs ih =>
    refine RAsc.bind (g := fun _ => a + 2 * k) (P := fun _ => True) ?_ (fun _ _ => (ih (le_refl _)).bind (fun _ _ => .pure (by
      simp only [List.length_cons, Nat.mul_add, Nat.mul_one]; omega) trivial))
    cases op
    · exact .pure (by omega) trivial
    · exact (RAsc.loado_u16 (hX rfl) h).bind (fun _ _ => .pure (le_refl _) trivial)

theorem RAsc.emitF32 (hX : op = .add → ∀ a, X a) {k a lo : Nat} {rs : List (V k Term)} {g : Unit → Nat} (h : lo ≤ a) (hg : a + 4 * k * rs.length ≤ g ()) :
    RAsc X (Verif.emitF32 op a rs) lo g (fun _ => True) :=
  (RAsc.accF32 hX h).bind (fun _ _ => RAsc.storeF32s.weaken (fun _ _ => ⟨hg, trivial⟩))
theorem RAsc.emitBf16 (hX : op = .add → ∀ a, X a) {k a lo : Nat} {rs : List (V k Term)} {g : Unit → Nat} (h : lo ≤ a) (hg : a + 2 * k * rs.length ≤ g ()) :
    RAsc X (Verif.emitBf16 isa op a rs) lo g (fun _ => True) :=
  (RAsc.accBf16 hX h).bind (fun _ _ => RAsc.storeBf16s.weaken (fun _ _ => ⟨hg, trivial⟩))

theorem ROnce.dqU8Loop {e i : Nat} {put : Nat → Nat → Prog Unit} (hp : RPuts X e o put) : ROnce X (Verif.dqU8Loop put x off n i) (o + e * i) :=
  (RAsc.for' (fun i => o + e * i) (fun _ => (NoR.ldQ _ _ _).then (fun _ => hp _ _)) (le_refl _)).andThen (fun _ _ => .pure)

theorem ROnce.dqU4From {e i : Nat} {put : Nat → Nat → Prog Unit} (hp : RPuts X e o put) (hi : Ev n i) : ROnce X (Verif.dqU4From put x off n i) (o + e * i) := by
  unfold Verif.dqU4From
  refine (RAsc.forI (fun i => o + e * i) (Ev n) (fun i he hc => ⟨?_, ?_⟩) n i hi).andThen (fun i hP => ?_)
  · exact (NoR.ldQ _ _ _).then (fun _ => .seq _ (hp _ _) (hp _ _))
  · have := of_decide_eq_true hc
    unfold Ev at *
    omega
  · obtain ⟨⟨h1, h2⟩, h3⟩ := hP
    have h3 := of_decide_eq_false h3
    split
    · have e : n - 1 = i := by omega
      rw [e]
      exact ((NoR.ldQ _ _ _).then (fun _ => hp _ _)).once
    · exact .pure

theorem RAsc.opt {e c : Nat} {b : Prop} [Decidable b] {put : Nat → Nat → Prog Unit} {q : Nat} (hp : RPuts X e o put) :
    RAsc X (if b then put c q else (Pure.pure () : Prog Unit)) (o + e * c) (fun _ => o + e * (c + 1)) (fun _ => True) :=
  .ite (fun _ => hp _ _) (fun _ => .pure (by simp only [Nat.mul_add]; omega) trivial)

theorem ROnce.dqU2From {e i : Nat} {put : Nat → Nat → Prog Unit} (hp : RPuts X e o put) : ROnce X (Verif.dqU2From put x off n i) (o + e * i) := by
  unfold Verif.dqU2From
  refine (RAsc.for' (fun i => o + e * i) (fun _ => (NoR.ldQ _ _ _).then (fun _ => .seq _ (hp _ _) (.seq _ (hp _ _) (.seq _ (hp _ _) (hp _ _))))) (le_refl _)).andThen (fun i _ => ?_)
  split
  · refine RAsc.once (g := fun _ => o + e * (i + 3)) (P := fun _ => True) ((NoR.ldQ _ _ _).then (fun p => ?_))
    have h3 : ∀ {lo : Nat}, lo ≤ o + e * (i + 2) → RAsc X (if 3 ≤ n - i then put (i + 2) ((p >>> 4) &&& 3) else (Pure.pure () : Prog Unit)) lo (fun _ => o + e * (i + 3)) (fun _ => True) :=
      fun h => (RAsc.opt hp).lower h
    have h2 : ∀ {lo : Nat}, lo ≤ o + e * (i + 1) → RAsc X (if 2 ≤ n - i then (do put (i + 1) ((p >>> 2) &&& 3); if 3 ≤ n - i then put (i + 2) ((p >>> 4) &&& 3) else (Pure.pure () : Prog Unit))
        else (do (Pure.pure () : Prog Unit); if 3 ≤ n - i then put (i + 2) ((p >>> 4) &&& 3) else (Pure.pure () : Prog Unit))) lo (fun _ => o + e * (i + 3)) (fun _ => True) :=
      fun h => .ite (fun _ => .seq _ ((hp _ _).lower h) (h3 (le_refl _))) (fun _ => h3 (le_trans h (by simp only [Nat.mul_add]; omega)))
    exact .ite (fun _ => .seq _ (hp _ _) (h2 (le_refl _))) (fun _ => h2 (by simp only [Nat.mul_add]; omega))
  · exact .pure

theorem ROnce.dequantUint2 {e : Nat} {put putSet : Nat → Nat → Prog Unit} (hp : RPuts X e o put) (hp' : RPuts X e o putSet) :
    ROnce X (Verif.dequantUint2 put putSet x off n) o := by
  unfold Verif.dequantUint2
  refine (RAsc.for' (fun i => o + e * i) (fun _ => (NoR.ldQ _ _ _).then (fun _ => .seq _ (hp _ _) (.seq _ (hp _ _) (.seq _ (hp _ _) (hp _ _))))) (by omega)).andThen (fun i _ => ?_)
  refine RAsc.andThen (NoR.ldQ _ _ _ X _) (fun p _ => ?_)
  split
  · exact (hp' _ _).once
  · exact (RAsc.seq _ (hp' _ _) (hp' _ _)).once
  · exact (RAsc.seq _ (hp' _ _) (.seq _ (hp' _ _) (hp' _ _))).once
  · exact .pure

/-- A vector loop of a dequantize kernel. -/
theorem RAsc.dqVec {e m step : Nat} {body : Nat → Prog Unit} (hm : m + 1 = step) (h2 : step % 2 = 0)
    (h : ∀ i, RAsc X (body i) (o + e * i) (fun _ => o + e * i + e * step) (fun _ => True)) :
    RAsc X (Verif.forI (fun i => i + m < n) step body n 0) o (fun i => o + e * i) (Ev n) :=
  ((RAsc.forI (fun i => o + e * i) (Ev n) (fun i he hc => ⟨(h i).weaken (fun _ _ => ⟨by simp only [Nat.mul_add]; omega, trivial⟩), by
    have := of_decide_eq_true hc
    unfold Ev at *
    omega⟩) n 0 ev0).lower (by omega)).weaken (fun _ hP => ⟨le_refl _, hP.1⟩)

set_option hygiene false in
/-- A group of stores. -/
macro "rem" : tactic => `(tactic| first
  | (with_reducible refine RAsc.emitF32 hX (by omega) ?_)
    (simp only [List.length_map, List.length_append, List.length_cons, List.length_nil, expandAvx2, expandSse, expandWords, expand512, unpackCrumbs]; omega)
  | (with_reducible refine RAsc.emitBf16 hX (by omega) ?_)
    (simp only [List.length_map, List.length_append, List.length_cons, List.length_nil, expandAvx2, expandSse, expandWords, expand512, unpackCrumbs]; omega))

theorem ROnce.dequantU8F32 (hX : op = .add → ∀ a, X a) : ROnce X (Verif.dequantU8F32 isa fz op x off o n scale zp) o := by
  unfold Verif.dequantU8F32
  refine RAsc.andThen (g := fun i => o + 4 * i) (P := Ev n) ?_ (fun i _ => .dqU8Loop (rputs32 hX))
  cases isa <;> dsimp only
  all_goals first
    | exact .pure (by omega) ev0
    | (refine RAsc.dqVec rfl rfl (fun i => ?_); rloads; rem)

theorem ROnce.dequantU8Bf16 (hX : op = .add → ∀ a, X a) : ROnce X (Verif.dequantU8Bf16 isa fz op x off o n scale zp) o := by
  unfold Verif.dequantU8Bf16
  refine RAsc.andThen (g := fun i => o + 2 * i) (P := Ev n) ?_ (fun i _ => .dqU8Loop (rputs32b hX))
  cases isa <;> dsimp only
  all_goals first
    | exact .pure (by omega) ev0
    | (refine RAsc.dqVec rfl rfl (fun i => ?_); rloads; rem)

theorem ROnce.dequantU4F32 (hX : op = .add → ∀ a, X a) : ROnce X (Verif.dequantU4F32 isa fz op x off o n scale zp) o := by
  unfold Verif.dequantU4F32
  refine RAsc.andThen (g := fun i => o + 4 * i) (P := Ev n) ?_ (fun i hi => .dqU4From (rputs32 hX) hi)
  cases isa <;> dsimp only
  all_goals first
    | exact .pure (by omega) ev0
    | (refine RAsc.dqVec rfl rfl (fun i => ?_); rloads; rem)
    | (refine RAsc.dqVec rfl rfl (fun i => ?_); rloads; (with_reducible refine RAsc.seq (o + 4 * i + 64) ?_ ?_) <;> rem)

theorem ROnce.dequantU4Bf16 (hX : op = .add → ∀ a, X a) : ROnce X (Verif.dequantU4Bf16 isa op x off o n scale zp) o := by
  unfold Verif.dequantU4Bf16
  refine RAsc.andThen (g := fun i => o + 2 * i) (P := Ev n) ?_ (fun i hi => .dqU4From (rputs32b hX) hi)
  cases isa <;> dsimp only
  all_goals first
    | exact .pure (by omega) ev0
    | (refine RAsc.dqVec rfl rfl (fun i => ?_); rloads; rem)

theorem ROnce.dequantU2Bf16 (hX : op = .add → ∀ a, X a) : ROnce X (Verif.dequantU2Bf16 isa op x off o n scale zp) o := by
  unfold Verif.dequantU2Bf16
  dsimp only
  refine RAsc.andThen (g := fun i => o + 2 * i) (P := Ev n) ?_ (fun i hi => .dqU2From (fun _ _ => .putBf16 hX (le_refl _) (by omega)))
  have hd : ∀ (src base : Nat), RAsc X (do
      let b ← loadu_u8 16 x off src
      Verif.emitBf16 (n := 16) isa op (o + 2 * base) ((unpackCrumbs b).map (fun z => dqFma scale zp (cvtepu8_epi32 z (by omega))))) (o + 2 * base)
      (fun _ => o + 2 * base + 128) (fun _ => True) := by
    intro src base
    rloads; rem
  have hb : ∀ i, RAsc X (do
      (do
        let b ← loadu_u8 16 x off (i / 4)
        Verif.emitBf16 (n := 16) isa op (o + 2 * i) ((unpackCrumbs b).map (fun z => dqFma scale zp (cvtepu8_epi32 z (by omega)))))
      (do
        let b ← loadu_u8 16 x off (i / 4 + 16)
        Verif.emitBf16 (n := 16) isa op (o + 2 * (i + 64)) ((unpackCrumbs b).map (fun z => dqFma scale zp (cvtepu8_epi32 z (by omega)))))
      (do
        let b ← loadu_u8 16 x off (i / 4 + 32)
        Verif.emitBf16 (n := 16) isa op (o + 2 * (i + 128)) ((unpackCrumbs b).map (fun z => dqFma scale zp (cvtepu8_epi32 z (by omega)))))
      (do
        let b ← loadu_u8 16 x off (i / 4 + 48)
        Verif.emitBf16 (n := 16) isa op (o + 2 * (i + 192)) ((unpackCrumbs b).map (fun z => dqFma scale zp (cvtepu8_epi32 z (by omega)))))) (o + 2 * i)
      (fun _ => o + 2 * i + 2 * 256) (fun _ => True) := fun i =>
    .seq _ (hd _ _) (.seq _ ((hd _ _).lower (by omega)) (.seq _ ((hd _ _).lower (by omega)) ((hd _ _).lower (by omega) |>.weaken (fun _ _ => ⟨by omega, trivial⟩))))
  cases isa <;> dsimp only
  · exact .pure (by omega) ev0
  · exact .pure (by omega) ev0
  · exact .pure (by omega) ev0
  · exact RAsc.dqVec rfl rfl hb
  · exact RAsc.dqVec rfl rfl hb
  · exact .pure (by omega) ev0

theorem ROnce.dequantGeneric (hX : op = .add → ∀ a, X a) {ft : FT} {dt : DType} : ROnce X (Verif.dequantGeneric isa fz dt ft op x off o n scale zp) o := by
  unfold Verif.dequantGeneric
  split
  · exact .dequantU8F32 hX
  · exact .dequantU4F32 hX
  · exact .dequantU8Bf16 hX
  · exact .dequantU4Bf16 hX
  · exact .dequantU2Bf16 hX
  · exact .dequantUint2 (rputs64 hX) (rputs64 (fun h => by cases h))
  · exact .fail

theorem ROnce.requantGeneric (hX : op = .add → ∀ a, X a) {ft : FT} {dt : DType} {mode : RoundMode} : ROnce X (Verif.requantGeneric fz ft dt mode op x off o n scale τ zp) o := by
  unfold Verif.requantGeneric
  refine (RAsc.for' (fun i => o + ft.size * i) (fun i => ?_) (by omega)).andThen (fun _ _ => .pure)
  refine (NoR.ldX _ _ _ _).then (fun _ => (NoR.qStep _ _ _ _ _ _).then (fun _ => ?_))
  cases ft
  · exact (NoR.dqStepF32 _ _ _ _).then (fun _ => .putF32 hX (by show o + 4 * i ≤ _; omega) (by show _ ≤ o + 4 * (i + 1); omega))
  · exact (NoR.dqStepBf16 _ _ _).then (fun _ => .putBf16 hX (by show o + 2 * i ≤ _; omega) (by show _ ≤ o + 2 * (i + 1); omega))

end
end Verif

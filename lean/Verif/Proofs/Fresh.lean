import Verif.Proofs.Dispatch
import Verif.Proofs.Sched2
import Verif.Model.Context

/-! # Programs that do not depend on the old contents of the output buffer -/

namespace Verif
open Simd

/-- Only bytes in `W`, or written earlier by the program itself, are read. -/
def Fresh {α : Type} : (W : Nat → Prop) → Prog α → Prop
  | _, .ret _ => True
  | _, .fail _ => True
  | W, .rd a k => W a ∧ ∀ b, Fresh W (k b)
  | W, .wr a _ k => Fresh (fun x => x = a ∨ W x) k

/-- The program reads only bytes it has written itself. -/
def NoRd {α : Type} (p : Prog α) : Prop := ∀ W, Fresh W p

theorem Fresh.bind {α β : Type} {W : Nat → Prop} {p : Prog α} {k : α → Prog β} (hp : Fresh W p) (hk : ∀ a, NoRd (k a)) :
    Fresh W (p.bind k) := by
  induction p generalizing W with
  | ret a => exact hk a W
  | fail f => exact trivial
  | rd a f ih => exact ⟨hp.1, fun b => ih b (hp.2 b)⟩
  | wr a b p ih => exact ih hp

theorem NoRd.bind {α β : Type} {p : Prog α} {k : α → Prog β} (hp : NoRd p) (hk : ∀ a, NoRd (k a)) : NoRd (p.bind k) :=
  fun W => (hp W).bind hk
theorem NoRd.bind' {α β : Type} {p : Prog α} {k : α → Prog β} (hp : NoRd p) (hk : ∀ a, NoRd (k a)) : NoRd (p >>= k) :=
  fun W => (hp W).bind hk
theorem NoRd.ret {α : Type} (a : α) : NoRd (.ret a : Prog α) := fun _ => trivial
theorem NoRd.pure {α : Type} (a : α) : NoRd (pure a : Prog α) := fun _ => trivial
theorem NoRd.fail {α : Type} (f : Fault) : NoRd (.fail f : Prog α) := fun _ => trivial
theorem NoRd.wrB (a b : Nat) : NoRd (Verif.wrB a b) := fun _ => trivial
theorem NoRd.chkIn (x : InBuf) (a n : Nat) : NoRd (Verif.chkIn x a n) := by
  unfold Verif.chkIn; split
  · exact .pure _
  · exact .fail _
theorem NoRd.stBytes (a n : Nat) (f : Nat → Nat) : NoRd (Verif.stBytes a n f) := by
  induction n with
  | zero => exact .pure _
  | succ n ih => exact ih.bind' (fun _ => .wrB _ _)
theorem NoRd.forI {cond : Nat → Bool} {step : Nat} {body : Nat → Prog Unit} (h : ∀ i, NoRd (body i)) (fuel i : Nat) :
    NoRd (Verif.forI cond step body fuel i) := by
  induction fuel generalizing i with
  | zero => unfold Verif.forI; split
            · exact .fail _
            · exact .pure _
  | succ n ih =>
    unfold Verif.forI; split
    · exact (h i).bind' (fun _ => ih _)
    · exact .pure _
theorem NoRd.ite {α : Type} {c : Prop} [Decidable c] {p q : Prog α} (hp : NoRd p) (hq : NoRd q) : NoRd (if c then p else q) := by
  split <;> assumption
/-- Writing a byte, then reading it back. -/
theorem NoRd.readBack {a b : Nat} {k : Nat → Prog Unit} (h : ∀ v, NoRd (k v)) :
    NoRd (do Verif.wrB a b; let p ← Verif.rdB a; k p) := fun _ => ⟨Or.inl rfl, fun v => h v _⟩

theorem NoRd.ldX (ft : FT) (x : InBuf) (off i : Nat) : NoRd (Verif.ldX ft x off i) := (NoRd.chkIn _ _ _).bind' (fun _ => .pure _)
theorem NoRd.ldQ (x : InBuf) (off i : Nat) : NoRd (Verif.ldQ x off i) := (NoRd.chkIn _ _ _).bind' (fun _ => .pure _)
theorem NoRd.toIntAdd (w : Nat) (r : F32) (zp : ℤ) : NoRd (Verif.toIntAdd w r zp) := by
  unfold Verif.toIntAdd
  split
  · exact .fail _
  · exact .ite (.pure _) (.fail _)
theorem NoRd.subI (w : Nat) (a b : ℤ) : NoRd (Verif.subI w a b) := .ite (.pure _) (.fail _)
theorem NoRd.qNearest32 (q : Nat) (v inv : F32) (zp : ℤ) : NoRd (Verif.qNearest32 q v inv zp) :=
  (NoRd.toIntAdd _ _ _).bind' (fun _ => .pure _)
theorem NoRd.qStep (mode : RoundMode) (q : Nat) (v τ inv : F32) (zp : ℤ) : NoRd (Verif.qStep mode q v τ inv zp) := by
  cases mode
  · exact (NoRd.toIntAdd _ _ _).bind' (fun _ => .pure _)
  · exact (NoRd.toIntAdd _ _ _).bind' (fun _ => .pure _)
theorem NoRd.loadu_ps (n : Nat) (x : InBuf) (off i : Nat) : NoRd (Simd.loadu_ps n x off i) := (NoRd.chkIn _ _ _).bind' (fun _ => .pure _)
theorem NoRd.loadu_u16 (n : Nat) (x : InBuf) (off i : Nat) : NoRd (Simd.loadu_u16 n x off i) := (NoRd.chkIn _ _ _).bind' (fun _ => .pure _)
theorem NoRd.loadu_u8 (n : Nat) (x : InBuf) (off i : Nat) : NoRd (Simd.loadu_u8 n x off i) := (NoRd.chkIn _ _ _).bind' (fun _ => .pure _)
theorem NoRd.loadBf16 (n : Nat) (x : InBuf) (off i : Nat) : NoRd (Verif.loadBf16 n x off i) := (NoRd.loadu_u16 _ _ _ _).bind' (fun _ => .pure _)
theorem NoRd.storeu {n : Nat} (a k : Nat) (v : V n Nat) : NoRd (Simd.storeu a k v) := .stBytes _ _ _
theorem NoRd.stream {n : Nat} (a : Nat) (v : V n Nat) : NoRd (Simd.stream a v) := .ite (.stBytes _ _ _) (.fail _)
theorem NoRd.u8Loop (ft : FT) (x : InBuf) (off o n : Nat) (inv : F32) (zp : ℤ) (c : Nat → Bool) (i : Nat) :
    NoRd (Verif.u8Loop ft x off o n inv zp c i) :=
  .forI (fun i => (NoRd.bind' (.ldX _ _ _ _) (fun _ => .qNearest32 _ _ _ _)).bind' (fun _ => .wrB _ _)) _ _

theorem NoRd.quantU4From {ft : FT} {step : F32 → Prog Nat} {x : InBuf} {off o n i0 : Nat} (hs : ∀ v, NoRd (step v)) :
    NoRd (Verif.quantU4From ft step x off o n i0) := by
  unfold Verif.quantU4From
  refine NoRd.bind' (.forI (fun _ => ?_) _ _) (fun _ => .ite ?_ (.pure _))
  · exact .bind' (.ldX _ _ _ _) (fun _ => .bind' (.ldX _ _ _ _) (fun _ => .bind' (hs _) (fun _ => .bind' (hs _) (fun _ => .wrB _ _))))
  · exact .bind' (.ldX _ _ _ _) (fun _ => .bind' (hs _) (fun _ => .bind' (hs _) (fun _ => .readBack (fun v => .wrB _ _))))

theorem NoRd.quantU2 {ft : FT} {step : F32 → Prog Nat} {x : InBuf} {off o n : Nat} (hs : ∀ v, NoRd (step v)) :
    NoRd (Verif.quantU2 ft step x off o n) := by
  unfold Verif.quantU2
  refine NoRd.bind' (.forI (fun _ => ?_) _ _) (fun _ => .ite ?_ (.pure _))
  · exact .bind' (.ldX _ _ _ _) (fun _ => .bind' (.ldX _ _ _ _) (fun _ => .bind' (.ldX _ _ _ _) (fun _ => .bind' (.ldX _ _ _ _) (fun _ =>
      .bind' (hs _) (fun _ => .bind' (hs _) (fun _ => .bind' (hs _) (fun _ => .bind' (hs _) (fun _ => .wrB _ _))))))))
  · have h1 : ∀ (j : Nat) (g : Nat → Nat), NoRd (do let a ← Verif.ldX ft x off j; let q ← step a; (Pure.pure (g q) : Prog Nat)) := fun j g =>
      .bind' (.ldX _ _ _ _) (fun _ => .bind' (hs _) (fun _ => .pure _))
    exact .bind' (.ite (h1 _ _) (.pure _)) (fun _ => .bind' (.ite (h1 _ _) (.pure _)) (fun _ => .bind' (h1 _ _) (fun _ => .wrB _ _)))

theorem NoRd.u2StepPacked {step : F32 → Prog Nat} (hs : ∀ v, NoRd (step v)) (a b c d : F32) : NoRd (Verif.u2StepPacked step a b c d) :=
  .bind' (hs _) (fun _ => .bind' (hs _) (fun _ => .bind' (hs _) (fun _ => .bind' (hs _) (fun _ => .pure _))))

theorem NoRd.quantBf16U2Scalar {step : F32 → Prog Nat} {x : InBuf} {off o n i0 : Nat} (hs : ∀ v, NoRd (step v)) :
    NoRd (Verif.quantBf16U2Scalar step x off o n i0) := by
  unfold Verif.quantBf16U2Scalar
  refine NoRd.bind' (.forI (fun _ => ?_) _ _) (fun _ => .ite ?_ (.pure _))
  · exact .bind' (.ldX _ _ _ _) (fun _ => .bind' (.ldX _ _ _ _) (fun _ => .bind' (.ldX _ _ _ _) (fun _ => .bind' (.ldX _ _ _ _) (fun _ =>
      .bind' (.u2StepPacked hs _ _ _ _) (fun _ => .wrB _ _)))))
  · have h1 : ∀ (j : Nat) (g : Nat → Nat), NoRd (do let a ← Verif.ldX .bf16 x off j; let q ← Verif.u2StepPacked step a f0 f0 f0; (Pure.pure (g q) : Prog Nat)) := fun j g =>
      .bind' (.ldX _ _ _ _) (fun _ => .bind' (.u2StepPacked hs _ _ _ _) (fun _ => .pure _))
    exact .bind' (.ite (h1 _ _) (.pure _)) (fun _ => .bind' (.ite (h1 _ _) (.pure _)) (fun _ => .bind' (h1 _ _) (fun _ => .wrB _ _)))

theorem NoRd.loads4 {n : Nat} {β : Type} {l : Nat → Prog (V n F32)} {a b c d : Nat} {k : V n F32 → V n F32 → V n F32 → V n F32 → Prog β} (hl : ∀ i, NoRd (l i))
    (hk : ∀ a b c d, NoRd (k a b c d)) :
    NoRd (do let v0 ← l a; let v1 ← l b; let v2 ← l c; let v3 ← l d; k v0 v1 v2 v3) :=
  .bind' (hl _) (fun _ => .bind' (hl _) (fun _ => .bind' (hl _) (fun _ => .bind' (hl _) (fun _ => hk _ _ _ _))))
theorem NoRd.seq {p q : Prog Unit} (hp : NoRd p) (hq : NoRd q) : NoRd (do p; q) := .bind' hp (fun _ => hq)

macro "nord" : tactic => `(tactic| repeat' (first
  | with_reducible exact NoRd.u8Loop _ _ _ _ _ _ _ _ _ | with_reducible exact NoRd.loadu_ps _ _ _ _ | with_reducible exact NoRd.loadBf16 _ _ _ _ | with_reducible exact NoRd.loadu_u16 _ _ _ _
  | with_reducible exact NoRd.loadu_u8 _ _ _ _
  | with_reducible exact NoRd.storeu _ _ _ | with_reducible exact NoRd.stream _ _ | with_reducible exact NoRd.pure _ | with_reducible exact NoRd.fail _
  | with_reducible exact NoRd.quantU4From (fun _ => NoRd.qNearest32 _ _ _ _)
  | with_reducible exact NoRd.quantU4From (fun _ => NoRd.qStep _ _ _ _ _ _)
  | with_reducible exact NoRd.quantU2 (fun _ => NoRd.qStep _ _ _ _ _ _)
  | with_reducible exact NoRd.quantBf16U2Scalar (fun _ => NoRd.qNearest32 _ _ _ _)
  | (with_reducible refine NoRd.forI (fun _ => ?_) _ _)
  | (with_reducible refine NoRd.bind' ?_ (fun _ => ?_))))

theorem NoRd.quantGeneric {isa : Isa} {ft : FT} {dt : DType} {mode : RoundMode} {x : InBuf} {off o n : Nat} {scale τ : F32} {zp : ℤ} :
    NoRd (Verif.quantGeneric isa ft dt mode x off o n scale τ zp) := by
  have hg : NoRd (quantGenericU8 ft mode x off o n τ (invScale scale) zp) := by
    unfold Verif.quantGenericU8
    exact NoRd.bind' (.forI (fun i => .bind' (.bind' (.ldX _ _ _ _) (fun _ => .qStep _ _ _ _ _ _)) (fun _ => .wrB _ _)) _ _) (fun _ => .pure _)
  unfold Verif.quantGeneric
  split
  · unfold quantF32U8; cases isa <;> dsimp only <;> nord
  · unfold quantF32U4; cases isa <;> dsimp only <;> nord
  · unfold quantBf16U8; cases isa <;> dsimp only <;> nord
  · unfold quantBf16U4; cases isa <;> dsimp only <;> nord
  · unfold quantBf16U2; cases isa <;> dsimp only <;> nord
  · nord
  · nord
  · exact hg

/-! ## Dequantization in SET mode -/

theorem NoRd.putF32 (a : Nat) (v : Term) : NoRd (Verif.putF32 .set a v) := .stBytes _ _ _
theorem NoRd.putBf16 (a v : Nat) : NoRd (Verif.putBf16 .set a v) := .stBytes _ _ _
theorem NoRd.dqStepF32 (b : Bool) (q : Nat) (s : F32) (zp : ℤ) : NoRd (Verif.dqStepF32 b q s zp) := .bind' (.subI _ _ _) (fun _ => .pure _)
theorem NoRd.dqStepBf16 (q : Nat) (s : F32) (zp : ℤ) : NoRd (Verif.dqStepBf16 q s zp) := .bind' (.subI _ _ _) (fun _ => .pure _)
theorem NoRd.dqStep32 (b : Bool) (q : Nat) (s : F32) (zp : ℤ) : NoRd (Verif.dqStep32 b q s zp) := .bind' (.subI _ _ _) (fun _ => .pure _)
theorem NoRd.putDq32 (b : Bool) (o : Nat) (s : F32) (zp : ℤ) (i q : Nat) : NoRd (Verif.putDq32 b .set o s zp i q) := .bind' (.dqStep32 _ _ _ _) (fun _ => .putF32 _ _)
theorem NoRd.putDq64 (b : Bool) (o : Nat) (s : F32) (zp : ℤ) (i q : Nat) : NoRd (Verif.putDq64 b .set o s zp i q) := .bind' (.dqStepF32 _ _ _ _) (fun _ => .putF32 _ _)
theorem NoRd.putDq32b (o : Nat) (s : F32) (zp : ℤ) (i q : Nat) : NoRd (Verif.putDq32b .set o s zp i q) := .bind' (.dqStep32 _ _ _ _) (fun _ => .putBf16 _ _)

theorem NoRd.emitF32 {n : Nat} (a : Nat) (rs : List (V n Term)) : NoRd (Verif.emitF32 .set a rs) := by
  unfold Verif.emitF32
  refine .bind' ?_ (fun rs' => ?_)
  · induction rs generalizing a with
    | nil => exact .pure _
    | cons v vs ih => exact .bind' (.pure _) (fun _ => .bind' (ih _) (fun _ => .pure _))
  · induction rs' generalizing a with
    | nil => exact .pure _
    | cons v vs ih => exact .bind' (.stBytes _ _ _) (fun _ => ih _)
theorem NoRd.emitBf16 {n : Nat} (isa : Isa) (a : Nat) (rs : List (V n Term)) : NoRd (Verif.emitBf16 isa .set a rs) := by
  unfold Verif.emitBf16
  refine .bind' ?_ (fun rs' => ?_)
  · induction rs generalizing a with
    | nil => exact .pure _
    | cons v vs ih => exact .bind' (.pure _) (fun _ => .bind' (ih _) (fun _ => .pure _))
  · induction rs' generalizing a with
    | nil => exact .pure _
    | cons v vs ih => exact .bind' (.stBytes _ _ _) (fun _ => ih _)

theorem NoRd.dqU8Loop {put : Nat → Nat → Prog Unit} (hp : ∀ i q, NoRd (put i q)) {x : InBuf} {off n i : Nat} : NoRd (Verif.dqU8Loop put x off n i) :=
  .bind' (.forI (fun _ => .bind' (.ldQ _ _ _) (fun _ => hp _ _)) _ _) (fun _ => .pure _)
theorem NoRd.dqU4From {put : Nat → Nat → Prog Unit} (hp : ∀ i q, NoRd (put i q)) {x : InBuf} {off n i : Nat} : NoRd (Verif.dqU4From put x off n i) :=
  .bind' (.forI (fun _ => .bind' (.ldQ _ _ _) (fun _ => .seq (hp _ _) (hp _ _))) _ _)
    (fun _ => .ite (.bind' (.ldQ _ _ _) (fun _ => hp _ _)) (.pure _))
theorem NoRd.dqU2From {put : Nat → Nat → Prog Unit} (hp : ∀ i q, NoRd (put i q)) {x : InBuf} {off n i : Nat} : NoRd (Verif.dqU2From put x off n i) := by
  refine .bind' (.forI (fun _ => .bind' (.ldQ _ _ _) (fun _ => .seq (hp _ _) (.seq (hp _ _) (.seq (hp _ _) (hp _ _))))) _ _)
    (fun _ => .ite (.bind' (.ldQ _ _ _) (fun _ => ?_)) (.pure _))
  have h3 : ∀ (c : Prop) [Decidable c] (i q : Nat), NoRd (if c then put i q else (Pure.pure () : Prog Unit)) := fun c _ i q => .ite (hp _ _) (.pure _)
  dsimp only
  exact .ite (.seq (hp _ _) (.ite (.seq (hp _ _) (h3 _ _ _)) (h3 _ _ _))) (.ite (.seq (hp _ _) (h3 _ _ _)) (h3 _ _ _))
theorem NoRd.dequantUint2 {put putSet : Nat → Nat → Prog Unit} (hp : ∀ i q, NoRd (put i q)) (hp' : ∀ i q, NoRd (putSet i q)) {x : InBuf} {off n : Nat} :
    NoRd (Verif.dequantUint2 put putSet x off n) := by
  unfold Verif.dequantUint2
  refine .bind' (.forI (fun _ => .bind' (.ldQ _ _ _) (fun _ => .seq (hp _ _) (.seq (hp _ _) (.seq (hp _ _) (hp _ _))))) _ _)
    (fun _ => .bind' (.ldQ _ _ _) (fun _ => ?_))
  split
  · exact hp' _ _
  · exact .seq (hp' _ _) (hp' _ _)
  · exact .seq (hp' _ _) (.seq (hp' _ _) (hp' _ _))
  · exact .pure _

macro "nord2" : tactic => `(tactic| repeat' (first
  | with_reducible exact NoRd.loadu_u8 _ _ _ _ | with_reducible exact NoRd.emitF32 _ _ | with_reducible exact NoRd.emitBf16 _ _ _ | with_reducible exact NoRd.pure _ | with_reducible exact NoRd.fail _
  | with_reducible exact NoRd.dqU8Loop (fun _ _ => NoRd.putDq32 _ _ _ _ _ _) | with_reducible exact NoRd.dqU8Loop (fun _ _ => NoRd.putDq32b _ _ _ _ _)
  | with_reducible exact NoRd.dqU4From (fun _ _ => NoRd.putDq32 _ _ _ _ _ _) | with_reducible exact NoRd.dqU4From (fun _ _ => NoRd.putDq32b _ _ _ _ _)
  | with_reducible exact NoRd.dqU2From (fun _ _ => NoRd.putBf16 _ _)
  | (with_reducible refine NoRd.forI (fun _ => ?_) _ _)
  | (with_reducible refine NoRd.bind' ?_ (fun _ => ?_))))

theorem NoRd.dequantGeneric {isa : Isa} {fz : Fuse} {ft : FT} {dt : DType} {x : InBuf} {off o n : Nat} {scale : F32} {zp : ℤ} :
    NoRd (Verif.dequantGeneric isa fz dt ft .set x off o n scale zp) := by
  unfold Verif.dequantGeneric
  split
  · unfold dequantU8F32; cases isa <;> dsimp only <;> nord2
  · unfold dequantU4F32; cases isa <;> dsimp only <;> nord2
  · unfold dequantU8Bf16; cases isa <;> dsimp only <;> nord2
  · unfold dequantU4Bf16; cases isa <;> dsimp only <;> nord2
  · unfold dequantU2Bf16; cases isa <;> dsimp only <;> nord2
  · exact .dequantUint2 (fun _ _ => .putDq64 _ _ _ _ _ _) (fun _ _ => .putDq64 _ _ _ _ _ _)
  · exact .fail _

theorem NoRd.requantGeneric {fz : Fuse} {ft : FT} {dt : DType} {mode : RoundMode} {x : InBuf} {off o n : Nat} {scale τ : F32} {zp : ℤ} :
    NoRd (Verif.requantGeneric fz ft dt mode .set x off o n scale τ zp) := by
  unfold Verif.requantGeneric
  refine .bind' (.forI (fun _ => .bind' (.ldX _ _ _ _) (fun _ => .bind' (.qStep _ _ _ _ _ _) (fun _ => ?_))) _ _) (fun _ => .pure _)
  split
  · exact .bind' (.dqStepF32 _ _ _ _) (fun _ => .putF32 _ _)
  · exact .bind' (.dqStepBf16 _ _ _) (fun _ => .putBf16 _ _)

theorem NoRd.jobs {isa : Isa} {threads : Nat} {x : InBuf} {o : Nat} {d : Desc} (h : d.type = .quant ∨ d.reducing = .set) :
    ∀ p ∈ Verif.jobs isa threads x o d, NoRd p := by
  intro p hp
  unfold Verif.jobs at hp
  obtain ⟨ti, _, rfl⟩ := List.mem_map.mp hp
  unfold jobEntry
  split
  · exact .fail _
  · exact .pure _
  · dsimp only
    generalize byteOff d.dtIn.bits _ = a
    generalize o + _ = b
    unfold quantizeDispatch
    cases hc : d.type with
    | quant =>
      unfold dispatchQuantize
      refine .ite (.fail _) (.ite (.fail _) ?_)
      split
      · exact .fail _
      · exact .fail _
      · exact .quantGeneric
    | dequant =>
      have h2 : d.reducing = .set := by
        rcases h with h | h
        · rw [hc] at h; cases h
        · exact h
      unfold dispatchDequantize
      refine .ite (.fail _) (.ite (.fail _) ?_)
      split
      · exact .fail _
      · exact .fail _
      · rename_i he
        have h3 := dequantFunctions_op he
        simp only at h3
        rw [h3, h2]; exact .dequantGeneric
    | quantDequant =>
      have h2 : d.reducing = .set := by
        rcases h with h | h
        · rw [hc] at h; cases h
        · exact h
      unfold dispatchRequantize
      refine .ite (.fail _) (.ite (.fail _) ?_)
      split
      · exact .fail _
      · exact .fail _
      · rename_i he
        have h3 := requantFunctions_op he
        simp only at h3
        rw [h3, h2]; exact .requantGeneric

/-! ## Consequences -/

/-- Every byte is either the same in both results or untouched in both. -/
def Lock (m m' r r' : Mem) : Prop := ∀ a, r a = r' a ∨ (r a = m a ∧ r' a = m' a)

theorem Fresh.lockstep {α : Type} {w : Win} {p : Prog α} {W : Nat → Prop} (h : Fresh W p) {m m' : Mem} (hag : ∀ a, W a → m a = m' a) :
    (∃ f, p.run w m = .error f ∧ p.run w m' = .error f) ∨
      ∃ v r r', p.run w m = .ok (v, r) ∧ p.run w m' = .ok (v, r') ∧ Lock m m' r r' := by
  induction p generalizing W m m' with
  | ret a => exact Or.inr ⟨a, m, m', rfl, rfl, fun _ => Or.inr ⟨rfl, rfl⟩⟩
  | fail f => exact Or.inl ⟨f, rfl, rfl⟩
  | rd a k ih =>
    simp only [Prog.run]
    split
    · rw [← hag a h.1]; exact ih _ (h.2 _) hag
    · exact Or.inl ⟨_, rfl, rfl⟩
  | wr a b k ih =>
    simp only [Prog.run]
    split
    · have hag' : ∀ x, (x = a ∨ W x) → (m.set a b) x = (m'.set a b) x := by
        intro x hx
        unfold Mem.set
        split
        · rfl
        · rename_i hne; exact hag x (hx.resolve_left hne)
      rcases ih h hag' with h1 | ⟨v, r, r', h1, h2, h3⟩
      · exact Or.inl h1
      · refine Or.inr ⟨v, r, r', h1, h2, fun x => ?_⟩
        rcases h3 x with h4 | ⟨h4, h5⟩
        · exact Or.inl h4
        · unfold Mem.set at h4 h5
          by_cases hx : x = a
          · rw [if_pos hx] at h4 h5; exact Or.inl (h4.trans h5.symm)
          · rw [if_neg hx] at h4 h5; exact Or.inr ⟨h4, h5⟩
    · exact Or.inl ⟨_, rfl, rfl⟩

theorem runSeq_lockstep {w : Win} {js : List (Prog Unit)} (h : ∀ p ∈ js, NoRd p) {m m' : Mem} :
    (∃ f, runSeq w js m = .error f ∧ runSeq w js m' = .error f) ∨
      ∃ r r', runSeq w js m = .ok r ∧ runSeq w js m' = .ok r' ∧ Lock m m' r r' := by
  induction js generalizing m m' with
  | nil => exact Or.inr ⟨m, m', rfl, rfl, fun _ => Or.inr ⟨rfl, rfl⟩⟩
  | cons p ps ih =>
    simp only [runSeq]
    rcases Fresh.lockstep (w := w) (h p (by simp) (fun _ => False)) (m := m) (m' := m') (fun _ h => h.elim) with ⟨f, h1, h2⟩ | ⟨v, r, r', h1, h2, h3⟩
    · rw [h1, h2]; exact Or.inl ⟨f, rfl, rfl⟩
    · rw [h1, h2]
      rcases ih (fun p hp => h p (by simp [hp])) (m := r) (m' := r') with h4 | ⟨s, s', h4, h5, h6⟩
      · exact Or.inl h4
      · refine Or.inr ⟨s, s', h4, h5, fun a => ?_⟩
        rcases h6 a with h7 | ⟨h7, h8⟩
        · exact Or.inl h7
        · rcases h3 a with h9 | ⟨h9, h10⟩
          · left; rw [h7, h8, h9]
          · right; exact ⟨h7.trans h9, h8.trans h10⟩

theorem Reach.trans {w : Win} {a b c : Cfg} {n k : Nat} (h : Reach w a n b) (h' : Reach w b k c) : Reach w a (n + k) c := by
  induction h' with
  | refl => exact h
  | tail _ s ih => exact .tail ih s

theorem reach_one {w : Win} {p : Prog Unit} {pre post : List (Prog Unit)} {m r : Mem} (h : p.run w m = .ok ((), r)) :
    ∃ n, Reach w ⟨pre ++ p :: post, m⟩ n ⟨pre ++ .ret () :: post, r⟩ := by
  induction p generalizing m with
  | ret a =>
    simp only [Prog.run, Except.ok.injEq, Prod.mk.injEq] at h
    obtain ⟨_, rfl⟩ := h
    exact ⟨0, .refl⟩
  | fail f => simp [Prog.run] at h
  | rd a k ih =>
    simp only [Prog.run] at h
    split at h
    · rename_i ha
      obtain ⟨n, hn⟩ := ih _ h
      have : Step w ⟨pre ++ .rd a k :: post, m⟩ ⟨(pre ++ .rd a k :: post).set pre.length (k (m a)), m⟩ :=
        Step.rd (c := ⟨pre ++ .rd a k :: post, m⟩) (t := pre.length) (by simp) ha
      rw [List.set_append_right _ _ (Nat.le_refl _)] at this
      simp only [Nat.sub_self, List.set_cons_zero] at this
      exact ⟨_, Reach.trans (.tail .refl this) hn⟩
    · cases h
  | wr a b k ih =>
    simp only [Prog.run] at h
    split at h
    · rename_i ha
      obtain ⟨n, hn⟩ := ih h
      have : Step w ⟨pre ++ .wr a b k :: post, m⟩ ⟨(pre ++ .wr a b k :: post).set pre.length k, m.set a b⟩ :=
        Step.wr (c := ⟨pre ++ .wr a b k :: post, m⟩) (t := pre.length) (by simp) ha
      rw [List.set_append_right _ _ (Nat.le_refl _)] at this
      simp only [Nat.sub_self, List.set_cons_zero] at this
      exact ⟨_, Reach.trans (.tail .refl this) hn⟩
    · cases h

/-- The sequential execution is one of the schedules. -/
theorem reach_seq {w : Win} {js : List (Prog Unit)} {m r : Mem} (h : runSeq w js m = .ok r) :
    ∃ n c, Reach w ⟨js, m⟩ n c ∧ c.Done ∧ c.mem = r := by
  have : ∀ (js pre : List (Prog Unit)) (m : Mem), (∀ p ∈ pre, p = .ret ()) → runSeq w js m = .ok r →
      ∃ n c, Reach w ⟨pre ++ js, m⟩ n c ∧ c.Done ∧ c.mem = r := by
    intro js
    induction js with
    | nil =>
      intro pre m hpre h
      simp only [runSeq, Except.ok.injEq] at h
      refine ⟨0, _, .refl, ?_, h⟩
      intro p hp; simp at hp; exact hpre p hp
    | cons p ps ih =>
      intro pre m hpre h
      simp only [runSeq] at h
      cases hp : p.run w m with
      | error f => rw [hp] at h; cases h
      | ok v =>
        obtain ⟨u, m'⟩ := v
        rw [hp] at h
        obtain ⟨n1, h1⟩ := reach_one (pre := pre) (post := ps) hp
        obtain ⟨n2, c, h2, h3, h4⟩ := ih (pre ++ [.ret ()]) m' (by
          intro q hq
          rcases List.mem_append.mp hq with hq | hq
          · exact hpre q hq
          · simpa using hq) h
        rw [List.append_assoc] at h2
        exact ⟨_, c, h1.trans h2, h3, h4⟩
  exact this js [] m (by simp) h

/-- A call whose workers read only what they wrote, and whose every result has bytes below 256 in
the output span, writes the whole span, with values that do not depend on the old contents. -/
theorem overwrites {E : Fault → Prop} {w : Win} {js : List (Prog Unit)} {o len : Nat} (hj : ∀ p ∈ js, NoRd p)
    (h : ∀ m0, AllSchedules E w js m0 (fun m => (∀ j, j < len → m (o + j) < 256) ∧ runSeq w js m0 = .ok m)) :
    ∃ out : Nat → Nat, ∀ m0, AllSchedules E w js m0 (fun m => ∀ j, j < len → m (o + j) = out j) := by
  cases hs : runSeq w js (fun _ => 256) with
  | error f =>
    refine ⟨fun _ => 0, fun m0 => ⟨(h m0).safe, (h m0).raceFree, (h m0).progress, (h m0).bounded, fun n c hr hd => ?_⟩⟩
    have h1 := ((h m0).post n c hr hd).2
    rcases runSeq_lockstep (w := w) hj (m := m0) (m' := fun _ => 256) with ⟨f, h2, _⟩ | ⟨r, r', _, h2, _⟩
    · rw [h1] at h2; cases h2
    · rw [hs] at h2; cases h2
  | ok r' =>
    obtain ⟨n', c', hr', hd', rfl⟩ := reach_seq hs
    have hlt := ((h _).post n' c' hr' hd').1
    refine ⟨fun j => c'.mem (o + j), fun m0 => ⟨(h m0).safe, (h m0).raceFree, (h m0).progress, (h m0).bounded, fun n c hr hd => ?_⟩⟩
    have h1 := ((h m0).post n c hr hd).2
    rcases runSeq_lockstep (w := w) hj (m := m0) (m' := fun _ => 256) with ⟨f, h2, _⟩ | ⟨r, r', h2, h3, h4⟩
    · rw [h1] at h2; cases h2
    · rw [h1] at h2; rw [hs] at h3
      cases h2; cases h3
      intro j hjl
      rcases h4 (o + j) with h5 | ⟨_, h5⟩
      · exact h5
      · have := hlt j hjl; simp only at h5; omega

end Verif

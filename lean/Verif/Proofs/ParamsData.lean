import Verif.Proofs.Params
import Verif.Proofs.MinMaxSse
import Verif.Proofs.Calls

/-! # Minimum and maximum of the data -/

namespace Verif
open Spec

/-! ## Selections of numbers -/

theorem less_false {a b : F32} (ha : a.isNaN = false) (hb : b.isNaN = false) : less false a b = decide (a.toRat < b.toRat) := lt_iff ha hb
theorem less_true {a b : F32} (ha : a.isNaN = false) (hb : b.isNaN = false) : less true a b = decide (b.toRat < a.toRat) := lt_iff hb ha

/-- `c` is the smaller (`mx = false`) resp. larger of `a` and `b`. -/
def Sel (mx : Bool) (a b c : F32) : Prop :=
  (c = a ∨ c = b) ∧ (if mx then a.toRat ≤ c.toRat ∧ b.toRat ≤ c.toRat else c.toRat ≤ a.toRat ∧ c.toRat ≤ b.toRat)

theorem pick_sel {mx : Bool} {a b : F32} (ha : a.isNaN = false) (hb : b.isNaN = false) : Sel mx a b (pick mx a b) := by
  unfold Sel pick
  cases mx
  · rw [less_false ha hb]
    by_cases h : a.toRat < b.toRat
    · simp [h, h.le]
    · simp [h, not_lt.mp h]
  · rw [less_true ha hb]
    by_cases h : b.toRat < a.toRat
    · simp [h, h.le]
    · simp [h, not_lt.mp h]

theorem pick'_sel {mx : Bool} {a b : F32} (ha : a.isNaN = false) (hb : b.isNaN = false) : Sel mx a b (pick' mx a b) := by
  unfold Sel pick'
  cases mx
  · rw [less_false hb ha]
    by_cases h : b.toRat < a.toRat
    · simp [h, h.le]
    · simp [h, not_lt.mp h]
  · rw [less_true hb ha]
    by_cases h : a.toRat < b.toRat
    · simp [h, h.le]
    · simp [h, not_lt.mp h]

theorem pickN_sel {mx : Bool} {a b : F32} (ha : a.isNaN = false) (hb : b.isNaN = false) : Sel mx a b (pickN mx a b) := by
  unfold pickN
  rw [ha, hb]
  exact pick_sel ha hb

/-- The running minimum `v` and maximum `w` of NaN-free values. -/
def Rng (f : Nat → F32) (S : Ix) (v w : F32) : Prop :=
  (v.isNaN = false ∧ w.isNaN = false) ∧ (∀ t, S (some t) → v.toRat ≤ (f t).toRat ∧ (f t).toRat ≤ w.toRat) ∧
    ((∃ t, S (some t) ∧ v = f t) ∨ v = fltMax) ∧ ((∃ t, S (some t) ∧ w = f t) ∨ w = fltLowest)

theorem Rng.clo {f : Nat → F32} {g : Bool → F32 → F32 → F32} (hg : ∀ {mx : Bool} {a b : F32}, a.isNaN = false → b.isNaN = false → Sel mx a b (g mx a b)) :
    Clo (Rng f) (g false) (g true) := by
  rintro S T a b c d ⟨⟨a1, b1⟩, h1, h2, h3⟩ ⟨⟨c1, d1⟩, k1, k2, k3⟩
  obtain ⟨e1, l1, l2⟩ := hg (mx := false) a1 c1
  obtain ⟨e2, m1, m2⟩ := hg (mx := true) b1 d1
  refine ⟨⟨?_, ?_⟩, ?_, ?_, ?_⟩
  · rcases e1 with e | e <;> rw [e] <;> assumption
  · rcases e2 with e | e <;> rw [e] <;> assumption
  · rintro t (ht | ht)
    · exact ⟨l1.trans (h1 t ht).1, (h1 t ht).2.trans m1⟩
    · exact ⟨l2.trans (k1 t ht).1, (k1 t ht).2.trans m2⟩
  · rcases e1 with e | e <;> rw [e]
    · rcases h2 with ⟨t, ht, e⟩ | e
      · exact Or.inl ⟨t, Or.inl ht, e⟩
      · exact Or.inr e
    · rcases k2 with ⟨t, ht, e⟩ | e
      · exact Or.inl ⟨t, Or.inr ht, e⟩
      · exact Or.inr e
  · rcases e2 with e | e <;> rw [e]
    · rcases h3 with ⟨t, ht, e⟩ | e
      · exact Or.inl ⟨t, Or.inl ht, e⟩
      · exact Or.inr e
    · rcases k3 with ⟨t, ht, e⟩ | e
      · exact Or.inl ⟨t, Or.inr ht, e⟩
      · exact Or.inr e

theorem Rng.rel {f : Nat → F32} {numel : Nat} (hf : ∀ t, t < numel → (f t).isNaN = false) : Rel (Rng f) f numel where
  init := ⟨⟨by decide, by decide⟩, (fun t h => by cases h), Or.inr rfl, Or.inr rfl⟩
  elem t ht := ⟨⟨hf t ht, hf t ht⟩, fun u hu => by injection hu with hu; subst hu; exact ⟨le_refl _, le_refl _⟩, Or.inl ⟨t, rfl, rfl⟩, Or.inl ⟨t, rfl, rfl⟩⟩
  p1 := Rng.clo pick_sel
  p2 := Rng.clo pick'_sel
  p3 := Rng.clo pickN_sel

theorem fltMax_ge {a : F32} (h : a.isFin = true) : |a.toRat| ≤ fltMax.toRat := by
  rw [toRat_abs]
  have : fltMax.toRat = fltMax.absRat := rfl
  rw [this]
  by_contra hc
  have := absRat_lt_iff.mp (not_le.mp hc)
  simp [Flt.isFin] at h
  have e : f32.infMag = 0x7f800000 := by decide
  have e2 : fltMax.mag = 0x7f7fffff := rfl
  omega
theorem fltLowest_eq : fltLowest.toRat = -fltMax.toRat := rfl

/-- Minimum and maximum over a non-empty set `T` of elements of finite data. -/
def RangeOn (g : Nat → ℚ) (T : Nat → Prop) (lo hi : ℚ) : Prop :=
  (∀ t, T t → lo ≤ g t ∧ g t ≤ hi) ∧ (∃ t, T t ∧ lo = g t) ∧ ∃ t, T t ∧ hi = g t

theorem findMinMax_fin {isa : Isa} {ft : FT} {x : InBuf} {off numel : Nat} (hx : off + ft.size * numel ≤ x.size) (hn : 0 < numel)
    (hf : ∀ t, t < numel → (x.elem ft off t).isFin = true) :
    ∃ r, findMinMax isa ft x off numel = .ret r ∧ r.1.isFin = true ∧ r.2.isFin = true ∧
      RangeOn (fun t => (x.elem ft off t).toRat) (fun t => t < numel ∧ Seen isa ft numel t) r.1.toRat r.2.toRat := by
  obtain ⟨r, e, C, hC, hnan, hb, hv, hw⟩ := findMinMax_seen (isa := isa) hx (Rng.rel (fun t ht => (isFin_not_nan (hf t ht)).1))
  have hC2 : ∀ t, C (some t) → t < numel := fun t ht => ((hC t).1 ht).1
  obtain ⟨u, hu⟩ : ∃ t, C (some t) := ⟨0, (hC 0).2 ⟨hn, fun _ => by cases ft <;> exact Or.inr (by decide)⟩⟩
  have hv' : ∃ t, C (some t) ∧ r.1.toRat = (x.elem ft off t).toRat := by
    rcases hv with ⟨t, ht, e⟩ | e
    · exact ⟨t, ht, by rw [e]⟩
    · refine ⟨u, hu, le_antisymm (hb u hu).1 ?_⟩
      rw [e]; exact le_trans (le_abs_self _) (fltMax_ge (hf u (hC2 u hu)))
  have hw' : ∃ t, C (some t) ∧ r.2.toRat = (x.elem ft off t).toRat := by
    rcases hw with ⟨t, ht, e⟩ | e
    · exact ⟨t, ht, by rw [e]⟩
    · refine ⟨u, hu, le_antisymm ?_ (hb u hu).2⟩
      rw [e, fltLowest_eq]; have := abs_le.mp (fltMax_ge (hf u (hC2 u hu))); exact this.1
  refine ⟨r, e, ?_, ?_, fun t ht => hb t ((hC t).2 ht), ?_, ?_⟩
  rotate_left 2
  · obtain ⟨t, ht, e⟩ := hv'
    exact ⟨t, (hC t).1 ht, e⟩
  · obtain ⟨t, ht, e⟩ := hw'
    exact ⟨t, (hC t).1 ht, e⟩
  · obtain ⟨t, ht, e⟩ := hv'
    exact isFin_of_abs (by rw [e]; exact abs_lt_of_isFin (hf t (hC2 t ht)))
  · obtain ⟨t, ht, e⟩ := hw'
    exact isFin_of_abs (by rw [e]; exact abs_lt_of_isFin (hf t (hC2 t ht)))

/-! ## Blocks -/

theorem elem_off {x : InBuf} {ft : FT} {s t : Nat} : x.elem ft (ft.size * s) t = x.elem ft 0 (s + t) := by
  cases ft
  · simp only [InBuf.elem, FT.size]; congr 1; omega
  · simp only [InBuf.elem, FT.size]; congr 2; omega

theorem mmBlock_fin {isa : Isa} {ft : FT} {x : InBuf} {n s e : Nat} (hx : ft.size * n ≤ x.size) (hs : s < e) (he : e ≤ n)
    (hf : ∀ t, t < n → (x.elem ft 0 t).isFin = true) :
    ∃ r, mmBlock isa ft x s e = .ret r ∧ r.1.isFin = true ∧ r.2.isFin = true ∧
      RangeOn (fun t => (x.elem ft 0 t).toRat) (fun t => s ≤ t ∧ t < e ∧ Seen isa ft (e - s) (t - s)) r.1.toRat r.2.toRat := by
  have hb : ft.size * s + ft.size * (e - s) ≤ x.size := by
    rw [← Nat.mul_add]
    exact le_trans (Nat.mul_le_mul_left _ (by omega)) hx
  obtain ⟨r, er, f1, f2, h1, ⟨u, hu, eu⟩, ⟨w, hw, ew⟩⟩ := findMinMax_fin (isa := isa) hb (by omega) (fun t ht => by rw [elem_off]; exact hf _ (by omega))
  simp only [elem_off] at h1 eu ew
  refine ⟨r, ?_, f1, f2, ?_, ⟨s + u, ⟨by omega, by omega, by rw [Nat.add_sub_cancel_left]; exact hu.2⟩, eu⟩, ⟨s + w, ⟨by omega, by omega, by rw [Nat.add_sub_cancel_left]; exact hw.2⟩, ew⟩⟩
  · unfold mmBlock
    rw [if_neg (by omega)]; exact er
  · rintro t ⟨ht, hT, hS⟩
    have := h1 (t - s) ⟨by omega, hS⟩
    rwa [show s + (t - s) = t by omega] at this

/-- The state of the combining loop after some blocks. -/
def CombOn (g : Nat → ℚ) (T : Nat → Prop) (s : F64 × F64) : Prop :=
  s.1.isFin = true ∧ s.2.isFin = true ∧ RangeOn g T s.1.toRat s.2.toRat

theorem mmCombine_step {g : Nat → ℚ} {s : F64 × F64} {T U : Nat → Prop} {r : F32 × F32} (h : CombOn g T s)
    (h1 : r.1.isFin = true) (h2 : r.2.isFin = true) (hr : RangeOn g U r.1.toRat r.2.toRat) :
    CombOn g (fun t => T t ∨ U t) (stdMin s.1 (Flt.cvt f64 r.1), stdMax s.2 (Flt.cvt f64 r.2)) := by
  obtain ⟨s1, s2, b, ⟨u, hu, eu⟩, ⟨w, hw, ew⟩⟩ := h
  obtain ⟨b', ⟨u', hu', eu'⟩, ⟨w', hw', ew'⟩⟩ := hr
  obtain ⟨e1, f1⟩ := cvt64_fin h1
  obtain ⟨e2, f2⟩ := cvt64_fin h2
  obtain ⟨g1, m1⟩ := stdMin_fin s1 f1
  obtain ⟨g2, m2⟩ := stdMax_fin s2 f2
  refine ⟨g1, g2, ?_, ?_, ?_⟩
  · rintro t (ht | ht)
    · rw [m1, m2]; exact ⟨le_trans (min_le_left _ _) (b t ht).1, le_trans (b t ht).2 (le_max_left _ _)⟩
    · rw [m1, m2, e1, e2]; exact ⟨le_trans (min_le_right _ _) (b' t ht).1, le_trans (b' t ht).2 (le_max_right _ _)⟩
  · show ∃ t, (T t ∨ U t) ∧ _ = g t
    rw [m1, e1]
    rcases min_choice s.1.toRat r.1.toRat with e | e <;> rw [e]
    · exact ⟨u, Or.inl hu, eu⟩
    · exact ⟨u', Or.inr hu', eu'⟩
  · show ∃ t, (T t ∨ U t) ∧ _ = g t
    rw [m2, e2]
    rcases max_choice s.2.toRat r.2.toRat with e | e <;> rw [e]
    · exact ⟨w, Or.inl hw, ew⟩
    · exact ⟨w', Or.inr hw', ew'⟩

theorem dblMax_fin : dblMax.isFin = true ∧ dblLowest.isFin = true := by decide
theorem dblMax_ge {a : F32} (h : a.isFin = true) : a.toRat < dblMax.toRat ∧ dblLowest.toRat < a.toRat := by
  have h1 := abs_lt.mp (abs_lt_of_isFin h)
  rw [emax_f32] at h1
  have h2 : (2:ℚ) ^ 128 < dblMax.toRat := by decide +kernel
  have h3 : dblLowest.toRat = -dblMax.toRat := rfl
  rw [h3]
  constructor <;> linarith [h1.1, h1.2]

theorem mmCombine_first {g : Nat → ℚ} {U : Nat → Prop} {r : F32 × F32}
    (h1 : r.1.isFin = true) (h2 : r.2.isFin = true) (hr : RangeOn g U r.1.toRat r.2.toRat) :
    CombOn g U (stdMin dblMax (Flt.cvt f64 r.1), stdMax dblLowest (Flt.cvt f64 r.2)) := by
  obtain ⟨e1, f1⟩ := cvt64_fin h1
  obtain ⟨e2, f2⟩ := cvt64_fin h2
  obtain ⟨g1, m1⟩ := stdMin_fin dblMax_fin.1 f1
  obtain ⟨g2, m2⟩ := stdMax_fin dblMax_fin.2 f2
  refine ⟨g1, g2, ?_⟩
  rw [m1, m2, e1, e2, min_eq_right (dblMax_ge h1).1.le, max_eq_right (dblMax_ge h2).2.le]
  exact hr

/-- All blocks. -/
theorem mmBlocks_fin {isa : Isa} {ft : FT} {x : InBuf} {n : Nat} (hx : ft.size * n ≤ x.size)
    (hf : ∀ t, t < n → (x.elem ft 0 t).isFin = true) :
    ∀ (blocks : List (Nat × Nat)) (s : Nat), Split n s blocks → ∃ rs, mmBlocks isa ft x blocks = .ret rs ∧ (rs = [] ↔ blocks = []) ∧
      (∀ t, SeenIn isa ft blocks t → s ≤ t ∧ t < n) ∧ s ≤ n ∧
      (∀ (st : F64 × F64) (U : Nat → Prop), CombOn (fun t => (x.elem ft 0 t).toRat) U st →
        CombOn (fun t => (x.elem ft 0 t).toRat) (fun t => U t ∨ SeenIn isa ft blocks t) (rs.foldl (fun s r => (stdMin s.1 (Flt.cvt f64 r.1), stdMax s.2 (Flt.cvt f64 r.2))) st)) ∧
      (rs ≠ [] → CombOn (fun t => (x.elem ft 0 t).toRat) (SeenIn isa ft blocks) (mmCombine rs)) := by
  intro blocks
  induction blocks with
  | nil =>
    intro s hs
    have hs : s = n := hs
    have hno : ∀ t, ¬ SeenIn isa ft [] t := fun t ⟨b, hb, _⟩ => by cases hb
    refine ⟨[], rfl, by simp, fun t h => (hno t h).elim, by omega, fun st U h => ?_, fun h => absurd rfl h⟩
    show CombOn _ (fun t => U t ∨ SeenIn isa ft [] t) st
    have : (fun t => U t ∨ SeenIn isa ft [] t) = U := by
      funext t; exact propext ⟨fun h => h.resolve_right (hno t), Or.inl⟩
    rw [this]; exact h
  | cons b bs ih =>
    rintro s ⟨hb, hlt, hrest⟩
    obtain ⟨rs, ers, _, hT1, hle, hT3, _⟩ := ih b.2 hrest
    obtain ⟨r, er, f1, f2, hV⟩ := mmBlock_fin (isa := isa) hx (s := b.1) (e := b.2) (by omega) hle hf
    have hcons : ∀ t, SeenIn isa ft (b :: bs) t ↔ (b.1 ≤ t ∧ t < b.2 ∧ Seen isa ft (b.2 - b.1) (t - b.1)) ∨ SeenIn isa ft bs t := by
      intro t
      unfold SeenIn
      simp only [List.mem_cons, exists_eq_or_imp]
    have hassoc : ∀ {U : Nat → Prop} {st}, CombOn (fun t => (x.elem ft 0 t).toRat) (fun t => (U t ∨ (b.1 ≤ t ∧ t < b.2 ∧ Seen isa ft (b.2 - b.1) (t - b.1))) ∨ SeenIn isa ft bs t) st →
        CombOn (fun t => (x.elem ft 0 t).toRat) (fun t => U t ∨ SeenIn isa ft (b :: bs) t) st := by
      intro U st h
      simpa only [hcons, or_assoc] using h
    refine ⟨r :: rs, ?_, by simp, ?_, by omega, ?_, ?_⟩
    · unfold mmBlocks; rw [er]
      show (do let rs ← mmBlocks isa ft x bs; pure (r :: rs) : Prog _) = _
      rw [ers]; rfl
    · intro t ht
      rcases (hcons t).1 ht with ht | ht
      · omega
      · have := hT1 t ht; omega
    · intro st U h
      exact hassoc (hT3 _ _ (mmCombine_step h f1 f2 hV))
    · intro _
      have := hT3 _ _ (mmCombine_first f1 f2 hV)
      have e : SeenIn isa ft (b :: bs) = fun t => (b.1 ≤ t ∧ t < b.2 ∧ Seen isa ft (b.2 - b.1) (t - b.1)) ∨ SeenIn isa ft bs t := funext fun t => propext (hcons t)
      rw [e]; exact this

/-- The parameters computed from finite data: those of the elements that count. -/
theorem config_seen {isa : Isa} {ft : FT} {x : InBuf} {n : Nat} {blocks : List (Nat × Nat)} {dt : DType} (hdt : dt.isQuant = true) (hx : ft.size * n ≤ x.size) (hn : 0 < n)
    (hf : ∀ t, t < n → (x.elem ft 0 t).isFin = true) (hs : Split n 0 blocks) :
    ∃ lo hi, RangeOn (fun t => (x.elem ft 0 t).toRat) (SeenIn isa ft blocks) lo hi ∧ (∀ t, SeenIn isa ft blocks t → t < n) ∧
      computeQuantConfigFromData isa ft x blocks dt = .ret (params dt.bits lo hi) := by
  obtain ⟨rs, ers, hnil, hT1, _, _, hc⟩ := mmBlocks_fin (isa := isa) hx hf blocks 0 hs
  have hne : rs ≠ [] := by
    rw [Ne, hnil]; rintro rfl
    have : 0 = n := hs
    omega
  obtain ⟨f1, f2, hr⟩ := hc hne
  obtain ⟨hb, ⟨u, hu, eu⟩, ⟨w, hw, ew⟩⟩ := hr
  refine ⟨_, _, ⟨hb, ⟨u, hu, eu⟩, ⟨w, hw, ew⟩⟩, fun t ht => (hT1 t ht).2, ?_⟩
  have hle : (x.elem ft 0 u).toRat ≤ (x.elem ft 0 w).toRat := by
    have := (hb u hu).2; rw [ew] at this; exact this
  have fu := hf u (hT1 u hu).2
  have fw := hf w (hT1 w hw).2
  have e := paramsOf_eq hdt f1 f2 fu fw eu ew hle
  unfold computeQuantConfigFromData computeQuantConfig
  rw [ers]
  show (do let r ← paramsOf dt (mmCombine rs).1 (mmCombine rs).2; if !r.1.isNaN && Flt.ge r.1 f0 then pure r else .fail .panic : Prog _) = _
  have eu' : (mmCombine rs).1.toRat = (x.elem ft 0 u).toRat := eu
  have ew' : (mmCombine rs).2.toRat = (x.elem ft 0 w).toRat := ew
  rw [e, eu', ew']
  show (if !(params dt.bits (x.elem ft 0 u).toRat (x.elem ft 0 w).toRat).1.isNaN && Flt.ge (params dt.bits (x.elem ft 0 u).toRat (x.elem ft 0 w).toRat).1 f0 then _ else _) = _
  rw [if_pos]; · rfl
  unfold params
  split
  · show (!(Verif.f1).isNaN && Flt.ge Verif.f1 f0) = true
    decide +kernel
  · rename_i hne
    have hlt : (x.elem ft 0 u).toRat < (x.elem ft 0 w).toRat := lt_of_le_of_ne hle (Ne.symm hne)
    have hs0 : 0 ≤ scale64 dt.bits (x.elem ft 0 u).toRat (x.elem ft 0 w).toRat := by
      unfold scale64
      rw [r64_flr, r64_flr]
      have hQ : (3:ℚ) ≤ 2 ^ dt.bits - 1 := by exact_mod_cast (qmax_bounds hdt).1
      exact flr_nonneg (div_nonneg (flr_nonneg (by linarith)) (by linarith))
    show (!(Flt.ofRat f32 (scale64 dt.bits (x.elem ft 0 u).toRat (x.elem ft 0 w).toRat)).isNaN && Flt.ge (Flt.ofRat f32 (scale64 dt.bits (x.elem ft 0 u).toRat (x.elem ft 0 w).toRat)) f0) = true
    unfold Flt.ge
    rw [ofRat_nan, lt_iff ofRat_nan (by decide), ofRat_flr, show f0.toRat = 0 by decide +kernel]
    have : ¬ flr f32 (scale64 dt.bits (x.elem ft 0 u).toRat (x.elem ft 0 w).toRat) < 0 := not_lt.mpr (flr_nonneg hs0)
    simp [this, show Flt.isNaN f0 = false by decide]

/-- With small blocks, or on other kernel sets, all elements count. -/
theorem seen_all {isa : Isa} {ft : FT} {n : Nat} : ∀ (blocks : List (Nat × Nat)) (s : Nat), Split n s blocks → (isa = .sse42 → ∀ b ∈ blocks, mmSmall ft (b.2 - b.1)) →
    ∀ t, s ≤ t → t < n → SeenIn isa ft blocks t := by
  intro blocks
  induction blocks with
  | nil => intro s hs _ t h1 h2; have hs : s = n := hs; omega
  | cons b bs ih =>
    rintro s ⟨hb, hlt, hrest⟩ hsm t h1 h2
    rcases Nat.lt_or_ge t b.2 with h3 | h3
    · refine ⟨b, by simp, by omega, h3, fun hi => ?_⟩
      have := hsm hi b (by simp)
      cases ft
      · have this : b.2 - b.1 < 16 := this
        exact Or.inl (by omega)
      · have this : b.2 - b.1 < 32 := this
        exact Or.inl (by omega)
    · obtain ⟨c, hc, h4⟩ := ih b.2 hrest (fun hi c hc => hsm hi c (by simp [hc])) t h3 h2
      exact ⟨c, by simp [hc], h4⟩

/-- ... in the form used for the kernels whose minimum and maximum are right. -/
theorem config_fin {isa : Isa} {ft : FT} {x : InBuf} {n : Nat} {blocks : List (Nat × Nat)} {dt : DType} (hdt : dt.isQuant = true) (hx : ft.size * n ≤ x.size) (hn : 0 < n)
    (hf : ∀ t, t < n → (x.elem ft 0 t).isFin = true) (hs : Split n 0 blocks) :
    ∃ T lo hi, RangeOn (fun t => (x.elem ft 0 t).toRat) T lo hi ∧ (∀ t, T t → t < n) ∧ ((isa = .sse42 → ∀ b ∈ blocks, mmSmall ft (b.2 - b.1)) → ∀ t, t < n → T t) ∧
      computeQuantConfigFromData isa ft x blocks dt = .ret (params dt.bits lo hi) := by
  obtain ⟨lo, hi, h1, h2, h3⟩ := config_seen (isa := isa) hdt hx hn hf hs
  exact ⟨_, lo, hi, h1, h2, fun h t ht => seen_all blocks 0 hs h t (by omega) ht, h3⟩

end Verif

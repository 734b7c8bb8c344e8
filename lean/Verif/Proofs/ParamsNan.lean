import Verif.Proofs.ParamsData

/-! # Parameters computed from data that may contain NaNs -/

namespace Verif
open Spec

/-- Neither or both are NaN; if neither, they are ordered (or are the initial values). -/
def NumOk (_ : Ix) (v w : F32) : Prop :=
  (v.isNaN = true ∧ w.isNaN = true) ∨ (v.isFin = true ∧ w.isFin = true ∧ (v.toRat ≤ w.toRat ∨ (v = fltMax ∧ w = fltLowest)))

theorem lt_nan {a b : F32} (h : a.isNaN = true ∨ b.isNaN = true) : Flt.lt a b = false := by
  unfold Flt.lt; rw [if_pos (by simpa using h)]

theorem less_nan {mx : Bool} {a b : F32} (h : a.isNaN = true ∨ b.isNaN = true) : less mx a b = false := by
  unfold less; cases mx
  · exact lt_nan h
  · exact lt_nan h.symm

theorem sel_num {mx : Bool} {a b c : F32} (h : Sel mx a b c) (ha : a.isFin = true) (hb : b.isFin = true) : c.isFin = true := by
  rcases h.1 with e | e <;> rw [e] <;> assumption

/-- Selections on ordered pairs. -/
theorem num_step {a b c d v w : F32} (h1 : Sel false a c v) (h2 : Sel true b d w) (ha : a.isFin = true) (hb : b.isFin = true) (hc : c.isFin = true) (hd : d.isFin = true)
    (h : a.toRat ≤ b.toRat ∨ (a = fltMax ∧ b = fltLowest)) (h' : c.toRat ≤ d.toRat ∨ (c = fltMax ∧ d = fltLowest)) : NumOk (fun _ => True) v w := by
  have g1 := sel_num h1 ha hc
  have g2 := sel_num h2 hb hd
  obtain ⟨e1, l1, l2⟩ := h1
  obtain ⟨e2, m1, m2⟩ := h2
  refine Or.inr ⟨g1, g2, ?_⟩
  rcases h with h | ⟨rfl, rfl⟩
  · exact Or.inl (l1.trans (h.trans m1))
  rcases h' with h' | ⟨rfl, rfl⟩
  · exact Or.inl (l2.trans (h'.trans m2))
  · refine Or.inr ⟨?_, ?_⟩
    · rcases e1 with e | e <;> exact e
    · rcases e2 with e | e <;> exact e

theorem fin_notnan {a : F32} (h : a.isFin = true) : a.isNaN = false := (isFin_not_nan h).1

theorem nanP : (Flt.nan : F32).isNaN = true ∧ (Flt.nan : F32).isNaN = true := by decide

theorem NumOk.rel {f : Nat → F32} {numel : Nat} (hf : ∀ t, t < numel → (f t).isInf = false) : Rel NumOk f numel where
  init := Or.inr ⟨by decide, by decide, Or.inr ⟨rfl, rfl⟩⟩
  elem t ht := by
    cases h : (f t).isNaN
    · rcases fin_or_inf h with h1 | h1
      · exact Or.inr ⟨h1, h1, Or.inl (le_refl _)⟩
      · rw [hf t ht] at h1; cases h1
    · exact Or.inl ⟨h, h⟩
  p1 := by
    rintro S T a b c d (⟨h1, h2⟩ | ⟨h1, h2, h3⟩) (⟨k1, k2⟩ | ⟨k1, k2, k3⟩)
    · left; unfold pick; rw [less_nan (Or.inl h1), less_nan (Or.inl h2)]; exact ⟨k1, k2⟩
    · right; unfold pick; rw [less_nan (Or.inl h1), less_nan (Or.inl h2)]; exact ⟨k1, k2, k3⟩
    · left; unfold pick; rw [less_nan (Or.inr k1), less_nan (Or.inr k2)]; exact ⟨k1, k2⟩
    · exact num_step (pick_sel (fin_notnan h1) (fin_notnan k1)) (pick_sel (fin_notnan h2) (fin_notnan k2)) h1 h2 k1 k2 h3 k3
  p2 := by
    rintro S T a b c d (⟨h1, h2⟩ | ⟨h1, h2, h3⟩) (⟨k1, k2⟩ | ⟨k1, k2, k3⟩)
    · left; unfold pick'; rw [less_nan (Or.inr h1), less_nan (Or.inr h2)]; exact ⟨h1, h2⟩
    · left; unfold pick'; rw [less_nan (Or.inr h1), less_nan (Or.inr h2)]; exact ⟨h1, h2⟩
    · right; unfold pick'; rw [less_nan (Or.inl k1), less_nan (Or.inl k2)]; exact ⟨h1, h2, h3⟩
    · exact num_step (pick'_sel (fin_notnan h1) (fin_notnan k1)) (pick'_sel (fin_notnan h2) (fin_notnan k2)) h1 h2 k1 k2 h3 k3
  p3 := by
    rintro S T a b c d (⟨h1, h2⟩ | ⟨h1, h2, h3⟩) (⟨k1, k2⟩ | ⟨k1, k2, k3⟩)
    · left; unfold pickN; rw [h1, h2]; exact nanP
    · left; unfold pickN; rw [h1, h2]; exact nanP
    · left; unfold pickN; rw [k1, k2, Bool.or_true, Bool.or_true]; exact nanP
    · exact num_step (pickN_sel (fin_notnan h1) (fin_notnan k1)) (pickN_sel (fin_notnan h2) (fin_notnan k2)) h1 h2 k1 k2 h3 k3

/-- NaN or untouched. -/
def NanOk (_ : Ix) (v w : F32) : Prop := (v.isNaN = true ∨ v = fltMax) ∧ (w.isNaN = true ∨ w = fltLowest)

theorem NanOk.rel {f : Nat → F32} {numel : Nat} (hf : ∀ t, t < numel → (f t).isNaN = true) : Rel NanOk f numel where
  init := ⟨Or.inr rfl, Or.inr rfl⟩
  elem t ht := ⟨Or.inl (hf t ht), Or.inl (hf t ht)⟩
  p1 := by
    rintro S T a b c d ⟨h1, h2⟩ ⟨k1, k2⟩
    unfold pick NanOk
    constructor <;> split <;> assumption
  p2 := by
    rintro S T a b c d ⟨h1, h2⟩ ⟨k1, k2⟩
    unfold pick' NanOk
    constructor <;> split <;> assumption
  p3 := by
    rintro S T a b c d ⟨h1, h2⟩ ⟨k1, k2⟩
    unfold pickN pick NanOk
    constructor
    · split
      · left; decide
      · split <;> assumption
    · split
      · left; decide
      · split <;> assumption

/-- The kernels return for any data. -/
theorem findMinMax_ret {isa : Isa} {ft : FT} {x : InBuf} {off numel : Nat} (hx : off + ft.size * numel ≤ x.size) :
    ∃ r, findMinMax isa ft x off numel = .ret r := by
  obtain ⟨r, e, _⟩ := findMinMax_gen (R := fun _ _ _ => True) (isa := isa) hx
    ⟨trivial, fun _ _ => trivial, fun _ _ _ _ _ _ _ _ => trivial, fun _ _ _ _ _ _ _ _ => trivial, fun _ _ _ _ _ _ _ _ => trivial⟩
  exact ⟨r, e⟩

/-- All blocks lie inside the data. -/
def InData (n : Nat) (blocks : List (Nat × Nat)) : Prop := ∀ b ∈ blocks, b.1 ≤ b.2 ∧ b.2 ≤ n

theorem mmBlocks_all {P : F32 × F32 → Prop} {isa : Isa} {ft : FT} {x : InBuf} :
    ∀ (blocks : List (Nat × Nat)), (∀ b ∈ blocks, ∃ r, mmBlock isa ft x b.1 b.2 = .ret r ∧ P r) → ∃ rs, mmBlocks isa ft x blocks = .ret rs ∧ (∀ r ∈ rs, P r) ∧ rs.length = blocks.length := by
  intro blocks
  induction blocks with
  | nil => intro _; exact ⟨[], rfl, by simp, rfl⟩
  | cons b bs ih =>
    intro h
    obtain ⟨rs, e, hrs, hl⟩ := ih (fun c hc => h c (by simp [hc]))
    obtain ⟨r, er, hr⟩ := h b (by simp)
    refine ⟨r :: rs, ?_, ?_, by simp [hl]⟩
    · unfold mmBlocks; rw [er]
      show (do let rs ← mmBlocks isa ft x bs; pure (r :: rs) : Prog _) = _
      rw [e]; rfl
    · intro q hq
      rcases List.mem_cons.mp hq with rfl | hq
      · exact hr
      · exact hrs q hq

theorem mmBlock_gen {R : Ix → F32 → F32 → Prop} {isa : Isa} {ft : FT} {x : InBuf} {n s e : Nat} (hx : ft.size * n ≤ x.size) (hs : s < e) (he : e ≤ n)
    (hR : Rel R (fun t => x.elem ft (ft.size * s) t) (e - s)) : ∃ r, mmBlock isa ft x s e = .ret r ∧ ∃ C, R C r.1 r.2 := by
  have hb : ft.size * s + ft.size * (e - s) ≤ x.size := by
    rw [← Nat.mul_add]
    exact le_trans (Nat.mul_le_mul_left _ (by omega)) hx
  obtain ⟨r, er, C, _, hC, _⟩ := findMinMax_gen (isa := isa) hb hR
  refine ⟨r, ?_, C, hC⟩
  unfold mmBlock
  rw [if_neg (by omega)]; exact er

/-- State of the combining loop. -/
def CombNum (s : F64 × F64) : Prop :=
  s = (dblMax, dblLowest) ∨ ∃ a b : F32, a.isFin = true ∧ b.isFin = true ∧ s = (Flt.cvt f64 a, Flt.cvt f64 b) ∧ (a.toRat ≤ b.toRat ∨ (a = fltMax ∧ b = fltLowest))

theorem cvt64_nan {a : F32} (h : a.isNaN = true) : (Flt.cvt f64 a).isNaN = true := by
  unfold Flt.cvt; rw [if_pos h]
  show decide (f64.infMag < (Flt.nan : Flt f64).mag) = true
  decide

theorem stdMin_nan {s b : F64} (h : b.isNaN = true) : stdMin s b = s := by
  unfold stdMin Flt.lt; rw [h]; simp
theorem stdMax_nan {s b : F64} (h : b.isNaN = true) : stdMax s b = s := by
  unfold stdMax Flt.lt; rw [h]; simp

theorem stdMin_cvt {a c : F32} (ha : a.isFin = true) (hc : c.isFin = true) :
    ∃ v : F32, stdMin (Flt.cvt f64 a) (Flt.cvt f64 c) = Flt.cvt f64 v ∧ Sel false a c v := by
  obtain ⟨e1, f1⟩ := cvt64_fin ha
  obtain ⟨e2, f2⟩ := cvt64_fin hc
  unfold stdMin
  rw [lt_iff (isFin_not_nan f2).1 (isFin_not_nan f1).1, e1, e2]
  by_cases h : c.toRat < a.toRat
  · exact ⟨c, by simp [h], Or.inr rfl, h.le, le_refl _⟩
  · exact ⟨a, by simp [h], Or.inl rfl, le_refl _, not_lt.mp h⟩

theorem stdMax_cvt {a c : F32} (ha : a.isFin = true) (hc : c.isFin = true) :
    ∃ v : F32, stdMax (Flt.cvt f64 a) (Flt.cvt f64 c) = Flt.cvt f64 v ∧ Sel true a c v := by
  obtain ⟨e1, f1⟩ := cvt64_fin ha
  obtain ⟨e2, f2⟩ := cvt64_fin hc
  unfold stdMax
  rw [lt_iff (isFin_not_nan f1).1 (isFin_not_nan f2).1, e1, e2]
  by_cases h : a.toRat < c.toRat
  · exact ⟨c, by simp [h], Or.inr rfl, h.le, le_refl _⟩
  · exact ⟨a, by simp [h], Or.inl rfl, le_refl _, not_lt.mp h⟩

theorem stdMin_first {c : F32} (hc : c.isFin = true) : stdMin dblMax (Flt.cvt f64 c) = Flt.cvt f64 c := by
  obtain ⟨e2, f2⟩ := cvt64_fin hc
  unfold stdMin
  rw [lt_iff (isFin_not_nan f2).1 (isFin_not_nan dblMax_fin.1).1, e2]
  simp [(dblMax_ge hc).1]
theorem stdMax_first {c : F32} (hc : c.isFin = true) : stdMax dblLowest (Flt.cvt f64 c) = Flt.cvt f64 c := by
  obtain ⟨e2, f2⟩ := cvt64_fin hc
  unfold stdMax
  rw [lt_iff (isFin_not_nan dblMax_fin.2).1 (isFin_not_nan f2).1, e2]
  simp [(dblMax_ge hc).2]

theorem combNum_step {s : F64 × F64} {r : F32 × F32} (h : CombNum s) (hr : NumOk (fun _ => True) r.1 r.2) :
    CombNum (stdMin s.1 (Flt.cvt f64 r.1), stdMax s.2 (Flt.cvt f64 r.2)) := by
  rcases hr with ⟨n1, n2⟩ | ⟨f1, f2, hr⟩
  · rw [stdMin_nan (cvt64_nan n1), stdMax_nan (cvt64_nan n2)]; exact h
  rcases h with rfl | ⟨a, b, ha, hb, rfl, hab⟩
  · exact Or.inr ⟨r.1, r.2, f1, f2, by rw [stdMin_first f1, stdMax_first f2], hr⟩
  · obtain ⟨v, ev, hv⟩ := stdMin_cvt ha f1
    obtain ⟨w, ew, hw⟩ := stdMax_cvt hb f2
    rcases num_step hv hw ha hb f1 f2 hab hr with ⟨n1, _⟩ | ⟨g1, g2, g3⟩
    · rw [fin_notnan (sel_num hv ha f1)] at n1; cases n1
    · exact Or.inr ⟨v, w, g1, g2, by show (stdMin (Flt.cvt f64 a) _, stdMax (Flt.cvt f64 b) _) = _; rw [ev, ew], g3⟩

theorem combNum_all : ∀ (rs : List (F32 × F32)) (s : F64 × F64), CombNum s → (∀ r ∈ rs, NumOk (fun _ => True) r.1 r.2) →
    CombNum (rs.foldl (fun s r => (stdMin s.1 (Flt.cvt f64 r.1), stdMax s.2 (Flt.cvt f64 r.2))) s) := by
  intro rs
  induction rs with
  | nil => intro s h _; exact h
  | cons r rs ih => intro s h hr; exact ih _ (combNum_step h (hr r (by simp))) (fun q hq => hr q (by simp [hq]))

/-- State of the combining loop on NaN data. -/
def CombNan (s : F64 × F64) : Prop := (s.1 = dblMax ∨ s.1 = Flt.cvt f64 fltMax) ∧ (s.2 = dblLowest ∨ s.2 = Flt.cvt f64 fltLowest)

theorem combNan_all : ∀ (rs : List (F32 × F32)) (s : F64 × F64), CombNan s → (∀ r ∈ rs, NanOk (fun _ => True) r.1 r.2) →
    CombNan (rs.foldl (fun s r => (stdMin s.1 (Flt.cvt f64 r.1), stdMax s.2 (Flt.cvt f64 r.2))) s) := by
  intro rs
  induction rs with
  | nil => intro s h _; exact h
  | cons r rs ih =>
    intro s h hr
    refine ih _ ?_ (fun q hq => hr q (by simp [hq]))
    obtain ⟨h1, h2⟩ := hr r (by simp)
    constructor
    · rcases h1 with h1 | h1
      · show stdMin s.1 _ = _ ∨ stdMin s.1 _ = _
        rw [stdMin_nan (cvt64_nan h1)]; exact h.1
      · show stdMin s.1 _ = _ ∨ stdMin s.1 _ = _
        rw [h1]; unfold stdMin; split
        · exact Or.inr rfl
        · exact h.1
    · rcases h2 with h2 | h2
      · show stdMax s.2 _ = _ ∨ stdMax s.2 _ = _
        rw [stdMax_nan (cvt64_nan h2)]; exact h.2
      · show stdMax s.2 _ = _ ∨ stdMax s.2 _ = _
        rw [h2]; unfold stdMax; split
        · exact Or.inr rfl
        · exact h.2

/-- The acceptance check of `compute_quant_config_from_data`. -/
def checked (p : Prog (F32 × ℤ)) : Prog (F32 × ℤ) := do
  let r ← p
  if !r.1.isNaN && Flt.ge r.1 f0 then pure r else .fail .panic

theorem config_checked {isa : Isa} {ft : FT} {x : InBuf} {blocks : List (Nat × Nat)} {dt : DType} {rs : List (F32 × F32)} (h : mmBlocks isa ft x blocks = .ret rs) :
    computeQuantConfigFromData isa ft x blocks dt = checked (paramsOf dt (mmCombine rs).1 (mmCombine rs).2) := by
  unfold computeQuantConfigFromData computeQuantConfig
  rw [h]; rfl

def isPanic : Prog (F32 × ℤ) → Bool
  | .fail .panic => true
  | _ => false
theorem isPanic_iff {p : Prog (F32 × ℤ)} (h : isPanic p = true) : p = .fail .panic := by
  unfold isPanic at h
  split at h
  · rfl
  · cases h

theorem nan_panics {dt : DType} (hdt : dt.isQuant = true) {s : F64 × F64} (h : CombNan s) : checked (paramsOf dt s.1 s.2) = .fail .panic := by
  apply isPanic_iff
  obtain ⟨h1 | h1, h2 | h2⟩ := h <;> rw [h1, h2] <;> clear h1 h2 s <;> cases dt <;> simp only [DType.isQuant, Bool.false_eq_true] at hdt <;> decide +kernel

theorem checked_params {dt : DType} (hdt : dt.isQuant = true) {a b : ℚ} (hle : a ≤ b) : checked (.ret (params dt.bits a b)) = .ret (params dt.bits a b) := by
  show (if !(params dt.bits a b).1.isNaN && Flt.ge (params dt.bits a b).1 f0 then _ else _) = _
  rw [if_pos]; · rfl
  unfold params
  split
  · show (!(Verif.f1).isNaN && Flt.ge Verif.f1 f0) = true
    decide +kernel
  · have hs0 : 0 ≤ scale64 dt.bits a b := by
      unfold scale64
      rw [r64_flr, r64_flr]
      have hQ : (3:ℚ) ≤ 2 ^ dt.bits - 1 := by exact_mod_cast (qmax_bounds hdt).1
      exact flr_nonneg (div_nonneg (flr_nonneg (by linarith)) (by linarith))
    show (!(Flt.ofRat f32 (scale64 dt.bits a b)).isNaN && Flt.ge (Flt.ofRat f32 (scale64 dt.bits a b)) f0) = true
    unfold Flt.ge
    rw [ofRat_nan, lt_iff ofRat_nan (by decide), ofRat_flr, show f0.toRat = 0 by decide +kernel]
    have : ¬ flr f32 (scale64 dt.bits a b) < 0 := not_lt.mpr (flr_nonneg hs0)
    simp [this, show Flt.isNaN f0 = false by decide]

/-- Data without infinities: parameters of some range, or an abort. -/
theorem config_num {isa : Isa} {ft : FT} {x : InBuf} {n : Nat} {blocks : List (Nat × Nat)} {dt : DType} (hdt : dt.isQuant = true) (hx : ft.size * n ≤ x.size)
    (hf : ∀ t, t < n → (x.elem ft 0 t).isInf = false) (hb : InData n blocks) :
    computeQuantConfigFromData isa ft x blocks dt = .fail .panic ∨ ∃ a b : F32, a.isFin = true ∧ b.isFin = true ∧ a.toRat ≤ b.toRat ∧
      computeQuantConfigFromData isa ft x blocks dt = .ret (params dt.bits a.toRat b.toRat) := by
  obtain ⟨rs, ers, hrs, _⟩ := mmBlocks_all (P := fun r => NumOk (fun _ => True) r.1 r.2) (isa := isa) (ft := ft) (x := x) blocks (by
    intro b hbm
    obtain ⟨h1, h2⟩ := hb b hbm
    rcases Nat.lt_or_ge b.1 b.2 with h | h
    · obtain ⟨r, er, C, hC⟩ := mmBlock_gen (isa := isa) (R := NumOk) hx h h2 (NumOk.rel (fun t ht => by
        show (x.elem ft (ft.size * b.1) t).isInf = false
        rw [elem_off]; exact hf _ (by omega)))
      exact ⟨r, er, hC⟩
    · refine ⟨(f0, f0), ?_, Or.inr ⟨by decide, by decide, Or.inl (le_refl _)⟩⟩
      unfold mmBlock; rw [if_pos (by omega)]; rfl)
  rw [config_checked ers]
  rcases combNum_all rs (dblMax, dblLowest) (Or.inl rfl) hrs with h | ⟨a, b, ha, hb, h, hab⟩
  · left
    have h : mmCombine rs = _ := h
    rw [h]
    exact nan_panics hdt ⟨Or.inl rfl, Or.inl rfl⟩
  have h : mmCombine rs = _ := h
  rw [h]
  rcases hab with hab | ⟨rfl, rfl⟩
  · right
    refine ⟨a, b, ha, hb, hab, ?_⟩
    obtain ⟨e1, f1⟩ := cvt64_fin ha
    obtain ⟨e2, f2⟩ := cvt64_fin hb
    rw [paramsOf_eq hdt f1 f2 ha hb e1 e2 hab]
    exact checked_params hdt hab
  · left
    exact nan_panics hdt ⟨Or.inr rfl, Or.inr rfl⟩

end Verif

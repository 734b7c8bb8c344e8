import Verif.Proofs.ParamsMixed

/-! # Parameters computed from data with infinities -/

namespace Verif
open Spec

theorem mag_inf {f : Fmt} {a : Flt f} (h : a.isInf = true) : a = Flt.inf a.neg := by
  have : a.mag = f.infMag := by simpa [Flt.isInf] using h
  show a = ⟨a.neg, f.infMag⟩
  rw [← this]

/-- A number that is not minus infinity has a larger value. -/
theorem ninf_lt {f : Fmt} [f.Good] {a : Flt f} (hn : a.isNaN = false) (hne : a ≠ Flt.inf true) : (Flt.inf true : Flt f).toRat < a.toRat := by
  have h1 : (Flt.inf true : Flt f).isNaN = false := by simp [Flt.isNaN, Flt.inf]
  have h := lt_iff h1 hn
  have hl : Flt.lt (Flt.inf true) a = true := by
    unfold Flt.lt
    rw [h1, hn]
    have h2 : (Flt.inf true : Flt f).isInf = true := by simp [Flt.isInf, Flt.inf]
    rw [h2]
    show (true && !(a.isInf && a.neg)) = true
    cases hi : a.isInf
    · rfl
    · cases hg : a.neg
      · rfl
      · exact absurd (by rw [← hg]; exact mag_inf hi) hne
  rw [h] at hl
  simpa using hl
theorem pinf_gt {f : Fmt} [f.Good] {a : Flt f} (hn : a.isNaN = false) (hne : a ≠ Flt.inf false) : a.toRat < (Flt.inf false : Flt f).toRat := by
  have h1 : (Flt.inf false : Flt f).isNaN = false := by simp [Flt.isNaN, Flt.inf]
  have h := lt_iff hn h1
  have hl : Flt.lt a (Flt.inf false) = true := by
    unfold Flt.lt
    rw [h1, hn]
    have h2 : (Flt.inf false : Flt f).isInf = true := by simp [Flt.isInf, Flt.inf]
    rw [h2]
    cases hi : a.isInf
    · rfl
    · cases hg : a.neg
      · exact absurd (by rw [← hg]; exact mag_inf hi) hne
      · show (true && !(true && false)) = true
        rfl
  rw [h] at hl
  simpa using hl

/-! ## The formula on an infinite range -/

theorem paramsOf_ninf {dt : DType} (hdt : dt.isQuant = true) {w : F64} (hw : w.isNaN = false) (hne : w ≠ Flt.inf true) : paramsOf dt (Flt.inf true) w = .fail .ub := by
  have h1 : (Flt.inf true : F64).isNaN = false := by decide
  have e1 : Flt.feq w (Flt.inf true) = false := by
    unfold Flt.feq
    rw [hw, h1, lt_iff h1 hw, decide_eq_true (ninf_lt hw hne)]
    simp
  have e2 : Flt.sub w (Flt.inf true) = Flt.inf false := by
    unfold Flt.sub Flt.add
    have h2 : (Flt.inf true : F64).negate.isNaN = false := by decide
    have h3 : (Flt.inf true : F64).negate.isInf = true := by decide
    rw [hw, h2, h3]
    cases hi : w.isInf
    · rfl
    · cases hg : w.neg
      · have := mag_inf hi; rw [hg] at this
        rw [this]; rfl
      · exact absurd (by have := mag_inf hi; rwa [hg] at this) hne
  unfold paramsOf
  rw [e1, e2]
  have hf : ∀ p : Prog (F32 × ℤ), (match p with | .fail .ub => true | _ => false) = true → p = .fail .ub := by
    intro p h
    split at h
    · rfl
    · cases h
  apply hf
  cases dt <;> first | exact absurd hdt (by decide) | decide +kernel

theorem paramsOf_pinf {dt : DType} (hdt : dt.isQuant = true) {v : F64} (hv : v.isFin = true) : paramsOf dt v (Flt.inf false) = .ret (Flt.inf false, 0) := by
  have hn := (isFin_not_nan hv).1
  have hi := (isFin_not_nan hv).2
  have h1 : (Flt.inf false : F64).isNaN = false := by decide
  have h1' : (Flt.inf false : F64).isInf = true := by decide
  have e1 : Flt.feq (Flt.inf false) v = false := by
    unfold Flt.feq
    rw [hn, h1, lt_iff hn h1, decide_eq_true (pinf_gt hn (fun h => by rw [h] at hi; exact absurd hi (by decide)))]
    simp
  have e2 : Flt.sub (Flt.inf false) v = Flt.inf false := by
    unfold Flt.sub Flt.add
    have g1 : v.negate.isNaN = false := hn
    have g2 : v.negate.isInf = false := hi
    rw [h1, g1, g2, h1']; rfl
  have e3 : Flt.div v (Flt.inf false) = ⟨v.neg ^^ false, 0⟩ := by
    unfold Flt.div
    rw [h1, hn, hi, h1']; rfl
  have e4 : Flt.div (Flt.inf false) (Flt.sub (Flt.ofInt f64 ((2:Nat) ^ dt.bits - 1 : Nat)) (Flt.ofInt f64 0)) = Flt.inf false := by
    cases dt <;> first | exact absurd hdt (by decide) | decide +kernel
  have e5 : computeTypeMax dt = .ret (2 ^ dt.bits - 1) := by
    cases dt <;> first | exact absurd hdt (by decide) | rfl
  have e6 : dt.isSigned = false := by cases dt <;> first | exact absurd hdt (by decide) | rfl
  unfold paramsOf
  rw [e5, e6]
  show (if Flt.feq (Flt.inf false) v = true then _ else _) = _
  rw [e1]
  show (do
    let zi ← toI64 (Flt.round (Flt.sub (Flt.ofInt f64 0) (Flt.div v (Flt.div (Flt.sub (Flt.inf false) v) (Flt.sub (Flt.ofInt f64 ((2:Nat) ^ dt.bits - 1 : Nat)) (Flt.ofInt f64 0))))))
    let z ← toI64 (stdMax (stdMin (Flt.ofInt f64 zi) (Flt.ofInt f64 ((2:Nat) ^ dt.bits - 1 : Nat))) (Flt.ofInt f64 0))
    pure (Flt.cvt f32 (Flt.div (Flt.sub (Flt.inf false) v) (Flt.sub (Flt.ofInt f64 ((2:Nat) ^ dt.bits - 1 : Nat)) (Flt.ofInt f64 0))), z) : Prog (F32 × ℤ)) = _
  rw [e2, e4, e3]
  have hf : ∀ p : Prog (F32 × ℤ), (match p with | .ret (a, b) => decide (a = Flt.inf false ∧ b = 0) | _ => false) = true → p = .ret (Flt.inf false, 0) := by
    intro p h
    split at h
    · obtain ⟨h1, h2⟩ := of_decide_eq_true h
      rw [h1, h2]
    · cases h
  apply hf
  generalize v.neg = sg
  cases sg <;> cases dt <;> first | exact absurd hdt (by decide) | decide +kernel

theorem checked_inf : checked (.ret (Flt.inf false, 0)) = .ret (Flt.inf false, 0) := by
  show (if (!(Flt.inf false : F32).isNaN && Flt.ge (Flt.inf false : F32) f0) = true then (Prog.ret (Flt.inf false, 0) : Prog (F32 × ℤ)) else .fail .panic) = _
  rw [if_pos (by decide +kernel)]

/-! ## Blocks and their combination -/

theorem mmBlocks_each {P : Nat × Nat → F32 × F32 → Prop} {isa : Isa} {ft : FT} {x : InBuf} :
    ∀ (blocks : List (Nat × Nat)), (∀ b ∈ blocks, ∃ r, mmBlock isa ft x b.1 b.2 = .ret r ∧ P b r) →
      ∃ rs, mmBlocks isa ft x blocks = .ret rs ∧ (∀ b ∈ blocks, ∃ r ∈ rs, P b r) ∧ ∀ r ∈ rs, ∃ b ∈ blocks, P b r := by
  intro blocks
  induction blocks with
  | nil => intro _; exact ⟨[], rfl, by simp, by simp⟩
  | cons b bs ih =>
    intro h
    obtain ⟨rs, e, h1, h2⟩ := ih (fun c hc => h c (by simp [hc]))
    obtain ⟨r, er, hr⟩ := h b (by simp)
    refine ⟨r :: rs, ?_, ?_, ?_⟩
    · unfold mmBlocks; rw [er]
      show (do let rs ← mmBlocks isa ft x bs; pure (r :: rs) : Prog _) = _
      rw [e]; rfl
    · intro c hc
      rcases List.mem_cons.mp hc with rfl | hc
      · exact ⟨r, by simp, hr⟩
      · obtain ⟨q, hq, hP⟩ := h1 c hc
        exact ⟨q, by simp [hq], hP⟩
    · intro q hq
      rcases List.mem_cons.mp hq with rfl | hq
      · exact ⟨b, by simp, hr⟩
      · obtain ⟨c, hc, hP⟩ := h2 q hq
        exact ⟨c, by simp [hc], hP⟩

theorem stdMin_num {a b : F64} (ha : a.isNaN = false) (hb : b.isNaN = false) : (stdMin a b = a ∨ stdMin a b = b) ∧ (stdMin a b).toRat ≤ a.toRat ∧ (stdMin a b).toRat ≤ b.toRat := by
  unfold stdMin
  rw [lt_iff hb ha]
  by_cases h : b.toRat < a.toRat
  · simp [h, h.le]
  · simp [h, not_lt.mp h]
theorem stdMax_num {a b : F64} (ha : a.isNaN = false) (hb : b.isNaN = false) : (stdMax a b = a ∨ stdMax a b = b) ∧ a.toRat ≤ (stdMax a b).toRat ∧ b.toRat ≤ (stdMax a b).toRat := by
  unfold stdMax
  rw [lt_iff ha hb]
  by_cases h : a.toRat < b.toRat
  · simp [h, h.le]
  · simp [h, not_lt.mp h]

theorem cvt64_notnan {a : F32} (h : a.isNaN = false) : (Flt.cvt f64 a).isNaN = false := by
  rcases fin_or_inf h with h1 | h1
  · exact (isFin_not_nan (cvt64_fin h1).2).1
  · rw [mag_inf h1]; cases a.neg <;> decide

/-- The combining loop on numbers and infinities. -/
theorem combine_num : ∀ (rs : List (F32 × F32)) (s : F64 × F64), s.1.isNaN = false → s.2.isNaN = false → (∀ r ∈ rs, r.1.isNaN = false ∧ r.2.isNaN = false) →
    ∀ t, t = rs.foldl (fun s r => (stdMin s.1 (Flt.cvt f64 r.1), stdMax s.2 (Flt.cvt f64 r.2))) s →
      (t.1.isNaN = false ∧ t.2.isNaN = false) ∧ (t.1.toRat ≤ s.1.toRat ∧ s.2.toRat ≤ t.2.toRat) ∧
      (∀ r ∈ rs, t.1.toRat ≤ (Flt.cvt f64 r.1).toRat ∧ (Flt.cvt f64 r.2).toRat ≤ t.2.toRat) ∧
      (t.1 = s.1 ∨ ∃ r ∈ rs, t.1 = Flt.cvt f64 r.1) ∧ (t.2 = s.2 ∨ ∃ r ∈ rs, t.2 = Flt.cvt f64 r.2) := by
  intro rs
  induction rs with
  | nil => rintro s h1 h2 _ t rfl; exact ⟨⟨h1, h2⟩, ⟨le_refl _, le_refl _⟩, by simp, Or.inl rfl, Or.inl rfl⟩
  | cons r rs ih =>
    intro s h1 h2 hr t ht
    obtain ⟨r1, r2⟩ := hr r (by simp)
    obtain ⟨a1, a2, a3⟩ := stdMin_num h1 (cvt64_notnan r1)
    obtain ⟨b1, b2, b3⟩ := stdMax_num h2 (cvt64_notnan r2)
    have n1 : (stdMin s.1 (Flt.cvt f64 r.1)).isNaN = false := by
      rcases a1 with e | e <;> rw [e]
      · exact h1
      · exact cvt64_notnan r1
    have n2 : (stdMax s.2 (Flt.cvt f64 r.2)).isNaN = false := by
      rcases b1 with e | e <;> rw [e]
      · exact h2
      · exact cvt64_notnan r2
    obtain ⟨g1, ⟨g2, g3⟩, g4, g5, g6⟩ := ih (stdMin s.1 (Flt.cvt f64 r.1), stdMax s.2 (Flt.cvt f64 r.2)) n1 n2 (fun q hq => hr q (by simp [hq])) t ht
    refine ⟨g1, ⟨g2.trans a2, b2.trans g3⟩, ?_, ?_, ?_⟩
    · intro q hq
      rcases List.mem_cons.mp hq with rfl | hq
      · exact ⟨g2.trans a3, b3.trans g3⟩
      · exact g4 q hq
    · rcases g5 with e | ⟨q, hq, e⟩
      · rcases a1 with e' | e'
        · left; rw [e]; exact e'
        · right; exact ⟨r, by simp, by rw [e]; exact e'⟩
      · right; exact ⟨q, by simp [hq], e⟩
    · rcases g6 with e | ⟨q, hq, e⟩
      · rcases b1 with e' | e'
        · left; rw [e]; exact e'
        · right; exact ⟨r, by simp, by rw [e]; exact e'⟩
      · right; exact ⟨q, by simp [hq], e⟩

/-- What a block of NaN-free data returns. -/
def BlockNum (ft : FT) (x : InBuf) (b : Nat × Nat) (r : F32 × F32) : Prop :=
  (r.1.isNaN = false ∧ r.2.isNaN = false) ∧ (∀ t, b.1 ≤ t → t < b.2 → r.1.toRat ≤ (x.elem ft 0 t).toRat ∧ (x.elem ft 0 t).toRat ≤ r.2.toRat) ∧
    ((∃ t, b.1 ≤ t ∧ t < b.2 ∧ r.1 = x.elem ft 0 t) ∨ r.1 = fltMax) ∧ ((∃ t, b.1 ≤ t ∧ t < b.2 ∧ r.2 = x.elem ft 0 t) ∨ r.2 = fltLowest)

theorem mmBlock_num {isa : Isa} {ft : FT} {x : InBuf} {n : Nat} {b : Nat × Nat} (hx : ft.size * n ≤ x.size) (hs : b.1 < b.2) (he : b.2 ≤ n) (hsm : isa = .sse42 → mmSmall ft (b.2 - b.1))
    (hf : ∀ t, t < n → (x.elem ft 0 t).isNaN = false) : ∃ r, mmBlock isa ft x b.1 b.2 = .ret r ∧ BlockNum ft x b r := by
  have hb : ft.size * b.1 + ft.size * (b.2 - b.1) ≤ x.size := by
    rw [← Nat.mul_add]
    exact le_trans (Nat.mul_le_mul_left _ (by omega)) hx
  obtain ⟨r, er, C, hC, hr, _⟩ := findMinMax_gen (isa := isa) hb (Rng.rel (f := fun t => x.elem ft (ft.size * b.1) t) (fun t ht => by
    show (x.elem ft (ft.size * b.1) t).isNaN = false
    rw [elem_off]; exact hf _ (by omega)))
  obtain ⟨h1, h2, h3, h4⟩ := hr
  simp only [elem_off] at h2 h3 h4
  refine ⟨r, ?_, h1, ?_, ?_, ?_⟩
  · unfold mmBlock
    rw [if_neg (by omega)]; exact er
  · intro t ht ht'
    have := h2 (t - b.1) (hC.1 hsm _ (by omega))
    rwa [show b.1 + (t - b.1) = t by omega] at this
  · rcases h3 with ⟨t, ht, e⟩ | e
    · exact Or.inl ⟨b.1 + t, by omega, by have := hC.2 t ht; omega, e⟩
    · exact Or.inr e
  · rcases h4 with ⟨t, ht, e⟩ | e
    · exact Or.inl ⟨b.1 + t, by omega, by have := hC.2 t ht; omega, e⟩
    · exact Or.inr e

theorem split_find {n : Nat} : ∀ (blocks : List (Nat × Nat)) (s : Nat), Split n s blocks →
    s ≤ n ∧ (∀ b ∈ blocks, b.1 < b.2 ∧ b.2 ≤ n) ∧ ∀ t, s ≤ t → t < n → ∃ b ∈ blocks, b.1 ≤ t ∧ t < b.2 := by
  intro blocks
  induction blocks with
  | nil => intro s h; obtain rfl : s = n := h; exact ⟨le_refl _, by simp, fun t h1 h2 => by omega⟩
  | cons b bs ih =>
    rintro s ⟨h1, h2, h3⟩
    obtain ⟨g1, g2, g3⟩ := ih b.2 h3
    refine ⟨by omega, fun c hc => ?_, fun t ht ht' => ?_⟩
    · rcases List.mem_cons.mp hc with rfl | hc
      · exact ⟨by omega, g1⟩
      · exact g2 c hc
    · rcases Nat.lt_or_ge t b.2 with h | h
      · exact ⟨b, by simp, by omega, h⟩
      · obtain ⟨c, hc, h'⟩ := g3 t h ht'
        exact ⟨c, by simp [hc], h'⟩

theorem cvt_ninf : Flt.cvt f64 (Flt.inf true : F32) = Flt.inf true := by decide
theorem cvt_pinf : Flt.cvt f64 (Flt.inf false : F32) = Flt.inf false := by decide

theorem cvt_ne_ninf {a : F32} (h : a.isNaN = false) (hne : a ≠ Flt.inf true) : Flt.cvt f64 a ≠ Flt.inf true := by
  rcases fin_or_inf h with h1 | h1
  · intro e
    have := (cvt64_fin h1).2
    rw [e] at this; exact absurd this (by decide)
  · rw [mag_inf h1]
    cases hg : a.neg
    · decide
    · exact absurd (by have := mag_inf h1; rwa [hg] at this) hne
theorem cvt_ne_pinf {a : F32} (h : a.isNaN = false) (hne : a ≠ Flt.inf false) : Flt.cvt f64 a ≠ Flt.inf false := by
  rcases fin_or_inf h with h1 | h1
  · intro e
    have := (cvt64_fin h1).2
    rw [e] at this; exact absurd this (by decide)
  · rw [mag_inf h1]
    cases hg : a.neg
    · exact absurd (by have := mag_inf h1; rwa [hg] at this) hne
    · decide

section
variable {isa : Isa} {ft : FT} {x : InBuf} {n : Nat} {blocks : List (Nat × Nat)} {dt : DType}

/-- All blocks of NaN-free data. -/
theorem blocks_num (hx : ft.size * n ≤ x.size) (hf : ∀ t, t < n → (x.elem ft 0 t).isNaN = false) (hs : Split n 0 blocks)
    (hsm : isa = .sse42 → ∀ b ∈ blocks, mmSmall ft (b.2 - b.1)) :
    ∃ rs, mmBlocks isa ft x blocks = .ret rs ∧ ((mmCombine rs).1.isNaN = false ∧ (mmCombine rs).2.isNaN = false) ∧
      (∀ t, t < n → ∃ r ∈ rs, (r.1.isNaN = false ∧ r.2.isNaN = false) ∧ (r.1.toRat ≤ (x.elem ft 0 t).toRat ∧ (x.elem ft 0 t).toRat ≤ r.2.toRat) ∧
        (mmCombine rs).1.toRat ≤ (Flt.cvt f64 r.1).toRat ∧ (Flt.cvt f64 r.2).toRat ≤ (mmCombine rs).2.toRat) ∧
      ((mmCombine rs).1.isFin = true ∨ ∃ t, t < n ∧ (mmCombine rs).1 = Flt.cvt f64 (x.elem ft 0 t)) ∧
      ((mmCombine rs).2.isFin = true ∨ ∃ t, t < n ∧ (mmCombine rs).2 = Flt.cvt f64 (x.elem ft 0 t)) ∧
      (mmCombine rs).1.toRat ≤ dblMax.toRat ∧ dblLowest.toRat ≤ (mmCombine rs).2.toRat := by
  obtain ⟨_, hb, hcov⟩ := split_find blocks 0 hs
  obtain ⟨rs, ers, h1, h2⟩ := mmBlocks_each (P := BlockNum ft x) (isa := isa) blocks (fun b hbm => mmBlock_num hx (hb b hbm).1 (hb b hbm).2 (fun hi => hsm hi b hbm) hf)
  obtain ⟨g1, g2, g3, g4, g5⟩ := combine_num rs (dblMax, dblLowest) (by decide) (by decide) (fun r hr => by
    obtain ⟨b, _, h, _⟩ := h2 r hr
    exact h) (mmCombine rs) rfl
  refine ⟨rs, ers, g1, fun t ht => ?_, ?_, ?_, g2.1, g2.2⟩
  · obtain ⟨b, hbm, hl, hu⟩ := hcov t (by omega) ht
    obtain ⟨r, hr, k1, k2, _⟩ := h1 b hbm
    exact ⟨r, hr, k1, k2 t hl hu, g3 r hr⟩
  · rcases g4 with e | ⟨r, hr, e⟩
    · left; rw [e]; decide
    · obtain ⟨b, hbm, k1, _, ⟨t, ht, ht', e'⟩ | e', _⟩ := h2 r hr
      · right; exact ⟨t, by have := (hb b hbm).2; omega, by rw [e, e']⟩
      · left; rw [e, e']; exact (cvt64_fin (by decide)).2
  · rcases g5 with e | ⟨r, hr, e⟩
    · left; rw [e]; decide
    · obtain ⟨b, hbm, k1, _, _, ⟨t, ht, ht', e'⟩ | e'⟩ := h2 r hr
      · right; exact ⟨t, by have := (hb b hbm).2; omega, by rw [e, e']⟩
      · left; rw [e, e']; exact (cvt64_fin (by decide)).2

/-- Minus infinity: undefined conversion of NaN to an integer. -/
theorem config_ninf (hdt : dt.isQuant = true) (hx : ft.size * n ≤ x.size) (hf : ∀ t, t < n → (x.elem ft 0 t).isNaN = false) (hs : Split n 0 blocks)
    (hsm : isa = .sse42 → ∀ b ∈ blocks, mmSmall ft (b.2 - b.1)) {t : Nat} (ht : t < n) (et : x.elem ft 0 t = Flt.inf true) :
    computeQuantConfigFromData isa ft x blocks dt = .fail .ub := by
  obtain ⟨rs, ers, ⟨n1, n2⟩, h1, _, _, _, h4⟩ := blocks_num (isa := isa) hx hf hs hsm
  have e1 : (mmCombine rs).1 = Flt.inf true := by
    by_contra hne
    obtain ⟨r, _, ⟨r1, _⟩, ⟨r2, _⟩, r3, _⟩ := h1 t ht
    have hr : r.1 = Flt.inf true := by
      by_contra hne'
      rw [et] at r2
      exact absurd (ninf_lt r1 hne') (not_lt.mpr r2)
    rw [hr, cvt_ninf] at r3
    exact absurd (ninf_lt n1 hne) (not_lt.mpr r3)
  have e2 : (mmCombine rs).2 ≠ Flt.inf true := by
    intro h
    rw [h] at h4
    exact absurd (ninf_lt (a := dblLowest) (by decide) (by decide)) (not_lt.mpr h4)
  rw [config_checked ers, e1, paramsOf_ninf hdt n2 e2]; rfl

/-- Plus infinity, and no minus infinity: an infinite scale. -/
theorem config_pinf (hdt : dt.isQuant = true) (hx : ft.size * n ≤ x.size) (hf : ∀ t, t < n → (x.elem ft 0 t).isNaN = false) (hs : Split n 0 blocks)
    (hsm : isa = .sse42 → ∀ b ∈ blocks, mmSmall ft (b.2 - b.1)) {t : Nat} (ht : t < n) (et : x.elem ft 0 t = Flt.inf false)
    (hm : ∀ t, t < n → x.elem ft 0 t ≠ Flt.inf true) : computeQuantConfigFromData isa ft x blocks dt = .ret (Flt.inf false, 0) := by
  obtain ⟨rs, ers, ⟨n1, n2⟩, h1, h2, _, h4, _⟩ := blocks_num (isa := isa) hx hf hs hsm
  have e2 : (mmCombine rs).2 = Flt.inf false := by
    by_contra hne
    obtain ⟨r, _, ⟨_, r1⟩, ⟨_, r2⟩, _, r3⟩ := h1 t ht
    have hr : r.2 = Flt.inf false := by
      by_contra hne'
      rw [et] at r2
      exact absurd (pinf_gt r1 hne') (not_lt.mpr r2)
    rw [hr, cvt_pinf] at r3
    exact absurd (pinf_gt n2 hne) (not_lt.mpr r3)
  have e1 : (mmCombine rs).1.isFin = true := by
    rcases fin_or_inf n1 with h | h
    · exact h
    rcases h2 with h' | ⟨q, hq, e⟩
    · exact h'
    exfalso
    have e' := mag_inf h
    cases hg : (mmCombine rs).1.neg <;> rw [hg] at e'
    · rw [e'] at h4
      exact absurd (pinf_gt (a := dblMax) (by decide) (by decide)) (not_lt.mpr h4)
    · rw [e'] at e
      exact cvt_ne_ninf (hf q hq) (hm q hq) e.symm
  rw [config_checked ers, e2, paramsOf_pinf hdt e1]
  exact checked_inf

end

end Verif

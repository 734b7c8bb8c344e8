import Verif.Proofs.ParamsInf
import Verif.Proofs.MinMaxSse
import Verif.Proofs.ParamsData

/-! # Parameters computed from data whose elements that count are numbers -/

namespace Verif
open Spec Simd

/-- `Rng` if no NaN has been seen. -/
def RngIf (f : Nat → F32) (S : Ix) (v w : F32) : Prop := (∀ t, S (some t) → (f t).isNaN = false) → Rng f S v w

theorem RngIf.clo {f : Nat → F32} {g : Bool → F32 → F32 → F32} (hg : ∀ {mx : Bool} {a b : F32}, a.isNaN = false → b.isNaN = false → Sel mx a b (g mx a b)) :
    Clo (RngIf f) (g false) (g true) := by
  intro S T a b c d h k hn
  exact Rng.clo hg S T a b c d (h (fun t ht => hn t (Or.inl ht))) (k (fun t ht => hn t (Or.inr ht)))

theorem RngIf.rel {f : Nat → F32} {numel : Nat} : Rel (RngIf f) f numel where
  init := fun _ => ⟨⟨by decide, by decide⟩, (fun t h => by cases h), Or.inr rfl, Or.inr rfl⟩
  elem t _ := fun hn => ⟨⟨hn t rfl, hn t rfl⟩, fun u hu => by injection hu with hu; subst hu; exact ⟨le_refl _, le_refl _⟩, Or.inl ⟨t, rfl, rfl⟩, Or.inl ⟨t, rfl, rfl⟩⟩
  p1 := RngIf.clo pick_sel
  p2 := RngIf.clo pick'_sel
  p3 := RngIf.clo pickN_sel

/-- Element `t` is one of those of block `b` that count. -/
def SeenOf (isa : Isa) (ft : FT) (b : Nat × Nat) (t : Nat) : Prop := b.1 ≤ t ∧ t < b.2 ∧ Seen isa ft (b.2 - b.1) (t - b.1)

/-- What a block returns whose elements that count are no NaNs. -/
def BlockSeen (isa : Isa) (ft : FT) (x : InBuf) (b : Nat × Nat) (r : F32 × F32) : Prop :=
  (r.1.isNaN = false ∧ r.2.isNaN = false) ∧ (∀ t, SeenOf isa ft b t → r.1.toRat ≤ (x.elem ft 0 t).toRat ∧ (x.elem ft 0 t).toRat ≤ r.2.toRat) ∧
    ((∃ t, SeenOf isa ft b t ∧ r.1 = x.elem ft 0 t) ∨ r.1 = fltMax) ∧ ((∃ t, SeenOf isa ft b t ∧ r.2 = x.elem ft 0 t) ∨ r.2 = fltLowest)

theorem mmBlock_seen {isa : Isa} {ft : FT} {x : InBuf} {n : Nat} {b : Nat × Nat} (hx : ft.size * n ≤ x.size) (hs : b.1 < b.2) (he : b.2 ≤ n)
    (hf : ∀ t, SeenOf isa ft b t → (x.elem ft 0 t).isNaN = false) : ∃ r, mmBlock isa ft x b.1 b.2 = .ret r ∧ BlockSeen isa ft x b r := by
  have hb : ft.size * b.1 + ft.size * (b.2 - b.1) ≤ x.size := by
    rw [← Nat.mul_add]
    exact le_trans (Nat.mul_le_mul_left _ (by omega)) hx
  obtain ⟨r, er, C, hC, hr⟩ := findMinMax_seen (isa := isa) hb (RngIf.rel (f := fun t => x.elem ft (ft.size * b.1) t))
  have key : ∀ t, t < b.2 - b.1 ∧ Seen isa ft (b.2 - b.1) t → SeenOf isa ft b (b.1 + t) := fun t ht =>
    ⟨by omega, by omega, by rw [show b.1 + t - b.1 = t by omega]; exact ht.2⟩
  obtain ⟨h1, h2, h3, h4⟩ := hr (fun t ht => by
    show (x.elem ft (ft.size * b.1) t).isNaN = false
    rw [elem_off]; exact hf _ (key t ((hC t).1 ht)))
  simp only [elem_off] at h2 h3 h4
  refine ⟨r, ?_, h1, ?_, ?_, ?_⟩
  · unfold mmBlock
    rw [if_neg (by omega)]; exact er
  · rintro t ⟨ht, ht', hS⟩
    have := h2 (t - b.1) ((hC _).2 ⟨by omega, hS⟩)
    rwa [show b.1 + (t - b.1) = t by omega] at this
  · rcases h3 with ⟨t, ht, e⟩ | e
    · exact Or.inl ⟨b.1 + t, key t ((hC t).1 ht), e⟩
    · exact Or.inr e
  · rcases h4 with ⟨t, ht, e⟩ | e
    · exact Or.inl ⟨b.1 + t, key t ((hC t).1 ht), e⟩
    · exact Or.inr e

section
variable {isa : Isa} {ft : FT} {x : InBuf} {n : Nat} {blocks : List (Nat × Nat)} {dt : DType}

/-- All blocks. -/
theorem blocks_seen (hx : ft.size * n ≤ x.size) (hf : ∀ t, SeenIn isa ft blocks t → (x.elem ft 0 t).isNaN = false) (hs : Split n 0 blocks) :
    ∃ rs, mmBlocks isa ft x blocks = .ret rs ∧ ((mmCombine rs).1.isNaN = false ∧ (mmCombine rs).2.isNaN = false) ∧
      (∀ t, SeenIn isa ft blocks t → ∃ r ∈ rs, (r.1.isNaN = false ∧ r.2.isNaN = false) ∧ (r.1.toRat ≤ (x.elem ft 0 t).toRat ∧ (x.elem ft 0 t).toRat ≤ r.2.toRat) ∧
        (mmCombine rs).1.toRat ≤ (Flt.cvt f64 r.1).toRat ∧ (Flt.cvt f64 r.2).toRat ≤ (mmCombine rs).2.toRat) ∧
      ((mmCombine rs).1 = dblMax ∨ (mmCombine rs).1 = Flt.cvt f64 fltMax ∨ ∃ t, SeenIn isa ft blocks t ∧ (mmCombine rs).1 = Flt.cvt f64 (x.elem ft 0 t)) ∧
      ((mmCombine rs).2 = dblLowest ∨ (mmCombine rs).2 = Flt.cvt f64 fltLowest ∨ ∃ t, SeenIn isa ft blocks t ∧ (mmCombine rs).2 = Flt.cvt f64 (x.elem ft 0 t)) ∧
      (mmCombine rs).1.toRat ≤ dblMax.toRat ∧ dblLowest.toRat ≤ (mmCombine rs).2.toRat ∧
      (∀ r ∈ rs, (r.1 = fltMax ∨ ∃ t, SeenIn isa ft blocks t ∧ r.1 = x.elem ft 0 t) ∧ (r.2 = fltLowest ∨ ∃ t, SeenIn isa ft blocks t ∧ r.2 = x.elem ft 0 t)) := by
  obtain ⟨_, hb, _⟩ := split_find blocks 0 hs
  obtain ⟨rs, ers, h1, h2⟩ := mmBlocks_each (P := BlockSeen isa ft x) (isa := isa) blocks (fun b hbm => mmBlock_seen hx (hb b hbm).1 (hb b hbm).2 (fun t ht => hf t ⟨b, hbm, ht⟩))
  obtain ⟨g1, g2, g3, g4, g5⟩ := combine_num rs (dblMax, dblLowest) (by decide) (by decide) (fun r hr => by
    obtain ⟨b, _, h, _⟩ := h2 r hr
    exact h) (mmCombine rs) rfl
  have h3 : ∀ r ∈ rs, (r.1 = fltMax ∨ ∃ t, SeenIn isa ft blocks t ∧ r.1 = x.elem ft 0 t) ∧ (r.2 = fltLowest ∨ ∃ t, SeenIn isa ft blocks t ∧ r.2 = x.elem ft 0 t) := by
    intro r hr
    obtain ⟨b, hbm, _, _, k3, k4⟩ := h2 r hr
    constructor
    · rcases k3 with ⟨t, ht, e⟩ | e
      · exact Or.inr ⟨t, ⟨b, hbm, ht⟩, e⟩
      · exact Or.inl e
    · rcases k4 with ⟨t, ht, e⟩ | e
      · exact Or.inr ⟨t, ⟨b, hbm, ht⟩, e⟩
      · exact Or.inl e
  refine ⟨rs, ers, g1, ?_, ?_, ?_, g2.1, g2.2, h3⟩
  · rintro t ⟨b, hbm, ht⟩
    obtain ⟨r, hr, k1, k2, _⟩ := h1 b hbm
    exact ⟨r, hr, k1, k2 t ht, g3 r hr⟩
  · rcases g4 with e | ⟨r, hr, e⟩
    · exact Or.inl e
    · rcases (h3 r hr).1 with e' | ⟨t, ht, e'⟩
      · exact Or.inr (Or.inl (by rw [e, e']))
      · exact Or.inr (Or.inr ⟨t, ht, by rw [e, e']⟩)
  · rcases g5 with e | ⟨r, hr, e⟩
    · exact Or.inl e
    · rcases (h3 r hr).2 with e' | ⟨t, ht, e'⟩
      · exact Or.inr (Or.inl (by rw [e, e']))
      · exact Or.inr (Or.inr ⟨t, ht, by rw [e, e']⟩)

/-- Some element counts. -/
theorem seen_some (hn : 0 < n) (hs : Split n 0 blocks) : ∃ t, SeenIn isa ft blocks t := by
  cases blocks with
  | nil => have : 0 = n := hs; omega
  | cons b bs =>
    obtain ⟨h1, h2, _⟩ := hs
    refine ⟨b.1, b, by simp, le_refl _, by omega, fun _ => ?_⟩
    cases ft <;> right <;> simp

theorem seenIn_lt (hs : Split n 0 blocks) {t : Nat} (h : SeenIn isa ft blocks t) : t < n := by
  obtain ⟨b, hb, _, h2, _⟩ := h
  have := ((split_find blocks 0 hs).2.1 b hb).2
  omega

theorem seen_ninf (hdt : dt.isQuant = true) (hx : ft.size * n ≤ x.size) (hf : ∀ t, SeenIn isa ft blocks t → (x.elem ft 0 t).isNaN = false) (hs : Split n 0 blocks)
    {t : Nat} (ht : SeenIn isa ft blocks t) (et : x.elem ft 0 t = Flt.inf true) :
    computeQuantConfigFromData isa ft x blocks dt = .fail .ub := by
  obtain ⟨rs, ers, ⟨n1, n2⟩, h1, _, _, _, h4, _⟩ := blocks_seen (isa := isa) hx hf hs
  have e1 : (mmCombine rs).1 = Flt.inf true := by
    by_contra hne
    obtain ⟨r, _, ⟨r1, _⟩, ⟨r2, _⟩, r3, _⟩ := h1 t ht
    have hr : r.1 = Flt.inf true := by
      by_contra hne'
      rw [et] at r2
      exact absurd (ninf_lt r1 hne') (not_lt.mpr r2)
    rw [hr, cvt_ninf] at r3
    exact absurd (ninf_lt n1 hne) (not_lt.mpr r3)
  have e2 : (mmCombine rs).2 ≠ Flt.inf true := by
    intro h
    rw [h] at h4
    exact absurd (ninf_lt (a := dblLowest) (by decide) (by decide)) (not_lt.mpr h4)
  rw [config_checked ers, e1, paramsOf_ninf hdt n2 e2]; rfl

theorem seen_pinf (hdt : dt.isQuant = true) (hx : ft.size * n ≤ x.size) (hf : ∀ t, SeenIn isa ft blocks t → (x.elem ft 0 t).isNaN = false) (hs : Split n 0 blocks)
    {t : Nat} (ht : SeenIn isa ft blocks t) (et : x.elem ft 0 t = Flt.inf false)
    (hm : ∀ t, SeenIn isa ft blocks t → x.elem ft 0 t ≠ Flt.inf true) : computeQuantConfigFromData isa ft x blocks dt = .ret (Flt.inf false, 0) := by
  obtain ⟨rs, ers, ⟨n1, n2⟩, h1, h2, _, h4, _⟩ := blocks_seen (isa := isa) hx hf hs
  have e2 : (mmCombine rs).2 = Flt.inf false := by
    by_contra hne
    obtain ⟨r, _, ⟨_, r1⟩, ⟨_, r2⟩, _, r3⟩ := h1 t ht
    have hr : r.2 = Flt.inf false := by
      by_contra hne'
      rw [et] at r2
      exact absurd (pinf_gt r1 hne') (not_lt.mpr r2)
    rw [hr, cvt_pinf] at r3
    exact absurd (pinf_gt n2 hne) (not_lt.mpr r3)
  have e1 : (mmCombine rs).1.isFin = true := by
    rcases fin_or_inf n1 with h | h
    · exact h
    rcases h2 with h' | h' | ⟨q, hq, e⟩
    · rw [h']; decide
    · rw [h']; exact (cvt64_fin (by decide)).2
    exfalso
    have e' := mag_inf h
    cases hg : (mmCombine rs).1.neg <;> rw [hg] at e'
    · rw [e'] at h4
      exact absurd (pinf_gt (a := dblMax) (by decide) (by decide)) (not_lt.mpr h4)
    · rw [e'] at e
      exact cvt_ne_ninf (hf q hq) (hm q hq) e.symm
  rw [config_checked ers, e2, paramsOf_pinf hdt e1]
  exact checked_inf

theorem seen_fin (hdt : dt.isQuant = true) (hx : ft.size * n ≤ x.size) (hn : 0 < n) (hf : ∀ t, SeenIn isa ft blocks t → (x.elem ft 0 t).isFin = true) (hs : Split n 0 blocks) :
    ∃ u w, (SeenIn isa ft blocks u ∧ SeenIn isa ft blocks w) ∧
      (∀ t, SeenIn isa ft blocks t → (x.elem ft 0 u).toRat ≤ (x.elem ft 0 t).toRat ∧ (x.elem ft 0 t).toRat ≤ (x.elem ft 0 w).toRat) ∧
      computeQuantConfigFromData isa ft x blocks dt = .ret (params dt.bits (x.elem ft 0 u).toRat (x.elem ft 0 w).toRat) := by
  obtain ⟨rs, ers, ⟨n1, n2⟩, h1, h2, h3, _, _, h6⟩ := blocks_seen (isa := isa) hx (fun t ht => fin_notnan (hf t ht)) hs
  have fr : ∀ r ∈ rs, r.1.isFin = true ∧ r.2.isFin = true := by
    intro r hr
    obtain ⟨a, b⟩ := h6 r hr
    constructor
    · rcases a with e | ⟨t, ht, e⟩
      · rw [e]; decide
      · rw [e]; exact hf t ht
    · rcases b with e | ⟨t, ht, e⟩
      · rw [e]; decide
      · rw [e]; exact hf t ht
  have hb : ∀ t, SeenIn isa ft blocks t → (mmCombine rs).1.toRat ≤ (x.elem ft 0 t).toRat ∧ (x.elem ft 0 t).toRat ≤ (mmCombine rs).2.toRat := by
    intro t ht
    obtain ⟨r, hr, _, ⟨a, b⟩, c, d⟩ := h1 t ht
    rw [(cvt64_fin (fr r hr).1).1] at c
    rw [(cvt64_fin (fr r hr).2).1] at d
    exact ⟨c.trans a, b.trans d⟩
  obtain ⟨s, hss⟩ := seen_some (isa := isa) (ft := ft) hn hs
  have hl : ∃ u, SeenIn isa ft blocks u ∧ (mmCombine rs).1.isFin = true ∧ (mmCombine rs).1.toRat = (x.elem ft 0 u).toRat := by
    rcases h2 with e | e | ⟨u, hu, e⟩
    · have := (hb s hss).1
      rw [e] at this
      exact absurd this (not_le.mpr (dblMax_ge (hf s hss)).1)
    · refine ⟨s, hss, by rw [e]; exact (cvt64_fin (by decide)).2, le_antisymm (hb s hss).1 ?_⟩
      rw [e, (cvt64_fin (a := fltMax) (by decide)).1]
      exact le_trans (le_abs_self _) (fltMax_ge (hf s hss))
    · exact ⟨u, hu, by rw [e]; exact (cvt64_fin (hf u hu)).2, by rw [e]; exact (cvt64_fin (hf u hu)).1⟩
  have hg : ∃ w, SeenIn isa ft blocks w ∧ (mmCombine rs).2.isFin = true ∧ (mmCombine rs).2.toRat = (x.elem ft 0 w).toRat := by
    rcases h3 with e | e | ⟨u, hu, e⟩
    · have := (hb s hss).2
      rw [e] at this
      exact absurd this (not_le.mpr (dblMax_ge (hf s hss)).2)
    · refine ⟨s, hss, by rw [e]; exact (cvt64_fin (by decide)).2, le_antisymm ?_ (hb s hss).2⟩
      rw [e, (cvt64_fin (a := fltLowest) (by decide)).1, fltLowest_eq]
      exact (abs_le.mp (fltMax_ge (hf s hss))).1
    · exact ⟨u, hu, by rw [e]; exact (cvt64_fin (hf u hu)).2, by rw [e]; exact (cvt64_fin (hf u hu)).1⟩
  obtain ⟨u, hu, fu, eu⟩ := hl
  obtain ⟨w, hw, fw, ew⟩ := hg
  rw [eu, ew] at hb
  refine ⟨u, w, ⟨hu, hw⟩, hb, ?_⟩
  rw [config_checked ers, paramsOf_eq hdt fu fw (hf u hu) (hf w hw) eu ew (hb u hu).2]
  exact checked_params hdt (hb u hu).2

end

end Verif

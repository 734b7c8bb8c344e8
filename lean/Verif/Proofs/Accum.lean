import Verif.Props.Fused

/-!
# Numerical lemmas about accumulating dequantized values
-/

namespace Verif
open Spec

/-- A fused multiply-add of finite operands is the rounded exact result. -/
theorem fma_toRat {f : Fmt} [f.Good] {a b c : Flt f} (ha : a.isFin = true) (hb : b.isFin = true) (hc : c.isFin = true) :
    (Flt.fma a b c).toRat = flr f (a.toRat * b.toRat + c.toRat) := by
  have nan : ∀ {y : Flt f}, y.isFin = true → y.isNaN = false ∧ y.isInf = false := fun {y} h => by
    have : y.mag < f.infMag := by simpa [Flt.isFin] using h
    unfold Flt.isNaN Flt.isInf; constructor <;> simp <;> omega
  unfold Flt.fma
  rw [(nan ha).1, (nan hb).1, (nan hc).1, (nan ha).2, (nan hb).2, (nan hc).2]
  simp only [Bool.or_self, Bool.false_eq_true, if_false]
  exact ofRat_flr _ _

/-- Rounding a sum of moderate size. -/
theorem flr_sum {q : ℚ} (h : |q| ≤ 2 ^ 127) : |flr f32 q - q| ≤ |q| / 2 ^ 24 + 1 / 2 ^ 150 ∧ |flr f32 q| < 2 ^ f32.emax := by
  have hfl : fl f32 |q| < 2 ^ f32.emax := by
    apply fl_fin (abs_nonneg _); rw [emax_f32]; exact h
  refine ⟨?_, by rw [abs_flr]; exact hfl⟩
  have := flr_err hfl
  rw [unit_f32] at this
  have e : |q| / 2 ^ (f32.mb + 1) = |q| / 2 ^ 24 := rfl
  rw [e] at this
  refine this.trans (max_le ?_ ?_)
  · have : 0 ≤ |q| / 2 ^ 24 := by positivity
    show 1 / (2:ℚ) ^ 150 ≤ _
    linarith
  · have : (0:ℚ) ≤ 1 / 2 ^ 150 := by positivity
    linarith

/-- Adding the value of a code to a finite accumulator, in either of the two ways the compiler may choose. -/
theorem plus_near {b : Bool} {old s y : F32} {z : ℤ} {q : Nat} {e : ℚ} (hk : |(q:ℤ) - z| ≤ 255) (hf : s.isFin = true) (h1 : 1 / 2 ^ 126 ≤ s.toRat) (h2 : s.toRat ≤ 2 ^ 119)
    (hu : |(((q:ℤ) - z : ℤ):ℚ) - y.toRat / s.toRat| ≤ e + 1 / 2 ^ 13 + 1 / 2 ^ 25) (ho : old.isFin = true)
    (hb : |old.toRat + y.toRat| + s.toRat * (e + 1 / 2 ^ 12) ≤ 2 ^ 127) :
    (plus b old s z q).isFin = true ∧
    |(plus b old s z q).toRat - (old.toRat + y.toRat)| ≤
      s.toRat * (e + 1 / 2 ^ 12) + (|old.toRat + y.toRat| + s.toRat * (e + 1 / 2 ^ 12)) / 2 ^ 24 + 1 / 2 ^ 150 := by
  have hs : 0 < s.toRat := lt_of_lt_of_le (by positivity) h1
  have key : ∃ v : ℚ, |v - y.toRat| ≤ s.toRat * (e + 1 / 2 ^ 12) ∧ (plus b old s z q).toRat = flr f32 (old.toRat + v) := by
    cases b
    · obtain ⟨g1, g2⟩ := near_of (y := y) hk hf h1 h2 hu
      refine ⟨(Flt.mul (Flt.ofInt f32 ((q:ℤ) - z)) s).toRat, g2, ?_⟩
      exact add_toRat ho g1
    · obtain ⟨e1, g1⟩ := ofInt_exact (f := f32) (z := (q:ℤ) - z) (hk.trans (by norm_num [f32]))
      refine ⟨(((q:ℤ) - z : ℤ):ℚ) * s.toRat, ?_, ?_⟩
      · have : (((q:ℤ) - z : ℤ):ℚ) * s.toRat - y.toRat = ((((q:ℤ) - z : ℤ):ℚ) - y.toRat / s.toRat) * s.toRat := by field_simp
        rw [this, abs_mul, abs_of_pos hs, mul_comm]
        apply mul_le_mul_of_nonneg_left _ hs.le
        refine hu.trans ?_
        have : (1:ℚ) / 2 ^ 13 + 1 / 2 ^ 25 ≤ 1 / 2 ^ 12 := by norm_num
        linarith
      · show (Flt.fma (Flt.ofInt f32 ((q:ℤ) - z)) s old).toRat = _
        rw [fma_toRat g1 hf ho, e1, add_comm]
  obtain ⟨v, hv, ev⟩ := key
  set E := s.toRat * (e + 1 / 2 ^ 12) with hE
  have hsum : |old.toRat + v| ≤ |old.toRat + y.toRat| + E := by
    have : old.toRat + v = (old.toRat + y.toRat) + (v - y.toRat) := by ring
    rw [this]
    exact (abs_add_le _ _).trans (by linarith)
  obtain ⟨k1, k2⟩ := flr_sum (hsum.trans hb)
  refine ⟨isFin_of_abs (by rw [ev]; exact k2), ?_⟩
  rw [ev]
  have : flr f32 (old.toRat + v) - (old.toRat + y.toRat) = (flr f32 (old.toRat + v) - (old.toRat + v)) + (v - y.toRat) := by ring
  rw [this]
  refine (abs_add_le _ _).trans ?_
  have h3 : |old.toRat + v| / 2 ^ 24 ≤ (|old.toRat + y.toRat| + E) / 2 ^ 24 := div_le_div_of_nonneg_right hsum (by positivity)
  linarith

end Verif

namespace Verif.Props
open Spec

variable {isa : Isa} {ft : FT} {x : InBuf} {n : Nat} {blocks : List (Nat × Nat)} {dt : DType} {c : Ctx} {o : Nat} {m0 : Mem}
  {s τ : F32} {z : ℤ} {mode : RoundMode}

/-- The codes of a quantize call on data covered by the parameters. -/
theorem codes_near {A B : ℚ} (hc : Covered ft x n dt s z A B) (hq : QArgs c.threads x ft.dtype dt n) (hf : AllFin ft x n)
    (h1 : 1 / 2 ^ 126 ≤ s.toRat) (h2 : s.toRat ≤ 2 ^ 119) (hτ : Threshold mode τ) :
    Always NoFault (quantize c x ft.dtype o (bytes dt.bits n) dt s z mode τ) (span o (bytes dt.bits n)) m0 (fun m =>
      ∀ i, i < n → |(code dt.bits m o i : ℤ) - z| ≤ 255 ∧
        |(((code dt.bits m o i : ℤ) - z : ℤ) : ℚ) - (elem ft.dtype x.data 0 i).toRat / s.toRat| ≤ tol mode + 1 / 2 ^ 13 + 1 / 2 ^ 25) := by
  have hdt := hq.outQuant
  have hQ := qmax_bounds hdt
  have hzp := hc.zp
  have hz32 : Zp32 z := by unfold Zp32; norm_num; omega
  refine (quantize_vals hq hz32 (fun i hi => ?_) (Or.inr (by rw [abs_of_nonneg hzp.1]; norm_num; omega))).mono (fun _ h => h) (fun m hm i hi => ?_)
  · obtain ⟨g1, _, g2⟩ := hc.scaled hdt hf h1 h2 hi
    exact defined_of g1 g2 ⟨hzp.1, by omega⟩ hτ
  · have key : ∃ r : ℤ, |(r:ℚ) - (scaled (elem ft.dtype x.data 0 i) s).toRat| ≤ tol mode + 1 / 2 ^ 25 ∧ (code dt.bits m o i : ℤ) = sat dt.bits (r + z) := by
      rcases hm.1 i hi with g | ⟨g1, g2, g3⟩
      · exact ⟨_, rounded_tol hτ _, g⟩
      · refine ⟨_, ?_, g3⟩
        refine (nearInt_err (Or.inr ⟨g2, rfl⟩)).trans ?_
        have := half_le_tol (mode := mode)
        linarith
    obtain ⟨r, hr, e⟩ := key
    rw [e]
    refine ⟨by rw [abs_le]; unfold sat; omega, ?_⟩
    exact rt_core_mode (e := tol mode) hc.zp half_le_tol hc.off hc.len (hc.quo i hi) (hc.scaled hdt hf h1 h2 hi).2.1 hr

/-- Zero point and width of a computed range, in steps. -/
theorem computed_near (h : PArgs ft x n blocks dt) (hn : 0 < n) (hf : AllFin ft x n) (hs : Sees isa ft x n blocks) {lo hi : ℚ}
    (hr : Range ft.dtype x.data n lo hi) (h0 : lo ≤ 0 ∧ 0 ≤ hi) (hlt : lo < hi) (he : computeQuantConfigFromData isa ft x blocks dt = .ret (s, z))
    (h1 : 1 / 2 ^ 126 ≤ s.toRat) (h2 : s.toRat ≤ 2 ^ 126) :
    |(z:ℚ) - -lo / s.toRat| ≤ 1 / 2 + 1 / 2 ^ 40 + 1 / 2 ^ 14 ∧ |(hi - lo) / s.toRat - (2 ^ dt.bits - 1)| ≤ 1 / 2 ^ 14 := by
  rw [C22_true_range_partial h hn hf hs hr] at he
  injection he with he
  obtain ⟨⟨⟨a, ha, ea⟩, hlo⟩, ⟨b, hb, eb⟩, hhi⟩ := hr
  have hA := abs_lt.mp (abs_lt_of_isFin (hf a ha))
  have hB := abs_lt.mp (abs_lt_of_isFin (hf b hb))
  rw [emax_f32] at hA hB
  have hd2 : hi - lo ≤ 2 ^ 129 := by
    have : (2:ℚ) ^ 129 = 2 ^ 128 + 2 ^ 128 := by norm_num
    rw [this, ea, eb]; linarith [hA.1, hB.2]
  have hd1 : 1 / 2 ^ 149 ≤ hi - lo := by
    have hlt := hlt
    rw [ea, eb] at hlt ⊢
    have := toRat_sub_unit hlt
    rwa [unit_f32] at this
  exact (params_near (qmax_bounds h.quant) hd1 hd2 h0 he h1 h2).2

end Verif.Props

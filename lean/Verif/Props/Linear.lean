import Verif.Props.Pipeline
import Mathlib.Algebra.BigOperators.Ring.Finset
import Mathlib.Algebra.Order.BigOperators.Ring.Finset
import Mathlib.Algebra.Order.BigOperators.Group.Finset

/-!
# What is computed from a quantized tensor: weighted sums, distances, dot products: C107
-/

namespace Verif.Props
open Spec Finset

/-- The guaranteed error of one element: half a step (nearest) or one step (stochastic) of the ideal grid over the range `[lo, hi]` of the data, up to 2^-11 of a step. -/
def elemErr (mode : RoundMode) (dt : DType) (lo hi : ℚ) : ℚ := step dt lo hi * (tol mode + 1 / 2 ^ 11)

theorem weighted {n : Nat} {a b w : Nat → ℚ} {e : ℚ} (h : ∀ i, i < n → |a i - b i| ≤ e) :
    |(∑ i ∈ range n, w i * a i) - ∑ i ∈ range n, w i * b i| ≤ e * ∑ i ∈ range n, |w i| := by
  rw [← sum_sub_distrib, mul_sum]
  refine (abs_sum_le_sum_abs _ _).trans (sum_le_sum (fun i hi => ?_))
  rw [← mul_sub, abs_mul, mul_comm e]
  exact mul_le_mul_of_nonneg_left (h i (mem_range.mp hi)) (abs_nonneg _)

theorem squares {n : Nat} {a b : Nat → ℚ} {e : ℚ} (h : ∀ i, i < n → |a i - b i| ≤ e) :
    (∑ i ∈ range n, (a i - b i) ^ 2) ≤ n * e ^ 2 := by
  have : (n:ℚ) * e ^ 2 = ∑ i ∈ range n, e ^ 2 := by rw [sum_const, card_range, nsmul_eq_mul]
  rw [this]
  refine sum_le_sum (fun i hi => ?_)
  have := h i (mem_range.mp hi)
  rw [← sq_abs]
  exact pow_le_pow_left₀ (abs_nonneg _) this 2

theorem dots {n : Nat} {a b c d : Nat → ℚ} {e f : ℚ} (h : ∀ i, i < n → |a i - b i| ≤ e) (h' : ∀ i, i < n → |c i - d i| ≤ f) :
    |(∑ i ∈ range n, a i * c i) - ∑ i ∈ range n, b i * d i| ≤ e * (∑ i ∈ range n, |d i|) + f * (∑ i ∈ range n, |b i|) + n * (e * f) := by
  have en : (n:ℚ) * (e * f) = ∑ i ∈ range n, e * f := by rw [sum_const, card_range, nsmul_eq_mul]
  rw [← sum_sub_distrib, mul_sum, mul_sum, en, ← sum_add_distrib, ← sum_add_distrib]
  refine (abs_sum_le_sum_abs _ _).trans (sum_le_sum (fun i hi => ?_))
  have g := h i (mem_range.mp hi)
  have g' := h' i (mem_range.mp hi)
  have e1 : a i * c i - b i * d i = (a i - b i) * d i + (c i - d i) * b i + (a i - b i) * (c i - d i) := by ring
  rw [e1]
  refine (abs_add_le _ _).trans (add_le_add ((abs_add_le _ _).trans (add_le_add ?_ ?_)) ?_)
  · rw [abs_mul]; exact mul_le_mul_of_nonneg_right g (abs_nonneg _)
  · rw [abs_mul]; exact mul_le_mul_of_nonneg_right g' (abs_nonneg _)
  · rw [abs_mul]; exact mul_le_mul g g' (abs_nonneg _) ((abs_nonneg _).trans g)

section
variable {isa isa' : Isa} {ft ft' : FT} {x y : InBuf} {n o o' p p' : Nat} {blocks blocks' : List (Nat × Nat)} {dt dt' : DType} {c c' d d' : Ctx}
  {m0 m0' m1 m1' : Mem} {τ τ' : F32} {mode mode' : RoundMode} {lo hi lo' hi' : ℚ}

/-- C107, weighted sums: the workflow of C80 (computed parameters, either mode, float32 output).  Whatever the weights `w`, the exact weighted sum of the dequantized elements
is within the error of one element, times the sum of the magnitudes of the weights, of the weighted sum of the original elements.  With `w i = 1 / n`: the mean of the tensor moves by at most
the error of one element. -/
theorem C107_weighted_sum (h : PArgs ft x n blocks dt) (hs : Sees isa ft x n blocks) (ha : Around ft x n lo hi)
    (hq : QArgs c.threads x ft.dtype dt n) (h' : Sizes n c'.threads) (hτ : Threshold mode τ) :
    ∃ s z, computeQuantConfigFromData isa ft x blocks dt = .ret (s, z) ∧
      Always NoFault (quantize c x ft.dtype o (bytes dt.bits n) dt s z mode τ) (span o (bytes dt.bits n)) m0 (fun m =>
        ∀ sz, bytes dt.bits n ≤ sz → Readable dt .f32 n sz →
          Always NoFault (dequantize c' ⟨sz, fun a => m (o + a)⟩ (bytes dt.bits n) dt o' (4 * n) .f32 s z .set) (span o' (4 * n)) m0' (fun m' =>
            ∀ w : Nat → ℚ, |(∑ i ∈ range n, w i * (f32At m' (o' + 4 * i)).toRat) - ∑ i ∈ range n, w i * (elem ft.dtype x.data 0 i).toRat| ≤
              elemErr mode dt lo hi * ∑ i ∈ range n, |w i|)) := by
  obtain ⟨s, z, he, hA⟩ := C80_roundtrip (c := c) (c' := c') (o := o) (o' := o') (m0 := m0) (m0' := m0') (mode := mode) (τ := τ) h hs ha hq h' hτ
  exact ⟨s, z, he, hA.mono (fun _ h => h) (fun m hm sz hsz hrd => (hm sz hsz hrd).mono (fun _ h => h) (fun m' hm' w => weighted (fun i hi => (hm' i hi).2)))⟩

/-- `C107_weighted_sum` applied to a concrete case. -/
example := C107_weighted_sum (isa := .avx512f) (ft := .f32) (x := Ex.many) (n := 70) (blocks := Ex.blocks) (dt := .uint8) (lo := -25 / 4) (hi := 25 / 4) (c := Ex.c1) (c' := Ex.c2)
    (o := 1000) (o' := 3000) (m0 := Ex.old) (m0' := Ex.old) (mode := .stochastic) (τ := Ex.quarter) (h := by wit) (hs := by wit)
    (ha := ⟨by wit, by wit, by norm_num, by norm_num, by norm_num⟩) (hq := by wit) (h' := by wit) (hτ := by wit)

/-- C107, distance: the squared Euclidean distance between the tensor and its reconstruction is at most `n` times the squared error of one element. -/
theorem C107_distance (h : PArgs ft x n blocks dt) (hs : Sees isa ft x n blocks) (ha : Around ft x n lo hi)
    (hq : QArgs c.threads x ft.dtype dt n) (h' : Sizes n c'.threads) (hτ : Threshold mode τ) :
    ∃ s z, computeQuantConfigFromData isa ft x blocks dt = .ret (s, z) ∧
      Always NoFault (quantize c x ft.dtype o (bytes dt.bits n) dt s z mode τ) (span o (bytes dt.bits n)) m0 (fun m =>
        ∀ sz, bytes dt.bits n ≤ sz → Readable dt .f32 n sz →
          Always NoFault (dequantize c' ⟨sz, fun a => m (o + a)⟩ (bytes dt.bits n) dt o' (4 * n) .f32 s z .set) (span o' (4 * n)) m0' (fun m' =>
            (∑ i ∈ range n, ((f32At m' (o' + 4 * i)).toRat - (elem ft.dtype x.data 0 i).toRat) ^ 2) ≤ n * elemErr mode dt lo hi ^ 2)) := by
  obtain ⟨s, z, he, hA⟩ := C80_roundtrip (c := c) (c' := c') (o := o) (o' := o') (m0 := m0) (m0' := m0') (mode := mode) (τ := τ) h hs ha hq h' hτ
  exact ⟨s, z, he, hA.mono (fun _ h => h) (fun m hm sz hsz hrd => (hm sz hsz hrd).mono (fun _ h => h) (fun m' hm' => squares (fun i hi => (hm' i hi).2)))⟩

/-- `C107_distance` applied to a concrete case. -/
example := C107_distance (isa := .avx512f) (ft := .f32) (x := Ex.many) (n := 70) (blocks := Ex.blocks) (dt := .uint8) (lo := -25 / 4) (hi := 25 / 4) (c := Ex.c1) (c' := Ex.c2)
    (o := 1000) (o' := 3000) (m0 := Ex.old) (m0' := Ex.old) (mode := .nearest) (τ := Ex.quarter) (h := by wit) (hs := by wit)
    (ha := ⟨by wit, by wit, by norm_num, by norm_num, by norm_num⟩) (hq := by wit) (h' := by wit) (hτ := by wit)

/-- C107, dot products: two tensors of the same length, each with its own computed parameters, type, rounding mode, CPU and thread count, are quantized and dequantized (the second workflow
works on any memory, in particular one left by the first).  The exact dot product of the reconstructions differs from that of the tensors by at most
`e * sum |y| + e' * sum |x| + n * e * e'`, where `e`, `e'` are the errors of one element. -/
theorem C107_dot_product (h : PArgs ft x n blocks dt) (hs : Sees isa ft x n blocks) (ha : Around ft x n lo hi)
    (hq : QArgs c.threads x ft.dtype dt n) (h' : Sizes n c'.threads) (hτ : Threshold mode τ)
    (k : PArgs ft' y n blocks' dt') (ks : Sees isa' ft' y n blocks') (ka : Around ft' y n lo' hi')
    (kq : QArgs d.threads y ft'.dtype dt' n) (k' : Sizes n d'.threads) (kτ : Threshold mode' τ') :
    ∃ s z s' z', computeQuantConfigFromData isa ft x blocks dt = .ret (s, z) ∧ computeQuantConfigFromData isa' ft' y blocks' dt' = .ret (s', z') ∧
      Always NoFault (quantize c x ft.dtype o (bytes dt.bits n) dt s z mode τ) (span o (bytes dt.bits n)) m0 (fun m =>
        ∀ sz, bytes dt.bits n ≤ sz → Readable dt .f32 n sz →
          Always NoFault (dequantize c' ⟨sz, fun a => m (o + a)⟩ (bytes dt.bits n) dt o' (4 * n) .f32 s z .set) (span o' (4 * n)) m0' (fun m' =>
            Always NoFault (quantize d y ft'.dtype p (bytes dt'.bits n) dt' s' z' mode' τ') (span p (bytes dt'.bits n)) m1 (fun w =>
              ∀ sz', bytes dt'.bits n ≤ sz' → Readable dt' .f32 n sz' →
                Always NoFault (dequantize d' ⟨sz', fun a => w (p + a)⟩ (bytes dt'.bits n) dt' p' (4 * n) .f32 s' z' .set) (span p' (4 * n)) m1' (fun w' =>
                  |(∑ i ∈ range n, (f32At m' (o' + 4 * i)).toRat * (f32At w' (p' + 4 * i)).toRat) -
                      ∑ i ∈ range n, (elem ft.dtype x.data 0 i).toRat * (elem ft'.dtype y.data 0 i).toRat| ≤
                    elemErr mode dt lo hi * (∑ i ∈ range n, |(elem ft'.dtype y.data 0 i).toRat|) +
                    elemErr mode' dt' lo' hi' * (∑ i ∈ range n, |(elem ft.dtype x.data 0 i).toRat|) + n * (elemErr mode dt lo hi * elemErr mode' dt' lo' hi'))))) := by
  obtain ⟨s, z, he, hA⟩ := C80_roundtrip (c := c) (c' := c') (o := o) (o' := o') (m0 := m0) (m0' := m0') (mode := mode) (τ := τ) h hs ha hq h' hτ
  obtain ⟨s', z', ke, kA⟩ := C80_roundtrip (c := d) (c' := d') (o := p) (o' := p') (m0 := m1) (m0' := m1') (mode := mode') (τ := τ') k ks ka kq k' kτ
  refine ⟨s, z, s', z', he, ke, hA.mono (fun _ h => h) (fun m hm sz hsz hrd => (hm sz hsz hrd).mono (fun _ h => h) (fun m' hm' => ?_))⟩
  exact kA.mono (fun _ h => h) (fun w hw sz' hsz' hrd' => (hw sz' hsz' hrd').mono (fun _ h => h)
    (fun w' hw' => dots (fun i hi => (hm' i hi).2) (fun i hi => (hw' i hi).2)))

/-- `C107_dot_product` applied to a concrete case: a tensor with itself, once with nearest, once with stochastic rounding. -/
example := C107_dot_product (isa := .avx512f) (ft := .f32) (x := Ex.many) (n := 70) (blocks := Ex.blocks) (dt := .uint8) (lo := -25 / 4) (hi := 25 / 4) (c := Ex.c1) (c' := Ex.c2)
    (o := 1000) (o' := 3000) (m0 := Ex.old) (m0' := Ex.old) (mode := .nearest) (τ := Ex.quarter) (h := by wit) (hs := by wit)
    (ha := ⟨by wit, by wit, by norm_num, by norm_num, by norm_num⟩) (hq := by wit) (h' := by wit) (hτ := by wit)
    (isa' := .avx512f) (ft' := .f32) (y := Ex.many) (blocks' := Ex.blocks) (dt' := .uint8) (lo' := -25 / 4) (hi' := 25 / 4) (d := Ex.c1) (d' := Ex.c2)
    (p := 5000) (p' := 7000) (m1 := Ex.old) (m1' := Ex.old) (mode' := .stochastic) (τ' := Ex.quarter) (k := by wit) (ks := by wit)
    (ka := ⟨by wit, by wit, by norm_num, by norm_num, by norm_num⟩) (kq := by wit) (k' := by wit) (kτ := by wit)

end
end Verif.Props

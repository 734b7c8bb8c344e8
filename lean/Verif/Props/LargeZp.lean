import Verif.Proofs.LargeZp
import Verif.Props.QuantNeg

/-!
# C98: nearest quantization with zero points of any size

The x86 vector kernels round by adding one half and truncating.  In `[2^23, 2^24)` every float is an
integer and the sum of an odd one and one half is not a float: it is rounded up to the even neighbour.
With a zero point of that size (data far from zero compared to the step) the codes of such elements are
one too far from zero, although the elements lie exactly on the quantization grid.
-/

namespace Verif.Props
open Verif Spec Simd

variable {c : Ctx} {x : InBuf} {dtIn dtOut : DType} {n o : Nat} {scale τ : F32} {zp : ℤ} {m0 : Mem}

/-- C98, every code for every zero point: the formula, or one step further from zero; the latter only
on x86 vector kernels, and only if the scaled value is plus or minus the float below one half or an odd
integer of magnitude `2^23` to `2^24`. -/
theorem C98_code_any_zero_point (h : QArgs c.threads x dtIn dtOut n) (hz : Zp32 zp)
    (hd : ∀ i, i < n → Fits 32 (scaled (elem dtIn x.data 0 i) scale) zp)
    (hr : ∀ i, i < n → -(2 ^ 31 : ℤ) < rha (scaled (elem dtIn x.data 0 i) scale).toRat + zp ∧
      rha (scaled (elem dtIn x.data 0 i) scale).toRat + zp < 2 ^ 31 - 1) :
    Always NoFault (quantize c x dtIn o (bytes dtOut.bits n) dtOut scale zp .nearest τ) (span o (bytes dtOut.bits n)) m0
      (fun m => ∀ i, i < n →
        (code dtOut.bits m o i : ℤ) = sat dtOut.bits (rha (scaled (elem dtIn x.data 0 i) scale).toRat + zp) ∨
        (¬ ExactKernel c.isa dtIn dtOut .nearest ∧
          (|(scaled (elem dtIn x.data 0 i) scale).toRat| = predHalf ∨
            (2 ^ 23 ≤ |(scaled (elem dtIn x.data 0 i) scale).toRat| ∧ |(scaled (elem dtIn x.data 0 i) scale).toRat| < 2 ^ 24 ∧
              rha (scaled (elem dtIn x.data 0 i) scale).toRat % 2 = 1)) ∧
          (code dtOut.bits m o i : ℤ) = sat dtOut.bits (rha (scaled (elem dtIn x.data 0 i) scale).toRat +
            (if (scaled (elem dtIn x.data 0 i) scale).toRat < 0 then -1 else 1) + zp))) := by
  obtain ⟨js, e, _, g⟩ := quantize_safe (mode := .nearest) (τ := τ) (o := o) h hz hd m0
  refine ⟨js, e, g.safe, g.raceFree, g.progress, g.bounded, fun k d hrn hdn => ?_⟩
  obtain ⟨⟨h1, _⟩, _⟩ := g.post k d hrn hdn
  intro i hi
  obtain ⟨ft, rfl, hc⟩ := h1 i hi
  have hs : Fits 32 (Flt.mul (elem ft.dtype x.data 0 i) (invScale scale)) zp := hd i hi
  have hri := hr i hi
  rcases hc with hc | ⟨_, hft, ⟨hk1, hk2, hc⟩ | ⟨_, _, rfl, hc⟩⟩
  · rw [scalarStep_defined (mode := .nearest) h.outQuant hz hs] at hc
    injection hc with hc
    left; rw [← hc, clampI_sat h.outQuant]; rfl
  · rw [wrap32_of hz] at hc
    have hex : ¬ ExactKernel c.isa ft.dtype dtOut .nearest := by
      unfold ExactKernel
      rintro (h | h | h | h)
      · exact hk1 h
      · exact hk2 h
      · cases h
      · apply hft
        refine ⟨?_, h.2⟩
        cases ft
        · rfl
        · simp [FT.dtype] at h
    have hz0 : rha (Flt.mul (elem ft.dtype x.data 0 i) (invScale scale)).toRat + zp ≠ -(2 ^ 31) ∧
        rha (Flt.mul (elem ft.dtype x.data 0 i) (invScale scale)).toRat + zp < 2 ^ 31 - 1 := ⟨ne_of_gt hri.1, hri.2⟩
    change _ ∨ _ ∧ (|(Flt.mul (elem ft.dtype x.data 0 i) (invScale scale)).toRat| = predHalf ∨ _) ∧ _
    by_cases hp : |(Flt.mul (elem ft.dtype x.data 0 i) (invScale scale)).toRat| = predHalf
    · right
      have hr0 : rha (Flt.mul (elem ft.dtype x.data 0 i) (invScale scale)).toRat = 0 := by
        unfold rha
        have := abs_lt.mp (lt_of_eq_of_lt hp (show predHalf < 1 / 2 by unfold predHalf; norm_num))
        split
        · rw [neg_eq_zero, Int.floor_eq_iff]; push_cast; constructor <;> linarith
        · rw [Int.floor_eq_iff]; push_cast; constructor <;> linarith
      have hri' : -(2 ^ 31 : ℤ) < rha (Flt.mul (elem ft.dtype x.data 0 i) (invScale scale)).toRat + zp ∧
        rha (Flt.mul (elem ft.dtype x.data 0 i) (invScale scale)).toRat + zp < 2 ^ 31 - 1 := hri
      rw [hr0, zero_add] at hri'
      refine ⟨hex, Or.inl hp, ?_⟩
      rw [hc, vcode_predHalf hs hp ⟨hri'.1, by omega⟩, clampI_sat h.outQuant]
      have hr0' : rha (scaled (elem ft.dtype x.data 0 i) scale).toRat = 0 := hr0
      rw [hr0', zero_add]; rfl
    · by_cases h23 : 2 ^ 23 ≤ |(Flt.mul (elem ft.dtype x.data 0 i) (invScale scale)).toRat| ∧
          |(Flt.mul (elem ft.dtype x.data 0 i) (invScale scale)).toRat| < 2 ^ 24
      · have hv := vcode_mid (qmax := dtOut.qmax) hs h23.1 h23.2 hri
        by_cases ho : rha (Flt.mul (elem ft.dtype x.data 0 i) (invScale scale)).toRat % 2 = 0
        · left
          rw [if_pos ho] at hv
          rw [hc, hv, clampI_sat h.outQuant]; rfl
        · right
          rw [if_neg ho] at hv
          refine ⟨hex, Or.inr ⟨h23.1, h23.2, ?_⟩, ?_⟩
          · have := Int.emod_two_eq_zero_or_one (rha (Flt.mul (elem ft.dtype x.data 0 i) (invScale scale)).toRat)
            exact this.resolve_left ho
          · rw [hc, hv, clampI_sat h.outQuant]; rfl
      · left
        rw [hc, vcode_eq qmax_le hs hp (by
          rw [not_and_or, not_le, not_lt] at h23; exact h23.elim Or.inl (fun h => Or.inr (Or.inl h))), clampI_sat h.outQuant]; rfl
  · left
    rw [hc, wrap32_of hz, ncode_eq hs]; exact clampI_sat h.outQuant _

/-- Saturation does not increase distances. -/
theorem sat_near (b : Nat) {u v : ℤ} (h : |u - v| ≤ 1) : |sat b u - sat b v| ≤ 1 := by
  have := abs_le.mp h
  unfold sat
  generalize (2 : ℤ) ^ b - 1 = k
  rw [abs_le]
  constructor <;> omega

/-- C98: on every kernel and for every zero point the code is within one of the formula's. -/
theorem C98_within_one (h : QArgs c.threads x dtIn dtOut n) (hz : Zp32 zp)
    (hd : ∀ i, i < n → Fits 32 (scaled (elem dtIn x.data 0 i) scale) zp)
    (hr : ∀ i, i < n → -(2 ^ 31 : ℤ) < rha (scaled (elem dtIn x.data 0 i) scale).toRat + zp ∧
      rha (scaled (elem dtIn x.data 0 i) scale).toRat + zp < 2 ^ 31 - 1) :
    Always NoFault (quantize c x dtIn o (bytes dtOut.bits n) dtOut scale zp .nearest τ) (span o (bytes dtOut.bits n)) m0
      (fun m => ∀ i, i < n →
        |(code dtOut.bits m o i : ℤ) - sat dtOut.bits (rha (scaled (elem dtIn x.data 0 i) scale).toRat + zp)| ≤ 1) := by
  refine (C98_code_any_zero_point h hz hd hr).mono (fun _ h => h) (fun m hm i hi => ?_)
  rcases hm i hi with g | ⟨_, _, g⟩
  · rw [g, sub_self]; norm_num
  · rw [g]
    refine sat_near _ ?_
    split
    · rw [show ∀ a b : ℤ, a + -1 + b - (a + b) = -1 by intros; ring]; norm_num
    · rw [show ∀ a b : ℤ, a + 1 + b - (a + b) = 1 by intros; ring]; norm_num

/-- C98 and C08, for every zero point: unless some scaled value is plus or minus the float below one half
or an odd integer of magnitude `2^23` to `2^24`, every output byte is determined by the input, whatever
the CPU, the thread count, the schedule, the output address, its alignment and the previous contents. -/
theorem C98_independent_partial (hin : dtIn.isQuant = false) (hout : dtOut.isQuant = true) (hx : x.size = dtIn.stride * n) (hz : Zp32 zp)
    (hd : ∀ i, i < n → Fits 32 (scaled (elem dtIn x.data 0 i) scale) zp)
    (hr : ∀ i, i < n → -(2 ^ 31 : ℤ) < rha (scaled (elem dtIn x.data 0 i) scale).toRat + zp ∧
      rha (scaled (elem dtIn x.data 0 i) scale).toRat + zp < 2 ^ 31 - 1)
    (hp : ∀ i, i < n → |(scaled (elem dtIn x.data 0 i) scale).toRat| ≠ predHalf)
    (ho : ∀ i, i < n → |(scaled (elem dtIn x.data 0 i) scale).toRat| < 2 ^ 23 ∨ 2 ^ 24 ≤ |(scaled (elem dtIn x.data 0 i) scale).toRat| ∨
      rha (scaled (elem dtIn x.data 0 i) scale).toRat % 2 = 0) :
    ∃ out : Nat → Nat, ∀ (c : Ctx) (o : Nat) (m0 : Mem) (τ : F32), Sizes n c.threads →
      Always NoFault (quantize c x dtIn o (bytes dtOut.bits n) dtOut scale zp .nearest τ) (span o (bytes dtOut.bits n)) m0
        (fun m => ∀ j, j < bytes dtOut.bits n → m (o + j) = out j) := by
  have hq : ∀ (c : Ctx) (o : Nat) (m0 : Mem) (τ : F32), Sizes n c.threads →
      Always NoFault (quantize c x dtIn o (bytes dtOut.bits n) dtOut scale zp .nearest τ) (span o (bytes dtOut.bits n)) m0
        (fun m => (∀ i, i < n → (code dtOut.bits m o i : ℤ) = sat dtOut.bits (rha (scaled (elem dtIn x.data 0 i) scale).toRat + zp)) ∧
          (∀ t, dtOut.bits * n ≤ t → t < 8 * bytes dtOut.bits n → bit m o t = 0) ∧ (∀ j, j < bytes dtOut.bits n → m (o + j) < 256)) := by
    intro c o m0 τ hs
    obtain ⟨js, e, _, _, _, _, g⟩ := C98_code_any_zero_point (τ := τ) (o := o) (m0 := m0) ⟨hin, hout, hx, hs⟩ hz hd hr
    obtain ⟨js', e', _, g'⟩ := quantize_safe (mode := .nearest) (τ := τ) (o := o) (scale := scale) ⟨hin, hout, hx, hs⟩ hz hd m0
    obtain rfl : js = js' := by rw [e] at e'; simpa using e'
    refine ⟨js, e, g'.safe, g'.raceFree, g'.progress, g'.bounded, fun k d hrn hdn => ?_⟩
    obtain ⟨⟨_, h2, h3, _⟩, _⟩ := g'.post k d hrn hdn
    refine ⟨fun i hi => ?_, h2, h3⟩
    rcases g k d hrn hdn i hi with h | ⟨_, h | ⟨h4, h5, h6⟩, _⟩
    · exact h
    · exact absurd h (hp i hi)
    · rcases ho i hi with h | h | h
      · exact absurd h4 (not_le.mpr h)
      · exact absurd h5 (not_lt.mpr h)
      · omega
  by_cases hex : ∃ (o : Nat) (m : Mem), (∀ i, i < n → (code dtOut.bits m o i : ℤ) = sat dtOut.bits (rha (scaled (elem dtIn x.data 0 i) scale).toRat + zp)) ∧
          (∀ t, dtOut.bits * n ≤ t → t < 8 * bytes dtOut.bits n → bit m o t = 0) ∧ (∀ j, j < bytes dtOut.bits n → m (o + j) < 256)
  · obtain ⟨o1, m1, g1, g2, g3⟩ := hex
    refine ⟨fun j => m1 (o1 + j), fun c o m0 τ hs => (hq c o m0 τ hs).mono (fun _ h => h) (fun m ⟨f1, f2, f3⟩ => ?_)⟩
    exact pack_ext hout (fun i hi => by have := f1 i hi; rw [← g1 i hi] at this; exact_mod_cast this) f2 g2 f3 g3
  · exact ⟨fun _ => 0, fun c o m0 τ hs => (hq c o m0 τ hs).mono (fun _ h => h) (fun m hm => absurd ⟨o, m, hm⟩ hex)⟩

/-- C98: whatever the zero point, the codes that two calls with nearest rounding store for an element
(on different CPUs, with different thread counts, at different addresses) differ by at most one. -/
theorem C98_two_calls_within_one {c' : Ctx} {o' : Nat} {m0' : Mem} {τ' : F32} (h : QArgs c.threads x dtIn dtOut n) (h' : Sizes n c'.threads) (hz : Zp32 zp)
    (hd : ∀ i, i < n → Fits 32 (scaled (elem dtIn x.data 0 i) scale) zp)
    (hr : ∀ i, i < n → -(2 ^ 31 : ℤ) < rha (scaled (elem dtIn x.data 0 i) scale).toRat + zp ∧
      rha (scaled (elem dtIn x.data 0 i) scale).toRat + zp < 2 ^ 31 - 1) :
    Always NoFault (quantize c x dtIn o (bytes dtOut.bits n) dtOut scale zp .nearest τ) (span o (bytes dtOut.bits n)) m0
      (fun m => Always NoFault (quantize c' x dtIn o' (bytes dtOut.bits n) dtOut scale zp .nearest τ') (span o' (bytes dtOut.bits n)) m0'
        (fun m' => ∀ i, i < n → |(code dtOut.bits m o i : ℤ) - (code dtOut.bits m' o' i : ℤ)| ≤ 1)) := by
  refine (C98_code_any_zero_point h hz hd hr).mono (fun _ h => h) (fun m hm => ?_)
  refine (C98_code_any_zero_point (c := c') (o := o') (m0 := m0') (τ := τ') ⟨h.inFloat, h.outQuant, h.size, h'⟩ hz hd hr).mono (fun _ h => h) (fun m' hm' i hi => ?_)
  have near : ∀ a b : ℤ, |sat dtOut.bits (a + b) - sat dtOut.bits (a + (if (scaled (elem dtIn x.data 0 i) scale).toRat < 0 then -1 else 1) + b)| ≤ 1 := by
    intro a b
    refine sat_near _ ?_
    split
    · rw [show a + b - (a + -1 + b) = 1 by ring]; norm_num
    · rw [show a + b - (a + 1 + b) = -1 by ring]; norm_num
  rcases hm i hi with g | ⟨_, _, g⟩ <;> rcases hm' i hi with k | ⟨_, _, k⟩ <;> rw [g, k]
  · rw [sub_self]; norm_num
  · exact near _ _
  · rw [abs_sub_comm]; exact near _ _
  · rw [sub_self]; norm_num

/-- C98, grid values: an element whose scaled value is an integer `k` gets the code `sat (k + zp)`,
whatever the zero point, on kernels that round with `std::round`, and on every kernel if `k` is even or
outside `[2^23, 2^24)` in magnitude. -/
theorem C98_grid_values_partial (h : QArgs c.threads x dtIn dtOut n) (hz : Zp32 zp)
    (hd : ∀ i, i < n → Fits 32 (scaled (elem dtIn x.data 0 i) scale) zp)
    (hr : ∀ i, i < n → -(2 ^ 31 : ℤ) < rha (scaled (elem dtIn x.data 0 i) scale).toRat + zp ∧
      rha (scaled (elem dtIn x.data 0 i) scale).toRat + zp < 2 ^ 31 - 1) :
    Always NoFault (quantize c x dtIn o (bytes dtOut.bits n) dtOut scale zp .nearest τ) (span o (bytes dtOut.bits n)) m0
      (fun m => ∀ i, i < n → ∀ k : ℤ, (scaled (elem dtIn x.data 0 i) scale).toRat = k →
        ExactKernel c.isa dtIn dtOut .nearest ∨ k % 2 = 0 ∨ |k| < 2 ^ 23 ∨ 2 ^ 24 ≤ |k| →
        (code dtOut.bits m o i : ℤ) = sat dtOut.bits (k + zp)) := by
  refine (C98_code_any_zero_point h hz hd hr).mono (fun _ h => h) (fun m hm i hi k hk hc => ?_)
  have hrk : rha (scaled (elem dtIn x.data 0 i) scale).toRat = k := by
    rw [hk]; unfold rha
    split
    · rw [neg_eq_iff_eq_neg, Int.floor_eq_iff]; push_cast; constructor <;> linarith
    · rw [Int.floor_eq_iff]; constructor <;> linarith
  have hm' := hm i hi
  rw [hrk] at hm'
  rcases hm' with g | ⟨g1, g2, _⟩
  · exact g
  · exfalso
    rw [hk] at g2
    rcases g2 with g2 | ⟨g2, g3, g4⟩
    · have hlt : |k| < 1 := by
        have : ((|k| : ℤ) : ℚ) < 1 := by push_cast; rw [g2]; unfold predHalf; norm_num
        exact_mod_cast this
      have : k = 0 := by have := abs_lt.mp hlt; omega
      rw [this] at g2; unfold predHalf at g2; norm_num at g2
    · have k2 : (2 : ℤ) ^ 23 ≤ |k| := by
        have : ((2 ^ 23 : ℤ) : ℚ) ≤ ((|k| : ℤ) : ℚ) := by push_cast; exact g2
        exact_mod_cast this
      have k3 : |k| < (2 : ℤ) ^ 24 := by
        have : ((|k| : ℤ) : ℚ) < ((2 ^ 24 : ℤ) : ℚ) := by push_cast; exact g3
        exact_mod_cast this
      rcases hc with hc | hc | hc | hc
      · exact g1 hc
      · omega
      · exact absurd hc (not_lt.mpr k2)
      · exact absurd hc (not_le.mpr k3)

/-- Sixteen times the float `8388609 = 2^23 + 1`. -/
def farData : InBuf := Ex.buf (Ex.words32 (List.replicate 16 0x4b000001))

theorem farData_args (dtOut : DType) (h : dtOut.isQuant = true) : QArgs 1 farData .f32 dtOut 16 := ⟨rfl, h, rfl, sz 16 1⟩

/-- C98 is false of the x86 vector kernels: with step 1 and zero point -8388604 the value 8388609 has
the code 5 (8388609 - 8388604), which the portable kernels compute; the vector kernels store 6, i.e. the
value 8388610. -/
theorem C98_false_grid_value_moves :
    (∀ i, i < 16 → (scaled (elem .f32 farData.data 0 i) f1).toRat = (8388609 : ℤ)) ∧
    Always NoFault (quantize ⟨.portable, 1, .none⟩ farData .f32 64 8 .uint4 f1 (-8388604) .nearest f0) (span 64 8) Ex.old
      (fun m => ∀ i, i < 16 → code 4 m 64 i = 5) ∧
    (∀ isa, isa = .avx2 ∨ isa = .avx512f ∨ isa = .avx512bf16 ∨ isa = .sse42 →
      Always NoFault (quantize ⟨isa, 1, .none⟩ farData .f32 64 8 .uint4 f1 (-8388604) .nearest f0) (span 64 8) Ex.old
        (fun m => ∀ i, i < 16 → code 4 m 64 i = 6)) := by
  have key : ∀ (b : Nat) (m : Mem), b < 16 → (List.range 8).map (fun j => m (64 + j)) = List.replicate 8 (17 * b) →
      ∀ i, i < 16 → code 4 m 64 i = b := by
    intro b m hb hm i hi
    have hj : ∀ j, j < 8 → m (64 + j) = 17 * b := by
      intro j hj
      have := congrArg (fun l => l[j]?) hm
      interval_cases j <;> simpa using this
    unfold code
    have e : 64 + 4 * i / 8 = 64 + i / 2 := by omega
    rw [e, hj (i / 2) (by omega)]
    rcases (by omega : 4 * i % 8 = 0 ∨ 4 * i % 8 = 4) with h | h <;> rw [h] <;> interval_cases b <;> rfl
  refine ⟨by decide +kernel, ?_, ?_⟩
  · refine (quantize_result (c := ⟨.portable, 1, .none⟩) (dtOut := .uint4) (n := 16) (l := List.replicate 8 (17 * 5)) (farData_args _ rfl) (by decide +kernel)).mono
      (fun _ h => h) (fun m hm => key 5 m (by norm_num) hm)
  · rintro isa (rfl | rfl | rfl | rfl)
    · exact (quantize_result (c := ⟨.avx2, 1, .none⟩) (dtOut := .uint4) (n := 16) (l := List.replicate 8 (17 * 6)) (farData_args _ rfl) (by decide +kernel)).mono
        (fun _ h => h) (fun m hm => key 6 m (by norm_num) hm)
    · exact (quantize_result (c := ⟨.avx512f, 1, .none⟩) (dtOut := .uint4) (n := 16) (l := List.replicate 8 (17 * 6)) (farData_args _ rfl) (by decide +kernel)).mono
        (fun _ h => h) (fun m hm => key 6 m (by norm_num) hm)
    · exact (quantize_result (c := ⟨.avx512bf16, 1, .none⟩) (dtOut := .uint4) (n := 16) (l := List.replicate 8 (17 * 6)) (farData_args _ rfl) (by decide +kernel)).mono
        (fun _ h => h) (fun m hm => key 6 m (by norm_num) hm)
    · exact (quantize_result (c := ⟨.sse42, 1, .none⟩) (dtOut := .uint4) (n := 16) (l := List.replicate 8 (17 * 6)) (farData_args _ rfl) (by decide +kernel)).mono
        (fun _ h => h) (fun m hm => key 6 m (by norm_num) hm)

/-- `C98_code_any_zero_point` applied to the case above. -/
example := C98_code_any_zero_point (c := ⟨.avx2, 1, .none⟩) (x := farData) (dtIn := .f32) (dtOut := .uint4) (n := 16) (o := 64) (scale := f1) (τ := f0)
    (zp := -8388604) (m0 := Ex.old) (h := farData_args _ rfl) (hz := by decide) (hd := by decide +kernel) (hr := by decide +kernel)
/-- `C98_within_one` applied to a concrete case. -/
example := C98_within_one (c := ⟨.avx2, 1, .none⟩) (x := farData) (dtIn := .f32) (dtOut := .uint4) (n := 16) (o := 64) (scale := f1) (τ := f0)
    (zp := -8388604) (m0 := Ex.old) (h := farData_args _ rfl) (hz := by decide) (hd := by decide +kernel) (hr := by decide +kernel)
/-- `C98_grid_values_partial` applied to a concrete case. -/
example := C98_grid_values_partial (c := ⟨.portable, 1, .none⟩) (x := farData) (dtIn := .f32) (dtOut := .uint4) (n := 16) (o := 64) (scale := f1) (τ := f0)
    (zp := -8388604) (m0 := Ex.old) (h := farData_args _ rfl) (hz := by decide) (hd := by decide +kernel) (hr := by decide +kernel)

/-- `C98_independent_partial` applied to a concrete case: uint8 codes of `Ex.many` with a zero point of
five million, beyond the range of C08. -/
example := C98_independent_partial (x := Ex.many) (dtIn := .f32) (dtOut := .uint8) (n := 70) (scale := Ex.tenth) (zp := 5000000) (hin := rfl) (hout := rfl)
    (hx := by wit) (hz := by decide) (hd := by decide +kernel) (hr := by decide +kernel) (hp := by wit) (ho := by decide +kernel)
/-- `C98_two_calls_within_one` applied to a concrete case. -/
example := C98_two_calls_within_one (c := ⟨.avx2, 1, .none⟩) (c' := ⟨.portable, 2, .none⟩) (x := farData) (dtIn := .f32) (dtOut := .uint4) (n := 16) (o := 64) (o' := 3)
    (scale := f1) (τ := f0) (τ' := f0) (zp := -8388604) (m0 := Ex.old) (m0' := Ex.old) (h := farData_args _ rfl) (h' := sz 16 2) (hz := by decide) (hd := by decide +kernel)
    (hr := by decide +kernel)

end Verif.Props

import Verif.Model.KernelsDq
import Mathlib.Data.Fintype.Basic
import Mathlib.Tactic.FinCases
import Mathlib.Tactic.IntervalCases
import Mathlib.Tactic.Ring

/-! # Lane-level facts about the vector instruction sequences -/

namespace Verif
open Simd

theorem clampI_le (hi : Nat) (x : ℤ) : clampI hi x ≤ hi := by unfold clampI; omega

theorem clampI_cast (hi : Nat) (x : ℤ) : (clampI hi x : ℤ) = max 0 (min (hi : ℤ) x) := by unfold clampI; omega
theorem clampI_cast' (hi : Nat) (x : ℤ) : (clampI hi x : ℤ) = max (min x (hi : ℤ)) 0 := by unfold clampI; omega
theorem clampI_cast'' (hi : Nat) (x : ℤ) : (clampI hi x : ℤ) = min (max x 0) (hi : ℤ) := by unfold clampI; omega

/-- The code computed by the x86 vector step for one element. -/
def vcode (qmax : Nat) (inv : F32) (zp : ℤ) (v : F32) : Nat :=
  let p := Flt.mul v inv
  clampI qmax (wrap32 (cvttps1 (Flt.add p (if Flt.ge p f0 then fhalf else fmhalf)) + zp))

/-- The code computed by the NEON f32 → uint8 step for one element. -/
def ncode (inv : F32) (zp : ℤ) (v : F32) : Nat :=
  clampI 255 (wrap32 (vcvta1 (Flt.mul v inv) + zp))

theorem vcode_le (qmax : Nat) (inv : F32) (zp : ℤ) (v : F32) : vcode qmax inv zp v ≤ qmax := clampI_le _ _
theorem ncode_le (inv : F32) (zp : ℤ) (v : F32) : ncode inv zp v ≤ 255 := clampI_le _ _

theorem vClampMaxMin_vRound {n : Nat} (hi : Nat) (inv : F32) (zp : ℤ) (xf : V n F32) (j : Fin n) :
    vClampMaxMin (hi : ℤ) (vRound inv zp xf) j = (vcode hi inv zp (xf j) : ℤ) := by
  rw [vcode, clampI_cast]; rfl

theorem vClampMaxMin'_vRound {n : Nat} (hi : Nat) (inv : F32) (zp : ℤ) (xf : V n F32) (j : Fin n) :
    vClampMaxMin' (hi : ℤ) (vRound inv zp xf) j = (vcode hi inv zp (xf j) : ℤ) := by
  rw [vcode, clampI_cast']; rfl

theorem vClampMinMax_vRound {n : Nat} (hi : Nat) (inv : F32) (zp : ℤ) (xf : V n F32) (j : Fin n) :
    vClampMinMax (hi : ℤ) (vRound inv zp xf) j = (vcode hi inv zp (xf j) : ℤ) := by
  rw [vcode, clampI_cast'']; rfl

theorem vClampMaxMin_255 {n : Nat} (inv : F32) (zp : ℤ) (xf : V n F32) (j : Fin n) :
    vClampMaxMin 255 (vRound inv zp xf) j = (vcode 255 inv zp (xf j) : ℤ) := vClampMaxMin_vRound 255 inv zp xf j
theorem vClampMaxMin'_15 {n : Nat} (inv : F32) (zp : ℤ) (xf : V n F32) (j : Fin n) :
    vClampMaxMin' 15 (vRound inv zp xf) j = (vcode 15 inv zp (xf j) : ℤ) := vClampMaxMin'_vRound 15 inv zp xf j
theorem vClampMinMax_15 {n : Nat} (inv : F32) (zp : ℤ) (xf : V n F32) (j : Fin n) :
    vClampMinMax 15 (vRound inv zp xf) j = (vcode 15 inv zp (xf j) : ℤ) := vClampMinMax_vRound 15 inv zp xf j
theorem vClampMinMax_3 {n : Nat} (inv : F32) (zp : ℤ) (xf : V n F32) (j : Fin n) :
    vClampMinMax 3 (vRound inv zp xf) j = (vcode 3 inv zp (xf j) : ℤ) := vClampMinMax_vRound 3 inv zp xf j

theorem cvtusepi32_of {a : V 16 ℤ} {g : Fin 16 → Nat} (h : ∀ j, a j = (g j : ℤ)) (hg : ∀ j, g j ≤ 255) (j : Fin 16) :
    mm512_cvtusepi32_epi8 a j = g j := by
  have := hg j
  simp only [mm512_cvtusepi32_epi8, h]
  omega

theorem satU16_of {x : ℤ} {n : Nat} (h : x = n) (hn : n ≤ 255) : satU16 x = n := by
  unfold satU16; omega
theorem satS16_of {x : ℤ} {n : Nat} (h : x = n) (hn : n ≤ 255) : satS16 x = n := by
  unfold satS16; omega
theorem satU8_of {x : ℤ} {n : Nat} (h : x = n) (hn : n ≤ 255) : (satU8 (sext16 x)).toNat = n := by
  have : sext16 x = n := by
    unfold sext16
    subst h
    apply Int.bmod_eq_of_le <;> omega
  rw [this]; unfold satU8; omega

/-- AVX2: four clamped registers to 32 bytes, in order. -/
theorem avx2Pack32_of {a b c d : V 8 ℤ} {g : Nat → Nat} (ha : ∀ j : Fin 8, a j = (g j : ℤ))
    (hb : ∀ j : Fin 8, b j = (g (8 + j) : ℤ)) (hc : ∀ j : Fin 8, c j = (g (16 + j) : ℤ))
    (hd : ∀ j : Fin 8, d j = (g (24 + j) : ℤ)) (hg : ∀ j, g j ≤ 255) (j : Fin 32) :
    avx2Pack32 a b c d j = g j := by
  fin_cases j <;>
  simp only [avx2Pack32, mm256_shuffle_epi8, mm256_permute4x64_epi64, mm256_packus_epi16, mm256_packus_epi32] <;>
  simp [shuffleMatrix] <;>
  first
  | exact satU8_of (satU16_of (ha _) (hg _)) (hg _)
  | exact satU8_of (satU16_of (hb _) (hg _)) (hg _)
  | exact satU8_of (satU16_of (hc _) (hg _)) (hg _)
  | exact satU8_of (satU16_of (hd _) (hg _)) (hg _)

/-- SSE: four clamped registers to 16 bytes, in order (`packus_epi32`). -/
theorem ssePack16_of {a b c d : V 4 ℤ} {g : Nat → Nat} (ha : ∀ j : Fin 4, a j = (g j : ℤ))
    (hb : ∀ j : Fin 4, b j = (g (4 + j) : ℤ)) (hc : ∀ j : Fin 4, c j = (g (8 + j) : ℤ))
    (hd : ∀ j : Fin 4, d j = (g (12 + j) : ℤ)) (hg : ∀ j, g j ≤ 255) (j : Fin 16) :
    mm_packus_epi16 (mm_packus_epi32 a b) (mm_packus_epi32 c d) j = g j := by
  fin_cases j <;>
  simp only [mm_packus_epi16, mm_packus_epi32] <;>
  simp <;>
  first
  | exact satU8_of (satU16_of (ha _) (hg _)) (hg _)
  | exact satU8_of (satU16_of (hb _) (hg _)) (hg _)
  | exact satU8_of (satU16_of (hc _) (hg _)) (hg _)
  | exact satU8_of (satU16_of (hd _) (hg _)) (hg _)

/-- The same with the signed first pack (`packs_epi32`). -/
theorem ssePack16s_of {a b c d : V 4 ℤ} {g : Nat → Nat} (ha : ∀ j : Fin 4, a j = (g j : ℤ))
    (hb : ∀ j : Fin 4, b j = (g (4 + j) : ℤ)) (hc : ∀ j : Fin 4, c j = (g (8 + j) : ℤ))
    (hd : ∀ j : Fin 4, d j = (g (12 + j) : ℤ)) (hg : ∀ j, g j ≤ 255) (j : Fin 16) :
    mm_packus_epi16 (mm_packs_epi32 a b) (mm_packs_epi32 c d) j = g j := by
  fin_cases j <;>
  simp only [mm_packus_epi16, mm_packs_epi32] <;>
  simp <;>
  first
  | exact satU8_of (satS16_of (ha _) (hg _)) (hg _)
  | exact satU8_of (satS16_of (hb _) (hg _)) (hg _)
  | exact satU8_of (satS16_of (hc _) (hg _)) (hg _)
  | exact satU8_of (satS16_of (hd _) (hg _)) (hg _)

theorem sat_ncode (x : ℤ) : (satU8 (satS16 x)).toNat = clampI 255 x := by
  unfold satU8 satS16 clampI; omega

/-- NEON: four registers of integers to 16 saturated bytes, in order. -/
theorem neonPack16 {a b c d : V 4 ℤ} {f : Nat → ℤ} (ha : ∀ j : Fin 4, a j = f j)
    (hb : ∀ j : Fin 4, b j = f (4 + j)) (hc : ∀ j : Fin 4, c j = f (8 + j))
    (hd : ∀ j : Fin 4, d j = f (12 + j)) (j : Fin 16) :
    (vcombine (n := 8) (vqmovun_s16 (vcombine (n := 4) (vqmovn_s32 a) (vqmovn_s32 b)))
      (vqmovun_s16 (vcombine (n := 4) (vqmovn_s32 c) (vqmovn_s32 d))) : V 16 Nat) j = clampI 255 (f j) := by
  rw [← sat_ncode]
  fin_cases j <;>
  simp only [vcombine, vqmovun_s16, vqmovn_s32] <;>
  simp <;>
  first
  | exact congrArg (fun t => (satU8 (satS16 t)).toNat) (ha _)
  | exact congrArg (fun t => (satU8 (satS16 t)).toNat) (hb _)
  | exact congrArg (fun t => (satU8 (satS16 t)).toNat) (hc _)
  | exact congrArg (fun t => (satU8 (satS16 t)).toNat) (hd _)

theorem or_nibble : ∀ a b : Fin 16, a.val ||| (b.val * 16) = a.val + 16 * b.val := by decide

theorem nibblePack_of {u8 : V 16 Nat} {g : Nat → Nat} (h : ∀ j : Fin 16, u8 j = g j) (hg : ∀ j, g j ≤ 15)
    (j : Nat) (hj : j < 8) : nibblePack u8 ⟨j, by omega⟩ = g (2 * j) + 16 * g (2 * j + 1) := by
  have hor : ∀ a b, a ≤ 15 → b ≤ 15 → a ||| (b * 16) = a + 16 * b := fun a b ha hb =>
    or_nibble ⟨a, by omega⟩ ⟨b, by omega⟩
  rw [← hor _ _ (hg _) (hg _)]
  interval_cases j <;>
  simp only [nibblePack, or_si, slli_epi16, wordBytes, wordAt, mm_shuffle_epi8] <;>
  simp [shufEven, shufOdd, h] <;> congr 1
  · have := hg 1; have := hg 3; omega
  · have := hg 1; have := hg 3; omega
  · have := hg 5; have := hg 7; omega
  · have := hg 5; have := hg 7; omega
  · have := hg 9; have := hg 11; omega
  · have := hg 9; have := hg 11; omega
  · have := hg 13; have := hg 15; omega
  · have := hg 13; have := hg 15; omega

theorem packU4_eq {a b : Nat} (ha : a ≤ 15) (hb : b ≤ 15) : packU4 a b = a + 16 * b := by
  have : ∀ a b : Fin 16, packU4 a.val b.val = a.val + 16 * b.val := by decide
  exact this ⟨a, by omega⟩ ⟨b, by omega⟩

theorem packU2_eq {a b c d : Nat} (ha : a ≤ 3) (hb : b ≤ 3) (hc : c ≤ 3) (hd : d ≤ 3) :
    packU2 a b c d = a + 4 * b + 16 * c + 64 * d := by
  have : ∀ a b c d : Fin 4, packU2 a.val b.val c.val d.val = a.val + 4 * b.val + 16 * c.val + 64 * d.val := by
    decide +kernel
  exact this ⟨a, by omega⟩ ⟨b, by omega⟩ ⟨c, by omega⟩ ⟨d, by omega⟩

theorem u2Pack_of {u8 : V 16 Nat} {g : Nat → Nat} (h : ∀ j : Fin 16, u8 j = g j) (hg : ∀ j, g j ≤ 3)
    (j : Nat) (hj : j < 4) : u2Pack u8 ⟨j, by omega⟩ =
      g (4 * j) + 4 * g (4 * j + 1) + 16 * g (4 * j + 2) + 64 * g (4 * j + 3) := by
  have hand : ∀ a, a ≤ 3 → a &&& 3 = a := by
    have : ∀ a : Fin 4, a.val &&& 3 = a.val := by decide
    exact fun a ha => this ⟨a, by omega⟩
  have key : ∀ a b c d : Nat, a ≤ 3 → b ≤ 3 → c ≤ 3 → d ≤ 3 →
      (satU8 (sext16 (sext16 (satS16 ((a:ℤ) * 1 + b * 4) + satS16 ((c:ℤ) * 16 + d * 64))))).toNat
        = a + 4 * b + 16 * c + 64 * d := by
    intro a b c d ha hb hc hd
    have e1 : satS16 ((a:ℤ) * 1 + b * 4) = a + b * 4 := by unfold satS16; omega
    have e2 : satS16 ((c:ℤ) * 16 + d * 64) = c * 16 + d * 64 := by unfold satS16; omega
    rw [e1, e2]
    have e3 : sext16 ((a:ℤ) + b * 4 + (c * 16 + d * 64)) = a + b * 4 + (c * 16 + d * 64) := by
      unfold sext16; apply Int.bmod_eq_of_le <;> omega
    rw [e3, e3]
    unfold satU8; omega
  interval_cases j
  · rw [← key _ _ _ _ (hg _) (hg _) (hg _) (hg _)]
    simp [u2Pack, mm_packus_epi16, mm_hadd_epi16, mm_maddubs_epi16, and_si, set1, w0146, h, hand _ (hg _)]
  · rw [← key _ _ _ _ (hg _) (hg _) (hg _) (hg _)]
    simp [u2Pack, mm_packus_epi16, mm_hadd_epi16, mm_maddubs_epi16, and_si, set1, w0146, h, hand _ (hg _)]
  · rw [← key _ _ _ _ (hg _) (hg _) (hg _) (hg _)]
    simp [u2Pack, mm_packus_epi16, mm_hadd_epi16, mm_maddubs_epi16, and_si, set1, w0146, h, hand _ (hg _)]
  · rw [← key _ _ _ _ (hg _) (hg _) (hg _) (hg _)]
    simp [u2Pack, mm_packus_epi16, mm_hadd_epi16, mm_maddubs_epi16, and_si, set1, w0146, h, hand _ (hg _)]

end Verif

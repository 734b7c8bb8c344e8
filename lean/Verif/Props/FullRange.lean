import Verif.Props.Examples
import Verif.Props.Reduce

/-!
# Computed parameters use the whole code range: C77
-/

namespace Verif.Props
open Spec

variable {isa : Isa} {ft : FT} {x : InBuf} {n : Nat} {blocks : List (Nat × Nat)} {dt : DType} {c : Ctx} {o : Nat} {m0 : Mem}
  {s τ : F32} {z : ℤ} {mode : RoundMode}

/-- C77. Non-constant data around zero, quantized (either mode) with the parameters computed from it: a smallest element
gets code 0 or 1 and a largest element one of the two largest codes. -/
theorem C77_extreme_codes (h : PArgs ft x n blocks dt) (hf : AllFin ft x n) (hs : Sees isa ft x n blocks) {lo hi : ℚ}
    (hr : Range ft.dtype x.data n lo hi) (h0 : lo ≤ 0 ∧ 0 ≤ hi) (hlt : lo < hi) (he : computeQuantConfigFromData isa ft x blocks dt = .ret (s, z))
    (h1 : 1 / 2 ^ 126 ≤ s.toRat) (h2 : s.toRat ≤ 2 ^ 119) (hq : QArgs c.threads x ft.dtype dt n) (hτ : Threshold mode τ) :
    Always NoFault (quantize c x ft.dtype o (bytes dt.bits n) dt s z mode τ) (span o (bytes dt.bits n)) m0 (fun m =>
      ∀ i, i < n → ((elem ft.dtype x.data 0 i).toRat = lo → code dt.bits m o i ≤ 1) ∧
        ((elem ft.dtype x.data 0 i).toRat = hi → 2 ^ dt.bits - 2 ≤ code dt.bits m o i)) := by
  rcases Nat.eq_zero_or_pos n with hn | hn
  · subst hn
    obtain ⟨⟨⟨a, ha, _⟩, _⟩, _⟩ := hr
    omega
  obtain ⟨A, B, hc⟩ := covered_computed h hn hf hs hr h0 he h1 h2
  obtain ⟨p1, p2⟩ := computed_near h hn hf hs hr h0 hlt he h1 (h2.trans (by norm_num))
  have hsp : 0 < s.toRat := lt_of_lt_of_le (by positivity) h1
  have ht : tol mode ≤ 1 := by cases mode <;> unfold tol <;> norm_num
  have n13 : (1:ℚ) / 2 ^ 13 ≤ 1 / 64 := by norm_num
  have n14 : (1:ℚ) / 2 ^ 14 ≤ 1 / 64 := by norm_num
  have n25 : (1:ℚ) / 2 ^ 25 ≤ 1 / 64 := by norm_num
  have n40 : (1:ℚ) / 2 ^ 40 ≤ 1 / 64 := by norm_num
  rw [abs_le] at p1 p2
  have e1 : -lo / s.toRat = -(lo / s.toRat) := by ring
  have e2 : (hi - lo) / s.toRat = hi / s.toRat - lo / s.toRat := by ring
  rw [e1] at p1
  rw [e2] at p2
  refine (codes_near hc hq hf h1 h2 hτ).mono (fun _ h => h) (fun m hm i hi' => ?_)
  obtain ⟨_, k⟩ := hm i hi'
  rw [abs_le] at k
  push_cast at k
  constructor
  · intro e
    rw [e] at k
    have : (code dt.bits m o i : ℚ) < 2 := by linarith [k.2, p1.2]
    have : code dt.bits m o i < 2 := by exact_mod_cast this
    omega
  · intro e
    rw [e] at k
    have : (2:ℚ) ^ dt.bits < (code dt.bits m o i : ℚ) + 3 := by linarith [k.1, p1.1, p2.1]
    have : 2 ^ dt.bits < code dt.bits m o i + 3 := by exact_mod_cast this
    omega

/-- `C77_extreme_codes` applied to a concrete case. -/
example := C77_extreme_codes (isa := .avx512f) (ft := .f32) (x := Ex.many) (n := 70) (blocks := Ex.blocks) (dt := .uint8) (c := Ex.c1) (o := 1000)
    (m0 := Ex.old) (s := Ex.manyS) (τ := Ex.quarter) (z := 128) (mode := .nearest) (h := by wit) (hf := by wit) (hs := by wit) (lo := (-25 / 4))
    (hi := (25 / 4)) (hr := by wit) (h0 := by wit) (hlt := by wit) (he := retIs_iff (by decide +kernel)) (h1 := by wit) (h2 := by wit) (hq := by wit)
    (hτ := by wit)

/-- Two elements, -0.717... and 0.143...: the smallest gets code 1 of the uint2 codes (not 0). -/
def loOff : InBuf := Ex.buf (Ex.words32 [0xbf378de4, 0x3e12d7e9])
/-- Two elements, -0.618... and 3.093...: the largest gets code 2 of the uint2 codes (not 3). -/
def hiOff : InBuf := Ex.buf (Ex.words32 [0xbf1e6779, 0x40460158])

/-- C77 cannot be sharpened to "code 0" and "the largest code": both bounds are attained. -/
theorem C77_sharp :
    (computeQuantConfigFromData .portable .f32 loOff [(0, 2)] .uint2 = .ret (⟨false, 0x3e92d7ea⟩, 3) ∧
      Always NoFault (quantize ⟨.portable, 1, .none⟩ loOff .f32 64 (bytes 2 2) .uint2 ⟨false, 0x3e92d7ea⟩ 3 .nearest f0) (span 64 (bytes 2 2)) Ex.old
        (fun m => code 2 m 64 0 = 1)) ∧
    (computeQuantConfigFromData .portable .f32 hiOff [(0, 2)] .uint2 = .ret (⟨false, 0x3f9e677a⟩, 0) ∧
      Always NoFault (quantize ⟨.portable, 1, .none⟩ hiOff .f32 64 (bytes 2 2) .uint2 ⟨false, 0x3f9e677a⟩ 0 .nearest f0) (span 64 (bytes 2 2)) Ex.old
        (fun m => code 2 m 64 1 = 2)) := by
  refine ⟨⟨retIs_iff (by decide +kernel), ?_⟩, retIs_iff (by decide +kernel), ?_⟩
  · refine (quantize_result (dtOut := .uint2) (n := 2) (l := [0xd]) ⟨rfl, rfl, rfl, sz 2 1⟩ (by decide +kernel)).mono (fun _ h => h) (fun m hm => ?_)
    have := (List.cons.inj hm).1
    have : m 64 = 0xd := this
    unfold code; norm_num [this]
  · refine (quantize_result (dtOut := .uint2) (n := 2) (l := [0x8]) ⟨rfl, rfl, rfl, sz 2 1⟩ (by decide +kernel)).mono (fun _ h => h) (fun m hm => ?_)
    have := (List.cons.inj hm).1
    have : m 64 = 0x8 := this
    unfold code; norm_num [this]

/-- The hypotheses hold for this data. -/
example : PArgs .f32 loOff 2 [(0, 2)] .uint2 ∧ AllFin .f32 loOff 2 ∧ QArgs 1 loOff .f32 .uint2 2 ∧ Sees .portable .f32 loOff 2 [(0, 2)] ∧
    Range .f32 loOff.data 2 (elem .f32 loOff.data 0 0).toRat (elem .f32 loOff.data 0 1).toRat ∧
    (elem .f32 loOff.data 0 0).toRat ≤ 0 ∧ 0 ≤ (elem .f32 loOff.data 0 1).toRat := by
  refine ⟨⟨rfl, by decide, rfl, by omega, rfl⟩, ?_, ⟨rfl, rfl, rfl, sz 2 1⟩, sees_small (dt := .uint2) ⟨rfl, by decide, rfl, by omega, rfl⟩ (by omega) (fun h => by cases h), ⟨⟨⟨0, by omega, rfl⟩, ?_⟩, ⟨1, by omega, rfl⟩, ?_⟩, by decide +kernel, by decide +kernel⟩
  · unfold AllFin; decide +kernel
  · rintro v ⟨t, ht, rfl⟩
    revert t; decide +kernel
  · rintro v ⟨t, ht, rfl⟩
    revert t; decide +kernel

end Verif.Props

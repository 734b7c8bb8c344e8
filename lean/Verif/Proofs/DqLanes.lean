import Verif.Proofs.DqBase

/-! # Unpacking lanes in the dequantization kernels -/

namespace Verif
open Simd

theorem unpacklo_of {n : Nat} {a b : V (16 * n) Nat} {g : Nat → Nat} (ha : ∀ j, a j = g (2 * j)) (hb : ∀ j, b j = g (2 * j + 1))
    (j : Fin (16 * n)) : unpacklo_epi8 a b j = g (32 * (j / 16) + j % 16) := by
  unfold unpacklo_epi8
  split
  · rw [ha]; congr 1; simp only; omega
  · rw [hb]; congr 1; simp only; omega

theorem unpackhi_of {n : Nat} {a b : V (16 * n) Nat} {g : Nat → Nat} (ha : ∀ j, a j = g (2 * j)) (hb : ∀ j, b j = g (2 * j + 1))
    (j : Fin (16 * n)) : unpackhi_epi8 a b j = g (32 * (j / 16) + 16 + j % 16) := by
  unfold unpackhi_epi8
  split
  · rw [ha]; congr 1; simp only; omega
  · rw [hb]; congr 1; simp only; omega

/-- High nibbles through the 16-bit shift. -/
theorem srli4_of {n : Nat} {v : V (2 * n) Nat} (hv : ∀ j, v j < 256) (j : Fin (2 * n)) :
    and_si (srli_epi16 v 4) (set1 15) j = v j / 16 := by
  simp only [and_si, set1, and15, srli_epi16, wordBytes, wordAt]
  split
  · rename_i h
    have e : (⟨2 * (j.val / 2), by omega⟩ : Fin (2 * n)) = j := by apply Fin.ext; simp only; omega
    rw [e]
    have h1 := hv j
    have h2 := hv ⟨2 * (j.val / 2) + 1, by omega⟩
    omega
  · rename_i h
    have e : (⟨2 * (j.val / 2) + 1, by omega⟩ : Fin (2 * n)) = j := by apply Fin.ext; simp only; omega
    rw [e]
    have h1 := hv j
    have h2 := hv ⟨2 * (j.val / 2), by omega⟩
    omega

/-- `g` lists the nibbles of the bytes `v`, low nibble first. -/
structure Nibs (n : Nat) (v : V n Nat) (g : Nat → Nat) : Prop where
  lt : ∀ j, v j < 256
  lo : ∀ j : Fin n, g (2 * j) = v j % 16
  hi : ∀ j : Fin n, g (2 * j + 1) = v j / 16

theorem Nibs.lo' {n : Nat} {v : V n Nat} {g : Nat → Nat} (h : Nibs n v g) (j : Fin n) : and_si v (set1 15) j = g (2 * j) := by
  rw [h.lo]; exact and15
theorem Nibs.hi' {n : Nat} {v : V (2 * n) Nat} {g : Nat → Nat} (h : Nibs (2 * n) v g) (j : Fin (2 * n)) :
    and_si (srli_epi16 v 4) (set1 15) j = g (2 * j + 1) := by rw [h.hi]; exact srli4_of h.lt j

theorem unpackNibblesSse_of {v : V 16 Nat} {g : Nat → Nat} (h : Nibs 16 v g) :
    (∀ j : Fin 16, (unpackNibblesSse v).1 j = g j) ∧ (∀ j : Fin 16, (unpackNibblesSse v).2 j = g (16 + j)) := by
  have h1 := h.lo'
  have h2 := h.hi' (n := 8)
  constructor
  · intro j
    refine (unpacklo_of (n := 1) (g := g) h1 h2 j).trans ?_
    congr 1; omega
  · intro j
    refine (unpackhi_of (n := 1) (g := g) h1 h2 j).trans ?_
    congr 1; omega

theorem unpackNibblesAvx2_of {v : V 32 Nat} {g : Nat → Nat} (h : Nibs 32 v g) :
    (∀ j : Fin 32, (unpackNibblesAvx2 v).1 j = g j) ∧ (∀ j : Fin 32, (unpackNibblesAvx2 v).2 j = g (32 + j)) := by
  have h1 := h.lo'
  have h2 := h.hi' (n := 16)
  have h3 := unpacklo_of (n := 2) (g := g) h1 h2
  have h4 := unpackhi_of (n := 2) (g := g) h1 h2
  constructor
  · intro j
    simp only [unpackNibblesAvx2, mm256_permute2x128_si256]
    by_cases hj : j.val < 16
    · simp only [hj, if_true]; norm_num
      refine (h3 _).trans ?_; congr 1; simp only; omega
    · simp only [hj, if_false]; norm_num
      refine (h4 _).trans ?_; congr 1; simp only; omega
  · intro j
    simp only [unpackNibblesAvx2, mm256_permute2x128_si256]
    by_cases hj : j.val < 16
    · simp only [hj, if_true]; norm_num
      refine (h3 _).trans ?_; congr 1; simp only; omega
    · simp only [hj, if_false]; norm_num
      refine (h4 _).trans ?_; congr 1; simp only; omega

theorem unpackNibbles512_of {v : V 64 Nat} {g : Nat → Nat} (h : Nibs 64 v g) :
    (∀ j : Fin 64, (unpackNibbles512 v).1 j = g j) ∧ (∀ j : Fin 64, (unpackNibbles512 v).2 j = g (64 + j)) := by
  have h1 := h.lo'
  have h2 := h.hi' (n := 32)
  have h3 := unpacklo_of (n := 4) (g := g) h1 h2
  have h4 := unpackhi_of (n := 4) (g := g) h1 h2
  have f1 : ((1 : Fin 4) : Nat) = 1 := rfl
  have f2 : ((2 : Fin 4) : Nat) = 2 := rfl
  have f3 : ((3 : Fin 4) : Nat) = 3 := rfl
  have f0 : ((0 : Fin 4) : Nat) = 0 := rfl
  constructor
  · intro j
    simp only [unpackNibbles512, mm512_inserti32x4, mm512_castsi128_si512, mm512_extracti32x4, f0, f1, f2, f3]
    have hj := j.isLt
    by_cases c3 : j.val / 16 = 3
    · rw [if_pos c3]; refine (h4 _).trans ?_; congr 1; simp only; omega
    · rw [if_neg c3]
      by_cases c2 : j.val / 16 = 2
      · rw [if_pos c2]; refine (h3 _).trans ?_; congr 1; simp only; omega
      · rw [if_neg c2]
        by_cases c1 : j.val / 16 = 1
        · rw [if_pos c1]; refine (h4 _).trans ?_; congr 1; simp only; omega
        · rw [if_neg c1, dif_pos (by omega)]; refine (h3 _).trans ?_; congr 1; simp only; omega
  · intro j
    simp only [unpackNibbles512, mm512_inserti32x4, mm512_castsi128_si512, mm512_extracti32x4, f1, f2, f3]
    have hj := j.isLt
    by_cases c3 : j.val / 16 = 3
    · rw [if_pos c3]; refine (h4 _).trans ?_; congr 1; simp only; omega
    · rw [if_neg c3]
      by_cases c2 : j.val / 16 = 2
      · rw [if_pos c2]; refine (h3 _).trans ?_; congr 1; simp only; omega
      · rw [if_neg c2]
        by_cases c1 : j.val / 16 = 1
        · rw [if_pos c1]; refine (h4 _).trans ?_; congr 1; simp only; omega
        · rw [if_neg c1, dif_pos (by omega)]; refine (h3 _).trans ?_; congr 1; simp only; omega

/-! ## Widening -/

theorem expand512_of {v : V 64 Nat} {g : Nat → Nat} (h : ∀ j : Fin 64, v j = g j) :
    Lanes (expand512 v) (fun k => (g k : ℤ)) := by
  refine ⟨fun j => ?_, fun j => ?_, fun j => ?_, fun j => ?_, trivial⟩ <;>
  · simp only [cvtepu8_epi32, mm512_extracti32x4, h]
    congr 2
    try simp
    try (norm_num; try omega)

theorem expandAvx2_of {v : V 32 Nat} {g : Nat → Nat} (h : ∀ j : Fin 32, v j = g j) :
    Lanes (expandAvx2 v) (fun k => (g k : ℤ)) := by
  refine ⟨fun j => ?_, fun j => ?_, fun j => ?_, fun j => ?_, trivial⟩ <;>
  · have := j.isLt
    simp only [cvtepu8_epi32, lo128, hi128, mm_srli_si128_8, this, dif_pos, h]
    try (congr 2; try omega)

theorem expandSse_of {v : V 16 Nat} {g : Nat → Nat} (h : ∀ j : Fin 16, v j = g j) :
    Lanes (expandSse v) (fun k => (g k : ℤ)) := by
  refine ⟨fun j => ?_, fun j => ?_, fun j => ?_, fun j => ?_, trivial⟩ <;>
  · fin_cases j <;>
    simp [epi32_of_bytes, mm_unpacklo_epi16, mm_unpackhi_epi16, unpacklo_epi8, unpackhi_epi8, set1, h]

theorem sext16_of {x : Nat} (h : x < 256) : sext16 (x : ℤ) = x := by
  unfold sext16; apply Int.bmod_eq_of_le <;> omega

theorem expandWords_of {v : V 16 Nat} {g : Nat → Nat} (h : ∀ j : Fin 16, v j = g j) (hg : ∀ j, v j < 256) :
    Lanes (expandWords v) (fun k => (g k : ℤ)) := by
  have hg' : ∀ k, k < 16 → g k < 256 := fun k hk => by have := hg ⟨k, hk⟩; rwa [h] at this
  refine ⟨fun j => ?_, fun j => ?_, fun j => ?_, fun j => ?_, trivial⟩ <;>
  · fin_cases j <;>
    simp [mm_cvtepi16_epi32, mm_cvtepu8_epi16, mm_srli_si128_8w, mm_srli_si128_8, h] <;>
    exact sext16_of (hg' _ (by omega))

theorem lut0_eq (x : Nat) : lut0 ⟨x % 16, by omega⟩ = x % 4 := by
  have : ∀ y : Fin 16, lut0 y = y.val % 4 := by decide
  rw [this]; simp only; omega
theorem lut1_eq (x : Nat) : lut1 ⟨x % 16, by omega⟩ = x % 16 / 4 := by
  have : ∀ y : Fin 16, lut1 y = y.val / 4 := by decide
  rw [this]

/-- `g` lists the 2-bit codes of the bytes `v`. -/
structure Crumbs (n : Nat) (v : V n Nat) (g : Nat → Nat) : Prop where
  lt : ∀ j, v j < 256
  c0 : ∀ j : Fin n, g (4 * j) = v j % 4
  c1 : ∀ j : Fin n, g (4 * j + 1) = v j / 4 % 4
  c2 : ∀ j : Fin n, g (4 * j + 2) = v j / 16 % 4
  c3 : ∀ j : Fin n, g (4 * j + 3) = v j / 64 % 4

theorem mm_unpacklo16_of {a b : V 16 Nat} {g : Nat → Nat}
    (ha : ∀ j : Fin 16, a j = g (4 * (j / 2) + j % 2)) (hb : ∀ j : Fin 16, b j = g (4 * (j / 2) + 2 + j % 2)) (j : Fin 16) :
    mm_unpacklo_epi16 a b j = g j := by
  unfold mm_unpacklo_epi16
  split
  · rw [ha]; congr 1; simp only; omega
  · rw [hb]; congr 1; simp only; omega

theorem mm_unpackhi16_of {a b : V 16 Nat} {g : Nat → Nat}
    (ha : ∀ j : Fin 16, a j = g (4 * (j / 2) + j % 2)) (hb : ∀ j : Fin 16, b j = g (4 * (j / 2) + 2 + j % 2)) (j : Fin 16) :
    mm_unpackhi_epi16 a b j = g (16 + j) := by
  unfold mm_unpackhi_epi16
  split
  · rw [ha]; congr 1; simp only; omega
  · rw [hb]; congr 1; simp only; omega

theorem unpackCrumbs_of {v : V 16 Nat} {g : Nat → Nat} (h : Crumbs 16 v g) : Lanes (unpackCrumbs v) g := by
  have hlo : ∀ j : Fin 16, and_si v (set1 15) j = v j % 16 := fun j => and15
  have hhi : ∀ j : Fin 16, and_si (srli_epi16 (n := 8) v 4) (set1 15) j = v j / 16 := srli4_of (n := 8) h.lt
  have q0 : ∀ j : Fin 16, mm_shuffle_epi8 lut0 (and_si v (set1 15)) j = g (4 * j) := by
    intro j; have := h.lt j
    simp only [mm_shuffle_epi8, hlo]
    rw [if_neg (by omega), lut0_eq, h.c0]; omega
  have q1 : ∀ j : Fin 16, mm_shuffle_epi8 lut1 (and_si v (set1 15)) j = g (4 * j + 1) := by
    intro j; have := h.lt j
    simp only [mm_shuffle_epi8, hlo]
    rw [if_neg (by omega), lut1_eq, h.c1]; omega
  have q2 : ∀ j : Fin 16, mm_shuffle_epi8 lut0 (and_si (srli_epi16 (n := 8) v 4) (set1 15)) j = g (4 * j + 2) := by
    intro j; have := h.lt j
    simp only [mm_shuffle_epi8, hhi]
    rw [if_neg (by omega), lut0_eq, h.c2]
  have q3 : ∀ j : Fin 16, mm_shuffle_epi8 lut1 (and_si (srli_epi16 (n := 8) v 4) (set1 15)) j = g (4 * j + 3) := by
    intro j; have := h.lt j
    simp only [mm_shuffle_epi8, hhi]
    rw [if_neg (by omega), lut1_eq, h.c3]; omega
  have e1 : ∀ k, 4 * (2 * k / 2) + 2 * k % 2 = 4 * k := fun k => by omega
  have e2 : ∀ k, 4 * ((2 * k + 1) / 2) + (2 * k + 1) % 2 = 4 * k + 1 := fun k => by omega
  have e3 : ∀ k, 4 * (2 * k / 2) + 2 + 2 * k % 2 = 4 * k + 2 := fun k => by omega
  have e4 : ∀ k, 4 * ((2 * k + 1) / 2) + 2 + (2 * k + 1) % 2 = 4 * k + 3 := fun k => by omega
  have abl := unpacklo_of (n := 1) (g := fun k => g (4 * (k / 2) + k % 2)) (fun j => (q0 j).trans (by simp only [e1])) (fun j => (q1 j).trans (by simp only [e2]))
  have abh := unpackhi_of (n := 1) (g := fun k => g (4 * (k / 2) + k % 2)) (fun j => (q0 j).trans (by simp only [e1])) (fun j => (q1 j).trans (by simp only [e2]))
  have cdl := unpacklo_of (n := 1) (g := fun k => g (4 * (k / 2) + 2 + k % 2)) (fun j => (q2 j).trans (by simp only [e3])) (fun j => (q3 j).trans (by simp only [e4]))
  have cdh := unpackhi_of (n := 1) (g := fun k => g (4 * (k / 2) + 2 + k % 2)) (fun j => (q2 j).trans (by simp only [e3])) (fun j => (q3 j).trans (by simp only [e4]))
  refine ⟨fun j => ?_, fun j => ?_, fun j => ?_, fun j => ?_, trivial⟩
  · refine mm_unpacklo16_of (g := g) (fun t => (abl t).trans ?_) (fun t => (cdl t).trans ?_) j
    · have := t.isLt; beta_reduce; congr 1; omega
    · have := t.isLt; beta_reduce; congr 1; omega
  · refine mm_unpackhi16_of (g := g) (fun t => (abl t).trans ?_) (fun t => (cdl t).trans ?_) j
    · have := t.isLt; beta_reduce; congr 1; omega
    · have := t.isLt; beta_reduce; congr 1; omega
  · refine (mm_unpacklo16_of (g := fun k => g (32 + k)) (fun t => (abh t).trans ?_) (fun t => (cdh t).trans ?_) j).trans ?_
    · have := t.isLt; beta_reduce; congr 1; omega
    · have := t.isLt; beta_reduce; congr 1; omega
    · beta_reduce; congr 1; omega
  · refine (mm_unpackhi16_of (g := fun k => g (32 + k)) (fun t => (abh t).trans ?_) (fun t => (cdh t).trans ?_) j).trans ?_
    · have := t.isLt; beta_reduce; congr 1; omega
    · have := t.isLt; beta_reduce; congr 1; omega
    · beta_reduce; congr 1; omega

end Verif

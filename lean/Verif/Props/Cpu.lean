import Verif.Model.Cpu
import Verif.Props.Examples
import Mathlib.Tactic.IntervalCases

/-!
# Kernel selection: C31, C46
-/

namespace Verif.Props

/-! ## Specification: which extensions a machine supports (Intel SDM vol. 1, ch. 14/15) -/

/-- The OS saves the YMM state: OSXSAVE, and XCR0 bits 1, 2. -/
def Ymm (c : Cpu) : Prop := c.ecx1.testBit 27 = true ∧ c.xcr0.testBit 1 = true ∧ c.xcr0.testBit 2 = true
/-- The OS saves the ZMM and opmask state as well: XCR0 bits 5, 6, 7. -/
def Zmm (c : Cpu) : Prop := Ymm c ∧ c.xcr0.testBit 5 = true ∧ c.xcr0.testBit 6 = true ∧ c.xcr0.testBit 7 = true

/-- The CPU reports the extension and the OS enables the registers it uses. -/
def Supports (c : Cpu) : Ext → Prop
  | .sse42 => 1 ≤ c.maxLeaf ∧ c.ecx1.testBit 20 = true
  | .avx => 1 ≤ c.maxLeaf ∧ c.ecx1.testBit 28 = true ∧ Ymm c
  | .fma => 1 ≤ c.maxLeaf ∧ c.ecx1.testBit 12 = true ∧ Ymm c
  | .f16c => 1 ≤ c.maxLeaf ∧ c.ecx1.testBit 29 = true ∧ Ymm c
  | .avx2 => 7 ≤ c.maxLeaf ∧ c.ebx7.testBit 5 = true ∧ Ymm c
  | .avx512f => 7 ≤ c.maxLeaf ∧ c.ebx7.testBit 16 = true ∧ Zmm c
  | .avx512bw => 7 ≤ c.maxLeaf ∧ c.ebx7.testBit 30 = true ∧ Zmm c
  | .avx512bf16 => 7 ≤ c.maxLeaf ∧ c.eax71.testBit 5 = true ∧ Zmm c

/-- Registers are 32 bits wide and the highest leaf is a small number, as on every CPU made. -/
def Regs (c : Cpu) : Prop := c.maxLeaf < 2 ^ 31

/-- The implications between feature bits that hold on every x86-64 CPU: AVX implies SSE4.2 (and the
SSE3/SSE4.1 bits), AVX-512F implies AVX2, FMA and F16C; XCR0 cannot have the ZMM bits without the YMM
bits.  AVX-512F does *not* imply AVX-512BW (Xeon Phi). -/
structure Architectural (c : Cpu) : Prop where
  avx : c.ecx1.testBit 28 = true → c.ecx1.testBit 20 = true ∧ c.ecx1.testBit 19 = true ∧ c.ecx1.testBit 0 = true
  avx512 : c.ebx7.testBit 16 = true → c.ebx7.testBit 5 = true ∧ c.ecx1.testBit 12 = true ∧ c.ecx1.testBit 29 = true ∧ c.ecx1.testBit 28 = true
  xcr0 : c.xcr0.testBit 5 = true → c.xcr0.testBit 1 = true ∧ c.xcr0.testBit 2 = true

/-! ## Reading the masks -/

theorem mask_bit {r m : Nat} (h : r &&& m = m) {i : Nat} (hi : m.testBit i = true) : r.testBit i = true := by
  have := congrArg (fun v => v.testBit i) h
  simp only [Nat.testBit_and, hi, Bool.and_true] at this
  exact this

theorem mask_of {r m : Nat} (h : ∀ i, m.testBit i = true → r.testBit i = true) : r &&& m = m := by
  apply Nat.eq_of_testBit_eq
  intro i
  rw [Nat.testBit_and]
  cases hm : m.testBit i
  · simp
  · simp [h i hm]

theorem mask_pow {r i : Nat} : (r &&& 2 ^ i ≠ 0) ↔ r.testBit i = true := by
  constructor
  · intro h
    by_contra hn
    apply h
    apply Nat.eq_of_testBit_eq
    intro j
    rw [Nat.testBit_and, Nat.testBit_two_pow, Nat.zero_testBit]
    by_cases hj : i = j
    · subst hj; simp only [Bool.not_eq_true] at hn; simp [hn]
    · simp [hj]
  · intro h h0
    have := congrArg (fun v => v.testBit i) h0
    simp only [Nat.testBit_and, h, Nat.testBit_two_pow, Nat.zero_testBit] at this
    simp at this

theorem maxLeaf_lt {c : Cpu} (h : Regs c) (k : Nat) : asInt32 c.maxLeaf < (k : Int) ↔ c.maxLeaf < k := by
  unfold Regs at h
  unfold asInt32
  rw [Nat.mod_eq_of_lt (by omega), if_pos h]
  omega

theorem testBit_mask {m i : Nat} (hm : m < 2 ^ 32) (h : m.testBit i = true) : i < 32 := by
  by_contra hc
  rw [Nat.testBit_lt_two_pow (lt_of_lt_of_le hm (Nat.pow_le_pow_right (by norm_num) (by omega)))] at h
  cases h

theorem sse42_iff {c : Cpu} (h : Regs c) : checkSse42 c = true ↔ 1 ≤ c.maxLeaf ∧ c.ecx1.testBit 20 = true := by
  unfold checkSse42
  have := maxLeaf_lt h 1
  push_cast at this
  rw [show (1 <<< 20 : Nat) = 2 ^ 20 by decide]
  by_cases hl : asInt32 c.maxLeaf < 1
  · rw [if_pos hl]; constructor
    · intro h; cases h
    · intro h; omega
  · rw [if_neg hl, bne_iff_ne, mask_pow]
    exact ⟨fun h => ⟨by omega, h⟩, fun h => h.2⟩

theorem avx2_iff {c : Cpu} (h : Regs c) : checkAvx2 c = true ↔ 7 ≤ c.maxLeaf ∧ (c.ecx1.testBit 0 = true ∧ c.ecx1.testBit 12 = true ∧ c.ecx1.testBit 19 = true ∧
    c.ecx1.testBit 27 = true ∧ c.ecx1.testBit 28 = true ∧ c.ecx1.testBit 29 = true) ∧ c.ebx7.testBit 5 = true ∧ c.xcr0.testBit 1 = true ∧ c.xcr0.testBit 2 = true := by
  unfold checkAvx2
  have := maxLeaf_lt h 7
  push_cast at this
  by_cases hl : asInt32 c.maxLeaf < 7
  · rw [if_pos hl]; constructor
    · intro h; cases h
    · intro h; omega
  rw [if_neg hl]
  constructor
  · intro h
    split at h; · cases h
    split at h; · cases h
    rename_i h1 h2
    simp only [bne_iff_ne, ne_eq, not_not] at h1 h2
    have h3 : c.xcr0 &&& 6 = 6 := by simpa using h
    exact ⟨by omega, ⟨mask_bit h1 (by decide), mask_bit h1 (by decide), mask_bit h1 (by decide), mask_bit h1 (by decide), mask_bit h1 (by decide), mask_bit h1 (by decide)⟩,
      mask_bit h2 (by decide), mask_bit h3 (by decide), mask_bit h3 (by decide)⟩
  · rintro ⟨_, ⟨a0, a12, a19, a27, a28, a29⟩, b5, x1, x2⟩
    have h1 : c.ecx1 &&& 0x38081001 = 0x38081001 := mask_of (fun i hi => by
      have := testBit_mask (by norm_num) hi
      interval_cases i <;> first | assumption | (exfalso; revert hi; decide))
    have h2 : c.ebx7 &&& 0x20 = 0x20 := mask_of (fun i hi => by
      have := testBit_mask (by norm_num) hi
      interval_cases i <;> first | assumption | (exfalso; revert hi; decide))
    have h3 : c.xcr0 &&& 6 = 6 := mask_of (fun i hi => by
      have := testBit_mask (by norm_num) hi
      interval_cases i <;> first | assumption | (exfalso; revert hi; decide))
    rw [h1, h2, h3]; decide

theorem avx512f_iff {c : Cpu} (h : Regs c) : checkAvx512f c = true ↔ 7 ≤ c.maxLeaf ∧ c.ecx1.testBit 27 = true ∧ c.ecx1.testBit 28 = true ∧ c.ebx7.testBit 16 = true ∧
    c.xcr0.testBit 5 = true ∧ c.xcr0.testBit 6 = true ∧ c.xcr0.testBit 7 = true := by
  unfold checkAvx512f
  have := maxLeaf_lt h 7
  push_cast at this
  rw [show (0x8000000 : Nat) = 2 ^ 27 by decide, show (0x10000000 : Nat) = 2 ^ 28 by decide, show (0x10000 : Nat) = 2 ^ 16 by decide]
  by_cases hl : asInt32 c.maxLeaf < 7
  · rw [if_pos hl]; constructor
    · intro h; cases h
    · intro h; omega
  rw [if_neg hl]
  constructor
  · intro h
    split at h; · cases h
    split at h; · cases h
    rename_i h1 h2
    simp only [Bool.or_eq_true, beq_iff_eq, not_or] at h1 h2
    have h3 : c.xcr0 &&& 0xe0 = 0xe0 := by simpa using h
    exact ⟨by omega, mask_pow.1 h1.1, mask_pow.1 h1.2, mask_pow.1 h2, mask_bit h3 (by decide), mask_bit h3 (by decide), mask_bit h3 (by decide)⟩
  · rintro ⟨_, a27, a28, b16, x5, x6, x7⟩
    have h3 : c.xcr0 &&& 0xe0 = 0xe0 := mask_of (fun i hi => by
      have := testBit_mask (by norm_num) hi
      interval_cases i <;> first | assumption | (exfalso; revert hi; decide))
    rw [if_neg (by simp only [Bool.or_eq_true, beq_iff_eq, not_or]; exact ⟨mask_pow.2 a27, mask_pow.2 a28⟩),
      if_neg (by simp only [beq_iff_eq]; exact mask_pow.2 b16), h3]
    decide

theorem avx512bf16_iff {c : Cpu} (h : Regs c) : checkAvx512Bf16 c = true ↔ 7 ≤ c.maxLeaf ∧ c.ecx1.testBit 27 = true ∧ c.ecx1.testBit 28 = true ∧ c.ebx7.testBit 16 = true ∧
    c.eax71.testBit 5 = true ∧ c.xcr0.testBit 5 = true ∧ c.xcr0.testBit 6 = true ∧ c.xcr0.testBit 7 = true := by
  unfold checkAvx512Bf16
  have := maxLeaf_lt h 7
  push_cast at this
  rw [show (1 <<< 27 ||| 1 <<< 28 : Nat) = 0x18000000 by decide, show (1 <<< 16 : Nat) = 2 ^ 16 by decide, show (1 <<< 5 : Nat) = 2 ^ 5 by decide]
  by_cases hl : asInt32 c.maxLeaf < 7
  · rw [if_pos hl]; constructor
    · intro h; cases h
    · intro h; omega
  rw [if_neg hl]
  constructor
  · intro h
    split at h; · cases h
    split at h; · cases h
    split at h; · cases h
    rename_i h1 h2 h4
    simp only [bne_iff_ne, ne_eq, not_not, beq_iff_eq] at h1 h2 h4
    have h3 : c.xcr0 &&& 0xe0 = 0xe0 := by simpa using h
    exact ⟨by omega, mask_bit h1 (by decide), mask_bit h1 (by decide), mask_pow.1 h2, mask_pow.1 h4, mask_bit h3 (by decide), mask_bit h3 (by decide), mask_bit h3 (by decide)⟩
  · rintro ⟨_, a27, a28, b16, e5, x5, x6, x7⟩
    have h1 : c.ecx1 &&& 0x18000000 = 0x18000000 := mask_of (fun i hi => by
      have := testBit_mask (by norm_num) hi
      interval_cases i <;> first | assumption | (exfalso; revert hi; decide))
    have h3 : c.xcr0 &&& 0xe0 = 0xe0 := mask_of (fun i hi => by
      have := testBit_mask (by norm_num) hi
      interval_cases i <;> first | assumption | (exfalso; revert hi; decide))
    rw [h1, if_neg (by decide), if_neg (by simp only [beq_iff_eq]; exact mask_pow.2 b16),
      if_neg (by simp only [beq_iff_eq]; exact mask_pow.2 e5), h3]
    decide

/-! ## C31 -/

/-- A Xeon Phi (Knights Landing) style machine: AVX-512F without AVX-512BW, everything enabled. -/
def knl : Cpu := ⟨13, 0x7ffefbff, 0x1c0d23ab, 0, 0xe7, 0⟩

/-- C31 is false of the code: on a machine with AVX-512F but without AVX-512BW the AVX-512 kernels,
which are compiled with AVX-512BW, are selected. -/
theorem C31_false_avx512bw_unchecked :
    Regs knl ∧ Architectural knl ∧ selectIsa knl = .avx512f ∧ Ext.avx512bw ∈ (selectIsa knl).needs ∧ ¬ Supports knl .avx512bw ∧ Supports knl .avx2 := by
  have hs : selectIsa knl = .avx512f := by decide
  refine ⟨by unfold Regs; decide, ⟨by decide, by decide, by decide⟩, hs, by rw [hs]; decide, ?_, ?_⟩
  · rintro ⟨_, h, _⟩; revert h; decide
  · exact ⟨by decide, by decide, by decide, by decide, by decide⟩

/-- C31, what holds: on every machine that obeys the architectural implications, everything the
selected kernels need is supported, with the possible exception of AVX-512BW. -/
theorem C31_selected_supported_partial {c : Cpu} (h : Regs c) (ha : Architectural c) :
    ∀ e ∈ (selectIsa c).needs, e ≠ .avx512bw → Supports c e := by
  have big : 7 ≤ c.maxLeaf → c.ecx1.testBit 27 = true → c.ecx1.testBit 28 = true → c.ebx7.testBit 16 = true → c.xcr0.testBit 5 = true → c.xcr0.testBit 6 = true → c.xcr0.testBit 7 = true →
      ∀ e, e ≠ .avx512bw → e ≠ .avx512bf16 → Supports c e := by
    intro hl a27 a28 b16 x5 x6 x7 e h1 h2
    obtain ⟨b5, a12, a29, _⟩ := ha.avx512 b16
    obtain ⟨x1, x2⟩ := ha.xcr0 x5
    have hy : Ymm c := ⟨a27, x1, x2⟩
    cases e
    · exact ⟨by omega, (ha.avx a28).1⟩
    · exact ⟨by omega, a28, hy⟩
    · exact ⟨hl, b5, hy⟩
    · exact ⟨by omega, a12, hy⟩
    · exact ⟨by omega, a29, hy⟩
    · exact ⟨hl, b16, hy, x5, x6, x7⟩
    · exact absurd rfl h1
    · exact absurd rfl h2
  unfold selectIsa
  split
  · rename_i hc
    obtain ⟨hl, a27, a28, b16, e5, x5, x6, x7⟩ := (avx512bf16_iff h).1 hc
    intro e _ hb
    by_cases hbf : e = .avx512bf16
    · subst hbf
      obtain ⟨x1, x2⟩ := ha.xcr0 x5
      exact ⟨hl, e5, ⟨a27, x1, x2⟩, x5, x6, x7⟩
    · exact big hl a27 a28 b16 x5 x6 x7 e hb hbf
  split
  · rename_i hc
    obtain ⟨hl, a27, a28, b16, x5, x6, x7⟩ := (avx512f_iff h).1 hc
    intro e he hb
    refine big hl a27 a28 b16 x5 x6 x7 e hb ?_
    rintro rfl; revert he; decide
  split
  · rename_i hc
    obtain ⟨hl, ⟨a0, a12, a19, a27, a28, a29⟩, b5, x1, x2⟩ := (avx2_iff h).1 hc
    have hy : Ymm c := ⟨a27, x1, x2⟩
    intro e he _
    simp only [Isa.needs, List.mem_cons, List.not_mem_nil, or_false] at he
    rcases he with rfl | rfl | rfl | rfl | rfl
    · exact ⟨by omega, (ha.avx a28).1⟩
    · exact ⟨by omega, a28, hy⟩
    · exact ⟨hl, b5, hy⟩
    · exact ⟨by omega, a12, hy⟩
    · exact ⟨by omega, a29, hy⟩
  split
  · rename_i hc
    intro e he _
    simp only [Isa.needs, List.mem_cons, List.not_mem_nil, or_false] at he
    subst he
    exact (sse42_iff h).1 hc
  · intro e he; simp [Isa.needs] at he

/-- `C31_selected_supported_partial` applied to a concrete case. -/
example := C31_selected_supported_partial (c := ⟨22, 0x7ffefbff, 0xd39ffffb, 0, 0xe7, 0⟩) (h := by unfold Regs; decide)
    (ha := ⟨by decide, by decide, by decide⟩) (e := .avx512f) (by wit) (by wit)

/-- C31 on machines where AVX-512F comes with AVX-512BW (every AVX-512 CPU but Xeon Phi): everything
the selected kernels need is supported. -/
theorem C31_supported_with_bw_partial {c : Cpu} (h : Regs c) (ha : Architectural c) (hbw : c.ebx7.testBit 16 = true → c.ebx7.testBit 30 = true) :
    ∀ e ∈ (selectIsa c).needs, Supports c e := by
  intro e he
  by_cases hb : e = .avx512bw
  · subst hb
    have h512 : Supports c .avx512f := by
      apply C31_selected_supported_partial h ha _ _ (by decide)
      revert he
      cases selectIsa c <;> decide
    exact ⟨h512.1, hbw h512.2.1, h512.2.2⟩
  · exact C31_selected_supported_partial h ha e he hb

/-- `C31_supported_with_bw_partial` applied to a concrete case. -/
example := C31_supported_with_bw_partial (c := ⟨22, 0x7ffefbff, 0xd39ffffb, 0, 0xe7, 0⟩) (h := by unfold Regs; decide)
    (ha := ⟨by decide, by decide, by decide⟩) (hbw := by wit) (e := .avx512bw) (by wit)

/-- The SSE4.2 and AVX2 kernels are never selected without support, on any machine (no
architectural assumption; AVX2 is checked by its own bits). -/
theorem C31_avx2_selected_only_if_supported {c : Cpu} (h : Regs c) (hs : selectIsa c = .avx2) :
    Supports c .avx ∧ Supports c .avx2 ∧ Supports c .fma ∧ Supports c .f16c := by
  have hc : checkAvx2 c = true := by
    unfold selectIsa at hs
    split at hs; · cases hs
    split at hs; · cases hs
    split at hs
    · assumption
    · split at hs <;> cases hs
  obtain ⟨hl, ⟨a0, a12, a19, a27, a28, a29⟩, b5, x1, x2⟩ := (avx2_iff h).1 hc
  have hy : Ymm c := ⟨a27, x1, x2⟩
  exact ⟨⟨by omega, a28, hy⟩, ⟨hl, b5, hy⟩, ⟨by omega, a12, hy⟩, ⟨by omega, a29, hy⟩⟩

/-- `C31_avx2_selected_only_if_supported` applied to a concrete case. -/
example := C31_avx2_selected_only_if_supported (c := ⟨22, 0x7ffefbff, 0x009c6fbb, 0, 7, 0⟩) (h := by unfold Regs; decide) (hs := by wit)

/-- A Skylake-SP style machine and an old Nehalem. -/
example : selectIsa ⟨22, 0x7ffefbff, 0xd39ffffb, 0, 0xe7, 0⟩ = .avx512f ∧ selectIsa ⟨11, 0x0098e3fd, 0, 0, 0, 0⟩ = .sse42 ∧
    selectIsa ⟨22, 0x7ffefbff, 0x009c6fbb, 0, 7, 0⟩ = .avx2 ∧ selectIsa ⟨32, 0x7ffefbff, 0xf1bf07ab, 0x30, 0xe7, 0⟩ = .avx512bf16 := by decide
example : Regs ⟨22, 0x7ffefbff, 0xd39ffffb, 0, 0xe7, 0⟩ ∧ Architectural ⟨22, 0x7ffefbff, 0xd39ffffb, 0, 0xe7, 0⟩ :=
  ⟨by unfold Regs; decide, by decide, by decide, by decide⟩

/-! ## C46 -/

/-- Order of preference of the x86 kernels. -/
def rank : Isa → Nat
  | .portable | .neon => 0 | .sse42 => 1 | .avx2 => 2 | .avx512f => 3 | .avx512bf16 => 4

/-- C46. A machine that supports everything a kernel set needs gets that kernel set or a better
one. -/
theorem C46_best_supported_selected {c : Cpu} (h : Regs c) (ha : Architectural c) {isa : Isa} (hs : ∀ e ∈ isa.needs, Supports c e) :
    rank isa ≤ rank (selectIsa c) := by
  have l4 : ∀ i, rank i ≤ 4 := by intro i; cases i <;> decide
  unfold selectIsa
  by_cases c4 : checkAvx512Bf16 c = true
  · rw [if_pos c4]; exact l4 _
  rw [if_neg c4]
  have n4 : isa ≠ .avx512bf16 := by
    rintro rfl
    obtain ⟨_, b, hz⟩ := hs .avx512bf16 (by decide)
    obtain ⟨hl, f, _⟩ := hs .avx512f (by decide)
    obtain ⟨_, a28, _⟩ := hs .avx (by decide)
    exact c4 ((avx512bf16_iff h).2 ⟨hl, hz.1.1, a28, f, b, hz.2⟩)
  by_cases c3 : checkAvx512f c = true
  · rw [if_pos c3]; cases isa <;> first | decide | exact absurd rfl n4
  rw [if_neg c3]
  have n3 : isa ≠ .avx512f := by
    rintro rfl
    obtain ⟨hl, f, hz⟩ := hs .avx512f (by decide)
    obtain ⟨_, a28, _⟩ := hs .avx (by decide)
    exact c3 ((avx512f_iff h).2 ⟨hl, hz.1.1, a28, f, hz.2⟩)
  by_cases c2 : checkAvx2 c = true
  · rw [if_pos c2]; cases isa <;> first | decide | exact absurd rfl n4 | exact absurd rfl n3
  rw [if_neg c2]
  have n2 : isa ≠ .avx2 := by
    rintro rfl
    obtain ⟨_, a28, hy⟩ := hs .avx (by decide)
    obtain ⟨hl, b5, _⟩ := hs .avx2 (by decide)
    obtain ⟨_, a12, _⟩ := hs .fma (by decide)
    obtain ⟨_, a29, _⟩ := hs .f16c (by decide)
    obtain ⟨a20, a19, a0⟩ := ha.avx a28
    exact c2 ((avx2_iff h).2 ⟨hl, ⟨a0, a12, a19, hy.1, a28, a29⟩, b5, hy.2⟩)
  by_cases c1 : checkSse42 c = true
  · rw [if_pos c1]; cases isa <;> first | decide | exact absurd rfl n4 | exact absurd rfl n3 | exact absurd rfl n2
  rw [if_neg c1]
  have n1 : isa ≠ .sse42 := by
    rintro rfl
    exact c1 ((sse42_iff h).2 (hs .sse42 (by decide)))
  cases isa <;> first | decide | exact absurd rfl n4 | exact absurd rfl n3 | exact absurd rfl n2 | exact absurd rfl n1

/-- `C46_best_supported_selected` applied to a concrete case. -/
example := C46_best_supported_selected (c := ⟨22, 0x7ffefbff, 0x009c6fbb, 0, 7, 0⟩) (h := by unfold Regs; decide)
    (ha := ⟨by decide, by decide, by decide⟩) (isa := .avx2)
    (hs := C31_supported_with_bw_partial (c := ⟨22, 0x7ffefbff, 0x009c6fbb, 0, 7, 0⟩) (by unfold Regs; decide) ⟨by decide, by decide, by decide⟩ (fun h => absurd h (by decide)))

end Verif.Props

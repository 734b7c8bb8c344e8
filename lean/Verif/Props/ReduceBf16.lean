import Verif.Props.Reduce
import Verif.Props.Bf16Trip
import Verif.Props.IeeeFused

/-!
# bfloat16 accumulators: C101

dequantize(ADD) into a bf16 buffer: the kernels round differently (the portable ones round the value to bf16 before the
addition, the AVX-512 ones do not, and may flush a denormal sum), but the error has one bound on all of them.
-/

namespace Verif.Props
open Spec

variable {c : Ctx} {x : InBuf} {dt : DType} {n o out : Nat} {s : F32} {z : ℤ} {m0 : Mem}

/-- Rounding a sum to float32 and then to bf16 (or flushing it). -/
theorem word_sum {S : F32} {u t δ : ℚ} {w : Nat} (eS : S.toRat = flr f32 u) (hu : |u - t| ≤ δ) (hb : |t| + δ ≤ 2 ^ 126) (hw16 : w < 65536)
    (hw : IsBf16Of S w ∨ (|S.toRat| < 1 / 2 ^ 126 ∧ w % 32768 = 0)) :
    (Flt.ofBits f32 (65536 * w)).isFin = true ∧
    |(Flt.ofBits f32 (65536 * w)).toRat - t| ≤ δ + (|t| + δ) * (1 / 2 ^ 8 + 1 / 2 ^ 15) + 1 / 2 ^ 125 := by
  have hut : |u| ≤ |t| + δ := by
    have := abs_add_le (u - t) t
    rw [sub_add_cancel] at this
    linarith
  have h127 : |u| ≤ 2 ^ 127 := hut.trans (hb.trans (by norm_num))
  obtain ⟨f1, f2⟩ := flr_sum h127
  rw [← eS] at f1 f2
  have hSf : S.isFin = true := isFin_of_abs f2
  have hSu : |S.toRat| ≤ |u| * (1 + 1 / 2 ^ 24) + 1 / 2 ^ 150 := by
    have := abs_add_le (S.toRat - u) u
    rw [sub_add_cancel] at this
    have e : |u| * (1 + 1 / 2 ^ 24) = |u| + |u| / 2 ^ 24 := by ring
    linarith
  have key : (Flt.ofBits f32 (65536 * w)).isFin = true ∧ |(Flt.ofBits f32 (65536 * w)).toRat - S.toRat| ≤ |S.toRat| / 2 ^ 8 + 1 / 2 ^ 126 := by
    rcases hw with hw | ⟨hw1, hw2⟩
    · have hS127 : |S.toRat| ≤ 2 ^ 127 := by
        have : |u| * (1 + 1 / 2 ^ 24) ≤ 2 ^ 126 * (1 + 1 / 2 ^ 24) := mul_le_mul_of_nonneg_right (hut.trans hb) (by norm_num)
        have e : (2:ℚ) ^ 126 * (1 + 1 / 2 ^ 24) + 1 / 2 ^ 150 ≤ 2 ^ 127 := by norm_num
        linarith
      obtain ⟨g1, g2⟩ := isBf16_value hSf hS127 hw
      refine ⟨g1, ?_⟩
      rw [g2]
      have hfl : fl bf16 |S.toRat| < 2 ^ bf16.emax := fl_fin (abs_nonneg _) (by rw [emax_bf16]; exact hS127)
      refine (flr_err hfl).trans (max_le ?_ ?_)
      · rw [unit_bf16]
        have : 0 ≤ |S.toRat| / 2 ^ 8 := by positivity
        have e : (1:ℚ) / 2 ^ (133 + 1) ≤ 1 / 2 ^ 126 := by norm_num
        linarith
      · show |S.toRat| / 2 ^ 8 ≤ _
        have : (0:ℚ) ≤ 1 / 2 ^ 126 := by positivity
        linarith
    · obtain ⟨g1, g2⟩ := word_zero hw16 hw2
      refine ⟨g1, ?_⟩
      rw [g2, zero_sub, abs_neg]
      have : 0 ≤ |S.toRat| / 2 ^ 8 := by positivity
      linarith
  refine ⟨key.1, ?_⟩
  have a1 := abs_add_le ((Flt.ofBits f32 (65536 * w)).toRat - S.toRat) (S.toRat - u)
  rw [sub_add_sub_cancel] at a1
  have a2 := abs_add_le ((Flt.ofBits f32 (65536 * w)).toRat - u) (u - t)
  rw [sub_add_sub_cancel] at a2
  have a3 : |S.toRat| / 2 ^ 8 ≤ (|u| * (1 + 1 / 2 ^ 24) + 1 / 2 ^ 150) / 2 ^ 8 := div_le_div_of_nonneg_right hSu (by positivity)
  have a4 : (|u| * (1 + 1 / 2 ^ 24) + 1 / 2 ^ 150) / 2 ^ 8 + |u| / 2 ^ 24 ≤ |u| * (1 / 2 ^ 8 + 1 / 2 ^ 15) + 1 / 2 ^ 158 := by
    have e : (|u| * (1 + 1 / 2 ^ 24) + 1 / 2 ^ 150) / 2 ^ 8 + |u| / 2 ^ 24 = |u| * ((1 + 1 / 2 ^ 24) / 2 ^ 8 + 1 / 2 ^ 24) + 1 / 2 ^ 150 / 2 ^ 8 := by ring
    rw [e]
    have : |u| * ((1 + 1 / 2 ^ 24) / 2 ^ 8 + 1 / 2 ^ 24) ≤ |u| * (1 / 2 ^ 8 + 1 / 2 ^ 15) := mul_le_mul_of_nonneg_left (by norm_num) (abs_nonneg _)
    have e2 : (1:ℚ) / 2 ^ 150 / 2 ^ 8 = 1 / 2 ^ 158 := by norm_num
    linarith
  have a5 : |u| * (1 / 2 ^ 8 + 1 / 2 ^ 15) ≤ (|t| + δ) * (1 / 2 ^ 8 + 1 / 2 ^ 15) := mul_le_mul_of_nonneg_right hut (by norm_num)
  have a6 : (1:ℚ) / 2 ^ 158 + 1 / 2 ^ 150 + 1 / 2 ^ 126 ≤ 1 / 2 ^ 125 := by norm_num
  linarith [key.2]

/-- C101, one addition: on every kernel, thread count and schedule, element `i` of a bf16 accumulator ends within
`17/16 * 2^-8 * (|old + (q - zp) s| + max(|q - zp|, 1) s)` of `old + (q - zp) s`. -/
theorem C101_add_bf16_error (h : DArgs c.threads x dt .bf16 n) (hz : 0 ≤ z ∧ z ≤ 2 ^ dt.bits - 1) (h1 : 1 / 2 ^ 110 ≤ s.toRat) (h2 : s.toRat ≤ 2 ^ 116)
    (ho : ∀ i, i < n → (bf16At m0 (o + 2 * i)).isFin = true ∧ |(bf16At m0 (o + 2 * i)).toRat| ≤ 2 ^ 125) :
    Always NoFault (dequantize c x (bytes dt.bits n) dt o (2 * n) .bf16 s z .add) (span o (2 * n)) m0 (fun m =>
      ∀ i, i < n → (bf16At m (o + 2 * i)).isFin = true ∧
        |(bf16At m (o + 2 * i)).toRat - ((bf16At m0 (o + 2 * i)).toRat + (((code dt.bits x.data 0 i : ℤ) - z : ℤ) : ℚ) * s.toRat)| ≤
          17 / 16 / 2 ^ 8 * (|(bf16At m0 (o + 2 * i)).toRat + (((code dt.bits x.data 0 i : ℤ) - z : ℤ) : ℚ) * s.toRat| +
            max |(((code dt.bits x.data 0 i : ℤ) - z : ℤ) : ℚ)| 1 * s.toRat)) := by
  have hs : 0 < s.toRat := lt_of_lt_of_le (by positivity) h1
  have hsf : s.isFin = true := isFin_of_abs (by
    rw [abs_of_pos hs, emax_f32]; exact lt_of_le_of_lt h2 (by norm_num))
  have h1' : 1 / 2 ^ 126 ≤ s.toRat := le_trans (by norm_num) h1
  have h15' : 1 / 2 ^ 125 ≤ s.toRat := le_trans (by norm_num) h1
  have h2' : s.toRat ≤ 2 ^ 119 := h2.trans (by norm_num)
  have h2'' : s.toRat ≤ 2 ^ 118 := h2.trans (by norm_num)
  have hb := codeBound h.inQuant
  have hzs : ZpSub z := by unfold ZpSub; norm_num; omega
  refine (C10_add_bf16 h hzs (fun _ => by rw [abs_of_nonneg hz.1]; norm_num; omega)).mono (fun _ h => h) (fun m hm i hi => ?_)
  have hc := code_lt256 h.inQuant x.data 0 i
  have hc2 := code_le (dt := dt) x.data 0 i
  have hk : |(code dt.bits x.data 0 i : ℤ) - z| ≤ 255 := by rw [abs_le]; omega
  obtain ⟨o1, o2⟩ := ho i hi
  have hq15 : dt ≠ .uint8 → code dt.bits x.data 0 i ≤ 15 ∧ z ≤ 15 := fun h8 => by
    have hQ : dt.bits ≤ 4 := by
      have := h.inQuant
      cases dt <;> simp [DType.isQuant, DType.bits] at *
    have hp : 2 ^ dt.bits ≤ 2 ^ 4 := Nat.pow_le_pow_right (by norm_num) hQ
    have hp' : (2:ℤ) ^ dt.bits ≤ 16 := by exact_mod_cast hp
    exact ⟨by norm_num at hp; omega, by omega⟩
  have hm' := hm i hi
  have hwlt := u16At_lt m (o + 2 * i)
  show (Flt.ofBits f32 (65536 * u16At m (o + 2 * i))).isFin = true ∧ |(Flt.ofBits f32 (65536 * u16At m (o + 2 * i))).toRat - _| ≤ _
  generalize u16At m (o + 2 * i) = w at *
  generalize bf16At m0 (o + 2 * i) = old at *
  generalize code dt.bits x.data 0 i = q at *
  set k : ℤ := (q:ℤ) - z with hkd
  have hk' : |(k:ℚ)| ≤ 255 := by exact_mod_cast hk
  set M : ℚ := max |(k:ℚ)| 1 with hM
  have hM1 : 1 ≤ M := le_max_right _ _
  have hM2 : M ≤ 255 := max_le hk' (by norm_num)
  set δ := s.toRat * (M / 2 ^ 8 + 1 / 2 ^ 14) with hδ
  have hMs : s.toRat ≤ M * s.toRat := le_mul_of_one_le_left hs.le hM1
  have hδ' : δ = M * s.toRat / 2 ^ 8 + s.toRat / 2 ^ 14 := by rw [hδ]; ring
  have hδ15 : s.toRat / 2 ^ 15 ≤ δ := by
    rw [hδ']
    have : 0 ≤ M * s.toRat / 2 ^ 8 := by positivity
    have e : s.toRat / 2 ^ 15 ≤ s.toRat / 2 ^ 14 := by norm_num; linarith
    linarith
  have hks : |(k:ℚ) * s.toRat| ≤ 2 ^ 124 := by
    rw [abs_mul, abs_of_pos hs]
    calc |(k:ℚ)| * s.toRat ≤ 255 * 2 ^ 116 := mul_le_mul hk' h2 hs.le (by norm_num)
      _ ≤ _ := by norm_num
  have hδb : δ ≤ 2 ^ 124 := by
    have : M * s.toRat ≤ 255 * 2 ^ 116 := mul_le_mul hM2 h2 hs.le (by norm_num)
    rw [hδ']
    norm_num at this h2 ⊢; linarith
  have hsum : |old.toRat + k * s.toRat| + δ ≤ 2 ^ 126 := by
    have := abs_add_le old.toRat (k * s.toRat)
    have e : (2:ℚ) ^ 126 = 2 ^ 125 + 2 ^ 124 + 2 ^ 124 := by norm_num
    linarith
  -- in every case the word is the rounding of a sum whose addend is within `δ` of `k s`
  have key : ∃ (S : F32) (v : ℚ), S.toRat = flr f32 (old.toRat + v) ∧ |v - k * s.toRat| ≤ δ ∧ (IsBf16Of S w ∨ (|S.toRat| < 1 / 2 ^ 126 ∧ w % 32768 = 0)) := by
    rcases hm' with ⟨d, hd, hw⟩ | ⟨_, S, hS, hw⟩
    · obtain ⟨g1, g2⟩ := dequant_near hk hsf h1' h2'
      have g2' : |(Flt.mul (Flt.ofInt f32 k) s).toRat - k * s.toRat| ≤ s.toRat / 2 ^ 15 := g2.trans (by
        rw [div_le_div_iff₀ (by positivity) (by positivity)]; norm_num; linarith)
      have hd16 : d < 65536 := by
        have : Flt.isNaN (dequant s z q) ≠ true := by
          have g : (dequant s z q).isFin = true := g1
          have : (dequant s z q).mag < f32.infMag := by simpa [Flt.isFin] using g
          unfold Flt.isNaN; simp; omega
        unfold IsBf16Of at hd
        rw [if_neg this] at hd
        rw [hd]
        have hv : (Flt.cvt bf16 (dequant s z q)).mag < 32768 := by rw [← magLim_bf16]; exact valid_cvt16 _
        unfold Flt.toBits; rw [magLim_bf16]; split <;> omega
      obtain ⟨a1, a2⟩ := word_near hk h15' h2'' g1 g2' hd16 (Or.inl hd)
      exact ⟨_, _, add_toRat o1 a1, a2, Or.inl hw⟩
    · have hw' : IsBf16Of S w ∨ (|S.toRat| < 1 / 2 ^ 126 ∧ w % 32768 = 0) := hw.imp id (fun h => h.2)
      rcases hS with ⟨h8, hS⟩ | ⟨h8, hS⟩
      · generalize c.fuse.vec = b at hS
        cases b
        · obtain ⟨g1, g2⟩ := dequant_near hk hsf h1' h2'
          refine ⟨S, (Flt.mul (Flt.ofInt f32 k) s).toRat, ?_, g2.trans (le_trans ?_ hδ15), hw'⟩
          · rw [hS]; exact add_toRat o1 g1
          · rw [div_le_div_iff₀ (by positivity) (by positivity)]; norm_num; linarith
        · obtain ⟨e1, g1⟩ := ofInt_exact (f := f32) (z := k) (hk.trans (by norm_num [f32]))
          refine ⟨S, k * s.toRat, ?_, by rw [sub_self, abs_zero]; exact le_trans (by positivity) hδ15, hw'⟩
          rw [hS]
          show (Flt.fma (Flt.ofInt f32 k) s old).toRat = _
          rw [fma_toRat g1 hsf o1, e1, add_comm]
      · obtain ⟨q1, z1⟩ := hq15 h8
        obtain ⟨g1, g2⟩ := fmaDequant_near16 q1 ⟨hz.1, z1⟩ hsf h1' h2'
        refine ⟨S, (fmaDequant s z q).toRat, ?_, g2.trans hδ15, hw'⟩
        rw [hS, add_toRat g1 o1, add_comm]
  obtain ⟨S, v, eS, hv, hw⟩ := key
  have hu : |old.toRat + v - (old.toRat + k * s.toRat)| ≤ δ := by rw [add_sub_add_left_eq_sub]; exact hv
  obtain ⟨r1, r2⟩ := word_sum eS hu hsum hwlt hw
  refine ⟨r1, r2.trans ?_⟩
  have hmin : (1:ℚ) / 2 ^ 125 ≤ s.toRat / 2 ^ 15 := by
    rw [le_div_iff₀ (by positivity)]
    calc (1:ℚ) / 2 ^ 125 * 2 ^ 15 = 1 / 2 ^ 110 := by norm_num
      _ ≤ _ := h1
  have ha := abs_nonneg (old.toRat + k * s.toRat)
  generalize |old.toRat + k * s.toRat| = t at *
  generalize M * s.toRat = P at *
  rw [hδ']
  generalize s.toRat = σ at *
  clear_value δ
  norm_num at hmin ⊢
  linarith

/-- `C101_add_bf16_error` applied to a concrete case. -/
example := C101_add_bf16_error (c := Ex.c1) (x := Ex.codes) (dt := .uint4) (n := 139) (o := 1000) (s := Ex.tenth) (z := 7) (m0 := Ex.old) (h := by wit) (by wit)
  (by decide +kernel) (by decide +kernel) (by decide +kernel)

/-- After every schedule of each peer's quantize call and of the receiver's dequantize(ADD) call into its bf16 accumulator,
one peer after the other: `Q` holds of the receiver's final memory. -/
def ReduceBf16 (n out : Nat) : List Peer → Mem → (Mem → Prop) → Prop
  | [], m, Q => Q m
  | p :: l, m, Q =>
    Always NoFault (quantize p.c p.x p.ft.dtype p.o (bytes p.dt.bits n) p.dt p.s p.z p.mode p.τ) (span p.o (bytes p.dt.bits n)) p.mem (fun mq =>
      Always NoFault (dequantize p.c' ⟨p.sz, fun a => mq (p.o + a)⟩ (bytes p.dt.bits n) p.dt out (2 * n) .bf16 p.s p.z .add) (span out (2 * n)) m
        (fun m' => ReduceBf16 n out l m' Q))

/-- A legal contribution of `n` finite elements. -/
structure Peer.Ok16 (p : Peer) (n : Nat) : Prop where
  args : QArgs p.c.threads p.x p.ft.dtype p.dt n
  recv : Sizes n p.c'.threads
  fin : AllFin p.ft p.x n
  lo : 1 / 2 ^ 110 ≤ p.s.toRat
  hi : p.s.toRat ≤ 2 ^ 116
  thr : Threshold p.mode p.τ
  suits : Suits p n
  size : bytes p.dt.bits n ≤ p.sz

theorem ReduceBf16.mono {l : List Peer} : ∀ {m : Mem} {Q Q' : Mem → Prop}, (∀ m, Q m → Q' m) → ReduceBf16 n out l m Q → ReduceBf16 n out l m Q' := by
  induction l with
  | nil => intro m Q Q' hQ h; exact hQ _ h
  | cons p l ih =>
    intro m Q Q' hQ h
    exact Always.mono h (fun _ h => h) (fun mq hq => Always.mono hq (fun _ h => h) (fun m' hm' => ih hQ hm'))

theorem Peer.Ok16.covered {p : Peer} (h : p.Ok16 n) : ∃ A B, Covered p.ft p.x n p.dt p.s p.z A B := by
  rcases h.suits with ⟨hz, hr⟩ | ⟨isa, blocks, lo, hi, a, b, c, d, e, f, g⟩
  · exact ⟨_, _, covered_inRange hz (lt_of_lt_of_le (by positivity) h.lo) hr⟩
  · exact covered_computed a b h.fin c d ⟨e, f⟩ g (le_trans (by norm_num) h.lo) (h.hi.trans (by norm_num))

/-- One step in rationals: the accumulator `a` is `d`-close to `t`, the code `k` is `e`-close to the contribution `v`. -/
theorem bf16_step {a t v ks s E D B r M : ℚ} (hE : s ≤ 2 * E) (ha : |a - t| ≤ D) (hk : |ks - v| ≤ E) (hM : M ≤ |ks| + s)
    (hv : |v| ≤ B) (hB : |t + v| ≤ B) (hr : |r - (a + ks)| ≤ 17 / 16 / 2 ^ 8 * (|a + ks| + M)) :
    |r - (t + v)| ≤ (1 + 17 / 1024) * (D + E) + 17 / 2048 * B := by
  have e1 : a + ks - (t + v) = (a - t) + (ks - v) := by ring
  have h1 : |a + ks - (t + v)| ≤ D + E := by rw [e1]; exact (abs_add_le _ _).trans (by linarith)
  have h2 : |a + ks| ≤ B + (D + E) := by
    have := abs_add_le (a + ks - (t + v)) (t + v)
    rw [sub_add_cancel] at this; linarith
  have h3 : |ks| ≤ B + E := by
    have := abs_add_le (ks - v) v
    rw [sub_add_cancel] at this; linarith
  have h4 := abs_add_le (r - (a + ks)) (a + ks - (t + v))
  rw [sub_add_sub_cancel] at h4
  have h5 : 17 / 16 / 2 ^ 8 * (|a + ks| + M) ≤ 17 / 16 / 2 ^ 8 * (2 * B + D + 4 * E) := mul_le_mul_of_nonneg_left (by linarith) (by norm_num)
  have hD : 0 ≤ D := (abs_nonneg _).trans ha
  norm_num at h5 hr ⊢
  linarith

/-- One contribution added to a bf16 accumulator. -/
theorem peer_step16 {p : Peer} {T : Nat → ℚ} {D B : ℚ} (h : p.Ok16 n) (hA : ∀ i, i < n → (bf16At m0 (out + 2 * i)).isFin = true ∧ |(bf16At m0 (out + 2 * i)).toRat - T i| ≤ D)
    (hB : ∀ i, i < n → |T i| + |p.val i| ≤ B) (hb : B + D ≤ 2 ^ 125) {Q : Mem → Prop}
    (hQ : ∀ m, (∀ i, i < n → (bf16At m (out + 2 * i)).isFin = true ∧
      |(bf16At m (out + 2 * i)).toRat - (T i + p.val i)| ≤ (1 + 17 / 1024) * (D + p.err) + 17 / 2048 * B) → Q m) :
    Always NoFault (quantize p.c p.x p.ft.dtype p.o (bytes p.dt.bits n) p.dt p.s p.z p.mode p.τ) (span p.o (bytes p.dt.bits n)) p.mem (fun mq =>
      Always NoFault (dequantize p.c' ⟨p.sz, fun a => mq (p.o + a)⟩ (bytes p.dt.bits n) p.dt out (2 * n) .bf16 p.s p.z .add) (span out (2 * n)) m0 Q) := by
  have hdt := h.args.outQuant
  have hQ' := qmax_bounds hdt
  obtain ⟨A, B', hc⟩ := h.covered
  have hzp := hc.zp
  have hs : 0 < p.s.toRat := lt_of_lt_of_le (by positivity) h.lo
  refine (codes_near hc h.args h.fin (le_trans (by norm_num) h.lo) (h.hi.trans (by norm_num)) h.thr).mono (fun _ h => h) (fun mq hq => ?_)
  refine (C101_add_bf16_error (c := p.c') (x := ⟨p.sz, fun a => mq (p.o + a)⟩) (o := out) (m0 := m0) ⟨hdt, rfl, h.size, h.recv⟩ hzp h.lo h.hi (fun i hi => ⟨(hA i hi).1, ?_⟩)).mono (fun _ h => h)
    (fun m hm => hQ m (fun i hi => ?_))
  · have h1 := (hA i hi).2
    have h2 := hB i hi
    have h3 := abs_add_le ((bf16At m0 (out + 2 * i)).toRat - T i) (T i)
    rw [sub_add_cancel] at h3
    linarith [abs_nonneg (p.val i)]
  · obtain ⟨b, e⟩ := hm i hi
    refine ⟨b, ?_⟩
    have ec : code p.dt.bits (fun a => mq (p.o + a)) 0 i = code p.dt.bits mq p.o i := code_shift _ _ _ _
    rw [show (InBuf.data ⟨p.sz, fun a => mq (p.o + a)⟩) = fun a => mq (p.o + a) from rfl, ec] at e
    obtain ⟨k1, k2⟩ := hq i hi
    generalize ((code p.dt.bits mq p.o i : ℤ) - p.z : ℤ) = k at *
    have hx : p.s.toRat * (p.val i / p.s.toRat) = p.val i := by field_simp
    have hk : |(k:ℚ) * p.s.toRat - p.val i| ≤ p.err := by
      have h1 : (k:ℚ) * p.s.toRat - p.val i = p.s.toRat * ((k:ℚ) - p.val i / p.s.toRat) := by rw [mul_sub, hx]; ring
      rw [h1, abs_mul, abs_of_pos hs]
      refine mul_le_mul_of_nonneg_left (le_trans k2 ?_) hs.le
      have : (1:ℚ) / 2 ^ 13 + 1 / 2 ^ 25 ≤ 1 / 2 ^ 12 := by norm_num
      linarith
    have ht := half_le_tol (mode := p.mode)
    refine bf16_step (s := p.s.toRat) (E := p.err) ?_ (hA i hi).2 hk ?_ ?_ ?_ e
    · unfold Peer.err
      have : p.s.toRat * (1 / 2) ≤ p.s.toRat * (tol p.mode + 1 / 2 ^ 12) := mul_le_mul_of_nonneg_left (by
        have : (0:ℚ) ≤ 1 / 2 ^ 12 := by positivity
        linarith) hs.le
      linarith
    · rw [abs_mul, abs_of_pos hs]
      have : max |(k:ℚ)| 1 ≤ |(k:ℚ)| + 1 := max_le (by linarith) (by linarith [abs_nonneg (k:ℚ)])
      calc max |(k:ℚ)| 1 * p.s.toRat ≤ (|(k:ℚ)| + 1) * p.s.toRat := mul_le_mul_of_nonneg_right this hs.le
        _ = _ := by ring
    · linarith [hB i hi, abs_nonneg (T i)]
    · linarith [hB i hi, abs_add_le (T i) (p.val i)]

/-- Induction over the peers: `T` is the true sum so far, `D` the error so far. -/
theorem reduce16_core (peers : List Peer) {B : ℚ} : ∀ {m0 : Mem} {T : Nat → ℚ} {D : ℚ}, (∀ p ∈ peers, p.Ok16 n) → 0 ≤ D →
    (∀ i, i < n → (bf16At m0 (out + 2 * i)).isFin = true ∧ |(bf16At m0 (out + 2 * i)).toRat - T i| ≤ D) →
    0 ≤ B → (∀ i, i < n → |T i| + (peers.map (fun p => |p.val i|)).sum ≤ B) →
    B + (1 + 17 / 1024) ^ peers.length * (D + ((peers.map Peer.err).sum + peers.length * (17 / 2048 * B))) ≤ 2 ^ 125 →
    ReduceBf16 n out peers m0 (fun m => ∀ i, i < n → (bf16At m (out + 2 * i)).isFin = true ∧
      |(bf16At m (out + 2 * i)).toRat - (T i + (peers.map (fun p => p.val i)).sum)| ≤
        (1 + 17 / 1024) ^ peers.length * (D + ((peers.map Peer.err).sum + peers.length * (17 / 2048 * B)))) := by
  induction peers with
  | nil =>
    intro m0 T D _ _ hA _ _ _ i hi
    simpa using hA i hi
  | cons p l ih =>
    intro m0 T D h hD hA hB0 hB hM
    have hp := h p List.mem_cons_self
    have hl : ∀ q ∈ l, q.Ok16 n := fun q hq => h q (List.mem_cons_of_mem _ hq)
    have herr : ∀ q : Peer, q.Ok16 n → 0 ≤ q.err := fun q hq => by
      have h1 : 0 < q.s.toRat := lt_of_lt_of_le (by positivity) hq.lo
      have h2 := half_le_tol (mode := q.mode)
      unfold Peer.err
      exact mul_nonneg h1.le (by have : (0:ℚ) ≤ 1 / 2 ^ 12 := by positivity
                                 linarith)
    have hE := herr p hp
    have hS : 0 ≤ (l.map Peer.err).sum := List.sum_nonneg (fun v hv => by
      obtain ⟨q, hq, rfl⟩ := List.mem_map.mp hv
      exact herr q (hl q hq))
    have hη : 0 ≤ 17 / 2048 * B := by positivity
    simp only [List.map_cons, List.sum_cons, List.length_cons, Nat.cast_add, Nat.cast_one] at hM hB ⊢
    set E := p.err
    set S := (l.map Peer.err).sum
    set N : ℚ := (l.length : ℚ) with hN
    have hN0 : 0 ≤ N := by rw [hN]; positivity
    set η := 17 / 2048 * B with hηdef
    set D1 := (1 + 17 / 1024) * (D + E) + η with hD1
    have hD10 : 0 ≤ D1 := add_nonneg (mul_nonneg (by norm_num) (by linarith)) hη
    have hP : 1 ≤ (1 + 17 / 1024 : ℚ) ^ l.length := one_le_pow₀ (by norm_num)
    have hNη : 0 ≤ N * η := mul_nonneg hN0 hη
    have hstep : D1 + (S + N * η) ≤ (1 + 17 / 1024) * (D + (E + S + (N + 1) * η)) := by
      have : (1 + 17 / 1024) * (D + (E + S + (N + 1) * η)) - (D1 + (S + N * η)) = 17 / 1024 * (S + N * η + η) := by
        rw [hD1]; ring
      have h2 : 0 ≤ (17 / 1024 : ℚ) * (S + N * η + η) := mul_nonneg (by norm_num) (by linarith)
      linarith
    have hmono : (1 + 17 / 1024 : ℚ) ^ l.length * (D1 + (S + N * η)) ≤ (1 + 17 / 1024) ^ (l.length + 1) * (D + (E + S + (N + 1) * η)) := by
      rw [pow_succ (1 + 17 / 1024 : ℚ) l.length, mul_assoc]
      exact mul_le_mul_of_nonneg_left hstep (by linarith)
    have hDE : D ≤ (1 + 17 / 1024) ^ (l.length + 1) * (D + (E + S + (N + 1) * η)) := by
      have h1 : D ≤ D1 + (S + N * η) := by
        have : D1 = D + E + 17 / 1024 * (D + E) + η := by rw [hD1]; ring
        have h2 : 0 ≤ (17 / 1024 : ℚ) * (D + E) := mul_nonneg (by norm_num) (by linarith)
        linarith
      refine (h1.trans ?_).trans hmono
      exact le_mul_of_one_le_left (by linarith) hP
    have hsum : ∀ i, 0 ≤ (l.map (fun p => |p.val i|)).sum := fun i => List.sum_nonneg (fun v hv => by
        obtain ⟨q, _, rfl⟩ := List.mem_map.mp hv
        exact abs_nonneg _)
    refine peer_step16 (T := T) (D := D) (B := B) hp hA (fun i hi => ?_) (by linarith) (fun m hm => ?_)
    · linarith [hB i hi, hsum i]
    · refine ReduceBf16.mono ?_ (ih (m0 := m) (T := fun i => T i + p.val i) (D := D1) hl hD10 hm hB0 (fun i hi => ?_) (by linarith))
      · intro m' hm' i hi
        refine ⟨(hm' i hi).1, ?_⟩
        have := (hm' i hi).2
        rw [add_assoc] at this
        exact this.trans hmono
      · have h1 := hB i hi
        have h4 := abs_add_le (T i) (p.val i)
        show |T i + p.val i| + _ ≤ B
        linarith

/-- C101, whole reduction: any number of peers, each with its own tensor, type, parameters (chosen or computed), rounding
mode and contexts, summed into a bf16 accumulator: every element ends finite and within the sum of the peers' quantization
errors plus `N` times `17/2048` of `B` (at most `B` is the sum of the magnitudes), inflated by `(1 + 17/1024)^N`, of the true
sum. -/
theorem C101_reduction_bf16 (peers : List Peer) (h : ∀ p ∈ peers, p.Ok16 n) {B : ℚ} (hB0 : 0 ≤ B)
    (hfin : ∀ i, i < n → (bf16At m0 (out + 2 * i)).isFin = true)
    (hB : ∀ i, i < n → |(bf16At m0 (out + 2 * i)).toRat| + (peers.map (fun p => |p.val i|)).sum ≤ B)
    (hM : B + (1 + 17 / 1024) ^ peers.length * ((peers.map Peer.err).sum + peers.length * (17 / 2048 * B)) ≤ 2 ^ 125) :
    ReduceBf16 n out peers m0 (fun m => ∀ i, i < n → (bf16At m (out + 2 * i)).isFin = true ∧
      |(bf16At m (out + 2 * i)).toRat - ((bf16At m0 (out + 2 * i)).toRat + (peers.map (fun p => p.val i)).sum)| ≤
        (1 + 17 / 1024) ^ peers.length * ((peers.map Peer.err).sum + peers.length * (17 / 2048 * B))) := by
  have := reduce16_core (n := n) (out := out) peers (B := B) (m0 := m0) (T := fun i => (bf16At m0 (out + 2 * i)).toRat) (D := 0) h (le_refl _)
    (fun i hi => ⟨hfin i hi, by simp⟩) hB0 hB (by rw [zero_add]; exact hM)
  rw [zero_add] at this
  exact this

theorem exPeers_ok16 : ∀ p ∈ exPeers, p.Ok16 5 := fun p hp => by
  have h := exPeers_ok p hp
  refine ⟨h.args, h.recv, h.fin, ?_, ?_, h.thr, h.suits, h.size⟩
  · clear h; revert p; decide +kernel
  · clear h; revert p; decide +kernel

/-- `C101_reduction_bf16` applied to a concrete case: the two peers of `exPeers`. -/
example := C101_reduction_bf16 (n := 5) (out := 0) (m0 := fun _ => 0) (peers := exPeers) (B := 300) (h := exPeers_ok16) (hB0 := by norm_num)
    (hfin := by decide +kernel) (hB := by decide +kernel) (hM := by decide +kernel)

/-- One dequantize(ADD) call of the same codes after the other into the same bf16 buffer, each with its own context. -/
def AddAgain (x : InBuf) (dt : DType) (n o : Nat) (s : F32) (z : ℤ) : List Ctx → Mem → (Mem → Prop) → Prop
  | [], m, Q => Q m
  | c :: l, m, Q =>
    Always NoFault (dequantize c x (bytes dt.bits n) dt o (2 * n) .bf16 s z .add) (span o (2 * n)) m (fun m' => AddAgain x dt n o s z l m' Q)

/-- 256 -/
def f256 : F32 := ⟨false, 0x43800000⟩
/-- 256.5 -/
def f256h : F32 := ⟨false, 0x43804000⟩

theorem stay_word {w : Nat} : IsBf16Of f256h w → w = 0x4380 := by
  unfold IsBf16Of
  rw [if_neg (by decide +kernel)]
  intro h; rw [h]; decide +kernel

set_option linter.constructorNameAsVariable false in
/-- C101, why the error must grow with the number of additions: an accumulator of 256 to which 1/2 is added any number of
times, on whatever CPUs and contexts, still holds 256, so that the error is half the number of additions, although every
contribution is represented without error. -/
theorem C101_stagnates (calls : List Ctx) (h : ∀ c ∈ calls, DArgs c.threads x dt .bf16 n) (hx : ∀ i, i < n → code dt.bits x.data 0 i = 1) :
    ∀ {m0 : Mem}, (∀ i, i < n → bf16At m0 (o + 2 * i) = f256) →
    AddAgain x dt n o Ex.half 0 calls m0 (fun m => ∀ i, i < n → (bf16At m (o + 2 * i)).toRat = 256) ∧
    (∀ i, i < n → (((code dt.bits x.data 0 i : ℤ) - 0 : ℤ) : ℚ) * Ex.half.toRat = 1 / 2) := by
  suffices H : ∀ {m0 : Mem}, (∀ i, i < n → bf16At m0 (o + 2 * i) = f256) →
      AddAgain x dt n o Ex.half 0 calls m0 (fun m => ∀ i, i < n → bf16At m (o + 2 * i) = f256) by
    have hv : (f256 : F32).toRat = 256 := by decide +kernel
    intro m0 h0
    refine ⟨?_, fun i hi => ?_⟩
    · have mono : ∀ (l : List Ctx) {m : Mem} {Q Q' : Mem → Prop}, (∀ m, Q m → Q' m) → AddAgain x dt n o Ex.half 0 l m Q → AddAgain x dt n o Ex.half 0 l m Q' := by
        intro l
        induction l with
        | nil => intro m Q Q' hQ h; exact hQ _ h
        | cons p l ih => intro m Q Q' hQ h; exact Always.mono h (fun _ h => h) (fun mq hq => ih hQ hq)
      exact mono calls (fun m hm i hi => by rw [hm i hi, hv]) (H h0)
    · rw [hx i hi]; decide +kernel
  induction calls with
  | nil => intro m0 h0; exact h0
  | cons c l ih =>
    intro m0 h0
    refine (C10_add_bf16 (h c List.mem_cons_self) (by decide +kernel) (fun _ => by norm_num)).mono (fun _ h => h)
      (fun m hm => ih (fun c hc => h c (List.mem_cons_of_mem _ hc)) (fun i hi => ?_))
    have g := hm i hi
    rw [h0 i hi, hx i hi] at g
    have key : u16At m (o + 2 * i) = 0x4380 := by
      rcases g with ⟨d, hd, hw⟩ | ⟨_, S, hS, hw⟩
      · have : d = 0x3f00 := by
          unfold IsBf16Of at hd
          rw [if_neg (by decide +kernel)] at hd
          rw [hd]; decide +kernel
        subst this
        refine stay_word ?_
        have e : Flt.add (f256 : F32) (Flt.ofBits f32 (65536 * 0x3f00)) = f256h := by decide +kernel
        rw [e] at hw; exact hw
      · have e : S = f256h := by
          rcases hS with ⟨_, hS⟩ | ⟨_, hS⟩
          · rw [hS]; generalize c.fuse.vec = b; cases b <;> decide +kernel
          · rw [hS]; decide +kernel
        rw [e] at hw
        rcases hw with hw | ⟨_, hw, _⟩
        · exact stay_word hw
        · exact absurd hw (by decide +kernel)
    unfold bf16At
    rw [key]; decide +kernel

/-- `C101_stagnates` applied to a concrete case: 7 codes, three calls on different kernels. -/
example := C101_stagnates (x := ⟨4, fun _ => 17⟩) (dt := .uint4) (n := 7) (o := 0) (calls := [⟨.avx2, 3, .none⟩, ⟨.avx512f, 1, .none⟩, ⟨.portable, 2, .none⟩])
    (h := by simp only [List.forall_mem_cons]; exact ⟨⟨rfl, rfl, by decide, sz 7 3⟩, ⟨rfl, rfl, by decide, sz 7 1⟩, ⟨rfl, rfl, by decide, sz 7 2⟩, by simp⟩)
    (hx := by decide +kernel) (m0 := fun a => if a % 2 = 0 then 0x80 else 0x43) (by decide +kernel)

end Verif.Props

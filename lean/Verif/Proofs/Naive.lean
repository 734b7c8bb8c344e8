import Verif.Model.Naive
import Verif.Proofs.KernelsQ
import Verif.Proofs.Stoch
import Verif.Proofs.Bf16Trip
import Verif.Proofs.Arith

/-! # Proofs about the reference implementation of the project's tests -/

namespace Verif
open Spec

/-! ## The generator -/

theorem Xs.canonical_eq (g : Xs) : ∃ k : Nat, k < 2 ^ 23 ∧ g.canonical.isFin = true ∧ g.canonical.toRat = (2 * k + 1) / 2 ^ 24 := by
  unfold Xs.canonical
  have hy : 0xffffffff &&& g.out < 2 ^ 32 := lt_of_le_of_lt Nat.and_le_left (by norm_num)
  generalize 0xffffffff &&& g.out = y at hy
  have hk : y >>> 9 < 2 ^ 23 := by rw [Nat.shiftRight_eq_div_pow]; omega
  dsimp only
  generalize y >>> 9 = k at hk
  refine ⟨k, hk, ?_⟩
  have hb : biasScale.isFin = true ∧ biasScale.toRat = 1 / 2 ^ 23 := by decide +kernel
  obtain ⟨e1, f1'⟩ := ofInt_exact (f := f32) (z := (k : ℤ)) (by rw [abs_of_nonneg (by omega)]; show (k:ℤ) ≤ 2 ^ 24; omega)
  have hm : 2 * k + 1 ≤ 2 ^ (f32.mb + 1) := by show 2 * k + 1 ≤ 2 ^ 24; omega
  have hkq : (k:ℚ) + 1 ≤ 2 ^ 23 := by exact_mod_cast hk
  have hk0 : (0:ℚ) ≤ k := Nat.cast_nonneg k
  have big : (2:ℚ) ^ 24 < 2 ^ f32.emax := pow_lt_pow_right₀ (by norm_num) (by decide)
  have e2 : (Flt.add (Flt.ofInt f32 (k : ℤ)) fhalf).toRat = (2 * k + 1) / 2 := by
    rw [add_toRat f1' fhalf_fin, e1, fhalf_toRat]
    have r : Rep f32 (((2 * k + 1 : ℕ) : ℚ) / 2 ^ 1) := rep_div hm (by decide)
    have e : (((k:ℤ):ℚ) + 1 / 2) = ((2 * k + 1 : ℕ) : ℚ) / 2 ^ 1 := by push_cast; ring
    rw [e, flr_rep (by rw [abs_of_nonneg (by positivity)]; exact r)]
    · push_cast; ring
    · rw [abs_of_nonneg (by positivity)]
      refine le_trans ?_ big.le
      push_cast; linarith
  have f2 : (Flt.add (Flt.ofInt f32 (k : ℤ)) fhalf).isFin = true := by
    apply isFin_of_abs
    rw [e2, abs_of_nonneg (by positivity)]
    refine lt_trans ?_ big
    linarith
  have l1 : ((2 * (k:ℚ) + 1) / 2 ^ 24) ≤ 1 := by rw [div_le_one (by positivity)]; linarith
  have one : (1:ℚ) < 2 ^ f32.emax := lt_trans (by norm_num) big
  have e3 : (Flt.mul biasScale (Flt.add (Flt.ofInt f32 (k : ℤ)) fhalf)).toRat = (2 * k + 1) / 2 ^ 24 := by
    rw [mul_toRat hb.1 f2, hb.2, e2]
    have r : Rep f32 (((2 * k + 1 : ℕ) : ℚ) / 2 ^ 24) := rep_div hm (by decide)
    have e : (((2 * k + 1 : ℕ) : ℚ) / 2 ^ 24) = (2 * (k:ℚ) + 1) / 2 ^ 24 := by push_cast; ring
    rw [e] at r
    have e' : (1:ℚ) / 2 ^ 23 * ((2 * k + 1) / 2) = (2 * (k:ℚ) + 1) / 2 ^ 24 := by ring
    rw [e', flr_rep (by rw [abs_of_nonneg (by positivity)]; exact r)]
    rw [abs_of_nonneg (by positivity)]; exact l1.trans one.le
  have h0 : |(2 * (k:ℚ) + 1) / 2 ^ 24| = (2 * (k:ℚ) + 1) / 2 ^ 24 := abs_of_nonneg (div_nonneg (by linarith) (pow_nonneg (by norm_num) _))
  refine ⟨isFin_of_abs ?_, e3⟩
  rw [e3, h0]
  exact lt_of_le_of_lt l1 one

/-! ## One element -/

theorem naiveAdj_eq {p τ : F32} (hp : p.isFin = true) (hτ : τ.isFin = true) (hτ0 : 0 ≤ τ.toRat) :
    (naiveAdj p τ).isFin = true ∧ (naiveAdj p τ).toRat = sround τ.toRat p.toRat :=
  stochAdj_of hp hτ hτ0

/-- The integer step on a value whose stochastic rounding does not overflow. -/
theorem naive_int {p τ : F32} {zp : ℤ} (hp : p.isFin = true) (hτ : τ.isFin = true) (hτ0 : 0 ≤ τ.toRat)
    (hb : |p.toRat| ≤ 2 ^ 62) (hz : Zp32 zp) :
    toIntAdd 64 (naiveAdj p τ) zp = .ret (sround τ.toRat p.toRat + zp) := by
  obtain ⟨h1, h2⟩ := naiveAdj_eq hp hτ hτ0
  obtain ⟨_, _, h3⟩ := sround_abs τ.toRat hτ0 _ hp
  rw [toRat_abs] at hb
  have h4 : |((sround τ.toRat p.toRat : ℤ) : ℚ)| ≤ 2 ^ 62 + 1 := by linarith
  have h5 : |sround τ.toRat p.toRat| ≤ 2 ^ 62 + 1 := by exact_mod_cast h4
  rw [abs_le] at h5
  obtain ⟨hz1, hz2⟩ := hz
  generalize hs : sround τ.toRat p.toRat = s at *
  unfold toIntAdd
  rw [toInt?_fin h1, truncInt_int h2, if_pos ⟨by norm_num; omega, by norm_num; omega⟩]
  simp only
  rw [if_pos ⟨by norm_num; omega, by norm_num; omega⟩]
  rfl

section
variable {ft : FT} {dt : DType} {mode : RoundMode} {x : InBuf} {scale : F32} {zp : ℤ} {i n o : Nat} {g : Xs} {inv : F32}

theorem naiveQ_nearest (hsz : ft.size * i + ft.size ≤ x.size) (hd : Fits 64 (Flt.mul (x.elem ft 0 i) inv) zp) :
    naiveQ ft dt .nearest x inv zp i g = .ret (clampI dt.qmax (rha (Flt.mul (x.elem ft 0 i) inv).toRat + zp), g) := by
  unfold naiveQ
  have e : toIntAdd 64 (Flt.round (Flt.mul (x.elem ft 0 i) inv)) zp = .ret (rha (Flt.mul (x.elem ft 0 i) inv).toRat + zp) :=
    (toIntAdd_round (f := f32)).mpr ⟨hd.1, rfl, hd.2.1, hd.2.2⟩
  simp only [Prog.bind_eq]
  rw [e]
  unfold chkIn
  rw [if_pos hsz]
  rfl

theorem naiveQ_stochastic (hsz : ft.size * i + ft.size ≤ x.size) (hp : (naiveProd ft x i inv).isFin = true)
    (hb : |(naiveProd ft x i inv).toRat| ≤ 2 ^ 62) (hz : Zp32 zp) :
    naiveQ ft dt .stochastic x inv zp i g =
      .ret (clampI dt.qmax (sround g.canonical.toRat (naiveProd ft x i inv).toRat + zp), g.next) := by
  obtain ⟨k, _, h1, h2⟩ := g.canonical_eq
  have h0 : 0 ≤ g.canonical.toRat := by
    have : (0:ℚ) ≤ k := Nat.cast_nonneg k
    rw [h2]; exact div_nonneg (by linarith) (pow_nonneg (by norm_num) _)
  unfold naiveQ
  simp only [Prog.bind_eq]
  rw [naive_int hp h1 h0 hb hz]
  unfold chkIn
  rw [if_pos hsz]
  rfl

theorem packNibbles_eq {a b : Nat} (ha : a ≤ 15) (hb : b ≤ 15) : packNibbles a b = a + 16 * b := packU4_eq ha hb

/-! ## The loops -/

theorem Triple.forS {E : Fault → Prop} {σ : Type} {w : Win} {I : Nat → Mem → Prop} {cond : Nat → Bool} {step : Nat}
    {body : Nat → σ → Prog σ} {fuel i N : Nat} {s : σ} (hstep : 0 < step) (hN : ∀ i, cond i = true → i < N)
    (hfuel : N ≤ i + fuel)
    (hbody : ∀ i s, cond i = true → Triple E w (I i) (body i s) (fun _ => I (i + step))) :
    Triple E w (I i) (Verif.forS cond step body fuel i s)
      (fun r m => I r.1 m ∧ cond r.1 = false ∧ i ≤ r.1) := by
  induction fuel generalizing i s with
  | zero =>
    unfold Verif.forS
    have : cond i = false := by
      cases h : cond i with
      | false => rfl
      | true => have := hN i h; omega
    simp only [this]
    exact Triple.ret (fun m h => ⟨h, this, Nat.le_refl _⟩)
  | succ fuel ih =>
    unfold Verif.forS
    by_cases hc : cond i = true
    · simp only [hc, if_true]
      refine Triple.bind (hbody i s hc) (fun s' => ?_)
      exact (ih (i := i + step) (by omega)).weaken (fun a m h => ⟨h.1, h.2.1, by omega⟩)
    · simp only [hc]
      exact Triple.ret (fun m h => ⟨h, by simpa using hc, Nat.le_refl _⟩)

theorem quantizeNaive_triple {E : Fault → Prop} {w : Win} {m0 : Mem} {P : Nat → Nat → Prop} {left : Bool} (hdt : dt = .uint4 ∨ dt = .uint8)
    (hlo : w.lo ≤ o) (hhi : o + bytes dt.bits n ≤ w.hi)
    (hQ : ∀ i, i < n → ∀ g, ∃ q g', naiveQ ft dt mode x (invScale scale) zp i g = .ret (q, g') ∧ P i q ∧ q ≤ dt.qmax) :
    Triple E w (Inv m0 o (OkPack dt.bits n P) 0) (quantizeNaive left ft dt mode x o n scale zp g)
      (fun _ => Inv m0 o (OkPack dt.bits n P) (bytes dt.bits n)) := by
  rcases hdt with rfl | rfl
  · have hlen : bytes 4 n = (n + 1) / 2 := by unfold bytes; omega
    change o + bytes 4 n ≤ w.hi at hhi
    rw [hlen] at hhi
    unfold quantizeNaive
    change Triple E w (Inv m0 o (OkPack 4 n P) 0) _ (fun _ => Inv m0 o (OkPack 4 n P) (bytes 4 n))
    rw [hlen]
    simp only [Prog.bind_eq]
    refine Triple.bind (Q := fun r m => Inv m0 o (OkPack 4 n P) (r.1 / 2) m ∧ r.1 + 1 ≥ n ∧ r.1 ≤ n ∧ r.1 % 2 = 0) ?_ (fun r => ?_)
    · refine (Triple.forS (I := fun j m => Inv m0 o (OkPack 4 n P) (j / 2) m ∧ j ≤ n ∧ j % 2 = 0) (N := n) (by omega)
        (by intro i h; have := of_decide_eq_true h; omega) (by omega) ?_).conseq (fun m h => ⟨by rw [Nat.zero_div]; exact h, by omega, by omega⟩)
        (fun r m h => ⟨h.1.1, by have := of_decide_eq_false h.2.1; omega, h.1.2⟩)
      intro j g hj
      have hj := of_decide_eq_true hj
      have fin : ∀ (qa qb : Nat) (g' : Xs), P j qa → qa ≤ 15 → P (j + 1) qb → qb ≤ 15 →
          Triple E w (fun m => Inv m0 o (OkPack 4 n P) (j / 2) m ∧ j ≤ n ∧ j % 2 = 0)
            (Prog.bind (wrB (o + j / 2) (packNibbles qa qb)) (fun _ => .ret g'))
            (fun _ m => Inv m0 o (OkPack 4 n P) ((j + 2) / 2) m ∧ j + 2 ≤ n ∧ (j + 2) % 2 = 0) := by
        intro qa qb g' pa ba pb bb
        refine Triple.bind (Triple.wrB (Q := fun _ m => Inv m0 o (OkPack 4 n P) ((j + 2) / 2) m ∧ j + 2 ≤ n ∧ (j + 2) % 2 = 0)
          (by simp [Win.has]; omega) (fun m hm => ⟨?_, by omega, by omega⟩)) (fun _ => Triple.ret (fun m h => h))
        rw [packNibbles_eq ba bb]
        have e : (j + 2) / 2 = j / 2 + 1 := by omega
        rw [e]
        have e2 : 2 * (j / 2) = j := by omega
        refine hm.1.set (okPack4 ba bb (by omega) ?_ (fun _ => ?_) (fun _ => by omega))
        · rw [e2]; exact pa
        · rw [e2]; exact pb
      cases left
      · obtain ⟨qb, g1, e1, pb, bb⟩ := hQ (j + 1) (by omega) g
        obtain ⟨qa, g2, e2, pa, ba⟩ := hQ j (by omega) g1
        simp only [Bool.false_eq_true, if_false]
        rw [e1]; simp only [Prog.ret_bind]; rw [e2]; simp only [Prog.ret_bind]
        exact fin qa qb g2 pa ba pb bb
      · obtain ⟨qa, g1, e1, pa, ba⟩ := hQ j (by omega) g
        obtain ⟨qb, g2, e2, pb, bb⟩ := hQ (j + 1) (by omega) g1
        simp only [if_true]
        rw [e1]; simp only [Prog.ret_bind]; rw [e2]; simp only [Prog.ret_bind]
        exact fin qa qb g2 pa ba pb bb
    · obtain ⟨i, g⟩ := r
      simp only
      split
      · rename_i hodd
        obtain ⟨q, g1, e1, pq, bq⟩ := hQ (n - 1) (by omega) g
        change q ≤ 15 at bq
        rw [e1]
        simp only [Prog.ret_bind]
        rw [packNibbles_eq bq (by omega)]
        refine Triple.perMem (fun m' hm => ?_)
        obtain ⟨hI, h1, h2, h3⟩ := hm
        have e2 : 2 * (i / 2) = n - 1 := by omega
        have hw : w.has (o + i / 2) = true := by simp [Win.has]; omega
        refine Triple.bind (Q := fun _ m => m = m'.set (o + i / 2) (q + 16 * 0)) ?_ (fun _ => ?_)
        · exact Triple.wrB hw (fun m hm => by subst hm; rfl)
        refine Triple.bind (Q := fun b m => m = m'.set (o + i / 2) (q + 16 * 0) ∧ b = q + 16 * 0) ?_ (fun b => ?_)
        · exact Triple.rdB hw (fun m hm => ⟨hm, by subst hm; simp [Mem.set]⟩)
        refine Triple.bind (Q := fun _ m => Inv m0 o (OkPack 4 n P) ((n + 1) / 2) m) ?_ (fun _ => Triple.ret (fun m h => h))
        refine Triple.wrB hw (fun m hm => ?_)
        obtain ⟨rfl, hb⟩ := hm
        rw [hb]
        have e3 : (m'.set (o + i / 2) (q + 16 * 0)).set (o + i / 2) ((q + 16 * 0) &&& 15) = m'.set (o + i / 2) (q + 16 * 0) := by
          funext a; simp only [Mem.set]; split
          · rw [and15]; omega
          · rfl
        rw [e3]
        have e : (n + 1) / 2 = i / 2 + 1 := by omega
        rw [e]
        refine hI.set (okPack4 bq (by omega) (by omega) ?_ (fun _ => by omega) (fun _ => rfl))
        rw [e2]; exact pq
      · refine Triple.ret (fun m h => ?_)
        have e : (n + 1) / 2 = i / 2 := by omega
        rw [e]; exact h.1
  · have hlen : bytes 8 n = n := by unfold bytes; omega
    change o + bytes 8 n ≤ w.hi at hhi
    rw [hlen] at hhi
    unfold quantizeNaive
    change Triple E w (Inv m0 o (OkPack 8 n P) 0) _ (fun _ => Inv m0 o (OkPack 8 n P) (bytes 8 n))
    rw [hlen]
    simp only [Prog.bind_eq]
    refine Triple.bind (Q := fun r m => Inv m0 o (OkPack 8 n P) n m) ?_ (fun r => Triple.ret (fun m h => h))
    refine (Triple.forS (I := fun j m => Inv m0 o (OkPack 8 n P) j m ∧ j ≤ n) (N := n) (by omega)
      (by intro i h; exact of_decide_eq_true h) (by omega) ?_).conseq (fun m h => ⟨h, by omega⟩)
      (fun r m h => by
        have h1 := of_decide_eq_false h.2.1
        have h2 : r.1 = n := by have := h.1.2; omega
        have h3 := h.1.1
        rw [h2] at h3; exact h3)
    intro j g hj
    have hj := of_decide_eq_true hj
    obtain ⟨q, g1, e1, pq, bq⟩ := hQ j hj g
    rw [e1]
    simp only [Prog.ret_bind]
    refine Triple.bind (Triple.wrB (Q := fun _ m => Inv m0 o (OkPack 8 n P) (j + 1) m ∧ j + 1 ≤ n)
      (by simp [Win.has]; omega) (fun m hm => ⟨?_, by omega⟩)) (fun _ => Triple.ret (fun m h => h))
    exact hm.1.set (okPack8 bq hj pq)

end

end Verif

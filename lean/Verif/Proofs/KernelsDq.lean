import Verif.Proofs.DqLanes

/-! # Dequantization kernels: one worker -/

namespace Verif
open Simd

/-- Code `i` of a packed input starting at byte `off`. -/
def qAt (x : InBuf) (bits off i : Nat) : Nat := x.u8 (off + bits * i / 8) / 2 ^ (bits * i % 8) % 2 ^ bits

theorem u8_lt (x : InBuf) (a : Nat) : x.u8 a < 256 := Nat.mod_lt _ (by norm_num)

theorem qAt8 (x : InBuf) (off i : Nat) : qAt x 8 off i = x.u8 (off + i) := by
  unfold qAt
  have h := u8_lt x (off + i)
  have e1 : 8 * i / 8 = i := by omega
  have e2 : 8 * i % 8 = 0 := by omega
  rw [e1, e2]; norm_num; exact h

theorem qAt4_even (x : InBuf) (off i : Nat) (h : i % 2 = 0) : qAt x 4 off i = x.u8 (off + i / 2) % 16 := by
  unfold qAt
  have e1 : 4 * i / 8 = i / 2 := by omega
  have e2 : 4 * i % 8 = 0 := by omega
  rw [e1, e2]; norm_num

theorem qAt4_odd (x : InBuf) (off i : Nat) (h : i % 2 = 1) : qAt x 4 off i = x.u8 (off + i / 2) / 16 := by
  unfold qAt
  have h := u8_lt x (off + i / 2)
  have e1 : 4 * i / 8 = i / 2 := by omega
  have e2 : 4 * i % 8 = 4 := by omega
  rw [e1, e2]; norm_num; omega

theorem qAt2 (x : InBuf) (off i : Nat) : qAt x 2 off i = x.u8 (off + i / 4) / 4 ^ (i % 4) % 4 := by
  unfold qAt
  have e1 : 2 * i / 8 = i / 4 := by omega
  have e2 : 2 * i % 8 = 2 * (i % 4) := by omega
  rw [e1, e2, pow_mul]; norm_num

section
variable {E : Fault → Prop} {w : Win} {m0 : Mem} {x : InBuf} {off o n sz : Nat} {R : Nat → Nat → Prop}

theorem Triple.ldQBind {α : Type} {P : Mem → Prop} {j : Nat} {k : Nat → Prog α} {Q : α → Mem → Prop}
    (h : off + j < x.size) (hk : Triple E w P (k (x.u8 (off + j))) Q) : Triple E w P ((ldQ x off j).bind k) Q := by
  simp only [ldQ, Prog.bind_eq, Prog.bind_assoc, Prog.pure_eq, Prog.ret_bind]
  exact Triple.bind (Triple.chkIn (by omega)) (fun _ => hk)

theorem Triple.loadu_u8 {α : Type} {P : Mem → Prop} {c b : Nat} {k : V c Nat → Prog α} {Q : α → Mem → Prop}
    (h : off + b + c ≤ x.size) (hk : Triple E w P (k (fun j => x.u8 (off + b + j))) Q) :
    Triple E w P ((Simd.loadu_u8 c x off b).bind k) Q := by
  simp only [Simd.loadu_u8, Prog.bind_eq, Prog.bind_assoc, Prog.pure_eq, Prog.ret_bind]
  exact Triple.bind (Triple.chkIn (by omega)) (fun _ => hk)

/-- A vector loop from 0, `c` elements per iteration. -/
theorem vecLoopE {c : Nat} (hc : 0 < c) {cond : Nat → Bool} (hcond : ∀ i, cond i = decide (i + (c - 1) < n)) {body : Nat → Prog Unit}
    (hbody : ∀ i, i + c ≤ n → c ∣ i → Triple E w (InvE m0 o sz R i) (body i) (fun _ => InvE m0 o sz R (i + c))) :
    Triple E w (InvE m0 o sz R 0) (forI cond c body n 0) (fun i m => InvE m0 o sz R i m ∧ i ≤ n ∧ c ∣ i ∧ n < i + c) := by
  have hlt : ∀ i, cond i = true → i + c ≤ n := by
    intro i h; rw [hcond] at h; have := of_decide_eq_true h; omega
  refine (Triple.forI (I := fun i m => InvE m0 o sz R i m ∧ i ≤ n ∧ c ∣ i) (N := n) hc (fun i h => by have := hlt i h; omega) (by omega) ?_).conseq
    (fun m h => ⟨h, Nat.zero_le _, ⟨0, by simp⟩⟩) (fun i m h => ⟨h.1.1, h.1.2.1, h.1.2.2, by
      have := h.2.1; rw [hcond] at this; have := of_decide_eq_false this; omega⟩)
  intro i h
  have h1 := hlt i h
  refine Triple.pull (fun ⟨h2, h3⟩ => (hbody i h1 h3).weaken (fun _ m hm => ⟨hm, by omega, ?_⟩))
  exact Dvd.dvd.add h3 (Nat.dvd_refl _)

theorem dqU8Loop_triple {put : Nat → Nat → Prog Unit} {i0 : Nat} (hi0 : i0 ≤ n) (hin : off + n ≤ x.size)
    (hput : ∀ i, i0 ≤ i → i < n → Triple E w (InvE m0 o sz R i) (put i (qAt x 8 off i)) (fun _ => InvE m0 o sz R (i + 1))) :
    Triple E w (InvE m0 o sz R i0) (dqU8Loop put x off n i0) (fun _ => InvE m0 o sz R n) := by
  unfold dqU8Loop
  refine Triple.bind ((Triple.forI (I := fun i m => InvE m0 o sz R i m ∧ i ≤ n ∧ i0 ≤ i) (N := n) (by omega) (fun i h => by simpa using h)
    (by omega) ?_).pre (fun m h => ⟨h, hi0, Nat.le_refl _⟩)) (fun i' => Triple.ret (fun m h => ?_))
  · intro i h
    have h' : i < n := by simpa using h
    refine Triple.pull (fun hd => Triple.ldQBind (by omega) ?_)
    have := hput i hd.2 h'
    rw [qAt8] at this
    exact this.weaken (fun _ m hm => ⟨hm, by omega, by omega⟩)
  · have : ¬ i' < n := of_decide_eq_false h.2.1
    have : i' = n := by omega
    rw [← this]; exact h.1.1

theorem dqU4From_triple {put : Nat → Nat → Prog Unit} {i0 : Nat} (hi0 : i0 ≤ n) (he : 2 ∣ i0) (hin : off + (n + 1) / 2 ≤ x.size)
    (hput : ∀ i, i0 ≤ i → i < n → Triple E w (InvE m0 o sz R i) (put i (qAt x 4 off i)) (fun _ => InvE m0 o sz R (i + 1))) :
    Triple E w (InvE m0 o sz R i0) (dqU4From put x off n i0) (fun _ => InvE m0 o sz R n) := by
  unfold dqU4From
  refine Triple.bind ((Triple.forI (I := fun i m => InvE m0 o sz R i m ∧ i ≤ n ∧ 2 ∣ i ∧ i0 ≤ i) (N := n) (by omega)
    (fun i h => by have : i + 1 < n := by simpa using h
                   omega) (by omega) ?_).pre (fun m h => ⟨h, hi0, he, Nat.le_refl _⟩)) (fun i' => ?_)
  · intro i h
    have h' : i + 1 < n := by simpa using h
    refine Triple.pull (fun hd => Triple.ldQBind (by omega) ?_)
    have h1 := hput i (by omega) (by omega)
    have h2 := hput (i + 1) (by omega) (by omega)
    rw [qAt4_even _ _ _ (by omega), ← and15] at h1
    rw [qAt4_odd _ _ _ (by omega), show (i + 1) / 2 = i / 2 by omega] at h2
    refine Triple.bind h1 (fun _ => ?_)
    have e : x.u8 (off + i / 2) >>> 4 = x.u8 (off + i / 2) / 16 := Nat.shiftRight_eq_div_pow _ 4
    rw [e]
    exact h2.weaken (fun _ m hm => ⟨hm, by omega, by omega, by omega⟩)
  · refine Triple.ofPre (φ := i' ≤ n ∧ 2 ∣ i' ∧ i0 ≤ i' ∧ n ≤ i' + 1) (fun m h => ⟨h.1.2.1, h.1.2.2.1, h.1.2.2.2, ?_⟩) (fun hφ => ?_)
    · have : ¬ i' + 1 < n := of_decide_eq_false h.2.1
      omega
    · obtain ⟨h1, h2, h4, h3⟩ := hφ
      split
      · rename_i hodd
        have : i' = n - 1 := by omega
        subst this
        refine Triple.ldQBind (by omega) ?_
        have h := hput (n - 1) (by omega) (by omega)
        rw [qAt4_even _ _ _ (by omega), ← and15, show n - 1 + 1 = n by omega] at h
        exact h.pre (fun m hm => hm.1.1)
      · have : i' = n := by omega
        subst this
        exact Triple.ret (fun m hm => hm.1.1)

theorem qAt2_0 (i : Nat) (h : 4 ∣ i) : qAt x 2 off i = x.u8 (off + i / 4) &&& 3 := by
  rw [qAt2, and3, show i % 4 = 0 by omega]; norm_num
theorem qAt2_1 (i : Nat) (h : 4 ∣ i) : qAt x 2 off (i + 1) = (x.u8 (off + i / 4) >>> 2) &&& 3 := by
  rw [qAt2, and3, show (i + 1) % 4 = 1 by omega, show (i + 1) / 4 = i / 4 by omega, Nat.shiftRight_eq_div_pow]; norm_num
theorem qAt2_2 (i : Nat) (h : 4 ∣ i) : qAt x 2 off (i + 2) = (x.u8 (off + i / 4) >>> 4) &&& 3 := by
  rw [qAt2, and3, show (i + 2) % 4 = 2 by omega, show (i + 2) / 4 = i / 4 by omega, Nat.shiftRight_eq_div_pow]; norm_num
theorem qAt2_3 (i : Nat) (h : 4 ∣ i) : qAt x 2 off (i + 3) = (x.u8 (off + i / 4) >>> 6) &&& 3 := by
  rw [qAt2, and3, show (i + 3) % 4 = 3 by omega, show (i + 3) / 4 = i / 4 by omega, Nat.shiftRight_eq_div_pow]; norm_num

/-- The main loop shared by the uint2 kernels. -/
theorem dqU2Loop {put : Nat → Nat → Prog Unit} {i0 : Nat} (hi0 : i0 ≤ n) (he : 4 ∣ i0) (hin : off + (n + 3) / 4 ≤ x.size)
    (hput : ∀ i, i0 ≤ i → i < n → i < n / 4 * 4 → Triple E w (InvE m0 o sz R i) (put i (qAt x 2 off i)) (fun _ => InvE m0 o sz R (i + 1))) :
    Triple E w (InvE m0 o sz R i0) (forI (fun i => i + 3 < n) 4 (fun i => do
      let p ← ldQ x off (i / 4)
      put i (p &&& 3)
      put (i + 1) ((p >>> 2) &&& 3)
      put (i + 2) ((p >>> 4) &&& 3)
      put (i + 3) ((p >>> 6) &&& 3)) n i0) (fun i m => InvE m0 o sz R i m ∧ i ≤ n ∧ 4 ∣ i ∧ i0 ≤ i ∧ n ≤ i + 3) := by
  refine ((Triple.forI (I := fun i m => InvE m0 o sz R i m ∧ i ≤ n ∧ 4 ∣ i ∧ i0 ≤ i) (N := n) (by omega)
    (fun i h => by have : i + 3 < n := by simpa using h
                   omega) (by omega) ?_).conseq (fun m h => ⟨h, hi0, he, Nat.le_refl _⟩) (fun i' m h => ?_))
  · intro i h
    have h' : i + 3 < n := by simpa using h
    refine Triple.pull (fun hd => Triple.ldQBind (by omega) ?_)
    rw [← qAt2_0 i hd.2.1, ← qAt2_1 i hd.2.1, ← qAt2_2 i hd.2.1, ← qAt2_3 i hd.2.1]
    refine Triple.bind (hput i (by omega) (by omega) (by omega)) (fun _ => ?_)
    refine Triple.bind (hput (i + 1) (by omega) (by omega) (by omega)) (fun _ => ?_)
    refine Triple.bind (hput (i + 2) (by omega) (by omega) (by omega)) (fun _ => ?_)
    exact (hput (i + 3) (by omega) (by omega) (by omega)).weaken (fun _ m hm => ⟨hm, by omega, by omega, by omega⟩)
  · have : ¬ i' + 3 < n := of_decide_eq_false h.2.1
    exact ⟨h.1.1, h.1.2.1, h.1.2.2.1, h.1.2.2.2, by omega⟩

theorem dqU2From_triple {put : Nat → Nat → Prog Unit} {i0 : Nat} (hi0 : i0 ≤ n) (he : 4 ∣ i0) (hin : off + (n + 3) / 4 ≤ x.size)
    (hput : ∀ i, i0 ≤ i → i < n → Triple E w (InvE m0 o sz R i) (put i (qAt x 2 off i)) (fun _ => InvE m0 o sz R (i + 1))) :
    Triple E w (InvE m0 o sz R i0) (dqU2From put x off n i0) (fun _ => InvE m0 o sz R n) := by
  unfold dqU2From
  refine Triple.bind (dqU2Loop hi0 he hin (fun i h0 hi _ => hput i h0 hi)) (fun i' => ?_)
  refine Triple.pull (fun ⟨h1, h2, h4, h3⟩ => ?_)
  split
  · rename_i hlt
    refine Triple.ldQBind (by omega) ?_
    rw [← qAt2_0 i' h2, ← qAt2_1 i' h2, ← qAt2_2 i' h2]
    have ha := hput i' h4 hlt
    rw [if_pos (by omega)]
    refine Triple.bind ha (fun _ => ?_)
    by_cases c2 : 2 ≤ n - i'
    · rw [if_pos c2]
      refine Triple.bind (hput (i' + 1) (by omega) (by omega)) (fun _ => ?_)
      by_cases c3 : 3 ≤ n - i'
      · rw [if_pos c3]
        have := hput (i' + 2) (by omega) (by omega)
        rwa [show i' + 2 + 1 = n by omega] at this
      · rw [if_neg c3]
        rw [show i' + 1 + 1 = n by omega]
        exact Triple.ret (fun _ h => h)
    · rw [if_neg c2, if_neg (by omega)]
      rw [show i' + 1 = n by omega]
      exact Triple.ret (fun _ h => h)
  · have : i' = n := by omega
    subst this
    exact Triple.ret (fun _ h => h)

/-- `dequant_uint2`: needs the byte after the last full group to be readable. -/
theorem dequantUint2_triple {put putSet : Nat → Nat → Prog Unit} (hin : off + n / 4 + 1 ≤ x.size)
    (hput : ∀ i, i < n → i < n / 4 * 4 → Triple E w (InvE m0 o sz R i) (put i (qAt x 2 off i)) (fun _ => InvE m0 o sz R (i + 1)))
    (hputS : ∀ i, i < n → n / 4 * 4 ≤ i → Triple E w (InvE m0 o sz R i) (putSet i (qAt x 2 off i)) (fun _ => InvE m0 o sz R (i + 1))) :
    Triple E w (InvE m0 o sz R 0) (dequantUint2 put putSet x off n) (fun _ => InvE m0 o sz R n) := by
  unfold dequantUint2
  refine Triple.bind (dqU2Loop (Nat.zero_le _) ⟨0, by simp⟩ (by omega) (fun i _ => hput i)) (fun i' => ?_)
  refine Triple.pull (fun ⟨h1, h2, _, h3⟩ => ?_)
  refine Triple.ldQBind (by omega) ?_
  rw [← qAt2_0 i' h2, ← qAt2_1 i' h2, ← qAt2_2 i' h2]
  split
  · rename_i hm
    have := hputS i' (by omega) (by omega)
    rwa [show i' + 1 = n by omega] at this
  · rename_i hm
    refine Triple.bind (hputS i' (by omega) (by omega)) (fun _ => ?_)
    have := hputS (i' + 1) (by omega) (by omega)
    rwa [show i' + 1 + 1 = n by omega] at this
  · rename_i hm
    refine Triple.bind (hputS i' (by omega) (by omega)) (fun _ => ?_)
    refine Triple.bind (hputS (i' + 1) (by omega) (by omega)) (fun _ => ?_)
    have := hputS (i' + 2) (by omega) (by omega)
    rwa [show i' + 2 + 1 = n by omega] at this
  · rename_i h1' h2' h3'
    have : i' = n := by
      have : n % 4 ≠ 1 := h1'
      have : n % 4 ≠ 2 := h2'
      have : n % 4 ≠ 3 := h3'
      omega
    subst this
    exact Triple.ret (fun _ h => h)

/-! ## Lanes of the vector loops -/

/-- The value the vector code computes from a code by subtract/convert/multiply. -/
def dqMul (scale : F32) (zp : ℤ) (q : Nat) : F32 := Flt.mul (Flt.ofInt f32 (wrap32 (q - zp))) scale
/-- The same, as a term of a sum that may be contracted. -/
def dqMulT (b : Bool) (scale : F32) (zp : ℤ) (q : Nat) : Term := Term.prod b (Flt.ofInt f32 (wrap32 (q - zp))) scale
/-- The value the AVX-512 uint4/uint2 → bf16 code computes with one fused multiply-add. -/
def dqFmaV (scale : F32) (zp : ℤ) (q : Nat) : F32 := Flt.fma (Flt.ofInt f32 q) scale (dqBias scale zp)

theorem lanes_dqReg {c : Nat} {l : List (V c ℤ)} {g : Nat → Nat} {b : Bool} {scale : F32} {zp : ℤ} (h : Lanes l (fun k => (g k : ℤ))) :
    Lanes (l.map (dqReg b scale zp)) (fun k => dqMulT b scale zp (g k)) :=
  h.map (f' := fun z => Term.prod b (Flt.ofInt f32 (wrap32 (z - zp))) scale) (fun v j => rfl)
theorem lanes_dqFma {c : Nat} {l : List (V c ℤ)} {g : Nat → Nat} {scale : F32} {zp : ℤ} (h : Lanes l (fun k => (g k : ℤ))) :
    Lanes (l.map (dqFma scale zp)) (fun k => Term.plain (dqFmaV scale zp (g k))) :=
  h.map (f' := fun z => Term.plain (Flt.fma (Flt.ofInt f32 z) scale (dqBias scale zp))) (fun v j => rfl)

/-- The nibbles of the packed bytes from `off + i/2` on are the codes from `i` on. -/
theorem nibs_of {c i : Nat} (h : 2 ∣ i) : Nibs c (fun j => x.u8 (off + i / 2 + j)) (fun k => qAt x 4 off (i + k)) := by
  refine ⟨fun j => u8_lt _ _, fun j => ?_, fun j => ?_⟩
  · rw [qAt4_even _ _ _ (by omega)]; congr 2; omega
  · rw [qAt4_odd _ _ _ (by omega)]; congr 2; omega

theorem crumbs_of {c i s : Nat} (h : 4 * s = i) : Crumbs c (fun j => x.u8 (off + s + j)) (fun k => qAt x 2 off (i + k)) := by
  have e : ∀ j t, t < 4 → qAt x 2 off (i + (4 * j + t)) = x.u8 (off + s + j) / 4 ^ t % 4 := by
    intro j t ht
    rw [qAt2, show (i + (4 * j + t)) % 4 = t by omega, show (i + (4 * j + t)) / 4 = s + j by omega, Nat.add_assoc]
  refine ⟨fun j => u8_lt _ _, fun j => ?_, fun j => ?_, fun j => ?_, fun j => ?_⟩
  · have := e j 0 (by omega); simpa using this
  · have := e j 1 (by omega); simpa using this
  · have := e j 2 (by omega); simpa using this
  · have := e j 3 (by omega); simpa using this

theorem toRegs16 (i : Nat) : Lanes [fun j : Fin 16 => x.u8 (off + (i + 0) + j), fun j : Fin 16 => x.u8 (off + (i + 16) + j),
      fun j : Fin 16 => x.u8 (off + (i + 32) + j), fun j : Fin 16 => x.u8 (off + (i + 48) + j)] (fun k => qAt x 8 off (i + k)) := by
  refine ⟨fun j => ?_, fun j => ?_, fun j => ?_, fun j => ?_, trivial⟩ <;>
  · beta_reduce; rw [qAt8]; congr 1; omega

end
end Verif

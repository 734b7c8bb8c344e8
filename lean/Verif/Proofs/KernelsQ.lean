import Verif.Proofs.Prog
import Verif.Proofs.Lanes
import Verif.SpecVector

set_option linter.unusedSimpArgs false

/-! # Worker-level correctness of the quantization kernels -/

namespace Verif
open Simd

/-- A memory-free step succeeds or fails with a fault in `E`. -/
def StepOk (E : Fault → Prop) (p : Prog Nat) : Prop := (∃ q, p = .ret q) ∨ ∃ f, p = .fail f ∧ E f

/-- Byte `j` of a packed buffer of `n` codes of `bits` bits, whose codes satisfy `P` and whose
padding is zero. -/
def OkPack (bits n : Nat) (P : Nat → Nat → Prop) (j b : Nat) : Prop :=
  b < 256 ∧ ∀ k, k < 8 / bits →
    (8 / bits * j + k < n → P (8 / bits * j + k) (b / 2 ^ (bits * k) % 2 ^ bits)) ∧
    (n ≤ 8 / bits * j + k → b / 2 ^ (bits * k) % 2 ^ bits = 0)

theorem okPack8 {n : Nat} {P : Nat → Nat → Prop} {j b : Nat} (hb : b ≤ 255) (hj : j < n) (h : P j b) :
    OkPack 8 n P j b := by
  refine ⟨by omega, fun k hk => ?_⟩
  have : k = 0 := by omega
  subst this
  have e : b / 2 ^ (8 * 0) % 2 ^ 8 = b := by norm_num; omega
  rw [e]
  norm_num
  exact ⟨fun _ => h, fun h => by omega⟩

theorem okPack4 {n : Nat} {P : Nat → Nat → Prop} {j a b : Nat} (ha : a ≤ 15) (hb : b ≤ 15) (hj : 2 * j < n)
    (h0 : P (2 * j) a) (h1 : 2 * j + 1 < n → P (2 * j + 1) b) (h1' : n ≤ 2 * j + 1 → b = 0) :
    OkPack 4 n P j (a + 16 * b) := by
  refine ⟨by omega, fun k hk => ?_⟩
  have e0 : (a + 16 * b) / 2 ^ (4 * 0) % 2 ^ 4 = a := by norm_num; omega
  have e1 : (a + 16 * b) / 2 ^ (4 * 1) % 2 ^ 4 = b := by norm_num; omega
  have hk : k = 0 ∨ k = 1 := by omega
  rcases hk with rfl | rfl
  · rw [e0]; norm_num; exact ⟨fun _ => h0, fun h => by omega⟩
  · rw [e1]; norm_num; exact ⟨h1, h1'⟩

theorem okPack2 {n : Nat} {P : Nat → Nat → Prop} {j a b c d : Nat} (ha : a ≤ 3) (hb : b ≤ 3) (hc : c ≤ 3) (hd : d ≤ 3)
    (hj : 4 * j < n)
    (h0 : P (4 * j) a) (h1 : 4 * j + 1 < n → P (4 * j + 1) b) (h1' : n ≤ 4 * j + 1 → b = 0)
    (h2 : 4 * j + 2 < n → P (4 * j + 2) c) (h2' : n ≤ 4 * j + 2 → c = 0)
    (h3 : 4 * j + 3 < n → P (4 * j + 3) d) (h3' : n ≤ 4 * j + 3 → d = 0) :
    OkPack 2 n P j (a + 4 * b + 16 * c + 64 * d) := by
  refine ⟨by omega, fun k hk => ?_⟩
  have e0 : (a + 4 * b + 16 * c + 64 * d) / 2 ^ (2 * 0) % 2 ^ 2 = a := by norm_num; omega
  have e1 : (a + 4 * b + 16 * c + 64 * d) / 2 ^ (2 * 1) % 2 ^ 2 = b := by norm_num; omega
  have e2 : (a + 4 * b + 16 * c + 64 * d) / 2 ^ (2 * 2) % 2 ^ 2 = c := by norm_num; omega
  have e3 : (a + 4 * b + 16 * c + 64 * d) / 2 ^ (2 * 3) % 2 ^ 2 = d := by norm_num; omega
  have hk : k = 0 ∨ k = 1 ∨ k = 2 ∨ k = 3 := by omega
  rcases hk with rfl | rfl | rfl | rfl
  · rw [e0]; norm_num; exact ⟨fun _ => h0, fun h => by omega⟩
  · rw [e1]; norm_num; exact ⟨h1, h1'⟩
  · rw [e2]; norm_num; exact ⟨h2, h2'⟩
  · rw [e3]; norm_num; exact ⟨h3, h3'⟩

section
variable {E : Fault → Prop} {w : Win}

theorem Triple.step {α : Type} {P : Mem → Prop} {p : Prog Nat} {k : Nat → Prog α} {R : α → Mem → Prop} (hs : StepOk E p)
    (hk : ∀ q, p = .ret q → Triple E w P (k q) R) : Triple E w P (p.bind k) R := by
  rcases hs with ⟨q, hq⟩ | ⟨f, hf, hE⟩
  · rw [hq]; exact hk q hq
  · rw [hf]; exact Triple.fail hE

theorem Triple.ldXBind {α : Type} {P : Mem → Prop} {ft : FT} {x : InBuf} {off i : Nat} {k : F32 → Prog α} {R : α → Mem → Prop}
    (h : off + ft.size * i + ft.size ≤ x.size) (hk : Triple E w P (k (x.elem ft off i)) R) :
    Triple E w P ((ldX ft x off i).bind k) R := by
  simp only [ldX, Prog.bind_eq, Prog.bind_assoc, Prog.pure_eq, Prog.ret_bind]
  exact Triple.bind (Triple.chkIn h) (fun _ => hk)

theorem Triple.loadu_ps {α : Type} {P : Mem → Prop} {n : Nat} {x : InBuf} {off i : Nat} {k : V n F32 → Prog α}
    {R : α → Mem → Prop} (h : off + 4 * (i + n) ≤ x.size)
    (hk : Triple E w P (k (fun j => x.elem .f32 off (i + j))) R) :
    Triple E w P ((Simd.loadu_ps n x off i).bind k) R := by
  simp only [Simd.loadu_ps, Prog.bind_eq, Prog.bind_assoc, Prog.pure_eq, Prog.ret_bind]
  exact Triple.bind (Triple.chkIn (by omega)) (fun _ => hk)

theorem Triple.loadu_u16 {α : Type} {P : Mem → Prop} {n : Nat} {x : InBuf} {off i : Nat} {k : V n Nat → Prog α}
    {R : α → Mem → Prop} (h : off + 2 * (i + n) ≤ x.size)
    (hk : Triple E w P (k (fun j => x.u16 (off + 2 * (i + j)))) R) :
    Triple E w P ((Simd.loadu_u16 n x off i).bind k) R := by
  simp only [Simd.loadu_u16, Prog.bind_eq, Prog.bind_assoc, Prog.pure_eq, Prog.ret_bind]
  exact Triple.bind (Triple.chkIn (by omega)) (fun _ => hk)

theorem u16_lt (x : InBuf) (a : Nat) : x.u16 a < 65536 := by unfold InBuf.u16 le16; omega

theorem widen_eq (x : InBuf) (off i : Nat) :
    Flt.ofBits f32 (x.u16 (off + 2 * i) * 2 ^ 16 % 2 ^ 32) = x.elem .bf16 off i := by
  have := u16_lt x (off + 2 * i)
  simp only [InBuf.elem, bf16ToF32]
  congr 1; omega

theorem Triple.loadBf16 {α : Type} {P : Mem → Prop} {n : Nat} {x : InBuf} {off i : Nat} {k : V n F32 → Prog α}
    {R : α → Mem → Prop} (h : off + 2 * (i + n) ≤ x.size)
    (hk : Triple E w P (k (fun j => x.elem .bf16 off (i + j))) R) :
    Triple E w P ((Verif.loadBf16 n x off i).bind k) R := by
  simp only [Verif.loadBf16, Prog.bind_eq, Prog.bind_assoc, Prog.pure_eq, Prog.ret_bind]
  refine Triple.loadu_u16 h ?_
  have : bf16_to_ps (fun j : Fin n => x.u16 (off + 2 * (i + j))) = (fun j : Fin n => x.elem .bf16 off (i + j)) := by
    funext j; exact widen_eq x off (i + j)
  rw [this]; exact hk

theorem bf16lo_eq (x : InBuf) (off i : Nat) (j : Fin 4) :
    bf16lo (fun j : Fin 8 => x.u16 (off + 2 * (i + j))) j = x.elem .bf16 off (i + j) := widen_eq x off (i + j)
theorem bf16hi_eq (x : InBuf) (off i : Nat) (j : Fin 4) :
    bf16hi (fun j : Fin 8 => x.u16 (off + 2 * (i + j))) j = x.elem .bf16 off (i + (4 + j)) := by
  rw [← widen_eq]
  have h : j.val < 4 := j.isLt
  simp only [bf16hi, bf16lo, bf16_to_ps, mm_srli_si128_8w, h, dif_pos, Nat.add_comm 4]

theorem lo255 {x : InBuf} {off i k : Nat} {inv : F32} {zp : ℤ} {t : Fin 4} (h : k = i + t) :
    vClampMaxMin 255 (vRound inv zp (bf16lo (fun j : Fin 8 => x.u16 (off + 2 * (i + j))))) t
      = (vcode 255 inv zp (x.elem .bf16 off k) : ℤ) := by
  rw [vClampMaxMin_255, bf16lo_eq, h]
theorem hi255 {x : InBuf} {off i k : Nat} {inv : F32} {zp : ℤ} {t : Fin 4} (h : k = i + (4 + t)) :
    vClampMaxMin 255 (vRound inv zp (bf16hi (fun j : Fin 8 => x.u16 (off + 2 * (i + j))))) t
      = (vcode 255 inv zp (x.elem .bf16 off k) : ℤ) := by
  rw [vClampMaxMin_255, bf16hi_eq, h]
theorem lo15 {x : InBuf} {off i k : Nat} {inv : F32} {zp : ℤ} {t : Fin 4} (h : k = i + t) :
    vClampMaxMin' 15 (vRound inv zp (bf16lo (fun j : Fin 8 => x.u16 (off + 2 * (i + j))))) t
      = (vcode 15 inv zp (x.elem .bf16 off k) : ℤ) := by
  rw [vClampMaxMin'_15, bf16lo_eq, h]
theorem hi15 {x : InBuf} {off i k : Nat} {inv : F32} {zp : ℤ} {t : Fin 4} (h : k = i + (4 + t)) :
    vClampMaxMin' 15 (vRound inv zp (bf16hi (fun j : Fin 8 => x.u16 (off + 2 * (i + j))))) t
      = (vcode 15 inv zp (x.elem .bf16 off k) : ℤ) := by
  rw [vClampMaxMin'_15, bf16hi_eq, h]

/-- Appending `k` bytes of a register. -/
theorem Triple.storeu {m0 : Mem} {o len n k a : Nat} {Ok : Nat → Nat → Prop} {v : V n Nat}
    (ha : a = o + len) (hlo : w.lo ≤ o) (hhi : o + len + k ≤ w.hi) (hk : k ≤ n)
    (hok : ∀ j (hn : j < n), j < k → Ok (len + j) (v ⟨j, hn⟩)) :
    Triple E w (Inv m0 o Ok len) (Simd.storeu a k v) (fun _ => Inv m0 o Ok (len + k)) := by
  refine Triple.stBytes ha hlo hhi (fun j hj => ?_)
  have : toFn v j = v ⟨j, by omega⟩ := by simp [toFn, show j < n by omega]
  rw [this]; exact hok j _ hj

theorem Triple.stream {m0 : Mem} {o len n a : Nat} {Ok : Nat → Nat → Prop} {v : V n Nat}
    (ha : a = o + len) (hal : a % n = 0) (hlo : w.lo ≤ o) (hhi : o + len + n ≤ w.hi)
    (hok : ∀ j (hj : j < n), Ok (len + j) (v ⟨j, hj⟩)) :
    Triple E w (Inv m0 o Ok len) (Simd.stream a v) (fun _ => Inv m0 o Ok (len + n)) := by
  unfold Simd.stream
  rw [if_pos hal]
  refine Triple.stBytes ha hlo hhi (fun j hj => ?_)
  have : toFn v j = v ⟨j, hj⟩ := by simp [toFn, hj]
  rw [this]; exact hok j hj

/-! ## uint8 -/

variable {m0 : Mem} {x : InBuf} {off o n : Nat} {P : Nat → Nat → Prop}

theorem inGroups_iff {isa : Isa} {a b : DType} {A k o n i : Nat} (h : Spec.groups isa a b = some (A, k)) :
    Spec.InGroups isa a b o n i ↔ (A - o % A) % A ≤ i ∧ i < (A - o % A) % A + (n - (A - o % A) % A) / k * k := by
  constructor
  · rintro ⟨A', k', h', g⟩
    rw [h] at h'
    simp only [Option.some.injEq, Prod.mk.injEq] at h'
    obtain ⟨rfl, rfl⟩ := h'
    exact g
  · exact fun g => ⟨A, k, h, g⟩

theorem not_inGroups {isa : Isa} {a b : DType} {o n i : Nat} (h : Spec.groups isa a b = none) : ¬ Spec.InGroups isa a b o n i := by
  rintro ⟨A', k', h', _⟩
  rw [h] at h'; cases h'

/-- Scalar byte loop with any step, over the elements from `i` up to `B`. -/
theorem byteLoop {ft : FT} {step : F32 → Prog Nat} {i B : Nat} {cond : Nat → Bool}
    (hin : off + ft.size * n ≤ x.size) (hlo : w.lo ≤ o) (hhi : o + n ≤ w.hi) (_hB : B ≤ n)
    (hcn : ∀ i, cond i = true → i < n) (hc : ∀ j, i ≤ j → j ≤ B → cond j = true → j < B) (hi : i ≤ B)
    (hs : ∀ j, i ≤ j → j < B → StepOk E (step (x.elem ft off j)))
    (hP : ∀ j q, i ≤ j → j < B → step (x.elem ft off j) = .ret q → P j q)
    (hb : ∀ i q, P i q → q ≤ 255) :
    Triple E w (Inv m0 o (OkPack 8 n P) i)
      (forI cond 1 (fun i => do let q ← (do let v ← ldX ft x off i; step v); wrB (o + i) q) n i)
      (fun i' m => Inv m0 o (OkPack 8 n P) i' m ∧ i' ≤ B ∧ cond i' = false ∧ i ≤ i') := by
  have := Triple.forI (E := E) (w := w) (I := fun j m => Inv m0 o (OkPack 8 n P) j m ∧ i ≤ j ∧ j ≤ B) (cond := cond) (step := 1)
    (body := fun i => do let q ← (do let v ← ldX ft x off i; step v); wrB (o + i) q) (fuel := n) (i := i) (N := n)
    (by omega) hcn (by omega) ?_
  · exact this.conseq (fun m h => ⟨h, Nat.le_refl _, hi⟩) (fun a m h => ⟨h.1.1, h.1.2.2, h.2.1, h.2.2⟩)
  · intro j hci
    refine Triple.perMem (fun m0' hm0 => ?_)
    have hij := hm0.2.1
    have hjB := hc j hij hm0.2.2 hci
    have hin' := hcn j hci
    simp only [Prog.bind_eq, Prog.bind_assoc]
    have hsz : off + ft.size * j + ft.size ≤ x.size := by
      have : ft.size * (j + 1) ≤ ft.size * n := Nat.mul_le_mul_left _ (by omega)
      rw [Nat.mul_add] at this; omega
    refine Triple.ldXBind hsz (Triple.step (hs j hij hjB) (fun q hq => ?_))
    refine Triple.wrB (by simp [Win.has]; omega) (fun m hm => ⟨?_, by omega, by omega⟩)
    subst hm
    exact hm0.1.set (okPack8 (hb j q (hP j q hij hjB hq)) hin' (hP j q hij hjB hq))

theorem vecLoop {i step s1 : Nat} {Ok : Nat → Nat → Prop} {body : Nat → Prog Unit} {A : Nat → Prop} {len : Nat → Nat}
    (hstep : step = s1 + 1)
    (hi : i ≤ n) (hA : i + s1 < n → A i) (hA' : ∀ i, A i → A (i + step))
    (hbody : ∀ j, j + step ≤ n → A j → i ≤ j → step ∣ j - i →
      Triple E w (Inv m0 o Ok (len j)) (body j) (fun _ => Inv m0 o Ok (len (j + step)))) :
    Triple E w (Inv m0 o Ok (len i)) (forI (fun i => i + s1 < n) step body n i)
      (fun i' m => Inv m0 o Ok (len i') m ∧ i' ≤ n ∧ i ≤ i' ∧ step ∣ i' - i ∧ n ≤ i' + s1) := by
  have := Triple.forI (E := E) (w := w)
    (I := fun j m => Inv m0 o Ok (len j) m ∧ j ≤ n ∧ i ≤ j ∧ step ∣ j - i ∧ (j + s1 < n → A j))
    (cond := fun i => decide (i + s1 < n)) (step := step) (body := body) (fuel := n) (i := i) (N := n)
    (by omega) (by intro i h; have := of_decide_eq_true h; omega) (by omega) ?_
  · exact this.conseq (fun m h => ⟨h, hi, Nat.le_refl _, by simp, hA⟩)
      (fun a m h => ⟨h.1.1, h.1.2.1, h.1.2.2.1, h.1.2.2.2.1, by have := of_decide_eq_false h.2.1; omega⟩)
  · intro j hj
    have hj := of_decide_eq_true hj
    refine Triple.perMem (fun m hm => ?_)
    have hAj := hm.2.2.2.2 hj
    refine (hbody j (by omega) hAj hm.2.2.1 hm.2.2.2.1).conseq (P := fun m' => m' = m) (fun m' h => h ▸ hm.1)
      (fun _ m' h => ⟨h, by omega, by omega, ?_, fun _ => hA' j hAj⟩)
    have := hm.2.2.2.1
    rw [show j + step - i = (j - i) + step by omega]
    exact Dvd.dvd.add this (dvd_refl _)

theorem Triple.bindPost {α β : Type} {P : Mem → Prop} {p : Prog α} {k : α → Prog β} {Q : α → Mem → Prop} {φ : α → Prop}
    {R : β → Mem → Prop} (hp : Triple E w P p (fun a m => Q a m ∧ φ a)) (hk : ∀ a, φ a → Triple E w (Q a) (k a) R) :
    Triple E w P (p.bind k) R := Triple.bind hp (fun a => Triple.pull (hk a))

/-- The scalar loop of the specialised uint8 kernels. -/
theorem u8Loop_triple {ft : FT} {inv : F32} {zp : ℤ} {i B : Nat} {cond : Nat → Bool}
    (hin : off + ft.size * n ≤ x.size) (hlo : w.lo ≤ o) (hhi : o + n ≤ w.hi) (hB : B ≤ n)
    (hcn : ∀ i, cond i = true → i < n) (hc : ∀ j, i ≤ j → j ≤ B → cond j = true → j < B) (hi : i ≤ B)
    (hs : ∀ j, i ≤ j → j < B → StepOk E (qNearest32 255 (x.elem ft off j) inv zp))
    (hP : ∀ j q, i ≤ j → j < B → qNearest32 255 (x.elem ft off j) inv zp = .ret q → P j q)
    (hb : ∀ i q, P i q → q ≤ 255) :
    Triple E w (Inv m0 o (OkPack 8 n P) i) (u8Loop ft x off o n inv zp cond i)
      (fun i' m => Inv m0 o (OkPack 8 n P) i' m ∧ i' ≤ B ∧ cond i' = false ∧ i ≤ i') :=
  byteLoop (step := fun v => qNearest32 255 v inv zp) hin hlo hhi hB hcn hc hi hs hP hb

/-- The final scalar loop. -/
theorem u8Tail {ft : FT} {inv : F32} {zp : ℤ} {i : Nat}
    (hin : off + ft.size * n ≤ x.size) (hlo : w.lo ≤ o) (hhi : o + n ≤ w.hi) (hi : i ≤ n)
    (hs : ∀ j, i ≤ j → j < n → StepOk E (qNearest32 255 (x.elem ft off j) inv zp))
    (hP : ∀ j q, i ≤ j → j < n → qNearest32 255 (x.elem ft off j) inv zp = .ret q → P j q)
    (hb : ∀ i q, P i q → q ≤ 255) :
    Triple E w (Inv m0 o (OkPack 8 n P) i)
      ((u8Loop ft x off o n inv zp (fun i => decide (i < n)) i).bind (fun _ => .ret ()))
      (fun _ => Inv m0 o (OkPack 8 n P) n) := by
  refine Triple.bind (u8Loop_triple hin hlo hhi (Nat.le_refl n) (by simp) (by simp) hi hs hP hb) (fun i' => Triple.ret (fun m h => ?_))
  have h2 : ¬ i' < n := of_decide_eq_false h.2.2.1
  have : i' = n := by omega
  rw [← this]; rw [← this] at h; exact h.1

/-- The alignment prologue: `s` elements, up to the first aligned address. -/
theorem u8Prologue {ft : FT} {inv : F32} {zp : ℤ} {A s : Nat}
    (hin : off + ft.size * n ≤ x.size) (hlo : w.lo ≤ o) (hhi : o + n ≤ w.hi)
    (hA : (o + s) % A = 0) (hA' : ∀ j, j < s → (o + j) % A ≠ 0)
    (hs : ∀ j, j < n → j < s → StepOk E (qNearest32 255 (x.elem ft off j) inv zp))
    (hP : ∀ j q, j < n → j < s → qNearest32 255 (x.elem ft off j) inv zp = .ret q → P j q)
    (hb : ∀ i q, P i q → q ≤ 255) :
    Triple E w (Inv m0 o (OkPack 8 n P) 0)
      (u8Loop ft x off o n inv zp (fun i => decide (i < n) && (o + i) % A != 0) 0)
      (fun i' m => Inv m0 o (OkPack 8 n P) i' m ∧ i' = min n s) := by
  refine (u8Loop_triple (B := min n s) hin hlo hhi (Nat.min_le_left _ _) (by simp +contextual) ?_ (Nat.zero_le _)
    (fun j _ hj => hs j (by omega) (by omega)) (fun j q _ hj => hP j q (by omega) (by omega)) hb).weaken (fun i' m h => ⟨h.1, ?_⟩)
  · intro j _ hj hc
    simp at hc
    by_contra hcon
    have : j = s := by omega
    subst this
    exact hc.2 hA
  · have h1 := h.2.1
    have h2 := h.2.2.1
    by_contra hcon
    have h3 : i' < n := by omega
    have h4 : i' < s := by omega
    simp [h3] at h2
    exact hA' i' h4 h2

theorem quantF32U8_triple {isa : Isa} {scale : F32} {zp : ℤ}
    (hin : off + 4 * n ≤ x.size) (hlo : w.lo ≤ o) (hhi : o + n ≤ w.hi)
    (hs : ∀ i, i < n → ¬ Spec.InGroups isa .f32 .uint8 o n i → StepOk E (qNearest32 255 (x.elem .f32 off i) (invScale scale) zp))
    (hP : ∀ i q, i < n → ¬ Spec.InGroups isa .f32 .uint8 o n i → qNearest32 255 (x.elem .f32 off i) (invScale scale) zp = .ret q → P i q)
    (hV : isa ≠ .portable → isa ≠ .neon → ∀ i, i < n → Spec.InGroups isa .f32 .uint8 o n i → P i (vcode 255 (invScale scale) zp (x.elem .f32 off i)))
    (hN : isa = .neon → ∀ i, i < n → Spec.InGroups isa .f32 .uint8 o n i → P i (ncode (invScale scale) zp (x.elem .f32 off i)))
    (hb : ∀ i q, P i q → q ≤ 255) :
    Triple E w (Inv m0 o (OkPack 8 n P) 0) (quantF32U8 isa x off o n scale zp)
      (fun _ => Inv m0 o (OkPack 8 n P) n) := by
  generalize hinv : invScale scale = inv at *
  have tail : ∀ i, i ≤ n → (∀ j, i ≤ j → j < n → ¬ Spec.InGroups isa .f32 .uint8 o n j) → Triple E w (Inv m0 o (OkPack 8 n P) i)
      ((u8Loop .f32 x off o n inv zp (fun i => decide (i < n)) i).bind (fun _ => .ret ()))
      (fun _ => Inv m0 o (OkPack 8 n P) n) := fun i hi hg => u8Tail hin hlo hhi hi
        (fun j h1 h2 => hs j h2 (hg j h1 h2)) (fun j q h1 h2 => hP j q h2 (hg j h1 h2)) hb
  have pro : ∀ A s, (o + s) % A = 0 → (∀ j, j < s → (o + j) % A ≠ 0) → (∀ j, j < s → ¬ Spec.InGroups isa .f32 .uint8 o n j) →
      Triple E w (Inv m0 o (OkPack 8 n P) 0)
      (u8Loop .f32 x off o n inv zp (fun i => decide (i < n) && (o + i) % A != 0) 0)
      (fun i' m => Inv m0 o (OkPack 8 n P) i' m ∧ i' = min n s) :=
    fun A s h1 h2 hg => u8Prologue hin hlo hhi h1 h2 (fun j h3 h4 => hs j h3 (hg j h4)) (fun j q h3 h4 => hP j q h3 (hg j h4)) hb
  have grp := fun (A k : Nat) (h : Spec.groups isa .f32 .uint8 = some (A, k)) (j : Nat) => inGroups_iff (o := o) (n := n) (i := j) h
  cases isa
  case portable =>
    simp only [quantF32U8, hinv, Prog.bind_eq, Prog.pure_eq, Prog.ret_bind]
    exact tail 0 (Nat.zero_le _) (fun _ _ _ => not_inGroups rfl)
  case sse42 =>
    have hgr := grp 16 16 rfl
    have hV := hV (by simp) (by simp)
    simp only [quantF32U8, hinv, Prog.bind_eq, Prog.pure_eq, Prog.bind_assoc]
    refine Triple.bindPost (pro 16 ((16 - o % 16) % 16) (by omega) (by intros; omega) (fun j hj => by rw [hgr]; omega)) (fun i hi => ?_)
    refine Triple.bindPost (vecLoop (step := 16) (s1 := 15) (A := fun i => (o + i) % 16 = 0) (len := fun i => i) (by omega) (by omega)
      (fun h => by omega) (fun i h => by omega) ?_) (fun i' h' => tail i' h'.1 (fun j h1 h2 => by rw [hgr]; omega))
    intro j hj hA hij hdv
    refine Triple.loadu_ps (by omega) (Triple.loadu_ps (by omega) (Triple.loadu_ps (by omega) (Triple.loadu_ps (by omega) ?_)))
    refine Triple.stream rfl hA hlo (by omega) (fun k hk => ?_)
    show OkPack 8 n P (j + k) _
    rw [ssePack16_of (g := fun t => vcode 255 inv zp (x.elem .f32 off (j + t)))]
    · exact okPack8 (vcode_le _ _ _ _) (by omega) (hV _ (by omega) (by rw [hgr]; omega))
    · exact fun t => vClampMaxMin_255 _ _ _ t
    all_goals first
      | exact fun _ => vcode_le _ _ _ _
      | exact fun t => by rw [← Nat.add_assoc]; exact vClampMaxMin_255 _ _ _ t
  case avx2 =>
    have hgr := grp 32 32 rfl
    have hV := hV (by simp) (by simp)
    simp only [quantF32U8, hinv, Prog.bind_eq, Prog.pure_eq, Prog.bind_assoc]
    refine Triple.bindPost (pro 32 ((32 - o % 32) % 32) (by omega) (by intros; omega) (fun j hj => by rw [hgr]; omega)) (fun i hi => ?_)
    refine Triple.bindPost (vecLoop (step := 32) (s1 := 31) (A := fun i => (o + i) % 32 = 0) (len := fun i => i) (by omega) (by omega)
      (fun h => by omega) (fun i h => by omega) ?_) (fun i' h' => tail i' h'.1 (fun j h1 h2 => by rw [hgr]; omega))
    intro j hj hA hij hdv
    refine Triple.loadu_ps (by omega) (Triple.loadu_ps (by omega) (Triple.loadu_ps (by omega) (Triple.loadu_ps (by omega) ?_)))
    refine Triple.stream rfl hA hlo (by omega) (fun k hk => ?_)
    show OkPack 8 n P (j + k) _
    rw [avx2Pack32_of (g := fun t => vcode 255 inv zp (x.elem .f32 off (j + t)))]
    · exact okPack8 (vcode_le _ _ _ _) (by omega) (hV _ (by omega) (by rw [hgr]; omega))
    · exact fun t => vClampMaxMin_255 _ _ _ t
    all_goals first
      | exact fun _ => vcode_le _ _ _ _
      | exact fun t => by rw [← Nat.add_assoc]; exact vClampMaxMin_255 _ _ _ t
  case neon =>
    have hgr := grp 1 16 rfl
    have hN := hN rfl
    simp only [quantF32U8, hinv, Prog.bind_eq, Prog.pure_eq, Prog.bind_assoc]
    refine Triple.bindPost (vecLoop (step := 16) (s1 := 15) (A := fun _ => True) (len := fun i => i) (by omega) (Nat.zero_le _)
      (fun h => trivial) (fun i h => trivial) ?_) (fun i' h' => tail i' h'.1 (fun j h1 h2 => by rw [hgr]; omega))
    intro j hj hA hij hdv
    refine Triple.loadu_ps (by omega) (Triple.loadu_ps (by omega) (Triple.loadu_ps (by omega) (Triple.loadu_ps (by omega) ?_)))
    refine Triple.storeu rfl hlo (by omega) (by omega) (fun k _ hk => ?_)
    show OkPack 8 n P (j + k) _
    rw [neonPack16 (f := fun t => wrap32 (vcvta1 (Flt.mul (x.elem .f32 off (j + t)) inv) + zp))]
    · exact okPack8 (clampI_le _ _) (by omega) (hN _ (by omega) (by rw [hgr]; omega))
    · exact fun t => rfl
    all_goals exact fun t => by rw [← Nat.add_assoc]; rfl
  all_goals
    have hgr := grp 16 64 rfl
    have hV := hV (by simp) (by simp)
    simp only [quantF32U8, hinv, Prog.bind_eq, Prog.pure_eq, Prog.bind_assoc]
    refine Triple.bindPost (pro 16 ((16 - o % 16) % 16) (by omega) (by intros; omega) (fun j hj => by rw [hgr]; omega)) (fun i hi => ?_)
    refine Triple.bindPost (vecLoop (step := 64) (s1 := 63) (A := fun i => (o + i) % 16 = 0) (len := fun i => i) (by omega) (by omega)
      (fun h => by omega) (fun i h => by omega) ?_) (fun i' h' => tail i' h'.1 (fun j h1 h2 => by rw [hgr]; omega))
    intro j hj hA hij hdv
    refine Triple.loadu_ps (by omega) (Triple.loadu_ps (by omega) (Triple.loadu_ps (by omega) (Triple.loadu_ps (by omega) ?_)))
    have st : ∀ c, c = 0 ∨ c = 16 ∨ c = 32 ∨ c = 48 → Triple E w (Inv m0 o (OkPack 8 n P) (j + c))
      (Simd.stream (o + j + c) (mm512_cvtusepi32_epi8 (vClampMaxMin 255 (vRound inv zp
          fun t : Fin 16 => x.elem .f32 off (j + c + t))))) (fun _ => Inv m0 o (OkPack 8 n P) (j + c + 16)) := by
      intro c hc
      refine Triple.stream (by omega) (by omega) hlo (by omega) (fun k hk => ?_)
      rw [cvtusepi32_of (g := fun t => vcode 255 inv zp (x.elem .f32 off (j + c + t)))]
      · rw [Nat.add_assoc] at *
        exact okPack8 (vcode_le _ _ _ _) (by omega) (hV _ (by omega) (by rw [hgr]; omega))
      · exact fun t => vClampMaxMin_255 _ _ _ t
      · exact fun _ => vcode_le _ _ _ _
    exact Triple.bind (st 0 (by simp)) (fun _ => Triple.bind (st 16 (by simp)) (fun _ =>
      Triple.bind (st 32 (by simp)) (fun _ => st 48 (by simp))))

theorem store16 {j a : Nat} {v : V 16 Nat} {g : Nat → Nat} (ha : a = o + j) (hj : j + 16 ≤ n)
    (hlo : w.lo ≤ o) (hhi : o + n ≤ w.hi) (hv : ∀ t : Fin 16, v t = g t) (hP : ∀ t, t < 16 → P (j + t) (g t))
    (hb : ∀ t, g t ≤ 255) :
    Triple E w (Inv m0 o (OkPack 8 n P) j) (Simd.storeu a 16 v) (fun _ => Inv m0 o (OkPack 8 n P) (j + 16)) := by
  refine Triple.storeu ha hlo (by omega) (by omega) (fun k _ hk => ?_)
  rw [hv]
  exact okPack8 (hb _) (by omega) (hP k hk)

theorem quantBf16U8_triple {isa : Isa} {scale : F32} {zp : ℤ}
    (hin : off + 2 * n ≤ x.size) (hlo : w.lo ≤ o) (hhi : o + n ≤ w.hi)
    (hs : ∀ i, i < n → ¬ Spec.InGroups isa .bf16 .uint8 o n i → StepOk E (qNearest32 255 (x.elem .bf16 off i) (invScale scale) zp))
    (hP : ∀ i q, i < n → ¬ Spec.InGroups isa .bf16 .uint8 o n i → qNearest32 255 (x.elem .bf16 off i) (invScale scale) zp = .ret q → P i q)
    (hV : isa ≠ .portable → isa ≠ .neon → ∀ i, i < n → Spec.InGroups isa .bf16 .uint8 o n i → P i (vcode 255 (invScale scale) zp (x.elem .bf16 off i)))
    (hb : ∀ i q, P i q → q ≤ 255) :
    Triple E w (Inv m0 o (OkPack 8 n P) 0) (quantBf16U8 isa x off o n scale zp)
      (fun _ => Inv m0 o (OkPack 8 n P) n) := by
  generalize hinv : invScale scale = inv at *
  have tail : ∀ i, i ≤ n → (∀ j, i ≤ j → j < n → ¬ Spec.InGroups isa .bf16 .uint8 o n j) → Triple E w (Inv m0 o (OkPack 8 n P) i)
      ((u8Loop .bf16 x off o n inv zp (fun i => decide (i < n)) i).bind (fun _ => .ret ()))
      (fun _ => Inv m0 o (OkPack 8 n P) n) := fun i hi hg => u8Tail hin hlo hhi hi
        (fun j h1 h2 => hs j h2 (hg j h1 h2)) (fun j q h1 h2 => hP j q h2 (hg j h1 h2)) hb
  have pro : ∀ A s, (o + s) % A = 0 → (∀ j, j < s → (o + j) % A ≠ 0) → (∀ j, j < s → ¬ Spec.InGroups isa .bf16 .uint8 o n j) →
      Triple E w (Inv m0 o (OkPack 8 n P) 0)
      (u8Loop .bf16 x off o n inv zp (fun i => decide (i < n) && (o + i) % A != 0) 0)
      (fun i' m => Inv m0 o (OkPack 8 n P) i' m ∧ i' = min n s) :=
    fun A s h1 h2 hg => u8Prologue hin hlo hhi h1 h2 (fun j h3 h4 => hs j h3 (hg j h4)) (fun j q h3 h4 => hP j q h3 (hg j h4)) hb
  have grp := fun (A k : Nat) (h : Spec.groups isa .bf16 .uint8 = some (A, k)) (j : Nat) => inGroups_iff (o := o) (n := n) (i := j) h
  cases isa
  case portable =>
    simp only [quantBf16U8, hinv, Prog.bind_eq, Prog.pure_eq, Prog.ret_bind]
    exact tail 0 (Nat.zero_le _) (fun _ _ _ => not_inGroups rfl)
  case neon =>
    simp only [quantBf16U8, hinv, Prog.bind_eq, Prog.pure_eq, Prog.ret_bind]
    exact tail 0 (Nat.zero_le _) (fun _ _ _ => not_inGroups rfl)
  case sse42 =>
    have hgr := grp 16 32 rfl
    have hV := hV (by simp) (by simp)
    simp only [quantBf16U8, hinv, Prog.bind_eq, Prog.pure_eq, Prog.bind_assoc]
    refine Triple.bindPost (pro 16 ((16 - o % 16) % 16) (by omega) (by intros; omega) (fun j hj => by rw [hgr]; omega)) (fun i hi => ?_)
    refine Triple.bindPost (vecLoop (step := 32) (s1 := 31) (A := fun i => (o + i) % 16 = 0) (len := fun i => i) (by omega) (by omega)
      (fun h => by omega) (fun i h => by omega) ?_) (fun i' h' => tail i' h'.1 (fun j h1 h2 => by rw [hgr]; omega))
    intro j hj hA hij hdv
    refine Triple.loadu_u16 (by omega) (Triple.loadu_u16 (by omega) (Triple.loadu_u16 (by omega) (Triple.loadu_u16 (by omega) ?_)))
    refine Triple.bind (store16 (g := fun t => vcode 255 inv zp (x.elem .bf16 off (j + t))) rfl (by omega) hlo hhi
      ?_ (fun t ht => hV _ (by omega) (by rw [hgr]; omega)) (fun _ => vcode_le _ _ _ _)) (fun _ =>
      store16 (g := fun t => vcode 255 inv zp (x.elem .bf16 off (j + 16 + t))) (by rw [Nat.add_assoc]) (by omega) hlo hhi
      ?_ (fun t ht => hV _ (by omega) (by rw [hgr]; omega)) (fun _ => vcode_le _ _ _ _))
    · intro t
      rw [ssePack16_of (g := fun t => vcode 255 inv zp (x.elem .bf16 off (j + t)))]
      · exact fun t => lo255 rfl
      · exact fun t => hi255 rfl
      · exact fun t => lo255 (by omega)
      · exact fun t => hi255 (by omega)
      · exact fun _ => vcode_le _ _ _ _
    · intro t
      rw [ssePack16_of (g := fun t => vcode 255 inv zp (x.elem .bf16 off (j + 16 + t)))]
      · exact fun t => lo255 rfl
      · exact fun t => hi255 rfl
      · exact fun t => lo255 (by omega)
      · exact fun t => hi255 (by omega)
      · exact fun _ => vcode_le _ _ _ _
  case avx2 =>
    have hgr := grp 32 32 rfl
    have hV := hV (by simp) (by simp)
    simp only [quantBf16U8, hinv, Prog.bind_eq, Prog.pure_eq, Prog.bind_assoc]
    refine Triple.bindPost (pro 32 ((32 - o % 32) % 32) (by omega) (by intros; omega) (fun j hj => by rw [hgr]; omega)) (fun i hi => ?_)
    refine Triple.bindPost (vecLoop (step := 32) (s1 := 31) (A := fun i => (o + i) % 32 = 0) (len := fun i => i) (by omega) (by omega)
      (fun h => by omega) (fun i h => by omega) ?_) (fun i' h' => tail i' h'.1 (fun j h1 h2 => by rw [hgr]; omega))
    intro j hj hA hij hdv
    refine Triple.loadBf16 (by omega) (Triple.loadBf16 (by omega) (Triple.loadBf16 (by omega) (Triple.loadBf16 (by omega) ?_)))
    refine Triple.stream rfl hA hlo (by omega) (fun k hk => ?_)
    show OkPack 8 n P (j + k) _
    rw [avx2Pack32_of (g := fun t => vcode 255 inv zp (x.elem .bf16 off (j + t)))]
    · exact okPack8 (vcode_le _ _ _ _) (by omega) (hV _ (by omega) (by rw [hgr]; omega))
    · exact fun t => vClampMaxMin_255 _ _ _ t
    all_goals first
      | exact fun _ => vcode_le _ _ _ _
      | exact fun t => by rw [← Nat.add_assoc]; exact vClampMaxMin_255 _ _ _ t
  all_goals
    have hgr := grp 1 64 rfl
    have hV := hV (by simp) (by simp)
    simp only [quantBf16U8, hinv, Prog.bind_eq, Prog.pure_eq, Prog.bind_assoc]
    refine Triple.bindPost (vecLoop (step := 64) (s1 := 63) (A := fun _ => True) (len := fun i => i) (by omega) (Nat.zero_le _)
      (fun h => trivial) (fun i h => trivial) ?_) (fun i' h' => tail i' h'.1 (fun j h1 h2 => by rw [hgr]; omega))
    intro j hj hA hij hdv
    refine Triple.loadBf16 (by omega) (Triple.loadBf16 (by omega) (Triple.loadBf16 (by omega) (Triple.loadBf16 (by omega) ?_)))
    have st : ∀ c, c = 0 ∨ c = 16 ∨ c = 32 ∨ c = 48 → Triple E w (Inv m0 o (OkPack 8 n P) (j + c))
      (Simd.storeu (o + j + c) 16 (mm512_cvtusepi32_epi8 (vClampMaxMin 255 (vRound inv zp
          fun t : Fin 16 => x.elem .bf16 off (j + c + t))))) (fun _ => Inv m0 o (OkPack 8 n P) (j + c + 16)) := by
      intro c hc
      refine Triple.storeu (by omega) hlo (by omega) (by omega) (fun k _ hk => ?_)
      rw [cvtusepi32_of (g := fun t => vcode 255 inv zp (x.elem .bf16 off (j + c + t)))]
      · rw [Nat.add_assoc] at *
        exact okPack8 (vcode_le _ _ _ _) (by omega) (hV _ (by omega) (by rw [hgr]; omega))
      · exact fun t => vClampMaxMin_255 _ _ _ t
      · exact fun _ => vcode_le _ _ _ _
    exact Triple.bind (st 0 (by simp)) (fun _ => Triple.bind (st 16 (by simp)) (fun _ =>
      Triple.bind (st 32 (by simp)) (fun _ => st 48 (by simp))))

/-! ## uint4 -/

theorem and15 {p : Nat} : p &&& 15 = p % 16 := Nat.and_two_pow_sub_one_eq_mod p 4
theorem and3 {p : Nat} : p &&& 3 = p % 4 := Nat.and_two_pow_sub_one_eq_mod p 2

/-- Scalar uint4 loop with any step, from an even index `i0`. -/
theorem quantU4From_triple {ft : FT} {step : F32 → Prog Nat} {i0 : Nat}
    (hin : off + ft.size * n ≤ x.size) (hlo : w.lo ≤ o) (hhi : o + (n + 1) / 2 ≤ w.hi)
    (hi : i0 ≤ n) (he : i0 % 2 = 0)
    (hs : ∀ i, i0 ≤ i → i < n → StepOk E (step (x.elem ft off i))) (hs0 : n % 2 = 1 → StepOk E (step f0))
    (hP : ∀ i q, i0 ≤ i → i < n → step (x.elem ft off i) = .ret q → P i q)
    (hb : ∀ v q, step v = .ret q → q ≤ 15) :
    Triple E w (Inv m0 o (OkPack 4 n P) (i0 / 2)) (quantU4From ft step x off o n i0)
      (fun _ => Inv m0 o (OkPack 4 n P) ((n + 1) / 2)) := by
  have hsz : ∀ i, i < n → off + ft.size * i + ft.size ≤ x.size := by
    intro i hi
    have : ft.size * (i + 1) ≤ ft.size * n := Nat.mul_le_mul_left _ (by omega)
    rw [Nat.mul_add] at this; omega
  unfold quantU4From
  refine Triple.bindPost (Q := fun i m => Inv m0 o (OkPack 4 n P) (i / 2) m) (φ := fun i => i + 1 ≥ n ∧ i ≤ n ∧ i % 2 = 0 ∧ i0 ≤ i) ?_ (fun i h => ?_)
  · have := Triple.forI (E := E) (w := w)
      (I := fun j m => Inv m0 o (OkPack 4 n P) (j / 2) m ∧ j ≤ n ∧ j % 2 = 0 ∧ i0 ≤ j)
      (cond := fun i => decide (i + 1 < n)) (step := 2) (body := fun i => do
        let a ← ldX ft x off i
        let b ← ldX ft x off (i + 1)
        let qa ← step a
        let qb ← step b
        wrB (o + i / 2) (packU4 qa qb)) (fuel := n) (i := i0) (N := n)
      (by omega) (by intro i h; have := of_decide_eq_true h; omega) (by omega) ?_
    · exact this.conseq (fun m h => ⟨h, hi, he, Nat.le_refl _⟩) (fun i m h => ⟨h.1.1, by have := of_decide_eq_false h.2.1; omega, h.1.2⟩)
    · intro j hj
      have hj := of_decide_eq_true hj
      simp only [Prog.bind_eq]
      refine Triple.perMem (fun m0' hm0 => ?_)
      have hj0 := hm0.2
      refine Triple.ldXBind (hsz _ (by omega)) (Triple.ldXBind (hsz _ (by omega)) ?_)
      refine Triple.step (hs _ (by omega) (by omega)) (fun qa ha => Triple.step (hs _ (by omega) (by omega)) (fun qb hb' => ?_))
      refine Triple.wrB (by simp [Win.has]; omega) (fun m hm => ⟨?_, by omega, by omega, by omega⟩)
      subst hm
      rw [packU4_eq (hb _ _ ha) (hb _ _ hb')]
      have e : (j + 2) / 2 = j / 2 + 1 := by omega
      rw [e]
      have e2 : 2 * (j / 2) = j := by omega
      refine hm0.1.set (okPack4 (hb _ _ ha) (hb _ _ hb') (by omega) ?_ (fun _ => ?_) (fun _ => by omega))
      · rw [e2]; exact hP _ _ (by omega) (by omega) ha
      · rw [e2]; exact hP _ _ (by omega) (by omega) hb'
  · split
    · rename_i hodd
      have e2 : 2 * (i / 2) = n - 1 := by omega
      simp only [Prog.bind_eq]
      refine Triple.ldXBind (hsz _ (by omega)) ?_
      refine Triple.step (hs _ (by omega) (by omega)) (fun qa ha => Triple.step (hs0 hodd) (fun qb hb' => ?_))
      rw [packU4_eq (hb _ _ ha) (hb _ _ hb')]
      have ha15 := hb _ _ ha
      refine Triple.bind (Q := fun _ m => ∃ m', Inv m0 o (OkPack 4 n P) (i / 2) m' ∧ m = m'.set (o + i / 2) (qa + 16 * qb)) ?_ (fun _ => ?_)
      · exact Triple.wrB (by simp [Win.has]; omega) (fun m hm => ⟨m, hm, rfl⟩)
      refine Triple.bind (Q := fun b m => (∃ m', Inv m0 o (OkPack 4 n P) (i / 2) m' ∧ m = m'.set (o + i / 2) (qa + 16 * qb)) ∧ b = qa + 16 * qb) ?_ (fun b => ?_)
      · refine Triple.rdB (by simp [Win.has]; omega) (fun m hm => ⟨hm, ?_⟩)
        obtain ⟨m', _, rfl⟩ := hm
        simp [Mem.set]
      · refine Triple.wrB (by simp [Win.has]; omega) (fun m hm => ?_)
        obtain ⟨⟨m', hm', rfl⟩, rfl⟩ := hm
        have e3 : (m'.set (o + i / 2) (qa + 16 * qb)).set (o + i / 2) ((qa + 16 * qb) &&& 15) = m'.set (o + i / 2) (qa + 16 * 0) := by
          funext a; simp only [Mem.set]; split
          · rw [and15]; omega
          · rfl
        rw [e3]
        have e : (n + 1) / 2 = i / 2 + 1 := by omega
        rw [e]
        refine hm'.set (okPack4 ha15 (by omega) (by omega) ?_ (fun _ => by omega) (fun _ => rfl))
        rw [e2]; exact hP _ _ (by omega) (by omega) ha
    · rename_i heven
      refine Triple.ret (fun m hm => ?_)
      have e : (n + 1) / 2 = i / 2 := by omega
      rw [e]; exact hm

/-- Eight packed bytes from sixteen 4-bit codes. -/
theorem nibbleStore {j : Nat} {u8 : V 16 Nat} {g : Nat → Nat} (hj : j + 16 ≤ n) (he : j % 2 = 0)
    (hlo : w.lo ≤ o) (hhi : o + (n + 1) / 2 ≤ w.hi)
    (h : ∀ t : Fin 16, u8 t = g t) (hg : ∀ t, g t ≤ 15) (hP : ∀ t, t < 16 → P (j + t) (g t)) {a : Nat} (ha : a = o + j / 2) :
    Triple E w (Inv m0 o (OkPack 4 n P) (j / 2)) (Simd.storeu a 8 (nibblePack u8))
      (fun _ => Inv m0 o (OkPack 4 n P) ((j + 16) / 2)) := by
  have e : (j + 16) / 2 = j / 2 + 8 := by omega
  rw [e]
  refine Triple.storeu ha hlo (by omega) (by omega) (fun k _ hk => ?_)
  rw [nibblePack_of h hg k hk]
  refine okPack4 (hg _) (hg _) (by omega) ?_ (fun _ => ?_) (fun h => by omega)
  · have : 2 * (j / 2 + k) = j + 2 * k := by omega
    rw [this]; exact hP _ (by omega)
  · have : 2 * (j / 2 + k) + 1 = j + (2 * k + 1) := by omega
    rw [this]; exact hP _ (by omega)

/-- A group of four 4-lane registers feeding `nibblePack` (AVX2 half registers, SSE). -/
theorem pack16s_of {a b c d : V 4 ℤ} {g : Nat → Nat} (ha : ∀ j : Fin 4, a j = (g j : ℤ))
    (hb : ∀ j : Fin 4, b j = (g (4 + j) : ℤ)) (hc : ∀ j : Fin 4, c j = (g (8 + j) : ℤ))
    (hd : ∀ j : Fin 4, d j = (g (12 + j) : ℤ)) (hg : ∀ j, g j ≤ 15) (j : Fin 16) :
    mm_packus_epi16 (mm_packs_epi32 a b) (mm_packs_epi32 c d) j = g j :=
  ssePack16s_of ha hb hc hd (fun j => le_trans (hg j) (by omega)) j

theorem avx2Half_of {qi0 qi1 : V 8 ℤ} {g : Nat → Nat} (h0 : ∀ j : Fin 8, qi0 j = (g j : ℤ))
    (h1 : ∀ j : Fin 8, qi1 j = (g (8 + j) : ℤ)) (hg : ∀ j, g j ≤ 15) (j : Fin 16) :
    mm_packus_epi16 (mm_packs_epi32 (lo128 (n := 4) qi0) (hi128 (n := 4) qi0))
      (mm_packs_epi32 (lo128 (n := 4) qi1) (hi128 (n := 4) qi1)) j = g j := by
  refine pack16s_of (fun t => ?_) (fun t => ?_) (fun t => ?_) (fun t => ?_) hg j
  · exact h0 _
  · exact h0 _
  · exact h1 _
  · exact (h1 _).trans (by simp only [← Nat.add_assoc])

theorem quantF32U4_triple {isa : Isa} {scale : F32} {zp : ℤ}
    (hin : off + 4 * n ≤ x.size) (hlo : w.lo ≤ o) (hhi : o + (n + 1) / 2 ≤ w.hi)
    (hs : ∀ i, i < n → ¬ Spec.InGroups isa .f32 .uint4 o n i → StepOk E (qNearest32 15 (x.elem .f32 off i) (invScale scale) zp))
    (hs0 : n % 2 = 1 → StepOk E (qNearest32 15 f0 (invScale scale) zp))
    (hP : ∀ i q, i < n → ¬ Spec.InGroups isa .f32 .uint4 o n i → qNearest32 15 (x.elem .f32 off i) (invScale scale) zp = .ret q → P i q)
    (hV : isa ≠ .portable → isa ≠ .neon → ∀ i, i < n → Spec.InGroups isa .f32 .uint4 o n i → P i (vcode 15 (invScale scale) zp (x.elem .f32 off i)))
    (hb : ∀ v q, qNearest32 15 v (invScale scale) zp = .ret q → q ≤ 15) :
    Triple E w (Inv m0 o (OkPack 4 n P) 0) (quantF32U4 isa x off o n scale zp)
      (fun _ => Inv m0 o (OkPack 4 n P) ((n + 1) / 2)) := by
  generalize hinv : invScale scale = inv at *
  have tail : ∀ i, i ≤ n → i % 2 = 0 → (∀ j, i ≤ j → j < n → ¬ Spec.InGroups isa .f32 .uint4 o n j) → Triple E w (Inv m0 o (OkPack 4 n P) (i / 2))
      (quantU4From .f32 (fun v => qNearest32 15 v inv zp) x off o n i)
      (fun _ => Inv m0 o (OkPack 4 n P) ((n + 1) / 2)) :=
    fun i hi he hg => quantU4From_triple hin hlo hhi hi he (fun j h1 h2 => hs j h2 (hg j h1 h2)) hs0 (fun j q h1 h2 => hP j q h2 (hg j h1 h2)) hb
  have grp := fun (A k : Nat) (h : Spec.groups isa .f32 .uint4 = some (A, k)) (j : Nat) => inGroups_iff (o := o) (n := n) (i := j) h
  cases isa
  case portable =>
    simp only [quantF32U4, hinv, Prog.bind_eq, Prog.pure_eq, Prog.ret_bind]
    exact tail 0 (Nat.zero_le _) rfl (fun _ _ _ => not_inGroups rfl)
  case neon =>
    simp only [quantF32U4, hinv, Prog.bind_eq, Prog.pure_eq, Prog.ret_bind]
    exact tail 0 (Nat.zero_le _) rfl (fun _ _ _ => not_inGroups rfl)
  all_goals
    have hgr := grp 1 16 rfl
    have hV := hV (by simp) (by simp)
    simp only [quantF32U4, hinv, Prog.bind_eq, Prog.pure_eq, Prog.bind_assoc]
    refine Triple.bindPost (vecLoop (step := 16) (s1 := 15) (A := fun i => i % 2 = 0) (len := fun i => i / 2) (by omega) (Nat.zero_le _)
      (fun h => rfl) (fun i h => by omega) ?_) (fun i' h' => tail i' h'.1 (by have := h'.2.2.1; omega) (fun j h1 h2 => by rw [hgr]; omega))
    intro j hj hA hij hdv
  case sse42 =>
    refine Triple.loadu_ps (by omega) (Triple.loadu_ps (by omega) (Triple.loadu_ps (by omega) (Triple.loadu_ps (by omega) ?_)))
    refine nibbleStore (g := fun t => vcode 15 inv zp (x.elem .f32 off (j + t))) hj hA hlo hhi (fun t => ?_)
      (fun _ => vcode_le _ _ _ _) (fun t ht => hV _ (by omega) (by rw [hgr]; omega)) rfl
    rw [pack16s_of (g := fun t => vcode 15 inv zp (x.elem .f32 off (j + t)))]
    · exact fun t => vClampMaxMin'_15 _ _ _ t
    all_goals first
      | exact fun _ => vcode_le _ _ _ _
      | exact fun t => by rw [← Nat.add_assoc]; exact vClampMaxMin'_15 _ _ _ t
  case avx2 =>
    refine Triple.loadu_ps (by omega) (Triple.loadu_ps (by omega) ?_)
    refine nibbleStore (g := fun t => vcode 15 inv zp (x.elem .f32 off (j + t))) hj hA hlo hhi (fun t => ?_)
      (fun _ => vcode_le _ _ _ _) (fun t ht => hV _ (by omega) (by rw [hgr]; omega)) rfl
    rw [avx2Half_of (g := fun t => vcode 15 inv zp (x.elem .f32 off (j + t)))]
    · exact fun t => vClampMinMax_15 _ _ _ t
    all_goals first
      | exact fun _ => vcode_le _ _ _ _
      | exact fun t => by rw [← Nat.add_assoc]; exact vClampMinMax_15 _ _ _ t
  all_goals
    refine Triple.loadu_ps (by omega) ?_
    refine nibbleStore (g := fun t => vcode 15 inv zp (x.elem .f32 off (j + t))) hj hA hlo hhi (fun t => ?_)
      (fun _ => vcode_le _ _ _ _) (fun t ht => hV _ (by omega) (by rw [hgr]; omega)) rfl
    rw [cvtusepi32_of (g := fun t => vcode 15 inv zp (x.elem .f32 off (j + t)))]
    · exact fun t => vClampMinMax_15 _ _ _ t
    · exact fun _ => le_trans (vcode_le _ _ _ _) (by omega)

theorem quantBf16U4_triple {isa : Isa} {scale : F32} {zp : ℤ}
    (hin : off + 2 * n ≤ x.size) (hlo : w.lo ≤ o) (hhi : o + (n + 1) / 2 ≤ w.hi)
    (hs : ∀ i, i < n → ¬ Spec.InGroups isa .bf16 .uint4 o n i → StepOk E (qNearest32 15 (x.elem .bf16 off i) (invScale scale) zp))
    (hs0 : n % 2 = 1 → StepOk E (qNearest32 15 f0 (invScale scale) zp))
    (hP : ∀ i q, i < n → ¬ Spec.InGroups isa .bf16 .uint4 o n i → qNearest32 15 (x.elem .bf16 off i) (invScale scale) zp = .ret q → P i q)
    (hV : isa ≠ .portable → isa ≠ .neon → ∀ i, i < n → Spec.InGroups isa .bf16 .uint4 o n i → P i (vcode 15 (invScale scale) zp (x.elem .bf16 off i)))
    (hb : ∀ v q, qNearest32 15 v (invScale scale) zp = .ret q → q ≤ 15) :
    Triple E w (Inv m0 o (OkPack 4 n P) 0) (quantBf16U4 isa x off o n scale zp)
      (fun _ => Inv m0 o (OkPack 4 n P) ((n + 1) / 2)) := by
  generalize hinv : invScale scale = inv at *
  have tail : ∀ i, i ≤ n → i % 2 = 0 → (∀ j, i ≤ j → j < n → ¬ Spec.InGroups isa .bf16 .uint4 o n j) → Triple E w (Inv m0 o (OkPack 4 n P) (i / 2))
      (quantU4From .bf16 (fun v => qNearest32 15 v inv zp) x off o n i)
      (fun _ => Inv m0 o (OkPack 4 n P) ((n + 1) / 2)) :=
    fun i hi he hg => quantU4From_triple hin hlo hhi hi he (fun j h1 h2 => hs j h2 (hg j h1 h2)) hs0 (fun j q h1 h2 => hP j q h2 (hg j h1 h2)) hb
  have grp := fun (A k : Nat) (h : Spec.groups isa .bf16 .uint4 = some (A, k)) (j : Nat) => inGroups_iff (o := o) (n := n) (i := j) h
  cases isa
  case portable =>
    simp only [quantBf16U4, hinv, Prog.bind_eq, Prog.pure_eq, Prog.ret_bind]
    exact tail 0 (Nat.zero_le _) rfl (fun _ _ _ => not_inGroups rfl)
  case neon =>
    simp only [quantBf16U4, hinv, Prog.bind_eq, Prog.pure_eq, Prog.ret_bind]
    exact tail 0 (Nat.zero_le _) rfl (fun _ _ _ => not_inGroups rfl)
  case sse42 =>
    have hgr := grp 1 32 rfl
    have hV := hV (by simp) (by simp)
    simp only [quantBf16U4, hinv, Prog.bind_eq, Prog.pure_eq, Prog.bind_assoc]
    refine Triple.bindPost (vecLoop (step := 32) (s1 := 31) (A := fun i => i % 2 = 0) (len := fun i => i / 2) (by omega) (Nat.zero_le _)
      (fun h => rfl) (fun i h => by omega) ?_) (fun i' h' => tail i' h'.1 (by have := h'.2.2.1; omega) (fun j h1 h2 => by rw [hgr]; omega))
    intro j hj hA hij hdv
    refine Triple.loadu_u16 (by omega) (Triple.loadu_u16 (by omega) (Triple.loadu_u16 (by omega) (Triple.loadu_u16 (by omega) ?_)))
    refine Triple.bind (nibbleStore (g := fun t => vcode 15 inv zp (x.elem .bf16 off (j + t))) (by omega) hA hlo hhi (fun t => ?_)
      (fun _ => vcode_le _ _ _ _) (fun t ht => hV _ (by omega) (by rw [hgr]; omega)) rfl) (fun _ =>
      (nibbleStore (g := fun t => vcode 15 inv zp (x.elem .bf16 off (j + 16 + t))) (by omega) (by omega) hlo hhi (fun t => ?_)
      (fun _ => vcode_le _ _ _ _) (fun t ht => hV _ (by omega) (by rw [hgr]; omega)) (by omega)).weaken (fun _ _ h => h))
    · rw [pack16s_of (g := fun t => vcode 15 inv zp (x.elem .bf16 off (j + t)))]
      · exact fun t => lo15 (by omega)
      · exact fun t => hi15 (by omega)
      · exact fun t => lo15 (by omega)
      · exact fun t => hi15 (by omega)
      · exact fun _ => vcode_le _ _ _ _
    · rw [pack16s_of (g := fun t => vcode 15 inv zp (x.elem .bf16 off (j + 16 + t)))]
      · exact fun t => lo15 (by omega)
      · exact fun t => hi15 (by omega)
      · exact fun t => lo15 (by omega)
      · exact fun t => hi15 (by omega)
      · exact fun _ => vcode_le _ _ _ _
  all_goals
    have hgr := grp 1 16 rfl
    have hV := hV (by simp) (by simp)
    simp only [quantBf16U4, hinv, Prog.bind_eq, Prog.pure_eq, Prog.bind_assoc]
    refine Triple.bindPost (vecLoop (step := 16) (s1 := 15) (A := fun i => i % 2 = 0) (len := fun i => i / 2) (by omega) (Nat.zero_le _)
      (fun h => rfl) (fun i h => by omega) ?_) (fun i' h' => tail i' h'.1 (by have := h'.2.2.1; omega) (fun j h1 h2 => by rw [hgr]; omega))
    intro j hj hA hij hdv
  case avx2 =>
    refine Triple.loadBf16 (by omega) (Triple.loadBf16 (by omega) ?_)
    refine nibbleStore (g := fun t => vcode 15 inv zp (x.elem .bf16 off (j + t))) hj hA hlo hhi (fun t => ?_)
      (fun _ => vcode_le _ _ _ _) (fun t ht => hV _ (by omega) (by rw [hgr]; omega)) rfl
    rw [avx2Half_of (g := fun t => vcode 15 inv zp (x.elem .bf16 off (j + t)))]
    · exact fun t => vClampMinMax_15 _ _ _ t
    all_goals first
      | exact fun _ => vcode_le _ _ _ _
      | exact fun t => by rw [← Nat.add_assoc]; exact vClampMinMax_15 _ _ _ t
  all_goals
    refine Triple.loadBf16 (by omega) ?_
    refine nibbleStore (g := fun t => vcode 15 inv zp (x.elem .bf16 off (j + t))) hj hA hlo hhi (fun t => ?_)
      (fun _ => vcode_le _ _ _ _) (fun t ht => hV _ (by omega) (by rw [hgr]; omega)) rfl
    rw [cvtusepi32_of (g := fun t => vcode 15 inv zp (x.elem .bf16 off (j + t)))]
    · exact fun t => vClampMinMax_15 _ _ _ t
    · exact fun _ => le_trans (vcode_le _ _ _ _) (by omega)

/-! ## uint2 -/

theorem shl2_lt {q : Nat} : (q &&& 3) <<< 2 = 4 * (q % 4) := by rw [and3, Nat.shiftLeft_eq]; omega
theorem shl4_lt {q : Nat} : (q &&& 3) <<< 4 = 16 * (q % 4) := by rw [and3, Nat.shiftLeft_eq]; omega

theorem or_c {c : Nat} (hc : c ≤ 3) : (0 ||| ((c &&& 3) <<< 4)) % 256 = 16 * c := by
  rw [shl4_lt, Nat.zero_or]; omega
theorem or_b {b c : Nat} (hb : b ≤ 3) (hc : c ≤ 3) : (16 * c ||| ((b &&& 3) <<< 2)) % 256 = 4 * b + 16 * c := by
  have : ∀ b c : Fin 4, (16 * c.val ||| ((b.val &&& 3) <<< 2)) % 256 = 4 * b.val + 16 * c.val := by decide
  exact this ⟨b, by omega⟩ ⟨c, by omega⟩
theorem or_a {a b c : Nat} (ha : a ≤ 3) (hb : b ≤ 3) (hc : c ≤ 3) :
    (4 * b + 16 * c ||| (a &&& 3)) % 256 = a + 4 * b + 16 * c := by
  have : ∀ a b c : Fin 4, (4 * b.val + 16 * c.val ||| (a.val &&& 3)) % 256 = a.val + 4 * b.val + 16 * c.val := by decide
  exact this ⟨a, by omega⟩ ⟨b, by omega⟩ ⟨c, by omega⟩

/-- The scalar uint2 loops share this shape: a four-element step `pk4` in the loop and a
one-element step `pk1` in the tail. -/
theorem u2Body {ft : FT} {step : F32 → Prog Nat} {pk4 : F32 → F32 → F32 → F32 → Prog Nat} {pk1 : F32 → Prog Nat} {i0 : Nat}
    (hin : off + ft.size * n ≤ x.size) (hlo : w.lo ≤ o) (hhi : o + (n + 3) / 4 ≤ w.hi)
    (hi : i0 ≤ n) (he : i0 % 4 = 0)
    (hpk4 : ∀ i, i0 ≤ i → i + 3 < n → StepOk E (pk4 (x.elem ft off i) (x.elem ft off (i+1)) (x.elem ft off (i+2)) (x.elem ft off (i+3))))
    (hpk4' : ∀ a b c d r, pk4 a b c d = .ret r → ∃ qa qb qc qd, step a = .ret qa ∧ step b = .ret qb ∧ step c = .ret qc ∧
      step d = .ret qd ∧ r = packU2 qa qb qc qd)
    (hpk1 : ∀ i, i0 ≤ i → i < n → n % 4 ≠ 0 → StepOk E (pk1 (x.elem ft off i)))
    (hpk1' : ∀ a r, pk1 a = .ret r → ∃ q, step a = .ret q ∧ r % 4 = q % 4)
    (hP : ∀ i q, i0 ≤ i → i < n → step (x.elem ft off i) = .ret q → P i q)
    (hb : ∀ v q, step v = .ret q → q ≤ 3) :
    Triple E w (Inv m0 o (OkPack 2 n P) (i0 / 4)) (do
      let i ← forI (fun i => i + 3 < n) 4 (fun i => do
        let a ← ldX ft x off i
        let b ← ldX ft x off (i + 1)
        let c ← ldX ft x off (i + 2)
        let d ← ldX ft x off (i + 3)
        let q ← pk4 a b c d
        wrB (o + i / 4) q) n i0
      if n % 4 ≠ 0 then do
        let p := 0
        let p ← (if n % 4 ≥ 3 then do
          let a ← ldX ft x off (i + 2); let q ← pk1 a; pure ((p ||| ((q &&& 3) <<< 4)) % 256) else pure p)
        let p ← (if n % 4 ≥ 2 then do
          let a ← ldX ft x off (i + 1); let q ← pk1 a; pure ((p ||| ((q &&& 3) <<< 2)) % 256) else pure p)
        let p ← (do
          let a ← ldX ft x off i; let q ← pk1 a; pure ((p ||| (q &&& 3)) % 256))
        wrB (o + i / 4) p
      else pure ())
      (fun _ => Inv m0 o (OkPack 2 n P) ((n + 3) / 4)) := by
  have hsz : ∀ i, i < n → off + ft.size * i + ft.size ≤ x.size := by
    intro i hi
    have : ft.size * (i + 1) ≤ ft.size * n := Nat.mul_le_mul_left _ (by omega)
    rw [Nat.mul_add] at this; omega
  simp only [Prog.bind_eq, Prog.pure_eq, Prog.bind_assoc]
  refine Triple.bindPost (Q := fun i m => Inv m0 o (OkPack 2 n P) (i / 4) m) (φ := fun i => i + 3 ≥ n ∧ i ≤ n ∧ i % 4 = 0 ∧ i0 ≤ i) ?_ (fun i h => ?_)
  · have := Triple.forI (E := E) (w := w)
      (I := fun j m => Inv m0 o (OkPack 2 n P) (j / 4) m ∧ j ≤ n ∧ j % 4 = 0 ∧ i0 ≤ j)
      (cond := fun i => decide (i + 3 < n)) (step := 4) (body := fun i =>
        (ldX ft x off i).bind fun a => (ldX ft x off (i + 1)).bind fun b => (ldX ft x off (i + 2)).bind fun c =>
        (ldX ft x off (i + 3)).bind fun d => (pk4 a b c d).bind fun q =>
        wrB (o + i / 4) q) (fuel := n) (i := i0) (N := n)
      (by omega) (by intro i h; have := of_decide_eq_true h; omega) (by omega) ?_
    · exact this.conseq (fun m h => ⟨h, hi, he, Nat.le_refl _⟩) (fun i m h => ⟨h.1.1, by have := of_decide_eq_false h.2.1; omega, h.1.2⟩)
    · intro j hj
      have hj := of_decide_eq_true hj
      refine Triple.perMem (fun m0' hm0 => ?_)
      have hj0 := hm0.2
      refine Triple.ldXBind (hsz _ (by omega)) (Triple.ldXBind (hsz _ (by omega)) (Triple.ldXBind (hsz _ (by omega))
        (Triple.ldXBind (hsz _ (by omega)) ?_)))
      refine Triple.step (hpk4 _ (by omega) hj) (fun q hq => ?_)
      obtain ⟨qa, qb, qc, qd, h0, h1, h2, h3, rfl⟩ := hpk4' _ _ _ _ _ hq
      refine Triple.wrB (by simp [Win.has]; omega) (fun m hm => ⟨?_, by omega, by omega, by omega⟩)
      subst hm
      rw [packU2_eq (hb _ _ h0) (hb _ _ h1) (hb _ _ h2) (hb _ _ h3)]
      have e : (j + 4) / 4 = j / 4 + 1 := by omega
      rw [e]
      have e2 : 4 * (j / 4) = j := by omega
      refine hm0.1.set (okPack2 (hb _ _ h0) (hb _ _ h1) (hb _ _ h2) (hb _ _ h3) (by omega) ?_ (fun _ => ?_) (fun _ => by omega)
         (fun _ => ?_) (fun _ => by omega) (fun _ => ?_) (fun _ => by omega))
      all_goals rw [e2]
      · exact hP _ _ (by omega) (by omega) h0
      · exact hP _ _ (by omega) (by omega) h1
      · exact hP _ _ (by omega) (by omega) h2
      · exact hP _ _ (by omega) (by omega) h3
  · split
    · rename_i hne
      have e2 : 4 * (i / 4) = i := by omega
      have e : (n + 3) / 4 = i / 4 + 1 := by omega
      rw [e]
      -- first conditional
      refine Triple.bindPure (φ := fun p => ∃ c, c ≤ 3 ∧ p = 16 * c ∧ (i + 2 < n → P (i + 2) c) ∧ (n ≤ i + 2 → c = 0)) ?_ ?_
      · split
        · refine Triple.ldXBind (hsz _ (by omega)) (Triple.step (hpk1 _ (by omega) (by omega) hne) (fun q hq => Triple.ret (fun m hm => ⟨hm, ?_⟩)))
          obtain ⟨q', h1, h2⟩ := hpk1' _ _ hq
          have hq3 := hb _ _ h1
          refine ⟨q', hq3, ?_, fun _ => hP _ _ (by omega) (by omega) h1, fun h => by omega⟩
          have : (q &&& 3) = (q' &&& 3) := by rw [and3, and3, h2]
          rw [this]; exact or_c hq3
        · exact Triple.ret (fun m hm => ⟨hm, 0, by omega, by omega, fun h => by omega, fun _ => rfl⟩)
      rintro _ ⟨c, hc, rfl, hc1, hc2⟩
      refine Triple.bindPure (φ := fun p => ∃ b, b ≤ 3 ∧ p = 4 * b + 16 * c ∧ (i + 1 < n → P (i + 1) b) ∧ (n ≤ i + 1 → b = 0)) ?_ ?_
      · split
        · refine Triple.ldXBind (hsz _ (by omega)) (Triple.step (hpk1 _ (by omega) (by omega) hne) (fun q hq => Triple.ret (fun m hm => ⟨hm, ?_⟩)))
          obtain ⟨q', h1, h2⟩ := hpk1' _ _ hq
          have hq3 := hb _ _ h1
          refine ⟨q', hq3, ?_, fun _ => hP _ _ (by omega) (by omega) h1, fun h => by omega⟩
          have : (q &&& 3) = (q' &&& 3) := by rw [and3, and3, h2]
          rw [this]; exact or_b hq3 hc
        · exact Triple.ret (fun m hm => ⟨hm, 0, by omega, by omega, fun h => by omega, fun _ => rfl⟩)
      rintro _ ⟨b, hb3, rfl, hb1, hb2⟩
      refine Triple.ldXBind (hsz _ (by omega)) (Triple.step (hpk1 _ (by omega) (by omega) hne) (fun q hq => ?_))
      obtain ⟨q', h1, h2⟩ := hpk1' _ _ hq
      have hq3 := hb _ _ h1
      have h3 : (q &&& 3) = (q' &&& 3) := by rw [and3, and3, h2]
      simp only [Prog.ret_bind]
      rw [h3, or_a hq3 hb3 hc]
      refine Triple.wrB (by simp [Win.has]; omega) (fun m hm => ?_)
      have := okPack2 (n := n) (P := P) (j := i / 4) (a := q') (b := b) (c := c) (d := 0) hq3 hb3 hc (by omega) (by omega)
        (by rw [e2]; exact hP _ _ (by omega) (by omega) h1) (by rw [e2]; exact hb1) (by rw [e2]; exact hb2)
        (by rw [e2]; exact hc1) (by rw [e2]; exact hc2) (fun h => by omega) (fun _ => rfl)
      exact hm.set this
    · rename_i heq
      refine Triple.ret (fun m hm => ?_)
      have e : (n + 3) / 4 = i / 4 := by omega
      rw [e]; exact hm

theorem StepOk.bind {p : Prog Nat} {k : Nat → Prog Nat} (hp : StepOk E p) (hk : ∀ q, StepOk E (k q)) : StepOk E (p.bind k) := by
  rcases hp with ⟨q, rfl⟩ | ⟨f, rfl, h⟩
  · exact hk q
  · exact Or.inr ⟨f, rfl, h⟩

theorem StepOk.bind_inv {p : Prog Nat} {k : Nat → Prog Nat} {r : Nat} (hp : StepOk (fun _ => True) p)
    (h : p.bind k = .ret r) : ∃ q, p = .ret q ∧ k q = .ret r := by
  rcases hp with ⟨q, rfl⟩ | ⟨f, rfl, _⟩
  · exact ⟨q, rfl, h⟩
  · cases h

theorem StepOk.true {p : Prog Nat} (h : StepOk E p) : StepOk (fun _ => True) p := by
  rcases h with h | ⟨f, h, _⟩
  · exact Or.inl h
  · exact Or.inr ⟨f, h, trivial⟩

theorem u2StepPacked_ok {step : F32 → Prog Nat} {a b c d : F32} (h0 : StepOk E (step a)) (h1 : StepOk E (step b))
    (h2 : StepOk E (step c)) (h3 : StepOk E (step d)) : StepOk E (u2StepPacked step a b c d) :=
  h0.bind (fun _ => h1.bind (fun _ => h2.bind (fun _ => h3.bind (fun _ => Or.inl ⟨_, rfl⟩))))

theorem u2StepPacked_inv {step : F32 → Prog Nat} (hst : ∀ v, StepOk (fun _ => True) (step v)) {a b c d : F32} {r : Nat}
    (h : u2StepPacked step a b c d = .ret r) : ∃ qa qb qc qd, step a = .ret qa ∧ step b = .ret qb ∧ step c = .ret qc ∧
      step d = .ret qd ∧ r = packU2 qa qb qc qd := by
  obtain ⟨qa, h0, h⟩ := StepOk.bind_inv (hst a) h
  obtain ⟨qb, h1, h⟩ := StepOk.bind_inv (hst b) h
  obtain ⟨qc, h2, h⟩ := StepOk.bind_inv (hst c) h
  obtain ⟨qd, h3, h⟩ := StepOk.bind_inv (hst d) h
  refine ⟨qa, qb, qc, qd, h0, h1, h2, h3, ?_⟩
  injection h with h; exact h.symm

/-- `quant_uint2` (generic). -/
theorem quantU2_triple {ft : FT} {step : F32 → Prog Nat}
    (hin : off + ft.size * n ≤ x.size) (hlo : w.lo ≤ o) (hhi : o + (n + 3) / 4 ≤ w.hi)
    (hst : ∀ v, StepOk (fun _ => True) (step v))
    (hs : ∀ i, i < n → StepOk E (step (x.elem ft off i)))
    (hP : ∀ i q, i < n → step (x.elem ft off i) = .ret q → P i q)
    (hb : ∀ v q, step v = .ret q → q ≤ 3) :
    Triple E w (Inv m0 o (OkPack 2 n P) 0) (quantU2 ft step x off o n)
      (fun _ => Inv m0 o (OkPack 2 n P) ((n + 3) / 4)) := by
  have h := u2Body (E := E) (w := w) (m0 := m0) (P := P) (x := x) (off := off) (o := o) (n := n) (ft := ft) (step := step)
    (pk4 := u2StepPacked step) (pk1 := step) (i0 := 0) hin hlo hhi (Nat.zero_le _) rfl
    (fun i _ hi => u2StepPacked_ok (hs _ (by omega)) (hs _ (by omega)) (hs _ (by omega)) (hs _ (by omega)))
    (fun a b c d r h => u2StepPacked_inv hst h) (fun i _ hi _ => hs i hi) (fun a r h => ⟨r, h, rfl⟩) (fun i q _ hi => hP i q hi) hb
  unfold quantU2
  simp only [u2StepPacked, Prog.bind_eq, Prog.pure_eq, Prog.bind_assoc, Prog.ret_bind] at h ⊢
  exact h

/-- Scalar part of `quant_bf16_to_uint2_nearest`. -/
theorem quantBf16U2Scalar_triple {step : F32 → Prog Nat} {i0 : Nat}
    (hin : off + 2 * n ≤ x.size) (hlo : w.lo ≤ o) (hhi : o + (n + 3) / 4 ≤ w.hi) (hi : i0 ≤ n) (he : i0 % 4 = 0)
    (hst : ∀ v, StepOk (fun _ => True) (step v))
    (hs : ∀ i, i0 ≤ i → i < n → StepOk E (step (x.elem .bf16 off i)))
    (hs0 : n % 4 ≠ 0 → StepOk E (step f0))
    (hP : ∀ i q, i0 ≤ i → i < n → step (x.elem .bf16 off i) = .ret q → P i q)
    (hb : ∀ v q, step v = .ret q → q ≤ 3) :
    Triple E w (Inv m0 o (OkPack 2 n P) (i0 / 4)) (quantBf16U2Scalar step x off o n i0)
      (fun _ => Inv m0 o (OkPack 2 n P) ((n + 3) / 4)) := by
  refine u2Body (ft := .bf16) (step := step) (pk4 := u2StepPacked step) (pk1 := fun a => u2StepPacked step a f0 f0 f0) hin hlo hhi hi he
    (fun i h0 hi => u2StepPacked_ok (hs _ (by omega) (by omega)) (hs _ (by omega) (by omega)) (hs _ (by omega) (by omega)) (hs _ (by omega) (by omega)))
    (fun a b c d r h => u2StepPacked_inv hst h)
    (fun i h0 hi h4 => u2StepPacked_ok (hs i h0 hi) (hs0 h4) (hs0 h4) (hs0 h4)) (fun a r h => ?_) hP hb
  obtain ⟨qa, qb, qc, qd, h0, h1, h2, h3, rfl⟩ := u2StepPacked_inv hst h
  refine ⟨qa, h0, ?_⟩
  rw [packU2_eq (hb _ _ h0) (hb _ _ h1) (hb _ _ h2) (hb _ _ h3)]
  omega

theorem quantBf16U2_triple {isa : Isa} {scale : F32} {zp : ℤ}
    (hin : off + 2 * n ≤ x.size) (hlo : w.lo ≤ o) (hhi : o + (n + 3) / 4 ≤ w.hi)
    (hst : ∀ v, StepOk (fun _ => True) (qNearest32 3 v (invScale scale) zp))
    (hs : ∀ i, i < n → ¬ Spec.InGroups isa .bf16 .uint2 o n i → StepOk E (qNearest32 3 (x.elem .bf16 off i) (invScale scale) zp))
    (hs0 : n % 4 ≠ 0 → StepOk E (qNearest32 3 f0 (invScale scale) zp))
    (hP : ∀ i q, i < n → ¬ Spec.InGroups isa .bf16 .uint2 o n i → qNearest32 3 (x.elem .bf16 off i) (invScale scale) zp = .ret q → P i q)
    (hV : isa = .avx512f ∨ isa = .avx512bf16 → ∀ i, i < n → Spec.InGroups isa .bf16 .uint2 o n i → P i (vcode 3 (invScale scale) zp (x.elem .bf16 off i)))
    (hb : ∀ v q, qNearest32 3 v (invScale scale) zp = .ret q → q ≤ 3) :
    Triple E w (Inv m0 o (OkPack 2 n P) 0) (quantBf16U2 isa x off o n scale zp)
      (fun _ => Inv m0 o (OkPack 2 n P) ((n + 3) / 4)) := by
  generalize hinv : invScale scale = inv at *
  have tail : ∀ i, i ≤ n → i % 4 = 0 → (∀ j, i ≤ j → j < n → ¬ Spec.InGroups isa .bf16 .uint2 o n j) → Triple E w (Inv m0 o (OkPack 2 n P) (i / 4))
      (quantBf16U2Scalar (fun v => qNearest32 3 v inv zp) x off o n i)
      (fun _ => Inv m0 o (OkPack 2 n P) ((n + 3) / 4)) :=
    fun i hi he hg => quantBf16U2Scalar_triple hin hlo hhi hi he hst (fun j h1 h2 => hs j h2 (hg j h1 h2)) hs0 (fun j q h1 h2 => hP j q h2 (hg j h1 h2)) hb
  have grp := fun (A k : Nat) (h : Spec.groups isa .bf16 .uint2 = some (A, k)) (j : Nat) => inGroups_iff (o := o) (n := n) (i := j) h
  cases isa
  case portable => simp only [quantBf16U2, hinv, Prog.bind_eq, Prog.pure_eq, Prog.ret_bind]; exact tail 0 (Nat.zero_le _) rfl (fun _ _ _ => not_inGroups rfl)
  case sse42 => simp only [quantBf16U2, hinv, Prog.bind_eq, Prog.pure_eq, Prog.ret_bind]; exact tail 0 (Nat.zero_le _) rfl (fun _ _ _ => not_inGroups rfl)
  case avx2 => simp only [quantBf16U2, hinv, Prog.bind_eq, Prog.pure_eq, Prog.ret_bind]; exact tail 0 (Nat.zero_le _) rfl (fun _ _ _ => not_inGroups rfl)
  case neon => simp only [quantBf16U2, hinv, Prog.bind_eq, Prog.pure_eq, Prog.ret_bind]; exact tail 0 (Nat.zero_le _) rfl (fun _ _ _ => not_inGroups rfl)
  all_goals
    have hgr := grp 1 16 rfl
    have hV := hV (by simp)
    simp only [quantBf16U2, hinv, Prog.bind_eq, Prog.pure_eq, Prog.bind_assoc]
    refine Triple.bindPost (vecLoop (step := 16) (s1 := 15) (A := fun i => i % 4 = 0) (len := fun i => i / 4) (by omega) (Nat.zero_le _)
      (fun h => rfl) (fun i h => by omega) ?_) (fun i' h' => tail i' h'.1 (by have := h'.2.2.1; omega) (fun j h1 h2 => by rw [hgr]; omega))
    intro j hj hA hij hdv
    refine Triple.loadBf16 (by omega) ?_
    have e : (j + 16) / 4 = j / 4 + 4 := by omega
    rw [e]
    refine Triple.storeu rfl hlo (by omega) (by omega) (fun k _ hk => ?_)
    rw [u2Pack_of (g := fun t => vcode 3 inv zp (x.elem .bf16 off (j + t))) ?_ (fun _ => vcode_le _ _ _ _) k hk]
    · have e2 : 4 * (j / 4 + k) = j + 4 * k := by omega
      refine okPack2 (vcode_le _ _ _ _) (vcode_le _ _ _ _) (vcode_le _ _ _ _) (vcode_le _ _ _ _) (by omega) ?_
        (fun _ => ?_) (fun _ => by omega) (fun _ => ?_) (fun _ => by omega) (fun _ => ?_) (fun _ => by omega)
      all_goals
        rw [e2]
        try simp only [Nat.add_assoc]
        exact hV _ (by omega) (by rw [hgr]; omega)
    · intro t
      rw [cvtusepi32_of (g := fun t => vcode 3 inv zp (x.elem .bf16 off (j + t)))]
      · exact fun t => vClampMinMax_3 _ _ _ t
      · exact fun _ => le_trans (vcode_le _ _ _ _) (by omega)

end
end Verif

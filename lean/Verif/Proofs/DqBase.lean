import Verif.Proofs.KernelsQ

/-! # Rules for element stores and loads of the dequantization kernels -/

namespace Verif
open Simd

theorem byteOf_lt (u k : Nat) : byteOf u k < 256 := Nat.mod_lt _ (by norm_num)

/-- Memory after storing `cnt` elements of `sz` bytes with encodings `v` at `a`. -/
def upd (m : Mem) (a sz cnt : Nat) (v : Nat → Nat) : Mem := fun x =>
  if a ≤ x ∧ x < a + sz * cnt then byteOf (v ((x - a) / sz)) ((x - a) % sz) else m x

/-- The state after the first `len` elements (of `sz` bytes) at `o` have been produced. -/
def InvE (m0 : Mem) (o sz : Nat) (R : Nat → Nat → Prop) (len : Nat) (m : Mem) : Prop :=
  (∀ a, ¬ (o ≤ a ∧ a < o + sz * len) → m a = m0 a) ∧
    ∀ i, i < len → ∃ v, R i v ∧ ∀ k, k < sz → m (o + sz * i + k) = byteOf v k

theorem InvE.zero (m0 : Mem) (o sz : Nat) (R : Nat → Nat → Prop) : InvE m0 o sz R 0 m0 :=
  ⟨fun _ _ => rfl, fun _ h => absurd h (Nat.not_lt_zero _)⟩

theorem InvE.upd {m0 : Mem} {o sz len cnt : Nat} {R : Nat → Nat → Prop} {m : Mem} {v : Nat → Nat} (hsz : 0 < sz)
    (h : InvE m0 o sz R len m) (hv : ∀ k, k < cnt → R (len + k) (v k)) :
    InvE m0 o sz R (len + cnt) (upd m (o + sz * len) sz cnt v) := by
  constructor
  · intro a ha
    have e : sz * (len + cnt) = sz * len + sz * cnt := by ring
    have : ¬ (o + sz * len ≤ a ∧ a < o + sz * len + sz * cnt) := by omega
    simp only [Verif.upd, this, if_false]
    exact h.1 a (by omega)
  · intro i hi
    by_cases hil : i < len
    · obtain ⟨u, hu, hb⟩ := h.2 i hil
      refine ⟨u, hu, fun k hk => ?_⟩
      have : sz * (i + 1) ≤ sz * len := Nat.mul_le_mul_left _ hil
      have e : sz * (i + 1) = sz * i + sz := by ring
      have : ¬ (o + sz * len ≤ o + sz * i + k ∧ o + sz * i + k < o + sz * len + sz * cnt) := by omega
      simp only [Verif.upd, this, if_false]
      exact hb k hk
    · refine ⟨v (i - len), ?_, fun k hk => ?_⟩
      · have := hv (i - len) (by omega)
        rwa [show len + (i - len) = i by omega] at this
      · obtain ⟨d, rfl⟩ := Nat.exists_eq_add_of_le (Nat.le_of_not_lt hil)
        have e1 : sz * (len + d) = sz * len + sz * d := by ring
        have e2 : sz * (d + 1) = sz * d + sz := by ring
        have : sz * (d + 1) ≤ sz * cnt := Nat.mul_le_mul_left _ (by omega)
        have hc : o + sz * len ≤ o + sz * (len + d) + k ∧ o + sz * (len + d) + k < o + sz * len + sz * cnt := by omega
        have e3 : o + sz * (len + d) + k - (o + sz * len) = sz * d + k := by omega
        simp only [Verif.upd, hc, and_self, if_true, e3]
        rw [show len + d - len = d by omega]
        congr 2
        · rw [Nat.add_comm, Nat.add_mul_div_left _ _ hsz, Nat.div_eq_of_lt hk, Nat.zero_add]
        · rw [Nat.add_comm, Nat.add_mul_mod_self_left, Nat.mod_eq_of_lt hk]

theorem InvE.mono {m0 : Mem} {o sz len : Nat} {R R' : Nat → Nat → Prop} {m : Mem} (h : InvE m0 o sz R len m)
    (hR : ∀ i v, i < len → R i v → R' i v) : InvE m0 o sz R' len m :=
  ⟨h.1, fun i hi => by obtain ⟨v, h1, h2⟩ := h.2 i hi; exact ⟨v, hR i v hi h1, h2⟩⟩

section
variable {E : Fault → Prop} {w : Win}

theorem Triple.stBytes_fn {m1 : Mem} {a n : Nat} {f : Nat → Nat} (hlo : w.lo ≤ a) (hhi : a + n ≤ w.hi) :
    Triple E w (fun m => m = m1) (Verif.stBytes a n f) (fun _ m => m = fun x => if a ≤ x ∧ x < a + n then f (x - a) else m1 x) := by
  induction n with
  | zero =>
    refine Triple.ret (fun m hm => ?_)
    subst hm; funext x
    rw [if_neg (by omega)]
  | succ n ih =>
    refine Triple.bind (ih (by omega)) (fun _ => ?_)
    refine Triple.wrB ?_ ?_
    · simp [Win.has]; omega
    · intro m hm
      subst hm
      funext x
      unfold Mem.set
      by_cases h : x = a + n
      · subst h
        rw [if_pos rfl, if_pos (by omega), Nat.add_sub_cancel_left]
      · rw [if_neg h]
        beta_reduce
        by_cases h2 : a ≤ x ∧ x < a + n
        · rw [if_pos h2, if_pos (by omega)]
        · rw [if_neg h2, if_neg (by omega)]

/-- Storing one vector of `n` elements. -/
theorem Triple.stElems {m1 : Mem} {a sz n : Nat} {v : Nat → Nat} {f : Nat → Nat} (hlo : w.lo ≤ a) (hhi : a + sz * n ≤ w.hi)
    (hf : ∀ k, k < sz * n → f k = byteOf (v (k / sz)) (k % sz)) :
    Triple E w (fun m => m = m1) (Verif.stBytes a (sz * n) f) (fun _ m => m = upd m1 a sz n v) := by
  refine (Triple.stBytes_fn hlo hhi).weaken (fun _ m hm => ?_)
  subst hm
  funext x
  unfold upd
  split
  · rename_i h; exact hf _ (by omega)
  · rfl

theorem Triple.stF32 {m1 : Mem} {a : Nat} {v : F32} (hlo : w.lo ≤ a) (hhi : a + 4 ≤ w.hi) :
    Triple E w (fun m => m = m1) (Verif.stF32 a v) (fun _ m => m = upd m1 a 4 1 (fun _ => v.toBits)) :=
  Triple.stElems (sz := 4) (n := 1) (v := fun _ => v.toBits) hlo hhi (fun k hk => by rw [Nat.mod_eq_of_lt (by omega)])

theorem Triple.stU16 {m1 : Mem} {a v : Nat} (hlo : w.lo ≤ a) (hhi : a + 2 ≤ w.hi) :
    Triple E w (fun m => m = m1) (Verif.stU16 a v) (fun _ m => m = upd m1 a 2 1 (fun _ => v)) :=
  Triple.stElems (sz := 2) (n := 1) (v := fun _ => v) hlo hhi (fun k hk => by rw [Nat.mod_eq_of_lt (by omega)])

/-- The float stored at `a`. -/
def rdF (m : Mem) (a : Nat) : F32 := Flt.ofBits f32 (le32 (fun k => m (a + k)))
/-- The word stored at `a`. -/
def rdW (m : Mem) (a : Nat) : Nat := le16 (fun k => m (a + k))

theorem Triple.ldF32 {m1 : Mem} {a : Nat} (hlo : w.lo ≤ a) (hhi : a + 4 ≤ w.hi) :
    Triple E w (fun m => m = m1) (Verif.ldF32 a) (fun v m => m = m1 ∧ v = rdF m1 a) := by
  refine Triple.bind (Triple.ldBytes hlo hhi) (fun f => Triple.ret (fun m hm => ?_))
  obtain ⟨rfl, hf⟩ := hm
  refine ⟨rfl, ?_⟩
  unfold rdF le32
  rw [hf 0 (by omega), hf 1 (by omega), hf 2 (by omega), hf 3 (by omega)]

theorem Triple.ldU16 {m1 : Mem} {a : Nat} (hlo : w.lo ≤ a) (hhi : a + 2 ≤ w.hi) :
    Triple E w (fun m => m = m1) (Verif.ldU16 a) (fun v m => m = m1 ∧ v = rdW m1 a) := by
  refine Triple.bind (Triple.ldBytes hlo hhi) (fun f => Triple.ret (fun m hm => ?_))
  obtain ⟨rfl, hf⟩ := hm
  refine ⟨rfl, ?_⟩
  unfold rdW le16
  rw [hf 0 (by omega), hf 1 (by omega)]

theorem rdF_congr {m m' : Mem} {a : Nat} (h : ∀ k, k < 4 → m (a + k) = m' (a + k)) : rdF m a = rdF m' a := by
  unfold rdF le32
  simp only [h 0 (by omega), h 1 (by omega), h 2 (by omega), h 3 (by omega)]
theorem rdW_congr {m m' : Mem} {a : Nat} (h : ∀ k, k < 2 → m (a + k) = m' (a + k)) : rdW m a = rdW m' a := by
  unfold rdW le16
  simp only [h 0 (by omega), h 1 (by omega)]

theorem InvE.rdF {m0 : Mem} {o len : Nat} {R : Nat → Nat → Prop} {m : Mem} (h : InvE m0 o 4 R len m) {i : Nat} (hi : len ≤ i) :
    rdF m (o + 4 * i) = rdF m0 (o + 4 * i) := rdF_congr (fun k _ => h.1 _ (by omega))
theorem InvE.rdW {m0 : Mem} {o len : Nat} {R : Nat → Nat → Prop} {m : Mem} (h : InvE m0 o 2 R len m) {i : Nat} (hi : len ≤ i) :
    rdW m (o + 2 * i) = rdW m0 (o + 2 * i) := rdW_congr (fun k _ => h.1 _ (by omega))

/-- Result of storing `v` with a reduce op. -/
def opF (op : ReduceOp) (old : F32) (v : Term) : F32 := match op with | .set => v.val | .add => v.plus old
def opW (op : ReduceOp) (old v : Nat) : Nat := match op with | .set => v | .add => bf16Add old v

theorem Triple.putF32 {m0 : Mem} {o i : Nat} {R : Nat → Nat → Prop} {op : ReduceOp} {v : Term} {a : Nat} (ha : a = o + 4 * i)
    (hlo : w.lo ≤ o) (hhi : o + 4 * (i + 1) ≤ w.hi) (hR : R i (opF op (rdF m0 (o + 4 * i)) v).toBits) :
    Triple E w (InvE m0 o 4 R i) (Verif.putF32 op a v) (fun _ => InvE m0 o 4 R (i + 1)) := by
  subst ha
  refine Triple.perMem (fun m hm => ?_)
  cases op with
  | set =>
    refine (Triple.stF32 (by omega) (by omega)).weaken (fun _ m' h => ?_)
    subst h
    exact hm.upd (by omega) (fun k hk => by have : k = 0 := by omega
                                            subst this; exact hR)
  | add =>
    refine Triple.bind (Triple.ldF32 (by omega) (by omega)) (fun old => ?_)
    refine Triple.pre (P' := fun m' => m' = m ∧ old = Verif.rdF m (o + 4 * i)) ?_ (fun _ h => h)
    refine Triple.pull (fun hold => ?_)
    refine (Triple.stF32 (by omega) (by omega)).weaken (fun _ m' h => ?_)
    subst h
    refine hm.upd (by omega) (fun k hk => ?_)
    have : k = 0 := by omega
    subst this
    rw [hold, hm.rdF (Nat.le_refl _)]; exact hR

theorem Triple.putBf16 {m0 : Mem} {o i : Nat} {R : Nat → Nat → Prop} {op : ReduceOp} {v : Nat} {a : Nat} (ha : a = o + 2 * i)
    (hlo : w.lo ≤ o) (hhi : o + 2 * (i + 1) ≤ w.hi) (hR : R i (opW op (rdW m0 (o + 2 * i)) v)) :
    Triple E w (InvE m0 o 2 R i) (Verif.putBf16 op a v) (fun _ => InvE m0 o 2 R (i + 1)) := by
  subst ha
  refine Triple.perMem (fun m hm => ?_)
  cases op with
  | set =>
    refine (Triple.stU16 (by omega) (by omega)).weaken (fun _ m' h => ?_)
    subst h
    exact hm.upd (by omega) (fun k hk => by have : k = 0 := by omega
                                            subst this; exact hR)
  | add =>
    refine Triple.bind (Triple.ldU16 (by omega) (by omega)) (fun old => ?_)
    refine Triple.pre (P' := fun m' => m' = m ∧ old = Verif.rdW m (o + 2 * i)) ?_ (fun _ h => h)
    refine Triple.pull (fun hold => ?_)
    refine (Triple.stU16 (by omega) (by omega)).weaken (fun _ m' h => ?_)
    subst h
    refine hm.upd (by omega) (fun k hk => ?_)
    have : k = 0 := by omega
    subst this
    rw [hold, hm.rdW (Nat.le_refl _)]; exact hR

/-! ## Register groups -/

/-- The lanes of a list of registers, in order, are `g 0, g 1, …`. -/
def Lanes {n : Nat} {α : Type} : List (V n α) → (Nat → α) → Prop
  | [], _ => True
  | v :: vs, g => (∀ j : Fin n, v j = g j) ∧ Lanes vs (fun k => g (n + k))

theorem Lanes.append {n : Nat} {α : Type} {l1 l2 : List (V n α)} {g : Nat → α} (h1 : Lanes l1 g)
    (h2 : Lanes l2 (fun k => g (n * l1.length + k))) : Lanes (l1 ++ l2) g := by
  induction l1 generalizing g with
  | nil => simpa using h2
  | cons v vs ih =>
    refine ⟨h1.1, ih h1.2 ?_⟩
    have : (fun k => g (n * (v :: vs).length + k)) = (fun k => g (n + (n * vs.length + k))) := by
      funext k; congr 1; simp only [List.length_cons]; ring
    rw [← this]; exact h2

theorem Lanes.map {n : Nat} {α β : Type} {l : List (V n α)} {g : Nat → α} {f : V n α → V n β} {f' : α → β}
    (hf : ∀ v j, f v j = f' (v j)) (h : Lanes l g) : Lanes (l.map f) (fun k => f' (g k)) := by
  induction l generalizing g with
  | nil => trivial
  | cons v vs ih => exact ⟨fun j => by rw [hf, h.1], ih h.2⟩

theorem Lanes.congr {n : Nat} {α : Type} {l : List (V n α)} {g g' : Nat → α} (h : Lanes l g) (hg : ∀ k, k < n * l.length → g k = g' k) :
    Lanes l g' := by
  induction l generalizing g g' with
  | nil => trivial
  | cons v vs ih =>
    have e : n * (v :: vs).length = n + n * vs.length := by simp only [List.length_cons]; ring
    refine ⟨fun j => ?_, ih h.2 (fun k hk => hg _ (by omega))⟩
    rw [h.1 j]; exact hg _ (by have := j.isLt; omega)

theorem upd_upd {m : Mem} {a sz n c : Nat} {v : Nat → Nat} (hsz : 0 < sz) :
    upd (upd m a sz n v) (a + sz * n) sz c (fun k => v (n + k)) = upd m a sz (n + c) v := by
  funext x
  unfold upd
  have e : sz * (n + c) = sz * n + sz * c := by ring
  by_cases h1 : a + sz * n ≤ x ∧ x < a + sz * n + sz * c
  · rw [if_pos h1, if_pos (by omega)]
    obtain ⟨d, hd⟩ := Nat.exists_eq_add_of_le h1.1
    have e1 : x - (a + sz * n) = d := by omega
    have e2 : x - a = d + sz * n := by omega
    rw [e1, e2, Nat.add_mul_div_left _ _ hsz, Nat.add_mul_mod_self_left, Nat.add_comm _ n]
  · rw [if_neg h1]
    by_cases h2 : a ≤ x ∧ x < a + sz * n
    · rw [if_pos h2, if_pos (by omega)]
    · rw [if_neg h2, if_neg (by omega)]

theorem upd_zero {m : Mem} {a sz : Nat} {v : Nat → Nat} : upd m a sz 0 v = m := by
  funext x; unfold upd; rw [if_neg (by omega)]

theorem Triple.storeF32s {n : Nat} {rs : List (V n F32)} {g : Nat → F32} {a : Nat} {m1 : Mem} (hg : Lanes rs g)
    (hlo : w.lo ≤ a) (hhi : a + 4 * (n * rs.length) ≤ w.hi) :
    Triple E w (fun m => m = m1) (Verif.storeF32s a rs) (fun _ m => m = upd m1 a 4 (n * rs.length) (fun k => (g k).toBits)) := by
  induction rs generalizing a g m1 with
  | nil => exact Triple.ret (fun m hm => by subst hm; simp [upd_zero])
  | cons v vs ih =>
    have e : n * (v :: vs).length = n + n * vs.length := by simp only [List.length_cons]; ring
    unfold Verif.storeF32s
    refine Triple.bind (Triple.stElems (n := n) (v := fun k => (g k).toBits) hlo (by omega) ?_) (fun _ => ?_)
    · intro k hk
      have hk4 : k / 4 < n := by omega
      rw [dif_pos hk4, hg.1]
    · refine (ih hg.2 (by omega) (by omega)).weaken (fun _ m hm => ?_)
      rw [hm, upd_upd (v := fun k => (g k).toBits) (by omega), e]

theorem Triple.storeBf16s {n : Nat} {isa : Isa} {rs : List (V n F32)} {g : Nat → F32} {a : Nat} {m1 : Mem} (hg : Lanes rs g)
    (hlo : w.lo ≤ a) (hhi : a + 2 * (n * rs.length) ≤ w.hi) :
    Triple E w (fun m => m = m1) (Verif.storeBf16s isa a rs) (fun _ m => m = upd m1 a 2 (n * rs.length)
      (fun k => if isa = .avx512bf16 then cvtnepsBits (g k).toBits else cvtPsBf16Bits (g k).toBits)) := by
  induction rs generalizing a g m1 with
  | nil => exact Triple.ret (fun m hm => by subst hm; simp [upd_zero])
  | cons v vs ih =>
    have e : n * (v :: vs).length = n + n * vs.length := by simp only [List.length_cons]; ring
    unfold Verif.storeBf16s
    refine Triple.bind (Triple.stElems (n := n)
      (v := fun k => if isa = .avx512bf16 then cvtnepsBits (g k).toBits else cvtPsBf16Bits (g k).toBits) hlo (by omega) ?_) (fun _ => ?_)
    · intro k hk
      have hk4 : k / 2 < n := by omega
      rw [dif_pos hk4]
      simp only [cvt_ps_to_bf16, hg.1]
    · refine (ih hg.2 (by omega) (by omega)).weaken (fun _ m hm => ?_)
      rw [hm, upd_upd (v := fun k => if isa = .avx512bf16 then cvtnepsBits (g k).toBits else cvtPsBf16Bits (g k).toBits) (by omega), e]

theorem Triple.loado_ps {m1 : Mem} {n a : Nat} (hlo : w.lo ≤ a) (hhi : a + 4 * n ≤ w.hi) :
    Triple E w (fun m => m = m1) (Simd.loado_ps n a) (fun v m => m = m1 ∧ ∀ j : Fin n, v j = rdF m1 (a + 4 * j)) := by
  refine Triple.bind (Triple.ldBytes hlo hhi) (fun f => Triple.ret (fun m hm => ?_))
  obtain ⟨rfl, hf⟩ := hm
  refine ⟨rfl, fun j => ?_⟩
  have := j.isLt
  unfold rdF le32
  beta_reduce
  rw [hf _ (by omega), hf _ (by omega), hf _ (by omega), hf _ (by omega)]
  simp only [Nat.add_assoc]

theorem Triple.loado_u16 {m1 : Mem} {n a : Nat} (hlo : w.lo ≤ a) (hhi : a + 2 * n ≤ w.hi) :
    Triple E w (fun m => m = m1) (Simd.loado_u16 n a) (fun v m => m = m1 ∧ ∀ j : Fin n, v j = rdW m1 (a + 2 * j)) := by
  refine Triple.bind (Triple.ldBytes hlo hhi) (fun f => Triple.ret (fun m hm => ?_))
  obtain ⟨rfl, hf⟩ := hm
  refine ⟨rfl, fun j => ?_⟩
  have := j.isLt
  unfold rdW le16
  beta_reduce
  rw [hf _ (by omega), hf _ (by omega)]
  simp only [Nat.add_assoc]

theorem Triple.accF32 {n : Nat} {op : ReduceOp} {rs : List (V n Term)} {g : Nat → Term} {a : Nat} {m1 : Mem} (hg : Lanes rs g)
    (hlo : w.lo ≤ a) (hhi : a + 4 * (n * rs.length) ≤ w.hi) :
    Triple E w (fun m => m = m1) (Verif.accF32 op a rs)
      (fun rs' m => m = m1 ∧ rs'.length = rs.length ∧ Lanes rs' (fun k => opF op (rdF m1 (a + 4 * k)) (g k))) := by
  induction rs generalizing a g with
  | nil => exact Triple.ret (fun m hm => ⟨hm, rfl, trivial⟩)
  | cons v vs ih =>
    have e : n * (v :: vs).length = n + n * vs.length := by simp only [List.length_cons]; ring
    unfold Verif.accF32
    refine Triple.bind (Q := fun v' m => m = m1 ∧ ∀ j : Fin n, v' j = opF op (rdF m1 (a + 4 * j)) (g j)) ?_ (fun v' => ?_)
    · cases op with
      | set => exact Triple.ret (fun m hm => ⟨hm, fun j => congrArg Term.val (hg.1 j)⟩)
      | add =>
        refine Triple.bind (Triple.loado_ps hlo (by omega)) (fun old => Triple.ret (fun m hm => ⟨hm.1, fun j => ?_⟩))
        simp only [opF]
        rw [hm.2 j, hg.1 j]
    · refine Triple.pull (fun hv' => ?_)
      refine Triple.bind (ih (a := a + 4 * n) hg.2 (by omega) (by omega)) (fun vs' => Triple.ret (fun m hm => ⟨hm.1, by simp [hm.2.1], hv', ?_⟩))
      have : (fun k => opF op (rdF m1 (a + 4 * n + 4 * k)) (g (n + k))) = (fun k => opF op (rdF m1 (a + 4 * (n + k))) (g (n + k))) := by
        funext k; congr 2; ring
      rw [← this]; exact hm.2.2

/-- bf16 accumulation in `float`. -/
def vopB (op : ReduceOp) (v : Term) (old : Nat) : F32 := match op with | .set => v.val | .add => v.plus (bf16ToF32 old)

theorem rdW_lt (m : Mem) (a : Nat) : rdW m a < 65536 := by unfold rdW le16; omega

theorem Triple.accBf16 {n : Nat} {op : ReduceOp} {rs : List (V n Term)} {g : Nat → Term} {a : Nat} {m1 : Mem} (hg : Lanes rs g)
    (hlo : w.lo ≤ a) (hhi : a + 2 * (n * rs.length) ≤ w.hi) :
    Triple E w (fun m => m = m1) (Verif.accBf16 op a rs)
      (fun rs' m => m = m1 ∧ rs'.length = rs.length ∧ Lanes rs' (fun k => vopB op (g k) (rdW m1 (a + 2 * k)))) := by
  induction rs generalizing a g with
  | nil => exact Triple.ret (fun m hm => ⟨hm, rfl, trivial⟩)
  | cons v vs ih =>
    have e : n * (v :: vs).length = n + n * vs.length := by simp only [List.length_cons]; ring
    unfold Verif.accBf16
    refine Triple.bind (Q := fun v' m => m = m1 ∧ ∀ j : Fin n, v' j = vopB op (g j) (rdW m1 (a + 2 * j))) ?_ (fun v' => ?_)
    · cases op with
      | set => exact Triple.ret (fun m hm => ⟨hm, fun j => congrArg Term.val (hg.1 j)⟩)
      | add =>
        refine Triple.bind (Triple.loado_u16 hlo (by omega)) (fun old => Triple.ret (fun m hm => ⟨hm.1, fun j => ?_⟩))
        simp only [vopB, bf16_to_ps, bf16ToF32]
        have h := rdW_lt m1 (a + 2 * j)
        rw [hm.2 j, hg.1 j]
        congr 2; omega
    · refine Triple.pull (fun hv' => ?_)
      refine Triple.bind (ih (a := a + 2 * n) hg.2 (by omega) (by omega)) (fun vs' => Triple.ret (fun m hm => ⟨hm.1, by simp [hm.2.1], hv', ?_⟩))
      have : (fun k => vopB op (g (n + k)) (rdW m1 (a + 2 * n + 2 * k))) = (fun k => vopB op (g (n + k)) (rdW m1 (a + 2 * (n + k)))) := by
        funext k; congr 2; ring
      rw [← this]; exact hm.2.2

theorem Triple.emitF32 {m0 : Mem} {o i n a cnt : Nat} {R : Nat → Nat → Prop} {op : ReduceOp} {rs : List (V n Term)} {g : Nat → Term}
    (hg : Lanes rs g) (ha : a = o + 4 * i) (hcnt : cnt = n * rs.length) (hlo : w.lo ≤ o) (hhi : o + 4 * (i + cnt) ≤ w.hi)
    (hR : ∀ k, k < cnt → R (i + k) (opF op (rdF m0 (o + 4 * (i + k))) (g k)).toBits) :
    Triple E w (InvE m0 o 4 R i) (Verif.emitF32 op a rs) (fun _ => InvE m0 o 4 R (i + cnt)) := by
  subst ha hcnt
  refine Triple.perMem (fun m hm => ?_)
  unfold Verif.emitF32
  refine Triple.bind (Triple.accF32 hg (by omega) (by omega)) (fun rs' => ?_)
  refine Triple.pull (fun h => ?_)
  refine (Triple.storeF32s h.2 (by omega) (by rw [h.1]; omega)).weaken (fun _ m' h' => ?_)
  rw [h', h.1]
  refine hm.upd (by omega) (fun k hk => ?_)
  have := hR k hk
  rwa [← hm.rdF (by omega), show o + 4 * (i + k) = o + 4 * i + 4 * k by ring] at this

/-- Vector float → bf16 conversion of one lane. -/
def cvtB (isa : Isa) (v : F32) : Nat := if isa = .avx512bf16 then cvtnepsBits v.toBits else cvtPsBf16Bits v.toBits

theorem Triple.emitBf16 {m0 : Mem} {o i n a cnt : Nat} {R : Nat → Nat → Prop} {isa : Isa} {op : ReduceOp} {rs : List (V n Term)} {g : Nat → Term}
    (hg : Lanes rs g) (ha : a = o + 2 * i) (hcnt : cnt = n * rs.length) (hlo : w.lo ≤ o) (hhi : o + 2 * (i + cnt) ≤ w.hi)
    (hR : ∀ k, k < cnt → R (i + k) (cvtB isa (vopB op (g k) (rdW m0 (o + 2 * (i + k)))))) :
    Triple E w (InvE m0 o 2 R i) (Verif.emitBf16 isa op a rs) (fun _ => InvE m0 o 2 R (i + cnt)) := by
  subst ha hcnt
  refine Triple.perMem (fun m hm => ?_)
  unfold Verif.emitBf16
  refine Triple.bind (Triple.accBf16 hg (by omega) (by omega)) (fun rs' => ?_)
  refine Triple.pull (fun h => ?_)
  refine (Triple.storeBf16s h.2 (by omega) (by rw [h.1]; omega)).weaken (fun _ m' h' => ?_)
  rw [h', h.1]
  refine hm.upd (by omega) (fun k hk => ?_)
  have := hR k hk
  rwa [← hm.rdW (by omega), show o + 2 * (i + k) = o + 2 * i + 2 * k by ring] at this

end
end Verif

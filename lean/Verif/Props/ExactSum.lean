import Verif.Props.Replicas
import Verif.Props.ReduceBf16

/-!
# Sums that are exact: C114

When the scales, the values and the partial sums are small integer multiples of one power of two, dequantize(ADD) adds without any error: the accumulator is the exact sum, so the order
of the updates, the kernels, the thread counts, the schedules and the contraction of sums do not matter.
-/

namespace Verif.Props
open Spec

/-- `v` is an integer multiple, at most `2^p` in absolute value, of the grid step `2^k`. -/
def OnGrid (p : Nat) (k : ℤ) (v : ℚ) : Prop := ∃ m : ℤ, v = m * 2 ^ k ∧ |m| ≤ 2 ^ p

/-- What the update adds to element `i`, exactly. -/
def Update.value (u : Update) (i : Nat) : ℚ := (((u.q i : ℤ) - u.z : ℤ) : ℚ) * u.s.toRat

/-- The sum of what the updates add to element `i`. -/
def totalOf (l : List Update) (i : Nat) : ℚ := (l.map (fun u => u.value i)).sum

/-- The value after every prefix of the updates is on the grid. -/
def StaysOnGrid (p : Nat) (k : ℤ) (v : ℚ) (l : List Update) (i : Nat) : Prop :=
  ∀ l' : List Update, l' <+: l → OnGrid p k (v + totalOf l' i)

theorem StaysOnGrid.head {p : Nat} {k : ℤ} {v : ℚ} {u : Update} {l : List Update} {i : Nat} (h : StaysOnGrid p k v (u :: l) i) :
    OnGrid p k (v + u.value i) ∧ StaysOnGrid p k (v + u.value i) l i := by
  refine ⟨?_, fun l' hl => ?_⟩
  · have := h [u] ⟨l, rfl⟩
    simpa [totalOf] using this
  · have := h (u :: l') (List.cons_prefix_cons.mpr ⟨rfl, hl⟩)
    have e : totalOf (u :: l') i = u.value i + totalOf l' i := by simp [totalOf]
    rwa [e, ← add_assoc] at this

section
variable {f : Fmt} [f.Good] {k : ℤ} {v : ℚ}

omit [f.Good] in
theorem OnGrid.rep (h : OnGrid (f.mb + 1) k v) (hk : -(f.unit : ℤ) ≤ k) : Rep f |v| := by
  obtain ⟨m, rfl, hm⟩ := h
  have hn : m.natAbs ≤ 2 ^ (f.mb + 1) := by
    have : (m.natAbs : ℤ) ≤ ((2 ^ (f.mb + 1) : ℕ) : ℤ) := by rw [Int.natCast_natAbs]; push_cast; exact hm
    exact_mod_cast this
  have ha : |(m:ℚ) * 2 ^ k| = (m.natAbs : ℚ) * 2 ^ k := by
    rw [abs_mul, abs_of_pos (zpow_pos (by norm_num : (0:ℚ) < 2) k), Nat.cast_natAbs]; push_cast; rfl
  rw [ha]
  rcases le_total 0 k with h0 | h0
  · obtain ⟨j, rfl⟩ := Int.eq_ofNat_of_zero_le h0
    have := rep_nat (f := f) (k := j) hn
    simpa using this
  · obtain ⟨j, hj⟩ := Int.eq_ofNat_of_zero_le (neg_nonneg.mpr h0)
    have e : k = -(j:ℤ) := by rw [← hj, neg_neg]
    have := rep_div (f := f) (k := j) hn (by omega)
    rw [e, zpow_neg, zpow_natCast, ← div_eq_mul_inv]
    exact this

omit [f.Good] in
theorem OnGrid.le (h : OnGrid (f.mb + 1) k v) (hk : k + f.mb + 2 ≤ f.emax) : |v| ≤ 2 ^ f.emax / 2 := by
  obtain ⟨m, rfl, hm⟩ := h
  have hm' : |(m:ℚ)| ≤ 2 ^ (f.mb + 1) := by exact_mod_cast hm
  rw [abs_mul, abs_of_pos (zpow_pos (by norm_num : (0:ℚ) < 2) k)]
  calc |(m:ℚ)| * 2 ^ k ≤ 2 ^ (f.mb + 1) * 2 ^ k := mul_le_mul_of_nonneg_right hm' (zpow_pos (by norm_num) k).le
    _ = 2 ^ (k + f.mb + 2 : ℤ) / 2 := by
      rw [zpow_add₀ (by norm_num), zpow_add₀ (by norm_num), zpow_natCast, pow_succ]; norm_num; ring
    _ ≤ 2 ^ ((f.emax : ℕ) : ℤ) / 2 := by
      have : (2:ℚ) ^ (k + f.mb + 2 : ℤ) ≤ 2 ^ ((f.emax : ℕ) : ℤ) := zpow_le_zpow_right₀ (by norm_num) hk
      linarith
    _ = _ := by rw [zpow_natCast]

/-- Values on the grid are rounded to themselves. -/
theorem OnGrid.flr (h : OnGrid (f.mb + 1) k v) (h1 : -(f.unit : ℤ) ≤ k) (h2 : k + f.mb + 2 ≤ f.emax) : flr f v = v :=
  flr_rep (h.rep h1) ((h.le h2).trans (by have : (0:ℚ) < 2 ^ f.emax := by positivity
                                          linarith))

theorem OnGrid.fin {x : Flt f} (h : OnGrid (f.mb + 1) k x.toRat) (h2 : k + f.mb + 2 ≤ f.emax) : x.isFin = true :=
  isFin_of_abs (lt_of_le_of_lt (h.le h2) (by have : (0:ℚ) < 2 ^ f.emax := by positivity
                                             linarith))

end

theorem OnGrid.flr32 {k : ℤ} {v : ℚ} (h : OnGrid 24 k v) (hk : -149 ≤ k ∧ k ≤ 103) : Verif.flr f32 v = v :=
  OnGrid.flr (f := f32) h (by rw [unit_f32]; exact hk.1) (by rw [emax_f32]; show k + 23 + 2 ≤ 128; omega)

theorem OnGrid.fin32 {k : ℤ} {x : F32} (h : OnGrid 24 k x.toRat) (hk : -149 ≤ k ∧ k ≤ 103) : x.isFin = true :=
  OnGrid.fin (f := f32) h (by rw [emax_f32]; show k + 23 + 2 ≤ 128; omega)

/-- Both ways to evaluate the sum are exact. -/
theorem plus_exact {b : Bool} {old s : F32} {z : ℤ} {q : Nat} {k : ℤ} (hk : -149 ≤ k ∧ k ≤ 103) (hz : |(q:ℤ) - z| ≤ 2 ^ 24) (ho : old.isFin = true) (hs : s.isFin = true)
    (hv : OnGrid 24 k ((((q:ℤ) - z : ℤ) : ℚ) * s.toRat)) (hsum : OnGrid 24 k (old.toRat + (((q:ℤ) - z : ℤ) : ℚ) * s.toRat)) :
    (plus b old s z q).isFin = true ∧ (plus b old s z q).toRat = old.toRat + (((q:ℤ) - z : ℤ) : ℚ) * s.toRat := by
  obtain ⟨e1, g1⟩ := ofInt_exact (f := f32) (z := (q:ℤ) - z) hz
  have key : (plus b old s z q).toRat = old.toRat + (((q:ℤ) - z : ℤ) : ℚ) * s.toRat := by
    unfold plus
    cases b
    · have em : (Flt.mul (Flt.ofInt f32 ((q:ℤ) - z)) s).toRat = (((q:ℤ) - z : ℤ) : ℚ) * s.toRat := by
        rw [mul_toRat g1 hs, e1, hv.flr32 hk]
      have gm : (Flt.mul (Flt.ofInt f32 ((q:ℤ) - z)) s).isFin = true := OnGrid.fin32 (by rw [em]; exact hv) hk
      rw [if_neg (by simp)]
      show (Flt.add old (Flt.mul (Flt.ofInt f32 ((q:ℤ) - z)) s)).toRat = _
      rw [add_toRat ho gm, em, hsum.flr32 hk]
    · rw [if_pos rfl, Verif.fma_toRat g1 hs ho, e1, add_comm, hsum.flr32 hk]
  exact ⟨OnGrid.fin32 (by rw [key]; exact hsum) hk, key⟩

/-- An update that is added, of codes whose distance to the zero point a float32 can represent, and its site. -/
structure Adds (g : Update × Site) (n : Nat) : Prop where
  op : g.1.op = .add
  zp : |g.1.z| ≤ 2 ^ 23
  fin : g.1.s.isFin = true
  holds : g.2.Holds g.1 .f32 n
  tail : g.1.dt = .uint2 → n % 4 = 0

section
variable {n o o' : Nat} {m0 m0' : Mem} {k : ℤ}

theorem Site.Holds.lt {p : Site} {u : Update} {ft : FT} (h : p.Holds u ft n) {i : Nat} (hi : i < n) : u.q i < 256 := by
  rw [← h.codes i hi]; exact code_lt256 h.args.inQuant _ _ _

/-- C114, float32: if the scaled codes and all partial sums are integer multiples, at most `2^24`, of one power of two, the accumulator is exactly the sum, on all kernels, thread counts and
schedules, with sums contracted or not, differently in each call. -/
theorem C114_exact_sum_f32 (hk : -149 ≤ k ∧ k ≤ 103) (l : List (Update × Site)) (h : ∀ g ∈ l, Adds g n) (hv : ∀ g ∈ l, ∀ i, i < n → OnGrid 24 k (g.1.value i))
    (h0 : ∀ i, i < n → (f32At m0 (o + 4 * i)).isFin = true) (hp : ∀ i, i < n → StaysOnGrid 24 k (f32At m0 (o + 4 * i)).toRat (l.map Prod.fst) i) :
    Replay .f32 n o l m0 (fun m => ∀ i, i < n → (f32At m (o + 4 * i)).isFin = true ∧
      (f32At m (o + 4 * i)).toRat = (f32At m0 (o + 4 * i)).toRat + totalOf (l.map Prod.fst) i) := by
  induction l generalizing m0 with
  | nil => exact fun i hi => ⟨h0 i hi, by simp [totalOf]⟩
  | cons g l ih =>
    obtain ⟨u, p⟩ := g
    have hg := h (u, p) (List.mem_cons_self ..)
    have hgv := hv (u, p) (List.mem_cons_self ..)
    obtain ⟨hop, hz, hs, hh, ht⟩ := hg
    simp only at hop hz hs hh ht hgv
    have hz' : ZpSub u.z := by rw [abs_le] at hz; unfold ZpSub; norm_num at *; omega
    have step := C10_add_f32_partial (c := p.c) (x := p.x) (o := o) (m0 := m0) (scale := u.s) hh.args hh.rd hz'
    rw [← hop] at step
    refine Always.mono step (fun _ h => h) (fun m' hm' => ?_)
    have hm : ∀ i, i < n → (f32At m' (o + 4 * i)).isFin = true ∧ (f32At m' (o + 4 * i)).toRat = (f32At m0 (o + 4 * i)).toRat + u.value i := fun i hi => by
      obtain ⟨b, _, e⟩ := hm' i hi (fun h2 => by have := ht h2; omega)
      have hc := hh.lt hi
      rw [e, hh.codes i hi]
      exact plus_exact hk (by rw [abs_le] at hz ⊢; omega) (h0 i hi) hs (hgv i hi) (hp i hi).head.1
    refine (ih (m0 := m') (fun g hg => h g (List.mem_cons_of_mem _ hg)) (fun g hg => hv g (List.mem_cons_of_mem _ hg)) (fun i hi => (hm i hi).1) (fun i hi => ?_)).mono
      (fun m hm2 i hi => ⟨(hm2 i hi).1, ?_⟩)
    · rw [(hm i hi).2]; exact (hp i hi).head.2
    · rw [(hm2 i hi).2, (hm i hi).2]
      simp [totalOf, add_assoc]

/-- A budget that keeps every partial sum on the grid, in any order: the start and all values are integer multiples of `2^k` and their absolute values sum to at most `2^p * 2^k`. -/
structure Budget (p : Nat) (k : ℤ) (v : ℚ) (l : List Update) (i : Nat) : Prop where
  start : ∃ m : ℤ, v = m * 2 ^ k
  values : ∀ u ∈ l, ∃ m : ℤ, u.value i = m * 2 ^ k
  le : |v| + (l.map (fun u => |u.value i|)).sum ≤ 2 ^ p * 2 ^ k

theorem onGrid_of {p : Nat} {v : ℚ} {m : ℤ} (e : v = m * 2 ^ k) (h : |v| ≤ 2 ^ p * 2 ^ k) : OnGrid p k v := by
  refine ⟨m, e, ?_⟩
  have hp : (0:ℚ) < 2 ^ k := zpow_pos (by norm_num) k
  rw [e, abs_mul, abs_of_pos hp] at h
  have := le_of_mul_le_mul_right h hp
  exact_mod_cast this

theorem Budget.perm {p : Nat} {v : ℚ} {l l' : List Update} {i : Nat} (h : Budget p k v l i) (hl : l.Perm l') : Budget p k v l' i :=
  ⟨h.start, fun u hu => h.values u (hl.mem_iff.mpr hu), by rw [← (hl.map _).sum_eq]; exact h.le⟩

theorem total_le (l : List Update) (i : Nat) : |totalOf l i| ≤ (l.map (fun u => |u.value i|)).sum := by
  induction l with
  | nil => simp [totalOf]
  | cons u l ih =>
    have e : totalOf (u :: l) i = u.value i + totalOf l i := by simp [totalOf]
    rw [e, List.map_cons, List.sum_cons]
    exact (abs_add_le _ _).trans (by linarith)

theorem abs_sum_nonneg (l : List Update) (i : Nat) : 0 ≤ (l.map (fun u => |u.value i|)).sum :=
  List.sum_nonneg (fun x hx => by obtain ⟨u, _, rfl⟩ := List.mem_map.mp hx; exact abs_nonneg _)

theorem Budget.stays {p : Nat} {v : ℚ} {l : List Update} {i : Nat} (h : Budget p k v l i) : StaysOnGrid p k v l i := by
  intro l' ⟨l2, e⟩
  have hm : ∃ m : ℤ, totalOf l' i = m * 2 ^ k := by
    have : ∀ u ∈ l', ∃ m : ℤ, u.value i = m * 2 ^ k := fun u hu => h.values u (by rw [← e]; exact List.mem_append_left _ hu)
    clear e h
    induction l' with
    | nil => exact ⟨0, by simp [totalOf]⟩
    | cons u l' ih =>
      obtain ⟨m, hm⟩ := ih (fun u hu => this u (List.mem_cons_of_mem _ hu))
      obtain ⟨m1, h1⟩ := this u (List.mem_cons_self ..)
      have e : totalOf (u :: l') i = u.value i + totalOf l' i := by simp [totalOf]
      exact ⟨m1 + m, by rw [e, hm, h1]; push_cast; ring⟩
  obtain ⟨m, hm⟩ := hm
  obtain ⟨m1, h1⟩ := h.start
  refine onGrid_of (m := m1 + m) (by rw [hm, h1]; push_cast; ring) ?_
  have a1 := abs_add_le v (totalOf l' i)
  have a2 := total_le l' i
  have a3 := abs_sum_nonneg l2 i
  have a4 := h.le
  rw [← e, List.map_append, List.sum_append] at a4
  linarith

theorem Budget.value {p : Nat} {v : ℚ} {l : List Update} {i : Nat} (h : Budget p k v l i) {u : Update} (hu : u ∈ l) : OnGrid p k (u.value i) := by
  obtain ⟨m, e⟩ := h.values u hu
  refine onGrid_of e ?_
  have h1 : |u.value i| ≤ (l.map (fun u => |u.value i|)).sum :=
    List.single_le_sum (fun x hx => by obtain ⟨u, _, rfl⟩ := List.mem_map.mp hx; exact abs_nonneg _) _ (List.mem_map.mpr ⟨u, hu, rfl⟩)
  have := h.le
  have := abs_nonneg v
  linarith

/-- C114, float32: within the budget the order of the updates does not matter: two receivers that start with equal values and add the same updates in different orders, with different
kernels, thread counts, schedules and contraction, end with equal values, the exact sums. -/
theorem C114_order_free_f32 (hk : -149 ≤ k ∧ k ≤ 103) (l l' : List (Update × Site)) (h : ∀ g ∈ l, Adds g n) (h' : ∀ g ∈ l', Adds g n)
    (hl : (l.map Prod.fst).Perm (l'.map Prod.fst)) (h0 : ∀ i, i < n → (f32At m0 (o + 4 * i)).isFin = true) (h0' : ∀ i, i < n → (f32At m0' (o' + 4 * i)).isFin = true)
    (he : ∀ i, i < n → (f32At m0 (o + 4 * i)).toRat = (f32At m0' (o' + 4 * i)).toRat)
    (hb : ∀ i, i < n → Budget 24 k (f32At m0 (o + 4 * i)).toRat (l.map Prod.fst) i) :
    Replay .f32 n o l m0 (fun m => Replay .f32 n o' l' m0' (fun m' => ∀ i, i < n → (f32At m (o + 4 * i)).isFin = true ∧ (f32At m' (o' + 4 * i)).isFin = true ∧
      (f32At m (o + 4 * i)).toRat = (f32At m0 (o + 4 * i)).toRat + totalOf (l.map Prod.fst) i ∧ (f32At m' (o' + 4 * i)).toRat = (f32At m (o + 4 * i)).toRat)) := by
  refine (C114_exact_sum_f32 hk l h (fun g hg i hi => (hb i hi).value (List.mem_map.mpr ⟨g, hg, rfl⟩)) h0 (fun i hi => (hb i hi).stays)).mono (fun m hm => ?_)
  have hb' : ∀ i, i < n → Budget 24 k (f32At m0' (o' + 4 * i)).toRat (l'.map Prod.fst) i := fun i hi => by rw [← he i hi]; exact (hb i hi).perm hl
  refine (C114_exact_sum_f32 hk l' h' (fun g hg i hi => (hb' i hi).value (List.mem_map.mpr ⟨g, hg, rfl⟩)) h0' (fun i hi => (hb' i hi).stays)).mono (fun m' hm' i hi => ?_)
  refine ⟨(hm i hi).1, (hm' i hi).1, (hm i hi).2, ?_⟩
  rw [(hm i hi).2, (hm' i hi).2, ← he i hi]
  have : totalOf (l.map Prod.fst) i = totalOf (l'.map Prod.fst) i := (hl.map _).sum_eq
  rw [this]

end

/-! ## bfloat16 accumulators -/

theorem OnGrid.mono {p p' : Nat} {k : ℤ} {v : ℚ} (h : OnGrid p k v) (hp : p ≤ p') : OnGrid p' k v := by
  obtain ⟨m, e, hm⟩ := h
  exact ⟨m, e, hm.trans (pow_le_pow_right₀ (by norm_num) hp)⟩

theorem OnGrid.fin16 {k : ℤ} {x : F32} (h : OnGrid 8 k x.toRat) (hk : -126 ≤ k ∧ k ≤ 119) : x.isFin = true := by
  refine isFin_of_abs (lt_of_le_of_lt (OnGrid.le (f := bf16) h (by rw [emax_bf16]; show k + 7 + 2 ≤ 128; omega)) ?_)
  rw [emax_bf16, emax_f32]; norm_num

theorem OnGrid.flr16 {k : ℤ} {v : ℚ} (h : OnGrid 8 k v) (hk : -126 ≤ k ∧ k ≤ 119) : Verif.flr f32 v = v ∧ Verif.flr bf16 v = v := by
  refine ⟨?_, OnGrid.flr (f := bf16) h (by rw [unit_bf16]; omega) (by rw [emax_bf16]; show k + 7 + 2 ≤ 128; omega)⟩
  have h1 : |v| ≤ 2 ^ 128 / 2 := OnGrid.le (f := bf16) h (by rw [emax_bf16]; show k + 7 + 2 ≤ 128; omega)
  exact flr_rep (f := f32) (OnGrid.rep (f := f32) (h.mono (by decide)) (by rw [unit_f32]; omega)) (by rw [emax_f32]; exact h1.trans (by norm_num))

/-- A value on the grid that is not zero is at least `2^k`. -/
theorem OnGrid.zero {p : Nat} {k : ℤ} {v : ℚ} (h : OnGrid p k v) (hv : |v| < 2 ^ k) : v = 0 := by
  obtain ⟨m, rfl, _⟩ := h
  have hp : (0:ℚ) < 2 ^ k := zpow_pos (by norm_num) k
  rw [abs_mul, abs_of_pos hp] at hv
  have h1 : |(m:ℚ)| < 1 := by
    by_contra hc
    have : 1 * (2:ℚ) ^ k ≤ |(m:ℚ)| * 2 ^ k := mul_le_mul_of_nonneg_right (not_lt.mp hc) hp.le
    linarith
  have h2 : |m| < 1 := by exact_mod_cast h1
  have : m = 0 := by rw [abs_lt] at h2; omega
  rw [this]; norm_num

/-- Rounding a value on the grid to bf16, or flushing it when it is denormal. -/
theorem OnGrid.word {k : ℤ} {S : F32} {w : Nat} (h : OnGrid 8 k S.toRat) (hk : -126 ≤ k ∧ k ≤ 119) (hw : IsBf16Of S w ∨ (|S.toRat| < 1 / 2 ^ 126 ∧ w % 32768 = 0)) (hw16 : w < 65536) :
    (Flt.ofBits f32 (65536 * w)).isFin = true ∧ (Flt.ofBits f32 (65536 * w)).toRat = S.toRat := by
  rcases hw with hw | ⟨h1, h2⟩
  · obtain ⟨g1, g2⟩ := isBf16_value (h.fin16 hk) (by
      refine (OnGrid.le (f := bf16) h (by rw [emax_bf16]; show k + 7 + 2 ≤ 128; omega)).trans ?_
      rw [emax_bf16]; norm_num) hw
    exact ⟨g1, by rw [g2, (h.flr16 hk).2]⟩
  · obtain ⟨g1, g2⟩ := word_zero hw16 h2
    refine ⟨g1, ?_⟩
    rw [g2, h.zero (lt_of_lt_of_le h1 ?_)]
    have : (2:ℚ) ^ (-126 : ℤ) ≤ 2 ^ k := zpow_le_zpow_right₀ (by norm_num) hk.1
    rw [show (2:ℚ) ^ (-126 : ℤ) = 1 / 2 ^ 126 by rw [zpow_neg, one_div]; rfl] at this
    exact this

/-- An update that is added to a bf16 tensor, with a zero point in the code range, and its site. -/
structure Adds16 (g : Update × Site) (n : Nat) : Prop where
  op : g.1.op = .add
  zp : 0 ≤ g.1.z ∧ g.1.z ≤ 2 ^ g.1.dt.bits - 1
  holds : g.2.Holds g.1 .bf16 n

section
variable {c : Ctx} {x : InBuf} {dt : DType} {n o o' : Nat} {s : F32} {z : ℤ} {m0 m0' : Mem} {k : ℤ}

/-- One exact addition, on every kernel. -/
theorem add_exact16 (h : DArgs c.threads x dt .bf16 n) (hz : 0 ≤ z ∧ z ≤ 2 ^ dt.bits - 1) (hk : -126 ≤ k ∧ k ≤ 103) (hs : OnGrid 8 k s.toRat)
    (ho : ∀ i, i < n → (bf16At m0 (o + 2 * i)).isFin = true)
    (hv : ∀ i, i < n → OnGrid 8 k ((((code dt.bits x.data 0 i : ℤ) - z : ℤ) : ℚ) * s.toRat))
    (hsum : ∀ i, i < n → OnGrid 8 k ((bf16At m0 (o + 2 * i)).toRat + (((code dt.bits x.data 0 i : ℤ) - z : ℤ) : ℚ) * s.toRat)) :
    Always NoFault (dequantize c x (bytes dt.bits n) dt o (2 * n) .bf16 s z .add) (span o (2 * n)) m0 (fun m =>
      ∀ i, i < n → (bf16At m (o + 2 * i)).isFin = true ∧
        (bf16At m (o + 2 * i)).toRat = (bf16At m0 (o + 2 * i)).toRat + (((code dt.bits x.data 0 i : ℤ) - z : ℤ) : ℚ) * s.toRat) := by
  have hsf := hs.fin16 (by omega)
  have hk32 : -149 ≤ k ∧ k ≤ 103 := by omega
  have hk' : -126 ≤ k ∧ k ≤ 119 := by omega
  have hb := codeBound h.inQuant
  have hzs : ZpSub z := by unfold ZpSub; norm_num; omega
  refine (C10_add_bf16 h hzs (fun _ => by rw [abs_of_nonneg hz.1]; norm_num; omega)).mono (fun _ h => h) (fun m hm i hi => ?_)
  have hc := code_lt256 h.inQuant x.data 0 i
  have hkk : |(code dt.bits x.data 0 i : ℤ) - z| ≤ 2 ^ 24 := by rw [abs_le]; omega
  have hvi := hv i hi
  have hsi := hsum i hi
  have o1 := ho i hi
  have hm' := hm i hi
  have hz24 : |z| ≤ 2 ^ 24 := by rw [abs_of_nonneg hz.1]; omega
  have hq24 : |(code dt.bits x.data 0 i : ℤ)| ≤ 2 ^ 24 := by rw [abs_of_nonneg (by omega)]; omega
  have hwlt := u16At_lt m (o + 2 * i)
  show (Flt.ofBits f32 (65536 * u16At m (o + 2 * i))).isFin = true ∧ (Flt.ofBits f32 (65536 * u16At m (o + 2 * i))).toRat = _
  generalize u16At m (o + 2 * i) = w at *
  generalize bf16At m0 (o + 2 * i) = old at *
  generalize code dt.bits x.data 0 i = q at *
  obtain ⟨e1, g1⟩ := ofInt_exact (f := f32) (z := (q:ℤ) - z) hkk
  have em : (Flt.mul (Flt.ofInt f32 ((q:ℤ) - z)) s).toRat = (((q:ℤ) - z : ℤ) : ℚ) * s.toRat := by
    rw [mul_toRat g1 hsf, e1, (hvi.flr16 hk').1]
  have gm : (Flt.mul (Flt.ofInt f32 ((q:ℤ) - z)) s).isFin = true := OnGrid.fin16 (by rw [em]; exact hvi) hk'
  -- in every case the word is the rounding of the exact sum
  have key : ∃ S : F32, S.toRat = old.toRat + (((q:ℤ) - z : ℤ) : ℚ) * s.toRat ∧ (IsBf16Of S w ∨ (|S.toRat| < 1 / 2 ^ 126 ∧ w % 32768 = 0)) := by
    rcases hm' with ⟨d, hd, hw⟩ | ⟨_, S, hS, hw⟩
    · have gd : (dequant s z q).isFin = true := gm
      have ed : (dequant s z q).toRat = (((q:ℤ) - z : ℤ) : ℚ) * s.toRat := em
      have hd16 : d < 65536 := by
        have : Flt.isNaN (dequant s z q) ≠ true := by
          have : (dequant s z q).mag < f32.infMag := by simpa [Flt.isFin] using gd
          unfold Flt.isNaN; simp; omega
        unfold IsBf16Of at hd
        rw [if_neg this] at hd
        rw [hd]
        have hv : (Flt.cvt bf16 (dequant s z q)).mag < 32768 := by rw [← magLim_bf16]; exact valid_cvt16 _
        unfold Flt.toBits; rw [magLim_bf16]; split <;> omega
      obtain ⟨a1, a2⟩ := OnGrid.word (S := dequant s z q) (by rw [ed]; exact hvi) hk' (Or.inl hd) hd16
      exact ⟨_, by rw [add_toRat o1 a1, a2, ed, (hsi.flr16 hk').1], Or.inl hw⟩
    · refine ⟨S, ?_, hw.imp id (fun h => h.2)⟩
      rcases hS with ⟨h8, hS⟩ | ⟨h8, hS⟩
      · rw [hS]
        generalize c.fuse.vec = b
        unfold plus
        cases b
        · rw [if_neg (by simp)]
          show (Flt.add old (Flt.mul (Flt.ofInt f32 ((q:ℤ) - z)) s)).toRat = _
          rw [add_toRat o1 gm, em, (hsi.flr16 hk').1]
        · rw [if_pos rfl, Verif.fma_toRat g1 hsf o1, e1, add_comm, (hsi.flr16 hk').1]
      · obtain ⟨ez, gz⟩ := ofInt_exact (f := f32) hz24
        obtain ⟨eq, gq⟩ := ofInt_exact (f := f32) (z := (q:ℤ)) hq24
        have hg : OnGrid 24 k (-(z:ℚ) * s.toRat) := by
          obtain ⟨t, ht, hta⟩ := hs
          refine ⟨-z * t, by rw [ht]; push_cast; ring, ?_⟩
          rw [abs_mul, abs_neg]
          have : |z| ≤ 2 ^ 8 := by rw [abs_of_nonneg hz.1]; omega
          calc |z| * |t| ≤ 2 ^ 8 * 2 ^ 8 := mul_le_mul this hta (abs_nonneg _) (by norm_num)
            _ ≤ 2 ^ 24 := by norm_num
        have eb : (Flt.mul (Flt.negate (Flt.ofInt f32 z)) s).toRat = -z * s.toRat := by
          rw [mul_toRat (by rw [negate_isFin]; exact gz) hsf, negate_toRat, ez, hg.flr32 hk32]
        have gb : (Flt.mul (Flt.negate (Flt.ofInt f32 z)) s).isFin = true := OnGrid.fin32 (by rw [eb]; exact hg) hk32
        have ef : (fmaDequant s z q).toRat = (((q:ℤ) - z : ℤ) : ℚ) * s.toRat := by
          unfold fmaDequant
          rw [Verif.fma_toRat gq hsf gb, eq, eb]
          have e : ((q:ℤ) : ℚ) * s.toRat + -z * s.toRat = (((q:ℤ) - z : ℤ) : ℚ) * s.toRat := by push_cast; ring
          rw [e, (hvi.flr16 hk').1]
        have gf : (fmaDequant s z q).isFin = true := OnGrid.fin16 (by rw [ef]; exact hvi) hk'
        rw [hS, add_toRat gf o1, ef, add_comm, (hsi.flr16 hk').1]
  obtain ⟨S, eS, hw⟩ := key
  obtain ⟨r1, r2⟩ := OnGrid.word (by rw [eS]; exact hsi) hk' hw hwlt
  exact ⟨r1, by rw [r2, eS]⟩

/-- C114, bfloat16: the same with multiples of at most 256 of the grid step (the scales, the scaled codes and the partial sums), on every kernel, AVX-512 included. -/
theorem C114_exact_sum_bf16 (hk : -126 ≤ k ∧ k ≤ 103) (l : List (Update × Site)) (h : ∀ g ∈ l, Adds16 g n ∧ OnGrid 8 k g.1.s.toRat)
    (hv : ∀ g ∈ l, ∀ i, i < n → OnGrid 8 k (g.1.value i))
    (h0 : ∀ i, i < n → (bf16At m0 (o + 2 * i)).isFin = true) (hp : ∀ i, i < n → StaysOnGrid 8 k (bf16At m0 (o + 2 * i)).toRat (l.map Prod.fst) i) :
    Replay .bf16 n o l m0 (fun m => ∀ i, i < n → (bf16At m (o + 2 * i)).isFin = true ∧
      (bf16At m (o + 2 * i)).toRat = (bf16At m0 (o + 2 * i)).toRat + totalOf (l.map Prod.fst) i) := by
  induction l generalizing m0 with
  | nil => exact fun i hi => ⟨h0 i hi, by simp [totalOf]⟩
  | cons g l ih =>
    obtain ⟨u, p⟩ := g
    obtain ⟨⟨hop, hz, hh⟩, hs⟩ := h (u, p) (List.mem_cons_self ..)
    have hgv := hv (u, p) (List.mem_cons_self ..)
    simp only at hop hz hs hh hgv
    have step := add_exact16 (c := p.c) (x := p.x) (o := o) (m0 := m0) (s := u.s) hh.args hz hk hs h0 (fun i hi => by rw [hh.codes i hi]; exact hgv i hi)
      (fun i hi => by rw [hh.codes i hi]; exact (hp i hi).head.1)
    rw [← hop] at step
    refine Always.mono step (fun _ h => h) (fun m' hm' => ?_)
    have hm : ∀ i, i < n → (bf16At m' (o + 2 * i)).isFin = true ∧ (bf16At m' (o + 2 * i)).toRat = (bf16At m0 (o + 2 * i)).toRat + u.value i := fun i hi => by
      have := hm' i hi
      rwa [hh.codes i hi] at this
    refine (ih (m0 := m') (fun g hg => h g (List.mem_cons_of_mem _ hg)) (fun g hg => hv g (List.mem_cons_of_mem _ hg)) (fun i hi => (hm i hi).1) (fun i hi => ?_)).mono
      (fun m hm2 i hi => ⟨(hm2 i hi).1, ?_⟩)
    · rw [(hm i hi).2]; exact (hp i hi).head.2
    · rw [(hm2 i hi).2, (hm i hi).2]
      simp [totalOf, add_assoc]

/-- C114, bfloat16: within the budget the order does not matter. -/
theorem C114_order_free_bf16 (hk : -126 ≤ k ∧ k ≤ 103) (l l' : List (Update × Site)) (h : ∀ g ∈ l, Adds16 g n ∧ OnGrid 8 k g.1.s.toRat) (h' : ∀ g ∈ l', Adds16 g n ∧ OnGrid 8 k g.1.s.toRat)
    (hl : (l.map Prod.fst).Perm (l'.map Prod.fst)) (h0 : ∀ i, i < n → (bf16At m0 (o + 2 * i)).isFin = true) (h0' : ∀ i, i < n → (bf16At m0' (o' + 2 * i)).isFin = true)
    (he : ∀ i, i < n → (bf16At m0 (o + 2 * i)).toRat = (bf16At m0' (o' + 2 * i)).toRat)
    (hb : ∀ i, i < n → Budget 8 k (bf16At m0 (o + 2 * i)).toRat (l.map Prod.fst) i) :
    Replay .bf16 n o l m0 (fun m => Replay .bf16 n o' l' m0' (fun m' => ∀ i, i < n → (bf16At m (o + 2 * i)).isFin = true ∧ (bf16At m' (o' + 2 * i)).isFin = true ∧
      (bf16At m (o + 2 * i)).toRat = (bf16At m0 (o + 2 * i)).toRat + totalOf (l.map Prod.fst) i ∧ (bf16At m' (o' + 2 * i)).toRat = (bf16At m (o + 2 * i)).toRat)) := by
  refine (C114_exact_sum_bf16 hk l h (fun g hg i hi => (hb i hi).value (List.mem_map.mpr ⟨g, hg, rfl⟩)) h0 (fun i hi => (hb i hi).stays)).mono (fun m hm => ?_)
  have hb' : ∀ i, i < n → Budget 8 k (bf16At m0' (o' + 2 * i)).toRat (l'.map Prod.fst) i := fun i hi => by rw [← he i hi]; exact (hb i hi).perm hl
  refine (C114_exact_sum_bf16 hk l' h' (fun g hg i hi => (hb' i hi).value (List.mem_map.mpr ⟨g, hg, rfl⟩)) h0' (fun i hi => (hb' i hi).stays)).mono (fun m' hm' i hi => ?_)
  refine ⟨(hm i hi).1, (hm' i hi).1, (hm i hi).2, ?_⟩
  rw [(hm i hi).2, (hm' i hi).2, ← he i hi]
  have : totalOf (l.map Prod.fst) i = totalOf (l'.map Prod.fst) i := (hl.map _).sum_eq
  rw [this]

end

/-! ## Witnesses -/

/-- Two updates of 70 elements: uint4 with scale 1/2 and zero point 7, uint8 with scale 1/4 and zero point 60. -/
def exGrid : List (Update × Site) :=
  [(⟨.uint4, Ex.half, 7, .add, fun i => code 4 Ex.codes.data 0 i⟩, ⟨⟨.avx512f, 3, .none⟩, Ex.codes⟩),
   (⟨.uint8, Ex.quarter, 60, .add, fun i => code 8 Ex.codes.data 0 i⟩, ⟨⟨.neon, 4, .all⟩, Ex.codes⟩)]

/-- The same updates in the other order, elsewhere. -/
def exGrid' : List (Update × Site) :=
  [(⟨.uint8, Ex.quarter, 60, .add, fun i => code 8 Ex.codes.data 0 i⟩, ⟨⟨.portable, 1, .none⟩, Ex.codes⟩),
   (⟨.uint4, Ex.half, 7, .add, fun i => code 4 Ex.codes.data 0 i⟩, ⟨⟨.sse42, 2, .none⟩, Ex.codes⟩)]

theorem exGrid_ok : ∀ g ∈ exGrid, Adds g 70 := by
  intro p hp
  simp only [exGrid, List.mem_cons, List.not_mem_nil, or_false] at hp
  rcases hp with rfl | rfl
  · exact ⟨rfl, by decide, by decide, ⟨⟨rfl, rfl, by decide +kernel, sz 70 3⟩, (fun h => by cases h), fun _ _ => rfl⟩, (fun h => by cases h)⟩
  · exact ⟨rfl, by decide, by decide, ⟨⟨rfl, rfl, by decide +kernel, sz 70 4⟩, (fun h => by cases h), fun _ _ => rfl⟩, (fun h => by cases h)⟩

theorem exGrid'_ok : ∀ g ∈ exGrid', Adds g 70 := by
  intro p hp
  simp only [exGrid', List.mem_cons, List.not_mem_nil, or_false] at hp
  rcases hp with rfl | rfl
  · exact ⟨rfl, by decide, by decide, ⟨⟨rfl, rfl, by decide +kernel, sz 70 1⟩, (fun h => by cases h), fun _ _ => rfl⟩, (fun h => by cases h)⟩
  · exact ⟨rfl, by decide, by decide, ⟨⟨rfl, rfl, by decide +kernel, sz 70 2⟩, (fun h => by cases h), fun _ _ => rfl⟩, (fun h => by cases h)⟩

theorem half_val : Ex.half.toRat = 1 / 2 := by decide +kernel
theorem quarter_val : Ex.quarter.toRat = 1 / 4 := by decide +kernel
theorem zeros_val (a : Nat) : f32At zeros a = f0 ∧ bf16At zeros a = f0 := by
  have e1 : f32At zeros a = f32At zeros 0 := rfl
  have e2 : bf16At zeros a = bf16At zeros 0 := rfl
  rw [e1, e2]
  decide +kernel

/-- Values on the grid of quarters: every code of the two updates. -/
theorem exGrid_budget {p : Nat} (hp : 8 ≤ p) (i : Nat) : Budget p (-2) 0 (exGrid.map Prod.fst) i := by
  have h1 : code 4 Ex.codes.data 0 i ≤ 15 := by have := code_le (dt := .uint4) Ex.codes.data 0 i; norm_num [DType.bits] at this; omega
  have h2 : code 8 Ex.codes.data 0 i ≤ 255 := by have := code_le (dt := .uint8) Ex.codes.data 0 i; norm_num [DType.bits] at this; omega
  have e1 : (⟨.uint4, Ex.half, 7, .add, fun i => code 4 Ex.codes.data 0 i⟩ : Update).value i = ((((code 4 Ex.codes.data 0 i : ℤ) - 7 : ℤ) : ℚ)) * (1 / 2) := by unfold Update.value; rw [half_val]
  have e2 : (⟨.uint8, Ex.quarter, 60, .add, fun i => code 8 Ex.codes.data 0 i⟩ : Update).value i = ((((code 8 Ex.codes.data 0 i : ℤ) - 60 : ℤ) : ℚ)) * (1 / 4) := by unfold Update.value; rw [quarter_val]
  have hq : (2:ℚ) ^ (-2 : ℤ) = 1 / 4 := by norm_num
  refine ⟨⟨0, by norm_num⟩, ?_, ?_⟩
  · intro u hu
    simp only [exGrid, List.map_cons, List.map_nil, List.mem_cons, List.not_mem_nil, or_false] at hu
    rcases hu with rfl | rfl
    · exact ⟨2 * ((code 4 Ex.codes.data 0 i : ℤ) - 7), by rw [e1, hq]; push_cast; ring⟩
    · exact ⟨(code 8 Ex.codes.data 0 i : ℤ) - 60, by rw [e2, hq]⟩
  · simp only [exGrid, List.map_cons, List.map_nil, List.sum_cons, List.sum_nil]
    rw [e1, e2, hq]
    have a1 : |(((code 4 Ex.codes.data 0 i : ℤ) - 7 : ℤ) : ℚ)| ≤ 8 := by
      have : |(code 4 Ex.codes.data 0 i : ℤ) - 7| ≤ 8 := by rw [abs_le]; omega
      exact_mod_cast this
    have a2 : |(((code 8 Ex.codes.data 0 i : ℤ) - 60 : ℤ) : ℚ)| ≤ 195 := by
      have : |(code 8 Ex.codes.data 0 i : ℤ) - 60| ≤ 195 := by rw [abs_le]; omega
      exact_mod_cast this
    have hp' : (2:ℚ) ^ 8 ≤ 2 ^ p := pow_le_pow_right₀ (by norm_num) hp
    rw [abs_mul, abs_mul, abs_zero, abs_of_pos (by norm_num : (0:ℚ) < 1 / 2), abs_of_pos (by norm_num : (0:ℚ) < 1 / 4)]
    generalize |(((code 4 Ex.codes.data 0 i : ℤ) - 7 : ℤ) : ℚ)| = v1 at *
    generalize |(((code 8 Ex.codes.data 0 i : ℤ) - 60 : ℤ) : ℚ)| = v2 at *
    norm_num at hp' ⊢
    linarith

theorem zeros_budget {p : Nat} (hp : 8 ≤ p) (o i : Nat) : Budget p (-2) (f32At zeros (o + 4 * i)).toRat (exGrid.map Prod.fst) i := by
  rw [(zeros_val _).1, show (f0 : F32).toRat = 0 by decide +kernel]; exact exGrid_budget hp i

/-- `C114_exact_sum_f32` applied to a concrete case: an accumulator that starts at zero. -/
example := C114_exact_sum_f32 (n := 70) (o := 1000) (m0 := zeros) (k := -2) (by decide) exGrid exGrid_ok
  (hv := fun g hg i _ => (exGrid_budget (p := 24) (by decide) i).value (List.mem_map.mpr ⟨g, hg, rfl⟩))
  (h0 := fun i _ => by rw [(zeros_val _).1]; decide) (hp := fun i _ => (zeros_budget (by decide) 1000 i).stays)

/-- `C114_order_free_f32` applied to a concrete case: the two updates in both orders. -/
example := C114_order_free_f32 (n := 70) (o := 1000) (o' := 64) (m0 := zeros) (m0' := zeros) (k := -2) (by decide) exGrid exGrid' exGrid_ok exGrid'_ok
  (hl := List.Perm.swap ..) (h0 := fun i _ => by rw [(zeros_val _).1]; decide) (h0' := fun i _ => by rw [(zeros_val _).1]; decide)
  (he := fun i _ => by rw [(zeros_val _).1, (zeros_val _).1]) (hb := fun i _ => zeros_budget (by decide) 1000 i)

theorem zeros_budget16 (o i : Nat) : Budget 8 (-2) (bf16At zeros (o + 2 * i)).toRat (exGrid.map Prod.fst) i := by
  rw [(zeros_val _).2, show (f0 : F32).toRat = 0 by decide +kernel]; exact exGrid_budget (by decide) i

theorem half_grid : OnGrid 8 (-2) Ex.half.toRat := ⟨2, by rw [half_val]; norm_num, by decide⟩
theorem quarter_grid : OnGrid 8 (-2) Ex.quarter.toRat := ⟨1, by rw [quarter_val]; norm_num, by decide⟩

theorem exGrid_ok16 : ∀ g ∈ exGrid, Adds16 g 70 ∧ OnGrid 8 (-2) g.1.s.toRat := by
  intro p hp
  simp only [exGrid, List.mem_cons, List.not_mem_nil, or_false] at hp
  rcases hp with rfl | rfl
  · exact ⟨⟨rfl, by decide, ⟨⟨rfl, rfl, by decide +kernel, sz 70 3⟩, (fun _ h => by cases h), fun _ _ => rfl⟩⟩, half_grid⟩
  · exact ⟨⟨rfl, by decide, ⟨⟨rfl, rfl, by decide +kernel, sz 70 4⟩, (fun _ h => by cases h), fun _ _ => rfl⟩⟩, quarter_grid⟩

theorem exGrid'_ok16 : ∀ g ∈ exGrid', Adds16 g 70 ∧ OnGrid 8 (-2) g.1.s.toRat := by
  intro p hp
  simp only [exGrid', List.mem_cons, List.not_mem_nil, or_false] at hp
  rcases hp with rfl | rfl
  · exact ⟨⟨rfl, by decide, ⟨⟨rfl, rfl, by decide +kernel, sz 70 1⟩, (fun _ h => by cases h), fun _ _ => rfl⟩⟩, quarter_grid⟩
  · exact ⟨⟨rfl, by decide, ⟨⟨rfl, rfl, by decide +kernel, sz 70 2⟩, (fun _ h => by cases h), fun _ _ => rfl⟩⟩, half_grid⟩

/-- `C114_exact_sum_bf16` applied to a concrete case. -/
example := C114_exact_sum_bf16 (n := 70) (o := 1000) (m0 := zeros) (k := -2) (by decide) exGrid exGrid_ok16
  (hv := fun g hg i _ => (exGrid_budget (p := 8) (by decide) i).value (List.mem_map.mpr ⟨g, hg, rfl⟩))
  (h0 := fun i _ => by rw [(zeros_val _).2]; decide) (hp := fun i _ => (zeros_budget16 1000 i).stays)

/-- `C114_order_free_bf16` applied to a concrete case: the two updates in both orders. -/
example := C114_order_free_bf16 (n := 70) (o := 1000) (o' := 64) (m0 := zeros) (m0' := zeros) (k := -2) (by decide) exGrid exGrid' exGrid_ok16 exGrid'_ok16
  (hl := List.Perm.swap ..) (h0 := fun i _ => by rw [(zeros_val _).2]; decide) (h0' := fun i _ => by rw [(zeros_val _).2]; decide)
  (he := fun i _ => by rw [(zeros_val _).2, (zeros_val _).2]) (hb := fun i _ => zeros_budget16 1000 i)

/-! ## Outside the grid -/

/-- One uint8 code, added with scale `s`. -/
def one8 (s : F32) (q : Nat) (c : Ctx) : Update × Site := (⟨.uint8, s, 0, .add, fun _ => q⟩, ⟨c, Ex.buf [q]⟩)

theorem one8_holds {s : F32} {q : Nat} {c : Ctx} (hc : Sizes 1 c.threads) (hq : ∀ i, i < 1 → code 8 (Ex.buf [q]).data 0 i = q) : (one8 s q c).2.Holds (one8 s q c).1 .f32 1 :=
  ⟨⟨rfl, rfl, (show (8 * 1 + 7) / 8 ≤ 1 by decide), hc⟩, (fun h => by cases h), hq⟩

/-- C114 needs the grid: with scale 0.1f the codes 1, 2, 4 added to 0 in this order give 0x3F333334, in the order 1, 4, 2 0x3F333333 (every kernel and thread count, sums not contracted). -/
theorem C114_order_matters_off_grid {c : Ctx} (hc : Sizes 1 c.threads) (hu : Uniform c false) :
    Replay .f32 1 64 [one8 Ex.tenth 1 c, one8 Ex.tenth 2 c, one8 Ex.tenth 4 c] zeros (fun m => f32At m 64 = ⟨false, 0x3F333334⟩) ∧
    Replay .f32 1 64 [one8 Ex.tenth 1 c, one8 Ex.tenth 4 c, one8 Ex.tenth 2 c] zeros (fun m => f32At m 64 = ⟨false, 0x3F333333⟩) := by
  have h1 : (one8 Ex.tenth 1 c).2.Holds (one8 Ex.tenth 1 c).1 .f32 1 := one8_holds hc (by decide)
  have h2 : (one8 Ex.tenth 2 c).2.Holds (one8 Ex.tenth 2 c).1 .f32 1 := one8_holds hc (by decide)
  have h4 : (one8 Ex.tenth 4 c).2.Holds (one8 Ex.tenth 4 c).1 .f32 1 := one8_holds hc (by decide)
  have hz : ZpSub 0 := by decide
  constructor
  · refine (C111_history_f32_partial (b := false) _ (fun g hg => ?_)).mono (fun m hm => (hm 0 (by decide)).trans ?_)
    · simp only [List.mem_cons, List.not_mem_nil, or_false] at hg
      rcases hg with rfl | rfl | rfl
      exacts [⟨hz, hu, h1⟩, ⟨hz, hu, h2⟩, ⟨hz, hu, h4⟩]
    · show [(⟨.uint8, Ex.tenth, 0, .add, fun _ => 1⟩ : Update), ⟨.uint8, Ex.tenth, 0, .add, fun _ => 2⟩, ⟨.uint8, Ex.tenth, 0, .add, fun _ => 4⟩].foldl (fun v u => u.next false 1 0 v) (f32At zeros 64) = _
      decide +kernel
  · refine (C111_history_f32_partial (b := false) _ (fun g hg => ?_)).mono (fun m hm => (hm 0 (by decide)).trans ?_)
    · simp only [List.mem_cons, List.not_mem_nil, or_false] at hg
      rcases hg with rfl | rfl | rfl
      exacts [⟨hz, hu, h1⟩, ⟨hz, hu, h4⟩, ⟨hz, hu, h2⟩]
    · show [(⟨.uint8, Ex.tenth, 0, .add, fun _ => 1⟩ : Update), ⟨.uint8, Ex.tenth, 0, .add, fun _ => 4⟩, ⟨.uint8, Ex.tenth, 0, .add, fun _ => 2⟩].foldl (fun v u => u.next false 1 0 v) (f32At zeros 64) = _
      decide +kernel

/-- A float32 accumulator that holds 2^24 at 64. -/
def atTop : Mem := fun a => if a % 4 = 3 then 0x4b else if a % 4 = 2 then 0x80 else 0

/-- C114, the bound is sharp: one step above `2^24` steps of the grid (scale 1, code 1) is lost, on every kernel, contracted or not. -/
theorem C114_bound_sharp {c : Ctx} {b : Bool} (hc : Sizes 1 c.threads) (hu : Uniform c b) :
    (f32At atTop 64).toRat = 2 ^ 24 ∧ Replay .f32 1 64 [one8 f1 1 c] atTop (fun m => (f32At m 64).toRat = 2 ^ 24) := by
  refine ⟨by decide +kernel, ?_⟩
  refine (C111_history_f32_partial (b := b) _ (fun g hg => ?_)).mono (fun m hm => ?_)
  · simp only [List.mem_cons, List.not_mem_nil, or_false] at hg
    rw [hg]
    exact ⟨show ZpSub 0 by decide, hu, one8_holds hc (by decide)⟩
  · have := hm 0 (by decide)
    rw [show f32At m 64 = _ from this]
    show ([(⟨.uint8, f1, 0, .add, fun _ => 1⟩ : Update)].foldl (fun v u => u.next b 1 0 v) (f32At atTop 64)).toRat = _
    cases b <;> decide +kernel

example := C114_order_matters_off_grid (c := ⟨.avx2, 3, .none⟩) (sz 1 3) rfl
example := C114_bound_sharp (c := ⟨.avx2, 3, .all⟩) (b := true) (sz 1 3) rfl

end Verif.Props

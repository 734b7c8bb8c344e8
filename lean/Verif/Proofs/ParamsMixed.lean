import Verif.Proofs.ParamsNan
import Verif.SpecNan

/-! # Parameters computed from data with some NaNs -/

namespace Verif
open Spec Simd

/-! ## Cutting a block after its vector part -/

/-- A loop does not depend on the fuel, nor on the bound beyond the points where it tests it. -/
theorem forS_congr {σ : Type} {c d : Nat → Bool} {step N M : Nat} {body : Nat → σ → Prog σ} (hs : 0 < step)
    (hc : ∀ i, c i = true → i < N) (hd : ∀ i, d i = true → i < M) :
    ∀ fuel fuel' i s, N ≤ i + fuel → M ≤ i + fuel' → (∀ k, c (i + k * step) = d (i + k * step)) → forS c step body fuel i s = forS d step body fuel' i s := by
  have stop : ∀ {e : Nat → Bool} {fuel i : Nat} {s : σ}, e i = false → forS e step body fuel i s = .ret (i, s) := by
    intro e fuel i s h
    cases fuel <;> (unfold forS; rw [h]; rfl)
  intro fuel
  induction fuel with
  | zero =>
    intro fuel' i s h1 _ h3
    have hci : c i = false := by
      cases h : c i
      · rfl
      · have := hc i h; omega
    have hdi : d i = false := by have := h3 0; rw [Nat.zero_mul, Nat.add_zero] at this; rw [← this]; exact hci
    rw [stop hci, stop hdi]
  | succ fuel ih =>
    intro fuel' i s h1 h2 h3
    have h0 : c i = d i := by have := h3 0; rwa [Nat.zero_mul, Nat.add_zero] at this
    cases h : c i
    · rw [stop h, stop (h0 ▸ h)]
    · cases fuel' with
      | zero => have := hd i (h0 ▸ h); omega
      | succ fuel' =>
        unfold forS
        rw [h, ← h0, h]
        have : ∀ s', forS c step body fuel (i + step) s' = forS d step body fuel' (i + step) s' := fun s' =>
          ih fuel' (i + step) s' (by omega) (by omega) (fun k => by
            have := h3 (k + 1)
            rwa [show i + (k + 1) * step = i + step + k * step by rw [Nat.succ_mul]; omega] at this)
        simp only [this]

/-- The scalar loop in two stages. -/
theorem forS_split {σ : Type} {N M : Nat} {body : Nat → σ → Prog σ} (hM : M ≤ N) :
    ∀ fuel i s, N ≤ i + fuel → i ≤ M →
      (forS (fun i => decide (i < N)) 1 body fuel i s >>= fun r => pure r.2) =
      ((forS (fun i => decide (i < M)) 1 body fuel i s >>= fun r => (pure r.2 : Prog σ)) >>= fun s' => forS (fun i => decide (i < N)) 1 body N M s' >>= fun r => pure r.2) := by
  intro fuel
  have stop : ∀ {e : Nat → Bool} {fuel i : Nat} {s : σ}, e i = false → forS e 1 body fuel i s = .ret (i, s) := by
    intro e fuel i s h
    cases fuel <;> (unfold forS; rw [h]; rfl)
  have last : ∀ fuel s, N ≤ M + fuel → (forS (fun i => decide (i < N)) 1 body fuel M s >>= fun r => pure r.2) =
      ((forS (fun i => decide (i < M)) 1 body fuel M s >>= fun r => (pure r.2 : Prog σ)) >>= fun s' => forS (fun i => decide (i < N)) 1 body N M s' >>= fun r => pure r.2) := by
    intro fuel s h
    have e : forS (fun i => decide (i < M)) 1 body fuel M s = .ret (M, s) := stop (by simp)
    rw [e]
    show _ = (forS (fun i => decide (i < N)) 1 body N M s >>= fun r => pure r.2)
    rw [forS_congr (c := fun i => decide (i < N)) (d := fun i => decide (i < N)) (N := N) (M := N) (by omega) (fun i h => by simpa using h) (fun i h => by simpa using h) fuel N M s h (by omega) (fun _ => rfl)]
  induction fuel with
  | zero =>
    intro i s h1 h2
    obtain rfl : i = M := by omega
    exact last 0 s h1
  | succ fuel ih =>
    intro i s h1 h2
    rcases Nat.lt_or_ge i M with h | h
    · have e1 : forS (fun i => decide (i < N)) 1 body (fuel + 1) i s = (body i s >>= fun s' => forS (fun i => decide (i < N)) 1 body fuel (i + 1) s') := by
        rw [forS, if_pos (by simp; omega)]
      have e2 : forS (fun i => decide (i < M)) 1 body (fuel + 1) i s = (body i s >>= fun s' => forS (fun i => decide (i < M)) 1 body fuel (i + 1) s') := by
        rw [forS, if_pos (by simpa using h)]
      rw [e1, e2]
      simp only [Prog.bind_eq, Prog.bind_assoc]
      congr 1
      funext s'
      have := ih (i + 1) s' (by omega) (by omega)
      simp only [Prog.bind_eq, Prog.bind_assoc] at this
      exact this
    · obtain rfl : i = M := by omega
      exact last (fuel + 1) s h1

theorem mmTail_split {ft : FT} {x : InBuf} {off numel M i : Nat} {s : F32 × F32} (hM : M ≤ numel) (hi : i ≤ M) :
    mmTail ft x off numel i s = (mmTail ft x off M i s >>= mmTail ft x off numel M) := by
  unfold mmTail
  rw [forS_split hM numel i s (by omega) hi]
  rw [forS_congr (c := fun i => decide (i < M)) (d := fun i => decide (i < M)) (N := M) (M := M) (by omega) (fun i h => by simpa using h) (fun i h => by simpa using h) numel M i s (by omega) (by omega) (fun _ => rfl)]

/-- The vector loop of a block does not look beyond the vector part; then the scalar loop goes on. -/
theorem mmCut {n : Nat} {numel M w1 step : Nat} {body : Nat → V n F32 × V n F32 → Prog (V n F32 × V n F32)} {s : V n F32 × V n F32} {h H : V n F32 → F32} {ft : FT} {x : InBuf} {off : Nat}
    (hs : 0 < step) (hM : M ≤ numel) (hk : ∀ k, k * step + w1 < numel ↔ k * step + w1 < M)
    (hret : ∃ i' s', forS (fun i => decide (i + w1 < M)) step body M 0 s = .ret (i', s') ∧ i' ≤ M) :
    ((forS (fun i => decide (i + w1 < numel)) step body numel 0 s >>= fun r => pure (r.1, h r.2.1, H r.2.2)) >>= fun r => mmTail ft x off numel r.1 r.2) =
    (((forS (fun i => decide (i + w1 < M)) step body M 0 s >>= fun r => pure (r.1, h r.2.1, H r.2.2)) >>= fun r => mmTail ft x off M r.1 r.2) >>= mmTail ft x off numel M) := by
  have e : forS (fun i => decide (i + w1 < numel)) step body numel 0 s = forS (fun i => decide (i + w1 < M)) step body M 0 s :=
    forS_congr (N := numel) (M := M) hs (fun i h => by simp at h; omega) (fun i h => by simp at h; omega) numel M 0 s (by omega) (by omega) (fun k => by
      rw [Nat.zero_add]; exact decide_eq_decide.mpr (hk k))
  obtain ⟨i', s', e', hi⟩ := hret
  rw [e, e']
  exact mmTail_split hM hi

theorem forS_ret {σ : Type} {step M w1 : Nat} {body : Nat → σ → Prog σ} {s : σ} (hs : 0 < step) (hw : step ≤ w1 + 1)
    (hb : ∀ i s, i + w1 < M → ∃ s', body i s = .ret s') : ∃ i' s', forS (fun i => decide (i + w1 < M)) step body M 0 s = .ret (i', s') ∧ i' ≤ M := by
  obtain ⟨i', s', e, h, _⟩ := forS_inv (numel := M) (cond := fun i => decide (i + w1 < M)) (step := step) (I := fun i (_ : σ) => i ≤ M) (body := body) hs
    (fun i h => by simp at h; omega) (fun i s h _ => by
      have h : i + w1 < M := by simpa using h
      obtain ⟨s', e⟩ := hb i s h
      exact ⟨s', e, by omega⟩) M 0 s (by omega) (by omega)
  exact ⟨i', s', e, h⟩

/-- A block is handled as its vector part, followed by the scalar loop over the rest. -/
theorem findMinMax_cut {isa : Isa} {ft : FT} {x : InBuf} {off numel : Nat} (hx : off + ft.size * numel ≤ x.size) :
    findMinMax isa ft x off numel = (findMinMax isa ft x off (vectorPart isa ft numel) >>= mmTail ft x off numel (vectorPart isa ft numel)) := by
  have scal : ∀ {s : F32 × F32}, mmTail ft x off numel 0 s = (mmTail ft x off 0 0 s >>= mmTail ft x off numel 0) := mmTail_split (by omega) (by omega)
  cases ft <;> cases isa
  case f32.avx512f =>
    have hv : vectorPart .avx512f .f32 numel ≤ numel := by simp only [vectorPart]; split_ifs <;> omega
    exact mmCut (n := 16) (h := mm512_reduce_min_ps) (H := mm512_reduce_max_ps) (by omega) hv (fun k => by simp only [vectorPart]; split_ifs <;> omega)
      (forS_ret (by omega) (by omega) (fun i s hi => by
        simp only [FT.size] at hx
        rw [loadu_ps_ok (by omega), loadu_ps_ok (by omega), loadu_ps_ok (by omega), loadu_ps_ok (by omega)]
        exact ⟨_, rfl⟩))
  case f32.avx512bf16 =>
    have hv : vectorPart .avx512bf16 .f32 numel ≤ numel := by simp only [vectorPart]; split_ifs <;> omega
    exact mmCut (n := 16) (h := mm512_reduce_min_ps) (H := mm512_reduce_max_ps) (by omega) hv (fun k => by simp only [vectorPart]; split_ifs <;> omega)
      (forS_ret (by omega) (by omega) (fun i s hi => by
        simp only [FT.size] at hx
        rw [loadu_ps_ok (by omega), loadu_ps_ok (by omega), loadu_ps_ok (by omega), loadu_ps_ok (by omega)]
        exact ⟨_, rfl⟩))
  case f32.avx2 =>
    have hv : vectorPart .avx2 .f32 numel ≤ numel := by simp only [vectorPart]; omega
    exact mmCut (n := 8) (h := hminAvx2) (H := hmaxAvx2) (by omega) hv (fun k => by simp only [vectorPart]; omega)
      (forS_ret (by omega) (by omega) (fun i s hi => by
        simp only [FT.size] at hx
        rw [loadu_ps_ok (by omega), loadu_ps_ok (by omega), loadu_ps_ok (by omega), loadu_ps_ok (by omega)]
        exact ⟨_, rfl⟩))
  case f32.sse42 =>
    have hv : vectorPart .sse42 .f32 numel ≤ numel := by simp only [vectorPart]; omega
    exact mmCut (n := 4) (h := hminSse) (H := hmaxSse) (by omega) hv (fun k => by simp only [vectorPart]; omega)
      (forS_ret (by omega) (by omega) (fun i s hi => by
        simp only [FT.size] at hx
        rw [loadu_ps_ok (by omega), loadu_ps_ok (by omega), loadu_ps_ok (by omega), loadu_ps_ok (by omega)]
        exact ⟨_, rfl⟩))
  case f32.neon =>
    have hv : vectorPart .neon .f32 numel ≤ numel := by simp only [vectorPart]; omega
    exact mmCut (n := 4) (h := minList4) (H := maxList4) (by omega) hv (fun k => by simp only [vectorPart]; omega)
      (forS_ret (by omega) (by omega) (fun i s hi => by
        simp only [FT.size] at hx
        rw [loadu_ps_ok (by omega), loadu_ps_ok (by omega), loadu_ps_ok (by omega), loadu_ps_ok (by omega)]
        exact ⟨_, rfl⟩))
  case f32.portable => exact scal
  case bf16.avx512f =>
    have hv : vectorPart .avx512f .bf16 numel ≤ numel := by simp only [vectorPart]; split_ifs <;> omega
    exact mmCut (n := 16) (h := mm512_reduce_min_ps) (H := mm512_reduce_max_ps) (by omega) hv (fun k => by simp only [vectorPart]; split_ifs <;> omega)
      (forS_ret (by omega) (by omega) (fun i s hi => by
        simp only [FT.size] at hx
        rw [loadBf16_ok (by omega), loadBf16_ok (by omega), loadBf16_ok (by omega), loadBf16_ok (by omega)]
        exact ⟨_, rfl⟩))
  case bf16.avx512bf16 =>
    have hv : vectorPart .avx512bf16 .bf16 numel ≤ numel := by simp only [vectorPart]; split_ifs <;> omega
    exact mmCut (n := 16) (h := mm512_reduce_min_ps) (H := mm512_reduce_max_ps) (by omega) hv (fun k => by simp only [vectorPart]; split_ifs <;> omega)
      (forS_ret (by omega) (by omega) (fun i s hi => by
        simp only [FT.size] at hx
        rw [loadBf16_ok (by omega), loadBf16_ok (by omega), loadBf16_ok (by omega), loadBf16_ok (by omega)]
        exact ⟨_, rfl⟩))
  case bf16.avx2 =>
    have hv : vectorPart .avx2 .bf16 numel ≤ numel := by simp only [vectorPart]; omega
    exact mmCut (n := 8) (h := hminAvx2) (H := hmaxAvx2) (by omega) hv (fun k => by simp only [vectorPart]; omega)
      (forS_ret (by omega) (by omega) (fun i s hi => by
        simp only [FT.size] at hx
        rw [loadBf16_ok (by omega), loadBf16_ok (by omega), loadBf16_ok (by omega), loadBf16_ok (by omega)]
        exact ⟨_, rfl⟩))
  case bf16.sse42 =>
    have hv : vectorPart .sse42 .bf16 numel ≤ numel := by simp only [vectorPart]; omega
    exact mmCut (n := 4) (h := hminSse) (H := hmaxSse) (by omega) hv (fun k => by simp only [vectorPart]; omega)
      (forS_ret (by omega) (by omega) (fun i s hi => by
        simp only [FT.size] at hx
        rw [loadBf16Lo4_ok (by omega), loadBf16Lo4_ok (by omega), loadBf16Lo4_ok (by omega), loadBf16Lo4_ok (by omega)]
        exact ⟨_, rfl⟩))
  case bf16.neon => exact scal
  case bf16.portable => exact scal

/-! ## Minimum and maximum of the numbers among the data -/

/-- `v` and `w` are finite bounds of the values in `T`, reached, or as extreme as the initial values. -/
def MixOk (g : Nat → ℚ) (T : Nat → Prop) (v w : ℚ) : Prop :=
  (∀ t, T t → v ≤ g t ∧ g t ≤ w) ∧ ((∃ t, T t ∧ v = g t) ∨ fltMax.toRat ≤ v) ∧ ((∃ t, T t ∧ w = g t) ∨ w ≤ fltLowest.toRat)

theorem MixOk.congr {g : Nat → ℚ} {T U : Nat → Prop} {v w : ℚ} (h : MixOk g T v w) (e : ∀ t, T t ↔ U t) : MixOk g U v w := by
  have : T = U := funext fun t => propext (e t)
  rwa [← this]

/-- Taking the smaller minimum and the larger maximum. -/
theorem MixOk.join {g : Nat → ℚ} {T U : Nat → Prop} {v w v' w' : ℚ} (h : MixOk g T v w) (k : MixOk g U v' w') :
    MixOk g (fun t => T t ∨ U t) (min v v') (max w w') := by
  obtain ⟨h1, h2, h3⟩ := h
  obtain ⟨k1, k2, k3⟩ := k
  refine ⟨?_, ?_, ?_⟩
  · rintro t (ht | ht)
    · exact ⟨(min_le_left _ _).trans (h1 t ht).1, (h1 t ht).2.trans (le_max_left _ _)⟩
    · exact ⟨(min_le_right _ _).trans (k1 t ht).1, (k1 t ht).2.trans (le_max_right _ _)⟩
  · rcases min_choice v v' with e | e <;> rw [e]
    · rcases h2 with ⟨t, ht, e⟩ | h
      · exact Or.inl ⟨t, Or.inl ht, e⟩
      · exact Or.inr h
    · rcases k2 with ⟨t, ht, e⟩ | h
      · exact Or.inl ⟨t, Or.inr ht, e⟩
      · exact Or.inr h
  · rcases max_choice w w' with e | e <;> rw [e]
    · rcases h3 with ⟨t, ht, e⟩ | h
      · exact Or.inl ⟨t, Or.inl ht, e⟩
      · exact Or.inr h
    · rcases k3 with ⟨t, ht, e⟩ | h
      · exact Or.inl ⟨t, Or.inr ht, e⟩
      · exact Or.inr h

theorem MixOk.one {g : Nat → ℚ} {i : Nat} : MixOk g (fun t => t = i) (g i) (g i) :=
  ⟨fun t ht => by subst ht; exact ⟨le_refl _, le_refl _⟩, Or.inl ⟨i, rfl, rfl⟩, Or.inl ⟨i, rfl, rfl⟩⟩

/-- The scalar selection, as minimum and maximum. -/
theorem pick'_fin {a c : F32} (ha : a.isFin = true) (hc : c.isFin = true) :
    (pick' false a c).isFin = true ∧ (pick' false a c).toRat = min a.toRat c.toRat ∧ (pick' true a c).isFin = true ∧ (pick' true a c).toRat = max a.toRat c.toRat := by
  have na := (isFin_not_nan ha).1
  have nc := (isFin_not_nan hc).1
  unfold pick'
  rw [less_false nc na, less_true nc na]
  refine ⟨?_, ?_, ?_, ?_⟩
  · split <;> assumption
  · by_cases h : c.toRat < a.toRat
    · rw [if_pos (by simpa using h), min_eq_right h.le]
    · rw [if_neg (by simpa using h), min_eq_left (not_lt.mp h)]
  · split <;> assumption
  · by_cases h : a.toRat < c.toRat
    · rw [if_pos (by simpa using h), max_eq_right h.le]
    · rw [if_neg (by simpa using h), max_eq_left (not_lt.mp h)]

/-- The scalar loop skips NaNs. -/
theorem mmTail_mix {ft : FT} {x : InBuf} {off numel i : Nat} {s : F32 × F32} (hx : off + ft.size * numel ≤ x.size)
    (hf : ∀ t, t < numel → (x.elem ft off t).isNaN = true ∨ (x.elem ft off t).isFin = true) (hi : i ≤ numel)
    (h1 : s.1.isFin = true ∧ s.2.isFin = true ∧ MixOk (fun t => (x.elem ft off t).toRat) (fun t => t < i ∧ (x.elem ft off t).isNaN = false) s.1.toRat s.2.toRat) :
    ∃ r, mmTail ft x off numel i s = .ret r ∧ r.1.isFin = true ∧ r.2.isFin = true ∧
      MixOk (fun t => (x.elem ft off t).toRat) (fun t => t < numel ∧ (x.elem ft off t).isNaN = false) r.1.toRat r.2.toRat := by
  obtain ⟨i', s', e, ⟨hI, h2⟩, hc⟩ := forS_inv (numel := numel) (cond := fun i => i < numel) (step := 1)
    (I := fun i (s : F32 × F32) => (s.1.isFin = true ∧ s.2.isFin = true ∧ MixOk (fun t => (x.elem ft off t).toRat) (fun t => t < i ∧ (x.elem ft off t).isNaN = false) s.1.toRat s.2.toRat) ∧ i ≤ numel)
    (body := fun i s => do
      let v ← ldX ft x off i
      let mn := if Flt.lt v s.1 then v else s.1
      let mx := if Flt.gt v s.2 then v else s.2
      pure (mn, mx)) (by omega) (fun i h => by simpa using h) (by
        rintro i s hc ⟨⟨s1, s2, hv⟩, _⟩
        have hc : i < numel := by simpa using hc
        have hb : off + ft.size * i + ft.size ≤ x.size := by
          have : ft.size * (i + 1) ≤ ft.size * numel := Nat.mul_le_mul_left _ hc
          rw [Nat.mul_succ] at this; omega
        refine ⟨(pick' false s.1 (x.elem ft off i), pick' true s.2 (x.elem ft off i)), ?_, ?_, by omega⟩
        · rw [ldX_ok hb]; rfl
        cases hn : (x.elem ft off i).isNaN
        · have hfi : (x.elem ft off i).isFin = true := by
            rcases hf i hc with h | h
            · rw [hn] at h; cases h
            · exact h
          obtain ⟨a1, e1, _, _⟩ := pick'_fin s1 hfi
          obtain ⟨_, _, a2, e2⟩ := pick'_fin s2 hfi
          refine ⟨a1, a2, ?_⟩
          show MixOk _ _ (pick' false s.1 (x.elem ft off i)).toRat (pick' true s.2 (x.elem ft off i)).toRat
          rw [e1, e2]
          refine (hv.join (MixOk.one (g := fun t => (x.elem ft off t).toRat) (i := i))).congr (fun t => ?_)
          constructor
          · rintro (⟨h, h'⟩ | rfl)
            · exact ⟨by omega, h'⟩
            · exact ⟨by omega, hn⟩
          · rintro ⟨h, h'⟩
            rcases Nat.lt_or_ge t i with h3 | h3
            · exact Or.inl ⟨h3, h'⟩
            · exact Or.inr (by omega)
        · have e1 : pick' false s.1 (x.elem ft off i) = s.1 := by unfold pick'; rw [less_nan (Or.inl hn)]; rfl
          have e2 : pick' true s.2 (x.elem ft off i) = s.2 := by unfold pick'; rw [less_nan (Or.inl hn)]; rfl
          rw [e1, e2]
          refine ⟨s1, s2, hv.congr (fun t => ?_)⟩
          constructor
          · rintro ⟨h, h'⟩; exact ⟨by omega, h'⟩
          · rintro ⟨h, h'⟩
            rcases Nat.lt_or_ge t i with h3 | h3
            · exact ⟨h3, h'⟩
            · obtain rfl : t = i := by omega
              rw [hn] at h'; cases h') numel i s (by omega) ⟨h1, hi⟩
  have hc : numel ≤ i' := by simpa using hc
  obtain rfl : i' = numel := by omega
  refine ⟨s', ?_, hI⟩
  unfold mmTail
  rw [e]; rfl

theorem rng_mix {f : Nat → F32} {C : Ix} {v w : F32} {N : Nat} (h : Rng f C v w) (hC : ∀ t, C (some t) ↔ t < N) (hf : ∀ t, t < N → (f t).isFin = true) :
    v.isFin = true ∧ w.isFin = true ∧ MixOk (fun t => (f t).toRat) (fun t => t < N) v.toRat w.toRat := by
  obtain ⟨_, h1, h2, h3⟩ := h
  refine ⟨?_, ?_, fun t ht => h1 t ((hC t).2 ht), ?_, ?_⟩
  · rcases h2 with ⟨t, ht, rfl⟩ | rfl
    · exact hf t ((hC t).1 ht)
    · decide
  · rcases h3 with ⟨t, ht, rfl⟩ | rfl
    · exact hf t ((hC t).1 ht)
    · decide
  · rcases h2 with ⟨t, ht, rfl⟩ | rfl
    · exact Or.inl ⟨t, (hC t).1 ht, rfl⟩
    · exact Or.inr (le_refl _)
  · rcases h3 with ⟨t, ht, rfl⟩ | rfl
    · exact Or.inl ⟨t, (hC t).1 ht, rfl⟩
    · exact Or.inr (le_refl _)

/-- A block whose vector part is free of NaNs. -/
theorem findMinMax_mix {isa : Isa} {ft : FT} {x : InBuf} {off numel : Nat} (hx : off + ft.size * numel ≤ x.size) (hsm : isa = .sse42 → mmSmall ft numel)
    (hf : ∀ t, t < numel → (x.elem ft off t).isNaN = true ∨ (x.elem ft off t).isFin = true) (hv : ∀ t, t < vectorPart isa ft numel → (x.elem ft off t).isNaN = false) :
    ∃ r, findMinMax isa ft x off numel = .ret r ∧ r.1.isFin = true ∧ r.2.isFin = true ∧
      MixOk (fun t => (x.elem ft off t).toRat) (fun t => t < numel ∧ (x.elem ft off t).isNaN = false) r.1.toRat r.2.toRat := by
  have hle : vectorPart isa ft numel ≤ numel := by
    cases ft <;> cases isa <;> simp only [vectorPart] <;> (try split_ifs) <;> omega
  have h0 : isa = .sse42 → vectorPart isa ft numel = 0 := by
    rintro rfl
    have := hsm rfl
    cases ft
    · have this : numel < 16 := this
      simp only [vectorPart]; omega
    · have this : numel < 32 := this
      simp only [vectorPart]; omega
  rw [findMinMax_cut hx]
  generalize vectorPart isa ft numel = M at *
  have hx' : off + ft.size * M ≤ x.size := le_trans (Nat.add_le_add_left (Nat.mul_le_mul_left _ hle) _) hx
  obtain ⟨r, e, C, hC, hr⟩ := findMinMax_seen (isa := isa) hx' (Rng.rel (f := fun t => x.elem ft off t) hv)
  have hC' : ∀ t, C (some t) ↔ t < M := fun t => by
    rw [hC]
    exact ⟨fun h => h.1, fun h => ⟨h, fun hi => by have := h0 hi; omega⟩⟩
  obtain ⟨r1, r2, hm⟩ := rng_mix hr hC' (fun t ht => (hf t (by omega)).resolve_left (by show ¬ (x.elem ft off t).isNaN = true; rw [hv t ht]; decide))
  rw [e]
  exact mmTail_mix hx hf hle ⟨r1, r2, hm.congr (fun t => ⟨fun h => ⟨h, hv t h⟩, fun h => h.1⟩)⟩

theorem mmBlock_mix {isa : Isa} {ft : FT} {x : InBuf} {n s e : Nat} (hx : ft.size * n ≤ x.size) (hs : s < e) (he : e ≤ n) (hsm : isa = .sse42 → mmSmall ft (e - s))
    (hf : ∀ t, t < n → (x.elem ft 0 t).isNaN = true ∨ (x.elem ft 0 t).isFin = true) (hv : ∀ t, s ≤ t → t < s + vectorPart isa ft (e - s) → (x.elem ft 0 t).isNaN = false) :
    ∃ r, mmBlock isa ft x s e = .ret r ∧ r.1.isFin = true ∧ r.2.isFin = true ∧
      MixOk (fun t => (x.elem ft 0 t).toRat) (fun t => s ≤ t ∧ t < e ∧ (x.elem ft 0 t).isNaN = false) r.1.toRat r.2.toRat := by
  have hb : ft.size * s + ft.size * (e - s) ≤ x.size := by
    rw [← Nat.mul_add]
    exact le_trans (Nat.mul_le_mul_left _ (by omega)) hx
  obtain ⟨r, er, f1, f2, h1, h2, h3⟩ := findMinMax_mix (isa := isa) hb hsm (fun t ht => by rw [elem_off]; exact hf _ (by omega))
    (fun t ht => by rw [elem_off]; exact hv _ (by omega) (by omega))
  simp only [elem_off] at h1 h2 h3
  refine ⟨r, ?_, f1, f2, ?_, ?_, ?_⟩
  · unfold mmBlock
    rw [if_neg (by omega)]; exact er
  · rintro t ⟨ht, hT, hS⟩
    have := h1 (t - s)
    rw [show s + (t - s) = t by omega] at this
    exact this ⟨by omega, hS⟩
  · rcases h2 with ⟨t, ⟨ht, hn⟩, e⟩ | h2
    · exact Or.inl ⟨s + t, ⟨by omega, by omega, hn⟩, e⟩
    · exact Or.inr h2
  · rcases h3 with ⟨t, ⟨ht, hn⟩, e⟩ | h3
    · exact Or.inl ⟨s + t, ⟨by omega, by omega, hn⟩, e⟩
    · exact Or.inr h3

/-- The combining loop. -/
def CombMix (g : Nat → ℚ) (T : Nat → Prop) (s : F64 × F64) : Prop := s.1.isFin = true ∧ s.2.isFin = true ∧ MixOk g T s.1.toRat s.2.toRat

theorem combMix_step {g : Nat → ℚ} {s : F64 × F64} {T U : Nat → Prop} {r : F32 × F32} (h : CombMix g T s)
    (h1 : r.1.isFin = true) (h2 : r.2.isFin = true) (hr : MixOk g U r.1.toRat r.2.toRat) :
    CombMix g (fun t => T t ∨ U t) (stdMin s.1 (Flt.cvt f64 r.1), stdMax s.2 (Flt.cvt f64 r.2)) := by
  obtain ⟨s1, s2, hs⟩ := h
  obtain ⟨e1, f1⟩ := cvt64_fin h1
  obtain ⟨e2, f2⟩ := cvt64_fin h2
  obtain ⟨g1, m1⟩ := stdMin_fin s1 f1
  obtain ⟨g2, m2⟩ := stdMax_fin s2 f2
  refine ⟨g1, g2, ?_⟩
  show MixOk g _ (stdMin s.1 (Flt.cvt f64 r.1)).toRat (stdMax s.2 (Flt.cvt f64 r.2)).toRat
  rw [m1, m2, e1, e2]
  exact hs.join hr

theorem mmBlocks_mix {isa : Isa} {ft : FT} {x : InBuf} {n : Nat} (hx : ft.size * n ≤ x.size)
    (hf : ∀ t, t < n → (x.elem ft 0 t).isNaN = true ∨ (x.elem ft 0 t).isFin = true) :
    ∀ (blocks : List (Nat × Nat)) (s : Nat), Split n s blocks → (isa = .sse42 → ∀ b ∈ blocks, mmSmall ft (b.2 - b.1)) →
      (∀ b ∈ blocks, ∀ t, b.1 ≤ t → t < b.1 + vectorPart isa ft (b.2 - b.1) → (x.elem ft 0 t).isNaN = false) →
      ∃ rs, mmBlocks isa ft x blocks = .ret rs ∧ s ≤ n ∧ ∀ (st : F64 × F64) (U : Nat → Prop), CombMix (fun t => (x.elem ft 0 t).toRat) U st →
        CombMix (fun t => (x.elem ft 0 t).toRat) (fun t => U t ∨ (s ≤ t ∧ t < n ∧ (x.elem ft 0 t).isNaN = false)) (rs.foldl (fun s r => (stdMin s.1 (Flt.cvt f64 r.1), stdMax s.2 (Flt.cvt f64 r.2))) st) := by
  intro blocks
  induction blocks with
  | nil =>
    intro s hs _ _
    obtain rfl : s = n := hs
    refine ⟨[], rfl, le_refl _, fun st U h => ⟨h.1, h.2.1, h.2.2.congr (fun t => ⟨Or.inl, fun h => ?_⟩)⟩⟩
    rcases h with h | h
    · exact h
    · omega
  | cons b bs ih =>
    rintro s ⟨hb, hlt, hrest⟩ hsm hv
    obtain ⟨rs, ers, hle, hT⟩ := ih b.2 hrest (fun hi c hc => hsm hi c (by simp [hc])) (fun c hc => hv c (by simp [hc]))
    obtain ⟨r, er, f1, f2, hV⟩ := mmBlock_mix (isa := isa) hx (s := b.1) (e := b.2) (by omega) hle (fun hi => hsm hi b (by simp)) hf (hv b (by simp))
    refine ⟨r :: rs, ?_, by omega, fun st U h => ?_⟩
    · unfold mmBlocks; rw [er]
      show (do let rs ← mmBlocks isa ft x bs; pure (r :: rs) : Prog _) = _
      rw [ers]; rfl
    · have := hT _ _ (combMix_step h f1 f2 hV)
      refine ⟨this.1, this.2.1, this.2.2.congr (fun t => ?_)⟩
      constructor
      · rintro ((h | ⟨h1, h2, h3⟩) | ⟨h1, h2, h3⟩)
        · exact Or.inl h
        · exact Or.inr ⟨by omega, by omega, h3⟩
        · exact Or.inr ⟨by omega, by omega, h3⟩
      · rintro (h | ⟨h1, h2, h3⟩)
        · exact Or.inl (Or.inl h)
        · rcases Nat.lt_or_ge t b.2 with h | h
          · exact Or.inl (Or.inr ⟨by omega, h, h3⟩)
          · exact Or.inr ⟨h, h2, h3⟩

/-- The parameters are those of the numbers among the data. -/
theorem config_mix {isa : Isa} {ft : FT} {x : InBuf} {n : Nat} {blocks : List (Nat × Nat)} {dt : DType} (hdt : dt.isQuant = true) (hx : ft.size * n ≤ x.size)
    (hf : ∀ t, t < n → (x.elem ft 0 t).isNaN = true ∨ (x.elem ft 0 t).isFin = true) (hs : Split n 0 blocks) (hsm : isa = .sse42 → ∀ b ∈ blocks, mmSmall ft (b.2 - b.1))
    (hv : ∀ b ∈ blocks, ∀ t, b.1 ≤ t → t < b.1 + vectorPart isa ft (b.2 - b.1) → (x.elem ft 0 t).isNaN = false)
    (hne : ∃ t, t < n ∧ (x.elem ft 0 t).isNaN = false) :
    ∃ lo hi, RangeOn (fun t => (x.elem ft 0 t).toRat) (fun t => t < n ∧ (x.elem ft 0 t).isNaN = false) lo hi ∧
      computeQuantConfigFromData isa ft x blocks dt = .ret (params dt.bits lo hi) := by
  obtain ⟨rs, ers, _, hT⟩ := mmBlocks_mix (isa := isa) hx hf blocks 0 hs hsm hv
  have h0 : CombMix (fun t => (x.elem ft 0 t).toRat) (fun _ => False) (dblMax, dblLowest) := by
    refine ⟨by decide, by decide, fun t h => h.elim, Or.inr (by decide +kernel), Or.inr (by decide +kernel)⟩
  obtain ⟨f1, f2, hb, h2, h3⟩ := hT _ _ h0
  have em : mmCombine rs = List.foldl (fun s r => (stdMin s.1 (Flt.cvt f64 r.1), stdMax s.2 (Flt.cvt f64 r.2))) (dblMax, dblLowest) rs := rfl
  rw [← em] at f1 f2 hb h2 h3
  obtain ⟨u, hu, nu⟩ := hne
  have fin : ∀ t, t < n → (x.elem ft 0 t).isNaN = false → (x.elem ft 0 t).isFin = true := fun t ht hn => (hf t ht).resolve_left (by rw [hn]; decide)
  have bu := hb u (Or.inr ⟨by omega, hu, nu⟩)
  have hw := abs_le.mp (fltMax_ge (fin u hu nu))
  have hlo : ∃ t, (t < n ∧ (x.elem ft 0 t).isNaN = false) ∧ (mmCombine rs).1.toRat = (x.elem ft 0 t).toRat := by
    rcases h2 with ⟨t, h | h, e⟩ | h
    · exact h.elim
    · exact ⟨t, h.2, e⟩
    · exact ⟨u, ⟨hu, nu⟩, le_antisymm bu.1 (hw.2.trans h)⟩
  have hhi : ∃ t, (t < n ∧ (x.elem ft 0 t).isNaN = false) ∧ (mmCombine rs).2.toRat = (x.elem ft 0 t).toRat := by
    rcases h3 with ⟨t, h | h, e⟩ | h
    · exact h.elim
    · exact ⟨t, h.2, e⟩
    · refine ⟨u, ⟨hu, nu⟩, le_antisymm (h.trans ?_) bu.2⟩
      rw [fltLowest_eq]; exact hw.1
  refine ⟨_, _, ⟨fun t ht => hb t (Or.inr ⟨by omega, ht⟩), hlo, hhi⟩, ?_⟩
  obtain ⟨a, ha, ea⟩ := hlo
  obtain ⟨b, hbn, eb⟩ := hhi
  have hle : (x.elem ft 0 a).toRat ≤ (x.elem ft 0 b).toRat := by
    rw [← ea, ← eb]; exact bu.1.trans bu.2
  rw [config_checked ers, paramsOf_eq hdt f1 f2 (fin a ha.1 ha.2) (fin b hbn.1 hbn.2) ea eb hle, ea, eb]
  exact checked_params hdt hle

/-! ## Any NaNs: the range of some of the numbers -/

/-- Both are NaN, or both are values of elements (or the initial values). -/
def NumIn (f : Nat → F32) (N : Nat) (_ : Ix) (v w : F32) : Prop :=
  (v.isNaN = true ∧ w.isNaN = true) ∨ (v.isFin = true ∧ w.isFin = true ∧
    ((v.toRat ≤ w.toRat ∧ (∃ t, t < N ∧ (f t).isFin = true ∧ v.toRat = (f t).toRat) ∧ ∃ t, t < N ∧ (f t).isFin = true ∧ w.toRat = (f t).toRat) ∨ (v = fltMax ∧ w = fltLowest)))

theorem numIn_step {f : Nat → F32} {N : Nat} {a b c d v w : F32} (h1 : Sel false a c v) (h2 : Sel true b d w) (ha : a.isFin = true) (hb : b.isFin = true) (hc : c.isFin = true) (hd : d.isFin = true)
    (h : (a.toRat ≤ b.toRat ∧ (∃ t, t < N ∧ (f t).isFin = true ∧ a.toRat = (f t).toRat) ∧ ∃ t, t < N ∧ (f t).isFin = true ∧ b.toRat = (f t).toRat) ∨ (a = fltMax ∧ b = fltLowest))
    (h' : (c.toRat ≤ d.toRat ∧ (∃ t, t < N ∧ (f t).isFin = true ∧ c.toRat = (f t).toRat) ∧ ∃ t, t < N ∧ (f t).isFin = true ∧ d.toRat = (f t).toRat) ∨ (c = fltMax ∧ d = fltLowest)) :
    v.isFin = true ∧ w.isFin = true ∧
    ((v.toRat ≤ w.toRat ∧ (∃ t, t < N ∧ (f t).isFin = true ∧ v.toRat = (f t).toRat) ∧ ∃ t, t < N ∧ (f t).isFin = true ∧ w.toRat = (f t).toRat) ∨ (v = fltMax ∧ w = fltLowest)) := by
  have g1 := sel_num h1 ha hc
  have g2 := sel_num h2 hb hd
  have am := abs_le.mp (fltMax_ge ha)
  have bm := abs_le.mp (fltMax_ge hb)
  have cm := abs_le.mp (fltMax_ge hc)
  have dm := abs_le.mp (fltMax_ge hd)
  obtain ⟨e1, l1, l2⟩ := h1
  obtain ⟨e2, m1, m2⟩ := h2
  refine ⟨g1, g2, ?_⟩
  rcases h with ⟨h, hx, hy⟩ | ⟨rfl, rfl⟩
  · refine Or.inl ⟨l1.trans (h.trans m1), ?_, ?_⟩
    · rcases h' with ⟨_, hx', _⟩ | ⟨rfl, rfl⟩
      · rcases e1 with e | e <;> rw [e] <;> assumption
      · have : v.toRat = a.toRat := by
          rcases e1 with e | e
          · rw [e]
          · rw [e] at l1 ⊢; exact le_antisymm l1 am.2
        rw [this]; exact hx
    · rcases h' with ⟨_, _, hy'⟩ | ⟨rfl, rfl⟩
      · rcases e2 with e | e <;> rw [e] <;> assumption
      · have : w.toRat = b.toRat := by
          rcases e2 with e | e
          · rw [e]
          · rw [e, fltLowest_eq] at m1; rw [e, fltLowest_eq]; exact le_antisymm bm.1 m1
        rw [this]; exact hy
  rcases h' with ⟨h', hx', hy'⟩ | ⟨rfl, rfl⟩
  · refine Or.inl ⟨l2.trans (h'.trans m2), ?_, ?_⟩
    · have : v.toRat = c.toRat := by
        rcases e1 with e | e
        · rw [e] at l2 ⊢; exact le_antisymm l2 cm.2
        · rw [e]
      rw [this]; exact hx'
    · have : w.toRat = d.toRat := by
        rcases e2 with e | e
        · rw [e, fltLowest_eq] at m2; rw [e, fltLowest_eq]; exact le_antisymm dm.1 m2
        · rw [e]
      rw [this]; exact hy'
  · refine Or.inr ⟨?_, ?_⟩
    · rcases e1 with e | e <;> exact e
    · rcases e2 with e | e <;> exact e

theorem NumIn.rel {f : Nat → F32} {numel : Nat} (hf : ∀ t, t < numel → (f t).isNaN = true ∨ (f t).isFin = true) : Rel (NumIn f numel) f numel where
  init := Or.inr ⟨by decide, by decide, Or.inr ⟨rfl, rfl⟩⟩
  elem t ht := by
    rcases hf t ht with h | h
    · exact Or.inl ⟨h, h⟩
    · exact Or.inr ⟨h, h, Or.inl ⟨le_refl _, ⟨t, ht, h, rfl⟩, t, ht, h, rfl⟩⟩
  p1 := by
    rintro S T a b c d (⟨h1, h2⟩ | ⟨h1, h2, h3⟩) (⟨k1, k2⟩ | ⟨k1, k2, k3⟩)
    · left; unfold pick; rw [less_nan (Or.inl h1), less_nan (Or.inl h2)]; exact ⟨k1, k2⟩
    · right; unfold pick; rw [less_nan (Or.inl h1), less_nan (Or.inl h2)]; exact ⟨k1, k2, k3⟩
    · left; unfold pick; rw [less_nan (Or.inr k1), less_nan (Or.inr k2)]; exact ⟨k1, k2⟩
    · exact Or.inr (numIn_step (pick_sel (fin_notnan h1) (fin_notnan k1)) (pick_sel (fin_notnan h2) (fin_notnan k2)) h1 h2 k1 k2 h3 k3)
  p2 := by
    rintro S T a b c d (⟨h1, h2⟩ | ⟨h1, h2, h3⟩) (⟨k1, k2⟩ | ⟨k1, k2, k3⟩)
    · left; unfold pick'; rw [less_nan (Or.inr h1), less_nan (Or.inr h2)]; exact ⟨h1, h2⟩
    · left; unfold pick'; rw [less_nan (Or.inr h1), less_nan (Or.inr h2)]; exact ⟨h1, h2⟩
    · right; unfold pick'; rw [less_nan (Or.inl k1), less_nan (Or.inl k2)]; exact ⟨h1, h2, h3⟩
    · exact Or.inr (numIn_step (pick'_sel (fin_notnan h1) (fin_notnan k1)) (pick'_sel (fin_notnan h2) (fin_notnan k2)) h1 h2 k1 k2 h3 k3)
  p3 := by
    rintro S T a b c d (⟨h1, h2⟩ | ⟨h1, h2, h3⟩) (⟨k1, k2⟩ | ⟨k1, k2, k3⟩)
    · left; unfold pickN; rw [h1, h2]; exact nanP
    · left; unfold pickN; rw [h1, h2]; exact nanP
    · left; unfold pickN; rw [k1, k2, Bool.or_true, Bool.or_true]; exact nanP
    · exact Or.inr (numIn_step (pickN_sel (fin_notnan h1) (fin_notnan k1)) (pickN_sel (fin_notnan h2) (fin_notnan k2)) h1 h2 k1 k2 h3 k3)

/-- State of the combining loop. -/
def CombIn (f : Nat → F32) (N : Nat) (s : F64 × F64) : Prop :=
  s = (dblMax, dblLowest) ∨ ∃ a b : F32, a.isFin = true ∧ b.isFin = true ∧ s = (Flt.cvt f64 a, Flt.cvt f64 b) ∧
    ((a.toRat ≤ b.toRat ∧ (∃ t, t < N ∧ (f t).isFin = true ∧ a.toRat = (f t).toRat) ∧ ∃ t, t < N ∧ (f t).isFin = true ∧ b.toRat = (f t).toRat) ∨ (a = fltMax ∧ b = fltLowest))

theorem combIn_step {f : Nat → F32} {N : Nat} {s : F64 × F64} {r : F32 × F32} (h : CombIn f N s) (hr : NumIn f N (fun _ => True) r.1 r.2) :
    CombIn f N (stdMin s.1 (Flt.cvt f64 r.1), stdMax s.2 (Flt.cvt f64 r.2)) := by
  rcases hr with ⟨n1, n2⟩ | ⟨f1, f2, hr⟩
  · rw [stdMin_nan (cvt64_nan n1), stdMax_nan (cvt64_nan n2)]; exact h
  rcases h with rfl | ⟨a, b, ha, hb, rfl, hab⟩
  · exact Or.inr ⟨r.1, r.2, f1, f2, by rw [stdMin_first f1, stdMax_first f2], hr⟩
  · obtain ⟨v, ev, hv⟩ := stdMin_cvt ha f1
    obtain ⟨w, ew, hw⟩ := stdMax_cvt hb f2
    obtain ⟨g1, g2, g3⟩ := numIn_step hv hw ha hb f1 f2 hab hr
    exact Or.inr ⟨v, w, g1, g2, by show (stdMin (Flt.cvt f64 a) _, stdMax (Flt.cvt f64 b) _) = _; rw [ev, ew], g3⟩

theorem combIn_all {f : Nat → F32} {N : Nat} : ∀ (rs : List (F32 × F32)) (s : F64 × F64), CombIn f N s → (∀ r ∈ rs, NumIn f N (fun _ => True) r.1 r.2) →
    CombIn f N (rs.foldl (fun s r => (stdMin s.1 (Flt.cvt f64 r.1), stdMax s.2 (Flt.cvt f64 r.2))) s) := by
  intro rs
  induction rs with
  | nil => intro s h _; exact h
  | cons r rs ih => intro s h hr; exact ih _ (combIn_step h (hr r (by simp))) (fun q hq => hr q (by simp [hq]))

/-- Data without infinities: the parameters of the range between two of the numbers in it, or an abort. -/
theorem config_in {isa : Isa} {ft : FT} {x : InBuf} {n : Nat} {blocks : List (Nat × Nat)} {dt : DType} (hdt : dt.isQuant = true) (hx : ft.size * n ≤ x.size)
    (hf : ∀ t, t < n → (x.elem ft 0 t).isNaN = true ∨ (x.elem ft 0 t).isFin = true) (hb : ∀ b ∈ blocks, b.1 < b.2 ∧ b.2 ≤ n) :
    computeQuantConfigFromData isa ft x blocks dt = .fail .panic ∨ ∃ t u, (t < n ∧ (x.elem ft 0 t).isFin = true) ∧ (u < n ∧ (x.elem ft 0 u).isFin = true) ∧
      (x.elem ft 0 t).toRat ≤ (x.elem ft 0 u).toRat ∧
      computeQuantConfigFromData isa ft x blocks dt = .ret (params dt.bits (x.elem ft 0 t).toRat (x.elem ft 0 u).toRat) := by
  obtain ⟨rs, ers, hrs, _⟩ := mmBlocks_all (P := fun r => NumIn (fun t => x.elem ft 0 t) n (fun _ => True) r.1 r.2) (isa := isa) (ft := ft) (x := x) blocks (by
    intro b hbm
    obtain ⟨h1, h2⟩ := hb b hbm
    obtain ⟨r, er, C, hC⟩ := mmBlock_gen (isa := isa) (R := NumIn (fun t => x.elem ft (ft.size * b.1) t) (b.2 - b.1)) hx h1 h2 (NumIn.rel (fun t ht => by
        show (x.elem ft (ft.size * b.1) t).isNaN = true ∨ (x.elem ft (ft.size * b.1) t).isFin = true
        rw [elem_off]; exact hf _ (by omega)))
    refine ⟨r, er, ?_⟩
    rcases hC with h | ⟨g1, g2, ⟨g3, ⟨t, ht, ft', et⟩, ⟨u, hu, fu, eu⟩⟩ | h⟩
    · exact Or.inl h
    · simp only [elem_off] at ft' et fu eu
      exact Or.inr ⟨g1, g2, Or.inl ⟨g3, ⟨_, by omega, ft', et⟩, ⟨_, by omega, fu, eu⟩⟩⟩
    · exact Or.inr ⟨g1, g2, Or.inr h⟩)
  rw [config_checked ers]
  rcases combIn_all rs (dblMax, dblLowest) (Or.inl rfl) hrs with h | ⟨a, b, ha, hb, h, hab⟩
  · left
    have h : mmCombine rs = _ := h
    rw [h]
    exact nan_panics hdt ⟨Or.inl rfl, Or.inl rfl⟩
  have h : mmCombine rs = _ := h
  rw [h]
  rcases hab with ⟨hab, ⟨t, ht, ft', et⟩, ⟨u, hu, fu, eu⟩⟩ | ⟨rfl, rfl⟩
  · right
    refine ⟨t, u, ⟨ht, ft'⟩, ⟨hu, fu⟩, by rw [← et, ← eu]; exact hab, ?_⟩
    obtain ⟨e1, f1⟩ := cvt64_fin ha
    obtain ⟨e2, f2⟩ := cvt64_fin hb
    rw [paramsOf_eq hdt f1 f2 ha hb e1 e2 hab, et, eu]
    exact checked_params hdt (by rw [← et, ← eu]; exact hab)
  · left
    exact nan_panics hdt ⟨Or.inr rfl, Or.inr rfl⟩

end Verif

import Verif.Proofs.MinMax
import Verif.SpecParams

/-! # Which elements the min/max kernels look at -/

namespace Verif
open Spec Simd

section
variable {R : Ix → F32 → F32 → Prop} {f : Nat → F32} {numel : Nat}

/-- What lane `j` of an accumulator has seen when the loop is at `i`. -/
def laneSet (st i j : Nat) : Ix := fun k => k = none ∨ ∃ t, t < i ∧ t % st = j ∧ k = some t

/-- The SSE4.2 loop, lane by lane. -/
theorem sseLoop {load : Nat → Prog (V 4 F32)} {st : Nat} (hst : st = 4 ∨ st = 8) (hR : Rel R f numel)
    (hload : ∀ i, i + st ≤ numel → load i = .ret (fun j => f (i + j))) :
    ∃ i' s', forS (fun i => i + (4 * st - 1) < numel) (4 * st) (fun i (s : V 4 F32 × V 4 F32) => do
        let v0 ← load (i + 0)
        let v1 ← load (i + st)
        let v2 ← load (i + 2 * st)
        let v3 ← load (i + 3 * st)
        pure (min_ps (min_ps (min_ps (min_ps s.1 v0) v1) v2) v3, max_ps (max_ps (max_ps (max_ps s.2 v0) v1) v2) v3)) numel 0 (set1 fltMax, set1 fltLowest) = .ret (i', s') ∧
      i' = numel / (4 * st) * (4 * st) ∧ ∀ j : Fin 4, R (laneSet st i' j) (s'.1 j) (s'.2 j) := by
  have h0 : R (fun k => k = none) fltMax fltLowest := hR.init
  have := forS_inv (numel := numel) (cond := fun i => i + (4 * st - 1) < numel) (step := 4 * st)
    (I := fun i (s : V 4 F32 × V 4 F32) => (i % (4 * st) = 0 ∧ i ≤ numel) ∧ ∀ j : Fin 4, R (laneSet st i j) (s.1 j) (s.2 j))
    (body := fun i (s : V 4 F32 × V 4 F32) => do
        let v0 ← load (i + 0)
        let v1 ← load (i + st)
        let v2 ← load (i + 2 * st)
        let v3 ← load (i + 3 * st)
        pure (min_ps (min_ps (min_ps (min_ps s.1 v0) v1) v2) v3, max_ps (max_ps (max_ps (max_ps s.2 v0) v1) v2) v3))
    (by omega) (fun i h => by simp at h; omega) ?_ numel 0 (set1 fltMax, set1 fltLowest) (by omega) ?_
  · obtain ⟨i', s', h1, ⟨⟨h2, h3⟩, h4⟩, h5⟩ := this
    have h5 : ¬ i' + (4 * st - 1) < numel := by simpa using h5
    refine ⟨i', s', h1, ?_, h4⟩
    rcases hst with rfl | rfl <;> omega
  · rintro i s hcond ⟨⟨hm, hle⟩, hv⟩
    have hcond : i + (4 * st - 1) < numel := by simpa using hcond
    refine ⟨(min_ps (min_ps (min_ps (min_ps s.1 (fun j => f (i + 0 + j))) (fun j => f (i + st + j))) (fun j => f (i + 2 * st + j))) (fun j => f (i + 3 * st + j)),
        max_ps (max_ps (max_ps (max_ps s.2 (fun j => f (i + 0 + j))) (fun j => f (i + st + j))) (fun j => f (i + 2 * st + j))) (fun j => f (i + 3 * st + j))), ?_, ⟨?_, ?_⟩, fun j => ?_⟩
    · rw [hload (i + 0) (by omega), hload (i + st) (by omega), hload (i + 2 * st) (by omega), hload (i + 3 * st) (by omega)]
      rfl
    · rw [Nat.add_mod_right]; exact hm
    · omega
    · have hj := j.isLt
      have r0 := hR.p1 _ _ _ _ _ _ (hv j) (hR.elem (i + 0 + j) (by omega))
      have r1 := hR.p1 _ _ _ _ _ _ r0 (hR.elem (i + st + j) (by omega))
      have r2 := hR.p1 _ _ _ _ _ _ r1 (hR.elem (i + 2 * st + j) (by omega))
      have r3 := hR.p1 _ _ _ _ _ _ r2 (hR.elem (i + 3 * st + j) (by omega))
      refine Rel.congr r3 (fun k => ?_)
      cases k with
      | none => simp [laneSet]
      | some t =>
        simp only [laneSet, Option.some.injEq, reduceCtorEq, false_or]
        constructor
        · rintro ((((⟨u, h1, h2, rfl⟩ | rfl) | rfl) | rfl) | rfl)
          · exact ⟨_, by omega, h2, rfl⟩
          all_goals
            refine ⟨_, ?_, ?_, rfl⟩
            · rcases hst with rfl | rfl <;> omega
            · rcases hst with rfl | rfl <;> omega
        · rintro ⟨u, h1, h2, rfl⟩
          by_cases h : t < i
          · exact Or.inl (Or.inl (Or.inl (Or.inl ⟨_, h, h2, rfl⟩)))
          · have : t = i + 0 + j ∨ t = i + st + j ∨ t = i + 2 * st + j ∨ t = i + 3 * st + j := by
              rcases hst with rfl | rfl <;> omega
            tauto
  · refine ⟨⟨by simp, by omega⟩, fun j => Rel.congr h0 (fun k => ?_)⟩
    unfold laneSet
    exact ⟨fun h => Or.inl h, fun h => by
      rcases h with h | ⟨t, ht, _⟩
      · exact h
      · omega⟩

/-- The scalar loop adds the rest. -/
theorem mmTail_set {ft : FT} {x : InBuf} {off i : Nat} {s : F32 × F32} {C : Ix} (hx : off + ft.size * numel ≤ x.size)
    (hR : Rel R f numel) (hf : ∀ t, t < numel → x.elem ft off t = f t) (h1 : R C s.1 s.2) (hi : i ≤ numel) :
    ∃ r, mmTail ft x off numel i s = .ret r ∧ R (fun k => C k ∨ ∃ t, i ≤ t ∧ t < numel ∧ k = some t) r.1 r.2 := by
  obtain ⟨i', s', e, ⟨hI, h2, h3⟩, hc⟩ := forS_inv (numel := numel) (cond := fun i => i < numel) (step := 1)
    (I := fun i' (s : F32 × F32) => R (fun k => C k ∨ ∃ t, i ≤ t ∧ t < i' ∧ k = some t) s.1 s.2 ∧ i ≤ i' ∧ i' ≤ numel)
    (body := fun i s => do
      let v ← ldX ft x off i
      let mn := if Flt.lt v s.1 then v else s.1
      let mx := if Flt.gt v s.2 then v else s.2
      pure (mn, mx)) (by omega) (fun i h => by simpa using h) (by
        rintro i' s hc ⟨hv, h2, h3⟩
        have hc : i' < numel := by simpa using hc
        have hb : off + ft.size * i' + ft.size ≤ x.size := by
          have : ft.size * (i' + 1) ≤ ft.size * numel := Nat.mul_le_mul_left _ hc
          rw [Nat.mul_succ] at this; omega
        refine ⟨(pick' false s.1 (f i'), pick' true s.2 (f i')), ?_, Rel.congr (hR.p2 _ _ _ _ _ _ hv (hR.elem i' hc)) (fun k => ?_), by omega, by omega⟩
        · rw [ldX_ok hb, hf i' hc]; rfl
        constructor
        · rintro ((h | ⟨t, h4, h5, rfl⟩) | rfl)
          · exact Or.inl h
          · exact Or.inr ⟨t, h4, by omega, rfl⟩
          · exact Or.inr ⟨i', h2, by omega, rfl⟩
        · rintro (h | ⟨t, h4, h5, rfl⟩)
          · exact Or.inl (Or.inl h)
          · rcases Nat.lt_or_ge t i' with h | h
            · exact Or.inl (Or.inr ⟨t, h4, h, rfl⟩)
            · exact Or.inr (congrArg some (by omega))) numel i s (by omega) ⟨Rel.congr h1 (fun k => ⟨Or.inl, fun h => by
              rcases h with h | ⟨t, h4, h5, _⟩
              · exact h
              · omega⟩), le_refl _, hi⟩
  have hc : numel ≤ i' := by simpa using hc
  have hi' : i' = numel := by omega
  subst hi'
  refine ⟨s', ?_, hI⟩
  unfold mmTail
  rw [e]; rfl

/-- `hminSse`/`hmaxSse` look at lanes 0, 1 and 2. -/
theorem hSse_set {S : Fin 4 → Ix} {v w : V 4 F32} (hg : Clo R (pick false) (pick true)) (hv : ∀ j, R (S j) (v j) (w j)) :
    R (fun k => (S 0 k ∨ S 2 k) ∨ S 1 k) (hminSse v) (hmaxSse w) :=
  hg _ _ _ _ _ _ (hg _ _ _ _ _ _ (hv 0) (hv 2)) (hv 1)

end

theorem findMinMax_sse {R : Ix → F32 → F32 → Prop} {ft : FT} {x : InBuf} {off numel : Nat} (hx : off + ft.size * numel ≤ x.size)
    (hR : Rel R (fun t => x.elem ft off t) numel) :
    ∃ r, findMinMax .sse42 ft x off numel = .ret r ∧ ∃ C : Ix, (∀ t, C (some t) ↔ t < numel ∧ Seen .sse42 ft numel t) ∧ R C r.1 r.2 := by
  cases ft
  case f32 =>
    obtain ⟨i', s', e, hi, hv⟩ := sseLoop (st := 4) (load := loadu_ps 4 x off) (Or.inl rfl) hR (fun i h => loadu_ps_ok (by simp only [FT.size] at hx; omega))
    obtain ⟨r, er, hr⟩ := mmTail_set (s := (hminSse s'.1, hmaxSse s'.2)) (i := i') hx hR (fun _ _ => rfl) (hSse_set hR.p1 hv) (by omega)
    refine ⟨r, ?_, _, fun t => ?_, hr⟩
    · rw [← er]; exact mmGlue hminSse hmaxSse e
    · simp only [laneSet, Option.some.injEq, reduceCtorEq, false_or, Seen, true_implies]
      constructor
      · rintro (((⟨u, h1, h2, rfl⟩ | ⟨u, h1, h2, rfl⟩) | ⟨u, h1, h2, rfl⟩) | ⟨u, h1, h2, rfl⟩)
        · exact ⟨by omega, Or.inr (by simp at h2; omega)⟩
        · exact ⟨by omega, Or.inr (by simp at h2; omega)⟩
        · exact ⟨by omega, Or.inr (by simp at h2; omega)⟩
        · exact ⟨by omega, Or.inl (by omega)⟩
      · rintro ⟨h1, h2⟩
        by_cases h : i' ≤ t
        · exact Or.inr ⟨t, h, h1, rfl⟩
        · have h3 : t % 4 = 0 ∨ t % 4 = 2 ∨ t % 4 = 1 := by omega
          rcases h3 with h3 | h3 | h3
          · exact Or.inl (Or.inl (Or.inl ⟨t, by omega, h3, rfl⟩))
          · exact Or.inl (Or.inl (Or.inr ⟨t, by omega, h3, rfl⟩))
          · exact Or.inl (Or.inr ⟨t, by omega, h3, rfl⟩)
  case bf16 =>
    obtain ⟨i', s', e, hi, hv⟩ := sseLoop (st := 8) (load := loadBf16Lo4 x off) (Or.inr rfl) hR (fun i h => loadBf16Lo4_ok (by simp only [FT.size] at hx; omega))
    obtain ⟨r, er, hr⟩ := mmTail_set (s := (hminSse s'.1, hmaxSse s'.2)) (i := i') hx hR (fun _ _ => rfl) (hSse_set hR.p1 hv) (by omega)
    refine ⟨r, ?_, _, fun t => ?_, hr⟩
    · rw [← er]; exact mmGlue hminSse hmaxSse e
    · simp only [laneSet, Option.some.injEq, reduceCtorEq, false_or, Seen, true_implies]
      constructor
      · rintro (((⟨u, h1, h2, rfl⟩ | ⟨u, h1, h2, rfl⟩) | ⟨u, h1, h2, rfl⟩) | ⟨u, h1, h2, rfl⟩)
        · exact ⟨by omega, Or.inr (by simp at h2; omega)⟩
        · exact ⟨by omega, Or.inr (by simp at h2; omega)⟩
        · exact ⟨by omega, Or.inr (by simp at h2; omega)⟩
        · exact ⟨by omega, Or.inl (by omega)⟩
      · rintro ⟨h1, h2⟩
        by_cases h : i' ≤ t
        · exact Or.inr ⟨t, h, h1, rfl⟩
        · have h3 : t % 8 = 0 ∨ t % 8 = 2 ∨ t % 8 = 1 := by omega
          rcases h3 with h3 | h3 | h3
          · exact Or.inl (Or.inl (Or.inl ⟨t, by omega, h3, rfl⟩))
          · exact Or.inl (Or.inl (Or.inr ⟨t, by omega, h3, rfl⟩))
          · exact Or.inl (Or.inr ⟨t, by omega, h3, rfl⟩)

/-- The min/max kernels, exactly: the result is related to the set of the elements that are looked at. -/
theorem findMinMax_seen {R : Ix → F32 → F32 → Prop} {isa : Isa} {ft : FT} {x : InBuf} {off numel : Nat} (hx : off + ft.size * numel ≤ x.size)
    (hR : Rel R (fun t => x.elem ft off t) numel) :
    ∃ r, findMinMax isa ft x off numel = .ret r ∧ ∃ C : Ix, (∀ t, C (some t) ↔ t < numel ∧ Seen isa ft numel t) ∧ R C r.1 r.2 := by
  by_cases hi : isa = .sse42
  · subst hi; exact findMinMax_sse hx hR
  · obtain ⟨r, e, C, ⟨h1, h2⟩, h3, _⟩ := findMinMax_gen (isa := isa) hx hR
    exact ⟨r, e, C, fun t => ⟨fun h => ⟨h2 t h, fun h => absurd h hi⟩, fun h => h1 (fun h => absurd h hi) t h.1⟩, h3⟩

end Verif

import Verif.Model.MinMax
import Verif.Proofs.Order

/-! # The min/max kernels -/

namespace Verif
open Spec Simd

/-! ## Loops and loads that only read the input -/

theorem forS_inv {σ : Type} {I : Nat → σ → Prop} {cond : Nat → Bool} {step numel : Nat} {body : Nat → σ → Prog σ} (hs : 0 < step)
    (hc : ∀ i, cond i = true → i < numel)
    (hb : ∀ i s, cond i = true → I i s → ∃ s', body i s = .ret s' ∧ I (i + step) s') :
    ∀ fuel i s, numel ≤ i + fuel → I i s → ∃ i' s', forS cond step body fuel i s = .ret (i', s') ∧ I i' s' ∧ cond i' = false := by
  intro fuel
  induction fuel with
  | zero =>
    intro i s hf hi
    have : cond i = false := by
      cases h : cond i
      · rfl
      · have := hc i h; omega
    refine ⟨i, s, ?_, hi, this⟩
    unfold forS; rw [this]; rfl
  | succ fuel ih =>
    intro i s hf hi
    cases h : cond i
    · refine ⟨i, s, ?_, hi, h⟩
      unfold forS; rw [h]; rfl
    · obtain ⟨s', e, hi'⟩ := hb i s h hi
      obtain ⟨i'', s'', e', h1, h2⟩ := ih (i + step) s' (by omega) hi'
      refine ⟨i'', s'', ?_, h1, h2⟩
      unfold forS
      rw [h, if_pos rfl, e]
      exact e'

theorem chkIn_ok {x : InBuf} {a n : Nat} (h : a + n ≤ x.size) : chkIn x a n = .ret () := by unfold chkIn; rw [if_pos h]; rfl

theorem ldX_ok {ft : FT} {x : InBuf} {off i : Nat} (h : off + ft.size * i + ft.size ≤ x.size) : ldX ft x off i = .ret (x.elem ft off i) := by
  unfold ldX; rw [chkIn_ok h]; rfl
theorem loadu_ps_ok {n : Nat} {x : InBuf} {off i : Nat} (h : off + 4 * i + 4 * n ≤ x.size) :
    loadu_ps n x off i = .ret (fun j => x.elem .f32 off (i + j)) := by
  unfold loadu_ps; rw [chkIn_ok h]; rfl
theorem bf16_lane {x : InBuf} {a : Nat} : Flt.ofBits f32 (x.u16 a * 2 ^ 16 % 2 ^ 32) = bf16ToF32 (x.u16 a) := by
  unfold bf16ToF32; congr 1; omega
theorem loadBf16_ok {n : Nat} {x : InBuf} {off i : Nat} (h : off + 2 * i + 2 * n ≤ x.size) :
    loadBf16 n x off i = .ret (fun j => x.elem .bf16 off (i + j)) := by
  unfold loadBf16 loadu_u16; rw [chkIn_ok h]
  show Prog.ret _ = _
  congr 1
  funext j
  exact bf16_lane
theorem loadBf16Lo4_ok {x : InBuf} {off i : Nat} (h : off + 2 * i + 16 ≤ x.size) :
    loadBf16Lo4 x off i = .ret (fun j => x.elem .bf16 off (i + j)) := by
  unfold loadBf16Lo4 loadu_u16; rw [chkIn_ok h]
  show Prog.ret _ = _
  congr 1
  funext j
  exact bf16_lane

/-! ## Selections -/

def less (mx : Bool) (a b : F32) : Bool := if mx then Flt.gt a b else Flt.lt a b
def pick (mx : Bool) (a b : F32) : F32 := if less mx a b then a else b
def pick' (mx : Bool) (a b : F32) : F32 := if less mx b a then b else a
def pickN (mx : Bool) (a b : F32) : F32 := if a.isNaN || b.isNaN then Flt.nan else pick mx a b

abbrev Ix := Option Nat → Prop

/-- `g` (on minima) and `h` (on maxima) preserve the relation. -/
def Clo (R : Ix → F32 → F32 → Prop) (g h : F32 → F32 → F32) : Prop :=
  ∀ S T a b c d, R S a b → R T c d → R (fun k => S k ∨ T k) (g a c) (h b d)

/-- A relation between a set of indices (`none` is the initial value) and the running minimum and
maximum of the values at these indices, preserved by the selections the kernels make. -/
structure Rel (R : Ix → F32 → F32 → Prop) (f : Nat → F32) (numel : Nat) : Prop where
  init : R (fun k => k = none) fltMax fltLowest
  elem : ∀ t, t < numel → R (fun k => k = some t) (f t) (f t)
  p1 : Clo R (pick false) (pick true)
  p2 : Clo R (pick' false) (pick' true)
  p3 : Clo R (pickN false) (pickN true)

/-- Lane-wise; if `N`, every lane has seen an element. -/
def VR (R : Ix → F32 → F32 → Prop) {n : Nat} (N : Prop) (C : Ix) (v w : V n F32) : Prop :=
  ∃ S : Fin n → Ix, (∀ j, R (S j) (v j) (w j)) ∧ (∀ k, C k ↔ ∃ j, S j k) ∧ (N → ∀ j, ∃ t, S j (some t))

section
variable {R : Ix → F32 → F32 → Prop} {f : Nat → F32} {numel n : Nat} {N M : Prop} {g h : F32 → F32 → F32}

theorem VR.map2 {C D : Ix} {v w v' w' : V n F32} (hg : Clo R g h)
    (hv : VR R N C v w) (hw : VR R M D v' w') : VR R M (fun k => C k ∨ D k) (fun j => g (v j) (v' j)) (fun j => h (w j) (w' j)) := by
  obtain ⟨S, h1, h2, _⟩ := hv
  obtain ⟨T, h3, h4, h5⟩ := hw
  refine ⟨fun j k => S j k ∨ T j k, fun j => hg _ _ _ _ _ _ (h1 j) (h3 j), fun k => ?_, fun hM j => ?_⟩
  · show (C k ∨ D k) ↔ ∃ j, S j k ∨ T j k
    rw [h2, h4]
    constructor
    · rintro (⟨j, h⟩ | ⟨j, h⟩)
      · exact ⟨j, Or.inl h⟩
      · exact ⟨j, Or.inr h⟩
    · rintro ⟨j, h | h⟩
      · exact Or.inl ⟨j, h⟩
      · exact Or.inr ⟨j, h⟩
  · obtain ⟨t, ht⟩ := h5 hM j
    exact ⟨t, Or.inr ht⟩

theorem VR.load (hR : Rel R f numel) {i : Nat} (h : i + n ≤ numel) :
    VR R True (fun k => ∃ t, i ≤ t ∧ t < i + n ∧ k = some t) (fun j : Fin n => f (i + j)) (fun j : Fin n => f (i + j)) := by
  refine ⟨fun j k => k = some (i + j), fun j => hR.elem _ (by omega), fun k => ?_, fun _ j => ⟨i + j, rfl⟩⟩
  constructor
  · rintro ⟨t, h1, h2, rfl⟩
    exact ⟨⟨t - i, by omega⟩, by simp; omega⟩
  · rintro ⟨j, rfl⟩
    exact ⟨i + j, by omega, by omega, rfl⟩

theorem VR.set1 (hR : Rel R f numel) (hn : 0 < n) : VR R False (fun k => k = none) (Simd.set1 (n := n) fltMax) (Simd.set1 (n := n) fltLowest) :=
  ⟨fun _ k => k = none, fun _ => hR.init, fun _ => ⟨fun h => ⟨⟨0, hn⟩, h⟩, fun ⟨_, h⟩ => h⟩, fun h => h.elim⟩

theorem VR.weaken {C : Ix} {v w : V n F32} (hv : VR R N C v w) (h : M → N) : VR R M C v w := by
  obtain ⟨S, h1, h2, h3⟩ := hv
  exact ⟨S, h1, h2, fun hM => h3 (h hM)⟩

theorem VR.half {C : Ix} {v w : V (2 * n) F32} (hg : Clo R g h)
    (hv : VR R N C v w) : VR R N C (fun j : Fin n => g (lo128 v j) (hi128 v j)) (fun j : Fin n => h (lo128 w j) (hi128 w j)) := by
  obtain ⟨S, h1, h2, h3⟩ := hv
  refine ⟨fun j k => S ⟨j, by omega⟩ k ∨ S ⟨n + j, by omega⟩ k, fun j => hg _ _ _ _ _ _ (h1 _) (h1 _), fun k => ?_, fun hN j => ?_⟩
  · rw [h2]
    constructor
    · rintro ⟨j, h⟩
      rcases Nat.lt_or_ge j.val n with hj | hj
      · exact ⟨⟨j, hj⟩, Or.inl h⟩
      · refine ⟨⟨j - n, by omega⟩, Or.inr ?_⟩
        have e : (⟨n + (j.val - n), by omega⟩ : Fin (2 * n)) = j := Fin.ext (by simp; omega)
        simp only [e]; exact h
    · rintro ⟨j, h | h⟩
      · exact ⟨_, h⟩
      · exact ⟨_, h⟩
  · obtain ⟨t, ht⟩ := h3 hN ⟨j, by omega⟩
    exact ⟨t, Or.inl ht⟩

theorem Rel.congr {S T : Ix} {v w : F32} (h : R S v w) (e : ∀ k, S k ↔ T k) : R T v w := by
  have : S = T := funext fun k => propext (e k)
  rwa [← this]

/-- The result of a complete reduction. -/
def HR (R : Ix → F32 → F32 → Prop) (N : Prop) (C : Ix) (v w : F32) : Prop := R C v w ∧ (N → ∃ t, C (some t))

theorem VR.one {C : Ix} {v w : V 1 F32} (hv : VR R N C v w) : HR R N C (v 0) (w 0) := by
  obtain ⟨S, h1, h2, h3⟩ := hv
  refine ⟨Rel.congr (h1 0) (fun k => ?_), fun hN => ?_⟩
  · rw [h2]
    exact ⟨fun h => ⟨0, h⟩, fun ⟨j, h⟩ => by rwa [Subsingleton.elim 0 j]⟩
  · obtain ⟨t, ht⟩ := h3 hN 0
    exact ⟨t, (h2 _).2 ⟨0, ht⟩⟩

theorem exists_fin4 {p : Fin 4 → Prop} : (∃ j, p j) ↔ p 0 ∨ p 1 ∨ p 2 ∨ p 3 := by
  constructor
  · rintro ⟨j, h⟩
    fin_cases j
    · exact Or.inl h
    · exact Or.inr (Or.inl h)
    · exact Or.inr (Or.inr (Or.inl h))
    · exact Or.inr (Or.inr (Or.inr h))
  · rintro (h | h | h | h) <;> exact ⟨_, h⟩

/-- The reduction of a 4-lane register by `movehl` and `shuffle`. -/
theorem VR.reduce4 {C : Ix} {v w : V 4 F32} (hg : Clo R g h)
    (hv : VR R N C v w) : HR R N C (g (g (v 0) (v 2)) (g (v 1) (v 3))) (h (h (w 0) (w 2)) (h (w 1) (w 3))) := by
  obtain ⟨S, h1, h2, h3⟩ := hv
  refine ⟨Rel.congr (hg _ _ _ _ _ _ (hg _ _ _ _ _ _ (h1 0) (h1 2)) (hg _ _ _ _ _ _ (h1 1) (h1 3))) (fun k => ?_), fun hN => ?_⟩
  · rw [h2, exists_fin4]; tauto
  · obtain ⟨t, ht⟩ := h3 hN 0
    exact ⟨t, (h2 _).2 ⟨0, ht⟩⟩

theorem VR.list4 {C : Ix} {v w : V 4 F32} (hg : Clo R g h)
    (hv : VR R N C v w) : HR R N C (g (g (g (v 0) (v 1)) (v 2)) (v 3)) (h (h (h (w 0) (w 1)) (w 2)) (w 3)) := by
  obtain ⟨S, h1, h2, h3⟩ := hv
  refine ⟨Rel.congr (hg _ _ _ _ _ _ (hg _ _ _ _ _ _ (hg _ _ _ _ _ _ (h1 0) (h1 1)) (h1 2)) (h1 3)) (fun k => ?_), fun hN => ?_⟩
  · rw [h2, exists_fin4]; tauto
  · obtain ⟨t, ht⟩ := h3 hN 0
    exact ⟨t, (h2 _).2 ⟨0, ht⟩⟩

/-- The SSE4.2 reduction looks at lanes 0, 2 and 1 only. -/
theorem VR.sse {C : Ix} {v w : V 4 F32} (hg : Clo R g h)
    (hv : VR R N C v w) : ∃ D : Ix, (∀ k, D k → C k) ∧ HR R N D (g (g (v 0) (v 2)) (v 1)) (h (h (w 0) (w 2)) (w 1)) := by
  obtain ⟨S, h1, h2, h3⟩ := hv
  refine ⟨_, ?_, hg _ _ _ _ _ _ (hg _ _ _ _ _ _ (h1 0) (h1 2)) (h1 1), fun hN => ?_⟩
  · rintro k ((h | h) | h) <;> rw [h2] <;> exact ⟨_, h⟩
  · obtain ⟨t, ht⟩ := h3 hN 0
    exact ⟨t, Or.inl (Or.inl ht)⟩

end

theorem hAvx2_ok {R : Ix → F32 → F32 → Prop} {N : Prop} {C : Ix} {v w : V 8 F32} (hg : Clo R (pick false) (pick true)) (hv : VR R N C v w) :
    HR R N C (hminAvx2 v) (hmaxAvx2 w) := by
  have h1 := VR.half (n := 4) hg hv
  have h2 := VR.reduce4 hg h1
  exact h2
theorem h512_ok {R : Ix → F32 → F32 → Prop} {N : Prop} {C : Ix} {v w : V 16 F32} (hg : Clo R (pick false) (pick true)) (hv : VR R N C v w) :
    HR R N C (mm512_reduce_min_ps v) (mm512_reduce_max_ps w) := by
  have h1 := VR.half (n := 8) hg hv
  have h2 := VR.half (n := 4) hg h1
  have h3 := VR.half (n := 2) hg h2
  have h4 := VR.half (n := 1) hg h3
  exact VR.one h4
theorem hNeon_ok {R : Ix → F32 → F32 → Prop} {N : Prop} {C : Ix} {v w : V 4 F32} (hg : Clo R (pick' false) (pick' true)) (hv : VR R N C v w) :
    HR R N C (minList4 v) (maxList4 w) := by
  have h1 := VR.list4 hg hv
  exact h1
theorem hSse_ok {R : Ix → F32 → F32 → Prop} {N : Prop} {C : Ix} {v w : V 4 F32} (hg : Clo R (pick false) (pick true)) (hv : VR R N C v w) :
    ∃ D : Ix, (∀ k, D k → C k) ∧ HR R N D (hminSse v) (hmaxSse w) := by
  have h1 := VR.sse hg hv
  exact h1

/-- A set of elements below `numel`; if `full`, all elements below `i`. -/
def Cov (full : Prop) (numel i : Nat) (C : Ix) : Prop := (full → ∀ t, t < i → C (some t)) ∧ ∀ t, C (some t) → t < numel

section
variable {R : Ix → F32 → F32 → Prop} {f : Nat → F32} {numel n : Nat}

/-- One vector loop. -/
theorem mmLoop {load : Nat → Prog (V n F32)} {step w1 a b c z : Nat} {gm gM : F32 → F32 → F32} {vm vM : V n F32 → V n F32 → V n F32}
    (full : Prop) (hR : Rel R f numel) (hn : 0 < n)
    (hload : ∀ i, i + (w1 + 1 - c) ≤ numel → load i = .ret (fun j => f (i + j)))
    (hw : n ≤ w1 + 1 - c ∧ c ≤ w1 ∧ z ≤ c ∧ a ≤ c ∧ b ≤ c) (hfull : full → z = 0 ∧ a = n ∧ b = 2 * n ∧ c = 3 * n ∧ step ≤ 4 * n) (hs : 0 < step)
    (evm : ∀ v w, vm v w = fun j => gm (v j) (w j)) (evM : ∀ v w, vM v w = fun j => gM (v j) (w j)) (hg : Clo R gm gM) :
    ∃ i' s', forS (fun i => i + w1 < numel) step (fun i (s : V n F32 × V n F32) => do
        let v0 ← load (i + z)
        let v1 ← load (i + a)
        let v2 ← load (i + b)
        let v3 ← load (i + c)
        pure (vm (vm (vm (vm s.1 v0) v1) v2) v3, vM (vM (vM (vM s.2 v0) v1) v2) v3)) numel 0 (set1 fltMax, set1 fltLowest) = .ret (i', s') ∧
      (∃ C, Cov full numel i' C ∧ VR R (0 < i') C s'.1 s'.2) ∧ (numel ≤ w1 → i' = 0) := by
  have := forS_inv (numel := numel) (cond := fun i => i + w1 < numel) (step := step)
    (I := fun i (s : V n F32 × V n F32) => (∃ C, Cov full numel i C ∧ VR R (0 < i) C s.1 s.2) ∧ (numel ≤ w1 → i = 0))
    (body := fun i (s : V n F32 × V n F32) => do
        let v0 ← load (i + z)
        let v1 ← load (i + a)
        let v2 ← load (i + b)
        let v3 ← load (i + c)
        pure (vm (vm (vm (vm s.1 v0) v1) v2) v3, vM (vM (vM (vM s.2 v0) v1) v2) v3))
    hs (fun i h => by simp at h; omega) ?_ numel 0 (set1 fltMax, set1 fltLowest) (by omega) ?_
  · obtain ⟨i', s', h1, h2, _⟩ := this
    exact ⟨i', s', h1, h2⟩
  · rintro i s hcond ⟨⟨C, hC, hv⟩, hsm⟩
    have hcond : i + w1 < numel := by simpa using hcond
    obtain ⟨w0, w1', w2, w3, w4⟩ := hw
    refine ⟨(vm (vm (vm (vm s.1 (fun j => f (i + z + j))) (fun j => f (i + a + j))) (fun j => f (i + b + j))) (fun j => f (i + c + j)),
        vM (vM (vM (vM s.2 (fun j => f (i + z + j))) (fun j => f (i + a + j))) (fun j => f (i + b + j))) (fun j => f (i + c + j))), ?_, ⟨_, ?_, by
          rw [evm, evm, evm, evm, evM, evM, evM, evM]
          exact VR.weaken (VR.map2 hg (VR.map2 hg (VR.map2 hg (VR.map2 hg hv (VR.load hR (by omega))) (VR.load hR (by omega))) (VR.load hR (by omega))) (VR.load hR (by omega))) (fun _ => trivial)⟩,
        fun h => by omega⟩
    · rw [hload (i + z) (by omega), hload (i + a) (by omega), hload (i + b) (by omega), hload (i + c) (by omega)]
      rfl
    refine ⟨fun hf t ht => ?_, fun t ht => ?_⟩
    · obtain ⟨rfl, rfl, rfl, rfl, _⟩ := hfull hf
      rcases Nat.lt_or_ge t i with h | h
      · exact Or.inl (Or.inl (Or.inl (Or.inl (hC.1 hf t h))))
      rcases Nat.lt_or_ge t (i + a) with h1 | h1
      · exact Or.inl (Or.inl (Or.inl (Or.inr ⟨t, by omega, by omega, rfl⟩)))
      rcases Nat.lt_or_ge t (i + 2 * a) with h2 | h2
      · exact Or.inl (Or.inl (Or.inr ⟨t, by omega, by omega, rfl⟩))
      rcases Nat.lt_or_ge t (i + 3 * a) with h3 | h3
      · exact Or.inl (Or.inr ⟨t, by omega, by omega, rfl⟩)
      · exact Or.inr ⟨t, by omega, by omega, rfl⟩
    · rcases ht with (((ht | ⟨u, _, hu, e⟩) | ⟨u, _, hu, e⟩) | ⟨u, _, hu, e⟩) | ⟨u, _, hu, e⟩
      · exact hC.2 t ht
      all_goals (injection e with e; omega)
  · exact ⟨⟨_, ⟨fun _ t ht => by omega, fun t ht => by cases ht⟩, VR.weaken (VR.set1 hR hn) (fun h => by omega)⟩, fun _ => rfl⟩

/-- The scalar loop. -/
theorem mmTail_ok {ft : FT} {x : InBuf} {off i : Nat} {s : F32 × F32} {full : Prop} (hx : off + ft.size * numel ≤ x.size)
    (hR : Rel R f numel) (hf : ∀ t, t < numel → x.elem ft off t = f t)
    (h1 : ∃ C, Cov full numel i C ∧ HR R (0 < i) C s.1 s.2) :
    ∃ r, mmTail ft x off numel i s = .ret r ∧ ∃ C, Cov full numel numel C ∧ HR R (0 < numel) C r.1 r.2 := by
  obtain ⟨i', s', e, hI, hc⟩ := forS_inv (numel := numel) (cond := fun i => i < numel) (step := 1)
    (I := fun i (s : F32 × F32) => ∃ C, Cov full numel i C ∧ HR R (0 < i) C s.1 s.2)
    (body := fun i s => do
      let v ← ldX ft x off i
      let mn := if Flt.lt v s.1 then v else s.1
      let mx := if Flt.gt v s.2 then v else s.2
      pure (mn, mx)) (by omega) (fun i h => by simpa using h) (by
        rintro i s hc ⟨C, hC, hv, _⟩
        have hc : i < numel := by simpa using hc
        have hb : off + ft.size * i + ft.size ≤ x.size := by
          have : ft.size * (i + 1) ≤ ft.size * numel := Nat.mul_le_mul_left _ hc
          rw [Nat.mul_succ] at this; omega
        refine ⟨(pick' false s.1 (f i), pick' true s.2 (f i)), ?_, _, ?_, hR.p2 _ _ _ _ _ _ hv (hR.elem i hc), fun _ => ⟨i, Or.inr rfl⟩⟩
        · rw [ldX_ok hb, hf i hc]; rfl
        refine ⟨fun hfu t ht => ?_, fun t ht => ?_⟩
        · rcases Nat.lt_or_ge t i with h | h
          · exact Or.inl (hC.1 hfu t h)
          · exact Or.inr (congrArg some (by omega))
        · rcases ht with ht | ht
          · exact hC.2 t ht
          · injection ht with ht; omega) numel i s (by omega) h1
  have hc : numel ≤ i' := by simpa using hc
  obtain ⟨C, hC, hv, hn⟩ := hI
  refine ⟨s', ?_, C, ⟨fun hfu t ht => hC.1 hfu t (by omega), hC.2⟩, hv, fun h => hn (by omega)⟩
  unfold mmTail
  rw [e]; rfl

end

/-- Blocks on which the SSE4.2 min/max kernels never enter their vector loop. -/
def mmSmall (ft : FT) (numel : Nat) : Prop := match ft with
  | .f32 => numel < 16
  | .bf16 => numel < 32

theorem Cov.mono {p q : Prop} {numel i : Nat} {C : Ix} (h : Cov p numel i C) (hq : q → p) : Cov q numel i C :=
  ⟨fun hh => h.1 (hq hh), h.2⟩
theorem Cov.sub {numel i : Nat} {q p : Prop} {C D : Ix} (h : Cov p numel i C) (hd : ∀ k, D k → C k) (hq : q → i = 0) : Cov q numel i D :=
  ⟨fun hh t ht => by have := hq hh; omega, fun t ht => h.2 t (hd _ ht)⟩

theorem mmGlue {n : Nat} {p : Prog (Nat × V n F32 × V n F32)} {i' : Nat} {s' : V n F32 × V n F32} (h H : V n F32 → F32) {ft : FT} {x : InBuf} {off numel : Nat}
    (e : p = .ret (i', s')) :
    (p >>= fun r => pure (r.1, h r.2.1, H r.2.2)) >>= (fun r => mmTail ft x off numel r.1 r.2) = mmTail ft x off numel i' (h s'.1, H s'.2) := by
  rw [e]; rfl

theorem findMinMaxF32_gen {R : Ix → F32 → F32 → Prop} {isa : Isa} {x : InBuf} {off numel : Nat} (hx : off + 4 * numel ≤ x.size)
    (hR : Rel R (fun t => x.elem .f32 off t) numel) :
    ∃ r, findMinMaxF32 isa x off numel = .ret r ∧ ∃ C, Cov (isa = .sse42 → numel < 16) numel numel C ∧ HR R (0 < numel) C r.1 r.2 := by
  have tail : ∀ {i : Nat} {s : F32 × F32}, (∃ C, Cov (isa = .sse42 → numel < 16) numel i C ∧ HR R (0 < i) C s.1 s.2) → _ :=
    fun {i s} h1 => mmTail_ok (ft := .f32) (x := x) (off := off) (i := i) (s := s) hx hR (fun _ _ => rfl) h1
  cases isa
  case avx512f =>
    obtain ⟨i', s', e, ⟨C, hC, hv⟩, h0⟩ := mmLoop (n := 16) (load := loadu_ps 16 x off) (step := 63) (w1 := 63) (z := 0) (a := 16) (b := 32) (c := 48)
      (vm := min_ps) (vM := max_ps) (gm := pick false) (gM := pick true) True hR (by omega) (fun i h => loadu_ps_ok (by omega)) (by omega) (by omega) (by omega)
      (fun _ _ => rfl) (fun _ _ => rfl) hR.p1
    obtain ⟨r, er, hr⟩ := tail (i := i') (s := (mm512_reduce_min_ps s'.1, mm512_reduce_max_ps s'.2)) ⟨C, hC.mono (fun _ => trivial), h512_ok hR.p1 hv⟩
    refine ⟨r, ?_, hr⟩
    rw [← er]
    exact mmGlue mm512_reduce_min_ps mm512_reduce_max_ps e
  case avx512bf16 =>
    obtain ⟨i', s', e, ⟨C, hC, hv⟩, h0⟩ := mmLoop (n := 16) (load := loadu_ps 16 x off) (step := 63) (w1 := 63) (z := 0) (a := 16) (b := 32) (c := 48)
      (vm := min_ps) (vM := max_ps) (gm := pick false) (gM := pick true) True hR (by omega) (fun i h => loadu_ps_ok (by omega)) (by omega) (by omega) (by omega)
      (fun _ _ => rfl) (fun _ _ => rfl) hR.p1
    obtain ⟨r, er, hr⟩ := tail (i := i') (s := (mm512_reduce_min_ps s'.1, mm512_reduce_max_ps s'.2)) ⟨C, hC.mono (fun _ => trivial), h512_ok hR.p1 hv⟩
    refine ⟨r, ?_, hr⟩
    rw [← er]
    exact mmGlue mm512_reduce_min_ps mm512_reduce_max_ps e
  case avx2 =>
    obtain ⟨i', s', e, ⟨C, hC, hv⟩, h0⟩ := mmLoop (n := 8) (load := loadu_ps 8 x off) (step := 32) (w1 := 31) (z := 0) (a := 8) (b := 16) (c := 24)
      (vm := min_ps) (vM := max_ps) (gm := pick false) (gM := pick true) True hR (by omega) (fun i h => loadu_ps_ok (by omega)) (by omega) (by omega) (by omega)
      (fun _ _ => rfl) (fun _ _ => rfl) hR.p1
    obtain ⟨r, er, hr⟩ := tail (i := i') (s := (hminAvx2 s'.1, hmaxAvx2 s'.2)) ⟨C, hC.mono (fun _ => trivial), hAvx2_ok hR.p1 hv⟩
    refine ⟨r, ?_, hr⟩
    rw [← er]
    exact mmGlue hminAvx2 hmaxAvx2 e
  case sse42 =>
    obtain ⟨i', s', e, ⟨C, hC, hv⟩, h0⟩ := mmLoop (n := 4) (load := loadu_ps 4 x off) (step := 16) (w1 := 15) (z := 0) (a := 4) (b := 8) (c := 12)
      (vm := min_ps) (vM := max_ps) (gm := pick false) (gM := pick true) False hR (by omega) (fun i h => loadu_ps_ok (by omega)) (by omega) (fun h => h.elim) (by omega)
      (fun _ _ => rfl) (fun _ _ => rfl) hR.p1
    obtain ⟨C', hC', hr⟩ := hSse_ok hR.p1 hv
    obtain ⟨r, er, hr⟩ := tail (i := i') (s := (hminSse s'.1, hmaxSse s'.2)) ⟨C', hC.sub hC' (fun h => h0 (by have := h rfl; omega)), hr⟩
    refine ⟨r, ?_, hr⟩
    rw [← er]
    exact mmGlue hminSse hmaxSse e
  case neon =>
    obtain ⟨i', s', e, ⟨C, hC, hv⟩, h0⟩ := mmLoop (n := 4) (load := loadu_ps 4 x off) (step := 16) (w1 := 15) (z := 0) (a := 4) (b := 8) (c := 12)
      (vm := vminq_f32) (vM := vmaxq_f32) (gm := pickN false) (gM := pickN true) True hR (by omega) (fun i h => loadu_ps_ok (by omega)) (by omega) (by omega) (by omega)
      (fun _ _ => rfl) (fun _ _ => rfl) hR.p3
    obtain ⟨r, er, hr⟩ := tail (i := i') (s := (minList4 s'.1, maxList4 s'.2)) ⟨C, hC.mono (fun _ => trivial), hNeon_ok hR.p2 hv⟩
    refine ⟨r, ?_, hr⟩
    rw [← er]
    exact mmGlue minList4 maxList4 e
  case portable =>
    obtain ⟨r, er, hr⟩ := tail (i := 0) (s := (fltMax, fltLowest)) ⟨_, ⟨fun _ t ht => by omega, fun t ht => by cases ht⟩, hR.init, fun h => by omega⟩
    exact ⟨r, er, hr⟩

theorem findMinMaxBf16_gen {R : Ix → F32 → F32 → Prop} {isa : Isa} {x : InBuf} {off numel : Nat} (hx : off + 2 * numel ≤ x.size)
    (hR : Rel R (fun t => x.elem .bf16 off t) numel) :
    ∃ r, findMinMaxBf16 isa x off numel = .ret r ∧ ∃ C, Cov (isa = .sse42 → numel < 32) numel numel C ∧ HR R (0 < numel) C r.1 r.2 := by
  have tail : ∀ {i : Nat} {s : F32 × F32}, (∃ C, Cov (isa = .sse42 → numel < 32) numel i C ∧ HR R (0 < i) C s.1 s.2) → _ :=
    fun {i s} h1 => mmTail_ok (ft := .bf16) (x := x) (off := off) (i := i) (s := s) hx hR (fun _ _ => rfl) h1
  cases isa
  case avx512f =>
    obtain ⟨i', s', e, ⟨C, hC, hv⟩, h0⟩ := mmLoop (n := 16) (load := loadBf16 16 x off) (step := 63) (w1 := 63) (z := 0) (a := 16) (b := 32) (c := 48)
      (vm := min_ps) (vM := max_ps) (gm := pick false) (gM := pick true) True hR (by omega) (fun i h => loadBf16_ok (by omega)) (by omega) (by omega) (by omega)
      (fun _ _ => rfl) (fun _ _ => rfl) hR.p1
    obtain ⟨r, er, hr⟩ := tail (i := i') (s := (mm512_reduce_min_ps s'.1, mm512_reduce_max_ps s'.2)) ⟨C, hC.mono (fun _ => trivial), h512_ok hR.p1 hv⟩
    refine ⟨r, ?_, hr⟩
    rw [← er]
    exact mmGlue mm512_reduce_min_ps mm512_reduce_max_ps e
  case avx512bf16 =>
    obtain ⟨i', s', e, ⟨C, hC, hv⟩, h0⟩ := mmLoop (n := 16) (load := loadBf16 16 x off) (step := 63) (w1 := 63) (z := 0) (a := 16) (b := 32) (c := 48)
      (vm := min_ps) (vM := max_ps) (gm := pick false) (gM := pick true) True hR (by omega) (fun i h => loadBf16_ok (by omega)) (by omega) (by omega) (by omega)
      (fun _ _ => rfl) (fun _ _ => rfl) hR.p1
    obtain ⟨r, er, hr⟩ := tail (i := i') (s := (mm512_reduce_min_ps s'.1, mm512_reduce_max_ps s'.2)) ⟨C, hC.mono (fun _ => trivial), h512_ok hR.p1 hv⟩
    refine ⟨r, ?_, hr⟩
    rw [← er]
    exact mmGlue mm512_reduce_min_ps mm512_reduce_max_ps e
  case avx2 =>
    obtain ⟨i', s', e, ⟨C, hC, hv⟩, h0⟩ := mmLoop (n := 8) (load := loadBf16 8 x off) (step := 32) (w1 := 31) (z := 0) (a := 8) (b := 16) (c := 24)
      (vm := min_ps) (vM := max_ps) (gm := pick false) (gM := pick true) True hR (by omega) (fun i h => loadBf16_ok (by omega)) (by omega) (by omega) (by omega)
      (fun _ _ => rfl) (fun _ _ => rfl) hR.p1
    obtain ⟨r, er, hr⟩ := tail (i := i') (s := (hminAvx2 s'.1, hmaxAvx2 s'.2)) ⟨C, hC.mono (fun _ => trivial), hAvx2_ok hR.p1 hv⟩
    refine ⟨r, ?_, hr⟩
    rw [← er]
    exact mmGlue hminAvx2 hmaxAvx2 e
  case sse42 =>
    obtain ⟨i', s', e, ⟨C, hC, hv⟩, h0⟩ := mmLoop (n := 4) (load := loadBf16Lo4 x off) (step := 32) (w1 := 31) (z := 0) (a := 8) (b := 16) (c := 24)
      (vm := min_ps) (vM := max_ps) (gm := pick false) (gM := pick true) False hR (by omega) (fun i h => loadBf16Lo4_ok (by omega)) (by omega) (fun h => h.elim) (by omega)
      (fun _ _ => rfl) (fun _ _ => rfl) hR.p1
    obtain ⟨C', hC', hr⟩ := hSse_ok hR.p1 hv
    obtain ⟨r, er, hr⟩ := tail (i := i') (s := (hminSse s'.1, hmaxSse s'.2)) ⟨C', hC.sub hC' (fun h => h0 (by have := h rfl; omega)), hr⟩
    refine ⟨r, ?_, hr⟩
    rw [← er]
    exact mmGlue hminSse hmaxSse e
  case neon =>
    obtain ⟨r, er, hr⟩ := tail (i := 0) (s := (fltMax, fltLowest)) ⟨_, ⟨fun _ t ht => by omega, fun t ht => by cases ht⟩, hR.init, fun h => by omega⟩
    exact ⟨r, er, hr⟩
  case portable =>
    obtain ⟨r, er, hr⟩ := tail (i := 0) (s := (fltMax, fltLowest)) ⟨_, ⟨fun _ t ht => by omega, fun t ht => by cases ht⟩, hR.init, fun h => by omega⟩
    exact ⟨r, er, hr⟩

/-- The min/max kernels: for every relation preserved by selections, the kernel reads only the
input, returns, and the result is related to a set of input elements, which is the set of all
elements except possibly on SSE4.2. -/
theorem findMinMax_gen {R : Ix → F32 → F32 → Prop} {isa : Isa} {ft : FT} {x : InBuf} {off numel : Nat} (hx : off + ft.size * numel ≤ x.size)
    (hR : Rel R (fun t => x.elem ft off t) numel) :
    ∃ r, findMinMax isa ft x off numel = .ret r ∧ ∃ C, Cov (isa = .sse42 → mmSmall ft numel) numel numel C ∧ HR R (0 < numel) C r.1 r.2 := by
  cases ft
  · exact findMinMaxF32_gen hx hR
  · exact findMinMaxBf16_gen hx hR

end Verif

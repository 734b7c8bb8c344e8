import Verif.Proofs.ParamsNan

/-!
# The parameter search reads every element it is asked for

If the buffer is shorter than the element count says, the search faults with an out-of-bounds read.
-/

namespace Verif
open Simd Spec

/-- Either an out-of-bounds read, or a result satisfying `Q`. -/
def Oob {α : Type} (p : Prog α) (Q : α → Prop) : Prop := p = .fail .oobRead ∨ ∃ r, p = .ret r ∧ Q r

namespace Oob
variable {α β : Type} {Q : α → Prop} {p : Prog α}

theorem ret {a : α} (h : Q a) : Oob (pure a) Q := Or.inr ⟨a, rfl, h⟩
theorem bind {k : α → Prog β} {R : β → Prop} (h : Oob p Q) (hk : ∀ a, Q a → Oob (k a) R) : Oob (p >>= k) R := by
  rcases h with rfl | ⟨a, rfl, ha⟩
  · exact Or.inl rfl
  · exact hk a ha
theorem mono {R : α → Prop} (h : Oob p Q) (hr : ∀ a, Q a → R a) : Oob p R := by
  rcases h with h | ⟨a, e, ha⟩
  · exact Or.inl h
  · exact Or.inr ⟨a, e, hr a ha⟩
theorem chkIn {x : InBuf} {a n : Nat} : Oob (Verif.chkIn x a n) (fun _ => a + n ≤ x.size) := by
  unfold Verif.chkIn
  split
  · exact ret ‹_›
  · exact Or.inl rfl
theorem ldX {ft : FT} {x : InBuf} {off i : Nat} : Oob (Verif.ldX ft x off i) (fun _ => off + ft.size * i + ft.size ≤ x.size) :=
  bind chkIn fun _ h => ret h
theorem loadu_ps {n : Nat} {x : InBuf} {off i : Nat} : Oob (Simd.loadu_ps n x off i) (fun _ => off + 4 * i + 4 * n ≤ x.size) :=
  bind chkIn fun _ h => ret h
theorem loadBf16 {n : Nat} {x : InBuf} {off i : Nat} : Oob (Verif.loadBf16 n x off i) (fun _ => off + 2 * i + 2 * n ≤ x.size) :=
  bind (bind chkIn fun _ h => ret h) fun _ h => ret h
theorem loadBf16Lo4 {x : InBuf} {off i : Nat} : Oob (Verif.loadBf16Lo4 x off i) (fun _ => off + 2 * i + 16 ≤ x.size) :=
  bind (bind (Q := fun _ => off + 2 * i + 2 * 8 ≤ x.size) chkIn fun _ h => ret h) fun _ h => ret h

theorem forS {σ : Type} {I : Nat → Prop} {cond : Nat → Bool} {step numel : Nat} {body : Nat → σ → Prog σ} (hs : 0 < step)
    (hc : ∀ i, cond i = true → i < numel) (hb : ∀ i s, cond i = true → I i → Oob (body i s) (fun _ => I (i + step))) :
    ∀ fuel i s, numel ≤ i + fuel → I i → Oob (Verif.forS cond step body fuel i s) (fun r => I r.1 ∧ cond r.1 = false) := by
  intro fuel
  induction fuel with
  | zero =>
    intro i s h hi
    unfold Verif.forS
    have : cond i = false := by
      cases hci : cond i with
      | false => rfl
      | true => have := hc i hci; omega
    rw [if_neg (by simp [this])]
    exact ret ⟨hi, this⟩
  | succ f ih =>
    intro i s h hi
    unfold Verif.forS
    cases hci : cond i with
    | false => rw [if_neg (by simp)]; exact ret ⟨hi, hci⟩
    | true =>
      rw [if_pos rfl]
      exact bind (hb i s hci hi) fun s' hI => ih (i + step) s' (by omega) hI

end Oob

/-- Everything before element `i` of a block at `off` is readable. -/
def Upto (x : InBuf) (sz off i : Nat) : Prop := i = 0 ∨ off + sz * i ≤ x.size

theorem mmTail_oob {ft : FT} {x : InBuf} {off numel i : Nat} {s : F32 × F32} (h : Upto x ft.size off i) :
    Oob (mmTail ft x off numel i s) (fun _ => Upto x ft.size off numel) := by
  unfold mmTail
  refine Oob.bind (Oob.forS (I := fun j => Upto x ft.size off j ∧ (i ≤ numel → j ≤ numel)) (numel := numel) (by norm_num) (fun i h => by simpa using h) ?_ numel i s (by omega) ⟨h, fun h => h⟩) ?_
  · intro j s hj hI
    have hj : j < numel := by simpa using hj
    exact Oob.bind Oob.ldX fun v hv => Oob.ret ⟨Or.inr (by rw [Nat.mul_add, Nat.mul_one, ← Nat.add_assoc]; exact hv), fun _ => hj⟩
  · rintro r ⟨⟨h1, -⟩, h2⟩
    have h2 : numel ≤ r.1 := by simpa using h2
    refine Oob.ret ?_
    rcases Nat.eq_zero_or_pos numel with h0 | h0
    · exact Or.inl h0
    · rcases h1 with h1 | h1
      · omega
      · exact Or.inr (le_trans (Nat.add_le_add_left (Nat.mul_le_mul_left _ h2) _) h1)

/-- One vector loop of the search: four loads, then the update. -/
theorem mmLoop_oob {n sz step w a b c : Nat} {x : InBuf} {off numel : Nat} {load : Nat → Prog (V n F32)} {upd : V n F32 × V n F32 → List (V n F32) → V n F32 × V n F32}
    {s0 : V n F32 × V n F32} (hl : ∀ i, Oob (load i) (fun _ => off + sz * (i + step - c) ≤ x.size)) (hs : 0 < step) :
    Oob (forS (fun i => i + w < numel) step (fun i (s : V n F32 × V n F32) => do
        let v0 ← load i
        let v1 ← load (i + a)
        let v2 ← load (i + b)
        let v3 ← load (i + c)
        pure (upd s [v0, v1, v2, v3])) numel 0 s0) (fun r => Upto x sz off r.1) := by
  refine (Oob.forS (I := fun j => Upto x sz off j) (numel := numel) hs (fun i h => lt_of_le_of_lt (Nat.le_add_right i w) (by simpa using h)) ?_ numel 0 s0 (by omega) (Or.inl rfl)).mono (fun r h => h.1)
  intro i s _ _
  refine Oob.bind (hl _) fun _ _ => Oob.bind (hl _) fun _ _ => Oob.bind (hl _) fun _ _ => Oob.bind (hl _) fun _ h => Oob.ret (Or.inr ?_)
  have : i + c + step - c = i + step := by omega
  rwa [this] at h

theorem findMinMax_oob {isa : Isa} {ft : FT} {x : InBuf} {off numel : Nat} (hn : 0 < numel) :
    Oob (findMinMax isa ft x off numel) (fun _ => off + ft.size * numel ≤ x.size) := by
  have fin : ∀ {p : Prog (F32 × F32)}, Oob p (fun _ => Upto x ft.size off numel) → Oob p (fun _ => off + ft.size * numel ≤ x.size) :=
    fun h => h.mono fun _ h => h.resolve_left (by omega)
  apply fin
  have z : Upto x ft.size off 0 := Or.inl rfl
  cases ft with
  | f32 =>
    show Oob (findMinMaxF32 isa x off numel) _
    unfold findMinMaxF32
    refine Oob.bind (Q := fun r => Upto x FT.f32.size off r.1) ?_ (fun r hr => mmTail_oob hr)
    cases isa <;> dsimp only
    case avx512f | avx512bf16 =>
      refine Oob.bind (mmLoop_oob (sz := 4) (upd := mmRegs) (a := 16) (b := 32) (c := 48) (fun i => Oob.loadu_ps.mono fun _ h => ?_) (by norm_num)) fun r hr => Oob.ret hr
      omega
    case avx2 =>
      refine Oob.bind (mmLoop_oob (sz := 4) (upd := mmRegs) (a := 8) (b := 16) (c := 24) (fun i => Oob.loadu_ps.mono fun _ h => ?_) (by norm_num)) fun r hr => Oob.ret hr
      omega
    case sse42 =>
      refine Oob.bind (mmLoop_oob (sz := 4) (upd := mmRegs) (a := 4) (b := 8) (c := 12) (load := fun i => loadu_ps 4 x off (i + 0)) (fun i => Oob.loadu_ps.mono fun _ h => ?_) (by norm_num)) fun r hr => Oob.ret hr
      omega
    case neon =>
      refine Oob.bind (mmLoop_oob (sz := 4) (upd := mmRegsNeon) (a := 4) (b := 8) (c := 12) (load := fun i => loadu_ps 4 x off (i + 0)) (fun i => Oob.loadu_ps.mono fun _ h => ?_) (by norm_num)) fun r hr => Oob.ret hr
      omega
    case portable => exact Oob.ret (Or.inl rfl)
  | bf16 =>
    show Oob (findMinMaxBf16 isa x off numel) _
    unfold findMinMaxBf16
    refine Oob.bind (Q := fun r => Upto x FT.bf16.size off r.1) ?_ (fun r hr => mmTail_oob hr)
    cases isa <;> dsimp only
    case avx512f | avx512bf16 =>
      refine Oob.bind (mmLoop_oob (sz := 2) (upd := mmRegs) (a := 16) (b := 32) (c := 48) (fun i => Oob.loadBf16.mono fun _ h => ?_) (by norm_num)) fun r hr => Oob.ret hr
      omega
    case avx2 =>
      refine Oob.bind (mmLoop_oob (sz := 2) (upd := mmRegs) (a := 8) (b := 16) (c := 24) (fun i => Oob.loadBf16.mono fun _ h => ?_) (by norm_num)) fun r hr => Oob.ret hr
      omega
    case sse42 =>
      refine Oob.bind (mmLoop_oob (sz := 2) (upd := mmRegs) (a := 8) (b := 16) (c := 24) (fun i => Oob.loadBf16Lo4.mono fun _ h => ?_) (by norm_num)) fun r hr => Oob.ret hr
      omega
    case neon | portable => exact Oob.ret (Or.inl rfl)

theorem split_le {n : Nat} : ∀ (l : List (Nat × Nat)) (t : Nat), Split n t l → t ≤ n := by
  intro l
  induction l with
  | nil => intro t h; exact le_of_eq h
  | cons d ds ih => intro t h; obtain ⟨_, g2, g3⟩ := h; exact le_trans g2.le (ih _ g3)

theorem mmBlocks_oob {isa : Isa} {ft : FT} {x : InBuf} {n : Nat} : ∀ (blocks : List (Nat × Nat)) (s : Nat), Split n s blocks → s < n →
    Oob (mmBlocks isa ft x blocks) (fun _ => ft.size * n ≤ x.size) := by
  intro blocks
  induction blocks with
  | nil => intro s h hs; exact absurd h (by show ¬ s = n; omega)
  | cons b bs ih =>
    intro s h hs
    obtain ⟨h1, h2, h3⟩ := h
    unfold mmBlocks
    have hb : Oob (mmBlock isa ft x b.1 b.2) (fun _ => ft.size * b.2 ≤ x.size) := by
      unfold mmBlock
      rw [if_neg (by omega)]
      refine (findMinMax_oob (by omega)).mono fun _ h => ?_
      rw [← Nat.mul_add] at h
      rwa [Nat.add_sub_cancel' (by omega)] at h
    refine Oob.bind hb fun r hr => ?_
    cases bs with
    | nil =>
      have : b.2 = n := h3
      rw [this] at hr
      exact Oob.ret hr
    | cons c cs =>
      have : b.2 < n := by
        obtain ⟨_, g2, g3⟩ := h3
        exact lt_of_lt_of_le g2 (split_le _ _ g3)
      exact Oob.bind (ih b.2 h3 this) fun _ h => Oob.ret h

/-- A buffer shorter than `n` elements makes the search read out of bounds, on every kernel set. -/
theorem config_oob {isa : Isa} {ft : FT} {x : InBuf} {n : Nat} {blocks : List (Nat × Nat)} {dt : DType} (hs : Split n 0 blocks) (hn : 0 < n)
    (hx : x.size < ft.size * n) : computeQuantConfigFromData isa ft x blocks dt = .fail .oobRead := by
  rcases mmBlocks_oob (isa := isa) (ft := ft) (x := x) blocks 0 hs hn with h | ⟨r, _, h⟩
  · unfold computeQuantConfigFromData computeQuantConfig
    rw [h]; rfl
  · omega

end Verif

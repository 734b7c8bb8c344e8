import Verif.Props.Clip

/-!
# Chains of conversions: C109

A tensor is quantized and dequantized again and again, each time with other parameters, another type, another rounding mode, on other machines.
-/

namespace Verif.Props
open Spec

/-- One conversion of a chain: type, parameters, rounding mode and threshold; the context, address and old memory of the quantize call; the context, readable input size,
address and old memory of the dequantize call. -/
structure Stage where
  dt : DType
  s : F32
  z : ℤ
  mode : RoundMode
  τ : F32
  c : Ctx
  o : Nat
  mem : Mem
  c' : Ctx
  sz : Nat
  o' : Nat
  mem' : Mem

/-- Half a step (nearest) or a step (stochastic), up to `2^-12` of a step. -/
def Stage.err (h : Stage) : ℚ := h.s.toRat * (tol h.mode + 1 / 2 ^ 12)

/-- `v` clipped to the interval the stage can represent. -/
def Stage.clip (h : Stage) (v : ℚ) : ℚ := Props.clip ((0 - h.z) * h.s.toRat) ((2 ^ h.dt.bits - 1 - h.z) * h.s.toRat) v

/-- A legal stage for elements up to `M` in magnitude. -/
structure Stage.Ok (h : Stage) (n : Nat) (M : ℚ) : Prop where
  quant : h.dt.isQuant = true
  send : Sizes n h.c.threads
  recv : Sizes n h.c'.threads
  lo : 1 / 2 ^ 126 ≤ h.s.toRat
  hi : h.s.toRat ≤ 2 ^ 119
  zp : 0 ≤ h.z ∧ h.z ≤ 2 ^ h.dt.bits - 1
  thr : Threshold h.mode h.τ
  size : bytes h.dt.bits n ≤ h.sz
  rd : Readable h.dt .f32 n h.sz
  big : M ≤ 2 ^ 29 * h.s.toRat

theorem Stage.err_nonneg {h : Stage} (h1 : 1 / 2 ^ 126 ≤ h.s.toRat) : 0 ≤ h.err := by
  have hs : 0 < h.s.toRat := lt_of_lt_of_le (by positivity) h1
  have := half_le_tol (mode := h.mode)
  unfold Stage.err
  exact mul_nonneg hs.le (add_nonneg (by linarith) (by positivity))

theorem clip_abs {a b v : ℚ} (ha : a ≤ 0) (hb : 0 ≤ b) : |clip a b v| ≤ |v| := by
  have := clip_near (a := a) (b := b) (v := v) (a' := a) (b' := b) (v' := 0) (d := |v|) (by simp) (by simp) (by simp)
  have e : clip a b 0 = 0 := by unfold clip; rw [min_eq_right hb, max_eq_right ha]
  rw [e, sub_zero] at this
  exact this

/-- A conversion with a float type for its result. -/
structure Conv extends Stage where
  out : FT

/-- After every schedule of each stage's quantize call (on the tensor of type `ft` left by the stage before) and of its dequantize call (SET, to the stage's type), one stage after the
other: `Q` holds of the last tensor and its type. -/
def Chain (n : Nat) : FT → List Conv → InBuf → (FT → InBuf → Prop) → Prop
  | ft, [], x, Q => Q ft x
  | ft, h :: l, x, Q =>
    Always NoFault (quantize h.c x ft.dtype h.o (bytes h.dt.bits n) h.dt h.s h.z h.mode h.τ) (span h.o (bytes h.dt.bits n)) h.mem (fun mq =>
      Always NoFault (dequantize h.c' ⟨h.sz, fun a => mq (h.o + a)⟩ (bytes h.dt.bits n) h.dt h.o' (h.out.dtype.stride * n) h.out.dtype h.s h.z .set)
        (span h.o' (h.out.dtype.stride * n)) h.mem'
        (fun m' => Chain n h.out l ⟨h.out.dtype.stride * n, fun a => m' (h.o' + a)⟩ Q))

/-- Half a step (nearest) or a step (stochastic), up to `2^-12` of a step; for a bfloat16 result its rounding of at most `(2^bits - 1)/2^8` of a step is added. -/
def Conv.err (h : Conv) : ℚ :=
  h.s.toRat * (tol h.mode + (match h.out with | .f32 => 0 | .bf16 => (2 ^ h.dt.bits - 1) / 2 ^ 8) + 1 / 2 ^ 12)

/-- `v` clipped to the intervals of all stages, one after the other. -/
def clipAll (l : List Conv) (v : ℚ) : ℚ := l.foldl (fun v h => h.clip v) v

/-- A legal stage for elements up to `M` in magnitude. -/
structure Conv.Ok (h : Conv) (n : Nat) (M : ℚ) : Prop where
  quant : h.dt.isQuant = true
  send : Sizes n h.c.threads
  recv : Sizes n h.c'.threads
  lo : 1 / 2 ^ 125 ≤ h.s.toRat
  hi : h.s.toRat ≤ 2 ^ 118
  zp : 0 ≤ h.z ∧ h.z ≤ 2 ^ h.dt.bits - 1
  thr : Threshold h.mode h.τ
  size : bytes h.dt.bits n ≤ h.sz
  rd : Readable h.dt h.out.dtype n h.sz
  big : M ≤ 2 ^ 29 * h.s.toRat

theorem Chain.mono {n : Nat} {l : List Conv} : ∀ {ft : FT} {x : InBuf} {Q Q' : FT → InBuf → Prop}, (∀ f y, Q f y → Q' f y) → Chain n ft l x Q → Chain n ft l x Q' := by
  induction l with
  | nil => exact fun h hq => h _ _ hq
  | cons h l ih =>
    intro ft x Q Q' hQ hc
    exact Always.mono hc (fun _ h => h) (fun _ hm => Always.mono hm (fun _ h => h) (fun _ hm' => ih hQ hm'))

theorem Conv.err_nonneg {h : Conv} (hq : h.dt.isQuant = true) (h1 : 1 / 2 ^ 125 ≤ h.s.toRat) : 0 ≤ h.err := by
  have hs : 0 < h.s.toRat := lt_of_lt_of_le (by positivity) h1
  have := half_le_tol (mode := h.mode)
  have hQ := qmax_bounds hq
  have hQ1 : (3:ℚ) ≤ 2 ^ h.dt.bits - 1 := by exact_mod_cast hQ.1
  have e : (0:ℚ) ≤ 1 / 2 ^ 12 := by positivity
  have e2 : (0:ℚ) ≤ (2 ^ h.dt.bits - 1) / 2 ^ 8 := div_nonneg (by linarith) (by positivity)
  unfold Conv.err
  refine mul_nonneg hs.le ?_
  cases h.out <;> dsimp only <;> linarith

/-- One stage. -/
theorem conv_step {n : Nat} {h : Conv} {M : ℚ} {ft : FT} {x : InBuf} (hk : h.Ok n M) (hsz : x.size = ft.dtype.stride * n) (hf : AllFin ft x n)
    (hx : ∀ i, i < n → |(elem ft.dtype x.data 0 i).toRat| ≤ M) {P : Mem → Prop}
    (hP : ∀ m', (∀ i, i < n → (elem h.out.dtype m' h.o' i).isFin = true ∧ |(elem h.out.dtype m' h.o' i).toRat - h.clip (elem ft.dtype x.data 0 i).toRat| ≤ h.err) → P m') :
    Always NoFault (quantize h.c x ft.dtype h.o (bytes h.dt.bits n) h.dt h.s h.z h.mode h.τ) (span h.o (bytes h.dt.bits n)) h.mem (fun mq =>
      Always NoFault (dequantize h.c' ⟨h.sz, fun a => mq (h.o + a)⟩ (bytes h.dt.bits n) h.dt h.o' (h.out.dtype.stride * n) h.out.dtype h.s h.z .set)
        (span h.o' (h.out.dtype.stride * n)) h.mem' P) := by
  have hin : ft.dtype.isQuant = false := by cases ft <;> rfl
  have hq : QArgs h.c.threads x ft.dtype h.dt n := ⟨hin, hk.quant, hsz, hk.send⟩
  have hb : ∀ i, i < n → |(elem ft.dtype x.data 0 i).toRat| ≤ 2 ^ 29 * h.s.toRat := fun i hi => (hx i hi).trans hk.big
  obtain ⟨⟨dt, s, z, mode, τ, c, o, mem, c', sz, o', mem'⟩, out⟩ := h
  cases out with
  | f32 =>
    refine (C106_clipped_roundtrip (c' := c') (o' := o') (m0 := mem) (m0' := mem') hq hk.recv hf hk.zp (le_trans (by norm_num) hk.lo) (hk.hi.trans (by norm_num)) hb hk.thr).mono
      (fun _ h => h) (fun m hm => (hm sz hk.size hk.rd).mono (fun _ h => h) (fun m' hm' => hP m' (fun i hi => ?_)))
    have := hm' i hi
    unfold Conv.err Stage.clip
    dsimp only
    rw [add_zero]
    exact this
  | bf16 =>
    refine (C106_clipped_roundtrip_bf16 (c' := c') (o' := o') (m0 := mem) (m0' := mem') hq hk.recv hf hk.zp hk.lo hk.hi hb hk.thr).mono
      (fun _ h => h) (fun m hm => (hm sz hk.size).mono (fun _ h => h) (fun m' hm' => hP m' (fun i hi => ?_)))
    exact hm' i hi

theorem elem_moved (ft : FT) (m : Mem) (o i : Nat) : elem ft.dtype (fun a => m (o + a)) 0 i = elem ft.dtype m o i := by
  cases ft
  · show f32At (fun a => m (o + a)) (0 + 4 * i) = f32At m (o + 4 * i)
    rw [f32At_shift, Nat.zero_add]
  · show bf16At (fun a => m (o + a)) (0 + 2 * i) = bf16At m (o + 2 * i)
    unfold bf16At u16At
    simp only [Nat.zero_add, Nat.add_assoc]

theorem chain_core {n : Nat} : ∀ (l : List Conv) {R D : ℚ} {ft : FT} {x : InBuf} {V : Nat → ℚ}, (∀ h ∈ l, h.Ok n (R + (D + (l.map Conv.err).sum))) →
    x.size = ft.dtype.stride * n → 0 ≤ D →
    (∀ i, i < n → (elem ft.dtype x.data 0 i).isFin = true ∧ |V i| ≤ R ∧ |(elem ft.dtype x.data 0 i).toRat - V i| ≤ D) →
    Chain n ft l x (fun ft' y => ∀ i, i < n → (elem ft'.dtype y.data 0 i).isFin = true ∧
      |(elem ft'.dtype y.data 0 i).toRat - clipAll l (V i)| ≤ D + (l.map Conv.err).sum) := by
  intro l
  induction l with
  | nil =>
    intro R D ft x V _ _ _ hx i hi
    obtain ⟨h1, _, h3⟩ := hx i hi
    refine ⟨h1, ?_⟩
    simpa [clipAll] using h3
  | cons h l ih =>
    intro R D ft x V hok hsz hD hx
    have hk := hok h (List.mem_cons_self ..)
    have hs : 0 < h.s.toRat := lt_of_lt_of_le (by positivity) hk.lo
    have he := Conv.err_nonneg hk.quant hk.lo
    have hes : 0 ≤ (l.map Conv.err).sum := by
      refine List.sum_nonneg (fun e hm => ?_)
      obtain ⟨g, hg, rfl⟩ := List.mem_map.mp hm
      have := hok g (List.mem_cons_of_mem _ hg)
      exact Conv.err_nonneg this.quant this.lo
    have hsum : ((h :: l).map Conv.err).sum = h.err + (l.map Conv.err).sum := by simp
    rw [hsum] at hok hk ⊢
    have hbig : ∀ i, i < n → |(elem ft.dtype x.data 0 i).toRat| ≤ R + (D + (h.err + (l.map Conv.err).sum)) := fun i hi => by
      obtain ⟨_, g2, g3⟩ := hx i hi
      have : |(elem ft.dtype x.data 0 i).toRat| ≤ |(elem ft.dtype x.data 0 i).toRat - V i| + |V i| := by
        have := abs_add_le ((elem ft.dtype x.data 0 i).toRat - V i) (V i)
        rwa [sub_add_cancel] at this
      linarith
    refine conv_step hk hsz (fun i hi => (hx i hi).1) hbig (fun m' hm' => ?_)
    have hz0 : (0:ℚ) ≤ h.z := by exact_mod_cast hk.zp.1
    have hz1 : (h.z:ℚ) ≤ 2 ^ h.dt.bits - 1 := by exact_mod_cast hk.zp.2
    have hc := ih (R := R) (D := D + h.err) (ft := h.out) (x := ⟨h.out.dtype.stride * n, fun a => m' (h.o' + a)⟩) (V := fun i => h.clip (V i))
      (fun g hg => by
        have := hok g (List.mem_cons_of_mem _ hg)
        rwa [← add_assoc D] at this) rfl (by linarith)
      (fun i hi => by
        obtain ⟨_, g2, g3⟩ := hx i hi
        obtain ⟨k1, k2⟩ := hm' i hi
        show (elem h.out.dtype (fun a => m' (h.o' + a)) 0 i).isFin = true ∧ _ ∧ |(elem h.out.dtype (fun a => m' (h.o' + a)) 0 i).toRat - _| ≤ _
        rw [elem_moved]
        refine ⟨k1, (clip_abs ?_ ?_).trans g2, ?_⟩
        · exact mul_nonpos_of_nonpos_of_nonneg (by linarith) hs.le
        · exact mul_nonneg (by linarith) hs.le
        · have d1 : |h.clip (elem ft.dtype x.data 0 i).toRat - h.clip (V i)| ≤ D :=
            clip_near (by rw [sub_self, abs_zero]; exact hD) (by rw [sub_self, abs_zero]; exact hD) g3
          have := abs_sub_le (elem h.out.dtype m' h.o' i).toRat (h.clip (elem ft.dtype x.data 0 i).toRat) (h.clip (V i))
          linarith)
    rw [add_assoc] at hc
    exact hc

/-- C109. Any number of quantize/dequantize pairs, each with its own type, parameters (scale in `[2^-125, 2^118]`, zero point a code), rounding mode, float type of the result, CPU and thread
count: the last tensor is the first one, clipped to the representable interval of every stage in turn, with an error of at most the sum of the stages' errors (half a step or one step
each, up to 2^-12 of a step, plus the rounding to bfloat16 where a stage delivers that).  `R` bounds the elements; each stage must be able to take values that large plus the accumulated
error (2^29 steps). -/
theorem C109_chain (l : List Conv) {n : Nat} {ft : FT} {x : InBuf} {R : ℚ} (h : ∀ h ∈ l, h.Ok n (R + (l.map Conv.err).sum)) (hs : x.size = ft.dtype.stride * n) (hf : AllFin ft x n)
    (hR : ∀ i, i < n → |(elem ft.dtype x.data 0 i).toRat| ≤ R) :
    Chain n ft l x (fun ft' y => ∀ i, i < n → (elem ft'.dtype y.data 0 i).isFin = true ∧
      |(elem ft'.dtype y.data 0 i).toRat - clipAll l (elem ft.dtype x.data 0 i).toRat| ≤ (l.map Conv.err).sum) := by
  have := chain_core (n := n) l (R := R) (D := 0) (ft := ft) (x := x) (V := fun i => (elem ft.dtype x.data 0 i).toRat) (by rw [zero_add]; exact h) hs (le_refl _)
    (fun i hi => ⟨hf i hi, hR i hi, by rw [sub_self, abs_zero]⟩)
  rw [zero_add] at this
  exact this

theorem clipAll_id {l : List Conv} {v : ℚ} (h : ∀ h ∈ l, (0 - h.z) * h.s.toRat ≤ v ∧ v ≤ (2 ^ h.dt.bits - 1 - h.z) * h.s.toRat) : clipAll l v = v := by
  induction l with
  | nil => rfl
  | cons g l ih =>
    have e : g.clip v = v := by
      have := h g (List.mem_cons_self ..)
      unfold Stage.clip Props.clip
      rw [min_eq_right this.2, max_eq_right this.1]
    show clipAll l (g.clip v) = v
    rw [e]
    exact ih (fun k hk => h k (List.mem_cons_of_mem _ hk))

/-- C109. If every stage can represent the data's range, nothing is clipped: the last tensor is the first one up to the sum of the stages' errors, in whatever order they come. -/
theorem C109_chain_covered (l : List Conv) {n : Nat} {ft : FT} {x : InBuf} {R : ℚ} (h : ∀ h ∈ l, h.Ok n (R + (l.map Conv.err).sum)) (hs : x.size = ft.dtype.stride * n) (hf : AllFin ft x n)
    (hR : ∀ i, i < n → |(elem ft.dtype x.data 0 i).toRat| ≤ R)
    (hc : ∀ h ∈ l, ∀ i, i < n → (0 - h.z) * h.s.toRat ≤ (elem ft.dtype x.data 0 i).toRat ∧ (elem ft.dtype x.data 0 i).toRat ≤ (2 ^ h.dt.bits - 1 - h.z) * h.s.toRat) :
    Chain n ft l x (fun ft' y => ∀ i, i < n → (elem ft'.dtype y.data 0 i).isFin = true ∧
      |(elem ft'.dtype y.data 0 i).toRat - (elem ft.dtype x.data 0 i).toRat| ≤ (l.map Conv.err).sum) :=
  (C109_chain l h hs hf hR).mono (fun f y hy i hi => by
    have := hy i hi
    rwa [clipAll_id (fun g hg => hc g hg i hi)] at this)

/-- Three stages: uint8 with scale 0.5 and zero point 50 (nearest, float32), uint4 with scale 8 and zero point 7 (stochastic, bfloat16), uint8 with scale 0.1 and zero point 64 (nearest,
float32). -/
def exStages : List Conv :=
  [⟨⟨.uint8, Ex.half, 50, .nearest, f0, ⟨.avx2, 3, .none⟩, 64, fun _ => 0, ⟨.portable, 2, .none⟩, 5, 200, fun _ => 7⟩, .f32⟩,
   ⟨⟨.uint4, ⟨false, 0x41000000⟩, 7, .stochastic, Ex.quarter, ⟨.sse42, 2, .none⟩, 64, fun _ => 1, ⟨.avx512f, 4, .none⟩, 5, 300, fun _ => 9⟩, .bf16⟩,
   ⟨⟨.uint8, Ex.tenth, 64, .nearest, f0, ⟨.avx512f, 1, .none⟩, 64, fun _ => 1, ⟨.avx512f, 4, .none⟩, 5, 300, fun _ => 9⟩, .f32⟩]

theorem exStages_ok : ∀ h ∈ exStages, h.Ok 5 (100 + (exStages.map Conv.err).sum) := by
  intro p hp
  have e : (exStages.map Conv.err).sum ≤ 100 := by decide +kernel
  have hb : ∀ {s : F32}, 200 ≤ 2 ^ 29 * s.toRat → 100 + (exStages.map Conv.err).sum ≤ 2 ^ 29 * s.toRat := fun h => by linarith
  simp only [exStages, List.mem_cons, List.not_mem_nil, or_false] at hp
  rcases hp with rfl | rfl | rfl
  · exact ⟨rfl, sz 5 3, sz 5 2, by decide +kernel, by decide +kernel, by decide, (fun h => by cases h), by decide, (fun h => by cases h), hb (by decide +kernel)⟩
  · exact ⟨rfl, sz 5 2, sz 5 4, by decide +kernel, by decide +kernel, by decide, (fun _ => by decide +kernel), by decide, (fun h => by cases h), hb (by decide +kernel)⟩
  · exact ⟨rfl, sz 5 1, sz 5 4, by decide +kernel, by decide +kernel, by decide, (fun h => by cases h), by decide, (fun h => by cases h), hb (by decide +kernel)⟩

/-- `C109_chain` applied to a concrete case: 1, -2.5, 0.3, 7.75, 100 through three stages, the last element clipped on the way. -/
example := C109_chain exStages (n := 5) (ft := .f32) (x := Ex.xs) (R := 100) (h := exStages_ok) (hs := rfl) (hf := by unfold AllFin; decide +kernel) (hR := by decide +kernel)

/-- `C109_chain_covered` applied to a concrete case: the first stage alone, twice. -/
example := C109_chain_covered (n := 5) (ft := .f32) (x := Ex.xs) (R := 100) (l := [exStages[0], exStages[0]])
    (h := fun h hh => by
      have hh : h = exStages[0] := by simpa using hh
      subst hh
      have := exStages_ok exStages[0] (by simp [exStages])
      exact { this with big := by decide +kernel })
    (hs := rfl) (hf := by unfold AllFin; decide +kernel) (hR := by decide +kernel)
    (hc := fun h hh => by
      have hh : h = exStages[0] := by simpa using hh
      subst hh
      decide +kernel)

end Verif.Props

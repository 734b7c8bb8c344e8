import Verif.SpecCrash
import Verif.Proofs.Midway
import Verif.Props.Api
import Verif.Props.Weak
import Verif.Props.DequantSame

/-! # C96, C97: calls interrupted, or observed, at any moment -/

namespace Verif.Props
open Spec Verif

theorem reach_outside {w : Win} {c d : Cfg} {k : Nat} (h : Reach w c k d) : ∀ a, w.has a = false → d.mem a = c.mem a := by
  induction h with
  | refl => exact fun _ _ => rfl
  | tail _ s ih =>
    intro a ha
    rw [← ih a ha]
    cases s with
    | rd h hb => rfl
    | @wr t b v k h hb =>
      show Mem.set _ b v a = _
      unfold Mem.set
      rw [if_neg (fun e => by rw [e, hb] at ha; cases ha)]

theorem during_outside {call : Call} {o len : Nat} {m0 m : Mem} (h : During call (span o len) m0 m) : ∀ a, (a < o ∨ o + len ≤ a) → m a = m0 a := by
  obtain ⟨js, k, d, _, hr, rfl⟩ := h
  intro a ha
  refine reach_outside hr a ?_
  unfold span Win.has
  simp only [Bool.and_eq_false_iff, decide_eq_false_iff_not]
  omega

theorem retry {call call₁ : Call} {o len : Nat} {out : Nat → Nat} {m0 m : Mem}
    (h : ∀ m0, Always OnlyUb call (span o len) m0 (fun m => (∀ j, j < len → m (o + j) = out j) ∧ ∀ a, (a < o ∨ o + len ≤ a) → m a = m0 a))
    (hm : During call₁ (span o len) m0 m) :
    Always OnlyUb call (span o len) m (fun m' => Always OnlyUb call (span o len) m0 (fun u => u = m')) := by
  refine (h m).mono (fun _ h => h) (fun m' hm' => (h m0).mono (fun _ h => h) (fun u hu => ?_))
  funext a
  by_cases ha : a < o ∨ o + len ≤ a
  · rw [hu.2 a ha, hm'.2 a ha, during_outside hm a ha]
  · have e : a = o + (a - o) := by omega
    rw [e, hm'.1 _ (by omega), hu.1 _ (by omega)]

section
variable {c c₁ : Ctx} {x x₁ : InBuf} {dtIn dtOut dtIn₁ dtOut₁ : DType} {n o : Nat} {scale τ scale₁ τ₁ : F32} {zp zp₁ : ℤ} {mode mode₁ : RoundMode} {op : ReduceOp}
  {m0 m m' u : Mem}

/-! ## C96 -/

/-- C96 (quantize). A quantize call was interrupted at any moment of any schedule, leaving memory `m`.
Nothing outside its output span has changed; and repeating the call (with any parameters, in
stochastic mode with any new threshold, on any machine) ends, under every schedule, with exactly the
memory that it would have produced had the interrupted call never been made. -/
theorem C96_quantize_retry (h : QArgs c.threads x dtIn dtOut n)
    (hm : During (quantize c₁ x₁ dtIn₁ o (bytes dtOut.bits n) dtOut₁ scale₁ zp₁ mode₁ τ₁) (span o (bytes dtOut.bits n)) m0 m) :
    (∀ a, (a < o ∨ o + bytes dtOut.bits n ≤ a) → m a = m0 a) ∧
    Always OnlyUb (quantize c x dtIn o (bytes dtOut.bits n) dtOut scale zp mode τ) (span o (bytes dtOut.bits n)) m (fun m' =>
      Always OnlyUb (quantize c x dtIn o (bytes dtOut.bits n) dtOut scale zp mode τ) (span o (bytes dtOut.bits n)) m0 (fun u => u = m')) := by
  obtain ⟨out, _, g⟩ := C04_quantize_writes_exactly_span (o := o) (scale := scale) (τ := τ) (zp := zp) (mode := mode) h
  exact ⟨during_outside hm, retry g hm⟩

/-- C96 (dequantize, the repeated call SET). -/
theorem C96_dequantize_retry (h : DArgs c.threads x dtIn dtOut n) (hr : Readable dtIn dtOut n x.size)
    (hm : During (dequantize c₁ x₁ (bytes dtIn.bits n) dtIn₁ o (dtOut.stride * n) dtOut₁ scale₁ zp₁ op) (span o (dtOut.stride * n)) m0 m) :
    (∀ a, (a < o ∨ o + dtOut.stride * n ≤ a) → m a = m0 a) ∧
    Always OnlyUb (dequantize c x (bytes dtIn.bits n) dtIn o (dtOut.stride * n) dtOut scale zp .set) (span o (dtOut.stride * n)) m (fun m' =>
      Always OnlyUb (dequantize c x (bytes dtIn.bits n) dtIn o (dtOut.stride * n) dtOut scale zp .set) (span o (dtOut.stride * n)) m0 (fun u => u = m')) := by
  obtain ⟨out, g⟩ := C38_dequantize_set_overwrites (o := o) (scale := scale) (zp := zp) h hr
  exact ⟨during_outside hm, retry g hm⟩

/-- C96 (fused, the repeated call SET). -/
theorem C96_fused_retry (h : QArgs c.threads x dtIn dtOut n)
    (hm : During (fused c₁ x₁ dtIn₁ o (dtIn.stride * n) dtOut₁ scale₁ zp₁ mode₁ op τ₁) (span o (dtIn.stride * n)) m0 m) :
    (∀ a, (a < o ∨ o + dtIn.stride * n ≤ a) → m a = m0 a) ∧
    Always OnlyUb (fused c x dtIn o (dtIn.stride * n) dtOut scale zp mode .set τ) (span o (dtIn.stride * n)) m (fun m' =>
      Always OnlyUb (fused c x dtIn o (dtIn.stride * n) dtOut scale zp mode .set τ) (span o (dtIn.stride * n)) m0 (fun u => u = m')) := by
  obtain ⟨out, g⟩ := C38_fused_set_overwrites (o := o) (scale := scale) (τ := τ) (zp := zp) (mode := mode) h
  exact ⟨during_outside hm, retry g hm⟩

/-! ## C97 -/

/-- What the kernels write and mask (the last byte of an odd number of uint4 codes). -/
theorem once_jobs {isa : Isa} {x : InBuf} {o tc : Nat} {d : Desc} (hl : d.Legal) (hn : d.numel * tc < 2 ^ 63) (hn' : d.numel < 2 ^ 59) :
    ∀ p ∈ jobs isa tc x o d, Once (Odd4 d o) p 0 := by
  intro p hp
  unfold jobs at hp
  obtain ⟨ti, hti, rfl⟩ := List.mem_map.mp hp
  exact Once.jobEntry hl (List.mem_range.1 hti) hn hn'

theorem later_view {call : Call} {X : Nat → Prop} {w : Win} {js : List (Prog Unit)} {Q : Mem → Prop} (hc : call = .ok js) (hX : ∀ p ∈ js, Once X p 0)
    (hex : ∀ l d s t a, Trace w ⟨js, m0⟩ l d → (s, a) ∈ l → (t, a) ∈ l → s = t) (hs : AllSchedules OnlyUb w js m0 Q) (hl : Later call w m0 m m') (a : Nat) :
    m a = m0 a ∨ View X a (m' a) (m a) := by
  obtain ⟨js', k, d, k', e, hc', h1, h2, rfl, rfl⟩ := hl
  rw [hc] at hc'; cases hc'
  exact settled hX hex hs.raceFree h1 h2 a

theorem outcome_later {call : Call} {w : Win} {js : List (Prog Unit)} (hc : call = .ok js) (hs : AllSchedules OnlyUb w js m0 (fun m => runSeq w js m0 = .ok m))
    (hn : ∀ m, runSeq w js m0 = .ok m → AllSchedules NoFault w js m0 (fun m' => m' = m)) (hm : During call w m0 m) (hu : Outcome call w m0 u) : Later call w m0 m u := by
  obtain ⟨js1, k, d, hc1, h1, rfl⟩ := hm
  obtain ⟨js2, k2, d2, hc2, h2, hd, rfl⟩ := hu
  rw [hc] at hc1 hc2; cases hc1; cases hc2
  have ha := hn _ (hs.post _ _ h2 hd)
  obtain ⟨k', e, h3, h4⟩ := finish ha h1
  refine ⟨js, k, d, k', e, hc, h1, h3, rfl, ?_⟩
  have : ∀ {k'} {e : Cfg}, Reach w d k' e → ∃ j, Reach w ⟨js, m0⟩ j e := by
    intro k' e h
    induction h with
    | refl => exact ⟨_, h1⟩
    | tail _ s ih => obtain ⟨j, hj⟩ := ih; exact ⟨_, .tail hj s⟩
  obtain ⟨j, hj⟩ := this h3
  exact ha.post _ _ hj h4

theorem quantize_later (h : QArgs c.threads x dtIn dtOut n)
    (hl : Later (quantize c x dtIn o (bytes dtOut.bits n) dtOut scale zp mode τ) (span o (bytes dtOut.bits n)) m0 m m') (a : Nat) :
    m a = m0 a ∨ View (fun a => dtOut = .uint4 ∧ n % 2 = 1 ∧ a = o + n / 2) a (m' a) (m a) := by
  obtain ⟨js, e, g, _⟩ := quantize_any (o := o) (scale := scale) (τ := τ) (zp := zp) (mode := mode) h
  obtain ⟨js', e', g', _⟩ := C03_quantize_schedule_independent (o := o) (scale := scale) (τ := τ) (zp := zp) (mode := mode) (m0 := m0) h
  rw [e] at e'; cases e'
  obtain ⟨ft, rfl, hst⟩ := ft_of h.inFloat
  have hx : x.size = ft.size * n := by rw [← hst]; exact h.size
  have hj := quantize_jobs (c := c) (o := o) (scale := scale) (τ := τ) (zp := zp) (mode := mode) h.outQuant h.sizes.addr hx
  rw [e] at hj
  have hX := once_jobs (isa := c.isa) (x := x) (o := o) (tc := c.threads) (legal_quant (scale := scale) (zp := zp) (ft := ft) (mode := mode) (op := .set) (τ := τ) (fz := c.fuse) (n := n) h.outQuant) h.sizes.split h.sizes.addr
  rw [← Except.ok.inj hj] at hX
  rcases later_view e hX (g m0) g' hl a with h1 | ⟨⟨_, h2, h3, h4⟩, h5⟩ | h1
  · exact Or.inl h1
  · exact Or.inr (Or.inl ⟨⟨h2, h3, h4⟩, h5⟩)
  · exact Or.inr (Or.inr h1)

/-- C97 (quantize, bytes). Once a byte of the output differs from what it was before the call, it has
its final value: between two moments of an execution it does not change again. The exception is the
last byte of an odd number of uint4 codes, whose unused high nibble is cleared in a second step. -/
theorem C97_quantize_bytes_settle (h : QArgs c.threads x dtIn dtOut n)
    (hl : Later (quantize c x dtIn o (bytes dtOut.bits n) dtOut scale zp mode τ) (span o (bytes dtOut.bits n)) m0 m m')
    (a : Nat) (ha : dtOut = .uint4 → n % 2 = 1 → a ≠ o + n / 2) : m a = m0 a ∨ m' a = m a := by
  rcases quantize_later h hl a with h1 | ⟨⟨h2, h3, h4⟩, _⟩ | h1
  · exact Or.inl h1
  · exact absurd h4 (ha h2 h3)
  · exact Or.inr h1

/-- C97 (quantize, codes). Whoever looks at the output at any moment of any schedule sees every code
either as it was before the call or as the finished call leaves it. -/
theorem C97_quantize_codes_old_or_result (h : QArgs c.threads x dtIn dtOut n)
    (hm : During (quantize c x dtIn o (bytes dtOut.bits n) dtOut scale zp mode τ) (span o (bytes dtOut.bits n)) m0 m)
    (hu : Outcome (quantize c x dtIn o (bytes dtOut.bits n) dtOut scale zp mode τ) (span o (bytes dtOut.bits n)) m0 u) (i : Nat) (hi : i < n) :
    code dtOut.bits m o i = code dtOut.bits m0 o i ∨ code dtOut.bits m o i = code dtOut.bits u o i := by
  obtain ⟨js, e, g, g'⟩ := C03_quantize_schedule_independent (o := o) (scale := scale) (τ := τ) (zp := zp) (mode := mode) (m0 := m0) h
  have hl := outcome_later e g g' hm hu
  unfold code
  rcases quantize_later h hl (o + dtOut.bits * i / 8) with h1 | ⟨⟨h2, h3, h4⟩, h5⟩ | h1
  · rw [h1]; exact Or.inl rfl
  · right
    subst h2
    have h4' : o + 4 * i / 8 = o + n / 2 := h4
    have h6 : 4 * i % 8 = 0 := by omega
    show m (o + 4 * i / 8) / 2 ^ (4 * i % 8) % 16 = u (o + 4 * i / 8) / 2 ^ (4 * i % 8) % 16
    rw [h6, pow_zero, Nat.div_one, Nat.div_one]
    exact h5.symm
  · rw [h1]; exact Or.inr rfl

theorem dequantize_later (h : DArgs c.threads x dtIn dtOut n) (hr : Readable dtIn dtOut n x.size)
    (hl : Later (dequantize c x (bytes dtIn.bits n) dtIn o (dtOut.stride * n) dtOut scale zp op) (span o (dtOut.stride * n)) m0 m m') (a : Nat) :
    m a = m0 a ∨ m' a = m a := by
  obtain ⟨js, e, g, _, g'⟩ := dequantize_any (o := o) (scale := scale) (zp := zp) (op := op) h hr
  obtain ⟨ft, rfl, hst⟩ := ft_of h.outFloat
  have hj := dequantize_jobs (c := c) (x := x) (o := o) (ft := ft) (scale := scale) (zp := zp) (op := op) h.inQuant h.sizes.addr
  rw [← hst, e] at hj
  have hX := once_jobs (isa := c.isa) (x := x) (o := o) (tc := c.threads) (legal_dequant (scale := scale) (zp := zp) (ft := ft) (mode := .nearest) (op := op) (τ := f0) (fz := c.fuse) (n := n) h.inQuant) h.sizes.split h.sizes.addr
  rw [← Except.ok.inj hj] at hX
  rcases later_view e hX (g m0) (g' m0) hl a with h1 | ⟨⟨h1, _⟩, _⟩ | h1
  · exact Or.inl h1
  · cases h1
  · exact Or.inr h1

theorem fused_later (h : QArgs c.threads x dtIn dtOut n)
    (hl : Later (fused c x dtIn o (dtIn.stride * n) dtOut scale zp mode op τ) (span o (dtIn.stride * n)) m0 m m') (a : Nat) : m a = m0 a ∨ m' a = m a := by
  obtain ⟨js, e, g, _, g'⟩ := fused_any (o := o) (scale := scale) (τ := τ) (zp := zp) (mode := mode) (op := op) h
  obtain ⟨ft, rfl, hst⟩ := ft_of h.inFloat
  have hx : x.size = ft.size * n := by rw [← hst]; exact h.size
  have hj := fused_jobs (c := c) (o := o) (scale := scale) (τ := τ) (zp := zp) (mode := mode) (op := op) h.outQuant hx
  rw [← hst, e] at hj
  have hX := once_jobs (isa := c.isa) (x := x) (o := o) (tc := c.threads) (legal_fused (scale := scale) (zp := zp) (ft := ft) (mode := mode) (op := op) (τ := τ) (fz := c.fuse) (n := n) h.outQuant) h.sizes.split h.sizes.addr
  rw [← Except.ok.inj hj] at hX
  rcases later_view e hX (g m0) (g' m0) hl a with h1 | ⟨⟨h1, _⟩, _⟩ | h1
  · exact Or.inl h1
  · cases h1
  · exact Or.inr h1

/-- C97 (dequantize, SET and ADD). Every output byte changes at most once, and at any moment it is as
before the call or as the finished call leaves it. -/
theorem C97_dequantize_bytes_settle (h : DArgs c.threads x dtIn dtOut n) (hr : Readable dtIn dtOut n x.size) :
    (∀ m m', Later (dequantize c x (bytes dtIn.bits n) dtIn o (dtOut.stride * n) dtOut scale zp op) (span o (dtOut.stride * n)) m0 m m' → ∀ a, m a = m0 a ∨ m' a = m a) ∧
    (∀ m u, During (dequantize c x (bytes dtIn.bits n) dtIn o (dtOut.stride * n) dtOut scale zp op) (span o (dtOut.stride * n)) m0 m →
      Outcome (dequantize c x (bytes dtIn.bits n) dtIn o (dtOut.stride * n) dtOut scale zp op) (span o (dtOut.stride * n)) m0 u → ∀ a, m a = m0 a ∨ m a = u a) := by
  refine ⟨fun m m' hl a => dequantize_later h hr hl a, fun m u hm hu a => ?_⟩
  obtain ⟨js, e, g, g'⟩ := C03_dequantize_schedule_independent (o := o) (scale := scale) (zp := zp) (op := op) (m0 := m0) h hr
  exact (dequantize_later h hr (outcome_later e g g' hm hu) a).imp id Eq.symm

/-- C97 (fused, SET and ADD). -/
theorem C97_fused_bytes_settle (h : QArgs c.threads x dtIn dtOut n) :
    (∀ m m', Later (fused c x dtIn o (dtIn.stride * n) dtOut scale zp mode op τ) (span o (dtIn.stride * n)) m0 m m' → ∀ a, m a = m0 a ∨ m' a = m a) ∧
    (∀ m u, During (fused c x dtIn o (dtIn.stride * n) dtOut scale zp mode op τ) (span o (dtIn.stride * n)) m0 m →
      Outcome (fused c x dtIn o (dtIn.stride * n) dtOut scale zp mode op τ) (span o (dtIn.stride * n)) m0 u → ∀ a, m a = m0 a ∨ m a = u a) := by
  refine ⟨fun m m' hl a => fused_later h hl a, fun m u hm hu a => ?_⟩
  obtain ⟨js, e, g, g'⟩ := C03_fused_schedule_independent (o := o) (scale := scale) (τ := τ) (zp := zp) (mode := mode) (op := op) (m0 := m0) h
  exact (fused_later h (outcome_later e g g' hm hu) a).imp id Eq.symm

/-! ## Executions given by a schedule -/

/-- The execution in which the workers take their steps in the order `l`. -/
def play (w : Win) : List Nat → Cfg → Option Cfg
  | [], c => some c
  | t :: l, c => match c.jobs[t]? with
    | some (.rd a k) => if w.has a then play w l ⟨c.jobs.set t (k (c.mem a)), c.mem⟩ else none
    | some (.wr a b k) => if w.has a then play w l ⟨c.jobs.set t k, c.mem.set a b⟩ else none
    | _ => none

theorem reach_head {w : Win} {c d e : Cfg} {k : Nat} (s : Step w c d) (h : Reach w d k e) : ∃ k', Reach w c k' e := by
  induction h with
  | refl => exact ⟨_, .tail .refl s⟩
  | tail _ s' ih => obtain ⟨k', h'⟩ := ih; exact ⟨_, .tail h' s'⟩

theorem play_reach {w : Win} {l : List Nat} {c d : Cfg} (h : play w l c = some d) : ∃ k, Reach w c k d := by
  induction l generalizing c with
  | nil => cases h; exact ⟨0, .refl⟩
  | cons t l ih =>
    unfold play at h
    split at h
    · rename_i a k hj
      split at h
      · rename_i ha
        obtain ⟨k', h'⟩ := ih h
        exact reach_head (.rd hj ha) h'
      · cases h
    · rename_i a b k hj
      split at h
      · rename_i ha
        obtain ⟨k', h'⟩ := ih h
        exact reach_head (.wr hj ha) h'
      · cases h
    · cases h

/-- The memory after the steps `l` of a call. -/
def playMem (call : Call) (w : Win) (m0 : Mem) (l : List Nat) : Option Mem := match call with
  | .ok js => (play w l ⟨js, m0⟩).map Cfg.mem
  | .error _ => none

theorem play_during {call : Call} {w : Win} {l : List Nat} (h : (playMem call w m0 l).isSome = true) : During call w m0 ((playMem call w m0 l).getD m0) := by
  obtain ⟨m, hm⟩ := Option.isSome_iff_exists.mp h
  rw [hm]
  unfold playMem at hm
  split at hm
  · rename_i js
    obtain ⟨d, hd, e⟩ := Option.map_eq_some_iff.mp hm
    obtain ⟨k, hk⟩ := play_reach hd
    exact ⟨js, k, d, rfl, hk, e⟩
  · cases hm

theorem during_later {call : Call} {w : Win} (h : During call w m0 m) : Later call w m0 m0 m ∧ Later call w m0 m m := by
  obtain ⟨js, k, d, e, hr, rfl⟩ := h
  exact ⟨⟨js, 0, _, k, d, e, .refl, hr, rfl, rfl⟩, ⟨js, k, d, 0, d, e, hr, .refl, rfl, rfl⟩⟩

/-! ## What does not hold -/

/-- C96 fails for ADD: two codes 1 are added to two zeros; the call is interrupted when the first
element is done. Repeating it adds 1 to that element again (the result is 2, 1 instead of 1, 1). -/
theorem C96_false_add :
    ¬ (∀ (c : Ctx) (x : InBuf) (dtIn dtOut : DType) (n o : Nat) (scale : F32) (zp : ℤ) (m0 m : Mem), DArgs c.threads x dtIn dtOut n → Readable dtIn dtOut n x.size →
        During (dequantize c x (bytes dtIn.bits n) dtIn o (dtOut.stride * n) dtOut scale zp .add) (span o (dtOut.stride * n)) m0 m →
        Always OnlyUb (dequantize c x (bytes dtIn.bits n) dtIn o (dtOut.stride * n) dtOut scale zp .add) (span o (dtOut.stride * n)) m (fun m' =>
          Always OnlyUb (dequantize c x (bytes dtIn.bits n) dtIn o (dtOut.stride * n) dtOut scale zp .add) (span o (dtOut.stride * n)) m0 (fun u => u = m'))) := by
  intro hall
  have hargs : DArgs (Ctx.threads ⟨.portable, 1, .none⟩) (Ex.buf [1, 1]) .uint8 .f32 2 := ⟨rfl, rfl, by decide, sz 2 1⟩
  have hread : Readable .uint8 .f32 2 (Ex.buf [1, 1]).size := fun h => by cases h
  have hd := play_during (call := dequantize ⟨.portable, 1, .none⟩ (Ex.buf [1, 1]) (bytes 8 2) .uint8 1000 (4 * 2) .f32 f1 0 .add) (w := span 1000 (4 * 2)) (m0 := fun _ => 0)
    (l := List.replicate 8 0) (by decide +kernel)
  have h1 := hall _ _ .uint8 .f32 2 1000 f1 0 _ _ hargs hread hd
  have r1 := dequantize_result (c := ⟨.portable, 1, .none⟩) (x := Ex.buf [1, 1]) (dtIn := .uint8) (dtOut := .f32) (n := 2) (o := 1000) (scale := f1) (zp := 0) (op := .add)
    (m0 := (playMem (dequantize ⟨.portable, 1, .none⟩ (Ex.buf [1, 1]) (bytes 8 2) .uint8 1000 (4 * 2) .f32 f1 0 .add) (span 1000 (4 * 2)) (fun _ => 0) (List.replicate 8 0)).getD (fun _ => 0))
    (l := [0, 0, 0, 64, 0, 0, 128, 63]) hargs hread (by decide +kernel)
  have r2 := dequantize_result (c := ⟨.portable, 1, .none⟩) (x := Ex.buf [1, 1]) (dtIn := .uint8) (dtOut := .f32) (n := 2) (o := 1000) (scale := f1) (zp := 0) (op := .add)
    (m0 := fun _ => 0) (l := [0, 0, 128, 63, 0, 0, 128, 63]) hargs hread (by decide +kernel)
  obtain ⟨m', hm'⟩ := always_outcome r1
  obtain ⟨u, hu⟩ := always_outcome r2
  have e := (h1.outcome hm').outcome hu
  have e1 := r1.outcome hm'
  have e2 := r2.outcome hu
  rw [e, e1] at e2
  revert e2; decide

theorem always_both {E : Fault → Prop} {call : Call} {w : Win} {Q R : Mem → Prop} (h : Always E call w m0 Q) (h' : Always E call w m0 R) :
    Always E call w m0 (fun m => (Q m ∧ R m) ∧ Outcome call w m0 m) := by
  obtain ⟨js, e, g⟩ := h
  obtain ⟨js', e', g'⟩ := h'
  rw [e] at e'; cases e'
  exact ⟨js, e, g.safe, g.raceFree, g.progress, g.bounded, fun k d hr hd => ⟨⟨g.post k d hr hd, g'.post k d hr hd⟩, js, k, d, e, hr, hd, rfl⟩⟩

/-- What repeating an interrupted ADD does to float32 elements. At the interruption every byte is as
before the call or as the call would have left it. An element that the interrupted call had not touched
ends as it should, one that it had finished is added a second time. -/
theorem C96_add_retry_counts_twice {b : Bool} (hb : Uniform c b) (h : DArgs c.threads x dtIn .f32 n) (hr : Readable dtIn .f32 n x.size) (hz : ZpSub zp)
    (hm : During (dequantize c x (bytes dtIn.bits n) dtIn o (4 * n) .f32 scale zp .add) (span o (4 * n)) m0 m) :
    Always NoFault (dequantize c x (bytes dtIn.bits n) dtIn o (4 * n) .f32 scale zp .add) (span o (4 * n)) m (fun m' =>
      Always NoFault (dequantize c x (bytes dtIn.bits n) dtIn o (4 * n) .f32 scale zp .add) (span o (4 * n)) m0 (fun u => (∀ a, m a = m0 a ∨ m a = u a) ∧ ∀ i, i < n →
        (f32At m (o + 4 * i) = f32At m0 (o + 4 * i) → f32At m' (o + 4 * i) = f32At u (o + 4 * i)) ∧
        (f32At m (o + 4 * i) = f32At u (o + 4 * i) → (dtIn = .uint2 → i < n / 4 * 4) →
          f32At m' (o + 4 * i) = plus b (f32At u (o + 4 * i)) scale zp (code dtIn.bits x.data 0 i)))) := by
  refine (always_both (C70_dequantize_add_f32_same_partial (m0' := m0) (o' := o) hb hb h hr h hr hz) (C10_add_f32_uniform_partial hb h hr hz)).mono (fun _ h => h) (fun m' h12 => ?_)
  obtain ⟨⟨h1, h2⟩, _⟩ := h12
  refine (always_both h1 h1).mono (fun _ h => h) (fun u hu => ⟨(C97_dequantize_bytes_settle (dtOut := .f32) h hr).2 m u hm hu.2, fun i hi => ⟨fun e => hu.1.1 i hi rfl e, fun e ht => ?_⟩⟩)
  rw [h2 i hi ht, e]

/-- C97 does not hold for the last byte of an odd number of uint4 codes: quantizing one zero with zero
point 8, the byte is first 0x88, which is neither what it was (0xAB) nor the result (0x08). -/
theorem C97_false_last_byte :
    ∃ m u, During (quantize ⟨.portable, 1, .none⟩ (Ex.buf (Ex.words32 [0])) .f32 1000 (bytes 4 1) .uint4 f1 8 .nearest f0) (span 1000 (bytes 4 1)) Ex.old m ∧
      Outcome (quantize ⟨.portable, 1, .none⟩ (Ex.buf (Ex.words32 [0])) .f32 1000 (bytes 4 1) .uint4 f1 8 .nearest f0) (span 1000 (bytes 4 1)) Ex.old u ∧
      m 1000 ≠ Ex.old 1000 ∧ m 1000 ≠ u 1000 := by
  have hd := play_during (call := quantize ⟨.portable, 1, .none⟩ (Ex.buf (Ex.words32 [0])) .f32 1000 (bytes 4 1) .uint4 f1 8 .nearest f0) (w := span 1000 (bytes 4 1)) (m0 := Ex.old)
    (l := [0]) (by decide +kernel)
  have hargs : QArgs (Ctx.threads ⟨.portable, 1, .none⟩) (Ex.buf (Ex.words32 [0])) .f32 .uint4 1 := ⟨rfl, rfl, rfl, sz 1 1⟩
  have r := quantize_result (c := ⟨.portable, 1, .none⟩) (x := Ex.buf (Ex.words32 [0])) (dtIn := .f32) (dtOut := .uint4) (n := 1) (o := 1000) (scale := f1) (zp := 8) (mode := .nearest) (τ := f0)
    (m0 := Ex.old) (l := [8]) hargs (by decide +kernel)
  obtain ⟨u, hu⟩ := always_outcome r
  have e : u 1000 = 8 := (List.cons.inj (r.outcome hu)).1
  refine ⟨_, u, hd, hu, by decide +kernel, ?_⟩
  rw [e]; decide +kernel

/-! ## Concrete cases -/

/-- The first worker of a portable build has written two bytes of 70 codes, the second one. -/
theorem midwayQ : During (quantize Ex.c2 Ex.many .f32 1000 (bytes 8 70) .uint8 Ex.tenth 64 .nearest f0) (span 1000 (bytes 8 70)) Ex.old
    ((playMem (quantize Ex.c2 Ex.many .f32 1000 (bytes 8 70) .uint8 Ex.tenth 64 .nearest f0) (span 1000 (bytes 8 70)) Ex.old [0, 1, 0]).getD Ex.old) :=
  play_during (by decide +kernel)
/-- The same for a dequantize call (ADD: two elements, eight reads and eight writes, of the first worker), -/
theorem midwayD : During (dequantize Ex.c2 Ex.codes (bytes 4 139) .uint4 1000 (4 * 139) .f32 Ex.tenth 7 .add) (span 1000 (4 * 139)) Ex.old
    ((playMem (dequantize Ex.c2 Ex.codes (bytes 4 139) .uint4 1000 (4 * 139) .f32 Ex.tenth 7 .add) (span 1000 (4 * 139)) Ex.old (List.replicate 16 0 ++ [1, 1])).getD Ex.old) :=
  play_during (by decide +kernel)
/-- and for a fused call. -/
theorem midwayF : During (fused Ex.c2 Ex.many .f32 1000 (4 * 70) .uint8 Ex.tenth 64 .nearest .set f0) (span 1000 (4 * 70)) Ex.old
    ((playMem (fused Ex.c2 Ex.many .f32 1000 (4 * 70) .uint8 Ex.tenth 64 .nearest .set f0) (span 1000 (4 * 70)) Ex.old [0, 1, 0, 0, 0, 0, 1]).getD Ex.old) :=
  play_during (by decide +kernel)

example := C96_quantize_retry (c := Ex.c2) (x := Ex.many) (dtIn := .f32) (dtOut := .uint8) (n := 70) (scale := Ex.tenth) (τ := f0) (zp := 64) (mode := .nearest) (h := by wit) midwayQ
example := C96_dequantize_retry (c := Ex.c2) (x := Ex.codes) (dtIn := .uint4) (dtOut := .f32) (n := 139) (scale := Ex.tenth) (zp := 7) (h := by wit) (hr := fun h => by cases h) midwayD
example := C96_fused_retry (c := Ex.c2) (x := Ex.many) (dtIn := .f32) (dtOut := .uint8) (n := 70) (scale := Ex.tenth) (τ := f0) (zp := 64) (mode := .nearest) (h := by wit) midwayF
example := C96_add_retry_counts_twice (c := Ex.c2) (x := Ex.codes) (dtIn := .uint4) (n := 139) (scale := Ex.tenth) (zp := 7) (b := false) (by wit) (by wit) (fun h => by cases h) (by wit) midwayD
example := C97_quantize_bytes_settle (c := Ex.c2) (x := Ex.many) (dtIn := .f32) (dtOut := .uint8) (n := 70) (h := by wit) (during_later midwayQ).2 1000 (fun h => by cases h)
example := C97_dequantize_bytes_settle (c := Ex.c2) (x := Ex.codes) (dtIn := .uint4) (dtOut := .f32) (n := 139) (scale := Ex.tenth) (zp := 7) (op := .add) (o := 1000) (m0 := Ex.old) (h := by wit) (fun h => by cases h)
example := C97_fused_bytes_settle (c := Ex.c2) (x := Ex.many) (dtIn := .f32) (dtOut := .uint8) (n := 70) (scale := Ex.tenth) (τ := f0) (zp := 64) (mode := .nearest) (op := .add) (o := 1000) (m0 := Ex.old) (h := by wit)
/-- A moment at which three codes have been written, and an outcome. -/
example : ∃ m u, (m 1000 ≠ Ex.old 1000 ∧ m 1001 ≠ Ex.old 1001 ∧ m 1002 = Ex.old 1002) ∧ ∀ i, i < 70 → code 8 m 1000 i = code 8 Ex.old 1000 i ∨ code 8 m 1000 i = code 8 u 1000 i := by
  obtain ⟨m, hm, hv⟩ : ∃ m, During (quantize Ex.c2 Ex.many .f32 1000 (bytes 8 70) .uint8 Ex.tenth 64 .nearest f0) (span 1000 (bytes 8 70)) Ex.old m ∧
    (m 1000 ≠ Ex.old 1000 ∧ m 1001 ≠ Ex.old 1001 ∧ m 1002 = Ex.old 1002) := ⟨_, midwayQ, by decide +kernel⟩
  have hd : ∀ i, i < 70 → Fits 32 (scaled (elem .f32 Ex.many.data 0 i) Ex.tenth) 64 := by decide +kernel
  have hq : QArgs Ex.c2.threads Ex.many .f32 .uint8 70 := by wit
  obtain ⟨u, hu⟩ := always_outcome (C07_vector_nearest (c := Ex.c2) (x := Ex.many) (dtIn := .f32) (dtOut := .uint8) (o := 1000) (m0 := Ex.old) (scale := Ex.tenth) (zp := 64) (τ := f0) hq (by decide) hd)
  exact ⟨m, u, hv, C97_quantize_codes_old_or_result (dtOut := .uint8) hq hm hu⟩

end

end Verif.Props

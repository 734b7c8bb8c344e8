import Verif.Proofs.Once
import Verif.Proofs.Weak

/-! # What an execution looks like midway -/

namespace Verif
open Spec

/-- The byte that `quant_uint4` writes and masks: the last one, when the element count is odd. -/
def Odd4 (d : Desc) (o a : Nat) : Prop := d.type = .quant ∧ d.dtOut = .uint4 ∧ d.numel % 2 = 1 ∧ a = o + d.numel / 2

theorem Once.jobEntry {isa : Isa} {x : InBuf} {o : Nat} {d : Desc} {ti tc : Nat} (hl : d.Legal) (htc : ti < tc) (hn : d.numel * tc < 2 ^ 63) (hn' : d.numel < 2 ^ 59) :
    Once (Odd4 d o) (Verif.jobEntry isa x o d ti tc) 0 := by
  rw [jobEntry_eq htc hn hn']
  split
  · rename_i hlt
    have hp : packElems (packedBits d) ∣ cut (packElems (packedBits d)) d.numel tc ti := cut_dvd (by omega)
    have hp' : ti + 1 ≠ tc → packElems (packedBits d) ∣ cut (packElems (packedBits d)) d.numel tc (ti + 1) := fun h => cut_dvd h
    have hlast : ti + 1 = tc → cut (packElems (packedBits d)) d.numel tc (ti + 1) = d.numel := fun h => by rw [h]; exact cut_last
    generalize cut (packElems (packedBits d)) d.numel tc ti = b at *
    generalize cut (packElems (packedBits d)) d.numel tc (ti + 1) = e at *
    obtain ⟨type, numel, scale, zp, dtIn, dtOut, rounding, reducing, τ, fz⟩ := d
    unfold Desc.Legal at hl
    cases type <;> simp only at hl
    · obtain ⟨ft, hft, _⟩ := ft_of hl.1
      subst hft
      rw [quantizeDispatch_quant hl.2]
      refine (Once.quantGeneric ?_).lower (Nat.zero_le _)
      rintro rfl hodd
      simp only [packedBits, DType.bits, packElems] at hp hp' hlast
      norm_num at hp hp'
      refine ⟨rfl, rfl, ?_, ?_⟩
      · show numel % 2 = 1
        by_cases h : ti + 1 = tc
        · have := hlast h; omega
        · have := hp' h; omega
      · show o + 4 * b / 8 + (e - b) / 2 = o + numel / 2
        by_cases h : ti + 1 = tc
        · have := hlast h; omega
        · have := hp' h; omega
    · obtain ⟨ft, hft, _⟩ := ft_of hl.2
      subst hft
      rw [quantizeDispatch_dequant hl.1]
      exact Once.dequantGeneric.lower (Nat.zero_le _)
    · obtain ⟨ft, hft, _⟩ := ft_of hl.1
      subst hft
      rw [quantizeDispatch_requant hl.2]
      exact Once.requantGeneric.lower (Nat.zero_le _)
  · exact .ret

/-- What is left of a worker: all further writes are at or above `lo`, except for the masking of one byte. -/
inductive St (X : Nat → Prop) (m : Mem) : Prog Unit → Nat → Prop
  | once {p : Prog Unit} {lo : Nat} (h : Once X p lo) : St X m p lo
  | back {a lo : Nat} {k : Prog Unit} (hX : X a) (h : Once X k (a + 1)) (hl : lo ≤ a + 1) : St X m (.rd a (fun p => .wr a (p &&& 15) k)) lo
  | mask {a lo : Nat} {k : Prog Unit} (hX : X a) (h : Once X k (a + 1)) (hl : lo ≤ a + 1) : St X m (.wr a (m a &&& 15) k) lo

section
variable {X : Nat → Prop} {m : Mem} {lo a b : Nat}

theorem St.rd {k : Nat → Prog Unit} (h : St X m (.rd a k) lo) : St X m (k (m a)) lo := by
  cases h with
  | once h => cases h with | rd h => exact .once (h _)
  | back hX h hl => exact .mask hX h hl

theorem St.wr {k : Prog Unit} (h : St X m (.wr a b k) lo) :
    (lo ≤ a ∨ (X a ∧ b = m a &&& 15)) ∧ ∃ lo', lo ≤ lo' ∧ a + 1 ≤ lo' ∧ St X (m.set a b) k lo' := by
  cases h with
  | once h => cases h with
    | wr hl h => exact ⟨Or.inl hl, a + 1, by omega, le_refl _, .once h⟩
    | mask hX hl h => exact ⟨Or.inl hl, a + 1, by omega, le_refl _, .back hX h (le_refl _)⟩
  | mask hX h hl => exact ⟨Or.inr ⟨hX, rfl⟩, a + 1, hl, le_refl _, .once h⟩

theorem St.other {p : Prog Unit} (h : St X m p lo) (hp : p.pending ≠ some a) : St X (m.set a b) p lo := by
  cases h with
  | once h => exact .once h
  | back hX h hl => exact .back hX h hl
  | @mask a' _ k hX h hl =>
    have hne : a' ≠ a := fun e => hp (by rw [e]; rfl)
    have e : m a' = (m.set a b) a' := by unfold Mem.set; rw [if_neg hne]
    rw [e]
    exact .mask hX h hl

/-- The part of byte `a` that a reader may rely on: in `X` the low nibble. -/
def View (X : Nat → Prop) (a u v : Nat) : Prop := (X a ∧ u % 16 = v % 16) ∨ u = v

theorem View.refl {u : Nat} : View X a u u := Or.inr rfl
theorem View.trans {u v w : Nat} (h : View X a u v) (h' : View X a v w) : View X a u w := by
  rcases h with ⟨h1, h2⟩ | rfl
  · rcases h' with ⟨_, h3⟩ | rfl
    · exact Or.inl ⟨h1, h2.trans h3⟩
    · exact Or.inl ⟨h1, h2⟩
  · exact h'

end

section
variable {X : Nat → Prop} {w : Win} {js : List (Prog Unit)} {m0 : Mem}

/-- A worker has written byte `a` and is past it. -/
def Passed (X : Nat → Prop) (l : List (Nat × Nat)) (d : Cfg) (a : Nat) : Prop :=
  ∃ (t : Nat) (p : Prog Unit) (lo : Nat), (t, a) ∈ l ∧ d.jobs[t]? = some p ∧ St X d.mem p lo ∧ a < lo

/-- Every worker is in a known state. -/
def Known (X : Nat → Prop) (d : Cfg) : Prop := ∀ (t : Nat) (p : Prog Unit), d.jobs[t]? = some p → ∃ lo, St X d.mem p lo

theorem get_set {jobs : List (Prog Unit)} {s t : Nat} {k p : Prog Unit} (h : (jobs.set s k)[t]? = some p) :
    (s = t ∧ p = k) ∨ (s ≠ t ∧ jobs[t]? = some p) := by
  by_cases e : s = t
  · subst e
    left
    refine ⟨rfl, ?_⟩
    rw [List.getElem?_set] at h
    split at h
    · split at h
      · exact (Option.some.inj h).symm
      · cases h
    · exact absurd rfl ‹_›
  · right
    rw [List.getElem?_set_ne e] at h
    exact ⟨e, h⟩

theorem set_get {jobs : List (Prog Unit)} {t : Nat} {k p : Prog Unit} (h : jobs[t]? = some p) : (jobs.set t k)[t]? = some k := by
  have : t < jobs.length := by
    by_contra hc
    rw [List.getElem?_eq_none (by omega)] at h
    cases h
  rw [List.getElem?_set_self this]

theorem known_step {c d : Cfg} (hk : Known X c) (hr : ¬ c.Race) (s : Step w c d) : Known X d := by
  intro t p hp
  cases s with
  | @rd s a k h ha =>
    rcases get_set hp with ⟨rfl, rfl⟩ | ⟨hne, hp⟩
    · obtain ⟨lo, hs⟩ := hk _ _ h
      exact ⟨lo, hs.rd⟩
    · exact hk _ _ hp
  | @wr s a b k h ha =>
    rcases get_set hp with ⟨rfl, rfl⟩ | ⟨hne, hp⟩
    · obtain ⟨lo, hs⟩ := hk _ _ h
      obtain ⟨_, lo', _, _, h'⟩ := hs.wr
      exact ⟨lo', h'⟩
    · obtain ⟨lo, hs⟩ := hk _ _ hp
      exact ⟨lo, hs.other (fun e => hr ⟨s, t, a, _, _, hne, h, hp, rfl, e⟩)⟩

/-- Once a worker is past a byte, the byte keeps its value. -/
theorem passed_step (hex : Exclusive w js m0) {l : List (Nat × Nat)} {c d : Cfg} {a : Nat} (ht : Trace w ⟨js, m0⟩ l c) (hr : ¬ c.Race)
    (hp : Passed X l c a) (s : Step w c d) : ∃ l', Trace w ⟨js, m0⟩ l' d ∧ Passed X l' d a ∧ View X a (d.mem a) (c.mem a) := by
  obtain ⟨t, p, lo, hin, hj, hst, hlt⟩ := hp
  cases s with
  | @rd s b k h ha =>
    refine ⟨_, .rd ht h ha, ?_, .refl⟩
    by_cases e : s = t
    · subst e
      rw [h] at hj; cases hj
      exact ⟨s, _, lo, List.mem_cons_of_mem _ hin, set_get h, hst.rd, hlt⟩
    · exact ⟨t, p, lo, List.mem_cons_of_mem _ hin, (List.getElem?_set_ne e).trans hj, hst, hlt⟩
  | @wr s b v k h ha =>
    have ht' := Trace.wr ht h ha
    refine ⟨_, ht', ?_, ?_⟩
    · by_cases e : s = t
      · subst e
        rw [h] at hj; cases hj
        obtain ⟨_, lo', h1, h2, h3⟩ := hst.wr
        exact ⟨s, _, lo', List.mem_cons_of_mem _ hin, set_get h, h3, by omega⟩
      · exact ⟨t, p, lo, List.mem_cons_of_mem _ hin, (List.getElem?_set_ne e).trans hj,
          hst.other (fun e' => hr ⟨s, t, b, _, _, e, h, hj, rfl, e'⟩), hlt⟩
    · by_cases e : a = b
      · subst e
        have hs : s = t := hex _ _ _ _ _ ht' (List.mem_cons_self ..) (List.mem_cons_of_mem _ hin)
        subst hs
        rw [h] at hj; cases hj
        rcases hst.wr.1 with h1 | ⟨h1, h2⟩
        · omega
        · left
          refine ⟨h1, ?_⟩
          show (c.mem.set a v) a % 16 = _
          rw [h2]
          have : (c.mem.set a (c.mem a &&& 15)) a = c.mem a &&& 15 := by unfold Mem.set; rw [if_pos rfl]
          rw [this]
          have := Nat.and_two_pow_sub_one_eq_mod (c.mem a) 4
          norm_num at this
          rw [this]; omega
      · right
        show (c.mem.set b v) a = _
        unfold Mem.set; rw [if_neg e]

theorem passed_later (hex : Exclusive w js m0) (hr : ∀ n c, Reach w ⟨js, m0⟩ n c → ¬ c.Race) {l : List (Nat × Nat)} {c d : Cfg} {a n : Nat}
    (ht : Trace w ⟨js, m0⟩ l c) (hp : Passed X l c a) (h : Reach w c n d) : View X a (d.mem a) (c.mem a) ∧ ∃ l', Trace w ⟨js, m0⟩ l' d ∧ Passed X l' d a := by
  induction h with
  | refl => exact ⟨.refl, l, ht, hp⟩
  | tail h s ih =>
    obtain ⟨hv, l', ht', hp'⟩ := ih
    obtain ⟨l'', h1, h2, h3⟩ := passed_step hex ht' (hr _ _ (trace_reach ht')) hp' s
    exact ⟨h3.trans hv, l'', h1, h2⟩

/-- Midway: a byte is as before the call, or its worker is past it. -/
theorem midway (hX : ∀ p ∈ js, Once X p 0) (hex : Exclusive w js m0) (hr : ∀ n c, Reach w ⟨js, m0⟩ n c → ¬ c.Race) {n : Nat} {d : Cfg}
    (h : Reach w ⟨js, m0⟩ n d) : Known X d ∧ ∃ l, Trace w ⟨js, m0⟩ l d ∧ ∀ a, d.mem a = m0 a ∨ Passed X l d a := by
  induction h with
  | refl => exact ⟨fun t p hp => ⟨0, .once (hX p (List.mem_of_getElem? hp))⟩, [], .refl, fun a => Or.inl rfl⟩
  | @tail n c d h s ih =>
    obtain ⟨hk, l, ht, hm⟩ := ih
    have hrc := hr _ _ (trace_reach ht)
    refine ⟨known_step hk hrc s, ?_⟩
    have key : ∃ l', Trace w ⟨js, m0⟩ l' d ∧ (∀ q ∈ l, q ∈ l') ∧ ∀ a, d.mem a = c.mem a ∨ Passed X l' d a := by
      cases s with
      | rd h ha => exact ⟨_, .rd ht h ha, fun q hq => List.mem_cons_of_mem _ hq, fun a => Or.inl rfl⟩
      | @wr s b v k h ha =>
        refine ⟨_, .wr ht h ha, fun q hq => List.mem_cons_of_mem _ hq, fun a => ?_⟩
        by_cases e : a = b
        · subst e
          right
          obtain ⟨lo, hs⟩ := hk _ _ h
          obtain ⟨_, lo', h1, h2, h3⟩ := hs.wr
          exact ⟨s, k, lo', List.mem_cons_self .., set_get h, h3, by omega⟩
        · left
          show (c.mem.set b v) a = _
          unfold Mem.set; rw [if_neg e]
    obtain ⟨l', ht', hsub, hm'⟩ := key
    refine ⟨l', ht', fun a => ?_⟩
    rcases hm' a with h1 | h1
    · rcases hm a with h2 | h2
      · exact Or.inl (h1.trans h2)
      · right
        obtain ⟨l'', _, h3, _⟩ := passed_step hex ht hrc h2 s
        obtain ⟨t, p, lo, g1, g2, g3, g4⟩ := h2
        cases s with
        | @rd s b k h ha =>
          by_cases e : s = t
          · subst e
            rw [h] at g2; cases g2
            exact ⟨s, _, lo, hsub _ g1, set_get h, g3.rd, g4⟩
          · exact ⟨t, p, lo, hsub _ g1, (List.getElem?_set_ne e).trans g2, g3, g4⟩
        | @wr s b v k h ha =>
          by_cases e : s = t
          · subst e
            rw [h] at g2; cases g2
            obtain ⟨_, lo', e1, e2, e3⟩ := g3.wr
            exact ⟨s, _, lo', hsub _ g1, set_get h, e3, by omega⟩
          · exact ⟨t, p, lo, hsub _ g1, (List.getElem?_set_ne e).trans g2,
              g3.other (fun e' => hrc ⟨s, t, b, _, _, e, h, g2, rfl, e'⟩), g4⟩
    · exact Or.inr h1

/-- A byte that differs from its value before the call does not change any more (its low nibble, in `X`). -/
theorem settled (hX : ∀ p ∈ js, Once X p 0) (hex : Exclusive w js m0) (hr : ∀ n c, Reach w ⟨js, m0⟩ n c → ¬ c.Race) {n n' : Nat} {d e : Cfg}
    (h : Reach w ⟨js, m0⟩ n d) (h' : Reach w d n' e) (a : Nat) : d.mem a = m0 a ∨ View X a (e.mem a) (d.mem a) := by
  obtain ⟨_, l, ht, hm⟩ := midway hX hex hr h
  rcases hm a with h1 | h1
  · exact Or.inl h1
  · exact Or.inr (passed_later hex hr ht h1 h').1

/-- A call that cannot fault can be completed from everywhere. -/
theorem finish {jobs : List (Prog Unit)} {Q : Mem → Prop} (h : AllSchedules NoFault w jobs m0 Q) {n : Nat} {d : Cfg} (hr : Reach w ⟨jobs, m0⟩ n d) :
    ∃ k e, Reach w d k e ∧ e.Done := by
  obtain ⟨N, hN⟩ := h.bounded
  have key : ∀ f n d, Reach w ⟨jobs, m0⟩ n d → N - n ≤ f → ∃ k e, Reach w d k e ∧ e.Done := by
    intro f
    induction f with
    | zero =>
      intro n d hr hf
      by_cases hs : d.Stopped
      · refine ⟨0, d, .refl, fun p hp => ?_⟩
        rcases hs p hp with h1 | ⟨f, h1⟩
        · exact h1
        · exact absurd ⟨p, hp, Or.inl ⟨f, h1, fun h => h⟩⟩ (h.safe _ _ hr)
      · obtain ⟨e, he⟩ := h.progress _ _ hr hs
        have := hN _ _ (hr.tail he)
        omega
    | succ f ih =>
      intro n d hr hf
      by_cases hs : d.Stopped
      · refine ⟨0, d, .refl, fun p hp => ?_⟩
        rcases hs p hp with h1 | ⟨f, h1⟩
        · exact h1
        · exact absurd ⟨p, hp, Or.inl ⟨f, h1, fun h => h⟩⟩ (h.safe _ _ hr)
      · obtain ⟨e, he⟩ := h.progress _ _ hr hs
        obtain ⟨k, e', h1, h2⟩ := ih _ _ (hr.tail he) (by omega)
        have : ∀ {k e'}, Reach w e k e' → Reach w d (k + 1) e' := by
          intro k e' h
          induction h with
          | refl => exact .tail .refl he
          | tail _ s ih => exact .tail ih s
        exact ⟨_, e', this h1, h2⟩
  exact key N n d hr (by omega)

end

end Verif

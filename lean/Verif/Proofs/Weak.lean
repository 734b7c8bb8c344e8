import Verif.Model.Weak
import Verif.Proofs.Sched2
import Mathlib.Algebra.BigOperators.Group.Finset.Basic

/-! Data-race-free workers do not notice that stores become visible late. -/

namespace Verif
open Spec

theorem flush_append (l₁ l₂ : List (Nat × Nat)) (m : Mem) : flush (l₁ ++ l₂) m = flush l₂ (flush l₁ m) := by
  induction l₁ generalizing m with
  | nil => rfl
  | cons p l ih => exact ih _

theorem flush_notin {l : List (Nat × Nat)} {a : Nat} (h : ∀ p ∈ l, p.1 ≠ a) (m : Mem) : flush l m a = m a := by
  induction l generalizing m with
  | nil => rfl
  | cons p l ih =>
    show flush l (m.set p.1 p.2) a = m a
    rw [ih (fun q hq => h q (by simp [hq]))]
    unfold Mem.set
    rw [if_neg (fun e => h p (by simp) e.symm)]

theorem flush_congr {a : Nat} (l : List (Nat × Nat)) {m m' : Mem} (h : m a = m' a) : flush l m a = flush l m' a := by
  induction l generalizing m m' with
  | nil => exact h
  | cons p l ih =>
    refine ih ?_
    unfold Mem.set
    split
    · rfl
    · exact h

theorem set_comm (m : Mem) {a a' : Nat} (h : a ≠ a') (b b' : Nat) : (m.set a b).set a' b' = (m.set a' b').set a b := by
  funext x; unfold Mem.set
  by_cases h1 : x = a'
  · have h2 : x ≠ a := fun e => h (e.symm.trans h1)
    simp only [if_pos h1, if_neg h2]
  · simp only [if_neg h1]

/-- A store without an older store to its address can be made first. -/
theorem flush_early {l₁ l₂ : List (Nat × Nat)} {a b : Nat} (h : ∀ p ∈ l₁, p.1 ≠ a) (m : Mem) :
    flush (l₁ ++ (a, b) :: l₂) m = flush (l₁ ++ l₂) (m.set a b) := by
  induction l₁ generalizing m with
  | nil => rfl
  | cons p l ih =>
    show flush (l ++ (a, b) :: l₂) (m.set p.1 p.2) = flush (l ++ l₂) ((m.set a b).set p.1 p.2)
    rw [ih (fun q hq => h q (by simp [hq])), set_comm m (fun e => h p (by simp) e.symm)]

/-- A pending store hides the memory. -/
theorem flush_in {l : List (Nat × Nat)} {a b : Nat} (h : (a, b) ∈ l) (m m' : Mem) : flush l m a = flush l m' a := by
  induction l generalizing m m' with
  | nil => cases h
  | cons p l ih =>
    show flush l (m.set p.1 p.2) a = flush l (m'.set p.1 p.2) a
    rcases List.mem_cons.1 h with h | h
    · refine flush_congr l ?_
      rw [← h]; simp [Mem.set]
    · exact ih h _ _

/-- Number of buffered stores. -/
def buffered (k : Nat) (f : Nat → List (Nat × Nat)) : Nat := (Finset.range k).sum (fun t => (f t).length)

theorem buffered_set {k t : Nat} (ht : t < k) (f : Nat → List (Nat × Nat)) (l : List (Nat × Nat)) :
    buffered k (setBuf f t l) + (f t).length = buffered k f + l.length := by
  unfold buffered
  rw [← Finset.add_sum_erase _ _ (Finset.mem_range.2 ht), ← Finset.add_sum_erase (Finset.range k) (fun t => (f t).length) (Finset.mem_range.2 ht)]
  have e : ((Finset.range k).erase t).sum (fun s => (setBuf f t l s).length) = ((Finset.range k).erase t).sum (fun s => (f s).length) := by
    refine Finset.sum_congr rfl (fun s hs => ?_)
    unfold setBuf
    rw [if_neg (Finset.ne_of_mem_erase hs)]
  rw [e]
  simp only [setBuf, if_true]
  omega

/-- `c` with late stores corresponds to the execution with accesses `l` and memory `M`. -/
structure Sim (w : Win) (jobs : List (Prog Unit)) (m0 : Mem) (n : Nat) (l : List (Nat × Nat)) (M : Mem) (c : WCfg) : Prop where
  tr : Trace w ⟨jobs, m0⟩ l ⟨c.jobs, M⟩
  own : ∀ t p, p ∈ c.bufs t → (t, p.1) ∈ l
  seen : ∀ a, (∀ t, ∀ p ∈ c.bufs t, p.1 ≠ a) → M a = c.mem a
  hid : ∀ t p, p ∈ c.bufs t → M p.1 = flush (c.bufs t) c.mem p.1
  rng : ∀ t, c.jobs.length ≤ t → c.bufs t = []
  cnt : n + buffered c.jobs.length c.bufs ≤ 2 * l.length

theorem trace_has {w : Win} {c d : Cfg} {l : List (Nat × Nat)} (h : Trace w c l d) : ∀ t a, (t, a) ∈ l → w.has a = true := by
  induction h with
  | refl => intro t a h; cases h
  | rd _ _ ha ih =>
    intro t a hm
    rcases List.mem_cons.1 hm with he | hm
    · cases he; exact ha
    · exact ih t a hm
  | wr _ _ ha ih =>
    intro t a hm
    rcases List.mem_cons.1 hm with he | hm
    · cases he; exact ha
    · exact ih t a hm

theorem reach_trace {w : Win} {c d : Cfg} {n : Nat} (h : Reach w c n d) : ∃ l, Trace w c l d := by
  induction h with
  | refl => exact ⟨_, .refl⟩
  | tail _ s ih =>
    obtain ⟨l, h⟩ := ih
    cases s with
    | rd hj ha => exact ⟨_, .rd h hj ha⟩
    | wr hj ha => exact ⟨_, .wr h hj ha⟩

/-- No byte is accessed by two workers. -/
def Exclusive (w : Win) (jobs : List (Prog Unit)) (m0 : Mem) : Prop :=
  ∀ l d s t a, Trace w ⟨jobs, m0⟩ l d → (s, a) ∈ l → (t, a) ∈ l → s = t

section
variable {w : Win} {nt : Nat → Prop} {jobs : List (Prog Unit)} {m0 M : Mem} {n : Nat} {l : List (Nat × Nat)} {c d : WCfg}

theorem Sim.read (h : Sim w jobs m0 n l M c) (hx : ∀ s p, s ≠ t → p ∈ c.bufs s → p.1 ≠ a) : flush (c.bufs t) c.mem a = M a := by
  by_cases hp : ∃ p ∈ c.bufs t, p.1 = a
  · obtain ⟨p, hp, rfl⟩ := hp
    exact (h.hid t p hp).symm
  · have hp : ∀ p ∈ c.bufs t, p.1 ≠ a := fun p hq e => hp ⟨p, hq, e⟩
    rw [flush_notin hp, h.seen a]
    intro s p hq
    by_cases hs : s = t
    · subst hs; exact hp p hq
    · exact hx s p hs hq

theorem Sim.drained (hE : Exclusive w jobs m0) (h : Sim w jobs m0 n l M c) {t a b : Nat} {l₁ l₂ : List (Nat × Nat)} (hb : c.bufs t = l₁ ++ (a, b) :: l₂) (hc : ∀ p ∈ l₁, p.1 ≠ a) :
    Sim w jobs m0 (n + 1) l M ⟨c.jobs, setBuf c.bufs t (l₁ ++ l₂), c.mem.set a b⟩ := by
  have hin : (a, b) ∈ c.bufs t := by rw [hb]; simp
  have ht : t < c.jobs.length := by
    by_contra hlt
    rw [h.rng t (by omega)] at hin; cases hin
  have hother : ∀ s p, s ≠ t → p ∈ c.bufs s → p.1 ≠ a := by
    intro s p hs hp e
    have := hE _ _ s t a h.tr (by rw [← e]; exact h.own s p hp) (h.own t _ hin)
    exact hs this
  have hsub : ∀ p, p ∈ l₁ ++ l₂ → p ∈ c.bufs t := by intro p hp; rw [hb]; simp only [List.mem_append, List.mem_cons] at hp ⊢; tauto
  refine ⟨h.tr, ?_, ?_, ?_, ?_, ?_⟩
  · intro s p hp
    simp only [setBuf] at hp
    split at hp
    · rename_i e; subst e; exact h.own s p (hsub p hp)
    · exact h.own s p hp
  · intro x hx
    by_cases hxa : x = a
    · subst hxa
      have hl : ∀ p ∈ l₁ ++ l₂, p.1 ≠ x := by intro p hp; exact hx t p (by simp only [setBuf, if_true]; exact hp)
      rw [h.hid t (x, b) hin]
      simp only
      rw [hb, flush_early hc, flush_notin hl]
    · rw [h.seen x]
      · simp [Mem.set, hxa]
      · intro s p hp e
        by_cases hs : s = t
        · subst hs
          rw [hb] at hp
          rcases List.mem_append.1 hp with hp | hp
          · exact hx s p (by simp only [setBuf, if_true]; simp [hp]) e
          · rcases List.mem_cons.1 hp with rfl | hp
            · exact hxa e.symm
            · exact hx s p (by simp only [setBuf, if_true]; simp [hp]) e
        · exact hx s p (by simp only [setBuf, if_neg hs]; exact hp) e
  · intro s p hp
    simp only [setBuf] at hp ⊢
    split at hp
    · rename_i e; subst e
      rw [if_pos rfl, h.hid s p (hsub p hp), hb, flush_early hc]
    · rename_i e
      rw [if_neg e, h.hid s p hp]
      refine flush_congr _ ?_
      simp [Mem.set, hother s p e hp]
  · intro s hs
    have hs : c.jobs.length ≤ s := hs
    simp only [setBuf]
    rw [if_neg (by omega)]; exact h.rng s hs
  · have := buffered_set ht c.bufs (l₁ ++ l₂)
    have hl : (c.bufs t).length = (l₁ ++ l₂).length + 1 := by rw [hb]; simp; omega
    have := h.cnt
    show n + 1 + buffered c.jobs.length (setBuf c.bufs t (l₁ ++ l₂)) ≤ _
    omega

theorem Sim.rd (hE : Exclusive w jobs m0) (h : Sim w jobs m0 n l M c) {t a : Nat} {k : Nat → Prog Unit} (hj : c.jobs[t]? = some (.rd a k)) (ha : w.has a = true) :
    flush (c.bufs t) c.mem a = M a ∧ Sim w jobs m0 (n + 1) ((t, a) :: l) M ⟨c.jobs.set t (k (flush (c.bufs t) c.mem a)), c.bufs, c.mem⟩ := by
  have htr : Trace w ⟨jobs, m0⟩ ((t, a) :: l) ⟨c.jobs.set t (k (M a)), M⟩ := .rd h.tr hj ha
  have e : flush (c.bufs t) c.mem a = M a := h.read (fun s p hs hp ea => hs (hE _ _ s t a htr (by rw [← ea]; simp [h.own s p hp]) (by simp)))
  refine ⟨e, ?_, fun s p hp => by simp [h.own s p hp], h.seen, h.hid, fun s hs => h.rng s (by simpa using hs), ?_⟩
  · rw [e]; exact htr
  · have := h.cnt
    simp only [List.length_set, List.length_cons]; omega

theorem Sim.wr (hE : Exclusive w jobs m0) (h : Sim w jobs m0 n l M c) {t a b : Nat} {k : Prog Unit} (hj : c.jobs[t]? = some (.wr a b k)) (ha : w.has a = true) :
    Sim w jobs m0 (n + 1) ((t, a) :: l) (M.set a b) ⟨c.jobs.set t k, setBuf c.bufs t (c.bufs t ++ [(a, b)]), c.mem⟩ := by
  have ht := lt_of_getElem? hj
  have htr : Trace w ⟨jobs, m0⟩ ((t, a) :: l) ⟨c.jobs.set t k, M.set a b⟩ := .wr h.tr hj ha
  have hother : ∀ s p, s ≠ t → p ∈ c.bufs s → p.1 ≠ a := fun s p hs hp ea =>
    hs (hE _ _ s t a htr (by rw [← ea]; simp [h.own s p hp]) (by simp))
  refine ⟨htr, ?_, ?_, ?_, ?_, ?_⟩
  · intro s p hp
    simp only [setBuf] at hp
    split at hp
    · rename_i e; subst e
      rcases List.mem_append.1 hp with hp | hp
      · simp [h.own s p hp]
      · simp only [List.mem_singleton] at hp; subst hp; simp
    · simp [h.own s p hp]
  · intro x hx
    have hxa : x ≠ a := by
      rintro rfl
      exact hx t (x, b) (by simp [setBuf]) rfl
    simp only [Mem.set, if_neg hxa]
    refine h.seen x (fun s p hp => hx s p ?_)
    simp only [setBuf]
    split
    · rename_i e; subst e; simp [hp]
    · exact hp
  · intro s p hp
    simp only [setBuf] at hp ⊢
    split at hp
    · rename_i e; subst e
      rw [if_pos rfl, flush_append]
      show M.set a b p.1 = (flush (c.bufs s) c.mem).set a b p.1
      unfold Mem.set
      split
      · rfl
      · rename_i hne
        rcases List.mem_append.1 hp with hp | hp
        · exact h.hid s p hp
        · simp only [List.mem_singleton] at hp; subst hp; exact absurd rfl hne
    · rename_i e
      rw [if_neg e]
      simp only [Mem.set, if_neg (hother s p e hp)]
      exact h.hid s p hp
  · intro s hs
    have hs : c.jobs.length ≤ s := by simpa using hs
    simp only [setBuf]
    rw [if_neg (by omega)]; exact h.rng s hs
  · have := buffered_set ht c.bufs (c.bufs t ++ [(a, b)])
    have hl : (c.bufs t ++ [(a, b)]).length = (c.bufs t).length + 1 := by simp
    have := h.cnt
    simp only [List.length_set, List.length_cons]; omega

theorem Sim.start : Sim w jobs m0 0 [] m0 (.start jobs m0) :=
  ⟨.refl, fun _ _ h => (by cases h), fun _ _ => rfl, fun _ _ h => (by cases h), fun _ _ => rfl, by simp [buffered, WCfg.start]⟩

theorem sim_reach (hE : Exclusive w jobs m0) (h : WReach w nt (.start jobs m0) n c) : ∃ l M, Sim w jobs m0 n l M c := by
  induction h with
  | refl => exact ⟨_, _, Sim.start⟩
  | tail _ s ih =>
    obtain ⟨l, M, h⟩ := ih
    cases s with
    | rd hj ha => exact ⟨_, _, (h.rd hE hj ha).2⟩
    | wr hj ha => exact ⟨_, _, h.wr hE hj ha⟩
    | drain hb hc _ => exact ⟨_, _, h.drained hE hb hc⟩

/-- The executions with late stores, and what the caller sees of each byte. -/
theorem weak_bytes {E : Fault → Prop} {Q : Mem → Prop} {r : Report} (hE : Exclusive w jobs m0) (h : AllSchedules E w jobs m0 Q) :
    AllWeak E w nt r jobs m0 (fun m => ∃ m', Q m' ∧ ∀ a, (r = .fence ∨ w.has a = false ∨ ¬ nt a) → m a = m' a) := by
  refine ⟨?_, ?_, ?_, ?_⟩
  · intro n c hc hf
    obtain ⟨l, M, hs⟩ := sim_reach hE hc
    refine h.safe _ _ (trace_reach hs.tr) ?_
    exact hf
  · intro n c hc hq
    obtain ⟨l, M, hs⟩ := sim_reach hE hc
    by_cases hst : ∀ p ∈ c.jobs, p = .ret () ∨ ∃ f, p = .fail f
    · have : ∃ t, t < c.jobs.length ∧ c.bufs t ≠ [] := by
        by_contra hne
        refine hq ⟨hst, fun t ht => ?_⟩
        by_contra h0
        exact hne ⟨t, ht, h0⟩
      obtain ⟨t, _, h0⟩ := this
      cases hb : c.bufs t with
      | nil => exact absurd hb h0
      | cons p q => exact ⟨_, .drain (l₁ := []) (a := p.1) (b := p.2) (l₂ := q) (by rw [hb]; rfl) (fun _ h => by cases h) (fun _ _ h => by cases h)⟩
    · obtain ⟨e, he⟩ := h.progress _ _ (trace_reach hs.tr) hst
      cases he with
      | rd hj ha => exact ⟨_, .rd hj ha⟩
      | wr hj ha => exact ⟨_, .wr hj ha⟩
  · obtain ⟨N, hN⟩ := h.bounded
    refine ⟨2 * N, fun n c hc => ?_⟩
    obtain ⟨l, M, hs⟩ := sim_reach hE hc
    have := hN _ _ (trace_reach hs.tr)
    have := hs.cnt
    omega
  · intro n c hc hj
    obtain ⟨l, M, hs⟩ := sim_reach hE hc
    refine ⟨M, h.post _ _ (trace_reach hs.tr) hj.1, fun a ha => (hs.seen a ?_).symm⟩
    rintro t p hp rfl
    have ht : t < c.jobs.length := by
      by_contra hlt
      rw [hs.rng t (by omega)] at hp; cases hp
    have := hj.2 t ht p hp
    cases r with
    | fence => exact this
    | flag =>
      rcases ha with ha | ha | ha
      · cases ha
      · rw [trace_has hs.tr _ _ (hs.own t p hp)] at ha; cases ha
      · exact ha this

/-- With a fence, or without non-temporal stores, the caller sees everything. -/
theorem weak_main {E : Fault → Prop} {Q : Mem → Prop} {r : Report} (hE : Exclusive w jobs m0) (h : AllSchedules E w jobs m0 Q)
    (hr : r = .fence ∨ ∀ a, w.has a = true → ¬ nt a) : AllWeak E w nt r jobs m0 Q := by
  have g := weak_bytes (nt := nt) (r := r) hE h
  refine ⟨g.safe, g.progress, g.bounded, fun n c hc hj => ?_⟩
  obtain ⟨m', hQ, e⟩ := g.post n c hc hj
  have : c.mem = m' := by
    funext a
    refine e a ?_
    rcases hr with hr | hr
    · exact Or.inl hr
    · cases hw : w.has a with
      | false => exact Or.inr (Or.inl rfl)
      | true => exact Or.inr (Or.inr (hr a hw))
  rw [this]; exact hQ

/-- Every execution is possible with all stores still buffered at its end. -/
theorem lazy (hE : Exclusive w jobs m0) {e : Cfg} (h : Trace w ⟨jobs, m0⟩ l e) :
    ∃ n c, WReach w nt (.start jobs m0) n c ∧ Sim w jobs m0 n l e.mem c ∧ c.jobs = e.jobs ∧ c.mem = m0 := by
  induction h with
  | refl => exact ⟨_, _, .refl, Sim.start, rfl, rfl⟩
  | @rd l d t a k h hj ha ih =>
    obtain ⟨n, c, hc, hs, ej, em⟩ := ih
    rw [← ej] at hj
    obtain ⟨e1, hs'⟩ := hs.rd hE hj ha
    exact ⟨_, _, hc.tail (.rd hj ha), hs', by simp only [e1, ej], em⟩
  | @wr l d t a b k h hj ha ih =>
    obtain ⟨n, c, hc, hs, ej, em⟩ := ih
    rw [← ej] at hj
    exact ⟨_, _, hc.tail (.wr hj ha), hs.wr hE hj ha, by simp only [ej], em⟩

theorem first_of {p : Nat × Nat → Prop} : ∀ {l : List (Nat × Nat)}, (∃ q ∈ l, p q) → ∃ l₁ q l₂, l = l₁ ++ q :: l₂ ∧ p q ∧ ∀ q' ∈ l₁, ¬ p q' := by
  intro l
  induction l with
  | nil => rintro ⟨q, h, _⟩; cases h
  | cons x l ih =>
    rintro ⟨q, hq, hp⟩
    by_cases hx : p x
    · exact ⟨[], x, l, rfl, hx, fun _ h => by cases h⟩
    · rcases List.mem_cons.1 hq with rfl | hq
      · exact absurd hp hx
      · obtain ⟨l₁, q', l₂, e, h1, h2⟩ := ih ⟨q, hq, hp⟩
        refine ⟨x :: l₁, q', l₂, by rw [e]; rfl, h1, fun y hy => ?_⟩
        rcases List.mem_cons.1 hy with rfl | hy
        · exact hx
        · exact h2 y hy

/-- From there, all ordinary stores and no other can become visible. -/
theorem lazy_flag (hE : Exclusive w jobs m0) : ∀ (k : Nat) {n : Nat} {c : WCfg}, 2 * l.length - n ≤ k → WReach w nt (.start jobs m0) n c → Sim w jobs m0 n l M c →
    (∀ a, nt a → c.mem a = m0 a) → ∃ n c', WReach w nt (.start jobs m0) n c' ∧ Sim w jobs m0 n l M c' ∧ c'.jobs = c.jobs ∧
      (∀ t q, q ∈ c'.bufs t → nt q.1) ∧ ∀ a, nt a → c'.mem a = m0 a := by
  intro k
  induction k with
  | zero =>
    intro n c hk hc hs hm
    refine ⟨n, c, hc, hs, rfl, fun t q hq => ?_, hm⟩
    exfalso
    have hcnt := hs.cnt
    have ht : t < c.jobs.length := by
      by_contra hlt
      rw [hs.rng t (by omega)] at hq; cases hq
    have h0 : buffered c.jobs.length c.bufs = 0 := by omega
    have := Finset.sum_eq_zero_iff.1 h0 t (Finset.mem_range.2 ht)
    rw [List.length_eq_zero_iff.1 this] at hq; cases hq
  | succ k ih =>
    intro n c hk hc hs hm
    by_cases hall : ∀ t q, q ∈ c.bufs t → nt q.1
    · exact ⟨n, c, hc, hs, rfl, hall, hm⟩
    · push Not at hall
      obtain ⟨t, q, hq, hn⟩ := hall
      obtain ⟨l₁, p, l₂, e, hp, hl⟩ := first_of (p := fun q => ¬ nt q.1) ⟨q, hq, hn⟩
      have hl' : ∀ q ∈ l₁, nt q.1 := fun q hq => not_not.1 (hl q hq)
      have hcoh : ∀ q ∈ l₁, q.1 ≠ p.1 := fun q hq he => hp (by rw [← he]; exact hl' q hq)
      have hb : c.bufs t = l₁ ++ (p.1, p.2) :: l₂ := e
      have := ih (n := n + 1) (by omega) (hc.tail (.drain hb hcoh (fun _ => hl'))) (hs.drained hE hb hcoh) (by
        intro a ha
        have : a ≠ p.1 := fun he => hp (by rw [← he]; exact ha)
        simp only [Mem.set, if_neg this]
        exact hm a ha)
      exact this

/-- With reports by ordinary stores, every execution can end with none of the non-temporal stores visible. -/
theorem stale {e : Cfg} (hE : Exclusive w jobs m0) (h : Reach w ⟨jobs, m0⟩ n e) (hd : e.Done) :
    ∃ n c, WReach w nt (.start jobs m0) n c ∧ c.Joined .flag nt ∧ (∀ a, nt a → c.mem a = m0 a) ∧ ∀ a, ¬ nt a → c.mem a = e.mem a := by
  obtain ⟨l, ht⟩ := reach_trace h
  obtain ⟨n, c, hc, hs, ej, em⟩ := lazy (nt := nt) hE ht
  obtain ⟨n', c', hc', hs', ej', hb, hm⟩ := lazy_flag hE _ (le_refl _) hc hs (fun a _ => by rw [em])
  refine ⟨n', c', hc', ⟨fun p hp => hd p (by rw [← ej, ← ej']; exact hp), fun t _ q hq => hb t q hq⟩, hm, fun a ha => ?_⟩
  exact (hs'.seen a (fun t q hq he => ha (by rw [← he]; exact hb t q hq))).symm

end
end Verif

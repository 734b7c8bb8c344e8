import Verif.Spec

/-! # Several calls at the same time

Composition of calls confined to disjoint sets of addresses. -/

namespace Verif

/-- One step, with accesses allowed in `S`. -/
inductive StepP (S : Nat → Prop) : Cfg → Cfg → Prop
  | rd {c : Cfg} {t a : Nat} {k : Nat → Prog Unit} (h : c.jobs[t]? = some (.rd a k)) (ha : S a) :
      StepP S c ⟨c.jobs.set t (k (c.mem a)), c.mem⟩
  | wr {c : Cfg} {t a b : Nat} {k : Prog Unit} (h : c.jobs[t]? = some (.wr a b k)) (ha : S a) :
      StepP S c ⟨c.jobs.set t k, c.mem.set a b⟩

inductive ReachP (S : Nat → Prop) (c : Cfg) : Nat → Cfg → Prop
  | refl : ReachP S c 0 c
  | tail {n : Nat} {d e : Cfg} (h : ReachP S c n d) (s : StepP S d e) : ReachP S c (n + 1) e

def FaultyP (E : Fault → Prop) (S : Nat → Prop) (c : Cfg) : Prop :=
  ∃ p ∈ c.jobs, (∃ f, p = .fail f ∧ ¬ E f) ∨ ∃ a, p.pending = some a ∧ ¬ S a

structure AllP (E : Fault → Prop) (S : Nat → Prop) (jobs : List (Prog Unit)) (m0 : Mem) (Q : Mem → Prop) : Prop where
  safe : ∀ n c, ReachP S ⟨jobs, m0⟩ n c → ¬ FaultyP E S c
  raceFree : ∀ n c, ReachP S ⟨jobs, m0⟩ n c → ¬ c.Race
  progress : ∀ n c, ReachP S ⟨jobs, m0⟩ n c → ¬ c.Stopped → ∃ d, StepP S c d
  bounded : ∃ N, ∀ n c, ReachP S ⟨jobs, m0⟩ n c → n ≤ N
  post : ∀ n c, ReachP S ⟨jobs, m0⟩ n c → c.Done → Q c.mem

section
variable {E : Fault → Prop} {m0 : Mem}

theorem step_iff {w : Win} {c d : Cfg} : Step w c d ↔ StepP (fun a => w.has a = true) c d := by
  constructor
  · rintro (⟨h, ha⟩ | ⟨h, ha⟩)
    · exact .rd h ha
    · exact .wr h ha
  · rintro (⟨h, ha⟩ | ⟨h, ha⟩)
    · exact .rd h ha
    · exact .wr h ha

theorem reach_iff {w : Win} {c d : Cfg} {n : Nat} : Reach w c n d ↔ ReachP (fun a => w.has a = true) c n d := by
  constructor
  · intro h
    induction h with
    | refl => exact .refl
    | tail _ s ih => exact .tail ih (step_iff.mp s)
  · intro h
    induction h with
    | refl => exact .refl
    | tail _ s ih => exact .tail ih (step_iff.mpr s)

theorem faulty_iff {w : Win} {c : Cfg} : c.Faulty E w ↔ FaultyP E (fun a => w.has a = true) c := by
  unfold Cfg.Faulty FaultyP
  simp only [Bool.not_eq_true]

theorem all_iff {w : Win} {jobs : List (Prog Unit)} {Q : Mem → Prop} :
    AllSchedules E w jobs m0 Q ↔ AllP E (fun a => w.has a = true) jobs m0 Q := by
  constructor
  · intro h
    refine ⟨fun n c hr => ?_, fun n c hr => h.raceFree n c (reach_iff.mpr hr), fun n c hr hs => ?_, ?_, fun n c hr => h.post n c (reach_iff.mpr hr)⟩
    · rw [← faulty_iff]; exact h.safe n c (reach_iff.mpr hr)
    · obtain ⟨d, hd⟩ := h.progress n c (reach_iff.mpr hr) hs
      exact ⟨d, step_iff.mp hd⟩
    · obtain ⟨N, hN⟩ := h.bounded
      exact ⟨N, fun n c hr => hN n c (reach_iff.mpr hr)⟩
  · intro h
    refine ⟨fun n c hr => ?_, fun n c hr => h.raceFree n c (reach_iff.mp hr), fun n c hr hs => ?_, ?_, fun n c hr => h.post n c (reach_iff.mp hr)⟩
    · rw [faulty_iff]; exact h.safe n c (reach_iff.mp hr)
    · obtain ⟨d, hd⟩ := h.progress n c (reach_iff.mp hr) hs
      exact ⟨d, step_iff.mpr hd⟩
    · obtain ⟨N, hN⟩ := h.bounded
      exact ⟨N, fun n c hr => hN n c (reach_iff.mp hr)⟩

/-- A worker about to access `a` may do so in a safe configuration. -/
theorem pending_in {S : Nat → Prop} {c : Cfg} {t a : Nat} {p : Prog Unit} (hs : ¬ FaultyP E S c) (h : c.jobs[t]? = some p)
    (hp : p.pending = some a) : S a := by
  by_contra ha
  exact hs ⟨p, List.mem_of_getElem? h, Or.inr ⟨a, hp, ha⟩⟩

theorem AllP.mono {S S' : Nat → Prop} {jobs : List (Prog Unit)} {Q Q' : Mem → Prop} (h : AllP E S jobs m0 Q) (hS : ∀ a, S a → S' a)
    (hQ : ∀ m, Q m → Q' m) : AllP E S' jobs m0 Q' := by
  have hr : ∀ n c, ReachP S' ⟨jobs, m0⟩ n c → ReachP S ⟨jobs, m0⟩ n c := by
    intro n c hr
    induction hr with
    | refl => exact .refl
    | tail _ s ih =>
      refine .tail ih ?_
      rcases s with ⟨h1, _⟩ | ⟨h1, _⟩
      · exact .rd h1 (pending_in (h.safe _ _ ih) h1 rfl)
      · exact .wr h1 (pending_in (h.safe _ _ ih) h1 rfl)
  refine ⟨fun n c h1 => ?_, fun n c h1 => h.raceFree n c (hr n c h1), fun n c h1 hs => ?_, ?_, fun n c h1 hd => hQ _ (h.post n c (hr n c h1) hd)⟩
  · rintro ⟨p, hp, ⟨f, rfl, hf⟩ | ⟨a, hp', ha⟩⟩
    · exact h.safe n c (hr n c h1) ⟨_, hp, Or.inl ⟨f, rfl, hf⟩⟩
    · obtain ⟨t, ht⟩ := List.getElem?_of_mem hp
      exact ha (hS a (pending_in (h.safe n c (hr n c h1)) ht hp'))
  · obtain ⟨d, hd⟩ := h.progress n c (hr n c h1) hs
    refine ⟨d, ?_⟩
    rcases hd with ⟨h2, h3⟩ | ⟨h2, h3⟩
    · exact .rd h2 (hS _ h3)
    · exact .wr h2 (hS _ h3)
  · obtain ⟨N, hN⟩ := h.bounded
    exact ⟨N, fun n c h1 => hN n c (hr n c h1)⟩

/-- A state of the joint execution and the states of the two parts. -/
structure Proj (S1 S2 : Nat → Prop) (m0 : Mem) (c c1 c2 : Cfg) : Prop where
  jobs : c.jobs = c1.jobs ++ c2.jobs
  mem1 : ∀ a, S1 a → c.mem a = c1.mem a
  mem2 : ∀ a, S2 a → c.mem a = c2.mem a
  rest : ∀ a, ¬ S1 a → ¬ S2 a → c.mem a = m0 a

theorem set_mem {m m' : Mem} {S : Nat → Prop} (h : ∀ a, S a → m a = m' a) (x b : Nat) : ∀ a, S a → (m.set x b) a = (m'.set x b) a := by
  intro a ha
  unfold Mem.set
  split
  · rfl
  · exact h a ha

theorem set_mem_out {m m' : Mem} {S : Nat → Prop} (h : ∀ a, S a → m a = m' a) {x : Nat} (hx : ¬ S x) (b : Nat) :
    ∀ a, S a → (m.set x b) a = m' a := by
  intro a ha
  unfold Mem.set
  split
  · next he => exact absurd (he ▸ ha) hx
  · exact h a ha

theorem Proj.step {S1 S2 S : Nat → Prop} {c c1 c2 d : Cfg} (hp : Proj S1 S2 m0 c c1 c2) (hdis : ∀ a, S1 a → ¬ S2 a)
    (h1 : ¬ FaultyP E S1 c1) (h2 : ¬ FaultyP E S2 c2) (hs : StepP S c d) :
    (∃ d1, StepP S1 c1 d1 ∧ Proj S1 S2 m0 d d1 c2) ∨ ∃ d2, StepP S2 c2 d2 ∧ Proj S1 S2 m0 d c1 d2 := by
  have hget : ∀ {t : Nat} {p : Prog Unit}, c.jobs[t]? = some p →
      (t < c1.jobs.length ∧ c1.jobs[t]? = some p) ∨ (c1.jobs.length ≤ t ∧ c2.jobs[t - c1.jobs.length]? = some p) := by
    intro t p h
    rw [hp.jobs] at h
    by_cases ht : t < c1.jobs.length
    · rw [List.getElem?_append_left ht] at h; exact Or.inl ⟨ht, h⟩
    · rw [List.getElem?_append_right (by omega)] at h; exact Or.inr ⟨by omega, h⟩
  have hset1 : ∀ {t : Nat} (p : Prog Unit), t < c1.jobs.length → c.jobs.set t p = c1.jobs.set t p ++ c2.jobs := by
    intro t p ht; rw [hp.jobs, List.set_append_left _ _ ht]
  have hset2 : ∀ {t : Nat} (p : Prog Unit), c1.jobs.length ≤ t → c.jobs.set t p = c1.jobs ++ c2.jobs.set (t - c1.jobs.length) p := by
    intro t p ht; rw [hp.jobs, List.set_append_right _ _ ht]
  rcases hs with ⟨h, hSa⟩ | ⟨h, hSa⟩
  · rename_i t a k
    rcases hget h with ⟨ht, h⟩ | ⟨ht, h⟩
    · have ha := pending_in h1 h rfl
      refine Or.inl ⟨_, .rd h ha, ⟨?_, hp.mem1, hp.mem2, hp.rest⟩⟩
      simp only [hset1 _ ht, hp.mem1 a ha]
    · have ha := pending_in h2 h rfl
      refine Or.inr ⟨_, .rd h ha, ⟨?_, hp.mem1, hp.mem2, hp.rest⟩⟩
      simp only [hset2 _ ht, hp.mem2 a ha]
  · rename_i t a b k
    rcases hget h with ⟨ht, h⟩ | ⟨ht, h⟩
    · have ha := pending_in h1 h rfl
      refine Or.inl ⟨_, .wr h ha, ⟨hset1 _ ht, set_mem hp.mem1 a b, set_mem_out hp.mem2 (hdis a ha) b, fun x hx hx2 => ?_⟩⟩
      have : x ≠ a := fun e => hx (e ▸ ha)
      simp only [Mem.set, this, if_false]
      exact hp.rest x hx hx2
    · have ha := pending_in h2 h rfl
      refine Or.inr ⟨_, .wr h ha, ⟨hset2 _ ht, set_mem_out hp.mem1 (fun hx => hdis a hx ha) b, set_mem hp.mem2 a b, fun x hx hx2 => ?_⟩⟩
      have : x ≠ a := fun e => hx2 (e ▸ ha)
      simp only [Mem.set, this, if_false]
      exact hp.rest x hx hx2

theorem reach_proj {S1 S2 S : Nat → Prop} {js1 js2 : List (Prog Unit)} {Q1 Q2 : Mem → Prop} (hdis : ∀ a, S1 a → ¬ S2 a)
    (h1 : AllP E S1 js1 m0 Q1) (h2 : AllP E S2 js2 m0 Q2) {n : Nat} {c : Cfg} (hr : ReachP S ⟨js1 ++ js2, m0⟩ n c) :
    ∃ n1 n2 c1 c2, n = n1 + n2 ∧ ReachP S1 ⟨js1, m0⟩ n1 c1 ∧ ReachP S2 ⟨js2, m0⟩ n2 c2 ∧ Proj S1 S2 m0 c c1 c2 := by
  induction hr with
  | refl => exact ⟨0, 0, _, _, rfl, .refl, .refl, ⟨rfl, fun _ _ => rfl, fun _ _ => rfl, fun _ _ _ => rfl⟩⟩
  | tail _ s ih =>
    obtain ⟨n1, n2, c1, c2, rfl, r1, r2, hp⟩ := ih
    rcases hp.step hdis (h1.safe _ _ r1) (h2.safe _ _ r2) s with ⟨d1, s1, hp'⟩ | ⟨d2, s2, hp'⟩
    · exact ⟨n1 + 1, n2, d1, c2, by omega, .tail r1 s1, r2, hp'⟩
    · exact ⟨n1, n2 + 1, c1, d2, by omega, r1, .tail r2 s2, hp'⟩

/-- Two groups of workers confined to disjoint sets of addresses do not influence each other. -/
theorem AllP.append {S1 S2 : Nat → Prop} {js1 js2 : List (Prog Unit)} {Q1 Q2 : Mem → Prop} (hdis : ∀ a, S1 a → ¬ S2 a)
    (h1 : AllP E S1 js1 m0 Q1) (h2 : AllP E S2 js2 m0 Q2) :
    AllP E (fun a => S1 a ∨ S2 a) (js1 ++ js2) m0 (fun m =>
      (∃ m1, Q1 m1 ∧ ∀ a, S1 a → m a = m1 a) ∧ (∃ m2, Q2 m2 ∧ ∀ a, S2 a → m a = m2 a) ∧ ∀ a, ¬ S1 a → ¬ S2 a → m a = m0 a) := by
  refine ⟨fun n c hr => ?_, fun n c hr => ?_, fun n c hr hs => ?_, ?_, fun n c hr hd => ?_⟩
  · obtain ⟨n1, n2, c1, c2, rfl, r1, r2, hp⟩ := reach_proj hdis h1 h2 hr
    rintro ⟨p, hm, hf⟩
    rw [hp.jobs, List.mem_append] at hm
    rcases hm with hm | hm
    · refine h1.safe _ _ r1 ⟨p, hm, hf.imp_right ?_⟩
      rintro ⟨a, h, ha⟩
      exact ⟨a, h, fun h => ha (Or.inl h)⟩
    · refine h2.safe _ _ r2 ⟨p, hm, hf.imp_right ?_⟩
      rintro ⟨a, h, ha⟩
      exact ⟨a, h, fun h => ha (Or.inr h)⟩
  · obtain ⟨n1, n2, c1, c2, rfl, r1, r2, hp⟩ := reach_proj hdis h1 h2 hr
    rintro ⟨s, t, a, p, q, hst, hs, ht, hpa, hqa⟩
    rw [hp.jobs] at hs ht
    have l1 : ∀ {t : Nat} {p : Prog Unit}, (c1.jobs ++ c2.jobs)[t]? = some p → p.pending = some a →
        (t < c1.jobs.length ∧ c1.jobs[t]? = some p ∧ S1 a) ∨ (c1.jobs.length ≤ t ∧ c2.jobs[t - c1.jobs.length]? = some p ∧ S2 a) := by
      intro t p h ha
      by_cases hlt : t < c1.jobs.length
      · rw [List.getElem?_append_left hlt] at h
        exact Or.inl ⟨hlt, h, pending_in (h1.safe _ _ r1) h ha⟩
      · rw [List.getElem?_append_right (by omega)] at h
        exact Or.inr ⟨by omega, h, pending_in (h2.safe _ _ r2) h ha⟩
    rcases l1 hs hpa with ⟨hs1, hs, ha⟩ | ⟨hs1, hs, ha⟩ <;> rcases l1 ht hqa with ⟨ht1, ht, hb⟩ | ⟨ht1, ht, hb⟩
    · exact h1.raceFree _ _ r1 ⟨s, t, a, p, q, hst, hs, ht, hpa, hqa⟩
    · exact hdis a ha hb
    · exact hdis a hb ha
    · exact h2.raceFree _ _ r2 ⟨_, _, a, p, q, by omega, hs, ht, hpa, hqa⟩
  · obtain ⟨n1, n2, c1, c2, rfl, r1, r2, hp⟩ := reach_proj hdis h1 h2 hr
    have : ¬ c1.Stopped ∨ ¬ c2.Stopped := by
      by_contra hc
      rw [not_or, not_not, not_not] at hc
      refine hs (fun p hm => ?_)
      rw [hp.jobs, List.mem_append] at hm
      rcases hm with hm | hm
      · exact hc.1 p hm
      · exact hc.2 p hm
    rcases this with h | h
    · obtain ⟨d, hd⟩ := h1.progress _ _ r1 h
      rcases hd with ⟨hj, ha⟩ | ⟨hj, ha⟩
      · have hj := (show c.jobs[_]? = _ by rw [hp.jobs, List.getElem?_append_left (List.getElem?_eq_some_iff.mp hj).1]).trans hj
        exact ⟨_, .rd hj (Or.inl ha)⟩
      · have hj := (show c.jobs[_]? = _ by rw [hp.jobs, List.getElem?_append_left (List.getElem?_eq_some_iff.mp hj).1]).trans hj
        exact ⟨_, .wr hj (Or.inl ha)⟩
    · obtain ⟨d, hd⟩ := h2.progress _ _ r2 h
      rcases hd with ⟨hj, ha⟩ | ⟨hj, ha⟩
      · rename_i t a k
        have hj : c.jobs[c1.jobs.length + t]? = some (.rd a k) := by
          rw [hp.jobs, List.getElem?_append_right (by omega), Nat.add_sub_cancel_left]; exact hj
        exact ⟨_, .rd hj (Or.inr ha)⟩
      · rename_i t a b k
        have hj : c.jobs[c1.jobs.length + t]? = some (.wr a b k) := by
          rw [hp.jobs, List.getElem?_append_right (by omega), Nat.add_sub_cancel_left]; exact hj
        exact ⟨_, .wr hj (Or.inr ha)⟩
  · obtain ⟨N1, hN1⟩ := h1.bounded
    obtain ⟨N2, hN2⟩ := h2.bounded
    refine ⟨N1 + N2, fun n c hr => ?_⟩
    obtain ⟨n1, n2, c1, c2, rfl, r1, r2, hp⟩ := reach_proj hdis h1 h2 hr
    have := hN1 _ _ r1
    have := hN2 _ _ r2
    omega
  · obtain ⟨n1, n2, c1, c2, rfl, r1, r2, hp⟩ := reach_proj hdis h1 h2 hr
    have d1 : c1.Done := fun p hm => hd p (by rw [hp.jobs]; exact List.mem_append_left _ hm)
    have d2 : c2.Done := fun p hm => hd p (by rw [hp.jobs]; exact List.mem_append_right _ hm)
    exact ⟨⟨_, h1.post _ _ r1 d1, hp.mem1⟩, ⟨_, h2.post _ _ r2 d2, hp.mem2⟩, hp.rest⟩

theorem AllP.nil : AllP E (fun _ => False) [] m0 (fun m => m = m0) := by
  have hr : ∀ n c, ReachP (fun _ => False) ⟨[], m0⟩ n c → c = ⟨[], m0⟩ ∧ n = 0 := by
    intro n c h
    induction h with
    | refl => exact ⟨rfl, rfl⟩
    | tail _ s ih => rcases s with ⟨_, h⟩ | ⟨_, h⟩ <;> exact absurd h id
  refine ⟨fun n c h => ?_, fun n c h => ?_, fun n c h hs => ?_, ⟨0, fun n c h => by rw [(hr n c h).2]⟩, fun n c h _ => by rw [(hr n c h).1]⟩
  · rw [(hr n c h).1]; rintro ⟨p, hp, _⟩; simp at hp
  · rw [(hr n c h).1]; rintro ⟨s, t, a, p, q, _, hp, _⟩; simp at hp
  · rw [(hr n c h).1] at hs; exact absurd (fun p hp => by simp at hp) hs

/-- Any number of groups of workers confined to disjoint windows. -/
theorem AllP.flatten (gs : List (List (Prog Unit) × Win × (Mem → Prop)))
    (h : ∀ g ∈ gs, AllSchedules E g.2.1 g.1 m0 g.2.2)
    (hd : gs.Pairwise (fun g g' => ∀ a, g.2.1.has a = true → g'.2.1.has a = false)) :
    AllP E (fun a => ∃ g ∈ gs, g.2.1.has a = true) (gs.flatMap (fun g => g.1)) m0 (fun m =>
      (∀ g ∈ gs, ∃ m', g.2.2 m' ∧ ∀ a, g.2.1.has a = true → m a = m' a) ∧ ∀ a, (∀ g ∈ gs, g.2.1.has a = false) → m a = m0 a) := by
  induction gs with
  | nil =>
    refine AllP.nil.mono (fun a h => h.elim) (fun m hm => ⟨fun g hg => by simp at hg, fun a _ => by rw [hm]⟩)
  | cons g gs ih =>
    have hg := all_iff.mp (h g (by simp))
    have hgs := ih (fun g' hg' => h g' (by simp [hg'])) (List.pairwise_cons.mp hd).2
    have hd1 := (List.pairwise_cons.mp hd).1
    refine (AllP.append ?_ hg hgs).mono ?_ ?_
    · rintro a ha ⟨g', hg', ha'⟩
      have := hd1 g' hg' a ha
      rw [this] at ha'; cases ha'
    · rintro a (ha | ⟨g', hg', ha⟩)
      · exact ⟨g, by simp, ha⟩
      · exact ⟨g', by simp [hg'], ha⟩
    · rintro m ⟨h1, ⟨m2, ⟨h2, h3⟩, h4⟩, h5⟩
      refine ⟨fun g' hg' => ?_, fun a ha => ?_⟩
      · rcases List.mem_cons.mp hg' with rfl | hg'
        · exact h1
        · obtain ⟨m', hm', hag⟩ := h2 g' hg'
          exact ⟨m', hm', fun a ha => by rw [h4 a ⟨g', hg', ha⟩, hag a ha]⟩
      · refine h5 a ?_ ?_
        · have := ha g (by simp); simp [this]
        · rintro ⟨g', hg', ha'⟩
          have := ha g' (by simp [hg']); rw [this] at ha'; cases ha'

end
end Verif

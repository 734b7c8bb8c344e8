import Verif.Model.Shared
import Verif.Proofs.Alias

/-! # Workers that share a read-only input: proofs -/

namespace Verif

section
variable {E : Fault → Prop} {w i : Win} {m0 : Mem}

theorem early_bind {α β : Type} (p : Prog α) (f : α → Prog β) : (p.bind f).early i m0 = (p.early i m0).bind (fun a => (f a).early i m0) := by
  induction p with
  | ret a => rfl
  | fail f => rfl
  | rd a k ih =>
    show (if i.has a then ((k (m0 a)).bind f).early i m0 else .rd a (fun b => ((k b).bind f).early i m0)) =
      (if i.has a then (k (m0 a)).early i m0 else .rd a (fun b => (k b).early i m0)).bind _
    split
    · exact ih _
    · simp only [Prog.bind, ih]
  | wr a b k ih => simp only [Prog.bind, Prog.early, ih]

/-- A program that stays in a window away from the input is not changed. -/
theorem early_run {α : Type} (hd : ∀ a, i.has a = true → w.has a = false) (p : Prog α) {m : Mem} (h : p.run w m ≠ .error .oobRead) :
    (p.early i m0).run w m = p.run w m := by
  induction p generalizing m with
  | ret a => rfl
  | fail f => rfl
  | rd a k ih =>
    unfold Prog.run at h
    by_cases ha : w.has a = true
    · rw [if_pos ha] at h
      have hi : ¬ i.has a = true := fun hc => by rw [hd a hc] at ha; cases ha
      unfold Prog.early
      rw [if_neg hi]
      unfold Prog.run
      rw [if_pos ha, if_pos ha]
      exact ih _ h
    · rw [if_neg ha] at h
      exact absurd rfl h
  | wr a b k ih =>
    unfold Prog.run at h
    unfold Prog.early Prog.run
    split
    · rename_i ha
      rw [if_pos ha] at h
      exact ih h
    · rfl

theorem Triple.early {α : Type} {P : Mem → Prop} {Q : α → Mem → Prop} {p : Prog α} (hE : ¬ E .oobRead)
    (hd : ∀ a, i.has a = true → w.has a = false) (h : Triple E w P p Q) : Triple E w P (p.early i m0) Q := by
  rw [Triple.iff] at h ⊢
  intro m hm
  have h1 := h m hm
  have : p.run w m ≠ .error .oobRead := by
    intro hc
    rw [hc] at h1
    exact hE h1
  rw [early_run hd p this]
  exact h1

theorem early_forI {c : Nat → Bool} {s : Nat} {body : Nat → Prog Unit} : ∀ {fuel j : Nat},
    (forI c s body fuel j).early i m0 = forI c s (fun k => (body k).early i m0) fuel j := by
  intro fuel
  induction fuel with
  | zero =>
    intro j
    unfold forI
    split <;> rfl
  | succ fuel ih =>
    intro j
    unfold forI
    split
    · show ((body j).bind (fun _ => forI c s body fuel (j + s))).early i m0 = ((body j).early i m0).bind _
      rw [early_bind]
      simp only [ih]
    · rfl

theorem early_ldBlock {α : Type} {ld : Nat → Prog α} : ∀ {k j : Nat},
    (ldBlock ld j k).early i m0 = ldBlock (fun t => (ld t).early i m0) j k := by
  intro k
  induction k with
  | zero => intro j; rfl
  | succ k ih =>
    intro j
    show ((ld j).bind (fun v => (ldBlock ld (j + 1) k).bind (fun vs => .ret (v :: vs)))).early i m0 =
      ((ld j).early i m0).bind (fun v => (ldBlock (fun t => (ld t).early i m0) (j + 1) k).bind (fun vs => .ret (v :: vs)))
    rw [early_bind]
    simp only [early_bind, ih]
    rfl

theorem early_stBlock {α : Type} {each : Nat → α → Prog Unit} : ∀ {l : List α} {j : Nat},
    (stBlock each j l).early i m0 = stBlock (fun t v => (each t v).early i m0) j l := by
  intro l
  induction l with
  | nil => intro j; rfl
  | cons v vs ih =>
    intro j
    show ((each j v).bind (fun _ => stBlock each (j + 1) vs)).early i m0 =
      ((each j v).early i m0).bind (fun _ => stBlock (fun t v => (each t v).early i m0) (j + 1) vs)
    rw [early_bind]
    simp only [ih]

theorem early_mapLd {α : Type} {bw n : Nat} {ld : Nat → Prog α} {each : Nat → α → Prog Unit} :
    (mapLd bw ld each n).early i m0 = mapLd bw (fun t => (ld t).early i m0) (fun t v => (each t v).early i m0) n := by
  show ((forI (fun t => 0 < bw && t + bw ≤ n) bw (fun t => (ldBlock ld t bw).bind (fun vs => stBlock each t vs)) n 0).bind (fun j =>
      (forI (fun t => t < n) 1 (fun t => (ld t).bind (fun v => each t v)) n j).bind (fun _ => .ret ()))).early i m0 =
    (forI (fun t => 0 < bw && t + bw ≤ n) bw (fun t => (ldBlock (fun t => (ld t).early i m0) t bw).bind
        (fun vs => stBlock (fun t v => (each t v).early i m0) t vs)) n 0).bind (fun j =>
      (forI (fun t => t < n) 1 (fun t => ((ld t).early i m0).bind (fun v => (each t v).early i m0)) n j).bind (fun _ => .ret ()))
  rw [early_bind, early_forI]
  simp only [early_bind, early_forI, early_ldBlock, early_stBlock]
  rfl

/-! ## Loads of the input happen at any time -/

/-- Corresponding states: all input bytes are as at the beginning, and the workers of the second system have already done the
loads from the input they are about to do. -/
structure SimR (i : Win) (m0 : Mem) (c d : Cfg) : Prop where
  jobs : d.jobs = c.jobs.map (·.early i m0)
  mem : d.mem = c.mem
  input : ∀ a, i.has a = true → c.mem a = m0 a

theorem SimR.get {c d : Cfg} (h : SimR i m0 c d) {t : Nat} {p : Prog Unit} (hp : c.jobs[t]? = some p) : d.jobs[t]? = some (p.early i m0) := by
  rw [h.jobs, List.getElem?_map, hp]; rfl

/-- Loads from the input a worker does before its next other step. -/
def lead {α : Type} (i : Win) (m0 : Mem) : Prog α → Nat
  | .ret _ => 0
  | .fail _ => 0
  | .rd a k => if i.has a then lead i m0 (k (m0 a)) + 1 else 0
  | .wr _ _ _ => 0

/-- A step of the first system is a step of the second one, or a load from the input. -/
theorem SimR.step (hd : ∀ a, i.has a = true → w.has a = false) {c c1 d : Cfg} (h : SimR i m0 c d) (s : StepR w i c c1) :
    (SimR i m0 c1 d ∧ ∃ t p q, c.jobs[t]? = some p ∧ c1.jobs = c.jobs.set t q ∧ lead i m0 q + 1 = lead i m0 p) ∨
    ∃ d1, Step w d d1 ∧ SimR i m0 c1 d1 := by
  cases s with
  | @rd t a k hp ha =>
    by_cases hi : i.has a = true
    · refine Or.inl ⟨⟨?_, h.mem, h.input⟩, t, _, _, hp, rfl, ?_⟩
      · rw [h.jobs, List.map_set, h.input a hi]
        have hlt := lt_of_getElem? hp
        have e : (c.jobs.map (·.early i m0))[t]? = some ((k (m0 a)).early i m0) := by
          rw [List.getElem?_map, hp]
          show some (if i.has a then _ else _) = _
          rw [if_pos hi]
        obtain ⟨hlt', e'⟩ := List.getElem?_eq_some_iff.mp e
        rw [← e']
        exact (List.set_getElem_self hlt').symm
      · rw [h.input a hi]
        show _ = if i.has a then _ else _
        rw [if_pos hi]
    · have hw : w.has a = true := ha.resolve_right hi
      have hp' := h.get hp
      have e : (Prog.rd a k).early i m0 = .rd a (fun b => (k b).early i m0) := by
        show (if i.has a then _ else _) = _
        rw [if_neg hi]
      rw [e] at hp'
      refine Or.inr ⟨_, .rd hp' hw, ⟨?_, h.mem, h.input⟩⟩
      show d.jobs.set t _ = (c.jobs.set t _).map _
      rw [h.jobs, List.map_set, h.mem]
  | @wr t a b k hp ha =>
    have hp' : d.jobs[t]? = some (.wr a b (k.early i m0)) := h.get hp
    refine Or.inr ⟨_, .wr hp' ha, ⟨?_, ?_, ?_⟩⟩
    · show d.jobs.set t _ = (c.jobs.set t _).map _
      rw [h.jobs, List.map_set]
    · show d.mem.set a b = c.mem.set a b
      rw [h.mem]
    · intro a' ha'
      show (c.mem.set a b) a' = _
      unfold Mem.set
      have hne : a' ≠ a := by
        rintro rfl
        rw [hd a' ha'] at ha
        cases ha
      rw [if_neg hne]
      exact h.input a' ha'

theorem SimR.reach (hd : ∀ a, i.has a = true → w.has a = false) {c d c1 : Cfg} {n : Nat} (h : SimR i m0 c d) (hr : ReachR w i c n c1) :
    ∃ k d1, Reach w d k d1 ∧ SimR i m0 c1 d1 := by
  induction hr with
  | refl => exact ⟨0, d, .refl, h⟩
  | tail _ s ih =>
    obtain ⟨k, d1, hk, hs⟩ := ih
    rcases hs.step hd s with ⟨h1, _⟩ | ⟨d2, h1, h2⟩
    · exact ⟨k, d1, hk, h1⟩
    · exact ⟨k + 1, d2, .tail hk h1, h2⟩

theorem ReachR.head {c d : Cfg} {n : Nat} (h : ReachR w i c (n + 1) d) : ∃ c1, StepR w i c c1 ∧ ReachR w i c1 n d := by
  generalize hk : n + 1 = k at h
  induction h generalizing n with
  | refl => omega
  | @tail k' d' e hr s ih =>
    cases n with
    | zero =>
      have : k' = 0 := by omega
      subst this
      cases hr
      exact ⟨_, s, .refl⟩
    | succ n =>
      obtain ⟨c1, h1, h2⟩ := ih (n := n) (by omega)
      exact ⟨c1, h1, .tail h2 s⟩

theorem Reach.cons {c c1 d : Cfg} {n : Nat} (s : Step w c c1) (h : Reach w c1 n d) : Reach w c (n + 1) d := by
  induction h with
  | refl => exact .tail .refl s
  | tail _ s' ih => exact .tail ih s'

/-- Loads from the input that all workers do before their next other steps. -/
def leads (i : Win) (m0 : Mem) (js : List (Prog Unit)) : Nat := (js.map (lead i m0)).sum

theorem leads_set {js : List (Prog Unit)} {t : Nat} {p q : Prog Unit} (hp : js[t]? = some p) (h : lead i m0 q + 1 = lead i m0 p) :
    leads i m0 (js.set t q) + 1 = leads i m0 js := by
  unfold leads
  rw [List.map_set]
  refine sum_set_lt ?_
  rw [List.getElem?_map, hp]
  show some (lead i m0 p) = _
  rw [← h, Nat.add_comm]

/-- What worker `t` does next. -/
def next (c : Cfg) (t : Nat) : Cfg :=
  match c.jobs[t]? with
  | some (.rd a k) => ⟨c.jobs.set t (k (c.mem a)), c.mem⟩
  | some (.wr a b k) => ⟨c.jobs.set t k, c.mem.set a b⟩
  | _ => c

theorem StepR.next {c c1 : Cfg} (s : StepR w i c c1) : ∃ t, t < c.jobs.length ∧ c1 = Verif.next c t := by
  cases s with
  | @rd t a k h _ => exact ⟨t, lt_of_getElem? h, by unfold Verif.next; rw [h]⟩
  | @wr t a b k h _ => exact ⟨t, lt_of_getElem? h, by unfold Verif.next; rw [h]⟩

/-- Every schedule with the loads from the input in between is bounded as well. -/
theorem SimR.bounded (hd : ∀ a, i.has a = true → w.has a = false) : ∀ (K L : Nat) {c d : Cfg}, SimR i m0 c d → leads i m0 c.jobs = L →
    (∀ n e, Reach w d n e → n ≤ K) → ∃ N, ∀ n e, ReachR w i c n e → n ≤ N := by
  intro K
  induction K with
  | zero =>
    intro L
    induction L with
    | zero =>
      intro c d h hl hK
      refine ⟨0, fun n e hr => ?_⟩
      cases n with
      | zero => exact Nat.le_refl _
      | succ n =>
        obtain ⟨c1, s, _⟩ := hr.head
        rcases h.step hd s with ⟨_, t, p, q, hp, _, hq⟩ | ⟨d1, h1, _⟩
        · have := leads_set (i := i) (m0 := m0) hp hq
          omega
        · have := hK 1 d1 (.tail .refl h1)
          omega
    | succ L ihL =>
      intro c d h hl hK
      have hstep : ∀ t, ∃ N, StepR w i c (Verif.next c t) → ∀ n e, ReachR w i (Verif.next c t) n e → n ≤ N := by
        intro t
        by_cases s : StepR w i c (Verif.next c t)
        · rcases h.step hd s with ⟨h1, t', p, q, hp, he, hq⟩ | ⟨d1, h1, _⟩
          · have := leads_set (i := i) (m0 := m0) hp hq
            obtain ⟨N, hN⟩ := ihL h1 (by rw [he]; omega) hK
            exact ⟨N, fun _ => hN⟩
          · have := hK 1 d1 (.tail .refl h1)
            omega
        · exact ⟨0, fun hs => absurd hs s⟩
      choose f hf using hstep
      refine ⟨((List.range c.jobs.length).map f).sum + 1, fun n e hr => ?_⟩
      cases n with
      | zero => omega
      | succ n =>
        obtain ⟨c1, s, hr1⟩ := hr.head
        obtain ⟨t, ht, rfl⟩ := s.next
        have h1 := hf t s n e hr1
        have h2 : f t ≤ ((List.range c.jobs.length).map f).sum :=
          List.single_le_sum (fun _ _ => Nat.zero_le _) _ (List.mem_map.mpr ⟨t, List.mem_range.mpr ht, rfl⟩)
        omega
  | succ K ihK =>
    intro L
    induction L with
    | zero =>
      intro c d h hl hK
      have hstep : ∀ t, ∃ N, StepR w i c (Verif.next c t) → ∀ n e, ReachR w i (Verif.next c t) n e → n ≤ N := by
        intro t
        by_cases s : StepR w i c (Verif.next c t)
        · rcases h.step hd s with ⟨h1, t', p, q, hp, he, hq⟩ | ⟨d1, h1, h2⟩
          · have := leads_set (i := i) (m0 := m0) hp hq
            omega
          · obtain ⟨N, hN⟩ := ihK _ h2 rfl (fun n e hr => by have := hK _ e (Reach.cons h1 hr); omega)
            exact ⟨N, fun _ => hN⟩
        · exact ⟨0, fun hs => absurd hs s⟩
      choose f hf using hstep
      refine ⟨((List.range c.jobs.length).map f).sum + 1, fun n e hr => ?_⟩
      cases n with
      | zero => omega
      | succ n =>
        obtain ⟨c1, s, hr1⟩ := hr.head
        obtain ⟨t, ht, rfl⟩ := s.next
        have h1 := hf t s n e hr1
        have h2 : f t ≤ ((List.range c.jobs.length).map f).sum :=
          List.single_le_sum (fun _ _ => Nat.zero_le _) _ (List.mem_map.mpr ⟨t, List.mem_range.mpr ht, rfl⟩)
        omega
    | succ L ihL =>
      intro c d h hl hK
      have hstep : ∀ t, ∃ N, StepR w i c (Verif.next c t) → ∀ n e, ReachR w i (Verif.next c t) n e → n ≤ N := by
        intro t
        by_cases s : StepR w i c (Verif.next c t)
        · rcases h.step hd s with ⟨h1, t', p, q, hp, he, hq⟩ | ⟨d1, h1, h2⟩
          · have := leads_set (i := i) (m0 := m0) hp hq
            obtain ⟨N, hN⟩ := ihL h1 (by rw [he]; omega) hK
            exact ⟨N, fun _ => hN⟩
          · obtain ⟨N, hN⟩ := ihK _ h2 rfl (fun n e hr => by have := hK _ e (Reach.cons h1 hr); omega)
            exact ⟨N, fun _ => hN⟩
        · exact ⟨0, fun hs => absurd hs s⟩
      choose f hf using hstep
      refine ⟨((List.range c.jobs.length).map f).sum + 1, fun n e hr => ?_⟩
      cases n with
      | zero => omega
      | succ n =>
        obtain ⟨c1, s, hr1⟩ := hr.head
        obtain ⟨t, ht, rfl⟩ := s.next
        have h1 := hf t s n e hr1
        have h2 : f t ≤ ((List.range c.jobs.length).map f).sum :=
          List.single_le_sum (fun _ _ => Nat.zero_le _) _ (List.mem_map.mpr ⟨t, List.mem_range.mpr ht, rfl⟩)
        omega

/-- What holds for all schedules of the workers that have loaded their input beforehand holds for all schedules of the workers
that load it while the others are running. -/
theorem shared_main {js : List (Prog Unit)} {Q : Mem → Prop} (hd : ∀ a, i.has a = true → w.has a = false)
    (h : AllSchedules E w (js.map (·.early i m0)) m0 Q) : AllSchedulesR E w i js m0 Q := by
  have h0 : SimR i m0 ⟨js, m0⟩ ⟨js.map (·.early i m0), m0⟩ := ⟨rfl, rfl, fun _ _ => rfl⟩
  have hsafe : ∀ n c, ReachR w i ⟨js, m0⟩ n c → ¬ c.FaultyR E w i := by
    rintro n c hr ⟨p, hp, hf⟩
    obtain ⟨k, d, hk, hs⟩ := h0.reach hd hr
    refine h.safe k d hk ⟨p.early i m0, by rw [hs.jobs]; exact List.mem_map_of_mem hp, ?_⟩
    rcases hf with ⟨f, rfl, hE⟩ | ⟨a, k, rfl, h1, h2⟩ | ⟨a, b, k, rfl, h1⟩
    · exact Or.inl ⟨f, rfl, hE⟩
    · refine Or.inr ⟨a, ?_, h1⟩
      show (if i.has a then _ else _ : Prog Unit).pending = _
      rw [if_neg (by rw [h2]; exact Bool.false_ne_true)]
      rfl
    · exact Or.inr ⟨a, rfl, h1⟩
  refine ⟨hsafe, ?_, ?_, ?_, ?_, ?_⟩
  · rintro n c hr ⟨s, t, a, b, p, k, hst, h1, h2, h3⟩
    obtain ⟨l, d, hl, hs⟩ := h0.reach hd hr
    have hw : w.has a = true := by
      by_contra hc
      exact hsafe n c hr ⟨_, List.mem_of_getElem? h1, Or.inr (Or.inr ⟨a, b, k, rfl, by simpa using hc⟩)⟩
    have hi : ¬ i.has a = true := fun hc => by rw [hd a hc] at hw; cases hw
    refine h.raceFree l d hl ⟨s, t, a, _, _, hst, hs.get h1, hs.get h2, rfl, ?_⟩
    cases p with
    | ret _ => cases h3
    | fail _ => cases h3
    | rd a' k' =>
      cases h3
      show (if i.has a then _ else _ : Prog Unit).pending = _
      rw [if_neg hi]; rfl
    | wr a' b' k' => exact h3
  · intro n c hr hns
    have : ∃ p ∈ c.jobs, ¬ (p = .ret () ∨ ∃ f, p = .fail f) := by
      by_contra hc
      exact hns (fun p hp => by by_contra h'; exact hc ⟨p, hp, h'⟩)
    obtain ⟨p, hp, hne⟩ := this
    obtain ⟨t, ht⟩ := List.getElem?_of_mem hp
    have hok := hsafe n c hr
    cases p with
    | ret u => exact absurd (Or.inl rfl) hne
    | fail f => exact absurd (Or.inr ⟨f, rfl⟩) hne
    | rd a k =>
      by_cases h1 : w.has a = true
      · exact ⟨_, .rd ht (Or.inl h1)⟩
      · by_cases h2 : i.has a = true
        · exact ⟨_, .rd ht (Or.inr h2)⟩
        · exact absurd ⟨_, hp, Or.inr (Or.inl ⟨a, k, rfl, by simpa using h1, by simpa using h2⟩)⟩ hok
    | wr a b k =>
      by_cases h1 : w.has a = true
      · exact ⟨_, .wr ht h1⟩
      · exact absurd ⟨_, hp, Or.inr (Or.inr ⟨a, b, k, rfl, by simpa using h1⟩)⟩ hok
  · obtain ⟨K, hK⟩ := h.bounded
    exact SimR.bounded hd K _ h0 rfl hK
  · intro n c hr
    obtain ⟨k, d, hk, hs⟩ := h0.reach hd hr
    exact hs.input
  · intro n c hr hdn
    obtain ⟨k, d, hk, hs⟩ := h0.reach hd hr
    rw [← hs.mem]
    refine h.post k d hk (fun p hp => ?_)
    rw [hs.jobs, List.mem_map] at hp
    obtain ⟨q, hq, rfl⟩ := hp
    rw [hdn q hq]
    rfl

/-! ## The loops -/

theorem early_ldBytes {a : Nat} : ∀ {n : Nat}, (∀ j, j < n → i.has (a + j) = true) →
    (ldBytes a n).early i m0 = .ret (fun j => if j < n then m0 (a + j) else 0) := by
  intro n
  induction n with
  | zero => intro _; rfl
  | succ n ih =>
    intro h
    show ((ldBytes a n).bind (fun f => (rdB (a + n)).bind (fun b => .ret (fun j => if j = n then b else f j)))).early i m0 = _
    rw [early_bind, ih (fun j hj => h j (by omega)), Prog.ret_bind]
    show (if i.has (a + n) then _ else _) = _
    rw [if_pos (h n (by omega))]
    show Prog.ret _ = _
    congr 1
    funext j
    by_cases h1 : j = n
    · rw [if_pos h1, if_pos (by omega), h1]
    · rw [if_neg h1]
      show (if j < n then m0 (a + j) else 0) = _
      by_cases h2 : j < n
      · rw [if_pos h2, if_pos (by omega)]
      · rw [if_neg h2, if_neg (by omega)]

theorem early_ldMem {ft : FT} {a : Nat} (h : ∀ j, j < ft.size → i.has (a + j) = true) :
    (ldMem ft a).early i m0 = .ret (rdX ft m0 a) := by
  cases ft with
  | f32 =>
    show ((ldBytes a 4).bind (fun f => .ret (Flt.ofBits f32 (le32 f)))).early i m0 = _
    rw [early_bind, early_ldBytes (n := 4) h]
    rfl
  | bf16 =>
    show (((ldBytes a 2).bind (fun f => .ret (le16 f))).bind (fun b => .ret (bf16ToF32 b))).early i m0 = _
    rw [early_bind, early_bind, early_ldBytes (n := 2) h]
    rfl

theorem early_ldCode {a : Nat} (h : i.has a = true) : (ldCode a).early i m0 = .ret (m0 a % 256) := by
  show (if i.has a then _ else _) = _
  rw [if_pos h]
  rfl

variable {o xa n bw : Nat} {ft : FT} {dt : DType} {fz : Fuse} {mode : RoundMode} {scale τ : F32} {zp : ℤ} {op : ReduceOp}

theorem win_has {w : Win} {a : Nat} (h1 : w.lo ≤ a) (h2 : a < w.hi) : w.has a = true := by
  unfold Win.has
  rw [Bool.and_eq_true]
  exact ⟨decide_eq_true h1, decide_eq_true h2⟩

theorem requantMem_early {R : Nat → Nat → Prop} (hE : ¬ E .oobRead) (hd : ∀ a, i.has a = true → w.has a = false)
    (hx : i.lo ≤ xa) (hx' : xa + ft.size * n ≤ i.hi) (hlo : w.lo ≤ o) (hhi : o + ft.size * n ≤ w.hi)
    (hs : ∀ i, i < n → StepOk E (qStep mode dt.qmax (rdX ft m0 (xa + ft.size * i)) τ (invScale scale) zp))
    (hs2 : ∀ q : Nat, q ≤ dt.qmax → E .ub ∨ inI64 (q - zp))
    (hR : ∀ i u, i < n → FusedElem fz.gen ft dt mode op scale τ zp m0 o i (rdX ft m0 (xa + ft.size * i)) u → R i u) :
    Triple E w (InvE m0 o ft.size R 0) ((requantMem bw fz ft dt mode op xa o n scale τ zp).early i m0) (fun _ => InvE m0 o ft.size R n) := by
  unfold requantMem mapMem
  rw [early_mapLd]
  refine Triple.mapLd (r := fun _ t => rdX ft m0 (xa + ft.size * t)) (g := fun t => rdX ft m0 (xa + ft.size * t)) (fun m1 t ht => ?_)
    (fun _ _ _ _ _ _ => rfl) (fun t ht => ?_)
  · have h1 : ft.size * (t + 1) ≤ ft.size * n := Nat.mul_le_mul_left _ ht
    have e1 : ft.size * (t + 1) = ft.size * t + ft.size := Nat.mul_succ _ _
    rw [early_ldMem (fun j hj => win_has (by omega) (by omega))]
    exact Triple.ret (fun m hm => ⟨hm, rfl⟩)
  · have h1 : ft.size * (t + 1) ≤ ft.size * n := Nat.mul_le_mul_left _ ht
    exact (requantEach_triple hlo (by omega) (hs t ht) hs2 (fun u => hR t u ht)).early hE hd

theorem quantU8Mem_early {R : Nat → Nat → Prop} (hE : ¬ E .oobRead) (hd : ∀ a, i.has a = true → w.has a = false)
    (hx : i.lo ≤ xa) (hx' : xa + ft.size * n ≤ i.hi) (hlo : w.lo ≤ o) (hhi : o + n ≤ w.hi)
    (hs : ∀ i, i < n → StepOk E (qStep mode 255 (rdX ft m0 (xa + ft.size * i)) τ (invScale scale) zp))
    (hR : ∀ i q, i < n → qStep mode 255 (rdX ft m0 (xa + ft.size * i)) τ (invScale scale) zp = .ret q → R i q) :
    Triple E w (InvE m0 o 1 R 0) ((quantU8Mem bw ft mode xa o n scale τ zp).early i m0) (fun _ => InvE m0 o 1 R n) := by
  unfold quantU8Mem mapMem
  rw [early_mapLd]
  refine Triple.mapLd (r := fun _ t => rdX ft m0 (xa + ft.size * t)) (g := fun t => rdX ft m0 (xa + ft.size * t)) (fun m1 t ht => ?_)
    (fun _ _ _ _ _ _ => rfl) (fun t ht => ?_)
  · have h1 : ft.size * (t + 1) ≤ ft.size * n := Nat.mul_le_mul_left _ ht
    have e1 : ft.size * (t + 1) = ft.size * t + ft.size := Nat.mul_succ _ _
    rw [early_ldMem (fun j hj => win_has (by omega) (by omega))]
    exact Triple.ret (fun m hm => ⟨hm, rfl⟩)
  · exact (quantU8Each_triple hlo (by omega) (hs t ht) (fun q => hR t q ht)).early hE hd

theorem dequantU8Mem_early {R : Nat → Nat → Prop} (hE : ¬ E .oobRead) (hd : ∀ a, i.has a = true → w.has a = false)
    (hx : i.lo ≤ xa) (hx' : xa + n ≤ i.hi) (hlo : w.lo ≤ o) (hhi : o + ft.size * n ≤ w.hi)
    (hs : ∀ q : Nat, q < 256 → E .ub ∨ inI32 (q - wrap32 zp)) (hR : ∀ i, i < n → R i (setEnc ft scale zp (m0 (xa + i) % 256))) :
    Triple E w (InvE m0 o ft.size R 0) ((dequantU8Mem bw fz ft xa o n scale zp).early i m0) (fun _ => InvE m0 o ft.size R n) := by
  unfold dequantU8Mem
  rw [early_mapLd]
  refine Triple.mapLd (r := fun _ t => m0 (xa + t) % 256) (g := fun t => m0 (xa + t) % 256) (fun m1 t ht => ?_)
    (fun _ _ _ _ _ _ => rfl) (fun t ht => ?_)
  · rw [early_ldCode (win_has (by omega) (by omega))]
    exact Triple.ret (fun m hm => ⟨hm, rfl⟩)
  · exact (dequantU8Each_triple hlo (by have : ft.size * (t + 1) ≤ ft.size * n := Nat.mul_le_mul_left _ ht
                                        omega) (hs _ (Nat.mod_lt _ (by omega))) (hR t ht)).early hE hd

end
end Verif

import Verif.Proofs.Prog

/-! Workers confined to disjoint windows: all schedules agree. -/

namespace Verif

/-- Memories agreeing on a window. -/
def Agree (w : Win) (m m' : Mem) : Prop := ∀ a, w.has a = true → m a = m' a

theorem Agree.symm {w : Win} {m m' : Mem} (h : Agree w m m') : Agree w m' m := fun a ha => (h a ha).symm
theorem Agree.trans {w : Win} {m m' m'' : Mem} (h : Agree w m m') (h' : Agree w m' m'') : Agree w m m'' :=
  fun a ha => (h a ha).trans (h' a ha)

theorem Agree.set {w : Win} {m m' : Mem} (h : Agree w m m') (a b : Nat) : Agree w (m.set a b) (m'.set a b) := by
  intro x hx
  unfold Mem.set
  split
  · rfl
  · exact h x hx

theorem Agree.set_out {w : Win} {m : Mem} {a : Nat} (ha : w.has a = false) (b : Nat) : Agree w m (m.set a b) := by
  intro x hx
  unfold Mem.set
  split
  · next h => subst h; simp [hx] at ha
  · rfl

theorem run_agree {α : Type} {w : Win} (p : Prog α) {m m' : Mem} {a : α} {r : Mem} (h : Agree w m m')
    (hr : p.run w m = .ok (a, r)) : ∃ r', p.run w m' = .ok (a, r') ∧ Agree w r r' := by
  induction p generalizing m m' with
  | ret x =>
    simp only [Prog.run, Except.ok.injEq, Prod.mk.injEq] at hr
    obtain ⟨rfl, rfl⟩ := hr
    exact ⟨m', rfl, h⟩
  | fail f => simp [Prog.run] at hr
  | rd x k ih =>
    simp only [Prog.run] at hr ⊢
    split at hr
    · next hx =>
      simp only [hx, if_true, ← h x hx]
      exact ih _ h hr
    · simp at hr
  | wr x b k ih =>
    simp only [Prog.run] at hr ⊢
    split at hr
    · next hx =>
      simp only [hx, if_true]
      exact ih (h.set x b) hr
    · simp at hr

theorem run_frame {α : Type} {w : Win} (p : Prog α) {m : Mem} {a : α} {r : Mem}
    (hr : p.run w m = .ok (a, r)) : ∀ x, w.has x = false → r x = m x := by
  induction p generalizing m with
  | ret y =>
    simp only [Prog.run, Except.ok.injEq, Prod.mk.injEq] at hr
    obtain ⟨rfl, rfl⟩ := hr
    exact fun _ _ => rfl
  | fail f => simp [Prog.run] at hr
  | rd x k ih =>
    simp only [Prog.run] at hr
    split at hr
    · exact ih _ hr
    · simp at hr
  | wr x b k ih =>
    simp only [Prog.run] at hr
    split at hr
    · next hx =>
      intro y hy
      rw [ih hr y hy]
      unfold Mem.set
      split
      · next h => subst h; simp [hx] at hy
      · rfl
    · simp at hr

/-- Two outcomes are the same up to memory outside the window. -/
def SimOut {α : Type} (w : Win) : Except Fault (α × Mem) → Except Fault (α × Mem) → Prop
  | .ok (a, m), .ok (a', m') => a = a' ∧ Agree w m m'
  | .error f, .error f' => f = f'
  | _, _ => False

theorem SimOut.refl {α : Type} (w : Win) (r : Except Fault (α × Mem)) : SimOut w r r := by
  cases r with
  | error f => exact rfl
  | ok a => exact ⟨rfl, fun _ _ => rfl⟩

theorem SimOut.symm {α : Type} {w : Win} {r s : Except Fault (α × Mem)} (h : SimOut w r s) : SimOut w s r := by
  cases r <;> cases s <;> simp only [SimOut] at *
  · exact h.symm
  · exact ⟨h.1.symm, h.2.symm⟩

theorem SimOut.trans {α : Type} {w : Win} {r s t : Except Fault (α × Mem)} (h : SimOut w r s) (h' : SimOut w s t) :
    SimOut w r t := by
  cases r <;> cases s <;> cases t <;> simp only [SimOut] at *
  · exact h.trans h'
  · exact ⟨h.1.trans h'.1, h.2.trans h'.2⟩

theorem run_sim {α : Type} {w : Win} (p : Prog α) {m m' : Mem} (h : Agree w m m') :
    SimOut w (p.run w m) (p.run w m') := by
  induction p generalizing m m' with
  | ret x => exact ⟨rfl, h⟩
  | fail f => exact rfl
  | rd x k ih =>
    simp only [Prog.run]
    split
    · next hx => rw [← h x hx]; exact ih _ h
    · exact rfl
  | wr x b k ih =>
    simp only [Prog.run]
    split
    · exact ih (h.set x b)
    · exact rfl

/-- The run never attempts an access outside its window. -/
def NoOob {α : Type} (r : Except Fault (α × Mem)) : Prop := r ≠ .error .oobRead ∧ r ≠ .error .oobWrite

/-- Number of memory accesses of a solo run. -/
def Prog.cost {α : Type} : Prog α → Mem → Nat
  | .ret _, _ => 0
  | .fail _, _ => 0
  | .rd a k, m => 1 + (k (m a)).cost m
  | .wr a b k, m => 1 + k.cost (m.set a b)

theorem cost_agree {α : Type} {w : Win} (p : Prog α) {m m' : Mem} (h : Agree w m m')
    (hr : NoOob (p.run w m)) : p.cost m = p.cost m' := by
  induction p generalizing m m' with
  | ret x => rfl
  | fail f => rfl
  | rd x k ih =>
    simp only [Prog.run] at hr
    split at hr
    · next hx =>
      simp only [Prog.cost, ← h x hx]
      rw [ih _ h hr]
    · exact absurd rfl hr.1
  | wr x b k ih =>
    simp only [Prog.run] at hr
    split at hr
    · simp only [Prog.cost]
      rw [ih (h.set x b) hr]
    · exact absurd rfl hr.2

theorem run_mono {α : Type} {w w' : Win} (hsub : ∀ a, w.has a = true → w'.has a = true) (p : Prog α) {m : Mem}
    {a : α} {r : Mem} (hr : p.run w m = .ok (a, r)) : p.run w' m = .ok (a, r) := by
  induction p generalizing m with
  | ret x => exact hr
  | fail f => simp [Prog.run] at hr
  | rd x k ih =>
    simp only [Prog.run] at hr ⊢
    split at hr
    · next hx => simp only [hsub x hx, if_true]; exact ih _ hr
    · simp at hr
  | wr x b k ih =>
    simp only [Prog.run] at hr ⊢
    split at hr
    · next hx => simp only [hsub x hx, if_true]; exact ih hr
    · simp at hr

theorem sum_set_lt {l : List Nat} {t c : Nat} (h : l[t]? = some (1 + c)) :
    (l.set t c).sum + 1 = l.sum := by
  induction l generalizing t with
  | nil => simp at h
  | cons x xs ih =>
    cases t with
    | zero => simp at h; simp [h]; omega
    | succ t => simp at h; have := ih h; simp; omega

theorem lt_of_getElem? {α : Type} {l : List α} {t : Nat} {a : α} (h : l[t]? = some a) : t < l.length := by
  by_cases ht : t < l.length
  · exact ht
  · rw [List.getElem?_eq_none (by omega)] at h; simp at h

section
variable {E : Fault → Prop} {w : Win} {jobs : List (Prog Unit)} {wins : Nat → Win} {m0 : Mem}
  {res : Nat → Except Fault (Unit × Mem)}

/-- Invariant of every reachable state. -/
structure SInv (jobs : List (Prog Unit)) (wins : Nat → Win) (m0 : Mem) (res : Nat → Except Fault (Unit × Mem))
    (N n : Nat) (c : Cfg) : Prop where
  len : c.jobs.length = jobs.length
  run : ∀ (t : Nat) (p : Prog Unit), c.jobs[t]? = some p → SimOut (wins t) (p.run (wins t) c.mem) (res t)
  out : ∀ a, (∀ t, t < jobs.length → (wins t).has a = false) → c.mem a = m0 a
  cost : ∃ cl : List Nat, cl.length = jobs.length ∧ n + cl.sum = N ∧
    ∀ (t : Nat) (p : Prog Unit), c.jobs[t]? = some p → cl[t]? = some (p.cost c.mem)

theorem SimOut.noOob {α : Type} {w : Win} {r s : Except Fault (α × Mem)} (h : SimOut w r s) (hs : NoOob s) : NoOob r := by
  cases r with
  | ok a => exact ⟨by simp, by simp⟩
  | error f =>
    cases s with
    | ok a => exact absurd h (fun h => h)
    | error f' => have : f = f' := h; subst this; exact hs

theorem noOob_rd {α : Type} {w : Win} {a : Nat} {k : Nat → Prog α} {m : Mem} (h : NoOob ((Prog.rd a k).run w m)) :
    w.has a = true := by
  simp only [Prog.run] at h
  split at h
  · assumption
  · exact absurd rfl h.1

theorem noOob_wr {α : Type} {w : Win} {a b : Nat} {k : Prog α} {m : Mem} (h : NoOob ((Prog.wr a b k).run w m)) :
    w.has a = true := by
  simp only [Prog.run] at h
  split at h
  · assumption
  · exact absurd rfl h.2

theorem noOob_pending {α : Type} {w : Win} {p : Prog α} {a : Nat} {m : Mem} (h : NoOob (p.run w m)) (hp : p.pending = some a) :
    w.has a = true := by
  cases p with
  | ret _ => simp [Prog.pending] at hp
  | fail _ => simp [Prog.pending] at hp
  | rd x k => simp only [Prog.pending, Option.some.injEq] at hp; subst hp; exact noOob_rd h
  | wr x b k => simp only [Prog.pending, Option.some.injEq] at hp; subst hp; exact noOob_wr h

theorem SInv.step {N n : Nat} {c d : Cfg}
    (hdisj : ∀ s t a, s < jobs.length → t < jobs.length → s ≠ t → (wins s).has a = true → (wins t).has a = false)
    (hoob : ∀ t, t < jobs.length → NoOob (res t))
    (h : SInv jobs wins m0 res N n c) (hs : Step w c d) : SInv jobs wins m0 res N (n + 1) d := by
  obtain ⟨cl, hcl, hsum, hcost⟩ := h.cost
  have hno : ∀ (s : Nat) (p : Prog Unit), c.jobs[s]? = some p → NoOob (p.run (wins s) c.mem) := fun s p hp =>
    (h.run s p hp).noOob (hoob s (by rw [← h.len]; exact lt_of_getElem? hp))
  cases hs with
  | @rd t a k hj ha =>
    have ht := lt_of_getElem? hj
    have hr := h.run t _ hj
    have hc := hcost t _ hj
    have hx := noOob_rd (hno t _ hj)
    simp only [Prog.run, hx, if_true] at hr
    refine ⟨by simpa using h.len, ?_, h.out, ⟨cl.set t ((k (c.mem a)).cost c.mem), by simpa using hcl, ?_, ?_⟩⟩
    · intro s p hp
      by_cases hst : s = t
      · subst hst
        simp only [List.getElem?_set_self ht, Option.some.injEq] at hp
        subst hp
        exact hr
      · rw [List.getElem?_set_ne (Ne.symm hst)] at hp
        exact h.run s p hp
    · have := sum_set_lt (l := cl) (t := t) hc
      omega
    · intro s p hp
      by_cases hst : s = t
      · subst hst
        simp only [List.getElem?_set_self ht, Option.some.injEq] at hp
        subst hp
        rw [List.getElem?_set_self (by rw [hcl, ← h.len]; exact ht)]
      · rw [List.getElem?_set_ne (Ne.symm hst)] at hp ⊢
        exact hcost s p hp
  | @wr t a b k hj ha =>
    have ht := lt_of_getElem? hj
    have hr := h.run t _ hj
    have hc := hcost t _ hj
    have hx := noOob_wr (hno t _ hj)
    simp only [Prog.run, hx, if_true] at hr
    have hag : ∀ s, s < c.jobs.length → s ≠ t → Agree (wins s) c.mem (c.mem.set a b) := by
      intro s hs hst
      exact Agree.set_out (hdisj t s a (by rw [← h.len]; exact ht) (by rw [← h.len]; exact hs) (Ne.symm hst) hx) b
    refine ⟨by simpa using h.len, ?_, ?_, ⟨cl.set t (k.cost (c.mem.set a b)), by simpa using hcl, ?_, ?_⟩⟩
    · intro s p hp
      by_cases hst : s = t
      · subst hst
        simp only [List.getElem?_set_self ht, Option.some.injEq] at hp
        subst hp
        exact hr
      · rw [List.getElem?_set_ne (Ne.symm hst)] at hp
        exact (run_sim p (hag s (lt_of_getElem? hp) hst)).symm.trans (h.run s p hp)
    · intro x hx'
      have : x ≠ a := by
        rintro rfl
        have := hx' t (by rw [← h.len]; exact ht)
        simp [hx] at this
      simp only [Mem.set, this, if_false]
      exact h.out x hx'
    · have := sum_set_lt (l := cl) (t := t) hc
      omega
    · intro s p hp
      by_cases hst : s = t
      · subst hst
        simp only [List.getElem?_set_self ht, Option.some.injEq] at hp
        subst hp
        rw [List.getElem?_set_self (by rw [hcl, ← h.len]; exact ht)]
      · rw [List.getElem?_set_ne (Ne.symm hst)] at hp ⊢
        rw [hcost s p hp]
        rw [cost_agree p (hag s (lt_of_getElem? hp) hst) (hno s p hp)]

/-- Workers confined to disjoint windows: every schedule has the outcome of the solo runs. -/
theorem sched_main (hE : ¬ E .oobRead ∧ ¬ E .oobWrite)
    (hsub : ∀ t a, t < jobs.length → (wins t).has a = true → w.has a = true)
    (hdisj : ∀ s t a, s < jobs.length → t < jobs.length → s ≠ t → (wins s).has a = true → (wins t).has a = false)
    (hrun : ∀ (t : Nat) (p : Prog Unit) (f : Fault), jobs[t]? = some p → p.run (wins t) m0 = .error f → E f) :
    AllSchedules E w jobs m0 (fun m =>
      (∀ (t : Nat) (p : Prog Unit), jobs[t]? = some p → ∃ r, p.run (wins t) m0 = .ok ((), r) ∧
        ∀ a, (wins t).has a = true → m a = r a) ∧
      (∀ a, (∀ t, t < jobs.length → (wins t).has a = false) → m a = m0 a)) := by
  let res : Nat → Except Fault (Unit × Mem) := fun t => match jobs[t]? with
    | some p => p.run (wins t) m0
    | none => .ok ((), m0)
  have hres : ∀ (t : Nat) (p : Prog Unit), jobs[t]? = some p → res t = p.run (wins t) m0 := by
    intro t p hp; simp only [res, hp]
  have hoob : ∀ t, t < jobs.length → NoOob (res t) := by
    intro t ht
    have hp : jobs[t]? = some jobs[t] := List.getElem?_eq_getElem ht
    rw [hres t _ hp]
    exact ⟨fun h => hE.1 (hrun t _ _ hp h), fun h => hE.2 (hrun t _ _ hp h)⟩
  have hinv : ∀ n c, Reach w ⟨jobs, m0⟩ n c →
      SInv jobs wins m0 res ((jobs.map (fun p => p.cost m0)).sum) n c := by
    intro n c hr
    induction hr with
    | refl =>
      refine ⟨rfl, fun t p hp => ?_, fun _ _ => rfl, ?_⟩
      · rw [hres t p hp]; exact SimOut.refl _ _
      · refine ⟨jobs.map (fun p => p.cost m0), by simp, by simp, fun t p hp => ?_⟩
        simp only at hp
        simp [hp]
    | tail _ hs ih => exact ih.step hdisj hoob hs
  have hno : ∀ n c, Reach w ⟨jobs, m0⟩ n c → ∀ (s : Nat) (p : Prog Unit), c.jobs[s]? = some p → NoOob (p.run (wins s) c.mem) :=
    fun n c hr s p hp => ((hinv n c hr).run s p hp).noOob (hoob s (by rw [← (hinv n c hr).len]; exact lt_of_getElem? hp))
  constructor
  · intro n c hr hf
    have hi := hinv n c hr
    obtain ⟨p, hp, hf⟩ := hf
    obtain ⟨t, hpt⟩ := List.getElem?_of_mem hp
    have ht : t < jobs.length := by rw [← hi.len]; exact lt_of_getElem? hpt
    rcases hf with ⟨f, rfl, hnE⟩ | ⟨a, ha, hw⟩
    · have hq : jobs[t]? = some jobs[t] := List.getElem?_eq_getElem ht
      have := hi.run t _ hpt
      rw [hres t _ hq] at this
      simp only [Prog.run] at this
      cases hrt : (jobs[t]).run (wins t) m0 with
      | ok a => rw [hrt] at this; exact absurd this (fun h => h)
      | error f' =>
        rw [hrt] at this
        have hff : f = f' := this
        subst hff
        exact hnE (hrun t _ _ hq hrt)
    · have := hsub t a ht (noOob_pending (hno n c hr t p hpt) ha)
      simp [this] at hw
  · intro n c hr ⟨s, t, a, p, q, hst, hps, hqt, hpa, hqa⟩
    have hi := hinv n c hr
    have h1 := noOob_pending (hno n c hr s p hps) hpa
    have h2 := noOob_pending (hno n c hr t q hqt) hqa
    have := hdisj s t a (by rw [← hi.len]; exact lt_of_getElem? hps) (by rw [← hi.len]; exact lt_of_getElem? hqt) hst h1
    simp [h2] at this
  · intro n c hr hnd
    have hi := hinv n c hr
    simp only [Cfg.Stopped, Classical.not_forall, not_or] at hnd
    obtain ⟨p, hp, hne, hnf⟩ := hnd
    obtain ⟨t, hpt⟩ := List.getElem?_of_mem hp
    have ht : t < jobs.length := by rw [← hi.len]; exact lt_of_getElem? hpt
    cases p with
    | ret _ => exact absurd rfl hne
    | fail f => exact absurd ⟨f, rfl⟩ hnf
    | rd x k => exact ⟨_, Step.rd hpt (hsub t x ht (noOob_rd (hno n c hr t _ hpt)))⟩
    | wr x b k => exact ⟨_, Step.wr hpt (hsub t x ht (noOob_wr (hno n c hr t _ hpt)))⟩
  · refine ⟨(jobs.map (fun p => p.cost m0)).sum, fun n c hr => ?_⟩
    obtain ⟨cl, _, h, _⟩ := (hinv n c hr).cost
    omega
  · intro n c hr hd
    have hi := hinv n c hr
    refine ⟨fun t p hp => ?_, hi.out⟩
    have htc : t < c.jobs.length := by rw [hi.len]; exact lt_of_getElem? hp
    have hq : c.jobs[t]? = some c.jobs[t] := List.getElem?_eq_getElem htc
    have hsim := hi.run t _ hq
    rw [hres t p hp, hd c.jobs[t] (List.getElem_mem htc)] at hsim
    simp only [Prog.run] at hsim
    cases hrt : p.run (wins t) m0 with
    | error f => rw [hrt] at hsim; exact absurd hsim (fun h => h)
    | ok am =>
      obtain ⟨u, r⟩ := am
      rw [hrt] at hsim
      exact ⟨r, rfl, fun a ha => hsim.2 a ha⟩

end

/-- Sequential execution of window-confined workers. -/
theorem runSeq_main {w : Win} {jobs : List (Prog Unit)} {wins : Nat → Win} {m0 : Mem} {res : Nat → Mem}
    (hsub : ∀ t a, t < jobs.length → (wins t).has a = true → w.has a = true)
    (hdisj : ∀ s t a, s < jobs.length → t < jobs.length → s ≠ t → (wins s).has a = true → (wins t).has a = false)
    (hrun : ∀ (t : Nat) (p : Prog Unit), jobs[t]? = some p → p.run (wins t) m0 = .ok ((), res t)) :
    ∃ m, runSeq w jobs m0 = .ok m ∧
      (∀ t a, t < jobs.length → (wins t).has a = true → m a = res t a) ∧
      (∀ a, (∀ t, t < jobs.length → (wins t).has a = false) → m a = m0 a) := by
  induction jobs generalizing wins m0 res with
  | nil => exact ⟨m0, rfl, fun t a h => by simp at h, fun _ _ => rfl⟩
  | cons p ps ih =>
    have hp := hrun 0 p rfl
    have hag : ∀ s, s < ps.length → Agree (wins (s + 1)) m0 (res 0) := by
      intro s hs a ha
      have h0 : (wins 0).has a = false := hdisj (s + 1) 0 a (by simp; omega) (by simp) (by omega) ha
      exact (run_frame p hp a h0).symm
    have hres : ∀ (t : Nat) (q : Prog Unit), ps[t]? = some q → ∃ r, q.run (wins (t + 1)) (res 0) = .ok ((), r) ∧ Agree (wins (t + 1)) (res (t + 1)) r := by
      intro t q hq
      exact run_agree q (hag t (lt_of_getElem? hq)) (hrun (t + 1) q (by simpa using hq))
    let res' : Nat → Mem := fun t => match ps[t]? with
      | some q => match q.run (wins (t + 1)) (res 0) with
        | .ok (_, r) => r
        | .error _ => m0
      | none => m0
    obtain ⟨m, h1, h2, h3⟩ := ih (wins := fun t => wins (t + 1)) (m0 := res 0) (res := res')
      (fun t a ht ha => hsub (t + 1) a (by simp; omega) ha)
      (fun s t a hs ht hst ha => hdisj (s + 1) (t + 1) a (by simp; omega) (by simp; omega) (by omega) ha)
      (by
        intro t q hq
        obtain ⟨r, hr, _⟩ := hres t q hq
        simp only [res', hq, hr])
    refine ⟨m, ?_, ?_, ?_⟩
    · simp only [runSeq, run_mono (w' := w) (fun a ha => hsub 0 a (by simp) ha) p hp]
      exact h1
    · intro t a ht ha
      cases t with
      | zero =>
        rw [h3 a]
        intro t ht
        exact hdisj 0 (t + 1) a (by simp) (by simp; omega) (by omega) ha
      | succ t =>
        have ht' : t < ps.length := by simpa using ht
        rw [h2 t a ht' ha]
        have hq : ps[t]? = some ps[t] := List.getElem?_eq_getElem ht'
        obtain ⟨r, hr, hagr⟩ := hres t _ hq
        simp only [res', hq, hr]
        exact (hagr a ha).symm
    · intro a ha
      rw [h3 a (fun t ht => ha (t + 1) (by simp; omega))]
      exact run_frame p hp a (ha 0 (by simp))

end Verif

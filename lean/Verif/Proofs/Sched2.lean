import Verif.Proofs.Sched
import Verif.Spec

/-! More about window-confined workers: traces, and equivalence with sequential execution. -/

namespace Verif

theorem run_mono' {α : Type} {w w' : Win} (hsub : ∀ a, w.has a = true → w'.has a = true) (p : Prog α) {m : Mem}
    (hr : NoOob (p.run w m)) : p.run w' m = p.run w m := by
  induction p generalizing m with
  | ret x => rfl
  | fail f => rfl
  | rd x k ih =>
    have hx := noOob_rd hr
    simp only [Prog.run, hx, hsub x hx, if_true] at hr ⊢
    exact ih _ hr
  | wr x b k ih =>
    have hx := noOob_wr hr
    simp only [Prog.run, hx, hsub x hx, if_true] at hr ⊢
    exact ih hr

/-- If the workers finish one after another, each of them finishes alone. -/
theorem runSeq_solo {w : Win} {jobs : List (Prog Unit)} {wins : Nat → Win} {m0 m : Mem}
    (hsub : ∀ t a, t < jobs.length → (wins t).has a = true → w.has a = true)
    (hdisj : ∀ s t a, s < jobs.length → t < jobs.length → s ≠ t → (wins s).has a = true → (wins t).has a = false)
    (hno : ∀ (t : Nat) (p : Prog Unit), jobs[t]? = some p → NoOob (p.run (wins t) m0))
    (h : runSeq w jobs m0 = .ok m) :
    ∀ (t : Nat) (p : Prog Unit), jobs[t]? = some p → ∃ r, p.run (wins t) m0 = .ok ((), r) := by
  induction jobs generalizing wins m0 with
  | nil => intro t p hp; simp at hp
  | cons q qs ih =>
    have h0 := hno 0 q rfl
    have e0 := run_mono' (w' := w) (fun a ha => hsub 0 a (by simp) ha) q h0
    simp only [runSeq, e0] at h
    cases hq : q.run (wins 0) m0 with
    | error f => rw [hq] at h; simp at h
    | ok r =>
      obtain ⟨u, r⟩ := r
      rw [hq] at h
      simp only at h
      have hag : ∀ s, s < qs.length → Agree (wins (s + 1)) r m0 := by
        intro s hs a ha
        exact run_frame q hq a (hdisj (s + 1) 0 a (by simp; omega) (by simp) (by omega) ha)
      have := ih (wins := fun t => wins (t + 1)) (m0 := r)
        (fun t a ht ha => hsub (t + 1) a (by simp; omega) ha)
        (fun s t a hs ht hst ha => hdisj (s + 1) (t + 1) a (by simp; omega) (by simp; omega) (by omega) ha)
        (fun t p hp => (run_sim p (hag t (lt_of_getElem? hp))).noOob (hno (t + 1) p (by simpa using hp)))
        h
      intro t p hp
      cases t with
      | zero => simp at hp; subst hp; exact ⟨r, hq⟩
      | succ t =>
        have hp' : qs[t]? = some p := by simpa using hp
        obtain ⟨r', hr'⟩ := this t p hp'
        obtain ⟨r'', h1, _⟩ := run_agree p (hag t (lt_of_getElem? hp')) hr'
        exact ⟨r'', h1⟩

/-- If the workers finish one after another, every schedule finishes with the same memory. -/
theorem sched_of_seq {E : Fault → Prop} {w : Win} {jobs : List (Prog Unit)} {wins : Nat → Win} {m0 m : Mem}
    (hE : ¬ E .oobRead ∧ ¬ E .oobWrite)
    (hsub : ∀ t a, t < jobs.length → (wins t).has a = true → w.has a = true)
    (hdisj : ∀ s t a, s < jobs.length → t < jobs.length → s ≠ t → (wins s).has a = true → (wins t).has a = false)
    (hrun : ∀ (t : Nat) (p : Prog Unit) (f : Fault), jobs[t]? = some p → p.run (wins t) m0 = .error f → E f)
    (h : runSeq w jobs m0 = .ok m) : AllSchedules NoFault w jobs m0 (fun m' => m' = m) := by
  have hno : ∀ (t : Nat) (p : Prog Unit), jobs[t]? = some p → NoOob (p.run (wins t) m0) := fun t p hp =>
    ⟨fun he => hE.1 (hrun t p _ hp he), fun he => hE.2 (hrun t p _ hp he)⟩
  have hsolo := runSeq_solo hsub hdisj hno h
  have hmain := sched_main (E := NoFault) (w := w) (m0 := m0) ⟨id, id⟩ hsub hdisj (fun t p f hp he => by
    obtain ⟨r, hr⟩ := hsolo t p hp
    rw [hr] at he; cases he)
  refine ⟨hmain.safe, hmain.raceFree, hmain.progress, hmain.bounded, fun n c hr hd => ?_⟩
  obtain ⟨h1, h2⟩ := hmain.post n c hr hd
  let res : Nat → Mem := fun t => match jobs[t]? with
    | some p => match p.run (wins t) m0 with
      | .ok (_, r) => r
      | .error _ => m0
    | none => m0
  obtain ⟨m', hm1, hm2, hm3⟩ := runSeq_main (w := w) (jobs := jobs) (wins := wins) (m0 := m0) (res := res) hsub hdisj (by
    intro t p hp
    obtain ⟨r, hr, _⟩ := h1 t p hp
    simp only [res, hp, hr])
  rw [h] at hm1
  cases hm1
  funext a
  by_cases ha : ∃ t, t < jobs.length ∧ (wins t).has a = true
  · obtain ⟨t, ht, hwin⟩ := ha
    have hp : jobs[t]? = some jobs[t] := List.getElem?_eq_getElem ht
    obtain ⟨r, hr1, hr2⟩ := h1 t _ hp
    rw [hm2 t a ht hwin, hr2 a hwin]
    simp only [res, hp, hr1]
  · have ha' : ∀ t, t < jobs.length → (wins t).has a = false := by
      intro t ht
      by_contra hc
      exact ha ⟨t, ht, by simpa using hc⟩
    rw [hm3 a ha', h2 a ha']

theorem trace_reach {w : Win} {c d : Cfg} {l : List (Nat × Nat)} (h : Spec.Trace w c l d) : Reach w c l.length d := by
  induction h with
  | refl => exact .refl
  | rd _ hj ha ih => exact .tail ih (.rd hj ha)
  | wr _ hj ha ih => exact .tail ih (.wr hj ha)

/-- Every access of worker `t`, under every schedule, is inside its own window. -/
theorem trace_wins {E : Fault → Prop} {w : Win} {jobs : List (Prog Unit)} {wins : Nat → Win} {m0 : Mem}
    (hE : ¬ E .oobRead ∧ ¬ E .oobWrite)
    (hdisj : ∀ s t a, s < jobs.length → t < jobs.length → s ≠ t → (wins s).has a = true → (wins t).has a = false)
    (hrun : ∀ (t : Nat) (p : Prog Unit) (f : Fault), jobs[t]? = some p → p.run (wins t) m0 = .error f → E f)
    {l : List (Nat × Nat)} {d : Cfg} (h : Spec.Trace w ⟨jobs, m0⟩ l d) :
    ∀ t a, (t, a) ∈ l → t < jobs.length ∧ (wins t).has a = true := by
  let res : Nat → Except Fault (Unit × Mem) := fun t => match jobs[t]? with
    | some p => p.run (wins t) m0
    | none => .ok ((), m0)
  have hres : ∀ (t : Nat) (p : Prog Unit), jobs[t]? = some p → res t = p.run (wins t) m0 := by
    intro t p hp; simp only [res, hp]
  have hoob : ∀ t, t < jobs.length → NoOob (res t) := by
    intro t ht
    have hp : jobs[t]? = some jobs[t] := List.getElem?_eq_getElem ht
    rw [hres t _ hp]
    exact ⟨fun h => hE.1 (hrun t _ _ hp h), fun h => hE.2 (hrun t _ _ hp h)⟩
  have hinv : ∀ n c, Reach w ⟨jobs, m0⟩ n c →
      SInv jobs wins m0 res ((jobs.map (fun p => p.cost m0)).sum) n c := by
    intro n c hr
    induction hr with
    | refl =>
      refine ⟨rfl, fun t p hp => ?_, fun _ _ => rfl, ?_⟩
      · rw [hres t p hp]; exact SimOut.refl _ _
      · refine ⟨jobs.map (fun p => p.cost m0), by simp, by simp, fun t p hp => ?_⟩
        simp only at hp
        simp [hp]
    | tail _ hs ih => exact ih.step hdisj hoob hs
  have key : ∀ (c : Cfg) (l : List (Nat × Nat)) (t a : Nat) (p : Prog Unit), Spec.Trace w ⟨jobs, m0⟩ l c → c.jobs[t]? = some p →
      p.pending = some a → t < jobs.length ∧ (wins t).has a = true := by
    intro c l t a p hc hp ha
    have hi := hinv _ _ (trace_reach hc)
    have ht : t < jobs.length := by rw [← hi.len]; exact lt_of_getElem? hp
    exact ⟨ht, noOob_pending ((hi.run t p hp).noOob (hoob t ht)) ha⟩
  induction h with
  | refl => intro t a h; cases h
  | rd hc hj ha ih =>
    intro t a hm
    rcases List.mem_cons.mp hm with he | hm
    · cases he; exact key _ _ _ _ _ hc hj rfl
    · exact ih t a hm
  | wr hc hj ha ih =>
    intro t a hm
    rcases List.mem_cons.mp hm with he | hm
    · cases he; exact key _ _ _ _ _ hc hj rfl
    · exact ih t a hm

end Verif

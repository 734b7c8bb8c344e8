import Verif.Model.Session
import Verif.SpecSession
import Mathlib.Algebra.BigOperators.Group.Finset.Basic
import Mathlib.Algebra.BigOperators.Group.Finset.Piecewise

/-! # Programs of several threads making calls: every interleaving is the threads one by one -/

namespace Verif
open Spec

/-- One thread alone. -/
inductive CReach (c : Caller) (m : Mem) : Nat → Caller → Mem → Prop
  | refl : CReach c m 0 c m
  | tail {n : Nat} {d e : Caller} {md me : Mem} (h : CReach c m n d md) (s : CStep d md e me) : CReach c m (n + 1) e me

/-- The calls of a thread are accepted and fine for every schedule of their workers, when made one after the other. -/
inductive SoloOk (E : Fault → Prop) : Mt → (Mem → Plan) → Mem → Prop
  | done {g : Mt} {P : Mem → Plan} {m : Mem} (h : P m = .done) : SoloOk E g P m
  | call {g g' : Mt} {r : Req} {P k : Mem → Plan} {js : List (Prog Unit)} {m : Mem} (h : P m = .call r k) (hc : r.issue g = (g', .ok js))
      (ha : AllSchedules E r.win js m (fun m' => runSeq r.win js m = .ok m')) (hr : ∀ m1, runSeq r.win js m = .ok m1 → SoloOk E g' k m1) :
      SoloOk E g P m

theorem SeqRun.det {g : Mt} {P : Mem → Plan} {m a b : Mem} (h1 : SeqRun g P m a) (h2 : SeqRun g P m b) : a = b := by
  induction h1 generalizing b with
  | done h => cases h2 with
    | done => rfl
    | call h' => rw [h] at h'; cases h'
  | call h hc e _ ih => cases h2 with
    | done h' => rw [h] at h'; cases h'
    | call h' hc' e' h2 =>
      rw [h] at h'; cases h'
      rw [hc] at hc'
      obtain ⟨rfl, e2⟩ := Prod.mk.inj hc'
      cases e2
      rw [e] at e'; cases e'
      exact ih h2

/-- The state of a thread running its first call, or past it. -/
theorem solo_split {c0 : Caller} {m : Mem} {r : Req} {rest : Mem → Plan} {g' : Mt} {js : List (Prog Unit)} (hid : c0.Idle) (ht : c0.next m = .call r rest)
    (hc : r.issue c0.gen = (g', .ok js)) {k : Nat} {c : Caller} {m' : Mem} (h : CReach c0 m k c m') :
    (k = 0 ∧ c = c0 ∧ m' = m) ∨ (∃ n, k = n + 1 ∧ Reach r.win ⟨js, m⟩ n ⟨c.cur, m'⟩ ∧ c.next = rest ∧ c.gen = g' ∧ c.win = r.win) ∨
    ∃ n k2 c1 m1, k = n + 1 + k2 ∧ Reach r.win ⟨js, m⟩ n ⟨c1.cur, m1⟩ ∧ c1.next = rest ∧ c1.gen = g' ∧ c1.Idle ∧ CReach c1 m1 k2 c m' := by
  induction h with
  | refl => exact Or.inl ⟨rfl, rfl, rfl⟩
  | tail h s ih =>
    rename_i n d e md me
    rcases ih with ⟨rfl, rfl, rfl⟩ | ⟨n, rfl, h1, h2, h3, h4⟩ | ⟨n, k2, c1, m1, rfl, h1, h2, h3, h4, h5⟩
    · right; left
      cases s with
      | rd hj ha => have := hid _ (List.mem_of_getElem? hj); cases this
      | wr hj ha => have := hid _ (List.mem_of_getElem? hj); cases this
      | issue hi ht' hc' =>
        rw [ht] at ht'
        cases ht'
        rw [hc] at hc'
        obtain ⟨rfl, e⟩ := Prod.mk.inj hc'
        cases e
        exact ⟨0, rfl, .refl, rfl, rfl, rfl⟩
    · cases s with
      | rd hj ha => right; left; exact ⟨n + 1, rfl, h1.tail (.rd hj (h4 ▸ ha)), h2, h3, h4⟩
      | wr hj ha => right; left; exact ⟨n + 1, rfl, h1.tail (.wr hj (h4 ▸ ha)), h2, h3, h4⟩
      | issue hi ht' hc' =>
        right; right
        exact ⟨n, 1, d, md, rfl, h1, h2, h3, hi, CReach.refl.tail (.issue hi ht' hc')⟩
    · right; right
      exact ⟨n, k2 + 1, c1, m1, rfl, h1, h2, h3, h4, h5.tail s⟩

/-- What holds of every state of a thread running alone. -/
structure SoloGood (E : Fault → Prop) (g : Mt) (P : Mem → Plan) (m : Mem) (c : Caller) (m' : Mem) : Prop where
  safe : ¬ c.Faulty E m'
  raceFree : ∀ (i j a : Nat) (p q : Prog Unit), i ≠ j → c.cur[i]? = some p → c.cur[j]? = some q → p.pending = some a → q.pending ≠ some a
  progress : ¬ c.Finished m' → ¬ c.Dead → ∃ c' m'', CStep c m' c' m''
  post : c.Finished m' → SeqRun g P m m'

theorem idle_stuck {c0 : Caller} {m : Mem} (ht : c0.next m = .done) (hi : c0.Idle) {k : Nat} {c : Caller} {m' : Mem} (hk : CReach c0 m k c m') :
    k = 0 ∧ c = c0 ∧ m' = m := by
  induction hk with
  | refl => exact ⟨rfl, rfl, rfl⟩
  | tail h s ih =>
    obtain ⟨rfl, rfl, rfl⟩ := ih
    exfalso
    cases s with
    | rd hj ha => have := hi _ (List.mem_of_getElem? hj); cases this
    | wr hj ha => have := hi _ (List.mem_of_getElem? hj); cases this
    | issue _ ht' _ => rw [ht] at ht'; cases ht'

theorem solo_good {E : Fault → Prop} {g : Mt} {P : Mem → Plan} {m : Mem} (h : SoloOk E g P m) :
    ∃ N, ∀ {c0 : Caller}, c0.gen = g → c0.next = P → c0.Idle → ∀ {k : Nat} {c : Caller} {m' : Mem}, CReach c0 m k c m' → k ≤ N ∧ SoloGood E g P m c m' := by
  induction h with
  | done hd =>
    refine ⟨0, fun {c0} hg ht hi {k c m'} hk => ?_⟩
    subst ht
    obtain ⟨rfl, rfl, rfl⟩ := idle_stuck hd hi hk
    refine ⟨le_rfl, ?_, ?_, ?_, fun _ => .done hd⟩
    · rintro (⟨p, hp, ⟨f, e, _⟩ | ⟨a, e, _⟩⟩ | ⟨_, r, rest, f, e, _⟩)
      · rw [hi p hp] at e; cases e
      · rw [hi p hp] at e; cases e
      · rw [hd] at e; cases e
    · intro i j a p q _ hp _ ep
      rw [hi p (List.mem_of_getElem? hp)] at ep; cases ep
    · intro hs; exact absurd ⟨hi, hd⟩ hs
  | call hP hc ha hr ih =>
    rename_i g g' r P rest js m
    obtain ⟨N1, hN1⟩ := ha.bounded
    -- bound for the rest, if the first call can finish
    have hrest : ∃ N2, ∀ {m1 : Mem}, runSeq r.win js m = .ok m1 → ∀ {c1 : Caller}, c1.gen = g' → c1.next = rest → c1.Idle → ∀ {k : Nat} {c : Caller} {m' : Mem},
        CReach c1 m1 k c m' → k ≤ N2 ∧ SoloGood E g' rest m1 c m' := by
      by_cases hx : ∃ m1, runSeq r.win js m = .ok m1
      · obtain ⟨m1, e⟩ := hx
        obtain ⟨N2, h2⟩ := ih m1 e
        refine ⟨N2, fun {m1'} e' => ?_⟩
        rw [e] at e'
        cases e'
        exact h2
      · exact ⟨0, fun {m1'} e' => absurd ⟨m1', e'⟩ hx⟩
    obtain ⟨N2, h2⟩ := hrest
    refine ⟨N1 + 1 + N2, fun {c0} hg hnx hi {k c m'} hk => ?_⟩
    subst hg hnx
    -- a state past the first call
    have past : ∀ {c1 : Caller} {m1 : Mem} {n k2 : Nat}, Reach r.win ⟨js, m⟩ n ⟨c1.cur, m1⟩ → c1.next = rest → c1.gen = g' → c1.Idle → CReach c1 m1 k2 c m' →
        k2 ≤ N2 ∧ SoloGood E c0.gen c0.next m c m' := by
      intro c1 m1 n k2 q1 q2 q3 q4 q5
      have e1 := ha.post _ _ q1 q4
      obtain ⟨b, sg⟩ := h2 e1 q3 q2 q4 q5
      exact ⟨b, sg.safe, sg.raceFree, sg.progress, fun hf => .call hP hc e1 (sg.post hf)⟩
    rcases solo_split hi hP hc hk with ⟨rfl, rfl, rfl⟩ | ⟨n, rfl, q1, q2, q3, q4⟩ | ⟨n, k2, c1, m1, rfl, q1, q2, q3, q4, q5⟩
    · refine ⟨by omega, ?_, ?_, ?_, fun hf => ?_⟩
      · rintro (⟨p, hp, ⟨f, e, _⟩ | ⟨a, e, _⟩⟩ | ⟨_, r', rest', f, e, e2⟩)
        · rw [hi p hp] at e; cases e
        · rw [hi p hp] at e; cases e
        · rw [hP] at e
          cases e
          rw [hc] at e2; cases e2
      · intro i j a p q _ hp _ ep
        rw [hi p (List.mem_of_getElem? hp)] at ep; cases ep
      · exact fun _ _ => ⟨_, _, .issue hi hP hc⟩
      · have := hf.2; rw [hP] at this; cases this
    · by_cases hid : c.Idle
      · obtain ⟨b, sg⟩ := past (c1 := c) q1 q2 q3 hid (by
          have : CReach c m' 0 c m' := .refl
          exact this)
        exact ⟨by have := hN1 _ _ q1; omega, sg⟩
      · refine ⟨by have := hN1 _ _ q1; omega, ?_, ?_, ?_, fun hf => absurd hf.1 hid⟩
        · rintro (⟨p, hp, hh⟩ | ⟨h, _⟩)
          · exact ha.safe _ _ q1 ⟨p, hp, by rw [← q4]; exact hh⟩
          · exact hid h
        · intro i j a p q hij hp hq ep eq
          exact ha.raceFree _ _ q1 ⟨i, j, a, p, q, hij, hp, hq, ep, eq⟩
        · intro _ hs
          have hns : ¬ (⟨c.cur, m'⟩ : Cfg).Stopped := by
            intro hst
            refine hs ⟨hst, ?_⟩
            by_contra hno
            push Not at hno
            exact hid (fun p hp => (hst p hp).resolve_right (fun ⟨f, e⟩ => hno p hp f e))
          obtain ⟨d, st⟩ := ha.progress _ _ q1 hns
          cases st with
          | rd hj hh => exact ⟨_, _, .rd hj (by rw [q4]; exact hh)⟩
          | wr hj hh => exact ⟨_, _, .wr hj (by rw [q4]; exact hh)⟩
    · obtain ⟨b, sg⟩ := past q1 q2 q3 q4 q5
      exact ⟨by have := hN1 _ _ q1; omega, sg⟩

/-! ## Several threads -/

/-- The same for the state of a thread: the output span of its call is in the region. -/
structure Caller.In (R : Nat → Prop) (c : Caller) : Prop where
  win : c.cur = [] ∨ ∀ a, c.win.has a = true → R a
  look : ∀ m m' : Mem, (∀ a, R a → m a = m' a) → c.next m = c.next m'
  next : ∀ m, (c.next m).Local R

theorem CStep.inv {R : Nat → Prop} {c c' : Caller} {m m' : Mem} (s : CStep c m c' m') (h : c.In R) : c'.In R ∧ ∀ a, ¬ R a → m' a = m a := by
  cases s with
  | rd hj ha =>
    refine ⟨⟨Or.inr ?_, h.look, h.next⟩, fun _ _ => rfl⟩
    rcases h.win with e | e
    · rw [e] at hj; cases hj
    · exact e
  | wr hj ha =>
    have hw : ∀ a, c.win.has a = true → R a := by
      rcases h.win with e | e
      · rw [e] at hj; cases hj
      · exact e
    refine ⟨⟨Or.inr hw, h.look, h.next⟩, fun x hx => ?_⟩
    rename_i a b k
    unfold Mem.set
    rw [if_neg]
    rintro rfl
    exact hx (hw _ ha)
  | issue hi ht hc =>
    have := h.next m
    rw [ht] at this
    exact ⟨⟨Or.inr this.1, this.2.1, this.2.2⟩, fun _ _ => rfl⟩

/-- A step of a thread is the same in another memory that agrees on its region. -/
theorem CStep.transfer {R : Nat → Prop} {c c' : Caller} {m m' : Mem} (s : CStep c m c' m') (h : c.In R) {n : Mem} (hn : ∀ a, R a → n a = m a) :
    ∃ n', CStep c n c' n' ∧ ∀ a, R a → n' a = m' a := by
  cases s with
  | rd hj ha =>
    have hw : ∀ a, c.win.has a = true → R a := by
      rcases h.win with e | e
      · rw [e] at hj; cases hj
      · exact e
    refine ⟨n, ?_, hn⟩
    have := CStep.rd (m := n) hj ha
    rw [hn _ (hw _ ha)] at this
    exact this
  | wr hj ha =>
    refine ⟨_, .wr hj ha, fun x hx => ?_⟩
    unfold Mem.set
    rw [hn x hx]
  | issue hi ht hc => exact ⟨n, .issue hi (by rw [← ht]; exact h.look _ _ hn) hc, hn⟩

theorem SysReach.length {s0 s : Sys} {n : Nat} (h : SysReach s0 n s) : s.callers.length = s0.callers.length := by
  induction h with
  | refl => rfl
  | tail _ st ih => cases st with
    | mk e _ => simpa using ih

/-- The state of several threads, seen by each of them. -/
structure SysView (Rs : Nat → Nat → Prop) (s0 s : Sys) (n : Nat) (ks : Nat → Nat) : Prop where
  len : s.callers.length = s0.callers.length
  solo : ∀ t c0, s0.callers[t]? = some c0 → ∃ c m', s.callers[t]? = some c ∧ c.In (Rs t) ∧ CReach c0 s0.mem (ks t) c m' ∧
    ∀ a, Rs t a → m' a = s.mem a
  out : ∀ a, (∀ t, t < s0.callers.length → ¬ Rs t a) → s.mem a = s0.mem a
  sum : n = ∑ t ∈ Finset.range s0.callers.length, ks t

theorem sysView {Rs : Nat → Nat → Prop} {s0 : Sys} (h0 : ∀ (t : Nat) (c : Caller), s0.callers[t]? = some c → c.In (Rs t))
    (hd : ∀ t u, t < s0.callers.length → u < s0.callers.length → t ≠ u → ∀ a, Rs t a → ¬ Rs u a) {n : Nat} {s : Sys} (h : SysReach s0 n s) :
    ∃ ks, SysView Rs s0 s n ks := by
  induction h with
  | refl => exact ⟨fun _ => 0, rfl, fun t c0 hc => ⟨c0, s0.mem, hc, h0 t c0 hc, .refl, fun _ _ => rfl⟩, fun _ _ => rfl, by simp⟩
  | tail h st ih =>
    rename_i n d e
    obtain ⟨ks, P⟩ := ih
    cases st with
    | mk ht hs =>
      rename_i t c c' m'
      have htl : t < d.callers.length := (List.getElem?_eq_some_iff.mp ht).1
      have htl0 : t < s0.callers.length := by rw [← P.len]; exact htl
      have hIn : c.In (Rs t) := by
        obtain ⟨c1, _, e1, i1, _, _⟩ := P.solo t _ (List.getElem?_eq_getElem htl0)
        rw [ht] at e1; cases e1; exact i1
      obtain ⟨hIn', hout⟩ := hs.inv hIn
      refine ⟨Function.update ks t (ks t + 1), ?_, ?_, ?_, ?_⟩
      · simp [P.len]
      · intro u c0 hc0
        obtain ⟨c1, m1, e1, i1, r1, a1⟩ := P.solo u c0 hc0
        by_cases hu : u = t
        · subst hu
          rw [ht] at e1; cases e1
          obtain ⟨n', st', ag⟩ := hs.transfer hIn a1
          refine ⟨c', n', by simp [htl], hIn', ?_, ag⟩
          rw [Function.update_self]
          exact r1.tail st'
        · refine ⟨c1, m1, ?_, i1, ?_, fun a ha => ?_⟩
          · simp only
            rw [List.getElem?_set_ne (fun h => hu h.symm)]; exact e1
          · rw [Function.update_of_ne hu]; exact r1
          · rw [a1 a ha]
            have hul : u < s0.callers.length := (List.getElem?_eq_some_iff.mp hc0).1
            exact (hout a (hd u t hul htl0 hu a ha)).symm
      · intro a ha
        rw [← P.out a ha]
        exact hout a (ha t htl0)
      · rw [P.sum]
        rw [Finset.sum_update_of_mem (Finset.mem_range.mpr htl0), ← Finset.add_sum_erase _ _ (Finset.mem_range.mpr htl0), Finset.sdiff_singleton_eq_erase]
        omega

end Verif

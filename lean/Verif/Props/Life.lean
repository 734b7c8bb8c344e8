import Verif.Model.Life
import Mathlib.Tactic.Linarith
import Mathlib.Data.List.Basic
import Mathlib.Data.List.Count

/-!
# Python contexts and their native contexts: C75
-/

namespace Verif.Props
open Life

/-- When a native context is destroyed it exists, no call on it is in progress, and no call on it begins or ends later. -/
def DestroyedIdle (t : List Ev) : Prop :=
  ∀ p s n, t = p ++ .destroy n :: s → .create n ∈ p ∧ p.count (.enter n) = p.count (.leave n) ∧ .enter n ∉ s ∧ .leave n ∉ s

/-! ## Every history -/

/-- What holds between steps: each native context created so far is either destroyed (once) or registered (once). -/
structure Inv (w : World) (t : List Ev) : Prop where
  once : ∀ n, t.count (.destroy n) + (w.pending.map Prod.snd).count n = if n < w.natives then 1 else 0
  created : ∀ n, t.count (.create n) = if n < w.natives then 1 else 0

theorem count_destroys (l : List (Nat × Nat)) (n : Nat) : (l.map (fun f => Ev.destroy f.2)).count (.destroy n) = (l.map Prod.snd).count n := by
  induction l with
  | nil => rfl
  | cons a l ih =>
    simp only [List.map_cons, List.count_cons, ih, beq_iff_eq, Ev.destroy.injEq]

theorem count_other (l : List (Nat × Nat)) {e : Ev} (h : ∀ n, e ≠ .destroy n) : (l.map (fun f => Ev.destroy f.2)).count e = 0 := by
  rw [List.count_eq_zero]
  intro hm
  obtain ⟨a, _, ha⟩ := List.mem_map.mp hm
  exact h _ ha.symm

theorem count_split (l : List (Nat × Nat)) (k n : Nat) :
    ((l.filter (fun f => f.1 = k)).map Prod.snd).count n + ((l.filter (fun f => f.1 ≠ k)).map Prod.snd).count n = (l.map Prod.snd).count n := by
  induction l with
  | nil => rfl
  | cons a l ih =>
    by_cases h : a.1 = k
    · simp only [List.filter_cons, h, decide_true, if_true, ne_eq, not_true_eq_false, decide_false, Bool.false_eq_true, if_false, List.map_cons, List.count_cons] at *
      omega
    · simp only [List.filter_cons, h, decide_false, Bool.false_eq_true, if_false, ne_eq, not_false_eq_true, decide_true, if_true, List.map_cons, List.count_cons] at *
      omega

theorem step_inv {w w' : World} {t e : List Ev} {op : Op} (h : Inv w t) (hs : step w op = some (w', e)) : Inv w' (t ++ e) := by
  have keep : ∀ {w' : World} {x : Ev}, w'.pending = w.pending → w'.natives = w.natives → (∀ n, x ≠ .destroy n) → (∀ n, x ≠ .create n) → Inv w' (t ++ [x]) := by
    intro w' x h1 h2 h3 h4
    refine ⟨fun n => ?_, fun n => ?_⟩
    · rw [h1, h2, List.count_append, List.count_singleton, ← h.once n]
      simp [h3 n]
    · rw [h2, List.count_append, List.count_singleton, ← h.created n]
      simp [h4 n]
  cases op with
  | new =>
    simp only [step, Option.some.injEq, Prod.mk.injEq] at hs
    obtain ⟨rfl, rfl⟩ := hs
    refine ⟨fun n => ?_, fun n => ?_⟩
    · have := h.once n
      simp only [List.count_append, List.map_append, List.map_cons, List.map_nil, List.count_cons, List.count_nil]
      by_cases hn : n = w.natives
      · subst hn; simp at this ⊢; omega
      · have h1 : (w.natives == n) = false := by simp; omega
        simp only [h1, reduceCtorEq, beq_iff_eq, if_false, Bool.false_eq_true]
        split at this <;> split <;> omega
    · have := h.created n
      simp only [List.count_append, List.count_singleton]
      by_cases hn : n = w.natives
      · subst hn; simp at this ⊢; omega
      · have h1 : (Ev.create w.natives == Ev.create n) = false := by simp; omega
        simp only [h1, Bool.false_eq_true, if_false]
        split at this <;> split <;> omega
  | copy k =>
    simp only [step] at hs
    split at hs
    · split at hs
      · simp only [Option.some.injEq, Prod.mk.injEq] at hs
        obtain ⟨rfl, rfl⟩ := hs
        rw [List.append_nil]; exact ⟨h.once, h.created⟩
      · cases hs
    · cases hs
  | enter k =>
    simp only [step] at hs
    split at hs
    · split at hs
      · simp only [Option.some.injEq, Prod.mk.injEq] at hs
        obtain ⟨rfl, rfl⟩ := hs
        exact keep rfl rfl (fun n => by simp) (fun n => by simp)
      · cases hs
    · cases hs
  | leave k =>
    simp only [step] at hs
    split at hs
    · split at hs
      · simp only [Option.some.injEq, Prod.mk.injEq] at hs
        obtain ⟨rfl, rfl⟩ := hs
        exact keep rfl rfl (fun n => by simp) (fun n => by simp)
      · cases hs
    · cases hs
  | drop k =>
    simp only [step] at hs
    split at hs
    · split at hs
      · simp only [Option.some.injEq, Prod.mk.injEq] at hs
        obtain ⟨rfl, rfl⟩ := hs
        refine ⟨fun n => ?_, fun n => ?_⟩
        · rw [List.count_append, count_destroys, ← h.once n, ← count_split w.pending k n]
          simp only; omega
        · rw [List.count_append, count_other _ (by simp)]; exact h.created n
      · cases hs
    · cases hs
  | exit =>
    simp only [step, Option.some.injEq, Prod.mk.injEq] at hs
    obtain ⟨rfl, rfl⟩ := hs
    refine ⟨fun n => ?_, fun n => ?_⟩
    · rw [List.count_append, count_destroys, ← h.once n, List.map_reverse, List.count_reverse]
      simp
    · rw [List.count_append, count_other _ (by simp)]; exact h.created n

theorem run_inv {ops : List Op} : ∀ {w w' : World} {t e : List Ev}, Inv w t → run w ops = some (w', e) → Inv w' (t ++ e) := by
  induction ops with
  | nil =>
    intro w w' t e h hr
    simp only [run, Option.some.injEq, Prod.mk.injEq] at hr
    obtain ⟨rfl, rfl⟩ := hr
    simpa using h
  | cons op ops ih =>
    intro w w' t e h hr
    simp only [run] at hr
    split at hr
    · cases hr
    · rename_i w1 e1 h1
      split at hr
      · cases hr
      · rename_i w2 e2 h2
        simp only [Option.some.injEq, Prod.mk.injEq] at hr
        obtain ⟨rfl, rfl⟩ := hr
        rw [← List.append_assoc]
        exact ih (step_inv h h1) h2

theorem inv_init : Inv World.init [] := ⟨fun n => by simp [World.init], fun n => by simp [World.init]⟩

/-- C75: in every history - copies, garbage collection in any order, calls in progress, interpreter exit, even uses
after it - no native context is destroyed twice, and none is destroyed that was not created. -/
theorem C75_destroyed_at_most_once {ops : List Op} {w : World} {t : List Ev} (h : run .init ops = some (w, t)) (n : Nat) :
    t.count (.destroy n) ≤ t.count (.create n) ∧ t.count (.create n) ≤ 1 := by
  have := run_inv inv_init h
  rw [List.nil_append] at this
  have h1 := this.once n
  have h2 := this.created n
  rw [h2]
  constructor
  · omega
  · split <;> omega

/-- `C75_destroyed_at_most_once` applied to a concrete case. -/
example := C75_destroyed_at_most_once (ops := [.new, .new, .enter 0, .enter 0, .drop 1, .leave 0, .leave 0, .drop 0]) (w := _) (t := _) (h := rfl)
    (n := 0)

theorem run_append {p q : List Op} : ∀ {w w'' : World} {t : List Ev}, run w (p ++ q) = some (w'', t) →
    ∃ w' t1 t2, run w p = some (w', t1) ∧ run w' q = some (w'', t2) ∧ t = t1 ++ t2 := by
  induction p with
  | nil => intro w w'' t h; exact ⟨w, [], t, rfl, h, rfl⟩
  | cons op p ih =>
    intro w w'' t h
    simp only [List.cons_append, run] at h
    split at h
    · cases h
    · rename_i w1 e1 h1
      split at h
      · cases h
      · rename_i w2 e2 h2
        simp only [Option.some.injEq, Prod.mk.injEq] at h
        obtain ⟨rfl, rfl⟩ := h
        obtain ⟨w', t1, t2, g1, g2, rfl⟩ := ih h2
        exact ⟨w', e1 ++ t1, t2, by simp only [run, h1, g1], g2, by rw [List.append_assoc]⟩

/-- C75: nothing leaks.  When the interpreter has run its exit handlers, every native context ever created has been
destroyed, exactly once. -/
theorem C75_all_destroyed_at_exit {ops : List Op} {w : World} {t : List Ev} (h : run .init (ops ++ [.exit]) = some (w, t)) (n : Nat) :
    t.count (.destroy n) = t.count (.create n) := by
  obtain ⟨w', t1, t2, g1, g2, rfl⟩ := run_append h
  have := run_inv inv_init h
  rw [List.nil_append] at this
  have h1 := this.once n
  have h2 := this.created n
  have hp : w.pending = [] := by
    simp only [run, step, Option.some.injEq, Prod.mk.injEq] at g2
    rw [← g2.1]
  rw [hp] at h1
  rw [h2, ← h1]; simp

/-- `C75_all_destroyed_at_exit` applied to a concrete case. -/
example := C75_all_destroyed_at_exit (ops := [.new, .new, .enter 0, .leave 0, .drop 1]) (w := _) (t := _) (h := rfl) (n := 0)

/-! ## Programs that do not copy contexts -/

/-- Without copies, object `k` owns native context `k`. -/
structure Own (w : World) (t : List Ev) : Prop where
  len : w.objs.length = w.natives
  reg : ∀ f ∈ w.pending, f.1 = f.2 ∧ f.1 < w.natives
  obj : ∀ k o, w.objs[k]? = some o → o.native = k ∧ (o.alive = true → (k, k) ∈ w.pending) ∧ (0 < o.busy → o.alive = true) ∧
    t.count (.enter k) = t.count (.leave k) + o.busy
  fresh : ∀ k, w.natives ≤ k → t.count (.enter k) = 0 ∧ t.count (.leave k) = 0
  idle : DestroyedIdle t

theorem idle_snoc {t : List Ev} {x : Ev} (h : DestroyedIdle t)
    (hd : ∀ n, x = .destroy n → .create n ∈ t ∧ t.count (.enter n) = t.count (.leave n))
    (hu : ∀ n, (x = .enter n ∨ x = .leave n) → .destroy n ∉ t) : DestroyedIdle (t ++ [x]) := by
  intro p s n e
  rcases List.eq_nil_or_concat s with hs | ⟨s', y, hs⟩
  · subst hs
    have := List.append_inj' e rfl
    obtain ⟨rfl, hx⟩ := this
    have hx : x = .destroy n := by simpa using hx
    exact ⟨(hd n hx).1, (hd n hx).2, by simp, by simp⟩
  · subst hs
    rw [show p ++ Ev.destroy n :: s'.concat y = (p ++ Ev.destroy n :: s') ++ [y] by simp] at e
    obtain ⟨e1, e2⟩ := List.append_inj' e rfl
    have e2 : x = y := by simpa using e2
    subst e2
    obtain ⟨a, b, c, d⟩ := h p s' n e1
    have hm : .destroy n ∈ t := by rw [e1]; simp
    refine ⟨a, b, ?_, ?_⟩
    · simp only [List.concat_eq_append, List.mem_append, List.mem_singleton, not_or]
      exact ⟨c, fun hx => hu n (Or.inl hx.symm) hm⟩
    · simp only [List.concat_eq_append, List.mem_append, List.mem_singleton, not_or]
      exact ⟨d, fun hx => hu n (Or.inr hx.symm) hm⟩

theorem idle_destroys {l : List (Nat × Nat)} : ∀ {t : List Ev}, DestroyedIdle t →
    (∀ f ∈ l, .create f.2 ∈ t ∧ t.count (.enter f.2) = t.count (.leave f.2)) → DestroyedIdle (t ++ l.map (fun f => .destroy f.2)) := by
  induction l with
  | nil => intro t h _; simpa using h
  | cons a l ih =>
    intro t h hl
    rw [List.map_cons, show t ++ Ev.destroy a.2 :: l.map (fun f => Ev.destroy f.2) = (t ++ [Ev.destroy a.2]) ++ l.map (fun f => Ev.destroy f.2) by simp]
    apply ih
    · refine idle_snoc h (fun n hn => ?_) (fun n hn => by rcases hn with hn | hn <;> cases hn)
      injection hn with hn
      rw [← hn]; exact hl a (by simp)
    · intro f hf
      obtain ⟨g1, g2⟩ := hl f (by simp [hf])
      refine ⟨List.mem_append_left _ g1, ?_⟩
      rw [List.count_append, List.count_append, List.count_singleton, List.count_singleton]
      simpa using g2

theorem not_destroyed {w : World} {t : List Ev} (hi : Inv w t) {k : Nat} (h : (k, k) ∈ w.pending) : .destroy k ∉ t := by
  intro hm
  have h1 := hi.once k
  have h2 : 0 < (w.pending.map Prod.snd).count k := List.count_pos_iff.mpr (List.mem_map.mpr ⟨_, h, rfl⟩)
  have h3 : 0 < t.count (.destroy k) := List.count_pos_iff.mpr hm
  split at h1 <;> omega

theorem is_created {w : World} {t : List Ev} (hi : Inv w t) {k : Nat} (h : k < w.natives) : .create k ∈ t := by
  have h1 := hi.created k
  rw [if_pos h] at h1
  exact List.count_pos_iff.mp (by omega)

/-- Neither a copy nor the interpreter's exit. -/
def Ordinary (op : Op) : Prop := (∀ k, op ≠ .copy k) ∧ op ≠ .exit

theorem lt_of_get {w : World} {k : Nat} {o : Obj} (h : w.objs[k]? = some o) : k < w.objs.length := by
  obtain ⟨h, _⟩ := List.getElem?_eq_some_iff.mp h
  exact h

theorem own_step {w w' : World} {t e : List Ev} {op : Op} (ho : Ordinary op) (hi : Inv w t) (h : Own w t) (hs : step w op = some (w', e)) :
    Own w' (t ++ e) := by
  cases op with
  | copy k => exact absurd rfl (ho.1 k)
  | exit => exact absurd rfl ho.2
  | new =>
    simp only [step, Option.some.injEq, Prod.mk.injEq] at hs
    obtain ⟨rfl, rfl⟩ := hs
    have hc : ∀ k, (t ++ [Ev.create w.natives]).count (.enter k) = t.count (.enter k) ∧ (t ++ [Ev.create w.natives]).count (.leave k) = t.count (.leave k) := by
      intro k; simp [List.count_append]
    refine ⟨by simp [h.len], ?_, ?_, ?_, ?_⟩
    · intro f hf
      rcases List.mem_append.mp hf with hf | hf
      · obtain ⟨a, b⟩ := h.reg f hf
        exact ⟨a, by simp only; omega⟩
      · rw [List.mem_singleton] at hf
        subst hf
        exact ⟨h.len, by simp only [h.len]; omega⟩
    · intro k o hk
      rw [(hc k).1, (hc k).2]
      simp only at hk
      by_cases hl : k < w.objs.length
      · rw [List.getElem?_append_left hl] at hk
        obtain ⟨a, b, c, d⟩ := h.obj k o hk
        exact ⟨a, fun q => List.mem_append_left _ (b q), c, d⟩
      · have hk' : k = w.objs.length := by
          have := (List.getElem?_eq_some_iff.mp hk).1
          simp at this; omega
        subst hk'
        rw [List.getElem?_append_right (le_refl _)] at hk
        simp only [Nat.sub_self, List.getElem?_cons_zero, Option.some.injEq] at hk
        subst hk
        obtain ⟨g1, g2⟩ := h.fresh w.objs.length (by rw [h.len])
        refine ⟨h.len.symm, fun _ => List.mem_append_right _ (by rw [h.len]; simp), fun q => rfl, by rw [g1, g2]; rfl⟩
    · intro k hk
      rw [(hc k).1, (hc k).2]
      exact h.fresh k (by simp only at hk; omega)
    · exact idle_snoc h.idle (fun n hn => by cases hn) (fun n hn => by rcases hn with hn | hn <;> cases hn)
  | enter k =>
    simp only [step] at hs
    split at hs
    · rename_i o hk
      split at hs
      · rename_i ha
        simp only [Option.some.injEq, Prod.mk.injEq] at hs
        obtain ⟨rfl, rfl⟩ := hs
        obtain ⟨a, b, c, d⟩ := h.obj k o hk
        have hlt := lt_of_get hk
        refine ⟨by simp [h.len], h.reg, ?_, ?_, ?_⟩
        · intro j q hj
          simp only at hj
          by_cases hjk : j = k
          · subst hjk
            rw [List.getElem?_set_self hlt, Option.some.injEq] at hj
            subst hj
            refine ⟨a, b, fun _ => ha, ?_⟩
            rw [List.count_append, List.count_append, List.count_singleton, List.count_singleton, a, d]
            simp; omega
          · rw [List.getElem?_set_ne (Ne.symm hjk)] at hj
            obtain ⟨a', b', c', d'⟩ := h.obj j q hj
            refine ⟨a', b', c', ?_⟩
            rw [List.count_append, List.count_append, List.count_singleton, List.count_singleton, a, d']
            have : ¬ k = j := fun q => hjk q.symm
            simp [this]
        · intro j hj
          simp only at hj
          have : ¬ k = j := by have := h.len; omega
          obtain ⟨g1, g2⟩ := h.fresh j hj
          rw [List.count_append, List.count_append, List.count_singleton, List.count_singleton, a, g1, g2]
          simp [this]
        · refine idle_snoc h.idle (fun n hn => by cases hn) (fun n hn => ?_)
          rcases hn with hn | hn
          · injection hn with hn
            rw [← hn, a]
            exact not_destroyed hi (b ha)
          · cases hn
      · cases hs
    · cases hs
  | leave k =>
    simp only [step] at hs
    split at hs
    · rename_i o hk
      split at hs
      · rename_i ha
        simp only [Option.some.injEq, Prod.mk.injEq] at hs
        obtain ⟨rfl, rfl⟩ := hs
        obtain ⟨a, b, c, d⟩ := h.obj k o hk
        have hlt := lt_of_get hk
        refine ⟨by simp [h.len], h.reg, ?_, ?_, ?_⟩
        · intro j q hj
          simp only at hj
          by_cases hjk : j = k
          · subst hjk
            rw [List.getElem?_set_self hlt, Option.some.injEq] at hj
            subst hj
            refine ⟨a, b, fun _ => c ha, ?_⟩
            rw [List.count_append, List.count_append, List.count_singleton, List.count_singleton, a, d]
            simp; omega
          · rw [List.getElem?_set_ne (Ne.symm hjk)] at hj
            obtain ⟨a', b', c', d'⟩ := h.obj j q hj
            refine ⟨a', b', c', ?_⟩
            rw [List.count_append, List.count_append, List.count_singleton, List.count_singleton, a, d']
            have : ¬ k = j := fun q => hjk q.symm
            simp [this]
        · intro j hj
          simp only at hj
          have : ¬ k = j := by have := h.len; omega
          obtain ⟨g1, g2⟩ := h.fresh j hj
          rw [List.count_append, List.count_append, List.count_singleton, List.count_singleton, a, g1, g2]
          simp [this]
        · refine idle_snoc h.idle (fun n hn => by cases hn) (fun n hn => ?_)
          rcases hn with hn | hn
          · cases hn
          · injection hn with hn
            rw [← hn, a]
            exact not_destroyed hi (b (c ha))
      · cases hs
    · cases hs
  | drop k =>
    simp only [step] at hs
    split at hs
    · rename_i o hk
      split at hs
      · rename_i ha
        simp only [Option.some.injEq, Prod.mk.injEq] at hs
        obtain ⟨rfl, rfl⟩ := hs
        obtain ⟨a, b, c, d⟩ := h.obj k o hk
        have hlt := lt_of_get hk
        have hb : o.busy = 0 := by simp at ha; exact ha.2
        have hc : ∀ j, (t ++ (w.pending.filter (fun f => f.1 = k)).map (fun f => Ev.destroy f.2)).count (.enter j) = t.count (.enter j) ∧
            (t ++ (w.pending.filter (fun f => f.1 = k)).map (fun f => Ev.destroy f.2)).count (.leave j) = t.count (.leave j) := by
          intro j
          rw [List.count_append, List.count_append, count_other _ (by simp), count_other _ (by simp)]
          exact ⟨rfl, rfl⟩
        refine ⟨by simp [h.len], ?_, ?_, ?_, ?_⟩
        · intro f hf
          exact h.reg f (List.mem_filter.mp hf).1
        · intro j q hj
          rw [(hc j).1, (hc j).2]
          simp only at hj
          by_cases hjk : j = k
          · subst hjk
            rw [List.getElem?_set_self hlt, Option.some.injEq] at hj
            subst hj
            exact ⟨a, fun q => absurd q (by simp), fun q => absurd q (by simp [hb]), d⟩
          · rw [List.getElem?_set_ne (Ne.symm hjk)] at hj
            obtain ⟨a', b', c', d'⟩ := h.obj j q hj
            exact ⟨a', fun q => List.mem_filter.mpr ⟨b' q, by simpa using hjk⟩, c', d'⟩
        · intro j hj
          rw [(hc j).1, (hc j).2]
          exact h.fresh j hj
        · refine idle_destroys h.idle (fun f hf => ?_)
          obtain ⟨f1, f2⟩ := List.mem_filter.mp hf
          have f3 : f.1 = k := by simpa using f2
          obtain ⟨r1, r2⟩ := h.reg f f1
          rw [← r1, f3]
          exact ⟨is_created hi (by rw [← f3]; exact r2), by rw [d, hb]; rfl⟩
      · cases hs
    · cases hs

theorem own_run {ops : List Op} : ∀ {w w' : World} {t e : List Ev}, (∀ op ∈ ops, Ordinary op) → Inv w t → Own w t → run w ops = some (w', e) →
    Own w' (t ++ e) := by
  induction ops with
  | nil =>
    intro w w' t e _ _ h hr
    simp only [run, Option.some.injEq, Prod.mk.injEq] at hr
    obtain ⟨rfl, rfl⟩ := hr
    simpa using h
  | cons op ops ih =>
    intro w w' t e ho hi h hr
    simp only [run] at hr
    split at hr
    · cases hr
    · rename_i w1 e1 h1
      split at hr
      · cases hr
      · rename_i w2 e2 h2
        simp only [Option.some.injEq, Prod.mk.injEq] at hr
        obtain ⟨rfl, rfl⟩ := hr
        rw [← List.append_assoc]
        exact ih (fun q hq => ho q (by simp [hq])) (step_inv hi h1) (own_step (ho op (by simp)) hi h h1) h2

theorem own_init : Own World.init [] :=
  ⟨rfl, fun f hf => by simp [World.init] at hf, fun k o hk => by simp [World.init] at hk, fun k _ => by simp, fun p s n e => by simp at e⟩

/-- C75, without copies and before the interpreter exits: whatever the order of calls, of overlapping calls from several
threads, and of garbage collection, a native context is destroyed only when no call uses it and none uses it later.
Missing: copies and calls overlapping the exit, for which it is false. -/
theorem C75_no_use_after_destroy_partial {ops : List Op} {w : World} {t : List Ev} (ho : ∀ op ∈ ops, Ordinary op)
    (h : run .init ops = some (w, t)) : DestroyedIdle t := by
  have := own_run ho inv_init own_init h
  exact this.idle

/-- `C75_no_use_after_destroy_partial` applied to a concrete case. -/
example := C75_no_use_after_destroy_partial (ops := [.new, .new, .enter 0, .enter 0, .drop 1, .leave 0, .leave 0, .drop 0]) (w := _) (t := _)
    (ho := by simp [Ordinary]) (h := rfl)

/-- C75, at exit: if every call has returned by then, the exit destroys what is left without harm. -/
theorem C75_quiet_exit_partial {ops : List Op} {w w' : World} {t t' : List Ev} (ho : ∀ op ∈ ops, Ordinary op)
    (h : run .init ops = some (w, t)) (hq : ∀ n, t.count (.enter n) = t.count (.leave n))
    (h' : run .init (ops ++ [.exit]) = some (w', t')) :
    DestroyedIdle t' ∧ ∀ n, .create n ∈ t' → .destroy n ∈ t' := by
  refine ⟨?_, fun n hn => ?_⟩
  · have hw := own_run ho inv_init own_init h
    have hi := run_inv inv_init h
    rw [List.nil_append] at hw hi
    obtain ⟨w1, t1, t2, g1, g2, rfl⟩ := run_append h'
    rw [h, Option.some.injEq, Prod.mk.injEq] at g1
    obtain ⟨rfl, rfl⟩ := g1
    simp only [run, step, Option.some.injEq, Prod.mk.injEq, List.append_nil] at g2
    rw [← g2.2]
    refine idle_destroys hw.idle (fun f hf => ?_)
    obtain ⟨r1, r2⟩ := hw.reg f (List.mem_reverse.mp hf)
    exact ⟨is_created hi (by rw [← r1]; exact r2), hq _⟩
  · have := C75_all_destroyed_at_exit h' n
    have h2 := List.count_pos_iff.mpr hn
    exact List.count_pos_iff.mp (by omega)

/-- `C75_quiet_exit_partial` applied to a concrete case. -/
example := C75_quiet_exit_partial (ops := [.new, .new, .enter 0, .leave 0, .drop 1]) (w := _) (w' := _)
    (t := [.create 0, .create 1, .enter 0, .leave 0, .destroy 1]) (t' := _) (ho := by simp [Ordinary]) (h := rfl)
    (hq := fun n => by rcases n with _ | n <;> simp) (h' := rfl)

/-- Two contexts, two overlapping calls on the first; both are collected, the second while the first is in use. -/
example : (run .init [.new, .new, .enter 0, .enter 0, .drop 1, .leave 0, .leave 0, .drop 0]).map Prod.snd =
    some [.create 0, .create 1, .enter 0, .enter 0, .destroy 1, .leave 0, .leave 0, .destroy 0] := by decide

/-- The interpreter keeps a context in use alive: it cannot be collected. -/
example : run .init [.new, .enter 0, .drop 0] = none := by decide

/-- C75 is false for copies: `b = copy.copy(a); del a; b.quantize(...)` uses a destroyed native context. -/
theorem C75_false_copy : ∃ w t, run .init [.new, .copy 0, .drop 0, .enter 1] = some (w, t) ∧ ¬ DestroyedIdle t := by
  refine ⟨⟨[⟨0, 0, false⟩, ⟨0, 1, true⟩], [], 1⟩, [.create 0, .destroy 0, .enter 0], by decide, fun h => ?_⟩
  exact (h [.create 0] [.enter 0] 0 rfl).2.2.1 (by simp)

/-- C75 is false at exit: a call in progress on a daemon thread loses its native context when the interpreter exits. -/
theorem C75_false_exit_in_progress : ∃ w t, run .init [.new, .enter 0, .exit] = some (w, t) ∧ ¬ DestroyedIdle t := by
  refine ⟨⟨[⟨0, 1, true⟩], [], 1⟩, [.create 0, .enter 0, .destroy 0], by decide, fun h => ?_⟩
  have := (h [.create 0, .enter 0] [] 0 rfl).2.1
  revert this; decide

/-- C75 is false at exit: a call made by an exit handler that runs after the finalizers uses a destroyed context. -/
theorem C75_false_exit_later : ∃ w t, run .init [.new, .exit, .enter 0] = some (w, t) ∧ ¬ DestroyedIdle t := by
  refine ⟨⟨[⟨0, 1, true⟩], [], 1⟩, [.create 0, .destroy 0, .enter 0], by decide, fun h => ?_⟩
  exact (h [.create 0] [.enter 0] 0 rfl).2.2.1 (by simp)

end Verif.Props

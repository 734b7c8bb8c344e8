import Mathlib.Algebra.BigOperators.Intervals
import Mathlib.Logic.Function.Basic
import Verif.SpecTraffic
import Verif.Proofs.Reads
import Verif.Proofs.Midway

/-! # How often the output bytes are accessed -/

namespace Verif
open Spec

theorem log_trace {w : Win} {c d : Cfg} {l : List Access} (h : Log w c l d) : Trace w c (l.map (fun e => (e.worker, e.addr))) d := by
  induction h with
  | refl => exact .refl
  | rd _ hj ha ih => exact .rd ih hj ha
  | wr _ hj ha ih => exact .wr ih hj ha

/-- One access less. -/
def spend (K K' : Kind) (f : Nat → Nat) (a : Nat) : Nat → Nat := if K = K' then Function.update f a (f a - 1) else f

/-- The program makes at most `f a` accesses of kind `K` to byte `a`. -/
def Bud (K : Kind) : (Nat → Nat) → Prog Unit → Prop
  | _, .ret _ => True
  | _, .fail _ => True
  | f, .rd a k => (K = .read → 1 ≤ f a) ∧ ∀ b, Bud K (spend K .read f a) (k b)
  | f, .wr a _ k => (K = .write → 1 ≤ f a) ∧ Bud K (spend K .write f a) k

theorem spend_le {K K' : Kind} {f g : Nat → Nat} {a : Nat} (h : ∀ x, f x ≤ g x) : ∀ x, spend K K' f a x ≤ spend K K' g a x := by
  intro x
  unfold spend
  split
  · by_cases e : x = a
    · subst e; simp only [Function.update_self]; have := h x; omega
    · simp only [Function.update_of_ne e]; exact h x
  · exact h x

theorem Bud.mono {K : Kind} {p : Prog Unit} {f g : Nat → Nat} (hb : Bud K f p) (h : ∀ x, f x ≤ g x) : Bud K g p := by
  induction p generalizing f g with
  | ret a => exact trivial
  | fail f => exact trivial
  | rd a k ih => exact ⟨fun e => le_trans (hb.1 e) (h a), fun b => ih b (hb.2 b) (spend_le h)⟩
  | wr a b k ih => exact ⟨fun e => le_trans (hb.1 e) (h a), ih hb.2 (spend_le h)⟩

open Classical in
theorem Once.bud {X : Nat → Prop} {p : Prog Unit} {lo : Nat} (h : Once X p lo) : Bud .write (fun a => if a < lo then 0 else if X a then 2 else 1) p := by
  induction h with
  | ret => exact trivial
  | fail => exact trivial
  | rd h ih => exact ⟨fun e => (by cases e), fun b => ih b⟩
  | @wr a b lo k hl h ih =>
    refine ⟨fun _ => ?_, ih.mono (fun x => ?_)⟩
    · show 1 ≤ if a < lo then 0 else if X a then 2 else 1
      rw [if_neg (by omega)]; split <;> omega
    · dsimp only [spend]
      by_cases e : x = a
      · subst e; rw [if_pos (by omega)]; omega
      · rw [if_pos rfl, Function.update_of_ne e]
        by_cases hx : x < a + 1
        · rw [if_pos hx]; omega
        · rw [if_neg hx, if_neg (show ¬ x < lo by omega)]
  | @mask a b lo k hX hl h ih =>
    refine ⟨fun _ => ?_, ⟨fun e => (by cases e), fun p => ⟨fun _ => ?_, ih.mono (fun x => ?_)⟩⟩⟩
    · show 1 ≤ if a < lo then 0 else if X a then 2 else 1
      rw [if_neg (by omega), if_pos hX]; omega
    · simp only [spend, if_true, Function.update_self, reduceCtorEq, if_false]
      rw [if_neg (by omega), if_pos hX]
    · simp only [spend, if_true, Function.update_self, reduceCtorEq, if_false]
      by_cases e : x = a
      · subst e; rw [if_pos (by omega)]; omega
      · rw [Function.update_of_ne e, Function.update_of_ne e]
        by_cases hx : x < a + 1
        · rw [if_pos hx]; omega
        · rw [if_neg hx, if_neg (show ¬ x < lo by omega)]

open Classical in
theorem ROnce.bud {X : Nat → Prop} {p : Prog Unit} {lo : Nat} (h : ROnce X p lo) : Bud .read (fun a => if a < lo then 0 else if X a then 1 else 0) p := by
  induction h with
  | ret => exact trivial
  | fail => exact trivial
  | wr h ih => exact ⟨fun e => (by cases e), ih⟩
  | @rd a lo k hX hl h ih =>
    refine ⟨fun _ => ?_, fun b => (ih b).mono (fun x => ?_)⟩
    · show 1 ≤ if a < lo then 0 else if X a then 1 else 0
      rw [if_neg (by omega), if_pos hX]
    · dsimp only [spend]
      by_cases e : x = a
      · subst e; rw [if_pos (by omega)]; omega
      · rw [if_pos rfl, Function.update_of_ne e]
        by_cases hx : x < a + 1
        · rw [if_pos hx]; omega
        · rw [if_neg hx, if_neg (show ¬ x < lo by omega)]

/-- Accesses of kind `K` to byte `a`. -/
def acc (K : Kind) (l : List Access) (a : Nat) : Nat := l.countP (fun e => decide (e.kind = K ∧ e.addr = a))
/-- Those of worker `t`. -/
def accBy (K : Kind) (t : Nat) (l : List Access) (a : Nat) : Nat := l.countP (fun e => decide (e.worker = t ∧ e.kind = K ∧ e.addr = a))

section
variable {w : Win} {js : List (Prog Unit)} {m0 : Mem} {K : Kind} {F : Nat → Nat}

theorem accBy_cons_ne {t s a b : Nat} {K' : Kind} {l : List Access} (h : s ≠ t) : accBy K t (⟨s, K', b⟩ :: l) a = accBy K t l a := by
  unfold accBy
  rw [List.countP_cons_of_neg (by simp [h])]

theorem accBy_spend {t a b : Nat} {K' : Kind} {l : List Access} {f : Nat → Nat} (h1 : K = K' → 1 ≤ f b) (h : accBy K t l a + f a ≤ F a) :
    accBy K t (⟨t, K', b⟩ :: l) a + spend K K' f b a ≤ F a := by
  unfold accBy spend at *
  by_cases hK : K = K'
  · subst hK
    rw [if_pos rfl]
    by_cases e : a = b
    · subst e
      rw [List.countP_cons_of_pos (by simp), Function.update_self]
      have := h1 rfl
      omega
    · rw [List.countP_cons_of_neg (by simp; exact fun h => e h.symm), Function.update_of_ne e]
      exact h
  · rw [if_neg hK, List.countP_cons_of_neg (by simp; intro h; exact absurd h.symm hK)]
    exact h

theorem log_bud (hX : ∀ p ∈ js, Bud K F p) {l : List Access} {d : Cfg} (h : Log w ⟨js, m0⟩ l d) :
    ∀ (t : Nat) (p : Prog Unit), d.jobs[t]? = some p → ∃ f, Bud K f p ∧ ∀ a, accBy K t l a + f a ≤ F a := by
  induction h with
  | refl => exact fun t p hp => ⟨F, hX p (List.mem_of_getElem? hp), fun a => by simp [accBy]⟩
  | @rd l d s b k h hj ha ih =>
    intro t p hp
    rcases get_set hp with ⟨rfl, rfl⟩ | ⟨hne, hp⟩
    · obtain ⟨f, hf, hc⟩ := ih _ _ hj
      exact ⟨_, hf.2 _, fun a => accBy_spend hf.1 (hc a)⟩
    · obtain ⟨f, hf, hc⟩ := ih _ _ hp
      exact ⟨f, hf, fun a => by rw [accBy_cons_ne hne]; exact hc a⟩
  | @wr l d s b v k h hj ha ih =>
    intro t p hp
    rcases get_set hp with ⟨rfl, rfl⟩ | ⟨hne, hp⟩
    · obtain ⟨f, hf, hc⟩ := ih _ _ hj
      exact ⟨_, hf.2, fun a => accBy_spend hf.1 (hc a)⟩
    · obtain ⟨f, hf, hc⟩ := ih _ _ hp
      exact ⟨f, hf, fun a => by rw [accBy_cons_ne hne]; exact hc a⟩

theorem log_job {l : List Access} {d : Cfg} (h : Log w ⟨js, m0⟩ l d) : d.jobs.length = js.length ∧ ∀ e ∈ l, e.worker < js.length := by
  induction h with
  | refl => exact ⟨rfl, fun e he => by cases he⟩
  | rd _ hj ha ih =>
    have := lt_of_getElem? hj
    exact ⟨by rw [List.length_set]; exact ih.1, fun e he => by
      rcases List.mem_cons.1 he with rfl | he
      · exact lt_of_lt_of_eq this ih.1
      · exact ih.2 e he⟩
  | wr _ hj ha ih =>
    have := lt_of_getElem? hj
    exact ⟨by rw [List.length_set]; exact ih.1, fun e he => by
      rcases List.mem_cons.1 he with rfl | he
      · exact lt_of_lt_of_eq this ih.1
      · exact ih.2 e he⟩

/-- No byte is accessed more often than the worker to which it belongs may. -/
theorem acc_le (hX : ∀ p ∈ js, Bud K F p) (hex : Exclusive w js m0) {l : List Access} {d : Cfg} (h : Log w ⟨js, m0⟩ l d) (a : Nat) : acc K l a ≤ F a := by
  by_cases h0 : ∃ e ∈ l, e.addr = a
  · obtain ⟨e, he, rfl⟩ := h0
    obtain ⟨h1, h2⟩ := log_job h
    have ht := h2 e he
    rw [← h1] at ht
    obtain ⟨f, _, hc⟩ := log_bud hX h e.worker _ (List.getElem?_eq_getElem ht)
    have e1 : acc K l e.addr = accBy K e.worker l e.addr := by
      unfold acc accBy
      refine List.countP_congr (fun x hx => ?_)
      simp only [decide_eq_true_eq]
      refine ⟨fun ⟨g1, g2⟩ => ⟨?_, g1, g2⟩, fun ⟨_, g1, g2⟩ => ⟨g1, g2⟩⟩
      exact hex _ _ _ _ e.addr (log_trace h) (List.mem_map.mpr ⟨x, hx, by rw [g2]⟩) (List.mem_map.mpr ⟨e, he, rfl⟩)
    rw [e1]
    have := hc e.addr
    omega
  · have : acc K l a = 0 := by
      unfold acc
      rw [List.countP_eq_zero]
      intro e he
      simp only [decide_eq_true_eq]
      exact fun hh => h0 ⟨e, he, hh.2⟩
    omega

theorem log_in {l : List Access} {d : Cfg} (h : Log w ⟨js, m0⟩ l d) : ∀ e ∈ l, w.has e.addr = true := by
  induction h with
  | refl =>
    intro e he
    cases he
  | rd _ hj ha ih =>
    intro e he
    rcases List.mem_cons.1 he with rfl | he
    · exact ha
    · exact ih e he
  | wr _ hj ha ih =>
    intro e he
    rcases List.mem_cons.1 he with rfl | he
    · exact ha
    · exact ih e he

/-- The accesses of a log, byte by byte. -/
theorem log_length {o len : Nat} {l : List Access} (h : ∀ e ∈ l, o ≤ e.addr ∧ e.addr < o + len) :
    l.length = ∑ j ∈ Finset.range len, (acc .read l (o + j) + acc .write l (o + j)) := by
  induction l with
  | nil => simp [acc]
  | cons e l ih =>
    have h1 := h e (List.mem_cons_self ..)
    have h2 := ih (fun e he => h e (List.mem_cons_of_mem _ he))
    have h3 : ∀ j ∈ Finset.range len, acc .read (e :: l) (o + j) + acc .write (e :: l) (o + j) = (acc .read l (o + j) + acc .write l (o + j)) + (if j = e.addr - o then 1 else 0) := by
      intro j hj
      have hj := Finset.mem_range.mp hj
      unfold acc
      rw [List.countP_cons, List.countP_cons]
      obtain ⟨t, k, a⟩ := e
      simp only at h1 ⊢
      by_cases e : j = a - o
      · have e' : a = o + j := by omega
        cases k <;> simp [e'] <;> omega
      · have e' : a ≠ o + j := by omega
        simp [e', e]
    rw [Finset.sum_congr rfl h3, Finset.sum_add_distrib, ← h2, Finset.sum_ite_eq', if_pos (Finset.mem_range.mpr (by omega))]
    rfl

/-! ## Reads come after writes -/

theorem log_fresh (hX : ∀ p ∈ js, NoRd p) {l : List Access} {d : Cfg} (h : Log w ⟨js, m0⟩ l d) :
    (∀ (t : Nat) (p : Prog Unit), d.jobs[t]? = some p → Fresh (fun a => ⟨t, .write, a⟩ ∈ l) p) ∧ OnlyOwn l := by
  have wk : ∀ {W W' : Nat → Prop} {p : Prog Unit}, Fresh W p → (∀ a, W a → W' a) → Fresh W' p := by
    intro W W' p hp
    induction p generalizing W W' with
    | ret => exact fun _ => trivial
    | fail => exact fun _ => trivial
    | rd a k ih => exact fun hw => ⟨hw _ hp.1, fun b => ih b (hp.2 b) hw⟩
    | wr a b k ih => exact fun hw => ih hp (fun x hx => hx.imp id (hw x))
  have own : ∀ {l : List Access} {e : Access}, OnlyOwn l → (∀ t a, e = ⟨t, .read, a⟩ → ∃ s, ⟨s, .write, a⟩ ∈ l) → OnlyOwn (e :: l) := by
    intro l e ho he later t a earlier hl
    cases later with
    | nil =>
      have := List.cons.inj (show e :: l = ⟨t, .read, a⟩ :: earlier from hl)
      obtain ⟨rfl, rfl⟩ := this
      exact he _ _ rfl
    | cons x later => exact ho later t a earlier (List.cons.inj (show e :: l = x :: (later ++ _) from hl)).2
  induction h with
  | refl => exact ⟨fun t p hp => hX p (List.mem_of_getElem? hp) _, fun later t a earlier h => by simp at h⟩
  | @rd l d s b k h hj ha ih =>
    refine ⟨fun t p hp => ?_, own ih.2 (fun t a he => ?_)⟩
    · rcases get_set hp with ⟨rfl, rfl⟩ | ⟨hne, hp⟩
      · exact wk ((ih.1 _ _ hj).2 _) (fun a ha => List.mem_cons_of_mem _ ha)
      · exact wk (ih.1 _ _ hp) (fun a ha => List.mem_cons_of_mem _ ha)
    · cases he
      exact ⟨s, (ih.1 _ _ hj).1⟩
  | @wr l d s b v k h hj ha ih =>
    refine ⟨fun t p hp => ?_, own ih.2 (fun t a he => by cases he)⟩
    rcases get_set hp with ⟨rfl, rfl⟩ | ⟨hne, hp⟩
    · refine wk (show Fresh (fun x => x = b ∨ ⟨s, .write, x⟩ ∈ l) p from ih.1 _ _ hj) (fun a ha => ?_)
      rcases ha with rfl | ha
      · exact List.mem_cons_self ..
      · exact List.mem_cons_of_mem _ ha
    · exact wk (ih.1 _ _ hp) (fun a ha => List.mem_cons_of_mem _ ha)

/-- A byte that was accessed was written, if it is never read before. -/
theorem OnlyOwn.written {l : List Access} (h : OnlyOwn l) {t a : Nat} (ht : (t, a) ∈ l.map (fun e => (e.worker, e.addr))) : 1 ≤ acc .write l a := by
  obtain ⟨e, he, e1⟩ := List.mem_map.mp ht
  have key : ∃ s, (⟨s, .write, a⟩ : Access) ∈ l := by
    obtain ⟨s, k, b⟩ := e
    simp only [Prod.mk.injEq] at e1
    obtain ⟨rfl, rfl⟩ := e1
    cases k
    · obtain ⟨later, earlier, hl⟩ := List.append_of_mem he
      obtain ⟨s', hs⟩ := h _ _ _ _ hl
      exact ⟨s', by rw [hl]; exact List.mem_append_right _ (List.mem_cons_of_mem _ hs)⟩
    · exact ⟨s, he⟩
  obtain ⟨s, hs⟩ := key
  unfold acc
  exact List.countP_pos_iff.mpr ⟨_, hs, by simp⟩

end

/-! ## The workers of a call -/

/-- The bytes of the output that are read: all in ADD mode, the masked one of `quant_uint4`. -/
def ReadBack (d : Desc) (o a : Nat) : Prop := (d.type ≠ .quant ∧ d.reducing = .add) ∨ Odd4 d o a

theorem ROnce.jobEntry {isa : Isa} {x : InBuf} {o : Nat} {d : Desc} {ti tc : Nat} (hl : d.Legal) (htc : ti < tc) (hn : d.numel * tc < 2 ^ 63) (hn' : d.numel < 2 ^ 59) :
    ROnce (ReadBack d o) (Verif.jobEntry isa x o d ti tc) 0 := by
  rw [jobEntry_eq htc hn hn']
  split
  · rename_i hlt
    have hp : packElems (packedBits d) ∣ cut (packElems (packedBits d)) d.numel tc ti := cut_dvd (by omega)
    have hp' : ti + 1 ≠ tc → packElems (packedBits d) ∣ cut (packElems (packedBits d)) d.numel tc (ti + 1) := fun h => cut_dvd h
    have hlast : ti + 1 = tc → cut (packElems (packedBits d)) d.numel tc (ti + 1) = d.numel := fun h => by rw [h]; exact cut_last
    generalize cut (packElems (packedBits d)) d.numel tc ti = b at *
    generalize cut (packElems (packedBits d)) d.numel tc (ti + 1) = e at *
    obtain ⟨type, numel, scale, zp, dtIn, dtOut, rounding, reducing, τ, fz⟩ := d
    unfold Desc.Legal at hl
    cases type <;> simp only at hl
    · obtain ⟨ft, hft, _⟩ := ft_of hl.1
      subst hft
      rw [quantizeDispatch_quant hl.2]
      refine (ROnce.quantGeneric ?_).lower (Nat.zero_le _)
      rintro rfl hodd
      simp only [packedBits, DType.bits, packElems] at hp hp' hlast
      norm_num at hp hp'
      refine Or.inr ⟨rfl, rfl, ?_, ?_⟩
      · show numel % 2 = 1
        by_cases h : ti + 1 = tc
        · have := hlast h; omega
        · have := hp' h; omega
      · show o + 4 * b / 8 + (e - b) / 2 = o + numel / 2
        by_cases h : ti + 1 = tc
        · have := hlast h; omega
        · have := hp' h; omega
    · obtain ⟨ft, hft, _⟩ := ft_of hl.2
      subst hft
      rw [quantizeDispatch_dequant hl.1]
      exact (ROnce.dequantGeneric (fun h a => Or.inl ⟨fun h => (by cases h), h⟩)).lower (Nat.zero_le _)
    · obtain ⟨ft, hft, _⟩ := ft_of hl.1
      subst hft
      rw [quantizeDispatch_requant hl.2]
      exact (ROnce.requantGeneric (fun h a => Or.inl ⟨fun h => (by cases h), h⟩)).lower (Nat.zero_le _)
  · exact .ret

end Verif

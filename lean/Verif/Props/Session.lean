import Verif.Proofs.Session
import Verif.Props.Concurrent
import Verif.Props.Examples

/-!
# Programs of several threads, each making any sequence of calls: C69
-/

namespace Verif.Props
open Spec

/-- A legal call, with whatever threshold the generator gives, is accepted and fine for every schedule of its workers. -/
theorem issue_fine {r : Req} (h : r.Legal) (g : Mt) (m : Mem) : ∃ g' js, r.issue g = (g', .ok js) ∧
    AllSchedules OnlyUb r.win js m (fun m' => runSeq r.win js m = .ok m') ∧
    (∀ m1, runSeq r.win js m = .ok m1 → AllSchedules NoFault r.win js m (fun m' => m' = m1)) := by
  have key : ∀ τ, ∃ js, r.call τ = .ok js ∧ AllSchedules OnlyUb r.win js m (fun m' => runSeq r.win js m = .ok m') ∧
      (∀ m1, runSeq r.win js m = .ok m1 → AllSchedules NoFault r.win js m (fun m' => m' = m1)) := by
    intro τ
    cases r with
    | quantize c x dtIn o outSize dtOut scale zp mode =>
      obtain ⟨n, rfl, hq⟩ := h
      exact C03_quantize_schedule_independent hq
    | dequantize c x inSize dtIn o outSize dtOut scale zp op =>
      obtain ⟨n, rfl, rfl, hq, hr⟩ := h
      exact C03_dequantize_schedule_independent hq hr
    | fused c x dt o outSize qt scale zp mode op =>
      obtain ⟨n, rfl, hq⟩ := h
      exact C03_fused_schedule_independent hq
  unfold Req.issue
  by_cases hs : r.rounding = .stochastic
  · rw [if_pos hs]
    obtain ⟨js, e, h1, h2⟩ := key (thresholdOf g.out)
    exact ⟨_, js, by rw [e], h1, h2⟩
  · rw [if_neg hs]
    obtain ⟨js, e, h1, h2⟩ := key f0
    exact ⟨_, js, by rw [e], h1, h2⟩

theorem soloOk_of_legal {p : Plan} (h : p.Legal) : ∀ (g : Mt) (m : Mem) (P : Mem → Plan), P m = p → SoloOk OnlyUb g P m := by
  induction p with
  | done => intro g m P e; exact .done e
  | call r k ih =>
    intro g m P e
    obtain ⟨g', js, h1, h2, -⟩ := issue_fine h.1 g m
    exact .call e h1 h2 (fun m1 _ => ih m1 (h.2 m1) g' m1 k rfl)

theorem soloOk_of_run {g : Mt} {P : Mem → Plan} {m m' : Mem} (hl : (P m).Legal) (h : SeqRun g P m m') : SoloOk NoFault g P m := by
  induction h with
  | done e => exact .done e
  | call e hc h1 _ ih =>
    rename_i g g' r P k js m m1 m2 _
    rw [e] at hl
    obtain ⟨g'', js', q1, q2, q3⟩ := issue_fine hl.1 g m
    rw [hc] at q1
    obtain ⟨rfl, e2⟩ := Prod.mk.inj q1
    cases e2
    have ha := q3 m1 h1
    refine .call e hc ⟨ha.safe, ha.raceFree, ha.progress, ha.bounded, fun n c hr hd => ?_⟩ (fun m1' e1 => ?_)
    · rw [ha.post n c hr hd]; exact h1
    · rw [h1] at e1
      cases e1
      exact ih (hl.2 m1)

/-- Executions of all threads, from executions of each of them alone. -/
theorem allRuns {E : Fault → Prop} {ts : List (Nat × Plan)} {Rs : Nat → Nat → Prop} {m0 : Mem}
    (hok : ∀ t ∈ ts, SoloOk E (Mt.init t.1) (fun _ => t.2) m0)
    (hloc : ∀ (t : Nat) (p : Nat × Plan), ts[t]? = some p → p.2.Local (Rs t))
    (hd : ∀ t u, t < ts.length → u < ts.length → t ≠ u → ∀ a, Rs t a → ¬ Rs u a) :
    AllRuns E (Sys.start ts m0) (fun s =>
      (∀ (t : Nat) (p : Nat × Plan) (c : Caller), ts[t]? = some p → s.callers[t]? = some c → c.Finished s.mem →
        ∃ m', SeqRun (Mt.init p.1) (fun _ => p.2) m0 m' ∧ ∀ a, Rs t a → s.mem a = m' a) ∧
      ∀ a, (∀ t, t < ts.length → ¬ Rs t a) → s.mem a = m0 a) := by
  have hlen : (Sys.start ts m0).callers.length = ts.length := by unfold Sys.start; simp
  have hget : ∀ (t : Nat) (p : Nat × Plan), ts[t]? = some p → (Sys.start ts m0).callers[t]? = some (Caller.mk (Mt.init p.1) (fun _ => p.2) ⟨0, 0⟩ []) := by
    intro t p e; unfold Sys.start; simp [e]
  have hin : ∀ (t : Nat) (c : Caller), (Sys.start ts m0).callers[t]? = some c → c.In (Rs t) := by
    intro t c e
    have htl : t < ts.length := by rw [← hlen]; exact (List.getElem?_eq_some_iff.mp e).1
    rw [hget t _ (List.getElem?_eq_getElem htl)] at e
    cases e
    exact ⟨Or.inl rfl, fun _ _ _ => rfl, fun _ => hloc t _ (List.getElem?_eq_getElem htl)⟩
  have hproj : ∀ n s, SysReach (Sys.start ts m0) n s → ∃ ks, SysView Rs (Sys.start ts m0) s n ks :=
    fun n s h => sysView hin (by rw [hlen]; exact hd) h
  -- what each thread sees
  have solo : ∀ t : Nat, ∃ N, ∀ p : Nat × Plan, ts[t]? = some p → ∀ {k : Nat} {c : Caller} {m' : Mem},
      CReach (Caller.mk (Mt.init p.1) (fun _ => p.2) ⟨0, 0⟩ []) m0 k c m' → k ≤ N ∧ SoloGood E (Mt.init p.1) (fun _ => p.2) m0 c m' := by
    intro t
    by_cases ht : t < ts.length
    · obtain ⟨N, hN⟩ := solo_good (hok _ (List.getElem_mem ht))
      refine ⟨N, fun p hp => ?_⟩
      rw [List.getElem?_eq_getElem ht] at hp
      cases hp
      exact fun {k c m'} h => hN rfl rfl (fun p hp => by simp at hp) h
    · refine ⟨0, fun p hp => ?_⟩
      rw [List.getElem?_eq_none (by omega)] at hp; cases hp
  choose N hN using solo
  -- a thread of a reachable state
  have view : ∀ n s, SysReach (Sys.start ts m0) n s → ∀ (t : Nat) (c : Caller), s.callers[t]? = some c → t < ts.length ∧ c.In (Rs t) ∧
      ∃ p m', ts[t]? = some p ∧ SoloGood E (Mt.init p.1) (fun _ => p.2) m0 c m' ∧ ∀ a, Rs t a → m' a = s.mem a := by
    intro n s hr t c e
    obtain ⟨ks, P⟩ := hproj n s hr
    have htl : t < ts.length := by rw [← hlen, ← P.len]; exact (List.getElem?_eq_some_iff.mp e).1
    have ep := List.getElem?_eq_getElem htl
    obtain ⟨c1, m', e1, i1, r1, a1⟩ := P.solo t _ (hget t _ ep)
    rw [e] at e1; cases e1
    exact ⟨htl, i1, _, m', ep, (hN t _ ep r1).2, a1⟩
  refine ⟨?_, ?_, ?_, ?_, ?_⟩
  · intro n s hr t c e
    obtain ⟨-, hI, p, m', -, sg, ag⟩ := view n s hr t c e
    rintro (h | ⟨hi, r, k, f, e1, e2⟩)
    · exact sg.safe (Or.inl h)
    · exact sg.safe (Or.inr ⟨hi, r, k, f, by rw [← e1]; exact hI.look _ _ ag, e2⟩)
  · rintro n s hr ⟨t, u, i, j, a, c, d, p, q, hne, hc, hd', hp, hq, ep, eq⟩
    obtain ⟨ht, hIc, _, _, -, sg, -⟩ := view n s hr t c hc
    obtain ⟨hu, hId, _, _, -, sg', -⟩ := view n s hr u d hd'
    by_cases htu : t = u
    · subst htu
      rw [hc] at hd'; cases hd'
      exact sg.raceFree i j a p q (hne.resolve_left (fun h => h rfl)) hp hq ep eq
    · have inR : ∀ {c : Caller} {i : Nat} {p : Prog Unit} {R : Nat → Prop} {g : Mt} {P : Mem → Plan} {m1 m2 : Mem}, c.In R → SoloGood E g P m1 c m2 →
          c.cur[i]? = some p → p.pending = some a → R a := by
        intro c i p R g P m1 m2 hI sg hp ep
        rcases hI.win with e | w
        · rw [e] at hp; cases hp
        · refine w a ?_
          by_contra hno
          exact sg.safe (Or.inl ⟨p, List.mem_of_getElem? hp, Or.inr ⟨a, ep, by simpa using hno⟩⟩)
      exact hd t u ht hu htu a (inR hIc sg hp ep) (inR hId sg' hq eq)
  · intro n s hr t c e hf hdd
    obtain ⟨-, hI, p, m', -, sg, ag⟩ := view n s hr t c e
    have hf' : ¬ c.Finished m' := fun h => hf ⟨h.1, by rw [← h.2]; exact (hI.look _ _ ag).symm⟩
    obtain ⟨c', m'', st⟩ := sg.progress hf' hdd
    obtain ⟨n', st', -⟩ := st.transfer hI (n := s.mem) (fun a ha => (ag a ha).symm)
    exact ⟨c', n', st'⟩
  · refine ⟨∑ t ∈ Finset.range ts.length, N t, fun n s hr => ?_⟩
    obtain ⟨ks, P⟩ := hproj n s hr
    rw [P.sum, hlen]
    refine Finset.sum_le_sum (fun t ht => ?_)
    have htl := Finset.mem_range.mp ht
    have ep := List.getElem?_eq_getElem htl
    obtain ⟨c1, m', e1, i1, r1, a1⟩ := P.solo t _ (hget t _ ep)
    exact (hN t _ ep r1).1
  · intro n s hr
    refine ⟨fun t p c hp hc hf => ?_, fun a ha => ?_⟩
    · obtain ⟨-, hI, p', m', hp', sg, ag⟩ := view n s hr t c hc
      rw [hp] at hp'; cases hp'
      exact ⟨m', sg.post ⟨hf.1, by rw [← hf.2]; exact hI.look _ _ ag⟩, fun a ha => (ag a ha).symm⟩
    · obtain ⟨ks, P⟩ := hproj n s hr
      exact P.out a (fun t ht => ha t (by rw [← hlen]; exact ht))

section
variable {ts : List (Nat × Plan)} {Rs : Nat → Nat → Prop} {m0 : Mem}

/-- C69. A program of any number of threads, each making any number of legal calls one after the other, later calls and
their inputs depending on what earlier ones have left in memory, where each thread writes and looks only at memory of its
own: every interleaving of all threads and all workers is race free, stays in the output spans of the calls, never sees a
call rejected, never blocks, and is finite; when a thread has finished, whatever the others are doing, its memory holds what
it leaves there when it runs alone and one worker after the other; memory that belongs to no thread never changes. -/
theorem C69_any_program (hlegal : ∀ t ∈ ts, t.2.Legal) (hloc : ∀ (t : Nat) (p : Nat × Plan), ts[t]? = some p → p.2.Local (Rs t))
    (hd : ∀ t u, t < ts.length → u < ts.length → t ≠ u → ∀ a, Rs t a → ¬ Rs u a) :
    AllRuns OnlyUb (Sys.start ts m0) (fun s =>
      (∀ (t : Nat) (p : Nat × Plan) (c : Caller), ts[t]? = some p → s.callers[t]? = some c → c.Finished s.mem →
        ∃ m', SeqRun (Mt.init p.1) (fun _ => p.2) m0 m' ∧ ∀ a, Rs t a → s.mem a = m' a) ∧
      ∀ a, (∀ t, t < ts.length → ¬ Rs t a) → s.mem a = m0 a) :=
  allRuns (fun t ht => soloOk_of_legal (hlegal t ht) _ _ _ rfl) hloc hd

/-- C69. If moreover each thread, running alone and one worker after the other, completes with memory `res t`, then no
interleaving faults, and a thread that has finished has left `res t` in its memory. -/
theorem C69_any_program_defined {res : Nat → Mem} (hlegal : ∀ t ∈ ts, t.2.Legal) (hloc : ∀ (t : Nat) (p : Nat × Plan), ts[t]? = some p → p.2.Local (Rs t))
    (hd : ∀ t u, t < ts.length → u < ts.length → t ≠ u → ∀ a, Rs t a → ¬ Rs u a)
    (hres : ∀ (t : Nat) (p : Nat × Plan), ts[t]? = some p → SeqRun (Mt.init p.1) (fun _ => p.2) m0 (res t)) :
    AllRuns NoFault (Sys.start ts m0) (fun s =>
      (∀ (t : Nat) (c : Caller), s.callers[t]? = some c → ¬ c.Dead) ∧
      (∀ (t : Nat) (c : Caller), s.callers[t]? = some c → c.Finished s.mem → ∀ a, Rs t a → s.mem a = res t a) ∧
      ∀ a, (∀ t, t < ts.length → ¬ Rs t a) → s.mem a = m0 a) := by
  have := allRuns (E := NoFault) (m0 := m0) (ts := ts) (fun p hp => by
    obtain ⟨t, ht⟩ := List.mem_iff_getElem?.mp hp
    exact soloOk_of_run (hlegal p hp) (hres t p ht)) hloc hd
  refine ⟨this.safe, this.raceFree, this.progress, this.bounded, fun n s hr => ?_⟩
  obtain ⟨h1, h2⟩ := this.holds n s hr
  refine ⟨fun t c hc hdd => ?_, fun t c hc hf a ha => ?_, h2⟩
  · obtain ⟨-, p, hp, f, rfl⟩ := hdd
    exact this.safe n s hr t c hc (Or.inl ⟨_, hp, Or.inl ⟨f, rfl, fun h => h⟩⟩)
  · have hlen : s.callers.length = ts.length := by rw [hr.length]; unfold Sys.start; simp
    have htl : t < ts.length := by rw [← hlen]; exact (List.getElem?_eq_some_iff.mp hc).1
    obtain ⟨m', r1, a1⟩ := h1 t _ c (List.getElem?_eq_getElem htl) hc hf
    rw [a1 a ha, r1.det (hres t _ (List.getElem?_eq_getElem htl))]

/-- C69 (reproducible). Two executions of the same program with the same seeds in which all threads have finished leave the
same memory. -/
theorem C69_reproducible (hlegal : ∀ t ∈ ts, t.2.Legal) (hloc : ∀ (t : Nat) (p : Nat × Plan), ts[t]? = some p → p.2.Local (Rs t))
    (hd : ∀ t u, t < ts.length → u < ts.length → t ≠ u → ∀ a, Rs t a → ¬ Rs u a) {n n' : Nat} {s s' : Sys}
    (h : SysReach (Sys.start ts m0) n s) (h' : SysReach (Sys.start ts m0) n' s')
    (hf : ∀ c ∈ s.callers, c.Finished s.mem) (hf' : ∀ c ∈ s'.callers, c.Finished s'.mem) : s.mem = s'.mem := by
  have A := C69_any_program (m0 := m0) hlegal hloc hd
  obtain ⟨a1, a2⟩ := A.holds n s h
  obtain ⟨b1, b2⟩ := A.holds n' s' h'
  have hl : (Sys.start ts m0).callers.length = ts.length := by unfold Sys.start; simp
  funext a
  by_cases ha : ∃ t, t < ts.length ∧ Rs t a
  · obtain ⟨t, ht, hR⟩ := ha
    have l1 : t < s.callers.length := by rw [h.length, hl]; exact ht
    have l2 : t < s'.callers.length := by rw [h'.length, hl]; exact ht
    obtain ⟨m1, r1, e1⟩ := a1 t _ _ (List.getElem?_eq_getElem ht) (List.getElem?_eq_getElem l1) (hf _ (List.getElem_mem l1))
    obtain ⟨m2, r2, e2⟩ := b1 t _ _ (List.getElem?_eq_getElem ht) (List.getElem?_eq_getElem l2) (hf' _ (List.getElem_mem l2))
    rw [e1 a hR, e2 a hR, r1.det r2]
  · push Not at ha
    rw [a2 a ha, b2 a ha]

end

/-! ## A concrete program -/

/-- The `n` bytes at `o` as the input of a call. -/
def bufAt (m : Mem) (o n : Nat) : InBuf := ⟨n, fun i => if i < n then m (o + i) else 0⟩

/-- A thread that quantizes five floats to uint4 at 1000, stochastically, with two AVX2 workers, and then dequantizes them to 1100
with three. -/
def planA : Plan :=
  .call (.quantize ⟨.avx2, 2, .none⟩ Ex.xs .f32 1000 3 .uint4 Ex.half 8 .stochastic) fun m =>
  .call (.dequantize ⟨.avx2, 3, .none⟩ (bufAt m 1000 3) 3 .uint4 1100 20 .f32 Ex.half 8 .set) fun _ => .done
/-- A thread that quantizes and dequantizes at 2000 in one call. -/
def planB : Plan := .call (.fused ⟨.portable, 1, .none⟩ Ex.xs .f32 2000 20 .uint4 Ex.half 8 .stochastic .set) fun _ => .done

/-- Which memory belongs to which thread. -/
def regions (t a : Nat) : Prop := if t = 0 then 1000 ≤ a ∧ a < 1200 else 2000 ≤ a ∧ a < 2020

/-- The hypotheses of C69 are met by these two threads with seeds 5489 and 42. -/
theorem session_ok : (∀ t ∈ [(5489, planA), (42, planB)], t.2.Legal) ∧
    (∀ (t : Nat) (p : Nat × Plan), [(5489, planA), (42, planB)][t]? = some p → p.2.Local (regions t)) ∧
    (∀ t u, t < 2 → u < 2 → t ≠ u → ∀ a, regions t a → ¬ regions u a) := by
  have hx : QArgs 2 Ex.xs .f32 .uint4 5 := ⟨rfl, rfl, rfl, by decide, by norm_num, by norm_num⟩
  have hx1 : QArgs 1 Ex.xs .f32 .uint4 5 := ⟨rfl, rfl, rfl, by decide, by norm_num, by norm_num⟩
  refine ⟨?_, ?_, ?_⟩
  · intro t ht
    simp only [List.mem_cons, List.not_mem_nil, or_false] at ht
    rcases ht with rfl | rfl
    · exact ⟨⟨5, rfl, hx⟩, fun m => ⟨⟨5, rfl, rfl, ⟨rfl, rfl, le_of_eq rfl, by decide, by norm_num, by norm_num⟩, fun h => by cases h⟩, fun _ => trivial⟩⟩
    · exact ⟨⟨5, rfl, hx1⟩, fun _ => trivial⟩
  · intro t p hp
    match t with
    | 0 =>
      cases hp
      refine ⟨fun a ha => ?_, fun m m' hm => ?_, fun m => ⟨fun a ha => ?_, fun _ _ _ => rfl, fun _ => trivial⟩⟩
      · change (decide (1000 ≤ a) && decide (a < 1003)) = true at ha
        unfold regions
        rw [if_pos rfl]
        simp at ha; omega
      · have e : bufAt m 1000 3 = bufAt m' 1000 3 := by
          unfold bufAt
          congr 1
          funext i
          by_cases hi : i < 3
          · rw [if_pos hi, if_pos hi]
            refine hm _ ?_
            unfold regions
            rw [if_pos rfl]; omega
          · rw [if_neg hi, if_neg hi]
        simp only [e]
      · change (decide (1100 ≤ a) && decide (a < 1120)) = true at ha
        unfold regions
        rw [if_pos rfl]
        simp at ha; omega
    | 1 =>
      cases hp
      refine ⟨fun a ha => ?_, fun _ _ _ => rfl, fun _ => trivial⟩
      change (decide (2000 ≤ a) && decide (a < 2020)) = true at ha
      unfold regions
      rw [if_neg (by norm_num)]
      simp at ha; omega
    | t + 2 => cases hp
  · intro t u ht hu hne a
    unfold regions
    split <;> split <;> omega

/-- `SeqRun` computed. -/
def runPlan (g : Mt) : Plan → Mem → Except Fault Mem
  | .done, m => .ok m
  | .call r k, m => match r.issue g with
    | (_, .error f) => .error f
    | (g', .ok js) => match runSeq r.win js m with
      | .error f => .error f
      | .ok m1 => runPlan g' (k m1) m1

theorem runPlan_sound {p : Plan} : ∀ {g : Mt} {P : Mem → Plan} {m m' : Mem}, P m = p → runPlan g p m = .ok m' → SeqRun g P m m' := by
  induction p with
  | done => intro g P m m' e h; cases h; exact .done e
  | call r k ih =>
    intro g P m m' e h
    unfold runPlan at h
    split at h
    · cases h
    · next g' js hc =>
      split at h
      · cases h
      · next m1 h1 => exact .call e hc h1 (ih m1 rfl h)

/-- Each of them alone completes; thread A's five numbers (1, -2.5, 0.3, 7.75, 100) come back as 1, -2.5, 0, 3.5, 3.5 (the last two
saturate). -/
theorem session_alone : (∃ m, SeqRun (Mt.init 5489) (fun _ => planA) Ex.old m ∧
      (List.range 5).map (fun i => (elem .f32 m 1100 i).toRat) = [1, -5 / 2, 0, 7 / 2, 7 / 2]) ∧
    ∃ m, SeqRun (Mt.init 42) (fun _ => planB) Ex.old m := by
  have key : ∀ (x : Except Fault Mem) (b : Mem → Bool), (match x with | .ok m => b m | _ => false) = true → ∃ m, x = .ok m ∧ b m = true := by
    intro x b h
    cases x with
    | error => cases h
    | ok m => exact ⟨m, rfl, h⟩
  obtain ⟨m, h1, h2⟩ := key (runPlan (Mt.init 5489) planA Ex.old)
    (fun m => decide ((List.range 5).map (fun i => (elem .f32 m 1100 i).toRat) = [1, -5 / 2, 0, 7 / 2, 7 / 2])) (by decide +kernel)
  obtain ⟨m', h3, -⟩ := key (runPlan (Mt.init 42) planB Ex.old) (fun _ => true) (by decide +kernel)
  exact ⟨⟨m, runPlan_sound rfl h1, of_decide_eq_true h2⟩, m', runPlan_sound rfl h3⟩

end Verif.Props

import Verif.Props.Examples
import Verif.Proofs.Concurrent
import Verif.Props.Quant
import Verif.Props.Sched

/-!
# Calls made at the same time: C50
-/

namespace Verif.Props
open Spec

/-- C50 (any calls). Calls made at the same time whose output spans are disjoint: if each of them,
made alone, has only executions that are safe, race free, terminating and end in a memory satisfying
its postcondition, so has the joint execution; at its end the memory agrees on the span of each call
with a memory satisfying the postcondition of that call, and nothing else has changed. -/
theorem C50_concurrent_calls {E : Fault → Prop} {m0 : Mem} (cs : List (Except Fault (List (Prog Unit)) × Win × (Mem → Prop))) (W : Win)
    (h : ∀ g ∈ cs, Always E g.1 g.2.1 m0 g.2.2)
    (hd : cs.Pairwise (fun g g' => ∀ a, g.2.1.has a = true → g'.2.1.has a = false))
    (hW : ∀ g ∈ cs, ∀ a, g.2.1.has a = true → W.has a = true) :
    Always E (together (cs.map (fun g => g.1))) W m0 (fun m =>
      (∀ g ∈ cs, ∃ m', g.2.2 m' ∧ ∀ a, g.2.1.has a = true → m a = m' a) ∧
      ∀ a, (∀ g ∈ cs, g.2.1.has a = false) → m a = m0 a) := by
  have key : ∃ gs : List (List (Prog Unit) × Win × (Mem → Prop)), (cs.map (fun g => g.1)).mapM id = (.ok (gs.map (fun g => g.1)) : Except Fault _) ∧
      gs.map (fun g => g.2) = cs.map (fun g => g.2) ∧ ∀ g ∈ gs, AllSchedules E g.2.1 g.1 m0 g.2.2 := by
    clear hd hW
    induction cs with
    | nil => exact ⟨[], rfl, rfl, fun g hg => by simp at hg⟩
    | cons g cs ih =>
      obtain ⟨gs, h1, h2, h3⟩ := ih (fun g' hg' => h g' (by simp [hg']))
      obtain ⟨js, hj, ha⟩ := h g (by simp)
      refine ⟨(js, g.2) :: gs, ?_, ?_, ?_⟩
      · rw [List.map_cons, List.mapM_cons, h1]
        simp only [id, hj]; rfl
      · simp [h2]
      · intro g' hg'
        rcases List.mem_cons.mp hg' with rfl | hg'
        · exact ha
        · exact h3 g' hg'
  obtain ⟨gs, h1, h2, h3⟩ := key
  have mem_iff : ∀ {p : Win × (Mem → Prop)}, (∃ g ∈ gs, g.2 = p) ↔ ∃ g ∈ cs, g.2 = p := by
    intro p
    rw [← List.mem_map (f := fun g : List (Prog Unit) × Win × (Mem → Prop) => g.2), h2, List.mem_map]
  have hd' : gs.Pairwise (fun g g' => ∀ a, g.2.1.has a = true → g'.2.1.has a = false) := by
    have : (gs.map (fun g => g.2)).Pairwise (fun p p' => ∀ a, p.1.has a = true → p'.1.has a = false) := by
      rw [h2, List.pairwise_map]; exact hd
    rwa [List.pairwise_map] at this
  refine ⟨(gs.map (fun g => g.1)).flatten, ?_, ?_⟩
  · unfold together; rw [h1]; rfl
  · have := AllP.flatten gs h3 hd'
    rw [← List.flatMap_def]
    refine all_iff.mpr (this.mono ?_ ?_)
    · rintro a ⟨g, hg, ha⟩
      obtain ⟨g', hg', e⟩ := mem_iff.mp ⟨g, hg, rfl⟩
      exact hW g' hg' a (by rw [e]; exact ha)
    · rintro m ⟨g1, g2⟩
      refine ⟨fun g hg => ?_, fun a ha => g2 a (fun g hg => ?_)⟩
      · obtain ⟨g', hg', e⟩ := mem_iff.mpr ⟨g, hg, rfl⟩
        have := g1 g' hg'
        rwa [e] at this
      · obtain ⟨g', hg', e⟩ := mem_iff.mp ⟨g, hg, rfl⟩
        have := ha g' hg'
        rwa [e] at this

/-- A request to the library. -/
inductive Request
  | quantize (c : Ctx) (x : InBuf) (dtIn dtOut : DType) (n o : Nat) (scale : F32) (zp : ℤ) (mode : RoundMode) (τ : F32)
  | dequantize (c : Ctx) (x : InBuf) (dtIn dtOut : DType) (n o : Nat) (scale : F32) (zp : ℤ) (op : ReduceOp)
  | fused (c : Ctx) (x : InBuf) (dtIn dtOut : DType) (n o : Nat) (scale : F32) (zp : ℤ) (mode : RoundMode) (op : ReduceOp) (τ : F32)

/-- The API call of a request. -/
def Request.call : Request → Except Fault (List (Prog Unit))
  | .quantize c x dtIn dtOut n o scale zp mode τ => Verif.quantize c x dtIn o (bytes dtOut.bits n) dtOut scale zp mode τ
  | .dequantize c x dtIn dtOut n o scale zp op => Verif.dequantize c x (bytes dtIn.bits n) dtIn o (dtOut.stride * n) dtOut scale zp op
  | .fused c x dtIn dtOut n o scale zp mode op τ => Verif.fused c x dtIn o (dtIn.stride * n) dtOut scale zp mode op τ

/-- Its output span. -/
def Request.win : Request → Win
  | .quantize _ _ _ dtOut n o _ _ _ _ => span o (bytes dtOut.bits n)
  | .dequantize _ _ _ dtOut n o _ _ _ => span o (dtOut.stride * n)
  | .fused _ _ dtIn _ n o _ _ _ _ _ => span o (dtIn.stride * n)

/-- Its arguments are legal. -/
def Request.Legal : Request → Prop
  | .quantize c x dtIn dtOut n _ _ _ _ _ => QArgs c.threads x dtIn dtOut n
  | .dequantize c x dtIn dtOut n _ _ _ _ => DArgs c.threads x dtIn dtOut n ∧ Readable dtIn dtOut n x.size
  | .fused c x dtIn dtOut n _ _ _ _ _ _ => QArgs c.threads x dtIn dtOut n

theorem Request.alone {r : Request} (h : r.Legal) (m0 : Mem) :
    ∃ js, r.call = .ok js ∧ AllSchedules OnlyUb r.win js m0 (fun m => runSeq r.win js m0 = .ok m) ∧
      (∀ m, runSeq r.win js m0 = .ok m → AllSchedules NoFault r.win js m0 (fun m' => m' = m)) := by
  cases r with
  | quantize => exact C03_quantize_schedule_independent h
  | dequantize => exact C03_dequantize_schedule_independent h.1 h.2
  | fused => exact C03_fused_schedule_independent h

/-- C50 (requests). Any number of legal quantize, dequantize and fused requests made at the same
time, on any contexts, with disjoint output spans: every interleaving of all their workers is race
free, stays inside the output spans and terminates; when all workers have finished, every output
span holds what the request leaves there when it is made alone, one worker after the other, and no
other byte has changed. -/
theorem C50_concurrent_requests {m0 : Mem} (rs : List Request) (W : Win) (h : ∀ r ∈ rs, r.Legal)
    (hd : rs.Pairwise (fun r r' => ∀ a, r.win.has a = true → r'.win.has a = false))
    (hW : ∀ r ∈ rs, ∀ a, r.win.has a = true → W.has a = true) :
    Always OnlyUb (together (rs.map Request.call)) W m0 (fun m =>
      (∀ r ∈ rs, ∃ js m', r.call = .ok js ∧ runSeq r.win js m0 = .ok m' ∧ ∀ a, r.win.has a = true → m a = m' a) ∧
      ∀ a, (∀ r ∈ rs, r.win.has a = false) → m a = m0 a) := by
  have := C50_concurrent_calls (E := OnlyUb) (m0 := m0)
    (rs.map (fun r => (r.call, r.win, fun m' => ∃ js, r.call = .ok js ∧ runSeq r.win js m0 = .ok m'))) W ?_ ?_ ?_
  · rw [List.map_map] at this
    obtain ⟨js, e, ha⟩ := this
    refine ⟨js, e, ha.safe, ha.raceFree, ha.progress, ha.bounded, fun k d hr hdn => ?_⟩
    obtain ⟨g1, g2⟩ := ha.post k d hr hdn
    refine ⟨fun r hr => ?_, fun a h => g2 a ?_⟩
    · obtain ⟨m', ⟨js, h1, h2⟩, h3⟩ := g1 _ (List.mem_map_of_mem hr)
      exact ⟨js, m', h1, h2, h3⟩
    · intro g hg
      obtain ⟨r, hr, rfl⟩ := List.mem_map.mp hg
      exact h r hr
  · intro g hg
    obtain ⟨r, hr, rfl⟩ := List.mem_map.mp hg
    obtain ⟨js, e, ha, _⟩ := Request.alone (h r hr) m0
    exact ⟨js, e, ha.safe, ha.raceFree, ha.progress, ha.bounded, fun k d h1 h2 => ⟨js, e, ha.post k d h1 h2⟩⟩
  · rw [List.pairwise_map]; exact hd
  · intro g hg
    obtain ⟨r, hr, rfl⟩ := List.mem_map.mp hg
    exact hW r hr

/-- C50 (requests without undefined arithmetic). If moreover each request made alone, one worker
after the other, completes with memory `res r`, then no interleaving of all of them faults. -/
theorem C50_concurrent_requests_defined {m0 : Mem} (rs : List Request) (res : Request → Mem) (W : Win) (h : ∀ r ∈ rs, r.Legal)
    (hd : rs.Pairwise (fun r r' => ∀ a, r.win.has a = true → r'.win.has a = false))
    (hW : ∀ r ∈ rs, ∀ a, r.win.has a = true → W.has a = true)
    (hok : ∀ r ∈ rs, ∀ js, r.call = .ok js → runSeq r.win js m0 = .ok (res r)) :
    Always NoFault (together (rs.map Request.call)) W m0 (fun m =>
      (∀ r ∈ rs, ∀ a, r.win.has a = true → m a = res r a) ∧
      ∀ a, (∀ r ∈ rs, r.win.has a = false) → m a = m0 a) := by
  have := C50_concurrent_calls (E := NoFault) (m0 := m0) (rs.map (fun r => (r.call, r.win, fun m' => m' = res r))) W ?_ ?_ ?_
  · rw [List.map_map] at this
    obtain ⟨js, e, ha⟩ := this
    refine ⟨js, e, ha.safe, ha.raceFree, ha.progress, ha.bounded, fun k d hr hdn => ?_⟩
    obtain ⟨g1, g2⟩ := ha.post k d hr hdn
    refine ⟨fun r hr => ?_, fun a h => g2 a ?_⟩
    · obtain ⟨m', rfl, h3⟩ := g1 _ (List.mem_map_of_mem hr)
      exact h3
    · intro g hg
      obtain ⟨r, hr, rfl⟩ := List.mem_map.mp hg
      exact h r hr
  · intro g hg
    obtain ⟨r, hr, rfl⟩ := List.mem_map.mp hg
    obtain ⟨js, e, _, ha⟩ := Request.alone (h r hr) m0
    exact ⟨js, e, ha _ (hok r hr js e)⟩
  · rw [List.pairwise_map]; exact hd
  · intro g hg
    obtain ⟨r, hr, rfl⟩ := List.mem_map.mp hg
    exact hW r hr

/-- Two requests at the same time: five floats to uint4 (at 1000) on two AVX2 threads, five uint4
codes to floats added to what is at 2000, on three portable threads. -/
def twoRequests : List Request :=
  [.quantize ⟨.avx2, 2, .none⟩ Ex.xs .f32 .uint4 5 1000 Ex.half 8 .nearest f0,
   .dequantize ⟨.portable, 3, .none⟩ (Ex.buf [0x21, 0x43, 0x05]) .uint4 .f32 5 2000 Ex.half 8 .add]

/-- The hypotheses of C50 are met by them. -/
theorem two_ok : (∀ r ∈ twoRequests, r.Legal) ∧
    twoRequests.Pairwise (fun r r' => ∀ a, r.win.has a = true → r'.win.has a = false) ∧
    ∀ r ∈ twoRequests, ∀ a, r.win.has a = true → Win.has ⟨0, 4096⟩ a = true := by
  refine ⟨?_, ?_, ?_⟩
  · intro r hr
    simp only [twoRequests, List.mem_cons, List.not_mem_nil, or_false] at hr
    rcases hr with rfl | rfl
    · exact ⟨rfl, rfl, rfl, by decide, by norm_num, by norm_num⟩
    · exact ⟨⟨rfl, rfl, by decide, by decide, by norm_num, by norm_num⟩, fun h => by cases h⟩
  · simp only [twoRequests, List.pairwise_cons, List.mem_cons, List.not_mem_nil, or_false, forall_eq]
    refine ⟨fun a ha => ?_, by simp⟩
    change (decide (1000 ≤ a) && decide (a < 1003)) = true at ha
    change (decide (2000 ≤ a) && decide (a < 2020)) = false
    simp at ha ⊢; omega
  · intro r hr a ha
    simp only [twoRequests, List.mem_cons, List.not_mem_nil, or_false] at hr
    rcases hr with rfl | rfl
    · change (decide (1000 ≤ a) && decide (a < 1003)) = true at ha
      simp [Win.has] at ha ⊢; omega
    · change (decide (2000 ≤ a) && decide (a < 2020)) = true at ha
      simp [Win.has] at ha ⊢; omega

/-- Each of them made alone completes. -/
theorem two_run : ∀ r ∈ twoRequests, ∃ js m, r.call = .ok js ∧ runSeq r.win js Ex.old = .ok m := by
  have key : ∀ (call : Except Fault (List (Prog Unit))) (w : Win) (m0 : Mem),
      (match call with | .ok js => (match runSeq w js m0 with | .ok _ => true | _ => false) | _ => false) = true →
      ∃ js m, call = .ok js ∧ runSeq w js m0 = .ok m := by
    intro call w m0 h
    cases call with
    | error => cases h
    | ok js =>
      simp only at h
      split at h
      · next m hm => exact ⟨js, m, rfl, hm⟩
      · cases h
  intro r hr
  simp only [twoRequests, List.mem_cons, List.not_mem_nil, or_false] at hr
  rcases hr with rfl | rfl <;> exact key _ _ _ (by decide +kernel)

end Verif.Props

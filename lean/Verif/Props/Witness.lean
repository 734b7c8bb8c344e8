import Verif.Props.Session
import Verif.Props.Weak
import Verif.Props.Concurrent
import Verif.Props.ParamsSet
import Verif.Props.Offset
import Verif.Props.Readme
import Verif.Props.PyTest
import Verif.Props.Ieee
import Verif.Props.Rng
import Verif.Props.Pipeline
import Verif.Props.Fused
import Verif.Props.Typed

/-!
# Concrete cases for the theorems whose hypotheses are about executions

Most theorems are followed by an `example` that applies them to a concrete call.  The ones here need an execution, an
outcome or a result of another theorem as well.
-/

namespace Verif.Props
open Spec

/-! ## C02: traces in which two workers have written -/

/-- A worker whose next access is a write. -/
def writesNext (p : Prog Unit) : Option Nat := match p with
  | .wr a _ _ => some a
  | _ => none

/-- Where the workers of a call write first. -/
def firstWrites (call : Call) : List (Option Nat) := match call with
  | .ok js => js.map writesNext
  | .error _ => []

theorem writesNext_some {p : Prog Unit} {a : Nat} (h : writesNext p = some a) : ∃ b k, p = .wr a b k := by
  cases p with
  | ret => cases h
  | fail => cases h
  | rd => cases h
  | wr a' b k => cases h; exact ⟨b, k, rfl⟩

theorem two_writes {call : Call} {w : Win} {m0 : Mem} {a b : Nat} {r : List (Option Nat)} (h : firstWrites call = some a :: some b :: r)
    (ha : w.has a = true) (hb : w.has b = true) : ∃ js d, call = .ok js ∧ Trace w ⟨js, m0⟩ [(1, b), (0, a)] d := by
  cases call with
  | error => cases h
  | ok js =>
    match js, h with
    | [], h => cases h
    | [_], h => simp [firstWrites] at h
    | p :: q :: js, h =>
      simp only [firstWrites, List.map_cons, List.cons.injEq] at h
      obtain ⟨b1, k1, rfl⟩ := writesNext_some h.1
      obtain ⟨b2, k2, rfl⟩ := writesNext_some h.2.1
      exact ⟨_, _, rfl, .wr (.wr .refl (t := 0) rfl ha) (t := 1) rfl hb⟩

/-- Two workers of a quantize call have each written their first byte, and the bytes differ. -/
example : ∃ js d a b, quantize ⟨.portable, 2, .none⟩ Ex.xs .f32 1000 (bytes 4 5) .uint4 Ex.half 8 .nearest f0 = .ok js ∧
    Trace (span 1000 (bytes 4 5)) ⟨js, Ex.old⟩ [(1, b), (0, a)] d ∧ a ≠ b := by
  obtain ⟨js, d, e, t⟩ := two_writes (call := quantize ⟨.portable, 2, .none⟩ Ex.xs .f32 1000 (bytes 4 5) .uint4 Ex.half 8 .nearest f0)
    (w := span 1000 (bytes 4 5)) (m0 := Ex.old) (a := 1000) (b := 1001) (r := []) (by decide +kernel) (by decide) (by decide)
  refine ⟨js, d, _, _, e, t, fun hab => ?_⟩
  have := C02_quantize_no_shared_byte (s := 0) (t := 1) (a := 1000) ⟨rfl, rfl, rfl, sz 5 2⟩ e t (by simp) (by simp at hab)
  omega

/-- The same for a dequantize call. -/
example : ∃ js d a b, dequantize ⟨.portable, 2, .none⟩ (Ex.buf [0x21, 0x43, 0x05]) (bytes 4 5) .uint4 2000 (4 * 5) .f32 Ex.half 8 .set = .ok js ∧
    Trace (span 2000 (4 * 5)) ⟨js, Ex.old⟩ [(1, b), (0, a)] d ∧ (∀ s, (s, b) ∈ [(1, b), (0, a)] → s = 1) := by
  obtain ⟨js, d, e, t⟩ := two_writes (call := dequantize ⟨.portable, 2, .none⟩ (Ex.buf [0x21, 0x43, 0x05]) (bytes 4 5) .uint4 2000 (4 * 5) .f32 Ex.half 8 .set)
    (w := span 2000 (4 * 5)) (m0 := Ex.old) (a := 2000) (b := 2008) (r := []) (by decide +kernel) (by decide) (by decide)
  exact ⟨js, d, _, _, e, t, fun s hs => C02_dequantize_no_shared_byte (dtIn := .uint4) (dtOut := .f32) ⟨rfl, rfl, by decide, sz 5 2⟩ (fun h => by cases h) e t hs (by simp)⟩

/-- The same for a fused call. -/
example : ∃ js d a b, fused ⟨.portable, 2, .none⟩ Ex.xs .f32 2000 (4 * 5) .uint4 Ex.half 8 .nearest .set f0 = .ok js ∧
    Trace (span 2000 (4 * 5)) ⟨js, Ex.old⟩ [(1, b), (0, a)] d ∧ (∀ s, (s, b) ∈ [(1, b), (0, a)] → s = 1) := by
  obtain ⟨js, d, e, t⟩ := two_writes (call := fused ⟨.portable, 2, .none⟩ Ex.xs .f32 2000 (4 * 5) .uint4 Ex.half 8 .nearest .set f0)
    (w := span 2000 (4 * 5)) (m0 := Ex.old) (a := 2000) (b := 2008) (r := []) (by decide +kernel) (by decide) (by decide)
  exact ⟨js, d, _, _, e, t, fun s hs => C02_fused_no_shared_byte (dtIn := .f32) (dtOut := .uint4) ⟨rfl, rfl, rfl, sz 5 2⟩ e t hs (by simp)⟩

/-! ## C18: the mean over thresholds -/

/-- The float32 nearest to `k / 4`. -/
def quarters (k : Nat) : F32 := match k with
  | 0 => f0
  | 1 => Ex.quarter
  | 2 => Ex.half
  | _ => ⟨false, 0x3f400000⟩

/-- Four thresholds and an outcome of a call with each of them. -/
example : ∃ ms : Nat → Mem, |((List.range 4).map (fun k => ((code 8 (ms k) 1000 3 : ℤ) - (64 : ℤ) : ℚ))).sum / (4 : Nat) - (scaled (elem .f32 Ex.many.data 0 3) Ex.tenth).toRat| ≤ 0 + 1 / (4 : Nat) := by
  have hd : ∀ i, i < 70 → (scaled (elem .f32 Ex.many.data 0 i) Ex.tenth).isFin = true ∧ |(scaled (elem .f32 Ex.many.data 0 i) Ex.tenth).toRat| ≤ 2 ^ 62 := by decide +kernel
  have hq : QArgs Ex.c1.threads Ex.many .f32 .uint8 70 := by wit
  have ho : ∀ k : Nat, ∃ m, Outcome (quantize Ex.c1 Ex.many .f32 1000 (bytes 8 70) .uint8 Ex.tenth 64 .stochastic (quarters k)) (span 1000 (bytes 8 70)) Ex.old m := by
    intro k
    have hk : (quarters k).isFin = true ∧ 0 ≤ (quarters k).toRat := by
      have hk : ∀ r : F32, (r = f0 ∨ r = Ex.quarter ∨ r = Ex.half ∨ r = ⟨false, 0x3f400000⟩) → r.isFin = true ∧ 0 ≤ r.toRat := by
        rintro r (rfl | rfl | rfl | rfl) <;> decide +kernel
      exact hk _ (by rcases k with _ | _ | _ | k <;> simp [quarters])
    exact always_outcome (C17_stochastic_neighbours (dtOut := .uint8) hq (by decide) hk.1 hk.2 hd)
  choose ms hm using ho
  exact ⟨ms, C18_stochastic_mean (dtOut := .uint8) (N := 4) (ε := 0) (τs := quarters) (m0s := fun _ => Ex.old) (i := 3) hq (by decide) (by decide) le_rfl (by decide +kernel) hd
    (fun k _ => hm k) (by decide) (by decide +kernel) (by decide +kernel)⟩

/-- Every value of the generator and an outcome of a call with the threshold drawn from it. -/
example : ∃ ms : Nat → Mem, |((List.range (2 ^ 64)).map (fun w => ((code 8 (ms w) 1000 3 : ℤ) - (64 : ℤ) : ℚ))).sum / 2 ^ 64 - (scaled (elem .f32 Ex.many.data 0 3) Ex.tenth).toRat| ≤ 1 / 2 ^ 24 + 1 / 2 ^ 64 := by
  have hd : ∀ i, i < 70 → (scaled (elem .f32 Ex.many.data 0 i) Ex.tenth).isFin = true ∧ |(scaled (elem .f32 Ex.many.data 0 i) Ex.tenth).toRat| ≤ 2 ^ 62 := by decide +kernel
  have hq : QArgs Ex.c1.threads Ex.many .f32 .uint8 70 := by wit
  have ho : ∀ w : Nat, ∃ m, w < 2 ^ 64 → Outcome (quantize Ex.c1 Ex.many .f32 1000 (bytes 8 70) .uint8 Ex.tenth 64 .stochastic (thresholdOf w)) (span 1000 (bytes 8 70)) Ex.old m := by
    intro w
    by_cases hw : w < 2 ^ 64
    · obtain ⟨h1, h2, _⟩ := threshold_val hw
      obtain ⟨m, hm⟩ := always_outcome (C17_stochastic_neighbours (c := Ex.c1) (x := Ex.many) (dtOut := .uint8) (scale := Ex.tenth) (zp := 64) (o := 1000) (m0 := Ex.old) hq (by decide) h1 h2 hd)
      exact ⟨m, fun _ => hm⟩
    · exact ⟨Ex.old, fun h => absurd h hw⟩
  choose ms hm using ho
  exact ⟨ms, C18_generator_mean (dtOut := .uint8) (m0s := fun _ => Ex.old) (i := 3) hq (by decide) hd hm (by decide) (by decide +kernel) (by decide +kernel)⟩

/-! ## C22, C33, C47 -/

/-- The floats of `lane3` on SSE4.2: the minimum is not among the elements that count. -/
example := C22_false_whenever_unseen (isa := .sse42) (dt := .uint8) C22_false_sse42.1 (by decide) C22_false_sse42.2.1 C22_false_sse42.2.2.1
  (Or.inl (by
    rintro ⟨t, ⟨b, hb, h1, h2, h3⟩, e⟩
    simp only [List.mem_singleton] at hb
    subst hb
    have hv : ∀ t, t < 16 → -100 = (elem .f32 lane3.data 0 t).toRat → t = 3 := by decide +kernel
    have ht := hv t h2 e
    subst ht
    rcases h3 rfl with h | h
    · revert h; decide
    · revert h; decide))

/-- Quantizing five floats on a context with no workers. -/
example : ∃ js, quantize ⟨.avx2, 0, .none⟩ Ex.xs .f32 100 (bytes 4 5) .uint4 f1 0 .nearest f0 = .ok js ∧ AllSchedules NoFault (span 100 3) js Ex.old (fun m => m = Ex.old) :=
  ⟨_, rfl, C33_zero_threads_writes_nothing (x := Ex.xs) (dtIn := .f32) (o := 100) (n := 5) (dtOut := .uint4) (scale := f1) (zp := 0) (mode := .nearest) (τ := f0) .avx2 .none rfl⟩

/-- Calls that Python accepts. -/
example := C47_quantize_rejects (c := Ex.c1) (t := ⟨.float32, 70, 64, Ex.many⟩) (alloc := 128) (scale := Flt.cvt f64 Ex.tenth) (zp := 64) (dtype := .quint8)
  (mode := "nearest") (τ := f0) ⟨by decide +kernel, by decide⟩
  (C47_quantize_is_native_call (t := ⟨.float32, 70, 64, Ex.many⟩) (d := .f32) (q := .uint8) (m := .nearest) ⟨by decide +kernel, by decide⟩
    (by decide) (by decide +kernel) (by decide) (by decide) rfl rfl rfl rfl rfl).1
example := C47_dequantize_rejects (c := Ex.c1) (t := ⟨.quint4x2, 139, 64, Ex.codes⟩) (alloc := 128) (scale := Flt.cvt f64 Ex.tenth) (zp := 7) (dtype := .bfloat16)
  (op := "set") ⟨by decide +kernel, by decide⟩
  (C47_dequantize_is_native_call (t := ⟨.quint4x2, 139, 64, Ex.codes⟩) (d := .bf16) (q := .uint4) (r := .set) ⟨by decide +kernel, by decide⟩
    (by decide) (by decide) (by decide) rfl rfl rfl rfl (by decide) rfl).1

/-! ## C49, C64: Python round trips -/

theorem rand3_sees (isa : Isa) : Sees isa .bf16 rand3.store 3 [(0, 3)] :=
  sees_small (dt := .uint4) ⟨rfl, by decide, rfl, by omega, rfl⟩ (by omega) (by intro _ b hb; simp only [List.mem_singleton] at hb; subst hb; decide)

example := C49_python_roundtrip_partial (c := Ex.c1) (c' := Ex.c2) (t := rand3) (alloc := 128) (alloc' := 256) (dtype := .quint4x2) (blocks := fun _ => [(0, 3)])
  (m0 := Ex.old) (m0' := Ex.old) (τ := f0) rand3_ok.1 (by decide) (Or.inr rfl) rand3_ok.2.1 (by decide) ⟨rfl, by decide, rfl⟩ ⟨by decide, by decide, by decide⟩
  ⟨by decide, by decide, by decide⟩ (rand3_sees _) rand3_ok.2.2.1 (by norm_num) (by decide) (by decide) rand3_params (by decide +kernel) (by decide +kernel) (by decide)

example := C64_readme_workflow_partial (c := Ex.c1) (c' := Ex.c2) (t := rand3) (alloc := 128) (alloc' := 256) (dtype := .quint4x2) (pblocks := fun _ => [(0, 3)])
  (m0 := Ex.old) (m0' := Ex.old) (τ := f0) rand3_ok.1 (by decide) (Or.inr rfl) rand3_ok.2.1 (by decide) ⟨rfl, by decide, rfl⟩ ⟨by decide, by decide, by decide⟩
  ⟨by decide, by decide, by decide⟩ (rand3_sees _) rand3_ok.2.2.1 (by norm_num) (by norm_num) (by decide) (by decide) rand3_params (by decide +kernel) (by decide +kernel)

/-! ## C50: calls at the same time -/

example := C50_concurrent_requests (m0 := Ex.old) twoRequests ⟨0, 4096⟩ two_ok.1 two_ok.2.1 two_ok.2.2

/-- What each of the two leaves in memory, when run alone. -/
example : ∃ res : Request → Mem, Always NoFault (together (twoRequests.map Request.call)) ⟨0, 4096⟩ Ex.old (fun m =>
    (∀ r ∈ twoRequests, ∀ a, r.win.has a = true → m a = res r a) ∧ ∀ a, (∀ r ∈ twoRequests, r.win.has a = false) → m a = Ex.old a) := by
  have h : ∀ r : Request, ∃ m, r ∈ twoRequests → ∀ js, r.call = .ok js → runSeq r.win js Ex.old = .ok m := by
    intro r
    by_cases hr : r ∈ twoRequests
    · obtain ⟨js, m, e, hm⟩ := two_run r hr
      refine ⟨m, fun _ js' e' => ?_⟩
      rw [e] at e'; cases e'; exact hm
    · exact ⟨Ex.old, fun h => absurd h hr⟩
  choose res hres using h
  exact ⟨res, C50_concurrent_requests_defined twoRequests res ⟨0, 4096⟩ two_ok.1 two_ok.2.1 two_ok.2.2 (fun r hr => hres r hr)⟩

/-- Two quantize calls at the same time, with what each guarantees alone (C07). -/
example := C50_concurrent_calls (m0 := Ex.old)
  [(_, _, _), (_, _, _)] ⟨0, 4096⟩
  (by
    simp only [List.forall_mem_cons]
    exact ⟨C07_vector_nearest (c := Ex.c1) (x := Ex.many) (dtIn := .f32) (dtOut := .uint8) (n := 70) (o := 1000) (scale := Ex.tenth) (τ := f0) (zp := 64) (by wit) (by wit) (by wit),
      C07_vector_nearest (c := Ex.c3) (x := Ex.manyNeg) (dtIn := .f32) (dtOut := .uint4) (n := 70) (o := 2000) (scale := Ex.half) (τ := f0) (zp := 7) (by wit) (by wit) (by wit), by simp⟩)
  (by
    simp only [List.pairwise_cons, List.mem_cons, List.not_mem_nil, or_false, forall_eq]
    refine ⟨fun a ha => ?_, by simp⟩
    change (decide (1000 ≤ a) && decide (a < 1070)) = true at ha
    change (decide (2000 ≤ a) && decide (a < 2035)) = false
    simp at ha ⊢; omega)
  (by
    simp only [List.forall_mem_cons]
    refine ⟨fun a ha => ?_, fun a ha => ?_, by simp⟩
    · change (decide (1000 ≤ a) && decide (a < 1070)) = true at ha
      change (decide (0 ≤ a) && decide (a < 4096)) = true
      simp at ha ⊢; omega
    · change (decide (2000 ≤ a) && decide (a < 2035)) = true at ha
      change (decide (0 ≤ a) && decide (a < 4096)) = true
      simp at ha ⊢; omega)

/-! ## C62, C63: parameters -/

example := C62_set_of_values_partial (isa := .sse42) (isa' := .avx2) (dt := .uint4) xf1_ok.1 xf1_ok.2.1 (by decide) (by decide) xf1_ok.2.2.1 xf1_ok.2.2.2.1
  xf1_ok.2.2.2.2.1 xf1_ok.2.2.2.2.2.1 xf1_ok.2.2.2.2.2.2

theorem xf2_args : PArgs .f32 xf2 5 [(0, 5)] .uint4 := ⟨rfl, by decide, rfl, by omega, rfl⟩
theorem xf2_fin : AllFin .f32 xf2 5 := by unfold AllFin; decide +kernel
theorem xf2_sees : Sees .avx512f .f32 xf2 5 [(0, 5)] := sees_small xf2_args (by omega) (fun h => by cases h)

example := C62_interior_data_partial (isa := .avx2) (isa' := .avx512f) (dt := .uint4) xf1_ok.2.1 xf2_args (by decide) (by decide) xf1_ok.2.2.2.1 xf2_fin
  xf1_ok.2.2.2.2.2.1 xf2_sees xf2_ok.1 xf2_ok.2.1

example := C62_scale_monotone_partial (isa := .avx2) (isa' := .avx512f) (dt := .uint4) xf1_ok.2.1 xf2_args (by decide) (by decide) xf1_ok.2.2.2.1 xf2_fin
  xf1_ok.2.2.2.2.2.1 xf2_sees xf2_ok.1 xf2_ok.2.2.1 (s := (params 4 (-5 / 2) 3).1) (z := (params 4 (-5 / 2) 3).2) (s' := (params 4 (-5 / 2) 3).1) (z' := (params 4 (-5 / 2) 3).2)
  (retIs_iff (by decide +kernel)) (retIs_iff (by decide +kernel))

example := C62_permutation_partial (isa := .avx2) (isa' := .portable) (ft := .bf16) (x := Ex.xb) (x' := Ex.buf (Ex.words16 [0xc020, 0x3f80, 0x4040])) (blocks := [(0, 3)])
  (blocks' := [(0, 1), (1, 3)]) (dt := .uint4) (Equiv.swap 0 1 : Equiv.Perm (Fin 3)) xf1_ok.1 ⟨rfl, by decide, rfl, by omega, rfl, by omega, rfl⟩ (by decide) xf1_ok.2.2.1
  (sees_small (dt := .uint4) ⟨rfl, by decide, rfl, by omega, rfl⟩ (by omega) (fun h => by cases h))
  (sees_small (dt := .uint4) ⟨rfl, by decide, rfl, by omega, rfl, by omega, rfl⟩ (by omega) (fun h => by cases h)) (by decide +kernel)

example := C63_offset_is_lost (isa := .portable) (c := Ex.c1) (c' := Ex.c2) (o := 1000) (o' := 3000) (m0 := Ex.old) (m0' := Ex.old) (τ := f0) offs_ok.1 (by decide)
  offs_ok.2.1 (sees_small offs_ok.1 (by omega) (fun h => by cases h)) offs_ok.2.2.1 (by norm_num) (by norm_num) offs_ok.2.2.2.1 (by decide +kernel) (by decide +kernel)
  offs_ok.2.2.2.2.2.2 ⟨rfl, by decide, by decide, by decide, by decide, by decide⟩ ⟨by decide, by decide, by decide⟩

/-! ## C69: programs -/

example := C69_any_program (ts := [(5489, planA), (42, planB)]) (Rs := regions) (m0 := Ex.old) session_ok.1 session_ok.2.1 session_ok.2.2

/-- In a program whose executions all go well every execution can be continued until all threads have made all their calls. -/
theorem runs_finish {s0 : Sys} {Q : Sys → Prop} (h : AllRuns NoFault s0 Q) : ∃ n s, SysReach s0 n s ∧ ∀ c ∈ s.callers, c.Finished s.mem := by
  obtain ⟨N, hN⟩ := h.bounded
  have key : ∀ k n s, N - n ≤ k → SysReach s0 n s → ∃ n' s', SysReach s0 n' s' ∧ ∀ c ∈ s'.callers, c.Finished s'.mem := by
    intro k
    induction k with
    | zero =>
      intro n s hk hr
      by_contra hc
      push Not at hc
      obtain ⟨c, hm, hf⟩ := hc n s hr
      obtain ⟨t, ht⟩ := List.getElem?_of_mem hm
      obtain ⟨c', m', st⟩ := h.progress n s hr t c ht hf (fun ⟨_, p, hp, f, e⟩ => h.safe n s hr t c ht (Or.inl ⟨p, hp, Or.inl ⟨f, e, id⟩⟩))
      have := hN _ _ (hr.tail (.mk ht st)); omega
    | succ k ih =>
      intro n s hk hr
      by_cases hc : ∀ c ∈ s.callers, c.Finished s.mem
      · exact ⟨n, s, hr, hc⟩
      · push Not at hc
        obtain ⟨c, hm, hf⟩ := hc
        obtain ⟨t, ht⟩ := List.getElem?_of_mem hm
        obtain ⟨c', m', st⟩ := h.progress n s hr t c ht hf (fun ⟨_, p, hp, f, e⟩ => h.safe n s hr t c ht (Or.inl ⟨p, hp, Or.inl ⟨f, e, id⟩⟩))
        exact ih (n + 1) _ (by omega) (hr.tail (.mk ht st))
  exact key N 0 s0 (by omega) .refl

theorem session_defined : ∃ res : Nat → Mem, ∀ (t : Nat) (p : Nat × Plan), [(5489, planA), (42, planB)][t]? = some p → SeqRun (Mt.init p.1) (fun _ => p.2) Ex.old (res t) := by
  obtain ⟨⟨m, h, _⟩, m', h'⟩ := session_alone
  refine ⟨fun t => if t = 0 then m else m', fun t p hp => ?_⟩
  match t with
  | 0 => cases hp; exact h
  | 1 => cases hp; exact h'
  | t + 2 => cases hp

example := C69_any_program_defined (Rs := regions) session_ok.1 session_ok.2.1 session_ok.2.2 session_defined.choose_spec

/-- The two threads have an execution to the end; every other one leaves the same bytes. -/
example : ∃ n s, SysReach (Sys.start [(5489, planA), (42, planB)] Ex.old) n s ∧ (∀ c ∈ s.callers, c.Finished s.mem) ∧
    ∀ n' s', SysReach (Sys.start [(5489, planA), (42, planB)] Ex.old) n' s' → (∀ c ∈ s'.callers, c.Finished s'.mem) → s.mem = s'.mem := by
  obtain ⟨n, s, hr, hf⟩ := runs_finish (C69_any_program_defined (Rs := regions) session_ok.1 session_ok.2.1 session_ok.2.2 session_defined.choose_spec)
  exact ⟨n, s, hr, hf, fun n' s' hr' hf' => C69_reproducible (Rs := regions) session_ok.1 session_ok.2.1 session_ok.2.2 hr hr' hf hf'⟩

/-! ## C84 -/

example := C84_fused (r := .flag) (c := Ex.c1) (x := Ex.many) (dtIn := .f32) (dtOut := .uint8) (n := 70) (o := 1000) (scale := Ex.tenth) (τ := f0) (zp := 64) (mode := .nearest)
  (op := .set) (m0 := Ex.old) (by wit) (C32_fused_f32_formula (by wit) (by wit) (by wit))

example := C84_quantize_small_partial (r := .flag) (c := Ex.c1) (x := Ex.xs) (dtIn := .f32) (dtOut := .uint8) (n := 5) (o := 1000) (scale := Ex.tenth) (τ := f0) (zp := 64)
  (mode := .nearest) (m0 := Ex.old) (by wit) (by decide) (C07_vector_nearest (by wit) (by wit) (by wit))

example : ∃ m, Outcome (quantize ⟨.sse42, 1, .none⟩ fives .f32 0 (bytes 8 64) .uint8 f1 0 .nearest f0) (span 0 (bytes 8 64)) (fun _ => 0) m := always_outcome (fives_codes .sse42 0 (fun _ => 0))
example := fun m hm => C84_false_streamed (c := ⟨.sse42, 1, .none⟩) (dtOut := .uint8) (o := 0) (m0 := fun _ => 0) (scale := f1) (zp := 0) (mode := .nearest) (τ := f0) (m := m) (fives_args .sse42) hm

/-! ## C85, C86 -/

theorem noTie_of {q : ℚ} (h : (2 * q).den = 1 → (2 * q).num % 2 = 0) : NoTie q := by
  intro k hk
  have e : 2 * q = ((2 * k + 1 : ℤ) : ℚ) := by rw [hk]; push_cast; ring
  rw [e] at h
  have := h (Rat.den_intCast _)
  rw [Rat.num_intCast] at this
  omega

/-- Seventy values with scale 0.1: no scaled value is a tie. -/
example := C85_half_even_partial (c := Ex.c1) (x := Ex.many) (n := 70) (dt := .uint8) (o := 1000) (m0 := Ex.old) (s := ⟨false, 0x3dcccccc⟩) (τ := f0) (z := 64) (dtIn := .f32)
  (by wit) (by wit) (by wit) (fun i hi => by
    have h : ∀ i, i < 70 → ((2 * (scaled (elem .f32 Ex.many.data 0 i) ⟨false, 0x3dcccccc⟩).toRat).den = 1 → (2 * (scaled (elem .f32 Ex.many.data 0 i) ⟨false, 0x3dcccccc⟩).toRat).num % 2 = 0) ∧
      |(scaled (elem .f32 Ex.many.data 0 i) ⟨false, 0x3dcccccc⟩).toRat| ≠ predHalf := by decide +kernel
    exact ⟨noTie_of (h i hi).1, (h i hi).2⟩)

example := C86_quantize_nearest (c := Ex.c2) (x := Ex.xs) (dtIn := .f32) (dtOut := .uint4) (o := 1000) (n := 5) (sb := 0x3f000000) (zp := 8) (m0 := Ex.old) (by norm_num)
  (by wit) (by wit) (by decide) xs_room

example := C86_quantize (c := Ex.c1) (x := Ex.xs) (dtIn := .f32) (dtOut := .uint4) (o := 1000) (n := 5) (sb := 0x3f000000) (tb := 0) (t := 0) (mode := .nearest) (zp := 8)
  (m0 := Ex.old) (by norm_num) (by norm_num [Ieee.decode, Ieee.ofFields, Ieee.binary32, Ieee.Format.bias]) (by wit) (by decide) (Or.inr (by norm_num)) xs_room

/-- A third of two in binary32: the model's rounding and any other that meets §4.3.1. -/
example {y : F32} (hy : y.Valid) (h : Ieee.Rounded f32.ieee (2 / 3) false y.toBits) : Flt.ofRat f32 (2 / 3) false = y :=
  C86_rounding_unique (valid_ofRat _ _) hy (by have := rounded_ofRat (f := f32) (r := 2 / 3) (z := false); rwa [if_neg (by norm_num), decide_eq_false (by norm_num)] at this) h

/-! ## C27, C51, C86 -/

/-- A fused call on twenty bytes of floats is accepted for an output of twenty bytes and no other. -/
example := (C27_fused_accepts_iff (c := Ex.c1) (x := Ex.xs) (dtIn := .f32) (dtOut := .uint4) (o := 1000) (outSize := 20) (scale := Ex.half) (zp := 8) (mode := .nearest) (op := .set) (τ := f0)).1
  ⟨rfl, rfl, by decide⟩
example := (C27_fused_accepts_iff (c := Ex.c1) (x := Ex.xs) (dtIn := .f32) (dtOut := .uint4) (o := 1000) (outSize := 24) (scale := Ex.half) (zp := 8) (mode := .nearest) (op := .set) (τ := f0)).2
  (by decide)
example := (C51_typed_fused_accepts_iff (c := Ex.c1) (data := Ex.xs.data) (tIn := .f32) (tOut := .uint4) (o := 1000) (nIn := 5) (nOut := 5) (scale := Ex.half) (zp := 8) (mode := .nearest) (op := .set) (τ := f0)).1
  ⟨rfl, rfl, rfl⟩
example := (C51_typed_fused_accepts_iff (c := Ex.c1) (data := Ex.xs.data) (tIn := .f32) (tOut := .uint4) (o := 1000) (nIn := 5) (nOut := 4) (scale := Ex.half) (zp := 8) (mode := .nearest) (op := .set) (τ := f0)).2
  (by decide)

end Verif.Props

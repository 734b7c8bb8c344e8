import Verif.Props.Examples
import Verif.Model.RawApi
import Verif.Props.Api
import Verif.Props.Params

/-!
# C83: the C functions and the integers that stand for types, round modes and reduce operations
-/

namespace Verif.Props
open Spec

section
variable {c : Ctx} {x : InBuf} {dtIn dtOut : DType} {o numel codeIn codeOut code n : Nat} {scale τ : F32} {zp : ℤ} {mode : RoundMode} {op : ReduceOp}
  {data : Nat → Nat} {isa : Isa} {ft : FT} {blocks : List (Nat × Nat)}

/-- C83. The integer of an enumerator is the same in the C header, in the declarations Python loads and in the C++ enumerations
(include/piquant.hpp:21-45) the C functions cast to; and the descriptor found under that integer is the one of that type. -/
theorem C83_codes_agree :
    (∀ dt : DType, headerDtypes[dt.code]? = some dt ∧ cdefDtypes[dt.code]? = some dt ∧ dtypeInfos[dt.code]? = some dt) ∧
    (∀ m : RoundMode, headerModes[m.code]? = some m ∧ cdefModes[m.code]? = some m) ∧
    (∀ r : ReduceOp, headerOps[r.code]? = some r ∧ cdefOps[r.code]? = some r) :=
  ⟨fun dt => by cases dt <;> exact ⟨rfl, rfl, rfl⟩, fun m => by cases m <;> exact ⟨rfl, rfl⟩, fun r => by cases r <;> exact ⟨rfl, rfl⟩⟩

/-- Two enumerators of the header never share an integer, and every integer below the number of enumerators has one. -/
theorem C83_codes_distinct :
    (∀ a b : DType, a.code = b.code → a = b) ∧ (∀ a b : RoundMode, a.code = b.code → a = b) ∧ (∀ a b : ReduceOp, a.code = b.code → a = b) ∧
    (∀ k, k < 5 → ∃ dt : DType, dt.code = k) ∧ (∀ k, k < 2 → ∃ m : RoundMode, m.code = k) ∧ (∀ k, k < 2 → ∃ r : ReduceOp, r.code = k) := by
  refine ⟨fun a b => by cases a <;> cases b <;> decide, fun a b => by cases a <;> cases b <;> decide, fun a b => by cases a <;> cases b <;> decide, ?_, ?_, ?_⟩
  · intro k hk
    rcases (by omega : k = 0 ∨ k = 1 ∨ k = 2 ∨ k = 3 ∨ k = 4) with rfl | rfl | rfl | rfl | rfl
    exacts [⟨.f32, rfl⟩, ⟨.bf16, rfl⟩, ⟨.uint2, rfl⟩, ⟨.uint4, rfl⟩, ⟨.uint8, rfl⟩]
  · intro k hk
    rcases (by omega : k = 0 ∨ k = 1) with rfl | rfl
    exacts [⟨.nearest, rfl⟩, ⟨.stochastic, rfl⟩]
  · intro k hk
    rcases (by omega : k = 0 ∨ k = 1) with rfl | rfl
    exacts [⟨.set, rfl⟩, ⟨.add, rfl⟩]

theorem infos_code (dt : DType) : dtypeInfos[dt.code]? = some dt := by cases dt <;> rfl

theorem rawQuantJob_eq {d : Desc} {ti tc : Nat} (h1 : d.dtIn.isQuant = false) (h2 : d.dtOut.isQuant = true) (ht : d.type = .quant) :
    rawQuantJob isa x o d mode.code ti tc = jobEntry isa x o { d with rounding := mode } ti tc := by
  obtain ⟨ty, ne, s, z, di, dd, ro, re, t, fu⟩ := d
  simp only at h1 h2 ht
  subst ht
  unfold rawQuantJob jobEntry
  have e : partitionRow { (⟨.quant, ne, s, z, di, dd, ro, re, t, fu⟩ : Desc) with rounding := mode } ti tc = partitionRow ⟨.quant, ne, s, z, di, dd, ro, re, t, fu⟩ ti tc := rfl
  rw [e]
  rcases partitionRow ⟨.quant, ne, s, z, di, dd, ro, re, t, fu⟩ ti tc with f | _ | ⟨b, n⟩
  · rfl
  · rfl
  · simp only [quantizeDispatch, dispatchQuantize, h1, h2, Bool.false_eq_true, if_false, Bool.not_true, reduceCtorEq]
    rcases quantFunctions[mode.code]?.bind (fun t => at2 t di.code dd.code) with _ | _ | ⟨_, _, _⟩ <;> rfl

theorem rawDequantJob_eq {d : Desc} {ti tc : Nat} (h1 : d.dtIn.isQuant = true) (h2 : d.dtOut.isQuant = false) (ht : d.type = .dequant) :
    rawDequantJob isa x o d op.code ti tc = jobEntry isa x o { d with reducing := op } ti tc := by
  obtain ⟨ty, ne, s, z, di, dd, ro, re, t, fu⟩ := d
  simp only at h1 h2 ht
  subst ht
  unfold rawDequantJob jobEntry
  have e : partitionRow { (⟨.dequant, ne, s, z, di, dd, ro, re, t, fu⟩ : Desc) with reducing := op } ti tc = partitionRow ⟨.dequant, ne, s, z, di, dd, ro, re, t, fu⟩ ti tc := rfl
  rw [e]
  rcases partitionRow ⟨.dequant, ne, s, z, di, dd, ro, re, t, fu⟩ ti tc with f | _ | ⟨b, n⟩
  · rfl
  · rfl
  · simp only [quantizeDispatch, dispatchDequantize, h1, h2, Bool.false_eq_true, if_false, Bool.not_true, reduceCtorEq]
    rcases dequantFunctions[op.code]?.bind (fun t => at2 t dd.code di.code) with _ | _ | ⟨_, _, _⟩ <;> rfl

/-- C83, what holds: `piquant_quantize` with the integers of two types and of a round mode is `context::quantize` on the spans of
`numel` elements with those types and that mode: the same workers running the same instructions, or the same abort. -/
theorem C83_raw_quantize_partial :
    rawQuantize c data dtIn.code o dtOut.code numel scale zp mode.code τ = capiQuantize c data dtIn o dtOut numel scale zp mode τ := by
  unfold rawQuantize capiQuantize quantize
  simp only [infos_code]
  cases capiBytes numel dtOut with
  | error f => rfl
  | ok ob =>
    simp only
    cases h1 : dtIn.isQuant
    swap
    · rfl
    cases h2 : dtOut.isQuant
    · rfl
    simp only [Bool.false_eq_true, if_false, Bool.not_true]
    generalize (if dtOut.bits = 8 then Except.ok (numel * dtIn.stride % 2 ^ 64 / dtIn.stride * dtOut.stride)
      else Except.map (fun x => x * dtOut.stride) (packedNumel (numel * dtIn.stride % 2 ^ 64 / dtIn.stride) dtOut)) = e
    cases e with
    | error f => rfl
    | ok e =>
      simp only
      split
      · congr 1
        unfold jobs
        congr 1
        funext ti
        exact rawQuantJob_eq h1 h2 rfl
      · rfl

/-- C83, what holds: `piquant_dequantize` with the integers of two types and of a reduce operation. -/
theorem C83_raw_dequantize_partial :
    rawDequantize c x dtIn.code o dtOut.code numel scale zp op.code = capiDequantize c x dtIn o dtOut numel scale zp op := by
  unfold rawDequantize capiDequantize dequantize
  simp only [infos_code]
  cases capiBytes numel dtIn with
  | error f => rfl
  | ok ob =>
    simp only
    cases h1 : dtIn.isQuant
    · rfl
    cases h2 : dtOut.isQuant
    swap
    · rfl
    simp only [Bool.false_eq_true, if_false, Bool.not_true]
    generalize Except.map (fun x => x * dtIn.stride) (packedNumel (numel * dtOut.stride % 2 ^ 64 / dtOut.stride) dtIn) = e
    cases e with
    | error f => rfl
    | ok e =>
      simp only
      split
      · congr 1
        unfold jobs
        congr 1
        funext ti
        exact rawDequantJob_eq h1 h2 rfl
      · rfl

/-- C83, what holds: `piquant_compute_quant_params_*` with the integer of a type. -/
theorem C83_raw_params_partial : rawParams isa ft x blocks dtOut.code = computeQuantConfigFromData isa ft x blocks dtOut := by
  unfold rawParams; rw [infos_code]

theorem infos_none (h : 5 ≤ codeIn) : dtypeInfos[codeIn]? = none := List.getElem?_eq_none (by simpa [dtypeInfos] using h)

/-- C83 is false of an integer that names no type: neither function rejects it, they read a descriptor outside the table
(undefined behaviour), before any check, whatever the other arguments. -/
theorem C83_false_illegal_dtype (h : 5 ≤ codeIn ∨ 5 ≤ codeOut) :
    rawQuantize c data codeIn o codeOut numel scale zp code τ = .error .ub ∧ rawDequantize c x codeIn o codeOut numel scale zp code = .error .ub := by
  unfold rawQuantize rawDequantize
  rcases h with h | h
  · rw [infos_none h]; exact ⟨rfl, rfl⟩
  · rw [infos_none h]; constructor <;> cases dtypeInfos[codeIn]? <;> rfl

/-- `C83_false_illegal_dtype` applied to a concrete case. -/
example := C83_false_illegal_dtype (c := Ex.c1) (x := Ex.many) (o := 1000) (numel := 70) (codeIn := 0) (codeOut := 5) (code := 1) (scale := Ex.tenth)
    (τ := Ex.quarter) (zp := 64) (data := Ex.many.data) (h := by wit)

/-- ... nor does the parameter computation: it searches the data and then reads a descriptor outside the table. -/
theorem C83_false_illegal_params (h : 5 ≤ code) (hx : ft.size * n ≤ x.size) (hb : ∀ b ∈ blocks, b.1 ≤ b.2 ∧ b.2 ≤ n) :
    rawParams isa ft x blocks code = .fail .ub := by
  obtain ⟨rs, e, _⟩ := mmBlocks_all (P := fun _ => True) (isa := isa) (ft := ft) (x := x) blocks (by
    intro b hbm
    obtain ⟨h1, h2⟩ := hb b hbm
    rcases Nat.lt_or_ge b.1 b.2 with h | h
    · obtain ⟨r, er, _⟩ := mmBlock_gen (isa := isa) (R := fun _ _ _ => True) hx h h2 ⟨trivial, fun _ _ => trivial, fun _ _ _ _ _ _ _ _ => trivial, fun _ _ _ _ _ _ _ _ => trivial, fun _ _ _ _ _ _ _ _ => trivial⟩
      exact ⟨r, er, trivial⟩
    · refine ⟨(f0, f0), ?_, trivial⟩
      unfold mmBlock; rw [if_pos (by omega)]; rfl)
  unfold rawParams
  rw [infos_none h, e]; rfl

/-- `C83_false_illegal_params` applied to a concrete case. -/
example := C83_false_illegal_params (x := Ex.many) (code := 5) (n := 70) (isa := .avx512f) (ft := .f32) (blocks := Ex.blocks) (h := by wit)
    (hx := by wit) (hb := by wit)

/-- Workers that either do nothing or run into undefined behaviour at once, at least one of them the latter. -/
def AllLost (js : List (Prog Unit)) : Prop :=
  (∀ j ∈ js, j = pure () ∨ j = .fail .ub) ∧ .fail .ub ∈ js

theorem quantFns_none (h : 2 ≤ code) : quantFunctions[code]? = none := List.getElem?_eq_none (by simpa [quantFunctions] using h)
theorem dequantFns_none (h : 2 ≤ code) : dequantFunctions[code]? = none := List.getElem?_eq_none (by simpa [dequantFunctions] using h)

theorem lost {d : Desc} {f : Nat → Prog Unit} {tc : Nat} (htc : 0 < tc) (hn : d.numel * tc < 2 ^ 63) (h0 : 0 < d.numel)
    (h : ∀ ti, f ti = match partitionRow d ti tc with | .error g => .fail g | .ok none => pure () | .ok (some _) => .fail .ub) :
    AllLost ((List.range tc).map f) := by
  constructor
  · intro j hj
    obtain ⟨ti, hti, rfl⟩ := List.mem_map.1 hj
    rw [List.mem_range] at hti
    rw [h, partitionRow_eq hti hn]
    split
    · rename_i e; split at e <;> cases e
    · exact Or.inl rfl
    · exact Or.inr rfl
  · obtain ⟨ti, h1, h2, h3⟩ := cut_find (pe := packElems (packedBits d)) (n := d.numel) htc h0
    refine List.mem_map.2 ⟨ti, List.mem_range.2 h1, ?_⟩
    rw [h, partitionRow_eq h1 hn, if_neg (by omega)]

/-- C83 is false of an integer that names no round mode: `piquant_quantize` on at least one element passes every check and starts its
workers, which index the kernel table out of range. -/
theorem C83_false_illegal_mode (h : 2 ≤ code) (h1 : dtIn.isQuant = false) (h2 : dtOut.isQuant = true) (h0 : 0 < numel) (hs : Sizes numel c.threads) :
    ∃ js, rawQuantize c data dtIn.code o dtOut.code numel scale zp code τ = .ok js ∧ AllLost js := by
  have hlt : dtIn.stride * numel < 2 ^ 64 := by have := hs.addr; rcases stride_cases h1 with ⟨_, e⟩ | ⟨_, e⟩ <;> rw [e] <;> omega
  have hp : 0 < dtIn.stride := by rcases stride_cases h1 with ⟨_, e⟩ | ⟨_, e⟩ <;> rw [e] <;> norm_num
  obtain ⟨_, js, e⟩ := C28_capi_quantize (c := c) (data := data) (o := o) (scale := scale) (zp := zp) (mode := .nearest) (τ := τ) h1 h2 hlt
  have hne : numel * dtIn.stride % 2 ^ 64 / dtIn.stride = numel := by
    rw [Nat.mul_comm, Nat.mod_eq_of_lt hlt, Nat.mul_div_cancel_left _ hp]
  refine ⟨(List.range c.threads).map (fun ti => rawQuantJob c.isa ⟨numel * dtIn.stride % 2 ^ 64, data⟩ o ⟨.quant, numel, scale, zp, dtIn, dtOut, .nearest, .set, τ, c.fuse⟩ code ti c.threads), ?_, ?_⟩
  · unfold capiQuantize quantize at e
    unfold rawQuantize
    simp only [infos_code, h1, h2, hne] at e ⊢
    cases hcb : capiBytes numel dtOut with
    | error f => rw [hcb] at e; cases e
    | ok ob =>
      rw [hcb] at e
      simp only [Bool.false_eq_true, if_false, Bool.not_true] at e ⊢
      generalize (if dtOut.bits = 8 then Except.ok (numel * dtOut.stride)
        else Except.map (fun x => x * dtOut.stride) (packedNumel numel dtOut)) = ex at e ⊢
      cases ex with
      | error f => cases e
      | ok ex =>
        simp only at e ⊢
        split at e
        · rename_i hh; rw [if_pos hh]
        · cases e
  · refine lost (d := ⟨.quant, numel, scale, zp, dtIn, dtOut, .nearest, .set, τ, c.fuse⟩) hs.pos hs.split h0 (fun ti => ?_)
    unfold rawQuantJob
    rw [quantFns_none h]
    rcases partitionRow ⟨.quant, numel, scale, zp, dtIn, dtOut, .nearest, .set, τ, c.fuse⟩ ti c.threads with _ | _ | ⟨_, _⟩ <;> rfl

/-- `C83_false_illegal_mode` applied to a concrete case. -/
example := C83_false_illegal_mode (c := Ex.c1) (dtIn := .f32) (dtOut := .uint8) (o := 1000) (numel := 70) (code := 2) (scale := Ex.tenth)
    (τ := Ex.quarter) (zp := 64) (data := Ex.many.data) (h := by wit) (h1 := by wit) (h2 := by wit) (h0 := by wit) (hs := by wit)

/-- C83 is false of an integer that names no reduce operation: so does `piquant_dequantize`. -/
theorem C83_false_illegal_op (h : 2 ≤ code) (h1 : dtIn.isQuant = true) (h2 : dtOut.isQuant = false) (h0 : 0 < numel) (hs : Sizes numel c.threads) :
    ∃ js, rawDequantize c x dtIn.code o dtOut.code numel scale zp code = .ok js ∧ AllLost js := by
  have hlt : dtOut.stride * numel < 2 ^ 64 := by have := hs.addr; rcases stride_cases h2 with ⟨_, e⟩ | ⟨_, e⟩ <;> rw [e] <;> omega
  have hp : 0 < dtOut.stride := by rcases stride_cases h2 with ⟨_, e⟩ | ⟨_, e⟩ <;> rw [e] <;> norm_num
  obtain ⟨_, js, e⟩ := C28_capi_dequantize (c := c) (x := x) (o := o) (scale := scale) (zp := zp) (op := .set) h1 h2 hlt
  have hne : numel * dtOut.stride % 2 ^ 64 / dtOut.stride = numel := by
    rw [Nat.mul_comm, Nat.mod_eq_of_lt hlt, Nat.mul_div_cancel_left _ hp]
  refine ⟨(List.range c.threads).map (fun ti => rawDequantJob c.isa x o ⟨.dequant, numel, scale, zp, dtIn, dtOut, .nearest, .set, f0, c.fuse⟩ code ti c.threads), ?_, ?_⟩
  · unfold capiDequantize dequantize at e
    unfold rawDequantize
    simp only [infos_code, h1, h2, hne] at e ⊢
    cases hcb : capiBytes numel dtIn with
    | error f => rw [hcb] at e; cases e
    | ok ob =>
      rw [hcb] at e
      simp only [Bool.false_eq_true, if_false, Bool.not_true] at e ⊢
      generalize Except.map (fun x => x * dtIn.stride) (packedNumel numel dtIn) = ex at e ⊢
      cases ex with
      | error f => cases e
      | ok ex =>
        simp only at e ⊢
        split at e
        · rename_i hh; rw [if_pos hh]
        · cases e
  · refine lost (d := ⟨.dequant, numel, scale, zp, dtIn, dtOut, .nearest, .set, f0, c.fuse⟩) hs.pos hs.split h0 (fun ti => ?_)
    unfold rawDequantJob
    rw [dequantFns_none h]
    rcases partitionRow ⟨.dequant, numel, scale, zp, dtIn, dtOut, .nearest, .set, f0, c.fuse⟩ ti c.threads with _ | _ | ⟨_, _⟩ <;> rfl

/-- `C83_false_illegal_op` applied to a concrete case. -/
example := C83_false_illegal_op (c := Ex.c1) (x := Ex.codes) (dtIn := .uint8) (dtOut := .f32) (o := 1000) (numel := 70) (code := 2) (scale := Ex.tenth)
    (zp := 64) (h := by wit) (h1 := by wit) (h2 := by wit) (h0 := by wit) (hs := by wit)

end

/-- The hypotheses are met: 5 elements, 2 threads, the code 7 for the round mode (2 workers: both have elements). -/
example : ∃ js, rawQuantize ⟨.avx2, 2, .none⟩ Ex.xs.data 0 64 3 5 f1 0 7 f0 = .ok js ∧ AllLost js :=
  C83_false_illegal_mode (dtIn := .f32) (dtOut := .uint4) (by norm_num) rfl rfl (by norm_num) ⟨by norm_num, by norm_num, by norm_num⟩
example : ∃ js, rawDequantize ⟨.avx2, 3, .none⟩ Ex.xs 4 64 1 2 f1 0 2 = .ok js ∧ AllLost js :=
  C83_false_illegal_op (dtIn := .uint8) (dtOut := .bf16) (by norm_num) rfl rfl (by norm_num) ⟨by norm_num, by norm_num, by norm_num⟩
/-- With the codes 0 (float32) and 4 (uint8) the call is the typed one, and it is accepted. -/
example : (rawQuantize ⟨.avx2, 2, .none⟩ Ex.xs.data 0 64 4 5 f1 0 1 f0) = capiQuantize ⟨.avx2, 2, .none⟩ Ex.xs.data .f32 64 .uint8 5 f1 0 .stochastic f0 :=
  C83_raw_quantize_partial (dtIn := .f32) (dtOut := .uint8) (mode := .stochastic)

end Verif.Props

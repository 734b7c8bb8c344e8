import Verif.Model.MinMax
import Verif.Model.Context

/-!
# The C functions with the integers a C or CFFI caller passes (src/capi.cpp:28-104, include/piquant.h)

C enumerations are integers: a caller can pass any value.  `capiQuantize` and `capiDequantize` (Model/Context.lean) take the
values the enumerations name; here the codes are kept and looked up the way the code does (array indexing without a check).
Codes are natural numbers: a negative `int` becomes, as `std::size_t`, a huge index.
-/

namespace Verif

/-- The enumerators of `piquant_dtype_t` in the order of include/piquant.h:33-40. -/
def headerDtypes : List DType := [.f32, .bf16, .uint2, .uint4, .uint8]
/-- ... of `piquant_round_mode_t` (include/piquant.h:23-26). -/
def headerModes : List RoundMode := [.nearest, .stochastic]
/-- ... of `piquant_reduce_op_t` (include/piquant.h:28-31). -/
def headerOps : List ReduceOp := [.set, .add]

/-- The enumerators of the CFFI declarations (python/src/piquant/_bootstrap.py:29-36): the values Python passes. -/
def cdefDtypes : List DType := [.f32, .bf16, .uint2, .uint4, .uint8]
/-- python/src/piquant/_bootstrap.py:19-22 -/
def cdefModes : List RoundMode := [.nearest, .stochastic]
/-- python/src/piquant/_bootstrap.py:24-27 -/
def cdefOps : List ReduceOp := [.set, .add]

/-- `dtype_info_of(static_cast<dtype>(code))` (include/piquant.hpp:163): entry `code` of `dtype_infos` (149-155), which lists the
types in this order; no such entry is undefined behaviour (`none`). -/
def dtypeInfos : List DType := [.f32, .bf16, .uint2, .uint4, .uint8]

/-- `job_entry` (piquant.cpp:132-176) of a quantize call whose round mode field holds `code`: a worker without elements returns
before it dispatches (160-162); any other indexes `quant_functions` (kernels.inl:108-121) with the code, without a check
(kernels.inl:151-161; the two assertions there repeat those of `context::quantize`, which have passed). -/
def rawQuantJob (isa : Isa) (x : InBuf) (o : Nat) (d : Desc) (code ti tc : Nat) : Prog Unit :=
  match partitionRow d ti tc with
  | .error f => .fail f
  | .ok none => pure ()
  | .ok (some (b, n)) =>
    match quantFunctions[code]?.bind (fun t => at2 t d.dtIn.code d.dtOut.code) with
    | none => .fail .ub
    | some none => .fail .panic
    | some (some (ft, dt, m)) => quantGeneric isa ft dt m x (byteOff d.dtIn.bits b) (o + byteOff d.dtOut.bits b) n d.scale d.τ d.zp

/-- `job_entry` of a dequantize call whose reduce operation field holds `code` (kernels.inl:124-137, 163-173). -/
def rawDequantJob (isa : Isa) (x : InBuf) (o : Nat) (d : Desc) (code ti tc : Nat) : Prog Unit :=
  match partitionRow d ti tc with
  | .error f => .fail f
  | .ok none => pure ()
  | .ok (some (b, n)) =>
    match dequantFunctions[code]?.bind (fun t => at2 t d.dtOut.code d.dtIn.code) with
    | none => .fail .ub
    | some none => .fail .panic
    | some (some (dt, ft, r)) => dequantGeneric isa d.fuse dt ft r x (byteOff d.dtIn.bits b) (o + byteOff d.dtOut.bits b) n d.scale d.zp

/-- `piquant_quantize` (capi.cpp:28-53) and `context::quantize` (piquant.cpp:277-308) on codes.  Types are looked up in
`dtype_infos` (capi.cpp:41-42); the round mode is passed on unseen (capi.cpp:50, piquant.cpp:305). -/
def rawQuantize (c : Ctx) (data : Nat → Nat) (codeIn : Nat) (o : Nat) (codeOut : Nat) (numel : Nat) (scale : F32) (zp : ℤ) (codeMode : Nat) (τ : F32) : Call :=
  match dtypeInfos[codeIn]?, dtypeInfos[codeOut]? with
  | some dtIn, some dtOut =>
    match capiBytes numel dtOut with
    | .error f => .error f
    | .ok outBytes =>
      let x : InBuf := ⟨numel * dtIn.stride % 2 ^ 64, data⟩
      if dtIn.isQuant then .error .panic
      else if !dtOut.isQuant then .error .panic
      else
        let ne := x.size / dtIn.stride
        match (if dtOut.bits = 8 then .ok (ne * dtOut.stride) else (packedNumel ne dtOut).map (· * dtOut.stride)) with
        | .error f => .error f
        | .ok expected =>
          if outBytes = expected then
            .ok ((List.range c.threads).map (fun ti => rawQuantJob c.isa x o ⟨.quant, ne, scale, zp, dtIn, dtOut, .nearest, .set, τ, c.fuse⟩ codeMode ti c.threads))
          else .error .panic
  | _, _ => .error .ub

/-- `piquant_dequantize` (capi.cpp:55-80) and `context::dequantize` (piquant.cpp:310-340) on codes. -/
def rawDequantize (c : Ctx) (x : InBuf) (codeIn : Nat) (o : Nat) (codeOut : Nat) (numel : Nat) (scale : F32) (zp : ℤ) (codeOp : Nat) : Call :=
  match dtypeInfos[codeIn]?, dtypeInfos[codeOut]? with
  | some dtIn, some dtOut =>
    match capiBytes numel dtIn with
    | .error f => .error f
    | .ok inBytes =>
      if !dtIn.isQuant then .error .panic
      else if dtOut.isQuant then .error .panic
      else
        let ne := numel * dtOut.stride % 2 ^ 64 / dtOut.stride
        match (packedNumel ne dtIn).map (· * dtIn.stride) with
        | .error f => .error f
        | .ok expected =>
          if inBytes = expected then
            .ok ((List.range c.threads).map (fun ti => rawDequantJob c.isa x o ⟨.dequant, ne, scale, zp, dtIn, dtOut, .nearest, .set, f0, c.fuse⟩ codeOp ti c.threads))
          else .error .panic
  | _, _ => .error .ub

/-- `piquant_compute_quant_params_*` (capi.cpp:82-104) on a code.  The type is looked up after the search
(piquant.cpp:213-214, 244). -/
def rawParams (isa : Isa) (ft : FT) (x : InBuf) (blocks : List (Nat × Nat)) (code : Nat) : Prog (F32 × ℤ) :=
  match dtypeInfos[code]? with
  | some dt => computeQuantConfigFromData isa ft x blocks dt
  | none => do
    let _ ← mmBlocks isa ft x blocks
    .fail .ub

end Verif

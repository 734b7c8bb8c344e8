import Verif.Model.KernelsDq

/-!
# Dispatch, partitioning and the public calls

src/kernels/kernels.inl:151-197, src/piquant.cpp:132-176, 197-211, 277-369, src/capi.cpp.
-/

namespace Verif

/-- `context::quant_descriptor` (include/piquant.hpp:323-335), without the pointers. -/
structure Desc where
  type : Cmd
  numel : Nat
  scale : F32
  zp : ℤ
  dtIn : DType
  dtOut : DType
  rounding : RoundMode
  reducing : ReduceOp
  τ : F32
  /-- Not a field of the C++ struct: the compile-time choices of this build, carried along. -/
  fuse : Fuse

/-! ## Dispatch tables (kernels.inl:59-149)

An entry is a null pointer (`none`) or a kernel instantiation, given by its template arguments. -/

/-- `quant_types` (kernels.inl:73). -/
def quantTypes : List DType := [.uint2, .uint4, .uint8]
/-- `fp_types` (kernels.inl:75). -/
def fpTypes : List FT := [.f32, .bf16]

/-- `make_quant_row` (kernels.inl:77-82) of `quant_entry` (59-60): `quant_generic<Src, Dst, M>`. -/
def makeQuantRow (src : FT) (m : RoundMode) : List (Option (FT × DType × RoundMode)) :=
  [none, none] ++ quantTypes.map (fun dst => some (src, dst, m))
/-- `make_dequant_row` (kernels.inl:84-89) of `dequant_entry` (62-63): `dequant_generic<Dst, Src, R>`. -/
def makeDequantRow (src : FT) (r : ReduceOp) : List (Option (DType × FT × ReduceOp)) :=
  [none, none] ++ quantTypes.map (fun dst => some (dst, src, r))
/-- `make_requant_row` (kernels.inl:91-96) of `requant_entry` (65-66): `requant_generic<Src, Dst, M, R>`. -/
def makeRequantRow (src : FT) (m : RoundMode) (r : ReduceOp) : List (Option (FT × DType × RoundMode × ReduceOp)) :=
  [none, none] ++ quantTypes.map (fun dst => some (src, dst, m, r))
/-- `make_requant_block` (kernels.inl:98-105). -/
def makeRequantBlock (m : RoundMode) (r : ReduceOp) : List (List (Option (FT × DType × RoundMode × ReduceOp))) :=
  fpTypes.map (fun src => makeRequantRow src m r)

/-- `quant_functions` (kernels.inl:108-121).  `std::array{std::array{a, b}}` is the inner array (copy
deduction), so the table has three dimensions. -/
def quantFunctions : List (List (List (Option (FT × DType × RoundMode)))) :=
  [[makeQuantRow .f32 .nearest, makeQuantRow .bf16 .nearest],
   [makeQuantRow .f32 .stochastic, makeQuantRow .bf16 .stochastic]]
/-- `dequant_functions` (kernels.inl:124-137). -/
def dequantFunctions : List (List (List (Option (DType × FT × ReduceOp)))) :=
  [[makeDequantRow .f32 .set, makeDequantRow .bf16 .set],
   [makeDequantRow .f32 .add, makeDequantRow .bf16 .add]]
/-- `requant_functions` (kernels.inl:140-149). -/
def requantFunctions : List (List (List (List (Option (FT × DType × RoundMode × ReduceOp))))) :=
  [[makeRequantBlock .nearest .set, makeRequantBlock .nearest .add],
   [makeRequantBlock .stochastic .set, makeRequantBlock .stochastic .add]]

/-- `table[i]`; an index outside the array is undefined behaviour (`none`) (`stubs[i][j]`, src/kernels/kernels.inl:156-159). -/
def at2 {α : Type} (t : List (List α)) (i j : Nat) : Option α := t[i]?.bind (·[j]?)

/-- `dispatch_quantize` (kernels.inl:151-161). -/
def dispatchQuantize (isa : Isa) (x : InBuf) (off o range : Nat) (d : Desc) : Prog Unit :=
  if d.dtIn.isQuant then .fail .panic
  else if !d.dtOut.isQuant then .fail .panic
  else match quantFunctions[d.rounding.code]?.bind (fun t => at2 t d.dtIn.code d.dtOut.code) with
    | none => .fail .ub
    | some none => .fail .panic
    | some (some (ft, dt, m)) => quantGeneric isa ft dt m x off o range d.scale d.τ d.zp

/-- `dispatch_dequantize` (kernels.inl:163-173). -/
def dispatchDequantize (isa : Isa) (x : InBuf) (off o range : Nat) (d : Desc) : Prog Unit :=
  if !d.dtIn.isQuant then .fail .panic
  else if d.dtOut.isQuant then .fail .panic
  else match dequantFunctions[d.reducing.code]?.bind (fun t => at2 t d.dtOut.code d.dtIn.code) with
    | none => .fail .ub
    | some none => .fail .panic
    | some (some (dt, ft, r)) => dequantGeneric isa d.fuse dt ft r x off o range d.scale d.zp

/-- `dispatch_requantize` (kernels.inl:175-187). -/
def dispatchRequantize (x : InBuf) (off o range : Nat) (d : Desc) : Prog Unit :=
  if d.dtIn.isQuant then .fail .panic
  else if !d.dtOut.isQuant then .fail .panic
  else match (requantFunctions[d.rounding.code]?.bind (·[d.reducing.code]?)).bind
      (fun t => at2 t d.dtIn.code d.dtOut.code) with
    | none => .fail .ub
    | some none => .fail .panic
    | some (some (ft, dt, m, r)) => requantGeneric d.fuse ft dt m r x off o range d.scale d.τ d.zp

/-- `quantize_dispatch` (kernels.inl:189-196). -/
def quantizeDispatch (isa : Isa) (x : InBuf) (off o range : Nat) (d : Desc) : Prog Unit :=
  match d.type with
  | .quant => dispatchQuantize isa x off o range d
  | .dequant => dispatchDequantize isa x off o range d
  | .quantDequant => dispatchRequantize x off o range d

/-! ## Partitioning -/

/-- `packed_bits` (piquant.cpp:138-144). -/
def packedBits (d : Desc) : Nat :=
  match d.type with
  | .quant => d.dtOut.bits
  | .dequant => d.dtIn.bits
  | .quantDequant => max d.dtIn.bits d.dtOut.bits

/-- `pack_elems` (piquant.cpp:145). -/
def packElems (bits : Nat) : Nat := if bits < 8 then 8 / bits else 1

/-- `align_down` (piquant.cpp:151-153). -/
def alignDown (pe v : Nat) : Nat := if pe = 1 then v else v - v % pe

/-- `partition_row` (piquant.cpp:135-158): `(begin, length)` of worker `ti` of `tc`;
`none` is the empty slice.  `int64_t` overflow of the products is undefined. -/
def partitionRow (d : Desc) (ti tc : Nat) : Except Fault (Option (Nat × Nat)) :=
  let pe := packElems (packedBits d)
  let tcm := max 1 tc
  let n := d.numel
  if ¬ (n * (ti + 1) < 2 ^ 63) then .error .ub
  else
    let rawBegin := n * ti / tcm
    let rawEnd := n * (ti + 1) / tcm
    let b := if pe = 1 then rawBegin else alignDown pe rawBegin
    let e := if ti + 1 = tcm ∨ pe = 1 then rawEnd else alignDown pe rawEnd
    if b ≥ e then .ok none else .ok (some (b, e - b))

/-- `size_t` product `bit_size*offset` divided by 8 (piquant.cpp:164-167): wraps modulo 2^64. -/
def byteOff (bits off : Nat) : Nat := bits * off % 2 ^ 64 / 8

/-- `job_entry` (piquant.cpp:132-176). -/
def jobEntry (isa : Isa) (x : InBuf) (o : Nat) (d : Desc) (ti tc : Nat) : Prog Unit :=
  match partitionRow d ti tc with
  | .error f => .fail f
  | .ok none => pure ()
  | .ok (some (b, n)) =>
    let si := d.dtIn.bits
    let so := if d.type = .quantDequant then si else d.dtOut.bits
    quantizeDispatch isa x (byteOff si b) (o + byteOff so b) n d

/-- `operator()` (piquant.cpp:197-211): one job per thread, all with the same descriptor.
`τ` is the value drawn from `uniform_real_distribution(0, 1)` in stochastic mode
(piquant.cpp:199-201): a parameter of the call. -/
def jobs (isa : Isa) (threads : Nat) (x : InBuf) (o : Nat) (d : Desc) : List (Prog Unit) :=
  (List.range threads).map (fun ti => jobEntry isa x o d ti threads)

/-! ## Public calls -/

/-- A created context: the selected kernels and the thread count (piquant.cpp:178-188, 265-267),
and how the compiler treated the sums of those kernels (`Fuse`: a parameter of the model). -/
structure Ctx where
  isa : Isa
  threads : Nat
  fuse : Fuse

/-- What a call does: abort (or worse) before any worker starts, or run a list of workers (src/piquant.cpp:197-211). -/
abbrev Call := Except Fault (List (Prog Unit))

/-- `context::quantize` (piquant.cpp:277-308). `x.size` is `in.size()`; the output span is
`[o, o + outSize)`. -/
def quantize (c : Ctx) (x : InBuf) (dtIn : DType) (o outSize : Nat) (dtOut : DType) (scale : F32) (zp : ℤ)
    (mode : RoundMode) (τ : F32) : Call :=
  if dtIn.isQuant then .error .panic
  else if !dtOut.isQuant then .error .panic
  else
    let ne := x.size / dtIn.stride
    match (if dtOut.bits = 8 then .ok (ne * dtOut.stride) else (packedNumel ne dtOut).map (· * dtOut.stride)) with
    | .error f => .error f
    | .ok expected =>
      if outSize = expected then
        .ok (jobs c.isa c.threads x o ⟨.quant, ne, scale, zp, dtIn, dtOut, mode, .set, τ, c.fuse⟩)
      else .error .panic

/-- `context::dequantize` (piquant.cpp:310-340).  `inSize` is `in.size()`; `x.size` is the number of
bytes that may be read at `in.data()` (the span itself unless the caller's buffer is longer). -/
def dequantize (c : Ctx) (x : InBuf) (inSize : Nat) (dtIn : DType) (o outSize : Nat) (dtOut : DType) (scale : F32) (zp : ℤ)
    (op : ReduceOp) : Call :=
  if !dtIn.isQuant then .error .panic
  else if dtOut.isQuant then .error .panic
  else
    let ne := outSize / dtOut.stride
    match (packedNumel ne dtIn).map (· * dtIn.stride) with
    | .error f => .error f
    | .ok expected =>
      if inSize = expected then
        .ok (jobs c.isa c.threads x o ⟨.dequant, ne, scale, zp, dtIn, dtOut, .nearest, op, f0, c.fuse⟩)
      else .error .panic

/-- `context::quantize_dequantize_fused` (piquant.cpp:342-369). -/
def fused (c : Ctx) (x : InBuf) (dt : DType) (o outSize : Nat) (qt : DType) (scale : F32) (zp : ℤ)
    (mode : RoundMode) (op : ReduceOp) (τ : F32) : Call :=
  if dt.isQuant then .error .panic
  else if !qt.isQuant then .error .panic
  else if x.size = outSize then
    .ok (jobs c.isa c.threads x o ⟨.quantDequant, x.size / dt.stride, scale, zp, dt, qt, mode, op, τ, c.fuse⟩)
  else .error .panic

/-! ## C API (src/capi.cpp:28-80) -/

/-- Size of a buffer of `numel` elements as computed by the C wrappers (capi.cpp:41-42, 67-68):
`size_t` arithmetic wraps. -/
def capiBytes (numel : Nat) (dt : DType) : Except Fault Nat :=
  if dt.bits = 8 then .ok (numel * dt.stride % 2 ^ 64)
  else (packedNumel numel dt).map (· * dt.stride % 2 ^ 64)

/-- `piquant_quantize` (capi.cpp:28-53).  `data` is the memory behind `in`. -/
def capiQuantize (c : Ctx) (data : Nat → Nat) (dtIn : DType) (o : Nat) (dtOut : DType) (numel : Nat) (scale : F32)
    (zp : ℤ) (mode : RoundMode) (τ : F32) : Call :=
  match capiBytes numel dtOut with
  | .error f => .error f
  | .ok outBytes => quantize c ⟨numel * dtIn.stride % 2 ^ 64, data⟩ dtIn o outBytes dtOut scale zp mode τ

/-- `piquant_dequantize` (capi.cpp:55-80).  `x` is the readable memory behind `in`. -/
def capiDequantize (c : Ctx) (x : InBuf) (dtIn : DType) (o : Nat) (dtOut : DType) (numel : Nat) (scale : F32)
    (zp : ℤ) (op : ReduceOp) : Call :=
  match capiBytes numel dtIn with
  | .error f => .error f
  | .ok inBytes => dequantize c x inBytes dtIn o (numel * dtOut.stride % 2 ^ 64) dtOut scale zp op

end Verif

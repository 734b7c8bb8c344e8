import Verif.Model.MinMax
import Verif.Model.Context

/-!
# The Python layer

python/src/piquant/__init__.py, python/src/piquant/torch.py, python/src/piquant/_bootstrap.py and the
C parameter wrappers (src/capi.cpp:84-104).
-/

namespace Verif.Py

/-- The exceptions the layer raises (`OverflowError` comes from the cffi argument conversion) (python/src/piquant/torch.py:9-60). -/
inductive Exc | valueError | assertionError | keyError | overflowError
deriving DecidableEq, Repr

/-! ## piquant/__init__.py -/

/-- `DataType.bit_size` (__init__.py:40-49). -/
def bitSize (d : DType) : Nat :=
  match d with
  | .f32 => 32 | .bf16 => 16 | .uint2 => 2 | .uint4 => 4 | .uint8 => 8

/-- `DataType.is_quantized` (__init__.py:51-53). -/
def isQuantized (d : DType) : Bool := d ∈ [DType.uint2, DType.uint4, DType.uint8]

/-- `DataType.is_dequantized` (__init__.py:55-57). -/
def isDequantized (d : DType) : Bool := d ∈ [DType.f32, DType.bf16]

/-- `DataType.stride` (__init__.py:59-61): `min(8, self.bit_size) >> 3`. -/
def stride (d : DType) : Nat := min 8 (bitSize d) >>> 3

/-- The enumeration values in the cffi declarations (_bootstrap.py:29-36). -/
def enumValue (d : DType) : Nat :=
  match d with
  | .f32 => 0 | .bf16 => 1 | .uint2 => 2 | .uint4 => 3 | .uint8 => 4

/-- `Context.__init__` (__init__.py:65-71): the thread count when none is given. -/
def defaultThreads (cpuCount : Nat) : Nat := max (cpuCount - 1) 1

/-- cffi conversion of a Python `int` to `int64_t` (arguments of python/src/piquant/__init__.py:82-122). -/
def toI64 (z : ℤ) : Except Exc ℤ :=
  if -(2 ^ 63 : ℤ) ≤ z ∧ z < 2 ^ 63 then .ok z else .error .overflowError

/-- cffi conversion of a Python `float` (a double) to `float`: the C cast (arguments of python/src/piquant/__init__.py:82-122). -/
def toFloat (s : F64) : F32 := Flt.cvt f32 s

/-- cffi conversion of a Python `int` to `size_t` (arguments of python/src/piquant/__init__.py:82-143). -/
def toSize (n : Nat) : Except Exc Nat := if n < 2 ^ 64 then .ok n else .error .overflowError

/-- `Context.quantize_ptr` (__init__.py:82-101) followed by `piquant_quantize`.  `data` is the memory at
`ptrIn`; the output is at address `ptrOut`. -/
def quantizePtr (c : Ctx) (ptrIn : Nat) (data : Nat → Nat) (dtIn : DType) (ptrOut : Nat) (dtOut : DType) (numel : Nat) (scale : F64) (zp : ℤ)
    (mode : RoundMode) (τ : F32) : Except Exc Call := do
  if !isDequantized dtIn then throw .assertionError
  if !isQuantized dtOut then throw .assertionError
  if ptrIn = 0 then throw .assertionError
  if ptrOut = 0 then throw .assertionError
  let n ← toSize numel
  let z ← toI64 zp
  pure (capiQuantize c data dtIn ptrOut dtOut n (toFloat scale) z mode τ)

/-- `Context.dequantize_ptr` (__init__.py:103-122) followed by `piquant_dequantize`.  `x` is the readable
memory at `ptrIn`. -/
def dequantizePtr (c : Ctx) (ptrIn : Nat) (x : InBuf) (dtIn : DType) (ptrOut : Nat) (dtOut : DType) (numel : Nat) (scale : F64) (zp : ℤ)
    (op : ReduceOp) : Except Exc Call := do
  if !isQuantized dtIn then throw .assertionError
  if !isDequantized dtOut then throw .assertionError
  if ptrIn = 0 then throw .assertionError
  if ptrOut = 0 then throw .assertionError
  let n ← toSize numel
  let z ← toI64 zp
  pure (capiDequantize c x dtIn ptrOut dtOut n (toFloat scale) z op)

/-- `Context.compute_quant_params_ptr_float32` / `_bfloat16` (__init__.py:124-143) followed by
`piquant_compute_quant_params_*` (capi.cpp:84-104): the parameters of `numel` elements at `ptr`, of which
`x` is readable.  `blocks` is the thread pool's split of `[0, numel)`.  The returned Python float is the
`float` converted to double. -/
def computeParamsPtr (c : Ctx) (ft : FT) (ptr : Nat) (x : InBuf) (dt : DType) (numel : Nat) (blocks : Nat → List (Nat × Nat)) :
    Except Exc (Prog (F64 × ℤ)) := do
  if !isQuantized dt then throw .assertionError
  if ptr = 0 then throw .assertionError
  let n ← toSize numel
  pure (do
    let r ← computeQuantConfigFromData c.isa ft x (blocks n) dt
    pure (Flt.cvt f64 r.1, r.2))

/-! ## piquant/torch.py -/

/-- `torch.dtype` (the dtypes of PyTorch that have an element size; complex and the other 8-bit floats
behave like the dtypes of the same size) (python/src/piquant/torch.py:9-30). -/
inductive TDtype
  | float64 | float32 | float16 | bfloat16 | int64 | int32 | int16 | int8 | uint8 | bool | qint32 | qint8 | quint8 | quint4x2 | quint2x4
deriving DecidableEq, Repr

/-- Bits per element in a contiguous tensor (python/src/piquant/torch.py:9-30). -/
def TDtype.bits : TDtype → Nat
  | .float64 | .int64 => 64
  | .float32 | .int32 | .qint32 => 32
  | .float16 | .bfloat16 | .int16 => 16
  | .int8 | .uint8 | .bool | .qint8 | .quint8 => 8
  | .quint4x2 => 4
  | .quint2x4 => 2

/-- A contiguous tensor: dtype, element count, storage and `data_ptr()`.  `tensor.contiguous()` is the
identity on these; a non-contiguous tensor is first copied to one of these (torch, not modelled) (arguments of
python/src/piquant/torch.py:33-130). -/
structure Tensor where
  dtype : TDtype
  numel : Nat
  ptr : Nat
  store : InBuf

/-- What torch guarantees: the storage holds the elements, and the pointer is null exactly when there
are none (arguments of python/src/piquant/torch.py:33-130). -/
structure Tensor.Ok (t : Tensor) : Prop where
  size : t.store.size = (t.dtype.bits * t.numel + 7) / 8
  ptr : t.ptr = 0 ↔ t.numel = 0

/-- `_TORCH_DTYPE_MAP` (torch.py:9-16), in insertion order. -/
def dtypeMap : List (TDtype × DType) :=
  [(.float32, .f32), (.bfloat16, .bf16), (.quint2x4, .uint2), (.quint4x2, .uint4), (.quint8, .uint8), (.uint8, .uint8)]

/-- `_QUANT_TYPES` (torch.py:18-23). -/
def quantTypes : List TDtype := [.quint2x4, .quint4x2, .quint8, .uint8]
/-- `_DEQUANT_TYPES` (torch.py:25-28). -/
def dequantTypes : List TDtype := [.float32, .bfloat16]
/-- `_ROUND_MODES` (torch.py:30-33). -/
def roundModes : List (String × RoundMode) := [("nearest", .nearest), ("stochastic", .stochastic)]
/-- `_REDUCE_OPS` (torch.py:35-38). -/
def reduceOps : List (String × ReduceOp) := [("set", .set), ("add", .add)]

/-- `d[k]` on a dict (python/src/piquant/torch.py:9-30). -/
def index {α β : Type} [BEq α] (d : List (α × β)) (k : α) : Except Exc β :=
  match d.lookup k with
  | some v => .ok v
  | none => .error .keyError

/-- `torch_to_piquant_dtype` (torch.py:40-43). -/
def torchToPiquant (t : TDtype) : Except Exc DType :=
  if t ∉ dtypeMap.map Prod.fst then .error .valueError else index dtypeMap t

/-- A Python value that is a `DataType` member or a `torch.dtype`; values of different types are
unequal (`Enum` and `torch.dtype` compare by identity) (results of python/src/piquant/torch.py:33-130). -/
inductive Val | dataType (d : DType) | torchDtype (t : TDtype)
deriving DecidableEq, Repr

/-- The loop of `piquant_to_torch_dtype` (torch.py:47-49): the loop target `dtype` is the parameter
itself, so every iteration overwrites it before the comparison. -/
def piquantToTorchLoop : List (TDtype × DType) → Val → Except Exc Val
  | [], _ => .error .valueError
  | (t, d) :: rest, _ =>
    let dtype := Val.torchDtype t
    let piquantDtype := Val.dataType d
    if piquantDtype = dtype then .ok dtype else piquantToTorchLoop rest dtype

/-- `piquant_to_torch_dtype` (torch.py:46-50). -/
def piquantToTorch (d : DType) : Except Exc Val := piquantToTorchLoop dtypeMap (.dataType d)

/-- `compute_quant_params` (torch.py:53-67). -/
def computeQuantParams (c : Ctx) (t : Tensor) (dtype : TDtype) (blocks : Nat → List (Nat × Nat)) : Except Exc (Prog (F64 × ℤ)) := do
  if dtype ∉ quantTypes then throw .assertionError
  let q ← torchToPiquant dtype
  if t.dtype = .bfloat16 then computeParamsPtr c .bf16 t.ptr t.store q t.numel blocks
  else computeParamsPtr c .f32 t.ptr t.store q t.numel blocks

/-- `data_ptr()` of `torch.empty(shape)`: null for an empty tensor, otherwise the allocated address
(python/src/piquant/torch.py:33-130). -/
def emptyPtr (numel alloc : Nat) : Nat := if numel = 0 then 0 else alloc

/-- `quantize` (torch.py:70-100).  `alloc` is the address `torch.empty` returned. -/
def quantize (c : Ctx) (t : Tensor) (alloc : Nat) (scale : F64) (zp : ℤ) (dtype : TDtype) (mode : String) (τ : F32) : Except Exc Call := do
  if dtype ∉ quantTypes then throw .assertionError
  let dtIn ← torchToPiquant t.dtype
  let dtOut ← torchToPiquant dtype
  let m ← index roundModes mode
  quantizePtr c t.ptr t.store.data dtIn (emptyPtr t.numel alloc) dtOut t.numel scale zp m τ

/-- `dequantize` (torch.py:102-130). -/
def dequantize (c : Ctx) (t : Tensor) (alloc : Nat) (scale : F64) (zp : ℤ) (dtype : TDtype) (op : String) : Except Exc Call := do
  if dtype ∉ dequantTypes then throw .valueError
  let dtIn ← torchToPiquant t.dtype
  let dtOut ← torchToPiquant dtype
  let r ← index reduceOps op
  dequantizePtr c t.ptr t.store dtIn (emptyPtr t.numel alloc) dtOut t.numel scale zp r

end Verif.Py

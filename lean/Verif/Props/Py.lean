import Verif.Props.Examples
import Verif.Model.Py
import Verif.Proofs.MinMaxOob
import Verif.Props.Api
import Verif.Props.Params
import Verif.Props.RoundTrip

/-!
# C39, C40, C47, C48, C49: the Python layer
-/

namespace Verif.Props
open Verif.Spec

variable {c : Ctx} {t : Py.Tensor} {dtype : Py.TDtype} {alloc : Nat} {scale : F64} {zp : ℤ} {mode op : String} {τ : F32}
  {blocks : Nat → List (Nat × Nat)}

/-! ## C39: dtype helpers -/

/-- C39 is false: Python's `stride` is the C++ stride for uint8 only. -/
theorem C39_false_stride (d : DType) : Py.stride d = d.stride ↔ d = .uint8 := by cases d <;> decide

/-- C39 is false: `piquant_to_torch_dtype` raises `ValueError` for every dtype. -/
theorem C39_false_piquant_to_torch (d : DType) : Py.piquantToTorch d = .error .valueError := by cases d <;> decide

/-- C39, the part that holds: sizes, kinds and enumeration values agree with the C++ library, and
`torch_to_piquant_dtype` reaches every library dtype. -/
theorem C39_dtype_helpers_partial (d : DType) :
    Py.bitSize d = d.bits ∧ Py.isQuantized d = d.isQuant ∧ Py.isDequantized d = !d.isQuant ∧ Py.enumValue d = d.code ∧
      ∃ t, Py.torchToPiquant t = .ok d ∧ (d ≠ .uint8 → ∀ t', Py.torchToPiquant t' = .ok d → t' = t) := by
  cases d
  · exact ⟨rfl, rfl, rfl, rfl, .float32, by decide, fun _ t' => by cases t' <;> decide⟩
  · exact ⟨rfl, rfl, rfl, rfl, .bfloat16, by decide, fun _ t' => by cases t' <;> decide⟩
  · exact ⟨rfl, rfl, rfl, rfl, .quint2x4, by decide, fun _ t' => by cases t' <;> decide⟩
  · exact ⟨rfl, rfl, rfl, rfl, .quint4x2, by decide, fun _ t' => by cases t' <;> decide⟩
  · exact ⟨rfl, rfl, rfl, rfl, .quint8, by decide, fun h => absurd rfl h⟩

/-- The library dtype of the torch dtypes that have one. -/
def torchDtype? : Py.TDtype → Option DType
  | .float32 => some .f32 | .bfloat16 => some .bf16
  | .quint2x4 => some .uint2 | .quint4x2 => some .uint4 | .quint8 => some .uint8 | .uint8 => some .uint8
  | _ => none

theorem torchToPiquant_eq (t : Py.TDtype) : Py.torchToPiquant t = match torchDtype? t with | some d => .ok d | none => .error .valueError := by
  cases t <;> decide

theorem torchDtype_bits {t : Py.TDtype} {d : DType} (h : torchDtype? t = some d) : t.bits = d.bits := by
  cases t <;> simp only [torchDtype?, Option.some.injEq, reduceCtorEq] at h <;> subst h <;> rfl

theorem quantTypes_iff {t : Py.TDtype} : t ∈ Py.quantTypes ↔ ∃ d, torchDtype? t = some d ∧ d.isQuant = true := by
  cases t <;> simp [Py.quantTypes, torchDtype?, DType.isQuant]
theorem dequantTypes_iff {t : Py.TDtype} : t ∈ Py.dequantTypes ↔ ∃ d, torchDtype? t = some d ∧ d.isQuant = false := by
  cases t <;> simp [Py.dequantTypes, torchDtype?, DType.isQuant]

theorem isQuantized_eq (d : DType) : Py.isQuantized d = d.isQuant := by cases d <;> rfl
theorem isDequantized_eq (d : DType) : Py.isDequantized d = !d.isQuant := by cases d <;> rfl

/-- The library names of the rounding modes and reduce operations. -/
def modeNamed (s : String) : Option RoundMode := if s = "nearest" then some .nearest else if s = "stochastic" then some .stochastic else none
def opNamed (s : String) : Option ReduceOp := if s = "set" then some .set else if s = "add" then some .add else none

theorem index_modes (s : String) : Py.index Py.roundModes s = match modeNamed s with | some m => .ok m | none => .error .keyError := by
  unfold Py.index Py.roundModes modeNamed
  by_cases h1 : s = "nearest"
  · subst h1; rfl
  · by_cases h2 : s = "stochastic"
    · subst h2; rfl
    · simp [List.lookup, h1, h2, beq_eq_false_iff_ne.mpr h1, beq_eq_false_iff_ne.mpr h2]
theorem index_ops (s : String) : Py.index Py.reduceOps s = match opNamed s with | some m => .ok m | none => .error .keyError := by
  unfold Py.index Py.reduceOps opNamed
  by_cases h1 : s = "set"
  · subst h1; rfl
  · by_cases h2 : s = "add"
    · subst h2; rfl
    · simp [List.lookup, h1, h2, beq_eq_false_iff_ne.mpr h1, beq_eq_false_iff_ne.mpr h2]

/-! ## C40: parameter computation on tensors -/

theorem computeQuantParams_quant (h : dtype ∈ Py.quantTypes) (hp : t.ptr ≠ 0) (hn : t.numel < 2 ^ 64) {q : DType} (hq : torchDtype? dtype = some q) :
    Py.computeQuantParams c t dtype blocks = .ok (do
      let r ← computeQuantConfigFromData c.isa (if t.dtype = .bfloat16 then .bf16 else .f32) t.store (blocks t.numel) q
      pure (Flt.cvt f64 r.1, r.2)) := by
  have hqq : q.isQuant = true := by
    obtain ⟨d, h1, h2⟩ := quantTypes_iff.1 h
    rw [hq] at h1
    cases h1; exact h2
  unfold Py.computeQuantParams
  rw [if_neg (not_not.2 h), torchToPiquant_eq, hq]
  have key : ∀ ft, Py.computeParamsPtr c ft t.ptr t.store q t.numel blocks = .ok (do
      let r ← computeQuantConfigFromData c.isa ft t.store (blocks t.numel) q
      pure (Flt.cvt f64 r.1, r.2)) := by
    intro ft
    unfold Py.computeParamsPtr Py.toSize
    rw [isQuantized_eq, hqq, if_neg (by simp), if_neg hp, if_pos hn]
    rfl
  show (if t.dtype = .bfloat16 then Py.computeParamsPtr c .bf16 t.ptr t.store q t.numel blocks else Py.computeParamsPtr c .f32 t.ptr t.store q t.numel blocks) = _
  by_cases hb : t.dtype = .bfloat16
  · rw [if_pos hb, key, if_pos hb]
  · rw [if_neg hb, key, if_neg hb]

/-- C40 is false: for every tensor whose elements are narrower than four bytes and that is not
bfloat16 (float16, int8, uint8, bool, ...), `compute_quant_params` reads past the end of the tensor's
storage, whatever the data, the kernel set and the work split. -/
theorem C40_false_narrow_dtypes (ht : t.Ok) (h0 : 0 < t.numel) (hn : t.numel < 2 ^ 64) (hb : t.dtype ≠ .bfloat16) (hw : t.dtype.bits < 32)
    (hq : dtype ∈ Py.quantTypes) (hs : Split t.numel 0 (blocks t.numel)) :
    Py.computeQuantParams c t dtype blocks = .ok (.fail .oobRead) := by
  obtain ⟨q, hq1, hq2⟩ := quantTypes_iff.1 hq
  have hp : t.ptr ≠ 0 := fun h => by have := ht.ptr.1 h; omega
  rw [computeQuantParams_quant hq hp hn hq1, if_neg hb]
  have hsz : t.store.size < FT.f32.size * t.numel := by
    rw [ht.size]
    show _ < 4 * t.numel
    have : t.dtype.bits ≤ 16 := by cases hd : t.dtype <;> simp only [hd, Py.TDtype.bits] at hw ⊢ <;> omega
    have : t.dtype.bits * t.numel ≤ 16 * t.numel := Nat.mul_le_mul_right _ this
    omega
  rw [config_oob hs h0 hsz]
  rfl

/-- Three float16 elements. -/
def halfs : Py.Tensor := ⟨.float16, 3, 64, ⟨6, fun a => 60 * (a % 2)⟩⟩
example : halfs.Ok ∧ 0 < halfs.numel ∧ halfs.numel < 2 ^ 64 ∧ halfs.dtype ≠ .bfloat16 ∧ halfs.dtype.bits < 32 ∧ Py.TDtype.uint8 ∈ Py.quantTypes ∧
    Split halfs.numel 0 [(0, 2), (2, 3)] :=
  ⟨⟨by decide, by decide⟩, by decide, by decide, by decide, by decide, by decide, ⟨rfl, by decide, rfl, by decide, rfl⟩⟩

/-- C40, the part that holds: for bfloat16 and for elements of at least four bytes nothing outside the
tensor is read: the call returns, aborts, or converts a non-finite double. -/
theorem C40_no_overread_partial (ht : t.Ok) (h0 : 0 < t.numel) (hn : t.numel < 2 ^ 64) (hw : t.dtype = .bfloat16 ∨ 32 ≤ t.dtype.bits)
    (hq : dtype ∈ Py.quantTypes) (hs : Split t.numel 0 (blocks t.numel)) :
    ∃ p, Py.computeQuantParams c t dtype blocks = .ok p ∧ ((∃ r, p = .ret r) ∨ p = .fail .panic ∨ p = .fail .ub) := by
  obtain ⟨q, hq1, hq2⟩ := quantTypes_iff.1 hq
  have hp : t.ptr ≠ 0 := fun h => by have := ht.ptr.1 h; omega
  refine ⟨_, computeQuantParams_quant hq hp hn hq1, ?_⟩
  have hb : ∀ b ∈ blocks t.numel, b.1 ≤ b.2 ∧ b.2 ≤ t.numel := by
    generalize hbl : blocks t.numel = bl at hs
    clear hbl
    generalize hs0 : (0 : Nat) = s at hs
    clear hs0
    induction bl generalizing s with
    | nil => intro b hb; cases hb
    | cons d ds ih =>
      obtain ⟨g1, g2, g3⟩ := hs
      intro b hb
      rcases List.mem_cons.1 hb with rfl | hb
      · exact ⟨by omega, split_le _ _ g3⟩
      · exact ih _ g3 b hb
  have hsz : (if t.dtype = .bfloat16 then FT.bf16 else FT.f32).size * t.numel ≤ t.store.size := by
    rw [ht.size]
    by_cases hb : t.dtype = .bfloat16
    · rw [if_pos hb, hb]
      show 2 * t.numel ≤ (16 * t.numel + 7) / 8
      omega
    · rw [if_neg hb]
      have h32 := hw.resolve_left hb
      show 4 * t.numel ≤ _
      have : 32 * t.numel ≤ t.dtype.bits * t.numel := Nat.mul_le_mul_right _ h32
      omega
  rcases C41_parameters_terminate (isa := c.isa) (dt := q) hsz hb with ⟨r, h⟩ | h | h <;> rw [h]
  · exact Or.inl ⟨_, rfl⟩
  · exact Or.inr (Or.inl rfl)
  · exact Or.inr (Or.inr rfl)

/-- Two float64 elements 1.0 and 3.0. -/
def doubles : Py.Tensor := ⟨.float64, 2, 64, Ex.buf [0, 0, 0, 0, 0, 0, 0xf0, 0x3f, 0, 0, 0, 0, 0, 0, 0x08, 0x40]⟩
example : doubles.Ok := ⟨by decide, by decide⟩

/-- C40, what "not validated" means for wide dtypes: the float64 tensor [1.0, 3.0] is read as the two
float32 halves of its first element, and gives the parameters of the range [0, 1.875]. -/
theorem C40_false_float64_misread :
    Py.computeQuantParams ⟨.portable, 4, .none⟩ doubles .uint8 (fun n => [(0, n)]) =
      .ok (.ret (Flt.cvt f64 (params 8 0 (15 / 8)).1, (params 8 0 (15 / 8)).2)) ∧ params 8 1 3 ≠ params 8 0 (15 / 8) := by
  constructor
  · rw [computeQuantParams_quant (by decide) (by decide) (by decide) (q := .uint8) rfl, if_neg (by decide)]
    have : computeQuantConfigFromData .portable .f32 doubles.store [(0, 2)] .uint8 = .ret (params 8 0 (15 / 8)) := retIs_iff (by decide +kernel)
    show Except.ok (computeQuantConfigFromData .portable .f32 doubles.store [(0, 2)] .uint8 >>= _) = _
    rw [this]; rfl
  · decide +kernel

/-! ## C47: quantize and dequantize on tensors -/

theorem cvt_of_fin {f g : Fmt} {x : Flt f} (h : x.isFin = true) : Flt.cvt g x = ⟨x.neg, Flt.roundAbs g x.absRat⟩ := by
  have := isFin_not_nan h
  unfold Flt.cvt
  rw [if_neg (by rw [this.1]; simp), if_neg (by rw [this.2]; simp)]

/-- A `float` survives the trip through a Python float (a double). -/
theorem toFloat_cvt {s : F32} (h : s.isNaN = false) : Py.toFloat (Flt.cvt f64 s) = s := by
  have hm : s.mag ≤ f32.infMag := by simpa [Flt.isNaN] using h
  unfold Py.toFloat
  rcases Nat.lt_or_eq_of_le hm with hm' | hm'
  · have hf : s.isFin = true := by simpa [Flt.isFin] using hm'
    obtain ⟨e1, e2⟩ := cvt64_fin hf
    have hneg : (Flt.cvt f64 s).neg = s.neg := by
      unfold Flt.cvt
      split
      · rfl
      · split <;> rfl
    have ha : (Flt.cvt f64 s).absRat = s.absRat := by
      unfold Flt.toRat at e1
      rw [hneg] at e1
      split at e1
      · linarith
      · exact e1
    rw [cvt_of_fin e2, hneg, ha, roundAbs_absRat hm]
  · have : s = Flt.inf s.neg := by
      cases s; unfold Flt.inf; simp only at hm'; rw [hm']
    rw [this]
    cases s.neg <;> decide

theorem quantizePtr_eq {ptrIn ptrOut numel : Nat} {data : Nat → Nat} {d q : DType} {m : RoundMode} (hd : d.isQuant = false) (hq : q.isQuant = true)
    (h1 : ptrIn ≠ 0) (h2 : ptrOut ≠ 0) (hn : numel < 2 ^ 64) (hz : -(2 ^ 63 : ℤ) ≤ zp ∧ zp < 2 ^ 63) :
    Py.quantizePtr c ptrIn data d ptrOut q numel scale zp m τ = .ok (capiQuantize c data d ptrOut q numel (Py.toFloat scale) zp m τ) := by
  unfold Py.quantizePtr Py.toSize Py.toI64
  rw [isQuantized_eq, isDequantized_eq, hd, hq, if_neg (by simp), if_neg (by simp), if_neg h1, if_neg h2, if_pos hn, if_pos hz]
  rfl

theorem dequantizePtr_eq {ptrIn ptrOut numel : Nat} {x : InBuf} {d q : DType} {r : ReduceOp} (hd : d.isQuant = false) (hq : q.isQuant = true)
    (h1 : ptrIn ≠ 0) (h2 : ptrOut ≠ 0) (hn : numel < 2 ^ 64) (hz : -(2 ^ 63 : ℤ) ≤ zp ∧ zp < 2 ^ 63) :
    Py.dequantizePtr c ptrIn x q ptrOut d numel scale zp r = .ok (capiDequantize c x q ptrOut d numel (Py.toFloat scale) zp r) := by
  unfold Py.dequantizePtr Py.toSize Py.toI64
  rw [isQuantized_eq, isDequantized_eq, hd, hq, if_neg (by simp), if_neg (by simp), if_neg h1, if_neg h2, if_pos hn, if_pos hz]
  rfl

theorem stride_size {d : DType} (h : d.isQuant = false) (n : Nat) : (d.bits * n + 7) / 8 = d.stride * n := by
  cases d <;> simp only [DType.isQuant, Bool.true_eq_false] at h <;> simp only [DType.bits, DType.stride] <;> omega

/-- C47 (quantize). On a non-empty float32 or bfloat16 tensor, with a supported quantized dtype and
rounding mode, `piquant.torch.quantize` is exactly the C++ call on the tensor's storage, with the scale
rounded to float; that call passes the library's checks. -/
theorem C47_quantize_is_native_call (ht : t.Ok) (h0 : 0 < t.numel) (hs : t.store.size < 2 ^ 64) (ha : alloc ≠ 0) (hz : -(2 ^ 63 : ℤ) ≤ zp ∧ zp < 2 ^ 63)
    {d q : DType} {m : RoundMode} (hd : torchDtype? t.dtype = some d) (hdf : d.isQuant = false) (hq : torchDtype? dtype = some q) (hqq : q.isQuant = true)
    (hm : modeNamed mode = some m) :
    Py.quantize c t alloc scale zp dtype mode τ =
      .ok (Verif.quantize c t.store d alloc (bytes q.bits t.numel) q (Flt.cvt f32 scale) zp m τ) ∧
    ∃ js, Verif.quantize c t.store d alloc (bytes q.bits t.numel) q (Flt.cvt f32 scale) zp m τ = .ok js := by
  have hp : t.ptr ≠ 0 := fun h => by have := ht.ptr.1 h; omega
  have hsz : t.store.size = d.stride * t.numel := by rw [ht.size, torchDtype_bits hd, stride_size hdf]
  have hn : t.numel < 2 ^ 64 := by
    rw [hsz] at hs
    have : 1 ≤ d.stride := by cases d <;> decide
    exact lt_of_le_of_lt (Nat.le_mul_of_pos_left _ this) hs
  obtain ⟨e, js, hjs⟩ := C28_capi_quantize (c := c) (data := t.store.data) (o := alloc) (scale := Flt.cvt f32 scale) (zp := zp) (mode := m) (τ := τ) hdf hqq (hsz ▸ hs)
  have hst : (⟨d.stride * t.numel, t.store.data⟩ : InBuf) = t.store := by rw [← hsz]
  rw [hst] at e
  refine ⟨?_, js, e ▸ hjs⟩
  unfold Py.quantize Py.emptyPtr
  rw [if_neg (not_not.2 (quantTypes_iff.2 ⟨q, hq, hqq⟩)), torchToPiquant_eq, torchToPiquant_eq, hd, hq, index_modes, hm, if_neg (by omega)]
  show Py.quantizePtr c t.ptr t.store.data d alloc q t.numel scale zp m τ = _
  rw [quantizePtr_eq hdf hqq hp ha hn hz]
  unfold Py.toFloat
  rw [e]

/-- `C47_quantize_is_native_call` applied to a concrete case. -/
example := C47_quantize_is_native_call (c := Ex.c1) (t := ⟨.float32, 70, 64, Ex.many⟩) (dtype := .quint8) (alloc := 128)
    (scale := (Flt.cvt f64 Ex.tenth)) (zp := 64) (mode := "nearest") (τ := Ex.quarter) (ht := ⟨by decide +kernel, by decide⟩) (h0 := by wit)
    (hs := by wit) (ha := by wit) (hz := by wit) (d := .f32) (q := .uint8) (m := .nearest) (hd := by wit) (hdf := by wit) (hq := by wit)
    (hqq := by wit) (hm := by wit)

/-- C47 (dequantize). The same for `piquant.torch.dequantize`. -/
theorem C47_dequantize_is_native_call (ht : t.Ok) (h0 : 0 < t.numel) (ha : alloc ≠ 0) (hz : -(2 ^ 63 : ℤ) ≤ zp ∧ zp < 2 ^ 63)
    {d q : DType} {r : ReduceOp} (hd : torchDtype? dtype = some d) (hdf : d.isQuant = false) (hq : torchDtype? t.dtype = some q) (hqq : q.isQuant = true)
    (hs : d.stride * t.numel < 2 ^ 64) (hm : opNamed op = some r) :
    Py.dequantize c t alloc scale zp dtype op =
      .ok (Verif.dequantize c t.store (bytes q.bits t.numel) q alloc (d.stride * t.numel) d (Flt.cvt f32 scale) zp r) ∧
    t.store.size = bytes q.bits t.numel ∧
    ∃ js, Verif.dequantize c t.store (bytes q.bits t.numel) q alloc (d.stride * t.numel) d (Flt.cvt f32 scale) zp r = .ok js := by
  have hp : t.ptr ≠ 0 := fun h => by have := ht.ptr.1 h; omega
  have hn : t.numel < 2 ^ 64 := by
    have : 1 ≤ d.stride := by cases d <;> decide
    exact lt_of_le_of_lt (Nat.le_mul_of_pos_left _ this) hs
  obtain ⟨e, js, hjs⟩ := C28_capi_dequantize (c := c) (x := t.store) (o := alloc) (scale := Flt.cvt f32 scale) (zp := zp) (op := r) hqq hdf hs
  refine ⟨?_, by rw [ht.size, torchDtype_bits hq]; rfl, js, e ▸ hjs⟩
  unfold Py.dequantize Py.emptyPtr
  rw [if_neg (not_not.2 (dequantTypes_iff.2 ⟨d, hd, hdf⟩)), torchToPiquant_eq, torchToPiquant_eq, hd, hq, index_ops, hm, if_neg (by omega)]
  show Py.dequantizePtr c t.ptr t.store q alloc d t.numel scale zp r = _
  rw [dequantizePtr_eq hdf hqq hp ha hn hz]
  unfold Py.toFloat
  rw [e]

/-- `C47_dequantize_is_native_call` applied to a concrete case. -/
example := C47_dequantize_is_native_call (c := Ex.c1) (t := ⟨.quint4x2, 139, 64, Ex.codes⟩) (dtype := .bfloat16) (alloc := 128)
    (scale := (Flt.cvt f64 Ex.tenth)) (zp := 7) (op := "set") (ht := ⟨by decide +kernel, by decide⟩) (h0 := by wit) (ha := by wit) (hz := by wit)
    (d := .bf16) (q := .uint4) (r := .set) (hd := by wit) (hdf := by wit) (hq := by wit) (hqq := by wit) (hs := by wit) (hm := by wit)

theorem bind_error {α β : Type} {e : Py.Exc} {k : α → Except Py.Exc β} : ((Except.error e : Except Py.Exc α) >>= k) = .error e := rfl
theorem bind_okE {α β : Type} {a : α} {k : α → Except Py.Exc β} : ((Except.ok a : Except Py.Exc α) >>= k) = k a := rfl

theorem quantizePtr_ok {ptrIn ptrOut numel : Nat} {data : Nat → Nat} {d q : DType} {m : RoundMode} {call : Call}
    (h : Py.quantizePtr c ptrIn data d ptrOut q numel scale zp m τ = .ok call) :
    d.isQuant = false ∧ q.isQuant = true ∧ ptrIn ≠ 0 ∧ ptrOut ≠ 0 ∧ numel < 2 ^ 64 ∧ (-(2 ^ 63 : ℤ) ≤ zp ∧ zp < 2 ^ 63) := by
  unfold Py.quantizePtr Py.toSize Py.toI64 at h
  rw [isQuantized_eq, isDequantized_eq] at h
  by_cases h1 : d.isQuant = true
  · rw [h1, if_pos (by simp)] at h; cases h
  by_cases h2 : q.isQuant = true
  swap
  · rw [if_neg (by simpa using h1), if_pos (by simpa using h2)] at h; cases h
  by_cases h3 : ptrIn = 0
  · rw [if_neg (by simpa using h1), if_neg (by simp [h2]), if_pos h3] at h; cases h
  by_cases h4 : ptrOut = 0
  · rw [if_neg (by simpa using h1), if_neg (by simp [h2]), if_neg h3, if_pos h4] at h; cases h
  by_cases h5 : numel < 2 ^ 64
  swap
  · rw [if_neg (by simpa using h1), if_neg (by simp [h2]), if_neg h3, if_neg h4, if_neg h5] at h; cases h
  by_cases h6 : -(2 ^ 63 : ℤ) ≤ zp ∧ zp < 2 ^ 63
  swap
  · rw [if_neg (by simpa using h1), if_neg (by simp [h2]), if_neg h3, if_neg h4, if_pos h5, if_neg h6] at h; cases h
  exact ⟨by simpa using h1, h2, h3, h4, h5, h6⟩

theorem dequantizePtr_ok {ptrIn ptrOut numel : Nat} {x : InBuf} {d q : DType} {r : ReduceOp} {call : Call}
    (h : Py.dequantizePtr c ptrIn x q ptrOut d numel scale zp r = .ok call) :
    d.isQuant = false ∧ q.isQuant = true ∧ ptrIn ≠ 0 ∧ ptrOut ≠ 0 ∧ numel < 2 ^ 64 ∧ (-(2 ^ 63 : ℤ) ≤ zp ∧ zp < 2 ^ 63) := by
  unfold Py.dequantizePtr Py.toSize Py.toI64 at h
  rw [isQuantized_eq, isDequantized_eq] at h
  by_cases h2 : q.isQuant = true
  swap
  · rw [if_pos (by simpa using h2)] at h; cases h
  by_cases h1 : d.isQuant = true
  · rw [if_neg (by simp [h2]), h1, if_pos (by simp)] at h; cases h
  by_cases h3 : ptrIn = 0
  · rw [if_neg (by simp [h2]), if_neg (by simpa using h1), if_pos h3] at h; cases h
  by_cases h4 : ptrOut = 0
  · rw [if_neg (by simp [h2]), if_neg (by simpa using h1), if_neg h3, if_pos h4] at h; cases h
  by_cases h5 : numel < 2 ^ 64
  swap
  · rw [if_neg (by simp [h2]), if_neg (by simpa using h1), if_neg h3, if_neg h4, if_neg h5] at h; cases h
  by_cases h6 : -(2 ^ 63 : ℤ) ≤ zp ∧ zp < 2 ^ 63
  swap
  · rw [if_neg (by simp [h2]), if_neg (by simpa using h1), if_neg h3, if_neg h4, if_pos h5, if_neg h6] at h; cases h
  exact ⟨by simpa using h1, h2, h3, h4, h5, h6⟩

/-- C47, the converse: a native quantize call is made only for a non-empty float32/bfloat16 tensor, a
supported target dtype, a known rounding mode and a 64-bit zero point; anything else raises. -/
theorem C47_quantize_rejects (ht : t.Ok) {call : Call} (h : Py.quantize c t alloc scale zp dtype mode τ = .ok call) :
    (t.dtype = .float32 ∨ t.dtype = .bfloat16) ∧ (dtype = .quint2x4 ∨ dtype = .quint4x2 ∨ dtype = .quint8 ∨ dtype = .uint8) ∧
      (mode = "nearest" ∨ mode = "stochastic") ∧ 0 < t.numel ∧ alloc ≠ 0 ∧ (-(2 ^ 63 : ℤ) ≤ zp ∧ zp < 2 ^ 63) := by
  unfold Py.quantize at h
  by_cases hq : dtype ∈ Py.quantTypes
  swap
  · rw [if_pos hq] at h; cases h
  rw [if_neg (not_not.2 hq)] at h
  replace h : (Py.torchToPiquant t.dtype >>= fun dtIn => Py.torchToPiquant dtype >>= fun dtOut => Py.index Py.roundModes mode >>= fun m =>
    Py.quantizePtr c t.ptr t.store.data dtIn (Py.emptyPtr t.numel alloc) dtOut t.numel scale zp m τ) = .ok call := h
  rw [torchToPiquant_eq, torchToPiquant_eq, index_modes] at h
  cases hd : torchDtype? t.dtype with
  | none => rw [hd] at h; cases h
  | some d =>
  cases he : torchDtype? dtype with
  | none => rw [hd, he] at h; cases h
  | some e =>
  cases hm : modeNamed mode with
  | none => rw [hd, he, hm] at h; cases h
  | some m =>
  rw [hd, he, hm] at h
  obtain ⟨g1, g2, g3, g4, _, g6⟩ := quantizePtr_ok h
  have hn : t.numel ≠ 0 := fun h0 => g3 (ht.ptr.2 h0)
  refine ⟨?_, ?_, ?_, by omega, ?_, g6⟩
  · cases ht' : t.dtype <;> rw [ht'] at hd <;> simp only [torchDtype?, Option.some.injEq, reduceCtorEq] at hd <;> subst hd <;> simp [DType.isQuant] at g1 ⊢
  · simpa [Py.quantTypes] using hq
  · unfold modeNamed at hm
    by_contra hc
    push Not at hc
    rw [if_neg hc.1, if_neg hc.2] at hm
    cases hm
  · unfold Py.emptyPtr at g4
    rwa [if_neg hn] at g4

/-- C47, the converse for dequantize. -/
theorem C47_dequantize_rejects (ht : t.Ok) {call : Call} (h : Py.dequantize c t alloc scale zp dtype op = .ok call) :
    (dtype = .float32 ∨ dtype = .bfloat16) ∧ (t.dtype = .quint2x4 ∨ t.dtype = .quint4x2 ∨ t.dtype = .quint8 ∨ t.dtype = .uint8) ∧
      (op = "set" ∨ op = "add") ∧ 0 < t.numel ∧ alloc ≠ 0 ∧ (-(2 ^ 63 : ℤ) ≤ zp ∧ zp < 2 ^ 63) := by
  unfold Py.dequantize at h
  by_cases hq : dtype ∈ Py.dequantTypes
  swap
  · rw [if_pos hq] at h; cases h
  rw [if_neg (not_not.2 hq)] at h
  replace h : (Py.torchToPiquant t.dtype >>= fun dtIn => Py.torchToPiquant dtype >>= fun dtOut => Py.index Py.reduceOps op >>= fun m =>
    Py.dequantizePtr c t.ptr t.store dtIn (Py.emptyPtr t.numel alloc) dtOut t.numel scale zp m) = .ok call := h
  rw [torchToPiquant_eq, torchToPiquant_eq, index_ops] at h
  cases hd : torchDtype? t.dtype with
  | none => rw [hd] at h; cases h
  | some d =>
  cases he : torchDtype? dtype with
  | none => rw [hd, he] at h; cases h
  | some e =>
  cases hm : opNamed op with
  | none => rw [hd, he, hm] at h; cases h
  | some m =>
  rw [hd, he, hm] at h
  obtain ⟨g1, g2, g3, g4, _, g6⟩ := dequantizePtr_ok h
  have hn : t.numel ≠ 0 := fun h0 => g3 (ht.ptr.2 h0)
  refine ⟨by simpa [Py.dequantTypes] using hq, ?_, ?_, by omega, ?_, g6⟩
  · cases ht' : t.dtype <;> rw [ht'] at hd <;> simp only [torchDtype?, Option.some.injEq, reduceCtorEq] at hd <;> subst hd <;> simp [DType.isQuant] at g2 ⊢
  · unfold opNamed at hm
    by_contra hc
    push Not at hc
    rw [if_neg hc.1, if_neg hc.2] at hm
    cases hm
  · unfold Py.emptyPtr at g4
    rwa [if_neg hn] at g4

/-- C47. The default context has at least one worker, whatever the machine (compare C33). -/
theorem C47_default_context_has_threads (cpus : Nat) : 0 < Py.defaultThreads cpus := by unfold Py.defaultThreads; omega

/-! ## C48: uninitialised output -/

/-- C48 for `reduce_op='set'`: the tensor returned by `piquant.torch.dequantize` does not depend on the
bytes the uninitialised output happened to contain. -/
theorem C48_set_independent_of_garbage_partial (ht : t.Ok) (h0 : 0 < t.numel) (ha : alloc ≠ 0) (hz : -(2 ^ 63 : ℤ) ≤ zp ∧ zp < 2 ^ 63)
    {d q : DType} (hd : torchDtype? dtype = some d) (hdf : d.isQuant = false) (hq : torchDtype? t.dtype = some q) (hqq : q.isQuant = true)
    (hs : Sizes t.numel c.threads) (hr : ¬ (q = .uint2 ∧ d = .f32 ∧ t.numel % 4 = 0)) :
    ∃ call, Py.dequantize c t alloc scale zp dtype "set" = .ok call ∧
      ∃ out : Nat → Nat, ∀ garbage, Always OnlyUb call (span alloc (d.stride * t.numel)) garbage
        (fun m => ∀ j, j < d.stride * t.numel → m (alloc + j) = out j) := by
  have hs64 : d.stride * t.numel < 2 ^ 64 := by
    have := hs.addr
    rcases stride_cases hdf with ⟨_, h⟩ | ⟨_, h⟩ <;> rw [h] <;> omega
  obtain ⟨e, hsz, -⟩ := C47_dequantize_is_native_call (c := c) (scale := scale) ht h0 ha hz hd hdf hq hqq hs64 (op := "set") (r := .set) rfl
  refine ⟨_, e, ?_⟩
  obtain ⟨out, ho⟩ := C38_dequantize_set_overwrites (c := c) (x := t.store) (dtIn := q) (dtOut := d) (n := t.numel) (o := alloc) (scale := Flt.cvt f32 scale) (zp := zp)
    ⟨hqq, hdf, hsz.ge, hs⟩ (fun h1 h2 _ h4 => absurd ⟨h1, h2, h4⟩ hr)
  exact ⟨out, fun g => (ho g).mono (fun _ h => h) (fun m hm => hm.1)⟩

/-- `C48_set_independent_of_garbage_partial` applied to a concrete case. -/
example := C48_set_independent_of_garbage_partial (c := Ex.c1) (t := ⟨.quint4x2, 139, 64, Ex.codes⟩) (dtype := .bfloat16) (alloc := 128)
    (scale := (Flt.cvt f64 Ex.tenth)) (zp := 7) (ht := ⟨by decide +kernel, by decide⟩) (h0 := by wit) (ha := by wit) (hz := by wit) (d := .bf16)
    (q := .uint4) (hd := by wit) (hdf := by wit) (hq := by wit) (hqq := by wit) (hs := by wit) (hr := by wit)

/-- One uint8 code. -/
def oneCode : Py.Tensor := ⟨.uint8, 1, 64, Ex.buf [7]⟩
example : oneCode.Ok ∧ 0 < oneCode.numel ∧ torchDtype? .float32 = some .f32 ∧ torchDtype? oneCode.dtype = some .uint8 ∧ Sizes oneCode.numel 4 ∧
    ¬ (DType.uint8 = .uint2 ∧ DType.f32 = .f32 ∧ oneCode.numel % 4 = 0) :=
  ⟨⟨by decide, by decide⟩, by decide, rfl, rfl, sz 1 4, by decide⟩

/-- C48 is false for `reduce_op='add'`: the result is added to whatever the uninitialised output
contained, so different garbage gives different tensors (here 7.0 and 8.0). -/
theorem C48_false_add_uses_garbage :
    ∃ call, Py.dequantize ⟨.portable, 4, .none⟩ oneCode 128 (Flt.cvt f64 f1) 0 .float32 "add" = .ok call ∧
      Always NoFault call (span 128 4) (fun _ => 0) (fun m => f32At m 128 = ⟨false, 0x40e00000⟩) ∧
      Always NoFault call (span 128 4) ones (fun m => f32At m 128 = ⟨false, 0x41000000⟩) := by
  have hz : -(2 ^ 63 : ℤ) ≤ 0 ∧ (0:ℤ) < 2 ^ 63 := by norm_num
  obtain ⟨e, -, -⟩ := C47_dequantize_is_native_call (c := ⟨.portable, 4, .none⟩) (t := oneCode) (alloc := 128) (scale := Flt.cvt f64 f1) (dtype := .float32)
    ⟨by decide, by decide⟩ (by decide) (by decide) hz (d := .f32) (q := .uint8) rfl rfl rfl rfl (by decide) (op := "add") (r := .add) rfl
  refine ⟨_, e, ?_, ?_⟩
  · have := C10_add_f32_uniform_partial (b := false) (c := ⟨.portable, 4, .none⟩) (x := oneCode.store) (dtIn := .uint8) (n := 1) (o := 128) (scale := Flt.cvt f32 (Flt.cvt f64 f1)) (zp := 0) (m0 := fun _ => 0)
      rfl ⟨rfl, rfl, by decide, sz 1 4⟩ (by intro h; cases h) (by decide)
    refine this.mono (fun _ h => h) fun m hm => ?_
    have h := hm 0 (by norm_num) (by intro h; cases h)
    rw [show 128 + 4 * 0 = 128 from rfl] at h
    rw [h]
    decide +kernel
  · have := C10_add_f32_uniform_partial (b := false) (c := ⟨.portable, 4, .none⟩) (x := oneCode.store) (dtIn := .uint8) (n := 1) (o := 128) (scale := Flt.cvt f32 (Flt.cvt f64 f1)) (zp := 0) (m0 := ones)
      rfl ⟨rfl, rfl, by decide, sz 1 4⟩ (by intro h; cases h) (by decide)
    refine this.mono (fun _ h => h) fun m hm => ?_
    have h := hm 0 (by norm_num) (by intro h; cases h)
    rw [show 128 + 4 * 0 = 128 from rfl] at h
    rw [h]
    decide +kernel

/-! ## C49: the documented Python workflow -/

/-- The tensor `piquant.torch.quantize` returns when its output allocation ends up as `m`. -/
def returned (dtype : Py.TDtype) (numel alloc : Nat) (m : Mem) : Py.Tensor :=
  ⟨dtype, numel, alloc, ⟨(dtype.bits * numel + 7) / 8, fun a => m (alloc + a)⟩⟩

/-- The element type of a float tensor. -/
def floatType (t : Py.TDtype) : FT := if t = .bfloat16 then .bf16 else .f32

/-- C49. The workflow of the README (`compute_quant_params`, `quantize`, `dequantize` to float32) on a
finite float32 or bfloat16 tensor whose values straddle zero: no exception, no fault, and every element
comes back within (1/2 + 2^-12) steps.  `Sees` and the last hypothesis exclude the two defects C22
(SSE4.2 minimum) and C11 (uint2 over-read). -/
theorem C49_python_roundtrip_partial {c' : Ctx} {alloc' : Nat} {m0 m0' : Mem} (ht : t.Ok) (h0 : 0 < t.numel) (hft : t.dtype = .float32 ∨ t.dtype = .bfloat16)
    (hf : AllFin (floatType t.dtype) t.store t.numel) (hqt : dtype ∈ Py.quantTypes) (hb : Split t.numel 0 (blocks t.numel))
    (hs : Sizes t.numel c.threads) (hs' : Sizes t.numel c'.threads) (hsse : Sees c.isa (floatType t.dtype) t.store t.numel (blocks t.numel))
    {lo hi : ℚ} (hr : Range (floatType t.dtype).dtype t.store.data t.numel lo hi) (hlo : lo ≤ 0 ∧ 0 ≤ hi) (ha : alloc ≠ 0) (ha' : alloc' ≠ 0)
    {s : F64} {z : ℤ} (he : Py.computeQuantParams c t dtype blocks = .ok (.ret (s, z))) (h1 : 1 / 2 ^ 126 ≤ s.toRat) (h2 : s.toRat ≤ 2 ^ 119)
    (h4 : ¬ (dtype = .quint2x4 ∧ t.numel % 4 = 0)) :
    ∃ call, Py.quantize c t alloc s z dtype "nearest" τ = .ok call ∧
      Always NoFault call (span alloc ((dtype.bits * t.numel + 7) / 8)) m0 (fun m =>
        ∃ call', Py.dequantize c' (returned dtype t.numel alloc m) alloc' s z .float32 "set" = .ok call' ∧
          Always NoFault call' (span alloc' (4 * t.numel)) m0' (fun m' => ∀ i, i < t.numel →
            |(f32At m' (alloc' + 4 * i)).toRat - (elem (floatType t.dtype).dtype t.store.data 0 i).toRat| ≤ s.toRat * (1 / 2 + 1 / 2 ^ 12))) := by
  obtain ⟨q, hq, hqq⟩ := quantTypes_iff.1 hqt
  have hp : t.ptr ≠ 0 := fun h => by have := ht.ptr.1 h; omega
  have hn : t.numel < 2 ^ 64 := by have := hs.addr; omega
  obtain ⟨d, hd, hdf, hdd, hdsz⟩ : ∃ d, torchDtype? t.dtype = some d ∧ d.isQuant = false ∧ (floatType t.dtype).dtype = d ∧ (floatType t.dtype).size = d.stride := by
    rcases hft with h | h
    · exact ⟨.f32, by rw [h]; rfl, rfl, by rw [h]; rfl, by rw [h]; rfl⟩
    · exact ⟨.bf16, by rw [h]; rfl, rfl, by rw [h]; rfl, by rw [h]; rfl⟩
  have hsz : t.store.size = d.stride * t.numel := by rw [ht.size, torchDtype_bits hd, stride_size hdf]
  -- the C++ parameters
  rw [computeQuantParams_quant hqt hp hn hq] at he
  have he : (computeQuantConfigFromData c.isa (floatType t.dtype) t.store (blocks t.numel) q >>= fun r => pure (Flt.cvt f64 r.1, r.2)) = Prog.ret (s, z) := by
    injection he
  obtain ⟨s32, hc, hse⟩ : ∃ s32, computeQuantConfigFromData c.isa (floatType t.dtype) t.store (blocks t.numel) q = .ret (s32, z) ∧ s = Flt.cvt f64 s32 := by
    cases hcc : computeQuantConfigFromData c.isa (floatType t.dtype) t.store (blocks t.numel) q with
    | ret r =>
      rw [hcc] at he
      have he : (Prog.ret (Flt.cvt f64 r.1, r.2) : Prog (F64 × ℤ)) = .ret (s, z) := he
      injection he with he
      injection he with g1 g2
      exact ⟨r.1, by rw [← g2], g1.symm⟩
    | fail f => rw [hcc] at he; cases he
    | rd a k => rw [hcc] at he; cases he
    | wr a b k => rw [hcc] at he; cases he
  obtain ⟨hz0, hz1, hnan, -⟩ := C20_zero_point_in_range hqq hc
  have hback : Flt.cvt f32 s = s32 := by rw [hse]; exact toFloat_cvt hnan
  have hzr : -(2 ^ 63 : ℤ) ≤ z ∧ z < 2 ^ 63 := by
    have : (2:ℤ) ^ q.bits ≤ 2 ^ 8 := by cases q <;> simp only [DType.isQuant, Bool.false_eq_true] at hqq <;> norm_num [DType.bits]
    constructor <;> linarith
  have hfin : s32.isFin = true := by
    have hmag : s32.mag ≤ f32.infMag := by simpa [Flt.isNaN] using hnan
    rcases Nat.lt_or_eq_of_le hmag with h | h
    · simpa [Flt.isFin] using h
    · exfalso
      have : s = Flt.inf s32.neg := by
        rw [hse, show s32 = Flt.inf s32.neg by cases s32; unfold Flt.inf; simp only at h; rw [h]]
        cases s32.neg <;> decide
      rw [this] at h1 h2
      cases hneg : s32.neg
      · rw [hneg] at h2
        exact absurd h2 (by rw [toRat_of_pos rfl, absRat_inf]; exact not_le.2 (pow_lt_pow_right₀ (by norm_num) (by decide)))
      · rw [hneg] at h1
        have : (Flt.inf true : F64).toRat ≤ 0 := by
          rw [toRat_of_neg rfl]; have := absRat_nonneg (Flt.inf true : F64); linarith
        have h3 : (0:ℚ) < 1 / 2 ^ 126 := by positivity
        linarith
  have hrat : s.toRat = s32.toRat := by rw [hse]; exact (cvt64_fin hfin).1
  rw [hrat] at h1 h2 ⊢
  have hbits : dtype.bits = q.bits := torchDtype_bits hq
  obtain ⟨e, -⟩ := C47_quantize_is_native_call (c := c) (t := t) (alloc := alloc) (scale := s) (zp := z) (dtype := dtype) (mode := "nearest") (τ := τ) ht h0
    (by rw [hsz]; have := hs.addr; rcases stride_cases hdf with ⟨_, h⟩ | ⟨_, h⟩ <;> rw [h] <;> omega) ha hzr hd hdf hq hqq rfl
  rw [hback] at e
  refine ⟨_, e, ?_⟩
  rw [hbits]
  have := C25_roundtrip_partial (c := c) (c' := c') (o := alloc) (o' := alloc') (m0 := m0) (m0' := m0') (τ := τ) (ft := floatType t.dtype) (x := t.store) (n := t.numel)
    (blocks := blocks t.numel) (dt := q) (isa := c.isa) ⟨hqq, by rw [hsz, hdsz], hb⟩ h0 hf hsse hr hlo hc h1 h2 (by rw [hdd]; exact ⟨hdf, hqq, hsz, hs⟩) hs'
  rw [hdd] at this ⊢
  refine this.mono (fun _ h => h) fun m hm => ?_
  have hok : (returned dtype t.numel alloc m).Ok := ⟨rfl, ⟨fun h => absurd h ha, fun h => absurd h (by show ¬ t.numel = 0; omega)⟩⟩
  obtain ⟨e', hsz', -⟩ := C47_dequantize_is_native_call (c := c') (t := returned dtype t.numel alloc m) (alloc := alloc') (scale := s) (zp := z) (dtype := .float32) (op := "set") (r := .set)
    hok h0 ha' hzr (d := .f32) (q := q) rfl rfl hq hqq (by show 4 * t.numel < _; have := hs.addr; omega) rfl
  rw [hback] at e'
  refine ⟨_, e', ?_⟩
  have hm := hm (bytes q.bits t.numel) le_rfl (by
    intro g1 _ _ g4
    refine absurd ⟨?_, g4⟩ h4
    rw [g1] at hq
    cases dtype <;> simp [torchDtype?] at hq ⊢)
  have hstore : (returned dtype t.numel alloc m).store = ⟨bytes q.bits t.numel, fun a => m (alloc + a)⟩ := by
    unfold returned; rw [hbits]; rfl
  rw [hstore]
  exact hm.mono (fun _ h => h) fun m' hm' i hi => (hm' i hi).2

/-- A float32 tensor with the values 1.0, -2.5, 0.3, 7.75, 100.0. -/
def sample : Py.Tensor := ⟨.float32, 5, 64, Ex.xs⟩

example : sample.Ok ∧ AllFin (floatType sample.dtype) sample.store sample.numel ∧ Split sample.numel 0 [(0, 2), (2, 5)] ∧
    Range (floatType sample.dtype).dtype sample.store.data sample.numel (-5 / 2) 100 ∧
    Py.computeQuantParams ⟨.avx2, 3, .none⟩ sample .quint8 (fun _ => [(0, 2), (2, 5)]) = .ok (.ret (Flt.cvt f64 (⟨false, 1053674958⟩ : F32), 6)) ∧
    1 / 2 ^ 126 ≤ (Flt.cvt f64 (⟨false, 1053674958⟩ : F32)).toRat ∧ (Flt.cvt f64 (⟨false, 1053674958⟩ : F32)).toRat ≤ 2 ^ 119 := by
  have hv : ∀ t, t < 5 → -5 / 2 ≤ (elem .f32 Ex.xs.data 0 t).toRat ∧ (elem .f32 Ex.xs.data 0 t).toRat ≤ 100 := by decide +kernel
  refine ⟨⟨by decide, by decide⟩, ?_, ⟨rfl, by decide, rfl, by decide, rfl⟩, ⟨⟨⟨1, by decide, by decide +kernel⟩, ?_⟩, ⟨4, by decide, by decide +kernel⟩, ?_⟩, ?_, by decide +kernel, by decide +kernel⟩
  · unfold AllFin; decide +kernel
  · rintro v ⟨t, ht, rfl⟩; exact (hv t ht).1
  · rintro v ⟨t, ht, rfl⟩; exact (hv t ht).2
  · rw [computeQuantParams_quant (by decide) (by decide) (by decide) (q := .uint8) rfl, if_neg (by decide)]
    have : computeQuantConfigFromData .avx2 .f32 Ex.xs [(0, 2), (2, 5)] .uint8 = .ret (⟨false, 1053674958⟩, 6) := retIs_iff (by decide +kernel)
    show Except.ok (computeQuantConfigFromData .avx2 .f32 Ex.xs [(0, 2), (2, 5)] .uint8 >>= _) = _
    rw [this]; rfl

/-- `C40_false_narrow_dtypes` applied to a concrete case. -/
example := C40_false_narrow_dtypes (c := Ex.c1) (t := halfs) (dtype := .uint8) (blocks := (fun _ => [(0, 2), (2, 3)])) (ht := ⟨by decide, by decide⟩)
    (h0 := by wit) (hn := by wit) (hb := by wit) (hw := by wit) (hq := by wit) (hs := ⟨rfl, by decide, rfl, by decide, rfl⟩)

/-- `C40_no_overread_partial` applied to a concrete case. -/
example := C40_no_overread_partial (c := Ex.c1) (t := doubles) (dtype := .uint8) (blocks := (fun _ => [(0, 1), (1, 2)])) (ht := ⟨by decide, by decide⟩)
    (h0 := by wit) (hn := by wit) (hw := by wit) (hq := by wit) (hs := ⟨rfl, by decide, rfl, by decide, rfl⟩)

end Verif.Props

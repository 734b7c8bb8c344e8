import Verif.Model.Context

/-! # The dispatch tables -/

namespace Verif

variable {isa : Isa} {x : InBuf} {off o r n : Nat} {scale τ : F32} {zp : ℤ} {dt : DType} {fz : Fuse} {ft : FT} {mode : RoundMode} {op : ReduceOp}

theorem quantizeDispatch_quant (hdt : dt.isQuant = true) :
    quantizeDispatch isa x off o r ⟨.quant, n, scale, zp, ft.dtype, dt, mode, op, τ, fz⟩ =
      quantGeneric isa ft dt mode x off o r scale τ zp := by
  cases ft <;> cases dt <;> cases mode <;> first | (cases hdt; done) | rfl

theorem quantizeDispatch_dequant (hdt : dt.isQuant = true) :
    quantizeDispatch isa x off o r ⟨.dequant, n, scale, zp, dt, ft.dtype, mode, op, τ, fz⟩ =
      dequantGeneric isa fz dt ft op x off o r scale zp := by
  cases ft <;> cases dt <;> cases op <;> first | (cases hdt; done) | rfl

theorem quantizeDispatch_requant (hdt : dt.isQuant = true) :
    quantizeDispatch isa x off o r ⟨.quantDequant, n, scale, zp, ft.dtype, dt, mode, op, τ, fz⟩ =
      requantGeneric fz ft dt mode op x off o r scale τ zp := by
  cases ft <;> cases dt <;> cases mode <;> cases op <;> first | (cases hdt; done) | rfl

/-- The dequantization entries carry the reduce operation they are looked up with. -/
theorem dequantFunctions_op {a b : DType} {e : DType × FT × ReduceOp}
    (h : dequantFunctions[op.code]?.bind (fun t => at2 t a.code b.code) = some (some e)) : e.2.2 = op := by
  cases op <;> cases a <;> cases b <;> (cases h; try rfl)

theorem requantFunctions_op {a b : DType} {e : FT × DType × RoundMode × ReduceOp}
    (h : (requantFunctions[mode.code]?.bind (·[op.code]?)).bind (fun t => at2 t a.code b.code) = some (some e)) : e.2.2.2 = op := by
  cases mode <;> cases op <;> cases a <;> cases b <;> (cases h; try rfl)

end Verif

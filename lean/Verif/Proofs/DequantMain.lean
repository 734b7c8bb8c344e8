import Verif.Proofs.QuantMain
import Verif.Proofs.Bf16

/-! # `dequantize` and the fused call: the whole calls in specification terms -/

namespace Verif
open Spec Simd

/-! ## Valid encodings -/

theorem roundAbs_valid {f : Fmt} (q : ℚ) : Flt.roundAbs f q ≤ f.infMag := by unfold Flt.roundAbs; exact min_le_left _ _
theorem infMag_lt_f32 : f32.infMag + 2 ^ 22 < f32.magLim := by decide

theorem valid_of_le {b : Bool} {k : Nat} (h : k ≤ f32.infMag) : (⟨b, k⟩ : F32).Valid := by
  have := infMag_lt_f32; show k < f32.magLim; omega
theorem valid_nan : (Flt.nan : F32).Valid := infMag_lt_f32
theorem valid_inf (b : Bool) : (Flt.inf b : F32).Valid := valid_of_le le_rfl

theorem valid_ofRat (q : ℚ) (z : Bool) : (Flt.ofRat f32 q z).Valid := by
  unfold Flt.ofRat
  split
  · exact valid_of_le (Nat.zero_le _)
  · exact valid_of_le (roundAbs_valid _)

theorem valid_mul (a b : F32) : (Flt.mul a b).Valid := by
  unfold Flt.mul
  split
  · exact valid_nan
  · split
    · split
      · exact valid_nan
      · exact valid_inf _
    · exact valid_of_le (roundAbs_valid _)

theorem valid_of_inf {a : F32} (h : a.isInf = true) : a.Valid := by
  have : a.mag = f32.infMag := by simpa [Flt.isInf] using h
  have h2 := infMag_lt_f32
  show a.mag < f32.magLim; omega

theorem valid_add (a b : F32) : (Flt.add a b).Valid := by
  unfold Flt.add
  split
  · exact valid_nan
  · split
    · rename_i h; split
      · exact valid_nan
      · exact valid_of_inf h
    · split
      · rename_i h; exact valid_of_inf h
      · exact valid_ofRat _ _

theorem valid_fma (a b c : F32) : (Flt.fma a b c).Valid := by
  unfold Flt.fma
  split
  · exact valid_nan
  · split
    · split
      · exact valid_nan
      · split
        · exact valid_nan
        · exact valid_inf _
    · split
      · rename_i h; exact valid_of_inf h
      · exact valid_ofRat _ _

theorem valid_ofBits (u : Nat) : (Flt.ofBits f32 u).Valid := Nat.mod_lt _ (by rw [magLim_f32]; norm_num)

/-- Both results of the term are valid encodings. -/
def Term.Valid (v : Term) : Prop := v.val.Valid ∧ ∀ old, (v.plus old).Valid

theorem Term.prod_valid (b : Bool) (d s : F32) : (Term.prod b d s).Valid := by
  refine ⟨valid_mul _ _, fun old => ?_⟩
  show (if b then Flt.fma d s old else Flt.add old (Flt.mul d s)).Valid
  split
  · exact valid_fma _ _ _
  · exact valid_add _ _

theorem Term.plain_valid {v : F32} (h : v.Valid) : (Term.plain v).Valid := ⟨h, fun _ => valid_add _ _⟩

theorem valid_opF {op : ReduceOp} {old : F32} {v : Term} (hv : v.Valid) : (opF op old v).Valid := by
  cases op
  · exact hv.1
  · exact hv.2 _

theorem valid_vopB {op : ReduceOp} {old : Nat} {v : Term} (hv : v.Valid) : (vopB op v old).Valid := by
  cases op
  · exact hv.1
  · exact hv.2 _

theorem ofBits_toBits {x : F32} (h : x.Valid) : Flt.ofBits f32 x.toBits = x := by
  have h' : x.mag < 2147483648 := by rw [← magLim_f32]; exact h
  unfold Flt.ofBits Flt.toBits
  rw [magLim_f32]
  obtain ⟨s, k⟩ := x
  simp only at *
  cases s
  · simp; omega
  · simp; omega

theorem toBits_lt {x : F32} (h : x.Valid) : x.toBits < 4294967296 := by
  have h' : x.mag < 2147483648 := by rw [← magLim_f32]; exact h
  rw [toBits_eq]; split <;> omega

/-! ## Stored elements -/

theorem rdF_spec (m : Mem) (a : Nat) : rdF m a = f32At m a := rfl
theorem rdW_spec (m : Mem) (a : Nat) : rdW m a = u16At m a := rfl

theorem f32At_of_bytes {m : Mem} {a v : Nat} (hv : v < 4294967296) (h : ∀ k, k < 4 → m (a + k) = byteOf v k) :
    f32At m a = Flt.ofBits f32 v := by
  have h0 := h 0 (by omega)
  have h1 := h 1 (by omega)
  have h2 := h 2 (by omega)
  have h3 := h 3 (by omega)
  unfold f32At
  rw [Nat.add_zero] at h0
  rw [h0, h1, h2, h3]
  congr 1
  unfold byteOf
  norm_num
  omega

theorem u16At_of_bytes {m : Mem} {a v : Nat} (hv : v < 65536) (h : ∀ k, k < 2 → m (a + k) = byteOf v k) :
    u16At m a = v := by
  have h0 := h 0 (by omega)
  have h1 := h 1 (by omega)
  unfold u16At
  rw [Nat.add_zero] at h0
  rw [h0, h1]
  unfold byteOf
  norm_num
  omega

theorem okElem_at {o sz n : Nat} {R : Nat → Nat → Prop} {m : Mem} (hsz : 0 < sz) (h : ∀ j, j < sz * n → OkElem o sz R j m) {i : Nat} (hi : i < n) :
    ∃ v, R i v ∧ ∀ k, k < sz → m (o + sz * i + k) = byteOf v k := by
  have hlt : sz * i < sz * n := Nat.mul_lt_mul_of_pos_left hi hsz
  obtain ⟨v, h1, h2⟩ := h (sz * i) hlt
  rw [Nat.mul_div_cancel_left _ hsz] at h1 h2
  exact ⟨v, h1, h2⟩

theorem okElem_lt {o sz n : Nat} {R : Nat → Nat → Prop} {m : Mem} (hsz : 0 < sz) (h : ∀ j, j < sz * n → OkElem o sz R j m) {j : Nat} (hj : j < sz * n) :
    m (o + j) < 256 := by
  obtain ⟨v, _, h2⟩ := h j hj
  have := h2 (j % sz) (Nat.mod_lt _ hsz)
  rw [show o + sz * (j / sz) + j % sz = o + j by have := Nat.div_add_mod j sz; omega] at this
  rw [this]; unfold byteOf; exact Nat.mod_lt _ (by norm_num)

/-! ## Words -/

theorem bf16Bits_lt {u : Nat} : f32ToBf16Bits u < 65536 := by
  unfold f32ToBf16Bits; split <;> exact Nat.mod_lt _ (by norm_num)

theorem opW_lt {op : ReduceOp} {old v : Nat} (hv : v < 65536) : opW op old v < 65536 := by
  cases op
  · exact hv
  · exact bf16Bits_lt

theorem cvtB_lt {isa : Isa} {v : F32} (hv : v.Valid) : cvtB isa v < 65536 := by
  unfold cvtB
  split
  · unfold cvtnepsBits
    simp only
    split
    · exact Nat.mod_lt _ (by norm_num)
    · split
      · have := toBits_lt hv
        rw [Nat.shiftRight_eq_div_pow, Nat.and_one_is_mod]; omega
      · exact Nat.mod_lt _ (by norm_num)
  · unfold cvtPsBf16Bits; simp only; omega

theorem isBf16Of_f32ToBf16 {x : F32} (h : x.Valid) : IsBf16Of x (f32ToBf16 x) := by
  unfold IsBf16Of
  split
  · rename_i hn
    obtain ⟨_, h1, h2, _⟩ := f32ToBf16_nan h hn
    exact ⟨h1, h2⟩
  · rename_i hn
    exact f32ToBf16_cvt h (by simpa using hn)

/-! ## The whole calls -/

theorem dqF_valid (b : Bool) (dt : DType) (scale : F32) (zp : ℤ) (q : Nat) : (dqF b dt scale zp q).Valid := by
  unfold dqF dqMulT; split <;> exact Term.prod_valid _ _ _

theorem dqV_valid (b : Bool) (dt : DType) (scale : F32) (zp : ℤ) (q : Nat) : (dqV b dt scale zp q).Valid := by
  unfold dqV dqMulT dqFmaV; split
  · exact Term.prod_valid _ _ _
  · exact Term.plain_valid (valid_fma _ _ _)

section
variable {E : Fault → Prop} {c : Ctx} {x : InBuf} {dt : DType} {n o : Nat} {scale τ : F32} {zp : ℤ} {mode : RoundMode} {op : ReduceOp} {m0 : Mem} {ft : FT}

/-- What the call does to element `i`. -/
def DqOut (isa : Isa) (fz : Fuse) (dt : DType) (ft : FT) (op : ReduceOp) (scale : F32) (zp : ℤ) (m0 m : Mem) (o n i q : Nat) : Prop :=
  match ft with
  | .f32 => ∃ b, fz.Has b ∧ f32At m (o + 4 * i) = opF (if dt = .uint2 ∧ n / 4 * 4 ≤ i then .set else op) (f32At m0 (o + 4 * i)) (dqF b dt scale zp q)
  | .bf16 => u16At m (o + 2 * i) = opW op (u16At m0 (o + 2 * i)) (f32ToBf16 (dqB dt scale zp q)) ∨
      ((isa = .avx512f ∨ isa = .avx512bf16) ∧ u16At m (o + 2 * i) = cvtB isa (vopB op (dqV fz.vec dt scale zp q) (u16At m0 (o + 2 * i))))

theorem dqElem_out {isa : Isa} {fz : Fuse} {m : Mem} {i q v : Nat} (h : DqElem isa fz dt ft op scale zp m0 o n i q v)
    (hm : ∀ k, k < ft.size → m (o + ft.size * i + k) = byteOf v k) : DqOut isa fz dt ft op scale zp m0 m o n i q := by
  cases ft
  · obtain ⟨b, hb, h⟩ := h
    refine ⟨b, hb, ?_⟩
    have hv := valid_opF (op := if dt = .uint2 ∧ n / 4 * 4 ≤ i then .set else op) (old := rdF m0 (o + 4 * i)) (dqF_valid b dt scale zp q)
    rw [f32At_of_bytes (a := o + 4 * i) (v := v) (by rw [h]; exact toBits_lt hv) hm, h, ofBits_toBits hv]
    rfl
  · rcases h with h | ⟨h1, h⟩
    · left
      rw [u16At_of_bytes (a := o + 2 * i) (v := v) (by rw [h]; exact opW_lt bf16Bits_lt) hm, h]; rfl
    · right
      have hv : (vopB op (dqV fz.vec dt scale zp q) (rdW m0 (o + 2 * i))).Valid := valid_vopB (dqV_valid _ _ _ _ _)
      refine ⟨h1, ?_⟩
      rw [u16At_of_bytes (a := o + 2 * i) (v := v) (by rw [h]; exact cvtB_lt hv) hm, h]; rfl

/-- The result of a dequantize call. -/
def DRes (c : Ctx) (x : InBuf) (dt : DType) (ft : FT) (n o : Nat) (scale : F32) (zp : ℤ) (op : ReduceOp) (m0 m : Mem) : Prop :=
  (∀ i, i < n → DqOut c.isa c.fuse dt ft op scale zp m0 m o n i (code dt.bits x.data 0 i)) ∧
    (∀ j, j < ft.size * n → m (o + j) < 256) ∧ (∀ a, (a < o ∨ o + ft.size * n ≤ a) → m a = m0 a)

theorem dequantize_sched (hE : ¬ E .oobRead ∧ ¬ E .oobWrite) (hdt : dt.isQuant = true) (hx : bytes dt.bits n ≤ x.size)
    (hx2 : dt = .uint2 → ft = .f32 → 0 < n → n / 4 + 1 ≤ x.size) (hsz : Sizes n c.threads)
    (hs : ∀ i, i < n → E .ub ∨ DqRange dt ft zp (code dt.bits x.data 0 i)) :
    AllSchedules E (span o (ft.size * n)) (jobs c.isa c.threads x o ⟨.dequant, n, scale, zp, dt, ft.dtype, .nearest, op, f0, c.fuse⟩) m0
      (fun m => DRes c x dt ft n o scale zp op m0 m ∧
        runSeq (span o (ft.size * n)) (jobs c.isa c.threads x o ⟨.dequant, n, scale, zp, dt, ft.dtype, .nearest, op, f0, c.fuse⟩) m0 = .ok m) := by
  have hw := dequantize_worker (E := E) (fz := c.fuse) (isa := c.isa) (x := x) (o := o) (m0 := m0) (op := op) (scale := scale) (mode := .nearest) (τ := f0)
    hdt hx hx2 (fun i hi => by rw [qAt_spec x hdt]; exact hs i hi)
  have hb : (Desc.outBits ⟨.dequant, n, scale, zp, dt, ft.dtype, .nearest, op, f0, c.fuse⟩) = ft.dtype.bits := by simp [Desc.outBits]
  have := call_main (E := E) (tc := c.threads) hE (legal_dequant hdt) hsz.pos hsz.split hsz.addr (by rw [hb]; exact local_elem) hw.at
  simp only [hb, outBytes_ft] at this
  refine ⟨this.safe, this.raceFree, this.progress, this.bounded, fun k d hr hd => ?_⟩
  obtain ⟨h1, h2, h3⟩ := this.post k d hr hd
  refine ⟨⟨fun i hi => ?_, fun j hj => okElem_lt (ft_size_pos ft) h1 hj, h2⟩, h3⟩
  obtain ⟨v, g1, g2⟩ := okElem_at (ft_size_pos ft) h1 hi
  rw [qAt_spec x hdt] at g1
  exact dqElem_out g1 g2

/-- What the fused call does to element `i`. -/
def FOut (b : Bool) (ft : FT) (dt : DType) (mode : RoundMode) (op : ReduceOp) (scale τ : F32) (zp : ℤ) (m0 m : Mem) (o i : Nat) (v : F32) : Prop :=
  ∃ q, qStep mode dt.qmax v τ (invScale scale) zp = .ret q ∧
    match ft with
    | .f32 => f32At m (o + 4 * i) = opF op (f32At m0 (o + 4 * i)) (Term.prod b (Flt.ofInt f32 (q - zp)) scale)
    | .bf16 => u16At m (o + 2 * i) = opW op (u16At m0 (o + 2 * i)) (bf16Mul (f32ToBf16 (Flt.ofInt f32 (q - zp))) (f32ToBf16 scale))

theorem subI_ret {w : Nat} {a b t : ℤ} (h : subI w a b = .ret t) : t = a - b := by
  unfold subI at h
  split at h
  · injection h with h; exact h.symm
  · cases h

theorem fusedElem_out {b : Bool} {m : Mem} {i v : Nat} {y : F32} (h : FusedElem b ft dt mode op scale τ zp m0 o i y v)
    (hm : ∀ k, k < ft.size → m (o + ft.size * i + k) = byteOf v k) : FOut b ft dt mode op scale τ zp m0 m o i y := by
  obtain ⟨q, hq, h⟩ := h
  refine ⟨q, hq, ?_⟩
  cases ft
  · obtain ⟨d, hd, rfl⟩ := h
    unfold dqStepF32 subI at hd
    split at hd
    · have hd : d = Term.prod b (Flt.ofInt f32 (q - zp)) scale := by cases hd; rfl
      have hv : (opF op (rdF m0 (o + 4 * i)) d).Valid := valid_opF (by rw [hd]; exact Term.prod_valid _ _ _)
      show f32At m (o + 4 * i) = _
      rw [f32At_of_bytes (a := o + 4 * i) (toBits_lt hv) hm, ofBits_toBits hv, hd]; rfl
    · cases hd
  · obtain ⟨d, hd, rfl⟩ := h
    unfold dqStepBf16 subI at hd
    split at hd
    · have hd : d = bf16Mul (f32ToBf16 (Flt.ofInt f32 (q - zp))) (f32ToBf16 scale) := by cases hd; rfl
      show u16At m (o + 2 * i) = _
      rw [u16At_of_bytes (a := o + 2 * i) (opW_lt (by rw [hd]; exact bf16Bits_lt)) hm, hd]; rfl
    · cases hd

def FRes (b : Bool) (x : InBuf) (dt : DType) (ft : FT) (n o : Nat) (scale τ : F32) (zp : ℤ) (mode : RoundMode) (op : ReduceOp) (m0 m : Mem) : Prop :=
  (∀ i, i < n → FOut b ft dt mode op scale τ zp m0 m o i (elem ft.dtype x.data 0 i)) ∧
    (∀ j, j < ft.size * n → m (o + j) < 256) ∧ (∀ a, (a < o ∨ o + ft.size * n ≤ a) → m a = m0 a)

theorem fused_schedAt (hE : ¬ E .oobRead ∧ ¬ E .oobWrite) (hdt : dt.isQuant = true) (hx : x.size = ft.size * n) (hsz : Sizes n c.threads)
    (hs : ∀ i, i < n → StepOk E (qStep mode dt.qmax (x.elem ft 0 i) τ (invScale scale) zp))
    (hs2 : ∀ i, i < n → ∀ q : Nat, qStep mode dt.qmax (x.elem ft 0 i) τ (invScale scale) zp = .ret q → E .ub ∨ inI64 (q - zp)) :
    AllSchedules E (span o (ft.size * n)) (jobs c.isa c.threads x o ⟨.quantDequant, n, scale, zp, ft.dtype, dt, mode, op, τ, c.fuse⟩) m0
      (fun m => FRes c.fuse.gen x dt ft n o scale τ zp mode op m0 m ∧
        runSeq (span o (ft.size * n)) (jobs c.isa c.threads x o ⟨.quantDequant, n, scale, zp, ft.dtype, dt, mode, op, τ, c.fuse⟩) m0 = .ok m) := by
  have hw := fused_workerAt (E := E) (fz := c.fuse) (isa := c.isa) (x := x) (o := o) (m0 := m0) (op := op) hdt (le_of_eq hx.symm) hs hs2
  have hb : (Desc.outBits ⟨.quantDequant, n, scale, zp, ft.dtype, dt, mode, op, τ, c.fuse⟩) = ft.dtype.bits := by simp [Desc.outBits]
  have := call_main (E := E) (tc := c.threads) hE (legal_fused hdt) hsz.pos hsz.split hsz.addr (by rw [hb]; exact local_elem) hw.at
  simp only [hb, outBytes_ft] at this
  refine ⟨this.safe, this.raceFree, this.progress, this.bounded, fun k d hr hd => ?_⟩
  obtain ⟨h1, h2, h3⟩ := this.post k d hr hd
  refine ⟨⟨fun i hi => ?_, fun j hj => okElem_lt (ft_size_pos ft) h1 hj, h2⟩, h3⟩
  obtain ⟨v, g1, g2⟩ := okElem_at (ft_size_pos ft) h1 hi
  rw [elem_spec] at g1
  exact fusedElem_out g1 g2

theorem fused_sched (hE : ¬ E .oobRead ∧ ¬ E .oobWrite) (hdt : dt.isQuant = true) (hx : x.size = ft.size * n) (hsz : Sizes n c.threads)
    (hs : ∀ i, i < n → StepOk E (qStep mode dt.qmax (x.elem ft 0 i) τ (invScale scale) zp))
    (hs2 : ∀ q : Nat, q ≤ dt.qmax → E .ub ∨ inI64 (q - zp)) :
    AllSchedules E (span o (ft.size * n)) (jobs c.isa c.threads x o ⟨.quantDequant, n, scale, zp, ft.dtype, dt, mode, op, τ, c.fuse⟩) m0
      (fun m => FRes c.fuse.gen x dt ft n o scale τ zp mode op m0 m ∧
        runSeq (span o (ft.size * n)) (jobs c.isa c.threads x o ⟨.quantDequant, n, scale, zp, ft.dtype, dt, mode, op, τ, c.fuse⟩) m0 = .ok m) :=
  fused_schedAt hE hdt hx hsz hs (fun _ _ q hq => hs2 q (qStep_le hq))

end
end Verif

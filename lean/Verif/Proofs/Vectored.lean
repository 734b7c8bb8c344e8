import Verif.SpecVector
import Verif.Proofs.QuantMain

/-! # Nearest `quantize` with the position of every element: proofs for C116 -/

namespace Verif
open Spec Simd

/-! ## The spec functions and the model -/

theorem low32_eq (z : ℤ) : wrap32 z = low32 z := by
  unfold wrap32 low32
  rw [Int.bmod_def]
  split <;> norm_num at * <;> omega

theorem add_not_fin {p h : F32} (hp : p.isFin = false) (hh : h.isFin = true) : (Flt.add p h).isFin = false := by
  have hn : (Flt.nan : F32).isFin = false := by simp [Flt.nan, Flt.isFin]
  obtain ⟨h1, h2⟩ := isFin_not_nan hh
  unfold Flt.add
  rw [h1, h2]
  cases hpn : p.isNaN
  · cases hpi : p.isInf
    · exfalso
      simp only [Flt.isNaN, Flt.isInf, Flt.isFin, decide_eq_false_iff_not] at hpn hpi hp
      omega
    · simpa using hp
  · simpa using hn

theorem x86_eq (p : F32) : cvttps1 (vsum p) = x86Round p := by
  have key : cvttps1 (vsum p) = cvttps1 (halfAway p) := by
    by_cases hp : p.isFin = true
    · unfold vsum halfAway
      rw [ge_fin hp (by decide), f0_toRat]
      by_cases h0 : 0 ≤ p.toRat
      · rw [if_pos (by simpa using h0), if_pos h0]; rfl
      · rw [if_neg (by simpa using h0), if_neg h0]; rfl
    · have hp : p.isFin = false := by simpa using hp
      have e1 : (vsum p).isFin = false := by unfold vsum; split <;> exact add_not_fin hp (by decide)
      have e2 : (halfAway p).isFin = false := by unfold halfAway; split <;> exact add_not_fin hp (by decide)
      unfold cvttps1 Flt.toInt?
      rw [e1, e2]; simp
  rw [key]
  unfold cvttps1 Flt.toInt? x86Round
  rw [truncInt_rtz]
  by_cases hf : (halfAway p).isFin = true
  · by_cases hr : -(2 ^ 31 : ℤ) ≤ rtz (halfAway p).toRat ∧ rtz (halfAway p).toRat < 2 ^ 31
    · rw [if_pos hf, if_pos (⟨hf, hr.1, hr.2⟩ : _ ∧ _ ∧ _)]
      have : -(2 ^ (32 - 1) : ℤ) ≤ rtz (halfAway p).toRat ∧ rtz (halfAway p).toRat < 2 ^ (32 - 1) := hr
      simp only [this, and_self, if_true]
    · rw [if_pos hf, if_neg (fun h : _ ∧ _ ∧ _ => hr ⟨h.2.1, h.2.2⟩)]
      have : ¬ (-(2 ^ (32 - 1) : ℤ) ≤ rtz (halfAway p).toRat ∧ rtz (halfAway p).toRat < 2 ^ (32 - 1)) := hr
      simp only [this, if_false]
  · rw [if_neg hf, if_neg (fun h => hf h.1)]

theorem neon_eq (p : F32) : vcvta1 p = neonRound p := by
  unfold vcvta1 neonRound
  split
  · rfl
  · rename_i h1
    split
    · rfl
    · rename_i h2
      rw [rha_toRat]
      simp only [Flt.isNaN, Flt.isInf, Flt.isFin, decide_eq_true_eq] at h1 h2 ⊢
      omega

theorem vcode_spec {isa : Isa} (hi : isa ≠ .neon) {dt : DType} (hdt : dt.isQuant = true) (v scale : F32) (zp : ℤ) :
    (vcode dt.qmax (invScale scale) (wrap32 zp) v : ℤ) = vectorCode isa dt.bits (scaled v scale) zp := by
  have : vcode dt.qmax (invScale scale) (wrap32 zp) v =
      clampI dt.qmax (wrap32 (cvttps1 (vsum (scaled v scale)) + wrap32 zp)) := rfl
  rw [this, clampI_sat hdt, x86_eq, low32_eq, low32_eq]
  unfold vectorCode
  rw [if_neg hi]

theorem ncode_spec (v scale : F32) (zp : ℤ) :
    (ncode (invScale scale) (wrap32 zp) v : ℤ) = vectorCode .neon 8 (scaled v scale) zp := by
  have : ncode (invScale scale) (wrap32 zp) v = clampI DType.uint8.qmax (wrap32 (vcvta1 (scaled v scale) + wrap32 zp)) := rfl
  rw [this, clampI_sat (dt := .uint8) rfl, neon_eq, low32_eq, low32_eq]
  rfl

theorem scalar_spec {ft : FT} {dt : DType} (hdt : dt.isQuant = true) {v scale τ : F32} {zp : ℤ} {q : Nat} :
    scalarStep ft dt .nearest scale τ zp v = .ret q ↔
      ScalarOk ft.dtype dt (scaled v scale) zp ∧ (q : ℤ) = scalarCode ft.dtype dt (scaled v scale) zp := by
  have e (z : ℤ) : q = clampI dt.qmax z ↔ (q : ℤ) = sat dt.bits z := by
    rw [← clampI_sat hdt]; exact ⟨fun h => by rw [h], fun h => by exact_mod_cast h⟩
  have e32 : qNearest32 dt.qmax v (invScale scale) (wrap32 zp) = .ret q ↔
      Fits 32 (scaled v scale) (low32 zp) ∧ (q : ℤ) = sat dt.bits (rha (scaled v scale).toRat + low32 zp) := by
    rw [qNearest32_ret, low32_eq, e]; rfl
  have e64 : qNearest64 dt.qmax v (invScale scale) zp = .ret q ↔
      Fits 64 (scaled v scale) zp ∧ (q : ℤ) = sat dt.bits (rha (scaled v scale).toRat + zp) := by
    rw [qNearest64_ret, e]; rfl
  unfold scalarStep ScalarOk scalarCode scalarZp scalarWidth
  cases ft <;> cases dt <;> simp only [DType.isQuant, Bool.false_eq_true] at hdt
  · simpa [FT.dtype, DType.qmax] using e64
  all_goals simpa [FT.dtype, DType.qmax] using e32

/-- The padding value: the step on zero is defined if it is on some element. -/
theorem pad_ok {ft : FT} {dt : DType} (hdt : dt.isQuant = true) {v scale τ : F32} {zp : ℤ}
    (h : ScalarOk ft.dtype dt (scaled v scale) zp) (h2 : ¬ (ft = .f32 ∧ dt = .uint2)) :
    ∃ q, scalarStep ft dt .nearest scale τ zp f0 = .ret q := by
  have hfin : (scaled v scale).isFin = true := h.1
  have hinv := (mul_fin_right (a := v) (b := invScale scale) hfin).2
  have he : scaled f0 scale = ⟨(invScale scale).neg, 0⟩ := mul_f0 hinv
  have hz0 : ∀ s, (⟨s, 0⟩ : F32).isFin = true ∧ (⟨s, 0⟩ : F32).toRat = 0 := by decide +kernel
  obtain ⟨h1, hr0⟩ := hz0 (invScale scale).neg
  have hr : rha 0 = 0 := by decide +kernel
  refine ⟨clampI dt.qmax (rha (scaled f0 scale).toRat + scalarZp ft.dtype dt zp), (scalar_spec hdt).mpr ⟨?_, clampI_sat hdt _⟩⟩
  have h3 : ¬ (ft.dtype = .f32 ∧ dt = .uint2) := by
    rintro ⟨a, b⟩; apply h2; refine ⟨?_, b⟩; cases ft
    · rfl
    · cases a
  unfold ScalarOk scalarWidth scalarZp
  rw [if_neg h3, if_neg h3, he]
  refine ⟨h1, ?_, ?_⟩
  · rw [hr0, hr]; norm_num
  · rw [hr0, hr]; unfold low32; norm_num; omega

/-! ## The runs of the workers -/

theorem runStart_eq (dt : DType) (n T t : Nat) :
    runStart dt n T t = cut (8 / dt.bits) n T t := rfl

theorem packed_eq {dt : DType} (hdt : dt.isQuant = true) {n : Nat} {scale τ : F32} {zp : ℤ} {di : DType} {mode : RoundMode} {op : ReduceOp} {fz : Fuse} :
    packElems (packedBits ⟨.quant, n, scale, zp, di, dt, mode, op, τ, fz⟩) = 8 / dt.bits := by
  cases dt <;> first | rfl | cases hdt

theorem run_unique {pe n T s t i : Nat} (hs : s < T) (ht : t < T) (h1 : cut pe n T s ≤ i) (h2 : i < cut pe n T (s + 1))
    (h3 : cut pe n T t ≤ i) (h4 : i < cut pe n T (t + 1)) : s = t := by
  rcases Nat.lt_trichotomy s t with h | h | h
  · have := cut_mono' (pe := pe) (n := n) (tc := T) (s := s + 1) (t := t) (by omega) (by omega); omega
  · exact h
  · have := cut_mono' (pe := pe) (n := n) (tc := T) (s := t + 1) (t := s) (by omega) (by omega); omega

theorem vectored_iff {isa : Isa} {T n o i t : Nat} {a dt : DType} (ht : t < T)
    (h1 : cut (8 / dt.bits) n T t ≤ i) (h2 : i < cut (8 / dt.bits) n T (t + 1)) :
    Vectored isa T a dt o n i ↔ InGroups isa a dt (o + dt.bits * cut (8 / dt.bits) n T t / 8)
      (cut (8 / dt.bits) n T (t + 1) - cut (8 / dt.bits) n T t) (i - cut (8 / dt.bits) n T t) := by
  constructor
  · rintro ⟨s, hs, g1, g2, g3⟩
    simp only [runStart_eq] at g1 g2 g3
    have := run_unique hs ht g1 g2 h1 h2
    subst this
    exact g3
  · intro h
    exact ⟨t, ht, h1, h2, h⟩

section
variable {E : Fault → Prop} {isa : Isa} {x : InBuf} {o n : Nat} {m0 : Mem} {ft : FT} {dt : DType} {fz : Fuse} {mode : RoundMode}
  {scale τ : F32} {zp : ℤ} {op : ReduceOp}

theorem quantize_workerAt {T : Nat} (hdt : dt.isQuant = true) (hin : ft.size * n ≤ x.size)
    (hs : ∀ i, i < n → ¬ (mode = .nearest ∧ Vectored isa T ft.dtype dt o n i) → StepOk E (scalarStep ft dt mode scale τ zp (x.elem ft 0 i)))
    (hs0 : n % dt.per ≠ 0 → ¬ (ft = .f32 ∧ dt = .uint2) → StepOk E (scalarStep ft dt mode scale τ zp f0)) :
    WorkerOkAt E isa x o ⟨.quant, n, scale, zp, ft.dtype, dt, mode, op, τ, fz⟩ m0
      (fun j m => OkPack dt.bits n (fun i q => CodeAt isa ft dt mode scale τ zp (Vectored isa T ft.dtype dt o n i) (x.elem ft 0 i) q) j (m (o + j))) T := by
  intro t b e ht hb' he' hbe hen hbi hbo he
  have ho : Desc.outBits ⟨.quant, n, scale, zp, ft.dtype, dt, mode, op, τ, fz⟩ = dt.bits := by simp [Desc.outBits]
  rw [packed_eq hdt] at hb' he'
  simp only [ho] at *
  rw [FT.size_eq]
  have hdisp : quantizeDispatch isa x (ft.size * b) (o + dt.bits * b / 8) (e - b)
      ⟨.quant, n, scale, zp, ft.dtype, dt, mode, op, τ, fz⟩ =
      quantGeneric isa ft dt mode x (ft.size * b) (o + dt.bits * b / 8) (e - b) scale τ zp := quantizeDispatch_quant hdt
  rw [hdisp]
  have hsz : ft.size * e ≤ x.size := Nat.le_trans (Nat.mul_le_mul_left _ hen) hin
  have hbe' : ft.size * b + ft.size * (e - b) = ft.size * e := by rw [← Nat.mul_add]; congr 1; omega
  have hbytes : dt.bits * b / 8 + (e - b + dt.per - 1) / dt.per = (dt.bits * e + 7) / 8 := by
    rw [outBytes_eq dt hdt]
    have : dt.bits * e = dt.bits * b + dt.bits * (e - b) := by rw [← Nat.mul_add]; congr 1; omega
    omega
  have hmod : (e - b) % dt.per ≠ 0 → n % dt.per ≠ 0 := by
    intro h
    have : e = n := by
      rcases he with h' | h'
      · exact h'
      · exfalso; apply h
        cases dt <;> simp [DType.isQuant, DType.per, DType.bits] at * <;> omega
    subst this
    cases dt <;> simp [DType.isQuant, DType.per, DType.bits] at * <;> omega
  have hvec : ∀ i, i < e - b → (Vectored isa T ft.dtype dt o n (b + i) ↔ InGroups isa ft.dtype dt (o + dt.bits * b / 8) (e - b) i) := by
    intro i hi
    have := vectored_iff (isa := isa) (dt := dt) (a := ft.dtype) (o := o) (n := n) (T := T) (t := t) (i := b + i) ht (by omega) (by omega)
    rw [← hb', ← he', show b + i - b = i by omega] at this
    exact this
  have := quantGenericAt_triple (E := E) (w := sliceWin o dt.bits b e) (m0 := m0) (x := x) (off := ft.size * b)
    (o := o + dt.bits * b / 8) (n := e - b) (isa := isa) (ft := ft) (dt := dt) (mode := mode) (scale := scale) (τ := τ) (zp := zp)
    (P := fun i q => CodeAt isa ft dt mode scale τ zp (Vectored isa T ft.dtype dt o n (b + i)) (x.elem ft 0 (b + i)) q)
    hdt (by omega) (by simp [sliceWin]) (by simp only [sliceWin]; omega)
    (fun i hi hg => by rw [elem_shift]; exact hs _ (by omega) (by rw [hvec i hi]; exact hg)) (fun h h2 => hs0 (hmod h) h2)
    (fun i q hi h => by rw [elem_shift] at h; rw [show Vectored isa T ft.dtype dt o n (b + i) = InGroups isa ft.dtype dt (o + dt.bits * b / 8) (e - b) i from propext (hvec i hi)]; exact h)
  refine this.conseq (fun m hm => ?_) (fun _ m hm j hj1 hj2 => ?_)
  · subst hm; exact Inv.zero _ _ _
  · have hj1' : dt.bits * b / 8 ≤ j := by omega
    have h := hm.2 (j - dt.bits * b / 8) (by omega)
    rw [show o + dt.bits * b / 8 + (j - dt.bits * b / 8) = o + j by omega] at h
    exact okPack_slice (P := fun i q => CodeAt isa ft dt mode scale τ zp (Vectored isa T ft.dtype dt o n i) (x.elem ft 0 i) q) hdt hbe hen hbo
      (he.imp id (fun h => h.2)) hj1' (by omega) h

end

section
variable {E : Fault → Prop} {c : Ctx} {x : InBuf} {dtIn dtOut : DType} {n o : Nat} {scale τ : F32} {zp : ℤ} {m0 : Mem}

theorem quantizeAt_sched (hE : ¬ E .oobRead ∧ ¬ E .oobWrite) {ft : FT} {dt : DType} (hdt : dt.isQuant = true) (hx : x.size = ft.size * n)
    (hsz : Sizes n c.threads)
    (hs : ∀ i, i < n → ¬ Vectored c.isa c.threads ft.dtype dt o n i → StepOk E (scalarStep ft dt .nearest scale τ zp (x.elem ft 0 i)))
    (hs0 : n % dt.per ≠ 0 → ¬ (ft = .f32 ∧ dt = .uint2) → StepOk E (scalarStep ft dt .nearest scale τ zp f0)) :
    AllSchedules E (span o (bytes dt.bits n)) (jobs c.isa c.threads x o ⟨.quant, n, scale, zp, ft.dtype, dt, .nearest, .set, τ, c.fuse⟩) m0
      (fun m => (∀ i, i < n → CodeAt c.isa ft dt .nearest scale τ zp (Vectored c.isa c.threads ft.dtype dt o n i) (elem ft.dtype x.data 0 i) (code dt.bits m o i)) ∧
        (∀ t, dt.bits * n ≤ t → t < 8 * bytes dt.bits n → bit m o t = 0) ∧
        (∀ a, (a < o ∨ o + bytes dt.bits n ≤ a) → m a = m0 a)) := by
  have hw := quantize_workerAt (E := E) (fz := c.fuse) (isa := c.isa) (x := x) (o := o) (m0 := m0) (op := .set) (mode := .nearest) (T := c.threads) hdt (le_of_eq hx.symm)
    (fun i hi hg => hs i hi (fun hv => hg ⟨rfl, hv⟩)) hs0
  have := call_main (E := E) (tc := c.threads) hE (legal_quant hdt) hsz.pos hsz.split hsz.addr local_byte hw
  refine ⟨this.safe, this.raceFree, this.progress, this.bounded, fun k d hr hd => ?_⟩
  obtain ⟨h1, h2, h3⟩ := this.post k d hr hd
  have hb : (Desc.outBits ⟨.quant, n, scale, zp, ft.dtype, dt, .nearest, .set, τ, c.fuse⟩) = dt.bits := by simp [Desc.outBits]
  simp only [hb] at h1 h2 h3
  obtain ⟨g1, g2, g3⟩ := okPack_spec hdt h1
  refine ⟨fun i hi => ?_, g2, h2⟩
  have := g1 i hi
  rw [elem_spec] at this
  exact this

/-- What a finished nearest call leaves. -/
theorem codeAt_spec {ft : FT} (hdt : dtOut.isQuant = true) {isa : Isa} {g : Prop} {v : F32} {q : Nat}
    (h : CodeAt isa ft dtOut .nearest scale τ zp g v q) :
    (g ∧ (q : ℤ) = vectorCode isa dtOut.bits (scaled v scale) zp) ∨
    (¬ g ∧ ScalarOk ft.dtype dtOut (scaled v scale) zp ∧ (q : ℤ) = scalarCode ft.dtype dtOut (scaled v scale) zp) := by
  rcases h with ⟨_, hg, _, h3, rfl⟩ | ⟨_, hg, rfl, rfl, rfl, rfl⟩ | ⟨hg, h⟩
  · exact Or.inl ⟨hg, vcode_spec h3 hdt _ _ _⟩
  · exact Or.inl ⟨hg, ncode_spec _ _ _⟩
  · exact Or.inr ⟨fun h => hg ⟨rfl, h⟩, (scalar_spec hdt).mp h⟩

/-- The last element of a call that ends inside a byte is processed by scalar code. -/
theorem last_scalar {isa : Isa} {T : Nat} {dt a : DType} (hdt : dt.isQuant = true) (hn : n % dt.per ≠ 0) :
    ¬ Vectored isa T a dt o n (n - 1) := by
  rintro ⟨t, ht, g1, g2, A, k, hk, g3, g4⟩
  simp only [runStart_eq] at g1 g2 g3 g4
  have hle : cut (8 / dt.bits) n T (t + 1) ≤ n := cut_le (by omega)
  have h0 : 0 < n := by rcases Nat.eq_zero_or_pos n with h | h; · subst h; simp at hn
                        · exact h
  have hd : 8 / dt.bits ∣ cut (8 / dt.bits) n T t := cut_dvd (by omega)
  generalize cut (8 / dt.bits) n T t = b at *
  generalize cut (8 / dt.bits) n T (t + 1) = e at *
  have hee : e = n := by omega
  subst hee
  unfold DType.per at hn
  cases isa <;> cases a <;> cases dt <;> simp only [groups, reduceCtorEq, Option.some.injEq, Prod.mk.injEq] at hk <;>
    (obtain ⟨rfl, rfl⟩ := hk) <;> simp only [DType.bits] at hn hd g3 g4 <;> norm_num at hn hd g3 g4 <;> omega

end
end Verif

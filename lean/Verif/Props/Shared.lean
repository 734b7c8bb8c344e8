import Verif.Proofs.Shared
import Verif.Props.Alias

/-!
# The input is read while the call runs: C90

The other theorems take the input to be what it was when the call started.  Here every byte of the input is loaded from memory by
a step of its own, at any moment of the call, in any interleaving with the loads and stores of all workers.
-/

namespace Verif.Props
open Spec

/-- For every schedule of the workers of the accepted call, where the bytes of the input span `i` are loaded from memory one by
one: no fault outside `E`, no access outside the two spans and no store to the input, no data race, the call ends, the input is
unchanged at all times, and the memory at the end satisfies `Q`. -/
def AlwaysShared (E : Fault → Prop) (call : Except Fault (List (Prog Unit))) (w i : Win) (m0 : Mem) (Q : Mem → Prop) : Prop :=
  ∃ js, call = .ok js ∧ AllSchedulesR E w i js m0 Q

/-- The two spans do not overlap. -/
def Apart (a la b lb : Nat) : Prop := a + la ≤ b ∨ b + lb ≤ a

section
variable {c c' : Ctx} {dt : DType} {ft : FT} {n o xa bw : Nat} {scale τ : F32} {zp : ℤ} {mode : RoundMode} {op : ReduceOp} {m0 : Mem}

theorem apart_has {la lb : Nat} (h : Apart xa la o lb) : ∀ a, (span xa la).has a = true → (span o lb).has a = false := by
  intro a ha
  simp only [span, Win.has, Bool.and_eq_true] at ha
  have h1 := of_decide_eq_true ha.1
  have h2 := of_decide_eq_true ha.2
  rw [Bool.eq_false_iff]
  intro hb
  simp only [span, Win.has, Bool.and_eq_true] at hb
  have h3 := of_decide_eq_true hb.1
  have h4 := of_decide_eq_true hb.2
  unfold Apart at h
  omega

/-- C90, any kernel: whatever the workers do (`js`), if the input span is apart from the span they write, all schedules in which
the input bytes are loaded at arbitrary moments end as promised by `Q` as soon as all schedules do in which the input was loaded
beforehand. -/
theorem C90_loads_at_any_time {E : Fault → Prop} {js : List (Prog Unit)} {la lb : Nat} {Q : Mem → Prop} (hov : Apart xa la o lb)
    (h : Always E (.ok (js.map (·.early (span xa la) m0))) (span o lb) m0 Q) : AlwaysShared E (.ok js) (span o lb) (span xa la) m0 Q := by
  obtain ⟨js', e, h⟩ := h
  cases e
  exact ⟨js, rfl, shared_main (apart_has hov) h⟩

/-- A worker that copies the byte at address 4 to address 0, for `C90_loads_at_any_time`. -/
example : AlwaysShared NoFault (.ok [.rd 4 (fun b => .wr 0 b (.ret ()))]) (span 0 4) (span 4 4) (memOf [1, 2, 3, 4, 5]) (fun m => m 0 = 5) :=
  C90_loads_at_any_time (Or.inr (by decide)) (single_run (p := Prog.early (span 4 4) (memOf [1, 2, 3, 4, 5]) (.rd 4 (fun b => .wr 0 b (.ret ()))))
    rfl ⟨_, rfl, rfl⟩)

theorem splitJobs_early {i : Win} {tc : Nat} {d : Desc} {body : Nat → Nat → Prog Unit} :
    (splitJobs tc d body).map (·.early i m0) = splitJobs tc d (fun b k => (body b k).early i m0) := by
  unfold splitJobs
  rw [List.map_map]
  refine List.map_congr_left (fun t _ => ?_)
  show Prog.early i m0 (match partitionRow d t tc with | .error f => .fail f | .ok none => pure () | .ok (some (b, n)) => body b n) = _
  rcases partitionRow d t tc with f | _ | ⟨b, k⟩ <;> rfl

theorem slice_apart {la k b e : Nat} {sz : Nat} (h : Apart xa la o (sz * k)) (hek : e ≤ k) :
    ∀ a, (span xa la).has a = true → (⟨o + sz * b, o + sz * e⟩ : Win).has a = false := by
  intro a ha
  have h1 := apart_has h a ha
  have h2 : sz * e ≤ sz * k := Nat.mul_le_mul_left _ hek
  rw [Bool.eq_false_iff]
  intro hb
  simp only [Win.has, Bool.and_eq_true] at hb
  have h3 := of_decide_eq_true hb.1
  have h4 := of_decide_eq_true hb.2
  have : (span o (sz * k)).has a = true := by
    simp only [span, Win.has, Bool.and_eq_true]
    exact ⟨decide_eq_true (by omega), decide_eq_true (by omega)⟩
  rw [h1] at this
  cases this

theorem off_ft {b e : Nat} (hn : n < 2 ^ 59) (hbe : b < e) (hen : e ≤ n) : byteOff ft.dtype.bits b = ft.size * b := by
  have h1 := bits_le ft.dtype
  have h2 : ft.dtype.bits * b ≤ 32 * b := Nat.mul_le_mul_right _ h1
  rw [byteOff_eq (by omega), FT.size_eq]

theorem off_u8 {b e : Nat} (hn : n < 2 ^ 59) (hbe : b < e) (hen : e ≤ n) : byteOff 8 b = b := by
  rw [byteOff_eq (by omega)]; omega

/-- One worker of the fused call. -/
theorem fused_early_worker {fz : Fuse} {b e : Nat} (hdt : dt.isQuant = true) (hz : ZpSub zp) (hn : n < 2 ^ 59)
    (hov : Apart xa (ft.size * n) o (ft.size * n))
    (hd : ∀ i, i < n → Defined mode τ (scaled (elem ft.dtype m0 xa i) scale) zp) (hbe : b < e) (hen : e ≤ n) :
    Triple NoFault (sliceWin o ft.dtype.bits b e) (fun m => m = m0)
      ((requantMem bw fz ft dt mode op (xa + byteOff ft.dtype.bits b) (o + byteOff ft.dtype.bits b) (e - b) scale τ zp).early
        (span xa (ft.size * n)) m0)
      (fun _ m => ∀ j, o + ft.dtype.bits * b / 8 ≤ o + j → o + j < o + (ft.dtype.bits * e + 7) / 8 →
        OkElem o ft.size (fun i u => FusedElem fz.gen ft dt mode op scale τ zp m0 o i (rdX ft m0 (xa + ft.size * i)) u) j m) := by
  have hmul : ft.size * e = ft.size * b + ft.size * (e - b) := by rw [← Nat.mul_add]; congr 1; omega
  have hle : ft.size * e ≤ ft.size * n := Nat.mul_le_mul_left _ hen
  have hsl : sliceWin o ft.dtype.bits b e = ⟨o + ft.size * b, o + ft.size * e⟩ := by
    unfold sliceWin; rw [outBytes_ft, FT.size_eq]
  have e1 : ∀ i, xa + ft.size * b + ft.size * i = xa + ft.size * (b + i) := by intro i; rw [Nat.mul_add]; omega
  rw [off_ft hn hbe hen, hsl]
  have ht := requantMem_early (E := NoFault) (w := ⟨o + ft.size * b, o + ft.size * e⟩) (i := span xa (ft.size * n)) (bw := bw) (m0 := m0) (op := op)
    (mode := mode) (τ := τ) (dt := dt)
    (scale := scale) (zp := zp) (o := o + ft.size * b) (xa := xa + ft.size * b) (n := e - b) (fz := fz)
    (R := fun i u => FusedElem fz.gen ft dt mode op scale τ zp m0 (o + ft.size * b) i (rdX ft m0 (xa + ft.size * b + ft.size * i)) u)
    noFault_oob.1 (slice_apart hov hen)
    (by simp only [span]; omega) (by simp only [span]; omega) (Nat.le_refl _) (by simp only; omega)
    (fun i hi => by
      rw [e1]
      exact Or.inl ⟨_, qStep_defined hdt (zp_of_sub hz) (by rw [rdX_elem]; exact hd _ (by omega))⟩)
    (fun q hq => Or.inr (subI_64 hz (lt_of_le_of_lt (hq.trans qmax_le) (by norm_num)))) (fun i u _ h => h)
  refine ht.conseq (fun m hm => by subst hm; exact InvE.zero _ _ _ _) (fun _ m hm j hj1 hj2 => ?_)
  rw [FT.size_eq] at hj1
  rw [outBytes_ft] at hj2
  refine invE_ok (ft_size_pos ft) hm (fun i u hi h => ?_) (by omega) (by omega)
  simp only [e1] at h
  obtain ⟨q, hq, h⟩ := h
  refine ⟨q, hq, ?_⟩
  cases ft
  · simp only [FT.size, show o + 4 * b + 4 * i = o + 4 * (b + i) by omega] at h; exact h
  · simp only [FT.size, show o + 2 * b + 2 * i = o + 2 * (b + i) by omega] at h; exact h

/-- C90, fused call: with separate spans, however the loads of the input are interleaved with everything else, for every thread
count, rounding mode and reduce operation and however many elements the compiled loop loads ahead: the memory afterwards is exactly
the memory after the same call with the input loaded beforehand (by any other context), and the input is unchanged. -/
theorem C90_fused_shared_input (hdt : dt.isQuant = true) (hsz : Sizes n c.threads) (hsz' : Sizes n c'.threads) (hg : c'.fuse.gen = c.fuse.gen)
    (hov : Apart xa (ft.size * n) o (ft.size * n)) (hz : ZpSub zp)
    (hd : ∀ i, i < n → Defined mode τ (scaled (elem ft.dtype m0 xa i) scale) zp) :
    AlwaysShared NoFault (fusedMem bw c xa (ft.size * n) ft o (ft.size * n) dt scale zp mode op τ) (span o (ft.size * n)) (span xa (ft.size * n)) m0
      (fun m => Always NoFault (fused c' ⟨ft.size * n, fun k => m0 (xa + k)⟩ ft.dtype o (ft.size * n) dt scale zp mode op τ)
        (span o (ft.size * n)) m0 (fun m' => m' = m)) := by
  have hs : ft.dtype.stride = ft.size := by cases ft <;> rfl
  have hq : ft.size * n / ft.dtype.stride = n := by rw [hs, Nat.mul_comm, Nat.mul_div_cancel _ (ft_size_pos ft)]
  have hcall : fusedMem bw c xa (ft.size * n) ft o (ft.size * n) dt scale zp mode op τ =
      .ok (splitJobs c.threads ⟨.quantDequant, n, scale, zp, ft.dtype, dt, mode, op, τ, c.fuse⟩ (fun b k =>
        requantMem bw c.fuse ft dt mode op (xa + byteOff ft.dtype.bits b) (o + byteOff ft.dtype.bits b) k scale τ zp)) := by
    unfold fusedMem; rw [hdt, if_neg (by simp), if_pos rfl, hq]
  refine ⟨_, hcall, shared_main (apart_has hov) ?_⟩
  rw [splitJobs_early]
  have hb : (Desc.outBits ⟨.quantDequant, n, scale, zp, ft.dtype, dt, mode, op, τ, c.fuse⟩) = ft.dtype.bits := by simp [Desc.outBits]
  have := split_main (E := NoFault) (m0 := m0) (o := o) (tc := c.threads) (d := ⟨.quantDequant, n, scale, zp, ft.dtype, dt, mode, op, τ, c.fuse⟩)
    (body := fun b k => (requantMem bw c.fuse ft dt mode op (xa + byteOff ft.dtype.bits b) (o + byteOff ft.dtype.bits b) k scale τ zp).early
      (span xa (ft.size * n)) m0)
    (Ok := OkElem o ft.size (fun i u => FusedElem c.fuse.gen ft dt mode op scale τ zp m0 o i (rdX ft m0 (xa + ft.size * i)) u))
    noFault_oob (legal_fused hdt) hsz.pos hsz.split (by rw [hb]; exact local_elem) (fun b e hbe hen _ => by
      rw [hb]; exact fused_early_worker hdt hz hsz.addr hov hd hbe hen)
  simp only [hb, outBytes_ft] at this
  refine ⟨this.safe, this.raceFree, this.progress, this.bounded, fun k d hr hdn => ?_⟩
  have hm := this.post k d hr hdn
  refine (fused_copy_ok (c' := c') (op := op) hdt hsz' hz hd).mono (fun _ h => h) (fun m' hm' => ?_)
  rw [hg] at hm'
  exact elems_unique (R := fun i u => FusedElem c.fuse.gen ft dt mode op scale τ zp m0 o i (rdX ft m0 (xa + ft.size * i)) u)
    (ft_size_pos ft) (fun i u u' => fusedElem_fun) hm.1 hm'.1 hm.2 hm'.2

/-- `C90_fused_shared_input` applied to a concrete case. -/
example := C90_fused_shared_input (c := Ex.c1) (c' := Ex.c2) (dt := .uint8) (ft := .f32) (n := 70) (o := 1000) (xa := 4) (bw := 4) (scale := Ex.tenth)
    (τ := Ex.quarter) (zp := 64) (mode := .nearest) (op := .add) (m0 := Ex.manyMem) (hdt := by wit) (hsz := by wit) (hsz' := by wit) (hg := by wit)
    (hov := by unfold Apart; decide) (hz := by wit) (hd := by wit)

/-- One worker of the quantize call. -/
theorem quant_early_worker {b e : Nat} (hz : Zp32 zp) (hn : n < 2 ^ 59) (hov : Apart xa (ft.size * n) o n)
    (hd : ∀ i, i < n → Defined .stochastic τ (scaled (elem ft.dtype m0 xa i) scale) zp) (hbe : b < e) (hen : e ≤ n) :
    Triple NoFault (sliceWin o 8 b e) (fun m => m = m0)
      ((quantU8Mem bw ft .stochastic (xa + byteOff ft.dtype.bits b) (o + byteOff 8 b) (e - b) scale τ zp).early (span xa (ft.size * n)) m0)
      (fun _ m => ∀ j, o + 8 * b / 8 ≤ o + j → o + j < o + (8 * e + 7) / 8 →
        OkElem o 1 (fun i q => qStep .stochastic 255 (rdX ft m0 (xa + ft.size * i)) τ (invScale scale) zp = .ret q) j m) := by
  have hmul : ft.size * e = ft.size * b + ft.size * (e - b) := by rw [← Nat.mul_add]; congr 1; omega
  have hle : ft.size * e ≤ ft.size * n := Nat.mul_le_mul_left _ hen
  have hsl : sliceWin o 8 b e = ⟨o + 1 * b, o + 1 * e⟩ := by
    unfold sliceWin
    rw [show 8 * b / 8 = 1 * b by omega, show (8 * e + 7) / 8 = 1 * e by omega]
  have e1 : ∀ i, xa + ft.size * b + ft.size * i = xa + ft.size * (b + i) := by intro i; rw [Nat.mul_add]; omega
  rw [off_ft hn hbe hen, off_u8 hn hbe hen, hsl]
  have ht := quantU8Mem_early (E := NoFault) (w := ⟨o + 1 * b, o + 1 * e⟩) (i := span xa (ft.size * n)) (bw := bw) (m0 := m0)
    (mode := .stochastic) (τ := τ) (scale := scale) (zp := zp) (o := o + b) (xa := xa + ft.size * b) (n := e - b) (ft := ft)
    (R := fun i q => qStep .stochastic 255 (rdX ft m0 (xa + ft.size * b + ft.size * i)) τ (invScale scale) zp = .ret q)
    noFault_oob.1 (slice_apart (by rw [Nat.one_mul]; exact hov) hen)
    (by simp only [span]; omega) (by simp only [span]; omega) (by simp only; omega) (by simp only; omega)
    (fun i hi => by
      rw [e1]
      exact Or.inl ⟨_, qStep_defined (dt := .uint8) rfl hz (by rw [rdX_elem]; exact hd _ (by omega))⟩)
    (fun i u _ h => h)
  refine ht.conseq (fun m hm => by subst hm; exact InvE.zero _ _ _ _) (fun _ m hm j hj1 hj2 => ?_)
  refine invE_ok (b := b) (sz := 1) (by omega) (by rw [Nat.one_mul]; exact hm) (fun i u hi h => ?_) (by omega) (by omega)
  simp only [e1] at h
  exact h

theorem local_elem1 {R : Nat → Nat → Prop} : Local o 8 (OkElem o 1 R) := by
  intro b e j m m' h1 h2 _ hag ⟨v, hv, hm⟩
  refine ⟨v, hv, fun k hk => ?_⟩
  rw [← hm k hk]
  have : j / 1 = j := Nat.div_one j
  exact hag _ (by omega) (by omega)

/-- C90, quantizing to uint8 with stochastic rounding (the same byte loop on every kernel). -/
theorem C90_quantize_shared_input (hsz : Sizes n c.threads) (hsz' : Sizes n c'.threads) (hov : Apart xa (ft.size * n) o n) (hz : Zp32 zp)
    (hd : ∀ i, i < n → Defined .stochastic τ (scaled (elem ft.dtype m0 xa i) scale) zp) :
    AlwaysShared NoFault (quantizeMem bw c xa (ft.size * n) ft o n scale zp τ) (span o n) (span xa (ft.size * n)) m0
      (fun m => Always NoFault (quantize c' ⟨ft.size * n, fun k => m0 (xa + k)⟩ ft.dtype o n .uint8 scale zp .stochastic τ) (span o n) m0
        (fun m' => m' = m)) := by
  have hs : ft.dtype.stride = ft.size := by cases ft <;> rfl
  have hq : ft.size * n / ft.dtype.stride = n := by rw [hs, Nat.mul_comm, Nat.mul_div_cancel _ (ft_size_pos ft)]
  have hcall : quantizeMem bw c xa (ft.size * n) ft o n scale zp τ =
      .ok (splitJobs c.threads ⟨.quant, n, scale, zp, ft.dtype, .uint8, .stochastic, .set, τ, c.fuse⟩ (fun b k =>
        quantU8Mem bw ft .stochastic (xa + byteOff ft.dtype.bits b) (o + byteOff 8 b) k scale τ zp)) := by
    unfold quantizeMem; rw [hq, if_pos rfl]
  refine ⟨_, hcall, shared_main (apart_has hov) ?_⟩
  rw [splitJobs_early]
  have hb : (Desc.outBits ⟨.quant, n, scale, zp, ft.dtype, .uint8, .stochastic, .set, τ, c.fuse⟩) = 8 := by simp [Desc.outBits, DType.bits]
  have := split_main (E := NoFault) (m0 := m0) (o := o) (tc := c.threads) (d := ⟨.quant, n, scale, zp, ft.dtype, .uint8, .stochastic, .set, τ, c.fuse⟩)
    (body := fun b k => (quantU8Mem bw ft .stochastic (xa + byteOff ft.dtype.bits b) (o + byteOff 8 b) k scale τ zp).early (span xa (ft.size * n)) m0)
    (Ok := OkElem o 1 (fun i q => qStep .stochastic 255 (rdX ft m0 (xa + ft.size * i)) τ (invScale scale) zp = .ret q))
    noFault_oob (legal_quant rfl) hsz.pos hsz.split (by rw [hb]; exact local_elem1) (fun b e hbe hen _ => by
      rw [hb]; exact quant_early_worker hz hsz.addr hov hd hbe hen)
  simp only [hb, show (8 * n + 7) / 8 = n by omega] at this
  refine ⟨this.safe, this.raceFree, this.progress, this.bounded, fun k d hr hdn => ?_⟩
  have hm := this.post k d hr hdn
  refine (quant_copy_ok (c' := c') (o := o) hsz' hz hd).mono (fun _ h => h) (fun m' hm' => ?_)
  exact elems_unique (R := fun i q => qStep .stochastic 255 (rdX ft m0 (xa + ft.size * i)) τ (invScale scale) zp = .ret q)
    (by omega) (fun i u u' h h' => Prog.ret.inj (h.symm.trans h')) (fun j hj => hm.1 j (by omega)) hm'.1 (fun a ha => hm.2 a (by omega)) hm'.2

/-- `C90_quantize_shared_input` applied to a concrete case. -/
example := C90_quantize_shared_input (c := Ex.c1) (c' := Ex.c2) (ft := .f32) (n := 70) (o := 1000) (xa := 4) (bw := 4) (scale := Ex.tenth)
    (τ := Ex.quarter) (zp := 64) (m0 := Ex.manyMem) (hsz := by wit) (hsz' := by wit) (hov := by unfold Apart; decide) (hz := by wit) (hd := by wit)

/-- One worker of the dequantize call. -/
theorem dequant_early_worker {fz : Fuse} {b e : Nat} (hz : ZpSub zp) (hn : n < 2 ^ 59) (hov : Apart xa n o (ft.size * n)) (hbe : b < e) (hen : e ≤ n) :
    Triple NoFault (sliceWin o ft.dtype.bits b e) (fun m => m = m0)
      ((dequantU8Mem bw fz ft (xa + byteOff 8 b) (o + byteOff ft.dtype.bits b) (e - b) scale zp).early (span xa n) m0)
      (fun _ m => ∀ j, o + ft.dtype.bits * b / 8 ≤ o + j → o + j < o + (ft.dtype.bits * e + 7) / 8 →
        OkElem o ft.size (fun i u => u = setEnc ft scale zp (m0 (xa + i) % 256)) j m) := by
  have hmul : ft.size * e = ft.size * b + ft.size * (e - b) := by rw [← Nat.mul_add]; congr 1; omega
  have hle : ft.size * e ≤ ft.size * n := Nat.mul_le_mul_left _ hen
  have hsl : sliceWin o ft.dtype.bits b e = ⟨o + ft.size * b, o + ft.size * e⟩ := by
    unfold sliceWin; rw [outBytes_ft, FT.size_eq]
  rw [off_ft hn hbe hen, off_u8 hn hbe hen, hsl]
  have ht := dequantU8Mem_early (E := NoFault) (w := ⟨o + ft.size * b, o + ft.size * e⟩) (i := span xa n) (bw := bw) (m0 := m0)
    (scale := scale) (zp := zp) (o := o + ft.size * b) (xa := xa + b) (n := e - b) (ft := ft) (fz := fz)
    (R := fun i u => u = setEnc ft scale zp (m0 (xa + b + i) % 256))
    noFault_oob.1 (slice_apart hov hen)
    (by simp only [span]; omega) (by simp only [span]; omega) (Nat.le_refl _) (by simp only; omega)
    (fun q hq => Or.inr (dqRange_of (dt := .uint8) (ft := .f32) hz hq)) (fun i _ => rfl)
  refine ht.conseq (fun m hm => by subst hm; exact InvE.zero _ _ _ _) (fun _ m hm j hj1 hj2 => ?_)
  rw [FT.size_eq] at hj1
  rw [outBytes_ft] at hj2
  refine invE_ok (ft_size_pos ft) hm (fun i u hi h => ?_) (by omega) (by omega)
  rw [h, Nat.add_assoc]

/-- C90, dequantizing uint8 codes with `set` (f32 output: every kernel; bf16 output: every kernel without AVX-512). -/
theorem C90_dequantize_shared_input (hsz : Sizes n c.threads) (hsz' : Sizes n c'.threads) (hov : Apart xa n o (ft.size * n)) (hz : ZpSub zp)
    (hi : ft = .bf16 → c'.isa ≠ .avx512f ∧ c'.isa ≠ .avx512bf16) :
    AlwaysShared NoFault (dequantizeMem bw c xa n ft o (ft.size * n) scale zp) (span o (ft.size * n)) (span xa n) m0
      (fun m => Always NoFault (dequantize c' ⟨n, fun k => m0 (xa + k)⟩ n .uint8 o (ft.size * n) ft.dtype scale zp .set)
        (span o (ft.size * n)) m0 (fun m' => m' = m)) := by
  have hs : ft.dtype.stride = ft.size := by cases ft <;> rfl
  have hq : ft.size * n / ft.dtype.stride = n := by rw [hs, Nat.mul_comm, Nat.mul_div_cancel _ (ft_size_pos ft)]
  have hcall : dequantizeMem bw c xa n ft o (ft.size * n) scale zp =
      .ok (splitJobs c.threads ⟨.dequant, n, scale, zp, .uint8, ft.dtype, .nearest, .set, f0, c.fuse⟩ (fun b k =>
        dequantU8Mem bw c.fuse ft (xa + byteOff 8 b) (o + byteOff ft.dtype.bits b) k scale zp)) := by
    unfold dequantizeMem; rw [hq, if_pos rfl]
  refine ⟨_, hcall, shared_main (apart_has hov) ?_⟩
  rw [splitJobs_early]
  have hb : (Desc.outBits ⟨.dequant, n, scale, zp, .uint8, ft.dtype, .nearest, .set, f0, c.fuse⟩) = ft.dtype.bits := by simp [Desc.outBits]
  have := split_main (E := NoFault) (m0 := m0) (o := o) (tc := c.threads) (d := ⟨.dequant, n, scale, zp, .uint8, ft.dtype, .nearest, .set, f0, c.fuse⟩)
    (body := fun b k => (dequantU8Mem bw c.fuse ft (xa + byteOff 8 b) (o + byteOff ft.dtype.bits b) k scale zp).early (span xa n) m0)
    (Ok := OkElem o ft.size (fun i u => u = setEnc ft scale zp (m0 (xa + i) % 256)))
    noFault_oob (legal_dequant rfl) hsz.pos hsz.split (by rw [hb]; exact local_elem) (fun b e hbe hen _ => by
      rw [hb]; exact dequant_early_worker hz hsz.addr hov hbe hen)
  simp only [hb, outBytes_ft] at this
  refine ⟨this.safe, this.raceFree, this.progress, this.bounded, fun k d hr hdn => ?_⟩
  have hm := this.post k d hr hdn
  refine (dequant_copy_ok (c' := c') (o := o) hsz' hz hi).mono (fun _ h => h) (fun m' hm' => ?_)
  exact elems_unique (R := fun i u => u = setEnc ft scale zp (m0 (xa + i) % 256)) (ft_size_pos ft) (fun i u u' h h' => h.trans h'.symm)
    hm.1 hm'.1 hm.2 hm'.2

/-- `C90_dequantize_shared_input` applied to a concrete case. -/
example := C90_dequantize_shared_input (c := Ex.c1) (c' := Ex.c3) (ft := .bf16) (n := 70) (o := 1000) (xa := 4) (bw := 64) (scale := Ex.tenth)
    (zp := 64) (m0 := Ex.manyMem) (hsz := by wit) (hsz' := by wit) (hov := by unfold Apart; decide) (hz := by wit) (hi := by wit)

end
end Verif.Props

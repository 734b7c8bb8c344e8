import Verif.Props.Examples
import Verif.Proofs.Alias
import Verif.Props.Fused

/-!
# Overlapping spans: C87

The library does not reject a call whose input and output spans overlap.  Which of these calls do what the same call with a copy
of the input does?
-/

namespace Verif.Props
open Spec

section
variable {c c' : Ctx} {dt : DType} {ft : FT} {n o xa bw : Nat} {scale τ : F32} {zp : ℤ} {mode : RoundMode} {op : ReduceOp} {m0 : Mem}

theorem rdX_spec (ft : FT) (m : Mem) (a : Nat) (i : Nat) :
    (InBuf.mk (ft.size * n) (fun k => m (a + k))).elem ft 0 i = rdX ft m (a + ft.size * i) := by
  cases ft
  · simp only [InBuf.elem, rdX, InBuf.f32, rdF, FT.size, Nat.zero_add, Nat.add_assoc]
  · simp only [InBuf.elem, rdX, InBuf.u16, rdW, FT.size, Nat.zero_add, Nat.add_assoc]

theorem elem_copy (ft : FT) (m : Mem) (a i : Nat) : elem ft.dtype (fun k => m (a + k)) 0 i = elem ft.dtype m a i := by
  cases ft
  · simp only [elem, FT.dtype, f32At, Nat.zero_add, Nat.add_assoc]
  · simp only [elem, FT.dtype, bf16At, u16At, Nat.zero_add, Nat.add_assoc]

theorem rdX_elem (ft : FT) (m : Mem) (a i : Nat) : rdX ft m (a + ft.size * i) = elem ft.dtype m a i := by
  rw [← rdX_spec (n := 0), elem_spec, elem_copy]

/-- Two memories produced by functional element conditions are the same. -/
theorem elems_unique {R : Nat → Nat → Prop} {sz : Nat} {m m' : Mem} (hsz : 0 < sz) (hR : ∀ i u u', R i u → R i u' → u = u')
    (h : ∀ j, j < sz * n → OkElem o sz R j m) (h' : ∀ j, j < sz * n → OkElem o sz R j m')
    (hf : ∀ a, (a < o ∨ o + sz * n ≤ a) → m a = m0 a) (hf' : ∀ a, (a < o ∨ o + sz * n ≤ a) → m' a = m0 a) : m' = m := by
  funext a
  by_cases ha : a < o ∨ o + sz * n ≤ a
  · rw [hf a ha, hf' a ha]
  · obtain ⟨u, h1, h2⟩ := h (a - o) (by omega)
    obtain ⟨u', h1', h2'⟩ := h' (a - o) (by omega)
    have e : o + sz * ((a - o) / sz) + (a - o) % sz = a := by have := Nat.div_add_mod (a - o) sz; omega
    have g := h2 _ (Nat.mod_lt (a - o) hsz)
    have g' := h2' _ (Nat.mod_lt (a - o) hsz)
    rw [e] at g g'
    rw [g, g', hR _ _ _ h1 h1']

theorem fusedElem_fun {b : Bool} {i : Nat} {v : F32} {u u' : Nat} (h : FusedElem b ft dt mode op scale τ zp m0 o i v u)
    (h' : FusedElem b ft dt mode op scale τ zp m0 o i v u') : u = u' := by
  obtain ⟨q, hq, h⟩ := h
  obtain ⟨q', hq', h'⟩ := h'
  rw [hq] at hq'
  have e := Prog.ret.inj hq'
  subst e
  cases ft
  · obtain ⟨d, hd, rfl⟩ := h
    obtain ⟨d', hd', rfl⟩ := h'
    rw [hd] at hd'
    rw [Prog.ret.inj hd']
  · obtain ⟨d, hd, rfl⟩ := h
    obtain ⟨d', hd', rfl⟩ := h'
    rw [hd] at hd'
    rw [Prog.ret.inj hd']

theorem zp_of_sub (hz : ZpSub zp) : Zp32 zp := by unfold ZpSub at hz; unfold Zp32; omega

/-- The fused call on a copy of the input, in terms of the elements it must produce. -/
theorem fused_copy_ok (hdt : dt.isQuant = true) (hsz : Sizes n c'.threads) (hz : ZpSub zp)
    (hd : ∀ i, i < n → Defined mode τ (scaled (elem ft.dtype m0 xa i) scale) zp) :
    Always NoFault (fused c' ⟨ft.size * n, fun k => m0 (xa + k)⟩ ft.dtype o (ft.size * n) dt scale zp mode op τ) (span o (ft.size * n)) m0
      (fun m => (∀ j, j < ft.size * n → OkElem o ft.size (fun i u => FusedElem c'.fuse.gen ft dt mode op scale τ zp m0 o i (rdX ft m0 (xa + ft.size * i)) u) j m) ∧
        ∀ a, (a < o ∨ o + ft.size * n ≤ a) → m a = m0 a) := by
  refine ⟨_, fused_jobs (ft := ft) hdt rfl, ?_⟩
  have hw := fused_worker (E := NoFault) (fz := c'.fuse) (isa := c'.isa) (x := ⟨ft.size * n, fun k => m0 (xa + k)⟩) (o := o) (m0 := m0)
    (op := op) (ft := ft) (n := n) (mode := mode) (τ := τ) (scale := scale) (zp := zp) hdt (Nat.le_refl _)
    (fun i hi => Or.inl ⟨_, qStep_defined hdt (zp_of_sub hz) (by rw [rdX_spec, rdX_elem]; exact hd i hi)⟩)
    (fun q hq => Or.inr (subI_64 hz (lt_of_le_of_lt (hq.trans qmax_le) (by norm_num))))
  have hb : (Desc.outBits ⟨.quantDequant, n, scale, zp, ft.dtype, dt, mode, op, τ, c'.fuse⟩) = ft.dtype.bits := by simp [Desc.outBits]
  have := call_main (E := NoFault) (tc := c'.threads) noFault_oob (legal_fused hdt) hsz.pos hsz.split hsz.addr (by rw [hb]; exact local_elem) hw.at
  simp only [hb, outBytes_ft] at this
  refine ⟨this.safe, this.raceFree, this.progress, this.bounded, fun k d hr hdn => ?_⟩
  obtain ⟨h1, h2, _⟩ := this.post k d hr hdn
  refine ⟨fun j hj => ?_, h2⟩
  obtain ⟨u, hu, hb⟩ := h1 j hj
  refine ⟨u, ?_, hb⟩
  rw [rdX_spec] at hu
  exact hu

/-- One worker of the in-place call. -/
theorem inPlace_worker {fz : Fuse} {b e : Nat} (hdt : dt.isQuant = true) (hz : ZpSub zp) (hn : n < 2 ^ 59)
    (hd : ∀ i, i < n → Defined mode τ (scaled (elem ft.dtype m0 o i) scale) zp) (hbe : b < e) (hen : e ≤ n) :
    Triple NoFault (sliceWin o ft.dtype.bits b e) (fun m => m = m0)
      (requantMem bw fz ft dt mode op (o + byteOff ft.dtype.bits b) (o + byteOff ft.dtype.bits b) (e - b) scale τ zp)
      (fun _ m => ∀ j, o + ft.dtype.bits * b / 8 ≤ o + j → o + j < o + (ft.dtype.bits * e + 7) / 8 →
        OkElem o ft.size (fun i u => FusedElem fz.gen ft dt mode op scale τ zp m0 o i (rdX ft m0 (o + ft.size * i)) u) j m) := by
  have hoff : byteOff ft.dtype.bits b = ft.size * b := by
    have h1 := bits_le ft.dtype
    have h2 : ft.dtype.bits * b ≤ 32 * b := Nat.mul_le_mul_right _ h1
    rw [byteOff_eq (by omega), FT.size_eq]
  have hmul : ft.size * e = ft.size * b + ft.size * (e - b) := by rw [← Nat.mul_add]; congr 1; omega
  have hsl : sliceWin o ft.dtype.bits b e = ⟨o + ft.size * b, o + ft.size * e⟩ := by
    unfold sliceWin; rw [outBytes_ft, FT.size_eq]
  have e1 : ∀ i, o + ft.size * b + ft.size * i = o + ft.size * (b + i) := by intro i; rw [Nat.mul_add]; omega
  rw [hoff, hsl]
  have ht := requantMem_triple (E := NoFault) (w := ⟨o + ft.size * b, o + ft.size * e⟩) (bw := bw) (m0 := m0) (op := op) (mode := mode) (τ := τ) (dt := dt)
    (scale := scale) (zp := zp) (o := o + ft.size * b) (xa := o + ft.size * b) (n := e - b) (fz := fz)
    (R := fun i u => FusedElem fz.gen ft dt mode op scale τ zp m0 (o + ft.size * b) i (rdX ft m0 (o + ft.size * b + ft.size * i)) u)
    (Nat.le_refl _) (by simp only; omega) (Nat.le_refl _) (by simp only; omega) (Or.inl (Nat.le_refl _))
    (fun i hi => by
      rw [e1]
      exact Or.inl ⟨_, qStep_defined hdt (zp_of_sub hz) (by rw [rdX_elem]; exact hd _ (by omega))⟩)
    (fun q hq => Or.inr (subI_64 hz (lt_of_le_of_lt (hq.trans qmax_le) (by norm_num)))) (fun i u _ h => h)
  refine ht.conseq (fun m hm => by subst hm; exact InvE.zero _ _ _ _) (fun _ m hm j hj1 hj2 => ?_)
  rw [FT.size_eq] at hj1
  rw [outBytes_ft] at hj2
  refine invE_ok (ft_size_pos ft) hm (fun i u hi h => ?_) (by omega) (by omega)
  simp only [e1] at h
  obtain ⟨q, hq, h⟩ := h
  refine ⟨q, hq, ?_⟩
  cases ft
  · simp only [FT.size, show o + 4 * b + 4 * i = o + 4 * (b + i) by omega] at h; exact h
  · simp only [FT.size, show o + 2 * b + 2 * i = o + 2 * (b + i) by omega] at h; exact h

/-- The in-place call, in terms of the elements it must produce. -/
theorem inPlace_ok (hdt : dt.isQuant = true) (hsz : Sizes n c.threads)
    (hz : ZpSub zp) (hd : ∀ i, i < n → Defined mode τ (scaled (elem ft.dtype m0 o i) scale) zp) :
    Always NoFault (fusedMem bw c o (ft.size * n) ft o (ft.size * n) dt scale zp mode op τ) (span o (ft.size * n)) m0
      (fun m => (∀ j, j < ft.size * n → OkElem o ft.size (fun i u => FusedElem c.fuse.gen ft dt mode op scale τ zp m0 o i (rdX ft m0 (o + ft.size * i)) u) j m) ∧
        ∀ a, (a < o ∨ o + ft.size * n ≤ a) → m a = m0 a) := by
  have hs : ft.dtype.stride = ft.size := by cases ft <;> rfl
  have hn : ft.size * n / ft.dtype.stride = n := by rw [hs, Nat.mul_comm, Nat.mul_div_cancel _ (ft_size_pos ft)]
  have hcall : fusedMem bw c o (ft.size * n) ft o (ft.size * n) dt scale zp mode op τ =
      .ok (splitJobs c.threads ⟨.quantDequant, n, scale, zp, ft.dtype, dt, mode, op, τ, c.fuse⟩ (fun b k =>
        requantMem bw c.fuse ft dt mode op (o + byteOff ft.dtype.bits b) (o + byteOff ft.dtype.bits b) k scale τ zp)) := by
    unfold fusedMem; rw [hdt, if_neg (by simp), if_pos rfl, hn]
  refine ⟨_, hcall, ?_⟩
  have hb : (Desc.outBits ⟨.quantDequant, n, scale, zp, ft.dtype, dt, mode, op, τ, c.fuse⟩) = ft.dtype.bits := by simp [Desc.outBits]
  have := split_main (E := NoFault) (m0 := m0) (o := o) (tc := c.threads) (d := ⟨.quantDequant, n, scale, zp, ft.dtype, dt, mode, op, τ, c.fuse⟩)
    (body := fun b k => requantMem bw c.fuse ft dt mode op (o + byteOff ft.dtype.bits b) (o + byteOff ft.dtype.bits b) k scale τ zp)
    (Ok := OkElem o ft.size (fun i u => FusedElem c.fuse.gen ft dt mode op scale τ zp m0 o i (rdX ft m0 (o + ft.size * i)) u))
    noFault_oob (legal_fused hdt) hsz.pos hsz.split (by rw [hb]; exact local_elem) (fun b e hbe hen _ => by
      rw [hb]; exact inPlace_worker hdt hz hsz.addr hd hbe hen)
  simp only [hb, outBytes_ft] at this
  exact this

/-- C87, in place: a fused call may be given the same buffer as input and output.  On every kernel, for every thread count,
schedule, rounding mode and reduce operation, and however many elements the compiled loop loads ahead, the memory afterwards is
exactly the memory after the same call on a copy of the input. -/
theorem C87_fused_in_place (hdt : dt.isQuant = true) (hsz : Sizes n c.threads) (hsz' : Sizes n c'.threads) (hg : c'.fuse.gen = c.fuse.gen)
    (hz : ZpSub zp) (hd : ∀ i, i < n → Defined mode τ (scaled (elem ft.dtype m0 o i) scale) zp) :
    Always NoFault (fusedMem bw c o (ft.size * n) ft o (ft.size * n) dt scale zp mode op τ) (span o (ft.size * n)) m0 (fun m =>
      Always NoFault (fused c' ⟨ft.size * n, fun k => m0 (o + k)⟩ ft.dtype o (ft.size * n) dt scale zp mode op τ) (span o (ft.size * n)) m0
        (fun m' => m' = m)) := by
  refine (inPlace_ok (c := c) (bw := bw) (op := op) hdt hsz hz hd).mono (fun _ h => h) (fun m hm => ?_)
  refine (fused_copy_ok (c' := c') (op := op) hdt hsz' hz hd).mono (fun _ h => h) (fun m' hm' => ?_)
  rw [hg] at hm'
  exact elems_unique (R := fun i u => FusedElem c.fuse.gen ft dt mode op scale τ zp m0 o i (rdX ft m0 (o + ft.size * i)) u)
    (ft_size_pos ft) (fun i u u' => fusedElem_fun) hm.1 hm'.1 hm.2 hm'.2

/-- `C87_fused_in_place` applied to a concrete case. -/
example := C87_fused_in_place (c := Ex.c1) (c' := Ex.c2) (dt := .uint8) (ft := .f32) (n := 70) (o := 4) (bw := 4) (scale := Ex.tenth) (τ := Ex.quarter)
    (zp := 64) (mode := .nearest) (op := .add) (m0 := Ex.manyMem) (hdt := by wit) (hsz := by wit) (hsz' := by wit) (hg := by wit) (hz := by wit)
    (hd := by wit)

/-! ## One thread -/

/-- The addresses between the lower start and the higher end of two spans. -/
def hull (a la b lb : Nat) : Win := ⟨min a b, max (a + la) (b + lb)⟩

theorem splitJobs_one {d : Desc} {body : Nat → Nat → Prog Unit} (hn : d.numel < 2 ^ 59) :
    splitJobs 1 d body = [if 0 < d.numel then body 0 d.numel else .ret ()] := by
  have hp := partitionRow_eq (d := d) (ti := 0) (tc := 1) (by omega) (by omega)
  rw [cut_zero (by omega), cut_last] at hp
  unfold splitJobs
  rw [show List.range 1 = [0] from rfl, List.map_singleton, hp]
  by_cases h : 0 < d.numel
  · rw [if_neg (by omega), if_pos h]; simp only [Nat.sub_zero]
  · rw [if_pos (by omega), if_neg h]; rfl

theorem byteOff_zero (b : Nat) : byteOff b 0 = 0 := by simp [byteOff]

theorem hull_facts {a la b lb : Nat} : (hull a la b lb).lo ≤ a ∧ a + la ≤ (hull a la b lb).hi ∧ (hull a la b lb).lo ≤ b ∧ b + lb ≤ (hull a la b lb).hi := by
  unfold hull; simp only; omega

/-- From the invariant at the end of the only worker to the final memory. -/
theorem invE_final {R : Nat → Nat → Prop} {w : Win} {sz : Nat} {m r : Mem} (hsz : 0 < sz) (hlo : w.lo ≤ o) (hhi : o + sz * n ≤ w.hi)
    (h : InvE m0 o sz R n r) (h1 : ∀ a, w.has a = true → m a = r a) (h2 : ∀ a, w.has a = false → m a = m0 a) :
    (∀ j, j < sz * n → OkElem o sz R j m) ∧ ∀ a, (a < o ∨ o + sz * n ≤ a) → m a = m0 a := by
  have e : m = r := by
    funext a
    by_cases ha : w.has a = true
    · exact h1 a ha
    · have ha : w.has a = false := by simpa using ha
      rw [h2 a ha]
      refine (h.1 a (fun hc => ?_)).symm
      simp [Win.has] at ha
      omega
  subst e
  refine ⟨fun j hj => ?_, fun a ha => h.1 a (by omega)⟩
  obtain ⟨v, hv, hb⟩ := h.2 (j / sz) (by rw [Nat.div_lt_iff_lt_mul hsz, Nat.mul_comm]; exact hj)
  exact ⟨v, hv, hb⟩

theorem one_ok (hdt : dt.isQuant = true) (ht : c.threads = 1) (hn : n < 2 ^ 59) (hov : o ≤ xa ∨ xa + ft.size * n ≤ o)
    (hz : ZpSub zp) (hd : ∀ i, i < n → Defined mode τ (scaled (elem ft.dtype m0 xa i) scale) zp) :
    Always NoFault (fusedMem bw c xa (ft.size * n) ft o (ft.size * n) dt scale zp mode op τ) (hull xa (ft.size * n) o (ft.size * n)) m0
      (fun m => (∀ j, j < ft.size * n → OkElem o ft.size (fun i u => FusedElem c.fuse.gen ft dt mode op scale τ zp m0 o i (rdX ft m0 (xa + ft.size * i)) u) j m) ∧
        ∀ a, (a < o ∨ o + ft.size * n ≤ a) → m a = m0 a) := by
  have hs : ft.dtype.stride = ft.size := by cases ft <;> rfl
  have hq : ft.size * n / ft.dtype.stride = n := by rw [hs, Nat.mul_comm, Nat.mul_div_cancel _ (ft_size_pos ft)]
  have hcall : fusedMem bw c xa (ft.size * n) ft o (ft.size * n) dt scale zp mode op τ =
      .ok [if 0 < n then requantMem bw c.fuse ft dt mode op xa o n scale τ zp else .ret ()] := by
    unfold fusedMem
    rw [hdt, if_neg (by simp), if_pos rfl, hq, ht, splitJobs_one (by exact hn)]
    simp only [byteOff_zero, Nat.add_zero]
  obtain ⟨f1, f2, f3, f4⟩ := hull_facts (a := xa) (la := ft.size * n) (b := o) (lb := ft.size * n)
  refine ⟨_, hcall, ?_⟩
  have ht : Triple NoFault (hull xa (ft.size * n) o (ft.size * n)) (fun m => m = m0)
      (if 0 < n then requantMem bw c.fuse ft dt mode op xa o n scale τ zp else .ret ())
      (fun _ => InvE m0 o ft.size (fun i u => FusedElem c.fuse.gen ft dt mode op scale τ zp m0 o i (rdX ft m0 (xa + ft.size * i)) u) n) := by
    by_cases h0 : 0 < n
    · rw [if_pos h0]
      refine (requantMem_triple (E := NoFault) f1 f2 f3 f4 hov (fun i hi => Or.inl ⟨_, qStep_defined hdt (zp_of_sub hz) (by rw [rdX_elem]; exact hd i hi)⟩)
        (fun q hq => Or.inr (subI_64 hz (lt_of_le_of_lt (hq.trans qmax_le) (by norm_num)))) (fun i u _ h => h)).pre (fun m hm => ?_)
      subst hm; exact InvE.zero _ _ _ _
    · rw [if_neg h0]
      have : n = 0 := by omega
      subst this
      exact Triple.ret (fun m hm => by subst hm; exact InvE.zero _ _ _ _)
  have := single_main noFault_oob ht
  refine ⟨this.safe, this.raceFree, this.progress, this.bounded, fun k d hr hdn => ?_⟩
  obtain ⟨r, h1, h2, h3⟩ := this.post k d hr hdn
  exact invE_final (ft_size_pos ft) f3 f4 h1 h2 h3

/-- C87, one thread: the output may also start anywhere before the input (the output elements then only cover input elements
already used), or not overlap it at all: the memory afterwards is the memory after the same call on a copy of the input. -/
theorem C87_fused_overlap_one_thread (hdt : dt.isQuant = true) (ht : c.threads = 1) (hn : n < 2 ^ 59) (hsz' : Sizes n c'.threads)
    (hg : c'.fuse.gen = c.fuse.gen) (hov : o ≤ xa ∨ xa + ft.size * n ≤ o)
    (hz : ZpSub zp) (hd : ∀ i, i < n → Defined mode τ (scaled (elem ft.dtype m0 xa i) scale) zp) :
    Always NoFault (fusedMem bw c xa (ft.size * n) ft o (ft.size * n) dt scale zp mode op τ) (hull xa (ft.size * n) o (ft.size * n)) m0 (fun m =>
      Always NoFault (fused c' ⟨ft.size * n, fun k => m0 (xa + k)⟩ ft.dtype o (ft.size * n) dt scale zp mode op τ) (span o (ft.size * n)) m0
        (fun m' => m' = m)) := by
  refine (one_ok (c := c) (bw := bw) (op := op) hdt ht hn hov hz hd).mono (fun _ h => h) (fun m hm => ?_)
  refine (fused_copy_ok (c' := c') (op := op) hdt hsz' hz hd).mono (fun _ h => h) (fun m' hm' => ?_)
  rw [hg] at hm'
  exact elems_unique (R := fun i u => FusedElem c.fuse.gen ft dt mode op scale τ zp m0 o i (rdX ft m0 (xa + ft.size * i)) u)
    (ft_size_pos ft) (fun i u u' => fusedElem_fun) hm.1 hm'.1 hm.2 hm'.2

/-- `C87_fused_overlap_one_thread` applied to a concrete case. -/
example := C87_fused_overlap_one_thread (c := ⟨.avx512f, 1, .none⟩) (c' := Ex.c2) (dt := .uint8) (ft := .f32) (n := 70) (o := 0) (xa := 4) (bw := 4)
    (scale := Ex.tenth) (τ := Ex.quarter) (zp := 64) (mode := .nearest) (op := .add) (m0 := Ex.manyMem) (hdt := by wit) (ht := by wit) (hn := by wit)
    (hsz' := by wit) (hg := by wit) (hov := by wit) (hz := by wit) (hd := by wit)

/-- The quantize call on a copy of the input, in terms of the bytes it must produce. -/
theorem quant_copy_ok (hsz : Sizes n c'.threads) (hz : Zp32 zp)
    (hd : ∀ i, i < n → Defined .stochastic τ (scaled (elem ft.dtype m0 xa i) scale) zp) :
    Always NoFault (quantize c' ⟨ft.size * n, fun k => m0 (xa + k)⟩ ft.dtype o n .uint8 scale zp .stochastic τ) (span o n) m0
      (fun m => (∀ j, j < 1 * n → OkElem o 1 (fun i q => qStep .stochastic 255 (rdX ft m0 (xa + ft.size * i)) τ (invScale scale) zp = .ret q) j m) ∧
        ∀ a, (a < o ∨ o + 1 * n ≤ a) → m a = m0 a) := by
  have hb : bytes DType.uint8.bits n = n := by simp [bytes, DType.bits]; omega
  have hj := quantize_jobs (ft := ft) (dt := .uint8) (c := c') (x := ⟨ft.size * n, fun k => m0 (xa + k)⟩) (o := o) (scale := scale) (zp := zp)
    (mode := .stochastic) (τ := τ) rfl hsz.addr rfl
  rw [hb] at hj
  refine ⟨_, hj, ?_⟩
  have := quantize_sched (E := NoFault) (c := c') (o := o) (m0 := m0) (ft := ft) (dt := .uint8) (mode := .stochastic) (scale := scale) (τ := τ) (zp := zp)
    (x := ⟨ft.size * n, fun k => m0 (xa + k)⟩) (n := n) noFault_oob rfl rfl hsz
    (fun i hi => Or.inl ⟨_, scalarStep_defined (ft := ft) rfl hz (by rw [rdX_spec, rdX_elem]; exact hd i hi)⟩)
    (fun h => absurd (show n % DType.uint8.per = 0 by simp [DType.per, DType.bits, Nat.mod_one]) h)
  rw [hb] at this
  refine ⟨this.safe, this.raceFree, this.progress, this.bounded, fun k d hr hdn => ?_⟩
  obtain ⟨h1, _, h3, h4, _⟩ := this.post k d hr hdn
  refine ⟨fun j hj => ?_, fun a ha => h4 a (by omega)⟩
  have hjn : j < n := by omega
  have hc := h1 j hjn
  have hlt := h3 j hjn
  have hcode : code DType.uint8.bits d.mem o j = d.mem (o + j) := by
    simp only [code, DType.bits]
    rw [show 8 * j / 8 = j by omega, show 8 * j % 8 = 0 by omega]
    omega
  rw [hcode, elem_copy, ← rdX_elem] at hc
  refine ⟨d.mem (o + j), ?_, fun k hk => ?_⟩
  · rw [Nat.div_one]
    rcases hc with hc | ⟨hc, _⟩
    · exact hc
    · cases hc
  · have : k = 0 := by omega
    subst this
    rw [Nat.div_one, Nat.one_mul, Nat.add_zero]
    unfold byteOf
    rw [Nat.pow_zero, Nat.div_one]
    exact (Nat.mod_eq_of_lt hlt).symm

/-- C87, quantizing with one thread (uint8, stochastic rounding: the same byte loop on every kernel): the output may start at or
anywhere before the input, or not overlap it at all.  In particular `out` may be the beginning of the input buffer. -/
theorem C87_quantize_overlap_one_thread (ht : c.threads = 1) (hn : n < 2 ^ 59) (hsz' : Sizes n c'.threads)
    (hov : o ≤ xa ∨ xa + ft.size * n ≤ o) (hz : Zp32 zp)
    (hd : ∀ i, i < n → Defined .stochastic τ (scaled (elem ft.dtype m0 xa i) scale) zp) :
    Always NoFault (quantizeMem bw c xa (ft.size * n) ft o n scale zp τ) (hull xa (ft.size * n) o n) m0 (fun m =>
      Always NoFault (quantize c' ⟨ft.size * n, fun k => m0 (xa + k)⟩ ft.dtype o n .uint8 scale zp .stochastic τ) (span o n) m0
        (fun m' => m' = m)) := by
  have hs : ft.dtype.stride = ft.size := by cases ft <;> rfl
  have hq : ft.size * n / ft.dtype.stride = n := by rw [hs, Nat.mul_comm, Nat.mul_div_cancel _ (ft_size_pos ft)]
  have hcall : quantizeMem bw c xa (ft.size * n) ft o n scale zp τ =
      .ok [if 0 < n then quantU8Mem bw ft .stochastic xa o n scale τ zp else .ret ()] := by
    unfold quantizeMem
    rw [hq, if_pos rfl, ht, splitJobs_one (by exact hn)]
    simp only [byteOff_zero, Nat.add_zero]
  obtain ⟨f1, f2, f3, f4⟩ := hull_facts (a := xa) (la := ft.size * n) (b := o) (lb := n)
  refine ⟨_, hcall, ?_⟩
  have ht : Triple NoFault (hull xa (ft.size * n) o n) (fun m => m = m0)
      (if 0 < n then quantU8Mem bw ft .stochastic xa o n scale τ zp else .ret ())
      (fun _ => InvE m0 o 1 (fun i q => qStep .stochastic 255 (rdX ft m0 (xa + ft.size * i)) τ (invScale scale) zp = .ret q) n) := by
    by_cases h0 : 0 < n
    · rw [if_pos h0]
      refine (quantU8Mem_triple (E := NoFault) f1 f2 f3 f4 hov (fun i hi => Or.inl ⟨_, qStep_defined (dt := .uint8) rfl hz (by rw [rdX_elem]; exact hd i hi)⟩)
        (fun i u _ h => h)).pre (fun m hm => ?_)
      subst hm; exact InvE.zero _ _ _ _
    · rw [if_neg h0]
      have : n = 0 := by omega
      subst this
      exact Triple.ret (fun m hm => by subst hm; exact InvE.zero _ _ _ _)
  have := single_main noFault_oob ht
  refine ⟨this.safe, this.raceFree, this.progress, this.bounded, fun k d hr hdn => ?_⟩
  obtain ⟨r, h1, h2, h3⟩ := this.post k d hr hdn
  have hm := invE_final (by omega) f3 (by omega) h1 h2 h3
  refine (quant_copy_ok (c' := c') (o := o) hsz' hz hd).mono (fun _ h => h) (fun m' hm' => ?_)
  exact elems_unique (R := fun i q => qStep .stochastic 255 (rdX ft m0 (xa + ft.size * i)) τ (invScale scale) zp = .ret q)
    (by omega) (fun i u u' h h' => Prog.ret.inj (h.symm.trans h')) hm.1 hm'.1 hm.2 hm'.2

/-- `C87_quantize_overlap_one_thread` applied to a concrete case. -/
example := C87_quantize_overlap_one_thread (c := ⟨.avx512f, 1, .none⟩) (c' := Ex.c2) (ft := .f32) (n := 70) (o := 0) (xa := 4) (bw := 4)
    (scale := Ex.tenth) (τ := Ex.quarter) (zp := 64) (m0 := Ex.manyMem) (ht := by wit) (hn := by wit) (hsz' := by wit) (hov := by wit) (hz := by wit)
    (hd := by wit)

/-! ## Dequantizing -/

theorem dqElem_set {isa : Isa} {fz : Fuse} {i q v : Nat} (hi : ft = .bf16 → isa ≠ .avx512f ∧ isa ≠ .avx512bf16)
    (h : DqElem isa fz .uint8 ft .set scale zp m0 o n i q v) : v = setEnc ft scale zp q := by
  cases ft
  · obtain ⟨b, _, e⟩ := h
    rw [e, if_neg (fun h => by cases h.1)]
    rfl
  · rcases h with e | ⟨e, _⟩
    · rw [e]; rfl
    · rcases e with e | e
      · exact absurd e (hi rfl).1
      · exact absurd e (hi rfl).2

/-- The dequantize call on a copy of the codes, in terms of the elements it must produce. -/
theorem dequant_copy_ok (hsz : Sizes n c'.threads) (hz : ZpSub zp) (hi : ft = .bf16 → c'.isa ≠ .avx512f ∧ c'.isa ≠ .avx512bf16) :
    Always NoFault (dequantize c' ⟨n, fun k => m0 (xa + k)⟩ n .uint8 o (ft.size * n) ft.dtype scale zp .set) (span o (ft.size * n)) m0
      (fun m => (∀ j, j < ft.size * n → OkElem o ft.size (fun i u => u = setEnc ft scale zp (m0 (xa + i) % 256)) j m) ∧
        ∀ a, (a < o ∨ o + ft.size * n ≤ a) → m a = m0 a) := by
  have hb8 : bytes DType.uint8.bits n = n := by simp [bytes, DType.bits]; omega
  have hj := dequantize_jobs (ft := ft) (dt := .uint8) (c := c') (x := ⟨n, fun k => m0 (xa + k)⟩) (o := o) (scale := scale) (zp := zp)
    (op := .set) rfl hsz.addr
  rw [hb8] at hj
  refine ⟨_, hj, ?_⟩
  have hw := dequantize_worker (E := NoFault) (fz := c'.fuse) (isa := c'.isa) (x := ⟨n, fun k => m0 (xa + k)⟩) (o := o) (m0 := m0)
    (op := .set) (ft := ft) (n := n) (mode := .nearest) (τ := f0) (scale := scale) (zp := zp) (dt := .uint8) rfl
    (by show (8 * n + 7) / 8 ≤ n; omega) (fun h => by cases h)
    (fun i _ => Or.inr (dqRange_of (dt := .uint8) (ft := ft) hz (by rw [show DType.uint8.bits = 8 from rfl, qAt8]; exact u8_lt _ _)))
  have hb : (Desc.outBits ⟨.dequant, n, scale, zp, .uint8, ft.dtype, .nearest, .set, f0, c'.fuse⟩) = ft.dtype.bits := by simp [Desc.outBits]
  have := call_main (E := NoFault) (tc := c'.threads) noFault_oob (legal_dequant (by rfl)) hsz.pos hsz.split hsz.addr (by rw [hb]; exact local_elem) hw.at
  simp only [hb, outBytes_ft] at this
  refine ⟨this.safe, this.raceFree, this.progress, this.bounded, fun k d hr hdn => ?_⟩
  obtain ⟨h1, h2, _⟩ := this.post k d hr hdn
  refine ⟨fun j hj => ?_, h2⟩
  obtain ⟨u, hu, hb⟩ := h1 j hj
  refine ⟨u, ?_, hb⟩
  have e := dqElem_set hi hu
  rw [show DType.uint8.bits = 8 from rfl, qAt8] at e
  rw [e]
  simp only [InBuf.u8, Nat.zero_add]

/-- C87, dequantizing uint8 codes with one thread and `set`: the codes may lie in the last bytes of the output buffer ("expansion
in place"), or behind that, or not overlap the output at all: the memory afterwards is the memory after the same call on a copy of
the codes.  (f32 output: on every kernel; bf16 output: on every kernel without AVX-512.) -/
theorem C87_dequantize_expand_one_thread (ht : c.threads = 1) (hn : n < 2 ^ 59) (hsz' : Sizes n c'.threads) (hz : ZpSub zp)
    (hi : ft = .bf16 → c'.isa ≠ .avx512f ∧ c'.isa ≠ .avx512bf16) (hov : o + ft.size * n ≤ xa + n ∨ xa + n ≤ o) :
    Always NoFault (dequantizeMem bw c xa n ft o (ft.size * n) scale zp) (hull xa n o (ft.size * n)) m0 (fun m =>
      Always NoFault (dequantize c' ⟨n, fun k => m0 (xa + k)⟩ n .uint8 o (ft.size * n) ft.dtype scale zp .set) (span o (ft.size * n)) m0
        (fun m' => m' = m)) := by
  have hs : ft.dtype.stride = ft.size := by cases ft <;> rfl
  have hq : ft.size * n / ft.dtype.stride = n := by rw [hs, Nat.mul_comm, Nat.mul_div_cancel _ (ft_size_pos ft)]
  have hcall : dequantizeMem bw c xa n ft o (ft.size * n) scale zp =
      .ok [if 0 < n then dequantU8Mem bw c.fuse ft xa o n scale zp else .ret ()] := by
    unfold dequantizeMem
    rw [hq, if_pos rfl, ht, splitJobs_one (by exact hn)]
    simp only [byteOff_zero, Nat.add_zero]
  obtain ⟨f1, f2, f3, f4⟩ := hull_facts (a := xa) (la := n) (b := o) (lb := ft.size * n)
  refine ⟨_, hcall, ?_⟩
  have ht : Triple NoFault (hull xa n o (ft.size * n)) (fun m => m = m0)
      (if 0 < n then dequantU8Mem bw c.fuse ft xa o n scale zp else .ret ())
      (fun _ => InvE m0 o ft.size (fun i u => u = setEnc ft scale zp (m0 (xa + i) % 256)) n) := by
    by_cases h0 : 0 < n
    · rw [if_pos h0]
      have hov' : o + (ft.size - 1) * n ≤ xa ∨ xa + n ≤ o := by
        cases ft <;> simp only [FT.size] at hov ⊢ <;> omega
      refine (dequantU8Mem_triple (E := NoFault) (R := fun i u => u = setEnc ft scale zp (m0 (xa + i) % 256)) f1 f2 f3 f4 hov'
        (fun q hq => Or.inr (dqRange_of (dt := .uint8) (ft := .f32) hz hq)) (fun i _ => rfl)).pre (fun m hm => ?_)
      subst hm; exact InvE.zero _ _ _ _
    · rw [if_neg h0]
      have : n = 0 := by omega
      subst this
      exact Triple.ret (fun m hm => by subst hm; exact InvE.zero _ _ _ _)
  have := single_main noFault_oob ht
  refine ⟨this.safe, this.raceFree, this.progress, this.bounded, fun k d hr hdn => ?_⟩
  obtain ⟨r, h1, h2, h3⟩ := this.post k d hr hdn
  have hm := invE_final (ft_size_pos ft) f3 f4 h1 h2 h3
  refine (dequant_copy_ok (c' := c') (o := o) hsz' hz hi).mono (fun _ h => h) (fun m' hm' => ?_)
  exact elems_unique (R := fun i u => u = setEnc ft scale zp (m0 (xa + i) % 256)) (ft_size_pos ft) (fun i u u' h h' => h.trans h'.symm)
    hm.1 hm'.1 hm.2 hm'.2

/-- `C87_dequantize_expand_one_thread` applied to a concrete case: seventy codes in the last seventy of 280 bytes. -/
example := C87_dequantize_expand_one_thread (c := ⟨.avx512f, 1, .none⟩) (c' := Ex.c1) (ft := .f32) (n := 70) (o := 0) (xa := 210) (bw := 64)
    (scale := Ex.tenth) (zp := 64) (m0 := Ex.manyMem) (ht := by wit) (hn := by wit) (hsz' := by wit) (hz := by wit) (hi := by wit)
    (hov := by wit)

/-! ## The hypotheses are met -/

/-- Memory with the given bytes at address 0. -/
def memOf (l : List Nat) : Mem := fun a => l.getD a 0

/-- 1.0f -/
def fone : F32 := ⟨false, 0x3f800000⟩

/-- Four floats at address 8, quantized and dequantized in place by three threads. -/
example : DType.uint4.isQuant = true ∧ Sizes 4 3 ∧ ZpSub 7 ∧
    ∀ i, i < 4 → Defined .nearest f0 (scaled (elem FT.f32.dtype (memOf (List.replicate 8 0xAB ++ Ex.words32 [0x3f800000, 0xc0200000, 0x3e99999a, 0x40f80000])) 8 i) Ex.half) 7 :=
  ⟨rfl, ⟨by decide, by decide, by decide⟩, by decide, by decide +kernel⟩

/-- Two floats at address 4, output at address 0, with a threshold of 1/4. -/
example : ((0:Nat) ≤ 4 ∨ 4 + FT.f32.size * 2 ≤ 0) ∧ Zp32 7 ∧
    ∀ i, i < 2 → Defined .stochastic Ex.quarter (scaled (elem FT.f32.dtype (memOf (List.replicate 4 0xAB ++ Ex.words32 [0x3f800000, 0xc0200000])) 4 i) Ex.half) 7 :=
  ⟨by decide, by decide, by decide +kernel⟩

/-! ## Where it fails -/

/-- A property of the memory after the only worker of a call. -/
theorem single_run {call : Call} {p : Prog Unit} {w : Win} {Q : Mem → Prop} (hc : call = .ok [p])
    (h : ∃ r, p.run w m0 = .ok ((), r) ∧ Q r) : Always NoFault call w m0 Q := by
  obtain ⟨r, h1, h2⟩ := h
  have ht : Triple NoFault w (fun m => m = m0) p (fun _ m => m = r) := by
    rw [Triple.iff]
    intro m hm
    subst hm
    rw [h1]
  have := single_main noFault_oob ht
  refine ⟨_, hc, this.safe, this.raceFree, this.progress, this.bounded, fun k d hr hdn => ?_⟩
  obtain ⟨r', rfl, h3, h4⟩ := this.post k d hr hdn
  have e : d.mem = r' := by
    funext a
    by_cases ha : w.has a = true
    · exact h3 a ha
    · have ha : w.has a = false := by simpa using ha
      rw [h4 a ha]
      exact (run_frame p h1 a ha).symm
  rw [e]; exact h2

/-- Decidable form of "runs to its end and then `f` holds". -/
def ran (p : Prog Unit) (w : Win) (m : Mem) (f : Mem → Bool) : Bool :=
  match p.run w m with
  | .ok (_, r) => f r
  | .error _ => false

theorem ran_iff {p : Prog Unit} {w : Win} {m : Mem} {f : Mem → Bool} (h : ran p w m f = true) : ∃ r, p.run w m = .ok ((), r) ∧ f r = true := by
  unfold ran at h
  split at h
  · rename_i r he; exact ⟨r, he, h⟩
  · cases h

theorem fusedMem_one (isa : Isa) (fz : Fuse) : fusedMem 1 ⟨isa, 1, fz⟩ 0 8 .f32 4 8 .uint8 fone 0 .nearest .set f0 =
    .ok [requantMem 1 fz .f32 .uint8 .nearest .set 0 4 2 fone f0 0] := by
  simp [fusedMem, splitJobs, partitionRow, packElems, packedBits, DType.isQuant, DType.bits, DType.stride, FT.dtype, List.range_succ, byteOff]
theorem fusedMem_two (isa : Isa) (fz : Fuse) : fusedMem 1 ⟨isa, 2, fz⟩ 4 16 .f32 0 16 .uint8 fone 0 .nearest .set f0 =
    .ok [requantMem 1 fz .f32 .uint8 .nearest .set 4 0 2 fone f0 0, requantMem 1 fz .f32 .uint8 .nearest .set 12 8 2 fone f0 0] := by
  simp [fusedMem, splitJobs, partitionRow, packElems, packedBits, DType.isQuant, DType.bits, DType.stride, FT.dtype, List.range_succ, byteOff]
theorem quantizeMem_two (isa : Isa) (fz : Fuse) : quantizeMem 1 ⟨isa, 2, fz⟩ 0 32 .f32 0 8 fone 0 Ex.quarter =
    .ok [quantU8Mem 1 .f32 .stochastic 0 0 4 fone Ex.quarter 0, quantU8Mem 1 .f32 .stochastic 16 4 4 fone Ex.quarter 0] := by
  simp [quantizeMem, splitJobs, partitionRow, packElems, packedBits, DType.bits, DType.stride, FT.dtype, List.range_succ, byteOff]

/-- 1.0 and 2.0 at addresses 0 and 4. -/
def shiftMem : Mem := memOf (Ex.words32 [0x3f800000, 0x40000000, 0])

/-- C87 fails when the output starts *after* the input starts, and inside it: with the output one element further (input at
address 0, output at address 4, one thread, elements processed one at a time) the first result replaces the second input element,
so the second result is 1.0 again; on a copy of the input it is 2.0. -/
theorem C87_false_output_behind (isa : Isa) (fz : Fuse) :
    Always NoFault (fusedMem 1 ⟨isa, 1, fz⟩ 0 8 .f32 4 8 .uint8 fone 0 .nearest .set f0) (hull 0 8 4 8) shiftMem (fun m => f32At m 8 = fone) ∧
    Always NoFault (fused ⟨isa, 1, fz⟩ ⟨8, fun k => shiftMem (0 + k)⟩ .f32 4 8 .uint8 fone 0 .nearest .set f0) (span 4 8) shiftMem
      (fun m => f32At m 8 = ⟨false, 0x40000000⟩) := by
  constructor
  · refine single_run (p := requantMem 1 fz .f32 .uint8 .nearest .set 0 4 2 fone f0 0) (fusedMem_one isa fz) ?_
    obtain ⟨v, s, g⟩ := fz
    obtain ⟨r, h1, h2⟩ := ran_iff (p := requantMem 1 ⟨v, s, g⟩ .f32 .uint8 .nearest .set 0 4 2 fone f0 0) (w := hull 0 8 4 8) (m := shiftMem)
      (f := fun m => decide (f32At m 8 = fone)) (by cases v <;> cases s <;> cases g <;> decide +kernel)
    exact ⟨r, h1, of_decide_eq_true h2⟩
  · have hargs : QArgs 1 ⟨8, fun k => shiftMem (0 + k)⟩ .f32 .uint8 2 := ⟨rfl, rfl, rfl, sz 2 1⟩
    refine (C32_fused_f32_formula (c := ⟨isa, 1, fz⟩) (n := 2) (scale := fone) (zp := 0) (mode := .nearest) (op := .set) (τ := f0) (o := 4) (m0 := shiftMem)
      hargs (by decide) (by decide +kernel)).mono (fun _ h => h) (fun m hm => ?_)
    have := hm 1 (by omega)
    rw [this]
    show store .set fz.gen _ _ _ _ = _
    generalize fz.gen = g
    cases g <;> decide +kernel

/-- Two workers, the second one first. -/
theorem outcome_second_first {call : Call} {p q : Prog Unit} {w : Win} (hc : call = .ok [p, q]) {f : Mem → Bool}
    (h : ran q w m0 (fun m => ran p w m f) = true) : ∃ m, Outcome call w m0 m ∧ f m = true := by
  obtain ⟨r, h1, h2⟩ := ran_iff h
  obtain ⟨r', h3, h4⟩ := ran_iff h2
  obtain ⟨k, hk⟩ := second_first h1 h3
  refine ⟨r', ⟨_, k, _, hc, hk, fun p hp => ?_, rfl⟩, h4⟩
  simp at hp
  exact hp

/-- 1.0, 2.0, 3.0, 4.0 at addresses 4, 8, 12, 16. -/
def fourMem : Mem := memOf (Ex.words32 [0, 0x3f800000, 0x40000000, 0x40400000, 0x40800000])

/-- C87 fails with two threads when the output starts one element *before* the input, although the same call is right with one
thread (`C87_fused_overlap_one_thread`): if the second worker is faster, its first result replaces the last input element of the
first worker (the second result is 3.0 instead of 2.0). -/
theorem C87_false_fused_two_threads (isa : Isa) (fz : Fuse) :
    (∃ m, Outcome (fusedMem 1 ⟨isa, 2, fz⟩ 4 16 .f32 0 16 .uint8 fone 0 .nearest .set f0) (hull 4 16 0 16) fourMem m ∧
      f32At m 4 = ⟨false, 0x40400000⟩) ∧
    Always NoFault (fused ⟨isa, 2, fz⟩ ⟨16, fun k => fourMem (4 + k)⟩ .f32 0 16 .uint8 fone 0 .nearest .set f0) (span 0 16) fourMem
      (fun m => f32At m 4 = ⟨false, 0x40000000⟩) := by
  constructor
  · obtain ⟨v, s, g⟩ := fz
    obtain ⟨m, h1, h2⟩ := outcome_second_first (m0 := fourMem) (w := hull 4 16 0 16)
      (call := fusedMem 1 ⟨isa, 2, ⟨v, s, g⟩⟩ 4 16 .f32 0 16 .uint8 fone 0 .nearest .set f0)
      (p := requantMem 1 ⟨v, s, g⟩ .f32 .uint8 .nearest .set 4 0 2 fone f0 0) (q := requantMem 1 ⟨v, s, g⟩ .f32 .uint8 .nearest .set 12 8 2 fone f0 0)
      (f := fun m => decide (f32At m 4 = ⟨false, 0x40400000⟩)) (fusedMem_two isa _) (by cases v <;> cases s <;> cases g <;> decide +kernel)
    exact ⟨m, h1, of_decide_eq_true h2⟩
  · have hargs : QArgs 2 ⟨16, fun k => fourMem (4 + k)⟩ .f32 .uint8 4 := ⟨rfl, rfl, rfl, sz 4 2⟩
    refine (C32_fused_f32_formula (c := ⟨isa, 2, fz⟩) (n := 4) (scale := fone) (zp := 0) (mode := .nearest) (op := .set) (τ := f0) (o := 0) (m0 := fourMem)
      hargs (by decide) (by decide +kernel)).mono (fun _ h => h) (fun m hm => ?_)
    have := hm 1 (by omega)
    rw [show (4:Nat) = 0 + 4 * 1 from rfl, this]
    show store .set fz.gen _ _ _ _ = _
    generalize fz.gen = g
    cases g <;> decide +kernel

def isRet (q : Nat) : Prog Nat → Bool
  | .ret r => decide (r = q)
  | _ => false

/-- 1, 100, 1, 1, 0, 0, 64, 64 at address 0. -/
def eightMem : Mem := memOf (Ex.words32 [0x3f800000, 0x42c80000, 0x3f800000, 0x3f800000, 0, 0, 0x42800000, 0x42800000])

/-- C87 fails for quantizing in place with two threads (`out` is the beginning of the input buffer): if the second worker is
faster, its four codes 0, 0, 64, 64 replace the second input element (100.0), which the first worker then reads as 3.0. -/
theorem C87_false_quantize_two_threads (isa : Isa) (fz : Fuse) :
    (∃ m, Outcome (quantizeMem 1 ⟨isa, 2, fz⟩ 0 32 .f32 0 8 fone 0 Ex.quarter) (hull 0 32 0 8) eightMem m ∧ m 1 = 3) ∧
    Always NoFault (quantize ⟨isa, 2, fz⟩ ⟨32, fun k => eightMem (0 + k)⟩ .f32 0 8 .uint8 fone 0 .stochastic Ex.quarter) (span 0 8) eightMem
      (fun m => m 1 = 100) := by
  constructor
  · obtain ⟨m, h1, h2⟩ := outcome_second_first (m0 := eightMem) (w := hull 0 32 0 8)
      (call := quantizeMem 1 ⟨isa, 2, fz⟩ 0 32 .f32 0 8 fone 0 Ex.quarter)
      (p := quantU8Mem 1 .f32 .stochastic 0 0 4 fone Ex.quarter 0) (q := quantU8Mem 1 .f32 .stochastic 16 4 4 fone Ex.quarter 0)
      (f := fun m => decide (m 1 = 3)) (quantizeMem_two isa fz) (by decide +kernel)
    exact ⟨m, h1, of_decide_eq_true h2⟩
  · refine (quant_copy_ok (c' := ⟨isa, 2, fz⟩) (ft := .f32) (n := 8) (xa := 0) (o := 0) (m0 := eightMem) (scale := fone) (zp := 0) (τ := Ex.quarter)
      (sz 8 2) (by decide) (by decide +kernel)).mono (fun _ h => h) (fun m hm => ?_)
    obtain ⟨v, h1, h2⟩ := hm.1 1 (by omega)
    have h3 := h2 0 (by omega)
    have e : isRet 100 (qStep .stochastic 255 (rdX .f32 eightMem (0 + FT.f32.size * (1 / 1))) Ex.quarter (invScale fone) 0) = true := by decide +kernel
    rw [h1] at e
    have e : v = 100 := of_decide_eq_true e
    subst e
    exact h3

theorem dequantizeMem_two (isa : Isa) (fz : Fuse) : dequantizeMem 1 ⟨isa, 2, fz⟩ 24 8 .f32 0 32 fone 0 =
    .ok [dequantU8Mem 1 fz .f32 24 0 4 fone 0, dequantU8Mem 1 fz .f32 28 16 4 fone 0] := by
  simp [dequantizeMem, splitJobs, partitionRow, packElems, packedBits, DType.bits, DType.stride, FT.dtype, List.range_succ, byteOff]
theorem dequantizeMem_one (isa : Isa) (fz : Fuse) : dequantizeMem 1 ⟨isa, 1, fz⟩ 0 2 .f32 0 8 fone 0 =
    .ok [dequantU8Mem 1 fz .f32 0 0 2 fone 0] := by
  simp [dequantizeMem, splitJobs, partitionRow, packElems, packedBits, DType.bits, DType.stride, FT.dtype, List.range_succ, byteOff]

/-- The codes 1, ..., 8 in the last eight of 32 bytes; the codes 5, 7 in the first two of eight bytes. -/
def lastMem : Mem := memOf (List.replicate 24 0 ++ [1, 2, 3, 4, 5, 6, 7, 8])
def firstMem : Mem := memOf [5, 7]

/-- C87 fails for the expansion in place with two threads: if the second worker is faster, its results replace the codes of the
first worker (the first code is read as 0 instead of 1). -/
theorem C87_false_dequantize_two_threads (isa : Isa) (fz : Fuse) :
    (∃ m, Outcome (dequantizeMem 1 ⟨isa, 2, fz⟩ 24 8 .f32 0 32 fone 0) (hull 24 8 0 32) lastMem m ∧ f32At m 0 = f0) ∧
    Always NoFault (dequantize ⟨isa, 2, fz⟩ ⟨8, fun k => lastMem (24 + k)⟩ 8 .uint8 0 (4 * 8) .f32 fone 0 .set) (span 0 (4 * 8)) lastMem
      (fun m => f32At m 0 = fone) := by
  constructor
  · obtain ⟨v, s, g⟩ := fz
    obtain ⟨m, h1, h2⟩ := outcome_second_first (m0 := lastMem) (w := hull 24 8 0 32)
      (call := dequantizeMem 1 ⟨isa, 2, ⟨v, s, g⟩⟩ 24 8 .f32 0 32 fone 0)
      (p := dequantU8Mem 1 ⟨v, s, g⟩ .f32 24 0 4 fone 0) (q := dequantU8Mem 1 ⟨v, s, g⟩ .f32 28 16 4 fone 0)
      (f := fun m => decide (f32At m 0 = f0)) (dequantizeMem_two isa _) (by cases v <;> cases s <;> cases g <;> decide +kernel)
    exact ⟨m, h1, of_decide_eq_true h2⟩
  · have hargs : DArgs 2 ⟨8, fun k => lastMem (24 + k)⟩ .uint8 .f32 8 := ⟨rfl, rfl, by decide, sz 8 2⟩
    refine (C09_dequantize_f32_formula (c := ⟨isa, 2, fz⟩) (n := 8) (scale := fone) (zp := 0) (o := 0) (m0 := lastMem)
      hargs (fun h => by cases h) (by decide)).mono (fun _ h => h) (fun m hm => ?_)
    have := hm 0 (by omega)
    rw [show (0:Nat) = 0 + 4 * 0 from rfl, this]
    decide +kernel

/-- C87 fails for dequantizing from the beginning of the output buffer, also with one thread: the first result (5.0) replaces the
second code, which is then read as 0. -/
theorem C87_false_dequantize_front (isa : Isa) (fz : Fuse) :
    Always NoFault (dequantizeMem 1 ⟨isa, 1, fz⟩ 0 2 .f32 0 8 fone 0) (hull 0 2 0 8) firstMem (fun m => f32At m 4 = f0) ∧
    Always NoFault (dequantize ⟨isa, 1, fz⟩ ⟨2, fun k => firstMem (0 + k)⟩ 2 .uint8 0 (4 * 2) .f32 fone 0 .set) (span 0 (4 * 2)) firstMem
      (fun m => f32At m 4 = ⟨false, 0x40e00000⟩) := by
  constructor
  · refine single_run (p := dequantU8Mem 1 fz .f32 0 0 2 fone 0) (dequantizeMem_one isa fz) ?_
    obtain ⟨v, s, g⟩ := fz
    obtain ⟨r, h1, h2⟩ := ran_iff (p := dequantU8Mem 1 ⟨v, s, g⟩ .f32 0 0 2 fone 0) (w := hull 0 2 0 8) (m := firstMem)
      (f := fun m => decide (f32At m 4 = f0)) (by cases v <;> cases s <;> cases g <;> decide +kernel)
    exact ⟨r, h1, of_decide_eq_true h2⟩
  · have hargs : DArgs 1 ⟨2, fun k => firstMem (0 + k)⟩ .uint8 .f32 2 := ⟨rfl, rfl, by decide, sz 2 1⟩
    refine (C09_dequantize_f32_formula (c := ⟨isa, 1, fz⟩) (n := 2) (scale := fone) (zp := 0) (o := 0) (m0 := firstMem)
      hargs (fun h => by cases h) (by decide)).mono (fun _ h => h) (fun m hm => ?_)
    have := hm 1 (by omega)
    rw [show (4:Nat) = 0 + 4 * 1 from rfl, this]
    decide +kernel

end
end Verif.Props

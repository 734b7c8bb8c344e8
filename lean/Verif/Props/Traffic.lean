import Verif.Props.Tiles
import Verif.Props.Crash
import Verif.Proofs.Traffic

/-! # C103: memory traffic -/

namespace Verif.Props
open Spec

section
variable {c : Ctx} {x : InBuf} {dtIn dtOut : DType} {n o : Nat} {scale τ : F32} {zp : ℤ} {mode : RoundMode} {op : ReduceOp} {m0 : Mem}

open Classical in
theorem traffic_of {isa : Isa} {tc : Nat} {d : Desc} {w : Win} (hl : d.Legal) (hs : Sizes d.numel tc)
    (hex : Exclusive w (jobs isa tc x o d) m0) {l : List Access} {e : Cfg} (h : Log w ⟨jobs isa tc x o d, m0⟩ l e) (a : Nat) :
    acc .write l a ≤ (if Odd4 d o a then 2 else 1) ∧ acc .read l a ≤ (if ReadBack d o a then 1 else 0) := by
  constructor
  · refine acc_le (F := fun a => if Odd4 d o a then 2 else 1) (fun p hp => ((once_jobs hl hs.split hs.addr p hp).bud).mono (fun b => ?_)) hex h a
    rw [if_neg (by omega)]
  · refine acc_le (F := fun a => if ReadBack d o a then 1 else 0) (fun p hp => ?_) hex h a
    unfold jobs at hp
    obtain ⟨ti, hti, rfl⟩ := List.mem_map.mp hp
    refine (ROnce.jobEntry hl (List.mem_range.1 hti) hs.split hs.addr).bud.mono (fun b => ?_)
    rw [if_neg (by omega)]

theorem span_in {len : Nat} {js : List (Prog Unit)} {l : List Access} {d : Cfg} (h : Log (span o len) ⟨js, m0⟩ l d) : ∀ e ∈ l, o ≤ e.addr ∧ e.addr < o + len := by
  intro e he
  have := log_in h e he
  unfold span at this
  simpa [Win.has] using this

theorem sum_le {len k : Nat} {f : Nat → Nat} (h : ∀ j, j < len → f j ≤ k) : ∑ j ∈ Finset.range len, f j ≤ k * len := by
  refine le_trans (Finset.sum_le_card_nsmul _ _ k (fun j hj => h j (Finset.mem_range.mp hj))) ?_
  rw [Finset.card_range, smul_eq_mul, Nat.mul_comm]

/-- C103 (quantize). In every schedule, at every moment: no output byte has been read and none has been
written twice, except the last byte of an odd number of uint4 codes (at most two writes and one read, after
a write). A finished call has written every byte. -/
theorem C103_quantize_traffic (h : QArgs c.threads x dtIn dtOut n) :
    ∃ js, quantize c x dtIn o (bytes dtOut.bits n) dtOut scale zp mode τ = .ok js ∧
      ∀ m0 l d, Log (span o (bytes dtOut.bits n)) ⟨js, m0⟩ l d →
        (∀ a, ¬ (dtOut = .uint4 ∧ n % 2 = 1 ∧ a = o + n / 2) → reads l a = 0 ∧ writes l a ≤ 1) ∧
        (∀ a, reads l a ≤ 1 ∧ writes l a ≤ 2) ∧ OnlyOwn l ∧
        l.length ≤ bytes dtOut.bits n + (if dtOut = .uint4 ∧ n % 2 = 1 then 2 else 0) ∧
        (d.Done → ∀ j, j < bytes dtOut.bits n → 1 ≤ writes l (o + j)) := by
  obtain ⟨js, e, g, _⟩ := quantize_any (o := o) (scale := scale) (τ := τ) (zp := zp) (mode := mode) h
  obtain ⟨js', e', gt⟩ := C01_quantize_tiles (o := o) (scale := scale) (τ := τ) (zp := zp) (mode := mode) h
  rw [e] at e'; cases e'
  refine ⟨js, e, fun m0 l d hlog => ?_⟩
  obtain ⟨ft, rfl, hst⟩ := ft_of h.inFloat
  have hx : x.size = ft.size * n := by rw [← hst]; exact h.size
  have hj := quantize_jobs (c := c) (o := o) (scale := scale) (τ := τ) (zp := zp) (mode := mode) h.outQuant h.sizes.addr hx
  rw [e] at hj
  have hj := Except.ok.inj hj
  subst hj
  have hleg := legal_quant (scale := scale) (zp := zp) (ft := ft) (mode := mode) (op := .set) (τ := τ) (fz := c.fuse) (n := n) h.outQuant
  have ht := traffic_of (x := x) (isa := c.isa) (tc := c.threads) hleg h.sizes (g m0) hlog
  have h1 : ∀ a, ¬ (dtOut = .uint4 ∧ n % 2 = 1 ∧ a = o + n / 2) → acc .read l a = 0 ∧ acc .write l a ≤ 1 := by
    intro a ha
    obtain ⟨t1, t2⟩ := ht a
    have n1 : ¬ Odd4 ⟨.quant, n, scale, zp, ft.dtype, dtOut, mode, .set, τ, c.fuse⟩ o a := fun hh => ha hh.2
    rw [if_neg n1] at t1
    rw [if_neg (fun hh => hh.elim (fun q => q.1 rfl) n1)] at t2
    exact ⟨by omega, t1⟩
  have h2 : ∀ a, acc .read l a ≤ 1 ∧ acc .write l a ≤ 2 := by
    intro a
    obtain ⟨t1, t2⟩ := ht a
    constructor
    · refine le_trans t2 ?_; split <;> omega
    · refine le_trans t1 ?_; split <;> omega
  have ho := (log_fresh (NoRd.jobs (Or.inl rfl)) hlog).2
  refine ⟨h1, h2, ho, ?_, fun hd j hj => ?_⟩
  · rw [log_length (span_in hlog)]
    split
    · rename_i hodd
      obtain ⟨rfl, hodd⟩ := hodd
      have hb : bytes DType.uint4.bits n = n / 2 + 1 := by show (4 * n + 7) / 8 = _; omega
      rw [hb, Finset.sum_range_succ]
      have s1 := sum_le (len := n / 2) (k := 1) (f := fun j => acc .read l (o + j) + acc .write l (o + j)) (fun j hj => by
        have := h1 (o + j) (fun hh => by omega)
        show acc .read l (o + j) + acc .write l (o + j) ≤ 1
        omega)
      have := h2 (o + n / 2)
      omega
    · rename_i hodd
      have s1 := sum_le (len := bytes dtOut.bits n) (k := 1) (f := fun j => acc .read l (o + j) + acc .write l (o + j)) (fun j hj => by
        have := h1 (o + j) (fun hh => hodd ⟨hh.1, hh.2.1⟩)
        show acc .read l (o + j) + acc .write l (o + j) ≤ 1
        omega)
      omega
  · obtain ⟨_, cut, _, _, _, hc⟩ := gt
    obtain ⟨t, hta⟩ := (hc m0 _ d (log_trace hlog)).2 hd j hj
    exact Verif.OnlyOwn.written ho hta

/-- `C103_quantize_traffic` applied to a concrete case. -/
example := C103_quantize_traffic (c := Ex.c1) (x := Ex.many) (dtIn := .f32) (dtOut := .uint8) (n := 70) (o := 1000) (scale := Ex.tenth) (τ := Ex.quarter)
    (zp := 64) (mode := .nearest) (h := by wit)

/-- What `traffic_of` says for calls other than quantize. -/
theorem traffic_float {isa : Isa} {tc : Nat} {d : Desc} {len : Nat} (hl : d.Legal) (hs : Sizes d.numel tc) (hq : d.type ≠ .quant)
    (hex : Exclusive (span o len) (jobs isa tc x o d) m0) {l : List Access} {e : Cfg} (h : Log (span o len) ⟨jobs isa tc x o d, m0⟩ l e) :
    (∀ a, writes l a ≤ 1) ∧ (∀ a, reads l a ≤ 1) ∧ (d.reducing = .set → ∀ a, reads l a = 0) ∧ l.length ≤ (if d.reducing = .set then len else 2 * len) := by
  have ht := traffic_of hl hs hex h
  have n1 : ∀ a, ¬ Odd4 d o a := fun a hh => hq hh.1
  have w1 : ∀ a, acc .write l a ≤ 1 := fun a => by
    have := (ht a).1
    rwa [if_neg (n1 a)] at this
  have r1 : ∀ a, acc .read l a ≤ 1 := fun a => by
    refine le_trans (ht a).2 ?_
    split <;> omega
  have r0 : d.reducing = .set → ∀ a, acc .read l a = 0 := fun hr a => by
    have := (ht a).2
    rw [if_neg (fun hh => hh.elim (fun q => by rw [hr] at q; cases q.2) (n1 a))] at this
    omega
  refine ⟨w1, r1, r0, ?_⟩
  rw [log_length (span_in h)]
  split
  · rename_i hr
    have s1 := sum_le (len := len) (k := 1) (f := fun j => acc .read l (o + j) + acc .write l (o + j)) (fun j hj => by
      have := r0 hr (o + j)
      have := w1 (o + j)
      show acc .read l (o + j) + acc .write l (o + j) ≤ 1
      omega)
    omega
  · exact sum_le (fun j hj => by
      have := r1 (o + j)
      have := w1 (o + j)
      omega)

/-- C103 (dequantize). In every schedule, at every moment: no output byte has been written twice; none has
been read at all in SET mode, none twice in ADD mode. A finished SET call has written every byte once. -/
theorem C103_dequantize_traffic (h : DArgs c.threads x dtIn dtOut n) (hr : Readable dtIn dtOut n x.size) :
    ∃ js, dequantize c x (bytes dtIn.bits n) dtIn o (dtOut.stride * n) dtOut scale zp op = .ok js ∧
      ∀ m0 l d, Log (span o (dtOut.stride * n)) ⟨js, m0⟩ l d →
        (∀ a, writes l a ≤ 1) ∧ (∀ a, reads l a ≤ 1) ∧ (op = .set → ∀ a, reads l a = 0) ∧
        l.length ≤ (if op = .set then dtOut.stride * n else 2 * (dtOut.stride * n)) ∧
        (d.Done → op = .set → ∀ j, j < dtOut.stride * n → writes l (o + j) = 1) := by
  obtain ⟨js, e, g, _⟩ := dequantize_any (o := o) (scale := scale) (zp := zp) (op := op) h hr
  obtain ⟨js', e', gt⟩ := C01_dequantize_tiles (o := o) (scale := scale) (zp := zp) (op := op) h hr
  rw [e] at e'; cases e'
  refine ⟨js, e, fun m0 l d hlog => ?_⟩
  have hbytes : bytes dtOut.bits n = dtOut.stride * n := bytes_ft' h.outFloat n
  obtain ⟨ft, rfl, hst⟩ := ft_of h.outFloat
  have hj := dequantize_jobs (c := c) (x := x) (o := o) (ft := ft) (scale := scale) (zp := zp) (op := op) h.inQuant h.sizes.addr
  rw [← hst, e] at hj
  have hj := Except.ok.inj hj
  subst hj
  have hleg := legal_dequant (scale := scale) (zp := zp) (ft := ft) (mode := .nearest) (op := op) (τ := f0) (fz := c.fuse) (n := n) h.inQuant
  obtain ⟨t1, t2, t3, t4⟩ := traffic_float (x := x) (isa := c.isa) (tc := c.threads) hleg h.sizes (fun h => by cases h) (g m0) hlog
  refine ⟨t1, t2, t3, t4, fun hd hop j hj => ?_⟩
  have ho := (log_fresh (NoRd.jobs (Or.inr hop)) hlog).2
  obtain ⟨_, cut, _, _, _, hc⟩ := gt
  obtain ⟨t, hta⟩ := (hc m0 _ d (log_trace hlog)).2 hd j (by rw [hbytes]; exact hj)
  exact le_antisymm (t1 _) (Verif.OnlyOwn.written ho hta)

/-- `C103_dequantize_traffic` applied to a concrete case. -/
example := C103_dequantize_traffic (c := Ex.c1) (x := Ex.codes) (dtIn := .uint4) (dtOut := .f32) (n := 139) (o := 1000) (scale := Ex.tenth) (zp := 7)
    (op := .add) (h := by wit) (hr := by wit)

/-- C103 (fused). -/
theorem C103_fused_traffic (h : QArgs c.threads x dtIn dtOut n) :
    ∃ js, fused c x dtIn o (dtIn.stride * n) dtOut scale zp mode op τ = .ok js ∧
      ∀ m0 l d, Log (span o (dtIn.stride * n)) ⟨js, m0⟩ l d →
        (∀ a, writes l a ≤ 1) ∧ (∀ a, reads l a ≤ 1) ∧ (op = .set → ∀ a, reads l a = 0) ∧
        l.length ≤ (if op = .set then dtIn.stride * n else 2 * (dtIn.stride * n)) ∧
        (d.Done → op = .set → ∀ j, j < dtIn.stride * n → writes l (o + j) = 1) := by
  obtain ⟨js, e, g, _⟩ := fused_any (o := o) (scale := scale) (τ := τ) (zp := zp) (mode := mode) (op := op) h
  obtain ⟨js', e', gt⟩ := C01_fused_tiles (o := o) (scale := scale) (τ := τ) (zp := zp) (mode := mode) (op := op) h
  rw [e] at e'; cases e'
  refine ⟨js, e, fun m0 l d hlog => ?_⟩
  have hbytes : bytes dtIn.bits n = dtIn.stride * n := bytes_ft' h.inFloat n
  obtain ⟨ft, rfl, hst⟩ := ft_of h.inFloat
  have hx : x.size = ft.size * n := by rw [← hst]; exact h.size
  have hj := fused_jobs (c := c) (o := o) (scale := scale) (τ := τ) (zp := zp) (mode := mode) (op := op) h.outQuant hx
  rw [← hst, e] at hj
  have hj := Except.ok.inj hj
  subst hj
  have hleg := legal_fused (scale := scale) (zp := zp) (ft := ft) (mode := mode) (op := op) (τ := τ) (fz := c.fuse) (n := n) h.outQuant
  obtain ⟨t1, t2, t3, t4⟩ := traffic_float (x := x) (isa := c.isa) (tc := c.threads) hleg h.sizes (fun h => by cases h) (g m0) hlog
  refine ⟨t1, t2, t3, t4, fun hd hop j hj => ?_⟩
  have ho := (log_fresh (NoRd.jobs (Or.inr hop)) hlog).2
  obtain ⟨_, cut, _, _, _, hc⟩ := gt
  obtain ⟨t, hta⟩ := (hc m0 _ d (log_trace hlog)).2 hd j (by rw [hbytes]; exact hj)
  exact le_antisymm (t1 _) (Verif.OnlyOwn.written ho hta)

/-- `C103_fused_traffic` applied to a concrete case. -/
example := C103_fused_traffic (c := Ex.c1) (x := Ex.many) (dtIn := .f32) (dtOut := .uint8) (n := 70) (o := 1000) (scale := Ex.tenth) (τ := Ex.quarter)
    (zp := 64) (mode := .nearest) (op := .add) (h := by wit)

end

/-- The accesses of the steps `l`, the latest first. -/
def playLog (w : Win) : List Nat → Cfg → List Access → Option (List Access × Cfg)
  | [], c, acc => some (acc, c)
  | t :: l, c, acc => match c.jobs[t]? with
    | some (.rd a k) => if w.has a then playLog w l ⟨c.jobs.set t (k (c.mem a)), c.mem⟩ (⟨t, .read, a⟩ :: acc) else none
    | some (.wr a b k) => if w.has a then playLog w l ⟨c.jobs.set t k, c.mem.set a b⟩ (⟨t, .write, a⟩ :: acc) else none
    | _ => none

theorem playLog_log {w : Win} {l : List Nat} {c0 c d : Cfg} {acc r : List Access} (h0 : Log w c0 acc c) (h : playLog w l c acc = some (r, d)) : Log w c0 r d := by
  induction l generalizing c acc with
  | nil => cases h; exact h0
  | cons t l ih =>
    unfold playLog at h
    split at h
    · rename_i a k hj
      split at h
      · rename_i ha
        exact ih (.rd h0 hj ha) h
      · cases h
    · rename_i a b k hj
      split at h
      · rename_i ha
        exact ih (.wr h0 hj ha) h
      · cases h
    · cases h

/-- The exception is real: quantizing one float to uint4 writes the byte, reads it back and writes it again. -/
theorem C103_odd_uint4_exception :
    ∃ js l d, quantize ⟨.portable, 1, .none⟩ (Ex.buf (Ex.words32 [0x3f800000])) .f32 1000 1 .uint4 f1 0 .nearest f0 = .ok js ∧
      Log (span 1000 1) ⟨js, fun _ => 0⟩ l d ∧ l = [⟨0, .write, 1000⟩, ⟨0, .read, 1000⟩, ⟨0, .write, 1000⟩] := by
  let cl := quantize ⟨.portable, 1, .none⟩ (Ex.buf (Ex.words32 [0x3f800000])) .f32 1000 1 .uint4 f1 0 .nearest f0
  have hk : (match cl with
      | .ok js => (playLog (span 1000 1) [0, 0, 0] ⟨js, fun _ => 0⟩ []).map Prod.fst
      | .error _ => none) = some [⟨0, .write, 1000⟩, ⟨0, .read, 1000⟩, ⟨0, .write, 1000⟩] := by decide +kernel
  cases hcl : cl with
  | error f => rw [hcl] at hk; cases hk
  | ok js =>
    rw [hcl] at hk
    simp only at hk
    obtain ⟨⟨r, d⟩, hp, hr⟩ := Option.map_eq_some_iff.mp hk
    exact ⟨js, r, d, hcl, playLog_log .refl hp, hr⟩

end Verif.Props

import Verif.Model.Alias
import Verif.Proofs.DequantMain

/-! # Calls whose input lies in the memory they write: proofs -/

namespace Verif
open Simd

section
variable {E : Fault → Prop} {w : Win}

/-- The element stored at `a`. -/
def rdX (ft : FT) (m : Mem) (a : Nat) : F32 := match ft with | .f32 => rdF m a | .bf16 => bf16ToF32 (rdW m a)

theorem Triple.ldMem {ft : FT} {m1 : Mem} {a : Nat} (hlo : w.lo ≤ a) (hhi : a + ft.size ≤ w.hi) :
    Triple E w (fun m => m = m1) (Verif.ldMem ft a) (fun v m => m = m1 ∧ v = rdX ft m1 a) := by
  cases ft with
  | f32 => exact Triple.ldF32 hlo hhi
  | bf16 =>
    refine Triple.bind (Triple.ldU16 hlo hhi) (fun b => Triple.ret (fun m hm => ⟨hm.1, ?_⟩))
    rw [hm.2]; rfl

theorem Triple.ldCode {m1 : Mem} {a : Nat} (hlo : w.lo ≤ a) (hhi : a < w.hi) :
    Triple E w (fun m => m = m1) (Verif.ldCode a) (fun v m => m = m1 ∧ v = m1 a % 256) := by
  unfold Verif.ldCode
  refine Triple.bind (Q := fun b m => m = m1 ∧ b = m1 a) (Triple.rdB ?_ (fun m hm => ⟨hm, by rw [hm]⟩))
    (fun b => Triple.ret (fun m hm => ⟨hm.1, by rw [hm.2]⟩))
  unfold Win.has
  rw [Bool.and_eq_true]
  exact ⟨decide_eq_true hlo, decide_eq_true hhi⟩

theorem Triple.ldBlock {α : Type} {ld : Nat → Prog α} {r : Mem → Nat → α} {m1 : Mem} {n k : Nat}
    (hld : ∀ i, i < n → Triple E w (fun m => m = m1) (ld i) (fun v m => m = m1 ∧ v = r m1 i)) : ∀ {i : Nat}, i + k ≤ n →
    Triple E w (fun m => m = m1) (Verif.ldBlock ld i k) (fun vs m => m = m1 ∧ vs = (List.range' i k).map (r m1)) := by
  induction k with
  | zero => intro i _; exact Triple.ret (fun m hm => ⟨hm, rfl⟩)
  | succ k ih =>
    intro i hi
    refine Triple.bind (hld i (by omega)) (fun v => ?_)
    refine Triple.pre (P' := fun m => m = m1 ∧ v = r m1 i) ?_ (fun _ h => h)
    refine Triple.pull (fun hv => ?_)
    refine Triple.bind (ih (i := i + 1) (by omega)) (fun vs => Triple.ret (fun m hm => ⟨hm.1, ?_⟩))
    rw [hm.2, hv, List.range'_succ, List.map_cons]

theorem Triple.stBlock {α : Type} {I : Nat → Mem → Prop} {each : Nat → α → Prog Unit} {g : Nat → α} {n k : Nat}
    (heach : ∀ i, i < n → Triple E w (I i) (each i (g i)) (fun _ => I (i + 1))) : ∀ {i : Nat}, i + k ≤ n →
    Triple E w (I i) (Verif.stBlock each i ((List.range' i k).map g)) (fun _ => I (i + k)) := by
  induction k with
  | zero => intro i _; exact Triple.ret (fun m hm => hm)
  | succ k ih =>
    intro i hi
    rw [List.range'_succ, List.map_cons]
    refine Triple.bind (heach i (by omega)) (fun _ => ?_)
    have := ih (i := i + 1) (by omega)
    rw [show i + 1 + k = i + (k + 1) by omega] at this
    exact this

/-- The loop over a memory-resident input, if no element is overwritten before it has been loaded. -/
theorem Triple.mapLd {α : Type} {I : Nat → Mem → Prop} {ld : Nat → Prog α} {r : Mem → Nat → α} {each : Nat → α → Prog Unit} {g : Nat → α}
    {bw n : Nat} (hld : ∀ m1 i, i < n → Triple E w (fun m => m = m1) (ld i) (fun v m => m = m1 ∧ v = r m1 i))
    (hsee : ∀ i k m, I i m → i ≤ k → k < n → r m k = g k)
    (heach : ∀ i, i < n → Triple E w (I i) (each i (g i)) (fun _ => I (i + 1))) :
    Triple E w (I 0) (Verif.mapLd bw ld each n) (fun _ => I n) := by
  unfold Verif.mapLd
  refine Triple.bind (Q := fun i' m => I i' m ∧ i' ≤ n) ?_ (fun i' => ?_)
  · by_cases hw : 0 < bw
    · refine ((Triple.forI (I := fun i m => I i m ∧ i ≤ n) (N := n) hw (fun i h => ?_) (by omega) ?_).pre
        (fun m h => ⟨h, Nat.zero_le _⟩)).weaken (fun i m h => h.1)
      · rw [Bool.and_eq_true] at h
        have := of_decide_eq_true h.2
        omega
      · intro i h
        rw [Bool.and_eq_true] at h
        have hib : i + bw ≤ n := of_decide_eq_true h.2
        refine Triple.perMem (fun m hm => ?_)
        refine Triple.bind (Triple.ldBlock (m1 := m) (hld m) hib) (fun vs => ?_)
        refine Triple.pre (P' := fun m' => m' = m ∧ vs = (List.range' i bw).map g) ?_ (fun m' h => ⟨h.1, ?_⟩)
        · refine Triple.pull (fun hvs => ?_)
          rw [hvs]
          refine ((Triple.stBlock heach hib).pre (fun m' h => ?_)).weaken (fun _ m' h => ⟨h, hib⟩)
          rw [h]; exact hm.1
        · rw [h.2]
          refine List.map_congr_left (fun k hk => ?_)
          rw [List.mem_range'_1] at hk
          exact hsee i k m hm.1 hk.1 (by omega)
    · have hb0 : bw = 0 := by omega
      subst hb0
      have e : Verif.forI (fun i => decide (0 < 0) && decide (i + 0 ≤ n)) 0 (fun i => (Verif.ldBlock ld i 0).bind (Verif.stBlock each i)) n 0 = .ret 0 := by
        cases n <;> rfl
      refine Triple.pre (P' := I 0) ?_ (fun _ h => h)
      show Triple E w (I 0) (Verif.forI (fun i => decide (0 < 0) && decide (i + 0 ≤ n)) 0 (fun i => (Verif.ldBlock ld i 0).bind (Verif.stBlock each i)) n 0) _
      rw [e]
      exact Triple.ret (fun m h => ⟨h, Nat.zero_le _⟩)
  · refine Triple.bind (Triple.forI (I := fun i m => I i m ∧ i ≤ n) (N := n) (by omega) (fun i h => of_decide_eq_true h)
      (by omega) ?_) (fun j => Triple.ret (fun m h => ?_))
    · intro i h
      have h' : i < n := of_decide_eq_true h
      refine Triple.perMem (fun m hm => ?_)
      refine Triple.bind (hld m i h') (fun v => ?_)
      refine Triple.pre (P' := fun m' => m' = m ∧ v = g i) ?_ (fun m' h => ⟨h.1, ?_⟩)
      · refine Triple.pull (fun hv => ?_)
        rw [hv]
        refine ((heach i h').pre (fun m' h => ?_)).weaken (fun _ m' h => ⟨h, h'⟩)
        rw [h]; exact hm.1
      · rw [h.2]; exact hsee i i m hm.1 (Nat.le_refl _) h'
    · have : ¬ j < n := of_decide_eq_false h.2.1
      have : j = n := by omega
      rw [← this]; exact h.1.1

theorem Triple.mapMem {I : Nat → Mem → Prop} {each : Nat → F32 → Prog Unit} {g : Nat → F32} {bw n xa : Nat} {ft : FT}
    (hlo : w.lo ≤ xa) (hhi : xa + ft.size * n ≤ w.hi)
    (hsee : ∀ i k m, I i m → i ≤ k → k < n → rdX ft m (xa + ft.size * k) = g k)
    (heach : ∀ i, i < n → Triple E w (I i) (each i (g i)) (fun _ => I (i + 1))) :
    Triple E w (I 0) (Verif.mapMem bw ft each xa n) (fun _ => I n) := by
  refine Triple.mapLd (r := fun m i => rdX ft m (xa + ft.size * i)) (fun m1 i hi => ?_) hsee heach
  have h1 : ft.size * (i + 1) ≤ ft.size * n := Nat.mul_le_mul_left _ hi
  have e1 : ft.size * (i + 1) = ft.size * i + ft.size := Nat.mul_succ _ _
  exact Triple.ldMem (by omega) (by omega)

theorem rdX_congr {ft : FT} {m m' : Mem} {a : Nat} (h : ∀ k, k < ft.size → m (a + k) = m' (a + k)) : rdX ft m a = rdX ft m' a := by
  cases ft
  · exact rdF_congr h
  · unfold rdX; rw [rdW_congr h]

/-- Elements not yet overwritten. -/
theorem InvE.see {ft : FT} {m0 m : Mem} {o xa osz n i k : Nat} {R : Nat → Nat → Prop} (h : InvE m0 o osz R i m) (hosz : osz ≤ ft.size)
    (hov : o ≤ xa ∨ xa + ft.size * n ≤ o) (hik : i ≤ k) (hkn : k < n) : rdX ft m (xa + ft.size * k) = rdX ft m0 (xa + ft.size * k) := by
  refine rdX_congr (fun j hj => h.1 _ ?_)
  have h1 : osz * i ≤ ft.size * k := Nat.mul_le_mul hosz hik
  have h2 : ft.size * (k + 1) ≤ ft.size * n := Nat.mul_le_mul_left _ hkn
  have e : ft.size * (k + 1) = ft.size * k + ft.size := Nat.mul_succ _ _
  rcases hov with hov | hov <;> omega

end

section
variable {E : Fault → Prop} {w : Win} {o xa n bw : Nat} {m0 : Mem} {ft : FT} {dt : DType} {fz : Fuse} {mode : RoundMode}
  {scale τ : F32} {zp : ℤ} {op : ReduceOp}

theorem requantEach_triple {R : Nat → Nat → Prop} {i : Nat} {v : F32} (hlo : w.lo ≤ o) (hhi : o + ft.size * (i + 1) ≤ w.hi)
    (hs : StepOk E (qStep mode dt.qmax v τ (invScale scale) zp)) (hs2 : ∀ q : Nat, q ≤ dt.qmax → E .ub ∨ inI64 (q - zp))
    (hR : ∀ u, FusedElem fz.gen ft dt mode op scale τ zp m0 o i v u → R i u) :
    Triple E w (InvE m0 o ft.size R i) (requantEach fz ft dt mode op o scale τ zp i v) (fun _ => InvE m0 o ft.size R (i + 1)) := by
  unfold requantEach
  refine Triple.step hs (fun q hq => ?_)
  have hqle : q ≤ dt.qmax := by
    have : (∃ q', q' ≤ dt.qmax ∧ qStep mode dt.qmax v τ (invScale scale) zp = .ret q') ∨
        qStep mode dt.qmax v τ (invScale scale) zp = .fail .ub := by
      cases mode
      · exact qNearest64_cases _ _ _ _
      · exact qStoch64_cases _ _ _ _ _
    rcases this with ⟨q', h1, h2⟩ | h2
    · rw [hq] at h2; cases h2; exact h1
    · rw [hq] at h2; cases h2
  cases ft with
  | f32 =>
    simp only [dqStepF32, Prog.bind_eq, Prog.bind_assoc, Prog.pure_eq, Prog.ret_bind]
    refine Triple.subIBind (hs2 q hqle) (fun hc => Triple.putF32 (R := R) (m0 := m0) rfl hlo (by simp only [FT.size] at *; omega) (hR _ ?_))
    refine ⟨q, hq, Term.prod fz.gen (Flt.ofInt f32 (q - zp)) scale, ?_, rfl⟩
    unfold dqStepF32 subI; rw [if_pos hc]; rfl
  | bf16 =>
    simp only [dqStepBf16, Prog.bind_eq, Prog.bind_assoc, Prog.pure_eq, Prog.ret_bind]
    refine Triple.subIBind (hs2 q hqle) (fun hc => Triple.putBf16 (R := R) (m0 := m0) rfl hlo (by simp only [FT.size] at *; omega) (hR _ ?_))
    refine ⟨q, hq, bf16Mul (f32ToBf16 (Flt.ofInt f32 (q - zp))) (f32ToBf16 scale), ?_, rfl⟩
    unfold dqStepBf16 subI; rw [if_pos hc]; rfl

theorem requantMem_triple {R : Nat → Nat → Prop} (hx : w.lo ≤ xa) (hx' : xa + ft.size * n ≤ w.hi) (hlo : w.lo ≤ o) (hhi : o + ft.size * n ≤ w.hi)
    (hov : o ≤ xa ∨ xa + ft.size * n ≤ o)
    (hs : ∀ i, i < n → StepOk E (qStep mode dt.qmax (rdX ft m0 (xa + ft.size * i)) τ (invScale scale) zp))
    (hs2 : ∀ q : Nat, q ≤ dt.qmax → E .ub ∨ inI64 (q - zp))
    (hR : ∀ i u, i < n → FusedElem fz.gen ft dt mode op scale τ zp m0 o i (rdX ft m0 (xa + ft.size * i)) u → R i u) :
    Triple E w (InvE m0 o ft.size R 0) (requantMem bw fz ft dt mode op xa o n scale τ zp) (fun _ => InvE m0 o ft.size R n) := by
  refine Triple.mapMem (g := fun i => rdX ft m0 (xa + ft.size * i)) hx hx' (fun i k m h hik hkn => h.see (Nat.le_refl _) hov hik hkn)
    (fun i hi => requantEach_triple hlo ?_ (hs i hi) hs2 (fun u => hR i u hi))
  have : ft.size * (i + 1) ≤ ft.size * n := Nat.mul_le_mul_left _ hi
  omega

/-! ## Several workers -/

variable {d : Desc} {body : Nat → Nat → Prog Unit} {Ok : Nat → Mem → Prop}

theorem splitJobs_length {threads : Nat} : (splitJobs threads d body).length = threads := by simp [splitJobs]

theorem splitJobs_get {threads t : Nat} {p : Prog Unit} (h : (splitJobs threads d body)[t]? = some p) : t < threads ∧
    p = match partitionRow d t threads with
      | .error f => .fail f
      | .ok none => pure ()
      | .ok (some (b, n)) => body b n := by
  unfold splitJobs at h
  rw [List.getElem?_map] at h
  by_cases ht : t < threads
  · rw [List.getElem?_range ht] at h
    simp only [Option.map_some, Option.some.injEq] at h
    exact ⟨ht, h.symm⟩
  · rw [List.getElem?_eq_none (by simpa using ht)] at h
    cases h

/-- As `call_main`, for workers given by their slice. -/
theorem split_main {tc : Nat} (hE : ¬ E .oobRead ∧ ¬ E .oobWrite) (hl : d.Legal) (htc : 0 < tc)
    (hn : d.numel * tc < 2 ^ 63) (hloc : Local o d.outBits Ok)
    (hw : ∀ b e, b < e → e ≤ d.numel → 8 ∣ d.outBits * b →
      Triple E (sliceWin o d.outBits b e) (fun m => m = m0) (body b (e - b))
        (fun _ m => ∀ j, o + d.outBits * b / 8 ≤ o + j → o + j < o + (d.outBits * e + 7) / 8 → Ok j m)) :
    AllSchedules E ⟨o, o + (d.outBits * d.numel + 7) / 8⟩ (splitJobs tc d body) m0 (fun m =>
      (∀ j, j < (d.outBits * d.numel + 7) / 8 → Ok j m) ∧
      (∀ a, (a < o ∨ o + (d.outBits * d.numel + 7) / 8 ≤ a) → m a = m0 a)) := by
  have hjob : ∀ (t : Nat) (p : Prog Unit), (splitJobs tc d body)[t]? = some p → Triple E (workerWin o d tc t) (fun m => m = m0) p
      (fun _ m => ∀ j, (workerWin o d tc t).has (o + j) = true → Ok j m) := by
    intro t p hp
    obtain ⟨ht, rfl⟩ := splitJobs_get hp
    rw [partitionRow_eq ht hn]
    by_cases h : cut (packElems (packedBits d)) d.numel tc t < cut (packElems (packedBits d)) d.numel tc (t + 1)
    · rw [if_neg (by omega)]
      have hb := aligned_bits hl (cut_dvd (pe := packElems (packedBits d)) (n := d.numel) (tc := tc) (ti := t) (by omega))
      have := hw _ _ h (cut_le (by omega)) hb.2
      have ew : workerWin o d tc t = sliceWin o d.outBits (cut (packElems (packedBits d)) d.numel tc t)
          (cut (packElems (packedBits d)) d.numel tc (t + 1)) := by unfold workerWin; simp [h]
      rw [ew]
      refine this.weaken (fun _ m hm j hj => ?_)
      rw [sliceWin_has] at hj
      exact hm j hj.1 hj.2
    · rw [if_pos (by omega)]
      refine Triple.ret (fun m hm j hj => ?_)
      rw [workerWin_has] at hj
      exact absurd hj.1 h
  have hsub : ∀ t a, t < (splitJobs tc d body).length → (workerWin o d tc t).has a = true →
      (⟨o, o + (d.outBits * d.numel + 7) / 8⟩ : Win).has a = true := by
    intro t a ht h
    rw [splitJobs_length] at ht
    exact workerWin_sub ht h
  have hdisj : ∀ s t a, s < (splitJobs tc d body).length → t < (splitJobs tc d body).length → s ≠ t →
      (workerWin o d tc s).has a = true → (workerWin o d tc t).has a = false := by
    intro s t a hs ht hst h1
    rw [splitJobs_length] at hs ht
    by_contra h2
    have h2 : (workerWin o d tc t).has a = true := by simpa using h2
    rcases Nat.lt_or_gt_of_ne hst with h | h
    · exact workerWin_disj hl h ht h1 h2
    · exact workerWin_disj hl h hs h2 h1
  have hrun : ∀ (t : Nat) (p : Prog Unit) (f : Fault), (splitJobs tc d body)[t]? = some p →
      p.run (workerWin o d tc t) m0 = .error f → E f := by
    intro t p f hp hr
    have := Triple.iff.mp (hjob t p hp) m0 rfl
    rw [hr] at this
    exact this
  have hmain := sched_main hE hsub hdisj hrun
  refine ⟨hmain.safe, hmain.raceFree, hmain.progress, hmain.bounded, fun n c hr hd => ?_⟩
  obtain ⟨h1, h2⟩ := hmain.post n c hr hd
  refine ⟨fun j hj => ?_, fun a ha => ?_⟩
  · obtain ⟨t, ht, hwin⟩ := workerWin_cover (o := o) htc hj
    have hlt : t < (splitJobs tc d body).length := by rw [splitJobs_length]; exact ht
    have hp : (splitJobs tc d body)[t]? = some (splitJobs tc d body)[t] := List.getElem?_eq_getElem hlt
    obtain ⟨r, hr1, hr2⟩ := h1 t _ hp
    have hj' := Triple.iff.mp (hjob t _ hp) m0 rfl
    rw [hr1] at hj'
    have hb := aligned_bits hl (cut_dvd (pe := packElems (packedBits d)) (n := d.numel) (tc := tc) (ti := t) (by omega))
    have hwin' := workerWin_has.mp hwin
    refine hloc _ _ j r _ hwin'.2.1 hwin'.2.2 hb.2 (fun a h1 h2 => hr2 a ?_) (hj' j hwin)
    rw [workerWin_has]; exact ⟨hwin'.1, h1, h2⟩
  · refine h2 a (fun t ht => ?_)
    by_contra hc
    have := hsub t a ht (by simpa using hc)
    simp [Win.has] at this
    omega

/-- One worker. -/
theorem single_main {p : Prog Unit} {Q : Mem → Prop} (hE : ¬ E .oobRead ∧ ¬ E .oobWrite) (h : Triple E w (fun m => m = m0) p (fun _ => Q)) :
    AllSchedules E w [p] m0 (fun m => ∃ r, Q r ∧ (∀ a, w.has a = true → m a = r a) ∧ ∀ a, w.has a = false → m a = m0 a) := by
  have hmain := sched_main (E := E) (w := w) (m0 := m0) (jobs := [p]) (wins := fun _ => w) hE (fun _ _ _ h => h)
    (fun s t a hs ht hst _ => by simp at hs ht; omega) (fun t q f hq hr => by
      cases t with
      | zero =>
        simp at hq; subst hq
        have := Triple.iff.mp h m0 rfl
        rw [hr] at this; exact this
      | succ t => simp at hq)
  refine ⟨hmain.safe, hmain.raceFree, hmain.progress, hmain.bounded, fun n c hr hd => ?_⟩
  obtain ⟨h1, h2⟩ := hmain.post n c hr hd
  obtain ⟨r, hr1, hr2⟩ := h1 0 p rfl
  have := Triple.iff.mp h m0 rfl
  rw [hr1] at this
  exact ⟨r, this, hr2, fun a ha => h2 a (fun _ _ => ha)⟩

/-- A worker can run to its end while the others wait. -/
theorem run_reach (p : Prog Unit) : ∀ {js : List (Prog Unit)} {t : Nat} {m m' : Mem}, js[t]? = some p → p.run w m = .ok ((), m') →
    ∃ k, Reach w ⟨js, m⟩ k ⟨js.set t (.ret ()), m'⟩ := by
  have app : ∀ {a b c : Cfg} {k l : Nat}, Reach w a k b → Reach w b l c → Reach w a (k + l) c := by
    intro a b c k l h1 h2
    induction h2 with
    | refl => exact h1
    | tail _ s ih => exact .tail ih s
  induction p with
  | ret a =>
    intro js t m m' hp h
    cases h
    refine ⟨0, ?_⟩
    have : js.set t (.ret ()) = js := by
      obtain ⟨hlt, e⟩ := List.getElem?_eq_some_iff.mp hp
      rw [← e]; exact List.set_getElem_self hlt
    rw [this]; exact .refl
  | fail f => intro js t m m' hp h; cases h
  | rd a k ih =>
    intro js t m m' hp h
    unfold Prog.run at h
    split at h
    · rename_i ha
      have hlt := lt_of_getElem? hp
      obtain ⟨n, hn⟩ := ih (m a) (js := js.set t (k (m a))) (by rw [List.getElem?_set_self hlt]) h
      rw [List.set_set] at hn
      exact ⟨_, app (.tail .refl (.rd hp ha)) hn⟩
    · cases h
  | wr a b k ih =>
    intro js t m m' hp h
    unfold Prog.run at h
    split at h
    · rename_i ha
      have hlt := lt_of_getElem? hp
      obtain ⟨n, hn⟩ := ih (js := js.set t k) (by rw [List.getElem?_set_self hlt]) h
      rw [List.set_set] at hn
      exact ⟨_, app (.tail .refl (.wr hp ha)) hn⟩
    · cases h

/-- Two workers, the second one first. -/
theorem second_first {p q : Prog Unit} {m1 m2 : Mem} (h1 : q.run w m0 = .ok ((), m1)) (h2 : p.run w m1 = .ok ((), m2)) :
    ∃ k, Reach w ⟨[p, q], m0⟩ k ⟨[.ret (), .ret ()], m2⟩ := by
  obtain ⟨k, hk⟩ := run_reach q (js := [p, q]) (t := 1) rfl h1
  obtain ⟨l, hl⟩ := run_reach p (js := [p, .ret ()]) (t := 0) rfl h2
  have app : ∀ {a b c : Cfg} {k l : Nat}, Reach w a k b → Reach w b l c → Reach w a (k + l) c := by
    intro a b c k l h1 h2
    induction h2 with
    | refl => exact h1
    | tail _ s ih => exact .tail ih s
  exact ⟨_, app hk hl⟩

theorem quantU8Each_triple {R : Nat → Nat → Prop} {i : Nat} {v : F32} (hlo : w.lo ≤ o) (hhi : o + i < w.hi)
    (hs : StepOk E (qStep mode 255 v τ (invScale scale) zp)) (hR : ∀ q, qStep mode 255 v τ (invScale scale) zp = .ret q → R i q) :
    Triple E w (InvE m0 o 1 R i) (do let q ← qStep mode 255 v τ (invScale scale) zp; wrB (o + i) q) (fun _ => InvE m0 o 1 R (i + 1)) := by
  refine Triple.step hs (fun q hq => Triple.wrB ?_ (fun m hm => ?_))
  · unfold Win.has
    rw [Bool.and_eq_true]
    exact ⟨decide_eq_true (by omega), decide_eq_true (by omega)⟩
  · have hle : q ≤ 255 := by
      have : (∃ q', q' ≤ 255 ∧ qStep mode 255 v τ (invScale scale) zp = .ret q') ∨ qStep mode 255 v τ (invScale scale) zp = .fail .ub := by
        cases mode
        · exact qNearest64_cases _ _ _ _
        · exact qStoch64_cases _ _ _ _ _
      rcases this with ⟨q', h1, h2⟩ | h2
      · rw [hq] at h2; cases h2; exact h1
      · rw [hq] at h2; cases h2
    have := hm.upd (by omega) (cnt := 1) (v := fun _ => q) (fun k hk => by
      have : k = 0 := by omega
      subst this; exact hR q hq)
    have e : upd m (o + 1 * i) 1 1 (fun _ => q) = m.set (o + i) q := by
      funext a
      unfold upd Mem.set
      by_cases ha : a = o + i
      · rw [if_pos (by omega), if_pos ha]
        have : (a - (o + 1 * i)) % 1 = 0 := Nat.mod_one _
        rw [this]; show q / 256 ^ 0 % 256 = q; rw [Nat.pow_zero, Nat.div_one]; omega
      · rw [if_neg (by omega), if_neg ha]
    rw [e] at this
    exact this

theorem quantU8Mem_triple {R : Nat → Nat → Prop} (hx : w.lo ≤ xa) (hx' : xa + ft.size * n ≤ w.hi) (hlo : w.lo ≤ o) (hhi : o + n ≤ w.hi)
    (hov : o ≤ xa ∨ xa + ft.size * n ≤ o)
    (hs : ∀ i, i < n → StepOk E (qStep mode 255 (rdX ft m0 (xa + ft.size * i)) τ (invScale scale) zp))
    (hR : ∀ i q, i < n → qStep mode 255 (rdX ft m0 (xa + ft.size * i)) τ (invScale scale) zp = .ret q → R i q) :
    Triple E w (InvE m0 o 1 R 0) (quantU8Mem bw ft mode xa o n scale τ zp) (fun _ => InvE m0 o 1 R n) :=
  Triple.mapMem (g := fun i => rdX ft m0 (xa + ft.size * i)) hx hx'
    (fun i k m h hik hkn => h.see (by cases ft <;> decide) hov hik hkn)
    (fun i hi => quantU8Each_triple hlo (by omega) (hs i hi) (fun q => hR i q hi))

/-- Encoding of the value of code `q` that a dequantize call stores with `reduce_op::set`. -/
def setEnc (ft : FT) (scale : F32) (zp : ℤ) (q : Nat) : Nat :=
  match ft with
  | .f32 => (dqMul scale (wrap32 zp) q).toBits
  | .bf16 => f32ToBf16 (dqMul scale (wrap32 zp) q)

theorem dequantU8Each_triple {R : Nat → Nat → Prop} {i q : Nat} (hlo : w.lo ≤ o) (hhi : o + ft.size * (i + 1) ≤ w.hi)
    (hs : E .ub ∨ inI32 (q - wrap32 zp)) (hR : R i (setEnc ft scale zp q)) :
    Triple E w (InvE m0 o ft.size R i) (match ft with
      | .f32 => putDq32 fz.scal .set o scale (wrap32 zp) i q
      | .bf16 => putDq32b .set o scale (wrap32 zp) i q) (fun _ => InvE m0 o ft.size R (i + 1)) := by
  cases ft
  · exact putDq32_triple hs hlo hhi hR
  · exact putDq32b_triple hs hlo hhi hR

theorem dequantU8Mem_triple {R : Nat → Nat → Prop} (hx : w.lo ≤ xa) (hx' : xa + n ≤ w.hi) (hlo : w.lo ≤ o) (hhi : o + ft.size * n ≤ w.hi)
    (hov : o + (ft.size - 1) * n ≤ xa ∨ xa + n ≤ o) (hs : ∀ q : Nat, q < 256 → E .ub ∨ inI32 (q - wrap32 zp))
    (hR : ∀ i, i < n → R i (setEnc ft scale zp (m0 (xa + i) % 256))) :
    Triple E w (InvE m0 o ft.size R 0) (dequantU8Mem bw fz ft xa o n scale zp) (fun _ => InvE m0 o ft.size R n) := by
  refine Triple.mapLd (r := fun m i => m (xa + i) % 256) (g := fun i => m0 (xa + i) % 256)
    (fun m1 i hi => Triple.ldCode (by omega) (by omega)) (fun i k m h hik hkn => ?_) (fun i hi => ?_)
  · refine congrArg (· % 256) (h.1 _ ?_)
    cases ft <;> simp only [FT.size] at * <;> omega
  · have hlt : m0 (xa + i) % 256 < 256 := Nat.mod_lt _ (by omega)
    have h1 : ft.size * (i + 1) ≤ ft.size * n := Nat.mul_le_mul_left _ hi
    cases ft
    · exact putDq32_triple (hs _ hlt) hlo (by simp only [FT.size] at *; omega) (hR i hi)
    · exact putDq32b_triple (hs _ hlt) hlo (by simp only [FT.size] at *; omega) (hR i hi)

end
end Verif

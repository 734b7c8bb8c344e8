import Verif.Model.Context
import Verif.Proofs.Prog
import Verif.Proofs.Sched
import Mathlib.Tactic.Ring
import Mathlib.Tactic.Linarith

/-! # The work split, and lifting worker results to whole calls -/

namespace Verif

/-- First element of worker `ti`. -/
def cut (pe n tc ti : Nat) : Nat := if ti = tc then n else n * ti / tc - n * ti / tc % pe

theorem cut_zero {pe n tc : Nat} (h : 0 < tc) : cut pe n tc 0 = 0 := by
  unfold cut; rw [if_neg (by omega)]; simp

theorem cut_last {pe n tc : Nat} : cut pe n tc tc = n := by simp [cut]

theorem cut_mono {pe n tc ti : Nat} (h : ti < tc) : cut pe n tc ti ≤ cut pe n tc (ti + 1) := by
  unfold cut
  rw [if_neg (by omega)]
  have h1 : n * ti / tc ≤ n * (ti + 1) / tc := Nat.div_le_div_right (Nat.mul_le_mul_left _ (by omega))
  split
  · rename_i he
    have : n * (ti + 1) / tc = n := by rw [he]; exact Nat.mul_div_cancel _ (by omega)
    omega
  · have e1 := Nat.div_add_mod (n * ti / tc) pe
    have e2 := Nat.div_add_mod (n * (ti + 1) / tc) pe
    have : pe * (n * ti / tc / pe) ≤ pe * (n * (ti + 1) / tc / pe) :=
      Nat.mul_le_mul_left _ (Nat.div_le_div_right h1)
    omega

theorem cut_le {pe n tc ti : Nat} (h : ti ≤ tc) : cut pe n tc ti ≤ n := by
  obtain ⟨k, rfl⟩ := Nat.exists_eq_add_of_le h
  induction k generalizing ti with
  | zero => simp [cut]
  | succ k ih =>
    have := @ih (ti + 1) (by omega)
    have h2 := cut_mono (pe := pe) (n := n) (tc := ti + (k + 1)) (ti := ti) (by omega)
    rw [show ti + 1 + k = ti + (k + 1) by omega] at this
    omega

theorem cut_mono' {pe n tc s t : Nat} (hst : s ≤ t) (h : t ≤ tc) : cut pe n tc s ≤ cut pe n tc t := by
  obtain ⟨k, rfl⟩ := Nat.exists_eq_add_of_le hst
  induction k with
  | zero => exact Nat.le_refl _
  | succ k ih => exact Nat.le_trans (ih (by omega) (by omega)) (cut_mono (by omega))

theorem cut_dvd {pe n tc ti : Nat} (h : ti ≠ tc) : pe ∣ cut pe n tc ti := by
  unfold cut; rw [if_neg h]; exact Nat.dvd_sub_mod _

theorem cut_find {pe n tc e : Nat} (htc : 0 < tc) (he : e < n) :
    ∃ ti, ti < tc ∧ cut pe n tc ti ≤ e ∧ e < cut pe n tc (ti + 1) := by
  have : ∀ k, k ≤ tc → e < cut pe n tc k → ∃ ti, ti < tc ∧ cut pe n tc ti ≤ e ∧ e < cut pe n tc (ti + 1) := by
    intro k
    induction k with
    | zero => intro _ h; rw [cut_zero htc] at h; omega
    | succ k ih =>
      intro hk h
      by_cases h' : e < cut pe n tc k
      · exact ih (by omega) h'
      · exact ⟨k, by omega, by omega, h⟩
  exact this tc (Nat.le_refl _) (by rw [cut_last]; exact he)

theorem packElems_pos (bits : Nat) (h : 0 < bits) : 0 < packElems bits := by
  unfold packElems; split
  · exact Nat.div_pos (by omega) h
  · omega

theorem partitionRow_eq {d : Desc} {ti tc : Nat} (htc : ti < tc)
    (hn : d.numel * tc < 2 ^ 63) :
    partitionRow d ti tc =
      if cut (packElems (packedBits d)) d.numel tc ti ≥ cut (packElems (packedBits d)) d.numel tc (ti + 1) then .ok none
      else .ok (some (cut (packElems (packedBits d)) d.numel tc ti,
        cut (packElems (packedBits d)) d.numel tc (ti + 1) - cut (packElems (packedBits d)) d.numel tc ti)) := by
  generalize hpe : packElems (packedBits d) = pe
  have hov : d.numel * (ti + 1) < 2 ^ 63 := lt_of_le_of_lt (Nat.mul_le_mul_left _ (by omega)) hn
  have hm : max 1 tc = tc := by omega
  have hb : (if pe = 1 then d.numel * ti / tc else alignDown pe (d.numel * ti / tc)) = cut pe d.numel tc ti := by
    unfold cut alignDown
    rw [if_neg (by omega : ti ≠ tc)]
    by_cases h : pe = 1 <;> simp [h, Nat.mod_one]
  have he : (if ti + 1 = tc ∨ pe = 1 then d.numel * (ti + 1) / tc else alignDown pe (d.numel * (ti + 1) / tc))
      = cut pe d.numel tc (ti + 1) := by
    unfold cut alignDown
    by_cases h1 : ti + 1 = tc
    · rw [if_pos (Or.inl h1), if_pos h1, h1]; exact Nat.mul_div_cancel _ (by omega)
    · by_cases h2 : pe = 1
      · rw [if_pos (Or.inr h2), if_neg h1, h2, Nat.mod_one, Nat.sub_zero]
      · rw [if_neg (by tauto), if_neg h1, if_neg h2]
  unfold partitionRow
  simp only [hpe, hm, hb, he, not_not.mpr hov, if_false]

/-- Bits per element of the output as addressed by the job entry. -/
def Desc.outBits (d : Desc) : Nat := if d.type = .quantDequant then d.dtIn.bits else d.dtOut.bits

theorem byteOff_eq {bits b : Nat} (h : bits * b < 2 ^ 64) : byteOff bits b = bits * b / 8 := by
  unfold byteOff; rw [Nat.mod_eq_of_lt h]

theorem bits_pos (dt : DType) : 0 < dt.bits := by cases dt <;> decide
theorem bits_le (dt : DType) : dt.bits ≤ 32 := by cases dt <;> decide

theorem outBits_pos (d : Desc) : 0 < d.outBits := by unfold Desc.outBits; split <;> exact bits_pos _
theorem outBits_le (d : Desc) : d.outBits ≤ 32 := by unfold Desc.outBits; split <;> exact bits_le _

/-- A legal dtype pair of a command. -/
def Desc.Legal (d : Desc) : Prop :=
  match d.type with
  | .quant => d.dtIn.isQuant = false ∧ d.dtOut.isQuant = true
  | .dequant => d.dtIn.isQuant = true ∧ d.dtOut.isQuant = false
  | .quantDequant => d.dtIn.isQuant = false ∧ d.dtOut.isQuant = true

/-- Slices start at byte boundaries of both the input and the output. -/
theorem aligned_bits {d : Desc} (hl : d.Legal) {b : Nat} (hb : packElems (packedBits d) ∣ b) :
    8 ∣ d.dtIn.bits * b ∧ 8 ∣ d.outBits * b := by
  obtain ⟨ty, n, sc, zp, di, do', r, op, τ⟩ := d
  unfold Desc.Legal at hl
  unfold packedBits packElems at hb
  unfold Desc.outBits
  cases ty <;> cases di <;> cases do' <;> simp [DType.isQuant, DType.bits] at hl hb ⊢ <;> omega

section
variable {E : Fault → Prop} {isa : Isa} {x : InBuf} {o : Nat} {d : Desc} {m0 : Mem} {Ok : Nat → Mem → Prop}

/-- The byte window of the output slice `[b, e)`. -/
def sliceWin (o bits b e : Nat) : Win := ⟨o + bits * b / 8, o + (bits * e + 7) / 8⟩

/-- The windows of the workers. -/
def workerWin (o : Nat) (d : Desc) (tc ti : Nat) : Win :=
  let pe := packElems (packedBits d)
  let b := cut pe d.numel tc ti
  let e := cut pe d.numel tc (ti + 1)
  if b < e then sliceWin o d.outBits b e else ⟨0, 0⟩

theorem jobs_length {threads : Nat} : (jobs isa threads x o d).length = threads := by simp [jobs]

theorem jobs_get {threads t : Nat} {p : Prog Unit} (h : (jobs isa threads x o d)[t]? = some p) :
    t < threads ∧ p = jobEntry isa x o d t threads := by
  unfold jobs at h
  rw [List.getElem?_map] at h
  by_cases ht : t < threads
  · rw [List.getElem?_range ht] at h
    simp at h
    exact ⟨ht, h.symm⟩
  · rw [List.getElem?_eq_none (by simpa using ht)] at h
    simp at h

/-- The job of a worker, in closed form. -/
theorem jobEntry_eq {ti tc : Nat} (htc : ti < tc) (hn : d.numel * tc < 2 ^ 63) (hn' : d.numel < 2 ^ 59) :
    jobEntry isa x o d ti tc =
      if cut (packElems (packedBits d)) d.numel tc ti < cut (packElems (packedBits d)) d.numel tc (ti + 1) then
        quantizeDispatch isa x (d.dtIn.bits * cut (packElems (packedBits d)) d.numel tc ti / 8)
          (o + d.outBits * cut (packElems (packedBits d)) d.numel tc ti / 8)
          (cut (packElems (packedBits d)) d.numel tc (ti + 1) - cut (packElems (packedBits d)) d.numel tc ti) d
      else .ret () := by
  have hle : cut (packElems (packedBits d)) d.numel tc ti ≤ d.numel := cut_le (by omega)
  unfold jobEntry
  rw [partitionRow_eq htc hn]
  generalize cut (packElems (packedBits d)) d.numel tc ti = b at *
  generalize cut (packElems (packedBits d)) d.numel tc (ti + 1) = e at *
  by_cases h : b ≥ e
  · rw [if_pos h, if_neg (by omega)]; rfl
  · rw [if_neg h, if_pos (by omega)]
    have h1 := bits_le d.dtIn
    have h2 := outBits_le d
    have m1 : d.dtIn.bits * b ≤ 32 * b := Nat.mul_le_mul_right _ h1
    have m2 : d.outBits * b ≤ 32 * b := Nat.mul_le_mul_right _ h2
    have e1 : byteOff d.dtIn.bits b = d.dtIn.bits * b / 8 := byteOff_eq (by omega)
    have e2 : byteOff d.outBits b = d.outBits * b / 8 := byteOff_eq (by omega)
    simp only
    rw [e1]
    unfold Desc.outBits at e2 ⊢
    rw [e2]

theorem sliceWin_has {o bits b e a : Nat} : (sliceWin o bits b e).has a = true ↔
    o + bits * b / 8 ≤ a ∧ a < o + (bits * e + 7) / 8 := by
  unfold sliceWin Win.has
  rw [Bool.and_eq_true]
  exact ⟨fun h => ⟨of_decide_eq_true h.1, of_decide_eq_true h.2⟩, fun h => ⟨decide_eq_true h.1, decide_eq_true h.2⟩⟩

theorem workerWin_has {tc ti a : Nat} : (workerWin o d tc ti).has a = true ↔
    cut (packElems (packedBits d)) d.numel tc ti < cut (packElems (packedBits d)) d.numel tc (ti + 1) ∧
    o + d.outBits * cut (packElems (packedBits d)) d.numel tc ti / 8 ≤ a ∧
    a < o + (d.outBits * cut (packElems (packedBits d)) d.numel tc (ti + 1) + 7) / 8 := by
  unfold workerWin
  simp only
  split
  · rename_i h; rw [sliceWin_has]; simp [h]
  · rename_i h; simp [Win.has, h]

theorem workerWin_sub {tc ti a : Nat} (ht : ti < tc) (h : (workerWin o d tc ti).has a = true) :
    (⟨o, o + (d.outBits * d.numel + 7) / 8⟩ : Win).has a = true := by
  rw [workerWin_has] at h
  have : d.outBits * cut (packElems (packedBits d)) d.numel tc (ti + 1) ≤ d.outBits * d.numel :=
    Nat.mul_le_mul_left _ (cut_le (by omega))
  simp [Win.has]
  omega

theorem workerWin_disj {tc s t a : Nat} (hl : d.Legal) (hst : s < t) (ht : t < tc)
    (h1 : (workerWin o d tc s).has a = true) (h2 : (workerWin o d tc t).has a = true) : False := by
  rw [workerWin_has] at h1 h2
  have hm : cut (packElems (packedBits d)) d.numel tc (s + 1) ≤ cut (packElems (packedBits d)) d.numel tc t :=
    cut_mono' (by omega) (by omega)
  have hd : packElems (packedBits d) ∣ cut (packElems (packedBits d)) d.numel tc t := cut_dvd (by omega)
  have h8 := (aligned_bits hl hd).2
  have hmm := Nat.mul_le_mul_left d.outBits hm
  omega

theorem workerWin_cover {tc j : Nat} (htc : 0 < tc) (hj : j < (d.outBits * d.numel + 7) / 8) :
    ∃ t, t < tc ∧ (workerWin o d tc t).has (o + j) = true := by
  have hb := outBits_pos d
  -- the element holding bit 8*j
  have he : 8 * j / d.outBits < d.numel := by
    rw [Nat.div_lt_iff_lt_mul hb, Nat.mul_comm d.numel]; omega
  obtain ⟨t, ht, h1, h2⟩ := cut_find (pe := packElems (packedBits d)) htc he
  refine ⟨t, ht, ?_⟩
  rw [workerWin_has]
  have h3 : d.outBits * cut (packElems (packedBits d)) d.numel tc t ≤ 8 * j := by
    calc _ ≤ d.outBits * (8 * j / d.outBits) := Nat.mul_le_mul_left _ h1
      _ ≤ 8 * j := Nat.mul_div_le _ _
  have h4 : 8 * j < d.outBits * cut (packElems (packedBits d)) d.numel tc (t + 1) := by
    have := (Nat.div_lt_iff_lt_mul hb).mp h2
    rw [Nat.mul_comm d.outBits]; exact this
  omega

/-- What must be shown of the worker processing elements `[b, e)`. -/
def WorkerOk (E : Fault → Prop) (isa : Isa) (x : InBuf) (o : Nat) (d : Desc) (m0 : Mem) (Ok : Nat → Mem → Prop) : Prop :=
  ∀ b e, b < e → e ≤ d.numel → 8 ∣ d.dtIn.bits * b → 8 ∣ d.outBits * b →
    (e = d.numel ∨ (8 ∣ d.dtIn.bits * e ∧ 8 ∣ d.outBits * e)) →
    Triple E (sliceWin o d.outBits b e) (fun m => m = m0)
      (quantizeDispatch isa x (d.dtIn.bits * b / 8) (o + d.outBits * b / 8) (e - b) d)
      (fun _ m => ∀ j, o + d.outBits * b / 8 ≤ o + j → o + j < o + (d.outBits * e + 7) / 8 → Ok j m)

/-- What must be shown of the workers of a call with `tc` workers. -/
def WorkerOkAt (E : Fault → Prop) (isa : Isa) (x : InBuf) (o : Nat) (d : Desc) (m0 : Mem) (Ok : Nat → Mem → Prop) (tc : Nat) : Prop :=
  ∀ t b e, t < tc → b = cut (packElems (packedBits d)) d.numel tc t → e = cut (packElems (packedBits d)) d.numel tc (t + 1) →
    b < e → e ≤ d.numel → 8 ∣ d.dtIn.bits * b → 8 ∣ d.outBits * b →
    (e = d.numel ∨ (8 ∣ d.dtIn.bits * e ∧ 8 ∣ d.outBits * e)) →
    Triple E (sliceWin o d.outBits b e) (fun m => m = m0)
      (quantizeDispatch isa x (d.dtIn.bits * b / 8) (o + d.outBits * b / 8) (e - b) d)
      (fun _ m => ∀ j, o + d.outBits * b / 8 ≤ o + j → o + j < o + (d.outBits * e + 7) / 8 → Ok j m)

theorem WorkerOk.at {tc : Nat} (h : WorkerOk E isa x o d m0 Ok) : WorkerOkAt E isa x o d m0 Ok tc :=
  fun _ b e _ _ _ => h b e

/-- The condition on output byte `j` only depends on the bytes of slices containing it. -/
def Local (o bits : Nat) (Ok : Nat → Mem → Prop) : Prop :=
  ∀ b e j m m', o + bits * b / 8 ≤ o + j → o + j < o + (bits * e + 7) / 8 → 8 ∣ bits * b →
    (∀ a, o + bits * b / 8 ≤ a → a < o + (bits * e + 7) / 8 → m' a = m a) → Ok j m → Ok j m'

theorem call_jobs {tc : Nat} (hl : d.Legal)
    (hn : d.numel * tc < 2 ^ 63) (hn' : d.numel < 2 ^ 59) (hw : WorkerOkAt E isa x o d m0 Ok tc) :
    ∀ t, t < tc → Triple E (workerWin o d tc t) (fun m => m = m0) (jobEntry isa x o d t tc)
      (fun _ m => ∀ j, (workerWin o d tc t).has (o + j) = true → Ok j m) := by
  intro t ht
  rw [jobEntry_eq ht hn hn']
  by_cases h : cut (packElems (packedBits d)) d.numel tc t < cut (packElems (packedBits d)) d.numel tc (t + 1)
  · rw [if_pos h]
    have hb := aligned_bits hl (cut_dvd (pe := packElems (packedBits d)) (n := d.numel) (tc := tc) (ti := t) (by omega))
    have he : cut (packElems (packedBits d)) d.numel tc (t + 1) = d.numel ∨
        (8 ∣ d.dtIn.bits * cut (packElems (packedBits d)) d.numel tc (t + 1) ∧
          8 ∣ d.outBits * cut (packElems (packedBits d)) d.numel tc (t + 1)) := by
      by_cases h1 : t + 1 = tc
      · left; rw [h1]; exact cut_last
      · right; exact aligned_bits hl (cut_dvd h1)
    have := hw t _ _ ht rfl rfl h (cut_le (by omega)) hb.1 hb.2 he
    have ew : workerWin o d tc t = sliceWin o d.outBits (cut (packElems (packedBits d)) d.numel tc t)
        (cut (packElems (packedBits d)) d.numel tc (t + 1)) := by unfold workerWin; simp [h]
    rw [ew]
    refine this.weaken (fun _ m hm j hj => ?_)
    rw [sliceWin_has] at hj
    exact hm j hj.1 hj.2
  · rw [if_neg h]
    refine Triple.ret (fun m hm j hj => ?_)
    rw [workerWin_has] at hj
    exact absurd hj.1 h

/-- Every worker stays inside its own window, the windows are disjoint and inside the output span,
and a worker run alone faults only with faults in `E`. -/
theorem call_conf {tc : Nat} (hl : d.Legal)
    (hn : d.numel * tc < 2 ^ 63) (hn' : d.numel < 2 ^ 59) (hw : WorkerOkAt E isa x o d m0 Ok tc) :
    (∀ t a, t < (jobs isa tc x o d).length → (workerWin o d tc t).has a = true →
      (⟨o, o + (d.outBits * d.numel + 7) / 8⟩ : Win).has a = true) ∧
    (∀ s t a, s < (jobs isa tc x o d).length → t < (jobs isa tc x o d).length → s ≠ t →
      (workerWin o d tc s).has a = true → (workerWin o d tc t).has a = false) ∧
    (∀ (t : Nat) (p : Prog Unit) (f : Fault), (jobs isa tc x o d)[t]? = some p →
      p.run (workerWin o d tc t) m0 = .error f → E f) := by
  have hjob := call_jobs hl hn hn' hw
  have hsub : ∀ t a, t < (jobs isa tc x o d).length → (workerWin o d tc t).has a = true →
      (⟨o, o + (d.outBits * d.numel + 7) / 8⟩ : Win).has a = true := by
    intro t a ht h
    rw [jobs_length] at ht
    exact workerWin_sub ht h
  have hdisj : ∀ s t a, s < (jobs isa tc x o d).length → t < (jobs isa tc x o d).length → s ≠ t →
      (workerWin o d tc s).has a = true → (workerWin o d tc t).has a = false := by
    intro s t a hs ht hst h1
    rw [jobs_length] at hs ht
    by_contra h2
    have h2 : (workerWin o d tc t).has a = true := by simpa using h2
    rcases Nat.lt_or_gt_of_ne hst with h | h
    · exact workerWin_disj hl h ht h1 h2
    · exact workerWin_disj hl h hs h2 h1
  have hrun : ∀ (t : Nat) (p : Prog Unit) (f : Fault), (jobs isa tc x o d)[t]? = some p →
      p.run (workerWin o d tc t) m0 = .error f → E f := by
    intro t p f hp hr
    obtain ⟨ht, rfl⟩ := jobs_get hp
    have := Triple.iff.mp (hjob t ht) m0 rfl
    rw [hr] at this
    exact this
  exact ⟨hsub, hdisj, hrun⟩

/-- From one worker to the whole call, for all schedules. -/
theorem call_main {tc : Nat} (hE : ¬ E .oobRead ∧ ¬ E .oobWrite) (hl : d.Legal) (htc : 0 < tc)
    (hn : d.numel * tc < 2 ^ 63) (hn' : d.numel < 2 ^ 59) (hloc : Local o d.outBits Ok) (hw : WorkerOkAt E isa x o d m0 Ok tc) :
    AllSchedules E ⟨o, o + (d.outBits * d.numel + 7) / 8⟩ (jobs isa tc x o d) m0 (fun m =>
      (∀ j, j < (d.outBits * d.numel + 7) / 8 → Ok j m) ∧
      (∀ a, (a < o ∨ o + (d.outBits * d.numel + 7) / 8 ≤ a) → m a = m0 a) ∧
      runSeq ⟨o, o + (d.outBits * d.numel + 7) / 8⟩ (jobs isa tc x o d) m0 = .ok m) := by
  have hjob := call_jobs hl hn hn' hw
  obtain ⟨hsub, hdisj, hrun⟩ := call_conf hl hn hn' hw
  have hmain := sched_main hE hsub hdisj hrun
  refine ⟨hmain.safe, hmain.raceFree, hmain.progress, hmain.bounded, fun n c hr hd => ?_⟩
  obtain ⟨h1, h2⟩ := hmain.post n c hr hd
  refine ⟨fun j hj => ?_, fun a ha => ?_, ?_⟩
  · obtain ⟨t, ht, hwin⟩ := workerWin_cover (o := o) htc hj
    have hlt : t < (jobs isa tc x o d).length := by rw [jobs_length]; exact ht
    have hp : (jobs isa tc x o d)[t]? = some (jobs isa tc x o d)[t] := List.getElem?_eq_getElem hlt
    obtain ⟨r, hr1, hr2⟩ := h1 t _ hp
    have hj' := Triple.iff.mp (hjob t ht) m0 rfl
    rw [← (jobs_get hp).2, hr1] at hj'
    have hb := aligned_bits hl (cut_dvd (pe := packElems (packedBits d)) (n := d.numel) (tc := tc) (ti := t) (by omega))
    have hwin' := workerWin_has.mp hwin
    refine hloc _ _ j r _ hwin'.2.1 hwin'.2.2 hb.2 (fun a h1 h2 => hr2 a ?_) (hj' j hwin)
    rw [workerWin_has]; exact ⟨hwin'.1, h1, h2⟩
  · refine h2 a (fun t ht => ?_)
    by_contra hc
    have := hsub t a ht (by simpa using hc)
    simp [Win.has] at this
    omega
  · let res : Nat → Mem := fun t => match (jobs isa tc x o d)[t]? with
      | some p => match p.run (workerWin o d tc t) m0 with
        | .ok (_, r) => r
        | .error _ => m0
      | none => m0
    obtain ⟨m, hm1, hm2, hm3⟩ := runSeq_main (w := ⟨o, o + (d.outBits * d.numel + 7) / 8⟩) (jobs := jobs isa tc x o d)
      (wins := workerWin o d tc) (m0 := m0) (res := res) hsub hdisj (by
        intro t p hp
        obtain ⟨r, hr, _⟩ := h1 t p hp
        simp only [res, hp, hr])
    rw [hm1]
    congr 1
    funext a
    by_cases ha : ∃ t, t < (jobs isa tc x o d).length ∧ (workerWin o d tc t).has a = true
    · obtain ⟨t, ht, hwin⟩ := ha
      have hp : (jobs isa tc x o d)[t]? = some (jobs isa tc x o d)[t] := List.getElem?_eq_getElem ht
      obtain ⟨r, hr1, hr2⟩ := h1 t _ hp
      rw [hm2 t a ht hwin, hr2 a hwin]
      simp only [res, hp, hr1]
    · have ha' : ∀ t, t < (jobs isa tc x o d).length → (workerWin o d tc t).has a = false := by
        intro t ht
        by_contra hc
        exact ha ⟨t, ht, by simpa using hc⟩
      rw [hm3 a ha', h2 a ha']

end
end Verif

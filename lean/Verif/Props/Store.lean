import Verif.Props.Pipeline
import Verif.Props.Crash

/-!
# A store of quantized blocks: C115

Blocks (rows, pages of a cache) are quantized into a shared buffer, each with parameters computed from its own data, and read back later, in any order and any number of times; blocks may
overwrite older ones.
-/

namespace Verif.Props
open Spec

/-- A block of `n` elements and how it is stored: the kernel set and the block split of the parameter computation, the context, rounding mode and threshold of the quantize call, and the
address of the codes.  `lo`, `hi`: the range of its data. -/
structure Block where
  isa : Isa
  ft : FT
  x : InBuf
  n : Nat
  split : List (Nat × Nat)
  dt : DType
  c : Ctx
  mode : RoundMode
  τ : F32
  o : Nat
  lo : ℚ
  hi : ℚ

/-- Reading a block back: context, address of the floats, size of the buffer the codes are in. -/
structure Fetch where
  b : Block
  c : Ctx
  o : Nat
  sz : Nat

/-- One operation on the store. -/
inductive StoreOp
  | put (b : Block)
  | get (f : Fetch)

/-- The bytes an operation writes. -/
def StoreOp.win : StoreOp → Win
  | .put b => span b.o (bytes b.dt.bits b.n)
  | .get f => span f.o (4 * f.b.n)

/-- Legal operations: finite data around zero; the floats are not written over the codes they come from. -/
def StoreOp.Ok : StoreOp → Prop
  | .put b => PArgs b.ft b.x b.n b.split b.dt ∧ Sees b.isa b.ft b.x b.n b.split ∧ Around b.ft b.x b.n b.lo b.hi ∧ QArgs b.c.threads b.x b.ft.dtype b.dt b.n ∧ Threshold b.mode b.τ
  | .get f => PArgs f.b.ft f.b.x f.b.n f.b.split f.b.dt ∧ Sees f.b.isa f.b.ft f.b.x f.b.n f.b.split ∧ Around f.b.ft f.b.x f.b.n f.b.lo f.b.hi ∧ Sizes f.b.n f.c.threads ∧
      bytes f.b.dt.bits f.b.n ≤ f.sz ∧ Readable f.b.dt .f32 f.b.n f.sz ∧ (f.o + 4 * f.b.n ≤ f.b.o ∨ f.b.o + f.sz ≤ f.o)

/-- The block was stored, and nothing has been written to its codes since. -/
def Live (past : List StoreOp) (b : Block) : Prop :=
  ∃ l1 l2, past = l1 ++ .put b :: l2 ∧ ∀ op ∈ l2, ∀ a, (span b.o (bytes b.dt.bits b.n)).has a = true → op.win.has a = false

/-- Every operation of the list succeeds on every schedule of its workers, one operation after the other: a put computes the parameters of its block and quantizes it; a get computes the same
parameters again and dequantizes the codes now in memory, and if its block is live it gets every element back within the error of the block's own range. -/
def Serves (past : List StoreOp) : List StoreOp → Mem → Prop
  | [], _ => True
  | .put b :: l, m =>
    ∃ s z, computeQuantConfigFromData b.isa b.ft b.x b.split b.dt = .ret (s, z) ∧
      Always NoFault (quantize b.c b.x b.ft.dtype b.o (bytes b.dt.bits b.n) b.dt s z b.mode b.τ) (span b.o (bytes b.dt.bits b.n)) m (fun m' =>
        Serves (past ++ [.put b]) l m')
  | .get f :: l, m =>
    ∃ s z, computeQuantConfigFromData f.b.isa f.b.ft f.b.x f.b.split f.b.dt = .ret (s, z) ∧
      Always NoFault (dequantize f.c ⟨f.sz, fun a => m (f.b.o + a)⟩ (bytes f.b.dt.bits f.b.n) f.b.dt f.o (4 * f.b.n) .f32 s z .set) (span f.o (4 * f.b.n)) m (fun m' =>
        (Live past f.b → ∀ i, i < f.b.n → Within (tol f.b.mode) f.b.dt f.b.lo f.b.hi (elem f.b.ft.dtype f.b.x.data 0 i).toRat (f32At m' (f.o + 4 * i))) ∧
        Serves (past ++ [.get f]) l m')

/-- A call changes nothing outside its window. -/
theorem always_frame {E : Fault → Prop} {call : Except Fault (List (Prog Unit))} {w : Win} {m0 : Mem} {Q : Mem → Prop} (h : Always E call w m0 Q) :
    Always E call w m0 (fun m => Q m ∧ ∀ a, w.has a = false → m a = m0 a) := by
  obtain ⟨js, e, g⟩ := h
  exact ⟨js, e, g.safe, g.raceFree, g.progress, g.bounded, fun k d hr hd => ⟨g.post k d hr hd, reach_outside hr⟩⟩

/-- The codes of block `b` in memory `m` are what its quantize call leaves. -/
def Holds (m : Mem) (b : Block) : Prop :=
  ∀ s z, computeQuantConfigFromData b.isa b.ft b.x b.split b.dt = .ret (s, z) → ∀ i, i < b.n →
    |(code b.dt.bits m b.o i : ℤ) - z| ≤ 255 ∧
    |(((code b.dt.bits m b.o i : ℤ) - z : ℤ) : ℚ) - (elem b.ft.dtype b.x.data 0 i).toRat / s.toRat| ≤ tol b.mode + 1 / 2 ^ 13 + 1 / 2 ^ 25

theorem code_same {bits : Nat} {m m' : Mem} {o n i : Nat} (hi : i < n) (hb : 0 < bits) (h : ∀ a, (span o (bytes bits n)).has a = true → m a = m' a) : code bits m o i = code bits m' o i := by
  unfold code
  rw [h _ ?_]
  have : bits * i / 8 < bytes bits n := by
    unfold bytes
    have h1 : bits * i + bits ≤ bits * n := by
      calc bits * i + bits = bits * (i + 1) := by ring
        _ ≤ _ := Nat.mul_le_mul_left _ hi
    omega
  unfold span Win.has
  simp only [Bool.and_eq_true, decide_eq_true_eq]
  omega

theorem Holds.keep {m m' : Mem} {b : Block} (h : Holds m b) (hb : 0 < b.dt.bits) (hm : ∀ a, (span b.o (bytes b.dt.bits b.n)).has a = true → m' a = m a) : Holds m' b := by
  intro s z he i hi
  rw [code_same hi hb hm]
  exact h s z he i hi

theorem Live.snoc {past : List StoreOp} {op : StoreOp} {b : Block} (h : Live (past ++ [op]) b) :
    op = .put b ∨ (Live past b ∧ ∀ a, (span b.o (bytes b.dt.bits b.n)).has a = true → op.win.has a = false) := by
  obtain ⟨l1, l2, e, hd⟩ := h
  rcases l2.eq_nil_or_concat with rfl | ⟨l3, q, rfl⟩
  · left
    have := List.append_inj' e rfl
    simpa using this.2
  · right
    rw [List.concat_eq_append] at e hd
    rw [← List.cons_append, ← List.append_assoc] at e
    have := List.append_inj' e rfl
    obtain ⟨e1, e2⟩ := this
    have e2 : op = q := by simpa using e2
    refine ⟨⟨l1, l3, e1, fun op' h' => hd op' (List.mem_append_left _ h')⟩, ?_⟩
    rw [e2]
    exact hd q (by simp)

theorem serves_core (ops : List StoreOp) : ∀ {past : List StoreOp} {m0 : Mem}, (∀ op ∈ ops, op.Ok) → (∀ op ∈ past, op.Ok) → (∀ b, Live past b → Holds m0 b) → Serves past ops m0 := by
  induction ops with
  | nil => exact fun _ _ _ => trivial
  | cons op l ih =>
    intro past m0 hok hpast hinv
    have hop := hok op (List.mem_cons_self ..)
    have hl : ∀ op ∈ l, op.Ok := fun q hq => hok q (List.mem_cons_of_mem _ hq)
    have hp : ∀ q ∈ past ++ [op], q.Ok := fun q hq => by
      rcases List.mem_append.mp hq with h | h
      · exact hpast q h
      · rw [List.mem_singleton.mp h]; exact hop
    have hbits : ∀ b, Live past b → 0 < b.dt.bits := fun b hb => by
      obtain ⟨l1, l2, e, _⟩ := hb
      have := hpast (.put b) (by rw [e]; simp)
      have h1 : b.dt.isQuant = true := this.1.quant
      revert h1
      cases b.dt <;> simp [DType.bits]
    cases op with
    | put b =>
      obtain ⟨h, hs, ha, hq, hτ⟩ := hop
      obtain ⟨s, z, he, hsf, h1, h2, hn, A, B, hc⟩ := computed_step h hs ha
      refine ⟨s, z, he, (always_frame (codes_near hc hq ha.fin h1 h2 hτ)).mono (fun _ h => h) (fun m' hm' => ?_)⟩
      refine ih hl hp (fun b' hb' => ?_)
      rcases hb'.snoc with e | ⟨h3, h4⟩
      · obtain rfl : b = b' := by injection e
        intro s' z' he' i hi
        rw [he] at he'
        obtain ⟨rfl, rfl⟩ : s = s' ∧ z = z' := by
          have := Prog.ret.inj he'
          exact ⟨congrArg Prod.fst this, congrArg Prod.snd this⟩
        exact hm'.1 i hi
      · exact (hinv b' h3).keep (hbits b' h3) (fun a ha' => hm'.2 a (h4 a ha'))
    | get f =>
      obtain ⟨h, hs, ha, h', hsz, hrd, _⟩ := hop
      obtain ⟨s, z, he, hsf, h1, h2, hn, A, B, hc⟩ := computed_step h hs ha
      have hQ := qmax_bounds h.quant
      have hS := (step_bounds h.quant ha).2.2
      have hzp := hc.zp
      have hzs : ZpSub z := by unfold ZpSub; norm_num; omega
      refine ⟨s, z, he, (always_frame (C09_dequantize_f32_formula (c := f.c) (x := ⟨f.sz, fun a => m0 (f.b.o + a)⟩) ⟨h.quant, rfl, hsz, h'⟩ hrd hzs)).mono (fun _ h => h) (fun m' hm' => ⟨?_, ?_⟩)⟩
      · intro hlive i hi
        rw [hm'.1 i hi]
        have e : code f.b.dt.bits (fun a => m0 (f.b.o + a)) 0 i = code f.b.dt.bits m0 f.b.o i := code_shift _ _ _ _
        rw [show (InBuf.data ⟨f.sz, fun a => m0 (f.b.o + a)⟩) = fun a => m0 (f.b.o + a) from rfl, e]
        obtain ⟨k1, k2⟩ := hinv f.b hlive s z he i hi
        exact within_of hS hn (near_of k1 hsf h1 h2 k2)
      · refine ih hl hp (fun b' hb' => ?_)
        rcases hb'.snoc with e | ⟨h3, h4⟩
        · cases e
        · exact (hinv b' h3).keep (hbits b' h3) (fun a ha' => hm'.2 a (h4 a ha'))

/-- C115. After any history of puts and gets, every get of a block whose codes have not been overwritten since it was put returns each element within half a step (nearest) or one step
(stochastic) of the grid over the block's own range, up to 2^-11 of a step; no operation fails.  Any types, sizes, addresses, kernels, thread counts, schedules, thresholds. -/
theorem C115_block_store (ops : List StoreOp) (h : ∀ op ∈ ops, op.Ok) (m0 : Mem) : Serves [] ops m0 :=
  serves_core ops h (fun _ h => by simp at h) (fun b ⟨l1, l2, e, _⟩ => by simp at e)

/-- C115. The guarantee of a block is never weaker than that of the range of the whole tensor. -/
theorem C115_block_no_worse {steps : ℚ} {dt : DType} {lo hi lo' hi' v : ℚ} {y : F32} (hdt : dt.isQuant = true) (h0 : 0 ≤ steps) (h1 : lo' ≤ lo) (h2 : hi ≤ hi') (h : Within steps dt lo hi v y) :
    Within steps dt lo' hi' v y := by
  refine ⟨h.1, h.2.trans (mul_le_mul_of_nonneg_right ?_ (by positivity))⟩
  have hQ := (qmax_bounds hdt).1
  have hQ1 : (3:ℚ) ≤ 2 ^ dt.bits - 1 := by exact_mod_cast hQ
  unfold step
  exact div_le_div_of_nonneg_right (by linarith) (by linarith)

/-! ## Witnesses -/

/-- 70 floats between -25/4 and 25/4 as uint8 codes at 1000, and as uint4 codes at 1100. -/
def exBlock : Block := ⟨.avx512f, .f32, Ex.many, 70, Ex.blocks, .uint8, Ex.c1, .nearest, f0, 1000, -25 / 4, 25 / 4⟩
def exBlock' : Block := ⟨.avx2, .f32, Ex.many, 70, Ex.blocks, .uint4, Ex.c2, .stochastic, Ex.quarter, 1100, -25 / 4, 25 / 4⟩

/-- Two blocks stored, the first read back twice (the second block overwritten in between), then the second. -/
def exOps : List StoreOp :=
  [.put exBlock, .put exBlock', .get ⟨exBlock, Ex.c2, 3000, 70⟩, .put { exBlock' with τ := f0 }, .get ⟨exBlock, Ex.c1, 3000, 70⟩, .get ⟨{ exBlock' with τ := f0 }, Ex.c1, 4000, 35⟩]

theorem exOps_ok : ∀ op ∈ exOps, op.Ok := by
  have a1 : PArgs .f32 Ex.many 70 Ex.blocks .uint8 := by wit
  have a2 : PArgs .f32 Ex.many 70 Ex.blocks .uint4 := by wit
  have s1 : Sees .avx512f .f32 Ex.many 70 Ex.blocks := by wit
  have s2 : Sees .avx2 .f32 Ex.many 70 Ex.blocks := by wit
  have ha : Around .f32 Ex.many 70 (-25 / 4) (25 / 4) := ⟨by wit, by wit, by norm_num, by norm_num, by norm_num⟩
  have q1 : QArgs Ex.c1.threads Ex.many .f32 .uint8 70 := by wit
  have q2 : QArgs Ex.c2.threads Ex.many .f32 .uint4 70 := by wit
  intro op hop
  simp only [exOps, List.mem_cons, List.not_mem_nil, or_false] at hop
  rcases hop with rfl | rfl | rfl | rfl | rfl | rfl
  · exact ⟨a1, s1, ha, q1, (fun h => by cases h)⟩
  · exact ⟨a2, s2, ha, q2, by wit⟩
  · exact ⟨a1, s1, ha, (by wit), by decide, (fun h => by cases h), by decide⟩
  · exact ⟨a2, s2, ha, q2, by wit⟩
  · exact ⟨a1, s1, ha, (by wit), by decide, (fun h => by cases h), by decide⟩
  · exact ⟨a2, s2, ha, (by wit), by decide, (fun h => by cases h), by decide⟩

/-- `C115_block_store` applied to a concrete case. -/
example := C115_block_store exOps exOps_ok Ex.old

/-- The first block is still live after the second has been overwritten. -/
example : Live [.put exBlock, .put exBlock', .get ⟨exBlock, Ex.c2, 3000, 70⟩, .put { exBlock' with τ := f0 }] exBlock := by
  refine ⟨[], _, rfl, fun op hop a ha => ?_⟩
  simp only [List.mem_cons, List.not_mem_nil, or_false] at hop
  have ha' : 1000 ≤ a ∧ a < 1070 := by
    have : (span 1000 70).has a = true := ha
    unfold span Win.has at this
    simpa using this
  rcases hop with rfl | rfl | rfl
  · show (span 1100 35).has a = false
    unfold span Win.has; simp; omega
  · show (span 3000 280).has a = false
    unfold span Win.has; simp; omega
  · show (span 1100 35).has a = false
    unfold span Win.has; simp; omega

/-- `C115_block_no_worse` applied to a concrete case. -/
example := C115_block_no_worse (steps := 1 / 2) (dt := .uint4) (lo := -1) (hi := 1) (lo' := -2) (hi' := 2) (v := 0) (y := f0) rfl (by norm_num) (by norm_num) (by norm_num)
  ⟨by decide, by rw [show (f0 : F32).toRat = 0 by decide +kernel]; unfold step; norm_num [DType.bits]⟩

end Verif.Props

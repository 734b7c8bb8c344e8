import Verif.Model.Context

/-!
# Stores that become visible late

`Model/Prog.lean` makes every store visible at once.  On x86 a store first sits in a buffer of the core that executed it:

* ordinary stores leave the buffer in program order (x86-TSO);
* non-temporal stores (`_mm_stream_si128`, `_mm256_stream_si256`, used by the quantize kernels,
  src/kernels/kernels_specialized.inl:78-81, 123, 158, 268) sit in write-combining buffers and leave them in any order, also
  after ordinary stores that come later in program order; only `sfence`, `mfence` or a locked instruction waits for them
  (Intel SDM vol. 1, 10.4.6.2 and 11.6.13, vol. 3A, 12.3.1);
* two stores of one core to the same address become visible in program order, and a core sees its own stores.

No kernel and nothing in src/piquant.cpp executes a fence: whether one is executed before the caller continues depends on how the
thread pool (not in the repository) reports that a task is finished.  Both cases are modelled (`Joined`).
-/

namespace Verif

/-- Workers, their buffered stores (address, byte; oldest first), and the memory every other core sees (workers of
src/piquant.cpp:203-209). -/
structure WCfg where
  jobs : List (Prog Unit)
  bufs : Nat → List (Nat × Nat)
  mem : Mem

/-- Memory after the buffered stores, oldest first (stores of src/kernels/kernels_specialized.inl:78-81, 123, 158, 268). -/
def flush : List (Nat × Nat) → Mem → Mem
  | [], m => m
  | p :: l, m => flush l (m.set p.1 p.2)

/-- One worker gets a new buffer (stores of src/kernels/kernels_specialized.inl:78-81, 123, 158, 268). -/
def setBuf (f : Nat → List (Nat × Nat)) (t : Nat) (l : List (Nat × Nat)) : Nat → List (Nat × Nat) :=
  fun s => if s = t then l else f s

/-- One step: a worker reads (its own buffered stores first), a worker stores (into its buffer), or a buffered store becomes
visible.  `nt` are the addresses stored to by non-temporal instructions (src/piquant.cpp:203-210). -/
inductive WStep (w : Win) (nt : Nat → Prop) : WCfg → WCfg → Prop
  | rd {c : WCfg} {t a : Nat} {k : Nat → Prog Unit} (h : c.jobs[t]? = some (.rd a k)) (ha : w.has a = true) :
      WStep w nt c ⟨c.jobs.set t (k (flush (c.bufs t) c.mem a)), c.bufs, c.mem⟩
  | wr {c : WCfg} {t a b : Nat} {k : Prog Unit} (h : c.jobs[t]? = some (.wr a b k)) (ha : w.has a = true) :
      WStep w nt c ⟨c.jobs.set t k, setBuf c.bufs t (c.bufs t ++ [(a, b)]), c.mem⟩
  /-- No older store to the same address; an ordinary store has no older ordinary store before it. -/
  | drain {c : WCfg} {t a b : Nat} {l₁ l₂ : List (Nat × Nat)} (h : c.bufs t = l₁ ++ (a, b) :: l₂) (hc : ∀ p ∈ l₁, p.1 ≠ a)
      (ho : ¬ nt a → ∀ p ∈ l₁, nt p.1) : WStep w nt c ⟨c.jobs, setBuf c.bufs t (l₁ ++ l₂), c.mem.set a b⟩

/-- Reachable in `n` steps (src/piquant.cpp:203-210). -/
inductive WReach (w : Win) (nt : Nat → Prop) (c : WCfg) : Nat → WCfg → Prop
  | refl : WReach w nt c 0 c
  | tail {n : Nat} {d e : WCfg} (h : WReach w nt c n d) (s : WStep w nt d e) : WReach w nt c (n + 1) e

/-- The start of a call: nothing buffered (src/piquant.cpp:203-209). -/
def WCfg.start (jobs : List (Prog Unit)) (m : Mem) : WCfg := ⟨jobs, fun _ => [], m⟩

/-- How a task is reported as finished: by an ordinary store to a flag, or by one preceded by a fence (or by a locked
instruction, such as the release of a mutex or an atomic read-modify-write) (src/piquant.cpp:210). -/
inductive Report | flag | fence
deriving DecidableEq

/-- `jobs_future.join()` (src/piquant.cpp:210) can return: every worker has finished, and its report is visible.  A report by an
ordinary store is visible once the ordinary stores before it are; a report after a fence, once all are. -/
def WCfg.Joined (r : Report) (nt : Nat → Prop) (c : WCfg) : Prop :=
  (∀ p ∈ c.jobs, p = .ret ()) ∧ ∀ t, t < c.jobs.length → ∀ q ∈ c.bufs t, match r with
    | .flag => nt q.1
    | .fence => False

/-- Nothing is left to do: all workers have finished or faulted and all stores are visible (src/piquant.cpp:210). -/
def WCfg.Quiet (c : WCfg) : Prop := (∀ p ∈ c.jobs, p = .ret () ∨ ∃ f, p = .fail f) ∧ ∀ t, t < c.jobs.length → c.bufs t = []

/-- `AllSchedules` with late stores: for every schedule and every delay of the stores, no worker faults or leaves the window,
something can happen until all is quiet, executions are bounded, and when `join` can return the memory the caller sees
satisfies `Q` (src/piquant.cpp:203-210). -/
structure AllWeak (E : Fault → Prop) (w : Win) (nt : Nat → Prop) (r : Report) (jobs : List (Prog Unit)) (m0 : Mem) (Q : Mem → Prop) : Prop where
  safe : ∀ n c, WReach w nt (.start jobs m0) n c → ¬ Cfg.Faulty E w ⟨c.jobs, c.mem⟩
  progress : ∀ n c, WReach w nt (.start jobs m0) n c → ¬ c.Quiet → ∃ d, WStep w nt c d
  bounded : ∃ N, ∀ n c, WReach w nt (.start jobs m0) n c → n ≤ N
  post : ∀ n c, WReach w nt (.start jobs m0) n c → c.Joined r nt → Q c.mem

/-! ## Which addresses the kernels store to with non-temporal instructions -/

/-- The bytes of the vector loop of a kernel with alignment `al` and vectors of `wd` bytes, output at `o`, `numel` elements of one
byte: after a prologue up to the first aligned address (or the end), as many whole vectors as fit
(src/kernels/kernels_specialized.inl:52-57, 95-100, 133-138, 240-245). -/
def ntLoop (al wd o numel a : Nat) : Prop :=
  let s := min numel ((al - o % al) % al)
  o + s ≤ a ∧ a < o + s + (numel - s) / wd * wd

/-- Streaming stores of `quant_generic<In, Out, mode>` (src/kernels/quantize.inl:101-148) by kernel set: only
`quant_f32_to_uint8_nearest` (kernels_specialized.inl:53-82, 97-124, 133-159) and `quant_bf16_to_uint8_nearest` with AVX2
(kernels_specialized.inl:240-269) have any.  The AVX-512 and SSE4.2 versions of the latter store with ordinary instructions. -/
def ntKernel (isa : Isa) (ft : FT) (dt : DType) (mode : RoundMode) (o numel a : Nat) : Prop :=
  match mode, dt, ft, isa with
  | .nearest, .uint8, .f32, .avx512f | .nearest, .uint8, .f32, .avx512bf16 => ntLoop 16 64 o numel a
  | .nearest, .uint8, .f32, .avx2 => ntLoop 32 32 o numel a
  | .nearest, .uint8, .f32, .sse42 => ntLoop 16 16 o numel a
  | .nearest, .uint8, .bf16, .avx2 => ntLoop 32 32 o numel a
  | _, _, _, _ => False

/-- Streaming stores of all workers of a call (`job_entry`, src/piquant.cpp:132-176).  Dequantize and fused calls have none. -/
def ntCall (c : Ctx) (o : Nat) (d : Desc) (a : Nat) : Prop :=
  d.type = .quant ∧ ∃ ti b n ft, ti < c.threads ∧ partitionRow d ti c.threads = .ok (some (b, n)) ∧ d.dtIn = ft.dtype ∧
    ntKernel c.isa ft d.dtOut d.rounding (o + byteOff d.dtOut.bits b) n a

end Verif

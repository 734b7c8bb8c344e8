import Verif.Proofs.DequantMain

/-! # How a program can end, whatever the memory it reads -/

namespace Verif

/-- Every way the program can end (for any contents of the memory it reads, under any interleaving)
satisfies `Q`. -/
def Leaves {α : Type} (Q : Except Fault α → Prop) : Prog α → Prop
  | .ret a => Q (.ok a)
  | .fail f => Q (.error f)
  | .rd _ k => ∀ b, Leaves Q (k b)
  | .wr _ _ k => Leaves Q k

theorem Leaves.bind {α β : Type} {Q : Except Fault α → Prop} {R : Except Fault β → Prop} {p : Prog α} {k : α → Prog β}
    (hp : Leaves Q p) (hf : ∀ f, Q (.error f) → R (.error f)) (hk : ∀ a, Q (.ok a) → Leaves R (k a)) : Leaves R (p.bind k) := by
  induction p with
  | ret a => exact hk a hp
  | fail f => exact hf f hp
  | rd a f ih => exact fun b => ih b (hp b)
  | wr a b p ih => exact ih hp

theorem Leaves.mono {α : Type} {Q R : Except Fault α → Prop} {p : Prog α} (hp : Leaves Q p) (h : ∀ r, Q r → R r) : Leaves R p := by
  induction p with
  | ret a => exact h _ hp
  | fail f => exact h _ hp
  | rd a f ih => exact fun b => ih b (hp b)
  | wr a b p ih => exact ih hp

theorem Leaves.stBytes {Q : Except Fault Unit → Prop} (h : Q (.ok ())) (a n : Nat) (f : Nat → Nat) : Leaves Q (stBytes a n f) := by
  induction n with
  | zero => exact h
  | succ n ih => exact Leaves.bind (Q := fun r => Q r) ih (fun _ h => h) (fun _ _ => h)

theorem Leaves.ldBytes {Q : Except Fault (Nat → Nat) → Prop} (h : ∀ f, Q (.ok f)) (a n : Nat) : Leaves Q (ldBytes a n) := by
  induction n with
  | zero => exact h _
  | succ n ih => exact Leaves.bind (Q := Q) ih (fun _ h => h) (fun _ _ b => h _)

theorem Leaves.forI {Q : Except Fault Unit → Prop} {R : Except Fault Nat → Prop} {cond : Nat → Bool} {step : Nat} {body : Nat → Prog Unit} {I : Nat → Prop}
    (hb : ∀ i, I i → cond i = true → Leaves Q (body i)) (hf : ∀ f, Q (.error f) → R (.error f)) (hI : ∀ i, I i → cond i = true → I (i + step))
    (hR : ∀ i, I i → cond i = false → R (.ok i))
    {fuel : Nat} : ∀ {i : Nat}, I i → R (.error .diverge) ∨ (∃ N, (∀ j, N ≤ j → cond j = false) ∧ N ≤ i + step * fuel) →
    Leaves R (Verif.forI cond step body fuel i) := by
  induction fuel with
  | zero =>
    intro i hi h
    unfold Verif.forI
    split
    · rename_i hc
      rcases h with h | ⟨N, h1, h2⟩
      · exact h
      · rw [h1 i (by omega)] at hc; cases hc
    · rename_i hc; exact hR i hi (by simpa using hc)
  | succ fuel ih =>
    intro i hi h
    unfold Verif.forI
    split
    · rename_i hc
      refine Leaves.bind (hb i hi hc) hf (fun _ _ => ih (hI i hi hc) ?_)
      rcases h with h | ⟨N, h1, h2⟩
      · exact Or.inl h
      · exact Or.inr ⟨N, h1, by rw [Nat.mul_add] at h2; omega⟩
    · rename_i hc; exact hR i hi (by simpa using hc)

/-- A step of the workers keeps the possible endings of every worker. -/
theorem Leaves.step {w : Win} {c d : Cfg} {t : Nat} {Q : Except Fault Unit → Prop} (s : Step w c d)
    (h : ∃ p, c.jobs[t]? = some p ∧ Leaves Q p) : ∃ p, d.jobs[t]? = some p ∧ Leaves Q p := by
  obtain ⟨p, hp, hl⟩ := h
  have hlt := lt_of_getElem? hp
  cases s with
  | rd hj ha =>
    rename_i t' a k
    by_cases htt : t' = t
    · subst htt
      rw [hj] at hp; cases hp
      exact ⟨k (c.mem a), by simp [hlt], hl _⟩
    · exact ⟨p, by simp [htt, hp], hl⟩
  | wr hj ha =>
    rename_i t' a b k
    by_cases htt : t' = t
    · subst htt
      rw [hj] at hp; cases hp
      exact ⟨k, by simp [hlt], hl⟩
    · exact ⟨p, by simp [htt, hp], hl⟩

theorem Leaves.reach {w : Win} {c d : Cfg} {k t : Nat} {Q : Except Fault Unit → Prop} (h : Reach w c k d)
    (h0 : ∃ p, c.jobs[t]? = some p ∧ Leaves Q p) : ∃ p, d.jobs[t]? = some p ∧ Leaves Q p := by
  induction h with
  | refl => exact h0
  | tail _ s ih => exact Leaves.step s ih

/-! ## `dequant_uint2` on a span without a byte behind it -/

theorem Leaves.putF32 {op : ReduceOp} {a : Nat} {v : Term} {Q : Except Fault Unit → Prop} (h : Q (.ok ())) : Leaves Q (Verif.putF32 op a v) := by
  unfold Verif.putF32
  cases op
  · exact Leaves.stBytes h _ _ _
  · exact Leaves.bind (Q := fun r => ∃ v, r = .ok v) (Leaves.bind (Q := fun r => ∃ f, r = .ok f) (Leaves.ldBytes (fun f => ⟨f, rfl⟩) _ _) (fun f h => by simp at h) (fun f _ => ⟨_, rfl⟩))
      (fun f h => by simp at h) (fun _ _ => Leaves.stBytes h _ _ _)

theorem Leaves.putDq64 {b : Bool} {op : ReduceOp} {o i q : Nat} {scale : F32} {zp : ℤ} {Q : Except Fault Unit → Prop} (h : Q (.ok ())) (hz : inI64 (q - zp)) :
    Leaves Q (Verif.putDq64 b op o scale zp i q) := by
  have e : dqStepF32 b q scale zp = .ret (Term.prod b (Flt.ofInt f32 (q - zp)) scale) := by
    unfold dqStepF32 subI; rw [if_pos (show -(2 ^ (64 - 1) : ℤ) ≤ q - zp ∧ (q : ℤ) - zp < 2 ^ (64 - 1) from hz)]; rfl
  unfold Verif.putDq64
  rw [e]
  exact Leaves.putF32 h

theorem Leaves.dequantUint2_oob {put putSet : Nat → Nat → Prog Unit} {x : InBuf} {off n : Nat} (hn : n % 4 = 0)
    (hx : x.size = off + n / 4) (hp : ∀ i q, q < 4 → Leaves (fun r => r = .ok ()) (put i q)) :
    Leaves (fun r => r = .error .oobRead) (dequantUint2 put putSet x off n) := by
  unfold dequantUint2
  refine Leaves.bind (Q := fun r => ∃ i, r = .ok i ∧ i = n) ?_ (fun f h => by simp at h) ?_
  · refine Leaves.forI (Q := fun r => r = .ok ()) (I := fun i => i % 4 = 0 ∧ i ≤ n) (fun i hi hc => ?_) (fun f h => by simp at h) ?_ ?_ ⟨rfl, Nat.zero_le _⟩
      (Or.inr ⟨n, fun j hj => by simp; omega, by omega⟩)
    · have hc : i + 3 < n := by simpa using hc
      have e : ldQ x off (i / 4) = .ret (x.u8 (off + i / 4)) := by
        unfold ldQ chkIn; rw [if_pos (by omega)]; rfl
      simp only [Prog.bind_eq]
      rw [e, Prog.ret_bind]
      have hand : ∀ a : Nat, a &&& 3 < 4 := fun a => by
        have : a &&& 3 ≤ 3 := Nat.and_le_right
        omega
      refine Leaves.bind (Q := fun r => r = .ok ()) (hp i _ (hand _)) (fun f h => by simp at h) (fun _ _ => ?_)
      refine Leaves.bind (Q := fun r => r = .ok ()) (hp _ _ (hand _)) (fun f h => by simp at h) (fun _ _ => ?_)
      refine Leaves.bind (Q := fun r => r = .ok ()) (hp _ _ (hand _)) (fun f h => by simp at h) (fun _ _ => ?_)
      exact hp _ _ (hand _)
    · intro i hi hc
      have hc : i + 3 < n := by simpa using hc
      omega
    · intro i hi hc
      have hc : n ≤ i + 3 := by simpa using hc
      exact ⟨i, rfl, by omega⟩
  · rintro i ⟨j, h1, h2⟩
    injection h1 with h1
    have e : ldQ x off (i / 4) = .fail .oobRead := by
      unfold ldQ chkIn; rw [if_neg (by subst h1 h2; omega)]; rfl
    simp only [Prog.bind_eq]
    rw [e]
    rfl

end Verif

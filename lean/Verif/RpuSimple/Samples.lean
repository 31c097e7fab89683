import Verif.RpuSimple.Grad

/-!
# Which vectors the devices of a pulsed tile see
-/

namespace Aihw.RpuSimple

open Aihw Finset

variable {K σ : Type} [Field K]

/-- A device reads the first `xSz` inputs and the first `dSz` errors only. -/
def Reads (dev : Dev K σ) (xSz dSz : ℕ) : Prop :=
  ∀ (st : σ) (w : Mem K) (x x' d d' : ℕ → K) (lr : K), (∀ j, j < xSz → x j = x' j) → (∀ i, i < dSz → d i = d' i) →
    dev st w x d lr = dev st w x' d' lr

/-- The updates of the samples of a batch, one after the other: sample `b` has the inputs `x b` and the errors `d b`. -/
def sampleBySample (dev : Dev K σ) (lr : K) (x d : ℕ → ℕ → K) : ℕ → σ × Mem K → σ × Mem K
  | 0, s => s
  | b + 1, s => let r := sampleBySample dev lr x d b s; dev r.1 r.2 (x b) (d b) lr

theorem loop_samples (dev : Dev K σ) (xSz dSz : ℕ) (hr : Reads dev xSz dSz) (lr : K) (X D : Mem K) (m : ℕ) (xT dT : Bool)
    (x d : ℕ → ℕ → K) (hx : ∀ b j, b < m → j < xSz → X (pos xT m xSz b j) = x b j)
    (hd : ∀ b i, b < m → i < dSz → D (pos dT m dSz b i) = d b i) (s : σ × Mem K) :
    loopUpdate dev xSz dSz lr X D m xT dT s = sampleBySample dev lr x d m s := by
  unfold loopUpdate
  have key : ∀ n, n ≤ m → (List.range n).foldl (fun s b => dev s.1 s.2
      (fun j => X (b * (if xT then 1 else xSz) + j * (if xT then m else 1)))
      (fun i => D (b * (if dT then 1 else dSz) + i * (if dT then m else 1))) lr) s =
      sampleBySample dev lr x d n s := by
    intro n
    induction n with
    | zero => intro _; rfl
    | succ n ih =>
      intro hn
      rw [List.range_succ, List.foldl_append, ih (by omega), List.foldl_cons, List.foldl_nil]
      refine hr _ _ _ _ _ _ _ ?_ ?_
      · intro j hj
        rw [← hx n j (by omega) hj]
        cases xT <;> simp [pos, Nat.add_comm]
      · intro i hi
        rw [← hd n i (by omega) hi]
        cases dT <;> simp [pos, Nat.add_comm]
  exact key m (le_refl m)

theorem updateBatch_ok {xd dd : List ℕ} {xT dT : Bool} {xe de : ℤ} {m : ℕ}
    (h : updateBatch xd dd xT dT xe de = .ok m) :
    (inSize xd xT : ℤ) = xe ∧ (inSize dd dT : ℤ) = de ∧ 0 < inSize xd xT ∧ numel xd = m * inSize xd xT ∧
      numel dd = m * inSize dd dT := by
  unfold updateBatch at h
  by_cases c1 : xd.length < 1 ∨ dd.length < 1
  · rw [if_pos c1] at h; cases h
  rw [if_neg c1] at h
  by_cases c2 : inSize xd xT = 0 ∨ inSize dd dT = 0
  · rw [if_pos c2] at h; cases h
  rw [if_neg c2] at h
  by_cases c3 : (inSize xd xT : ℤ) ≠ xe
  · rw [if_pos c3] at h; cases h
  rw [if_neg c3] at h
  by_cases c4 : (inSize dd dT : ℤ) ≠ de
  · rw [if_pos c4] at h; cases h
  rw [if_neg c4] at h
  by_cases c5 : numel xd / inSize xd xT ≠ numel dd / inSize dd dT
  · rw [if_pos c5] at h; cases h
  rw [if_neg c5] at h
  push Not at c1 c2 c3 c4 c5
  injection h with h
  subst h
  refine ⟨c3, c4, Nat.pos_of_ne_zero c2.1, (Nat.div_mul_cancel (inSize_mem _ _ (by omega))).symm, ?_⟩
  rw [c5]
  exact (Nat.div_mul_cancel (inSize_mem _ _ (by omega))).symm

variable [DecidableEq K]

/-- **C88 (samples).** An accepted batch of a pulsed tile is processed sample by sample, in the order of the batch: the
device sees, for sample `b`, its inputs (extended by one for the bias) and its errors, in whichever layout the tensors
are, and the learning rate divided by the output scale. -/
theorem C88_samples (dev : Dev K σ) (t : Rpu K) (hr : Reads dev t.xSz t.dSz) (ht : t.dw = none) (hl : t.lr ≠ 0) (st : σ)
    (buf : Mem K) (xd dd : List ℕ) (X D : Mem K) (bias xT dT : Bool) (r : Rpu K × σ)
    (h : pTileUpdate false dev t st buf xd dd X D bias xT dT = .ok r) :
    ∃ m, numel xd = m * nIn t bias ∧ numel dd = m * t.dSz ∧
      r = ({ t with w := (sampleBySample dev (t.lr / t.bAlpha) (xin t X bias m xT)
              (fun b i => D (pos dT m t.dSz b i)) m (st, t.w)).2 },
            (sampleBySample dev (t.lr / t.bAlpha) (xin t X bias m xT)
              (fun b i => D (pos dT m t.dSz b i)) m (st, t.w)).1) := by
  unfold pTileUpdate at h
  rw [if_neg hl] at h
  cases hb : updateBatch xd dd xT dT (vecSize t.xSz bias) t.dSz with
  | error e => rw [hb] at h; cases h
  | ok m =>
    rw [hb] at h
    injection h with h
    obtain ⟨c1, c2, c3, c4, c5⟩ := updateBatch_ok hb
    have hx : bias = true → 1 ≤ t.xSz := by
      rintro rfl
      simp only [vecSize] at c1
      simp at c1
      omega
    have hin : inSize xd xT = nIn t bias := by
      cases bias with
      | false => simp only [vecSize] at c1; simp at c1; simp [nIn, c1]
      | true => simp only [vecSize] at c1; simp at c1; simp [nIn]; omega
    have hlr : alphaLR t = t.lr / t.bAlpha := by simp [alphaLR, ht]
    have mat : ∀ (X' : Mem K), (∀ b j, b < m → j < t.xSz → X' (pos xT m t.xSz b j) = xin t X bias m xT b j) →
        pMatrix false dev t st X' D m xT dT =
        ({ t with w := (sampleBySample dev (t.lr / t.bAlpha) (xin t X bias m xT)
              (fun b i => D (pos dT m t.dSz b i)) m (st, t.w)).2 },
            (sampleBySample dev (t.lr / t.bAlpha) (xin t X bias m xT)
              (fun b i => D (pos dT m t.dSz b i)) m (st, t.w)).1) := by
      intro X' hX
      unfold pMatrix
      simp only [Bool.false_eq_true, if_false, ht]
      rw [hlr, loop_samples dev t.xSz t.dSz hr _ X' D m xT dT _ _ hX (fun b i _ _ => rfl)]
    have vec : ∀ (X' : Mem K), m = 1 → xT = false → dT = false → pVector false dev t st X' D =
        pMatrix false dev t st X' D m xT dT := by
      rintro X' rfl rfl rfl
      unfold pMatrix pVector loopUpdate
      simp [ht]
    refine ⟨m, by rw [c4, hin], by rw [c5]; congr 1; exact_mod_cast c2, ?_⟩
    rw [← h]
    unfold pUpdate
    by_cases hv : m = 1 ∧ (!xT) = true ∧ (!dT) = true
    · rw [if_pos hv]
      have h1 : xT = false := by simpa using hv.2.1
      have h2 : dT = false := by simpa using hv.2.2
      cases bias with
      | false =>
        simp only [Bool.false_eq_true, if_false]
        rw [vec X hv.1 h1 h2]
        exact mat X (fun b j _ _ => by simp [xin, nIn])
      | true =>
        simp only [if_true]
        rw [vec _ hv.1 h1 h2]
        refine mat _ (fun b j hb hj => ?_)
        have hb0 : b = 0 := by omega
        subst hb0
        rw [h1, hv.1]
        simp only [toVectorBias, pos, xin, nIn]
        by_cases e : j = t.xSz - 1
        · simp [put, e]
        · have : j < t.xSz - 1 := by omega
          have q := memcpy_in buf X 0 0 (t.xSz - 1) j this
          simp only [Nat.zero_add] at q
          simp [put, e, q]
    · rw [if_neg hv]
      cases bias with
      | false =>
        simp only [Bool.false_eq_true, if_false]
        exact mat X (fun b j _ _ => by simp [xin, nIn])
      | true =>
        simp only [if_true]
        exact mat _ (fun b j hb hj => makeBias_at t buf X m xT (hx rfl) b j hb hj)

end Aihw.RpuSimple

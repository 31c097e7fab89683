import Verif.RpuSimple.Bind
import Mathlib.Tactic.FieldSimp

/-!
# Weight gradients of C++ tiles
(src/rpucuda/rpu_pulsed.cpp:513-585, src/aihwkit/simulator/tiles/functions.py:60-114)

The update of the devices for one vector is an arbitrary function `dev` of the device state, the weights, the two vectors
and the learning rate.
-/
namespace Aihw.RpuSimple
open Aihw Finset

variable {K : Type} [Field K] {σ : Type}

/-- `updateVectorWithDevice` (rpu_weight_updater.cpp:196-275) as a function of state, weights, inputs, errors and
learning rate. -/
abbrev Dev (K σ : Type) := σ → Mem K → (ℕ → K) → (ℕ → K) → K → σ × Mem K

/-- `RPUAbstract::updateMatrix` (rpu.cpp:75-89): one vector after the other. -/
def loopUpdate (dev : Dev K σ) (xSz dSz : ℕ) (lr : K) (X D : Mem K) (m : ℕ) (xT dT : Bool) (s : σ × Mem K) :
    σ × Mem K :=
  (List.range m).foldl (fun s b => dev s.1 s.2
    (fun j => X (b * (if xT then 1 else xSz) + j * (if xT then m else 1)))
    (fun i => D (b * (if dT then 1 else dSz) + i * (if dT then m else 1))) lr) s

/-- `getAndResetWeightUpdate` (rpu.cpp:1430-1441): gradient memory and weights. -/
def getAndReset (size : ℕ) (scale : K) (prev w : Mem K) : Mem K × Mem K :=
  (fun p => if p < size then scale * (w p - prev p) else prev p, fun p => if p < size then prev p else w p)

/-- `RPUPulsed::updateMatrix` (rpu_pulsed.cpp:557-585); `fp` is `checkForFPUpdate`. -/
def pMatrix (fp : Bool) (dev : Dev K σ) (t : Rpu K) (st : σ) (X D : Mem K) (m : ℕ) (xT dT : Bool) : Rpu K × σ :=
  if fp then (updateMatrix t X D m xT dT, st)
  else match t.dw with
    | none =>
      let s := loopUpdate dev t.xSz t.dSz (alphaLR t) X D m xT dT (st, t.w)
      ({ t with w := s.2 }, s.1)
    | some g =>
      let t0 := { t with dw := none }
      let prev := memcpy g 0 t.w 0 (t.dSz * t.xSz)
      let s := loopUpdate dev t.xSz t.dSz (alphaLR t0) X D m xT dT (st, t.w)
      let r := getAndReset (t.dSz * t.xSz) (alphaLR t / alphaLR t0) prev s.2
      ({ t with dw := some r.1, w := r.2 }, s.1)

/-- `RPUPulsed::updateVector` (rpu_pulsed.cpp:513-528) with increments 1. -/
def pVector (fp : Bool) (dev : Dev K σ) (t : Rpu K) (st : σ) (x d : Mem K) : Rpu K × σ :=
  match t.dw with
  | some _ => pMatrix fp dev t st x d 1 false false
  | none =>
    if fp then ({ t with w := ger t.dSz t.xSz (-alphaLR t) d x t.w t.xSz }, st)
    else
      let s := dev st t.w x d (alphaLR t)
      ({ t with w := s.2 }, s.1)

/-- `update` of a pulsed tile (rpu.cpp:556-575, 660-667, 749-754). -/
def pUpdate (fp : Bool) (dev : Dev K σ) (t : Rpu K) (st : σ) (buf X D : Mem K) (bias : Bool) (m : ℕ) (xT dT : Bool) :
    Rpu K × σ :=
  if m = 1 ∧ !xT ∧ !dT then
    if bias then pVector fp dev t st (toVectorBias t buf X) D else pVector fp dev t st X D
  else
    if bias then pMatrix fp dev t st (makeBias buf X t.xSz m xT) D m xT dT else pMatrix fp dev t st X D m xT dT

/-- `tile.update` of a pulsed tile (rpu_base_tiles.cpp:543-596). -/
def pTileUpdate [DecidableEq K] (fp : Bool) (dev : Dev K σ) (t : Rpu K) (st : σ) (buf : Mem K) (xd dd : List ℕ)
    (X D : Mem K) (bias xT dT : Bool) : Except PyErr (Rpu K × σ) :=
  if t.lr = 0 then .ok (t, st)
  else match updateBatch xd dd xT dT (vecSize t.xSz bias) t.dSz with
    | .error e => .error e
    | .ok m => .ok (pUpdate fp dev t st buf X D bias m xT dT)

/-- The gradient of the shared weights in `AnalogFunction.backward` (functions.py:91-102): `g` is the content of
`empty_like`.  Result: the gradient and the tile. -/
def sharedGrad [DecidableEq K] (fp : Bool) (dev : Dev K σ) (t : Rpu K) (st : σ) (buf g : Mem K) (xd dd : List ℕ)
    (X D : Mem K) (bias xT dT : Bool) : Except PyErr (Option (Mem K) × Rpu K × σ) :=
  match pTileUpdate fp dev (setDelta t (some g)) st buf xd dd X D bias xT dT with
  | .error e => .error e
  | .ok (t', st') => .ok (t'.dw, setDelta t' none, st')

/-! ## Properties -/

/-- The devices only write into the weights. -/
def Inside (dev : Dev K σ) (xSz dSz : ℕ) : Prop := ∀ st w x d lr p, dSz * xSz ≤ p → (dev st w x d lr).2 p = w p

theorem loop_inside (dev : Dev K σ) (xSz dSz : ℕ) (h : Inside dev xSz dSz) (lr : K) (X D : Mem K) (m : ℕ) (xT dT : Bool)
    (s : σ × Mem K) (p : ℕ) (hp : dSz * xSz ≤ p) : (loopUpdate dev xSz dSz lr X D m xT dT s).2 p = s.2 p := by
  unfold loopUpdate
  generalize List.range m = l
  induction l generalizing s with
  | nil => rfl
  | cons b l ih =>
    rw [List.foldl_cons, ih]
    exact h _ _ _ _ _ p hp

/-- One matrix update, with and without gradient memory. -/
theorem pMatrix_grad (fp : Bool) (dev : Dev K σ) (t : Rpu K) (hd : Inside dev t.xSz t.dSz) (hl : t.lr ≠ 0)
    (hb : t.bAlpha ≠ 0) (st : σ) (g X D : Mem K) (m : ℕ) (xT dT : Bool) :
    ∃ w' st' g', pMatrix fp dev { t with dw := none } st X D m xT dT = ({ t with dw := none, w := w' }, st') ∧
      pMatrix fp dev { t with dw := some g } st X D m xT dT = ({ t with dw := some g' }, st') ∧
      ∀ p, p < t.dSz * t.xSz → g' p = (t.w p - w' p) / t.lr := by
  cases fp with
  | true =>
    obtain ⟨u, e, h1, _⟩ := updateMatrix_eq { t with dw := none } X D m xT dT
    obtain ⟨v, f, h2, _⟩ := updateMatrix_eq { t with dw := some g } X D m xT dT
    refine ⟨u, st, v, ?_, ?_, ?_⟩
    · show (updateMatrix _ _ _ _ _ _, st) = _
      rw [e]; rfl
    · show (updateMatrix _ _ _ _ _ _, st) = _
      rw [f]; rfl
    · intro p hp
      have hx : 0 < t.xSz := by
        rcases Nat.eq_zero_or_pos t.xSz with h | h
        · rw [h] at hp; simp at hp
        · exact h
      have hp' : p = p / t.xSz * t.xSz + p % t.xSz := by
        rw [Nat.mul_comm]; exact (Nat.div_add_mod p t.xSz).symm
      have a1 := h1 (p / t.xSz) (p % t.xSz) ((Nat.div_lt_iff_lt_mul hx).mpr hp) (Nat.mod_lt _ hx)
      have a2 := h2 (p / t.xSz) (p % t.xSz) ((Nat.div_lt_iff_lt_mul hx).mpr hp) (Nat.mod_lt _ hx)
      simp only [← hp'] at a1 a2
      rw [a1, a2]
      simp only [upBeta, upWeights, alphaLR, Option.isSome_some, Option.isSome_none, Option.isNone_some,
        Option.isNone_none, if_true, Bool.false_eq_true, if_false]
      field_simp
      ring
  | false =>
    refine ⟨(loopUpdate dev t.xSz t.dSz (t.lr / t.bAlpha) X D m xT dT (st, t.w)).2,
      (loopUpdate dev t.xSz t.dSz (t.lr / t.bAlpha) X D m xT dT (st, t.w)).1,
      (getAndReset (t.dSz * t.xSz) (-1 / t.bAlpha / (t.lr / t.bAlpha)) (memcpy g 0 t.w 0 (t.dSz * t.xSz))
        (loopUpdate dev t.xSz t.dSz (t.lr / t.bAlpha) X D m xT dT (st, t.w)).2).1, ?_, ?_, ?_⟩
    · rfl
    · have hw : (getAndReset (t.dSz * t.xSz) (-1 / t.bAlpha / (t.lr / t.bAlpha)) (memcpy g 0 t.w 0 (t.dSz * t.xSz))
          (loopUpdate dev t.xSz t.dSz (t.lr / t.bAlpha) X D m xT dT (st, t.w)).2).2 = t.w := by
        funext p
        unfold getAndReset
        show (if p < t.dSz * t.xSz then _ else _) = _
        split
        · rename_i hp
          have := memcpy_in g t.w 0 0 (t.dSz * t.xSz) p hp
          simpa using this
        · rename_i hp
          exact loop_inside dev t.xSz t.dSz hd _ X D m xT dT (st, t.w) p (by omega)
      show (_, _) = _
      refine Prod.ext ?_ rfl
      show Rpu.mk _ _ _ _ _ _ _ _ _ = Rpu.mk _ _ _ _ _ _ _ _ _
      congr 1
    · intro p hp
      unfold getAndReset
      show (if p < t.dSz * t.xSz then _ else _) = _
      rw [if_pos hp]
      have := memcpy_in g t.w 0 0 (t.dSz * t.xSz) p hp
      simp only [Nat.zero_add] at this
      rw [this]
      field_simp
      ring

theorem pVector_grad (fp : Bool) (dev : Dev K σ) (t : Rpu K) (hd : Inside dev t.xSz t.dSz) (hl : t.lr ≠ 0)
    (hb : t.bAlpha ≠ 0) (st : σ) (g x d : Mem K)  :
    ∃ w' st' g', pVector fp dev { t with dw := none } st x d = ({ t with dw := none, w := w' }, st') ∧
      pVector fp dev { t with dw := some g } st x d = ({ t with dw := some g' }, st') ∧
      ∀ p, p < t.dSz * t.xSz → g' p = (t.w p - w' p) / t.lr := by
  obtain ⟨w', st', g', h1, h2, h3⟩ := pMatrix_grad fp dev t hd hl hb st g x d 1 false false
  cases fp with
  | true =>
    have hst : st = st' := by
      have : (updateMatrix { t with dw := none } x d 1 false false, st) = ({ t with dw := none, w := w' }, st') := h1
      exact congrArg Prod.snd this
    refine ⟨ger t.dSz t.xSz (-alphaLR { t with dw := none }) d x t.w t.xSz, st', g', ?_, h2, ?_⟩
    · rw [← hst]; rfl
    · intro p hp
      rw [h3 p hp]
      congr 2
      have hx : 0 < t.xSz := by
        rcases Nat.eq_zero_or_pos t.xSz with h | h
        · rw [h] at hp; simp at hp
        · exact h
      have hp' : p = p / t.xSz * t.xSz + p % t.xSz := by
        rw [Nat.mul_comm]; exact (Nat.div_add_mod p t.xSz).symm
      obtain ⟨u', f, f1, _⟩ := updateMatrix_eq { t with dw := none } x d 1 false false
      have hi := (Nat.div_lt_iff_lt_mul hx).mpr hp
      have hj := Nat.mod_lt p hx
      have a1 := f1 (p / t.xSz) (p % t.xSz) hi hj
      simp only [← hp'] at a1
      have hw : w' = u' := by
        have : (updateMatrix { t with dw := none } x d 1 false false, st) = ({ t with dw := none, w := w' }, st') := h1
        have h4 := congrArg (fun r => r.1.w) this
        rw [f] at h4
        exact h4.symm
      rw [hw, a1]
      unfold ger
      rw [if_pos ⟨hi, hj⟩]
      simp [upBeta, upWeights, pos]
      ring
  | false =>
    have e : pMatrix false dev { t with dw := none } st x d 1 false false =
        pVector false dev { t with dw := none } st x d := by
      unfold pMatrix pVector loopUpdate
      simp
    exact ⟨w', st', g', by rw [← e]; exact h1, h2, h3⟩

/-- One update, with and without gradient memory. -/
theorem pUpdate_grad (fp : Bool) (dev : Dev K σ) (t : Rpu K) (hd : Inside dev t.xSz t.dSz) (hl : t.lr ≠ 0)
    (hb : t.bAlpha ≠ 0) (st : σ) (g buf X D : Mem K) (bias : Bool) (m : ℕ) (xT dT : Bool) :
    ∃ w' st' g', pUpdate fp dev { t with dw := none } st buf X D bias m xT dT = ({ t with dw := none, w := w' }, st') ∧
      pUpdate fp dev { t with dw := some g } st buf X D bias m xT dT = ({ t with dw := some g' }, st') ∧
      ∀ p, p < t.dSz * t.xSz → g' p = (t.w p - w' p) / t.lr := by
  unfold pUpdate
  by_cases hv : m = 1 ∧ (!xT) = true ∧ (!dT) = true
  · rw [if_pos hv, if_pos hv]
    cases bias
    · exact pVector_grad fp dev t hd hl hb st g X D
    · exact pVector_grad fp dev t hd hl hb st g (toVectorBias t buf X) D
  · rw [if_neg hv, if_neg hv]
    cases bias
    · exact pMatrix_grad fp dev t hd hl hb st g X D m xT dT
    · exact pMatrix_grad fp dev t hd hl hb st g (makeBias buf X t.xSz m xT) D m xT dT

variable [DecidableEq K]

/-- **C88 (gradient of the shared weights).** For every device and every layout: the gradient that the backward pass
returns is the weight change that the same update would make, divided by minus the learning rate; the weights of the
tile are kept, updates write to the weights again afterwards, and the state of the devices is the one after the
update. -/
theorem C88_gradient (fp : Bool) (dev : Dev K σ) (t : Rpu K) (hd : Inside dev t.xSz t.dSz) (ht : t.dw = none)
    (hl : t.lr ≠ 0) (hb : t.bAlpha ≠ 0) (st : σ) (buf g : Mem K) (xd dd : List ℕ) (X D : Mem K) (bias xT dT : Bool) :
    (∀ r, sharedGrad fp dev t st buf g xd dd X D bias xT dT = .ok r →
      ∃ w' st' g', pTileUpdate fp dev t st buf xd dd X D bias xT dT = .ok ({ t with w := w' }, st') ∧
        r = (some g', t, st') ∧ ∀ p, p < t.dSz * t.xSz → g' p = (t.w p - w' p) / t.lr) ∧
    ((∃ r, sharedGrad fp dev t st buf g xd dd X D bias xT dT = .ok r) ↔
      ∃ r, pTileUpdate fp dev t st buf xd dd X D bias xT dT = .ok r) := by
  have e0 : { t with dw := none } = t := by rw [← ht]
  have hl' : ¬ (setDelta t (some g)).lr = 0 := hl
  unfold sharedGrad pTileUpdate
  rw [if_neg hl, if_neg hl', show vecSize (setDelta t (some g)).xSz bias = vecSize t.xSz bias from rfl,
    show (((setDelta t (some g)).dSz : ℕ) : ℤ) = (t.dSz : ℤ) from rfl]
  cases updateBatch xd dd xT dT (vecSize t.xSz bias) t.dSz with
  | error e => simp
  | ok m =>
    obtain ⟨w', st', g', h1, h2, h3⟩ := pUpdate_grad fp dev t hd hl hb st g buf X D bias m xT dT
    rw [e0] at h1
    simp only [setDelta, h2]
    refine ⟨?_, ?_⟩
    · intro r hr
      refine ⟨w', st', g', ?_, ?_, h3⟩
      · rw [h1]
        refine congrArg Except.ok (Prod.ext ?_ rfl)
        show Rpu.mk _ _ _ _ _ _ _ _ _ = Rpu.mk _ _ _ _ _ _ _ _ _
        rw [ht]
      · injection hr with hr
        rw [← hr, e0]
    · exact ⟨fun _ => ⟨_, rfl⟩, fun _ => ⟨_, rfl⟩⟩

/-- **C88 (exact gradient).** With a floating-point update the gradient is the sum of the outer products of errors
and inputs. -/
theorem C88_exact (dev : Dev K σ) (t : Rpu K) (ht : t.dw = none) (hl : t.lr ≠ 0) (st : σ) (buf g : Mem K)
    (xd dd : List ℕ) (X D : Mem K) (bias xT dT : Bool) (r : Option (Mem K) × Rpu K × σ)
    (h : sharedGrad true dev t st buf g xd dd X D bias xT dT = .ok r) :
    ∃ m g', numel xd = m * nIn t bias ∧ numel dd = m * t.dSz ∧ r = (some g', t, st) ∧
      ∀ i j, i < t.dSz → j < t.xSz → g' (i * t.xSz + j) = outer t X D bias m xT dT i j / t.bAlpha := by
  have e0 : { t with dw := none } = t := by rw [← ht]
  have hup : ∀ m, pUpdate true dev { t with dw := some g } st buf X D bias m xT dT =
      (update { t with dw := some g } buf X D bias m xT dT, st) := by
    intro m
    unfold pUpdate update
    by_cases hv : m = 1 ∧ (!xT) = true ∧ (!dT) = true
    · rw [if_pos hv, if_pos hv]
      cases bias <;> rfl
    · rw [if_neg hv, if_neg hv]
      cases bias <;> rfl
  unfold sharedGrad pTileUpdate at h
  have hl' : ¬ (setDelta t (some g)).lr = 0 := hl
  rw [if_neg hl'] at h
  cases hb : updateBatch xd dd xT dT (vecSize (setDelta t (some g)).xSz bias) (setDelta t (some g)).dSz with
  | error e => rw [hb] at h; cases h
  | ok m =>
    rw [hb] at h
    have acc : tileUpdate (setDelta t (some g)) buf xd dd X D bias xT dT =
        .ok (update (setDelta t (some g)) buf X D bias m xT dT) := by
      unfold tileUpdate
      rw [if_neg hl', hb]
    obtain ⟨m', h1, h2, h3⟩ := (C87_tile_update (setDelta t (some g)) hl' buf X D xd dd bias xT dT).1 _ acc
    obtain ⟨-, hacc⟩ := C87_tile_update (setDelta t (some g)) hl' buf X D xd dd bias xT dT
    obtain ⟨c1, c2, c3, c4, c5⟩ := hacc.mp ⟨_, acc⟩
    have hx : bias = true → 1 ≤ t.xSz := by
      rintro rfl
      have : inSize xd xT + 1 = t.xSz := by simpa [setDelta] using c3
      omega
    have hm : m = m' := by
      have a : numel dd = m * t.dSz := by
        have := (C87_tile_update (setDelta t (some g)) hl' buf X D xd dd bias xT dT)
        unfold updateBatch at hb
        split at hb
        · cases hb
        · split at hb
          · cases hb
          · split at hb
            · cases hb
            · split at hb
              · cases hb
              · split at hb
                · cases hb
                · cases hb
                  have c4' : inSize dd dT = t.dSz := c4
                  rw [c5, ← c4', Nat.div_mul_cancel (inSize_mem _ _ c2)]
      have b : numel dd = m' * t.dSz := h2
      have hd : 0 < t.dSz := by
        have c4' : inSize dd dT = t.dSz := c4
        omega
      exact Nat.eq_of_mul_eq_mul_right hd (a.symm.trans b)
    subst hm
    obtain ⟨g', f1, f2, -⟩ := C87_gradient { t with dw := some g } g rfl buf X D bias hx m xT dT
    simp only [setDelta, hup, f1] at h
    injection h with h
    refine ⟨m, g', h1, h2, ?_, f2⟩
    rw [← h, e0]

/-- **C88 (learning rate zero).** With learning rate zero the gradient that the backward pass returns is the
uninitialised content of the new tensor, whatever inputs and errors are. -/
theorem C88_garbage (fp : Bool) (dev : Dev K σ) (t : Rpu K) (ht : t.dw = none) (hl : t.lr = 0) (st : σ)
    (buf g : Mem K) (xd dd : List ℕ) (X D : Mem K) (bias xT dT : Bool) :
    sharedGrad fp dev t st buf g xd dd X D bias xT dT = .ok (some g, t, st) := by
  have e0 : { t with dw := none } = t := by rw [← ht]
  unfold sharedGrad pTileUpdate
  have hl' : (setDelta t (some g)).lr = 0 := hl
  rw [if_pos hl']
  show Except.ok (some g, { t with dw := none }, st) = _
  rw [e0]

/-! ## Histories -/

/-- What happens to a floating-point tile in training. -/
inductive Op (K : Type) where
  /-- `set_learning_rate` -/
  | rate (lr : K)
  /-- a backward pass with shared weights -/
  | grad (buf g X D : Mem K) (bias : Bool) (m : ℕ) (xT dT : Bool)
  /-- an update -/
  | step (buf X D : Mem K) (bias : Bool) (m : ℕ) (xT dT : Bool)

/-- One call (functions.py:91-102; rpu_base_tiles.cpp:546-549; inputs and errors of matching sizes). -/
def exec (t : Rpu K) : Op K → Rpu K
  | .rate lr => { t with lr := lr }
  | .grad buf g X D bias m xT dT =>
    if t.lr = 0 then setDelta (setDelta t (some g)) none
    else setDelta (update (setDelta t (some g)) buf X D bias m xT dT) none
  | .step buf X D bias m xT dT => if t.lr = 0 then t else update t buf X D bias m xT dT

/-- What the updates of a history subtract from weight `(i, j)`, starting with a learning rate. -/
def subtracted (t : Rpu K) (i j : ℕ) : K → List (Op K) → K
  | _, [] => 0
  | _, .rate lr :: l => subtracted t i j lr l
  | r, .grad .. :: l => subtracted t i j r l
  | r, .step _ X D bias m xT dT :: l => r / t.bAlpha * outer t X D bias m xT dT i j + subtracted t i j r l

/-- **C88 (history).** After any sequence of updates, backward passes with shared weights and changes of the learning
rate, the weights are the original ones minus the sum of learning rate times outer products of the updates; backward
passes do not matter. -/
theorem C88_history (t : Rpu K) (ht : t.dw = none) (ops : List (Op K))
    (hx : ∀ o ∈ ops, ∀ buf X D m xT dT, o = .step buf X D true m xT dT → 1 ≤ t.xSz)
    (hg : ∀ o ∈ ops, ∀ buf g X D m xT dT, o = .grad buf g X D true m xT dT → 1 ≤ t.xSz)
    (i j : ℕ) (hi : i < t.dSz) (hj : j < t.xSz) :
    (ops.foldl exec t).w (i * t.xSz + j) = t.w (i * t.xSz + j) - subtracted t i j t.lr ops ∧
      (ops.foldl exec t).dw = none := by
  induction ops generalizing t with
  | nil => simp [subtracted, ht]
  | cons o ops ih =>
    rw [List.foldl_cons]
    have sub : ∀ (t' : Rpu K), t'.xSz = t.xSz → t'.dSz = t.dSz → t'.bAlpha = t.bAlpha → ∀ r (l : List (Op K)),
        subtracted t' i j r l = subtracted t i j r l := by
      intro t' e1 e2 e3 r l
      induction l generalizing r with
      | nil => rfl
      | cons o l ihl =>
        cases o with
        | rate lr => exact ihl lr
        | grad => exact ihl r
        | step buf X D bias m xT dT =>
          simp only [subtracted]
          rw [ihl r, e3]
          congr 2
          unfold outer xin nIn
          rw [e1, e2]
    have next : ∀ t' : Rpu K, t'.xSz = t.xSz → t'.dSz = t.dSz → t'.bAlpha = t.bAlpha → t'.dw = none →
        (ops.foldl exec t').w (i * t.xSz + j) = t'.w (i * t.xSz + j) - subtracted t i j t'.lr ops ∧
          (ops.foldl exec t').dw = none := by
      intro t' e1 e2 e3 e4
      have := ih t' e4 (fun o ho buf X D m xT dT e => by
          rw [e1]; exact hx o (List.mem_cons_of_mem _ ho) buf X D m xT dT e)
        (fun o ho buf g X D m xT dT e => by
          rw [e1]; exact hg o (List.mem_cons_of_mem _ ho) buf g X D m xT dT e)
        (by omega) (by omega)
      rw [e1, sub t' e1 e2 e3] at this
      exact this
    cases o with
    | rate lr => exact next { t with lr := lr } rfl rfl rfl ht
    | grad buf g X D bias m xT dT =>
      have e0 : { t with dw := none } = t := by rw [← ht]
      have : exec t (.grad buf g X D bias m xT dT) = t := by
        simp only [exec]
        split
        · exact e0
        · obtain ⟨g', f1, _, _⟩ := C87_gradient { t with dw := some g } g rfl buf X D bias
            (fun hb => hg _ List.mem_cons_self buf g X D m xT dT (by rw [hb])) m xT dT
          show setDelta (update { t with dw := some g } buf X D bias m xT dT) none = t
          rw [f1]
          exact e0
      rw [this]
      exact next t rfl rfl rfl ht
    | step buf X D bias m xT dT =>
      simp only [exec, subtracted]
      by_cases hl : t.lr = 0
      · rw [if_pos hl]
        have := next t rfl rfl rfl ht
        refine ⟨?_, this.2⟩
        rw [this.1, hl]
        simp
      · rw [if_neg hl]
        obtain ⟨w', f1, f2, _⟩ := C87_update t ht buf X D bias
          (fun hb => hx _ List.mem_cons_self buf X D m xT dT (by rw [hb])) m xT dT
        rw [f1]
        have := next { t with w := w' } rfl rfl rfl ht
        refine ⟨?_, this.2⟩
        rw [this.1]
        show w' (i * t.xSz + j) - subtracted t i j t.lr ops = _
        rw [f2 i j hi hj]
        ring

end Aihw.RpuSimple

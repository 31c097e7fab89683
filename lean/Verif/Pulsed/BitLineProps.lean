import Verif.Pulsed.BitLine

/-!
# C45: which pulses an update delivers
-/
namespace Aihw.Pulsed

variable {K : Type} [Field K] [LinearOrder K] [IsStrictOrderedRing K] [FloorRing K]

/-! ## rint -/

theorem floor_le_rint (x : K) : ⌊x⌋ ≤ rint x := by unfold rint; split_ifs <;> omega
theorem rint_le_floor (x : K) : rint x ≤ ⌊x⌋ + 1 := by unfold rint; split_ifs <;> omega

theorem le_rint {a : ℤ} {x : K} (h : (a : K) ≤ x) : a ≤ rint x :=
  (Int.le_floor.2 h).trans (floor_le_rint x)

theorem rint_le {a : ℤ} {x : K} (h : x ≤ (a : K)) : rint x ≤ a := by
  rcases lt_or_eq_of_le h with h1 | h1
  · have : ⌊x⌋ < a := Int.floor_lt.2 h1
    exact (rint_le_floor x).trans (by omega)
  · subst h1
    unfold rint
    simp

theorem rint_intCast (a : ℤ) : rint (a : K) = a := le_antisymm (rint_le le_rfl) (le_rint le_rfl)

theorem rint_zero : rint (0 : K) = 0 := by
  have := rint_intCast (K := K) 0
  simpa using this

theorem rint_nonneg {x : K} (h : 0 ≤ x) : 0 ≤ rint x := le_rint (by simpa using h)
theorem rint_nonpos {x : K} (h : x ≤ 0) : rint x ≤ 0 := rint_le (by simpa using h)

theorem rint_half_le_zero {x : K} (h0 : -(1 / 2) ≤ x) (h : x ≤ 1 / 2) : rint x = 0 := by
  rcases lt_or_ge x 0 with hx | hx
  · have hf : ⌊x⌋ = -1 := by
      rw [Int.floor_eq_iff]; push_cast
      constructor <;> linarith
    unfold rint
    rw [hf]
    push_cast
    split_ifs with h1 h2
    · linarith
    · rfl
    · rfl
  · have hf : ⌊x⌋ = 0 := by
      rw [Int.floor_eq_iff]; push_cast
      constructor <;> linarith
    unfold rint
    rw [hf]
    push_cast
    split_ifs with h1 h2
    · rfl
    · linarith
    · rfl

/-! ## Specification -/

/-- Draws of a pulse train are uniform numbers in `[0, 1)`. -/
def UnitDraws (t : TrainDraw K) : Prop :=
  (∀ j, 0 ≤ t.uq j ∧ t.uq j < 1) ∧ ∀ k j, 0 ≤ t.r k j ∧ t.r k j < 1

/-- Entry `j` sends a pulse in slot `k`: its uniform draw is below its pulse probability, which is
`|v j| * P` up to the configured resolution. -/
def Fires (P res : K) (sto : Bool) (v : Nat → K) (t : TrainDraw K) (k j : Nat) : Prop :=
  t.r k j < discretized res sto (|v j| * P) (t.uq j)

instance (P res : K) (sto : Bool) (v : Nat → K) (t : TrainDraw K) (k j : Nat) :
    Decidable (Fires P res sto v t k j) := by unfold Fires; infer_instance

/-- The slots in which both the row and the column of a cell fire. -/
def hits (tr : Trains K) (x d : Nat → K) (tx td : TrainDraw K) (i j : Nat) : List Nat :=
  (List.range tr.bl).filter fun k =>
    decide (Fires tr.a tr.res tr.sto d td k i ∧ Fires tr.b tr.res tr.sto x tx k j)

/-! ## Lemmas -/

theorem fires_ne_zero {P res : K} {sto : Bool} {v : Nat → K} {t : TrainDraw K} (ht : UnitDraws t)
    {k j : Nat} (h : Fires P res sto v t k j) : 0 < prob P res sto v t j :=
  lt_of_le_of_lt (ht.2 k j).1 h

theorem discretized_zero (res : K) (sto : Bool) (u : K) (h0 : 0 ≤ u) (h1 : u < 1) :
    discretized res sto 0 u = 0 := by
  unfold discretized
  split_ifs
  · rfl
  · rw [zero_div, zero_add, rint_half_le_zero (by linarith) (by linarith)]; simp
  · rw [zero_div, rint_zero]; simp

/-- Entries that are zero never fire. -/
theorem not_fires_zero {P res : K} {sto : Bool} {v : Nat → K} {t : TrainDraw K} (ht : UnitDraws t)
    {k j : Nat} (h : v j = 0) : ¬ Fires P res sto v t k j := by
  intro hf
  have := fires_ne_zero ht hf
  rw [prob, h, abs_zero, zero_mul, discretized_zero _ _ _ (ht.1 j).1 (ht.1 j).2] at this
  exact lt_irrefl _ this

theorem unsign_signedIdx (v : K) (j : Nat) : unsign (signedIdx v j) = j := by
  unfold unsign signedIdx
  by_cases h : 0 < v
  · rw [if_pos h, if_neg (show ¬ ((j : ℤ) + 1 < 0) by omega)]; omega
  · rw [if_neg h, if_pos (show (-((j : ℤ) + 1) < 0) by omega)]; omega

theorem signedIdx_neg (v : K) (j : Nat) : signedIdx v j < 0 ↔ ¬ 0 < v := by
  unfold signedIdx
  by_cases h : 0 < v
  · rw [if_pos h]; simp only [h, not_true_eq_false, iff_false]; omega
  · rw [if_neg h]; simp only [h, not_false_eq_true, iff_true]; omega

/-- Filtering a flatMap over a range in which only one index contributes. -/
theorem filter_flatMap_single {β : Type} (n i : Nat) (hi : i < n) (φ : Nat → List β)
    (p : β → Bool) (h : ∀ m, m ≠ i → (φ m).filter p = []) :
    ((List.range n).flatMap φ).filter p = (φ i).filter p := by
  have hempty : ∀ l : List Nat, i ∉ l → (l.flatMap φ).filter p = [] := by
    intro l
    induction l with
    | nil => intro _; rfl
    | cons a l ih =>
      intro hl
      rw [List.flatMap_cons, List.filter_append, h a (fun e => hl (e ▸ List.mem_cons_self ..)),
        ih (fun hh => hl (List.mem_cons_of_mem _ hh)), List.append_nil]
  have key : ∀ l : List Nat, l.Nodup → i ∈ l → (l.flatMap φ).filter p = (φ i).filter p := by
    intro l
    induction l with
    | nil => intro _ hi; simp at hi
    | cons a l ih =>
      intro hnd hil
      rw [List.flatMap_cons, List.filter_append]
      rw [List.nodup_cons] at hnd
      by_cases ha : a = i
      · subst ha
        rw [hempty l hnd.1, List.append_nil]
      · rw [h a ha, List.nil_append]
        exact ih hnd.2 ((List.mem_cons.1 hil).resolve_left (fun e => ha e.symm))
  exact key _ List.nodup_range (List.mem_range.2 hi)

theorem filterMap_flatMap' {α β γ : Type} (l : List α) (f : α → Option β) (G : β → List γ) :
    (l.filterMap f).flatMap G = l.flatMap fun m => match f m with
      | none => []
      | some b => G b := by
  induction l with
  | nil => rfl
  | cons a l ih =>
    rw [List.flatMap_cons, ← ih]
    cases h : f a with
    | none => rw [List.filterMap_cons_none h]; simp
    | some b => rw [List.filterMap_cons_some h, List.flatMap_cons]

theorem map_filterMap_flatMap {α β γ : Type} (l : List α) (f : α → Option β) (G : β → γ) :
    (l.filterMap f).map G = l.flatMap fun m => match f m with
      | none => []
      | some b => [G b] := by
  rw [← filterMap_flatMap', List.map_eq_flatMap]

theorem flat_ne {X m i j' j : Nat} (hj : j < X) (hj' : j' < X) (h : m * X + j' = i * X + j) :
    m = i ∧ j' = j := by
  have hX : 0 < X := by omega
  have h1 : (m * X + j') / X = m := by
    rw [Nat.add_comm, Nat.add_mul_div_right _ _ hX, Nat.div_eq_of_lt hj', Nat.zero_add]
  have h2 : (i * X + j) / X = i := by
    rw [Nat.add_comm, Nat.add_mul_div_right _ _ hX, Nat.div_eq_of_lt hj, Nat.zero_add]
  have hm : m = i := by rw [← h1, ← h2, h]
  subst hm
  exact ⟨rfl, by omega⟩

/-- Columns contributing to cell `(i, j)` for a fixed row index. -/
theorem filter_cols {X : Nat} (f : Nat → Option ℤ) (hf : ∀ m z, f m = some z → unsign z = m)
    (lrSign : ℤ) (pd : PulseDraw K) (k : Nat) (zi : ℤ) (i j : Nat) (hj : j < X) :
    (((List.range X).filterMap f).map (mkPulse X lrSign pd k zi)).filter
        (fun q => decide (q.k = i * X + j)) =
      if unsign zi = i then (match f j with
        | none => []
        | some z => [mkPulse X lrSign pd k zi z]) else [] := by
  rw [map_filterMap_flatMap]
  by_cases hi : unsign zi = i
  · rw [if_pos hi, filter_flatMap_single X j hj]
    · cases h : f j with
      | none => rfl
      | some z =>
        have := hf j z h
        simp [mkPulse, hi, this]
    · intro m hm
      cases h : f m with
      | none => rfl
      | some z =>
        have hz := hf m z h
        simp only [List.filter_cons, List.filter_nil, mkPulse, hi, hz]
        rw [if_neg]
        simp only [decide_eq_true_eq]
        omega
  · rw [if_neg hi]
    rw [List.filter_eq_nil_iff]
    intro q hq
    rw [List.mem_flatMap] at hq
    obtain ⟨m, hm, hq⟩ := hq
    cases h : f m with
    | none => rw [h] at hq; simp at hq
    | some z =>
      rw [h] at hq
      simp only [List.mem_singleton] at hq
      subst hq
      have hz := hf m z h
      simp only [mkPulse, hz, decide_eq_true_eq]
      intro he
      exact hi (flat_ne hj (List.mem_range.1 hm) he).1

/-- The columns of one slot, both pulse types together: what reaches cell `(i, j)` through row
index `zi`. -/
theorem filter_slot (ty : SparseType) (tr : Trains K) {X : Nat} (lrSign : ℤ) (x : Nat → K)
    (tx : TrainDraw K) (htx : UnitDraws tx) (pd : PulseDraw K) (k : Nat) (zi : ℤ) (i j : Nat)
    (hj : j < X) :
    (slotPulses ty tr X lrSign x tx pd k zi).filter
        (fun q => decide (q.k = i * X + j)) =
      if unsign zi = i ∧ Fires tr.b tr.res tr.sto x tx k j then
        [mkPulse X lrSign pd k zi (signedIdx (x j) j)] else [] := by
  have hfire : ∀ m, (tx.r k m < prob tr.b tr.res tr.sto x tx m) ↔
      Fires tr.b tr.res tr.sto x tx k m := fun m => Iff.rfl
  have hne : Fires tr.b tr.res tr.sto x tx k j → ¬ prob tr.b tr.res tr.sto x tx j = 0 :=
    fun h => (fires_ne_zero htx h).ne'
  cases ty with
  | compressed =>
    simp only [slotPulses, indices]
    rw [filter_cols _ _ _ _ _ _ _ _ hj]
    · by_cases hi : unsign zi = i
      · simp only [hi, if_true, true_and]
        by_cases h : Fires tr.b tr.res tr.sto x tx k j
        · simp [h, hne h, hfire]
        · by_cases h0 : prob tr.b tr.res tr.sto x tx j = 0 <;> simp [h, h0, hfire]
      · simp [hi]
    · intro m z hz
      split_ifs at hz
      simp only [Option.some.injEq] at hz
      subst hz
      exact unsign_signedIdx _ _
  | stochastic =>
    simp only [slotPulses, indicesP, indicesN]
    rw [List.filter_append, filter_cols _ _ _ _ _ _ _ _ hj, filter_cols _ _ _ _ _ _ _ _ hj]
    · by_cases hi : unsign zi = i
      · simp only [hi, if_true, true_and]
        by_cases h : Fires tr.b tr.res tr.sto x tx k j
        · by_cases hx : 0 < x j <;> simp [h, hne h, hfire, hx]
        · by_cases h0 : prob tr.b tr.res tr.sto x tx j = 0
          · simp [h, h0]
          · by_cases hx : 0 < x j <;> simp [h, h0, hfire, hx]
      · simp [hi]
    · intro m z hz
      split_ifs at hz
      simp only [Option.some.injEq] at hz
      subst hz
      exact unsign_signedIdx _ _
    · intro m z hz
      split_ifs at hz
      simp only [Option.some.injEq] at hz
      subst hz
      exact unsign_signedIdx _ _

/-- Direction of the pulses at a cell: down exactly when `lr * x * d` is positive. -/
theorem mkPulse_dir {X : Nat} (lrSign : ℤ) (h1 : lrSign = 1 ∨ lrSign = -1) (pd : PulseDraw K)
    (k i j : Nat) (xv dv : K) (hx : xv ≠ 0) (hd : dv ≠ 0) :
    mkPulse X lrSign pd k (signedIdx dv i) (signedIdx xv j) =
      ⟨i * X + j, decide (0 < (lrSign : K) * (xv * dv)), pd.g k i j, pd.g2 k i j⟩ := by
  have hdir : decide (0 < (if signedIdx xv j < 0 then
      -(if signedIdx dv i < 0 then -lrSign else lrSign)
      else (if signedIdx dv i < 0 then -lrSign else lrSign))) =
      decide (0 < (lrSign : K) * (xv * dv)) := by
    simp only [signedIdx_neg]
    rcases lt_or_gt_of_ne hx with h2 | h2 <;> rcases lt_or_gt_of_ne hd with h3 | h3 <;>
      rcases h1 with rfl | rfl <;>
      simp only [h2, h3, not_lt.2 h2.le, not_lt.2 h3.le, not_true_eq_false, not_false_eq_true,
        if_true, if_false] <;> push_cast <;> simp
    · exact mul_pos_of_neg_of_neg h2 h3
    · exact (mul_pos_of_neg_of_neg h2 h3).le
    · exact (mul_neg_of_neg_of_pos h2 h3).le
    · exact mul_neg_of_neg_of_pos h2 h3
    · exact (mul_neg_of_pos_of_neg h2 h3).le
    · exact mul_neg_of_pos_of_neg h2 h3
    · exact mul_pos h2 h3
    · exact (mul_pos h2 h3).le
  simp only [mkPulse, unsign_signedIdx]
  rw [← hdir]

/-- A cell's state after a list of pulses depends only on the pulses addressed to it. -/
theorem pulses_st (F : Fns K) (d : Dev K) (l : List (P K)) (k : Nat) :
    (d.pulses F l).st k = (l.filter fun q => decide (q.k = k)).foldl
      (fun s q => pulse F d.kd d.par (d.cell k) s q.down q.g q.g2) (d.st k) := by
  induction l generalizing d with
  | nil => rfl
  | cons q l ih =>
    rw [pulses_cons, ih, List.filter_cons]
    simp only [pulse1_kd, pulse1_par, pulse1_cell]
    by_cases h : q.k = k
    · simp only [h, decide_true, if_true, List.foldl_cons]
      congr 1
      simp [Dev.pulse1, h]
    · simp only [h, decide_false, Bool.false_eq_true, if_false]
      congr 1
      simp only [Dev.pulse1]
      rw [if_neg (fun e => h e.symm)]

/-! ## Properties -/

/-- **C45 (stochastic pulse trains).**  For both stochastic pulse types, every learning-rate sign,
every pair of vectors and all draws: the pulses that a rank-1 update sends to cell `(i, j)` are
exactly one per slot in which both row `i` and column `j` fire, in slot order, all in the direction
`-sign(lr * x_j * d_i)` (down iff `lr x_j d_i > 0`). -/
theorem C45_cell_pulses (ty : SparseType) (tr : Trains K) (X D : Nat) (lrSign : ℤ)
    (hlr : lrSign = 1 ∨ lrSign = -1) (x d : Nat → K) (tx td : TrainDraw K) (htx : UnitDraws tx)
    (htd : UnitDraws td) (pd : PulseDraw K) (i j : Nat) (hi : i < D) (hj : j < X) :
    (sparsePulses ty tr X D lrSign x d tx td pd).filter (fun q => decide (q.k = i * X + j)) =
      (hits tr x d tx td i j).map fun k =>
        ⟨i * X + j, decide (0 < (lrSign : K) * (x j * d i)), pd.g k i j, pd.g2 k i j⟩ := by
  have slot : ∀ k, ((indices D tr.a tr.res tr.sto d td k).flatMap
      (slotPulses ty tr X lrSign x tx pd k)).filter (fun q => decide (q.k = i * X + j)) =
      if Fires tr.a tr.res tr.sto d td k i ∧ Fires tr.b tr.res tr.sto x tx k j then
        [⟨i * X + j, decide (0 < (lrSign : K) * (x j * d i)), pd.g k i j, pd.g2 k i j⟩]
      else [] := by
    intro k
    rw [indices, filterMap_flatMap', filter_flatMap_single D i hi]
    · by_cases hf : Fires tr.a tr.res tr.sto d td k i
      · have hp := fires_ne_zero htd hf
        have hr : td.r k i < prob tr.a tr.res tr.sto d td i := hf
        simp only [hp.ne', if_false, hr, if_true]
        rw [filter_slot ty tr lrSign x tx htx pd k _ i j hj, unsign_signedIdx]
        by_cases hfx : Fires tr.b tr.res tr.sto x tx k j
        · rw [if_pos ⟨rfl, hfx⟩, if_pos ⟨hf, hfx⟩]
          rw [mkPulse_dir lrSign hlr pd k i j (x j) (d i)
            (fun h => not_fires_zero htx h hfx) (fun h => not_fires_zero htd h hf)]
        · rw [if_neg (fun h => hfx h.2), if_neg (fun h => hfx h.2)]
      · have hr : ¬ td.r k i < prob tr.a tr.res tr.sto d td i := hf
        simp only [hr, if_false, ite_self]
        rw [if_neg (fun h : _ ∧ _ => hf h.1)]
        rfl
    · intro m hm
      by_cases h0 : prob tr.a tr.res tr.sto d td m = 0
      · simp [h0]
      by_cases hr : td.r k m < prob tr.a tr.res tr.sto d td m
      · simp only [h0, if_false, hr, if_true]
        rw [filter_slot ty tr lrSign x tx htx pd k _ i j hj, unsign_signedIdx]
        rw [if_neg (fun h => hm h.1)]
      · simp [h0, hr]
  unfold sparsePulses hits
  generalize List.range tr.bl = l
  induction l with
  | nil => rfl
  | cons k l ih =>
    rw [List.flatMap_cons, List.filter_append, ih, slot k, List.filter_cons]
    by_cases h : Fires tr.a tr.res tr.sto d td k i ∧ Fires tr.b tr.res tr.sto x tx k j
    · simp [h]
    · simp [h]

/-- **C45 (both stochastic types agree).**  The per-cell pulse sequence, hence the weights after the
update, are the same for `Stochastic` and `StochasticCompressed` given the same draws. -/
theorem C45_types_agree (F : Fns K) (dev : Dev K) (tr : Trains K) (D : Nat) (lrSign : ℤ)
    (hlr : lrSign = 1 ∨ lrSign = -1) (x d : Nat → K) (tx td : TrainDraw K) (htx : UnitDraws tx)
    (htd : UnitDraws td) (pd : PulseDraw K) (i j : Nat) (hi : i < D) (hj : j < dev.xSize) :
    (dev.pulses F (sparsePulses .stochastic tr dev.xSize D lrSign x d tx td pd)).st
        (i * dev.xSize + j) =
      (dev.pulses F (sparsePulses .compressed tr dev.xSize D lrSign x d tx td pd)).st
        (i * dev.xSize + j) := by
  rw [pulses_st, pulses_st, C45_cell_pulses _ _ _ _ _ hlr _ _ _ _ htx htd _ _ _ hi hj,
    C45_cell_pulses _ _ _ _ _ hlr _ _ _ _ htx htd _ _ _ hi hj]

/-- **C45 (untouched cells).**  A cell whose input `x_j` or error `d_i` is zero is not changed at
all by an update, and no cell receives more than `BL` pulses. -/
theorem C45_zero_untouched (F : Fns K) (dev : Dev K) (ty : SparseType) (tr : Trains K) (D : Nat)
    (lrSign : ℤ) (hlr : lrSign = 1 ∨ lrSign = -1) (x d : Nat → K) (tx td : TrainDraw K)
    (htx : UnitDraws tx) (htd : UnitDraws td) (pd : PulseDraw K) (i j : Nat) (hi : i < D)
    (hj : j < dev.xSize) :
    (x j = 0 ∨ d i = 0 →
      (dev.pulses F (sparsePulses ty tr dev.xSize D lrSign x d tx td pd)).st (i * dev.xSize + j) =
        dev.st (i * dev.xSize + j)) ∧
    ((sparsePulses ty tr dev.xSize D lrSign x d tx td pd).filter
      (fun q => decide (q.k = i * dev.xSize + j))).length ≤ tr.bl := by
  rw [pulses_st, C45_cell_pulses _ _ _ _ _ hlr _ _ _ _ htx htd _ _ _ hi hj]
  constructor
  · intro h
    have : hits tr x d tx td i j = [] := by
      unfold hits
      rw [List.filter_eq_nil_iff]
      intro k _
      simp only [decide_eq_true_eq]
      rintro ⟨h1, h2⟩
      rcases h with h | h
      · exact not_fires_zero htx h h2
      · exact not_fires_zero htd h h1
    rw [this]; rfl
  · rw [List.length_map]
    unfold hits
    exact (List.length_filter_le _ _).trans (by simp)

/-- **C45 (saturated trains).**  With continuous resolution, if both scaled magnitudes are at least
one, the cell receives a pulse in every slot: exactly `BL` pulses. -/
theorem C45_saturated (ty : SparseType) (tr : Trains K) (X D : Nat) (lrSign : ℤ)
    (hlr : lrSign = 1 ∨ lrSign = -1) (x d : Nat → K) (tx td : TrainDraw K)
    (htx : UnitDraws tx) (htd : UnitDraws td) (pd : PulseDraw K) (i j : Nat) (hi : i < D)
    (hj : j < X) (hres : tr.res ≤ 0) (h1 : 1 ≤ |x j| * tr.b) (h2 : 1 ≤ |d i| * tr.a) :
    ((sparsePulses ty tr X D lrSign x d tx td pd).filter
      (fun q => decide (q.k = i * X + j))).length = tr.bl := by
  rw [C45_cell_pulses _ _ _ _ _ hlr _ _ _ _ htx htd _ _ _ hi hj, List.length_map]
  unfold hits
  rw [List.filter_eq_self.2]
  · simp
  · intro k _
    simp only [decide_eq_true_eq, Fires, discretized, hres, if_true]
    exact ⟨lt_of_lt_of_le (htd.2 k i).2 h2, lt_of_lt_of_le (htx.2 k j).2 h1⟩

/-- **C45 (finding: resolution given as a number of steps).**  The update parameters document
resolutions > 1 as a number of steps, but the value is used as a step size: with `res ≥ 2`, no
stochastic rounding, and all scaled magnitudes of `x` at most one (guaranteed by update management,
C35), no cell ever receives a pulse. -/
theorem C45_res_steps_no_pulses (ty : SparseType) (tr : Trains K) (X D : Nat) (lrSign : ℤ)
    (hlr : lrSign = 1 ∨ lrSign = -1) (x d : Nat → K) (tx td : TrainDraw K)
    (htx : UnitDraws tx) (htd : UnitDraws td) (pd : PulseDraw K) (i j : Nat) (hi : i < D)
    (hj : j < X) (hres : 2 ≤ tr.res) (hsto : tr.sto = false) (hb : 0 ≤ tr.b)
    (h1 : |x j| * tr.b ≤ 1) :
    (sparsePulses ty tr X D lrSign x d tx td pd).filter (fun q => decide (q.k = i * X + j)) = [] := by
  rw [C45_cell_pulses _ _ _ _ _ hlr _ _ _ _ htx htd _ _ _ hi hj]
  have : hits tr x d tx td i j = [] := by
    unfold hits
    rw [List.filter_eq_nil_iff]
    intro k _
    simp only [decide_eq_true_eq, not_and]
    intro _ hf
    have hp := fires_ne_zero htx hf
    have hres' : ¬ tr.res ≤ 0 := by linarith
    have hr0 : 0 < tr.res := by linarith
    rw [prob, discretized, if_neg hres', hsto, if_neg (by simp)] at hp
    have h0 : 0 ≤ |x j| * tr.b / tr.res := div_nonneg (mul_nonneg (abs_nonneg _) hb) hr0.le
    have hle : |x j| * tr.b / tr.res ≤ 1 / 2 := by
      rw [div_le_iff₀ hr0]; linarith
    rw [rint_half_le_zero (by linarith) hle] at hp
    simp at hp
  rw [this]; rfl

/-! ### Dense updates -/

theorem meanCount_lrNeg (bl : Nat) (P res : K) (sto : Bool) (v u : K) (hu0 : 0 ≤ u) (hu1 : u < 1) :
    meanCount bl P res sto true v u = -meanCount bl P res sto false v u := by
  unfold meanCount
  simp only [if_true, Bool.false_eq_true, if_false, abs_neg]
  split_ifs with h1 h2 h3 h3
  · simp
  · have hv : v = 0 := le_antisymm (by linarith) h3
    rw [hv, abs_zero, zero_mul, discretized_zero _ _ _ hu0 hu1] at h1
    exact absurd rfl h1
  · ring
  · rfl
  · exact absurd (not_le.1 h3) (by linarith [not_le.1 h2])

theorem detValue_lrNeg (P res : K) (sto : Bool) (v u : K) (hu0 : 0 ≤ u) (hu1 : u < 1) :
    detValue P res sto true v u = -detValue P res sto false v u := by
  unfold detValue
  simp only [if_true, Bool.false_eq_true, if_false, abs_neg]
  split_ifs with h2 h3 h3
  · have hv : v = 0 := le_antisymm (by linarith) h3
    rw [hv, abs_zero, zero_mul, discretized_zero _ _ _ hu0 hu1]; simp
  · ring
  · rfl
  · exact absurd (not_le.1 h3) (by linarith [not_le.1 h2])

/-- **C45 (finding: dense pulse types ignore the sign of the learning rate).**  For `MeanCount` and
`DeterministicImplicit` a negative learning rate flips the sign of both vectors, so every cell gets
exactly the pulses, in the same direction, that the positive learning rate of the same magnitude
would give (the stochastic types reverse the direction, `C45_cell_pulses`). -/
theorem C45_dense_sign_lost (ty : DenseType) (q : Dense K) (X D : Nat) (x d ux ud : Nat → K)
    (hux : ∀ j, 0 ≤ ux j ∧ ux j < 1) (hud : ∀ i, 0 ≤ ud i ∧ ud i < 1) (pd : PulseDraw K) :
    densePulses ty q X D true x d ux ud pd = densePulses ty q X D false x d ux ud pd := by
  have : ∀ i j, coinc ty q true x d ux ud i j = coinc ty q false x d ux ud i j := by
    intro i j
    cases ty with
    | meanCount =>
      simp only [coinc, meanCount_lrNeg _ _ _ _ _ _ (hux j).1 (hux j).2,
        meanCount_lrNeg _ _ _ _ _ _ (hud i).1 (hud i).2, coincMean, neg_eq_zero]
      split_ifs
      · rfl
      · congr 1; push_cast; ring
    | detImplicit =>
      simp only [coinc, detValue_lrNeg _ _ _ _ _ (hux j).1 (hux j).2,
        detValue_lrNeg _ _ _ _ _ (hud i).1 (hud i).2, coincDet, neg_eq_zero]
      split_ifs
      · rfl
      · congr 1; ring
  unfold densePulses
  simp only [this]

theorem meanCount_bound (bl : Nat) (P res : K) (sto : Bool) (v u : K) :
    |meanCount bl P res sto false v u| ≤ bl := by
  unfold meanCount
  simp only [Bool.false_eq_true, if_false]
  split_ifs
  · simp
  · rw [abs_of_nonneg (le_max_right _ _)]; exact max_le (min_le_right _ _) (by positivity)
  · rw [abs_neg, abs_of_nonneg (le_max_right _ _)]; exact max_le (min_le_right _ _) (by positivity)

theorem meanCount_sign (bl : Nat) (P res : K) (sto : Bool) (v u : K) (hu0 : 0 ≤ u) (hu1 : u < 1) :
    (0 < v → 0 ≤ meanCount bl P res sto false v u) ∧
    (v < 0 → meanCount bl P res sto false v u ≤ 0) ∧
    (v = 0 → meanCount bl P res sto false v u = 0) := by
  unfold meanCount
  simp only [Bool.false_eq_true, if_false]
  refine ⟨?_, ?_, ?_⟩
  · intro h
    split_ifs with h1 h2
    · exact le_rfl
    · exact le_max_right _ _
    · exact absurd h.le h2
  · intro h
    split_ifs with h1 h2
    · exact le_rfl
    · exact absurd h (not_lt.2 h2)
    · simp
  · intro h
    rw [h, abs_zero, zero_mul, discretized_zero _ _ _ hu0 hu1]; simp

theorem detValue_bound (P res : K) (sto : Bool) (v u : K) :
    |detValue P res sto false v u| ≤ 1 := by
  unfold detValue
  simp only [Bool.false_eq_true, if_false]
  split_ifs
  · rw [abs_of_nonneg (le_max_right _ _)]; exact max_le (min_le_right _ _) zero_le_one
  · rw [abs_neg, abs_of_nonneg (le_max_right _ _)]
    exact max_le (min_le_right _ _) zero_le_one

theorem detValue_sign (P res : K) (sto : Bool) (v u : K) (hu0 : 0 ≤ u) (hu1 : u < 1) :
    (0 < v → 0 ≤ detValue P res sto false v u) ∧
    (v < 0 → detValue P res sto false v u ≤ 0) ∧
    (v = 0 → detValue P res sto false v u = 0) := by
  unfold detValue
  simp only [Bool.false_eq_true, if_false]
  refine ⟨?_, ?_, ?_⟩
  · intro h
    rw [if_pos h.le]; exact le_max_right _ _
  · intro h
    rw [if_neg (not_le.2 h)]
    have := le_max_right (min (discretized res sto (|v| * P) u) 1) 0
    linarith
  · intro h
    rw [h, abs_zero, zero_mul, discretized_zero _ _ _ hu0 hu1]; simp

/-- Bound and sign of a rounded product. -/
theorem rint_prod {L : Type} [Field L] [LinearOrder L] [IsStrictOrderedRing L] [FloorRing L]
    (n : Nat) (p : L) (h : |p| ≤ (n : L)) : |rint p| ≤ (n : ℤ) := by
  rw [abs_le] at *
  refine ⟨le_rint ?_, rint_le ?_⟩
  · push_cast; exact h.1
  · push_cast; exact h.2

/-- **C45 (dense pulse trains).**  For a positive learning rate and both deterministic pulse types,
every cell gets at most `BL` pulses, never in the direction that increases the loss: the signed
coincidence has the sign of `x_j d_i` or is zero, and it is zero if `x_j = 0` or `d_i = 0`. -/
theorem C45_dense_counts (ty : DenseType) (q : Dense K) (x d ux ud : Nat → K)
    (hux : ∀ j, 0 ≤ ux j ∧ ux j < 1) (hud : ∀ i, 0 ≤ ud i ∧ ud i < 1) (i j : Nat) :
    |coinc ty q false x d ux ud i j| ≤ q.bl ∧
    (0 < x j * d i → 0 ≤ coinc ty q false x d ux ud i j) ∧
    (x j * d i < 0 → coinc ty q false x d ux ud i j ≤ 0) ∧
    (x j * d i = 0 → coinc ty q false x d ux ud i j = 0) := by
  cases ty with
  | meanCount =>
    simp only [coinc]
    obtain ⟨sx1, sx2, sx3⟩ := meanCount_sign q.bl q.b q.resX q.sto (x j) (ux j) (hux j).1 (hux j).2
    obtain ⟨sd1, sd2, sd3⟩ := meanCount_sign q.bl q.a q.resD q.sto (d i) (ud i) (hud i).1 (hud i).2
    have bx := meanCount_bound q.bl q.b q.resX q.sto (x j) (ux j)
    have bd := meanCount_bound q.bl q.a q.resD q.sto (d i) (ud i)
    generalize meanCount q.bl q.b q.resX q.sto false (x j) (ux j) = xc at *
    generalize meanCount q.bl q.a q.resD q.sto false (d i) (ud i) = dc at *
    have hbl : (0 : ℚ) ≤ q.bl := by positivity
    unfold coincMean
    refine ⟨?_, ?_, ?_, ?_⟩
    · split_ifs with h0
      · simp
      · apply rint_prod
        have hb1 : |(dc : ℚ) / q.bl| ≤ 1 := by
          rw [abs_div, abs_of_nonneg hbl]
          apply div_le_one_of_le₀ _ hbl
          exact_mod_cast bd
        have hb2 : |(xc : ℚ)| ≤ q.bl := by exact_mod_cast bx
        rw [abs_mul]
        calc _ ≤ 1 * (q.bl : ℚ) := mul_le_mul hb1 hb2 (abs_nonneg _) zero_le_one
          _ = _ := one_mul _
    · intro h
      split_ifs with h0
      · exact le_rfl
      · apply rint_nonneg
        rcases (mul_pos_iff.1 h) with ⟨h1, h2⟩ | ⟨h1, h2⟩
        · have a1 : (0 : ℚ) ≤ xc := by exact_mod_cast sx1 h1
          have a2 : (0 : ℚ) ≤ dc := by exact_mod_cast sd1 h2
          positivity
        · have a1 : (xc : ℚ) ≤ 0 := by exact_mod_cast sx2 h1
          have a2 : (dc : ℚ) ≤ 0 := by exact_mod_cast sd2 h2
          exact mul_nonneg_of_nonpos_of_nonpos (div_nonpos_of_nonpos_of_nonneg a2 hbl) a1
    · intro h
      split_ifs with h0
      · exact le_rfl
      · apply rint_nonpos
        rcases (mul_neg_iff.1 h) with ⟨h1, h2⟩ | ⟨h1, h2⟩
        · have a1 : (0 : ℚ) ≤ xc := by exact_mod_cast sx1 h1
          have a2 : (dc : ℚ) ≤ 0 := by exact_mod_cast sd2 h2
          exact mul_nonpos_of_nonpos_of_nonneg (div_nonpos_of_nonpos_of_nonneg a2 hbl) a1
        · have a1 : (xc : ℚ) ≤ 0 := by exact_mod_cast sx2 h1
          have a2 : (0 : ℚ) ≤ dc := by exact_mod_cast sd1 h2
          exact mul_nonpos_of_nonneg_of_nonpos (div_nonneg a2 hbl) a1
    · intro h
      rcases mul_eq_zero.1 h with h1 | h1
      · rw [sx3 h1]; simp [rint_zero]
      · rw [sd3 h1]; simp
  | detImplicit =>
    simp only [coinc]
    obtain ⟨sx1, sx2, sx3⟩ := detValue_sign q.b q.resX q.sto (x j) (ux j) (hux j).1 (hux j).2
    obtain ⟨sd1, sd2, sd3⟩ := detValue_sign q.a q.resD q.sto (d i) (ud i) (hud i).1 (hud i).2
    have bx := detValue_bound q.b q.resX q.sto (x j) (ux j)
    have bd := detValue_bound q.a q.resD q.sto (d i) (ud i)
    generalize detValue q.b q.resX q.sto false (x j) (ux j) = xc at *
    generalize detValue q.a q.resD q.sto false (d i) (ud i) = dc at *
    have hbl : (0 : K) ≤ q.bl := by positivity
    unfold coincDet
    refine ⟨?_, ?_, ?_, ?_⟩
    · split_ifs with h0
      · simp
      · apply rint_prod
        rw [abs_mul, abs_mul, abs_of_nonneg hbl]
        calc _ ≤ (1 * (q.bl : K)) * 1 := by
              apply mul_le_mul _ bx (abs_nonneg _) (by linarith)
              exact mul_le_mul_of_nonneg_right bd hbl
          _ = _ := by ring
    · intro h
      split_ifs with h0
      · exact le_rfl
      · apply rint_nonneg
        rcases (mul_pos_iff.1 h) with ⟨h1, h2⟩ | ⟨h1, h2⟩
        · exact mul_nonneg (mul_nonneg (sd1 h2) hbl) (sx1 h1)
        · exact mul_nonneg_of_nonpos_of_nonpos (mul_nonpos_of_nonpos_of_nonneg (sd2 h2) hbl) (sx2 h1)
    · intro h
      split_ifs with h0
      · exact le_rfl
      · apply rint_nonpos
        rcases (mul_neg_iff.1 h) with ⟨h1, h2⟩ | ⟨h1, h2⟩
        · exact mul_nonpos_of_nonpos_of_nonneg (mul_nonpos_of_nonpos_of_nonneg (sd2 h2) hbl) (sx1 h1)
        · exact mul_nonpos_of_nonneg_of_nonpos (mul_nonneg (sd1 h2) hbl) (sx2 h1)
    · intro h
      rcases mul_eq_zero.1 h with h1 | h1
      · rw [sx3 h1]; simp [rint_zero]
      · rw [sd3 h1]; simp

/-- **C45 (dense: pulses of a cell).**  The cell `(i, j)` receives exactly `|c_ij|` pulses, all in
the direction given by the sign of its coincidence count (down iff positive). -/
theorem C45_dense_cell (ty : DenseType) (q : Dense K) (X D : Nat) (lrNeg : Bool)
    (x d ux ud : Nat → K) (pd : PulseDraw K) (i j : Nat) (hi : i < D) (hj : j < X) :
    (densePulses ty q X D lrNeg x d ux ud pd).filter (fun p => decide (p.k = i * X + j)) =
      (List.range (coinc ty q lrNeg x d ux ud i j).natAbs).map fun n =>
        ⟨i * X + j, decide (0 < coinc ty q lrNeg x d ux ud i j), pd.g n i j, pd.g2 n i j⟩ := by
  have hX : 0 < X := by omega
  have hdiv : (i * X + j) / X = i := by
    rw [Nat.add_comm, Nat.add_mul_div_right _ _ hX, Nat.div_eq_of_lt hj, Nat.zero_add]
  have hmod : (i * X + j) % X = j := by
    rw [Nat.add_comm, Nat.add_mul_mod_self_right, Nat.mod_eq_of_lt hj]
  have hlt : i * X + j < X * D := by
    calc i * X + j < i * X + X := by omega
      _ = (i + 1) * X := by ring
      _ ≤ D * X := Nat.mul_le_mul_right _ hi
      _ = X * D := Nat.mul_comm _ _
  unfold densePulses
  rw [filter_flatMap_single _ (i * X + j) hlt]
  · simp only [hdiv, hmod]
    rw [List.filter_eq_self.2]
    intro a ha
    simp only [List.mem_map] at ha
    obtain ⟨n, _, rfl⟩ := ha
    simp
  · intro m hm
    rw [List.filter_eq_nil_iff]
    intro a ha
    simp only [List.mem_map] at ha
    obtain ⟨n, _, rfl⟩ := ha
    simpa using hm

end Aihw.Pulsed

import Verif.Pulsed.MixedPrec

/-!
# Lemmas for the mixed-precision compound
-/
namespace Aihw.Pulsed

variable {K : Type} [Field K] [LinearOrder K] [IsStrictOrderedRing K] [FloorRing K]

/-! ## Specification of the quantisation -/

/-- `a` is the largest magnitude among the first `n` entries (zero if there are none). -/
def IsAmax (n : Nat) (v : Nat → K) (a : K) : Prop :=
  0 ≤ a ∧ (∀ j < n, |v j| ≤ a) ∧ (a = 0 ∨ ∃ j < n, a = |v j|)

/-- `q` is the value used for an entry `v`: with `bins ≤ 0` it is `v` itself; otherwise it is an
integer multiple, by at most half the number of bins (rounded down), of the bin width
`amax / ⌊bins / 2⌋`, and no admissible multiple is closer to `v` (plus, with stochastic rounding,
`u - 1/2` widths). -/
def QuantOf (bins : ℤ) (sto : Bool) (amax v u q : K) : Prop :=
  (bins ≤ 0 → q = v) ∧
  (0 < bins → ∃ n : ℤ, |n| ≤ bins / 2 ∧ q = n * (amax / ((bins / 2 : ℤ) : K)) ∧
    ∀ m : ℤ, |m| ≤ bins / 2 →
      |v + (if sto then u - 1 / 2 else 0) * (amax / ((bins / 2 : ℤ) : K)) - q| ≤
        |v + (if sto then u - 1 / 2 else 0) * (amax / ((bins / 2 : ℤ) : K)) -
          m * (amax / ((bins / 2 : ℤ) : K))|)

/-- The vectors whose outer product an update accumulates. -/
def MPar.Contribution (p : MPar K) (u : MU K) (qx qd : Nat → K) : Prop :=
  ∃ ax ad, IsAmax p.xSize u.x ax ∧ IsAmax p.dSize u.d ad ∧
    (∀ i < p.xSize, QuantOf p.nxBins p.stoX ax (u.x i) (u.ux i) (qx i)) ∧
    ∀ j < p.dSize, QuantOf p.ndBins p.stoD ad (u.d j) (u.ud j) (qd j)

/-- All uniform draws of an update are in `[0, 1)`. -/
def MU.Unit (u : MU K) : Prop :=
  (∀ i, 0 ≤ u.ux i ∧ u.ux i < 1) ∧ (∀ j, 0 ≤ u.ud j ∧ u.ud j < 1) ∧ (0 ≤ u.ur ∧ u.ur < 1) ∧
  ∀ k, UnitDraws (u.w k).tx ∧ UnitDraws (u.w k).td

/-- Both vectors are quantised, or none of them. -/
def MPar.Uniform (p : MPar K) : Prop := p.nxBins ≤ 0 ↔ p.ndBins ≤ 0

/-! ## Quantisation -/

theorem mpAmax_spec (n : Nat) (v : Nat → K) : IsAmax n v (mpAmax n v) := by
  unfold mpAmax
  induction n with
  | zero => exact ⟨le_rfl, by intro j hj; omega, Or.inl rfl⟩
  | succ n ih =>
    rw [List.range_succ, List.foldl_append]
    simp only [List.foldl_cons, List.foldl_nil]
    obtain ⟨h1, h2, h3⟩ := ih
    refine ⟨h1.trans (le_max_left _ _), ?_, ?_⟩
    · intro j hj
      rcases Nat.lt_succ_iff_lt_or_eq.1 hj with h | rfl
      · exact (h2 j h).trans (le_max_left _ _)
      · exact le_max_right _ _
    · rcases max_choice ((List.range n).foldl (fun m j => max m |v j|) 0) |v n| with h | h
      · rw [h]
        rcases h3 with h3 | ⟨j, hj, h3⟩
        · exact Or.inl h3
        · exact Or.inr ⟨j, hj.trans (Nat.lt_succ_self n), h3⟩
      · rw [h]; exact Or.inr ⟨n, Nat.lt_succ_self n, rfl⟩

theorem rint_dist (x : K) : |x - rint x| ≤ 1 / 2 := by
  unfold rint
  have h1 := Int.floor_le x
  have h2 := Int.lt_floor_add_one x
  rw [abs_le]
  split_ifs <;> push_cast <;> constructor <;> linarith

/-- Rounding and then clipping to `[-h, h]` gives a closest integer of that range. -/
theorem level_closest (h : ℤ) (hh : 0 ≤ h) (x : K) : ∃ n : ℤ, |n| ≤ h ∧
    min (max ((rint x : ℤ) : K) (-(h : K))) (h : K) = (n : K) ∧
    ∀ m : ℤ, |m| ≤ h → |x - n| ≤ |x - m| := by
  refine ⟨min (max (rint x) (-h)) h, ?_, ?_, ?_⟩
  · rw [abs_le]; constructor
    · exact le_min (le_max_right _ _) (by omega)
    · exact min_le_right _ _
  · push_cast; rfl
  · intro m hm
    rw [abs_le] at hm
    have hd := rint_dist x
    rw [abs_le] at hd
    rcases le_total (rint x) (-h) with h1 | h1
    · have : min (max (rint x) (-h)) h = -h := by rw [max_eq_right h1, min_eq_left (by omega)]
      rw [this]
      rcases eq_or_lt_of_le hm.1 with h2 | h2
      · rw [h2]
      · have h3 : (rint x : K) ≤ -(h : K) := by exact_mod_cast h1
        have h4 : -(h : K) + 1 ≤ m := by exact_mod_cast h2
        have h5 : |x - m| = m - x := by rw [abs_sub_comm]; exact abs_of_nonneg (by linarith)
        rw [h5, abs_le]; push_cast
        constructor <;> linarith
    · rw [max_eq_left h1]
      rcases le_total h (rint x) with h2 | h2
      · rw [min_eq_right h2]
        rcases eq_or_lt_of_le hm.2 with h3 | h3
        · rw [h3]
        · have h3' : (h : K) ≤ rint x := by exact_mod_cast h2
          have h4 : (m : K) + 1 ≤ h := by exact_mod_cast h3
          have h5 : |x - m| = x - m := abs_of_nonneg (by linarith)
          rw [h5, abs_le]
          constructor <;> linarith
      · rw [min_eq_left h2]
        rcases lt_trichotomy m (rint x) with h3 | h3 | h3
        · have h4 : (m : K) + 1 ≤ rint x := by exact_mod_cast h3
          have h5 : |x - m| = x - m := abs_of_nonneg (by linarith)
          rw [h5, abs_le]
          constructor <;> linarith
        · rw [h3]
        · have h4 : (rint x : K) + 1 ≤ m := by exact_mod_cast h3
          have h5 : |x - m| = m - x := by rw [abs_sub_comm]; exact abs_of_nonneg (by linarith)
          rw [h5, abs_le]
          constructor <;> linarith

theorem mpWidth_ok {bins : ℤ} {n : Nat} {v : Nat → K} {w : K} (h : mpWidth bins n v = .ok w) :
    (bins ≤ 0 ∧ w = 1) ∨ (0 < bins / 2 ∧ 0 < bins ∧
      w = if mpAmax n v / ((bins / 2 : ℤ) : K) = 0 then 1 else mpAmax n v / ((bins / 2 : ℤ) : K)) := by
  unfold mpWidth at h
  by_cases h1 : bins ≤ 0
  · rw [if_pos h1] at h; cases h; exact Or.inl ⟨h1, rfl⟩
  · rw [if_neg h1] at h
    by_cases h2 : bins / 2 = 0
    · rw [if_pos h2] at h; cases h
    · rw [if_neg h2] at h
      simp only [Except.ok.injEq] at h
      exact Or.inr ⟨by omega, by omega, h.symm⟩

theorem quant_spec {bins : ℤ} {sto : Bool} {n : Nat} {v u : Nat → K} {w : K}
    (h : mpWidth bins n v = .ok w) (hu : ∀ i, 0 ≤ u i ∧ u i < 1) (i : Nat) (hi : i < n) :
    QuantOf bins sto (mpAmax n v) (v i) (u i) (mpQuant bins sto w (v i) (u i)) := by
  rcases mpWidth_ok h with ⟨hb, rfl⟩ | ⟨hb, hb0, hw⟩
  · exact ⟨fun _ => by rw [mpQuant, if_neg (by omega)], fun h => by omega⟩
  · refine ⟨fun h => by omega, fun _ => ?_⟩
    obtain ⟨a0, a1, -⟩ := mpAmax_spec n v
    have hbK : (0 : K) < ((bins / 2 : ℤ) : K) := by exact_mod_cast hb
    rw [mpQuant, if_pos hb0, mpLevel]
    by_cases hz : mpAmax n v / ((bins / 2 : ℤ) : K) = 0
    · have ha : mpAmax n v = 0 := by
        rcases div_eq_zero_iff.1 hz with h | h
        · exact h
        · exact absurd h hbK.ne'
      have hv : v i = 0 := by
        have := a1 i hi; rw [ha] at this; exact abs_nonpos_iff.1 this
      rw [if_pos hz] at hw
      refine ⟨0, by simp; omega, ?_, ?_⟩
      · rw [hv, zero_div, zero_add, rint_half_le_zero]
        · simp [hbK.le]
        · have := hu i; split_ifs <;> linarith
        · have := hu i; split_ifs <;> linarith
      · intro m _
        rw [hv, zero_div, zero_add, rint_half_le_zero]
        · simp [hbK.le, ha]
        · have := hu i; split_ifs <;> linarith
        · have := hu i; split_ifs <;> linarith
    · rw [if_neg hz] at hw
      have hwp : 0 < w := by
        rw [hw]; exact lt_of_le_of_ne (div_nonneg a0 hbK.le) (Ne.symm hz)
      obtain ⟨k, k1, k2, k3⟩ := level_closest (bins / 2) hb.le
        (v i / w + if sto then u i - 1 / 2 else 0)
      rw [k2, ← hw]
      refine ⟨k, k1, rfl, ?_⟩
      intro m hm
      have e : ∀ z : K, |v i + (if sto then u i - 1 / 2 else 0) * w - z * w| =
          |(v i / w + if sto then u i - 1 / 2 else 0) - z| * w := by
        intro z
        rw [← abs_of_pos hwp, ← abs_mul, abs_of_pos hwp]
        congr 1
        field_simp
      rw [e, e]
      exact mul_le_mul_of_nonneg_right (k3 m hm) hwp.le

/-! ## The sparse outer product -/

theorem mpSparse_succ (bins : ℤ) (sto : Bool) (w : K) (v u : Nat → K) (n : Nat) :
    mpSparse bins sto w v u (n + 1) = mpSparse bins sto w v u n ++
      (if rint (v n / w + (if sto then u n - 1 / 2 else 0)) = 0 then []
        else [(n, mpLevel bins sto w (v n) (u n) * w)]) := by
  unfold mpSparse
  rw [List.range_succ, List.filterMap_append]
  congr 1
  simp only [List.filterMap_cons, List.filterMap_nil]
  split_ifs <;> rfl

theorem mpLevel_zero {bins : ℤ} {sto : Bool} {w v u : K} (hb : 0 < bins / 2)
    : rint (v / w + (if sto then u - 1 / 2 else 0)) = 0 ↔ mpLevel bins sto w v u = 0 := by
  unfold mpLevel
  have hbK : (0 : K) < ((bins / 2 : ℤ) : K) := by exact_mod_cast hb
  simp only
  constructor
  · intro h; rw [h]; simp [hbK.le]
  · intro h
    obtain ⟨k, hk⟩ : ∃ k, k = rint (v / w + if sto then u - 1 / 2 else 0) := ⟨_, rfl⟩
    rw [← hk] at h ⊢
    have h' : min (max k (-(bins / 2))) (bins / 2) = 0 := by
      have : ((min (max k (-(bins / 2))) (bins / 2) : ℤ) : K) = ((0 : ℤ) : K) := by
        push_cast; exact_mod_cast h
      exact_mod_cast this
    omega

theorem mpAddRow_sparse (f : K) (bins : ℤ) (sto : Bool) (w : K) (v u : Nat → K) (hb : 0 < bins / 2)
    (row : Nat → K) (n i : Nat) :
    mpAddRow f (mpSparse bins sto w v u n) row i =
      if i < n then row i + f * (mpLevel bins sto w (v i) (u i) * w) else row i := by
  induction n with
  | zero => simp [mpSparse, mpAddRow]
  | succ n ih =>
    rw [mpSparse_succ]
    by_cases h : rint (v n / w + (if sto then u n - 1 / 2 else 0)) = 0
    · rw [if_pos h, List.append_nil, ih]
      rcases Nat.lt_trichotomy i n with h1 | h1 | h1
      · rw [if_pos h1, if_pos (by omega)]
      · subst h1
        rw [if_neg (by omega), if_pos (by omega), (mpLevel_zero hb).1 h]; simp
      · rw [if_neg (by omega), if_neg (by omega)]
    · rw [if_neg h]
      unfold mpAddRow at ih ⊢
      rw [List.foldl_append]
      simp only [List.foldl_cons, List.foldl_nil]
      rw [ih]
      rcases Nat.lt_trichotomy i n with h1 | h1 | h1
      · rw [if_neg (by omega), if_pos h1, if_pos (by omega)]
      · subst h1; rw [if_pos rfl, if_neg (by omega), if_pos (by omega)]
      · rw [if_neg (by omega), if_neg (by omega), if_neg (by omega)]

theorem mpSparseUpdate_sparse (lr : K) (bx bd : ℤ) (sx sd : Bool) (wx wd : K) (x ux d ud : Nat → K)
    (hx : 0 < bx / 2) (hd : 0 < bd / 2) (chi : Nat → Nat → K) (X D j i : Nat) :
    mpSparseUpdate lr (mpSparse bx sx wx x ux X) (mpSparse bd sd wd d ud D) chi j i =
      if j < D ∧ i < X then
        chi j i + lr * (mpLevel bd sd wd (d j) (ud j) * wd) * (mpLevel bx sx wx (x i) (ux i) * wx)
      else chi j i := by
  induction D generalizing j with
  | zero => simp [mpSparse, mpSparseUpdate]
  | succ n ih =>
    have key : mpSparseUpdate lr (mpSparse bx sx wx x ux X) (mpSparse bd sd wd d ud (n + 1)) chi j =
        if j = n then mpAddRow (lr * (mpLevel bd sd wd (d n) (ud n) * wd))
            (mpSparse bx sx wx x ux X)
            (mpSparseUpdate lr (mpSparse bx sx wx x ux X) (mpSparse bd sd wd d ud n) chi j)
        else mpSparseUpdate lr (mpSparse bx sx wx x ux X) (mpSparse bd sd wd d ud n) chi j := by
      rw [mpSparse_succ]
      by_cases h : rint (d n / wd + (if sd then ud n - 1 / 2 else 0)) = 0
      · rw [if_pos h, List.append_nil]
        by_cases hj : j = n
        · rw [if_pos hj]
          funext i
          rw [mpAddRow_sparse _ _ _ _ _ _ hx, (mpLevel_zero hd).1 h]
          simp
        · rw [if_neg hj]
      · rw [if_neg h]
        conv_lhs => unfold mpSparseUpdate
        rw [List.foldl_append]
        rfl
    rw [key]
    by_cases hj : j = n
    · subst hj
      have hlt : ¬ (j < j ∧ i < X) := fun h => lt_irrefl _ h.1
      rw [if_pos rfl, mpAddRow_sparse _ _ _ _ _ _ hx, ih, if_neg hlt]
      by_cases hi : i < X
      · rw [if_pos hi, if_pos ⟨Nat.lt_succ_self j, hi⟩]
      · rw [if_neg hi, if_neg (fun h => hi h.2)]
    · rw [if_neg hj, ih]
      by_cases h1 : j < n ∧ i < X
      · rw [if_pos h1, if_pos (by omega)]
      · rw [if_neg h1, if_neg (by omega)]

theorem mpSparse_length (bins : ℤ) (sto : Bool) (w : K) (v u : Nat → K) (hb : 0 < bins / 2)
    (hw : w ≠ 0) (n : Nat) :
    (mpSparse bins sto w v u n).length =
      ((List.range n).filter fun i => decide (mpLevel bins sto w (v i) (u i) * w ≠ 0)).length := by
  induction n with
  | zero => rfl
  | succ n ih =>
    rw [mpSparse_succ, List.length_append, ih, List.range_succ, List.filter_append,
      List.length_append]
    congr 1
    by_cases h : rint (v n / w + (if sto then u n - 1 / 2 else 0)) = 0
    · rw [if_pos h]
      simp [(mpLevel_zero hb).1 h]
    · have := fun e => h ((mpLevel_zero hb).2 e)
      rw [if_neg h, List.filter_cons_of_pos (by simp [hw]; exact this)]
      rfl

/-- What an update accumulates. -/
theorem accumulate_spec (p : MPar K) (hp : p.Uniform) (s : MS K) (u : MU K) (hu : u.Unit) (a : MAcc K)
    (h : p.accumulate s u = .ok a) : ∃ qx qd, p.Contribution u qx qd ∧ a.qd = s.qd ∧
      (∀ j i, a.chi j i = if j < p.dSize ∧ i < p.xSize then s.chi j i + u.lr * qd j * qx i
        else s.chi j i) ∧
      (0 < p.nxBins → 0 < p.ndBins →
        a.kx = ((List.range p.xSize).filter fun i => decide (qx i ≠ 0)).length ∧
        a.kd = ((List.range p.dSize).filter fun j => decide (qd j ≠ 0)).length) := by
  unfold MPar.accumulate at h
  cases hx : mpWidth p.nxBins p.xSize u.x with
  | error e => rw [hx] at h; cases h
  | ok wx =>
    cases hd : mpWidth p.ndBins p.dSize u.d with
    | error e => rw [hx, hd] at h; cases h
    | ok wd =>
      rw [hx, hd] at h
      simp only [bind, Except.bind] at h
      have hC : p.Contribution u (fun i => mpQuant p.nxBins p.stoX wx (u.x i) (u.ux i))
          (fun j => mpQuant p.ndBins p.stoD wd (u.d j) (u.ud j)) :=
        ⟨_, _, mpAmax_spec _ _, mpAmax_spec _ _, fun i hi => quant_spec hx hu.1 i hi,
          fun j hj => quant_spec hd hu.2.1 j hj⟩
      refine ⟨_, _, hC, ?_⟩
      unfold MPar.Uniform at hp
      by_cases h1 : p.ndBins ≤ 0
      · have h2 := hp.2 h1
        rw [if_pos ⟨h1, h2⟩] at h
        cases h
        refine ⟨rfl, ?_, fun h => by omega⟩
        intro j i
        simp only [mpGer, mpQuant, not_lt.2 h1, not_lt.2 h2, if_false]
      · have h2 : ¬ p.nxBins ≤ 0 := fun h => h1 (hp.1 h)
        rw [if_neg (fun h => h1 h.1), if_neg (fun h => h.elim h1 h2)] at h
        cases h
        rcases mpWidth_ok hx with ⟨b, -⟩ | ⟨bx, -, ewx⟩
        · exact absurd b h2
        rcases mpWidth_ok hd with ⟨b, -⟩ | ⟨bd, -, ewd⟩
        · exact absurd b h1
        refine ⟨rfl, ?_, fun _ _ => ⟨?_, ?_⟩⟩
        · intro j i
          simp only [mpQuant, not_le.1 h1, not_le.1 h2, if_true]
          exact mpSparseUpdate_sparse _ _ _ _ _ _ _ _ _ _ _ bx bd _ _ _ _ _
        · simp only [mpQuant, not_le.1 h2, if_true]
          exact mpSparse_length _ _ _ _ _ bx (by rw [ewx]; split_ifs <;> simp_all) _
        · simp only [mpQuant, not_le.1 h1, if_true]
          exact mpSparse_length _ _ _ _ _ bd (by rw [ewd]; split_ifs <;> simp_all) _

/-! ## Transfers -/

/-- Step counts of a row. -/
def mpSteps (p : MPar K) (chi : Nat → Nat → K) (row i : Nat) : K :=
  ((trunc0 (chi row i / p.gran) : ℤ) : K)

/-- `chi` after the rows in `rows` were transferred. -/
def mpRemain (p : MPar K) (rows : List Nat) (chi : Nat → Nat → K) : Nat → Nat → K :=
  fun j i => if j ∈ rows ∧ i < p.xSize then chi j i - mpSteps p chi j i * p.gran else chi j i

/-- One forwarded row. -/
def mpStep (F : Fns K) (p : MPar K) (lr : K) (a : MS K × List (MT K)) (q : Nat × WD K) :
    MS K × List (MT K) :=
  ((p.forwardRow F lr q.2 a.1 q.1).1, a.2 ++ [(p.forwardRow F lr q.2 a.1 q.1).2])

theorem forward_eq (F : Fns K) (p : MPar K) (lr : K) (start n : Nat) (w : Nat → WD K)
    (a : MS K × List (MT K)) :
    p.forward F lr start n w a =
      ((List.range n).map fun k => (start + k, w k)).foldl (mpStep F p lr) a := by
  unfold MPar.forward
  rw [List.foldl_map]
  rfl

/-- Any sequence of distinct rows. -/
theorem steps_spec (F : Fns K) (p : MPar K) (lr : K) (l : List (Nat × WD K))
    (hl : (l.map Prod.fst).Nodup) (s : MS K) (t : List (MT K)) :
    l.foldl (mpStep F p lr) (s, t) =
      ({ s with
          chi := mpRemain p (l.map Prod.fst) s.chi,
          dev := l.foldl (fun d q => p.write F d q.1 (mpSteps p s.chi q.1) lr q.2) s.dev },
        t ++ l.map fun q => ⟨q.1, mpSteps p s.chi q.1⟩) := by
  induction l generalizing s t with
  | nil =>
    have : mpRemain p [] s.chi = s.chi := by funext j i; simp [mpRemain]
    simp [this]
  | cons q l ih =>
    rw [List.map_cons, List.nodup_cons] at hl
    obtain ⟨hq, hl⟩ := hl
    rw [List.foldl_cons, mpStep, ih hl]
    have hsame : ∀ j, j ≠ q.1 → (p.forwardRow F lr q.2 s q.1).1.chi j = s.chi j := by
      intro j hj
      simp [MPar.forwardRow, hj]
    have hrow : ∀ i, (p.forwardRow F lr q.2 s q.1).1.chi q.1 i =
        if i < p.xSize then s.chi q.1 i - mpSteps p s.chi q.1 i * p.gran else s.chi q.1 i := by
      intro i
      simp [MPar.forwardRow, mpSteps]
    have hst : ∀ j, j ≠ q.1 → mpSteps p (p.forwardRow F lr q.2 s q.1).1.chi j = mpSteps p s.chi j := by
      intro j hj
      funext i
      simp only [mpSteps, hsame j hj]
    have hmem : ∀ r ∈ l, r.1 ≠ q.1 := by
      intro r hr e
      exact hq (e ▸ List.mem_map_of_mem hr)
    refine Prod.ext ?_ ?_
    · simp only
      have e1 : mpRemain p (l.map Prod.fst) (p.forwardRow F lr q.2 s q.1).1.chi =
          mpRemain p ((q :: l).map Prod.fst) s.chi := by
        funext j i
        unfold mpRemain
        rw [List.map_cons]
        by_cases hj : j = q.1
        · subst hj
          rw [if_neg (fun h => hq h.1), hrow]
          by_cases hi : i < p.xSize
          · rw [if_pos hi, if_pos ⟨List.mem_cons_self .., hi⟩]
          · rw [if_neg hi, if_neg (fun h => hi h.2)]
        · rw [hst j hj, hsame j hj]
          by_cases h : j ∈ l.map Prod.fst ∧ i < p.xSize
          · rw [if_pos h, if_pos ⟨List.mem_cons_of_mem _ h.1, h.2⟩]
          · rw [if_neg h, if_neg]
            rintro ⟨h1, h2⟩
            exact h ⟨(List.mem_cons.1 h1).resolve_left hj, h2⟩
      have e2 : l.foldl (fun d r => p.write F d r.1
            (mpSteps p (p.forwardRow F lr q.2 s q.1).1.chi r.1) lr r.2)
            (p.forwardRow F lr q.2 s q.1).1.dev =
          (q :: l).foldl (fun d r => p.write F d r.1 (mpSteps p s.chi r.1) lr r.2) s.dev := by
        rw [List.foldl_cons]
        have : (p.forwardRow F lr q.2 s q.1).1.dev = p.write F s.dev q.1 (mpSteps p s.chi q.1) lr q.2 :=
          rfl
        rw [this]
        generalize p.write F s.dev q.1 (mpSteps p s.chi q.1) lr q.2 = d
        clear ih this hq hl e1
        induction l generalizing d with
        | nil => rfl
        | cons r l ih =>
          rw [List.foldl_cons, List.foldl_cons, hst r.1 (hmem r (List.mem_cons_self ..))]
          exact ih (fun x hx => hmem x (List.mem_cons_of_mem _ hx)) _
      rw [e1, e2]
      rfl
    · simp only
      rw [List.append_assoc, List.map_cons]
      congr 1
      have : (p.forwardRow F lr q.2 s q.1).2 = ⟨q.1, mpSteps p s.chi q.1⟩ := rfl
      rw [this]
      simp only [List.singleton_append, List.cons.injEq, true_and]
      apply List.map_congr_left
      intro r hr
      rw [hst r.1 (hmem r hr)]

theorem rows_nodup (i n m : Nat) (hn : n ≤ m) :
    ((List.range n).map fun k => (i + k) % m).Nodup := by
  apply List.Nodup.map_on _ List.nodup_range
  intro a ha b hb h
  have ha := List.mem_range.1 ha
  have hb := List.mem_range.1 hb
  have h1 : a ≡ b [MOD m] := Nat.ModEq.add_left_cancel' i h
  exact h1.eq_of_lt_of_lt (by omega) (by omega)

/-- The transfer of `n` rows starting at row `i`. -/
theorem transfer_core (F : Fns K) (p : MPar K) (lr : K) (w : Nat → WD K) (s : MS K) (i n : Nat)
    (hi : i < p.dSize) (hn : n ≤ p.dSize) :
    (if p.dSize - i < n then
        p.forward F lr 0 (n - (p.dSize - i)) (fun k => w (p.dSize - i + k))
          (p.forward F lr i (p.dSize - i) w (s, []))
      else p.forward F lr i n w (s, [])) =
      ({ s with
          chi := mpRemain p ((List.range n).map fun k => (i + k) % p.dSize) s.chi,
          dev := (List.range n).foldl (fun d k => p.write F d ((i + k) % p.dSize)
            (mpSteps p s.chi ((i + k) % p.dSize)) lr (w k)) s.dev },
        (List.range n).map fun k => ⟨(i + k) % p.dSize, mpSteps p s.chi ((i + k) % p.dSize)⟩) := by
  have main : (if p.dSize - i < n then
        p.forward F lr 0 (n - (p.dSize - i)) (fun k => w (p.dSize - i + k))
          (p.forward F lr i (p.dSize - i) w (s, []))
      else p.forward F lr i n w (s, [])) =
      ((List.range n).map fun k => ((i + k) % p.dSize, w k)).foldl (mpStep F p lr) (s, []) := by
    by_cases h : p.dSize - i < n
    · rw [if_pos h, forward_eq, forward_eq, ← List.foldl_append]
      congr 1
      apply List.ext_getElem
      · simp; omega
      · intro k h1 h2
        rw [List.getElem_append]
        simp only [List.length_map, List.length_range]
        split_ifs with h3
        · simp only [List.getElem_map, List.getElem_range]
          rw [Nat.mod_eq_of_lt (by omega)]
        · simp only [List.getElem_map, List.getElem_range]
          have e : i + k = (k - (p.dSize - i)) + p.dSize := by omega
          have e2 : p.dSize - i + (k - (p.dSize - i)) = k := by omega
          simp only [List.length_append, List.length_map, List.length_range] at h1
          rw [e, Nat.add_mod_right, Nat.mod_eq_of_lt (by omega), e2, Nat.zero_add]
    · rw [if_neg h, forward_eq]
      congr 1
      apply List.map_congr_left
      intro k hk
      have := List.mem_range.1 hk
      rw [Nat.mod_eq_of_lt (by omega)]
  rw [main, steps_spec]
  · simp only [List.nil_append, List.map_map, List.foldl_map]
    rfl
  · rw [List.map_map]
    exact rows_nodup i n p.dSize hn

end Aihw.Pulsed

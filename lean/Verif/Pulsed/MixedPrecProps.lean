import Verif.Pulsed.MixedPrecLemmas

/-!
# C59: mixed-precision compound — accumulation, transfer, remainder
-/
namespace Aihw.Pulsed

variable {K : Type} [Field K] [LinearOrder K] [IsStrictOrderedRing K] [FloorRing K]

/-! ## Specification -/

/-- An update transfers exactly when a positive multiple of `transfer_every * m_batch` updates has
been completed before it and transfers are not disabled. -/
def MPar.Fires (p : MPar K) (done : Nat) (mBatch : ℤ) : Prop :=
  0 < p.every * mBatch ∧ 0 < done ∧ p.every * mBatch ∣ (done : ℤ) ∧ p.nRows ≠ 0 ∧ p.transferLr ≠ 0

/-- Total number of steps taken from an entry of `chi` by a list of transferred rows. -/
def taken (ts : List (MT K)) (j i : Nat) : K :=
  ((ts.filter fun t => decide (t.row = j)).map fun t => t.dw i).sum

/-- Number of rows per transfer: `n_rows_per_transfer`, all rows if negative, at most all rows. -/
def MPar.rowsPer (p : MPar K) : Nat :=
  if p.nRows < 0 then p.dSize else min p.nRows.toNat p.dSize

/-! ## Lemmas -/

theorem nTransfer_eq (p : MPar K) : p.nTransfer = p.rowsPer := by
  unfold MPar.nTransfer MPar.rowsPer
  split_ifs <;> simp

theorem firstRow_lt (p : MPar K) (s : MS K) (ur : K) (hs : s.row < p.dSize) :
    p.firstRow s ur < p.dSize := by
  unfold MPar.firstRow
  split_ifs
  · omega
  · exact hs

theorem doTransfer_spec (F : Fns K) (p : MPar K) (s : MS K) (u : MU K) (hs : s.row < p.dSize)
    (r : MS K × List (MT K)) (h : p.doTransfer F s u = .ok r) :
    (¬ p.Fires s.idx u.mBatch ∧ r = (s, [])) ∨
    (p.Fires s.idx u.mBatch ∧ 0 < p.gran ∧ r =
      ({ s with
          chi := mpRemain p ((List.range p.rowsPer).map fun k =>
            (p.firstRow s u.ur + k) % p.dSize) s.chi,
          row := (p.firstRow s u.ur + p.rowsPer) % p.dSize,
          dev := (List.range p.rowsPer).foldl (fun d k =>
            p.write F d ((p.firstRow s u.ur + k) % p.dSize)
              (mpSteps p s.chi ((p.firstRow s u.ur + k) % p.dSize)) p.transferLr (u.w k)) s.dev },
        (List.range p.rowsPer).map fun k => ⟨(p.firstRow s u.ur + k) % p.dSize,
          mpSteps p s.chi ((p.firstRow s u.ur + k) % p.dSize)⟩)) := by
  unfold MPar.doTransfer at h
  by_cases h1 : 0 < p.every * u.mBatch ∧ 0 < s.idx ∧ (s.idx : ℤ) % (p.every * u.mBatch) = 0
  · rw [if_pos h1] at h
    unfold MPar.transfer at h
    by_cases h2 : p.nRows = 0 ∨ |p.transferLr| = 0
    · rw [if_pos h2] at h
      cases h
      refine Or.inl ⟨?_, rfl⟩
      rintro ⟨-, -, -, a, b⟩
      rcases h2 with h2 | h2
      · exact a h2
      · exact b (abs_eq_zero.1 h2)
    · rw [if_neg h2] at h
      by_cases h3 : p.gran ≤ 0
      · rw [if_pos h3] at h; cases h
      · rw [if_neg h3] at h
        have hn : p.nTransfer ≤ p.dSize := min_le_right _ _
        have hcore := transfer_core F p p.transferLr u.w s (p.firstRow s u.ur) p.nTransfer
          (firstRow_lt p s u.ur hs) hn
        simp only [Except.ok.injEq] at h
        rw [hcore] at h
        refine Or.inr ⟨⟨h1.1, h1.2.1, Int.dvd_of_emod_eq_zero h1.2.2, fun e => h2 (Or.inl e),
          fun e => h2 (Or.inr (by rw [e, abs_zero]))⟩, not_le.1 h3, ?_⟩
        rw [← h, ← nTransfer_eq]
  · rw [if_neg h1] at h
    cases h
    refine Or.inl ⟨?_, rfl⟩
    rintro ⟨a, b, c, -, -⟩
    exact h1 ⟨a, b, Int.emod_eq_zero_of_dvd c⟩

theorem update_ok (F : Fns K) (p : MPar K) (s : MS K) (u : MU K) (r : MS K × List (MT K))
    (h : p.update F s u = .ok r) : ∃ a q, p.accumulate s u = .ok a ∧
      p.doTransfer F { s with chi := a.chi, qd := a.qd } u = .ok q ∧
      r = ({ q.1 with avg := p.computeSparsity q.1 a.kx a.kd, idx := q.1.idx + 1 }, q.2) := by
  unfold MPar.update at h
  cases ha : p.accumulate s u with
  | error e => rw [ha] at h; cases h
  | ok a =>
    cases hq : p.doTransfer F { s with chi := a.chi, qd := a.qd } u with
    | error e => simp only [ha, hq, bind, Except.bind] at h; cases h
    | ok q =>
      simp only [ha, hq, bind, Except.bind, Except.ok.injEq] at h
      exact ⟨a, q, rfl, hq, h.symm⟩

theorem taken_rows (p : MPar K) (rows : List Nat) (hr : rows.Nodup) (chi : Nat → Nat → K)
    (j i : Nat) : taken (rows.map fun r => (⟨r, mpSteps p chi r⟩ : MT K)) j i =
      if j ∈ rows then mpSteps p chi j i else 0 := by
  induction rows with
  | nil => simp [taken]
  | cons r rows ih =>
    rw [List.nodup_cons] at hr
    have ih := ih hr.2
    unfold taken at ih ⊢
    rw [List.map_cons, List.filter_cons]
    by_cases h : r = j
    · subst h
      rw [if_neg hr.1] at ih
      simp only [decide_true, if_true, List.map_cons, List.sum_cons, ih, add_zero,
        List.mem_cons_self]
    · have h' : ¬ j = r := fun e => h e.symm
      simp only [h, decide_false, Bool.false_eq_true, if_false, ih, List.mem_cons, h', false_or]

theorem taken_append (a b : List (MT K)) (j i : Nat) :
    taken (a ++ b) j i = taken a j i + taken b j i := by
  simp [taken, List.filter_append]

theorem row_lt_update (F : Fns K) (p : MPar K) (s : MS K) (u : MU K) (r : MS K × List (MT K))
    (hs : s.row < p.dSize) (h : p.update F s u = .ok r) : r.1.row < p.dSize := by
  obtain ⟨a, q, -, hq, rfl⟩ := update_ok F p s u r h
  rcases doTransfer_spec F p { s with chi := a.chi, qd := a.qd } u hs q hq with ⟨-, rfl⟩ | ⟨-, -, rfl⟩
  · exact hs
  · exact Nat.mod_lt _ (by omega)

theorem mpSteps_spec (p : MPar K) (hg : 0 < p.gran) (chi : Nat → Nat → K) (j i : Nat) :
    ∃ n : ℤ, mpSteps p chi j i = n ∧ |chi j i - mpSteps p chi j i * p.gran| < p.gran ∧
      0 ≤ (chi j i - mpSteps p chi j i * p.gran) * n ∧
      0 ≤ (chi j i - mpSteps p chi j i * p.gran) * chi j i := by
  refine ⟨trunc0 (chi j i / p.gran), rfl, ?_, ?_, ?_⟩
  · have h := trunc0_abs_sub (chi j i / p.gran)
    have e : chi j i - mpSteps p chi j i * p.gran =
        (chi j i / p.gran - (trunc0 (chi j i / p.gran) : ℤ)) * p.gran := by
      rw [mpSteps]; field_simp
    rw [e, abs_mul, abs_of_pos hg]
    calc _ < 1 * p.gran := mul_lt_mul_of_pos_right h hg
      _ = p.gran := one_mul _
  · have e : chi j i - mpSteps p chi j i * p.gran =
        (chi j i / p.gran - (trunc0 (chi j i / p.gran) : ℤ)) * p.gran := by
      rw [mpSteps]; field_simp
    rw [e]
    unfold trunc0
    split_ifs with h
    · exact mul_nonneg (mul_nonneg (sub_nonneg.2 (Int.floor_le _)) hg.le)
        (by exact_mod_cast Int.floor_nonneg.2 h)
    · have h1 : (⌈chi j i / p.gran⌉ : K) ≤ 0 := by
        exact_mod_cast Int.ceil_nonpos.2 (le_of_lt (not_le.1 h))
      exact mul_nonneg_of_nonpos_of_nonpos (mul_nonpos_of_nonpos_of_nonneg
        (sub_nonpos.2 (Int.le_ceil _)) hg.le) h1
  · have e : chi j i - mpSteps p chi j i * p.gran =
        (chi j i / p.gran - (trunc0 (chi j i / p.gran) : ℤ)) * p.gran := by
      rw [mpSteps]; field_simp
    rw [e]
    unfold trunc0
    split_ifs with h
    · exact mul_nonneg (mul_nonneg (sub_nonneg.2 (Int.floor_le _)) hg.le)
        (by have := mul_nonneg h hg.le; rwa [div_mul_cancel₀ _ hg.ne'] at this)
    · have h1 : chi j i ≤ 0 := by
        by_contra hc
        exact h (div_nonneg (not_le.1 hc).le hg.le)
      exact mul_nonneg_of_nonpos_of_nonpos (mul_nonpos_of_nonpos_of_nonneg
        (sub_nonpos.2 (Int.le_ceil _)) hg.le) h1

/-- One update: conservation. -/
theorem update_conserve (F : Fns K) (p : MPar K) (hp : p.Uniform) (s : MS K) (hs : s.row < p.dSize)
    (u : MU K) (hu : u.Unit) (r : MS K × List (MT K)) (h : p.update F s u = .ok r) :
    ∃ qx qd, p.Contribution u qx qd ∧ ∀ j < p.dSize, ∀ i < p.xSize,
      r.1.chi j i + p.gran * taken r.2 j i = s.chi j i + u.lr * qd j * qx i := by
  obtain ⟨a, q, ha, hq, rfl⟩ := update_ok F p s u r h
  obtain ⟨qx, qd, hC, -, hchi, -⟩ := accumulate_spec p hp s u hu a ha
  refine ⟨qx, qd, hC, ?_⟩
  intro j hj i hi
  have hc := hchi j i
  rw [if_pos ⟨hj, hi⟩] at hc
  rcases doTransfer_spec F p { s with chi := a.chi, qd := a.qd } u hs q hq with ⟨-, rfl⟩ | ⟨-, hg, rfl⟩
  · simp [taken, hc]
  · have hl : p.rowsPer ≤ p.dSize := by unfold MPar.rowsPer; split_ifs <;> simp
    have hn := rows_nodup (p.firstRow { s with chi := a.chi, qd := a.qd } u.ur) p.rowsPer p.dSize hl
    have ht := taken_rows p _ hn a.chi j i
    rw [List.map_map] at ht
    simp only [Function.comp_def] at ht
    simp only
    rw [ht]
    unfold mpRemain
    rw [← hc]
    by_cases hm : j ∈ ((List.range p.rowsPer).map fun k =>
        (p.firstRow { s with chi := a.chi, qd := a.qd } u.ur + k) % p.dSize)
    · rw [if_pos ⟨hm, hi⟩, if_pos hm]; ring
    · rw [if_neg (fun h => hm h.1), if_neg hm]; ring

theorem run_cons_ok (F : Fns K) (p : MPar K) (s : MS K) (u : MU K) (us : List (MU K))
    (r : MS K × List (List (MT K))) (h : p.run F s (u :: us) = .ok r) :
    ∃ q z, p.update F s u = .ok q ∧ p.run F q.1 us = .ok z ∧ r = (z.1, q.2 :: z.2) := by
  unfold MPar.run at h
  cases hq : p.update F s u with
  | error e => rw [hq] at h; cases h
  | ok q =>
    cases hz : p.run F q.1 us with
    | error e => simp only [hq, hz, bind, Except.bind] at h; cases h
    | ok z =>
      simp only [hq, hz, bind, Except.bind, Except.ok.injEq] at h
      exact ⟨q, z, rfl, hz, h.symm⟩

/-! ## Properties -/

/-- **C59 (nothing is lost).**  If both vectors are quantised or none is, then after any sequence of
updates, every entry of the digital accumulator plus `granularity` times all the steps ever
transferred from it equals its initial value plus the sum of `lr * q(d)_j * q(x)_i` over the updates,
where `q` is the configured quantisation (`QuantOf`). -/
theorem C59_conserve (F : Fns K) (p : MPar K) (hp : p.Uniform) (s : MS K) (hs : s.row < p.dSize)
    (us : List (MU K)) (hu : ∀ u ∈ us, u.Unit) (r : MS K × List (List (MT K)))
    (h : p.run F s us = .ok r) :
    ∃ qs : List ((Nat → K) × (Nat → K)),
      List.Forall₂ (fun u q => p.Contribution u q.1 q.2) us qs ∧
      ∀ j < p.dSize, ∀ i < p.xSize,
        r.1.chi j i + p.gran * taken r.2.flatten j i =
          s.chi j i + ((us.zip qs).map fun z => z.1.lr * z.2.2 j * z.2.1 i).sum := by
  induction us generalizing s r with
  | nil =>
    cases h
    exact ⟨[], List.Forall₂.nil, by intro j _ i _; simp [taken]⟩
  | cons u us ih =>
    obtain ⟨q, z, hq, hz, rfl⟩ := run_cons_ok F p s u us r h
    obtain ⟨qx, qd, hC, hc⟩ := update_conserve F p hp s hs u (hu u (List.mem_cons_self ..)) q hq
    obtain ⟨qs, hF, hc'⟩ := ih q.1 (row_lt_update F p s u q hs hq)
      (fun v hv => hu v (List.mem_cons_of_mem _ hv)) z hz
    refine ⟨(qx, qd) :: qs, List.Forall₂.cons hC hF, ?_⟩
    intro j hj i hi
    have h1 := hc j hj i hi
    have h2 := hc' j hj i hi
    simp only [List.flatten_cons, taken_append, List.zip_cons_cons, List.map_cons, List.sum_cons]
    linear_combination h1 + h2

/-- **C59 (remainder).**  Every transferred row carries integer step counts, and what is left in the
accumulator after the transfer is smaller in magnitude than one granularity step and never has the
opposite sign of the transferred steps.  Rows that are not transferred keep the accumulated value.
Together with `C59_conserve` this determines the step counts. -/
theorem C59_remainder (F : Fns K) (p : MPar K) (hp : p.Uniform) (s : MS K) (hs : s.row < p.dSize)
    (u : MU K) (hu : u.Unit) (r : MS K × List (MT K)) (h : p.update F s u = .ok r) :
    (r.2.map MT.row).Nodup ∧ (∀ t ∈ r.2, t.row < p.dSize ∧ ∀ i < p.xSize, ∃ n : ℤ, t.dw i = n ∧
      |r.1.chi t.row i| < p.gran ∧ 0 ≤ r.1.chi t.row i * n) ∧
    ∃ qx qd, p.Contribution u qx qd ∧ ∀ j < p.dSize, j ∉ r.2.map MT.row → ∀ i < p.xSize,
      r.1.chi j i = s.chi j i + u.lr * qd j * qx i := by
  obtain ⟨qx, qd, hC, hcons⟩ := update_conserve F p hp s hs u hu r h
  have hlast : ∃ qx qd, p.Contribution u qx qd ∧ ∀ j < p.dSize, j ∉ r.2.map MT.row →
      ∀ i < p.xSize, r.1.chi j i = s.chi j i + u.lr * qd j * qx i := by
    refine ⟨qx, qd, hC, fun j hj hn i hi => ?_⟩
    have := hcons j hj i hi
    have ht : taken r.2 j i = 0 := by
      unfold taken
      rw [List.filter_eq_nil_iff.2]
      · rfl
      · intro t ht
        simp only [decide_eq_true_eq]
        intro e
        exact hn (e ▸ List.mem_map_of_mem ht)
    rw [ht, mul_zero, add_zero] at this
    exact this
  refine ⟨?_, ?_, hlast⟩
  · obtain ⟨a, q, ha, hq, rfl⟩ := update_ok F p s u r h
    rcases doTransfer_spec F p { s with chi := a.chi, qd := a.qd } u hs q hq with ⟨-, rfl⟩ | ⟨-, hg, rfl⟩
    · exact List.nodup_nil
    · simp only [List.map_map]
      have hl : p.rowsPer ≤ p.dSize := by unfold MPar.rowsPer; split_ifs <;> simp
      exact rows_nodup _ _ _ hl
  · obtain ⟨a, q, ha, hq, rfl⟩ := update_ok F p s u r h
    rcases doTransfer_spec F p { s with chi := a.chi, qd := a.qd } u hs q hq with ⟨-, rfl⟩ | ⟨-, hg, rfl⟩
    · intro t ht; simp at ht
    · intro t ht
      simp only [List.mem_map] at ht
      obtain ⟨k, hk, rfl⟩ := ht
      refine ⟨Nat.mod_lt _ (by omega), ?_⟩
      intro i hi
      simp only
      obtain ⟨n, h1, h2, h3, -⟩ := mpSteps_spec p hg a.chi
        ((p.firstRow { s with chi := a.chi, qd := a.qd } u.ur + k) % p.dSize) i
      refine ⟨n, h1, ?_⟩
      unfold mpRemain
      rw [if_pos ⟨List.mem_map_of_mem (f := fun k =>
        (p.firstRow { s with chi := a.chi, qd := a.qd } u.ur + k) % p.dSize) hk, hi⟩]
      exact ⟨h2, h3⟩

/-- **C59 (when and which rows).**  An update transfers rows exactly when transfers are enabled
(`n_rows_per_transfer ≠ 0`, `transfer_lr ≠ 0`) and a positive multiple of
`transfer_every * m_batch` updates has been completed before it; the vector of the current update is
then already included.  The transferred rows are consecutive modulo the number of rows, starting at
the row counter (at a random row with `random_row` unless all rows are transferred), and the counter
moves on behind them. -/
theorem C59_schedule (F : Fns K) (p : MPar K) (s : MS K) (hs : s.row < p.dSize) (u : MU K)
    (r : MS K × List (MT K)) (h : p.update F s u = .ok r) :
    r.1.idx = s.idx + 1 ∧
    (¬ p.Fires s.idx u.mBatch → r.2 = [] ∧ r.1.row = s.row ∧ r.1.dev = s.dev) ∧
    (p.Fires s.idx u.mBatch → ∃ i < p.dSize,
      ((p.randomRow = false ∨ p.rowsPer = p.dSize) → i = s.row) ∧
      (p.randomRow = true → p.rowsPer < p.dSize → u.Unit → (i : ℤ) = ⌊u.ur * (p.dSize : K)⌋) ∧
      r.2.map MT.row = (List.range p.rowsPer).map (fun k => (i + k) % p.dSize) ∧
      r.1.row = (i + p.rowsPer) % p.dSize) := by
  obtain ⟨a, q, ha, hq, rfl⟩ := update_ok F p s u r h
  rcases doTransfer_spec F p { s with chi := a.chi, qd := a.qd } u hs q hq with ⟨hf, rfl⟩ | ⟨hf, -, rfl⟩
  · exact ⟨rfl, fun _ => ⟨rfl, rfl, rfl⟩, fun h => absurd h hf⟩
  · refine ⟨rfl, fun h => absurd hf h, fun _ =>
      ⟨p.firstRow { s with chi := a.chi, qd := a.qd } u.ur, firstRow_lt p _ _ hs, ?_, ?_, ?_, rfl⟩⟩
    · intro hc
      unfold MPar.firstRow
      rw [if_neg]
      rw [nTransfer_eq]
      rintro ⟨h1, h2⟩
      rcases hc with hc | hc
      · simp [hc] at h1
      · omega
    · intro h1 h2 hu
      unfold MPar.firstRow
      rw [if_pos ⟨h1, by rw [nTransfer_eq]; exact h2⟩]
      obtain ⟨u0, u1⟩ := hu.2.2.1
      have hD : (0 : K) < (p.dSize : K) := by exact_mod_cast (by omega : 0 < p.dSize)
      have a1 : 0 ≤ ⌊u.ur * (p.dSize : K)⌋ := Int.floor_nonneg.2 (mul_nonneg u0 hD.le)
      have a2 : ⌊u.ur * (p.dSize : K)⌋ < (p.dSize : ℤ) := by
        rw [Int.floor_lt]; push_cast
        calc _ < 1 * (p.dSize : K) := mul_lt_mul_of_pos_right u1 hD
          _ = _ := one_mul _
      omega
    · simp only [List.map_map]; rfl

/-- **C59 (transfers disabled).**  If `n_rows_per_transfer = 0`, `transfer_lr = 0` or
`transfer_every ≤ 0` (with a positive batch size), the analog weights are never touched by any
sequence of updates; all gradients stay in the accumulator. -/
theorem C59_no_transfer (F : Fns K) (p : MPar K) (s : MS K) (hs : s.row < p.dSize) (us : List (MU K))
    (hb : ∀ u ∈ us, 0 < u.mBatch) (h0 : p.nRows = 0 ∨ p.transferLr = 0 ∨ p.every ≤ 0)
    (r : MS K × List (List (MT K))) (h : p.run F s us = .ok r) :
    r.1.dev = s.dev ∧ r.2.flatten = [] := by
  induction us generalizing s r with
  | nil => cases h; exact ⟨rfl, rfl⟩
  | cons u us ih =>
    obtain ⟨q, z, hq, hz, rfl⟩ := run_cons_ok F p s u us r h
    have hnf : ¬ p.Fires s.idx u.mBatch := by
      rintro ⟨a, -, -, b, c⟩
      rcases h0 with h0 | h0 | h0
      · exact b h0
      · exact c h0
      · have hm := hb u (List.mem_cons_self ..)
        exact absurd a (not_lt.2 (mul_nonpos_of_nonpos_of_nonneg h0 hm.le))
    obtain ⟨-, h1, -⟩ := C59_schedule F p s hs u q hq
    obtain ⟨e1, -, e3⟩ := h1 hnf
    obtain ⟨i1, i2⟩ := ih q.1 (row_lt_update F p s u q hs hq)
      (fun v hv => hb v (List.mem_cons_of_mem _ hv)) z hz
    exact ⟨i1.trans e3, by simp [e1, i2]⟩

/-- The rows transferred by a run. -/
def rowsOf (ts : List (List (MT K))) : List Nat := ts.flatten.map MT.row

/-- **C59 (cyclic schedule).**  Without random rows, from a fresh state (row and update counter
zero) and with a constant batch size `m`, after any number of updates the rows transferred so far are
exactly `0, 1, 2, … (mod rows)`, `rowsPer` of them for each of the `⌊(n - 1) / (every * m)⌋`
transfers (`n ≥ 1` updates): the first transfer happens in the update after the first
`every * m` ones. -/
theorem C59_cyclic (F : Fns K) (p : MPar K) (s : MS K) (hD : 0 < p.dSize) (hrow : s.row = 0)
    (hidx : s.idx = 0) (hr : p.randomRow = false) (hn : p.nRows ≠ 0) (hlr : p.transferLr ≠ 0)
    (us : List (MU K)) (m e : Nat) (hm : ∀ u ∈ us, u.mBatch = m) (he : p.every * m = e) (he0 : 0 < e)
    (r : MS K × List (List (MT K))) (h : p.run F s us = .ok r) :
    rowsOf r.2 = (List.range (p.rowsPer * ((us.length - 1) / e))).map (· % p.dSize) ∧
    r.1.idx = us.length := by
  have inv : ∀ (us : List (MU K)) (s : MS K) (t : Nat) (r : MS K × List (List (MT K))),
      (∀ u ∈ us, u.mBatch = m) → s.idx = t →
      s.row = (p.rowsPer * ((t - 1) / e)) % p.dSize → p.run F s us = .ok r →
      (List.range (p.rowsPer * ((t - 1) / e))).map (· % p.dSize) ++ rowsOf r.2 =
        (List.range (p.rowsPer * ((t + us.length - 1) / e))).map (· % p.dSize) ∧
      r.1.idx = t + us.length := by
    intro us
    induction us with
    | nil =>
      intro s t r _ h1 _ h
      cases h
      simp [rowsOf, h1]
    | cons u us ih =>
      intro s t r hm h1 h2 h
      obtain ⟨q, z, hq, hz, rfl⟩ := run_cons_ok F p s u us r h
      have hs : s.row < p.dSize := by rw [h2]; exact Nat.mod_lt _ hD
      obtain ⟨e1, e2, e3⟩ := C59_schedule F p s hs u q hq
      have hmb := hm u (List.mem_cons_self ..)
      have hfire : p.Fires s.idx u.mBatch ↔ 0 < t ∧ e ∣ t := by
        unfold MPar.Fires
        rw [hmb, he, h1]
        constructor
        · rintro ⟨-, a, b, -, -⟩; exact ⟨a, by exact_mod_cast b⟩
        · rintro ⟨a, b⟩; exact ⟨by exact_mod_cast he0, a, by exact_mod_cast b, hn, hlr⟩
      have key : q.1.row = (p.rowsPer * ((t + 1 - 1) / e)) % p.dSize ∧
          (List.range (p.rowsPer * ((t - 1) / e))).map (· % p.dSize) ++ q.2.map MT.row =
          (List.range (p.rowsPer * ((t + 1 - 1) / e))).map (· % p.dSize) := by
        rw [Nat.add_sub_cancel]
        by_cases hf : p.Fires s.idx u.mBatch
        · obtain ⟨i, -, c1, -, c3, c4⟩ := e3 hf
          obtain ⟨t0, td⟩ := hfire.1 hf
          have hi := c1 (Or.inl hr)
          have hdiv : t / e = (t - 1) / e + 1 := by
            obtain ⟨k, rfl⟩ : ∃ k, t = k + 1 := ⟨t - 1, by omega⟩
            rw [Nat.succ_div, if_pos td]; rfl
          rw [c4, c3, hdiv, hi, h2, Nat.mul_add, Nat.mul_one]
          refine ⟨Nat.mod_add_mod .., ?_⟩
          rw [List.range_add, List.map_append, List.map_map]
          congr 1
          apply List.map_congr_left
          intro k _
          simp [Nat.mod_add_mod]
        · obtain ⟨d1, d2, -⟩ := e2 hf
          have hdiv : t / e = (t - 1) / e := by
            rcases Nat.eq_zero_or_pos t with h0 | h0
            · subst h0; rfl
            · obtain ⟨k, rfl⟩ : ∃ k, t = k + 1 := ⟨t - 1, by omega⟩
              have : ¬ e ∣ k + 1 := fun hd => hf (hfire.2 ⟨h0, hd⟩)
              rw [Nat.succ_div, if_neg this]; rfl
          rw [d1, d2, hdiv, h2]
          simp
      obtain ⟨i1, i2⟩ := ih q.1 (t + 1) z (fun v hv => hm v (List.mem_cons_of_mem _ hv))
        (by rw [e1, h1]) key.1 hz
      have el : t + 1 + us.length = t + (u :: us).length := by simp; omega
      rw [el] at i1 i2
      refine ⟨?_, i2⟩
      rw [← i1, ← key.2]
      simp [rowsOf]
  have := inv us s 0 r hm hidx (by simp [hrow]) h
  simpa using this

/-- **C59 (every row is transferred equally often).**  In the situation of `C59_cyclic`, at any time
the numbers of transfers of any two rows differ by at most one. -/
theorem C59_fair (F : Fns K) (p : MPar K) (s : MS K) (hD : 0 < p.dSize) (hrow : s.row = 0)
    (hidx : s.idx = 0) (hr : p.randomRow = false) (hn : p.nRows ≠ 0) (hlr : p.transferLr ≠ 0)
    (us : List (MU K)) (m e : Nat) (hm : ∀ u ∈ us, u.mBatch = m) (he : p.every * m = e) (he0 : 0 < e)
    (r : MS K × List (List (MT K))) (h : p.run F s us = .ok r) (c c' : Nat) (hc : c < p.dSize)
    (hc' : c' < p.dSize) :
    (rowsOf r.2).count c ≤ (rowsOf r.2).count c' + 1 ∧
    p.rowsPer * ((us.length - 1) / e) / p.dSize ≤ (rowsOf r.2).count c := by
  rw [(C59_cyclic F p s hD hrow hidx hr hn hlr us m e hm he he0 r h).1]
  have key : ∀ N c, c < p.dSize → ((List.range N).map (· % p.dSize)).count c =
      N / p.dSize + if c < N % p.dSize then 1 else 0 := by
    intro N c hc
    have h1 : ((List.range N).map (· % p.dSize)).count c =
        N.count (fun k => k ≡ c [MOD p.dSize]) := by
      rw [List.count, List.countP_map, Nat.count]
      apply List.countP_congr
      intro k _
      simp [Nat.ModEq, Nat.mod_eq_of_lt hc]
    rw [h1, Nat.count_modEq_card _ hD, Nat.mod_eq_of_lt hc]
  rw [key _ c hc, key _ c' hc']
  constructor
  · split_ifs <;> omega
  · omega

end Aihw.Pulsed

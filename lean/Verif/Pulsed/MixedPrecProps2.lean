import Verif.Pulsed.MixedPrecProps
import Verif.Pulsed.UpdateMean

/-!
# C59: mixed-precision compound — the analog side, statistics, parameters
-/
namespace Aihw.Pulsed

section Generic
variable {K : Type} [Field K] [LinearOrder K] [IsStrictOrderedRing K] [FloorRing K]

/-- A cell after a sequence of pulses, all in the same direction, with the given draws. -/
def oneWay (F : Fns K) (d : Dev K) (k : Nat) (down : Bool) (l : List (K × K)) : CS K :=
  l.foldl (fun c g => pulse F d.kd d.par (d.cell k) c down g.1 g.2) (d.st k)

theorem write_frame (F : Fns K) (p : MPar K) (d : Dev K) (row : Nat) (dw : Nat → K) (lr : K)
    (w : WD K) : (p.write F d row dw lr w).kd = d.kd ∧ (p.write F d row dw lr w).par = d.par ∧
      (p.write F d row dw lr w).cell = d.cell := by
  unfold MPar.write
  exact ⟨pulses_kd .., pulses_par .., pulses_cell ..⟩

theorem lrSign_cases (x : K) : (if x < 0 then -1 else 1 : ℤ) = 1 ∨ (if x < 0 then -1 else 1 : ℤ) = -1 := by
  split_ifs <;> simp

theorem write_cell (F : Fns K) (p : MPar K) (d : Dev K) (row : Nat) (dw : Nat → K) (lr : K)
    (w : WD K) (hx : UnitDraws w.tx) (hd : UnitDraws w.td) (j i : Nat) (hj : j < p.dSize)
    (hi : i < p.xSize) :
    (p.write F d row dw lr w).st (j * p.xSize + i) =
      oneWay F d (j * p.xSize + i)
        (decide (0 < ((if p.gran * lr < 0 then -1 else 1 : ℤ) : K) * (dw i * unitVec row j)))
        ((hits w.tr dw (unitVec row) w.tx w.td j i).map fun k => (w.pd.g k j i, w.pd.g2 k j i)) := by
  unfold MPar.write oneWay
  rw [pulses_st, C45_cell_pulses _ _ _ _ _ (lrSign_cases _) _ _ _ _ hx hd _ _ _ hj hi,
    List.foldl_map, List.foldl_map]

theorem hits_nil (tr : Trains K) (x d : Nat → K) (tx td : TrainDraw K) (hx : UnitDraws tx)
    (hd : UnitDraws td) (j i : Nat) (h : x i = 0 ∨ d j = 0) : hits tr x d tx td j i = [] := by
  unfold hits
  rw [List.filter_eq_nil_iff]
  intro k _
  simp only [decide_eq_true_eq]
  rintro ⟨h1, h2⟩
  rcases h with h | h
  · exact not_fires_zero hx h h2
  · exact not_fires_zero hd h h1

/-- The analog device after writing several distinct rows. -/
theorem writes_cell (F : Fns K) (p : MPar K) (dw : Nat → Nat → K) (lr : K) (l : List (Nat × WD K))
    (hl : (l.map Prod.fst).Nodup) (hu : ∀ q ∈ l, UnitDraws q.2.tx ∧ UnitDraws q.2.td) (d : Dev K)
    (j i : Nat) (hj : j < p.dSize) (hi : i < p.xSize) :
    (j ∉ l.map Prod.fst →
      (l.foldl (fun d q => p.write F d q.1 (dw q.1) lr q.2) d).st (j * p.xSize + i) =
        d.st (j * p.xSize + i)) ∧
    (∀ q ∈ l, q.1 = j →
      (l.foldl (fun d q => p.write F d q.1 (dw q.1) lr q.2) d).st (j * p.xSize + i) =
        (p.write F d j (dw j) lr q.2).st (j * p.xSize + i)) := by
  induction l generalizing d with
  | nil => exact ⟨fun _ => rfl, by simp⟩
  | cons q l ih =>
    rw [List.map_cons, List.nodup_cons] at hl
    obtain ⟨hq, hl⟩ := hl
    have hu' := hu q (List.mem_cons_self ..)
    have ih := ih hl (fun r hr => hu r (List.mem_cons_of_mem _ hr)) (p.write F d q.1 (dw q.1) lr q.2)
    have hsame : q.1 ≠ j → (p.write F d q.1 (dw q.1) lr q.2).st (j * p.xSize + i) =
        d.st (j * p.xSize + i) := by
      intro hne
      rw [write_cell F p d q.1 (dw q.1) lr q.2 hu'.1 hu'.2 j i hj hi,
        hits_nil _ _ _ _ _ hu'.1 hu'.2 j i (Or.inr (by
          unfold unitVec; rw [if_neg (fun e : j = q.1 => hne e.symm)]))]
      rfl
    rw [List.foldl_cons]
    constructor
    · intro hn
      rw [List.map_cons, List.mem_cons, not_or] at hn
      rw [ih.1 hn.2, hsame (fun e => hn.1 e.symm)]
    · intro r hr hrj
      rcases List.mem_cons.1 hr with rfl | hr
      · rw [ih.1 (by rw [← hrj]; exact hq), ← hrj]
      · have hne : q.1 ≠ j := by
          intro e
          apply hq
          rw [e, ← hrj]
          exact List.mem_map_of_mem hr
        rw [ih.2 r hr hrj]
        have hur := hu r (List.mem_cons_of_mem _ hr)
        obtain ⟨k1, k2, k3⟩ := write_frame F p d q.1 (dw q.1) lr q.2
        rw [write_cell F p _ j (dw j) lr r.2 hur.1 hur.2 j i hj hi,
          write_cell F p _ j (dw j) lr r.2 hur.1 hur.2 j i hj hi]
        unfold oneWay
        rw [k1, k2, k3, hsame hne]

/-- The device after an update, cell by cell. -/
theorem update_cells (F : Fns K) (p : MPar K) (s : MS K) (hs : s.row < p.dSize)
    (u : MU K) (hu : u.Unit) (r : MS K × List (MT K)) (h : p.update F s u = .ok r) (j i : Nat)
    (hj : j < p.dSize) (hi : i < p.xSize) :
    (r.1.dev.kd = s.dev.kd ∧ r.1.dev.par = s.dev.par ∧ r.1.dev.cell = s.dev.cell) ∧
    (j ∉ r.2.map MT.row → r.1.dev.st (j * p.xSize + i) = s.dev.st (j * p.xSize + i)) ∧
    (∀ (n : Nat) (t : MT K), r.2[n]? = some t → t.row = j → 0 < p.gran ∧
      r.1.dev.st (j * p.xSize + i) =
        (p.write F s.dev j t.dw p.transferLr (u.w n)).st (j * p.xSize + i)) := by
  obtain ⟨a, q, ha, hq, rfl⟩ := update_ok F p s u r h
  rcases doTransfer_spec F p { s with chi := a.chi, qd := a.qd } u hs q hq with
    ⟨hf, rfl⟩ | ⟨hf, hg, rfl⟩
  · exact ⟨⟨rfl, rfl, rfl⟩, fun _ => rfl, by intro n t h; simp at h⟩
  · obtain ⟨i0, hi0⟩ : ∃ i0, i0 = p.firstRow { s with chi := a.chi, qd := a.qd } u.ur := ⟨_, rfl⟩
    simp only [← hi0]
    have hfr : ∀ (l : List Nat) (d : Dev K), (l.foldl (fun d k => p.write F d ((i0 + k) % p.dSize)
          (mpSteps p a.chi ((i0 + k) % p.dSize)) p.transferLr (u.w k)) d).kd = d.kd ∧
        (l.foldl (fun d k => p.write F d ((i0 + k) % p.dSize)
          (mpSteps p a.chi ((i0 + k) % p.dSize)) p.transferLr (u.w k)) d).par = d.par ∧
        (l.foldl (fun d k => p.write F d ((i0 + k) % p.dSize)
          (mpSteps p a.chi ((i0 + k) % p.dSize)) p.transferLr (u.w k)) d).cell = d.cell := by
      intro l
      induction l with
      | nil => intro d; exact ⟨rfl, rfl, rfl⟩
      | cons k l ih =>
        intro d
        rw [List.foldl_cons]
        obtain ⟨a1, a2, a3⟩ := ih (p.write F d ((i0 + k) % p.dSize)
          (mpSteps p a.chi ((i0 + k) % p.dSize)) p.transferLr (u.w k))
        obtain ⟨b1, b2, b3⟩ := write_frame F p d ((i0 + k) % p.dSize)
          (mpSteps p a.chi ((i0 + k) % p.dSize)) p.transferLr (u.w k)
        exact ⟨a1.trans b1, a2.trans b2, a3.trans b3⟩
    have hl : p.rowsPer ≤ p.dSize := by unfold MPar.rowsPer; split_ifs <;> simp
    obtain ⟨l, hldef⟩ : ∃ l : List (Nat × WD K),
      l = (List.range p.rowsPer).map fun k => ((i0 + k) % p.dSize, u.w k) := ⟨_, rfl⟩
    have hfold : (List.range p.rowsPer).foldl (fun d k => p.write F d ((i0 + k) % p.dSize)
          (mpSteps p a.chi ((i0 + k) % p.dSize)) p.transferLr (u.w k)) s.dev =
        l.foldl (fun d q => p.write F d q.1 (mpSteps p a.chi q.1) p.transferLr q.2) s.dev := by
      rw [hldef, List.foldl_map]
    have hkeys : l.map Prod.fst = (List.range p.rowsPer).map fun k => (i0 + k) % p.dSize := by
      rw [hldef, List.map_map]; rfl
    have W := writes_cell F p (mpSteps p a.chi) p.transferLr l
      (by rw [hkeys]; exact rows_nodup _ _ _ hl)
      (by
        intro q hq
        rw [hldef, List.mem_map] at hq
        obtain ⟨k, -, rfl⟩ := hq
        exact hu.2.2.2 k) s.dev j i hj hi
    refine ⟨hfr _ _, ?_, ?_⟩
    · intro hn
      rw [hfold]
      apply W.1
      rw [hkeys]
      rw [List.map_map] at hn
      exact hn
    · intro n t ht htj
      refine ⟨hg, ?_⟩
      rw [hfold]
      rw [List.getElem?_map, Option.map_eq_some_iff] at ht
      obtain ⟨k, hk, rfl⟩ := ht
      obtain ⟨hn, hkn⟩ := List.getElem?_eq_some_iff.1 hk
      rw [List.getElem_range] at hkn
      subst hkn
      simp only at htj ⊢
      rw [W.2 ((i0 + n) % p.dSize, u.w n) (by
        rw [hldef]
        exact List.mem_map_of_mem (f := fun k => ((i0 + k) % p.dSize, u.w k))
          (List.mem_range.2 (by simpa using hn))) htj, htj]

/-- **C59 (analog side).**  An update changes the analog device only at the cells of transferred
rows.  A cell whose step count is zero is not touched; otherwise it receives at most as many pulses
as the train has slots, all in the direction `-sign(transfer_lr * steps)` (down iff
`transfer_lr * steps > 0`). -/
theorem C59_weights (F : Fns K) (p : MPar K) (s : MS K) (hs : s.row < p.dSize)
    (u : MU K) (hu : u.Unit) (r : MS K × List (MT K)) (h : p.update F s u = .ok r) (j i : Nat)
    (hj : j < p.dSize) (hi : i < p.xSize) :
    (j ∉ r.2.map MT.row → r.1.dev.st (j * p.xSize + i) = s.dev.st (j * p.xSize + i)) ∧
    (∀ (n : Nat) (t : MT K), r.2[n]? = some t → t.row = j →
      ∃ l : List (K × K), l.length ≤ (u.w n).tr.bl ∧ (t.dw i = 0 → l = []) ∧
        r.1.dev.st (j * p.xSize + i) =
          oneWay F s.dev (j * p.xSize + i) (decide (0 < p.transferLr * t.dw i)) l) := by
  obtain ⟨-, h1, h2⟩ := update_cells F p s hs u hu r h j i hj hi
  refine ⟨h1, ?_⟩
  intro n t ht htj
  obtain ⟨hg, h2⟩ := h2 n t ht htj
  have hx := (hu.2.2.2 n).1
  have hd := (hu.2.2.2 n).2
  by_cases h0 : t.dw i = 0
  · refine ⟨[], Nat.zero_le _, fun _ => rfl, ?_⟩
    rw [h2, write_cell F p _ j t.dw _ _ hx hd j i hj hi, hits_nil _ _ _ _ _ hx hd j i (Or.inl h0)]
    rfl
  · refine ⟨(hits (u.w n).tr t.dw (unitVec j) (u.w n).tx (u.w n).td j i).map fun k =>
      ((u.w n).pd.g k j i, (u.w n).pd.g2 k j i), ?_, fun e => absurd e h0, ?_⟩
    · rw [List.length_map]
      unfold hits
      exact (List.length_filter_le _ _).trans (by simp)
    · rw [h2, write_cell F p _ j t.dw _ _ hx hd j i hj hi]
      congr 1
      have e : unitVec (K := K) j j = 1 := by simp [unitVec]
      rw [e, mul_one]
      by_cases hlr : p.transferLr = 0
      · exfalso
        obtain ⟨-, s1, -⟩ := C59_schedule F p s hs u r h
        have : ¬ p.Fires s.idx u.mBatch := fun hf => hf.2.2.2.2 hlr
        rw [(s1 this).1] at ht
        simp at ht
      · rcases lt_or_gt_of_ne hlr with hl | hl
        · rw [if_pos (mul_neg_of_pos_of_neg hg hl)]
          push_cast
          rw [decide_eq_decide, neg_one_mul, neg_pos]
          constructor
          · exact fun h => mul_pos_of_neg_of_neg hl h
          · intro h
            by_contra hc
            exact absurd h (not_lt.2 (mul_nonpos_of_nonpos_of_nonneg hl.le (not_lt.1 hc)))
        · rw [if_neg (not_lt.2 (mul_pos hg hl).le)]
          push_cast
          rw [decide_eq_decide, one_mul]
          exact (mul_pos_iff_of_pos_left hl).symm

/-- **C59 (setting weights).**  Setting the weights of the tile discards the accumulated gradient and
restarts the schedule and the statistics; the analog weights are clipped to the bounds of the device
(without write noise). -/
theorem C59_set_weights (p : MPar K) (s : MS K) (v g : Nat → K) :
    (∀ j i, (p.setWeights s v g).chi j i = 0) ∧ (p.setWeights s v g).row = 0 ∧
    (p.setWeights s v g).idx = 0 ∧ p.avgSparsity (p.setWeights s v g) = 0 ∧
    (s.dev.par.noiseOnSet = false ∨ s.dev.par.writeNoise ≤ 0 → ∀ k,
      ((p.setWeights s v g).dev.st k).vis =
        max (min (v k) (s.dev.cell k).maxB) (s.dev.cell k).minB) := by
  refine ⟨fun _ _ => rfl, rfl, rfl, ?_, ?_⟩
  · unfold MPar.avgSparsity MPar.setWeights; split_ifs <;> rfl
  · intro h k
    show (onSet s.dev.kd s.dev.par (s.dev.cell k) (s.dev.st k) (v k) (g k)).vis = _
    unfold onSet
    by_cases hp : persistent s.dev.kd s.dev.par = true
    · simp only [hp, if_true]
      have hn : s.dev.par.noiseOnSet = false := by
        rcases h with h | h
        · exact h
        · exfalso
          unfold persistent at hp
          split at hp
          · cases hp
          · exact absurd (of_decide_eq_true hp) (not_lt.2 h)
      simp only [hn, Bool.false_eq_true, if_false]
      rfl
    · simp only [hp, Bool.false_eq_true, if_false]
      rfl

/-- **C59 (hidden weights).**  The accumulator is exposed as a hidden parameter: writing it and
reading it back returns the same array (row-major), and nothing else changes. -/
theorem C59_hidden_round_trip (p : MPar K) (s : MS K) (v : Nat → K) (hX : 0 < p.xSize) :
    (∀ k, p.getChi (p.setChi s v) k = v k) ∧
    (p.setChi s v).dev = s.dev ∧ (p.setChi s v).row = s.row ∧ (p.setChi s v).idx = s.idx ∧
    (∀ j < p.dSize, ∀ i < p.xSize, (p.setChi s (p.getChi s)).chi j i = s.chi j i) := by
  refine ⟨?_, rfl, rfl, rfl, ?_⟩
  · intro k
    show v (k / p.xSize * p.xSize + k % p.xSize) = v k
    rw [Nat.div_add_mod']
  · intro j _ i hi
    show s.chi ((j * p.xSize + i) / p.xSize) ((j * p.xSize + i) % p.xSize) = s.chi j i
    rw [Nat.add_comm, Nat.add_mul_div_right _ _ hX, Nat.div_eq_of_lt hi, Nat.zero_add,
      Nat.add_mul_mod_self_right, Nat.mod_eq_of_lt hi]

/-- **C59 (granularity).**  Construction fails unless a positive granularity is known; an explicit
positive parameter overrides the one of the device. -/
theorem C59_granularity (dev : Option K) (par : K) :
    (∀ g, mpGranularity dev par = .ok g → 0 < g ∧ (0 < par → g = par) ∧ (par ≤ 0 → dev = some g)) ∧
    ((∃ g, mpGranularity dev par = .ok g) ↔ 0 < par ∨ ∃ g, dev = some g ∧ 0 < g) := by
  unfold mpGranularity
  constructor
  · intro g h
    by_cases hp : 0 < par
    · simp only [hp, if_true, not_le.2 hp, if_false, Except.ok.injEq] at h
      subst h
      exact ⟨hp, fun _ => rfl, fun h => absurd hp (not_lt.2 h)⟩
    · cases dev with
      | none => simp [hp] at h
      | some v =>
        simp only [hp, if_false, Option.getD_some] at h
        by_cases hv : v ≤ 0
        · rw [if_pos hv] at h; cases h
        · rw [if_neg hv] at h; cases h
          exact ⟨not_le.1 hv, fun h => absurd h hp, fun _ => rfl⟩
  · by_cases hp : 0 < par
    · simp [hp, not_le.2 hp]
    · cases dev with
      | none => simp [hp]
      | some v =>
        simp only [hp, if_false, Option.getD_some, false_or, Option.some.injEq]
        by_cases hv : v ≤ 0
        · rw [if_pos hv]
          constructor
          · rintro ⟨_, h⟩; cases h
          · rintro ⟨g, rfl, h⟩; exact absurd h (not_lt.2 hv)
        · rw [if_neg hv]
          exact ⟨fun _ => ⟨v, rfl, not_le.1 hv⟩, fun _ => ⟨v, rfl⟩⟩

/-- Number of zero entries among the first `n`. -/
def zeros (n : Nat) (v : Nat → K) : Nat := ((List.range n).filter fun i => decide (v i = 0)).length

theorem zeros_eq (n : Nat) (v : Nat → K) :
    n - ((List.range n).filter fun i => decide (v i ≠ 0)).length = zeros n v := by
  unfold zeros
  have h := List.length_eq_length_filter_add (l := List.range n) (fun i => decide (v i = 0))
  rw [List.length_range] at h
  have e : (List.range n).filter (fun i => !decide (v i = 0)) =
      (List.range n).filter fun i => decide (v i ≠ 0) := by
    apply List.filter_congr
    intro i _
    simp
  rw [e] at h
  omega

/-- **C59 (sparsity statistics).**  With both vectors quantised and the statistics switched on, after
any sequence of updates from a fresh state the reported average is the mean over the updates of
(number of zero quantised errors) * (number of zero quantised inputs) / size.  This is the fraction
of cells for which *both* factors vanish; it is not the fraction of cells that get no gradient
(see `C59_sparsity_finding`). -/
theorem C59_sparsity (F : Fns K) (p : MPar K) (hx : 0 < p.nxBins) (hd : 0 < p.ndBins)
    (hsp : p.sparsity = true) (s : MS K) (hs : s.row < p.dSize) (hidx : s.idx = 0)
    (us : List (MU K)) (hne : us ≠ []) (hu : ∀ u ∈ us, u.Unit) (r : MS K × List (List (MT K)))
    (h : p.run F s us = .ok r) :
    ∃ qs : List ((Nat → K) × (Nat → K)),
      List.Forall₂ (fun u q => p.Contribution u q.1 q.2) us qs ∧
      p.avgSparsity r.1 = (qs.map fun q => ((zeros p.dSize q.2 * zeros p.xSize q.1 : Nat) : K) /
        ((p.xSize * p.dSize : Nat) : K)).sum / (us.length : K) := by
  have hU : p.Uniform := by unfold MPar.Uniform; omega
  have inv : ∀ (us : List (MU K)) (s : MS K) (r : MS K × List (List (MT K))), s.row < p.dSize →
      (∀ u ∈ us, u.Unit) → p.run F s us = .ok r → ∃ qs : List ((Nat → K) × (Nat → K)),
      List.Forall₂ (fun u q => p.Contribution u q.1 q.2) us qs ∧ r.1.idx = s.idx + us.length ∧
      (r.1.idx : K) * r.1.avg = (s.idx : K) * s.avg +
        (qs.map fun q => ((zeros p.dSize q.2 * zeros p.xSize q.1 : Nat) : K) /
        ((p.xSize * p.dSize : Nat) : K)).sum := by
    intro us
    induction us with
    | nil => intro s r _ _ h; cases h; exact ⟨[], List.Forall₂.nil, rfl, by simp⟩
    | cons u us ih =>
      intro s r hs hu h
      obtain ⟨q, z, hq, hz, rfl⟩ := run_cons_ok F p s u us r h
      obtain ⟨a, b, ha, hb, rfl⟩ := update_ok F p s u q hq
      obtain ⟨qx, qd, hC, -, -, hk⟩ := accumulate_spec p hU s u (hu u (List.mem_cons_self ..)) a ha
      obtain ⟨kx, kd⟩ := hk hx hd
      obtain ⟨qs, f1, f2, f3⟩ := ih _ z (row_lt_update F p s u _ hs hq)
        (fun v hv => hu v (List.mem_cons_of_mem _ hv)) hz
      have hb1 : b.1.idx = s.idx ∧ b.1.avg = s.avg := by
        rcases doTransfer_spec F p { s with chi := a.chi, qd := a.qd } u hs b hb with
          ⟨-, rfl⟩ | ⟨-, -, rfl⟩ <;> exact ⟨rfl, rfl⟩
      refine ⟨(qx, qd) :: qs, List.Forall₂.cons hC f1, ?_, ?_⟩
      · rw [f2]; simp [hb1.1]; omega
      · simp only at f3 ⊢
        rw [f3]
        simp only [List.map_cons, List.sum_cons]
        unfold MPar.computeSparsity
        rw [hsp, if_pos rfl, kx, kd, zeros_eq, zeros_eq, hb1.1, hb1.2]
        have hpos : ((s.idx : K) + 1) ≠ 0 := by positivity
        push_cast
        field_simp
        ring
  obtain ⟨qs, f1, f2, f3⟩ := inv us s r hs hu h
  refine ⟨qs, f1, ?_⟩
  rw [MPar.avgSparsity, hsp, if_pos rfl, ← sub_eq_zero]
  rw [hidx, Nat.zero_add] at f2
  rw [hidx, f2] at f3
  have hl : (us.length : K) ≠ 0 := by
    have : us.length ≠ 0 := by simpa using hne
    exact_mod_cast this
  simp only [Nat.cast_zero, zero_mul, zero_add] at f3
  rw [← f3]
  field_simp
  ring

/-- **C59 (finding: the reported sparsity is not the sparsity of the gradient).**  If the error vector
is zero, no cell gets any gradient (the gradient is fully sparse), but for a constant non-zero input
the first update reports a sparsity of zero. -/
theorem C59_sparsity_finding (F : Fns K) (p : MPar K) (hx : 0 < p.nxBins) (hd : 0 < p.ndBins)
    (hsp : p.sparsity = true) (hsto : p.stoX = false) (s : MS K) (hs : s.row < p.dSize)
    (hidx : s.idx = 0) (u : MU K) (hu : u.Unit) (c : K) (hc : c ≠ 0) (hux : ∀ i, u.x i = c)
    (hud : ∀ j, u.d j = 0) (r : MS K × List (MT K)) (h : p.update F s u = .ok r) :
    (∀ j < p.dSize, ∀ i < p.xSize, r.1.chi j i = s.chi j i) ∧ p.avgSparsity r.1 = 0 := by
  have hU : p.Uniform := by unfold MPar.Uniform; omega
  have hrun : p.run F s [u] = .ok (r.1, [r.2]) := by
    simp only [MPar.run, h, bind, Except.bind]
  have hw : 0 < p.nxBins / 2 := by
    obtain ⟨a, q, ha, -, -⟩ := update_ok F p s u r h
    unfold MPar.accumulate at ha
    cases hw : mpWidth p.nxBins p.xSize u.x with
    | error e => rw [hw] at ha; cases ha
    | ok wx => rcases mpWidth_ok hw with ⟨h, -⟩ | ⟨h, -⟩ <;> omega
  have qd0 : ∀ qx qd : Nat → K, p.Contribution u qx qd → ∀ j < p.dSize, qd j = 0 := by
    rintro qx qd ⟨ax, ad, -, ⟨-, -, had⟩, -, hqd⟩ j hj
    have hz : ad = 0 := by
      rcases had with h | ⟨j, -, h⟩
      · exact h
      · rw [h, hud, abs_zero]
    obtain ⟨n, -, hn, -⟩ := (hqd j hj).2 hd
    rw [hn, hz]; simp
  have qxc : ∀ qx qd : Nat → K, p.Contribution u qx qd → ∀ i < p.xSize, qx i ≠ 0 := by
    rintro qx qd ⟨ax, ad, ⟨g1, g2, hax⟩, -, hqx, -⟩ i hi
    obtain ⟨hax0, hax1, hax⟩ : 0 ≤ ax ∧ |c| ≤ ax ∧ (ax = 0 ∨ ax = |c|) := by
      exact ⟨g1, by rw [← hux i]; exact g2 i hi, hax.imp id fun ⟨j, _, e⟩ => by rw [e, hux]⟩
    have hax' : ax = |c| := by
      rcases hax with h | h
      · exfalso; rw [h] at hax1; exact hc (abs_nonpos_iff.1 hax1)
      · exact h
    obtain ⟨n, hn1, hn2, hn3⟩ := (hqx i hi).2 hx
    have hb : (0 : K) < ((p.nxBins / 2 : ℤ) : K) := by exact_mod_cast hw
    intro h0
    rw [h0, hsto, hux] at hn3
    simp only [Bool.false_eq_true, if_false, zero_mul, add_zero, sub_zero] at hn3
    rcases lt_or_gt_of_ne hc with hneg | hpos
    · have := hn3 (-(p.nxBins / 2)) (by rw [abs_neg, abs_of_pos hw])
      push_cast at this
      rw [hax', abs_of_neg hneg] at this
      have e : c - -((p.nxBins / 2 : ℤ) : K) * (-c / ((p.nxBins / 2 : ℤ) : K)) = 0 := by
        field_simp; ring
      rw [e, abs_zero] at this
      linarith
    · have := hn3 (p.nxBins / 2) (by rw [abs_of_pos hw])
      rw [hax', abs_of_pos hpos] at this
      have e : c - ((p.nxBins / 2 : ℤ) : K) * (c / ((p.nxBins / 2 : ℤ) : K)) = 0 := by
        field_simp; ring
      rw [e, abs_zero] at this
      linarith
  constructor
  · have hnf : ¬ p.Fires s.idx u.mBatch := by rintro ⟨-, h, -⟩; omega
    obtain ⟨-, h1, -⟩ := C59_schedule F p s hs u r h
    obtain ⟨qx, qd, hC, hcons⟩ := update_conserve F p hU s hs u hu r h
    intro j hj i hi
    have := hcons j hj i hi
    rw [(h1 hnf).1, qd0 qx qd hC j hj] at this
    simpa [taken] using this
  · obtain ⟨qs, hF, hav⟩ := C59_sparsity F p hx hd hsp s hs hidx [u] (by simp)
      (by intro v hv; rw [List.mem_singleton.1 hv]; exact hu) _ hrun
    rw [hav]
    cases hF with
    | cons hC hnil =>
      cases hnil
      rename_i q
      have : zeros p.xSize q.1 = 0 := by
        unfold zeros
        rw [List.length_eq_zero_iff, List.filter_eq_nil_iff]
        intro i hi
        simpa using qxc _ _ hC i (List.mem_range.1 hi)
      simp [this]

/-- **C59 (finding: one quantised vector).**  With exactly one of the two vectors quantised, the
error values are written to a wrong position of the buffer: the update is undefined (out of bounds)
if there are more columns than rows; otherwise only row `x_size - 1` and rows already marked in the
buffer can receive gradient.  From a fresh buffer every other row of the accumulator is unchanged
whatever the error vector is, and row `x_size - 1` gets the *last* error value. -/
theorem C59_one_quantised_finding (F : Fns K) (p : MPar K) (hp : ¬ p.Uniform) (s : MS K)
    (hs : s.row < p.dSize) (u : MU K) :
    (p.dSize < p.xSize → ∃ e, p.update F s u = .error e) ∧
    (∀ r, p.update F s u = .ok r → ¬ p.Fires s.idx u.mBatch → (∀ k, s.qd k = 0) →
      (∀ j i, j ≠ p.xSize - 1 → r.1.chi j i = s.chi j i) ∧
      ∃ f : Nat → K, ∃ c : K, (p.ndBins ≤ 0 → c = u.d (p.dSize - 1)) ∧
        ∀ i < p.xSize, r.1.chi (p.xSize - 1) i = s.chi (p.xSize - 1) i + u.lr * c * f i) := by
  have hW : ∀ (q : Nat → K) (X D : Nat) (b : Nat → K) (k : Nat), 0 < D →
      mpWriteQd X D q b k = if k = X - 1 then q (D - 1) else b k := by
    intro q X D b k hD
    obtain ⟨n, rfl⟩ : ∃ n, D = n + 1 := ⟨D - 1, by omega⟩
    clear hD
    induction n with
    | zero => simp [mpWriteQd]
    | succ n ih =>
      unfold mpWriteQd at ih ⊢
      rw [List.range_succ, List.foldl_append]
      simp only [List.foldl_cons, List.foldl_nil]
      rw [ih]
      split_ifs <;> simp
  have hsplit : ¬ (p.ndBins ≤ 0 ∧ p.nxBins ≤ 0) ∧ (p.ndBins ≤ 0 ∨ p.nxBins ≤ 0) := by
    unfold MPar.Uniform at hp
    constructor
    · rintro ⟨h1, h2⟩; exact hp ⟨fun _ => h1, fun _ => h2⟩
    · by_contra hc
      push Not at hc
      exact hp ⟨fun h => absurd h (not_le.2 hc.2), fun h => absurd h (not_le.2 hc.1)⟩
  constructor
  · intro hlt
    unfold MPar.update MPar.accumulate
    cases mpWidth p.nxBins p.xSize u.x with
    | error e => exact ⟨e, rfl⟩
    | ok wx =>
      cases mpWidth p.ndBins p.dSize u.d with
      | error e => exact ⟨e, rfl⟩
      | ok wd =>
        simp only [bind, Except.bind, if_neg hsplit.1, if_pos hsplit.2, if_pos hlt]
        exact ⟨_, rfl⟩
  · intro r h hnf hqd
    obtain ⟨a, q, ha, hq, rfl⟩ := update_ok F p s u r h
    rcases doTransfer_spec F p { s with chi := a.chi, qd := a.qd } u hs q hq with
      ⟨hf, rfl⟩ | ⟨hf, hg, rfl⟩
    · simp only
      unfold MPar.accumulate at ha
      cases hx : mpWidth p.nxBins p.xSize u.x with
      | error e => rw [hx] at ha; cases ha
      | ok wx =>
        cases hd : mpWidth p.ndBins p.dSize u.d with
        | error e => rw [hx, hd] at ha; cases ha
        | ok wd =>
          rw [hx, hd] at ha
          simp only [bind, Except.bind, if_neg hsplit.1, if_pos hsplit.2] at ha
          by_cases hlt : p.dSize < p.xSize
          · rw [if_pos hlt] at ha; cases ha
          · rw [if_neg hlt] at ha
            cases ha
            constructor
            · intro j i hj
              simp only [mpGer]
              rw [hW _ _ _ _ _ (show 0 < p.dSize by omega), if_neg hj, hqd]
              simp
            · refine ⟨fun i => mpQuant p.nxBins p.stoX wx (u.x i) (u.ux i),
                mpQuant p.ndBins p.stoD wd (u.d (p.dSize - 1)) (u.ud (p.dSize - 1)), ?_, ?_⟩
              · intro hb; rw [mpQuant, if_neg (not_lt.2 hb)]
              · intro i hi
                simp only [mpGer]
                rw [hW _ _ _ _ _ (show 0 < p.dSize by omega), if_pos rfl,
                  if_pos (show p.xSize - 1 < p.dSize ∧ i < p.xSize from ⟨by omega, hi⟩)]
    · exact absurd hf hnf

/-- **C59 (finding: a single bin).**  One bin for either vector makes the bin width a division by
zero; every update raises in the model (NaN or infinite increments in the code). -/
theorem C59_single_bin_finding (F : Fns K) (p : MPar K) (h : p.nxBins = 1 ∨ p.ndBins = 1) (s : MS K)
    (u : MU K) : p.update F s u = .error .arithmetic := by
  have e : ∀ (n : Nat) (v : Nat → K), mpWidth 1 n v = .error .arithmetic := by
    intro n v
    unfold mpWidth
    rw [if_neg (by omega), if_pos (by decide)]
  unfold MPar.update MPar.accumulate
  by_cases hx : p.nxBins = 1
  · rw [hx, e]; rfl
  · have hd := h.resolve_left hx
    rw [hd, e]
    cases hw : mpWidth p.nxBins p.xSize u.x with
    | ok w => rfl
    | error er =>
      unfold mpWidth at hw
      split_ifs at hw
      cases hw; rfl

end Generic

/-! ## The transfer with the update parameters of the tile (update management is switched on) -/

/-- The scales of a transfer with `UM` and `UBLM`: a train of `m = max |dw|` slots, error probability
one, input probability `|dw_i| / m`. -/
theorem transfer_scales (v : UpPar) (hum : v.um = true) (hublm : v.ublm = true)
    (hgs : v.umGradScale = 1) (X D row : Nat) (hrow : row < D) (dw : Nat → ℝ) (g : ℝ) (hg : 0 < g)
    (m : Nat) (hm0 : 0 < m) (hm : m ≤ v.desiredBL) (hmax : absMax X dw = m) :
    v.scales X D dw (unitVec row) g g = .ok ⟨m, 1, 1 / m⟩ := by
  have hd : absMax D (unitVec (K := ℝ) row) = 1 := by
    apply le_antisymm
    · unfold absMax
      have : ∀ (l : List Nat) (z : ℝ), z ≤ 1 →
          l.foldl (fun m j => max m |unitVec (K := ℝ) row j|) z ≤ 1 := by
        intro l
        induction l with
        | nil => intro z hz; exact hz
        | cons a l ih =>
          intro z hz
          rw [List.foldl_cons]
          apply ih
          apply max_le hz
          unfold unitVec
          split_ifs <;> simp
      exact this _ _ zero_le_one
    · have := le_absMax (unitVec (K := ℝ) row) hrow
      simpa [unitVec] using this
  have hmR : (0 : ℝ) < m := by exact_mod_cast hm0
  have hb : (v.ublm || v.um) = true := by simp [hublm]
  rw [UpPar.scales, if_pos hb, UpPar.performUM, hd, hmax]
  have hc : v.calculateBlAB g g = .ok ⟨v.desiredBL, √(g / (g * v.desiredBL)), √(g / (g * v.desiredBL))⟩ := by
    rw [UpPar.calculateBlAB, if_neg (not_lt.2 hg.le), if_neg hg.ne', if_pos (by simp [hublm])]
  rw [hc]
  have hk : g * (m : ℝ) * (v.umGradScale * 1) / g = m := by rw [hgs]; field_simp
  have hcond : ¬ ((1 : ℝ) = 0 ∨ (m : ℝ) = 0) := by
    rintro (h | h)
    · exact one_ne_zero h
    · exact hmR.ne' h
  simp only [bind, Except.bind, if_pos hg, if_neg hcond, hb, if_true, pure, Except.pure, hk]
  congr 1
  have hceil : ⌈(m : ℝ)⌉ = (m : ℤ) := Int.ceil_natCast m
  have hle : ¬ ((v.desiredBL : ℤ) < (m : ℤ)) := by omega
  have hle' : ¬ (((v.desiredBL : ℤ) : ℝ) < (m : ℝ)) := by
    rw [not_lt]; exact_mod_cast hm
  have hs : √(g / (g * ((m : ℤ) : ℝ))) = 1 / √(m : ℝ) := by
    have : g / (g * ((m : ℤ) : ℝ)) = 1 / (m : ℝ) := by push_cast; field_simp
    rw [this, Real.sqrt_div zero_le_one, Real.sqrt_one]
  have hsq : √(m : ℝ) * √(m : ℝ) = m := Real.mul_self_sqrt hmR.le
  have hsp : 0 < √(m : ℝ) := Real.sqrt_pos.2 hmR
  have h1m : √(1 / (m : ℝ)) = 1 / √(m : ℝ) := by rw [Real.sqrt_div zero_le_one, Real.sqrt_one]
  simp only [UpPar.umStep, UpPar.ublmStep, hublm, hum, if_true, hceil, hle, if_false, hle', hgs,
    one_mul, hs, div_one, h1m]
  congr 1
  · field_simp
  · rw [div_mul_div_comm, one_mul, hsq]

/-- **C59 (a transfer delivers the requested steps).**  Update parameters of the tile with the forced
update management, `um_grad_scale = 1`, continuous resolution; granularity equal to that of the
device and `transfer_lr = 1` (so the learning rate of the write is `g`).  If the largest step count
of the row, `m`, fits the train (`m ≤ desired_bl`), then for all draws every cell of the row whose
count is `± m` gets exactly `m` pulses, cells with count 0 get none, any other cell gets one pulse per
slot with `r < |count| / m`.  In particular rows whose counts are all in `{-1, 0, 1}` are transferred
exactly. -/
theorem C59_exact_transfer (v : UpPar) (hum : v.um = true) (hublm : v.ublm = true)
    (hgs : v.umGradScale = 1) (ty : SparseType) (res : ℝ) (hres : res ≤ 0) (sto : Bool)
    (X D row : Nat) (hrow : row < D) (dw : Nat → ℝ) (g : ℝ) (hg : 0 < g)
    (m : Nat) (hm0 : 0 < m) (hm : m ≤ v.desiredBL) (hmax : absMax X dw = m)
    (tx td : TrainDraw ℝ) (hx : UnitDraws tx) (hd : UnitDraws td) (pd : PulseDraw ℝ) :
    ∃ l, v.pulses ty res sto X D g g dw (unitVec row) tx td pd = .ok l ∧ ∀ i < X,
      (|dw i| = m → (l.filter fun q => decide (q.k = row * X + i)).length = m) ∧
      (l.filter fun q => decide (q.k = row * X + i)).length =
        ((List.range m).filter fun k => decide (tx.r k i < |dw i| / m)).length ∧
      ∀ q ∈ l, q.k = row * X + i → q.down = decide (0 < dw i) := by
  have hsc := transfer_scales v hum hublm hgs X D row hrow dw g hg m hm0 hm hmax
  have hmR : (0 : ℝ) < m := by exact_mod_cast hm0
  refine ⟨sparsePulses ty (⟨m, 1, 1 / (m : ℝ), res, sto⟩ : Trains ℝ) X D 1 dw (unitVec row) tx td pd, ?_, ?_⟩
  · simp only [UpPar.pulses, if_neg (not_lt.2 hg.le), hsc, bind, Except.bind, pure, Except.pure]
    rfl
  · intro i hi
    have hcell := C45_cell_pulses ty (⟨m, 1, 1 / (m : ℝ), res, sto⟩ : Trains ℝ) X D 1 (Or.inl rfl) dw (unitVec row) tx td
      hx hd pd row i hrow hi
    have hu : unitVec (K := ℝ) row row = 1 := by simp [unitVec]
    have hlen : ((sparsePulses ty (⟨m, 1, 1 / (m : ℝ), res, sto⟩ : Trains ℝ) X D 1 dw (unitVec row) tx td pd).filter
        fun q => decide (q.k = row * X + i)).length =
        ((List.range m).filter fun k => decide (tx.r k i < |dw i| / m)).length := by
      rw [hcell, List.length_map]
      unfold hits
      congr 1
      apply List.filter_congr
      intro k _
      simp only [Fires, discretized, hres, if_true, hu, abs_one, one_mul, (hd.2 k row).2, true_and,
        mul_one_div]
    refine ⟨?_, hlen, ?_⟩
    · intro hme
      rw [hlen, List.filter_eq_self.2]
      · simp
      · intro k _
        rw [hme, div_self hmR.ne']
        simp [(hx.2 k i).2]
    · intro q hq hk
      have : q ∈ (sparsePulses ty (⟨m, 1, 1 / (m : ℝ), res, sto⟩ : Trains ℝ) X D 1 dw (unitVec row) tx td pd).filter
          fun q => decide (q.k = row * X + i) := List.mem_filter.2 ⟨hq, by simp [hk]⟩
      rw [hcell, List.mem_map] at this
      obtain ⟨k, -, rfl⟩ := this
      simp [hu]

/-- **C59 (ideal device: exact SGD of analog weight minus accumulator).**  Constant-step device without
cycle-to-cycle noise whose up and down steps at cell `(j, i)` equal the granularity, `transfer_lr = 1`,
write scales chosen by the (forced) update management with `um_grad_scale = 1` and continuous
resolution, step counts of the transferred rows in `{-1, 0, 1}`, and one step of room to both bounds.
Then an update changes `weight - accumulator` by exactly `-lr * q(d)_j * q(x)_i`, whether or not it
transfers and for all draws. -/
theorem C59_ideal_sgd (F : Fns ℝ) (p : MPar ℝ) (hp : p.Uniform) (s : MS ℝ) (hs : s.row < p.dSize)
    (u : MU ℝ) (hu : u.Unit) (r : MS ℝ × List (MT ℝ)) (h : p.update F s u = .ok r) (j i : Nat)
    (hj : j < p.dSize) (hi : i < p.xSize) (hlr : p.transferLr = 1)
    (hkd : s.dev.kd = .constant) (hok : parOk s.dev.kd s.dev.par = true)
    (hstd : s.dev.par.dwMinStd ≤ 0)
    (hup : (s.dev.cell (j * p.xSize + i)).up = p.gran)
    (hdn : (s.dev.cell (j * p.xSize + i)).down = p.gran)
    (room1 : (s.dev.cell (j * p.xSize + i)).minB ≤ s.dev.weight (j * p.xSize + i) - p.gran)
    (room2 : s.dev.weight (j * p.xSize + i) + p.gran ≤ (s.dev.cell (j * p.xSize + i)).maxB)
    (v : UpPar) (hum : v.um = true) (hublm : v.ublm = true) (hgs : v.umGradScale = 1)
    (hB : 1 ≤ v.desiredBL) (res : ℝ) (hres : res ≤ 0) (sto : Bool)
    (hsc : ∀ (n : Nat) (t : MT ℝ), r.2[n]? = some t → ∃ q : BLAB,
      v.scales p.xSize p.dSize t.dw (unitVec t.row) (p.gran * p.transferLr) p.gran = .ok q ∧
      (u.w n).tr = ⟨q.bl.toNat, q.a, q.b, res, sto⟩)
    (hone : ∀ t ∈ r.2, ∀ k < p.xSize, |t.dw k| ≤ 1) :
    ∃ qx qd, p.Contribution u qx qd ∧
      r.1.dev.weight (j * p.xSize + i) - r.1.chi j i =
        s.dev.weight (j * p.xSize + i) - s.chi j i - u.lr * qd j * qx i := by
  obtain ⟨qx, qd, hC, hcons⟩ := update_conserve F p hp s hs u hu r h
  refine ⟨qx, qd, hC, ?_⟩
  have hc := hcons j hj i hi
  obtain ⟨⟨kd1, kd2, kd3⟩, hnot, hrow⟩ := update_cells F p s hs u hu r h j i hj hi
  obtain ⟨hnd, hint, -⟩ := C59_remainder F p hp s hs u hu r h
  have hper : persistent s.dev.kd s.dev.par = false := by
    unfold parOk at hok
    rw [hkd] at hok ⊢
    simpa [implementsWriteNoise] using hok
  have hwn : ¬ 0 < s.dev.par.writeNoise := by
    rw [hkd] at hper
    simpa [persistent] using hper
  have hw0 : ∀ k, s.dev.weight k = (s.dev.st k).vis := by
    intro k; simp only [Dev.weight, hkd]; rw [if_neg hwn]
  have hw1 : ∀ k, r.1.dev.weight k = (r.1.dev.st k).vis := by
    intro k; simp only [Dev.weight, kd1, kd2, hkd]; rw [if_neg hwn]
  rw [hw0] at room1 room2
  rw [hw0, hw1]
  by_cases hm : j ∈ r.2.map MT.row
  · obtain ⟨t, ht, htj⟩ := List.mem_map.1 hm
    obtain ⟨n, hn, htn⟩ := List.getElem_of_mem ht
    have hget : r.2[n]? = some t := by rw [List.getElem?_eq_getElem hn, htn]
    have htk : taken r.2 j i = t.dw i := by
      have : r.2.filter (fun z => decide (z.row = j)) = [t] := by
        clear hone hsc hrow hnot hint hcons hc hget htn hn hm
        generalize r.2 = l at ht hnd
        induction l with
        | nil => simp at ht
        | cons z l ih =>
          rw [List.map_cons, List.nodup_cons] at hnd
          rcases List.mem_cons.1 ht with rfl | ht'
          · rw [List.filter_cons_of_pos (by simp [htj])]
            congr 1
            rw [List.filter_eq_nil_iff]
            intro y hy
            simp only [decide_eq_true_eq]
            intro e
            apply hnd.1
            rw [htj, ← e]
            exact List.mem_map_of_mem hy
          · rw [List.filter_cons_of_neg]
            · exact ih ht' hnd.2
            · simp only [decide_eq_true_eq]
              intro e
              apply hnd.1
              rw [e, ← htj]
              exact List.mem_map_of_mem ht'
      simp [taken, this]
    obtain ⟨hg, hst⟩ := hrow n t hget htj
    have hx := (hu.2.2.2 n).1
    have hd := (hu.2.2.2 n).2
    rw [htk] at hc
    obtain ⟨-, hti⟩ := hint t ht
    obtain ⟨z, hz, -, -⟩ := hti i hi
    have hz1 := hone t ht i hi
    rw [hst, write_cell F p _ j t.dw _ _ hx hd j i hj hi]
    by_cases h0 : t.dw i = 0
    · rw [hits_nil _ _ _ _ _ hx hd j i (Or.inl h0)]
      rw [h0] at hc
      simp only [List.map_nil, oneWay, List.foldl_nil]
      linarith
    · have habs : |t.dw i| = 1 := by
        apply le_antisymm hz1
        rw [hz, ← Int.cast_abs]
        rw [hz] at h0
        have : z ≠ 0 := by exact_mod_cast h0
        exact_mod_cast Int.one_le_abs this
      have hmax : absMax p.xSize t.dw = (1 : ℕ) := by
        rw [Nat.cast_one]
        apply le_antisymm
        · unfold absMax
          have : ∀ (l : List Nat) (z : ℝ), (∀ k ∈ l, |t.dw k| ≤ 1) → z ≤ 1 →
              l.foldl (fun m j => max m |t.dw j|) z ≤ 1 := by
            intro l
            induction l with
            | nil => intro z _ hz; exact hz
            | cons a l ih =>
              intro z hl hz
              rw [List.foldl_cons]
              exact ih _ (fun k hk => hl k (List.mem_cons_of_mem _ hk))
                (max_le hz (hl a (List.mem_cons_self ..)))
          exact this _ _ (fun k hk => hone t ht k (List.mem_range.1 hk)) zero_le_one
        · rw [← habs]; exact le_absMax t.dw hi
      obtain ⟨q, hq, hqtr⟩ := hsc n t hget
      rw [hlr, mul_one, htj, transfer_scales v hum hublm hgs p.xSize p.dSize j hj t.dw p.gran hg 1
        one_pos hB hmax] at hq
      cases hq
      have hits1 : hits (u.w n).tr t.dw (unitVec j) (u.w n).tx (u.w n).td j i = [0] := by
        rw [hqtr]
        unfold hits
        simp only [Nat.cast_one, Int.toNat_one, List.range_one, Fires, discretized, hres, if_true,
          div_one, mul_one, habs]
        have hu1 : |unitVec (K := ℝ) j j| = 1 := by simp [unitVec]
        rw [hu1]
        rw [List.filter_cons_of_pos]
        · rfl
        · simp only [decide_eq_true_eq]
          exact ⟨(hd.2 0 j).2, (hx.2 0 i).2⟩
      have hu1 : unitVec (K := ℝ) j j = 1 := by simp [unitVec]
      rw [hits1, hlr, mul_one, if_neg (not_lt.2 hg.le), hu1]
      simp only [List.map_cons, List.map_nil, oneWay, List.foldl_cons, List.foldl_nil, hkd]
      simp only [pulse, implementsWriteNoise, Bool.and_false, Bool.false_eq_true, if_false, stepW,
        not_lt.2 hstd, Bool.false_and, hup, hdn, Int.cast_one, one_mul, mul_one]
      by_cases hpos : 0 < t.dw i
      · have e1 : t.dw i = 1 := by rw [← habs, abs_of_pos hpos]
        rw [e1] at hc ⊢
        simp only [zero_lt_one, decide_true, if_true]
        rw [clipMM_of_mem room1 (by linarith)]
        linarith
      · have e1 : t.dw i = -1 := by
          have := abs_of_nonpos (not_lt.1 hpos); rw [habs] at this; linarith
        rw [e1] at hc ⊢
        have : ¬ ((0 : ℝ) < -1) := by norm_num
        simp only [this, decide_false, Bool.false_eq_true, if_false]
        rw [clipMM_of_mem (by linarith) room2]
        linarith
  · rw [hnot hm]
    have ht0 : taken r.2 j i = 0 := by
      unfold taken
      rw [List.filter_eq_nil_iff.2]
      · rfl
      · intro t ht
        simp only [decide_eq_true_eq]
        intro e
        exact hm (e ▸ List.mem_map_of_mem ht)
    rw [ht0, mul_zero, add_zero] at hc
    linarith

/-- **C59 (finding: large steps are truncated silently).**  In the same situation with a step count
larger than `desired_bl`, no cell gets more than `desired_bl` pulses, although the accumulator is
reduced by the full step count (`C59_conserve`): the difference is lost. -/
theorem C59_long_transfer_finding (v : UpPar) (hublm : v.ublm = true)
    (hgs : v.umGradScale = 1) (ty : SparseType) (res : ℝ) (sto : Bool) (X D row : Nat) (hrow : row < D)
    (dw : Nat → ℝ) (g : ℝ) (hg : 0 < g) (hB : 1 ≤ v.desiredBL)
    (hbig : (v.desiredBL : ℝ) < absMax X dw) (tx td : TrainDraw ℝ) (hx : UnitDraws tx)
    (hd : UnitDraws td) (pd : PulseDraw ℝ) :
    ∃ l, v.initialize.pulses ty res sto X D g g dw (unitVec row) tx td pd = .ok l ∧ ∀ i < X,
      (l.filter fun q => decide (q.k = row * X + i)).length ≤ v.desiredBL := by
  have hne : ∃ j < X, dw j ≠ 0 := by
    by_contra hc
    push Not at hc
    rw [absMax_eq_zero hc] at hbig
    have : (0 : ℝ) ≤ v.desiredBL := Nat.cast_nonneg _
    linarith
  obtain ⟨r, hr, hbl, -, -, hex, -⟩ := C35_length_and_product v X D dw (unitVec row) g g hB hg
    (by rw [hgs]; exact one_pos) hg hne ⟨row, hrow, by simp [unitVec]⟩
  have hle := (hex (Or.inr (Or.inl hublm))).1
  refine ⟨sparsePulses ty ⟨r.bl.toNat, r.a, r.b, res, sto⟩ X D 1 dw (unitVec row) tx td pd, ?_, ?_⟩
  · simp only [UpPar.pulses, if_neg (not_lt.2 hg.le), hr, bind, Except.bind, pure, Except.pure]
  · intro i hi
    rw [C45_cell_pulses ty _ X D 1 (Or.inl rfl) dw (unitVec row) tx td hx hd pd row i hrow hi,
      List.length_map]
    unfold hits
    refine (List.length_filter_le _ _).trans ?_
    simp only [List.length_range]
    omega

end Aihw.Pulsed

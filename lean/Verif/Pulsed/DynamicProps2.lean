import Verif.Pulsed.DynamicProps

/-!
# C54: dynamic transfer compound (AGAD): references, schedule, slow device
-/
namespace Aihw.Pulsed

variable {K : Type} [Field K] [LinearOrder K] [IsStrictOrderedRing K] [FloorRing K]

theorem expMean_append (a m0 : K) (l : List K) (y : K) :
    expMean a m0 (l ++ [y]) = expMean a m0 l * (1 - a) + y * a := by
  induction l generalizing m0 with
  | nil => rfl
  | cons z l ih => exact ih _

theorem finishedPhases_snoc (rs : List (DRd K)) (r : DRd K) :
    finishedPhases (rs ++ [r]) = if r.switched then rs ++ [r] else finishedPhases rs := by
  induction rs with
  | nil =>
    by_cases h : r.switched = true
    · simp [finishedPhases, h]
    · simp [finishedPhases, h]
  | cons q rs ih =>
    rw [List.cons_append, finishedPhases, finishedPhases, ih]
    by_cases h : r.switched = true
    · simp [h]
    · simp [h]

theorem phaseRef_snoc (a p0 m0 : K) (o : Nat) (rs : List (DRd K)) (r : DRd K) :
    phaseRef a p0 m0 o (rs ++ [r]) =
      if r.switched then expMean a m0 ((rs ++ [r]).map (·.y o)) else phaseRef a p0 m0 o rs := by
  unfold phaseRef
  rw [finishedPhases_snoc]
  by_cases h : r.switched = true
  · simp [h]
  · simp [h]

/-- **C54 (the reference).**  For every history, weight `(i, j)` and read of it: the reference
subtracted is the running mean (weight `min(tail_weightening / n, 1)` per read) of all reads of this
weight up to the end of the last finished chopper phase of its slice, or the initial past mean while
the first phase lasts; the running mean is the exponential mean of all reads. -/
theorem C54_reference (F : Fns K) (p : DPar K) (hin : 0 < p.inSize) (us : List (DU K)) (s : DS K)
    (hs : ∀ k, s.ts.slice k < p.inSize) (hh : s.hist = []) (i j : Nat) (hi : i < p.dSize)
    (hj : j < p.xSize) (hsw : s.sw (sliceOf p.toBPar i j) = false) :
    (∀ h1 r h2, (p.run F s us).hist = h1 ++ r :: h2 → r.c = sliceOf p.toBPar i j →
      r.ref (posOf p.toBPar i j) = phaseRef (min (p.tail / (p.nSamp : K)) 1)
        (s.past (i * p.xSize + j)) (s.mean (i * p.xSize + j)) (posOf p.toBPar i j)
        (dReads p.toBPar h1 i j)) ∧
    (p.run F s us).mean (i * p.xSize + j) = expMean (min (p.tail / (p.nSamp : K)) 1)
      (s.mean (i * p.xSize + j))
      ((dReads p.toBPar (p.run F s us).hist i j).map (·.y (posOf p.toBPar i j))) := by
  obtain ⟨g1, g2, g3⟩ := slicePos p.toBPar hi hj
  have key := (dyn_run_inv F p hin us (fun t =>
    (∀ h1 r h2, t.hist = h1 ++ r :: h2 → r.c = sliceOf p.toBPar i j →
      r.ref (posOf p.toBPar i j) = phaseRef p.sm
        (s.past (i * p.xSize + j)) (s.mean (i * p.xSize + j)) (posOf p.toBPar i j)
        (dReads p.toBPar h1 i j)) ∧
    t.mean (i * p.xSize + j) = expMean p.sm (s.mean (i * p.xSize + j))
      ((dReads p.toBPar t.hist i j).map (·.y (posOf p.toBPar i j))) ∧
    p.muPast (sliceOf p.toBPar i j) t (posOf p.toBPar i j) = phaseRef p.sm
        (s.past (i * p.xSize + j)) (s.mean (i * p.xSize + j)) (posOf p.toBPar i j)
        (dReads p.toBPar t.hist i j)) ?_ ?_ s hs ?_).1
  · exact ⟨key.1, key.2.1⟩
  · intro u _ a c t hc _ hI
    obtain ⟨I1, I2, I3⟩ := hI
    obtain ⟨w, hw⟩ : ∃ w : WD K, w = { u.dr a with y := u.y a c } := ⟨_, rfl⟩
    obtain ⟨lr, hlr⟩ : ∃ lr, lr = p.bufLR 1 a u.lr := ⟨_, rfl⟩
    rw [← hw, ← hlr]
    have hmean : (p.one F u.cnt lr c w t).mean = p.setSlice c
      (fun o => t.mean (p.cellOf c o) * (1 - p.sm) + w.y o * p.sm) t.mean := rfl
    have hpast : (p.one F u.cnt lr c w t).past = p.setSlice c (p.muPast c t) t.past := rfl
    have hsw' : (p.one F u.cnt lr c w t).sw = fun k => if k = c then p.doSwitch t w.u else t.sw k := rfl
    refine ⟨?_, ?_, ?_⟩
    · intro h1 r h2 he hr
      rw [dyn_one_hist] at he
      rcases List.eq_nil_or_concat h2 with h0 | ⟨h2', z, h0⟩
      · subst h0
        obtain ⟨e1, e2⟩ := List.append_inj' he rfl
        rw [List.cons.injEq] at e2
        rw [← e1, ← e2.1]
        have hcs : c = sliceOf p.toBPar i j := by rw [← e2.1] at hr; exact hr
        rw [← I3, hcs]; rfl
      · subst h0
        rw [List.concat_eq_append, ← List.cons_append, ← List.append_assoc] at he
        exact I1 h1 r h2' (List.append_inj' he rfl).1 hr
    · rw [dyn_one_hist, dReads_append, hmean, setSlice_flat p.toBPar c _ _ hc i j hi hj]
      by_cases hcs : c = sliceOf p.toBPar i j
      · rw [if_pos hcs, if_pos (show (dRd p _ _ c _ t).c = _ from hcs), List.map_append,
          List.map_singleton, expMean_append, ← I2, hcs, g3]
        rfl
      · rw [if_neg hcs, if_neg (show ¬ (dRd p _ _ c _ t).c = _ from hcs), List.append_nil]
        exact I2
    · rw [dyn_one_hist, dReads_append]
      unfold DPar.muPast at I3 ⊢
      rw [g3] at I3 ⊢
      rw [hmean, hpast, hsw', setSlice_flat p.toBPar c _ _ hc i j hi hj,
        setSlice_flat p.toBPar c _ _ hc i j hi hj]
      beta_reduce
      by_cases hcs : c = sliceOf p.toBPar i j
      · rw [if_pos hcs, if_pos hcs, if_pos (show (dRd p _ _ c _ t).c = _ from hcs), phaseRef_snoc]
        have e1 : (if sliceOf p.toBPar i j = c then p.doSwitch t w.u
          else t.sw (sliceOf p.toBPar i j)) = (dRd p u.cnt lr c w t).switched := by
          rw [if_pos hcs.symm]; rfl
        rw [e1]
        by_cases hz : (dRd p u.cnt lr c w t).switched = true
        · rw [if_pos hz, if_pos hz, List.map_append, List.map_singleton, expMean_append, ← I2, hcs, g3]
          rfl
        · rw [if_neg hz, if_neg hz, ← I3, hcs]
          unfold DPar.muPast
          rw [g3]
      · rw [if_neg hcs, if_neg hcs, if_neg (show ¬ (dRd p _ _ c _ t).c = _ from hcs),
          List.append_nil]
        have e1 : (if sliceOf p.toBPar i j = c then p.doSwitch t w.u
          else t.sw (sliceOf p.toBPar i j)) = t.sw (sliceOf p.toBPar i j) := by
          rw [if_neg (fun h => hcs h.symm)]
        rw [e1]; exact I3
  · intro t ts _ h; exact h
  · refine ⟨?_, ?_, ?_⟩
    · intro h1 r h2 he
      rw [hh] at he
      simp at he
    · rw [hh]; rfl
    · unfold DPar.muPast
      rw [hsw, hh, g3]
      simp [phaseRef, dReads]

/-- **C54 (the mean stays among the reads).**  With a non-negative `tail_weightening`, if all reads of
a weight and its initial mean lie in `[lo, hi]`, so does its running mean; if all reads are the same
value `v`, the distance to it shrinks by the factor `1 - min(tail_weightening / n, 1)` per read. -/
theorem C54_mean_bounds (F : Fns K) (p : DPar K) (hin : 0 < p.inSize) (ht : 0 ≤ p.tail)
    (us : List (DU K)) (s : DS K) (hs : ∀ k, s.ts.slice k < p.inSize) (hh : s.hist = []) (i j : Nat)
    (hi : i < p.dSize) (hj : j < p.xSize) (hsw : s.sw (sliceOf p.toBPar i j) = false) :
    (∀ lo hi', (∀ r ∈ dReads p.toBPar (p.run F s us).hist i j,
        lo ≤ r.y (posOf p.toBPar i j) ∧ r.y (posOf p.toBPar i j) ≤ hi') →
      lo ≤ s.mean (i * p.xSize + j) → s.mean (i * p.xSize + j) ≤ hi' →
      lo ≤ (p.run F s us).mean (i * p.xSize + j) ∧ (p.run F s us).mean (i * p.xSize + j) ≤ hi') ∧
    (∀ v, (∀ r ∈ dReads p.toBPar (p.run F s us).hist i j, r.y (posOf p.toBPar i j) = v) →
      (p.run F s us).mean (i * p.xSize + j) - v = (s.mean (i * p.xSize + j) - v) *
        (1 - min (p.tail / (p.nSamp : K)) 1) ^ (dReads p.toBPar (p.run F s us).hist i j).length) := by
  have hm := (C54_reference F p hin us s hs hh i j hi hj hsw).2
  have hn : (0 : K) < (p.nSamp : K) := by
    have := nSamp_two p
    exact_mod_cast (show 0 < p.nSamp by omega)
  have ha0 : 0 ≤ min (p.tail / (p.nSamp : K)) 1 := le_min (div_nonneg ht hn.le) zero_le_one
  have ha1 : min (p.tail / (p.nSamp : K)) 1 ≤ 1 := min_le_right _ _
  rw [hm]
  generalize min (p.tail / (p.nSamp : K)) 1 = a at ha0 ha1
  generalize s.mean (i * p.xSize + j) = m0
  generalize dReads p.toBPar (p.run F s us).hist i j = rs
  constructor
  · intro lo hi' hr h1 h2
    induction rs generalizing m0 with
    | nil => exact ⟨h1, h2⟩
    | cons r rs ih =>
      obtain ⟨r1, r2⟩ := hr r (List.mem_cons_self ..)
      refine ih _ (fun q hq => hr q (List.mem_cons_of_mem _ hq)) ?_ ?_
      · nlinarith [mul_nonneg ha0 (sub_nonneg.2 r1), mul_nonneg (sub_nonneg.2 ha1) (sub_nonneg.2 h1)]
      · nlinarith [mul_nonneg ha0 (sub_nonneg.2 r2), mul_nonneg (sub_nonneg.2 ha1) (sub_nonneg.2 h2)]
  · intro v hr
    induction rs generalizing m0 with
    | nil => simp [expMean]
    | cons r rs ih =>
      have r1 := hr r (List.mem_cons_self ..)
      have := ih (m0 * (1 - a) + r.y (posOf p.toBPar i j) * a)
        (fun q hq => hr q (List.mem_cons_of_mem _ hq))
      show expMean a (m0 * (1 - a) + r.y (posOf p.toBPar i j) * a) _ - v = _
      rw [this, r1, List.length_cons, pow_succ]
      ring

/-- **C54 (the read undoes the sign of the update).**  Choppers change only at reads of their slice and
the output choppers never change: during any updates that do not read the slice of weight `(i, j)`,
gradient pulses on it are inverted exactly when the next read is entered with inverted sign. -/
theorem C54_read_undoes_sign (F : Fns K) (p : DPar K) (hin : 0 < p.inSize) (us : List (DU K))
    (s : DS K) (hs : ∀ k, s.ts.slice k < p.inSize) (i j : Nat) (hj : j < p.xSize)
    (hno : (dReads p.toBPar (p.run F s us).hist i j).length = (dReads p.toBPar s.hist i j).length)
    (q : P K) (hq : q.k = i * p.xSize + j) (cnt lr : K) (w : WD K) :
    p.chopPulse (p.run F s us).bs q = p.chopPulse s.bs q ∧
    ∃ r, (p.one F cnt lr (sliceOf p.toBPar i j) w (p.run F s us)).hist = (p.run F s us).hist ++ [r] ∧
      (p.chopPulse s.bs q).down = q.down.xor (r.flip (posOf p.toBPar i j)) := by
  have key := (dyn_run_inv F p hin us (fun t =>
    (dReads p.toBPar s.hist i j).length ≤ (dReads p.toBPar t.hist i j).length ∧ t.outC = s.outC ∧
    ((dReads p.toBPar t.hist i j).length = (dReads p.toBPar s.hist i j).length →
        t.inC (sliceOf p.toBPar i j) = s.inC (sliceOf p.toBPar i j))) ?_ ?_ s hs
    ⟨le_rfl, rfl, fun _ => rfl⟩).1
  · obtain ⟨-, k2, k3⟩ := key
    have k3' := k3 hno
    have e : ∀ t : DS K, t.bs.inC = t.inC ∧ t.bs.outC = t.outC := fun t => ⟨rfl, rfl⟩
    refine ⟨?_, _, dyn_one_hist F p cnt lr _ w _, ?_⟩
    · rw [chopPulse_down p.toBPar _ q i j hj hq, chopPulse_down p.toBPar _ q i j hj hq, (e _).1,
        (e _).2, (e _).1, (e _).2, k2, k3']
    · rw [chopPulse_down p.toBPar _ q i j hj hq, (e _).1, (e _).2]
      simp only [dRd]
      rw [k2, k3']
  · intro u _ a c t hc _ hI
    obtain ⟨i1, i2, i3⟩ := hI
    rw [dyn_one_hist, dReads_append, List.length_append]
    refine ⟨by omega, i2, ?_⟩
    by_cases hm : c = sliceOf p.toBPar i j
    · rw [if_pos (show (dRd p _ _ c _ t).c = _ from hm)]
      simp only [List.length_singleton]
      intro h; omega
    · rw [if_neg (show ¬ (dRd p _ _ c _ t).c = _ from hm)]
      simp only [List.length_nil, Nat.add_zero]
      intro h
      rw [← i3 h]
      simp only [DPar.one]
      rw [if_neg (fun h => hm h.symm)]
  · intro t ts _ h; exact h

/-- **C54 (when choppers switch).**  For every history: after a read at transfer counter `k` the
chopper of the slice switches if `k % n + 1 = n`, where `n = max(⌈1/in_chop_prob⌉, 2)`, or — with random
choppers, in addition — if the draw says so; each chopper has switched as often as recorded; and with
random choppers off it switches at no other read.  Finding: `in_chop_random` does not replace the
regular switching, and with `in_chop_prob = 0` (where the buffered class would not chop) the choppers
switch at every second read. -/
theorem C54_switching (F : Fns K) (p : DPar K) (hin : 0 < p.inSize) (us : List (DU K)) (s : DS K)
    (hs : ∀ k, s.ts.slice k < p.inSize) (hh : s.hist = []) :
    (∀ r ∈ (p.run F s us).hist,
      (r.ctr % p.nSamp + 1 = p.nSamp → r.switched = true) ∧
      (p.inRandom = false → r.switched = true → r.ctr % p.nSamp + 1 = p.nSamp)) ∧
    (∀ c, (p.run F s us).inC c = (s.inC c).xor (decide (
      ((p.run F s us).hist.countP fun r => decide (r.c = c) && r.switched) % 2 = 1))) ∧
    (p.nSamp = if 0 < p.inProb then (max ⌈1 / p.inProb⌉ 2).toNat else 2) := by
  refine ⟨?_, ?_, rfl⟩
  · refine (dyn_run_inv F p hin us (fun t => ∀ r ∈ t.hist,
      (r.ctr % p.nSamp + 1 = p.nSamp → r.switched = true) ∧
      (p.inRandom = false → r.switched = true → r.ctr % p.nSamp + 1 = p.nSamp)) ?_ ?_ s hs ?_).1
    · intro u _ a c t _ _ hI r hr
      rw [dyn_one_hist] at hr
      rcases List.mem_append.1 hr with h | h
      · exact hI r h
      · rw [List.mem_singleton.1 h]
        simp only [dRd, DPar.doSwitch, DPar.sample]
        constructor
        · intro h; simp [h]
        · intro h h'
          simp only [h, Bool.false_and, Bool.or_false] at h'
          exact of_decide_eq_true h'
    · intro t ts _ h; exact h
    · simp [hh]
  · intro c
    refine (dyn_run_inv F p hin us (fun t => t.inC c = (s.inC c).xor (decide (
      (t.hist.countP fun r => decide (r.c = c) && r.switched) % 2 = 1))) ?_ ?_ s hs ?_).1
    · intro u _ a c' t _ _ hI
      obtain ⟨r, hr⟩ : ∃ r, r = dRd p u.cnt (p.bufLR 1 a u.lr) c' { u.dr a with y := u.y a c' } t :=
        ⟨_, rfl⟩
      rw [dyn_one_hist, ← hr, List.countP_append]
      have e : (p.one F u.cnt (p.bufLR 1 a u.lr) c' { u.dr a with y := u.y a c' } t).inC c =
          if c = c' then (t.inC c').xor r.switched else t.inC c := by rw [hr]; rfl
      have ec : r.c = c' := by rw [hr]; rfl
      rw [e]
      have one : ([r].countP fun r => decide (r.c = c) && r.switched) =
          if c = c' ∧ r.switched = true then 1 else 0 := by
        rw [List.countP_singleton, ec]
        by_cases h1 : c = c' <;> by_cases h2 : r.switched = true <;> simp [h1, h2, eq_comm]
      rw [one]
      generalize (t.hist.countP fun r => decide (r.c = c) && r.switched) = m at hI ⊢
      by_cases h1 : c = c'
      · rw [if_pos h1, ← h1, hI]
        by_cases h2 : r.switched = true
        · rw [if_pos ⟨rfl, h2⟩, h2]
          rcases Nat.mod_two_eq_zero_or_one m with h | h
          · rw [show (m + 1) % 2 = 1 by omega, h]; cases s.inC c <;> rfl
          · rw [show (m + 1) % 2 = 0 by omega, h]; cases s.inC c <;> rfl
        · rw [if_neg (fun h => h2 h.2)]
          simp [h2]
      · rw [if_neg h1, if_neg (fun h => h1 h.1), hI]; simp
    · intro t ts _ h; exact h
    · simp [hh]

/-- **C54 (schedule and length of the warm-up).**  With a fixed period `e`, no self-transfer and a
transfer learning rate that is not zero, after any number of updates there have been `⌊updates / e⌋`
reads; read `m` is of slice `m % N` (`N` slices) at transfer counter `m / N`, and nothing is written
before read `(n + 1) * N`, i.e. before every slice has been read `n + 1` times. -/
theorem C54_schedule (F : Fns K) (p : DPar K) (hin : 0 < p.inSize) (us : List (DU K)) (s : DS K)
    (hs : s.ts.slice 0 = 0) (hh : s.hist = []) (hc : s.ctr = 0) (hidx : s.ts.idx = 0) (e : Nat)
    (he : 0 < e) (h0 : ∀ u ∈ us, p.chopEvery 0 u.mBatch = e) (h1 : ∀ u ∈ us, p.chopEvery 1 u.mBatch = 0)
    (hlr : ∀ u ∈ us, p.bufLR 1 0 u.lr ≠ 0) :
    (p.run F s us).hist.length = us.length / e ∧
    ∀ m r, (p.run F s us).hist[m]? = some r → r.c = m % p.inSize ∧ r.ctr = m / p.inSize ∧
      (r.wrote = true → (p.nSamp + 1) * p.inSize ≤ m) := by
  have key : ∀ (us : List (DU K)), (∀ u ∈ us, p.chopEvery 0 u.mBatch = e) →
      (∀ u ∈ us, p.chopEvery 1 u.mBatch = 0) → (∀ u ∈ us, p.bufLR 1 0 u.lr ≠ 0) → ∀ t : DS K,
      (t.hist.length = t.ts.idx / e ∧ t.ts.slice 0 = t.hist.length % p.inSize ∧
        t.ctr = t.hist.length / p.inSize ∧
        (∀ m r, t.hist[m]? = some r → r.c = m % p.inSize ∧ r.ctr = m / p.inSize ∧
          (r.wrote = true → (p.nSamp + 1) * p.inSize ≤ m))) →
      (p.run F t us).hist.length = (t.ts.idx + us.length) / e ∧
        (∀ m r, (p.run F t us).hist[m]? = some r → r.c = m % p.inSize ∧ r.ctr = m / p.inSize ∧
          (r.wrote = true → (p.nSamp + 1) * p.inSize ≤ m)) := by
    intro us
    induction us with
    | nil => intro _ _ _ t ⟨a, _, _, d⟩; exact ⟨a, d⟩
    | cons u us ih =>
      intro h0 h1 hlr t ⟨i1, i2, i3, i4⟩
      have e0 := h0 u (List.mem_cons_self ..)
      have e1 := h1 u (List.mem_cons_self ..)
      have el := hlr u (List.mem_cons_self ..)
      have hupd : p.update F t u = p.red (p.maybe F u (p.begin F t u) 0) := by
        have hm : ∀ t : DS K, p.maybe F u t 1 = t := by
          intro t
          unfold DPar.maybe
          rw [if_neg (by rw [e1]; omega)]
        unfold DPar.update
        rw [hm]
      have hidx : (p.update F t u).ts.idx = t.ts.idx + 1 := by
        rw [hupd]
        unfold DPar.red
        rw [(chopReduce_frame p.toBPar _).2.2.2.2.2.2.1]
        have hm : (p.maybe F u (p.begin F t u) 0).ts.idx = t.ts.idx + 1 := by
          unfold DPar.maybe
          split_ifs
          · simp only
            simp only [DPar.one]
            split_ifs <;> rfl
          · rfl
        exact hm
      have hrun : p.run F t (u :: us) = p.run F (p.update F t u) us := rfl
      have goal := ih (fun v hv => h0 v (List.mem_cons_of_mem _ hv))
        (fun v hv => h1 v (List.mem_cons_of_mem _ hv))
        (fun v hv => hlr v (List.mem_cons_of_mem _ hv)) (p.update F t u)
      rw [hrun]
      have hlen : t.ts.idx + (u :: us).length = (p.update F t u).ts.idx + us.length := by
        rw [hidx, List.length_cons]; omega
      rw [hlen]
      refine goal ?_
      rw [hidx, hupd]
      have hslice : (p.red (p.maybe F u (p.begin F t u) 0)).ts.slice =
          (p.maybe F u (p.begin F t u) 0).ts.slice := by
        unfold DPar.red
        rw [(chopReduce_frame p.toBPar _).2.2.2.2.2.1]; rfl
      have hhist : (p.red (p.maybe F u (p.begin F t u) 0)).hist = (p.maybe F u (p.begin F t u) 0).hist := rfl
      have hctr : (p.red (p.maybe F u (p.begin F t u) 0)).ctr = (p.maybe F u (p.begin F t u) 0).ctr := rfl
      rw [hslice, hhist, hctr]
      have hb : (p.begin F t u).ts.idx = t.ts.idx + 1 := rfl
      have hbs : (p.begin F t u).ts.slice = t.ts.slice := rfl
      have hbh : (p.begin F t u).hist = t.hist := rfl
      have hbc : (p.begin F t u).ctr = t.ctr := rfl
      unfold DPar.maybe
      rw [e0, hb]
      by_cases hd : (t.ts.idx + 1) % e = 0
      · rw [if_pos ⟨he, hd⟩]
        simp only [el, if_false]
        obtain ⟨w, hw⟩ : ∃ w : WD K, w = { u.dr 0 with y := u.y 0 ((p.begin F t u).ts.slice 0) } :=
          ⟨_, rfl⟩
        rw [← hw, dyn_one_hist, hbh, hbs]
        have hdiv : (t.ts.idx + 1) / e = t.ts.idx / e + 1 := by
          rw [Nat.succ_div, if_pos (Nat.dvd_of_mod_eq_zero hd)]
        obtain ⟨R, hR⟩ : ∃ R, R = t.hist.length := ⟨_, rfl⟩
        obtain ⟨N, hN⟩ : ∃ N, N = p.inSize := ⟨_, rfl⟩
        rw [← hR] at i1 i2 i3
        rw [← hN] at i2 i3 i4 hin ⊢
        refine ⟨?_, ?_, ?_, ?_⟩
        · rw [List.length_append, List.length_singleton, hdiv, ← i1, hR]
        · simp only [if_true]
          rw [List.length_append, List.length_singleton, i2, ← hR, Nat.mod_add_mod]
        · show (if t.ts.slice 0 + 1 = p.inSize then (p.begin F t u).ctr + 1 else _) = _
          rw [List.length_append, List.length_singleton, ← hR, ← hN, hbc, i3, i2, Nat.succ_div]
          have hlt := Nat.mod_lt R hin
          by_cases hdv : N ∣ R + 1
          · rw [if_pos hdv, if_pos]
            have h5 := Nat.mod_eq_zero_of_dvd hdv
            rw [Nat.add_mod] at h5
            by_contra hne
            by_cases hN1 : N = 1
            · subst hN1; omega
            · rw [Nat.mod_eq_of_lt (show 1 < N by omega), Nat.mod_eq_of_lt (by omega)] at h5
              omega
          · rw [if_neg hdv, if_neg, Nat.add_zero]
            intro h5
            apply hdv
            apply Nat.dvd_of_mod_eq_zero
            rw [← Nat.mod_add_mod, h5, Nat.mod_self]
        · intro m r hm
          rw [List.getElem?_append] at hm
          by_cases hlt : m < t.hist.length
          · rw [if_pos hlt] at hm; exact i4 m r hm
          · rw [if_neg hlt] at hm
            have hm0 : m - t.hist.length = 0 := by
              by_contra hne
              rw [List.getElem?_eq_none (by simp; omega)] at hm
              cases hm
            have hmR : m = R := by omega
            rw [hm0, List.getElem?_cons_zero, Option.some.injEq] at hm
            rw [← hm, hmR]
            refine ⟨i2, i3, fun hwr => ?_⟩
            have h6 : p.nSamp < R / N := by
              rw [← i3]
              simp only [dRd, DPar.doWrite, Bool.and_eq_true, decide_eq_true_eq] at hwr
              exact hwr.2
            have h7 := Nat.div_mul_le_self R N
            exact le_trans (Nat.mul_le_mul_right N h6) h7
      · rw [if_neg (fun h => hd h.2), hbh, hbs, hbc]
        refine ⟨?_, i2, i3, i4⟩
        rw [i1, Nat.succ_div, if_neg (fun h => hd (Nat.mod_eq_zero_of_dvd h)), Nat.add_zero]
  have := key us h0 h1 hlr s ⟨by simp [hh, hidx], by simp [hh, hs], by simp [hh, hc], by simp [hh]⟩
  rw [hidx, Nat.zero_add] at this
  exact this

/-- **C54 (what the slow device receives).**  For every history (uniform draws in `[0, 1)`), weight
`(i, j)` of the slow device has been changed by nothing but one group of pulses per read of this
weight, in the order of the reads: no pulse if the read was during the warm-up or requested no step,
else all pulses in the direction of the requested steps, at most `desired_BL` steps are requested, and
with `desired_BL = 1`, `step = 1` exactly one pulse per requested step. -/
theorem C54_slow_device (F : Fns K) (p : DPar K) (hin : 0 < p.inSize) (us : List (DU K)) (s : DS K)
    (hs : ∀ k, s.ts.slice k < p.inSize) (hh : s.hist = [])
    (hu : ∀ u ∈ us, ∀ a, UnitDraws (u.dr a).tx ∧ UnitDraws (u.dr a).td) (i j : Nat)
    (hi : i < p.dSize) (hj : j < p.xSize) (hst : 0 < p.step * p.gran 1) :
    ∃ L : List (List (P K)),
      List.Forall₂ (fun r l =>
          (∀ q ∈ l, q.k = i * p.xSize + j ∧ q.down = decide (r.n (posOf p.toBPar i j) < 0)) ∧
          (r.wrote = false ∨ r.n (posOf p.toBPar i j) = 0 → l = []) ∧
          |r.n (posOf p.toBPar i j)| ≤ (p.bl : ℤ) ∧
          ((∀ u ∈ us, ∀ a, (u.dr a).Single) → p.bl = 1 → r.wrote = true →
            (l.length : ℤ) = |r.n (posOf p.toBPar i j)|))
        (dReads p.toBPar (p.run F s us).hist i j) L ∧
      (((p.run F s us).ts.dev 1).st (i * p.xSize + j) =
        ((s.ts.dev 1).pulses F L.flatten).st (i * p.xSize + j)) := by
  obtain ⟨R, hR⟩ : ∃ R : DRd K → List (P K) → Prop, R = fun r l =>
    ((∀ q ∈ l, q.k = i * p.xSize + j ∧ q.down = decide (r.n (posOf p.toBPar i j) < 0)) ∧
          (r.wrote = false ∨ r.n (posOf p.toBPar i j) = 0 → l = []) ∧
          |r.n (posOf p.toBPar i j)| ≤ (p.bl : ℤ) ∧
          ((∀ u ∈ us, ∀ a, (u.dr a).Single) → p.bl = 1 → r.wrote = true →
            (l.length : ℤ) = |r.n (posOf p.toBPar i j)|)) := ⟨_, rfl⟩
  rw [← hR]
  have key := (dyn_run_inv F p hin us (fun t =>
    ((t.ts.dev 1).kd = (s.ts.dev 1).kd ∧ (t.ts.dev 1).par = (s.ts.dev 1).par ∧
     (t.ts.dev 1).cell = (s.ts.dev 1).cell) ∧
    ∃ L : List (List (P K)), List.Forall₂ R (dReads p.toBPar t.hist i j) L ∧
      ((t.ts.dev 1).st (i * p.xSize + j) =
        ((s.ts.dev 1).pulses F L.flatten).st (i * p.xSize + j))) ?_ ?_ s hs
    ⟨⟨rfl, rfl, rfl⟩, [], by simp [hh, dReads], rfl⟩).1.2
  · exact key
  · rintro u hmem a c t hc _ ⟨⟨k1, k2, k3⟩, L, hL, hst'⟩
    obtain ⟨hx, hd⟩ := hu u hmem a
    obtain ⟨w, hw⟩ : ∃ w : WD K, w = { u.dr a with y := u.y a c } := ⟨_, rfl⟩
    have hwx : UnitDraws w.tx := by rw [hw]; exact hx
    have hwd : UnitDraws w.td := by rw [hw]; exact hd
    have hws : (∀ u ∈ us, ∀ a, (u.dr a).Single) → w.Single := by
      intro h; rw [hw]; exact h u hmem a
    obtain ⟨lr, hlr⟩ : ∃ lr, lr = p.bufLR 1 a u.lr := ⟨_, rfl⟩
    rw [← hw, ← hlr]
    obtain ⟨r, hr⟩ : ∃ r, r = dRd p u.cnt lr c w t := ⟨_, rfl⟩
    have hdev : (p.one F u.cnt lr c w t).ts.dev 1 =
        if r.wrote then p.bufWrite F (t.ts.dev 1) c (p.step * p.gran 1) r.n w else t.ts.dev 1 := by
      rw [hr]
      by_cases h : (dRd p u.cnt lr c w t).wrote = true
      · rw [if_pos h]
        simp only [DPar.one]
        rw [if_pos (show p.doWrite c (p.scale lr u.cnt t) w t = true from h)]
        simp [TS.setDev, dRd]
      · rw [if_neg h]
        simp only [DPar.one]
        rw [if_neg (show ¬ p.doWrite c (p.scale lr u.cnt t) w t = true from h)]
    have hrc : r.c = c := by rw [hr]; rfl
    refine ⟨?_, ?_⟩
    · rw [hdev]
      split_ifs
      · obtain ⟨b1, b2, b3⟩ := bufWrite_same F p.toBPar (t.ts.dev 1) c (p.step * p.gran 1) r.n w
        exact ⟨b1.trans k1, b2.trans k2, b3.trans k3⟩
      · exact ⟨k1, k2, k3⟩
    rw [hdev, dyn_one_hist, ← hr, dReads_append, hrc]
    have hbd : |r.n (posOf p.toBPar i j)| ≤ (p.bl : ℤ) := by
      rw [hr]
      simp only [dRd]
      unfold BPar.chopSteps
      split_ifs
      · exact clipSteps_abs _ _
      · simp
    by_cases hm : c = sliceOf p.toBPar i j
    · rw [if_pos hm]
      by_cases hwr : r.wrote = true
      · rw [if_pos hwr]
        obtain ⟨l, l1, l2, l3, l4, l5⟩ := bufWrite_cell F p.toBPar (t.ts.dev 1)
          (p.step * p.gran 1) hst r.n w hwx hwd i j hi hj
        refine ⟨L ++ [l], forall₂_snoc hL ?_, ?_⟩
        · rw [hR]
          refine ⟨l2, ?_, hbd, ?_⟩
          · rintro (h | h)
            · rw [hwr] at h; cases h
            · exact l3 h
          · intro h5 hb _
            by_cases h0 : r.n (posOf p.toBPar i j) = 0
            · rw [l3 h0, h0]; rfl
            · rw [l5 (hws h5) h0]
              rw [hb] at hbd
              have := Int.one_le_abs h0
              push_cast at hbd ⊢
              omega
        · rw [hm, l1, List.flatten_append, pulses_append]
          simp only [List.flatten_cons, List.flatten_nil, List.append_nil]
          exact pulses_st_congr F _ _ _ _ (by simp [k1]) (by simp [k2]) (by simp [k3]) hst'
      · rw [if_neg hwr]
        refine ⟨L ++ [[]], forall₂_snoc hL ?_, ?_⟩
        · rw [hR]
          exact ⟨by simp, fun _ => rfl, hbd, fun _ _ h => absurd h hwr⟩
        · rw [hst', List.flatten_append]
          simp
    · rw [if_neg hm, List.append_nil]
      refine ⟨L, hL, ?_⟩
      split_ifs
      · rw [bufWrite_other F p.toBPar _ c _ _ _ hwx hwd i j hi hj (fun e => hm e.symm)]
        exact hst'
      · exact hst'
  · rintro t ts hd ⟨h1, L, h2, h3⟩
    refine ⟨?_, L, h2, ?_⟩
    · show (ts.dev 1).kd = _ ∧ _
      rw [hd]; exact h1
    · show (ts.dev 1).st _ = _
      rw [hd]; exact h3

end Aihw.Pulsed

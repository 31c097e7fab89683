import Verif.Pulsed.Dynamic

/-!
# C54: dynamic transfer compound (AGAD)
-/
namespace Aihw.Pulsed

variable {K : Type} [Field K] [LinearOrder K] [IsStrictOrderedRing K] [FloorRing K]

/-! ## Specification -/

/-- The reads of weight `(i, j)`. -/
def dReads (p : BPar K) (h : List (DRd K)) (i j : Nat) : List (DRd K) :=
  h.filter fun r => decide (r.c = sliceOf p i j)

/-- What a read contributes to the buffer at position `o`: the difference to the reference, scaled,
with the sign of the choppers. -/
def DRd.inc (r : DRd K) (o : Nat) : K := (if r.flip o then -1 else 1) * (r.fac * (r.y o - r.ref o))

/-- The exponential running mean with weight `a` per value. -/
def expMean (a m0 : K) : List K → K
  | [] => m0
  | y :: ys => expMean a (m0 * (1 - a) + y * a) ys

/-- The reads up to and including the last one after which the chopper switched. -/
def finishedPhases : List (DRd K) → List (DRd K)
  | [] => []
  | r :: rs => if (r :: rs).any (·.switched) then r :: finishedPhases rs else []

/-- The reference that belongs to a weight after the reads `rs`: the running mean at the end of the
last finished chopper phase, or `p0` if no phase is finished. -/
def phaseRef (a p0 m0 : K) (o : Nat) (rs : List (DRd K)) : K :=
  if rs.any (·.switched) then expMean a m0 ((finishedPhases rs).map (·.y o)) else p0

/-- The same update with an offset added to everything that is read. -/
def DU.shift (p : BPar K) (off : Nat → K) (u : DU K) : DU K :=
  { u with y := fun j c o => u.y j c o + off (p.cellOf c o) }

/-- `t` is `s` with running and past means shifted by the offset; the ghost list is not compared. -/
structure ShiftedBy (off : Nat → K) (s t : DS K) : Prop where
  ts : t.ts = s.ts
  buf : t.buf = s.buf
  inC : t.inC = s.inC
  outC : t.outC = s.outC
  ctr : t.ctr = s.ctr
  sw : t.sw = s.sw
  mean : t.mean = fun k => s.mean k + off k
  past : t.past = fun k => s.past k + off k

/-! ## Lemmas -/

theorem dReads_append (p : BPar K) (h : List (DRd K)) (r : DRd K) (i j : Nat) :
    dReads p (h ++ [r]) i j = dReads p h i j ++ if r.c = sliceOf p i j then [r] else [] := by
  unfold dReads
  rw [List.filter_append]
  congr 1
  by_cases h : r.c = sliceOf p i j <;> simp [h]

theorem setSlice_flat (p : BPar K) (c : Nat) (v b : Nat → K) (hc : c < p.inSize) (i j : Nat)
    (hi : i < p.dSize) (hj : j < p.xSize) :
    p.setSlice c v b (i * p.xSize + j) =
      if c = sliceOf p i j then v (posOf p i j) else b (i * p.xSize + j) := by
  obtain ⟨h1, h2, h3⟩ := slicePos p hi hj
  by_cases hcs : c = sliceOf p i j
  · rw [if_pos hcs, ← h3, ← hcs, setSlice_same p _ _ hc h2]
  · rw [if_neg hcs, ← h3, setSlice_other p _ _ hc h1 (Ne.symm hcs) h2]

theorem nSamp_two (p : DPar K) : 2 ≤ p.nSamp := by
  unfold DPar.nSamp
  split_ifs
  · have := le_max_right (⌈1 / p.inProb⌉) 2
    omega
  · exact le_rfl

theorem dyn_update_inv (F : Fns K) (p : DPar K) (hin : 0 < p.inSize) (u : DU K) (Inv : DS K → Prop)
    (hone : ∀ j c (s : DS K), c < p.inSize → p.bufLR 1 j u.lr ≠ 0 → Inv s →
      Inv (p.one F u.cnt (p.bufLR 1 j u.lr) c { u.dr j with y := u.y j c } s))
    (hts : ∀ (s : DS K) (t : TS K), t.dev 1 = s.ts.dev 1 → Inv s → Inv { s with ts := t })
    (s : DS K) (hs : ∀ k, s.ts.slice k < p.inSize) (h : Inv s) :
    Inv (p.update F s u) ∧ ∀ k, (p.update F s u).ts.slice k < p.inSize := by
  have hm : ∀ (j : Nat) (s : DS K), (∀ k, s.ts.slice k < p.inSize) → Inv s →
      Inv (p.maybe F u s j) ∧ ∀ k, (p.maybe F u s j).ts.slice k < p.inSize := by
    intro j s hs h
    unfold DPar.maybe
    by_cases hc : 0 < p.chopEvery j u.mBatch ∧ s.ts.idx % p.chopEvery j u.mBatch = 0
    · rw [if_pos hc]
      by_cases hz : p.bufLR 1 j u.lr = 0
      · simp only [hz, if_true]
        refine ⟨hts s _ (by rfl) h, fun k => ?_⟩
        show (if k = j then _ else _) < _
        split_ifs
        · exact Nat.mod_lt _ hin
        · exact hs k
      · simp only [hz, if_false]
        refine ⟨hts _ _ (by rfl) (hone j _ s (hs j) hz h), fun k => ?_⟩
        have e : (p.one F u.cnt (p.bufLR 1 j u.lr) (s.ts.slice j)
          { u.dr j with y := u.y j (s.ts.slice j) } s).ts.slice = s.ts.slice := by
          simp only [DPar.one]
          split_ifs <;> rfl
        show (if k = j then _ else _) < _
        split_ifs
        · exact Nat.mod_lt _ hin
        · rw [e]; exact hs k
    · rw [if_neg hc]; exact ⟨h, hs⟩
  have h0 : Inv (p.begin F s u) := hts s _ (by simp [TS.setDev]) h
  obtain ⟨h1, s1⟩ := hm 0 _ (show ∀ k, (p.begin F s u).ts.slice k < p.inSize from hs) h0
  obtain ⟨h2, s2⟩ := hm 1 _ s1 h1
  have hr := chopReduce_frame p.toBPar (p.maybe F u (p.maybe F u (p.begin F s u) 0) 1).bs
  refine ⟨?_, ?_⟩
  · unfold DPar.update DPar.red
    refine hts _ _ ?_ h2
    unfold BPar.chopReduce TPar.reduce
    split_ifs <;> rfl
  · intro k
    have e : (p.update F s u).ts.slice = (p.maybe F u (p.maybe F u (p.begin F s u) 0) 1).ts.slice := by
      unfold DPar.update DPar.red BPar.chopReduce TPar.reduce
      simp only
      split_ifs <;> rfl
    rw [e]; exact s2 k

/-- Invariants over histories. -/
theorem dyn_run_inv (F : Fns K) (p : DPar K) (hin : 0 < p.inSize) (us : List (DU K))
    (Inv : DS K → Prop)
    (hone : ∀ u ∈ us, ∀ j c (s : DS K), c < p.inSize → p.bufLR 1 j u.lr ≠ 0 → Inv s →
      Inv (p.one F u.cnt (p.bufLR 1 j u.lr) c { u.dr j with y := u.y j c } s))
    (hts : ∀ (s : DS K) (t : TS K), t.dev 1 = s.ts.dev 1 → Inv s → Inv { s with ts := t })
    (s : DS K) (hs : ∀ k, s.ts.slice k < p.inSize) (h : Inv s) :
    Inv (p.run F s us) ∧ ∀ k, (p.run F s us).ts.slice k < p.inSize := by
  induction us generalizing s with
  | nil => exact ⟨h, hs⟩
  | cons u us ih =>
    obtain ⟨h1, h2⟩ := dyn_update_inv F p hin u Inv (hone u (List.mem_cons_self ..)) hts s hs h
    exact ih (fun v hv => hone v (List.mem_cons_of_mem _ hv)) _ h2 h1

/-- The entry of the history made by one read. -/
def dRd (p : DPar K) (cnt lr : K) (c : Nat) (w : WD K) (s : DS K) : DRd K :=
  ⟨c, s.ctr, w.y, p.muPast c s, p.scale lr cnt s, fun o => s.inC c != s.outC o,
    fun o => p.chopSteps (p.omega c (p.scale lr cnt s) w s o), p.doWrite c (p.scale lr cnt s) w s,
    p.doSwitch s w.u⟩

theorem dyn_one_hist (F : Fns K) (p : DPar K) (cnt lr : K) (c : Nat) (w : WD K) (s : DS K) :
    (p.one F cnt lr c w s).hist = s.hist ++ [dRd p cnt lr c w s] := rfl

theorem dyn_omega (p : DPar K) (cnt lr : K) (w : WD K) (s : DS K) (i j : Nat) :
    p.omega (sliceOf p.toBPar i j) (p.scale lr cnt s) w s (posOf p.toBPar i j) =
      s.buf (i * p.xSize + j) +
        (dRd p cnt lr (sliceOf p.toBPar i j) w s).inc (posOf p.toBPar i j) := by
  have h3 : p.cellOf (sliceOf p.toBPar i j) (posOf p.toBPar i j) = i * p.xSize + j :=
    cellOf_flat p.toBPar i j
  simp only [DPar.omega, DRd.inc, dRd, h3]
  congr 1
  by_cases h : (s.inC (sliceOf p.toBPar i j) != s.outC (posOf p.toBPar i j)) = true
  · simp only [h, if_true]; ring
  · simp only [h, Bool.false_eq_true, if_false]; ring

theorem dyn_one_buf (F : Fns K) (p : DPar K) (cnt lr : K) (c : Nat) (w : WD K) (s : DS K)
    (hc : c < p.inSize) (i j : Nat) (hi : i < p.dSize) (hj : j < p.xSize) :
    (p.one F cnt lr c w s).buf (i * p.xSize + j) =
      if c = sliceOf p.toBPar i j then
        p.next (s.buf (i * p.xSize + j) + (dRd p cnt lr c w s).inc (posOf p.toBPar i j))
      else s.buf (i * p.xSize + j) := by
  have e : (p.one F cnt lr c w s).buf = p.setSlice c
      (fun o => p.next (p.omega c (p.scale lr cnt s) w s o)) s.buf := rfl
  rw [e, setSlice_flat p.toBPar c _ _ hc i j hi hj]
  by_cases hcs : c = sliceOf p.toBPar i j
  · rw [if_pos hcs, if_pos hcs, hcs, dyn_omega]
  · rw [if_neg hcs, if_neg hcs]

theorem dyn_next_eq (p : DPar K) (hf : p.forget = false) (hcap : (p.bl : K) * p.cap ≤ 0) (om : K) :
    p.next om = om - (1 - p.momentum) * (p.chopSteps om : K) := by
  unfold DPar.next BPar.chopSteps
  by_cases h : 1 ≤ |om|
  · rw [if_pos h, if_pos h, hf, if_neg (by simp), if_neg (not_lt.2 hcap)]
  · rw [if_neg h, if_neg h]; simp

/-! ## Properties -/

/-- **C54 (offsets do not matter).**  Add an arbitrary offset to every read of every weight (a
reference or device asymmetry).  For every history, starting with the means shifted by the same
offset, everything except the means — the devices and hence the visible weights, the buffers, the
choppers — is exactly the same, and the means stay shifted by the offset. -/
theorem C54_offset_invariance (F : Fns K) (p : DPar K) (off : Nat → K)
    (us : List (DU K)) (s t : DS K) (h : ShiftedBy off s t) :
    ShiftedBy off (p.run F s us) (p.run F t (us.map (DU.shift p.toBPar off))) := by
  have hset : ∀ (c : Nat) (v b : Nat → K), p.setSlice c (fun o => v o + off (p.cellOf c o))
      (fun k => b k + off k) = fun k => p.setSlice c v b k + off k := by
    intro c v b
    funext k
    unfold BPar.setSlice
    cases hf : (List.range p.outSize).find? (fun o' => decide (p.cellOf c o' = k)) with
    | none => rfl
    | some o =>
      have h2 := List.find?_some hf
      simp only [decide_eq_true_eq] at h2
      simp only [h2]
  have one : ∀ (cnt lr : K) (c : Nat) (w : WD K) (s t : DS K), ShiftedBy off s t →
      ShiftedBy off (p.one F cnt lr c w s)
        (p.one F cnt lr c { w with y := fun o => w.y o + off (p.cellOf c o) } t) := by
    intro cnt lr c w s t h
    have hmu : ∀ o, p.muPast c t o = p.muPast c s o + off (p.cellOf c o) := by
      intro o
      unfold DPar.muPast
      rw [h.sw, h.mean, h.past]
      split_ifs <;> rfl
    have hsc : p.scale lr cnt t = p.scale lr cnt s := by
      unfold DPar.scale DPar.sample; rw [h.ctr]
    have hom : ∀ o, p.omega c (p.scale lr cnt t)
        { w with y := fun o => w.y o + off (p.cellOf c o) } t o =
        p.omega c (p.scale lr cnt s) w s o := by
      intro o
      unfold DPar.omega
      rw [hsc, hmu o, h.inC, h.outC, h.buf]
      simp only [add_sub_add_right_eq_sub]
    have hsw : p.doSwitch t w.u = p.doSwitch s w.u := by
      unfold DPar.doSwitch DPar.sample; rw [h.ctr]
    have hwr : p.doWrite c (p.scale lr cnt t)
        { w with y := fun o => w.y o + off (p.cellOf c o) } t =
        p.doWrite c (p.scale lr cnt s) w s := by
      unfold DPar.doWrite
      rw [h.ctr]
      simp only [hom]
    refine ⟨?_, ?_, ?_, h.outC, ?_, ?_, ?_, ?_⟩
    · simp only [DPar.one, hwr, hom, h.ts]
      rfl
    · simp only [DPar.one, hom, h.buf]
    · simp only [DPar.one, h.inC, hsw]
    · simp only [DPar.one, h.ctr]
    · simp only [DPar.one, h.sw, hsw]
    · simp only [DPar.one, h.mean]
      rw [← hset]
      congr 1
      funext o
      ring
    · simp only [DPar.one, h.past]
      rw [← hset]
      congr 1
      funext o
      exact hmu o
  have maybe : ∀ (u : DU K) (j : Nat) (s t : DS K), ShiftedBy off s t →
      ShiftedBy off (p.maybe F u s j) (p.maybe F (u.shift p.toBPar off) t j) := by
    intro u j s t h
    have e1 : (u.shift p.toBPar off).mBatch = u.mBatch := rfl
    have e2 : (u.shift p.toBPar off).lr = u.lr := rfl
    unfold DPar.maybe
    rw [e1, e2, h.ts]
    by_cases hc : 0 < p.chopEvery j u.mBatch ∧ s.ts.idx % p.chopEvery j u.mBatch = 0
    · rw [if_pos hc, if_pos hc]
      have h' : ShiftedBy off
          (if p.bufLR 1 j u.lr = 0 then s
            else p.one F u.cnt (p.bufLR 1 j u.lr) (s.ts.slice j)
              { u.dr j with y := u.y j (s.ts.slice j) } s)
          (if p.bufLR 1 j u.lr = 0 then t
            else p.one F (u.shift p.toBPar off).cnt (p.bufLR 1 j u.lr) (s.ts.slice j)
              { (u.shift p.toBPar off).dr j with y := (u.shift p.toBPar off).y j (s.ts.slice j) } t) := by
        by_cases hz : p.bufLR 1 j u.lr = 0
        · rw [if_pos hz, if_pos hz]; exact h
        · rw [if_neg hz, if_neg hz]
          exact one _ _ _ { u.dr j with y := u.y j (s.ts.slice j) } s t h
      refine ⟨?_, h'.buf, h'.inC, h'.outC, h'.ctr, h'.sw, h'.mean, h'.past⟩
      simp only [h'.ts]
    · rw [if_neg hc, if_neg hc]; exact h
  have hbs : ∀ s t : DS K, ShiftedBy off s t → t.bs = s.bs := by
    intro s t h
    unfold DS.bs
    rw [h.ts, h.buf, h.inC, h.outC, h.ctr]
  induction us generalizing s t with
  | nil => exact h
  | cons u us ih =>
    refine ih _ _ ?_
    have hb : ShiftedBy off (p.begin F s u) (p.begin F t (u.shift p.toBPar off)) := by
      refine ⟨?_, h.buf, h.inC, h.outC, h.ctr, h.sw, h.mean, h.past⟩
      unfold DPar.begin
      rw [hbs s t h, h.ts]
      rfl
    have h2 := maybe u 1 _ _ (maybe u 0 _ _ hb)
    refine ⟨?_, h2.buf, h2.inC, h2.outC, h2.ctr, h2.sw, h2.mean, h2.past⟩
    show (p.chopReduce _).ts = (p.chopReduce _).ts
    rw [hbs _ _ h2]

/-- **C54 (what is read against the reference is kept).**  Without `forget_buffer` and without a buffer
cap, for every history and weight: the buffer is the initial one plus the scaled, signed difference of
every read to its reference, minus `(1 - momentum)` for every step requested (the momentum is not
limited to `[0, 1]` here, unlike in the buffered and chopped classes). -/
theorem C54_conservation (F : Fns K) (p : DPar K) (hf : p.forget = false)
    (hcap : (p.bl : K) * p.cap ≤ 0) (hin : 0 < p.inSize) (us : List (DU K)) (s : DS K)
    (hs : ∀ k, s.ts.slice k < p.inSize) (hh : s.hist = []) (i j : Nat) (hi : i < p.dSize)
    (hj : j < p.xSize) :
    (p.run F s us).buf (i * p.xSize + j) = s.buf (i * p.xSize + j) +
      ((dReads p.toBPar (p.run F s us).hist i j).map fun r => r.inc (posOf p.toBPar i j) -
        (1 - p.momentum) * (r.n (posOf p.toBPar i j) : K)).sum := by
  refine (dyn_run_inv F p hin us (fun t => t.buf (i * p.xSize + j) = s.buf (i * p.xSize + j) +
      ((dReads p.toBPar t.hist i j).map fun r => r.inc (posOf p.toBPar i j) -
        (1 - p.momentum) * (r.n (posOf p.toBPar i j) : K)).sum) ?_ ?_ s hs ?_).1
  · intro u _ a c t hc _ hI
    rw [dyn_one_buf F p _ _ _ _ _ hc i j hi hj, dyn_one_hist, dReads_append]
    by_cases hcs : c = sliceOf p.toBPar i j
    · rw [if_pos hcs, if_pos (show (dRd p _ _ c _ t).c = _ from hcs), hI, List.map_append,
        List.sum_append]
      subst hcs
      obtain ⟨r, hr⟩ : ∃ r, r = dRd p u.cnt (p.bufLR 1 a u.lr) (sliceOf p.toBPar i j)
        { u.dr a with y := u.y a (sliceOf p.toBPar i j) } t := ⟨_, rfl⟩
      have hn : r.n (posOf p.toBPar i j) = p.chopSteps (t.buf (i * p.xSize + j) +
          r.inc (posOf p.toBPar i j)) := by
        rw [hr, ← dyn_omega]; rfl
      rw [← hr, ← hI, List.map_singleton, List.sum_singleton, hn, hI, ← add_assoc]
      rw [dyn_next_eq p hf hcap]
      ring
    · rw [if_neg hcs, if_neg (show ¬ (dRd p _ _ c _ t).c = _ from hcs), List.append_nil]
      exact hI
  · intro t ts _ h; exact h
  · simp [hh, dReads]

/-- **C54 (the buffer cap).**  With a positive `buffer_cap` and without `forget_buffer`, whatever is
read: the buffer never exceeds one step or `desired_BL * buffer_cap`. -/
theorem C54_buffer_cap (F : Fns K) (p : DPar K) (hf : p.forget = false)
    (hcap : 0 < (p.bl : K) * p.cap) (hin : 0 < p.inSize) (us : List (DU K)) (s : DS K)
    (hs : ∀ k, s.ts.slice k < p.inSize) (i j : Nat) (hi : i < p.dSize) (hj : j < p.xSize)
    (h0 : |s.buf (i * p.xSize + j)| ≤ max 1 ((p.bl : K) * p.cap)) :
    |(p.run F s us).buf (i * p.xSize + j)| ≤ max 1 ((p.bl : K) * p.cap) := by
  refine (dyn_run_inv F p hin us (fun t => |t.buf (i * p.xSize + j)| ≤ max 1 ((p.bl : K) * p.cap))
    ?_ ?_ s hs h0).1
  · intro u _ a c t hc _ hI
    rw [dyn_one_buf F p _ _ _ _ _ hc i j hi hj]
    split_ifs
    · generalize t.buf (i * p.xSize + j) + _ = om
      unfold DPar.next
      rw [hf, if_pos hcap]
      split_ifs with h1 h2
      · cases h2
      · apply le_max_of_le_right
        rw [abs_le]
        refine ⟨le_min (le_max_right _ _) ?_, min_le_right _ _⟩
        linarith
      · exact le_max_of_le_left (not_le.1 h1).le
    · exact hI
  · intro t ts _ h; exact h

/-- **C54 (warm-up).**  As long as the transfer counter has not passed the chopper period, the slow
device is not written at all, whatever is read: it is exactly the initial one. -/
theorem C54_warmup (F : Fns K) (p : DPar K) (hin : 0 < p.inSize) (us : List (DU K)) (s : DS K)
    (hs : ∀ k, s.ts.slice k < p.inSize) (hc : (p.run F s us).ctr ≤ p.nSamp) :
    (p.run F s us).ts.dev 1 = s.ts.dev 1 := by
  refine (dyn_run_inv F p hin us (fun t => t.ctr ≤ p.nSamp → t.ts.dev 1 = s.ts.dev 1)
    ?_ ?_ s hs (fun _ => rfl)).1 hc
  · intro u _ a c t _ _ hI hle
    have h1 : t.ctr ≤ p.nSamp := by
      refine le_trans ?_ hle
      simp only [DPar.one]
      split_ifs <;> omega
    have h2 : ∀ sc w, p.doWrite c sc w t = false := by
      intro sc w
      unfold DPar.doWrite
      rw [decide_eq_false (by omega), Bool.and_false]
    simp only [DPar.one, h2, Bool.false_eq_true, if_false]
    exact hI h1
  · intro t ts h hI hle
    exact h.trans (hI hle)

/-- **C54 (finding: warm-up steps are lost).**  A read during the warm-up whose accumulated value
reaches the threshold reduces the buffer by the requested steps although nothing is written. -/
theorem C54_warmup_loses_steps (F : Fns K) (p : DPar K) (hf : p.forget = false)
    (hcap : (p.bl : K) * p.cap ≤ 0) (cnt lr : K) (w : WD K) (s : DS K) (i j : Nat)
    (hi : i < p.dSize) (hj : j < p.xSize) (hctr : s.ctr ≤ p.nSamp) :
    ∃ r, (p.one F cnt lr (sliceOf p.toBPar i j) w s).hist = s.hist ++ [r] ∧ r.wrote = false ∧
      (p.one F cnt lr (sliceOf p.toBPar i j) w s).ts.dev 1 = s.ts.dev 1 ∧
      (p.one F cnt lr (sliceOf p.toBPar i j) w s).buf (i * p.xSize + j) =
        s.buf (i * p.xSize + j) + r.inc (posOf p.toBPar i j) -
          (1 - p.momentum) * (r.n (posOf p.toBPar i j) : K) ∧
      (0 < p.bl → 1 ≤ |s.buf (i * p.xSize + j) + r.inc (posOf p.toBPar i j)| →
        r.n (posOf p.toBPar i j) ≠ 0) := by
  obtain ⟨h1, h2, h3⟩ := slicePos p.toBPar hi hj
  have hw : ∀ sc w, p.doWrite (sliceOf p.toBPar i j) sc w s = false := by
    intro sc w
    unfold DPar.doWrite
    rw [decide_eq_false (by omega), Bool.and_false]
  refine ⟨_, dyn_one_hist F p cnt lr _ w s, hw _ _, ?_, ?_, ?_⟩
  · simp only [DPar.one, hw, Bool.false_eq_true, if_false]
  · rw [dyn_one_buf F p _ _ _ _ _ h1 i j hi hj, if_pos rfl]
    have hn : (dRd p cnt lr (sliceOf p.toBPar i j) w s).n (posOf p.toBPar i j) =
        p.chopSteps (s.buf (i * p.xSize + j) +
          (dRd p cnt lr (sliceOf p.toBPar i j) w s).inc (posOf p.toBPar i j)) := by
      rw [← dyn_omega]; rfl
    rw [hn, dyn_next_eq p hf hcap]
  · intro hb hle
    have hn : (dRd p cnt lr (sliceOf p.toBPar i j) w s).n (posOf p.toBPar i j) =
        p.chopSteps (s.buf (i * p.xSize + j) +
          (dRd p cnt lr (sliceOf p.toBPar i j) w s).inc (posOf p.toBPar i j)) := by
      rw [← dyn_omega]; rfl
    rw [hn]
    unfold BPar.chopSteps
    rw [if_pos hle, Ne, clipSteps_zero hb]
    rcases le_abs'.1 hle with h | h
    · have := trunc0_neg h; omega
    · have := trunc0_pos h; omega

end Aihw.Pulsed

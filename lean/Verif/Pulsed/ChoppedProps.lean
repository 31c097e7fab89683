import Verif.Pulsed.BufferedProps2
import Mathlib.Data.List.GetD

/-!
# C53: chopped transfer compounds: buffer, signs, regular chopping
-/
namespace Aihw.Pulsed

variable {K : Type} [Field K] [LinearOrder K] [IsStrictOrderedRing K] [FloorRing K]

/-! ## Lemmas -/

/-- The entry of the history made by one read of the chopped class. -/
def chopRd (p : BPar K) (cnt lr : K) (c : Nat) (w : WD K) (s : BS K) : Rd K :=
  ⟨0, c, w.y, p.lrScale lr cnt, fun o => s.inC c != s.outC o,
    fun o => p.chopSteps (p.chopOmega c (p.lrScale lr cnt) w s o)⟩

theorem chopOne_hist (F : Fns K) (p : BPar K) (cnt : K) (src : Nat) (lr : K) (c : Nat) (w : WD K)
    (s : BS K) : (p.chopOne F cnt src lr c w s).hist = s.hist ++ [chopRd p cnt lr c w s] := rfl

theorem chopOmega_eq (p : BPar K) (hnb : p.noBuffer = false) (cnt lr : K) (w : WD K) (s : BS K)
    (i j : Nat) :
    p.chopOmega (sliceOf p i j) (p.lrScale lr cnt) w s (posOf p i j) =
      s.buf 0 (i * p.xSize + j) + (chopRd p cnt lr (sliceOf p i j) w s).inc (posOf p i j) := by
  have h3 : p.cellOf (sliceOf p i j) (posOf p i j) = i * p.xSize + j := cellOf_flat p i j
  simp only [BPar.chopOmega, Rd.inc, chopRd, hnb, h3, Bool.false_eq_true, if_false]
  congr 1
  split_ifs <;> ring

theorem chopOne_buf (F : Fns K) (p : BPar K) (hnb : p.noBuffer = false) (cnt : K) (src : Nat)
    (lr : K) (c : Nat) (w : WD K) (s : BS K) (hc : c < p.inSize) (i j : Nat) (hi : i < p.dSize)
    (hj : j < p.xSize) :
    (p.chopOne F cnt src lr c w s).buf 0 (i * p.xSize + j) =
      if c = sliceOf p i j then
        p.chopNext (s.buf 0 (i * p.xSize + j) + (chopRd p cnt lr c w s).inc (posOf p i j))
      else s.buf 0 (i * p.xSize + j) := by
  obtain ⟨h1, h2, h3⟩ := slicePos p hi hj
  have e : (p.chopOne F cnt src lr c w s).buf 0 = p.setSlice c
      (fun o => p.chopNext (p.chopOmega c (p.lrScale lr cnt) w s o)) (s.buf 0) := rfl
  rw [e]
  by_cases hcs : c = sliceOf p i j
  · rw [if_pos hcs, ← h3]
    subst hcs
    rw [setSlice_same p _ _ hc h2, chopOmega_eq p hnb, h3]
  · rw [if_neg hcs, ← h3, setSlice_other p _ _ hc h1 (Ne.symm hcs) h2]

theorem chopNext_eq (p : BPar K) (hf : p.forget = false) (om : K) :
    p.chopNext om = om - (1 - max (min p.momentum 1) 0) * (p.chopSteps om : K) := by
  unfold BPar.chopNext BPar.chopSteps BPar.sub
  by_cases h : 1 ≤ |om|
  · rw [if_pos h, if_pos h, hf]; simp
  · rw [if_neg h, if_neg h]; simp

theorem chop_induct (F : Fns K) (p : BPar K) (cnt : K) (u : Upd K) (Inv : BS K → Prop)
    (h1 : ∀ (src : Nat) (lr : K) (c : Nat) (w : WD K) (s : BS K), c < p.inSize → lr ≠ 0 → Inv s →
      Inv (p.chopOne F cnt src lr c w s))
    (h2 : ∀ s t : BS K, t.buf = s.buf → t.hist = s.hist → t.inC = s.inC → t.outC = s.outC →
      t.ctr = s.ctr → Inv s → Inv t) :
    Inductive (p.chopVirt F cnt) F p.toTPar u Inv where
  one := by
    intro j hj n c s hc hsk hI
    refine h1 j _ c _ s hc ?_ hI
    simpa [BPar.chopVirt] using hsk
  slice := fun s j i h => h2 s _ rfl rfl rfl rfl rfl h
  start := fun s h => h2 s _ rfl rfl rfl rfl rfl h
  red := by
    intro s h
    refine h2 s _ ?_ ?_ ?_ ?_ ?_ h <;>
    · simp only [BPar.chopVirt, BPar.chopReduce]
      split_ifs <;> rfl

/-! ## Properties -/

/-- **C53 (nothing read is lost).**  Without `forget_buffer` and `no_buffer`, for every history of a
chopped compound, every direction of transfer and every weight `(i, j)`: the buffered value (in units
of steps) is the initial one plus everything read for this weight, each read times the transfer scale
of that update and with the chopper sign of that moment, minus `(1 - momentum)` for every step
requested from the slow device. -/
theorem C53_conservation (F : Fns K) (p : BPar K) (hf : p.forget = false) (hnb : p.noBuffer = false)
    (hin : 0 < p.inSize) (s : BS K) (hh : s.hist = []) (hs : ∀ k, s.ts.slice k < p.inSize)
    (us : List (Upd K × K)) (i j : Nat) (hi : i < p.dSize) (hj : j < p.xSize) :
    (p.chopRun F s us).buf 0 (i * p.xSize + j) =
      s.buf 0 (i * p.xSize + j) + accumulated p (p.chopRun F s us).hist 0 i j -
      (1 - max (min p.momentum 1) 0) * (sent p (p.chopRun F s us).hist 0 i j : K) := by
  refine (chopRun_inv F p (fun t => t.buf 0 (i * p.xSize + j) = s.buf 0 (i * p.xSize + j) +
      accumulated p t.hist 0 i j - (1 - max (min p.momentum 1) 0) *
        (sent p t.hist 0 i j : K)) hin us ?_ s ?_ hs).1
  · intro u _
    apply chop_induct
    · intro src lr c w t hc _ hI
      rw [chopOne_buf F p hnb _ _ _ _ _ _ hc _ _ hi hj, chopOne_hist, accumulated_append,
        sent_append]
      by_cases hm : c = sliceOf p i j
      · rw [if_pos hm, if_pos (show (chopRd p u.2 lr c w t).src = 0 ∧
          (chopRd p u.2 lr c w t).c = _ from ⟨rfl, hm⟩),
          if_pos (show (chopRd p u.2 lr c w t).src = 0 ∧
          (chopRd p u.2 lr c w t).c = _ from ⟨rfl, hm⟩)]
        subst hm
        have hn : (chopRd p u.2 lr (sliceOf p i j) w t).n (posOf p i j) =
            p.chopSteps (t.buf 0 (i * p.xSize + j) +
              (chopRd p u.2 lr (sliceOf p i j) w t).inc (posOf p i j)) := by
          rw [← chopOmega_eq p hnb]; rfl
        rw [chopNext_eq p hf, hn, hI]
        push_cast
        ring
      · rw [if_neg hm, if_neg (fun h => hm h.2), if_neg (fun h => hm h.2), add_zero, add_zero]
        exact hI
    · intro t t' h1 h2 _ _ _ hI
      rw [h1, h2]; exact hI
  · simp [hh, accumulated, sent, readsOf]

/-- **C53 (the slow device tracks the accumulated reads).**  Without `forget_buffer`, `no_buffer` and
momentum: as long as no single scaled read of weight `(i, j)` exceeds `desired_BL`, the buffer stays
below one step forever, and the total number of requested steps differs from everything accumulated
(with the chopper signs) by less than two, or less than one if the buffer started at zero. -/
theorem C53_tracks (F : Fns K) (p : BPar K) (hf : p.forget = false) (hnb : p.noBuffer = false)
    (hm : p.momentum ≤ 0) (hin : 0 < p.inSize) (s : BS K) (hh : s.hist = [])
    (hs : ∀ k, s.ts.slice k < p.inSize) (us : List (Upd K × K)) (i j : Nat) (hi : i < p.dSize)
    (hj : j < p.xSize) (hb : |s.buf 0 (i * p.xSize + j)| < 1)
    (hr : ∀ r ∈ readsOf p (p.chopRun F s us).hist 0 i j, |r.inc (posOf p i j)| ≤ (p.bl : K)) :
    |(p.chopRun F s us).buf 0 (i * p.xSize + j)| < 1 ∧
    |accumulated p (p.chopRun F s us).hist 0 i j -
      (sent p (p.chopRun F s us).hist 0 i j : K)| < 2 ∧
    (s.buf 0 (i * p.xSize + j) = 0 → |accumulated p (p.chopRun F s us).hist 0 i j -
      (sent p (p.chopRun F s us).hist 0 i j : K)| < 1) := by
  have hone : (1 : K) - max (min p.momentum 1) 0 = 1 := by
    rw [max_eq_right ((min_le_left _ _).trans hm)]; ring
  have h1 : |(p.chopRun F s us).buf 0 (i * p.xSize + j)| < 1 := by
    refine (chopRun_inv F p (fun t => (∀ r ∈ readsOf p t.hist 0 i j,
      |r.inc (posOf p i j)| ≤ (p.bl : K)) → |t.buf 0 (i * p.xSize + j)| < 1) hin us ?_ s
      (fun _ => hb) hs).1 hr
    intro u _
    apply chop_induct
    · intro src lr c w t hc _ hI hall
      rw [chopOne_hist, readsOf_append] at hall
      have hI' := hI fun r hr => hall r (List.mem_append_left _ hr)
      rw [chopOne_buf F p hnb _ _ _ _ _ _ hc _ _ hi hj]
      by_cases hmm : c = sliceOf p i j
      · rw [if_pos hmm]
        have hlast := hall _ (List.mem_append_right _ (by
          rw [if_pos (show (chopRd p u.2 lr c w t).src = 0 ∧ (chopRd p u.2 lr c w t).c = _ from
            ⟨rfl, hmm⟩)]
          exact List.mem_singleton.2 rfl))
        generalize (chopRd p u.2 lr c w t).inc (posOf p i j) = inc at hlast ⊢
        generalize t.buf 0 (i * p.xSize + j) = b at hI' ⊢
        rw [chopNext_eq p hf, hone, one_mul]
        have hlt : |b + inc| < (p.bl : K) + 1 :=
          lt_of_le_of_lt (abs_add_le _ _) (by linarith)
        unfold BPar.chopSteps
        by_cases h : 1 ≤ |b + inc|
        · rw [if_pos h, clipSteps_id (trunc0_bounds hlt)]
          exact trunc0_abs_sub _
        · rw [if_neg h]
          simpa using not_le.1 h
      · rw [if_neg hmm]; exact hI'
    · intro t t' h1 h2 _ _ _ hI
      rw [h1, h2]; exact hI
  have hc := C53_conservation F p hf hnb hin s hh hs us i j hi hj
  rw [hone, one_mul] at hc
  refine ⟨h1, ?_, ?_⟩
  · rw [abs_lt] at h1 hb ⊢
    constructor <;> linarith
  · intro h0
    rw [h0, zero_add] at hc
    rw [← hc]
    exact h1

/-- The gradient pulse flip at weight `(i, j)` is the flip a read of its slice would use now. -/
theorem chopPulse_down (p : BPar K) (s : BS K) (q : P K) (i j : Nat) (hj : j < p.xSize)
    (hq : q.k = i * p.xSize + j) :
    p.chopPulse s q = { q with down := q.down.xor (s.inC (sliceOf p i j) != s.outC (posOf p i j)) }
      := by
  have h1 : q.k / p.xSize = i := by
    rw [hq, Nat.mul_comm, Nat.mul_add_div (by omega), Nat.div_eq_of_lt hj, Nat.add_zero]
  have h2 : q.k % p.xSize = j := by
    rw [hq, Nat.mul_comm, Nat.mul_add_mod, Nat.mod_eq_of_lt hj]
  unfold BPar.chopPulse sliceOf posOf
  simp only [h1, h2]
  by_cases hc : p.cols = true
  · simp only [hc, if_true]
  · simp only [hc, Bool.false_eq_true, if_false]
    congr 2
    cases s.inC i <;> cases s.outC j <;> rfl

/-- **C53 (the read undoes the sign of the update).**  Without an output chopper: let `s` be any state,
`us` any further updates during which the slice of weight `(i, j)` is not read.  Then a gradient pulse
on `(i, j)` in state `s` is inverted exactly when the next read of that slice (at any learning rate,
with any result) is entered into the buffer with inverted sign, and all other pulses on `(i, j)` in
between are treated the same. -/
theorem C53_read_undoes_sign (F : Fns K) (p : BPar K) (ho : p.outProb ≤ 0) (hin : 0 < p.inSize)
    (s : BS K) (hs : ∀ k, s.ts.slice k < p.inSize) (us : List (Upd K × K)) (i j : Nat)
    (hj : j < p.xSize)
    (hno : (readsOf p (p.chopRun F s us).hist 0 i j).length = (readsOf p s.hist 0 i j).length)
    (q : P K) (hq : q.k = i * p.xSize + j) (cnt lr : K) (w : WD K) (src : Nat) :
    p.chopPulse (p.chopRun F s us) q = p.chopPulse s q ∧
    ∃ r, (p.chopOne F cnt src lr (sliceOf p i j) w (p.chopRun F s us)).hist =
        (p.chopRun F s us).hist ++ [r] ∧
      (p.chopPulse s q).down = q.down.xor (r.flip (posOf p i j)) := by
  have key : (readsOf p s.hist 0 i j).length ≤ (readsOf p (p.chopRun F s us).hist 0 i j).length ∧
      (p.chopRun F s us).outC = s.outC ∧
      ((readsOf p (p.chopRun F s us).hist 0 i j).length = (readsOf p s.hist 0 i j).length →
        (p.chopRun F s us).inC (sliceOf p i j) = s.inC (sliceOf p i j)) := by
    refine (chopRun_inv F p (fun t =>
      (readsOf p s.hist 0 i j).length ≤ (readsOf p t.hist 0 i j).length ∧ t.outC = s.outC ∧
      ((readsOf p t.hist 0 i j).length = (readsOf p s.hist 0 i j).length →
        t.inC (sliceOf p i j) = s.inC (sliceOf p i j))) hin us ?_ s ⟨le_rfl, rfl, fun _ => rfl⟩ hs).1
    intro u _
    apply chop_induct
    · intro src lr c w t hc _ hI
      obtain ⟨i1, i2, i3⟩ := hI
      rw [chopOne_hist, readsOf_append, List.length_append]
      have hout : (p.chopOne F u.2 src lr c w t).outC = s.outC := by
        rw [← i2]
        funext o
        simp only [BPar.chopOne]
        rw [if_neg (fun h => absurd h.2.1 (not_lt.2 ho))]
      refine ⟨by omega, hout, ?_⟩
      by_cases hm : c = sliceOf p i j
      · rw [if_pos (show (chopRd p u.2 lr c w t).src = 0 ∧ (chopRd p u.2 lr c w t).c = _ from
          ⟨rfl, hm⟩)]
        simp only [List.length_singleton]
        intro h; omega
      · rw [if_neg (fun h => hm h.2)]
        simp only [List.length_nil, Nat.add_zero]
        intro h
        rw [← i3 h]
        simp only [BPar.chopOne]
        rw [if_neg (fun h => hm h.symm)]
    · intro t t' _ h2 h3 h4 _ hI
      rw [h2, h3, h4]; exact hI
  obtain ⟨-, k2, k3⟩ := key
  have k3' := k3 hno
  refine ⟨?_, _, chopOne_hist F p cnt src lr (sliceOf p i j) w _, ?_⟩
  · rw [chopPulse_down p _ q i j hj hq, chopPulse_down p _ q i j hj hq, k2, k3']
  · rw [chopPulse_down p _ q i j hj hq]
    simp only [chopRd]
    rw [k2, k3']

/-- **C53 (finding: the output chopper and the other slices).**  When the output chopper `o` flips
(after the read of the last slice), the sign used at every other slice changes although that slice has
not been read: what its weights accumulated since their last read will be read with the wrong sign. -/
theorem C53_out_chopper_not_undone (F : Fns K) (p : BPar K) (s : BS K) (c : Nat)
    (hc : c + 1 = p.inSize) (cnt lr : K) (w : WD K) (src i j : Nat) (hi : i < p.dSize)
    (hj : j < p.xSize) (hsl : sliceOf p i j ≠ c) (ho : 0 < p.outProb)
    (hw : w.g (posOf p i j) < p.outProb) (q : P K) (hq : q.k = i * p.xSize + j) :
    (p.chopPulse (p.chopOne F cnt src lr c w s) q).down = !(p.chopPulse s q).down := by
  obtain ⟨h1, h2, h3⟩ := slicePos p hi hj
  rw [chopPulse_down p _ q i j hj hq, chopPulse_down p _ q i j hj hq]
  simp only [BPar.chopOne]
  rw [if_neg hsl, if_pos ⟨hc, ho, h2, hw⟩]
  cases q.down <;> cases s.inC (sliceOf p i j) <;> cases s.outC (posOf p i j) <;> rfl

/-- An update of a chopped compound with the documented restrictions and no self-transfer. -/
theorem chop_update (F : Fns K) (p : BPar K) (hn : p.n = 2) (hr : p.nReads = 1)
    (hin : 0 < p.inSize) (cnt : K) (s : BS K) (hs : s.ts.slice 0 < p.inSize) (u : Upd K)
    (h1 : p.chopEvery 1 u.mBatch = 0) :
    (p.chopVirt F cnt).update F p.toTPar s u =
      p.chopReduce (if 0 < p.chopEvery 0 u.mBatch ∧ (s.ts.idx + 1) % p.chopEvery 0 u.mBatch = 0 then
        ((if p.bufLR 1 0 u.lr = 0 then (p.chopVirt F cnt).begin F s u
          else p.chopOne F cnt 0 (p.bufLR 1 0 u.lr) (s.ts.slice 0) (u.dr 0 0)
            ((p.chopVirt F cnt).begin F s u)).setSliceIdx 0 ((s.ts.slice 0 + 1) % p.inSize))
      else (p.chopVirt F cnt).begin F s u) := by
  unfold Virt.update
  rw [hn]
  have hrange : List.range 2 = [0, 1] := rfl
  rw [hrange]
  simp only [List.foldl_cons, List.foldl_nil]
  have hb : ((p.chopVirt F cnt).begin F s u).ts.idx = s.ts.idx + 1 := rfl
  have hb2 : ((p.chopVirt F cnt).begin F s u).ts.slice = s.ts.slice := rfl
  have m1 : ∀ t : BS K, (p.chopVirt F cnt).maybe p.toTPar u.lr u.mBatch u.dr t 1 = t := by
    intro t
    unfold Virt.maybe
    rw [if_neg]
    have e : (p.chopVirt F cnt).ev 1 u.mBatch = 0 := h1
    omega
  rw [m1]
  show p.chopReduce _ = _
  congr 1
  unfold Virt.maybe
  rw [hb]
  by_cases hc : 0 < p.chopEvery 0 u.mBatch ∧ (s.ts.idx + 1) % p.chopEvery 0 u.mBatch = 0
  · rw [if_pos hc, if_pos (show 0 < (p.chopVirt F cnt).ev 0 u.mBatch ∧
      (s.ts.idx + 1) % (p.chopVirt F cnt).ev 0 u.mBatch = 0 from hc)]
    unfold Virt.transfer
    have hmin : min p.nReads p.inSize = 1 := by omega
    have hmin2 : min (0 + 1) (p.n - 1) = 1 := by omega
    rw [hmin, hb2, hmin2]
    have hlt : ¬ (p.inSize - s.ts.slice 0 < 1) := by omega
    simp only [hlt, if_false]
    congr 1
    unfold Virt.readAndUpdate
    have e : (p.chopVirt F cnt).lrOf 1 0 u.lr = p.bufLR 1 0 u.lr := rfl
    rw [e]
    by_cases hz : p.bufLR 1 0 u.lr = 0
    · rw [if_pos (show (p.chopVirt F cnt).skip 1 0 (p.bufLR 1 0 u.lr) = true from
        decide_eq_true hz), if_pos hz]
    · rw [if_neg (show ¬ (p.chopVirt F cnt).skip 1 0 (p.bufLR 1 0 u.lr) = true from by
        simpa [BPar.chopVirt] using hz), if_neg hz]
      rfl
  · rw [if_neg hc, if_neg (show ¬ (0 < (p.chopVirt F cnt).ev 0 u.mBatch ∧
      (s.ts.idx + 1) % (p.chopVirt F cnt).ev 0 u.mBatch = 0) from hc)]

theorem chopReduce_frame (p : BPar K) (s : BS K) :
    (p.chopReduce s).buf = s.buf ∧ (p.chopReduce s).hist = s.hist ∧ (p.chopReduce s).inC = s.inC ∧
    (p.chopReduce s).outC = s.outC ∧ (p.chopReduce s).ctr = s.ctr ∧
    (p.chopReduce s).ts.slice = s.ts.slice ∧ (p.chopReduce s).ts.idx = s.ts.idx ∧
    (p.chopReduce s).ts.dev = s.ts.dev ∧ (p.chopReduce s).ts.log = s.ts.log := by
  unfold BPar.chopReduce
  split_ifs <;> exact ⟨rfl, rfl, rfl, rfl, rfl, rfl, rfl, rfl, rfl⟩

/-- How often slice `c` has been read. -/
def timesRead (h : List (Rd K)) (c : Nat) : Nat := h.countP fun r => decide (r.c = c)

theorem parity_step (t n : Nat) (hn : 0 < n) :
    decide ((t + 1) / n % 2 = 1) =
      (decide (t / n % 2 = 1)).xor (decide (t % n + 1 = n)) := by
  by_cases h : n ∣ t + 1
  · have h1 : (t + 1) / n = t / n + 1 := by rw [Nat.succ_div, if_pos h]
    have h2 : t % n + 1 = n := by
      have hlt := Nat.mod_lt t hn
      by_contra hne
      have : (t + 1) % n = t % n + 1 := by
        rw [Nat.add_mod]
        by_cases h1n : n = 1
        · subst h1n; omega
        · rw [Nat.mod_eq_of_lt (show 1 < n by omega), Nat.mod_eq_of_lt (by omega)]
      rw [Nat.dvd_iff_mod_eq_zero, this] at h
      omega
    rw [h1, decide_eq_true h2]
    rcases Nat.mod_two_eq_zero_or_one (t / n) with h | h
    · rw [h]; simp; omega
    · rw [h]; simp; omega
  · have h1 : (t + 1) / n = t / n := by rw [Nat.succ_div, if_neg h, Nat.add_zero]
    have h2 : t % n + 1 ≠ n := by
      intro he
      apply h
      have := Nat.div_add_mod t n
      refine ⟨t / n + 1, ?_⟩
      rw [Nat.mul_add, Nat.mul_one]; omega
    rw [h1, decide_eq_false h2, Bool.xor_false]

/-- **C53 (schedule and regular chopping).**  For a chopped compound with two devices, one read per
transfer and no self-transfer, starting with fresh counters and any chopper state, for all updates
with transfer learning rate not zero: the reads go through the slices `0, 1, 2, …` cyclically, and with
regular (`in_chop_random = False`) choppers of positive frequency the chopper of slice `c` has been
switched exactly once per `max(⌈1/in_chop_prob⌉, 2)` reads of that slice. -/
theorem C53_regular_chopper (F : Fns K) (p : BPar K) (hn : p.n = 2) (hr : p.nReads = 1)
    (hin : 0 < p.inSize) (s : BS K) (hh : s.hist = []) (hs : s.ts.slice 0 = 0) (hc0 : s.ctr = 0)
    (us : List (Upd K × K)) (h1 : ∀ u ∈ us, p.chopEvery 1 u.1.mBatch = 0)
    (hlr : ∀ u ∈ us, p.bufLR 1 0 u.1.lr ≠ 0) :
    (p.chopRun F s us).hist.map (·.c) =
      (List.range (p.chopRun F s us).hist.length).map (· % p.inSize) ∧
    (p.inRandom = false → 0 < p.inProb → ∀ c < p.inSize,
      (p.chopRun F s us).inC c = (s.inC c).xor
        (decide (timesRead (p.chopRun F s us).hist c / (max ⌈1 / p.inProb⌉ 2).toNat % 2 = 1))) := by
  obtain ⟨N, hN⟩ : ∃ N, N = p.inSize := ⟨_, rfl⟩
  have inv : ∀ (us : List (Upd K × K)), (∀ u ∈ us, p.chopEvery 1 u.1.mBatch = 0) →
      (∀ u ∈ us, p.bufLR 1 0 u.1.lr ≠ 0) → ∀ t : BS K,
      (t.ts.slice 0 = t.hist.length % N ∧ t.ctr = t.hist.length / N ∧
        t.hist.map (·.c) = (List.range t.hist.length).map (· % N) ∧
        (∀ c < N, timesRead t.hist c = t.hist.length / N + if c < t.hist.length % N then 1 else 0) ∧
        (p.inRandom = false → 0 < p.inProb → ∀ c < N, t.inC c = (s.inC c).xor
          (decide (timesRead t.hist c / p.nSamples % 2 = 1)))) →
      ((p.chopRun F t us).hist.map (·.c) =
        (List.range (p.chopRun F t us).hist.length).map (· % N) ∧
        (p.inRandom = false → 0 < p.inProb → ∀ c < N, (p.chopRun F t us).inC c = (s.inC c).xor
          (decide (timesRead (p.chopRun F t us).hist c / p.nSamples % 2 = 1)))) := by
    intro us
    induction us with
    | nil => intro _ _ t ⟨_, _, a, _, b⟩; exact ⟨a, b⟩
    | cons u us ih =>
      intro h1 hlr t hI
      obtain ⟨i1, i2, i3, i4, i5⟩ := hI
      refine ih (fun v hv => h1 v (List.mem_cons_of_mem _ hv))
        (fun v hv => hlr v (List.mem_cons_of_mem _ hv)) _ ?_
      have hsl : t.ts.slice 0 < p.inSize := by rw [i1, hN]; exact Nat.mod_lt _ hin
      beta_reduce
      rw [chop_update F p hn hr hin u.2 t hsl u.1 (h1 u (List.mem_cons_self ..))]
      obtain ⟨-, f2, f3, -, f5, f6, -, -, -⟩ := chopReduce_frame p (if 0 < p.chopEvery 0 u.1.mBatch ∧
        (t.ts.idx + 1) % p.chopEvery 0 u.1.mBatch = 0 then
        ((if p.bufLR 1 0 u.1.lr = 0 then (p.chopVirt F u.2).begin F t u.1
          else p.chopOne F u.2 0 (p.bufLR 1 0 u.1.lr) (t.ts.slice 0) (u.1.dr 0 0)
            ((p.chopVirt F u.2).begin F t u.1)).setSliceIdx 0 ((t.ts.slice 0 + 1) % p.inSize))
        else (p.chopVirt F u.2).begin F t u.1)
      rw [f2, f3, f5, f6]
      by_cases hfire : 0 < p.chopEvery 0 u.1.mBatch ∧ (t.ts.idx + 1) % p.chopEvery 0 u.1.mBatch = 0
      · rw [if_pos hfire, if_neg (hlr u (List.mem_cons_self ..))]
        obtain ⟨b, hb⟩ : ∃ b, b = (p.chopVirt F u.2).begin F t u.1 := ⟨_, rfl⟩
        rw [← hb]
        have b1 : b.hist = t.hist := by rw [hb]; rfl
        have b2 : b.inC = t.inC := by rw [hb]; rfl
        have b3 : b.ctr = t.ctr := by rw [hb]; rfl
        obtain ⟨R, hR⟩ : ∃ R, R = t.hist.length := ⟨_, rfl⟩
        rw [← hR] at i1 i2 i3 i4
        obtain ⟨r, hr⟩ : ∃ r, r = chopRd p u.2 (p.bufLR 1 0 u.1.lr) (t.ts.slice 0) (u.1.dr 0 0) b :=
          ⟨_, rfl⟩
        have e1 : ((p.chopOne F u.2 0 (p.bufLR 1 0 u.1.lr) (t.ts.slice 0) (u.1.dr 0 0) b).setSliceIdx
          0 ((t.ts.slice 0 + 1) % p.inSize)).hist = t.hist ++ [r] := by
          rw [← b1, hr]; rfl
        have hrc : r.c = R % N := by rw [hr, ← i1]; rfl
        have hlen : (t.hist ++ [r]).length = R + 1 := by rw [List.length_append, ← hR]; rfl
        have hNpos : 0 < N := by omega
        have hmodlt := Nat.mod_lt R hNpos
        have hcnt : ∀ c < N, timesRead (t.hist ++ [r]) c =
            (R + 1) / N + if c < (R + 1) % N then 1 else 0 := by
          intro c hcN
          have hcc : timesRead (t.hist ++ [r]) c = timesRead t.hist c +
              if R % N = c then 1 else 0 := by
            unfold timesRead
            rw [List.countP_append]
            congr 1
            simp only [List.countP_cons, List.countP_nil, hrc, decide_eq_true_eq, Nat.zero_add]
          rw [hcc, i4 c hcN]
          by_cases hd : N ∣ R + 1
          · have q1 : (R + 1) / N = R / N + 1 := by rw [Nat.succ_div, if_pos hd]
            have q2 : (R + 1) % N = 0 := Nat.mod_eq_zero_of_dvd hd
            have q3 : R % N = N - 1 := by
              have := Nat.div_add_mod R N
              have := Nat.div_add_mod (R + 1) N
              rw [q1, q2, Nat.mul_add] at this
              omega
            rw [q1, q2, q3]
            simp only [Nat.not_lt_zero, if_false]
            split_ifs <;> omega
          · have q1 : (R + 1) / N = R / N := by rw [Nat.succ_div, if_neg hd, Nat.add_zero]
            have q2 : (R + 1) % N = R % N + 1 := by
              have := Nat.div_add_mod R N
              have := Nat.div_add_mod (R + 1) N
              rw [q1] at this
              omega
            rw [q1, q2]
            split_ifs <;> omega
        rw [e1, hlen]
        refine ⟨?_, ?_, ?_, hcnt, ?_⟩
        · simp only [BS.setSliceIdx, if_true]
          rw [i1, ← hN, Nat.mod_add_mod]
        · have : ((p.chopOne F u.2 0 (p.bufLR 1 0 u.1.lr) (t.ts.slice 0) (u.1.dr 0 0) b).setSliceIdx
            0 ((t.ts.slice 0 + 1) % p.inSize)).ctr =
            if t.ts.slice 0 + 1 = p.inSize then b.ctr + 1 else b.ctr := rfl
          rw [this, b3, i2, i1, ← hN, Nat.succ_div]
          have hiff : R % N + 1 = N ↔ N ∣ R + 1 := by
            constructor
            · intro h
              refine ⟨R / N + 1, ?_⟩
              have := Nat.div_add_mod R N
              rw [Nat.mul_add, Nat.mul_one]; omega
            · rintro ⟨k, hk⟩
              have h1 := Nat.div_add_mod R N
              have h2 : N * (R / N) < N * k := by omega
              have h3 := Nat.lt_of_mul_lt_mul_left h2
              have h4 : N * (R / N + 1) ≤ N * k := Nat.mul_le_mul_left N h3
              rw [Nat.mul_add, Nat.mul_one] at h4
              omega
          by_cases hh : R % N + 1 = N
          · rw [if_pos hh, if_pos (hiff.1 hh)]
          · rw [if_neg hh, if_neg (fun h => hh (hiff.2 h)), Nat.add_zero]
        · rw [List.map_append, i3, List.range_succ, List.map_append]
          simp [hrc]
        · intro g1 g2 c hcN
          have e2 : ((p.chopOne F u.2 0 (p.bufLR 1 0 u.1.lr) (t.ts.slice 0) (u.1.dr 0 0)
            b).setSliceIdx 0 ((t.ts.slice 0 + 1) % p.inSize)).inC c =
            if c = t.ts.slice 0 then (b.inC (t.ts.slice 0)).xor (p.inFlip b.ctr (u.1.dr 0 0).u)
            else b.inC c := rfl
          rw [e2, b2, b3, i2, i1]
          have i5' := i5 g1 g2 c hcN
          by_cases hcc : c = R % N
          · rw [if_pos hcc, ← hcc, i5']
            have ht : timesRead t.hist c = R / N := by
              rw [i4 c hcN, if_neg (by omega), Nat.add_zero]
            have ht' : timesRead (t.hist ++ [r]) c = R / N + 1 := by
              have : timesRead (t.hist ++ [r]) c = timesRead t.hist c +
                  if R % N = c then 1 else 0 := by
                unfold timesRead
                rw [List.countP_append]
                congr 1
                simp only [List.countP_cons, List.countP_nil, hrc, decide_eq_true_eq, Nat.zero_add]
              rw [this, ht, if_pos hcc.symm]
            have hpos : 0 < p.nSamples := by
              unfold BPar.nSamples
              have : (2 : ℤ) ≤ max ⌈1 / p.inProb⌉ 2 := le_max_right _ _
              omega
            have hfl : p.inFlip (R / N) (u.1.dr 0 0).u =
                decide (R / N % p.nSamples + 1 = p.nSamples) := by
              unfold BPar.inFlip
              rw [g1, decide_eq_true g2]
              simp
            rw [hfl, ht, ht', parity_step _ _ hpos, Bool.xor_assoc]
          · rw [if_neg hcc, i5']
            have : timesRead (t.hist ++ [r]) c = timesRead t.hist c := by
              unfold timesRead
              rw [List.countP_append]
              have : ¬ R % N = c := fun h => hcc h.symm
              simp [hrc, this]
            rw [this]
      · rw [if_neg hfire]
        exact ⟨i1, i2, i3, i4, i5⟩
  rw [← hN]
  refine inv us h1 hlr s ⟨?_, ?_, ?_, ?_, ?_⟩
  · rw [hs, hh]; simp
  · rw [hc0, hh]; simp
  · rw [hh]; rfl
  · intro c _; rw [hh]; simp [timesRead]
  · intro _ _ c _; rw [hh]; simp [timesRead]

end Aihw.Pulsed

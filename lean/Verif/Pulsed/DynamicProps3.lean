import Verif.Pulsed.DynamicProps2

/-!
# C54, continued: threshold, forgetting, the fast device and the visible weight
-/
namespace Aihw.Pulsed

variable {K : Type} [Field K] [LinearOrder K] [IsStrictOrderedRing K] [FloorRing K]

theorem chopSteps_sign (p : BPar K) (hb : 0 < p.bl) (om : K) :
    (0 < p.chopSteps om ↔ 1 ≤ om) ∧ (p.chopSteps om < 0 ↔ om ≤ -1) := by
  unfold BPar.chopSteps
  by_cases h : 1 ≤ |om|
  · rw [if_pos h, clipSteps_pos hb, clipSteps_neg hb]
    rcases le_abs'.1 h with h1 | h1
    · have := trunc0_neg h1
      exact ⟨⟨fun _ => by omega, fun _ => by linarith⟩, ⟨fun _ => h1, fun _ => by omega⟩⟩
    · have := trunc0_pos h1
      exact ⟨⟨fun _ => h1, fun _ => by omega⟩, ⟨fun _ => by omega, fun _ => by linarith⟩⟩
  · rw [if_neg h]
    rw [not_le, abs_lt] at h
    simp only [lt_self_iff_false, false_iff, not_le]
    exact ⟨h.2, h.1⟩

/-- **C54 (threshold and scale).**  With the same unit as in C53, a read requests steps exactly when
the accumulated value reaches one unit in absolute value, in the direction of its sign, and the
difference between the read value and the reference enters with the sign of the choppers and the factor
`|transfer lr| / unit` (with `correct_gradient_magnitudes`: divided by count learning rate and
granularity ratio); with `experimental_correct_accumulation` the factor is also divided by the number
of reads in the current chopper period, at most `1 / granularity` of the fast device. -/
theorem C54_threshold (F : Fns K) (p : DPar K) (hb : 0 < p.bl) (cnt lr : K) (w : WD K) (s : DS K)
    (i j : Nat) (unit : K)
    (hu : unit = p.gran 0 * (if 0 < p.bufGran then p.bufGran else 1) *
      (if 0 < p.autoGran then p.autoGran / ((p.inSize : K) * |p.transferEvery|) else 1)) :
    ∃ r, (p.one F cnt lr (sliceOf p.toBPar i j) w s).hist = s.hist ++ [r] ∧
      (0 < r.n (posOf p.toBPar i j) ↔
        1 ≤ s.buf (i * p.xSize + j) + r.inc (posOf p.toBPar i j)) ∧
      (r.n (posOf p.toBPar i j) < 0 ↔
        s.buf (i * p.xSize + j) + r.inc (posOf p.toBPar i j) ≤ -1) ∧
      r.inc (posOf p.toBPar i j) =
        (if s.inC (sliceOf p.toBPar i j) = s.outC (posOf p.toBPar i j) then 1 else -1) *
        (w.y (posOf p.toBPar i j) - r.ref (posOf p.toBPar i j)) * |lr| /
          (if p.correctGrad then cnt * (unit * (p.gran 1 / p.gran 0)) else unit) /
          (if p.correctAcc then
            min ((s.ctr % (if 0 < p.inProb then (max ⌈1 / p.inProb⌉ 2).toNat else 2) + 1 : Nat) : K)
              (1 / p.gran 0) else 1) := by
  have hbg : p.chopBG (p.gran 0) = unit := by
    rw [hu]
    unfold BPar.chopBG
    simp only
    by_cases h : 0 < p.autoGran
    · rw [if_pos h, if_pos h]; ring
    · rw [if_neg h, if_neg h]; ring
  have hn : (dRd p cnt lr (sliceOf p.toBPar i j) w s).n (posOf p.toBPar i j) =
      p.chopSteps (s.buf (i * p.xSize + j) +
        (dRd p cnt lr (sliceOf p.toBPar i j) w s).inc (posOf p.toBPar i j)) := by
    rw [← dyn_omega]; rfl
  refine ⟨_, dyn_one_hist F p cnt lr _ w s, ?_, ?_, ?_⟩
  · rw [hn]; exact (chopSteps_sign p.toBPar hb _).1
  · rw [hn]; exact (chopSteps_sign p.toBPar hb _).2
  · have e : (if (dRd p cnt lr (sliceOf p.toBPar i j) w s).flip (posOf p.toBPar i j) then (-1 : K)
        else 1) = if s.inC (sliceOf p.toBPar i j) = s.outC (posOf p.toBPar i j) then 1 else -1 := by
      show (if (s.inC (sliceOf p.toBPar i j) != s.outC (posOf p.toBPar i j)) then (-1 : K) else 1) = _
      by_cases h : s.inC (sliceOf p.toBPar i j) = s.outC (posOf p.toBPar i j) <;> simp [h]
    unfold DRd.inc
    rw [e]
    show _ * (p.scale lr cnt s * (w.y _ - (dRd p cnt lr (sliceOf p.toBPar i j) w s).ref _)) = _
    have hs : p.scale lr cnt s = |lr| /
        (if p.correctGrad then cnt * (unit * (p.gran 1 / p.gran 0)) else unit) /
        (if p.correctAcc then
            min ((s.ctr % (if 0 < p.inProb then (max ⌈1 / p.inProb⌉ 2).toNat else 2) + 1 : Nat) : K)
              (1 / p.gran 0) else 1) := by
      have hl : p.lrScale lr cnt = |lr| /
          (if p.correctGrad then cnt * (unit * (p.gran 1 / p.gran 0)) else unit) := by
        unfold BPar.lrScale
        rw [hbg]
        by_cases h : p.correctGrad = true
        · rw [if_pos h, if_pos h, div_div]
        · rw [if_neg h, if_neg h]
      unfold DPar.scale
      rw [hl]
      by_cases h : p.correctAcc = true
      · rw [if_pos h, if_pos h]; rfl
      · rw [if_neg h, if_neg h, div_one]
    rw [hs]
    ring

/-- **C54 (forgetting).**  With `forget_buffer`, a read that requests steps multiplies the accumulated
value by `momentum` (nothing of the rounding remainder survives otherwise); a read below the
threshold keeps it; other slices keep their buffers. -/
theorem C54_forget (F : Fns K) (p : DPar K) (hf : p.forget = true) (cnt lr : K) (w : WD K) (s : DS K)
    (c : Nat) (hc : c < p.inSize) (i j : Nat) (hi : i < p.dSize) (hj : j < p.xSize) :
    ∃ r, (p.one F cnt lr c w s).hist = s.hist ++ [r] ∧
    (p.one F cnt lr c w s).buf (i * p.xSize + j) =
      if c = sliceOf p.toBPar i j then
        if 1 ≤ |s.buf (i * p.xSize + j) + r.inc (posOf p.toBPar i j)| then
          p.momentum * (s.buf (i * p.xSize + j) + r.inc (posOf p.toBPar i j))
        else s.buf (i * p.xSize + j) + r.inc (posOf p.toBPar i j)
      else s.buf (i * p.xSize + j) := by
  refine ⟨_, dyn_one_hist F p cnt lr c w s, ?_⟩
  rw [dyn_one_buf F p cnt lr c w s hc i j hi hj]
  congr 1
  generalize s.buf (i * p.xSize + j) + _ = om
  unfold DPar.next
  rw [if_pos hf, mul_comm]

/-- What an update does to the fast device in a history: every gradient pulse arrives, with its
direction reversed exactly if one of the two choppers of its weight is set at that time. -/
def SignedBy (p : BPar K) (inC outC : Nat → Bool) (q q' : P K) : Prop :=
  q'.k = q.k ∧ q'.g = q.g ∧ q'.g2 = q.g2 ∧
    (∀ i j, j < p.xSize → q.k = i * p.xSize + j →
      q'.down = (if inC (sliceOf p i j) = outC (posOf p i j) then q.down else !q.down))

theorem dyn_maybe_dev0 (F : Fns K) (p : DPar K) (u : DU K) (s : DS K) (j : Nat) :
    (p.maybe F u s j).ts.dev 0 = s.ts.dev 0 := by
  unfold DPar.maybe
  by_cases hc : 0 < p.chopEvery j u.mBatch ∧ s.ts.idx % p.chopEvery j u.mBatch = 0
  · rw [if_pos hc]
    simp only
    by_cases hz : p.bufLR 1 j u.lr = 0
    · rw [if_pos hz]
    · rw [if_neg hz]
      simp only [DPar.one]
      split_ifs
      · simp [TS.setDev]
      · rfl
  · rw [if_neg hc]

theorem dyn_red_dev (p : DPar K) (s : DS K) : (p.red s).ts.dev = s.ts.dev := by
  obtain ⟨-, -, -, -, -, -, -, f8, -⟩ := chopReduce_frame p.toBPar s.bs
  show (p.chopReduce s.bs).ts.dev = _
  rw [f8]
  rfl

/-- **C54 (gradients reach the fast device only, with chopper signs).**  For every history and a last
update, the fast device changes in that update exactly by the gradient pulses, each with its direction
reversed iff one of the choppers of its weight is set before the update; transfers never change the
fast device. -/
theorem C54_fast_device (F : Fns K) (p : DPar K) (us : List (DU K)) (u : DU K) (s : DS K) :
    ∃ l : List (P K),
      List.Forall₂ (SignedBy p.toBPar (p.run F s us).inC (p.run F s us).outC) u.sgd l ∧
      (p.run F s (us ++ [u])).ts.dev 0 = ((p.run F s us).ts.dev 0).pulses F l := by
  refine ⟨u.sgd.map (p.chopPulse (p.run F s us).bs), ?_, ?_⟩
  · rw [List.forall₂_map_right_iff, List.forall₂_same]
    intro q _
    refine ⟨rfl, rfl, rfl, ?_⟩
    intro i j hj hq
    rw [chopPulse_down p.toBPar _ q i j hj hq]
    show q.down.xor ((p.run F s us).inC _ != (p.run F s us).outC _) = _
    cases q.down <;> cases (p.run F s us).inC (sliceOf p.toBPar i j) <;>
      cases (p.run F s us).outC (posOf p.toBPar i j) <;> rfl
  · have e : p.run F s (us ++ [u]) = p.update F (p.run F s us) u := by
      unfold DPar.run; rw [List.foldl_append]; rfl
    rw [e]
    unfold DPar.update
    rw [dyn_red_dev, dyn_maybe_dev0, dyn_maybe_dev0]
    simp [DPar.begin, TS.setDev]

/-- **C54 (visible weight).**  After every update of a dynamic compound that is not fully hidden, the
visible weight is `gamma_0 * sign * A + gamma_1 * C` with the chopper sign of that weight, whenever all
input choppers agree and all output choppers agree, or the array has a single row (column transfer). -/
theorem C54_visible_weight (F : Fns K) (p : DPar K) (hn : p.n = 2) (s : DS K) (us : List (DU K))
    (u : DU K) (hf : ¬ (p.gamma 0 = 0 ∧ p.gamma 1 = 1)) (i j : Nat) (hi : i < p.dSize)
    (t : DS K) (ht : t = p.run F s (us ++ [u]))
    (hok : ((∀ c c', t.inC c = t.inC c') ∧ ∀ o o', t.outC o = t.outC o') ∨
      (p.cols = true ∧ p.dSize = 1)) :
    t.ts.vis (i * p.xSize + j) =
      p.gamma 0 * (if t.inC (sliceOf p.toBPar i j) = t.outC (posOf p.toBPar i j) then 1 else -1) *
        ((t.ts.dev 0).st (i * p.xSize + j)).vis +
      p.gamma 1 * ((t.ts.dev 1).st (i * p.xSize + j)).vis := by
  obtain ⟨a, ha⟩ : ∃ a, p.run F s (us ++ [u]) = p.red a :=
    ⟨_, by unfold DPar.run; rw [List.foldl_append]; rfl⟩
  rw [ha] at ht
  have hin : t.inC = a.inC := by rw [ht]; rfl
  have hout : t.outC = a.outC := by rw [ht]; rfl
  have hdev : t.ts.dev = a.ts.dev := by rw [ht]; exact dyn_red_dev p a
  have hvis : t.ts.vis (i * p.xSize + j) = (p.chopReduce a.bs).ts.vis (i * p.xSize + j) := by
    rw [ht]; rfl
  rw [hin, hout] at hok ⊢
  rw [hvis, hdev, chopReduce_vis p.toBPar hn a.bs hf]
  have e1 : a.bs.inC = a.inC := rfl
  have e2 : a.bs.outC = a.outC := rfl
  have e3 : a.bs.ts = a.ts := rfl
  rw [e1, e2, e3]
  have key : (a.inC ((i * p.xSize + j) / p.dSize) != a.outC ((i * p.xSize + j) % p.dSize)) =
      (a.inC (sliceOf p.toBPar i j) != a.outC (posOf p.toBPar i j)) := by
    rcases hok with ⟨h1, h2⟩ | ⟨h1, h2⟩
    · rw [h1 ((i * p.xSize + j) / p.dSize) (sliceOf p.toBPar i j),
        h2 ((i * p.xSize + j) % p.dSize) (posOf p.toBPar i j)]
    · have hi0 : i = 0 := by omega
      subst hi0
      simp only [sliceOf, posOf, h1, h2, if_true, Nat.div_one, Nat.mod_one, Nat.zero_mul,
        Nat.zero_add]
  rw [key]
  by_cases h : a.inC (sliceOf p.toBPar i j) = a.outC (posOf p.toBPar i j)
  · simp [h]
  · simp [h]

end Aihw.Pulsed

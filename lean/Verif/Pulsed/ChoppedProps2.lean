import Verif.Pulsed.ChoppedProps

/-!
# C53: the slow device of a chopped compound, equivalence with the buffered compound, visible weights
-/
namespace Aihw.Pulsed

variable {K : Type} [Field K] [LinearOrder K] [IsStrictOrderedRing K] [FloorRing K]

theorem chopOne_dev (F : Fns K) (p : BPar K) (cnt : K) (src : Nat) (lr : K) (c : Nat) (w : WD K)
    (s : BS K) (k : Nat) :
    (p.chopOne F cnt src lr c w s).ts.dev k =
      if k = 1 ∧ (List.range p.outSize).any
          (fun o => decide (1 ≤ |p.chopOmega c (p.lrScale lr cnt) w s o|)) then
        p.bufWrite F (s.ts.dev 1) c (p.step * p.gran 1) (chopRd p cnt lr c w s).n w
      else s.ts.dev k := by
  have e : (p.chopOne F cnt src lr c w s).ts.dev =
      (if (List.range p.outSize).any
          (fun o => decide (1 ≤ |p.chopOmega c (p.lrScale lr cnt) w s o|)) then
        s.ts.setDev 1 (p.bufWrite F (s.ts.dev 1) c (p.step * p.gran 1)
          (chopRd p cnt lr c w s).n w)
      else s.ts).dev := rfl
  rw [e]
  by_cases h : ((List.range p.outSize).any
      (fun o => decide (1 ≤ |p.chopOmega c (p.lrScale lr cnt) w s o|))) = true
  · rw [if_pos h]
    by_cases hk : k = 1
    · rw [if_pos ⟨hk, h⟩]; simp [TS.setDev, hk]
    · rw [if_neg (fun q => hk q.1)]; simp [TS.setDev, hk]
  · rw [if_neg h, if_neg (fun q => h q.2)]

/-- **C53 (what the slow device receives).**  For every history (uniform draws in `[0, 1)`), weight
`(i, j)` of the slow device has been changed by nothing but one group of pulses per read of this
weight, in the order of the reads, all pulses of a group in the direction of the requested steps, none
if no step is requested; with `desired_BL = 1`, `step = 1` exactly one pulse per requested step. -/
theorem C53_slow_device (F : Fns K) (p : BPar K) (hn : p.n = 2) (hin : 0 < p.inSize) (s : BS K)
    (hh : s.hist = []) (hs : ∀ k, s.ts.slice k < p.inSize) (us : List (Upd K × K))
    (hu : ∀ u ∈ us, u.1.Unit) (i j : Nat) (hi : i < p.dSize) (hj : j < p.xSize)
    (hst : 0 < p.step * p.gran 1) :
    ∃ L : List (List (P K)),
      List.Forall₂ (fun r l => Answers p i j r l ∧ |r.n (posOf p i j)| ≤ (p.bl : ℤ) ∧
          ((∀ u ∈ us, ∀ a m, (u.1.dr a m).Single) → p.bl = 1 →
            (l.length : ℤ) = |r.n (posOf p i j)|))
        (readsOf p (p.chopRun F s us).hist 0 i j) L ∧
      (((p.chopRun F s us).ts.dev 1).st (i * p.xSize + j) =
        ((s.ts.dev 1).pulses F L.flatten).st (i * p.xSize + j)) := by
  obtain ⟨R, hR⟩ : ∃ R : Rd K → List (P K) → Prop, R = fun r l =>
    (Answers p i j r l ∧ |r.n (posOf p i j)| ≤ (p.bl : ℤ) ∧
      ((∀ u ∈ us, ∀ a m, (u.1.dr a m).Single) → p.bl = 1 →
            (l.length : ℤ) = |r.n (posOf p i j)|)) := ⟨_, rfl⟩
  have mk : ∀ (r : Rd K) (l : List (P K)) (w : WD K), Answers p i j r l →
      |r.n (posOf p i j)| ≤ (p.bl : ℤ) → (w.Single → r.n (posOf p i j) ≠ 0 → l.length = 1) →
      ((∀ u ∈ us, ∀ a m, (u.1.dr a m).Single) → w.Single) → R r l := by
    intro r l w h1 h2 h3 h4
    rw [hR]
    refine ⟨h1, h2, fun h5 hb => ?_⟩
    by_cases h0 : r.n (posOf p i j) = 0
    · rw [h1.2 h0, h0]; rfl
    · rw [h3 (h4 h5) h0]
      rw [hb] at h2
      have := Int.one_le_abs h0
      push_cast at h2 ⊢
      omega
  rw [← hR]
  have key := (chopRun_inv F p (fun t =>
    ((t.ts.dev 1).kd = (s.ts.dev 1).kd ∧ (t.ts.dev 1).par = (s.ts.dev 1).par ∧
     (t.ts.dev 1).cell = (s.ts.dev 1).cell) ∧
    ∃ L : List (List (P K)), List.Forall₂ R (readsOf p t.hist 0 i j) L ∧
      ((t.ts.dev 1).st (i * p.xSize + j) =
        ((s.ts.dev 1).pulses F L.flatten).st (i * p.xSize + j))) hin us ?_ s
    ⟨⟨rfl, rfl, rfl⟩, [], by simp [hh, readsOf], rfl⟩ hs).1.2
  · exact key
  · intro u hmem
    constructor
    · rintro a ha n c t hc hsk ⟨⟨k1, k2, k3⟩, L, hL, hst'⟩
      obtain ⟨-, hx, hd⟩ := hu u hmem a n
      obtain ⟨lr, hlr⟩ : ∃ lr, lr =
        (p.chopVirt F u.2).lrOf (min (a + 1) (p.n - 1)) a u.1.lr := ⟨_, rfl⟩
      rw [← hlr]
      have hone : (p.chopVirt F u.2).one (min (a + 1) (p.n - 1)) a lr c (u.1.dr a n) t =
        p.chopOne F u.2 a lr c (u.1.dr a n) t := rfl
      rw [hone]
      have hdev := chopOne_dev F p u.2 a lr c (u.1.dr a n) t 1
      simp only [true_and] at hdev
      refine ⟨?_, ?_⟩
      · rw [hdev]
        split_ifs
        · obtain ⟨b1, b2, b3⟩ := bufWrite_same F p (t.ts.dev 1) c
            (p.step * p.gran 1) (chopRd p u.2 lr c (u.1.dr a n) t).n (u.1.dr a n)
          exact ⟨b1.trans k1, b2.trans k2, b3.trans k3⟩
        · exact ⟨k1, k2, k3⟩
      rw [hdev, chopOne_hist, readsOf_append]
      obtain ⟨r, hr⟩ : ∃ r, r = chopRd p u.2 lr c (u.1.dr a n) t := ⟨_, rfl⟩
      have hrn : ∀ o, r.n o = p.chopSteps (p.chopOmega c (p.lrScale lr u.2) (u.1.dr a n) t o) := by
        intro o; rw [hr]; rfl
      have hr0 : r.src = 0 := by rw [hr]; rfl
      have hrc : r.c = c := by rw [hr]; rfl
      rw [← hr, hr0, hrc]
      by_cases hm : c = sliceOf p i j
      · rw [if_pos ⟨rfl, hm⟩]
        obtain ⟨h1, h2, h3⟩ := slicePos p hi hj
        have hbd : |r.n (posOf p i j)| ≤ (p.bl : ℤ) := by
          rw [hrn]
          unfold BPar.chopSteps
          split_ifs
          · exact clipSteps_abs _ _
          · simp
        by_cases hany : ((List.range p.outSize).any fun o =>
            decide (1 ≤ |p.chopOmega c (p.lrScale lr u.2) (u.1.dr a n) t o|)) = true
        · rw [if_pos hany]
          obtain ⟨l, l1, l2, l3, l4, l5⟩ := bufWrite_cell F p (t.ts.dev 1)
            (p.step * p.gran 1) hst r.n (u.1.dr a n) hx hd i j hi hj
          refine ⟨L ++ [l], forall₂_snoc hL (mk _ l (u.1.dr a n) ⟨l2, l3⟩ hbd l5
            (fun h => h u hmem a n)), ?_⟩
          rw [hm, l1, List.flatten_append, pulses_append]
          simp only [List.flatten_cons, List.flatten_nil, List.append_nil]
          exact pulses_st_congr F _ _ _ _ (by simp [k1]) (by simp [k2]) (by simp [k3]) hst'
        · rw [if_neg hany]
          have hz : r.n (posOf p i j) = 0 := by
            rw [hrn]
            unfold BPar.chopSteps
            rw [if_neg]
            intro hle
            apply hany
            rw [List.any_eq_true]
            exact ⟨_, List.mem_range.2 h2, by simpa using hle⟩
          refine ⟨L ++ [[]], forall₂_snoc hL (mk _ [] (u.1.dr a n) ⟨by simp, fun _ => rfl⟩ hbd
            (fun _ h => absurd hz h) (fun h => h u hmem a n)), ?_⟩
          rw [hst', List.flatten_append]
          simp
      · rw [if_neg (fun h => hm h.2), List.append_nil]
        refine ⟨L, hL, ?_⟩
        split_ifs
        · rw [bufWrite_other F p _ c _ _ _ hx hd i j hi hj (fun e => hm e.symm)]
          exact hst'
        · exact hst'
    · exact fun t a b h => h
    · exact fun t h => by
        have e : ((p.chopVirt F u.2).begin F t u.1).ts.dev 1 = t.ts.dev 1 := by
          simp [Virt.begin, TS.setDev]
        rw [e]; exact h
    · intro t h
      obtain ⟨-, f2, -, -, -, -, -, f8, -⟩ := chopReduce_frame p t
      have e1 : ((p.chopVirt F u.2).red t).ts.dev = t.ts.dev := f8
      have e2 : ((p.chopVirt F u.2).red t).hist = t.hist := f2
      rw [e1, e2]; exact h

/-! ## Without choppers: the buffered compound -/

/-- Corresponding states of a chopped compound with inactive choppers and a buffered compound with
threshold `g`: same devices, counters and visible weights, the buffer of the former counts steps. -/
structure Matches (g : K) (a b : BS K) : Prop where
  ts : a.ts = b.ts
  buf : ∀ k, a.buf 0 k = b.buf 0 k / g
  inC : ∀ c, a.inC c = false
  outC : ∀ o, a.outC o = false

theorem chop_one_matches (F : Fns K) (p : BPar K) (hbl : 0 < p.bl) (g : K) (hg : 0 < g)
    (h1 : p.thres * p.gran 1 = g) (h2 : p.chopBG (p.gran 0) = g) (hcg : p.correctGrad = false)
    (hnb : p.noBuffer = false) (hi : p.inProb ≤ 0) (ho : p.outProb ≤ 0) (cnt lr : K) (c : Nat)
    (w : WD K) (a b : BS K) (h : Matches g a b) :
    Matches g (p.chopOne F cnt 0 lr c w a) (p.bufOne F 1 0 lr c w b) := by
  have hom : ∀ o, p.chopOmega c (p.lrScale lr cnt) w a o = p.omega 0 c lr w b o / g := by
    intro o
    simp only [BPar.chopOmega, BPar.omega, hnb, h.inC, h.outC, h.buf, BPar.lrScale, hcg, h2]
    simp only [Bool.false_eq_true, if_false, bne_self_eq_false]
    rw [add_div, mul_div_assoc]
  have hst : ∀ o, p.chopSteps (p.chopOmega c (p.lrScale lr cnt) w a o) =
      p.steps 1 (p.omega 0 c lr w b o) := by
    intro o
    rw [hom]
    unfold BPar.chopSteps BPar.steps BPar.bg
    rw [h1]
    by_cases hle : 1 ≤ |p.omega 0 c lr w b o / g|
    · rw [if_pos hle]
    · rw [if_neg hle, trunc0_zero_of_lt (not_le.1 hle)]
      unfold clipSteps; omega
  have hnz : ∀ o, (1 ≤ |p.chopOmega c (p.lrScale lr cnt) w a o|) ↔
      p.steps 1 (p.omega 0 c lr w b o) ≠ 0 := by
    intro o
    rw [hom]
    unfold BPar.steps BPar.bg
    rw [h1, ne_eq, clipSteps_zero hbl]
    constructor
    · intro hle h0
      rcases le_abs'.1 hle with hn | hp
      · have := trunc0_neg hn; omega
      · have := trunc0_pos hp; omega
    · intro h0
      by_contra hlt
      exact h0 (trunc0_zero_of_lt (not_le.1 hlt))
  have hany : ((List.range p.outSize).any fun o =>
      decide (1 ≤ |p.chopOmega c (p.lrScale lr cnt) w a o|)) =
      ((List.range p.outSize).any fun o => decide (p.steps 1 (p.omega 0 c lr w b o) ≠ 0)) := by
    congr 1
    funext o
    exact decide_eq_decide.2 (hnz o)
  have hn : (fun o => p.chopSteps (p.chopOmega c (p.lrScale lr cnt) w a o)) =
      fun o => p.steps 1 (p.omega 0 c lr w b o) := funext hst
  constructor
  · simp only [BPar.chopOne, BPar.bufOne, hany, hn, h.ts]
  · intro k
    have e1 : (p.chopOne F cnt 0 lr c w a).buf 0 = p.setSlice c
      (fun o => p.chopNext (p.chopOmega c (p.lrScale lr cnt) w a o)) (a.buf 0) := rfl
    have e2 : (p.bufOne F 1 0 lr c w b).buf 0 = p.setSlice c
      (fun o => p.bufNext 1 (p.omega 0 c lr w b o)) (b.buf 0) := rfl
    rw [e1, e2]
    unfold BPar.setSlice
    cases (List.range p.outSize).find? (fun o => decide (p.cellOf c o = k)) with
    | none => exact h.buf k
    | some o =>
      simp only
      unfold BPar.chopNext BPar.bufNext
      by_cases hz : p.steps 1 (p.omega 0 c lr w b o) ≠ 0
      · rw [if_pos ((hnz o).2 hz), if_pos hz]
        cases p.forget with
        | true => simp only [if_true]; rw [hom]; ring
        | false =>
          simp only [Bool.false_eq_true, if_false]
          rw [hst, hom]
          unfold BPar.bg
          rw [h1, sub_div]
          congr 1
          field_simp
      · rw [if_neg (fun q => hz ((hnz o).1 q)), if_neg hz, hom]
  · intro c'
    simp only [BPar.chopOne]
    split_ifs with hc
    · rw [h.inC]
      unfold BPar.inFlip
      rw [decide_eq_false (not_lt.2 hi)]
      rfl
    · exact h.inC c'
  · intro o
    simp only [BPar.chopOne]
    rw [if_neg (fun q => absurd q.2.1 (not_lt.2 ho))]
    exact h.outC o

theorem chop_update_matches (F : Fns K) (p : BPar K) (hn : p.n = 2) (hr : p.nReads = 1)
    (hin : 0 < p.inSize) (hbl : 0 < p.bl) (g : K) (hg : 0 < g)
    (h1 : p.thres * p.gran 1 = g) (h2 : p.chopBG (p.gran 0) = g) (hcg : p.correctGrad = false)
    (hnb : p.noBuffer = false) (hi : p.inProb ≤ 0) (ho : p.outProb ≤ 0) (hte : 0 ≤ p.transferEvery)
    (u : Upd K) (cnt : K) (hself : p.getEvery 1 u.mBatch = 0) (a b : BS K)
    (hs : b.ts.slice 0 < p.inSize) (h : Matches g a b) :
    Matches g ((p.chopVirt F cnt).update F p.toTPar a u) ((p.bufVirt F).update F p.toTPar b u) ∧
    ((p.bufVirt F).update F p.toTPar b u).ts.slice 0 < p.inSize := by
  have hev : ∀ j, p.chopEvery j u.mBatch = p.getEvery j u.mBatch := by
    intro j; unfold BPar.chopEvery; rw [if_neg (not_lt.2 hte)]
  rw [chop_update F p hn hr hin cnt a (by rw [h.ts]; exact hs) u (by rw [hev]; exact hself)]
  -- the same for the buffered class
  have hbuf : (p.bufVirt F).update F p.toTPar b u = (p.bufVirt F).red
      (if 0 < p.getEvery 0 u.mBatch ∧ (b.ts.idx + 1) % p.getEvery 0 u.mBatch = 0 then
        ((if p.bufLR 1 0 u.lr = 0 then (p.bufVirt F).begin F b u
          else p.bufOne F 1 0 (p.bufLR 1 0 u.lr) (b.ts.slice 0) (u.dr 0 0)
            ((p.bufVirt F).begin F b u)).setSliceIdx 0 ((b.ts.slice 0 + 1) % p.inSize))
      else (p.bufVirt F).begin F b u) := by
    unfold Virt.update
    rw [hn]
    have hrange : List.range 2 = [0, 1] := rfl
    rw [hrange]
    simp only [List.foldl_cons, List.foldl_nil]
    have m1 : ∀ t : BS K, (p.bufVirt F).maybe p.toTPar u.lr u.mBatch u.dr t 1 = t := by
      intro t
      unfold Virt.maybe
      rw [if_neg]
      have e : (p.bufVirt F).ev 1 u.mBatch = 0 := hself
      omega
    rw [m1]
    congr 1
    unfold Virt.maybe
    have hb : ((p.bufVirt F).begin F b u).ts.idx = b.ts.idx + 1 := rfl
    have hb2 : ((p.bufVirt F).begin F b u).ts.slice = b.ts.slice := rfl
    rw [hb]
    by_cases hc : 0 < p.getEvery 0 u.mBatch ∧ (b.ts.idx + 1) % p.getEvery 0 u.mBatch = 0
    · rw [if_pos hc, if_pos (show 0 < (p.bufVirt F).ev 0 u.mBatch ∧
        (b.ts.idx + 1) % (p.bufVirt F).ev 0 u.mBatch = 0 from hc)]
      unfold Virt.transfer
      have hmin : min p.nReads p.inSize = 1 := by omega
      have hmin2 : min (0 + 1) (p.n - 1) = 1 := by omega
      rw [hmin, hb2, hmin2]
      have hlt : ¬ (p.inSize - b.ts.slice 0 < 1) := by omega
      simp only [hlt, if_false]
      congr 1
      unfold Virt.readAndUpdate
      have e : (p.bufVirt F).lrOf 1 0 u.lr = p.bufLR 1 0 u.lr := rfl
      rw [e]
      have hsk : (p.bufVirt F).skip 1 0 (p.bufLR 1 0 u.lr) = decide (p.bufLR 1 0 u.lr = 0) := by
        simp [BPar.bufVirt, hn]
      rw [hsk]
      by_cases hz : p.bufLR 1 0 u.lr = 0
      · rw [if_pos (decide_eq_true hz), if_pos hz]
      · rw [if_neg (by simpa using hz), if_neg hz]
        rfl
    · rw [if_neg hc, if_neg (show ¬ (0 < (p.bufVirt F).ev 0 u.mBatch ∧
        (b.ts.idx + 1) % (p.bufVirt F).ev 0 u.mBatch = 0) from hc)]
  have hbegin : Matches g ((p.chopVirt F cnt).begin F a u) ((p.bufVirt F).begin F b u) := by
    refine ⟨?_, h.buf, h.inC, h.outC⟩
    have hpulse : u.sgd.map ((p.chopVirt F cnt).sgd a) = u.sgd.map ((p.bufVirt F).sgd b) := by
      apply List.map_congr_left
      intro q _
      show p.chopPulse a q = q
      unfold BPar.chopPulse
      simp only [h.inC, h.outC, ite_self, bne_self_eq_false, Bool.xor_false]
    unfold Virt.begin
    rw [hpulse, h.ts]
  have hred : ∀ x y : BS K, Matches g x y → Matches g (p.chopReduce x) ((p.bufVirt F).red y) := by
    intro x y hxy
    obtain ⟨f1, f2, f3, f4, f5, f6, f7, f8, f9⟩ := chopReduce_frame p x
    refine ⟨?_, fun k => by rw [f1]; exact hxy.buf k, fun c => by rw [f3]; exact hxy.inC c,
      fun o => by rw [f4]; exact hxy.outC o⟩
    show (p.chopReduce x).ts = p.reduce y.ts
    rw [← hxy.ts]
    unfold BPar.chopReduce
    split_ifs
    · rfl
    · rfl
    · simp [hxy.inC, hxy.outC]
  have hslice : ∀ x y : BS K, Matches g x y → ∀ k i, Matches g (x.setSliceIdx k i) (y.setSliceIdx k i)
      := by
    intro x y hxy k i
    exact ⟨by simp only [BS.setSliceIdx, hxy.ts], hxy.buf, hxy.inC, hxy.outC⟩
  rw [hbuf, hev]
  have hidx : a.ts.idx = b.ts.idx := by rw [h.ts]
  have hsl : a.ts.slice 0 = b.ts.slice 0 := by rw [h.ts]
  rw [hidx, hsl]
  by_cases hc : 0 < p.getEvery 0 u.mBatch ∧ (b.ts.idx + 1) % p.getEvery 0 u.mBatch = 0
  · rw [if_pos hc, if_pos hc]
    refine ⟨hred _ _ (hslice _ _ ?_ _ _), ?_⟩
    · by_cases hz : p.bufLR 1 0 u.lr = 0
      · rw [if_pos hz, if_pos hz]; exact hbegin
      · rw [if_neg hz, if_neg hz]
        exact chop_one_matches F p hbl g hg h1 h2 hcg hnb hi ho cnt _ _ _ _ _ hbegin
    · have hm : ∀ x : Nat, x % p.inSize < p.inSize := fun x => Nat.mod_lt x hin
      simp only [BPar.bufVirt, BS.setSliceIdx, TPar.reduce]
      split_ifs <;> simp [hm]
  · rw [if_neg hc, if_neg hc]
    exact ⟨hred _ _ hbegin, hs⟩

/-- **C53 (without choppers it is the buffered compound).**  The documentation says that a chopped
compound with both chopper probabilities zero is identical to the buffered compound.  This holds for
every history — same devices, counters and visible weights, buffer equal up to the unit — exactly under
the proviso that the two thresholds agree: `thres_scale * granularity(slow)` for the buffered class,
`buffer_granularity * granularity(fast)` (scaled by `auto_granularity`) for the chopped class. -/
theorem C53_equals_buffered (F : Fns K) (p : BPar K) (hn : p.n = 2) (hr : p.nReads = 1)
    (hin : 0 < p.inSize) (hbl : 0 < p.bl) (hg : 0 < p.thres * p.gran 1)
    (hthr : p.chopBG (p.gran 0) = p.thres * p.gran 1) (hcg : p.correctGrad = false)
    (hnb : p.noBuffer = false) (hi : p.inProb ≤ 0) (ho : p.outProb ≤ 0) (hte : 0 ≤ p.transferEvery)
    (us : List (Upd K × K)) (hself : ∀ u ∈ us, p.getEvery 1 u.1.mBatch = 0) (a b : BS K)
    (hs : b.ts.slice 0 < p.inSize) (hts : a.ts = b.ts)
    (hbuf : ∀ k, a.buf 0 k = b.buf 0 k / (p.thres * p.gran 1)) (hia : ∀ c, a.inC c = false)
    (hoa : ∀ o, a.outC o = false) :
    (p.chopRun F a us).ts = (p.bufRun F b (us.map (·.1))).ts ∧
    ∀ k, (p.chopRun F a us).buf 0 k =
      (p.bufRun F b (us.map (·.1))).buf 0 k / (p.thres * p.gran 1) := by
  have key : ∀ us : List (Upd K × K), (∀ u ∈ us, p.getEvery 1 u.1.mBatch = 0) → ∀ a b : BS K,
      b.ts.slice 0 < p.inSize → Matches (p.thres * p.gran 1) a b →
      Matches (p.thres * p.gran 1) (p.chopRun F a us) (p.bufRun F b (us.map (·.1))) := by
    intro us
    induction us with
    | nil => intro _ a b _ h; exact h
    | cons u us ih =>
      intro hself a b hs h
      obtain ⟨m, hs'⟩ := chop_update_matches F p hn hr hin hbl _ hg rfl hthr hcg hnb hi ho hte u.1 u.2
        (hself u (List.mem_cons_self ..)) a b hs h
      exact ih (fun v hv => hself v (List.mem_cons_of_mem _ hv)) _ _ hs' m
  have h := key us hself a b hs ⟨hts, hbuf, hia, hoa⟩
  exact ⟨h.ts, h.buf⟩

/-! ## Visible weights -/

/-- The intended visible weight: the fast weight enters with the chopper sign of its own row and
column. -/
def intended (p : BPar K) (s : BS K) (i j : Nat) : K :=
  p.gamma 0 * ((if s.inC (sliceOf p i j) != s.outC (posOf p i j) then -1 else 1) *
    ((s.ts.dev 0).st (i * p.xSize + j)).vis) +
  p.gamma 1 * ((s.ts.dev 1).st (i * p.xSize + j)).vis

theorem chopReduce_vis (p : BPar K) (hn : p.n = 2) (s : BS K)
    (hf : ¬ (p.gamma 0 = 0 ∧ p.gamma 1 = 1)) (k : Nat) :
    (p.chopReduce s).ts.vis k =
      p.gamma 0 * ((if s.inC (k / p.dSize) != s.outC (k % p.dSize) then -1 else 1) *
        ((s.ts.dev 0).st k).vis) + p.gamma 1 * ((s.ts.dev 1).st k).vis := by
  have hfh : p.fullyHidden = false := by
    unfold TPar.fullyHidden
    rw [hn]
    have hrange : List.range (2 - 1) = [0] := rfl
    rw [hrange]
    simp only [List.map_cons, List.map_nil, List.sum_cons, List.sum_nil, add_zero]
    by_cases h : p.gamma 0 = 0
    · have : p.gamma 1 ≠ 1 := fun h' => hf ⟨h, h'⟩
      simp [this]
    · simp [h]
  have hrv : (p.reduce s.ts).vis k =
      p.gamma 0 * ((s.ts.dev 0).st k).vis + p.gamma 1 * ((s.ts.dev 1).st k).vis := by
    simp only [TPar.reduce, hfh, Bool.false_eq_true, if_false]
    rw [hn]
    have hrange : List.range 2 = [0, 1] := rfl
    rw [hrange]
    simp
  unfold BPar.chopReduce
  simp only [hfh, Bool.false_eq_true, if_false]
  by_cases h0 : p.gamma 0 = 0
  · rw [if_pos h0]
    simp only
    rw [hrv, h0]
    ring
  · rw [if_neg h0]
    simp only
    rw [hrv]
    split_ifs <;> ring

/-- **C53 (visible weight).**  After every update of a chopped compound that is not fully hidden, the
visible weight is `gamma_0 * sign * A + gamma_1 * C` with the intended chopper sign, whenever all
input choppers agree and all output choppers agree (in particular while no chopper has switched, or
with regular choppers between full cycles), or the array has a single row (column transfer). -/
theorem C53_visible_weight (F : Fns K) (p : BPar K) (hn : p.n = 2) (s : BS K) (us : List (Upd K × K))
    (u : Upd K × K) (hf : ¬ (p.gamma 0 = 0 ∧ p.gamma 1 = 1)) (i j : Nat) (hi : i < p.dSize)
    (hj : j < p.xSize)
    (hok : ((∀ c c', (p.chopRun F s (us ++ [u])).inC c = (p.chopRun F s (us ++ [u])).inC c') ∧
        ∀ o o', (p.chopRun F s (us ++ [u])).outC o = (p.chopRun F s (us ++ [u])).outC o') ∨
      (p.cols = true ∧ p.dSize = 1)) :
    (p.chopRun F s (us ++ [u])).ts.vis (i * p.xSize + j) =
      intended p (p.chopRun F s (us ++ [u])) i j := by
  obtain ⟨t, ht⟩ : ∃ t, p.chopRun F s (us ++ [u]) = p.chopReduce t :=
    ⟨_, by unfold BPar.chopRun; rw [List.foldl_append]; rfl⟩
  rw [ht] at hok ⊢
  obtain ⟨-, -, f3, f4, -, -, -, f8, -⟩ := chopReduce_frame p t
  rw [f3, f4] at hok
  unfold intended
  rw [chopReduce_vis p hn t hf, f3, f4, f8]
  rcases hok with ⟨h1, h2⟩ | ⟨h1, h2⟩
  · rw [h1 ((i * p.xSize + j) / p.dSize) (sliceOf p i j),
      h2 ((i * p.xSize + j) % p.dSize) (posOf p i j)]
  · have hi0 : i = 0 := by omega
    subst hi0
    simp only [sliceOf, posOf, h1, h2, if_true, Nat.div_one, Nat.mod_one, Nat.zero_mul,
      Nat.zero_add]

/-- **C53 (finding: wrong chopper sign in the visible weight).**  The correction of the visible weight
takes the choppers of flat index `k` from `k / d_size` and `k % d_size`, but weights are stored row by
row (`k = i * x_size + j`).  For every array with at least two rows and columns (column transfer) and
`gamma_0 ≠ 0`, switching just the input chopper of column 1 gives a visible weight `(0, 1)` that is off
by `2 gamma_0 A[0, 1]`. -/
theorem C53_visible_weight_finding (p : BPar K) (hn : p.n = 2) (hc : p.cols = true)
    (hd : 2 ≤ p.dSize) (s : BS K) (hf : ¬ (p.gamma 0 = 0 ∧ p.gamma 1 = 1))
    (hin : ∀ c, s.inC c = decide (c = 1)) (hout : ∀ o, s.outC o = false) :
    (p.chopReduce s).ts.vis (0 * p.xSize + 1) - intended p s 0 1 =
      2 * p.gamma 0 * ((s.ts.dev 0).st 1).vis := by
  rw [chopReduce_vis p hn s hf]
  unfold intended
  simp only [sliceOf, posOf, hc, if_true, hin, hout, Nat.zero_mul, Nat.zero_add]
  rw [Nat.div_eq_of_lt (by omega)]
  simp
  ring

/-- **C53 (threshold).**  Let the buffer unit be the granularity of the fast device, times
`buffer_granularity` if that is positive, times `auto_granularity / (slices * |transfer_every|)` if that
is positive.  A read requests steps exactly when the accumulated value reaches one unit in absolute
value, in the direction of its sign; the read enters with `|transfer lr| / unit` — with
`correct_gradient_magnitudes`, with `|transfer lr| / (count lr * unit * granularity ratio)`. -/
theorem C53_threshold (F : Fns K) (p : BPar K) (hb : 0 < p.bl) (hnb : p.noBuffer = false) (cnt lr : K)
    (w : WD K) (src : Nat) (s : BS K) (i j : Nat) (unit : K)
    (hu : unit = p.gran 0 * (if 0 < p.bufGran then p.bufGran else 1) *
      (if 0 < p.autoGran then p.autoGran / ((p.inSize : K) * |p.transferEvery|) else 1)) :
    ∃ r, (p.chopOne F cnt src lr (sliceOf p i j) w s).hist = s.hist ++ [r] ∧
      (0 < r.n (posOf p i j) ↔ 1 ≤ s.buf 0 (i * p.xSize + j) + r.inc (posOf p i j)) ∧
      (r.n (posOf p i j) < 0 ↔ s.buf 0 (i * p.xSize + j) + r.inc (posOf p i j) ≤ -1) ∧
      r.inc (posOf p i j) = (if s.inC (sliceOf p i j) = s.outC (posOf p i j) then 1 else -1) *
        w.y (posOf p i j) * |lr| /
          (if p.correctGrad then cnt * (unit * (p.gran 1 / p.gran 0)) else unit) := by
  have hbg : p.chopBG (p.gran 0) = unit := by
    rw [hu]
    unfold BPar.chopBG
    simp only
    by_cases h : 0 < p.autoGran
    · rw [if_pos h, if_pos h]; ring
    · rw [if_neg h, if_neg h]; ring
  have hn : (chopRd p cnt lr (sliceOf p i j) w s).n (posOf p i j) =
      p.chopSteps (s.buf 0 (i * p.xSize + j) +
        (chopRd p cnt lr (sliceOf p i j) w s).inc (posOf p i j)) := by
    rw [← chopOmega_eq p hnb]; rfl
  refine ⟨_, chopOne_hist F p cnt src lr _ w s, ?_, ?_, ?_⟩
  · rw [hn]
    generalize s.buf 0 (i * p.xSize + j) + _ = om
    unfold BPar.chopSteps
    by_cases h : 1 ≤ |om|
    · rw [if_pos h, clipSteps_pos hb]
      rcases le_abs'.1 h with h1 | h1
      · have := trunc0_neg h1
        constructor
        · intro; omega
        · intro; linarith
      · have := trunc0_pos h1
        exact ⟨fun _ => h1, fun _ => by omega⟩
    · rw [if_neg h]
      rw [not_le, abs_lt] at h
      simp only [lt_self_iff_false, false_iff, not_le]
      exact h.2
  · rw [hn]
    generalize s.buf 0 (i * p.xSize + j) + _ = om
    unfold BPar.chopSteps
    by_cases h : 1 ≤ |om|
    · rw [if_pos h, clipSteps_neg hb]
      rcases le_abs'.1 h with h1 | h1
      · have := trunc0_neg h1
        exact ⟨fun _ => h1, fun _ => by omega⟩
      · have := trunc0_pos h1
        constructor
        · intro; omega
        · intro; linarith
    · rw [if_neg h]
      rw [not_le, abs_lt] at h
      simp only [lt_self_iff_false, false_iff, not_le]
      exact h.1
  · have e : (if (chopRd p cnt lr (sliceOf p i j) w s).flip (posOf p i j) then (-1 : K) else 1) =
        if s.inC (sliceOf p i j) = s.outC (posOf p i j) then 1 else -1 := by
      show (if (s.inC (sliceOf p i j) != s.outC (posOf p i j)) then (-1 : K) else 1) = _
      by_cases h : s.inC (sliceOf p i j) = s.outC (posOf p i j) <;> simp [h]
    unfold Rd.inc
    rw [e]
    show _ * (p.lrScale lr cnt * w.y _) = _
    unfold BPar.lrScale
    rw [hbg]
    by_cases h : p.correctGrad = true
    · rw [if_pos h, if_pos h, div_div]; ring
    · rw [if_neg h, if_neg h]; ring

/-- **C53 (finding: automatic transfer period).**  With a negative `transfer_every` (automatic period)
the period is at least one for *every* device, also the last one, and the "self-transfer" of the last
device executes a second read of the fast device at its own slice counter: in an update where both
periods elapse, the fast device is read twice. -/
theorem C53_auto_period_reads_twice (F : Fns K) (p : BPar K) (hn : p.n = 2) (hr : p.nReads = 1)
    (hin : 0 < p.inSize) (hte : p.transferEvery < 0) (s : BS K)
    (hs : ∀ k, s.ts.slice k < p.inSize) (u : Upd K) (cnt : K)
    (h0 : (s.ts.idx + 1) % p.chopEvery 0 u.mBatch = 0)
    (h1 : (s.ts.idx + 1) % p.chopEvery 1 u.mBatch = 0)
    (hl0 : p.bufLR 1 0 u.lr ≠ 0) (hl1 : p.bufLR 1 1 u.lr ≠ 0) :
    (∀ j, 1 ≤ p.chopEvery j u.mBatch) ∧
    ∃ r r' : Rd K, ((p.chopVirt F cnt).update F p.toTPar s u).hist = s.hist ++ [r, r'] ∧
      r.src = 0 ∧ r'.src = 0 ∧ r.c = s.ts.slice 0 ∧ r'.c = s.ts.slice 1 := by
  have hev : ∀ j, 1 ≤ p.chopEvery j u.mBatch := by
    intro j
    unfold BPar.chopEvery
    rw [if_pos hte]
    have := le_max_left (1 : ℤ) (roundAway (p.nStates j / (p.inSize : K) * |p.transferEvery|))
    omega
  refine ⟨hev, ?_⟩
  have hmin : min p.nReads p.inSize = 1 := by omega
  have m : ∀ (j : Nat) (t : BS K), j < 2 → t.ts.slice j < p.inSize →
      0 < p.chopEvery j u.mBatch → t.ts.idx % p.chopEvery j u.mBatch = 0 → p.bufLR 1 j u.lr ≠ 0 →
      (p.chopVirt F cnt).maybe p.toTPar u.lr u.mBatch u.dr t j =
        (p.chopOne F cnt j (p.bufLR 1 j u.lr) (t.ts.slice j) (u.dr j 0) t).setSliceIdx j
          ((t.ts.slice j + 1) % p.inSize) := by
    intro j t hj hsl hp hm hl
    unfold Virt.maybe
    rw [if_pos (show 0 < (p.chopVirt F cnt).ev j u.mBatch ∧
      t.ts.idx % (p.chopVirt F cnt).ev j u.mBatch = 0 from ⟨hp, hm⟩)]
    unfold Virt.transfer
    have hmin2 : min (j + 1) (p.n - 1) = 1 := by omega
    rw [hmin, hmin2]
    have hlt : ¬ (p.inSize - t.ts.slice j < 1) := by omega
    simp only [hlt, if_false]
    congr 1
    unfold Virt.readAndUpdate
    have e : (p.chopVirt F cnt).lrOf 1 j u.lr = p.bufLR 1 j u.lr := rfl
    rw [e, if_neg (show ¬ (p.chopVirt F cnt).skip 1 j (p.bufLR 1 j u.lr) = true from by
      simpa [BPar.chopVirt] using hl)]
    rfl
  have e : ((p.chopVirt F cnt).update F p.toTPar s u) =
      p.chopReduce ((p.chopVirt F cnt).maybe p.toTPar u.lr u.mBatch u.dr
        ((p.chopVirt F cnt).maybe p.toTPar u.lr u.mBatch u.dr
          ((p.chopVirt F cnt).begin F s u) 0) 1) := by
    unfold Virt.update
    rw [hn]
    rfl
  rw [e, (chopReduce_frame p _).2.1]
  have hb : ((p.chopVirt F cnt).begin F s u).ts.idx = s.ts.idx + 1 := rfl
  rw [m 0 ((p.chopVirt F cnt).begin F s u) (by omega) (hs 0) (hev 0) (by rw [hb]; exact h0) hl0]
  obtain ⟨t, ht⟩ : ∃ t, t = (p.chopOne F cnt 0 (p.bufLR 1 0 u.lr)
    (((p.chopVirt F cnt).begin F s u).ts.slice 0) (u.dr 0 0)
    ((p.chopVirt F cnt).begin F s u)).setSliceIdx 0
      ((((p.chopVirt F cnt).begin F s u).ts.slice 0 + 1) % p.inSize) := ⟨_, rfl⟩
  rw [← ht]
  have hti : t.ts.idx = s.ts.idx + 1 := by
    rw [ht]
    simp only [BS.setSliceIdx, BPar.chopOne]
    split_ifs <;> rfl
  have hts : t.ts.slice 1 = s.ts.slice 1 := by
    rw [ht]
    simp only [BS.setSliceIdx, BPar.chopOne, one_ne_zero, if_false]
    split_ifs <;> rfl
  have hth : t.hist = s.hist ++ [chopRd p cnt (p.bufLR 1 0 u.lr) (s.ts.slice 0) (u.dr 0 0)
    ((p.chopVirt F cnt).begin F s u)] := by rw [ht]; rfl
  rw [m 1 t (by omega) (by rw [hts]; exact hs 1) (hev 1) (by rw [hti]; exact h1) hl1]
  refine ⟨chopRd p cnt (p.bufLR 1 0 u.lr) (s.ts.slice 0) (u.dr 0 0)
    ((p.chopVirt F cnt).begin F s u), chopRd p cnt (p.bufLR 1 1 u.lr) (t.ts.slice 1) (u.dr 1 0) t,
    ?_, rfl, rfl, rfl, hts⟩
  show t.hist ++ [_] = _
  rw [hth, List.append_assoc]; rfl

end Aihw.Pulsed

import Verif.Pulsed.BufferedProps

/-!
# C52: what the slow devices receive, and when
-/
namespace Aihw.Pulsed

variable {K : Type} [Field K] [LinearOrder K] [IsStrictOrderedRing K] [FloorRing K]

/-! ## Specification -/

/-- The pulse trains of a write with `desired_BL = 1` and `step = 1`: one slot, both probability
scales one, continuous resolution. -/
def WD.Single (w : WD K) : Prop := w.tr.bl = 1 ∧ w.tr.a = 1 ∧ w.tr.b = 1 ∧ w.tr.res ≤ 0

/-- `l` answers the read `r` at weight `(i, j)` of the next device: pulses on this weight only, all in
the requested direction, none when no step is requested. -/
def Answers (p : BPar K) (i j : Nat) (r : Rd K) (l : List (P K)) : Prop :=
  (∀ q ∈ l, q.k = i * p.xSize + j ∧ q.down = decide (r.n (posOf p i j) < 0)) ∧
  (r.n (posOf p i j) = 0 → l = [])

/-! ## Lemmas -/

theorem bufWrite_same (F : Fns K) (p : BPar K) (d : Dev K) (c : Nat) (lr : K) (n : Nat → ℤ)
    (w : WD K) :
    (p.bufWrite F d c lr n w).kd = d.kd ∧ (p.bufWrite F d c lr n w).par = d.par ∧
    (p.bufWrite F d c lr n w).cell = d.cell := by
  unfold BPar.bufWrite TPar.write
  split_ifs <;> simp

theorem bufWrite_other (F : Fns K) (p : BPar K) (d : Dev K) (c : Nat) (lr : K) (n : Nat → ℤ)
    (w : WD K) (hx : UnitDraws w.tx) (hd : UnitDraws w.td) (i j : Nat) (hi : i < p.dSize)
    (hj : j < p.xSize) (hne : sliceOf p i j ≠ c) :
    (p.bufWrite F d c lr n w).st (i * p.xSize + j) = d.st (i * p.xSize + j) := by
  unfold BPar.bufWrite
  split_ifs with h
  · rfl
  · exact write_untouched F p.toTPar d c lr { w with y := fun o => -(n o : K) } hx hd i j hi hj hne

theorem bufWrite_cell (F : Fns K) (p : BPar K) (d : Dev K) (lr : K) (hlr : 0 < lr) (n : Nat → ℤ)
    (w : WD K) (hx : UnitDraws w.tx) (hd : UnitDraws w.td) (i j : Nat) (hi : i < p.dSize)
    (hj : j < p.xSize) :
    ∃ l : List (P K), (p.bufWrite F d (sliceOf p i j) lr n w).st (i * p.xSize + j) =
        (d.pulses F l).st (i * p.xSize + j) ∧
      (∀ q ∈ l, q.k = i * p.xSize + j ∧ q.down = decide (n (posOf p i j) < 0)) ∧
      (n (posOf p i j) = 0 → l = []) ∧ l.length ≤ w.tr.bl ∧
      (w.Single → n (posOf p i j) ≠ 0 → l.length = 1) := by
  have hneg : ¬ lr < 0 := not_lt.2 hlr.le
  have key : ∀ (x e : Nat → K), |x j| * |e i| = |(n (posOf p i j) : K)| →
      (n (posOf p i j) ≠ 0 → 1 ≤ |x j| ∧ 1 ≤ |e i|) →
      x j * e i = -(n (posOf p i j) : K) →
      ∃ l : List (P K),
        (d.pulses F (sparsePulses w.ty w.tr p.xSize p.dSize 1 x e w.tx w.td w.pd)).st
          (i * p.xSize + j) = (d.pulses F l).st (i * p.xSize + j) ∧
        (∀ q ∈ l, q.k = i * p.xSize + j ∧ q.down = decide (n (posOf p i j) < 0)) ∧
        (n (posOf p i j) = 0 → l = []) ∧ l.length ≤ w.tr.bl ∧
        (w.Single → n (posOf p i j) ≠ 0 → l.length = 1) := by
    intro x e h1 h2 h3
    refine ⟨(sparsePulses w.ty w.tr p.xSize p.dSize 1 x e w.tx w.td w.pd).filter
      (fun q => decide (q.k = i * p.xSize + j)), ?_, ?_, ?_, ?_, ?_⟩
    · rw [pulses_st, pulses_st, List.filter_filter]
      simp
    · intro q hq
      rw [C45_cell_pulses _ _ _ _ _ (Or.inl rfl) _ _ _ _ hx hd _ _ _ hi hj, List.mem_map] at hq
      obtain ⟨k, _, rfl⟩ := hq
      refine ⟨rfl, ?_⟩
      simp only [Int.cast_one, one_mul, h3]
      rw [decide_eq_decide]
      constructor
      · intro h
        have : (n (posOf p i j) : K) < 0 := by linarith
        exact_mod_cast this
      · intro h
        have : (n (posOf p i j) : K) < 0 := by exact_mod_cast h
        linarith
    · intro h0
      rw [C45_cell_pulses _ _ _ _ _ (Or.inl rfl) _ _ _ _ hx hd _ _ _ hi hj]
      rw [h0, Int.cast_zero, abs_zero, mul_eq_zero, abs_eq_zero, abs_eq_zero] at h1
      have : hits w.tr x e w.tx w.td i j = [] := by
        unfold hits
        rw [List.filter_eq_nil_iff]
        intro k _
        simp only [decide_eq_true_eq]
        rintro ⟨a1, a2⟩
        rcases h1 with h | h
        · exact not_fires_zero hx h a2
        · exact not_fires_zero hd h a1
      rw [this]; rfl
    · rw [C45_cell_pulses _ _ _ _ _ (Or.inl rfl) _ _ _ _ hx hd _ _ _ hi hj, List.length_map]
      unfold hits
      exact (List.length_filter_le _ _).trans (by simp)
    · rintro ⟨s1, s2, s3, s4⟩ hne
      obtain ⟨b1, b2⟩ := h2 hne
      rw [C45_saturated _ _ _ _ _ (Or.inl rfl) _ _ _ _ hx hd _ _ _ hi hj s4
        (by rw [s3, mul_one]; exact b1) (by rw [s2, mul_one]; exact b2), s1]
  have habs : n (posOf p i j) ≠ 0 → 1 ≤ |(n (posOf p i j) : K)| := by
    intro h
    have : 1 ≤ |n (posOf p i j)| := Int.one_le_abs h
    exact_mod_cast this
  unfold BPar.bufWrite TPar.write
  rw [if_neg hlr.ne']
  by_cases hc : p.cols = true
  · have e1 : posOf p i j = i := by simp [posOf, hc]
    have e2 : sliceOf p i j = j := by simp [sliceOf, hc]
    simp only [hc, if_true, hneg, if_false]
    apply key
    · simp [unitVec, e1, e2]
    · intro h
      refine ⟨by simp [unitVec, e2], ?_⟩
      have := habs h
      rw [e1] at this
      simpa using this
    · simp [unitVec, e1, e2]
  · have e1 : posOf p i j = j := by simp [posOf, hc]
    have e2 : sliceOf p i j = i := by simp [sliceOf, hc]
    simp only [hc, Bool.false_eq_true, if_false, hneg]
    apply key
    · simp [unitVec, e1, e2]
    · intro h
      refine ⟨?_, by simp [unitVec, e2]⟩
      have := habs h
      rw [e1] at this
      simpa using this
    · simp [unitVec, e1, e2]

theorem bufOne_dev (F : Fns K) (p : BPar K) (dst src : Nat) (lr : K) (c : Nat) (w : WD K) (s : BS K)
    (k : Nat) :
    (p.bufOne F dst src lr c w s).ts.dev k =
      if k = dst ∧ (List.range p.outSize).any
          (fun o => decide ((bufRd p dst src lr c w s).n o ≠ 0)) then
        p.bufWrite F (s.ts.dev dst) c (p.step * p.gran dst) (bufRd p dst src lr c w s).n w
      else s.ts.dev k := by
  have e : (p.bufOne F dst src lr c w s).ts.dev =
      (if (List.range p.outSize).any (fun o => decide ((bufRd p dst src lr c w s).n o ≠ 0)) then
        s.ts.setDev dst (p.bufWrite F (s.ts.dev dst) c (p.step * p.gran dst)
          (bufRd p dst src lr c w s).n w)
      else s.ts).dev := rfl
  rw [e]
  by_cases h : ((List.range p.outSize).any
      (fun o => decide ((bufRd p dst src lr c w s).n o ≠ 0))) = true
  · rw [if_pos h]
    by_cases hk : k = dst
    · rw [if_pos ⟨hk, h⟩]; simp [TS.setDev, hk]
    · rw [if_neg (fun q => hk q.1)]; simp [TS.setDev, hk]
  · rw [if_neg h, if_neg (fun q => h q.2)]

/-- Pulses only see the fixed parts and the cell. -/
theorem pulses_st_congr (F : Fns K) (d e : Dev K) (l : List (P K)) (k : Nat) (h1 : d.kd = e.kd)
    (h2 : d.par = e.par) (h3 : d.cell = e.cell) (h4 : d.st k = e.st k) :
    (d.pulses F l).st k = (e.pulses F l).st k := by
  rw [pulses_st, pulses_st, h1, h2, h3, h4]

theorem forall₂_snoc {α β : Type} {R : α → β → Prop} {l : List α} {m : List β} {a : α} {b : β}
    (h : List.Forall₂ R l m) (hab : R a b) : List.Forall₂ R (l ++ [a]) (m ++ [b]) :=
  List.rel_append h (List.Forall₂.cons hab List.Forall₂.nil)

/-- The invariant behind the next theorems, for any relation established by one write. -/
theorem slow_inv (F : Fns K) (p : BPar K) (hin : 0 < p.inSize) (s : BS K) (hh : s.hist = [])
    (hs : ∀ k, s.ts.slice k < p.inSize) (us : List (Upd K)) (hu : ∀ u ∈ us, u.Unit)
    (src i j : Nat) (hsrc : src + 1 < p.n) (hi : i < p.dSize) (hj : j < p.xSize)
    (hst : 0 < p.step * p.gran (src + 1)) (R : Rd K → List (P K) → Prop)
    (hR : ∀ u ∈ us, ∀ (m : Nat) (r : Rd K) (l : List (P K)), Answers p i j r l →
      |r.n (posOf p i j)| ≤ (p.bl : ℤ) →
      ((u.dr src m).Single → r.n (posOf p i j) ≠ 0 → l.length = 1) → R r l) :
    ∃ L : List (List (P K)),
      List.Forall₂ R (readsOf p (p.bufRun F s us).hist src i j) L ∧
      (((p.bufRun F s us).ts.dev (src + 1)).st (i * p.xSize + j) =
        ((s.ts.dev (src + 1)).pulses F L.flatten).st (i * p.xSize + j)) := by
  have key := (bufRun_inv F p (fun t =>
    ((t.ts.dev (src + 1)).kd = (s.ts.dev (src + 1)).kd ∧
     (t.ts.dev (src + 1)).par = (s.ts.dev (src + 1)).par ∧
     (t.ts.dev (src + 1)).cell = (s.ts.dev (src + 1)).cell) ∧
    ∃ L : List (List (P K)), List.Forall₂ R (readsOf p t.hist src i j) L ∧
      ((t.ts.dev (src + 1)).st (i * p.xSize + j) =
        ((s.ts.dev (src + 1)).pulses F L.flatten).st (i * p.xSize + j))) hin us ?_ s
    ⟨⟨rfl, rfl, rfl⟩, [], by simp [hh, readsOf], rfl⟩ hs).1.2
  · exact key
  · intro u hmem
    constructor
    · rintro a ha n c t hc hsk ⟨⟨k1, k2, k3⟩, L, hL, hst'⟩
      have hsk' := skip_src F p hsk
      have hmin : min (a + 1) (p.n - 1) = a + 1 := min_eq_left (by omega)
      rw [hmin]
      obtain ⟨-, hx, hd⟩ := hu u hmem a n
      -- the device after the read
      obtain ⟨ns, hns⟩ : ∃ ns : Nat → ℤ, ns = fun o => p.steps (a + 1)
        (p.omega a c ((p.bufVirt F).lrOf (a + 1) a u.lr) (u.dr a n) t o) := ⟨_, rfl⟩
      have hdev : ((p.bufVirt F).one (a + 1) a ((p.bufVirt F).lrOf (a + 1) a u.lr) c (u.dr a n)
          t).ts.dev (src + 1) =
          if a = src ∧ (List.range p.outSize).any (fun o => decide (ns o ≠ 0)) then
            p.bufWrite F (t.ts.dev (src + 1)) c (p.step * p.gran (src + 1)) ns (u.dr a n)
          else t.ts.dev (src + 1) := by
        rw [hns]
        have := bufOne_dev F p (a + 1) a ((p.bufVirt F).lrOf (a + 1) a u.lr) c (u.dr a n) t (src + 1)
        by_cases hd : a = src
        · subst hd
          simp only [true_and] at this ⊢
          exact this
        · rw [if_neg (fun h => hd h.1)]
          rw [if_neg (fun h => hd (by omega))] at this
          exact this
      have hhist : ((p.bufVirt F).one (a + 1) a ((p.bufVirt F).lrOf (a + 1) a u.lr) c (u.dr a n)
          t).hist = t.hist ++ [⟨a, c, (u.dr a n).y, |(p.bufVirt F).lrOf (a + 1) a u.lr|,
            fun _ => false, ns⟩] := by
        subst hns; rfl
      have hsame : (((p.bufVirt F).one (a + 1) a ((p.bufVirt F).lrOf (a + 1) a u.lr) c (u.dr a n)
          t).ts.dev (src + 1)).kd = (s.ts.dev (src + 1)).kd ∧
          (((p.bufVirt F).one (a + 1) a ((p.bufVirt F).lrOf (a + 1) a u.lr) c (u.dr a n)
          t).ts.dev (src + 1)).par = (s.ts.dev (src + 1)).par ∧
          (((p.bufVirt F).one (a + 1) a ((p.bufVirt F).lrOf (a + 1) a u.lr) c (u.dr a n)
          t).ts.dev (src + 1)).cell = (s.ts.dev (src + 1)).cell := by
        rw [hdev]
        split_ifs
        · obtain ⟨b1, b2, b3⟩ := bufWrite_same F p (t.ts.dev (src + 1)) c
            (p.step * p.gran (src + 1)) ns (u.dr a n)
          exact ⟨b1.trans k1, b2.trans k2, b3.trans k3⟩
        · exact ⟨k1, k2, k3⟩
      refine ⟨hsame, ?_⟩
      rw [hdev, hhist, readsOf_append]
      by_cases hm : a = src ∧ c = sliceOf p i j
      · rw [if_pos hm]
        obtain ⟨rfl, rfl⟩ := hm
        obtain ⟨h1, h2, h3⟩ := slicePos p hi hj
        have hbd : |ns (posOf p i j)| ≤ (p.bl : ℤ) := by subst hns; exact clipSteps_abs _ _
        by_cases hany : ((List.range p.outSize).any fun o => decide (ns o ≠ 0)) = true
        · rw [if_pos ⟨rfl, hany⟩]
          obtain ⟨l, l1, l2, l3, l4, l5⟩ := bufWrite_cell F p (t.ts.dev (a + 1))
            (p.step * p.gran (a + 1)) hst ns (u.dr a n) hx hd i j hi hj
          refine ⟨L ++ [l], forall₂_snoc hL (hR u hmem n _ l ⟨l2, l3⟩ hbd l5), ?_⟩
          rw [l1, List.flatten_append, pulses_append]
          simp only [List.flatten_cons, List.flatten_nil, List.append_nil]
          exact pulses_st_congr F _ _ _ _ (by simp [k1]) (by simp [k2]) (by simp [k3]) hst'
        · rw [if_neg (fun h => hany h.2)]
          have hz : ns (posOf p i j) = 0 := by
            by_contra hne
            apply hany
            rw [List.any_eq_true]
            exact ⟨_, List.mem_range.2 h2, by simpa using hne⟩
          refine ⟨L ++ [[]], forall₂_snoc hL (hR u hmem n _ [] ⟨by simp, fun _ => rfl⟩ hbd
            (fun _ h => absurd hz h)), ?_⟩
          rw [hst', List.flatten_append]
          simp
      · rw [if_neg hm, List.append_nil]
        refine ⟨L, hL, ?_⟩
        by_cases hw : a = src ∧ ((List.range p.outSize).any fun o => decide (ns o ≠ 0)) = true
        · rw [if_pos hw, bufWrite_other F p _ c _ _ _ hx hd i j hi hj
            (fun e => hm ⟨hw.1, e.symm⟩)]
          exact hst'
        · rw [if_neg hw]; exact hst'
    · exact fun t a b h => h
    · exact fun t h => by
        have e : ((p.bufVirt F).begin F t u).ts.dev (src + 1) = t.ts.dev (src + 1) := by
          simp [Virt.begin, TS.setDev]
        rw [e]; exact h
    · exact fun t h => h

/-! ## Properties -/

/-- **C52 (what the slow device receives).**  For every history (uniform draws in `[0, 1)`), weight
`(i, j)` of device `src + 1` has been changed by nothing but one group of pulses per read of this
weight from device `src`, in the order of the reads; the pulses of a group all go in the direction of
the requested steps, and a read that requests no step at this weight sends none. -/
theorem C52_slow_device (F : Fns K) (p : BPar K) (hin : 0 < p.inSize) (s : BS K) (hh : s.hist = [])
    (hs : ∀ k, s.ts.slice k < p.inSize) (us : List (Upd K)) (hu : ∀ u ∈ us, u.Unit)
    (src i j : Nat) (hsrc : src + 1 < p.n) (hi : i < p.dSize) (hj : j < p.xSize)
    (hst : 0 < p.step * p.gran (src + 1)) :
    ∃ L : List (List (P K)),
      List.Forall₂ (Answers p i j) (readsOf p (p.bufRun F s us).hist src i j) L ∧
      (((p.bufRun F s us).ts.dev (src + 1)).st (i * p.xSize + j) =
        ((s.ts.dev (src + 1)).pulses F L.flatten).st (i * p.xSize + j)) :=
  slow_inv F p hin s hh hs us hu src i j hsrc hi hj hst _ fun _ _ _ _ _ h _ _ => h

/-- **C52 (exact pulse balance).**  In the default setting (`desired_BL = 1`, `step = 1`, hence one
slot with both firing probabilities one), the slow device receives exactly the requested steps: the
number of up pulses minus the number of down pulses on weight `(i, j)` equals the total number of
requested steps, and there is no wasted pulse pair within a read. -/
theorem C52_exact_pulses (F : Fns K) (p : BPar K) (hbl : p.bl = 1) (hin : 0 < p.inSize) (s : BS K)
    (hh : s.hist = []) (hs : ∀ k, s.ts.slice k < p.inSize) (us : List (Upd K))
    (hu : ∀ u ∈ us, u.Unit) (hsing : ∀ u ∈ us, ∀ a m, (u.dr a m).Single)
    (src i j : Nat) (hsrc : src + 1 < p.n) (hi : i < p.dSize) (hj : j < p.xSize)
    (hst : 0 < p.step * p.gran (src + 1)) :
    ∃ l : List (P K),
      (∀ q ∈ l, q.k = i * p.xSize + j) ∧
      (((p.bufRun F s us).ts.dev (src + 1)).st (i * p.xSize + j) =
        ((s.ts.dev (src + 1)).pulses F l).st (i * p.xSize + j)) ∧
      ((l.countP fun q => !q.down : Nat) : ℤ) - (l.countP fun q => q.down : Nat) =
        sent p (p.bufRun F s us).hist src i j ∧
      l.length ≤ (readsOf p (p.bufRun F s us).hist src i j).length := by
  have hR : ∀ u ∈ us, ∀ (m : Nat) (r : Rd K) (l : List (P K)), Answers p i j r l →
      |r.n (posOf p i j)| ≤ (p.bl : ℤ) →
      ((u.dr src m).Single → r.n (posOf p i j) ≠ 0 → l.length = 1) →
      ((∀ q ∈ l, q.k = i * p.xSize + j) ∧ l.length ≤ 1 ∧
      ((l.countP fun q => !q.down : Nat) : ℤ) - (l.countP fun q => q.down : Nat) =
        r.n (posOf p i j)) := by
    intro u hmem m r l hA hb hlen
    refine ⟨fun q hq => (hA.1 q hq).1, ?_, ?_⟩
    · by_cases h0 : r.n (posOf p i j) = 0
      · simp [hA.2 h0]
      · exact (hlen (hsing u hmem _ _) h0).le
    · by_cases h0 : r.n (posOf p i j) = 0
      · simp [hA.2 h0, h0]
      · have h1 := hlen (hsing u hmem _ _) h0
        obtain ⟨q, rfl⟩ := List.length_eq_one_iff.1 h1
        have hq := (hA.1 q (List.mem_singleton.2 rfl)).2
        rw [hbl] at hb
        rw [abs_le] at hb
        by_cases hneg : r.n (posOf p i j) < 0
        · rw [decide_eq_true hneg] at hq
          simp only [List.countP_cons, List.countP_nil, hq]
          simp only [Bool.not_true, Bool.false_eq_true, if_false, if_true]
          push_cast
          omega
        · rw [decide_eq_false hneg] at hq
          simp only [List.countP_cons, List.countP_nil, hq]
          simp only [Bool.not_false, Bool.false_eq_true, if_false, if_true]
          push_cast
          omega
  obtain ⟨L, hL, h⟩ := slow_inv F p hin s hh hs us hu src i j hsrc hi hj hst
    (fun r l => (∀ q ∈ l, q.k = i * p.xSize + j) ∧ l.length ≤ 1 ∧
      ((l.countP fun q => !q.down : Nat) : ℤ) - (l.countP fun q => q.down : Nat) =
        r.n (posOf p i j)) hR
  unfold sent
  generalize readsOf p (p.bufRun F s us).hist src i j = rs at hL ⊢
  refine ⟨L.flatten, ?_, h, ?_, ?_⟩
  · clear h
    induction hL with
    | nil => simp
    | cons h1 _ ih =>
      intro q hq
      rw [List.flatten_cons, List.mem_append] at hq
      rcases hq with hq | hq
      · exact h1.1 q hq
      · exact ih q hq
  · clear h
    induction hL with
    | nil => simp
    | cons h1 _ ih =>
      rw [List.flatten_cons, List.countP_append, List.countP_append, List.map_cons,
        List.sum_cons, ← ih, ← h1.2.2]
      push_cast
      ring
  · clear h
    induction hL with
    | nil => simp
    | cons h1 _ ih =>
      rw [List.flatten_cons, List.length_append, List.length_cons]
      have := h1.2.1
      omega

/-- The schedule part of a state. -/
def SameSchedule (a b : TS K) : Prop := a.slice = b.slice ∧ a.idx = b.idx ∧ a.log = b.log

theorem bufLR_zero (p : BPar K) (dst src : Nat) (cur : K) :
    p.bufLR dst src cur = 0 ↔ p.transferLR src cur = 0 := by
  unfold BPar.bufLR
  split_ifs with h
  · rw [mul_eq_zero, div_eq_zero_iff]
    constructor
    · rintro (h1 | h1 | h1)
      · exact h1
      · exact absurd h1 h.2.ne'
      · exact absurd h1 h.1.ne'
    · exact Or.inl
  · rfl

theorem bufRead_sched (F : Fns K) (p : BPar K) (src : Nat) (hsrc : src < p.n) (cur : K)
    (start nVec : Nat) (dr dr' : Nat → WD K) (s : BS K) (t : TS K) (h : SameSchedule s.ts t) :
    SameSchedule ((p.bufVirt F).readAndUpdate (min (src + 1) (p.n - 1)) src
      ((p.bufVirt F).lrOf (min (src + 1) (p.n - 1)) src cur) start nVec dr s).ts
      (p.readAndUpdate F (min (src + 1) (p.n - 1)) src (p.transferLR src cur) start nVec dr' t) := by
  obtain ⟨a1, a2, a3⟩ := readAndUpdate_frame F p.toTPar (min (src + 1) (p.n - 1)) src
    (p.transferLR src cur) start nVec dr' t
  obtain ⟨h1, h2, h3⟩ := h
  unfold SameSchedule
  rw [a1, a2, a3]
  unfold Virt.readAndUpdate
  have hz := bufLR_zero p (min (src + 1) (p.n - 1)) src cur
  have hsk : ((p.bufVirt F).skip (min (src + 1) (p.n - 1)) src
      ((p.bufVirt F).lrOf (min (src + 1) (p.n - 1)) src cur) = true) ↔
      (p.transferLR src cur = 0 ∨ min (src + 1) (p.n - 1) = src) := by
    simp only [BPar.bufVirt, Bool.or_eq_true, decide_eq_true_eq, hz]
    constructor
    · rintro ((h | h) | h)
      · exact Or.inl h
      · exact Or.inr h
      · exact Or.inr (by omega)
    · rintro (h | h)
      · exact Or.inl (Or.inl h)
      · exact Or.inl (Or.inr h)
  by_cases hk : p.transferLR src cur = 0 ∨ min (src + 1) (p.n - 1) = src
  · rw [if_pos (hsk.2 hk), if_pos hk, List.append_nil]
    exact ⟨h1, h2, h3⟩
  · rw [if_neg (fun e => hk (hsk.1 e)), if_neg hk]
    have : ∀ (l : List Nat) (s : BS K),
        (l.foldl (fun s i => (p.bufVirt F).one (min (src + 1) (p.n - 1)) src
          ((p.bufVirt F).lrOf (min (src + 1) (p.n - 1)) src cur) (start + i) (dr i) s) s).ts.slice =
          s.ts.slice ∧
        (l.foldl (fun s i => (p.bufVirt F).one (min (src + 1) (p.n - 1)) src
          ((p.bufVirt F).lrOf (min (src + 1) (p.n - 1)) src cur) (start + i) (dr i) s) s).ts.idx =
          s.ts.idx ∧
        (l.foldl (fun s i => (p.bufVirt F).one (min (src + 1) (p.n - 1)) src
          ((p.bufVirt F).lrOf (min (src + 1) (p.n - 1)) src cur) (start + i) (dr i) s) s).ts.log =
          s.ts.log ++ l.map fun i => (src, min (src + 1) (p.n - 1), start + i) := by
      intro l
      induction l with
      | nil => intro s; simp
      | cons i l ih =>
        intro s
        rw [List.foldl_cons]
        obtain ⟨b1, b2, b3⟩ := ih ((p.bufVirt F).one (min (src + 1) (p.n - 1)) src
          ((p.bufVirt F).lrOf (min (src + 1) (p.n - 1)) src cur) (start + i) (dr i) s)
        rw [b1, b2, b3]
        simp only [BPar.bufVirt, BPar.bufOne]
        refine ⟨?_, ?_, ?_⟩ <;> split_ifs <;> simp [TS.setDev]
    obtain ⟨b1, b2, b3⟩ := this (List.range nVec) s
    rw [b1, b2, b3, h1, h2, h3]
    exact ⟨rfl, rfl, rfl⟩

theorem bufTransfer_sched (F : Fns K) (p : BPar K) (src : Nat) (hsrc : src < p.n) (cur : K)
    (dr dr' : Nat → WD K) (s : BS K) (t : TS K) (h : SameSchedule s.ts t) :
    SameSchedule ((p.bufVirt F).transfer p.toTPar (min (src + 1) (p.n - 1)) src cur dr s).ts
      (p.toTPar.transfer F (min (src + 1) (p.n - 1)) src cur dr' t) := by
  unfold Virt.transfer TPar.transfer
  have hsl : s.ts.slice src = t.slice src := by rw [h.1]
  rw [hsl]
  by_cases hc : p.inSize - t.slice src < min p.nReads p.inSize
  · simp only [hc, if_true]
    have r1 := bufRead_sched F p src hsrc cur (t.slice src) (p.inSize - t.slice src) dr dr' s t h
    have r2 := bufRead_sched F p src hsrc cur 0 (min p.nReads p.inSize - (p.inSize - t.slice src))
      (fun k => dr (p.inSize - t.slice src + k)) (fun k => dr' (p.inSize - t.slice src + k)) _ _ r1
    obtain ⟨a, b, c⟩ := r2
    refine ⟨?_, b, c⟩
    simp only [BS.setSliceIdx]
    rw [a]
  · simp only [hc, if_false]
    obtain ⟨a, b, c⟩ := bufRead_sched F p src hsrc cur (t.slice src) (min p.nReads p.inSize) dr dr'
      s t h
    refine ⟨?_, b, c⟩
    simp only [BS.setSliceIdx]
    rw [a]

theorem bufUpdate_sched (F : Fns K) (p : BPar K) (s : BS K) (t : TS K) (u : Upd K)
    (h : SameSchedule s.ts t) :
    SameSchedule ((p.bufVirt F).update F p.toTPar s u).ts (p.toTPar.update F t u) := by
  have key : ∀ l : List Nat, (∀ j ∈ l, j < p.n) → ∀ (s : BS K) (t : TS K), SameSchedule s.ts t →
      SameSchedule (l.foldl ((p.bufVirt F).maybe p.toTPar u.lr u.mBatch u.dr) s).ts
        (l.foldl (p.toTPar.maybeTransfer F u.lr u.mBatch u.dr) t) := by
    intro l
    induction l with
    | nil => intro _ s t h; exact h
    | cons j l ih =>
      intro hl s t h
      rw [List.foldl_cons, List.foldl_cons]
      apply ih (fun k hk => hl k (List.mem_cons_of_mem _ hk))
      unfold Virt.maybe TPar.maybeTransfer
      rw [show s.ts.idx = t.idx from h.2.1]
      by_cases hc : 0 < p.toTPar.getEvery j u.mBatch ∧ t.idx % p.toTPar.getEvery j u.mBatch = 0
      · rw [if_pos hc, if_pos (show 0 < (p.bufVirt F).ev j u.mBatch ∧
          t.idx % (p.bufVirt F).ev j u.mBatch = 0 from hc)]
        exact bufTransfer_sched F p j (hl j (List.mem_cons_self ..)) u.lr (u.dr j) (u.dr j) s t h
      · rw [if_neg hc, if_neg (show ¬ (0 < (p.bufVirt F).ev j u.mBatch ∧
          t.idx % (p.bufVirt F).ev j u.mBatch = 0) from hc)]
        exact h
  have hb : SameSchedule ((p.bufVirt F).begin F s u).ts
      { t.setDev 0 ((t.dev 0).pulses F u.sgd) with idx := t.idx + 1 } := by
    obtain ⟨h1, h2, h3⟩ := h
    refine ⟨?_, ?_, ?_⟩ <;> simp [Virt.begin, TS.setDev, h1, h2, h3]
  exact key (List.range p.n) (fun j hj => List.mem_range.1 hj) _ _ hb

/-- **C52 (same schedule as the plain transfer compound).**  With the same parameters and the same
learning rates and batch sizes, a buffered compound reads the same columns (rows) of the same devices
at the same updates as the plain transfer compound, whatever is read and written. -/
theorem C52_same_schedule (F : Fns K) (p : BPar K) (s : BS K) (us : List (Upd K)) :
    (p.bufRun F s us).ts.log = (p.toTPar.run F s.ts us).log ∧
    (p.bufRun F s us).ts.idx = (p.toTPar.run F s.ts us).idx ∧
    (p.bufRun F s us).ts.slice = (p.toTPar.run F s.ts us).slice := by
  have key : ∀ (us : List (Upd K)) (s : BS K) (t : TS K), SameSchedule s.ts t →
      SameSchedule (p.bufRun F s us).ts (p.toTPar.run F t us) := by
    intro us
    induction us with
    | nil => intro s t h; exact h
    | cons u us ih =>
      intro s t h
      exact ih _ _ (bufUpdate_sched F p s t u h)
  obtain ⟨a, b, c⟩ := key us s s.ts ⟨rfl, rfl, rfl⟩
  exact ⟨c, b, a⟩

/-- **C52 (schedule).**  `C34_schedule` for the buffered compound: with period `e` and a transfer
learning rate that is not zero, device `src` is read column by column (row by row), `0, 1, 2, …`
modulo the number of columns, `n_reads_per_transfer` of them for each of the `⌊|us| / e⌋` transfers. -/
theorem C52_schedule (F : Fns K) (p : BPar K) (hin : 0 < p.inSize) (hn : p.nReads ≤ p.inSize)
    (s : BS K) (h0 : s.ts.idx = 0) (hsl : ∀ k, s.ts.slice k = 0) (hlog : s.ts.log = [])
    (us : List (Upd K)) (src e : Nat) (hj : src + 1 < p.n) (he : 0 < e)
    (hev : ∀ u ∈ us, p.getEvery src u.mBatch = e) (hlr : ∀ u ∈ us, p.transferLR src u.lr ≠ 0) :
    reads (p.bufRun F s us).ts src =
      (List.range (p.nReads * (us.length / e))).map (· % p.inSize) := by
  have h := (C34_schedule F p.toTPar hin hn s.ts h0 hsl hlog us src e hj he hev hlr).1
  rw [← h]
  unfold reads
  rw [(C52_same_schedule F p s us).1]

/-- The ghost history and the log of the base class agree. -/
theorem C52_history_is_log (F : Fns K) (p : BPar K) (hin : 0 < p.inSize) (s : BS K)
    (hh : s.hist = []) (hlog : s.ts.log = []) (hs : ∀ k, s.ts.slice k < p.inSize)
    (us : List (Upd K)) :
    (p.bufRun F s us).hist.map (fun r => (r.src, r.src + 1, r.c)) = (p.bufRun F s us).ts.log := by
  refine (bufRun_inv F p (fun t => t.hist.map (fun r => (r.src, r.src + 1, r.c)) = t.ts.log) hin us
    ?_ s (by simp [hh, hlog]) hs).1
  intro u _
  constructor
  · intro a ha n c t hc hsk hI
    have hsk' := skip_src F p hsk
    have hmin : min (a + 1) (p.n - 1) = a + 1 := min_eq_left (by omega)
    rw [hmin]
    show (t.hist ++ [bufRd p (a + 1) a _ c _ t]).map _ = _
    rw [List.map_append, hI]
    simp only [BPar.bufVirt, BPar.bufOne]
    split_ifs <;> simp [TS.setDev, bufRd]
  · exact fun t a b h => h
  · exact fun t h => h
  · exact fun t h => h

/-- **C52 (finding: `set_weights` keeps the buffers).**  Setting the weights restarts the schedule but
leaves the digital buffers of earlier training in place. -/
theorem C52_set_weights_keeps_buffer (F : Fns K) (p : BPar K) (s s' : BS K) (v : Nat → K)
    (g : Nat → Nat → K) (h : p.setWeights (p.bufVirt F).red s v g = .ok s') :
    s'.buf = s.buf ∧ s'.ts.idx = 0 ∧ ∀ k, s'.ts.slice k = 0 := by
  unfold BPar.setWeights at h
  cases ht : p.toTPar.setWeights s.ts v g with
  | error e => rw [ht] at h; simp at h
  | ok t =>
    rw [ht] at h
    simp only [Except.ok.injEq] at h
    have hc : t.idx = 0 ∧ ∀ k, t.slice k = 0 := by
      unfold TPar.setWeights at ht
      by_cases h1 : p.fullyHidden = true
      · simp only [h1, if_true] at ht
        rw [← Except.ok.inj ht]
        exact ⟨rfl, fun _ => rfl⟩
      · simp only [h1, Bool.false_eq_true, if_false] at ht
        by_cases h2 : p.gamma (p.n - 1) = 0
        · rw [if_pos h2] at ht; cases ht
        · rw [if_neg h2] at ht
          rw [← Except.ok.inj ht]
          exact ⟨rfl, fun _ => rfl⟩
    subst h
    split_ifs
    · exact ⟨rfl, hc⟩
    · exact ⟨rfl, hc⟩

end Aihw.Pulsed

import Verif.GpuIo.Props

/-!
# Rounds of bound management
-/
open scoped BigOperators

namespace Aihw.GpuIo

open Aihw.CppFwd (MVPar)
open Aihw.GpuNm (place nBlocks Man Req)

variable {K : Type} [Field K] [LinearOrder K] [IsStrictOrderedRing K] [FloorRing K]
variable {c : Ctx K} {sq : K → K}

theorem counts_eq (c : Ctx K) (v : K) : c.counts v = Spec.beyond c.io (decide (c.m = 1)) v := by
  unfold Ctx.counts Spec.beyond above below
  cases c.io.outBound with
  | none => rfl
  | some b =>
    dsimp only [Option.elim]
    by_cases h : b < v
    · rw [decide_eq_true h, Bool.true_or, Bool.true_or]
    · rw [decide_eq_false h, Bool.false_or, Bool.false_or, if_neg h]
      by_cases hm : c.m = 1
      · rw [if_pos hm, decide_eq_true hm]; cases c.io.bmTestNeg <;> rfl
      · rw [if_neg hm, decide_eq_false hm]; cases c.io.bmTestNeg <;> rfl

/-- The value of noise management of a sample. -/
def Ctx.nmOf (c : Ctx K) (man : Man K) (b : ℕ) : Option K :=
  if c.io.nm ≠ .none then some ((man.values.getD fun _ => 0) b) else none

/-- Whether a sample exceeds the bound with a scale and the random numbers of a round. -/
def Ctx.exceeds (c : Ctx K) (sq : K → K) (D : ℕ → Draws K) (x : Arr K) (b k : ℕ) (s : K) : Bool :=
  (List.range c.nOut).any fun i => Spec.beyond c.io (decide (c.m = 1))
    (Spec.values c.io sq c.p c.nIn (c.mat c.W) s (c.drawsOf (D k) b)
      (fun j => x (place c.inT c.nIn c.m b j)) i)

/-- The scale of a sample in a round. -/
def Ctx.scaleIn (c : Ctx K) (sq : K → K) (D : ℕ → Draws K) (x : Arr K) (man : Man K) (b k : ℕ) : K :=
  Spec.scaleAt (decide (c.m = 1)) (c.nmOf man b) (c.exceeds sq D x b) k

/-- Whether a sample exceeds the bound in a round. -/
def Ctx.over (c : Ctx K) (sq : K → K) (D : ℕ → Draws K) (x : Arr K) (man : Man K) (b k : ℕ) : Bool :=
  c.exceeds sq D x b k (c.scaleIn sq D x man b k)

/-- Before round `k`. -/
structure Head (c : Ctx K) (sq : K → K) (D : ℕ → Draws K) (x : Arr K) (man : Man K) (k : ℕ) (s : St K) :
    Prop where
  hman : s.man = man
  red : s.red = 2 ^ k / 2
  round : s.round = k
  inPN : s.inPN = false
  scales : ∀ k' : ℕ, k = k' + 1 → ∀ b : ℕ, b < c.m → s.scales b = c.scaleIn sq D x man b k'
  exceeded : ∀ k' : ℕ, k = k' + 1 → ∀ b : ℕ, b < c.m → s.exceeded b = c.over sq D x man b k'

theorem head_scales (hbm : c.io.bm = .iterative) (D : ℕ → Draws K) (x : Arr K) (man : Man K)
    (htype : man.type = c.io.nm) (hval : c.io.nm ≠ .none → ∃ v : ℕ → K, man.values = some v) (k : ℕ)
    (s : St K) (h : Head c sq D x man k s) (b : ℕ) (hb : b < c.m) :
    c.roundScales { s with red := s.red * 2, round := s.round + 1 } b = c.scaleIn sq D x man b k := by
  unfold Ctx.roundScales Ctx.scaleIn
  dsimp only
  have hred : s.red * 2 = 2 ^ k := by rw [h.red]; exact div_mul_cancel₀ _ two_ne_zero
  rw [h.hman, h.round, hred]
  by_cases hm : c.m = 1
  · have hb0 : b = 0 := by omega
    subst hb0
    rw [if_pos hm, decide_eq_true hm]
    have e : (if c.io.nm ≠ .none then (man.values.getD fun _ => 0) 0 else 1) = (c.nmOf man 0).getD 1 := by
      unfold Ctx.nmOf
      split <;> rfl
    rw [e]
    cases k with
    | zero => rw [pow_zero, mul_one]; rfl
    | succ k => unfold Spec.scaleAt; rw [if_pos rfl]
  · rw [if_neg hm, decide_eq_false hm]
    cases k with
    | zero =>
      rw [if_pos rfl]
      unfold Spec.scaleAt Ctx.nmOf
      split <;> rfl
    | succ k =>
      rw [if_neg (by omega)]
      have hs := h.scales k rfl b hb
      have he := h.exceeded k rfl b hb
      unfold Ctx.scaleIn at hs
      unfold Ctx.over Ctx.scaleIn at he
      rw [decide_eq_false hm] at hs he
      unfold Spec.scaleAt rescale
      rw [if_neg Bool.false_ne_true, he, hs]
      by_cases hx : c.exceeds sq D x b k (Spec.scaleAt false (c.nmOf man b) (c.exceeds sq D x b) k) = true
      · rw [if_pos ⟨hb, hx⟩, if_pos hx]
        by_cases hn : c.io.nm = .none
        · have e : man.values = none := by unfold Man.values; rw [htype, hn]
          have e' : c.nmOf man b = none := by unfold Ctx.nmOf; rw [if_neg (not_not.mpr hn)]
          rw [e, e']
          rfl
        · obtain ⟨v, e⟩ := hval hn
          have e' : c.nmOf man b = some (v b) := by unfold Ctx.nmOf; rw [if_pos hn, e]; rfl
          rw [e, e']
          rfl
      · rw [if_neg (fun hh => hx hh.2), if_neg hx]

theorem sum_samples (c : Ctx K) (over : ℕ → Bool) (b : ℕ) (hb : b < c.m) :
    ((List.range (c.nOut * c.m)).any fun idx => over idx && decide (sampleOf c.outT c.m c.nOut idx = b)) =
      (List.range c.nOut).any fun i => over (place c.outT c.nOut c.m b i) := by
  rw [Bool.eq_iff_iff, List.any_eq_true, List.any_eq_true]
  constructor
  · rintro ⟨idx, hm, h⟩
    rw [Bool.and_eq_true, decide_eq_true_iff] at h
    rw [List.mem_range] at hm
    have h0 : 0 < c.nOut := Nat.pos_of_ne_zero fun hh => by rw [hh, Nat.zero_mul] at hm; omega
    refine ⟨outputOf c.outT c.m c.nOut idx, List.mem_range.mpr ?_, ?_⟩
    · unfold outputOf
      cases c.outT with
      | true => rw [if_pos rfl]; exact Nat.div_lt_of_lt_mul (by rw [Nat.mul_comm]; exact hm)
      | false => rw [if_neg Bool.false_ne_true]; exact Nat.mod_lt _ h0
    · rw [show place c.outT c.nOut c.m b (outputOf c.outT c.m c.nOut idx) = idx from ?_]
      · exact h.1
      · rw [← h.2]
        unfold place outputOf sampleOf
        cases c.outT
        · simp only [Bool.false_eq_true, if_false]; exact Nat.div_add_mod' _ _
        · simp only [if_true]; exact Nat.div_add_mod' _ _
  · rintro ⟨i, hm, h⟩
    rw [List.mem_range] at hm
    refine ⟨place c.outT c.nOut c.m b i, List.mem_range.mpr (place_lt hb hm), ?_⟩
    rw [Bool.and_eq_true, decide_eq_true_iff]
    exact ⟨h, sampleOf_place hb hm⟩

theorem value_congr (io : CppFwd.IO K) (p : MVPar K) (n : ℕ) (w : ℕ → ℕ → K) (s : K)
    (dr : CppFwd.Draws K) (x xin : ℕ → K)
    (h : ∀ j : ℕ, j < n → xin j = Spec.input io (some s) (dr.inU j) (dr.inG j) (x j)) (i : ℕ) :
    Spec.adc io p true i (dr.outU true i) (dr.outG true i) (io.singlePass sq p n w xin (dr.wG true) i) =
      Spec.values io sq p n w s dr x i := by
  unfold Spec.values
  rw [singlePass_congr io p n w xin _ _ h]

theorem round_step (hbm : c.io.bm = .iterative) (hp : c.io.mvType = .onePass)
    (hsq : ∀ a v : K, 0 ≤ a → sq (a * a * v) = a * sq v) (D : ℕ → Draws K) (x : Arr K) (man : Man K)
    (htype : man.type = c.io.nm) (hval : c.io.nm ≠ .none → ∃ v : ℕ → K, man.values = some v)
    (nth : ℕ) (lowest : K) (junk out : Arr K) (r : Req K) (k : ℕ) (s : St K) (h : Head c sq D x man k s) :
    ∃ z : Arr K × St K × Bool, c.round nth lowest sq (D k) junk r x out s = .ok z ∧
      Head c sq D x man (k + 1) z.2.1 ∧
      (z.2.2 = true ↔ (∀ b : ℕ, b < c.m → c.over sq D x man b k = false) ∨ Spec.atLimit c.io k) ∧
      ∀ b i : ℕ, b < c.m → i < c.nOut → z.1 (place c.outT c.nOut c.m b i) = c.alpha * c.io.outScale *
        Spec.back (some (c.scaleIn sq D x man b k)) (Spec.limitTo c.io.outBound
          (Spec.values c.io sq c.p c.nIn (c.mat c.W) (c.scaleIn sq D x man b k) (c.drawsOf (D k) b)
            (fun j => x (place c.inT c.nIn c.m b j)) i)) := by
  have hne : c.io.bm ≠ .none := by rw [hbm]; exact fun hh => by cases hh
  have hw : ¬c.io.bm = .worstCase := by rw [hbm]; exact fun hh => by cases hh
  have hnext : c.nextRound nth lowest r s = .ok { s with red := s.red * 2, round := s.round + 1 } := by
    unfold Ctx.nextRound
    dsimp only
    rw [if_neg (fun hh => hw hh.2)]
  unfold Ctx.round
  rw [if_pos hne, hnext]
  dsimp only
  have hsc := head_scales hbm D x man htype hval k s h
  generalize hs1 : ({ s with red := s.red * 2, round := s.round + 1 } : St K) = s1 at hsc
  have hin1 : s1.inPN = false := by rw [← hs1]; exact h.inPN
  have hman1 : s1.man = man := by rw [← hs1]; exact h.hman
  have hred1 : s1.red = 2 ^ k := by
    rw [← hs1]; show s.red * 2 = _; rw [h.red]; exact div_mul_cancel₀ _ two_ne_zero
  have hround1 : s1.round = k + 1 := by rw [← hs1]; show s.round + 1 = _; rw [h.round]
  unfold Ctx.analogMV
  rw [hp]
  refine ⟨_, rfl, ?_⟩
  generalize hs2 : c.inputBM (D k) x s1 = s2
  have hsc2 : s2.scales = c.roundScales s1 := by rw [← hs2]; rfl
  have hex2 : s2.exceeded = fun _ => false := by rw [← hs2]; rfl
  have hany2 : s2.any = false := by rw [← hs2]; rfl
  have hset : ∀ v : Arr K, s1.setIn v = { s1 with buf := v } := by
    intro v; unfold St.setIn; rw [hin1]; rfl
  have hin2 : s2.inPN = false := by rw [← hs2]; unfold Ctx.inputBM; dsimp only; rw [hset]; exact hin1
  have hman2 : s2.man = man := by rw [← hs2]; unfold Ctx.inputBM; dsimp only; rw [hset]; exact hman1
  have hred2 : s2.red = 2 ^ k := by rw [← hs2]; unfold Ctx.inputBM; dsimp only; rw [hset]; exact hred1
  have hround2 : s2.round = k + 1 := by rw [← hs2]; unfold Ctx.inputBM; dsimp only; rw [hset]; exact hround1
  have hbuf : ∀ b j : ℕ, b < c.m → j < c.nIn → view c.inT c.nIn c.m s2.inBuf b j =
      Spec.input c.io (some (c.scaleIn sq D x man b k)) ((c.drawsOf (D k) b).inU j)
        ((c.drawsOf (D k) b).inG j) (x (place c.inT c.nIn c.m b j)) := by
    intro b j hb hj
    have e : s2.inBuf = mapTo (c.nIn * c.m) (fun idx =>
        inputBody c.io (some (c.roundScales s1 (sampleOf c.inT c.m c.nIn idx))) ((D k).inU idx)
          ((D k).inG idx)) x s1.inBuf := by
      unfold St.inBuf
      rw [hin2, if_neg Bool.false_ne_true, ← hs2]
      unfold Ctx.inputBM
      dsimp only
      rw [hset]
      unfold St.inBuf
      rfl
    rw [e, mapTo_view hb hj, sampleOf_place hb hj, hsc b hb, inputBody_eq]
    rfl
  have hval2 : ∀ b i : ℕ, b < c.m → i < c.nOut →
      Spec.adc c.io c.p true i (view c.outT c.nOut c.m ((D k).outU true) b i)
        (view c.outT c.nOut c.m ((D k).outG true) b i)
        (view c.outT c.nOut c.m (c.singlePass sq c.W ((D k).wG true) s2.inBuf junk) b i) =
      Spec.values c.io sq c.p c.nIn (c.mat c.W) (c.scaleIn sq D x man b k) (c.drawsOf (D k) b)
        (fun j => x (place c.inT c.nIn c.m b j)) i := by
    intro b i hb hi
    rw [singlePass_view c hsq _ _ _ _ hb hi]
    exact value_congr c.io c.p c.nIn (c.mat c.W) _ (c.drawsOf (D k) b) _ _ (fun j hj => hbuf b j hb hj) i
  generalize c.singlePass sq c.W ((D k).wG true) s2.inBuf junk = v at hval2
  have hfin : c.finalize ((D k).outU true) ((D k).outG true) v out s2 =
      (c.outputBM c.std ((D k).outU true) ((D k).outG true) (c.prepared ((D k).outG true) v) out s2,
        c.markBM c.std ((D k).outU true) ((D k).outG true) (c.prepared ((D k).outG true) v) s2,
        c.passed (c.markBM c.std ((D k).outU true) ((D k).outG true) (c.prepared ((D k).outG true) v) s2)) := by
    unfold Ctx.finalize
    rw [if_pos hne]
    rfl
  have hover : ∀ b : ℕ, b < c.m → ((List.range c.nOut).any fun i =>
      c.counts (converted c.io c.std ((D k).outU true (place c.outT c.nOut c.m b i))
        ((D k).outG true (place c.outT c.nOut c.m b i))
        (c.prepared ((D k).outG true) v (place c.outT c.nOut c.m b i)))) = c.over sq D x man b k := by
    intro b hb
    unfold Ctx.over Ctx.exceeds
    have e : ∀ i : ℕ, i < c.nOut → c.counts (converted c.io c.std
        ((D k).outU true (place c.outT c.nOut c.m b i)) ((D k).outG true (place c.outT c.nOut c.m b i))
        (c.prepared ((D k).outG true) v (place c.outT c.nOut c.m b i))) =
        Spec.beyond c.io (decide (c.m = 1)) (Spec.values c.io sq c.p c.nIn (c.mat c.W)
          (c.scaleIn sq D x man b k) (c.drawsOf (D k) b) (fun j => x (place c.inT c.nIn c.m b j)) i) := by
      intro i hi
      rw [counts_eq]
      congr 1
      rw [← hval2 b i hb hi]
      exact converted_view c _ _ v hb hi
    rw [Bool.eq_iff_iff, List.any_eq_true, List.any_eq_true]
    constructor
    · rintro ⟨i, hi, hx⟩
      exact ⟨i, hi, (e i (List.mem_range.mp hi)).symm.trans hx⟩
    · rintro ⟨i, hi, hx⟩
      exact ⟨i, hi, (e i (List.mem_range.mp hi)).trans hx⟩
  have hmark : ∀ b : ℕ, b < c.m →
      (c.markBM c.std ((D k).outU true) ((D k).outG true) (c.prepared ((D k).outG true) v) s2).exceeded b =
        c.over sq D x man b k := by
    intro b hb
    unfold Ctx.markBM
    dsimp only
    rw [hex2, Bool.false_or, sum_samples c _ b hb, hover b hb]
  have hanyb : ((c.markBM c.std ((D k).outU true) ((D k).outG true)
      (c.prepared ((D k).outG true) v) s2).any = true ↔ ∃ b : ℕ, b < c.m ∧ c.over sq D x man b k = true) := by
    unfold Ctx.markBM
    dsimp only
    rw [hany2, Bool.false_or]
    constructor
    · intro hh
      obtain ⟨idx, hm, hx⟩ := List.any_eq_true.mp hh
      rw [List.mem_range] at hm
      have h0 : 0 < c.m := Nat.pos_of_ne_zero fun e => by rw [e, Nat.mul_zero] at hm; omega
      have hb : sampleOf c.outT c.m c.nOut idx < c.m := by
        unfold sampleOf
        cases c.outT with
        | true => rw [if_pos rfl]; exact Nat.mod_lt _ h0
        | false => rw [if_neg Bool.false_ne_true]; exact Nat.div_lt_of_lt_mul hm
      refine ⟨_, hb, ?_⟩
      rw [← hover _ hb, ← sum_samples c (fun idx => c.counts (converted c.io c.std ((D k).outU true idx)
        ((D k).outG true idx) (c.prepared ((D k).outG true) v idx))) _ hb, List.any_eq_true]
      refine ⟨idx, List.mem_range.mpr hm, ?_⟩
      rw [Bool.and_eq_true]
      exact ⟨hx, decide_eq_true rfl⟩
    · rintro ⟨b, hb, hx⟩
      rw [← hover b hb, ← sum_samples c (fun idx => c.counts (converted c.io c.std ((D k).outU true idx)
        ((D k).outG true idx) (c.prepared ((D k).outG true) v idx))) b hb, List.any_eq_true] at hx
      obtain ⟨idx, hm, hx⟩ := hx
      rw [Bool.and_eq_true] at hx
      exact List.any_eq_true.mpr ⟨idx, hm, hx.1⟩
  rw [hfin]
  dsimp only
  refine ⟨⟨hman2, ?_, hround2, hin2, ?_, ?_⟩, ?_, ?_⟩
  · show s2.red = _
    rw [hred2, pow_succ, mul_div_assoc, div_self two_ne_zero, mul_one]
  · intro k' hk b hb
    obtain rfl : k = k' := by omega
    show s2.scales b = _
    rw [hsc2, hsc b hb]
  · intro k' hk b hb
    obtain rfl : k = k' := by omega
    exact hmark b hb
  · unfold Ctx.passed Spec.atLimit
    rw [show (c.markBM c.std ((D k).outU true) ((D k).outG true)
      (c.prepared ((D k).outG true) v) s2).red = s2.red from rfl, hred2]
    rw [Bool.or_eq_true, Bool.or_eq_true, Bool.and_eq_true, decide_eq_true_iff, decide_eq_true_iff,
      decide_eq_true_iff, or_assoc]
    refine or_congr_left ?_
    rw [Bool.not_eq_true', ← Bool.not_eq_true, hanyb]
    constructor
    · intro hh b hb
      rw [← Bool.not_eq_true]
      exact fun hx => hh ⟨b, hb, hx⟩
    · rintro hh ⟨b, hb, hx⟩
      rw [hh b hb] at hx
      cases hx
  · intro b i hb hi
    show view c.outT c.nOut c.m (c.outputBM _ _ _ _ _ _) b i = _
    unfold Ctx.outputBM
    rw [mapTo_view hb hi, sampleOf_place hb hi, outScaled_eq, boundCheck_eq, hsc2, hsc b hb,
      ← hval2 b i hb hi, mul_comm]
    unfold Ctx.outScale
    congr 3
    exact converted_view c _ _ v hb hi


theorem npSum_type (w : Man K) (n nth : ℕ) (io : CppFwd.IO K) (r : Req K) : (w.npSum n nth io r).type = w.type := by
  unfold Man.npSum Man.ensure
  dsimp only
  split <;> rfl

theorem average_type (w : Man K) (n nth : ℕ) (io : CppFwd.IO K) (r : Req K) :
    (w.averageAbsMax n nth io r).type = w.type := by
  have e : (w.ensureAvg r).type = w.type := by unfold Man.ensureAvg; split <;> rfl
  unfold Man.averageAbsMax
  generalize w.ensureAvg r = w1 at e
  dsimp only
  split
  · exact e
  · exact e

theorem constant_type (w : Man K) (io : CppFwd.IO K) (r : Req K) : (w.constant io r).type = w.type := by
  have e : (w.ensureConst r).type = w.type := by unfold Man.ensureConst; split <;> rfl
  unfold Man.constant
  generalize w.ensureConst r = w1 at e
  dsimp only
  split
  · exact e
  · exact e

theorem compute_values (m : Man K) (n nth : ℕ) (lowest : K) (nm : CppFwd.NM) (io : CppFwd.IO K) (r : Req K)
    (man : Man K) (h : m.compute n nth lowest nm io r = .ok man) :
    man.type = nm ∧ (nm ≠ .none → ∃ v : ℕ → K, man.values = some v) := by
  unfold Man.compute at h
  have ht : man.type = nm ∧ nm ≠ .averageSingle ∧ nm ≠ .absMaxSingle := by
    cases nm with
    | none => obtain rfl := Except.ok.inj h; exact ⟨rfl, (by intro h; cases h), (by intro h; cases h)⟩
    | constant =>
      obtain rfl := Except.ok.inj h
      exact ⟨constant_type _ _ _, (by intro h; cases h), (by intro h; cases h)⟩
    | max => obtain rfl := Except.ok.inj h; exact ⟨rfl, (by intro h; cases h), (by intro h; cases h)⟩
    | absMax => obtain rfl := Except.ok.inj h; exact ⟨rfl, (by intro h; cases h), (by intro h; cases h)⟩
    | absMaxNPSum =>
      obtain rfl := Except.ok.inj h
      exact ⟨npSum_type _ _ _ _ _, (by intro h; cases h), (by intro h; cases h)⟩
    | average =>
      obtain rfl := Except.ok.inj h
      exact ⟨average_type _ _ _ _ _, (by intro h; cases h), (by intro h; cases h)⟩
    | averageSingle => cases h
    | absMaxSingle => cases h
  refine ⟨ht.1, fun hn => ?_⟩
  obtain ⟨h1, h2, h3⟩ := ht
  unfold Man.values
  rw [h1]
  cases nm with
  | none => exact absurd rfl hn
  | averageSingle => exact absurd rfl h2
  | absMaxSingle => exact absurd rfl h3
  | constant => exact ⟨_, rfl⟩
  | max => exact ⟨_, rfl⟩
  | absMax => exact ⟨_, rfl⟩
  | absMaxNPSum => exact ⟨_, rfl⟩
  | average => exact ⟨_, rfl⟩

/-- The result of bound management for one pass per product: every sample has its own sequence of scales,
all samples are processed again until a round in which none exceeds the bound or the limit is reached, and
the outputs are those of the last round. -/
def BoundResult (c : Ctx K) (sq : K → K) (D : ℕ → Draws K) (x : Arr K) (man : Man K) (out : Arr K) (k : ℕ) :
    Prop :=
  (∀ b i : ℕ, b < c.m → i < c.nOut → out (place c.outT c.nOut c.m b i) = c.alpha * c.io.outScale *
    Spec.back (some (c.scaleIn sq D x man b k)) (Spec.limitTo c.io.outBound
      (Spec.values c.io sq c.p c.nIn (c.mat c.W) (c.scaleIn sq D x man b k) (c.drawsOf (D k) b)
        (fun j => x (place c.inT c.nIn c.m b j)) i))) ∧
  ((∀ b : ℕ, b < c.m → c.over sq D x man b k = false) ∨ Spec.atLimit c.io k) ∧
  ∀ k' : ℕ, k' < k → (∃ b : ℕ, b < c.m ∧ c.over sq D x man b k' = true) ∧ ¬Spec.atLimit c.io k'

theorem limit_reached (io : CppFwd.IO K) : Spec.atLimit io (io.maxBmFactor.toNat + 1) := by
  left
  have h1 : io.maxBmFactor ≤ (io.maxBmFactor.toNat : ℤ) := Int.self_le_toNat _
  have h2 : io.maxBmFactor.toNat < 2 ^ (io.maxBmFactor.toNat + 1) :=
    lt_trans Nat.lt_two_pow_self (Nat.pow_lt_pow_right (by omega) (by omega))
  have h3 : (io.maxBmFactor : K) ≤ ((io.maxBmFactor.toNat : ℕ) : K) := by
    have := (Int.cast_le (R := K)).mpr h1
    rw [Int.cast_natCast] at this
    exact this
  have h4 : ((io.maxBmFactor.toNat : ℕ) : K) < ((2 ^ (io.maxBmFactor.toNat + 1) : ℕ) : K) := Nat.cast_lt.mpr h2
  rw [Nat.cast_pow, Nat.cast_ofNat] at h4
  exact lt_of_le_of_lt h3 h4

theorem rounds_go (hbm : c.io.bm = .iterative) (hp : c.io.mvType = .onePass)
    (hsq : ∀ a v : K, 0 ≤ a → sq (a * a * v) = a * sq v) (x : Arr K) (man : Man K)
    (htype : man.type = c.io.nm) (hval : c.io.nm ≠ .none → ∃ v : ℕ → K, man.values = some v)
    (nth : ℕ) (lowest : K) (dr : ℕ → Draws K) (junk : ℕ → Arr K) (r : ℕ → Req K) (F : ℕ) :
    ∀ (f k : ℕ) (out : Arr K) (s : St K), f + k = F → k ≤ c.io.maxBmFactor.toNat + 1 →
      c.io.maxBmFactor.toNat + 1 < F → Head c sq (fun k => dr (F - 1 - k)) x man k s →
      (∀ k' : ℕ, k' < k → (∃ b : ℕ, b < c.m ∧ c.over sq (fun k => dr (F - 1 - k)) x man b k' = true) ∧
        ¬Spec.atLimit c.io k') →
      ∃ (z : Arr K × St K) (K' : ℕ), c.rounds nth lowest sq dr junk r x f out s = .ok z ∧
        BoundResult c sq (fun k => dr (F - 1 - k)) x man z.1 K'
  | 0, k, out, s, hf, hk, hF, _, _ => by omega
  | f + 1, k, out, s, hf, hk, hF, h, hall => by
    obtain ⟨z, hz, hd, hdone, hv⟩ := round_step hbm hp hsq (fun k => dr (F - 1 - k)) x man htype hval nth
      lowest (junk f) out (r f) k s h
    have ef : F - 1 - k = f := by omega
    rw [ef] at hz
    unfold Ctx.rounds
    rw [hz]
    dsimp only
    by_cases hq : z.2.2 = true
    · rw [if_pos hq]
      exact ⟨_, k, rfl, hv, hdone.mp hq, hall⟩
    · rw [if_neg hq]
      have hn := fun hh => hq (hdone.mpr hh)
      have hlim : ¬Spec.atLimit c.io k := fun hh => hn (Or.inr hh)
      have hne : k ≠ c.io.maxBmFactor.toNat + 1 := fun e => hlim (e ▸ limit_reached c.io)
      refine rounds_go hbm hp hsq x man htype hval nth lowest dr junk r F f (k + 1) z.1 z.2.1 (by omega)
        (by omega) hF hd ?_
      intro k' hk'
      by_cases e : k' = k
      · subst e
        refine ⟨?_, hlim⟩
        by_contra hh
        refine hn (Or.inl fun b hb => ?_)
        rw [← Bool.not_eq_true]
        exact fun hx => hh ⟨b, hb, hx⟩
      · exact hall k' (by omega)

/-- Bound management, for one pass per product: with enough rounds at hand (a number which only depends on
the largest factor) the loop ends, whatever the batch, the layouts and the random numbers. -/
theorem C99_bound (c : Ctx K) (hbm : c.io.bm = .iterative) (hp : c.io.mvType = .onePass) (ht : c.tr = false)
    (hsq : ∀ a v : K, 0 ≤ a → sq (a * a * v) = a * sq v) (nth : ℕ) (lowest : K) (dr : ℕ → Draws K)
    (junk : ℕ → Arr K) (r : ℕ → Req K) (F : ℕ) (hF : c.io.maxBmFactor.toNat + 1 < F) (x out : Arr K)
    (s : St K) (man : Man K) (hm : s.man.compute c.nIn nth lowest c.io.nm c.io (r F) = .ok man) :
    ∃ (z : Arr K × St K) (k : ℕ), c.pass nth lowest sq dr junk r F x out s = .ok z ∧
      BoundResult c sq (fun k => dr (F - 1 - k)) x man z.1 k := by
  obtain ⟨h1, h2⟩ := compute_values _ _ _ _ _ _ _ _ hm
  unfold Ctx.pass Ctx.start
  rw [if_neg (fun hh => by rw [ht] at hh; exact absurd hh.1 Bool.false_ne_true), hm]
  dsimp only
  refine rounds_go hbm hp hsq x man h1 h2 nth lowest dr junk r F F 0 out _ (by omega) (by omega) hF
    ⟨rfl, ?_, rfl, rfl, fun _ hh => by omega, fun _ hh => by omega⟩ (fun _ hh => by omega)
  show (1 / 2 : K) = 2 ^ 0 / 2
  rw [pow_zero]

end Aihw.GpuIo

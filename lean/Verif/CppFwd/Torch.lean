import Verif.CppFwd.Props3
import Verif.Mvm.Props
import Mathlib.Data.List.GetD

/-!
# C64: the torch and the C++ matrix-vector product are the same function

`AnalogMVM.matmul` (src/aihwkit/simulator/tiles/analog_mvm.py:48-167) of one sample against
`forwardVector` (src/rpucuda/rpu_forward_backward_pass.cpp:918-988) with the parameters of the same
`IOParameters` object and the same random numbers.
-/
open scoped BigOperators

namespace Aihw.CppFwd

open Aihw.Pulsed (rint)

/-! ## Translation of parameters, data and random numbers -/

/-- The noise management types of python as those of C++ (src/aihwkit/simulator/rpu_base_src/rpu_base_devices.cpp, enum bindings by name). -/
def nmOf : Mvm.NM → NM
  | .none => .none
  | .absMax => .absMax
  | .absMaxNPSum => .absMaxNPSum
  | .max => .max
  | .constant => .constant
  | .averageAbsMax => .average

/-- The bound management types (`SHIFT` is not in the C++ model; the torch product rejects it). -/
def bmOf : Mvm.BM → BM
  | .none => .none
  | .iterative => .iterative
  | .iterativeWorstCase => .worstCase
  | .shift => .none

/-- The types of analog products. -/
def mvOf : Mvm.MV → MV
  | .ideal => .ideal
  | .onePass => .onePass
  | .posNegSeparate => .posNeg
  | .posNegSeparateDigitalSum => .posNegDigital
  | .splitMode => .splitMode
  | .bitWise => .bitWise

/-- The C++ parameters of a python `IOParameters` object, before initialization
(src/aihwkit/simulator/rpu_base_src/rpu_base_devices.cpp:485-519 binds the fields by name; `mf` is the integer
`max_bm_factor`). Fields the torch
product does not have take the defaults (parameters/io.py, rpu_pulsed_meta_parameter.h:50-109); those of circuit
effects that are off do not matter. -/
def cppPars (p : Mvm.IOPars) (mf : ℤ) : IO ℚ :=
  { perfect := p.isPerfect, mvType := mvOf p.mvType,
    wNoiseType := if p.wNoiseTypeSet then .additive else .none, irDrop := p.irDrop, gRatio := 571428,
    vOffStd := p.vOffsetStd, vOffVec := [], vOffWMin := p.vOffsetWMin, rSeries := p.rSeries, rMaxTotal := 10,
    inpAsym := p.inpAsymmetry, outAsym := p.outAsymmetry, wReadAsym := p.wReadAsymmetryDtod,
    inpBound := some p.inpBound, inpRes := p.inpRes, inpSto := p.inpStoRound, inpNoise := p.inpNoise,
    outNoise := p.outNoise, outNoiseStd := 0, wNoise := p.wNoise, outBound := some p.outBound,
    outRes := p.outRes, outSto := p.outStoRound, outScale := p.outScale, outNL := p.outNonlinearity,
    outNLStd := 0, outNLVec := [], slope := p.slopeCalibration, nm := nmOf p.noiseManagement,
    nmThres := p.nmThres, nmWmax := 6 / 10, nmDecay := 1 / 1000, bm := bmOf p.boundManagement,
    bmTestNeg := true, maxBmFactor := mf, maxBmRes := p.maxBmRes }

/-- A list as vector. -/
def vecOf (x : List ℚ) (j : Nat) : ℚ := x.getD j 0

/-- A list of rows as matrix. -/
def matOf (w : List (List ℚ)) (i j : Nat) : ℚ := (w.getD i []).getD j 0

/-- The random numbers of sample 0; the uniform ones of torch are in `[-1/2, 1/2)`, those of C++ in `[0, 1)`. -/
def drawsOf (d : Mvm.Draws) (k : Nat) : Draws ℚ :=
  { inU := fun j => d.inpU k 0 j + 1 / 2
    inG := fun j => d.inpN k 0 j
    wG := fun _ _ => 0
    outU := fun _ i => d.outU k 0 i + 1 / 2
    outG := fun _ i => d.outN k 0 i }

/-! ## Elements -/

theorem rint_eq (v : ℚ) : rint v = roundHE v := rfl

/-- The initialized parameters. -/
def ioOf (p : Mvm.IOPars) (mf : ℤ) : IO ℚ :=
  { cppPars p mf with
    outRes := checkRes p.outRes * (2 * p.outBound)
    inpRes := checkRes p.inpRes * (2 * p.inpBound)
    nmThres := if nmOf p.noiseManagement = .none then 0 else p.nmThres
    outBound := toBound p.outBound
    inpBound := toBound p.inpBound }

theorem checkRes_pos {r : ℚ} (h : 0 < r) : checkRes r = if r > 1 then 1 / r else r := by
  unfold checkRes; simp only; rw [if_neg (not_lt.2 h.le)]

theorem checkRes_nonpos {r : ℚ} (h : r ≤ 0) : checkRes r = 0 := by
  unfold checkRes
  simp only
  by_cases h0 : r < 0
  · rw [if_pos h0, if_neg (by norm_num)]
  · have : r = 0 := le_antisymm h (not_lt.1 h0)
    subst this
    simp

theorem clip_same (b v : ℚ) : clipB (toBound b) v = Mvm.clampBound b v := by
  unfold toBound Mvm.clampBound clamp
  by_cases h : b ≤ 0
  · rw [if_pos h, if_neg (not_lt.2 h)]; rfl
  · rw [if_neg h, if_pos (not_le.1 h)]
    have hb := not_le.1 h
    unfold clipB
    simp only
    by_cases h1 : b < v
    · rw [if_pos h1, if_neg (by linarith)]
      rw [max_eq_left (by linarith), min_eq_right h1.le]
    · rw [if_neg h1]
      by_cases h2 : v < -b
      · rw [if_pos h2, max_eq_right h2.le, min_eq_left (by linarith)]
      · rw [if_neg h2, max_eq_left (not_lt.1 h2), min_eq_left (not_lt.1 h1)]

theorem asym_same (a v : ℚ) : (if a ≠ 0 then asymm a v else v) = Mvm.asym a v := by
  unfold Mvm.asym asymm
  by_cases ha : a = 0
  · simp [ha]
  · simp [ha]

theorem disc_same {res bound : ℚ} (hb : 0 < res → 0 < bound) (sto : Bool) (u v : ℚ) :
    (if res > 0 then Mvm.uniformQuantize v res bound (if sto then some u else none) else pure v) =
      Except.ok (disc sto (checkRes res * (2 * bound)) (u + 1 / 2) v) := by
  by_cases hr : 0 < res
  · rw [if_pos hr, Mvm.uniformQuantize_eq _ _ hr (hb hr).ne', checkRes_pos hr]
    have hq : 0 < Mvm.qStep res bound := Mvm.qStep_pos hr (hb hr)
    unfold disc
    have e : (if res > 1 then 1 / res else res) * (2 * bound) = Mvm.qStep res bound := rfl
    rw [e, if_neg (not_le.2 hq)]
    cases sto
    · simp [rint_eq]
    · simp [rint_eq]
  · rw [if_neg hr, checkRes_nonpos (not_lt.1 hr), zero_mul]
    unfold disc
    rw [if_pos le_rfl]
    rfl

theorem prepare_same {p : Mvm.IOPars} (mf : ℤ) (hb : 0 < p.inpRes → 0 < p.inpBound) {s : ℚ} {sc : Bool}
    (hs : sc = false → s = 1) (u n v : ℚ) :
    Mvm.prepareElem p s sc u n v = .ok ((ioOf p mf).prepare s true (u + 1 / 2) n v) := by
  have hv : (if sc then v * s else v) = v * s := by
    cases sc with
    | true => rfl
    | false => rw [hs rfl]; simp
  have hd : Mvm.dacValue p s sc u v =
      .ok (Mvm.clampBound p.inpBound (disc p.inpStoRound (checkRes p.inpRes * (2 * p.inpBound)) (u + 1 / 2) (v * s))) := by
    have e := disc_same hb p.inpStoRound u (v * s)
    unfold Mvm.dacValue
    simp only
    rw [hv]
    by_cases hr : p.inpRes > 0
    · rw [if_pos hr] at e ⊢
      rw [e]; rfl
    · rw [if_neg hr] at e ⊢
      rw [e]; rfl
  unfold Mvm.prepareElem IO.prepare
  rw [hd]
  simp only [bind, Except.bind, pure, Except.pure, if_true]
  rw [← clip_same, ← asym_same]
  rfl

theorem adc_same {p : Mvm.IOPars} (mf : ℤ) (hb : 0 < p.outRes → 0 < p.outBound) (ha : 0 ≤ p.outAsymmetry)
    (hn : 0 ≤ p.outNoise) (h1 : p.outNonlinearity ≤ 0) (h2 : p.rSeries ≤ 0) (fm : MVPar ℚ) (j : Nat)
    (n u v : ℚ) :
    Mvm.adcPreClip p none j n u v = .ok ((ioOf p mf).adc fm j (u + 1 / 2) n v) := by
  have hnl : (ioOf p mf).hasNLCal = false := by
    unfold IO.hasNLCal IO.hasNL ioOf cppPars
    simp [h1, h2]
  unfold Mvm.adcPreClip IO.adc
  simp only
  rw [disc_same hb, hnl]
  congr 1
  have e1 : (if 0 < (ioOf p mf).outAsym then asymm (ioOf p mf).outAsym v else v) = Mvm.asym p.outAsymmetry v := by
    rw [← asym_same]
    change (if 0 < p.outAsymmetry then _ else _) = _
    by_cases h : p.outAsymmetry = 0
    · rw [h]; simp
    · rw [if_pos (lt_of_le_of_ne ha (Ne.symm h)), if_pos h]; rfl
  have e2 : (if 0 < (ioOf p mf).outNoiseStd then fm.outNoise j else (ioOf p mf).outNoise) = p.outNoise := by
    change (if 0 < (0 : ℚ) then _ else _) = _
    rw [if_neg (lt_irrefl _)]; rfl
  simp only [Bool.false_eq_true, if_false]
  rw [e1, e2]
  have e3 : Mvm.addOutNoise p none j n (Mvm.asym p.outAsymmetry v) = Mvm.asym p.outAsymmetry v + p.outNoise * n := by
    unfold Mvm.addOutNoise
    simp only
    by_cases h : p.outNoise > 0
    · rw [if_pos h]
    · rw [if_neg h, le_antisymm (not_lt.1 h) hn]; ring
  rw [e3]
  rfl

theorem test_same (p : Mvm.IOPars) (v : ℚ) :
    Mvm.notClipping p v = (!above (toBound p.outBound) v && !below (toBound p.outBound) v) := by
  unfold Mvm.notClipping toBound
  by_cases h : p.outBound ≤ 0
  · rw [if_pos h, if_neg (not_lt.2 h)]; rfl
  · rw [if_neg h, if_pos (not_le.1 h)]
    unfold above below
    simp only
    rw [← decide_not, ← decide_not]
    simp only [not_lt]

/-! ## One round -/

theorem dot_vecOf : ∀ (r x : List ℚ), r.length = x.length →
    dot r x = ∑ j ∈ Finset.range x.length, vecOf r j * vecOf x j := by
  intro r
  induction r with
  | nil => intro x h; cases x with
    | nil => simp [dot]
    | cons a x => simp at h
  | cons a r ih =>
    intro x h
    cases x with
    | nil => simp at h
    | cons b x =>
      have := ih x (by simpa using h)
      unfold dot at this ⊢
      rw [List.zipWith_cons_cons, List.sum_cons, this, List.length_cons, Finset.sum_range_succ']
      simp [vecOf, add_comm]

theorem foldl_and (l : List Nat) (f : Nat → Bool) (b : Bool) :
    l.foldl (fun b i => if f i then false else b) b = (b && l.all fun i => !f i) := by
  induction l generalizing b with
  | nil => simp
  | cons a l ih =>
    rw [List.foldl_cons, ih, List.all_cons]
    cases f a <;> cases b <;> simp

theorem boundTest_same (p : Mvm.IOPars) (mf : ℤ) (m : Nat) (v : Nat → ℚ) :
    (ioOf p mf).boundTest m v =
      if bmOf p.boundManagement ≠ .none then (List.range m).all fun i => Mvm.notClipping p (v i) else true := by
  unfold IO.boundTest
  change (if bmOf p.boundManagement = .none then true else _) = _
  by_cases h : bmOf p.boundManagement = .none
  · rw [if_pos h, if_neg (not_not.2 h)]
  rw [if_neg h, if_pos h]
  have e : (fun (b : Bool) (i : Nat) => if above (ioOf p mf).outBound (v i) then false
      else if below (ioOf p mf).outBound (v i) then !(ioOf p mf).bmTestNeg else b) =
      fun b i => if (above (toBound p.outBound) (v i) || below (toBound p.outBound) (v i)) then false else b := by
    funext b i
    change (if above (toBound p.outBound) (v i) then false
      else if below (toBound p.outBound) (v i) then false else b) = _
    cases above (toBound p.outBound) (v i) <;> cases below (toBound p.outBound) (v i) <;> rfl
  rw [e, foldl_and, Bool.true_and]
  congr 1
  funext i
  rw [test_same, Bool.not_or]

theorem mapIdx_eq_range (x : List ℚ) (f : Nat → ℚ → ℚ) :
    x.mapIdx f = (List.range x.length).map fun j => f j (vecOf x j) := by
  apply List.ext_getElem
  · simp
  · intro i h1 h2
    simp only [List.getElem_mapIdx, List.getElem_map, List.getElem_range]
    congr 1
    unfold vecOf
    rw [List.getD_eq_getElem]

theorem vecOf_range {n : Nat} (f : Nat → ℚ) {j : Nat} (h : j < n) : vecOf ((List.range n).map f) j = f j := by
  unfold vecOf
  rw [List.getD_eq_getElem _ _ (by simpa using h)]
  simp

/-- Restrictions under which both products are the same. -/
structure Common (p : Mvm.IOPars) : Prop where
  perfect : p.isPerfect = false
  support : Mvm.checkSupport p = .ok ()
  bm : p.boundManagement ≠ .iterativeWorstCase
  nmBound : p.noiseManagement ≠ .none → p.inpBound = 1
  inp : 0 < p.inpRes → 0 < p.inpBound
  out : 0 < p.outRes → 0 < p.outBound
  noise : 0 ≤ p.outNoise
  asym : 0 ≤ p.outAsymmetry

/-- What `check_support` guarantees. -/
theorem support_spec {p : Mvm.IOPars} (h : Mvm.checkSupport p = .ok ()) :
    p.mvType = .onePass ∧ p.boundManagement ≠ .shift ∧ p.noiseManagement ≠ .averageAbsMax ∧
    p.noiseManagement ≠ .absMaxNPSum ∧ p.wNoise ≤ 0 ∧ p.wNoiseTypeSet = false ∧ p.irDrop ≤ 0 ∧
    p.outNonlinearity ≤ 0 ∧ p.slopeCalibration ≤ 0 ∧ p.vOffsetStd ≤ 0 ∧ p.rSeries ≤ 0 ∧
    p.wReadAsymmetryDtod ≤ 0 := by
  unfold Mvm.checkSupport at h
  simp only [bind, Except.bind, throw, throwThe, MonadExceptOf.throw, pure, Except.pure] at h
  by_cases h1 : p.mvType ≠ .onePass
  · rw [if_pos h1] at h; cases h
  rw [if_neg h1] at h
  by_cases h2 : p.boundManagement = .shift
  · rw [if_pos h2] at h; cases h
  rw [if_neg h2] at h
  by_cases h3 : p.noiseManagement = .averageAbsMax ∨ p.noiseManagement = .absMaxNPSum
  · rw [if_pos h3] at h; cases h
  rw [if_neg h3] at h
  by_cases h4 : p.wNoise > 0 ∨ p.wNoiseTypeSet = true
  · rw [if_pos h4] at h; cases h
  rw [if_neg h4] at h
  by_cases h5 : p.irDrop > 0
  · rw [if_pos h5] at h; cases h
  rw [if_neg h5] at h
  by_cases h6 : p.outNonlinearity > 0
  · rw [if_pos h6] at h; cases h
  rw [if_neg h6] at h
  by_cases h7 : p.slopeCalibration > 0
  · rw [if_pos h7] at h; cases h
  rw [if_neg h7] at h
  by_cases h8 : p.vOffsetStd > 0 ∨ p.vOffsetWMin > 0 ∨ p.rSeries > 0
  · rw [if_pos h8] at h; cases h
  rw [if_neg h8] at h
  by_cases h9 : p.wReadAsymmetryDtod > 0
  · rw [if_pos h9] at h; cases h
  push Not at h1 h3 h4 h5 h6 h7 h8 h9
  exact ⟨h1, h2, h3.1, h3.2, h4.1, by simpa using h4.2, h5, h6, h7, h8.1, h8.2.2, h9⟩

theorem round_same {p : Mvm.IOPars} (hc : Common p) (mf : ℤ) {D X : Nat} {w : Mat} (hw : IsMat D X w)
    {x : List ℚ} (hx : x.length = X) (d : Mvm.Draws) (sq : ℚ → ℚ) (fm : MVPar ℚ) (k : Nat) {sc : Mvm.Scale}
    (hs : Mvm.isScaling sc = false → sc = .num 1) {r : (Nat → ℚ) × Bool}
    (hr : (ioOf p mf).analogMV sq fm X D false (matOf w) (drawsOf d k) (sc.at 0) true (vecOf x) = .ok r) :
    Mvm.computeAnalogMV p X w false none d k sc (Mvm.isScaling sc) [x] =
      .ok (r.2, [(List.range D).map r.1]) := by
  obtain ⟨s1, s2, -, -, s5, s6, s7, s8, s9, s10, s11, s12⟩ := support_spec hc.support
  have hsc : Mvm.isScaling sc = false → sc.at 0 = 1 := fun h => by rw [hs h]; rfl
  -- input stage
  have hprep : Mvm.mapIdxE (fun i x => Mvm.mapIdxE (fun j v =>
      Mvm.prepareElem p (sc.at i) (Mvm.isScaling sc) (d.inpU k i j) (d.inpN k i j) v) x) [x] =
      .ok [(List.range X).map fun j => (ioOf p mf).prepare (sc.at 0) true ((drawsOf d k).inU j) ((drawsOf d k).inG j)
        (vecOf x j)] := by
    rw [Mvm.mapIdxE_of (g := fun _ y => y.mapIdx fun j v =>
      (ioOf p mf).prepare (sc.at 0) true ((drawsOf d k).inU j) ((drawsOf d k).inG j) v) [x] ?_]
    · simp only [List.mapIdx_cons, List.mapIdx_nil]
      rw [mapIdx_eq_range, hx]
    · intro i hi
      have hi0 : i = 0 := by simpa using hi
      subst hi0
      apply Mvm.mapIdxE_of
      intro j hj
      exact prepare_same mf hc.inp hsc _ _ _
  have hsp : ∀ (z g : Nat → ℚ) (m : Nat → Nat → ℚ), (ioOf p mf).singlePass sq fm X m z g = mv X m z := by
    intro z g m
    have hvo : (ioOf p mf).hasVO = false := by
      unfold IO.hasVO ioOf cppPars
      simp [s10, s11]
    have hwn : (ioOf p mf).wNoiseType = .none := by
      change (if p.wNoiseTypeSet = true then WN.additive else WN.none) = _
      rw [s6]; rfl
    unfold IO.singlePass
    simp only
    rw [if_neg (show ¬(0 < (ioOf p mf).irDrop) from not_lt.2 s7), hvo]
    simp only [Bool.false_eq_true, if_false]
    funext i
    unfold IO.weightNoise
    rw [hwn]
  have hmv : (ioOf p mf).mvType = .onePass := by
    change mvOf p.mvType = _
    rw [s1]; rfl
  unfold IO.analogMV at hr
  rw [hmv] at hr
  simp only [Except.ok.injEq] at hr
  rw [hsp] at hr
  set xin : Nat → ℚ := fun j => (ioOf p mf).prepare (sc.at 0) true ((drawsOf d k).inU j) ((drawsOf d k).inG j) (vecOf x j)
    with hxin
  have hbase : Mvm.baseMatmul X w false [(List.range X).map xin] =
      [(List.range D).map fun i => mv X (eff false (matOf w)) xin i] := by
    unfold Mvm.baseMatmul matVec
    simp only [List.map_cons, List.map_nil, Bool.false_eq_true, if_false]
    congr 1
    apply List.ext_getElem
    · simp [hw.1]
    · intro i h1 h2
      simp only [List.getElem_map, List.getElem_range]
      have hiw : i < w.length := by simpa using h1
      have hlen : (w[i]).length = X := hw.2 _ (List.getElem_mem hiw)
      rw [dot_vecOf _ _ (by simp [hlen])]
      unfold mv
      simp only [List.length_map, List.length_range]
      apply Finset.sum_congr rfl
      intro j hj
      rw [vecOf_range _ (Finset.mem_range.1 hj)]
      unfold eff matOf vecOf
      rw [List.getD_eq_getElem _ _ hiw]
      rfl
  have hfin : ∀ y : Nat → ℚ, Mvm.finalizeOutput p none (d.outN k) (d.outU k) [(List.range D).map y] =
      .ok (((ioOf p mf).finalize fm D (drawsOf d k) true y).2,
        [(List.range D).map ((ioOf p mf).finalize fm D (drawsOf d k) true y).1]) := by
    intro y
    have hadc : Mvm.mapIdxE (fun i y => Mvm.mapIdxE (fun j v =>
        Mvm.adcPreClip p none j (d.outN k i j) (d.outU k i j) v) y) [(List.range D).map y] =
        .ok [(List.range D).map fun i => (ioOf p mf).adc fm i ((drawsOf d k).outU true i) ((drawsOf d k).outG true i)
          (y i)] := by
      rw [Mvm.mapIdxE_of (g := fun _ y => y.mapIdx fun i v =>
        (ioOf p mf).adc fm i ((drawsOf d k).outU true i) ((drawsOf d k).outG true i) v) [(List.range D).map y] ?_]
      · simp only [List.mapIdx_cons, List.mapIdx_nil]
        rw [mapIdx_eq_range]
        simp only [List.length_map, List.length_range]
        congr 2
        apply List.map_congr_left
        intro i hi
        rw [vecOf_range _ (List.mem_range.1 hi)]
      · intro i hi
        have hi0 : i = 0 := by simpa using hi
        subst hi0
        apply Mvm.mapIdxE_of
        intro j hj
        exact adc_same mf hc.out hc.asym hc.noise s8 s11 fm _ _ _ _
    unfold Mvm.finalizeOutput
    rw [hadc]
    simp only [bind, Except.bind, pure, Except.pure]
    unfold IO.finalize
    simp only
    rw [boundTest_same]
    have hbmof : bmOf p.boundManagement ≠ .none ↔ p.boundManagement ≠ .none := by
      have h1 := hc.bm
      cases hb : p.boundManagement <;> simp [bmOf, hb] at s2 ⊢
    congr 2
    · simp only [List.all_cons, List.all_nil, Bool.and_true, List.all_map]
      by_cases hb : p.boundManagement ≠ .none
      · rw [if_pos hb, if_pos (hbmof.2 hb)]; rfl
      · rw [if_neg hb, if_neg (fun h => hb (hbmof.1 h))]
    · simp only [List.map_cons, List.map_nil, List.map_map]
      congr 1
      apply List.map_congr_left
      intro i _
      exact (clip_same _ _).symm
  unfold Mvm.computeAnalogMV
  rw [hprep]
  simp only [bind, Except.bind]
  rw [s1]
  simp only
  rw [hbase, hfin, hr]

/-! ## Noise management -/

theorem vecMax_ne {l : List ℚ} (h : l ≠ []) : ∃ m, Mvm.vecMax l = .ok m ∧ m ∈ l ∧ ∀ v ∈ l, v ≤ m := by
  cases l with
  | nil => exact absurd rfl h
  | cons a l =>
    refine ⟨_, rfl, ?_⟩
    clear h
    induction l generalizing a with
    | nil => simp
    | cons b l ih =>
      rw [List.foldl_cons]
      obtain ⟨h1, h2⟩ := ih (max a b)
      refine ⟨?_, ?_⟩
      · rcases List.mem_cons.1 h1 with h | h
        · rw [h]
          rcases max_choice a b with e | e <;> rw [e] <;> simp
        · exact List.mem_cons_of_mem _ (List.mem_cons_of_mem _ h)
      · intro v hv
        have hm := h2 (max a b) (by simp)
        rcases List.mem_cons.1 hv with h | h
        · rw [h]; exact (le_max_left _ _).trans hm
        · rcases List.mem_cons.1 h with h | h
          · rw [h]; exact (le_max_right _ _).trans hm
          · exact h2 v (List.mem_cons_of_mem _ h)

theorem vecOf_mem {x : List ℚ} {j : Nat} (h : j < x.length) : vecOf x j ∈ x := by
  unfold vecOf
  rw [List.getD_eq_getElem _ _ h]
  exact List.getElem_mem h

theorem mem_vecOf {x : List ℚ} {v : ℚ} (h : v ∈ x) : ∃ j < x.length, v = vecOf x j := by
  obtain ⟨j, hj, e⟩ := List.getElem_of_mem h
  refine ⟨j, hj, ?_⟩
  unfold vecOf
  rw [List.getD_eq_getElem _ _ hj, e]

/-- With a maximum-based value: what torch computes for a value `m` of the sample. -/
theorem per_same {p : Mvm.IOPars} (mf : ℤ) (hne : p.noiseManagement ≠ .none) {m v : ℚ}
    (hv : v = (ioOf p mf).cap m) (hneg : v < 0 → 0 < p.inpNoise) :
    (Mvm.isShortcut p (.per [Mvm.thres p m]) = true ↔
      ((ioOf p mf).nm ≠ .none ∧ v ≤ 0 ∧ (ioOf p mf).inpNoise ≤ 0)) ∧
    Mvm.factorAt (some (Mvm.fixNM (.per [Mvm.thres p m]))) 0 = (ioOf p mf).nmDiv v ∧
    Mvm.PosScale 1 (some (Mvm.fixNM (.per [Mvm.thres p m]))) := by
  have hne' : nmOf p.noiseManagement ≠ .none := by
    cases h : p.noiseManagement <;> simp [nmOf, h] at hne ⊢
  have ht : Mvm.thres p m = v := by
    rw [hv]
    unfold Mvm.thres IO.cap
    change _ = if 0 < (if nmOf p.noiseManagement = .none then 0 else p.nmThres) then
      min m (if nmOf p.noiseManagement = .none then 0 else p.nmThres) else m
    rw [if_neg hne']
  rw [ht]
  refine ⟨?_, ?_, ?_⟩
  · unfold Mvm.isShortcut
    simp only [List.all_cons, List.all_nil, Bool.and_true, Bool.and_eq_true, decide_eq_true_eq]
    constructor
    · rintro ⟨h1, h2⟩
      exact ⟨hne', h2.le, h1⟩
    · rintro ⟨-, h2, h3⟩
      refine ⟨h3, le_antisymm h2 ?_⟩
      by_contra h
      exact absurd (hneg (not_le.1 h)) (not_lt.2 h3)
  · unfold Mvm.factorAt Mvm.fixNM Mvm.Scale.at IO.nmDiv
    simp only [List.map_cons, List.map_nil, List.getD_cons_zero]
    by_cases h : v ≤ 0
    · rw [if_pos h, if_neg (fun hc => absurd hc.2 (not_lt.2 h))]
    · rw [if_neg h, if_pos ⟨hne', not_le.1 h⟩]
  · unfold Mvm.fixNM Mvm.PosScale
    simp only [List.map_cons, List.map_nil, List.length_cons, List.length_nil, List.mem_singleton, true_and]
    intro s hs
    subst hs
    split_ifs with h
    · norm_num
    · exact not_le.1 h

theorem nm_same {p : Mvm.IOPars} (hc : Common p) (mf : ℤ) {x : List ℚ} (hx : x ≠ [])
    (hmax : p.noiseManagement = .max → 0 < p.inpNoise ∨ ∃ v ∈ x, 0 ≤ v) (aux : ℚ) :
    ∃ nm v, Mvm.computeNM p [x] = .ok nm ∧ (ioOf p mf).computeNM x.length (vecOf x) aux = .ok (v, aux) ∧
      (Mvm.isShortcut p nm = true ↔ ((ioOf p mf).nm ≠ .none ∧ v ≤ 0 ∧ (ioOf p mf).inpNoise ≤ 0)) ∧
      Mvm.factorAt (if p.noiseManagement ≠ .none then some (Mvm.fixNM nm) else none) 0 = (ioOf p mf).nmDiv v ∧
      Mvm.PosScale 1 (if p.noiseManagement ≠ .none then some (Mvm.fixNM nm) else none) := by
  obtain ⟨-, -, s3, s4, -⟩ := support_spec hc.support
  have hpos : 0 < x.length := List.length_pos_of_ne_nil hx
  have hnmio : (ioOf p mf).nm = nmOf p.noiseManagement := rfl
  cases hn : p.noiseManagement with
  | none =>
    refine ⟨.num 1, 1, ?_, ?_, ?_, ?_, ?_⟩
    · unfold Mvm.computeNM; rw [hn]
    · unfold IO.computeNM; rw [hnmio, hn]; rfl
    · rw [hnmio, hn]; simp [Mvm.isShortcut, nmOf]
    · unfold IO.nmDiv; rw [hnmio, hn]; simp [Mvm.factorAt, nmOf]
    · simp [Mvm.PosScale]
  | constant =>
    have hcpos : 0 < (if p.nmThres > 0 then p.nmThres else 1) := by
      split_ifs with h
      · exact h
      · norm_num
    have hth : (ioOf p mf).nmThres = p.nmThres := by
      change (if nmOf p.noiseManagement = .none then 0 else p.nmThres) = _
      rw [hn]; rfl
    refine ⟨.num (if p.nmThres > 0 then p.nmThres else 1), if p.nmThres > 0 then p.nmThres else 1, ?_, ?_, ?_, ?_, ?_⟩
    · unfold Mvm.computeNM; rw [hn]
    · unfold IO.computeNM; rw [hnmio, hn]; simp only [nmOf]; rw [hth]
    · rw [hnmio, hn]
      simp only [Mvm.isShortcut, Bool.false_eq_true, false_iff]
      rintro ⟨-, h, -⟩
      exact absurd hcpos (not_lt.2 h)
    · unfold IO.nmDiv
      rw [hnmio, hn]
      generalize (if p.nmThres > 0 then p.nmThres else 1) = c at hcpos
      rw [if_pos (by decide), if_pos ⟨by simp [nmOf], hcpos⟩]
      rfl
    · rw [if_pos (by decide)]
      exact hcpos
  | absMax =>
    have hne : p.noiseManagement ≠ .none := by rw [hn]; decide
    obtain ⟨m, h1, h2, h3⟩ := vecMax_ne (l := x.map (|·|)) (by simpa using hx)
    have ham : amax x.length (vecOf x) = m := by
      obtain ⟨a, ha, e⟩ := List.mem_map.1 h2
      obtain ⟨j, hj, ej⟩ := mem_vecOf ha
      apply amax_unique
      · rw [← e]; exact abs_nonneg _
      · intro i hi
        exact h3 _ (List.mem_map.2 ⟨_, vecOf_mem hi, rfl⟩)
      · exact Or.inr ⟨j, hj, by rw [← e, ej]⟩
    have hm0 : 0 ≤ m := by rw [← ham]; exact (amax_spec _ _).1
    have hcap : 0 ≤ (ioOf p mf).cap m := by
      unfold IO.cap
      split_ifs with h
      · exact le_min hm0 h.le
      · exact hm0
    obtain ⟨q1, q2, q3⟩ := per_same (p := p) mf hne (m := m) rfl (fun h => absurd hcap (not_le.2 h))
    refine ⟨.per [Mvm.thres p m], (ioOf p mf).cap m, ?_, ?_, q1, ?_, ?_⟩
    · unfold Mvm.computeNM; rw [hn]
      simp only [List.mapM_cons, List.mapM_nil, h1, bind, Except.bind, pure, Except.pure, List.map_cons, List.map_nil]
    · unfold IO.computeNM; rw [hnmio, hn]; simp only [nmOf]; rw [ham]
    · rw [if_pos (by decide)]; exact q2
    · rw [if_pos (by decide)]; exact q3
  | max =>
    have hne : p.noiseManagement ≠ .none := by rw [hn]; decide
    obtain ⟨m, h1, h2, h3⟩ := vecMax_ne hx
    have hvm : vmax x.length (vecOf x) = m := by
      obtain ⟨g1, i, hi, g2⟩ := vmax_spec hpos (vecOf x)
      apply le_antisymm
      · rw [g2]; exact h3 _ (vecOf_mem hi)
      · obtain ⟨j, hj, e⟩ := mem_vecOf h2
        rw [e]; exact g1 j hj
    obtain ⟨q1, q2, q3⟩ := per_same (p := p) mf hne (m := m) rfl (by
      intro h
      rcases hmax hn with h' | ⟨v, hv, h0⟩
      · exact h'
      · exfalso
        have hm0 : 0 ≤ m := h0.trans (h3 v hv)
        unfold IO.cap at h
        split_ifs at h with ht
        · exact absurd (le_min hm0 ht.le) (not_le.2 h)
        · exact absurd hm0 (not_le.2 h))
    refine ⟨.per [Mvm.thres p m], (ioOf p mf).cap m, ?_, ?_, q1, ?_, ?_⟩
    · unfold Mvm.computeNM; rw [hn]
      simp only [List.mapM_cons, List.mapM_nil, h1, bind, Except.bind, pure, Except.pure, List.map_cons, List.map_nil]
    · unfold IO.computeNM; rw [hnmio, hn]; simp only [nmOf]; rw [hvm]
    · rw [if_pos (by decide)]; exact q2
    · rw [if_pos (by decide)]; exact q3
  | absMaxNPSum => exact absurd hn s4
  | averageAbsMax => exact absurd hn s3

/-! ## C64 -/

theorem init_same {p : Mvm.IOPars} (hc : Common p) (mf : ℤ) (D : Nat) :
    initIO true D (cppPars p mf) = .ok (ioOf p mf) := by
  obtain ⟨s1, -⟩ := support_spec hc.support
  unfold initIO
  rw [if_neg]
  · simp only [cppPars]
    rw [if_neg, if_neg (by simp)]
    · rfl
    · rintro ⟨h1, h2⟩
      apply h2
      apply hc.nmBound
      intro h
      rw [h] at h1
      exact h1 rfl
  · rintro (h | h)
    · change mvOf p.mvType = _ at h
      rw [s1] at h; cases h
    · rw [show (cppPars p mf).perfect = p.isPerfect from rfl, hc.perfect] at h; cases h

/-- **C64** For every configuration the torch product supports (with the restrictions of `Common`), every weight
matrix and every non-empty input the torch product and the C++ forward pass with the same parameters and the same
random numbers return the same outputs. -/
theorem C64_same {p : Mvm.IOPars} (hc : Common p) {mf : ℤ} (hmf : p.maxBmFactor = mf) {D X : Nat} {w : Mat}
    (hw : IsMat D X w) {x : List ℚ} (hx : x.length = X) (hX : 0 < X)
    (hmax : p.noiseManagement = .max → 0 < p.inpNoise ∨ ∃ v ∈ x, 0 ≤ v) (d : Mvm.Draws) (sq : ℚ → ℚ)
    (fm bm : MVPar ℚ) (b : IO ℚ) (aux : ℚ) :
    ∃ io y z, initIO true D (cppPars p mf) = .ok io ∧
      Mvm.matmul p X w false none d [x] = .ok [y] ∧
      (⟨X, D, io, b, fm, bm⟩ : Pass ℚ).forward sq (matOf w) 1 (drawsOf d) (vecOf x) aux = .ok (z, aux) ∧
      y = (List.range D).map z := by
  obtain ⟨s1, s2, -⟩ := support_spec hc.support
  have hne : x ≠ [] := by rintro rfl; simp at hx; omega
  obtain ⟨nm, v, n1, n2, n3, n4, n5⟩ := nm_same hc mf hne hmax aux
  rw [hx] at n2
  set t : Pass ℚ := ⟨X, D, ioOf p mf, b, fm, bm⟩ with ht
  have hmv : t.f.mvType = .onePass := by
    change mvOf p.mvType = _
    rw [s1]; rfl
  have hperf : t.f.isPerfect = false := by
    unfold IO.isPerfect
    rw [hmv, show t.f.perfect = p.isPerfect from rfl, hc.perfect]; rfl
  have hguard : (p.isPerfect || decide (p.mvType = .ideal)) = false := by rw [hc.perfect, s1]; rfl
  have hbm : t.f.bm = bmOf p.boundManagement := rfl
  by_cases hcut : t.f.nm ≠ .none ∧ v ≤ 0 ∧ t.f.inpNoise ≤ 0
  · refine ⟨ioOf p mf, List.replicate D 0, fun _ => 0, init_same hc mf D, ?_,
      (forward_form (t := t) hperf (by rw [hmv]; exact Or.inl rfl) n2).1 hcut, ?_⟩
    · unfold Mvm.matmul
      rw [hguard, n1]
      simp only [Bool.false_eq_true, if_false, bind, Except.bind]
      rw [if_pos (n3.2 hcut), hw.1]
      rfl
    · apply List.ext_getElem <;> simp
  have hshort : Mvm.isShortcut p nm = false := by
    by_contra h
    exact hcut (n3.1 (by simpa using h))
  obtain ⟨R, k, hR, hfw, hk0, hstop, hprev⟩ := C62_result (t := t) (by exact hc.perfect) (Or.inl hmv) sq (matOf w) 1
    (drawsOf d) (vecOf x) n2 hcut
  have hdiv : ∀ i, t.f.divisor t.X (vecOf x) v i =
      t.f.nmDiv v * (if p.boundManagement = .none then 1 else 2 ^ i) := by
    intro i
    unfold IO.divisor
    rw [hbm]
    have h1 := hc.bm
    cases hb : p.boundManagement <;> simp_all [bmOf]
  have hred : p.boundManagement ≠ .none → ∀ i, t.f.reduction i = 2 ^ i := by
    intro _ i
    unfold IO.reduction
    rw [if_neg]
    rintro ⟨h, -⟩
    rw [hbm] at h
    have h1 := hc.bm
    cases hb : p.boundManagement <;> simp_all [bmOf]
  set nmU : Option Mvm.Scale := if p.noiseManagement ≠ .none then some (Mvm.fixNM nm) else none with hnmU
  have hround : ∀ i sc, (Mvm.isScaling sc = false → sc = .num 1) → sc.at 0 = 1 / t.f.divisor t.X (vecOf x) v i →
      Mvm.computeAnalogMV p X w false none d i sc (Mvm.isScaling sc) [x] =
        .ok ((R i).2, [(List.range D).map (R i).1]) := by
    intro i sc h1 h2
    refine round_same hc mf hw hx d sq fm i h1 ?_
    rw [h2]
    exact hR i
  have hdpos : ∀ i, 0 < t.f.divisor t.X (vecOf x) v i := by
    intro i
    rw [hdiv]
    apply mul_pos (nmDiv_pos _ _)
    split_ifs <;> positivity
  have hfinal : ∀ sc : Mvm.Scale, (Mvm.isScaling sc = false → sc = .num 1) →
      sc.at 0 = 1 / t.f.divisor t.X (vecOf x) v k →
      Mvm.rescale p sc (Mvm.isScaling sc) [(List.range D).map (R k).1] =
        .ok [(List.range D).map fun o => t.f.outScale * 1 * t.f.divisor t.X (vecOf x) v k * (R k).1 o] := by
    intro sc h1 h2
    rw [Mvm.rescale_spec]
    · simp only [List.mapIdx_cons, List.mapIdx_nil, List.map_map]
      congr 2
      apply List.map_congr_left
      intro o _
      simp only [Function.comp]
      rw [h2, show t.f.outScale = p.outScale from rfl]
      have := (hdpos k).ne'
      field_simp
    · intro i hi
      have hi0 : i = 0 := by simpa using hi
      subst hi0
      rw [h2]
      exact one_div_ne_zero (hdpos k).ne'
    · exact h1
  refine ⟨ioOf p mf, _, _, init_same hc mf D, ?_, hfw, rfl⟩
  unfold Mvm.matmul
  rw [hguard, n1]
  simp only [Bool.false_eq_true, if_false, bind, Except.bind]
  rw [hshort]
  simp only [Bool.false_eq_true, if_false]
  by_cases hb : p.boundManagement = .none
  · rw [if_pos hb]
    obtain ⟨sc, e1, e2, e3⟩ := Mvm.mkScale_spec n5 none (by simp)
    have hk : k = 0 := hk0 (by rw [hbm, hb]; rfl)
    have h2 : sc.at 0 = 1 / t.f.divisor t.X (vecOf x) v k := by
      rw [e2 0 (by norm_num), hdiv, if_pos hb, n4]; rfl
    rw [e1]
    simp only
    rw [hk] at h2
    rw [hround 0 sc e3 h2]
    simp only
    rw [hk] at hfinal
    rw [hk]
    exact hfinal sc e3 h2
  · rw [if_neg hb]
    have hbn : t.f.bm ≠ .none := by
      rw [hbm]
      have h1 := hc.bm
      cases hb : p.boundManagement <;> simp_all [bmOf]
    -- limits agree
    have hlim : ∀ i, Mvm.bmLimitReached p (2 ^ i) = true ↔ ((t.f.maxBmFactor : ℚ) < t.f.reduction i ∨
        (0 < t.f.inpRes ∧ t.f.maxBmRes / t.f.inpRes < t.f.reduction i)) := by
      intro i
      unfold Mvm.bmLimitReached
      rw [hred hb i, hmf]
      have hres : (0 < t.f.inpRes ↔ 0 < Mvm.bmInpRes p) ∧ (0 < t.f.inpRes → t.f.inpRes = Mvm.bmInpRes p) := by
        change (0 < checkRes p.inpRes * (2 * p.inpBound) ↔ _) ∧ (0 < checkRes p.inpRes * (2 * p.inpBound) →
          checkRes p.inpRes * (2 * p.inpBound) = _)
        unfold Mvm.bmInpRes
        by_cases hr : 0 < p.inpRes
        · rw [if_pos hr, checkRes_pos hr]; exact ⟨Iff.rfl, fun _ => rfl⟩
        · rw [if_neg hr, checkRes_nonpos (not_lt.1 hr), zero_mul]
          exact ⟨⟨fun h => absurd h (lt_irrefl _), fun h => absurd h hr⟩, fun h => absurd h (lt_irrefl _)⟩
      simp only [Bool.or_eq_true, Bool.and_eq_true, decide_eq_true_eq, gt_iff_lt]
      constructor
      · rintro (h | ⟨h1, h2⟩)
        · exact Or.inl h
        · exact Or.inr ⟨hres.1.2 h1, by rw [hres.2 (hres.1.2 h1)]; exact h2⟩
      · rintro (h | ⟨h1, h2⟩)
        · exact Or.inl h
        · exact Or.inr ⟨hres.1.1 h1, by rw [← hres.2 h1]; exact h2⟩
    have hsc : ∀ i, ∃ sc, Mvm.mkScale nmU (some (2 ^ i)) = .ok sc ∧
        sc.at 0 = 1 / t.f.divisor t.X (vecOf x) v i ∧ (Mvm.isScaling sc = false → sc = .num 1) := by
      intro i
      obtain ⟨sc, e1, e2, e3⟩ := Mvm.mkScale_spec n5 (some (2 ^ i)) (by rintro q ⟨rfl⟩; positivity)
      refine ⟨sc, e1, ?_, e3⟩
      rw [e2 0 (by norm_num), hdiv, if_neg hb, n4]; rfl
    have hrd : ∀ i, ∃ sc : Mvm.Scale, Mvm.bmRound p X w false none d nmU [x] i =
        .ok ((R i).2 || Mvm.bmLimitReached p (2 ^ i), [(List.range D).map (R i).1], sc) ∧
        sc.at 0 = 1 / t.f.divisor t.X (vecOf x) v i ∧ (Mvm.isScaling sc = false → sc = .num 1) := by
      intro i
      obtain ⟨sc, e1, e2, e3⟩ := hsc i
      refine ⟨sc, ?_, e2, e3⟩
      unfold Mvm.bmRound
      simp only [e1, bind, Except.bind]
      rw [hround i sc e3 e2]
      rfl
    obtain ⟨sc, e1, e2, e3⟩ := hrd k
    have hloop := Mvm.bmLoop_of (p := p) (inSize := X) (w := w) (trans := false) (onv := none) (d := d) (nm := nmU)
      (xs := [x]) (Mvm.bmFuel p) 0 k ([(List.range D).map (R k).1], sc) (by
        cases k with
        | zero => unfold Mvm.bmFuel; omega
        | succ k =>
          have h := (hprev k (by omega)).2.1
          rw [hred hb] at h
          exact Mvm.lt_fuel_of_pow_le (by rw [hmf]; exact h)) (by
        intro j hj
        obtain ⟨sc', f1, -⟩ := hrd j
        refine ⟨[(List.range D).map (R j).1], sc', ?_⟩
        rw [Nat.zero_add, f1]
        obtain ⟨g1, g2, g3⟩ := hprev j hj
        have hl : Mvm.bmLimitReached p (2 ^ j) = false := by
          by_contra hcn
          rcases (hlim j).1 (by simpa using hcn) with h | ⟨h1, h2⟩
          · exact absurd h (not_lt.2 g2)
          · exact absurd h2 (not_lt.2 (g3 h1))
        rw [g1, hl]; rfl) (by
        rw [Nat.zero_add, e1]
        congr 2
        rcases hstop hbn with h | h
        · rw [h]; rfl
        · rw [(hlim k).2 h, Bool.or_true])
    rw [hloop]
    simp only
    exact hfinal sc e3 e2

/-! ## Where they differ -/

/-- **C64, exception** (worst-case bound management) The torch product treats `ITERATIVE_WORST_CASE` like
`ITERATIVE`, for every configuration and input. -/
theorem C64_worst_case_is_iterative (p : Mvm.IOPars) (hp : p.boundManagement = .iterativeWorstCase) (X : Nat) (w : Mat)
    (tr : Bool) (onv : Option (Nat → ℚ)) (d : Mvm.Draws) (xs : List Vec) :
    Mvm.matmul p X w tr onv d xs = Mvm.matmul { p with boundManagement := .iterative } X w tr onv d xs := by
  have hf : ∀ (n u : Nat → Nat → ℚ) (ys : List Vec), Mvm.finalizeOutput p onv n u ys =
      Mvm.finalizeOutput { p with boundManagement := .iterative } onv n u ys := by
    intro n u ys
    unfold Mvm.finalizeOutput
    rw [hp]
    rfl
  have hA : ∀ k sc scal, Mvm.computeAnalogMV p X w tr onv d k sc scal xs =
      Mvm.computeAnalogMV { p with boundManagement := .iterative } X w tr onv d k sc scal xs := by
    intro k sc scal
    unfold Mvm.computeAnalogMV
    simp only [hf]
    rfl
  have hR : ∀ nm k, Mvm.bmRound p X w tr onv d nm xs k =
      Mvm.bmRound { p with boundManagement := .iterative } X w tr onv d nm xs k := by
    intro nm k
    unfold Mvm.bmRound
    simp only [hA]
    rfl
  have hL : ∀ nm fuel k, Mvm.bmLoop p X w tr onv d nm xs fuel k =
      Mvm.bmLoop { p with boundManagement := .iterative } X w tr onv d nm xs fuel k := by
    intro nm fuel
    induction fuel with
    | zero => intro k; rfl
    | succ f ih =>
      intro k
      rw [Mvm.bmLoop, Mvm.bmLoop, hR]
      simp only [ih]
  unfold Mvm.matmul
  rw [hp]
  simp only [hL, reduceCtorEq, if_false]
  rfl

end Aihw.CppFwd

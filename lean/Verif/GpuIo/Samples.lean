import Verif.GpuIo.Passes

/-!
# A round of the pass, sample by sample
-/
open scoped BigOperators

namespace Aihw.GpuIo

open Aihw.CppFwd (MVPar)
open Aihw.GpuNm (place nBlocks Man Req)

variable {K : Type} [Field K] [LinearOrder K] [IsStrictOrderedRing K] [FloorRing K]
variable {c : Ctx K} {sq : K → K} {b i : ℕ}

/-! ## Elements -/

theorem boundCheck_eq (b : Option K) (v : K) : boundCheck b v = Spec.limitTo b v := by
  cases b with
  | none => rfl
  | some b =>
    unfold boundCheck Spec.limitTo
    dsimp only
    have e : (if b < v then b else v) = min b v := by
      split_ifs with h
      · rw [min_eq_left (le_of_lt h)]
      · rw [min_eq_right (not_lt.mp h)]
    rw [e]
    split_ifs with h
    · rw [max_eq_left (le_of_lt h)]
    · rw [max_eq_right (not_lt.mp h)]

theorem applyAsym_eq (a v : K) : applyAsym a v = Spec.slope a v := by
  unfold applyAsym Spec.slope
  by_cases h : a = 0
  · rw [if_neg (not_not.mpr h), h, sub_zero, one_mul]; split <;> rfl
  · rw [if_pos h, mul_comm v]

theorem addNoise_eq (std g v : K) : addNoise std g v = v + max std 0 * g := by
  unfold addNoise
  split_ifs with h
  · rw [max_eq_left (le_of_lt h)]
  · rw [max_eq_right (not_lt.mp h), zero_mul, add_zero]

theorem discretize_eq (res : K) (sto : Bool) (u v : K) : discretize res sto u v = Spec.toSteps res sto u v := by
  unfold discretize Spec.toSteps
  by_cases h : 0 < res
  · rw [if_pos h, if_pos h, mul_comm]
    cases sto
    · rw [if_neg Bool.false_ne_true, if_neg Bool.false_ne_true, add_zero]
    · rw [if_pos rfl, if_pos rfl]
  · rw [if_neg h, if_neg h]

theorem inScaled_eq (s : Option K) (v : K) : inScaled s v = (s.elim v) fun s => if 0 < s then v / s else v := by
  cases s <;> rfl

theorem outScaled_eq (s : Option K) (v : K) : outScaled s v = Spec.back s v := by
  cases s <;> rfl

theorem toSteps_and (res : K) (sto : Bool) (u v : K) :
    Spec.toSteps res (sto && decide (0 < res)) u v = Spec.toSteps res sto u v := by
  unfold Spec.toSteps
  by_cases h : 0 < res
  · rw [if_pos h, if_pos h, decide_eq_true h, Bool.and_true]
  · rw [if_neg h, if_neg h]

theorem inputBody_eq (io : CppFwd.IO K) (s : Option K) (u g v : K) :
    inputBody io s u g v = Spec.input io s u g v := by
  unfold inputBody Spec.input
  dsimp only
  rw [applyAsym_eq, boundCheck_eq, addNoise_eq, discretize_eq, inScaled_eq, toSteps_and]

theorem inputBodyNoSR_eq (io : CppFwd.IO K) (s : Option K) (u g v : K) (h1 : io.inpSto = false)
    (h2 : ¬0 < io.inpNoise) : inputBodyNoSR io s v = Spec.input io s u g v := by
  unfold inputBodyNoSR Spec.input
  dsimp only
  rw [applyAsym_eq, boundCheck_eq, discretize_eq, inScaled_eq, h1, max_eq_right (not_lt.mp h2), zero_mul,
    add_zero]
  rfl

theorem applyInput_view (c : Ctx K) (nm : Option (Arr K)) (u g x buf : Arr K) (hb : b < c.m)
    (hi : i < c.nIn) :
    view c.inT c.nIn c.m (c.applyInput nm u g x buf) b i =
      Spec.input c.io (nm.map fun s => s b) (view c.inT c.nIn c.m u b i) (view c.inT c.nIn c.m g b i)
        (view c.inT c.nIn c.m x b i) := by
  unfold Ctx.applyInput
  by_cases h1 : c.m = 1
  · rw [if_pos h1]
    obtain rfl : b = 0 := by omega
    unfold view
    rw [h1, place_one]
    cases hs : (c.io.inpSto || decide (0 < c.io.inpNoise)) with
    | true =>
      rw [if_pos rfl]
      unfold mapTo
      rw [if_pos hi]
      exact inputBody_eq _ _ _ _ _
    | false =>
      obtain ⟨h2, h3⟩ := Bool.or_eq_false_iff.mp hs
      rw [if_neg Bool.false_ne_true]
      unfold mapTo
      rw [if_pos hi]
      exact inputBodyNoSR_eq _ _ (u i) (g i) _ h2 (of_decide_eq_false h3)
  · rw [if_neg h1, mapTo_view hb hi, sampleOf_place hb hi, inputBody_eq]
    rfl

/-! ## Output converters -/

/-- The first two steps of `finalizeOutput`. -/
def Ctx.prepared (c : Ctx K) (g v : Arr K) : Arr K :=
  let v := if c.io.hasNLCal then c.nonLinearity v else v
  if 0 < c.io.outNoiseStd then c.noiseOtoO g v else v

theorem prepared_view (c : Ctx K) (g v : Arr K) (hb : b < c.m) (hi : i < c.nOut) :
    view c.outT c.nOut c.m (c.prepared g v) b i =
      (if c.io.hasNLCal then c.p.nlf * view c.outT c.nOut c.m v b i /
          (1 + |c.p.nl i * view c.outT c.nOut c.m v b i|) else view c.outT c.nOut c.m v b i) +
        (if 0 < c.io.outNoiseStd then c.p.outNoise i * view c.outT c.nOut c.m g b i else 0) := by
  unfold Ctx.prepared
  dsimp only
  have e : view c.outT c.nOut c.m (if c.io.hasNLCal then c.nonLinearity v else v) b i =
      (if c.io.hasNLCal then c.p.nlf * view c.outT c.nOut c.m v b i /
          (1 + |c.p.nl i * view c.outT c.nOut c.m v b i|) else view c.outT c.nOut c.m v b i) := by
    cases c.io.hasNLCal with
    | true =>
      rw [if_pos rfl, if_pos rfl]
      unfold Ctx.nonLinearity
      rw [mapTo_view hb hi, outputOf_place hb hi]
    | false => rw [if_neg Bool.false_ne_true, if_neg Bool.false_ne_true]
  generalize (if c.io.hasNLCal then c.nonLinearity v else v) = A at e
  by_cases h : 0 < c.io.outNoiseStd
  · rw [if_pos h, if_pos h]
    unfold Ctx.noiseOtoO
    rw [mapTo_view hb hi, outputOf_place hb hi, e]
    rw [show g (place c.outT c.nOut c.m b i) = view c.outT c.nOut c.m g b i from rfl,
      mul_comm (view c.outT c.nOut c.m g b i) (c.p.outNoise i)]
  · rw [if_neg h, if_neg h, add_zero, e]

/-- What the output kernels add as noise. -/
def Ctx.std (c : Ctx K) : K := if 0 < c.io.outNoiseStd then 0 else c.io.outNoise

theorem converted_view (c : Ctx K) (u g v : Arr K) (hb : b < c.m) (hi : i < c.nOut) :
    converted c.io c.std (view c.outT c.nOut c.m u b i) (view c.outT c.nOut c.m g b i)
        (view c.outT c.nOut c.m (c.prepared g v) b i) =
      Spec.adc c.io c.p true i (view c.outT c.nOut c.m u b i) (view c.outT c.nOut c.m g b i)
        (view c.outT c.nOut c.m v b i) := by
  rw [prepared_view c g v hb hi]
  unfold converted Spec.adc Ctx.std
  dsimp only
  rw [applyAsym_eq, addNoise_eq, discretize_eq, if_pos (Or.inl rfl)]
  by_cases h : 0 < c.io.outNoiseStd
  · simp only [if_pos h]
    rw [max_self, zero_mul, add_zero]
  · simp only [if_neg h]
    rw [add_zero]

theorem convertedSingle_view (c : Ctx K) (u g v : Arr K) (hb : b < c.m) (hi : i < c.nOut) :
    discretize c.io.outRes c.io.outSto (view c.outT c.nOut c.m u b i)
      (addNoise c.std (view c.outT c.nOut c.m g b i) (applyAsym c.io.outAsym
        (view c.outT c.nOut c.m (c.prepared g v) b i))) =
      Spec.adc c.io c.p false i (view c.outT c.nOut c.m u b i) (view c.outT c.nOut c.m g b i)
        (view c.outT c.nOut c.m v b i) := by
  rw [prepared_view c g v hb hi]
  unfold Spec.adc Ctx.std
  dsimp only
  rw [applyAsym_eq, addNoise_eq, discretize_eq]
  by_cases h : 0 < c.io.outNoiseStd
  · rw [if_pos (Or.inr h)]
    simp only [if_pos h]
    rw [max_self, zero_mul, add_zero]
  · simp only [if_neg h]
    rw [add_zero, if_neg (show ¬(false = true ∨ 0 < c.io.outNoiseStd) from
      fun hh => hh.elim (fun h' => absurd h' Bool.false_ne_true) h)]

/-- Whether the noise is added before the asymmetry by the output kernels. -/
def Ctx.noiseFirst (c : Ctx K) : Bool := decide (c.m ≠ 1) || decide (c.io.bm ≠ .none)

theorem finalize_plain (c : Ctx K) (hbm : c.io.bm = .none) (u g v out : Arr K) (s : St K)
    (hb : b < c.m) (hi : i < c.nOut) :
    view c.outT c.nOut c.m (c.finalize u g v out s).1 b i =
      Spec.outputs c.io c.p c.noiseFirst ((c.nmValues s.man).map fun a => a b)
        (view c.outT c.nOut c.m u b) (view c.outT c.nOut c.m g b) (view c.outT c.nOut c.m v b) i
        * c.outScale := by
  have e : (c.finalize u g v out s).1 = c.applyOutput c.std (c.nmValues s.man) u g (c.prepared g v) out := by
    unfold Ctx.finalize
    rw [if_neg (not_not.mpr hbm)]
    rfl
  rw [e]
  unfold Ctx.applyOutput Spec.outputs Ctx.noiseFirst
  have hbm' : decide (c.io.bm ≠ .none) = false := decide_eq_false (not_not.mpr hbm)
  by_cases h1 : c.m = 1
  · have e1 : (decide (c.m ≠ 1) || decide (c.io.bm ≠ .none)) = false := by
      rw [hbm', decide_eq_false (not_not.mpr h1)]; rfl
    rw [e1, ← convertedSingle_view c u g v hb hi, if_pos h1]
    obtain rfl : b = 0 := by omega
    unfold view
    rw [h1, place_one]
    unfold mapTo
    rw [if_pos hi]
    unfold outputBody
    dsimp only
    rw [outScaled_eq, boundCheck_eq]
  · have e1 : (decide (c.m ≠ 1) || decide (c.io.bm ≠ .none)) = true := by
      rw [hbm', decide_eq_true h1]; rfl
    rw [e1, ← converted_view c u g v hb hi, if_neg h1, mapTo_view hb hi, sampleOf_place hb hi]
    unfold outputBodyBatch
    rw [outScaled_eq, boundCheck_eq]
    rfl

theorem finalize_bm (c : Ctx K) (hbm : c.io.bm ≠ .none) (u g v out : Arr K) (s : St K)
    (hb : b < c.m) (hi : i < c.nOut) :
    view c.outT c.nOut c.m (c.finalize u g v out s).1 b i =
      Spec.outputs c.io c.p c.noiseFirst (some (s.scales b))
        (view c.outT c.nOut c.m u b) (view c.outT c.nOut c.m g b) (view c.outT c.nOut c.m v b) i
        * c.outScale := by
  have e : (c.finalize u g v out s).1 = c.outputBM c.std u g (c.prepared g v) out s := by
    unfold Ctx.finalize
    rw [if_pos hbm]
    rfl
  rw [e]
  unfold Ctx.outputBM Spec.outputs Ctx.noiseFirst
  have e1 : (decide (c.m ≠ 1) || decide (c.io.bm ≠ .none)) = true := by
    rw [decide_eq_true hbm, Bool.or_true]
  rw [e1, ← converted_view c u g v hb hi, mapTo_view hb hi, sampleOf_place hb hi, outScaled_eq,
    boundCheck_eq]
  rfl

/-- Scale of a sample during a round. -/
def Ctx.scaleOf (c : Ctx K) (s : St K) (b : ℕ) : Option K :=
  if c.io.bm ≠ .none then some (s.scales b) else (c.nmValues s.man).map fun a => a b

theorem finalize_view (c : Ctx K) (u g v out : Arr K) (s : St K) (hb : b < c.m) (hi : i < c.nOut) :
    view c.outT c.nOut c.m (c.finalize u g v out s).1 b i =
      Spec.outputs c.io c.p c.noiseFirst (c.scaleOf s b)
        (view c.outT c.nOut c.m u b) (view c.outT c.nOut c.m g b) (view c.outT c.nOut c.m v b) i
        * c.outScale := by
  unfold Ctx.scaleOf
  by_cases h : c.io.bm = .none
  · rw [if_neg (not_not.mpr h)]; exact finalize_plain c h u g v out s hb hi
  · rw [if_pos h]; exact finalize_bm c h u g v out s hb hi

theorem finalize_st (c : Ctx K) (u g v out : Arr K) (s : St K) :
    (c.finalize u g v out s).2.1.scales = s.scales ∧ (c.finalize u g v out s).2.1.man = s.man ∧
      (c.finalize u g v out s).2.1.inPN = s.inPN ∧ (c.finalize u g v out s).2.1.buf = s.buf ∧
      (c.finalize u g v out s).2.1.bufPN = s.bufPN ∧ (c.finalize u g v out s).2.1.red = s.red ∧
      (c.finalize u g v out s).2.1.round = s.round := by
  unfold Ctx.finalize
  dsimp only
  split
  · exact ⟨rfl, rfl, rfl, rfl, rfl, rfl, rfl⟩
  · exact ⟨rfl, rfl, rfl, rfl, rfl, rfl, rfl⟩

/-! ## The pass over converted inputs -/

/-- The pass over inputs that are already converted. -/
def afterInput (io : CppFwd.IO K) (sq : K → K) (p : MVPar K) (n : ℕ) (w wn : ℕ → ℕ → K) (first : Bool)
    (s : Option K) (dr : CppFwd.Draws K) (xin : ℕ → K) (i : ℕ) : K :=
  let neg := io.singlePass sq p n wn (fun j => min (xin j) 0) (dr.wG false)
  let pos := io.singlePass sq p n w (fun j => max (xin j) 0) (dr.wG true)
  match io.mvType with
  | .posNeg => Spec.outputs io p first s (dr.outU true) (dr.outG true) (fun i => neg i + pos i) i
  | .posNegDigital =>
    Spec.outputs io p first s (dr.outU false) (dr.outG false) neg i
      + Spec.outputs io p first s (dr.outU true) (dr.outG true) pos i
  | _ => Spec.outputs io p first s (dr.outU true) (dr.outG true) (io.singlePass sq p n w xin (dr.wG true)) i

theorem outputs_congr (io : CppFwd.IO K) (p : MVPar K) (first : Bool) (s : Option K) (u g y y' : ℕ → K)
    (i : ℕ) (h : y i = y' i) : Spec.outputs io p first s u g y i = Spec.outputs io p first s u g y' i := by
  unfold Spec.outputs; rw [h]

theorem negView (c : Ctx K) (x old : Arr K) (f : K → K) (j : ℕ) (hb : b < c.m) (hj : j < c.nIn) :
    view c.inT c.nIn c.m (mapTo (c.nIn * c.m) (fun _ v => f v) x old) b j =
      f (view c.inT c.nIn c.m x b j) := mapTo_view hb hj _ _ _

/-- The inputs are where they are expected: either there is one pass, or they are not in the buffer of the
separated inputs. -/
theorem analogMV_view (c : Ctx K) (hsq : ∀ a v : K, 0 ≤ a → sq (a * a * v) = a * sq v)
    (dr : Draws K) (junk out : Arr K) (s : St K)
    (hin : c.io.mvType = .onePass ∨ s.inPN = false) (z : Arr K × St K × Bool)
    (hz : c.analogMV sq dr junk out s = .ok z) (hb : b < c.m) (hi : i < c.nOut) :
    view c.outT c.nOut c.m z.1 b i =
      afterInput c.io sq c.p c.nIn (c.mat c.W) (c.mat c.negW) c.noiseFirst (c.scaleOf s b)
        (c.drawsOf dr b) (view c.inT c.nIn c.m s.inBuf b) i * c.outScale := by
  unfold Ctx.analogMV at hz
  unfold afterInput
  cases ht : c.io.mvType with
  | onePass =>
    rw [ht] at hz
    obtain rfl := Except.ok.inj hz
    dsimp only
    rw [finalize_view c _ _ _ _ _ hb hi]
    congr 1
    exact outputs_congr _ _ _ _ _ _ _ _ _ (singlePass_view c hsq _ _ _ _ hb hi)
  | posNeg =>
    have hin' : s.inPN = false := by
      rcases hin with h | h
      · rw [ht] at h; cases h
      · exact h
    rw [ht] at hz
    obtain rfl := Except.ok.inj hz
    dsimp only
    rw [finalize_view c _ _ _ _ _ hb hi]
    congr 1
    refine outputs_congr _ _ _ _ _ _ _ _ _ ?_
    show view _ _ _ (c.singlePass sq c.negW _ _ junk) b i + view _ _ _ (c.singlePass sq c.W _ _ junk) b i = _
    rw [singlePass_view c hsq _ _ _ _ hb hi, singlePass_view c hsq _ _ _ _ hb hi]
    unfold Ctx.separatePos Ctx.separateNeg St.inBuf
    rw [hin']
    simp only [if_true, Bool.false_eq_true, if_false]
    rw [singlePass_congr (x' := fun j => min (view c.inT c.nIn c.m s.buf b j) 0) c.io c.p c.nIn
      (c.mat c.negW) _ _ (fun j hj => negView c _ _ (fun v => min v 0) j hb hj),
      singlePass_congr (x' := fun j => max (view c.inT c.nIn c.m s.buf b j) 0) c.io c.p c.nIn
      (c.mat c.W) _ _ (fun j hj => negView c _ _ (fun v => max v 0) j hb hj)]
    rfl
  | posNegDigital =>
    have hin' : s.inPN = false := by
      rcases hin with h | h
      · rw [ht] at h; cases h
      · exact h
    rw [ht] at hz
    obtain rfl := Except.ok.inj hz
    dsimp only
    rw [mapTo_view hb hi, add_mul]
    have f1 := finalize_view c (dr.outU false) (dr.outG false)
      (c.singlePass sq c.negW (dr.wG false) (c.separateNeg s).inBuf junk) junk (c.separateNeg s) hb hi
    obtain ⟨q1, q2, q3, q4, q5, _, _⟩ := finalize_st c (dr.outU false) (dr.outG false)
      (c.singlePass sq c.negW (dr.wG false) (c.separateNeg s).inBuf junk) junk (c.separateNeg s)
    generalize c.finalize (dr.outU false) (dr.outG false)
      (c.singlePass sq c.negW (dr.wG false) (c.separateNeg s).inBuf junk) junk (c.separateNeg s) = a
      at f1 q1 q2 q3 q4 q5
    have f2 := finalize_view c (dr.outU true) (dr.outG true)
      (c.singlePass sq c.W (dr.wG true) (c.separatePos s.inPN a.2.1).inBuf junk)
      (c.separatePos s.inPN a.2.1).bufPN (c.separatePos s.inPN a.2.1) hb hi
    have hsc : c.scaleOf (c.separatePos s.inPN a.2.1) b = c.scaleOf s b := by
      show (if c.io.bm ≠ .none then some (a.2.1.scales b) else (c.nmValues a.2.1.man).map fun x => x b) = _
      rw [q1, q2]; rfl
    have f1' : a.1 (place c.outT c.nOut c.m b i) = _ := f1
    have f2' : (c.finalize (dr.outU true) (dr.outG true)
      (c.singlePass sq c.W (dr.wG true) (c.separatePos s.inPN a.2.1).inBuf junk)
      (c.separatePos s.inPN a.2.1).bufPN (c.separatePos s.inPN a.2.1)).1 (place c.outT c.nOut c.m b i) = _ := f2
    rw [f1', f2', hsc]
    congr 1
    · congr 1
      refine outputs_congr _ _ _ _ _ _ _ _ _ ?_
      rw [singlePass_view c hsq _ _ _ _ hb hi]
      unfold Ctx.separateNeg St.inBuf
      rw [hin']
      simp only [if_true, Bool.false_eq_true, if_false]
      rw [singlePass_congr (x' := fun j => min (view c.inT c.nIn c.m s.buf b j) 0) c.io c.p c.nIn
        (c.mat c.negW) _ _ (fun j hj => negView c _ _ (fun v => min v 0) j hb hj)]
      rfl
    · congr 1
      refine outputs_congr _ _ _ _ _ _ _ _ _ ?_
      rw [singlePass_view c hsq _ _ _ _ hb hi]
      have q3' : (c.separatePos s.inPN a.2.1).inPN = true := q3
      have e : (c.separatePos s.inPN a.2.1).inBuf =
          mapTo (c.nIn * c.m) (fun _ v => max v 0) s.buf a.2.1.bufPN := by
        unfold St.inBuf
        rw [q3', if_pos rfl]
        unfold Ctx.separatePos
        rw [hin', if_neg Bool.false_ne_true, q4]
        rfl
      rw [e]
      unfold St.inBuf
      rw [hin']
      simp only [Bool.false_eq_true, if_false]
      rw [singlePass_congr (x' := fun j => max (view c.inT c.nIn c.m s.buf b j) 0) c.io c.p c.nIn
        (c.mat c.W) _ _ (fun j hj => negView c _ _ (fun v => max v 0) j hb hj)]
      rfl
  | ideal => rw [ht] at hz; cases hz
  | splitMode => rw [ht] at hz; cases hz
  | bitWise => rw [ht] at hz; cases hz

end Aihw.GpuIo

import Verif.GpuIo.Lost
import Mathlib.Tactic.Ring

/-!
# The pass on the GPU and on the CPU
-/
open scoped BigOperators

namespace Aihw.GpuIo

open Aihw.CppFwd (MVPar)
open Aihw.GpuNm (place nBlocks Man Req)

variable {K : Type} [Field K] [LinearOrder K] [IsStrictOrderedRing K] [FloorRing K]
variable {c : Ctx K} {sq : K → K}

theorem clip_agree (b : Option K) (v : K) : CppFwd.clipB b v = Spec.limitTo b v := by
  rw [← boundCheck_eq]
  rfl

theorem disc_agree (sto : Bool) (res u v : K) : CppFwd.disc sto res u v = Spec.toSteps res sto u v := by
  unfold CppFwd.disc Spec.toSteps
  by_cases h : 0 < res
  · rw [if_pos h, if_neg (not_le.mpr h)]
    cases sto <;> simp
  · rw [if_neg h, if_pos (not_lt.mp h)]

theorem asymm_agree (a v : K) : (if a ≠ 0 then CppFwd.asymm a v else v) = Spec.slope a v := by
  unfold CppFwd.asymm Spec.slope
  by_cases h : a = 0
  · rw [if_neg (not_not.mpr h), h, sub_zero, one_mul, ite_self]
  · rw [if_pos h, mul_comm]

theorem input_agree (io : CppFwd.IO K) (h : io.inpNoise ≤ 0 ∨ io.inpBound = none) (s : Option K)
    (hs : ∀ v : K, s = some v → 0 < v) (u g v : K) (scale : K) (scaling : Bool)
    (hc : (s = none ∧ scaling = false) ∨ ∃ a : K, s = some a ∧ scaling = true ∧ scale = 1 / a) :
    io.prepare scale scaling u g v = Spec.input io s u g v := by
  have hsc : (if scaling then v * scale else v) = ((s.elim v) fun s => if 0 < s then v / s else v) := by
    rcases hc with ⟨rfl, rfl⟩ | ⟨a, rfl, rfl, rfl⟩
    · rfl
    · rw [if_pos rfl]
      dsimp only [Option.elim]
      rw [if_pos (hs a rfl), mul_one_div]
  unfold CppFwd.IO.prepare Spec.input
  dsimp only
  rw [hsc, asymm_agree, clip_agree, disc_agree]
  congr 1
  by_cases hn : 0 < io.inpNoise
  · have hb : io.inpBound = none := h.resolve_left (not_le.mpr hn)
    rw [if_pos hn, hb, max_eq_left hn.le]
    rfl
  · rw [if_neg hn, max_eq_right (not_lt.mp hn), zero_mul, add_zero]

/-- The converters of the outputs agree: nothing depends on the order of noise and asymmetry, and the
parameters are not negative. -/
def SameOut (io : CppFwd.IO K) (one : Bool) : Prop :=
  0 ≤ io.outNoise ∧ 0 ≤ io.outAsym ∧
    (io.outAsym = 0 ∨ (io.outNoiseStd ≤ 0 ∧ (io.outNoise = 0 ∨ one = true)))

theorem slope_zero (v : K) : Spec.slope 0 v = v := by
  unfold Spec.slope; rw [sub_zero, one_mul, ite_self]

theorem adc_agree (io : CppFwd.IO K) (p : MVPar K) (first : Bool) (h : SameOut io (!first)) (i : ℕ)
    (u g v : K) : io.adc p i u g v = Spec.adc io p first i u g v := by
  obtain ⟨h1, h2, h3⟩ := h
  unfold CppFwd.IO.adc Spec.adc
  dsimp only
  rw [disc_agree, max_eq_left h1]
  congr 1
  generalize (if io.hasNLCal = true then p.nlf * v / (1 + |p.nl i * v|) else v) = y
  have e : (if 0 < io.outAsym then CppFwd.asymm io.outAsym y else y) = Spec.slope io.outAsym y := by
    by_cases ha : 0 < io.outAsym
    · rw [if_pos ha, ← asymm_agree, if_pos ha.ne']
    · have : io.outAsym = 0 := le_antisymm (not_lt.mp ha) h2
      rw [if_neg ha, this, slope_zero]
  rw [e]
  rcases h3 with h3 | ⟨h3, h4⟩
  · rw [h3, slope_zero, slope_zero, ite_self]
  · rw [if_neg (not_lt.mpr h3)]
    rcases h4 with h4 | h4
    · rw [h4, zero_mul, add_zero, add_zero, ite_self]
    · have : first = false := by cases first <;> simp_all
      rw [if_neg (fun hh => hh.elim (fun x => by rw [this] at x; cases x) (not_lt.mpr h3))]

theorem singlePass_mat (io : CppFwd.IO K) (p : MVPar K) (n : ℕ) (w w' : ℕ → ℕ → K) (x : ℕ → K)
    (g : ℕ → K) (i : ℕ) (h : ∀ j : ℕ, j < n → w i j = w' i j) :
    io.singlePass sq p n w x g i = io.singlePass sq p n w' x g i := by
  have hmv : ∀ x : ℕ → K, CppFwd.mv n w x i = CppFwd.mv n w' x i := fun x =>
    Finset.sum_congr rfl fun j hj => by rw [h j (Finset.mem_range.mp hj)]
  have hcur : ∀ x : ℕ → K, CppFwd.current n w x i = CppFwd.current n w' x i := fun x =>
    Finset.sum_congr rfl fun j hj => by rw [h j (Finset.mem_range.mp hj)]
  have hvar : ∀ x : ℕ → K, ∑ j ∈ Finset.range n, |w i j| * (x j * x j) =
      ∑ j ∈ Finset.range n, |w' i j| * (x j * x j) := fun x =>
    Finset.sum_congr rfl fun j hj => by rw [h j (Finset.mem_range.mp hj)]
  unfold CppFwd.IO.singlePass
  have e1 : (if 0 < io.irDrop then io.irDropped n w x (CppFwd.mv n w x) else CppFwd.mv n w x) i =
      (if 0 < io.irDrop then io.irDropped n w' x (CppFwd.mv n w' x) else CppFwd.mv n w' x) i := by
    split
    · unfold CppFwd.IO.irDropped
      dsimp only
      rw [hmv, hcur, hmv]
    · exact hmv x
  generalize (if 0 < io.irDrop then io.irDropped n w x (CppFwd.mv n w x) else CppFwd.mv n w x) = y at e1
  generalize (if 0 < io.irDrop then io.irDropped n w' x (CppFwd.mv n w' x) else CppFwd.mv n w' x) = y' at e1
  have e2 : (if io.hasVO = true then io.voltage p n x y else y) i =
      (if io.hasVO = true then io.voltage p n x y' else y') i := by
    split
    · unfold CppFwd.IO.voltage
      dsimp only
      rw [e1]
    · exact e1
  generalize (if io.hasVO = true then io.voltage p n x y else y) = y at e2
  generalize (if io.hasVO = true then io.voltage p n x y' else y') = y' at e2
  unfold CppFwd.IO.weightNoise
  cases io.wNoiseType <;> dsimp only
  · exact e2
  · rw [e2]
  · rw [e2, hvar]

/-- The weights as the CPU stores them. -/
def Ctx.cpuW (c : Ctx K) (i j : ℕ) : K := c.W (j * c.dSz + i)

theorem mat_eff (c : Ctx K) (i j : ℕ) : CppFwd.eff c.tr c.cpuW i j = c.mat c.W i j := by
  unfold CppFwd.eff Ctx.mat Ctx.cpuW
  split <;> rfl

theorem neg_eff (c : Ctx K) (i j : ℕ) (hi : i < c.nOut) (hj : j < c.nIn) :
    CppFwd.eff c.tr (if 0 < c.io.wReadAsym then fun i j => c.cpuW i j * c.p.wAsym i j else c.cpuW) i j =
      c.mat c.negW i j := by
  by_cases h : 0 < c.io.wReadAsym
  · unfold CppFwd.eff Ctx.mat Ctx.negW Ctx.cpuW
    rw [if_pos h, if_pos h]
    cases ht : c.tr with
    | true =>
      have hj' : j < c.dSz := by unfold Ctx.nIn at hj; rw [ht] at hj; exact hj
      simp only [if_true]
      rw [Nat.mul_comm i, Nat.mul_add_mod, Nat.mod_eq_of_lt hj', Nat.mul_add_div (by omega),
        Nat.div_eq_of_lt hj', Nat.add_zero]
    | false =>
      have hi' : i < c.dSz := by unfold Ctx.nOut at hi; rw [ht] at hi; exact hi
      simp only [Bool.false_eq_true, if_false]
      rw [Nat.mul_comm j, Nat.mul_add_mod, Nat.mod_eq_of_lt hi', Nat.mul_add_div (by omega),
        Nat.div_eq_of_lt hi', Nat.add_zero]
  · rw [if_neg h, mat_eff]
    unfold Ctx.negW
    rw [if_neg h]

theorem analog_agree (c : Ctx K) (one : Bool) (h : c.io.inpNoise ≤ 0 ∨ c.io.inpBound = none)
    (hout : SameOut c.io one) (s : Option K) (hs : ∀ v : K, s = some v → 0 < v) (dr : CppFwd.Draws K)
    (x : ℕ → K) (scale : K) (scaling : Bool)
    (hc : (s = none ∧ scaling = false) ∨ ∃ a : K, s = some a ∧ scaling = true ∧ scale = 1 / a)
    (r : (ℕ → K) × Bool)
    (hr : c.io.analogMV sq c.p c.nIn c.nOut c.tr c.cpuW dr scale scaling x = .ok r) (i : ℕ)
    (hi : i < c.nOut) :
    Spec.sample c.io sq c.p c.nIn (c.mat c.W) (c.mat c.negW) (!one) s dr x i = r.1 i * s.getD 1 := by
  have hout' : SameOut c.io (!(!one)) := by rw [Bool.not_not]; exact hout
  have hx : ∀ j : ℕ, c.io.prepare scale scaling (dr.inU j) (dr.inG j) (x j) =
      Spec.input c.io s (dr.inU j) (dr.inG j) (x j) := fun j =>
    input_agree c.io h s hs _ _ _ _ _ hc
  have hback : ∀ v : K, Spec.back s v = v * s.getD 1 := by
    intro v
    unfold Spec.back
    cases hse : s with
    | none => exact (mul_one v).symm
    | some a =>
      dsimp only [Option.elim, Option.getD]
      rw [if_pos (hs a hse)]
  have hfin : ∀ (b : Bool) (y y' : ℕ → K), y i = y' i → Spec.outputs c.io c.p (!one) s (dr.outU b) (dr.outG b) y i =
      (c.io.finalize c.p c.nOut dr b y').1 i * s.getD 1 := by
    intro b y y' hy
    unfold Spec.outputs CppFwd.IO.finalize
    dsimp only
    rw [hback, clip_agree, adc_agree c.io c.p (!one) hout', hy]
  have hsW : ∀ (x : ℕ → K) (g : ℕ → K), c.io.singlePass sq c.p c.nIn (c.mat c.W) x g i =
      c.io.singlePass sq c.p c.nIn (CppFwd.eff c.tr c.cpuW) x g i := fun x g =>
    singlePass_mat c.io c.p c.nIn _ _ x g i fun j hj => (mat_eff c i j).symm
  have hsN : ∀ (x : ℕ → K) (g : ℕ → K), c.io.singlePass sq c.p c.nIn (c.mat c.negW) x g i =
      c.io.singlePass sq c.p c.nIn (CppFwd.eff c.tr
        (if 0 < c.io.wReadAsym then fun i j => c.cpuW i j * c.p.wAsym i j else c.cpuW)) x g i := fun x g =>
    singlePass_mat c.io c.p c.nIn _ _ x g i fun j hj => (neg_eff c i j hi hj).symm
  have emin : ∀ v : K, (if v < 0 then v else 0) = min v 0 := by
    intro v
    by_cases hv : v < 0
    · rw [if_pos hv, min_eq_left hv.le]
    · rw [if_neg hv, min_eq_right (not_lt.mp hv)]
  have emax : ∀ v : K, (if 0 < v then v else 0) = max v 0 := by
    intro v
    by_cases hv : 0 < v
    · rw [if_pos hv, max_eq_left hv.le]
    · rw [if_neg hv, max_eq_right (not_lt.mp hv)]
  unfold CppFwd.IO.analogMV at hr
  unfold Spec.sample
  simp only [hx, emin, emax] at hr
  cases ht : c.io.mvType with
  | onePass =>
    rw [ht] at hr
    obtain rfl := Except.ok.inj hr
    exact hfin true _ _ (hsW _ _)
  | posNeg =>
    rw [ht] at hr
    obtain rfl := Except.ok.inj hr
    dsimp only
    refine hfin true _ _ ?_
    rw [hsW, hsN, add_comm]
  | posNegDigital =>
    rw [ht] at hr
    obtain rfl := Except.ok.inj hr
    dsimp only
    rw [hfin false _ _ (hsN _ _), hfin true _ _ (hsW _ _), ← add_mul, add_comm]
  | ideal => rw [ht] at hr; cases hr
  | splitMode => rw [ht] at hr; cases hr
  | bitWise => rw [ht] at hr; cases hr

theorem sample_zero (io : CppFwd.IO K) (p : MVPar K) (n : ℕ) (w wn : ℕ → ℕ → K) (first : Bool) (v : K)
    (hv : v ≤ 0) (dr : CppFwd.Draws K) (x : ℕ → K) (i : ℕ) :
    Spec.sample io sq p n w wn first (some v) dr x i = 0 := by
  have hb : ∀ y : K, Spec.back (some v) y = 0 := by
    intro y
    unfold Spec.back
    dsimp only [Option.elim]
    rw [if_neg (not_lt.mpr hv)]
  unfold Spec.sample Spec.outputs
  cases io.mvType <;> simp only [hb, add_zero]

/-- Forward, without bound management: for a sample with the same value of noise management and the same
random numbers, the pass on the CPU and that on the GPU agree, unless the order of operations differs: with
both input noise and an input bound, or both output noise and output asymmetry (the same order only for a
single sample without variation of the noise between outputs). A scale of zero gives zero on both if there
is no input noise. -/
theorem C99_forward_as_cpu (c : Ctx K) (t : CppFwd.Pass K) (hio : c.io = t.f) (hpar : c.p = t.fm)
    (hX : c.xSz = t.X) (hD : c.dSz = t.D) (htr : c.tr = false) (hperf : t.f.isPerfect = false)
    (hbm : c.io.bm = .none)
    (hin : c.io.inpNoise ≤ 0 ∨ c.io.inpBound = none) (hout : SameOut c.io (decide (c.m = 1)))
    (hsq : ∀ a v : K, 0 ≤ a → sq (a * a * v) = a * sq v) (nth : ℕ) (lowest : K) (dr : ℕ → Draws K)
    (junk : ℕ → Arr K) (r : ℕ → Req K) (f : ℕ) (x out : Arr K) (s : St K) (z : Arr K × St K)
    (hz : c.pass nth lowest sq dr junk r (f + 1) x out s = .ok z) (b i : ℕ) (hb : b < c.m) (hi : i < c.dSz)
    (cdr : ℕ → CppFwd.Draws K) (hdr : cdr 0 = c.drawsOf (dr f) b) (v aux aux' : K)
    (hnm : t.f.computeNM t.X (fun j => x (place c.inT c.xSz c.m b j)) aux = .ok (v, aux'))
    (hsame : ∀ man : Man K, s.man.compute c.nIn nth lowest c.io.nm c.io (r (f + 1)) = .ok man →
      c.io.nm ≠ .none → (man.values.getD fun _ => 0) b = v)
    (hpos : c.io.nm = .none ∨ 0 < v ∨ c.io.inpNoise ≤ 0)
    (y : (ℕ → K) × K)
    (hy : t.forward sq c.cpuW c.alpha cdr (fun j => x (place c.inT c.xSz c.m b j)) aux = .ok y) :
    z.1 (place c.outT c.dSz c.m b i) = y.1 i := by
  have eo : c.nOut = c.dSz := by unfold Ctx.nOut; rw [htr]; rfl
  have ei : c.nIn = c.xSz := by unfold Ctx.nIn; rw [htr]; rfl
  obtain ⟨man, hman, hres⟩ := C99_pass c hbm hsq nth lowest dr junk r f x out s z hz hb (i := i) (by rw [eo]; exact hi)
  rw [eo] at hres
  rw [hres]
  have hval : (if c.io.nm ≠ .none then some ((man.values.getD fun _ => 0) b) else none) =
      if c.io.nm ≠ .none then some v else none := by
    by_cases hn : c.io.nm = .none
    · rw [if_neg (not_not.mpr hn), if_neg (not_not.mpr hn)]
    · rw [if_pos hn, if_pos hn, hsame man hman hn]
  rw [hval, ei]
  have hone : decide (c.m ≠ 1) = !decide (c.m = 1) := by simp
  rw [hone]
  unfold CppFwd.Pass.forward at hy
  rw [hperf, if_neg Bool.false_ne_true, hnm] at hy
  dsimp only at hy
  rw [← hio] at hy
  generalize (fun j => x (place c.inT c.xSz c.m b j)) = xs at hy
  by_cases hcut : c.io.nm ≠ .none ∧ v ≤ 0 ∧ c.io.inpNoise ≤ 0
  · rw [if_pos hcut] at hy
    obtain rfl := Except.ok.inj hy
    rw [if_pos hcut.1, sample_zero _ _ _ _ _ _ _ hcut.2.1, mul_zero]
  · rw [if_neg hcut] at hy
    have hv : c.io.nm ≠ .none → 0 < v := by
      intro hn
      rcases hpos with h | h | h
      · exact absurd h hn
      · exact h
      · by_contra hh
        exact hcut ⟨hn, not_lt.mp hh, h⟩
    have hs' : c.io.nextRound t.X xs ⟨0, v, 1 / 2⟩ = ⟨1, v, 1 / 2 * 2⟩ := by
      unfold CppFwd.IO.nextRound
      rw [if_neg (fun hh => by have := hh.1; cases this)]
    unfold CppFwd.IO.fuel CppFwd.IO.bmLoop at hy
    rw [hs', ← hpar, ← hX, ← hD, hdr] at hy
    dsimp only at hy
    have hscale : c.io.scaleOf (⟨1, v, 1 / 2 * 2⟩ : CppFwd.LoopSt K) = if c.io.nm ≠ .none then 1 / v else 1 := by
      unfold CppFwd.IO.scaleOf
      dsimp only
      rw [if_neg (not_not.mpr hbm)]
      by_cases hn : c.io.nm = .none
      · rw [if_neg (fun hh => hh.1 hn), if_neg (not_not.mpr hn)]
      · rw [if_pos ⟨hn, hv hn⟩, if_pos hn]
    have hscaling : c.io.scalingOf (⟨1, v, 1 / 2 * 2⟩ : CppFwd.LoopSt K) = decide (c.io.nm ≠ .none) := by
      unfold CppFwd.IO.scalingOf
      rw [decide_eq_false (not_not.mpr hbm), Bool.or_false]
      refine decide_eq_decide.mpr ⟨fun hh => hh.1, fun hh => ⟨hh, hv hh⟩⟩
    rw [hscale, hscaling] at hy
    cases ha : c.io.analogMV sq c.p c.xSz c.dSz false c.cpuW (c.drawsOf (dr f) b)
        (if c.io.nm ≠ .none then 1 / v else 1) (decide (c.io.nm ≠ .none)) xs with
    | error e => rw [ha] at hy; cases hy
    | ok q =>
      rw [ha] at hy
      dsimp only at hy
      rw [if_pos (Or.inl hbm)] at hy
      dsimp only at hy
      have hA := analog_agree c (decide (c.m = 1)) hin hout (if c.io.nm ≠ .none then some v else none)
        (by
          intro a hh
          by_cases hn : c.io.nm = .none
          · rw [if_neg (not_not.mpr hn)] at hh; cases hh
          · rw [if_pos hn] at hh; injection hh with hh; rw [← hh]; exact hv hn)
        (c.drawsOf (dr f) b) xs (if c.io.nm ≠ .none then 1 / v else 1) (decide (c.io.nm ≠ .none))
        (by
          by_cases hn : c.io.nm = .none
          · left; exact ⟨if_neg (not_not.mpr hn), decide_eq_false (not_not.mpr hn)⟩
          · right; exact ⟨v, if_pos hn, decide_eq_true hn, if_pos hn⟩)
        q (by rw [ei, eo, htr]; exact ha) i (by rw [eo]; exact hi)
      rw [ei] at hA
      rw [hA]
      rw [hscaling, hscale] at hy
      by_cases hn : c.io.nm = .none
      · rw [if_neg (not_not.mpr hn)]
        dsimp only [Option.getD]
        rw [mul_one]
        rw [if_neg (not_not.mpr hn), decide_eq_false (not_not.mpr hn)] at hy
        split at hy
        · obtain rfl := Except.ok.inj hy
          dsimp only
          rw [div_one, mul_comm c.alpha]
        · rename_i hh
          obtain rfl := Except.ok.inj hy
          have : c.io.outScale * c.alpha = 1 := by
            by_contra h1; exact hh (Or.inr h1)
          dsimp only
          rw [mul_comm c.alpha, this, one_mul]
      · rw [if_pos hn]
        dsimp only [Option.getD]
        rw [if_pos hn, decide_eq_true hn, if_pos (Or.inl rfl)] at hy
        obtain rfl := Except.ok.inj hy
        dsimp only
        rw [one_div, div_inv_eq_mul]
        ring

/-- The backward pass of the CPU with parameters that are not perfect. -/
def backwardWith (sq : K → K) (p : MVPar K) (D X : ℕ) (w : ℕ → ℕ → K) (al : K) (dr : CppFwd.Draws K)
    (d : ℕ → K) (aux : K) (io : CppFwd.IO K) : Except PyErr ((ℕ → K) × K) :=
  match io.computeNM D d aux with
  | .error e => .error e
  | .ok (v, aux') =>
    if io.nm ≠ .none ∧ v ≤ 0 then .ok (fun _ => 0, aux')
    else
      match io.analogMV sq p D X true w dr (1 / v) (decide (io.nm ≠ .none ∧ 0 < v)) d with
      | .error e => .error e
      | .ok r =>
        if decide (io.nm ≠ .none ∧ 0 < v) = true ∨ io.outScale * al ≠ 1 then
          .ok (fun j => io.outScale * al * v * r.1 j, aux')
        else .ok (r.1, aux')

/-- Backward, likewise; a value of noise management that is not positive gives zero on both. -/
theorem C99_backward_as_cpu (c : Ctx K) (t : CppFwd.Pass K) (hio : c.io = { t.b with bm := .none })
    (hpar : c.p = t.bm) (hX : c.xSz = t.X) (hD : c.dSz = t.D) (htr : c.tr = true)
    (hperf : t.b.isPerfect = false)
    (hin : c.io.inpNoise ≤ 0 ∨ c.io.inpBound = none) (hout : SameOut c.io (decide (c.m = 1)))
    (hsq : ∀ a v : K, 0 ≤ a → sq (a * a * v) = a * sq v) (nth : ℕ) (lowest : K) (dr : ℕ → Draws K)
    (junk : ℕ → Arr K) (r : ℕ → Req K) (f : ℕ) (d out : Arr K) (s : St K) (z : Arr K × St K)
    (hz : c.pass nth lowest sq dr junk r (f + 1) d out s = .ok z) (b j : ℕ) (hb : b < c.m) (hj : j < c.xSz)
    (v aux aux' : K)
    (hnm : c.io.computeNM t.D (fun i => d (place c.inT c.dSz c.m b i)) aux = .ok (v, aux'))
    (hsame : ∀ man : Man K, s.man.compute c.nIn nth lowest c.io.nm c.io (r (f + 1)) = .ok man →
      c.io.nm ≠ .none → (man.values.getD fun _ => 0) b = v)
    (y : (ℕ → K) × K)
    (hy : t.backward sq c.cpuW c.alpha (c.drawsOf (dr f) b) (fun i => d (place c.inT c.dSz c.m b i)) aux =
      .ok y) :
    z.1 (place c.outT c.xSz c.m b j) = y.1 j := by
  have hbm : c.io.bm = .none := by rw [hio]
  have eo : c.nOut = c.xSz := by unfold Ctx.nOut; rw [htr]; rfl
  have ei : c.nIn = c.dSz := by unfold Ctx.nIn; rw [htr]; rfl
  obtain ⟨man, hman, hres⟩ := C99_pass c hbm hsq nth lowest dr junk r f d out s z hz hb (i := j) (by rw [eo]; exact hj)
  rw [eo] at hres
  rw [hres]
  have hval : (if c.io.nm ≠ .none then some ((man.values.getD fun _ => 0) b) else none) =
      if c.io.nm ≠ .none then some v else none := by
    by_cases hn : c.io.nm = .none
    · rw [if_neg (not_not.mpr hn), if_neg (not_not.mpr hn)]
    · rw [if_pos hn, if_pos hn, hsame man hman hn]
  rw [hval, ei]
  have hone : decide (c.m ≠ 1) = !decide (c.m = 1) := by simp
  rw [hone]
  unfold CppFwd.Pass.backward at hy
  rw [hperf, if_neg Bool.false_ne_true] at hy
  replace hy : backwardWith sq t.bm t.D t.X c.cpuW c.alpha (c.drawsOf (dr f) b)
      (fun i => d (place c.inT c.dSz c.m b i)) aux ({ t.b with bm := .none }) = .ok y := hy
  rw [← hio] at hy
  unfold backwardWith at hy
  rw [hnm] at hy
  dsimp only at hy
  have hv1 : c.io.nm = .none → v = 1 := by
    intro hn
    unfold CppFwd.IO.computeNM at hnm
    rw [hn] at hnm
    injection hnm with hnm
    injection hnm with h1 _
    exact h1.symm
  generalize (fun i => d (place c.inT c.dSz c.m b i)) = xs at hy
  by_cases hcut : c.io.nm ≠ .none ∧ v ≤ 0
  · rw [if_pos hcut] at hy
    obtain rfl := Except.ok.inj hy
    rw [if_pos hcut.1, sample_zero _ _ _ _ _ _ _ hcut.2, mul_zero]
  · rw [if_neg hcut] at hy
    have hv : c.io.nm ≠ .none → 0 < v := by
      intro hn
      by_contra hh
      exact hcut ⟨hn, not_lt.mp hh⟩
    have hscaling : decide (c.io.nm ≠ .none ∧ 0 < v) = decide (c.io.nm ≠ .none) :=
      decide_eq_decide.mpr ⟨fun hh => hh.1, fun hh => ⟨hh, hv hh⟩⟩
    rw [hscaling, ← hpar, ← hX, ← hD] at hy
    cases ha : c.io.analogMV sq c.p c.dSz c.xSz true c.cpuW (c.drawsOf (dr f) b) (1 / v)
        (decide (c.io.nm ≠ .none)) xs with
    | error e => rw [ha] at hy; cases hy
    | ok q =>
      rw [ha] at hy
      dsimp only at hy
      have hA := analog_agree c (decide (c.m = 1)) hin hout (if c.io.nm ≠ .none then some v else none)
        (by
          intro a hh
          by_cases hn : c.io.nm = .none
          · rw [if_neg (not_not.mpr hn)] at hh; cases hh
          · rw [if_pos hn] at hh; injection hh with hh; rw [← hh]; exact hv hn)
        (c.drawsOf (dr f) b) xs (1 / v) (decide (c.io.nm ≠ .none))
        (by
          by_cases hn : c.io.nm = .none
          · left; exact ⟨if_neg (not_not.mpr hn), decide_eq_false (not_not.mpr hn)⟩
          · right; exact ⟨v, if_pos hn, decide_eq_true hn, rfl⟩)
        q (by rw [ei, eo, htr]; exact ha) j (by rw [eo]; exact hj)
      rw [ei] at hA
      rw [hA]
      by_cases hn : c.io.nm = .none
      · rw [if_neg (not_not.mpr hn)]
        dsimp only [Option.getD]
        rw [mul_one]
        rw [decide_eq_false (not_not.mpr hn)] at hy
        split at hy
        · obtain rfl := Except.ok.inj hy
          dsimp only
          rw [hv1 hn, mul_one, mul_comm c.alpha]
        · rename_i hh
          obtain rfl := Except.ok.inj hy
          have : c.io.outScale * c.alpha = 1 := by
            by_contra h1; exact hh (Or.inr h1)
          dsimp only
          rw [mul_comm c.alpha, this, one_mul]
      · rw [if_pos hn]
        dsimp only [Option.getD]
        rw [decide_eq_true hn, if_pos (Or.inl rfl)] at hy
        obtain rfl := Except.ok.inj hy
        dsimp only
        ring

end Aihw.GpuIo

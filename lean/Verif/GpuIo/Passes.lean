import Verif.GpuIo.Lemmas

/-!
# Non-idealities and converters, sample by sample
-/
open scoped BigOperators

namespace Aihw.GpuIo

open Aihw.CppFwd (MVPar)
open Aihw.GpuNm (place nBlocks)

variable {K : Type} [Field K] [LinearOrder K] [IsStrictOrderedRing K] [FloorRing K]

variable {c : Ctx K} {sq : K → K} {b i : ℕ}

theorem product_mv (c : Ctx K) (W inp out : Arr K) (b i : ℕ) (hb : b < c.m) (hi : i < c.nOut) :
    view c.outT c.nOut c.m (c.product W inp out 1) b i =
      CppFwd.mv c.nIn (c.mat W) (view c.inT c.nIn c.m inp b) i := by
  rw [product_view c W inp out 1 b i hb hi, one_mul]; rfl

theorem mat_abs (c : Ctx K) (W : Arr K) (i j : ℕ) : c.mat (fun i => |W i|) i j = |c.mat W i j| := by
  unfold Ctx.mat; split <;> rfl

theorem irDrop_view (c : Ctx K) (W inp out : Arr K) (y : ℕ → K) (hb : b < c.m) (hi : i < c.nOut)
    (hy : view c.outT c.nOut c.m out b i = y i) :
    view c.outT c.nOut c.m (c.irDrop W inp out) b i =
      c.io.irDropped c.nIn (c.mat W) (view c.inT c.nIn c.m inp b) y i := by
  unfold Ctx.irDrop
  rw [mapTo_view hb hi, hy]
  have e1 := product_view c (fun i => |W i|) (fun i => |inp i|) out ((c.nIn : K) / c.io.gRatio) b i hb hi
  have e2 := product_view c W (mapTo (c.nIn * c.m) (fun idx v =>
    v * (1 - (1 - ((if c.inT then idx / c.m else idx % c.nIn : ℕ) : K) / (c.nIn : K)) *
      (1 - ((if c.inT then idx / c.m else idx % c.nIn : ℕ) : K) / (c.nIn : K)))) inp fun i => |inp i|)
      out c.io.irDrop b i hb hi
  unfold view at e1 e2
  dsimp only
  rw [e1, e2]
  unfold CppFwd.IO.irDropped CppFwd.current CppFwd.mv
  dsimp only
  have s1 : ∑ l ∈ Finset.range c.nIn, c.mat (fun i => |W i|) i l * |inp (place c.inT c.nIn c.m b l)| =
      ∑ j ∈ Finset.range c.nIn, |c.mat W i j| * |view c.inT c.nIn c.m inp b j| :=
    Finset.sum_congr rfl fun l _ => by rw [mat_abs]; rfl
  have s2 : ∑ l ∈ Finset.range c.nIn, c.mat W i l *
      mapTo (c.nIn * c.m) (fun idx v =>
        v * (1 - (1 - ((if c.inT then idx / c.m else idx % c.nIn : ℕ) : K) / (c.nIn : K)) *
          (1 - ((if c.inT then idx / c.m else idx % c.nIn : ℕ) : K) / (c.nIn : K)))) inp
          (fun i => |inp i|) (place c.inT c.nIn c.m b l) =
      ∑ j ∈ Finset.range c.nIn, c.mat W i j * (view c.inT c.nIn c.m inp b j *
        (1 - (1 - (j : K) / (c.nIn : K)) * (1 - (j : K) / (c.nIn : K)))) := by
    refine Finset.sum_congr rfl fun l hl => ?_
    have hl := Finset.mem_range.mp hl
    rw [mapTo_place hb hl]
    have e : (if c.inT then place c.inT c.nIn c.m b l / c.m else place c.inT c.nIn c.m b l % c.nIn) = l :=
      outputOf_place hb hl
    rw [e]; rfl
  rw [s1, s2]

theorem yRef_view (c : Ctx K) (inp : Arr K) (hb : b < c.m) :
    c.yRef inp b = -c.io.vOffWMin * ∑ j ∈ Finset.range c.nIn, view c.inT c.nIn c.m inp b j := by
  unfold Ctx.yRef gemv
  cases h : c.inT with
  | true =>
    simp only [Bool.not_true, Bool.false_eq_true, if_false, if_true]
    rw [if_pos hb]
    congr 1
    refine Finset.sum_congr rfl fun l _ => ?_
    rw [mul_one]
    unfold at2 view place
    simp only [Bool.false_eq_true, if_false, if_true]
  | false =>
    simp only [Bool.not_false, Bool.false_eq_true, if_false, if_true]
    rw [if_pos hb]
    congr 1
    refine Finset.sum_congr rfl fun l _ => ?_
    rw [mul_one]
    unfold at2 view place
    simp only [Bool.false_eq_true, if_false, if_true]

theorem voltBody_eq (io : CppFwd.IO K) (p : MVPar K) (n : ℕ) (x y : ℕ → K) (i : ℕ) :
    voltBody (max io.rSeries 0) io.rMaxTotal (p.vOff i)
      (if io.vOffWMin ≠ 0 then -io.vOffWMin * ∑ j ∈ Finset.range n, x j else 0) (y i) =
      io.voltage p n x y i := by
  unfold voltBody CppFwd.IO.voltage
  dsimp only
  by_cases h : io.vOffWMin = 0
  · rw [if_neg (not_not.mpr h), if_pos h]
    by_cases hr : 0 < max io.rSeries 0
    · rw [if_pos hr, if_neg (not_le.mpr hr), add_zero, zero_div, mul_zero, sub_zero, mul_div_assoc]
    · rw [if_neg hr, if_pos (not_lt.mp hr)]; ring
  · rw [if_pos h, if_neg h]
    by_cases hr : 0 < max io.rSeries 0
    · rw [if_pos hr, if_neg (not_le.mpr hr), ← mul_div_assoc, ← mul_div_assoc]
    · rw [if_neg hr, if_pos (not_lt.mp hr)]; ring

theorem voltage_view (c : Ctx K) (inp out : Arr K) (y : ℕ → K) (hb : b < c.m) (hi : i < c.nOut)
    (hy : view c.outT c.nOut c.m out b i = y i) :
    view c.outT c.nOut c.m (c.voltage inp out) b i =
      c.io.voltage c.p c.nIn (view c.inT c.nIn c.m inp b) y i := by
  unfold Ctx.voltage
  rw [mapTo_view hb hi, hy, outputOf_place hb hi, sampleOf_place hb hi, yRef_view c inp hb]
  exact voltBody_eq c.io c.p c.nIn _ _ _

theorem wNoise_view (c : Ctx K) (hsq : ∀ a v : K, 0 ≤ a → sq (a * a * v) = a * sq v) (W g inp out : Arr K)
    (y : ℕ → K) (hb : b < c.m) (hi : i < c.nOut) (hy : view c.outT c.nOut c.m out b i = y i) :
    view c.outT c.nOut c.m (c.wNoise sq W g inp out) b i =
      c.io.weightNoise sq c.nIn (c.mat W) (view c.inT c.nIn c.m inp b) (view c.outT c.nOut c.m g b) y i := by
  unfold Ctx.wNoise CppFwd.IO.weightNoise
  cases hT : c.io.wNoiseType with
  | none => exact hy
  | additive =>
    show view c.outT c.nOut c.m (c.weightNoise sq g inp out) b i = if 0 < c.io.wNoise then _ else _
    unfold Ctx.weightNoise
    by_cases h0 : c.io.wNoise ≤ 0
    · rw [if_pos h0, if_neg (not_lt.mpr h0)]; exact hy
    · have h0' := not_le.mp h0
      rw [if_neg h0, if_pos h0']
      by_cases h1 : c.m = 1
      · rw [if_pos h1]
        obtain rfl : b = 0 := by omega
        have e := mapTo_view (t := c.outT) hb hi (fun idx v =>
          v + sq (∑ j ∈ Finset.range c.nIn, inp j * inp j) * c.io.wNoise * g idx) out out
        rw [h1, Nat.mul_one] at e
        rw [h1] at hy ⊢
        rw [e, hy]
        have s : ∑ j ∈ Finset.range c.nIn, inp j * inp j = ∑ j ∈ Finset.range c.nIn,
            view c.inT c.nIn 1 inp 0 j * view c.inT c.nIn 1 inp 0 j :=
          Finset.sum_congr rfl fun j _ => by unfold view; rw [place_one]
        rw [s]
        unfold view
        ring
      · rw [if_neg h1]
        dsimp only
        rw [mapTo_view hb hi, hy, sampleOf_place hb hi]
        have e := gemm_at (K := K) false c.inT 1 c.m c.nIn (c.io.wNoise * c.io.wNoise) (fun _ => 1) 1
          (fun i => inp i * inp i) (if c.inT then c.m else c.nIn) (fun _ => 0) 1 0 b (le_refl _)
          Nat.zero_lt_one hb
        rw [Nat.mul_one, Nat.add_zero] at e
        rw [e, hsq _ _ (le_of_lt h0')]
        have s : ∑ l ∈ Finset.range c.nIn, at2 false (fun _ => (1 : K)) 1 0 l *
            at2 c.inT (fun i => inp i * inp i) (if c.inT then c.m else c.nIn) l b =
            ∑ j ∈ Finset.range c.nIn, view c.inT c.nIn c.m inp b j * view c.inT c.nIn c.m inp b j :=
          Finset.sum_congr rfl fun j _ => by
            rw [(at2_view c.inT (fun i => inp i * inp i) c.nIn c.m b j).2]
            unfold at2 view
            simp only [Bool.false_eq_true, if_false, one_mul]
        rw [s]
        unfold view
        ring
  | pcmRead =>
    show view c.outT c.nOut c.m (c.pcmNoise sq W g inp out) b i = if 0 < c.io.wNoise then _ else _
    unfold Ctx.pcmNoise
    by_cases h0 : c.io.wNoise ≤ 0
    · rw [if_pos h0, if_neg (not_lt.mpr h0)]; exact hy
    · have h0' := not_le.mp h0
      rw [if_neg h0, if_pos h0']
      dsimp only
      rw [mapTo_view hb hi, hy]
      have e := product_view c (fun i => |W i|) (fun i => inp i * inp i) out (c.io.wNoise * c.io.wNoise)
        b i hb hi
      unfold view at e
      rw [e, hsq _ _ (le_of_lt h0')]
      have s : ∑ l ∈ Finset.range c.nIn, c.mat (fun i => |W i|) i l *
          (inp (place c.inT c.nIn c.m b l) * inp (place c.inT c.nIn c.m b l)) =
          ∑ j ∈ Finset.range c.nIn, |c.mat W i j| *
            (view c.inT c.nIn c.m inp b j * view c.inT c.nIn c.m inp b j) :=
        Finset.sum_congr rfl fun j _ => by rw [mat_abs]; rfl
      rw [s]
      unfold view
      ring

/-- One analog pass, sample by sample, is that of the CPU. -/
theorem singlePass_view (c : Ctx K) (hsq : ∀ a v : K, 0 ≤ a → sq (a * a * v) = a * sq v)
    (W g inp out : Arr K) (hb : b < c.m) (hi : i < c.nOut) :
    view c.outT c.nOut c.m (c.singlePass sq W g inp out) b i =
      c.io.singlePass sq c.p c.nIn (c.mat W) (view c.inT c.nIn c.m inp b) (view c.outT c.nOut c.m g b)
        i := by
  unfold Ctx.singlePass CppFwd.IO.singlePass
  dsimp only
  apply wNoise_view c hsq W g inp _ _ hb hi
  have e0 := fun j hj => product_mv c W inp out b j hb hj
  have e1 : ∀ j : ℕ, j < c.nOut → view c.outT c.nOut c.m
      (if 0 < c.io.irDrop then c.irDrop W inp (c.product W inp out 1) else c.product W inp out 1) b j =
      (if 0 < c.io.irDrop then c.io.irDropped c.nIn (c.mat W) (view c.inT c.nIn c.m inp b)
        (CppFwd.mv c.nIn (c.mat W) (view c.inT c.nIn c.m inp b)) else
        CppFwd.mv c.nIn (c.mat W) (view c.inT c.nIn c.m inp b)) j := by
    intro j hj
    split
    · exact irDrop_view c W inp _ _ hb hj (e0 j hj)
    · exact e0 j hj
  generalize (if 0 < c.io.irDrop then c.irDrop W inp (c.product W inp out 1) else c.product W inp out 1)
    = A at e1
  generalize (if 0 < c.io.irDrop then c.io.irDropped c.nIn (c.mat W) (view c.inT c.nIn c.m inp b)
        (CppFwd.mv c.nIn (c.mat W) (view c.inT c.nIn c.m inp b)) else
        CppFwd.mv c.nIn (c.mat W) (view c.inT c.nIn c.m inp b)) = B at e1
  cases hv : c.io.hasVO with
  | true =>
    rw [if_pos rfl, if_pos rfl]
    exact voltage_view c inp A B hb hi (e1 i hi)
  | false =>
    rw [if_neg Bool.false_ne_true, if_neg Bool.false_ne_true]
    exact e1 i hi

/-- The pass only depends on the inputs below the size. -/
theorem singlePass_congr (io : CppFwd.IO K) (p : MVPar K) (n : ℕ) (w : ℕ → ℕ → K) (x x' g : ℕ → K)
    (h : ∀ j : ℕ, j < n → x j = x' j) (i : ℕ) :
    io.singlePass sq p n w x g i = io.singlePass sq p n w x' g i := by
  have hmv : ∀ (w : ℕ → ℕ → K) (i : ℕ), CppFwd.mv n w x i = CppFwd.mv n w x' i := fun w i =>
    Finset.sum_congr rfl fun j hj => by rw [h j (Finset.mem_range.mp hj)]
  have hc : ∀ i : ℕ, CppFwd.current n w x i = CppFwd.current n w x' i := fun i =>
    Finset.sum_congr rfl fun j hj => by rw [h j (Finset.mem_range.mp hj)]
  have hir : ∀ (y : ℕ → K), io.irDropped n w x y = io.irDropped n w x' y := by
    intro y
    funext i
    unfold CppFwd.IO.irDropped
    dsimp only
    rw [hc]
    have : CppFwd.mv n w (fun j => x j * (1 - (1 - (j : K) / (n : K)) * (1 - (j : K) / (n : K)))) i =
        CppFwd.mv n w (fun j => x' j * (1 - (1 - (j : K) / (n : K)) * (1 - (j : K) / (n : K)))) i :=
      Finset.sum_congr rfl fun j hj => by beta_reduce; rw [h j (Finset.mem_range.mp hj)]
    rw [this]
  have hv : ∀ (y : ℕ → K), io.voltage p n x y = io.voltage p n x' y := by
    intro y
    funext i
    unfold CppFwd.IO.voltage
    dsimp only
    rw [Finset.sum_congr rfl fun j hj => h j (Finset.mem_range.mp hj)]
  have hw : ∀ (y : ℕ → K) (i : ℕ), io.weightNoise sq n w x g y i = io.weightNoise sq n w x' g y i := by
    intro y i
    unfold CppFwd.IO.weightNoise
    have e1 : ∑ j ∈ Finset.range n, x j * x j = ∑ j ∈ Finset.range n, x' j * x' j :=
      Finset.sum_congr rfl fun j hj => by rw [h j (Finset.mem_range.mp hj)]
    have e2 : ∑ j ∈ Finset.range n, |w i j| * (x j * x j) = ∑ j ∈ Finset.range n, |w i j| * (x' j * x' j) :=
      Finset.sum_congr rfl fun j hj => by rw [h j (Finset.mem_range.mp hj)]
    rw [e1, e2]
  unfold CppFwd.IO.singlePass
  rw [hw, hir, hv, show CppFwd.mv n w x = CppFwd.mv n w x' from funext (hmv w)]

end Aihw.GpuIo

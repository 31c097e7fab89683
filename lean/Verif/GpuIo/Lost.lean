import Verif.GpuIo.Bound

/-!
# The separated modes and bound management
-/
open scoped BigOperators

namespace Aihw.GpuIo

open Aihw.CppFwd (MVPar)
open Aihw.GpuNm (place nBlocks Man Req)

variable {K : Type} [Field K] [LinearOrder K] [IsStrictOrderedRing K] [FloorRing K]
variable {c : Ctx K} {sq : K → K} {b i : ℕ}

/-- If the inputs are written to the buffer of the separated inputs, both passes of the separated modes use
the inputs with all positive ones replaced by zero. -/
theorem analogMV_lost (c : Ctx K) (hsq : ∀ a v : K, 0 ≤ a → sq (a * a * v) = a * sq v)
    (dr : Draws K) (junk out : Arr K) (s : St K)
    (ht : c.io.mvType = .posNeg ∨ c.io.mvType = .posNegDigital) (hin : s.inPN = true)
    (z : Arr K × St K × Bool) (hz : c.analogMV sq dr junk out s = .ok z) (hb : b < c.m) (hi : i < c.nOut) :
    view c.outT c.nOut c.m z.1 b i =
      afterInput c.io sq c.p c.nIn (c.mat c.W) (c.mat c.negW) c.noiseFirst (c.scaleOf s b)
        (c.drawsOf dr b) (fun j => min (view c.inT c.nIn c.m s.inBuf b j) 0) i * c.outScale := by
  unfold Ctx.analogMV at hz
  unfold afterInput
  have emin : ∀ v : K, min (min v 0) 0 = min v 0 := fun v => by rw [min_assoc, min_self]
  have emax : ∀ v : K, max (min v 0) 0 = 0 := fun v => max_eq_right (min_le_right _ _)
  have hneg : ∀ j : ℕ, j < c.nIn → view c.inT c.nIn c.m (c.separateNeg s).inBuf b j =
      min (min (view c.inT c.nIn c.m s.inBuf b j) 0) 0 := by
    intro j hj
    rw [emin]
    exact negView c _ _ (fun v => min v 0) j hb hj
  have hpos : ∀ s' : St K, s'.inPN = true → s'.bufPN = (c.separateNeg s).bufPN → ∀ j : ℕ, j < c.nIn →
      view c.inT c.nIn c.m (c.separatePos s.inPN s').inBuf b j =
        max (min (view c.inT c.nIn c.m s.inBuf b j) 0) 0 := by
    intro s' h1 h2 j hj
    have e : (c.separatePos s.inPN s').inBuf = mapTo (c.nIn * c.m) (fun _ v => max v 0) s'.bufPN s'.bufPN := by
      unfold St.inBuf Ctx.separatePos
      rw [hin]
      show (if s'.inPN = true then _ else _) = _
      rw [if_pos h1, if_pos rfl]
    rw [e, negView c _ _ (fun v => max v 0) j hb hj, h2]
    congr 1
    exact negView c _ _ (fun v => min v 0) j hb hj
  rcases ht with ht | ht
  · rw [ht] at hz ⊢
    obtain rfl := Except.ok.inj hz
    dsimp only
    rw [finalize_view c _ _ _ _ _ hb hi]
    congr 1
    refine outputs_congr _ _ _ _ _ _ _ _ _ ?_
    show view _ _ _ (c.singlePass sq c.negW _ _ junk) b i + view _ _ _ (c.singlePass sq c.W _ _ junk) b i = _
    rw [singlePass_view c hsq _ _ _ _ hb hi, singlePass_view c hsq _ _ _ _ hb hi,
      singlePass_congr c.io c.p c.nIn (c.mat c.negW) _ _ _ hneg,
      singlePass_congr c.io c.p c.nIn (c.mat c.W) _ _ _ (hpos (c.separateNeg s) rfl rfl)]
    rfl
  · rw [ht] at hz ⊢
    obtain rfl := Except.ok.inj hz
    dsimp only
    rw [mapTo_view hb hi, add_mul]
    have f1 := finalize_view c (dr.outU false) (dr.outG false)
      (c.singlePass sq c.negW (dr.wG false) (c.separateNeg s).inBuf junk) junk (c.separateNeg s) hb hi
    obtain ⟨q1, q2, q3, q4, q5, _, _⟩ := finalize_st c (dr.outU false) (dr.outG false)
      (c.singlePass sq c.negW (dr.wG false) (c.separateNeg s).inBuf junk) junk (c.separateNeg s)
    generalize c.finalize (dr.outU false) (dr.outG false)
      (c.singlePass sq c.negW (dr.wG false) (c.separateNeg s).inBuf junk) junk (c.separateNeg s) = a
      at f1 q1 q2 q3 q4 q5
    have f2 := finalize_view c (dr.outU true) (dr.outG true)
      (c.singlePass sq c.W (dr.wG true) (c.separatePos s.inPN a.2.1).inBuf junk)
      (c.separatePos s.inPN a.2.1).bufPN (c.separatePos s.inPN a.2.1) hb hi
    have hsc : c.scaleOf (c.separatePos s.inPN a.2.1) b = c.scaleOf s b := by
      show (if c.io.bm ≠ .none then some (a.2.1.scales b) else (c.nmValues a.2.1.man).map fun x => x b) = _
      rw [q1, q2]; rfl
    have f1' : a.1 (place c.outT c.nOut c.m b i) = _ := f1
    have f2' : (c.finalize (dr.outU true) (dr.outG true)
      (c.singlePass sq c.W (dr.wG true) (c.separatePos s.inPN a.2.1).inBuf junk)
      (c.separatePos s.inPN a.2.1).bufPN (c.separatePos s.inPN a.2.1)).1 (place c.outT c.nOut c.m b i) = _ := f2
    rw [f1', f2', hsc]
    congr 1
    · congr 1
      refine outputs_congr _ _ _ _ _ _ _ _ _ ?_
      rw [singlePass_view c hsq _ _ _ _ hb hi, singlePass_congr c.io c.p c.nIn (c.mat c.negW) _ _ _ hneg]
      rfl
    · congr 1
      refine outputs_congr _ _ _ _ _ _ _ _ _ ?_
      rw [singlePass_view c hsq _ _ _ _ hb hi,
        singlePass_congr c.io c.p c.nIn (c.mat c.W) _ _ _ (hpos a.2.1 (q3.trans rfl) q5)]
      rfl

theorem analogMV_inPN (dr : Draws K) (junk out : Arr K) (s : St K)
    (ht : c.io.mvType = .posNeg ∨ c.io.mvType = .posNegDigital)
    (z : Arr K × St K × Bool) (hz : c.analogMV sq dr junk out s = .ok z) :
    z.2.1.inPN = true ∧ z.2.1.scales = s.scales := by
  unfold Ctx.analogMV at hz
  rcases ht with ht | ht
  · rw [ht] at hz
    obtain rfl := Except.ok.inj hz
    obtain ⟨q1, -, q3, -⟩ := finalize_st c (dr.outU true) (dr.outG true)
      (fun i => c.singlePass sq c.negW (dr.wG false) (c.separateNeg s).inBuf junk i +
        c.singlePass sq c.W (dr.wG true) (c.separatePos s.inPN (c.separateNeg s)).inBuf junk i) out
      (c.separatePos s.inPN (c.separateNeg s))
    exact ⟨q3, q1⟩
  · rw [ht] at hz
    obtain rfl := Except.ok.inj hz
    dsimp only
    obtain ⟨q1, -, q3, -⟩ := finalize_st c (dr.outU false) (dr.outG false)
      (c.singlePass sq c.negW (dr.wG false) (c.separateNeg s).inBuf junk) junk (c.separateNeg s)
    generalize c.finalize (dr.outU false) (dr.outG false)
      (c.singlePass sq c.negW (dr.wG false) (c.separateNeg s).inBuf junk) junk (c.separateNeg s) = a
      at q1 q3
    obtain ⟨p1, -, p3, -⟩ := finalize_st c (dr.outU true) (dr.outG true)
      (c.singlePass sq c.W (dr.wG true) (c.separatePos s.inPN a.2.1).inBuf junk)
      (c.separatePos s.inPN a.2.1).bufPN (c.separatePos s.inPN a.2.1)
    exact ⟨p3.trans q3, p1.trans q1⟩

theorem nextRound_inPN (nth : ℕ) (lowest : K) (r : Req K) (s s' : St K)
    (h : c.nextRound nth lowest r s = .ok s') : s'.inPN = s.inPN := by
  unfold Ctx.nextRound at h
  dsimp only at h
  split at h
  · split at h
    · split at h
      · obtain rfl := Except.ok.inj h; rfl
      · cases h
    · obtain rfl := Except.ok.inj h; rfl
  · obtain rfl := Except.ok.inj h; rfl

theorem setIn_inPN (s : St K) (v : Arr K) : (s.setIn v).inPN = s.inPN := by
  unfold St.setIn; split <;> rfl

theorem setIn_inBuf (s : St K) (v : Arr K) : (s.setIn v).inBuf = v := by
  cases h : s.inPN <;> unfold St.setIn St.inBuf <;> simp [h]

/-- Bound management with separate passes for negative and positive inputs: in every round after the first,
the positive inputs count as zero (after conversion), so the outputs are those of the negative inputs
alone. `z1` is the result of some round and `z2` that of the next. -/
theorem C99_lost_inputs (c : Ctx K) (hbm : c.io.bm ≠ .none)
    (ht : c.io.mvType = .posNeg ∨ c.io.mvType = .posNegDigital)
    (hsq : ∀ a v : K, 0 ≤ a → sq (a * a * v) = a * sq v) (nth : ℕ) (lowest : K) (dr1 dr2 : Draws K)
    (junk1 junk2 : Arr K) (r1 r2 : Req K) (x out : Arr K) (s : St K) (z1 z2 : Arr K × St K × Bool)
    (h1 : c.round nth lowest sq dr1 junk1 r1 x out s = .ok z1)
    (h2 : c.round nth lowest sq dr2 junk2 r2 x z1.1 z1.2.1 = .ok z2) (hb : b < c.m) (hi : i < c.nOut) :
    z2.1 (place c.outT c.nOut c.m b i) = c.alpha * c.io.outScale *
      afterInput c.io sq c.p c.nIn (c.mat c.W) (c.mat c.negW) true (some (z2.2.1.scales b)) (c.drawsOf dr2 b)
        (fun j => min (Spec.input c.io (some (z2.2.1.scales b)) ((c.drawsOf dr2 b).inU j)
          ((c.drawsOf dr2 b).inG j) (x (place c.inT c.nIn c.m b j))) 0) i := by
  unfold Ctx.round at h1 h2
  rw [if_pos hbm] at h1 h2
  have hpn : z1.2.1.inPN = true := by
    cases hn : c.nextRound nth lowest r1 s with
    | error e => rw [hn] at h1; cases h1
    | ok s1 =>
      rw [hn] at h1
      exact (analogMV_inPN _ _ _ _ ht _ h1).1
  cases hn : c.nextRound nth lowest r2 z1.2.1 with
  | error e => rw [hn] at h2; cases h2
  | ok s1 =>
    rw [hn] at h2
    dsimp only at h2
    have hs1 : s1.inPN = true := (nextRound_inPN _ _ _ _ _ hn).trans hpn
    have hin : (c.inputBM dr2 x s1).inPN = true := (setIn_inPN s1 _).trans hs1
    have hbuf : (c.inputBM dr2 x s1).inBuf = mapTo (c.nIn * c.m) (fun idx =>
        inputBody c.io (some (c.roundScales s1 (sampleOf c.inT c.m c.nIn idx))) (dr2.inU idx)
          (dr2.inG idx)) x s1.inBuf := setIn_inBuf s1 _
    obtain ⟨-, e⟩ := analogMV_inPN _ _ _ _ ht _ h2
    have hsc : (c.inputBM dr2 x s1).scales = c.roundScales s1 := rfl
    rw [show z2.1 (place c.outT c.nOut c.m b i) = view c.outT c.nOut c.m z2.1 b i from rfl,
      analogMV_lost c hsq _ _ _ _ ht hin _ h2 hb hi, e]
    have hf : c.noiseFirst = true := by
      unfold Ctx.noiseFirst
      rw [decide_eq_true hbm, Bool.or_true]
    have hscale : c.scaleOf (c.inputBM dr2 x s1) b = some ((c.inputBM dr2 x s1).scales b) := by
      unfold Ctx.scaleOf
      rw [if_pos hbm]
    rw [hf, hscale, mul_comm]
    unfold Ctx.outScale
    congr 1
    refine afterInput_congr _ _ _ _ _ _ _ _ _ _ ?_ _
    intro j hj
    congr 1
    rw [hbuf, mapTo_view hb hj, sampleOf_place hb hj, inputBody_eq, hsc]
    rfl

end Aihw.GpuIo

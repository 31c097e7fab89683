import Verif.GpuIo.Samples

/-!
# C99: the analog pass on the GPU, without bound management
-/
open scoped BigOperators

namespace Aihw.GpuIo

open Aihw.CppFwd (MVPar)
open Aihw.GpuNm (place nBlocks Man Req)

variable {K : Type} [Field K] [LinearOrder K] [IsStrictOrderedRing K] [FloorRing K]
variable {c : Ctx K} {sq : K → K} {b i : ℕ}

/-- The loops of the kernels, for every number of threads and in every order, treat each index below the
size exactly once, in place and between arrays. -/
theorem C99_stride_loop (threads size : ℕ) (hT : 1 ≤ threads) (order : List ℕ)
    (ho : order.Perm (visits threads size)) (body : ℕ → K → K) (input out : Arr K) (idx : ℕ) :
    (idx < size → loopOut order body input out idx = body idx (input idx) ∧
      loopIn order body out idx = body idx (out idx)) ∧
    (size ≤ idx → loopOut order body input out idx = out idx ∧ loopIn order body out idx = out idx) := by
  have hm : idx ∈ order ↔ idx < size := by rw [ho.mem_iff, mem_visits threads size idx hT]
  unfold loopOut loopIn
  rw [foldOut_at, foldIn_at _ _ _ _ (ho.nodup_iff.mpr (nodup_visits threads size))]
  constructor
  · intro h
    rw [if_pos (hm.mpr h), if_pos (hm.mpr h)]
    exact ⟨rfl, rfl⟩
  · intro h
    have : ¬idx ∈ order := fun hh => absurd (hm.mp hh) (not_lt.mpr h)
    rw [if_neg this, if_neg this]
    exact ⟨rfl, rfl⟩

/-- The model's kernels are these loops. -/
theorem C99_loop_is_map (threads size : ℕ) (hT : 1 ≤ threads) (order : List ℕ)
    (ho : order.Perm (visits threads size)) (body : ℕ → K → K) (input out : Arr K) :
    loopOut order body input out = mapTo size body input out ∧
      loopIn order body out = mapTo size body out out := by
  constructor <;> funext idx <;> unfold mapTo <;> obtain ⟨h1, h2⟩ := C99_stride_loop threads size hT order ho
    body input out idx <;> by_cases h : idx < size
  · rw [if_pos h]; exact (h1 h).1
  · rw [if_neg h]; exact (h2 (not_lt.mp h)).1
  · rw [if_pos h]; exact (h1 h).2
  · rw [if_neg h]; exact (h2 (not_lt.mp h)).2

/-- The matrix product, in both directions and all four combinations of layouts: each sample is multiplied
with the weights, or their transpose, and lands where the layout says. -/
theorem C99_product (c : Ctx K) (inp out : Arr K) (b i : ℕ) (hb : b < c.m) :
    (c.tr = false → i < c.dSz → c.product c.W inp out 1 (place c.outT c.dSz c.m b i) =
      ∑ j ∈ Finset.range c.xSz, c.W (j * c.dSz + i) * inp (place c.inT c.xSz c.m b j)) ∧
    (c.tr = true → i < c.xSz → c.product c.W inp out 1 (place c.outT c.xSz c.m b i) =
      ∑ j ∈ Finset.range c.dSz, c.W (i * c.dSz + j) * inp (place c.inT c.dSz c.m b j)) := by
  constructor
  · intro ht hi
    have eo : c.nOut = c.dSz := by unfold Ctx.nOut; rw [ht]; rfl
    have ei : c.nIn = c.xSz := by unfold Ctx.nIn; rw [ht]; rfl
    have e := product_view c c.W inp out 1 b i hb (by rw [eo]; exact hi)
    unfold view Ctx.mat at e
    rw [eo, ei, ht, one_mul] at e
    exact e
  · intro ht hi
    have eo : c.nOut = c.xSz := by unfold Ctx.nOut; rw [ht]; rfl
    have ei : c.nIn = c.dSz := by unfold Ctx.nIn; rw [ht]; rfl
    have e := product_view c c.W inp out 1 b i hb (by rw [eo]; exact hi)
    unfold view Ctx.mat at e
    rw [eo, ei, ht, one_mul] at e
    exact e

theorem afterInput_congr (io : CppFwd.IO K) (p : MVPar K) (n : ℕ) (w wn : ℕ → ℕ → K) (first : Bool)
    (s : Option K) (dr : CppFwd.Draws K) (x x' : ℕ → K) (h : ∀ j : ℕ, j < n → x j = x' j) (i : ℕ) :
    afterInput io sq p n w wn first s dr x i = afterInput io sq p n w wn first s dr x' i := by
  unfold afterInput
  have e1 := fun g i => singlePass_congr (sq := sq) io p n wn (fun j => min (x j) 0)
    (fun j => min (x' j) 0) g (fun j hj => by rw [h j hj]) i
  have e2 := fun g i => singlePass_congr (sq := sq) io p n w (fun j => max (x j) 0)
    (fun j => max (x' j) 0) g (fun j hj => by rw [h j hj]) i
  have e3 := fun g i => singlePass_congr (sq := sq) io p n w x x' g h i
  cases io.mvType <;> dsimp only
  · exact outputs_congr _ _ _ _ _ _ _ _ _ (e3 _ i)
  · exact outputs_congr _ _ _ _ _ _ _ _ _ (e3 _ i)
  · exact outputs_congr _ _ _ _ _ _ _ _ _ (by rw [e1, e2])
  · rw [outputs_congr _ _ _ _ _ _ _ _ i (e1 _ i), outputs_congr _ _ _ _ _ _ _ _ i (e2 _ i)]
  · exact outputs_congr _ _ _ _ _ _ _ _ _ (e3 _ i)
  · exact outputs_congr _ _ _ _ _ _ _ _ _ (e3 _ i)

/-- One pass without bound management: whatever the batch size and the layouts of inputs and outputs, and
whatever was in the buffers, each sample goes through the analog pass by itself, with its own value of noise
management and its own random numbers, in both directions and for one pass or separate passes for negative
and positive inputs. -/
theorem C99_pass (c : Ctx K) (hbm : c.io.bm = .none)
    (hsq : ∀ a v : K, 0 ≤ a → sq (a * a * v) = a * sq v) (nth : ℕ) (lowest : K) (dr : ℕ → Draws K)
    (junk : ℕ → Arr K) (r : ℕ → Req K) (f : ℕ) (x out : Arr K) (s : St K) (z : Arr K × St K)
    (hz : c.pass nth lowest sq dr junk r (f + 1) x out s = .ok z) (hb : b < c.m) (hi : i < c.nOut) :
    ∃ man : Man K, s.man.compute c.nIn nth lowest c.io.nm c.io (r (f + 1)) = .ok man ∧
      z.1 (place c.outT c.nOut c.m b i) = c.alpha * c.io.outScale *
        Spec.sample c.io sq c.p c.nIn (c.mat c.W) (c.mat c.negW) (decide (c.m ≠ 1))
          (if c.io.nm ≠ .none then some ((man.values.getD fun _ => 0) b) else none)
          (c.drawsOf (dr f) b) (fun j => x (place c.inT c.nIn c.m b j)) i := by
  unfold Ctx.pass Ctx.start at hz
  rw [if_neg (fun h => h.2 hbm)] at hz
  cases hm : s.man.compute c.nIn nth lowest c.io.nm c.io (r (f + 1)) with
  | error e => rw [hm] at hz; cases hz
  | ok man =>
    rw [hm] at hz
    refine ⟨man, rfl, ?_⟩
    dsimp only at hz
    unfold Ctx.rounds Ctx.round at hz
    rw [if_neg (not_not.mpr hbm)] at hz
    generalize hs0 : ({ s with man := man, round := 0, red := 1 / 2, inPN := false } : St K) = s0 at hz
    have hpn : s0.inPN = false := by rw [← hs0]
    have hman : s0.man = man := by rw [← hs0]
    have hset : (s0.setIn (c.applyInput (c.nmValues s0.man) (dr f).inU (dr f).inG x s0.inBuf)) =
        { s0 with buf := c.applyInput (c.nmValues s0.man) (dr f).inU (dr f).inG x s0.inBuf } := by
      unfold St.setIn; rw [hpn]; rfl
    rw [hset] at hz
    have hin : ({ s0 with buf := c.applyInput (c.nmValues s0.man) (dr f).inU (dr f).inG x s0.inBuf } :
        St K).inBuf = c.applyInput (c.nmValues s0.man) (dr f).inU (dr f).inG x s0.inBuf := by
      unfold St.inBuf; rw [show ({ s0 with buf := _ } : St K).inPN = false from hpn]; rfl
    cases ha : c.analogMV sq (dr f) (junk f) out { s0 with
        buf := c.applyInput (c.nmValues s0.man) (dr f).inU (dr f).inG x s0.inBuf } with
    | error e => rw [ha] at hz; cases hz
    | ok y =>
      have hv := analogMV_view c hsq (dr f) (junk f) out ({ s0 with
        buf := c.applyInput (c.nmValues s0.man) (dr f).inU (dr f).inG x s0.inBuf } : St K)
        (Or.inr hpn) y ha hb hi
      rw [hin] at hv
      rw [ha] at hz
      dsimp only at hz
      have hdone : y.2.2 = true := by
        unfold Ctx.analogMV at ha
        have hf : ∀ (u g v o : Arr K) (s : St K), (c.finalize u g v o s).2.2 = true := by
          intro u g v o s
          unfold Ctx.finalize
          rw [if_neg (not_not.mpr hbm)]
        cases ht : c.io.mvType <;> rw [ht] at ha
        · cases ha
        · obtain rfl := Except.ok.inj ha; exact hf _ _ _ _ _
        · obtain rfl := Except.ok.inj ha; exact hf _ _ _ _ _
        · obtain rfl := Except.ok.inj ha
          dsimp only
          rw [hf, hf]; rfl
        · cases ha
        · cases ha
      rw [if_pos hdone] at hz
      obtain rfl := Except.ok.inj hz
      show view c.outT c.nOut c.m y.1 b i = _
      rw [hv]
      have hfirst : c.noiseFirst = decide (c.m ≠ 1) := by
        unfold Ctx.noiseFirst
        rw [decide_eq_false (not_not.mpr hbm), Bool.or_false]
      have hscale : c.scaleOf { s0 with
          buf := c.applyInput (c.nmValues s0.man) (dr f).inU (dr f).inG x s0.inBuf } b =
          if c.io.nm ≠ .none then some ((man.values.getD fun _ => 0) b) else none := by
        unfold Ctx.scaleOf Ctx.nmValues
        rw [if_neg (not_not.mpr hbm), hman]
        split <;> rfl
      rw [hfirst, hscale, afterInput_congr (x' := fun j => Spec.input c.io
        (if c.io.nm ≠ .none then some ((man.values.getD fun _ => 0) b) else none)
        ((c.drawsOf (dr f) b).inU j) ((c.drawsOf (dr f) b).inG j) (x (place c.inT c.nIn c.m b j)))]
      · unfold Ctx.outScale
        rw [mul_comm]
        rfl
      · intro j hj
        rw [applyInput_view c _ _ _ _ _ hb hj]
        have : ((c.nmValues s0.man).map fun s => s b) =
            if c.io.nm ≠ .none then some ((man.values.getD fun _ => 0) b) else none := by
          unfold Ctx.nmValues
          rw [hman]
          split <;> rfl
        rw [this]
        rfl

end Aihw.GpuIo

import Verif.Exper.Spec
import Mathlib.Analysis.SpecialFunctions.Log.Base
import Mathlib.Analysis.SpecialFunctions.Pow.Real
import Mathlib.Analysis.SpecialFunctions.Sqrt

/-!
# C84: inference experiments (experiments/experiments/inferencing.py, experiments/runners/i_metrics.py,
i_local.py)

* The network is an arbitrary machine (`Net`) with the operations the loop uses; its state may contain the
  random number generators.  Exceptions of the network pass through and are not modelled.
* Numbers are reals; `inference_time` is positive (numpy's `log10` gives no number otherwise).
-/
namespace Aihw.Exper
open Aihw Aihw.Cloud

/-- The network: modes, programming, drift to a time, prediction of a batch (loss, correct predictions),
samples of a batch. -/
structure Net (W B : Type) where
  eval : W → W
  program : W → W
  drift : ℝ → W → W
  predict : W → B → W × ℝ × ℕ
  size : B → ℕ

/-- `n_images`, `predicted_ok`, `total_loss` of the loop over the batches (inferencing.py:242-262). -/
def batchLoop {W B : Type} (N : Net W B) : List B → ℕ → ℕ → ℝ → W → W × ℕ × ℕ × ℝ
  | [], total, good, loss, w => (w, total, good, loss)
  | b :: bs, total, good, loss, w =>
    batchLoop N bs (total + N.size b) (good + (N.predict w b).2.2)
      (loss + (N.predict w b).2.1 * N.size b) (N.predict w b).1

/-- `accuracy_post`, error and loss (inferencing.py:264-268). -/
noncomputable def score (r : ℕ × ℕ × ℝ) : Except PyErr (ℝ × ℝ × ℝ) :=
  if r.1 = 0 then .error .zeroDivision
  else .ok ((r.2.1 : ℝ) / r.1 * 100, 100 - (r.2.1 : ℝ) / r.1 * 100, r.2.2 / r.1)

/-- The loop over the times (inferencing.py:237-268). -/
noncomputable def timeLoop {W B : Type} (N : Net W B) (bs : List B) : List ℝ → W → Except PyErr (W × List (ℝ × ℝ × ℝ))
  | [], w => .ok (w, [])
  | t :: ts, w =>
    match score (batchLoop N bs 0 0 0 (N.drift t w)).2 with
    | .error e => .error e
    | .ok s => match timeLoop N bs ts (batchLoop N bs 0 0 0 (N.drift t w)).1 with
      | .error e => .error e
      | .ok r => .ok (r.1, s :: r.2)

/-- `inferencing_step` (inferencing.py:201-270). -/
noncomputable def inferencingStep {W B : Type} (N : Net W B) (bs : List B) (ts : List ℝ) (w : W) :
    Except PyErr (W × List (ℝ × ℝ × ℝ)) := timeLoop N bs ts (N.program (N.eval w))

/-- numpy's `linspace(a, b, num)`. -/
noncomputable def linspace (a b : ℝ) (num : ℤ) : Except PyErr (List ℝ) :=
  if num < 0 then .error .valueError
  else if num = 1 then .ok [a]
  else .ok ((List.range num.toNat).map fun (i : ℕ) => if (i : ℤ) = num - 1 then b
    else (i : ℝ) * ((b - a) / ((num : ℝ) - 1)) + a)

/-- `[0.0] + logspace(0, log10(T), n - 1).tolist()` (inferencing.py:302-304). -/
noncomputable def timesList (T : ℝ) (n : ℤ) : Except PyErr (List ℝ) :=
  (linspace 0 (Real.logb 10 T) (n - 1)).map fun l => 0 :: l.map fun x => (10 : ℝ) ^ x

/-- Entry `(i, j)` of a flat array with rows of length `n`. -/
def cell (a : List ℝ) (n i j : ℕ) : ℝ := a.getD (i * n + j) 0

/-- `a.reshape((r, n)).mean(axis=0)`. -/
noncomputable def mean0 (r n : ℕ) (a : List ℝ) : Except PyErr (List ℝ) :=
  if a.length ≠ r * n then .error .valueError
  else .ok ((List.range n).map fun j => ((List.range r).map fun i => cell a n i j).sum / r)

/-- `a.reshape((r, n)).std(axis=0)`. -/
noncomputable def std0 (r n : ℕ) (a : List ℝ) : Except PyErr (List ℝ) :=
  if a.length ≠ r * n then .error .valueError
  else .ok ((List.range n).map fun j =>
    let m := ((List.range r).map fun i => cell a n i j).sum / r
    Real.sqrt (((List.range r).map fun i => (cell a n i j - m) ^ 2).sum / r))

/-- An entry of `inference_results` (i_metrics.py:45-52). -/
structure Point where
  t : ℝ
  avgAccuracy : ℝ
  stdAccuracy : ℝ
  avgError : ℝ
  avgLoss : ℝ

/-- The value of `inference_runs` (i_metrics.py:57-64). -/
structure Run where
  repeats : ℤ
  isPartial : Prop
  elapsed : ℝ
  results : List Point

/-- What a hook returns. -/
abbrev RDict := List (String × Run)

/-- The arguments of the two signals. -/
inductive IArgs where
  | start (i : ℕ)
  | finish (ts acc std err loss : List ℝ) (R : ℤ)

/-- Hooks of inference experiments. -/
abbrev IHook (S : Type) := IArgs → S → Except PyErr (S × Option RDict)

/-- `self.hooks` for the two signals `INFERENCE_REPEAT_START` and `INFERENCE_REPEAT_END`. -/
structure ITable (S : Type) where
  start : List (IHook S)
  finish : List (IHook S)

/-- `if isinstance(hook_ret, dict): ret.update(hook_ret)` (base.py:88-89). -/
def imerge (ret : RDict) : Option RDict → RDict
  | some d => d.foldl (fun d p => put d p.1 p.2) ret
  | none => ret

/-- `_call_hook` (base.py:83-91). -/
def icall {S : Type} (a : IArgs) : List (IHook S) → RDict → S → Except PyErr (S × RDict)
  | [], ret, s => .ok (s, ret)
  | h :: hs, ret, s => match h a s with
    | .error e => .error e
    | .ok r => icall a hs (imerge ret r.2) r.1

/-- The state of the loop in `inference`: network, observers, arrays, `repeat_results`. -/
structure ISt (W S : Type) where
  w : W
  s : S
  acc : List ℝ
  err : List ℝ
  loss : List ℝ
  res : RDict

/-- The body of the loop (inferencing.py:310-331) for repeat `i`; `R` is `self.inference_repeats`. -/
noncomputable def repeatBody {W B S : Type} (N : Net W B) (h : ITable S) (bs : List B) (ts : List ℝ) (n : ℕ)
    (R : ℤ) (i : ℕ) (x : ISt W S) : Except PyErr (ISt W S) := do
  let c ← icall (.start i) h.start [] x.s
  let r ← inferencingStep N bs ts x.w
  let acc := x.acc ++ r.2.map (·.1)
  let err := x.err ++ r.2.map (·.2.1)
  let loss := x.loss ++ r.2.map (·.2.2)
  let ma ← mean0 (i + 1) n acc
  let sa ← std0 (i + 1) n acc
  let me ← mean0 (i + 1) n err
  let ml ← mean0 (i + 1) n loss
  let d ← icall (.finish ts ma sa me ml R) h.finish [] c.1
  .ok ⟨r.1, d.1, acc, err, loss, d.2⟩

/-- `k` repeats from number `i`. -/
noncomputable def repeatLoop {W B S : Type} (N : Net W B) (h : ITable S) (bs : List B) (ts : List ℝ) (n : ℕ)
    (R : ℤ) : ℕ → ℕ → ISt W S → Except PyErr (ISt W S)
  | 0, _, x => .ok x
  | k + 1, i, x => match repeatBody N h bs ts n R i x with
    | .error e => .error e
    | .ok y => repeatLoop N h bs ts n R k (i + 1) y

/-- `inference` (inferencing.py:272-332): `repeats`, `T`, `n` are its arguments, `R` the attribute
`self.inference_repeats`.  Returns the network, the observers and the results. -/
noncomputable def inference {W B S : Type} (N : Net W B) (h : ITable S) (R : ℤ) (bs : List B) (repeats : ℤ)
    (T : ℝ) (n : ℤ) (w : W) (s : S) : Except PyErr (W × S × RDict) := do
  let ts ← timesList T n
  let y ← repeatLoop N h bs ts n.toNat R repeats.toNat 0 ⟨w, s, [], [], [], []⟩
  .ok (y.w, y.s, y.res)

/-! ## `InferenceLocalMetric` -/

/-- `InferenceLocalMetric`: `current_repeat` (its number, if set), `time_init` and the number of clock
readings so far. -/
structure IMetric where
  number : Option ℕ
  init : ℝ
  ticks : ℕ

/-- `InferenceLocalMetric(stdout)` (i_metrics.py:17-20). -/
def imetric0 (clock : ℕ → ℝ) : IMetric := ⟨none, clock 0, 1⟩

/-- `receive_repeat_start` (i_metrics.py:22-24). -/
def onRepeatStart : IHook IMetric
  | .start i, m => .ok ({ m with number := some i }, none)
  | _, _ => .error .typeError

/-- `inf_results` (i_metrics.py:38-52): lists index by position, and `IndexError` when one is too short. -/
def points (acc std err loss : List ℝ) : List ℝ → ℕ → Except PyErr (List Point)
  | [], _ => .ok []
  | t :: ts, i => match acc[i]?, std[i]?, err[i]?, loss[i]? with
    | some a, some s, some e, some l => (points acc std err loss ts (i + 1)).map (⟨t, a, s, e, l⟩ :: ·)
    | _, _, _, _ => .error .indexError

/-- `receive_repeat_end` (i_metrics.py:26-68). -/
def onRepeatEnd (clock : ℕ → ℝ) : IHook IMetric
  | .finish ts acc std err loss R, m => match points acc std err loss ts 0 with
    | .error e => .error e
    | .ok ps => match m.number with
      | none => .error .keyError
      | some k => .ok ({ m with ticks := m.ticks + 1 }, some [("inference_runs",
          ⟨(k : ℤ) + 1, (k : ℤ) + 1 < R, clock m.ticks - m.init, ps⟩)])
  | _, _ => .error .typeError

/-- `DataLoader(Subset(data, range(max_elements)), batch_size)` or the full data set
(inferencing.py:143-153): the samples in order; a position outside the data raises `IndexError`. -/
def subset {X : Type} (data : List X) (maxElements : ℤ) : Except PyErr (List X) :=
  if 0 < maxElements then
    if maxElements.toNat ≤ data.length then .ok (data.take maxElements.toNat) else .error .indexError
  else .ok data

/-- The samples that the loop reads: nothing is read, and no position is outside, without repeats. -/
def readData {X : Type} (data : List X) (maxElements R : ℤ) : Except PyErr (List X) :=
  if 0 < R then subset data maxElements else .ok []

/-- Batches of `c` samples; the last one may be smaller. -/
def batches {X : Type} (c : ℕ) : ℕ → List X → List (List X)
  | 0, _ => []
  | _ + 1, [] => []
  | k + 1, l => l.take c :: batches c k (l.drop c)

/-- `InferenceLocalRunner.run` (i_local.py:36-82) and `BasicInferencing.run` (inferencing.py:350-383): all
hooks are removed and the metric is registered; the default of ten times is used.  The model `w` is the
result of `get_model`.  The data loader has a positive batch size `c`. -/
noncomputable def inferRun {W X : Type} (N : Net W (List X)) (clock : ℕ → ℝ) (data : List X) (c : ℕ)
    (maxElements : ℤ) (R : ℤ) (T : ℝ) (w : W) : Except PyErr (W × IMetric × RDict) := do
  let xs ← readData data maxElements R
  inference N ⟨[onRepeatStart], [onRepeatEnd clock]⟩ R (batches c xs.length xs) R T 10 w (imetric0 clock)

end Aihw.Exper

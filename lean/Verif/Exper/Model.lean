import Verif.Cloud.Model

/-!
# C83: training experiments and their metrics (experiments/experiments/base.py, training.py,
experiments/runners/metrics.py, local.py)

* The neural network, the optimizer and the loss are an arbitrary machine (`Mach`) that maps states to
  states; exceptions of the network pass through the loops unchanged and are not modelled.  Data loaders give
  an arbitrary list of batches in every epoch (they shuffle).
* Numbers are rationals.  Dates are readings of an arbitrary clock.  Printed output is not modelled except
  that printing divides (and so can raise).
* Downloading data sets and moving tensors to a device are not modelled.
-/
namespace Aihw.Exper
open Aihw Aihw.Cloud

/-- `Signals` (base.py:13-31). -/
inductive Sig where
  | experimentStart | experimentEnd | epochStart | epochEnd
  | trainEpochStart | trainEpochEnd | trainBatchStart | trainBatchEnd
  | valEpochStart | valEpochEnd | valBatchStart | valBatchEnd
  | inferenceStart | inferenceEnd | repeatStart | repeatEnd
  deriving DecidableEq

/-- Dictionaries with numbers. -/
abbrev NDict := List (String × ℚ)

/-- `d.update(e)`. -/
def upd (d e : NDict) : NDict := e.foldl (fun d p => put d p.1 p.2) d

/-- A hook: called with numbers; it works on the state of the observers and may return a dictionary. -/
abbrev Hook (S : Type) := List ℚ → S → Except PyErr (S × Option NDict)

/-- `self.hooks`. -/
abbrev Table (S : Type) := Sig → List (Hook S)

/-- `clear_hooks` (base.py:77-80). -/
def clearHooks {S : Type} (t : Table S) : Table S := fun k => (t k).take 0

/-- `Experiment.__init__` (base.py:42-62). -/
def noHooks {S : Type} : Table S := fun _ => []

/-- `add_hook` (base.py:65-75). -/
def addHook {S : Type} (t : Table S) (k : Sig) (h : Hook S) : Table S :=
  fun j => if j = k then t j ++ [h] else t j

/-- `if isinstance(hook_ret, dict): ret.update(hook_ret)` (base.py:88-89). -/
def merge (ret : NDict) : Option NDict → NDict
  | some d => upd ret d
  | none => ret

/-- The loop of `_call_hook` (base.py:86-89). -/
def hookLoop {S : Type} (args : List ℚ) : List (Hook S) → NDict → S → Except PyErr (S × NDict)
  | [], ret, s => .ok (s, ret)
  | h :: hs, ret, s => match h args s with
    | .error e => .error e
    | .ok r => hookLoop args hs (merge ret r.2) r.1

/-- `_call_hook` (base.py:83-91). -/
def callHook {S : Type} (t : Table S) (k : Sig) (args : List ℚ) (s : S) : Except PyErr (S × NDict) :=
  hookLoop args (t k) [] s

/-- The network with optimizer and loss: modes, one optimization step (zero_grad, forward, loss, backward,
step; the loss value), one prediction (loss value and number of correct predictions), and the number of
samples of a batch. -/
structure Mach (W B : Type) where
  train : W → W
  eval : W → W
  step : W → B → W × ℚ
  predict : W → B → W × ℚ × ℕ
  size : B → ℕ

/-- The loop of `training_step` (training.py:165-184). -/
def trainLoop {W B S : Type} (M : Mach W B) (t : Table S) : List B → W → S → Except PyErr (W × S)
  | [], w, s => .ok (w, s)
  | b :: bs, w, s =>
    match callHook t .trainBatchEnd [(M.size b : ℚ), (M.step w b).2 * M.size b] s with
    | .error e => .error e
    | .ok r => trainLoop M t bs (M.step w b).1 r.1

/-- `training_step` (training.py:146-184). -/
def trainingStep {W B S : Type} (M : Mach W B) (t : Table S) (bs : List B) (w : W) (s : S) :
    Except PyErr (W × S) := trainLoop M t bs (M.train w) s

/-- The loop of `validation_step` (training.py:203-222). -/
def valLoop {W B S : Type} (M : Mach W B) (t : Table S) : List B → W → S → Except PyErr (W × S)
  | [], w, s => .ok (w, s)
  | b :: bs, w, s =>
    match callHook t .valBatchEnd
      [(M.size b : ℚ), ((M.predict w b).2.2 : ℚ), (M.predict w b).2.1 * M.size b] s with
    | .error e => .error e
    | .ok r => valLoop M t bs (M.predict w b).1 r.1

/-- `validation_step` (training.py:186-222). -/
def validationStep {W B S : Type} (M : Mach W B) (t : Table S) (bs : List B) (w : W) (s : S) :
    Except PyErr (W × S) := valLoop M t bs (M.eval w) s

/-- One epoch (training.py:251-262) with its number and its batches. -/
def epoch {W B S : Type} (M : Mach W B) (t : Table S) (n : ℕ) (tb vb : List B) (w : W) (s : S) :
    Except PyErr ((W × S) × NDict) := do
  let r ← callHook t .epochStart [(n : ℚ)] s
  let r ← callHook t .trainEpochStart [(n : ℚ)] r.1
  let r ← trainingStep M t tb w r.1
  let q ← callHook t .trainEpochEnd [] r.2
  let q ← callHook t .valEpochStart [(n : ℚ)] q.1
  let r ← validationStep M t vb r.1 q.1
  let q ← callHook t .valEpochEnd [] r.2
  let q ← callHook t .epochEnd [] q.1
  .ok ((r.1, q.1), upd [("epoch", (n : ℚ))] q.2)

/-- The loop of `train` (training.py:248-264): `k` epochs from number `n`. -/
def epochs {W B S : Type} (M : Mach W B) (t : Table S) (tb vb : ℕ → List B) :
    ℕ → ℕ → W → S → Except PyErr ((W × S) × List NDict)
  | 0, _, w, s => .ok ((w, s), [])
  | k + 1, n, w, s => match epoch M t n (tb n) (vb n) w s with
    | .error e => .error e
    | .ok r => match epochs M t tb vb k (n + 1) r.1.1 r.1.2 with
      | .error e => .error e
      | .ok q => .ok (q.1, r.2 :: q.2)

/-- `train` (training.py:224-264): `range(epochs)` is empty for negative numbers. -/
def train {W B S : Type} (M : Mach W B) (t : Table S) (tb vb : ℕ → List B) (n : ℤ) (w : W) (s : S) :
    Except PyErr ((W × S) × List NDict) := epochs M t tb vb n.toNat 0 w s

/-! ## `LocalMetric` (metrics.py) -/

/-- `current_epoch` (metrics.py:27-35). -/
structure Cur where
  number : ℚ
  start : ℚ
  totalLoss : ℚ := 0
  trainImages : ℚ := 0
  valImages : ℚ := 0
  valCorrect : ℚ := 0
  valLoss : ℚ := 0
  deriving DecidableEq

/-- `LocalMetric` with the number of clock readings so far; `current_epoch` is first an empty
dictionary. -/
structure Metric where
  cur : Option Cur
  done : List Cur
  ticks : ℕ

/-- `LocalMetric(stdout)` (metrics.py:20-23). -/
def metric0 : Metric := ⟨none, [], 0⟩

/-- `a / b` in Python. -/
def pyDiv (a b : ℚ) : Except PyErr ℚ := if b = 0 then .error .zeroDivision else .ok (a / b)

/-- `receive_epoch_start` (metrics.py:25-35). -/
def onEpochStart (clock : ℕ → ℚ) : Hook Metric
  | [n], m => .ok ({ m with cur := some { number := n, start := clock m.ticks }, ticks := m.ticks + 1 }, none)
  | _, _ => .error .typeError

/-- `receive_train_epoch_batch_end` (metrics.py:37-40). -/
def onTrainBatchEnd : Hook Metric
  | [n, l], m => match m.cur with
    | some c => .ok ({ m with cur := some { c with trainImages := c.trainImages + n,
                                                   totalLoss := c.totalLoss + l } }, none)
    | none => .error .keyError
  | _, _ => .error .typeError

/-- `receive_validation_epoch_batch_end` (metrics.py:42-48); the counts are integers. -/
def onValBatchEnd : Hook Metric
  | [n, k, l], m => match m.cur with
    | some c => .ok ({ m with cur := some { c with valImages := c.valImages + n,
                                                   valCorrect := c.valCorrect + k,
                                                   valLoss := c.valLoss + l } }, none)
    | none => .error .keyError
  | _, _ => .error .typeError

/-- `receive_train_epoch_end` (metrics.py:50-60): divides only when it prints. -/
def onTrainEpochEnd (stdout : Bool) : Hook Metric
  | [], m => if stdout then
      match m.cur with
      | some c => (pyDiv c.totalLoss c.trainImages).map fun _ => (m, none)
      | none => .error .keyError
    else .ok (m, none)
  | _, _ => .error .typeError

/-- `receive_validation_epoch_end` (metrics.py:62-73). -/
def onValEpochEnd (stdout : Bool) : Hook Metric
  | [], m => if stdout then
      match m.cur with
      | some c => (pyDiv c.valCorrect c.valImages).bind fun _ =>
          (pyDiv c.valLoss c.valImages).map fun _ => (m, none)
      | none => .error .keyError
    else .ok (m, none)
  | _, _ => .error .typeError

/-- The dictionary of `receive_epoch_end` (metrics.py:83-95). -/
def epochDict (c : Cur) (time : ℚ) : Except PyErr NDict := do
  let a ← pyDiv c.valCorrect c.valImages
  let l ← pyDiv c.totalLoss c.trainImages
  let v ← pyDiv c.valLoss c.valImages
  .ok [("epoch", c.number), ("time_epoch", time), ("accuracy", a), ("train_loss", l), ("valid_loss", v)]

/-- `receive_epoch_end` (metrics.py:75-95). -/
def onEpochEnd (clock : ℕ → ℚ) : Hook Metric
  | [], m => match m.cur with
    | some c => (epochDict c (clock m.ticks - c.start)).map fun d =>
        ({ m with done := m.done ++ [c], ticks := m.ticks + 1 }, some d)
    | none => .error .keyError
  | _, _ => .error .typeError

/-- The hooks after `LocalRunner.run` has cleared the table and registered its metric (local.py:66-76). -/
def runnerTable (clock : ℕ → ℚ) (stdout : Bool) (t : Table Metric) : Table Metric :=
  let t := clearHooks t
  let t := addHook t .epochStart (onEpochStart clock)
  let t := addHook t .epochEnd (onEpochEnd clock)
  let t := addHook t .trainEpochEnd (onTrainEpochEnd stdout)
  let t := addHook t .trainBatchEnd onTrainBatchEnd
  let t := addHook t .valBatchEnd onValBatchEnd
  addHook t .valEpochEnd (onValEpochEnd stdout)

/-- `LocalRunner.run` (local.py:36-87) on an experiment with hooks `t`. -/
def localRun {W B : Type} (M : Mach W B) (clock : ℕ → ℚ) (stdout : Bool) (t : Table Metric)
    (tb vb : ℕ → List B) (n : ℤ) (w : W) : Except PyErr ((W × Metric) × List NDict) :=
  train M (runnerTable clock stdout t) tb vb n w metric0

end Aihw.Exper

import Verif.Quant.Model

/-!
# Range estimators

Models `src/aihwkit/simulator/digital_low_precision/range_estimators.py`.

A batch is given by its rank and its rows, one row per channel along the estimation axis
(dimension 0 for `per_channel`, dimension `axis` otherwise); per-tensor estimation looks at all
elements.  Not modelled: `CrossEntropyEstimator`, and the `per_group_range_estimation` switch with
its permutation of the groups (no code in the repository sets the switch; it is `False` by
default, range_estimators.py:32).
-/
namespace Aihw.Quant

/-- `x.min()`, `x.max()` of the elements; torch raises on an empty tensor. -/
def minMax : Vec → Except PyErr (ℚ × ℚ)
  | [] => .error .runtimeError
  | x :: xs => .ok (xs.foldl min x, xs.foldl max x)

/-- The batch statistic of one channel-wise or per-tensor estimation: `(min, max)` per channel, or
of all elements. -/
def batchStat (perRow : Bool) (rows : List Vec) : Except PyErr (List (ℚ × ℚ)) :=
  if perRow then rows.mapM minMax else do return [← minMax rows.flatten]

/-- Rows of group `k` when the rows are split in groups of `gs` rows (`x.view(ng, -1)`). -/
def groupRows (gs : Nat) (rows : List Vec) (k : Nat) : List Vec := (rows.drop (k * gs)).take gs

/-- The `axis` branch with `n_groups` (range_estimators.py:109-131 without permutation, 202-215):
every row gets the minimum and maximum of its group. -/
def groupStat (ng : Nat) (rows : List Vec) : Except PyErr (List (ℚ × ℚ)) :=
  if ng = 0 ∨ rows.length % ng ≠ 0 then .error .assertion
  else (List.range rows.length).mapM fun i =>
    minMax (groupRows (rows.length / ng) rows (i / (rows.length / ng))).flatten

/-- `np.percentile(v, p)` with linear interpolation between order statistics. -/
def percentileOf (p : ℚ) (v : Vec) : Except PyErr ℚ :=
  if p < 0 ∨ 100 < p then .error .valueError
  else if v = [] then .error .indexError
  else
    let s := v.mergeSort (fun a b => decide (a ≤ b))
    let h := p / 100 * ((v.length : ℤ) - 1 : ℤ)
    let i := (⌊h⌋).toNat
    .ok (s.getD i 0 + (h - ⌊h⌋) * (s.getD (i + 1) (s.getD i 0) - s.getD i 0))

/-- Percentile range of one channel (`per_channel`, range_estimators.py:141-149) or of the whole
tensor (range_estimators.py:155-163): the per-channel form cuts both ends, the per-tensor form only
the minimum. -/
def percentileStat (perRow : Bool) (p : ℚ) (rows : List Vec) : Except PyErr (List (ℚ × ℚ)) :=
  if perRow then rows.mapM fun r => do return (← percentileOf p r, ← percentileOf (100 - p) r)
  else do return [(← percentileOf p rows.flatten, ← percentileOf 100 rows.flatten)]

/-- The estimator classes with their options. -/
inductive EstKind where
  | current (percentile : Option ℚ)
  | allMinMax
  | running (momentum : ℚ)
  | mseGrid (numCandidates : Nat) (margin : ℚ)
  | mseGolden (margin : ℚ)
  deriving DecidableEq, Repr

/-- The two calls of `scipy.optimize.minimize_scalar(..., method="Bounded")` as black boxes: the
returned point for the given data and bounds. -/
structure Optimizer where
  range : Vec → ℚ → ℚ → ℚ
  shift : Vec → ℚ → ℚ → ℚ → ℚ

/-- State of a range estimator (range_estimators.py:20-33, 249-267).  `cur` is
`current_xmin/current_xmax`; `search` is `(max_pos_thr, max_neg_thr, max_search_range)`;
`losses` is `loss_array` (its excluded first column left out), per channel group. -/
structure Est where
  kind : EstKind
  perChannel : Bool := false
  axis : Option Nat := none
  nGroups : Option Nat := none
  cur : Option (List (ℚ × ℚ)) := none
  oneSided : Option Bool := none
  search : ℚ × ℚ × ℚ := (0, 0, 0)
  losses : Option (List (List ℚ)) := none
  deriving DecidableEq, Repr

/-- Element-wise combination of two range tensors with the same number of channels
(simplification: different numbers are reported as `other`; torch broadcasts a single channel and
raises otherwise). -/
def combine (f : (ℚ × ℚ) → (ℚ × ℚ) → (ℚ × ℚ)) (a b : List (ℚ × ℚ)) : Except PyErr (List (ℚ × ℚ)) :=
  if a.length = b.length then .ok (List.zipWith f a b) else .error .other

/-- The statistic of the axis / per-channel / per-tensor branches shared by the current and the
running estimator (range_estimators.py:104-137, 152-154, 164-166 and 198-225). -/
def axisStat (e : Est) (rows : List Vec) : Except PyErr (List (ℚ × ℚ)) :=
  match e.axis, e.nGroups with
  | some _, some ng => groupStat ng rows
  | some _, none => batchStat true rows
  | none, _ => batchStat e.perChannel rows

/-- `CurrentMinMaxEstimator.forward` (range_estimators.py:87-166).  A percentile of `0` or `None`
is falsy. -/
def currentStat (e : Est) (pc : Option ℚ) (rows : List Vec) : Except PyErr (List (ℚ × ℚ)) :=
  match e.axis, pc with
  | none, some p => if p ≠ 0 then percentileStat e.perChannel p rows else axisStat e rows
  | _, _ => axisStat e rows

/-- One update of `AllMinMaxEstimator` (range_estimators.py:182-187). -/
def allUpd (old new : ℚ × ℚ) : ℚ × ℚ := (min old.1 new.1, max old.2 new.2)

/-- One update of `RunningMinMaxEstimator` (range_estimators.py:231-235). -/
def runUpd (m : ℚ) (old new : ℚ × ℚ) : ℚ × ℚ :=
  ((1 - m) * new.1 + m * old.1, (1 - m) * new.2 + m * old.2)

/-! ## The MSE estimator -/

/-- `quantize` and `loss_fx` of the MSE estimator on some elements (range_estimators.py:269-277,
308-315): the squared error of the quantizer set to the range `r`.  Thresholds that are both zero
leave the copy of the quantizer as it is (`if x_min or x_max`); reported as not initialised or
`other`. -/
def sqErr (q : Quantizer) (r : ℚ × ℚ) (v : Vec) : Except PyErr ℚ :=
  if r.1 = 0 ∧ r.2 = 0 then (if q.pars = none then .error .quantNotInit else .error .other)
  else
    let signed := anyNeg [tensorize q r]
    if q.sym = true ∧ signed = true ∧ q.nBits = 0 then .error .other
    else do
      let p ← parOf q signed r
      return (v.map fun x => (x - quant1 q signed p x) ^ 2).sum

/-- The candidates `1 .. n` of the 1-D grid (range_estimators.py:383-385). -/
def cands1D (oneSided : Bool) (step : ℚ) (n : Nat) : List (ℚ × ℚ) :=
  (List.range n).map fun (c : Nat) => (if oneSided then 0 else -step * ((c : ℤ) + 1 : ℤ), step * ((c : ℤ) + 1 : ℤ))

/-- The candidates of the 2-D grid in the order of the flattened loss array
(range_estimators.py:410-421): interval, shift, sign of the shift. -/
def cands2D (nBits : Nat) (step maxPos maxNeg : ℚ) (n : Nat) : List (ℚ × ℚ) :=
  (List.range n).flatMap fun (c : Nat) => (List.range (2 ^ nBits / 4)).flatMap fun (sh : Nat) =>
    [false, true].map fun rev =>
      let fin := step * ((c : ℤ) + 1 : ℤ)
      let d := (fin - -fin) / ((2 : ℤ) ^ nBits - 1 : ℤ)
      let skew := (if rev then -1 else 1) * ((sh : ℤ) : ℚ) * d
      (max (-fin + skew) maxNeg, min (fin + skew) maxPos)

/-- `argmin`: the index of the first smallest entry. -/
def argmin : List ℚ → Nat
  | [] => 0
  | [_] => 0
  | x :: xs => let j := argmin xs; if x ≤ xs.getD j 0 then 0 else j + 1

/-- The groups of elements whose losses are kept apart (range_estimators.py:351, 270-277). -/
def lossGroups (perChannel : Bool) (rows : List Vec) : List Vec :=
  if perChannel then rows else [rows.flatten]

/-- `one_sided_dist` and the search range, fixed on the first batch after construction or reset
(range_estimators.py:350-375, 494-502); `one_sided_dist` survives a reset. -/
def defineSearch (e : Est) (q : Quantizer) (margin : ℚ) (rows : List Vec) : Except PyErr Est := do
  let (lo, hi) ← minMax rows.flatten
  let os := match e.oneSided with | some b => b | none => decide (0 ≤ lo)
  let srch : ℚ × ℚ × ℚ :=
    if os || q.sym then
      let t := max |lo| hi + margin
      (t, -t, t)
    else
      let p := hi + margin
      let n := lo - margin
      (p, n, max |p| |n|)
  return { e with oneSided := some os, search := srch }

/-- The first batch defines the search (range_estimators.py:494-502). -/
def prepSearch (e : Est) (q : Quantizer) (margin : ℚ) (rows : List Vec) : Except PyErr Est :=
  if e.losses = none then defineSearch e q margin rows else .ok e

/-- The candidate ranges of the grid search. -/
def gridCands (e : Est) (q : Quantizer) (n : Nat) : List (ℚ × ℚ) :=
  let step := e.search.2.2 / ((n : ℤ) : ℚ)
  if e.oneSided.getD false || q.sym then cands1D (e.oneSided.getD false) step n
  else cands2D q.nBits step e.search.1 e.search.2.1 n

/-- One batch of the grid search (range_estimators.py:377-397, 399-441): the losses of the batch are
added to the accumulated ones and the best candidate is chosen.  An empty candidate list
(`max_int_skew = 0`) makes `argmin` raise ValueError; `num_candidates = 0` is reported the same way
(simplification), and so is a batch with another number of channels. -/
def gridStep (e : Est) (q : Quantizer) (n : Nat) (rows : List Vec) : Except PyErr (Est × List (ℚ × ℚ)) := do
  let cs := gridCands e q n
  if cs = [] then throw .valueError
  let gs := lossGroups e.perChannel rows
  let new ← gs.mapM fun v => cs.mapM fun r => sqErr q r v
  let old := e.losses.getD (gs.map fun _ => cs.map fun _ => 0)
  if old.length ≠ new.length then throw .valueError
  let acc := List.zipWith (List.zipWith (· + ·)) old new
  let res := acc.map fun l => cs.getD (argmin l) (0, 0)
  return ({ e with losses := some acc, cur := some res }, res)

/-- One batch of the golden-section search (range_estimators.py:443-491): only the present batch is
looked at, inside the search range fixed by the first one. -/
def goldenStep (o : Optimizer) (e : Est) (q : Quantizer) (rows : List Vec) :
    Except PyErr (Est × List (ℚ × ℚ)) :=
  let gs := lossGroups e.perChannel rows
  let R := e.search.2.2
  let os := e.oneSided.getD false
  let res := gs.map fun v =>
    let x := o.range v (R / 100) R
    if os || q.sym then (if os then (0, x) else (-x, x))
    else
      let d := 2 * x / ((2 : ℤ) ^ q.nBits - 1 : ℤ)
      let m := d * ((2 : ℤ) ^ q.nBits / 4 : ℤ)
      let s := o.shift v x (-m) m
      (-x + s, x + s)
  .ok ({ e with cur := some res, losses := some (e.losses.getD []) }, res)

/-- `forward` of the range estimators; `q` is the quantizer that was handed to the MSE estimator. -/
def estForward (o : Optimizer) (q : Quantizer) (e : Est) (rows : List Vec) :
    Except PyErr (Est × List (ℚ × ℚ)) := do
  match e.kind with
  | .current pc =>
    let s ← currentStat e pc rows
    return ({ e with cur := some s }, s)
  | .allMinMax =>
    let s ← batchStat e.perChannel rows
    let c ← match e.cur with | none => .ok s | some c => combine allUpd c s
    return ({ e with cur := some c }, c)
  | .running m =>
    let s ← axisStat e rows
    let c ← match e.cur with | none => .ok s | some c => combine (runUpd m) c s
    return ({ e with cur := some c }, c)
  | .mseGrid n margin =>
    let e ← prepSearch e q margin rows
    gridStep e q n rows
  | .mseGolden margin =>
    let e ← prepSearch e q margin rows
    goldenStep o e q rows

/-- `reset` (range_estimators.py:50-55, 509-511). -/
def estReset (e : Est) : Est :=
  match e.kind with
  | .mseGrid .. | .mseGolden .. => { e with cur := none, losses := none }
  | _ => { e with cur := none }

end Aihw.Quant

import Verif.Common
import Mathlib.Data.List.Sort

/-!
# Input range calibration

Models `calibrate_input_ranges` and its forward hook
(`src/aihwkit/inference/calibration/calibration.py:37-301`).

Simplifications.
* Tiles are the entries of `named_analog_tiles()` (distinct names), identified by their position; every
  tile has its own configuration object (`simulator/tiles/base.py:320` copies it).
* What the model computes between tiles is not modelled: a pass over the data is an arbitrary trace of
  tile calls with their inputs, possibly ended by an exception.
* An input is given by its rows (`reshape(-1, size(-1))`).
* Random subsampling and the standard deviation (irrational; NaN is `none`) are arguments.
* `manage_output_clipping` is off (its check may raise in `init_input_processing`).
-/
namespace Aihw.Calib

/-- `InputRangeCalibrationType` (calibration.py:37-56). -/
inductive CType where
  | none | movingStd | movingQuantile | cacheQuantile | max
  deriving DecidableEq, Repr

/-- Arguments of `calibrate_input_ranges` (calibration.py:128-137). -/
structure Args where
  ctype : CType
  quantile : ℚ := 99995 / 100000
  maxSamples : Nat := 1000
  stdAlpha : Option ℚ := .none
  force : Bool := true
  deriving DecidableEq, Repr

/-- Content of one entry of the cache: a matrix of samples (initially empty) or a scalar. -/
inductive CVal where
  | rows (l : List Vec)
  | scalar (v : ℚ)
  deriving DecidableEq, Repr

/-- A registered forward hook: its bound arguments and its cache entry (calibration.py:231-241). -/
structure Hook where
  ctype : CType
  quantile : ℚ
  maxSamples : Nat
  cache : CVal := .rows []
  deriving DecidableEq, Repr

/-- A tile: the part of its configuration and state that calibration reads or writes. `hooks` are the
calibration hooks registered on it; `ctx` counts how often the analog parameter was replaced by
`__setstate__` (`simulator/tiles/base.py:797`). -/
structure Tile where
  /-- the configuration has a `forward` field (not so for floating point configurations) -/
  hasForward : Bool := true
  /-- `pre_post.input_range` -/
  enable : Bool := false
  learn : Bool := true
  initValue : ℚ := 3
  initFromData : Nat := 100
  stdAlpha : ℚ := 3
  info : Option CType := .none
  /-- `forward.noise_management != NONE` -/
  noiseMgmt : Bool := true
  /-- `forward.is_perfect` -/
  perfect : Bool := false
  /-- `tile.input_range`, `tile.input_range_update_idx` -/
  range : Option ℚ := .none
  updIdx : Nat := 0
  hooks : List Hook := []
  ctx : Nat := 0
  deriving DecidableEq, Repr

/-- A model: training flags of the model itself and of its submodules, and the tiles. -/
structure Model where
  training : Bool
  sub : List Bool := []
  tiles : List Tile
  deriving DecidableEq, Repr

/-- `torch.quantile` of a vector with linear interpolation; raises for an empty vector and for levels
outside [0, 1]. -/
def quantileOf (q : ℚ) (v : Vec) : Except PyErr ℚ :=
  if q < 0 ∨ 1 < q then .error .runtimeError
  else if v = [] then .error .runtimeError
  else
    let s := v.insertionSort (· ≤ ·)
    let h := q * ((v.length : ℤ) - 1 : ℤ)
    let i := (⌊h⌋).toNat
    .ok (s.getD i 0 + (h - ⌊h⌋) * (s.getD (i + 1) (s.getD i 0) - s.getD i 0))

/-- `x.abs().max()`; raises for an empty tensor. -/
def absMaxOf (v : Vec) : Except PyErr ℚ :=
  if v = [] then .error .runtimeError else .ok (absMax v)

/-- Rows that are not all zero (calibration.py:78-81). -/
def dropZero (rows : List Vec) : List Vec := rows.filter fun r => !(r.all fun x => x == 0)

/-- Statistic of one batch for the moving calibrations (calibration.py:104-116); `none` if it is not
computed or NaN. -/
def movingVal (std : List Vec → Option ℚ) (h : Hook) (t : Tile) (x : List Vec) :
    Except PyErr (Option ℚ) :=
  if h.ctype = .movingQuantile then
    (if h.quantile = 1 then absMaxOf x.flatten else quantileOf h.quantile x.flatten).map some
  else if t.updIdx < h.maxSamples then .ok ((std x).map (t.stdAlpha * ·))
  else .ok .none

/-- Update of the running mean (calibration.py:118-122, `set_input_range`
`simulator/tiles/periphery.py:668-686`). -/
def movingUpd (t : Tile) (v : Option ℚ) : Tile × Option PyErr :=
  match v with
  | .none => (t, .none)
  | some v =>
    if 0 < v then
      match t.range with
      | .none => (t, some .attributeError)
      | some old =>
        ({ t with range := some |(old * t.updIdx + v) / (t.updIdx + 1)|
                  updIdx := t.updIdx + 1 }, .none)
    else (t, .none)

/-- New content of a maximum cache (calibration.py:95-99). -/
def maxUpd (c : CVal) (m : ℚ) : CVal :=
  match c with
  | .rows _ => .scalar m
  | .scalar v => .scalar (Max.max v m)

/-- The samples of a cache. -/
def cacheRows : CVal → List Vec
  | .rows l => l
  | .scalar v => [[v]]

/-- `_calibration_pre_forward` (calibration.py:59-125) with the result of the shuffle `σ`. -/
def runHook (std : List Vec → Option ℚ) (σ : List Vec → List Vec) (h : Hook) (t : Tile)
    (input : List Vec) : (Hook × Tile) × Option PyErr :=
  let x := dropZero input
  match h.ctype with
  | .none => ((h, t), some .configError)
  | .cacheQuantile =>
    (({ h with cache := .rows ((σ (cacheRows h.cache ++ x)).take h.maxSamples) }, t), .none)
  | .max =>
    match absMaxOf x.flatten with
    | .error e => ((h, t), some e)
    | .ok m => (({ h with cache := maxUpd h.cache m }, t), .none)
  | .movingQuantile | .movingStd =>
    match movingVal std h t x with
    | .error e => ((h, t), some e)
    | .ok v => ((h, (movingUpd t v).1), (movingUpd t v).2)

/-- Hooks run in the order of registration; an exception ends the call. -/
def runHooks (std : List Vec → Option ℚ) (σ : List Vec → List Vec) (input : List Vec) :
    List Hook → Tile → (List Hook × Tile) × Option PyErr
  | [], t => (([], t), .none)
  | h :: hs, t =>
    match runHook std σ h t input with
    | ((h', t'), some e) => ((h' :: hs, t'), some e)
    | ((h', t'), .none) =>
      ((h' :: (runHooks std σ input hs t').1.1, (runHooks std σ input hs t').1.2),
       (runHooks std σ input hs t').2)

/-- The tile is called with an input. -/
def callTile (std : List Vec → Option ℚ) (σ : List Vec → List Vec) (input : List Vec) (t : Tile) :
    Tile × Option PyErr :=
  ({ (runHooks std σ input t.hooks t).1.2 with hooks := (runHooks std σ input t.hooks t).1.1 },
   (runHooks std σ input t.hooks t).2)

/-- What happens while the data is passed through the model. -/
inductive Event where
  /-- tile `i` is called; `shuffle` is the outcome of `randperm` -/
  | call (i : Nat) (input : List Vec) (shuffle : List Vec → List Vec)
  /-- the model or the data loader raises -/
  | raises (e : PyErr)

/-- The pass over the data (calibration.py:243-246). -/
def pass (std : List Vec → Option ℚ) : List Tile → List Event → List Tile × Option PyErr
  | ts, [] => (ts, .none)
  | ts, .raises e :: _ => (ts, some e)
  | ts, .call i x σ :: evs =>
    match ts[i]? with
    | .none => pass std ts evs
    | some t =>
      match callTile std σ x t with
      | (t', some e) => (ts.set i t', some e)
      | (t', .none) => pass std (ts.set i t') evs

/-- `init_input_processing` after `enable = True; learn_input_range = False`
(calibration.py:197-200, 255-258; `simulator/tiles/periphery.py:565-616`). -/
def enableRange (t : Tile) : Tile :=
  if t.enable then t
  else { t with enable := true, learn := false, range := some t.initValue, updIdx := 0 }

/-- The calibration is one of those that cache (calibration.py:220-222). -/
def cachingType (c : CType) : Bool := c = .max || c = .cacheQuantile

/-- Body of the first loop for one tile (calibration.py:186-241): the changed tile, whether a hook was
registered with the value of `is_perfect` saved, and an exception. -/
def prepare (a : Args) (t : Tile) : Tile × Option Bool × Option PyErr :=
  if !t.hasForward then (t, .none, .none)
  else if !a.force && !t.enable then (t, .none, .none)
  else
    let t1 := { enableRange t with initFromData := 0, stdAlpha := a.stdAlpha.getD t.stdAlpha }
    if t1.noiseMgmt && !a.force then (t1, .none, some .configError)
    else
      let makePerfect := cachingType a.ctype && !t1.perfect
      ({ t1 with noiseMgmt := false, perfect := t1.perfect || makePerfect
                 ctx := t1.ctx + (if t1.noiseMgmt || makePerfect then 1 else 0)
                 hooks := t1.hooks ++
                   [{ ctype := a.ctype, quantile := a.quantile, maxSamples := a.maxSamples }] },
       some t1.perfect, .none)

/-- The first loop: the tiles, the saved values, the exception. -/
def prepareAll (a : Args) : List Tile → List Tile × List (Option Bool) × Option PyErr
  | [] => ([], [], .none)
  | t :: ts =>
    match prepare a t with
    | (t', _, some e) => (t' :: ts, [], some e)
    | (t', s, .none) =>
      (t' :: (prepareAll a ts).1, s :: (prepareAll a ts).2.1, (prepareAll a ts).2.2)

/-- Removal of the hook that this calibration registered, which is the last one
(calibration.py:248-250), and the present content of its cache. -/
def dropOwn (s : Option Bool) (t : Tile) : Tile :=
  match s with
  | .none => t
  | some _ => { t with hooks := t.hooks.dropLast }

def ownCache (s : Option Bool) (t : Tile) : Option CVal :=
  match s with
  | .none => .none
  | some _ => t.hooks.getLast?.map (·.cache)

/-- Range computed from the cache (calibration.py:276-283); `none` for an empty cache
(calibration.py:271-274). -/
def cacheRange (a : Args) : CVal → Except PyErr (Option ℚ)
  | .scalar v => .ok (some v)
  | .rows l => if l.flatten = [] then .ok .none else (quantileOf a.quantile l.flatten).map some

/-- Body of the last loop for one tile (calibration.py:260-297). -/
def finish (a : Args) (s : Option Bool) (c : Option CVal) (t : Tile) : Tile × Option PyErr :=
  if !t.hasForward then (t, .none)
  else
    match c with
    | .none => (t, some .keyError)
    | some c =>
      match cacheRange a c with
      | .ok .none => (t, .none)
      | .error e => (t, some (if t.range = .none then .attributeError else e))
      | .ok (some v) =>
        if t.range = .none then (t, some .attributeError)
        else
          ({ t with perfect := s.getD t.perfect
                    ctx := t.ctx + (if t.perfect != s.getD t.perfect then 1 else 0)
                    range := some |v|, initValue := |v|, info := some a.ctype }, .none)

/-- The last loop. -/
def finishAll (a : Args) : List (Option Bool × Option CVal × Tile) → List Tile × Option PyErr
  | [] => ([], .none)
  | (s, c, t) :: ts =>
    match finish a s c t with
    | (t', some e) => (t' :: ts.map (·.2.2), some e)
    | (t', .none) => (t' :: (finishAll a ts).1, (finishAll a ts).2)

/-- `model.train(b)` sets the flag of every submodule (`model.eval()` is `model.train(False)`). -/
def setTraining (b : Bool) (m : Model) (ts : List Tile) : Model :=
  { training := b, sub := m.sub.map fun _ => b, tiles := ts }

/-- `calibrate_input_ranges` (calibration.py:127-301).  `analog` tells whether the model is an analog
layer or container. -/
def calibrate (std : List Vec → Option ℚ) (a : Args) (analog : Bool) (m : Model) (evs : List Event) :
    Model × Option PyErr :=
  if a.ctype = .none then (m, .none)
  else if !analog then (m, some .argumentError)
  else
    match prepareAll a m.tiles with
    | (ts, _, some e) => (setTraining false m ts, some e)
    | (ts, saved, .none) =>
      match pass std ts evs with
      | (ts', some e) => (setTraining false m ts', some e)
      | (ts', .none) =>
        let work := (saved.zip ts').map fun p =>
          (p.1, ownCache p.1 p.2, enableRange (dropOwn p.1 p.2))
        match finishAll a work with
        | (r, some e) => (setTraining false m r, some e)
        | (r, .none) => (setTraining m.training m r, .none)

end Aihw.Calib

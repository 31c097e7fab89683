import Verif.Periphery.Model

/-!
# Model of the inference tile: programming, drift and drift compensation

`InferenceTileWithPeriphery` (src/aihwkit/simulator/tiles/inference.py:37-361) on top of the periphery model
(`Aihw.Periphery`), `src/aihwkit/inference/compensation/{base,drift}.py`.

The noise model is an arbitrary object: programming maps weights to noisy weights and drift parameters of an arbitrary type
`P`, drift maps programmed weights, parameters and a time to weights; both may raise.  Random numbers are functions of a
key `k` that every call carries.  The read-out (`self.tile.forward` on the unit matrix) is an arbitrary function of the key and
the device weights, so that analog non-idealities of the read-out are included.  Not modelled: `out_trans`, CUDA.
-/
namespace Aihw.Inference.Life
open Aihw.Periphery

/-- A noise model (src/aihwkit/inference/noise/base.py:74-127). -/
structure NM (P : Type) where
  prog : Nat → Mat → Except PyErr (Mat × P)
  drift : Nat → Mat → P → ℚ → Except PyErr Mat

/-- `rpu_config.drift_compensation`: None, `GlobalDriftCompensation`, `…WithExactReference`, `PerColumnDriftCompensation`. -/
inductive Comp where
  | none | global | exact | perColumn
  deriving DecidableEq

/-- Configuration: compensation, `in_trans`, analog read-out with random key (`[x_size][d_size]`). -/
structure ICfg where
  comp : Comp := .none
  inTrans : Bool := false
  read : Nat → Mat → Mat

/-- Exact product of the unit matrix with the transposed weights: `eye @ W.T` (inference.py:139-145), `n` columns. -/
def exactRead (n : Nat) (w : Mat) : Mat := (List.range n).map fun j => col w j

/-- State of an inference tile. -/
structure ITile (P : Type) where
  ic : ICfg
  t : Tile
  nm : NM P
  programmed : Option Mat := .none
  pars : Option P := .none
  readoutSet : Bool := false
  baseline : Option Vec := .none
  alpha : Vec := [1]

/-- inference.py:50-62 constructor (after the periphery's). -/
def fresh {P : Type} (ic : ICfg) (c : Cfg) (nm : NM P) : ITile P := { ic := ic, t := init c, nm := nm }

/-- drift.py:28-30 and 74-76: `clamp(abs(out).mean(), min=1e-4)`, over everything or over dimension 0 (the read-out index). -/
def readout (c : Comp) (out : Mat) : Vec :=
  match c with
  | .perColumn =>
    (List.range (out.headD []).length).map fun j => max ((col out j).map (|·|) |> mean) (1 / 10000)
  | _ => [max (mean (out.flatten.map (|·|))) (1 / 10000)]

/-- Number of inputs of the simulator tile (`tile.get_x_size()`, bias column included). -/
def xSize (c : Cfg) : Nat := c.inSize + if c.analogBias then 1 else 0

/-- inference.py:104-159 `_forward_drift_readout_tensor`: new state and output. For `in_trans` the tensor has been assigned before
the misspelled method `tranpose` raises. -/
def readForward {P : Type} (reset exact : Bool) (k : Nat) (s : ITile P) : Except PyErr Mat × ITile P :=
  if (!s.readoutSet || reset) && s.ic.inTrans then (.error .attributeError, { s with readoutSet := true })
  else
    let s := { s with readoutSet := true }
    if exact then
      match s.t.reference with
      | .none => (.error .attributeError, s)
      | some r => (.ok (exactRead (xSize s.t.cfg) r), s)
    else (.ok (s.ic.read k s.t.w), s)

/-- base.py:27-43 and drift.py:50-65 `init_baseline`. -/
def initBaseline {P : Type} (k : Nat) (s : ITile P) : Except PyErr Unit × ITile P :=
  match readForward true (s.ic.comp == .exact) k s with
  | (.error e, s) => (.error e, s)
  | (.ok out, s) => (.ok (), { s with baseline := some (readout s.ic.comp out) })

/-- inference.py:194-201: the noise model argument replaces the configured one; the reference is taken from the device weights
if asked for or missing. -/
def takeReference {P : Type} (fromRef : Bool) (nmArg : Option (NM P)) (s : ITile P) : ITile P :=
  let s := { s with nm := nmArg.getD s.nm }
  if !fromRef || s.t.reference.isNone then { s with t := { s.t with reference := some s.t.w } } else s

/-- inference.py:161-216 `program_weights` (noise model argument of the right type). -/
def program {P : Type} (fromRef : Bool) (nmArg : Option (NM P)) (k : Nat) (s : ITile P) : Except PyErr Unit × ITile P :=
  let s := takeReference fromRef nmArg s
  match s.nm.prog k (s.t.reference.getD []) with
  | .error e => (.error e, s)
  | .ok (pw, p) =>
    let s := { s with programmed := some pw, pars := some p, t := { s.t with w := devWrite s.t.cfg pw } }
    if s.ic.comp = .none then (.ok (), s) else initBaseline k s

/-- base.py:58-64 `apply`: elementwise `ref_value / current_value`; a missing baseline is `None / tensor`. -/
def compensate {P : Type} (out : Mat) (s : ITile P) : Except PyErr Vec :=
  match s.baseline with
  | .none => .error .typeError
  | some b => .ok (List.zipWith (· / ·) b (readout s.ic.comp out))

/-- inference.py:243-266: the part of `drift_weights` after the tile has been programmed. -/
def driftProgrammed {P : Type} (tInf : ℚ) (k : Nat) (s : ITile P) : Except PyErr Unit × ITile P :=
  match s.programmed, s.pars with
  | some pw, some p =>
    match s.nm.drift k pw p tInf with
    | .error e => (.error e, s)
    | .ok dw =>
      let s := { s with t := { s.t with w := devWrite s.t.cfg dw } }
      if s.ic.comp = .none then (.ok (), s)
      else
        match readForward false false k s with
        | (.error e, s) => (.error e, s)
        | (.ok out, s) =>
          match compensate out s with
          | .error e => (.error e, s)
          | .ok a => (.ok (), { s with alpha := a })
  | _, _ => (.error .typeError, s)

/-- inference.py:218-266 `drift_weights`: programs first if nothing has been programmed. -/
def drift {P : Type} (tInf : ℚ) (k : Nat) (s : ITile P) : Except PyErr Unit × ITile P :=
  match s.programmed with
  | some _ => driftProgrammed tInf k s
  | .none =>
    match program true .none k s with
    | (.error e, s) => (.error e, s)
    | (.ok _, s) => driftProgrammed tInf k s

/-- inference.py:268-282 `post_forward`: compensation in evaluation mode only. -/
def applyAlpha {P : Type} (s : ITile P) (isTest : Bool) (y : Vec) : Except PyErr Vec :=
  if isTest && s.ic.comp != .none then bmul y s.alpha else .ok y

/-- inference.py:417-433 module forward: analog part, compensation, learned scales, digital bias. -/
def forwardI {P : Type} (x : Vec) (std : ℚ) (isTest : Bool) (s : ITile P) : Except PyErr Vec × Tile :=
  (do
    let y ← jointForward x std isTest
    let y ← Op.lift (applyAlpha s isTest y)
    let t ← Op.get
    let y ← Op.lift (applyOutScaling t y)
    pure (if t.cfg.digitalBias then vadd y t.bias else y) : Op Vec) s.t

/-- The calls a user can make; `other` stands for any further method that changes only weights, bias, scales, ranges
and learning rate (post-update clipping, remapping, state loading of weights) but not the reference. -/
inductive ICall (P : Type) where
  | base (c : Call)
  | program (fromRef : Bool) (nm : Option (NM P)) (k : Nat)
  | drift (tInf : ℚ) (k : Nat)
  | forward (x : Vec) (std : ℚ) (isTest : Bool)
  | other (f : Tile → Tile)

/-- Effect of a call (exceptions caught). -/
def istep {P : Type} (s : ITile P) : ICall P → ITile P
  | .base c => { s with t := step s.t c }
  | .program b n k => (program b n k s).2
  | .drift t k => (drift t k s).2
  | .forward x sd e => { s with t := (forwardI x sd e s).2 }
  | .other f => { s with t := { f s.t with reference := s.t.reference, cfg := s.t.cfg } }

/-- State after a history of calls. -/
def irun {P : Type} (s : ITile P) (h : List (ICall P)) : ITile P := h.foldl istep s

end Aihw.Inference.Life

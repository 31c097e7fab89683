import Verif.Periphery.Model

/-!
# Model of `TileWithPeriphery.program_weights`

src/aihwkit/simulator/tiles/periphery.py:244-304 on the ideal device of `Model.lean`.
-/
namespace Aihw.Periphery

/-- `eye(n)` as a list of rows. -/
def eye (n : Nat) : Mat := (List.range n).map fun i => (List.range n).map fun j => if i = j then 1 else 0

/-- `self.tile.forward(x_values, False)` on a batch: without bias extension. -/
def devForwardBatch (w : Mat) (xs : Mat) : Mat := xs.map (matVec w)

/-- `self.tile.update(x_values, error, False)` on a batch: the samples are applied one after the other with
learning rate `lr` (src/rpucuda/rpu.cpp `updateMatrix`), then the device clips to its bound. -/
def devUpdateBatch (c : Cfg) (lr : ℚ) (w : Mat) (xs ds : Mat) : Mat :=
  devWrite c ((xs.zip ds).foldl (fun w p => outerUpdate w lr p.2 p.1) w)

/-- `y - target_values`. -/
def matSub (a b : Mat) : Mat := List.zipWith (List.zipWith (· - ·)) a b

/-- `error.abs().mean()`. -/
def meanAbs (a : Mat) : ℚ := mean (a.flatten.map (|·|))

/-- periphery.py:294-302, the loop `for _ in range(max_iter)`, on the device weights. `tmax` is a python
float, so the relative error raises if it is 0. -/
def programLoop (c : Cfg) (lr : ℚ) (tol : Option ℚ) (xs target : Mat) (tmax : ℚ) :
    Nat → Mat → Except PyErr Unit × Mat
  | 0, w => (.ok (), w)
  | n + 1, w =>
    let error := matSub (devForwardBatch w xs) target
    match tol with
    | .none => programLoop c lr tol xs target tmax n (devUpdateBatch c lr w xs error)
    | some tol' =>
      if tmax = 0 then (.error .zeroDivision, w)
      else if meanAbs error / tmax < tol' then (.ok (), w)
      else programLoop c lr tol xs target tmax n (devUpdateBatch c lr w xs error)

/-- periphery.py:279-281: the local variable `target_weights`, `none` if it stays unbound. -/
def targetWeights (fromReference : Bool) (t : Tile) : Option Mat :=
  if !fromReference || t.reference.isNone then some t.w else none

/-- periphery.py:244-304 `program_weights`. `x`: explicit `x_values`; `wInit`: the weights the device starts
from (the tensor given, or the result of `set_weights_uniform_random`). Reading an unbound local raises. -/
def programWeights (fromReference : Bool) (x : Option Mat) (lr : ℚ) (maxIter : Nat) (tol : Option ℚ)
    (wInit : Mat) : Op Unit := fun t =>
  let tw := targetWeights fromReference t
  let t := if tw.isSome then { t with reference := tw } else t
  match x, tw with
  | some _, _ => (.error .unboundLocal, t)
  | .none, .none => (.error .unboundLocal, t)
  | .none, some target =>
    let xs := eye (t.cfg.inSize + if t.cfg.analogBias then 1 else 0)
    let tv := devForwardBatch target xs
    let tmax := absMax tv.flatten
    let t := { t with w := devWrite t.cfg wInit }
    let lrSave := t.devLr
    match programLoop t.cfg lr tol xs tv tmax maxIter t.w with
    | (.ok (), w) => (.ok (), { t with w := w, devLr := lrSave })
    | (.error e, w) => (.error e, { t with w := w, devLr := lr })

end Aihw.Periphery

import Verif.Periphery.Model
import Verif.TileArray.Model

/-!
# Model of the analog matrix

src/aihwkit/linalg/matrix.py, on top of the tile with digital periphery (`Verif.Periphery.Model`: ideal crossbar) and the tile array
(`Verif.TileArray.Model`).  Not modelled: devices and dtypes, `realistic=True`, CUDA.
-/
namespace Aihw.Linalg
open Aihw.Periphery (Cfg Tile)
open Aihw.TileArray (TArray TileOps)

/-- The parts of the RPU config the analog matrix uses: tile configuration for the given sizes (without bias), mapping limits, and
whether there is a tile array class. -/
structure Conf where
  tile : Nat → Nat → Cfg
  maxIn : Int := 512
  maxOut : Int := 512
  hasArray : Bool := true

/-- src/aihwkit/simulator/parameters/mapping.py:142-162 `get_default_tile_module_class`: is the array class taken? -/
def useArray (c : Conf) (out inn : Nat) : Bool :=
  if c.hasArray = false ∨ (c.maxIn = 0 ∧ c.maxOut = 0) then false
  else decide (c.maxIn < inn ∨ c.maxOut < out)

/-- The tile operations the array calls (src/aihwkit/simulator/tiles/array.py:99-182).  Simplification: the effect of an input range
on the state is not kept (used without input range only). -/
def tileOps : TileOps Tile where
  setW t w :=
    let r := Periphery.setWeights w none true none t
    r.1.map fun _ => r.2
  getW t := (Periphery.getWeights t true).map (·.1)
  fwd t x := (Periphery.forward x 0 false t).1

/-- matrix.py:48-50: one tile or an array of tiles. -/
inductive AMat where
  | single (t : Tile)
  | array (a : TArray Tile)

/-- matrix.py:34-51 `__init__` (`realistic=False`). -/
def AMat.new (c : Conf) (m : Mat) : Except PyErr AMat :=
  let out := m.length
  let inn := (m.headD []).length
  if useArray c out inn then
    (TArray.init (fun o i => Periphery.init (c.tile o i)) out inn c.maxOut c.maxIn false).bind fun a =>
      (TileArray.setWeights tileOps a m.flatten none).map .array
  else
    let r := Periphery.setWeights m none true none (Periphery.init (c.tile out inn))
    r.1.map fun _ => .single r.2

/-- matrix.py:109-112 `shape`. -/
def AMat.shape : AMat → Nat × Nat
  | .single t => (t.cfg.outSize, t.cfg.inSize)
  | .array a => (a.outSize, a.inSize)

/-- matrix.py:63-75 `A @ x` for one vector.  The tile is in training mode (`is_test = not self.training`); `std` is the standard
deviation an input range would see.  A numpy vector is moved to `self._tile.device`, which a tile array does not have. -/
def AMat.matmul (numpy : Bool) (x : Vec) (std : ℚ) (A : AMat) : Except PyErr Vec × AMat :=
  match A with
  | .single t => ((Periphery.forward x std false t).1, .single (Periphery.forward x std false t).2)
  | .array a => if numpy then (.error .attributeError, A) else (TileArray.forward tileOps a x, A)

/-- matrix.py:77-89 `x @ A` for one vector: `tile.backward`, which a tile array does not have.  The tile checks the size
(src/aihwkit/simulator/rpu_base_src/rpu_base_tiles.cpp). -/
def AMat.rmatmul (d : Vec) (A : AMat) : Except PyErr Vec :=
  match A with
  | .single t => if d.length = t.cfg.outSize then Periphery.backward t d else .error .runtimeError
  | .array _ => .error .attributeError

/-- A batch of updates, in order. -/
def updateAll : List (Vec × Vec) → Periphery.Op Unit
  | [] => pure ()
  | p :: ps => Periphery.Op.bind (Periphery.update p.1 p.2) fun _ => updateAll ps

/-- matrix.py:113-130 `ger`: `set_learning_rate(alpha)`, then `update(x, -d)`, one sample after the other.  A batch with samples of a
wrong size is refused before any weight is written. -/
def AMat.ger (alpha : ℚ) (batch : List (Vec × Vec)) (A : AMat) : Except PyErr Unit × AMat :=
  match A with
  | .array _ => (.error .attributeError, A)
  | .single t =>
    let t1 := (Periphery.setLearningRate (some alpha) t).2
    if batch.all fun p => p.1.length == t.cfg.inSize && p.2.length == t.cfg.outSize then
      let r := updateAll (batch.map fun p => (p.1, p.2.map (- ·))) t1
      (r.1, .single r.2)
    else (.error .runtimeError, .single t1)

/-- matrix.py:63-75 with a matrix, and matrix.py:91-92 `_matmat`: the tile takes the rows of the operand as samples (simplification:
used without input range, where the state does not change). -/
def AMat.matmulRows (numpy : Bool) (X : Mat) (A : AMat) : Except PyErr Mat :=
  X.mapM fun x => (A.matmul numpy x 0).1

/-- `scipy.sparse.linalg.LinearOperator.matmat`: the number of rows must be the number of columns of `A`. -/
def AMat.matmat (numpy : Bool) (X : Mat) (A : AMat) : Except PyErr Mat :=
  if X.length = A.shape.2 then A.matmulRows numpy X else .error .valueError

/-- `LinearOperator.matvec` with a column `(N, 1)`. -/
def AMat.matvecColumn (numpy : Bool) (x : Vec) (A : AMat) : Except PyErr Mat := A.matmat numpy (x.map fun a => [a])

/-- A call on an analog matrix. -/
inductive Act where
  | mul (numpy : Bool) (x : Vec) (std : ℚ)
  | rmul (d : Vec)
  | ger (alpha : ℚ) (batch : List (Vec × Vec))

/-- State after a call (an exception is caught by the caller). -/
def step (A : AMat) : Act → AMat
  | .mul n x s => (A.matmul n x s).2
  | .rmul _ => A
  | .ger a b => (A.ger a b).2

end Aihw.Linalg

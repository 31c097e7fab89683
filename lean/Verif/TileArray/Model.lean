import Verif.Common

/-!
# Model of `TileModuleArray` (src/aihwkit/simulator/tiles/array.py)

A logical weight matrix is split over a 2-d array of tiles, first index = input split, second
index = output split.  Tiles are abstract: any implementation of `TileOps`.
-/
namespace Aihw.TileArray

/-- The three tile methods the array calls on its tiles:
`set_weights(w, None)`, `get_weights()[0]` and `tile(x)` (array.py:120, 145, 161, 171).
Each may raise. -/
structure TileOps (T : Type) where
  setW : T → Mat → Except PyErr T
  getW : T → Except PyErr Mat
  fwd : T → Vec → Except PyErr Vec

/-- array.py:81-97 `get_split_sizes`.  `size` is a dimension (natural), the limit any integer.
Python: `divmod(size, 0)` raises `ZeroDivisionError`. -/
def getSplitSizes (size : Nat) (splitMax : Int) : Except PyErr (List Nat) :=
  if splitMax ≤ 0 then .ok [size]
  else
    let n := (size + splitMax.toNat - 1) / splitMax.toNat
    if n = 0 then .error .zeroDivision
    else
      let base := size / n
      let extra := size % n
      .ok ((List.range n).map fun i => base + (if i < extra then 1 else 0))

/-- State of a `TileModuleArray` (array.py:43-79): logical sizes, split sizes, tiles and the digital
bias parameter (`None` if constructed without bias). -/
structure TArray (T : Type) where
  outSize : Nat
  inSize : Nat
  inSizes : List Nat
  outSizes : List Nat
  tiles : List (List T)
  bias : Option Vec

/-- array.py:43-79 `__init__`.  `mk out in` is `rpu_config.tile_class(out, in, rpu_config, bias=False)`. -/
def TArray.init {T : Type} (mk : Nat → Nat → T) (outSize inSize : Nat) (maxOut maxIn : Int)
    (bias : Bool) : Except PyErr (TArray T) := do
  let inSizes ← getSplitSizes inSize maxIn
  let outSizes ← getSplitSizes outSize maxOut
  return { outSize, inSize, inSizes, outSizes
           tiles := inSizes.map fun n => outSizes.map fun m => mk m n
           bias := if bias then some (List.replicate outSize 0) else none }

/-- array.py:69 `analog_tile_count`. -/
def TArray.tileCount {T : Type} (a : TArray T) : Nat := a.inSizes.length * a.outSizes.length

/-- `tensor.reshape([m, n])` of row-major data; torch raises `RuntimeError` on a size mismatch. -/
def reshape (m n : Nat) (data : Vec) : Except PyErr Mat :=
  if data.length = m * n then .ok ((List.range m).map fun i => (data.drop (i * n)).take n)
  else .error .runtimeError

/-- Python slice `w[os:oe, is:ie]` of a 2-d tensor. -/
def slice2 (w : Mat) (os oe is ie : Nat) : Mat :=
  ((w.drop os).take (oe - os)).map fun r => (r.drop is).take (ie - is)

/-- array.py:115-123, inner loop over `zip(self.out_sizes, in_tiles)`. -/
def setInner {T : Type} (ops : TileOps T) (w : Mat) (is ie : Nat) :
    Nat → List Nat → List T → Except PyErr (List T)
  | os, s :: ss, t :: ts => do
    let oe := os + s
    let t' ← ops.setW t (slice2 w os oe is ie)
    let ts' ← setInner ops w is ie oe ss ts
    return t' :: ts'
  | _, _, ts => return ts

/-- array.py:111-124, outer loop over `zip(self.in_sizes, self.array)`. -/
def setOuter {T : Type} (ops : TileOps T) (w : Mat) (outSizes : List Nat) :
    Nat → List Nat → List (List T) → Except PyErr (List (List T))
  | is, s :: ss, row :: rows => do
    let ie := is + s
    let row' ← setInner ops w is ie 0 outSizes row
    let rows' ← setOuter ops w outSizes ie ss rows
    return row' :: rows'
  | _, _, rows => return rows

/-- array.py:99-127 `set_weights(weight, bias)`; `data` is the weight tensor of any shape, flattened.
`copy_` of a bias of the wrong length raises (broadcasting of a length-1 bias is not modelled).
Simplification: on an exception the partially written tiles are not returned. -/
def setWeights {T : Type} (ops : TileOps T) (a : TArray T) (data : Vec) (bias : Option Vec) :
    Except PyErr (TArray T) := do
  let w ← reshape a.outSize a.inSize data
  let tiles ← setOuter ops w a.outSizes 0 a.inSizes a.tiles
  let b ← match a.bias, bias with
    | some old, some b => if b.length = old.length then pure (some b) else throw .runtimeError
    | old, _ => pure old
  return { a with tiles := tiles, bias := b }

/-- `torch.cat(lst, 0)` of matrices (raises on the empty list; row widths not checked). -/
def cat0 : List Mat → Except PyErr Mat
  | [] => .error .runtimeError
  | l => .ok l.flatten

/-- `torch.cat(lst, 1)` of matrices: row counts must agree. -/
def cat1 : List Mat → Except PyErr Mat
  | [] => .error .runtimeError
  | [m] => .ok m
  | m :: ms => do
    let r ← cat1 ms
    if m.length = r.length then return List.zipWith (· ++ ·) m r else throw .runtimeError

/-- array.py:129-153 `get_weights`. -/
def getWeights {T : Type} (ops : TileOps T) (a : TArray T) : Except PyErr (Mat × Option Vec) := do
  let lst ← a.tiles.mapM fun row => do
    let l ← row.mapM ops.getW
    cat0 l
  let w ← cat1 lst
  return (w, a.bias)

/-- `torch.split(x, sizes)`: consecutive chunks; torch raises if the sizes do not sum to the length. -/
def splitVec (sizes : List Nat) (x : Vec) : Except PyErr (List Vec) :=
  if sizes.sum = x.length then .ok (go sizes x) else .error .runtimeError
where
  go : List Nat → Vec → List Vec
    | [], _ => []
    | s :: ss, x => x.take s :: go ss (x.drop s)

/-- `torch.cat(out_result, last_dim)` of the tile outputs for one sample. -/
def catVec : List Vec → Except PyErr Vec
  | [] => .error .runtimeError
  | l => .ok l.flatten

/-- elementwise addition of equally long vectors (torch raises otherwise; broadcasting not modelled). -/
def addVec (a b : Vec) : Except PyErr Vec :=
  if a.length = b.length then .ok (vadd a b) else .error .runtimeError

/-- array.py:170-174, outputs of one row of tiles, concatenated. -/
def rowForward {T : Type} (ops : TileOps T) (row : List T) (x : Vec) : Except PyErr Vec := do
  let outs ← row.mapM fun t => ops.fwd t x
  catVec outs

/-- array.py:167-176, accumulation over the input splits (`result.add_`). -/
def accum {T : Type} (ops : TileOps T) : Vec → List Vec → List (List T) → Except PyErr Vec
  | acc, x :: xs, row :: rows => do
    let r ← rowForward ops row x
    let acc' ← addVec acc r
    accum ops acc' xs rows
  | acc, _, _ => return acc

/-- array.py:159-176: the result before the bias is added (one sample). Shared by
`TileModuleArray.forward` and `QuantizedTileModuleArray.forward` (264-281). -/
def forwardNoBias {T : Type} (ops : TileOps T) (a : TArray T) (x : Vec) : Except PyErr Vec :=
  if a.tileCount = 1 then
    match a.tiles with
    | (t :: _) :: _ => ops.fwd t x
    | _ => .error .indexError
  else do
    let xs ← splitVec a.inSizes x
    match xs, a.tiles with
    | x₀ :: xs, row₀ :: rows => do
      let r ← rowForward ops row₀ x₀
      accum ops r xs rows
    | _, _ => .error .attributeError

/-- array.py:155-182 `TileModuleArray.forward` (one sample). -/
def forward {T : Type} (ops : TileOps T) (a : TArray T) (x : Vec) : Except PyErr Vec := do
  let r ← forwardNoBias ops a x
  match a.bias with
  | some b => addVec r b
  | none => return r

/-! ## `QuantizedTileModuleArray` (array.py:201-317) -/

/-- Attributes of a `QuantizedTileModuleArray` beyond those of the base class.  A missing Python
attribute is `none`; an attribute whose value is `None` is `some none`.  Quantizers are abstract
functions (their own behaviour is modelled in `Verif.Quant`). -/
structure QArray (T : Type) where
  base : TArray T
  /-- `self.module_out_quantizer` -/
  outQuantizer : Option (Option (Vec → Vec))
  /-- `self.bias_quantizer` -/
  biasQuantizer : Option (Option (Vec → Vec))

/-- array.py:212-257 `__init__`: `module_out_quantizer` is only assigned when there is more than one
tile (229-237), `bias_quantizer` only if there is a bias (240-257).
`actQuant` / `biasQuant` are the configured quantizers, `none` if disabled; `learn` is
`periph_quant.learn_quant_params`: the update counter is created on `self.device` (252-255), an attribute the
array does not have. -/
def QArray.init {T : Type} (mk : Nat → Nat → T) (outSize inSize : Nat) (maxOut maxIn : Int)
    (bias : Bool) (actQuant biasQuant : Option (Vec → Vec)) (learn : Bool) : Except PyErr (QArray T) := do
  let base ← TArray.init mk outSize inSize maxOut maxIn bias
  if bias && biasQuant.isSome && learn then .error .attributeError
  else .ok { base
             outQuantizer := if base.tileCount > 1 then some actQuant else none
             biasQuantizer := if bias then some biasQuant else none }

/-- array.py:259-317 `forward` (one sample; range-estimation bookkeeping of the bias quantizer is
abstracted into its function). Reading a missing attribute raises `AttributeError`. -/
def QArray.forward {T : Type} (ops : TileOps T) (q : QArray T) (x : Vec) : Except PyErr Vec := do
  let r ← forwardNoBias ops q.base x
  let r ← match q.base.bias with
    | none => pure r
    | some b =>
      match q.biasQuantizer with
      | none => throw .attributeError
      | some none => addVec r b
      | some (some f) => addVec r (f b)
  match q.outQuantizer with
  | none => throw .attributeError
  | some none => return r
  | some (some f) => return f r

end Aihw.TileArray

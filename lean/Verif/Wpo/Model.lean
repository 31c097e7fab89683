import Verif.Inference.Converter

/-!
# Model of the weight programming optimizer

src/aihwkit/inference/converter/wpo.py.  The optimizer searches a hypercube; `denormalize` turns a point of the cube into
significance factors and conductance grids of a `CustomPairConductanceConverter`.  Numbers live in an ordered field `K`.
Not modelled: scipy's differential evolution itself (it only has to return a point of the cube), pickling, printing.
-/
namespace Aihw.Wpo
open Aihw.Inference

variable {K : Type} [Field K] [LinearOrder K]

/-- The attributes of `WeightProgrammingOptimizer` that `denormalize` reads (wpo.py:445-545). -/
structure Opt (K : Type) where
  /-- `f_lst`: `None` entries are to be optimized. -/
  fLst : List (Option K)
  gMin : K
  gMax : K
  gErr : K
  fMin : K
  fMax : K
  useMaxKw : Bool
  symmetric : Bool
  /-- `max_abs_weight_unitless`. -/
  maxAbs : K
  /-- `weights_discretized_unitless`. -/
  grid : List K

/-- wpo.py:125-135: replace the `None` entries, in order, by scaled cube parameters. With too few parameters a `None` stays in
the list and the next arithmetic operation raises `TypeError`. -/
def fillF (d : Opt K) : List (Option K) → List K → Except PyErr (List K)
  | [], _ => .ok []
  | some f :: r, xs => (fillF d r xs).map (f :: ·)
  | none :: _, [] => .error .typeError
  | none :: r, x :: xs => (fillF d r xs).map ((x * (d.fMax - d.fMin) + d.fMin) :: ·)

/-- wpo.py:136-137: the parameter of the weight rescaling factor. -/
def kwParam (d : Opt K) (x : List K) : Except PyErr K :=
  if d.useMaxKw then .ok 1 else match x with
    | [] => .error .indexError
    | a :: _ => .ok a

/-- wpo.py:108-144 `partition_parameters`. A zero largest weight divides by zero (inf, then nan). -/
def partition (d : Opt K) (x : List K) : Except PyErr (List K × K × List K) := do
  let cnt := d.fLst.count none
  let fs ← fillF d d.fLst (x.take cnt)
  let x := x.drop cnt
  let xk ← kwParam d x
  let xg := if d.useMaxKw then x else x.drop 1
  let wAbs := (fs.map fun f => f * (d.gMax - d.gMin)).sum
  let lo := 5 / 100 * wAbs
  let wMax := xk * (wAbs - lo) + lo
  if d.maxAbs = 0 then .error .nanInf else .ok (fs, wMax / d.maxAbs, xg)

/-- wpo.py:147-165 `reformat_x_g`: chunks of equal length; a chunk length of zero is a zero step of `range`. An empty `f_lst`
is treated like it (no converter has zero pairs). -/
def chunkLen (xg : List K) (nf : Nat) : Except PyErr Nat :=
  if nf = 0 ∨ xg.length / (2 * nf - 1) = 0 then .error .valueError else .ok (xg.length / (2 * nf - 1))

/-- `x_g_lst[k][i]` of the chunk list. -/
def chunkAt (xg : List K) (gl k i : Nat) : Except PyErr K :=
  match ((xg.drop (k * gl)).take gl)[i]? with
  | some v => .ok v
  | none => .error .indexError

/-- wpo.py:288-302 `span_of_remaining_pairs`. -/
def spanRemaining (spans : List K) (ind : Nat) : K := if ind > spans.length then 0 else (spans.drop ind).sum

/-- wpo.py:342-351: the contribution `f (g⁺ - g⁻)` of a pair from its cube parameter. -/
def pairDelta (d : Opt K) (c rest f xd : K) : K :=
  let span := f * (d.gMax - d.gMin)
  let lo := max (c - rest) (-span)
  let hi := min (c + rest) span
  xd * (hi - lo) + lo

/-- wpo.py:356-365: the two conductances with difference `delta`. -/
def pairG (d : Opt K) (delta xg : K) : K × K :=
  let lo := d.gMin + max delta 0 - d.gErr
  let hi := d.gMax + min delta 0 + d.gErr
  let gp := xg * (hi - lo) + lo
  let gp := max (min gp d.gMax) d.gMin
  let gm := max (min (gp - delta) d.gMax) d.gMin
  (gp, gm)

/-- wpo.py:338-340: the parameter of the pair's contribution; the last pair has none. -/
def xdAt (nf : Nat) (xg : List K) (gl j i : Nat) : Except PyErr K :=
  if j < nf - 1 then chunkAt xg gl (2 * j + 1) i else .ok 1

/-- wpo.py:331-365: the pairs of grid point `i`, from pair `j` on; `c` is `w_us_center`. -/
def column (d : Opt K) (fAll xg : List K) (gl i : Nat) : Nat → K → List K → Except PyErr (List (K × K))
  | _, _, [] => .ok []
  | j, c, f :: fs => do
    let x ← chunkAt xg gl (2 * j) i
    let xd ← xdAt fAll.length xg gl j i
    let fd := pairDelta d c (spanRemaining (fAll.map fun f => f * (d.gMax - d.gMin)) (j + 1)) f xd
    if f = 0 then .error .zeroDivision
    else do
      let r ← column d fAll xg gl i (j + 1) (c - fd) fs
      .ok (pairG d (fd / f) x :: r)

/-- `g_lst` while it is filled: row, position ↦ value or `None`. -/
abbrev Table (K : Type) := Nat → Nat → Option K

/-- `g_lst[r][i] = v`. -/
def Table.write (t : Table K) (r i : Nat) (v : K) : Table K :=
  fun r' i' => if r' = r ∧ i' = i then some v else t r' i'

/-- wpo.py:367-372: store pair `j` of grid point `i`, with the mirror image if symmetric. -/
def storePair (d : Opt K) (gLen i : Nat) (t : Table K) (j : Nat) (g : K × K) : Table K :=
  let t := (t.write (2 * j) i g.1).write (2 * j + 1) i g.2
  if d.symmetric then (t.write (2 * j) (gLen - i - 1) g.2).write (2 * j + 1) (gLen - i - 1) g.1 else t

/-- Store the pairs of one grid point, in order. -/
def storeCol (d : Opt K) (gLen i : Nat) : Nat → List (K × K) → Table K → Table K
  | _, [], t => t
  | j, g :: gs, t => storeCol d gLen i (j + 1) gs (storePair d gLen i t j g)

/-- wpo.py:330-372: loop over the grid points from `i` on. -/
def fill (d : Opt K) (fs xg : List K) (gl gLen : Nat) : Nat → List K → Table K → Except PyErr (Table K)
  | _, [], t => .ok t
  | i, w :: ws, t => do
    let col ← column d fs xg gl i 0 w fs
    if i < gLen then fill d fs xg gl gLen (i + 1) ws (storeCol d gLen i 0 col t) else .error .indexError

/-- wpo.py:305-374 `denormalize`: the factors and `g_lst` (`none` for entries never written). -/
def denormalize (d : Opt K) (x : List K) : Except PyErr (List K × List (List (Option K))) := do
  let (fs, kw, xg) ← partition d x
  let gl ← chunkLen xg fs.length
  let gLen := if d.symmetric then gl * 2 - 1 else gl
  let ws := d.grid.map (kw * ·)
  let ws := if d.symmetric then ws.take (gLen / 2 + 1) else ws
  let t ← fill d fs xg gl gLen 0 ws fun _ _ => none
  .ok (fs, (List.range (2 * fs.length)).map fun r => (List.range gLen).map (t r))

/-- wpo.py:547-565 `generate_hop_bounds`: the dimension of the cube. -/
def numBounds (d : Opt K) : Nat :=
  let n := if d.symmetric then (d.grid.length + 1) / 2 else d.grid.length
  let n := n * (2 * d.fLst.length - 1) + d.fLst.count none
  if d.useMaxKw then n else n + 1

/-- wpo.py:477, 543-545: the optimizer's grid of `2 nbins - 1` weights. -/
def mkGrid (maxAbs : K) (nbins : Nat) : List K := linspace (-maxAbs) maxAbs (nbins * 2 - 1)

end Aihw.Wpo

import Verif.Periphery.Model

/-!
# Specification vocabulary for the tile periphery (C10–C17, C31)
-/
namespace Aihw.Periphery

/-- Constructor requirements: positive sizes, at most one kind of bias
(src/aihwkit/simulator/tiles/base.py:333-335). -/
structure Cfg.Valid (c : Cfg) : Prop where
  out_pos : 0 < c.outSize
  in_pos : 0 < c.inSize
  bias_excl : ¬(c.analogBias = true ∧ c.digitalBias = true)

/-- A scale tensor that fits the tile: one common factor or one factor per output. -/
def FitsOut (c : Cfg) (v : Vec) : Prop := v.length = 1 ∨ v.length = c.outSize

/-- Calls whose scale tensors fit the tile; nothing is required of any other argument. -/
def Call.Valid (c : Cfg) : Call → Prop
  | .setScales (.tensor v) => FitsOut c v
  | .setMappingScales (.tensor v) => FitsOut c v
  | _ => True

/-- The factor an (optional) scale tensor contributes to output row `i`: absent = 1, a single entry is
shared by all rows. -/
def factor (s : Option Vec) (i : Nat) : ℚ :=
  match s with
  | none => 1
  | some v => if v.length = 1 then v.getD 0 0 else v.getD i 0

/-- Total digital factor of every output row. -/
def rowFactors (t : Tile) : Vec :=
  (List.range t.cfg.outSize).map fun i => factor t.mappingScales i * factor t.learned i

/-- Rows of `w` multiplied by the entries of `s`. -/
def scaleRows (w : Mat) (s : Vec) : Mat := List.zipWith (fun r c => r.map (c * ·)) w s

/-- The weights the crossbar stores, without a bias column. -/
def storedWeights (t : Tile) : Mat := if t.cfg.analogBias then t.w.map List.dropLast else t.w

/-- A bias argument a tile can be given: a vector of the output size if the bias is analog, such a vector
or nothing if it is digital, anything if the tile has no bias. -/
def BiasOk (c : Cfg) (b : Option Vec) : Prop :=
  match b with
  | none => c.analogBias = false
  | some v => (c.analogBias = true ∨ c.digitalBias = true) → v.length = c.outSize

/-- The bias a read must return after writing `b` (`old`: the digital bias before the write). -/
def biasAfter (c : Cfg) (old : Vec) (b : Option Vec) : Option Vec :=
  if c.analogBias then b
  else if c.digitalBias then some (b.getD old)
  else none

/-- The scaling target in force: the explicit argument, else the configured one. -/
def effOmega (m : MappingPars) (arg : Option ℚ) : Option ℚ :=
  match arg with
  | some o => some o
  | none => m.omega

/-- Inputs as the tile sees them: clipped to the input range if there is one. -/
def clippedInput (r : Option ℚ) (x : Vec) : Vec :=
  match r with
  | none => x
  | some r => x.map fun a => max (-|r|) (min |r| a)

end Aihw.Periphery

namespace Aihw.Periphery

/-- Entry `(i, j)` of a matrix (0 outside). -/
def entry (w : Mat) (i j : Nat) : ℚ := (w.getD i []).getD j 0

/-- The standard deviations of the training batches (with positive standard deviation) among a sequence
of calls, in order. -/
def trainStds (calls : List Call) : List ℚ :=
  calls.filterMap fun
    | .forward _ std false => if 0 < std then some std else none
    | _ => none

/-- Whether a call is an explicit `set_input_range`. -/
def Call.isSetRange : Call → Bool
  | .setInputRange _ => true
  | _ => false

/-- Arithmetic mean. -/
def average (l : List ℚ) : ℚ := l.sum / l.length

end Aihw.Periphery

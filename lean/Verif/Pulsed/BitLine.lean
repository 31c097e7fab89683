import Verif.Pulsed.Props

/-!
# Pulse trains: bit line makers and the weight updater

Models `sparse_bit_line_maker.cpp`, `dense_bit_line_maker.cpp` and the pulsed branch of
`PulsedRPUWeightUpdater::updateVectorWithDevice` (rpu_weight_updater.cpp:192-300).
Vectors are functions of the index (`x_inc`/`d_inc` strides are not modelled).  Every uniform and
Gaussian draw is an argument indexed by the event it belongs to (each event happens at most once
per update).
-/
namespace Aihw.Pulsed

variable {K : Type} [Field K] [LinearOrder K] [IsStrictOrderedRing K] [FloorRing K]

/-- `rintf` in the default rounding mode: nearest, ties to even (utility_functions.h:127-130). -/
def rint (x : K) : ℤ :=
  if x - ⌊x⌋ < 1 / 2 then ⌊x⌋
  else if 1 / 2 < x - ⌊x⌋ then ⌊x⌋ + 1
  else if ⌊x⌋ % 2 = 0 then ⌊x⌋ else ⌊x⌋ + 1

/-- `getDiscretizedValue` (utility_functions.h:187-193); `u` is the uniform draw of stochastic
rounding. -/
def discretized (res : K) (sto : Bool) (v u : K) : K :=
  if res ≤ 0 then v
  else if sto then (rint (v / res + (u - 1 / 2)) : K) * res
  else (rint (v / res) : K) * res

/-- The draws of one pulse train: `uq j` for the stochastic rounding of entry `j`, `r k j` for the
bit of entry `j` in slot `k`. -/
structure TrainDraw (K : Type) where
  uq : Nat → K
  r : Nat → Nat → K

/-- The pulse probability of entry `j`: `getDiscretizedValue(|v| * P, res, sto_round)`
(sparse_bit_line_maker.cpp:181, 233). -/
def prob (P res : K) (sto : Bool) (v : Nat → K) (t : TrainDraw K) (j : Nat) : K :=
  discretized res sto (|v j| * P) (t.uq j)

/-- `jplus1_signed` (sparse_bit_line_maker.cpp:188, 239). -/
def signedIdx (v : K) (j : Nat) : ℤ := if 0 < v then (j : ℤ) + 1 else -((j : ℤ) + 1)

/-- `generateCounts` (sparse_bit_line_maker.cpp:210-248): the signed indices of slot `k`. -/
def indices (n : Nat) (P res : K) (sto : Bool) (v : Nat → K) (t : TrainDraw K) (k : Nat) :
    List ℤ :=
  (List.range n).filterMap fun j =>
    if prob P res sto v t j = 0 then none
    else if t.r k j < prob P res sto v t j then some (signedIdx (v j) j) else none

/-- `generateCountsPN` (sparse_bit_line_maker.cpp:153-207), positive part. -/
def indicesP (n : Nat) (P res : K) (sto : Bool) (v : Nat → K) (t : TrainDraw K) (k : Nat) :
    List ℤ :=
  (List.range n).filterMap fun j =>
    if prob P res sto v t j = 0 then none
    else if 0 < v j then
      if t.r k j < prob P res sto v t j then some (signedIdx (v j) j) else none
    else none

/-- `generateCountsPN` (sparse_bit_line_maker.cpp:153-207), negative part. -/
def indicesN (n : Nat) (P res : K) (sto : Bool) (v : Nat → K) (t : TrainDraw K) (k : Nat) :
    List ℤ :=
  (List.range n).filterMap fun j =>
    if prob P res sto v t j = 0 then none
    else if 0 < v j then none
    else if t.r k j < prob P res sto v t j then some (signedIdx (v j) j) else none

/-- Gaussian draws of the elementary pulses: slot, row, column. -/
structure PulseDraw (K : Type) where
  g : Nat → Nat → Nat → K
  g2 : Nat → Nat → Nat → K

/-- Row/column index of a signed index (rpu_weight_updater.cpp:268,
`PULSED_UPDATE_W_LOOP` rpu_pulsed_device.h:455). -/
def unsign (i : ℤ) : Nat := (if i < 0 then -i - 1 else i - 1).toNat

/-- One elementary pulse of `doSparseUpdate` with `d_sign` (rpu_weight_updater.cpp:266-270) and the
sign rule of `PULSED_UPDATE_W_LOOP` (rpu_pulsed_device.h:453-455); `sign > 0` means down. -/
def mkPulse (xSize : Nat) (lrSign : ℤ) (pd : PulseDraw K) (k : Nat) (i j : ℤ) : P K :=
  let dSign := if i < 0 then -lrSign else lrSign
  let sign := if j < 0 then -dSign else dSign
  ⟨unsign i * xSize + unsign j, decide (0 < sign), pd.g k (unsign i) (unsign j),
    pd.g2 k (unsign i) (unsign j)⟩

/-- The two stochastic pulse types. -/
inductive SparseType where
  | stochastic | compressed
  deriving DecidableEq

/-- Parameters of a pulse-train update: length, the two probability scales and resolution. -/
structure Trains (K : Type) where
  bl : Nat
  a : K
  b : K
  res : K
  sto : Bool

/-- The pulses of one slot on the row with signed index `i` (rpu_weight_updater.cpp:266-290): type
`Stochastic` makes separate positive and negative column lists. -/
def slotPulses (ty : SparseType) (tr : Trains K) (xSize : Nat) (lrSign : ℤ) (x : Nat → K)
    (tx : TrainDraw K) (pd : PulseDraw K) (k : Nat) (i : ℤ) : List (P K) :=
  match ty with
  | .compressed => (indices xSize tr.b tr.res tr.sto x tx k).map (mkPulse xSize lrSign pd k i)
  | .stochastic =>
    (indicesP xSize tr.b tr.res tr.sto x tx k).map (mkPulse xSize lrSign pd k i) ++
    (indicesN xSize tr.b tr.res tr.sto x tx k).map (mkPulse xSize lrSign pd k i)

/-- The pulses of a sparse update in execution order (rpu_weight_updater.cpp:245-290): slots,
then rows, then columns. -/
def sparsePulses (ty : SparseType) (tr : Trains K) (xSize dSize : Nat) (lrSign : ℤ)
    (x d : Nat → K) (tx td : TrainDraw K) (pd : PulseDraw K) : List (P K) :=
  (List.range tr.bl).flatMap fun k =>
    (indices dSize tr.a tr.res tr.sto d td k).flatMap
      (slotPulses ty tr xSize lrSign x tx pd k)

/-! ## Dense updates -/

/-- The two deterministic pulse types. -/
inductive DenseType where
  | meanCount | detImplicit
  deriving DecidableEq

/-- `generateCountsMean` (dense_bit_line_maker.cpp:133-164) for one entry. -/
def meanCount (bl : Nat) (P res : K) (sto : Bool) (lrNeg : Bool) (v u : K) : ℤ :=
  let v := if lrNeg then -v else v
  let pp := discretized res sto (|v| * P) u
  if pp = 0 then 0
  else
    let n := max (min (rint ((bl : K) * pp)) (bl : ℤ)) 0
    if 0 ≤ v then n else -n

/-- `generateCoincidences` (dense_bit_line_maker.cpp:169-199) for one cell. -/
def coincMean (bl : Nat) (xc dc : ℤ) : ℤ :=
  if dc = 0 then 0 else rint ((dc : ℚ) / (bl : ℚ) * (xc : ℚ))

/-- `generateDetImplicit` (dense_bit_line_maker.cpp:205-234) for one entry. -/
def detValue (P res : K) (sto : Bool) (lrNeg : Bool) (v u : K) : K :=
  let v := if lrNeg then -v else v
  let pp := max (min (discretized res sto (|v| * P) u) 1) 0
  if 0 ≤ v then pp else -pp

/-- `generateCoincidencesDetI` (dense_bit_line_maker.cpp:236-262) for one cell. -/
def coincDet (bl : Nat) (xv dv : K) : ℤ :=
  if dv = 0 then 0 else rint (dv * (bl : K) * xv)

/-- Parameters of a dense update; `DeterministicImplicit` has separate resolutions
(`x_res_implicit`, `d_res_implicit`). -/
structure Dense (K : Type) where
  bl : Nat
  a : K
  b : K
  resX : K
  resD : K
  sto : Bool

/-- `makeCoincidences` (dense_bit_line_maker.cpp:265-325) for cell (i, j): `lrNeg` is handed to
both vectors. -/
def coinc (ty : DenseType) (q : Dense K) (lrNeg : Bool) (x d ux ud : Nat → K) (i j : Nat) : ℤ :=
  match ty with
  | .meanCount =>
    coincMean q.bl (meanCount q.bl q.b q.resX q.sto lrNeg (x j) (ux j))
      (meanCount q.bl q.a q.resD q.sto lrNeg (d i) (ud i))
  | .detImplicit =>
    coincDet q.bl (detValue q.b q.resX q.sto lrNeg (x j) (ux j))
      (detValue q.a q.resD q.sto lrNeg (d i) (ud i))

/-- `PULSED_UPDATE_W_LOOP_DENSE` (rpu_pulsed_device.h:461-474): all pulses of a cell one after the
other, cells in flat order. -/
def densePulses (ty : DenseType) (q : Dense K) (xSize dSize : Nat) (lrNeg : Bool)
    (x d ux ud : Nat → K) (pd : PulseDraw K) : List (P K) :=
  (List.range (xSize * dSize)).flatMap fun f =>
    let c := coinc ty q lrNeg x d ux ud (f / xSize) (f % xSize)
    (List.range c.natAbs).map fun n =>
      ⟨f, decide (0 < c), pd.g n (f / xSize) (f % xSize), pd.g2 n (f / xSize) (f % xSize)⟩

end Aihw.Pulsed

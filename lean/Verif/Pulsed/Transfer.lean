import Verif.Pulsed.BitLineProps

/-!
# Transfer compound (Tiki-Taka): `TransferRPUDevice`

Models rpu_transfer_device.cpp:110-210 (parameters), 360-560 (transfer and update cycle) and
rpu_vector_device.cpp:513-536 for sub devices of the modelled pulsed classes.
Not modelled: random column selection (`random_selection`), user-defined transfer vectors (the
default unit vectors are used), the analog read itself (its result is an arbitrary vector per read),
pulse types other than the two stochastic ones for the transfer update.
-/
namespace Aihw.Pulsed

variable {K : Type} [Field K] [LinearOrder K] [IsStrictOrderedRing K] [FloorRing K]

/-- Parameters of a transfer compound after `initializeWithSize`; `n` is the number of devices. -/
structure TPar (K : Type) where
  n : Nat
  xSize : Nat
  dSize : Nat
  cols : Bool
  nReads : Nat
  unitsInMbatch : Bool
  every : Nat → K
  lrVec : Nat → K
  scaleLr : Bool
  resetProb : K
  gamma : Nat → K

/-- `_in_size` (rpu_transfer_device.cpp:123-129). -/
def TPar.inSize (p : TPar K) : Nat := if p.cols then p.xSize else p.dSize

/-- `_out_size` (rpu_transfer_device.cpp:123-129). -/
def TPar.outSize (p : TPar K) : Nat := if p.cols then p.dSize else p.xSize

/-- The default `transfer_every_vec` (rpu_transfer_device.cpp:181-190). -/
def defaultEvery (te : K) (outSize nReads n : Nat) (noSelf : Bool) (j : Nat) : K :=
  if noSelf && decide (j = n - 1) then 0 else te * ((outSize : K) / (nReads : K)) ^ j

/-- `fullyHidden` (rpu_transfer_device.h:89) with `gamma` the sum of all weightings but the last
(rpu_transfer_device.cpp:147-162). -/
def TPar.fullyHidden (p : TPar K) : Bool :=
  decide (((List.range (p.n - 1)).map p.gamma).sum = 0) && decide (p.gamma (p.n - 1) = 1)

/-- `roundf`: nearest, ties away from zero (utility_functions.h). -/
def roundAway (x : K) : ℤ := if 0 ≤ x then ⌊x + 1 / 2⌋ else -⌊-x + 1 / 2⌋

/-- `getTransferEvery` (rpu_transfer_device.cpp:393-402). -/
def TPar.getEvery (p : TPar K) (j mBatch : Nat) : Nat :=
  if p.unitsInMbatch then (max ⌈p.every j * (mBatch : K)⌉ 0).toNat
  else (max (roundAway (p.every j)) 0).toNat

/-- `getTransferLR` (rpu_transfer_device.cpp:225-236). -/
def TPar.transferLR (p : TPar K) (src : Nat) (cur : K) : K :=
  if p.scaleLr then p.lrVec src * cur else p.lrVec src

/-- Everything random or not modelled about one read: the reset draw and its noise, the vector read,
and the pulse trains of the write. -/
structure WD (K : Type) where
  u : K
  g : Nat → K
  g2 : Nat → K
  y : Nat → K
  ty : SparseType
  tr : Trains K
  tx : TrainDraw K
  td : TrainDraw K
  pd : PulseDraw K

/-- State: sub devices, slice counters, update counter and the visible weights.  `log` is a ghost
variable recording the reads (from, to, slice). -/
structure TS (K : Type) where
  dev : Nat → Dev K
  slice : Nat → Nat
  idx : Nat
  vis : Nat → K
  log : List (Nat × Nat × Nat)

/-- Replace one sub device. -/
def TS.setDev (s : TS K) (j : Nat) (d : Dev K) : TS K :=
  { s with dev := fun k => if k = j then d else s.dev k }

/-- The unit vector with index `c` (`setTransferVecs`, rpu_transfer_device.cpp:306-323). -/
def unitVec (c : Nat) : Nat → K := fun j => if j = c then 1 else 0

/-- `writeVector` (rpu_transfer_device.cpp:413-427): a stochastic pulsed update of device `to`. -/
def TPar.write (F : Fns K) (p : TPar K) (d : Dev K) (c : Nat) (lr : K) (w : WD K) : Dev K :=
  let sg : ℤ := if lr < 0 then -1 else 1
  if p.cols then
    d.pulses F (sparsePulses w.ty w.tr p.xSize p.dSize sg (unitVec c) w.y w.tx w.td w.pd)
  else
    d.pulses F (sparsePulses w.ty w.tr p.xSize p.dSize sg w.y (unitVec c) w.tx w.td w.pd)

/-- The conditional reset of `readAndUpdate` (rpu_transfer_device.cpp:460-465): all `nVec` columns
from `start`, element probability one. -/
def TPar.resetRead (p : TPar K) (d : Dev K) (start nVec : Nat) (w : WD K) : Dev K :=
  if decide (w.u < p.resetProb) && p.cols then
    d.mapSt fun k s => onStored d.kd d.par (fun v =>
      if inCols d.xSize start nVec ((k % d.xSize : Nat) : Int)
      then resetCell d.par (d.cell k) (w.g k) else v) s (w.g2 k)
  else d

/-- One iteration of the loop of `readAndUpdate` (rpu_transfer_device.cpp:454-470): slice
`start + i`. -/
def TPar.readOne (F : Fns K) (p : TPar K) (dst src : Nat) (lr : K) (start nVec : Nat)
    (dr : Nat → WD K) (s : TS K) (i : Nat) : TS K :=
  let s := s.setDev src (p.resetRead (s.dev src) start nVec (dr i))
  let s := s.setDev dst (p.write F (s.dev dst) (start + i) lr (dr i))
  { s with log := s.log ++ [(src, dst, start + i)] }

/-- `readAndUpdate` (rpu_transfer_device.cpp:429-472). -/
def TPar.readAndUpdate (F : Fns K) (p : TPar K) (dst src : Nat) (lr : K) (start nVec : Nat)
    (dr : Nat → WD K) (s : TS K) : TS K :=
  if lr = 0 then s
  else if dst = src then s
  else (List.range nVec).foldl (p.readOne F dst src lr start nVec dr) s

/-- `transfer` (rpu_transfer_device.cpp:474-514) without random selection. -/
def TPar.transfer (F : Fns K) (p : TPar K) (dst src : Nat) (cur : K) (dr : Nat → WD K) (s : TS K) :
    TS K :=
  let i := s.slice src
  let nRest := p.inSize - i
  let lr := p.transferLR src cur
  let nT := min p.nReads p.inSize
  let s' := if nRest < nT then
      p.readAndUpdate F dst src lr 0 (nT - nRest) (fun k => dr (nRest + k))
        (p.readAndUpdate F dst src lr i nRest dr s)
    else p.readAndUpdate F dst src lr i nT dr s
  { s' with slice := fun k => if k = src then (i + nT) % p.inSize else s'.slice k }

/-- `reduceToWeights` (rpu_transfer_device.cpp:603-609, rpu_vector_device.cpp:530-536); with fully
hidden fast devices the last device works on the visible weights directly. -/
def TPar.reduce (p : TPar K) (s : TS K) : TS K :=
  { s with vis := fun k =>
      if p.fullyHidden then ((s.dev (p.n - 1)).st k).vis
      else ((List.range p.n).map fun j => p.gamma j * ((s.dev j).st k).vis).sum }

/-- The loop body of `finishUpdateCycle` (rpu_transfer_device.cpp:547-554). -/
def TPar.maybeTransfer (F : Fns K) (p : TPar K) (cur : K) (mBatch : Nat) (dr : Nat → Nat → WD K)
    (s : TS K) (j : Nat) : TS K :=
  if 0 < p.getEvery j mBatch ∧ s.idx % p.getEvery j mBatch = 0 then
    p.transfer F (min (j + 1) (p.n - 1)) j cur (dr j) s
  else s

/-- `finishUpdateCycle` (rpu_transfer_device.cpp:535-556). -/
def TPar.finish (F : Fns K) (p : TPar K) (cur : K) (mBatch : Nat) (dr : Nat → Nat → WD K)
    (s : TS K) : TS K :=
  p.reduce ((List.range p.n).foldl (p.maybeTransfer F cur mBatch dr) { s with idx := s.idx + 1 })

/-- One update of the tile: learning rate, batch size, the SGD pulses (which go to device 0 only,
rpu_transfer_device.cpp:516-533) and the randomness of the transfers. -/
structure Upd (K : Type) where
  lr : K
  mBatch : Nat
  sgd : List (P K)
  dr : Nat → Nat → WD K

/-- An update cycle. -/
def TPar.update (F : Fns K) (p : TPar K) (s : TS K) (u : Upd K) : TS K :=
  p.finish F u.lr u.mBatch u.dr (s.setDev 0 ((s.dev 0).pulses F u.sgd))

/-- A sequence of updates. -/
def TPar.run (F : Fns K) (p : TPar K) (s : TS K) (us : List (Upd K)) : TS K :=
  us.foldl (p.update F) s

/-- `onSetWeights` (rpu_transfer_device.cpp:558-600): counters are reset, fast devices are set to
zero, the last one to `w / gamma_last` (fully hidden: to `w` without touching the fast devices'
`onSetWeights`); then the sub devices clip and the visible weights are recomputed. -/
def TPar.setWeights (p : TPar K) (s : TS K) (v : Nat → K) (g : Nat → Nat → K) :
    Except PyErr (TS K) :=
  let last := p.n - 1
  if p.fullyHidden then
    .ok { s with
      idx := 0, slice := fun _ => 0,
      dev := fun j => if j = last then
          (s.dev j).mapSt fun k c => onSet (s.dev j).kd (s.dev j).par ((s.dev j).cell k) c (v k) (g j k)
        else (s.dev j).mapSt fun _ c => ⟨0, c.per⟩,
      vis := fun k => (onSet (s.dev last).kd (s.dev last).par ((s.dev last).cell k)
        ((s.dev last).st k) (v k) (g last k)).vis }
  else if p.gamma last = 0 then .error .runtimeError
  else
    .ok (p.reduce { s with
      idx := 0, slice := fun _ => 0,
      dev := fun j => (s.dev j).mapSt fun k c =>
        onSet (s.dev j).kd (s.dev j).par ((s.dev j).cell k) c
          (if j = last then v k / p.gamma last else 0) (g j k) })

end Aihw.Pulsed

import Verif.Pulsed.BitLineProps

/-!
# Vector unit cells: `VectorRPUDevice`

Models rpu_vector_device.cpp:210-600 (also used by `ReferenceUnitCell`, configs/compounds.py:110-160)
for sub devices of the modelled pulsed classes (nested compounds are not modelled).  The weights of
the sub devices (`weights_vec_`) are the visible weights of the `Dev`s of the model.
Not modelled: CUDA, the per-device random number streams (each device has its own draws).
-/
namespace Aihw.Pulsed

variable {K : Type} [Field K] [LinearOrder K] [IsStrictOrderedRing K] [FloorRing K]

/-- `VectorDeviceUpdatePolicy` (rpu_vector_device.h, parameters/enums.py:285-300). -/
inductive Policy where
  | all | singleFixed | singleSequential | singleRandom
  deriving DecidableEq

/-- Parameters of the unit cell: number of devices, policy, `first_update_idx` and the weighting in
use. -/
structure VPar (K : Type) where
  n : Nat
  policy : Policy
  first : ℤ
  gamma : Nat → K

/-- State: the sub devices, `current_device_idx_`, `current_update_idx_`, the visible weights. -/
structure VS (K : Type) where
  dev : Nat → Dev K
  cur : ℤ
  upd : Nat
  vis : Nat → K

/-- `reduce_weightening_` set by `populate` (rpu_vector_device.cpp:409-425): `1/n`, or the given
`gamma_vec`, which must have the right length. -/
def mkGamma (n : Nat) (gv : List K) : Except PyErr (Nat → K) :=
  if gv.length = 0 then .ok (fun _ => 1 / (n : K))
  else if gv.length ≠ n then .error .runtimeError
  else .ok (fun k => gv.getD k 0)

/-- The weighted sum of all devices at one cell (rpu_vector_device.cpp:530-536, `gemv`). -/
def VPar.sumAt (p : VPar K) (dev : Nat → Dev K) (k : Nat) : K :=
  ((List.range p.n).map fun j => p.gamma j * ((dev j).st k).vis).sum

/-- `reduceToWeights`. -/
def VPar.reduce (p : VPar K) (s : VS K) : VS K := { s with vis := p.sumAt s.dev }

/-- The policy switch of `initUpdateCycle` (rpu_vector_device.cpp:446-458); `u` is the uniform draw,
`tmod` is the C remainder. -/
def VPar.select (p : VPar K) (cur : ℤ) (u : K) : ℤ :=
  match p.policy with
  | .singleRandom => ⌊u * (p.n : K)⌋
  | .singleSequential => (cur + 1).tmod (p.n : ℤ)
  | _ => cur

/-- One requested pulse of an update with the draws of every sub device. -/
structure VP (K : Type) where
  k : Nat
  down : Bool
  g : Nat → K
  g2 : Nat → K

/-- The pulse as seen by sub device `j`. -/
def VP.at (q : VP K) (j : Nat) : P K := ⟨q.k, q.down, q.g j, q.g2 j⟩

/-- The devices after the pulses of an update (rpu_vector_device.cpp:473-486, 503-511): the current
device only, or all of them.  An index outside the array is undefined behaviour in C++; here it is an
error. -/
def VPar.applyPulses (F : Fns K) (p : VPar K) (dev : Nat → Dev K) (cur : ℤ) (l : List (VP K)) :
    Except PyErr (Nat → Dev K) :=
  if p.policy = .all then .ok (fun j => (dev j).pulses F (l.map (VP.at · j)))
  else if 0 ≤ cur ∧ cur < (p.n : ℤ) then
    .ok (fun j => if (j : ℤ) = cur then (dev j).pulses F (l.map (VP.at · j)) else dev j)
  else .error .indexError

/-- Operations of the tile on the unit cell.  `g`s are per device and cell. -/
inductive VOp (K : Type) where
  /-- a pulsed update of one vector pair; `dense` tells whether the deterministic pulse types are
  used, `u` is the draw of the policy -/
  | update (dense : Bool) (l : List (VP K)) (u : K)
  /-- pulse type `None` (`withDevice = false`) or `NoneWithDevice` -/
  | fpUpdate (withDevice : Bool) (dw : Nat → K) (g : Nat → Nat → K)
  | decay (alpha : K) (noBias : Bool) (g : Nat → Nat → K)
  | diffuse (g g2 : Nat → Nat → K)
  | drift (v g : Nat → Nat → K)
  | clip (c : K) (g : Nat → Nat → K)
  | resetCols (start n : ℤ) (sel : Nat → Nat → Bool) (g g2 : Nat → Nat → K)
  | set (v : Nat → K) (g : Nat → Nat → K)
  | setIndex (i : ℤ)
  /-- `set_hidden_parameters`: cells, persistent and hidden weights of every device -/
  | setHidden (cell : Nat → Nat → Cell K) (per hid : Nat → Nat → K) (dtod : Nat → K)
      (g : Nat → Nat → K)

/-- The operation that `decayWeights`, `diffuseWeights`, `driftWeights`, `clipWeights` and
`resetCols` (rpu_vector_device.cpp:538-585) hand to sub device `j`. -/
def VOp.sub (o : VOp K) (j : Nat) : Option (Op K) :=
  match o with
  | .decay a nb g => some (.decayAlpha a nb (g j))
  | .diffuse g g2 => some (.diffuse (g j) (g2 j))
  | .drift v g => some (.drift (v j) (g j))
  | .clip c g => some (.clip c (g j))
  | .resetCols a n sel g g2 => some (.resetCols a n (sel j) (g j) (g2 j))
  | _ => none

/-- The result of an operation that cannot raise. -/
def Dev.exec (F : Fns K) (d : Dev K) (o : Op K) : Dev K :=
  match d.step F o with
  | .ok d' => d'
  | .error _ => d

/-- The part of an operation done by sub device `j`. -/
def VOp.onDev (F : Fns K) (o : VOp K) (dev : Nat → Dev K) (j : Nat) : Dev K :=
  match o.sub j with
  | some q => (dev j).exec F q
  | none => dev j

/-- Run an operation on every sub device and reduce. -/
def VPar.each (F : Fns K) (p : VPar K) (s : VS K) (o : VOp K) : VS K :=
  p.reduce { s with dev := o.onDev F s.dev }

/-- `setDeviceParameter` of one sub device (rpu_vector_device.cpp:330-341): the hidden weights are
overwritten first. -/
def Dev.setHid (F : Fns K) (d : Dev K) (cell : Nat → Cell K) (per hid : Nat → K) (dtod : K)
    (g : Nat → K) : Dev K :=
  (d.mapSt fun k c => ⟨hid k, c.per⟩).exec F (.setHidden cell per dtod g)

/-- `resetCounters` without force (rpu_vector_device.cpp:386-396): the new index and whether only
this device is to be set. -/
def VPar.resetIdx (p : VPar K) (cur : ℤ) : ℤ := if p.policy = .singleFixed then cur else p.first

/-- Whether `onSetWeights` overwrites device `j` (rpu_vector_device.cpp:595-602): all devices, or
under the fixed policy the current one; a negative current index means all. -/
def VPar.setsDev (p : VPar K) (cur : ℤ) (j : Nat) : Bool :=
  if p.policy = .singleFixed then decide (cur < 0 ∨ (j : ℤ) = cur) else true

/-- `onSetWeights` (rpu_vector_device.cpp:587-611) after the visible weights were set to `v`; every
sub device runs its own `onSetWeights`, on its old weights if it is not overwritten. -/
def VPar.set (p : VPar K) (s : VS K) (v : Nat → K) (g : Nat → Nat → K) : VS K :=
  p.reduce { s with
    cur := p.resetIdx s.cur, upd := 0,
    dev := fun j => (s.dev j).mapSt fun k c =>
      onSet (s.dev j).kd (s.dev j).par ((s.dev j).cell k) c
        (if p.setsDev s.cur j then v k else c.vis) (g j k) }

/-- Execute an operation. -/
def VPar.step (F : Fns K) (p : VPar K) (s : VS K) : VOp K → Except PyErr (VS K)
  | .update dense l u =>
    match p.applyPulses F s.dev (p.select s.cur u) l with
    | .error e => .error e
    | .ok dev => .ok {
        dev := dev, cur := p.select s.cur u, upd := s.upd + 1,
        vis := fun k =>
          -- rpu_vector_device.cpp:488-499 (touched cells only) and 511 (all)
          if dense || (l.map (·.k)).contains k then p.sumAt dev k else s.vis k }
  | .fpUpdate withDev dw g =>
    -- rpu_weight_updater.cpp:214-221
    let s' : VS K := { s with vis := fun k => s.vis k + dw k }
    .ok (if withDev then p.each F s' (.clip (-1) g) else s')
  | .set v g => .ok (p.set s v g)
  | .setIndex i => .ok { s with cur := i }
  | .setHidden cell per hid dtod g =>
    -- rpu_vector_device.cpp:312-350
    .ok (p.reduce { s with
      dev := fun j => (s.dev j).setHid F (cell j) (per j) (hid j) (dtod j) (g j) })
  | o => .ok (p.each F s o)

/-- A history of operations; a failing operation stops it. -/
def VPar.run (F : Fns K) (p : VPar K) (s : VS K) : List (VOp K) → Except PyErr (VS K)
  | [] => .ok s
  | o :: l => match p.step F s o with
    | .error e => .error e
    | .ok s' => p.run F s' l

/-- A new tile: `populate` (rpu_vector_device.cpp:400-426) with hidden weights zero, then
`onSetWeights` on the initial weights `w0` (rpu_pulsed.cpp:466-495). -/
def VPar.create (p : VPar K) (dev : Nat → Dev K) (w0 : Nat → K) (g : Nat → Nat → K) : VS K :=
  p.set {
    dev := fun j => (dev j).mapSt fun _ c => ⟨0, c.per⟩, cur := p.first, upd := 0, vis := w0 } w0 g

end Aihw.Pulsed

import Verif.State.Device
import Verif.Pulsed.VectorProps2
import Verif.Pulsed.OneSidedProps2
import Verif.Pulsed.MixedPrecProps2

/-!
# C76: what a reload restores of compound devices — model

The abstract simulator of `State/Model.lean` (whose `restoreSim` is the tail of `__setstate__`,
tiles/base.py:743-793: hidden parameters, then `set_weights`, then the raw copy into the shared weight
memory, the learning rate and the extra state) instantiated with the vector unit cell, the one-sided
unit cell and the mixed-precision compound of `Verif.Pulsed`.
-/
namespace Aihw.State
open Aihw.Pulsed

variable {K : Type} [Field K] [LinearOrder K] [IsStrictOrderedRing K] [FloorRing K]

/-! ## Vector unit cell -/

/-- A tile with a vector unit cell and its learning rate. -/
structure VTile (K : Type) where
  s : VS K
  lr : ℚ

/-- Hidden parameters of a unit cell (`getDeviceParameter`, rpu_vector_device.cpp:257-285): for every
sub device its cells, its persistent weights and its hidden weights. -/
structure VHid (K : Type) where
  cell : Nat → Nat → Cell K
  per : Nat → Nat → K
  hid : Nat → Nat → K

/-- The simulator interface of a tile with a vector unit cell with parameters `p`.  The extra state
holds the two indices (`dumpExtra`/`loadExtra`, rpu_vector_device.cpp:325-364; the weighting is also
stored there but is fixed by the parameters in this model). -/
def vecOps (F : Fns K) (p : VPar K) (mk : Cfg → Nat → Nat → Nat → VS K) (dtod : Nat → K)
    (G : Nat → Nat → Nat → K) (nm : VS K → List String) :
    SimOps (VTile K) (Nat → K) (VHid K) (ℤ × Nat) where
  create c x d seed := ⟨mk c x d seed, 1 / 100⟩
  weights t := t.s.vis
  hidden t := ⟨fun j => (t.s.dev j).cell, fun j k => ((t.s.dev j).st k).per,
    fun j k => ((t.s.dev j).st k).vis⟩
  names t := nm t.s
  lr t := some t.lr
  extra t := some (t.s.cur, t.s.upd)
  setHidden h seed t :=
    (p.step F t.s (.setHidden h.cell h.per h.hid dtod (G seed))).map fun s => ⟨s, t.lr⟩
  setWeights v seed t := (p.step F t.s (.set v (G seed))).map fun s => ⟨s, t.lr⟩
  overwrite v t := ⟨{ t.s with vis := v }, t.lr⟩
  setLr l t := .ok ⟨t.s, l⟩
  loadExtra e t := .ok ⟨{ t.s with cur := e.1, upd := e.2 }, t.lr⟩

/-! ## One-sided unit cell -/

/-- A tile with a one-sided unit cell and its learning rate. -/
structure OTile (K : Type) where
  s : OS K
  lr : ℚ

/-- Hidden parameters of the two devices. -/
structure OHid (K : Type) where
  cellP : Nat → Cell K
  cellM : Nat → Cell K
  perP : Nat → K
  perM : Nat → K
  hidP : Nat → K
  hidM : Nat → K

/-- The simulator interface of a tile with a one-sided unit cell.  Hidden parameters and extra state
are those of the vector unit cell (`OneSidedRPUDevice` overrides neither); of the extra state only
`current_update_idx` is state of this model. -/
def oneOps (F : Fns K) (p : OPar K) (mk : Cfg → Nat → Nat → Nat → OS K) (dtodP dtodM : K)
    (GP GM : Nat → Nat → K) (nm : OS K → List String) : SimOps (OTile K) (Nat → K) (OHid K) Nat where
  create c x d seed := ⟨mk c x d seed, 1 / 100⟩
  weights t := t.s.vis
  hidden t := ⟨t.s.plus.cell, t.s.minus.cell, fun k => (t.s.plus.st k).per,
    fun k => (t.s.minus.st k).per, fun k => (t.s.plus.st k).vis, fun k => (t.s.minus.st k).vis⟩
  names t := nm t.s
  lr t := some t.lr
  extra t := some t.s.upd
  setHidden h seed t :=
    .ok ⟨OS.reduce { t.s with
      plus := t.s.plus.setHid F h.cellP h.perP h.hidP dtodP (GP seed)
      minus := t.s.minus.setHid F h.cellM h.perM h.hidM dtodM (GM seed) }, t.lr⟩
  setWeights v seed t := (p.step F t.s (.set v (GP seed) (GM seed))).map fun s => ⟨s, t.lr⟩
  overwrite v t := ⟨{ t.s with vis := v }, t.lr⟩
  setLr l t := .ok ⟨t.s, l⟩
  loadExtra e t := .ok ⟨{ t.s with upd := e }, t.lr⟩

/-! ## Mixed precision -/

/-- A tile with a mixed-precision compound and its learning rate. -/
structure MTile (K : Type) where
  s : MS K
  lr : ℚ

/-- Hidden parameters (`getDeviceParameter`, rpu_mixedprec_device_base.cpp:376-398): those of the analog
device and the accumulated gradient. -/
structure MHid (K : Type) where
  cell : Nat → Cell K
  per : Nat → K
  chi : Nat → K

/-- Extra state of the compound (rpu_mixedprec_device_base.cpp:242-276): row, update index, sparsity. -/
structure MExtra (K : Type) where
  row : Nat
  idx : Nat
  avg : K

/-- The simulator interface of a tile with a mixed-precision compound.  `setDeviceParameter`
(rpu_mixedprec_device_base.cpp:423-429) hands everything to the analog device and does not use the
block with the accumulated gradient. -/
def mixOps (F : Fns K) (p : MPar K) (mk : Cfg → Nat → Nat → Nat → MS K) (dtod : K)
    (G : Nat → Nat → K) (nm : MS K → List String) :
    SimOps (MTile K) (Nat → K) (MHid K) (MExtra K) where
  create c x d seed := ⟨mk c x d seed, 1 / 100⟩
  weights t := fun k => (t.s.dev.st k).vis
  hidden t := ⟨t.s.dev.cell, fun k => (t.s.dev.st k).per, p.getChi t.s⟩
  names t := nm t.s
  lr t := some t.lr
  extra t := some ⟨t.s.row, t.s.idx, t.s.avg⟩
  setHidden h seed t :=
    (t.s.dev.step F (.setHidden h.cell h.per dtod (G seed))).map fun d => ⟨{ t.s with dev := d }, t.lr⟩
  setWeights v seed t := .ok ⟨p.setWeights t.s v (G seed), t.lr⟩
  overwrite v t := ⟨{ t.s with dev := t.s.dev.mapSt fun k c => ⟨v k, c.per⟩ }, t.lr⟩
  setLr l t := .ok ⟨t.s, l⟩
  loadExtra e t := .ok ⟨{ t.s with row := e.row, idx := e.idx, avg := e.avg }, t.lr⟩

end Aihw.State

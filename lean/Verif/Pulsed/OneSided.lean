import Verif.Pulsed.BitLineProps

/-!
# One-sided unit cells: `OneSidedRPUDevice`

Models rpu_onesided_device.cpp:141-428 for sub devices of the modelled pulsed classes.  `plus` is
the device with index `g_plus_` (= 1), `minus` the one with index `g_minus_` (= 0); the weighting is
`+1`/`-1` (rpu_onesided_device.cpp:175-180).  `invert` (only used by other compounds) is not
modelled.  The analog read of the refresh is an arbitrary vector per column, default refresh vectors
(unit vectors) are used.  Of the pulse types of the refresh write (`refresh_up`) the two stochastic
and the two deterministic ones are modelled.
-/
namespace Aihw.Pulsed

variable {K : Type} [Field K] [LinearOrder K] [IsStrictOrderedRing K] [FloorRing K]

/-- Parameters: sizes, `refresh_every`, `units_in_mbatch`, the two thresholds and the nominal `w_max`
of the two devices. -/
structure OPar (K : Type) where
  xSize : Nat
  dSize : Nat
  every : Nat
  unitsInMbatch : Bool
  upper : K
  lower : K
  wMaxP : K
  wMaxM : K

/-- State: the two devices, the visible weights, `current_update_idx_`, `refresh_counter_`. -/
structure OS (K : Type) where
  plus : Dev K
  minus : Dev K
  vis : Nat → K
  upd : Nat
  refreshed : Nat

/-- `reduceToWeights` with weighting `+1`, `-1`. -/
def OS.reduce (s : OS K) : OS K :=
  { s with vis := fun k => (s.plus.st k).vis - (s.minus.st k).vis }

/-- The pulses for `g-`: requested down pulses, always executed as up pulses
(rpu_onesided_device.cpp:237-259). -/
def downRequests (l : List (P K)) : List (P K) :=
  (l.filter fun q => q.down).map fun q => { q with down := false }

/-- The pulses for `g+`: requested up pulses (rpu_onesided_device.cpp:237-259). -/
def upRequests (l : List (P K)) : List (P K) :=
  (l.filter fun q => !q.down).map fun q => { q with down := false }

/-- The pulses of one dense update of a device with coincidences `c` in flat order
(`PULSED_UPDATE_W_LOOP_DENSE`, rpu_pulsed_device.h:461-474). -/
def coincPulses (size : Nat) (c : Nat → ℤ) (g g2 : Nat → Nat → K) : List (P K) :=
  (List.range size).flatMap fun f =>
    (List.range (c f).natAbs).map fun n => ⟨f, decide (0 < c f), g f n, g2 f n⟩

/-- `coincidences_p_` (rpu_onesided_device.cpp:278-283). -/
def coincP (c : ℤ) : ℤ := if c < 0 then c else 0

/-- `coincidences_m_` (rpu_onesided_device.cpp:278-283). -/
def coincM (c : ℤ) : ℤ := if 0 < c then -c else 0

/-- `refreshCriterion` (rpu_onesided_device.cpp:297-302); `w_min` is the `w_max` of `g-`. -/
def OPar.criterion (p : OPar K) (wp wm : K) : Bool :=
  if wm < wp then decide (p.upper < wp / |p.wMaxP|) && decide (p.lower < wm / |p.wMaxM|)
  else decide (p.lower < wp / |p.wMaxP|) && decide (p.upper < wm / |p.wMaxM|)

/-- The pulse type of the refresh write with its parameters and draws. -/
inductive RUp (K : Type) where
  | sparse (ty : SparseType) (tr : Trains K) (tx td : TrainDraw K)
  | dense (ty : DenseType) (q : Dense K) (ux ud : Nat → K)

/-- Pulses of the refresh write of column `col` with error vector `d` and learning rate `-1`
(rpu_onesided_device.cpp:363-380, rpu_weight_updater.cpp:240-290). -/
def RUp.pulses (r : RUp K) (xSize dSize col : Nat) (d : Nat → K) (pd : PulseDraw K) : List (P K) :=
  match r with
  | .sparse ty tr tx td =>
    sparsePulses ty tr xSize dSize (-1) (fun j => if j = col then 1 else 0) d tx td pd
  | .dense ty q ux ud =>
    densePulses ty q xSize dSize true (fun j => if j = col then 1 else 0) d ux ud pd

/-- Everything random about the refresh of one column: the two reads, the reset noise (per list
position) and the two writes. -/
structure RDraw (K : Type) where
  readP : Nat → K
  readM : Nat → K
  resetP : Nat → K
  resetM : Nat → K
  upP : RUp K
  upM : RUp K
  pdP : PulseDraw K
  pdM : PulseDraw K

/-- Whether row `i` of the column is refreshed. -/
def OPar.hit (p : OPar K) (r : RDraw K) (i : Nat) : Bool := p.criterion (r.readP i) (r.readM i)

/-- `refresh_p_vec_` (rpu_onesided_device.cpp:341-352). -/
def OPar.vecP (p : OPar K) (r : RDraw K) (i : Nat) : K :=
  if p.hit r i then (if r.readM i < r.readP i then r.readP i - r.readM i else 0) else 0

/-- `refresh_m_vec_` (rpu_onesided_device.cpp:341-352). -/
def OPar.vecM (p : OPar K) (r : RDraw K) (i : Nat) : K :=
  if p.hit r i then (if r.readM i < r.readP i then 0 else r.readM i - r.readP i) else 0

/-- `refresh_p_counter`. -/
def OPar.countP (p : OPar K) (r : RDraw K) : Nat :=
  ((List.range p.dSize).filter fun i => p.hit r i && decide (r.readM i < r.readP i)).length

/-- `refresh_m_counter`. -/
def OPar.countM (p : OPar K) (r : RDraw K) : Nat :=
  ((List.range p.dSize).filter fun i => p.hit r i && !decide (r.readM i < r.readP i)).length

/-- `refresh_indices` (rpu_onesided_device.cpp:354). -/
def OPar.indices (p : OPar K) (r : RDraw K) (col : Nat) : List Nat :=
  ((List.range p.dSize).filter fun i => p.hit r i).map fun i => i * p.xSize + col

/-- The refresh of one column (rpu_onesided_device.cpp:330-385): read, reset the refreshed cells of
both devices (which raises with write noise, even when no cell is refreshed), write the difference to
one of them. -/
def OPar.refreshCol (F : Fns K) (p : OPar K) (s : OS K) (col : Nat) (r : RDraw K) :
    Except PyErr (OS K) :=
  if persistent s.plus.kd s.plus.par = true ∨ persistent s.minus.kd s.minus.par = true then
    .error .runtimeError
  else
    let dp := s.plus.resetAt (p.indices r col) r.resetP 0
    let dm := s.minus.resetAt (p.indices r col) r.resetM 0
    .ok { s with
      plus := if 0 < p.countP r then dp.pulses F (r.upP.pulses p.xSize p.dSize col (p.vecP r) r.pdP)
        else dp
      minus := if 0 < p.countM r then dm.pulses F (r.upM.pulses p.xSize p.dSize col (p.vecM r) r.pdM)
        else dm
      refreshed := s.refreshed + p.countP r + p.countM r }

/-- The column loop of `refreshWeights`. -/
def OPar.refreshCols (F : Fns K) (p : OPar K) (dr : Nat → RDraw K) :
    List Nat → OS K → Except PyErr (OS K)
  | [], s => .ok s
  | c :: l, s =>
    match p.refreshCol F s c (dr c) with
    | .error e => .error e
    | .ok s' => p.refreshCols F dr l s'

/-- `refreshWeights` (rpu_onesided_device.cpp:304-391). -/
def OPar.refresh (F : Fns K) (p : OPar K) (s : OS K) (dr : Nat → RDraw K) : Except PyErr (OS K) :=
  p.refreshCols F dr (List.range p.xSize) s

/-- The number of updates between refreshes (rpu_onesided_device.cpp:213-217). -/
def OPar.period (p : OPar K) (mBatch : Nat) : Nat :=
  if p.unitsInMbatch then p.every * mBatch else p.every

/-- `finishUpdateCycle` (rpu_onesided_device.cpp:206-227).  A period of zero (batch size zero) is a
division by zero. -/
def OPar.finish (F : Fns K) (p : OPar K) (s : OS K) (mBatch : Nat) (dr : Nat → RDraw K) :
    Except PyErr (OS K) :=
  let s := { s with upd := s.upd + 1 }
  if p.every = 0 then .ok s
  else if p.period mBatch = 0 then .error .zeroDivision
  else if s.upd % p.period mBatch = 0 then
    match p.refresh F s dr with
    | .error e => .error e
    | .ok s' => .ok (if s.refreshed < s'.refreshed then s'.reduce else s')
  else .ok s

/-- The pulses requested by one update: sparse list, or coincidences per cell with the draws of the
two devices. -/
inductive OReq (K : Type) where
  | sparse (l : List (P K))
  | dense (c : Nat → ℤ) (gp gp2 gm gm2 : Nat → Nat → K)

/-- `doSparseUpdate` (rpu_onesided_device.cpp:230-269) and `doDenseUpdate` (271-292). -/
def OPar.request (F : Fns K) (p : OPar K) (s : OS K) : OReq K → OS K
  | .sparse l =>
    let dp := s.plus.pulses F (upRequests l)
    let dm := s.minus.pulses F (downRequests l)
    { s with
      plus := dp, minus := dm,
      vis := fun k => if (l.map (·.k)).contains k then (dp.st k).vis - (dm.st k).vis else s.vis k }
  | .dense c gp gp2 gm gm2 =>
    OS.reduce { s with
      plus := s.plus.pulses F (coincPulses (p.xSize * p.dSize) (fun f => coincP (c f)) gp gp2)
      minus := s.minus.pulses F (coincPulses (p.xSize * p.dSize) (fun f => coincM (c f)) gm gm2) }

/-- Operations; `g`s are (plus, minus). -/
inductive OOp (K : Type) where
  | update (q : OReq K) (mBatch : Nat) (dr : Nat → RDraw K)
  | set (v : Nat → K) (gp gm : Nat → K)
  /-- decay, diffusion, drift, clipping and column reset of both devices -/
  | each (op om : Op K)

/-- Operations that the unit cell hands to both devices. -/
def Op.shared : Op K → Bool
  | .decay _ _ => true
  | .decayAlpha _ _ _ => true
  | .diffuse _ _ => true
  | .drift _ _ => true
  | .clip _ _ => true
  | .resetCols _ _ _ _ _ => true
  | _ => false

/-- Execute an operation. -/
def OPar.step (F : Fns K) (p : OPar K) (s : OS K) : OOp K → Except PyErr (OS K)
  | .update q mBatch dr => p.finish F (p.request F s q) mBatch dr
  | .set v gp gm =>
    -- `onSetWeights` (rpu_onesided_device.cpp:399-428)
    .ok (OS.reduce { s with
      plus := s.plus.mapSt fun k c =>
        onSet s.plus.kd s.plus.par (s.plus.cell k) c (if 0 < v k then v k else 0) (gp k)
      minus := s.minus.mapSt fun k c =>
        onSet s.minus.kd s.minus.par (s.minus.cell k) c (if v k < 0 then -v k else 0) (gm k)
      upd := 0
      refreshed := 0 })
  | .each op om =>
    match s.plus.step F op, s.minus.step F om with
    | .ok dp, .ok dm => .ok (OS.reduce { s with plus := dp, minus := dm })
    | .error e, _ => .error e
    | _, .error e => .error e

/-- A history of operations. -/
def OPar.run (F : Fns K) (p : OPar K) (s : OS K) : List (OOp K) → Except PyErr (OS K)
  | [] => .ok s
  | o :: l => match p.step F s o with
    | .error e => .error e
    | .ok s' => p.run F s' l

/-- `copyInvertDeviceParameter` (rpu_pulsed_device.cpp:517-543) of one cell: despite its argument it
mirrors the device's *own* parameters. -/
def invertCell (c : Cell K) : Cell K :=
  { c with up := c.down, down := c.up, maxB := -c.minB, minB := -c.maxB }

/-- `copy_inverted` of `populate` (rpu_onesided_device.cpp:172-174): applied to device 1, which is
`g+`. -/
def populatePlus (copyInverted : Bool) (c : Nat → Cell K) : Nat → Cell K :=
  if copyInverted then fun k => invertCell (c k) else c

end Aihw.Pulsed

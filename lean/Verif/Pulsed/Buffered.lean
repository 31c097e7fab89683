import Verif.Pulsed.TransferProps3

/-!
# Buffered (TTv2) and chopped (c-TTv2, AGAD predecessor) transfer compounds

Models `BufferedTransferRPUDevice` (rpu_buffered_transfer_device.cpp:46-57, 136-214) and
`ChoppedTransferRPUDevice` (rpu_chopped_transfer_device.cpp:105-146, 256-265, 357-555) on top of the
base class `TransferRPUDevice` (rpu_transfer_device.cpp:474-556).  The methods that the subclasses
override are the fields of `Virt`.

Not modelled: as for `Transfer.lean`; floating point rounding; the momentum/auto-scale statistics
`m_x_`, `m_d_` of the fast learning rate (the count learning rate is an argument of each update).
The length of the scratch vector `transfer_tmp_` is ignored here, see `tmpSize` below.
-/
namespace Aihw.Pulsed

variable {K : Type} [Field K] [LinearOrder K] [IsStrictOrderedRing K] [FloorRing K]

/-- `truncf`: towards zero. -/
def trunc0 (x : K) : ℤ := if 0 ≤ x then ⌊x⌋ else ⌈x⌉

/-- `MAX(MIN(v, max_steps), -max_steps)` (rpu_buffered_transfer_device.cpp:195). -/
def clipSteps (bl : Nat) (n : ℤ) : ℤ := max (min n (bl : ℤ)) (-(bl : ℤ))

/-- One read of the fast device as seen from outside: source device, slice, the read vector, the
(absolute) factor applied to it, the signs applied, and the number of steps requested from the slow
device.  Ghost information. -/
structure Rd (K : Type) where
  src : Nat
  c : Nat
  y : Nat → K
  fac : K
  flip : Nat → Bool
  n : Nat → ℤ

/-- State of a buffered or chopped compound: the base class state, the digital buffers
(`transfer_buffer_vec_`, per source device and flat index), the choppers and the transfer counter
(unused by the buffered class), and the ghost list of reads. -/
structure BS (K : Type) where
  ts : TS K
  buf : Nat → Nat → K
  inC : Nat → Bool
  outC : Nat → Bool
  ctr : Nat
  hist : List (Rd K)

/-- Parameters of the two classes beyond the base class ones.  `gran` is the weight granularity of
each sub device (`getWeightGranularity`), `bl` is `desired_BL` of the transfer update. -/
structure BPar (K : Type) extends TPar K where
  thres : K
  step : K
  momentum : K
  forget : Bool
  bl : Nat
  gran : Nat → K
  -- chopped class only
  inProb : K
  inRandom : Bool
  outProb : K
  bufGran : K
  autoGran : K
  correctGrad : Bool
  noBuffer : Bool
  transferEvery : K
  nStates : Nat → K

/-- The flat index of the buffer entry for slice `c` and output `o`: start
`use_cols ? c : x_size * c` and increment `use_cols ? in_size : 1`
(rpu_buffered_transfer_device.cpp:173-207, rpu_chopped_transfer_device.cpp:397-411). -/
def BPar.cellOf (p : BPar K) (c o : Nat) : Nat :=
  if p.cols then c + o * p.inSize else p.xSize * c + o

/-- `transfer_tmp_.resize(d_size_)` (rpu_buffered_transfer_device.cpp:159): the length of the vector
that receives the `out_size` values of a read. -/
def BPar.tmpSize (p : BPar K) : Nat := p.dSize

/-- `getTransferLR` of the buffered class (rpu_buffered_transfer_device.cpp:47-57). -/
def BPar.bufLR (p : BPar K) (dst src : Nat) (cur : K) : K :=
  if 0 < p.gamma dst ∧ 0 < p.gamma src then p.transferLR src cur * (p.gamma src / p.gamma dst)
  else p.transferLR src cur

/-- `writeVector(to, v_in, -n_steps, lr)` with a learning rate of zero meaning no update
(rpu_transfer_device.cpp:413-427, rpu_weight_updater.cpp:207-209). -/
def BPar.bufWrite (F : Fns K) (p : BPar K) (d : Dev K) (c : Nat) (lr : K) (n : Nat → ℤ) (w : WD K) :
    Dev K :=
  if lr = 0 then d else p.write F d c lr { w with y := fun o => -(n o : K) }

/-! ## The buffered class -/

/-- `buffer_granularity` (rpu_buffered_transfer_device.cpp:164-165). -/
def BPar.bg (p : BPar K) (dst : Nat) : K := p.thres * p.gran dst

/-- `sub_momentum` (rpu_buffered_transfer_device.cpp:166). -/
def BPar.sub (p : BPar K) : K := 1 - max (min p.momentum 1) 0

/-- `n_steps` (rpu_buffered_transfer_device.cpp:195). -/
def BPar.steps (p : BPar K) (dst : Nat) (om : K) : ℤ := clipSteps p.bl (trunc0 (om / p.bg dst))

/-- The new buffer value (rpu_buffered_transfer_device.cpp:197-202). -/
def BPar.bufNext (p : BPar K) (dst : Nat) (om : K) : K :=
  if p.steps dst om ≠ 0 then
    if p.forget then om * p.momentum else om - p.sub * (p.steps dst om : K) * p.bg dst
  else om

/-- `omega` of output `o` (rpu_buffered_transfer_device.cpp:192-193). -/
def BPar.omega (p : BPar K) (src c : Nat) (lr : K) (w : WD K) (s : BS K) (o : Nat) : K :=
  s.buf src (p.cellOf c o) + w.y o * |lr|

/-- Write the new values of slice `c` into a buffer. -/
def BPar.setSlice (p : BPar K) (c : Nat) (v : Nat → K) (b : Nat → K) : Nat → K := fun k =>
  match (List.range p.outSize).find? (fun o => decide (p.cellOf c o = k)) with
  | some o => v o
  | none => b k

/-- One iteration of the loop of `BufferedTransferRPUDevice::readAndUpdate`
(rpu_buffered_transfer_device.cpp:177-213). -/
def BPar.bufOne (F : Fns K) (p : BPar K) (dst src : Nat) (lr : K) (c : Nat) (w : WD K) (s : BS K) :
    BS K :=
  let n : Nat → ℤ := fun o => p.steps dst (p.omega src c lr w s o)
  let ts := if (List.range p.outSize).any (fun o => decide (n o ≠ 0)) then
      s.ts.setDev dst (p.bufWrite F (s.ts.dev dst) c (p.step * p.gran dst) n w)
    else s.ts
  { s with
    ts := { ts with log := ts.log ++ [(src, dst, c)] }
    buf := fun j => if j = src then
        p.setSlice c (fun o => p.bufNext dst (p.omega src c lr w s o)) (s.buf src) else s.buf j
    hist := s.hist ++ [⟨src, c, w.y, |lr|, fun _ => false, n⟩] }

/-! ## The chopped class -/

/-- `getBufferGranularity` (rpu_chopped_transfer_device.cpp:134-146). -/
def BPar.chopBG (p : BPar K) (wg : K) : K :=
  let b := if 0 < p.bufGran then p.bufGran else 1
  if 0 < p.autoGran then b * (wg * p.autoGran / ((p.inSize : K) * |p.transferEvery|)) else b * wg

/-- `getTransferLRScale` (rpu_chopped_transfer_device.cpp:110-125); `cnt` is the count learning rate
of the current update. -/
def BPar.lrScale (p : BPar K) (lr cnt : K) : K :=
  if p.correctGrad then |lr| / cnt / (p.chopBG (p.gran 0) * (p.gran 1 / p.gran 0))
  else |lr| / p.chopBG (p.gran 0)

/-- `n_steps` (rpu_chopped_transfer_device.cpp:426-429). -/
def BPar.chopSteps (p : BPar K) (om : K) : ℤ := if 1 ≤ |om| then clipSteps p.bl (trunc0 om) else 0

/-- The new buffer value (rpu_chopped_transfer_device.cpp:428-437). -/
def BPar.chopNext (p : BPar K) (om : K) : K :=
  if 1 ≤ |om| then
    if p.forget then om * p.momentum else om - p.sub * (p.chopSteps om : K)
  else om

/-- `omega` of output `o` (rpu_chopped_transfer_device.cpp:421-425). -/
def BPar.chopOmega (p : BPar K) (c : Nat) (scale : K) (w : WD K) (s : BS K) (o : Nat) : K :=
  (if p.noBuffer then 0 else s.buf 0 (p.cellOf c o)) +
    (if s.inC c != s.outC o then -(w.y o * scale) else w.y o * scale)

/-- `n_samples` of the regular chopper (rpu_chopped_transfer_device.cpp:453). -/
def BPar.nSamples (p : BPar K) : Nat := (max ⌈1 / p.inProb⌉ 2).toNat

/-- Whether the input chopper of the slice just read flips (rpu_chopped_transfer_device.cpp:446-458);
`u` is the uniform draw. -/
def BPar.inFlip (p : BPar K) (ctr : Nat) (u : K) : Bool :=
  decide (0 < p.inProb) &&
    if p.inRandom then decide (u < p.inProb) else decide (ctr % p.nSamples + 1 = p.nSamples)

/-- `ChoppedTransferRPUDevice::readAndUpdate` for `n_vec = 1`
(rpu_chopped_transfer_device.cpp:357-474): always from device 0 to device 1.  The draws of the
choppers are `w.u` (input) and `w.g o` (output `o`). -/
def BPar.chopOne (F : Fns K) (p : BPar K) (cnt : K) (src : Nat) (lr : K) (c : Nat) (w : WD K)
    (s : BS K) : BS K :=
  let sc := p.lrScale lr cnt
  let n : Nat → ℤ := fun o => p.chopSteps (p.chopOmega c sc w s o)
  let ts := if (List.range p.outSize).any (fun o => decide (1 ≤ |p.chopOmega c sc w s o|)) then
      s.ts.setDev 1 (p.bufWrite F (s.ts.dev 1) c (p.step * p.gran 1) n w)
    else s.ts
  { ts := { ts with log := ts.log ++ [(src, 1, c)] }
    buf := fun j => if j = 0 then
        p.setSlice c (fun o => p.chopNext (p.chopOmega c sc w s o)) (s.buf 0) else s.buf j
    inC := fun k => if k = c then (s.inC c).xor (p.inFlip s.ctr w.u) else s.inC k
    outC := fun o => if c + 1 = p.inSize ∧ 0 < p.outProb ∧ o < p.outSize ∧ w.g o < p.outProb
      then !s.outC o else s.outC o
    ctr := if c + 1 = p.inSize then s.ctr + 1 else s.ctr
    hist := s.hist ++ [⟨0, c, w.y, sc, fun o => s.inC c != s.outC o, n⟩] }

/-- The sign flip of the gradient pulses (`doSparseUpdate`, `doDenseUpdate`,
rpu_chopped_transfer_device.cpp:476-517): a pulse on row `i`, column `j` changes direction if exactly
one of the two choppers is set. -/
def BPar.chopPulse (p : BPar K) (s : BS K) (q : P K) : P K :=
  let i := q.k / p.xSize
  let j := q.k % p.xSize
  let x := if p.cols then s.inC j else s.outC j
  let d := if p.cols then s.outC i else s.inC i
  { q with down := q.down.xor (x != d) }

/-- `ChoppedTransferRPUDevice::reduceToWeights` (rpu_chopped_transfer_device.cpp:519-555): the base
class result plus a correction for flat index `idx` that uses the choppers of `idx / d_size` and
`idx % d_size`. -/
def BPar.chopReduce (p : BPar K) (s : BS K) : BS K :=
  let r := p.reduce s.ts
  if p.fullyHidden then { s with ts := r }
  else if p.gamma 0 = 0 then { s with ts := r }
  else
    let sgn : Nat → K := fun k => if s.inC (k / p.dSize) != s.outC (k % p.dSize) then -1 else 1
    let vis : Nat → K := fun k => r.vis k + p.gamma 0 * (sgn k - 1) * ((s.ts.dev 0).st k).vis
    { s with ts := { r with vis := vis } }

/-- `getTransferEvery` of the chopped class (rpu_chopped_transfer_device.cpp:256-265, 127-132). -/
def BPar.chopEvery (p : BPar K) (j m : Nat) : Nat :=
  if p.transferEvery < 0 then
    (max 1 (roundAway (p.nStates j / (p.inSize : K) * |p.transferEvery|))).toNat
  else p.getEvery j m

/-! ## The update cycle shared by the classes -/

/-- The overridden methods: transfer period, transfer learning rate, whether `readAndUpdate` returns
immediately, one read, the transformation of gradient pulses and the reduction. -/
structure Virt (K : Type) where
  ev : Nat → Nat → Nat
  lrOf : Nat → Nat → K → K
  skip : Nat → Nat → K → Bool
  one : Nat → Nat → K → Nat → WD K → BS K → BS K
  sgd : BS K → P K → P K
  red : BS K → BS K

/-- The loop of `readAndUpdate`. -/
def Virt.readAndUpdate (v : Virt K) (dst src : Nat) (lr : K) (start nVec : Nat) (dr : Nat → WD K)
    (s : BS K) : BS K :=
  if v.skip dst src lr then s
  else (List.range nVec).foldl (fun s i => v.one dst src lr (start + i) (dr i) s) s

/-- Set the slice counter of a device. -/
def BS.setSliceIdx (s : BS K) (src i : Nat) : BS K :=
  { s with ts := { s.ts with slice := fun k => if k = src then i else s.ts.slice k } }

/-- `transfer` (rpu_transfer_device.cpp:474-514). -/
def Virt.transfer (v : Virt K) (p : TPar K) (dst src : Nat) (cur : K) (dr : Nat → WD K) (s : BS K) :
    BS K :=
  let i := s.ts.slice src
  let nRest := p.inSize - i
  let lr := v.lrOf dst src cur
  let nT := min p.nReads p.inSize
  let s' := if nRest < nT then
      v.readAndUpdate dst src lr 0 (nT - nRest) (fun k => dr (nRest + k))
        (v.readAndUpdate dst src lr i nRest dr s)
    else v.readAndUpdate dst src lr i nT dr s
  s'.setSliceIdx src ((i + nT) % p.inSize)

/-- The loop body of `finishUpdateCycle` (rpu_transfer_device.cpp:547-554). -/
def Virt.maybe (v : Virt K) (p : TPar K) (cur : K) (m : Nat) (dr : Nat → Nat → WD K) (s : BS K)
    (j : Nat) : BS K :=
  if 0 < v.ev j m ∧ s.ts.idx % v.ev j m = 0 then
    v.transfer p (min (j + 1) (p.n - 1)) j cur (dr j) s
  else s

/-- The gradient pulses go to device 0 (rpu_transfer_device.cpp:516-533) and the update counter is
incremented (rpu_transfer_device.cpp:539-540). -/
def Virt.begin (v : Virt K) (F : Fns K) (s : BS K) (u : Upd K) : BS K :=
  { s with ts := { s.ts.setDev 0 ((s.ts.dev 0).pulses F (u.sgd.map (v.sgd s))) with
      idx := s.ts.idx + 1 } }

/-- An update cycle: gradient pulses, transfers, reduction (rpu_transfer_device.cpp:516-556). -/
def Virt.update (v : Virt K) (F : Fns K) (p : TPar K) (s : BS K) (u : Upd K) : BS K :=
  v.red ((List.range p.n).foldl (v.maybe p u.lr u.mBatch u.dr) (v.begin F s u))

/-- The buffered class. -/
def BPar.bufVirt (F : Fns K) (p : BPar K) : Virt K where
  ev := p.getEvery
  lrOf := p.bufLR
  skip := fun dst src lr => decide (lr = 0) || decide (dst = src) || decide (p.n - 1 ≤ src)
  one := p.bufOne F
  sgd := fun _ q => q
  red := fun s => { s with ts := p.reduce s.ts }

/-- The chopped class; `cnt` is the count learning rate of the update. -/
def BPar.chopVirt (F : Fns K) (p : BPar K) (cnt : K) : Virt K where
  ev := p.chopEvery
  lrOf := p.bufLR
  skip := fun _ _ lr => decide (lr = 0)
  one := fun _ src lr c w s => p.chopOne F cnt src lr c w s
  sgd := p.chopPulse
  red := p.chopReduce

/-- A sequence of updates of a buffered compound. -/
def BPar.bufRun (F : Fns K) (p : BPar K) (s : BS K) (us : List (Upd K)) : BS K :=
  us.foldl ((p.bufVirt F).update F p.toTPar) s

/-- A sequence of updates of a chopped compound, each with its count learning rate. -/
def BPar.chopRun (F : Fns K) (p : BPar K) (s : BS K) (us : List (Upd K × K)) : BS K :=
  us.foldl (fun s u => (p.chopVirt F u.2).update F p.toTPar s u.1) s

/-- `onSetWeights` is inherited unchanged (rpu_transfer_device.cpp:558-600): buffers, choppers and
the transfer counter are not touched.  For a chopped compound the final reduction is the overridden
one. -/
def BPar.setWeights (p : BPar K) (red : BS K → BS K) (s : BS K) (v : Nat → K) (g : Nat → Nat → K) :
    Except PyErr (BS K) :=
  match p.toTPar.setWeights s.ts v g with
  | .error e => .error e
  | .ok t => .ok (if p.fullyHidden then { s with ts := t } else red { s with ts := t })

end Aihw.Pulsed

import Verif.Pulsed.BufferedLemmas
import Verif.Pulsed.TransferProps

/-!
# Mixed-precision compound: `MixedPrecRPUDevice`

Models rpu_mixedprec_device.cpp:38-55, 135-360 and rpu_mixedprec_device_base.cpp:196-345, 389-402
(parameters, granularity, digital accumulation `chi`, transfer, sparsity statistics, setting
weights and hidden weights).  The analog device below it is one of the modelled pulsed classes.
Not modelled: strides `x_inc`/`d_inc`, pulse types other than the two stochastic ones for the
transfer, the scales of the pulse trains (arbitrary here; chosen as in `UpPar` in the theorems over
the reals), decay/diffusion/drift/reset (these are forwarded to the analog device, C33, C46), CUDA.
-/
namespace Aihw.Pulsed

variable {K : Type} [Field K] [LinearOrder K] [IsStrictOrderedRing K] [FloorRing K]

/-- Parameters (rpu_mixedprec_device_base.h:25-34, rpu_mixedprec_device.h:24-32); `gran` is
`granularity_` as established by `populate`. -/
structure MPar (K : Type) where
  xSize : Nat
  dSize : Nat
  nxBins : ℤ
  ndBins : ℤ
  stoX : Bool
  stoD : Bool
  gran : K
  every : ℤ
  nRows : ℤ
  randomRow : Bool
  transferLr : K
  sparsity : Bool

/-- `populate` (rpu_mixedprec_device_base.cpp:222-233): the granularity of the device (`none` if the
device is not a pulsed one) is overwritten by a positive parameter; it must be positive. -/
def mpGranularity (device : Option K) (par : K) : Except PyErr K :=
  let g := device.getD 0
  let g := if 0 < par then par else g
  if g ≤ 0 then .error .runtimeError else .ok g

/-- `initialize` of the parameters (rpu_mixedprec_device.cpp:38-46): the sparsity statistics are
switched off unless both vectors are quantised. -/
def MPar.init (p : MPar K) : MPar K :=
  { p with sparsity := if p.ndBins ≤ 0 ∨ p.nxBins ≤ 0 then false else p.sparsity }

/-- State: accumulated gradient `chi` (row, column), row and update counters, sparsity average, the
quantised error buffer `qd_` (which is a member and keeps its contents) and the analog device. -/
structure MS (K : Type) where
  chi : Nat → Nat → K
  row : Nat
  idx : Nat
  avg : K
  qd : Nat → K
  dev : Dev K

/-- A transferred row: its index and the integer step counts. -/
structure MT (K : Type) where
  row : Nat
  dw : Nat → K

/-- One call of the update: learning rate, vectors, `m_batch_info` and all draws (`ux`, `ud` for
stochastic rounding, `ur` for the random row, `w k` for the pulses of the `k`-th transferred row). -/
structure MU (K : Type) where
  lr : K
  x : Nat → K
  d : Nat → K
  mBatch : ℤ
  ux : Nat → K
  ud : Nat → K
  ur : K
  w : Nat → WD K

/-- `|v[iamax(v)]|`. -/
def mpAmax (n : Nat) (v : Nat → K) : K := (List.range n).foldl (fun m j => max m |v j|) 0

/-- The bin width (rpu_mixedprec_device.cpp:205-222).  One bin means `half_bins = 0`, a floating
point division by zero; the model raises there. -/
def mpWidth (bins : ℤ) (n : Nat) (v : Nat → K) : Except PyErr K :=
  if bins ≤ 0 then .ok 1
  else if bins / 2 = 0 then .error .arithmetic
  else
    let w := mpAmax n v / ((bins / 2 : ℤ) : K)
    .ok (if w = 0 then 1 else w)

/-- Rounded and clipped multiple of the width (rpu_mixedprec_device.cpp:256-257, 304-310). -/
def mpLevel (bins : ℤ) (sto : Bool) (width v u : K) : K :=
  let s := if sto then u - 1 / 2 else 0
  min (max ((rint (v / width + s) : ℤ) : K) (-((bins / 2 : ℤ) : K))) ((bins / 2 : ℤ) : K)

/-- A possibly quantised entry (rpu_mixedprec_device.cpp:247-259, 268-280). -/
def mpQuant (bins : ℤ) (sto : Bool) (width v u : K) : K :=
  if 0 < bins then mpLevel bins sto width v u * width else v

/-- `ger` (rpu_mixedprec_device.cpp:233-235, 284-286). -/
def mpGer (X D : Nat) (lr : K) (d x : Nat → K) (chi : Nat → Nat → K) : Nat → Nat → K :=
  fun j i => if j < D ∧ i < X then chi j i + lr * d j * x i else chi j i

/-- The error loop of the partly quantised branch (rpu_mixedprec_device.cpp:265-282): every value is
written to `qd_[i]`, where `i` is the counter of the loop before, i.e. `x_size - 1`. -/
def mpWriteQd (X D : Nat) (q : Nat → K) (qd : Nat → K) : Nat → K :=
  (List.range D).foldl (fun b j => fun k => if k = X - 1 then q j else b k) qd

/-- The compressed quantised input of the sparse branch (rpu_mixedprec_device.cpp:295-314):
pairs of index and value. -/
def mpSparse (bins : ℤ) (sto : Bool) (width : K) (v u : Nat → K) (n : Nat) : List (Nat × K) :=
  (List.range n).filterMap fun i =>
    if rint (v i / width + (if sto then u i - 1 / 2 else 0)) = 0 then none
    else some (i, mpLevel bins sto width (v i) (u i) * width)

/-- `chi_row[idx] += learning_rate * qd * qx` over the compressed input
(rpu_mixedprec_device.cpp:338-342). -/
def mpAddRow (f : K) (l : List (Nat × K)) (row : Nat → K) : Nat → K :=
  l.foldl (fun r q => fun i => if i = q.1 then r i + f * q.2 else r i) row

/-- The row loop of the sparse branch (rpu_mixedprec_device.cpp:319-343). -/
def mpSparseUpdate (lr : K) (xs ds : List (Nat × K)) (chi : Nat → Nat → K) : Nat → Nat → K :=
  ds.foldl (fun c q => fun j => if j = q.1 then mpAddRow (lr * q.2) xs (c j) else c j) chi

/-- Accumulation result: new `chi`, new `qd_`, number of non-zero quantised inputs and errors. -/
structure MAcc (K : Type) where
  chi : Nat → Nat → K
  qd : Nat → K
  kx : Nat
  kd : Nat

/-- The digital accumulation (rpu_mixedprec_device.cpp:204-344).  Writing `qd_` beyond its end
(partly quantised with `x_size > d_size`) is undefined behaviour; the model raises. -/
def MPar.accumulate (p : MPar K) (s : MS K) (u : MU K) : Except PyErr (MAcc K) := do
  let wx ← mpWidth p.nxBins p.xSize u.x
  let wd ← mpWidth p.ndBins p.dSize u.d
  if p.ndBins ≤ 0 ∧ p.nxBins ≤ 0 then
    .ok ⟨mpGer p.xSize p.dSize u.lr u.d u.x s.chi, s.qd, 0, 0⟩
  else if p.ndBins ≤ 0 ∨ p.nxBins ≤ 0 then
    if p.dSize < p.xSize then .error .runtimeError
    else
      let qd := mpWriteQd p.xSize p.dSize (fun j => mpQuant p.ndBins p.stoD wd (u.d j) (u.ud j)) s.qd
      .ok ⟨mpGer p.xSize p.dSize u.lr qd
        (fun i => mpQuant p.nxBins p.stoX wx (u.x i) (u.ux i)) s.chi, qd, 0, 0⟩
  else
    let xs := mpSparse p.nxBins p.stoX wx u.x u.ux p.xSize
    let ds := mpSparse p.ndBins p.stoD wd u.d u.ud p.dSize
    .ok ⟨mpSparseUpdate u.lr xs ds s.chi, s.qd, xs.length, ds.length⟩

/-- `updateVectorWithDevice` for a transferred row (rpu_mixedprec_device.cpp:172-174): a pulsed
update with the step counts as input, the unit vector of the row as error and learning rate
`granularity * transfer_lr`. -/
def MPar.write (F : Fns K) (p : MPar K) (d : Dev K) (row : Nat) (dw : Nat → K) (lr : K) (w : WD K) :
    Dev K :=
  d.pulses F (sparsePulses w.ty w.tr p.xSize p.dSize (if p.gran * lr < 0 then -1 else 1) dw
    (unitVec row) w.tx w.td w.pd)

/-- The body of the loop of `forwardUpdate` (rpu_mixedprec_device.cpp:160-175) for one row. -/
def MPar.forwardRow (F : Fns K) (p : MPar K) (lr : K) (w : WD K) (s : MS K) (row : Nat) :
    MS K × MT K :=
  let dw := fun i => ((trunc0 (s.chi row i / p.gran) : ℤ) : K)
  ({ s with
      chi := fun j => if j = row then
          (fun i => if i < p.xSize then s.chi row i - dw i * p.gran else s.chi row i) else s.chi j,
      dev := p.write F s.dev row dw lr w },
    ⟨row, dw⟩)

/-- `forwardUpdate` (rpu_mixedprec_device.cpp:136-176): rows `start, …, start + n - 1`; `w` is the
pulse randomness of these rows. -/
def MPar.forward (F : Fns K) (p : MPar K) (lr : K) (start n : Nat) (w : Nat → WD K)
    (a : MS K × List (MT K)) : MS K × List (MT K) :=
  (List.range n).foldl (fun a j =>
    let r := p.forwardRow F lr (w j) a.1 (start + j)
    (r.1, a.2 ++ [r.2])) a

/-- Number of rows of a transfer (rpu_mixedprec_device_base.cpp:308-316). -/
def MPar.nTransfer (p : MPar K) : Nat :=
  min (if p.nRows < 0 then p.dSize else p.nRows.toNat) p.dSize

/-- First row of a transfer (rpu_mixedprec_device_base.cpp:317-321). -/
def MPar.firstRow (p : MPar K) (s : MS K) (ur : K) : Nat :=
  if p.randomRow ∧ p.nTransfer < p.dSize then
    (max (min ⌊ur * (p.dSize : K)⌋ ((p.dSize : ℤ) - 1)) 0).toNat
  else s.row

/-- `transfer` (rpu_mixedprec_device_base.cpp:303-345). -/
def MPar.transfer (F : Fns K) (p : MPar K) (s : MS K) (u : MU K) :
    Except PyErr (MS K × List (MT K)) :=
  if p.nRows = 0 ∨ |p.transferLr| = 0 then .ok (s, [])
  else if p.gran ≤ 0 then .error .runtimeError
  else
    let n := p.nTransfer
    let i := p.firstRow s u.ur
    let rest := p.dSize - i
    let r := if rest < n then
        p.forward F p.transferLr 0 (n - rest) (fun k => u.w (rest + k))
          (p.forward F p.transferLr i rest u.w (s, []))
      else p.forward F p.transferLr i n u.w (s, [])
    .ok ({ r.1 with row := (i + n) % p.dSize }, r.2)

/-- `doTransfer` (rpu_mixedprec_device_base.cpp:281-288). -/
def MPar.doTransfer (F : Fns K) (p : MPar K) (s : MS K) (u : MU K) :
    Except PyErr (MS K × List (MT K)) :=
  if 0 < p.every * u.mBatch ∧ 0 < s.idx ∧ (s.idx : ℤ) % (p.every * u.mBatch) = 0 then
    p.transfer F s u
  else .ok (s, [])

/-- `computeSparsity` (rpu_mixedprec_device_base.cpp:303-310). -/
def MPar.computeSparsity (p : MPar K) (s : MS K) (kx kd : Nat) : K :=
  if p.sparsity then
    ((s.idx : K) * s.avg +
      (((p.dSize - kd) * (p.xSize - kx) : Nat) : K) / ((p.xSize * p.dSize : Nat) : K)) /
      ((s.idx : K) + 1)
  else s.avg

/-- `doDirectVectorUpdate` (rpu_mixedprec_device.cpp:190-349): accumulate, maybe transfer, update the
statistics, advance the counter.  Also returns the transferred rows. -/
def MPar.update (F : Fns K) (p : MPar K) (s : MS K) (u : MU K) :
    Except PyErr (MS K × List (MT K)) := do
  let a ← p.accumulate s u
  let r ← p.doTransfer F { s with chi := a.chi, qd := a.qd } u
  .ok ({ r.1 with avg := p.computeSparsity r.1 a.kx a.kd, idx := r.1.idx + 1 }, r.2)

/-- A sequence of updates, with the transferred rows of each of them. -/
def MPar.run (F : Fns K) (p : MPar K) : MS K → List (MU K) →
    Except PyErr (MS K × List (List (MT K)))
  | s, [] => .ok (s, [])
  | s, u :: us => do
    let r ← p.update F s u
    let q ← p.run F r.1 us
    .ok (q.1, r.2 :: q.2)

/-- `getAvgSparsity` (rpu_mixedprec_device_base.h:122). -/
def MPar.avgSparsity (p : MPar K) (s : MS K) : K := if p.sparsity then s.avg else 0

/-- `onSetWeights` (rpu_mixedprec_device.cpp:351-360, rpu_mixedprec_device_base.cpp:347-360): `chi`
and the counters are zeroed, then the analog device clips. -/
def MPar.setWeights (_p : MPar K) (s : MS K) (v g : Nat → K) : MS K :=
  { s with
    chi := fun _ _ => 0, row := 0, idx := 0, avg := 0,
    dev := s.dev.mapSt fun k c => onSet s.dev.kd s.dev.par (s.dev.cell k) c (v k) (g k) }

/-- `setChi` (rpu_mixedprec_device.cpp:368-372), the last block of `setHiddenWeights`
(rpu_mixedprec_device_base.cpp:389-407). -/
def MPar.setChi (p : MPar K) (s : MS K) (v : Nat → K) : MS K :=
  { s with chi := fun j i => v (j * p.xSize + i) }

/-- `getChi` (rpu_mixedprec_device.cpp:362-366): flat index. -/
def MPar.getChi (p : MPar K) (s : MS K) (k : Nat) : K := s.chi (k / p.xSize) (k % p.xSize)

end Aihw.Pulsed

import Verif.Pulsed.ChoppedProps2

/-!
# Dynamic transfer compound (AGAD)

Models `DynamicTransferRPUDevice::readAndUpdate` (rpu_dynamic_transfer_device.cpp:197-344) and its
parameters (rpu_dynamic_transfer_device.cpp:51-60) on top of the update cycle of the base class
(rpu_transfer_device.cpp:474-556) and the sign handling inherited from the chopped class.

Simplifications: two devices and one read per transfer (anything else is fatal,
rpu_dynamic_transfer_device.cpp:213-220); the experimental feedback of the fast learning rate only
changes the count learning rate, which is an argument of each update; floating point rounding is
ignored.
-/
namespace Aihw.Pulsed

variable {K : Type} [Field K] [LinearOrder K] [IsStrictOrderedRing K] [FloorRing K]

/-- One read of the fast device (ghost): slice, transfer counter, the vector read, the reference
subtracted from it, the scale, the signs, the steps requested, whether they were written, and whether
the chopper switched after the read. -/
structure DRd (K : Type) where
  c : Nat
  ctr : Nat
  y : Nat → K
  ref : Nat → K
  fac : K
  flip : Nat → Bool
  n : Nat → ℤ
  wrote : Bool
  switched : Bool

/-- State: base class state, `transfer_buffer_vec_[0]`, choppers, `transfer_counter_`,
`running_mean_`, `past_mean_`, `in_chopper_switched_` (rpu_dynamic_transfer_device.h) and the ghost
list of reads. -/
structure DS (K : Type) where
  ts : TS K
  buf : Nat → K
  inC : Nat → Bool
  outC : Nat → Bool
  ctr : Nat
  mean : Nat → K
  past : Nat → K
  sw : Nat → Bool
  hist : List (DRd K)

/-- The part of the state the chopped class sees. -/
def DS.bs (s : DS K) : BS K :=
  { ts := s.ts, buf := fun j => if j = 0 then s.buf else fun _ => 0, inC := s.inC, outC := s.outC,
    ctr := s.ctr, hist := [] }

/-- Parameters beyond those of the chopped class. -/
structure DPar (K : Type) extends BPar K where
  tail : K
  cap : K
  correctAcc : Bool

/-- `getNumInChopSamples` (rpu_dynamic_transfer_device.cpp:51-60). -/
def DPar.nSamp (p : DPar K) : Nat := if 0 < p.inProb then (max ⌈1 / p.inProb⌉ 2).toNat else 2

/-- `sample_momentum` (rpu_dynamic_transfer_device.cpp:251). -/
def DPar.sm (p : DPar K) : K := min (p.tail / (p.nSamp : K)) 1

/-- `current_sample` (rpu_dynamic_transfer_device.cpp:250). -/
def DPar.sample (p : DPar K) (s : DS K) : Nat := s.ctr % p.nSamp + 1

/-- `lr_scale` (rpu_dynamic_transfer_device.cpp:257-263). -/
def DPar.scale (p : DPar K) (lr cnt : K) (s : DS K) : K :=
  if p.correctAcc then p.lrScale lr cnt / min (p.sample s : K) (1 / p.gran 0) else p.lrScale lr cnt

/-- `mu_past` (rpu_dynamic_transfer_device.cpp:283-295). -/
def DPar.muPast (p : DPar K) (c : Nat) (s : DS K) (o : Nat) : K :=
  if s.sw c then s.mean (p.cellOf c o) else s.past (p.cellOf c o)

/-- `omega` before the threshold (rpu_dynamic_transfer_device.cpp:282, 296-299). -/
def DPar.omega (p : DPar K) (c : Nat) (sc : K) (w : WD K) (s : DS K) (o : Nat) : K :=
  s.buf (p.cellOf c o) + (if s.inC c != s.outC o then -(w.y o - p.muPast c s o)
    else w.y o - p.muPast c s o) * sc

/-- The new buffer value (rpu_dynamic_transfer_device.cpp:301-313). -/
def DPar.next (p : DPar K) (om : K) : K :=
  if 1 ≤ |om| then
    if p.forget then om * p.momentum
    else if 0 < (p.bl : K) * p.cap then
      min (max (om - (1 - p.momentum) * (p.chopSteps om : K)) (-((p.bl : K) * p.cap))) ((p.bl : K) * p.cap)
    else om - (1 - p.momentum) * (p.chopSteps om : K)
  else om

/-- Whether the input chopper switches after the read (rpu_dynamic_transfer_device.cpp:327-338). -/
def DPar.doSwitch (p : DPar K) (s : DS K) (u : K) : Bool :=
  decide (p.sample s = p.nSamp) || (p.inRandom && decide (u < p.inProb))

/-- Whether the steps are written (rpu_dynamic_transfer_device.cpp:322). -/
def DPar.doWrite (p : DPar K) (c : Nat) (sc : K) (w : WD K) (s : DS K) : Bool :=
  (List.range p.outSize).any (fun o => decide (1 ≤ |p.omega c sc w s o|)) && decide (p.nSamp < s.ctr)

/-- `DynamicTransferRPUDevice::readAndUpdate` (rpu_dynamic_transfer_device.cpp:197-344) after the
checks; `n_steps` is the same expression as in the chopped class. -/
def DPar.one (F : Fns K) (p : DPar K) (cnt lr : K) (c : Nat) (w : WD K) (s : DS K) : DS K :=
  let sc := p.scale lr cnt s
  let n : Nat → ℤ := fun o => p.chopSteps (p.omega c sc w s o)
  { ts := if p.doWrite c sc w s then
        s.ts.setDev 1 (p.bufWrite F (s.ts.dev 1) c (p.step * p.gran 1) n w)
      else s.ts
    buf := p.setSlice c (fun o => p.next (p.omega c sc w s o)) s.buf
    inC := fun k => if k = c then (s.inC c).xor (p.doSwitch s w.u) else s.inC k
    outC := s.outC
    ctr := if c + 1 = p.inSize then s.ctr + 1 else s.ctr
    mean := p.setSlice c (fun o => s.mean (p.cellOf c o) * (1 - p.sm) + w.y o * p.sm) s.mean
    past := p.setSlice c (p.muPast c s) s.past
    sw := fun k => if k = c then p.doSwitch s w.u else s.sw k
    hist := s.hist ++ [⟨c, s.ctr, w.y, p.muPast c s, sc, fun o => s.inC c != s.outC o, n,
      p.doWrite c sc w s, p.doSwitch s w.u⟩] }

/-- One update: learning rate, batch size, count learning rate, gradient pulses, the draws for the
transfer of each device, and the result of reading any slice in that transfer. -/
structure DU (K : Type) where
  lr : K
  mBatch : Nat
  cnt : K
  sgd : List (P K)
  dr : Nat → WD K
  y : Nat → Nat → Nat → K

/-- The transfer of device `j` if its period has elapsed (rpu_transfer_device.cpp:474-514, 547-554);
`readAndUpdate` returns at once for a learning rate of zero (rpu_dynamic_transfer_device.cpp:210-212).
The transfer period is that of the chopped class. -/
def DPar.maybe (F : Fns K) (p : DPar K) (u : DU K) (s : DS K) (j : Nat) : DS K :=
  if 0 < p.chopEvery j u.mBatch ∧ s.ts.idx % p.chopEvery j u.mBatch = 0 then
    let c := s.ts.slice j
    let s' := if p.bufLR 1 j u.lr = 0 then s
      else p.one F u.cnt (p.bufLR 1 j u.lr) c { u.dr j with y := u.y j c } s
    { s' with ts := { s'.ts with slice := fun k => if k = j then (c + 1) % p.inSize else s'.ts.slice k } }
  else s

/-- The gradient pulses with chopper signs, and the update counter (rpu_transfer_device.cpp:516-540,
rpu_chopped_transfer_device.cpp:476-517). -/
def DPar.begin (F : Fns K) (p : DPar K) (s : DS K) (u : DU K) : DS K :=
  { s with ts := { s.ts.setDev 0 ((s.ts.dev 0).pulses F (u.sgd.map (p.chopPulse s.bs))) with
      idx := s.ts.idx + 1 } }

/-- `reduceToWeights` is inherited from the chopped class. -/
def DPar.red (p : DPar K) (s : DS K) : DS K := { s with ts := (p.chopReduce s.bs).ts }

/-- One update cycle for the two devices. -/
def DPar.update (F : Fns K) (p : DPar K) (s : DS K) (u : DU K) : DS K :=
  p.red (p.maybe F u (p.maybe F u (p.begin F s u) 0) 1)

/-- A history of updates. -/
def DPar.run (F : Fns K) (p : DPar K) (s : DS K) (us : List (DU K)) : DS K :=
  us.foldl (p.update F) s

end Aihw.Pulsed

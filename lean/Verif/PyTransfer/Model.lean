import Verif.Common
import Verif.Pulsed.BufferedLemmas

/-!
# Python transfer tile (`TorchTransferTile`)

Models `TransferSimulatorTile` (src/aihwkit/simulator/tiles/transfer.py:31-490): the Tiki-taka style
transfer from a gradient tile to a weight tile, in python.

Simplifications.  The two inner tiles are arbitrary: `Ops` gives the effect of a pulsed update and of a
read, with an argument `Ω` for all random draws of that call (so every theorem holds for every device).
Tensors are exact rationals; a batch is a non-empty list of rows (a 1-d tensor is a batch of one row).
`in_chop_prob` is a probability in `[0, 1]`.  The learning rate is set by the optimizer before each
update and is an argument of each update.
-/
namespace Aihw.PyTransfer

open Aihw.Pulsed (trunc0)

/-- Effect of the inner tiles: the update of the gradient tile with a learning rate and a batch, the
read of slice `k` of the gradient tile (transfer.py:255-263), and the update of the weight tile with a
one-hot vector for slice `k` and a vector of values (transfer.py:294-311). -/
structure Ops (G W Ω : Type) where
  gUpd : ℚ → Mat → Mat → Ω → G → G
  gRead : Nat → Ω → G → Nat → ℚ
  wUpd : Nat → (Nat → ℚ) → Ω → W → W

/-- Settings (transfer.py:63-126 and the fields of the compound device); `granA`, `granC` are
`from_weight_granularity` and `to_weight_granularity`, `lrAuto` is `lr_a_auto_scale`. -/
structure Cfg where
  xSize : Nat
  dSize : Nat
  cols : Bool
  every : ℚ
  unitsMB : Bool
  nReads : Nat
  dynamic : Bool
  correctAcc : Bool
  autoScale : Bool
  autoMom : ℚ
  lrAuto : ℚ
  fastLr : ℚ
  bufGran : ℚ
  autoGran : ℚ
  granA : ℚ
  granC : ℚ
  correctGrad : Bool
  inProb : ℚ
  inRandom : Bool
  tail : ℚ
  momentum : ℚ
  forget : Bool

/-- `t_in_size` (transfer.py:105). -/
def Cfg.tIn (c : Cfg) : Nat := if c.cols then c.xSize else c.dSize

/-- `t_out_size` (transfer.py:106). -/
def Cfg.tOut (c : Cfg) : Nat := if c.cols then c.dSize else c.xSize

/-- One read of the gradient tile as seen from outside (ghost): slice, learning rate `lr_h`, chopper
value used, vector read, reference subtracted, steps, whether the chopper switched, the draws of the
write. -/
structure Rd (Ω : Type) where
  k : Nat
  lrH : ℚ
  sign : ℚ
  y : Nat → ℚ
  ref : Nat → ℚ
  n : Nat → ℤ
  switched : Bool
  ωw : Ω

/-- One update of the gradient tile (ghost): learning rate, inputs and errors it was called with. -/
structure GU where
  lr : ℚ
  x : Mat
  d : Mat

/-- The tile (transfer.py:66-126): the two tiles, `update_counter`, `chop_counter`, `transfer_idx`,
`m_x`, `m_d`, `hidden_weight`, `past_mean_weight`, `reference_weight`, `chopper`, and ghost logs. -/
structure St (G W Ω : Type) where
  g : G
  w : W
  uc : Nat
  cc : Nat
  idx : Nat
  mx : ℚ
  md : ℚ
  hid : Nat → Nat → ℚ
  past : Nat → Nat → ℚ
  ref : Nat → Nat → ℚ
  chop : Nat → ℚ
  reads : List (Rd Ω)
  glog : List GU

/-- One call of `update`: inputs, errors, flags (`bias`, `in_trans` or `out_trans`), learning rate, the
draw of `rand(1)` and the draws of the inner tiles. -/
structure Upd (Ω : Type) where
  x : Mat
  d : Mat
  flags : Bool
  lr : ℚ
  rnd : ℚ
  ωg : Ω
  ωr : Ω
  ωw : Ω

/-- `transfer_every` in samples (transfer.py:186-189). -/
def Cfg.te (c : Cfg) (m : Nat) : Nat := ⌈if c.unitsMB then (m : ℚ) * c.every else c.every⌉.toNat

/-- The checks at the start of `update` (transfer.py:173-180, 191-193). -/
def Cfg.rejects {Ω : Type} (c : Cfg) (u : Upd Ω) : Bool :=
  u.flags || decide (c.nReads ≠ 1) || decide (c.every < 0) || (c.dynamic && c.correctAcc)

/-- Running means and gradient learning rate (transfer.py:197-211). -/
def Cfg.lrA {G W Ω : Type} (c : Cfg) (s : St G W Ω) (u : Upd Ω) : ℚ × ℚ × ℚ :=
  if c.autoScale then
    let tau := (1 - c.autoMom) / (u.x.length : ℚ)
    let mx := (1 - tau) * s.mx + tau * absMax u.x.flatten
    let md := (1 - tau) * s.md + tau * absMax u.d.flatten
    (if 0 < mx ∧ 0 < md then c.lrAuto / (mx * md) else c.lrAuto, mx, md)
  else (c.fastLr, s.mx, s.md)

/-- `x_input *= self.chopper`, in place (transfer.py:216-217). -/
def chopRows (chop : Nat → ℚ) (x : Mat) : Mat := x.map fun r => r.mapIdx fun j v => v * chop j

/-- Gradient accumulation (transfer.py:213-220). -/
def Cfg.grad {G W Ω : Type} (o : Ops G W Ω) (c : Cfg) (s : St G W Ω) (u : Upd Ω) : St G W Ω :=
  { s with
    g := o.gUpd (c.lrA s u).1 (chopRows s.chop u.x) u.d u.ωg s.g
    mx := (c.lrA s u).2.1
    md := (c.lrA s u).2.2
    uc := s.uc + u.x.length
    glog := s.glog ++ [⟨(c.lrA s u).1, chopRows s.chop u.x, u.d⟩] }

/-- `buffer_granularity` (transfer.py:232-240). -/
def Cfg.unit (c : Cfg) (te : Nat) : ℚ :=
  let b := if 0 < c.bufGran then c.bufGran else 1
  let b := if 0 < c.autoGran then b * (c.granA * c.autoGran / ((c.tIn : ℚ) * (te : ℚ))) else b * c.granA
  if c.correctGrad then b * (c.granC / c.granA) else b

/-- `lr_h` (transfer.py:239-243), with the division errors of python floats. -/
def Cfg.lrH (c : Cfg) (te : Nat) (lr lrA : ℚ) : Except PyErr ℚ :=
  if c.correctGrad then
    if c.granA = 0 ∨ lrA = 0 ∨ c.unit te = 0 then .error .zeroDivision
    else .ok (lr / lrA / c.unit te)
  else if c.unit te = 0 then .error .zeroDivision
  else .ok (lr / c.unit te)

/-- `chop_period` (transfer.py:245). -/
def Cfg.period (c : Cfg) : Nat := if 0 < c.inProb then (roundHE (1 / c.inProb)).toNat else 1

/-- `beta` (transfer.py:267). -/
def Cfg.beta (c : Cfg) : ℚ := min (c.tail / (c.period : ℚ)) 1

/-- `transfer_idx` before the read (transfer.py:251-253). -/
def Cfg.nextIdx {G W Ω : Type} (c : Cfg) (s : St G W Ω) : Nat := (s.idx + 1) % c.tIn

/-- `chop_counter` after the read of slice `k` (transfer.py:281-288). -/
def Cfg.nextCC {G W Ω : Type} (c : Cfg) (s : St G W Ω) (k : Nat) : Nat :=
  if c.inProb ≠ 0 ∧ c.inRandom = false ∧ k = 0 then (s.cc + 1) % c.period else s.cc

/-- `switch_chopper` (transfer.py:281-288). -/
def Cfg.switch {G W Ω : Type} (c : Cfg) (s : St G W Ω) (u : Upd Ω) (k : Nat) : Bool :=
  if c.inProb ≠ 0 then
    if c.inRandom then decide (u.rnd < c.inProb) else decide (c.nextCC s k = 0)
  else false

/-- The reference subtracted from the read vector (zero for the chopped compound). -/
def Cfg.refOf {G W Ω : Type} (c : Cfg) (s : St G W Ω) (k i : Nat) : ℚ := if c.dynamic then s.ref k i else 0

/-- `hidden_weight[k]` after accumulation (transfer.py:266-271). -/
def Cfg.acc {G W Ω : Type} (o : Ops G W Ω) (c : Cfg) (s : St G W Ω) (u : Upd Ω) (lrH : ℚ) (k i : Nat) : ℚ :=
  s.hid k i + lrH * s.chop k * (o.gRead k u.ωr s.g i - c.refOf s k i)

/-- `hidden_weight[k]` after the write values are taken out (transfer.py:274-278). -/
def Cfg.left (c : Cfg) (h : ℚ) : ℚ :=
  if c.forget then if trunc0 h = 0 then h else c.momentum
  else h + (-(trunc0 h : ℚ)) * (1 - c.momentum)

/-- Assignment to row `k`. -/
def setRow (a : Nat → Nat → ℚ) (k : Nat) (v : Nat → ℚ) : Nat → Nat → ℚ := fun k' i => if k' = k then v i else a k' i

/-- The write to the weight tile, skipped if all values are zero (transfer.py:293-311). -/
def Cfg.write {G W Ω : Type} (o : Ops G W Ω) (c : Cfg) (n : Nat → ℤ) (k : Nat) (ω : Ω) (w : W) : W :=
  if (List.range c.tOut).all fun i => decide (n i = 0) then w
  else o.wUpd k (fun i => -(n i : ℚ)) ω w

/-- The transfer of one slice (transfer.py:251-315), `lrH` computed before. -/
def Cfg.transfer {G W Ω : Type} (o : Ops G W Ω) (c : Cfg) (s : St G W Ω) (u : Upd Ω) (lrH : ℚ) : St G W Ω :=
  let k := c.nextIdx s
  let n : Nat → ℤ := fun i => trunc0 (c.acc o s u lrH k i)
  let past := if c.dynamic then
      setRow s.past k fun i => (1 - c.beta) * s.past k i + c.beta * o.gRead k u.ωr s.g i
    else s.past
  { s with
    idx := k
    w := c.write o n k u.ωw s.w
    hid := setRow s.hid k fun i => c.left (c.acc o s u lrH k i)
    past := past
    ref := if c.dynamic && c.switch s u k then setRow s.ref k (past k) else s.ref
    cc := c.nextCC s k
    chop := if c.switch s u k then fun j => if j = k then -s.chop k else s.chop j else s.chop
    reads := s.reads ++ [⟨k, lrH, s.chop k, o.gRead k u.ωr s.g, c.refOf s k, n, c.switch s u k, u.ωw⟩] }

/-- The transfer with its errors: `chopper` has `x_size` entries, so reading entry `k` of it fails for
`k ≥ x_size` (after `transfer_idx` was advanced; transfer.py:251, 266-271). -/
def Cfg.tryTransfer {G W Ω : Type} (o : Ops G W Ω) (c : Cfg) (te : Nat) (lrA : ℚ) (s : St G W Ω) (u : Upd Ω) :
    St G W Ω × Option PyErr :=
  match c.lrH te u.lr lrA with
  | .error e => (s, some e)
  | .ok lrH => if c.nextIdx s < c.xSize then (c.transfer o s u lrH, none)
      else ({ s with idx := c.nextIdx s }, some .indexError)

/-- `update` (transfer.py:157-315) after the checks: gradient accumulation, counter, and the transfer
if the period has elapsed. -/
def Cfg.body {G W Ω : Type} (o : Ops G W Ω) (c : Cfg) (s : St G W Ω) (u : Upd Ω) : St G W Ω × Option PyErr :=
  let te := c.te u.x.length
  let s' := c.grad o s u
  if te = 0 then (s', some .zeroDivision)
  else if s.uc % te + u.x.length < te then (s', none)
  else if 2 * te ≤ s.uc % te + u.x.length then (s', some .configError)
  else c.tryTransfer o te (c.lrA s u).1 s' u

/-- `update` (transfer.py:157-315): the new state, the error if any, and the tensor `x_input` of the
caller afterwards. -/
def Cfg.update {G W Ω : Type} (o : Ops G W Ω) (c : Cfg) (s : St G W Ω) (u : Upd Ω) :
    St G W Ω × Option PyErr × Mat :=
  if c.rejects u then (s, some .configError, u.x)
  else ((c.body o s u).1, (c.body o s u).2, chopRows s.chop u.x)

/-- A history of updates; errors are caught by the caller, who carries on. -/
def Cfg.run {G W Ω : Type} (o : Ops G W Ω) (c : Cfg) (s : St G W Ω) (us : List (Upd Ω)) : St G W Ω :=
  us.foldl (fun s u => (c.update o s u).1) s

/-- The errors of a history. -/
def Cfg.errors {G W Ω : Type} (o : Ops G W Ω) (c : Cfg) : St G W Ω → List (Upd Ω) → List (Option PyErr)
  | _, [] => []
  | s, u :: us => (c.update o s u).2.1 :: c.errors o (c.update o s u).1 us

/-- A new tile (transfer.py:66-126). -/
def fresh {G W Ω : Type} (g : G) (w : W) : St G W Ω :=
  { g := g, w := w, uc := 0, cc := 0, idx := 0, mx := 0, md := 0, hid := fun _ _ => 0,
    past := fun _ _ => 0, ref := fun _ _ => 0, chop := fun _ => 1, reads := [], glog := [] }

/-- What loading a `state_dict` of the tile restores in a new tile (
transfer.py:440-476: the states of the two inner tiles; the torch
buffers `hidden_weight`, `past_mean_weight`, `reference_weight`, `chopper`): everything except
`update_counter`, `chop_counter`, `transfer_idx`, `m_x`, `m_d`, which are plain attributes. -/
def restore {G W Ω : Type} (s t : St G W Ω) : St G W Ω :=
  { t with g := s.g, w := s.w, hid := s.hid, past := s.past, ref := s.ref, chop := s.chop }

end Aihw.PyTransfer

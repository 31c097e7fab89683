import Verif.Pulsed.VectorProps2

/-!
# C89: decay, diffusion and reset of tiles
(tiles/rpucuda.py:371-448, 484-499, the bindings rpu_base_src/rpu_base_tiles.cpp:276-405, rpucuda/rpu.cpp:1556-1622,
rpucuda/rpu_pulsed.cpp:189-224 and the devices)

* The operations of one pulsed device and of the unit cells are those of `Verif/Pulsed`; here the tile that calls them.
* All draws of random numbers are arguments, by device and cell.
-/
namespace Aihw.Decay
open Aihw Aihw.Pulsed

variable {K : Type} [Field K] [LinearOrder K] [IsStrictOrderedRing K] [FloorRing K]

/-- Parameters of a floating-point tile or of an ideal device (rpu_simple_device.h:36-60). -/
structure SimplePar (K : Type) where
  lifetime : K
  diffusion : K
  resetStd : K

/-- `decay_rate` (rpu.cpp:1558-1559, rpu_simple_device.cpp:98-99). -/
def decayRate (p : SimplePar K) : K := if 1 < p.lifetime then 1 / p.lifetime else 0

/-- `decay_scale` (rpu.cpp:1560, rpu_simple_device.cpp:100). -/
def decayScale (p : SimplePar K) (alpha : K) : K := 1 - alpha * decayRate p

/-- `decayWeights` without device parameters (rpu.cpp:1562-1575, rpu_simple_device.cpp:102-115), with
`bias_no_decay = false`. -/
def simpleDecay (p : SimplePar K) (alpha : K) (w : Nat → K) : Nat → K :=
  if 0 < decayScale p alpha ∧ decayScale p alpha < 1 then fun k => decayScale p alpha * w k else w

/-- `diffuseWeights` without device parameters (rpu.cpp:1609-1620, rpu_simple_device.cpp:124-134). -/
def simpleDiffuse (p : SimplePar K) (g w : Nat → K) : Nat → K :=
  if 0 < p.diffusion then fun k => w k + p.diffusion * g k else w

/-- `reset_prob == 1 || rng.sampleUniform() < reset_prob` (rpu_pulsed_device.cpp:482, rpu_simple_device.cpp:162). -/
def fires (prob u : K) : Bool := decide (prob = 1) || decide (u < prob)

/-- `resetCols` of the ideal device (rpu_simple_device.cpp:148-170). -/
def simpleReset (p : SimplePar K) (x : Nat) (start n : ℤ) (sel : Nat → Bool) (g w : Nat → K) : Nat → K := fun k =>
  if inCols x start (if 0 ≤ n then n else x) ((k % x : Nat) : ℤ) && sel k then
    (if 0 < p.resetStd then p.resetStd * g k else 0) else w k

/-- The tiles.  `vector` stands for all unit cells derived from `VectorRPUDevice` without an own implementation of the
operations; `transfer hidden` for `TransferRPUDevice` with `fully_hidden_ = hidden`; `mixed` for
`MixedPrecRPUDeviceBase`, which calls its only device (rpu_mixedprec_device_base.cpp:454-487). -/
inductive Tile (K : Type) where
  | float (p : SimplePar K) (w : Nat → K)
  | ideal (p : SimplePar K) (x : Nat) (w : Nat → K)
  | pulsed (d : Dev K)
  | vector (p : VPar K) (s : VS K)
  | transfer (hidden : Bool) (p : VPar K) (s : VS K)
  | mixed (d : Dev K)

/-- The weights of the tile. -/
def Tile.weights : Tile K → Nat → K
  | .float _ w => w
  | .ideal _ _ w => w
  | .pulsed d => fun k => (d.st k).vis
  | .vector _ s => s.vis
  | .transfer _ _ s => s.vis
  | .mixed d => fun k => (d.st k).vis

/-- The calls.  Draws: `g` for the operation, `n` for the write noise, by device and cell. -/
inductive Call (K : Type) where
  /-- `decay_weights(alpha)` -/
  | decay (alpha : K) (n : Nat → Nat → K)
  /-- `diffuse_weights()` -/
  | diffuse (g n : Nat → Nat → K)
  /-- `reset_columns(start_column_idx, num_columns, reset_prob)` -/
  | reset (start cols : ℤ) (prob : K) (u g n : Nat → Nat → K)

/-- `reset(reset_prob)` (rpucuda.py:431-448). -/
def Call.resetAll (prob : K) (u g n : Nat → Nat → K) : Call K := .reset 0 (-1) prob u g n

/-- The call as an operation of a unit cell; decay with `bias_no_decay = false` (rpu_base_tiles.cpp:278-281). -/
def Call.op : Call K → VOp K
  | .decay a n => .decay a false n
  | .diffuse g n => .diffuse g n
  | .reset st c pr u g n => .resetCols st c (fun j k => fires pr (u j k)) g n

/-- One device executes the call; `j` selects its draws. -/
def Call.dev (F : Fns K) (c : Call K) (d : Dev K) (j : Nat) : Dev K := c.op.onDev F (fun _ => d) j

/-- Whether a call is a reset with probability 0, which does nothing (rpu_pulsed.cpp:219-224). -/
def Call.idle : Call K → Bool
  | .reset _ _ pr _ _ _ => decide (pr = 0)
  | _ => false

/-- The ideal device. -/
def idealExec (p : SimplePar K) (x : Nat) (w : Nat → K) : Call K → Nat → K
  | .decay a _ => simpleDecay p a w
  | .diffuse g _ => simpleDiffuse p (g 0) w
  | .reset st c pr u g _ => simpleReset p x st c (fun k => fires pr (u 0 k)) (g 0) w

/-- The last device of a fully hidden transfer compound works on the weights of the tile, and not on its entry of
`weights_vec_`, whose content stays (rpu_transfer_device.cpp:617-620). -/
def onWeights (F : Fns K) (c : Call K) (d : Dev K) (j : Nat) (w : Nat → K) : Dev K × (Nat → K) :=
  let r := c.dev F (d.mapSt fun k s => ⟨w k, s.per⟩) j
  (r.mapSt fun k s => ⟨(d.st k).vis, s.per⟩, fun k => (r.st k).vis)

/-- `LOOP_WITH_HIDDEN` with `fully_hidden_` (rpu_transfer_device.cpp:613-621). -/
def hiddenExec (F : Fns K) (p : VPar K) (s : VS K) (c : Call K) : VS K :=
  let last := p.n - 1
  let r := onWeights F c (s.dev last) last s.vis
  { s with dev := fun j => if j = last then r.1 else if j < last then c.dev F (s.dev j) j else s.dev j, vis := r.2 }

/-- `reduceToWeights` of a transfer compound (rpu_transfer_device.cpp:604-610). -/
def transferReduce (hidden : Bool) (p : VPar K) (s : VS K) : VS K := if hidden then s else p.reduce s

/-- `resetCols` of a transfer compound: the first device only (rpu_transfer_device.cpp:645-651). -/
def transferReset (F : Fns K) (hidden : Bool) (p : VPar K) (s : VS K) (c : Call K) : VS K :=
  transferReduce hidden p { s with dev := fun j => if j = 0 then c.dev F (s.dev 0) 0 else s.dev j }

/-- The call of a transfer compound (rpu_transfer_device.cpp:613-651). -/
def transferExec (F : Fns K) (hidden : Bool) (p : VPar K) (s : VS K) (c : Call K) : VS K :=
  match c with
  | .reset .. => transferReset F hidden p s c
  | _ => if hidden then hiddenExec F p s c else p.each F s c.op

/-- A call on a tile that is not idle. -/
def Tile.act (F : Fns K) (c : Call K) : Tile K → Tile K
  | .float p w => .float p (idealExec p 0 w c)
  | .ideal p x w => .ideal p x (idealExec p x w c)
  | .pulsed d => .pulsed (c.dev F d 0)
  | .vector p s => .vector p (p.each F s c.op)
  | .transfer h p s => .transfer h p (transferExec F h p s c)
  | .mixed d => .mixed (c.dev F d 0)

/-- Whether a call is refused: floating-point tiles have no reset (rpu.h:343-345). -/
def Tile.refuses (t : Tile K) (c : Call K) : Bool :=
  match t, c with
  | .float .., .reset .. => true
  | _, _ => false

/-- A call on a tile. -/
def Tile.exec (F : Fns K) (t : Tile K) (c : Call K) : Except PyErr (Tile K) :=
  if t.refuses c then .error .runtimeError
  else if c.idle then .ok t
  else .ok (t.act F c)

/-- Several calls. -/
def Tile.run (F : Fns K) : Tile K → List (Call K) → Except PyErr (Tile K)
  | t, [] => .ok t
  | t, c :: cs => match t.exec F c with
    | .error e => .error e
    | .ok t => Tile.run F t cs

/-- The device part of a configuration (devices.py:40-65, 284-292, 327-335; compounds.py:51-57, 1085-1091). -/
inductive PyDev (K : Type) where
  | simple (lifetime diffusion : K)
  | unitCell (l : List (PyDev K))
  | mixedPrec (d : PyDev K)

mutual
/-- `requires_decay()`. -/
def PyDev.requiresDecay : PyDev K → Bool
  | .simple life _ => decide (0 < life)
  | .unitCell l => anyDecay l
  | .mixedPrec d => d.requiresDecay
/-- `any(dev.requires_decay() for dev in self.unit_cell_devices)`. -/
def anyDecay : List (PyDev K) → Bool
  | [] => false
  | d :: l => d.requiresDecay || anyDecay l
end

mutual
/-- `requires_diffusion()`. -/
def PyDev.requiresDiffusion : PyDev K → Bool
  | .simple _ diff => decide (0 < diff)
  | .unitCell l => anyDiffusion l
  | .mixedPrec d => d.requiresDiffusion
/-- `any(dev.requires_diffusion() for dev in self.unit_cell_devices)`. -/
def anyDiffusion : List (PyDev K) → Bool
  | [] => false
  | d :: l => d.requiresDiffusion || anyDiffusion l
end

/-- The draws of one mini-batch. -/
structure Draws (K : Type) where
  g : Nat → Nat → K
  n : Nat → Nat → K
  n' : Nat → Nat → K

/-- The calls of `post_update_step` (rpucuda.py:484-499): diffusion first, then decay with `alpha = 1`. -/
def PyDev.calls (c : PyDev K) (r : Draws K) : List (Call K) :=
  (if c.requiresDiffusion then [.diffuse r.g r.n] else []) ++ (if c.requiresDecay then [.decay 1 r.n'] else [])

/-- `post_update_step()`. -/
def postUpdate (F : Fns K) (c : PyDev K) (t : Tile K) (r : Draws K) : Except PyErr (Tile K) := t.run F (c.calls r)

end Aihw.Decay

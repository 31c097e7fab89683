import Verif.Common
import Mathlib.Data.List.Perm.Basic
import Mathlib.Data.Nat.Digits.Defs

/-!
# Model of the extra state of the C++ tiles

`dump_extra` / `load_extra` (src/aihwkit/simulator/rpu_base_src/rpu_base_tiles.cpp:90-113) of the C++ tiles and the forward / backward
parameters built on them (src/aihwkit/simulator/tiles/rpucuda.py:286-369).

Keys are character lists.  Simplifications: numbers are exact (the code stores doubles, which hold all `float` values and
integers below 2^53); the object after an exception inside `load_extra` is not modelled; sizes of the vectors are not
checked by the code and not modelled.  The random number generators are not part of the extra state.
-/
namespace Aihw.Extra

abbrev Key := List Char

def key (s : String) : Key := s.toList

/-- src/rpucuda/utility_functions.h:159 `state_t` (an unordered map). -/
abbrev Dict := List (Key × Vec)

/-- The order in which an unordered map is visited is not specified. -/
structure Order where
  ord : Dict → Dict
  perm : ∀ d, (ord d).Perm d

/-- `state.at(key)` / `state.count(key)`. -/
def find : Dict → Key → Option Vec
  | [], _ => none
  | (a, v) :: d, k => if a = k then some v else find d k

/-- `state[key] = value`. -/
def insert (d : Dict) (k : Key) (v : Vec) : Dict := (k, v) :: d.filter fun x => decide (x.1 ≠ k)

/-- A fresh map filled by a sequence of `RPU::insert`. -/
def fill (d : Dict) (l : List (Key × Vec)) : Dict := l.foldl (fun d x => insert d x.1 x.2) d

/-- The key below a prefix. -/
def sub (p k : Key) : Key := p ++ '.' :: k

/-- src/rpucuda/utility_functions.cpp:115-123, loop body.  The test is on the key *without* the prefix. -/
def insertLoop (p : Key) : Dict → Dict → Except PyErr Dict
  | extra, [] => .ok extra
  | extra, (k, v) :: st =>
    if (find extra k).isSome then .error .runtimeError else insertLoop p (insert extra (sub p k) v) st

/-- src/rpucuda/utility_functions.cpp:115-123 `insertWithPrefix`. -/
def insertWithPrefix (o : Order) (extra st : Dict) (p : Key) : Except PyErr Dict := insertLoop p extra (o.ord st)

/-- The rest of a key after a prefix. -/
def strip : Key → Key → Option Key
  | [], '.' :: k => some k
  | c :: p, d :: k => if c = d then strip p k else none
  | _, _ => none

/-- src/rpucuda/utility_functions.cpp:126-137 `selectWithPrefix`. -/
def selectWithPrefix (extra : Dict) (p : Key) : Dict := extra.filterMap fun x => (strip p x.1).map fun k => (k, x.2)

/-! ## Values (src/rpucuda/utility_functions.cpp:25-111) -/

def encB (b : Bool) : ℚ := if b then 1 else 0
def decB (x : ℚ) : Bool := decide (x ≠ 0)
def encI (n : Int) : ℚ := n
/-- C++ conversion of a double to an integer type: truncation. -/
def decI (x : ℚ) : Int := if x < 0 then -⌊-x⌋ else ⌊x⌋

/-- Vectors. -/
def loadV (st : Dict) (k : Key) (old : Vec) (strict : Bool) : Except PyErr Vec :=
  match find st k with
  | some v => .ok v
  | none => if strict then .error .runtimeError else .ok old

/-- Vectors of another type. -/
def loadL {α : Type} (dec : ℚ → α) (st : Dict) (k : Key) (old : List α) (strict : Bool) : Except PyErr (List α) :=
  match find st k with
  | some v => .ok (v.map dec)
  | none => if strict then .error .runtimeError else .ok old

/-- Single values: the first entry (undefined for an empty vector). -/
def load1 {α : Type} (dec : ℚ → α) (st : Dict) (k : Key) (old : α) (strict : Bool) : Except PyErr α :=
  match find st k with
  | some (x :: _) => .ok (dec x)
  | some [] => .error .other
  | none => if strict then .error .runtimeError else .ok old

/-! ## Weight drifter -/

structure Drift where
  active : Bool
  curT : ℚ
  prev : Vec
  w0 : Vec
  t : Vec
  nu : Vec
  deriving DecidableEq

/-- src/rpucuda/weight_drifter.cpp:68-80. -/
def Drift.dump (o : Order) (s : Drift) (extra : Dict) (p : Key) : Except PyErr Dict :=
  insertWithPrefix o extra (fill [] [(key "active", [encB s.active]), (key "current_t", [s.curT]), (key "previous_weights", s.prev),
    (key "w0", s.w0), (key "t", s.t), (key "nu", s.nu)]) p

/-- src/rpucuda/weight_drifter.cpp:83-93. -/
def Drift.load (extra : Dict) (p : Key) (strict : Bool) (s : Drift) : Except PyErr Drift := do
  let st := selectWithPrefix extra p
  let prev ← loadV st (key "previous_weights") s.prev strict
  let w0 ← loadV st (key "w0") s.w0 strict
  let t ← loadV st (key "t") s.t strict
  let nu ← loadV st (key "nu") s.nu strict
  let curT ← load1 id st (key "current_t") s.curT strict
  let active ← load1 decB st (key "active") s.active strict
  return { active, curT, prev, w0, t, nu }

/-! ## Analog passes -/

/-- src/rpucuda/rpu_forward_backward_pass.h:15-23 `MVParameter`. -/
structure MvPar where
  vOffset : Vec
  wAsym : Vec
  outNl : Vec
  outNlFactor : ℚ
  outNoise : Vec
  deriving DecidableEq

structure FbPass where
  fwd : MvPar
  bwd : MvPar
  aux : ℚ
  deriving DecidableEq

/-- src/rpucuda/rpu_forward_backward_pass.cpp:64-80, 1031-1038. -/
def FbPass.dump (o : Order) (s : FbPass) (extra : Dict) (p : Key) : Except PyErr Dict := do
  let extra ← insertWithPrefix o extra (fill [] [(key "fwd.v_offset", s.fwd.vOffset), (key "fwd.w_asymmetry", s.fwd.wAsym),
    (key "fwd.out_nonlinearity", s.fwd.outNl), (key "fwd.out_nonlinearity_factor", [s.fwd.outNlFactor]),
    (key "fwd.out_noise_values", s.fwd.outNoise),
    (key "bwd.v_offset", s.bwd.vOffset), (key "bwd.w_asymmetry", s.bwd.wAsym),
    (key "bwd.out_nonlinearity", s.bwd.outNl), (key "bwd.out_nonlinearity_factor", [s.bwd.outNlFactor]),
    (key "bwd.out_noise_values", s.bwd.outNoise)]) p
  insertWithPrefix o extra (fill [] [(key "aux_nm_value", [s.aux])]) p

/-- src/rpucuda/rpu_forward_backward_pass.cpp:84-99, 1041-1049. -/
def FbPass.load (extra : Dict) (p : Key) (strict : Bool) (s : FbPass) : Except PyErr FbPass := do
  let st := selectWithPrefix extra p
  let f1 ← loadV st (key "fwd.v_offset") s.fwd.vOffset strict
  let f2 ← loadV st (key "fwd.w_asymmetry") s.fwd.wAsym strict
  let f3 ← loadV st (key "fwd.out_nonlinearity") s.fwd.outNl strict
  let f4 ← load1 id st (key "fwd.out_nonlinearity_factor") s.fwd.outNlFactor strict
  let f5 ← loadV st (key "fwd.out_noise_values") s.fwd.outNoise strict
  let b1 ← loadV st (key "bwd.v_offset") s.bwd.vOffset strict
  let b2 ← loadV st (key "bwd.w_asymmetry") s.bwd.wAsym strict
  let b3 ← loadV st (key "bwd.out_nonlinearity") s.bwd.outNl strict
  let b4 ← load1 id st (key "bwd.out_nonlinearity_factor") s.bwd.outNlFactor strict
  let b5 ← loadV st (key "bwd.out_noise_values") s.bwd.outNoise strict
  let aux ← load1 id st (key "aux_nm_value") s.aux strict
  return { fwd := ⟨f1, f2, f3, f4, f5⟩, bwd := ⟨b1, b2, b3, b4, b5⟩, aux }

/-! ## Weight updater -/

structure Pwu where
  alloc : Bool
  dNoz : Int
  xNoz : Int
  deriving DecidableEq

/-- src/rpucuda/rpu_weight_updater.cpp:131-146 (the bit line makers dump nothing, dense_bit_line_maker.h:55, sparse_bit_line_maker.h:68;
rpu_weight_updater.h:38-39: nor does the base class). -/
def Pwu.dump (o : Order) (s : Pwu) (extra : Dict) (p : Key) : Except PyErr Dict :=
  insertWithPrefix o extra (fill [] [(key "containers_allocated", [encB s.alloc]), (key "d_noz", [encI s.dNoz]), (key "x_noz", [encI s.xNoz])]) p

/-- src/rpucuda/rpu_weight_updater.cpp:149-167.  `was_allocated` is not initialised: `junk` is its value if the key is missing. -/
def Pwu.load (junk : Bool) (extra : Dict) (p : Key) (strict : Bool) (s : Pwu) : Except PyErr Pwu := do
  let st := selectWithPrefix extra p
  let was ← load1 decB st (key "containers_allocated") junk strict
  let dNoz ← load1 decI st (key "d_noz") s.dNoz strict
  let xNoz ← load1 decI st (key "x_noz") s.xNoz strict
  return { alloc := s.alloc || was, dNoz, xNoz }

/-! ## Devices -/

/-- Fields of `PulsedRPUDeviceBase` (with `SimpleRPUDevice`). -/
structure Base where
  drift : Option Drift
  numStates : ℚ
  gran : ℚ
  deriving DecidableEq

/-- src/rpucuda/rpu_simple_device.cpp:72-78. -/
def dumpDrift (o : Order) (d : Option Drift) (extra : Dict) (p : Key) : Except PyErr Dict :=
  match d with
  | none => .ok extra
  | some s => do
    let st ← s.dump o [] (key "wdrifter")
    insertWithPrefix o extra st p

/-- src/rpucuda/rpu_simple_device.cpp:81-87. -/
def loadDrift (extra : Dict) (p : Key) (strict : Bool) (d : Option Drift) : Except PyErr (Option Drift) :=
  match d with
  | none => .ok none
  | some s => (s.load (selectWithPrefix extra p) (key "wdrifter") strict).map some

/-- src/rpucuda/rpu_pulsed_device.h:183-191. -/
def Base.dump (o : Order) (b : Base) (extra : Dict) (p : Key) : Except PyErr Dict := do
  let extra ← dumpDrift o b.drift extra p
  insertWithPrefix o extra (fill [] [(key "num_states", [b.numStates]), (key "weight_granularity", [b.gran])]) p

/-- src/rpucuda/rpu_pulsed_device.h:193-200. -/
def Base.load (extra : Dict) (p : Key) (strict : Bool) (b : Base) : Except PyErr Base := do
  let drift ← loadDrift extra p strict b.drift
  let st := selectWithPrefix extra p
  let numStates ← load1 id st (key "num_states") b.numStates strict
  let gran ← load1 id st (key "weight_granularity") b.gran strict
  return { drift, numStates, gran }

/-- Fields of `VectorRPUDevice` (also reference and one-sided cells). -/
structure VecSt where
  reduce : Vec
  devIdx : Int
  updIdx : Int
  deriving DecidableEq

/-- Fields of `ChoppedTransferRPUDevice`. -/
structure ChopSt where
  inChop : List Bool
  outChop : List Bool
  countLr : ℚ
  mX : ℚ
  mD : ℚ
  dSparsity : ℚ
  counter : Int
  deriving DecidableEq

/-- Fields of `DynamicTransferRPUDevice`. -/
structure DynSt where
  switched : List Bool
  countLrScale : ℚ
  feedback : Vec
  feedbackIdx : Int
  deriving DecidableEq

/-- Fields of `TransferRPUDevice` and its subclasses (the buffered transfer device adds none,
src/rpucuda/rpu_buffered_transfer_device.h). -/
structure TransSt where
  slices : List Int
  every : Vec
  vecs : Vec
  fb : FbPass
  pwu : Pwu
  chop : Option ChopSt
  dyn : Option DynSt
  deriving DecidableEq

/-- Devices with pulsed update: one device, or a unit cell of devices, possibly with transfer. -/
inductive Dev where
  | leaf (b : Base)
  | cell (b : Base) (subs : List Dev) (v : VecSt) (t : Option TransSt)

/-- `std::to_string`. -/
def dec (n : Nat) : Key := if n = 0 then ['0'] else (Nat.digits 10 n).reverse.map Nat.digitChar

/-- src/rpucuda/rpu_chopped_transfer_device.cpp:268-283. -/
def ChopSt.dump (o : Order) (c : ChopSt) (extra : Dict) (p : Key) : Except PyErr Dict :=
  insertWithPrefix o extra (fill [] [(key "in_chopper", c.inChop.map encB), (key "out_chopper", c.outChop.map encB),
    (key "tmp_count_lr", [c.countLr]), (key "m_x", [c.mX]), (key "m_d", [c.mD]), (key "d_sparsity", [c.dSparsity]),
    (key "transfer_counter", [encI c.counter])]) p

/-- src/rpucuda/rpu_chopped_transfer_device.cpp:286-301. -/
def ChopSt.load (extra : Dict) (p : Key) (strict : Bool) (c : ChopSt) : Except PyErr ChopSt := do
  let st := selectWithPrefix extra p
  let inChop ← loadL decB st (key "in_chopper") c.inChop strict
  let outChop ← loadL decB st (key "out_chopper") c.outChop strict
  let countLr ← load1 id st (key "tmp_count_lr") c.countLr strict
  let mX ← load1 id st (key "m_x") c.mX strict
  let mD ← load1 id st (key "m_d") c.mD strict
  let dSparsity ← load1 id st (key "d_sparsity") c.dSparsity strict
  let counter ← load1 decI st (key "transfer_counter") c.counter strict
  return { inChop, outChop, countLr, mX, mD, dSparsity, counter }

/-- src/rpucuda/rpu_dynamic_transfer_device.cpp:477-489. -/
def DynSt.dump (o : Order) (s : DynSt) (extra : Dict) (p : Key) : Except PyErr Dict :=
  insertWithPrefix o extra (fill [] [(key "in_chopper_switched", s.switched.map encB), (key "count_lr_scale", [s.countLrScale]),
    (key "feedback_data", s.feedback), (key "feedback_data_idx", [encI s.feedbackIdx])]) p

/-- src/rpucuda/rpu_dynamic_transfer_device.cpp:492-502. -/
def DynSt.load (extra : Dict) (p : Key) (strict : Bool) (s : DynSt) : Except PyErr DynSt := do
  let st := selectWithPrefix extra p
  let switched ← loadL decB st (key "in_chopper_switched") s.switched strict
  let countLrScale ← load1 id st (key "count_lr_scale") s.countLrScale strict
  let feedback ← loadV st (key "feedback_data") s.feedback strict
  let feedbackIdx ← load1 decI st (key "feedback_data_idx") s.feedbackIdx strict
  return { switched, countLrScale, feedback, feedbackIdx }

/-- An optional layer. -/
def dumpOpt {α : Type} (f : α → Dict → Key → Except PyErr Dict) (a : Option α) (extra : Dict) (p : Key) : Except PyErr Dict :=
  match a with
  | none => .ok extra
  | some a => f a extra p

def loadOpt {α : Type} (f : α → Except PyErr α) (a : Option α) : Except PyErr (Option α) :=
  match a with
  | none => .ok none
  | some a => (f a).map some

/-- src/rpucuda/rpu_transfer_device.cpp:674-688 (own layer), then the layers of the subclasses. -/
def TransSt.dump (o : Order) (t : TransSt) (extra : Dict) (p : Key) : Except PyErr Dict := do
  let st := fill [] [(key "current_slice_indices", t.slices.map encI), (key "transfer_every", t.every)]
  let st ← t.fb.dump o st (key "transfer_fb_pass")
  let st ← t.pwu.dump o st (key "transfer_pwu")
  let extra ← insertWithPrefix o extra st p
  let extra ← dumpOpt (fun c e q => ChopSt.dump o c e q) t.chop extra p
  dumpOpt (fun c e q => DynSt.dump o c e q) t.dyn extra p

/-- src/rpucuda/rpu_transfer_device.cpp:691-707, then the layers of the subclasses.  `transfer_vecs` and `transfer_every` are loaded only if
present, also if strict. -/
def TransSt.load (junk : Bool) (extra : Dict) (p : Key) (strict : Bool) (t : TransSt) : Except PyErr TransSt := do
  let st := selectWithPrefix extra p
  let slices ← loadL decI st (key "current_slice_indices") t.slices strict
  let vecs ← loadV st (key "transfer_vecs") t.vecs false
  let every ← loadV st (key "transfer_every") t.every false
  let fb ← t.fb.load st (key "transfer_fb_pass") strict
  let pwu ← t.pwu.load junk st (key "transfer_pwu") strict
  let chop ← loadOpt (ChopSt.load extra p strict) t.chop
  let dyn ← loadOpt (DynSt.load extra p strict) t.dyn
  return { slices, every, vecs, fb, pwu, chop, dyn }

mutual
/-- src/rpucuda/rpu_vector_device.cpp:327-341 (with the base class), src/rpucuda/rpu_transfer_device.cpp:674-688. -/
def Dev.dump (o : Order) : Dev → Dict → Key → Except PyErr Dict
  | .leaf b, extra, p => b.dump o extra p
  | .cell b subs v t, extra, p => do
    let extra ← b.dump o extra p
    let st ← dumpSubs o subs 0 []
    let st := fill st [(key "reduce_weightening", v.reduce), (key "current_device_idx", [encI v.devIdx]),
      (key "current_update_idx", [encI v.updIdx])]
    let extra ← insertWithPrefix o extra st p
    dumpOpt (fun s e q => TransSt.dump o s e q) t extra p
/-- src/rpucuda/rpu_vector_device.cpp:333-335. -/
def dumpSubs (o : Order) : List Dev → Nat → Dict → Except PyErr Dict
  | [], _, st => .ok st
  | d :: ds, k, st => do
    let st ← Dev.dump o d st (dec k)
    dumpSubs o ds (k + 1) st
end

mutual
/-- src/rpucuda/rpu_vector_device.cpp:344-357, src/rpucuda/rpu_transfer_device.cpp:691-707. -/
def Dev.load (junk : Bool) (strict : Bool) : Dev → Dict → Key → Except PyErr Dev
  | .leaf b, extra, p => (b.load extra p strict).map .leaf
  | .cell b subs v t, extra, p => do
    let b ← b.load extra p strict
    let st := selectWithPrefix extra p
    let subs ← loadSubs junk strict subs 0 st
    let reduce ← loadV st (key "reduce_weightening") v.reduce strict
    let devIdx ← load1 decI st (key "current_device_idx") v.devIdx strict
    let updIdx ← load1 decI st (key "current_update_idx") v.updIdx strict
    let t ← loadOpt (TransSt.load junk extra p strict) t
    return .cell b subs { reduce, devIdx, updIdx } t
/-- src/rpucuda/rpu_vector_device.cpp:351-353. -/
def loadSubs (junk : Bool) (strict : Bool) : List Dev → Nat → Dict → Except PyErr (List Dev)
  | [], _, _ => .ok []
  | d :: ds, k, st => do
    let d ← Dev.load junk strict d st (dec k)
    let ds ← loadSubs junk strict ds (k + 1) st
    return d :: ds
end

/-- Fields of the mixed precision devices; `int` are the fields of `MixedPrecIntRPUDevice`. -/
structure MixSt where
  gran : ℚ
  tmp : Vec
  row : Int
  upd : Int
  sparsity : ℚ
  pwu : Pwu
  int : Option (ℚ × ℚ)
  deriving DecidableEq

/-- The device of a tile: floating point (with its drifter), pulsed, or mixed precision (src/aihwkit/simulator/configs/compounds.py: no
drift parameters; src/rpucuda/rpu_mixedprec_device_base.cpp:121-130: around any pulsed device). -/
inductive Top where
  | simple (drift : Option Drift)
  | pulsed (d : Dev)
  | mixed (d : Dev) (m : MixSt)

/-- src/rpucuda/rpu_mixedprec_int_device.cpp:161-170. -/
def dumpInt (o : Order) (i : ℚ × ℚ) (extra : Dict) (p : Key) : Except PyErr Dict :=
  insertWithPrefix o extra (fill [] [(key "md", [i.1]), (key "mx", [i.2])]) p

/-- src/rpucuda/rpu_mixedprec_int_device.cpp:173-182. -/
def loadInt (extra : Dict) (p : Key) (strict : Bool) (i : ℚ × ℚ) : Except PyErr (ℚ × ℚ) := do
  let st := selectWithPrefix extra p
  let md ← load1 id st (key "md") i.1 strict
  let mx ← load1 id st (key "mx") i.2 strict
  return (md, mx)

/-- src/rpucuda/rpu_mixedprec_device_base.cpp:242-259, rpu_simple_device.cpp:72-78. -/
def Top.dump (o : Order) (d : Top) (extra : Dict) (p : Key) : Except PyErr Dict :=
  match d with
  | .simple dr => dumpDrift o dr extra p
  | .pulsed d => d.dump o extra p
  | .mixed d m => do
    let st ← d.dump o [] (key "rpu_device")
    let st ← m.pwu.dump o st (key "transfer_pwu")
    let st := fill st [(key "granularity", [m.gran]), (key "transfer_tmp", m.tmp), (key "current_row_index", [encI m.row]),
      (key "current_update_index", [encI m.upd]), (key "avg_sparsity", [m.sparsity])]
    let extra ← insertWithPrefix o extra st p
    dumpOpt (fun i e q => dumpInt o i e q) m.int extra p

/-- src/rpucuda/rpu_mixedprec_device_base.cpp:262-276. -/
def Top.load (junk : Bool) (strict : Bool) (d : Top) (extra : Dict) (p : Key) : Except PyErr Top :=
  match d with
  | .simple dr => (loadDrift extra p strict dr).map .simple
  | .pulsed d => (d.load junk strict extra p).map .pulsed
  | .mixed d m => do
    let st := selectWithPrefix extra p
    let d ← d.load junk strict st (key "rpu_device")
    let pwu ← m.pwu.load junk st (key "transfer_pwu") strict
    let gran ← load1 id st (key "granularity") m.gran strict
    let tmp ← loadV st (key "transfer_tmp") m.tmp strict
    let row ← load1 decI st (key "current_row_index") m.row strict
    let upd ← load1 decI st (key "current_update_index") m.upd strict
    let sparsity ← load1 id st (key "avg_sparsity") m.sparsity strict
    let int ← loadOpt (loadInt extra p strict) m.int
    return .mixed d { gran, tmp, row, upd, sparsity, pwu, int }

/-! ## Tiles -/

structure Modif where
  savedBias : Vec
  inTest : Bool
  deriving DecidableEq

/-- A new weight modifier (src/rpucuda/weight_modifier.h:168-169). -/
def Modif.fresh : Modif := ⟨[], false⟩

/-- src/rpucuda/weight_modifier.cpp:218-226. -/
def Modif.dump (o : Order) (s : Modif) (extra : Dict) (p : Key) : Except PyErr Dict :=
  insertWithPrefix o extra (fill [] [(key "saved_bias", s.savedBias), (key "enable_during_test", [encB s.inTest])]) p

/-- The pulsed part of a tile (src/rpucuda/rpu_pulsed.h:116-121). -/
structure PulsedSt where
  pwu : Pwu
  fb : FbPass
  dev : Top

/-- A C++ tile (src/rpucuda/rpu.h:669-705): floating point without, otherwise with the pulsed part.  Weights and device parameters
are not part of the extra state. -/
structure Tile where
  fb : Option (Vec × Modif)
  wbuf : Vec
  delayed : Bool
  drift : Option Drift
  lr : ℚ
  flickerP : Vec
  flickerS : List Int
  lastM : Int
  fwdAlpha : ℚ
  bwdAlpha : ℚ
  pulsed : Option PulsedSt

/-- src/rpucuda/rpu.cpp:416-419. -/
def dumpFb (o : Order) (f : Option (Vec × Modif)) (st : Dict) : Except PyErr Dict :=
  match f with
  | none => .ok st
  | some (w, m) => m.dump o (insert st (key "fb_weights") w) (key "fb_weight_modifier")

/-- src/rpucuda/rpu.cpp:405-449 (clipper and remapper dump nothing: weight_clipper.h:73, weight_remapper.h:115). -/
def Tile.dumpSimple (o : Order) (t : Tile) (extra : Dict) (p : Key) : Except PyErr Dict := do
  let st ← dumpFb o t.fb []
  let st := if t.delayed then insert st (key "weights_buffer") t.wbuf else st
  let st ← dumpOpt (fun d e q => Drift.dump o d e q) t.drift st (key "wdrifter")
  let st := fill st [(key "learning_rate", [t.lr]), (key "flicker_probs", t.flickerP), (key "flicker_states", t.flickerS.map encI),
    (key "use_delayed_update", [encB t.delayed]), (key "last_update_m_batch", [encI t.lastM]), (key "fwd_alpha", [t.fwdAlpha]),
    (key "bwd_alpha", [t.bwdAlpha])]
  insertWithPrefix o extra st p

/-- src/rpucuda/rpu_pulsed.cpp:433-444 (own layer). -/
def PulsedSt.dump (o : Order) (s : PulsedSt) (extra : Dict) (p : Key) : Except PyErr Dict := do
  let st ← s.pwu.dump o [] (key "pwu")
  let st ← s.fb.dump o st (key "fb_pass")
  let st ← s.dev.dump o st (key "rpu_device")
  insertWithPrefix o extra st p

/-- rpu_base_tiles.cpp:90-95 `dump_extra`. -/
def Tile.dumpExtra (o : Order) (t : Tile) : Except PyErr Dict := do
  let extra ← t.dumpSimple o [] (key "rpu")
  dumpOpt (fun s e q => PulsedSt.dump o s e q) t.pulsed extra (key "rpu")

/-- src/rpucuda/rpu.cpp:456-467.  The saved modifier is not loaded. -/
def loadFb (st : Dict) (f : Option (Vec × Modif)) : Option (Vec × Modif) :=
  match find st (key "fb_weights") with
  | none => f
  | some w => if w = [] then f else some (w, (f.map (·.2)).getD Modif.fresh)

/-- src/rpucuda/rpu.cpp:469-474: the state of the drifter is loaded if there is a key `wdrifter`.  `new` is a new drifter
(src/rpucuda/weight_drifter.cpp). -/
def loadTileDrift (new : Drift) (st : Dict) (strict : Bool) (d : Option Drift) : Except PyErr (Option Drift) :=
  match find st (key "wdrifter") with
  | none => .ok d
  | some _ => ((d.getD new).load st (key "wdrifter") strict).map some

/-- src/rpucuda/rpu.cpp:498-502. -/
def loadBuf (st : Dict) (delayed strict : Bool) (b : Vec) : Except PyErr Vec :=
  if delayed then (loadV st (key "weights_buffer") [] strict).map fun w => w ++ b.drop w.length else .ok b

/-- src/rpucuda/rpu_pulsed.cpp:447-456 (own layer). -/
def PulsedSt.load (junk strict : Bool) (extra : Dict) (p : Key) (s : PulsedSt) : Except PyErr PulsedSt := do
  let st := selectWithPrefix extra p
  let pwu ← s.pwu.load junk st (key "pwu") strict
  let fb ← s.fb.load st (key "fb_pass") strict
  let dev ← s.dev.load junk strict st (key "rpu_device")
  return { pwu, fb, dev }

/-- src/rpucuda/rpu.cpp:452-503 and rpu_pulsed.cpp:447-456: `load_extra`. -/
def Tile.loadExtra (new : Drift) (junk strict : Bool) (extra : Dict) (t : Tile) : Except PyErr Tile := do
  let st := selectWithPrefix extra (key "rpu")
  let fb := loadFb st t.fb
  let drift ← loadTileDrift new st strict t.drift
  let flickerP ← loadV st (key "flicker_probs") t.flickerP strict
  let lr ← load1 id st (key "learning_rate") t.lr strict
  let delayed ← load1 decB st (key "use_delayed_update") t.delayed strict
  let lastM ← load1 decI st (key "last_update_m_batch") t.lastM strict
  let fwdAlpha ← load1 id st (key "fwd_alpha") t.fwdAlpha strict
  let bwdAlpha ← load1 id st (key "bwd_alpha") t.bwdAlpha strict
  let flickerS ← loadL decI st (key "flicker_states") t.flickerS strict
  let wbuf ← loadBuf st delayed strict t.wbuf
  let pulsed ← loadOpt (PulsedSt.load junk strict extra (key "rpu")) t.pulsed
  return { fb, wbuf, delayed, drift, lr, flickerP, flickerS, lastM, fwdAlpha, bwdAlpha, pulsed }

/-! ## Forward and backward parameters -/

/-- `key.split(pre)[-1]` for a `key` that contains `pre`: what follows the last occurrence (the two prefixes used cannot overlap with
themselves). -/
def afterLast (pre : Key) : Key → Option Key
  | [] => none
  | c :: k => (afterLast pre k).or (if pre <+: c :: k then some ((c :: k).drop pre.length) else none)

/-- src/aihwkit/simulator/tiles/rpucuda.py:286-304 `_get_extra_parameters` with full keys: short key, full key, value. -/
def selectExtra (o : Order) (pre : Key) (extra : Dict) : List (Key × Key × Vec) :=
  (o.ord extra).filterMap fun x => (afterLast pre x.1).map fun s => (s, x.1, x.2)

/-- rpucuda.py:298-304, 335, 356 `get_forward_parameters` / `get_backward_parameters`: a later item replaces an earlier one. -/
def Tile.getPars (o : Order) (pre : Key) (t : Tile) : Except PyErr Dict :=
  (t.dumpExtra o).map fun extra => fill [] ((selectExtra o pre extra).map fun x => (x.1, x.2.2))

/-- rpucuda.py:314-322. -/
def setLoop (dic : Dict) : List (Key × Key × Vec) → Dict → Except PyErr Dict
  | [], extra => .ok extra
  | (s, full, old) :: l, extra =>
    match find dic s with
    | none => setLoop dic l extra
    | some v => if v.length ≠ old.length then .error .argumentError else setLoop dic l (insert extra full v)

/-- rpucuda.py:306-327 `_set_extra_parameters` (`set_forward_parameters`, `set_backward_parameters`). -/
def Tile.setPars (new : Drift) (junk : Bool) (o : Order) (pre : Key) (dic : Dict) (t : Tile) : Except PyErr Tile := do
  let extra ← t.dumpExtra o
  let sel := selectExtra o pre extra
  let extra ← setLoop dic sel extra
  if dic.any fun x => !(sel.any fun y => decide (y.1 = x.1)) then .error .argumentError
  else t.loadExtra new junk false extra

def fwdPre : Key := key "fb_pass.fwd."
def bwdPre : Key := key "fb_pass.bwd."

end Aihw.Extra

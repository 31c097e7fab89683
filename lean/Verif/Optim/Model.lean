import Verif.Common

/-!
# Analog optimizer (optim/analog_optimizer.py, simulator/tiles/functions.py, optim/context.py)

Parameters are identified by object identity (a number).  A tile is represented by the sequence of
interface calls made on it (`log`): whatever a tile does is a function of its calls.  Any tile call
may raise; an arbitrary oracle `World` decides this from the calls made so far.  A raising call is
assumed to leave the tile as it was.
-/
namespace Aihw.Optim
open Aihw

/-- A batch of samples (list of rows). With `in_trans` / `out_trans` the samples are the last
dimension instead of the first; concatenation is along the sample dimension in both cases
(analog_optimizer.py:125-130), so a batch is modelled as the list of its samples. -/
abbrev Batch := List (List ℚ)

/-- An optimizer parameter: an ordinary torch parameter or an `AnalogContext`
(`isinstance(param, AnalogContext)`, analog_optimizer.py:39). -/
inductive Param where
  | digital (id : Nat)
  | analog (id : Nat)
  deriving DecidableEq, Repr

def Param.isAnalog : Param → Bool
  | .analog _ => true
  | .digital _ => false

/-- The options of a parameter group: `group.get("lr")` and all others. -/
structure GOpts where
  lr : Option ℚ
  other : List (String × ℚ)
  deriving DecidableEq, Repr

/-- A torch parameter group. -/
structure Group where
  params : List Param
  opts : GOpts
  deriving DecidableEq, Repr

/-- The part of `AnalogContext` used by the optimizer (context.py:137-148): its tile, flags and the
recorded activations and errors. -/
structure Ctx where
  tile : Nat
  torchUpd : Bool
  indexed : Bool
  xs : List Batch
  ds : List Batch
  deriving DecidableEq, Repr

/-- A call on a tile's interface, or the step of the wrapped digital optimizer. -/
inductive Ev where
  | setLr (tile : Nat) (lr : Option ℚ)
  | update (tile : Nat) (x d : Batch)
  | updateIdx (tile : Nat) (x d : Batch)
  | weightGrad (tile : Nat) (x d : Batch)
  | post (tile : Nat)
  | digital
  deriving DecidableEq, Repr

/-- Decides whether a call raises, given all calls before it. -/
abbrev World := List Ev → Ev → Option PyErr

structure St where
  groups : List Group
  defaults : GOpts
  ctx : Nat → Ctx
  log : List Ev

abbrev Res := Except PyErr Unit × St

/-- Perform one call. -/
def call (w : World) (e : Ev) (s : St) : Res :=
  match w s.log e with
  | some err => (.error err, s)
  | none => (.ok (), { s with log := s.log ++ [e] })

/-- Sequencing of Python statements: an exception stops the rest. -/
def andThen (r : Res) (f : St → Res) : Res :=
  match r with
  | (.error e, s) => (.error e, s)
  | (.ok _, s) => f s

def forAll {α : Type} (l : List α) (f : α → St → Res) (s : St) : Res :=
  match l with
  | [] => (.ok (), s)
  | a :: l => andThen (f a s) (forAll l f)

/-! ## Recording of gradients -/

def setCtx (i : Nat) (c : Ctx) (s : St) : St :=
  { s with ctx := fun j => if j = i then c else s.ctx j }

/-- `AnalogFunction.forward`, functions.py:44-50: only the effect on the context (the forward value
is modelled in `Verif.Mvm` / `Verif.Periphery`). -/
def forward (i : Nat) (shared : Bool) (s : St) : St :=
  setCtx i { s.ctx i with torchUpd := shared } s

/-- `AnalogFunction.backward`, functions.py:91-111: with torch-update the tile computes a weight
gradient; otherwise input and output gradient are appended to the context. -/
def backward (w : World) (i : Nat) (x d : Batch) (s : St) : Res :=
  let c := s.ctx i
  if c.torchUpd then call w (.weightGrad c.tile x d) s
  else (.ok (), setCtx i { c with xs := c.xs ++ [x], ds := c.ds ++ [d] } s)

/-- `AnalogContext.reset` without argument, context.py:420-428. -/
def resetCtx (i : Nat) (s : St) : St :=
  setCtx i { s.ctx i with xs := [], ds := [] } s

/-! ## regroup_param_groups -/

/-- torch `Optimizer.add_param_group` for a group without options (not in /repo; torch API):
missing options are filled from the defaults; a parameter already in some group raises
`ValueError`. -/
def addParamGroup (ps : List Param) (s : St) : Res :=
  if ps.any (fun p => decide (p ∈ s.groups.flatMap Group.params)) then (.error .valueError, s)
  else (.ok (), { s with groups := s.groups ++ [⟨ps, s.defaults⟩] })

/-- analog_optimizer.py:38-46, the inner loop over one group: learning rate of every analog tile is
set to the default; then analog parameters are removed from the group. -/
def regroupOne (w : World) (g : Group) (s : St) : Res :=
  forAll g.params (fun p s =>
    match p with
    | .analog i => call w (.setLr (s.ctx i).tile s.defaults.lr) s
    | .digital _ => (.ok (), s)) s

/-- The analog parameters of the groups, in group order. -/
def analogOf (gs : List Group) : List Param := (gs.flatMap Group.params).filter Param.isAnalog

/-- analog_optimizer.py:27-57.  `group["params"]` of a group is replaced as soon as its loop is
done, so an exception leaves the earlier groups without their analog parameters: modelled by
`stripLoop`. -/
def stripLoop (w : World) (done todo : List Group) (s : St) : Res × List Group :=
  match todo with
  | [] => ((.ok (), s), done)
  | g :: todo =>
    match regroupOne w g s with
    | (.error e, s) => ((.error e, { s with groups := done ++ g :: todo }), done)
    | (.ok _, s) =>
      stripLoop w (done ++ [⟨g.params.filter (fun p => !p.isAnalog), g.opts⟩]) todo s

def regroup (w : World) (s : St) : Res :=
  let analog := analogOf s.groups
  match stripLoop w [] s.groups s with
  | ((.error e, s), _) => (.error e, s)
  | ((.ok _, s), stripped) =>
    forAll analog (fun p s => addParamGroup [p] s)
      { s with groups := stripped.filter (fun g => !g.params.isEmpty) }

/-! ## step -/

/-- analog_optimizer.py:108-134: one update with everything concatenated, or one indexed update per
recorded pair. -/
def applyUpdate (w : World) (c : Ctx) (s : St) : Res :=
  if c.indexed then
    forAll (c.xs.zip c.ds) (fun p s => call w (.updateIdx c.tile p.1 p.2) s) s
  else call w (.update c.tile c.xs.flatten c.ds.flatten) s

/-- analog_optimizer.py:86-136: the loop body for one analog parameter. -/
def stepCtx (w : World) (lr : Option ℚ) (i : Nat) (s : St) : Res :=
  let c := s.ctx i
  if c.torchUpd then (.ok (), s)
  else if c.xs.isEmpty then (.ok (), s)
  else if lr = some 0 then (.ok (), resetCtx i s)
  else
    andThen (if lr.isNone then (.ok (), s) else call w (.setLr c.tile lr) s) fun s =>
    andThen (applyUpdate w c s) fun s => (.ok (), resetCtx i s)

/-- analog_optimizer.py:84-85: digital parameters are skipped. -/
def stepParam (w : World) (lr : Option ℚ) (p : Param) (s : St) : Res :=
  match p with
  | .digital _ => (.ok (), s)
  | .analog i => stepCtx w lr i s

/-- The `closure` argument re-evaluates the model: a list of backward passes
(context, input, output gradient). -/
abbrev Closure := List (Nat × Batch × Batch)

/-- analog_optimizer.py:77: the wrapped optimizer's own step, which runs the closure. It skips
analog contexts (their `grad` is `None`). -/
def digitalStep (w : World) (cl : Closure) (s : St) : Res :=
  andThen (forAll cl (fun b s => backward w b.1 b.2.1 b.2.2 s) s) (call w .digital)

/-- analog_optimizer.py:140-143. -/
def postParam (w : World) (p : Param) (s : St) : Res :=
  match p with
  | .digital _ => (.ok (), s)
  | .analog i => call w (.post (s.ctx i).tile) s

/-- `AnalogOptimizerMixin.step`, analog_optimizer.py:60-144. -/
def step (w : World) (cl : Closure) (s : St) : Res :=
  andThen (digitalStep w cl s) fun s =>
  andThen (forAll s.groups (fun g s => forAll g.params (stepParam w g.opts.lr) s) s) fun s =>
  forAll s.groups (fun g s => forAll g.params (postParam w) s) s

/-- `AnalogOptimizerMixin.set_learning_rate`, analog_optimizer.py:146-160. (The group dictionary is
written before its tiles.) -/
def setLearningRate (w : World) (lr : ℚ) (s : St) : Res :=
  let gs := s.groups
  forAll (List.range gs.length) (fun k s =>
    let s := { s with groups := s.groups.modify k (fun g => { g with opts := { g.opts with lr := some lr } }) }
    forAll ((gs.map Group.params).getD k []) (fun p s =>
      match p with
      | .analog i => call w (.setLr (s.ctx i).tile (some lr)) s
      | .digital _ => (.ok (), s)) s) s

/-! ## Histories -/

/-- What a training script does with model and optimizer. -/
inductive Cmd where
  | forward (i : Nat) (shared : Bool)
  | backward (i : Nat) (x d : Batch)
  | zeroGrad
  | step (cl : Closure)
  | setLearningRate (lr : ℚ)
  | schedule (k : Nat) (lr : ℚ)
  | regroup

/-- One command.  `zeroGrad` is torch's `Optimizer.zero_grad`, which resets `p.grad` only;
`schedule` is a torch learning-rate scheduler writing `param_groups[k]["lr"]`. -/
def exec (w : World) (c : Cmd) (s : St) : Res :=
  match c with
  | .forward i sh => (.ok (), forward i sh s)
  | .backward i x d => backward w i x d s
  | .zeroGrad => (.ok (), s)
  | .step cl => step w cl s
  | .setLearningRate lr => setLearningRate w lr s
  | .schedule k lr =>
    (.ok (), { s with groups := s.groups.modify k (fun g => { g with opts := { g.opts with lr := some lr } }) })
  | .regroup => regroup w s

/-- A history; the script may catch exceptions and go on. -/
def run (w : World) : List Cmd → St → St
  | [], s => s
  | c :: cs, s => run w cs (exec w c s).2

/-! ## Wrapper classes -/

/-- A Python class object: its identity and its `__name__`. -/
structure PyClass where
  id : Nat
  name : String
  deriving DecidableEq, Repr

/-- `AnalogOptimizer.__new__`, analog_optimizer.py:196-208: the registry maps the class name to the
first class wrapped under that name. Returns the wrapped class of the created instance. -/
def wrapClass (reg : List PyClass) (c : PyClass) : PyClass × List PyClass :=
  match reg.find? (fun r => r.name == c.name) with
  | some r => (r, reg)
  | none => (c, reg ++ [c])

end Aihw.Optim

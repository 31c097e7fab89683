import Verif.Quant.Estimator

/-!
# Quantization manager

Models `src/aihwkit/simulator/digital_low_precision/quantization_manager.py`.
-/
namespace Aihw.Quant

/-- `Qstates` (quantization_manager.py:26-30). -/
inductive QSt where
  | estimate | fix | learn | estimateTrain
  deriving DecidableEq, Repr

/-- State of a `QuantizationManager` (quantization_manager.py:53-95).  `est = none` is
`range_estimator = None`; `training` is the flag of `nn.Module`. -/
structure Mgr where
  st : QSt := .estimateTrain
  est : Option Est
  q : Quantizer
  training : Bool := true
  deriving DecidableEq, Repr

/-- The constructor without explicit range (quantization_manager.py:65-95).  The estimator gets the
options `per_channel`, `axis` and `n_groups` of the manager. -/
def newMgr (q : Quantizer) (kind : EstKind) (ng : Option Nat) : Mgr :=
  { est := some { kind := kind, perChannel := q.perChannel, axis := q.axis, nGroups := ng }
    q := { q with pars := none, signed := none, view := none } }

/-- The constructor with `x_min` and `x_max` (quantization_manager.py:82-84): the quantizer is set,
no estimator is created. -/
def newMgrRange (q : Quantizer) (rs : List (ℚ × ℚ)) : Except PyErr Mgr := do
  let q' ← setQuantRange { q with pars := none, signed := none, view := none } rs
  return { st := .fix, est := none, q := q' }

/-- Does `forward` update the ranges (quantization_manager.py:130-132)? -/
def updates (m : Mgr) : Bool := m.st = .estimate || (m.st = .estimateTrain && m.training)

/-- The range part of `forward` (quantization_manager.py:130-135).  A failing `set_quant_range`
leaves the estimator updated.  Simplification: an estimator that raises is left as it was. -/
def mgrEstimate (o : Optimizer) (m : Mgr) (e : Est) (rows : List Vec) : Mgr × Option PyErr :=
  match estForward o m.q e rows with
  | .error err => (m, some err)
  | .ok (e', s) =>
    match setQuantRange m.q s with
    | .error err => ({ m with est := some e' }, some err)
    | .ok q' => ({ m with est := some e', q := q' }, none)

/-- The quantisation part of `forward` (quantization_manager.py:137). -/
def mgrQuant (m : Mgr) (rank : Nat) (rows : List Vec) : Mgr × Except PyErr (List Vec) :=
  match forward m.q rank rows with
  | .error err => (m, .error err)
  | .ok (q', ys) => ({ m with q := q' }, .ok ys)

/-- `forward` (quantization_manager.py:125-137).  The first line reads an attribute of the range
estimator, so a manager without one raises AttributeError. -/
def mgrForward (o : Optimizer) (m : Mgr) (rank : Nat) (rows : List Vec) :
    Mgr × Except PyErr (List Vec) :=
  match m.est with
  | none => (m, .error .attributeError)
  | some e =>
    if updates m then
      match mgrEstimate o m e rows with
      | (m1, some err) => (m1, .error err)
      | (m1, none) => mgrQuant m1 rank rows
    else mgrQuant m rank rows

/-- `reset_ranges` (quantization_manager.py:120-123). -/
def mgrReset (m : Mgr) : Mgr × Except PyErr (List Vec) :=
  match m.est with
  | none => (m, .error .attributeError)
  | some e => ({ m with est := some (estReset e), q := reset m.q, st := .estimateTrain }, .ok [])

/-- The calls of the public interface. -/
inductive MCmd where
  /-- `estimate_ranges()` (quantization_manager.py:101-102) -/
  | estimate
  /-- `estimate_ranges_train()` (quantization_manager.py:114-115) -/
  | estimateTrain
  /-- `fix_ranges()` (quantization_manager.py:104-108) -/
  | fix
  /-- `learn_ranges()` (quantization_manager.py:110-112); the gradient flags are not modelled -/
  | learn
  /-- `train(mode)` of `nn.Module` -/
  | train (b : Bool)
  /-- `forward(x)` -/
  | forward (rank : Nat) (rows : List Vec)
  /-- `set_quant_range(x_min, x_max)` (quantization_manager.py:139-140) -/
  | setRange (rs : List (ℚ × ℚ))
  /-- `reset_ranges()` -/
  | resetRanges

/-- One call; the list is the returned tensor (empty for calls that return nothing). -/
def mstep (o : Optimizer) (m : Mgr) : MCmd → Mgr × Except PyErr (List Vec)
  | .estimate => ({ m with st := .estimate }, .ok [])
  | .estimateTrain => ({ m with st := .estimateTrain }, .ok [])
  | .fix => if isInit m.q then ({ m with st := .fix }, .ok []) else (m, .error .quantNotInit)
  | .learn => ({ m with st := .learn }, .ok [])
  | .train b => ({ m with training := b }, .ok [])
  | .forward rank rows => mgrForward o m rank rows
  | .setRange rs =>
    (match setQuantRange m.q rs with
     | .error err => (m, .error err)
     | .ok q' => ({ m with q := q' }, .ok []))
  | .resetRanges => mgrReset m

/-- A sequence of calls (the caller catches exceptions), with the returned values. -/
def mrun (o : Optimizer) : Mgr → List MCmd → Mgr × List (Except PyErr (List Vec))
  | m, [] => (m, [])
  | m, c :: cs => ((mrun o (mstep o m c).1 cs).1, (mstep o m c).2 :: (mrun o (mstep o m c).1 cs).2)

end Aihw.Quant

import Verif.Quant.Layer

/-!
# Calibration of quantization ranges

Models `calibrate_quantization_ranges`
(`src/aihwkit/inference/calibration/calibration.py:304-371`) on a network of quantised layers.
What the network does between its layers is not modelled: passing a batch is an arbitrary sequence of
calls of layers.
-/
namespace Aihw.Quant

/-- The calls of layers while one batch is passed. -/
abbrev BatchCalls (X : Type) := List (Nat × X)

/-- One batch; an exception ends it. -/
def passBatch {X : Type} (o : Optimizer) (run : Nat → LayerOp X) :
    List Layer → BatchCalls X → List Layer × Option PyErr
  | ls, [] => (ls, none)
  | ls, (i, x) :: cs =>
    match ls[i]? with
    | none => passBatch o run ls cs
    | some l =>
      match lstep o (run i) l (.forward x) with
      | (l', .error e) => (ls.set i l', some e)
      | (l', .ok _) => passBatch o run (ls.set i l') cs

/-- The loop over the data loader with its counter (calibration.py:344-357). -/
def passLoader {X : Type} (o : Optimizer) (run : Nat → LayerOp X) (maxBatches : Nat) :
    Nat → List Layer → List (BatchCalls X) → List Layer × Option PyErr
  | _, ls, [] => (ls, none)
  | i, ls, b :: bs =>
    if maxBatches < i then (ls, none)
    else
      match passBatch o run ls b with
      | (ls', some e) => (ls', some e)
      | (ls', none) => passLoader o run maxBatches (i + 1) ls' bs

/-- `calibrate_quantization_ranges` (calibration.py:359-371): estimate, evaluation mode, pass the data,
fix. The calls of `fix_act_ranges` and `fix_weight_ranges` repeat `fix_ranges`
(`nn/low_precision_modules/quantization_states.py:140-180`). -/
def calibrateQ {X : Type} (o : Optimizer) (run : Nat → LayerOp X) (maxBatches : Nat)
    (ls : List Layer) (loader : List (BatchCalls X)) : List Layer × Option PyErr :=
  let ls1 := ls.mapIdx fun i l =>
    (lstep o (run i) (lstep o (run i) l (.ranges .estimate)).1 (.train false)).1
  match passLoader o run maxBatches 0 ls1 loader with
  | (ls2, some e) => (ls2, some e)
  | (ls2, none) => (ls2.mapIdx fun i l => (lstep o (run i) l (.ranges .fix)).1, none)

end Aihw.Quant

import Verif.Quant.Manager

/-!
# Quantised layers and their parameter cache

Models `QuantizedModule` (`src/aihwkit/simulator/digital_low_precision/base_quantized_classes.py`)
and `QuantizationHijacker` (`.../hijacker.py`): linear, convolution, embedding and normalisation
layers with quantised weights and activations.

The operation of the layer (`run_forward`, followed by the optional activation function) is an
arbitrary function of the weight, the bias and the input.
-/
namespace Aihw.Quant

/-- State of a hijacked layer (base_quantized_classes.py:78-84, hijacker.py:39-68).  `weight` are the
rows of the weight of rank `wrank`; `wm` and `am` are the quantization managers of weights and
activations. -/
structure Layer where
  wrank : Nat
  weight : List Vec
  bias : Option Vec
  quantW : Bool := false
  quantA : Bool := false
  caching : Bool := true
  cached : Option (List Vec × Option Vec) := none
  training : Bool := true
  wm : Mgr
  am : Mgr

/-- The operation of the layer: weight, bias, input to a tensor given by rank and rows. -/
abbrev LayerOp (X : Type) := List Vec → Option Vec → X → Nat × List Vec

/-- The weight as it is used when there is no cache (hijacker.py:80-83). -/
def freshParams (o : Optimizer) (l : Layer) : Layer × Except PyErr (List Vec × Option Vec) :=
  if l.quantW then
    match mgrForward o l.wm l.wrank l.weight with
    | (wm', .ok w) => ({ l with wm := wm' }, .ok (w, l.bias))
    | (wm', .error e) => ({ l with wm := wm' }, .error e)
  else (l, .ok (l.weight, l.bias))

/-- `get_params` (hijacker.py:76-90).  The cached tensors are copies. -/
def getParams (o : Optimizer) (l : Layer) : Layer × Except PyErr (List Vec × Option Vec) :=
  match l.training, l.cached with
  | false, some c => (l, .ok c)
  | _, _ =>
    match freshParams o l with
    | (l', .error e) => (l', .error e)
    | (l', .ok p) =>
      ((if l'.caching && !l'.training && l'.cached.isNone then { l' with cached := some p } else l'),
       .ok p)

/-- `quantize_activations` (hijacker.py:102-120). -/
def quantActs (o : Optimizer) (l : Layer) (a : Nat × List Vec) : Layer × Except PyErr (List Vec) :=
  if l.quantA then ({ l with am := (mgrForward o l.am a.1 a.2).1 }, (mgrForward o l.am a.1 a.2).2)
  else (l, .ok a.2)

/-- `forward` (hijacker.py:70-74). -/
def layerForward {X : Type} (o : Optimizer) (run : LayerOp X) (l : Layer) (x : X) :
    Layer × Except PyErr (List Vec) :=
  match getParams o l with
  | (l1, .error e) => (l1, .error e)
  | (l1, .ok p) => quantActs o l1 (run p.1 p.2 x)

/-- `_set_layer_*` applied to one manager (base_quantized_classes.py:14-35); `fix` and
`learn` only if the quantizer is initialised. -/
def setState (s : QSt) (m : Mgr) : Mgr :=
  if (s = .fix ∨ s = .learn) ∧ isInit m.q = false then m else { m with st := s }

/-- The calls of a layer. -/
inductive LCmd (X : Type) where
  /-- `train(mode)` (base_quantized_classes.py:131-135): also sets the flag of the managers -/
  | train (b : Bool)
  /-- the layer is called -/
  | forward (x : X)
  /-- an in-place change of weight and bias: an optimizer step, `load_state_dict`, `weight.data = …` -/
  | setWeights (w : List Vec) (b : Option Vec)
  /-- `quantized_weights` / `full_precision_weights` (base_quantized_classes.py:97-103) -/
  | quantWeights (on : Bool)
  /-- `quantized_acts` / `full_precision_acts` (base_quantized_classes.py:105-109) -/
  | quantActs (on : Bool)
  /-- `caching = value` (base_quantized_classes.py:91-95) -/
  | caching (on : Bool)
  /-- `estimate_ranges`, `fix_ranges`, `learn_ranges`, `estimate_ranges_train`
  (base_quantized_classes.py:119-129) -/
  | ranges (s : QSt)
  /-- `_apply`: `.to(…)`, `.cuda()`, `.float()` (base_quantized_classes.py:137-139); the values of the
  tensors are taken as unchanged -/
  | moved

/-- One call. -/
def lstep {X : Type} (o : Optimizer) (run : LayerOp X) (l : Layer) :
    LCmd X → Layer × Except PyErr (List Vec)
  | .train b =>
    ({ l with training := b, cached := if b then none else l.cached
              wm := { l.wm with training := b }, am := { l.am with training := b } }, .ok [])
  | .forward x => layerForward o run l x
  | .setWeights w b => ({ l with weight := w, bias := b }, .ok [])
  | .quantWeights on => ({ l with quantW := on, cached := none }, .ok [])
  | .quantActs on => ({ l with quantA := on }, .ok [])
  | .caching on => ({ l with caching := on, cached := if on then l.cached else none }, .ok [])
  | .ranges s => ({ l with wm := setState s l.wm, am := setState s l.am }, .ok [])
  | .moved => ({ l with cached := none }, .ok [])

/-- A sequence of calls with the results. -/
def lrun {X : Type} (o : Optimizer) (run : LayerOp X) :
    Layer → List (LCmd X) → Layer × List (Except PyErr (List Vec))
  | l, [] => (l, [])
  | l, c :: cs =>
    ((lrun o run (lstep o run l c).1 cs).1, (lstep o run l c).2 :: (lrun o run (lstep o run l c).1 cs).2)

end Aihw.Quant

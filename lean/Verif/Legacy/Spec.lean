import Verif.Legacy.Strings

/-!
# C78: specification
-/
namespace Aihw.Legacy

/-- Specification: the layer at a path is a mapped convolution of the model (the last layer with the name counts). -/
def MappedConv (m : LModel) (ps : List Str) : Prop :=
  ∃ a b cls, m.layers = a ++ (List.intercalate ['.'] ps, cls) :: b ∧ (∀ x ∈ b, x.1 ≠ List.intercalate ['.'] ps) ∧
    "Conv".toList <:+: cls ∧ "Mapped".toList <:+: cls

/-- Specification: the name of the parameter `par` of the tile with the given numbers, below the layer. -/
def newKey (conv : Bool) (idx : List Nat) (par : Str) : Str :=
  if 2 ≤ idx.length then
    (if conv then [] else "analog_module.".toList) ++ "array".toList ++ (idx.flatMap fun i => '.' :: showNat i) ++ '.' :: par
  else if idx.headD 0 ≠ 0 then "analog_module.".toList ++ par ++ ".[".toList ++ showNat (idx.headD 0) ++ "]".toList
  else "analog_module.".toList ++ par

/-- Specification: the factor that an entry of a tile state contributes to the scale of output `i`. -/
def factor : Option SVal → Nat → ℚ
  | none, _ => 1
  | some (.scalar q), _ => q
  | some (.nat n), _ => n
  | some (.bool b), _ => if b then 1 else 0
  | some (.tensor l), i => if l.length = 1 then l.headD 1 else l.getD i 1
  | some _, _ => 1

/-- Specification: an entry by which a tensor with `n` elements can be multiplied. -/
def CanScale (n : Nat) : Option SVal → Prop
  | none => True
  | some (.scalar _) => True
  | some (.nat _) => True
  | some (.bool _) => True
  | some (.tensor l) => l.length = n ∨ l.length = 1
  | some _ => False

/-- Specification: the conversion of a tile state `d` into `d'` and mapping scales `s`. -/
structure StateConv (d d' : TState) (s : List ℚ) : Prop where
  size : sget d "out_size" = some (.nat s.length)
  scales : ∀ i < s.length, s.getD i 0 = factor (sget d "mapping_scales") i * factor (sget d "analog_alpha_scale") i
  bias : sget d' "use_bias" = some ((sget d "bias").getD (.bool false))
  gone : ∀ k ∈ ["noise_model", "drift_compensation", "drift_baseline", "drift_readout_tensor", "reference_combined_weights",
    "programmed_weights", "nu_drift_list", "shared_weights", "image_sizes", "bias", "mapping_scales", "analog_alpha_scale"], sget d' k = none
  kept : ∀ k, k ∉ ["noise_model", "drift_compensation", "drift_baseline", "drift_readout_tensor", "reference_combined_weights",
    "programmed_weights", "nu_drift_list", "shared_weights", "image_sizes", "bias", "mapping_scales", "analog_alpha_scale", "use_bias"] →
    sget d' k = sget d k

/-- Specification: what is stored for `alpha`. -/
def alphaOut (d : TState) (k : Str) : List (Str × CVal) :=
  match sget d "alpha" with
  | some (.tensor l) => [(k, .tensor l)]
  | _ => []

/-- Specification: what is stored for an entry `k`, `v` of a checkpoint with all entries `all`. -/
structure OutSpec (m : LModel) (all : Chk) (k : Str) (v : CVal) (o : List (Str × CVal)) : Prop where
  /-- A digital bias of an analog layer moves into the tile module, except for mapped convolutions. -/
  bias : ∀ ps, k = path ps ++ "bias".toList → (∀ p ∈ ps, ¬ "bias".toList <:+: p) → (∃ e ∈ all, path ps ++ "analog_tile_state".toList <+: e.1) →
    (MappedConv m ps → o = [(k, v)]) ∧ (¬ MappedConv m ps → o = [(path ps ++ "analog_module.bias".toList, v)])
  /-- Other biases stay. -/
  noBias : ∀ ps, k = path ps ++ "bias".toList → (∀ p ∈ ps, ¬ "bias".toList <:+: p) →
    (¬ ∃ e ∈ all, path ps ++ "analog_tile_state".toList <+: e.1) → o = [(k, v)]
  /-- Also the bias of an analog layer stays below a module whose name contains `bias` (the key is cut at the first occurrence of the name),
  unless some key continues a proper start of the path with the name of a tile state. -/
  shadowed : ∀ ps p, k = path ps ++ "bias".toList → p ∈ ps → "bias".toList <:+: p →
    (∀ e ∈ all, ∀ a, a <+: path ps → a.length < (path ps).length → ¬ a ++ "analog_tile_state".toList <+: e.1) → o = [(k, v)]
  /-- Tile states. -/
  tile : ∀ ps idx d, k = path ps ++ "analog_tile_state".toList ++ ending idx → (∀ p ∈ ps, ¬ "analog_tile_state".toList <:+: p) → v = .state d →
    ∀ conv : Bool, (conv = true ↔ MappedConv m ps) → ∃ d' s, StateConv d d' s ∧
      o = alphaOut d (path ps ++ newKey conv idx "alpha".toList) ++
        [(path ps ++ newKey conv idx "mapping_scales".toList, .tensor s), (path ps ++ newKey conv idx "analog_tile_state".toList, .state d')]
  /-- Learned output scales. -/
  outScale : ∀ ps idx, k = path ps ++ "analog_out_scaling_alpha".toList ++ ending idx →
    (∀ p ∈ ps, ¬ "analog_out_scaling_alpha".toList <:+: p) → ∀ conv : Bool, (conv = true ↔ MappedConv m ps) →
    o = [(path ps ++ newKey conv (idx ++ [0]) "out_scaling_alpha".toList, v)]
  /-- Analog contexts. -/
  ctx : ∀ ps idx, k = path ps ++ "analog_ctx".toList ++ ending idx → (∀ p ∈ ps, ¬ "analog_ctx".toList <:+: p) →
    ∀ conv : Bool, (conv = true ↔ MappedConv m ps) → o = [(path ps ++ newKey conv idx "analog_ctx".toList, v)]
  /-- Shared weights are dropped. -/
  shared : ∀ ps t, k = path ps ++ "analog_shared_weights".toList ++ t → '.' ∉ t → o = []
  /-- All else stays. -/
  other : ∀ ps name, k = path ps ++ name → '.' ∉ name → name ≠ "bias".toList → ¬ "analog_tile_state".toList <+: name →
    ¬ "analog_out_scaling_alpha".toList <+: name → ¬ "analog_shared_weights".toList <+: name → ¬ "analog_ctx".toList <+: name → o = [(k, v)]

/-- Specification: the value stored last under a key. -/
def lastVal (l : List (Str × CVal)) (k : Str) : Option CVal := (l.reverse.find? fun p => p.1 = k).map (·.2)

/-- The value of a key of a checkpoint. -/
def cget (d : Chk) (k : Str) : Option CVal := (d.find? fun p => p.1 = k).map (·.2)

/-- Specification: the conversion of the mapping parameters. -/
structure MapConv (hasMapped : Bool) (m m' : LMap) : Prop where
  columnwise : m'.columnwise = m.omegaColumnwise.getD m.columnwise
  learnOut : m'.learnOut = m.learnAlpha.getD m.learnOut
  outColumnwise : m'.outColumnwise = if m.learnAlpha.isSome then m'.columnwise else m.outColumnwise
  oldNames : m'.omegaColumnwise = none ∧ m'.learnAlpha = none
  limits : (m'.maxIn, m'.maxOut) = if hasMapped then (m.maxIn, m.maxOut) else (0, 0)

/-- Specification: the conversion of a configuration. -/
structure CfgConv (hasMapped : Bool) (c c' : LCfg) : Prop where
  isInf : c'.inference = c.inference
  skip : c.inference = false → c' = c
  mapping : c.inference = true → ∃ m', c'.mapping = some m' ∧ MapConv hasMapped (c.mapping.getD oldWebMapping) m'
  gRef : c.inference = true → c'.gRef = if c.pcm then some (c.gRef.getD c.gMax) else c.gRef
  gMax : c'.gMax = c.gMax ∧ c'.pcm = c.pcm
  present : c.inference = true → c'.prePost = true ∧ c'.remap = true
  coeffs : c.inference = true → c'.coeffs = (if c.coeffs.isSome then c.coeffs else some [c.coeff0.getD 0, c.coeff1.getD 0, c.coeff2.getD 0]) ∧
    (c.coeffs = none → c'.coeff0 = none ∧ c'.coeff1 = none ∧ c'.coeff2 = none)

/-- Specification: the same checkpoint with converted configurations. -/
def FixedEntry (hasMapped : Bool) (p q : Str × CVal) : Prop :=
  q.1 = p.1 ∧ (¬ "analog_tile_state".toList <:+: p.1 → q = p) ∧
    ("analog_tile_state".toList <:+: p.1 → ∃ d d' c c', p.2 = .state d ∧ q.2 = .state d' ∧ sget d "rpu_config" = some (.cfg c) ∧
      sget d' "rpu_config" = some (.cfg c') ∧ (∀ k, k ≠ "rpu_config" → sget d' k = sget d k) ∧ CfgConv hasMapped c c')

end Aihw.Legacy

import Verif.Common
import Mathlib.Data.Nat.Digits.Defs

/-!
# C78: `convert_legacy_checkpoint` (utils/legacy.py)

Checkpoint keys are lists of characters, because the code cuts them with `str.split`, `startswith` and
`replace`; state dictionaries have opaque string keys.  `deepcopy` makes the function pure in the
checkpoint.  Not modelled: tensor data types and devices; the attributes of a configuration other than
those touched.
-/
namespace Aihw.Legacy
open Aihw

/-- A Python string. -/
abbrev Str := List Char

/-! ## String methods -/

/-- `s.split(".")[-1]`. -/
def afterDot (s : Str) : Str := (s.reverse.takeWhile fun c => c ≠ '.').reverse

/-- `s.split(sep)[0]` for a non-empty `sep`: everything before the first occurrence. -/
def before (sep : Str) : Str → Str
  | [] => []
  | c :: t => if sep.isPrefixOf (c :: t) then [] else c :: before sep t

/-- Loop of `lastPart`: `skip` characters of a found separator remain to be skipped, `cur` is the current
part, reversed. -/
def lastGo (sep : Str) : Str → Nat → Str → Str
  | [], _, cur => cur.reverse
  | _ :: t, k + 1, cur => lastGo sep t k cur
  | c :: t, 0, cur =>
    if sep.isPrefixOf (c :: t) then lastGo sep t (sep.length - 1) [] else lastGo sep t 0 (c :: cur)

/-- `s.split(sep)[-1]` for a non-empty `sep`. -/
def lastPart (sep s : Str) : Str := lastGo sep s 0 []

/-- Loop of `replace`. -/
def replGo (sep new : Str) : Str → Nat → Str
  | [], _ => []
  | _ :: t, k + 1 => replGo sep new t k
  | c :: t, 0 =>
    if sep.isPrefixOf (c :: t) then new ++ replGo sep new t (sep.length - 1) else c :: replGo sep new t 0

/-- `s.replace(sep, new)` for a non-empty `sep`. -/
def replace (sep new s : Str) : Str := replGo sep new s 0

/-- `sub in s`. -/
def contains (sub : Str) : Str → Bool
  | [] => sub.isEmpty
  | c :: t => sub.isPrefixOf (c :: t) || contains sub t

/-- `s.split("_")` (one pass, parts in order). -/
def splitUnder : Str → Str → List Str
  | [], cur => [cur.reverse]
  | c :: t, cur => if c = '_' then cur.reverse :: splitUnder t [] else splitUnder t (c :: cur)

/-- `int(s)` for the strings that occur: decimal digits; anything else raises (signs and spaces, which
Python accepts, are not modelled). -/
def parseNat (s : Str) : Except PyErr Nat :=
  if s.isEmpty || s.any (fun c => !c.isDigit) then .error .valueError
  else .ok (s.foldl (fun a c => 10 * a + (c.toNat - 48)) 0)

/-- `str(n)`. -/
def showNat (n : Nat) : Str :=
  if n = 0 then ['0'] else ((Nat.digits 10 n).reverse.map fun d => Char.ofNat (48 + d))

/-- Parts of the names. -/
def tileState : Str := "analog_tile_state".toList
def outAlpha : Str := "out_scaling_alpha".toList
def ctxName : Str := "analog_ctx".toList
def modDot : Str := "analog_module.".toList

/-! ## Configurations -/

/-- The attributes of `rpu_config.mapping` that are touched; `none`: no such attribute. -/
structure LMap where
  omegaColumnwise : Option Bool
  columnwise : Bool
  learnAlpha : Option Bool
  learnOut : Bool
  outColumnwise : Bool
  maxIn : ℤ
  maxOut : ℤ
  deriving DecidableEq

/-- The attributes of a configuration that are touched (`prePost`, `remap`: whether they exist). -/
structure LCfg where
  inference : Bool
  mapping : Option LMap
  pcm : Bool
  gMax : ℚ
  gRef : Option ℚ
  prePost : Bool
  remap : Bool
  coeffs : Option (List ℚ)
  coeff0 : Option ℚ
  coeff1 : Option ℚ
  coeff2 : Option ℚ
  deriving DecidableEq

/-- `OldWebComposerMappingParameter()` (presets/web.py:121-135). -/
def oldWebMapping : LMap := ⟨none, true, none, false, false, 0, 0⟩

/-- The renaming in `rpu_config.mapping` (legacy.py:100-116). -/
def fixMap (hasMapped : Bool) (m : LMap) : LMap :=
  let m := match m.omegaColumnwise with
    | some b => { m with columnwise := b, omegaColumnwise := none }
    | none => m
  let m := match m.learnAlpha with
    | some b => { m with learnOut := b, learnAlpha := none, outColumnwise := m.columnwise }
    | none => m
  if hasMapped then m else { m with maxIn := 0, maxOut := 0 }

/-- The conversion of one configuration (legacy.py:96-133). -/
def fixCfg (hasMapped : Bool) (c : LCfg) : Except PyErr LCfg :=
  if c.inference = false then .ok c
  else
    let c := { c with mapping := some (fixMap hasMapped (c.mapping.getD oldWebMapping)) }
    let c := if c.pcm && c.gRef.isNone then { c with gRef := some c.gMax } else c
    let c := { c with prePost := true, remap := true }
    match c.coeffs with
    | some _ => .ok c
    | none =>
      match c.coeff0, c.coeff1, c.coeff2 with
      | some a, some b, some d =>
        .ok { c with coeffs := some [a, b, d], coeff0 := none, coeff1 := none, coeff2 := none }
      | _, _, _ => .error .keyError

/-! ## Checkpoints -/

/-- A value in a tile state. -/
inductive SVal where
  | none
  | scalar (q : ℚ)
  | tensor (l : List ℚ)
  | nat (n : Nat)
  | bool (b : Bool)
  | cfg (c : LCfg)
  | other (n : Nat)
  deriving DecidableEq

/-- A tile state: a dictionary. -/
abbrev TState := List (String × SVal)

/-- `d.get(k)`. -/
def sget (d : TState) (k : String) : Option SVal := (d.find? fun p => p.1 = k).map (·.2)

/-- `d.pop(k, None)` without the value. -/
def sdel (d : TState) (k : String) : TState := d.filter fun p => p.1 ≠ k

/-- `d[k] = v`. -/
def sset (d : TState) (k : String) (v : SVal) : TState :=
  if d.any fun p => p.1 = k then d.map fun p => if p.1 = k then (k, v) else p else d ++ [(k, v)]

/-- A value in a checkpoint: a tensor or a tile state. -/
inductive CVal where
  | tensor (l : List ℚ)
  | state (d : TState)
  deriving DecidableEq

/-- A checkpoint: keys and values in order. -/
abbrev Chk := List (Str × CVal)

/-- `chkpt[k] = v`. -/
def cset (d : Chk) (k : Str) (v : CVal) : Chk :=
  if d.any fun p => p.1 = k then d.map fun p => if p.1 = k then (k, v) else p else d ++ [(k, v)]

/-- A model: the names and class names of its analog layers, and the limits in the configurations of its
tiles. -/
structure LModel where
  layers : List (Str × Str)
  limits : List (ℤ × ℤ)

/-- `has_mapped` (legacy.py:74-79). -/
def LModel.hasMapped (m : LModel) : Bool := m.layers.any fun p => contains "Mapped".toList p.2

/-- `layer_dic[name]`: the last layer with the name wins. -/
def LModel.cls (m : LModel) (name : Str) : Option Str :=
  (m.layers.reverse.find? fun p => p.1 = name).map (·.2)

/-- `check_conv_mapped` (legacy.py:48-53). -/
def LModel.convMapped (m : LModel) (pre : Str) : Bool :=
  match m.cls pre.dropLast with
  | some c => contains "Conv".toList c && contains "Mapped".toList c
  | none => false

/-- The list of numbers at the end of a name (legacy.py:56-57). -/
def endNumbers (ending : Str) : Except PyErr (List Nat) :=
  ((splitUnder ending []).filter fun s => !s.isEmpty).mapM parseNat

/-- `str(arr)` for a list with one number. -/
def showOne (n : Nat) : Str := "[".toList ++ showNat n ++ "]".toList

/-- `get_key_from_ending` (legacy.py:55-72). -/
def keyFromEnding (m : LModel) (name par pre : Str) : Except PyErr Str := do
  let ending := lastPart par name
  let arr ← endNumbers ending
  match arr with
  | [n] => .ok (if n = 0 then modDot ++ par else modDot ++ par ++ ['.'] ++ showOne n)
  | [] => .ok (modDot ++ par ++ ending)
  | _ =>
    let root := if m.convMapped pre then "array".toList else "analog_module.array".toList
    .ok (arr.foldl (fun k v => k ++ ['.'] ++ showNat v) root ++ ['.'] ++ par)

/-- In-place multiplication of a tensor (`*=`): a tensor of the same length or of length one, or a
number. -/
def mulInto (a : List ℚ) : SVal → Except PyErr (List ℚ)
  | .scalar q => .ok (a.map (· * q))
  | .nat n => .ok (a.map (· * (n : ℚ)))
  | .bool b => .ok (a.map (· * if b then 1 else 0))
  | .tensor l =>
    if l.length = a.length then .ok (List.zipWith (· * ·) a l)
    else match l with
      | [q] => .ok (a.map (· * q))
      | _ => .error .runtimeError
  | _ => .error .typeError

/-- Keys removed from a tile state (legacy.py:153-164). -/
def removedKeys : List String :=
  ["noise_model", "drift_compensation", "drift_baseline", "drift_readout_tensor",
    "reference_combined_weights", "programmed_weights", "nu_drift_list", "shared_weights", "image_sizes"]

/-- Multiplication by an optional entry (legacy.py:184-188). -/
def mulOpt (a : List ℚ) (v : Option SVal) : Except PyErr (List ℚ) :=
  match v with
  | some v => mulInto a v
  | none => .ok a

/-- The state without the old entries and with the renamed flag (legacy.py:153-167). -/
def cleaned (d : TState) : TState :=
  sset (sdel (removedKeys.foldl sdel d) "bias") "use_bias" ((sget (removedKeys.foldl sdel d) "bias").getD (.bool false))

/-- `isinstance(alpha, Tensor)` (legacy.py:170-171). -/
def alphaOf : Option SVal → Option (List ℚ)
  | some (.tensor l) => some l
  | _ => none

/-- `state["out_size"]` (legacy.py:177), as used for `ones`. -/
def sizeOf : Option SVal → Except PyErr Nat
  | some (.nat n) => .ok n
  | some _ => .error .typeError
  | none => .error .keyError

/-- `state["rpu_config"]` (legacy.py:178). -/
def needCfg : Option SVal → Except PyErr Unit
  | some _ => .ok ()
  | none => .error .keyError

/-- `state["analog_ctx"].device` (legacy.py:179). -/
def needCtx : Option SVal → Except PyErr Unit
  | some (.tensor _) => .ok ()
  | some _ => .error .attributeError
  | none => .error .keyError

/-- The conversion of a tile state (legacy.py:152-190): the new state, the tensor `alpha` if there is
one, and the mapping scales.  (An `out_size` that is not a number fails later, in `ones`.) -/
def convState (d : TState) : Except PyErr (TState × Option (List ℚ) × List ℚ) := do
  let d := cleaned d
  let n ← sizeOf (sget d "out_size")
  let _ ← needCfg (sget d "rpu_config")
  let _ ← needCtx (sget d "analog_ctx")
  let s ← mulOpt (List.replicate n 1) (sget d "mapping_scales")
  let s ← mulOpt s (sget (sdel d "mapping_scales") "analog_alpha_scale")
  .ok (sdel (sdel d "mapping_scales") "analog_alpha_scale", alphaOf (sget d "alpha"), s)

/-- One entry of the checkpoint (legacy.py:137-210): what is stored for it, in order. -/
def convEntry (m : LModel) (all : Chk) (key : Str) (v : CVal) : Except PyErr (List (Str × CVal)) := do
  let name := afterDot key
  if name.isEmpty then .error .valueError
  else
    let pre := before name key
    if name = "bias".toList ∧ (all.any fun p => (pre ++ tileState).isPrefixOf p.1) = true then
      .ok [(if m.convMapped pre then pre ++ name else pre ++ modDot ++ name, v)]
    else if tileState.isPrefixOf name then do
      let k ← keyFromEnding m name tileState pre
      match v with
      | .tensor _ => .error .attributeError
      | .state d => do
        let r ← convState d
        let nk := pre ++ k
        .ok ((match r.2.1 with
          | some a => [(replace tileState "alpha".toList nk, CVal.tensor a)]
          | none => []) ++
          [(replace tileState "mapping_scales".toList nk, .tensor r.2.2), (nk, .state r.1)])
    else if "analog_out_scaling_alpha".toList.isPrefixOf name then do
      let k ← keyFromEnding m (lastPart "analog_".toList name ++ "_0".toList) outAlpha pre
      .ok [(pre ++ k, v)]
    else if "analog_shared_weights".toList.isPrefixOf name then .ok []
    else if ctxName.isPrefixOf name then do
      let k ← keyFromEnding m name ctxName pre
      .ok [(pre ++ k, v)]
    else .ok [(key, v)]

/-- The loop over the checkpoint (legacy.py:135-210). -/
def convLoop (m : LModel) (all : Chk) : Chk → Chk → Except PyErr Chk
  | [], acc => .ok acc
  | p :: t, acc =>
    match convEntry m all p.1 p.2 with
    | .error e => .error e
    | .ok l => convLoop m all t (l.foldl (fun a q => cset a q.1 q.2) acc)

/-- The configuration in a checkpoint value: `value["rpu_config"]`. -/
def cfgOf : CVal → Except PyErr LCfg
  | .tensor _ => .error .indexError
  | .state d => match sget d "rpu_config" with
    | some (.cfg c) => .ok c
    | some _ => .error .attributeError
    | none => .error .keyError

/-- The loop over the configurations (legacy.py:93-133).  Each state is taken to have its own
configuration object. -/
def fixLoop (hasMapped : Bool) : Chk → Except PyErr Chk
  | [] => .ok []
  | (k, v) :: t =>
    if contains tileState k then
      match cfgOf v, v with
      | .error e, _ => .error e
      | .ok c, .state d =>
        match fixCfg hasMapped c with
        | .error e => .error e
        | .ok c' =>
          match fixLoop hasMapped t with
          | .error e => .error e
          | .ok t' => .ok ((k, .state (sset d "rpu_config" (.cfg c'))) :: t')
      | .ok _, .tensor _ => .error .indexError
    else
      match fixLoop hasMapped t with
      | .error e => .error e
      | .ok t' => .ok ((k, v) :: t')

/-- The variable `rpu_config` at the end: the configuration of the last tile of the second loop
(legacy.py:178) or, if there is none, of the first loop (legacy.py:95). -/
def lastCfg (c : Chk) : Except PyErr LCfg :=
  match c.reverse.find? fun p => tileState.isPrefixOf (afterDot p.1) with
  | some p => cfgOf p.2
  | none =>
    match c.reverse.find? fun p => contains tileState p.1 with
    | some p => cfgOf p.2
    | none => .error .unboundLocal

/-- The key by which the function recognises a new checkpoint (legacy.py:88; sic). -/
def newMark : Str := "analog_model.analog_tile_state".toList

/-- `convert_legacy_checkpoint(legacy_chkpt, model)` (legacy.py:24-212).  Also returns the model, whose
limits are changed (legacy.py:81-84). -/
def convert (chk : Chk) (model : Option LModel) : Except PyErr (Chk × LCfg) × Option LModel :=
  match model with
  | none => (.error .attributeError, none)
  | some m =>
    let m' := if m.hasMapped then m else { m with limits := m.limits.map fun _ => (0, 0) }
    match chk.find? fun p => contains newMark p.1 with
    | some p => ((cfgOf p.2).map fun c => (chk, c), some m')
    | none =>
      match fixLoop m.hasMapped chk with
      | .error e => (.error e, some m')
      | .ok fixed =>
        match convLoop m fixed fixed [] with
        | .error e => (.error e, some m')
        | .ok out => ((lastCfg fixed).map fun c => (out, c), some m')

end Aihw.Legacy

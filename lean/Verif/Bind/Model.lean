import Verif.Common

/-!
# Configuration dataclasses and the simulator bindings

Model of `simulator/parameters/helpers.py` (`get_bindings_class`, `parameters_to_bindings`,
`tile_parameters_to_bindings`) and of the `as_bindings` methods of the device classes
(`simulator/configs/devices.py`, `simulator/configs/compounds.py`).

The compiled extension module is not modelled but quantified over: `Lib` says which classes and
enums it has and which attribute assignments it accepts.
-/
namespace Aihw.Bind

/-- The class against which a value is checked: `get_origin(field.type) or field.type`
(helpers.py:113).  `noClass` stands for what `isinstance` refuses with a `TypeError`
(`typing.Union`, a forward-reference string). -/
inductive PType where
  | int | float | bool | list | str | cls (name : String) | noClass
  deriving DecidableEq, Repr

/-- One `dataclasses.Field`: name, checked class, and whether its metadata has a true
`bindings_include`. -/
structure Fld where
  name : String
  type : PType
  incl : Bool
  deriving DecidableEq, Repr

/-- The class variable `bindings_class`: not defined at all, `None`, a string, a class object. -/
inductive BCls where
  | absent | none | str (name : String) | obj (cls : String)
  deriving DecidableEq, Repr

/-- What the class of a dataclass instance defines: its name, `bindings_class`,
`bindings_module` (default `"devices"`), `bindings_ignore` (default `[]`), and its fields. -/
structure Head where
  cname : String
  bcls : BCls
  module : String
  ignore : List String
  flds : List Fld
  deriving DecidableEq, Repr

/- Python values that occur in a configuration; `Dict` is the `__dict__` of a dataclass instance in
insertion order.  A dataclass instance is assumed to hold all its attributes in `__dict__`
(so there is no fall-back to class attributes; true of every instance made by the generated
`__init__`). -/
mutual
inductive Val where
  | none
  | bool (b : Bool)
  | int (i : Int)
  | float (q : ℚ)
  | str (s : String)
  | list (l : List ℚ)
  | other (cls : String)
  | enum (cls member : String)
  | data (h : Head) (d : Dict)
inductive Dict where
  | nil
  | cons (k : String) (v : Val) (d : Dict)
end

/-- `d[k]`. -/
def Dict.get : Dict → String → Option Val
  | .nil, _ => Option.none
  | .cons k v d, q => if k = q then some v else d.get q

/-- `d.keys()`. -/
def Dict.keys : Dict → List String
  | .nil => []
  | .cons k _ d => k :: d.keys

/-- What is stored in a binding object: a Python value as given, a member of a bound enum, or a
nested binding object (its class, and the attributes assigned, latest assignment last). -/
inductive BVal where
  | raw (v : Val)
  | enum (cls member : String)
  | obj (cls : String) (attrs : List (String × BVal))

/-- `RPUDataType`: `FLOAT` or one of the others with its value string. -/
inductive DType where
  | float | other (value : String)
  deriving DecidableEq, Repr

/-- The compiled `rpu_base`: its sub-modules, the typed sub-sub-modules, the classes in them, the
enums of `rpu_base.tiles` and `rpu_base.devices`, and which attribute assignments the bound classes
accept (pybind raises `AttributeError` for unknown names and `TypeError` for values that cannot be
converted). `pulsedBase`, `pulsed` say whether the C++ class derives from
`PulsedRPUDeviceMetaParameterBase`, `PulsedRPUDeviceMetaParameter`. -/
structure Lib where
  hasModule : String → Bool
  hasTyped : String → String → Bool
  cls : String → DType → String → Option String
  tilesEnum : String → Option (List String)
  devEnum : String → Option (List String)
  accepts : String → String → BVal → Option PyErr
  pulsedBase : String → Bool
  pulsed : String → Bool
  mixDevice : String → Bool

/-- `get_bindings_class` (helpers.py:33-61).  Note line 60: when the class is not found the
`ConfigError` is constructed but not raised, and `None` is returned. -/
def getCls (L : Lib) (h : Head) (dt : DType) : Except PyErr (Option String) :=
  match h.bcls with
  | .absent => .ok none
  | .none => .ok none
  | .obj c => .ok (some c)
  | .str s =>
    if L.hasModule h.module then
      match dt with
      | .float => .ok (L.cls h.module .float s)
      | .other t => if L.hasTyped h.module t then .ok (L.cls h.module (.other t) s) else .error .configError
    else .error .attributeError

/-- Enum conversion (helpers.py:100-106): the class of the same name in `rpu_base.tiles`, else in
`rpu_base.devices`, and in it the member named by the value. -/
def enumConv (L : Lib) (c m : String) : Except PyErr BVal :=
  match L.tilesEnum c with
  | some ms => if m ∈ ms then .ok (.enum c m) else .error .attributeError
  | none =>
    match L.devEnum c with
    | some ms => if m ∈ ms then .ok (.enum c m) else .error .attributeError
    | none => .error .attributeError

/-- `isinstance(value, expected)` (helpers.py:114); `bool` is a subclass of `int`. -/
def isInst : Val → PType → Bool
  | .bool _, .bool => true
  | .bool _, .int => true
  | .int _, .int => true
  | .float _, .float => true
  | .str _, .str => true
  | .list _, .list => true
  | .other c, .cls n => decide (c = n)
  | _, _ => false

/-- `isinstance(value, int) and not isinstance(value, bool)`. -/
def isPureInt : Val → Bool
  | .int _ => true
  | _ => false

/-- The type check of a plain value (helpers.py:111-119). -/
def typeCheck (t : PType) (v : Val) : Except PyErr Unit :=
  if t = .noClass then .error .typeError
  else if !(isInst v t) && !(decide (t = .float) && isPureInt v) then .error .configError
  else .ok ()

/-- `setattr(result, name, b)`. -/
def setAttr (L : Lib) (c : String) (attrs : List (String × BVal)) (name : String) (b : BVal) :
    Except PyErr (List (String × BVal)) :=
  match L.accepts c name b with
  | some e => .error e
  | none => .ok (attrs ++ [(name, b)])

/-- An entry of a `__dict__` with the conversion of its value (evaluated only when the field is
reached). -/
structure Entry where
  name : String
  val : Val
  conv : Except PyErr BVal

/-- Look-up in the list of entries. -/
def getE : List Entry → String → Option Entry
  | [], _ => none
  | e :: l, q => if e.name = q then some e else getE l q

/-- Fields never transferred by `parameters_to_bindings` (helpers.py:96). -/
def special : List String := ["unit_cell_devices", "device"]

/-- What the body of the loop (helpers.py:94-121) does with a field: `none` = skip, `some r` = call
`setattr` with the outcome `r`. -/
def fieldConv (ign : List String) (f : Fld) (e : Entry) : Option (Except PyErr BVal) :=
  if f.name ∈ special ∨ f.name ∈ ign then none
  else
    match e.val with
    | .enum _ _ => some e.conv
    | .data h _ => if h.bcls = .absent then none else some e.conv
    | v => some ((typeCheck f.type v).bind fun _ => e.conv)

/-- The loop over the fields (helpers.py:94-121). -/
def fieldLoop (L : Lib) (c : String) (ign : List String) (es : List Entry) :
    List Fld → List (String × BVal) → Except PyErr (List (String × BVal))
  | [], attrs => .ok attrs
  | f :: fs, attrs =>
    match getE es f.name with
    | none => .error .attributeError
    | some e =>
      match fieldConv ign f e with
      | none => fieldLoop L c ign es fs attrs
      | some r =>
        match r with
        | .error x => .error x
        | .ok b =>
          match setAttr L c attrs f.name b with
          | .error x => .error x
          | .ok attrs' => fieldLoop L c ign es fs attrs'

/-- `parameters_to_bindings` after the class is known (helpers.py:80-123).  `check` is
`check_fields`.  The dictionary comprehension of line 83 raises before anything else when an
attribute is missing. -/
def paramsBody (L : Lib) (check : Bool) (h : Head) (c : String) (keys : List String)
    (es : List Entry) : Except PyErr BVal :=
  if h.flds.any fun f => (getE es f.name).isNone then .error .attributeError
  else if check && keys.any fun k => !(decide (k ∈ h.flds.map (·.name))) && !(decide (k ∈ h.ignore)) then
    .error .configError
  else
    match fieldLoop L c h.ignore es h.flds [] with
    | .error x => .error x
    | .ok attrs => .ok (.obj c attrs)

mutual
/-- The value handed to `setattr` for a field value: enums are translated, dataclasses converted by
`parameters_to_bindings` (with `check_fields=True`, helpers.py:110), everything else unchanged. -/
def conv (L : Lib) (dt : DType) : Val → Except PyErr BVal
  | .enum c m => enumConv L c m
  | .data h d =>
    match getCls L h dt with
    | .error x => .error x
    | .ok none => .ok (.raw (.data h d))
    | .ok (some c) => paramsBody L true h c d.keys (entries L dt d)
  | v => .ok (.raw v)
/-- The entries of a `__dict__`. -/
def entries (L : Lib) (dt : DType) : Dict → List Entry
  | .nil => []
  | .cons k v d => { name := k, val := v, conv := conv L dt v } :: entries L dt d
end

/-- `parameters_to_bindings(params, data_type, check_fields)` (helpers.py:64-123). -/
def paramsToB (L : Lib) (dt : DType) (check : Bool) (h : Head) (d : Dict) : Except PyErr BVal :=
  match getCls L h dt with
  | .error x => .error x
  | .ok none => .ok (.raw (.data h d))
  | .ok (some c) => paramsBody L check h c d.keys (entries L dt d)

/-! ## Tile parameters -/

/-- `FIELD_MAP` (helpers.py:30). -/
def fieldMap (n : String) : String :=
  if n = "forward" then "forward_io" else if n = "backward" then "backward_io" else n

/-- `ALWAYS_INCLUDE` (helpers.py:31). -/
def always : List String := ["forward", "backward", "update"]

/-- What `tile_parameters_to_bindings` does with a field value (helpers.py:154-167); no type check,
and a nested dataclass is skipped also when its `bindings_class` is `None`. -/
def tileConv (e : Entry) : Option (Except PyErr BVal) :=
  match e.val with
  | .data h _ => if h.bcls = .absent ∨ h.bcls = .none then none else some e.conv
  | _ => some e.conv

/-- The loop of `tile_parameters_to_bindings` (helpers.py:146-167). -/
def tileLoop (L : Lib) (c : String) (es : List Entry) :
    List Fld → List (String × BVal) → Except PyErr (List (String × BVal))
  | [], attrs => .ok attrs
  | f :: fs, attrs =>
    if f.name ∉ always ∧ f.incl = false then tileLoop L c es fs attrs
    else
      match getE es f.name with
      | none => .error .keyError
      | some e =>
        match tileConv e with
        | none => tileLoop L c es fs attrs
        | some r =>
          match r with
          | .error x => .error x
          | .ok b =>
            match setAttr L c attrs (fieldMap f.name) b with
            | .error x => .error x
            | .ok attrs' => tileLoop L c es fs attrs'

/-- `tile_parameters_to_bindings(params, data_type)` (helpers.py:126-169). -/
def tileToB (L : Lib) (dt : DType) (h : Head) (d : Dict) : Except PyErr BVal :=
  match getCls L h dt with
  | .error x => .error x
  | .ok none => .ok (.raw (.data h d))
  | .ok (some c) =>
    match tileLoop L c (entries L dt d) h.flds [] with
    | .error x => .error x
    | .ok attrs => .ok (.obj c attrs)

/-! ## Device configurations -/

/-- The kinds of device dataclasses by their `as_bindings` method: `simple` (devices.py:54, 282,
325), `vector` (compounds.py:95-107), `reference` (156-178), `oneSided` (272-299), `transfer`
(510-529, also inherited by `BufferedTransferCompound`), `chopped` (851-872 and 1028-1049), and
`mixed` (1191-1199). -/
inductive Kind where
  | simple | vector | reference | oneSided | transfer | chopped | mixed
  deriving DecidableEq, Repr

/-- A device configuration: kind, dataclass, whether `unit_cell_devices` is a list, and the devices
in it (for `mixed`: the single `device`; the other fields are in `d`). -/
inductive DevC where
  | node (k : Kind) (h : Head) (d : Dict) (isList : Bool) (subs : List DevC)

/-- The meta parameter passed to the C++ constructor of a tile: own attributes and appended
devices (`vec_par`, or the device of a mixed precision parameter). -/
inductive BDev where
  | node (own : BVal) (subs : List BDev)

/-- The own attributes. -/
def BDev.own : BDev → BVal
  | .node o _ => o

/-- C++ class of a binding object; `none` if `as_bindings` gave back the dataclass itself. -/
def BVal.ccls : BVal → Option String
  | .obj c _ => some c
  | _ => none

/-- `append_parameter` of a vector-like parameter: `VectorRPUDeviceMetaParameter::appendVecPar`
(rpu_vector_device.cpp:74-82).  A dataclass in place of a binding object raises: as receiver
(`AttributeError`), as argument (`TypeError`). -/
def appendVec (L : Lib) (own : BVal) (vec : List BDev) (b : BDev) : Except PyErr (List BDev) :=
  match own.ccls with
  | none => .error .attributeError
  | some _ =>
    match b.own.ccls with
    | none => .error .typeError
    | some c => if L.pulsedBase c then .ok (vec ++ [b]) else .error .configError

/-- `OneSidedRPUDeviceMetaParameter::appendVecPar` (rpu_onesided_device.cpp:54-68). -/
def appendOne (L : Lib) (own : BVal) (vec : List BDev) (b : BDev) : Except PyErr (List BDev) :=
  match own.ccls with
  | none => .error .attributeError
  | some _ =>
    match b.own.ccls with
    | none => .error .typeError
    | some c =>
      if L.pulsed c = false then .error .configError
      else if 1 < vec.length then .error .configError
      else
        match vec with
        | [] => .ok [b]
        | a :: _ => if a.own.ccls = some c then .ok (vec ++ [b]) else .error .configError

/-- Append the outcomes of `as_bindings` of a list of devices one after the other
(compounds.py:102-105, 173-176). -/
def appendAll (L : Lib) (own : BVal) : List (Except PyErr BDev) → List BDev → Except PyErr (List BDev)
  | [], vec => .ok vec
  | r :: rs, vec =>
    match r with
    | .error x => .error x
    | .ok b =>
      match appendVec L own vec b with
      | .error x => .error x
      | .ok vec' => appendAll L own rs vec'

/-- Append the same binding `n` times (compounds.py:525-527). -/
def appendTimes (L : Lib) (own : BVal) (b : BDev) : Nat → List BDev → Except PyErr (List BDev)
  | 0, vec => .ok vec
  | n + 1, vec =>
    match appendVec L own vec b with
    | .error x => .error x
    | .ok vec' => appendTimes L own b n vec'

/-- `VectorUnitCell.as_bindings` (compounds.py:95-107). -/
def asVector (L : Lib) (own : Except PyErr BVal) (isList : Bool) (rs : List (Except PyErr BDev)) :
    Except PyErr BDev :=
  own.bind fun o =>
    if isList = false then .error .configError
    else (appendAll L o rs []).bind fun v => .ok (.node o v)

/-- The device list used by `ReferenceUnitCell.as_bindings` (compounds.py:163-171); also stored back
into `self.unit_cell_devices`. -/
def refList {α : Type} (l : List α) : Except PyErr (List α) :=
  if 2 < l.length then .ok (l.take 2)
  else match l with
    | [a] => .ok [a, a]
    | _ => if l.length ≠ 2 then .error .configError else .ok l

/-- `ReferenceUnitCell.as_bindings` (compounds.py:156-178). -/
def asReference (L : Lib) (own : Except PyErr BVal) (isList : Bool) (rs : List (Except PyErr BDev)) :
    Except PyErr BDev :=
  own.bind fun o =>
    if isList = false then .error .configError
    else (refList rs).bind fun l => (appendAll L o l []).bind fun v => .ok (.node o v)

/-- `OneSidedUnitCell.as_bindings` (compounds.py:272-299); an empty list raises `IndexError`
(line 279) before the length check. -/
def asOneSided (L : Lib) (own : Except PyErr BVal) (isList : Bool) (rs : List (Except PyErr BDev)) :
    Except PyErr BDev :=
  if isList = false then .error .configError
  else own.bind fun o =>
    match rs with
    | [] => .error .indexError
    | r0 :: rest => r0.bind fun b0 =>
      if 2 < rs.length then .error .configError
      else
        let second : Except PyErr BDev := match rest with
          | [] => .ok b0
          | r1 :: _ => r1
        second.bind fun b1 =>
          (appendOne L o [] b0).bind fun v => (appendOne L o v b1).bind fun v' => .ok (.node o v')

/-- `TransferCompound.as_bindings` (compounds.py:510-529): the first device, then the second
device `n - 1` times. -/
def asTransfer (L : Lib) (own : Except PyErr BVal) (isList : Bool) (rs : List (Except PyErr BDev)) :
    Except PyErr BDev :=
  if isList = false then .error .configError
  else own.bind fun o =>
    match rs with
    | [] => .error .indexError
    | r0 :: rest => r0.bind fun b0 =>
      match rest with
      | [] => .error .indexError
      | r1 :: _ => r1.bind fun b1 =>
        (appendVec L o [] b0).bind fun v =>
          (appendTimes L o b1 (rs.length - 1) v).bind fun v' => .ok (.node o v')

/-- `ChoppedTransferCompound.as_bindings`, `DynamicTransferCompound.as_bindings`
(compounds.py:851-872, 1028-1049). -/
def asChopped (L : Lib) (own : Except PyErr BVal) (isList : Bool) (rs : List (Except PyErr BDev)) :
    Except PyErr BDev :=
  if isList = false then .error .configError
  else if rs.length ≠ 2 then .error .configError
  else asTransfer L own isList rs

/-- `MixedPrecisionCompound.as_bindings` (compounds.py:1191-1199): `set_device_parameter` refuses
some classes. -/
def asMixed (L : Lib) (own : Except PyErr BVal) (rs : List (Except PyErr BDev)) : Except PyErr BDev :=
  own.bind fun o =>
    match rs with
    | [] => .error .attributeError
    | r :: _ => r.bind fun b =>
      match o.ccls with
      | none => .error .attributeError
      | some _ =>
        match b.own.ccls with
        | none => .error .typeError
        | some c => if L.mixDevice c then .ok (.node o [b]) else .error .configError

mutual
/-- `device.as_bindings(data_type)`. -/
def asB (L : Lib) (dt : DType) : DevC → Except PyErr BDev
  | .node k h d isList subs =>
    let own := paramsToB L dt true h d
    let rs := asBs L dt subs
    match k with
    | .simple => own.bind fun o => .ok (.node o [])
    | .vector => asVector L own isList rs
    | .reference => asReference L own isList rs
    | .oneSided => asOneSided L own isList rs
    | .transfer => asTransfer L own isList rs
    | .chopped => asChopped L own isList rs
    | .mixed => asMixed L own rs
/-- The outcomes of `as_bindings` of the listed devices (each evaluated when reached). -/
def asBs (L : Lib) (dt : DType) : List DevC → List (Except PyErr BDev)
  | [] => []
  | c :: cs => asB L dt c :: asBs L dt cs
end

end Aihw.Bind

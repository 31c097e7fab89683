import Verif.Common

/-!
# Model conversion: `convert_to_analog`, `convert_to_digital`

Models nn/conversion.py:80-301 and nn/modules/container.py:61-136 on a heap of module objects, so
that the same module object may be registered under several names.

Simplifications (stated once):
* a module object is its class, its ordered `_modules` dictionary, its `training` flag and one value
  for everything else (parameters, buffers, sizes);
* the inner tiles of a tile array are part of the value of the `analog_module` object, not children;
* `AnalogWrapper` shares the attribute dictionary with the wrapped object, here it is copied (the
  wrapped object is not used afterwards by the modelled code);
* `specific_rpu_config_fun` is a function of the name, the class and the value of the module (not of
  its children) and of the configuration; its calls are logged by module name;
* exceptions end the call, the state of partially converted (deep copied) modules is dropped;
* devices and dtypes are not modelled.
-/
namespace Aihw.Convert

/-- A class: an ordinary class, or the subclass of `(AnalogWrapper, c)` made by
`AnalogWrapper.__new__` (container.py:106-120). -/
inductive Cls where
  | plain (c : Nat)
  | wrapped (c : Nat)
  deriving DecidableEq

/-- A module object. -/
structure Obj (P : Type) where
  cls : Cls
  kids : List (String × Option Nat)
  training : Bool
  val : P
  deriving DecidableEq

/-- Heap, allocation counter, `AnalogWrapper.SUBCLASSES`, calls of `specific_rpu_config_fun`. -/
structure St (P : Type) where
  heap : Nat → Obj P
  next : Nat
  registry : List (String × Nat)
  calls : List String

/-- An entry of the conversion map / set: a container class (`AnalogSequential`, `Sequential`) or a
layer class (`AnalogLinear`, …). -/
inductive Target where
  | container (c : Nat)
  | layer (c : Nat)
  deriving DecidableEq

/-- The classes and their conversions.  `map` is `conversion_map`, `dmap` gives for the classes in
`conversion_set` what `to_digital` makes of them (`none` inside: no `to_digital`).  `enc c cfg v` are
the tile contents `c.from_digital` writes for a digital layer of value `v`, `shell v` the remaining
attributes of the analog layer; `dec c sh tv` is the digital layer `to_digital` builds.  `fresh c` is
the value of a newly constructed container. -/
structure Env (P C : Type) where
  name : Nat → String
  analog : Nat → Bool
  map : Nat → Option Target
  dmap : Nat → Option (Option Target)
  tileCls : Nat
  shell : P → P
  enc : Nat → C → P → Except PyErr P
  dec : Nat → P → P → Except PyErr P
  fresh : Nat → P
  cfg : C
  cfgFun : String → Cls → P → C → C

variable {P C : Type}

/-- torch `Module.named_children`: every distinct child object once, under its first name; `None`
entries are skipped. -/
def namedFrom : List Nat → List (String × Option Nat) → List (String × Nat)
  | _, [] => []
  | memo, (_, none) :: l => namedFrom memo l
  | memo, (n, some j) :: l =>
    if j ∈ memo then namedFrom memo l else (n, j) :: namedFrom (j :: memo) l

def namedChildren (o : Obj P) : List (String × Nat) := namedFrom [] o.kids

/-- `module_name + "." + name if module_name else name` (conversion.py:179, 281). -/
def fullName (nm n : String) : String := if nm = "" then n else nm ++ "." ++ n

/-- Allocate a new object. -/
def St.alloc (st : St P) (o : Obj P) : Nat × St P :=
  (st.next, { st with heap := fun k => if k = st.next then o else st.heap k, next := st.next + 1 })

/-- The value of key `n`. -/
def find {β : Type} (n : String) : List (String × β) → Option β
  | [] => none
  | (m, v) :: l => if m = n then some v else find n l

/-- `module._modules[name] = new_mod` for all entries (conversion.py:208-209, 298-299). -/
def replaceKids (dic : List (String × Nat)) (kids : List (String × Option Nat)) :
    List (String × Option Nat) :=
  kids.map fun p => match find p.1 dic with
    | some k => (p.1, some k)
    | none => p

def St.setKids (st : St P) (i : Nat) (dic : List (String × Nat)) : St P :=
  { st with heap := fun k => if k = i then { st.heap i with kids := replaceKids dic (st.heap i).kids }
                             else st.heap k }

/-- The new container of `AnalogSequential.from_digital` / `to_digital` (container.py:77-85): the
deduplicated children under their names. New modules are in training mode. -/
def newContainer (v : P) (c : Nat) (o : Obj P) : Obj P :=
  ⟨.plain c, (namedChildren o).map (fun p => (p.1, some p.2)), true, v⟩

/-- `conversion_map[cls].from_digital(module, specific_rpu_config_fun(...), ...)`
(conversion.py:170-174, 204-206; container.py:77-80; linear.py:97-126): a container, or an analog
layer with its tile module as child `analog_module`. -/
def fromDigital (E : Env P C) (t : Target) (nm : String) (i : Nat) (st : St P) :
    Except PyErr (Nat × St P) :=
  let o := st.heap i
  let cfg := E.cfgFun nm o.cls o.val E.cfg
  let st := { st with calls := st.calls ++ [nm] }
  match t with
  | .container c => .ok (st.alloc (newContainer (E.fresh c) c o))
  | .layer c =>
    match E.enc c cfg o.val with
    | .error e => .error e
    | .ok v =>
      let (t, st) := st.alloc ⟨.plain E.tileCls, [], true, v⟩
      .ok (st.alloc ⟨.plain c, [("analog_module", some t)], true, E.shell o.val⟩)

/-- The entry of the conversion map for a class: only exact ordinary classes are keys. -/
def Env.target (E : Env P C) : Cls → Option Target
  | .plain c => E.map c
  | .wrapped _ => none

/-- The loop over the children and `convert_dic` (conversion.py:177-206, 279-296). -/
def kidsLoop (step : String → Nat → St P → Except PyErr (Option Nat × St P)) :
    List (String × Nat) → St P → Except PyErr (List (String × Nat) × St P)
  | [], st => .ok ([], st)
  | (n, j) :: l, st =>
    match step n j st with
    | .error e => .error e
    | .ok (r, st) =>
      match kidsLoop step l st with
      | .error e => .error e
      | .ok (d, st) => .ok ((match r with | some k => (n, k) :: d | none => d), st)

/-- The common shape of both conversions: convert the module itself, then its children (recursively if
they have children, else by `leaf`), store the converted children, `finish`.  `skip` says which full
names are skipped with everything below.  The first argument is the recursion limit of the
interpreter. -/
def walk (skip : String → Bool) (self leaf : String → Nat → St P → Except PyErr (Option Nat × St P))
    (finish : String → Nat → St P → Nat × St P) :
    Nat → String → Nat → St P → Except PyErr (Nat × St P)
  | 0, _, _, _ => .error .runtimeError
  | f + 1, nm, i, st =>
    match self nm i st with
    | .error e => .error e
    | .ok (r, st) =>
      let i := r.getD i
      match kidsLoop (fun n j st =>
          if skip (fullName nm n) then .ok (none, st)
          else if 0 < (namedChildren (st.heap j)).length then
            (walk skip self leaf finish f (fullName nm n) j st).map fun p => (some p.1, p.2)
          else leaf (fullName nm n) j st) (namedChildren (st.heap i)) st with
      | .error e => .error e
      | .ok (dic, st) => .ok (finish nm i (st.setKids i dic))

/-- "Convert parent" of `convert_to_analog` (conversion.py:166-174). -/
def selfA (E : Env P C) (ex : List String) (nm : String) (i : Nat) (st : St P) :
    Except PyErr (Option Nat × St P) :=
  match E.target (st.heap i).cls with
  | none => .ok (none, st)
  | some t =>
    if nm ∈ ex then .ok (none, st)
    else (fromDigital E t nm i st).map fun p => (some p.1, p.2)

/-- A child without children (conversion.py:200-206). -/
def leafA (E : Env P C) (nm : String) (i : Nat) (st : St P) : Except PyErr (Option Nat × St P) :=
  match E.target (st.heap i).cls with
  | none => .ok (none, st)
  | some t => (fromDigital E t nm i st).map fun p => (some p.1, p.2)

/-- `isinstance(module, AnalogLayerBase)`. -/
def Env.isAnalog (E : Env P C) : Cls → Bool
  | .plain c => E.analog c
  | .wrapped _ => true

/-- `AnalogWrapper(module)` (container.py:106-123): the subclass is looked up by class *name*. -/
def wrap (E : Env P C) (i : Nat) (st : St P) : Nat × St P :=
  match (st.heap i).cls with
  | .wrapped _ => (i, st)
  | .plain c =>
    match find (E.name c) st.registry with
    | some c' => st.alloc { st.heap i with cls := .wrapped c' }
    | none =>
      { st with registry := st.registry ++ [(E.name c, c)] }.alloc { st.heap i with cls := .wrapped c }

/-- Root wrapping (conversion.py:211-213). -/
def finishA (E : Env P C) (ensure : Bool) (nm : String) (i : Nat) (st : St P) : Nat × St P :=
  if ensure && decide (nm = "") && !E.isAnalog (st.heap i).cls then wrap E i st else (i, st)

/-- `copy.deepcopy`: new objects for all old ones, same structure and sharing. -/
def deepcopy (st : St P) : St P :=
  { st with
    heap := fun k => if k < st.next then st.heap k
      else let o := st.heap (k - st.next)
        { o with kids := o.kids.map fun p => (p.1, p.2.map (· + st.next)) },
    next := st.next + st.next }

/-- `convert_to_analog` (conversion.py:80-215) with a dictionary as conversion map. -/
def convertToAnalog (E : Env P C) (fuel : Nat) (ex : List String) (nm : String)
    (ensure inplace : Bool) (i : Nat) (st : St P) : Except PyErr (Nat × St P) :=
  let w := walk (fun f => decide (f ∈ ex)) (selfA E ex) (leafA E) (finishA E ensure) fuel nm
  if inplace then w i st else w (i + st.next) (deepcopy st)

/-- `to_digital` (container.py:82-85, 130-136; linear.py:128-148): a container, a layer rebuilt from
the tile, or — for wrappers — the base class with the same attributes. -/
def toDigital (E : Env P C) (t : Option Target) (i : Nat) (st : St P) : Except PyErr (Nat × St P) :=
  let o := st.heap i
  match t with
  | none => .error .argumentError
  | some (.container c) => .ok (st.alloc (newContainer (E.fresh c) c o))
  | some (.layer c) =>
    match (find "analog_module" o.kids).join with
    | none => .error .moduleError
    | some t =>
      match E.dec c o.val (st.heap t).val with
      | .error e => .error e
      | .ok v => .ok (st.alloc ⟨.plain c, [], true, v⟩)

/-- "Convert parent" of `convert_to_digital` (conversion.py:269-276). -/
def selfD (E : Env P C) (_ : String) (i : Nat) (st : St P) : Except PyErr (Option Nat × St P) :=
  match (st.heap i).cls with
  | .wrapped c => let r := st.alloc { st.heap i with cls := .plain c }; .ok (some r.1, r.2)
  | .plain c =>
    match E.dmap c with
    | none => .ok (none, st)
    | some t => (toDigital E t i st).map fun p => (some p.1, p.2)

/-- A child without children (conversion.py:288-296): wrappers are not in the set. -/
def leafD (E : Env P C) (_ : String) (i : Nat) (st : St P) : Except PyErr (Option Nat × St P) :=
  match (st.heap i).cls with
  | .wrapped _ => .ok (none, st)
  | .plain c =>
    match E.dmap c with
    | none => .ok (none, st)
    | some t => (toDigital E t i st).map fun p => (some p.1, p.2)

/-- `convert_to_digital` (conversion.py:218-301). -/
def convertToDigital (E : Env P C) (fuel : Nat) (nm : String) (inplace : Bool) (i : Nat) (st : St P) :
    Except PyErr (Nat × St P) :=
  let w := walk (fun _ => false) (selfD E) (leafD E) (fun _ i st => (i, st)) fuel nm
  if inplace then w i st else w (i + st.next) (deepcopy st)

end Aihw.Convert

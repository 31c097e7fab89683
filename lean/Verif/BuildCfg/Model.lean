import Verif.Common

/-!
# `build_config` (src/aihwkit/simulator/configs/helpers.py:36-260)

A configuration is a tree of Python objects.  Every object carries its identity (a number), its
class and its fields; values that cannot be changed in place (numbers, strings, booleans, enum
members, classes) are atoms.  A number that is repeated in a tree stands for an object reached in
two ways.  The next free identity is threaded through the calls.
-/
namespace Aihw.BuildCfg
open Aihw

/-- Values without identity.  `sym` stands for enum members and classes. -/
inductive Atom where
  | none
  | bool (b : Bool)
  | int (i : Int)
  | num (q : ℚ)
  | str (s : String)
  | sym (s : String)
  deriving DecidableEq

/-- Attribute names and list positions. -/
inductive Key where
  | name (s : String)
  | idx (i : Nat)
  deriving DecidableEq

mutual
/-- A Python value: an atom or an object (or list) with its identity, class and attributes. -/
inductive Val where
  | atom (a : Atom)
  | obj (id : Nat) (cls : String) (fs : Fields)
/-- The attribute dictionary of an object. -/
inductive Fields where
  | nil
  | cons (k : Key) (v : Val) (r : Fields)
end

mutual
/-- The identities occurring in a value. -/
def Val.ids : Val → List Nat
  | .atom _ => []
  | .obj i _ fs => i :: fs.ids
/-- The identities occurring in the values of a dictionary. -/
def Fields.ids : Fields → List Nat
  | .nil => []
  | .cons _ v r => v.ids ++ r.ids
end

mutual
/-- The same value with every identity replaced. -/
def Val.rename (f : Nat → Nat) : Val → Val
  | .atom a => .atom a
  | .obj i c fs => .obj (f i) c (fs.rename f)
/-- The same dictionary with every identity replaced. -/
def Fields.rename (f : Nat → Nat) : Fields → Fields
  | .nil => .nil
  | .cons k v r => .cons k (v.rename f) (r.rename f)
end

mutual
/-- A number above every identity of a value. -/
def Val.bound : Val → Nat
  | .atom _ => 0
  | .obj i _ fs => max (i + 1) fs.bound
/-- A number above every identity of a dictionary. -/
def Fields.bound : Fields → Nat
  | .nil => 0
  | .cons _ v r => max v.bound r.bound
end

/-- Dictionary lookup. -/
def Fields.get : Fields → Key → Option Val
  | .nil, _ => none
  | .cons k v r, q => if k = q then some v else r.get q

/-- `d[k] = v`: replaces the value of a present key, adds the key at the end otherwise. -/
def Fields.set : Fields → Key → Val → Fields
  | .nil, q, w => .cons q w .nil
  | .cons k v r, q, w => if k = q then .cons k w r else .cons k v (r.set q w)

/-- `d.update(**kw)`. -/
def Fields.update (fs : Fields) : List (String × Atom) → Fields
  | [] => fs
  | (k, a) :: kw => (fs.set (.name k) (.atom a)).update kw

/-- The keys of a dictionary. -/
def Fields.keys : Fields → List Key
  | .nil => []
  | .cons k _ r => k :: r.keys

/-- `copy.deepcopy(t)` when `n` is the next free identity: the same graph of objects with new
identities (`deepcopy` keeps a memo, so an object reached twice is copied once). -/
def deepcopy (t : Val) (n : Nat) : Val × Nat := (t.rename (n + ·), n + t.bound)

/-- `x.__dict__.update(**kw)` on an object. -/
def dictUpdate : Val → List (String × Atom) → Val
  | .atom a, _ => .atom a
  | .obj i c fs, kw => .obj i c (fs.update kw)

/-- A dataclass: its name and its fields with their defaults.  The identities of the defaults are
local: 0 is the instance itself, the others number the objects made by default factories. -/
structure Cls where
  name : String
  fields : Fields

/-- The field values of a new instance: the keyword arguments where given, new default values
elsewhere (the `__init__` a dataclass generates). -/
def fill (n : Nat) : Fields → Fields → Fields
  | .nil, _ => .nil
  | .cons k d r, args =>
    .cons k ((args.get k).getD (d.rename (n + ·))) (fill n r args)

/-- Calling a dataclass with keyword arguments: a keyword given twice and a keyword that is no
field raise a `TypeError`.  Simplification: all fields have defaults (true of the classes used
here); positional arguments do not occur. -/
def Cls.call (c : Cls) (args : Fields) (n : Nat) : Except PyErr (Val × Nat) :=
  if ¬ args.keys.Nodup then .error .typeError
  else if ¬ ∀ k ∈ args.keys, k ∈ c.fields.keys then .error .typeError
  else .ok (.obj n c.name (fill n c.fields args), n + max 1 c.fields.bound)

/-- Keyword arguments of atoms as a dictionary. -/
def kwFields : List (String × Atom) → Fields
  | [] => .nil
  | (k, a) :: kw => .cons (.name k) (.atom a) (kwFields kw)

/-- What can be passed as `device`, `io_parameters` or `up_parameters`: an instance of the
expected class (`isinstance` holds), a dataclass, any other callable, or anything else (for
example an instance of a unit cell, which is not a `PulsedDevice`). -/
inductive Arg where
  | inst (id : Nat) (cls : String) (fs : Fields)
  | cls (c : Cls)
  | call (f : List (String × Atom) → Nat → Except PyErr (Val × Nat))
  | other

/-- helpers.py:121-152: `device(**kw)`, `io_parameters(**kw)`, `up_parameters(**kw)` after the
`isinstance` replacements: an instance is deep-copied and its `__dict__` updated, a class or
callable is called, and anything else is not callable. -/
def Arg.make : Arg → List (String × Atom) → Nat → Except PyErr (Val × Nat)
  | .inst i c fs, kw, n =>
    .ok (dictUpdate (deepcopy (.obj i c fs) n).1 kw, (deepcopy (.obj i c fs) n).2)
  | .cls c, kw, n => c.call (kwFields kw) n
  | .call f, kw, n => f kw n
  | .other, _, _ => .error .typeError

/-- The three arguments. -/
structure Args where
  device : Arg
  io : Arg
  up : Arg

/-- Which of the three arguments is called. -/
inductive Which where
  | device | io | up
  deriving DecidableEq

/-- The chosen argument. -/
def Args.arg (a : Args) : Which → Arg
  | .device => a.device
  | .io => a.io
  | .up => a.up

mutual
/-- The expressions of which the `return` statements of `build_config` are made. -/
inductive Expr where
  /-- a literal, or the value of `construction_seed` -/
  | lit (a : Atom)
  /-- `device(**kw)`, `io_parameters(**kw)`, `up_parameters(**kw)` -/
  | make (w : Which) (kw : List (String × Atom))
  /-- a list display -/
  | list (es : Exprs)
  /-- calling a dataclass with keyword arguments -/
  | new (c : Cls) (es : Exprs)
  /-- an object that exists already (passed in `**kwargs`) -/
  | given (v : Val)
/-- Keyword arguments, or the entries of a list. -/
inductive Exprs where
  | nil
  | cons (k : Key) (e : Expr) (r : Exprs)
end

mutual
/-- Evaluation of an expression, `n` being the next free identity. -/
def Expr.eval (a : Args) : Expr → Nat → Except PyErr (Val × Nat)
  | .lit x, n => .ok (.atom x, n)
  | .make w kw, n => (a.arg w).make kw n
  | .list es, n =>
    match es.eval a n with
    | .error e => .error e
    | .ok (fs, m) => .ok (.obj m "list" fs, m + 1)
  | .new c es, n =>
    match es.eval a n with
    | .error e => .error e
    | .ok (fs, m) => c.call fs m
  | .given v, n => .ok (v, n)
/-- Evaluation from left to right. -/
def Exprs.eval (a : Args) : Exprs → Nat → Except PyErr (Fields × Nat)
  | .nil, n => .ok (.nil, n)
  | .cons k e r, n =>
    match e.eval a n with
    | .error x => .error x
    | .ok (v, m) =>
      match r.eval a m with
      | .error x => .error x
      | .ok (fs, m') => .ok (.cons k v fs, m')
end

/-- Keyword arguments from a list. -/
def Exprs.of : List (String × Expr) → Exprs
  | [] => .nil
  | (k, e) :: r => .cons (.name k) e (Exprs.of r)

/-- A dictionary from a list. -/
def Fields.of : List (String × Val) → Fields
  | [] => .nil
  | (k, v) :: r => .cons (.name k) v (Fields.of r)

/-- `[e for _ in range(n)]`, starting at position `i`. -/
def Exprs.rep (e : Expr) (i : Nat) : Nat → Exprs
  | 0 => .nil
  | n + 1 => .cons (.idx i) e (Exprs.rep e (i + 1) n)

/-- `**kwargs`: the objects that were passed, not copies. -/
def Exprs.passed : List (String × Val) → Exprs
  | [] => .nil
  | (k, v) :: kw => .cons (.name k) (.given v) (Exprs.passed kw)

/-- `**kwargs` at the end of a call. -/
def Exprs.append : Exprs → List (String × Val) → Exprs
  | .nil, kw => .passed kw
  | .cons k e r, kw => .cons k e (r.append kw)

/-! ### The classes -/

/-- Abbreviations for field defaults. -/
def num (q : ℚ) : Val := .atom (.num q)
/-- An integer default. -/
def int (i : Int) : Val := .atom (.int i)
/-- A boolean default. -/
def boo (b : Bool) : Val := .atom (.bool b)
/-- An enum member or class default. -/
def sym (s : String) : Val := .atom (.sym s)
/-- `field(default_factory=list)`. -/
def emptyList (i : Nat) : Val := .obj i "list" .nil
/-- A default that `build_config` never uses because it always passes the field. -/
def unused : Val := .atom .none

/-- `RuntimeParameter` (parameters/runtime.py:18-60). -/
def runtimeT (i : Nat) : Val := .obj i "RuntimeParameter" (.of
  [("data_type", sym "RPUDataType.FLOAT"), ("on_the_fly_bindings", boo false),
   ("offload_input", boo false), ("offload_gradient", boo false)])

/-- `MappingParameter` (parameters/mapping.py:21-100). -/
def mappingT (i : Nat) : Val := .obj i "MappingParameter" (.of
  [("digital_bias", boo true), ("weight_scaling_omega", num 0),
   ("weight_scaling_columnwise", boo false), ("weight_scaling_lr_compensation", boo false),
   ("learn_out_scaling", boo false), ("out_scaling_columnwise", boo false),
   ("max_input_size", int 512), ("max_output_size", int 512)])

/-- `InputRangeParameter` (parameters/pre_post.py:21-110). -/
def inputRangeT (i : Nat) : Val := .obj i "InputRangeParameter" (.of
  [("enable", boo false), ("learn_input_range", boo true), ("init_value", num 3),
   ("init_from_data", int 100), ("init_std_alpha", num 3), ("decay", num (1 / 1000)),
   ("input_min_percentage", num (95 / 100)), ("manage_output_clipping", boo false),
   ("output_min_percentage", num (95 / 100)), ("gradient_scale", num 1),
   ("gradient_relative", boo true), ("calibration_info", .atom .none)])

/-- `PrePostProcessingParameter` (parameters/pre_post.py:164-171). -/
def prePostT (i j : Nat) : Val := .obj i "PrePostProcessingParameter" (.of
  [("input_range", inputRangeT j)])

/-- The fields of the three RPU configurations (configs/configs.py:73-148,
parameters/base.py:38-48, parameters/mapping.py:129-141, parameters/pre_post.py:184-188).  They
differ in the default of `device`, which is always passed. -/
def configFields : Fields := .of
  [("tile_class", sym "AnalogTile"), ("runtime", runtimeT 1),
   ("pre_post", prePostT 2 3), ("tile_array_class", sym "TileModuleArray"),
   ("mapping", mappingT 4), ("forward", unused), ("backward", unused), ("update", unused),
   ("device", unused)]

/-- configs/configs.py:103-114. -/
def singleCls : Cls := ⟨"SingleRPUConfig", configFields⟩
/-- configs/configs.py:117-128. -/
def unitCellCls : Cls := ⟨"UnitCellRPUConfig", configFields⟩
/-- configs/configs.py:131-148. -/
def digitalCls : Cls := ⟨"DigitalRankUpdateRPUConfig", configFields⟩

/-- `VectorUnitCell` (configs/compounds.py:27-43, 66-93). -/
def vectorCls : Cls := ⟨"VectorUnitCell", .of
  [("unit_cell_devices", unused), ("construction_seed", int 0),
   ("update_policy", sym "VectorUnitCellUpdatePolicy.ALL"), ("first_update_idx", int 0),
   ("gamma_vec", emptyList 1)]⟩

/-- `TransferCompound` (configs/compounds.py:314-508). -/
def transferCls : Cls := ⟨"TransferCompound", .of
  [("unit_cell_devices", unused), ("construction_seed", int 0), ("gamma", num 0),
   ("gamma_vec", emptyList 1), ("transfer_every", num 1), ("no_self_transfer", boo true),
   ("transfer_every_vec", emptyList 2), ("units_in_mbatch", boo true),
   ("n_reads_per_transfer", int 1), ("transfer_columns", boo true), ("with_reset_prob", num 0),
   ("random_selection", boo false), ("fast_lr", num 1), ("transfer_lr", num 1),
   ("transfer_lr_vec", emptyList 3), ("scale_transfer_lr", boo true), ("scale_fast_lr", boo true),
   ("transfer_forward", unused), ("transfer_update", unused)]⟩

/-- `ChoppedTransferCompound` (configs/compounds.py:600-849, over `TransferCompound`). -/
def choppedCls : Cls := ⟨"ChoppedTransferCompound", .of
  [("unit_cell_devices", unused), ("construction_seed", int 0), ("gamma", num 0),
   ("gamma_vec", emptyList 1), ("transfer_every", num 1), ("no_self_transfer", boo true),
   ("transfer_every_vec", emptyList 2), ("units_in_mbatch", boo false),
   ("n_reads_per_transfer", int 1), ("transfer_columns", boo true), ("with_reset_prob", num 0),
   ("random_selection", boo false), ("fast_lr", num 1), ("transfer_lr", num 1),
   ("transfer_lr_vec", emptyList 3), ("scale_transfer_lr", boo true),
   ("scale_fast_lr", boo false), ("transfer_forward", unused), ("transfer_update", unused),
   ("in_chop_prob", num (1 / 10)), ("in_chop_random", boo true), ("out_chop_prob", num 0),
   ("buffer_granularity", num 1), ("auto_granularity", num 0), ("step", num 1),
   ("momentum", num 0), ("forget_buffer", boo true), ("no_buffer", boo false),
   ("auto_scale", boo false), ("auto_momentum", num (99 / 100)),
   ("correct_gradient_magnitudes", boo false)]⟩

/-- `DynamicTransferCompound` (configs/compounds.py:876-1026, over `ChoppedTransferCompound`). -/
def dynamicCls : Cls := ⟨"DynamicTransferCompound", .of
  [("unit_cell_devices", unused), ("construction_seed", int 0), ("gamma", num 0),
   ("gamma_vec", emptyList 1), ("transfer_every", num 1), ("no_self_transfer", boo true),
   ("transfer_every_vec", emptyList 2), ("units_in_mbatch", boo false),
   ("n_reads_per_transfer", int 1), ("transfer_columns", boo true), ("with_reset_prob", num 0),
   ("random_selection", boo false), ("fast_lr", num 1), ("transfer_lr", num 1),
   ("transfer_lr_vec", emptyList 3), ("scale_transfer_lr", boo true),
   ("scale_fast_lr", boo false), ("transfer_forward", unused), ("transfer_update", unused),
   ("in_chop_prob", num (1 / 10)), ("in_chop_random", boo false), ("out_chop_prob", num 0),
   ("buffer_granularity", num 1), ("auto_granularity", num 0), ("step", num 1),
   ("momentum", num 0), ("forget_buffer", boo true), ("no_buffer", boo false),
   ("auto_scale", boo false), ("auto_momentum", num (99 / 100)),
   ("correct_gradient_magnitudes", boo false), ("experimental_correct_accumulation", boo false),
   ("buffer_cap", num 0), ("tail_weightening", num 5)]⟩

/-- `MixedPrecisionCompound` (configs/compounds.py:1058-1189). -/
def mixedCls : Cls := ⟨"MixedPrecisionCompound", .of
  [("device", unused), ("construction_seed", int 0), ("transfer_every", int 1),
   ("n_rows_per_transfer", int (-1)), ("random_row", boo false), ("granularity", num 0),
   ("transfer_lr", num 1), ("n_x_bins", int 0), ("n_d_bins", int 0), ("stoc_round_x", boo true),
   ("stoc_round_d", boo true)]⟩

/-! ### The function -/

/-- `noise_management=NoiseManagementType.NONE, bound_management=BoundManagementType.NONE`
(helpers.py:182-185, 201-204, 224-227). -/
def noManagement : List (String × Atom) :=
  [("noise_management", .sym "NoiseManagementType.NONE"),
   ("bound_management", .sym "BoundManagementType.NONE")]

/-- `[device(), device()]` (helpers.py:180, 199, 222, 245). -/
def twoDevices : Expr := .list (.rep (.make .device []) 0 2)

/-- helpers.py:154-255: the expression returned for an algorithm name (in lower case), without
`**kwargs`; `none` if no branch is taken. -/
def expression (name : String) (nDevices seed : Int) : Option (Cls × Exprs) :=
  if name ∈ ["sgd"] then
    if nDevices = 1 then
      some (singleCls, .of
        [("device", .make .device [("construction_seed", .int seed)]),
         ("forward", .make .io []), ("backward", .make .io []), ("update", .make .up [])])
    else
      some (unitCellCls, .of
        [("device", .new vectorCls (.of
            [("unit_cell_devices", .list (.rep (.make .device []) 0 nDevices.toNat)),
             ("update_policy", .lit (.sym "VectorUnitCellUpdatePolicy.SINGLE_RANDOM")),
             ("construction_seed", .lit (.int seed))])),
         ("forward", .make .io []), ("backward", .make .io []), ("update", .make .up [])])
  else if name ∈ ["tiki-taka", "tt", "ttv1"] then
    some (unitCellCls, .of
      [("device", .new transferCls (.of
          [("unit_cell_devices", twoDevices),
           ("transfer_forward", .make .io noManagement),
           ("transfer_update", .make .up []),
           ("units_in_mbatch", .lit (.bool true)),
           ("construction_seed", .lit (.int seed))])),
       ("forward", .make .io []), ("backward", .make .io []), ("update", .make .up [])])
  else if name ∈ ["ttv2"] then
    some (unitCellCls, .of
      [("device", .new choppedCls (.of
          [("unit_cell_devices", twoDevices),
           ("transfer_forward", .make .io noManagement),
           ("transfer_update", .make .up
             [("desired_bl", .int 1), ("update_bl_management", .bool false),
              ("update_management", .bool false)]),
           ("in_chop_prob", .lit (.num 0)),
           ("units_in_mbatch", .lit (.bool false)),
           ("auto_scale", .lit (.bool false)),
           ("construction_seed", .lit (.int seed))])),
       ("forward", .make .io []), ("backward", .make .io []),
       ("update", .make .up [("desired_bl", .int 5)])])
  else if name ∈ ["chopped-ttv2", "ttv3", "c-ttv2"] then
    some (unitCellCls, .of
      [("device", .new choppedCls (.of
          [("unit_cell_devices", twoDevices),
           ("transfer_forward", .make .io noManagement),
           ("transfer_update", .make .up
             [("desired_bl", .int 1), ("update_bl_management", .bool false),
              ("update_management", .bool false)]),
           ("units_in_mbatch", .lit (.bool false)),
           ("fast_lr", .lit (.num (1 / 10))),
           ("auto_scale", .lit (.bool true)),
           ("construction_seed", .lit (.int seed))])),
       ("forward", .make .io []), ("backward", .make .io []),
       ("update", .make .up [("desired_bl", .int 5)])])
  else if name ∈ ["agad", "ttv4"] then
    some (unitCellCls, .of
      [("device", .new dynamicCls (.of
          [("unit_cell_devices", twoDevices),
           ("transfer_forward", .make .io []),
           ("transfer_update", .make .up
             [("desired_bl", .int 1), ("update_bl_management", .bool true),
              ("update_management", .bool true)]),
           ("auto_scale", .lit (.bool true)),
           ("fast_lr", .lit (.num (1 / 10))),
           ("units_in_mbatch", .lit (.bool false)),
           ("construction_seed", .lit (.int seed))])),
       ("forward", .make .io []), ("backward", .make .io []),
       ("update", .make .up [("desired_bl", .int 5)])])
  else if name ∈ ["mp", "mixed-precision"] then
    some (digitalCls, .of
      [("device", .new mixedCls (.of
          [("device", .make .device [("construction_seed", .int seed)])])),
       ("forward", .make .io []), ("backward", .make .io []), ("update", .make .up [])])
  else none

/-- helpers.py:36-260: `build_config(algorithm, device, io_parameters, up_parameters, n_devices,
construction_seed, **kwargs)`.  `lower` is `str.lower`; `n` is the next free identity. -/
def buildConfig (lower : String → String) (algorithm : String) (a : Args) (nDevices seed : Int)
    (kwargs : List (String × Val)) (n : Nat) : Except PyErr (Val × Nat) :=
  match expression (lower algorithm) nDevices seed with
  | none => .error .argumentError
  | some (c, es) => (Expr.new c (es.append kwargs)).eval a n

end Aihw.BuildCfg

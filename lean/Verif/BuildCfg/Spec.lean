import Verif.BuildCfg.Model

/-!
# What `build_config` promises

A value is described by what one can read in it: along a path of attribute names and list
positions one finds an atom, an object of some class, or nothing.  Identities are not read here;
they are the subject of the statements about sharing.
-/
namespace Aihw.BuildCfg
open Aihw

/-- What is found along a path. -/
def Val.at : Val → List Key → Option Val
  | v, [] => some v
  | .atom _, _ :: _ => none
  | .obj _ _ fs, k :: p =>
    match fs.get k with
    | none => none
    | some w => w.at p

/-- A value without its identity: an atom, or an object of a class. -/
inductive Face where
  | atom (a : Atom)
  | obj (cls : String)
  deriving DecidableEq

/-- The face of a value. -/
def Val.face : Val → Face
  | .atom a => .atom a
  | .obj _ c _ => .obj c

/-- The face found along a path. -/
def Val.look (v : Val) (p : List Key) : Option Face := (v.at p).map Val.face

/-- A description `view` in which some attributes have been given other values. -/
def overridden (kw : List (String × Atom)) (view : List Key → Option Face) :
    List Key → Option Face
  | [] => view []
  | .idx i :: p => view (.idx i :: p)
  | .name k :: p =>
    match kw.lookup k with
    | none => view (.name k :: p)
    | some a => if p = [] then some (.atom a) else none

/-- `v` is what the argument stands for, with the settings `kw`: a copy of the instance with these
attributes changed, an instance of the class with these attributes given and defaults otherwise,
or something the callable returned for `kw`. -/
def Made (arg : Arg) (kw : List (String × Atom)) (v : Val) : Prop :=
  match arg with
  | .inst i c fs => ∀ p, v.look p = overridden kw (Val.obj i c fs).look p
  | .cls c => ∀ p, v.look p = overridden kw (Val.obj 0 c.name c.fields).look p
  | .call f => ∃ n m, f kw n = .ok (v, m)
  | .other => False

/-- What one may want to find at some path of a configuration. -/
inductive Want where
  /-- made from one of the three arguments, with these settings -/
  | made (w : Which) (kw : List (String × Atom))
  | value (a : Atom)
  | cls (name : String)
  | absent

/-- The want is satisfied in `cfg` at the path. -/
def holds (a : Args) (cfg : Val) (p : List Key) : Want → Prop
  | .made w kw => ∃ v, cfg.at p = some v ∧ Made (a.arg w) kw v
  | .value x => cfg.look p = some (.atom x)
  | .cls c => cfg.look p = some (.obj c)
  | .absent => cfg.at p = none

/-- The training algorithms of the documentation.  `sgdMany n` is plain SGD with `n` devices per
unit cell (`n` different from one). -/
inductive Algo where
  | sgdOne | sgdMany (n : Nat) | tikiTaka | ttv2 | choppedTtv2 | agad | mixedPrecision

/-- The documented names. -/
def Algo.names : Algo → List String
  | .sgdOne => ["sgd"]
  | .sgdMany _ => ["sgd"]
  | .tikiTaka => ["tiki-taka", "ttv1", "tt"]
  | .ttv2 => ["ttv2"]
  | .choppedTtv2 => ["chopped-ttv2", "ttv3", "c-ttv2"]
  | .agad => ["agad", "ttv4"]
  | .mixedPrecision => ["mp", "mixed-precision"]

/-- The number of devices asked for only matters for SGD. -/
def Algo.devices (nDevices : Int) : Algo → Prop
  | .sgdOne => nDevices = 1
  | .sgdMany n => nDevices ≠ 1 ∧ n = nDevices.toNat
  | _ => True

/-- The algorithm that a name and a number of devices select. -/
def Selects (name : String) (nDevices : Int) (A : Algo) : Prop :=
  name ∈ A.names ∧ A.devices nDevices

/-- A path of attribute names. -/
def path (l : List String) : List Key := l.map Key.name

/-- The path of the `i`-th device of a unit cell. -/
def devicePath (i : Nat) : List Key := [.name "device", .name "unit_cell_devices", .idx i]

/-- Forward, backward and update settings of the configuration: as in the arguments, where the
newer algorithms want five pulses per update. -/
def periphery (up : List (String × Atom)) : List (List Key × Want) :=
  [(path ["forward"], .made .io []), (path ["backward"], .made .io []),
   (path ["update"], .made .up up)]

/-- The entries under `device`. -/
def ofDevice (l : List (String × Want)) : List (List Key × Want) :=
  l.map fun e => (path ["device", e.1], e.2)

/-- The unit cell holds two devices made from the device argument. -/
def twoDevicesWant : List (List Key × Want) :=
  [(path ["device", "unit_cell_devices"], .cls "list"),
   (devicePath 0, .made .device []), (devicePath 1, .made .device []), (devicePath 2, .absent)]

/-- Settings of a transfer compound that the three chopped algorithms share. -/
def choppedCommon (seed : Int) : List (String × Want) :=
  [("construction_seed", .value (.int seed)), ("gamma", .value (.num 0)),
   ("gamma_vec", .cls "list"), ("transfer_every", .value (.num 1)),
   ("no_self_transfer", .value (.bool true)), ("transfer_every_vec", .cls "list"),
   ("units_in_mbatch", .value (.bool false)), ("n_reads_per_transfer", .value (.int 1)),
   ("transfer_columns", .value (.bool true)), ("with_reset_prob", .value (.num 0)),
   ("random_selection", .value (.bool false)), ("transfer_lr", .value (.num 1)),
   ("transfer_lr_vec", .cls "list"), ("scale_transfer_lr", .value (.bool true)),
   ("scale_fast_lr", .value (.bool false)), ("out_chop_prob", .value (.num 0)),
   ("buffer_granularity", .value (.num 1)), ("auto_granularity", .value (.num 0)),
   ("step", .value (.num 1)), ("momentum", .value (.num 0)),
   ("forget_buffer", .value (.bool true)), ("no_buffer", .value (.bool false)),
   ("auto_momentum", .value (.num (99 / 100))),
   ("correct_gradient_magnitudes", .value (.bool false))]

/-- Reading between the devices is done without noise and bound management. -/
def plainReads : Want := .made .io
  [("noise_management", .sym "NoiseManagementType.NONE"),
   ("bound_management", .sym "BoundManagementType.NONE")]

/-- Writing between the devices is done with single pulses. -/
def singlePulses (managed : Bool) : Want := .made .up
  [("desired_bl", .int 1), ("update_bl_management", .bool managed),
   ("update_management", .bool managed)]

/-- The settings of each algorithm, for a construction seed. -/
def Algo.wants (seed : Int) : Algo → List (List Key × Want)
  | .sgdOne =>
    [([], .cls "SingleRPUConfig"),
     (path ["device"], .made .device [("construction_seed", .int seed)])] ++ periphery []
  | .sgdMany n =>
    [([], .cls "UnitCellRPUConfig"), (path ["device"], .cls "VectorUnitCell"),
     (path ["device", "unit_cell_devices"], .cls "list"), (devicePath n, .absent)] ++
    (List.range n).map (fun i => (devicePath i, .made .device [])) ++
    ofDevice
      [("update_policy", .value (.sym "VectorUnitCellUpdatePolicy.SINGLE_RANDOM")),
       ("construction_seed", .value (.int seed)), ("first_update_idx", .value (.int 0)),
       ("gamma_vec", .cls "list")] ++ periphery []
  | .tikiTaka =>
    [([], .cls "UnitCellRPUConfig"), (path ["device"], .cls "TransferCompound")] ++
    twoDevicesWant ++
    ofDevice
      [("transfer_forward", plainReads), ("transfer_update", .made .up []),
       ("construction_seed", .value (.int seed)), ("gamma", .value (.num 0)),
       ("gamma_vec", .cls "list"), ("transfer_every", .value (.num 1)),
       ("no_self_transfer", .value (.bool true)), ("transfer_every_vec", .cls "list"),
       ("units_in_mbatch", .value (.bool true)), ("n_reads_per_transfer", .value (.int 1)),
       ("transfer_columns", .value (.bool true)), ("with_reset_prob", .value (.num 0)),
       ("random_selection", .value (.bool false)), ("fast_lr", .value (.num 1)),
       ("transfer_lr", .value (.num 1)), ("transfer_lr_vec", .cls "list"),
       ("scale_transfer_lr", .value (.bool true)), ("scale_fast_lr", .value (.bool true))] ++
    periphery []
  | .ttv2 =>
    [([], .cls "UnitCellRPUConfig"), (path ["device"], .cls "ChoppedTransferCompound")] ++
    twoDevicesWant ++ ofDevice (choppedCommon seed) ++
    ofDevice
      [("transfer_forward", plainReads), ("transfer_update", singlePulses false),
       ("in_chop_prob", .value (.num 0)), ("in_chop_random", .value (.bool true)),
       ("auto_scale", .value (.bool false)), ("fast_lr", .value (.num 1))] ++
    periphery [("desired_bl", .int 5)]
  | .choppedTtv2 =>
    [([], .cls "UnitCellRPUConfig"), (path ["device"], .cls "ChoppedTransferCompound")] ++
    twoDevicesWant ++ ofDevice (choppedCommon seed) ++
    ofDevice
      [("transfer_forward", plainReads), ("transfer_update", singlePulses false),
       ("in_chop_prob", .value (.num (1 / 10))), ("in_chop_random", .value (.bool true)),
       ("auto_scale", .value (.bool true)), ("fast_lr", .value (.num (1 / 10)))] ++
    periphery [("desired_bl", .int 5)]
  | .agad =>
    [([], .cls "UnitCellRPUConfig"), (path ["device"], .cls "DynamicTransferCompound")] ++
    twoDevicesWant ++ ofDevice (choppedCommon seed) ++
    ofDevice
      [("transfer_forward", .made .io []), ("transfer_update", singlePulses true),
       ("in_chop_prob", .value (.num (1 / 10))), ("in_chop_random", .value (.bool false)),
       ("auto_scale", .value (.bool true)), ("fast_lr", .value (.num (1 / 10))),
       ("experimental_correct_accumulation", .value (.bool false)),
       ("buffer_cap", .value (.num 0)), ("tail_weightening", .value (.num 5))] ++
    periphery [("desired_bl", .int 5)]
  | .mixedPrecision =>
    [([], .cls "DigitalRankUpdateRPUConfig"), (path ["device"], .cls "MixedPrecisionCompound")] ++
    ofDevice
      [("device", .made .device [("construction_seed", .int seed)]),
       ("construction_seed", .value (.int 0)), ("transfer_every", .value (.int 1)),
       ("n_rows_per_transfer", .value (.int (-1))), ("random_row", .value (.bool false)),
       ("granularity", .value (.num 0)), ("transfer_lr", .value (.num 1)),
       ("n_x_bins", .value (.int 0)), ("n_d_bins", .value (.int 0)),
       ("stoc_round_x", .value (.bool true)), ("stoc_round_d", .value (.bool true))] ++
    periphery []

/-- The fields of a configuration that `**kwargs` may set, and what they hold otherwise. -/
def optional : List (String × List (List Key × Want)) :=
  [("tile_class", [([], .value (.sym "AnalogTile"))]),
   ("tile_array_class", [([], .value (.sym "TileModuleArray"))]),
   ("runtime", [([], .cls "RuntimeParameter"),
     (path ["data_type"], .value (.sym "RPUDataType.FLOAT")),
     (path ["on_the_fly_bindings"], .value (.bool false)),
     (path ["offload_input"], .value (.bool false)),
     (path ["offload_gradient"], .value (.bool false))]),
   ("mapping", [([], .cls "MappingParameter"), (path ["digital_bias"], .value (.bool true)),
     (path ["weight_scaling_omega"], .value (.num 0)),
     (path ["weight_scaling_columnwise"], .value (.bool false)),
     (path ["weight_scaling_lr_compensation"], .value (.bool false)),
     (path ["learn_out_scaling"], .value (.bool false)),
     (path ["out_scaling_columnwise"], .value (.bool false)),
     (path ["max_input_size"], .value (.int 512)),
     (path ["max_output_size"], .value (.int 512))]),
   ("pre_post", [([], .cls "PrePostProcessingParameter"),
     (path ["input_range"], .cls "InputRangeParameter"),
     (path ["input_range", "enable"], .value (.bool false)),
     (path ["input_range", "learn_input_range"], .value (.bool true)),
     (path ["input_range", "init_value"], .value (.num 3)),
     (path ["input_range", "init_from_data"], .value (.int 100)),
     (path ["input_range", "init_std_alpha"], .value (.num 3)),
     (path ["input_range", "decay"], .value (.num (1 / 1000))),
     (path ["input_range", "input_min_percentage"], .value (.num (95 / 100))),
     (path ["input_range", "manage_output_clipping"], .value (.bool false)),
     (path ["input_range", "output_min_percentage"], .value (.num (95 / 100))),
     (path ["input_range", "gradient_scale"], .value (.num 1)),
     (path ["input_range", "gradient_relative"], .value (.bool true)),
     (path ["input_range", "calibration_info"], .value .none)])]

/-- The keyword arguments that can be passed on: each once, and only these. -/
def Passable (kwargs : List (String × Val)) : Prop :=
  (kwargs.map Prod.fst).Nodup ∧
  ∀ k ∈ kwargs.map Prod.fst,
    k ∈ ["tile_class", "tile_array_class", "runtime", "mapping", "pre_post"]

/-- An argument only returns new objects. -/
def Fresh (arg : Arg) : Prop :=
  match arg with
  | .call f => ∀ kw n v m, f kw n = .ok (v, m) → n ≤ m ∧ ∀ i ∈ v.ids, n ≤ i ∧ i < m
  | _ => True

/-- What the argument returns reaches every object in one way only. -/
def Treelike (arg : Arg) : Prop :=
  match arg with
  | .inst i c fs => (Val.obj i c fs).ids.Nodup
  | .cls c => (Val.obj 0 c.name c.fields).ids.Nodup
  | .call f => ∀ kw n v m, f kw n = .ok (v, m) → v.ids.Nodup
  | .other => True

/-- The argument is an instance, or a class that knows the given settings. -/
def Accepts (arg : Arg) (settings : List String) : Prop :=
  match arg with
  | .inst _ _ _ => True
  | .cls c => ∀ s ∈ settings, Key.name s ∈ c.fields.keys
  | _ => False

/-- The object with identity `i` is found in `v` at the path. -/
def Sits (v : Val) (p : List Key) (i : Nat) : Prop := ∃ c fs, v.at p = some (.obj i c fs)

end Aihw.BuildCfg

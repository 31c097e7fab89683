import Verif.BuildCfg.Props3

/-! # Concrete cases -/
namespace Aihw.BuildCfg
open Aihw

/-- A device instance with its own seed and a nested parameter object. -/
def exDevice : Arg := .inst 3 "ConstantStepDevice" (.of
  [("construction_seed", int 123), ("w_max", num (6 / 10)),
   ("drift", .obj 4 "SimpleDriftParameter" (.of [("nu", num 0)]))])

/-- The class of the forward and backward parameters (shortened). -/
def exIo : Arg := .cls ⟨"IOParameters", .of
  [("noise_management", sym "NoiseManagementType.ABS_MAX"),
   ("bound_management", sym "BoundManagementType.ITERATIVE"), ("inp_res", num (1 / 126))]⟩

/-- The class of the update parameters (shortened). -/
def exUp : Arg := .cls ⟨"UpdateParameters", .of
  [("desired_bl", int 31), ("update_bl_management", boo true), ("update_management", boo true)]⟩

/-- The three arguments. -/
def exArgs : Args := ⟨exDevice, exIo, exUp⟩

/-- A mapping passed as keyword argument. -/
def exMapping : Val := .obj 7 "MappingParameter" (.of [("max_input_size", int 256)])

/-- A lower-case function for the examples. -/
def exLower (s : String) : String := if s = "TTv2" then "ttv2" else s

theorem ex_ttv2 : ∃ cfg m, buildConfig exLower "TTv2" exArgs 1 5 [("mapping", exMapping)] 10 =
    .ok (cfg, m) := ⟨_, _, rfl⟩

-- the hypotheses of the theorems are met
example : Selects (exLower "TTv2") 1 .ttv2 := ⟨by decide, trivial⟩
example : Selects "sgd" 4 (.sgdMany 4) := ⟨by decide, by decide, rfl⟩
example : ∀ w, Fresh (exArgs.arg w) := by intro w; cases w <;> trivial
example : ∀ w, Treelike (exArgs.arg w) := by
  intro w
  cases w
  · show List.Nodup _; decide +kernel
  · show List.Nodup _; decide +kernel
  · show List.Nodup _; decide +kernel
example : Accepts exArgs.device ["construction_seed"] := trivial
example : Accepts exArgs.io ["noise_management", "bound_management"] := by
  intro s hs
  simp only [List.mem_cons, List.not_mem_nil, or_false] at hs
  rcases hs with rfl | rfl <;> decide +kernel
example : Passable [("mapping", exMapping)] := ⟨by simp, by simp⟩
example : ∀ e ∈ [("mapping", exMapping)], ∀ i ∈ e.2.ids, i < 10 := by decide +kernel

/-- What is read in the configuration. -/
def exRead (alg : String) (nd : Int) (p : List Key) : Option Face :=
  match buildConfig exLower alg exArgs nd 5 [("mapping", exMapping)] 10 with
  | .ok (cfg, _) => cfg.look p
  | .error _ => none

example : exRead "TTv2" 1 (path ["device", "transfer_update", "desired_bl"]) =
    some (.atom (.int 1)) := by decide +kernel
example : exRead "TTv2" 1 (path ["update", "desired_bl"]) = some (.atom (.int 5)) := by
  decide +kernel
example : exRead "TTv2" 1 (path ["update", "update_management"]) = some (.atom (.bool true)) := by
  decide +kernel
example : exRead "TTv2" 1 (devicePath 1 ++ path ["construction_seed"]) =
    some (.atom (.int 123)) := by decide +kernel
example : exRead "sgd" 1 (path ["device", "construction_seed"]) = some (.atom (.int 5)) := by
  decide +kernel
example : exRead "sgd" 3 (devicePath 2 ++ path ["drift", "nu"]) = some (.atom (.num 0)) := by
  decide +kernel
example : exRead "sgd" 3 (devicePath 3) = none := by decide +kernel
-- a number of devices below one gives an empty unit cell
example : exRead "sgd" (-2) (path ["device", "unit_cell_devices"]) = some (.obj "list") := by
  decide +kernel
example : exRead "sgd" (-2) (devicePath 0) = none := by decide +kernel
example : exRead "TTv2" 1 (path ["mapping", "max_input_size"]) = some (.atom (.int 256)) := by
  decide +kernel

/-- The identity of the object found at a path. -/
def exId (alg : String) (p : List Key) : Option Nat :=
  match buildConfig exLower alg exArgs 1 5 [("mapping", exMapping)] 10 with
  | .ok (cfg, _) =>
    match cfg.at p with
    | some (.obj i _ _) => some i
    | _ => none
  | .error _ => none

-- the passed mapping is the very object, the devices are copies
example : exId "TTv2" (path ["mapping"]) = some 7 := by decide +kernel
example : exId "TTv2" (devicePath 0) ≠ exId "TTv2" (devicePath 1) := by decide +kernel
example : exId "TTv2" (devicePath 0) ≠ some 3 := by decide +kernel
example : exId "TTv2" (path ["forward"]) ≠ exId "TTv2" (path ["backward"]) := by decide +kernel

/-- The kind of failure. -/
def exErr (alg : String) (a : Args) (kw : List (String × Val)) : Option PyErr :=
  match buildConfig exLower alg a 1 5 kw 10 with
  | .ok _ => none
  | .error e => some e

example : exErr "adam" exArgs [] = some .argumentError := by decide +kernel
example : exErr "sgd" exArgs [("forward", int 0)] = some .typeError := by decide +kernel
example : exErr "sgd" exArgs [("clip", int 0)] = some .typeError := by decide +kernel
-- the instance of a unit cell is not a pulsed device and cannot be called
example : exErr "sgd" ⟨.other, exIo, exUp⟩ [] = some .typeError := by decide +kernel

/-- A function that returns the same object whenever it is called. -/
def exConstant : Arg := .call fun _ n => .ok (.obj 3 "IOParameters" .nil, n)

-- with it, forward and backward are one object: freshness of the argument is needed
example : (match buildConfig exLower "sgd" ⟨exDevice, exConstant, exUp⟩ 1 5 [] 10 with
    | .ok (cfg, _) => (match cfg.at (path ["forward"]), cfg.at (path ["backward"]) with
      | some (.obj i _ _), some (.obj j _ _) => decide (i = j)
      | _, _ => false)
    | .error _ => false) = true := by decide +kernel

end Aihw.BuildCfg

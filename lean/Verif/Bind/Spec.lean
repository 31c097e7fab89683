import Verif.Bind.Model

/-!
# Specification vocabulary for configurations and bindings

Attribute paths: `cfg.a.b.c` is `Val.at cfg ["a", "b", "c"]`, and on the simulator side
`binding.a.b.c` is `BVal.at binding ["a", "b", "c"]`.
-/
namespace Aihw.Bind

/-- `getattr(v, n)` on a configuration value. -/
def Val.attr : Val → String → Option Val
  | .data _ d, n => d.get n
  | _, _ => Option.none

/-- Nested attribute access. -/
def Val.at : Val → List String → Option Val
  | v, [] => some v
  | v, n :: p => (v.attr n).bind fun w => w.at p

/-- The value last assigned to an attribute. -/
def lastOf : List (String × BVal) → String → Option BVal
  | [], _ => none
  | kb :: l, n => (lastOf l n).or (if kb.1 = n then some kb.2 else none)

/-- The value assigned to an attribute of a binding (`none`: never assigned, so the default of the
C++ class is in place). -/
def BVal.attr : BVal → String → Option BVal
  | .obj _ attrs, n => lastOf attrs n
  | .raw v, n => (v.attr n).map .raw
  | .enum _ _, _ => none

/-- Nested attribute access. -/
def BVal.at : BVal → List String → Option BVal
  | b, [] => some b
  | b, n :: p => (b.attr n).bind fun c => c.at p

/-- A setting that is not itself a dataclass. -/
def Plain : Val → Prop
  | .data _ _ => False
  | _ => True

/-- The dataclass (if it is one) declares a `bindings_class`. -/
def Declares : Val → Prop
  | .data h _ => h.bcls ≠ .absent
  | _ => True

/-- The fields that hold devices: they are bound by their own code and never copied as settings. -/
def structural : List String := ["unit_cell_devices", "device"]

/-- The attribute path goes through declared fields only, none of them a device field or listed as
ignored, and through dataclasses that declare a `bindings_class`. -/
def Travels : Val → List String → Prop
  | _, [] => True
  | .data h d, n :: p =>
    n ∈ h.flds.map (·.name) ∧ n ∉ structural ∧ n ∉ h.ignore ∧
      ∃ w : Val, d.get n = some w ∧ Declares w ∧ Travels w p
  | _, _ :: _ => False

/-- The simulator holds the same setting: the Python value itself, or the bound enum member of the
same name. -/
def Same (v : Val) (b : BVal) : Prop :=
  b = .raw v ∨ ∃ c m : String, v = .enum c m ∧ b = .enum c m

/-- Which values a declared type admits: Python's `int` admits `bool`, `float` admits `int` but not
`bool`, everything else only itself. -/
def Fits : PType → Val → Prop
  | .int, v => (∃ i : Int, v = .int i) ∨ ∃ b : Bool, v = .bool b
  | .float, v => (∃ q : ℚ, v = .float q) ∨ ∃ i : Int, v = .int i
  | .bool, v => ∃ b : Bool, v = .bool b
  | .list, v => ∃ l : List ℚ, v = .list l
  | .str, v => ∃ s : String, v = .str s
  | .cls n, v => v = .other n
  | .noClass, _ => False

/-- A field whose value is handed to the simulator. -/
def Moves (h : Head) (f : Fld) (v : Val) : Prop :=
  f.name ∉ structural ∧ f.name ∉ h.ignore ∧ Declares v

/-- Enums and dataclasses are not type checked, other values are. -/
def TypeOk (f : Fld) : Val → Prop
  | .enum _ _ => True
  | .data _ _ => True
  | v => Fits f.type v

end Aihw.Bind

import Verif.QConvert.Model

/-!
# Specification vocabulary for `convert_to_quantized`

Lookups by path and what "visited" means, independent of the conversion code.
-/
namespace Aihw.QConvert

variable {T : Type}

/-- The slot of name `n`: identity and object. -/
def Kids.get : Kids T → String → Option (Nat × Mod T)
  | .nil, _ => none
  | .cons n i m rest, a => if n = a then some (i, m) else rest.get a

/-- The first name under which the object `i` is registered. -/
def Kids.firstName : Kids T → Nat → Option String
  | .nil, _ => none
  | .cons n i _ rest, j => if i = j then some n else rest.firstName j

def Kids.names : Kids T → List String
  | .nil => []
  | .cons n _ _ rest => n :: rest.names

/-- `model.get_submodule(path)`. -/
def Mod.at : Mod T → List String → Option (Mod T)
  | m, [] => some m
  | .node _ _ ks, n :: p =>
    match ks.get n with
    | none => none
    | some (_, k) => k.at p

/-- The name of a module in the state dict. -/
def dotted (p : List String) : String := ".".intercalate p

/-- torch does not allow an empty child name. -/
def NamesOk (m : Mod T) : Prop := ∀ q x, m.at q = some x → "" ∉ x.kids.names

/-- The map says something about a module of this name and class. -/
def Selected (qm : QMap) (p : List String) (c : Cls) : Prop :=
  (∃ mc, (dotted p, mc) ∈ qm.byName) ∨ ∃ mc, (c, mc) ∈ qm.byClass

/-- The entry which applies: the one for the name, else the one for the class.  (Dictionaries: the
first pair of a key is the entry.) -/
def Applies (qm : QMap) (p : List String) (c : Cls) (mc : QModCfg) : Prop :=
  qm.byName.lookup (dotted p) = some mc ∨
    (qm.byName.lookup (dotted p) = none ∧ (qm.byClass.find? fun e => e.1 = c).map (·.2) = some mc)

/-- Where the inside of the slot at `r` of the result is: a module (not the root) with an entry in the
input map is wrapped. -/
def inside (qm : QMap) (p r : List String) : List String :=
  if p ≠ [] ∧ (qm.inputs.lookup (dotted p)).isSome then r ++ ["module"] else r

/-- The conversion gets to the module `x` at `p`; its slot in the result is at `r`.  It gets from a
module to a child if the module is not excluded, not a quantizer and not selected itself, and the
child is under its first name. -/
inductive Visited (qm : QMap) (model : Mod T) : List String → Mod T → List String → Prop
  | root : Visited qm model [] model []
  | child {p r : List String} {c : Cls} {v : Val T} {ks : Kids T} {n : String} {i : Nat} {x : Mod T} :
      Visited qm model p (.node c v ks) r →
      dotted p ∉ qm.excluded → (∀ l, c ≠ .leaf l) → ¬Selected qm p c →
      ks.get n = some (i, x) → ks.firstName i = some n →
      Visited qm model (p ++ [n]) x (inside qm p r ++ [n])

/-- What `enable_quant_states` promises about the value of one module. -/
def Refreshed (v v' : Val T) : Prop :=
  v'.attrs = v.attrs ∧ v'.weight = v.weight ∧ v'.bias = v.bias ∧ v'.training = v.training ∧
    v'.requiresGrad = v.requiresGrad ∧
    (v.q = none → v'.q = none) ∧
    ∀ s, v.q = some s → ∃ s', v'.q = some s' ∧ s'.cfg = s.cfg ∧ (s'.quantW = true ↔ 0 < s.cfg.bitsW) ∧
      (s'.quantA = true ↔ 0 < s.cfg.bitsA)

/-- The same module tree, except that the quantization states are those of the configuration. -/
def SameTree (m m' : Mod T) : Prop :=
  ∀ q, (m.at q = none ↔ m'.at q = none) ∧
    ∀ x x', m.at q = some x → m'.at q = some x' →
      x'.cls = x.cls ∧ x'.kids.names = x.kids.names ∧ Refreshed x.val x'.val

/-- A module that is neither excluded nor a quantizer. -/
def Active (qm : QMap) (p : List String) (x : Mod T) : Prop :=
  dotted p ∉ qm.excluded ∧ ∀ l, x.cls ≠ .leaf l

/-- The configuration asks for quantization. -/
def Wants (mc : QModCfg) : Prop := 0 < mc.cfg.bitsA ∨ 0 < mc.cfg.bitsW

end Aihw.QConvert

import Verif.QStates.Props

/-!
# C86: concrete cases

A model (0) with two children: a quantized layer (1) with its two quantizers (2 and 3) and a second name for the
same layer, and a quantized activation (4) whose quantizer (5) has a fixed range.  Object 9 is not part of it.
-/
namespace Aihw.QStates.Examples
open Aihw Aihw.Quant Aihw.QStates

/-- The layer. -/
def layer : Tree := .node 1 [.node 2 [], .node 3 []]
/-- The model. -/
def model : Tree := .node 0 [layer, layer, .node 4 [.node 5 []]]
/-- The objects. -/
def heap : Heap := fun i =>
  if i = 1 then .qmod ⟨false, false, true, 8, 0, some 2, some 3⟩
  else if i = 2 then .man ⟨.estimateTrain, true, true⟩
  else if i = 3 then .man ⟨.estimateTrain, false, true⟩
  else if i = 4 then .qmod ⟨false, false, false, 4, 4, none, some 5⟩
  else if i = 5 then .man ⟨.fix, true, false⟩
  else .plain

/-- The subtrees of a tree, as a list. -/
theorem sub_leaf {s : Tree} {i : Nat} (h : Sub s (.node i [])) : s = .node i [] := by
  cases h with
  | refl => rfl
  | kid hk _ => cases hk

theorem sub_layer {s : Tree} (h : Sub s layer) : s = layer ∨ s = .node 2 [] ∨ s = .node 3 [] := by
  cases h with
  | refl => exact Or.inl rfl
  | kid hk hs =>
    rcases List.mem_cons.mp hk with rfl | hk
    · exact Or.inr (Or.inl (sub_leaf hs))
    · rcases List.mem_cons.mp hk with rfl | hk
      · exact Or.inr (Or.inr (sub_leaf hs))
      · cases hk

theorem sub_model {s : Tree} (h : Sub s model) :
    s = model ∨ s = layer ∨ s = .node 2 [] ∨ s = .node 3 [] ∨ s = .node 4 [.node 5 []] ∨ s = .node 5 [] := by
  cases h with
  | refl => exact Or.inl rfl
  | kid hk hs =>
    simp only [List.mem_cons, List.not_mem_nil, or_false] at hk
    rcases hk with rfl | rfl | rfl
    · rcases sub_layer hs with h | h | h <;> simp [h]
    · rcases sub_layer hs with h | h | h <;> simp [h]
    · cases hs with
      | refl => simp
      | kid hk hs =>
        simp only [List.mem_cons, List.not_mem_nil, or_false] at hk
        subst hk
        simp [sub_leaf hs]

/-- The model is consistent although the layer occurs twice. -/
theorem model_consistent : Consistent model := by
  intro a b ha hb h
  rcases sub_model ha with rfl | rfl | rfl | rfl | rfl | rfl <;>
    rcases sub_model hb with rfl | rfl | rfl | rfl | rfl | rfl <;>
    first | rfl | (exact absurd h (by decide))

/-- The shared layer is visited once, after its children. -/
example : visit model = [2, 3, 1, 5, 4, 0] := by decide

/-- `fix_ranges` skips the uninitialised quantizer 3. -/
example : (exec model heap (.ranges .fix)).map (fun h => (h 2, h 3)) =
    .ok (.man ⟨.fix, true, true⟩, .man ⟨.estimateTrain, false, true⟩) := by rfl

/-- `reset_act_ranges` raises: the quantizer of the activation has no estimator. -/
example : exec model heap .resetActs = .error .attributeError :=
  (C86_reset model model_consistent heap).2 ⟨5, ⟨4, _, ⟨_, .kid (k := .node 4 [.node 5 []]) (by simp) (.refl _), rfl⟩,
    rfl, rfl⟩, by rintro (h | ⟨m, h, he⟩) <;> cases h; cases he⟩

/-- The layer alone can be reset. -/
example : (exec layer heap .resetActs).map (fun h => (h 2, h 3)) =
    .ok (.man ⟨.estimateTrain, true, true⟩, .man ⟨.estimateTrain, false, true⟩) := by rfl

/-- `enable_quant_states` after `full_precision`: the layer has bits for its weights only. -/
example : (execAll model heap [.both false, .enable, .acts false]).map (fun h => (h 1, h 4)) =
    .ok (.qmod ⟨true, false, false, 8, 0, some 2, some 3⟩, .qmod ⟨true, false, false, 4, 4, none, some 5⟩) := by rfl

/-- Object 9 is outside of everything. -/
example : ¬ Reach model 9 := by
  rintro ⟨s, hs, h⟩
  rcases sub_model hs with rfl | rfl | rfl | rfl | rfl | rfl <;> exact absurd h (by decide)

end Aihw.QStates.Examples

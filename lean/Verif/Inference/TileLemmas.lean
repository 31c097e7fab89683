import Verif.Inference.Tile
import Mathlib.Tactic.SplitIfs

/-! # Frame lemmas for the inference tile -/
namespace Aihw.Periphery

/-- The method does not change the observation `f`. -/
def Pres {α β : Type} (f : Tile → α) (m : Op β) : Prop := ∀ t, f (m t).2 = f t

namespace Pres
variable {α β γ : Type} {f : Tile → α}

theorem bind {m : Op β} {g : β → Op γ} (h : Pres f m) (hg : ∀ a, Pres f (g a)) : Pres f (m >>= g) := by
  intro t
  show f (Op.bind m g t).2 = f t
  unfold Op.bind
  have := h t
  cases hm : m t with
  | mk r t' =>
    rw [hm] at this
    cases r with
    | error e => exact this
    | ok a => exact (hg a t').trans this

theorem get : Pres f Op.get := fun _ => rfl
theorem pure {a : β} : Pres f (Pure.pure a : Op β) := fun _ => rfl
theorem throw {e : PyErr} : Pres f (Op.throw e : Op β) := fun _ => rfl
theorem lift {e : Except PyErr β} : Pres f (Op.lift e) := fun _ => rfl
theorem modify {g : Tile → Tile} (h : ∀ t, f (g t) = f t) : Pres f (Op.modify g) := fun t => h t
end Pres

section
variable {α : Type} {f : Tile → α}

theorem setMappingScales_pres (h1 : ∀ t v, f { t with mappingScales := v } = f t)
    (h2 : ∀ t v, f { t with mappingLrScale := v } = f t) (a : ScaleArg) : Pres f (setMappingScales a) := by
  unfold setMappingScales
  refine Pres.get.bind fun t => ?_
  split
  · exact Pres.modify fun t => h1 t _
  · exact Pres.modify fun t => h1 t _
  · dsimp only
    refine (Pres.modify fun t => h1 t _).bind fun _ => ?_
    split
    · split
      · exact Pres.throw
      · exact Pres.modify fun t => h2 t _
    · exact Pres.pure

theorem setLearned_pres (h : ∀ t v, f { t with learned := v } = f t) (a : Vec) : Pres f (setLearnedOutScales a) := by
  unfold setLearnedOutScales
  refine Pres.get.bind fun t => ?_
  split
  · exact Pres.pure
  · split_ifs
    · exact Pres.modify fun t => h t _
    · exact Pres.modify fun t => h t _
    · exact Pres.throw

theorem setInputRange_pres (h : ∀ t v, f { t with inputRange := v } = f t) (v : ℚ) : Pres f (setInputRange v) := by
  unfold setInputRange
  refine Pres.get.bind fun t => ?_
  split
  · exact Pres.throw
  · exact Pres.modify fun t => h t _

theorem irUpdate_pres (h : ∀ t v n, f { t with inputRange := v, irIdx := n } = f t) (p : IRPars) (std : ℚ) (t : Tile) :
    f (irUpdate p std t) = f t := by
  unfold irUpdate
  split_ifs
  · exact h t _ _
  · exact h t _ t.irIdx
  · rfl

theorem applyInputRange_pres (h : ∀ t v n, f { t with inputRange := v, irIdx := n } = f t) (x : Vec) (std : ℚ) (b : Bool) :
    Pres f (applyInputRange x std b) := by
  unfold applyInputRange
  refine Pres.get.bind fun t => ?_
  split
  · refine (Pres.modify fun t => ?_).bind fun _ => Pres.get.bind fun _ => Pres.pure
    split_ifs
    · exact irUpdate_pres h _ _ _
    · rfl
  · exact Pres.pure

theorem preForward_pres (h : ∀ t v n, f { t with inputRange := v, irIdx := n } = f t) (x : Vec) (std : ℚ) (b : Bool) :
    Pres f (preForward x std b) := by
  unfold preForward
  refine Pres.get.bind fun t => ?_
  split
  · exact Pres.pure
  · refine (applyInputRange_pres h _ _ _).bind fun _ => Pres.get.bind fun _ => ?_
    dsimp only
    split_ifs
    · exact Pres.throw
    · exact Pres.pure

theorem jointForward_pres (h : ∀ t v n, f { t with inputRange := v, irIdx := n } = f t) (x : Vec) (std : ℚ) (b : Bool) :
    Pres f (jointForward x std b) := by
  unfold jointForward
  exact (preForward_pres h _ _ _).bind fun _ => Pres.get.bind fun _ => Pres.lift.bind fun _ => Pres.lift

theorem fwd_pres (h : ∀ t v n, f { t with inputRange := v, irIdx := n } = f t) (x : Vec) (std : ℚ) (b : Bool) :
    Pres f (forward x std b) := by
  unfold forward
  exact (jointForward_pres h _ _ _).bind fun _ => Pres.get.bind fun _ => Pres.lift.bind fun _ => Pres.pure

theorem update_pres (h : ∀ t v n, f { t with inputRange := v, irIdx := n } = f t)
    (hw : ∀ t v, f { t with w := v } = f t) (x d : Vec) : Pres f (update x d) := by
  unfold update preUpdate
  refine Pres.bind ?_ fun p => Pres.get.bind fun t => ?_
  · refine Pres.bind ?_ fun _ => Pres.get.bind fun _ => Pres.lift.bind fun _ => Pres.pure
    unfold preUpdateX
    refine Pres.get.bind fun t => ?_
    split
    · exact Pres.pure
    · refine (applyInputRange_pres h _ _ _).bind fun _ => ?_
      split_ifs
      · exact Pres.throw
      · exact Pres.pure
  · split
    · exact Pres.modify fun t => hw t _
    · exact Pres.throw

theorem setLearningRate_pres (h : ∀ t v, f { t with devLr := v } = f t) (lr : Option ℚ) : Pres f (setLearningRate lr) := by
  unfold setLearningRate
  split
  · exact Pres.pure
  · exact Pres.modify fun t => h t _

theorem applyWeightScaling_pres (h1 : ∀ t v, f { t with mappingScales := v } = f t)
    (h2 : ∀ t v, f { t with mappingLrScale := v } = f t) (h3 : ∀ t v, f { t with learned := v } = f t) (w : Mat)
    (o : Option ℚ) : Pres f (applyWeightScaling w o) := by
  unfold applyWeightScaling
  refine Pres.get.bind fun t => ?_
  have hs : ∀ a, Pres f (setScales a) := fun a => (setMappingScales_pres h1 h2 a).bind fun _ => setLearned_pres h3 _
  split
  · exact Pres.pure
  · split
    · exact Pres.pure
    · split
      · dsimp only
        split
        · exact (hs _).bind fun _ => Pres.pure
        · exact (hs _).bind fun _ => Pres.pure
      · exact Pres.pure

end

/-- The part of `set_weights` after the reference has been dropped (periphery.py:136-180). -/
theorem setWeights_pres {α : Type} {f : Tile → α} (h1 : ∀ t v, f { t with mappingScales := v } = f t)
    (h2 : ∀ t v, f { t with mappingLrScale := v } = f t) (h3 : ∀ t v, f { t with learned := v } = f t)
    (h4 : ∀ t v, f { t with bias := v } = f t) (h5 : ∀ t v, f { t with w := v } = f t)
    (w : Mat) (b : Option Vec) (s : Bool) (o : Option ℚ) (t : Tile) :
    f (setWeights w b s o t).2 = f { t with reference := .none } := by
  unfold setWeights
  show f (Op.bind (Op.modify _) _ t).2 = _
  unfold Op.bind
  simp only [Op.modify]
  refine (?_ : Pres f _) { t with reference := .none }
  refine Pres.get.bind fun t0 => Pres.bind ?_ fun b' => Pres.lift.bind fun cw => Pres.bind ?_ fun cw' => Pres.modify fun t => h5 t _
  · cases b with
    | none => exact Pres.pure
    | some v =>
      dsimp only
      split_ifs
      · exact (Pres.modify fun t => h4 t _).bind fun _ => Pres.pure
      · exact (Pres.modify fun t => h4 t _).bind fun _ => Pres.pure
      · exact Pres.throw
      · exact Pres.pure
  · split
    · exact applyWeightScaling_pres h1 h2 h3 _ _
    · exact Pres.pure

/-- Calls that drop the reference weights. -/
def Call.refreshes : Call → Bool
  | .setWeights .. => true
  | .remapWeights _ => true
  | _ => false

theorem step_cfg (t : Tile) (c : Call) : (step t c).cfg = t.cfg := by
  cases c with
  | setWeights w b s o =>
    exact setWeights_pres (f := Tile.cfg) (fun _ _ => rfl) (fun _ _ => rfl) (fun _ _ => rfl) (fun _ _ => rfl) (fun _ _ => rfl) w b s o t
  | remapWeights o =>
    unfold step remapWeights
    refine (?_ : Pres Tile.cfg _) t
    refine Pres.get.bind fun t => Pres.lift.bind fun p => ?_
    intro t
    exact setWeights_pres (f := Tile.cfg) (fun _ _ => rfl) (fun _ _ => rfl) (fun _ _ => rfl) (fun _ _ => rfl) (fun _ _ => rfl) _ _ _ _ t
  | setScales a =>
    exact ((setMappingScales_pres (f := Tile.cfg) (fun _ _ => rfl) (fun _ _ => rfl) a).bind fun _ => setLearned_pres (fun _ _ => rfl) _) t
  | setMappingScales a => exact setMappingScales_pres (f := Tile.cfg) (fun _ _ => rfl) (fun _ _ => rfl) a t
  | setLearnedOutScales a => exact setLearned_pres (f := Tile.cfg) (fun _ _ => rfl) a t
  | setInputRange v => exact setInputRange_pres (f := Tile.cfg) (fun _ _ => rfl) v t
  | forward x s e => exact fwd_pres (f := Tile.cfg) (fun _ _ _ => rfl) x s e t
  | update x d => exact update_pres (f := Tile.cfg) (fun _ _ _ => rfl) (fun _ _ => rfl) x d t
  | setLearningRate lr => exact setLearningRate_pres (f := Tile.cfg) (fun _ _ => rfl) lr t

theorem step_keepsRef (t : Tile) (c : Call) (h : c.refreshes = false) : (step t c).reference = t.reference := by
  cases c with
  | setWeights w b s o => cases h
  | remapWeights o => cases h
  | setScales a =>
    exact ((setMappingScales_pres (f := Tile.reference) (fun _ _ => rfl) (fun _ _ => rfl) a).bind
      fun _ => setLearned_pres (fun _ _ => rfl) _) t
  | setMappingScales a => exact setMappingScales_pres (f := Tile.reference) (fun _ _ => rfl) (fun _ _ => rfl) a t
  | setLearnedOutScales a => exact setLearned_pres (f := Tile.reference) (fun _ _ => rfl) a t
  | setInputRange v => exact setInputRange_pres (f := Tile.reference) (fun _ _ => rfl) v t
  | forward x s e => exact fwd_pres (f := Tile.reference) (fun _ _ _ => rfl) x s e t
  | update x d => exact update_pres (f := Tile.reference) (fun _ _ _ => rfl) (fun _ _ => rfl) x d t
  | setLearningRate lr => exact setLearningRate_pres (f := Tile.reference) (fun _ _ => rfl) lr t

theorem setWeights_dropsRef (t : Tile) (w : Mat) (b : Option Vec) (s : Bool) (o : Option ℚ) :
    (step t (.setWeights w b s o)).reference = .none :=
  setWeights_pres (f := Tile.reference) (fun _ _ => rfl) (fun _ _ => rfl) (fun _ _ => rfl) (fun _ _ => rfl) (fun _ _ => rfl) w b s o t

end Aihw.Periphery

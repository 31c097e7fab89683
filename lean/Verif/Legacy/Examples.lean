import Verif.Legacy.Props

/-!
# Concrete cases for C78
-/
namespace Aihw.Legacy
open Aihw

def exMap : LMap := ⟨some true, false, some true, false, false, 512, 512⟩
def exCfg : LCfg := ⟨true, some exMap, true, 25, none, false, true, none, some 1, some 2, some 3⟩
def exState (c : LCfg) : TState := [("out_size", .nat 2), ("rpu_config", .cfg c), ("analog_ctx", .tensor [0]), ("bias", .bool true),
  ("mapping_scales", .tensor [1 / 2, 3]), ("analog_alpha_scale", .scalar 2), ("noise_model", .other 1), ("weights", .other 2),
  ("alpha", .tensor [5])]
def exChk : Chk := [("a.fc.bias".toList, .tensor [7]), ("a.fc.analog_tile_state_0".toList, .state (exState exCfg)),
  ("a.cv.analog_tile_state_0_1".toList, .state (exState exCfg)), ("a.fc.analog_ctx_0".toList, .tensor [1]),
  ("a.fc.analog_shared_weights_0".toList, .tensor [1]), ("bn.bias".toList, .tensor [4]),
  ("a.fc.analog_out_scaling_alpha".toList, .tensor [9])]
def exModel : LModel := ⟨[("a.fc".toList, "AnalogLinear".toList), ("a.cv".toList, "AnalogConv2dMapped".toList)], [(512, 512)]⟩

def exCfg' : LCfg := ⟨true, some ⟨none, true, none, true, true, 512, 512⟩, true, 25, some 25, true, true, some [1, 2, 3], none, none, none⟩
def exState' : TState := [("out_size", .nat 2), ("rpu_config", .cfg exCfg'), ("analog_ctx", .tensor [0]), ("weights", .other 2),
  ("alpha", .tensor [5]), ("use_bias", .bool true)]

/-- A whole conversion. -/
example : (convert exChk (some exModel)).1 = .ok ([
    ("a.fc.analog_module.bias".toList, .tensor [7]),
    ("a.fc.analog_module.alpha".toList, .tensor [5]), ("a.fc.analog_module.mapping_scales".toList, .tensor [1, 6]),
    ("a.fc.analog_module.analog_tile_state".toList, .state exState'),
    ("a.cv.array.0.1.alpha".toList, .tensor [5]), ("a.cv.array.0.1.mapping_scales".toList, .tensor [1, 6]),
    ("a.cv.array.0.1.analog_tile_state".toList, .state exState'),
    ("a.fc.analog_module.analog_ctx".toList, .tensor [1]),
    ("bn.bias".toList, .tensor [4]),
    ("a.fc.analog_module.out_scaling_alpha".toList, .tensor [9])], exCfg') := by decide +kernel

/-- The hypotheses of `C78_converted`. -/
example : (∀ p ∈ exChk, ¬ "analog_model.analog_tile_state".toList <:+: p.1) := by
  intro p hp
  rw [← contains_iff]
  revert p
  decide +kernel

/-- A model without mapped layers: its limits are set to zero. -/
example : (convert exChk (some ⟨[("a.fc".toList, "AnalogLinear".toList)], [(512, 256), (1, 2)]⟩)).2 =
    some ⟨[("a.fc".toList, "AnalogLinear".toList)], [(0, 0), (0, 0)]⟩ := by
  have h := C78_model_limits exChk ⟨[("a.fc".toList, "AnalogLinear".toList)], [(512, 256), (1, 2)]⟩
  obtain ⟨m', h1, h2, _, h4⟩ := h
  obtain ⟨h5, h6⟩ := h4 (by
    rintro ⟨p, hp, g⟩
    rw [List.mem_singleton] at hp
    subst hp
    exact absurd ((contains_iff _ _).2 g) (by decide))
  rw [h1]
  obtain ⟨l, lim⟩ := m'
  dsimp only at h2 h5 h6
  subst h2
  match lim, h5, h6 with
  | [x, y], _, h6 =>
    rw [h6 x (by simp), h6 y (by simp)]

theorem legit_bias : Legit "bn.bias".toList (.tensor [4]) where
  named := ⟨["bn".toList], "bias".toList, rfl, by decide, by decide⟩
  tile := by
    intro ps name hk hd hp
    have : name = "bias".toList := by
      rw [← afterDot_path ps name hd, ← hk]; rfl
    rw [this] at hp
    exact absurd hp (by decide)
  numbered := by
    intro ps name par hk hd hpar hp
    have : name = "bias".toList := by
      rw [← afterDot_path ps name hd, ← hk]; rfl
    rw [this] at hp
    rcases List.mem_cons.1 hpar with rfl | hpar
    · exact absurd hp (by decide)
    · rw [List.mem_singleton] at hpar
      subst hpar
      exact absurd hp (by decide)

theorem legit_tile : Legit "a.fc.analog_tile_state_0".toList (.state (exState exCfg)) where
  named := ⟨["a".toList, "fc".toList], "analog_tile_state_0".toList, rfl, by decide, by decide⟩
  tile := by
    intro ps name hk hd hp
    have : name = "analog_tile_state_0".toList := by
      rw [← afterDot_path ps name hd, ← hk]; rfl
    exact ⟨⟨[0], this⟩, exState exCfg, 2, .cfg exCfg, [0], rfl, rfl, rfl, rfl, Or.inl rfl, trivial⟩
  numbered := by
    intro ps name par hk hd hpar hp
    have : name = "analog_tile_state_0".toList := by
      rw [← afterDot_path ps name hd, ← hk]; rfl
    rw [this] at hp
    rcases List.mem_cons.1 hpar with rfl | hpar
    · exact absurd hp (by decide)
    · rw [List.mem_singleton] at hpar
      subst hpar
      exact absurd hp (by decide)

def exGood : Chk := [("a.fc.analog_tile_state_0".toList, .state (exState exCfg)), ("bn.bias".toList, .tensor [4])]

theorem exGood_good : Good exGood := by
  refine ⟨?_, ?_, ?_⟩
  · intro p hp
    rw [← contains_iff]
    revert p
    decide +kernel
  · intro p hp
    rcases List.mem_cons.1 hp with rfl | hp
    · exact legit_tile
    · rw [List.mem_singleton] at hp
      subst hp
      exact legit_bias
  · intro p hp hk
    rcases List.mem_cons.1 hp with rfl | hp
    · exact ⟨exState exCfg, exCfg, rfl, rfl, fun _ _ => ⟨by decide, by decide, by decide⟩⟩
    · rw [List.mem_singleton] at hp
      subst hp
      exact absurd ((contains_iff _ _).2 hk) (by decide)

example : ∃ out c, (convert exGood (some exModel)).1 = .ok (out, c) :=
  C78_total exModel exGood_good ⟨_, List.mem_cons_self, (contains_iff _ _).1 (by decide)⟩

/-- No tile at all. -/
example : (convert [("bn.bias".toList, .tensor [4])] (some exModel)).1 = .error .unboundLocal := by
  refine C78_no_tiles exModel ⟨?_, ?_, ?_⟩ ?_
  · intro p hp
    rw [← contains_iff]
    revert p
    decide +kernel
  · intro p hp
    rw [List.mem_singleton] at hp
    subst hp
    exact legit_bias
  · intro p hp hk
    rw [List.mem_singleton] at hp
    subst hp
    exact absurd ((contains_iff _ _).2 hk) (by decide)
  · intro p hp hk
    rw [List.mem_singleton] at hp
    subst hp
    exact absurd ((contains_iff _ _).2 hk) (by decide)

/-- A checkpoint of the current version. -/
example : ∃ e, (convert [("fc.analog_module.analog_tile_state".toList, .state [("rpu_config", .cfg exCfg'), ("weights", .other 1)])]
    (some exModel)).1 = .error e := by
  refine C78_current_refused exModel (p := ("fc.analog_module.analog_tile_state".toList,
    .state [("rpu_config", .cfg exCfg'), ("weights", .other 1)])) ?_ List.mem_cons_self
    ⟨["fc".toList, "analog_module".toList], [], rfl, List.not_mem_nil⟩ ?_
  · intro p hp
    rw [List.mem_singleton] at hp
    subst hp
    refine ⟨["fc".toList, "analog_module".toList], "analog_tile_state".toList, rfl, ?_, by decide⟩
    decide
  · intro d hd
    injection hd with hd
    subst hd
    rfl

/-- It is a `KeyError`. -/
example : (convert [("fc.analog_module.analog_tile_state".toList, .state [("rpu_config", .cfg exCfg'), ("weights", .other 1)])]
    (some exModel)).1 = .error .keyError := by decide +kernel

/-- The bias of an analog layer in a module `bias_net` stays where the new model does not look for it. -/
example : (convert [("bias_net.fc.bias".toList, .tensor [7]), ("bias_net.fc.analog_tile_state_0".toList, .state (exState exCfg))]
    (some exModel)).1.toOption.bind (fun r => cget r.1 "bias_net.fc.analog_module.bias".toList) = none := by decide +kernel

/-- A single tile number other than zero gives a key with a list in it. -/
example : keyFromEnding exModel "analog_ctx_3".toList ctxName "fc.".toList = .ok "analog_module.analog_ctx.[3]".toList := by decide +kernel

/-- A configuration without coefficients. -/
example : ∃ e, (convert [("fc.analog_tile_state_0".toList, .state (exState { exCfg with coeff1 := none }))] (some exModel)).1 = .error e := by
  refine C78_bad_config exModel ?_ List.mem_cons_self ((contains_iff _ _).1 (by decide)) rfl rfl fun h => (h rfl rfl).2.1 rfl
  intro p hp
  rw [← contains_iff]
  revert p
  decide +kernel

end Aihw.Legacy

import Verif.State.Device

/-!
# Concrete instances for the checkpoint theorems (C28)
-/
namespace Aihw.State

/-- A small simulator tile: weights and learning rate; the hidden parameters are the bounds; a new
tile has weights drawn from the seed, and setting weights clips them. -/
abbrev ToyS := ℚ × ℚ × ℚ

def toy : SimOps ToyS ℚ ℚ Unit where
  create c _ _ seed := (if seed = 0 then 0 else 1 / 2, if c.body = 0 then 1 else 2, 1 / 100)
  weights s := s.1
  hidden s := s.2.1
  names s := if s.2.1 = 0 then ["none"] else ["max_bound"]
  lr s := some s.2.2
  extra _ := none
  setHidden h _ s := .ok (s.1, h, s.2.2)
  setWeights v _ s := .ok (max (min v s.2.1) (-s.2.1), s.2)
  overwrite v s := (v, s.2)
  setLr l s := .ok (s.1, s.2.1, l)
  loadExtra _ s := .ok s

def toyCfg (b : Nat) : Cfg := ⟨"SingleRPUConfig", false, "AnalogTile", none, b⟩

def toyWorld : World := ⟨fun k => toyCfg k, 2, 10⟩

/-- A tile with a bias, a mapping scale and no learned output scale. -/
def toyTile (cfg : Nat) (wt lr bias scale : ℚ) (i : Nat) : Tile ToyS Nat :=
  { cls := "AnalogTile", cfg := cfg, sim := (wt, 3, lr), xSize := 1, dSize := 1, torchTile := false,
    params := [("bias", some ⟨[1], [bias]⟩), ("mapping_scales", some ⟨[1], [scale]⟩),
      ("out_scaling_alpha", none)],
    noneAttrs := ["shared_weights"], lrScale := scale, nonBlocking := false,
    ctx := ⟨i, [], false, false⟩, loadCfg := true, strictCfg := true, aux := i }

def toySrc : List (Tile ToyS Nat) := [toyTile 0 (1 / 3) (1 / 10) 5 2 0, toyTile 0 (7 / 3) (1 / 5) 6 4 1]
def toyDst : List (Tile ToyS Nat) := [toyTile 1 0 (1 / 100) 0 1 2, toyTile 1 1 (1 / 100) 0 1 3]

/-- The hypotheses of `C28_round_trip` hold for a two-tile model with different weights, biases, scales
and configurations in the destination, with equality of simulator states as relation … -/
example : toySrc.length = toyDst.length ∧ (∀ d ∈ toyDst, ((none : Option Bool).getD d.loadCfg) = true) ∧
    ∀ p ∈ toySrc.zip toyDst, p.1.cls = p.2.cls ∧ (toyWorld.cfgs p.2.cfg).tileClass = p.2.cls ∧
      (toyWorld.cfgs p.1.cfg).tileClass = p.1.cls ∧ SameLayout p.1 p.2 ∧
      Restorable toy (fun a b => a = b) (toyWorld.cfgs p.1.cfg) p.1 p.2 := by
  refine ⟨rfl, by decide, ?_⟩
  intro p hp
  simp only [toySrc, toyDst, List.zip_cons_cons, List.zip_nil_right, List.mem_cons,
    List.not_mem_nil, or_false] at hp
  rcases hp with rfl | rfl
  · refine ⟨rfl, rfl, rfl, ⟨?_, by decide, by decide⟩, ?_⟩
    · exact .cons ⟨rfl, rfl⟩ (.cons ⟨rfl, rfl⟩ (.cons ⟨rfl, rfl⟩ .nil))
    · intro seed
      refine ⟨by simp [blank, toy, toyTile, toyWorld, toyCfg], fun seed' => ⟨_, rfl, rfl⟩⟩
  · refine ⟨rfl, rfl, rfl, ⟨?_, by decide, by decide⟩, ?_⟩
    · exact .cons ⟨rfl, rfl⟩ (.cons ⟨rfl, rfl⟩ (.cons ⟨rfl, rfl⟩ .nil))
    · intro seed
      refine ⟨by simp [blank, toy, toyTile, toyWorld, toyCfg], fun seed' => ⟨_, rfl, rfl⟩⟩

/-- … and the load indeed restores weights, learning rates, bias and scales, but not the compensation
of the learning rate. -/
example :
    let r := loadStateDict toy (fun a b => a == b) (toySrc.map (stateDict toy)) false true none none 0
      toyWorld toyDst
    (r.1.toOption = some ()) ∧ r.2.2.map (fun t => (t.sim.1, t.sim.2.2, t.lrScale)) =
      [(1 / 3, 1 / 10, 1), (7 / 3, 1 / 5, 1)] ∧
      r.2.2.map Tile.params = toySrc.map Tile.params := by
  decide +kernel

/-- `load_rpu_config=False, strict_rpu_config_check=False` stays in force for the next call
(`C28_flags_sticky`): the second, default call keeps the own configuration. -/
example :
    let r := loadStateDict toy (fun a b => a == b) (toySrc.map (stateDict toy)) false true (some false)
      (some false) 0 toyWorld toyDst
    let r2 := loadStateDict toy (fun a b => a == b) (toySrc.map (stateDict toy)) false true none none 0
      r.2.1 r.2.2
    r2.2.2.map Tile.cfg = [1, 1] := by
  decide +kernel

/-- A tile of another class in the second place: the first tile is already loaded when the exception
is raised (`C28_prefix_loaded`, `C28_class_mismatch`). -/
example :
    let bad := (toySrc.map (stateDict toy)).set 1
      { analog := some { getAnalogState toy (toyTile 0 9 9 9 9 9) with cls := some "FloatingPointTile" },
        vals := [] }
    let r := loadStateDict toy (fun a b => a == b) bad false true none none 0 toyWorld toyDst
    (r.1 = .error PyErr.tileError) ∧ r.2.2.map (fun t => t.sim.1) = [1 / 3, 1] := by
  refine ⟨rfl, ?_⟩
  decide +kernel

/-- A checkpoint with other hidden parameters: error, but the weight of the destination (1) has been
replaced by that of the freshly built tile (`C28_hidden_mismatch`). -/
example :
    let e : Entry ℚ ℚ Unit :=
      { analog := some { getAnalogState toy (toyTile 0 9 9 9 9 9) with names := some ["other"] }, vals := [] }
    let r := loadTile toy (fun a b => a == b) e 0 toyWorld (toyTile 1 1 1 1 1 1)
    (r.1.toOption.isNone = true) ∧ r.2.2.cfg = 0 ∧ r.2.2.sim.1 = 0 := by
  decide +kernel

/-- A destination that has no mapping scales drops those of the checkpoint (`C28_dropped_tensor`). -/
example :
    let d := { toyTile 1 1 1 1 1 1 with params := [("bias", some ⟨[1], [0]⟩), ("mapping_scales", none)] }
    let r := loadTile toy (fun a b => a == b) (stateDict toy (toyTile 0 9 9 9 2 9)) 0 toyWorld d
    (r.1.toOption.map Problems.keys = some true) ∧
      r.2.2.params = [("bias", some ⟨[1], [9]⟩), ("mapping_scales", none)] := by
  decide +kernel

/-- A device array that satisfies the step-size hypothesis of `C28_device_resumes`: ideal cells. -/
example (d : Pulsed.Dev ℚ) (hx : d.xSize = 1) (hd : d.dSize = 1) (h : d.par.dwMin = 1 / 1000)
    (hu : (d.cell 0).up = 1 / 1000) (hw : (d.cell 0).down = 1 / 1000) : StepKept d 0 := by
  unfold StepKept
  rw [hx, hd, h]
  norm_num [List.range_succ, hu, hw]

/-- And with zero `dw_min_dtod` a single asymmetric cell breaks it (`C28_step_replaced`). -/
example (d : Pulsed.Dev ℚ) (hx : d.xSize = 1) (hd : d.dSize = 1) (h : d.par.dwMin = 1 / 1000)
    (hu : (d.cell 0).up = 1 / 1000) (hw : (d.cell 0).down = 1 / 2000) : ¬ StepKept d 0 := by
  unfold StepKept
  rw [hx, hd, h]
  norm_num [List.range_succ, hu, hw, abs_of_pos, abs_of_neg]

end Aihw.State

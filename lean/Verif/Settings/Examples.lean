import Verif.Settings.Props3

/-!
# C93: concrete cases
-/
namespace Aihw.Settings.Ex
open Aihw Aihw.Settings

/-- The settings are numbers; a step is switched on if its number is positive, and
`on_the_fly_bindings` is set if the runtime number is positive. -/
def sem : Sem ℕ := ⟨fun _ v => decide (0 < v), fun v => decide (0 < v)⟩

/-- Nothing yet. -/
def w₀ : World ℕ := ⟨⟨fun _ _ => 0, fun _ => 0, fun _ => "", 0, 0⟩, fun _ => ⟨.cpp, 0, fun _ => 0, fun _ => 0, fun _ => none⟩, 0, fun _ => 0, 0⟩

example : Start w₀ := ⟨rfl, rfl, rfl, rfl⟩

/-- A configuration with all settings 5 (not on the fly), an inference tile and a torch tile. -/
def prog : List (Op ℕ) :=
  [.config (fun p => if p = .runtime then 0 else 5) "InferenceTile", .construct .cpp 0, .construct .torch 0]

def w : World ℕ := run sem w₀ prog

/-- C93_isolated, C93_fresh: the tiles have configurations 1 and 2. -/
example : w.nt = 2 ∧ (w.tile 0).own = 1 ∧ (w.tile 1).own = 2 ∧ w.ownNow 0 .forward = 5 ∧
    (run sem w [.setPart 0 .forward 6, .assign 2 .forward 7]).ownNow 0 .forward = 5 ∧
    (run sem w [.setPart 0 .forward 6, .assign 2 .forward 7]).ownNow 1 .forward = 7 := by decide +kernel

/-- C93_torch_passes, C93_frozen, C93_made: a change of the own configurations is seen by the torch tile only, until the
inference tile is made again. -/
example :
    usedBy sem (run sem w [.setPart 1 .forward 6, .setPart 2 .forward 6]) (.forward 0) = [(.prePost, 5), (.forward, 5)] ∧
    usedBy sem (run sem w [.setPart 1 .forward 6, .setPart 2 .forward 6]) (.forward 1) =
      [(.prePost, 5), (.forward, 6), (.modifier, 5)] ∧
    usedBy sem (run sem w [.setPart 1 .forward 6, .save 0, .load 0 0 false]) (.forward 0) =
      [(.prePost, 5), (.forward, 6)] := by decide +kernel

/-- C93_post_update: the cached clipping survives a change and a load, and ends with a checkpoint. -/
example :
    usedBy sem (run sem w [.save 0, .postUpdate 0, .setPart 1 .clip 6]) (.postUpdate 0) =
      [(.clip, 5), (.remap, 5), (.modifier, 5)] ∧
    usedBy sem (run sem w [.save 0, .postUpdate 0, .setPart 1 .clip 6, .load 0 0 true]) (.postUpdate 0) =
      [(.clip, 5), (.remap, 5), (.modifier, 5)] ∧
    usedBy sem (run sem w [.save 0, .postUpdate 0, .setPart 1 .clip 6, .save 0]) (.postUpdate 0) =
      [(.clip, 6), (.remap, 5), (.modifier, 5)] ∧
    usedBy sem (run sem w [.postUpdate 0, .setPart 1 .clip 6, .setPart 1 .runtime 1]) (.postUpdate 0) =
      [(.clip, 6), (.remap, 5), (.modifier, 5)] ∧
    usedBy sem (run sem w [.postUpdate 1, .setPart 2 .clip 6]) (.postUpdate 1) = [(.clip, 6), (.remap, 5)] := by
  decide +kernel

/-- C93_load_shares: after loading the state of tile 0 into tile 1, a change for tile 0 changes tile 1. -/
example : (run sem w [.save 0, .load 1 0 true, .setPart 1 .forward 9]).ownNow 1 .forward = 9 ∧
    usedBy sem (run sem w [.save 0, .load 1 0 true, .setPart 1 .forward 9]) (.forward 1) =
      [(.prePost, 5), (.forward, 9), (.modifier, 5)] := by decide +kernel

/-- C93_transfer: the device settings are those of the caller's configuration. -/
example : usedBy sem (run sem w [.construct .transfer 0, .setPart 3 .device 7]) (.update 2) = [(.update, 5), (.device, 5)] ∧
    usedBy sem (run sem w [.construct .transfer 0, .setPart 0 .device 7]) (.update 2) = [(.update, 5), (.device, 7)] := by
  decide +kernel

/-- C93_foreign, C93_readout. -/
example : usedBy sem (run sem w [.setPart 0 .forward 7, .setPart 2 .forward 8]) (.readout 1) =
      [(.noise, 5), (.drift, 5), (.forward, 7)] ∧
    usedBy sem (run sem w [.setPart 0 .forward 7, .setPart 2 .forward 8, .forward 1]) (.readout 1) =
      [(.noise, 5), (.drift, 5), (.forward, 8)] ∧
    usedBy sem (run sem w [.construct .torchIR 0, .forward 2, .setPart 3 .noise 7]) (.forward 2) =
      [(.prePost, 5), (.forward, 5), (.modifier, 5), (.noise, 5)] := by decide +kernel

end Aihw.Settings.Ex

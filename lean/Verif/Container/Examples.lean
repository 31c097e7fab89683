import Verif.Container.Props2

/-!
# C60: concrete models meeting the hypotheses

`root` (a container, eval mode) with `a : layer`, `b : layer`, `c` (the *same* object as `a`) and an
empty registration; `a.tile` is an inference tile, `b.tile` a training tile, `b.extra` a plain module
which contains `a` again and a back reference to the root (a cycle).
-/
namespace Aihw.Container

def exHeap : Nat → Obj
  | 0 => ⟨.container, [("a", some 1), ("b", some 2), ("none", none), ("c", some 1)], false, none⟩
  | 1 => ⟨.layer, [("tile", some 3)], true, none⟩
  | 2 => ⟨.layer, [("tile", some 4), ("extra", some 5)], true, none⟩
  | 3 => ⟨.tile true true, [], true, none⟩
  | 4 => ⟨.tile false false, [], true, none⟩
  | 5 => ⟨.other, [("a", some 1), ("up", some 0)], true, none⟩
  | _ => ⟨.other, [], true, none⟩

def exSys : Sys ℤ := ⟨exHeap, 6, fun i => i⟩

/-- A tile holding one number, which refuses numbers above 100. -/
def exOps : TileOps ℤ ℤ where
  get c := .ok c
  set w c := if 100 < w then (.error .valueError, c) else (.ok (), w)
  drift _ c := (.ok (), c - 1)
  program _ c := (.ok (), c + 10)
  remap _ c := (.ok (), c)
  setLoadFlags _ _ c := c

theorem exWF : WF exSys where
  kids := by
    intro i n j h
    match i with
    | 0 | 1 | 2 | 3 | 4 | 5 => all_goals (simp [exSys, exHeap] at h ⊢ <;> omega)
    | k + 6 => simp [exSys, exHeap] at h
  names := by
    intro i n j h
    match i with
    | 0 | 1 | 2 | 3 | 4 | 5 =>
      all_goals
        simp [exSys, exHeap] at h
        try (rcases h with h | h | h | h <;> rw [h.1] <;> decide)
        try (rcases h with h | h <;> rw [h.1] <;> decide)
        try (rw [h.1]; decide)
    | k + 6 => simp [exSys, exHeap] at h
  keys := by
    intro i
    match i with
    | 0 | 1 | 2 | 3 | 4 | 5 => all_goals decide
    | k + 6 => simp [exSys, exHeap]

/-- Two tiles, although object 1 is reachable in three ways. -/
example : namedTiles exSys 0 = [("a.tile", 3), ("b.tile", 4)] := by decide +kernel

example : namedLayers exSys 0 = [("a", 1), ("b", 2)] ∧
    namedAnalogModules exSys 0 = [("", 0), ("a", 1), ("b", 2)] := by decide +kernel

/-- A sub-module sees the tiles registered in it — here all, through the cycle. -/
example : namedTiles exSys 5 = [("a.tile", 3), ("up.b.tile", 4)] := by decide +kernel

example : Lists exSys 0 (fun k => ∃ a b, k = .tile a b) [("a.tile", 3), ("b.tile", 4)] :=
  C60_tiles_once exSys exWF 0 (by decide)

/-- Tile 4 has exactly the paths through the cycle, tile 3 of a model without sharing only one. -/
example : getWeights exOps 0 exSys = .ok [("a.tile", 3), ("b.tile", 4)] := by decide +kernel

/-- Writing: entries in any order, an entry too many is ignored. -/
example : (setWeights exOps [("b.tile", 8), ("other", 1), ("a.tile", 7)] 0 exSys).1 = .ok () ∧
    (setWeights exOps [("b.tile", 8), ("other", 1), ("a.tile", 7)] 0 exSys).2.st 3 = 7 ∧
    (setWeights exOps [("b.tile", 8), ("other", 1), ("a.tile", 7)] 0 exSys).2.st 4 = 8 := by
  decide +kernel

/-- Not atomic: the first tile has been written. -/
example : (setWeights exOps [("a.tile", 7)] 0 exSys).1 = .error .moduleError ∧
    (setWeights exOps [("a.tile", 7)] 0 exSys).2.st 3 = 7 ∧
    (setWeights exOps [("a.tile", 7)] 0 exSys).2.st 4 = 4 := by decide +kernel

example : (setWeights exOps [("a.tile", 700), ("b.tile", 1)] 0 exSys).1 = .error .valueError := by
  decide +kernel

/-- The hypotheses of the round trip hold for this model. -/
example : ∃ d, getWeights exOps 0 exSys = .ok d ∧ (setWeights exOps d 0 exSys).1 = .ok () ∧
    getWeights exOps 0 (setWeights exOps d 0 exSys).2 = .ok d := by
  apply C60_round_trip exOps exSys exWF 0 (by decide)
  intro i hi
  obtain ⟨q, hq, rfl⟩ := tiles_mem exWF (by decide) hi
  rw [show namedTiles exSys 0 = [("a.tile", 3), ("b.tile", 4)] by decide +kernel] at hq
  simp only [List.mem_cons, List.not_mem_nil, or_false] at hq
  rcases hq with rfl | rfl
  · exact ⟨3, by decide +kernel⟩
  · exact ⟨4, by decide +kernel⟩

/-- A model of two tiles of the periphery model: the hypotheses of `C60_model_round_trip` hold. -/
def exPeri : Sys Periphery.Tile := ⟨exHeap, 6, fun i => if i = 3 then Periphery.run Periphery.exCfg
  [.setWeights [[3, -6], [0, 0]] (some [1, 2]) true none] else Periphery.run Periphery.exCfg []⟩

example : ∃ d, getWeights periOps 0 exPeri = .ok d ∧ (setWeights periOps d 0 exPeri).1 = .ok () ∧
    getWeights periOps 0 (setWeights periOps d 0 exPeri).2 = .ok d := by
  have hw : WF exPeri := ⟨exWF.kids, exWF.names, exWF.keys⟩
  apply C60_model_round_trip exPeri hw 0 (by decide)
  intro i _
  by_cases h : i = 3
  · refine ⟨Periphery.exCfg, [.setWeights [[3, -6], [0, 0]] (some [1, 2]) true none], _, 3 / 5,
      ⟨by decide, by decide, by decide⟩, ?_, by simp [exPeri, h], rfl, rfl, by norm_num, ?_⟩
    · intro k hk
      rw [List.mem_singleton.1 hk]
      trivial
    · intro B hB; cases hB; exact le_refl _
  · refine ⟨Periphery.exCfg, [], _, 3 / 5, ⟨by decide, by decide, by decide⟩,
      (by intro k hk; cases hk), by simp [exPeri, h], rfl, rfl, by norm_num, ?_⟩
    intro B hB; cases hB; exact le_refl _

/-- Drift reaches the inference tile only; programming raises at the other one. -/
example : (driftWeights exOps 1 0 exSys).1 = .ok () ∧ (driftWeights exOps 1 0 exSys).2.st 3 = 2 ∧
    (driftWeights exOps 1 0 exSys).2.st 4 = 4 := by decide +kernel

example : (programWeights exOps none 0 exSys).1 = .error .typeError ∧
    (programWeights exOps none 0 exSys).2.st 3 = 13 := by decide +kernel

/-- Object 1 is in training mode. -/
example : (driftWeights exOps 1 1 exSys).1 = .error .moduleError := by decide +kernel

/-- The counter is stale after layer `b` has been removed. -/
example : (tileCount exSys 0).1 = 2 ∧
    (tileCount { (tileCount exSys 0).2 with heap := fun k => if k = 0 then
      { (tileCount exSys 0).2.heap 0 with kids := [("a", some 1)] } else exHeap k } 0).1 = 2 := by
  decide +kernel

/-- An old checkpoint: `strict=True` becomes `False`. -/
example : (loadStateDict exOps [("a.w", ⟨2, 1⟩), ("a.tile.analog_ctx", ⟨0, 2⟩), ("b.analog_ctx", ⟨1, 3⟩)]
      true none none 0 exSys).1 = [("a.w", ⟨2, 1⟩), ("b.analog_ctx", ⟨1, 3⟩)] ∧
    (loadStateDict exOps [("a.w", ⟨2, 1⟩), ("a.tile.analog_ctx", ⟨0, 2⟩), ("b.analog_ctx", ⟨1, 3⟩)]
      true none none 0 exSys).2.1 = false := by decide +kernel

/-- Tile 4 does not support distributed training; object 1 has only tile 3. -/
example : prepareDdp ["analog_ctx", "analog_tile_state"] [] 0 exSys = .error .moduleError ∧
    prepareDdp ["analog_ctx", "analog_tile_state"]
      ["w", "tile.analog_ctx", "tile.analog_tile_state", "bias"] 1 exSys =
      .ok ["tile.analog_ctx", "tile.analog_tile_state"] := by decide +kernel

/-- The finding. -/
example : prepareDdp ["analog_ctx", "analog_tile_state"] ["analog_ctx", "tile.analog_ctx"] 1 exSys =
    .ok ["analog_ctx"] := by decide +kernel

end Aihw.Container

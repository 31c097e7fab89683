import Verif.Pulsed.PmaxProps

/-!
# C75: the default `SoftBoundsPmaxDevice`
-/
namespace Aihw.Pulsed

/-- The defaults of the dataclass (devices.py:646-660). -/
noncomputable def exPmax : Pmax where
  pMax := 1000
  alpha := 1 / 2000
  rMin := -1
  rMax := 1

theorem exPmax_ok : exPmax.Ok := by
  refine ⟨?_, ?_, ?_, ?_, ?_⟩ <;> norm_num [exPmax]

/-- No variations at all. -/
noncomputable def exPop : PopPar ℝ where
  wMin := 0
  wMax := 0
  wMinDtod := 0
  wMaxDtod := 0
  dwMin := 0
  dwMinDtod := 0
  logNormal := false
  upDown := 0
  upDownDtod := 0
  enforce := true
  adjust := false
  adjustDev := 0
  corruptProb := 0
  corruptRange := 0
  perfectBias := false
  lifetime := 0
  lifetimeDtod := 0
  diffusion := 0
  diffusionDtod := 0
  reset := 0
  resetDtod := 0

noncomputable def exPmaxDraw : PopDraw ℝ := ⟨0, 0, 0, 0, 0, 0, 0, 0, 0⟩

/-- The default device can be built, so the theorems speak about an existing cell. -/
example : ∃ c : Cell ℝ, PmaxCell exPmax exPop c := by
  have hn : NoVariation exPop exPmaxDraw := ⟨rfl, rfl, rfl, rfl, rfl, le_rfl, rfl⟩
  obtain ⟨c0, h0, -⟩ := Pmax.cell exPmax_ok exPop _ id false exPmaxDraw (Pmax.bind_ok exPmax_ok exPop) hn
  exact ⟨_, _, id, false, exPmaxDraw, c0, ⟨1, 0, 1, 0, false, false, false, false, 0, true, 0, 0⟩, 0, 0,
    Pmax.bind_ok exPmax_ok exPop, hn, h0, ⟨rfl, rfl, rfl, rfl, rfl, rfl, rfl⟩, rfl⟩

end Aihw.Pulsed

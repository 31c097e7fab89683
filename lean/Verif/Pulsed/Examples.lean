import Verif.Pulsed.Props2
import Verif.Pulsed.TransferProps2
import Verif.Pulsed.UpdateMean
import Verif.Pulsed.Drift
import Mathlib.MeasureTheory.Constructions.UnitInterval

/-!
# Concrete cases meeting the hypotheses of the pulsed-device theorems
-/
namespace Aihw.Pulsed.Ex

/-- Dummy C library. -/
def F : Fns ℚ := ⟨fun _ => 0, fun b _ => if b < 0 then .nan else .fin b⟩

/-- A cell with range [-1/2, 1/2] and steps 1/8. -/
def c0 : Cell ℚ := ⟨1/2, -1/2, 1/8, 1/8, 1, 0, 0, 0, 0, 1, 1, 0⟩

/-- A cell with a reference of 1/4. -/
def cR : Cell ℚ := { c0 with ref := 1/4 }

/-- Parameters without noise. -/
def p0 : Par ℚ := ⟨1/8, 0, 0, 0, false⟩

/-- Parameters with write noise. -/
def pW : Par ℚ := ⟨1/8, 0, 1, 0, true⟩

def dev (kd : Kind ℚ) (p : Par ℚ) (c : Cell ℚ) : Dev ℚ :=
  Dev.create kd p 2 2 (fun _ => c) (fun k => if k = 0 then 3 else 0) (fun _ => 0)

def ops : List (Op ℚ) :=
  [.pulses [⟨0, true, 0, 0⟩, ⟨0, true, 0, 0⟩, ⟨1, false, 0, 0⟩], .clip 1 (fun _ => 0),
    .decay false (fun _ => 0)]

def weightOf (r : Except PyErr (Dev ℚ)) (k : Nat) : ℚ := match r with
  | .ok d => d.weight k
  | .error _ => 77

def okRun (r : Except PyErr (Dev ℚ)) : Bool := match r with
  | .ok _ => true
  | .error _ => false

/-- C33_bounds_history: an initial weight 3 is clipped to 1/2, then two down pulses. -/
example : okRun ((dev .constant p0 c0).run F ops) = true ∧
    weightOf ((dev .constant p0 c0).run F ops) 0 = 1/4 ∧
    weightOf ((dev .constant p0 c0).run F ops) 1 = 1/8 := by decide +kernel

/-- … and its history hypothesis holds for this history. -/
example : HistOk F 0 (dev .constant p0 c0) ops := by
  refine ⟨trivial, fun d1 h1 => ⟨Or.inr ?_, fun d2 h2 => ⟨trivial, fun _ _ => trivial⟩⟩⟩
  have : d1 = (dev .constant p0 c0).pulses F [⟨0, true, 0, 0⟩, ⟨0, true, 0, 0⟩, ⟨1, false, 0, 0⟩] := by
    exact (Except.ok.inj h1).symm
  rw [this]
  decide +kernel

/-- C33_reference_history: a soft-bounds-reference cell set to its lower bound is pulsed down and
leaves its range (-1/2): the bound that holds is -1/2 - 1/4. -/
example : weightOf ((dev (.sbRef true) p0 cR).run F
    [.set (fun _ => -1/2) (fun _ => 0), .pulses [⟨0, true, 0, 0⟩]]) 0 < -1/2 := by decide +kernel

/-- C33_stuck_cell: a corrupt cell does not move. -/
example : weightOf ((dev .constant p0 ⟨1/4, 1/4, 0, 0, 1, 0, 0, 0, 0, 1, 1, 0⟩).run F ops) 0 = 1/4 := by
  decide +kernel

/-- C33_clip_escapes: range [-1, -1/2], clip at 1/4. -/
example : weightOf ((dev .constant p0 ⟨-1/2, -1, 1/8, 1/8, 1, 0, 0, 0, 0, 1, 1, 0⟩).step F
    (.clip (1/4) (fun _ => 0))) 0 = -1/4 := by decide +kernel

/-- C33_none_with_device_lost: the hypotheses hold for a linear-step device with write noise. -/
example : persistent (.linear false) pW = true ∧ implementsWriteNoise (.linear false : Kind ℚ) = true ∧
    weightOf ((dev (.linear false) pW c0).step F (.fpUpdate (fun _ => -1/4) (fun _ => 0))) 0 = 1/2 := by
  decide +kernel

/-- C46_direction and C46_constant_train on concrete numbers. -/
example : stepW F .constant p0 c0 0 false 0 = some (1/8) ∧
    train F .constant p0 c0 false 3 0 = 3/8 ∧ train F .constant p0 c0 false 9 0 = 1/2 ∧
    train F .constant p0 c0 true 9 0 = -1/2 := by decide +kernel

/-- C46_powref_jump: `w + ref` above the range gives NaN and the weight jumps to the lower end. -/
example : stepW F .powRef p0 cR (3/8) false 0 = some (-1/2 - 1/4) := by decide +kernel

/-- C46_soft_bounds_train: a soft-bounds cell is populated. -/
example : ∃ (lp : LinPar ℚ) (c : Cell ℚ), SoftBounds lp ∧ populateLinear lp c0 0 0 = .ok c ∧
    c.up = 1/8 ∧ c.slopeUp = -1/4 := by
  refine ⟨⟨1, 0, 1, 0, true, false, false, false, 0, true, -1, 1⟩, _, ?_, rfl, ?_, ?_⟩
  · simp [SoftBounds]
  · decide +kernel
  · decide +kernel

/-! ## C45 -/

/-- All draws 1/2. -/
def t1 : TrainDraw ℚ := ⟨fun _ => 1/2, fun _ _ => 1/2⟩
def pd : PulseDraw ℚ := ⟨fun _ _ _ => 0, fun _ _ _ => 0⟩
def xv : Nat → ℚ := fun j => if j = 0 then 1 else -1
def dv : Nat → ℚ := fun i => if i = 0 then 1 else 0

example : UnitDraws t1 := ⟨fun _ => by norm_num [t1], fun _ _ => by norm_num [t1]⟩

/-- Two slots, both firing: cell (0,0) goes down twice, cell (0,1) up twice, row 1 is untouched. -/
example : (sparsePulses .compressed ⟨2, 1, 1, 0, false⟩ 2 2 1 xv dv t1 t1 pd).map
    (fun q => (q.k, q.down)) = [(0, true), (1, false), (0, true), (1, false)] := by decide +kernel

/-- `Stochastic` delivers the same per-cell sequences. -/
example : (sparsePulses .stochastic ⟨2, 1, 1, 0, false⟩ 2 2 (-1) xv dv t1 t1 pd).map
    (fun q => (q.k, q.down)) = [(0, false), (1, true), (0, false), (1, true)] := by decide +kernel

/-- A resolution given as ten steps: nothing is delivered. -/
example : sparsePulses .stochastic ⟨2, 1, 1, 10, false⟩ 2 2 1 xv dv t1 t1 pd = [] := by decide +kernel

/-- Dense types: the same pulses for both signs of the learning rate. -/
example : ((densePulses .meanCount ⟨4, 1, 1, 0, 0, false⟩ 2 2 true xv dv (fun _ => 0) (fun _ => 0)
    pd).map fun q => (q.k, q.down)) =
    [(0, true), (0, true), (0, true), (0, true), (1, false), (1, false), (1, false), (1, false)] := by
  decide +kernel

/-! ## C34 -/

/-- Two devices, two columns, a transfer of one column every second update. -/
def tp : TPar ℚ :=
  { n := 2, xSize := 2, dSize := 2, cols := true, nReads := 1, unitsInMbatch := false,
    every := fun j => if j = 0 then 2 else 0, lrVec := fun _ => 1, scaleLr := false, resetProb := 0,
    gamma := fun j => if j = 0 then 1/2 else 1 }

def wd : WD ℚ :=
  { u := 0, g := fun _ => 0, g2 := fun _ => 0, y := fun i => if i = 0 then -1 else 0,
    ty := .compressed, tr := ⟨1, 1, 1, 0, false⟩, tx := t1, td := t1, pd := pd }

def ts : TS ℚ :=
  { dev := fun _ => Dev.create .constant p0 2 2 (fun _ => c0) (fun _ => 0) (fun _ => 0),
    slice := fun _ => 0, idx := 0, vis := fun _ => 0, log := [] }

def upd : Upd ℚ := { lr := 1, mBatch := 1, sgd := [⟨0, false, 0, 0⟩], dr := fun _ _ => wd }

/-- Five updates: two transfers, columns 0 and 1; the visible weight of cell (0,0) is
`1/2 * 1/2 + 1/8`. -/
example : reads (tp.run F ts [upd, upd, upd, upd, upd]) 0 = [0, 1] ∧
    (tp.run F ts [upd, upd, upd, upd, upd]).vis 0 = 3/8 ∧
    (tp.run F ts [upd, upd, upd, upd, upd]).log = [(0, 1, 0), (0, 1, 1)] := by decide +kernel

example : tp.getEvery 0 1 = 2 ∧ tp.transferLR 0 1 = 1 ∧ tp.inSize = 2 ∧ tp.getEvery 1 1 = 0 := by
  decide +kernel

example : upd.Unit := fun _ _ =>
  ⟨by norm_num [upd, wd], ⟨fun _ => by norm_num [upd, wd, t1], fun _ _ => by norm_num [upd, wd, t1]⟩,
    ⟨fun _ => by norm_num [upd, wd, t1], fun _ _ => by norm_num [upd, wd, t1]⟩⟩

/-- C34_cancelling_gamma: three devices with weightings 1, -1, 1 are "fully hidden". -/
example : ({ tp with n := 3, gamma := fun j => if j = 1 then -1 else 1 } : TPar ℚ).fullyHidden = true :=
  by decide +kernel

/-- C34_set_weights on concrete numbers: hidden weight of the last device is `v / gamma`. -/
example : (match tp.setWeights ts (fun _ => 1/4) (fun _ _ => 0) with
    | .ok s => (s.vis 3, ((s.dev 1).st 3).vis, ((s.dev 0).st 3).vis)
    | .error _ => (7, 7, 7)) = (1/4, 1/4, 0) ∧ tp.fullyHidden = false := by decide +kernel

/-! ## C35 -/

/-- The default update parameters: `desired_bl = 31`, both managements on. -/
noncomputable def up0 : UpPar := ⟨true, 31, true, true, 1⟩

/-- C35_length_and_product applies to the defaults with granularity 0.001 and a two-element input. -/
example : ∃ r, up0.initialize.scales 2 1 (fun j => if j = 0 then 1 else -1/2) (fun _ => 1/10) (1/10)
    (1/1000) = .ok r ∧ 1 ≤ r.bl ∧ r.bl ≤ 31 ∧ r.a * r.b * r.bl * (1/1000) = 1/10 := by
  obtain ⟨r, h1, h2, -, -, h3, -⟩ := C35_length_and_product up0 2 1
    (fun j => if j = 0 then 1 else -1/2) (fun _ => 1/10) (1/10) (1/1000) (by norm_num [up0])
    (by norm_num) (by norm_num [up0]) (by norm_num) ⟨0, by norm_num, by norm_num⟩
    ⟨0, by norm_num, by norm_num⟩
  exact ⟨r, h1, h2, by simpa [up0] using (h3 (Or.inl rfl)).1, (h3 (Or.inl rfl)).2⟩

/-! C35_expected_update: the unit square with Lebesgue measure carries two independent uniform draws,
one for the rows and one for the columns. -/
open MeasureTheory ProbabilityTheory unitInterval

/-- A point of the unit interval as a draw in `[0, 1)`. -/
noncomputable def coord (a : I) : ℝ := if (a : ℝ) = 1 then 0 else a

theorem coord_unit (a : I) : 0 ≤ coord a ∧ coord a < 1 := by
  unfold coord
  split_ifs with h
  · norm_num
  · exact ⟨a.2.1, lt_of_le_of_ne a.2.2 h⟩

theorem coord_measurable : Measurable coord :=
  Measurable.ite (measurable_subtype_coe (measurableSet_singleton (1 : ℝ))) measurable_const
    measurable_subtype_coe

theorem coord_uniform : Uniform01 (volume : Measure I) coord := by
  refine ⟨coord_measurable, fun p h0 h1 => ?_⟩
  have e : ({a : I | coord a < p} : Set I) =ᵐ[volume] Set.Iio (⟨p, h0, h1⟩ : I) := by
    have hn : ∀ᵐ a : I, a ≠ 1 := by
      rw [ae_iff]
      simp
    filter_upwards [hn] with a ha
    have ha' : (a : ℝ) ≠ 1 := fun h => ha (Subtype.ext h)
    apply propext
    change coord a < p ↔ a < (⟨p, h0, h1⟩ : I)
    rw [coord, if_neg ha']
    rfl
  rw [measure_congr e, unitInterval.volume_Iio]

noncomputable def txΩ (ω : I × I) : TrainDraw ℝ := ⟨fun _ => 0, fun _ _ => coord ω.1⟩
noncomputable def tdΩ (ω : I × I) : TrainDraw ℝ := ⟨fun _ => 0, fun _ _ => coord ω.2⟩

/-- The probabilistic hypotheses of C35_expected_update are satisfiable. -/
example : IsProbabilityMeasure (volume : Measure (I × I)) ∧
    (∀ ω, UnitDraws (txΩ ω)) ∧ (∀ ω, UnitDraws (tdΩ ω)) ∧
    (∀ k : Nat, Uniform01 (volume : Measure (I × I)) fun ω => (txΩ ω).r k 0) ∧
    (∀ k : Nat, Uniform01 (volume : Measure (I × I)) fun ω => (tdΩ ω).r k 0) ∧
    ∀ k : Nat, IndepFun (fun ω => (tdΩ ω).r k 0) (fun ω => (txΩ ω).r k 0)
      (volume : Measure (I × I)) := by
  have m1 : MeasurePreserving (Prod.fst : I × I → I) volume volume := measurePreserving_fst
  have m2 : MeasurePreserving (Prod.snd : I × I → I) volume volume := measurePreserving_snd
  refine ⟨inferInstance, fun ω => ⟨fun _ => ⟨le_refl _, one_pos⟩, fun _ _ => coord_unit _⟩,
    fun ω => ⟨fun _ => ⟨le_refl _, one_pos⟩, fun _ _ => coord_unit _⟩, fun _ => ?_, fun _ => ?_,
    fun _ => ?_⟩
  · refine ⟨coord_measurable.comp measurable_fst, fun p h0 h1 => ?_⟩
    have := m1.measure_preimage
      (coord_measurable (measurableSet_Iio : MeasurableSet (Set.Iio p))).nullMeasurableSet
    exact this.trans (coord_uniform.2 p h0 h1)
  · refine ⟨coord_measurable.comp measurable_snd, fun p h0 h1 => ?_⟩
    have := m2.measure_preimage
      (coord_measurable (measurableSet_Iio : MeasurableSet (Set.Iio p))).nullMeasurableSet
    exact this.trans (coord_uniform.2 p h0 h1)
  · exact (indepFun_prod coord_measurable coord_measurable).symm

end Aihw.Pulsed.Ex

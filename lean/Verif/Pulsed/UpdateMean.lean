import Verif.Pulsed.UpdateScaleProps
import Mathlib.MeasureTheory.Integral.Bochner.Set
import Mathlib.MeasureTheory.Measure.Lebesgue.Basic
import Mathlib.Probability.Independence.Basic

/-!
# C35: the expected weight change of a stochastic update
-/
namespace Aihw.Pulsed

open MeasureTheory ProbabilityTheory

/-- **C35 (no pulses).**  A zero learning rate, or update management with an all-zero input or error
vector, delivers no pulse at all; the learning rate zero never raises. -/
theorem C35_no_pulses (u : UpPar) (ty : SparseType) (res : ℝ) (sto : Bool) (X D : Nat) (lr g : ℝ)
    (x d : Nat → ℝ) (tx td : TrainDraw ℝ) (pd : PulseDraw ℝ)
    (h : lr = 0 ∨ ((u.um = true ∨ u.ublm = true) ∧ ((∀ j < X, x j = 0) ∨ ∀ i < D, d i = 0))) :
    u.initialize.pulses ty res sto X D lr g x d tx td pd = .ok [] := by
  have key : ∃ a b, u.initialize.scales X D x d (if lr < 0 then -lr else lr) g = .ok ⟨0, a, b⟩ := by
    have habs : (if lr < 0 then -lr else lr) = |lr| := by
      split_ifs with h
      · rw [abs_of_neg h]
      · rw [abs_of_nonneg (not_lt.1 h)]
    rw [habs]
    have hn : ¬ |lr| < 0 := not_lt.2 (abs_nonneg _)
    by_cases h0 : lr = 0
    · refine ⟨0, 0, ?_⟩
      have hc : ∀ v : UpPar, v.calculateBlAB |lr| g = .ok ⟨0, 0, 0⟩ := by
        intro v
        rw [UpPar.calculateBlAB, if_neg hn, if_pos (by rw [h0, abs_zero])]
      unfold UpPar.scales
      split_ifs
      · have hc' := hc u.initialize
        rw [h0, abs_zero] at hc'
        simp [UpPar.performUM, hc', h0, bind, Except.bind, pure, Except.pure]
      · exact hc _
    · have hp : 0 < |lr| := abs_pos.2 h0
      obtain ⟨hm, hz⟩ := h.resolve_left h0
      refine ⟨1, 1, ?_⟩
      have hz' : absMax D d = 0 ∨ absMax X x = 0 := hz.symm.imp absMax_eq_zero absMax_eq_zero
      have hum : (u.initialize.ublm || u.initialize.um) = true := by
        rcases hm with h | h <;> simp [UpPar.initialize, h]
      rw [UpPar.scales, if_pos hum, UpPar.performUM]
      have hc : ∃ r, u.initialize.calculateBlAB |lr| g = .ok r := by
        unfold UpPar.calculateBlAB
        rw [if_neg hn]
        split_ifs <;> exact ⟨_, rfl⟩
      obtain ⟨r, hr⟩ := hc
      simp only [hr, hp, hz', bind, Except.bind, if_true]
      rfl
  obtain ⟨a, b, hk⟩ := key
  simp only [UpPar.pulses, hk, bind, Except.bind, pure, Except.pure]
  simp [sparsePulses]

/-- A constant-step cell under a one-directional list of pulses with room to both bounds. -/
theorem constant_foldl (F : Fns ℝ) (p : Par ℝ) (c : Cell ℝ) (hstd : p.dwMinStd ≤ 0) (down : Bool)
    (dw : ℝ) (hup : c.up = dw) (hdn : c.down = dw) (hdw : 0 ≤ dw) (l : List (P ℝ))
    (hl : ∀ q ∈ l, q.down = down) (s : CS ℝ)
    (h1 : c.minB ≤ s.vis - l.length * dw) (h2 : s.vis + l.length * dw ≤ c.maxB) :
    (l.foldl (fun s q => pulse F .constant p c s q.down q.g q.g2) s).vis =
      s.vis + (if down then -1 else 1) * (l.length * dw) ∧
    (l.foldl (fun s q => pulse F .constant p c s q.down q.g q.g2) s).per = s.per := by
  induction l generalizing s with
  | nil => simp
  | cons q l ih =>
    have hq := hl q (List.mem_cons_self ..)
    have hlen : ((q :: l).length : ℝ) = l.length + 1 := by simp
    rw [hlen] at h1 h2
    have hn : (0 : ℝ) ≤ l.length * dw := by positivity
    have hp : pulse F .constant p c s q.down q.g q.g2 =
        ⟨s.vis + (if down then -1 else 1) * dw, s.per⟩ := by
      rw [hq]
      simp only [pulse, implementsWriteNoise, Bool.and_false, Bool.false_eq_true, if_false, stepW,
        not_lt.2 hstd, Bool.false_and]
      congr 1
      rw [clipMM_of_mem]
      · cases down <;> simp [hup, hdn]; ring
      · cases down <;> simp [hup, hdn] <;> nlinarith
      · cases down <;> simp [hup, hdn] <;> nlinarith
    rw [List.foldl_cons, hp]
    obtain ⟨i1, i2⟩ := ih (fun r hr => hl r (List.mem_cons_of_mem _ hr))
      ⟨s.vis + (if down then -1 else 1) * dw, s.per⟩
      (by cases down <;> simp <;> nlinarith) (by cases down <;> simp <;> nlinarith)
    refine ⟨?_, i2⟩
    rw [i1, hlen]
    ring

/-- A real random variable that is uniform on `[0, 1)`. -/
def Uniform01 {Ω : Type} [MeasurableSpace Ω] (μ : Measure Ω) (R : Ω → ℝ) : Prop :=
  Measurable R ∧ ∀ p, 0 ≤ p → p ≤ 1 → μ {ω | R ω < p} = ENNReal.ofReal p

theorem uniform_joint {Ω : Type} [MeasurableSpace Ω] {μ : Measure Ω} {R S : Ω → ℝ}
    (hR : Uniform01 μ R) (hS : Uniform01 μ S) (hi : IndepFun R S μ) {p q : ℝ} (p0 : 0 ≤ p)
    (p1 : p ≤ 1) (q0 : 0 ≤ q) (q1 : q ≤ 1) :
    μ {ω | R ω < p ∧ S ω < q} = ENNReal.ofReal (p * q) := by
  have := hi.measure_inter_preimage_eq_mul (Set.Iio p) (Set.Iio q) measurableSet_Iio
    measurableSet_Iio
  have e1 : R ⁻¹' Set.Iio p = {ω | R ω < p} := rfl
  have e2 : S ⁻¹' Set.Iio q = {ω | S ω < q} := rfl
  rw [e1, e2, hR.2 p p0 p1, hS.2 q q0 q1, ← ENNReal.ofReal_mul p0] at this
  exact this

/-- Expected number of slots in which row `i` and column `j` fire together. -/
theorem expected_hits {Ω : Type} [MeasurableSpace Ω] (μ : Measure Ω) [IsProbabilityMeasure μ]
    (tr : Trains ℝ) (hres : tr.res ≤ 0) (x d : Nat → ℝ) (tx td : Ω → TrainDraw ℝ) (i j : Nat)
    (hx : ∀ k, Uniform01 μ fun ω => (tx ω).r k j) (hd : ∀ k, Uniform01 μ fun ω => (td ω).r k i)
    (hind : ∀ k, IndepFun (fun ω => (td ω).r k i) (fun ω => (tx ω).r k j) μ)
    (p0 : 0 ≤ |x j| * tr.b) (p1 : |x j| * tr.b ≤ 1) (q0 : 0 ≤ |d i| * tr.a)
    (q1 : |d i| * tr.a ≤ 1) :
    Integrable (fun ω => ((hits tr x d (tx ω) (td ω) i j).length : ℝ)) μ ∧
    ∫ ω, ((hits tr x d (tx ω) (td ω) i j).length : ℝ) ∂μ =
      tr.bl * ((|d i| * tr.a) * (|x j| * tr.b)) := by
  have hset : ∀ k, MeasurableSet {ω | (td ω).r k i < |d i| * tr.a ∧ (tx ω).r k j < |x j| * tr.b} :=
    fun k => ((hd k).1 measurableSet_Iio).inter ((hx k).1 measurableSet_Iio)
  have hlen : ∀ ω, ((hits tr x d (tx ω) (td ω) i j).length : ℝ) =
      ((List.range tr.bl).map fun k =>
        Set.indicator {ω | (td ω).r k i < |d i| * tr.a ∧ (tx ω).r k j < |x j| * tr.b}
          (fun _ => (1 : ℝ)) ω).sum := by
    intro ω
    unfold hits
    generalize List.range tr.bl = l
    induction l with
    | nil => simp
    | cons k l ih =>
      rw [List.map_cons, List.sum_cons, ← ih, List.filter_cons]
      simp only [Fires, discretized, hres, if_true]
      by_cases h : (td ω).r k i < |d i| * tr.a ∧ (tx ω).r k j < |x j| * tr.b
      · simp [h, Set.indicator, add_comm]
      · simp [h, Set.indicator]
  have hint : ∀ k, Integrable (Set.indicator
      {ω | (td ω).r k i < |d i| * tr.a ∧ (tx ω).r k j < |x j| * tr.b} (fun _ => (1 : ℝ))) μ :=
    fun k => (integrable_const (1 : ℝ)).indicator (hset k)
  have hval : ∀ k, ∫ ω, Set.indicator
      {ω | (td ω).r k i < |d i| * tr.a ∧ (tx ω).r k j < |x j| * tr.b} (fun _ => (1 : ℝ)) ω ∂μ =
      (|d i| * tr.a) * (|x j| * tr.b) := by
    intro k
    rw [integral_indicator_const _ (hset k), Measure.real,
      uniform_joint (hd k) (hx k) (hind k) q0 q1 p0 p1]
    rw [ENNReal.toReal_ofReal (mul_nonneg q0 p0)]
    simp
  simp only [hlen]
  have main : ∀ l : List Nat, Integrable (fun ω => (l.map fun k =>
        Set.indicator {ω | (td ω).r k i < |d i| * tr.a ∧ (tx ω).r k j < |x j| * tr.b}
          (fun _ => (1 : ℝ)) ω).sum) μ ∧
      ∫ ω, (l.map fun k =>
        Set.indicator {ω | (td ω).r k i < |d i| * tr.a ∧ (tx ω).r k j < |x j| * tr.b}
          (fun _ => (1 : ℝ)) ω).sum ∂μ = l.length * ((|d i| * tr.a) * (|x j| * tr.b)) := by
    intro l
    induction l with
    | nil => simp
    | cons k l ih =>
      simp only [List.map_cons, List.sum_cons, List.length_cons]
      refine ⟨(hint k).add ih.1, ?_⟩
      rw [integral_add (hint k) ih.1, ih.2, hval k]
      push_cast; ring
  have := main (List.range tr.bl)
  rwa [List.length_range] at this

/-- **C35 (an update performs SGD in expectation).**  Constant-step device without cycle-to-cycle
noise, up and down step of the cell equal to the granularity `dw`, at least `BL` steps away from both
bounds; update management on, `um_grad_scale = 1`, continuous resolution, pulse-count learning rate
of either sign whose largest product fits the train (`|lr| max|x| max|d| ≤ dw * desired_bl`), and
fixed or managed length (or `|lr| ≤ dw * desired_bl`).  Then, for independent uniform draws, the
expected weight after the update is `w - lr * x_j * d_i`, for both stochastic pulse types. -/
theorem C35_expected_update {Ω : Type} [MeasurableSpace Ω] (μ : Measure Ω) [IsProbabilityMeasure μ]
    (u : UpPar) (ty : SparseType) (sto : Bool) (F : Fns ℝ) (dev : Dev ℝ) (D : Nat) (lr dw : ℝ)
    (x d : Nat → ℝ) (tx td : Ω → TrainDraw ℝ) (pd : Ω → PulseDraw ℝ) (res : ℝ) (hres : res ≤ 0)
    (hkd : dev.kd = .constant) (hok : parOk dev.kd dev.par = true) (hstd : dev.par.dwMinStd ≤ 0)
    (i j : Nat) (hi : i < D) (hj : j < dev.xSize)
    (hup : (dev.cell (i * dev.xSize + j)).up = dw) (hdn : (dev.cell (i * dev.xSize + j)).down = dw)
    (hdw : 0 < dw)
    (room1 : (dev.cell (i * dev.xSize + j)).minB ≤
      dev.weight (i * dev.xSize + j) - u.desiredBL * dw)
    (room2 : dev.weight (i * dev.xSize + j) + u.desiredBL * dw ≤
      (dev.cell (i * dev.xSize + j)).maxB)
    (hD : 1 ≤ u.desiredBL) (hum : u.um = true ∨ u.ublm = true) (hs : u.umGradScale = 1)
    (hlr : lr ≠ 0) (hmode : u.fixedBL = true ∨ u.ublm = true ∨ |lr| ≤ dw * u.desiredBL)
    (hfit : |lr| * absMax dev.xSize x * absMax D d ≤ dw * u.desiredBL)
    (hxn : x j ≠ 0) (hdn' : d i ≠ 0)
    (hux : ∀ ω, UnitDraws (tx ω)) (hud : ∀ ω, UnitDraws (td ω))
    (hx : ∀ k, Uniform01 μ fun ω => (tx ω).r k j) (hd : ∀ k, Uniform01 μ fun ω => (td ω).r k i)
    (hind : ∀ k, IndepFun (fun ω => (td ω).r k i) (fun ω => (tx ω).r k j) μ) :
    ∃ l : Ω → List (P ℝ),
      (∀ ω, u.initialize.pulses ty res sto dev.xSize D lr dw x d (tx ω) (td ω) (pd ω) =
        .ok (l ω)) ∧
      ∫ ω, (dev.pulses F (l ω)).weight (i * dev.xSize + j) ∂μ =
        dev.weight (i * dev.xSize + j) - lr * (x j * d i) := by
  have habs : (if lr < 0 then -lr else lr) = |lr| := by
    split_ifs with h
    · rw [abs_of_neg h]
    · rw [abs_of_nonneg (not_lt.1 h)]
  obtain ⟨r, hr, hbl, ha, hb, hex, -, hprob⟩ := C35_length_and_product u dev.xSize D x d |lr| dw hD
    hdw (by rw [hs]; exact one_pos) (abs_pos.2 hlr) ⟨j, hj, hxn⟩ ⟨i, hi, hdn'⟩
  obtain ⟨hblD, hprod⟩ := hex hmode
  obtain ⟨hp1, hp2, -⟩ := hprob hum
  have hq1 := hp2 hs hfit i hi
  have hp1 := hp1 j hj
  obtain ⟨sg, hsg⟩ : ∃ sg : ℤ, sg = (if lr < 0 then -1 else 1) := ⟨_, rfl⟩
  have hsg1 : sg = 1 ∨ sg = -1 := by rw [hsg]; split_ifs <;> simp
  have hsgl : (sg : ℝ) * |lr| = lr := by
    rw [hsg]
    split_ifs with h
    · rw [abs_of_neg h]; push_cast; ring
    · rw [abs_of_nonneg (not_lt.1 h)]; push_cast; ring
  refine ⟨fun ω => sparsePulses ty ⟨r.bl.toNat, r.a, r.b, res, sto⟩ dev.xSize D sg x d (tx ω) (td ω)
    (pd ω), ?_, ?_⟩
  · intro ω
    simp only [UpPar.pulses, habs, hr, bind, Except.bind, pure, Except.pure, hsg]
  · have hblN : (r.bl.toNat : ℝ) = r.bl := by
      have : ((r.bl.toNat : ℤ)) = r.bl := Int.toNat_of_nonneg (by omega)
      exact_mod_cast this
    have hnp : persistent dev.kd dev.par = false := by
      rw [hkd] at hok ⊢
      simpa [parOk, implementsWriteNoise] using hok
    have hw : ∀ ω, (dev.pulses F (sparsePulses ty ⟨r.bl.toNat, r.a, r.b, res, sto⟩ dev.xSize D sg x d
        (tx ω) (td ω) (pd ω))).weight (i * dev.xSize + j) =
        dev.weight (i * dev.xSize + j) +
          (if decide (0 < (sg : ℝ) * (x j * d i)) then -1 else 1) *
          (((hits ⟨r.bl.toNat, r.a, r.b, res, sto⟩ x d (tx ω) (td ω) i j).length : ℝ) * dw) := by
      intro ω
      have hwt : ∀ e : Dev ℝ, e.kd = dev.kd → e.par = dev.par → e.weight (i * dev.xSize + j) =
          (e.st (i * dev.xSize + j)).vis := by
        intro e h1 h2
        have hw0 : ¬ 0 < dev.par.writeNoise := by
          rw [hkd] at hnp
          simpa [persistent] using hnp
        simp [Dev.weight, h1, h2, hkd, hw0]
      have hlen : ((hits ⟨r.bl.toNat, r.a, r.b, res, sto⟩ x d (tx ω) (td ω) i j).length : ℝ) ≤
          u.desiredBL := by
        have h1 : (hits ⟨r.bl.toNat, r.a, r.b, res, sto⟩ x d (tx ω) (td ω) i j).length ≤
            r.bl.toNat := by
          unfold hits
          exact (List.length_filter_le _ _).trans (by simp)
        have h2 : r.bl.toNat ≤ u.desiredBL := by omega
        exact_mod_cast h1.trans h2
      have hlen' := mul_le_mul_of_nonneg_right hlen hdw.le
      rw [hwt _ (pulses_kd F dev _) (pulses_par F dev _), hwt dev rfl rfl, pulses_st,
        C45_cell_pulses _ _ _ _ _ hsg1 _ _ _ _ (hux ω) (hud ω) _ _ _ hi hj, hkd]
      rw [hwt dev rfl rfl] at room1 room2
      have := (constant_foldl F dev.par (dev.cell (i * dev.xSize + j)) hstd
        (decide (0 < (sg : ℝ) * (x j * d i))) dw hup hdn hdw.le
        ((hits ⟨r.bl.toNat, r.a, r.b, res, sto⟩ x d (tx ω) (td ω) i j).map fun k =>
          ⟨i * dev.xSize + j, decide (0 < (sg : ℝ) * (x j * d i)), (pd ω).g k i j,
            (pd ω).g2 k i j⟩) (by
            intro q hq
            obtain ⟨k, _, rfl⟩ := List.mem_map.1 hq
            rfl) (dev.st (i * dev.xSize + j))
          (by rw [List.length_map]; linarith) (by rw [List.length_map]; linarith)).1
      rw [List.length_map] at this
      exact this
    obtain ⟨hint, hval⟩ := expected_hits μ ⟨r.bl.toNat, r.a, r.b, res, sto⟩ hres x d tx td i j hx hd
      hind (by positivity) hp1 (by positivity) hq1
    simp only [hw]
    rw [integral_add (integrable_const _) ((hint.mul_const dw).const_mul _), integral_const,
      integral_const_mul, integral_mul_const, hval]
    simp only [probReal_univ, one_smul, hblN]
    have hmain : (r.bl : ℝ) * (|d i| * r.a * (|x j| * r.b)) * dw = |lr| * |x j * d i| := by
      rw [← hprod, abs_mul]; ring
    rw [hmain]
    have hdir : (if decide (0 < (sg : ℝ) * (x j * d i)) = true then (-1 : ℝ) else 1) *
        |x j * d i| = -((sg : ℝ) * (x j * d i)) := by
      have hs2 : |(sg : ℝ)| = 1 := by rcases hsg1 with h | h <;> rw [h] <;> simp
      have : |x j * d i| = |(sg : ℝ) * (x j * d i)| := by rw [abs_mul (sg : ℝ), hs2, one_mul]
      rw [this]
      by_cases h : 0 < (sg : ℝ) * (x j * d i)
      · simp only [h, decide_true, if_true]; rw [abs_of_pos h]; ring
      · simp only [h, decide_false, Bool.false_eq_true, if_false]
        rw [abs_of_nonpos (not_lt.1 h)]; ring
    calc _ = dev.weight (i * dev.xSize + j) + |lr| * ((if decide (0 < (sg : ℝ) * (x j * d i)) = true
          then (-1 : ℝ) else 1) * |x j * d i|) := by ring
      _ = dev.weight (i * dev.xSize + j) - (sg : ℝ) * |lr| * (x j * d i) := by rw [hdir]; ring
      _ = _ := by rw [hsgl]

end Aihw.Pulsed

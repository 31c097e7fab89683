import Verif.GpuPost.DriftModel
import Verif.GpuIo.Lemmas

/-!
# Weight drift on the GPU (C47)
-/
namespace Aihw.GpuPost
open Aihw.Pulsed (DriftPar DriftSt DCall driftLaw total driftInit C47_total_time)

/-! ## Specification -/

/-- The drift coefficient of element `i`: its own, where the elements have their own. -/
def elemNu (p : DriftPar) (nus : Option (ℕ → ℝ)) (i : ℕ) : ℝ := nus.elim p.nu fun f => f i

/-- The CPU's parameters for element `i` of a drifter on the GPU: the element's own coefficient, and - since the GPU takes
the logarithm to base ten, the CPU the natural one - `nu_k / ln 10` for `nu_k` and `logG0 * ln 10` for `logG0`. -/
noncomputable def asCpu (p : DriftPar) (nus : Option (ℕ → ℝ)) (i : ℕ) : DriftPar :=
  { p with
    nu := elemNu p nus i
    nuK := p.nuK / Real.log 10
    logG0 := p.logG0 * Real.log 10 }

/-- The state of one element. -/
def GpuDrifter.at (s : GpuDrifter) (i : ℕ) : DriftSt := ⟨s.prev i, s.w0 i, s.t i, s.cur⟩

/-! ## Lemmas -/

theorem log_ten_ne : Real.log 10 ≠ 0 := by
  have : (0 : ℝ) < Real.log 10 := Real.log_pos (by norm_num)
  exact this.ne'

theorem cellNu_eq (p : DriftPar) (nus : Option (ℕ → ℝ)) (i : ℕ) : cellNu p nus i = elemNu p nus i := by
  cases nus <;> rfl

theorem gpuNu_eq (p : DriftPar) (nus : Option (ℕ → ℝ)) (i : ℕ) (w g : ℝ) :
    gpuNu p nus i w g = (asCpu p nus i).nuOf w g := by
  unfold gpuNu DriftPar.nuOf asCpu
  have hk : p.nuK / Real.log 10 = 0 ↔ p.nuK = 0 := by
    rw [div_eq_zero_iff]
    exact ⟨fun h => h.resolve_right log_ten_ne, Or.inl⟩
  have e : ∀ z : ℝ, p.nuK / Real.log 10 * Real.log z = p.nuK * Real.logb 10 z := by
    intro z
    unfold Real.logb
    ring
  have e2 : p.nuK / Real.log 10 * (p.logG0 * Real.log 10) = p.nuK * p.logG0 := by
    have := log_ten_ne
    field_simp
  simp only [hk, e, e2, cellNu_eq]

theorem a_asCpu (p : DriftPar) (nus : Option (ℕ → ℝ)) (i : ℕ) : (asCpu p nus i).a = p.a := rfl

/-- One element of the memory. -/
def DriftMem.at (m : DriftMem) (i : ℕ) : ℝ × ℝ × ℝ × ℝ := (m.w i, m.prev i, m.w0 i, m.t i)

theorem visit_other (p : DriftPar) (nus : Option (ℕ → ℝ)) (a cur : ℝ) (g g2 : ℕ → ℝ) (m : DriftMem) {i k : ℕ}
    (h : k ≠ i) : (driftVisit p nus a cur g g2 m i).at k = m.at k := by
  unfold driftVisit DriftMem.at
  dsimp only
  by_cases hc : p.tol < |m.prev i - m.w i|
  · rw [if_pos hc]; simp [Function.update_of_ne h]
  · rw [if_neg hc]; simp [Function.update_of_ne h]

theorem visit_congr (p : DriftPar) (nus : Option (ℕ → ℝ)) (a cur : ℝ) (g g2 : ℕ → ℝ) (m m' : DriftMem) {i : ℕ}
    (h : m.at i = m'.at i) : (driftVisit p nus a cur g g2 m i).at i = (driftVisit p nus a cur g g2 m' i).at i := by
  simp only [DriftMem.at, Prod.mk.injEq] at h
  obtain ⟨h1, h2, h3, h4⟩ := h
  unfold driftVisit DriftMem.at
  dsimp only
  rw [h1, h2, h3, h4]
  by_cases hc : p.tol < |m'.prev i - m'.w i|
  · rw [if_pos hc, if_pos hc]; simp
  · rw [if_neg hc, if_neg hc]; simp [h3, h4]

theorem driftLoop_at (order : List ℕ) (hn : order.Nodup) (p : DriftPar) (nus : Option (ℕ → ℝ)) (a cur : ℝ)
    (g g2 : ℕ → ℝ) (m : DriftMem) (i : ℕ) :
    (driftLoop order p nus a cur g g2 m).at i =
      if i ∈ order then (driftVisit p nus a cur g g2 m i).at i else m.at i := by
  unfold driftLoop
  induction order generalizing m with
  | nil => simp
  | cons b l ih =>
    obtain ⟨hb, hl⟩ := List.nodup_cons.mp hn
    rw [List.foldl_cons, ih hl]
    by_cases h : i = b
    · subst h
      rw [if_neg hb, if_pos (by simp)]
    · rw [visit_other _ _ _ _ _ _ _ h]
      by_cases hi : i ∈ l
      · rw [if_pos hi, if_pos (by simp [hi])]
        exact visit_congr _ _ _ _ _ _ _ _ (visit_other _ _ _ _ _ _ _ h)
      · rw [if_neg hi, if_neg (by simp [h, hi])]

/-! ## Theorems -/

/-- **C47** (GPU, one call). For every number of threads and in every order: each weight of the array, and the drifter's
state for it, become what the CPU's drifter makes of that weight alone, with the parameters of `asCpu` (in particular
with the natural logarithm of the CPU replaced by the one to base ten); nothing behind the array changes. -/
theorem C47_gpu_step (threads size : ℕ) (hT : 1 ≤ threads) (order : List ℕ)
    (ho : order.Perm (GpuIo.visits threads size)) (p : DriftPar) (nus : Option (ℕ → ℝ)) (s : Option GpuDrifter)
    (w : ℕ → ℝ) (c : GpuCall) (i : ℕ) :
    (i < size → ((gpuDrift order p nus s w c).1 i, (gpuDrift order p nus s w c).2.at i) =
      (asCpu p nus i).apply (s.map (·.at i)) (w i) c.dt (c.g i) (c.g2 i)) ∧
    (size ≤ i → (gpuDrift order p nus s w c).1 i = w i) := by
  have hnd := ho.nodup_iff.mpr (GpuIo.nodup_visits threads size)
  have hm : i ∈ order ↔ i < size := by rw [ho.mem_iff, GpuIo.mem_visits threads size i hT]
  have hs : (s.getD (gpuInit w)).at i = (s.map (·.at i)).getD (driftInit (w i)) := by
    cases s <;> rfl
  have hl := driftLoop_at order hnd p nus p.a ((s.getD (gpuInit w)).cur + c.dt / p.t0) c.g c.g2
    ⟨w, (s.getD (gpuInit w)).prev, (s.getD (gpuInit w)).w0, (s.getD (gpuInit w)).t⟩ i
  constructor
  · intro hi
    rw [if_pos (hm.2 hi)] at hl
    simp only [DriftMem.at, Prod.mk.injEq] at hl
    obtain ⟨h1, h2, h3, h4⟩ := hl
    unfold DriftPar.apply
    rw [← hs, a_asCpu, ← gpuNu_eq]
    show ((driftLoop order p nus p.a _ c.g c.g2 _).w i, (⟨(driftLoop order p nus p.a _ c.g c.g2 _).prev i,
      (driftLoop order p nus p.a _ c.g c.g2 _).w0 i, (driftLoop order p nus p.a _ c.g c.g2 _).t i, _⟩ : DriftSt)) = _
    rw [h1, h2, h3, h4]
    unfold driftVisit GpuDrifter.at asCpu
    dsimp only
    by_cases hc : p.tol < |(s.getD (gpuInit w)).prev i - w i|
    · rw [if_pos hc, if_pos hc]; simp; rfl
    · rw [if_neg hc, if_neg hc]; simp; rfl
  · intro hi
    rw [if_neg (fun h => absurd (hm.1 h) (not_lt.2 hi))] at hl
    simp only [DriftMem.at, Prod.mk.injEq] at hl
    exact hl.1

/-- **C47** (GPU, without conductance dependence): with `nu_k = 0` a call on the GPU is the call on the CPU, with the same
parameters. -/
theorem C47_gpu_as_cpu (threads size : ℕ) (hT : 1 ≤ threads) (order : List ℕ)
    (ho : order.Perm (GpuIo.visits threads size)) (p : DriftPar) (hk : p.nuK = 0) (s : Option GpuDrifter)
    (w : ℕ → ℝ) (c : GpuCall) (i : ℕ) (hi : i < size) :
    ((gpuDrift order p none s w c).1 i, (gpuDrift order p none s w c).2.at i) =
      p.apply (s.map (·.at i)) (w i) c.dt (c.g i) (c.g2 i) := by
  rw [(C47_gpu_step threads size hT order ho p none s w c i).1 hi]
  unfold DriftPar.apply DriftPar.nuOf asCpu
  simp only [hk, zero_div, if_true, DriftPar.a, elemNu, Option.elim]

/-- The calls as the CPU's drifter of element `i` sees them. -/
def callsAt (i : ℕ) (l : List (List ℕ × GpuCall)) : List DCall := l.map fun c => ⟨c.2.dt, c.2.g i, c.2.g2 i⟩

theorem gpuRun_at (threads size : ℕ) (hT : 1 ≤ threads) (p : DriftPar) (nus : Option (ℕ → ℝ)) (i : ℕ) (hi : i < size)
    (l : List (List ℕ × GpuCall)) (hl : ∀ c ∈ l, c.1.Perm (GpuIo.visits threads size)) (s : Option GpuDrifter)
    (w : ℕ → ℝ) :
    ((gpuRun p nus s w l).1 i, (gpuRun p nus s w l).2.map (·.at i)) =
      (asCpu p nus i).run (s.map (·.at i)) (w i) (callsAt i l) := by
  induction l generalizing s w with
  | nil => rfl
  | cons c l ih =>
    have e := (C47_gpu_step threads size hT c.1 (hl c (by simp)) p nus s w c.2 i).1 hi
    simp only [gpuRun, callsAt, List.map_cons, DriftPar.run]
    rw [← e]
    exact ih (fun c hc => hl c (List.mem_cons_of_mem _ hc)) _ _

/-- **C47** (GPU, total time). However the elapsed time is split into calls, whatever the order of the threads and the
noise in earlier calls: the weight after the last call follows the documented power law of the initial weight at the total
elapsed time, with the drift coefficient of its cell. Without conductance dependence and without other changes of the
weights. -/
theorem C47_gpu_total_time (threads size : ℕ) (hT : 1 ≤ threads) (p : DriftPar) (hk : p.nuK = 0) (htol : 0 ≤ p.tol)
    (nus : Option (ℕ → ℝ)) (w : ℕ → ℝ) (l : List (List ℕ × GpuCall)) (c : List ℕ × GpuCall)
    (hl : ∀ c' ∈ l ++ [c], c'.1.Perm (GpuIo.visits threads size)) (i : ℕ) (hi : i < size) :
    (gpuRun p nus none w (l ++ [c])).1 i =
      driftLaw (w i) p.a (if p.nuStd ≤ 0 then elemNu p nus i else elemNu p nus i + p.nuStd * elemNu p nus i * c.2.g i)
        (((l ++ [c]).map (·.2.dt)).sum / p.t0) + (if 0 < p.readStd then p.readStd * c.2.g2 i else 0) := by
  have h := congrArg Prod.fst (gpuRun_at threads size hT p nus i hi (l ++ [c]) hl none w)
  simp only at h
  rw [h]
  have hc : callsAt i (l ++ [c]) = callsAt i l ++ [⟨c.2.dt, c.2.g i, c.2.g2 i⟩] := by simp [callsAt]
  rw [hc]
  show ((asCpu p nus i).run none (w i) _).1 = _
  rw [C47_total_time (asCpu p nus i) (by simp [asCpu, hk]) htol]
  have ht : total (callsAt i l ++ [⟨c.2.dt, c.2.g i, c.2.g2 i⟩]) = ((l ++ [c]).map (·.2.dt)).sum := by
    simp only [total, callsAt, List.map_append, List.map_map, List.map_cons, List.map_nil]
    rfl
  rw [ht]
  rfl

end Aihw.GpuPost

import Verif.CppFwd.Torch

/-!
# C64: exceptions and concrete cases
-/
open scoped BigOperators

namespace Aihw.CppFwd

/-- **C64, exception** (perfect products) The torch product ignores `out_scale` when it is perfect or ideal, the C++
pass applies it. -/
theorem C64_perfect_scale {p : Mvm.IOPars} (hp : p.isPerfect = true ∨ p.mvType = .ideal) (mf : ℤ) {D X : Nat} {w : Mat}
    (hw : IsMat D X w) {x : List ℚ} (hx : x.length = X) (d : Mvm.Draws) (sq : ℚ → ℚ) (fm bm : MVPar ℚ) (b : IO ℚ)
    (aux : ℚ) :
    ∃ io y z, initIO true D (cppPars p mf) = .ok io ∧
      Mvm.matmul p X w false none d [x] = .ok [y] ∧
      (⟨X, D, io, b, fm, bm⟩ : Pass ℚ).forward sq (matOf w) 1 (drawsOf d) (vecOf x) aux = .ok (z, aux) ∧
      y.length = D ∧ ∀ i < D, vecOf y i = (∑ j ∈ Finset.range X, matOf w i j * vecOf x j) ∧
        z i = p.outScale * vecOf y i := by
  have hg : (cppPars p mf).mvType = .ideal ∨ (cppPars p mf).perfect = true := by
    rcases hp with h | h
    · exact Or.inr h
    · left; change mvOf p.mvType = _; rw [h]; rfl
  have hg' : (p.isPerfect || decide (p.mvType = .ideal)) = true := by
    rcases hp with h | h <;> simp [h]
  refine ⟨{ cppPars p mf with perfect := true, mvType := .ideal }, w.map fun r => dot r x,
    fun i => p.outScale * 1 * mv X (matOf w) (vecOf x) i, ?_, ?_, ?_, by simp [hw.1], ?_⟩
  · unfold initIO
    rw [if_pos hg]
  · unfold Mvm.matmul
    rw [if_pos hg']
    rfl
  · unfold Pass.forward IO.isPerfect
    simp only [decide_true, Bool.or_true, if_true]
    rfl
  · intro i hi
    have hiw : i < w.length := by rw [hw.1]; exact hi
    have hv : vecOf (w.map fun r => dot r x) i = ∑ j ∈ Finset.range X, matOf w i j * vecOf x j := by
      unfold vecOf
      rw [List.getD_eq_getElem _ _ (by simpa using hiw), List.getElem_map,
        dot_vecOf _ _ (by rw [hx]; exact hw.2 _ (List.getElem_mem hiw)), hx]
      apply Finset.sum_congr rfl
      intro j _
      unfold matOf vecOf
      rw [List.getD_eq_getElem _ _ hiw]
    refine ⟨hv, ?_⟩
    rw [hv, mul_one]
    rfl

/-- **C64, exception** (noise management `MAX`) Without input noise and without a non-negative input the C++ pass
returns zeros, whatever the weights. -/
theorem C64_max_negative {p : Mvm.IOPars} (hc : Common p) (hn : p.noiseManagement = .max) (h0 : p.inpNoise ≤ 0) (mf : ℤ)
    {X : Nat} (D : Nat) (w : Nat → Nat → ℚ) (x : Nat → ℚ) (hX : 0 < X) (hx : ∀ j < X, x j < 0) (dr : Nat → Draws ℚ)
    (sq : ℚ → ℚ) (fm bm : MVPar ℚ) (b : IO ℚ) (aux : ℚ) :
    ∃ io, initIO true D (cppPars p mf) = .ok io ∧
      (⟨X, D, io, b, fm, bm⟩ : Pass ℚ).forward sq w 1 dr x aux = .ok (fun _ => 0, aux) := by
  refine ⟨ioOf p mf, init_same hc mf D, ?_⟩
  obtain ⟨s1, -⟩ := support_spec hc.support
  have hnm : (ioOf p mf).nm = .max := by change nmOf p.noiseManagement = _; rw [hn]; rfl
  have hmv : (ioOf p mf).mvType = .onePass := by change mvOf p.mvType = _; rw [s1]; rfl
  have hv : (ioOf p mf).computeNM X x aux = .ok ((ioOf p mf).cap (vmax X x), aux) := by
    unfold IO.computeNM; rw [hnm]
  obtain ⟨-, i, hi, e⟩ := vmax_spec hX x
  refine (forward_form (t := ⟨X, D, ioOf p mf, b, fm, bm⟩) ?_ (by rw [hmv]; exact Or.inl rfl) hv).1 ⟨?_, ?_, h0⟩
  · unfold IO.isPerfect
    rw [hmv, show (ioOf p mf).perfect = p.isPerfect from rfl, hc.perfect]; rfl
  · change (ioOf p mf).nm ≠ _
    rw [hnm]; decide
  · have : vmax X x ≤ 0 := by rw [e]; exact (hx i hi).le
    unfold IO.cap
    split_ifs
    · exact (min_le_left _ _).trans this
    · exact this

/-! ## Concrete cases -/

/-- A configuration with converters, noise and bound management. -/
def exP : Mvm.IOPars :=
  { inpRes := 1 / 8, outRes := 1 / 16, outBound := 2, outNoise := 1 / 10, maxBmFactor := 4,
    inpNoise := 1 / 10, outScale := 3, inpAsymmetry := 1 / 10, outAsymmetry := 1 / 10, maxBmRes := 4 }

/-- Random numbers depending on round, sample and position. -/
def exD : Mvm.Draws := ⟨fun _ i j => if i = j then 1 else -1, fun _ _ _ => 0, fun _ i j => if i = j then -1 else 2,
  fun _ _ _ => 0⟩

example : Common exP :=
  ⟨rfl, by decide +kernel, by decide, fun _ => rfl, fun _ => by decide +kernel, fun _ => by decide +kernel,
    by decide +kernel, by decide +kernel⟩

example : IsMat 2 3 [[1, 2, 3], [-4, 5, -6]] := by
  refine ⟨rfl, ?_⟩
  intro r hr
  simp at hr
  rcases hr with rfl | rfl <;> rfl

/-- The torch product (two rounds of bound management). -/
example : (match Mvm.matmul exP 3 [[1, 2, 3], [-4, 5, -6]] false none exD [[2, -1, 1 / 2]] with
    | .ok r => r
    | .error _ => []) = [[-6, -24]] := by decide +kernel

/-- The C++ pass. -/
example : (match initIO true 2 (cppPars exP 4) with
    | .ok io => (match (⟨3, 2, io, io, ⟨fun _ => 0, fun _ => 0, 1, fun _ _ => 1, fun _ => 0⟩,
        ⟨fun _ => 0, fun _ => 0, 1, fun _ _ => 1, fun _ => 0⟩⟩ : Pass ℚ).forward (fun _ => 0)
        (matOf [[1, 2, 3], [-4, 5, -6]]) 1 (drawsOf exD) (vecOf [2, -1, 1 / 2]) (-1) with
      | .ok (y, _) => [y 0, y 1]
      | .error _ => [])
    | .error _ => []) = [-6, -24] := by decide +kernel

/-- Batches: the torch loop of the bound management ends when all samples pass, so the output of a sample depends on
the others (here sample 0 alone and together with a sample that overflows). The C++ pass treats samples one by one. -/
def exP2 : Mvm.IOPars :=
  { inpRes := 1 / 8, outRes := 1 / 16, outBound := 2, outNoise := 0, noiseManagement := .none, maxBmFactor := 8,
    maxBmRes := 4 }

example : (match Mvm.matmul exP2 1 [[3]] false none exD [[1 / 4]] with
    | .ok r => r
    | .error _ => []) = [[3 / 4]] ∧
    (match Mvm.matmul exP2 1 [[3]] false none exD [[1 / 4], [1]] with
    | .ok r => r
    | .error _ => []) = [[0], [3]] := by decide +kernel

end Aihw.CppFwd

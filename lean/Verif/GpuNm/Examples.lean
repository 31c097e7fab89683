import Verif.GpuNm.Props
import Verif.CppFwd.Examples

/-!
# Concrete cases for C98
-/

namespace Aihw.GpuNm

/-- All threads in order. -/
def inOrder (N total m : ℕ) : Sched := ⟨active N total, writers N total m, List.range total⟩

/-- All threads in reverse order. -/
def reversed (N total m : ℕ) : Sched :=
  ⟨fun k => (active N total k).reverse, (writers N total m).reverse, (List.range total).reverse⟩

theorem inOrder_possible (N total m : ℕ) : (inOrder N total m).Possible N total m :=
  ⟨fun _ => List.Perm.refl _, List.Perm.refl _, List.Perm.refl _⟩

theorem reversed_possible (N total m : ℕ) : (reversed N total m).Possible N total m :=
  ⟨fun _ => List.reverse_perm _, List.reverse_perm _, List.reverse_perm _⟩

/-- Inputs of both signs. -/
def exInput (s : ℚ) (i : ℕ) : ℚ := if i % 2 = 0 then s * (i + 1) else -(s * (i + 2))

/-- Two inputs per sample, four threads per block, batch dimension first. -/
def exCall (m : ℕ) (s : ℚ) : Call ℚ := ⟨m, true, exInput s, reversed 4 (2 * m) m, fun _ => 77⟩

theorem exCall_good (m : ℕ) (hm : 1 ≤ m) (s : ℚ) : (exCall m s).Good 2 4 := ⟨hm, reversed_possible _ _ _⟩

-- C98_absmax, C98_sums: several blocks with shared memory (m = 3), and without (m = 5).
example : (List.range 3).map ((amaxAcc.run 2 4 (fun _ => 99) [exCall 3 1]).val) = [5, 5, 7] := by
  decide +kernel

example : (List.range 5).map ((amaxAcc.run 2 4 (fun _ => 99) [exCall 5 1]).val) = [7, 7, 9, 9, 11] := by
  decide +kernel

example : (List.range 3).map ((psumAcc.run 2 4 (fun _ => 99) [exCall 3 1]).val) = [1, 5, 3] ∧
    (List.range 3).map ((nsumAcc.run 2 4 (fun _ => 99) [exCall 3 1]).val) = [-5, -3, -7] := by
  decide +kernel

example : (List.range 3).map (((maxAcc (-1000)).run 2 4 (fun _ => 99) [exCall 3 1]).val) = [1, 5, 3] := by
  decide +kernel

example : Fresh 2 (exCall 3 1) [exCall 4 1, exCall 3 2] :=
  C98_fresh 2 _ _ (by
    intro d hd _
    rcases List.mem_cons.mp hd with rfl | hd
    · decide
    · rw [List.mem_singleton.mp hd]; decide)

-- C98_left_over: after 4, 2, 4 samples, the last two have the maxima of the first batch.
example : (exCall 2 1).first ∧ (exCall 4 1).first ∧ (exCall 4 3).Good 2 4 ∧ Fresh 3 (exCall 4 3) [] :=
  ⟨⟨rfl, le_refl _⟩, ⟨rfl, by decide⟩, exCall_good 4 (by decide) 3, Or.inr (Or.inr trivial)⟩

example :
    (List.range 4).map ((amaxAcc.run 2 4 (fun _ => 99) [exCall 4 1, exCall 2 1, exCall 4 3]).val)
      = [5, 7, 21, 27] ∧
    (List.range 4).map ((amaxAcc.run 2 4 (fun _ => 99) [exCall 4 1]).val) = [5, 7, 7, 9] := by
  decide +kernel

/-- Three samples of two inputs. -/
def exReq (m : ℕ) (test : Bool) : Req ℚ :=
  ⟨m, true, exInput 1, inOrder 4 (2 * m) m, reversed 4 (2 * m) m, inOrder 4 (2 * m) m,
    reversed 4 (2 * m) m, fun _ => 55, fun _ => false, test⟩

theorem exReq_good (m : ℕ) (hm : 1 ≤ m) (test : Bool) : (exReq m test).Good 2 4 :=
  ⟨hm, inOrder_possible _ _ _, reversed_possible _ _ _, inOrder_possible _ _ _, reversed_possible _ _ _⟩

def exIO : CppFwd.IO ℚ :=
  { CppFwd.exIO with
    nmThres := 6, nmWmax := 3 / 5, outBound := some (1 / 4), inpRes := 1 / 100, maxBmRes := 1 / 4,
    nmDecay := 1 / 10 }

-- C98_absmax_management, C98_max_management, C98_npsum_management: threshold 6.
example :
    ((Man.run 2 4 (-1000) (fun _ => 99) [⟨.absMax, exIO, exReq 3 false⟩]).values.map
      fun v => (List.range 3).map v) = some [5, 5, 6] ∧
    ((Man.run 2 4 (-1000) (fun _ => 99) [⟨.max, exIO, exReq 3 false⟩]).values.map
      fun v => (List.range 3).map v) = some [1, 5, 3] ∧
    ((Man.run 2 4 (-1000) (fun _ => 99) [⟨.absMaxNPSum, exIO, exReq 3 false⟩]).values.map
      fun v => (List.range 3).map v) = some [12, 12, 84 / 5] := by decide +kernel

-- C98_constant, C98_constant_lost.
example :
    ((Man.run 2 4 (-1000) (fun _ => 99) [⟨.constant, exIO, exReq 3 false⟩,
      ⟨.constant, exIO, exReq 2 false⟩]).values.map fun v => (List.range 3).map v) = some [6, 6, 6] ∧
    ((Man.run 2 4 (-1000) (fun _ => 99) [⟨.constant, exIO, exReq 3 false⟩,
      ⟨.absMaxNPSum, exIO, exReq 3 false⟩, ⟨.constant, exIO, exReq 3 false⟩]).values.map
        fun v => (List.range 3).map v) = some [12, 12, 84 / 5] := by decide +kernel

-- C98_average: 17/3, and a second batch of the same size; C98_average_small_batch: (5 + 3) / 3.
example :
    (Man.run 2 4 (-1000) (fun _ => 99) [⟨.average, exIO, exReq 3 false⟩]).ravg = 17 / 3 ∧
    ((Man.run 2 4 (-1000) (fun _ => 99) [⟨.average, exIO, exReq 3 true⟩,
      ⟨.average, exIO, exReq 3 false⟩]).values.map fun v => (List.range 3).map v)
        = some [17 / 3, 17 / 3, 17 / 3] ∧
    (Man.run 2 4 (-1000) (fun _ => 99) [⟨.average, exIO, exReq 2 false⟩,
      ⟨.average, exIO, exReq 3 false⟩]).ravg = 17 / 3 * (9 / 10) + 1 / 10 * ((3 + 5) / 3) := by
  decide +kernel

example : (Man.run 2 4 (-1000) (fun _ => (99 : ℚ)) [⟨.average, exIO, exReq 3 false⟩]).size = 3 := by
  decide +kernel

end Aihw.GpuNm

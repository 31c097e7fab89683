import Verif.Exper.InferProps

/-!
# C84: concrete cases
-/
namespace Aihw.Exper
open Aihw Aihw.Cloud

/-- A network whose state is the number of times it was programmed and the drift time; samples are numbers;
a sample is predicted correctly if it is smaller than the number of programmings. -/
noncomputable def exNet : Net (ℕ × ℝ) (List ℕ) where
  eval w := w
  program w := (w.1 + 1, 0)
  drift t w := (w.1, t)
  predict w b := (w, (b.map fun (_ : ℕ) => w.2).sum / b.length, (b.filter fun x => decide (x < w.1)).length)
  size b := b.length

/-- The hypotheses of `C84_results`, `C84_ranges` and `C84_batching` hold for this network. -/
example : (([[0, 1], [2]] : List (List ℕ)).map exNet.size).sum ≠ 0 := by simp [exNet]

example : ∀ w b, (exNet.predict w b).2.2 ≤ exNet.size b := fun _ _ => List.length_filter_le _ _

/-- Two repeats with the times `0, 1`: in the first repeat one sample of three is predicted correctly, in the
second two. -/
example (w : ℕ × ℝ) (hw : w.1 = 0) : (avg 2 fun i => accuracy (outcome exNet [[0, 1], [2]] [0, 1] w i 1)) = 50 := by
  have h1 : accuracy (outcome exNet [[0, 1], [2]] [0, 1] w 0 1) = 100 / 3 := by
    simp [outcome, overTimes, seen, netRep, exNet, accuracy, hw]
    norm_num
  have h2 : accuracy (outcome exNet [[0, 1], [2]] [0, 1] w 1 1) = 200 / 3 := by
    simp [outcome, overTimes, seen, netRep, exNet, accuracy, hw]
    norm_num
  simp only [avg, Finset.sum_range_succ, Finset.sum_range_zero, h1, h2]
  norm_num

/-- A day: ten times. -/
example : (times 86400 10).length = 10 ∧ (times 86400 10).Pairwise (· < ·) ∧
    (times 86400 10).getLast? = some 86400 :=
  ⟨(C84_times_order 86400 (by norm_num) 10 (by norm_num)).1,
    (C84_times_order 86400 (by norm_num) 10 (by norm_num)).2.1,
    (C84_times_order 86400 (by norm_num) 10 (by norm_num)).2.2 (by norm_num)⟩

/-- A run over the first three of four samples. -/
example (clock : ℕ → ℝ) : ∃ r, inferRun exNet clock [0, 1, 2, 3] 2 3 2 86400 (0, 0) = .ok r := by
  obtain ⟨m, bs, h, _⟩ := (C84_data exNet (fun _ => rfl) clock [0, 1, 2, 3] 2 (by norm_num) 3 2 (by norm_num) 86400
    (by norm_num) (0, 0) (by simp)).2 (by norm_num)
  exact ⟨_, h⟩

end Aihw.Exper

import Verif.Rnn.Props4
import Mathlib.Analysis.SpecialFunctions.Sigmoid
import Mathlib.Analysis.Complex.Trigonometric

/-!
# C58: concrete cases
-/
namespace Aihw.Rnn

/-- Hard sigmoid. -/
def hs (x : ℚ) : ℚ := max 0 (min 1 (x / 2))

/-- Hard tanh. -/
def ht (x : ℚ) : ℚ := max (-1) (min 1 x)

-- the hypotheses on `sigmoid` and `tanh` hold for these and for the real functions
example : Squash hs ht := by
  refine ⟨fun x => ⟨le_max_left _ _, max_le zero_le_one (min_le_left _ _)⟩, fun x => ?_⟩
  rw [abs_le]
  exact ⟨le_max_left _ _, max_le (by norm_num) (min_le_left _ _)⟩

example : Squash (fun x : ℝ => Real.sigmoid x) Real.tanh := by
  refine ⟨fun x => ⟨Real.sigmoid_nonneg x, Real.sigmoid_le_one x⟩, fun x => ?_⟩
  rw [abs_le, Real.tanh_eq_sinh_div_cosh]
  have h1 := Real.cosh_pos x
  have h2 : Real.cosh x = (Real.exp x + Real.exp (-x)) / 2 := Real.cosh_eq x
  have h3 : Real.sinh x = (Real.exp x - Real.exp (-x)) / 2 := Real.sinh_eq x
  have h4 := Real.exp_pos x
  have h5 := Real.exp_pos (-x)
  rw [le_div_iff₀ h1, div_le_iff₀ h1]
  constructor <;> linarith

/-- A noisy tile: the noise is a counter added to every output. -/
def exTile (I O : Nat) (w : ℚ) : Lin ℚ ℚ := fun e x =>
  if x.any (fun r => r.length != I) then .error .runtimeError
  else .ok (x.map fun r => List.replicate O (w * r.sum + e), e + 1 / 8)

theorem exTile_sized (I O : Nat) (w : ℚ) : Sized (exTile I O w) I O := by
  intro e x m hx
  unfold exTile
  rw [if_neg (by
    simp only [List.any_eq_true, not_exists, not_and, bne_iff_ne, ne_eq, not_not]
    exact hx.2)]
  refine ⟨_, _, rfl, by simp [hx.1], ?_⟩
  intro r hr
  obtain ⟨q, _, rfl⟩ := List.mem_map.1 hr
  simp

/-- A vanilla cell with two inputs and one output. -/
def exCell : Cell (Bat ℚ) (Bat ℚ) ℚ := vanillaCell ht (exTile 2 1 (1 / 4)) (exTile 1 1 (1 / 2))

/-- A vanilla cell with one input and one output. -/
def exCell' : Cell (Bat ℚ) (Bat ℚ) ℚ := vanillaCell ht (exTile 1 1 (1 / 4)) (exTile 1 1 (-1))

example : CellSized exCell 2 1 (fun m h => IsBat h m 1) :=
  (C58_cell_shapes (E := ℚ) hs ht 2 1).1 _ _ (exTile_sized 2 1 _) (exTile_sized 1 1 _)

/-- Two samples, two features. -/
def exA : Bat ℚ := [[1, 1], [0, 1]]
/-- Another time step. -/
def exB : Bat ℚ := [[0, -1], [2, 1]]

example : IsBat exA 2 2 ∧ IsBat exB 2 2 := by unfold IsBat; decide +kernel

-- a stack of two layers over two steps, and the same in two calls
example : modular 2 none [zeros 2 1, zeros 2 1] 0 (unis [exCell, exCell'] [0, 0]) [exA, exB] =
    .ok ([[[9 / 32], [7 / 32]], [[33 / 64], [21 / 32]]], [[[11 / 16], [1]], [[33 / 64], [21 / 32]]], [1 / 2, 1 / 2]) := by
  decide +kernel

example : modular 2 none [zeros 2 1, zeros 2 1] 0 (unis [exCell, exCell'] [0, 0]) [exA] =
      .ok ([[[9 / 32], [7 / 32]]], [[[5 / 8], [3 / 8]], [[9 / 32], [7 / 32]]], [1 / 4, 1 / 4]) := by
  decide +kernel

example : modular 2 none [[[5 / 8], [3 / 8]], [[9 / 32], [7 / 32]]] 0 (unis [exCell, exCell'] [1 / 4, 1 / 4]) [exB] =
      .ok ([[[33 / 64], [21 / 32]]], [[[11 / 16], [1]], [[33 / 64], [21 / 32]]], [1 / 2, 1 / 2]) := by
  decide +kernel

-- too few states
example : modular 2 none [zeros 2 1] 0 (unis [exCell, exCell'] [0, 0]) [exA] = .error .indexError := by decide +kernel

-- an LSTM cell
example : lstmCell hs ht (exTile 2 4 (1 / 4)) (exTile 1 4 (1 / 2)) 0 exA ([[1], [0]], [[1], [-1]]) =
    .ok ([[9 / 16], [-45 / 2048]], ([[9 / 16], [-45 / 2048]], [[9 / 8], [-15 / 128]]), 1 / 4) := by
  decide +kernel

-- a GRU cell
example : gruCell hs ht (exTile 2 3 (1 / 4)) (exTile 1 3 (1 / 2)) 0 exA [[1], [-1]] =
    .ok ([[1915 / 2048], [1 / 4]], [[1915 / 2048], [1 / 4]], 1 / 4) := by decide +kernel

-- finding: a bidirectional layer with one state returns one feature instead of two
example :
    (bidirLayer exCell exCell (0, 0) [zeros 2 1, zeros 2 1] [exA, exB]).map (fun r => r.1) =
      .ok [[[5 / 8, 1], [3 / 8, 1]], [[11 / 16, -1 / 8], [1, 7 / 8]]] ∧
    (bidirLayer exCell exCell (0, 0) [zeros 2 1] [exA, exB]).map (fun r => r.1) =
      .ok [[[5 / 8], [3 / 8]], [[11 / 16], [1]]] := by decide +kernel

-- row-wise tiles: exact linear layers
example : ∃ g, RowTile (linear 2 4 (fun o p => (o + p : ℚ)) (fun o => (o : ℚ)) : Lin ℚ Unit) 2 4 g :=
  ⟨_, linear_row _ _ _ _⟩

-- layers built for zero, one and three
example : (buildLayers 0 "a" fun _ => "b") = ["a"] ∧ (buildLayers 3 "a" fun _ => "b") = ["a", "b", "b"] := by decide

end Aihw.Rnn

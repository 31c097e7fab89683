import Verif.Shared.Props2
import Verif.Shared.Rows

/-!
# C90 and C91: concrete cases
-/

namespace Aihw.Shared.Examples

open Aihw Aihw.Shared

/-- The empty memory. -/
def h0 : Heap ℤ := ⟨0, fun _ => ⟨0, 0, []⟩, []⟩

example : Good h0 := by intro a ha; cases ha

/-- An inference tile with one row of two weights, created with `[7, 8]`. -/
def tile0 : Res ℤ := construct 0 true true 1 2 [7, 8] h0

/-- All that can be read of the result of a call. -/
def look (r : Wrap × Heap ℤ) : List ℤ × List ℤ × Option (List ℤ) :=
  ((weightsOf r.1 r.2).val, (contextOf r.1 r.2).val, (paramOf r.1 r.2).map Buf.val)

/-- The weights are zero and the context shows the initial ones. -/
example : tile0.1 = none ∧ look tile0.2 = ([0, 0], [7, 8], some [0, 0]) := by decide +kernel

/-- Without the shared parameter nothing is lost. -/
example : look (construct 0 true false 1 2 [7, 8] h0).2 = ([7, 8], [7, 8], none) := by decide +kernel

/-- A program: weights set, an optimizer step, an update of the tile, a state loaded, another optimizer step. -/
def prog : List (Op ℤ) :=
  [.setWeights ⟨1, 2, [1, 2]⟩, .forward none, .backward none, .optim (List.map (· * 10)), .inPlace (List.map (· + 1)),
    .setWeights ⟨2, 1, [5, 5]⟩, .reload ⟨1, 2, [3, 4]⟩ [9, 9] false, .forward none, .optim (List.map (· * 2))]

/-- It is an ordinary program. -/
example : ∀ c ∈ prog, Plain 1 2 c := by
  intro c hc
  simp only [prog, List.mem_cons, List.not_mem_nil, or_false] at hc
  rcases hc with rfl | rfl | rfl | rfl | rfl | rfl | rfl | rfl | rfl <;> simp [Plain, Fits]

/-- The steps of the program, and the refusal of a matrix of another size. -/
example : (List.range 10).map (fun n => (look (run 0 tile0.2.1 tile0.2.2 (prog.take n))).1) =
    [[0, 0], [1, 2], [1, 2], [1, 2], [10, 20], [11, 21], [11, 21], [3, 4], [3, 4], [6, 8]] := by decide +kernel

example : outcomes 0 tile0.2.1 tile0.2.2 prog =
    [none, none, none, none, none, some .runtimeError, none, none, none] := by decide +kernel

/-- All views agree at the end. -/
example : look (run 0 tile0.2.1 tile0.2.2 prog) = ([6, 8], [6, 8], some [6, 8]) := by decide +kernel

/-- A tensor of the user is put behind the tile: the context lags until the next synchronisation. -/
def other : Heap ℤ := tile0.2.2.alloc ⟨1, 2, [30, 40]⟩

example : look (run 0 tile0.2.1 other [.setWeights ⟨1, 2, [1, 2]⟩, .forward (some 3)]) =
      ([30, 40], [1, 2], some [30, 40]) ∧
    look (run 0 tile0.2.1 other [.setWeights ⟨1, 2, [1, 2]⟩, .forward (some 3), .sync]) =
      ([30, 40], [30, 40], some [30, 40]) := by decide +kernel

/-- The tensor exists when it is given. -/
example : AllGiven 0 tile0.2.1 other [.setWeights ⟨1, 2, [1, 2]⟩, .forward (some 3)] := by
  refine ⟨?_, ?_, trivial⟩
  · intro i hi; cases hi
  · intro i hi
    have : i = 3 := by simpa [Op.args] using hi
    subst this
    decide +kernel

/-- Data assigned to the parameter are not used before the next pass, and are lost in a copy. -/
example : look (run 0 tile0.2.1 other [.setWeights ⟨1, 2, [1, 2]⟩, .assign 3]) = ([1, 2], [1, 2], some [30, 40]) ∧
    look (let r := run 0 tile0.2.1 other [.setWeights ⟨1, 2, [1, 2]⟩, .assign 3]; (deepcopy 0 r.1 [9, 9] r.2).2) =
      ([1, 2], [1, 2], some [1, 2]) := by decide +kernel

/-- A state that does not fit leaves a tile with the weights of the new simulator tile. -/
example : look (run 0 tile0.2.1 tile0.2.2 [.setWeights ⟨1, 2, [1, 2]⟩, .reload ⟨2, 2, [1, 2, 3, 4]⟩ [9, 9] false]) =
    ([9, 9], [1, 2], some [1, 2]) := by decide +kernel

/-- A state with `shared_weights = None` takes the parameter away: optimizer steps have no object any more. -/
example : look (run 0 tile0.2.1 tile0.2.2 [.setWeights ⟨1, 2, [1, 2]⟩, .reload ⟨1, 2, [3, 4]⟩ [9, 9] true]) =
    ([3, 4], [3, 4], none) := by decide +kernel

/-- Two tiles in one memory, called in turn. -/
def tileB : Res ℤ := construct 0 true false 1 1 [5] tile0.2.2

/-- The calls. -/
def calls : List (Bool × Shared.Op ℤ) :=
  [(true, .setWeights ⟨1, 2, [1, 2]⟩), (false, .inPlace (List.map (· + 1))), (true, .optim (List.map (· * 3)))]

example : (fun r : Wrap × Wrap × Heap ℤ => (look (r.1, r.2.2), look (r.2.1, r.2.2)))
    (run2 0 tile0.2.1 tileB.2.1 tileB.2.2 calls) = (([3, 6], [3, 6], some [3, 6]), ([6], [6], none)) := by
  decide +kernel

/-! ### Rows -/

open Rows

/-- A memory with the address as content; a tile of three rows of two weights with its array at 100. -/
def m0 : ℕ → ℕ := id

/-- What the devices and the matrix products see. -/
def views (ops : List Rows.Op) : List ℕ × List ℕ :=
  let s := ops.foldl Rows.step (fresh 3 2 100, m0)
  ((List.range 6).map (fun k => byRow s.1 s.2 (k / 2) (k % 2)), (List.range 6).map (fun k => flat s.1 s.2 (k / 2) (k % 2)))

/-- The first tensor receives the weights. -/
example : views [.share 10] = ([100, 101, 102, 103, 104, 105], [100, 101, 102, 103, 104, 105]) := by decide +kernel

/-- A second one keeps its content. -/
example : views [.share 10, .delta (some 50), .share 20, .delta none] =
    ([20, 21, 22, 23, 24, 25], [20, 21, 22, 23, 24, 25]) := by decide +kernel

example : Separate 6 100 [.share 10, .delta (some 50), .share 20, .delta none] := by
  refine ⟨Or.inr (Or.inr (by decide)), Or.inr (Or.inl (by decide)), trivial⟩

/-- Two overlapping views: the devices miss the second row. -/
example : views [.share 22, .share 30, .share 28] = ([28, 29, 32, 33, 34, 35], [28, 29, 30, 31, 32, 33]) := by
  decide +kernel

end Aihw.Shared.Examples

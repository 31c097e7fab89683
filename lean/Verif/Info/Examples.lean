import Verif.Info.Props

/-!
# C77: concrete cases
-/
namespace Aihw.Info.Ex
open Aihw Aihw.Info

/-- A tile of a mapped layer with limits 4 and 4. -/
def tl (i o : Nat) (mx : ℤ) : Mod := .mk ⟨100, false, false, .other, some ⟨i, o, mx, mx⟩⟩ []

/-- A mapped linear layer with two tiles (below a tile array and a module list). -/
def lin (id : Nat) (mx : ℤ) : Mod :=
  .mk ⟨id, true, false, .linearMapped, none⟩
    [.mk ⟨50, false, false, .other, none⟩ [.mk ⟨51, false, false, .other, none⟩ [tl 3 2 mx, tl 2 2 mx]]]

/-- A digital activation. -/
def relu : Mod := .mk ⟨3, false, false, .other, none⟩ []

/-- `AnalogSequential(AnalogLinearMapped, ReLU)`. -/
def net (mx : ℤ) : Mod := .mk ⟨1, true, true, .other, none⟩ [lin 2 mx, relu]

def w0 : World := ⟨[], [], []⟩

def ten (l : List Nat) : Arg := .tensor l

/-- One forward pass on a batch of 7. -/
def pass : List Call :=
  [⟨2, ten [7, 5], ten [7, 2]⟩, ⟨3, ten [7, 2], ten [7, 2]⟩, ⟨1, ten [7, 5], ten [7, 2]⟩]

example : (w0.summary (net 4) pass).2.isOk = true ∧
    (w0.summary (net 4) pass).1.totals = [some (2, 1)] ∧
    (w0.summary (net 4) pass).1.lists =
      [[⟨2, true, 2, [⟨2, 3, 75/2⟩, ⟨2, 2, 25⟩], 7, [7, 5], [7, 2]⟩,
        ⟨3, false, 0, [], 0, [7, 2], [7, 2]⟩]] := by
  decide +kernel

/-- The hypotheses of the totals hold. -/
example : Fresh w0 ∧ TilesInside (net 4) ∧ (∀ l ∈ (net 4).regs, l.analog = false → l.tiles = []) ∧
    ∀ l ∈ (net 4).regs, (pass.map Call.id).count l.id = 1 := by
  refine ⟨fun h hh => by simp [w0] at hh, .inner _ _ (by rfl) rfl ?_, ?_, ?_⟩
  · intro c hc
    simp only [List.mem_cons, List.not_mem_nil, or_false] at hc
    rcases hc with rfl | rfl
    · exact .here _ _ (by rfl)
    · exact .here _ _ (by rfl)
  · decide +kernel
  · decide +kernel

/-- A second forward pass doubles the list, not the totals. -/
example : (((w0.summary (net 4) pass).1.run pass).1.lists.map List.length) = [4] ∧
    ((w0.summary (net 4) pass).1.run pass).1.totals = [some (2, 1)] := by
  decide +kernel

/-- Three calls of the layer: six tiles. -/
example : (w0.summary (net 4) (pass ++ pass ++ pass)).1.totals = [some (6, 3)] := by decide +kernel

/-- Without limits the summary raises, and so does the model afterwards. -/
example : (match (w0.summary (net 0) pass).2 with | .error .zeroDivision => true | _ => false) = true ∧
    (match ((w0.summary (net 0) pass).1.run pass).2 with
      | .error .zeroDivision => true | _ => false) = true ∧
    (w0.run pass).2.isOk = true := by
  decide +kernel

/-- A layer that returns a tuple (for instance a digital LSTM) raises. -/
example : (match (w0.summary relu [⟨3, ten [7, 2], .notTensor⟩]).2 with
    | .error .attributeError => true | _ => false) = true := by
  decide +kernel

/-- Reuse factor of an unbatched `[16, 10, 12]` output: 192 instead of 120. -/
example : (reuseFactor .conv [3, 12, 14] [16, 10, 12]).toOption = some 192 := by decide +kernel

/-- Splits of a 10 by 6 layer with limits 4. -/
example : TileArray.getSplitSizes 10 ((4 : Nat) : ℤ) = .ok [4, 3, 3] ∧
    TileArray.getSplitSizes 6 ((4 : Nat) : ℤ) = .ok [3, 3] := ⟨by rfl, by rfl⟩

end Aihw.Info.Ex

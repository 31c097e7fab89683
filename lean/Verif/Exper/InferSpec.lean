import Verif.Exper.Infer

/-!
# Specification for C84: the outcome of the predictions, and their averages
-/
namespace Aihw.Exper
open Aihw Aihw.Cloud

/-- Prediction over batches: the final state, and size, correct predictions and loss of every batch. -/
def seen {W B : Type} (N : Net W B) : W → List B → W × List (ℕ × ℕ × ℝ)
  | w, [] => (w, [])
  | w, b :: bs => ((seen N (N.predict w b).1 bs).1,
      (N.size b, (N.predict w b).2.2, (N.predict w b).2.1) :: (seen N (N.predict w b).1 bs).2)

/-- Predictions at several times, each after a drift to that time. -/
def overTimes {W B : Type} (N : Net W B) (bs : List B) : W → List ℝ → W × List (List (ℕ × ℕ × ℝ))
  | w, [] => (w, [])
  | w, t :: ts => ((overTimes N bs (seen N (N.drift t w) bs).1 ts).1,
      (seen N (N.drift t w) bs).2 :: (overTimes N bs (seen N (N.drift t w) bs).1 ts).2)

/-- The network before repeat `i`: every repeat programs the weights once and goes through all times. -/
def netRep {W B : Type} (N : Net W B) (bs : List B) (ts : List ℝ) (w : W) : ℕ → W
  | 0 => w
  | i + 1 => (overTimes N bs (N.program (N.eval (netRep N bs ts w i))) ts).1

/-- The outcome in repeat `i` at time number `j`. -/
def outcome {W B : Type} (N : Net W B) (bs : List B) (ts : List ℝ) (w : W) (i j : ℕ) : List (ℕ × ℕ × ℝ) :=
  (overTimes N bs (N.program (N.eval (netRep N bs ts w i))) ts).2.getD j []

/-- Percentage of correct predictions. -/
noncomputable def accuracy (l : List (ℕ × ℕ × ℝ)) : ℝ :=
  100 * (l.map fun p => (p.2.1 : ℝ)).sum / (l.map fun p => (p.1 : ℝ)).sum

/-- Loss per sample. -/
noncomputable def lossOf (l : List (ℕ × ℕ × ℝ)) : ℝ :=
  (l.map fun p => p.2.2 * (p.1 : ℝ)).sum / (l.map fun p => (p.1 : ℝ)).sum

/-- Average over `k` repeats. -/
noncomputable def avg (k : ℕ) (f : ℕ → ℝ) : ℝ := (∑ i ∈ Finset.range k, f i) / k

/-- Standard deviation (of the population) over `k` repeats. -/
noncomputable def sd (k : ℕ) (f : ℕ → ℝ) : ℝ := Real.sqrt (avg k fun i => (f i - avg k f) ^ 2)

/-- The times: zero and then `n - 1` times from one to `T`, equally spaced in the logarithm. -/
noncomputable def times (T : ℝ) (n : ℕ) : List ℝ :=
  0 :: (List.range (n - 1)).map fun (j : ℕ) => T ^ ((j : ℝ) / ((n : ℝ) - 2))

/-- The arguments of `INFERENCE_REPEAT_END` in repeat `i`: averages over the repeats so far. -/
noncomputable def finishArgs {W B : Type} (N : Net W B) (bs : List B) (ts : List ℝ) (n : ℕ) (w : W) (R : ℤ)
    (i : ℕ) : IArgs :=
  .finish ts ((List.range n).map fun j => avg (i + 1) fun r => accuracy (outcome N bs ts w r j))
    ((List.range n).map fun j => sd (i + 1) fun r => accuracy (outcome N bs ts w r j))
    ((List.range n).map fun j => avg (i + 1) fun r => 100 - accuracy (outcome N bs ts w r j))
    ((List.range n).map fun j => avg (i + 1) fun r => lossOf (outcome N bs ts w r j)) R

/-- The hooks called for `k` repeats; the value is that of the last end hook. -/
def iemit {S : Type} (h : ITable S) (fin : ℕ → IArgs) : ℕ → S → Except PyErr (S × RDict)
  | 0, s => .ok (s, [])
  | k + 1, s => do
    let r ← iemit h fin k s
    let c ← icall (.start k) h.start [] r.1
    icall (fin k) h.finish [] c.1

/-- The reported points for `k` repeats. -/
noncomputable def runPoints {W B : Type} (N : Net W B) (bs : List B) (ts : List ℝ) (w : W) (k : ℕ) :
    List Point :=
  (List.range ts.length).map fun j =>
    { t := ts.getD j 0
      avgAccuracy := avg k fun r => accuracy (outcome N bs ts w r j)
      stdAccuracy := sd k fun r => accuracy (outcome N bs ts w r j)
      avgError := 100 - avg k fun r => accuracy (outcome N bs ts w r j)
      avgLoss := avg k fun r => lossOf (outcome N bs ts w r j) }

end Aihw.Exper

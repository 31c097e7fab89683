import Verif.Exper.Model

/-!
# Specification for C83: what a training experiment does to the network and what it reports
-/
namespace Aihw.Exper
open Aihw Aihw.Cloud

/-- Optimization over batches: the final state, and size and loss of every batch. -/
def trainOut {W B : Type} (M : Mach W B) : W → List B → W × List (ℕ × ℚ)
  | w, [] => (w, [])
  | w, b :: bs => ((trainOut M (M.step w b).1 bs).1,
      (M.size b, (M.step w b).2) :: (trainOut M (M.step w b).1 bs).2)

/-- Prediction over batches: the final state, and size, correct predictions and loss of every batch. -/
def valOut {W B : Type} (M : Mach W B) : W → List B → W × List (ℕ × ℕ × ℚ)
  | w, [] => (w, [])
  | w, b :: bs => ((valOut M (M.predict w b).1 bs).1,
      (M.size b, (M.predict w b).2.2, (M.predict w b).2.1) :: (valOut M (M.predict w b).1 bs).2)

/-- The network after an epoch: optimization in training mode, then validation in evaluation mode. -/
def epochEnd {W B : Type} (M : Mach W B) (tb vb : List B) (w : W) : W :=
  (valOut M (M.eval (trainOut M (M.train w) tb).1) vb).1

/-- The network before epoch `n`. -/
def netAt {W B : Type} (M : Mach W B) (tb vb : ℕ → List B) (w : W) : ℕ → W
  | 0 => w
  | n + 1 => epochEnd M (tb n) (vb n) (netAt M tb vb w n)

/-- Batches of the optimization in epoch `n`. -/
def trained {W B : Type} (M : Mach W B) (tb vb : ℕ → List B) (w : W) (n : ℕ) : List (ℕ × ℚ) :=
  (trainOut M (M.train (netAt M tb vb w n)) (tb n)).2

/-- Batches of the validation in epoch `n`. -/
def validated {W B : Type} (M : Mach W B) (tb vb : ℕ → List B) (w : W) (n : ℕ) : List (ℕ × ℕ × ℚ) :=
  (valOut M (M.eval (trainOut M (M.train (netAt M tb vb w n)) (tb n)).1) (vb n)).2

/-- The signals of epoch `n`, with their arguments. -/
def signals (n : ℕ) (tr : List (ℕ × ℚ)) (va : List (ℕ × ℕ × ℚ)) : List (Sig × List ℚ) :=
  [(.epochStart, [(n : ℚ)]), (.trainEpochStart, [(n : ℚ)])] ++
    (tr.map fun p => (.trainBatchEnd, [(p.1 : ℚ), p.2 * p.1])) ++
    [(.trainEpochEnd, []), (.valEpochStart, [(n : ℚ)])] ++
    (va.map fun p => (.valBatchEnd, [(p.1 : ℚ), (p.2.1 : ℚ), p.2.2 * p.1])) ++
    [(.valEpochEnd, []), (.epochEnd, [])]

/-- All signals of `k` epochs. -/
def allSignals {W B : Type} (M : Mach W B) (tb vb : ℕ → List B) (w : W) (k : ℕ) : List (Sig × List ℚ) :=
  (List.range k).flatMap fun n => signals n (trained M tb vb w n) (validated M tb vb w n)

/-- Calling the hooks for a list of signals, one after the other. -/
def emit {S : Type} (t : Table S) : List (Sig × List ℚ) → S → Except PyErr S
  | [], s => .ok s
  | e :: es, s => match callHook t e.1 e.2 s with
    | .ok r => emit t es r.1
    | .error x => .error x

/-- The number of samples in batches. -/
def images {α : Type} (l : List (ℕ × α)) : ℚ := (l.map fun p => (p.1 : ℚ)).sum

/-- The report of epoch `n`: means over samples. -/
def report (time : ℚ) (n : ℕ) (tr : List (ℕ × ℚ)) (va : List (ℕ × ℕ × ℚ)) : NDict :=
  [("epoch", (n : ℚ)), ("time_epoch", time),
    ("accuracy", (va.map fun p => (p.2.1 : ℚ)).sum / images va),
    ("train_loss", (tr.map fun p => p.2 * (p.1 : ℚ)).sum / images tr),
    ("valid_loss", (va.map fun p => p.2.2 * (p.1 : ℚ)).sum / images va)]

end Aihw.Exper

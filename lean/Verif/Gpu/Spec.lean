import Verif.Gpu.Model

/-!
# Specification of the pulsed update on the GPU

No words, no positions, no counts: the pulses at a cross-point, in the order of the samples, and a
device that makes one step per pulse.
-/

namespace Aihw.Gpu.Spec

open Aihw.Gpu

/-- A sample of a mini-batch at one cross-point: the entry of the input vector, the entry of the
error vector, and the number of pulse slots of the sample. -/
structure Sample where
  x : Entry
  d : Entry
  slots : ℕ

/-- An entry puts a pulse on its line in slot `k`: the entry is not zero and the random number drawn
for the slot is below the firing probability. -/
def fires (e : Entry) (k : ℕ) : Prop := e.value ≠ 0 ∧ e.draw k < e.prob

instance (e : Entry) (k : ℕ) : Decidable (fires e k) := by unfold fires; infer_instance

/-- The slots in which both lines of the cross-point carry a pulse. -/
def coincidences (s : Sample) : ℕ :=
  ((List.range s.slots).filter fun k => decide (fires s.x k ∧ fires s.d k)).length

/-- The pulses of the sample have opposite signs on the two lines. -/
def opposite (s : Sample) : Bool := decide (s.x.value < 0) != decide (s.d.value < 0)

/-- The device pulses of a sample, one per coincidence: `true` is a pulse with opposite signs, which
moves the weight up. -/
def pulses (s : Sample) : List Bool := List.replicate (coincidences s) (opposite s)

/-- The pulses of all samples, one sample after the other. -/
def train (ss : List Sample) : List Bool := ss.flatMap pulses

/-- What the devices of a one-sided pair get: one of them the pulses with opposite signs, the other
one the pulses with equal signs, always as up pulses. -/
def select : Side → List Bool → List Bool
  | .both, l => l
  | .plus, l => l.filter fun b => b
  | .minus, l => (l.filter fun b => !b).map fun _ => true

/-- One pulse: a step up or down, limited to the bounds. -/
def step (p : Dev) (w : ℚ) (up : Bool) : ℚ :=
  max p.wmin (min p.wmax (if up then w + p.up else w - p.down))

/-- One pulse after the other. -/
def steps (p : Dev) (w : ℚ) (l : List Bool) : ℚ := l.foldl (step p) w

/-- The pulses a kernel reads out of a word pair: as many as counted, with the common sign, or, if
the word is mixed, one per set bit, in the order of the bits. -/
def delivered (r : Read) : List Bool :=
  if r.mixed then ((List.range 32).filter fun i => r.n.testBit i).map fun i => r.negative.testBit i
  else List.replicate r.n (decide (0 < r.negative))

/-- Position of the entry `i` of sample `b` in an input array: samples one after the other, or
transposed. -/
def place (trans : Bool) (sz mBatch b i : ℕ) : ℕ := if trans then i * mBatch + b else b * sz + i

/-- The samples of a mini-batch at the cross-point of input `i` and output `j`. -/
def samples (xt dt : Bool) (xsz dsz mBatch : ℕ) (slots : ℕ → ℕ) (x d : ℕ → Entry) (i j : ℕ) :
    List Sample :=
  (List.range mBatch).map fun b =>
    ⟨x (place xt xsz mBatch b i), d (place dt dsz mBatch b j), slots b⟩

end Aihw.Gpu.Spec

import Verif.Common
import Mathlib.Algebra.Order.Field.Basic
import Mathlib.Algebra.BigOperators.Group.Finset.Basic

/-!
# Analog recurrent layers

Models src/aihwkit/nn/modules/rnn/cells.py, layers.py and rnn.py.

Simplifications: a time step is a batch, a list of rows over a type `K` of numbers; `sigmoid` and `tanh` are
parameters `σ`, `τ` of the cells.  The linear layers (analog tiles) are arbitrary functions that may raise and that
read and change an environment `E` (noise, random generators, remembered inputs).  Every layer has an environment
of its own.  Devices, data types and the initialisation of the weights are not modelled.
-/
namespace Aihw.Rnn

/-- A batch: rows of numbers. -/
abbrev Bat (K : Type) := List (List K)

/-- A linear layer, `AnalogLinear` or `Linear` (cells.py:23-33). -/
abbrev Lin (K E : Type) := E → Bat K → Except PyErr (Bat K × E)

/-- A cell: environment, input, state to output, new state and environment. -/
abbrev Cell (X S E : Type) := E → X → S → Except PyErr (X × S × E)

/-- A layer: environment, state, inputs to outputs, new state and environment. -/
abbrev Layer (X S E : Type) := E → S → List X → Except PyErr (List X × S × E)

section Cells
variable {K E : Type}

/-- Binary tensor operation with broadcasting of the batch dimension.  Both sides must have equally many columns
(the broadcasting of a single column is not modelled). -/
def bop (f : K → K → K) (A B : Bat K) : Except PyErr (Bat K) :=
  if (A ++ B).any (fun r => r.length != (A.headD []).length) then .error .runtimeError
  else if A.length = B.length then .ok (List.zipWith (List.zipWith f) A B)
  else if A.length = 1 then .ok (B.map fun r => List.zipWith f (A.headD []) r)
  else if B.length = 1 then .ok (A.map fun r => List.zipWith f r (B.headD []))
  else .error .runtimeError

/-- Unary tensor operation. -/
def uop (f : K → K) (A : Bat K) : Bat K := A.map fun r => r.map f

/-- Part `q` of `chunk(n, 1)` (numbers of columns divisible by `n`). -/
def chunk (n q : Nat) (A : Bat K) : Bat K := A.map fun r => (r.drop (q * (r.length / n))).take (r.length / n)

/-- `AnalogVanillaRNNCell.forward` (cells.py:79-95). -/
def vanillaCell [Add K] (τ : K → K) (wih whh : Lin K E) : Cell (Bat K) (Bat K) E := fun e x h => do
  let (igates, e) ← wih e x
  let (hgates, e) ← whh e h
  let g ← bop (· + ·) igates hgates
  return (uop τ g, uop τ g, e)

/-- The gates of an LSTM (cells.py:163-173, 238-248). -/
def lstmGates [Add K] [Mul K] (σ τ : K → K) (gates c : Bat K) : Except PyErr (Bat K × Bat K) := do
  let inGate := uop σ (chunk 4 0 gates)
  let forgetGate := uop σ (chunk 4 1 gates)
  let cellGate := uop τ (chunk 4 2 gates)
  let outGate := uop σ (chunk 4 3 gates)
  let fc ← bop (· * ·) forgetGate c
  let ig ← bop (· * ·) inGate cellGate
  let cy ← bop (· + ·) fc ig
  let hy ← bop (· * ·) outGate (uop τ cy)
  return (hy, cy)

/-- `AnalogLSTMCell.forward` (cells.py:148-173). -/
def lstmCell [Add K] [Mul K] (σ τ : K → K) (wih whh : Lin K E) : Cell (Bat K) (Bat K × Bat K) E := fun e x s => do
  let (a, e) ← wih e x
  let (b, e) ← whh e s.1
  let gates ← bop (· + ·) a b
  let r ← lstmGates σ τ gates s.2
  return (r.1, r, e)

/-- `cat((a, b), 1)`. -/
def catCols (A B : Bat K) : Except PyErr (Bat K) :=
  if A.length = B.length then .ok (List.zipWith (· ++ ·) A B) else .error .runtimeError

/-- `AnalogLSTMCellCombinedWeight.forward` (cells.py:223-248). -/
def combinedCell [Add K] [Mul K] (σ τ : K → K) (w : Lin K E) : Cell (Bat K) (Bat K × Bat K) E := fun e x s => do
  let xh ← catCols x s.1
  let (gates, e) ← w e xh
  let r ← lstmGates σ τ gates s.2
  return (r.1, r, e)

/-- `AnalogGRUCell.forward` (cells.py:303-325). -/
def gruCell [Add K] [Mul K] [Sub K] (σ τ : K → K) (wih whh : Lin K E) : Cell (Bat K) (Bat K) E := fun e x h => do
  let (gi, e) ← wih e x
  let (gh, e) ← whh e h
  let r ← bop (· + ·) (chunk 3 0 gi) (chunk 3 0 gh)
  let z ← bop (· + ·) (chunk 3 1 gi) (chunk 3 1 gh)
  let rn ← bop (· * ·) (uop σ r) (chunk 3 2 gh)
  let n ← bop (· + ·) (chunk 3 2 gi) rn
  let d ← bop (· - ·) h (uop τ n)
  let zd ← bop (· * ·) (uop σ z) d
  let y ← bop (· + ·) (uop τ n) zd
  return (y, y, e)

/-- `zeros(batch_size, hidden_size)`. -/
def zeros [Zero K] (B H : Nat) : Bat K := List.replicate B (List.replicate H 0)

end Cells

section Layers
variable {X S E : Type}

/-- The loop over the time steps (layers.py:53-57). -/
def steps (cell : Cell X S E) : E → S → List X → Except PyErr (List X × S × E)
  | e, s, [] => .ok ([], s, e)
  | e, s, x :: xs => do
    let r ← cell e x s
    let q ← steps cell r.2.2 r.2.1 xs
    return (r.1 :: q.1, q.2)

/-- `stack`, which rejects an empty list. -/
def stackSeq (ys : List X) : Except PyErr (List X) := if ys.isEmpty then .error .runtimeError else .ok ys

/-- `AnalogRNNLayer.forward` (layers.py:40-58). -/
def uniLayer (cell : Cell X S E) : Layer X S E := fun e s xs => do
  let r ← steps cell e s xs
  let ys ← stackSeq r.1
  return (ys, r.2)

/-- `AnalogReverseRNNLayer.forward` (layers.py:89-107). -/
def revLayer (cell : Cell X S E) : Layer X S E := fun e s xs => do
  let r ← steps cell e s xs.reverse
  let ys ← stackSeq r.1.reverse
  return (ys, r.2)

/-- `cat([fwd, bwd], -1)` of two sequences of batches. -/
def catSeq {K : Type} (a b : List (Bat K)) : Except PyErr (List (Bat K)) :=
  if a.length = b.length then (a.zip b).mapM fun p => catCols p.1 p.2 else .error .runtimeError

/-- `AnalogBidirRNNLayer.forward` (layers.py:141-163): the loop runs over `zip(directions, states)`, so that only
as many directions are evaluated as there are states. -/
def bidirLayer {K : Type} (cf cb : Cell (Bat K) S E) : Layer (Bat K) (List S) (E × E) := fun e ss xs =>
  match ss with
  | [] => .error .runtimeError
  | [s] => do
    let r ← uniLayer cf e.1 s xs
    return (r.1, [r.2.1], (r.2.2, e.2))
  | s :: s' :: _ => do
    let r ← uniLayer cf e.1 s xs
    let q ← revLayer cb e.2 s' xs
    let y ← catSeq r.1 q.1
    return (y, [r.2.1, q.2.1], (r.2.2, q.2.2))

/-- `init_stacked_analog_lstm` (rnn.py:63-82): the first layer is always built. -/
def buildLayers {L : Type} (num : Int) (first : L) (other : Nat → L) : List L :=
  first :: (List.range (num - 1).toNat).map other

/-- The outputs of layer `i` after the dropout layer, if there is one and `i` is not the last (rnn.py:114-116). -/
def dropped (num : Int) (drop : Option (Nat → List X → List X)) (i : Nat) (z : List X) : List X :=
  if (i : Int) < num - 1 then (drop.elim z fun d => d i z) else z

/-- `ModularRNN.forward` (rnn.py:95-119) from layer `i` on: `drop i` is what the dropout layer does after layer
`i`, if there is one. -/
def modular (num : Int) (drop : Option (Nat → List X → List X)) (states : List S) :
    Nat → List (Layer X S E × E) → List X → Except PyErr (List X × List S × List E)
  | _, [], xs => .ok (xs, [], [])
  | i, (l, e) :: ls, xs =>
    match states[i]? with
    | none => .error .indexError
    | some s => do
      let r ← l e s xs
      let q ← modular num drop states (i + 1) ls (dropped num drop i r.1)
      return (q.1, r.2.1 :: q.2.1, r.2.2 :: q.2.2)

/-- `AnalogRNN.forward` (rnn.py:244-261): without states, those of a zero state for `input.shape[1]` samples. -/
def rnnForward (num : Int) (drop : Option (Nat → List X → List X)) (batch : X → Nat) (zero : Nat → List S)
    (layers : List (Layer X S E × E)) (states : Option (List S)) (xs : List X) :
    Except PyErr (List X × List S × List E) :=
  match states with
  | some ss => modular num drop ss 0 layers xs
  | none => modular num drop (zero ((xs.head?.map batch).getD 0)) 0 layers xs

end Layers

end Aihw.Rnn

import Verif.Inference.Converter
import Mathlib.Algebra.Order.Floor.Ring
import Mathlib.Algebra.Order.Floor.Semiring
import Mathlib.Data.Rat.Floor
import Mathlib.Data.Nat.Log

/-!
# Model of the time-dependent IR-drop product

src/aihwkit/simulator/tiles/analog_mvm_irdrop_t.py and extension/extension_src/ops/thevenin_equiv_op.cpp.  Numbers live in an
ordered field `K` with a floor function.  One input vector at a time (the rows of a batch do not interact, except in the
input-dependent read noise, which is not modelled).  `log2` of numbers is exact (powers of two and their integer part).
-/
namespace Aihw.IrDrop
open Aihw.Inference

variable {K : Type} [Field K] [LinearOrder K] [FloorRing K]

/-- analog_mvm_irdrop_t.py:60-71 `_get_res`. -/
def getRes (res : K) : Except PyErr K :=
  let r := if res > 1 then 1 / res else res
  if r > 0 then .ok r else .error .assertion

/-- `torch.sign`. -/
def sgn (x : K) : K := if 0 < x then 1 else if x < 0 then -1 else 0

/-- `int(log2 y)` for `y ≥ 1`. -/
def ilog (y : K) : Nat := Nat.log 2 ⌊y⌋₊

/-- `torch.fmod(a, b)` for `b > 0`: remainder with the sign of `a`. -/
def fmod (a b : K) : K := a - b * (sgn a * (⌊|a| / b⌋ : K))

/-! ## Input decomposition -/

/-- analog_mvm_irdrop_t.py:183-188: upper part in split mode. -/
def msb (res : K) (s : Nat) (v : K) : K := sgn (v / (2 * res)) * (⌊|v / (2 * res)| / 2 ^ s⌋ : K) * (2 * res)

/-- analog_mvm_irdrop_t.py:190-192: lower part in split mode. -/
def lsb (res : K) (s : Nat) (v : K) : K := fmod (v / (2 * res)) (2 ^ s) * (2 * res)

/-- `allclose` with default tolerances. -/
def closeTo (a b : K) : Bool := |a - b| ≤ 1 / 10 ^ 8 + 1 / 10 ^ 5 * |b|

/-- analog_mvm_irdrop_t.py:164-200: `SPLIT_MODE` (`split_mode_bit_shift` is a natural number `s`). -/
def splitInput (res : K) (s : Nat) (x : List K) : Except PyErr (List K × List K) :=
  let n := ilog (1 / res + 2)
  if 1 / res + 2 ≠ 2 ^ n then .error .configError
  else if ¬ s < n then .error .configError
  else if ¬ (x.all fun v => closeTo (2 ^ s * msb res s v + lsb res s v) v) then .error .configError
  else .ok (x.map (lsb res s), x.map (msb res s))

/-- analog_mvm_irdrop_t.py:206-210: the loop over the bits, lowest first. -/
def bits (u : K) : Nat → List K
  | 0 => []
  | n + 1 => fmod u 2 :: bits (sgn u * (⌊|u| / 2⌋ : K)) n

/-- analog_mvm_irdrop_t.py:202-210: `BIT_WISE`, one vector per bit. The number of bits is `int(log2(1 / res + 2)) - 1`; the form of
the resolution is not checked. -/
def bitInputs (res : K) (x : List K) : List (List K) :=
  let n := ilog (1 / res + 2) - 1
  (List.range n).map fun b => x.map fun v => (bits (v / (2 * res)) n).getD b 0 * (2 * res)

/-! ## Thevenin equivalents -/

/-- One unit cell: input, `g⁺`, `g⁻`. -/
abbrev Row (K : Type) := K × K × K

/-- analog_mvm_irdrop_t.py:382-384: conductance switched to the upper voltage at time `t`. -/
def pp (t : K) (r : Row K) : K := (if r.1 > t then r.2.1 else 0) + (if r.1 < -t then r.2.2 else 0)

/-- analog_mvm_irdrop_t.py:389-390: conductance switched to the lower voltage. -/
def mm (t : K) (r : Row K) : K := (if r.1 > t then r.2.2 else 0) + (if r.1 < -t then r.2.1 else 0)

/-- analog_mvm_irdrop_t.py:396: conductance of cells whose pulse is over. -/
def zz (t : K) (r : Row K) : K := if |r.1| ≤ t then r.2.1 + r.2.2 else 0

/-- The regularisation `1e-12`. -/
def eps : K := 1 / 10 ^ 12

/-- analog_mvm_irdrop_t.py:382-402: conductance and open voltage of one segment (sum over its rows). -/
def thevSeg (t : K) (rows : List (Row K)) : K × K :=
  let g := (rows.map (pp t)).sum + (rows.map (mm t)).sum + ((rows.map (zz t)).sum + eps)
  (g, (6 / 10 * (rows.map (pp t)).sum + 2 / 10 * (rows.map (mm t)).sum + 4 / 10 * (rows.map (zz t)).sum) / g)

/-- analog_mvm_irdrop_t.py:410-414: put a segment (conductance, voltage) after the chain so far (voltage, resistance). -/
def thevStep (rw : K) (s : K × K) (seg : K × K) : K × K :=
  let r1 := s.2 + rw
  let r2 := 1 / seg.1
  let r := r1 * r2 / (r1 + r2)
  ((s.1 / r1 + seg.2 / r2) * r, r)

/-- analog_mvm_irdrop_t.py:406-415: voltage and resistance of the whole column. -/
def thevenin (rw : K) : List (K × K) → Except PyErr (K × K)
  | [] => .error .indexError
  | seg :: segs =>
    let s := segs.foldl (thevStep rw) (seg.2, 1 / seg.1)
    .ok (s.1, s.2 + 1 / 2 * rw)

/-- The configuration `_matmul_irdrop` reads. -/
structure Pars (K : Type) where
  /-- `ir_drop * ir_drop_rs` in Ohm. -/
  rs : K
  vRead : K
  segments : Nat
  /-- `phys_input_size`. -/
  phys : Nat
  integrationSum : Bool
  adc : Bool
  adcFreq : K

/-- analog_mvm_irdrop_t.py:342-347, 471-476: rows per segment. -/
def rowsPerSeg (p : Pars K) : Except PyErr Nat :=
  if p.segments = 0 then .error .zeroDivision
  else if p.phys / p.segments * p.segments ≠ p.phys then .error .assertion
  else .ok (p.phys / p.segments)

/-- analog_mvm_irdrop_t.py:373-379 `sum_segs`: the view into segments needs a whole number of them (one row per segment needs no
view). -/
def segRows (syn : Nat) (rows : List (Row K)) : Except PyErr (List (List (Row K))) :=
  if syn = 1 then .ok (rows.map fun r => [r])
  else if rows.length / syn * syn ≠ rows.length then .error .runtimeError
  else .ok ((List.range (rows.length / syn)).map fun k => (rows.drop (k * syn)).take syn)

/-- analog_mvm_irdrop_t.py:336-420, 494: output current of a column at time `t`; the loop takes the first `segments` segments. -/
def currentAt (p : Pars K) (rows : List (Row K)) (t : K) : Except PyErr K := do
  let syn ← rowsPerSeg p
  let segs ← segRows syn rows
  if segs.length < p.segments then .error .indexError
  else do
    let (v, r) ← thevenin (1 / 10 ^ 6 * p.rs * syn) ((segs.take p.segments).map (thevSeg t))
    .ok ((v - p.vRead) / r)

/-- `torch.trapz` with unit spacing. -/
def trapz : List K → K
  | a :: b :: l => (a + b) / 2 + trapz (b :: l)
  | _ => 0

/-- analog_mvm_irdrop_t.py:496-501: integration over the time steps. -/
def integrate (sum : Bool) (i : List K) : Except PyErr K :=
  if sum then .ok i.sum else match i with
    | [] => .error .indexError
    | a :: l => .ok (trapz (a :: a :: l))

/-- `torch.trunc`. -/
def truncK (x : K) : K := sgn x * (⌊|x|⌋ : K)

/-- analog_mvm_irdrop_t.py:276-288 `_apply_adc_quantization`. -/
def adcQuant (f m : K) : K := truncK (m / 100 * f) * 100 / f

/-- analog_mvm_irdrop_t.py:485-504: the charge of one column. -/
def columnCharge (p : Pars K) (rows : List (Row K)) (tMax : K) (steps : Nat) : Except PyErr K := do
  let i ← (linspace 0 tMax steps).mapM (currentAt p rows)
  let m ← integrate p.integrationSum i
  .ok (if p.adc then adcQuant p.adcFreq m else m)

/-! ## The product -/

/-- `int(x / 2)` of an integer. -/
def half (x : Int) : Int := x.tdiv 2

/-- `pad(l, (a, b))` of a list of rows; negative amounts crop, an impossible size raises. -/
def padList {α : Type} (a b : Int) (z : α) (l : List α) : Except PyErr (List α) :=
  if (l.length : Int) + a + b < 0 then .error .runtimeError
  else
    let l := if 0 ≤ a then List.replicate a.toNat z ++ l else l.drop (-a).toNat
    .ok (if 0 ≤ b then l ++ List.replicate b.toNat z else l.take (l.length - (-b).toNat))

/-- analog_mvm_irdrop_t.py:94-116 `_pad_symmetric`. -/
def padSymmetric (phys n cols : Nat) (x : List K) (w : List (List K)) : Except PyErr (List K × List (List K)) :=
  let pad1 := half ((phys : Int) - n)
  if pad1 = 0 then .ok (x, w)
  else do
    let pad2 := (phys : Int) - n - pad1
    let x ← padList pad1 pad2 0 x
    let w ← padList pad1 pad2 (List.replicate cols 0) w
    .ok (x, w)

/-- The conductance converter: flattened weights to `f_lst` (`[1]` if missing), conductance tensors, `scale_ratio`. -/
abbrev Conv (K : Type) := List K → Except PyErr (List K × List (List K) × K)

/-- Cells of column `j` of a conductance pair; odd columns are read from the other end. -/
def cells (x : List K) (gp gm : List K) (cols j : Nat) : List (Row K) :=
  let l := (List.range x.length).map fun r => (x.getD r 0, gp.getD (r * cols + j) 0, gm.getD (r * cols + j) 0)
  if j % 2 = 0 then l else l.reverse

/-- analog_mvm_irdrop_t.py:484-529: the loop over the pairs, for column `j`. -/
def pairLoop (p : Pars K) (x : List K) (cols j : Nat) (tMax : K) (steps : Nat) : List K → List (List K) → Except PyErr K
  | f :: fs, gp :: gm :: gs => do
    let q ← columnCharge p (cells x gp gm cols j) tMax steps
    let r ← pairLoop p x cols j tMax steps fs gs
    .ok (f * q + r)
  | _, _ => .ok 0

/-- analog_mvm_irdrop_t.py:423-534 `_matmul_irdrop` with `ir_drop ≠ 0`: `w` is the `n × cols` matrix `new_weight`, `bitRes` is
`inp_bound / res`. Interleaving the even and odd columns (74-91) fails for an odd number of columns. -/
def matmulIr (p : Pars K) (conv : Conv K) (bitRes : K) (cols : Nat) (w : List (List K)) (tMax : K) (steps : Nat) (x : List K) :
    Except PyErr (List K) := do
  let _ ← rowsPerSeg p
  let (x, w) ← padSymmetric p.phys w.length cols x w
  let (fs, gs, ratio) ← conv w.flatten
  if x.length ≠ w.length then .error .runtimeError
  else if cols % 2 ≠ 0 then .error .runtimeError
  else (List.range cols).mapM fun j => do
    let m ← pairLoop p x cols j tMax steps fs gs
    .ok (m / ratio / (2 / 10) / (bitRes / 2))

/-- The plain product used without IR drop (analog_mvm_irdrop_t.py:460-461). -/
def plain (cols : Nat) (w : List (List K)) (x : List K) : List K :=
  (List.range cols).map fun j => (List.zipWith (fun a r => a * r.getD j 0) x w).sum

/-- `_matmul_irdrop` (analog_mvm_irdrop_t.py:423-534); `ir = none` means no IR drop (training, or `ir_drop = 0`). -/
def matmul (ir : Option (Pars K × Conv K)) (bitRes : K) (cols : Nat) (w : List (List K)) (tMax : K) (steps : Nat) (x : List K) :
    Except PyErr (List K) :=
  match ir with
  | none => .ok (plain cols w x)
  | some (p, conv) => matmulIr p conv bitRes cols w tMax steps x

/-- Modes of the analog product. -/
inductive Mode where
  | onePass
  | split (s : Nat)
  | bitWise
  | posNeg
deriving DecidableEq

/-- What a pass needs besides the input. -/
structure Job (K : Type) where
  ir : Option (Pars K × Conv K)
  /-- `inp_res` as given. -/
  inpRes : K
  inpBound : K
  /-- `ir_drop_time_step_resolution_scale`. -/
  tScale : K
  cols : Nat
  w : List (List K)

/-- Componentwise `a + c b`. -/
def addScaled (c : K) (a b : List K) : List K := List.zipWith (fun x y => x + c * y) a b

/-- analog_mvm_irdrop_t.py:649-668: the loop over the bits; `fin` finalises the output of a pass. The first sum `0.0 + …` is the
vector of zeros. -/
def bitLoop (j : Job K) (res : K) (fin : Nat → List K → Bool × List K) : Nat → List (List K) → Bool × List K →
    Except PyErr (Bool × List K)
  | _, [], acc => .ok acc
  | b, x :: xs, acc => do
    let o ← matmul j.ir (j.inpBound / res) j.cols j.w (2 * res) 2 x
    let f := fin b o
    bitLoop j res fin (b + 1) xs (acc.1 && f.1, addScaled (2 ^ b) acc.2 f.2)

/-- analog_mvm_irdrop_t.py:537-676 `_compute_analog_mv` after the input preparation: `x` is the prepared input, `fin k` the output
stage of pass `k` (any function). Simplification: a split beyond the bits of a bounded input is not a fractional number of steps. -/
def compute (j : Job K) (mode : Mode) (fin : Nat → List K → Bool × List K) (x : List K) : Except PyErr (Bool × List K) := do
  let res ← getRes j.inpRes
  let bitRes := j.inpBound / res + 2
  match mode with
  | .onePass => do
    let o ← matmul j.ir (j.inpBound / res) j.cols j.w 1 ⌊bitRes / 2 * j.tScale⌋₊ x
    .ok (fin 0 o)
  | .split s => do
    let (lo, hi) ← splitInput res s x
    let o ← matmul j.ir (j.inpBound / res) j.cols j.w (2 * res * (2 ^ s - 1)) ⌊(2 : K) ^ s * j.tScale⌋₊ lo
    let a := fin 0 o
    let steps : Nat := 2 ^ (ilog bitRes - s - 1)
    let o ← matmul j.ir (j.inpBound / res) j.cols j.w (2 * res * (steps - 1)) ⌊(steps : K) * j.tScale⌋₊ hi
    let b := fin 1 o
    .ok (a.1 && b.1, addScaled (2 ^ s) a.2 b.2)
  | .bitWise => bitLoop j res fin 0 (bitInputs res x) (true, List.replicate j.cols 0)
  | .posNeg => .error .notImplemented

/-! ## The C++ kernel -/

/-- thevenin_equiv_op.cpp:46-75: current state of a column at time index `t` after the rows, one row per segment. `x` is rescaled
to time indices. -/
def cppSeg (tMax : K) (steps t : Nat) (r : Row K) : K × K :=
  let x := r.1 / tMax * ((steps : K) - 1)
  let gp := r.2.1
  let gm := r.2.2
  let pp := (if x > t then gp else 0) + (if x < -(t : K) then gm else 0)
  let mm := (if x > t then gm else 0) + (if x < -(t : K) then gp else 0)
  let zz := if |x| ≤ t then gp + gm else 0
  let g := pp + mm + zz + eps
  (g, (6 / 10 * pp + 2 / 10 * mm + 4 / 10 * zz) * (1 / g))

/-- thevenin_equiv_op.cpp:17-79. -/
def cppThevenin (rs tMax : K) (steps t : Nat) : List (Row K) → Option (K × K)
  | [] => none
  | r :: rows =>
    let first := cppSeg tMax steps t r
    let s := rows.foldl (fun s r => thevStep (1 / 10 ^ 6 * rs * 1) s (cppSeg tMax steps t r)) (first.2, 1 / first.1)
    some (s.1, s.2 + 1 / 2 * (1 / 10 ^ 6 * rs * 1))

end Aihw.IrDrop

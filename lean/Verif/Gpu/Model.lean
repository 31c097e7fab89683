import Verif.Common
import Mathlib.Logic.Function.Basic
import Mathlib.Data.Rat.Defs
import Mathlib.Algebra.Order.Field.Rat

/-!
# Model of the pulsed update on the GPU

Sources (all under `/repo/src/rpucuda/cuda`): `bit_line_maker.cu` (the bit line maker, which turns
the inputs of a mini-batch into pulse trains, packed into words), `update_management_helper.cu/.h`
(lengths of the trains and their prefix sums), `pwu_kernel.h` (the kernels which read the words and
move the weights).

Simplifications, for the whole file.

* An unsigned 32-bit word is a `BitVec 32`, a 64-bit word a `BitVec 64`; array positions and pulse
  counts are natural numbers (an `int`/`uint32_t` overflow of a position or of a sum of counts, which
  needs more than `2^31` elements or pulses, is not modelled). `K >> 5` is `K / 32`, `K & 0x1f` is
  `K % 32`.
* Reals are rationals; `sqrt` and `rsqrt` are arbitrary functions carried by the device record.
* Memory is a function from positions to words. A kernel launch is a list of memory operations,
  executed in an arbitrary order (the launch theorems quantify over all permutations), one operation
  being one store (32-bit format) or one `atomicOr` (64-bit format).
* Random numbers are arguments.
-/

namespace Aihw.Gpu

/-- A word of the 32-bit format. -/
abbrev W32 := BitVec 32

/-- A word of the 64-bit format. -/
abbrev W64 := BitVec 64

/-- One entry of an input vector of one sample, as `kernelUpdateGetCountsBatch_SimpleLoop2` sees it
(`bit_line_maker.cu:968-1004`): the value read from the input, the firing probability after scaling
with the learning rate and update management and after the optional discretization (an arbitrary
number here, `bit_line_maker.cu:990-996`), and the uniform random numbers the thread draws for it.
`curand_uniform` returns numbers in `(0, 1]`. -/
structure Entry where
  value : ℚ
  prob : ℚ
  draw : ℕ → ℚ
  drawPos : ∀ k : ℕ, 0 < draw k

/-- `stoch_value < value` for the `k`-th number drawn (`bit_line_maker.cu:904`, `:952`). -/
def Entry.hit (e : Entry) (k : ℕ) : Bool := decide (e.draw k < e.prob)

/-- `negative = value < 0` (`bit_line_maker.cu:990`). -/
def Entry.negative (e : Entry) : Bool := decide (e.value < 0)

/-- The two `continue`s of the loop, after which nothing is written for the entry
(`bit_line_maker.cu:983-986` and `:995-997`). -/
def Entry.skipped (e : Entry) (K : ℕ) : Bool := decide (K = 0) || decide (e.value = 0) || decide (e.prob = 0)

/-! ### Positions -/

/-- `getBatchIdx` (`bit_line_maker.cu:733-739`). -/
def getBatchIdx (trans : Bool) (idx sz mBatch : ℕ) : ℕ :=
  if trans then idx % mBatch else idx / sz

/-- `getValueIdx` (`bit_line_maker.cu:741-747`). -/
def getValueIdx (trans : Bool) (idx sz mBatch : ℕ) : ℕ :=
  if trans then idx / mBatch else idx % sz

/-- `getCountsIdx` for the 32-bit format, all four combinations of the layouts of the input and of
the output (`bit_line_maker.cu:675-703`). -/
def getCountsIdx32 (trans outTrans : Bool) (idx sz mBatch countsOffset : ℕ) : ℕ :=
  match trans, outTrans with
  | false, false => idx / sz * countsOffset + idx % sz
  | false, true => (idx / sz + mBatch * (idx % sz)) / sz * countsOffset
                     + (idx / sz + mBatch * (idx % sz)) % sz
  | true, false => idx % mBatch * countsOffset + idx / mBatch
  | true, true => idx / sz * countsOffset + idx % sz

/-- `getCountsIdx` for the 64-bit format, only available for the transposed output
(`bit_line_maker.cu:705-718`). -/
def getCountsIdx64 (trans : Bool) (idx sz mBatch Kc nB : ℕ) : ℕ :=
  if trans then idx / mBatch * nB + Kc / 32 else idx % sz * nB + Kc / 32

/-- `getIdxToLoad`, the position the update kernels read (`pwu_kernel.h:69-82`). -/
def getIdxToLoad (trans : Bool) (batchIndex countIndex sz mBatch countOffset : ℕ) : ℕ :=
  if trans then
    (batchIndex + countIndex * mBatch) / sz * countOffset + (batchIndex + countIndex * mBatch) % sz
  else countIndex + batchIndex * countOffset

/-! ### Lengths of the trains -/

/-- `getK` (`bit_line_maker.cu:790-798`): the length of the train of a sample, its own one with
update bit line management, the common one otherwise. -/
def getK (ublm : Bool) (Ks : ℕ → ℕ) (K b : ℕ) : ℕ := if ublm then Ks b else K

/-- `dev_Kc_values_`: zero followed by the inclusive prefix sums of the lengths
(`update_management_helper.cu:502-503` and `:550-558`, with the `DeviceScan::InclusiveSum` of CUB
taken as the sum of the first entries). -/
def kcValues (Ks : ℕ → ℕ) : ℕ → ℕ
  | 0 => 0
  | b + 1 => kcValues Ks b + Ks b

/-- `getKc` of the 64-bit format (`bit_line_maker.cu:800-810`). -/
def getKc (ublm : Bool) (Ks : ℕ → ℕ) (K b : ℕ) : ℕ := if ublm then kcValues Ks b else b * K

/-- `getnB` of the 64-bit format (`bit_line_maker.cu:824-832`), where `Kn` is the entry `m_batch` of
the prefix sums (`update_management_helper.h:46-52`). -/
def getnB (ublm : Bool) (Ks : ℕ → ℕ) (K mBatch : ℕ) : ℕ :=
  if ublm then (kcValues Ks mBatch + 31) / 32 else (mBatch * K + 31) / 32

/-- The number of rounds of the batch loop of an update kernel reading the 64-bit format:
`getBo64Batch` (`update_management_helper.h:54-56`), overwritten by `(*Kn + 31) / 32` with update bit
line management (`pwu_kernel.h:481-483`). -/
def readBatch64 (ublm : Bool) (Ks : ℕ → ℕ) (K mBatch : ℕ) : ℕ :=
  if ublm then (kcValues Ks mBatch + 31) / 32 else (mBatch * K + 31) / 32

/-- The number of words per entry in the 32-bit format, `nK32 = (Kplus1 + 31) >> 5`
(`bit_line_maker.cu:26-28`). -/
def nK32 (K : ℕ) : ℕ := (K + 1 + 31) / 32

/-- `getNK32Default` (`rpu_pulsed_meta_parameter.h:278`), the number of words per entry the update
kernels are set up with (`pulsed_weight_updater.cu:77-78`). -/
def nK32Default (desiredBL : ℕ) : ℕ := desiredBL / 32 + 1

/-! ### The bit line maker -/

/-- The inner loop over the bits of a word: `ballot |= (stoch_value < value) ? 1 << j : 0`, one new
random number per round. The state is the ballot and the number of random numbers drawn so far
(`bit_line_maker.cu:902-905`, `:919-922`, `:950-953`). -/
def loopBits (hit : ℕ → Bool) : List ℕ → W32 × ℕ → W32 × ℕ
  | [], s => s
  | j :: js, s => loopBits hit js (s.1 ||| (if hit s.2 then (1#32) <<< j else 0#32), s.2 + 1)

/-- The words after the first (`bit_line_maker.cu:907-926`). `c` is the position of the first word,
`sz` the distance between the words of an entry, `l` is `nK32m1_local`, the state the number of
random numbers drawn so far. -/
def moreWords (hit : ℕ → Bool) (K l c sz : ℕ) : List ℕ → ℕ → List (ℕ × W32)
  | [], _ => []
  | i :: is, drawn =>
    if l < i then (c + i * sz, 0#32) :: moreWords hit K l c sz is drawn
    else
      let nn := if i = l then K % 32 else 31
      let r := loopBits hit (List.range (nn + 1)) (0#32, drawn)
      (c + i * sz, r.1) :: moreWords hit K l c sz is r.2

/-- `getCountsSimpleLoop<uint32_t>` (`bit_line_maker.cu:886-927`): the stores it does. `nw` is
`nK32`. -/
def counts32 (e : Entry) (c nw K sz : ℕ) : List (ℕ × W32) :=
  let l := min (K / 32) (nw - 1)
  let nn := if 0 < l then 31 else K
  let r := loopBits e.hit (List.range' 1 nn) ((if e.negative then 1#32 else 0#32), 0)
  (c, r.1) :: (if 1 < nw then moreWords e.hit K l c sz (List.range' 1 (nw - 1)) r.2 else [])

/-- The stores of the thread handling the input position `idx` in the 32-bit format
(`GET_COUNTS_SIMPLE_LOOP_BATCH`, `bit_line_maker.cu:968-1004`). `entry` is the input, by position;
`Kmax` is `Kplus1 - 1`. -/
def thread32 (trans outTrans ublm : Bool) (Ks : ℕ → ℕ) (Kmax sz mBatch : ℕ) (entry : ℕ → Entry)
    (idx : ℕ) : List (ℕ × W32) :=
  let K := getK ublm Ks Kmax (getBatchIdx trans idx sz mBatch)
  if (entry idx).skipped K then []
  else counts32 (entry idx)
    (getCountsIdx32 trans outTrans idx sz mBatch (nK32 Kmax * sz)) (nK32 Kmax) K sz

/-- All the stores of a launch of the bit line maker for one of the two inputs, in the order of the
positions; the order in which they happen is arbitrary. -/
def launch32 (trans outTrans ublm : Bool) (Ks : ℕ → ℕ) (Kmax sz mBatch : ℕ) (entry : ℕ → Entry) :
    List (ℕ × W32) :=
  (List.range (mBatch * sz)).flatMap (thread32 trans outTrans ublm Ks Kmax sz mBatch entry)

/-- Executing stores, in the order of the list. -/
def stores : List (ℕ × W32) → (ℕ → W32) → ℕ → W32
  | [], mem => mem
  | p :: ps, mem => stores ps (Function.update mem p.1 p.2)

/-- The counts array after a launch whose stores happened in the order of `ops`; it is set to zero
before (`bit_line_maker.cu:2139-2141`). -/
def counts (ops : List (ℕ × W32)) : ℕ → W32 := stores ops (fun _ => 0#32)

/-- `getCountsSimpleLoop<uint64_t>` (`bit_line_maker.cu:929-966`): the `atomicOr`s it does. -/
def counts64 (e : Entry) (c K Kc : ℕ) : List (ℕ × W64) :=
  let start := Kc % 32
  let negWord : W32 := if e.negative then (0xffffffff#32) >>> (32 - K) else 0#32
  let ballot := (loopBits e.hit (List.range K) (0#32, 0)).1
  let first : W64 := (ballot <<< start).setWidth 64 ||| ((negWord <<< start).setWidth 64 <<< 32)
  let second : W64 := (ballot >>> (32 - start)).setWidth 64
    ||| ((negWord >>> (32 - start)).setWidth 64 <<< 32)
  (c, first) :: (if 32 < start + K then [(c + 1, second)] else [])

/-- The `atomicOr`s of the thread handling the input position `idx` in the 64-bit format
(`bit_line_maker.cu:968-1004`). -/
def thread64 (trans ublm : Bool) (Ks : ℕ → ℕ) (Kmax sz mBatch : ℕ) (entry : ℕ → Entry)
    (idx : ℕ) : List (ℕ × W64) :=
  let b := getBatchIdx trans idx sz mBatch
  let K := getK ublm Ks Kmax b
  if (entry idx).skipped K then []
  else counts64 (entry idx)
    (getCountsIdx64 trans idx sz mBatch (getKc ublm Ks Kmax b) (getnB ublm Ks Kmax mBatch)) K
    (getKc ublm Ks Kmax b)

/-- All the `atomicOr`s of a launch for one of the two inputs. -/
def launch64 (trans ublm : Bool) (Ks : ℕ → ℕ) (Kmax sz mBatch : ℕ) (entry : ℕ → Entry) :
    List (ℕ × W64) :=
  (List.range (mBatch * sz)).flatMap (thread64 trans ublm Ks Kmax sz mBatch entry)

/-- Executing `atomicOr`s, in the order of the list. -/
def ors : List (ℕ × W64) → (ℕ → W64) → ℕ → W64
  | [], mem => mem
  | p :: ps, mem => ors ps (Function.update mem p.1 (mem p.1 ||| p.2))

/-- The counts array after a launch whose `atomicOr`s happened in the order of `ops`; it is set to
zero before (`bit_line_maker.cu:2120-2122`). -/
def counts' (ops : List (ℕ × W64)) : ℕ → W64 := ors ops (fun _ => 0#64)

/-! ### Reading the counts -/

/-- `__popc`: the number of set bits of a word. -/
def popc (w : W32) : ℕ := (List.range 32).countP fun j => w.getLsbD j

/-- Which device of a one-sided pair the kernel updates: template parameter `one_sided`, `0`, `-1`
or `1`. -/
inductive Side where
  | both | minus | plus
  deriving DecidableEq, Repr

/-- The three results of `getNfromCount` (`pwu_kernel.h:57-67`): `n` and `negative` are a count and a
flag, or, with `mixed`, two bit strings. -/
structure Read where
  n : ℕ
  negative : ℕ
  mixed : Bool
  deriving DecidableEq, Repr

/-- `getNfromCount` of the 32-bit format after `OS_ADD` (`pwu_kernel.h:97-113`): `px`, `pd` are the
positions of the first words, `xo`, `dof` the distances of the further words. -/
def count32 (x d : ℕ → W32) (px pd nw xo dof : ℕ) : ℕ :=
  popc (x px &&& d pd) - (if (x px &&& d pd).getLsbD 0 then 1 else 0)
    + ((List.range (nw - 1)).map fun i => popc (x (px + (i + 1) * xo) &&& d (pd + (i + 1) * dof))).sum

/-- `getNfromCount` of the 32-bit format (`pwu_kernel.h:84-127`). -/
def read32 (side : Side) (x d : ℕ → W32) (px pd nw xo dof : ℕ) : Read :=
  let negative := (x px).getLsbD 0 != (d pd).getLsbD 0
  match side with
  | .both => ⟨count32 x d px pd nw xo dof, if negative then 1 else 0, false⟩
  | .minus => if negative then ⟨0, 1, false⟩ else ⟨count32 x d px pd nw xo dof, 1, false⟩
  | .plus => if negative then ⟨count32 x d px pd nw xo dof, 1, false⟩ else ⟨0, 0, false⟩

/-- `OS_ADD` of the 64-bit format: the new values of `data` and `neg` (`pwu_kernel.h:234-236`). -/
def osAdd64 (side : Side) (data neg : W32) : W32 × W32 :=
  match side with
  | .both => (data, neg)
  | .minus => (data &&& ~~~neg, 0xffffffff#32)
  | .plus => (data &&& neg, 0xffffffff#32)

/-- `getNfromCount` of the 64-bit format with `enforce_mixed = false` (`pwu_kernel.h:197-237`). -/
def read64 (side : Side) (x d : W64) : Read :=
  let neg : W32 := (x >>> 32).setWidth 32 ^^^ (d >>> 32).setWidth 32
  let data : W32 := x.setWidth 32 &&& d.setWidth 32
  let r := osAdd64 side data neg
  let allNegative : Bool := ~~~(r.2 ||| ~~~r.1) == 0#32
  let allPositive : Bool := ~~~(~~~r.2 ||| ~~~r.1) == 0#32
  if allNegative || allPositive then ⟨popc r.1, if allPositive then 0 else 1, false⟩
  else ⟨r.1.toNat, r.2.toNat, true⟩

/-! ### The update kernels -/

/-- What an update kernel knows about one cross-point: the four parameters
`(min_bound, scale_down, max_bound, scale_up)` (`pwu_kernel.h:350`), the cycle-to-cycle noise
`dw_min_std`, and the square root functions. -/
structure Dev where
  wmin : ℚ
  down : ℚ
  wmax : ℚ
  up : ℚ
  sigma : ℚ
  sqrt : ℚ → ℚ
  rsqrt : ℚ → ℚ

/-- The weight of the cross-point and the number of normal random numbers used so far. -/
structure Cell where
  w : ℚ
  drawn : ℕ

/-- The amount added to the weight by `UpdateFunctorConstantStep` (`pwu_kernel.h:294-315`); `z` is
the next normal random number. -/
def amount (p : Dev) (z : ℚ) (n : ℕ) (negative : Bool) : ℚ :=
  let dw := if negative then p.up else -p.down
  if n = 1 then (if 0 < p.sigma then dw * (1 + z * p.sigma) else dw)
  else (if 0 < p.sigma then dw * n * (1 + p.rsqrt n * (z * p.sigma)) else dw * n)

/-- The two bound checks (`pwu_kernel.h:317-319`). -/
def clip (p : Dev) (w : ℚ) : ℚ :=
  let v := if p.wmax < w then p.wmax else w
  if v < p.wmin then p.wmin else v

/-- `UpdateFunctorConstantStep::operator()` (`pwu_kernel.h:272-320`). -/
def upFun (p : Dev) (z : ℕ → ℚ) (n : ℕ) (negative : Bool) (s : Cell) : Cell :=
  { w := clip p (s.w + amount p (z s.drawn) n negative)
    drawn := if 0 < p.sigma then s.drawn + 1 else s.drawn }

/-- The loop state of the summing kernels: the cell, `sum_n` and `last_negative`
(`pwu_kernel.h:519-520`). -/
structure Acc where
  cell : Cell
  sumN : ℕ
  last : ℕ

/-- `if (sum_n > 0) up_fun(w, sum_n, last_negative, …)` (`pwu_kernel.h:416-420`, `:537-539`). -/
def flush (p : Dev) (z : ℕ → ℚ) (a : Acc) : Cell :=
  if 0 < a.sumN then upFun p z a.sumN (decide (0 < a.last)) a.cell else a.cell

/-- One set bit of a mixed word (`pwu_kernel.h:410-424`); `bitNeg` is `bit_neg`. -/
def sumBit (p : Dev) (z : ℕ → ℚ) (bitNeg : ℕ) (a : Acc) : Acc :=
  if bitNeg = a.last then { a with sumN := a.sumN + 1 }
  else ⟨flush p z a, 1, bitNeg⟩

/-- The loop over the bits of a mixed word (`pwu_kernel.h:409-425`). -/
def sumBits (p : Dev) (z : ℕ → ℚ) (n negative : ℕ) : List ℕ → Acc → Acc
  | [], a => a
  | i :: is, a =>
    sumBits p z n negative is
      (if n.testBit i then sumBit p z (if negative.testBit i then 1 else 0) a else a)

/-- A read which is not mixed (`pwu_kernel.h:428-437`). -/
def sumPlain (p : Dev) (z : ℕ → ℚ) (r : Read) (a : Acc) : Acc :=
  if r.n = 0 ∨ a.last = r.negative then { a with sumN := a.sumN + r.n }
  else ⟨flush p z a, r.n, r.negative⟩

/-- `RPU_UPDATE_WITH_SUM_N_INNER({})` (`pwu_kernel.h:406-438`). -/
def sumInner (p : Dev) (z : ℕ → ℚ) (r : Read) (a : Acc) : Acc :=
  if r.mixed then sumBits p z r.n r.negative (List.range 32) a else sumPlain p z r a

/-- The numbers of positive and negative pulses of a mixed word (`pwu_kernel.h:448`). -/
def posN (r : Read) : ℕ := (List.range 32).countP fun i => r.n.testBit i && !r.negative.testBit i

/-- See `posN`. -/
def negN (r : Read) : ℕ := (List.range 32).countP fun i => r.n.testBit i && r.negative.testBit i

/-- `dw_pos`, `dw_neg`: a count with its noise, times the step size (`pwu_kernel.h:449-461`). The
random number drawn there (`stoch_value`) is not used by the code. -/
def noisyCount (p : Dev) (n : ℕ) : ℚ :=
  if 0 < p.sigma then (if 0 < n then n + p.sqrt n * p.sigma else n) else n

/-- The random numbers drawn, and thrown away, by the bound check (`pwu_kernel.h:451-460`). -/
def noisyDraws (p : Dev) (n : ℕ) : ℕ := if 0 < p.sigma then (if 0 < n then 1 else 0) else 0

/-- A mixed word in the kernel with bound check (`pwu_kernel.h:440-465` around `:407-426`): if
neither all the decrements nor all the increments together reach a bound, their difference is added
at once; otherwise the bits are handled one after the other. -/
def boundMixed (p : Dev) (z : ℕ → ℚ) (r : Read) (a : Acc) : Acc :=
  let c := flush p z a
  let c' : Cell := { c with drawn := c.drawn + noisyDraws p (posN r) + noisyDraws p (negN r) }
  let dwPos := noisyCount p (posN r) * p.down
  let dwNeg := noisyCount p (negN r) * p.up
  if p.wmin ≤ c'.w - dwPos ∧ c'.w + dwNeg ≤ p.wmax then
    ⟨{ c' with w := c'.w - (dwPos - dwNeg) }, 0, 0⟩
  else sumBits p z r.n r.negative (List.range 32) ⟨c', 0, 0⟩

/-- `RPU_UPDATE_WITH_SUM_N_INNER_BOUND_CHECK` (`pwu_kernel.h:440-465`). -/
def boundInner (p : Dev) (z : ℕ → ℚ) (r : Read) (a : Acc) : Acc :=
  if r.mixed then boundMixed p z r a else sumPlain p z r a

/-- The batch loop of `kernelUpdateWBatchSum` (`pwu_kernel.h:522-539`) or, with `bound`, of
`kernelUpdateWBatchSumBoundCheck` (`pwu_kernel.h:603-620`), followed by the last update. -/
def sumLoop (bound : Bool) (p : Dev) (z : ℕ → ℚ) : List Read → Acc → Cell
  | [], a => flush p z a
  | r :: rs, a => sumLoop bound p z rs (if bound then boundInner p z r a else sumInner p z r a)

/-- The bits of a mixed word in the functor kernel (`pwu_kernel.h:697-705`). -/
def functorBits (p : Dev) (z : ℕ → ℚ) (n negative : ℕ) : List ℕ → Cell → Cell
  | [], s => s
  | i :: is, s =>
    functorBits p z n negative is (if n.testBit i then upFun p z 1 (negative.testBit i) s else s)

/-- One read in the functor kernels (`pwu_kernel.h:694-713`, `:383-390`). -/
def functorRead (p : Dev) (z : ℕ → ℚ) (r : Read) (s : Cell) : Cell :=
  if r.mixed then functorBits p z r.n r.negative (List.range 32) s
  else (if 0 < r.n then upFun p z r.n (decide (0 < r.negative)) s else s)

/-- The batch loop of `kernelUpdateWBatchFunctor` with the constant step functor
(`pwu_kernel.h:685-714`); a single round of it is `kernelUpdateWFunctor` (`pwu_kernel.h:372-395`). -/
def functorLoop (p : Dev) (z : ℕ → ℚ) : List Read → Cell → Cell
  | [], s => s
  | r :: rs, s => functorLoop p z rs (functorRead p z r s)

/-- Which update kernel runs. -/
inductive Kernel where
  | functor | sum | boundCheck
  deriving DecidableEq, Repr

/-- The weight of one cross-point after the batch loop of a kernel. -/
def kernelCell (k : Kernel) (p : Dev) (z : ℕ → ℚ) (rs : List Read) (w : ℚ) : ℚ :=
  match k with
  | .functor => (functorLoop p z rs ⟨w, 0⟩).w
  | .sum => (sumLoop false p z rs ⟨⟨w, 0⟩, 0, 0⟩).w
  | .boundCheck => (sumLoop true p z rs ⟨⟨w, 0⟩, 0, 0⟩).w

/-- What a kernel reads for the cross-point of input `i` and output `j` in the batch loop, 32-bit
format (`pwu_kernel.h:522-531`). `nw` is the number of words per entry the kernel assumes. -/
def reads32 (side : Side) (outTrans : Bool) (nw xsz dsz mBatch : ℕ) (x d : ℕ → W32) (i j : ℕ) :
    List Read :=
  (List.range mBatch).map fun b =>
    read32 side x d (getIdxToLoad outTrans b i xsz mBatch (xsz * nw))
      (getIdxToLoad outTrans b j dsz mBatch (dsz * nw)) nw xsz dsz

/-- What a kernel reads for a cross-point, 64-bit format; `nb` is the number of words per line
(`pwu_kernel.h:481-483`, `:522-531`, `nK32` is one). -/
def reads64 (side : Side) (nb xsz dsz : ℕ) (x d : ℕ → W64) (i j : ℕ) : List Read :=
  (List.range nb).map fun u =>
    read64 side (x (getIdxToLoad true u i xsz nb (xsz * 1))) (d (getIdxToLoad true u j dsz nb (dsz * 1)))

/-- A kernel launch on the weights, 32-bit format: every cross-point `idx` is handled by one thread,
`dIdx = idx % dsz`, `xIdx = idx / dsz` (`pwu_kernel.h:507-543`; the assignment of the cross-points to
threads only decides which random numbers are used, `z idx` here). -/
def update32 (k : Kernel) (side : Side) (outTrans : Bool) (nw xsz dsz mBatch : ℕ) (x d : ℕ → W32)
    (p : ℕ → Dev) (z : ℕ → ℕ → ℚ) (w : ℕ → ℚ) (idx : ℕ) : ℚ :=
  if idx < xsz * dsz then
    kernelCell k (p idx) (z idx)
      (reads32 side outTrans nw xsz dsz mBatch x d (idx / dsz) (idx % dsz)) (w idx)
  else w idx

/-- A kernel launch on the weights, 64-bit format. -/
def update64 (k : Kernel) (side : Side) (nb xsz dsz : ℕ) (x d : ℕ → W64) (p : ℕ → Dev)
    (z : ℕ → ℕ → ℚ) (w : ℕ → ℚ) (idx : ℕ) : ℚ :=
  if idx < xsz * dsz then
    kernelCell k (p idx) (z idx) (reads64 side nb xsz dsz x d (idx / dsz) (idx % dsz)) (w idx)
  else w idx

end Aihw.Gpu

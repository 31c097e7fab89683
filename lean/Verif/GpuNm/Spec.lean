import Verif.GpuNm.Model
import Mathlib.Data.Finset.Max

/-!
# What noise management on the GPU should compute
-/
open scoped BigOperators

namespace Aihw.GpuNm

variable {K : Type} [Field K] [LinearOrder K] [IsStrictOrderedRing K] [FloorRing K]

/-- Where the input `j` of sample `b` is: with the batch dimension first (`trans`) or last. -/
def place (trans : Bool) (n m b j : ℕ) : ℕ := if trans then j * m + b else b * n + j

/-- Input `j` of sample `b` of a call. -/
def Call.sample (c : Call K) (n b j : ℕ) : K := c.input (place c.trans n c.m b j)

/-- Input `j` of sample `b` of a request. -/
def Req.sample (r : Req K) (n b j : ℕ) : K := r.input (place r.trans n r.m b j)

/-- `v` is the largest of the values `x 0, …, x (n-1)`. -/
def IsMax (n : ℕ) (x : ℕ → K) (v : K) : Prop := (∃ j : ℕ, j < n ∧ x j = v) ∧ ∀ j : ℕ, j < n → x j ≤ v

/-- `v` is the largest of the absolute values, or 0. -/
def IsAbsMax (n : ℕ) (x : ℕ → K) (v : K) : Prop :=
  0 ≤ v ∧ (∀ j : ℕ, j < n → |x j| ≤ v) ∧ (v = 0 ∨ ∃ j : ℕ, j < n ∧ |x j| = v)

/-- The sum of the positive values. -/
def posSum (n : ℕ) (x : ℕ → K) : K := ∑ j ∈ Finset.range n, max (x j) 0

/-- The sum of the negative values. -/
def negSum (n : ℕ) (x : ℕ → K) : K := ∑ j ∈ Finset.range n, min (x j) 0

/-- The threads of a call run in a possible order. -/
def Call.Good (c : Call K) (n nthreads : ℕ) : Prop :=
  1 ≤ c.m ∧ c.sched.Possible nthreads (n * c.m) c.m

/-- A batch with the batch dimension first. -/
def Call.first (c : Call K) : Prop := c.trans = true ∧ 2 ≤ c.m

/-- Whether the buffer which the next call with the batch dimension first uses is initialized for sample
`b`, after the calls `earlier` (latest first): the last such call had more than `b` samples, or there was
none since the buffers were enlarged. -/
def Ready (b : ℕ) : List (Call K) → Prop
  | [] => True
  | c :: earlier =>
    (c.first → b < c.m) ∧ (¬c.first → (∀ d ∈ earlier, 2 ≤ d.m → d.m < c.m) ∨ Ready b earlier)

/-- Whether a call enlarges the buffers. -/
def Bigger (c : Call K) (earlier : List (Call K)) : Prop := ∀ d ∈ earlier, 2 ≤ d.m → d.m < c.m

/-- Nothing of an earlier batch is left for sample `b` of a call. -/
def Fresh (b : ℕ) (c : Call K) (earlier : List (Call K)) : Prop :=
  ¬c.first ∨ Bigger c earlier ∨ Ready b earlier

/-! ## Histories of the noise manager -/

/-- One use of the noise manager. -/
structure Item (K : Type) where
  type : CppFwd.NM
  io : CppFwd.IO K
  req : Req K

/-- A use; a kind that does not exist changes nothing. -/
def Man.step (n nthreads : ℕ) (lowest : K) (w : Man K) (i : Item K) : Man K :=
  match w.compute n nthreads lowest i.type i.io i.req with
  | .ok w' => w'
  | .error _ => w

/-- The noise manager after a history (latest use first). -/
def Man.run (n nthreads : ℕ) (lowest : K) (junk : ℕ → K) : List (Item K) → Man K
  | [] => Man.new junk
  | i :: earlier => (Man.run n nthreads lowest junk earlier).step n nthreads lowest i

/-- The uses for which the absolute maxima are computed. -/
def Item.usesAmax (i : Item K) : Bool :=
  decide (i.type = .absMax) || decide (i.type = .absMaxNPSum) ||
    (decide (i.type = .average) && !i.req.test)

/-- The calls for the absolute maxima of a history. -/
def amaxCalls (h : List (Item K)) : List (Call K) :=
  (h.filter Item.usesAmax).map fun i => i.req.call i.req.amaxSched

/-- The calls for the maxima. -/
def maxCalls (h : List (Item K)) : List (Call K) :=
  (h.filter fun i => decide (i.type = .max)).map fun i => i.req.call i.req.maxSched

/-- The calls for the sums of positive values. -/
def psumCalls (h : List (Item K)) : List (Call K) :=
  (h.filter fun i => decide (i.type = .absMaxNPSum)).map fun i => i.req.call i.req.psumSched

/-- The calls for the sums of negative values. -/
def nsumCalls (h : List (Item K)) : List (Call K) :=
  (h.filter fun i => decide (i.type = .absMaxNPSum)).map fun i => i.req.call i.req.nsumSched

/-- The threads of a request run in possible orders. -/
def Req.Good (r : Req K) (n nthreads : ℕ) : Prop :=
  1 ≤ r.m ∧ r.amaxSched.Possible nthreads (n * r.m) r.m ∧
    r.maxSched.Possible nthreads (n * r.m) r.m ∧ r.psumSched.Possible nthreads (n * r.m) r.m ∧
    r.nsumSched.Possible nthreads (n * r.m) r.m

/-- A value limited by the threshold, if there is one. -/
def limited (thres v : K) : K := if 0 < thres then min v thres else v

end Aihw.GpuNm

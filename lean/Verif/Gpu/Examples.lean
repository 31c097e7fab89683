import Verif.Gpu.Noise

/-!
# Concrete cases for C94–C96
-/

namespace Aihw.Gpu

open Spec

/-- An entry firing in every second slot. -/
def exEntry (v : ℚ) (odd : Bool) : Entry :=
  { value := v
    prob := 1 / 2
    draw := fun k => if (k % 2 = 1) = (odd = true) then 1 / 4 else 3 / 4
    drawPos := by intro k; split_ifs <;> decide +kernel }

/-- Two samples of three inputs: entries 2, -1, 0 and -3, 1, 5. -/
def exX (idx : ℕ) : Entry := exEntry ((#[2, -1, 0, -3, 1, 5] : Array ℚ).getD idx 0) false

/-- Two samples of two errors. -/
def exD (idx : ℕ) : Entry := exEntry ((#[-1, 4, 2, -2] : Array ℚ).getD idx 0) (idx == 1)

-- C94: trains of 40 slots need two words per entry; both layouts of the counts.
example : nK32 40 = 2 := by decide

example : (reads32 .both false (nK32 40) 3 2 2
      (counts (launch32 false false false (fun _ => 0) 40 3 2 exX))
      (counts (launch32 false false false (fun _ => 0) 40 2 2 exD)) 0 0).map
        (fun r => (r.n, r.negative)) = [(20, 1), (20, 1)] := by decide +kernel

example : (reads32 .plus true (nK32 40) 3 2 2
      (counts (launch32 false true true (fun b => 33 + b) 40 3 2 exX).reverse)
      (counts (launch32 false true true (fun b => 33 + b) 40 2 2 exD)) 1 0).map
        (fun r => (r.n, r.negative)) = [(0, 0), (0, 0)] := by decide +kernel

example : coincidences ⟨exX 0, exD 0, 40⟩ = 20 := by decide +kernel

-- the samples' own lengths
example : ∀ b, b < 2 → getK true (fun b => 33 + b) 40 b ≤ 40 := by
  intro b hb; simp only [getK, if_true]; omega

-- C94_fewer_words: a train of 40 slots read by a kernel set up for 31 slots: 16 pulses of 20.
example : (reads32 .both false (nK32Default 31) 3 2 1
      (counts (launch32 false false false (fun _ => 0) 40 3 1 exX))
      (counts (launch32 false false false (fun _ => 0) 40 2 1 exD)) 0 0).map Read.n = [16] := by
  decide +kernel

-- C95: two samples of 20 slots: the second one starts in the first word; cross-point (0, 1) has
-- pulses in the second sample only.
example : (reads64 .both (readBatch64 false (fun _ => 0) 20 2) 3 2
      (counts' (launch64 false false (fun _ => 0) 20 3 2 exX).reverse)
      (counts' (launch64 false false (fun _ => 0) 20 2 2 exD)) 1 0).map
        (fun r => (r.n, r.negative, r.mixed)) = [(16, 0, false), (4, 0, false)] := by
  decide +kernel

example : train (samples false false 3 2 2 (fun _ => 20) exX exD 0 1)
    = List.replicate 10 false := by decide +kernel

-- a word with pulses of both signs
def exW (idx : ℕ) : Entry := exEntry ((#[1, -1] : Array ℚ).getD idx 0) false

example : (reads64 .both (readBatch64 true (fun b => 5 + b) 10 2) 1 1
      (counts' (launch64 true true (fun b => 5 + b) 10 1 2 exW))
      (counts' (launch64 true true (fun b => 5 + b) 10 1 2 (fun _ => exEntry 1 false))) 0 0).map
        (fun r => (r.n, r.negative, r.mixed, delivered r))
    = [(0b10101 + 0b010101 * 32, 0b111111 * 32, true, [false, false, false, true, true, true])] := by
  decide +kernel

/-- A device without noise. -/
def exDev : Dev :=
  { wmin := -1, down := 3 / 10, wmax := 1, up := 1 / 2, sigma := 0, sqrt := fun x => x,
    rsqrt := fun x => x }

-- C96: the three kernels on the mixed word: three steps down, three up, limited at the upper bound.
example : [Kernel.functor, Kernel.sum, Kernel.boundCheck].map (fun k =>
      update64 k .both (readBatch64 true (fun b => 5 + b) 10 2) 1 1
        (counts' (launch64 true true (fun b => 5 + b) 10 1 2 exW))
        (counts' (launch64 true true (fun b => 5 + b) 10 1 2 (fun _ => exEntry 1 false)))
        (fun _ => exDev) (fun _ _ => 0) (fun _ => 1 / 2) 0) = [1, 1, 1] := by decide +kernel

example : steps exDev (1 / 2) [false, false, false, true, true, true] = 1 := by decide +kernel

example : ∀ c : ℕ, ((fun _ : ℕ => exDev) c).sigma ≤ 0 := by intro c; show exDev.sigma ≤ 0; decide +kernel

-- C96_noise_unused: a mixed word, noise 1/10.
example :
    let r := read64 .both (0b11#64) (0b11#64 ||| (0b10#64 <<< 32))
    r.mixed = true ∧ (delivered r).filter (fun b => b) = [true]
      ∧ (delivered r).filter (fun b => !b) = [false]
      ∧ kernelCell .boundCheck { exDev with sigma := 1 / 10, down := 1 / 10, up := 1 / 5 }
          (fun _ => 7) [r] 0 = 0 - (1 + 1 / 10) * (1 / 10) + (1 + 1 / 10) * (1 / 5) := by
  decide +kernel

-- C96_noise: three pulses down with noise.
example :
    let rs := [read32 .both (fun _ => 0b1111#32) (fun _ => 0b1111#32) 0 0 1 1 1]
    (∀ r ∈ rs, r.mixed = false) ∧
      kernelCell .functor { exDev with sigma := 1 / 10, down := 1 / 10, rsqrt := fun x => 1 / (x - 2) }
        (fun _ => 2) rs 0 = -(3 * (1 / 10) * (1 + 1 * (2 * (1 / 10)))) := by
  decide +kernel

end Aihw.Gpu

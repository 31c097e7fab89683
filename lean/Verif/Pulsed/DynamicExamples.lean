import Verif.Pulsed.BufferedExamples
import Verif.Pulsed.DynamicProps3

/-!
# Concrete cases for the dynamic transfer compound (C54) and C53_threshold
-/
namespace Aihw.Pulsed.Ex

/-- Transfer of one column every update, choppers every second read, unit 1/8, mean weight 1/2. -/
def dp : DPar ℚ :=
  { bp with inProb := 1/2, every := fun j => if j = 0 then 1 else 0, transferEvery := 1, tail := 1,
            cap := 0, correctAcc := false }

def ds : DS ℚ :=
  { ts := ts, buf := fun _ => 0, inC := fun _ => false, outC := fun _ => false, ctr := 0,
    mean := fun _ => 0, past := fun _ => 0, sw := fun _ => false, hist := [] }

/-- Every read returns 3/32 on the first row. -/
def du : DU ℚ :=
  { lr := 1, mBatch := 1, cnt := 1, sgd := [⟨0, false, 0, 0⟩], dr := fun _ => bw,
    y := fun _ _ o => if o = 0 then 3/32 else 0 }

def rep (n : Nat) : List (DU ℚ) := List.replicate n du

/-- Ten updates, ten reads of columns 0, 1, 0, 1, …; both choppers have switched twice (after reads
2, 3 and 6, 7); the references of column 0 are 0, 0, then the means at the end of the phases. -/
example : ((dp.run F ds (rep 10)).hist.map fun r => (r.c, r.ctr)) =
      [(0, 0), (1, 0), (0, 1), (1, 1), (0, 2), (1, 2), (0, 3), (1, 3), (0, 4), (1, 4)] ∧
    ((dp.run F ds (rep 10)).hist.map fun r => r.switched) =
      [false, false, true, true, false, false, true, true, false, false] ∧
    ((dReads dp.toBPar (dp.run F ds (rep 10)).hist 0 0).map fun r => r.ref 0) =
      [0, 0, 9/128, 9/128, 45/512] ∧
    (dp.run F ds (rep 10)).mean 0 = 93/1024 := by decide +kernel

/-- The spec of the reference on the first three reads. -/
example : phaseRef (1/2 : ℚ) 0 0 0 ((dReads dp.toBPar (dp.run F ds (rep 6)).hist 0 0).take 2) = 9/128 := by
  decide +kernel

/-- Nothing is written before every column has been read three times, although a step is requested and
the buffer reduced. -/
example : ((dp.run F ds (rep 6)).hist.map fun r => (r.n 0, r.wrote)) =
      [(0, false), (0, false), (0, false), (0, false), (0, false), (0, false)] ∧
    (dp.run F ds (rep 6)).ctr = 3 ∧ dp.nSamp = 2 := by decide +kernel

/-- Larger reads: one step is requested and lost in the warm-up. -/
def du2 : DU ℚ := { du with y := fun _ _ o => if o = 0 then 3/8 else 0 }

example : ((dp.run F ds [du2]).hist.map fun r => (r.n 0, r.wrote)) = [(1, false)] ∧
    (dp.run F ds [du2]).buf 0 = 1/2 ∧ (((dp.run F ds [du2]).ts.dev 1).st 0).vis = 0 := by decide +kernel

/-- After the warm-up steps are written. -/
def du3 : DU ℚ := { du with y := fun _ _ o => if o = 0 then 3 else 0 }

example : ((dp.run F ds (rep 6 ++ [du3])).hist.getLast?.map fun r => (r.n 0, r.wrote)) = some (-1, true) ∧
    (((dp.run F ds (rep 6 ++ [du3])).ts.dev 1).st 0).vis = -1/8 := by decide +kernel

/-- The buffer cap (C54_buffer_cap): with cap 2 the buffer stays at most 2. -/
example : |({ dp with cap := 2 }.run F ds (rep 6 ++ [du3])).buf 0| ≤ 2 ∧
    (({ dp with cap := 2 }.run F ds [du3]).buf 0 = 2) := by decide +kernel

/-- C54_offset_invariance with an offset of 1/4 on all weights. -/
example : (dp.run F { ds with mean := fun k => ds.mean k + 1/4, past := fun k => ds.past k + 1/4 }
      ((rep 6 ++ [du3]).map (DU.shift dp.toBPar fun _ => 1/4))).ts.vis =
    (dp.run F ds (rep 6 ++ [du3])).ts.vis := by
  have h : ShiftedBy (fun _ => (1/4 : ℚ)) ds
      { ds with mean := fun k => ds.mean k + 1/4, past := fun k => ds.past k + 1/4 } :=
    ⟨rfl, rfl, rfl, rfl, rfl, rfl, rfl, rfl⟩
  rw [(C54_offset_invariance F dp _ (rep 6 ++ [du3]) ds _ h).ts]

/-- Hypotheses of C54_schedule, C54_reference, C54_mean_bounds, C54_slow_device. -/
example : 0 < dp.inSize ∧ dp.chopEvery 0 1 = 1 ∧ dp.chopEvery 1 1 = 0 ∧ dp.bufLR 1 0 1 ≠ 0 ∧
    0 ≤ dp.tail ∧ 0 < dp.step * dp.gran 1 ∧ (dp.bl : ℚ) * dp.cap ≤ 0 ∧ dp.forget = false := by
  refine ⟨?_, ?_, ?_, ?_, ?_, ?_, ?_, ?_⟩ <;> decide +kernel

example : ∀ a, UnitDraws (du.dr a).tx ∧ UnitDraws (du.dr a).td := fun _ =>
  ⟨⟨fun _ => by norm_num [du, bw, wd, t1], fun _ _ => by norm_num [du, bw, wd, t1]⟩,
    ⟨fun _ => by norm_num [du, bw, wd, t1], fun _ _ => by norm_num [du, bw, wd, t1]⟩⟩

/-- `in_chop_prob = 0` still chops at every second read. -/
example : ({ dp with inProb := 0 } : DPar ℚ).nSamp = 2 ∧
    ({ dp with inProb := 0 }.run F ds (rep 4)).inC 0 = true := by decide +kernel

/-- C53_threshold: the unit with the default buffer granularity is the granularity of the fast device,
and half of it for `buffer_granularity = 1/2`. -/
example : ({ bp with bufGran := 0 } : BPar ℚ).chopBG (1/8) = 1/8 ∧
    ({ bp with bufGran := 1/2 } : BPar ℚ).chopBG (1/8) = 1/16 ∧
    ({ bp with autoGran := 8 } : BPar ℚ).chopBG (1/8) = 1/4 := by
  norm_num [BPar.chopBG, bp, tp, TPar.inSize]

/-- C54_threshold with `experimental_correct_accumulation`: the second read of a period is divided by
two; C54_forget: with `forget_buffer` and momentum 1/4 the value 3 becomes 3/4. -/
example : ({ dp with correctAcc := true } : DPar ℚ).scale 1 1 { ds with ctr := 1 } * 2 =
      dp.scale 1 1 { ds with ctr := 1 } ∧
    (({ dp with forget := true, momentum := 1/4 } : DPar ℚ).run F ds [du2]).buf 0 = 3/8 := by
  decide +kernel

/-- C54_fast_device: after the choppers have switched, the gradient pulse of weight 0 goes down. -/
example : (dp.run F ds (rep 3)).inC 0 = true ∧
    (dp.run F ds (rep 3)).outC 0 = false ∧
    ((((dp.run F ds (rep 4)).ts.dev 0).st 0).vis < (((dp.run F ds (rep 3)).ts.dev 0).st 0).vis) := by
  decide +kernel

/-- C54_visible_weight: hypotheses. -/
example : dp.n = 2 ∧ ¬ (dp.gamma 0 = 0 ∧ dp.gamma 1 = 1) ∧
    (dp.run F ds (rep 4)).inC 0 = (dp.run F ds (rep 4)).inC 1 := by decide +kernel

end Aihw.Pulsed.Ex

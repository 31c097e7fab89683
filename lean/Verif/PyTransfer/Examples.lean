import Verif.PyTransfer.Props4

/-!
# Concrete cases for C55
-/
namespace Aihw.PyTransfer.Ex

/-- Two columns, one row, a transfer every two samples, unit 1, regular choppers of period 2. -/
def c : Cfg :=
  { xSize := 2, dSize := 1, cols := true, every := 2, unitsMB := false, nReads := 1, dynamic := false,
    correctAcc := false, autoScale := false, autoMom := 0, lrAuto := 1, fastLr := 1, bufGran := 0,
    autoGran := 0, granA := 1, granC := 1, correctGrad := false, inProb := 1/2, inRandom := false,
    tail := 1, momentum := 0, forget := false }

/-- Weight tile: an exact matrix. -/
def o : Ops (Nat → Nat → ℚ) (Nat → Nat → ℚ) Unit :=
  idealOps _ _ fun k v _ w => fun i j => if j = k then w i j - v i else w i j

def s0 : St (Nat → Nat → ℚ) (Nat → Nat → ℚ) Unit := fresh (fun _ _ => 0) (fun _ _ => 0)

def u : Upd Unit := { x := [[1, 1/2]], d := [[-1]], flags := false, lr := 1, rnd := 0, ωg := (), ωr := (), ωw := () }

def rep (n : Nat) : List (Upd Unit) := List.replicate n u

/-- Eight samples, four reads of columns 1, 0, 1, 0; the chopper of column 1 switches at its first
read, that of column 0 after its second. -/
example : ((c.run o s0 (rep 8)).reads.map fun r => (r.k, r.switched)) =
      [(1, true), (0, false), (1, false), (0, true)] ∧
    (c.run o s0 (rep 8)).chop 0 = -1 ∧ (c.run o s0 (rep 8)).chop 1 = -1 ∧
    timesRead (c.run o s0 (rep 8)).reads 0 = 2 := by decide +kernel

/-- Steps and buffers: column 1 has accumulated 2 * 1/2 = 1 at its first read, one step is written;
afterwards the chopper makes the accumulation run backwards. -/
example : ((c.run o s0 (rep 8)).reads.map fun r => (r.y 0, r.sign, r.n 0)) =
      [(1, 1, 1), (4, 1, 4), (-1, -1, 1), (8, 1, 8)] ∧
    (c.run o s0 (rep 8)).w 0 0 = 12 ∧ (c.run o s0 (rep 8)).w 0 1 = 2 := by decide +kernel

/-- The caller's tensor is negated in column 1 after the first transfer. -/
example : (c.update o (c.run o s0 (rep 2)) u).2.2 = [[1, -1/2]] ∧ ¬ Unsupported c u := by
  refine ⟨by decide +kernel, ?_⟩
  unfold Unsupported
  decide +kernel

/-- Hypotheses of C55_schedule, C55_regular_chopper and C55_resume. -/
example : c.te 1 = 2 ∧ u.x.length ≤ 2 ∧ c.tIn ≤ c.xSize ∧ 0 < c.tIn ∧ 0 < c.granA ∧ 0 < c.granC ∧
    (2 : ℤ) = roundHE (1 / c.inProb) ∧ (c.run o s0 (rep 8)).uc % 2 = 0 ∧ (c.run o s0 (rep 8)).idx = 0 ∧
    (c.run o s0 (rep 8)).cc = 0 := by decide +kernel

/-- A batch that contains two transfers raises after the gradient was accumulated. -/
example : (c.update o s0 { u with x := List.replicate 5 [1, 1/2], d := List.replicate 5 [-1] }).2.1 =
      some .configError ∧
    (c.update o s0 { u with x := List.replicate 5 [1, 1/2], d := List.replicate 5 [-1] }).1.g 0 0 = 5 := by
  decide +kernel

/-- Random choppers: the draw 0 is below 1/2, every read switches; the draw 3/4 never does. -/
example : ((({ c with inRandom := true } : Cfg).run o s0 (rep 8)).reads.map fun r => (r.k, r.sign, r.switched)) =
      [(1, 1, true), (0, 1, true), (1, -1, true), (0, -1, true)] ∧
    ((({ c with inRandom := true } : Cfg).run o s0 (List.replicate 4 { u with rnd := 3/4 })).reads.map
      fun r => r.switched) = [false, false] := by decide +kernel

/-- Automatic scale, momentum 1/2: means 1/2 and 1/2, learning rate 4 in the first update. -/
example : ((({ c with autoScale := true, autoMom := 1/2 } : Cfg).run o s0 (rep 1)).glog.map fun e => e.lr) = [4] ∧
    (({ c with autoScale := true, autoMom := 1/2 } : Cfg).run o s0 (rep 2)).mx = 3/4 := by decide +kernel

/-- Row transfer with two rows and one column fails at row 1. -/
example : (({ c with cols := false, xSize := 1, dSize := 2 } : Cfg).update o s0
    { u with x := [[1], [1]], d := [[1, 1], [1, 1]] }).2.1 = some .indexError := by decide +kernel

/-- `forget_buffer` with momentum 1/4: an accumulated value of 4 leaves 1/4 instead of 1. -/
example : (({ c with forget := true, momentum := 1/4 } : Cfg).run o s0 (rep 4)).hid 0 0 = 1/4 := by
  decide +kernel

/-- The dynamic compound: after the switch of column 1 the running mean is the reference. -/
example : (({ c with dynamic := true } : Cfg).run o s0 (rep 4)).ref 1 0 = 1/2 ∧
    (({ c with dynamic := true } : Cfg).run o s0 (rep 6)).reads.map (fun r => r.ref 0) = [0, 0, 1/2] := by
  decide +kernel

/-- Resuming after three reads: the next read is column 1 instead of column 0. -/
example : ((c.run o (c.run o s0 (rep 6)) (rep 2)).reads.getLast?.map (·.k)) = some 0 ∧
    ((c.run o (restore (c.run o s0 (rep 6)) s0) (rep 2)).reads.map (·.k)) = [1] := by decide +kernel

/-- The learning rate of C55_transfer_lr with all corrections. -/
example : ({ c with correctGrad := true, granA := 1/2, granC := 1/4, autoGran := 4 } : Cfg).lrH 2 1 2 =
    .ok 2 ∧ c.lrH 2 1 1 = .ok 1 := by
  constructor
  · have := (C55_transfer_lr { c with correctGrad := true, granA := 1/2, granC := 1/4, autoGran := 4 }
      2 1 2).2.1 rfl (by norm_num) (by norm_num) (by norm_num) (by norm_num [bufferUnit, c, Cfg.tIn])
    rw [this]
    norm_num [bufferUnit, c, Cfg.tIn]
  · have := (C55_transfer_lr c 2 1 1).1 rfl (by norm_num [bufferUnit, c])
    rw [this]
    norm_num [bufferUnit, c]

end Aihw.PyTransfer.Ex

import Verif.Pulsed.Examples
import Verif.Pulsed.ChoppedProps2

/-!
# Concrete cases for the buffered and chopped transfer compounds (C52, C53)
-/
namespace Aihw.Pulsed.Ex

/-- Two devices, two columns, one column read every second update; threshold `1/8`, one pulse per
write. -/
def bp : BPar ℚ :=
  { tp with
    thres := 1, step := 1, momentum := 0, forget := false, bl := 1, gran := fun _ => 1/8,
    inProb := 0, inRandom := false, outProb := 0, bufGran := 1, autoGran := 0, correctGrad := false,
    noBuffer := false, transferEvery := 2, nStates := fun _ => 8 }

/-- A read that returns 3/32 on the first row. -/
def bw : WD ℚ := { wd with y := fun i => if i = 0 then 3/32 else 0 }

def bs : BS ℚ :=
  { ts := ts, buf := fun _ _ => 0, inC := fun _ => false, outC := fun _ => false, ctr := 0, hist := [] }

def bu : Upd ℚ := { lr := 1, mBatch := 1, sgd := [⟨0, false, 0, 0⟩], dr := fun _ _ => bw }

def n8 : List (Upd ℚ) := [bu, bu, bu, bu, bu, bu, bu, bu]

/-- `3/32` of a read times the ratio of the gammas `1/2` is `3/64`: two reads of a column stay below the
threshold. -/
example : (bp.bufRun F bs n8).buf 0 0 = 6/64 ∧ (bp.bufRun F bs n8).buf 0 2 = 0 ∧
    sent bp (bp.bufRun F bs n8).hist 0 0 0 = 0 ∧
    accumulated bp (bp.bufRun F bs n8).hist 0 0 0 = 6/64 := by decide +kernel

/-- The third read of column 0 passes the threshold `8/64`: one step is requested, one pulse arrives,
the rest `1/64` stays in the buffer. -/
example : (bp.bufRun F bs (n8 ++ [bu, bu])).buf 0 0 = 1/64 ∧
    sent bp (bp.bufRun F bs (n8 ++ [bu, bu])).hist 0 0 0 = 1 ∧
    (((bp.bufRun F bs (n8 ++ [bu, bu])).ts.dev 1).st 0).vis = 1/8 ∧
    (bp.bufRun F bs (n8 ++ [bu, bu])).ts.log =
      [(0, 1, 0), (0, 1, 1), (0, 1, 0), (0, 1, 1), (0, 1, 0)] := by decide +kernel

/-- The hypotheses of C52_tracks and C52_exact_pulses. -/
example : bp.forget = false ∧ bp.momentum ≤ 0 ∧ 0 < bp.inSize ∧ bp.bl = 1 ∧
    0 < bp.thres * bp.gran 1 ∧ 0 < bp.step * bp.gran 1 ∧
    |bs.buf 0 (0 * bp.xSize + 0)| < bp.thres * bp.gran 1 ∧
    (∀ r ∈ readsOf bp (bp.bufRun F bs n8).hist 0 0 0,
      |r.inc (posOf bp 0 0)| ≤ (1 : ℚ) * (bp.thres * bp.gran 1)) := by decide +kernel

example : ∀ a m, (bu.dr a m).Single := fun _ _ => ⟨rfl, rfl, rfl, le_rfl⟩

example : bu.Unit := fun _ _ =>
  ⟨by norm_num [bu, bw, wd], ⟨fun _ => by norm_num [bu, bw, wd, t1], fun _ _ => by norm_num [bu, bw, wd, t1]⟩,
    ⟨fun _ => by norm_num [bu, bw, wd, t1], fun _ _ => by norm_num [bu, bw, wd, t1]⟩⟩

/-- The full theorem on this case. -/
example : |(bp.bufRun F bs n8).buf 0 0| < 1/8 := by
  have h := (C52_tracks F bp rfl le_rfl (by decide) bs rfl (fun _ => Nat.zero_lt_two) n8 0 0 0 (by decide)
    (by decide) (by decide) (by norm_num [bp]) (by decide +kernel) (by decide +kernel)).1
  simpa [bp] using h

/-- C52_forget: with `forget_buffer` and momentum 1/4 the whole buffer is scaled at the third read. -/
example : ({ bp with forget := true, momentum := 1/4 }.bufRun F bs (n8 ++ [bu, bu])).buf 0 0 = 9/256 :=
  by decide +kernel

/-- C52_set_weights_keeps_buffer. -/
example : (match bp.setWeights (bp.bufVirt F).red (bp.bufRun F bs n8) (fun _ => 1/4) (fun _ _ => 0) with
    | .ok s => (s.buf 0 0, s.ts.idx)
    | .error _ => (7, 7)) = (6/64, 0) := by decide +kernel

/-- A row transfer with more columns than rows: the scratch vector is too short (C52_layout). -/
example : ({ bp with cols := false, xSize := 3 } : BPar ℚ).tmpSize <
    ({ bp with cols := false, xSize := 3 } : BPar ℚ).outSize := by decide +kernel

/-! ## C53 -/

/-- Regular chopping every second read. -/
def cp : BPar ℚ := { bp with inProb := 1/2 }

def cu : Upd ℚ × ℚ := (bu, 1)
def c8 : List (Upd ℚ × ℚ) := n8.map fun u => (u, 1)

/-- After eight updates each column has been read twice and both choppers have switched once. -/
example : ((cp.chopRun F bs c8).hist.map fun r => r.c) = [0, 1, 0, 1] ∧
    (cp.chopRun F bs c8).inC 0 = true ∧ (cp.chopRun F bs c8).inC 1 = true ∧
    (cp.chopRun F bs c8).inC 2 = false ∧ (cp.chopRun F bs c8).ctr = 2 ∧
    (cp.chopRun F bs c8).buf 0 0 = 3/4 := by decide +kernel

/-- The next read of column 0 is entered with the opposite sign. -/
example : (cp.chopRun F bs (c8 ++ [cu, cu])).buf 0 0 = 3/8 ∧
    accumulated cp (cp.chopRun F bs (c8 ++ [cu, cu])).hist 0 0 0 = 3/8 := by decide +kernel

/-- Gradient pulses after the switch are inverted. -/
example : (cp.chopPulse (cp.chopRun F bs c8) ⟨0, false, 0, 0⟩).down = true ∧
    (cp.chopPulse bs ⟨0, false, 0, 0⟩).down = false := by decide +kernel

/-- Hypotheses of C53_regular_chopper and C53_equals_buffered. -/
example : cp.n = 2 ∧ cp.nReads = 1 ∧ cp.chopEvery 1 1 = 0 ∧ cp.chopEvery 0 1 = 2 ∧
    cp.bufLR 1 0 1 ≠ 0 ∧ bp.chopBG (bp.gran 0) = bp.thres * bp.gran 1 ∧ bp.getEvery 1 1 = 0 := by
  decide +kernel

/-- C53_equals_buffered on this case: the visible weights agree. -/
example : ∀ k, (bp.chopRun F bs c8).ts.vis k = (bp.bufRun F bs (c8.map (·.1))).ts.vis k := by
  have h := (C53_equals_buffered F bp rfl rfl (by decide) (by decide) (by norm_num [bp])
    (by norm_num [bp, BPar.chopBG]) rfl rfl (by norm_num [bp]) (by norm_num [bp]) (by norm_num [bp]) c8
    (by decide +kernel) bs bs (by decide) rfl (by simp [bs]) (fun _ => rfl) (fun _ => rfl)).1
  intro k
  rw [h]

/-- C53_visible_weight_finding: the sign of weight (0, 1) is not the one of its column. -/
example :
    (cp.chopReduce { bs with inC := fun c => decide (c = 1),
                             ts := (cp.chopRun F bs [(({ bu with sgd := [⟨1, false, 0, 0⟩] } : Upd ℚ), 1)]).ts }).ts.vis 1
      = 1/16 := by decide +kernel

/-- C53_auto_period_reads_twice: hypotheses met with `transfer_every = -1/4`. -/
def ap : BPar ℚ := { cp with transferEvery := -1/4 }

example : ap.chopEvery 0 1 = 1 ∧ ap.chopEvery 1 1 = 1 ∧ ap.bufLR 1 0 1 ≠ 0 ∧ ap.bufLR 1 1 1 ≠ 0 ∧
    (((ap.chopVirt F 1).update F ap.toTPar bs bu).hist.map fun r => (r.src, r.c)) = [(0, 0), (0, 0)] := by
  decide +kernel

end Aihw.Pulsed.Ex

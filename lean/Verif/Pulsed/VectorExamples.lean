import Verif.Pulsed.VectorProps2
import Verif.Pulsed.OneSidedProps2
import Verif.Pulsed.Examples

/-!
# Concrete cases meeting the hypotheses of the unit-cell theorems (C65, C66)
-/
namespace Aihw.Pulsed.Ex

/-! ## Vector unit cells -/

/-- A plain device of the unit cell. -/
def vd : Dev ℚ := ⟨.constant, p0, 2, 2, fun _ => c0, fun _ => ⟨0, 0⟩⟩

/-- Three devices, updated in turn. -/
def vpS : VPar ℚ := ⟨3, .singleSequential, 0, fun _ => 1/3⟩

/-- Two devices, all updated. -/
def vpA : VPar ℚ := ⟨2, .all, 0, fun j => if j = 0 then 1 else 1/2⟩

/-- A reference unit cell. -/
def vpR : VPar ℚ := ⟨2, .singleFixed, 0, fun j => if j = 0 then 1 else -1⟩

/-- An update with one up pulse at cell 0 and one down pulse at cell 1. -/
def vu : VUpd ℚ := ⟨false, [⟨0, false, fun _ => 0, fun _ => 0⟩, ⟨1, true, fun _ => 0, fun _ => 0⟩], 0⟩

def vzero : Nat → Nat → ℚ := fun _ _ => 0

/-- Start from zero weights. -/
def vs (p : VPar ℚ) : VS ℚ := p.create (fun _ => vd) (fun _ => 0) vzero

def visOf (r : Except PyErr (VS ℚ)) (k : Nat) : ℚ := match r with
  | .ok s => s.vis k
  | .error _ => 77

def hidOf (r : Except PyErr (VS ℚ)) (j k : Nat) : ℚ := match r with
  | .ok s => s.hidden j k
  | .error _ => 77

def curOf (r : Except PyErr (VS ℚ)) : ℤ := match r with
  | .ok s => s.cur
  | .error _ => 77

/-- C65_sequential, C65_visible_is_sum: four updates go to the devices 1, 2, 0, 1; the visible weight
is the mean of 1/8, 2/8, 1/8. -/
example : (let r := vpS.run F (vs vpS) [vu.op, vu.op, vu.op, vu.op]
    hidOf r 0 0 = 1/8 ∧ hidOf r 1 0 = 1/4 ∧ hidOf r 2 0 = 1/8 ∧ visOf r 0 = 1/6 ∧
    visOf r 1 = -1/6 ∧ curOf r = 1) := by decide +kernel

/-- … and the share of device 1 consists of four pulses. -/
example : (turnShare 3 1 0 [vu, vu, vu, vu]).length = 4 := by decide +kernel

/-- All these operations are covered by C65_visible_is_sum. -/
example : ∀ o ∈ [vu.op, .decay (1/2) false vzero, .fpUpdate true (fun _ => 1) vzero,
    .set (fun _ => (1/4 : ℚ)) vzero, vu.op], NotPlain o := by
  intro o ho
  simp only [List.mem_cons, List.not_mem_nil, or_false] at ho
  rcases ho with rfl | rfl | rfl | rfl | rfl <;> trivial

/-- C65_update_targets, policy `ALL`. -/
example : (let r := vpA.run F (vs vpA) [vu.op]
    hidOf r 0 0 = 1/8 ∧ hidOf r 1 0 = 1/8 ∧ visOf r 0 = 3/16) := by decide +kernel

/-- C65_update_ok_iff: an index outside the devices. -/
example : (vpR.run F (vs vpR) [.setIndex 5, vu.op]).toOption.isNone = true := by decide +kernel

/-- C65_gamma: the three cases. -/
example : (mkGamma 3 ([] : List ℚ)).toOption.isSome = true ∧
    (mkGamma 2 ([1, -1] : List ℚ)).toOption.isSome = true ∧
    (mkGamma 3 ([1, -1] : List ℚ)).toOption.isNone = true := by decide +kernel

/-- `vpR` is a reference cell. -/
example : RefCell vpR := ⟨rfl, rfl, rfl, rfl⟩

/-- `vd` satisfies the conditions on sub devices. -/
example : QuietSet vd ∧ ¬ HasRef vd.kd ∧ Valid vd ∧ (vd.cell 0).minB ≤ (vd.cell 0).maxB :=
  ⟨by unfold QuietSet; decide +kernel, by simp [HasRef, vd], by unfold Valid; decide +kernel, by decide +kernel⟩

/-- C65_reference_recipe, C65_reference_offset, C65_reference_fixed: the reference is set to 1/8, the
weight to 1/4: the cell reads 1/8; writing back 1/8 gives 0; the reference never changes. -/
example : (let r := vpR.run F (vs vpR) [.setIndex 1, .set (fun _ => 1/8) vzero, .setIndex 0,
      .set (fun _ => 1/4) vzero]
    visOf r 0 = 1/8 ∧ hidOf r 0 0 = 1/4 ∧ hidOf r 1 0 = 1/8 ∧ curOf r = 0) := by decide +kernel

example : (let r := vpR.run F (vs vpR) [.setIndex 1, .set (fun _ => 1/8) vzero, .setIndex 0,
      .set (fun _ => 1/4) vzero, .set (fun _ => 1/8) vzero, vu.op, vu.op]
    visOf r 0 = 1/4 ∧ hidOf r 0 0 = 3/8 ∧ hidOf r 1 0 = 1/8) := by decide +kernel

/-- C65_index_unchecked: with index 2 nothing is written, with index -1 everything. -/
example : hidOf (vpR.run F (vs vpR) [.setIndex 2, .set (fun _ => 1/4) vzero]) 0 0 = 0 ∧
    hidOf (vpR.run F (vs vpR) [.setIndex 2, .set (fun _ => 1/4) vzero]) 1 0 = 0 ∧
    hidOf (vpR.run F (vs vpR) [.setIndex (-1), .set (fun _ => 1/4) vzero]) 1 0 = 1/4 := by
  decide +kernel

/-- C65_fp_update_lost: the weight change of `None` disappears with the next decay, the one of
`NoneWithDevice` at once. -/
example : visOf (vpA.run F (vs vpA) [.fpUpdate false (fun _ => 1/4) vzero]) 0 = 1/4 ∧
    visOf (vpA.run F (vs vpA) [.fpUpdate false (fun _ => 1/4) vzero, .decay 1 false vzero]) 0 = 0 ∧
    visOf (vpA.run F (vs vpA) [.fpUpdate true (fun _ => 1/4) vzero]) 0 = 0 := by decide +kernel

/-- C65_bounds: a write of 3 is limited in both devices, the visible weight is `(1 + 1/2) * 1/2`. -/
example : visOf (vpA.run F (vs vpA) [.set (fun _ => 3) vzero, vu.op]) 0 = 3/4 := by decide +kernel

example : VHistOk F vpA 0 (vs vpA) [.set (fun _ => 3) vzero, vu.op] :=
  ⟨trivial, fun _ _ => ⟨trivial, fun _ _ => trivial⟩⟩

/-! ## One-sided unit cells -/

/-- A cell with range [0, 1] and steps 1/8. -/
def oc : Cell ℚ := ⟨1, 0, 1/8, 1/8, 1, 0, 0, 0, 0, 1, 1, 0⟩

def od (w : ℚ) : Dev ℚ := ⟨.constant, p0, 2, 2, fun _ => oc, fun _ => ⟨w, 0⟩⟩

/-- A 2x2 cell array, refreshed every second update above 3/4 and 1/4. -/
def op2 : OPar ℚ := ⟨2, 2, 2, false, 3/4, 1/4, 1, 1⟩

def os (a b : ℚ) : OS ℚ := ⟨od a, od b, fun _ => a - b, 0, 0⟩

/-- A refresh write with eight pulses of certain coincidence at magnitude 1: `b = 1`, so the train of
the unit column fires always and the error `3/8` fires in the slots with a draw below `3/8`. -/
def rup (dense : Bool) : RUp ℚ :=
  if dense then .dense .meanCount ⟨8, 1, 1, 0, 0, false⟩ (fun _ => 1/2) (fun _ => 1/2)
  else .sparse .compressed ⟨8, 1, 1, 0, false⟩ ⟨fun _ => 1/2, fun _ _ => 1/2⟩
    ⟨fun _ => 1/2, fun k _ => if k < 3 then 0 else 7/8⟩

def rdraw (a b : ℚ) (dense : Bool) : Nat → RDraw ℚ := fun _ =>
  ⟨fun _ => a, fun _ => b, fun _ => 0, fun _ => 0, rup dense, rup dense, pd, pd⟩

def oReq : OReq ℚ := .sparse [⟨0, false, 0, 0⟩, ⟨1, true, 0, 0⟩]

def ovis (r : Except PyErr (OS ℚ)) (k : Nat) : ℚ := match r with
  | .ok s => s.vis k
  | .error _ => 77

def oplus (r : Except PyErr (OS ℚ)) (k : Nat) : ℚ := match r with
  | .ok s => (s.plus.st k).vis
  | .error _ => 77

def ominus (r : Except PyErr (OS ℚ)) (k : Nat) : ℚ := match r with
  | .ok s => (s.minus.st k).vis
  | .error _ => 77

/-- The states and draws used below meet the hypotheses. -/
example : SubOk (od (1/2)) 0 ∧ QuietSet (od (1/2)) ∧ Directed (od (1/2)).kd ∧ NodesOk (od (1/2)).kd :=
  ⟨⟨by simp [HasRef, od], by unfold Valid; decide +kernel, by decide +kernel,
    by unfold Within; decide +kernel⟩, by unfold QuietSet; decide +kernel, by simp [Directed, od],
    by simp [NodesOk, od]⟩

example (b : Bool) : (rup b).Ok := by
  cases b
  · refine ⟨⟨fun _ => by norm_num, fun _ _ => by norm_num⟩, ⟨fun _ => by norm_num, fun k _ => ?_⟩⟩
    change 0 ≤ (if k < 3 then (0 : ℚ) else 7/8) ∧ (if k < 3 then (0 : ℚ) else 7/8) < 1
    split_ifs <;> norm_num
  · exact ⟨fun _ => by norm_num, fun _ => by norm_num⟩

/-- C66_one_directional, C66_pulse_counts: an up request raises `g+`, a down request raises `g-`. -/
example : (let s := op2.request F (os (1/2) (1/2)) oReq
    (s.plus.st 0).vis = 5/8 ∧ (s.minus.st 0).vis = 1/2 ∧ (s.plus.st 1).vis = 1/2 ∧
    (s.minus.st 1).vis = 5/8 ∧ s.vis 0 = 1/8 ∧ s.vis 1 = -1/8) := by decide +kernel

/-- C66_set: positive and negative values. -/
example : (let r := op2.step F (os (1/2) (1/2)) (.set (fun k => if k = 0 then 1/4 else -1/2)
      (fun _ => 0) (fun _ => 0))
    ovis r 0 = 1/4 ∧ oplus r 0 = 1/4 ∧ ominus r 0 = 0 ∧ ovis r 1 = -1/2 ∧ oplus r 1 = 0 ∧
      ominus r 1 = 1/2) := by decide +kernel

/-- C66_refresh_cell, C66_refresh_preserves: both sides are high (7/8 and 1/2), the refresh resets them
and writes the difference 3/8 to `g+`. -/
example : (let r := op2.refresh F (os (7/8) (1/2)) (rdraw (7/8) (1/2) false)
    oplus r 0 = 3/8 ∧ ominus r 0 = 0 ∧ oplus r 3 = 3/8 ∧ ominus r 3 = 0) := by decide +kernel

example : NeedsRefresh op2 (7/8) (1/2) := Or.inl (by norm_num [op2])

/-- The pulse-count hypothesis of C66_refresh_preserves holds: three pulses of 1/8. -/
example : ((rup false).count 2 2 0 0 (fun _ => 3/8) pd : ℚ) * (1/8) = 7/8 - 1/2 := by
  have : (rup false).count 2 2 0 0 (fun _ => 3/8) pd = 3 := by decide +kernel
  rw [this]; norm_num

/-- C66_refresh_direction: with a deterministic pulse type the refresh writes downwards and the weight
is lost. -/
example : (let r := op2.refresh F (os (7/8) (1/2)) (rdraw (7/8) (1/2) true)
    oplus r 0 = 0 ∧ ominus r 0 = 0) ∧
    ((rup true).pulses 2 2 0 (fun _ => 3/8) pd).all (fun q => q.down) = true ∧
    ((rup true).pulses 2 2 0 (fun _ => 3/8) pd).length = 6 := by decide +kernel

/-- C66_refresh_schedule: the first update does not refresh, the second one does. -/
example : oplus (op2.run F (os (3/4) (1/2)) [.update (.sparse []) 1 (rdraw (7/8) (1/2) false)]) 0 = 3/4 ∧
    oplus (op2.run F (os (3/4) (1/2)) [.update (.sparse []) 1 (rdraw (7/8) (1/2) false),
      .update (.sparse []) 1 (rdraw (7/8) (1/2) false)]) 0 = 3/8 := by decide +kernel

/-- C66_refresh_raises: with write noise the refresh raises. -/
example : (op2.run F ⟨{ od (1/2) with kd := .linear false, par := pW }, od 0, fun _ => 0, 1, 0⟩
    [.update (.sparse []) 1 (rdraw 0 0 false)]).toOption.isNone = true := by decide +kernel

/-- C66_copy_inverted: the mirrored `g+` stays at zero. -/
example : (let s : OS ℚ := ⟨{ od 0 with cell := populatePlus true fun _ => oc }, od 0, fun _ => 0, 0, 0⟩
    let r := op2.run F s [.set (fun _ => 1/2) (fun _ => 0) (fun _ => 0),
      .update oReq 1 (rdraw 0 0 false)]
    ovis r 0 = 0 ∧ oplus r 0 = 0) := by decide +kernel

example : OHistOk F op2 0 (os 0 0) [.set (fun _ => 1/2) (fun _ => 0) (fun _ => 0),
      .update oReq 1 (rdraw 0 0 false)] :=
  ⟨trivial, fun _ _ => ⟨trivial, fun _ _ => trivial⟩⟩

end Aihw.Pulsed.Ex

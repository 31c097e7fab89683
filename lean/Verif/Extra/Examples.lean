import Verif.Extra.Props

/-!
# Concrete cases for C73
-/
namespace Aihw.Extra

def idOrd : Order := ⟨id, fun d => List.Perm.refl d⟩
def revOrd : Order := ⟨List.reverse, fun d => List.reverse_perm d⟩

def exMv (x : ℚ) : MvPar := ⟨[x, x], [], [1 / 2], x, [0, 0]⟩
def exFb (x : ℚ) : FbPass := ⟨exMv x, exMv (x + 1), 0⟩
def exPwu : Pwu := ⟨true, 2, 3⟩
def exDrift : Drift := ⟨true, 100, [1 / 2], [1 / 4], [7], [3 / 50]⟩
def exBase (x : ℚ) : Base := ⟨some exDrift, x, 1 / x⟩
def exTrans : TransSt := ⟨[3, 4], [2, 0], [1], exFb 9, exPwu, some ⟨[true, false], [true], 1 / 3, 1, 2, 0, 12⟩, none⟩
def exVec : VecSt := ⟨[1, 1], 1, 0⟩

def exTile (dev : Top) : Tile where
  fb := some ([1, 2], ⟨[5], true⟩)
  wbuf := [7, 8]
  delayed := true
  drift := some exDrift
  lr := 1 / 100
  flickerP := []
  flickerS := [0, -1]
  lastM := 10
  fwdAlpha := 1
  bwdAlpha := 2
  pulsed := some ⟨exPwu, exFb 0, dev⟩

def exLeaf : Top := .pulsed (.leaf (exBase 1000))
def exCell : Top := .pulsed (.cell (exBase 10) [.leaf (exBase 20), .leaf (exBase 30)] exVec (some exTrans))
def exMixed : Top := .mixed (.cell (exBase 10) [.leaf (exBase 20)] exVec none) ⟨1 / 10, [1], 2, 3, 1 / 2, exPwu, some (1, 2)⟩
def exNested : Dev := .cell (exBase 10) [.leaf (exBase 20), .cell (exBase 30) [.leaf (exBase 40)] exVec none] exVec none
def exMixedTrans : Top := .mixed (.cell (exBase 10) [.leaf (exBase 20)] exVec (some exTrans)) ⟨1 / 10, [1], 2, 3, 1 / 2, exPwu, none⟩

theorem exLeaf_plain : (exTile exLeaf).Plain := by
  intro s h; cases h; trivial

theorem exCell_plain : (exTile exCell).Plain := by
  intro s h; cases h
  intro d hd
  simp only [List.mem_cons, List.not_mem_nil, or_false] at hd
  rcases hd with rfl | rfl
  · exact ⟨_, rfl⟩
  · exact ⟨_, rfl⟩

theorem exMixed_plain : (exTile exMixed).Plain := by
  intro s h; cases h
  refine ⟨?_, rfl⟩
  intro d hd
  simp only [List.mem_cons, List.not_mem_nil, or_false] at hd
  subst hd
  exact ⟨_, rfl⟩

def getE (r : Except PyErr Dict) (k : String) : Option Vec :=
  match r with
  | .ok d => find d (key k)
  | .error _ => none

/- The keys of a dump. -/
example : getE ((exTile exCell).dumpExtra idOrd) "rpu.rpu_device.1.num_states" = some [30] := by decide +kernel
example : getE ((exTile exCell).dumpExtra revOrd) "rpu.rpu_device.transfer_pwu.d_noz" = some [2] := by decide +kernel
example : getE ((exTile exMixed).dumpExtra idOrd) "rpu.rpu_device.rpu_device.0.num_states" = some [20] := by decide +kernel
example : getE ((exTile exCell).dumpExtra idOrd) "rpu.wdrifter.nu" = some [3 / 50] := by decide +kernel

/-- A tile of the same configuration, with other values. -/
def exOther : Tile :=
  { exTile (.pulsed (.cell (exBase 1) [.leaf (exBase 2), .leaf (exBase 3)] ⟨[], 0, 0⟩ (some { exTrans with slices := [0], vecs := [5] }))) with
    fb := none, drift := none, wbuf := [0, 0], lr := 0, delayed := false }

theorem exAlike : (exTile exCell).Alike exOther := by
  refine (⟨rfl, ?_, ⟨rfl, rfl⟩⟩ : Base.Alike _ _ ∧ List.Forall₂ leafAlike _ _ ∧ TransSt.Alike _ _)
  refine List.Forall₂.cons ⟨_, _, rfl, rfl, rfl⟩ (List.Forall₂.cons ⟨_, _, rfl, rfl, rfl⟩ List.Forall₂.nil)

/- The round trip applies, and restores for instance the learning rate, the buffer and the slice indices. -/
example {e : Dict} (he : (exTile exCell).dumpExtra idOrd = .ok e) :
    ∃ t, exOther.loadExtra exDrift false true e = .ok t ∧ t.lr = 1 / 100 ∧ t.wbuf = [7, 8] ∧ t.drift = none ∧
      t.fb = some ([1, 2], ⟨[], false⟩) ∧ t.passes true = [exMv 0, exMv 9] := by
  refine ⟨_, C73_round_trip idOrd exDrift false true _ _ exCell_plain exAlike he (List.Perm.refl _), rfl, rfl, rfl, rfl, rfl⟩

/- A compound inside a compound. -/
example : (exTile (.pulsed exNested)).dumpExtra idOrd = .error .runtimeError :=
  C73_nested_raises idOrd _ rfl (d := exNested) rfl ⟨_, List.mem_cons_of_mem _ List.mem_cons_self, by simp [Dev.IsCell]⟩

def isOk (r : Except PyErr Dict) : Bool :=
  match r with
  | .ok _ => true
  | .error _ => false

/- Mixed precision around a transfer compound: raises or not depending on the order. -/
example : isOk ((exTile exMixedTrans).dumpExtra pwuFirst) = false := by decide +kernel
example : isOk ((exTile exMixedTrans).dumpExtra revOrd) = true ∨ isOk ((exTile exMixedTrans).dumpExtra idOrd) = true := by decide +kernel

/- Setting forward parameters. -/
example : Known true (exTile exLeaf) [(key "v_offset", [4, 4])] ∧ Fits true (exTile exLeaf) [(key "v_offset", [4, 4])] := by
  unfold Known Fits
  show (∀ x ∈ [(key "v_offset", ([4, 4] : Vec))], ∃ m ∈ [exMv 0], x.1 ∈ m.named.map (·.1)) ∧
    (∀ m ∈ [exMv 0], ∀ x ∈ m.named, ∀ v, find [(key "v_offset", [4, 4])] x.1 = some v → v.length = x.2.length)
  constructor
  · decide +kernel
  · intro m hm
    rw [List.mem_singleton] at hm
    subst hm
    intro x hx v hv
    unfold find find at hv
    split at hv
    · rename_i he
      injection hv with hv
      subst hv
      revert hx he
      unfold exMv MvPar.named
      simp only [List.mem_cons, List.not_mem_nil, or_false]
      rintro (rfl | rfl | rfl | rfl | rfl) he
      · rfl
      all_goals revert he; decide
    · cases hv

example : ¬ Known true (exTile exLeaf) [(key "offset", [4, 4])] := by
  unfold Known
  show ¬ ∀ x ∈ [(key "offset", ([4, 4] : Vec))], ∃ m ∈ [exMv 0], x.1 ∈ m.named.map (·.1)
  decide +kernel

/-- The entries of the own pass first, or last. -/
def ownFirst : Order where
  ord d := d.filter (fun x => (key "rpu.fb_pass").isPrefixOf x.1) ++ d.filter (fun x => !(key "rpu.fb_pass").isPrefixOf x.1)
  perm d := List.filter_append_perm _ d
def ownLast : Order where
  ord d := d.filter (fun x => !(key "rpu.fb_pass").isPrefixOf x.1) ++ d.filter (fun x => (key "rpu.fb_pass").isPrefixOf x.1)
  perm d := List.perm_append_comm.trans (List.filter_append_perm _ d)

/- Two passes: which value is reported depends on the order. -/
example : getE ((exTile exCell).getPars ownFirst fwdPre) "v_offset" = some [9, 9] := by decide +kernel
example : getE ((exTile exCell).getPars ownLast fwdPre) "v_offset" = some [0, 0] := by decide +kernel
example : (exTile exCell).passes true = [exMv 0, exMv 9] := rfl
example : (exTile exLeaf).passes true = [exMv 0] := rfl

/- Setting one name changes both passes. -/
example : ((exTile exCell).replaced true [(key "v_offset", [4, 4])]).passes true =
    [{ exMv 0 with vOffset := [4, 4] }, { exMv 9 with vOffset := [4, 4] }] := by decide +kernel

/- Strict loading of an incomplete dictionary. -/
def failed {α : Type} (r : Except PyErr α) : Bool :=
  match r with
  | .ok _ => false
  | .error _ => true
example : failed ((exTile exLeaf).loadExtra exDrift false true []) = true := by decide +kernel
example : failed ((exTile exLeaf).loadExtra exDrift false false []) = false := by decide +kernel
example : ((exTile exLeaf).touched true).pulsed.map (·.pwu.alloc) = some true := rfl

end Aihw.Extra

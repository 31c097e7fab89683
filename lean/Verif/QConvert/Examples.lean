import Verif.QConvert.Props2

/-!
# C51: a concrete model meeting the hypotheses

`Net(block = Seq(fc = Linear, act = Other, fc_again = <the same Linear>), head = Conv2d, norm = LayerNorm)`
with `head` excluded, an instance entry for `block.fc`, an input entry for `block` and the default
conversions.
-/
namespace Aihw.QConvert

def exFc : Mod Nat := .node (.torch .linear) ⟨.linear 3 2, some 10, some 11, false, false, none⟩ .nil
def exAct : Mod Nat := .node (.other 7) ⟨.opaque 7, none, none, false, true, none⟩ .nil
def exHead : Mod Nat :=
  .node (.torch .conv2d) ⟨.conv2d 1 2 [3, 3] [1, 1] [1, 1] [1, 1] 1 .circular, some 20, none, true, true,
    none⟩ .nil
def exNorm : Mod Nat :=
  .node (.torch .layerNorm) ⟨.layerNorm [2] (1/2) true, some 30, none, true, true, none⟩ .nil
def exBlock : Mod Nat :=
  .node (.other 1) ⟨.opaque 1, none, none, false, true, none⟩
    (.cons "fc" 0 exFc (.cons "act" 1 exAct (.cons "fc_again" 0 exFc .nil)))
def exNet : Mod Nat :=
  .node (.other 0) ⟨.opaque 0, none, none, true, true, none⟩
    (.cons "block" 0 exBlock (.cons "head" 1 exHead (.cons "norm" 2 exNorm .nil)))

def exCfg : QCfg := ⟨8, 0, 0, 0⟩
def exMap : QMap :=
  appendDefaults ⟨⟨0, 4, 1, 1⟩, [], [("block.fc", ⟨.quant .linear, exCfg⟩)], [("block", ⟨6, 0, 0, 0⟩)],
    ["head"]⟩
def exEnv : Env Nat :=
  ⟨fun _ => (1000, 0), fun _ _ _ => .error .typeError, fun _ m _ _ => .ok m, fun _ => .error .other⟩

def exRes : Mod Nat := ((convertToQuantized exEnv exMap exNet).toOption).getD exNet

theorem exConvert : convertToQuantized exEnv exMap exNet = .ok exRes := by
  have h : (convertToQuantized exEnv exMap exNet).toOption.isSome = true := by decide +kernel
  unfold exRes
  cases e : convertToQuantized exEnv exMap exNet with
  | error => rw [e] at h; cases h
  | ok m => rfl

/-- What is at a path: class and value. -/
def exAt (p : List String) : Option (Cls × Val Nat) := (exRes.at p).map fun m => (m.cls, m.val)

-- the block is wrapped; the instance entry has priority; the tensors are those of the original
example : exAt ["block"] = some (.inputModule, ⟨.opaque 0, none, none, true, true, none⟩) := by
  decide +kernel
example : exAt ["block", "input_quantizer"] =
    some (.quantActivation, ⟨.opaque 0, none, none, true, true, some ⟨⟨6, 8, 0, 0⟩, true, true⟩⟩) := by
  decide +kernel
example : exAt ["block", "module", "fc"] =
    some (.quant .linear, ⟨.linear 3 2, some 10, some 11, true, true, some ⟨exCfg, false, true⟩⟩) := by
  decide +kernel
-- the second name of the same Linear is not converted
example : exAt ["block", "module", "fc_again"] =
    some (.torch .linear, ⟨.linear 3 2, some 10, some 11, false, false, none⟩) := by
  decide +kernel
example : exAt ["head"] = some (.torch .conv2d, exHead.val) := by decide +kernel
example : exAt ["norm"] = some (.quant .layerNorm,
    ⟨.layerNorm [2] (1/2) true, some 30, some 0, true, true, some ⟨⟨0, 4, 1, 1⟩, true, false⟩⟩) := by
  decide +kernel

theorem exSel0 : ¬Selected exMap [] (.other 0) :=
  select_none.2 (by decide +kernel)
theorem exSel1 : ¬Selected exMap ["block"] (.other 1) :=
  select_none.2 (by decide +kernel)

theorem exVisBlock : Visited exMap exNet ["block"] exBlock ["block"] :=
  Visited.child (p := []) (r := []) (i := 0) Visited.root (by decide +kernel) (by simp) exSel0 rfl rfl

theorem exVisFc : Visited exMap exNet ["block", "fc"] exFc ["block", "module", "fc"] :=
  Visited.child (p := ["block"]) (r := ["block"]) (i := 0) exVisBlock (by decide +kernel) (by simp)
    exSel1 rfl rfl

-- hypotheses of `C51_torch_layer`, `C51_input_wrapper`, `C51_shared_child`, `C51_unselected`
example : Active exMap ["block", "fc"] exFc := ⟨by decide +kernel, by simp [exFc, Mod.cls]⟩
example : Applies exMap ["block", "fc"] exFc.cls ⟨.quant .linear, exCfg⟩ :=
  select_some.2 (by decide +kernel)
example : Wants ⟨.quant .linear, exCfg⟩ := Or.inl (by decide)
example : TorchLayer .linear exFc.val := ⟨rfl, by simp [exFc, Mod.val], by simp⟩
example : exMap.inputs.lookup (dotted ["block"]) = some ⟨6, 0, 0, 0⟩ := by decide +kernel
example : exBlock.kids.get "fc_again" = some (0, exFc) ∧ exBlock.kids.get "fc" = some (0, exFc) ∧
    exBlock.kids.firstName 0 = some "fc" := ⟨rfl, rfl, rfl⟩
example : Visited exMap exNet ["head"] exHead ["head"] ∧ dotted ["head"] ∈ exMap.excluded :=
  ⟨Visited.child (p := []) (r := []) (i := 1) Visited.root (by decide +kernel) (by simp) exSel0 rfl rfl,
   by decide +kernel⟩

theorem exAll (P : Mod Nat → Prop) (h0 : P exNet) (h1 : P exBlock) (h2 : P exFc) (h3 : P exAct)
    (h4 : P exHead) (h5 : P exNorm) : ∀ q x, exNet.at q = some x → P x := by
  have leaf : ∀ (c : Cls) (v : Val Nat) q x, (Mod.node c v .nil).at q = some x → P (.node c v .nil) →
      P x := by
    intro c v q x h hp
    cases q with
    | nil => cases h; exact hp
    | cons n q => simp [Mod.at, Kids.get] at h
  have block : ∀ q x, exBlock.at q = some x → P x := by
    intro q x h
    cases q with
    | nil => cases h; exact h1
    | cons n q =>
      simp only [exBlock, Mod.at, Kids.get] at h
      by_cases e1 : "fc" = n
      · simp only [e1, if_true] at h; exact leaf _ _ q x h h2
      · rw [if_neg e1] at h
        by_cases e2 : "act" = n
        · simp only [e2, if_true] at h; exact leaf _ _ q x h h3
        · rw [if_neg e2] at h
          by_cases e3 : "fc_again" = n
          · simp only [e3, if_true] at h; exact leaf _ _ q x h h2
          · rw [if_neg e3] at h; cases h
  intro q x h
  cases q with
  | nil => cases h; exact h0
  | cons n q =>
    simp only [exNet, Mod.at, Kids.get] at h
    by_cases e1 : "block" = n
    · simp only [e1, if_true] at h; exact block q x h
    · rw [if_neg e1] at h
      by_cases e2 : "head" = n
      · simp only [e2, if_true] at h; exact leaf _ _ q x h h4
      · rw [if_neg e2] at h
        by_cases e3 : "norm" = n
        · simp only [e3, if_true] at h; exact leaf _ _ q x h h5
        · rw [if_neg e3] at h; cases h

theorem exNamesOk : NamesOk exNet :=
  exAll _ (by decide +kernel) (by decide +kernel) (by decide +kernel) (by decide +kernel)
    (by decide +kernel) (by decide +kernel)
example : NamesDistinct exNet :=
  exAll _ (by decide +kernel) (by decide +kernel) (by decide +kernel) (by decide +kernel)
    (by decide +kernel) (by decide +kernel)

end Aihw.QConvert

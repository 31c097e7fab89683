import Verif.QConvert.Lemmas

/-!
# C51: `convert_to_quantized`
-/
namespace Aihw.QConvert

variable {T : Type}

section
variable (E : Env T) (qm : QMap) (model res : Mod T)

theorem at_res (pre : Mod T) (hr : res = enableMod pre) (r : List String) (m : Mod T)
    (h : pre.at r = some m) : res.at r = some (enableMod m) := by
  rw [hr, at_enable, h]; rfl

theorem content_fresh (p r : List String) (pre x y : Mod T)
    (h : pre.at r = some (content qm p x (.fresh y))) : pre.at (inside qm p r) = some y := by
  apply inside_at qm p r pre x y
  rw [h]
  unfold content
  by_cases hp : p = []
  · simp [hp]
  · simp [hp, slotOf]

/-- Excluded modules, and quantizers, stay with everything below them. -/
theorem C51_excluded_kept (h : convertToQuantized E qm model = .ok res) (hn : NamesOk model)
    (p r : List String) (x : Mod T) (hv : Visited qm model p x r)
    (hx : dotted p ∈ qm.excluded ∨ ∃ l, x.cls = .leaf l) :
    ∃ y, res.at r = some y ∧ SameTree x y := by
  obtain ⟨pre, hr, hq⟩ := convert_inv E qm model res h
  obtain ⟨o, ho, hat⟩ := visited_out E qm model pre hn hq p r x hv
  have : quantizeModel E qm (dotted p) x = .ok .skip := by
    rcases hx with hx | ⟨l, hl⟩
    · exact qm_excluded E qm _ x hx
    · exact qm_leaf E qm _ x l hl
  rw [this] at ho
  cases ho
  have e : content qm p x .skip = x := by
    unfold content
    split_ifs <;> rfl
  rw [e] at hat
  exact ⟨_, at_res res pre hr r x hat, sameTree_enable x⟩

/-- A module whose entry asks for no quantization stays with everything below it. -/
theorem C51_zero_bits_kept (h : convertToQuantized E qm model = .ok res) (hn : NamesOk model)
    (p r : List String) (x : Mod T) (hv : Visited qm model p x r) (ha : Active qm p x)
    (mc : QModCfg) (hm : Applies qm p x.cls mc) (hw : ¬Wants mc) :
    ∃ y, res.at (inside qm p r) = some y ∧ SameTree x y := by
  obtain ⟨pre, hr, hq⟩ := convert_inv E qm model res h
  obtain ⟨o, ho, hat⟩ := visited_out E qm model pre hn hq p r x hv
  rw [qm_selected E qm p x mc ha hm, convertSelf, if_neg (show ¬(0 < mc.cfg.bitsA ∨ 0 < mc.cfg.bitsW) from hw)] at ho
  cases ho
  exact ⟨_, at_res res pre hr _ x (inside_at qm p r pre x x hat), sameTree_enable x⟩

/-- A module about which the map says nothing keeps its class, value and child names. -/
theorem C51_unselected (h : convertToQuantized E qm model = .ok res) (hn : NamesOk model)
    (p r : List String) (x : Mod T) (hv : Visited qm model p x r) (ha : Active qm p x)
    (hs : ¬Selected qm p x.cls) :
    ∃ y, res.at (inside qm p r) = some y ∧ y.cls = x.cls ∧ Refreshed x.val y.val ∧
      y.kids.names = x.kids.names := by
  obtain ⟨pre, hr, hq⟩ := convert_inv E qm model res h
  obtain ⟨o, ho, hat⟩ := visited_out E qm model pre hn hq p r x hv
  obtain ⟨c, v, ks⟩ := x
  obtain ⟨ks', hk, rfl⟩ := open_inv E qm p c v ks o ha.1 ha.2 hs ho
  refine ⟨_, at_res res pre hr _ _ (inside_at qm p r pre _ _ hat), rfl, refreshed_enable v, ?_⟩
  exact (names_enable ks').trans (kids_names E qm _ ks ks' [] hk)

/-- What a default conversion makes of a torch layer with value `v`: the counterpart of the same
attributes with the very tensors of the original, in the state which the configuration says. -/
def Counterpart (E : Env T) (k : Kind) (v : Val T) (cfg : QCfg) (y : Mod T) : Prop :=
  y.cls = .quant k ∧ y.val.attrs = v.attrs ∧ v.weight.isSome ∧ y.val.weight = v.weight ∧
    (v.bias.isSome → y.val.bias = v.bias) ∧
    (v.bias = none → y.val.bias = if k = .layerNorm then some (E.init v.attrs).2 else none) ∧
    ∃ s, y.val.q = some s ∧ s.cfg = cfg ∧ (s.quantW = true ↔ 0 < cfg.bitsW) ∧
      (s.quantA = true ↔ 0 < cfg.bitsA)

/-- A torch layer: its attributes are of its kind; a LayerNorm has a weight exactly if it is affine,
an Embedding has no bias. -/
def TorchLayer (k : Kind) (v : Val T) : Prop :=
  v.attrs.kind = some k ∧ (∀ s e a, v.attrs = .layerNorm s e a → (a = true ↔ v.weight.isSome)) ∧
    (k = .embedding → v.bias = none)

theorem buildFrom_ok (k : Kind) (v : Val T) (cfg : QCfg) (y : Mod T) (ht : TorchLayer k v)
    (h : buildFrom E k v ⟨.quant k, cfg⟩ = .ok y) :
    Counterpart E k v cfg (enableMod y) ∧ (enableMod y).val.training = true ∧
      (enableMod y).val.requiresGrad = true ∧ (enableMod y).kids.names = [] := by
  obtain ⟨at', w, b, tr, rg, q⟩ := v
  obtain ⟨h1, h2, h3⟩ := ht
  simp only at h1 h2 h3
  have hk : (getArgs k (⟨at', w, b, tr, rg, q⟩ : Val T)).attrs.kind = some k := by
    cases k <;> cases at' <;> simp_all [getArgs, Attrs.kind]
  simp only [buildFrom, build, hk, if_true] at h
  cases w with
  | none => simp [setTensors] at h
  | some w =>
    have ha : (getArgs k (⟨at', some w, b, tr, rg, q⟩ : Val T)).attrs = at' := by
      cases k <;> cases at' <;> simp_all [getArgs, Attrs.kind]
    cases b with
    | none =>
      simp only [setTensors] at h
      cases h
      refine ⟨⟨rfl, ha, rfl, rfl, by simp, ?_, ?_⟩, rfl, rfl, rfl⟩
      · intro _
        change (if _ then _ else _) = _
        rw [ha]
        cases k <;> cases at' <;> simp_all [getArgs, Attrs.kind]
      · exact ⟨_, rfl, rfl, by simp, by simp⟩
    | some b =>
      cases hb : (getArgs k (⟨at', some w, some b, tr, rg, q⟩ : Val T)).bias with
      | false =>
        exfalso
        cases k <;> cases at' <;> simp_all [getArgs, Attrs.kind]
      | true =>
        simp only [setTensors, hb, if_true] at h
        cases h
        refine ⟨⟨rfl, ha, rfl, rfl, fun _ => rfl, by simp, ?_⟩, rfl, rfl, rfl⟩
        exact ⟨_, rfl, rfl, by simp, by simp⟩

/-- A selected torch layer becomes its counterpart.  The new layer is in training mode and its
parameters require gradients, whatever the original was. -/
theorem C51_torch_layer (h : convertToQuantized E qm model = .ok res) (hn : NamesOk model)
    (p r : List String) (x : Mod T) (hv : Visited qm model p x r) (ha : Active qm p x)
    (k : Kind) (hk : x.cls = .torch k) (ht : TorchLayer k x.val)
    (cfg : QCfg) (hm : Applies qm p x.cls ⟨.quant k, cfg⟩) (hw : Wants ⟨.quant k, cfg⟩) :
    ∃ y, res.at (inside qm p r) = some y ∧ Counterpart E k x.val cfg y ∧
      y.val.training = true ∧ y.val.requiresGrad = true ∧ y.kids.names = [] := by
  obtain ⟨pre, hr, hq⟩ := convert_inv E qm model res h
  obtain ⟨o, ho, hat⟩ := visited_out E qm model pre hn hq p r x hv
  rw [qm_selected E qm p x _ ha hm, convertSelf, if_pos (show 0 < cfg.bitsA ∨ 0 < cfg.bitsW from hw), hk] at ho
  simp only at ho
  cases hb : buildFrom E k x.val ⟨.quant k, cfg⟩ with
  | error e => rw [hb] at ho; cases ho
  | ok y =>
    rw [hb] at ho
    cases ho
    exact ⟨_, at_res res pre hr _ _ (content_fresh qm p r pre x y hat),
      buildFrom_ok E k x.val cfg y ht hb⟩

/-- A selected analog layer is converted to digital first. -/
theorem C51_analog_layer (h : convertToQuantized E qm model = .ok res) (hn : NamesOk model)
    (p r : List String) (x : Mod T) (hv : Visited qm model p x r) (ha : Active qm p x)
    (a : Nat) (hk : x.cls = .analog a) (k : Kind) (cfg : QCfg)
    (hm : Applies qm p x.cls ⟨.quant k, cfg⟩) (hw : Wants ⟨.quant k, cfg⟩) :
    ∃ d, E.digital x = .ok d ∧ (d.cls = .torch .linear ∨ d.cls = .torch .conv2d) ∧
      (d.cls = .torch k → TorchLayer k d.val →
        ∃ y, res.at (inside qm p r) = some y ∧ Counterpart E k d.val cfg y) := by
  obtain ⟨pre, hr, hq⟩ := convert_inv E qm model res h
  obtain ⟨o, ho, hat⟩ := visited_out E qm model pre hn hq p r x hv
  rw [qm_selected E qm p x _ ha hm, convertSelf, if_pos (show 0 < cfg.bitsA ∨ 0 < cfg.bitsW from hw), hk] at ho
  simp only at ho
  cases hb : buildAnalog E x ⟨.quant k, cfg⟩ with
  | error e => rw [hb] at ho; cases ho
  | ok y =>
    rw [hb] at ho
    cases ho
    have hin := at_res res pre hr _ _ (content_fresh qm p r pre x y hat)
    unfold buildAnalog at hb
    cases hd : E.digital x with
    | error e => rw [hd] at hb; cases hb
    | ok d =>
      rw [hd] at hb
      refine ⟨d, rfl, ?_⟩
      obtain ⟨c, v, ks⟩ := d
      cases c with
      | torch k' =>
        cases k' with
        | linear =>
          refine ⟨Or.inl rfl, ?_⟩
          intro e ht
          cases e
          exact ⟨_, hin, (buildFrom_ok E .linear v cfg y ht hb).1⟩
        | conv2d =>
          refine ⟨Or.inr rfl, ?_⟩
          intro e ht
          cases e
          exact ⟨_, hin, (buildFrom_ok E .conv2d v cfg y ht hb).1⟩
        | _ => cases hb
      | _ => cases hb

/-- Any other selected module is given to the constructor of the entry. -/
theorem C51_custom_module (h : convertToQuantized E qm model = .ok res) (hn : NamesOk model)
    (p r : List String) (x : Mod T) (hv : Visited qm model p x r) (ha : Active qm p x)
    (h1 : ∀ k, x.cls ≠ .torch k) (h2 : ∀ a, x.cls ≠ .analog a)
    (mc : QModCfg) (hm : Applies qm p x.cls mc) (hw : Wants mc) :
    ∃ d y, E.custom mc.target x qm mc.cfg = .ok d ∧ res.at (inside qm p r) = some y ∧
      SameTree d y := by
  obtain ⟨pre, hr, hq⟩ := convert_inv E qm model res h
  obtain ⟨o, ho, hat⟩ := visited_out E qm model pre hn hq p r x hv
  rw [qm_selected E qm p x _ ha hm, convertSelf, if_pos (show 0 < mc.cfg.bitsA ∨ 0 < mc.cfg.bitsW from hw)] at ho
  have ho' : (E.custom mc.target x qm mc.cfg).map Out.fresh = .ok o := by
    rw [← ho]
    cases hc : x.cls with
    | torch k => exact absurd hc (h1 k)
    | analog a => exact absurd hc (h2 a)
    | _ => rfl
  cases hd : E.custom mc.target x qm mc.cfg with
  | error e => rw [hd] at ho'; cases ho'
  | ok d =>
    rw [hd] at ho'
    cases ho'
    exact ⟨d, _, rfl, at_res res pre hr _ _ (content_fresh qm p r pre x d hat), sameTree_enable d⟩

/-- Input quantization: every visited active module below the root with an entry gets a wrapper, and
the wrapper quantizes its input exactly if the entry has bits. -/
theorem C51_input_wrapper (h : convertToQuantized E qm model = .ok res) (hn : NamesOk model)
    (p r : List String) (x : Mod T) (hv : Visited qm model p x r) (ha : Active qm p x)
    (hp : p ≠ []) (cfg : QCfg) (hi : qm.inputs.lookup (dotted p) = some cfg) :
    ∃ y, res.at r = some y ∧ y.cls = .inputModule ∧
      y.kids.names = ["module", "input_quantizer"] ∧
      ∃ z, res.at (r ++ ["input_quantizer"]) = some z ∧ z.cls = .quantActivation ∧
        ∃ s, z.val.q = some s ∧ s.cfg.bitsA = cfg.bitsA ∧ s.cfg.restA = cfg.restA ∧
          (s.quantA = true ↔ 0 < cfg.bitsA) := by
  obtain ⟨pre, hr, hq⟩ := convert_inv E qm model res h
  obtain ⟨o, ho, hat⟩ := visited_out E qm model pre hn hq p r x hv
  have hsk : o ≠ .skip := by
    rintro rfl
    by_cases hs : Selected qm p x.cls
    · cases hsel : select qm (dotted p) x.cls with
      | none => exact (select_none.2 hsel) hs
      | some mc =>
        rw [qm_selected E qm p x mc ha (select_some.2 hsel), convertSelf] at ho
        by_cases hw : 0 < mc.cfg.bitsA ∨ 0 < mc.cfg.bitsW
        · rw [if_pos hw] at ho
          split at ho
          · cases hb : buildFrom E _ x.val mc <;> rw [hb] at ho <;> cases ho
          · cases hb : buildAnalog E x mc <;> rw [hb] at ho <;> cases ho
          · cases hb : E.custom mc.target x qm mc.cfg <;> rw [hb] at ho <;> cases ho
        · rw [if_neg hw] at ho
          cases ho
    · obtain ⟨c, v, ks⟩ := x
      obtain ⟨ks', _, e⟩ := open_inv E qm p c v ks _ ha.1 ha.2 hs ho
      cases e
  have hc : ∃ m', content qm p x o = wrapInput cfg m' := by
    unfold content
    rw [if_neg hp]
    cases o with
    | skip => exact absurd rfl hsk
    | same m => exact ⟨m, by rw [slotOf, wrapIf, find_lookup, hi]⟩
    | fresh m => exact ⟨m, by rw [slotOf, wrapIf, find_lookup, hi]⟩
  obtain ⟨m', hc⟩ := hc
  rw [hc] at hat
  have h1 := at_res res pre hr _ _ hat
  refine ⟨_, h1, rfl, rfl, ?_⟩
  have h2 : pre.at (r ++ ["input_quantizer"]) = some (.node .quantActivation
      ⟨.opaque 0, none, none, true, true, some ⟨{ cfg with bitsW := 8 }, false, false⟩⟩ .nil) := by
    rw [at_append, hat]
    simp [wrapInput, at_one, Kids.get]
  exact ⟨_, at_res res pre hr _ _ h2, rfl, _, rfl, rfl, rfl, by simp⟩

/-- The other names of a shared child are not visited: if the child was to be converted, they still
hold the module as it was, not quantized. -/
theorem C51_shared_child (h : convertToQuantized E qm model = .ok res) (hn : NamesOk model)
    (p r : List String) (c : Cls) (v : Val T) (ks : Kids T)
    (hv : Visited qm model p (.node c v ks) r)
    (ha : Active qm p (.node c v ks : Mod T)) (hs : ¬Selected qm p c)
    (n n1 : String) (i : Nat) (x : Mod T) (hg : ks.get n = some (i, x))
    (hg1 : ks.get n1 = some (i, x)) (hf : ks.firstName i = some n1) (hne : n ≠ n1)
    (hx : Selected qm (p ++ [n1]) x.cls ∨ dotted (p ++ [n1]) ∈ qm.excluded ∨ ∃ l, x.cls = .leaf l) :
    ∃ y, res.at (inside qm p r ++ [n]) = some y ∧ SameTree x y := by
  obtain ⟨pre, hr, hq⟩ := convert_inv E qm model res h
  obtain ⟨o, ho, hat⟩ := later_out E qm model pre hn hq p r c v ks hv ha.1 ha.2 hs n n1 i x x hg hg1
    hf hne
  have e : after x o = x := by
    by_cases he : dotted (p ++ [n1]) ∈ qm.excluded
    · rw [qm_excluded E qm _ x he] at ho; cases ho; rfl
    by_cases hl : ∃ l, x.cls = .leaf l
    · obtain ⟨l, hl⟩ := hl
      rw [qm_leaf E qm _ x l hl] at ho; cases ho; rfl
    have hsel : Selected qm (p ++ [n1]) x.cls := by
      rcases hx with hx | hx | hx
      · exact hx
      · exact absurd hx he
      · exact absurd hx hl
    cases hse : select qm (dotted (p ++ [n1])) x.cls with
    | none => exact absurd hsel (select_none.2 hse)
    | some mc =>
      rw [qm_selected E qm _ x mc ⟨he, fun l hl' => hl ⟨l, hl'⟩⟩ (select_some.2 hse), convertSelf] at ho
      by_cases hw : 0 < mc.cfg.bitsA ∨ 0 < mc.cfg.bitsW
      · rw [if_pos hw] at ho
        split at ho
        · cases hb : buildFrom E _ x.val mc <;> rw [hb] at ho <;> cases ho; rfl
        · cases hb : buildAnalog E x mc <;> rw [hb] at ho <;> cases ho; rfl
        · cases hb : E.custom mc.target x qm mc.cfg <;> rw [hb] at ho <;> cases ho; rfl
      · rw [if_neg hw] at ho; cases ho; rfl
  rw [e] at hat
  exact ⟨_, at_res res pre hr _ _ hat, sameTree_enable x⟩

/-- A shared child which is only recursed into is the same object under all its names: without the
wrapper, which only the first name gets. -/
theorem C51_shared_container (h : convertToQuantized E qm model = .ok res) (hn : NamesOk model)
    (p r : List String) (c : Cls) (v : Val T) (ks : Kids T)
    (hv : Visited qm model p (.node c v ks) r)
    (ha : Active qm p (.node c v ks : Mod T)) (hs : ¬Selected qm p c)
    (n n1 : String) (i : Nat) (x : Mod T) (hg : ks.get n = some (i, x))
    (hg1 : ks.get n1 = some (i, x)) (hf : ks.firstName i = some n1) (hne : n ≠ n1)
    (hax : Active qm (p ++ [n1]) x) (hsx : ¬Selected qm (p ++ [n1]) x.cls) :
    ∃ y, res.at (inside qm p r ++ [n]) = some y ∧
      res.at (inside qm (p ++ [n1]) (inside qm p r ++ [n1])) = some y := by
  obtain ⟨pre, hr, hq⟩ := convert_inv E qm model res h
  obtain ⟨o, ho, hat⟩ := later_out E qm model pre hn hq p r c v ks hv ha.1 ha.2 hs n n1 i x x hg hg1
    hf hne
  obtain ⟨o', ho', hat'⟩ := visited_out E qm model pre hn hq _ _ x
    (.child hv ha.1 ha.2 hs hg1 hf)
  rw [ho] at ho'
  injection ho' with ho'
  subst ho'
  obtain ⟨c', v', ks'⟩ := x
  obtain ⟨ks'', hk, rfl⟩ := open_inv E qm _ c' v' ks' o hax.1 hax.2 hsx ho
  exact ⟨_, at_res res pre hr _ _ hat, at_res res pre hr _ _ (inside_at qm _ _ pre _ _ hat')⟩

/-- The states of every quantized module in the result, converted or there before, are those of its
configuration. -/
theorem C51_states (h : convertToQuantized E qm model = .ok res) (q : List String) (x : Mod T)
    (s : QState) (hx : res.at q = some x) (hs : x.val.q = some s) :
    (s.quantW = true ↔ 0 < s.cfg.bitsW) ∧ (s.quantA = true ↔ 0 < s.cfg.bitsA) := by
  obtain ⟨pre, rfl, hq⟩ := convert_inv E qm model res h
  rw [at_enable] at hx
  cases hp : pre.at q with
  | none => rw [hp] at hx; cases hx
  | some y =>
    rw [hp] at hx
    cases hx
    rw [enable_val] at hs
    unfold enableVal at hs
    cases hy : y.val.q with
    | none =>
      rw [hy] at hs
      simp only at hs
      rw [hy] at hs
      cases hs
    | some s' =>
      rw [hy] at hs
      cases hs
      simp

end

/-- A model that is itself excluded, or is a quantizer, cannot be converted. -/
theorem C51_root_excluded (E : Env T) (qm : QMap) (model : Mod T)
    (h : "" ∈ qm.excluded ∨ ∃ l, model.cls = .leaf l) :
    convertToQuantized E qm model = .error .attributeError := by
  have : quantizeModel E qm "" model = .ok .skip := by
    rcases h with h | ⟨l, hl⟩
    · exact qm_excluded E qm _ model h
    · exact qm_leaf E qm _ model l hl
  unfold convertToQuantized
  rw [this]

end Aihw.QConvert

import Verif.QConvert.Props

/-!
# C51: when the conversion succeeds, default conversions, what the converted layers compute
-/
namespace Aihw.QConvert

variable {T : Type}

/-! ### Success -/

def Kids.slots : Kids T → List (String × Nat × Mod T)
  | .nil => []
  | .cons n i m rest => (n, i, m) :: rest.slots

theorem slots_names (ks : Kids T) : ks.slots.map (·.1) = ks.names := by
  induction ks using Kids.rec (motive_1 := fun _ => True) with
  | node => trivial
  | nil => rfl
  | cons a i m rest _ ih => simp [Kids.slots, Kids.names, ih]

theorem slots_get (ks : Kids T) (hn : ks.names.Nodup) (n : String) (i : Nat) (m : Mod T)
    (h : (n, i, m) ∈ ks.slots) : ks.get n = some (i, m) := by
  induction ks using Kids.rec (motive_1 := fun _ => True) with
  | node => trivial
  | nil => simp [Kids.slots] at h
  | cons a j x rest _ ih =>
    rw [Kids.slots, List.mem_cons] at h
    rw [Kids.names, List.nodup_cons] at hn
    rcases h with h | h
    · simp only [Prod.mk.injEq] at h
      obtain ⟨rfl, rfl, rfl⟩ := h
      simp [Kids.get]
    · have : a ≠ n := by
        rintro rfl
        apply hn.1
        rw [← slots_names]
        exact List.mem_map.2 ⟨_, h, rfl⟩
      rw [Kids.get, if_neg this]
      exact ih hn.2 h

theorem kids_total (E : Env T) (qm : QMap) (nm : String) (ks : Kids T) (seen : List (Nat × Mod T))
    (h : ∀ n i x, (n, i, x) ∈ ks.slots → ks.firstName i = some n → find i seen = none →
      ∃ o, quantizeModel E qm (fullName nm n) x = .ok o) :
    ∃ ks', quantizeKids E qm nm seen ks = .ok ks' := by
  induction ks using Kids.rec (motive_1 := fun _ => True) generalizing seen with
  | node => trivial
  | nil => exact ⟨_, by rw [quantizeKids]⟩
  | cons a j x rest _ ih =>
    rw [quantizeKids]
    have step : ∀ seen', (∀ i, find i seen' = none → find i seen = none ∧ i ≠ j) →
        ∃ r, quantizeKids E qm nm seen' rest = .ok r := by
      intro seen' hs
      refine ih seen' ?_
      intro n i y hm hf hn
      obtain ⟨h1, h2⟩ := hs i hn
      refine h n i y (by simp [Kids.slots, hm]) ?_ h1
      rw [Kids.firstName, if_neg (Ne.symm h2)]
      exact hf
    cases hf : find j seen with
    | some m' =>
      obtain ⟨r, hr⟩ := step seen (fun i hi => ⟨hi, by rintro rfl; rw [hf] at hi; cases hi⟩)
      exact ⟨.cons a j m' r, by simp only [hr]; rfl⟩
    | none =>
      have hs : ∀ y, ∀ i, find i ((j, y) :: seen) = none → find i seen = none ∧ i ≠ j := by
        intro y i hi
        rw [find] at hi
        by_cases e : j = i
        · rw [if_pos e] at hi; cases hi
        · rw [if_neg e] at hi; exact ⟨hi, Ne.symm e⟩
      simp only
      by_cases he : fullName nm a ∈ qm.excluded
      · obtain ⟨r, hr⟩ := step ((j, x) :: seen) (hs x)
        exact ⟨.cons a j x r, by rw [if_pos he, hr]; rfl⟩
      · rw [if_neg he]
        obtain ⟨o, ho⟩ := h a j x (by simp [Kids.slots]) (by simp [Kids.firstName]) hf
        obtain ⟨r, hr⟩ := step ((j, after x o) :: seen) (hs _)
        exact ⟨.cons a j (slotOf qm (fullName nm a) x o) r, by rw [ho]; simp only [hr]; rfl⟩

theorem buildFrom_total (E : Env T) (k : Kind) (v : Val T) (cfg : QCfg) (ht : TorchLayer k v)
    (hw : v.weight.isSome) : ∃ y, buildFrom E k v ⟨.quant k, cfg⟩ = .ok y := by
  obtain ⟨at', w, b, tr, rg, q⟩ := v
  obtain ⟨h1, h2, h3⟩ := ht
  simp only at h1 h2 h3 hw
  have hk : (getArgs k (⟨at', w, b, tr, rg, q⟩ : Val T)).attrs.kind = some k := by
    cases k <;> cases at' <;> simp_all [getArgs, Attrs.kind]
  cases w with
  | none => simp at hw
  | some w =>
    simp only [buildFrom, build, hk, if_true]
    cases b with
    | none => exact ⟨_, rfl⟩
    | some b =>
      have hb : (getArgs k (⟨at', some w, some b, tr, rg, q⟩ : Val T)).bias = true := by
        cases k <;> cases at' <;> simp_all [getArgs, Attrs.kind]
      simp only [hb, if_true]
      exact ⟨_, rfl⟩

/-- What a selected module needs to be convertible: a torch layer its own quantized class and a
weight, an analog layer a digital Linear or Conv2d of the entry's kind, any other module a
constructor that accepts it. -/
def Convertible (E : Env T) (qm : QMap) (x : Mod T) (mc : QModCfg) : Prop :=
  (∀ k, x.cls = .torch k → mc.target = .quant k ∧ TorchLayer k x.val ∧ x.val.weight.isSome) ∧
  (∀ a, x.cls = .analog a → ∃ d k, E.digital x = .ok d ∧ d.cls = .torch k ∧
    (k = .linear ∨ k = .conv2d) ∧ mc.target = .quant k ∧ TorchLayer k d.val ∧ d.val.weight.isSome) ∧
  ((∀ k, x.cls ≠ .torch k) → (∀ a, x.cls ≠ .analog a) →
    ∃ d, E.custom mc.target x qm mc.cfg = .ok d)

theorem convertSelf_total (E : Env T) (qm : QMap) (mc : QModCfg) (x : Mod T)
    (h : Wants mc → Convertible E qm x mc) :
    ∃ o, convertSelf E qm mc x = .ok o ∧ o ≠ .skip := by
  unfold convertSelf
  by_cases hw : 0 < mc.cfg.bitsA ∨ 0 < mc.cfg.bitsW
  · rw [if_pos hw]
    obtain ⟨h1, h2, h3⟩ := h hw
    cases hc : x.cls with
    | torch k =>
      obtain ⟨t, ht, hwt⟩ := h1 k hc
      obtain ⟨y, hy⟩ := buildFrom_total E k x.val mc.cfg ht hwt
      have e : mc = ⟨.quant k, mc.cfg⟩ := by cases mc; simp_all
      exact ⟨.fresh y, by simp only; rw [e, hy]; rfl, by simp⟩
    | analog a =>
      obtain ⟨d, k, hd, hdc, hk, t, ht, hwt⟩ := h2 a hc
      obtain ⟨y, hy⟩ := buildFrom_total E k d.val mc.cfg ht hwt
      have e : mc = ⟨.quant k, mc.cfg⟩ := by cases mc; simp_all
      refine ⟨.fresh y, ?_, by simp⟩
      simp only
      rw [e]
      have : buildAnalog E x ⟨.quant k, mc.cfg⟩ = .ok y := by
        unfold buildAnalog
        rw [hd]
        obtain ⟨c, v, ks⟩ := d
        have hdc : c = .torch k := hdc
        subst hdc
        rcases hk with rfl | rfl <;> exact hy
      rw [this]
      rfl
    | _ =>
      obtain ⟨d, hd⟩ := h3 (by simp [hc]) (by simp [hc])
      exact ⟨.fresh d, by simp only [hd]; rfl, by simp⟩
  · rw [if_neg hw]
    exact ⟨_, rfl, by simp⟩

/-- The names of a dictionary are distinct. -/
def NamesDistinct (m : Mod T) : Prop := ∀ q x, m.at q = some x → x.kids.names.Nodup

/-- The conversion succeeds if every selected module it gets to is convertible. -/
theorem C51_succeeds (E : Env T) (qm : QMap) (model : Mod T) (hn : NamesOk model)
    (hd : NamesDistinct model) (hr : "" ∉ qm.excluded) (hl : ∀ l, model.cls ≠ .leaf l)
    (hc : ∀ p x r mc, Visited qm model p x r → Active qm p x → Applies qm p x.cls mc → Wants mc →
      Convertible E qm x mc) :
    ∃ res, convertToQuantized E qm model = .ok res := by
  have main : ∀ x : Mod T, ∀ p r, Visited qm model p x r →
      ∃ o, quantizeModel E qm (dotted p) x = .ok o ∧ (Active qm p x → o ≠ .skip) := by
    intro x
    induction x using Mod.rec
      (motive_2 := fun ks => ∀ n i y, (n, i, y) ∈ ks.slots → ∀ p r, Visited qm model p y r →
        ∃ o, quantizeModel E qm (dotted p) y = .ok o) with
    | nil => rename_i n i y h p r hv; simp [Kids.slots] at h
    | cons a j y rest ih1 ih2 =>
      rename_i n i z h p r hv
      rw [Kids.slots, List.mem_cons] at h
      rcases h with h | h
      · simp only [Prod.mk.injEq] at h
        obtain ⟨rfl, rfl, rfl⟩ := h
        obtain ⟨o, ho, _⟩ := ih1 p r hv
        exact ⟨o, ho⟩
      · exact ih2 n i z h p r hv
    | node c v ks ih =>
      intro p r hv
      by_cases he : dotted p ∈ qm.excluded
      · exact ⟨_, qm_excluded E qm _ _ he, fun ha => absurd he ha.1⟩
      by_cases hlf : ∃ l, c = .leaf l
      · obtain ⟨l, rfl⟩ := hlf
        exact ⟨_, qm_leaf E qm _ _ l rfl, fun ha => absurd rfl (ha.2 l)⟩
      have hla : ∀ l, c ≠ .leaf l := fun l e => hlf ⟨l, e⟩
      cases hs : select qm (dotted p) c with
      | some mc =>
        have hap := select_some.2 hs
        rw [qm_selected E qm p (.node c v ks) mc ⟨he, hla⟩ hap]
        obtain ⟨o, ho, hsk⟩ := convertSelf_total E qm mc (.node c v ks)
          (hc p _ r mc hv ⟨he, hla⟩ hap)
        exact ⟨o, ho, fun _ => hsk⟩
      | none =>
        have hns : ¬Selected qm p c := select_none.2 hs
        rw [qm_open E qm p c v ks he hla hns]
        obtain ⟨ks', hk⟩ := kids_total E qm (dotted p) ks [] (by
          intro n i x hm hf _
          have hg := slots_get ks (hd p _ (visited_at qm model p r _ hv)) n i x hm
          have hv' := Visited.child hv he hla hns hg hf
          have := ih n i x hm _ _ hv'
          rwa [dotted_snoc p n (visited_names qm model hn p r _ hv)] at this)
        rw [hk]
        exact ⟨_, rfl, by simp⟩
  obtain ⟨o, ho, hsk⟩ := main model [] [] .root
  have hd0 : dotted ([] : List String) = "" := rfl
  rw [hd0] at ho
  have := hsk ⟨by rw [hd0]; exact hr, hl⟩
  unfold convertToQuantized
  rw [ho]
  cases o with
  | skip => exact absurd rfl this
  | same m => exact ⟨_, rfl⟩
  | fresh m => exact ⟨_, rfl⟩

/-- A LayerNorm without parameters cannot be converted: whenever it is selected and reached, the call
raises. -/
theorem C51_layernorm_without_weight (E : Env T) (qm : QMap) (model : Mod T) (hn : NamesOk model)
    (p r : List String) (x : Mod T) (hv : Visited qm model p x r) (ha : Active qm p x)
    (hk : x.cls = .torch .layerNorm) (ht : TorchLayer .layerNorm x.val) (hw : x.val.weight = none)
    (cfg : QCfg) (hm : Applies qm p x.cls ⟨.quant .layerNorm, cfg⟩)
    (hb : Wants ⟨.quant .layerNorm, cfg⟩) (res : Mod T) :
    convertToQuantized E qm model ≠ .ok res := by
  intro h
  obtain ⟨y, _, hc, _⟩ := C51_torch_layer E qm model res h hn p r x hv ha .layerNorm hk ht cfg hm hb
  have := hc.2.2.1
  rw [hw] at this
  cases this

/-! ### `append_default_conversions` -/

theorem find_append {α β : Type} [DecidableEq α] (a b : α) (w : β) (l : List (α × β)) :
    find a (l ++ [(b, w)]) = match find a l with
      | some x => some x
      | none => if b = a then some w else none := by
  induction l with
  | nil => simp [find]
  | cons p l ih =>
    obtain ⟨k, v⟩ := p
    rw [List.cons_append, find, find]
    by_cases h : k = a
    · simp [h]
    · simp [h, ih]

/-- One turn of the loop over the default conversions. -/
theorem append_step (ks : List Kind) (qm : QMap) :
    let q := ks.foldl (fun qm k =>
      match find (Cls.torch k) qm.byClass with
      | some _ => qm
      | none => { qm with byClass := qm.byClass ++ [(.torch k, ⟨.quant k, qm.default⟩)] }) qm
    (q.byName = qm.byName ∧ q.inputs = qm.inputs ∧ q.excluded = qm.excluded ∧ q.default = qm.default) ∧
    (∀ c mc, find c qm.byClass = some mc → find c q.byClass = some mc) ∧
    (∀ k ∈ ks, find (.torch k) qm.byClass = none → find (.torch k) q.byClass = some ⟨.quant k, qm.default⟩) ∧
    (∀ c, (∀ k ∈ ks, c ≠ .torch k) → find c q.byClass = find c qm.byClass) := by
  induction ks generalizing qm with
  | nil => simp
  | cons k ks ih =>
    simp only [List.foldl_cons]
    cases hf : find (Cls.torch k) qm.byClass with
    | some mc =>
      simp only
      obtain ⟨h1, h2, h3, h4⟩ := ih qm
      refine ⟨h1, h2, ?_, ?_⟩
      · intro k' hk' hn
        rcases List.mem_cons.1 hk' with rfl | hk'
        · rw [hf] at hn; cases hn
        · exact h3 k' hk' hn
      · intro c hc
        exact h4 c fun k' hk' => hc k' (List.mem_cons_of_mem _ hk')
    | none =>
      simp only
      obtain ⟨h1, h2, h3, h4⟩ := ih { qm with byClass := qm.byClass ++ [(.torch k, ⟨.quant k, qm.default⟩)] }
      refine ⟨h1, ?_, ?_, ?_⟩
      · intro c mc hc
        apply h2
        simp only
        rw [find_append, hc]
      · intro k' hk' hn
        by_cases e : k = k'
        · subst e
          apply h2
          simp only
          rw [find_append, hf]
          simp
        · have hk'' : k' ∈ ks := by
            rcases List.mem_cons.1 hk' with rfl | h
            · exact absurd rfl e
            · exact h
          apply h3 k' hk''
          simp only
          rw [find_append, hn]
          simp [e]
      · intro c hc
        rw [h4 c fun k' hk' => hc k' (List.mem_cons_of_mem _ hk')]
        simp only
        rw [find_append]
        have : Cls.torch k ≠ c := fun e => hc k (List.mem_cons_self ..) e.symm
        cases find c qm.byClass <;> simp [this]

/-- `append_default_conversions` keeps every entry, gives each of the four torch classes without one
its quantized class with the default configuration, and adds nothing else. -/
theorem C51_append_defaults (qm : QMap) :
    ((appendDefaults qm).byName = qm.byName ∧ (appendDefaults qm).inputs = qm.inputs ∧
      (appendDefaults qm).excluded = qm.excluded) ∧
    (∀ c mc, (qm.byClass.find? fun e => e.1 = c).map (·.2) = some mc →
      ((appendDefaults qm).byClass.find? fun e => e.1 = c).map (·.2) = some mc) ∧
    (∀ k, (∀ mc, (Cls.torch k, mc) ∉ qm.byClass) →
      ((appendDefaults qm).byClass.find? fun e => e.1 = .torch k).map (·.2) =
        some ⟨.quant k, qm.default⟩) ∧
    (∀ c, (∀ k, c ≠ .torch k) →
      ((appendDefaults qm).byClass.find? fun e => e.1 = c).map (·.2) =
        (qm.byClass.find? fun e => e.1 = c).map (·.2)) := by
  obtain ⟨h1, h2, h3, h4⟩ := append_step defaultKinds qm
  refine ⟨⟨h1.1, h1.2.1, h1.2.2.1⟩, ?_, ?_, ?_⟩
  · intro c mc h
    rw [← find_find?] at h ⊢
    exact h2 c mc h
  · intro k h
    rw [← find_find?]
    exact h3 k (by cases k <;> simp [defaultKinds]) ((find_none _ _).2 h)
  · intro c h
    rw [← find_find?, ← find_find?]
    exact h4 c fun k _ => h k

/-! ### What the layers compute -/

/-- The converted layer computes the function of the original on the quantized weight and quantizes
the result (an Embedding does not), except that a convolution pads with zeros whatever its padding
mode is. -/
theorem C51_same_function {X Y : Type} (E : Env T) (F : Attrs → T → Option T → X → Y)
    (qW : QCfg → T → T) (qA : QCfg → Y → Y) (k : Kind) (v : Val T) (cfg : QCfg) (y : Mod T)
    (ht : TorchLayer k v) (hc : Counterpart E k v cfg y)
    (hpad : ∀ i o kn s p d g mode, v.attrs = .conv2d i o kn s p d g mode → mode = .zeros)
    (hln : ∀ s e a w x, F (.layerNorm s e a) w (some (E.init (.layerNorm s e a)).2) x =
      F (.layerNorm s e a) w none x) (x : X) :
    ∃ w z, v.weight = some w ∧ z = F v.attrs (if 0 < cfg.bitsW then qW cfg w else w) v.bias x ∧
      quantForward F qW qA k y.val x =
        some (if 0 < cfg.bitsA ∧ k ≠ .embedding then qA cfg z else z) := by
  obtain ⟨_, h2, h3, h4, h5, h6, s, hs, hcfg, hqw, hqa⟩ := hc
  cases hw : v.weight with
  | none => rw [hw] at h3; cases h3
  | some w =>
    refine ⟨w, _, rfl, rfl, ?_⟩
    have hrun : runAttrs y.val.attrs = v.attrs := by
      rw [h2]
      cases ha : v.attrs with
      | conv2d i o kn s p d g mode => rw [hpad _ _ _ _ _ _ _ _ ha]; rfl
      | _ => rfl
    have hb : ∀ w', F v.attrs w' y.val.bias x = F v.attrs w' v.bias x := by
      intro w'
      cases hb : v.bias with
      | some b => rw [h5 (by simp [hb]), hb]
      | none =>
        rw [h6 hb]
        by_cases hk : k = .layerNorm
        · rw [if_pos hk]
          have := ht.1
          rw [hk] at this
          cases ha : v.attrs with
          | layerNorm sh e a => exact hln sh e a w' x
          | _ => rw [ha] at this; cases this
        · rw [if_neg hk]
    unfold quantForward
    rw [hs, h4, hw]
    simp only [hrun, hcfg]
    rw [hb]
    have e1 : s.quantW = decide (0 < cfg.bitsW) := by
      rw [Bool.eq_iff_iff, hqw]; simp
    have e2 : s.quantA = decide (0 < cfg.bitsA) := by
      rw [Bool.eq_iff_iff, hqa]; simp
    simp [e1, e2]

/-- A convolution with another padding mode: the converted layer computes the convolution with zero
padding. -/
theorem C51_conv_padding_mode {X Y : Type} (E : Env T) (F : Attrs → T → Option T → X → Y)
    (qW : QCfg → T → T) (qA : QCfg → Y → Y) (v : Val T) (cfg : QCfg) (y : Mod T)
    (hc : Counterpart E .conv2d v cfg y) (i o : Nat) (kn s p d : List Nat) (g : Nat) (mode : PadMode)
    (hv : v.attrs = .conv2d i o kn s p d g mode) (x : X) :
    ∃ w z, v.weight = some w ∧
      z = F (.conv2d i o kn s p d g .zeros) (if 0 < cfg.bitsW then qW cfg w else w) v.bias x ∧
      quantForward F qW qA .conv2d y.val x = some (if 0 < cfg.bitsA then qA cfg z else z) := by
  obtain ⟨_, h2, h3, h4, h5, h6, st, hs, hcfg, hqw, hqa⟩ := hc
  cases hw : v.weight with
  | none => rw [hw] at h3; cases h3
  | some w =>
    refine ⟨w, _, rfl, rfl, ?_⟩
    have hb : y.val.bias = v.bias := by
      cases hb : v.bias with
      | some b => rw [h5 (by simp [hb]), hb]
      | none => rw [h6 hb]; simp
    unfold quantForward
    rw [hs, h4, hw]
    simp only [h2, hv, runAttrs, hcfg, hb]
    have e1 : st.quantW = decide (0 < cfg.bitsW) := by
      rw [Bool.eq_iff_iff, hqw]; simp
    have e2 : st.quantA = decide (0 < cfg.bitsA) := by
      rw [Bool.eq_iff_iff, hqa]; simp
    simp [e1, e2]

end Aihw.QConvert

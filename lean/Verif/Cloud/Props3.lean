import Verif.Cloud.Props2
import Mathlib.Data.List.Dedup

/-!
# C80: the round trip of inference experiments
-/
namespace Aihw.Cloud
open Aihw

/-- The layer has a library configuration of the class `s`. -/
def HasCfg (o : Obj) (s : String) : Prop := ∃ d, o.cfg = some d ∧ d.cls = .known s

/-- The layer `o'` is `o` after the inference format: analog layers have the configuration `c`. -/
def InferReloaded (f32 : ℚ → ℚ) (c : Cfg) (o o' : Obj) : Prop :=
  Reloaded f32 o o' (if o.cls.isAnalog = true then some c else none)

/-- The class of the configuration of an analog layer. -/
def nameOf (o : Obj) : List String :=
  if o.cls.isAnalog = true then
    match o.cfg with
    | some d => match d.cls with
      | .known s => [s]
      | .user _ => []
    | none => []
  else []

theorem filter_named {l : List Attr} (h : (l.map (·.name)).Nodup) (n : String) :
    l.filter (fun a => a.name = n) = (named l n).toList := by
  induction l with
  | nil => rfl
  | cons a t ih =>
    rw [List.map_cons, List.nodup_cons] at h
    by_cases ha : a.name = n
    · have : t.filter (fun a => a.name = n) = [] := by
        rw [List.filter_eq_nil_iff]
        intro b hb hbn
        apply h.1
        rw [ha]
        exact List.mem_map.mpr ⟨b, hb, by simpa using hbn⟩
      simp [named, ha, this]
    · rw [List.filter_cons_of_neg (by simpa using ha), ih h.2]
      simp [named, List.find?, ha]

theorem names_written {f32 : ℚ → ℚ} {o : Obj} {args : List (String × Ty)} {l : List Attr}
    (hargs : layerArgs .inference o.cls = some args ∨ actArgs o.cls = some args)
    (hw : Written (layerAttr f32 .inference o) args l) :
    ((l.filter fun a => a.name = "rpu_config").map (·.s)) = nameOf o := by
  have F := facts hargs
  have hnd : (l.map (·.name)).Nodup := written_names layerAttr_name hw ▸ F.nodup
  have hrpu := F.rpu
  rw [filter_named hnd]
  rcases written_named layerAttr_name hw "rpu_config" with ⟨h1, h2⟩ | ⟨ty, a, h1, h2, h3⟩
  · rw [h2]
    by_cases hA : o.cls.isAnalog = true
    · rw [if_pos hA] at hrpu
      rw [get_of_mem F.nodup hrpu] at h1
      cases h1
    · simp [nameOf, hA]
  · rw [h2]
    by_cases hA : o.cls.isAnalog = true
    · rw [if_pos hA] at hrpu
      rw [get_of_mem F.nodup hrpu] at h1
      cases h1
      obtain ⟨c, e1, e2, _⟩ := cfg_written h3
      simp [nameOf, hA, e1, e2]
    · rw [if_neg hA] at hrpu
      rw [get_none_of_not_mem hrpu] at h1
      cases h1

theorem item_names {f32 : ℚ → ℚ} {o : Obj} {it : Item} (h : itemOf f32 .inference o = .ok it) :
    cfgNames it = nameOf o := by
  unfold itemOf at h
  cases hl : layerArgs .inference o.cls with
  | some args =>
    rw [hl] at h
    simp only [layerToProto] at h
    cases hm : args.mapM (layerAttr f32 .inference o) with
    | error e => rw [hm] at h; cases h
    | ok l =>
      rw [hm] at h
      cases h
      have e := names_written (.inl hl) (mapM_forall₂ hm)
      have hpre : ("Analog".toList.isPrefixOf o.cls.id.toList) = o.cls.isAnalog := by
        revert hl
        cases o.cls <;> intro hl <;> first | decide | (simp [layerArgs] at hl)
      simp only [cfgNames]
      rw [hpre]
      by_cases hA : o.cls.isAnalog = true
      · rw [if_pos hA]; exact e
      · rw [if_neg hA]; simp [nameOf, hA]
  | none =>
    rw [hl] at h
    simp only at h
    cases ha : actArgs o.cls with
    | none => rw [ha] at h; cases h
    | some args =>
      rw [ha] at h
      simp only [actToProto] at h
      cases hm : args.mapM (fun p => store f32 p.1 p.2 (plainField o p.1)) with
      | error e => rw [hm] at h; cases h
      | ok l =>
        rw [hm] at h
        cases h
        have hA : o.cls.isAnalog = false := by
          revert ha
          cases o.cls <;> intro ha <;> first | rfl | (simp [actArgs] at ha)
        simp [cfgNames, nameOf, hA]

theorem names_flat {f32 : ℚ → ℚ} {cl : List (Nat × Obj)} {r : List Item}
    (h : List.Forall₂ (fun (p : Nat × Obj) it => itemOf f32 .inference p.2 = .ok it) cl r) :
    r.flatMap cfgNames = cl.flatMap fun p => nameOf p.2 := by
  induction h with
  | nil => rfl
  | cons h _ ih => rw [List.flatMap_cons, List.flatMap_cons, ih, item_names h]

theorem dedup_single {l : List String} {s : String} (h : ∀ x ∈ l, x = s) (hne : l ≠ []) :
    l.dedup = [s] := by
  induction l with
  | nil => exact absurd rfl hne
  | cons a t ih =>
    have ha : a = s := h a (by simp)
    subst ha
    by_cases ht : t = []
    · subst ht; simp
    · have := ih (fun x hx => h x (by simp [hx])) ht
      have hm : a ∈ t := by
        cases t with
        | nil => exact absurd rfl ht
        | cons b t => have := h b (by simp); simp [this]
      rw [List.dedup_cons_of_mem hm]
      exact this

theorem mem_nameOf {o : Obj} {s : String} : s ∈ nameOf o ↔ o.cls.isAnalog = true ∧ HasCfg o s := by
  unfold nameOf HasCfg
  by_cases hA : o.cls.isAnalog = true
  · rw [if_pos hA]
    cases hc : o.cfg with
    | none => simp
    | some d =>
      cases hd : d.cls with
      | user m => simp [hd]
      | known t => simp [hd, hA, eq_comm]
  · simp [hA]

theorem common_same {f32 : ℚ → ℚ} {cl : List (Nat × Obj)} {r : List Item} {s : String}
    (h : List.Forall₂ (fun (p : Nat × Obj) it => itemOf f32 .inference p.2 = .ok it) cl r)
    (hs : ∀ p ∈ cl, p.2.cls.isAnalog = true → HasCfg p.2 s)
    (hne : ∃ p ∈ cl, p.2.cls.isAnalog = true) : commonName (some r) = some s := by
  have hd : (r.flatMap cfgNames).dedup = [s] := by
    rw [names_flat h]
    refine dedup_single ?_ ?_
    · intro x hx
      obtain ⟨p, hp, hx⟩ := List.mem_flatMap.mp hx
      obtain ⟨hA, d, h1, h2⟩ := mem_nameOf.mp hx
      obtain ⟨d', h1', h2'⟩ := hs p hp hA
      rw [h1] at h1'; cases h1'
      rw [h2] at h2'; cases h2'
      rfl
    · obtain ⟨p, hp, hA⟩ := hne
      intro h
      have : s ∈ cl.flatMap fun p => nameOf p.2 :=
        List.mem_flatMap.mpr ⟨p, hp, mem_nameOf.mpr ⟨hA, hs p hp hA⟩⟩
      rw [h] at this
      cases this
  simp only [commonName, hd]

theorem common_differ {f32 : ℚ → ℚ} {cl : List (Nat × Obj)} {r : List Item} {s t : String} (hst : s ≠ t)
    (h : List.Forall₂ (fun (p : Nat × Obj) it => itemOf f32 .inference p.2 = .ok it) cl r)
    (hs : ∃ p ∈ cl, p.2.cls.isAnalog = true ∧ HasCfg p.2 s)
    (ht : ∃ p ∈ cl, p.2.cls.isAnalog = true ∧ HasCfg p.2 t) : commonName (some r) = none := by
  obtain ⟨p, hp, hA, hc⟩ := hs
  obtain ⟨q, hq, hB, hd⟩ := ht
  have m1 : s ∈ (r.flatMap cfgNames).dedup := by
    rw [names_flat h, List.mem_dedup]
    exact List.mem_flatMap.mpr ⟨p, hp, mem_nameOf.mpr ⟨hA, hc⟩⟩
  have m2 : t ∈ (r.flatMap cfgNames).dedup := by
    rw [names_flat h, List.mem_dedup]
    exact List.mem_flatMap.mpr ⟨q, hq, mem_nameOf.mpr ⟨hB, hd⟩⟩
  simp only [commonName]
  generalize (r.flatMap cfgNames).dedup = L at m1 m2
  match L, m1, m2 with
  | [x], m1, m2 =>
    simp only [List.mem_singleton] at m1 m2
    exact absurd (m1.trans m2.symm) hst
  | _ :: _ :: _, _, _ => rfl

theorem mapM_fail {β γ : Type} {f : β → Except Err γ} {l : List β} {e : Err}
    (h : ∀ x ∈ l, (∃ y, f x = .ok y) ∨ f x = .error e) (hx : ∃ x ∈ l, f x = .error e) :
    l.mapM f = .error e := by
  induction l with
  | nil => obtain ⟨_, h, _⟩ := hx; cases h
  | cons a t ih =>
    rw [List.mapM_cons]
    rcases h a (by simp) with ⟨y, hy⟩ | hy
    · obtain ⟨x, hx, hxe⟩ := hx
      have hxt : x ∈ t := by
        rcases List.mem_cons.mp hx with rfl | h
        · rw [hy] at hxe; cases hxe
        · exact h
      rw [hy, ih (fun x hx => h x (by simp [hx])) ⟨x, hxt, hxe⟩]
      rfl
    · rw [hy]; rfl

theorem field64_ok {i j : ℤ} (h : field64 i = .ok j) : j = i ∧ -2 ^ 63 ≤ i ∧ i < 2 ^ 63 := by
  unfold field64 at h
  by_cases hi : in64 i = true
  · rw [if_pos hi] at h; cases h; exact ⟨rfl, (in64_iff i).mp hi⟩
  · rw [if_neg hi] at h; cases h

theorem field64_of {i : ℤ} (h : -2 ^ 63 ≤ i ∧ i < 2 ^ 63) : field64 i = .ok i := by
  unfold field64
  rw [if_pos ((in64_iff i).mpr h)]

theorem infer_ok {f32 : ℚ → ℚ} {e : Inferencing} {analog noise : Dict} {m : InferMsg}
    (h : inferToProto f32 e analog noise = .ok m) :
    dsId e.dataset = .ok m.datasetId ∧ m.batchSize = e.batchSize ∧
      modelToProto f32 .inference e.model = .ok m.layers ∧ noiseToProto f32 noise = .ok m.noise ∧
      analogToProto f32 analog = .ok m.analog ∧ m.repeats = e.repeats ∧ m.time = e.time ∧
      m.template = e.template ∧ (-2 ^ 63 ≤ e.batchSize ∧ e.batchSize < 2 ^ 63) ∧
      (-2 ^ 63 ≤ e.repeats ∧ e.repeats < 2 ^ 63) ∧ (-2 ^ 63 ≤ e.time ∧ e.time < 2 ^ 63) := by
  unfold inferToProto at h
  obtain ⟨d, h1, h⟩ := bind_ok h
  obtain ⟨b, h2, h⟩ := bind_ok h
  obtain ⟨l, h3, h⟩ := bind_ok h
  obtain ⟨n, h4, h⟩ := bind_ok h
  obtain ⟨a, h5, h⟩ := bind_ok h
  obtain ⟨r, h6, h⟩ := bind_ok h
  obtain ⟨t, h7, h⟩ := bind_ok h
  cases h
  obtain ⟨rfl, b1⟩ := field64_ok h2
  obtain ⟨rfl, b2⟩ := field64_ok h6
  obtain ⟨rfl, b3⟩ := field64_ok h7
  exact ⟨h1, rfl, h3, h4, h5, rfl, rfl, rfl, b1, b2, b3⟩

theorem noise_total {f32 : ℚ → ℚ} {d : Dict} {m : NoiseMsg} (h : noiseToProto f32 d = .ok m) :
    ∃ n, noiseInfo m = .ok n ∧ NoiseOf f32 d n := by
  have key : ∃ n, noiseInfo m = .ok n := by
    obtain ⟨v, hv, ⟨rfl, n', h3, rfl⟩ | ⟨hne, n', a, b, h3, h4, h5, rfl⟩⟩ := (noiseToProto_iff _ _ _).mp h
    · obtain ⟨_, _, _, _, _, _, _, p8⟩ := (noiseFields_iff _ _ _ _).mp h3
      have hd : n'.deviceId = "pcm" := by
        rcases p8 with ⟨h, _⟩ | h
        · cases h
        · injection h with h; exact h.symm
      simp only [noiseInfo]
      rw [if_neg (by rw [hd]; decide)]
      exact ⟨_, rfl⟩
    · exact ⟨_, rfl⟩
  obtain ⟨n, hn⟩ := key
  refine ⟨n, hn, (readNoise_iff f32 d n).mp ?_⟩
  unfold readNoise
  rw [h]
  exact hn

/-- **C80 (which experiments can be exported).** -/
theorem C80_export_iff (f32 : ℚ → ℚ) (e : Inferencing) (analog noise : Dict)
    (hn : (analog.map (·.1)).Nodup) :
    (∃ m, inferToProto f32 e analog noise = .ok m) ↔
      (e.dataset = .fashionMNIST ∨ e.dataset = .svhn) ∧
      (-2 ^ 63 ≤ e.batchSize ∧ e.batchSize < 2 ^ 63) ∧ (-2 ^ 63 ≤ e.repeats ∧ e.repeats < 2 ^ 63) ∧
      (-2 ^ 63 ≤ e.time ∧ e.time < 2 ^ 63) ∧
      (∃ l, e.model = .seq l ∧ ∀ p ∈ l, p ∈ children l → Writable .inference p.2) ∧
      (∃ a, AnalogOf f32 analog a) ∧ ∃ n, NoiseOf f32 noise n := by
  constructor
  · rintro ⟨m, h⟩
    obtain ⟨h1, _, h3, h4, h5, _, _, _, b1, b2, b3⟩ := infer_ok h
    obtain ⟨l, hl, hw⟩ := (model_iff f32 .inference e.model).mp ⟨_, h3⟩
    obtain ⟨n, _, hno⟩ := noise_total h4
    exact ⟨(dsId_iff _).mp ⟨_, h1⟩, b1, b2, b3, ⟨l, hl, fun p _ hp => hw p hp⟩,
      ⟨_, (analog_iff f32 analog hn _).mp h5⟩, n, hno⟩
  · rintro ⟨h1, b1, b2, b3, ⟨l, hl, hw⟩, ⟨a, ha⟩, n, hno⟩
    obtain ⟨d, hd⟩ := (dsId_iff _).mpr h1
    obtain ⟨r, hr⟩ := (model_iff f32 .inference e.model).mpr
      ⟨l, hl, fun p hp => hw p ((children_sub l).subset hp) hp⟩
    obtain ⟨m, e1, _⟩ := bind_ok ((readNoise_iff f32 noise n).mpr hno)
    unfold inferToProto
    rw [hd, field64_of b1, hr, e1, (analog_iff f32 analog hn a).mpr ha, field64_of b2, field64_of b3]
    exact ⟨_, rfl⟩

/-- **C80 (round trip).** An exported inference experiment whose analog layers share one configuration
class, with usable settings and a digital bias where the mapped convolution needs it, can be imported:
data set, batch size, template, repeats and time are the same; the model has new module objects, one for
each child, with the carried attributes; every analog layer gets the configuration for the settings,
whatever its own configuration was.  The loss function is always `NLLLoss` and the weights are remapped.
Without analog layers the settings do not matter. -/
theorem C80_round_trip (f32 : ℚ → ℚ) (dflt : String → Cfg) (e : Inferencing) (analog noise : Dict)
    (hn : (analog.map (·.1)).Nodup) (m : InferMsg) (h : inferToProto f32 e analog noise = .ok m) :
    ∃ l a n, e.model = .seq l ∧ AnalogOf f32 analog a ∧ NoiseOf f32 noise n ∧
      ∀ s, (∀ p ∈ children l, p.2.cls.isAnalog = true → HasCfg p.2 s ∧ Usable n a) →
        (∀ p ∈ children l, p.2.cls = .analogConv2dMapped → writesBias p.2 = true →
          (dflt s).digitalBias = true) →
        ∃ e' l', inferFromProto dflt m = .ok e' ∧ e'.dataset = e.dataset ∧ e'.batchSize = e.batchSize ∧
          e'.template = e.template ∧ e'.repeats = e.repeats ∧ e'.time = e.time ∧ e'.loss = .nll ∧
          e'.remap = true ∧ e'.model = .seq l' ∧ (l'.map (·.1)).Nodup ∧
          List.Forall₂ (fun (p q : Nat × Obj) => InferReloaded f32 (cfgFor dflt s n a) p.2 q.2)
            (children l) l' := by
  obtain ⟨h1, h2, h3, h4, h5, h6, h7, h8, _, _, _⟩ := infer_ok h
  obtain ⟨l, hl, hf⟩ := model_written h3
  obtain ⟨n, hni, hno⟩ := noise_total h4
  refine ⟨l, m.analog, n, hl, (analog_iff f32 analog hn _).mp h5, hno, ?_⟩
  intro s hs hb
  obtain ⟨l', r1, r2, r3⟩ := model_reload (dflt := dflt)
    (mk := fun _ => createCfg dflt n m.analog (some m.layers))
    (R := InferReloaded f32 (cfgFor dflt s n m.analog)) (by
      intro p hp it _ hit
      obtain ⟨i1, i2⟩ := item_reload (dflt := dflt)
        (mk := fun _ => createCfg dflt n m.analog (some m.layers)) hit
      by_cases hA : p.2.cls.isAnalog = true
      · obtain ⟨d, t, e1, e2, e3, _, e5⟩ := i2 hA
        obtain ⟨⟨d', e1', e2'⟩, hu⟩ := hs p hp hA
        rw [e1] at e1'; cases e1'
        rw [e2] at e2'; cases e2'
        have hc := common_same hf (fun p hp hA => (hs p hp hA).1) ⟨p, hp, hA⟩
        have hk := (create_known (dflt := dflt) hc e3).1 hu
        obtain ⟨_, e6⟩ := e5 _ hk
        obtain ⟨o', ho', hR⟩ := e6 (by
          rintro ⟨c1, c2, c, c3, c4⟩
          cases c3
          have := hb p hp c1 c2
          simp only [cfgFor] at c4
          rw [this] at c4
          cases c4)
        refine ⟨o', ho', ?_⟩
        unfold InferReloaded
        rw [if_pos hA]
        exact hR
      · obtain ⟨o', ho', hR⟩ := i1 (by simpa using hA)
        refine ⟨o', ho', ?_⟩
        unfold InferReloaded
        rw [if_neg hA]
        exact hR) hf
  refine ⟨⟨e.dataset, .seq l', m.batchSize, .nll, m.template, m.repeats, m.time, true⟩, l', ?_, rfl, h2,
    h8, h6, h7, rfl, rfl, rfl, r2, r3⟩
  unfold inferFromProto
  rw [dsOf_dsId h1, hni]
  show (modelFromProto dflt .inference (fun _ => createCfg dflt n m.analog (some m.layers)) m.layers >>= _) = _
  rw [r1]
  rfl

theorem forall₂_mem {α β : Type} {R : α → β → Prop} {l : List α} {r : List β} (h : List.Forall₂ R l r) :
    (∀ y ∈ r, ∃ x ∈ l, R x y) ∧ ∀ x ∈ l, ∃ y ∈ r, R x y := by
  induction h with
  | nil => simp
  | cons h _ ih =>
    obtain ⟨i1, i2⟩ := ih
    constructor
    · intro y hy
      rcases List.mem_cons.mp hy with rfl | hy
      · exact ⟨_, by simp, h⟩
      · obtain ⟨x, hx, hR⟩ := i1 y hy
        exact ⟨x, by simp [hx], hR⟩
    · intro x hx
      rcases List.mem_cons.mp hx with rfl | hx
      · exact ⟨_, by simp, h⟩
      · obtain ⟨y, hy, hR⟩ := i2 x hx
        exact ⟨y, by simp [hy], hR⟩

/-- When the configuration cannot be made, an exported model with an analog layer cannot be imported. -/
theorem infer_cfg_error {f32 : ℚ → ℚ} {dflt : String → Cfg} {e : Inferencing} {analog noise : Dict}
    {m : InferMsg} (h : inferToProto f32 e analog noise = .ok m) {l : List (Nat × Obj)}
    (hl : e.model = .seq l) {n : NoiseInfo} (hni : noiseInfo m.noise = .ok n) {x : Err}
    (hA : ∃ p ∈ children l, p.2.cls.isAnalog = true)
    (hx : createCfg dflt n m.analog (some m.layers) = .error x) : inferFromProto dflt m = .error x := by
  obtain ⟨h1, _, h3, _⟩ := infer_ok h
  obtain ⟨l0, hl0, hf⟩ := model_written h3
  rw [hl] at hl0; cases hl0
  obtain ⟨f1, f2⟩ := forall₂_mem hf
  have hm : m.layers.mapM (itemFromProto dflt .inference
      (fun _ => createCfg dflt n m.analog (some m.layers))) = .error x := by
    refine mapM_fail ?_ ?_
    · intro it hit
      obtain ⟨p, _, hp⟩ := f1 it hit
      obtain ⟨i1, i2⟩ := item_reload (dflt := dflt)
        (mk := fun _ => createCfg dflt n m.analog (some m.layers)) hp
      by_cases hA : p.2.cls.isAnalog = true
      · obtain ⟨_, _, _, _, _, e4, _⟩ := i2 hA
        exact .inr (e4 x hx)
      · obtain ⟨o', ho', _⟩ := i1 (by simpa using hA)
        exact .inl ⟨o', ho'⟩
    · obtain ⟨p, hp, hA⟩ := hA
      obtain ⟨it, hit, hI⟩ := f2 p hp
      obtain ⟨_, _, _, _, _, e4, _⟩ := (item_reload (dflt := dflt)
        (mk := fun _ => createCfg dflt n m.analog (some m.layers)) hI).2 hA
      exact ⟨it, hit, e4 x hx⟩
  unfold inferFromProto
  rw [dsOf_dsId h1, hni]
  show (modelFromProto dflt .inference (fun _ => createCfg dflt n m.analog (some m.layers)) m.layers >>= _) = _
  unfold modelFromProto
  rw [hm]
  rfl

/-- **C80 (imports that fail).** An exported experiment with analog layers cannot be imported if two of
them have configurations of different classes (`ConfigError`), if a converter has one bit
(`ZeroDivisionError`), if the device is neither `pcm` nor `generic` (`NoiseModelDeviceIDException`), or if a
mapped convolution with bias would get a configuration without digital bias (`AnalogBiasConfigError`). -/
theorem C80_errors (f32 : ℚ → ℚ) (dflt : String → Cfg) (e : Inferencing) (analog noise : Dict)
    (hn : (analog.map (·.1)).Nodup) (m : InferMsg) (h : inferToProto f32 e analog noise = .ok m) :
    ∃ l a n, e.model = .seq l ∧ AnalogOf f32 analog a ∧ NoiseOf f32 noise n ∧
      (∀ s t, s ≠ t → (∃ p ∈ children l, p.2.cls.isAnalog = true ∧ HasCfg p.2 s) →
        (∃ p ∈ children l, p.2.cls.isAnalog = true ∧ HasCfg p.2 t) →
        inferFromProto dflt m = .error (.py .configError)) ∧
      (∀ s, (∃ p ∈ children l, p.2.cls.isAnalog = true) →
        (∀ p ∈ children l, p.2.cls.isAnalog = true → HasCfg p.2 s) →
        (a.adc = 1 ∨ a.dac = 1 → inferFromProto dflt m = .error (.py .zeroDivision)) ∧
        (a.adc ≠ 1 → a.dac ≠ 1 → n.fields.deviceId ≠ "pcm" → n.fields.deviceId ≠ "generic" →
          inferFromProto dflt m = .error .deviceId) ∧
        (Usable n a → (dflt s).digitalBias = false →
          (∃ p ∈ children l, p.2.cls = .analogConv2dMapped ∧ writesBias p.2 = true) →
          inferFromProto dflt m = .error (.py .analogBias))) := by
  obtain ⟨h1, h2, h3, h4, h5, h6, h7, h8, _, _, _⟩ := infer_ok h
  obtain ⟨l, hl, hf⟩ := model_written h3
  obtain ⟨n, hni, hno⟩ := noise_total h4
  refine ⟨l, m.analog, n, hl, (analog_iff f32 analog hn _).mp h5, hno, ?_, ?_⟩
  · intro s t hst hs ht
    have hc := common_differ hst hf hs ht
    refine infer_cfg_error h hl hni ?_ ?_
    · obtain ⟨p, hp, hA, _⟩ := hs
      exact ⟨p, hp, hA⟩
    · unfold createCfg
      rw [hc]
  · intro s hA hs
    have hc := common_same hf hs hA
    have hp : s ∈ cfgClasses .inference := by
      obtain ⟨p, hp, hA⟩ := hA
      obtain ⟨it, _, hI⟩ := (forall₂_mem hf).2 p hp
      obtain ⟨d, t, e1, e2, e3⟩ := ((item_iff f32 .inference p.2).mp ⟨it, hI⟩).cfg hA
      obtain ⟨d', e1', e2'⟩ := hs p hp hA
      rw [e1] at e1'; cases e1'
      rw [e2] at e2'; cases e2'
      exact e3
    have hk := create_known (dflt := dflt) (n := n) (a := m.analog) hc hp
    refine ⟨?_, ?_, ?_⟩
    · intro h'
      obtain ⟨x, hx, ⟨rfl, _⟩ | ⟨_, g1, g2, _⟩⟩ := hk.2 (fun hu => h'.elim hu.adc hu.dac)
      · exact infer_cfg_error h hl hni hA hx
      · exact absurd h' (not_or.mpr ⟨g1, g2⟩)
    · intro g1 g2 g3 g4
      obtain ⟨x, hx, ⟨_, h'⟩ | ⟨rfl, _⟩⟩ := hk.2 (fun hu => hu.dev.elim g3 g4)
      · exact absurd h' (not_or.mpr ⟨g1, g2⟩)
      · exact infer_cfg_error h hl hni hA hx
    · intro hu hdb hR
      have hcc := hk.1 hu
      obtain ⟨f1, f2⟩ := forall₂_mem hf
      have hm : m.layers.mapM (itemFromProto dflt .inference
          (fun _ => createCfg dflt n m.analog (some m.layers))) = .error (.py .analogBias) := by
        refine mapM_fail ?_ ?_
        · intro it hit
          obtain ⟨p, _, hp⟩ := f1 it hit
          obtain ⟨i1, i2⟩ := item_reload (dflt := dflt)
            (mk := fun _ => createCfg dflt n m.analog (some m.layers)) hp
          by_cases hA : p.2.cls.isAnalog = true
          · obtain ⟨_, _, _, _, _, _, e5⟩ := i2 hA
            obtain ⟨e6, e7⟩ := e5 _ hcc
            by_cases hr : Refused p.2 (some (cfgFor dflt s n m.analog))
            · exact .inr (e6 hr)
            · obtain ⟨o', ho', _⟩ := e7 hr
              exact .inl ⟨o', ho'⟩
          · obtain ⟨o', ho', _⟩ := i1 (by simpa using hA)
            exact .inl ⟨o', ho'⟩
        · obtain ⟨p, hp, c1, c2⟩ := hR
          obtain ⟨it, hit, hI⟩ := f2 p hp
          obtain ⟨_, _, _, _, _, _, e5⟩ := (item_reload (dflt := dflt)
            (mk := fun _ => createCfg dflt n m.analog (some m.layers)) hI).2 (by rw [c1]; rfl)
          exact ⟨it, hit, (e5 _ hcc).1 ⟨c1, c2, _, rfl, hdb⟩⟩
      unfold inferFromProto
      rw [dsOf_dsId h1, hni]
      show (modelFromProto dflt .inference (fun _ => createCfg dflt n m.analog (some m.layers)) m.layers >>= _) = _
      unfold modelFromProto
      rw [hm]
      rfl

end Aihw.Cloud

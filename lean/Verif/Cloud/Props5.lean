import Verif.Cloud.Props3

/-!
# C80: arguments a layer does not know
-/
namespace Aihw.Cloud
open Aihw

/-- The names of all arguments of layers and activation functions, in both formats. -/
def argNames : List String :=
  ["in_channels", "out_channels", "kernel_size", "stride", "padding", "dilation", "in_features", "out_features",
    "bias", "rpu_config", "weight_scaling_omega", "num_features", "output_padding", "ceil_mode", "negative_slope",
    "dim"]

theorem get_none {α : Type} (l : List (String × α)) (n : String) (h : n ∉ l.map (·.1)) : get l n = none := by
  cases e : get l n with
  | none => rfl
  | some v =>
    exfalso
    unfold get at e
    cases hf : l.find? (fun p => p.1 = n) with
    | none => simp [hf] at e
    | some p =>
      have h1 := List.mem_of_find?_eq_some hf
      have h2 := List.find?_some hf
      simp only [decide_eq_true_eq] at h2
      exact h (List.mem_map.mpr ⟨p, h1, h2⟩)

theorem layer_names (k : Kind) (c : Cls) : ∀ n ∈ ((layerArgs k c).getD []).map (·.1), n ∈ argNames := by
  cases k <;> cases c <;> first | decide | (intro n hn; cases hn)

theorem act_names (c : Cls) : ∀ n ∈ ((actArgs c).getD []).map (·.1), n ∈ argNames := by
  cases c <;> first | decide | (intro n hn; cases hn)

theorem readArgs_skip (mk : MkCfg) (args : List (String × Ty)) (a : Attr) (ha : get args a.name = none)
    (post : List Attr) : ∀ (pre : List Attr) (kw : Kw),
    readArgs .inference mk args (pre ++ a :: post) kw = readArgs .inference mk args (pre ++ post) kw := by
  intro pre
  induction pre with
  | nil =>
    intro kw
    show readArgs _ _ _ (a :: post) kw = readArgs _ _ _ post kw
    rw [readArgs]
    unfold readArg
    rw [ha]
    rfl
  | cons b pre ih =>
    intro kw
    show readArgs _ _ _ (b :: (pre ++ a :: post)) kw = readArgs _ _ _ (b :: (pre ++ post)) kw
    rw [readArgs, readArgs]
    cases readArg .inference mk args kw b with
    | ok kw => exact ih kw
    | error e => rfl

theorem readArgs_raise (mk : MkCfg) (args : List (String × Ty)) (a : Attr) (ha : get args a.name = none)
    (post : List Attr) : ∀ (pre : List Attr) (kw : Kw),
    ∃ e, readArgs .training mk args (pre ++ a :: post) kw = .error e := by
  intro pre
  induction pre with
  | nil =>
    intro kw
    refine ⟨.py .keyError, ?_⟩
    show readArgs _ _ _ (a :: post) kw = _
    rw [readArgs]
    unfold readArg
    rw [ha]
    rfl
  | cons b pre ih =>
    intro kw
    show ∃ e, readArgs _ _ _ (b :: (pre ++ a :: post)) kw = _
    rw [readArgs]
    cases readArg .training mk args kw b with
    | ok kw => exact ih kw
    | error e => exact ⟨e, rfl⟩

/-- **C80 (unknown arguments).** An argument with a name that no layer and no activation function has is ignored
by the inference format: the imported layer is the one without it, wherever it stands.  The training format (C79)
never accepts such a layer. -/
theorem C80_unknown_arguments (dflt : String → Cfg) (mk : MkCfg) (id : String) (pre post : List Attr) (a : Attr)
    (ha : a.name ∉ argNames) :
    itemFromProto dflt .inference mk (.layer id (pre ++ a :: post)) =
      itemFromProto dflt .inference mk (.layer id (pre ++ post)) ∧
    itemFromProto dflt .inference mk (.act id (pre ++ a :: post)) =
      itemFromProto dflt .inference mk (.act id (pre ++ post)) ∧
    (∃ e, itemFromProto dflt .training mk (.layer id (pre ++ a :: post)) = .error e) ∧
    ∃ e, itemFromProto dflt .training mk (.act id (pre ++ a :: post)) = .error e := by
  have hl : ∀ k c, get ((layerArgs k c).getD []) a.name = none := fun k c =>
    get_none _ _ fun h => ha (layer_names k c _ h)
  have hc : ∀ c, get ((actArgs c).getD []) a.name = none := fun c => get_none _ _ fun h => ha (act_names c _ h)
  refine ⟨?_, ?_, ?_, ?_⟩
  · simp only [itemFromProto]
    cases inverse (layerArgs .inference) id with
    | none => rfl
    | some c =>
      show objFromProto _ _ _ _ _ _ = objFromProto _ _ _ _ _ _
      unfold objFromProto
      rw [readArgs_skip mk _ a (hl _ c)]
  · simp only [itemFromProto]
    cases inverse actArgs id with
    | none => rfl
    | some c =>
      show objFromProto _ _ _ _ _ _ = objFromProto _ _ _ _ _ _
      unfold objFromProto
      rw [readArgs_skip mk _ a (hc c)]
  · simp only [itemFromProto]
    cases inverse (layerArgs .training) id with
    | none => exact ⟨_, rfl⟩
    | some c =>
      obtain ⟨e, he⟩ := readArgs_raise mk _ a (hl .training c) post pre ⟨[], none⟩
      refine ⟨e, ?_⟩
      show objFromProto _ _ _ _ _ _ = _
      unfold objFromProto
      rw [he]
      rfl
  · simp only [itemFromProto]
    cases inverse actArgs id with
    | none => exact ⟨_, rfl⟩
    | some c =>
      obtain ⟨e, he⟩ := readArgs_raise mk _ a (hc c) post pre ⟨[], none⟩
      refine ⟨e, ?_⟩
      show objFromProto _ _ _ _ _ _ = _
      unfold objFromProto
      rw [he]
      rfl

/-- A concrete case: a linear layer with an unknown argument. -/
example (dflt : String → Cfg) (mk : MkCfg) :
    itemFromProto dflt .inference mk (.layer "Flatten" [{ name := "device", type := .str, s := "cuda" }]) =
      itemFromProto dflt .inference mk (.layer "Flatten" []) ∧
    (∃ o, itemFromProto dflt .inference mk (.layer "Flatten" []) = .ok o) :=
  ⟨(C80_unknown_arguments dflt mk "Flatten" [] [] _ (by decide)).1, ⟨_, rfl⟩⟩

/-- **C79 (import).** A training message of any origin is imported with the learning rate of its first optimizer
argument, whatever its name, and with its sizes as they are; without arguments it is never imported. -/
theorem C79_import (dflt : String → Cfg) (m : TrainMsg) :
    (∀ e, trainFromProto dflt m = .ok e → ∃ a rest, m.optArgs = a :: rest ∧ e.lr = a.f ∧
      e.batchSize = m.batchSize ∧ e.epochs = m.epochs ∧ e.dataset.id = some m.datasetId ∧
      e.loss.id = some m.lossId) ∧
    (m.optArgs = [] → ∃ e, trainFromProto dflt m = .error e) := by
  have key : ∀ e, trainFromProto dflt m = .ok e → ∃ a rest, m.optArgs = a :: rest ∧ e.lr = a.f ∧
      e.batchSize = m.batchSize ∧ e.epochs = m.epochs ∧ e.dataset.id = some m.datasetId ∧
      e.loss.id = some m.lossId := by
    intro e h
    unfold trainFromProto at h
    simp only [bind, Except.bind] at h
    cases h1 : dsOf m.datasetId with
    | error x => rw [h1] at h; cases h
    | ok d =>
      rw [h1] at h
      cases h2 : modelFromProto dflt .training (trainCfg dflt) m.layers with
      | error x => simp only [h2] at h; cases h
      | ok md =>
        simp only [h2] at h
        cases h3 : lossOf m.lossId with
        | error x => rw [h3] at h; cases h
        | ok l =>
          rw [h3] at h
          cases h4 : m.optArgs with
          | nil => rw [h4] at h; cases h
          | cons a rest =>
            rw [h4] at h
            cases h
            refine ⟨a, rest, rfl, rfl, rfl, rfl, ?_, ?_⟩
            · unfold dsOf at h1
              split at h1
              · cases h1; rename_i hs; rw [hs]; rfl
              · split at h1
                · cases h1; rename_i hs; rw [hs]; rfl
                · cases h1
            · unfold lossOf at h3
              split at h3
              · cases h3; rename_i hs; rw [hs]; rfl
              · split at h3
                · cases h3; rename_i hs; rw [hs]; rfl
                · split at h3
                  · cases h3; rename_i hs; rw [hs]; rfl
                  · split at h3
                    · cases h3; rename_i hs; rw [hs]; rfl
                    · cases h3
  refine ⟨key, ?_⟩
  intro h
  cases e : trainFromProto dflt m with
  | error x => exact ⟨x, rfl⟩
  | ok y =>
    obtain ⟨a, rest, ha, _⟩ := key y e
    rw [h] at ha
    cases ha

/-- A message that is imported. -/
example (dflt : String → Cfg) : (trainFromProto dflt ⟨"svhn", 8, [], [{ name := "x", type := .float, f := 3 },
    { name := "lr", type := .float, f := 5 }], "MSELoss", 2⟩).map (·.lr) = .ok 3 := rfl

end Aihw.Cloud

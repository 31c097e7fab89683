import Verif.Cloud.Results

/-! # C82: results and settings in the AIHW Composer formats -/
namespace Aihw.Cloud
open Aihw

/-- A result dictionary has the five numbers. -/
def ResultOf (f32 : ℚ → ℚ) (d : Dict) (m : ResultMsg) : Prop :=
  (∃ v, get d "t_inference" = some v ∧ NumVal f32 v m.t) ∧
  (∃ v, get d "avg_accuracy" = some v ∧ NumVal f32 v m.avgAcc) ∧
  (∃ v, get d "std_accuracy" = some v ∧ NumVal f32 v m.stdAcc) ∧
  (∃ v, get d "avg_error" = some v ∧ NumVal f32 v m.avgErr) ∧
  (∃ v, get d "avg_loss" = some v ∧ NumVal f32 v m.avgLoss)

theorem result_iff (f32 : ℚ → ℚ) (d : Dict) (m : ResultMsg) :
    resultMsg f32 d = .ok m ↔ ResultOf f32 d m := by
  unfold ResultOf
  simp only [← needF_iff]
  constructor
  · intro h
    unfold resultMsg at h
    obtain ⟨a, h1, h⟩ := bind_ok h
    obtain ⟨b, h2, h⟩ := bind_ok h
    obtain ⟨c, h3, h⟩ := bind_ok h
    obtain ⟨e, h4, h⟩ := bind_ok h
    obtain ⟨g, h5, h⟩ := bind_ok h
    cases h
    exact ⟨h1, h2, h3, h4, h5⟩
  · rintro ⟨h1, h2, h3, h4, h5⟩
    unfold resultMsg
    rw [h1, h2, h3, h4, h5]
    rfl

theorem needI_iff (d : Dict) (k : String) (i : ℤ) :
    needI d k = .ok i ↔ ∃ v, get d k = some v ∧ IntVal v i := by
  unfold needI
  constructor
  · intro h
    obtain ⟨v, h1, h2⟩ := bind_ok h
    exact ⟨v, (need_iff _ _ _).mp h1, (msgI_iff _ _).mp h2⟩
  · rintro ⟨v, h1, h2⟩
    rw [(need_iff _ _ _).mpr h1]
    exact (msgI_iff _ _).mpr h2

/-- **C82 (results are written completely).** `to_proto` of inference results succeeds exactly if all keys
are there with values of the right kind, and the message has exactly these values, one result for each
entry and in the same order. -/
theorem C82_to_proto_iff (f32 : ℚ → ℚ) (r : Results) (m : OutMsg) :
    outToProto f32 r = .ok m ↔ ∃ s l, r.runs = some s ∧ s.results = some l ∧ m.schema = 1 ∧ m.opset = 1 ∧
      (∃ v, get s.scalars "inference_repeat" = some v ∧ IntVal v m.repeats) ∧
      (∃ v, get s.scalars "is_partial" = some v ∧ FlagVal v m.isPartial) ∧
      (∃ v, get s.scalars "time_elapsed" = some v ∧ NumVal f32 v m.time) ∧
      List.Forall₂ (ResultOf f32) l m.results := by
  simp only [← needI_iff, ← needB_iff, ← needF_iff]
  constructor
  · intro h
    unfold outToProto at h
    obtain ⟨s, h1, h⟩ := bind_ok h
    obtain ⟨i, h2, h⟩ := bind_ok h
    obtain ⟨p, h3, h⟩ := bind_ok h
    obtain ⟨t, h4, h⟩ := bind_ok h
    obtain ⟨l, h5, h⟩ := bind_ok h
    obtain ⟨ms, h6, h⟩ := bind_ok h
    cases h
    have e1 : r.runs = some s := by
      cases hr : r.runs with
      | none => rw [hr] at h1; cases h1
      | some s' => rw [hr] at h1; cases h1; rfl
    have e2 : s.results = some l := by
      cases hr : s.results with
      | none => rw [hr] at h5; cases h5
      | some l' => rw [hr] at h5; cases h5; rfl
    exact ⟨s, l, e1, e2, rfl, rfl, h2, h3, h4, (mapM_forall₂ h6).imp fun d m h => (result_iff _ _ _).mp h⟩
  · rintro ⟨s, l, e1, e2, hs, ho, h2, h3, h4, h5⟩
    have h6 := forall₂_mapM (h5.imp fun d m h => (result_iff f32 d m).mpr h)
    unfold outToProto
    rw [e1]
    show (needI s.scalars "inference_repeat" >>= _) = _
    rw [h2, h3, h4, e2]
    show ((l.mapM (resultMsg f32)) >>= _) = _
    rw [h6]
    cases m
    simp only at hs ho
    subst hs ho
    rfl

/-- **C82 (reading back).** The dictionary read from the message of results has the same numbers (rounded
to 32 bits), the same flag and repeats, and the results in the same order; it can be written again and
gives the same message. -/
theorem C82_round_trip (f32 : ℚ → ℚ) (hf : ∀ q, f32 (f32 q) = f32 q) (h0 : f32 0 = 0) (r : Results)
    (m : OutMsg) (h : outToProto f32 r = .ok m) : outToProto f32 (outToJson m) = .ok m := by
  obtain ⟨s, l, _, hsl, hs, ho, ⟨v1, _, h1⟩, _, ⟨v3, _, h3⟩, h4⟩ := (C82_to_proto_iff f32 r m).mp h
  have num : ∀ v q, NumVal f32 v q → NumVal f32 (.float q) q := by
    intro v q hq
    refine .inr (.inl ⟨q, rfl, ?_⟩)
    rcases hq with ⟨_, rfl⟩ | ⟨_, _, rfl⟩ | ⟨_, _, rfl⟩ | ⟨_, _, rfl⟩
    · exact h0.symm
    all_goals exact (hf _).symm
  refine (C82_to_proto_iff f32 _ m).mpr ⟨_, _, rfl, rfl, hs, ho, ⟨_, rfl, ?_⟩, ⟨_, rfl, .inr (.inl rfl)⟩,
    ⟨_, rfl, num _ _ h3⟩, ?_⟩
  · refine .inr (.inl ⟨rfl, ?_⟩)
    rcases h1 with ⟨_, h⟩ | ⟨_, h⟩ | ⟨b, _, h⟩
    · rw [h]; norm_num
    · exact h
    · rw [h]; cases b <;> norm_num
  · clear h hsl
    generalize m.results = ms at h4
    induction h4 with
    | nil => exact .nil
    | cons h _ ih =>
      obtain ⟨⟨_, _, a⟩, ⟨_, _, b⟩, ⟨_, _, c⟩, ⟨_, _, d⟩, ⟨_, _, e⟩⟩ := h
      exact .cons ⟨⟨_, rfl, num _ _ a⟩, ⟨_, rfl, num _ _ b⟩, ⟨_, rfl, num _ _ c⟩, ⟨_, rfl, num _ _ d⟩,
        ⟨_, rfl, num _ _ e⟩⟩ ih

/-- The value read back for a written one: an integer or flag comes back as a float in a float field. -/
theorem C82_values (f32 : ℚ → ℚ) (r : Results) (m : OutMsg) (h : outToProto f32 r = .ok m) :
    ∃ s l s' l', r.runs = some s ∧ s.results = some l ∧ (outToJson m).runs = some s' ∧
      s'.results = some l' ∧ l' = resultFromProto m ∧
      (∃ v i, get s.scalars "inference_repeat" = some v ∧ get s'.scalars "inference_repeat" = some (.int i) ∧
        IntVal v i) ∧
      (∃ v b, get s.scalars "is_partial" = some v ∧ get s'.scalars "is_partial" = some (.bool b) ∧
        FlagVal v b) ∧
      (∃ v q, get s.scalars "time_elapsed" = some v ∧ get s'.scalars "time_elapsed" = some (.float q) ∧
        NumVal f32 v q) ∧
      List.Forall₂ (fun (d d' : Dict) =>
        d'.map (·.1) = ["t_inference", "avg_accuracy", "std_accuracy", "avg_error", "avg_loss"] ∧
        ∀ k ∈ ["t_inference", "avg_accuracy", "std_accuracy", "avg_error", "avg_loss"],
          ∃ v q, get d k = some v ∧ get d' k = some (.float q) ∧ NumVal f32 v q) l l' := by
  obtain ⟨s, l, e1, e2, _, _, ⟨v1, g1, h1⟩, ⟨v2, g2, h2⟩, ⟨v3, g3, h3⟩, h4⟩ := (C82_to_proto_iff f32 r m).mp h
  refine ⟨s, l, _, _, e1, e2, rfl, rfl, rfl, ⟨v1, _, g1, rfl, h1⟩, ⟨v2, _, g2, rfl, h2⟩,
    ⟨v3, _, g3, rfl, h3⟩, ?_⟩
  clear h e2
  generalize m.results = ms at h4
  induction h4 with
  | nil => exact .nil
  | cons h _ ih =>
    obtain ⟨⟨v1, a, a'⟩, ⟨v2, b, b'⟩, ⟨v3, c, c'⟩, ⟨v4, d, d'⟩, ⟨v5, e, e'⟩⟩ := h
    refine .cons ⟨rfl, ?_⟩ ih
    intro k hk
    simp only [List.mem_cons, List.not_mem_nil, or_false] at hk
    rcases hk with rfl | rfl | rfl | rfl | rfl
    · exact ⟨v1, _, a, rfl, a'⟩
    · exact ⟨v2, _, b, rfl, b'⟩
    · exact ⟨v3, _, c, rfl, c'⟩
    · exact ⟨v4, _, d, rfl, d'⟩
    · exact ⟨v5, _, e, rfl, e'⟩

theorem put_fold {β γ : Type} (f : β → String × γ) (l : List β) (d : List (String × γ)) (n : String) :
    get (l.foldl (fun acc x => put acc (f x).1 (f x).2) d) n =
      ((l.reverse.find? fun x => (f x).1 = n).map fun x => (f x).2).orElse fun _ => get d n := by
  induction l generalizing d with
  | nil => simp
  | cons a t ih =>
    rw [List.foldl_cons, ih, List.reverse_cons, List.find?_append]
    cases ht : t.reverse.find? (fun x => decide ((f x).1 = n)) with
    | some x => simp
    | none =>
      rw [get_put]
      by_cases ha : (f a).1 = n
      · simp [ha]
      · have ha' : ¬ n = (f a).1 := fun h => ha h.symm
        simp [ha, ha']

/-- **C82 (JSON).** `to_json` keeps all entries of the results and adds the version 1/1, unless the
results have an entry `version`, which wins. -/
theorem C82_json (d : Dict) (hd : (d.map (·.1)).Nodup) :
    (∀ k v, get d k = some v → get (toJson d) k = some (.given v)) ∧
    (get d "version" = none → get (toJson d) "version" = some (.version 1 1)) ∧
    (∀ k, k ≠ "version" → get d k = none → get (toJson d) k = none) := by
  have key := put_fold (fun p : String × Val => (p.1, JVal.given p.2)) d [("version", .version 1 1)]
  have find : ∀ k, d.reverse.find? (fun x => decide (x.1 = k)) = d.find? (fun x => decide (x.1 = k)) := by
    intro k
    have hdr : (d.reverse.map (·.1)).Nodup := by rw [List.map_reverse]; exact List.nodup_reverse.mpr hd
    cases h : d.find? (fun x => decide (x.1 = k)) with
    | none =>
      rw [List.find?_eq_none] at h ⊢
      intro x hx
      exact h x (List.mem_reverse.mp hx)
    | some p =>
      have hp := List.mem_of_find?_eq_some h
      have hk : p.1 = k := by simpa using List.find?_some h
      cases h' : d.reverse.find? (fun x => decide (x.1 = k)) with
      | none =>
        rw [List.find?_eq_none] at h'
        exact absurd hk (by simpa using h' p (List.mem_reverse.mpr hp))
      | some q =>
        have hq := List.mem_reverse.mp (List.mem_of_find?_eq_some h')
        have hk' : q.1 = k := by simpa using List.find?_some h'
        exact congrArg some (List.inj_on_of_nodup_map hd hq hp (hk'.trans hk.symm))
  have all : ∀ k, get (toJson d) k =
      ((get d k).map JVal.given).orElse fun _ => get [("version", JVal.version 1 1)] k := by
    intro k
    unfold toJson
    rw [key k]
    simp only
    rw [find k]
    congr 1
    simp [get, Option.map_map, Function.comp_def]
  refine ⟨?_, ?_, ?_⟩
  · intro k v h; rw [all, h]; rfl
  · intro h; rw [all, h]; rfl
  · intro k hk h
    rw [all, h]
    simp [get, Ne.symm hk]

/-- **C82 (training results).** Every epoch is reported, in order, and each metric with the last of its
values in the message. -/
theorem C82_training (l : List EpochMsg) :
    (trainResults l).1 = (1, 1) ∧
    List.Forall₂ (fun (e : EpochMsg) (d : ℤ × List (String × ℚ)) => d.1 = e.epoch ∧
      ∀ n, get d.2 n = (e.metrics.reverse.find? fun a => a.name = n).map (·.f)) l (trainResults l).2 := by
  refine ⟨rfl, ?_⟩
  show List.Forall₂ _ l (l.map epochDict)
  induction l with
  | nil => exact .nil
  | cons e t ih =>
    refine .cons ⟨rfl, fun n => ?_⟩ ih
    have := put_fold (fun a : Attr => (a.name, a.f)) e.metrics [] n
    simp only [epochDict]
    rw [this]
    cases List.find? (fun x => decide (x.name = n)) e.metrics.reverse <;> rfl

/-- **C82 (analog settings).** The dictionary read from the analog settings gives the same settings. -/
theorem C82_analog_info (f32 : ℚ → ℚ) (hf : ∀ q, f32 (f32 q) = f32 q) (h0 : f32 0 = 0) (d : Dict)
    (hd : (d.map (·.1)).Nodup) (a : AnalogMsg) (h : analogToProto f32 d = .ok a) :
    analogToProto f32 (analogFromProto a) = .ok a := by
  have A := (analog_iff f32 d hd a).mp h
  have int : ∀ v i, IntVal v i → IntVal (.int i) i := by
    intro v i hi
    refine .inr (.inl ⟨rfl, ?_⟩)
    rcases hi with ⟨_, h⟩ | ⟨_, h⟩ | ⟨b, _, h⟩
    · rw [h]; norm_num
    · exact h
    · rw [h]; cases b <;> norm_num
  refine (analog_iff f32 _ (by simp [analogFromProto]) a).mpr ⟨?_, ?_, int _ _ A.adc, int _ _ A.dac⟩
  · intro p hp
    simp only [analogFromProto, List.mem_cons, List.not_mem_nil, or_false] at hp
    rcases hp with rfl | rfl | rfl <;> simp
  · refine .inr (.inl ⟨_, rfl, ?_⟩)
    rcases A.noise with ⟨_, h⟩ | ⟨_, _, h⟩ | ⟨_, _, h⟩ | ⟨_, _, h⟩ <;> rw [h]
    · exact h0.symm
    all_goals exact (hf _).symm

/-- **C82 (noise settings).** The dictionary read from the noise settings gives the same settings, except
that a device other than `pcm` is called `generic`. -/
theorem C82_noise_info (f32 : ℚ → ℚ) (hf : ∀ q, f32 (f32 q) = f32 q) (h0 : f32 0 = 0) (d : Dict)
    (m : NoiseMsg) (h : noiseToProto f32 d = .ok m) :
    ∃ d', noiseFromProto m = .ok d' ∧
      ((∃ n, m = .pcm n ∧ n.deviceId = "pcm" ∧ noiseToProto f32 d' = .ok m) ∨
        ∃ n a b, m = .generic n a b ∧ n.deviceId ≠ "pcm" ∧
          noiseToProto f32 d' = .ok (.generic { n with deviceId := "generic" } a b)) := by
  have num : ∀ v q, NumVal f32 v q → NumVal f32 (.float q) q := by
    intro v q hq
    refine .inr (.inl ⟨q, rfl, ?_⟩)
    rcases hq with ⟨_, rfl⟩ | ⟨_, _, rfl⟩ | ⟨_, _, rfl⟩ | ⟨_, _, rfl⟩
    · exact h0.symm
    all_goals exact (hf _).symm
  obtain ⟨v, hv, ⟨rfl, n, h3, rfl⟩ | ⟨hne, n, a, b, h3, h4, h5, rfl⟩⟩ := (noiseToProto_iff _ _ _).mp h
  · obtain ⟨⟨_, _, p1⟩, ⟨_, _, p2⟩, ⟨_, _, p3⟩, _, ⟨_, _, p5⟩, ⟨_, _, p6⟩, ⟨_, _, p7⟩, p8⟩ :=
      (noiseFields_iff _ _ _ _).mp h3
    have hd : n.deviceId = "pcm" := by
      rcases p8 with ⟨h, _⟩ | h
      · cases h
      · injection h with h; exact h.symm
    refine ⟨_, rfl, .inl ⟨n, rfl, hd, ?_⟩⟩
    refine (noiseToProto_iff _ _ _).mpr ⟨_, rfl, .inl ⟨rfl, n, ?_, rfl⟩⟩
    exact (noiseFields_iff _ _ _ _).mpr ⟨⟨_, rfl, num _ _ p1⟩, ⟨_, rfl, num _ _ p2⟩, ⟨_, rfl, num _ _ p3⟩,
      ⟨_, rfl, .inr (.inl rfl)⟩, ⟨_, rfl, num _ _ p5⟩, ⟨_, rfl, num _ _ p6⟩, ⟨_, rfl, num _ _ p7⟩,
      .inr (by rw [hd])⟩
  · obtain ⟨⟨_, _, p1⟩, ⟨_, _, p2⟩, ⟨_, _, p3⟩, _, ⟨_, _, p5⟩, ⟨_, _, p6⟩, ⟨_, _, p7⟩, p8⟩ :=
      (noiseFields_iff _ _ _ _).mp h3
    have hd : n.deviceId ≠ "pcm" := by
      rcases p8 with ⟨_, h⟩ | h
      · rw [h]; decide
      · intro h'; rw [h'] at h; exact hne h
    obtain ⟨_, _, ha⟩ := (needF_iff _ _ _ _).mp h4
    obtain ⟨_, _, hb⟩ := (needF_iff _ _ _ _).mp h5
    refine ⟨_, rfl, .inr ⟨n, a, b, rfl, hd, ?_⟩⟩
    refine (noiseToProto_iff _ _ _).mpr ⟨_, rfl, .inr ⟨by decide, { n with deviceId := "generic" }, a, b, ?_,
      (needF_iff _ _ _ _).mpr ⟨_, rfl, num _ _ ha⟩, (needF_iff _ _ _ _).mpr ⟨_, rfl, num _ _ hb⟩, rfl⟩⟩
    exact (noiseFields_iff _ _ _ _).mpr ⟨⟨_, rfl, num _ _ p1⟩, ⟨_, rfl, num _ _ p2⟩, ⟨_, rfl, num _ _ p3⟩,
      ⟨_, rfl, .inr (.inl rfl)⟩, ⟨_, rfl, num _ _ p5⟩, ⟨_, rfl, num _ _ p6⟩, ⟨_, rfl, num _ _ p7⟩,
      .inr rfl⟩

end Aihw.Cloud

import Verif.Extra.Dump2

/-!
# Loading what was dumped
-/
namespace Aihw.Extra

theorem wf_append {a b : Dict} (ha : WF a) (hb : WF b) {S T : Key → Prop} (hs : Heads a S) (ht : Heads b T) (h : ∀ k, S k → ¬ T k) :
    WF (a ++ b) := by
  unfold WF
  rw [List.map_append]
  refine List.Nodup.append ha hb ?_
  intro k h1 h2
  rw [← find_isSome_iff] at h1 h2
  exact h _ (hs k h1) (ht k h2)

theorem wf_prefixed (p : Key) {d : Dict} (h : WF d) : WF (prefixed p d) := by
  unfold WF prefixed
  rw [List.map_map]
  have : ((fun x : Key × Vec => x.1) ∘ fun x : Key × Vec => (sub p x.1, x.2)) = (fun k : Key => sub p k) ∘ fun x : Key × Vec => x.1 := rfl
  rw [this, ← List.map_map]
  exact List.Nodup.map (fun a b e => sub_inj p e) h

theorem wf_opt {α : Type} (f : α → Dict) (h : ∀ a, WF (f a)) (a : Option α) : WF (optSpec f a) := by
  cases a with
  | none => exact wf_nil
  | some a => exact h a

theorem Drift.wf (s : Drift) : WF s.spec := by show List.Nodup driftNames; decide
theorem Pwu.wf (s : Pwu) : WF s.spec := by show List.Nodup pwuNames; decide
theorem FbPass.wf (s : FbPass) : WF s.spec := by show List.Nodup (key "aux_nm_value" :: fbKeys); decide
theorem VecSt.wf (s : VecSt) : WF s.spec := by show List.Nodup vecNames; decide
theorem ChopSt.wf (s : ChopSt) : WF s.spec := by show List.Nodup chopNames; decide
theorem DynSt.wf (s : DynSt) : WF s.spec := by show List.Nodup dynNames; decide
theorem TransSt.fields_wf (s : TransSt) : WF s.fields := by
  show List.Nodup [key "current_slice_indices", key "transfer_every"]; decide

theorem driftSpec_wf (d : Option Drift) : WF (driftSpec d) := by
  cases d with
  | none => exact wf_nil
  | some s => exact wf_prefixed _ s.wf

theorem Base.wf (b : Base) : WF b.spec := by
  refine wf_append (?_ : List.Nodup [key "num_states", key "weight_granularity"]) (driftSpec_wf _)
    (S := fun h => h = key "num_states" ∨ h = key "weight_granularity") ?_ (driftSpec_heads _) ?_
  · decide
  · apply heads_fields
    show ∀ x ∈ [head (key "num_states"), head (key "weight_granularity")], _
    decide
  · rintro k (rfl | rfl) <;> decide

/-- Digits of later devices. -/
theorem subsSpec_heads' (bs : List Base) : ∀ k, Heads (subsSpec bs k) (fun h => ∃ j, k ≤ j ∧ h = dec j) := by
  induction bs with
  | nil => intro k; exact heads_nil _
  | cons b bs ih =>
    intro k
    refine heads_append (heads_mono (ih _) ?_) (heads_mono (heads_prefixed (dec_noDot k) _) ?_)
    · rintro x ⟨j, h1, h2⟩
      exact ⟨j, by omega, h2⟩
    · rintro x rfl
      exact ⟨k, le_refl _, rfl⟩

theorem subsSpec_wf (bs : List Base) : ∀ k, WF (subsSpec bs k) := by
  induction bs with
  | nil => intro k; exact wf_nil
  | cons b bs ih =>
    intro k
    refine wf_append (ih _) (wf_prefixed _ b.wf) (subsSpec_heads' _ _) (heads_prefixed (dec_noDot k) _) ?_
    rintro x ⟨j, h1, rfl⟩ e
    have := dec_inj e
    omega

theorem TransSt.own_wf (t : TransSt) : WF t.own := by
  refine wf_append (wf_prefixed _ t.pwu.wf) (wf_append (wf_prefixed _ t.fb.wf) t.fields_wf (heads_prefixed (by decide) _)
    (T := fun h => h = key "current_slice_indices" ∨ h = key "transfer_every") ?_ ?_) (heads_prefixed (by decide) _)
    (T := fun h => h = key "transfer_fb_pass" ∨ h = key "current_slice_indices" ∨ h = key "transfer_every") ?_ ?_
  · apply heads_fields
    show ∀ x ∈ [head (key "current_slice_indices"), head (key "transfer_every")], _
    decide
  · rintro k rfl; decide
  · refine heads_append (heads_mono (heads_prefixed (by decide) _) fun _ h => Or.inl h) ?_
    apply heads_fields
    show ∀ x ∈ [head (key "current_slice_indices"), head (key "transfer_every")], _
    decide
  · rintro k rfl; decide

theorem TransSt.wf (t : TransSt) : WF t.spec := by
  have h1 : ∀ n ∈ chopNames, n ∉ transNames := by decide
  have h2 : ∀ n ∈ dynNames, n ∉ chopNames ++ transNames := by decide
  refine wf_append (wf_opt _ DynSt.wf _) (wf_append (wf_opt _ ChopSt.wf _) t.own_wf (heads_opt _ _ ChopSt.heads) t.own_heads h1)
    (heads_opt _ _ DynSt.heads) (T := fun h => h ∈ chopNames ++ transNames) ?_ h2
  refine heads_append (heads_opt _ _ fun a => heads_mono a.heads ?_) (heads_mono t.own_heads ?_)
  · intro k hk; simp [hk]
  · intro k hk; simp [hk]

theorem cellOwn_wf (bs : List Base) (v : VecSt) : WF (cellOwn bs v) :=
  wf_append v.wf (subsSpec_wf _ _) v.heads (subsSpec_heads _ _) (by decide)

theorem Dev.wf (d : Dev) : WF d.spec := by
  cases d with
  | leaf b => exact b.wf
  | cell b subs v t =>
    have h1 : ∀ n ∈ vecNames, n ∉ baseNames := by decide
    have hD : ∀ n ∈ baseNames, ¬ Digits n := by decide
    have hT : ∀ n ∈ transNames ++ chopNames ++ dynNames, ¬ PlainHead n := by decide
    refine wf_append (wf_opt _ TransSt.wf _) (wf_append (cellOwn_wf _ _) b.wf (cellOwn_heads _ _) b.heads ?_) (heads_opt _ _ TransSt.heads)
      (T := PlainHead) ?_ hT
    · rintro k (hk | hk)
      · exact fun h => hD _ h hk
      · exact h1 _ hk
    · refine heads_append (heads_mono (cellOwn_heads _ _) ?_) (heads_mono b.heads (fun k hk => Or.inr (by simp [hk])))
      rintro k (hk | hk)
      · exact Or.inl hk
      · exact Or.inr (by simp [hk])

theorem mixOwn_wf (d : Dev) (m : MixSt) : WF (mixOwn d m) := by
  refine wf_append (?_ : List.Nodup mixFieldNames) (wf_append (wf_prefixed _ m.pwu.wf) (wf_prefixed _ d.wf) (heads_prefixed (by decide) _)
    (heads_prefixed (by decide) _) ?_) m.heads (T := fun h => h = key "transfer_pwu" ∨ h = key "rpu_device") ?_ ?_
  · decide
  · rintro k rfl; decide
  · refine heads_append (heads_mono (heads_prefixed (by decide) _) fun _ h => Or.inl h) (heads_mono (heads_prefixed (by decide) _) fun _ h => Or.inr h)
  · decide

theorem Top.wf (d : Top) : WF d.spec := by
  cases d with
  | simple dr => exact driftSpec_wf _
  | pulsed d => exact d.wf
  | mixed d m =>
    have h : ∀ n ∈ intNames, ¬ MixHead n := by decide
    exact wf_append (wf_opt _ (fun i => (by show List.Nodup intNames; decide)) _) (mixOwn_wf d m) (heads_opt _ _ intSpec_heads) (mixOwn_heads d m) h

theorem fbSpec_wf (f : Option (Vec × Modif)) : WF (fbSpec f) := by
  cases f with
  | none => exact wf_nil
  | some x =>
    refine wf_append (wf_prefixed _ (?_ : List.Nodup [key "saved_bias", key "enable_during_test"])) (List.nodup_singleton _)
      (heads_prefixed (by decide) _) (T := fun h => h = key "fb_weights") ?_ ?_
    · decide
    · apply heads_fields
      show ∀ y ∈ [head (key "fb_weights")], _
      decide
    · rintro k rfl; decide

theorem bufSpec_wf (d : Bool) (b : Vec) : WF (bufSpec d b) := by
  cases d with
  | false => exact wf_nil
  | true => exact List.nodup_singleton _

theorem Tile.simple_wf (t : Tile) : WF t.simpleSpec := by
  refine wf_append (?_ : List.Nodup tileNames) (wf_append (driftSpec_wf _) (wf_append (bufSpec_wf _ _) (fbSpec_wf _) (bufSpec_heads _ _)
    (fbSpec_heads _) ?_) (driftSpec_heads _)
      (T := fun h => h = key "weights_buffer" ∨ h = key "fb_weights" ∨ h = key "fb_weight_modifier") ?_ ?_) t.fields_heads
      (T := fun h => h = key "wdrifter" ∨ h = key "weights_buffer" ∨ h = key "fb_weights" ∨ h = key "fb_weight_modifier") ?_ ?_
  · decide
  · rintro k rfl; decide
  · refine heads_append (heads_mono (bufSpec_heads _ _) fun _ h => Or.inl h) (heads_mono (fbSpec_heads _) fun _ h => Or.inr h)
  · rintro k rfl; decide
  · refine heads_append (heads_mono (driftSpec_heads _) fun _ h => Or.inl h) (heads_append (heads_mono (bufSpec_heads _ _) fun _ h =>
      Or.inr (Or.inl h)) (heads_mono (fbSpec_heads _) fun _ h => Or.inr (Or.inr h)))
  · decide

theorem PulsedSt.wf (s : PulsedSt) : WF s.spec := by
  refine wf_append (wf_prefixed _ s.dev.wf) (wf_append (wf_prefixed _ s.fb.wf) (wf_prefixed _ s.pwu.wf) (heads_prefixed (by decide) _)
    (heads_prefixed (by decide) _) ?_) (heads_prefixed (by decide) _) (T := fun h => h = key "fb_pass" ∨ h = key "pwu") ?_ ?_
  · rintro k rfl; decide
  · refine heads_append (heads_mono (heads_prefixed (by decide) _) fun _ h => Or.inl h) (heads_mono (heads_prefixed (by decide) _) fun _ h => Or.inr h)
  · rintro k rfl; decide

theorem Tile.wf (t : Tile) : WF t.spec := by
  refine wf_append (wf_opt _ PulsedSt.wf _) t.simple_wf (heads_opt _ _ PulsedSt.heads) t.simple_heads ?_
  rintro k (rfl | rfl | rfl) <;> decide

/-! ## Dictionaries that contain given entries -/

def Has (st spec : Dict) : Prop := ∀ x ∈ spec, find st x.1 = some x.2

theorem has_of_find {st spec : Dict} (hw : WF spec) (h : ∀ q, find st q = find spec q) : Has st spec := by
  intro x hx
  rw [h]
  exact (find_eq_some_iff hw _ _).2 hx

theorem has_append {st a b : Dict} (h : Has st (a ++ b)) : Has st a ∧ Has st b :=
  ⟨fun x hx => h x (List.mem_append_left _ hx), fun x hx => h x (List.mem_append_right _ hx)⟩

theorem has_prefixed {st : Dict} {p : Key} {d : Dict} (h : Has st (prefixed p d)) : Has (selectWithPrefix st p) d := by
  intro x hx
  rw [find_select]
  exact h (sub p x.1, x.2) (List.mem_map_of_mem (f := fun x : Key × Vec => (sub p x.1, x.2)) hx)

theorem has_cons {st d : Dict} {x : Key × Vec} (h : Has st (x :: d)) : find st x.1 = some x.2 ∧ Has st d :=
  ⟨h x List.mem_cons_self, fun y hy => h y (List.mem_cons_of_mem _ hy)⟩

theorem loadV_of {st : Dict} {k : Key} {v : Vec} (h : find st k = some v) (old : Vec) (strict : Bool) : loadV st k old strict = .ok v := by
  unfold loadV; rw [h]

theorem load1_of {α : Type} (dec : ℚ → α) {st : Dict} {k : Key} {x : ℚ} (h : find st k = some [x]) (old : α) (strict : Bool) :
    load1 dec st k old strict = .ok (dec x) := by
  unfold load1; rw [h]

theorem loadL_of {α : Type} (dec : ℚ → α) {st : Dict} {k : Key} {v : Vec} (h : find st k = some v) (old : List α) (strict : Bool) :
    loadL dec st k old strict = .ok (v.map dec) := by
  unfold loadL; rw [h]

theorem decB_encB (b : Bool) : decB (encB b) = b := by cases b <;> simp [decB, encB]

theorem decI_encI (n : Int) : decI (encI n) = n := by
  unfold decI encI
  split
  · rw [← Int.cast_neg, Int.floor_intCast, neg_neg]
  · exact Int.floor_intCast n

theorem map_decB (l : List Bool) : (l.map encB).map decB = l := by
  rw [List.map_map]
  conv_rhs => rw [← List.map_id l]
  exact List.map_congr_left fun b _ => decB_encB b

theorem map_decI (l : List Int) : (l.map encI).map decI = l := by
  rw [List.map_map]
  conv_rhs => rw [← List.map_id l]
  exact List.map_congr_left fun b _ => decI_encI b

theorem Drift.load_of (s r : Drift) {extra : Dict} {p : Key} (strict : Bool) (h : Has (selectWithPrefix extra p) s.spec) :
    r.load extra p strict = .ok s := by
  unfold Drift.spec at h
  obtain ⟨h1, h⟩ := has_cons h
  obtain ⟨h2, h⟩ := has_cons h
  obtain ⟨h3, h⟩ := has_cons h
  obtain ⟨h4, h⟩ := has_cons h
  obtain ⟨h5, h⟩ := has_cons h
  obtain ⟨h6, h⟩ := has_cons h
  unfold Drift.load
  simp only [loadV_of h3, loadV_of h4, loadV_of h5, loadV_of h6, load1_of _ h2, load1_of _ h1, ok_bind', decB_encB]
  rfl

theorem FbPass.load_of (s r : FbPass) {extra : Dict} {p : Key} (strict : Bool) (h : Has (selectWithPrefix extra p) s.spec) :
    r.load extra p strict = .ok s := by
  unfold FbPass.spec at h
  obtain ⟨ha, h⟩ := has_append h
  obtain ⟨a1, _⟩ := has_cons ha
  unfold FbPass.spec1 at h
  obtain ⟨h1, h⟩ := has_cons h
  obtain ⟨h2, h⟩ := has_cons h
  obtain ⟨h3, h⟩ := has_cons h
  obtain ⟨h4, h⟩ := has_cons h
  obtain ⟨h5, h⟩ := has_cons h
  obtain ⟨g1, h⟩ := has_cons h
  obtain ⟨g2, h⟩ := has_cons h
  obtain ⟨g3, h⟩ := has_cons h
  obtain ⟨g4, h⟩ := has_cons h
  obtain ⟨g5, h⟩ := has_cons h
  unfold FbPass.load
  simp only [loadV_of h1, loadV_of h2, loadV_of h3, load1_of _ h4, loadV_of h5, loadV_of g1, loadV_of g2, loadV_of g3, load1_of _ g4,
    loadV_of g5, load1_of _ a1, ok_bind']
  rfl

theorem Pwu.load_of (s r : Pwu) (junk : Bool) {extra : Dict} {p : Key} (strict : Bool) (h : Has (selectWithPrefix extra p) s.spec) :
    r.load junk extra p strict = .ok { s with alloc := r.alloc || s.alloc } := by
  unfold Pwu.spec at h
  obtain ⟨h1, h⟩ := has_cons h
  obtain ⟨h2, h⟩ := has_cons h
  obtain ⟨h3, h⟩ := has_cons h
  unfold Pwu.load
  simp only [load1_of _ h1, load1_of _ h2, load1_of _ h3, ok_bind', decB_encB, decI_encI]
  rfl

theorem loadDrift_of (s r : Option Drift) (hs : r.isSome = s.isSome) {extra : Dict} {p : Key} (strict : Bool)
    (h : Has (selectWithPrefix extra p) (driftSpec s)) : loadDrift extra p strict r = .ok s := by
  cases s with
  | none =>
    cases r with
    | none => rfl
    | some r => cases hs
  | some s =>
    cases r with
    | none => cases hs
    | some r =>
      unfold loadDrift
      show (r.load _ _ _).map some = _
      rw [Drift.load_of s r strict (has_prefixed h)]
      rfl

theorem Base.load_of (s r : Base) (hs : r.drift.isSome = s.drift.isSome) {extra : Dict} {p : Key} (strict : Bool)
    (h : Has (selectWithPrefix extra p) s.spec) : r.load extra p strict = .ok s := by
  unfold Base.spec at h
  obtain ⟨ha, hb⟩ := has_append h
  obtain ⟨h1, ha⟩ := has_cons ha
  obtain ⟨h2, ha⟩ := has_cons ha
  unfold Base.load
  simp only [loadDrift_of _ _ hs strict hb, load1_of _ h1, load1_of _ h2, ok_bind']
  rfl

theorem ChopSt.load_of (s r : ChopSt) {extra : Dict} {p : Key} (strict : Bool) (h : Has (selectWithPrefix extra p) s.spec) :
    ChopSt.load extra p strict r = .ok s := by
  unfold ChopSt.spec at h
  obtain ⟨h1, h⟩ := has_cons h
  obtain ⟨h2, h⟩ := has_cons h
  obtain ⟨h3, h⟩ := has_cons h
  obtain ⟨h4, h⟩ := has_cons h
  obtain ⟨h5, h⟩ := has_cons h
  obtain ⟨h6, h⟩ := has_cons h
  obtain ⟨h7, h⟩ := has_cons h
  unfold ChopSt.load
  simp only [loadL_of _ h1, loadL_of _ h2, load1_of _ h3, load1_of _ h4, load1_of _ h5, load1_of _ h6, load1_of _ h7, ok_bind', map_decB, decI_encI]
  rfl

theorem DynSt.load_of (s r : DynSt) {extra : Dict} {p : Key} (strict : Bool) (h : Has (selectWithPrefix extra p) s.spec) :
    DynSt.load extra p strict r = .ok s := by
  unfold DynSt.spec at h
  obtain ⟨h1, h⟩ := has_cons h
  obtain ⟨h2, h⟩ := has_cons h
  obtain ⟨h3, h⟩ := has_cons h
  obtain ⟨h4, h⟩ := has_cons h
  unfold DynSt.load
  simp only [loadL_of _ h1, load1_of _ h2, loadV_of h3, load1_of _ h4, ok_bind', map_decB, decI_encI]
  rfl

theorem loadOpt_of {α : Type} (f : α → Except PyErr α) (g : α → α → α) (s r : Option α) (hs : r.isSome = s.isSome)
    (h : ∀ a b, s = some a → r = some b → f b = .ok (g a b)) : loadOpt f r = .ok (s.bind fun a => r.map fun b => g a b) := by
  cases s with
  | none =>
    cases r with
    | none => rfl
    | some r => cases hs
  | some s =>
    cases r with
    | none => cases hs
    | some r =>
      show (f r).map some = _
      rw [h s r rfl rfl]
      rfl

/-- What a transfer device holds after loading: its own transfer vectors, the rest from the saved device. -/
def TransSt.restored (s r : TransSt) : TransSt := { s with vecs := r.vecs, pwu := { s.pwu with alloc := r.pwu.alloc || s.pwu.alloc } }

theorem TransSt.load_of (s r : TransSt) (junk : Bool) (hc : r.chop.isSome = s.chop.isSome) (hd : r.dyn.isSome = s.dyn.isSome)
    {extra : Dict} {p : Key} (strict : Bool) (h : Has (selectWithPrefix extra p) s.spec)
    (hn : find (selectWithPrefix extra p) (key "transfer_vecs") = none) :
    TransSt.load junk extra p strict r = .ok (s.restored r) := by
  unfold TransSt.spec at h
  obtain ⟨h1, h⟩ := has_append h
  obtain ⟨h2, h⟩ := has_append h
  obtain ⟨h3, h⟩ := has_append h
  obtain ⟨h4, h⟩ := has_append h
  unfold TransSt.fields at h
  obtain ⟨h5, h⟩ := has_cons h
  obtain ⟨h6, h⟩ := has_cons h
  have hv : loadV (selectWithPrefix extra p) (key "transfer_vecs") r.vecs false = .ok r.vecs := by
    unfold loadV; rw [hn]; rfl
  have hcl : loadOpt (ChopSt.load extra p strict) r.chop = .ok s.chop := by
    rw [loadOpt_of _ (fun a _ => a) s.chop r.chop hc]
    · cases hsc : s.chop with
      | none => rfl
      | some a =>
        rw [hsc] at hc
        obtain ⟨b, hb⟩ := Option.isSome_iff_exists.1 hc
        rw [hb]; rfl
    · intro a b ha _
      rw [ha] at h2
      exact ChopSt.load_of a b strict h2
  have hdl : loadOpt (DynSt.load extra p strict) r.dyn = .ok s.dyn := by
    rw [loadOpt_of _ (fun a _ => a) s.dyn r.dyn hd]
    · cases hsc : s.dyn with
      | none => rfl
      | some a =>
        rw [hsc] at hd
        obtain ⟨b, hb⟩ := Option.isSome_iff_exists.1 hd
        rw [hb]; rfl
    · intro a b ha _
      rw [ha] at h1
      exact DynSt.load_of a b strict h1
  unfold TransSt.load
  simp only [loadL_of _ h5, hv, loadV_of h6, FbPass.load_of _ _ strict (has_prefixed h4), Pwu.load_of _ _ junk strict (has_prefixed h3), hcl, hdl,
    ok_bind', map_decI]
  rfl

end Aihw.Extra

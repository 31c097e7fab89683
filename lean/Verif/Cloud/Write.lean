import Verif.Cloud.Item

/-! # When a layer can be written (C79, C80) -/
namespace Aihw.Cloud
open Aihw

theorem in64_iff (i : ℤ) : in64 i = true ↔ -2 ^ 63 ≤ i ∧ i < 2 ^ 63 := by
  unfold in64
  simp

theorem store_iff (f32 : ℚ → ℚ) (n : String) (ty : Ty) (v : Val) :
    (∃ a, store f32 n ty v = .ok a) ↔ Fits ty v := by
  cases ty with
  | int =>
    cases v <;> simp only [store, asInt, Fits, reduceCtorEq, false_and, exists_false, or_false, false_or,
      Val.int.injEq, Val.bool.injEq, exists_eq']
    · rename_i i
      by_cases h : in64 i = true
      · rw [if_pos h]
        exact ⟨fun _ => ⟨i, rfl, (in64_iff i).mp h⟩, fun _ => ⟨_, rfl⟩⟩
      · rw [if_neg h]
        constructor
        · rintro ⟨a, h'⟩; cases h'
        · rintro ⟨j, rfl, h'⟩; exact absurd ((in64_iff _).mpr h') h
    · rename_i b
      cases b <;> simp [in64]
  | bool => cases v <;> simp [store, asInt, Fits]
  | str => cases v <;> simp [store, Fits]
  | float => cases v <;> simp [store, asFloat, Fits]
  | ints =>
    cases v <;> simp only [store, asInts, Fits, reduceCtorEq, false_and, exists_false, or_false, false_or,
      Val.int.injEq, Val.bool.injEq, Val.ints.injEq, exists_eq']
    · rename_i i
      by_cases h : in64 i = true
      · rw [if_pos (by simp [h])]
        exact ⟨fun _ => ⟨i, rfl, (in64_iff i).mp h⟩, fun _ => ⟨_, rfl⟩⟩
      · rw [if_neg (by simp [h])]
        constructor
        · rintro ⟨a, h'⟩; cases h'
        · rintro ⟨j, rfl, h'⟩; exact absurd ((in64_iff _).mpr h') h
    · rename_i b
      cases b <;> simp [in64]
    · rename_i l
      by_cases h : l.all in64 = true
      · rw [if_pos h]
        refine ⟨fun _ => ⟨l, rfl, fun i hi => ?_⟩, fun _ => ⟨_, rfl⟩⟩
        exact (in64_iff i).mp (List.all_eq_true.mp h i hi)
      · rw [if_neg h]
        constructor
        · rintro ⟨a, h'⟩; cases h'
        · rintro ⟨j, rfl, h'⟩
          exact absurd (List.all_eq_true.mpr fun i hi => (in64_iff i).mpr (h' i hi)) h

theorem mapM_total {β γ : Type} {f : β → Except Err γ} {l : List β} (h : ∀ x ∈ l, ∃ y, f x = .ok y) :
    ∃ r, l.mapM f = .ok r := by
  induction l with
  | nil => exact ⟨[], rfl⟩
  | cons x t ih =>
    obtain ⟨y, hy⟩ := h x (by simp)
    obtain ⟨r, hr⟩ := ih fun z hz => h z (by simp [hz])
    exact ⟨y :: r, by rw [List.mapM_cons, hy, hr]; rfl⟩

theorem inFormat_iff (k : Kind) (c : Cls) :
    InFormat k c ↔ ∃ args, layerArgs k c = some args ∨ actArgs c = some args := by
  cases k <;> cases c <;> simp [InFormat, layerArgs, actArgs]

theorem supported_iff (k : Kind) (c : Cls) : supported k c = true ↔ InFormat k c := by
  cases k <;> cases c <;> simp [InFormat, supported, layerArgs, actArgs]

/-- The arguments `rpu_config` and `weight_scaling_omega` have their types. -/
theorem special_types {k : Kind} {c : Cls} {args : List (String × Ty)}
    (h : layerArgs k c = some args ∨ actArgs c = some args) :
    ∀ p ∈ args, (p.1 = "rpu_config" → p.2 = .str ∧ c.isAnalog = true) ∧
      (p.1 = "weight_scaling_omega" → p.2 = .float ∧ c.isAnalog = true ∧ k = .training) ∧
      (p.1 = "bias" → p.2 = .bool) := by
  cases k <;> cases c <;> rcases h with h | h <;>
    first
    | (simp only [layerArgs, actArgs, reduceCtorEq, if_false, if_true] at h; done)
    | (simp only [layerArgs, actArgs, reduceCtorEq, if_false, if_true, Option.some.injEq] at h
       subst h
       decide)

theorem written_of_writable (f32 : ℚ → ℚ) {k : Kind} {o : Obj} {args : List (String × Ty)}
    (hargs : layerArgs k o.cls = some args ∨ actArgs o.cls = some args) (W : Writable k o) :
    ∀ p ∈ args, ∃ a, layerAttr f32 k o p = .ok a := by
  intro p hp
  have F := facts hargs
  obtain ⟨s1, s2, s3⟩ := special_types hargs p hp
  obtain ⟨n, ty⟩ := p
  have bindOk : ∀ v, layerField k o n = .ok v → Fits ty v → ∃ a, layerAttr f32 k o (n, ty) = .ok a := by
    intro v hv hf
    obtain ⟨a, ha⟩ := (store_iff f32 n ty v).mpr hf
    refine ⟨a, ?_⟩
    unfold layerAttr
    rw [hv]
    exact ha
  rcases F.others _ hp with h | ⟨h, _⟩ | h | h
  · obtain ⟨_, c2, c3, c4, _⟩ := F.carriedArgs _ h
    obtain ⟨v, hv, hf⟩ := W.carried n ty h
    exact bindOk v (by rw [layerField_plain k o c2 c3 c4]; simp [plainField, hv]) hf
  · have ht := s3 h
    simp only at h ht
    subst h ht
    exact bindOk _ (by unfold layerField; rw [if_pos rfl]) (.inl ⟨_, rfl⟩)
  · obtain ⟨ht, hA⟩ := s1 h
    simp only at h ht
    subst h ht
    obtain ⟨d, s, h1, h2, h3⟩ := W.cfg hA
    replace h3 : s ∈ presets k := by cases k <;> exact h3
    refine bindOk (.str s) ?_ ⟨s, rfl⟩
    unfold layerField
    rw [if_neg (by decide), if_neg (by simp), if_pos rfl]
    simp [cfgField, h1, h2, presetName, h3]
  · obtain ⟨ht, hA, hk⟩ := s2 h
    simp only at h ht
    subst h ht hk
    obtain ⟨d, s, h1, h2, h3⟩ := W.cfg hA
    refine bindOk (.float d.omega) ?_ (.inl ⟨_, rfl⟩)
    unfold layerField
    rw [if_neg (by decide), if_pos (by simp)]
    simp [omegaField, h1]

/-- A layer can be written exactly if it is writable. -/
theorem item_iff (f32 : ℚ → ℚ) (k : Kind) (o : Obj) : (∃ it, itemOf f32 k o = .ok it) ↔ Writable k o := by
  constructor
  · rintro ⟨it, h⟩
    obtain ⟨args, l, hargs, hw, _⟩ := item_written h
    have F := facts hargs
    refine ⟨(inFormat_iff k _).mpr ⟨args, hargs⟩, ?_, ?_⟩
    · intro n ty hm
      obtain ⟨c1, c2, c3, c4, _, _, c7⟩ := F.carriedArgs _ hm
      have hga := get_of_mem F.nodup c1
      rcases written_named layerAttr_name hw n with ⟨h', _⟩ | ⟨ty', a, h1, h2, h3⟩
      · rw [hga] at h'; cases h'
      · rw [hga] at h1; cases h1
        obtain ⟨v, hv, hs⟩ := layerAttr_ok h3
        rw [layerField_plain k o c2 c3 c4] at hv
        cases hv
        have hf := (store_iff f32 n ty _).mp ⟨a, hs⟩
        cases hg : get o.attrs n with
        | some v => exact ⟨v, rfl, by simpa [plainField, hg] using hf⟩
        | none =>
          exfalso
          have e : plainField o n = .none := by simp [plainField, hg]
          rw [e] at hf
          cases ty <;> simp [Fits] at hf
    · intro hA
      obtain ⟨d, s, h1, h2, h3, _⟩ := (item_reload (dflt := fun _ => ⟨.user 0, 0, none, true, 0, 0, 0,
        .default, true⟩) (mk := fun _ => .error .conversion) h).2 hA
      exact ⟨d, s, h1, h2, by cases k <;> exact h3⟩
  · intro W
    obtain ⟨args, hargs⟩ := (inFormat_iff k _).mp W.cls
    have ht := written_of_writable f32 hargs W
    unfold itemOf
    cases hl : layerArgs k o.cls with
    | some args' =>
      have e : args = args' := by
        rcases hargs with h | h
        · rw [hl] at h; exact (Option.some.inj h).symm
        · exfalso; revert h hl; cases k <;> cases o.cls <;> simp [layerArgs, actArgs]
      subst e
      obtain ⟨l, hl'⟩ := mapM_total ht
      exact ⟨.layer o.cls.id l, by simp only [layerToProto]; rw [hl']; rfl⟩
    | none =>
      rcases hargs with h | h
      · rw [hl] at h; cases h
      · rw [h]
        have hp := act_plain h
        have : ∀ p ∈ args, ∃ a, store f32 p.1 p.2 (plainField o p.1) = .ok a := by
          intro p hpm
          obtain ⟨a, ha⟩ := ht p hpm
          obtain ⟨v, hv, hs⟩ := layerAttr_ok ha
          obtain ⟨h2, h3, h4⟩ := hp p hpm
          rw [layerField_plain k o h2 h3 h4] at hv
          cases hv
          exact ⟨a, hs⟩
        obtain ⟨l, hl'⟩ := mapM_total this
        exact ⟨.act o.cls.id l, by simp only [actToProto]; rw [hl']; rfl⟩

/-! ## Models -/

theorem children_sub (l : List (Nat × Obj)) : List.Sublist (children l) l := by
  induction l with
  | nil => exact .slnil
  | cons p t ih => exact .cons_cons p (List.filter_sublist.trans ih)

theorem children_nodup (l : List (Nat × Obj)) : ((children l).map (·.1)).Nodup := by
  induction l with
  | nil => exact List.nodup_nil
  | cons p t ih =>
    rw [children, List.map_cons, List.nodup_cons]
    refine ⟨?_, ih.sublist (List.filter_sublist.map _)⟩
    intro h
    obtain ⟨q, hq, e⟩ := List.mem_map.mp h
    have := (List.mem_filter.mp hq).2
    simp at this
    exact this e

theorem children_complete (l : List (Nat × Obj)) : ∀ p ∈ l, p.1 ∈ (children l).map (·.1) := by
  induction l with
  | nil => simp
  | cons q t ih =>
    intro p hp
    rw [children, List.map_cons]
    by_cases h : p.1 = q.1
    · rw [h]; simp
    · rcases List.mem_cons.mp hp with rfl | hp
      · exact absurd rfl h
      · obtain ⟨r, hr, e⟩ := List.mem_map.mp (ih p hp)
        refine List.mem_cons_of_mem _ (List.mem_map.mpr ⟨r, List.mem_filter.mpr ⟨hr, ?_⟩, e⟩)
        simp only [decide_eq_true_eq, ne_eq]
        rw [e]
        exact h

theorem children_eq {l : List (Nat × Obj)} (h : (l.map (·.1)).Nodup) : children l = l := by
  induction l with
  | nil => rfl
  | cons p t ih =>
    rw [List.map_cons, List.nodup_cons] at h
    rw [children, ih h.2, List.filter_eq_self.mpr]
    intro q hq
    simp only [decide_eq_true_eq, ne_eq]
    intro e
    exact h.1 (List.mem_map.mpr ⟨q, hq, e⟩)

theorem model_iff (f32 : ℚ → ℚ) (k : Kind) (m : Model) :
    (∃ r, modelToProto f32 k m = .ok r) ↔ ∃ l, m = .seq l ∧ ∀ p ∈ children l, Writable k p.2 := by
  cases m with
  | other n => simp [modelToProto]
  | seq l =>
    constructor
    · rintro ⟨r, h⟩
      refine ⟨l, rfl, ?_⟩
      simp only [modelToProto] at h
      by_cases hs : ((children l).any fun p => !supported k p.2.cls) = true
      · rw [if_pos hs] at h; cases h
      · rw [if_neg hs] at h
        intro p hp
        have hf := mapM_forall₂ h
        obtain ⟨y, hy, h'⟩ : ∃ y ∈ r, itemOf f32 k p.2 = .ok y := by
          clear h hs
          generalize children l = cl at hf hp
          induction hf with
          | nil => cases hp
          | @cons x y t r h1 _ ih =>
            rcases List.mem_cons.mp hp with rfl | hp
            · exact ⟨y, by simp, h1⟩
            · obtain ⟨z, hz, hz'⟩ := ih hp
              exact ⟨z, by simp [hz], hz'⟩
        exact (item_iff f32 k _).mp ⟨y, h'⟩
    · rintro ⟨l', h, hw⟩
      cases h
      simp only [modelToProto]
      rw [if_neg]
      · exact mapM_total fun p hp => (item_iff f32 k p.2).mpr (hw p hp)
      · intro h
        obtain ⟨p, hp, h⟩ := List.any_eq_true.mp h
        have := (supported_iff k p.2.cls).mpr (hw p hp).cls
        rw [this] at h
        cases h

theorem model_written {f32 : ℚ → ℚ} {k : Kind} {m : Model} {r : List Item}
    (h : modelToProto f32 k m = .ok r) :
    ∃ l, m = .seq l ∧ List.Forall₂ (fun (p : Nat × Obj) it => itemOf f32 k p.2 = .ok it) (children l) r := by
  cases m with
  | other n => cases h
  | seq l =>
    refine ⟨l, rfl, ?_⟩
    simp only [modelToProto] at h
    by_cases hs : ((children l).any fun p => !supported k p.2.cls) = true
    · rw [if_pos hs] at h; cases h
    · rw [if_neg hs] at h
      exact mapM_forall₂ h

theorem number_snd {α : Type} (n : Nat) (l : List α) : (number n l).map (·.2) = l := by
  induction l generalizing n with
  | nil => rfl
  | cons a t ih => simp [number, ih]

theorem number_ge {α : Type} (n : Nat) (l : List α) : ∀ p ∈ number n l, n ≤ p.1 := by
  induction l generalizing n with
  | nil => simp [number]
  | cons a t ih =>
    intro p hp
    rcases List.mem_cons.mp hp with rfl | hp
    · exact Nat.le_refl _
    · exact Nat.le_of_succ_le (ih (n + 1) p hp)

theorem number_nodup {α : Type} (n : Nat) (l : List α) : ((number n l).map (·.1)).Nodup := by
  induction l generalizing n with
  | nil => exact List.nodup_nil
  | cons a t ih =>
    rw [number, List.map_cons, List.nodup_cons]
    refine ⟨?_, ih _⟩
    intro h
    obtain ⟨p, hp, e⟩ := List.mem_map.mp h
    have := number_ge (n + 1) t p hp
    simp only at e
    omega

end Aihw.Cloud

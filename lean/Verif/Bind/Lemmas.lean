import Verif.Bind.Spec

/-!
# Lemmas on the conversion loops
-/
namespace Aihw.Bind

theorem getE_entries (L : Lib) (dt : DType) (n : String) : ∀ d : Dict,
    getE (entries L dt d) n = (d.get n).map fun v => { name := n, val := v, conv := conv L dt v }
  | .nil => rfl
  | .cons k v d => by
    show (if k = n then some _ else getE (entries L dt d) n) = (if k = n then some v else d.get n).map _
    by_cases h : k = n
    · rw [if_pos h, if_pos h, h]; rfl
    · rw [if_neg h, if_neg h, getE_entries L dt n d]

theorem lastOf_append (a b : List (String × BVal)) (n : String) :
    lastOf (a ++ b) n = (lastOf b n).or (lastOf a n) := by
  induction a with
  | nil => show lastOf b n = _; cases lastOf b n <;> rfl
  | cons x a ih =>
    show (lastOf (a ++ b) n).or _ = _
    rw [ih]
    show _ = (lastOf b n).or ((lastOf a n).or _)
    cases lastOf b n <;> rfl

theorem lastOf_mem {l : List (String × BVal)} {n : String} {b : BVal} (h : lastOf l n = some b) : (n, b) ∈ l := by
  induction l with
  | nil => cases h
  | cons x l ih =>
    change (lastOf l n).or _ = some b at h
    cases e : lastOf l n with
    | some c =>
      rw [e] at h
      simp only [Option.some_or, Option.some.injEq] at h
      subst h
      exact List.mem_cons_of_mem _ (ih e)
    | none =>
      rw [e] at h
      simp only [Option.none_or] at h
      by_cases hx : x.1 = n
      · rw [if_pos hx] at h
        simp only [Option.some.injEq] at h
        rw [← hx, ← h]
        exact List.mem_cons_self
      · rw [if_neg hx] at h; cases h

theorem lastOf_of_mem {l : List (String × BVal)} {n : String} {b : BVal} (h : (n, b) ∈ l) :
    ∃ c : BVal, lastOf l n = some c := by
  induction l with
  | nil => cases h
  | cons x l ih =>
    show ∃ c : BVal, (lastOf l n).or _ = some c
    cases e : lastOf l n with
    | some c => exact ⟨c, rfl⟩
    | none =>
      rcases List.mem_cons.1 h with h | h
      · subst h
        exact ⟨b, by simp⟩
      · obtain ⟨c, hc⟩ := ih h
        rw [hc] at e; cases e

theorem lastOf_none {l : List (String × BVal)} {n : String} (h : ∀ b : BVal, (n, b) ∉ l) : lastOf l n = none := by
  cases e : lastOf l n with
  | none => rfl
  | some b => exact absurd (lastOf_mem e) (h b)

/-- One successful assignment. -/
theorem setAttr_ok {L : Lib} {c : String} {attrs attrs' : List (String × BVal)} {n : String} {b : BVal}
    (h : setAttr L c attrs n b = .ok attrs') : attrs' = attrs ++ [(n, b)] ∧ L.accepts c n b = none := by
  unfold setAttr at h
  cases e : L.accepts c n b with
  | some x => rw [e] at h; cases h
  | none =>
    rw [e] at h
    simp only [Except.ok.injEq] at h
    exact ⟨h.symm, rfl⟩

/-- The loop over the fields succeeds exactly when each field does, and the assignments are those of
the transferred fields in order. -/
theorem fieldLoop_ok (L : Lib) (c : String) (ign : List String) (es : List Entry) (fs : List Fld) :
    ∀ attrs attrs' : List (String × BVal), fieldLoop L c ign es fs attrs = .ok attrs' →
      ∃ add : List (String × BVal), attrs' = attrs ++ add ∧
        (∀ f ∈ fs, ∃ e : Entry, getE es f.name = some e ∧
          (fieldConv ign f e = none ∨ ∃ b : BVal, fieldConv ign f e = some (.ok b) ∧ (f.name, b) ∈ add ∧
            L.accepts c f.name b = none)) ∧
        (∀ nb ∈ add, ∃ f ∈ fs, f.name = nb.1 ∧ ∃ e : Entry, getE es f.name = some e ∧
          fieldConv ign f e = some (.ok nb.2)) := by
  induction fs with
  | nil =>
    intro attrs attrs' h
    simp only [fieldLoop, Except.ok.injEq] at h
    exact ⟨[], by rw [h, List.append_nil], fun f hf => absurd hf List.not_mem_nil, fun f hf => absurd hf List.not_mem_nil⟩
  | cons f fs ih =>
    intro attrs attrs' h
    unfold fieldLoop at h
    cases e : getE es f.name with
    | none => rw [e] at h; cases h
    | some en =>
      rw [e] at h
      simp only at h
      cases e2 : fieldConv ign f en with
      | none =>
        rw [e2] at h
        simp only at h
        obtain ⟨add, h1, h2, h3⟩ := ih attrs attrs' h
        refine ⟨add, h1, ?_, ?_⟩
        · intro g hg
          rcases List.mem_cons.1 hg with hg | hg
          · subst hg
            exact ⟨en, e, Or.inl e2⟩
          · exact h2 g hg
        · intro nb hnb
          obtain ⟨g, hg, r⟩ := h3 nb hnb
          exact ⟨g, List.mem_cons_of_mem _ hg, r⟩
      | some r =>
        rw [e2] at h
        cases r with
        | error x => cases h
        | ok b =>
          simp only at h
          cases e3 : setAttr L c attrs f.name b with
          | error x => rw [e3] at h; cases h
          | ok a1 =>
            rw [e3] at h
            simp only at h
            obtain ⟨hs1, hs2⟩ := setAttr_ok e3
            obtain ⟨add, h1, h2, h3⟩ := ih a1 attrs' h
            refine ⟨(f.name, b) :: add, by rw [h1, hs1, List.append_assoc]; rfl, ?_, ?_⟩
            · intro g hg
              rcases List.mem_cons.1 hg with hg | hg
              · subst hg
                exact ⟨en, e, Or.inr ⟨b, e2, List.mem_cons_self, hs2⟩⟩
              · obtain ⟨eg, q1, q2⟩ := h2 g hg
                refine ⟨eg, q1, q2.imp id ?_⟩
                rintro ⟨b', r1, r2, r3⟩
                exact ⟨b', r1, List.mem_cons_of_mem _ r2, r3⟩
            · intro nb hnb
              rcases List.mem_cons.1 hnb with hnb | hnb
              · subst hnb
                exact ⟨f, List.mem_cons_self, rfl, en, e, e2⟩
              · obtain ⟨g, hg, r⟩ := h3 nb hnb
                exact ⟨g, List.mem_cons_of_mem _ hg, r⟩

/-- Conversely, if every field is skipped or converted and accepted, the loop succeeds. -/
theorem fieldLoop_total (L : Lib) (c : String) (ign : List String) (es : List Entry) (fs : List Fld)
    (h : ∀ f ∈ fs, ∃ e : Entry, getE es f.name = some e ∧
      (fieldConv ign f e = none ∨ ∃ b : BVal, fieldConv ign f e = some (.ok b) ∧ L.accepts c f.name b = none)) :
    ∀ attrs : List (String × BVal), ∃ attrs' : List (String × BVal), fieldLoop L c ign es fs attrs = .ok attrs' := by
  induction fs with
  | nil => intro attrs; exact ⟨attrs, rfl⟩
  | cons f fs ih =>
    intro attrs
    have ih' := ih fun g hg => h g (List.mem_cons_of_mem _ hg)
    obtain ⟨e, h1, h2⟩ := h f List.mem_cons_self
    unfold fieldLoop
    rw [h1]
    simp only
    rcases h2 with h2 | ⟨b, h2, h3⟩
    · rw [h2]
      exact ih' attrs
    · rw [h2]
      simp only
      have : setAttr L c attrs f.name b = .ok (attrs ++ [(f.name, b)]) := by
        unfold setAttr; rw [h3]
      rw [this]
      exact ih' _

theorem fits_iff (t : PType) (v : Val) (hp : Plain v) (he : ∀ c m : String, v ≠ .enum c m) :
    typeCheck t v = .ok () ↔ Fits t v := by
  unfold typeCheck
  cases v with
  | data h d => exact absurd hp id
  | enum c m => exact absurd rfl (he c m)
  | _ => cases t <;> simp [isInst, isPureInt, Fits]

/-- Which fields are skipped. -/
theorem fieldConv_none (h : Head) (f : Fld) (e : Entry) :
    fieldConv h.ignore f e = none ↔ ¬ Moves h f e.val := by
  unfold fieldConv Moves
  by_cases h1 : f.name ∈ special ∨ f.name ∈ h.ignore
  · rw [if_pos h1]
    simp only [true_iff]
    rintro ⟨a, b, -⟩
    exact h1.elim a b
  · rw [if_neg h1]
    rw [not_or] at h1
    have h1 : f.name ∉ structural ∧ f.name ∉ h.ignore := h1
    cases hv : e.val with
    | data g d =>
      simp only [Declares]
      by_cases hb : g.bcls = .absent
      · rw [if_pos hb]; simp [hb]
      · rw [if_neg hb]; simp [hb, h1]
    | _ => simp [Declares, h1]

/-- A converted field has an admissible type and carries the conversion of its value. -/
theorem fieldConv_ok (h : Head) (f : Fld) (e : Entry) (b : BVal) :
    fieldConv h.ignore f e = some (.ok b) ↔ Moves h f e.val ∧ TypeOk f e.val ∧ e.conv = .ok b := by
  by_cases hm : Moves h f e.val
  · have hm' := hm
    obtain ⟨h1, h2, h3⟩ := hm'
    unfold fieldConv
    rw [if_neg (by rw [not_or]; exact ⟨h1, h2⟩)]
    cases hv : e.val with
    | data g d =>
      rw [hv] at h3
      simp only
      rw [if_neg h3]
      rw [hv] at hm
      simp [hm, TypeOk]
    | enum c m => rw [hv] at hm; simp [hm, TypeOk]
    | _ =>
      rw [hv] at hm
      simp only [hm, true_and, TypeOk]
      rw [← fits_iff f.type _ (by trivial) (by intro c m hc; cases hc)]
      generalize typeCheck f.type _ = r
      cases r with
      | ok u => simp [Except.bind]
      | error x => simp [Except.bind]
  · rw [(fieldConv_none h f e).2 hm]
    simp [hm]

end Aihw.Bind

import Verif.Bind.Lemmas

/-!
# C74: configuration settings reach the simulator
-/
namespace Aihw.Bind

/-- Success of `parameters_to_bindings`, one level. -/
theorem body_ok {L : Lib} {dt : DType} {check : Bool} {h : Head} {d : Dict} {c : String} {b : BVal}
    (e : paramsBody L check h c d.keys (entries L dt d) = .ok b) :
    ∃ attrs : List (String × BVal), b = .obj c attrs ∧
      (check = true → ∀ k ∈ d.keys, k ∈ h.flds.map (·.name) ∨ k ∈ h.ignore) ∧
      (∀ f ∈ h.flds, ∃ v : Val, d.get f.name = some v ∧
        (Moves h f v → TypeOk f v ∧ ∃ b' : BVal, conv L dt v = .ok b' ∧ (f.name, b') ∈ attrs ∧
          L.accepts c f.name b' = none)) ∧
      (∀ nb ∈ attrs, ∃ f ∈ h.flds, f.name = nb.1 ∧ ∃ v : Val, d.get f.name = some v ∧ Moves h f v ∧
        conv L dt v = .ok nb.2) := by
  unfold paramsBody at e
  by_cases h1 : (h.flds.any fun f => (getE (entries L dt d) f.name).isNone) = true
  · rw [if_pos h1] at e; cases e
  · rw [if_neg h1] at e
    by_cases h2 : (check && d.keys.any fun k => !(decide (k ∈ h.flds.map (·.name))) && !(decide (k ∈ h.ignore))) = true
    · rw [if_pos h2] at e; cases e
    · rw [if_neg h2] at e
      cases e3 : fieldLoop L c h.ignore (entries L dt d) h.flds [] with
      | error x => rw [e3] at e; cases e
      | ok attrs =>
        rw [e3] at e
        simp only [Except.ok.injEq] at e
        obtain ⟨add, q1, q2, q3⟩ := fieldLoop_ok L c h.ignore _ h.flds [] attrs e3
        rw [List.nil_append] at q1
        subst q1
        refine ⟨attrs, e.symm, ?_, ?_, ?_⟩
        · intro hc k hk
          by_contra hn
          rw [not_or] at hn
          apply h2
          rw [hc, Bool.true_and, List.any_eq_true]
          exact ⟨k, hk, by simp only [hn.1, hn.2, decide_false, Bool.not_false, Bool.and_self]⟩
        · intro f hf
          obtain ⟨en, r1, r2⟩ := q2 f hf
          rw [getE_entries] at r1
          cases hv : d.get f.name with
          | none => rw [hv] at r1; cases r1
          | some v =>
            rw [hv] at r1
            simp only [Option.map_some, Option.some.injEq] at r1
            subst r1
            refine ⟨v, rfl, fun hm => ?_⟩
            rcases r2 with r2 | ⟨b', r3, r4, r5⟩
            · exact absurd hm ((fieldConv_none h f _).1 r2)
            · obtain ⟨-, t2, t3⟩ := (fieldConv_ok h f _ b').1 r3
              exact ⟨t2, b', t3, r4, r5⟩
        · intro nb hnb
          obtain ⟨f, hf, r1, en, r2, r3⟩ := q3 nb hnb
          rw [getE_entries] at r2
          cases hv : d.get f.name with
          | none => rw [hv] at r2; cases r2
          | some v =>
            rw [hv] at r2
            simp only [Option.map_some, Option.some.injEq] at r2
            subst r2
            obtain ⟨t1, -, t3⟩ := (fieldConv_ok h f _ nb.2).1 r3
            exact ⟨f, hf, r1, v, hv, t1, t3⟩

/-- The attribute of a moved field is the conversion of the value. -/
theorem attr_moved {L : Lib} {dt : DType} {h : Head} {d : Dict} {attrs : List (String × BVal)}
    (q3 : ∀ nb ∈ attrs, ∃ f ∈ h.flds, f.name = nb.1 ∧ ∃ v : Val, d.get f.name = some v ∧ Moves h f v ∧
        conv L dt v = .ok nb.2) {n : String} {v : Val} {b' : BVal} (hv : d.get n = some v)
    (hc : conv L dt v = .ok b') (hmem : (n, b') ∈ attrs) : lastOf attrs n = some b' := by
  obtain ⟨b2, hb2⟩ := lastOf_of_mem hmem
  obtain ⟨f, -, r1, v', r2, -, r3⟩ := q3 _ (lastOf_mem hb2)
  simp only at r1 r3
  rw [r1, hv] at r2
  simp only [Option.some.injEq] at r2
  subst r2
  rw [hc] at r3
  simp only [Except.ok.injEq] at r3
  rw [hb2, r3]

theorem rawAt (v : Val) (p : List String) : (BVal.raw v).at p = (v.at p).map .raw := by
  induction p generalizing v with
  | nil => rfl
  | cons n p ih =>
    show ((v.attr n).map BVal.raw).bind _ = ((v.attr n).bind _).map _
    cases v.attr n with
    | none => rfl
    | some w => exact ih w

theorem moves_of {h : Head} {n : String} {w : Val} (h1 : n ∈ h.flds.map (·.name)) (h2 : n ∉ structural)
    (h3 : n ∉ h.ignore) (h4 : Declares w) : ∃ f ∈ h.flds, f.name = n ∧ Moves h f w := by
  obtain ⟨f, hf, e⟩ := List.mem_map.1 h1
  exact ⟨f, hf, e, by rw [e]; exact h2, by rw [e]; exact h3, h4⟩

theorem conv_paths (L : Lib) (dt : DType) (p : List String) : ∀ (v : Val) (b : BVal), conv L dt v = .ok b →
    Travels v p → ∀ leaf : Val, v.at p = some leaf → Plain leaf → ∃ lb : BVal, b.at p = some lb ∧ Same leaf lb := by
  induction p with
  | nil =>
    intro v b hb _ leaf hl hp
    have hl' : leaf = v := (Option.some.inj hl).symm
    subst hl'
    refine ⟨b, rfl, ?_⟩
    cases leaf with
    | data h d => exact absurd hp id
    | enum c m =>
      right
      refine ⟨c, m, rfl, ?_⟩
      have hb' : enumConv L c m = .ok b := by rw [conv] at hb; exact hb
      unfold enumConv at hb'
      split at hb'
      · split at hb' <;> cases hb'; rfl
      · split at hb'
        · split at hb' <;> cases hb'; rfl
        · cases hb'
    | _ =>
      left
      rw [conv] at hb
      · exact (Except.ok.inj hb).symm
      all_goals (intros; simp_all)
  | cons n p ih =>
    intro v b hb ht leaf hl hp
    cases v with
    | data h d =>
      obtain ⟨t1, t2, t3, w, t4, t5, t6⟩ := ht
      have hl' : w.at p = some leaf := by
        have : (d.get n).bind (fun w => w.at p) = some leaf := hl
        rw [t4] at this
        exact this
      rw [conv] at hb
      cases e : getCls L h dt with
      | error x => rw [e] at hb; cases hb
      | ok o =>
        rw [e] at hb
        cases o with
        | none =>
          simp only [Except.ok.injEq] at hb
          subst hb
          rw [rawAt, hl]
          exact ⟨.raw leaf, rfl, Or.inl rfl⟩
        | some c =>
          simp only at hb
          obtain ⟨attrs, q0, -, q2, q3⟩ := body_ok hb
          obtain ⟨f, hf, ef, hm⟩ := moves_of t1 t2 t3 t5
          obtain ⟨v', r1, r2⟩ := q2 f hf
          rw [ef, t4] at r1
          simp only [Option.some.injEq] at r1
          subst r1
          obtain ⟨-, b', r3, r4, -⟩ := r2 hm
          rw [ef] at r4
          have hlast := attr_moved q3 t4 r3 r4
          obtain ⟨lb, s1, s2⟩ := ih w b' r3 t6 leaf hl' hp
          refine ⟨lb, ?_, s2⟩
          rw [q0]
          show (lastOf attrs n).bind _ = _
          rw [hlast]
          exact s1
    | _ => exact absurd ht id

/-- **C74 (settings arrive).**  If `parameters_to_bindings` returns, then every setting of the
configuration, at any nesting depth, is found in the simulator object under the same attribute
path with the same value: for every path through declared fields (none of them a device field or
listed in `bindings_ignore`, and every dataclass on the way with a `bindings_class`), the Python
value itself or the bound enum member of the same name. -/
theorem C74_settings_arrive (L : Lib) (dt : DType) (check : Bool) (h : Head) (d : Dict) (b : BVal)
    (hb : paramsToB L dt check h d = .ok b) (p : List String) (ht : Travels (.data h d) p) (leaf : Val)
    (hl : (Val.data h d).at p = some leaf) (hp : Plain leaf) :
    ∃ lb : BVal, b.at p = some lb ∧ Same leaf lb := by
  cases check with
  | true => exact conv_paths L dt p (.data h d) b (by rw [conv]; exact hb) ht leaf hl hp
  | false =>
    unfold paramsToB at hb
    cases p with
    | nil => cases (Option.some.inj hl); exact absurd hp id
    | cons n p =>
      obtain ⟨t1, t2, t3, w, t4, t5, t6⟩ := ht
      have hl' : w.at p = some leaf := by
        have : (d.get n).bind (fun w => w.at p) = some leaf := hl
        rw [t4] at this
        exact this
      cases e : getCls L h dt with
      | error x => rw [e] at hb; cases hb
      | ok o =>
        rw [e] at hb
        cases o with
        | none =>
          simp only [Except.ok.injEq] at hb
          subst hb
          rw [rawAt, hl]
          exact ⟨.raw leaf, rfl, Or.inl rfl⟩
        | some c =>
          simp only at hb
          obtain ⟨attrs, q0, -, q2, q3⟩ := body_ok hb
          obtain ⟨f, hf, ef, hm⟩ := moves_of t1 t2 t3 t5
          obtain ⟨v', r1, r2⟩ := q2 f hf
          rw [ef, t4] at r1
          simp only [Option.some.injEq] at r1
          subst r1
          obtain ⟨-, b', r3, r4, -⟩ := r2 hm
          rw [ef] at r4
          have hlast := attr_moved q3 t4 r3 r4
          obtain ⟨lb, s1, s2⟩ := conv_paths L dt p w b' r3 t6 leaf hl' hp
          refine ⟨lb, ?_, s2⟩
          rw [q0]
          show (lastOf attrs n).bind _ = _
          rw [hlast]
          exact s1

/-- **C74 (nothing else).**  No other attribute of the simulator object is touched: an attribute is
assigned only if it is a declared field that is neither a device field nor ignored nor a nested
dataclass without `bindings_class`; those keep the defaults of the C++ class. -/
theorem C74_nothing_else (L : Lib) (dt : DType) (check : Bool) (h : Head) (d : Dict) (c : String)
    (attrs : List (String × BVal)) (hb : paramsToB L dt check h d = .ok (.obj c attrs)) (n : String) :
    ((BVal.obj c attrs).attr n).isSome = true ↔
      n ∈ h.flds.map (·.name) ∧ n ∉ structural ∧ n ∉ h.ignore ∧ ∃ v : Val, d.get n = some v ∧ Declares v := by
  unfold paramsToB at hb
  cases e : getCls L h dt with
  | error x => rw [e] at hb; cases hb
  | ok o =>
    rw [e] at hb
    cases o with
    | none => cases hb
    | some c' =>
      simp only at hb
      obtain ⟨attrs', q0, -, q2, q3⟩ := body_ok hb
      cases q0
      show (lastOf attrs n).isSome = true ↔ _
      constructor
      · intro hs
        obtain ⟨b, hb'⟩ := Option.isSome_iff_exists.1 hs
        obtain ⟨f, hf, r1, v, r2, ⟨m1, m2, m3⟩, -⟩ := q3 _ (lastOf_mem hb')
        simp only at r1
        rw [r1] at m1 m2 r2
        exact ⟨List.mem_map.2 ⟨f, hf, r1⟩, m1, m2, v, r2, m3⟩
      · rintro ⟨t1, t2, t3, w, t4, t5⟩
        obtain ⟨f, hf, ef, hm⟩ := moves_of t1 t2 t3 t5
        obtain ⟨v', r1, r2⟩ := q2 f hf
        rw [ef, t4] at r1
        simp only [Option.some.injEq] at r1
        subst r1
        obtain ⟨-, b', r3, r4, -⟩ := r2 hm
        rw [ef] at r4
        rw [attr_moved q3 t4 r3 r4]
        rfl

/-- **C74 (exact acceptance).**  With its simulator class available, a configuration is accepted
exactly when every declared field is present, every attribute is declared or ignored, and every
transferred value has an admissible type, is itself convertible, and is accepted by the simulator
class. -/
theorem C74_accepted_iff (L : Lib) (dt : DType) (check : Bool) (h : Head) (d : Dict) (c : String)
    (hc : getCls L h dt = .ok (some c)) :
    (∃ b : BVal, paramsToB L dt check h d = .ok b) ↔
      (check = true → ∀ k ∈ d.keys, k ∈ h.flds.map (·.name) ∨ k ∈ h.ignore) ∧
      ∀ f ∈ h.flds, ∃ v : Val, d.get f.name = some v ∧
        (Moves h f v → TypeOk f v ∧ ∃ b : BVal, conv L dt v = .ok b ∧ L.accepts c f.name b = none) := by
  unfold paramsToB
  rw [hc]
  simp only
  constructor
  · rintro ⟨b, hb⟩
    obtain ⟨attrs, -, q1, q2, -⟩ := body_ok hb
    refine ⟨q1, fun f hf => ?_⟩
    obtain ⟨v, r1, r2⟩ := q2 f hf
    refine ⟨v, r1, fun hm => ?_⟩
    obtain ⟨s1, b', s2, -, s3⟩ := r2 hm
    exact ⟨s1, b', s2, s3⟩
  · rintro ⟨q1, q2⟩
    unfold paramsBody
    rw [if_neg, if_neg]
    · obtain ⟨attrs, ha⟩ := fieldLoop_total L c h.ignore (entries L dt d) h.flds (by
        intro f hf
        obtain ⟨v, r1, r2⟩ := q2 f hf
        refine ⟨_, by rw [getE_entries, r1]; rfl, ?_⟩
        by_cases hm : Moves h f v
        · obtain ⟨s1, b', s2, s3⟩ := r2 hm
          exact Or.inr ⟨b', (fieldConv_ok h f _ b').2 ⟨hm, s1, s2⟩, s3⟩
        · exact Or.inl ((fieldConv_none h f _).2 hm)) []
      exact ⟨.obj c attrs, by rw [ha]⟩
    · intro hk
      rw [Bool.and_eq_true, List.any_eq_true] at hk
      obtain ⟨hck, k, hk1, hk2⟩ := hk
      rw [Bool.and_eq_true, Bool.not_eq_true', Bool.not_eq_true', decide_eq_false_iff_not,
        decide_eq_false_iff_not] at hk2
      exact (q1 hck k hk1).elim hk2.1 hk2.2
    · intro hn
      rw [List.any_eq_true] at hn
      obtain ⟨f, hf, hf2⟩ := hn
      obtain ⟨v, r1, -⟩ := q2 f hf
      rw [getE_entries, r1] at hf2
      cases hf2

/-- **C74 (misspelt attribute).**  An attribute that is set on the configuration but is neither a
declared field nor ignored is refused with a `ConfigError`. -/
theorem C74_typo_refused (L : Lib) (dt : DType) (h : Head) (d : Dict) (c k : String)
    (hc : getCls L h dt = .ok (some c)) (hall : ∀ f ∈ h.flds, ∃ v : Val, d.get f.name = some v)
    (hk : k ∈ d.keys) (h1 : k ∉ h.flds.map (·.name)) (h2 : k ∉ h.ignore) :
    paramsToB L dt true h d = .error .configError := by
  unfold paramsToB
  rw [hc]
  simp only
  unfold paramsBody
  rw [if_neg, if_pos]
  · rw [Bool.true_and, List.any_eq_true]
    exact ⟨k, hk, by simp only [h1, h2, decide_false, Bool.not_false, Bool.and_self]⟩
  · intro hn
    rw [List.any_eq_true] at hn
    obtain ⟨f, hf, hf2⟩ := hn
    obtain ⟨v, r1⟩ := hall f hf
    rw [getE_entries, r1] at hf2
    cases hf2

/-- **C74 (types).**  A transferred field of declared type `float` never holds a `bool`, `None` or a
string, one of declared type `int` never a `float`, and one of declared type `bool` never a number:
such a configuration is refused. -/
theorem C74_types_refused (L : Lib) (dt : DType) (check : Bool) (h : Head) (d : Dict) (c : String)
    (hc : getCls L h dt = .ok (some c)) (f : Fld) (hf : f ∈ h.flds) (hs : f.name ∉ structural)
    (hi : f.name ∉ h.ignore) (v : Val) (hv : d.get f.name = some v)
    (hbad : (f.type = .float ∧ ((∃ x : Bool, v = .bool x) ∨ v = .none ∨ ∃ s : String, v = .str s)) ∨
      (f.type = .int ∧ ∃ q : ℚ, v = .float q) ∨
      (f.type = .bool ∧ ((∃ i : Int, v = .int i) ∨ ∃ q : ℚ, v = .float q))) :
    ¬ ∃ b : BVal, paramsToB L dt check h d = .ok b := by
  rw [C74_accepted_iff L dt check h d c hc]
  rintro ⟨-, q⟩
  obtain ⟨v', r1, r2⟩ := q f hf
  rw [hv] at r1
  simp only [Option.some.injEq] at r1
  subst r1
  rcases hbad with ⟨ht, ⟨x, hx⟩ | hx | ⟨s, hx⟩⟩ | ⟨ht, q, hx⟩ | ⟨ht, ⟨i, hx⟩ | ⟨q, hx⟩⟩ <;> subst hx <;>
    · obtain ⟨s1, -⟩ := r2 ⟨hs, hi, trivial⟩
      simp [TypeOk, ht, Fits] at s1

/-- **C74 (missing class).**  If the compiled library has no class of the requested name no error is
raised: the Python configuration object itself is returned in place of a simulator object. -/
theorem C74_missing_class_silent (L : Lib) (dt : DType) (check : Bool) (h : Head) (d : Dict) (s : String)
    (hs : h.bcls = .str s) (hm : L.hasModule h.module = true)
    (ht : ∀ t : String, dt = .other t → L.hasTyped h.module t = true) (hn : L.cls h.module dt s = none) :
    paramsToB L dt check h d = .ok (.raw (.data h d)) ∧ tileToB L dt h d = .ok (.raw (.data h d)) := by
  have hc : getCls L h dt = .ok none := by
    unfold getCls
    rw [hs]
    simp only
    rw [if_pos hm]
    cases dt with
    | float => rw [← hn]
    | other t => simp only; rw [if_pos (ht t rfl), hn]
  unfold paramsToB tileToB
  rw [hc]
  exact ⟨rfl, rfl⟩

/-- **C74 (data type).**  A data type the library was not compiled for is refused. -/
theorem C74_data_type_refused (L : Lib) (t : String) (check : Bool) (h : Head) (d : Dict) (s : String)
    (hs : h.bcls = .str s) (hm : L.hasModule h.module = true) (ht : L.hasTyped h.module t = false) :
    paramsToB L (.other t) check h d = .error .configError ∧ tileToB L (.other t) h d = .error .configError := by
  have hc : getCls L h (.other t) = .error .configError := by
    unfold getCls
    rw [hs]
    simp only
    rw [if_pos hm, if_neg (by rw [ht]; decide)]
  unfold paramsToB tileToB
  rw [hc]
  exact ⟨rfl, rfl⟩

end Aihw.Bind

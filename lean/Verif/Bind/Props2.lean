import Verif.Bind.Props
import Mathlib.Data.List.Forall2

/-!
# C74: tile parameters and compound devices
-/
namespace Aihw.Bind

/-- **C74 (class).**  The simulator object is of the class named by the configuration, taken from
the sub-module of the requested data type. -/
theorem C74_class_of_type (L : Lib) (dt : DType) (check : Bool) (h : Head) (d : Dict) (s c : String) (b : BVal)
    (hs : h.bcls = .str s) (hn : L.cls h.module dt s = some c) :
    (paramsToB L dt check h d = .ok b → b.ccls = some c) ∧ (tileToB L dt h d = .ok b → b.ccls = some c) := by
  have hc : ∀ o : Option String, getCls L h dt = .ok o → o = some c := by
    intro o ho
    unfold getCls at ho
    rw [hs] at ho
    simp only at ho
    by_cases hm : L.hasModule h.module = true
    · rw [if_pos hm] at ho
      cases dt with
      | float => simp only [Except.ok.injEq] at ho; rw [← ho, hn]
      | other t =>
        simp only at ho
        by_cases ht : L.hasTyped h.module t = true
        · rw [if_pos ht] at ho; simp only [Except.ok.injEq] at ho; rw [← ho, hn]
        · rw [if_neg ht] at ho; cases ho
    · rw [if_neg hm] at ho; cases ho
  constructor
  · intro hb
    unfold paramsToB at hb
    cases e : getCls L h dt with
    | error x => rw [e] at hb; cases hb
    | ok o =>
      have := hc o e
      subst this
      rw [e] at hb
      obtain ⟨attrs, q0, -⟩ := body_ok hb
      rw [q0]; rfl
  · intro hb
    unfold tileToB at hb
    cases e : getCls L h dt with
    | error x => rw [e] at hb; cases hb
    | ok o =>
      have := hc o e
      subst this
      rw [e] at hb
      simp only at hb
      cases e2 : tileLoop L c (entries L dt d) h.flds [] with
      | error x => rw [e2] at hb; cases hb
      | ok attrs => rw [e2] at hb; cases hb; rfl

/-! ## Tile parameters -/

/-- A field of the tile configuration that is handed to the simulator. -/
def Included (f : Fld) : Prop := f.name = "forward" ∨ f.name = "backward" ∨ f.name = "update" ∨ f.incl = true

/-- The dataclass (if it is one) has a `bindings_class` that is not `None`. -/
def Bound : Val → Prop
  | .data h _ => h.bcls ≠ .absent ∧ h.bcls ≠ .none
  | _ => True

theorem included_iff (f : Fld) : ¬ (f.name ∉ always ∧ f.incl = false) ↔ Included f := by
  unfold Included always
  simp only [List.mem_cons, List.not_mem_nil, or_false, not_and, Bool.not_eq_false]
  tauto

theorem tileConv_none (e : Entry) : tileConv e = none ↔ ¬ Bound e.val := by
  unfold tileConv
  cases hv : e.val with
  | data h d =>
    simp only [Bound]
    by_cases hb : h.bcls = .absent ∨ h.bcls = .none
    · rw [if_pos hb]; simp; tauto
    · rw [if_neg hb]; rw [not_or] at hb; simp [hb]
  | _ => simp [Bound]

theorem tileConv_ok (e : Entry) (b : BVal) : tileConv e = some (.ok b) ↔ Bound e.val ∧ e.conv = .ok b := by
  by_cases hb : Bound e.val
  · unfold tileConv
    cases hv : e.val with
    | data h d =>
      rw [hv] at hb
      simp only
      rw [if_neg (by rw [not_or]; exact hb)]
      simp [hb]
    | _ => simp [Bound]
  · rw [(tileConv_none e).2 hb]
    simp [hb]

theorem tileLoop_ok (L : Lib) (c : String) (es : List Entry) (fs : List Fld) :
    ∀ attrs attrs' : List (String × BVal), tileLoop L c es fs attrs = .ok attrs' →
      ∃ add : List (String × BVal), attrs' = attrs ++ add ∧
        (∀ f ∈ fs, Included f → ∃ e : Entry, getE es f.name = some e ∧
          (Bound e.val → ∃ b : BVal, e.conv = .ok b ∧ (fieldMap f.name, b) ∈ add)) ∧
        (∀ nb ∈ add, ∃ f ∈ fs, fieldMap f.name = nb.1 ∧ Included f ∧ ∃ e : Entry, getE es f.name = some e ∧
          Bound e.val ∧ e.conv = .ok nb.2) := by
  induction fs with
  | nil =>
    intro attrs attrs' h
    simp only [tileLoop, Except.ok.injEq] at h
    exact ⟨[], by rw [h, List.append_nil], fun f hf => absurd hf List.not_mem_nil, fun f hf => absurd hf List.not_mem_nil⟩
  | cons f fs ih =>
    intro attrs attrs' h
    unfold tileLoop at h
    by_cases hi : f.name ∉ always ∧ f.incl = false
    · rw [if_pos hi] at h
      obtain ⟨add, h1, h2, h3⟩ := ih attrs attrs' h
      refine ⟨add, h1, ?_, ?_⟩
      · intro g hg hgi
        rcases List.mem_cons.1 hg with hg | hg
        · subst hg
          exact absurd hi ((included_iff g).2 hgi)
        · exact h2 g hg hgi
      · intro nb hnb
        obtain ⟨g, hg, r⟩ := h3 nb hnb
        exact ⟨g, List.mem_cons_of_mem _ hg, r⟩
    · rw [if_neg hi] at h
      have hinc := (included_iff f).1 hi
      cases e : getE es f.name with
      | none => rw [e] at h; cases h
      | some en =>
        rw [e] at h
        simp only at h
        cases e2 : tileConv en with
        | none =>
          rw [e2] at h
          simp only at h
          obtain ⟨add, h1, h2, h3⟩ := ih attrs attrs' h
          refine ⟨add, h1, ?_, ?_⟩
          · intro g hg hgi
            rcases List.mem_cons.1 hg with hg | hg
            · subst hg
              exact ⟨en, e, fun hb => absurd hb ((tileConv_none en).1 e2)⟩
            · exact h2 g hg hgi
          · intro nb hnb
            obtain ⟨g, hg, r⟩ := h3 nb hnb
            exact ⟨g, List.mem_cons_of_mem _ hg, r⟩
        | some r =>
          rw [e2] at h
          cases r with
          | error x => cases h
          | ok b =>
            simp only at h
            cases e3 : setAttr L c attrs (fieldMap f.name) b with
            | error x => rw [e3] at h; cases h
            | ok a1 =>
              rw [e3] at h
              simp only at h
              obtain ⟨hs1, -⟩ := setAttr_ok e3
              obtain ⟨hb1, hb2⟩ := (tileConv_ok en b).1 e2
              obtain ⟨add, h1, h2, h3⟩ := ih a1 attrs' h
              refine ⟨(fieldMap f.name, b) :: add, by rw [h1, hs1, List.append_assoc]; rfl, ?_, ?_⟩
              · intro g hg hgi
                rcases List.mem_cons.1 hg with hg | hg
                · subst hg
                  exact ⟨en, e, fun _ => ⟨b, hb2, List.mem_cons_self⟩⟩
                · obtain ⟨eg, q1, q2⟩ := h2 g hg hgi
                  refine ⟨eg, q1, fun hb => ?_⟩
                  obtain ⟨b', r1, r2⟩ := q2 hb
                  exact ⟨b', r1, List.mem_cons_of_mem _ r2⟩
              · intro nb hnb
                rcases List.mem_cons.1 hnb with hnb | hnb
                · subst hnb
                  exact ⟨f, List.mem_cons_self, rfl, hinc, en, e, hb1, hb2⟩
                · obtain ⟨g, hg, r⟩ := h3 nb hnb
                  exact ⟨g, List.mem_cons_of_mem _ hg, r⟩

/-- The name under which the simulator knows a field of the tile configuration. -/
def simName (n : String) : String :=
  if n = "forward" then "forward_io" else if n = "backward" then "backward_io" else n

theorem simName_inj {a b : String} (ha : a ≠ "forward_io") (ha' : a ≠ "backward_io") (hb : b ≠ "forward_io")
    (hb' : b ≠ "backward_io") (h : simName a = simName b) : a = b := by
  unfold simName at h
  by_cases h1 : a = "forward"
  · rw [if_pos h1] at h
    by_cases h2 : b = "forward"
    · rw [h1, h2]
    · rw [if_neg h2] at h
      by_cases h3 : b = "backward"
      · rw [if_pos h3] at h; exact absurd h (by decide)
      · rw [if_neg h3] at h; exact absurd h.symm hb
  · rw [if_neg h1] at h
    by_cases h1' : a = "backward"
    · rw [if_pos h1'] at h
      by_cases h2 : b = "forward"
      · rw [if_pos h2] at h; exact absurd h (by decide)
      · rw [if_neg h2] at h
        by_cases h3 : b = "backward"
        · rw [h1', h3]
        · rw [if_neg h3] at h; exact absurd h.symm hb'
    · rw [if_neg h1'] at h
      by_cases h2 : b = "forward"
      · rw [if_pos h2] at h; exact absurd h ha
      · rw [if_neg h2] at h
        by_cases h3 : b = "backward"
        · rw [if_pos h3] at h; exact absurd h ha'
        · rw [if_neg h3] at h; exact h

/-- **C74 (tile settings arrive).**  If the tile configuration is converted to a simulator object,
then for every included field (`forward`, `backward`, `update` and those marked
`bindings_include`) every setting below it, at any depth, is found in the simulator object under
the same path, with `forward` and `backward` renamed to `forward_io` and `backward_io`. -/
theorem C74_tile_settings_arrive (L : Lib) (dt : DType) (h : Head) (d : Dict) (c : String)
    (attrs : List (String × BVal)) (hb : tileToB L dt h d = .ok (.obj c attrs))
    (hnames : ∀ f ∈ h.flds, f.name ≠ "forward_io" ∧ f.name ≠ "backward_io")
    (f : Fld) (hf : f ∈ h.flds) (hi : Included f) (w : Val) (hw : d.get f.name = some w) (hbw : Bound w)
    (p : List String) (ht : Travels w p) (leaf : Val) (hl : w.at p = some leaf) (hp : Plain leaf) :
    ∃ lb : BVal, (BVal.obj c attrs).at (simName f.name :: p) = some lb ∧ Same leaf lb := by
  unfold tileToB at hb
  cases e : getCls L h dt with
  | error x => rw [e] at hb; cases hb
  | ok o =>
    rw [e] at hb
    cases o with
    | none => cases hb
    | some c' =>
      simp only at hb
      cases e2 : tileLoop L c' (entries L dt d) h.flds [] with
      | error x => rw [e2] at hb; cases hb
      | ok a =>
        rw [e2] at hb
        simp only [Except.ok.injEq, BVal.obj.injEq] at hb
        obtain ⟨hc', ha⟩ := hb
        subst hc'; subst ha
        obtain ⟨add, q1, q2, q3⟩ := tileLoop_ok L c' _ h.flds [] a e2
        rw [List.nil_append] at q1
        subst q1
        obtain ⟨en, r1, r2⟩ := q2 f hf hi
        rw [getE_entries, hw] at r1
        simp only [Option.map_some, Option.some.injEq] at r1
        subst r1
        obtain ⟨b', r3, r4⟩ := r2 hbw
        simp only at r3
        obtain ⟨b2, hb2⟩ := lastOf_of_mem r4
        obtain ⟨g, hg, s1, -, en2, s2, -, s3⟩ := q3 _ (lastOf_mem hb2)
        simp only at s1 s3
        have hgf : g.name = f.name := simName_inj (hnames g hg).1 (hnames g hg).2 (hnames f hf).1 (hnames f hf).2 s1
        rw [hgf, getE_entries, hw] at s2
        simp only [Option.map_some, Option.some.injEq] at s2
        subst s2
        simp only at s3
        rw [r3] at s3
        simp only [Except.ok.injEq] at s3
        subst s3
        obtain ⟨lb, t1, t2⟩ := conv_paths L dt p w b' r3 ht leaf hl hp
        refine ⟨lb, ?_, t2⟩
        show (lastOf a (simName f.name)).bind _ = _
        rw [show lastOf a (simName f.name) = some b' from hb2]
        exact t1

/-- **C74 (tile: nothing else).**  Only included fields are assigned. -/
theorem C74_tile_nothing_else (L : Lib) (dt : DType) (h : Head) (d : Dict) (c : String)
    (attrs : List (String × BVal)) (hb : tileToB L dt h d = .ok (.obj c attrs)) (n : String)
    (hn : ∀ f ∈ h.flds, Included f → simName f.name ≠ n) : (BVal.obj c attrs).attr n = none := by
  unfold tileToB at hb
  cases e : getCls L h dt with
  | error x => rw [e] at hb; cases hb
  | ok o =>
    rw [e] at hb
    cases o with
    | none => cases hb
    | some c' =>
      simp only at hb
      cases e2 : tileLoop L c' (entries L dt d) h.flds [] with
      | error x => rw [e2] at hb; cases hb
      | ok a =>
        rw [e2] at hb
        simp only [Except.ok.injEq, BVal.obj.injEq] at hb
        obtain ⟨hc', ha⟩ := hb
        subst hc'; subst ha
        obtain ⟨add, q1, -, q3⟩ := tileLoop_ok L c' _ h.flds [] a e2
        rw [List.nil_append] at q1
        subst q1
        refine lastOf_none fun b hmem => ?_
        obtain ⟨g, hg, s1, s2, -⟩ := q3 _ hmem
        exact hn g hg s2 s1

theorem tileLoop_congr (L : Lib) (c : String) (es es' : List Entry) (fs : List Fld)
    (h : ∀ f ∈ fs, getE es f.name = getE es' f.name) :
    ∀ attrs : List (String × BVal), tileLoop L c es fs attrs = tileLoop L c es' fs attrs := by
  induction fs with
  | nil => intro attrs; rfl
  | cons f fs ih =>
    intro attrs
    have ih' := ih fun g hg => h g (List.mem_cons_of_mem _ hg)
    unfold tileLoop
    rw [h f List.mem_cons_self, ih' attrs]
    by_cases hi : f.name ∉ always ∧ f.incl = false
    · rw [if_pos hi, if_pos hi]
    · rw [if_neg hi, if_neg hi]
      cases getE es' f.name with
      | none => rfl
      | some en =>
        simp only
        cases tileConv en with
        | none => rfl
        | some r =>
          cases r with
          | error x => rfl
          | ok b =>
            simp only
            cases setAttr L c attrs (fieldMap f.name) b with
            | error x => rfl
            | ok a1 => exact ih' a1

/-- **C74 (misspelt tile attribute).**  Unlike for devices, an attribute set on the tile configuration
that is not a declared field is *not* reported: the simulator object is the same as without it. -/
theorem C74_tile_typo_silent (L : Lib) (dt : DType) (h : Head) (d : Dict) (k : String) (v : Val)
    (hk : k ∉ h.flds.map (·.name)) (c : String) (attrs : List (String × BVal)) :
    tileToB L dt h (.cons k v d) = .ok (.obj c attrs) ↔ tileToB L dt h d = .ok (.obj c attrs) := by
  unfold tileToB
  cases getCls L h dt with
  | error x => simp
  | ok o =>
    cases o with
    | none => simp
    | some c' =>
      simp only
      rw [tileLoop_congr L c' (entries L dt (.cons k v d)) (entries L dt d) h.flds]
      intro f hf
      have hne : ¬ k = f.name := fun e => hk (e ▸ List.mem_map.2 ⟨f, hf, rfl⟩)
      rw [getE_entries, getE_entries]
      show (if k = f.name then some v else d.get f.name).map _ = _
      rw [if_neg hne]

end Aihw.Bind

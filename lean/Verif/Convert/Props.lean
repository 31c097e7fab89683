import Verif.Convert.Frame

/-!
# C29 — conversion to analog

Specification vocabulary (from `Lemmas`/`Paths`): `resolve h i p` is `get_submodule`, `fullPath nm p`
the dotted name, `Excluded ex nm p` (excluded by its own name or the name of a module above),
`Unshared` (no module object registered twice), `WF` (dictionaries with non-empty names).
-/
namespace Aihw.Convert

variable {P C : Type}

/-- The path lies strictly below a module that is replaced as a layer. -/
def Hidden (E : Env P C) (ex : List String) (nm : String) (h : Nat → Obj P) (i : Nat)
    (p : List String) : Prop :=
  ∃ q r j c, p = q ++ r ∧ r ≠ [] ∧ resolve h i q = some j ∧ ¬Excluded ex nm q ∧
    E.target (h j).cls = some (.layer c)

/-- What becomes of the class of the module at path `p`: only the root may be wrapped. -/
def finalCls (E : Env P C) (reg : List (String × Nat)) (ensure : Bool) (nm : String) (p : List String)
    (c : Cls) : Cls :=
  if p = [] then rootCls E reg ensure nm c else c

/-- Unchanged up to the class of the root: same mode, value, child names. -/
def Kept (f : Cls → Cls) (o o' : Obj P) : Prop :=
  o'.cls = f o.cls ∧ o'.training = o.training ∧ o'.val = o.val ∧ names o' = names o

/-- A new container with the old child names in the old order. -/
def IsContainer (E : Env P C) (f : Cls → Cls) (c : Nat) (o o' : Obj P) : Prop :=
  o'.cls = f (.plain c) ∧ o'.training = true ∧ o'.val = E.fresh c ∧ names o' = names o

/-- A new analog layer whose only child is a tile holding the encoded weights. -/
def IsAnalogLayer (E : Env P C) (f : Cls → Cls) (nm : String) (c : Nat) (o : Obj P)
    (h' : Nat → Obj P) (j' : Nat) : Prop :=
  ∃ (k : Nat) (v : P), E.enc c (E.cfgFun nm o.cls o.val E.cfg) o.val = .ok v ∧
    h' j' = ⟨f (.plain c), [("analog_module", some k)], true, E.shell o.val⟩ ∧
    h' k = ⟨.plain E.tileCls, [], true, v⟩

/-! ## Lemmas -/

theorem prefix_names {q p : List String} (h : q <+: p) (hp : ∀ n ∈ p, n ≠ "") : ∀ n ∈ q, n ≠ "" :=
  fun n hn => hp n (h.subset hn)

theorem excluded_iff (ex : List String) (nm : String) (p : List String) (hp : ∀ n ∈ p, n ≠ "") :
    Excluded ex nm p ↔ (p = [] ∧ nm ∈ ex) ∨ SkipPath (fun f => decide (f ∈ ex)) nm p := by
  constructor
  · rintro (h | ⟨q, h1, h2, h3⟩)
    · exact Or.inl h
    · refine Or.inr ⟨q, h1, h2, ?_⟩
      rw [pathName_eq nm q (prefix_names h2 hp)]
      simpa using h3
  · rintro (h | ⟨q, h1, h2, h3⟩)
    · exact Or.inl h
    · refine Or.inr ⟨q, h1, h2, ?_⟩
      rw [← pathName_eq nm q (prefix_names h2 hp)]
      simpa using h3

/-- Not skipped, and the own name not excluded: not excluded. -/
theorem not_excluded_iff (ex : List String) (nm : String) (p : List String) (hp : ∀ n ∈ p, n ≠ "") :
    ¬Excluded ex nm p ↔ ¬SkipPath (fun f => decide (f ∈ ex)) nm p ∧ pathName nm p ∉ ex := by
  rw [excluded_iff ex nm p hp]
  constructor
  · intro h
    have h1 : ¬SkipPath (fun f => decide (f ∈ ex)) nm p := fun hh => h (Or.inr hh)
    refine ⟨h1, fun h2 => ?_⟩
    cases p with
    | nil => exact h (Or.inl ⟨rfl, h2⟩)
    | cons n p => exact h1 ⟨n :: p, by simp, List.prefix_refl _, by simpa using h2⟩
  · rintro ⟨h1, h2⟩ (⟨rfl, h3⟩ | h3)
    · exact h2 h3
    · exact h1 h3

theorem isLayer_tgtA (E : Env P C) (ex : List String) (nm : String) (c : Cls) :
    isLayer (tgtA E ex nm c) = true ↔ nm ∉ ex ∧ ∃ k, E.target c = some (.layer k) := by
  unfold tgtA
  by_cases h : nm ∈ ex
  · simp [h, isLayer]
  · rw [if_neg h]
    cases E.target c with
    | none => simp [isLayer]
    | some t => cases t <;> simp [isLayer, h]

theorem hidden_iff (E : Env P C) (ex : List String) (nm : String) (h : Nat → Obj P) (i : Nat)
    (p : List String) (hp : ∀ n ∈ p, n ≠ "") :
    Hidden E ex nm h i p ↔ Hid (SA E ex).skip (SA E ex).L h nm i p := by
  have aux : ∀ q r, p = q ++ r → ∀ n ∈ q, n ≠ "" := fun q r e n hn =>
    hp n (by rw [e]; exact List.mem_append_left _ hn)
  constructor
  · rintro ⟨q, r, j, c, e1, e2, e3, e4, e5⟩
    obtain ⟨b1, b2⟩ := (not_excluded_iff ex nm q (aux q r e1)).1 e4
    exact ⟨q, r, j, e1, e2, e3, b1, (isLayer_tgtA E ex _ _).2 ⟨b2, c, e5⟩⟩
  · rintro ⟨q, r, j, e1, e2, e3, e4, e5⟩
    obtain ⟨b1, c, b2⟩ := (isLayer_tgtA E ex _ _).1 e5
    exact ⟨q, r, j, c, e1, e2, e3, (not_excluded_iff ex nm q (aux q r e1)).2 ⟨e4, b1⟩, b2⟩

/-- Where the traversal starts: the given object, or its deep copy. -/
def start (inplace : Bool) (i : Nat) (st : St P) : Nat × St P :=
  if inplace then (i, st) else (i + st.next, deepcopy st)

theorem convertToAnalog_start (E : Env P C) (fuel : Nat) (ex : List String) (nm : String)
    (ensure inplace : Bool) (i : Nat) (st : St P) :
    convertToAnalog E fuel ex nm ensure inplace i st =
      walk (fun f => decide (f ∈ ex)) (selfA E ex) (leafA E) (finishA E ensure) fuel nm
        (start inplace i st).1 (start inplace i st).2 := by
  cases inplace <;> rfl

theorem start_spec (inplace : Bool) (i : Nat) (st : St P) (hw : WF st) (hi : i < st.next)
    (hu : Unshared st.heap i) :
    WF (start inplace i st).2 ∧ (start inplace i st).1 < (start inplace i st).2.next ∧
    Unshared (start inplace i st).2.heap (start inplace i st).1 ∧
    (start inplace i st).2.registry = st.registry ∧ (start inplace i st).2.calls = st.calls ∧
    ∃ f : Nat → Nat, (∀ p, resolve (start inplace i st).2.heap (start inplace i st).1 p =
      (resolve st.heap i p).map f) ∧
      ∀ j, SameHead (st.heap j) ((start inplace i st).2.heap (f j)) := by
  cases inplace with
  | true =>
    exact ⟨hw, hi, hu, rfl, rfl, id, fun p => by simp [start], fun j => ⟨rfl, rfl, rfl, rfl⟩⟩
  | false =>
    refine ⟨hw.deepcopy, by simp only [start, deepcopy]; simp; omega, hu.deepcopy, rfl, rfl,
      (· + st.next), fun p => resolve_deepcopy st i p, fun j => sameHead_deepcopy st j⟩

/-- Hiding depends on paths and classes only. -/
theorem hidden_transfer (E : Env P C) (ex : List String) (nm : String) (h h0 : Nat → Obj P)
    (i i0 : Nat) (f : Nat → Nat) (hr : ∀ p, resolve h0 i0 p = (resolve h i p).map f)
    (hs : ∀ j, SameHead (h j) (h0 (f j))) (p : List String) :
    Hidden E ex nm h0 i0 p ↔ Hidden E ex nm h i p := by
  constructor
  · rintro ⟨q, r, j, c, e1, e2, e3, e4, e5⟩
    rw [hr] at e3
    obtain ⟨x, e6, rfl⟩ := Option.map_eq_some_iff.1 e3
    rw [(hs x).1] at e5
    exact ⟨q, r, x, c, e1, e2, e6, e4, e5⟩
  · rintro ⟨q, r, j, c, e1, e2, e3, e4, e5⟩
    exact ⟨q, r, f j, c, e1, e2, by rw [hr, e3]; rfl, e4, by rw [(hs j).1]; exact e5⟩

/-- The visible paths in terms of the specification. -/
theorem visA_iff (E : Env P C) (ex : List String) (nm : String) (h : Nat → Obj P) (i : Nat)
    (p : List String) (hp : ∀ n ∈ p, n ≠ "") (j : Nat) (b : Bool) :
    vis (SA E ex).skip (SA E ex).L h nm i p = some (j, b) ↔
      resolve h i p = some j ∧ ¬Hidden E ex nm h i p ∧
        (b = true ↔ SkipPath (fun f => decide (f ∈ ex)) nm p) := by
  rw [vis_iff, hidden_iff E ex nm h i p hp]
  exact Iff.rfl

/-! ## C29: what is converted -/

/-- Every module not below a converted layer is found under the same name in the result; it is kept if
it is excluded or not in the conversion map, replaced by a container with the same children, or
replaced by an analog layer.  For `inplace` and deep-copied conversion. -/
theorem C29_converted (E : Env P C) (hT : E.map E.tileCls = none) (fuel : Nat) (ex : List String)
    (nm : String) (ensure inplace : Bool) (i : Nat) (st : St P) (i' : Nat) (st' : St P)
    (hw : WF st) (hi : i < st.next) (hu : Unshared st.heap i)
    (h : convertToAnalog E fuel ex nm ensure inplace i st = .ok (i', st'))
    (p : List String) (j : Nat) (hj : resolve st.heap i p = some j)
    (hh : ¬Hidden E ex nm st.heap i p) :
    ∃ j', resolve st'.heap i' p = some j' ∧
      (Excluded ex nm p ∨ E.target (st.heap j).cls = none →
        Kept (finalCls E st.registry ensure nm p) (st.heap j) (st'.heap j')) ∧
      (∀ c, ¬Excluded ex nm p → E.target (st.heap j).cls = some (.container c) →
        IsContainer E (finalCls E st.registry ensure nm p) c (st.heap j) (st'.heap j')) ∧
      (∀ c, ¬Excluded ex nm p → E.target (st.heap j).cls = some (.layer c) →
        IsAnalogLayer E (finalCls E st.registry ensure nm p) (fullPath nm p) c (st.heap j)
          st'.heap j') := by
  rw [convertToAnalog_start] at h
  obtain ⟨w0, l0, u0, r0, _, f, fr, fs⟩ := start_spec inplace i st hw hi hu
  set i0 := (start inplace i st).1
  set st0 := (start inplace i st).2
  obtain ⟨i1, st1, e1, o⟩ := walkA_out E hT ex ensure fuel nm i0 st0 _ w0 l0 u0 h
  obtain ⟨_, g2, g3, _, _, _, g7⟩ := finishA_spec E ensure nm i1 st1 o.wf o.lt
  rw [← e1] at g2 g3 g7
  simp only at g2 g3 g7
  have hpn := resolve_names hw hi hj
  have hj0 : resolve st0.heap i0 p = some (f j) := by rw [fr, hj]; rfl
  have hh0 : ¬Hidden E ex nm st0.heap i0 p := fun hc =>
    hh ((hidden_transfer E ex nm _ _ _ _ f fr fs p).1 hc)
  obtain ⟨s1, s2, s3, s4⟩ := fs j
  have reg1 : st1.registry = st.registry := o.reg.trans r0
  -- from the object reached in `st1` to the one reached in `st'`
  have fin : ∀ j1, resolve st1.heap i1 p = some j1 → ∃ j', resolve st'.heap i' p = some j' ∧
      st'.heap j' = { st1.heap j1 with cls := finalCls E st.registry ensure nm p (st1.heap j1).cls } ∧
      ∀ x, x < st1.next → st'.heap x = st1.heap x := by
    intro j1 h1
    by_cases hp : p = []
    · subst hp
      simp only [resolve, Option.some.injEq] at h1
      subst h1
      exact ⟨i', rfl, by rw [g3, reg1]; simp [finalCls], g2⟩
    · refine ⟨j1, by rw [g7 p hp]; exact h1, ?_, g2⟩
      rw [g2 j1 (resolve_lt o.wf o.lt h1)]
      simp [finalCls, hp]
  by_cases hs : SkipPath (fun f => decide (f ∈ ex)) nm p
  · have hex : Excluded ex nm p := (excluded_iff ex nm p hpn).2 (Or.inr hs)
    have hv := (visA_iff E ex nm st0.heap i0 p hpn (f j) true).2 ⟨hj0, hh0, by simp [hs]⟩
    obtain ⟨j1, h1, t1, t2, t3, t4⟩ := o.core.skipped p (f j) hv
    obtain ⟨j', a1, a2, _⟩ := fin j1 h1
    refine ⟨j', a1, fun _ => ?_, fun c hne => absurd hex hne, fun c hne => absurd hex hne⟩
    rw [a2]
    exact ⟨by rw [← s1, ← t1], t2.trans s2, t3.trans s3, t4.trans s4⟩
  · have hv := (visA_iff E ex nm st0.heap i0 p hpn (f j) false).2 ⟨hj0, hh0, by simp [hs]⟩
    obtain ⟨j1, h1, b1, b2⟩ := o.core.fwd p (f j) hv
    obtain ⟨j', a1, a2, a3⟩ := fin j1 h1
    have hne : ¬Excluded ex nm p → pathName nm p ∉ ex := fun hc =>
      ((not_excluded_iff ex nm p hpn).1 hc).2
    refine ⟨j', a1, ?_, ?_, ?_⟩
    · intro hc
      have ht : tgtA E ex (pathName nm p) (st0.heap (f j)).cls = none := by
        unfold tgtA
        rcases hc with hc | hc
        · rw [excluded_iff ex nm p hpn] at hc
          rcases hc with ⟨rfl, hc⟩ | hc
          · exact if_pos hc
          · exact absurd hc hs
        · rw [s1, hc]; split_ifs <;> rfl
      have hb := b1 (by simp [SA, ht, isLayer])
      simp only [SA, ht, headA] at hb
      obtain ⟨t1, t2, t3, t4⟩ := hb
      rw [a2]
      exact ⟨by rw [← s1, ← t1], t2.trans s2, t3.trans s3, t4.trans s4⟩
    · intro c hc1 hc2
      have ht : tgtA E ex (pathName nm p) (st0.heap (f j)).cls = some (.container c) := by
        unfold tgtA; rw [if_neg (hne hc1), s1, hc2]
      have hb := b1 (by simp [SA, ht, isLayer])
      simp only [SA, ht, headA] at hb
      obtain ⟨t1, t2, t3, t4⟩ := hb
      rw [a2]
      exact ⟨by simp only; rw [t1], t2, t3, t4.trans s4⟩
    · intro c hc1 hc2
      have ht : tgtA E ex (pathName nm p) (st0.heap (f j)).cls = some (.layer c) := by
        unfold tgtA; rw [if_neg (hne hc1), s1, hc2]
      obtain ⟨c', k, v, q1, q2, q3, q4⟩ := b2 (by simp [SA, ht, isLayer])
      rw [ht] at q1
      simp only [Option.some.injEq, Target.layer.injEq] at q1
      subst q1
      rw [s1, s3, pathName_eq nm p hpn] at q2
      refine ⟨k, v, q2, ?_, ?_⟩
      · rw [a2, q3, s3]
      · have hk : resolve st1.heap i1 (p ++ ["analog_module"]) = some k :=
          resolve_append.2 ⟨j1, h1, by simp [resolve, child, q3, find]⟩
        rw [a3 k (resolve_lt o.wf o.lt hk)]
        exact q4

/-- Nothing else is in the result: a path of the result is a path of the original (not below a
converted layer) or the tile module `analog_module` of a converted layer. -/
theorem C29_nothing_added (E : Env P C) (hT : E.map E.tileCls = none) (fuel : Nat) (ex : List String)
    (nm : String) (ensure inplace : Bool) (i : Nat) (st : St P) (i' : Nat) (st' : St P)
    (hw : WF st) (hi : i < st.next) (hu : Unshared st.heap i)
    (h : convertToAnalog E fuel ex nm ensure inplace i st = .ok (i', st'))
    (p : List String) (x : Nat) (hx : resolve st'.heap i' p = some x) :
    (∃ j, resolve st.heap i p = some j ∧ ¬Hidden E ex nm st.heap i p) ∨
    ∃ q j c, p = q ++ ["analog_module"] ∧ resolve st.heap i q = some j ∧ ¬Excluded ex nm q ∧
      ¬Hidden E ex nm st.heap i q ∧ E.target (st.heap j).cls = some (.layer c) := by
  rw [convertToAnalog_start] at h
  obtain ⟨w0, l0, u0, r0, _, f, fr, fs⟩ := start_spec inplace i st hw hi hu
  set i0 := (start inplace i st).1
  set st0 := (start inplace i st).2
  obtain ⟨i1, st1, e1, o⟩ := walkA_out E hT ex ensure fuel nm i0 st0 _ w0 l0 u0 h
  obtain ⟨_, _, _, g4, _, g6, g7⟩ := finishA_spec E ensure nm i1 st1 o.wf o.lt
  rw [← e1] at g4 g6 g7
  simp only at g4 g6 g7
  have hpn := resolve_names g4 g6 hx
  by_cases hp : p = []
  · subst hp
    refine Or.inl ⟨i, rfl, ?_⟩
    rintro ⟨q, r, j, c, e1, e2, _⟩
    exact e2 (List.append_eq_nil_iff.1 e1.symm).2
  rw [g7 p hp] at hx
  have back : ∀ q y, resolve st0.heap i0 q = some y → ∃ j, resolve st.heap i q = some j ∧ f j = y := by
    intro q y hq
    rw [fr] at hq
    exact Option.map_eq_some_iff.1 hq
  rcases o.core.bwd p x hx with ⟨⟨y, b⟩, hy⟩ | ⟨q, r, y, e2, e3, e4, e5⟩
  · obtain ⟨c1, c2, _⟩ := (visA_iff E ex nm st0.heap i0 p hpn y b).1 hy
    obtain ⟨j, d1, _⟩ := back p y c1
    exact Or.inl ⟨j, d1, fun hc => c2 ((hidden_transfer E ex nm _ _ _ _ f fr fs p).2 hc)⟩
  · have hqn : ∀ n ∈ q, n ≠ "" := fun n hn => hpn n (by rw [e2]; exact List.mem_append_left _ hn)
    obtain ⟨c1, c2, c3⟩ := (visA_iff E ex nm st0.heap i0 q hqn y false).1 e4
    obtain ⟨j, d1, rfl⟩ := back q y c1
    obtain ⟨b1, c, b2⟩ := (isLayer_tgtA E ex _ _).1 e5
    obtain ⟨j1, m1, _, m2⟩ := o.core.fwd q (f j) e4
    obtain ⟨c', k, v, q1, q2, q3, q4⟩ := m2 e5
    have hr : r = ["analog_module"] := by
      rw [e2] at hx
      obtain ⟨y1, n1, n2⟩ := resolve_append.1 hx
      rw [m1] at n1
      cases n1
      cases r with
      | nil => exact absurd rfl e3
      | cons a r =>
        obtain ⟨z, n3, n4⟩ := resolve_cons.1 n2
        have := child_mem n3
        rw [q3] at this
        simp only [List.mem_cons, Prod.mk.injEq, Option.some.injEq, List.not_mem_nil, or_false] at this
        obtain ⟨rfl, rfl⟩ := this
        cases r with
        | nil => rfl
        | cons b r =>
          obtain ⟨z', n5, _⟩ := resolve_cons.1 n4
          have := child_mem n5
          rw [q4] at this
          cases this
    subst hr
    refine Or.inr ⟨q, j, c, e2, d1, ?_, fun hc => c2 ((hidden_transfer E ex nm _ _ _ _ f fr fs q).2 hc), ?_⟩
    · exact (not_excluded_iff ex nm q hqn).2 ⟨fun hs => by simpa using c3.2 hs, b1⟩
    · rw [(fs j).1] at b2; exact b2

/-- `specific_rpu_config_fun` is called for exactly the converted modules (containers included), once
each, with the full dotted name. -/
theorem C29_calls (E : Env P C) (hT : E.map E.tileCls = none) (fuel : Nat) (ex : List String)
    (nm : String) (ensure inplace : Bool) (i : Nat) (st : St P) (i' : Nat) (st' : St P)
    (hw : WF st) (hi : i < st.next) (hu : Unshared st.heap i)
    (h : convertToAnalog E fuel ex nm ensure inplace i st = .ok (i', st')) :
    ∃ ps : List (List String), st'.calls = st.calls ++ ps.map (fullPath nm) ∧ ps.Nodup ∧
      ∀ p, p ∈ ps ↔ ∃ j, resolve st.heap i p = some j ∧ ¬Hidden E ex nm st.heap i p ∧
        ¬Excluded ex nm p ∧ E.target (st.heap j).cls ≠ none := by
  rw [convertToAnalog_start] at h
  obtain ⟨w0, l0, u0, r0, k0, f, fr, fs⟩ := start_spec inplace i st hw hi hu
  set i0 := (start inplace i st).1
  set st0 := (start inplace i st).2
  obtain ⟨i1, st1, e1, o⟩ := walkA_out E hT ex ensure fuel nm i0 st0 _ w0 l0 u0 h
  obtain ⟨g1, _⟩ := finishA_spec E ensure nm i1 st1 o.wf o.lt
  rw [← e1] at g1
  simp only at g1
  obtain ⟨ps, a1, a2, a3⟩ := o.calls
  have names : ∀ p ∈ ps, ∀ n ∈ p, n ≠ "" := by
    intro p hp
    obtain ⟨j, hj, _⟩ := (a3 p).1 hp
    exact resolve_names w0 l0 (vis_resolve hj)
  refine ⟨ps, ?_, a2, ?_⟩
  · rw [g1, a1, k0]
    congr 1
    exact List.map_congr_left fun p hp => pathName_eq nm p (names p hp)
  · intro p
    constructor
    · intro hp
      obtain ⟨y, b1, b2⟩ := (a3 p).1 hp
      have hpn := names p hp
      obtain ⟨c1, c2, c3⟩ := (visA_iff E ex nm st0.heap i0 p hpn y false).1 b1
      rw [fr] at c1
      obtain ⟨j, d1, rfl⟩ := Option.map_eq_some_iff.1 c1
      have b3 : (tgtA E ex (pathName nm p) (st0.heap (f j)).cls).isSome = true := b2
      unfold tgtA at b3
      rw [(fs j).1] at b3
      by_cases hm : pathName nm p ∈ ex
      · rw [if_pos hm] at b3; cases b3
      rw [if_neg hm] at b3
      refine ⟨j, d1, fun hc => c2 ((hidden_transfer E ex nm _ _ _ _ f fr fs p).2 hc), ?_, ?_⟩
      · exact (not_excluded_iff ex nm p hpn).2 ⟨fun hs => by simpa using c3.2 hs, hm⟩
      · intro hc; rw [hc] at b3; cases b3
    · rintro ⟨j, d1, d2, d3, d4⟩
      have hpn := resolve_names hw hi d1
      obtain ⟨m1, m2⟩ := (not_excluded_iff ex nm p hpn).1 d3
      refine (a3 p).2 ⟨f j, (visA_iff E ex nm st0.heap i0 p hpn (f j) false).2 ⟨by rw [fr, d1]; rfl,
        fun hc => d2 ((hidden_transfer E ex nm _ _ _ _ f fr fs p).1 hc), by simp [m1]⟩, ?_⟩
      change (tgtA E ex (pathName nm p) (st0.heap (f j)).cls).isSome = true
      unfold tgtA
      rw [if_neg m2, (fs j).1]
      exact Option.isSome_iff_ne_none.2 d4

/-! ## The original is untouched -/

/-- Without `inplace`, no existing object changes, and the result contains none of them: whatever
modules are shared, also with custom conversion maps. -/
theorem C29_original_untouched (E : Env P C) (fuel : Nat) (ex : List String) (nm : String)
    (ensure : Bool) (i : Nat) (st : St P) (i' : Nat) (st' : St P)
    (h : convertToAnalog E fuel ex nm ensure false i st = .ok (i', st')) :
    (∀ x, x < st.next → st'.heap x = st.heap x) ∧
    ∀ p x, resolve st'.heap i' p = some x → st.next ≤ x := by
  rw [convertToAnalog_start] at h
  obtain ⟨a1, a2⟩ := walk_above (n := st.next) (selfA_up E ex _) (leafA_up E _)
    (fun nm i st => finishA_up E ensure _ nm i st) fuel nm (i + st.next) (deepcopy st) (i', st')
    (up_deepcopy st) (by omega) h
  exact ⟨fun x hx => (a1.2 x hx).trans (deepcopy_old st hx), fun p x hx => resolve_up a1.1 a2 hx⟩

/-- The same for the conversion back to digital. -/
theorem C29_original_untouched_digital (E : Env P C) (fuel : Nat) (nm : String) (i : Nat) (st : St P)
    (i' : Nat) (st' : St P) (h : convertToDigital E fuel nm false i st = .ok (i', st')) :
    (∀ x, x < st.next → st'.heap x = st.heap x) ∧
    ∀ p x, resolve st'.heap i' p = some x → st.next ≤ x := by
  have h' : walk (fun _ => false) (selfD E) (leafD E) (fun _ i st => (i, st)) fuel nm (i + st.next)
      (deepcopy st) = .ok (i', st') := h
  obtain ⟨a1, a2⟩ := walk_above (n := st.next) (selfD_up E _) (leafD_up E _)
    (fun _ _ _ hu hi => ⟨Above.refl hu, hi⟩) fuel nm (i + st.next) (deepcopy st) (i', st')
    (up_deepcopy st) (by omega) h'
  exact ⟨fun x hx => (a1.2 x hx).trans (deepcopy_old st hx), fun p x hx => resolve_up a1.1 a2 hx⟩

end Aihw.Convert

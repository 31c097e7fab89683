import Verif.Convert.Digital

/-!
# C29 — digital → analog → digital
-/
namespace Aihw.Convert

variable {P C : Type}

/-- The conversion map and the conversion set belong together, and the weights written to the tiles
can be read back exactly. -/
structure Inverse (E : Env P C) : Prop where
  tile : E.map E.tileCls = none
  tileD : E.dmap E.tileCls = none
  analog : ∀ c c', E.map c = some (.container c') ∨ E.map c = some (.layer c') → E.analog c' = true
  container : ∀ c c', E.map c = some (.container c') → E.dmap c' = some (some (.container c))
  layer : ∀ c c', E.map c = some (.layer c') → E.dmap c' = some (some (.layer c))
  exact_ : ∀ c c' cfg v tv, E.map c = some (.layer c') → E.enc c' cfg v = .ok tv →
    E.dec c (E.shell v) tv = .ok v

/-- A digital model: ordinary classes outside the conversion set; layers have no children, containers
no content of their own. -/
structure Digital (E : Env P C) (h : Nat → Obj P) (i : Nat) : Prop where
  plain : ∀ p j, resolve h i p = some j → ∃ c, (h j).cls = .plain c ∧ E.dmap c = none
  layer : ∀ p j c, resolve h i p = some j → E.target (h j).cls = some (.layer c) → (h j).kids = []
  container : ∀ p j c, resolve h i p = some j → E.target (h j).cls = some (.container c) →
    ∃ k, (h j).cls = .plain k ∧ (h j).val = E.fresh k

/-- After `convert_to_analog` and `convert_to_digital` the model has the same modules under the same
names, in the same order, of the same classes and with the same values; converted modules are in
training mode, all others in the mode they were. -/
theorem C29_round_trip (E : Env P C) (hE : Inverse E) (fuel fuel' : Nat) (ex : List String)
    (ensure inplace inplace' : Bool) (i : Nat) (st : St P) (i' : Nat) (st' : St P) (i'' : Nat)
    (st'' : St P) (hw : WF st) (hi : i < st.next) (hu : Unshared st.heap i)
    (hd : Digital E st.heap i)
    (hreg : ∀ c k, find (E.name c) st.registry = some k → k = c)
    (h : convertToAnalog E fuel ex "" ensure inplace i st = .ok (i', st'))
    (h' : convertToDigital E fuel' "" inplace' i' st' = .ok (i'', st'')) :
    (∀ p, (resolve st''.heap i'' p).isSome = (resolve st.heap i p).isSome) ∧
    ∀ p j, resolve st.heap i p = some j → ∃ j'', resolve st''.heap i'' p = some j'' ∧
      (st''.heap j'').cls = (st.heap j).cls ∧ (st''.heap j'').val = (st.heap j).val ∧
      names (st''.heap j'') = names (st.heap j) ∧
      (Excluded ex "" p ∨ E.target (st.heap j).cls = none →
        (st''.heap j'').training = (st.heap j).training) ∧
      (¬Excluded ex "" p → E.target (st.heap j).cls ≠ none → (st''.heap j'').training = true) := by
  have hT := hE.tile
  obtain ⟨w1, l1, u1⟩ := convertToAnalog_tree E hT fuel ex "" ensure inplace i st i' st' hw hi hu h
  have conv := C29_converted E hT fuel ex "" ensure inplace i st i' st' hw hi hu h
  have added := C29_nothing_added E hT fuel ex "" ensure inplace i st i' st' hw hi hu h
  -- nothing of a digital model is hidden
  have nh : ∀ p j, resolve st.heap i p = some j → ¬Hidden E ex "" st.heap i p := by
    rintro p j hj ⟨q, r, k, c, rfl, e2, e3, e4, e5⟩
    obtain ⟨y, n1, n2⟩ := resolve_append.1 hj
    rw [e3] at n1
    cases n1
    cases r with
    | nil => exact e2 rfl
    | cons a r =>
      obtain ⟨z, n3, _⟩ := resolve_cons.1 n2
      have := child_mem n3
      rw [hd.layer q k c e3 e5] at this
      cases this
  -- the class of a converted module
  have cls : ∀ p c, finalCls E st.registry ensure "" p (.plain c) = .plain c ∨
      (p = [] ∧ finalCls E st.registry ensure "" p (.plain c) = .wrapped c) := by
    intro p c
    unfold finalCls
    by_cases hp : p = []
    · rw [if_pos hp]
      unfold rootCls
      by_cases hc : ensure = true ∧ ("" : String) = "" ∧ E.analog c = false
      · dsimp only
        rw [if_pos hc]
        right
        refine ⟨hp, ?_⟩
        cases hf : find (E.name c) st.registry with
        | none => rfl
        | some k => rw [hreg c k hf]; rfl
      · dsimp only
        rw [if_neg hc]; exact Or.inl rfl
    · rw [if_neg hp]; exact Or.inl rfl
  -- analog classes are not wrapped
  have clsA : ∀ p c, E.analog c = true → finalCls E st.registry ensure "" p (.plain c) = .plain c := by
    intro p c hc
    unfold finalCls
    split_ifs
    · unfold rootCls
      dsimp only
      rw [if_neg]
      rintro ⟨_, _, h3⟩
      rw [hc] at h3
      cases h3
    · rfl
  -- the classes in the analog model
  have info : ∀ p x, resolve st'.heap i' p = some x → (∃ c, (st'.heap x).cls = .plain c) ∨
      (p = [] ∧ ∃ c, (st'.heap x).cls = .wrapped c) := by
    intro p x hx
    rcases added p x hx with ⟨j, h1, h2⟩ | ⟨q, j, c, rfl, h1, h2, h3, h4⟩
    · obtain ⟨j', k1, k2, k3, k4⟩ := conv p j h1 h2
      rw [hx] at k1
      simp only [Option.some.injEq] at k1
      subst k1
      have use : ∀ c, (st'.heap x).cls = finalCls E st.registry ensure "" p (.plain c) →
          (∃ c, (st'.heap x).cls = .plain c) ∨ (p = [] ∧ ∃ c, (st'.heap x).cls = .wrapped c) := by
        intro c hc
        rcases cls p c with e | ⟨e1, e2⟩
        · exact Or.inl ⟨c, hc.trans e⟩
        · exact Or.inr ⟨e1, c, hc.trans e2⟩
      obtain ⟨c0, hc0, _⟩ := hd.plain p j h1
      by_cases hex : Excluded ex "" p
      · have := (k2 (Or.inl hex)).1
        rw [hc0] at this
        exact use c0 this
      cases ht : E.target (st.heap j).cls with
      | none =>
        have := (k2 (Or.inr ht)).1
        rw [hc0] at this
        exact use c0 this
      | some t =>
        cases t with
        | container c => exact use c (k3 c hex ht).1
        | layer c =>
          obtain ⟨k, v, _, m2, _⟩ := k4 c hex ht
          exact use c (congrArg Obj.cls m2)
    · obtain ⟨j', k1, _, _, k4⟩ := conv q j h1 h3
      obtain ⟨k, v, _, m2, m3⟩ := k4 c h2 h4
      obtain ⟨y, n1, n2⟩ := resolve_append.1 hx
      rw [k1] at n1
      simp only [Option.some.injEq] at n1
      subst n1
      have : x = k := by simpa [resolve, child, m2, find] using n2.symm
      subst this
      exact Or.inl ⟨_, congrArg Obj.cls m3⟩
  obtain ⟨dfwd, dbwd⟩ := C29_digital E fuel' inplace' i' st' i'' st'' w1 l1 u1 (by
    intro p x c hp hx hc
    rcases info p x hx with ⟨k, hk⟩ | ⟨e, _⟩
    · rw [hk] at hc; cases hc
    · exact absurd e hp) h'
  -- digital hiding in the analog model: exactly the tiles
  have nhd : ∀ p j, resolve st.heap i p = some j → ¬HiddenD E st'.heap i' p := by
    rintro p j hj ⟨q, r, x, c, c', rfl, e2, e3, e4, e5⟩
    obtain ⟨y, n1, n2⟩ := resolve_append.1 hj
    have hq : ∃ a l, r = a :: l := by
      cases r with
      | nil => exact absurd rfl e2
      | cons a l => exact ⟨a, l, rfl⟩
    obtain ⟨a, l, rfl⟩ := hq
    obtain ⟨z, n3, _⟩ := resolve_cons.1 n2
    have hy : names (st.heap y) ≠ [] := by
      intro hn
      have hm := child_mem n3
      have : a ∈ names (st.heap y) := by
        simp only [names, List.mem_filterMap]
        exact ⟨_, hm, rfl⟩
      rw [hn] at this
      cases this
    obtain ⟨j', k1, k2, k3, k4⟩ := conv q y n1 (nh q y n1)
    rw [e3] at k1
    simp only [Option.some.injEq] at k1
    subst k1
    obtain ⟨c0, hc0, hc1⟩ := hd.plain q y n1
    by_cases hex : Excluded ex "" q ∨ E.target (st.heap y).cls = none
    · have := (k2 hex).1
      rw [hc0, e4] at this
      rcases cls q c0 with e | ⟨_, e⟩
      · rw [e] at this
        cases this
        rw [hc1] at e5
        cases e5
      · rw [e] at this; cases this
    · push Not at hex
      obtain ⟨hex, hne⟩ := hex
      cases ht : E.target (st.heap y).cls with
      | none => exact hne ht
      | some t =>
        rw [hc0] at ht
        cases t with
        | container k =>
          have := (k3 k hex (by rw [hc0]; exact ht)).1
          rw [e4] at this
          rcases cls q k with e | ⟨_, e⟩
          · rw [e] at this
            cases this
            rw [hE.container c0 c ht] at e5
            cases e5
          · rw [e] at this; cases this
        | layer k =>
          have := hd.layer q y k n1 (by rw [hc0]; exact ht)
          exact hy (by simp [names, this])
  -- every module comes back
  have main : ∀ p j, resolve st.heap i p = some j → ∃ j'', resolve st''.heap i'' p = some j'' ∧
      (st''.heap j'').cls = (st.heap j).cls ∧ (st''.heap j'').val = (st.heap j).val ∧
      names (st''.heap j'') = names (st.heap j) ∧
      (Excluded ex "" p ∨ E.target (st.heap j).cls = none →
        (st''.heap j'').training = (st.heap j).training) ∧
      (¬Excluded ex "" p → E.target (st.heap j).cls ≠ none → (st''.heap j'').training = true) := by
    intro p j hj
    obtain ⟨j', k1, k2, k3, k4⟩ := conv p j hj (nh p j hj)
    obtain ⟨c0, hc0, hc1⟩ := hd.plain p j hj
    obtain ⟨j'', m1, m2, m3, m4, m5⟩ := dfwd p j' k1 (nhd p j hj)
    refine ⟨j'', m1, ?_⟩
    by_cases hex : Excluded ex "" p ∨ E.target (st.heap j).cls = none
    · obtain ⟨q1, q2, q3, q4⟩ := k2 hex
      rw [hc0] at q1
      have fin : (st''.heap j'').cls = .plain c0 ∧ (st''.heap j'').training = (st'.heap j').training ∧
          (st''.heap j'').val = (st'.heap j').val ∧ names (st''.heap j'') = names (st'.heap j') := by
        rcases cls p c0 with e | ⟨_, e⟩
        · rw [e] at q1
          obtain ⟨a1, a2, a3, a4⟩ := m3 c0 q1 hc1
          exact ⟨a1.trans q1, a2, a3, a4⟩
        · rw [e] at q1
          obtain ⟨a1, a2, a3, a4⟩ := m2 c0 q1
          exact ⟨a1, a2, a3, a4⟩
      refine ⟨by rw [hc0]; exact fin.1, fin.2.2.1.trans q3, fin.2.2.2.trans q4,
        fun _ => fin.2.1.trans q2, fun hn1 hn2 => ?_⟩
      rcases hex with hex | hex
      · exact absurd hex hn1
      · exact absurd hex hn2
    · push Not at hex
      obtain ⟨hex, hne⟩ := hex
      have tr : (st''.heap j'').cls = (st.heap j).cls ∧ (st''.heap j'').val = (st.heap j).val ∧
          names (st''.heap j'') = names (st.heap j) ∧ (st''.heap j'').training = true := by
        cases ht : E.target (st.heap j).cls with
        | none => exact absurd ht hne
        | some t =>
          have ht0 : E.map c0 = some t := by rw [hc0] at ht; exact ht
          cases t with
          | container k =>
            obtain ⟨q1, q2, q3, q4⟩ := k3 k hex ht
            obtain ⟨k', v1, v2⟩ := hd.container p j k hj ht
            rw [hc0] at v1
            cases v1
            rw [clsA p k (hE.analog c0 k (Or.inl ht0))] at q1
            obtain ⟨a1, a2, a3, a4⟩ := m4 k c0 q1 (hE.container c0 k ht0)
            exact ⟨by rw [a1, hc0]; rfl, a3.trans v2.symm, a4.trans q4, a2⟩
          | layer k =>
            obtain ⟨t, v, q1, q2, q3⟩ := k4 k hex ht
            rw [clsA p k (hE.analog c0 k (Or.inr ht0))] at q2
            obtain ⟨t', v', a1, a2, a3⟩ := m5 k c0 (congrArg Obj.cls q2) (hE.layer c0 k ht0)
            have htt : t' = t := by simpa [child, q2, find] using a1.symm
            subst htt
            rw [q2, q3] at a2
            have := hE.exact_ c0 k _ _ _ ht0 q1
            rw [this] at a2
            cases a2
            rw [a3, hc0]
            exact ⟨rfl, rfl, by simp [names, hd.layer p j k hj ht], rfl⟩
      exact ⟨tr.1, tr.2.1, tr.2.2.1, fun hc => by
        rcases hc with hc | hc
        · exact absurd hc hex
        · exact absurd hc hne, fun _ _ => tr.2.2.2⟩
  refine ⟨?_, main⟩
  intro p
  cases hp : resolve st.heap i p with
  | some j =>
    obtain ⟨j'', m1, _⟩ := main p j hp
    rw [m1]; rfl
  | none =>
    cases hq : resolve st''.heap i'' p with
    | none => rfl
    | some x =>
      exfalso
      obtain ⟨y, y1, y2⟩ := dbwd p x hq
      rcases added p y y1 with ⟨j, h1, _⟩ | ⟨q, j, c, rfl, h1, h2, h3, h4⟩
      · rw [hp] at h1; cases h1
      · obtain ⟨j', k1, _, _, k4⟩ := conv q j h1 h3
        obtain ⟨k, v, _, q2, _⟩ := k4 c h2 h4
        obtain ⟨c0, hc0, _⟩ := hd.plain q j h1
        have ht0 : E.map c0 = some (.layer c) := by rw [hc0] at h4; exact h4
        rw [clsA q c (hE.analog c0 c (Or.inr ht0))] at q2
        exact y2 ⟨q, ["analog_module"], j', c, c0, rfl, by simp, k1, congrArg Obj.cls q2,
          hE.layer c0 c ht0⟩

end Aihw.Convert

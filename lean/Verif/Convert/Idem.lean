import Verif.Convert.Props

/-!
# C29 — converting twice
-/
namespace Aihw.Convert

variable {P C : Type}

theorem finishA_new (E : Env P C) (ensure : Bool) (nm : String) (i : Nat) (st : St P) :
    finishA E ensure nm i st = (i, st) ∨ st.next ≤ (finishA E ensure nm i st).1 := by
  unfold finishA
  split_ifs
  · unfold wrap
    cases (st.heap i).cls with
    | wrapped c => exact Or.inl rfl
    | plain c =>
      simp only
      cases find (E.name c) st.registry with
      | some c' => exact Or.inr (le_refl _)
      | none => exact Or.inr (le_refl _)
  · exact Or.inl rfl

/-- The result of a conversion is a well-formed module tree without sharing. -/
theorem convertToAnalog_tree (E : Env P C) (hT : E.map E.tileCls = none) (fuel : Nat) (ex : List String)
    (nm : String) (ensure inplace : Bool) (i : Nat) (st : St P) (i' : Nat) (st' : St P)
    (hw : WF st) (hi : i < st.next) (hu : Unshared st.heap i)
    (h : convertToAnalog E fuel ex nm ensure inplace i st = .ok (i', st')) :
    WF st' ∧ i' < st'.next ∧ Unshared st'.heap i' := by
  rw [convertToAnalog_start] at h
  obtain ⟨w0, l0, u0, _⟩ := start_spec inplace i st hw hi hu
  obtain ⟨i1, st1, e1, o⟩ := walkA_out E hT ex ensure fuel nm _ _ _ w0 l0 u0 h
  obtain ⟨_, _, _, g4, _, g6, g7⟩ := finishA_spec E ensure nm i1 st1 o.wf o.lt
  have hnew := finishA_new E ensure nm i1 st1
  rw [← e1] at g4 g6 g7 hnew
  simp only at g4 g6 g7 hnew
  refine ⟨g4, g6, ?_⟩
  rcases hnew with hnew | hnew
  · cases hnew; exact o.core.unsh
  have cyc : ∀ n p, resolve st'.heap i' (n :: p) ≠ some i' := by
    intro n p hp
    rw [g7 _ (by simp)] at hp
    have := resolve_lt o.wf o.lt hp
    omega
  intro p q x hp hq
  cases p with
  | nil =>
    cases q with
    | nil => rfl
    | cons m q =>
      simp only [resolve, Option.some.injEq] at hp
      subst hp
      exact absurd hq (cyc m q)
  | cons n p =>
    cases q with
    | nil =>
      simp only [resolve, Option.some.injEq] at hq
      subst hq
      exact absurd hp (cyc n p)
    | cons m q =>
      rw [g7 _ (by simp)] at hp hq
      exact o.core.unsh _ _ x hp hq

theorem kidsLoop_fix {step : String → Nat → St P → Except PyErr (Option Nat × St P)} {st : St P} :
    ∀ (l : List (String × Nat)),
      (∀ a ∈ l, ∀ r st', step a.1 a.2 st = .ok (r, st') → st' = st ∧ (r = none ∨ r = some a.2)) →
      ∀ d st', kidsLoop step l st = .ok (d, st') → st' = st ∧ ∀ a ∈ d, a ∈ l := by
  intro l
  induction l with
  | nil =>
    intro _ d st' h
    simp only [kidsLoop, Except.ok.injEq, Prod.mk.injEq] at h
    obtain ⟨rfl, rfl⟩ := h
    exact ⟨rfl, by simp⟩
  | cons a l ih =>
    rcases a with ⟨m, j⟩
    intro hs d st' h
    simp only [kidsLoop] at h
    rcases h1 : step m j st with e | ⟨r, st1⟩
    · rw [h1] at h; cases h
    rw [h1] at h
    simp only at h
    obtain ⟨rfl, hr⟩ := hs (m, j) (List.mem_cons_self ..) r st1 h1
    rcases h2 : kidsLoop step l st1 with e | ⟨d2, st2⟩
    · rw [h2] at h; cases h
    rw [h2] at h
    simp only [Except.ok.injEq, Prod.mk.injEq] at h
    obtain ⟨rfl, rfl⟩ := h
    obtain ⟨rfl, b⟩ := ih (fun a ha => hs a (List.mem_cons_of_mem _ ha)) d2 st2 h2
    refine ⟨rfl, ?_⟩
    rcases hr with rfl | rfl
    · exact fun a ha => List.mem_cons_of_mem _ (b a ha)
    · intro a ha
      rcases List.mem_cons.1 ha with rfl | ha'
      · exact List.mem_cons_self ..
      · exact List.mem_cons_of_mem _ (b a ha')

/-- Storing children under the names they already have changes nothing. -/
theorem setKids_same {st : St P} (hw : WF st) {i : Nat} (hi : i < st.next) (d : List (String × Nat))
    (hd : ∀ a ∈ d, (a.1, some a.2) ∈ (st.heap i).kids) : st.setKids i d = st := by
  have hk : replaceKids d (st.heap i).kids = (st.heap i).kids := by
    unfold replaceKids
    have hid : ∀ a ∈ (st.heap i).kids, (match find a.1 d with
        | some k => (a.1, some k)
        | none => a) = a := by
      rintro ⟨n, o⟩ hm
      simp only
      cases hf : find n d with
      | none => rfl
      | some y =>
        have h1 := hd _ (find_mem hf)
        have h2 := find_of_mem (hw.nodup i hi) h1
        have h3 := find_of_mem (hw.nodup i hi) hm
        rw [h2] at h3
        simp only [Option.some.injEq] at h3
        subst h3
        rfl
    exact (List.map_congr_left (g := id) hid).trans (List.map_id _)
  rcases st with ⟨h, n, r, c⟩
  simp only [St.setKids, St.mk.injEq, and_true]
  funext k
  simp only at hk
  split_ifs with e
  · subst e; rw [hk]
  · rfl

/-- If nothing below is left to convert, the traversal changes nothing. -/
theorem walk_fix (E : Env P C) (ex : List String) (ensure : Bool) :
    ∀ (f : Nat) (nm : String) (i : Nat) (st : St P) (res : Nat × St P), WF st → i < st.next →
      (∀ p j, resolve st.heap i p = some j → ¬SkipPath (fun f => decide (f ∈ ex)) nm p →
        pathName nm p ∈ ex ∨ E.target (st.heap j).cls = none) →
      walk (fun f => decide (f ∈ ex)) (selfA E ex) (leafA E) (finishA E ensure) f nm i st = .ok res →
      res = finishA E ensure nm i st := by
  intro f
  induction f with
  | zero => intro nm i st res _ _ _ h; cases h
  | succ f ih =>
    intro nm i st res hw hi hc h
    rw [walk] at h
    have hself : selfA E ex nm i st = .ok (none, st) := by
      unfold selfA
      rcases hc [] i rfl (skipPath_nil _ _) with h1 | h1
      · cases E.target (st.heap i).cls with
        | none => rfl
        | some t => simp only; rw [if_pos (by exact h1)]
      · rw [h1]
    rw [hself] at h
    simp only [Option.getD_none] at h
    rcases hl : kidsLoop (fun n j st => if decide (fullName nm n ∈ ex) then .ok (none, st)
      else if 0 < (namedChildren (st.heap j)).length then
        (walk (fun f => decide (f ∈ ex)) (selfA E ex) (leafA E) (finishA E ensure) f
          (fullName nm n) j st).map fun p => (some p.1, p.2)
      else leafA E (fullName nm n) j st) (namedChildren (st.heap i)) st with e | ⟨d, st2⟩
    · rw [hl] at h; cases h
    rw [hl] at h
    simp only [Except.ok.injEq] at h
    obtain ⟨rfl, hd⟩ := kidsLoop_fix _ (by
      rintro ⟨n, j⟩ ha r st' hs
      have hm := (namedFrom_mem ha).1
      have hne := hw.names i hi _ _ hm
      have hch := child_of_mem (hw.nodup i hi) hm
      simp only at hs
      by_cases hx : fullName nm n ∈ ex
      · rw [if_pos (by simpa using hx)] at hs
        cases hs
        exact ⟨rfl, Or.inl rfl⟩
      rw [if_neg (by simpa using hx)] at hs
      have hsk : ∀ p, ¬SkipPath (fun f => decide (f ∈ ex)) (fullName nm n) p →
          ¬SkipPath (fun f => decide (f ∈ ex)) nm (n :: p) := by
        intro p hp hc2
        exact hp ((skipPath_cons p (by simpa using hx)).1 hc2)
      split_ifs at hs with hk
      · rcases hwk : walk (fun f => decide (f ∈ ex)) (selfA E ex) (leafA E) (finishA E ensure) f
          (fullName nm n) j st with e | q
        · rw [hwk] at hs; cases hs
        rw [hwk] at hs
        simp only [Except.map, Except.ok.injEq, Prod.mk.injEq] at hs
        obtain ⟨rfl, rfl⟩ := hs
        have := ih (fullName nm n) j st q hw (hw.closed i hi n j hm) (by
          intro p x hx2 hp
          exact hc (n :: p) x (resolve_cons.2 ⟨j, hch, hx2⟩) (hsk p hp)) hwk
        rw [this]
        have e : finishA E ensure (fullName nm n) j st = (j, st) := by
          simp [finishA, fullName_ne nm n hne]
        rw [e]
        exact ⟨rfl, Or.inr rfl⟩
      · have ht : E.target (st.heap j).cls = none := by
          rcases hc [n] j (resolve_cons.2 ⟨j, hch, rfl⟩) (hsk [] (skipPath_nil _ _)) with h1 | h1
          · exact absurd h1 hx
          · exact h1
        unfold leafA at hs
        rw [ht] at hs
        cases hs
        exact ⟨rfl, Or.inl rfl⟩) d st2 hl
    rw [setKids_same hw hi d fun a ha => (namedFrom_mem (hd a ha)).1] at h
    exact h.symm

theorem rootCls_target (E : Env P C) (reg : List (String × Nat)) (ensure : Bool) (nm : String)
    (p : List String) (c : Cls) (h : E.target c = none) :
    E.target (finalCls E reg ensure nm p c) = none := by
  unfold finalCls
  split_ifs
  · unfold rootCls
    cases c with
    | wrapped c => rfl
    | plain c =>
      simp only
      split_ifs
      · rfl
      · exact h
  · exact h

/-- Converting the converted model again, with the same arguments, changes nothing: in place, the very
same root object and state come back (no call of `specific_rpu_config_fun`, no new object); otherwise
a plain deep copy. -/
theorem C29_idempotent (E : Env P C) (hT : E.map E.tileCls = none)
    (hmap : ∀ c t, E.map c = some (.container t) ∨ E.map c = some (.layer t) → E.map t = none)
    (fuel fuel' : Nat) (ex : List String) (nm : String) (ensure inplace inplace' : Bool) (i : Nat)
    (st : St P) (i' : Nat) (st' : St P) (i'' : Nat) (st'' : St P)
    (hw : WF st) (hi : i < st.next) (hu : Unshared st.heap i)
    (h : convertToAnalog E fuel ex nm ensure inplace i st = .ok (i', st'))
    (h' : convertToAnalog E fuel' ex nm ensure inplace' i' st' = .ok (i'', st'')) :
    (i'', st'') = if inplace' then (i', st') else (i' + st'.next, deepcopy st') := by
  obtain ⟨w1, l1, u1⟩ := convertToAnalog_tree E hT fuel ex nm ensure inplace i st i' st' hw hi hu h
  have hmap' : ∀ c t, E.target c = some (.container t) ∨ E.target c = some (.layer t) →
      E.target (.plain t) = none := by
    intro c t hc
    cases c with
    | wrapped c => rcases hc with hc | hc <;> cases hc
    | plain c => exact hmap c t hc
  -- nothing is left to convert
  have clean : ∀ p j, resolve st'.heap i' p = some j → ¬SkipPath (fun f => decide (f ∈ ex)) nm p →
      pathName nm p ∈ ex ∨ E.target (st'.heap j).cls = none := by
    intro p x hx hs
    rcases C29_nothing_added E hT fuel ex nm ensure inplace i st i' st' hw hi hu h p x hx with
      ⟨j, h1, h2⟩ | ⟨q, j, c, rfl, h1, h2, h3, h4⟩
    · obtain ⟨j', k1, k2, k3, k4⟩ :=
        C29_converted E hT fuel ex nm ensure inplace i st i' st' hw hi hu h p j h1 h2
      rw [hx] at k1
      simp only [Option.some.injEq] at k1
      subst k1
      have hpn := resolve_names hw hi h1
      by_cases hex : Excluded ex nm p
      · rw [excluded_iff ex nm p hpn] at hex
        rcases hex with ⟨rfl, hex⟩ | hex
        · exact Or.inl hex
        · exact absurd hex hs
      refine Or.inr ?_
      cases ht : E.target (st.heap j).cls with
      | none =>
        rw [(k2 (Or.inr ht)).1]
        exact rootCls_target E _ _ _ _ _ ht
      | some t =>
        cases t with
        | container c =>
          rw [(k3 c hex ht).1]
          exact rootCls_target E _ _ _ _ _ (hmap' _ c (Or.inl ht))
        | layer c =>
          obtain ⟨k, v, _, m2, _⟩ := k4 c hex ht
          rw [m2]
          exact rootCls_target E _ _ _ _ _ (hmap' _ c (Or.inr ht))
    · obtain ⟨j', k1, _, _, k4⟩ :=
        C29_converted E hT fuel ex nm ensure inplace i st i' st' hw hi hu h q j h1 h3
      obtain ⟨k, v, _, m2, m3⟩ := k4 c h2 h4
      obtain ⟨y, n1, n2⟩ := resolve_append.1 hx
      rw [k1] at n1
      simp only [Option.some.injEq] at n1
      subst n1
      have : x = k := by
        simpa [resolve, child, m2, find] using n2.symm
      subst this
      exact Or.inr (by rw [m3]; exact hT)
  -- the root needs no wrapping
  have root : ∀ (reg : List (String × Nat)) (c : Cls),
      rootCls E reg ensure nm (rootCls E st.registry ensure nm c) = rootCls E st.registry ensure nm c := by
    intro reg c
    cases c with
    | wrapped c => rfl
    | plain c =>
      by_cases hc : ensure = true ∧ nm = "" ∧ E.analog c = false
      · have e : rootCls E st.registry ensure nm (.plain c) =
            .wrapped ((find (E.name c) st.registry).getD c) := by
          simp only [rootCls]; rw [if_pos hc]
        rw [e]; rfl
      · have e : ∀ reg, rootCls E reg ensure nm (.plain c) = .plain c := by
          intro reg; simp only [rootCls]; rw [if_neg hc]
        rw [e, e]
  have hroot : ∃ c, (st'.heap i').cls = rootCls E st.registry ensure nm c := by
    have hh : ¬Hidden E ex nm st.heap i [] := by
      rintro ⟨q, r, j, c, e1, e2, _⟩
      exact e2 (List.append_eq_nil_iff.1 e1.symm).2
    obtain ⟨j', k1, k2, k3, k4⟩ :=
      C29_converted E hT fuel ex nm ensure inplace i st i' st' hw hi hu h [] i rfl hh
    simp only [resolve, Option.some.injEq] at k1
    subst k1
    have fc : ∀ c, finalCls E st.registry ensure nm [] c = rootCls E st.registry ensure nm c := by
      intro c; simp [finalCls]
    by_cases hex : Excluded ex nm []
    · exact ⟨_, (k2 (Or.inl hex)).1.trans (fc _)⟩
    cases ht : E.target (st.heap i).cls with
    | none => exact ⟨_, (k2 (Or.inr ht)).1.trans (fc _)⟩
    | some t =>
      cases t with
      | container c => exact ⟨_, (k3 c hex ht).1.trans (fc _)⟩
      | layer c =>
        obtain ⟨k, v, _, m2, _⟩ := k4 c hex ht
        exact ⟨.plain c, (congrArg Obj.cls m2).trans (fc (.plain c))⟩
  obtain ⟨c0, hc0⟩ := hroot
  have fin : ∀ (k : Nat) (s : St P), (s.heap k).cls = (st'.heap i').cls →
      finishA E ensure nm k s = (k, s) := by
    intro k s he
    unfold finishA
    rw [if_neg]
    intro hb
    simp only [Bool.and_eq_true, decide_eq_true_eq, Bool.not_eq_true'] at hb
    obtain ⟨⟨b1, b2⟩, b3⟩ := hb
    rw [he] at b3
    cases hcl : (st'.heap i').cls with
    | wrapped c => rw [hcl] at b3; cases b3
    | plain c =>
      rw [hcl] at b3
      have b4 : E.analog c = false := b3
      have := root [] c0
      rw [← hc0, hcl] at this
      simp only [rootCls] at this
      rw [if_pos ⟨b1, b2, b4⟩] at this
      cases this
  rw [convertToAnalog_start] at h'
  obtain ⟨w0, l0, u0, _, _, f, fr, fs⟩ := start_spec inplace' i' st' w1 l1 u1
  have hfix := walk_fix E ex ensure fuel' nm _ _ _ w0 l0 (by
    intro p j hj hs
    rw [fr] at hj
    obtain ⟨x, hx, rfl⟩ := Option.map_eq_some_iff.1 hj
    rw [(fs x).1]
    exact clean p x hx hs) h'
  rw [hfix, fin]
  · rfl
  · have h0 := fr []
    simp only [resolve, Option.map_some, Option.some.injEq] at h0
    rw [h0]
    exact (fs i').1

end Aihw.Convert

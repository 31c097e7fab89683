import Verif.Optim.Lemmas

/-!
# C25 (regrouping of parameter groups) and the class registry (C43)

The specification of a regrouped optimizer is `Regrouped`: it speaks only about the lists of
parameter groups before and after.
-/
namespace Aihw.Optim
open Aihw

/-- `new` is `old` regrouped, with optimizer defaults `dflt`. -/
structure Regrouped (old new : List Group) (dflt : GOpts) : Prop where
  /-- Every parameter occurs exactly as often as before. -/
  perm : (new.flatMap Group.params).Perm (old.flatMap Group.params)
  /-- An analog parameter is alone in its group, which has the default options. -/
  alone : ∀ g ∈ new, ∀ p ∈ g.params, p.isAnalog = true → g = ⟨[p], dflt⟩
  /-- There is no empty group. -/
  nonempty : ∀ g ∈ new, g.params ≠ []
  /-- The groups with digital parameters are the old groups, in order and with their options,
  restricted to the digital parameters (in order), unless nothing is left. -/
  digital : new.filter (fun g => g.params.all fun p => !p.isAnalog) =
    (old.map fun g => ⟨g.params.filter (fun p => !p.isAnalog), g.opts⟩).filter
      (fun g => !g.params.isEmpty)

theorem perm_strip (gs : List Group) :
    (gs.flatMap Group.params).Perm
      (((gs.map strip).filter (fun g => !g.params.isEmpty)).flatMap Group.params ++ analogOf gs) := by
  have h1 : ((gs.map strip).filter (fun g => !g.params.isEmpty)).flatMap Group.params =
      (gs.flatMap Group.params).filter (fun p => !p.isAnalog) := by
    induction gs with
    | nil => rfl
    | cons g gs ih =>
      simp only [List.map_cons, List.filter_cons, List.flatMap_cons, List.filter_append, ← ih]
      split
      · simp [strip]
      · rename_i hne
        simp only [Bool.not_eq_true', Bool.not_eq_false] at hne
        rw [List.isEmpty_iff] at hne
        simp only [strip] at hne
        rw [hne]; rfl
  rw [h1]
  refine (List.filter_append_perm (fun p => !p.isAnalog) (gs.flatMap Group.params)).symm.trans ?_
  simp only [analogOf, Bool.not_not]
  exact List.Perm.refl _

/-- **C25.** A successful regrouping yields the regrouped parameter groups; the tiles get the default
learning rate, and contexts and defaults are untouched. -/
theorem C25_regrouped (w : World) (s s' : St) (h : regroup w s = (.ok (), s')) :
    Regrouped s.groups s'.groups s.defaults ∧ s'.defaults = s.defaults ∧ s'.ctx = s.ctx ∧
    ∀ i, .analog i ∈ s.groups.flatMap Group.params →
      .setLr (s.ctx i).tile s.defaults.lr ∈ s'.log := by
  obtain ⟨hn, rfl⟩ := regroup_spec w s s' h
  refine ⟨⟨?_, ?_, ?_, ?_⟩, rfl, rfl, ?_⟩
  · refine List.Perm.trans ?_ (perm_strip s.groups).symm
    have : ((analogOf s.groups).map fun p => (⟨[p], s.defaults⟩ : Group)).flatMap Group.params =
        analogOf s.groups := by
      induction analogOf s.groups with
      | nil => rfl
      | cons a l ih => simp only [List.map_cons, List.flatMap_cons, ih]; rfl
    simp only [List.flatMap_append, this]
    exact List.Perm.refl _
  · intro g hg p hp ha
    rcases List.mem_append.1 hg with hg | hg
    · exact absurd (flatMap_strip_digital s.groups p (List.mem_flatMap.2 ⟨g, hg, hp⟩)) (by simp [ha])
    · obtain ⟨q, _, rfl⟩ := List.mem_map.1 hg
      simp only [List.mem_singleton] at hp
      rw [hp]
  · intro g hg
    rcases List.mem_append.1 hg with hg | hg
    · simpa using (List.mem_filter.1 hg).2
    · obtain ⟨q, _, rfl⟩ := List.mem_map.1 hg
      simp
  · rw [List.filter_append]
    have h1 : ((analogOf s.groups).map fun p => (⟨[p], s.defaults⟩ : Group)).filter
        (fun g => g.params.all fun p => !p.isAnalog) = [] := by
      rw [List.filter_eq_nil_iff]
      intro g hg
      obtain ⟨q, hq, rfl⟩ := List.mem_map.1 hg
      simp [(List.mem_filter.1 hq).2]
    rw [h1, List.append_nil]
    refine Eq.trans (List.filter_eq_self.2 ?_) rfl
    intro g hg
    rw [List.all_eq_true]
    intro p hp
    rw [flatMap_strip_digital s.groups p (List.mem_flatMap.2 ⟨g, hg, hp⟩)]; rfl
  · intro i hi
    simp only [lrCalls, List.mem_append, List.mem_filterMap]
    exact Or.inr ⟨_, hi, rfl⟩

/-- **C25.** Regrouping succeeds whenever no analog parameter is listed twice and the tiles accept
the default learning rate; with a twice-listed analog parameter it always raises. -/
theorem C25_succeeds_iff (w : World) (hw : ∀ l t r, w l (.setLr t r) = none) (s : St) :
    (regroup w s).1 = .ok () ↔
      ((s.groups.flatMap Group.params).filter Param.isAnalog).Nodup := by
  constructor
  · intro h
    exact (regroup_spec w s (regroup w s).2 (by rw [← h])).1
  · intro hn
    unfold regroup
    obtain ⟨s1, r, hr⟩ := stripLoop_total w hw [] s.groups s
    obtain ⟨rfl, rfl⟩ := stripLoop_ok _ _ _ _ _ _ hr
    simp only [hr]
    rw [addGroups_ok (analogOf s.groups) _ hn]
    intro p hp hmem
    have h1 := flatMap_strip_digital _ _ hmem
    simp only [analogOf, List.mem_filter] at hp
    rw [hp.2] at h1
    exact absurd h1 (by simp)

/-- **C25.** For the World at hand: a twice-listed analog parameter makes regrouping raise. -/
theorem C25_duplicate_raises (w : World) (s : St)
    (hd : ¬ ((s.groups.flatMap Group.params).filter Param.isAnalog).Nodup) :
    (regroup w s).1 ≠ .ok () := fun h =>
  hd (regroup_spec w s (regroup w s).2 (by rw [← h])).1

/-- **C25.** Regrouping again changes nothing in the groups. -/
theorem C25_idempotent (w : World) (s s1 s2 : St) (h1 : regroup w s = (.ok (), s1))
    (h2 : regroup w s1 = (.ok (), s2)) : s2.groups = s1.groups := by
  obtain ⟨hn, rfl⟩ := regroup_spec w s s1 h1
  obtain ⟨_, rfl⟩ := regroup_spec w _ s2 h2
  simp only
  set D := (s.groups.map strip).filter (fun g => !g.params.isEmpty) with hD
  have hA : analogOf (D ++ (analogOf s.groups).map fun p => ⟨[p], s.defaults⟩) = analogOf s.groups := by
    unfold analogOf
    rw [List.flatMap_append, List.filter_append]
    have e1 : (D.flatMap Group.params).filter Param.isAnalog = [] := by
      rw [List.filter_eq_nil_iff]
      intro p hp
      rw [flatMap_strip_digital s.groups p hp]; simp
    have e2 : (((s.groups.flatMap Group.params).filter Param.isAnalog).map
        fun p => (⟨[p], s.defaults⟩ : Group)).flatMap Group.params =
        (s.groups.flatMap Group.params).filter Param.isAnalog := by
      induction (s.groups.flatMap Group.params).filter Param.isAnalog with
      | nil => rfl
      | cons a l ih => simp only [List.map_cons, List.flatMap_cons, ih]; rfl
    rw [e1, e2, List.nil_append, List.filter_filter]
    simp
  have hS : ((D ++ (analogOf s.groups).map fun p => (⟨[p], s.defaults⟩ : Group)).map strip).filter
      (fun g => !g.params.isEmpty) = D := by
    rw [List.map_append, List.filter_append]
    have e1 : D.map strip = D := by
      conv_rhs => rw [← List.map_id D]
      apply List.map_congr_left
      intro g hg
      have : g.params.filter (fun p => !p.isAnalog) = g.params := by
        rw [List.filter_eq_self]
        intro p hp
        rw [flatMap_strip_digital s.groups p (List.mem_flatMap.2 ⟨g, hg, hp⟩)]; rfl
      simp [strip, this]
    have e2 : (((analogOf s.groups).map fun p => (⟨[p], s.defaults⟩ : Group)).map strip).filter
        (fun g => !g.params.isEmpty) = [] := by
      rw [List.filter_eq_nil_iff]
      intro g hg
      obtain ⟨_, hq, rfl⟩ := List.mem_map.1 hg
      obtain ⟨q, hq', rfl⟩ := List.mem_map.1 hq
      simp [strip, (List.mem_filter.1 hq').2]
    rw [e1, e2, List.append_nil, hD, List.filter_filter]
    simp
  rw [hA, hS]

/-- **C25 (deviation).** The options of an analog parameter's own group are lost: afterwards its
group has the optimizer defaults, in particular the default learning rate, whatever the group said
before (also after a scheduler changed it). -/
theorem C25_group_options_lost (w : World) (s s' : St) (h : regroup w s = (.ok (), s'))
    (g : Group) (hg : g ∈ s'.groups) (i : Nat) (hi : .analog i ∈ g.params) :
    g.opts = s.defaults := by
  rw [(C25_regrouped w s s' h).1.alone g hg _ hi rfl]

/-- Non-vacuity: two groups with own learning rates; the second has only an analog parameter. -/
def exSt : St where
  groups := [⟨[.digital 0, .analog 1, .digital 2], ⟨some (1/2), [("momentum", 1)]⟩⟩,
             ⟨[.analog 3], ⟨some 7, []⟩⟩]
  defaults := ⟨some (1/10), [("momentum", 0)]⟩
  ctx := fun i => ⟨i, false, false, [], []⟩
  log := []

example : (regroup (fun _ _ => none) exSt).1 = .ok () ∧
    (regroup (fun _ _ => none) exSt).2.groups =
      [⟨[.digital 0, .digital 2], ⟨some (1/2), [("momentum", 1)]⟩⟩,
       ⟨[.analog 1], ⟨some (1/10), [("momentum", 0)]⟩⟩,
       ⟨[.analog 3], ⟨some (1/10), [("momentum", 0)]⟩⟩] := by decide +kernel

example : (regroup (fun _ _ => none)
    { exSt with groups := [⟨[.analog 1, .analog 1], ⟨none, []⟩⟩] }).1 = .error .valueError := by
  decide +kernel

/-! ## Learning rate -/

/-- **C26.** `set_learning_rate` sets the learning rate of every group and of every analog tile and
leaves everything else alone. -/
theorem C26_set_learning_rate (w : World) (lr : ℚ) (s s' : St)
    (h : setLearningRate w lr s = (.ok (), s')) :
    s'.groups = s.groups.map (fun g => { g with opts := { g.opts with lr := some lr } }) ∧
    s'.ctx = s.ctx ∧ s'.defaults = s.defaults ∧
    s'.log = s.log ++ (work s.groups).map (fun q => .setLr (s.ctx q.2).tile (some lr)) := by
  have inner : ∀ (ps : List Param) (s s' : St),
      forAll ps (fun p s => match p with
        | .analog i => call w (.setLr (s.ctx i).tile (some lr)) s
        | .digital _ => (.ok (), s)) s = (.ok (), s') →
      s' = { s with log := s.log ++ ps.filterMap (fun p => match p with
        | .analog i => some (.setLr (s.ctx i).tile (some lr))
        | .digital _ => none) } := by
    intro ps
    induction ps with
    | nil => intro s s' h; simp only [forAll, Prod.mk.injEq, true_and] at h; subst h; simp
    | cons p ps ih =>
      intro s s' h
      simp only [forAll] at h
      obtain ⟨s1, h1, h2⟩ := andThen_ok h
      have := ih _ _ h2
      cases p with
      | digital j =>
        simp only [Prod.mk.injEq, true_and] at h1
        subst h1
        rw [this]; simp
      | analog j =>
        simp only [call] at h1
        split at h1
        · simp at h1
        · simp only [Prod.mk.injEq, true_and] at h1
          subst h1
          rw [this]; simp
  -- outer loop over the first `n` groups
  have outer : ∀ (n : Nat) (s1 : St), n ≤ s.groups.length →
      forAll (List.range n) (fun k s' =>
        let s' := { s' with groups := s'.groups.modify k (fun g => { g with opts := { g.opts with lr := some lr } }) }
        forAll ((s.groups.map Group.params).getD k []) (fun p s => match p with
          | .analog i => call w (.setLr (s.ctx i).tile (some lr)) s
          | .digital _ => (.ok (), s)) s') s = (.ok (), s1) →
      s1 = { s with
        groups := (s.groups.take n).map (fun g => { g with opts := { g.opts with lr := some lr } })
          ++ s.groups.drop n
        log := s.log ++ ((s.groups.take n).flatMap Group.params).filterMap (fun p => match p with
          | .analog i => some (.setLr (s.ctx i).tile (some lr))
          | .digital _ => none) } := by
    intro n
    induction n with
    | zero =>
      intro s1 _ h
      simp only [List.range_zero, forAll, Prod.mk.injEq, true_and] at h
      subst h
      simp
    | succ n ih =>
      intro s2 hn h
      rw [List.range_succ, forAll_append] at h
      obtain ⟨s1, h1, h2⟩ := andThen_ok h
      have e1 := ih s1 (by omega) h1
      simp only [forAll] at h2
      obtain ⟨s3, h3, h4⟩ := andThen_ok h2
      simp only [Prod.mk.injEq, true_and] at h4
      subst h4
      have e2 := inner _ _ _ h3
      rw [e2, e1]
      have hlt : n < s.groups.length := by omega
      have hd : s.groups.drop n = s.groups[n] :: s.groups.drop (n + 1) :=
        List.drop_eq_getElem_cons hlt
      have ht : s.groups.take (n + 1) = s.groups.take n ++ [s.groups[n]] := by
        rw [List.take_succ, List.getElem?_eq_getElem hlt]; rfl
      have hlen : (s.groups.take n).length = n := by simp; omega
      have hp : (s.groups.map Group.params).getD n [] = s.groups[n].params := by
        simp [List.getD, hlt]
      simp only [St.mk.injEq, true_and]
      refine ⟨?_, ?_⟩
      · rw [hd, ht]
        have hm : ∀ (A : List Group) (x : Group) (B : List Group) (f : Group → Group),
            (A ++ x :: B).modify A.length f = A ++ f x :: B := by
          intro A x B f
          induction A with
          | nil => rfl
          | cons a A ih => simp only [List.cons_append, List.length_cons, List.modify_succ_cons, ih]
        have := hm ((s.groups.take n).map (fun g => { g with opts := { g.opts with lr := some lr } }))
          s.groups[n] (s.groups.drop (n + 1)) (fun g => { g with opts := { g.opts with lr := some lr } })
        rw [List.length_map, hlen] at this
        rw [this]
        simp only [List.map_append, List.map_cons, List.map_nil, List.append_assoc,
          List.cons_append, List.nil_append]
      · rw [hp, ht, List.flatMap_append, List.filterMap_append, ← List.append_assoc]
        simp only [List.flatMap_cons, List.flatMap_nil, List.append_nil]
  have e := outer s.groups.length s' le_rfl h
  have hw : ((s.groups.flatMap Group.params).filterMap (fun p => match p with
        | .analog i => some (Ev.setLr (s.ctx i).tile (some lr))
        | .digital _ => none)) =
      (work s.groups).map (fun q => .setLr (s.ctx q.2).tile (some lr)) := by
    unfold work
    rw [List.map_flatMap]
    generalize s.groups = gs
    induction gs with
    | nil => rfl
    | cons g gs ih =>
      simp only [List.flatMap_cons, List.filterMap_append, ih]
      congr 1
      induction g.params with
      | nil => rfl
      | cons p ps ih2 => cases p <;> simp [ih2]
  rw [e]
  refine ⟨by simp, rfl, rfl, by simp [hw]⟩

/-! ## C43: the class registry of `AnalogOptimizer` -/

/-- **C43.** `AnalogOptimizer(cls, …)` wraps `cls` whenever all optimizer classes wrapped so far that
have the same name are that very class. -/
theorem C43_wraps_given_class (reg : List PyClass) (c : PyClass)
    (h : ∀ r ∈ reg, r.name = c.name → r = c) : (wrapClass reg c).1 = c := by
  unfold wrapClass
  split
  · rename_i r hr
    exact h r (List.mem_of_find?_eq_some hr) (by simpa using List.find?_some hr)
  · rfl

/-- The registry after a history of constructions. -/
def registry : List PyClass → List PyClass
  | [] => []
  | c :: cs => (wrapClass (registry cs) c).2

/-- **C43 (deviation).** For every history: the instance wraps the *first* class ever wrapped under
that class name; a different class with the same name is ignored. (`cs` lists the earlier
constructions, latest first.) -/
theorem C43_first_of_name (cs : List PyClass) (c : PyClass) :
    (wrapClass (registry cs) c).1 =
      (((c :: cs).reverse).find? (fun r => r.name == c.name)).getD c := by
  have inv : ∀ (cs : List PyClass) (nm : String),
      (registry cs).find? (fun r => r.name == nm) = cs.reverse.find? (fun r => r.name == nm) := by
    intro cs
    induction cs with
    | nil => intro nm; rfl
    | cons a cs ih =>
      intro nm
      simp only [registry, wrapClass, List.reverse_cons, List.find?_append]
      rw [ih a.name]
      cases hf : cs.reverse.find? (fun r => r.name == a.name) with
      | some r =>
        simp only
        rw [ih nm]
        by_cases hn : a.name = nm
        · subst hn; rw [hf]; simp
        · have : ([a] : List PyClass).find? (fun r => r.name == nm) = none := by simp [hn]
          rw [this]; simp
      | none => simp only [List.find?_append, ih nm]
  unfold wrapClass
  rw [inv cs c.name]
  simp only [List.reverse_cons, List.find?_append]
  cases hf : cs.reverse.find? (fun r => r.name == c.name) with
  | some r => simp
  | none => simp

/-- Two different classes named `SGD`: the second request gets the first class. -/
example : (wrapClass (registry [⟨1, "SGD"⟩]) ⟨2, "SGD"⟩).1 = ⟨1, "SGD"⟩ := by decide +kernel

end Aihw.Optim

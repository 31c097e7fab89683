import Verif.Optim.Model

/-! Lemmas about the optimizer model. -/
namespace Aihw.Optim
open Aihw

/-! ## Sequencing -/

theorem andThen_ok {r : Res} {f : St → Res} {s' : St} (h : andThen r f = (.ok (), s')) :
    ∃ s, r = (.ok (), s) ∧ f s = (.ok (), s') := by
  rcases r with ⟨e | u, s⟩
  · simp [andThen] at h
  · exact ⟨s, rfl, h⟩

theorem forAll_append {α : Type} (l₁ l₂ : List α) (f : α → St → Res) (s : St) :
    forAll (l₁ ++ l₂) f s = andThen (forAll l₁ f s) (forAll l₂ f) := by
  induction l₁ generalizing s with
  | nil => simp [forAll, andThen]
  | cons a l ih =>
    simp only [List.cons_append, forAll]
    rcases h : f a s with ⟨e | u, s1⟩ <;> simp [andThen, ih]

theorem forAll_flatMap {α β : Type} (l : List α) (g : α → List β) (f : β → St → Res) (s : St) :
    forAll (l.flatMap g) f s = forAll l (fun a s => forAll (g a) f s) s := by
  induction l generalizing s with
  | nil => simp [forAll]
  | cons a l ih =>
    simp only [List.flatMap_cons, forAll_append, forAll]
    congr 1
    funext s; exact ih s

theorem forAll_map {α β : Type} (l : List α) (g : α → β) (f : β → St → Res) (s : St) :
    forAll (l.map g) f s = forAll l (fun a s => f (g a) s) s := by
  induction l generalizing s with
  | nil => simp [forAll]
  | cons a l ih =>
    simp only [List.map_cons, forAll]
    congr 1
    funext s; exact ih s

theorem call_none {w : World} {e : Ev} {s : St} (h : w s.log e = none) :
    call w e s = (.ok (), { s with log := s.log ++ [e] }) := by simp [call, h]
theorem call_some {w : World} {e : Ev} {s : St} {err : PyErr} (h : w s.log e = some err) :
    call w e s = (.error err, s) := by simp [call, h]

/-- `P` is kept by a state transformer, whether or not it raises. -/
def Pres (P : St → Prop) (f : St → Res) : Prop := ∀ s, P s → P (f s).2

theorem Pres.andThen {P : St → Prop} {f g : St → Res} (hf : Pres P f) (hg : Pres P g) :
    Pres P (fun s => andThen (f s) g) := by
  intro s hs
  have := hf s hs
  rcases h : f s with ⟨e | u, s1⟩ <;> rw [h] at this
  · simpa [h, Optim.andThen] using this
  · simpa [h, Optim.andThen] using hg _ this

theorem Pres.forAll {α : Type} {P : St → Prop} (l : List α) {f : α → St → Res}
    (hf : ∀ a ∈ l, Pres P (f a)) : Pres P (forAll l f) := by
  induction l with
  | nil => intro s hs; exact hs
  | cons a l ih =>
    exact Pres.andThen (hf a (by simp)) (ih fun b hb => hf b (by simp [hb]))

/-! ## regroup -/

/-- The `set_learning_rate` calls of the regrouping for a list of parameters. -/
def lrCalls (s : St) (ps : List Param) : List Ev :=
  ps.filterMap fun p => match p with
    | .analog i => some (.setLr (s.ctx i).tile s.defaults.lr)
    | .digital _ => none

theorem lrLoop_spec (w : World) (ps : List Param) (s : St) :
    let r := forAll ps (fun p s =>
      match p with
      | .analog i => call w (.setLr (s.ctx i).tile s.defaults.lr) s
      | .digital _ => (.ok (), s)) s
    (∃ l, r.2 = { s with log := l }) ∧
    (r.1 = .ok () → r.2.log = s.log ++ lrCalls s ps) := by
  induction ps generalizing s with
  | nil => simp only [forAll, lrCalls]; exact ⟨⟨s.log, rfl⟩, by simp⟩
  | cons p ps ih =>
    cases p with
    | digital i =>
      simp only [forAll, andThen]
      exact ih s
    | analog i =>
      simp only [forAll]
      rcases hw : w s.log (.setLr (s.ctx i).tile s.defaults.lr) with _ | err
      swap
      · rw [call_some hw]; simp only [andThen]; exact ⟨⟨s.log, rfl⟩, by simp⟩
      · rw [call_none hw]
        simp only [andThen]
        have := ih { s with log := s.log ++ [.setLr (s.ctx i).tile s.defaults.lr] }
        obtain ⟨⟨l, hl⟩, h2⟩ := this
        refine ⟨⟨l, hl⟩, fun h => ?_⟩
        rw [h2 h]
        simp [lrCalls]

theorem regroupOne_spec (w : World) (g : Group) (s : St) :
    (∃ l, (regroupOne w g s).2 = { s with log := l }) ∧
    ((regroupOne w g s).1 = .ok () → (regroupOne w g s).2.log = s.log ++ lrCalls s g.params) :=
  lrLoop_spec w g.params s

/-- A group without its analog parameters. -/
def strip (g : Group) : Group := ⟨g.params.filter (fun p => !p.isAnalog), g.opts⟩

theorem lrCalls_log (s : St) (l : List Ev) (ps : List Param) :
    lrCalls { s with log := l } ps = lrCalls s ps := rfl

theorem stripLoop_ok (w : World) (done todo : List Group) (s s' : St) (r : List Group)
    (h : stripLoop w done todo s = ((.ok (), s'), r)) :
    r = done ++ todo.map strip ∧
    s' = { s with log := s.log ++ lrCalls s (todo.flatMap Group.params) } := by
  induction todo generalizing done s with
  | nil =>
    simp only [stripLoop, Prod.mk.injEq, true_and] at h
    obtain ⟨rfl, rfl⟩ := h
    simp [lrCalls]
  | cons g todo ih =>
    simp only [stripLoop] at h
    have hs := regroupOne_spec w g s
    rcases hr : regroupOne w g s with ⟨e | u, s1⟩
    · rw [hr] at h; simp at h
    · rw [hr] at h hs
      simp only at h hs
      obtain ⟨h1, h2⟩ := ih _ _ h
      obtain ⟨⟨l, hl⟩, hl2⟩ := hs
      have hl2 := hl2 trivial
      constructor
      · rw [h1]; simp [strip]
      · rw [h2, hl2, hl]
        rw [lrCalls_log]
        simp [lrCalls, List.filterMap_append]

theorem addGroups_ok (ps : List Param) (s : St) (hn : ps.Nodup)
    (hd : ∀ p ∈ ps, p ∉ s.groups.flatMap Group.params) :
    forAll ps (fun p s => addParamGroup [p] s) s =
      (.ok (), { s with groups := s.groups ++ ps.map fun p => ⟨[p], s.defaults⟩ }) := by
  induction ps generalizing s with
  | nil => simp [forAll]
  | cons p ps ih =>
    have hp : p ∉ s.groups.flatMap Group.params := hd p (by simp)
    have hn' := List.nodup_cons.1 hn
    have hadd : addParamGroup [p] s = (.ok (), { s with groups := s.groups ++ [⟨[p], s.defaults⟩] }) := by
      simp only [addParamGroup, List.any_cons, List.any_nil, Bool.or_false, decide_eq_true_eq]
      rw [if_neg hp]
    simp only [forAll]
    rw [hadd]
    simp only [andThen]
    rw [ih _ hn'.2]
    · simp
    · intro q hq hmem
      simp only [List.flatMap_append, List.flatMap_cons, List.flatMap_nil, List.append_nil,
        List.mem_append, List.mem_singleton] at hmem
      rcases hmem with hmem | rfl
      · exact hd q (by simp [hq]) hmem
      · exact hn'.1 hq

/-- If adding succeeds the added parameters were distinct and new. -/
theorem addGroups_nodup (ps : List Param) (s s' : St)
    (h : forAll ps (fun p s => addParamGroup [p] s) s = (.ok (), s')) :
    ps.Nodup ∧ ∀ p ∈ ps, p ∉ s.groups.flatMap Group.params := by
  induction ps generalizing s with
  | nil => simp
  | cons p ps ih =>
    simp only [forAll] at h
    obtain ⟨s1, h1, h2⟩ := andThen_ok h
    have := ih _ h2
    simp only [addParamGroup, List.any_cons, List.any_nil, Bool.or_false, decide_eq_true_eq] at h1
    split at h1
    · simp at h1
    · rename_i hp
      simp only [Prod.mk.injEq, true_and] at h1
      subst h1
      simp only [List.flatMap_append, List.flatMap_cons, List.flatMap_nil, List.append_nil,
        List.mem_append, List.mem_singleton, not_or] at this
      refine ⟨List.nodup_cons.2 ⟨fun hm => (this.2 p hm).2 rfl, this.1⟩, ?_⟩
      intro q hq
      rcases List.mem_cons.1 hq with rfl | hq
      · exact hp
      · exact (this.2 q hq).1

theorem flatMap_strip_digital (gs : List Group) (p : Param)
    (h : p ∈ ((gs.map strip).filter (fun g => !g.params.isEmpty)).flatMap Group.params) :
    p.isAnalog = false := by
  simp only [List.mem_flatMap, List.mem_filter, List.mem_map] at h
  obtain ⟨_, ⟨⟨g, _, rfl⟩, _⟩, hp⟩ := h
  simp only [strip, List.mem_filter, Bool.not_eq_true'] at hp
  exact hp.2

theorem regroup_spec (w : World) (s s' : St) (h : regroup w s = (.ok (), s')) :
    (analogOf s.groups).Nodup ∧
    s' = { s with
      log := s.log ++ lrCalls s (s.groups.flatMap Group.params)
      groups := (s.groups.map strip).filter (fun g => !g.params.isEmpty) ++
        (analogOf s.groups).map fun p => ⟨[p], s.defaults⟩ } := by
  unfold regroup at h
  rcases hr : stripLoop w [] s.groups s with ⟨⟨e | u, s1⟩, r⟩
  · rw [hr] at h; simp at h
  · rw [hr] at h
    simp only at h
    obtain ⟨rfl, rfl⟩ := stripLoop_ok _ _ _ _ _ _ hr
    simp only [List.nil_append] at h
    have hn := (addGroups_nodup _ _ _ h).1
    rw [addGroups_ok _ _ hn] at h
    · simp only [Prod.mk.injEq, true_and] at h
      exact ⟨hn, h.symm⟩
    · intro p hp hmem
      have h1 := flatMap_strip_digital _ _ hmem
      simp only [analogOf, List.mem_filter] at hp
      rw [hp.2] at h1
      exact absurd h1 (by simp)

/-- If the tiles accept the learning rate, regrouping of distinct analog parameters succeeds. -/
theorem stripLoop_total (w : World) (hw : ∀ l t r, w l (.setLr t r) = none)
    (done todo : List Group) (s : St) :
    ∃ s' r, stripLoop w done todo s = ((.ok (), s'), r) := by
  induction todo generalizing done s with
  | nil => exact ⟨s, done, rfl⟩
  | cons g todo ih =>
    have : (regroupOne w g s).1 = .ok () := by
      unfold regroupOne
      generalize g.params = ps
      induction ps generalizing s with
      | nil => rfl
      | cons p ps ih2 =>
        cases p with
        | digital i => exact ih2 s
        | analog i => simp only [forAll]; rw [call_none (hw _ _ _)]; simp only [andThen]; exact ih2 _
    rcases hr : regroupOne w g s with ⟨e | u, s1⟩
    · rw [hr] at this; simp at this
    · simp only [stripLoop, hr]
      exact ih _ _

/-! ## step -/

/-- The analog parameters of the groups with the learning rate of their group, in order. -/
def work (gs : List Group) : List (Option ℚ × Nat) :=
  gs.flatMap fun g => g.params.filterMap fun p => match p with
    | .analog i => some (g.opts.lr, i)
    | .digital _ => none

theorem forAll_filterMap (ps : List Param) (lr : Option ℚ) (f : Option ℚ → Nat → St → Res) (s : St) :
    forAll ps (fun p s => match p with | .digital _ => (.ok (), s) | .analog i => f lr i s) s =
    forAll (ps.filterMap fun p => match p with
      | .analog i => some (lr, i)
      | .digital _ => none) (fun q s => f q.1 q.2 s) s := by
  induction ps generalizing s with
  | nil => rfl
  | cons p ps ih =>
    cases p with
    | digital i => simp only [forAll, andThen, List.filterMap_cons]; exact ih s
    | analog i =>
      simp only [forAll, List.filterMap_cons]
      congr 1
      funext s; exact ih s

theorem groups_work (gs : List Group) (f : Option ℚ → Nat → St → Res) (s : St) :
    forAll gs (fun g s => forAll g.params (fun p s =>
      match p with | .digital _ => (.ok (), s) | .analog i => f g.opts.lr i s) s) s =
    forAll (work gs) (fun q s => f q.1 q.2 s) s := by
  simp only [work, forAll_flatMap, forAll_filterMap]

theorem step_eq (w : World) (cl : Closure) (s : St) :
    step w cl s =
    andThen (digitalStep w cl s) fun s =>
    andThen (forAll (work s.groups) (fun q s => stepCtx w q.1 q.2 s) s) fun s =>
    forAll (work s.groups) (fun q s => call w (.post (s.ctx q.2).tile) s) s := by
  unfold step
  congr 1
  funext s
  have h1 := groups_work s.groups (fun lr i s => stepCtx w lr i s) s
  have h2 : ∀ s : St, forAll s.groups (fun g s => forAll g.params (postParam w) s) s =
      forAll (work s.groups) (fun q s => call w (.post (s.ctx q.2).tile) s) s := fun s =>
    groups_work s.groups (fun _ i s => call w (.post (s.ctx i).tile) s) s
  rw [← h1]
  congr 1
  funext s
  exact h2 s

theorem setCtx_same (i : Nat) (c : Ctx) (s : St) : (setCtx i c s).ctx i = c := by simp [setCtx]
theorem setCtx_other (i j : Nat) (c : Ctx) (s : St) (h : j ≠ i) :
    (setCtx i c s).ctx j = s.ctx j := by simp [setCtx, h]
theorem setCtx_log (i : Nat) (c : Ctx) (s : St) : (setCtx i c s).log = s.log := rfl
theorem setCtx_groups (i : Nat) (c : Ctx) (s : St) : (setCtx i c s).groups = s.groups := rfl
theorem setCtx_defaults (i : Nat) (c : Ctx) (s : St) : (setCtx i c s).defaults = s.defaults := rfl

theorem calls_ok {α : Type} (w : World) (l : List α) (g : α → Ev) (s s' : St)
    (h : forAll l (fun a s => call w (g a) s) s = (.ok (), s')) :
    s' = { s with log := s.log ++ l.map g } := by
  induction l generalizing s with
  | nil => simp only [forAll, Prod.mk.injEq, true_and] at h; subst h; simp
  | cons a l ih =>
    simp only [forAll] at h
    obtain ⟨s1, h1, h2⟩ := andThen_ok h
    rw [ih _ h2]
    simp only [call] at h1
    split at h1
    · simp at h1
    · simp only [Prod.mk.injEq, true_and] at h1
      subst h1; simp

theorem calls_total {α : Type} (w : World) (l : List α) (g : α → Ev) (s : St)
    (hw : ∀ lg, ∀ a ∈ l, w lg (g a) = none) :
    forAll l (fun a s => call w (g a) s) s = (.ok (), { s with log := s.log ++ l.map g }) := by
  induction l generalizing s with
  | nil => simp [forAll]
  | cons a l ih =>
    simp only [forAll]
    rw [call_none (hw s.log a (by simp))]
    simp only [andThen]
    rw [ih _ (fun lg b hb => hw lg b (by simp [hb]))]
    simp

/-- Calls that the optimizer makes on the tile of context `c` at learning rate `lr`. -/
def updateCalls (lr : Option ℚ) (c : Ctx) : List Ev :=
  if c.torchUpd || c.xs.isEmpty || decide (lr = some 0) then []
  else (if lr.isNone then [] else [.setLr c.tile lr]) ++
    (if c.indexed then (c.xs.zip c.ds).map fun p => .updateIdx c.tile p.1 p.2
     else [.update c.tile c.xs.flatten c.ds.flatten])

/-- The context after a step. -/
def afterStep (c : Ctx) : Ctx :=
  if c.torchUpd || c.xs.isEmpty then c else { c with xs := [], ds := [] }

theorem stepCtx_ok (w : World) (lr : Option ℚ) (i : Nat) (s s' : St)
    (h : stepCtx w lr i s = (.ok (), s')) :
    s' = { setCtx i (afterStep (s.ctx i)) s with log := s.log ++ updateCalls lr (s.ctx i) } := by
  have hself : setCtx i (s.ctx i) s = s := by
    rcases s with ⟨a, b, c, d⟩
    simp only [setCtx, St.mk.injEq, true_and, and_true]
    funext j; by_cases hj : j = i <;> simp [hj]
  unfold stepCtx at h
  simp only at h
  by_cases h1 : (s.ctx i).torchUpd
  · rw [if_pos h1] at h
    simp only [Prod.mk.injEq, true_and] at h
    subst h
    simp [afterStep, updateCalls, h1, hself]
  rw [if_neg h1] at h
  by_cases h2 : (s.ctx i).xs.isEmpty
  · rw [if_pos h2] at h
    simp only [Prod.mk.injEq, true_and] at h
    subst h
    simp only [afterStep, updateCalls, h2, Bool.or_true, Bool.true_or, if_true, hself, List.append_nil]
  rw [if_neg h2] at h
  by_cases h3 : lr = some 0
  · rw [if_pos h3] at h
    simp only [Prod.mk.injEq, true_and] at h
    subst h
    simp [afterStep, updateCalls, h1, h2, h3, resetCtx, setCtx]
  rw [if_neg h3] at h
  obtain ⟨s1, e1, h⟩ := andThen_ok h
  obtain ⟨s2, e2, h⟩ := andThen_ok h
  simp only [Prod.mk.injEq, true_and] at h
  have E1 : s1 = { s with log := s.log ++ (if lr.isNone then [] else [.setLr (s.ctx i).tile lr]) } := by
    split at e1
    · rename_i hl; simp only [Prod.mk.injEq, true_and] at e1; subst e1; rw [if_pos hl, List.append_nil]
    · rename_i hl
      simp only [call] at e1
      split at e1
      · simp at e1
      · simp only [Prod.mk.injEq, true_and] at e1
        rw [← e1, if_neg hl]
  have E2 : s2 = { s1 with log := s1.log ++ (if (s.ctx i).indexed then
        ((s.ctx i).xs.zip (s.ctx i).ds).map fun p => .updateIdx (s.ctx i).tile p.1 p.2
      else [.update (s.ctx i).tile (s.ctx i).xs.flatten (s.ctx i).ds.flatten]) } := by
    unfold applyUpdate at e2
    split at e2
    · rename_i hi
      rw [calls_ok w _ (fun (p : Batch × Batch) => .updateIdx (s.ctx i).tile p.1 p.2) s1 s2 e2, if_pos hi]
    · rename_i hi
      simp only [call] at e2
      split at e2
      · simp at e2
      · simp only [Prod.mk.injEq, true_and] at e2
        rw [← e2, if_neg hi]
  subst E2 E1 h
  simp only [resetCtx, setCtx, afterStep, updateCalls, h1, h2, h3, Bool.or_self, Bool.false_eq_true,
    if_false, decide_false, List.append_assoc]

theorem stepAll_ok (w : World) (l : List (Option ℚ × Nat)) (s s' : St)
    (hn : (l.map Prod.snd).Nodup)
    (h : forAll l (fun q s => stepCtx w q.1 q.2 s) s = (.ok (), s')) :
    s'.groups = s.groups ∧ s'.defaults = s.defaults ∧
    s'.log = s.log ++ l.flatMap (fun q => updateCalls q.1 (s.ctx q.2)) ∧
    ∀ j, s'.ctx j = if j ∈ l.map Prod.snd then afterStep (s.ctx j) else s.ctx j := by
  induction l generalizing s with
  | nil => simp only [forAll, Prod.mk.injEq, true_and] at h; subst h; simp
  | cons q l ih =>
    simp only [forAll] at h
    obtain ⟨s1, h1, h2⟩ := andThen_ok h
    have e := stepCtx_ok _ _ _ _ _ h1
    simp only [List.map_cons, List.nodup_cons] at hn
    obtain ⟨a, b, c, d⟩ := ih s1 hn.2 h2
    have hc : ∀ j, s1.ctx j = if j = q.2 then afterStep (s.ctx q.2) else s.ctx j := by
      intro j; rw [e]; rfl
    refine ⟨by rw [a, e]; rfl, by rw [b, e]; rfl, ?_, ?_⟩
    · rw [c]
      have : l.flatMap (fun q => updateCalls q.1 (s1.ctx q.2)) =
          l.flatMap (fun q => updateCalls q.1 (s.ctx q.2)) := by
        apply List.flatMap_congr
        intro p hp
        rw [hc p.2, if_neg]
        rintro heq
        exact hn.1 (heq ▸ List.mem_map_of_mem hp)
      rw [this, e]
      simp
    · intro j
      rw [d j, hc j]
      by_cases hj : j = q.2
      · subst hj
        rw [if_neg hn.1, if_pos rfl, if_pos (by simp)]
      · simp only [List.map_cons, List.mem_cons, hj, false_or, if_false]

theorem posts_ok (w : World) (l : List (Option ℚ × Nat)) (s s' : St)
    (h : forAll l (fun q s => call w (.post (s.ctx q.2).tile) s) s = (.ok (), s')) :
    s' = { s with log := s.log ++ l.map fun q => .post (s.ctx q.2).tile } := by
  induction l generalizing s with
  | nil => simp only [forAll, Prod.mk.injEq, true_and] at h; subst h; simp
  | cons a l ih =>
    simp only [forAll] at h
    obtain ⟨s1, h1, h2⟩ := andThen_ok h
    rw [ih _ h2]
    simp only [call] at h1
    split at h1
    · simp at h1
    · simp only [Prod.mk.injEq, true_and] at h1
      subst h1; simp

end Aihw.Optim

import Verif.Optim.Props

/-!
# C26: a step consumes each recorded gradient exactly once

`C26_step` describes one successful step call by call; `C26_exactly_once` is the conservation law
over arbitrary histories (including failing steps).
-/
namespace Aihw.Optim
open Aihw

/-! ## One step -/

/-- The contexts listed in the groups, in order, with the learning rate of their group: the
specification of the iteration order. -/
theorem mem_work (gs : List Group) (lr : Option ℚ) (i : Nat) :
    (lr, i) ∈ work gs ↔ ∃ g ∈ gs, .analog i ∈ g.params ∧ g.opts.lr = lr := by
  simp only [work, List.mem_flatMap, List.mem_filterMap]
  constructor
  · rintro ⟨g, hg, p, hp, h⟩
    cases p with
    | digital j => simp at h
    | analog j =>
      simp only [Option.some.injEq, Prod.mk.injEq] at h
      obtain ⟨h1, rfl⟩ := h
      exact ⟨g, hg, hp, h1⟩
  · rintro ⟨g, hg, hp, rfl⟩
    exact ⟨g, hg, _, hp, rfl⟩

theorem digitalStep_groups (w : World) (cl : Closure) (s : St) :
    (digitalStep w cl s).2.groups = s.groups ∧ (digitalStep w cl s).2.defaults = s.defaults := by
  have : Pres (fun t => t.groups = s.groups ∧ t.defaults = s.defaults) (digitalStep w cl) := by
    apply Pres.andThen
    · apply Pres.forAll
      intro b _ t ht
      unfold backward
      simp only
      split
      · simp only [call]; split <;> exact ht
      · exact ht
    · intro t ht; simp only [call]; split <;> exact ht
  exact this s ⟨rfl, rfl⟩

/-- **C26.** A successful step with pairwise different parameters: after the digital step (and its
closure), in group order, every analog context that has recorded gradients, no torch-update and a
non-zero learning rate gets its learning rate and exactly one update with all recorded inputs and
errors concatenated in order (or, for an indexed context, one indexed update per recorded pair in
order); no other update is made; afterwards the post-update step of every analog parameter runs
exactly once.  All these contexts end up with an empty record, contexts with torch-update or outside
the optimizer are left alone. -/
theorem C26_step (w : World) (cl : Closure) (s s1 s' : St)
    (hn : ((work s.groups).map Prod.snd).Nodup)
    (hd : digitalStep w cl s = (.ok (), s1)) (h : step w cl s = (.ok (), s')) :
    s'.log = s1.log
      ++ (work s.groups).flatMap (fun q =>
          let c := s1.ctx q.2
          if c.torchUpd = true ∨ c.xs = [] ∨ q.1 = some 0 then []
          else (match q.1 with | none => [] | some l => [Ev.setLr c.tile (some l)]) ++
            (if c.indexed then (c.xs.zip c.ds).map fun p => Ev.updateIdx c.tile p.1 p.2
             else [Ev.update c.tile c.xs.flatten c.ds.flatten]))
      ++ (work s.groups).map (fun q => Ev.post (s1.ctx q.2).tile) ∧
    (∀ j, j ∈ (work s.groups).map Prod.snd → (s1.ctx j).torchUpd = false → (s1.ctx j).xs ≠ [] →
      s'.ctx j = { s1.ctx j with xs := [], ds := [] }) ∧
    (∀ j, j ∉ (work s.groups).map Prod.snd ∨ (s1.ctx j).torchUpd = true ∨ (s1.ctx j).xs = [] →
      s'.ctx j = s1.ctx j) ∧
    s'.groups = s.groups := by
  have hg : s1.groups = s.groups := by
    have := (digitalStep_groups w cl s).1; rw [hd] at this; exact this
  rw [step_eq, hd] at h
  simp only [andThen] at h
  obtain ⟨s2, h2, h3⟩ := andThen_ok h
  rw [hg] at h2
  obtain ⟨a, b, c, d⟩ := stepAll_ok w _ s1 s2 hn h2
  have e := posts_ok _ _ _ _ h3
  have ht : ∀ j, (s2.ctx j).tile = (s1.ctx j).tile := by
    intro j; rw [d j]; split
    · unfold afterStep; split <;> rfl
    · rfl
  refine ⟨?_, ?_, ?_, ?_⟩
  · rw [e, a, hg]
    simp only [c, ht]
    congr 2
    apply List.flatMap_congr
    intro q _
    unfold updateCalls
    by_cases h1 : (s1.ctx q.2).torchUpd = true
    · simp [h1]
    by_cases h2 : (s1.ctx q.2).xs = []
    · simp [h2]
    by_cases h3 : q.1 = some 0
    · simp [h3]
    have h2' : (s1.ctx q.2).xs.isEmpty = false := by simpa using h2
    have h1' : (s1.ctx q.2).torchUpd = false := by simpa using h1
    have hne : ¬ ((s1.ctx q.2).torchUpd = true ∨ (s1.ctx q.2).xs = [] ∨ q.1 = some 0) := by
      rintro (h | h | h)
      · exact h1 h
      · exact h2 h
      · exact h3 h
    have hb : ((s1.ctx q.2).torchUpd || (s1.ctx q.2).xs.isEmpty || decide (q.1 = some 0)) = false := by
      rw [h1', h2']; simp [h3]
    rw [if_neg (by rw [hb]; simp), if_neg hne]
    rcases q with ⟨_ | l, k⟩ <;> rfl
  · intro j hj h1 h2
    have : s'.ctx j = s2.ctx j := by rw [e]
    rw [this, d j, if_pos hj]
    unfold afterStep
    rw [if_neg (by simp [h1, h2])]
  · intro j hj
    have : s'.ctx j = s2.ctx j := by rw [e]
    rw [this, d j]
    split
    · rename_i hm
      unfold afterStep
      rw [if_pos]
      rcases hj with hj | hj | hj
      · exact absurd hm hj
      · simp [hj]
      · simp [hj]
    · rfl
  · rw [e, a, hg]

/-- Two contexts with two recorded batches each; the second is indexed. -/
def exStep : St where
  groups := [⟨[.digital 0], ⟨some (1/2), []⟩⟩, ⟨[.analog 1], ⟨some (1/10), []⟩⟩, ⟨[.analog 2], ⟨some 0, []⟩⟩]
  defaults := ⟨some (1/10), []⟩
  ctx := fun i => ⟨i, false, i == 3, [[[1, 2]], [[3, 4]]], [[[5]], [[6]]]⟩
  log := []

example : ((work exStep.groups).map Prod.snd).Nodup ∧
    (step (fun _ _ => none) [] exStep).1 = .ok () ∧
    (step (fun _ _ => none) [] exStep).2.log =
      [.digital, .setLr 1 (some (1/10)), .update 1 [[1, 2], [3, 4]] [[5], [6]], .post 1, .post 2] ∧
    ((step (fun _ _ => none) [] exStep).2.ctx 2).xs = [] := by decide +kernel

/-! ## Conservation over histories -/

/-- The samples handed to the updates of tile `t`, in order: inputs (`b = true`) or errors. -/
def applied (b : Bool) (t : Nat) (log : List Ev) : Batch :=
  log.flatMap fun e => match e with
    | .update t' x d => if t' = t then (if b then x else d) else []
    | .updateIdx t' x d => if t' = t then (if b then x else d) else []
    | _ => []

/-- The samples that the backward passes of a history produced for context `i`, in order. -/
def produced (b : Bool) (i : Nat) (cs : List Cmd) : Batch :=
  cs.flatMap fun c => match c with
    | .backward j x d => if j = i then (if b then x else d) else []
    | .step cl => cl.flatMap fun q => if q.1 = i then (if b then q.2.1 else q.2.2) else []
    | _ => []

/-- The samples recorded and not yet consumed. -/
def pending (b : Bool) (c : Ctx) : Batch := (if b then c.xs else c.ds).flatten

/-- Relation between consumed-plus-pending and produced samples: equal, or (if steps with learning
rate 0 may discard records) an ordered sublist. -/
def Rel (z : Bool) (a b : Batch) : Prop := if z then a.Sublist b else a = b

theorem Rel.append {z : Bool} {a b : Batch} (h : Rel z a b) (c : Batch) : Rel z (a ++ c) (b ++ c) := by
  cases z
  · simp only [Rel, Bool.false_eq_true, if_false] at h ⊢; rw [h]
  · simp only [Rel, if_true] at h ⊢
    exact h.append (List.Sublist.refl c)

/-- The facts about context `i` and tile `t` kept by every command. -/
structure Inv (b z : Bool) (w : World) (i t : Nat) (K : Batch) (s : St) : Prop where
  tile : ∀ j, (s.ctx j).tile = t ↔ j = i
  noTorch : (s.ctx i).torchUpd = false
  idx : (s.ctx i).indexed = true → ∀ l x d, w l (.updateIdx t x d) = none
  len : (s.ctx i).xs.length = (s.ctx i).ds.length
  dflt : z = false → s.defaults.lr ≠ some 0
  grp : z = false → ∀ g ∈ s.groups, g.opts.lr ≠ some 0
  cons : Rel z (applied b t s.log ++ pending b (s.ctx i)) K

theorem applied_append (b : Bool) (t : Nat) (l₁ l₂ : List Ev) :
    applied b t (l₁ ++ l₂) = applied b t l₁ ++ applied b t l₂ := by
  simp [applied, List.flatMap_append]

/-- Events that apply nothing to tile `t`. -/
def Quiet (t : Nat) : Ev → Prop
  | .update t' _ _ => t' ≠ t
  | .updateIdx t' _ _ => t' ≠ t
  | _ => True

theorem applied_quiet (b : Bool) (t : Nat) (e : Ev) (h : Quiet t e) : applied b t [e] = [] := by
  cases e <;> simp_all [applied, Quiet]

theorem Inv.log {b z w i t K s} (h : Inv b z w i t K s) (e : Ev) (he : Quiet t e) :
    Inv b z w i t K { s with log := s.log ++ [e] } where
  tile := h.tile
  noTorch := h.noTorch
  idx := h.idx
  len := h.len
  dflt := h.dflt
  grp := h.grp
  cons := by
    simp only [applied_append, applied_quiet b t e he, List.append_nil]; exact h.cons

theorem inv_call {b z w i t K} (e : Ev) (he : Quiet t e) : Pres (Inv b z w i t K) (call w e) := by
  intro s hs
  rcases hw : w s.log e with _ | err
  · rw [call_none hw]; exact hs.log e he
  · rw [call_some hw]; exact hs

theorem Inv.setOther {b z w i t K s} (h : Inv b z w i t K s) (j : Nat) (c : Ctx) (hj : j ≠ i)
    (hc : c.tile = (s.ctx j).tile) : Inv b z w i t K (setCtx j c s) where
  tile := by
    intro k
    by_cases hk : k = j
    · subst hk; rw [setCtx_same, hc]; exact h.tile k
    · rw [setCtx_other _ _ _ _ hk]; exact h.tile k
  noTorch := by rw [setCtx_other _ _ _ _ (Ne.symm hj)]; exact h.noTorch
  idx := by rw [setCtx_other _ _ _ _ (Ne.symm hj)]; exact h.idx
  len := by rw [setCtx_other _ _ _ _ (Ne.symm hj)]; exact h.len
  dflt := h.dflt
  grp := h.grp
  cons := by rw [setCtx_other _ _ _ _ (Ne.symm hj), setCtx_log]; exact h.cons

theorem inv_forward {b z w i t K} (j : Nat) (sh : Bool) (hj : j = i → sh = false) (s : St)
    (hs : Inv b z w i t K s) : Inv b z w i t K (forward j sh s) := by
  unfold forward
  by_cases h : j = i
  · subst h
    rw [hj rfl]
    have : ({ s.ctx j with torchUpd := false } : Ctx) = s.ctx j := by
      have := hs.noTorch
      rcases hc : s.ctx j with ⟨a, t1, c, d, e⟩
      rw [hc] at this; simp only at this; subst this; rfl
    rw [this]
    have hself : setCtx j (s.ctx j) s = s := by
      rcases s with ⟨a, b, c, d⟩
      simp only [setCtx, St.mk.injEq, true_and, and_true]
      funext k; by_cases hk : k = j <;> simp [hk]
    rw [hself]; exact hs
  · exact hs.setOther j _ h rfl

/-- What one backward pass contributes. -/
def contrib (b : Bool) (i j : Nat) (x d : Batch) : Batch := if j = i then (if b then x else d) else []

theorem inv_backward {b z w i t K} (hw : ∀ l t x d, w l (.weightGrad t x d) = none)
    (j : Nat) (x d : Batch) (s : St) (hs : Inv b z w i t K s) :
    (backward w j x d s).1 = .ok () ∧
    Inv b z w i t (K ++ contrib b i j x d) (backward w j x d s).2 := by
  unfold backward
  simp only
  by_cases h : j = i
  · subst h
    rw [hs.noTorch]
    simp only [Bool.false_eq_true, if_false, true_and]
    refine ⟨?_, ?_, ?_, ?_, hs.dflt, hs.grp, ?_⟩
    · intro k
      by_cases hk : k = j
      · subst hk; rw [setCtx_same]; exact hs.tile k
      · rw [setCtx_other _ _ _ _ hk]; exact hs.tile k
    · rw [setCtx_same]
    · rw [setCtx_same]; exact hs.idx
    · rw [setCtx_same]; simp [hs.len]
    · rw [setCtx_same, setCtx_log]
      have := hs.cons.append (contrib b j j x d)
      have e : pending b { tile := (s.ctx j).tile, torchUpd := false, indexed := (s.ctx j).indexed, xs := (s.ctx j).xs ++ [x], ds := (s.ctx j).ds ++ [d] } = pending b (s.ctx j) ++ contrib b j j x d := by
        cases b <;> simp [pending, contrib]
      rw [e, ← List.append_assoc]; exact this
  · have hk : contrib b i j x d = [] := by simp [contrib, h]
    rw [hk, List.append_nil]
    split
    · rw [call_none (hw _ _ _ _)]
      exact ⟨rfl, hs.log _ trivial⟩
    · exact ⟨rfl, hs.setOther j _ h rfl⟩

theorem inv_closure {b z w i t} (hw : ∀ l t x d, w l (.weightGrad t x d) = none) (cl : Closure) :
    ∀ (K : Batch) (s : St), Inv b z w i t K s →
    (forAll cl (fun q s => backward w q.1 q.2.1 q.2.2 s) s).1 = .ok () ∧
    Inv b z w i t (K ++ cl.flatMap fun q => contrib b i q.1 q.2.1 q.2.2)
      (forAll cl (fun q s => backward w q.1 q.2.1 q.2.2 s) s).2 := by
  induction cl with
  | nil => intro K s hs; simp only [forAll, List.flatMap_nil, List.append_nil]; exact ⟨trivial, hs⟩
  | cons q cl ih =>
    intro K s hs
    obtain ⟨h1, h2⟩ := inv_backward (b := b) (z := z) (i := i) (t := t) (K := K) hw q.1 q.2.1 q.2.2 s hs
    simp only [forAll]
    rcases hb : backward w q.1 q.2.1 q.2.2 s with ⟨e | u, s1⟩
    · rw [hb] at h1; simp at h1
    · rw [hb] at h2
      simp only [andThen, List.flatMap_cons, ← List.append_assoc]
      exact ih _ _ h2

/-- Clearing the record of context `i` after its samples went to the log. -/
theorem zip_pick (b : Bool) (xs ds : List Batch) (h : xs.length = ds.length) :
    (xs.zip ds).flatMap (fun p => if b then p.1 else p.2) = (if b then xs else ds).flatten := by
  induction xs generalizing ds with
  | nil => cases ds with
    | nil => cases b <;> rfl
    | cons d ds => simp at h
  | cons x xs ih => cases ds with
    | nil => simp at h
    | cons d ds =>
      have := ih ds (by simpa using h)
      cases b <;> simp_all

theorem inv_stepCtx {b z w i t K} (lr : Option ℚ) (j : Nat) (hlr : z = false → lr ≠ some 0) :
    Pres (Inv b z w i t K) (stepCtx w lr j) := by
  intro s hs
  by_cases hj : j = i
  · subst hj
    have ht : (s.ctx j).tile = t := (hs.tile j).2 rfl
    unfold stepCtx
    simp only [hs.noTorch, Bool.false_eq_true, if_false]
    -- clearing the record when everything pending was applied or may be dropped
    have clear : ∀ l : List Ev, Rel z (applied b t l) K →
        Inv b z w j t K (resetCtx j { s with log := l }) := by
      intro l hl
      refine ⟨?_, ?_, ?_, ?_, hs.dflt, hs.grp, ?_⟩
      · intro k
        by_cases hk : k = j
        · subst hk; rw [resetCtx, setCtx_same]; exact hs.tile k
        · simp only [resetCtx, setCtx_other _ _ _ _ hk]; exact hs.tile k
      · simp only [resetCtx, setCtx_same]; exact hs.noTorch
      · simp only [resetCtx, setCtx_same]; exact hs.idx
      · simp only [resetCtx, setCtx_same, List.length_nil]
      · simp only [resetCtx, setCtx_same, setCtx_log]
        have : pending b { tile := (s.ctx j).tile, torchUpd := (s.ctx j).torchUpd, indexed := (s.ctx j).indexed, xs := [], ds := [] } = [] := by
          cases b <;> rfl
        rw [this, List.append_nil]; exact hl
    split
    · exact hs
    split
    · rename_i h0
      have hz : z = true := by
        cases z
        · exact absurd h0 (hlr rfl)
        · rfl
      subst hz
      have := clear s.log (by
        have h1 := hs.cons
        simp only [Rel, if_true] at h1 ⊢
        exact (List.sublist_append_left _ _).trans h1)
      exact this
    · -- learning rate
      have main : ∀ s1 : St, (∃ l, s1 = { s with log := l } ∧ applied b t l = applied b t s.log) →
          Inv b z w j t K (andThen (applyUpdate w (s.ctx j) s1) fun s => (.ok (), resetCtx j s)).2 := by
        rintro _ ⟨l, rfl, hl⟩
        have keep : Inv b z w j t K { s with log := l } :=
          ⟨hs.tile, hs.noTorch, hs.idx, hs.len, hs.dflt, hs.grp, by simp only [hl]; exact hs.cons⟩
        unfold applyUpdate
        split
        · rename_i hi
          have hz := hs.idx hi
          rw [ht]
          rw [calls_total w _ (fun (p : Batch × Batch) => .updateIdx t p.1 p.2) _
            (fun lg a _ => hz lg a.1 a.2)]
          simp only [andThen]
          apply clear
          rw [applied_append, hl]
          have : applied b t (((s.ctx j).xs.zip (s.ctx j).ds).map
              fun (p : Batch × Batch) => Ev.updateIdx t p.1 p.2) = pending b (s.ctx j) := by
            simp only [applied, List.flatMap_map]
            simp only [if_true]
            exact zip_pick b _ _ hs.len
          rw [this]; exact hs.cons
        · rw [ht]
          rcases hw : w l (.update t (s.ctx j).xs.flatten (s.ctx j).ds.flatten) with _ | err
          · rw [call_none (s := { s with log := l }) hw]
            simp only [andThen]
            apply clear
            rw [applied_append, hl]
            have : applied b t [.update t (s.ctx j).xs.flatten (s.ctx j).ds.flatten] =
                pending b (s.ctx j) := by
              cases b <;> simp [applied, pending]
            rw [this]; exact hs.cons
          · rw [call_some (s := { s with log := l }) hw]
            exact keep
      split
      · exact main s ⟨s.log, rfl, rfl⟩
      · rcases hw : w s.log (.setLr (s.ctx j).tile lr) with _ | err
        · rw [call_none hw]
          exact main _ ⟨_, rfl, by rw [applied_append, applied_quiet b t _ (by trivial), List.append_nil]⟩
        · rw [call_some hw]; exact hs
  · -- another context
    have ht : (s.ctx j).tile ≠ t := fun h => hj ((hs.tile j).1 h)
    unfold stepCtx
    simp only
    split
    · exact hs
    split
    · exact hs
    split
    · exact hs.setOther j _ hj rfl
    -- keep the invariant and the tile of `j`
    have P : Pres (fun s' => Inv b z w i t K s' ∧ (s'.ctx j).tile = (s.ctx j).tile)
        (fun s' => andThen (if lr.isNone then (.ok (), s') else call w (.setLr (s.ctx j).tile lr) s')
          fun s' => andThen (applyUpdate w (s.ctx j) s') fun s' => (.ok (), resetCtx j s')) := by
      have cl : ∀ e, Quiet t e →
          Pres (fun s' => Inv b z w i t K s' ∧ (s'.ctx j).tile = (s.ctx j).tile) (call w e) := by
        intro e he s' hs'
        rcases hw : w s'.log e with _ | err
        · rw [call_none hw]; exact ⟨hs'.1.log e he, hs'.2⟩
        · rw [call_some hw]; exact hs'
      apply Pres.andThen
      · intro s' hs'
        simp only
        split
        · exact hs'
        · exact cl _ (by trivial) s' hs'
      · apply Pres.andThen
        · intro s' hs'
          unfold applyUpdate
          split
          · exact Pres.forAll _ (fun a _ => cl (.updateIdx _ _ _) ht) s' hs'
          · exact cl (.update _ _ _) ht s' hs'
        · intro s' hs'
          refine ⟨hs'.1.setOther j _ hj rfl, ?_⟩
          simp only [resetCtx, setCtx_same]; exact hs'.2
    exact (P s ⟨hs, rfl⟩).1

theorem inv_posts {b z w i t K} (l : List (Option ℚ × Nat)) :
    Pres (Inv b z w i t K) (forAll l (fun q s => call w (.post (s.ctx q.2).tile) s)) :=
  Pres.forAll l fun _ _ s hs => inv_call _ (by trivial) s hs

theorem inv_step {b z w i t} (hw : ∀ l t x d, w l (.weightGrad t x d) = none) (cl : Closure)
    (K : Batch) (s : St) (hs : Inv b z w i t K s) :
    Inv b z w i t (K ++ cl.flatMap fun q => contrib b i q.1 q.2.1 q.2.2) (step w cl s).2 := by
  rw [step_eq]
  obtain ⟨h1, h2⟩ := inv_closure (b := b) (z := z) (i := i) (t := t) hw cl K s hs
  set K' := K ++ cl.flatMap fun q => contrib b i q.1 q.2.1 q.2.2
  have hd : Inv b z w i t K' (digitalStep w cl s).2 := by
    unfold digitalStep
    rcases hb : forAll cl (fun q s => backward w q.1 q.2.1 q.2.2 s) s with ⟨e | u, s1⟩
    · rw [hb] at h1; simp at h1
    · rw [hb] at h2
      exact inv_call .digital trivial _ h2
  rcases hb : digitalStep w cl s with ⟨e | u, s1⟩
  · rw [hb] at hd; exact hd
  · rw [hb] at hd
    simp only at hd
    simp only [andThen]
    have hA : Pres (fun s' => Inv b z w i t K' s')
        (forAll (work s1.groups) (fun q s => stepCtx w q.1 q.2 s)) := by
      apply Pres.forAll
      intro q hq
      apply inv_stepCtx
      intro hz
      obtain ⟨g, hg, _, hlr⟩ := (mem_work s1.groups q.1 q.2).1 hq
      rw [← hlr]; exact hd.grp hz g hg
    have := hA s1 hd
    rcases hc : forAll (work s1.groups) (fun q s => stepCtx w q.1 q.2 s) s1 with ⟨e | u, s2⟩
    · rw [hc] at this; exact this
    · rw [hc] at this; exact inv_posts _ _ this

theorem Inv.groups {b z w i t K s} (h : Inv b z w i t K s) (gs : List Group)
    (hg : z = false → ∀ g ∈ gs, g.opts.lr ≠ some 0) : Inv b z w i t K { s with groups := gs } :=
  ⟨h.tile, h.noTorch, h.idx, h.len, h.dflt, hg, h.cons⟩

theorem mem_modify {gs : List Group} {k : Nat} {f : Group → Group} {g : Group}
    (h : g ∈ gs.modify k f) : g ∈ gs ∨ ∃ g' ∈ gs, g = f g' := by
  induction gs generalizing k with
  | nil => simp at h
  | cons a gs ih =>
    cases k with
    | zero =>
      simp only [List.modify_zero_cons, List.mem_cons] at h
      rcases h with rfl | h
      · exact .inr ⟨a, by simp, rfl⟩
      · exact .inl (by simp [h])
    | succ k =>
      simp only [List.modify_succ_cons, List.mem_cons] at h
      rcases h with rfl | h
      · exact .inl (by simp)
      · rcases ih h with h | ⟨g', hg, e⟩
        · exact .inl (by simp [h])
        · exact .inr ⟨g', by simp [hg], e⟩

theorem inv_schedule {b z w i t K s} (h : Inv b z w i t K s) (k : Nat) (lr : ℚ)
    (hlr : z = false → lr ≠ 0) :
    Inv b z w i t K { s with
      groups := s.groups.modify k (fun g => { g with opts := { g.opts with lr := some lr } }) } := by
  apply h.groups
  intro hz g hg
  rcases mem_modify hg with hg | ⟨g', _, rfl⟩
  · exact h.grp hz g hg
  · simp only [ne_eq, Option.some.injEq]; exact hlr hz

theorem inv_lrLoop {b z w i t K} (ps : List Param) (f : St → Option ℚ) :
    Pres (Inv b z w i t K) (forAll ps (fun p s => match p with
      | .analog i => call w (.setLr (s.ctx i).tile (f s)) s
      | .digital _ => (.ok (), s))) := by
  apply Pres.forAll
  intro p _ s hs
  cases p with
  | digital j => exact hs
  | analog j => exact inv_call _ (by trivial) s hs

theorem inv_setLearningRate {b z w i t K} (lr : ℚ) (hlr : z = false → lr ≠ 0) :
    Pres (Inv b z w i t K) (setLearningRate w lr) := by
  intro s hs
  unfold setLearningRate
  refine Pres.forAll _ ?_ s hs
  intro k _ s' hs'
  exact inv_lrLoop _ (fun _ => some lr) _ (inv_schedule hs' k lr hlr)

theorem inv_regroup {b z w i t K} : Pres (Inv b z w i t K) (regroup w) := by
  intro s hs
  have strips : ∀ (todo done : List Group) (s : St), Inv b z w i t K s →
      (z = false → ∀ g ∈ done, g.opts.lr ≠ some 0) → (z = false → ∀ g ∈ todo, g.opts.lr ≠ some 0) →
      Inv b z w i t K (stripLoop w done todo s).1.2 ∧
      (z = false → ∀ g ∈ (stripLoop w done todo s).2, g.opts.lr ≠ some 0) := by
    intro todo
    induction todo with
    | nil => intro done s hs h1 _; exact ⟨hs, h1⟩
    | cons g todo ih =>
      intro done s hs h1 h2
      have hr := inv_lrLoop (b := b) (z := z) (w := w) (i := i) (t := t) (K := K) g.params
        (fun s => s.defaults.lr) s hs
      change Inv b z w i t K (regroupOne w g s).2 at hr
      simp only [stripLoop]
      rcases hc : regroupOne w g s with ⟨e | u, s1⟩
      · rw [hc] at hr
        simp only
        refine ⟨hr.groups _ ?_, h1⟩
        intro hz g' hg'
        rcases List.mem_append.1 hg' with hg' | hg'
        · exact h1 hz g' hg'
        · exact h2 hz g' hg'
      · rw [hc] at hr
        simp only
        apply ih _ _ hr
        · intro hz g' hg'
          rcases List.mem_append.1 hg' with hg' | hg'
          · exact h1 hz g' hg'
          · simp only [List.mem_singleton] at hg'
            subst hg'
            exact h2 hz g (by simp)
        · intro hz g' hg'; exact h2 hz g' (by simp [hg'])
  have hS := strips s.groups [] s hs (by simp) hs.grp
  unfold regroup
  rcases hr : stripLoop w [] s.groups s with ⟨⟨e | u, s1⟩, r⟩
  · rw [hr] at hS; exact hS.1
  · rw [hr] at hS
    simp only
    refine Pres.forAll _ ?_ _ (hS.1.groups _ ?_)
    · intro p _ s' hs'
      simp only [addParamGroup]
      split_ifs
      · exact hs'
      · apply hs'.groups
        intro hz g hg
        rcases List.mem_append.1 hg with hg | hg
        · exact hs'.grp hz g hg
        · simp only [List.mem_singleton] at hg
          subst hg; exact hs'.dflt hz
    · intro hz g hg
      exact hS.2 hz g (List.mem_filter.1 hg).1

/-- The history never uses learning rate 0 (relevant if `z = false`) and context `i` is never run
with shared weights. -/
def CmdOk (z : Bool) (i : Nat) : Cmd → Prop
  | .forward j sh => j = i → sh = false
  | .setLearningRate lr => z = false → lr ≠ 0
  | .schedule _ lr => z = false → lr ≠ 0
  | _ => True

theorem inv_run {b z w i t} (hw : ∀ l t x d, w l (.weightGrad t x d) = none) (cs : List Cmd) :
    ∀ (K : Batch) (s : St), (∀ c ∈ cs, CmdOk z i c) → Inv b z w i t K s →
      Inv b z w i t (K ++ produced b i cs) (run w cs s) := by
  induction cs with
  | nil => intro K s _ hs; simpa [run, produced] using hs
  | cons c cs ih =>
    intro K s hc hs
    have h1 : Inv b z w i t (K ++ produced b i [c]) (exec w c s).2 := by
      have hck := hc c (by simp)
      cases c with
      | forward j sh =>
        simpa [produced, exec] using inv_forward j sh hck s hs
      | backward j x d =>
        have := (inv_backward (b := b) (z := z) (i := i) (t := t) (K := K) hw j x d s hs).2
        simpa [produced, exec, contrib] using this
      | zeroGrad => simpa [produced, exec] using hs
      | step cl =>
        have := inv_step (b := b) (z := z) (i := i) (t := t) hw cl K s hs
        simpa [produced, exec, contrib] using this
      | setLearningRate lr =>
        simpa [produced, exec] using inv_setLearningRate lr hck s hs
      | schedule k lr =>
        simpa [produced, exec] using inv_schedule hs k lr hck
      | regroup => simpa [produced, exec] using inv_regroup s hs
    have e : produced b i (c :: cs) = produced b i [c] ++ produced b i cs := by
      simp [produced, List.flatMap_cons]
    rw [e, ← List.append_assoc]
    exact ih _ _ (fun c' h' => hc c' (by simp [h'])) h1

/-- **C26, exactly once.** Over every history of forward and backward passes, `zero_grad`, steps
(successful or raising, with or without closure), learning-rate changes (never to 0), scheduling and
regrouping: for every analog-trained context that owns its tile, the samples given to updates of that
tile followed by the samples still recorded are exactly the samples produced by its backward passes,
in order — inputs and errors alike. So no gradient is lost, applied twice or reordered; in particular
`zero_grad` discards nothing. For an indexed context the tile's indexed update must not raise. -/
theorem C26_exactly_once (w : World) (hw : ∀ l t x d, w l (.weightGrad t x d) = none)
    (cs : List Cmd) (s : St) (i t : Nat)
    (htile : ∀ j, (s.ctx j).tile = t ↔ j = i)
    (hfresh : s.log = [] ∧ (s.ctx i).xs = [] ∧ (s.ctx i).ds = [])
    (hto : (s.ctx i).torchUpd = false)
    (hidx : (s.ctx i).indexed = true → ∀ l x d, w l (.updateIdx t x d) = none)
    (hlr : s.defaults.lr ≠ some 0 ∧ ∀ g ∈ s.groups, g.opts.lr ≠ some 0)
    (hcs : ∀ c ∈ cs, CmdOk false i c) :
    (∀ b, applied b t (run w cs s).log ++ pending b ((run w cs s).ctx i) = produced b i cs) ∧
    ((run w cs s).ctx i).xs.length = ((run w cs s).ctx i).ds.length := by
  have h0 : ∀ b, Inv b false w i t [] s := fun b =>
    ⟨htile, hto, hidx, by simp [hfresh.2.1, hfresh.2.2], fun _ => hlr.1, fun _ => hlr.2, by
      simp [Rel, hfresh.1, applied, pending, hfresh.2.1, hfresh.2.2]⟩
  refine ⟨fun b => ?_, (inv_run hw cs [] s hcs (h0 true)).len⟩
  have := (inv_run hw cs [] s hcs (h0 b)).cons
  simpa [Rel] using this

/-- **C26, at most once.** Without any restriction on learning rates: what is applied followed by
what is pending is always an ordered sublist of what the backward passes produced (a step at learning
rate 0 discards the record). -/
theorem C26_at_most_once (w : World) (hw : ∀ l t x d, w l (.weightGrad t x d) = none)
    (cs : List Cmd) (s : St) (i t : Nat)
    (htile : ∀ j, (s.ctx j).tile = t ↔ j = i)
    (hfresh : s.log = [] ∧ (s.ctx i).xs = [] ∧ (s.ctx i).ds = [])
    (hto : (s.ctx i).torchUpd = false)
    (hidx : (s.ctx i).indexed = true → ∀ l x d, w l (.updateIdx t x d) = none)
    (hcs : ∀ c ∈ cs, CmdOk true i c) (b : Bool) :
    (applied b t (run w cs s).log ++ pending b ((run w cs s).ctx i)).Sublist (produced b i cs) := by
  have h0 : Inv b true w i t [] s :=
    ⟨htile, hto, hidx, by simp [hfresh.2.1, hfresh.2.2], by simp, by simp, by
      simp [Rel, hfresh.1, applied, pending, hfresh.2.1, hfresh.2.2]⟩
  have := (inv_run hw cs [] s hcs h0).cons
  simpa [Rel] using this

/-- **C26, torch-update.** A context run with shared weights gets no update from the optimizer's
loop: `step` never touches it. -/
theorem C26_torch_update (w : World) (lr : Option ℚ) (i : Nat) (s : St)
    (h : (s.ctx i).torchUpd = true) : stepCtx w lr i s = (.ok (), s) := by
  unfold stepCtx; simp [h]

/-- **C26 (deviation).** Indexed contexts and a raising update: with two recorded pairs whose second
indexed update raises in a first step, the first pair has been applied but the record is kept, so the
next step applies it a second time. Holds for all pairs, learning rates and tiles that fail on
exactly that call. -/
theorem C26_indexed_retry_twice (lr : ℚ) (hlr : lr ≠ 0) (s : St) (i : Nat) (x₁ x₂ d₁ d₂ : Batch)
    (err : PyErr) (w : World)
    (hc : s.ctx i = ⟨i, false, true, [x₁, x₂], [d₁, d₂]⟩) (hlog : s.log = [])
    (hw : ∀ l e, w l e = if l = [.setLr i (some lr), .updateIdx i x₁ d₁] ∧ e = .updateIdx i x₂ d₂
      then some err else none) :
    (stepCtx w (some lr) i s).1 = .error err ∧
    (stepCtx w (some lr) i (stepCtx w (some lr) i s).2).1 = .ok () ∧
    (stepCtx w (some lr) i (stepCtx w (some lr) i s).2).2.log =
      [.setLr i (some lr), .updateIdx i x₁ d₁, .setLr i (some lr), .updateIdx i x₁ d₁,
       .updateIdx i x₂ d₂] := by
  have e1 : stepCtx w (some lr) i s =
      (.error err, { s with log := [.setLr i (some lr), .updateIdx i x₁ d₁] }) := by
    simp [stepCtx, hc, hlr, applyUpdate, forAll, call, hw, hlog, andThen]
  rw [e1]
  refine ⟨rfl, ?_⟩
  simp [stepCtx, hc, hlr, applyUpdate, forAll, call, hw, andThen, resetCtx, setCtx]

/-- Non-vacuity of the conservation theorem: a fresh optimizer, a history with a raising step. -/
def exFresh : St where
  groups := [⟨[.analog 1, .digital 5], ⟨some (1/2), []⟩⟩]
  defaults := ⟨some (1/10), []⟩
  ctx := fun i => ⟨i, false, false, [], []⟩
  log := []

def exWorld : World := fun l e =>
  if l = [.digital, .setLr 1 (some (1/2))] ∧ e = .update 1 [[1]] [[2]] then some .runtimeError else none

def exHistory : List Cmd :=
  [.backward 1 [[1]] [[2]], .step [], .zeroGrad, .backward 1 [[3]] [[4]], .regroup, .step [(1, [[5]], [[6]])]]

example : (∀ j, (exFresh.ctx j).tile = 1 ↔ j = 1) ∧ (∀ c ∈ exHistory, CmdOk false 1 c) := by
  refine ⟨fun j => Iff.rfl, ?_⟩
  intro c hc
  simp only [exHistory, List.mem_cons, List.not_mem_nil, or_false] at hc
  rcases hc with rfl | rfl | rfl | rfl | rfl | rfl <;> trivial

example : (exec exWorld (.step []) (exec exWorld (.backward 1 [[1]] [[2]]) exFresh).2).1
      = .error .runtimeError ∧
    applied true 1 (run exWorld exHistory exFresh).log = [[1], [3], [5]] ∧
    applied false 1 (run exWorld exHistory exFresh).log = [[2], [4], [6]] := by decide +kernel

end Aihw.Optim

import Verif.Optim.StepProps

/-!
# C44: an optimizer after its model was (re)loaded — theorems about the optimizer

`load_state_dict` and `replace_with` put a *new* analog context on the tile
(tiles/base.py:796; `C44_new_context` in `State/Props3.lean`).  The parameter groups of an existing
optimizer still hold the old one.  The optimizer model is the one of C25/C26.
-/
namespace Aihw.Optim

/-- The module replaces the context of tile `t` by the new object `n` (tiles/base.py:796,
optim/context.py:137-148): no records, flags off. The optimizer is not told. -/
def replaceCtx (n t : Nat) (s : St) : St := setCtx n ⟨t, false, false, [], []⟩ s

/-- Weight updates of tile `t` in a log. -/
def updatesOf (t : Nat) (log : List Ev) : List Ev :=
  log.filter fun e => match e with
    | .update t' _ _ => t' == t
    | .updateIdx t' _ _ => t' == t
    | _ => false

/-- Passes through the model reach tile `t` only through the context `n`, and without torch-update. -/
def Through (tileOf : Nat → Nat) (n t : Nat) : Cmd → Prop
  | .forward j sh => j = n → sh = false
  | .backward j _ _ => tileOf j = t → j = n
  | .step cl => ∀ q ∈ cl, tileOf q.1 = t → q.1 = n
  | _ => True

structure Dead (b : Bool) (tileOf : Nat → Nat) (n t : Nat) (L : List Ev) (K : Batch) (s : St) : Prop where
  tile : ∀ j, (s.ctx j).tile = tileOf j
  noTorch : (s.ctx n).torchUpd = false
  grp : ∀ g ∈ s.groups, Param.analog n ∉ g.params
  stale : ∀ j, j ≠ n → tileOf j = t → (s.ctx j).xs = []
  log : updatesOf t s.log = L
  recd : pending b (s.ctx n) = K

theorem updatesOf_quiet (t : Nat) (l : List Ev) (e : Ev) (h : Quiet t e) :
    updatesOf t (l ++ [e]) = updatesOf t l := by
  unfold updatesOf
  cases e <;> simp_all [Quiet]

section
variable {b : Bool} {T : Nat → Nat} {n t : Nat} {L : List Ev} {K : Batch} {w : World}

theorem Dead.addLog {s : St} (h : Dead b T n t L K s) (e : Ev) (he : Quiet t e) :
    Dead b T n t L K { s with log := s.log ++ [e] } :=
  ⟨h.tile, h.noTorch, h.grp, h.stale, (updatesOf_quiet t s.log e he).trans h.log, h.recd⟩

theorem dead_call (e : Ev) (he : Quiet t e) : Pres (Dead b T n t L K) (call w e) := by
  intro s hs
  rcases hw : w s.log e with _ | err
  · rw [call_none hw]; exact hs.addLog e he
  · rw [call_some hw]; exact hs

theorem Dead.groups {s : St} (h : Dead b T n t L K s) (gs : List Group)
    (hg : ∀ g ∈ gs, Param.analog n ∉ g.params) : Dead b T n t L K { s with groups := gs } :=
  ⟨h.tile, h.noTorch, hg, h.stale, h.log, h.recd⟩

theorem Dead.setOther {s : St} (h : Dead b T n t L K s) (j : Nat) (c : Ctx) (hj : j ≠ n)
    (hc : c.tile = (s.ctx j).tile) (hx : T j = t → c.xs = []) : Dead b T n t L K (setCtx j c s) where
  tile := by
    intro k
    by_cases hk : k = j
    · subst hk; rw [setCtx_same, hc]; exact h.tile k
    · rw [setCtx_other _ _ _ _ hk]; exact h.tile k
  noTorch := by rw [setCtx_other _ _ _ _ (Ne.symm hj)]; exact h.noTorch
  grp := h.grp
  stale := by
    intro k hk ht
    by_cases hkj : k = j
    · subst hkj; rw [setCtx_same]; exact hx ht
    · rw [setCtx_other _ _ _ _ hkj]; exact h.stale k hk ht
  log := h.log
  recd := by rw [setCtx_other _ _ _ _ (Ne.symm hj)]; exact h.recd

theorem dead_forward (j : Nat) (sh : Bool) (hj : j = n → sh = false) (s : St)
    (hs : Dead b T n t L K s) : Dead b T n t L K (forward j sh s) := by
  unfold forward
  by_cases h : j = n
  · subst h
    rw [hj rfl]
    have : ({ s.ctx j with torchUpd := false } : Ctx) = s.ctx j := by
      have := hs.noTorch
      rcases hc : s.ctx j with ⟨a, t1, c, d, e⟩
      rw [hc] at this; simp only at this; subst this; rfl
    rw [this]
    have hself : setCtx j (s.ctx j) s = s := by
      rcases s with ⟨a, b, c, d⟩
      simp only [setCtx, St.mk.injEq, true_and, and_true]
      funext k; by_cases hk : k = j <;> simp [hk]
    rw [hself]; exact hs
  · exact hs.setOther j _ h rfl fun ht => hs.stale j h ht

theorem dead_backward (hw : ∀ l t x d, w l (.weightGrad t x d) = none)
    (j : Nat) (x d : Batch) (hj : T j = t → j = n) (s : St) (hs : Dead b T n t L K s) :
    (backward w j x d s).1 = .ok () ∧
    Dead b T n t L (K ++ contrib b n j x d) (backward w j x d s).2 := by
  unfold backward
  simp only
  by_cases h : j = n
  · subst h
    rw [hs.noTorch]
    simp only [Bool.false_eq_true, if_false, true_and]
    refine ⟨?_, ?_, hs.grp, ?_, hs.log, ?_⟩
    · intro k
      by_cases hk : k = j
      · subst hk; rw [setCtx_same]; exact hs.tile k
      · rw [setCtx_other _ _ _ _ hk]; exact hs.tile k
    · rw [setCtx_same]
    · intro k hk; rw [setCtx_other _ _ _ _ hk]; exact hs.stale k hk
    · rw [setCtx_same]
      have e : pending b { tile := (s.ctx j).tile, torchUpd := false, indexed := (s.ctx j).indexed, xs := (s.ctx j).xs ++ [x], ds := (s.ctx j).ds ++ [d] } = pending b (s.ctx j) ++ contrib b j j x d := by
        cases b <;> simp [pending, contrib]
      rw [e, hs.recd]
  · have hk : contrib b n j x d = [] := by simp [contrib, h]
    rw [hk, List.append_nil]
    split
    · rw [call_none (hw _ _ _ _)]
      exact ⟨rfl, hs.addLog _ trivial⟩
    · exact ⟨rfl, hs.setOther j _ h rfl fun ht => absurd (hj ht) h⟩

theorem dead_closure (hw : ∀ l t x d, w l (.weightGrad t x d) = none) (cl : Closure)
    (hcl : ∀ q ∈ cl, T q.1 = t → q.1 = n) :
    ∀ (K : Batch) (s : St), Dead b T n t L K s →
    (forAll cl (fun q s => backward w q.1 q.2.1 q.2.2 s) s).1 = .ok () ∧
    Dead b T n t L (K ++ cl.flatMap fun q => contrib b n q.1 q.2.1 q.2.2)
      (forAll cl (fun q s => backward w q.1 q.2.1 q.2.2 s) s).2 := by
  induction cl with
  | nil => intro K s hs; simp only [forAll, List.flatMap_nil, List.append_nil]; exact ⟨trivial, hs⟩
  | cons q cl ih =>
    intro K s hs
    obtain ⟨h1, h2⟩ := dead_backward (K := K) hw q.1 q.2.1 q.2.2 (hcl q (by simp)) s hs
    simp only [forAll]
    rcases hb : backward w q.1 q.2.1 q.2.2 s with ⟨e | u, s1⟩
    · rw [hb] at h1; simp at h1
    · rw [hb] at h2
      simp only [andThen, List.flatMap_cons, ← List.append_assoc]
      exact ih (fun q hq => hcl q (by simp [hq])) _ _ h2

theorem dead_stepCtx (lr : Option ℚ) (j : Nat) (hj : j ≠ n) :
    Pres (Dead b T n t L K) (stepCtx w lr j) := by
  intro s hs
  by_cases ht : T j = t
  · have := hs.stale j hj ht
    unfold stepCtx
    simp only [this, List.isEmpty_nil, if_true]
    split <;> exact hs
  · have htile : (s.ctx j).tile ≠ t := by rw [hs.tile j]; exact ht
    unfold stepCtx
    simp only
    split
    · exact hs
    split
    · exact hs
    split
    · exact hs.setOther j _ hj rfl fun h => absurd h ht
    have P : Pres (fun s' => Dead b T n t L K s')
        (fun s' => andThen (if lr.isNone then (.ok (), s') else call w (.setLr (s.ctx j).tile lr) s')
          fun s' => andThen (applyUpdate w (s.ctx j) s') fun s' => (.ok (), resetCtx j s')) := by
      apply Pres.andThen
      · intro s' hs'
        simp only
        split
        · exact hs'
        · exact dead_call _ (by trivial) s' hs'
      · apply Pres.andThen
        · intro s' hs'
          unfold applyUpdate
          split
          · exact Pres.forAll _ (fun a _ => dead_call (.updateIdx _ _ _) htile) s' hs'
          · exact dead_call (.update _ _ _) htile s' hs'
        · intro s' hs'
          exact hs'.setOther j _ hj rfl fun h => absurd h ht
    exact P s hs

theorem dead_step (hw : ∀ l t x d, w l (.weightGrad t x d) = none) (cl : Closure)
    (hcl : ∀ q ∈ cl, T q.1 = t → q.1 = n) (s : St) (hs : Dead b T n t L K s) :
    Dead b T n t L (K ++ cl.flatMap fun q => contrib b n q.1 q.2.1 q.2.2) (step w cl s).2 := by
  rw [step_eq]
  obtain ⟨h1, h2⟩ := dead_closure hw cl hcl K s hs
  set K' := K ++ cl.flatMap fun q => contrib b n q.1 q.2.1 q.2.2
  have hd : Dead b T n t L K' (digitalStep w cl s).2 := by
    unfold digitalStep
    rcases hb : forAll cl (fun q s => backward w q.1 q.2.1 q.2.2 s) s with ⟨e | u, s1⟩
    · rw [hb] at h1; simp at h1
    · rw [hb] at h2
      exact dead_call .digital trivial _ h2
  rcases hb : digitalStep w cl s with ⟨e | u, s1⟩
  · rw [hb] at hd; exact hd
  · rw [hb] at hd
    simp only at hd
    simp only [andThen]
    have hA : Pres (fun s' => Dead b T n t L K' s')
        (forAll (work s1.groups) (fun q s => stepCtx w q.1 q.2 s)) := by
      apply Pres.forAll
      intro q hq
      apply dead_stepCtx
      rintro rfl
      obtain ⟨g, hg, hp, _⟩ := (mem_work s1.groups q.1 q.2).1 hq
      exact hd.grp g hg hp
    have := hA s1 hd
    rcases hc : forAll (work s1.groups) (fun q s => stepCtx w q.1 q.2 s) s1 with ⟨e | u, s2⟩
    · rw [hc] at this; exact this
    · rw [hc] at this
      exact Pres.forAll _ (fun _ _ s hs => dead_call _ (by trivial) s hs) _ this

theorem dead_schedule {s : St} (h : Dead b T n t L K s) (k : Nat) (lr : ℚ) :
    Dead b T n t L K { s with
      groups := s.groups.modify k (fun g => { g with opts := { g.opts with lr := some lr } }) } := by
  apply h.groups
  intro g hg
  rcases mem_modify hg with hg | ⟨g', hg', rfl⟩
  · exact h.grp g hg
  · exact h.grp g' hg'

theorem dead_lrLoop (ps : List Param) (f : St → Option ℚ) :
    Pres (Dead b T n t L K) (forAll ps (fun p s => match p with
      | .analog i => call w (.setLr (s.ctx i).tile (f s)) s
      | .digital _ => (.ok (), s))) := by
  apply Pres.forAll
  intro p _ s hs
  cases p with
  | digital j => exact hs
  | analog j => exact dead_call _ (by trivial) s hs

theorem dead_regroup : Pres (Dead b T n t L K) (regroup w) := by
  intro s hs
  have strips : ∀ (todo done : List Group) (s : St), Dead b T n t L K s →
      (∀ g ∈ done, Param.analog n ∉ g.params) → (∀ g ∈ todo, Param.analog n ∉ g.params) →
      Dead b T n t L K (stripLoop w done todo s).1.2 ∧
      (∀ g ∈ (stripLoop w done todo s).2, Param.analog n ∉ g.params) := by
    intro todo
    induction todo with
    | nil => intro done s hs h1 _; exact ⟨hs, h1⟩
    | cons g todo ih =>
      intro done s hs h1 h2
      have hr := dead_lrLoop (b := b) (T := T) (n := n) (t := t) (L := L) (K := K) (w := w) g.params
        (fun s => s.defaults.lr) s hs
      change Dead b T n t L K (regroupOne w g s).2 at hr
      simp only [stripLoop]
      rcases hc : regroupOne w g s with ⟨e | u, s1⟩
      · rw [hc] at hr
        simp only
        refine ⟨hr.groups _ ?_, h1⟩
        intro g' hg'
        rcases List.mem_append.1 hg' with hg' | hg'
        · exact h1 g' hg'
        · exact h2 g' hg'
      · rw [hc] at hr
        simp only
        apply ih _ _ hr
        · intro g' hg'
          rcases List.mem_append.1 hg' with hg' | hg'
          · exact h1 g' hg'
          · simp only [List.mem_singleton] at hg'
            subst hg'
            intro hm
            exact h2 g (by simp) (List.mem_filter.1 hm).1
        · intro g' hg'; exact h2 g' (by simp [hg'])
  have hS := strips s.groups [] s hs (by simp) hs.grp
  have hA : ∀ p ∈ analogOf s.groups, p ≠ Param.analog n := by
    rintro p hp rfl
    simp only [analogOf, List.mem_filter, List.mem_flatMap] at hp
    obtain ⟨⟨g, hg, hgp⟩, _⟩ := hp
    exact hs.grp g hg hgp
  unfold regroup
  rcases hr : stripLoop w [] s.groups s with ⟨⟨e | u, s1⟩, r⟩
  · rw [hr] at hS; exact hS.1
  · rw [hr] at hS
    simp only
    refine Pres.forAll _ ?_ _ (hS.1.groups _ ?_)
    · intro p hp s' hs'
      simp only [addParamGroup]
      split_ifs
      · exact hs'
      · apply hs'.groups
        intro g hg
        rcases List.mem_append.1 hg with hg | hg
        · exact hs'.grp g hg
        · simp only [List.mem_singleton] at hg
          subst hg
          simpa using (hA p hp).symm
    · intro g hg
      exact hS.2 g (List.mem_filter.1 hg).1

theorem dead_run (hw : ∀ l t x d, w l (.weightGrad t x d) = none) (cs : List Cmd) :
    ∀ (K : Batch) (s : St), (∀ c ∈ cs, Through T n t c) → Dead b T n t L K s →
      Dead b T n t L (K ++ produced b n cs) (run w cs s) := by
  induction cs with
  | nil => intro K s _ hs; simpa [run, produced] using hs
  | cons c cs ih =>
    intro K s hc hs
    have h1 : Dead b T n t L (K ++ produced b n [c]) (exec w c s).2 := by
      have hck := hc c (by simp)
      cases c with
      | forward j sh => simpa [produced, exec] using dead_forward j sh hck s hs
      | backward j x d =>
        have := (dead_backward (K := K) hw j x d hck s hs).2
        simpa [produced, exec, contrib] using this
      | zeroGrad => simpa [produced, exec] using hs
      | step cl =>
        have := dead_step (K := K) hw cl hck s hs
        simpa [produced, exec, contrib] using this
      | setLearningRate lr =>
        simp only [produced, List.flatMap_cons, List.flatMap_nil, List.append_nil, exec]
        unfold setLearningRate
        refine Pres.forAll _ ?_ s hs
        intro k _ s' hs'
        exact dead_lrLoop _ (fun _ => some lr) _ (dead_schedule hs' k lr)
      | schedule k lr => simpa [produced, exec] using dead_schedule hs k lr
      | regroup => simpa [produced, exec] using dead_regroup s hs
    have e : produced b n (c :: cs) = produced b n [c] ++ produced b n cs := by
      simp [produced, List.flatMap_cons]
    rw [e, ← List.append_assoc]
    exact ih _ _ (fun c' h' => hc c' (by simp [h'])) h1

end

/-- **C44 (an existing optimizer no longer trains a reloaded tile).**  The context of tile `t` is
replaced by a new object `n`; all gradients recorded before had been consumed.  Then, whatever is
done afterwards with the model and the existing optimizer (forward and backward passes through the
new context, steps with or without closure, failing calls, learning-rate changes, scheduling,
regrouping), the tile never gets another weight update; every gradient its backward passes produce
stays recorded in the new context, for ever and in order. -/
theorem C44_stale_optimizer (w : World) (hw : ∀ l t x d, w l (.weightGrad t x d) = none)
    (n t : Nat) (s : St) (cs : List Cmd)
    (hnew : ∀ g ∈ s.groups, Param.analog n ∉ g.params)
    (hdone : ∀ j, (s.ctx j).tile = t → (s.ctx j).xs = [])
    (hcs : ∀ c ∈ cs, Through (fun j => ((replaceCtx n t s).ctx j).tile) n t c) :
    updatesOf t (run w cs (replaceCtx n t s)).log = updatesOf t s.log ∧
    ∀ b, pending b ((run w cs (replaceCtx n t s)).ctx n) = produced b n cs := by
  have h0 : ∀ b, Dead b (fun j => ((replaceCtx n t s).ctx j).tile) n t (updatesOf t s.log) []
      (replaceCtx n t s) := by
    intro b
    refine ⟨fun j => rfl, by simp [replaceCtx, setCtx], hnew, ?_, rfl, ?_⟩
    · intro j hj ht
      simp only [replaceCtx, setCtx_other _ _ _ _ hj] at ht ⊢
      exact hdone j ht
    · cases b <;> simp [replaceCtx, setCtx, pending]
  refine ⟨(dead_run (b := true) hw cs [] _ hcs (h0 true)).log, fun b => ?_⟩
  simpa using (dead_run hw cs [] _ hcs (h0 b)).recd

/-- **C44 (but it still post-processes it).**  With the old context `o` still in the groups, every
successful step of that optimizer runs the post-update step (decay, diffusion, clipping, …) of the
reloaded tile. -/
theorem C44_stale_post_update (w : World) (cl : Closure) (s s1 s' : St) (g : Group) (o : Nat)
    (hn : ((work s.groups).map Prod.snd).Nodup)
    (hg : g ∈ s.groups) (ho : Param.analog o ∈ g.params)
    (hd : digitalStep w cl s = (.ok (), s1)) (h : step w cl s = (.ok (), s')) :
    Ev.post (s1.ctx o).tile ∈ s'.log := by
  have := (C26_step w cl s s1 s' hn hd h).1
  rw [this]
  refine List.mem_append.2 (Or.inr (List.mem_map.2 ⟨(g.opts.lr, o), ?_, rfl⟩))
  exact (mem_work s.groups g.opts.lr o).2 ⟨g, hg, ho, rfl⟩

/-- **C44 (old gradients hit the new weights).**  Gradients recorded before the replacement stay in
the old context, so the next successful step applies them to the reloaded tile. -/
theorem C44_old_gradients_applied (w : World) (n t o : Nat) (s s1 s' : St) (g : Group)
    (hn : ((work s.groups).map Prod.snd).Nodup) (hno : o ≠ n)
    (hg : g ∈ s.groups) (ho : Param.analog o ∈ g.params) (hlr : g.opts.lr ≠ some 0)
    (hc : s.ctx o = ⟨t, false, false, (s.ctx o).xs, (s.ctx o).ds⟩) (hx : (s.ctx o).xs ≠ [])
    (hd : digitalStep w [] (replaceCtx n t s) = (.ok (), s1))
    (h : step w [] (replaceCtx n t s) = (.ok (), s')) :
    Ev.update t (s.ctx o).xs.flatten (s.ctx o).ds.flatten ∈ s'.log := by
  have hs1 : s1.ctx o = s.ctx o := by
    simp only [digitalStep, forAll, andThen, call] at hd
    split at hd
    · simp at hd
    · simp only [Prod.mk.injEq] at hd
      rw [← hd.2]
      exact setCtx_other _ _ _ _ hno
  have := (C26_step w [] (replaceCtx n t s) s1 s' hn hd h).1
  rw [this]
  refine List.mem_append.2 (Or.inl (List.mem_append.2 (Or.inr (List.mem_flatMap.2
    ⟨(g.opts.lr, o), (mem_work s.groups g.opts.lr o).2 ⟨g, hg, ho, rfl⟩, ?_⟩))))
  simp only [hs1]
  rw [hc]
  simp only [Bool.false_eq_true, false_or, if_false]
  rw [if_neg (by simp [hx, hlr])]
  simp

/-- A model with one tile; its context 1 is replaced by 7 while the optimizer keeps context 1. -/
def exOpt : St where
  groups := [⟨[.analog 1], ⟨some (1/2), []⟩⟩]
  defaults := ⟨some (1/2), []⟩
  ctx := fun i => ⟨i, false, false, [], []⟩
  log := []

def exTrain : List Cmd :=
  [.forward 7 false, .backward 7 [[1]] [[2]], .step [], .regroup, .backward 7 [[3]] [[4]], .step []]

example : (∀ g ∈ exOpt.groups, Param.analog 7 ∉ g.params) ∧
    (∀ j, (exOpt.ctx j).tile = 1 → (exOpt.ctx j).xs = []) ∧
    updatesOf 1 (run (fun _ _ => none) exTrain (replaceCtx 7 1 exOpt)).log = [] ∧
    ((run (fun _ _ => none) exTrain (replaceCtx 7 1 exOpt)).ctx 7).xs = [[[1]], [[3]]] ∧
    Ev.post 1 ∈ (run (fun _ _ => none) exTrain (replaceCtx 7 1 exOpt)).log := by
  refine ⟨by decide +kernel, fun j _ => rfl, by decide +kernel, by decide +kernel, by decide +kernel⟩

example : ∀ c ∈ exTrain, Through (fun j => ((replaceCtx 7 1 exOpt).ctx j).tile) 7 1 c := by
  intro c hc
  simp only [exTrain, List.mem_cons, List.not_mem_nil, or_false] at hc
  rcases hc with rfl | rfl | rfl | rfl | rfl | rfl <;> simp [Through]

/-- The same training with an optimizer built after the replacement: both gradients are applied. -/
example : updatesOf 1 (run (fun _ _ => none) exTrain
      { replaceCtx 7 1 exOpt with groups := [⟨[.analog 7], ⟨some (1/2), []⟩⟩] }).log
    = [.update 1 [[1]] [[2]], .update 1 [[3]] [[4]]] := by decide +kernel

end Aihw.Optim

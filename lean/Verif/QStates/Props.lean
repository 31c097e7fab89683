import Verif.QStates.Model
import Mathlib.Data.List.Basic

/-!
# C86: specification and proofs
-/
namespace Aihw.QStates
open Aihw Aihw.Quant

/-! ## Specification -/

/-- Subtrees. -/
inductive Sub : Tree → Tree → Prop where
  | refl (t : Tree) : Sub t t
  | kid {s k : Tree} {i : Nat} {ks : List Tree} : k ∈ ks → Sub s k → Sub s (.node i ks)

/-- The object `i` is a module of the model. -/
def Reach (t : Tree) (i : Nat) : Prop := ∃ s, Sub s t ∧ s.id = i

/-- The same object is the same module everywhere. -/
def Consistent (t : Tree) : Prop := ∀ a b, Sub a t → Sub b t → a.id = b.id → a = b

/-- `j` is the activation quantizer of a quantized module of the model. -/
def ActOf (t : Tree) (h : Heap) (j : Nat) : Prop := ∃ i q, Reach t i ∧ h i = .qmod q ∧ q.aq = some j

/-- `j` is the weight quantizer of a quantized module of the model. -/
def WeightOf (t : Tree) (h : Heap) (j : Nat) : Prop := ∃ i q, Reach t i ∧ h i = .qmod q ∧ q.wq = some j

/-- Exactly the quantized modules of the model change, each by `f`. -/
def ModulesChanged (t : Tree) (h h' : Heap) (f : QMod → QMod) : Prop :=
  (∀ i q, Reach t i → h i = .qmod q → h' i = .qmod (f q)) ∧
    ∀ i, (¬ Reach t i ∨ ∀ q, h i ≠ .qmod q) → h' i = h i

/-- Exactly the managers with `P` change, each by `f`. -/
def ManagersChanged (P : Nat → Prop) (h h' : Heap) (f : Man → Man) : Prop :=
  (∀ i m, P i → h i = .man m → h' i = .man (f m)) ∧ ∀ i, (¬ P i ∨ ∀ m, h i ≠ .man m) → h' i = h i

/-- A manager set to a state: fixing and learning need an initialised quantizer. -/
def Entered (s : QSt) (m m' : Man) : Prop :=
  m'.init = m.init ∧ m'.est = m.est ∧
    ((s = .fix ∨ s = .learn) → m.init = false → m'.st = m.st) ∧
    (¬ ((s = .fix ∨ s = .learn) ∧ m.init = false) → m'.st = s)

/-- What the last call says about weights. -/
def wantW (q : QMod) : Cmd → Option Bool
  | .weights on | .both on | .set on _ => some on
  | .enable => some (decide (0 < q.bitsW))
  | _ => none

/-- What the last call says about activations. -/
def wantA (q : QMod) : Cmd → Option Bool
  | .acts on | .both on | .set _ on => some on
  | .enable => some (decide (0 < q.bitsA))
  | _ => none

/-- The last word of a list of calls, or the old value. -/
def lastWord (want : Cmd → Option Bool) (old : Bool) (cs : List Cmd) : Bool :=
  ((cs.filterMap want).getLast?).getD old

/-! ## Visited modules -/

theorem kids_mem (k : Tree) : ∀ (ks : List Tree) (seen : List Nat), k ∈ ks → k.id ∉ seen →
    ∃ k' ∈ ks, k'.id = k.id ∧ ∀ x ∈ visit k', x ∈ visitKids seen ks := by
  intro ks
  induction ks with
  | nil => intro seen hk; cases hk
  | cons a ks ih =>
    intro seen hk hn
    rw [visitKids]
    by_cases ha : a.id = k.id
    · refine ⟨a, List.mem_cons_self, ha, ?_⟩
      intro x hx
      rw [if_neg (by rw [ha]; exact hn)]
      exact List.mem_append_left _ hx
    · have hk : k ∈ ks := by
        rcases List.mem_cons.mp hk with rfl | hk
        · exact absurd rfl ha
        · exact hk
      split
      · obtain ⟨k', h1, h2, h3⟩ := ih seen hk hn
        exact ⟨k', List.mem_cons_of_mem _ h1, h2, h3⟩
      · obtain ⟨k', h1, h2, h3⟩ := ih (a.id :: seen) hk (by
          intro h
          rcases List.mem_cons.mp h with h | h
          · exact ha h.symm
          · exact hn h)
        exact ⟨k', List.mem_cons_of_mem _ h1, h2, fun x hx => List.mem_append_right _ (h3 x hx)⟩

theorem visit_of_sub (s : Tree) : (t : Tree) → Consistent t → Sub s t → s.id ∈ visit t
  | .node i ks, hc, hs => by
    rw [visit]
    cases hs with
    | refl => exact List.mem_append_right _ (List.mem_singleton.mpr rfl)
    | @kid k _ _ hk hs =>
      obtain ⟨k', h1, h2, h3⟩ := kids_mem k ks [] hk (by simp)
      have e : k' = k := hc k' k (.kid h1 (.refl _)) (.kid hk (.refl _)) h2
      subst e
      have ck : Consistent k' := fun a b ha hb he => hc a b (.kid hk ha) (.kid hk hb) he
      exact List.mem_append_left _ (h3 _ (visit_of_sub s k' ck hs))
  termination_by t => sizeOf t
  decreasing_by
    have := List.sizeOf_lt_of_mem hk
    simp
    omega

mutual
theorem sub_of_visit (i : Nat) : (t : Tree) → i ∈ visit t → ∃ s, Sub s t ∧ s.id = i
  | .node j ks, h => by
    rw [visit] at h
    rcases List.mem_append.mp h with h | h
    · obtain ⟨k, hk, s, hs, e⟩ := sub_of_kids i ks [] h
      exact ⟨s, .kid hk hs, e⟩
    · rw [List.mem_singleton] at h
      exact ⟨_, .refl _, h.symm⟩
theorem sub_of_kids (i : Nat) : (ks : List Tree) → (seen : List Nat) → i ∈ visitKids seen ks →
    ∃ k ∈ ks, ∃ s, Sub s k ∧ s.id = i
  | [], _, h => by rw [visitKids] at h; cases h
  | k :: ks, seen, h => by
    rw [visitKids] at h
    split at h
    · obtain ⟨k', hk, r⟩ := sub_of_kids i ks seen h
      exact ⟨k', List.mem_cons_of_mem _ hk, r⟩
    · rcases List.mem_append.mp h with h | h
      · exact ⟨k, List.mem_cons_self, sub_of_visit i k h⟩
      · obtain ⟨k', hk, r⟩ := sub_of_kids i ks _ h
        exact ⟨k', List.mem_cons_of_mem _ hk, r⟩
end

theorem visit_iff {t : Tree} (hc : Consistent t) (i : Nat) : i ∈ visit t ↔ Reach t i := by
  constructor
  · exact sub_of_visit i t
  · rintro ⟨s, hs, rfl⟩
    exact visit_of_sub s t hc hs

/-! ## Loops over objects -/

/-- An object with a change of quantized modules. -/
def mapQ (f : QMod → QMod) : Obj → Obj
  | .qmod q => .qmod (f q)
  | o => o

/-- An object with a change of managers. -/
def mapM' (f : Man → Man) : Obj → Obj
  | .man m => .man (f m)
  | o => o

theorem onQ_eq (f : QMod → QMod) (h : Heap) (i : Nat) : onQ f h i = setObj h i (mapQ f (h i)) := by
  unfold onQ
  cases e : h i with
  | qmod q => rfl
  | plain => funext j; simp only [setObj, mapQ]; split <;> simp_all
  | fp32 => funext j; simp only [setObj, mapQ]; split <;> simp_all
  | man m => funext j; simp only [setObj, mapQ]; split <;> simp_all

theorem onM_eq (s : QSt) (h : Heap) (i : Nat) : onM s h i = setObj h i (mapM' (setSt s) (h i)) := by
  unfold onM
  cases e : h i with
  | man q => rfl
  | plain => funext j; simp only [setObj, mapM']; split <;> simp_all
  | fp32 => funext j; simp only [setObj, mapM']; split <;> simp_all
  | qmod m => funext j; simp only [setObj, mapM']; split <;> simp_all

theorem fold_set (g : Obj → Obj) (hg : ∀ o, g (g o) = g o) (ids : List Nat) :
    ∀ h : Heap, ids.foldl (fun h i => setObj h i (g (h i))) h = fun j => if j ∈ ids then g (h j) else h j := by
  induction ids with
  | nil => intro h; funext j; simp
  | cons i ids ih =>
    intro h
    rw [List.foldl_cons, ih]
    funext j
    by_cases hj : j = i
    · subst hj
      simp only [setObj, if_true, List.mem_cons_self, hg]
      split <;> rfl
    · simp [setObj, hj]

theorem foldQ (f : QMod → QMod) (hf : ∀ q, f (f q) = f q) (ids : List Nat) (h : Heap) :
    ids.foldl (onQ f) h = fun j => if j ∈ ids then mapQ f (h j) else h j := by
  have e : onQ f = fun h i => setObj h i (mapQ f (h i)) := by
    funext h i; exact onQ_eq f h i
  rw [e]
  refine fold_set (mapQ f) ?_ ids h
  intro o
  cases o <;> simp [mapQ, hf]

theorem setSt_idem (s : QSt) (m : Man) : setSt s (setSt s m) = setSt s m := by
  unfold setSt
  split <;> simp_all

theorem foldM' (s : QSt) (ids : List Nat) (h : Heap) :
    ids.foldl (onM s) h = fun j => if j ∈ ids then mapM' (setSt s) (h j) else h j := by
  have e : onM s = fun h i => setObj h i (mapM' (setSt s) (h i)) := by
    funext h i; exact onM_eq s h i
  rw [e]
  refine fold_set (mapM' (setSt s)) ?_ ids h
  intro o
  cases o <;> simp [mapM', setSt_idem]

/-- The activation quantizer of an object. -/
def actT (h : Heap) (i : Nat) : Option Nat :=
  match h i with
  | .qmod q => q.aq
  | _ => none

/-- The weight quantizer of an object. -/
def wtT (h : Heap) (i : Nat) : Option Nat :=
  match h i with
  | .qmod q => q.wq
  | _ => none

theorem onM_qmod (s : QSt) (h : Heap) (j i : Nat) (q : QMod) : onM s h j i = .qmod q ↔ h i = .qmod q := by
  rw [onM_eq]
  unfold setObj
  split
  · rename_i e
    subst e
    cases h i <;> simp [mapM']
  · rfl

theorem act_keep {h h' : Heap} (e : ∀ i q, h' i = .qmod q ↔ h i = .qmod q) : actT h' = actT h ∧ wtT h' = wtT h := by
  constructor <;>
  · funext i
    simp only [actT, wtT]
    cases hi : h i with
    | qmod q => rw [(e i q).mpr hi]
    | plain => cases hi' : h' i <;> first | rfl | (have := (e i _).mp hi'; rw [hi] at this; cases this)
    | fp32 => cases hi' : h' i <;> first | rfl | (have := (e i _).mp hi'; rw [hi] at this; cases this)
    | man m => cases hi' : h' i <;> first | rfl | (have := (e i _).mp hi'; rw [hi] at this; cases this)

theorem onAct_eq (s : QSt) (h : Heap) (i : Nat) : onAct s h i = (match actT h i with
    | some j => onM s h j
    | none => h) := by
  unfold onAct actT
  cases h i <;> rfl

theorem onWeight_eq (s : QSt) (h : Heap) (i : Nat) : onWeight s h i = (match wtT h i with
    | some j => onM s h j
    | none => h) := by
  unfold onWeight wtT
  cases h i <;> rfl

theorem fold_act (s : QSt) (ids : List Nat) :
    ∀ h : Heap, ids.foldl (onAct s) h = (ids.filterMap (actT h)).foldl (onM s) h := by
  induction ids with
  | nil => intro h; rfl
  | cons i ids ih =>
    intro h
    rw [List.foldl_cons, ih, onAct_eq, List.filterMap_cons]
    cases e : actT h i with
    | none => rfl
    | some j =>
      simp only [List.foldl_cons]
      rw [(act_keep (onM_qmod s h j)).1]

theorem fold_weight (s : QSt) (ids : List Nat) :
    ∀ h : Heap, ids.foldl (onWeight s) h = (ids.filterMap (wtT h)).foldl (onM s) h := by
  induction ids with
  | nil => intro h; rfl
  | cons i ids ih =>
    intro h
    rw [List.foldl_cons, ih, onWeight_eq, List.filterMap_cons]
    cases e : wtT h i with
    | none => rfl
    | some j =>
      simp only [List.foldl_cons]
      rw [(act_keep (onM_qmod s h j)).2]

theorem act_mem {t : Tree} (hc : Consistent t) (h : Heap) (j : Nat) :
    j ∈ (visit t).filterMap (actT h) ↔ ActOf t h j := by
  rw [List.mem_filterMap]
  constructor
  · rintro ⟨i, hi, e⟩
    unfold actT at e
    cases hq : h i with
    | qmod q => rw [hq] at e; exact ⟨i, q, (visit_iff hc i).mp hi, hq, e⟩
    | plain => rw [hq] at e; cases e
    | fp32 => rw [hq] at e; cases e
    | man m => rw [hq] at e; cases e
  · rintro ⟨i, q, hi, hq, e⟩
    refine ⟨i, (visit_iff hc i).mpr hi, ?_⟩
    unfold actT
    rw [hq]
    exact e

theorem wt_mem {t : Tree} (hc : Consistent t) (h : Heap) (j : Nat) :
    j ∈ (visit t).filterMap (wtT h) ↔ WeightOf t h j := by
  rw [List.mem_filterMap]
  constructor
  · rintro ⟨i, hi, e⟩
    unfold wtT at e
    cases hq : h i with
    | qmod q => rw [hq] at e; exact ⟨i, q, (visit_iff hc i).mp hi, hq, e⟩
    | plain => rw [hq] at e; cases e
    | fp32 => rw [hq] at e; cases e
    | man m => rw [hq] at e; cases e
  · rintro ⟨i, q, hi, hq, e⟩
    refine ⟨i, (visit_iff hc i).mpr hi, ?_⟩
    unfold wtT
    rw [hq]
    exact e

theorem modules_changed {t : Tree} (hc : Consistent t) (f : QMod → QMod) (hf : ∀ q, f (f q) = f q) (h : Heap) :
    ModulesChanged t h (applyAll t (onQ f) h) f := by
  unfold applyAll
  rw [foldQ f hf]
  refine ⟨?_, ?_⟩
  · intro i q hi hq
    show (if i ∈ visit t then _ else _) = _
    rw [if_pos ((visit_iff hc i).mpr hi), hq]
    rfl
  · intro i hi
    show (if i ∈ visit t then _ else _) = _
    rcases hi with hi | hi
    · rw [if_neg (fun x => hi ((visit_iff hc i).mp x))]
    · split
      · cases hh : h i with
        | qmod q => exact absurd hh (hi q)
        | _ => rfl
      · rfl

theorem managers_changed (ids : List Nat) (P : Nat → Prop) (hP : ∀ i, i ∈ ids ↔ P i) (s : QSt) (h : Heap) :
    ManagersChanged P h (ids.foldl (onM s) h) (setSt s) := by
  rw [foldM']
  refine ⟨?_, ?_⟩
  · intro i m hi hm
    show (if i ∈ ids then _ else _) = _
    rw [if_pos ((hP i).mpr hi), hm]
    rfl
  · intro i hi
    show (if i ∈ ids then _ else _) = _
    rcases hi with hi | hi
    · rw [if_neg (fun x => hi ((hP i).mp x))]
    · split
      · cases hh : h i with
        | man q => exact absurd hh (hi q)
        | _ => rfl
      · rfl

theorem setSt_entered (s : QSt) (m : Man) : Entered s m (setSt s m) := by
  unfold setSt Entered
  split
  · rename_i h
    exact ⟨rfl, rfl, fun _ _ => rfl, fun hn => absurd h hn⟩
  · rename_i h
    exact ⟨rfl, rfl, fun h1 h2 => absurd ⟨h1, h2⟩ h, fun _ => rfl⟩

/-! ## Theorems -/

/-- **C86 (ranges).** `learn_ranges`, `fix_ranges`, `estimate_ranges` and `estimate_ranges_train` put every
quantization manager of the model in that state - except that managers whose quantizer has no range yet
silently keep their state when ranges are fixed or learned - and change nothing else. -/
theorem C86_ranges (t : Tree) (hc : Consistent t) (h : Heap) (s : QSt) :
    ∃ h' f, exec t h (.ranges s) = .ok h' ∧ ManagersChanged (Reach t) h h' f ∧ ∀ m, Entered s m (f m) :=
  ⟨_, setSt s, rfl, managers_changed _ _ (visit_iff hc) s h, setSt_entered s⟩

/-- **C86 (activation ranges).** `fix_act_ranges` and `estimate_act_ranges` do this for the activation
quantizers of the quantized modules only. -/
theorem C86_act_ranges (t : Tree) (hc : Consistent t) (h : Heap) :
    (∃ h' f, exec t h .fixActs = .ok h' ∧ ManagersChanged (ActOf t h) h h' f ∧ ∀ m, Entered .fix m (f m)) ∧
    ∃ h' f, exec t h .estimateActs = .ok h' ∧ ManagersChanged (ActOf t h) h h' f ∧ ∀ m, Entered .estimate m (f m) := by
  refine ⟨⟨_, setSt .fix, rfl, ?_, setSt_entered _⟩, ⟨_, setSt .estimate, rfl, ?_, setSt_entered _⟩⟩ <;>
  · unfold applyAll
    rw [fold_act]
    exact managers_changed _ _ (act_mem hc h) _ h

/-- **C86 (weight ranges).** `fix_weight_ranges` does this for the weight quantizers only. -/
theorem C86_weight_ranges (t : Tree) (hc : Consistent t) (h : Heap) :
    ∃ h' f, exec t h .fixWeights = .ok h' ∧ ManagersChanged (WeightOf t h) h h' f ∧ ∀ m, Entered .fix m (f m) := by
  refine ⟨_, setSt .fix, rfl, ?_, setSt_entered _⟩
  unfold applyAll
  rw [fold_weight]
  exact managers_changed _ _ (wt_mem hc h) _ h

/-- Objects whose ranges can be reset: managers with an estimator, and `FP32Acts`. -/
def Resettable (o : Obj) : Prop := o = .fp32 ∨ ∃ m : Man, o = .man m ∧ m.est = true

theorem reset_fold (ids : List Nat) : ∀ h : Heap,
    ((∀ j ∈ ids, Resettable (h j)) →
      ids.foldlM resetObj h = .ok fun j => if j ∈ ids then
        mapM' (fun m => { m with st := .estimateTrain, init := false }) (h j) else h j) ∧
    ((∃ j ∈ ids, ¬ Resettable (h j)) → ids.foldlM resetObj h = .error .attributeError) := by
  induction ids with
  | nil => intro h; exact ⟨fun _ => by simp [pure, Except.pure], fun ⟨j, hj, _⟩ => by cases hj⟩
  | cons i ids ih =>
    intro h
    rw [List.foldlM_cons]
    by_cases hi : Resettable (h i)
    · have e : ∃ h', resetObj h i = .ok h' ∧ h' = (fun j => if j = i then
          mapM' (fun m => { m with st := .estimateTrain, init := false }) (h j) else h j) := by
        unfold resetObj
        rcases hi with hi | ⟨m, hm, he⟩
        · rw [hi]
          refine ⟨h, rfl, ?_⟩
          funext j
          by_cases hj : j = i
          · subst hj; rw [if_pos rfl, hi]; rfl
          · rw [if_neg hj]
        · rw [hm]
          show ∃ h', (if m.est = true then _ else _) = _ ∧ _
          rw [if_pos he]
          refine ⟨_, rfl, ?_⟩
          funext j
          unfold setObj
          by_cases hj : j = i
          · subst hj; rw [if_pos rfl, if_pos rfl, hm]; rfl
          · rw [if_neg hj, if_neg hj]
      obtain ⟨h', e1, e2⟩ := e
      have hr : ∀ j, Resettable (h' j) ↔ Resettable (h j) := by
        intro j
        rw [e2]
        show Resettable (if j = i then _ else _) ↔ _
        split
        · cases h j <;> simp [Resettable, mapM']
        · rfl
      simp only [e1, bind, Except.bind]
      refine ⟨?_, ?_⟩
      · intro hall
        rw [(ih h').1 (fun j hj => (hr j).mpr (hall j (List.mem_cons_of_mem _ hj)))]
        refine congrArg Except.ok ?_
        funext j
        rw [e2]
        by_cases hj : j = i
        · subst hj
          simp only [if_true, List.mem_cons_self]
          split
          · cases h j <;> rfl
          · rfl
        · simp [hj]
      · rintro ⟨j, hj, hn⟩
        rcases List.mem_cons.mp hj with rfl | hj
        · exact absurd hi hn
        · exact (ih h').2 ⟨j, hj, fun x => hn ((hr j).mp x)⟩
    · have e1 : resetObj h i = .error .attributeError := by
        unfold resetObj
        cases hh : h i with
        | plain => rfl
        | qmod q => rfl
        | fp32 => exact absurd (Or.inl hh) hi
        | man m =>
          simp only
          rw [if_neg]
          intro he
          exact hi (Or.inr ⟨m, hh, he⟩)
      simp only [e1, bind, Except.bind]
      exact ⟨fun hall => absurd (hall i List.mem_cons_self) hi, fun _ => by trivial⟩

theorem reset_keep {h h' : Heap} {j : Nat} (e : resetObj h j = .ok h') (i : Nat) (q : QMod) :
    h' i = .qmod q ↔ h i = .qmod q := by
  unfold resetObj at e
  cases hh : h j with
  | plain => rw [hh] at e; cases e
  | qmod q => rw [hh] at e; cases e
  | fp32 => rw [hh] at e; cases e; rfl
  | man m =>
    rw [hh] at e
    simp only at e
    split at e
    · cases e
      unfold setObj
      split
      · rename_i x
        subst x
        rw [hh]
        simp
      · rfl
    · cases e

theorem fold_reset (ids : List Nat) :
    ∀ h : Heap, ids.foldlM onReset h = (ids.filterMap (actT h)).foldlM resetObj h := by
  induction ids with
  | nil => intro h; rfl
  | cons i ids ih =>
    intro h
    rw [List.foldlM_cons, List.filterMap_cons]
    have e : onReset h i = (match actT h i with
        | some j => resetObj h j
        | none => .ok h) := by
      unfold onReset actT
      cases h i <;> rfl
    rw [e]
    cases ea : actT h i with
    | none => simp only [bind, Except.bind]; exact ih h
    | some j =>
      simp only [List.foldlM_cons, bind, Except.bind]
      cases er : resetObj h j with
      | error x => rfl
      | ok h' =>
        simp only
        rw [ih, (act_keep (reset_keep er)).1]

/-- **C86 (reset).** `reset_act_ranges` resets the managers of all activation quantizers: they are estimated in
training again and have no range.  It raises if one of these quantizers was made with a fixed range (or is not
a quantizer). -/
theorem C86_reset (t : Tree) (hc : Consistent t) (h : Heap) :
    ((∀ j, ActOf t h j → Resettable (h j)) → ∃ h', exec t h .resetActs = .ok h' ∧
      ManagersChanged (ActOf t h) h h' fun m => ⟨.estimateTrain, false, m.est⟩) ∧
    ((∃ j, ActOf t h j ∧ ¬ Resettable (h j)) → exec t h .resetActs = .error .attributeError) := by
  have e : exec t h .resetActs = ((visit t).filterMap (actT h)).foldlM resetObj h := fold_reset _ h
  rw [e]
  refine ⟨?_, ?_⟩
  · intro hall
    refine ⟨_, (reset_fold _ h).1 fun j hj => hall j ((act_mem hc h j).mp hj), ?_, ?_⟩
    · intro i m hi hm
      show (if _ then _ else _) = _
      rw [if_pos ((act_mem hc h i).mpr hi), hm]
      rfl
    · intro i hi
      show (if _ then _ else _) = _
      rcases hi with hi | hi
      · rw [if_neg (fun x => hi ((act_mem hc h i).mp x))]
      · split
        · cases hh : h i with
          | man q => exact absurd hh (hi q)
          | _ => rfl
        · rfl
  · rintro ⟨j, hj, hn⟩
    exact (reset_fold _ h).2 ⟨j, (act_mem hc h j).mpr hj, hn⟩

/-- One call, seen from a quantized module of the model. -/
theorem exec_mod (t : Tree) (hc : Consistent t) (h h' : Heap) (c : Cmd) (he : exec t h c = .ok h') (i : Nat) (q : QMod)
    (hi : Reach t i) (hq : h i = .qmod q) :
    h' i = .qmod { q with
      quantW := (wantW q c).getD q.quantW
      quantA := (wantA q c).getD q.quantA
      cached := q.cached && (wantW q c).isNone } := by
  have key : ∀ f : QMod → QMod, (∀ q, f (f q) = f q) → h' = applyAll t (onQ f) h → h' i = .qmod (f q) := by
    intro f hf e
    rw [e]
    exact (modules_changed hc f hf h).1 i q hi hq
  have man : ∀ (P : Nat → Prop) (f : Man → Man), ManagersChanged P h h' f → h' i = h i := by
    intro P f hm
    exact hm.2 i (Or.inr fun m hm => by rw [hq] at hm; cases hm)
  cases c with
  | weights on => cases he; rw [key (setW on) (fun _ => rfl) rfl]; cases q; simp [setW, wantW, wantA]
  | acts on => cases he; rw [key (setA on) (fun _ => rfl) rfl]; cases q; simp [setA, wantW, wantA]
  | both on => cases he; rw [key (fun q => setA on (setW on q)) (fun _ => rfl) rfl]; cases q; simp [setA, setW, wantW, wantA]
  | set w a =>
    cases he
    have h1 := (modules_changed hc (setA a) (fun _ => rfl) h).1 i q hi hq
    have h2 := (modules_changed hc (setW w) (fun _ => rfl) (applyAll t (onQ (setA a)) h)).1 i _ hi h1
    rw [h2]
    cases q
    simp [setA, setW, wantW, wantA]
  | enable =>
    cases he
    have hf : ∀ q, enableOne (enableOne q) = enableOne q := by
      intro q
      unfold enableOne setW setA
      by_cases h1 : 0 < q.bitsW <;> by_cases h2 : 0 < q.bitsA <;> simp [h1, h2]
    rw [key _ hf rfl]
    cases q
    rename_i w a
    unfold enableOne setW setA
    simp only [wantW, wantA]
    split <;> split <;> simp_all
  | ranges s =>
    cases he
    rw [man _ _ (managers_changed _ _ (visit_iff hc) s h), hq]
    cases q; simp [wantW, wantA]
  | fixActs =>
    obtain ⟨h1, f, e, hm, _⟩ := (C86_act_ranges t hc h).1
    rw [he] at e; cases e
    rw [man _ _ hm, hq]; cases q; simp [wantW, wantA]
  | fixWeights =>
    obtain ⟨h1, f, e, hm, _⟩ := C86_weight_ranges t hc h
    rw [he] at e; cases e
    rw [man _ _ hm, hq]; cases q; simp [wantW, wantA]
  | estimateActs =>
    obtain ⟨h1, f, e, hm, _⟩ := (C86_act_ranges t hc h).2
    rw [he] at e; cases e
    rw [man _ _ hm, hq]; cases q; simp [wantW, wantA]
  | resetActs =>
    by_cases hr : ∀ j, ActOf t h j → Resettable (h j)
    · obtain ⟨h1, e, hm⟩ := (C86_reset t hc h).1 hr
      rw [he] at e; cases e
      rw [man _ _ hm, hq]; cases q; simp [wantW, wantA]
    · push Not at hr
      obtain ⟨j, h1, h2⟩ := hr
      rw [(C86_reset t hc h).2 ⟨j, h1, h2⟩] at he
      cases he

theorem lastWord_cons (want : Cmd → Option Bool) (old : Bool) (c : Cmd) (cs : List Cmd) :
    lastWord want old (c :: cs) = lastWord want ((want c).getD old) cs := by
  unfold lastWord
  rw [List.filterMap_cons]
  cases want c with
  | none => rfl
  | some b =>
    simp only [Option.getD_some]
    cases h : cs.filterMap want with
    | nil => rfl
    | cons a l => rw [List.getLast?_cons_cons]; cases h2 : (a :: l).getLast? with
      | none => simp at h2
      | some x => rfl

/-- **C86 (last word).** After any sequence of calls, weights and activations of every quantized module of the
model are quantized exactly as the last call that concerns them says (a call that enables the states goes by the
numbers of bits), or as before if none does; the parameter cache is empty if a call concerned the weights;
nothing else of the module changes. -/
theorem C86_last_word (t : Tree) (hc : Consistent t) (cs : List Cmd) :
    ∀ (h h' : Heap) (_ : execAll t h cs = .ok h') (i : Nat) (q : QMod) (_ : Reach t i) (_ : h i = .qmod q),
    h' i = .qmod { q with
      quantW := lastWord (wantW q) q.quantW cs
      quantA := lastWord (wantA q) q.quantA cs
      cached := q.cached && cs.all fun c => (wantW q c).isNone } := by
  induction cs with
  | nil =>
    intro h h' he i q hi hq
    cases he
    rw [hq]
    cases q
    simp [lastWord]
  | cons c cs ih =>
    intro h h' he i q hi hq
    rw [execAll] at he
    cases h1 : exec t h c with
    | error e => rw [h1] at he; cases he
    | ok h2 =>
      rw [h1] at he
      simp only at he
      have e1 := exec_mod t hc h h2 c h1 i q hi hq
      rw [ih h2 h' he i _ hi e1, lastWord_cons, lastWord_cons]
      have w : ∀ (c' : Cmd) (b1 b2 b3 : Bool), wantW { q with quantW := b1, quantA := b2, cached := b3 } c' = wantW q c' := by
        intro c' b1 b2 b3; cases c' <;> rfl
      have a : ∀ (c' : Cmd) (b1 b2 b3 : Bool), wantA { q with quantW := b1, quantA := b2, cached := b3 } c' = wantA q c' := by
        intro c' b1 b2 b3; cases c' <;> rfl
      have w' : ∀ (b1 b2 b3 : Bool), wantW { q with quantW := b1, quantA := b2, cached := b3 } = wantW q :=
        fun b1 b2 b3 => funext fun c' => w c' b1 b2 b3
      have a' : ∀ (b1 b2 b3 : Bool), wantA { q with quantW := b1, quantA := b2, cached := b3 } = wantA q :=
        fun b1 b2 b3 => funext fun c' => a c' b1 b2 b3
      simp only [w', a', List.all_cons, Bool.and_assoc]

/-- **C86 (switches).** The switches of weights and activations never raise and leave all other objects - the
quantizers above all - unchanged. -/
theorem C86_switches (t : Tree) (hc : Consistent t) (h : Heap) (c : Cmd)
    (hs : (∃ on, c = .weights on) ∨ (∃ on, c = .acts on) ∨ (∃ on, c = .both on) ∨ (∃ w a, c = .set w a) ∨ c = .enable) :
    ∃ h', exec t h c = .ok h' ∧ ∀ i, (∀ q, h i ≠ .qmod q) → h' i = h i := by
  have key : ∀ (f : QMod → QMod) (h : Heap), (∀ q, f (f q) = f q) → ∀ i, (∀ q, h i ≠ .qmod q) →
      applyAll t (onQ f) h i = h i := fun f h hf i hi => (modules_changed hc f hf h).2 i (Or.inr hi)
  rcases hs with ⟨on, rfl⟩ | ⟨on, rfl⟩ | ⟨on, rfl⟩ | ⟨w, a, rfl⟩ | rfl
  · exact ⟨_, rfl, key (setW on) h (fun _ => rfl)⟩
  · exact ⟨_, rfl, key (setA on) h (fun _ => rfl)⟩
  · exact ⟨_, rfl, key (fun q => setA on (setW on q)) h (fun _ => rfl)⟩
  · refine ⟨_, rfl, fun i hi => ?_⟩
    have e := key (setA a) h (fun _ => rfl) i hi
    refine (key (setW w) _ (fun _ => rfl) i ?_).trans e
    rw [e]
    exact hi
  · refine ⟨_, rfl, key enableOne h ?_⟩
    intro q
    unfold enableOne setW setA
    by_cases h1 : 0 < q.bitsW <;> by_cases h2 : 0 < q.bitsA <;> simp [h1, h2]

/-- **C86 (outside).** No call changes an object that neither is a module of the model nor a quantizer attribute
of one. -/
theorem C86_outside (t : Tree) (hc : Consistent t) (h h' : Heap) (c : Cmd) (he : exec t h c = .ok h') (i : Nat)
    (hi : ¬ Reach t i) (ha : ¬ ActOf t h i) (hw : ¬ WeightOf t h i) : h' i = h i := by
  have key : ∀ (f : QMod → QMod) (h : Heap), (∀ q, f (f q) = f q) → applyAll t (onQ f) h i = h i := by
    intro f h hf
    exact (modules_changed hc f hf h).2 i (Or.inl hi)
  cases c with
  | weights on => cases he; exact key (setW on) _ (fun _ => rfl)
  | acts on => cases he; exact key (setA on) _ (fun _ => rfl)
  | both on => cases he; exact key (fun q => setA on (setW on q)) _ (fun _ => rfl)
  | set w a => cases he; exact (key (setW w) _ (fun _ => rfl)).trans (key (setA a) _ (fun _ => rfl))
  | enable =>
    cases he
    refine key _ _ ?_
    intro q
    unfold enableOne setW setA
    by_cases h1 : 0 < q.bitsW <;> by_cases h2 : 0 < q.bitsA <;> simp [h1, h2]
  | ranges s => cases he; exact (managers_changed _ _ (visit_iff hc) s h).2 i (Or.inl hi)
  | fixActs =>
    obtain ⟨h1, f, e, hm, _⟩ := (C86_act_ranges t hc h).1
    rw [he] at e; cases e
    exact hm.2 i (Or.inl ha)
  | fixWeights =>
    obtain ⟨h1, f, e, hm, _⟩ := C86_weight_ranges t hc h
    rw [he] at e; cases e
    exact hm.2 i (Or.inl hw)
  | estimateActs =>
    obtain ⟨h1, f, e, hm, _⟩ := (C86_act_ranges t hc h).2
    rw [he] at e; cases e
    exact hm.2 i (Or.inl ha)
  | resetActs =>
    by_cases hr : ∀ j, ActOf t h j → Resettable (h j)
    · obtain ⟨h1, e, hm⟩ := (C86_reset t hc h).1 hr
      rw [he] at e; cases e
      exact hm.2 i (Or.inl ha)
    · push Not at hr
      obtain ⟨j, h1, h2⟩ := hr
      rw [(C86_reset t hc h).2 ⟨j, h1, h2⟩] at he
      cases he

end Aihw.QStates

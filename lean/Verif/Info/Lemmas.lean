import Verif.Info.Model
import Mathlib.Data.List.Forall2

/-!
# C77: lemmas
-/
namespace Aihw.Info
open Aihw

/-! ## Specification -/

/-- The summary entry that a call of a layer produces, or the exception. -/
def entryOf (c : Call) (l : Layer) : Except PyErr LInfo := do
  let i ← c.inp.size
  let o ← c.out.size
  layerInfo l i o

/-- The (call, layer) pairs of a forward pass in order: every call with every one of the given layers
that has its identity. -/
def pairs (ls : List Layer) (cs : List Call) : List (Call × Layer) :=
  cs.flatMap fun c => (ls.filter fun l => decide (l.id = c.id)).map fun l => (c, l)

/-- The layers hooked for summary `k`. -/
def ownedBy (hooks : List Hook) (k : Nat) : List Layer :=
  (hooks.filter fun h => decide (h.owner = k)).map Hook.layer

/-- Entry `e` is the one of a pair. -/
def Records (p : Call × Layer) (e : LInfo) : Prop := entryOf p.1 p.2 = .ok e

/-! ## Lemmas -/

theorem runHook_eq (c : Call) (h : Hook) (l : List (List LInfo)) :
    runHook c h l = (entryOf c h.layer).map fun e => l.modify h.owner (· ++ [e]) := by
  unfold runHook entryOf
  cases c.inp.size with
  | error e => rfl
  | ok i =>
    cases c.out.size with
    | error e => rfl
    | ok o =>
      cases hh : layerInfo h.layer i o with
      | error e => simp [hh, bind, Except.bind, Except.map]
      | ok e => simp [hh, bind, Except.bind, Except.map]

theorem getD_modify (l : List (List LInfo)) (i k : Nat) (f : List LInfo → List LInfo)
    (hk : k < l.length) : (l.modify i f).getD k [] = if i = k then f (l.getD k []) else l.getD k [] := by
  simp only [List.getD_eq_getElem?_getD, List.getElem?_modify, List.getElem?_eq_getElem hk]
  by_cases h : i = k <;> simp [h]

theorem runHooks_ok (c : Call) (hooks : List Hook) (l l' : List (List LInfo))
    (h : runHooks c hooks l = (l', .ok ())) :
    l'.length = l.length ∧ ∀ k < l.length, ∃ es : List LInfo,
      l'.getD k [] = l.getD k [] ++ es ∧
      List.Forall₂ Records (pairs (ownedBy hooks k) [c]) es := by
  induction hooks generalizing l with
  | nil =>
    simp only [runHooks, Prod.mk.injEq, and_true] at h
    subst h
    exact ⟨rfl, fun k _ => ⟨[], by simp, by simp [pairs, ownedBy]⟩⟩
  | cons a hs ih =>
    rw [runHooks] at h
    by_cases ha : a.layer.id = c.id
    · rw [if_pos ha, runHook_eq] at h
      cases he : entryOf c a.layer with
      | error e => simp [he, Except.map] at h
      | ok e =>
        simp only [he, Except.map] at h
        obtain ⟨h1, h2⟩ := ih _ h
        rw [List.length_modify] at h1 h2
        refine ⟨h1, fun k hk => ?_⟩
        obtain ⟨es, e1, e2⟩ := h2 k hk
        rw [getD_modify _ _ _ _ hk] at e1
        by_cases hka : a.owner = k
        · rw [if_pos hka] at e1
          refine ⟨e :: es, by rw [e1]; simp, ?_⟩
          have : pairs (ownedBy (a :: hs) k) [c] = (c, a.layer) :: pairs (ownedBy hs k) [c] := by
            simp [pairs, ownedBy, hka, ha]
          rw [this]
          exact List.Forall₂.cons he e2
        · rw [if_neg hka] at e1
          refine ⟨es, e1, ?_⟩
          have : ownedBy (a :: hs) k = ownedBy hs k := by simp [ownedBy, hka]
          rw [this]; exact e2
    · rw [if_neg ha] at h
      obtain ⟨h1, h2⟩ := ih _ h
      refine ⟨h1, fun k hk => ?_⟩
      obtain ⟨es, e1, e2⟩ := h2 k hk
      refine ⟨es, e1, ?_⟩
      have : pairs (ownedBy (a :: hs) k) [c] = pairs (ownedBy hs k) [c] := by
        by_cases hka : a.owner = k
        · simp [pairs, ownedBy, hka, ha]
        · simp [ownedBy, hka]
      rw [this]; exact e2

theorem pairs_cons (ls : List Layer) (c : Call) (cs : List Call) :
    pairs ls (c :: cs) = pairs ls [c] ++ pairs ls cs := by
  simp [pairs]

theorem forward_ok (hooks : List Hook) (cs : List Call) (l l' : List (List LInfo))
    (h : forward hooks cs l = (l', .ok ())) :
    l'.length = l.length ∧ ∀ k < l.length, ∃ es : List LInfo,
      l'.getD k [] = l.getD k [] ++ es ∧
      List.Forall₂ Records (pairs (ownedBy hooks k) cs) es := by
  induction cs generalizing l with
  | nil =>
    simp only [forward, Prod.mk.injEq, and_true] at h
    subst h
    exact ⟨rfl, fun k _ => ⟨[], by simp, by simp [pairs]⟩⟩
  | cons c cs ih =>
    rw [forward] at h
    rcases hr : runHooks c hooks l with ⟨l1, r⟩
    cases r with
    | error e => rw [hr] at h; simp at h
    | ok u =>
      rw [hr] at h
      obtain ⟨a1, a2⟩ := runHooks_ok c hooks l l1 (by rw [hr])
      obtain ⟨b1, b2⟩ := ih l1 h
      refine ⟨b1.trans a1, fun k hk => ?_⟩
      obtain ⟨es, e1, e2⟩ := a2 k hk
      obtain ⟨fs, f1, f2⟩ := b2 k (by rw [a1]; exact hk)
      refine ⟨es ++ fs, by rw [f1, e1, List.append_assoc], ?_⟩
      rw [pairs_cons]
      exact List.rel_append e2 f2

/-- The outcome of the hooks does not depend on what has been recorded. -/
theorem runHooks_snd (c : Call) (hooks : List Hook) (l l' : List (List LInfo)) :
    (runHooks c hooks l).2 = (runHooks c hooks l').2 := by
  induction hooks generalizing l l' with
  | nil => rfl
  | cons a hs ih =>
    rw [runHooks, runHooks]
    by_cases ha : a.layer.id = c.id
    · rw [if_pos ha, if_pos ha, runHook_eq, runHook_eq]
      cases entryOf c a.layer with
      | error e => rfl
      | ok e => exact ih _ _
    · rw [if_neg ha, if_neg ha]; exact ih _ _

theorem forward_snd (hooks : List Hook) (cs : List Call) (l l' : List (List LInfo)) :
    (forward hooks cs l).2 = (forward hooks cs l').2 := by
  induction cs generalizing l l' with
  | nil => rfl
  | cons c cs ih =>
    rw [forward, forward]
    have := runHooks_snd c hooks l l'
    rcases h1 : runHooks c hooks l with ⟨a, r⟩
    rcases h2 : runHooks c hooks l' with ⟨b, r'⟩
    rw [h1, h2] at this
    simp only at this
    subst this
    cases r with
    | error e => rfl
    | ok u => exact ih _ _

/-- The hooks of a call all succeed iff every entry can be made. -/
theorem runHooks_total (c : Call) (hooks : List Hook) (l : List (List LInfo)) :
    (runHooks c hooks l).2 = .ok () ↔
      ∀ h ∈ hooks, h.layer.id = c.id → ∃ e, entryOf c h.layer = .ok e := by
  induction hooks generalizing l with
  | nil => simp [runHooks]
  | cons a hs ih =>
    rw [runHooks]
    by_cases ha : a.layer.id = c.id
    · rw [if_pos ha, runHook_eq]
      cases he : entryOf c a.layer with
      | error e =>
        simp only [Except.map]
        constructor
        · intro h; cases h
        · intro h
          obtain ⟨x, hx⟩ := h a (by simp) ha
          rw [he] at hx; cases hx
      | ok e =>
        simp only [Except.map, ih, List.mem_cons, forall_eq_or_imp]
        exact ⟨fun h => ⟨fun _ => ⟨e, he⟩, h⟩, fun h => h.2⟩
    · rw [if_neg ha, ih]
      simp [ha]

theorem forward_total (hooks : List Hook) (cs : List Call) (l : List (List LInfo)) :
    (forward hooks cs l).2 = .ok () ↔
      ∀ c ∈ cs, ∀ h ∈ hooks, h.layer.id = c.id → ∃ e, entryOf c h.layer = .ok e := by
  induction cs generalizing l with
  | nil => simp [forward]
  | cons c cs ih =>
    rw [forward]
    have ht := runHooks_total c hooks l
    rcases h1 : runHooks c hooks l with ⟨a, r⟩
    rw [h1] at ht
    cases r with
    | error e =>
      simp only [List.mem_cons, forall_eq_or_imp]
      constructor
      · intro h; cases h
      · intro h; exact absurd (ht.2 h.1) (by simp)
    | ok u =>
      simp only [ih, List.mem_cons, forall_eq_or_imp]
      exact ⟨fun h => ⟨ht.1 rfl, h⟩, fun h => h.2⟩

theorem layerInfo_numTiles {l : Layer} {i o : List Nat} {e : LInfo} (h : layerInfo l i o = .ok e) :
    e.numTiles = (if l.analog then l.tiles.length else 0) ∧ e.analog = l.analog ∧ e.id = l.id ∧
    e.inp = i ∧ e.out = o ∧ reuseFactor l.cls i o = .ok e.reuse ∧
    tilesInfo l = .ok e.tiles := by
  unfold layerInfo at h
  cases h1 : tilesInfo l with
  | error x => rw [h1] at h; cases h
  | ok ts =>
    rw [h1] at h
    cases h2 : reuseFactor l.cls i o with
    | error x => rw [h2] at h; cases h
    | ok r =>
      rw [h2] at h
      have := (Except.ok.inj h).symm
      subst this
      exact ⟨rfl, rfl, rfl, rfl, rfl, rfl, rfl⟩

theorem records_numTiles {p : Call × Layer} {e : LInfo} (h : Records p e) :
    e.numTiles = (if p.2.analog then p.2.tiles.length else 0) ∧ e.analog = p.2.analog ∧
      e.id = p.2.id := by
  unfold Records entryOf at h
  cases h1 : p.1.inp.size with
  | error x => rw [h1] at h; cases h
  | ok i =>
    rw [h1] at h
    cases h2 : p.1.out.size with
    | error x => rw [h2] at h; cases h
    | ok o =>
      rw [h2] at h
      have := layerInfo_numTiles h
      exact ⟨this.1, this.2.1, this.2.2.1⟩

theorem ownedBy_new (hooks : List Hook) (k : Nat) (ls : List Layer) (h : ∀ x ∈ hooks, x.owner ≠ k) :
    ownedBy (hooks ++ ls.map (Hook.mk k)) k = ls := by
  unfold ownedBy
  rw [List.filter_append, List.filter_eq_nil_iff.2 (by simpa using h), List.nil_append]
  induction ls with
  | nil => rfl
  | cons a t ih => simpa using ih

end Aihw.Info

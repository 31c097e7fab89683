import Verif.State.Device
import Verif.State.Examples

/-!
# C28: strict mode, keeping the own configuration, old checkpoints — theorems
-/
namespace Aihw.State

variable {σ W H E A : Type}

/-! ## Specification -/

/-- A problem with the keys of one tile: no analog state in the checkpoint, a registered tensor
without entry, or an entry without registered tensor (`shared_weights` does not count). -/
def KeyProblem (e : Entry W H E) (t : Tile σ A) : Prop :=
  e.analog = none ∨
  (∃ n v, (n, some v) ∈ t.params ∧ n ≠ "shared_weights" ∧ ∀ x, (n, x) ∉ e.vals) ∨
  (∃ n x, (n, x) ∈ e.vals ∧ n ≠ "shared_weights" ∧ ∀ v, (n, some v) ∉ t.params)

/-! ## Lemmas -/

theorem lookup_none_iff (n : String) (l : List (String × Ten)) :
    lookup n l = none ↔ ∀ x, (n, x) ∉ l := by
  induction l with
  | nil => simp [lookup]
  | cons a l ih =>
    rcases a with ⟨m, v⟩
    simp only [lookup]
    split_ifs with h
    · subst h
      simp only [reduceCtorEq, false_iff, not_forall, not_not]
      exact ⟨v, List.mem_cons_self ..⟩
    · rw [ih]
      constructor
      · intro h' x hx
        rcases List.mem_cons.1 hx with hx | hx
        · cases hx; exact h rfl
        · exact h' x hx
      · intro h' x hx; exact h' x (List.mem_cons_of_mem _ hx)

theorem loadParam_fst (vals : List (String × Ten)) (p : String × Option Ten) :
    (loadParam vals p).1 = p.1 ∧ ((loadParam vals p).2.isSome = p.2.isSome) := by
  unfold loadParam
  rcases p with ⟨n, _ | v⟩
  · exact ⟨rfl, rfl⟩
  · cases lookup n vals with
    | none => exact ⟨rfl, rfl⟩
    | some x => simp only; split_ifs <;> exact ⟨rfl, rfl⟩

theorem any_missing_iff (vals : List (String × Ten)) (ps : List (String × Option Ten)) :
    ps.any (missing vals) = true ↔
      ∃ n v, (n, some v) ∈ ps.map (loadParam vals) ∧ n ≠ "shared_weights" ∧ ∀ x, (n, x) ∉ vals := by
  rw [List.any_eq_true]
  constructor
  · rintro ⟨⟨n, o⟩, hm, hp⟩
    unfold missing at hp
    cases o with
    | none => simp at hp
    | some v =>
      cases hl : lookup n vals with
      | some x => simp [hl] at hp
      | none =>
        simp only [hl, Bool.not_eq_true', beq_eq_false_iff_ne] at hp
        refine ⟨n, v, List.mem_map.2 ⟨_, hm, ?_⟩, hp, (lookup_none_iff n vals).1 hl⟩
        simp [loadParam, hl]
  · rintro ⟨n, v, hm, hs, hx⟩
    obtain ⟨⟨m, o⟩, hm, he⟩ := List.mem_map.1 hm
    have h1 := loadParam_fst vals (m, o)
    rw [he] at h1
    simp only at h1
    obtain ⟨h1, h2⟩ := h1
    subst h1
    refine ⟨_, hm, ?_⟩
    cases o with
    | none => simp at h2
    | some w => simp [missing, (lookup_none_iff n vals).2 hx, hs]

theorem any_unexpected_iff (vals : List (String × Ten)) (ps : List (String × Option Ten)) :
    vals.any (unexpected ps) = true ↔
      ∃ n x, (n, x) ∈ vals ∧ n ≠ "shared_weights" ∧ ∀ v, (n, some v) ∉ ps.map (loadParam vals) := by
  rw [List.any_eq_true]
  have key : ∀ n, (ps.any fun p => p.1 == n && p.2.isSome) = true ↔
      ∃ v, (n, some v) ∈ ps.map (loadParam vals) := by
    intro n
    rw [List.any_eq_true]
    constructor
    · rintro ⟨p, hp, h⟩
      simp only [Bool.and_eq_true, beq_iff_eq] at h
      have := loadParam_fst vals p
      rw [h.2, h.1, Option.isSome_iff_exists] at this
      obtain ⟨h1, v, h2⟩ := this
      exact ⟨v, List.mem_map.2 ⟨p, hp, by rw [← h1, ← h2]⟩⟩
    · rintro ⟨v, hv⟩
      obtain ⟨p, hp, h⟩ := List.mem_map.1 hv
      have := loadParam_fst vals p
      rw [h] at this
      exact ⟨p, hp, by simp [← this.1, ← this.2]⟩
  constructor
  · rintro ⟨⟨n, x⟩, hm, hp⟩
    simp only [unexpected, Bool.and_eq_true, Bool.not_eq_true', beq_eq_false_iff_ne] at hp
    refine ⟨n, x, hm, hp.1, fun v hv => ?_⟩
    have := (key n).2 ⟨v, hv⟩
    rw [hp.2] at this
    cases this
  · rintro ⟨n, x, hm, hs, hv⟩
    refine ⟨_, hm, ?_⟩
    simp only [unexpected, Bool.and_eq_true, Bool.not_eq_true', beq_eq_false_iff_ne]
    refine ⟨hs, ?_⟩
    rw [← Bool.not_eq_true, key]
    rintro ⟨v, h⟩
    exact hv v h

theorem loadTile_keys (S : SimOps σ W H E) (isa : String → String → Bool) (e : Entry W H E)
    (seed : Nat) (w w' : World) (t t' : Tile σ A) (p : Problems)
    (h : loadTile S isa e seed w t = (.ok p, w', t')) : p.keys = true ↔ KeyProblem e t' := by
  unfold loadTile at h
  split at h
  · simp at h
  · rename_i miss w1 t1 hq
    have hmiss : miss = true ↔ e.analog = none := by
      unfold preHook at hq
      cases ha : e.analog with
      | none => rw [ha] at hq; simp only [Prod.mk.injEq, Except.ok.injEq] at hq; simp [hq.1.symm]
      | some a =>
        rw [ha] at hq
        simp only at hq
        split_ifs at hq
        · split at hq
          · simp only [Prod.mk.injEq, Except.ok.injEq] at hq; simp [hq.1.symm]
          · simp at hq
        · simp at hq
        · split at hq
          · simp only [Prod.mk.injEq, Except.ok.injEq] at hq; simp [hq.1.symm]
          · simp at hq
    simp only [Prod.mk.injEq, Except.ok.injEq] at h
    obtain ⟨rfl, rfl, rfl⟩ := h
    simp only [KeyProblem, Bool.or_eq_true, any_missing_iff, any_unexpected_iff, hmiss, or_assoc]

theorem loadAll_keys (S : SimOps σ W H E) (isa : String → String → Bool) (es : List (Entry W H E))
    (seed : Nat) (w w' : World) (ts ts' : List (Tile σ A)) (p : Problems)
    (hlen : es.length = ts.length) (h : loadAll S isa es seed w ts = (.ok p, w', ts')) :
    p.keys = true ↔ ∃ (i : Nat) (e : Entry W H E) (t' : Tile σ A), es[i]? = some e ∧ ts'[i]? = some t' ∧ KeyProblem e t' := by
  induction es generalizing seed w ts ts' p with
  | nil =>
    have : ts = [] := List.length_eq_zero_iff.1 (by simpa using hlen.symm)
    subst this
    simp only [loadAll, Prod.mk.injEq, Except.ok.injEq] at h
    rw [← h.1]
    simp
  | cons e es ih =>
    cases ts with
    | nil => simp at hlen
    | cons t ts =>
      rw [loadAll] at h
      split at h
      · simp at h
      · rename_i p1 w1 t1 h1
        split at h
        · simp at h
        · rename_i q w2 ts2 h2
          simp only [Prod.mk.injEq, Except.ok.injEq] at h
          obtain ⟨rfl, rfl, rfl⟩ := h
          have a := loadTile_keys S isa e seed w w1 t t1 p1 h1
          have b := ih (seed + 3) w1 ts ts2 q (by simpa using hlen) h2
          simp only [Bool.or_eq_true, a, b]
          constructor
          · rintro (hk | ⟨i, e', t', h3, h4, h5⟩)
            · exact ⟨0, e, t1, rfl, rfl, hk⟩
            · exact ⟨i + 1, e', t', h3, h4, h5⟩
          · rintro ⟨i, e', t', h3, h4, h5⟩
            cases i with
            | zero =>
              simp only [List.getElem?_cons_zero, Option.some.injEq] at h3 h4
              subst h3 h4
              exact Or.inl h5
            | succ i => exact Or.inr ⟨i, e', t', h3, h4, h5⟩

/-! ## Theorems -/

/-- **C28 (strict mode).**  For every checkpoint with one entry per tile: the strict and the non-strict
load leave the model and all configurations in the same state (the strict error comes after everything
has been loaded); if the non-strict load succeeds, the strict one (of a checkpoint without empty
legacy contexts) raises `RuntimeError` exactly if some tile has a key problem; with legacy contexts it
never does. -/
theorem C28_strict (S : SimOps σ W H E) (isa : String → String → Bool) (sd : List (Entry W H E))
    (lc st : Option Bool) (seed : Nat) (w : World) (ts : List (Tile σ A)) (legacy : Bool)
    (hlen : sd.length = ts.length) :
    let L := fun strict => loadStateDict S isa sd legacy strict lc st seed w ts
    (L true).2 = (L false).2 ∧
    ((L false).1 = .ok () →
      ((L true).1 = .error .runtimeError ↔ legacy = false ∧
        ∃ (i : Nat) (e : Entry W H E) (t' : Tile σ A), sd[i]? = some e ∧ (L false).2.2[i]? = some t' ∧ KeyProblem e t') ∧
      ((L true).1 ≠ .error .runtimeError → (L true).1 = .ok ())) := by
  intro L
  have hL : ∀ b, L b = (match loadAll S isa sd seed w (ts.map (setFlags lc st)) with
    | (.error er, w, ts) => (.error er, w, ts)
    | (.ok p, w, ts) =>
      if p.shapes || (p.keys && b && !legacy) then (.error .runtimeError, w, ts)
      else (.ok (), w, ts)) := fun b => rfl
  rcases hq : loadAll S isa sd seed w (ts.map (setFlags lc st)) with ⟨e | p, w', ts'⟩
  · rw [hL true, hL false, hq]
    exact ⟨rfl, fun h => by simp at h⟩
  · have hk := loadAll_keys S isa sd seed w w' _ ts' p (by simpa using hlen) hq
    rw [hL true, hL false, hq]
    simp only
    cases hs : p.shapes
    · simp only [Bool.false_or, Bool.and_false, Bool.false_and, Bool.false_eq_true, if_false,
        Bool.and_true]
      refine ⟨by split_ifs <;> rfl, fun _ => ?_⟩
      rw [← hk]
      cases p.keys <;> cases legacy <;> simp
    · simp only [Bool.true_or, if_true]
      exact ⟨trivial, fun h => by simp at h⟩

/-- A checkpoint without the scale of the first tile: the strict load raises, the model is loaded. -/
example :
    let sd := (toySrc.map (stateDict toy)).set 0
      { stateDict toy (toyTile 0 (1 / 3) (1 / 10) 5 2 0) with vals := [("bias", ⟨[1], [5]⟩)] }
    let L := fun strict => loadStateDict toy (fun a b => a == b) sd false strict none none 0
      toyWorld toyDst
    (L false).1.toOption = some () ∧ (L true).1.toOption = none ∧
      (L true).2.2.map (fun t => t.sim.1) = [1 / 3, 7 / 3] := by
  decide +kernel

/-- **C28 (own configuration, success).**  With `load_rpu_config=False`, if the own and the saved
configuration classes are related (or the check is switched off) and the mappings agree up to the
weight scaling settings, loading succeeds: simulator state (built with the *own* configuration) and
all tensors are restored, the own configuration object is kept and no configuration changes. -/
theorem C28_keep_config_loads (S : SimOps σ W H E) (isa : String → String → Bool) (R : σ → σ → Prop)
    (w : World) (src dst : Tile σ A) (seed : Nat) (hl : dst.loadCfg = false)
    (hc : src.cls = dst.cls) (ht : (w.cfgs dst.cfg).tileClass = dst.cls)
    (hisa : dst.strictCfg = false ∨ isa (w.cfgs dst.cfg).cls (w.cfgs src.cfg).cls = true ∨
      isa (w.cfgs src.cfg).cls (w.cfgs dst.cfg).cls = true)
    (hmap : ∀ m m', (w.cfgs dst.cfg).mapping = some m → (w.cfgs src.cfg).mapping = some m' →
      m.rest = m'.rest)
    (hlay : SameLayout src dst) (hr : Restorable S R (w.cfgs dst.cfg) src dst) :
    ∃ t, loadTile S isa (stateDict S src) seed w dst =
        (.ok ⟨false, false⟩, { w with nextCtx := w.nextCtx + 1 }, t) ∧
      Loaded R src dst t ∧ t.cfg = dst.cfg := by
  obtain ⟨t, h1, h2, h3, _⟩ := loadTile_ok S isa R w src { dst with loadCfg := true } dst.cfg seed rfl
    hc ht (by rw [ht, hc]) hlay hr
  have hcomp : compatibleWith isa dst.strictCfg (w.cfgs dst.cfg) (w.cfgs src.cfg) = true := by
    unfold compatibleWith
    rw [Bool.and_eq_true]
    constructor
    · rcases hisa with h | h | h <;> simp [h]
    · cases hm' : (w.cfgs src.cfg).mapping with
      | none => rfl
      | some m' =>
        cases hm : (w.cfgs dst.cfg).mapping with
        | none => rfl
        | some m => simp [Mapping.compatibleWith, (hmap m m' hm hm').symm]
  -- the flag is neither read nor written by `setState`
  have hflag : ∀ a : AState W H E, setState S a none seed w dst =
      ((setState S a none seed w { dst with loadCfg := true }).1,
        (setState S a none seed w { dst with loadCfg := true }).2.1,
        { (setState S a none seed w { dst with loadCfg := true }).2.2 with loadCfg := dst.loadCfg }) := by
    intro a
    unfold setState
    simp only [adopt]
    by_cases c1 : (w.cfgs dst.cfg).compatibleWith (a.cls.getD dst.cls) = false
    · simp only [c1, if_true]
    · have c1' := eq_false c1
      simp only [c1', if_false]
      by_cases c2 : a.names.getD [] ≠ [] ∧ S.names (if dst.torchTile = true then dst.sim
        else S.create ((w.setTileClass a.cfg (w.cfgs dst.cfg).tileClass).cfgs a.cfg) dst.xSize
          dst.dSize seed) ≠ a.names.getD []
      · have c2' := eq_true c2
        simp only [c2', if_true]
      · have c2' := eq_false c2
        simp only [c2', if_false]
        rcases hq : restoreSim S a (seed + 1) (if dst.torchTile = true then dst.sim
          else S.create ((w.setTileClass a.cfg (w.cfgs dst.cfg).tileClass).cfgs a.cfg) dst.xSize
            dst.dSize seed) with e | s <;> rfl
  refine ⟨{ t with loadCfg := false }, ?_, ?_, h3⟩
  · unfold loadTile at h1 ⊢
    simp only [preHook, if_true] at h1
    have hpre : preHook S isa (stateDict S src) seed w dst =
        (match setState S { getAnalogState S src with cfg := dst.cfg } none seed w dst with
          | (.ok _, w, t) => (.ok false, w, t)
          | (.error e, w, t) => (.error e, w, t)) := by
      simp only [preHook, stateDict, hl, Bool.false_eq_true, if_false]
      rw [if_neg]
      · rfl
      · have : (getAnalogState S src).cfg = src.cfg := rfl
        rw [this, hcomp]; simp
    rw [hpre, hflag]
    rcases hq : setState S { getAnalogState S src with cfg := dst.cfg } none seed w
      { dst with loadCfg := true } with ⟨e | u, w1, t1⟩
    · rw [hq] at h1; simp at h1
    · rw [hq] at h1
      simp only [Prod.mk.injEq, Except.ok.injEq] at h1 ⊢
      obtain ⟨a, b, c⟩ := h1
      refine ⟨a, b, ?_⟩
      rw [← c, hl]
  · exact ⟨h2.sim, h2.params, h2.cls, h2.sizes, h2.unsaved, ⟨hl.symm, h2.flags.2⟩⟩

/-- Non-vacuity: the destination has another body and keeps it. -/
example :
    let d := { toyTile 1 1 1 1 1 1 with loadCfg := false }
    let r := loadTile toy (fun a b => a == b) (stateDict toy (toyTile 0 (1 / 3) 9 9 2 9)) 0 toyWorld d
    (r.1.toOption.isSome = true) ∧ r.2.2.cfg = 1 ∧ r.2.2.sim.1 = 1 / 3 := by
  decide +kernel

/-- **C28 (checkpoints without learning rate).**  An entry that has no learning-rate key resets the
learning rate of the tile to 0.01, whatever it was before; a saved `None` leaves that of the newly
built tile. -/
theorem C28_missing_lr {K : Type} [Field K] [LinearOrder K] [IsStrictOrderedRing K] [FloorRing K]
    (F : Pulsed.Fns K) (mk : Cfg → Nat → Nat → Nat → Pulsed.Dev K)
    (dtod : K) (G : Nat → Nat → K) (nm : Pulsed.Kind K → List String)
    (a : AState (Nat → K) (Hid K) Unit) (seed : Nat) (b t : DTile K)
    (h : restoreSim (devOps F mk dtod G nm) a seed b = .ok t) :
    (a.lr = none → t.lr = 1 / 100) ∧ (a.lr = some none → t.lr = b.lr) ∧
    (∀ l, a.lr = some (some l) → t.lr = l) := by
  unfold restoreSim at h
  refine ⟨fun hl => ?_, fun hl => ?_, fun l hl => ?_⟩
  all_goals
    rw [hl] at h
    cases hx : a.extra with
    | none => rw [hx] at h; rw [← Except.ok.inj h] <;> rfl
    | some u => rw [hx] at h; rw [← Except.ok.inj h] <;> rfl

end Aihw.State

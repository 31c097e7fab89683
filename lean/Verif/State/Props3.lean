import Verif.State.Props2
import Verif.State.Context
import Verif.Inference.TileProps

/-!
# C28 / C44: contexts, `replace_with`, shape mismatches, inference state — theorems
-/
namespace Aihw.State

variable {σ W H E A : Type}

/-! ## Contexts -/

theorem setState_ctx (S : SimOps σ W H E) (a : AState W H E) (nb : Option Bool) (seed : Nat)
    (w : World) (t : Tile σ A) :
    (∀ e, (setState S a nb seed w t).1 = .error e →
      (setState S a nb seed w t).2.2.ctx = t.ctx ∧ (setState S a nb seed w t).2.1.nextCtx = w.nextCtx) ∧
    ((setState S a nb seed w t).1 = .ok () →
      (setState S a nb seed w t).2.2.ctx = ⟨w.nextCtx, [], false, false⟩ ∧
      (setState S a nb seed w t).2.1.nextCtx = w.nextCtx + 1) := by
  unfold setState
  simp only []
  split_ifs
  · exact ⟨fun _ _ => ⟨rfl, rfl⟩, fun h => by cases h⟩
  · exact ⟨fun _ _ => ⟨rfl, rfl⟩, fun h => by cases h⟩
  · split
    · exact ⟨fun _ _ => ⟨rfl, rfl⟩, fun h => by cases h⟩
    · exact ⟨fun _ h => (by cases h), fun _ => ⟨rfl, rfl⟩⟩

/-- **C44 (loading and replacing give a new context object).**  Whenever the analog state of a tile is
loaded, or its configuration replaced, successfully, the tile's analog context is a new object
(different from every context that existed before, in particular from the one held by an
optimizer), without recorded gradients and with its flags off; if the load raises, or the dictionary
has no analog state for the tile, the old context stays. -/
theorem C44_new_context (S : SimOps σ W H E) (isa : String → String → Bool) (e : Entry W H E)
    (seed : Nat) (w : World) (t : Tile σ A) :
    (∀ a p, e.analog = some a → (loadTile S isa e seed w t).1 = .ok p →
      (loadTile S isa e seed w t).2.2.ctx = ⟨w.nextCtx, [], false, false⟩ ∧
      (loadTile S isa e seed w t).2.1.nextCtx = w.nextCtx + 1) ∧
    (e.analog = none ∨ (∃ er, (loadTile S isa e seed w t).1 = .error er) →
      (loadTile S isa e seed w t).2.2.ctx = t.ctx) ∧
    (∀ r, (replaceWith S isa r seed w t).1 = .ok () →
      (replaceWith S isa r seed w t).2.2.ctx = ⟨w.nextCtx, [], false, false⟩) ∧
    (∀ r er, (replaceWith S isa r seed w t).1 = .error er →
      (replaceWith S isa r seed w t).2.2.ctx = t.ctx) := by
  have pre : (∀ a m, e.analog = some a → (preHook S isa e seed w t).1 = .ok m →
        (preHook S isa e seed w t).2.2.ctx = ⟨w.nextCtx, [], false, false⟩ ∧
        (preHook S isa e seed w t).2.1.nextCtx = w.nextCtx + 1) ∧
      (e.analog = none ∨ (∃ er, (preHook S isa e seed w t).1 = .error er) →
        (preHook S isa e seed w t).2.2.ctx = t.ctx) := by
    cases he : e.analog with
    | none => simp [preHook, he]
    | some a =>
      have key : ∀ a : AState W H E,
          let r := match setState S a none seed w t with
            | (.ok _, w, t) => ((.ok false, w, t) : Except PyErr Bool × World × Tile σ A)
            | (.error e, w, t) => (.error e, w, t)
          (∀ m, r.1 = .ok m → r.2.2.ctx = ⟨w.nextCtx, [], false, false⟩ ∧
            r.2.1.nextCtx = w.nextCtx + 1) ∧ (∀ er, r.1 = .error er → r.2.2.ctx = t.ctx) := by
        intro a
        obtain ⟨h1, h2⟩ := setState_ctx S a none seed w t
        rcases hs : setState S a none seed w t with ⟨e' | u, w', t'⟩
        · rw [hs] at h1 h2
          simp only
          exact ⟨fun m h => by simp at h, fun er _ => (h1 e' rfl).1⟩
        · rw [hs] at h1 h2
          simp only
          exact ⟨fun m _ => h2 rfl, fun er h => by simp at h⟩
      unfold preHook
      simp only [he, reduceCtorEq, false_or]
      split_ifs
      · obtain ⟨k1, k2⟩ := key a
        exact ⟨fun b m _ h => k1 m h, fun ⟨er, h⟩ => k2 er h⟩
      · exact ⟨fun b m _ h => by simp at h, fun _ => rfl⟩
      · obtain ⟨k1, k2⟩ := key { a with cfg := t.cfg }
        exact ⟨fun b m _ h => k1 m h, fun ⟨er, h⟩ => k2 er h⟩
  refine ⟨?_, ?_, ?_, ?_⟩
  · intro a p ha h
    unfold loadTile at h ⊢
    rcases hq : preHook S isa e seed w t with ⟨er | m, w', t'⟩
    · rw [hq] at h; simp at h
    · have := pre.1 a m ha (by rw [hq])
      rw [hq] at this
      exact this
  · intro h
    unfold loadTile at h ⊢
    rcases hq : preHook S isa e seed w t with ⟨er | m, w', t'⟩
    · have := pre.2 (Or.inr ⟨er, by rw [hq]⟩)
      rw [hq] at this
      exact this
    · rw [hq] at h
      rcases h with h | ⟨er, h⟩
      · have := pre.2 (Or.inl h)
        rw [hq] at this
        exact this
      · simp at h
  · intro r h
    unfold replaceWith at h ⊢
    split_ifs at h ⊢ with hc
    exact ((setState_ctx S _ _ seed (w.copyCfg r).1 t).2 h).1
  · intro r er h
    unfold replaceWith at h ⊢
    split_ifs at h ⊢ with hc
    · rfl
    · exact ((setState_ctx S _ _ seed (w.copyCfg r).1 t).1 er h).1

/-! ## `replace_with` -/

/-- **C28 (`replace_with`).**  Replacing the configuration of a tile in place: if the given configuration
is acceptable and a simulator tile for it takes the current state, the tile has afterwards a *copy*
of the given configuration (with its own tile class), its simulator state is restored from the
current one, and all other attributes (also the ones that are not in state dictionaries), parameters
and buffers are kept; neither the given configuration object nor the old one is changed.  If it is
not acceptable, `TileModuleError` is raised and nothing changes. -/
theorem C28_replace_with (S : SimOps σ W H E) (isa : String → String → Bool) (R : σ → σ → Prop)
    (r seed : Nat) (w : World) (t : Tile σ A) (ht : t.cfg < w.nextCfg)
    (hc : (w.cfgs t.cfg).tileClass = t.cls)
    (hno : ∀ n ∈ t.noneAttrs, ∀ p ∈ t.params, p.1 = n → p.2 = none) :
    (compatibleWith isa t.strictCfg (w.cfgs t.cfg) (w.cfgs r) = false →
      replaceWith S isa r seed w t = (.error .tileModuleError, w, t)) ∧
    (compatibleWith isa t.strictCfg (w.cfgs t.cfg) (w.cfgs r) = true →
      Restorable S R { w.cfgs r with tileClass := t.cls } t t →
      ∃ w' t', replaceWith S isa r seed w t = (.ok (), w', t') ∧
        w'.cfgs t'.cfg = { w.cfgs r with tileClass := t.cls } ∧ w.nextCfg ≤ t'.cfg ∧
        (∀ k < w.nextCfg, w'.cfgs k = w.cfgs k) ∧
        R t.sim t'.sim ∧
        t' = { t with cfg := t'.cfg, sim := t'.sim, ctx := t'.ctx }) := by
  constructor
  · intro h
    simp [replaceWith, h]
  · intro h hR
    have hpar : noneOut t.noneAttrs t.params = t.params := by
      unfold noneOut
      conv_rhs => rw [← List.map_id t.params]
      apply List.map_congr_left
      intro p hp
      split_ifs with hm
      · have := hno p.1 (by simpa using hm) p hp rfl
        rcases p with ⟨a, b⟩
        simp only at this
        rw [this]; rfl
      · rfl
    obtain ⟨hn, hrest⟩ := hR seed
    obtain ⟨s', hs', hRs⟩ := hrest (seed + 1)
    set w1 := ((w.copyCfg r).1).setTileClass w.nextCfg t.cls with hw1
    have hcfg : w1.cfgs w.nextCfg = { w.cfgs r with tileClass := t.cls } := by
      simp [hw1, World.setTileClass, World.copyCfg]
    have hold : ∀ k < w.nextCfg, w1.cfgs k = w.cfgs k := by
      intro k hk
      simp [hw1, World.setTileClass, World.copyCfg, Nat.ne_of_lt hk]
    refine ⟨(newCtx w1).1, { t with cfg := w.nextCfg, sim := s', ctx := (newCtx w1).2 }, ?_, ?_, ?_, ?_,
      hRs, rfl⟩
    · unfold replaceWith
      rw [if_neg (by simp [h])]
      unfold setState
      have hk : ((w.copyCfg r).1).cfgs t.cfg = w.cfgs t.cfg := by
        simp [World.copyCfg, Nat.ne_of_lt ht]
      have e0 : (w.copyCfg r).2 = w.nextCfg := rfl
      have e1 : (((w.copyCfg r).1).cfgs t.cfg).compatibleWith t.cls = true := by
        rw [hk, ← hc]; exact compat_self _
      have e2 : ((w.copyCfg r).1).setTileClass w.nextCfg (((w.copyCfg r).1).cfgs t.cfg).tileClass = w1 := by
        rw [hk, hc]
      have e3 : adopt S { getAnalogState S t with cfg := w.nextCfg } (some t.nonBlocking) seed w1 t =
          { t with cfg := w.nextCfg, sim := blank S (w1.cfgs w.nextCfg) t seed } := by
        simp only [adopt, getAnalogState, hpar, blank, Option.getD_some]
      have e4 : restoreSim S { getAnalogState S t with cfg := w.nextCfg } (seed + 1)
          (blank S (w1.cfgs w.nextCfg) t seed) = .ok s' := by
        rw [hcfg, ← hs']; rfl
      have e5 : S.names (blank S (w1.cfgs w.nextCfg) t seed) = S.names t.sim := by rw [hcfg]; exact hn
      simp only [getAnalogState, Option.getD_some, e0] at e1 e3 e4 ⊢
      simp only [e1, e2, e3, e4, e5, Bool.true_eq_false, if_false, ne_eq, not_true_eq_false, and_false]
    · exact hcfg
    · exact le_refl _
    · exact hold

/-! ## Shape mismatch -/

/-- **C28 (finding: buffers whose shape depends on the history).**  If one saved tensor has another
shape than the registered one, loading raises `RuntimeError` in strict and non-strict mode alike —
after all tiles have been loaded: the tensor keeps the destination's value while the analog weights
are already the source's. -/
theorem C28_shape_mismatch (S : SimOps σ W H E) (isa : String → String → Bool) (e : Entry W H E)
    (seed : Nat) (w w' : World) (t t' : Tile σ A) (p : Problems) (n : String) (old new : Ten)
    (hold : (n, some old) ∈ t.params) (hnew : lookup n e.vals = some new)
    (hkeep : ∀ a, e.analog = some a → n ∉ a.noneAttrs)
    (hs : new.shape ≠ old.shape) (h0 : old.shape ≠ [])
    (h : loadTile S isa e seed w t = (.ok p, w', t')) :
    p.shapes = true ∧ (n, some old) ∈ t'.params ∧
    ∀ legacy strict, ∃ t1, (loadStateDict S isa [e] legacy strict none none seed w [t]) =
      (.error .runtimeError, w', [t1]) ∧ t1 = t' := by
  have hpre : (n, some old) ∈ (preHook S isa e seed w t).2.2.params := by
    have key : ∀ a : AState W H E, n ∉ a.noneAttrs →
        (n, some old) ∈ (setState S a none seed w t).2.2.params := by
      intro a ha
      have hno : (n, some old) ∈ noneOut a.noneAttrs t.params := by
        unfold noneOut
        refine List.mem_map.2 ⟨(n, some old), hold, ?_⟩
        rw [if_neg]
        simpa using ha
      unfold setState
      simp only []
      split_ifs
      · exact hold
      · exact hno
      · split <;> exact hno
    rcases preHook_cases S isa e seed w t with h | ⟨_, a, ha, h⟩ | ⟨_, a, ha, h⟩
    · rw [h]; exact hold
    · rw [h]; exact key a (hkeep a ha)
    · rw [h]; exact key { a with cfg := t.cfg } (hkeep a ha)
  have hsq : squeeze old new = new := by
    unfold squeeze
    rw [if_neg (fun hh => h0 hh.1)]
  have hP : p.shapes = true ∧ (n, some old) ∈ t'.params := by
    unfold loadTile at h
    rcases hq : preHook S isa e seed w t with ⟨er | m, w1, t1⟩
    · rw [hq] at h; simp at h
    · rw [hq] at h hpre
      simp only [Prod.mk.injEq, Except.ok.injEq] at h
      obtain ⟨hp, -, ht⟩ := h
      subst hp ht
      refine ⟨List.any_eq_true.2 ⟨_, hpre, ?_⟩, List.mem_map.2 ⟨_, hpre, ?_⟩⟩
      · simp [shapeBad, hnew, hsq, hs]
      · simp [loadParam, hnew, hsq, hs]
  refine ⟨hP.1, hP.2, ?_⟩
  intro legacy strict
  refine ⟨t', ?_, rfl⟩
  have hf : setFlags none none t = t := rfl
  simp [loadStateDict, hf, loadAll, h, hP.1]

end Aihw.State

namespace Aihw.Inference.Life
open Aihw.Periphery

variable {P : Type}

/-- The shape of the buffer `alpha` of an inference tile: one element at construction
(inference.py:56); after a compensated drift the ratio of two read-outs (compensation/base.py:55-61,
drift.py:28-30, 74-76): a zero-dimensional tensor for the global methods, one element per output for
the per-column method. -/
def alphaShape (c : Comp) (compensated : Bool) (out : Nat) : List Nat :=
  if compensated then (match c with
    | .none => [1]
    | .perColumn => [out]
    | _ => []) else [1]

/-- **C28 (finding: a drifted model cannot be loaded into a fresh one).**  With any drift compensation
(per column: unless there is exactly one output) the saved `alpha` of a model that was drifted has
another shape than the `alpha` of a freshly built model, so that `C28_shape_mismatch` applies. -/
theorem C28_alpha_shape (c : Comp) (out : Nat) (hc : c ≠ .none) (h1 : c = .perColumn → out ≠ 1) :
    alphaShape c true out ≠ alphaShape c false out ∧ alphaShape c false out ≠ [] := by
  cases c <;> simp_all [alphaShape]

/-- What loading a state dictionary does to an inference tile (`C28_unsaved_attributes`): weights,
bias, scales, ranges, `alpha`, learning rate come from the source; programmed weights, drift parameters,
baseline and reference weights are the destination's own. -/
def loadI (src dst : ITile P) : ITile P :=
  { dst with
    t := { src.t with reference := dst.t.reference, mappingLrScale := dst.t.mappingLrScale,
                      cfg := dst.t.cfg }
    alpha := src.alpha }

/-- **C28 (finding: drift after loading).**  If the destination had been programmed before loading, the
next `drift_weights` writes weights that do not depend on what was loaded at all: they are the
destination's old programmed weights, drifted. -/
theorem C28_drift_discards_loaded (src dst : ITile P) (t : ℚ) (k : Nat) (pw : Mat) (p : P) (dw : Mat)
    (hp : dst.programmed = some pw) (hq : dst.pars = some p)
    (hd : dst.nm.drift k pw p t = .ok dw) :
    (loadI src dst).t.w = src.t.w ∧ (drift t k (loadI src dst)).2.t.w = devWrite dst.t.cfg dw := by
  refine ⟨rfl, ?_⟩
  obtain ⟨w, rs, a, h1, h2⟩ := driftProgrammed_spec t k (loadI src dst)
  have : drift t k (loadI src dst) = driftProgrammed t k (loadI src dst) := by
    unfold drift
    have : (loadI src dst).programmed = some pw := hp
    rw [this]
  rw [this, h1]
  exact (h2 pw p hp hq).1 dw hd

/-- **C28 (finding: drift after loading, continued).**  If the destination was not programmed but has
reference weights (for instance from a `program_weights` call that raised), the next drift programs those; otherwise it takes the *loaded device weights* as new
programming target, so the programming noise saved in them is applied a second time. -/
theorem C28_drift_reprograms (src dst : ITile P) (t : ℚ) (k : Nat) (pw : Mat) (p : P) (dw : Mat)
    (hp : dst.programmed = none) (hc : dst.ic.comp = .none)
    (hprog : dst.nm.prog k (dst.t.reference.getD src.t.w) = .ok (pw, p))
    (hd : dst.nm.drift k pw p t = .ok dw) :
    (drift t k (loadI src dst)).2.t.w = devWrite dst.t.cfg dw := by
  have hpl : (loadI src dst).programmed = none := hp
  have hcl : (loadI src dst).ic.comp = .none := hc
  unfold drift
  rw [hpl]
  simp only
  have hpr : program true none k (loadI src dst) =
      (.ok (), { loadI src dst with
        programmed := some pw, pars := some p,
        t := { (loadI src dst).t with reference := some (dst.t.reference.getD src.t.w),
                                      w := devWrite dst.t.cfg pw } }) := by
    unfold program takeReference
    cases hr : dst.t.reference with
    | none =>
      have e : (loadI src dst).t.reference = none := hr
      simp only [Option.getD_none, hr] at hprog
      simp [e, hprog, hcl, loadI, hc, hr]
    | some r =>
      have e : (loadI src dst).t.reference = some r := hr
      simp only [Option.getD_some, hr] at hprog
      simp [e, hprog, loadI, hc, hr]
  rw [hpr]
  simp only
  obtain ⟨w, rs, a, h1, h2⟩ := driftProgrammed_spec t k { loadI src dst with
        programmed := some pw, pars := some p,
        t := { (loadI src dst).t with reference := some (dst.t.reference.getD src.t.w),
                                      w := devWrite dst.t.cfg pw } }
  rw [h1]
  exact (h2 pw p rfl rfl).1 dw hd

/-- Non-vacuity: a model trained to `[[1,2],[3,4]]` is loaded into one that was programmed with
`[[9,9],[9,9]]`; after the load the weights are right, after the drift they are the old ones. -/
example :
    let ic : ICfg := { demoIC with comp := .none }
    let src := irun (fresh ic demoC demoNM) [.base (.setWeights [[1, 2], [3, 4]] none true none)]
    let dst := irun (fresh ic demoC demoNM)
      [.base (.setWeights [[9, 9], [9, 9]] none true none), .program true none 0]
    (loadI src dst).t.w = [[1, 2], [3, 4]] ∧
    (drift 2 0 (loadI src dst)).2.t.w = [[3, 3], [3, 3]] := by decide +kernel

end Aihw.Inference.Life

import Verif.State.Props
import Verif.Inference.TileProps

/-!
# C28: flags, configurations, errors, partial loads; attributes outside the state dictionary
-/
namespace Aihw.State

variable {σ W H E A : Type}

/-! ## What a load can change -/

/-- What any call of `__setstate__` leaves alone. -/
structure Frame (t t' : Tile σ A) : Prop where
  cls : t'.cls = t.cls
  xSize : t'.xSize = t.xSize
  dSize : t'.dSize = t.dSize
  torchTile : t'.torchTile = t.torchTile
  lrScale : t'.lrScale = t.lrScale
  aux : t'.aux = t.aux
  loadCfg : t'.loadCfg = t.loadCfg
  strictCfg : t'.strictCfg = t.strictCfg

theorem Frame.refl (t : Tile σ A) : Frame t t := ⟨rfl, rfl, rfl, rfl, rfl, rfl, rfl, rfl⟩

theorem Frame.trans {a b c : Tile σ A} (h : Frame a b) (k : Frame b c) : Frame a c :=
  ⟨k.1.trans h.1, k.2.trans h.2, k.3.trans h.3, k.4.trans h.4, k.5.trans h.5, k.6.trans h.6,
    k.7.trans h.7, k.8.trans h.8⟩

theorem setState_frame (S : SimOps σ W H E) (a : AState W H E) (nb : Option Bool) (seed : Nat)
    (w : World) (t : Tile σ A) : Frame t (setState S a nb seed w t).2.2 := by
  unfold setState
  simp only []
  split_ifs
  · exact Frame.refl t
  · exact ⟨rfl, rfl, rfl, rfl, rfl, rfl, rfl, rfl⟩
  · split <;> exact ⟨rfl, rfl, rfl, rfl, rfl, rfl, rfl, rfl⟩

theorem setState_nextCfg (S : SimOps σ W H E) (a : AState W H E) (nb : Option Bool) (seed : Nat)
    (w : World) (t : Tile σ A) : (setState S a nb seed w t).2.1.nextCfg = w.nextCfg := by
  unfold setState
  simp only []
  split_ifs
  · rfl
  · rfl
  · split <;> rfl

/-- The heap changes at most in the `tile_class` of the adopted configuration. -/
theorem setState_heap (S : SimOps σ W H E) (a : AState W H E) (nb : Option Bool) (seed : Nat)
    (w : World) (t : Tile σ A) (k : Nat) (hk : k ≠ a.cfg) :
    (setState S a nb seed w t).2.1.cfgs k = w.cfgs k := by
  unfold setState
  simp only []
  split_ifs
  · rfl
  · simp [World.setTileClass, hk]
  · split <;> simp [World.setTileClass, newCtx, hk]

theorem setState_cfg (S : SimOps σ W H E) (a : AState W H E) (nb : Option Bool) (seed : Nat)
    (w : World) (t : Tile σ A) :
    (setState S a nb seed w t).2.2.cfg = t.cfg ∨ (setState S a nb seed w t).2.2.cfg = a.cfg := by
  unfold setState
  simp only []
  split_ifs
  · exact Or.inl rfl
  · exact Or.inr rfl
  · split <;> exact Or.inr rfl

theorem preHook_cases (S : SimOps σ W H E) (isa : String → String → Bool) (e : Entry W H E)
    (seed : Nat) (w : World) (t : Tile σ A) :
    (preHook S isa e seed w t).2 = (w, t) ∨
    (t.loadCfg = true ∧ ∃ a, e.analog = some a ∧
      (preHook S isa e seed w t).2 = (setState S a none seed w t).2) ∨
    (t.loadCfg = false ∧ ∃ a, e.analog = some a ∧
      (preHook S isa e seed w t).2 = (setState S { a with cfg := t.cfg } none seed w t).2) := by
  unfold preHook
  cases he : e.analog with
  | none => exact Or.inl rfl
  | some a =>
    cases hl : t.loadCfg
    · simp only [Bool.false_eq_true, if_false]
      split_ifs
      · exact Or.inl rfl
      · refine Or.inr (Or.inr ⟨(by trivial), a, rfl, ?_⟩)
        split <;> simp_all
    · simp only [if_true]
      refine Or.inr (Or.inl ⟨(by trivial), a, rfl, ?_⟩)
      split <;> simp_all

theorem loadTile_frame (S : SimOps σ W H E) (isa : String → String → Bool) (e : Entry W H E)
    (seed : Nat) (w : World) (t : Tile σ A) : Frame t (loadTile S isa e seed w t).2.2 := by
  have h : Frame t (preHook S isa e seed w t).2.2 := by
    rcases preHook_cases S isa e seed w t with h | ⟨_, a, _, h⟩ | ⟨_, a, _, h⟩
    · rw [h]; exact Frame.refl t
    · rw [h]; exact setState_frame ..
    · rw [h]; exact setState_frame ..
  unfold loadTile
  split
  · rename_i h1; rw [h1] at h; exact h
  · rename_i h1; rw [h1] at h
    exact h.trans ⟨rfl, rfl, rfl, rfl, rfl, rfl, rfl, rfl⟩

/-- Whatever happens, tile by tile the result is a frame of the input. -/
theorem loadAll_frame (S : SimOps σ W H E) (isa : String → String → Bool) (es : List (Entry W H E))
    (seed : Nat) (w : World) (ts : List (Tile σ A)) :
    List.Forall₂ Frame ts (loadAll S isa es seed w ts).2.2 := by
  induction ts generalizing es seed w with
  | nil => cases es <;> exact List.Forall₂.nil
  | cons t ts ih =>
    have hself : List.Forall₂ (Frame (σ := σ) (A := A)) ts ts :=
      List.forall₂_same.2 fun x _ => Frame.refl x
    cases es with
    | nil => exact List.Forall₂.cons (Frame.refl t) hself
    | cons e es =>
      have h1 := loadTile_frame S isa e seed w t
      unfold loadAll
      split
      · rename_i er w' t' hq
        rw [hq] at h1
        exact List.Forall₂.cons h1 hself
      · rename_i p w' t' hq
        rw [hq] at h1
        have h2 := ih es (seed + 3) w'
        split
        · rename_i hq2; rw [hq2] at h2; exact List.Forall₂.cons h1 h2
        · rename_i hq2; rw [hq2] at h2; exact List.Forall₂.cons h1 h2

/-- **C28 (flags are sticky).**  Whatever the outcome of a load, afterwards every tile's
`load_rpu_config` and `strict_rpu_config_check` are the arguments, or, for arguments not given, the
values of the previous call: a model once loaded with `load_rpu_config=False` keeps ignoring saved
configurations in later plain `load_state_dict` calls. -/
theorem C28_flags_sticky (S : SimOps σ W H E) (isa : String → String → Bool)
    (sd : List (Entry W H E)) (legacy strict : Bool) (lc st : Option Bool) (seed : Nat) (w : World)
    (ts : List (Tile σ A)) (i : Nat) (t t' : Tile σ A) (h : ts[i]? = some t)
    (h' : (loadStateDict S isa sd legacy strict lc st seed w ts).2.2[i]? = some t') :
    t'.loadCfg = lc.getD t.loadCfg ∧ t'.strictCfg = st.getD t.strictCfg := by
  have hf := loadAll_frame S isa sd seed w (ts.map (setFlags lc st))
  have e : (loadStateDict S isa sd legacy strict lc st seed w ts).2.2 =
      (loadAll S isa sd seed w (ts.map (setFlags lc st))).2.2 := by
    unfold loadStateDict
    split
    · rename_i hq; rw [hq]
    · rename_i hq; rw [hq]; split_ifs <;> rfl
  rw [e] at h'
  have hm : (ts.map (setFlags lc st))[i]? = some (setFlags lc st t) := by
    rw [List.getElem?_map, h]; rfl
  obtain ⟨hi, hx⟩ := List.getElem?_eq_some_iff.1 hm
  obtain ⟨hi', hx'⟩ := List.getElem?_eq_some_iff.1 h'
  have := hf.get hi hi'
  simp only [List.get_eq_getElem, hx, hx'] at this
  exact ⟨this.loadCfg, this.strictCfg⟩

/-- **C28 (attributes outside the state dictionary).**  Loading never changes the learning-rate
compensation factor of the mapping, the programmed weights, drift parameters, drift baseline and
reference weights of the destination, whatever is loaded and whatever the outcome. -/
theorem C28_unsaved_attributes (S : SimOps σ W H E) (isa : String → String → Bool)
    (sd : List (Entry W H E)) (legacy strict : Bool) (lc st : Option Bool) (seed : Nat) (w : World)
    (ts : List (Tile σ A)) (i : Nat) (t t' : Tile σ A) (h : ts[i]? = some t)
    (h' : (loadStateDict S isa sd legacy strict lc st seed w ts).2.2[i]? = some t') :
    t'.lrScale = t.lrScale ∧ t'.aux = t.aux := by
  have hf := loadAll_frame S isa sd seed w (ts.map (setFlags lc st))
  have e : (loadStateDict S isa sd legacy strict lc st seed w ts).2.2 =
      (loadAll S isa sd seed w (ts.map (setFlags lc st))).2.2 := by
    unfold loadStateDict
    split
    · rename_i hq; rw [hq]
    · rename_i hq; rw [hq]; split_ifs <;> rfl
  rw [e] at h'
  have hm : (ts.map (setFlags lc st))[i]? = some (setFlags lc st t) := by
    rw [List.getElem?_map, h]; rfl
  obtain ⟨hi, hx⟩ := List.getElem?_eq_some_iff.1 hm
  obtain ⟨hi', hx'⟩ := List.getElem?_eq_some_iff.1 h'
  have := hf.get hi hi'
  simp only [List.get_eq_getElem, hx, hx'] at this
  exact ⟨this.lrScale, this.aux⟩

/-! ## Learning rate compensation -/

/-- Learning rate handed to the simulator tile by an optimizer step with rate `lr`
(`set_learning_rate`, tiles/periphery.py:1395-1407). -/
def deviceLr (t : Tile σ A) (lr : ℚ) : ℚ := lr * t.lrScale

/-- **C28 (finding: learning-rate compensation is not restored).**  In the situation of the round trip,
if the compensation factors of source and destination differ (they are `1 / mean(mapping_scales)`
of the two models before the load), then after the load every optimizer step with nonzero rate uses
another device learning rate than the source would, although the mapping scales are now equal. -/
theorem C28_lr_compensation_lost (R : σ → σ → Prop) (src dst t : Tile σ A) (h : Loaded R src dst t)
    (hne : src.lrScale ≠ dst.lrScale) (lr : ℚ) (hlr : lr ≠ 0) :
    t.params = src.params ∧ deviceLr t lr ≠ deviceLr src lr := by
  refine ⟨h.params, ?_⟩
  unfold deviceLr
  rw [h.unsaved.1]
  exact fun hc => hne (mul_left_cancel₀ hlr hc).symm

/-! ## Errors -/

/-- **C28 (tile class mismatch).**  If the saved tile class is not accepted by the destination's
configuration, loading a tile raises `TileError` and changes neither the tile nor any configuration. -/
theorem C28_class_mismatch (S : SimOps σ W H E) (isa : String → String → Bool) (e : Entry W H E)
    (a : AState W H E) (c : String) (seed : Nat) (w : World) (t : Tile σ A) (he : e.analog = some a)
    (hl : t.loadCfg = true) (hc : a.cls = some c) (h : c ≠ (w.cfgs t.cfg).tileClass)
    (hi : (w.cfgs t.cfg).inference = true → c ≠ "TorchInferenceTile") :
    loadTile S isa e seed w t = (.error .tileError, w, t) := by
  have : (w.cfgs t.cfg).compatibleWith c = false := by
    unfold Cfg.compatibleWith
    cases hinf : (w.cfgs t.cfg).inference
    · simp [h]
    · simp [h, hi hinf]
  simp [loadTile, preHook, he, hl, setState, hc, this]

/-- **C28 (finding: a hidden-parameter mismatch is not atomic).**  If the saved hidden parameter names
are not those of the tile built from the saved configuration, `TileError` is raised, but the
configuration has already been replaced and (C++ tiles) the trained weights of the destination have
been thrown away with the old simulator tile. -/
theorem C28_hidden_mismatch (S : SimOps σ W H E) (isa : String → String → Bool) (e : Entry W H E)
    (a : AState W H E) (seed : Nat) (w : World) (t : Tile σ A) (he : e.analog = some a)
    (hl : t.loadCfg = true) (hc : a.cls = some t.cls) (ht : (w.cfgs t.cfg).tileClass = t.cls)
    (htor : t.torchTile = false) (names : List String) (hn : a.names = some names) (hne : names ≠ [])
    (hcl : (w.cfgs a.cfg).tileClass = t.cls)
    (hdiff : S.names (S.create (w.cfgs a.cfg) t.xSize t.dSize seed) ≠ names) :
    ∃ t', loadTile S isa e seed w t = (.error .tileError, w, t') ∧ t'.cfg = a.cfg ∧
      t'.sim = S.create (w.cfgs a.cfg) t.xSize t.dSize seed := by
  have h1 : (w.cfgs t.cfg).compatibleWith t.cls = true := by rw [← ht]; exact compat_self _
  have h2 : w.setTileClass a.cfg (w.cfgs t.cfg).tileClass = w :=
    setTileClass_same _ _ _ (by rw [hcl, ht])
  refine ⟨adopt S a none seed w t, ?_, rfl, by simp [adopt, htor]⟩
  have h3 : (adopt S a none seed w t).sim = S.create (w.cfgs a.cfg) t.xSize t.dSize seed := by
    simp [adopt, htor]
  simp [loadTile, preHook, he, hl, setState, hc, h1, h2, hn, hne, h3, hdiff]

/-- **C28 (own configuration kept).**  With `load_rpu_config=False` the destination keeps its own
configuration object, whatever happens, and no configuration object changes; if the saved
configuration is not an instance of the own class or vice versa (under the strict check), or its
mapping differs in more than the weight-scaling fields, `TileModuleError` is raised and the tile is
not touched. -/
theorem C28_keep_config (S : SimOps σ W H E) (isa : String → String → Bool) (e : Entry W H E)
    (seed : Nat) (w : World) (t : Tile σ A) (hl : t.loadCfg = false) :
    (loadTile S isa e seed w t).2.2.cfg = t.cfg ∧
    (loadTile S isa e seed w t).2.1.cfgs = w.cfgs ∧
    ∀ a, e.analog = some a →
      ((t.strictCfg = true ∧ isa (w.cfgs t.cfg).cls (w.cfgs a.cfg).cls = false ∧
          isa (w.cfgs a.cfg).cls (w.cfgs t.cfg).cls = false) ∨
        ∃ m m', (w.cfgs t.cfg).mapping = some m ∧ (w.cfgs a.cfg).mapping = some m' ∧
          m.rest ≠ m'.rest) →
      loadTile S isa e seed w t = (.error .tileModuleError, w, t) := by
  have hcfgs : ∀ a : AState W H E, a.cfg = t.cfg →
      (setState S a none seed w t).2.1.cfgs = w.cfgs ∧ (setState S a none seed w t).2.2.cfg = t.cfg := by
    intro a ha
    have e1 : w.setTileClass a.cfg (w.cfgs t.cfg).tileClass = w := setTileClass_same _ _ _ (by rw [ha])
    constructor
    · unfold setState
      simp only [e1]
      split_ifs
      · rfl
      · rfl
      · split <;> rfl
    · rcases setState_cfg S a none seed w t with h | h
      · exact h
      · rw [h, ha]
  have hp : (preHook S isa e seed w t).2.1.cfgs = w.cfgs ∧ (preHook S isa e seed w t).2.2.cfg = t.cfg := by
    rcases preHook_cases S isa e seed w t with h | ⟨h0, _⟩ | ⟨_, a, _, h⟩
    · rw [h]; exact ⟨rfl, rfl⟩
    · rw [hl] at h0; cases h0
    · rw [h]; exact hcfgs _ rfl
  refine ⟨?_, ?_, ?_⟩
  · unfold loadTile
    split
    · rename_i h1; rw [h1] at hp; exact hp.2
    · rename_i h1; rw [h1] at hp; exact hp.2
  · unfold loadTile
    split
    · rename_i h1; rw [h1] at hp; exact hp.1
    · rename_i h1; rw [h1] at hp; exact hp.1
  · intro a ha hbad
    have : compatibleWith isa t.strictCfg (w.cfgs t.cfg) (w.cfgs a.cfg) = false := by
      unfold compatibleWith
      rcases hbad with ⟨h1, h2, h3⟩ | ⟨m, m', h1, h2, h3⟩
      · simp [h1, h2, h3]
      · simp only [h1, h2, Bool.and_eq_false_iff]
        right
        have hne : ¬ m' = m := fun h => h3 (by rw [h])
        have hne' : ¬ m'.rest = m.rest := fun h => h3 h.symm
        simp [Mapping.compatibleWith, hne, hne']
    simp [loadTile, preHook, ha, hl, this]

/-- **C28 (finding: presence of mapping scales).**  If the saved tile has a tensor (for instance mapping
scales) that the destination tile registers as `None`, the analog weights are loaded; then strict
mode raises `RuntimeError` (after the fact) and non-strict mode silently drops the tensor. -/
theorem C28_dropped_tensor (S : SimOps σ W H E) (isa : String → String → Bool) (e : Entry W H E)
    (seed : Nat) (w w' : World) (t t' : Tile σ A) (p : Problems) (n : String) (v : Ten)
    (hv : (n, v) ∈ e.vals) (hn : n ≠ "shared_weights")
    (hnone : ∀ q ∈ t.params, q.1 = n → q.2 = none)
    (h : loadTile S isa e seed w t = (.ok p, w', t')) :
    p.keys = true ∧ (∀ q ∈ t'.params, q.1 = n → q.2 = none) := by
  have hpar : ∀ q ∈ (preHook S isa e seed w t).2.2.params, q.1 = n → q.2 = none := by
    have key : ∀ a : AState W H E, ∀ q ∈ (setState S a none seed w t).2.2.params, q.1 = n →
        q.2 = none := by
      intro a q hq hqn
      have hno : ∀ q ∈ noneOut a.noneAttrs t.params, q.1 = n → q.2 = none := by
        intro q hq hqn
        obtain ⟨r, hr, rfl⟩ := List.mem_map.1 hq
        split_ifs at hqn ⊢
        · rfl
        · exact hnone r hr hqn
      unfold setState at hq
      simp only [] at hq
      split_ifs at hq
      · exact hnone q hq hqn
      · exact hno q hq hqn
      · split at hq <;> exact hno q hq hqn
    rcases preHook_cases S isa e seed w t with h | ⟨_, a, _, h⟩ | ⟨_, a, _, h⟩
    · rw [h]; exact hnone
    · rw [h]; exact key _
    · rw [h]; exact key _
  unfold loadTile at h
  split at h
  · simp at h
  · rename_i miss w1 t1 hq
    rw [hq] at hpar
    simp only [Prod.mk.injEq, Except.ok.injEq] at h
    obtain ⟨hp, -, ht⟩ := h
    subst hp ht
    refine ⟨?_, ?_⟩
    · have : e.vals.any (unexpected t1.params) = true := by
        rw [List.any_eq_true]
        refine ⟨(n, v), hv, ?_⟩
        simp only [unexpected, Bool.and_eq_true, Bool.not_eq_true', beq_eq_false_iff_ne, ne_eq, hn,
          not_false_eq_true, true_and, List.any_eq_false, Bool.and_eq_true, beq_iff_eq, not_and]
        intro q hq1 hq2
        simp [hpar q hq1 hq2]
      simp [this]
    · intro q hq1 hq2
      obtain ⟨r, hr, rfl⟩ := List.mem_map.1 hq1
      have hname : (loadParam e.vals r).1 = r.1 := by
        unfold loadParam
        split
        · split_ifs <;> rfl
        · rfl
      have := hpar r hr (hname ▸ hq2)
      unfold loadParam
      simp only [this]

/-- **C28 (loading is not atomic).**  If loading the `i`-th tile raises, the tiles before it are exactly
as if only they had been loaded, the tiles after it are untouched. -/
theorem C28_prefix_loaded (S : SimOps σ W H E) (isa : String → String → Bool)
    (es es' : List (Entry W H E)) (e : Entry W H E) (seed : Nat) (w w1 w2 : World)
    (ts ts' ts1 : List (Tile σ A)) (t t2 : Tile σ A) (q : Problems) (er : PyErr)
    (hlen : es.length = ts.length)
    (h1 : loadAll S isa es seed w ts = (.ok q, w1, ts1))
    (h2 : loadTile S isa e (seed + 3 * ts.length) w1 t = (.error er, w2, t2)) :
    loadAll S isa (es ++ e :: es') seed w (ts ++ t :: ts') = (.error er, w2, ts1 ++ t2 :: ts') := by
  induction es generalizing ts seed w ts1 q with
  | nil =>
    have : ts = [] := List.length_eq_zero_iff.1 (by simpa using hlen.symm)
    subst this
    simp only [loadAll, Prod.mk.injEq] at h1
    obtain ⟨-, rfl, rfl⟩ := h1
    simp only [List.length_nil, Nat.mul_zero, Nat.add_zero] at h2
    simp [loadAll, h2]
  | cons e0 es ih =>
    cases ts with
    | nil => simp at hlen
    | cons t0 ts =>
      rw [loadAll] at h1
      split at h1
      · simp at h1
      · rename_i p wq tq hq
        split at h1
        · simp at h1
        · rename_i q2 wq2 tsq hq2
          simp only [Prod.mk.injEq] at h1
          obtain ⟨-, rfl, rfl⟩ := h1
          have := ih (seed + 3) wq ts tsq q2 (by simpa using hlen) hq2 (by
            rw [show seed + 3 + 3 * ts.length = seed + 3 * (t0 :: ts).length from by
              simp only [List.length_cons]; omega]
            exact h2)
          simp [loadAll, hq, this]

/-! ## Configuration objects -/

/-- **C28 (finding: configurations are shared with an in-memory state dictionary).**  After loading
`src.state_dict()` directly, the loaded tile refers to the *same* configuration object as the source;
if the tile classes differ, the source's configuration now names the destination's class. -/
theorem C28_config_shared (S : SimOps σ W H E) (isa : String → String → Bool) (src dst t : Tile σ A)
    (seed : Nat) (w w' : World) (p : Problems) (hl : dst.loadCfg = true)
    (h : loadTile S isa (stateDict S src) seed w dst = (.ok p, w', t)) :
    t.cfg = src.cfg ∧ (w'.cfgs src.cfg).tileClass = (w.cfgs dst.cfg).tileClass := by
  unfold loadTile at h
  split at h
  · simp at h
  · rename_i miss w1 t1 hq
    simp only [Prod.mk.injEq] at h
    obtain ⟨-, rfl, rfl⟩ := h
    simp only [preHook, stateDict, hl, if_true] at hq
    split at hq
    · rename_i u w2 t2 hs
      simp only [Prod.mk.injEq] at hq
      obtain ⟨-, rfl, rfl⟩ := hq
      unfold setState at hs
      simp only [] at hs
      split_ifs at hs
      · simp at hs
      · simp at hs
      · split at hs
        · simp at hs
        · simp only [Prod.mk.injEq] at hs
          obtain ⟨-, rfl, rfl⟩ := hs
          simp [adopt, getAnalogState, newCtx, World.setTileClass]
    · simp at hq

theorem pickle_old (es : List (Entry W H E)) (w : World) :
    (∀ k < w.nextCfg, (pickle es w).1.cfgs k = w.cfgs k) ∧ w.nextCfg ≤ (pickle es w).1.nextCfg ∧
    (∀ e ∈ (pickle es w).2, ∀ a, e.analog = some a → w.nextCfg ≤ a.cfg) := by
  induction es generalizing w with
  | nil => exact ⟨fun _ _ => rfl, le_refl _, fun e he => by cases he⟩
  | cons e es ih =>
    cases ha : e.analog with
    | none =>
      obtain ⟨i1, i2, i3⟩ := ih w
      simp only [pickle, ha]
      refine ⟨i1, i2, ?_⟩
      intro x hx a hxa
      rcases List.mem_cons.1 hx with rfl | hx
      · rw [ha] at hxa; cases hxa
      · exact i3 x hx a hxa
    | some a =>
      obtain ⟨i1, i2, i3⟩ := ih (w.copyCfg a.cfg).1
      have hn : (w.copyCfg a.cfg).1.nextCfg = w.nextCfg + 1 := rfl
      simp only [pickle, ha]
      refine ⟨?_, by omega, ?_⟩
      · intro k hk
        rw [i1 k (by omega)]
        simp [World.copyCfg, Nat.ne_of_lt hk]
      · intro x hx b hxb
        rcases List.mem_cons.1 hx with rfl | hx
        · simp only [Option.some.injEq] at hxb
          subst hxb
          exact le_refl _
        · have := i3 x hx b hxb
          omega

/-- **C28 (checkpoint files are isolated).**  Loading a dictionary that went through a file, whatever
the outcome, changes no configuration object that existed before (in particular not the source's). -/
theorem C28_file_isolated (S : SimOps σ W H E) (isa : String → String → Bool)
    (sd : List (Entry W H E)) (legacy strict : Bool) (lc st : Option Bool) (seed : Nat) (w : World)
    (ts : List (Tile σ A)) (k : Nat) (hk : k < w.nextCfg) :
    let r := pickle sd w
    (loadStateDict S isa r.2 legacy strict lc st seed r.1 ts).2.1.cfgs k = w.cfgs k := by
  intro r
  obtain ⟨p1, p2, p3⟩ := pickle_old sd w
  have tile : ∀ (e : Entry W H E) (seed : Nat) (w' : World) (t : Tile σ A),
      (∀ a, e.analog = some a → w.nextCfg ≤ a.cfg) →
      (loadTile S isa e seed w' t).2.1.cfgs k = w'.cfgs k := by
    intro e seed w' t he
    have hp : (preHook S isa e seed w' t).2.1.cfgs k = w'.cfgs k := by
      rcases preHook_cases S isa e seed w' t with h | ⟨_, a, ha, h⟩ | ⟨hl, a, _, h⟩
      · rw [h]
      · rw [h, setState_heap]
        have := he a ha
        omega
      · have := (C28_keep_config S isa e seed w' t hl).2.1
        unfold loadTile at this
        split at this
        · rename_i hq; rw [hq]; exact congrFun this k
        · rename_i hq; rw [hq]; exact congrFun this k
    unfold loadTile
    split
    · rename_i h1; rw [h1] at hp; exact hp
    · rename_i h1; rw [h1] at hp; exact hp
  have all : ∀ (es : List (Entry W H E)) (seed : Nat) (w' : World) (ts : List (Tile σ A)),
      (∀ e ∈ es, ∀ a, e.analog = some a → w.nextCfg ≤ a.cfg) →
      (loadAll S isa es seed w' ts).2.1.cfgs k = w'.cfgs k := by
    intro es
    induction es with
    | nil => intro seed w' ts _; cases ts <;> rfl
    | cons e es ih =>
      intro seed w' ts he
      cases ts with
      | nil => rfl
      | cons t ts =>
        have h1 := tile e seed w' t (he e (List.mem_cons_self ..))
        unfold loadAll
        split
        · rename_i hq; rw [hq] at h1; exact h1
        · rename_i p w2 t2 hq
          rw [hq] at h1
          have h2 := ih (seed + 3) w2 ts (fun x hx => he x (List.mem_cons_of_mem _ hx))
          split
          · rename_i hq2; rw [hq2] at h2; exact h2.trans h1
          · rename_i hq2; rw [hq2] at h2; exact h2.trans h1
  have h := all r.2 seed r.1 (ts.map (setFlags lc st)) p3
  unfold loadStateDict
  split
  · rename_i hq; rw [hq] at h; exact h.trans (p1 k hk)
  · rename_i hq; rw [hq] at h
    split_ifs <;> exact h.trans (p1 k hk)

end Aihw.State

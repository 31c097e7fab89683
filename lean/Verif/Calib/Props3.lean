import Verif.Calib.Props2

/-!
# Properties of input range calibration (C36): exceptions and examples
-/
namespace Aihw.Calib
open Spec

/-! ### What hooks can change -/

/-- A hook changes only the input range and its counter, and its own cache. -/
theorem runHook_frame (std : List Vec → Option ℚ) (σ : List Vec → List Vec) (h : Hook) (t : Tile)
    (x : List Vec) : ∃ r k c, (runHook std σ h t x).1 =
      ({ h with cache := c }, { t with range := r, updIdx := k }) := by
  have hmv : ∀ v, ∃ r k, (movingUpd t v).1 = { t with range := r, updIdx := k } := by
    intro v
    unfold movingUpd
    cases v with
    | none => exact ⟨t.range, t.updIdx, rfl⟩
    | some v =>
      simp only
      by_cases hp : 0 < v
      · rw [if_pos hp]
        cases hr : t.range with
        | none => exact ⟨.none, t.updIdx, by simp only; rw [← hr]⟩
        | some o => exact ⟨_, _, rfl⟩
      · rw [if_neg hp]; exact ⟨t.range, t.updIdx, rfl⟩
  by_cases h1 : h.ctype = .movingQuantile ∨ h.ctype = .movingStd
  · rw [runHook_moving h1]
    cases movingVal std h t (dropZero x) with
    | error e => exact ⟨t.range, t.updIdx, h.cache, rfl⟩
    | ok v =>
      obtain ⟨r, k, e⟩ := hmv v
      exact ⟨r, k, h.cache, by simp only [e]⟩
  · cases hc : h.ctype with
    | movingQuantile => exact absurd (Or.inl hc) h1
    | movingStd => exact absurd (Or.inr hc) h1
    | none =>
      refine ⟨t.range, t.updIdx, h.cache, ?_⟩
      simp only [runHook, hc]
      rw [← hc]
    | cacheQuantile => rw [runHook_cache hc]; exact ⟨t.range, t.updIdx, _, by rw [← hc]⟩
    | max =>
      rw [runHook_max hc]
      cases absMaxOf (dropZero x).flatten with
      | error e => exact ⟨t.range, t.updIdx, h.cache, by simp only [← hc]⟩
      | ok m => exact ⟨t.range, t.updIdx, _, by simp only; rw [← hc]⟩

theorem runHooks_frame (std : List Vec → Option ℚ) (σ : List Vec → List Vec) (x : List Vec)
    (hs : List Hook) (t : Tile) : (∃ r k, (runHooks std σ x hs t).1.2 = { t with range := r, updIdx := k }) ∧
      (runHooks std σ x hs t).1.1.length = hs.length := by
  induction hs generalizing t with
  | nil => exact ⟨⟨t.range, t.updIdx, rfl⟩, rfl⟩
  | cons h hs ih =>
    obtain ⟨r, k, c, e⟩ := runHook_frame std σ h t x
    simp only [runHooks]
    rcases hq : runHook std σ h t x with ⟨⟨h', t'⟩, eo⟩
    rw [hq] at e
    simp only [Prod.mk.injEq] at e
    cases eo with
    | some er => exact ⟨⟨r, k, e.2⟩, by simp⟩
    | none =>
      simp only
      obtain ⟨⟨r', k', e'⟩, hl⟩ := ih t'
      refine ⟨⟨r', k', ?_⟩, by simp [hl]⟩
      rw [e', e.2]

theorem callTile_frame (std : List Vec → Option ℚ) (σ : List Vec → List Vec) (x : List Vec)
    (t : Tile) : ∃ r k hs, (callTile std σ x t).1 = { t with range := r, updIdx := k, hooks := hs } ∧
      hs.length = t.hooks.length := by
  obtain ⟨⟨r, k, e⟩, hl⟩ := runHooks_frame std σ x t.hooks t
  exact ⟨r, k, _, by simp only [callTile, e], hl⟩

theorem runCalls_frame (std : List Vec → Option ℚ) (calls : List (List Vec × (List Vec → List Vec)))
    (t : Tile) : ∃ r k hs, (runCalls std t calls).1 = { t with range := r, updIdx := k, hooks := hs } ∧
      hs.length = t.hooks.length := by
  induction calls generalizing t with
  | nil => exact ⟨t.range, t.updIdx, t.hooks, rfl, rfl⟩
  | cons c cs ih =>
    obtain ⟨r, k, hs, e, hl⟩ := callTile_frame std c.2 c.1 t
    simp only [runCalls]
    rcases hq : callTile std c.2 c.1 t with ⟨t', eo⟩
    rw [hq] at e
    simp only at e
    cases eo with
    | some er => exact ⟨r, k, hs, e, hl⟩
    | none =>
      simp only
      obtain ⟨r', k', hs', e', hl'⟩ := ih t'
      refine ⟨r', k', hs', ?_, ?_⟩
      · rw [e', e]
      · rw [hl', e]; exact hl

theorem pass_frame (std : List Vec → Option ℚ) (evs : List Event) (ts : List Tile) {i : Nat}
    {t : Tile} (ht : ts[i]? = some t) : ∃ r k hs,
      (pass std ts evs).1[i]? = some { t with range := r, updIdx := k, hooks := hs } ∧
      hs.length = t.hooks.length := by
  induction evs generalizing ts t with
  | nil => exact ⟨t.range, t.updIdx, t.hooks, ht, rfl⟩
  | cons e evs ih =>
    cases e with
    | raises e => exact ⟨t.range, t.updIdx, t.hooks, ht, rfl⟩
    | call j x σ =>
      simp only [pass]
      cases hj : ts[j]? with
      | none => exact ih ts ht
      | some tj =>
        simp only
        obtain ⟨r, k, hs, e, hl⟩ := callTile_frame std σ x tj
        have hset : ∃ r k hs, (ts.set j (callTile std σ x tj).1)[i]? =
            some { t with range := r, updIdx := k, hooks := hs } ∧ hs.length = t.hooks.length := by
          by_cases c : j = i
          · subst c
            rw [ht] at hj
            cases hj
            have hlt : j < ts.length := (List.getElem?_eq_some_iff.1 ht).1
            exact ⟨r, k, hs, by simp [hlt, e], hl⟩
          · exact ⟨t.range, t.updIdx, t.hooks, by rw [List.getElem?_set_ne c]; exact ht, rfl⟩
        obtain ⟨r1, k1, hs1, e1, hl1⟩ := hset
        rcases hq : callTile std σ x tj with ⟨t', eo⟩
        rw [hq] at e1
        simp only at e1
        cases eo with
        | some er => exact ⟨r1, k1, hs1, e1, hl1⟩
        | none =>
          simp only
          obtain ⟨r2, k2, hs2, e2, hl2⟩ := ih _ e1
          exact ⟨r2, k2, hs2, e2, by rw [hl2]; exact hl1⟩

/-! ### Exceptions -/

/-- **C36** (floating point tiles, exception).  A tile whose configuration has no `forward` settings
(floating point) is not calibrated, but its input range is switched on with the initial value of the
configuration (3 by default), whatever its inputs: from then on its inputs are clipped. -/
theorem C36_float_tile_clipped {std : List Vec → Option ℚ} {a : Args} {analog : Bool} {m m' : Model}
    {evs : List Event} (ha : a.ctype ≠ .none) (h : calibrate std a analog m evs = (m', .none))
    {i : Nat} {t : Tile} (ht : m.tiles[i]? = some t) (hf : t.hasForward = false)
    (hh : t.hooks = []) (he : t.enable = false) :
    m'.tiles[i]? = some { t with
      enable := true, learn := false, range := some t.initValue, updIdx := 0 } := by
  obtain ⟨_, _, _, hall⟩ := calibrate_ok ha h
  obtain ⟨h1, h2, h3, h4⟩ := hall i t ht
  have hp : prepare a t = (t, .none, .none) := by unfold prepare; simp [hf]
  have hfr : ∀ (calls : List (List Vec × (List Vec → List Vec))), (runCalls std t calls).1 = t := by
    intro calls
    induction calls with
    | nil => rfl
    | cons c cs ih =>
      have : callTile std c.2 c.1 t = (t, .none) := by
        unfold callTile
        rw [hh]
        simp only [runHooks]
        rw [← hh]
      simp only [runCalls, this]
      exact ih
  rw [h1]
  unfold tileResult
  rw [hp]
  simp only [ownCache, dropOwn, hfr]
  unfold finish
  rw [(enableRange_frame t).1, hf]
  simp [enableRange, he, hf]

/-- **C36** (`force_all_layers=False`, exception).  If any tile has its input range switched off, the
calibration of the other tiles always ends with an exception. -/
theorem C36_disabled_tile_raises (std : List Vec → Option ℚ) (a : Args) (analog : Bool) (m : Model)
    (evs : List Event) (ha : a.ctype ≠ .none) (hf : a.force = false)
    (t : Tile) (ht : t ∈ m.tiles) (h1 : t.hasForward = true) (h2 : t.enable = false)
    (hh : t.hooks = []) : (calibrate std a analog m evs).2 ≠ .none := by
  intro hc
  obtain ⟨i, hi⟩ := List.getElem?_of_mem ht
  obtain ⟨_, _, _, hall⟩ := calibrate_ok (std := std) (a := a) (analog := analog) (m := m)
    (m' := (calibrate std a analog m evs).1) (evs := evs) ha (by rw [← hc])
  obtain ⟨_, _, _, h4⟩ := hall i t hi
  rcases enable_of_ok h1 hh h4 with e | e
  · rw [hf] at e; cases e
  · rw [h2] at e; cases e

/-- **C36** (unused tiles, exception).  With a caching type, a tile that received no input (or, for
CacheQuantile, only all-zero rows) is left perfect: all its non-idealities are switched off for good,
its noise management too, and its range is that from before or the initial value. -/
theorem C36_unused_tile {std : List Vec → Option ℚ} {a : Args} {analog : Bool} {m m' : Model}
    {evs : List Event} (h : calibrate std a analog m evs = (m', .none)) (hs : ShufflesOk evs)
    {i : Nat} {t : Tile} (ht : m.tiles[i]? = some t) (hf : t.hasForward = true) (hh : t.hooks = [])
    (hr : t.enable = true → t.range ≠ .none)
    (hc : (a.ctype = .max ∧ fed i evs = []) ∨
      (a.ctype = .cacheQuantile ∧ nonzeroRows (fed i evs) = [])) :
    ∃ t', m'.tiles[i]? = some t' ∧ t'.perfect = true ∧ t'.noiseMgmt = false ∧
      t'.range = some (startRange t) ∧ t'.info = t.info := by
  have ha : a.ctype ≠ .none := by rcases hc with c | c <;> rw [c.1] <;> decide
  have hcach : cachingType a.ctype = true := by rcases hc with c | c <;> rw [c.1] <;> decide
  obtain ⟨_, _, _, hall⟩ := calibrate_ok ha h
  obtain ⟨h1, h2, h3, h4⟩ := hall i t ht
  have hp := prepare_ok hf (enable_of_ok hf hh h4) hh h2
  have hrun : (runCalls std (prepared a t) (callsOf i evs)).1 = prepared a t := by
    rcases hc with ⟨c1, c2⟩ | ⟨c1, c2⟩
    · have : callsOf i evs = [] := by
        have := callsOf_fst i evs
        rw [c2] at this
        exact List.map_eq_nil_iff.1 this
      rw [this]; rfl
    · obtain ⟨s, e1, e2, e3⟩ := runCalls_cache (std := std) (callsOf i evs) (t := prepared a t)
        (h := { ctype := a.ctype, quantile := a.quantile, maxSamples := a.maxSamples }) (s := [])
        (xs := []) (fun p hp => hs i p.1 p.2 (callsOf_mem hp)) rfl c1 rfl (List.nil_subperm) (by simp)
      rw [callsOf_fst, List.nil_append, c2] at e3
      have : s = [] := List.length_eq_zero_iff.1 (by rw [e3]; simp)
      rw [e1, this]
      rfl
  obtain ⟨q1, q2, q3⟩ := prepared_calibrated (a := a) hf
  have hres := tileResult_eq hf hp hrun q1 rfl
  rw [hres, finish_moving] at h1
  refine ⟨_, h1, ?_, rfl, ?_, ?_⟩
  · simp [prepared, hcach]
  · exact (prepared_start (a := a) hr).1
  · exact (enableRange_frame t).2.2.2.2.2.2.1

theorem runCalls_mem_ok {std : List Vec → Option ℚ} {calls : List (List Vec × (List Vec → List Vec))}
    {t : Tile} (hok : (runCalls std t calls).2 = .none) {c : List Vec × (List Vec → List Vec)}
    (hc : c ∈ calls) : ∃ t0 r k hs, t0 = { t with range := r, updIdx := k, hooks := hs } ∧
      hs.length = t.hooks.length ∧ (callTile std c.2 c.1 t0).2 = .none ∧
      hs.map (fun h => (h.ctype, h.quantile)) = t.hooks.map (fun h => (h.ctype, h.quantile)) := by
  have hk : ∀ (x : List Vec) (σ : List Vec → List Vec) (hs : List Hook) (t : Tile),
      (runHooks std σ x hs t).1.1.map (fun h => (h.ctype, h.quantile)) =
        hs.map (fun h => (h.ctype, h.quantile)) := by
    intro x σ hs
    induction hs with
    | nil => intro t; rfl
    | cons h hs ih =>
      intro t
      obtain ⟨r, k, c, e⟩ := runHook_frame std σ h t x
      simp only [runHooks]
      rcases hq : runHook std σ h t x with ⟨⟨h', t'⟩, eo⟩
      rw [hq] at e
      simp only [Prod.mk.injEq] at e
      cases eo with
      | some er => simp [e.1]
      | none => simp [e.1, ih]
  induction calls generalizing t with
  | nil => cases hc
  | cons d cs ih =>
    simp only [runCalls] at hok
    rcases List.mem_cons.1 hc with e | e
    · subst e
      refine ⟨t, t.range, t.updIdx, t.hooks, rfl, rfl, ?_, rfl⟩
      rcases hq : callTile std c.2 c.1 t with ⟨t', eo⟩
      rw [hq] at hok
      cases eo with
      | some er => simp at hok
      | none => rfl
    · obtain ⟨r, k, hs, e1, hl⟩ := callTile_frame std d.2 d.1 t
      have hkk : ((callTile std d.2 d.1 t).1).hooks.map (fun h => (h.ctype, h.quantile)) =
          t.hooks.map (fun h => (h.ctype, h.quantile)) := hk d.1 d.2 t.hooks t
      rcases hq : callTile std d.2 d.1 t with ⟨t', eo⟩
      rw [hq] at hok e1 hkk
      cases eo with
      | some er => simp at hok
      | none =>
        simp only at hok e1 hkk
        obtain ⟨t0, r', k', hs', e2, hl2, e3, e4⟩ := ih hok e
        refine ⟨t0, r', k', hs', ?_, ?_, e3, ?_⟩
        · rw [e2, e1]
        · rw [hl2, e1]; exact hl
        · rw [e4]; exact hkk

/-- **C36** (all-zero batches, exception).  For Max and MovingQuantile a single input in which every
row is zero (or empty) makes the whole calibration fail; CacheQuantile and MovingStd skip it. -/
theorem C36_all_zero_batch (std : List Vec → Option ℚ) (a : Args) (analog : Bool) (m : Model)
    (evs : List Event) (ha : a.ctype = .max ∨ a.ctype = .movingQuantile)
    {i : Nat} {t : Tile} (ht : m.tiles[i]? = some t) (hf : t.hasForward = true) (hh : t.hooks = [])
    {x : List Vec} (hx : x ∈ fed i evs) (hz : nonzeroRows [x] = []) :
    (calibrate std a analog m evs).2 ≠ .none := by
  intro hc
  have hn : a.ctype ≠ .none := by rcases ha with c | c <;> rw [c] <;> decide
  obtain ⟨_, _, _, hall⟩ := calibrate_ok (std := std) (a := a) (analog := analog) (m := m)
    (m' := (calibrate std a analog m evs).1) (evs := evs) hn (by rw [← hc])
  obtain ⟨_, h2, h3, h4⟩ := hall i t ht
  have hp := prepare_ok hf (enable_of_ok hf hh h4) hh h2
  rw [hp] at h3
  rw [← callsOf_fst] at hx
  obtain ⟨c, hc1, hc2⟩ := List.mem_map.1 hx
  obtain ⟨t0, r, k, hs, e1, e2, e3, e4⟩ := runCalls_mem_ok h3 hc1
  match hs, e2, e4 with
  | [h0], _, e4 =>
    have hh0 : t0.hooks = [h0] := by rw [e1]
    simp only [prepared, List.map_cons, List.map_nil, List.cons.injEq, Prod.mk.injEq, and_true] at e4
    rw [callTile_single hh0] at e3
    have hd : dropZero c.1 = [] := by rw [dropZero_eq, hc2, hz]
    rcases ha with h | h
    · rw [runHook_max (by rw [e4.1, h]), hd] at e3
      simp [absMaxOf] at e3
    · rw [runHook_moving (.inl (by rw [e4.1, h])), hd] at e3
      unfold movingVal at e3
      rw [if_pos (by rw [e4.1, h])] at e3
      by_cases hq : h0.quantile = 1
      · rw [if_pos hq] at e3; simp [absMaxOf, Except.map] at e3
      · rw [if_neg hq] at e3
        have : quantileOf h0.quantile ([] : List Vec).flatten = .error .runtimeError := by
          unfold quantileOf
          by_cases hr : h0.quantile < 0 ∨ 1 < h0.quantile
          · rw [if_pos hr]
          · rw [if_neg hr]; simp
        rw [this] at e3
        simp [Except.map] at e3

theorem prepareAll_force {a : Args} (hf : a.force = true) (ts : List Tile) :
    (prepareAll a ts).2.2 = .none := by
  induction ts with
  | nil => rfl
  | cons t ts ih =>
    have : (prepare a t).2.2 = .none := by
      unfold prepare
      cases t.hasForward <;> simp [hf]
    simp only [prepareAll]
    rcases hp : prepare a t with ⟨t', s, eo⟩
    rw [hp] at this
    simp only at this
    subst this
    exact ih

/-- **C36** (failure, exception).  If the model or the data loader raises during calibration, the
exception is passed on with the model left in evaluation mode, every tile with its noise management
off, its calibration hook still registered, and perfect for the caching types. -/
theorem C36_failure_not_undone (std : List Vec → Option ℚ) (a : Args) (m : Model)
    (evs : List Event) (ha : a.ctype ≠ .none) (hf : a.force = true)
    (he : ∃ e, Event.raises e ∈ evs) :
    ∃ (m' : Model) (e : PyErr), calibrate std a true m evs = (m', some e) ∧ m'.training = false ∧
      (∀ b ∈ m'.sub, b = false) ∧
      ∀ (i : Nat) (t : Tile), m.tiles[i]? = some t → t.hasForward = true → ∃ t' : Tile, m'.tiles[i]? = some t' ∧
        t'.hooks.length = t.hooks.length + 1 ∧ t'.noiseMgmt = false ∧ t'.enable = true ∧
        (a.ctype = .max ∨ a.ctype = .cacheQuantile → t'.perfect = true) := by
  have hno : ∀ (evs : List Event) (ts : List Tile), (∃ e, Event.raises e ∈ evs) →
      (pass std ts evs).2 ≠ .none := by
    intro evs
    induction evs with
    | nil => intro ts ⟨e, he⟩; cases he
    | cons v evs ih =>
      intro ts ⟨e, he⟩
      cases v with
      | raises e => simp [pass]
      | call k x σ =>
        have hmem : ∃ e, Event.raises e ∈ evs := by
          rcases List.mem_cons.1 he with c | c
          · cases c
          · exact ⟨e, c⟩
        simp only [pass]
        cases hk : ts[k]? with
        | none => exact ih ts hmem
        | some tk =>
          simp only
          rcases hct : callTile std σ x tk with ⟨t', eo⟩
          cases eo with
          | some er => simp
          | none => exact ih _ hmem
  have hpf := prepareAll_force hf m.tiles
  obtain ⟨p1, p2, p3⟩ := prepareAll_ok hpf
  rcases hp : prepareAll a m.tiles with ⟨ts, saved, eo⟩
  rw [hp] at hpf p1
  simp only at hpf p1
  subst hpf
  have hpe := hno evs ts he
  rcases hq : pass std ts evs with ⟨ts', eo⟩
  rw [hq] at hpe
  obtain ⟨e, rfl⟩ := Option.ne_none_iff_exists'.1 hpe
  refine ⟨setTraining false m ts', e, ?_, rfl, ?_, ?_⟩
  · unfold calibrate
    rw [if_neg ha]
    simp only [Bool.not_true, Bool.false_eq_true, if_false, hp, hq]
  · intro b hb
    simp only [setTraining, List.mem_map] at hb
    obtain ⟨_, _, e⟩ := hb
    exact e.symm
  · intro i t ht hfw
    have hti : ts[i]? = some (prepare a t).1 := by rw [p1]; simp [ht]
    obtain ⟨r, k, hs, e1, hl⟩ := pass_frame std evs ts hti
    rw [hq] at e1
    refine ⟨_, e1, ?_, ?_, ?_, ?_⟩
    · simp only [hl]
      unfold prepare
      simp [hfw, hf, (enableRange_frame t).2.2.2.2.1]
    · unfold prepare
      simp [hfw, hf]
    · unfold prepare
      simp [hfw, hf, (enableRange_frame t).2.2.2.2.2.1]
    · intro hc
      have hcach : cachingType a.ctype = true := by rcases hc with c | c <;> rw [c] <;> decide
      unfold prepare
      simp only [hfw, hf, Bool.not_true, Bool.false_eq_true, if_false, Bool.false_and, Bool.and_false,
        hcach, Bool.true_and]
      cases (enableRange t).perfect <;> rfl

/-- **C36** (noise management).  With `force_all_layers=False` a tile with noise management makes the
calibration raise ConfigError; the tiles before it keep their hooks and changes and the model stays in
evaluation mode. -/
theorem C36_noise_management_error (std : List Vec → Option ℚ) (a : Args) (m : Model)
    (evs : List Event) (ha : a.ctype ≠ .none) (hf : a.force = false) (pre post : List Tile) (t : Tile)
    (hm : m.tiles = pre ++ t :: post) (h1 : t.hasForward = true) (h2 : t.enable = true)
    (h3 : t.noiseMgmt = true)
    (hpre : ∀ u ∈ pre, u.hasForward = true ∧ u.enable = true ∧ u.noiseMgmt = false) :
    ∃ m', calibrate std a true m evs = (m', some .configError) ∧ m'.training = false ∧
      ∃ ts, m'.tiles = ts ++ { t with
          initFromData := 0, stdAlpha := a.stdAlpha.getD t.stdAlpha } :: post ∧
        List.Forall₂ (fun u v => v.hooks.length = u.hooks.length + 1) pre ts := by
  have main : ∀ pre : List Tile,
      (∀ u ∈ pre, u.hasForward = true ∧ u.enable = true ∧ u.noiseMgmt = false) →
      ∃ ts s, prepareAll a (pre ++ t :: post) = (ts ++ { t with
          initFromData := 0, stdAlpha := a.stdAlpha.getD t.stdAlpha } :: post, s, some .configError) ∧
        List.Forall₂ (fun u v => v.hooks.length = u.hooks.length + 1) pre ts := by
    intro pre
    induction pre with
    | nil =>
      intro _
      refine ⟨[], [], ?_, by simp⟩
      have : prepare a t = ({ t with
          initFromData := 0, stdAlpha := a.stdAlpha.getD t.stdAlpha }, .none, some .configError) := by
        unfold prepare
        simp [h1, h2, h3, hf, enableRange]
      simp only [List.nil_append, prepareAll, this]
    | cons u pre ih =>
      intro hu
      obtain ⟨ts, s, e1, e2⟩ := ih (fun v hv => hu v (List.mem_cons_of_mem _ hv))
      obtain ⟨u1, u2, u3⟩ := hu u List.mem_cons_self
      have hp : (prepare a u).2.2 = .none ∧
          (prepare a u).1.hooks.length = u.hooks.length + 1 := by
        unfold prepare
        simp [u1, u2, u3, hf, enableRange]
      rcases hq : prepare a u with ⟨u', s', eo⟩
      rw [hq] at hp
      simp only at hp
      obtain ⟨hp1, hp2⟩ := hp
      subst hp1
      refine ⟨u' :: ts, s' :: s, ?_, List.Forall₂.cons hp2 e2⟩
      simp only [List.cons_append, prepareAll, hq, e1]
  obtain ⟨ts, s, e1, e2⟩ := main pre hpre
  refine ⟨setTraining false m (ts ++ { t with
      initFromData := 0, stdAlpha := a.stdAlpha.getD t.stdAlpha } :: post), ?_, rfl, ts, rfl, e2⟩
  unfold calibrate
  rw [if_neg ha, hm, e1]
  rfl

/-- **C36** (optimizer, exception).  A successful calibration replaces the analog parameter of a tile
(so that optimizers built before no longer reach it, see C44) exactly if the tile had noise management,
or was not perfect and the type is a caching one. -/
theorem C36_parameter_replaced {std : List Vec → Option ℚ} {a : Args} {analog : Bool} {m m' : Model}
    {evs : List Event} (ha : a.ctype ≠ .none) (h : calibrate std a analog m evs = (m', .none))
    {i : Nat} {t : Tile} (ht : m.tiles[i]? = some t) (hf : t.hasForward = true) (hh : t.hooks = []) :
    ∃ t', m'.tiles[i]? = some t' ∧ (t'.ctx ≠ t.ctx ↔ t.noiseMgmt = true ∨
      ((a.ctype = .max ∨ a.ctype = .cacheQuantile) ∧ t.perfect = false)) := by
  obtain ⟨_, _, _, hall⟩ := calibrate_ok ha h
  obtain ⟨h1, h2, h3, h4⟩ := hall i t ht
  have hp := prepare_ok hf (enable_of_ok hf hh h4) hh h2
  refine ⟨_, h1, ?_⟩
  obtain ⟨r, k, hs, e1, hl⟩ := runCalls_frame std (callsOf i evs) (prepared a t)
  have hcach : (cachingType a.ctype = true) ↔ (a.ctype = .max ∨ a.ctype = .cacheQuantile) := by
    simp [cachingType]
  obtain ⟨q1, q2, q3⟩ := prepared_calibrated (a := a) hf
  match hs, hl with
  | [h0], _ =>
    have hres := tileResult_eq hf hp e1 q1 rfl
    have hctx : (prepared a t).ctx =
        t.ctx + (if t.noiseMgmt || (cachingType a.ctype && !t.perfect) then 1 else 0) := rfl
    have hpf : (prepared a t).perfect = (t.perfect || cachingType a.ctype) := rfl
    have hfin : (tileResult std a t (callsOf i evs)).1.ctx = (prepared a t).ctx ∨
        (tileResult std a t (callsOf i evs)).1.ctx = (prepared a t).ctx +
          (if (prepared a t).perfect != t.perfect then 1 else 0) := by
      rw [hres]
      unfold finish
      simp only [q3, Bool.not_true, Bool.false_eq_true, if_false]
      rcases cacheRange a h0.cache with e | o
      · left; rfl
      · cases o with
        | none => left; rfl
        | some v =>
          simp only
          by_cases hrn : r = .none
          · rw [if_pos hrn]; left; rfl
          · rw [if_neg hrn]; right; rfl
    rw [hctx, hpf] at hfin
    cases hb1 : t.noiseMgmt <;> cases hb2 : t.perfect <;> cases hb3 : cachingType a.ctype <;>
      simp only [hb1, hb2, hb3, Bool.or_true, Bool.or_false, Bool.and_true,
        Bool.and_false, Bool.not_true, Bool.not_false, if_true, bne_self_eq_false, Bool.false_eq_true,
        if_false, add_zero, or_self] at hfin <;>
      simp only [hb3, Bool.false_eq_true, false_iff, true_iff] at hcach <;>
      simp only [hcach] <;> simp <;> (try simp at hfin) <;> omega

/-- The quantile at level 1 is the largest signed entry. -/
theorem quantile_one {xs : Vec} {v : ℚ} (h : IsQuantile 1 xs v) : v ∈ xs ∧ ∀ x ∈ xs, x ≤ v := by
  obtain ⟨s, hp, hs, k, hk, h1, h2, h3⟩ := h
  rw [one_mul] at h1 h2 h3
  have hlast : k + 1 = s.length := by
    have h4 : (s.length : ℚ) < ((k + 2 : ℕ) : ℚ) := by push_cast; linarith
    have : s.length < k + 2 := by exact_mod_cast h4
    omega
  have hv : v = s[k] := by
    rcases h3 with ⟨_, e⟩ | ⟨hk1, _⟩
    · exact e
    · omega
  constructor
  · rw [hv]; exact hp.subset (List.getElem_mem hk)
  · intro x hx
    obtain ⟨j, hj, e⟩ := List.mem_iff_getElem.1 (hp.symm.subset hx)
    rw [← e, hv]
    rcases Nat.lt_or_ge j k with c | c
    · exact List.pairwise_iff_getElem.1 hs j k hj hk c
    · have : j = k := by omega
      subst this; exact le_refl _

/-- **C36** (signed quantile, exception).  CacheQuantile takes the quantile of signed values. If a tile
only sees non-positive inputs, then with quantile 1 (and all rows kept) its range becomes the
*smallest* magnitude it has seen: every other entry is clipped. -/
theorem C36_signed_quantile {std : List Vec → Option ℚ} {a : Args} {analog : Bool} {m m' : Model}
    {evs : List Event} (ha : a.ctype = .cacheQuantile) (hq : a.quantile = 1)
    (h : calibrate std a analog m evs = (m', .none)) (hs : ShufflesOk evs)
    {i : Nat} {t : Tile} (ht : m.tiles[i]? = some t) (hf : t.hasForward = true)
    (hh : t.hooks = []) (hc : nonzeroRows (fed i evs) ≠ [])
    (hle : (nonzeroRows (fed i evs)).length ≤ a.maxSamples)
    (hneg : ∀ x ∈ (nonzeroRows (fed i evs)).flatten, x ≤ 0) :
    ∃ t' r, m'.tiles[i]? = some t' ∧ t'.range = some r ∧
      ∀ x ∈ (nonzeroRows (fed i evs)).flatten, r ≤ |x| := by
  have hmax : 0 < a.maxSamples := lt_of_lt_of_le (List.length_pos_iff.2 hc) hle
  obtain ⟨t', s, v, h1, _, _, h4, h5, h6, _⟩ := C36_cache ha h hs hmax ht hf hh hc
  rw [hq] at h5
  obtain ⟨hv1, hv2⟩ := quantile_one h5
  have hp := (h4 hle).flatten
  refine ⟨t', |v|, h1, h6, fun x hx => ?_⟩
  have hxv := hv2 x (hp.symm.subset hx)
  have hv0 := hneg v (hp.subset hv1)
  have hx0 := hneg x hx
  rw [abs_of_nonpos hv0, abs_of_nonpos hx0]
  linarith

/-! ### Concrete cases -/

/-- Two analog tiles and a floating point tile, all calls recorded. -/
def exModel : Model :=
  { training := true, sub := [true, false]
    tiles := [{}, { enable := true, range := some 2, noiseMgmt := false }, { hasForward := false }] }

def exTrace : List Event :=
  [.call 0 [[1, -4], [0, 0]] id, .call 1 [[2, 2]] id, .call 2 [[100]] id, .call 0 [[3, 1]] id]

def exStd : List Vec → Option ℚ := fun _ => some 1

example : (calibrate exStd { ctype := .max } true exModel exTrace).2 = .none ∧
    (calibrate exStd { ctype := .max } true exModel exTrace).1.tiles.map (·.range) =
      [some 4, some 2, some 3] := by decide +kernel

example : (calibrate exStd { ctype := .cacheQuantile, quantile := 1 / 2 } true exModel exTrace).1.tiles.map
    (fun t => (t.range, t.perfect)) = [(some 1, false), (some 2, false), (some 3, false)] := by
  decide +kernel

example : (calibrate exStd { ctype := .movingQuantile, quantile := 1 } true exModel exTrace).1.tiles.map
    (fun t => (t.range, t.updIdx)) = [(some (7 / 2), 2), (some 2, 1), (some 3, 0)] := by
  decide +kernel

example : (calibrate exStd { ctype := .movingStd, stdAlpha := some 5, maxSamples := 1 } true exModel
    exTrace).1.tiles.map (fun t => (t.range, t.updIdx)) = [(some 5, 1), (some 5, 1), (some 3, 0)] := by
  decide +kernel

example : ShufflesOk exTrace := by
  intro i x σ h l
  simp only [exTrace, List.mem_cons, Event.call.injEq, List.not_mem_nil, or_false] at h
  rcases h with ⟨_, _, rfl⟩ | ⟨_, _, rfl⟩ | ⟨_, _, rfl⟩ | ⟨_, _, rfl⟩ <;> exact List.Perm.refl _

/-- `force_all_layers=False` with the first tile switched off: KeyError after everything ran. -/
example : (calibrate exStd { ctype := .max, force := false } true exModel exTrace).2 =
    some .keyError := by decide +kernel

/-- A leftover hook (from a calibration that failed) counts each batch a second time. -/
example :
    let bad := (calibrate exStd { ctype := .movingQuantile, quantile := 1 } true exModel
      [.raises .valueError]).1
    (calibrate exStd { ctype := .movingQuantile, quantile := 1 } true bad
      [.call 0 [[6]] id]).1.tiles.map (fun t => (t.updIdx, t.hooks.length)) =
      [(2, 1), (0, 1), (0, 0)] := by decide +kernel

/-- Inputs -10 and -1 with quantile 1: the range is 1. -/
example : (calibrate exStd { ctype := .cacheQuantile, quantile := 1 } true { training := false, tiles := [{}] }
    [.call 0 [[-10], [-1]] id]).1.tiles.map (·.range) = [some 1] := by decide +kernel

example : (calibrate exStd { ctype := .max } true { training := false, tiles := [{}] }
    [.call 0 [[0, 0]] id]).2 = some .runtimeError := by decide +kernel

end Aihw.Calib

import Verif.Calib.Props

/-!
# Properties of input range calibration (C36), statements
-/
namespace Aihw.Calib
open Spec

/-- What calibration leaves on every tile it handled, whatever the type: the input range is on (its
learning switched off if it was not on before), on-the-fly initialisation and noise management are off,
no hook is left. -/
structure Calibrated (a : Args) (t t' : Tile) : Prop where
  enabled : t'.enable = true
  learn : t'.learn = (t.enable && t.learn)
  fromData : t'.initFromData = 0
  alpha : t'.stdAlpha = a.stdAlpha.getD t.stdAlpha
  noise : t'.noiseMgmt = false
  hooks : t'.hooks = []
  fwd : t'.hasForward = true

theorem prepared_calibrated {a : Args} {t : Tile} (hf : t.hasForward = true) :
    (prepared a t).enable = true ∧ (prepared a t).learn = (t.enable && t.learn) ∧
    (prepared a t).hasForward = true := by
  unfold prepared enableRange
  by_cases h : t.enable = true <;> simp [h, hf]

theorem enableRange_id {t : Tile} (h : t.enable = true) : enableRange t = t := by
  unfold enableRange; rw [if_pos h]

/-- The result for one tile once the calls are known. -/
theorem tileResult_eq {std : List Vec → Option ℚ} {a : Args} {t c : Tile} {h : Hook}
    {calls : List (List Vec × (List Vec → List Vec))} (hf : t.hasForward = true)
    (hp : prepare a t = (prepared a t, some t.perfect, .none))
    (hc : (runCalls std (prepared a t) calls).1 = c) (hen : c.enable = true)
    (hch : c.hooks = [h]) :
    tileResult std a t calls = finish a (some t.perfect) (some h.cache) { c with hooks := [] } := by
  unfold tileResult
  rw [hp]
  simp only [hc, ownCache, dropOwn, hch, List.getLast?_singleton, Option.map_some,
    List.dropLast_singleton]
  rw [enableRange_id (by exact hen)]

theorem prepared_range {a : Args} {t : Tile} (hr : t.enable = true → t.range ≠ .none) :
    (prepared a t).range ≠ .none := by
  unfold prepared enableRange
  by_cases h : t.enable = true
  · simpa [h] using hr h
  · simp [h]

/-- **C36** (maximum).  After a successful calibration with type Max, the input range of every tile
that was called is the largest absolute value over all entries of all inputs that this tile received;
it is recorded in the configuration, `is_perfect` is as it was before and no hook is left. -/
theorem C36_max {std : List Vec → Option ℚ} {a : Args} {analog : Bool} {m m' : Model}
    {evs : List Event} (ha : a.ctype = .max) (h : calibrate std a analog m evs = (m', .none))
    {i : Nat} {t : Tile} (ht : m.tiles[i]? = some t) (hf : t.hasForward = true)
    (hh : t.hooks = []) (hc : fed i evs ≠ []) :
    ∃ t' M, m'.tiles[i]? = some t' ∧ IsMaxAbs (entries (fed i evs)) M ∧ t'.range = some M ∧
      t'.initValue = M ∧ t'.info = some .max ∧ t'.perfect = t.perfect ∧ Calibrated a t t' := by
  obtain ⟨_, _, _, hall⟩ := calibrate_ok (by rw [ha]; decide) h
  obtain ⟨h1, h2, h3, h4⟩ := hall i t ht
  have hp := prepare_ok hf (enable_of_ok hf hh h4) hh h2
  have hrun := h3
  rw [hp] at hrun
  obtain ⟨c, e1, e2, e3⟩ := runCalls_max (std := std) (callsOf i evs) (t := prepared a t)
    (h := { ctype := a.ctype, quantile := a.quantile, maxSamples := a.maxSamples }) (xs := [])
    rfl ha ⟨rfl, rfl⟩ hrun
  obtain ⟨M, hM⟩ := e3 (by intro c0; apply hc; rw [← callsOf_fst, c0]; rfl)
  subst hM
  rw [callsOf_fst, List.nil_append] at e2
  obtain ⟨q1, q2, q3⟩ := prepared_calibrated (a := a) hf
  have hres := tileResult_eq hf hp e1 q1 rfl
  rw [hres] at h1 h4
  have hM0 : 0 ≤ M := by obtain ⟨⟨x, _, ex⟩, _⟩ := e2; rw [← ex]; exact abs_nonneg x
  unfold finish at h1 h4
  simp only [q3, Bool.not_true, Bool.false_eq_true, if_false, cacheRange] at h1 h4
  by_cases hn : (prepared a t).range = .none
  · rw [if_pos hn] at h4; simp at h4
  · rw [if_neg hn] at h1
    simp only [abs_of_nonneg hM0] at h1
    exact ⟨_, M, h1, e2, rfl, rfl, by rw [ha], by rfl, ⟨q1, q2, rfl, rfl, rfl, rfl, by first | exact q3 | rfl⟩⟩

/-- **C36** (cached quantile).  After a successful calibration with type CacheQuantile, the input range
of a tile that received a row that is not all zero is the absolute value of the quantile of the
(signed) entries of a sample of these rows; the sample has `max_samples` rows, or is all of them if
there are not more. -/
theorem C36_cache {std : List Vec → Option ℚ} {a : Args} {analog : Bool} {m m' : Model}
    {evs : List Event} (ha : a.ctype = .cacheQuantile)
    (h : calibrate std a analog m evs = (m', .none)) (hs : ShufflesOk evs) (hmax : 0 < a.maxSamples)
    {i : Nat} {t : Tile} (ht : m.tiles[i]? = some t) (hf : t.hasForward = true)
    (hh : t.hooks = []) (hc : nonzeroRows (fed i evs) ≠ []) :
    ∃ (t' : Tile) (sample : List Vec) (v : ℚ), m'.tiles[i]? = some t' ∧ sample.Subperm (nonzeroRows (fed i evs)) ∧
      sample.length = min a.maxSamples (nonzeroRows (fed i evs)).length ∧
      ((nonzeroRows (fed i evs)).length ≤ a.maxSamples → sample.Perm (nonzeroRows (fed i evs))) ∧
      IsQuantile a.quantile sample.flatten v ∧ t'.range = some |v| ∧
      t'.initValue = |v| ∧ t'.info = some .cacheQuantile ∧ t'.perfect = t.perfect ∧
      Calibrated a t t' := by
  obtain ⟨_, _, _, hall⟩ := calibrate_ok (by rw [ha]; decide) h
  obtain ⟨h1, h2, h3, h4⟩ := hall i t ht
  have hp := prepare_ok hf (enable_of_ok hf hh h4) hh h2
  obtain ⟨s, e1, e2, e3⟩ := runCalls_cache (std := std) (callsOf i evs) (t := prepared a t)
    (h := { ctype := a.ctype, quantile := a.quantile, maxSamples := a.maxSamples }) (s := []) (xs := [])
    (fun p hp => hs i p.1 p.2 (callsOf_mem hp)) rfl ha rfl (List.nil_subperm) (by simp)
  rw [callsOf_fst, List.nil_append] at e2 e3
  obtain ⟨q1, q2, q3⟩ := prepared_calibrated (a := a) hf
  have hres := tileResult_eq hf hp e1 q1 rfl
  rw [hres] at h1 h4
  have hlen : 0 < s.length := by
    rw [e3]; have := List.length_pos_iff.2 hc; simp only; omega
  have hfl : s.flatten ≠ [] := by
    obtain ⟨r, s', rfl⟩ := List.exists_cons_of_ne_nil (List.length_pos_iff.1 hlen)
    have hr : r ∈ nonzeroRows (fed i evs) := e2.subset List.mem_cons_self
    have := (List.mem_filter.1 hr).2
    obtain ⟨x, hx, _⟩ := List.any_eq_true.1 this
    intro h0
    rw [List.flatten_cons, List.append_eq_nil_iff] at h0
    rw [h0.1] at hx
    cases hx
  unfold finish at h1 h4
  simp only [q3, Bool.not_true, Bool.false_eq_true, if_false, cacheRange, if_neg hfl] at h1 h4
  cases hq : quantileOf a.quantile s.flatten with
  | error e => rw [hq] at h4; simp [Except.map] at h4
  | ok v =>
    rw [hq] at h1 h4
    simp only [Except.map] at h1 h4
    by_cases hn : (prepared a t).range = .none
    · rw [if_pos hn] at h4; simp at h4
    · rw [if_neg hn] at h1
      refine ⟨_, s, v, h1, e2, e3, ?_, quantile_spec hq, rfl, rfl, by rw [ha], by rfl,
        ⟨q1, q2, rfl, rfl, rfl, rfl, by first | exact q3 | rfl⟩⟩
      intro hle
      apply e2.perm_of_length_le
      rw [e3]; simp only; omega

/-- Range and update counter with which a moving calibration starts: those of the tile, or the initial
value and zero if the input range was off. -/
def startRange (t : Tile) : ℚ := if t.enable then t.range.getD 0 else t.initValue
def startIdx (t : Tile) : Nat := if t.enable then t.updIdx else 0

theorem prepared_start {a : Args} {t : Tile} (hr : t.enable = true → t.range ≠ .none) :
    (prepared a t).range = some (startRange t) ∧ (prepared a t).updIdx = startIdx t := by
  unfold prepared startRange startIdx enableRange
  by_cases h : t.enable = true
  · obtain ⟨r, e⟩ := Option.ne_none_iff_exists'.1 (hr h)
    simp [h, e]
  · simp [h]

theorem finish_moving {a : Args} {s : Option Bool} {t : Tile} :
    finish a s (some (.rows [])) t = (t, .none) := by
  unfold finish
  cases h : t.hasForward <;> simp [cacheRange]

/-- **C36** (moving quantile).  After a successful calibration with type MovingQuantile, the input
range is the mean of the range before (counted as often as it was updated before; not at all for a tile
whose input range was off) and of the positive ones among the statistics of the batches. Exception to
what the other types do: `init_value` and `calibration_info` are not recorded. -/
theorem C36_moving_quantile {std : List Vec → Option ℚ} {a : Args} {analog : Bool} {m m' : Model}
    {evs : List Event} (ha : a.ctype = .movingQuantile)
    (h : calibrate std a analog m evs = (m', .none))
    {i : Nat} {t : Tile} (ht : m.tiles[i]? = some t) (hf : t.hasForward = true)
    (hh : t.hooks = []) (hr : t.enable = true → t.range ≠ .none) (h0 : 0 ≤ startRange t) :
    ∃ t' vals r, m'.tiles[i]? = some t' ∧
      List.Forall₂ (BatchStat a.quantile) (fed i evs) vals ∧ t'.range = some r ∧
      t'.updIdx = startIdx t + (vals.filter (fun v => decide (0 < v))).length ∧
      (vals.filter (fun v => decide (0 < v)) = [] → r = startRange t) ∧
      r * t'.updIdx = startRange t * startIdx t + (vals.filter (fun v => decide (0 < v))).sum ∧
      t'.perfect = t.perfect ∧ Calibrated a t t' ∧ t'.initValue = t.initValue ∧ t'.info = t.info := by
  obtain ⟨_, _, _, hall⟩ := calibrate_ok (by rw [ha]; decide) h
  obtain ⟨h1, h2, h3, h4⟩ := hall i t ht
  have hp := prepare_ok hf (enable_of_ok hf hh h4) hh h2
  have hrun := h3
  rw [hp] at hrun
  obtain ⟨s1, s2⟩ := prepared_start (a := a) hr
  obtain ⟨vals, r, k, e1, e2, e3⟩ := runCalls_movingQ (std := std) (callsOf i evs) (t := prepared a t)
    (h := { ctype := a.ctype, quantile := a.quantile, maxSamples := a.maxSamples })
    rfl ha s1 h0 hrun
  rw [callsOf_fst] at e2
  rw [s2] at e3
  obtain ⟨q1, q2, q3⟩ := prepared_calibrated (a := a) hf
  have hres := tileResult_eq hf hp e1 q1 rfl
  rw [hres, finish_moving] at h1
  obtain ⟨m1, m2, m3, m4⟩ := e3
  refine ⟨_, vals, r, h1, e2, rfl, m1, m3, m2, ?_, ⟨q1, q2, rfl, rfl, rfl, rfl, by first | exact q3 | rfl⟩, ?_, ?_⟩
  · simp [prepared, ha, cachingType]
  · exact (enableRange_frame t).2.2.2.2.2.2.2
  · exact (enableRange_frame t).2.2.2.2.2.2.1

/-- **C36** (moving standard deviation).  Likewise with `init_std_alpha` times the standard deviation
of the non-zero rows of a batch; only as many batches count as bring the update counter to
`max_samples`. -/
theorem C36_moving_std {std : List Vec → Option ℚ} {a : Args} {analog : Bool} {m m' : Model}
    {evs : List Event} (ha : a.ctype = .movingStd)
    (h : calibrate std a analog m evs = (m', .none))
    {i : Nat} {t : Tile} (ht : m.tiles[i]? = some t) (hf : t.hasForward = true)
    (hh : t.hooks = []) (hr : t.enable = true → t.range ≠ .none) (h0 : 0 ≤ startRange t) :
    let alpha := a.stdAlpha.getD t.stdAlpha
    let used := (stdVals std alpha (fed i evs)).take (a.maxSamples - startIdx t)
    ∃ t' r, m'.tiles[i]? = some t' ∧ t'.range = some r ∧
      t'.updIdx = startIdx t + used.length ∧ (used = [] → r = startRange t) ∧
      r * t'.updIdx = startRange t * startIdx t + used.sum ∧
      t'.perfect = t.perfect ∧ Calibrated a t t' ∧ t'.initValue = t.initValue ∧ t'.info = t.info := by
  obtain ⟨_, _, _, hall⟩ := calibrate_ok (by rw [ha]; decide) h
  obtain ⟨h1, h2, h3, h4⟩ := hall i t ht
  have hp := prepare_ok hf (enable_of_ok hf hh h4) hh h2
  obtain ⟨s1, s2⟩ := prepared_start (a := a) hr
  obtain ⟨r, k, e1, e3⟩ := runCalls_movingStd (std := std) (callsOf i evs) (t := prepared a t)
    (h := { ctype := a.ctype, quantile := a.quantile, maxSamples := a.maxSamples })
    rfl ha s1 h0
  rw [callsOf_fst, s2] at e3
  obtain ⟨q1, q2, q3⟩ := prepared_calibrated (a := a) hf
  have hres := tileResult_eq hf hp e1 q1 rfl
  rw [hres, finish_moving] at h1
  obtain ⟨m1, m2, m3, m4⟩ := e3
  refine ⟨_, r, h1, rfl, m1, m3, m2, ?_, ⟨q1, q2, rfl, rfl, rfl, rfl, by first | exact q3 | rfl⟩, ?_, ?_⟩
  · simp [prepared, ha, cachingType]
  · exact (enableRange_frame t).2.2.2.2.2.2.2
  · exact (enableRange_frame t).2.2.2.2.2.2.1

/-- **C36** (independence).  What a successful calibration does to a tile depends only on the arguments,
on that tile and on its own inputs in their order (with the outcome of its random sampling): not on the
other tiles, nor on the order in which different tiles are called. -/
theorem C36_per_tile {std : List Vec → Option ℚ} {a : Args} {m m' n n' : Model}
    {evs evs' : List Event}
    (h : calibrate std a true m evs = (m', .none)) (hn : calibrate std a true n evs' = (n', .none))
    (hc : a.ctype ≠ .none) {i j : Nat} {t : Tile} (hi : m.tiles[i]? = some t)
    (hj : n.tiles[j]? = some t)
    (he : (evs.filterMap fun e => match e with
        | .call k x σ => if k = i then some (x, σ) else .none
        | .raises _ => .none) =
      (evs'.filterMap fun e => match e with
        | .call k x σ => if k = j then some (x, σ) else .none
        | .raises _ => .none)) :
    m'.tiles[i]? = n'.tiles[j]? ∧ m'.tiles[i]? ≠ .none := by
  have key : ∀ (i : Nat) (evs : List Event), (∀ e, Event.raises e ∉ evs) → callsOf i evs =
      (evs.filterMap fun e => match e with
        | .call k x σ => if k = i then some (x, σ) else .none
        | .raises _ => .none) := by
    intro i evs hno
    induction evs with
    | nil => rfl
    | cons e evs ih =>
      have ih := ih (fun e he => hno e (List.mem_cons_of_mem _ he))
      cases e with
      | raises e => exact absurd List.mem_cons_self (hno e)
      | call k x σ =>
        simp only [callsOf]
        by_cases c : k = i
        · rw [if_pos c, List.filterMap_cons_some (b := (x, σ)) (by simp [c]), ih]
        · rw [if_neg c, List.filterMap_cons_none (by simp [c]), ih]
  have noraise : ∀ (evs : List Event) (ts : List Tile), (pass std ts evs).2 = .none →
      ∀ e, Event.raises e ∉ evs := by
    intro evs
    induction evs with
    | nil => simp
    | cons e evs ih =>
      intro ts hp e0 hmem
      cases e with
      | raises e => simp [pass] at hp
      | call k x σ =>
        have hmem : Event.raises e0 ∈ evs := by
          rcases List.mem_cons.1 hmem with c | c
          · cases c
          · exact c
        simp only [pass] at hp
        cases hk : ts[k]? with
        | none => rw [hk] at hp; exact ih _ hp e0 hmem
        | some tk =>
          rw [hk] at hp
          simp only at hp
          rcases hct : callTile std σ x tk with ⟨t', eo⟩
          rw [hct] at hp
          cases eo with
          | some e => simp at hp
          | none => exact ih _ hp e0 hmem
  have passok : ∀ (m m' : Model) (evs : List Event), calibrate std a true m evs = (m', .none) →
      ∀ e, Event.raises e ∉ evs := by
    intro m m' evs h
    unfold calibrate at h
    rw [if_neg hc] at h
    simp only [Bool.not_true, Bool.false_eq_true, if_false] at h
    rcases hp : prepareAll a m.tiles with ⟨ts, saved, eo⟩
    rw [hp] at h
    cases eo with
    | some e => simp at h
    | none =>
      simp only at h
      rcases hq : pass std ts evs with ⟨ts', eo⟩
      rw [hq] at h
      cases eo with
      | some e => simp at h
      | none => exact noraise evs ts (by rw [hq])
  rw [← key i evs (passok m m' evs h), ← key j evs' (passok n n' evs' hn)] at he
  obtain ⟨_, _, _, ha⟩ := calibrate_ok hc h
  obtain ⟨_, _, _, hb⟩ := calibrate_ok hc hn
  rw [(ha i t hi).1, (hb j t hj).1, he]
  exact ⟨rfl, by simp⟩

/-- **C36** (flags).  A successful calibration keeps the training flag of the model and the number of
tiles, and every tile has its input range enabled afterwards. Type None does nothing at all. Exception:
the flags of all submodules become that of the model, also those of submodules the user had put into
evaluation mode. -/
theorem C36_flags {std : List Vec → Option ℚ} {a : Args} {analog : Bool} {m m' : Model}
    {evs : List Event} (h : calibrate std a analog m evs = (m', .none)) :
    m'.training = m.training ∧ m'.tiles.length = m.tiles.length ∧
    (a.ctype = .none → m' = m) ∧
    (a.ctype ≠ .none → m'.sub = m.sub.map (fun _ => m.training) ∧ ∀ t' ∈ m'.tiles, t'.enable = true) := by
  by_cases hc : a.ctype = .none
  · unfold calibrate at h
    rw [if_pos hc] at h
    simp only [Prod.mk.injEq, and_true] at h
    subst h
    exact ⟨rfl, rfl, fun _ => rfl, fun c => absurd hc c⟩
  · obtain ⟨h1, h2, h3, h4⟩ := calibrate_ok hc h
    refine ⟨h1, h3, fun c => absurd c hc, fun _ => ⟨h2, fun t' ht' => ?_⟩⟩
    obtain ⟨i, hi⟩ := List.getElem?_of_mem ht'
    have hlt : i < m.tiles.length := by rw [← h3]; exact (List.getElem?_eq_some_iff.1 hi).1
    have hres := (h4 i m.tiles[i] (List.getElem?_eq_getElem hlt)).1
    rw [hi] at hres
    cases hres
    unfold tileResult
    simp only
    generalize (runCalls std (prepare a m.tiles[i]).1 (callsOf i evs)).1 = c
    have hen := (enableRange_frame (dropOwn (prepare a m.tiles[i]).2.1 c)).2.2.2.2.2.1
    generalize enableRange (dropOwn (prepare a m.tiles[i]).2.1 c) = u at hen
    unfold finish
    cases u.hasForward
    · exact hen
    · simp only [Bool.not_true, Bool.false_eq_true, if_false]
      cases ownCache (prepare a m.tiles[i]).2.1 c with
      | none => exact hen
      | some v =>
        simp only
        rcases cacheRange a v with e | o
        · exact hen
        · cases o with
          | none => exact hen
          | some v =>
            simp only
            by_cases hr : u.range = .none
            · rw [if_pos hr]; exact hen
            · rw [if_neg hr]; exact hen

end Aihw.Calib

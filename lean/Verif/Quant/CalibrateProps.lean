import Verif.Quant.Calibrate
import Verif.Quant.LayerProps

/-!
# Calibration of quantization ranges (C50)
-/
namespace Aihw.Quant
open Spec

/-! ### Managers -/

theorem mgrQuant_pars (m : Mgr) (rank : Nat) (rows : List Vec) :
    (mgrQuant m rank rows).1.q.pars = m.q.pars := by rw [mgrQuant_frame]

theorem mgrForward_init {o : Optimizer} {m m' : Mgr} {rank : Nat} {rows : List Vec} {r}
    (h : mgrForward o m rank rows = (m', r)) :
    (isInit m.q = true → isInit m'.q = true) ∧ (∀ y, r = .ok y → isInit m'.q = true) ∧
    (updates m = false → m'.q.pars = m.q.pars ∧ m'.q.signed = m.q.signed) := by
  have hq : ∀ (a : Mgr) y, (mgrQuant a rank rows).2 = .ok y → isInit a.q = true := by
    intro a y h
    unfold mgrQuant at h
    cases hf : forward a.q rank rows with
    | error e => rw [hf] at h; simp at h
    | ok p =>
      unfold forward at hf
      cases hv : adjustView a.q rank with
      | error e => rw [hv] at hf; simp [bind, Except.bind] at hf
      | ok q1 =>
        have hpar : q1.pars = a.q.pars := by rw [adjustView_eq hv]
        rw [hv] at hf
        simp only [bind, Except.bind] at hf
        cases hs : signOf q1 with
        | error e => rw [hs] at hf; simp at hf
        | ok sg =>
          rw [hs] at hf
          simp only at hf
          cases hp : q1.pars with
          | none =>
            have : paramsFor q1 rank rows.length = .error .quantNotInit := by
              unfold paramsFor; rw [hp]
            rw [this] at hf; simp at hf
          | some ps => unfold isInit; rw [← hpar, hp]; rfl
  have hfr : ∀ (a : Mgr), isInit (mgrQuant a rank rows).1.q = isInit a.q := by
    intro a; unfold isInit; rw [mgrQuant_pars]
  cases he : m.est with
  | none =>
    simp only [mgrForward, he, Prod.mk.injEq] at h
    obtain ⟨h1, h2⟩ := h
    subst h1; subst h2
    exact ⟨id, by simp, fun _ => ⟨rfl, rfl⟩⟩
  | some e =>
    unfold mgrForward at h
    rw [he] at h
    simp only at h
    by_cases hu : updates m = true
    · simp only [hu, if_true] at h
      refine ⟨?_, ?_, fun c => absurd hu (by rw [c]; decide)⟩
      · intro hi
        unfold mgrEstimate at h
        cases h1 : estForward o m.q e rows with
        | error er => rw [h1] at h; simp only [Prod.mk.injEq] at h; rw [← h.1]; exact hi
        | ok p =>
          obtain ⟨e', s⟩ := p
          rw [h1] at h
          simp only at h
          cases h2 : setQuantRange m.q s with
          | error er => rw [h2] at h; simp only [Prod.mk.injEq] at h; rw [← h.1]; exact hi
          | ok q' =>
            rw [h2] at h
            simp only at h
            have := congrArg Prod.fst h
            simp only at this
            rw [← this, hfr]
            obtain ⟨ps, e1, _⟩ := set_params h2
            rw [e1]; rfl
      · intro y hy
        subst hy
        unfold mgrEstimate at h
        cases h1 : estForward o m.q e rows with
        | error er => rw [h1] at h; simp at h
        | ok p =>
          obtain ⟨e', s⟩ := p
          rw [h1] at h
          simp only at h
          cases h2 : setQuantRange m.q s with
          | error er => rw [h2] at h; simp at h
          | ok q' =>
            rw [h2] at h
            simp only at h
            have h3 := hq _ y (by rw [h])
            have := congrArg Prod.fst h
            simp only at this
            rw [← this, hfr]; exact h3
    · have hu' : updates m = false := by simpa using hu
      simp only [hu', Bool.false_eq_true, if_false] at h
      have h1 := congrArg Prod.fst h
      have h2 := congrArg Prod.snd h
      simp only at h1 h2
      refine ⟨?_, ?_, ?_⟩
      · intro hi; rw [← h1, hfr]; exact hi
      · intro y hy
        rw [← h1, hfr]
        exact hq m y (by rw [h2, hy])
      · intro _
        rw [← h1, mgrQuant_frame]
        exact ⟨rfl, rfl⟩

/-! ### Layers -/

/-- What a forward pass leaves alone. -/
structure Kept (l l' : Layer) : Prop where
  weight : l'.weight = l.weight
  bias : l'.bias = l.bias
  wrank : l'.wrank = l.wrank
  training : l'.training = l.training
  quantW : l'.quantW = l.quantW
  quantA : l'.quantA = l.quantA
  wst : l'.wm.st = l.wm.st
  ast : l'.am.st = l.am.st
  wtr : l'.wm.training = l.wm.training
  atr : l'.am.training = l.am.training
  winit : isInit l.wm.q = true → isInit l'.wm.q = true
  ainit : isInit l.am.q = true → isInit l'.am.q = true

theorem Kept.refl (l : Layer) : Kept l l :=
  ⟨rfl, rfl, rfl, rfl, rfl, rfl, rfl, rfl, rfl, rfl, id, id⟩

theorem Kept.trans {a b c : Layer} (h : Kept a b) (g : Kept b c) : Kept a c :=
  ⟨g.weight.trans h.weight, g.bias.trans h.bias, g.wrank.trans h.wrank, g.training.trans h.training,
   g.quantW.trans h.quantW, g.quantA.trans h.quantA, g.wst.trans h.wst, g.ast.trans h.ast,
   g.wtr.trans h.wtr, g.atr.trans h.atr, fun x => g.winit (h.winit x), fun x => g.ainit (h.ainit x)⟩

theorem freshParams_kept (o : Optimizer) (l : Layer) : Kept l (freshParams o l).1 ∧
    (freshParams o l).1.am = l.am ∧ (freshParams o l).1.cached = l.cached ∧
    (∀ p, (freshParams o l).2 = .ok p → l.quantW = true → isInit (freshParams o l).1.wm.q = true) ∧
    (updates l.wm = false → (freshParams o l).1.wm.q.pars = l.wm.q.pars ∧
      (freshParams o l).1.wm.q.signed = l.wm.q.signed) := by
  rw [freshParams_eq]
  by_cases h : l.quantW = true
  · rw [if_pos h]
    rcases hm : mgrForward o l.wm l.wrank l.weight with ⟨m', r⟩
    obtain ⟨f1, f2⟩ := mgrForward_frame hm
    obtain ⟨i1, i2, i3⟩ := mgrForward_init hm
    refine ⟨⟨rfl, rfl, rfl, rfl, rfl, rfl, f1, rfl, f2, rfl, i1, id⟩, rfl, rfl, ?_, i3⟩
    intro p hp _
    cases r with
    | error e => simp [Except.map] at hp
    | ok y => exact i2 y rfl
  · rw [if_neg h]
    exact ⟨Kept.refl l, rfl, rfl, fun _ _ c => absurd c h, fun _ => ⟨rfl, rfl⟩⟩

/-- The caching part of `getParams`. -/
def keepCache (f : Layer × Except PyErr (List Vec × Option Vec)) :
    Layer × Except PyErr (List Vec × Option Vec) :=
  match f with
  | (l', .error e) => (l', .error e)
  | (l', .ok p) =>
    ((if l'.caching && !l'.training && l'.cached.isNone then { l' with cached := some p } else l'), .ok p)

theorem getParams_keep (o : Optimizer) (l : Layer) (h : l.training = true ∨ l.cached = none) :
    getParams o l = keepCache (freshParams o l) := by
  unfold getParams keepCache
  rcases h with h | h
  · rw [h]; cases l.cached <;> rfl
  · rw [h]; cases l.training <;> rfl

theorem getParams_kept (o : Optimizer) (l : Layer) : Kept l (getParams o l).1 ∧
    (getParams o l).1.am = l.am ∧
    (∀ p, (getParams o l).2 = .ok p → l.cached = none → l.quantW = true →
      isInit (getParams o l).1.wm.q = true) ∧
    ((getParams o l).1.cached ≠ none → l.cached ≠ none ∨ (l.quantW = true →
      isInit (getParams o l).1.wm.q = true)) ∧
    (updates l.wm = false → (getParams o l).1.wm.q.pars = l.wm.q.pars ∧
      (getParams o l).1.wm.q.signed = l.wm.q.signed) ∧
    (l.training = false → l.cached ≠ none → (getParams o l).1 = l) := by
  obtain ⟨k1, k2, k3, k4, k5⟩ := freshParams_kept o l
  have gen : ∀ f : Layer × Except PyErr (List Vec × Option Vec), f = freshParams o l →
      Kept l (keepCache f).1 ∧ (keepCache f).1.am = l.am ∧
      (∀ p, (keepCache f).2 = .ok p → l.quantW = true → isInit (keepCache f).1.wm.q = true) ∧
      ((keepCache f).1.cached ≠ none →
        l.cached ≠ none ∨ (l.quantW = true → isInit (keepCache f).1.wm.q = true)) ∧
      (updates l.wm = false → (keepCache f).1.wm.q.pars = l.wm.q.pars ∧
        (keepCache f).1.wm.q.signed = l.wm.q.signed) := by
    rintro ⟨l', r⟩ hf
    rw [← hf] at k1 k2 k3 k4 k5
    simp only at k1 k2 k3 k4 k5
    unfold keepCache
    cases r with
    | error e =>
      refine ⟨k1, k2, by simp, ?_, k5⟩
      intro hc; left; rw [← k3]; exact hc
    | ok p =>
      simp only
      by_cases c : (l'.caching && !l'.training && l'.cached.isNone) = true
      · rw [if_pos c]
        exact ⟨⟨k1.1, k1.2, k1.3, k1.4, k1.5, k1.6, k1.7, k1.8, k1.9, k1.10, k1.11, k1.12⟩, k2,
          fun _ _ hw => k4 p rfl hw, fun _ => Or.inr (k4 p rfl), k5⟩
      · rw [if_neg c]
        exact ⟨k1, k2, fun _ _ hw => k4 p rfl hw, fun _ => Or.inr (k4 p rfl), k5⟩
  obtain ⟨g1, g2, g3, g4, g5⟩ := gen _ rfl
  by_cases hc : l.training = true ∨ l.cached = none
  · rw [getParams_keep o l hc]
    refine ⟨g1, g2, fun p hp _ hw => g3 p hp hw, g4, g5, ?_⟩
    intro h1 h2
    rcases hc with c | c
    · rw [h1] at c; cases c
    · exact absurd c h2
  · push Not at hc
    obtain ⟨c, hcc⟩ := Option.ne_none_iff_exists'.1 hc.2
    have e : getParams o l = (l, .ok c) := by
      have ht : l.training = false := by simpa using hc.1
      unfold getParams; rw [ht, hcc]
    rw [e]
    exact ⟨Kept.refl l, rfl, fun _ _ h => absurd h hc.2, fun _ => Or.inl hc.2, fun _ => ⟨rfl, rfl⟩,
      fun _ _ => rfl⟩

theorem layerForward_kept {X : Type} (o : Optimizer) (run : LayerOp X) (l : Layer) (x : X) :
    Kept l (layerForward o run l x).1 ∧
    (∀ y, (layerForward o run l x).2 = .ok y →
      (l.quantA = true → isInit (layerForward o run l x).1.am.q = true) ∧
      (l.cached = none → l.quantW = true → isInit (layerForward o run l x).1.wm.q = true)) ∧
    ((layerForward o run l x).1.cached ≠ none → l.cached ≠ none ∨ (l.quantW = true →
      isInit (layerForward o run l x).1.wm.q = true)) ∧
    (updates l.wm = false → (layerForward o run l x).1.wm.q.pars = l.wm.q.pars ∧
      (layerForward o run l x).1.wm.q.signed = l.wm.q.signed) ∧
    (updates l.am = false → (layerForward o run l x).1.am.q.pars = l.am.q.pars ∧
      (layerForward o run l x).1.am.q.signed = l.am.q.signed) ∧
    (l.training = false → l.cached ≠ none → (layerForward o run l x).1.wm = l.wm ∧
      (layerForward o run l x).1.cached = l.cached) := by
  obtain ⟨k1, k2, k3, k4, k5, k6⟩ := getParams_kept o l
  unfold layerForward
  rcases hg : getParams o l with ⟨l1, r⟩
  rw [hg] at k1 k2 k3 k4 k5 k6
  simp only at k1 k2 k3 k4 k5 k6
  cases r with
  | error e => exact ⟨k1, by simp, k4, k5, fun _ => by rw [k2]; exact ⟨rfl, rfl⟩,
      fun h1 h2 => by rw [k6 h1 h2]; exact ⟨rfl, rfl⟩⟩
  | ok p =>
    simp only
    have hfr := quantActs_frame o l1 (run p.1 p.2 x)
    unfold quantActs at hfr ⊢
    by_cases hq : l1.quantA = true
    · rw [if_pos hq]
      simp only
      rcases hm : mgrForward o l1.am (run p.1 p.2 x).1 (run p.1 p.2 x).2 with ⟨m', r⟩
      obtain ⟨f1, f2⟩ := mgrForward_frame hm
      obtain ⟨i1, i2, i3⟩ := mgrForward_init hm
      refine ⟨k1.trans ⟨rfl, rfl, rfl, rfl, rfl, rfl, rfl, f1, rfl, f2, id, i1⟩, ?_, k4, k5, ?_, ?_⟩
      · intro y hy
        exact ⟨fun _ => i2 y hy, fun hc hw => k3 p rfl hc hw⟩
      · rw [k2] at i3
        exact i3
      · intro h1 h2; rw [k6 h1 h2]; exact ⟨rfl, rfl⟩
    · rw [if_neg hq]
      refine ⟨k1, ?_, k4, k5, ?_, ?_⟩
      · intro y hy
        refine ⟨fun ha => absurd (k1.quantA.trans ha) hq, fun hc hw => k3 p rfl hc hw⟩
      · intro _; rw [k2]; exact ⟨rfl, rfl⟩
      · intro h1 h2; rw [k6 h1 h2]; exact ⟨rfl, rfl⟩

/-! ### Networks -/

theorem passBatch_ok {X : Type} {o : Optimizer} {run : Nat → LayerOp X} {b : BatchCalls X}
    {ls : List Layer} (h : (passBatch o run ls b).2 = none) {i : Nat} {l : Layer}
    (hl : ls[i]? = some l) :
    ∃ l', (passBatch o run ls b).1[i]? = some l' ∧ Kept l l' ∧
      ((l.cached ≠ none → l.quantW = true → isInit l.wm.q = true) →
        (l'.cached ≠ none → l'.quantW = true → isInit l'.wm.q = true) ∧
        ((∃ x, (i, x) ∈ b) → l.quantW = true → isInit l'.wm.q = true)) ∧
      ((∃ x, (i, x) ∈ b) → l.quantA = true → isInit l'.am.q = true) ∧
      (l.training = false → l.cached ≠ none → l'.wm = l.wm ∧ l'.cached = l.cached) := by
  induction b generalizing ls l with
  | nil => exact ⟨l, hl, Kept.refl l, fun hc => ⟨hc, by simp⟩, by simp, fun _ _ => ⟨rfl, rfl⟩⟩
  | cons c cs ih =>
    obtain ⟨j, x⟩ := c
    simp only [passBatch] at h ⊢
    cases hj : ls[j]? with
    | none =>
      rw [hj] at h
      simp only at h ⊢
      obtain ⟨l', e1, e2, e3, e5, e4⟩ := ih h hl
      have hne : j ≠ i := by intro c; rw [c, hl] at hj; cases hj
      have hmem : (∃ x', (i, x') ∈ (j, x) :: cs) → ∃ x', (i, x') ∈ cs := by
        rintro ⟨x', hx'⟩
        rcases List.mem_cons.1 hx' with c | c
        · cases c; exact absurd rfl hne
        · exact ⟨x', c⟩
      exact ⟨l', e1, e2, fun hc => ⟨(e3 hc).1, fun hm => (e3 hc).2 (hmem hm)⟩,
        fun hm => e5 (hmem hm), e4⟩
    | some lj =>
      rw [hj] at h
      simp only at h ⊢
      rcases hs : lstep o (run j) lj (.forward x) with ⟨lj', r⟩
      rw [hs] at h
      cases r with
      | error e => simp at h
      | ok y =>
        simp only at h ⊢
        by_cases c : j = i
        · subst c
          rw [hl] at hj
          cases hj
          have hlt : j < ls.length := (List.getElem?_eq_some_iff.1 hl).1
          have hl' : (ls.set j lj')[j]? = some lj' := by simp [hlt]
          obtain ⟨l', e1, e2, e3, e5, e4⟩ := ih h hl'
          have hk := layerForward_kept o (run j) l x
          have hs' : layerForward o (run j) l x = (lj', .ok y) := hs
          rw [hs'] at hk
          obtain ⟨k1, k2, k3, _, _, k6⟩ := hk
          simp only at k1 k2 k3 k6
          refine ⟨l', e1, k1.trans e2, fun hc => ?_, fun _ ha => e2.ainit ((k2 y rfl).1 ha), ?_⟩
          · have hc' : lj'.cached ≠ none → lj'.quantW = true → isInit lj'.wm.q = true := by
              intro c1 c2
              rw [k1.quantW] at c2
              rcases k3 c1 with d | d
              · exact k1.winit (hc d c2)
              · exact d c2
            obtain ⟨f1, f2⟩ := e3 hc'
            refine ⟨f1, fun _ hw => ?_⟩
            apply e2.winit
            by_cases hcn : l.cached = none
            · exact (k2 y rfl).2 hcn hw
            · exact k1.winit (hc hcn hw)
          · intro h1 h2
            obtain ⟨a1, a2⟩ := k6 h1 h2
            obtain ⟨b1, b2⟩ := e4 (by rw [k1.training]; exact h1) (by rw [a2]; exact h2)
            exact ⟨b1.trans a1, b2.trans a2⟩
        · have hl' : (ls.set j lj')[i]? = some l := by rw [List.getElem?_set_ne c]; exact hl
          obtain ⟨l', e1, e2, e3, e5, e4⟩ := ih h hl'
          have hmem : (∃ x', (i, x') ∈ (j, x) :: cs) → ∃ x', (i, x') ∈ cs := by
            rintro ⟨x', hx'⟩
            rcases List.mem_cons.1 hx' with d | d
            · cases d; exact absurd rfl c
            · exact ⟨x', d⟩
          exact ⟨l', e1, e2, fun hc => ⟨(e3 hc).1, fun hm => (e3 hc).2 (hmem hm)⟩,
            fun hm => e5 (hmem hm), e4⟩

theorem passLoader_take {X : Type} (o : Optimizer) (run : Nat → LayerOp X) (n : Nat)
    (loader : List (BatchCalls X)) (i : Nat) (ls : List Layer) :
    passLoader o run n i ls loader = passLoader o run n i ls (loader.take (n + 1 - i)) := by
  induction loader generalizing i ls with
  | nil => simp
  | cons b bs ih =>
    by_cases h : n < i
    · have : n + 1 - i = 0 := by omega
      simp [passLoader, h, this]
    · have : n + 1 - i = (n + 1 - (i + 1)) + 1 := by omega
      rw [this, List.take_succ_cons]
      simp only [passLoader, if_neg h]
      rcases passBatch o run ls b with ⟨ls', eo⟩
      cases eo with
      | some e => rfl
      | none => exact ih (i + 1) ls'

theorem passLoader_flat {X : Type} (o : Optimizer) (run : Nat → LayerOp X) (n : Nat)
    (loader : List (BatchCalls X)) (i : Nat) (ls : List Layer) (hl : loader.length + i ≤ n + 1) :
    passLoader o run n i ls loader = passBatch o run ls loader.flatten := by
  induction loader generalizing i ls with
  | nil => rfl
  | cons b bs ih =>
    rw [List.length_cons] at hl
    have h : ¬ n < i := by omega
    simp only [passLoader, if_neg h, List.flatten_cons]
    have happ : ∀ (b c : BatchCalls X) (ls : List Layer), passBatch o run ls (b ++ c) =
        match passBatch o run ls b with
        | (ls', some e) => (ls', some e)
        | (ls', none) => passBatch o run ls' c := by
      intro b c
      induction b with
      | nil => intro ls; rfl
      | cons d ds ihd =>
        intro ls
        obtain ⟨j, x⟩ := d
        simp only [List.cons_append, passBatch]
        cases ls[j]? with
        | none => exact ihd ls
        | some l =>
          simp only
          rcases lstep o (run j) l (.forward x) with ⟨l', r⟩
          cases r with
          | error e => rfl
          | ok y => exact ihd _
    rw [happ]
    rcases passBatch o run ls b with ⟨ls', eo⟩
    cases eo with
    | some e => rfl
    | none => exact ih (i + 1) ls' (by omega)

/-- **C50** (number of batches).  The ranges are estimated on exactly the first
`max_num_batches + 1` batches of the loader (all if there are fewer), one more than the argument says:
later batches have no influence whatsoever. -/
theorem C50_batches {X : Type} (o : Optimizer) (run : Nat → LayerOp X) (n : Nat) (ls : List Layer)
    (loader : List (BatchCalls X)) :
    calibrateQ o run n ls loader = calibrateQ o run n ls (loader.take (n + 1)) ∧
    ∀ more : List (BatchCalls X), n + 1 ≤ loader.length →
      calibrateQ o run n ls (loader ++ more) = calibrateQ o run n ls loader := by
  have h1 : ∀ loader : List (BatchCalls X),
      calibrateQ o run n ls loader = calibrateQ o run n ls (loader.take (n + 1)) := by
    intro loader
    unfold calibrateQ
    simp only
    rw [passLoader_take o run n loader 0]
    rfl
  refine ⟨h1 loader, fun more hl => ?_⟩
  rw [h1 (loader ++ more), h1 loader, List.take_append_of_le_length hl]

/-- **C50** (result).  After a successful calibration every layer has its weights unchanged and is in
evaluation mode (whatever the mode before); every quantizer that has a range is fixed, every other one
is left estimating; and a layer that was called in one of the used batches has its activation quantizer
and (unless it held a cache from before) its weight quantizer fixed if they are in use. -/
theorem C50_result {X : Type} {o : Optimizer} {run : Nat → LayerOp X} {n : Nat} {ls ls' : List Layer}
    {loader : List (BatchCalls X)} (h : calibrateQ o run n ls loader = (ls', none))
    {i : Nat} {l : Layer} (hl : ls[i]? = some l) :
    ∃ l', ls'[i]? = some l' ∧ l'.weight = l.weight ∧ l'.bias = l.bias ∧ l'.training = false ∧
      l'.quantW = l.quantW ∧ l'.quantA = l.quantA ∧
      (∀ m, m = l'.wm ∨ m = l'.am → m.training = false ∧
        (m.q.pars ≠ none → m.st = .fix) ∧ (m.q.pars = none → m.st = .estimate)) ∧
      ((∃ b ∈ loader.take (n + 1), ∃ x, (i, x) ∈ b) →
        (l.quantA = true → l'.am.q.pars ≠ none) ∧
        (l.quantW = true → l.cached = none → l'.wm.q.pars ≠ none)) ∧
      (l.training = false → l.cached ≠ none → l'.wm.q = l.wm.q) := by
  rw [(C50_batches o run n ls loader).1] at h
  unfold calibrateQ at h
  simp only at h
  rw [passLoader_flat _ _ _ _ _ _ (by simp only [List.length_take]; omega)] at h
  set ls1 := ls.mapIdx fun i l =>
    (lstep o (run i) (lstep o (run i) l (.ranges .estimate)).1 (.train false)).1 with hls1
  have hl1 : ls1[i]? = some (lstep o (run i) (lstep o (run i) l (.ranges .estimate)).1 (.train false)).1 := by
    rw [hls1]; simp [hl]
  rcases hp : passBatch o run ls1 (loader.take (n + 1)).flatten with ⟨ls2, eo⟩
  rw [hp] at h
  cases eo with
  | some e => simp at h
  | none =>
    simp only [Prod.mk.injEq, and_true] at h
    have hb := passBatch_ok (o := o) (run := run) (b := (loader.take (n + 1)).flatten) (ls := ls1)
      (by rw [hp]) hl1
    rw [hp] at hb
    obtain ⟨l2, e1, e2, e3, e5, e4⟩ := hb
    simp only [lstep, setState] at e1 e2 e3 e4 e5
    have hst : ∀ m : Mgr, m.st = .estimate → (setState .fix m).training = m.training ∧
        (setState .fix m).q = m.q ∧
        ((setState .fix m).q.pars ≠ none → (setState .fix m).st = .fix) ∧
        ((setState .fix m).q.pars = none → (setState .fix m).st = .estimate) := by
      intro m hm
      unfold setState isInit
      cases hq : m.q.pars with
      | none => simp [hq, hm]
      | some ps => simp [hq]
    refine ⟨(lstep o (run i) l2 (.ranges .fix)).1, ?_, e2.weight, e2.bias, e2.training, e2.quantW,
      e2.quantA, ?_, ?_, ?_⟩
    · rw [← h]; simp [e1]
    · rintro m (rfl | rfl)
      · obtain ⟨a1, _, a2, a3⟩ := hst l2.wm (by rw [e2.wst]; simp)
        exact ⟨a1.trans (e2.wtr.trans (by simp)), a2, a3⟩
      · obtain ⟨a1, _, a2, a3⟩ := hst l2.am (by rw [e2.ast]; simp)
        exact ⟨a1.trans (e2.atr.trans (by simp)), a2, a3⟩
    · rintro ⟨b, hb, x, hx⟩
      have hmem : ∃ x, (i, x) ∈ (loader.take (n + 1)).flatten := ⟨x, List.mem_flatten.2 ⟨b, hb, hx⟩⟩
      have ha : (lstep o (run i) l2 (.ranges .fix)).1.am.q = l2.am.q := (hst l2.am (by rw [e2.ast]; simp)).2.1
      have hw : (lstep o (run i) l2 (.ranges .fix)).1.wm.q = l2.wm.q := (hst l2.wm (by rw [e2.wst]; simp)).2.1
      rw [ha, hw]
      have conv : ∀ q : Quantizer, isInit q = true → q.pars ≠ none := by
        intro q hq; unfold isInit at hq; exact Option.isSome_iff_ne_none.1 hq
      refine ⟨fun hA => ?_, fun hW hc => ?_⟩
      · exact conv _ (e5 hmem (by simpa using hA))
      · apply conv
        have := e3 (by simp [hc])
        exact this.2 hmem hW
    · intro h1 h2
      have hw : (lstep o (run i) l2 (.ranges .fix)).1.wm.q = l2.wm.q := (hst l2.wm (by rw [e2.wst]; simp)).2.1
      rw [hw, (e4 trivial (by simpa using h2)).1]
      simp

/-- **C50** (frozen).  Once both quantizers of a layer are fixed, no sequence of forward passes, mode
switches, weight changes and other calls (except a new choice of the range state) changes their
ranges. -/
theorem C50_frozen {X : Type} (o : Optimizer) (run : LayerOp X) (l : Layer)
    (hw : l.wm.st = .fix) (ha : l.am.st = .fix) (cs : List (LCmd X)) (hcs : ∀ s, .ranges s ∉ cs) :
    let l' := (lrun o run l cs).1
    l'.wm.q.pars = l.wm.q.pars ∧ l'.wm.q.signed = l.wm.q.signed ∧
    l'.am.q.pars = l.am.q.pars ∧ l'.am.q.signed = l.am.q.signed := by
  induction cs generalizing l with
  | nil => exact ⟨rfl, rfl, rfl, rfl⟩
  | cons c cs ih =>
    have hrest : ∀ s, (.ranges s : LCmd X) ∉ cs := fun s h => hcs s (List.mem_cons_of_mem _ h)
    have hstep : (lstep o run l c).1.wm.st = .fix ∧ (lstep o run l c).1.am.st = .fix ∧
        (lstep o run l c).1.wm.q.pars = l.wm.q.pars ∧ (lstep o run l c).1.wm.q.signed = l.wm.q.signed ∧
        (lstep o run l c).1.am.q.pars = l.am.q.pars ∧ (lstep o run l c).1.am.q.signed = l.am.q.signed := by
      cases c with
      | forward x =>
        obtain ⟨k1, _, _, k4, k5, _⟩ := layerForward_kept o run l x
        have u1 : updates l.wm = false := by unfold updates; rw [hw]; rfl
        have u2 : updates l.am = false := by unfold updates; rw [ha]; rfl
        exact ⟨k1.wst.trans hw, k1.ast.trans ha, (k4 u1).1, (k4 u1).2, (k5 u2).1, (k5 u2).2⟩
      | ranges s => exact absurd List.mem_cons_self (hcs s)
      | _ => exact ⟨hw, ha, rfl, rfl, rfl, rfl⟩
    obtain ⟨s1, s2, s3, s4, s5, s6⟩ := hstep
    obtain ⟨r1, r2, r3, r4⟩ := ih (lstep o run l c).1 s1 s2 hrest
    simp only [lrun]
    exact ⟨r1.trans s3, r2.trans s4, r3.trans s5, r4.trans s6⟩

/-! ### Concrete case -/

def exCalQ : Quantizer := { sym := false, nBits := 3, eps := 1 / 100 }

/-- A layer with quantised weights and activations whose operation is the identity on the input. -/
def exCalLayer : Layer :=
  { wrank := 2, weight := [[1, 2]], bias := none, quantW := true, quantA := true
    wm := newMgr exCalQ (.current none) none, am := newMgr exCalQ .allMinMax none }

def exCalRun : Nat → LayerOp (List Vec) := fun _ _ _ x => (2, x)

/-- Two batches with `max_num_batches = 0`: the first one is still used, and both quantizers are
fixed. -/
example :
    let r := calibrateQ exOpt exCalRun 0 [exCalLayer] [[(0, [[1, 7]])], [(0, [[1, 1000]])]]
    r.2 = none ∧ r.1.map (fun l => (l.training, l.wm.st, l.am.st, l.am.q.pars.isSome)) =
      [(false, .fix, .fix, true)] ∧
    r.1.map (·.am.q.pars) =
      (calibrateQ exOpt exCalRun 0 [exCalLayer] [[(0, [[1, 7]])]]).1.map (·.am.q.pars) := by
  decide +kernel

/-- A layer that is never called stays in the estimating state. -/
example : (calibrateQ exOpt exCalRun 0 [exCalLayer, exCalLayer] [[(0, [[1, 7]])]]).1.map (·.am.st) =
    [.fix, .estimate] := by decide +kernel

end Aihw.Quant

import Verif.Quant.Layer
import Verif.Quant.MgrProps

/-!
# Properties of quantised layers and their cache (C49)
-/
namespace Aihw.Quant
open Spec

theorem adjustView_idem {q q' : Quantizer} {rank : Nat} (h : adjustView q rank = .ok q') :
    adjustView q' rank = .ok q' := by
  unfold adjustView at h ⊢
  rcases q with ⟨a, b, c, d, e, f, g, i, j⟩
  cases e <;> cases d <;> simp at h
  · subst h; simp
  · cases j <;> simp at h
    · cases g <;> simp at h
      by_cases c : rank = 1 <;> simp [c] at h <;> subst h <;> simp [c]
    · subst h; simp
  · subst h; simp
  · subst h; simp

theorem forward_idem {q q' : Quantizer} {rank : Nat} {rows w : List Vec}
    (h : forward q rank rows = .ok (q', w)) : forward q' rank rows = .ok (q', w) := by
  unfold forward at h ⊢
  cases ha : adjustView q rank with
  | error e => rw [ha] at h; simp [bind, Except.bind] at h
  | ok q1 =>
    rw [ha] at h
    have hi := adjustView_idem ha
    simp only [bind, Except.bind] at h
    cases hs : signOf q1 with
    | error e => rw [hs] at h; simp at h
    | ok sg =>
      rw [hs] at h
      simp only at h
      cases hp : paramsFor q1 rank rows.length with
      | error e => rw [hp] at h; simp at h
      | ok ps =>
        rw [hp] at h
        simp only [pure, Except.pure, Except.ok.injEq, Prod.mk.injEq] at h
        obtain ⟨h1, h2⟩ := h
        subst h1
        simp [bind, Except.bind, hi, hs, hp, pure, Except.pure, h2]

theorem store_idem {o : Option (List Par)} {ps r : List Par} (h : store o ps = .ok r) :
    store (some r) ps = .ok r := by
  unfold store at h
  match o, ps with
  | none, ps =>
    simp at h; subst h
    match ps with
    | [] => simp [store]
    | [p] => simp [store]
    | _ :: _ :: _ => simp [store]
  | some o, [p] => simp at h; subst h; simp [store]
  | some o, [] =>
    by_cases c : ([] : List Par).length = o.length
    · simp only [c, if_true, Except.ok.injEq] at h; subst h; simp [store]
    · simp only [c, if_false] at h; simp at h
  | some o, a :: b :: ps =>
    by_cases c : (a :: b :: ps).length = o.length
    · simp only [c, if_true, Except.ok.injEq] at h; subst h; simp [store]
    · simp only [c, if_false] at h; simp at h

/-- Setting the same range again changes nothing. -/
theorem set_idem {q q1 : Quantizer} {rs : List (ℚ × ℚ)} (h : setQuantRange q rs = .ok q1) :
    setQuantRange q1 rs = .ok q1 := by
  have hkeep := h
  obtain ⟨pz, e1, _⟩ := set_params h
  unfold setQuantRange at h
  by_cases c1 : 1 < rs.length ∧ q.perChannel = false ∧ q.axis = none
  · rw [if_pos c1] at h; simp at h
  · rw [if_neg c1] at h
    by_cases c2 : rs = []
    · rw [if_pos c2] at h; simp at h
    · rw [if_neg c2] at h
      simp only at h
      by_cases c3 : q.sym = true ∧ anyNeg (rs.map (tensorize q)) = true ∧ q.nBits = 0
      · rw [if_pos c3] at h; simp at h
      · rw [if_neg c3] at h
        cases hm : rs.mapM (parOf q (anyNeg (rs.map (tensorize q)))) with
        | error e => rw [hm] at h; simp [bind, Except.bind] at h
        | ok ps =>
          rw [hm] at h
          simp only [bind, Except.bind] at h
          cases hst : store q.pars ps with
          | error e => rw [hst] at h; simp at h
          | ok r =>
            rw [hst] at h
            simp only [pure, Except.pure, Except.ok.injEq] at h
            subst h
            have ht : ∀ x : Quantizer, x.eps = q.eps → rs.map (tensorize x) = rs.map (tensorize q) := by
              intro x hx; apply List.map_congr_left; intro r _; simp [tensorize, hx]
            unfold setQuantRange
            rw [if_neg c1, if_neg c2]
            simp only
            have ht' := ht { q with pars := some r, signed := if q.sym = true then some (anyNeg (rs.map (tensorize q))) else q.signed } rfl
            rw [ht', if_neg c3]
            have hp : ∀ sg, parOf { q with pars := some r, signed := if q.sym = true then some (anyNeg (rs.map (tensorize q))) else q.signed } sg = parOf q sg := by
              intro sg; funext r; rfl
            rw [hp, hm]
            simp only [bind, Except.bind, store_idem hst, pure, Except.pure]
            by_cases c : q.sym = true <;> simp [c]

/-- Estimating the same batch again changes nothing (current and all min-max). -/
theorem est_idem {o : Optimizer} {q q' : Quantizer} {e e' : Est} {rows : List Vec} {s : List (ℚ × ℚ)}
    (hk : (∃ pc, e.kind = .current pc) ∨ e.kind = .allMinMax)
    (h : estForward o q e rows = .ok (e', s)) : estForward o q' e' rows = .ok (e', s) := by
  have hk3 : (∃ pc, e.kind = .current pc) ∨ e.kind = .allMinMax ∨ ∃ m, e.kind = .running m := by
    rcases hk with h | h
    · exact Or.inl h
    · exact Or.inr (Or.inl h)
  have he := estForward_kind hk3 h
  subst he
  unfold estForward at h ⊢
  rcases hk with ⟨pc, hk⟩ | hk
  · simp only [hk] at h ⊢
    have : currentStat { e with kind := .current pc, cur := some s } pc rows = currentStat e pc rows := rfl
    simp only [bind, Except.bind] at h ⊢
    rw [this]
    cases hs : currentStat e pc rows with
    | error err => rw [hs] at h; simp at h
    | ok s' =>
      rw [hs] at h
      simp [pure, Except.pure] at h ⊢
      exact h
  · simp only [hk] at h ⊢
    simp only [bind, Except.bind] at h ⊢
    cases hs : batchStat e.perChannel rows with
    | error err => rw [hs] at h; simp at h
    | ok s' =>
      rw [hs] at h
      simp only at h ⊢
      have key : combine allUpd s s' = .ok s := by
        cases hc : e.cur with
        | none =>
          rw [hc] at h
          simp [pure, Except.pure] at h
          rw [← h]
          unfold combine
          rw [if_pos rfl]
          congr 1
          apply List.ext_getElem
          · simp
          · intro i h1 h2
            simp [allUpd]
        | some c =>
          rw [hc] at h
          simp only at h
          unfold combine at h ⊢
          by_cases hl : c.length = s'.length
          · rw [if_pos hl] at h
            simp [pure, Except.pure] at h
            have hl2 : s.length = s'.length := by rw [← h]; simp [hl]
            rw [if_pos hl2]
            congr 1
            rw [← h]
            apply List.ext_getElem
            · simp [hl]
            · intro i h1 h2
              simp [allUpd]
          · rw [if_neg hl] at h; simp at h
      rw [key]
      simp [pure, Except.pure]

/-- A successful forward pass of a manager, repeated on the same tensor, returns the same and leaves
the manager as it is, unless it re-estimates with a running or MSE estimator. -/
theorem mgr_idem {o : Optimizer} {m m' : Mgr} {rank : Nat} {rows w : List Vec}
    (hk : (∀ e, m.est = some e → (∃ pc, e.kind = .current pc) ∨ e.kind = .allMinMax) ∨ updates m = false)
    (h : mgrForward o m rank rows = (m', .ok w)) :
    mgrForward o m' rank rows = (m', .ok w) ∧
      (m'.st = m.st ∧ m'.training = m.training) := by
  cases he : m.est with
  | none => simp [mgrForward, he] at h
  | some e =>
    by_cases hu : updates m = true
    · have hk' : (∃ pc, e.kind = .current pc) ∨ e.kind = .allMinMax := by
        rcases hk with h | h
        · exact h e he
        · rw [h] at hu; simp at hu
      obtain ⟨e', s, q1, q2, h1, h2, h3, hm⟩ := mgrForward_upd he hu h
      have hu' : updates m' = true := by rw [hm]; exact hu
      refine ⟨?_, by rw [hm], by rw [hm]⟩
      have e1 : m'.est = some e' := by rw [hm]
      unfold mgrForward
      rw [e1]
      simp only [hu', if_true]
      unfold mgrEstimate
      rw [est_idem hk' h1]
      simp only
      have hfr := mgrQuant_frame { est := none, q := q1 } rank rows
      simp only [mgrQuant, h3] at hfr
      have hq2 := congrArg Mgr.q hfr
      simp only at hq2
      have hset : setQuantRange m'.q s = .ok m'.q := by
        rw [hm]
        simp only
        rw [hq2, set_view, set_idem h2]
        rfl
      rw [hset]
      simp only [mgrQuant]
      have : forward m'.q rank rows = .ok (q2, w) := by rw [hm]; exact forward_idem h3
      rw [this]
      simp only
      rw [hm]
    · have hu2 : updates m = false := by simpa using hu
      have e0 : ∀ a : Mgr, a.est = some e → updates a = false → mgrForward o a rank rows = mgrQuant a rank rows := by
        intro a h1 h2
        unfold mgrForward
        rw [h1]; simp only [h2, Bool.false_eq_true, if_false]
      rw [e0 m he hu2] at h
      have hfr := mgrQuant_frame m rank rows
      rw [h] at hfr
      simp only at hfr
      have hu' : updates m' = false := by rw [hfr]; exact hu2
      refine ⟨?_, by rw [hfr], by rw [hfr]⟩
      rw [e0 m' (by rw [hfr]; exact he) hu']
      unfold mgrQuant at h ⊢
      cases hf : forward m.q rank rows with
      | error err => rw [hf] at h; simp at h
      | ok r =>
        obtain ⟨q', ys⟩ := r
        rw [hf] at h
        simp only [Prod.mk.injEq, Except.ok.injEq] at h
        obtain ⟨h1, h2⟩ := h
        subst h2
        have : forward m'.q rank rows = .ok (q', ys) := by rw [← h1]; exact forward_idem hf
        rw [this]
        simp only
        rw [← h1]

/-! ## The cache -/

/-- Histories in which weights and range states are changed only while the layer is in training mode
(`t` is the present mode), and the caching switch is left alone. -/
def Safe {X : Type} : Bool → List (LCmd X) → Prop
  | _, [] => True
  | _, .train b :: cs => Safe b cs
  | t, .setWeights _ _ :: cs => t = true ∧ Safe t cs
  | t, .ranges _ :: cs => t = true ∧ Safe t cs
  | _, .caching _ :: _ => False
  | t, .forward _ :: cs => Safe t cs
  | t, .quantWeights _ :: cs => Safe t cs
  | t, .quantActs _ :: cs => Safe t cs
  | t, .moved :: cs => Safe t cs

/-- The weight manager re-estimates reproducibly, or not at all in evaluation. -/
def Repro (m : Mgr) : Prop :=
  (∀ e, m.est = some e → (∃ pc, e.kind = .current pc) ∨ e.kind = .allMinMax) ∨ m.st ≠ .estimate

/-- The cached parameters are what the layer would compute now. -/
def Coherent (o : Optimizer) (l : Layer) (c : List Vec × Option Vec) : Prop :=
  l.training = false ∧ c.2 = l.bias ∧ (l.quantW = false → c.1 = l.weight) ∧
    (l.quantW = true → mgrForward o l.wm l.wrank l.weight = (l.wm, .ok c.1))

def CacheRel (o : Optimizer) (a b : Layer) : Prop :=
  b = { a with caching := false, cached := none } ∧ a.wm.training = a.training ∧
    ∀ c, a.cached = some c → Coherent o a c

theorem mgrForward_frame {o : Optimizer} {m m' : Mgr} {rank : Nat} {rows : List Vec} {r}
    (h : mgrForward o m rank rows = (m', r)) : m'.st = m.st ∧ m'.training = m.training := by
  cases he : m.est with
  | none => simp [mgrForward, he] at h; rw [← h.1]; exact ⟨rfl, rfl⟩
  | some e =>
    have hq : ∀ a : Mgr, (mgrQuant a rank rows).1.st = a.st ∧ (mgrQuant a rank rows).1.training = a.training := by
      intro a; rw [mgrQuant_frame a]; exact ⟨rfl, rfl⟩
    unfold mgrForward at h
    rw [he] at h
    simp only at h
    by_cases hu : updates m = true
    · simp only [hu, if_true] at h
      unfold mgrEstimate at h
      cases h1 : estForward o m.q e rows with
      | error err => rw [h1] at h; simp at h; rw [← h.1]; exact ⟨rfl, rfl⟩
      | ok v =>
        obtain ⟨e', s⟩ := v
        rw [h1] at h
        simp only at h
        cases h2 : setQuantRange m.q s with
        | error err => rw [h2] at h; simp at h; rw [← h.1]; exact ⟨rfl, rfl⟩
        | ok q1 =>
          rw [h2] at h
          simp only at h
          have := hq { m with est := some e', q := q1 }
          rw [h] at this
          exact this
    · simp only [hu] at h
      have := hq m
      simp only [Bool.false_eq_true, if_false] at h
      rw [h] at this
      exact this

/-- The kind of the estimator never changes. -/
theorem mgrForward_kind {o : Optimizer} {m m' : Mgr} {rank : Nat} {rows : List Vec} {r}
    (h : mgrForward o m rank rows = (m', r))
    (hk : ∀ e, m.est = some e → (∃ pc, e.kind = .current pc) ∨ e.kind = .allMinMax) :
    ∀ e, m'.est = some e → (∃ pc, e.kind = .current pc) ∨ e.kind = .allMinMax := by
  cases he : m.est with
  | none => simp [mgrForward, he] at h; rw [← h.1]; exact hk
  | some e =>
    have hke := hk e he
    have hk3 : (∃ pc, e.kind = .current pc) ∨ e.kind = .allMinMax ∨ ∃ m, e.kind = .running m := by
      rcases hke with h | h
      · exact Or.inl h
      · exact Or.inr (Or.inl h)
    have hq : ∀ a : Mgr, (mgrQuant a rank rows).1.est = a.est := by
      intro a; rw [mgrQuant_frame a]
    unfold mgrForward at h
    rw [he] at h
    simp only at h
    by_cases hu : updates m = true
    · simp only [hu, if_true] at h
      unfold mgrEstimate at h
      cases h1 : estForward o m.q e rows with
      | error err => rw [h1] at h; simp at h; rw [← h.1]; exact hk
      | ok v =>
        obtain ⟨e', s⟩ := v
        have hk' := estForward_kind hk3 h1
        rw [h1] at h
        simp only at h
        cases h2 : setQuantRange m.q s with
        | error err =>
          rw [h2] at h; simp at h; rw [← h.1]
          intro e2 h2; simp at h2; rw [← h2, hk']; exact hke
        | ok q1 =>
          rw [h2] at h
          simp only at h
          have := hq { m with est := some e', q := q1 }
          rw [h] at this
          intro e2 h2; rw [this] at h2; simp at h2; rw [← h2, hk']; exact hke
    · simp only [hu] at h
      have := hq m
      simp only [Bool.false_eq_true, if_false] at h
      rw [h] at this
      intro e2 h2
      rw [this] at h2
      exact hk e2 h2

theorem repro_forward {o : Optimizer} {m m' : Mgr} {rank : Nat} {rows : List Vec} {r}
    (h : mgrForward o m rank rows = (m', r)) (hr : Repro m) : Repro m' := by
  rcases hr with h1 | h1
  · exact Or.inl (mgrForward_kind h h1)
  · right; rw [(mgrForward_frame h).1]; exact h1

theorem freshParams_eq (o : Optimizer) (l : Layer) :
    freshParams o l = if l.quantW then
      ({ l with wm := (mgrForward o l.wm l.wrank l.weight).1 },
        (mgrForward o l.wm l.wrank l.weight).2.map fun w => (w, l.bias))
      else (l, .ok (l.weight, l.bias)) := by
  unfold freshParams
  cases l.quantW with
  | false => rfl
  | true =>
    simp only [if_true]
    cases h : mgrForward o l.wm l.wrank l.weight with
    | mk a b => cases b <;> rfl

theorem getParams_rel {o : Optimizer} {a b : Layer} (h : CacheRel o a b) (hr : Repro a.wm) :
    (getParams o a).2 = (getParams o b).2 ∧ CacheRel o (getParams o a).1 (getParams o b).1 ∧
      Repro (getParams o a).1.wm ∧ (getParams o a).1.training = a.training := by
  obtain ⟨hb, htr, hco⟩ := h
  by_cases hc : ∃ c, a.cached = some c
  · obtain ⟨c, hc⟩ := hc
    obtain ⟨h1, h2, h3, h4⟩ := hco c hc
    have ea : getParams o a = (a, .ok c) := by unfold getParams; rw [h1, hc]
    have hcb : c = (c.1, b.bias) := by rw [hb]; rw [← h2]
    have eb : getParams o b = (b, .ok c) := by
      unfold getParams
      have : b.cached = none := by rw [hb]
      rw [this]
      have hf : freshParams o b = (b, .ok c) := by
        rw [freshParams_eq]
        by_cases hq : a.quantW = true
        · have hq' : b.quantW = true := by rw [hb]; exact hq
          rw [if_pos hq']
          have := h4 hq
          have hbw : mgrForward o b.wm b.wrank b.weight = (b.wm, .ok c.1) := by rw [hb]; exact this
          rw [hbw]
          simp only [Except.map]
          rw [← hcb]
        · have hq0 : a.quantW = false := by simpa using hq
          have hq' : b.quantW = false := by rw [hb]; exact hq0
          rw [hq']
          simp only [Bool.false_eq_true, if_false]
          have : c.1 = b.weight := by rw [hb]; exact h3 hq0
          rw [← this, ← hcb]
      have hcach : b.caching = false := by rw [hb]
      simp only [hf, hcach, Bool.false_and, Bool.false_eq_true, if_false]
      cases b.training <;> rfl
    rw [ea, eb]
    exact ⟨rfl, ⟨hb, htr, hco⟩, hr, rfl⟩
  · have hn : a.cached = none := by
      cases h : a.cached with
      | none => rfl
      | some c => exact absurd ⟨c, h⟩ hc
    have hnb : b.cached = none := by rw [hb]
    have hcb : b.caching = false := by rw [hb]
    have gp : ∀ l : Layer, l.cached = none → getParams o l = (match freshParams o l with
        | (l', .error e) => (l', .error e)
        | (l', .ok p) =>
          ((if l'.caching && !l'.training && l'.cached.isNone then { l' with cached := some p } else l'), .ok p)) := by
      intro l hl
      unfold getParams
      rw [hl]
      cases l.training <;> rfl
    rw [gp a hn, gp b hnb, freshParams_eq, freshParams_eq]
    by_cases hq : a.quantW = true
    · have hq' : b.quantW = true := by rw [hb]; exact hq
      rw [if_pos hq, if_pos hq']
      have ew : mgrForward o b.wm b.wrank b.weight = mgrForward o a.wm a.wrank a.weight := by rw [hb]
      have eb : b.bias = a.bias := by rw [hb]
      rw [ew, eb]
      cases hm : mgrForward o a.wm a.wrank a.weight with
      | mk wm' r =>
        have hfr := mgrForward_frame hm
        have hrep := repro_forward hm hr
        cases r with
        | error err =>
          simp only [Except.map]
          refine ⟨trivial, ⟨?_, ?_, ?_⟩, hrep, trivial⟩
          · rw [hb]
          · simp only; rw [hfr.2]; exact htr
          · intro c h; simp only at h; rw [hn] at h; simp at h
        | ok w =>
          simp only [Except.map, hcb, hn, Bool.false_and, Bool.false_eq_true, if_false, Option.isNone_none, Bool.and_true]
          by_cases hcc : (a.caching && !a.training) = true
          · rw [if_pos hcc]
            have htf : a.training = false := by
              cases h : a.training with
              | false => rfl
              | true => rw [h] at hcc; simp at hcc
            refine ⟨trivial, ⟨by rw [hb], by simp only; rw [hfr.2]; exact htr, ?_⟩, hrep, rfl⟩
            intro c h
            simp only [Option.some.injEq] at h
            subst h
            refine ⟨htf, rfl, fun h => by simp only at h; rw [hq] at h; simp at h, fun _ => ?_⟩
            simp only
            refine (mgr_idem ?_ hm).1
            rcases hr with h | h
            · exact Or.inl h
            · right
              unfold updates
              rw [htr, htf]
              simp [h]
          · rw [if_neg hcc]
            refine ⟨trivial, ⟨by rw [hb], by simp only; rw [hfr.2]; exact htr, ?_⟩, hrep, rfl⟩
            intro c h; simp at h
    · have hq0 : a.quantW = false := by simpa using hq
      have hq' : b.quantW = false := by rw [hb]; exact hq0
      rw [hq0, hq']
      have eb : b.bias = a.bias := by rw [hb]
      have ew : b.weight = a.weight := by rw [hb]
      simp only [Bool.false_eq_true, if_false, hcb, hn, Bool.false_and, Option.isNone_none, Bool.and_true, eb, ew]
      by_cases hcc : (a.caching && !a.training) = true
      · rw [if_pos hcc]
        have htf : a.training = false := by
          cases h : a.training with
          | false => rfl
          | true => rw [h] at hcc; simp at hcc
        refine ⟨trivial, ⟨by rw [hb], htr, ?_⟩, hr, rfl⟩
        intro c h
        simp only [Option.some.injEq] at h
        subst h
        exact ⟨htf, rfl, fun _ => rfl, fun h => by simp only at h; rw [hq0] at h; simp at h⟩
      · rw [if_neg hcc]
        exact ⟨trivial, ⟨hb, htr, hco⟩, hr, rfl⟩

theorem quantActs_frame (o : Optimizer) (l : Layer) (x : Nat × List Vec) :
    (quantActs o l x).1 = { l with am := (quantActs o l x).1.am } := by
  unfold quantActs
  by_cases h : l.quantA = true
  · rw [if_pos h]
  · rw [if_neg h]

theorem getParams_wm (o : Optimizer) (a : Layer) :
    (getParams o a).1.wm = a.wm ∨ (getParams o a).1.wm = (freshParams o a).1.wm := by
  have gen : ∀ f : Layer × Except PyErr (List Vec × Option Vec),
      (match f with
        | (l', Except.error e) => ((l', .error e) : Layer × Except PyErr (List Vec × Option Vec))
        | (l', Except.ok p) =>
          ((if l'.caching && !l'.training && l'.cached.isNone then { l' with cached := some p } else l'), .ok p)).1.wm
        = f.1.wm := by
    rintro ⟨l', r⟩
    cases r with
    | error e => rfl
    | ok p => simp only; split <;> rfl
  unfold getParams
  cases a.training with
  | true => exact Or.inr (gen _)
  | false =>
    cases a.cached with
    | none => exact Or.inr (gen _)
    | some c => exact Or.inl rfl

theorem forward_rel {X : Type} {o : Optimizer} {run : LayerOp X} {a b : Layer} (h : CacheRel o a b)
    (hr : Repro a.wm) (x : X) :
    (layerForward o run a x).2 = (layerForward o run b x).2 ∧
      CacheRel o (layerForward o run a x).1 (layerForward o run b x).1 ∧
      Repro (layerForward o run a x).1.wm ∧ (layerForward o run a x).1.training = a.training := by
  obtain ⟨h1, h2, h3, h4⟩ := getParams_rel h hr
  unfold layerForward
  cases ha : getParams o a with
  | mk a1 ra =>
    cases hb : getParams o b with
    | mk b1 rb =>
      rw [ha, hb] at h1 h2
      rw [ha] at h3 h4
      simp only at h1 h2 h3 h4
      subst h1
      cases ra with
      | error err => exact ⟨rfl, h2, h3, h4⟩
      | ok p =>
        simp only
        obtain ⟨hb1, ht1, hc1⟩ := h2
        have e1 : (quantActs o b1 (run p.1 p.2 x)).2 = (quantActs o a1 (run p.1 p.2 x)).2 ∧
            (quantActs o b1 (run p.1 p.2 x)).1.am = (quantActs o a1 (run p.1 p.2 x)).1.am := by
          rw [hb1]; unfold quantActs
          by_cases hq : a1.quantA = true
          · simp only [hq, if_true]; exact ⟨trivial, trivial⟩
          · simp only [if_neg hq]; exact ⟨trivial, trivial⟩
        have ea := quantActs_frame o a1 (run p.1 p.2 x)
        refine ⟨e1.1.symm, ⟨?_, ?_, ?_⟩, ?_, ?_⟩
        · rw [quantActs_frame o b1, e1.2, ea, hb1]
        · rw [ea]; exact ht1
        · rw [ea]; exact hc1
        · rw [ea]; exact h3
        · rw [ea]; exact h4

/-- **C49** (the cache is transparent).  If weights and range states are changed only in training
mode, then for every sequence of calls a layer with the parameter cache returns exactly what the same
layer returns with `caching = False`, provided its weight ranges are estimated with the current or
all-min-max estimator or the layer is never put into the `estimate_ranges` state. -/
theorem C49_cache_transparent {X : Type} (o : Optimizer) (run : LayerOp X) (l : Layer)
    (hc : l.cached = none) (ht : l.wm.training = l.training) (cs : List (LCmd X))
    (hs : Safe l.training cs)
    (hr : (∀ e, l.wm.est = some e → (∃ pc, e.kind = .current pc) ∨ e.kind = .allMinMax) ∨
      (l.wm.st ≠ .estimate ∧ .ranges .estimate ∉ cs)) :
    (lrun o run l cs).2 = (lrun o run { l with caching := false } cs).2 := by
  have main : ∀ (cs : List (LCmd X)) (a b : Layer), CacheRel o a b → Safe a.training cs →
      ((∀ e, a.wm.est = some e → (∃ pc, e.kind = .current pc) ∨ e.kind = .allMinMax) ∨
        (a.wm.st ≠ .estimate ∧ .ranges .estimate ∉ cs)) →
      (lrun o run a cs).2 = (lrun o run b cs).2 := by
    intro cs
    induction cs with
    | nil => intro a b _ _ _; rfl
    | cons c cs ih =>
      intro a b hab hsafe hr
      have hrep : Repro a.wm := by
        rcases hr with h | h
        · exact Or.inl h
        · exact Or.inr h.1
      simp only [lrun]
      have key : (lstep o run a c).2 = (lstep o run b c).2 ∧
          CacheRel o (lstep o run a c).1 (lstep o run b c).1 ∧ Safe (lstep o run a c).1.training cs ∧
          ((∀ e, (lstep o run a c).1.wm.est = some e → (∃ pc, e.kind = .current pc) ∨ e.kind = .allMinMax) ∨
            ((lstep o run a c).1.wm.st ≠ .estimate ∧ .ranges .estimate ∉ cs)) := by
        have hr' : ∀ wm' : Mgr, wm'.est = a.wm.est → wm'.st = a.wm.st →
            ((∀ e, wm'.est = some e → (∃ pc, e.kind = .current pc) ∨ e.kind = .allMinMax) ∨
            (wm'.st ≠ .estimate ∧ .ranges .estimate ∉ cs)) := by
          intro wm' h1 h2
          rw [h1, h2]
          rcases hr with h | h
          · exact Or.inl h
          · exact Or.inr ⟨h.1, fun hm => h.2 (by simp [hm])⟩
        have hab' := hab
        obtain ⟨hb, htr, hco⟩ := hab
        cases c with
        | train t =>
          refine ⟨rfl, ⟨?_, rfl, ?_⟩, hsafe, hr' _ rfl rfl⟩
          · simp only [lstep]; rw [hb]; simp
          · intro c hcc
            simp only [lstep] at hcc ⊢
            cases t with
            | true => simp at hcc
            | false =>
              simp only [Bool.false_eq_true, if_false] at hcc
              obtain ⟨x1, x2, x3, x4⟩ := hco c hcc
              have : ({ a.wm with training := false } : Mgr) = a.wm := by
                rw [← x1, ← htr]
              rw [this]
              exact ⟨rfl, x2, x3, x4⟩
        | forward x =>
          obtain ⟨y1, y2, y3, y4⟩ := forward_rel (run := run) hab' hrep x
          refine ⟨y1, y2, by simp only [lstep]; rw [y4]; exact hsafe, ?_⟩
          simp only [lstep]
          rcases hr with h | h
          · left
            -- the kind is preserved
            have : ∀ e, (getParams o a).1.wm.est = some e → (∃ pc, e.kind = .current pc) ∨ e.kind = .allMinMax := by
              have hfp : ∀ e, (freshParams o a).1.wm.est = some e → (∃ pc, e.kind = .current pc) ∨ e.kind = .allMinMax := by
                rw [freshParams_eq]
                by_cases hq : a.quantW = true
                · rw [if_pos hq]
                  cases hm : mgrForward o a.wm a.wrank a.weight with
                  | mk wm' r => exact mgrForward_kind hm h
                · rw [if_neg hq]; exact h
              have hgp : (getParams o a).1.wm = a.wm ∨ (getParams o a).1.wm = (freshParams o a).1.wm := getParams_wm o a
              intro e he
              rcases hgp with h1 | h1
              · rw [h1] at he; exact h e he
              · rw [h1] at he; exact hfp e he
            intro e he
            apply this e
            rw [← he]
            unfold layerForward
            cases hg : getParams o a with
            | mk l1 r =>
              cases r with
              | error err => rfl
              | ok p => simp only; rw [quantActs_frame]
          · right
            refine ⟨?_, fun hm => h.2 (by simp [hm])⟩
            -- the state is preserved
            have hfp : (freshParams o a).1.wm.st = a.wm.st := by
              rw [freshParams_eq]
              by_cases hq : a.quantW = true
              · rw [if_pos hq]
                cases hm : mgrForward o a.wm a.wrank a.weight with
                | mk wm' r => exact (mgrForward_frame hm).1
              · rw [if_neg hq]
            have hgp : (getParams o a).1.wm = a.wm ∨ (getParams o a).1.wm = (freshParams o a).1.wm := getParams_wm o a
            have hlf : (layerForward o run a x).1.wm = (getParams o a).1.wm := by
              unfold layerForward
              cases hg : getParams o a with
              | mk l1 r =>
                cases r with
                | error err => rfl
                | ok p => simp only; rw [quantActs_frame]
            rw [hlf]
            rcases hgp with h1 | h1
            · rw [h1]; exact h.1
            · rw [h1, hfp]; exact h.1
        | setWeights w bb =>
          obtain ⟨htt, hsafe⟩ := hsafe
          refine ⟨rfl, ⟨by simp only [lstep]; rw [hb], htr, ?_⟩, hsafe, hr' _ rfl rfl⟩
          intro c hcc
          have := (hco c hcc).1
          rw [htt] at this; simp at this
        | quantWeights on =>
          refine ⟨rfl, ⟨by simp only [lstep]; rw [hb], htr, ?_⟩, hsafe, hr' _ rfl rfl⟩
          intro c hcc; simp [lstep] at hcc
        | quantActs on =>
          refine ⟨rfl, ⟨by simp only [lstep]; rw [hb], htr, ?_⟩, hsafe, hr' _ rfl rfl⟩
          intro c hcc; exact hco c hcc
        | caching on => exact absurd hsafe id
        | ranges s =>
          obtain ⟨htt, hsafe⟩ := hsafe
          refine ⟨rfl, ⟨by simp only [lstep]; rw [hb], ?_, ?_⟩, hsafe, ?_⟩
          · simp only [lstep, setState]
            by_cases hh : (s = .fix ∨ s = .learn) ∧ isInit a.wm.q = false
            · rw [if_pos hh]; exact htr
            · rw [if_neg hh]; exact htr
          · intro c hcc
            have := (hco c hcc).1
            rw [htt] at this; simp at this
          · simp only [lstep, setState]
            rcases hr with h | h
            · left
              by_cases hh : (s = .fix ∨ s = .learn) ∧ isInit a.wm.q = false
              · rw [if_pos hh]; exact h
              · rw [if_neg hh]; exact h
            · right
              refine ⟨?_, fun hm => h.2 (by simp [hm])⟩
              by_cases hh : (s = .fix ∨ s = .learn) ∧ isInit a.wm.q = false
              · rw [if_pos hh]; exact h.1
              · rw [if_neg hh]
                intro he
                simp only at he
                exact h.2 (by rw [he]; simp)
        | moved =>
          refine ⟨rfl, ⟨by simp only [lstep]; rw [hb], htr, ?_⟩, hsafe, hr' _ rfl rfl⟩
          intro c hcc; simp [lstep] at hcc
      rw [key.1, ih _ _ key.2.1 key.2.2.1 key.2.2.2]
  refine main cs _ _ ⟨by rw [hc], ht, ?_⟩ hs hr
  intro c h
  rw [hc] at h; simp at h

/-! ### Training always uses the present weights -/

/-- The parameters a layer ought to use: the present bias and the present weight, quantised by the
weight manager if weight quantisation is on. -/
def presentParams (o : Optimizer) (l : Layer) : Except PyErr (List Vec × Option Vec) :=
  if l.quantW then (mstep o l.wm (.forward l.wrank l.weight)).2.map fun w => (w, l.bias)
  else .ok (l.weight, l.bias)

/-- The result of a forward pass with given parameters. -/
def outputWith {X : Type} (o : Optimizer) (run : LayerOp X) (l : Layer) (x : X) :
    Except PyErr (List Vec × Option Vec) → Except PyErr (List Vec)
  | .error e => .error e
  | .ok p =>
    if l.quantA then (mstep o l.am (.forward (run p.1 p.2 x).1 (run p.1 p.2 x).2)).2
    else .ok (run p.1 p.2 x).2

theorem layerForward_fresh {X : Type} (o : Optimizer) (run : LayerOp X) (l : Layer) (x : X)
    (h : l.training = true ∨ l.cached = none) :
    (layerForward o run l x).2 = outputWith o run l x (presentParams o l) := by
  have hg : ∃ l1, getParams o l = (l1, presentParams o l) ∧ l1.quantA = l.quantA ∧ l1.am = l.am := by
    have e : getParams o l = (match freshParams o l with
        | (l', .error e) => (l', .error e)
        | (l', .ok p) =>
          ((if l'.caching && !l'.training && l'.cached.isNone then { l' with cached := some p } else l'), .ok p)) := by
      unfold getParams
      rcases h with h | h
      · rw [h]; cases l.cached <;> rfl
      · rw [h]; cases l.training <;> rfl
    rw [e, freshParams_eq]
    unfold presentParams
    by_cases hq : l.quantW = true
    · rw [if_pos hq, if_pos hq]
      simp only [mstep]
      cases hm : mgrForward o l.wm l.wrank l.weight with
      | mk wm' r =>
        cases r with
        | error err => exact ⟨_, rfl, rfl, rfl⟩
        | ok w =>
          simp only [Except.map]
          refine ⟨_, rfl, ?_, ?_⟩ <;> (split <;> rfl)
    · rw [if_neg hq, if_neg hq]
      refine ⟨_, rfl, ?_, ?_⟩ <;> (split <;> rfl)
  obtain ⟨l1, hg, h1, h2⟩ := hg
  unfold layerForward
  rw [hg]
  cases presentParams o l with
  | error e => rfl
  | ok p =>
    simp only [outputWith, quantActs, h1, mstep, h2]
    by_cases hq : l.quantA = true
    · rw [if_pos hq, if_pos hq]
    · rw [if_neg hq, if_neg hq]

/-- **C49** (training uses the present weights).  In training mode, whatever happened before, a forward
pass uses the present weight and bias, the weight quantised by the manager of the weights iff weight
quantisation is on; with both quantisations off the result is exactly the full-precision one. -/
theorem C49_training_fresh {X : Type} (o : Optimizer) (run : LayerOp X) (l : Layer) (x : X)
    (ht : l.training = true) :
    (lstep o run l (.forward x)).2 = outputWith o run l x (presentParams o l) ∧
    (l.quantW = false → l.quantA = false →
      (lstep o run l (.forward x)).2 = .ok (run l.weight l.bias x).2) := by
  have h := layerForward_fresh o run l x (Or.inl ht)
  refine ⟨h, fun h1 h2 => ?_⟩
  simp only [lstep]
  rw [h]
  simp [presentParams, outputWith, h1, h2]

/-- **C49** (refresh).  After `train(True)`, `quantized_weights`, `full_precision_weights`,
`caching = False` or a move to another device or type, and then any switch to evaluation, the next
forward pass uses the present weights. -/
theorem C49_refresh {X : Type} (o : Optimizer) (run : LayerOp X) (l : Layer) (x : X) (c : LCmd X)
    (hc : c = .train true ∨ (∃ on, c = .quantWeights on) ∨ c = .caching false ∨ c = .moved)
    (w : List Vec) (b : Option Vec) (t : Bool) :
    let l1 := (lrun o run l [c, .setWeights w b, .train t]).1
    l1.weight = w ∧ l1.bias = b ∧
    (lstep o run l1 (.forward x)).2 = outputWith o run l1 x (presentParams o l1) := by
  refine ⟨?_, ?_, ?_⟩
  · rcases hc with rfl | ⟨on, rfl⟩ | rfl | rfl <;> rfl
  · rcases hc with rfl | ⟨on, rfl⟩ | rfl | rfl <;> rfl
  · apply layerForward_fresh
    right
    rcases hc with rfl | ⟨on, rfl⟩ | rfl | rfl <;> cases t <;> simp [lrun, lstep]

/-- **C49** (stale cache, exception).  Once a layer has cached its parameters in evaluation mode,
every later sequence of weight changes (`load_state_dict`, optimizer steps), changes of the range
state (for instance `estimate_ranges` before a calibration) and forward passes in evaluation mode
leaves the cached parameters in use: each forward pass is computed with the old weight, the old bias
and the old weight ranges, also if weight quantisation is off. -/
theorem C49_stale_cache {X : Type} (o : Optimizer) (run : LayerOp X) (l : Layer)
    (p : List Vec × Option Vec) (hc : l.cached = some p) (ht : l.training = false)
    (cs : List (LCmd X)) (hcs : ∀ c ∈ cs, (∃ x, c = .forward x) ∨ (∃ w b, c = .setWeights w b) ∨
      (∃ s, c = .ranges s) ∨ (∃ on, c = .quantActs on) ∨ c = .train false ∨ c = .caching true) (x : X) :
    let l1 := (lrun o run l cs).1
    (lstep o run l1 (.forward x)).2 = outputWith o run l1 x (.ok p) := by
  have inv : ∀ (cs : List (LCmd X)) (l : Layer), l.cached = some p → l.training = false →
      (∀ c ∈ cs, (∃ x, c = .forward x) ∨ (∃ w b, c = .setWeights w b) ∨
      (∃ s, c = .ranges s) ∨ (∃ on, c = .quantActs on) ∨ c = .train false ∨ c = .caching true) →
      (lrun o run l cs).1.cached = some p ∧ (lrun o run l cs).1.training = false := by
    intro cs
    induction cs with
    | nil => intro l h1 h2 _; exact ⟨h1, h2⟩
    | cons c cs ih =>
      intro l h1 h2 hcs
      simp only [lrun]
      have hc := hcs c (by simp)
      apply ih _ _ _ (fun d hd => hcs d (by simp [hd]))
      · rcases hc with ⟨x, rfl⟩ | ⟨w, b, rfl⟩ | ⟨s, rfl⟩ | ⟨on, rfl⟩ | rfl | rfl
        · have : getParams o l = (l, .ok p) := by unfold getParams; rw [h1, h2]
          simp only [lstep, layerForward, this]
          rw [quantActs_frame]; exact h1
        · exact h1
        · exact h1
        · exact h1
        · simp [lstep, h1]
        · simp [lstep, h1]
      · rcases hc with ⟨x, rfl⟩ | ⟨w, b, rfl⟩ | ⟨s, rfl⟩ | ⟨on, rfl⟩ | rfl | rfl
        · have : getParams o l = (l, .ok p) := by unfold getParams; rw [h1, h2]
          simp only [lstep, layerForward, this]
          rw [quantActs_frame]; exact h2
        · exact h2
        · exact h2
        · exact h2
        · rfl
        · exact h2
  obtain ⟨h1, h2⟩ := inv cs l hc ht hcs
  intro l1
  have : getParams o l1 = (l1, .ok p) := by
    unfold getParams
    have a1 : l1.cached = some p := h1
    have a2 : l1.training = false := h2
    rw [a1, a2]
  simp only [lstep, layerForward, this, outputWith, quantActs, mstep]
  by_cases hq : l1.quantA = true
  · rw [if_pos hq, if_pos hq]
  · rw [if_neg hq, if_neg hq]

/-! ### The hypotheses are met -/

/-- A layer with one weight row that multiplies its input. -/
def exLayer : Layer :=
  { wrank := 2, weight := [[1, 3]], bias := none, quantW := true
    wm := newMgr { sym := false, nBits := 2 } (.current none) none
    am := newMgr { sym := false, nBits := 4 } (.running (9 / 10)) none }
def exRun : LayerOp Vec := fun w _ x => (1, [matVec w x])

/-- Train, evaluate, load other weights in evaluation mode (ignored), switch to training (used). -/
example : (lrun exOpt exRun exLayer [.forward [1, 1], .train false, .forward [1, 1],
      .setWeights [[10, 30]] none, .forward [1, 1], .train true, .forward [1, 1]]).2.map (·.toOption) =
    [some [[4]], some [], some [[4]], some [], some [[4]], some [], some [[40]]] := by
  decide +kernel

/-- A history allowed by `Safe`, with weight changes and evaluation. -/
example : Safe (X := Vec) true [.forward [1], .setWeights [[2, 3]] none, .ranges .estimate, .train false,
    .forward [1], .quantWeights false, .moved, .forward [2], .train true, .setWeights [[1]] none] := by
  simp [Safe]

end Aihw.Quant

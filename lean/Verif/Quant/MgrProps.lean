import Verif.Quant.Manager
import Verif.Quant.EstProps2
import Verif.Quant.Props
import Mathlib.Data.List.GetD

/-!
# Properties of the quantization manager (C48)
-/
namespace Aihw.Quant
open Spec

/-- The ranges as a user sees them: what the quantizer does to a tensor. -/
theorem mgrQuant_frame (m : Mgr) (rank : Nat) (rows : List Vec) :
    (mgrQuant m rank rows).1 = { m with q := { m.q with view := (mgrQuant m rank rows).1.q.view } } := by
  unfold mgrQuant forward
  cases ha : adjustView m.q rank with
  | error e => rfl
  | ok q' =>
    have hv := adjustView_eq ha
    simp only [bind, Except.bind]
    cases signOf q' with
    | error e => rfl
    | ok sg =>
      simp only
      cases paramsFor q' rank rows.length with
      | error e => rfl
      | ok ps =>
        simp only [pure, Except.pure]
        rw [← hv]

/-- The view of a quantizer after `adjustView`. -/
theorem adjustView_view {q q' : Quantizer} {rank : Nat} (h : adjustView q rank = .ok q') :
    q'.view = if q.axis.isSome then some rank
      else if q.perChannel = true ∧ q.view = none ∧ rank ≠ 1 then some rank else q.view := by
  unfold adjustView at h
  rcases q with ⟨a, b, c, d, e, f, g, i, j⟩
  cases e <;> cases d <;> simp at h ⊢
  · subst h; rfl
  · cases j <;> simp at h ⊢
    · cases g <;> simp at h
      by_cases c : rank = 1 <;> simp [c] at h ⊢ <;> subst h <;> rfl
    · subst h; rfl
  · subst h; rfl
  · subst h; rfl

/-- Which views give the same result for inputs of the given rank. -/
theorem forward_view (q : Quantizer) (v : Option Nat) (rank : Nat) (rows : List Vec)
    (h : q.axis.isSome = true ∨ v = q.view) :
    (mgrQuant { est := none, q := { q with view := v } } rank rows).2 =
      (mgrQuant { est := none, q := q } rank rows).2 := by
  rcases h with h | h
  · have : adjustView { q with view := v } rank = adjustView q rank := by
      unfold adjustView
      simp [h]
    unfold mgrQuant forward
    simp only [this]
    cases adjustView q rank with
    | error e => rfl
    | ok q' =>
      simp only [bind, Except.bind]
      cases signOf q' with
      | error e => rfl
      | ok sg =>
        simp only
        cases paramsFor q' rank rows.length <;> rfl
  · rw [eta_view h.symm]

theorem mgrQuant_out (m : Mgr) (rank : Nat) (rows : List Vec) :
    (mgrQuant m rank rows).2 = (mgrQuant { est := none, q := m.q } rank rows).2 := by
  unfold mgrQuant
  cases forward m.q rank rows <;> rfl

/-- A call after which the ranges are certainly the same: a forward pass, or a switch between
training and evaluation when the ranges do not depend on it. -/
def Passive (st : QSt) : MCmd → Prop
  | .forward _ _ => True
  | .train b => st = .estimateTrain → b = false
  | _ => False

/-- **C48** (frozen ranges).  While the ranges are fixed or learned (in training or evaluation), or
estimated in training only and the module is in evaluation mode, no sequence of forward passes, on
whatever inputs, successful or not, changes the quantisation parameters, the estimator or the state;
every tensor is quantised after the sequence exactly as before it, for per-tensor and per-axis
quantizers always, for per-channel ones once their rank is known.  (Learned ranges also change by
optimizer steps, which are not calls of the manager.) -/
theorem C48_frozen (o : Optimizer) (m : Mgr)
    (hst : m.st = .fix ∨ m.st = .learn ∨ (m.st = .estimateTrain ∧ m.training = false))
    (cs : List MCmd) (hcs : ∀ c ∈ cs, Passive m.st c) :
    let m' := (mrun o m cs).1
    m'.st = m.st ∧ m'.est = m.est ∧ m'.q.pars = m.q.pars ∧ m'.q.signed = m.q.signed ∧
      ((m.q.perChannel = false ∨ m.q.axis.isSome = true ∨ m.q.view ≠ none) →
        ∀ rank rows, (mstep o m' (.forward rank rows)).2 = (mstep o m (.forward rank rows)).2) := by
  have upd : ∀ a : Mgr, (a.st = .fix ∨ a.st = .learn ∨ (a.st = .estimateTrain ∧ a.training = false)) →
      updates a = false := by
    intro a h
    unfold updates
    rcases h with h | h | ⟨h, h'⟩
    · simp [h]
    · simp [h]
    · simp [h, h']
  have inv : ∀ (cs : List MCmd) (a : Mgr),
      (a.st = .fix ∨ a.st = .learn ∨ (a.st = .estimateTrain ∧ a.training = false)) →
      (∀ c ∈ cs, Passive a.st c) →
      ∃ v tr, (mrun o a cs).1 = { a with q := { a.q with view := v }, training := tr } ∧
        (a.st = .fix ∨ a.st = .learn ∨ (a.st = .estimateTrain ∧ tr = false)) ∧
        (a.q.axis.isSome = false → (a.q.perChannel = false ∨ a.q.view ≠ none) → v = a.q.view) := by
    intro cs
    induction cs with
    | nil => intro a ha _; exact ⟨a.q.view, a.training, rfl, ha, fun _ _ => rfl⟩
    | cons c cs ih =>
      intro a ha hcs
      have step : ∃ v tr, (mstep o a c).1 = { a with q := { a.q with view := v }, training := tr } ∧
          (a.st = .fix ∨ a.st = .learn ∨ (a.st = .estimateTrain ∧ tr = false)) ∧
          (a.q.axis.isSome = false → (a.q.perChannel = false ∨ a.q.view ≠ none) → v = a.q.view) := by
        have hc := hcs c (by simp)
        cases c with
        | forward rank rows =>
          by_cases he : a.est = none
          · refine ⟨a.q.view, a.training, ?_, ha, fun _ _ => rfl⟩
            simp only [mstep, mgrForward, he]
            rw [← he]
          · have e0 : mgrForward o a rank rows = mgrQuant a rank rows := by
              unfold mgrForward
              cases h : a.est with
              | none => exact absurd h he
              | some e => simp only [upd a ha, Bool.false_eq_true, if_false]
            simp only [mstep]
            rw [e0]
            refine ⟨_, a.training, mgrQuant_frame a rank rows, ha, ?_⟩
            intro hax hv
            unfold mgrQuant forward
            cases had : adjustView a.q rank with
            | error e => rfl
            | ok q' =>
              have h1 := adjustView_view had
              simp only [hax, Bool.false_eq_true, if_false] at h1
              have h2 : q'.view = a.q.view := by
                rw [h1]
                apply if_neg
                rintro ⟨c1, c2, _⟩
                rcases hv with h | h
                · rw [h] at c1; simp at c1
                · exact h c2
              simp only [bind, Except.bind]
              cases signOf q' with
              | error e => rfl
              | ok sg =>
                simp only
                cases paramsFor q' rank rows.length with
                | error e => rfl
                | ok ps => exact h2
        | train b =>
          refine ⟨a.q.view, b, rfl, ?_, fun _ _ => rfl⟩
          rcases ha with h | h | ⟨h, _⟩
          · exact Or.inl h
          · exact Or.inr (Or.inl h)
          · exact Or.inr (Or.inr ⟨h, hc h⟩)
        | fix => exact absurd hc id
        | estimate => exact absurd hc id
        | estimateTrain => exact absurd hc id
        | learn => exact absurd hc id
        | setRange rs => exact absurd hc id
        | resetRanges => exact absurd hc id
      obtain ⟨v, tr, h1, h2, h3⟩ := step
      have hst' : (mstep o a c).1.st = a.st := by rw [h1]
      obtain ⟨v', tr', h1', h2', h3'⟩ := ih (mstep o a c).1 (by rw [h1]; exact h2)
        (by rw [hst']; exact fun d hd => hcs d (by simp [hd]))
      refine ⟨v', tr', ?_, by rw [← hst']; exact h2', ?_⟩
      · simp only [mrun]
        rw [h1', h1]
      · intro hax hv
        have e1 := h3 hax hv
        have := h3' (by rw [h1]; exact hax) (by rw [h1]; simpa [e1] using hv)
        rw [this, h1]
        exact e1
  obtain ⟨v, tr, h1, h2, h3⟩ := inv cs m hst hcs
  intro m'
  have hm : m' = { m with q := { m.q with view := v }, training := tr } := h1
  refine ⟨by rw [hm], by rw [hm], by rw [hm], by rw [hm], ?_⟩
  intro hv rank rows
  have hm' : (m'.st = .fix ∨ m'.st = .learn ∨ (m'.st = .estimateTrain ∧ m'.training = false)) := by
    rw [hm]; exact h2
  simp only [mstep, mgrForward]
  have he : m'.est = m.est := by rw [hm]
  rw [he]
  cases m.est with
  | none => rfl
  | some e =>
    simp only [upd m hst, upd m' hm', Bool.false_eq_true, if_false]
    rw [mgrQuant_out m', mgrQuant_out m]
    have hq : m'.q = { m.q with view := v } := by rw [hm]
    rw [hq]
    apply forward_view
    by_cases hax : m.q.axis.isSome = true
    · exact Or.inl hax
    · right
      apply h3 (by simpa using hax)
      rcases hv with h | h | h
      · exact Or.inl h
      · exact absurd h hax
      · exact Or.inr h

/-! ## Estimating -/

/-- A successful forward pass that updates the ranges. -/
theorem mgrForward_upd {o : Optimizer} {m m' : Mgr} {rank : Nat} {rows ys : List Vec} {e : Est}
    (he : m.est = some e) (hu : updates m = true)
    (h : mgrForward o m rank rows = (m', .ok ys)) :
    ∃ e' s q1 q2, estForward o m.q e rows = .ok (e', s) ∧ setQuantRange m.q s = .ok q1 ∧
      forward q1 rank rows = .ok (q2, ys) ∧ m' = { m with est := some e', q := q2 } := by
  unfold mgrForward at h
  rw [he] at h
  simp only [hu, if_true] at h
  unfold mgrEstimate at h
  cases h1 : estForward o m.q e rows with
  | error err => rw [h1] at h; simp at h
  | ok r =>
    obtain ⟨e', s⟩ := r
    rw [h1] at h
    simp only at h
    cases h2 : setQuantRange m.q s with
    | error err => rw [h2] at h; simp at h
    | ok q1 =>
      rw [h2] at h
      simp only [mgrQuant] at h
      cases h3 : forward q1 rank rows with
      | error err => rw [h3] at h; simp at h
      | ok r =>
        obtain ⟨q2, ys'⟩ := r
        rw [h3] at h
        simp only [Prod.mk.injEq, Except.ok.injEq] at h
        obtain ⟨ha, hb⟩ := h
        subst hb
        exact ⟨e', s, q1, q2, rfl, h2, h3, ha.symm⟩

/-- A quantizer that was set to ranges covering an input reproduces it up to half a step. -/
theorem quant_error {q q1 q2 : Quantizer} (he : 0 < q.eps) {rs : List (ℚ × ℚ)} {rank : Nat}
    {rows ys : List Vec} (hs : setQuantRange q rs = .ok q1) (hf : forward q1 rank rows = .ok (q2, ys))
    (cov : ∀ i, i < rows.length → ∀ x ∈ rows.getD i [],
      (channelRange rs i).1 ≤ x ∧ x ≤ (channelRange rs i).2) :
    ∃ f : Nat → ℚ → ℚ, ys = rows.mapIdx (fun i row => row.map (f i)) ∧
      ∀ i, i < rows.length → ∀ x ∈ rows.getD i [],
        |x - f i x| ≤ stepSize q.sym (decide (∃ r ∈ rs, r.1 < 0)) q.logDomain q.nBits q.eps
          (channelRange rs i).1 (channelRange rs i).2 / 2 := by
  by_cases hq : q.sym = true
  · obtain ⟨f, hy, hch⟩ := C30_symmetric hq he hs hf
    refine ⟨f, hy, fun i hi x hx => ?_⟩
    obtain ⟨lo, hi', s, hr, hcase⟩ := hch i hi
    have hc := cov i hi x hx
    rw [hr] at hc ⊢
    rcases hcase with ⟨hneg, hs', _, hg⟩ | ⟨hpos, hs', hg, _⟩
    · have hd : decide (∃ r ∈ rs, r.1 < 0) = true := by simpa using hneg
      have := hg.2.2.2.2.2.2.2 x hc.1 hc.2
      rw [hd, hq]
      simp only [stepSize, if_true]
      rw [← hs']
      exact this
    · have hd : decide (∃ r ∈ rs, r.1 < 0) = false := by
        simp only [decide_eq_false_iff_not]
        rintro ⟨r, h1, h2⟩
        exact absurd (hpos r h1) (not_le.2 h2)
      have := hg.2.2.2.2.2.2.2 x hc.1 hc.2
      rw [hd, hq]
      simp only [stepSize, if_true, Bool.false_eq_true, if_false]
      rw [← hs']
      exact this
  · have hq' : q.sym = false := by simpa using hq
    obtain ⟨f, hy, hch⟩ := C30_asymmetric hq' he hs hf
    refine ⟨f, hy, fun i hi x hx => ?_⟩
    obtain ⟨lo, hi', s, k1, k2, hr, hs', _, _, _, hg⟩ := hch i hi
    have hc := cov i hi x hx
    rw [hr] at hc ⊢
    have := hg.2.2.2.2.2.2.2 x hc.1 hc.2
    rw [hq']
    simp only [stepSize, Bool.false_eq_true, if_false]
    rw [← hs']
    exact this

/-- The channel ranges of a batch cover the batch. -/
theorem channels_cover {pc : Bool} {rows : List Vec} {s : List (ℚ × ℚ)}
    (hl : (channels pc rows).length = s.length)
    (h : ∀ k, k < s.length → ∀ v ∈ (channels pc rows).getD k [], (s.getD k (0, 0)).1 ≤ v ∧ v ≤ (s.getD k (0, 0)).2) :
    ∀ i, i < rows.length → ∀ x ∈ rows.getD i [], (channelRange s i).1 ≤ x ∧ x ≤ (channelRange s i).2 := by
  intro i hi x hx
  cases pc with
  | true =>
    simp only [channels, if_true] at hl h
    have : channelRange s i = s.getD i (0, 0) := by
      unfold channelRange
      split
      · have : i = 0 := by simp at hl; omega
        subst this; rfl
      · rfl
    rw [this]
    exact h i (by omega) x hx
  | false =>
    simp only [channels, Bool.false_eq_true, if_false, List.length_singleton] at hl h
    obtain ⟨r, rfl⟩ := List.length_eq_one_iff.1 hl.symm
    have := h 0 (by simp) x (by
      simp only [List.getD_cons_zero, List.mem_flatten]
      exact ⟨rows.getD i [], by rw [List.getD_eq_getElem _ _ hi]; exact List.getElem_mem hi, hx⟩)
    exact this

/-- **C48** (training with the current min-max estimator).  Every forward pass that updates the
ranges quantises its own batch with an error of at most half a step, where the step follows from the
minimum and maximum of the batch (of the element's channel if per channel). -/
theorem C48_current_error {o : Optimizer} {m m' : Mgr} {e : Est} (he : m.est = some e)
    (hk : e.kind = .current none) (hg : e.nGroups = none) (heps : 0 < m.q.eps)
    (hupd : m.st = .estimate ∨ (m.st = .estimateTrain ∧ m.training = true))
    {rank : Nat} {rows ys : List Vec} (h : mstep o m (.forward rank rows) = (m', .ok ys)) :
    ∃ (s : List (ℚ × ℚ)) (f : Nat → ℚ → ℚ),
      List.Forall₂ IsMinMax (channels (e.perChannel || e.axis.isSome) rows) s ∧
      ys = rows.mapIdx (fun i row => row.map (f i)) ∧
      ∀ i, i < rows.length → ∀ x ∈ rows.getD i [],
        |x - f i x| ≤ stepSize m.q.sym (decide (∃ r ∈ s, r.1 < 0)) m.q.logDomain m.q.nBits m.q.eps
          (channelRange s i).1 (channelRange s i).2 / 2 := by
  have hu : updates m = true := by
    unfold updates
    rcases hupd with h | ⟨h, h'⟩
    · simp [h]
    · simp [h, h']
  obtain ⟨e', s, q1, q2, h1, h2, h3, _⟩ := mgrForward_upd he hu h
  obtain ⟨hmm, _⟩ := C37_current (Or.inl hk) hg h1
  obtain ⟨f, hy, hf⟩ := quant_error heps h2 h3 (channels_cover hmm.length_eq
    (fun k hk v hv => (forall₂_getD hmm hk [] (0, 0)).2.2 v hv))
  exact ⟨s, f, hmm, hy, hf⟩

/-- Options of the quantizer that no call changes. -/
def sameOpts (a b : Quantizer) : Prop :=
  a.sym = b.sym ∧ a.nBits = b.nBits ∧ a.logDomain = b.logDomain ∧ a.perChannel = b.perChannel ∧
    a.axis = b.axis ∧ a.eps = b.eps

theorem sameOpts_set {q q1 : Quantizer} {rs : List (ℚ × ℚ)} (h : setQuantRange q rs = .ok q1) :
    sameOpts q1 q := by
  obtain ⟨ps, e1, _⟩ := set_params h
  rw [e1]; exact ⟨rfl, rfl, rfl, rfl, rfl, rfl⟩

theorem sameOpts_forward {q q1 : Quantizer} {rank : Nat} {rows ys : List Vec}
    (h : forward q rank rows = .ok (q1, ys)) : sameOpts q1 q := by
  have := mgrQuant_frame { est := none, q := q } rank rows
  simp only [mgrQuant, h] at this
  have h2 := congrArg Mgr.q this
  simp only at h2
  rw [h2]; exact ⟨rfl, rfl, rfl, rfl, rfl, rfl⟩

theorem sameOpts_trans {a b c : Quantizer} (h1 : sameOpts a b) (h2 : sameOpts b c) : sameOpts a c := by
  obtain ⟨a1, a2, a3, a4, a5, a6⟩ := h1
  obtain ⟨b1, b2, b3, b4, b5, b6⟩ := h2
  exact ⟨a1.trans b1, a2.trans b2, a3.trans b3, a4.trans b4, a5.trans b5, a6.trans b6⟩

/-- `estForward` of the min-max estimators does not look at the quantizer. -/
theorem estForward_noq {o : Optimizer} {q q' : Quantizer} {e : Est} {rows : List Vec}
    (hk : (∃ pc, e.kind = .current pc) ∨ e.kind = .allMinMax ∨ ∃ m, e.kind = .running m) :
    estForward o q e rows = estForward o q' e rows := by
  unfold estForward
  rcases hk with ⟨pc, h⟩ | h | ⟨m, h⟩ <;> rw [h]

theorem estForward_kind {o : Optimizer} {q : Quantizer} {e e' : Est} {rows : List Vec} {s}
    (hk : (∃ pc, e.kind = .current pc) ∨ e.kind = .allMinMax ∨ ∃ m, e.kind = .running m)
    (h : estForward o q e rows = .ok (e', s)) : e' = { e with cur := some s } := by
  unfold estForward at h
  rcases hk with ⟨pc, hk⟩ | hk | ⟨m, hk⟩ <;> rw [hk] at h <;> simp only [bind, Except.bind] at h
  · cases hs : currentStat e pc rows with
    | error err => rw [hs] at h; simp at h
    | ok s' => rw [hs] at h; simp [pure, Except.pure] at h; rw [← h.1, ← h.2, hk]
  · cases hs : batchStat e.perChannel rows with
    | error err => rw [hs] at h; simp at h
    | ok s' =>
      rw [hs] at h
      simp only at h
      cases hc : e.cur with
      | none => rw [hc] at h; simp [pure, Except.pure] at h; rw [← h.1, ← h.2, hk]
      | some c =>
        rw [hc] at h
        simp only at h
        cases hcc : combine allUpd c s' with
        | error err => rw [hcc] at h; simp at h
        | ok s'' => rw [hcc] at h; simp [pure, Except.pure] at h; rw [← h.1, ← h.2, hk]
  · cases hs : axisStat e rows with
    | error err => rw [hs] at h; simp at h
    | ok s' =>
      rw [hs] at h
      simp only at h
      cases hc : e.cur with
      | none => rw [hc] at h; simp [pure, Except.pure] at h; rw [← h.1, ← h.2, hk]
      | some c =>
        rw [hc] at h
        simp only at h
        cases hcc : combine (runUpd m) c s' with
        | error err => rw [hcc] at h; simp at h
        | ok s'' => rw [hcc] at h; simp [pure, Except.pure] at h; rw [← h.1, ← h.2, hk]

theorem estRun_noq {o : Optimizer} {q q' : Quantizer} {e : Est} {bs : List (List Vec)}
    (hk : (∃ pc, e.kind = .current pc) ∨ e.kind = .allMinMax ∨ ∃ m, e.kind = .running m) :
    estRun o q e bs = estRun o q' e bs := by
  induction bs generalizing e with
  | nil => rfl
  | cons c cs ih =>
    simp only [estRun, bind, Except.bind]
    rw [estForward_noq (q' := q') hk]
    cases hh : estForward o q' e c with
    | error err => rfl
    | ok r =>
      have := estForward_kind hk hh
      exact ih (e := r.1) (by rw [this]; exact hk)

/-- Forward passes in an updating state: the estimator has seen exactly these batches, and the
options are unchanged. -/
theorem run_batches {o : Optimizer} (bs : List (Nat × List Vec)) {m : Mgr} {e : Est}
    (he : m.est = some e) (hu : updates m = true)
    (hk : (∃ pc, e.kind = .current pc) ∨ e.kind = .allMinMax ∨ ∃ m, e.kind = .running m)
    (hok : ∀ out ∈ (mrun o m (bs.map fun b => .forward b.1 b.2)).2, ∃ y, out = .ok y) :
    ∃ e', (mrun o m (bs.map fun b => .forward b.1 b.2)).1.est = some e' ∧
      estRun o m.q e (bs.map (·.2)) = .ok e' ∧
      (mrun o m (bs.map fun b => .forward b.1 b.2)).1.st = m.st ∧
      (mrun o m (bs.map fun b => .forward b.1 b.2)).1.training = m.training ∧
      sameOpts (mrun o m (bs.map fun b => .forward b.1 b.2)).1.q m.q ∧
      ((∃ pc, e'.kind = .current pc) ∨ e'.kind = .allMinMax ∨ ∃ m, e'.kind = .running m) := by
  induction bs generalizing m e with
  | nil => exact ⟨e, he, rfl, rfl, rfl, ⟨rfl, rfl, rfl, rfl, rfl, rfl⟩, hk⟩
  | cons b bs ih =>
    simp only [List.map_cons, mrun] at hok ⊢
    obtain ⟨y, hy⟩ := hok (mstep o m (.forward b.1 b.2)).2 (by simp)
    have hpair : mgrForward o m b.1 b.2 = ((mstep o m (.forward b.1 b.2)).1, .ok y) := by
      rw [← hy]; rfl
    obtain ⟨e1, s, q1, q2, h1, h2, h3, hm⟩ := mgrForward_upd he hu hpair
    have hkind := estForward_kind hk h1
    have hk1 : (∃ pc, e1.kind = .current pc) ∨ e1.kind = .allMinMax ∨ ∃ m, e1.kind = .running m := by
      rw [hkind]; exact hk
    set m1 := (mstep o m (.forward b.1 b.2)).1 with hm1
    have hu1 : updates m1 = true := by rw [hm]; exact hu
    obtain ⟨e', a1, a2, a3, a4, a5, a6⟩ := ih (m := m1) (e := e1) (by rw [hm]) hu1 hk1
      (fun out ho => hok out (by simp [ho]))
    refine ⟨e', a1, ?_, by rw [a3, hm], by rw [a4, hm], ?_, a6⟩
    · simp only [estRun, bind, Except.bind, h1]
      rw [← a2]
      exact estRun_noq hk1
    · refine sameOpts_trans a5 ?_
      rw [hm]
      exact sameOpts_trans (sameOpts_forward h3) (sameOpts_set h2)

/-- **C48** (training with the all-min-max estimator).  After any sequence of updating forward passes
since construction or reset, the next one quantises its batch with an error of at most half a step,
where the step follows from the minimum and maximum over all batches seen, this one included. -/
theorem C48_all_error {o : Optimizer} {m m' : Mgr} {e : Est} (he : m.est = some e)
    (hk : e.kind = .allMinMax) (hcur : e.cur = none) (heps : 0 < m.q.eps)
    (hupd : m.st = .estimate ∨ (m.st = .estimateTrain ∧ m.training = true))
    (bs : List (Nat × List Vec)) {rank : Nat} {rows ys : List Vec}
    (hok : ∀ out ∈ (mrun o m (bs.map fun b => .forward b.1 b.2)).2, ∃ y, out = .ok y)
    (h : mstep o (mrun o m (bs.map fun b => .forward b.1 b.2)).1 (.forward rank rows) = (m', .ok ys)) :
    ∃ (s : List (ℚ × ℚ)) (f : Nat → ℚ → ℚ),
      (∀ b ∈ bs.map (·.2) ++ [rows], (channels e.perChannel b).length = s.length) ∧
      (∀ k, k < s.length → IsMinMax ((bs.map (·.2) ++ [rows]).flatMap
        fun b => (channels e.perChannel b).getD k []) (s.getD k (0, 0))) ∧
      ys = rows.mapIdx (fun i row => row.map (f i)) ∧
      ∀ i, i < rows.length → ∀ x ∈ rows.getD i [],
        |x - f i x| ≤ stepSize m.q.sym (decide (∃ r ∈ s, r.1 < 0)) m.q.logDomain m.q.nBits m.q.eps
          (channelRange s i).1 (channelRange s i).2 / 2 := by
  have hu : updates m = true := by
    unfold updates
    rcases hupd with h | ⟨h, h'⟩
    · simp [h]
    · simp [h, h']
  obtain ⟨e1, a1, a2, a3, a4, a5, a6⟩ := run_batches bs he hu (Or.inr (Or.inl hk)) hok
  set m1 := (mrun o m (bs.map fun b => .forward b.1 b.2)).1 with hm1
  have hu1 : updates m1 = true := by
    unfold updates at hu ⊢; rw [a3, a4]; exact hu
  obtain ⟨e', s, q1, q2, h1, h2, h3, _⟩ := mgrForward_upd a1 hu1 h
  have hrun : estRun o m.q e (bs.map (·.2) ++ [rows]) = .ok e' := by
    rw [estRun_snoc, a2]
    simp only [Except.bind]
    rw [estForward_noq (q' := m1.q) a6, h1]
    rfl
  obtain ⟨c, hc, hlen, hmm⟩ := C37_all hk hcur (by simp) hrun
  have hs : c = s := by
    have := estForward_kind a6 h1
    rw [this] at hc
    exact (Option.some.inj hc).symm
  subst hs
  obtain ⟨b1, b2, b3, b4, b5, b6⟩ := a5
  obtain ⟨f, hy, hf⟩ := quant_error (by rw [b6]; exact heps) h2 h3 (channels_cover (hlen rows (by simp))
    (fun k hk v hv => (hmm k hk).2.2 v (List.mem_flatMap.2 ⟨rows, by simp, hv⟩)))
  refine ⟨c, f, hlen, hmm, hy, ?_⟩
  rw [b1, b2, b3, b6] at hf
  exact hf

/-- **C48** (evaluation before any data).  In evaluation mode a new manager raises on every input
(it never falls back to full precision); `fix_ranges` raises exactly as long as no range has been
set and then leaves the manager as it is. -/
theorem C48_uninitialised (o : Optimizer) (q : Quantizer) (kind : EstKind) (ng : Option Nat)
    (rank : Nat) (rows : List Vec) :
    (∃ err, (mrun o (newMgr q kind ng) [.train false, .forward rank rows]).2 = [.ok [], .error err] ∧
      (err = .quantNotInit ∨ err = .assertion)) ∧
    (∀ m : Mgr, (mstep o m .fix).2 = .error .quantNotInit ↔ m.q.pars = none) ∧
    (∀ m : Mgr, m.q.pars = none → (mstep o m .fix).1 = m) ∧
    (∀ m : Mgr, m.q.pars ≠ none → (mstep o m .fix) = ({ m with st := .fix }, .ok [])) := by
  refine ⟨?_, ?_, ?_, ?_⟩
  · have h := (C30_uninitialised { q with pars := none, signed := none, view := none }
      (fun _ => rfl) rfl rank rows).2
    simp only [mrun, mstep, newMgr, mgrForward, updates, Bool.and_false, Bool.or_false]
    rw [if_neg (by simp)]
    unfold mgrQuant
    rcases h with h | h
    · exact ⟨.quantNotInit, by simp only [h], Or.inl rfl⟩
    · exact ⟨.assertion, by simp only [h], Or.inr rfl⟩
  · intro m
    by_cases h : m.q.pars = none
    · simp [mstep, isInit, h]
    · have : m.q.pars.isSome = true := Option.isSome_iff_ne_none.2 h
      simp [mstep, isInit, this, h]
  · intro m h
    simp [mstep, isInit, h]
  · intro m h
    have : m.q.pars.isSome = true := by
      cases hh : m.q.pars with
      | none => exact absurd hh h
      | some _ => rfl
    simp [mstep, isInit, this]

/-- **C48** (explicit range, exception).  A manager that was given `x_min` and `x_max` has no range
estimator, and every `forward` and every `reset_ranges` of it raises AttributeError, whatever was
called before. -/
theorem C48_explicit_range_unusable (o : Optimizer) (q : Quantizer) (rs : List (ℚ × ℚ)) (m : Mgr)
    (h : newMgrRange q rs = .ok m) (cs : List MCmd) (rank : Nat) (rows : List Vec) :
    (mstep o (mrun o m cs).1 (.forward rank rows)).2 = .error .attributeError ∧
    (mstep o (mrun o m cs).1 .resetRanges).2 = .error .attributeError := by
  have h0 : m.est = none := by
    unfold newMgrRange at h
    cases hs : setQuantRange { q with pars := none, signed := none, view := none } rs with
    | error e => rw [hs] at h; simp [bind, Except.bind] at h
    | ok q' => rw [hs] at h; simp [bind, Except.bind, pure, Except.pure] at h; rw [← h]
  have inv : ∀ (cs : List MCmd) (m : Mgr), m.est = none → (mrun o m cs).1.est = none := by
    intro cs
    induction cs with
    | nil => intro m h; exact h
    | cons c cs ih =>
      intro m h
      simp only [mrun]
      apply ih
      cases c with
      | forward rank rows => simp only [mstep, mgrForward, h]
      | fix => simp only [mstep]; by_cases hi : isInit m.q = true <;> simp [hi, h]
      | setRange rs => simp only [mstep]; cases setQuantRange m.q rs <;> exact h
      | resetRanges => simp only [mstep, mgrReset, h]
      | _ => exact h
  have := inv cs m h0
  simp [mstep, mgrForward, mgrReset, this]

/-! ## Reset -/

theorem set_view (q : Quantizer) (v : Option Nat) (rs : List (ℚ × ℚ)) :
    setQuantRange { q with view := v } rs = (setQuantRange q rs).map fun q' => { q' with view := v } := by
  have h1 : ∀ r, tensorize { q with view := v } r = tensorize q r := fun _ => rfl
  have h2 : ∀ sg r, parOf { q with view := v } sg r = parOf q sg r := fun _ _ => rfl
  unfold setQuantRange
  by_cases c1 : 1 < rs.length ∧ q.perChannel = false ∧ q.axis = none
  · rw [if_pos c1, if_pos c1]; rfl
  · rw [if_neg c1, if_neg c1]
    by_cases c2 : rs = []
    · rw [if_pos c2, if_pos c2]; rfl
    · rw [if_neg c2, if_neg c2]
      have h3 : rs.map (tensorize { q with view := v }) = rs.map (tensorize q) := rfl
      simp only [h3]
      by_cases c3 : q.sym = true ∧ anyNeg (rs.map (tensorize q)) = true ∧ q.nBits = 0
      · rw [if_pos c3, if_pos c3]; rfl
      · rw [if_neg c3, if_neg c3]
        have h4 : rs.mapM (parOf { q with view := v } (anyNeg (rs.map (tensorize q)))) =
          rs.mapM (parOf q (anyNeg (rs.map (tensorize q)))) := rfl
        rw [h4]
        cases rs.mapM (parOf q (anyNeg (rs.map (tensorize q)))) with
        | error e => rfl
        | ok ps =>
          simp only [bind, Except.bind]
          cases store q.pars ps <;> rfl

/-- One parameter set stays one parameter set for a per-tensor quantizer. -/
theorem set_single {q q1 : Quantizer} {rs : List (ℚ × ℚ)} (hpc : q.perChannel = false)
    (hax : q.axis = none) (hq : q.pars = none ∨ ∃ p, q.pars = some [p])
    (h : setQuantRange q rs = .ok q1) : ∃ p, q1.pars = some [p] := by
  unfold setQuantRange at h
  by_cases c1 : 1 < rs.length ∧ q.perChannel = false ∧ q.axis = none
  · rw [if_pos c1] at h; simp at h
  · rw [if_neg c1] at h
    by_cases c2 : rs = []
    · rw [if_pos c2] at h; simp at h
    · rw [if_neg c2] at h
      have hl : rs.length = 1 := by
        have : 0 < rs.length := List.length_pos_iff.2 c2
        have : ¬ 1 < rs.length := fun hh => c1 ⟨hh, hpc, hax⟩
        omega
      simp only at h
      by_cases c3 : q.sym = true ∧ anyNeg (rs.map (tensorize q)) = true ∧ q.nBits = 0
      · rw [if_pos c3] at h; simp at h
      · rw [if_neg c3] at h
        cases hm : rs.mapM (parOf q (anyNeg (rs.map (tensorize q)))) with
        | error e => rw [hm] at h; simp [bind, Except.bind] at h
        | ok ps =>
          rw [hm] at h
          have hps : ps.length = 1 := by rw [← (mapM_ok_forall₂ hm).length_eq]; exact hl
          obtain ⟨p, rfl⟩ := List.length_eq_one_iff.1 hps
          simp only [bind, Except.bind] at h
          rcases hq with hq | ⟨p', hq⟩
          · rw [hq] at h
            simp [store, pure, Except.pure] at h
            exact ⟨p, by rw [← h]⟩
          · rw [hq] at h
            simp [store, pure, Except.pure] at h
            exact ⟨p, by rw [← h]⟩

/-- Two managers that differ only in the view of a quantizer for which it does not matter. -/
def ViewEq (a b : Mgr) : Prop :=
  ∃ v, a = { b with q := { b.q with view := v } } ∧ b.q.perChannel = false ∧
    (b.q.axis.isSome = true ∨ b.q.pars = none ∨ ∃ p, b.q.pars = some [p])

theorem quant_viewEq {a b : Mgr} (h : ViewEq a b) (rank : Nat) (rows : List Vec) :
    (mgrQuant a rank rows).2 = (mgrQuant b rank rows).2 ∧
      ViewEq (mgrQuant a rank rows).1 (mgrQuant b rank rows).1 := by
  obtain ⟨v, ha, hpc, hs⟩ := h
  have hfr : ViewEq (mgrQuant a rank rows).1 (mgrQuant b rank rows).1 := by
    refine ⟨(mgrQuant a rank rows).1.q.view, ?_, ?_, ?_⟩
    · rw [mgrQuant_frame a, mgrQuant_frame b]
      rw [ha]
    · rw [mgrQuant_frame b]; exact hpc
    · rw [mgrQuant_frame b]; exact hs
  refine ⟨?_, hfr⟩
  rw [mgrQuant_out a, mgrQuant_out b]
  have hq : a.q = { b.q with view := v } := by rw [ha]
  rw [hq]
  by_cases hax : b.q.axis.isSome = true
  · exact forward_view b.q v rank rows (Or.inl hax)
  · have hax' : b.q.axis = none := by simpa using hax
    have e1 : adjustView b.q rank = .ok b.q := by unfold adjustView; simp [hax', hpc]
    have e2 : adjustView { b.q with view := v } rank = .ok { b.q with view := v } := by
      unfold adjustView; simp [hax', hpc]
    have e3 : signOf { b.q with view := v } = signOf b.q := rfl
    have e4 : paramsFor { b.q with view := v } rank rows.length = paramsFor b.q rank rows.length := by
      unfold paramsFor
      rcases hs with h | h | ⟨p, h⟩
      · exact absurd h hax
      · simp [h]
      · simp [h]
    unfold mgrQuant forward
    simp only [e1, e2, bind, Except.bind, e3, e4]
    cases signOf b.q with
    | error e => rfl
    | ok sg =>
      simp only
      cases paramsFor b.q rank rows.length <;> rfl

theorem step_viewEq {o : Optimizer} {a b : Mgr} (h : ViewEq a b) {e : Est} (he : b.est = some e)
    (hk : (∃ pc, e.kind = .current pc) ∨ e.kind = .allMinMax ∨ ∃ m, e.kind = .running m) (c : MCmd) :
    (mstep o a c).2 = (mstep o b c).2 ∧ ViewEq (mstep o a c).1 (mstep o b c).1 ∧
      ∃ e', (mstep o b c).1.est = some e' ∧
        ((∃ pc, e'.kind = .current pc) ∨ e'.kind = .allMinMax ∨ ∃ m, e'.kind = .running m) := by
  obtain ⟨v, ha, hpc, hs⟩ := h
  -- single parameter after setting a range
  have hset : ∀ rs q1, setQuantRange b.q rs = .ok q1 →
      q1.perChannel = false ∧ (q1.axis.isSome = true ∨ q1.pars = none ∨ ∃ p, q1.pars = some [p]) := by
    intro rs q1 h
    have so := sameOpts_set h
    obtain ⟨b1, b2, b3, b4, b5, b6⟩ := so
    refine ⟨by rw [b4]; exact hpc, ?_⟩
    by_cases hax : b.q.axis.isSome = true
    · left; rw [b5]; exact hax
    · right; right
      apply set_single hpc (by simpa using hax) _ h
      rcases hs with h | h | h
      · exact absurd h hax
      · exact Or.inl h
      · exact Or.inr h
  cases c with
  | estimate => exact ⟨rfl, ⟨v, by simp only [mstep]; rw [ha], hpc, hs⟩, e, he, hk⟩
  | estimateTrain => exact ⟨rfl, ⟨v, by simp only [mstep]; rw [ha], hpc, hs⟩, e, he, hk⟩
  | learn => exact ⟨rfl, ⟨v, by simp only [mstep]; rw [ha], hpc, hs⟩, e, he, hk⟩
  | train t => exact ⟨rfl, ⟨v, by simp only [mstep]; rw [ha], hpc, hs⟩, e, he, hk⟩
  | fix =>
    have hi : isInit a.q = isInit b.q := by rw [ha]; rfl
    simp only [mstep, hi]
    by_cases c : isInit b.q = true
    · rw [if_pos c, if_pos c]; exact ⟨rfl, ⟨v, by rw [ha], hpc, hs⟩, e, he, hk⟩
    · rw [if_neg c, if_neg c]; exact ⟨rfl, ⟨v, ha, hpc, hs⟩, e, he, hk⟩
  | setRange rs =>
    have hq : setQuantRange a.q rs = (setQuantRange b.q rs).map fun q' => { q' with view := v } := by
      rw [ha]; exact set_view b.q v rs
    simp only [mstep]
    rw [hq]
    cases hb : setQuantRange b.q rs with
    | error err => exact ⟨rfl, ⟨v, ha, hpc, hs⟩, e, he, hk⟩
    | ok q1 => exact ⟨rfl, ⟨v, by simp only [Except.map]; rw [ha], hset rs q1 hb⟩, e, he, hk⟩
  | resetRanges =>
    have hea : a.est = some e := by rw [ha]; exact he
    simp only [mstep, mgrReset, he, hea]
    refine ⟨trivial, ⟨v, by rw [ha]; rfl, hpc, Or.inr (Or.inl rfl)⟩, estReset e, rfl, ?_⟩
    rcases hk with ⟨pc, h⟩ | h | ⟨m, h⟩
    · exact Or.inl ⟨pc, by simp [estReset, h]⟩
    · exact Or.inr (Or.inl (by simp [estReset, h]))
    · exact Or.inr (Or.inr ⟨m, by simp [estReset, h]⟩)
  | forward rank rows =>
    have hea : a.est = some e := by rw [ha]; exact he
    have hu : updates a = updates b := by rw [ha]; rfl
    have hest : ∀ m' : Mgr, (mgrQuant m' rank rows).1.est = m'.est := by
      intro m'; rw [mgrQuant_frame m']
    simp only [mstep, mgrForward, he, hea, hu]
    by_cases c : updates b = true
    · simp only [c, if_true]
      unfold mgrEstimate
      rw [estForward_noq (q' := b.q) hk]
      cases h1 : estForward o b.q e rows with
      | error err => exact ⟨rfl, ⟨v, ha, hpc, hs⟩, e, he, hk⟩
      | ok r =>
        obtain ⟨e', s⟩ := r
        have hk' := estForward_kind hk h1
        have hkk : ((∃ pc, e'.kind = .current pc) ∨ e'.kind = .allMinMax ∨ ∃ m, e'.kind = .running m) := by
          rw [hk']; exact hk
        have hq : setQuantRange a.q s = (setQuantRange b.q s).map fun q' => { q' with view := v } := by
          rw [ha]; exact set_view b.q v s
        simp only [hq]
        cases hb : setQuantRange b.q s with
        | error err =>
          exact ⟨rfl, ⟨v, by simp only [Except.map]; rw [ha], hpc, hs⟩, e', rfl, hkk⟩
        | ok q1 =>
          simp only [Except.map]
          obtain ⟨x1, x2⟩ := quant_viewEq (a := { a with est := some e', q := { q1 with view := v } })
            (b := { b with est := some e', q := q1 }) ⟨v, by rw [ha], hset s q1 hb⟩ rank rows
          exact ⟨x1, x2, e', by rw [hest], hkk⟩
    · simp only [if_neg c]
      obtain ⟨x1, x2⟩ := quant_viewEq (a := a) (b := b) ⟨v, ha, hpc, hs⟩ rank rows
      exact ⟨x1, x2, e, by rw [hest]; exact he, hk⟩

/-- **C48** (reset).  After `reset_ranges` a per-tensor or per-axis manager with a min-max estimator
returns for every further sequence of calls exactly what a newly constructed manager with the same
options (and the same training flag) returns. -/
theorem C48_reset (o : Optimizer) (m : Mgr) (e : Est) (he : m.est = some e)
    (hk : (∃ pc, e.kind = .current pc) ∨ e.kind = .allMinMax ∨ ∃ m, e.kind = .running m)
    (hplain : e = { kind := e.kind, perChannel := m.q.perChannel, axis := m.q.axis, nGroups := e.nGroups, cur := e.cur })
    (hsigned : m.q.sym = false → m.q.signed = none) (hpc : m.q.perChannel = false) (cs : List MCmd) :
    (mrun o (mstep o m .resetRanges).1 cs).2 =
      (mrun o { newMgr m.q e.kind e.nGroups with training := m.training } cs).2 := by
  have main : ∀ (cs : List MCmd) (a b : Mgr) (e : Est), ViewEq a b → b.est = some e →
      ((∃ pc, e.kind = .current pc) ∨ e.kind = .allMinMax ∨ ∃ m, e.kind = .running m) →
      (mrun o a cs).2 = (mrun o b cs).2 := by
    intro cs
    induction cs with
    | nil => intro a b e _ _ _; rfl
    | cons c cs ih =>
      intro a b e hv he hk
      obtain ⟨h1, h2, e', h3, h4⟩ := step_viewEq (o := o) hv he hk c
      simp only [mrun]
      rw [h1, ih _ _ e' h2 h3 h4]
  refine main cs _ _ { kind := e.kind, perChannel := m.q.perChannel, axis := m.q.axis, nGroups := e.nGroups } ?_ rfl hk
  refine ⟨m.q.view, ?_, hpc, Or.inr (Or.inl rfl)⟩
  simp only [mstep, mgrReset, he, newMgr]
  have h1 : estReset e = { kind := e.kind, perChannel := m.q.perChannel, axis := m.q.axis, nGroups := e.nGroups } := by
    have : estReset e = { e with cur := none } := by
      unfold estReset
      rcases hk with ⟨pc, h⟩ | h | ⟨m, h⟩ <;> simp [h]
    rw [this, hplain]
  rw [h1]
  congr 1
  unfold reset
  by_cases c : m.q.sym = true
  · simp [c]
  · rw [if_neg c, hsigned (by simpa using c)]

/-! ### The hypotheses are met -/

def exOpt : Optimizer := { range := fun _ a _ => a, shift := fun _ _ a _ => a }
def exMgr : Mgr := newMgr { sym := false, nBits := 2 } .allMinMax none

/-- Two training batches, then evaluation: the second batch widens the range, the evaluation input
(outside the range) does not. -/
example : (mrun exOpt exMgr [.forward 1 [[0, 3]], .forward 1 [[-3, 6]], .train false,
      .forward 1 [[60, 4]], .forward 1 [[4, -1]]]).2.map (·.toOption) =
    [some [[0, 3]], some [[-3, 6]], some [], some [[6, 3]], some [[3, 0]]] := by
  decide +kernel

example : exMgr.q.eps = 1 / 100000000 ∧ (mrun exOpt exMgr [.resetRanges]).2.map (·.toOption) = [some []] := by
  decide +kernel

example : ∃ m, newMgrRange { sym := true, nBits := 3 } [(-1, 1)] = .ok m := ⟨_, rfl⟩

example : C48_reset exOpt (mrun exOpt exMgr [.forward 1 [[0, 3]]]).1 _ rfl (Or.inr (Or.inl rfl)) rfl
    (fun _ => rfl) rfl [] = rfl := rfl

end Aihw.Quant

import Verif.Quant.Estimator
import Verif.Quant.Spec
import Mathlib.Data.List.GetD
import Mathlib.Data.List.Sort
import Mathlib.Algebra.BigOperators.Ring.Finset

namespace Aihw.Quant
open Spec

/-! ## Batch statistics -/

theorem foldl_min_spec (xs : List ℚ) (x : ℚ) :
    xs.foldl min x ∈ x :: xs ∧ ∀ v ∈ x :: xs, xs.foldl min x ≤ v := by
  induction xs generalizing x with
  | nil => simp
  | cons y ys ih =>
    obtain ⟨h1, h2⟩ := ih (min x y)
    constructor
    · rw [List.foldl_cons]
      rcases List.mem_cons.1 h1 with h | h
      · rw [h]
        rcases min_choice x y with e | e <;> rw [e] <;> simp
      · exact List.mem_cons_of_mem _ (List.mem_cons_of_mem _ h)
    · intro v hv
      rw [List.foldl_cons]
      have h0 : ys.foldl min (min x y) ≤ min x y := h2 _ List.mem_cons_self
      rcases List.mem_cons.1 hv with e | e
      · rw [e]; exact h0.trans (min_le_left _ _)
      · rcases List.mem_cons.1 e with e' | e'
        · rw [e']; exact h0.trans (min_le_right _ _)
        · exact h2 _ (List.mem_cons_of_mem _ e')

theorem foldl_max_spec (xs : List ℚ) (x : ℚ) :
    xs.foldl max x ∈ x :: xs ∧ ∀ v ∈ x :: xs, v ≤ xs.foldl max x := by
  induction xs generalizing x with
  | nil => simp
  | cons y ys ih =>
    obtain ⟨h1, h2⟩ := ih (max x y)
    constructor
    · rw [List.foldl_cons]
      rcases List.mem_cons.1 h1 with h | h
      · rw [h]
        rcases max_choice x y with e | e <;> rw [e] <;> simp
      · exact List.mem_cons_of_mem _ (List.mem_cons_of_mem _ h)
    · intro v hv
      rw [List.foldl_cons]
      have h0 : max x y ≤ ys.foldl max (max x y) := h2 _ List.mem_cons_self
      rcases List.mem_cons.1 hv with e | e
      · rw [e]; exact (le_max_left _ _).trans h0
      · rcases List.mem_cons.1 e with e' | e'
        · rw [e']; exact (le_max_right _ _).trans h0
        · exact h2 _ (List.mem_cons_of_mem _ e')

theorem minMax_spec {v : Vec} {r : ℚ × ℚ} (h : minMax v = .ok r) : IsMinMax v r := by
  cases v with
  | nil => simp [minMax] at h
  | cons x xs =>
    simp only [minMax, Except.ok.injEq] at h
    rw [← h]
    exact ⟨(foldl_min_spec xs x).1, (foldl_max_spec xs x).1,
      fun v hv => ⟨(foldl_min_spec xs x).2 v hv, (foldl_max_spec xs x).2 v hv⟩⟩

theorem minMax_ok {v : Vec} (h : v ≠ []) : ∃ r, minMax v = .ok r := by
  cases v with
  | nil => exact absurd rfl h
  | cons x xs => exact ⟨_, rfl⟩

theorem batchStat_spec {perRow : Bool} {rows : List Vec} {s : List (ℚ × ℚ)}
    (h : batchStat perRow rows = .ok s) : List.Forall₂ IsMinMax (channels perRow rows) s := by
  unfold batchStat at h
  cases perRow with
  | true =>
    simp only [if_true] at h
    have := mapM_ok_forall₂ h
    exact this.imp fun a b hab => minMax_spec hab
  | false =>
    simp only [Bool.false_eq_true, if_false] at h
    cases hm : minMax rows.flatten with
    | error e => rw [hm] at h; simp [bind, Except.bind] at h
    | ok r =>
      rw [hm] at h
      simp [bind, Except.bind, pure, Except.pure] at h
      subst h
      exact .cons (minMax_spec hm) .nil

theorem forall₂_getD {α β : Type} {R : α → β → Prop} {l : List α} {r : List β}
    (h : List.Forall₂ R l r) {i : Nat} (hi : i < r.length) (a : α) (b : β) :
    R (l.getD i a) (r.getD i b) := by
  have hl : i < l.length := by rw [h.length_eq]; exact hi
  rw [List.getD_eq_getElem _ _ hl, List.getD_eq_getElem _ _ hi]
  have := (List.forall₂_iff_get.1 h).2 i hl hi
  simpa using this

/-! ## Histories -/

/-- The estimator after a sequence of batches. -/
def estRun (o : Optimizer) (q : Quantizer) : Est → List (List Vec) → Except PyErr Est
  | e, [] => .ok e
  | e, b :: bs => do
    let (e', _) ← estForward o q e b
    estRun o q e' bs

theorem estRun_snoc (o : Optimizer) (q : Quantizer) (e : Est) (bs : List (List Vec)) (b : List Vec) :
    estRun o q e (bs ++ [b]) = (estRun o q e bs).bind fun e' => (estForward o q e' b).map (·.1) := by
  induction bs generalizing e with
  | nil =>
    simp only [List.nil_append, estRun, bind, Except.bind]
    cases estForward o q e b <;> rfl
  | cons a as ih =>
    simp only [List.cons_append, estRun, bind, Except.bind]
    cases h : estForward o q e a with
    | error err => rfl
    | ok r => simp only [ih]; rfl

/-- **C37** (current min-max).  Whatever happened before, the returned range of each channel is the
minimum and maximum of that channel in the present batch. -/
theorem C37_current {o : Optimizer} {q : Quantizer} {e e' : Est} {rows : List Vec} {s : List (ℚ × ℚ)}
    (hk : e.kind = .current none ∨ e.kind = .current (some 0)) (hg : e.nGroups = none)
    (h : estForward o q e rows = .ok (e', s)) :
    List.Forall₂ IsMinMax (channels (e.perChannel || e.axis.isSome) rows) s ∧
      e' = { e with cur := some s } := by
  have hstat : ∀ pc, (pc = none ∨ pc = some 0) → currentStat e pc rows = axisStat e rows := by
    intro pc hpc
    unfold currentStat
    rcases hpc with rfl | rfl
    · cases e.axis <;> rfl
    · cases e.axis
      · simp
      · rfl
  have hax : axisStat e rows = batchStat (e.perChannel || e.axis.isSome) rows := by
    unfold axisStat
    rw [hg]
    cases e.axis <;> simp
  have fin : ∀ pc, (pc = none ∨ pc = some 0) → e.kind = .current pc →
      List.Forall₂ IsMinMax (channels (e.perChannel || e.axis.isSome) rows) s ∧
      e' = { e with cur := some s } := by
    intro pc hpc hkk
    unfold estForward at h
    rw [hkk] at h
    simp only [hstat pc hpc, hax] at h
    cases hb : batchStat (e.perChannel || e.axis.isSome) rows with
    | error err => rw [hb] at h; simp [bind, Except.bind] at h
    | ok r =>
      rw [hb] at h
      simp only [bind, Except.bind, pure, Except.pure, Except.ok.injEq, Prod.mk.injEq] at h
      obtain ⟨h1, h2⟩ := h
      subst h2
      exact ⟨batchStat_spec hb, by rw [← h1, hkk]⟩
  rcases hk with hk | hk
  · exact fin _ (Or.inl rfl) hk
  · exact fin _ (Or.inr rfl) hk

theorem isMinMax_append {a b : List ℚ} {r s : ℚ × ℚ} (h1 : IsMinMax a r) (h2 : IsMinMax b s) :
    IsMinMax (a ++ b) (allUpd r s) := by
  obtain ⟨a1, a2, a3⟩ := h1
  obtain ⟨b1, b2, b3⟩ := h2
  refine ⟨?_, ?_, ?_⟩
  · simp only [allUpd]
    rcases min_choice r.1 s.1 with e | e <;> rw [e] <;> simp [a1, b1]
  · simp only [allUpd]
    rcases max_choice r.2 s.2 with e | e <;> rw [e] <;> simp [a2, b2]
  · intro v hv
    simp only [allUpd]
    rcases List.mem_append.1 hv with h | h
    · exact ⟨(min_le_left _ _).trans (a3 v h).1, (a3 v h).2.trans (le_max_left _ _)⟩
    · exact ⟨(min_le_right _ _).trans (b3 v h).1, (b3 v h).2.trans (le_max_right _ _)⟩

/-- **C37** (all min-max).  After any non-empty sequence of batches since construction or reset, the
estimate of each channel is the minimum and maximum of that channel over all the batches. -/
theorem C37_all {o : Optimizer} {q : Quantizer} {e e' : Est} (hk : e.kind = .allMinMax)
    (hc : e.cur = none) {bs : List (List Vec)} (hne : bs ≠ []) (h : estRun o q e bs = .ok e') :
    ∃ c, e'.cur = some c ∧ (∀ b ∈ bs, (channels e.perChannel b).length = c.length) ∧
      ∀ i, i < c.length →
        IsMinMax (bs.flatMap fun b => (channels e.perChannel b).getD i []) (c.getD i (0, 0)) := by
  suffices H : ∀ (bs : List (List Vec)) (e' : Est), estRun o q e bs = .ok e' →
      e'.kind = .allMinMax ∧ e'.perChannel = e.perChannel ∧
      ((bs = [] ∧ e'.cur = none) ∨ ∃ c, e'.cur = some c ∧
        (∀ b ∈ bs, (channels e.perChannel b).length = c.length) ∧
        ∀ i, i < c.length →
          IsMinMax (bs.flatMap fun b => (channels e.perChannel b).getD i []) (c.getD i (0, 0))) by
    rcases (H bs e' h).2.2 with h1 | h1
    · exact absurd h1.1 hne
    · exact h1
  intro bs
  induction bs using List.reverseRecOn with
  | nil =>
    intro e' h
    simp only [estRun, Except.ok.injEq] at h
    subst h
    exact ⟨hk, rfl, Or.inl ⟨rfl, hc⟩⟩
  | append_singleton bs b ih =>
    intro e' h
    rw [estRun_snoc] at h
    cases hr : estRun o q e bs with
    | error err => rw [hr] at h; simp [Except.bind] at h
    | ok e1 =>
      rw [hr] at h
      obtain ⟨k1, p1, hcur⟩ := ih e1 hr
      simp only [Except.bind, estForward, k1, p1] at h
      cases hb : batchStat e.perChannel b with
      | error err => rw [hb] at h; simp [bind, Except.bind, Except.map] at h
      | ok s =>
        have hs := batchStat_spec hb
        rw [hb] at h
        rcases hcur with ⟨hbs, hcn⟩ | ⟨c, hcs, hlen, hmm⟩
        · rw [hcn] at h
          simp [bind, Except.bind, Except.map, pure, Except.pure] at h
          subst h
          refine ⟨rfl, rfl, Or.inr ⟨s, rfl, ?_, ?_⟩⟩
          · intro b' hb'
            rw [hbs] at hb'; simp at hb'; subst hb'
            exact hs.length_eq
          · intro i hi
            rw [hbs]
            simpa using forall₂_getD hs hi [] (0, 0)
        · rw [hcs] at h
          simp only [bind, Except.bind, combine] at h
          by_cases hl : c.length = s.length
          · rw [if_pos hl] at h
            simp [Except.map, pure, Except.pure] at h
            subst h
            have hzl : (List.zipWith allUpd c s).length = c.length := by simp [hl]
            refine ⟨rfl, rfl, Or.inr ⟨_, rfl, ?_, ?_⟩⟩
            · intro b' hb'
              rw [hzl]
              rcases List.mem_append.1 hb' with h1 | h1
              · exact hlen b' h1
              · simp at h1; subst h1; rw [hs.length_eq, hl]
            · intro i hi
              have hi' : i < c.length := by omega
              have hi2 : i < s.length := by omega
              rw [List.flatMap_append]
              have e1 : (List.zipWith allUpd c s).getD i (0, 0) = allUpd (c.getD i (0, 0)) (s.getD i (0, 0)) := by
                rw [List.getD_eq_getElem _ _ hi, List.getElem_zipWith,
                  List.getD_eq_getElem _ _ hi', List.getD_eq_getElem _ _ hi2]
              rw [e1]
              apply isMinMax_append (hmm i hi')
              simpa using forall₂_getD hs hi2 [] (0, 0)
          · rw [if_neg hl] at h
            simp [Except.map] at h

theorem ema_singleton (m x : ℚ) : ema m [x] = x := by simp [ema]

theorem ema_snoc (m : ℚ) (l : List ℚ) (hl : l ≠ []) (x : ℚ) :
    ema m (l ++ [x]) = (1 - m) * x + m * ema m l := by
  have hpos : 0 < l.length := List.length_pos_iff.2 hl
  unfold ema
  rw [List.length_append, List.length_singleton, Finset.sum_range_succ, Finset.mul_sum]
  have e1 : (l ++ [x]).getD l.length 0 = x := by
    rw [List.getD_append_right _ _ _ _ (le_refl _)]; simp
  rw [e1, if_neg (by omega)]
  have e2 : l.length + 1 - 1 - l.length = 0 := by omega
  rw [e2, pow_zero, mul_one, add_comm]
  congr 1
  apply Finset.sum_congr rfl
  intro j hj
  rw [Finset.mem_range] at hj
  rw [List.getD_append _ _ _ _ hj]
  have e3 : l.length + 1 - 1 - j = (l.length - 1 - j) + 1 := by omega
  rw [e3, pow_succ]
  ring

/-- **C37** (running min-max).  After any non-empty sequence of batches since construction or reset,
the estimate of each channel is the exponential moving average (weights `m^k` for the first batch,
`(1-m) m^(k-j)` for batch `j`) of the minima and maxima of that channel in the batches. -/
theorem C37_running {o : Optimizer} {q : Quantizer} {e e' : Est} {m : ℚ} (hk : e.kind = .running m)
    (hg : e.nGroups = none) (hc : e.cur = none) {bs : List (List Vec)} (hne : bs ≠ [])
    (h : estRun o q e bs = .ok e') :
    ∃ (c : List (ℚ × ℚ)) (sts : List (List (ℚ × ℚ))), e'.cur = some c ∧
      List.Forall₂ (fun b s => List.Forall₂ IsMinMax (channels (e.perChannel || e.axis.isSome) b) s)
        bs sts ∧
      (∀ s ∈ sts, s.length = c.length) ∧
      ∀ i, i < c.length →
        c.getD i (0, 0) = (ema m (sts.map fun s => (s.getD i (0, 0)).1),
                           ema m (sts.map fun s => (s.getD i (0, 0)).2)) := by
  suffices H : ∀ (bs : List (List Vec)) (e' : Est), estRun o q e bs = .ok e' →
      e'.kind = .running m ∧ e'.perChannel = e.perChannel ∧ e'.axis = e.axis ∧ e'.nGroups = none ∧
      ((bs = [] ∧ e'.cur = none) ∨ bs ≠ [] ∧ ∃ (c : List (ℚ × ℚ)) (sts : List (List (ℚ × ℚ))),
        e'.cur = some c ∧
        List.Forall₂ (fun b s => List.Forall₂ IsMinMax (channels (e.perChannel || e.axis.isSome) b) s)
          bs sts ∧
        (∀ s ∈ sts, s.length = c.length) ∧
        ∀ i, i < c.length →
          c.getD i (0, 0) = (ema m (sts.map fun s => (s.getD i (0, 0)).1),
                             ema m (sts.map fun s => (s.getD i (0, 0)).2))) by
    rcases (H bs e' h).2.2.2.2 with h1 | h1
    · exact absurd h1.1 hne
    · exact h1.2
  intro bs
  induction bs using List.reverseRecOn with
  | nil =>
    intro e' h
    simp only [estRun, Except.ok.injEq] at h
    subst h
    exact ⟨hk, rfl, rfl, hg, Or.inl ⟨rfl, hc⟩⟩
  | append_singleton bs b ih =>
    intro e' h
    rw [estRun_snoc] at h
    cases hr : estRun o q e bs with
    | error err => rw [hr] at h; simp [Except.bind] at h
    | ok e1 =>
      rw [hr] at h
      obtain ⟨k1, p1, a1, g1, hcur⟩ := ih e1 hr
      have hax : axisStat e1 b = batchStat (e.perChannel || e.axis.isSome) b := by
        unfold axisStat
        rw [g1, a1, p1]
        cases e.axis <;> simp
      simp only [Except.bind, estForward, k1, hax] at h
      cases hb : batchStat (e.perChannel || e.axis.isSome) b with
      | error err => rw [hb] at h; simp [bind, Except.bind, Except.map] at h
      | ok s =>
        have hs := batchStat_spec hb
        rw [hb] at h
        rcases hcur with ⟨hbs, hcn⟩ | ⟨hbne, c, sts, hcs, hf, hlen, hmm⟩
        · rw [hcn] at h
          simp [bind, Except.bind, Except.map, pure, Except.pure] at h
          subst h
          refine ⟨rfl, p1, a1, g1, Or.inr ⟨by simp, s, [s], rfl, ?_, by simp, ?_⟩⟩
          · rw [hbs]; exact .cons hs .nil
          · intro i _
            simp [ema_singleton]
        · rw [hcs] at h
          simp only [bind, Except.bind, combine] at h
          by_cases hl : c.length = s.length
          · rw [if_pos hl] at h
            simp [Except.map, pure, Except.pure] at h
            subst h
            have hzl : (List.zipWith (runUpd m) c s).length = c.length := by simp [hl]
            refine ⟨rfl, p1, a1, g1, Or.inr ⟨by simp, _, sts ++ [s], rfl, ?_, ?_, ?_⟩⟩
            · exact List.rel_append hf (.cons hs .nil)
            · intro s' hs'
              rw [hzl]
              rcases List.mem_append.1 hs' with h1 | h1
              · exact hlen s' h1
              · simp at h1; subst h1; exact hl.symm
            · intro i hi
              have hi' : i < c.length := by omega
              have hi2 : i < s.length := by omega
              have hsts : sts ≠ [] := by
                intro hc0; rw [hc0] at hf; cases hf; exact hbne rfl
              have e1 : (List.zipWith (runUpd m) c s).getD i (0, 0) = runUpd m (c.getD i (0, 0)) (s.getD i (0, 0)) := by
                rw [List.getD_eq_getElem _ _ hi, List.getElem_zipWith,
                  List.getD_eq_getElem _ _ hi', List.getD_eq_getElem _ _ hi2]
              rw [e1, hmm i hi', List.map_append, List.map_append, List.map_singleton, List.map_singleton,
                ema_snoc _ _ (by simpa using hsts), ema_snoc _ _ (by simpa using hsts)]
              rfl
          · rw [if_neg hl] at h
            simp [Except.map] at h

/-- **C37** (running min-max, bounds).  With a momentum in `[0, 1]` an exponential moving average
stays between the smallest and the largest of the averaged values. -/
theorem C37_ema_bounds {m : ℚ} (h0 : 0 ≤ m) (h1 : m ≤ 1) (l : List ℚ) (hl : l ≠ []) (a b : ℚ)
    (hab : ∀ x ∈ l, a ≤ x ∧ x ≤ b) : a ≤ ema m l ∧ ema m l ≤ b := by
  induction l using List.reverseRecOn with
  | nil => exact absurd rfl hl
  | append_singleton l x ih =>
    by_cases c : l = []
    · subst c
      have := hab x (by simp)
      rw [List.nil_append, ema_singleton]
      exact this
    · rw [ema_snoc m l c]
      obtain ⟨i1, i2⟩ := ih c (fun y hy => hab y (by simp [hy]))
      obtain ⟨j1, j2⟩ := hab x (by simp)
      constructor <;> nlinarith

/-- **C37** (groups).  With `axis` and `n_groups` every channel gets the minimum and maximum over
the channels of its group (consecutive channels), so the range of a channel covers the channel. -/
theorem C37_groups {o : Optimizer} {q : Quantizer} {e e' : Est} {rows : List Vec} {s : List (ℚ × ℚ)}
    {ax ng : Nat} (hk : ∃ pc, e.kind = .current pc) (ha : e.axis = some ax) (hg : e.nGroups = some ng)
    (h : estForward o q e rows = .ok (e', s)) :
    ng ≠ 0 ∧ ng ∣ rows.length ∧ s.length = rows.length ∧
    ∀ i, i < rows.length → ∃ vals, IsMinMax vals (s.getD i (0, 0)) ∧
      (∀ v, v ∈ vals ↔ ∃ j, j < rows.length ∧ j / (rows.length / ng) = i / (rows.length / ng) ∧
        v ∈ rows.getD j []) ∧ ∀ v ∈ rows.getD i [], (s.getD i (0, 0)).1 ≤ v ∧ v ≤ (s.getD i (0, 0)).2 := by
  obtain ⟨pc, hk⟩ := hk
  unfold estForward at h
  rw [hk] at h
  have hst : currentStat e pc rows = groupStat ng rows := by
    unfold currentStat
    rw [ha]
    simp [axisStat, ha, hg]
  simp only [hst] at h
  cases hb : groupStat ng rows with
  | error err => rw [hb] at h; simp [bind, Except.bind] at h
  | ok r =>
    rw [hb] at h
    simp only [bind, Except.bind, pure, Except.pure, Except.ok.injEq, Prod.mk.injEq] at h
    obtain ⟨_, h2⟩ := h
    subst h2
    unfold groupStat at hb
    by_cases hc : ng = 0 ∨ rows.length % ng ≠ 0
    · rw [if_pos hc] at hb; simp at hb
    · rw [if_neg hc] at hb
      push Not at hc
      have hdvd : ng ∣ rows.length := Nat.dvd_of_mod_eq_zero hc.2
      have hf := mapM_ok_forall₂ hb
      have hlen : r.length = rows.length := by rw [← hf.length_eq]; simp
      refine ⟨hc.1, hdvd, hlen, ?_⟩
      intro i hi
      set gs := rows.length / ng with hgs
      have hgpos : 0 < gs := by
        apply Nat.div_pos (Nat.le_of_dvd (by omega) hdvd)
        omega
      have hmm : IsMinMax (groupRows gs rows (i / gs)).flatten (r.getD i (0, 0)) := by
        have := forall₂_getD hf (i := i) (by omega) 0 (0, 0)
        have e : (List.range rows.length).getD i 0 = i := by
          rw [List.getD_eq_getElem _ _ (by simpa using hi)]; simp
        rw [e] at this
        exact minMax_spec this
      have hmem : ∀ v, v ∈ (groupRows gs rows (i / gs)).flatten ↔
          ∃ j, j < rows.length ∧ j / gs = i / gs ∧ v ∈ rows.getD j [] := by
        intro v
        unfold groupRows
        constructor
        · intro hv
          obtain ⟨row, hrow, hvr⟩ := List.mem_flatten.1 hv
          obtain ⟨k, hk', he⟩ := List.getElem_of_mem hrow
          rw [List.length_take, List.length_drop] at hk'
          rw [List.getElem_take, List.getElem_drop] at he
          refine ⟨i / gs * gs + k, by omega, ?_, ?_⟩
          · rw [show i / gs * gs + k = k + gs * (i / gs) by ring, Nat.add_mul_div_left _ _ hgpos,
              Nat.div_eq_of_lt (lt_min_iff.1 hk').1, zero_add]
          · rw [List.getD_eq_getElem _ _ (by omega), he]; exact hvr
        · rintro ⟨j, hj, hjd, hv⟩
          rw [List.getD_eq_getElem _ _ hj] at hv
          refine List.mem_flatten.2 ⟨_, ?_, hv⟩
          have hmod := Nat.div_add_mod j gs
          have hlt := Nat.mod_lt j hgpos
          rw [hjd, mul_comm] at hmod
          rw [List.mem_take_iff_getElem]
          refine ⟨j % gs, ?_, ?_⟩
          · rw [List.length_drop]; omega
          · rw [List.getElem_drop]
            congr 1
      refine ⟨_, hmm, hmem, ?_⟩
      intro v hv
      exact hmm.2.2 v ((hmem v).2 ⟨i, hi, rfl, hv⟩)

/-! ### Percentiles -/

theorem sorted_getD_mono {s : List ℚ} (hs : s.Pairwise (· ≤ ·)) {i j : Nat} (hij : i ≤ j)
    (hj : j < s.length) : s.getD i 0 ≤ s.getD j 0 := by
  rw [List.getD_eq_getElem _ _ (by omega), List.getD_eq_getElem _ _ hj]
  rcases Nat.eq_or_lt_of_le hij with h | h
  · subst h; exact le_refl _
  · exact List.pairwise_iff_getElem.1 hs i j (by omega) hj h

/-- A percentile lies between two neighbouring order statistics. -/
theorem percentile_spec {p : ℚ} {v : Vec} {r : ℚ} (h : percentileOf p v = .ok r) :
    ∃ (s : List ℚ) (i j : Nat), s.Perm v ∧ s.Pairwise (· ≤ ·) ∧ i ≤ j ∧ j < s.length ∧ j ≤ i + 1 ∧
      (i : ℚ) ≤ p / 100 * (v.length - 1) ∧ p / 100 * (v.length - 1) ≤ j ∧
      s.getD i 0 ≤ r ∧ r ≤ s.getD j 0 ∧ (p = 100 → r = s.getD (v.length - 1) 0) := by
  unfold percentileOf at h
  by_cases c1 : p < 0 ∨ 100 < p
  · rw [if_pos c1] at h; simp at h
  rw [if_neg c1] at h
  by_cases c2 : v = []
  · rw [if_pos c2] at h; simp at h
  rw [if_neg c2] at h
  simp only [Except.ok.injEq] at h
  push Not at c1
  set s := v.mergeSort (fun a b => decide (a ≤ b)) with hs
  have hperm : s.Perm v := List.mergeSort_perm _ _
  have hsort : s.Pairwise (· ≤ ·) := by
    have := List.pairwise_mergeSort (le := fun a b : ℚ => decide (a ≤ b))
      (fun a b c h1 h2 => by simp only [decide_eq_true_eq] at *; exact le_trans h1 h2)
      (fun a b => by simp only [Bool.or_eq_true, decide_eq_true_eq]; exact le_total a b) v
    exact this.imp (fun h => by simpa using h)
  have hlen : s.length = v.length := hperm.length_eq
  have hpos : 0 < v.length := List.length_pos_iff.2 c2
  set hh := p / 100 * (((v.length : ℤ) - 1 : ℤ) : ℚ) with hhh
  have hcast : (((v.length : ℤ) - 1 : ℤ) : ℚ) = (v.length : ℚ) - 1 := by push_cast; rfl
  have hv1 : (0 : ℚ) ≤ (v.length : ℚ) - 1 := by
    have : (1 : ℚ) ≤ (v.length : ℚ) := by exact_mod_cast hpos
    linarith
  have hh0 : 0 ≤ hh := by
    rw [hhh, hcast]; exact mul_nonneg (div_nonneg c1.1 (by norm_num)) hv1
  have hh1 : hh ≤ (v.length : ℚ) - 1 := by
    rw [hhh, hcast]
    have : p / 100 ≤ 1 := by rw [div_le_one (by norm_num)]; exact c1.2
    nlinarith
  have hf0 : 0 ≤ ⌊hh⌋ := Int.floor_nonneg.2 hh0
  have hfle : ((⌊hh⌋ : ℤ) : ℚ) ≤ hh := Int.floor_le hh
  have hflt : hh < ⌊hh⌋ + 1 := Int.lt_floor_add_one hh
  set i := ⌊hh⌋.toNat with hi
  have hicast : (i : ℤ) = ⌊hh⌋ := Int.toNat_of_nonneg hf0
  have hiq : (i : ℚ) = ((⌊hh⌋ : ℤ) : ℚ) := by exact_mod_cast congrArg (Int.cast : ℤ → ℚ) hicast
  have hilt : i < s.length := by
    have h3 : (i : ℚ) ≤ (v.length : ℚ) - 1 := by rw [hiq]; exact hfle.trans hh1
    have h4 : (i : ℚ) + 1 ≤ (v.length : ℚ) := by linarith
    have : i + 1 ≤ v.length := by exact_mod_cast h4
    omega
  rw [← hcast, ← hhh]
  by_cases hi1 : i + 1 < s.length
  · refine ⟨s, i, i + 1, hperm, hsort, by omega, hi1, le_refl _, by rw [hiq]; exact hfle,
      by push_cast; rw [hiq]; exact hflt.le, ?_, ?_, ?_⟩
    · have hm := sorted_getD_mono hsort (Nat.le_succ i) hi1
      have e : s.getD (i + 1) (s.getD i 0) = s.getD (i + 1) 0 := by
        rw [List.getD_eq_getElem _ _ hi1, List.getD_eq_getElem _ _ hi1]
      rw [e] at h
      rw [← h]
      nlinarith
    · have hm := sorted_getD_mono hsort (Nat.le_succ i) hi1
      have e : s.getD (i + 1) (s.getD i 0) = s.getD (i + 1) 0 := by
        rw [List.getD_eq_getElem _ _ hi1, List.getD_eq_getElem _ _ hi1]
      rw [e] at h
      rw [← h]
      simp only [Nat.succ_eq_add_one] at hm
      nlinarith
    · intro hp
      exfalso
      have : hh = (v.length : ℚ) - 1 := by rw [hhh, hcast, hp]; norm_num
      have h5 : (v.length : ℚ) - 1 < (i : ℚ) + 1 := by rw [hiq, ← this]; exact hflt
      have h6 : (v.length : ℚ) < ((i + 1 + 1 : ℕ) : ℚ) := by push_cast; linarith
      have : v.length < i + 1 + 1 := by exact_mod_cast h6
      omega
  · have hil : i = v.length - 1 := by omega
    have e : s.getD (i + 1) (s.getD i 0) = s.getD i 0 := List.getD_eq_default _ _ (by omega)
    rw [e, sub_self, mul_zero, add_zero] at h
    refine ⟨s, i, i, hperm, hsort, le_refl _, hilt, by omega, by rw [hiq]; exact hfle, ?_,
      le_of_eq h, le_of_eq h.symm, ?_⟩
    · rw [hil]
      have : ((v.length - 1 : ℕ) : ℚ) = (v.length : ℚ) - 1 := by
        rw [Nat.cast_sub hpos]; norm_num
      rw [this]; exact hh1
    · intro _; rw [← hil]; exact h.symm

/-- **C37** (percentile, exception).  With a percentile `p ≠ 0` the per-tensor estimate cuts only
the lower end: the upper end is the maximum of the batch, whereas the per-channel estimate uses the
percentiles `p` and `100 - p`. -/
theorem C37_percentile_upper_end {o : Optimizer} {q : Quantizer} {e e' : Est} {rows : List Vec}
    {s : List (ℚ × ℚ)} {p : ℚ} (hk : e.kind = .current (some p)) (hp : p ≠ 0) (ha : e.axis = none)
    (hc : e.perChannel = false) (h : estForward o q e rows = .ok (e', s)) :
    ∃ lo hi, s = [(lo, hi)] ∧ hi ∈ rows.flatten ∧ (∀ x ∈ rows.flatten, x ≤ hi) ∧ lo ≤ hi ∧
      ∃ x ∈ rows.flatten, x ≤ lo := by
  unfold estForward at h
  rw [hk] at h
  have hst : currentStat e (some p) rows = percentileStat false p rows := by
    simp [currentStat, ha, hp, hc]
  simp only [hst, percentileStat, Bool.false_eq_true, if_false] at h
  cases h1 : percentileOf p rows.flatten with
  | error err => rw [h1] at h; simp [bind, Except.bind] at h
  | ok lo =>
    cases h2 : percentileOf 100 rows.flatten with
    | error err => rw [h1, h2] at h; simp [bind, Except.bind] at h
    | ok hi =>
      rw [h1, h2] at h
      simp [bind, Except.bind, pure, Except.pure] at h
      obtain ⟨s2, i2, j2, hp2, hs2, _, hj2, _, _, _, _, _, hmax⟩ := percentile_spec h2
      obtain ⟨s1, i1, j1, hp1, hs1, hij1, hj1, _, _, _, hlo, hlo', _⟩ := percentile_spec h1
      have hmax := hmax rfl
      have hl2 := hp2.length_eq
      have hpos : 0 < rows.flatten.length := by omega
      have hlast : rows.flatten.length - 1 < s2.length := by omega
      have hall : ∀ x ∈ rows.flatten, x ≤ hi := by
        intro x hx
        obtain ⟨k, hk', he⟩ := List.getElem_of_mem (hp2.mem_iff.2 hx)
        rw [hmax, ← he]
        have := sorted_getD_mono hs2 (i := k) (j := rows.flatten.length - 1) (by omega) hlast
        rwa [List.getD_eq_getElem _ _ hk'] at this
      refine ⟨lo, hi, h.2.symm, ?_, hall, ?_, ?_⟩
      · rw [hmax, List.getD_eq_getElem _ _ hlast]
        exact hp2.mem_iff.1 (List.getElem_mem hlast)
      · refine hlo'.trans (hall _ ?_)
        rw [List.getD_eq_getElem _ _ hj1]
        exact hp1.mem_iff.1 (List.getElem_mem hj1)
      · refine ⟨s1.getD i1 0, ?_, hlo⟩
        rw [List.getD_eq_getElem _ _ (by omega)]
        exact hp1.mem_iff.1 (List.getElem_mem (by omega))

/-! ### Reset -/

/-- **C37** (reset).  After `reset` a min-max estimator behaves on every sequence of batches as a
fresh one with the same options. -/
theorem C37_reset (o : Optimizer) (q : Quantizer) (e : Est) (fresh : Est)
    (hk : (∃ pc, e.kind = .current pc) ∨ e.kind = .allMinMax ∨ ∃ m, e.kind = .running m)
    (hf : fresh = { kind := e.kind, perChannel := e.perChannel, axis := e.axis, nGroups := e.nGroups })
    (bs : List (List Vec)) :
    (estRun o q (estReset e) bs).map (fun r => r.cur) = (estRun o q fresh bs).map (fun r => r.cur) := by
  have key : ∀ (bs : List (List Vec)) (a b : Est),
      a.kind = b.kind → a.perChannel = b.perChannel → a.axis = b.axis → a.nGroups = b.nGroups →
      a.cur = b.cur → ((∃ pc, a.kind = .current pc) ∨ a.kind = .allMinMax ∨ ∃ m, a.kind = .running m) →
      (estRun o q a bs).map (fun r => r.cur) = (estRun o q b bs).map (fun r => r.cur) := by
    intro bs
    induction bs with
    | nil => intro a b _ _ _ _ h _; simp [estRun, Except.map, h]
    | cons x xs ih =>
      intro a b hk hp ha hn hcur hkind
      have hax : axisStat a x = axisStat b x := by simp [axisStat, hp, ha, hn]
      have hcs : ∀ pc, currentStat a pc x = currentStat b pc x := by
        intro pc; simp [currentStat, hax, ha, hp]
      simp only [estRun, bind, Except.bind]
      rcases hkind with ⟨pc, h⟩ | h | ⟨m, h⟩
      · have h' : b.kind = .current pc := by rw [← hk]; exact h
        simp only [estForward, h, h', hcs, bind, Except.bind, pure, Except.pure]
        cases currentStat b pc x with
        | error err => rfl
        | ok s => exact ih _ _ (by simp [hk, h, h']) hp ha hn rfl (Or.inl ⟨pc, by simp [h]⟩)
      · have h' : b.kind = .allMinMax := by rw [← hk]; exact h
        simp only [estForward, h, h', hp, hcur, bind, Except.bind, pure, Except.pure]
        cases batchStat b.perChannel x with
        | error err => rfl
        | ok s =>
          cases hbc : b.cur with
          | none =>
            exact ih _ _ (by simp [h, h']) rfl ha hn rfl (Or.inr (Or.inl (by simp [h])))
          | some c0 =>
            simp only
            cases combine allUpd c0 s with
            | error err => rfl
            | ok c => exact ih _ _ (by simp [h, h']) rfl ha hn rfl (Or.inr (Or.inl (by simp [h])))
      · have h' : b.kind = .running m := by rw [← hk]; exact h
        simp only [estForward, h, h', hax, hcur, bind, Except.bind, pure, Except.pure]
        cases axisStat b x with
        | error err => rfl
        | ok s =>
          cases hbc : b.cur with
          | none =>
            exact ih _ _ (by simp [h, h']) hp ha hn rfl (Or.inr (Or.inr ⟨m, by simp [h]⟩))
          | some c0 =>
            simp only
            cases combine (runUpd m) c0 s with
            | error err => rfl
            | ok c => exact ih _ _ (by simp [h, h']) hp ha hn rfl (Or.inr (Or.inr ⟨m, by simp [h]⟩))
  subst hf
  rcases hk with ⟨pc, h⟩ | h | ⟨m, h⟩ <;>
  · have e1 : estReset e = { e with cur := none } := by simp [estReset, h]
    rw [e1]
    apply key <;> simp [h]

end Aihw.Quant

import Verif.Quant.EstProps
import Verif.Quant.Lemmas

namespace Aihw.Quant
open Spec

/-! ## The MSE estimator -/

/-- The squared error that a user measures with the API: set a per-tensor copy of the quantizer to
the range `r`, quantise the values `v`, and sum the squared differences. -/
def ApiSqErr (q : Quantizer) (r : ℚ × ℚ) (v : Vec) (err : ℚ) : Prop :=
  ∃ q1 q2 ys, setQuantRange { q with perChannel := false, axis := none, pars := none, view := none } [r] = .ok q1 ∧
    forward q1 1 [v] = .ok (q2, [ys]) ∧ err = (List.zipWith (fun x y => (x - y) ^ 2) v ys).sum

theorem sqErr_api {q : Quantizer} {r : ℚ × ℚ} {v : Vec} {err : ℚ} (h : sqErr q r v = .ok err) :
    ApiSqErr q r v err := by
  unfold sqErr at h
  by_cases c1 : r.1 = 0 ∧ r.2 = 0
  · rw [if_pos c1] at h; split_ifs at h
  rw [if_neg c1] at h
  simp only at h
  by_cases c2 : q.sym = true ∧ anyNeg [tensorize q r] = true ∧ q.nBits = 0
  · rw [if_pos c2] at h; simp at h
  rw [if_neg c2] at h
  cases hp : parOf q (anyNeg [tensorize q r]) r with
  | error e => rw [hp] at h; simp [bind, Except.bind] at h
  | ok p =>
    rw [hp] at h
    simp only [bind, Except.bind, pure, Except.pure, Except.ok.injEq] at h
    set q0 : Quantizer := { q with perChannel := false, axis := none, pars := none, view := none } with hq0
    set sg := anyNeg [tensorize q r] with hsg
    refine ⟨{ q0 with pars := some [p], signed := if q.sym then some sg else q.signed },
      { q0 with pars := some [p], signed := if q.sym then some sg else q.signed },
      v.map (quant1 q sg p), ?_, ?_, ?_⟩
    · unfold setQuantRange
      rw [if_neg (by simp), if_neg (by simp)]
      simp only
      have e1 : anyNeg ([r].map (tensorize q0)) = sg := rfl
      have e2 : parOf q0 sg r = .ok p := hp
      rw [e1, if_neg c2]
      rw [List.mapM_cons, e2]
      rfl
    · have hs : signOf { q0 with pars := some [p], signed := if q.sym then some sg else q.signed } =
          .ok (if q.sym then sg else false) := by
        cases hs' : q.sym <;> simp [signOf, hq0, hs']
      have hsgn : ∀ x, quant1 { q0 with pars := some [p], signed := if q.sym then some sg else q.signed }
          (if q.sym then sg else false) p x = quant1 q sg p x := by
        intro x
        cases hs' : q.sym <;>
          simp [quant1, toInt1, intMin, intMax, scale, zeroPoint, hq0, hs']
      have ha : adjustView { q0 with pars := some [p], signed := if q.sym then some sg else q.signed } 1 =
          .ok { q0 with pars := some [p], signed := if q.sym then some sg else q.signed } := by
        simp [adjustView, hq0]
      unfold forward
      rw [ha]
      simp only [bind, Except.bind, hs]
      simp only [paramsFor, pure, Except.pure, List.length_singleton, List.replicate_one,
        List.zipWith_cons_cons, List.zipWith_nil_left]
      congr 3
      apply List.map_congr_left
      intro x _
      exact hsgn x
    · rw [← h, List.zipWith_map_right]
      congr 1
      induction v with
      | nil => rfl
      | cons x xs ih => simp

theorem argmin_spec (l : List ℚ) (h : l ≠ []) :
    argmin l < l.length ∧ (∀ k, k < l.length → l.getD (argmin l) 0 ≤ l.getD k 0) ∧
      ∀ k, k < argmin l → l.getD (argmin l) 0 < l.getD k 0 := by
  induction l with
  | nil => exact absurd rfl h
  | cons x xs ih =>
    cases xs with
    | nil =>
      refine ⟨by simp [argmin], ?_, ?_⟩
      · intro k hk; simp at hk; subst hk; simp [argmin]
      · intro k hk; simp [argmin] at hk
    | cons y ys =>
      obtain ⟨i1, i2, i3⟩ := ih (by simp)
      have e : argmin (x :: y :: ys) = if x ≤ (y :: ys).getD (argmin (y :: ys)) 0 then 0 else argmin (y :: ys) + 1 := rfl
      by_cases c : x ≤ (y :: ys).getD (argmin (y :: ys)) 0
      · rw [e, if_pos c]
        refine ⟨by simp, ?_, by intro k hk; omega⟩
        intro k hk
        cases k with
        | zero => exact le_refl _
        | succ k =>
          rw [List.getD_cons_zero, List.getD_cons_succ]
          exact c.trans (i2 k (by simpa using hk))
      · rw [e, if_neg c]
        push Not at c
        refine ⟨by simpa using i1, ?_, ?_⟩
        · intro k hk
          rw [List.getD_cons_succ]
          cases k with
          | zero => rw [List.getD_cons_zero]; exact c.le
          | succ k => rw [List.getD_cons_succ]; exact i2 k (by simpa using hk)
        · intro k hk
          rw [List.getD_cons_succ]
          cases k with
          | zero => rw [List.getD_cons_zero]; exact c
          | succ k => rw [List.getD_cons_succ]; exact i3 k (by omega)

/-- What one batch adds. -/
theorem gridStep_spec {e e' : Est} {q : Quantizer} {n : Nat} {rows : List Vec} {s : List (ℚ × ℚ)}
    (h : gridStep e q n rows = .ok (e', s)) :
    let cs := gridCands e q n
    cs ≠ [] ∧ ∃ (old new acc : List (List ℚ)),
      old = e.losses.getD ((channels e.perChannel rows).map fun _ => cs.map fun _ => 0) ∧
      List.Forall₂ (fun v l => List.Forall₂ (fun r er => sqErr q r v = .ok er) cs l)
        (channels e.perChannel rows) new ∧
      old.length = new.length ∧ acc = List.zipWith (List.zipWith (· + ·)) old new ∧
      s = acc.map (fun l => cs.getD (argmin l) (0, 0)) ∧
      e' = { e with losses := some acc, cur := some s } := by
  intro cs
  unfold gridStep at h
  by_cases c1 : cs = []
  · rw [show gridCands e q n = cs from rfl, if_pos c1] at h
    simp [throw, throwThe, MonadExceptOf.throw, bind, Except.bind] at h
  rw [show gridCands e q n = cs from rfl, if_neg c1] at h
  refine ⟨c1, ?_⟩
  have hg : lossGroups e.perChannel rows = channels e.perChannel rows := rfl
  rw [hg] at h
  simp only [pure_bind] at h
  cases hn : (channels e.perChannel rows).mapM (fun v => cs.mapM fun r => sqErr q r v) with
  | error err => rw [hn] at h; simp [bind, Except.bind] at h
  | ok new =>
    rw [hn] at h
    simp only [bind, Except.bind] at h
    have hf := mapM_ok_forall₂ hn
    have hf' : List.Forall₂ (fun v l => List.Forall₂ (fun r er => sqErr q r v = .ok er) cs l)
        (channels e.perChannel rows) new := hf.imp fun a b hab => mapM_ok_forall₂ hab
    generalize hold : e.losses.getD ((channels e.perChannel rows).map fun _ => cs.map fun _ => (0 : ℚ)) = old at h ⊢
    by_cases c2 : old.length ≠ new.length
    · rw [if_pos c2] at h
      simp [throw, throwThe, MonadExceptOf.throw] at h
    · rw [if_neg c2] at h
      push Not at c2
      simp only [pure, Except.pure, Except.ok.injEq, Prod.mk.injEq] at h
      obtain ⟨h1, h2⟩ := h
      refine ⟨old, new, _, rfl, hf', c2, rfl, h2.symm, ?_⟩
      rw [← h1, h2]

theorem estForward_grid {o : Optimizer} {q : Quantizer} {e : Est} {n : Nat} {mg : ℚ}
    (hk : e.kind = .mseGrid n mg) (rows : List Vec) :
    estForward o q e rows =
      (if e.losses = none then defineSearch e q mg rows else .ok e).bind fun e1 => gridStep e1 q n rows := by
  unfold estForward
  simp only [hk]
  rfl

theorem defineSearch_spec {e e1 : Est} {q : Quantizer} {mg : ℚ} {rows : List Vec}
    (h : defineSearch e q mg rows = .ok e1) :
    ∃ lo hi os, IsMinMax rows.flatten (lo, hi) ∧
      (os = true ↔ (e.oneSided = some true ∨ (e.oneSided = none ∧ 0 ≤ lo))) ∧
      e1 = { e with oneSided := some os, search := if os || q.sym then
        (max |lo| hi + mg, -(max |lo| hi + mg), max |lo| hi + mg)
        else (hi + mg, lo - mg, max |hi + mg| |lo - mg|) } := by
  unfold defineSearch at h
  cases hm : minMax rows.flatten with
  | error err => rw [hm] at h; simp [bind, Except.bind] at h
  | ok r =>
    rw [hm] at h
    simp only [bind, Except.bind, pure, Except.pure, Except.ok.injEq] at h
    refine ⟨r.1, r.2, _, minMax_spec hm, ?_, h.symm⟩
    cases e.oneSided with
    | none => simp
    | some b => simp

theorem getD_zipWith_add {a b : List ℚ} {j : Nat} (ha : j < a.length) (hb : j < b.length) :
    (List.zipWith (· + ·) a b).getD j 0 = a.getD j 0 + b.getD j 0 := by
  rw [List.getD_eq_getElem _ _ (by rw [List.length_zipWith]; omega), List.getElem_zipWith,
    List.getD_eq_getElem _ _ ha, List.getD_eq_getElem _ _ hb]

/-- **C37** (MSE, grid search).  For every sequence of batches since construction, the estimate of
each channel is the first candidate range that minimises the squared quantisation error summed over
all the batches.  The candidates are fixed by the first batch: in the 1-D search (symmetric
quantizer, or a first batch without negative values) they are `±step·k` (or `0 .. step·k`),
`k = 1..n`, with `step = (max |x| + margin) / n` over the first batch; in the 2-D search they lie
within the first batch's range widened by the margin. -/
theorem C37_mse_grid {o : Optimizer} {q : Quantizer} {e e' : Est} {n : Nat} {mg : ℚ}
    (hk : e.kind = .mseGrid n mg) (hl : e.losses = none) (hos : e.oneSided = none)
    {b0 : List Vec} {bs : List (List Vec)} (h : estRun o q e (b0 :: bs) = .ok e') :
    ∃ (lo hi : ℚ) (cs c : List (ℚ × ℚ)), IsMinMax b0.flatten (lo, hi) ∧ e'.cur = some c ∧ cs ≠ [] ∧
      ((0 ≤ lo ∨ q.sym = true) → ∃ step, step = (max |lo| hi + mg) / n ∧
        cs = (List.range n).map fun (k : Nat) =>
          (if 0 ≤ lo then 0 else -step * ((k : ℚ) + 1), step * ((k : ℚ) + 1))) ∧
      (¬ (0 ≤ lo ∨ q.sym = true) → ∀ r ∈ cs, lo - mg ≤ r.1 ∧ r.2 ≤ hi + mg) ∧
      (∀ b ∈ b0 :: bs, (channels e.perChannel b).length = c.length) ∧
      ∀ i, i < c.length → ∃ tot : List ℚ, tot.length = cs.length ∧
        (∀ j, j < cs.length → ∃ errs : List ℚ,
          List.Forall₂ (fun b er => ApiSqErr q (cs.getD j (0, 0)) ((channels e.perChannel b).getD i []) er)
            (b0 :: bs) errs ∧ tot.getD j 0 = errs.sum) ∧
        ∃ j, j < cs.length ∧ c.getD i (0, 0) = cs.getD j (0, 0) ∧
          (∀ k, k < cs.length → tot.getD j 0 ≤ tot.getD k 0) ∧
          ∀ k, k < j → tot.getD j 0 < tot.getD k 0 := by
  -- the first batch
  simp only [estRun, bind, Except.bind] at h
  rw [estForward_grid hk, if_pos hl] at h
  cases hd : defineSearch e q mg b0 with
  | error err => rw [hd] at h; simp [Except.bind] at h
  | ok e0 =>
    obtain ⟨lo, hi, os, hmm, hosd, he0⟩ := defineSearch_spec hd
    have hosd' : os = true ↔ 0 ≤ lo := by rw [hosd, hos]; simp
    have hpc : e0.perChannel = e.perChannel := by rw [he0]
    have hk0 : e0.kind = .mseGrid n mg := by rw [he0]; exact hk
    have hl0 : e0.losses = none := by rw [he0]; exact hl
    set cs := gridCands e0 q n with hcs
    -- invariant over the batches
    have inv : ∀ (bs : List (List Vec)) (e' : Est) (bs0 : List (List Vec)) (e1 : Est),
        e1.kind = .mseGrid n mg → e1.perChannel = e.perChannel → gridCands e1 q n = cs →
        (∃ (acc : List (List ℚ)) (c : List (ℚ × ℚ)), e1.losses = some acc ∧ e1.cur = some c ∧
          c = acc.map (fun l => cs.getD (argmin l) (0, 0)) ∧
          (∀ b ∈ bs0, (channels e.perChannel b).length = acc.length) ∧
          ∀ i, i < acc.length → (acc.getD i []).length = cs.length ∧
            ∀ j, j < cs.length → ∃ errs : List ℚ,
              List.Forall₂ (fun b er => ApiSqErr q (cs.getD j (0, 0)) ((channels e.perChannel b).getD i []) er)
                bs0 errs ∧ (acc.getD i []).getD j 0 = errs.sum) →
        estRun o q e1 bs = .ok e' →
        ∃ (acc : List (List ℚ)) (c : List (ℚ × ℚ)), e'.cur = some c ∧ c = acc.map (fun l => cs.getD (argmin l) (0, 0)) ∧
          (∀ b ∈ bs0 ++ bs, (channels e.perChannel b).length = acc.length) ∧
          ∀ i, i < acc.length → (acc.getD i []).length = cs.length ∧
            ∀ j, j < cs.length → ∃ errs : List ℚ,
              List.Forall₂ (fun b er => ApiSqErr q (cs.getD j (0, 0)) ((channels e.perChannel b).getD i []) er)
                (bs0 ++ bs) errs ∧ (acc.getD i []).getD j 0 = errs.sum := by
      intro bs
      induction bs with
      | nil =>
        intro e' bs0 e1 _ _ _ hinv hr
        simp only [estRun, Except.ok.injEq] at hr
        subst hr
        obtain ⟨acc, c, _, h2, h3, h4, h5⟩ := hinv
        rw [List.append_nil]
        exact ⟨acc, c, h2, h3, h4, h5⟩
      | cons b bs ih =>
        intro e' bs0 e1 hk1 hp1 hg1 hinv hr
        obtain ⟨acc, c, hla, _, _, hlen, hacc⟩ := hinv
        simp only [estRun, bind, Except.bind] at hr
        rw [estForward_grid hk1, if_neg (by rw [hla]; simp)] at hr
        simp only [Except.bind] at hr
        cases hgs : gridStep e1 q n b with
        | error err => rw [hgs] at hr; simp at hr
        | ok r =>
          rw [hgs] at hr
          simp only at hr
          obtain ⟨_, old, new, acc', hold, hnew, hln, hacc', hs, he2⟩ := gridStep_spec (e' := r.1) (s := r.2) hgs
          rw [hla] at hold
          simp only [Option.getD_some] at hold
          subst hold
          have hb : (bs0 ++ b :: bs) = (bs0 ++ [b]) ++ bs := by simp
          rw [hb]
          refine ih e' (bs0 ++ [b]) r.1 (by rw [he2]; exact hk1) (by rw [he2]; exact hp1) ?_ ?_ hr
          · rw [he2, ← hg1]; rfl
          · rw [hg1] at hnew hs
            rw [hp1] at hnew
            have hl2 : acc'.length = old.length := by rw [hacc']; simp [hln]
            refine ⟨acc', r.2, by rw [he2], by rw [he2], hs, ?_, ?_⟩
            · intro b' hb'
              rw [hl2]
              rcases List.mem_append.1 hb' with h1 | h1
              · exact hlen b' h1
              · simp at h1; subst h1; rw [hnew.length_eq, hln]
            · intro i hi
              have hi1 : i < old.length := by omega
              have hi2 : i < new.length := by omega
              have e1' : acc'.getD i [] = List.zipWith (· + ·) (old.getD i []) (new.getD i []) := by
                rw [hacc', List.getD_eq_getElem _ _ (by simpa [hln] using hi2), List.getElem_zipWith,
                  List.getD_eq_getElem _ _ hi1, List.getD_eq_getElem _ _ hi2]
              have hnewi := forall₂_getD hnew hi2 [] []
              obtain ⟨ho1, ho2⟩ := hacc i hi1
              have hnl : (new.getD i []).length = cs.length := hnewi.length_eq.symm
              refine ⟨by rw [e1', List.length_zipWith, ho1, hnl, min_self], ?_⟩
              intro j hj
              obtain ⟨errs, hf, hsum⟩ := ho2 j hj
              refine ⟨errs ++ [(new.getD i []).getD j 0], ?_, ?_⟩
              · refine List.rel_append hf (.cons ?_ .nil)
                exact sqErr_api (forall₂_getD hnewi (by omega) (0, 0) 0)
              · rw [e1', getD_zipWith_add (by omega) (by omega), List.sum_append, List.sum_singleton, ← hsum]
    rw [hd] at h
    simp only [Except.bind] at h
    cases hgs : gridStep e0 q n b0 with
    | error err => rw [hgs] at h; simp at h
    | ok r =>
      rw [hgs] at h
      simp only at h
      obtain ⟨hne, old, new, acc', hold, hnew, hln, hacc', hs, he2⟩ := gridStep_spec (e' := r.1) (s := r.2) hgs
      rw [hl0] at hold
      simp only [Option.getD_none] at hold
      rw [hpc] at hnew hold
      have hol : old.length = (channels e.perChannel b0).length := by rw [hold]; simp
      have hl2 : acc'.length = old.length := by rw [hacc']; simp [hln]
      have base := inv bs e' [b0] r.1 (by rw [he2]; exact hk0) (by rw [he2]; exact hpc)
        (by rw [he2]; rfl)
        ⟨acc', r.2, by rw [he2], by rw [he2], hs, (by
          intro b' hb'
          simp at hb'; subst hb'; rw [hl2, hol]), (by
          intro i hi
          have hi1 : i < old.length := by omega
          have hi2 : i < new.length := by omega
          have e1' : acc'.getD i [] = List.zipWith (· + ·) (old.getD i []) (new.getD i []) := by
            rw [hacc', List.getD_eq_getElem _ _ (by simpa [hln] using hi2), List.getElem_zipWith,
              List.getD_eq_getElem _ _ hi1, List.getD_eq_getElem _ _ hi2]
          have hnewi := forall₂_getD hnew hi2 [] []
          have hnl : (new.getD i []).length = cs.length := hnewi.length_eq.symm
          have ho : old.getD i [] = cs.map fun _ => 0 := by
            rw [hold, List.getD_eq_getElem _ _ (by rw [List.length_map]; omega), List.getElem_map]
          refine ⟨by rw [e1', ho, List.length_zipWith, hnl, List.length_map, min_self], ?_⟩
          intro j hj
          refine ⟨[(new.getD i []).getD j 0], .cons (sqErr_api (forall₂_getD hnewi (by omega) (0, 0) 0)) .nil, ?_⟩
          rw [e1', ho, getD_zipWith_add (by rw [List.length_map]; exact hj) (by omega), List.sum_singleton,
            List.getD_eq_getElem (cs.map fun _ => (0 : ℚ)) _ (by rw [List.length_map]; exact hj), List.getElem_map, zero_add])⟩ h
      obtain ⟨acc, c, hcur, hc, hlens, hall⟩ := base
      have hclen : c.length = acc.length := by rw [hc]; simp
      refine ⟨lo, hi, cs, c, hmm, hcur, hne, ?_, ?_, ?_, ?_⟩
      · intro hside
        have hor : (os || q.sym) = true := by
          rcases hside with h1 | h1
          · rw [hosd'.2 h1]; rfl
          · rw [h1]; simp
        refine ⟨_, rfl, ?_⟩
        rw [hcs, he0]
        simp only [gridCands, Option.getD_some, hor, if_true, cands1D]
        apply List.map_congr_left
        intro k _
        by_cases hc0 : 0 ≤ lo
        · rw [if_pos (hosd'.2 hc0), if_pos hc0]
          push_cast; rfl
        · rw [if_neg (fun h => hc0 (hosd'.1 h)), if_neg hc0]
          push_cast; rfl
      · intro hside r' hr'
        have hor : (os || q.sym) = false := by
          rw [Bool.or_eq_false_iff]
          constructor
          · by_contra hcon
            simp at hcon
            exact hside (Or.inl (hosd'.1 hcon))
          · by_contra hcon
            simp at hcon
            exact hside (Or.inr hcon)
        rw [hcs, he0] at hr'
        simp only [gridCands, Option.getD_some, hor, Bool.false_eq_true, if_false, cands2D,
          List.mem_flatMap, List.mem_map] at hr'
        obtain ⟨k, _, sh, _, rev, _, hr''⟩ := hr'
        rw [← hr'']
        exact ⟨le_max_right _ _, min_le_right _ _⟩
      · intro b hb
        rw [hclen]
        exact hlens b (by simpa using hb)
      · intro i hi
        have hi' : i < acc.length := by omega
        obtain ⟨h1, h2⟩ := hall i hi'
        have hne' : acc.getD i [] ≠ [] := by
          intro h0
          rw [h0] at h1
          exact hne (List.length_eq_zero_iff.1 h1.symm)
        obtain ⟨a1, a2, a3⟩ := argmin_spec _ hne'
        refine ⟨acc.getD i [], h1, ?_, argmin (acc.getD i []), by omega, ?_, ?_, a3⟩
        · intro j hj
          obtain ⟨errs, hf, hsum⟩ := h2 j hj
          exact ⟨errs, by simpa using hf, hsum⟩
        · rw [hc, List.getD_eq_getElem _ _ (by simpa using hi'), List.getElem_map,
            List.getD_eq_getElem _ _ hi']
        · intro k hk
          exact a2 k (by omega)

/-- **C37** (MSE reset, exception).  `reset` forgets the losses and the search range but not whether
the first distribution was one-sided: after it an estimator that once saw a first batch without
negative values returns a zero minimum for every later batch, whatever its values. -/
theorem C37_mse_reset_keeps_sign {o : Optimizer} {q : Quantizer} {e e' : Est} {n : Nat} {mg : ℚ}
    (hk : e.kind = .mseGrid n mg) (hos : e.oneSided = some true) {rows : List Vec}
    {s : List (ℚ × ℚ)} (h : estForward o q (estReset e) rows = .ok (e', s)) :
    (estReset e).losses = none ∧ (estReset e).cur = none ∧ ∀ r ∈ s, r.1 = 0 := by
  have e1 : estReset e = { e with cur := none, losses := none } := by simp [estReset, hk]
  refine ⟨by rw [e1], by rw [e1], ?_⟩
  have hk' : (estReset e).kind = .mseGrid n mg := by rw [e1]; exact hk
  rw [estForward_grid hk', if_pos (by rw [e1])] at h
  cases hd : defineSearch (estReset e) q mg rows with
  | error err => rw [hd] at h; simp [Except.bind] at h
  | ok e0 =>
    rw [hd] at h
    simp only [Except.bind] at h
    obtain ⟨lo, hi, os, _, hosd, he0⟩ := defineSearch_spec hd
    have : os = true := hosd.2 (Or.inl (by rw [e1]; exact hos))
    subst this
    obtain ⟨_, old, new, acc, _, _, _, _, hs, _⟩ := gridStep_spec h
    intro r hr
    rw [hs] at hr
    obtain ⟨l, _, hl⟩ := List.mem_map.1 hr
    rw [← hl, he0]
    simp only [gridCands, Option.getD_some, Bool.true_or, if_true, cands1D]
    rcases lt_or_ge (argmin l) n with hlt | hge
    · rw [List.getD_eq_getElem _ _ (by simpa using hlt), List.getElem_map]
    · rw [List.getD_eq_default _ _ (by simpa using hge)]

/-- **C37** (MSE, one bit, exception).  The 2-D grid search of an asymmetric one-bit quantizer has
no candidate: every first batch with a negative value raises ValueError. -/
theorem C37_mse_one_bit {o : Optimizer} {q : Quantizer} {e : Est} {n : Nat} {mg : ℚ}
    (hk : e.kind = .mseGrid n mg) (hl : e.losses = none) (hos : e.oneSided = none)
    (hq : q.sym = false) (hb : q.nBits = 1) (rows : List Vec) (x : ℚ) (hx : x ∈ rows.flatten)
    (hneg : x < 0) : estForward o q e rows = .error .valueError := by
  rw [estForward_grid hk, if_pos hl]
  obtain ⟨r, hr⟩ := minMax_ok (v := rows.flatten) (List.ne_nil_of_mem hx)
  have hlo : r.1 < 0 := lt_of_le_of_lt ((minMax_spec hr).2.2 x hx).1 hneg
  have hd : ∃ e1, defineSearch e q mg rows = .ok e1 ∧ e1.oneSided = some false := by
    unfold defineSearch
    rw [hr]
    refine ⟨_, rfl, ?_⟩
    simp [hos, hlo]
  obtain ⟨e1, hd, hos1⟩ := hd
  rw [hd]
  simp only [Except.bind]
  have hc : gridCands e1 q n = [] := by
    simp [gridCands, hos1, hq, cands2D, hb]
  unfold gridStep
  rw [hc]
  simp [throw, throwThe, MonadExceptOf.throw, bind, Except.bind]

/-- **C37** (MSE, golden section).  The estimate of a batch depends only on that batch and on the
first one (which fixed the search range): two histories with the same first batch give the same
estimate for the same last batch; the error of the batches in between is not accumulated. -/
theorem C37_golden_last_batch {o : Optimizer} {q : Quantizer} {e e1 e2 : Est} {mg : ℚ}
    (hk : e.kind = .mseGolden mg) (b0 b : List Vec) (bs1 bs2 : List (List Vec))
    (h1 : estRun o q e (b0 :: bs1 ++ [b]) = .ok e1) (h2 : estRun o q e (b0 :: bs2 ++ [b]) = .ok e2) :
    e1.cur = e2.cur := by
  have hgo : ∀ (e : Est) (rows : List Vec), e.kind = .mseGolden mg →
      estForward o q e rows =
        (if e.losses = none then defineSearch e q mg rows else .ok e).bind fun e1 => goldenStep o e1 q rows := by
    intro e rows hk
    unfold estForward
    simp only [hk]
    rfl
  have keep : ∀ (bs : List (List Vec)) (a a' : Est), a.kind = .mseGolden mg → a.losses ≠ none →
      estRun o q a bs = .ok a' → a'.kind = .mseGolden mg ∧ a'.losses ≠ none ∧ a'.search = a.search ∧
        a'.oneSided = a.oneSided ∧ a'.perChannel = a.perChannel := by
    intro bs
    induction bs with
    | nil =>
      intro a a' hk hl hr
      simp only [estRun, Except.ok.injEq] at hr
      subst hr
      exact ⟨hk, hl, rfl, rfl, rfl⟩
    | cons x xs ih =>
      intro a a' hk hl hr
      simp only [estRun, bind, Except.bind, hgo a x hk, if_neg hl, goldenStep] at hr
      have := ih _ _ (by exact hk) (by simp) hr
      exact ⟨this.1, this.2.1, this.2.2.1, this.2.2.2.1, this.2.2.2.2⟩
  have last : ∀ (bs : List (List Vec)) (e' : Est), estRun o q e (b0 :: bs ++ [b]) = .ok e' →
      ∃ a0 : Est, (∃ r, estForward o q e b0 = .ok r ∧ r.1 = a0) ∧
        (goldenStep o a0 q b).map (fun r => r.1.cur) = .ok e'.cur := by
    intro bs e' h
    rw [List.cons_append, estRun] at h
    cases hf : estForward o q e b0 with
    | error err => rw [hf] at h; simp [bind, Except.bind] at h
    | ok r =>
      rw [hf] at h
      simp only [bind, Except.bind] at h
      have hr1 : r.1.kind = .mseGolden mg ∧ r.1.losses ≠ none := by
        rw [hgo e b0 hk] at hf
        split_ifs at hf with hl
        · cases hd : defineSearch e q mg b0 with
          | error err => rw [hd] at hf; simp [Except.bind] at hf
          | ok ed =>
            rw [hd] at hf
            simp only [Except.bind, goldenStep, Except.ok.injEq] at hf
            rw [← hf]
            obtain ⟨_, _, _, _, _, he⟩ := defineSearch_spec hd
            refine ⟨?_, by simp⟩
            rw [he]; exact hk
        · simp only [Except.bind, goldenStep, Except.ok.injEq] at hf
          rw [← hf]
          exact ⟨hk, by simp⟩
      rw [estRun_snoc] at h
      cases hr : estRun o q r.1 bs with
      | error err => rw [hr] at h; simp [Except.bind] at h
      | ok a =>
        rw [hr] at h
        obtain ⟨k1, k2, k3, k4, k5⟩ := keep bs r.1 a hr1.1 hr1.2 hr
        simp only [Except.bind, hgo a b k1, if_neg k2, goldenStep, Except.map, Except.ok.injEq] at h
        refine ⟨r.1, ⟨r, rfl, rfl⟩, ?_⟩
        simp only [goldenStep, Except.map, Except.ok.injEq]
        rw [← h]
        simp only [k3, k4, k5]
  obtain ⟨a1, ⟨r1, hr1, e1'⟩, g1⟩ := last bs1 e1 h1
  obtain ⟨a2, ⟨r2, hr2, e2'⟩, g2⟩ := last bs2 e2 h2
  rw [hr1] at hr2
  simp only [Except.ok.injEq] at hr2
  subst hr2
  rw [← e1', e2'] at g1
  rw [g1] at g2
  simpa using g2

/-! ### The hypotheses are met -/

/-- An optimizer for the examples. -/
def midOpt : Optimizer := { range := fun _ a b => (a + b) / 2, shift := fun _ _ a b => (a + b) / 2 }

example : ∃ e', estRun midOpt { sym := true, nBits := 2 } { kind := .allMinMax, perChannel := true }
    [[[1, 2], [0, 5]], [[-3, 1], [2, 4]]] = .ok e' ∧ e'.cur = some [(-3, 2), (0, 5)] := by
  refine ⟨_, rfl, ?_⟩; decide +kernel

example : ∃ e', estRun midOpt { sym := true, nBits := 2 } { kind := .running (9 / 10) }
    [[[1, 2], [0, 5]], [[-10, 1], [2, 4]]] = .ok e' ∧ e'.cur = some [(-1, 49 / 10)] := by
  refine ⟨_, rfl, ?_⟩; decide +kernel

example : ∃ r, estForward midOpt { sym := true, nBits := 2 }
    { kind := .current none, axis := some 1, nGroups := some 2 } [[1], [3], [-1], [7]] = .ok r ∧
    r.2 = [(1, 3), (1, 3), (-1, 7), (-1, 7)] := by
  refine ⟨_, rfl, ?_⟩; decide +kernel

example : (estRun midOpt { sym := true, nBits := 2 } { kind := .mseGrid 2 1 }
    [[[1, -1]], [[2, -1]]]).toOption.map (·.cur) = some (some [(-1, 1)]) := by
  decide +kernel

example : ∃ r, estForward midOpt { sym := false, nBits := 4 } { kind := .current (some 50) } [[1, 3, -1, 7]]
    = .ok r := ⟨_, rfl⟩

end Aihw.Quant

import Verif.Quant.Lemmas

namespace Aihw.Quant

/-! ## From tensors to channels -/

/-- What `set_quant_range` stores for the channels of the next input. -/
theorem set_params {q q1 : Quantizer} {rs : List (ℚ × ℚ)} (h : setQuantRange q rs = .ok q1) :
    ∃ (ps : List Par), q1 = { q with pars := some ps, signed := if q.sym then some (anyNeg (rs.map (tensorize q))) else q.signed }
      ∧ rs ≠ []
      ∧ (1 < rs.length → q.perChannel = true ∨ q.axis ≠ none)
      ∧ ¬ (q.sym = true ∧ anyNeg (rs.map (tensorize q)) = true ∧ q.nBits = 0)
      ∧ (rs.length ≠ 1 → ps.length = rs.length)
      ∧ (q.pars = none → ps.length = rs.length)
      ∧ ∀ i p, ps[i]? = some p →
          parOf q (anyNeg (rs.map (tensorize q))) (Spec.channelRange rs i) = .ok p := by
  unfold setQuantRange at h
  by_cases c1 : 1 < rs.length ∧ q.perChannel = false ∧ q.axis = none
  · rw [if_pos c1] at h; simp at h
  rw [if_neg c1] at h
  by_cases c2 : rs = []
  · rw [if_pos c2] at h; simp at h
  rw [if_neg c2] at h
  simp only at h
  by_cases c3 : q.sym = true ∧ anyNeg (rs.map (tensorize q)) = true ∧ q.nBits = 0
  · rw [if_pos c3] at h; simp at h
  rw [if_neg c3] at h
  cases hm : rs.mapM (parOf q (anyNeg (rs.map (tensorize q)))) with
  | error e => rw [hm] at h; simp [bind, Except.bind] at h
  | ok ps0 =>
    cases hst : store q.pars ps0 with
    | error e => rw [hm] at h; simp [bind, Except.bind, hst] at h
    | ok ps =>
      rw [hm] at h
      simp [bind, Except.bind, hst, pure, Except.pure] at h
      have hf := mapM_ok_forall₂ hm
      have hlen : ps0.length = rs.length := hf.length_eq.symm
      have hget : ∀ (i : Nat) (p : Par), ps0[i]? = some p → ∃ r : ℚ × ℚ, rs[i]? = some r ∧
          parOf q (anyNeg (rs.map (tensorize q))) r = .ok p := by
        intro i p hi
        have hil : i < ps0.length := (List.getElem?_eq_some_iff.1 hi).1
        have hir : i < rs.length := by omega
        have := (List.forall₂_iff_get.1 hf).2 i hir hil
        refine ⟨rs[i], List.getElem?_eq_getElem hir, ?_⟩
        have e : ps0[i] = p := (List.getElem?_eq_some_iff.1 hi).2
        rw [← e]; simpa using this
      refine ⟨ps, ?_, c2, ?_, c3, ?_, ?_, ?_⟩
      · exact h.symm
      · intro hl
        by_contra hcon
        push Not at hcon
        exact c1 ⟨hl, by simpa using hcon.1, hcon.2⟩
      · intro hl
        unfold store at hst
        split at hst
        · simp at hst; subst hst; exact hlen
        · simp at hlen; omega
        · split_ifs at hst; simp at hst; subst hst; exact hlen
      · intro hl
        rw [hl] at hst; simp [store] at hst; subst hst; exact hlen
      · intro i p hi
        have single : ∀ (o : List Par) (p0 : Par), ps0 = [p0] → ps = List.replicate o.length p0 →
            parOf q (anyNeg (rs.map (tensorize q))) (Spec.channelRange rs i) = .ok p := by
          intro o p0 e1 e2
          obtain ⟨r, hr⟩ : ∃ r, rs = [r] := List.length_eq_one_iff.1 (by rw [← hlen, e1]; rfl)
          have hp : p = p0 := by
            rw [e2] at hi
            have := List.mem_of_getElem? hi
            exact (List.mem_replicate.1 this).2
          obtain ⟨r', hr', hpo⟩ := hget 0 p0 (by rw [e1]; rfl)
          have e3 : r' = r := by
            have h5 : ([r] : List (ℚ × ℚ))[0]? = some r' := by rw [← hr]; exact hr'
            simpa using h5.symm
          rw [hp, show Spec.channelRange rs i = r' by rw [e3, hr]; rfl]
          exact hpo
        have normal : ps = ps0 →
            parOf q (anyNeg (rs.map (tensorize q))) (Spec.channelRange rs i) = .ok p := by
          intro e
          subst e
          obtain ⟨r, hr, hpo⟩ := hget i p hi
          have : Spec.channelRange rs i = r := by
            unfold Spec.channelRange
            split
            · rename_i r0
              rcases i with _ | i
              · simpa using hr
              · simp at hr
            · rw [List.getD_eq_getElem?_getD, hr]; rfl
          rw [this]; exact hpo
        unfold store at hst
        split at hst
        · simp at hst; exact normal hst.symm
        · simp at hst; exact single _ _ rfl hst.symm
        · split_ifs at hst
          simp at hst; exact normal hst.symm

theorem adjustView_eq {q q2 : Quantizer} {rank : Nat} (h : adjustView q rank = .ok q2) :
    q2 = { q with view := q2.view } := by
  unfold adjustView at h
  rcases q with ⟨a, b, c, d, e, f, g, i, j⟩
  cases e <;> simp only [Option.isSome_none, Option.isSome_some, Bool.false_eq_true, if_false, if_true] at h <;>
    (cases d <;> simp only [Bool.false_eq_true, if_false, if_true] at h)
  · simp at h; subst h; rfl
  · cases j with
    | none =>
      cases g with
      | none => simp at h
      | some g => simp at h; subst h; split_ifs <;> rfl
    | some j => simp at h; subst h; rfl
  · simp at h; subst h; rfl
  · simp at h; subst h; rfl

theorem eta_view {q : Quantizer} {v : Option Nat} (h : q.view = v) : { q with view := v } = q := by
  subst h; rfl

/-- `forward` is an element-wise function per channel, with one set of parameters per channel. -/
theorem forward_fn {q q2 : Quantizer} {rank : Nat} {rows ys : List Vec}
    (h : forward q rank rows = .ok (q2, ys)) :
    ∃ (sg : Bool) (ps : List Par) (ch : Nat → Par), q.pars = some ps ∧ signOf q = .ok sg ∧
      ys = rows.mapIdx (fun i row => row.map (quant1 q sg (ch i))) ∧
      ∀ i, i < rows.length → ∃ j, ps[j]? = some (ch i) ∧ (ps.length ≠ 1 → j = i) := by
  unfold forward at h
  cases ha : adjustView q rank with
  | error e => rw [ha] at h; simp [bind, Except.bind] at h
  | ok q' =>
    have hv := adjustView_eq ha
    rw [ha] at h
    simp only [bind, Except.bind] at h
    have hsg : signOf q' = signOf q := by rw [hv]; rfl
    cases hs : signOf q' with
    | error e => rw [hs] at h; simp at h
    | ok sg =>
      rw [hs] at h
      simp only at h
      cases hp : paramsFor q' rank rows.length with
      | error e => rw [hp] at h; simp at h
      | ok pl =>
        rw [hp] at h
        simp only [pure, Except.pure, Except.ok.injEq, Prod.mk.injEq] at h
        obtain ⟨rfl, hy⟩ := h
        have hq1 : ∀ (p : Par) (x : ℚ), quant1 q' sg p x = quant1 q sg p x := by
          intro p x; rw [hv]; rfl
        have hpars : q'.pars = q.pars := by rw [hv]
        have key : pl.length = rows.length ∧ ∃ ps, q.pars = some ps ∧
            ∀ i, i < rows.length → ∃ j, ps[j]? = some (pl.getD i ⟨0, 0⟩) ∧ (ps.length ≠ 1 → j = i) := by
          unfold paramsFor at hp
          rw [hpars] at hp
          split at hp
          · simp at hp
          · rename_i p heq
            simp at hp; subst hp
            refine ⟨by simp, [p], heq, ?_⟩
            intro i hi
            refine ⟨0, ?_, by simp⟩
            rw [List.getD_eq_getElem?_getD, List.getElem?_replicate, if_pos hi]; rfl
          · rename_i ps _ heq
            split_ifs at hp with c1 c2
            simp at hp; subst hp
            refine ⟨c2, ps, heq, ?_⟩
            intro i hi
            refine ⟨i, ?_, fun _ => rfl⟩
            rw [List.getD_eq_getElem _ _ (by omega)]
            exact List.getElem?_eq_getElem (by omega)
        obtain ⟨hl, ps, hps, hch⟩ := key
        refine ⟨sg, ps, fun i => pl.getD i ⟨0, 0⟩, hps, by rw [← hsg]; exact hs, ?_, hch⟩
        rw [← hy]
        apply List.ext_getElem
        · simp [hl]
        · intro i h1 h2
          simp only [List.getElem_zipWith, List.getElem_mapIdx]
          have : i < pl.length := by simp at h1; omega
          rw [List.getD_eq_getElem _ _ this]
          apply List.map_congr_left
          intro x _
          exact hq1 _ _

/-- The ranges of the channels met by an input after `set_quant_range`. -/
theorem set_forward {q q1 q2 : Quantizer} {rs : List (ℚ × ℚ)} {rank : Nat} {rows ys : List Vec}
    (hs : setQuantRange q rs = .ok q1) (hf : forward q1 rank rows = .ok (q2, ys)) :
    ∃ (sg : Bool) (ch : Nat → Par), signOf q1 = .ok sg ∧
      (q.sym = true → sg = anyNeg (rs.map (tensorize q))) ∧
      ys = rows.mapIdx (fun i row => row.map (quant1 q sg (ch i))) ∧
      ∀ i, i < rows.length →
        parOf q (anyNeg (rs.map (tensorize q))) (Spec.channelRange rs i) = .ok (ch i) := by
  obtain ⟨ps, e1, hne, _, _, hlen1, _, hget⟩ := set_params hs
  obtain ⟨sg, ps', ch, hps, hsg, hy, hch⟩ := forward_fn hf
  rw [e1] at hps
  simp at hps
  subst hps
  refine ⟨sg, ch, hsg, ?_, ?_, ?_⟩
  · intro hsym
    rw [e1] at hsg
    simp [signOf, hsym] at hsg
    exact hsg.symm
  · rw [hy]
    apply List.ext_getElem
    · simp
    · intro i h1 h2
      simp only [List.getElem_mapIdx]
      apply List.map_congr_left
      intro x _
      rw [e1]; rfl
  · intro i hi
    obtain ⟨j, hj, hji⟩ := hch i hi
    have h1 := hget j (ch i) hj
    by_cases c : rs.length = 1
    · obtain ⟨r, hr⟩ := List.length_eq_one_iff.1 c
      rw [hr] at h1 ⊢
      exact h1
    · have : ps.length ≠ 1 := by rw [hlen1 c]; exact c
      rw [hji this] at h1
      exact h1

/-! ## C30 -/

/-- **C30** (asymmetric quantizer).  After `set_quant_range` with the ranges `rs`, every successful
`forward` applies to each channel an element-wise function that is a good uniform quantizer with
`2^n` levels and step `(max(hi,eps) - min(lo,0)) / (2^n - 1)` (at least `eps` in the linear domain),
whose levels cover the requested range up to half a step. -/
theorem C30_asymmetric {q q1 q2 : Quantizer} (hq : q.sym = false) (he : 0 < q.eps)
    {rs : List (ℚ × ℚ)} {rank : Nat} {rows ys : List Vec}
    (hs : setQuantRange q rs = .ok q1) (hf : forward q1 rank rows = .ok (q2, ys)) :
    ∃ f : Nat → ℚ → ℚ, ys = rows.mapIdx (fun i row => row.map (f i)) ∧
      ∀ i, i < rows.length → ∃ (lo hi s : ℚ) (kmin kmax : ℤ), Spec.channelRange rs i = (lo, hi) ∧
        s = (if q.logDomain then (max hi q.eps - min lo 0) / (2 ^ q.nBits - 1)
             else max ((max hi q.eps - min lo 0) / (2 ^ q.nBits - 1)) q.eps) ∧
        kmax - kmin = 2 ^ q.nBits - 1 ∧
        s * kmin ≤ min lo 0 + s / 2 ∧ max hi q.eps - s / 2 ≤ s * kmax ∧
        Spec.GoodQuantizer s kmin kmax lo hi (f i) := by
  obtain ⟨sg, ch, _, _, hy, hch⟩ := set_forward hs hf
  refine ⟨fun i => quant1 q sg (ch i), hy, fun i hi => ?_⟩
  obtain ⟨_, h1, h2, h3, h4⟩ := good_asym hq he _ sg (hch i hi)
  exact ⟨_, _, _, _, _, rfl, h1, by ring, h2, h3, h4⟩

/-- **C30** (symmetric quantizer).  The sign flag is shared by all channels: it is set iff some
requested minimum is negative.  Signed grids have the levels `-2^(n-1) .. 2^(n-1)-1` and the step
`max(|lo|, hi) / (2^(n-1)-1)`, unsigned ones `0 .. 2^n-1` and `max(hi, eps) / (2^n-1)`. -/
theorem C30_symmetric {q q1 q2 : Quantizer} (hq : q.sym = true) (he : 0 < q.eps)
    {rs : List (ℚ × ℚ)} {rank : Nat} {rows ys : List Vec}
    (hs : setQuantRange q rs = .ok q1) (hf : forward q1 rank rows = .ok (q2, ys)) :
    ∃ f : Nat → ℚ → ℚ, ys = rows.mapIdx (fun i row => row.map (f i)) ∧
      ∀ i, i < rows.length → ∃ (lo hi s : ℚ), Spec.channelRange rs i = (lo, hi) ∧
        (((∃ r ∈ rs, r.1 < 0) ∧
          s = (if q.logDomain then max |min lo 0| (max hi q.eps) / (2 ^ (q.nBits - 1) - 1)
               else max (max |min lo 0| (max hi q.eps) / (2 ^ (q.nBits - 1) - 1)) q.eps) ∧
          2 ≤ q.nBits ∧
          Spec.GoodQuantizer s (-2 ^ (q.nBits - 1)) (2 ^ (q.nBits - 1) - 1) lo hi (f i)) ∨
         ((∀ r ∈ rs, 0 ≤ r.1) ∧
          s = (if q.logDomain then max hi q.eps / (2 ^ q.nBits - 1)
               else max (max hi q.eps / (2 ^ q.nBits - 1)) q.eps) ∧
          Spec.GoodQuantizer s 0 (2 ^ q.nBits - 1) lo hi (f i) ∧ ∀ x, x ≤ 0 → f i x = 0)) := by
  obtain ⟨ps, _, hne, _, hbits, _, _, _⟩ := set_params hs
  obtain ⟨sg, ch, _, hsg, hy, hch⟩ := set_forward hs hf
  have hsg := hsg hq
  refine ⟨fun i => quant1 q sg (ch i), hy, fun i hi => ?_⟩
  have hpo := hch i hi
  rw [← hsg] at hpo hbits
  refine ⟨_, _, scale q (ch i), rfl, ?_⟩
  -- every range that a channel uses is one of the requested ones (or the default `(0, 0)`)
  have hmem : Spec.channelRange rs i ∈ rs ∨ Spec.channelRange rs i = (0, 0) := by
    unfold Spec.channelRange
    split
    · simp
    · rcases lt_or_ge i rs.length with h | h
      · left; rw [List.getD_eq_getElem _ _ h]; exact List.getElem_mem h
      · right; rw [List.getD_eq_default _ _ h]
  cases sg with
  | true =>
    left
    have hneg : ∃ r ∈ rs, r.1 < 0 := by
      have := hsg.symm
      simp only [anyNeg, List.any_map, List.any_eq_true, Function.comp, tensorize,
        decide_eq_true_eq] at this
      obtain ⟨r, hr, hr0⟩ := this
      refine ⟨r, hr, ?_⟩
      rcases min_lt_iff.1 (of_decide_eq_true hr0) with h | h
      · exact h
      · exact absurd h (lt_irrefl _)
    have hn1 : 1 ≤ q.nBits := by
      rcases Nat.eq_zero_or_pos q.nBits with h | h
      · exact absurd ⟨hq, rfl, h⟩ hbits
      · exact h
    obtain ⟨hM, h1, h2⟩ := good_sym hq he true (fun _ => hn1) (by simp) hpo
    simp only [if_true] at hM h1 h2
    refine ⟨hneg, ?_, ?_, h2⟩
    · rw [h1]; push_cast; rfl
    · by_contra hc
      have : q.nBits - 1 = 0 := by omega
      rw [this] at hM; norm_num at hM
  | false =>
    right
    have hpos : ∀ r ∈ rs, 0 ≤ r.1 := by
      intro r hr
      by_contra hc
      push Not at hc
      have : anyNeg (rs.map (tensorize q)) = true := by
        simp only [anyNeg, List.any_map, List.any_eq_true, Function.comp, tensorize,
          decide_eq_true_eq]
        exact ⟨r, hr, decide_eq_true (lt_of_le_of_lt (min_le_left _ _) hc)⟩
      rw [← hsg] at this; simp at this
    have hr0 : 0 ≤ (Spec.channelRange rs i).1 := by
      rcases hmem with h | h
      · exact hpos _ h
      · rw [h]
    obtain ⟨hM, h1, h2⟩ := good_sym hq he false (by simp) (fun _ => hr0) hpo
    simp only [Bool.false_eq_true, if_false, Nat.sub_zero] at hM h1 h2
    refine ⟨hpos, ?_, h2, ?_⟩
    · rw [h1]; push_cast
      have e1 : min (Spec.channelRange rs i).1 0 = 0 := min_eq_right hr0
      rw [e1, abs_zero, max_eq_right (a := (0 : ℚ)) (le_trans he.le (le_max_right _ _))]
      rfl
    · intro x hx
      obtain ⟨hs0, _, _, hnear, hmono, _, h0, _⟩ := h2
      obtain ⟨k, hk1, _, hk⟩ := (hnear x).1
      have a : 0 ≤ quant1 q false (ch i) x := by
        rw [hk]; exact mul_nonneg hs0.le (by exact_mod_cast hk1)
      have b := hmono x 0 hx
      rw [h0] at b
      exact le_antisymm b a

/-- **C30** (integers).  `to_integer_forward`, called after `forward` on the same input, returns
integers of `0 .. 2^n-1` (asymmetric), `0 .. 2^n-1` or `-2^(n-1) .. 2^(n-1)-1` (symmetric). -/
theorem C30_integers {q : Quantizer} {rank : Nat} {rows : List Vec} {zs : List (List ℤ)}
    (h : toIntegerForward q rank rows = .ok zs) :
    ∀ row ∈ zs, ∀ z ∈ row,
      (q.sym = true ∧ q.signed = some true ∧ -2 ^ (q.nBits - 1) ≤ z ∧ z ≤ 2 ^ (q.nBits - 1) - 1) ∨
      (¬ (q.sym = true ∧ q.signed = some true) ∧ 0 ≤ z ∧ z ≤ 2 ^ q.nBits - 1) := by
  unfold toIntegerForward at h
  cases hp : paramsFor q rank rows.length with
  | error e => rw [hp] at h; simp [bind, Except.bind] at h
  | ok ps =>
    rw [hp] at h
    cases hs : signOf q with
    | error e => rw [hs] at h; simp [bind, Except.bind] at h
    | ok sg =>
      rw [hs] at h
      simp only [bind, Except.bind, pure, Except.pure, Except.ok.injEq] at h
      subst h
      intro row hrow z hz
      obtain ⟨i, hi, he⟩ := List.getElem_of_mem hrow
      rw [List.getElem_zipWith] at he
      rw [← he] at hz
      obtain ⟨x, _, hx⟩ := List.mem_map.1 hz
      have h1 := two_pow_pos (q.nBits - 1)
      have h2 := two_pow_pos q.nBits
      unfold signOf at hs
      by_cases c : q.sym = true
      · rw [if_pos c] at hs
        cases hsi : q.signed with
        | none => rw [hsi] at hs; simp at hs
        | some s =>
          rw [hsi] at hs; simp at hs; subst hs
          cases s with
          | true =>
            left
            refine ⟨c, rfl, ?_, ?_⟩ <;> rw [← hx] <;> simp only [toInt1, intMin, intMax, c, if_true]
            · exact le_clampZ (by omega) _
            · exact clampZ_le _ _ _
          | false =>
            right
            refine ⟨by simp, ?_, ?_⟩ <;> rw [← hx] <;>
              simp only [toInt1, intMin, intMax, c, if_true, Bool.false_eq_true, if_false, Nat.sub_zero]
            · exact le_clampZ (by omega) _
            · exact clampZ_le _ _ _
      · right
        refine ⟨fun h => c h.1, ?_, ?_⟩ <;> rw [← hx] <;>
          simp only [toInt1, intMin, intMax, c, Bool.false_eq_true, if_false]
        · exact le_clampZ (by omega) _
        · exact clampZ_le _ _ _

/-- **C30** (uninitialised).  A quantizer whose range was never set, or was reset, raises on every
input, and says that it is not initialised. -/
theorem C30_uninitialised (q : Quantizer) (hsym : q.sym = true → q.signed = none)
    (h : q.pars = none) (rank : Nat) (rows : List Vec) :
    isInit q = false ∧
    (forward q rank rows = .error .quantNotInit ∨ forward q rank rows = .error .assertion) := by
  refine ⟨by simp [isInit, h], ?_⟩
  unfold forward
  cases ha : adjustView q rank with
  | error e =>
    left
    unfold adjustView at ha
    rcases q with ⟨a, b, c, d, e', f, g, i, j⟩
    simp only at h hsym ⊢
    subst h
    cases e' <;> cases d <;> simp at ha
    cases j <;> simp at ha
    subst ha; rfl
  | ok q' =>
    have hv := adjustView_eq ha
    have hp : q'.pars = none := by rw [hv]; exact h
    simp only [bind, Except.bind]
    by_cases c : q.sym = true
    · right
      have : signOf q' = .error .assertion := by
        rw [hv]; simp [signOf, c, hsym c]
      rw [this]
    · left
      have : signOf q' = .ok false := by
        rw [hv]; simp [signOf, c]
      rw [this]
      simp [paramsFor, hp]

/-- **C30** (reset).  `reset` makes the quantizer uninitialised; a following `set_quant_range` with
any number of channels is accepted as on a fresh quantizer. -/
theorem C30_reset (q : Quantizer) (rs : List (ℚ × ℚ)) :
    isInit (reset q) = false ∧ (q.sym = true → (reset q).signed = none) ∧
    ∀ q1, setQuantRange { q with pars := none } rs = .ok q1 → setQuantRange (reset q) rs = .ok q1 := by
  refine ⟨rfl, ?_, ?_⟩
  · intro h; simp [reset, h]
  · intro q1 h
    obtain ⟨a, b, c, d, e', f, g, i, j⟩ := q
    cases a
    · exact h
    · exact h

/-- **C30** (a vector of ranges for a per-tensor quantizer is rejected). -/
theorem C30_per_tensor_vector (q : Quantizer) (rs : List (ℚ × ℚ)) (h1 : q.perChannel = false)
    (h2 : q.axis = none) (h3 : 1 < rs.length) : setQuantRange q rs = .error .valueError := by
  unfold setQuantRange; rw [if_pos ⟨h3, h1, h2⟩]

/-- **C30** (one bit, exception).  A symmetric quantizer with one bit cannot represent any range
with a negative minimum: its step would be divided by `2^0 - 1 = 0`. -/
theorem C30_one_bit_signed (q : Quantizer) (hq : q.sym = true) (hn : q.nBits = 1)
    (lo hi : ℚ) (h : lo < 0) : setQuantRange q [(lo, hi)] = .error .nanInf := by
  have e : anyNeg ([(lo, hi)].map (tensorize q)) = true := by
    simp [anyNeg, tensorize, h]
  unfold setQuantRange
  rw [if_neg (by simp), if_neg (by simp)]
  simp only
  rw [if_neg (by rw [hn]; simp), e]
  have : parOf q true (lo, hi) = .error .nanInf := by
    simp [parOf, intMax, hq, hn]
  simp [List.mapM_cons, this, bind, Except.bind]

/-- **C30** (totality).  A per-channel quantizer with one range per channel accepts every input with
that many channels, as long as all inputs have the same rank; a per-tensor quantizer accepts every
input. -/
theorem C30_accepts {q q1 : Quantizer} (hfresh : q.pars = none) {rs : List (ℚ × ℚ)} (hs : setQuantRange q rs = .ok q1)
    (rank : Nat) (rows : List Vec)
    (hrank : q.axis = none → q.view = none ∨ q.view = some rank)
    (hch : rs.length = 1 ∨ rows.length = rs.length) :
    ∃ q2 ys, forward q1 rank rows = .ok (q2, ys) ∧
      (q.axis = none → q2.view = none ∨ q2.view = some rank) := by
  obtain ⟨ps, e1, hne, hpc, _, hl1, hl2, _⟩ := set_params hs
  have hlen := hl2 hfresh
  have hsign : ∃ sg, ∀ v, signOf { q1 with view := v } = .ok sg := by
    by_cases c : q.sym = true
    · exact ⟨anyNeg (rs.map (tensorize q)), fun v => by rw [e1]; simp [signOf, c]⟩
    · exact ⟨false, fun v => by rw [e1]; simp [signOf, c]⟩
  obtain ⟨sg, hsg⟩ := hsign
  have main : ∀ v, adjustView q1 rank = .ok { q1 with view := v } →
      (rs.length = 1 ∨ v = some rank ∨ (v = none ∧ rank = 1)) →
      (q.axis = none → v = none ∨ v = some rank) →
      ∃ q2 ys, forward q1 rank rows = .ok (q2, ys) ∧
        (q.axis = none → q2.view = none ∨ q2.view = some rank) := by
    intro v hv hal hout
    have hp : ∃ pl, paramsFor { q1 with view := v } rank rows.length = .ok pl := by
      unfold paramsFor
      have : ({ q1 with view := v } : Quantizer).pars = some ps := by rw [e1]
      rw [this]
      split
      · rename_i h; simp at h
      · exact ⟨_, rfl⟩
      · rename_i ps' hnot heq
        simp at heq
        have hne1 : rs.length ≠ 1 := by
          intro c
          rw [c] at hlen
          obtain ⟨p, hp⟩ := List.length_eq_one_iff.1 hlen
          exact hnot p (by rw [← heq, hp])
        rw [if_pos (by rcases hal with h | h | h; exact absurd h hne1; exact Or.inl h; exact Or.inr h)]
        rw [if_pos (by rw [← heq, hlen]; rcases hch with h | h; exact absurd h hne1; exact h.symm)]
        exact ⟨_, rfl⟩
    obtain ⟨pl, hp⟩ := hp
    have hfw : forward q1 rank rows = .ok ({ q1 with view := v },
        List.zipWith (fun p row => row.map (quant1 { q1 with view := v } sg p)) pl rows) := by
      unfold forward
      rw [hv]
      simp only [bind, Except.bind, hsg v, hp, pure, Except.pure]
    exact ⟨_, _, hfw, hout⟩
  have f1 : q1.axis = q.axis := by rw [e1]
  have f2 : q1.perChannel = q.perChannel := by rw [e1]
  have f3 : q1.view = q.view := by rw [e1]
  have f4 : q1.pars = some ps := by rw [e1]
  by_cases ca : q.axis = none
  · by_cases cp : q.perChannel = true
    · rcases hrank ca with hv | hv
      · by_cases cr : rank = 1
        · apply main none ?_ (Or.inr (Or.inr ⟨rfl, cr⟩)) (fun _ => Or.inl rfl)
          rw [eta_view (f3.trans hv)]
          unfold adjustView
          simp only [f1, ca, Option.isSome_none, Bool.false_eq_true, if_false, f2, cp, if_true, f3, hv, f4]
          rw [if_neg (by simp [cr])]
        · apply main (some rank) ?_ (Or.inr (Or.inl rfl)) (fun _ => Or.inr rfl)
          unfold adjustView
          simp only [f1, ca, Option.isSome_none, Bool.false_eq_true, if_false, f2, cp, if_true, f3, hv, f4]
          rw [if_pos cr]
      · apply main (some rank) ?_ (Or.inr (Or.inl rfl)) (fun _ => Or.inr rfl)
        rw [eta_view (f3.trans hv)]
        unfold adjustView
        simp only [f1, ca, Option.isSome_none, Bool.false_eq_true, if_false, f2, cp, if_true, f3, hv]
        rw [if_neg (by simp)]
    · have h1 : rs.length = 1 := by
        by_contra hc
        have : 0 < rs.length := List.length_pos_iff.2 hne
        rcases hpc (by omega) with h | h
        · exact cp h
        · exact h ca
      apply main q.view ?_ (Or.inl h1) hrank
      unfold adjustView
      have cp' : q.perChannel = false := by simpa using cp
      rw [eta_view f3]
      simp only [f1, ca, Option.isSome_none, Bool.false_eq_true, if_false, f2, cp']
  · apply main (some rank) ?_ (Or.inr (Or.inl rfl)) (fun h => absurd h ca)
    have hsome : q1.axis.isSome = true := by
      rw [f1]; cases h : q.axis with
      | none => exact absurd h ca
      | some _ => rfl
    unfold adjustView
    simp only [hsome, if_true]
    rw [f4]
    simp

/-- **C30** (rank change, exception).  A per-channel quantizer (two or more channels) that has seen
an input of one rank does not accept inputs of another rank: the view of its parameters is built
once, is not rebuilt and survives `reset`. -/
theorem C30_rank_change (q : Quantizer) (hp : q.perChannel = true) (ha : q.axis = none)
    (p p' : Par) (ps : List Par) (hps : q.pars = some (p :: p' :: ps)) (r r' : Nat)
    (hv : q.view = some r) (hr : r ≠ r') (rows : List Vec) (hsg : q.sym = true → q.signed ≠ none) :
    forward q r' rows = .error .other ∧ (reset q).view = some r := by
  refine ⟨?_, hv⟩
  have h1 : adjustView q r' = .ok q := by
    unfold adjustView
    simp only [ha, Option.isSome_none, Bool.false_eq_true, if_false, hp, if_true, hv]
    rw [if_neg (by simp)]
  have h2 : ∃ sg, signOf q = .ok sg := by
    by_cases c : q.sym = true
    · cases h : q.signed with
      | none => exact absurd h (hsg c)
      | some s => exact ⟨s, by simp [signOf, c, h]⟩
    · exact ⟨false, by simp [signOf, c]⟩
  obtain ⟨sg, h2⟩ := h2
  unfold forward
  rw [h1]
  simp only [bind, Except.bind, h2]
  have : paramsFor q r' rows.length = .error .other := by
    unfold paramsFor
    rw [hps]
    simp only [hv]
    rw [if_neg (by simp [hr])]
  rw [this]

/-- **C30** (state dict).  Loading the saved state of an initialised quantizer into a quantizer
with the same constructor arguments makes it quantise every input exactly as the original, if
neither has seen an input (or both have seen the same rank). -/
theorem C30_save_load (q q' : Quantizer) (hsame : ({ q' with pars := q.pars, signed := q.signed } : Quantizer) = q)
    (hasym : q.sym = false → q'.signed = q.signed) (hsym : q.sym = true → q.signed ≠ none)
    (rank : Nat) (rows : List Vec) :
    forward (loadState q' (saveState q)) rank rows = forward q rank rows := by
  have : loadState q' (saveState q) = q := by
    have hs : q'.sym = q.sym := by rw [← hsame]
    rw [← hsame]
    unfold loadState saveState
    by_cases c : q.sym = true
    · cases h : q.signed with
      | none => exact absurd h (hsym c)
      | some s => simp [hs, c]
    · have c' : q.sym = false := by simpa using c
      simp [hs, c', hasym c']
  rw [this]

/-! ### The hypotheses are met -/

example : ∃ q1 q2 ys, setQuantRange { sym := false, nBits := 2 } [(-1, 2)] = .ok q1 ∧
    forward q1 2 [[3, -5, 1], [2 / 5, 0, 7 / 5]] = .ok (q2, ys) ∧
    ys = [[2, -1, 1], [0, 0, 1]] := by
  refine ⟨_, _, _, rfl, rfl, ?_⟩
  decide +kernel

-- two channels, one of them negative: both become signed
example : ∃ q1 q2 ys, setQuantRange { sym := true, nBits := 3, perChannel := true } [(-3, 1), (0, 6)] = .ok q1 ∧
    forward q1 2 [[-3, 2 / 5], [6, 5]] = .ok (q2, ys) ∧ ys = [[-3, 0], [6, 4]] ∧ q1.signed = some true := by
  refine ⟨_, _, _, rfl, rfl, ?_⟩
  decide +kernel

example : ∃ q1 q2 ys, setQuantRange { sym := true, nBits := 3 } [(0, 7)] = .ok q1 ∧
    forward q1 1 [[-3], [5 / 2], [9]] = .ok (q2, ys) ∧ ys = [[0], [2], [7]] := by
  refine ⟨_, _, _, rfl, rfl, ?_⟩
  decide +kernel

example : setQuantRange { sym := true, nBits := 1 } [(-1, 1)] = .error .nanInf := by decide +kernel

end Aihw.Quant

import Verif.Mvm.Lemmas
import Verif.Mvm.Spec

namespace Aihw.Mvm

theorem nmFactor_pos (p : IOPars) (x : Vec) : 0 < nmFactor p x := by
  unfold nmFactor
  cases p.noiseManagement <;> (try simp only) <;> (try split_ifs) <;> first | assumption | linarith | norm_num

theorem qStep_eq_docStep (res bound : ℚ) : qStep res bound = docStep res bound := by
  unfold qStep docStep; split_ifs <;> ring

/-- What `computeNM` returns, in terms of the documented factor. -/
theorem computeNM_spec {p : IOPars} {xs : List Vec} {nm : Scale} (h : computeNM p xs = .ok nm) :
    (∀ i (hi : i < xs.length), (fixNM nm).at i = nmFactor p xs[i]) ∧
    (∀ l, fixNM nm = .per l → l.length = xs.length ∧ ∀ s ∈ l, 0 < s) ∧
    (∀ q, fixNM nm = .num q → 0 < q) ∧ (p.noiseManagement = .none → nm = .num 1) := by
  unfold computeNM at h
  cases hn : p.noiseManagement with
  | none =>
    simp only [hn, Except.ok.injEq] at h; subst h
    simp [fixNM, Scale.at, nmFactor, hn]
  | constant =>
    simp only [hn, Except.ok.injEq] at h; subst h
    refine ⟨by simp [fixNM, Scale.at, nmFactor, hn], by simp [fixNM], ?_, by simp⟩
    intro q hq
    simp only [fixNM, Scale.num.injEq] at hq
    subst hq
    split_ifs <;> first | assumption | norm_num
  | absMaxNPSum => simp [hn] at h
  | averageAbsMax => simp [hn] at h
  | absMax =>
    simp only [hn] at h
    cases hl : xs.mapM (fun x => vecMax (x.map (|·|))) with
    | error e => simp [hl, bind, Except.bind] at h
    | ok l =>
      simp only [hl, bind, Except.bind, pure, Except.pure, Except.ok.injEq] at h
      subst h
      have hf := mapM_ok_forall₂ hl
      have hlen := hf.length_eq
      refine ⟨?_, ?_, by simp [fixNM], by simp⟩
      · intro i hi
        have hi' : i < l.length := by omega
        have := (List.forall₂_iff_get.1 hf).2 i hi hi'
        simp only [List.get_eq_getElem] at this
        have hne : xs[i] ≠ [] := by
          intro hc; rw [hc] at this; simp [vecMax] at this
        rw [vecMax_abs hne, Except.ok.injEq] at this
        simp only [fixNM, Scale.at, List.map_map, nmFactor, hn]
        rw [List.getD_eq_getElem?_getD, List.getElem?_map, List.getElem?_eq_getElem hi']
        simp [this, thres]
      · intro l' hl'
        simp only [fixNM, Scale.per.injEq] at hl'
        subst hl'
        refine ⟨by simp [hlen], ?_⟩
        intro s hs
        simp only [List.map_map, List.mem_map, Function.comp_apply] at hs
        obtain ⟨a, _, rfl⟩ := hs
        split_ifs <;> linarith
  | max =>
    simp only [hn] at h
    cases hl : xs.mapM vecMax with
    | error e => simp [hl, bind, Except.bind] at h
    | ok l =>
      simp only [hl, bind, Except.bind, pure, Except.pure, Except.ok.injEq] at h
      subst h
      have hf := mapM_ok_forall₂ hl
      have hlen := hf.length_eq
      refine ⟨?_, ?_, by simp [fixNM], by simp⟩
      · intro i hi
        have hi' : i < l.length := by omega
        have := (List.forall₂_iff_get.1 hf).2 i hi hi'
        simp only [List.get_eq_getElem] at this
        have : l[i] = xs[i].tail.foldr max (xs[i].headD 0) := by
          cases hx : xs[i] with
          | nil => rw [hx] at this; simp [vecMax] at this
          | cons a t =>
            rw [hx] at this
            simp only [vecMax, Except.ok.injEq, foldl_max_eq] at this
            simp [← this]
        simp only [fixNM, Scale.at, List.map_map, nmFactor, hn]
        rw [List.getD_eq_getElem?_getD, List.getElem?_map, List.getElem?_eq_getElem hi']
        simp [this, thres]
      · intro l' hl'
        simp only [fixNM, Scale.per.injEq] at hl'
        subst hl'
        refine ⟨by simp [hlen], ?_⟩
        intro s hs
        simp only [List.map_map, List.mem_map, Function.comp_apply] at hs
        obtain ⟨a, _, rfl⟩ := hs
        split_ifs <;> linarith

/-- When the computation of the noise-management factor raises. -/
theorem computeNM_ok_of {p : IOPars} {xs : List Vec} (h1 : p.noiseManagement ≠ .absMaxNPSum)
    (h2 : p.noiseManagement ≠ .averageAbsMax)
    (h3 : (p.noiseManagement = .absMax ∨ p.noiseManagement = .max) → ∀ x ∈ xs, x ≠ []) :
    ∃ nm, computeNM p xs = .ok nm := by
  have key : ∀ f : Vec → Except PyErr ℚ, (∀ x ∈ xs, ∃ v, f x = .ok v) → ∃ l, xs.mapM f = .ok l := by
    intro f
    induction xs with
    | nil => intro _; exact ⟨[], rfl⟩
    | cons x xs ih =>
      intro hf
      obtain ⟨v, hv⟩ := hf x (by simp)
      obtain ⟨l, hl⟩ := ih (fun hh y hy => h3 hh y (by simp [hy])) (fun y hy => hf y (by simp [hy]))
      exact ⟨v :: l, by rw [List.mapM_cons, hv, hl]; rfl⟩
  unfold computeNM
  cases hn : p.noiseManagement with
  | none => exact ⟨_, rfl⟩
  | constant => exact ⟨_, rfl⟩
  | absMaxNPSum => exact absurd hn h1
  | averageAbsMax => exact absurd hn h2
  | absMax =>
    obtain ⟨l, hl⟩ := key (fun x => vecMax (x.map (|·|)))
      (fun x hx => ⟨_, vecMax_abs (h3 (.inl hn) x hx)⟩)
    exact ⟨.per (l.map (thres p)), by simp only [hl, bind, Except.bind, pure, Except.pure]⟩
  | max =>
    obtain ⟨l, hl⟩ := key vecMax (fun x hx => by
      have := h3 (.inr hn) x hx
      cases x with
      | nil => exact absurd rfl this
      | cons a t => exact ⟨_, rfl⟩)
    exact ⟨.per (l.map (thres p)), by simp only [hl, bind, Except.bind, pure, Except.pure]⟩

/-- In the `AbsMax` case the shortcut is only taken if all inputs are zero. -/
theorem shortcut_absMax {p : IOPars} {xs : List Vec} {nm : Scale} (h : computeNM p xs = .ok nm)
    (hs : isShortcut p nm = true) (hmax : p.noiseManagement ≠ .max) :
    ∀ x ∈ xs, ∀ v ∈ x, v = 0 := by
  unfold computeNM at h
  cases hn : p.noiseManagement with
  | none => simp only [hn, Except.ok.injEq] at h; subst h; simp [isShortcut] at hs
  | constant => simp only [hn, Except.ok.injEq] at h; subst h; simp [isShortcut] at hs
  | absMaxNPSum => simp [hn] at h
  | averageAbsMax => simp [hn] at h
  | max => exact absurd hn hmax
  | absMax =>
    simp only [hn] at h
    cases hl : xs.mapM (fun x => vecMax (x.map (|·|))) with
    | error e => simp [hl, bind, Except.bind] at h
    | ok l =>
      simp only [hl, bind, Except.bind, pure, Except.pure, Except.ok.injEq] at h
      subst h
      have hf := mapM_ok_forall₂ hl
      simp only [isShortcut, Bool.and_eq_true, decide_eq_true_eq, List.all_map, List.all_eq_true,
        Function.comp_apply] at hs
      intro x hx v hv
      obtain ⟨i, hi, rfl⟩ := List.getElem_of_mem hx
      have hi' : i < l.length := by rw [← hf.length_eq]; exact hi
      have := (List.forall₂_iff_get.1 hf).2 i hi hi'
      simp only [List.get_eq_getElem] at this
      have hne : xs[i] ≠ [] := by intro hc; rw [hc] at hv; simp at hv
      rw [vecMax_abs hne, Except.ok.injEq] at this
      have h0 := hs.2 l[i] (List.getElem_mem hi')
      rw [← this] at h0
      have hz : absMax xs[i] = 0 := by
        unfold thres at h0
        split_ifs at h0 with ht
        · rcases min_choice (absMax xs[i]) p.nmThres with hc | hc
          · rw [hc] at h0; exact h0
          · rw [hc] at h0; linarith
        · exact h0
      have := abs_le_absMax hv
      rw [hz] at this
      exact abs_eq_zero.1 (le_antisymm this (abs_nonneg _))

/-! ## scale -/

theorem mapM_ok_map {α β : Type} {f : α → Except PyErr β} {g : α → β} (l : List α)
    (h : ∀ a ∈ l, f a = .ok (g a)) : l.mapM f = .ok (l.map g) := by
  induction l with
  | nil => rfl
  | cons a l ih =>
    rw [List.mapM_cons, h a (by simp), ih fun b hb => h b (by simp [hb])]; rfl

/-- positive scale -/
def PosScale (n : Nat) : Option Scale → Prop
  | none => True
  | some (.num q) => 0 < q
  | some (.per l) => l.length = n ∧ ∀ s ∈ l, 0 < s

/-- factor used for sample `i` -/
def factorAt : Option Scale → Nat → ℚ
  | none, _ => 1
  | some s, i => s.at i

theorem mkScale_spec {nm : Option Scale} {n : Nat} (h : PosScale n nm) (r : Option ℚ)
    (hr : ∀ q, r = some q → 0 < q) :
    ∃ sc, mkScale nm r = .ok sc ∧ (∀ i, i < n → sc.at i = 1 / (factorAt nm i * r.getD 1)) ∧
      (isScaling sc = false → sc = .num 1) := by
  have hscal : ∀ sc, isScaling sc = false → sc = .num 1 := by
    intro sc hs
    cases sc with
    | num q => simp [isScaling] at hs; rw [hs]
    | per l => simp [isScaling] at hs
  rcases nm with _ | q | l
  · cases r with
    | none => exact ⟨.num 1, rfl, by simp [Scale.at, factorAt], fun _ => rfl⟩
    | some r =>
      have h0 := hr r rfl
      refine ⟨.num (1 / r), ?_, by simp [Scale.at, factorAt], hscal _⟩
      simp [mkScale, h0.ne', bind, Except.bind, pure, Except.pure]
  · simp only [PosScale] at h
    cases r with
    | none =>
      refine ⟨.num (1 / q), ?_, by simp [Scale.at, factorAt], hscal _⟩
      simp [mkScale, h.ne', bind, Except.bind, pure, Except.pure]
    | some r =>
      have h0 := hr r rfl
      refine ⟨.num (1 / q / r), ?_, ?_, hscal _⟩
      · simp [mkScale, h0.ne', h.ne', bind, Except.bind, pure, Except.pure]
      · intro i _; simp only [Scale.at, factorAt, Option.getD_some]; rw [div_div]
  · obtain ⟨hl, hp⟩ := h
    have hm := mapM_ok_map (f := fun q : ℚ => if q = 0 then (throw PyErr.nanInf : Except PyErr ℚ) else pure (1 / q))
      (g := fun q => 1 / q) l (by intro a ha; simp [(hp a ha).ne', pure, Except.pure])
    have hat : ∀ i, i < n → (Scale.per (l.map fun q => 1 / q)).at i = 1 / (Scale.per l).at i := by
      intro i hi
      simp only [Scale.at, List.getD_eq_getElem?_getD, List.getElem?_map,
        List.getElem?_eq_getElem (by omega : i < l.length), Option.map_some, Option.getD_some]
    cases r with
    | none =>
      refine ⟨.per (l.map fun q => 1 / q), ?_, ?_, hscal _⟩
      · simp only [mkScale, hm, bind, Except.bind, pure, Except.pure] at *
      · intro i hi; rw [hat i hi]; simp [factorAt]
    | some r =>
      have h0 := hr r rfl
      have hm2 := mapM_ok_map (f := fun q : ℚ => if r = 0 then (throw PyErr.nanInf : Except PyErr ℚ) else pure (q / r))
        (g := fun q => q / r) (l.map fun q => 1 / q) (by intro a ha; simp [h0.ne', pure, Except.pure])
      refine ⟨.per ((l.map fun q => 1 / q).map fun q => q / r), ?_, ?_, hscal _⟩
      · simp only [mkScale, bind, Except.bind, pure, Except.pure] at *
        rw [hm]; simp only; rw [hm2]
      · intro i hi
        have := hat i hi
        simp only [Scale.at, List.getD_eq_getElem?_getD, List.getElem?_map, factorAt,
          List.getElem?_eq_getElem (by omega : i < l.length), Option.map_some, Option.getD_some]
        rw [div_div]

theorem rescale_spec (p : IOPars) {sc : Scale} (ys : List Vec)
    (h : ∀ i, i < ys.length → sc.at i ≠ 0) (h1 : isScaling sc = false → sc = .num 1) :
    rescale p sc (isScaling sc) ys =
      .ok (ys.mapIdx fun i y => y.map (· * (p.outScale / sc.at i))) := by
  unfold rescale
  by_cases hc : (isScaling sc || decide (p.outScale ≠ 1)) = true
  · rw [if_pos hc]
    apply mapIdxE_of
    intro i hi
    rw [if_neg (h i hi)]
  · rw [if_neg hc]
    simp only [Bool.or_eq_true, decide_eq_true_eq, not_or, Bool.not_eq_true, not_not] at hc
    have := h1 hc.1
    subst this
    congr 1
    apply List.ext_getElem
    · simp
    · intro i h1 h2
      simp [Scale.at, hc.2]

/-! ## The ideal chain -/

theorem within_notClipping {p : IOPars} {v : ℚ} (h : p.outBound ≤ 0 ∨ |v| ≤ p.outBound) :
    notClipping p v = true := by
  unfold notClipping
  split_ifs with hb
  · rcases h with h | h
    · linarith
    · rw [abs_le] at h; simp [h.1, h.2]
  · rfl

theorem notClipping_iff {p : IOPars} {v : ℚ} :
    notClipping p v = true ↔ (p.outBound ≤ 0 ∨ |v| ≤ p.outBound) := by
  refine ⟨?_, within_notClipping⟩
  unfold notClipping
  split_ifs with hb
  · intro h
    simp only [Bool.and_eq_true, decide_eq_true_eq] at h
    exact .inr (abs_le.2 ⟨h.2, h.1⟩)
  · intro _; exact .inl (not_lt.1 hb)

theorem clampBound_id {b v : ℚ} (h : b ≤ 0 ∨ |v| ≤ b) : clampBound b v = v := by
  unfold clampBound
  split_ifs with hb
  · rcases h with h | h
    · linarith
    · rw [abs_le] at h; exact clamp_of_mem h.1 h.2
  · rfl

theorem prepareElem_ideal {p : IOPars} {onv : Option (Nat → ℚ)} (hi : IdealChain p onv) (s : ℚ)
    (scaling : Bool) (hs : scaling = false → s = 1) (u n x : ℚ)
    (hb : p.inpBound ≤ 0 ∨ |x * s| ≤ p.inpBound) :
    prepareElem p s scaling u n x = .ok (x * s) := by
  have hv : (if scaling = true then x * s else x) = x * s := by
    cases scaling with
    | true => simp
    | false => simp [hs rfl]
  simp only [prepareElem, dacValue, hv, not_lt.2 hi.inpRes, not_lt.2 hi.inpNoise, gt_iff_lt, if_false,
    bind, Except.bind, pure, Except.pure, asym, hi.inpAsym, clampBound_id hb]
  simp

/-- The unclipped batch result at scale `s i`. -/
def scaledOut (m : Mat) (s : Nat → ℚ) (xs : List Vec) : List Vec :=
  xs.mapIdx fun i x => (matVec m x).map (· * s i)

theorem computeAnalogMV_ideal {p : IOPars} {onv : Option (Nat → ℚ)} (hi : IdealChain p onv)
    (inSize : Nat) (w : Mat) (trans : Bool) (d : Draws) (k : Nat) (sc : Scale)
    (hsc : isScaling sc = false → sc = .num 1) (xs : List Vec)
    (hb : p.inpBound ≤ 0 ∨ ∀ i (h : i < xs.length), ∀ v ∈ xs[i], |v * sc.at i| ≤ p.inpBound) :
    computeAnalogMV p inSize w trans onv d k sc (isScaling sc) xs =
      .ok (if p.boundManagement ≠ .none then
            (scaledOut (effMat inSize w trans) sc.at xs).all fun y => y.all (notClipping p)
           else true,
          (scaledOut (effMat inSize w trans) sc.at xs).map fun y => y.map (clampBound p.outBound)) := by
  have hprep : mapIdxE (fun i x => mapIdxE
      (fun j v => prepareElem p (sc.at i) (isScaling sc) (d.inpU k i j) (d.inpN k i j) v) x) xs
      = .ok (xs.mapIdx fun i x => x.map (· * sc.at i)) := by
    apply mapIdxE_of (g := fun i (x : Vec) => x.map (· * sc.at i))
    intro i hi'
    have := mapIdxE_of (f := fun j v => prepareElem p (sc.at i) (isScaling sc) (d.inpU k i j) (d.inpN k i j) v)
      (g := fun _ v => v * sc.at i) xs[i] (by
        intro j hj
        apply prepareElem_ideal hi
        · intro h; rw [hsc h]; rfl
        · rcases hb with hb | hb
          · exact .inl hb
          · exact .inr (hb i hi' _ (List.getElem_mem hj)))
    rw [this]
    congr 1
    apply List.ext_getElem <;> simp
  have hbase : baseMatmul inSize w trans (xs.mapIdx fun i x => x.map (· * sc.at i))
      = scaledOut (effMat inSize w trans) sc.at xs := by
    unfold baseMatmul scaledOut effMat
    apply List.ext_getElem
    · simp
    · intro i h1 h2
      simp only [List.getElem_map, List.getElem_mapIdx, matVec_scale]
  have hadc : ∀ ys : List Vec, mapIdxE (fun i y => mapIdxE
      (fun j v => adcPreClip p onv j (d.outN k i j) (d.outU k i j) v) y) ys = .ok ys := by
    intro ys
    have h1 := mapIdxE_of (f := fun i y => mapIdxE
      (fun j v => adcPreClip p onv j (d.outN k i j) (d.outU k i j) v) y) (g := fun _ y => y) ys (by
      intro i hi'
      have := mapIdxE_of (f := fun j v => adcPreClip p onv j (d.outN k i j) (d.outU k i j) v)
        (g := fun _ v => v) ys[i] (by
          intro j hj
          simp [adcPreClip, asym, hi.outAsym, addOutNoise, hi.onv, not_lt.2 hi.outNoise,
            not_lt.2 hi.outRes, pure, Except.pure])
      rw [this]; congr 1; apply List.ext_getElem <;> simp)
    rw [h1]; congr 1; apply List.ext_getElem <;> simp
  simp only [computeAnalogMV, hprep, bind, Except.bind, hi.mv, finalizeOutput, hbase, hadc, pure,
    Except.pure]

/-! ## The bound-management loop -/

theorem bmLoop_char {p : IOPars} {inSize : Nat} {w : Mat} {trans : Bool} {onv : Option (Nat → ℚ)}
    {d : Draws} {nm : Option Scale} {xs : List Vec} (fuel k : Nat) (r : List Vec × Scale)
    (h : bmLoop p inSize w trans onv d nm xs fuel k = .ok r) :
    ∃ n, n < fuel ∧ (∀ j, j < n → ∃ o s, bmRound p inSize w trans onv d nm xs (k + j) = .ok (false, o, s)) ∧
      bmRound p inSize w trans onv d nm xs (k + n) = .ok (true, r) := by
  induction fuel generalizing k with
  | zero => simp [bmLoop] at h
  | succ fuel ih =>
    rw [bmLoop] at h
    cases hr : bmRound p inSize w trans onv d nm xs k with
    | error e => simp [hr, bind, Except.bind] at h
    | ok v =>
      obtain ⟨stop, out, sc⟩ := v
      simp only [hr, bind, Except.bind] at h
      cases stop with
      | true =>
        simp [pure, Except.pure] at h
        exact ⟨0, by omega, by omega, by rw [Nat.add_zero, hr, ← h]⟩
      | false =>
        simp at h
        obtain ⟨n, h1, h2, h3⟩ := ih (k + 1) h
        refine ⟨n + 1, by omega, ?_, by rw [← h3]; congr 1; omega⟩
        intro j hj
        cases j with
        | zero => exact ⟨out, sc, by rw [Nat.add_zero, hr]⟩
        | succ j =>
          obtain ⟨o, s, e⟩ := h2 j (by omega)
          exact ⟨o, s, by rw [← e]; congr 1; omega⟩

theorem bmLoop_of {p : IOPars} {inSize : Nat} {w : Mat} {trans : Bool} {onv : Option (Nat → ℚ)}
    {d : Draws} {nm : Option Scale} {xs : List Vec} (fuel k n : Nat) (r : List Vec × Scale)
    (hn : n < fuel)
    (h1 : ∀ j, j < n → ∃ o s, bmRound p inSize w trans onv d nm xs (k + j) = .ok (false, o, s))
    (h2 : bmRound p inSize w trans onv d nm xs (k + n) = .ok (true, r)) :
    bmLoop p inSize w trans onv d nm xs fuel k = .ok r := by
  induction fuel generalizing k n with
  | zero => omega
  | succ fuel ih =>
    rw [bmLoop]
    cases n with
    | zero =>
      rw [Nat.add_zero] at h2
      simp [h2, bind, Except.bind, pure, Except.pure]
    | succ n =>
      obtain ⟨o, s, e⟩ := h1 0 (by omega)
      rw [Nat.add_zero] at e
      simp only [e, bind, Except.bind]
      simp only [Bool.false_eq_true, if_false]
      refine ih (k + 1) n (by omega) ?_ (by rw [← h2]; congr 1; omega)
      intro j hj
      obtain ⟨o, s, e⟩ := h1 (j + 1) (by omega)
      exact ⟨o, s, by rw [← e]; congr 1; omega⟩

/-- A round that does not stop has a reduction within the limit. -/
theorem bmRound_false {p : IOPars} {inSize : Nat} {w : Mat} {trans : Bool} {onv : Option (Nat → ℚ)}
    {d : Draws} {nm : Option Scale} {xs : List Vec} {k : Nat} {o : List Vec} {s : Scale}
    (h : bmRound p inSize w trans onv d nm xs k = .ok (false, o, s)) :
    (2 : ℚ) ^ k ≤ p.maxBmFactor := by
  unfold bmRound at h
  simp only [bind, Except.bind] at h
  split at h
  · cases h
  · split at h
    · cases h
    · simp only [pure, Except.pure, Except.ok.injEq, Prod.mk.injEq, Bool.or_eq_false_iff] at h
      have := h.1.2
      simp only [bmLimitReached, Bool.or_eq_false_iff, decide_eq_false_iff_not, not_lt] at this
      exact this.1

theorem lt_fuel_of_pow_le {p : IOPars} {k : Nat} (h : (2 : ℚ) ^ k ≤ p.maxBmFactor) :
    k + 1 < bmFuel p := by
  have h1 : ((2 ^ k : ℕ) : ℚ) ≤ p.maxBmFactor := by push_cast; exact h
  have h2 : ((2 ^ k : ℕ) : ℤ) ≤ ⌊p.maxBmFactor⌋ := Int.le_floor.2 (by push_cast; push_cast at h1; exact h1)
  have h3 : k < 2 ^ k := Nat.lt_two_pow_self
  unfold bmFuel
  omega

theorem computeAnalogMV_shape {p : IOPars} {inSize : Nat} {w : Mat}
    {trans : Bool} {onv : Option (Nat → ℚ)} {d : Draws} {k : Nat} {sc : Scale} {scaling : Bool}
    {xs : List Vec} {b : Bool} {ys : List Vec}
    (h : computeAnalogMV p inSize w trans onv d k sc scaling xs = .ok (b, ys)) :
    ys.length = xs.length ∧ (0 < p.outBound → ∀ y ∈ ys, ∀ v ∈ y, |v| ≤ p.outBound) ∧
    (b = false → 0 < p.outBound ∧ ∃ y ∈ ys, ∃ v ∈ y, |v| = p.outBound) := by
  unfold computeAnalogMV at h
  simp only [bind, Except.bind] at h
  split at h
  · cases h
  · rename_i prep hprep
    have hl := (mapIdxE_ok hprep).1
    split at h
    · unfold finalizeOutput at h
      simp only [bind, Except.bind] at h
      split at h
      · cases h
      · rename_i vs hvs
        have hl2 := (mapIdxE_ok hvs).1
        simp only [pure, Except.pure, Except.ok.injEq, Prod.mk.injEq] at h
        obtain ⟨hb, rfl⟩ := h
        refine ⟨by rw [List.length_map, hl2, baseMatmul, List.length_map, hl], ?_, ?_⟩
        · intro hb y hy v hv
          obtain ⟨y', _, rfl⟩ := List.mem_map.1 hy
          obtain ⟨v', _, rfl⟩ := List.mem_map.1 hv
          simp only [clampBound, hb, if_true, abs_le]
          exact ⟨le_clamp (by linarith) _, clamp_le _ _ _⟩
        · intro hbf
          rw [hbf] at hb
          split_ifs at hb with hbm
          rw [List.all_eq_false] at hb
          obtain ⟨y, hy, hyc⟩ := hb
          rw [Bool.not_eq_true, List.all_eq_false] at hyc
          obtain ⟨v, hv, hvc⟩ := hyc
          rw [notClipping_iff, not_or, not_le, not_le] at hvc
          refine ⟨hvc.1, _, List.mem_map_of_mem hy, _, List.mem_map_of_mem hv, ?_⟩
          simp only [clampBound, hvc.1, if_true, clamp]
          rcases lt_abs.1 hvc.2 with h | h
          · rw [max_eq_left (by linarith), min_eq_right h.le, abs_of_pos hvc.1]
          · rw [max_eq_right (by linarith), min_eq_left (by linarith [hvc.1]), abs_neg, abs_of_pos hvc.1]
    · cases h
    · cases h

theorem matmul_cases {p : IOPars} {inSize : Nat} {w : Mat} {trans : Bool} {onv : Option (Nat → ℚ)}
    {d : Draws} {xs ys : List Vec} (hperf : p.isPerfect = false) (hid : p.mvType ≠ .ideal)
    (h : matmul p inSize w trans onv d xs = .ok ys) :
    (∃ nm, computeNM p xs = .ok nm ∧ isShortcut p nm = true ∧
      ys = xs.map fun _ => List.replicate (if trans then inSize else w.length) 0) ∨
    (∃ nm, computeNM p xs = .ok nm ∧ isShortcut p nm = false ∧
      ∃ k b out sc, computeAnalogMV p inSize w trans onv d k sc (isScaling sc) xs = .ok (b, out) ∧
        (p.boundManagement = .none → k = 0) ∧
        (p.boundManagement ≠ .none →
          (∀ j, j < k → (2 : ℚ) ^ j ≤ p.maxBmFactor ∧ ∃ o s,
            mkScale (if p.noiseManagement ≠ .none then some (fixNM nm) else none) (some (2 ^ j)) = .ok s ∧
            (∀ i (hi : i < xs.length), s.at i = 1 / (nmFactor p xs[i] * 2 ^ j)) ∧
            computeAnalogMV p inSize w trans onv d j s (isScaling s) xs = .ok (false, o) ∧
            bmLimitReached p (2 ^ j) = false) ∧
          (b = true ∨ bmLimitReached p (2 ^ k) = true)) ∧
        (∀ i (hi : i < xs.length), sc.at i = 1 / (nmFactor p xs[i] * 2 ^ k)) ∧
        (isScaling sc = false → sc = .num 1) ∧
        rescale p sc (isScaling sc) out = .ok ys) := by
  unfold matmul at h
  simp only [hperf, hid, Bool.false_or, decide_false, Bool.false_eq_true, if_false, bind,
    Except.bind] at h
  split at h
  · cases h
  · rename_i nm hnm
    obtain ⟨hn1, hn2, hn3, hn4⟩ := computeNM_spec hnm
    by_cases hsc : isShortcut p nm = true
    · left
      refine ⟨nm, hnm, hsc, ?_⟩
      simpa [hsc, pure, Except.pure] using h.symm
    · right
      refine ⟨nm, hnm, by simpa using hsc, ?_⟩
      simp only [hsc, Bool.false_eq_true, if_false] at h
      have hpos : PosScale xs.length (if p.noiseManagement ≠ .none then some (fixNM nm) else none) := by
        split_ifs with hne
        · cases hf : fixNM nm with
          | num q => exact hn3 q hf
          | per l => exact hn2 l hf
        · exact trivial
      have hfac : ∀ i (hi : i < xs.length),
          factorAt (if p.noiseManagement ≠ .none then some (fixNM nm) else none) i = nmFactor p xs[i] := by
        intro i hi
        by_cases hne : p.noiseManagement = .none
        · simp [hne, factorAt, nmFactor]
        · simp only [ne_eq, hne, not_false_eq_true, if_true, factorAt]; exact hn1 i hi
      by_cases hbm : p.boundManagement = .none
      · simp only [hbm, if_true] at h
        obtain ⟨sc, e1, e2, e3⟩ := mkScale_spec hpos none (by simp)
        rw [e1] at h
        simp only at h
        split at h
        · cases h
        · rename_i v hv
          obtain ⟨b, out⟩ := v
          refine ⟨0, b, out, sc, hv, fun _ => rfl, fun hc => absurd hbm hc, ?_, e3, h⟩
          intro i hi
          rw [e2 i hi, hfac i hi]; simp
      · simp only [hbm, if_false] at h
        split at h
        · cases h
        · rename_i v hv
          obtain ⟨out, sc⟩ := v
          obtain ⟨k, h1, h2, h3⟩ := bmLoop_char _ _ _ hv
          simp only [Nat.zero_add] at h2 h3
          have hround := h3
          unfold bmRound at hround
          obtain ⟨sc', e1, e2, e3⟩ := mkScale_spec hpos (some (2 ^ k)) (by
            rintro q ⟨⟩; positivity)
          simp only [e1, bind, Except.bind] at hround
          split at hround
          · cases hround
          · rename_i v' hv'
            obtain ⟨b, out'⟩ := v'
            simp only [pure, Except.pure, Except.ok.injEq, Prod.mk.injEq, Bool.or_eq_true] at hround
            obtain ⟨hstop, rfl, rfl⟩ := hround
            refine ⟨k, b, out', sc', hv', fun hc => absurd hc hbm, fun _ => ⟨?_, hstop⟩, ?_, e3, h⟩
            · intro j hj
              obtain ⟨o, s, hr⟩ := h2 j hj
              refine ⟨bmRound_false hr, ?_⟩
              unfold bmRound at hr
              obtain ⟨s', f1, f2, f3⟩ := mkScale_spec hpos (some (2 ^ j)) (by
                rintro q ⟨⟩; positivity)
              simp only [f1, bind, Except.bind] at hr
              split at hr
              · cases hr
              · rename_i v'' hv''
                obtain ⟨b'', o''⟩ := v''
                simp only [pure, Except.pure, Except.ok.injEq, Prod.mk.injEq,
                  Bool.or_eq_false_iff] at hr
                obtain ⟨⟨rfl, hl⟩, rfl, rfl⟩ := hr
                exact ⟨o'', s', f1, fun i hi => by rw [f2 i hi, hfac i hi]; simp, hv'', hl⟩
            · intro i hi
              rw [e2 i hi, hfac i hi]; simp

end Aihw.Mvm

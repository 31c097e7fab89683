import Verif.Wpo.Lemmas2

/-!
# C67: every point of the search cube is a valid weight programming strategy
-/
namespace Aihw.Wpo
open Aihw.Inference

variable {K : Type} [Field K] [LinearOrder K] [IsStrictOrderedRing K]

/-- Pair `j` of grid point `p` in the finished table. -/
def finalPair (d : Opt K) (nbins : Nat) (cols : Nat → List (K × K)) (p j : Nat) : K × K :=
  if d.symmetric then
    if p + 1 < nbins then (cols p).getD j (0, 0) else ((cols (2 * nbins - 2 - p)).getD j (0, 0)).swap
  else (cols p).getD j (0, 0)

/-- The finished table. -/
def finalTable (d : Opt K) (nbins nf : Nat) (cols : Nat → List (K × K)) : List (List K) :=
  (List.range (2 * nf)).map fun r => (List.range (2 * nbins - 1)).map fun p =>
    if r % 2 = 0 then (finalPair d nbins cols p (r / 2)).1 else (finalPair d nbins cols p (r / 2)).2

theorem finalTable_get (d : Opt K) (nbins nf : Nat) (cols : Nat → List (K × K)) (j p : Nat) (hj : j < nf)
    (hp : p < 2 * nbins - 1) :
    ((finalTable d nbins nf cols).getD (2 * j) []).getD p 0 = (finalPair d nbins cols p j).1 ∧
    ((finalTable d nbins nf cols).getD (2 * j + 1) []).getD p 0 = (finalPair d nbins cols p j).2 := by
  have row : ∀ r, r < 2 * nf → ((finalTable d nbins nf cols).getD r []).getD p 0 =
      if r % 2 = 0 then (finalPair d nbins cols p (r / 2)).1 else (finalPair d nbins cols p (r / 2)).2 := by
    intro r hr
    have h1 : (finalTable d nbins nf cols).getD r [] = (List.range (2 * nbins - 1)).map fun p =>
        if r % 2 = 0 then (finalPair d nbins cols p (r / 2)).1 else (finalPair d nbins cols p (r / 2)).2 := by
      unfold finalTable
      rw [List.getD_eq_getElem _ _ (by simpa using hr)]
      simp
    rw [h1, List.getD_eq_getElem _ _ (by simpa using hp)]
    simp
  constructor
  · rw [row _ (by omega), if_pos (by omega), show 2 * j / 2 = j by omega]
  · rw [row _ (by omega), if_neg (by omega), show (2 * j + 1) / 2 = j by omega]

theorem factors_pos (d : Opt K) (nbins : Nat) (hv : Valid d nbins) : ∀ (l : List (Option K)) (fs : List K),
    (∀ o ∈ l, o ∈ d.fLst) → List.Forall₂ (FactorOk d) l fs → ∀ f ∈ fs, 0 < f := by
  intro l fs hl h
  induction h with
  | nil => simp
  | @cons o f l fs h1 h2 ih =>
    intro g hg
    rcases List.mem_cons.1 hg with rfl | hg
    · cases o with
      | none => exact hv.fpos.trans_le h1.1
      | some f0 => rw [(h1 : g = f0)]; exact hv.given f0 (hl _ (by simp))
    · exact ih (fun o ho => hl o (List.mem_cons_of_mem _ ho)) g hg

theorem core (d : Opt K) (nbins : Nat) (hv : Valid d nbins) (x : List K) (hx : InCube d x) :
    ∃ fs xk cols, denormalize d x = .ok (fs, (finalTable d nbins fs.length cols).map (·.map some)) ∧
      List.Forall₂ (FactorOk d) d.fLst fs ∧ 0 ≤ xk ∧ xk ≤ 1 ∧ (d.useMaxKw = true → xk = 1) ∧
      ∀ p, p < (if d.symmetric then nbins else 2 * nbins - 1) →
        (cols p).length = fs.length ∧
        (∀ g ∈ cols p, d.gMin ≤ g.1 ∧ g.1 ≤ d.gMax ∧ d.gMin ≤ g.2 ∧ g.2 ≤ d.gMax) ∧
        |csum fs (cols p) - wMaxOf d (fullRange d fs) xk / d.maxAbs * d.grid.getD p 0| ≤ d.gErr * fs.sum := by
  obtain ⟨fs, xk, xg, hpart, hF, xk0, xk1, hmax, hxg, hlen⟩ := partition_spec d nbins hv x hx
  have hb := hv.bins
  have hnf : d.fLst.length = fs.length := hF.length_eq
  have hnf0 : 0 < fs.length := by
    rw [← hnf]; exact List.length_pos_iff.2 hv.pairs
  have hfpos := factors_pos d nbins hv d.fLst fs (fun _ h => h) hF
  have hgl : d.grid.length = 2 * nbins - 1 := by rw [hv.grid, mkGrid, linspace_length]; omega
  set n := if d.symmetric then nbins else 2 * nbins - 1 with hn
  have hn0 : 0 < n := by rw [hn]; split_ifs <;> omega
  have hnle : n ≤ 2 * nbins - 1 := by rw [hn]; split_ifs <;> omega
  rw [hnf] at hlen
  have hchunk : chunkLen xg fs.length = .ok n := by
    have e : xg.length / (2 * fs.length - 1) = n := by
      rw [hlen]; exact Nat.mul_div_cancel_left _ (by omega)
    unfold chunkLen
    rw [e, if_neg (by omega)]
  set S := fullRange d fs with hS
  have hSum : (fs.map fun f => f * (d.gMax - d.gMin)).sum = S := by
    rw [hS]; unfold fullRange
    clear hpart hF hnf hnf0 hfpos hlen hchunk hS
    induction fs with
    | nil => simp
    | cons f fs ih => rw [List.map_cons, List.sum_cons, ih, List.sum_cons]; ring
  have hS0 : 0 ≤ S := by rw [← hSum]; exact spans_nonneg d hv.range.le fs hfpos
  set W := wMaxOf d S xk with hW
  have hW1 : W ≤ S := by rw [hW]; unfold wMaxOf; nlinarith
  have hW0 : 0 ≤ W := by
    rw [hW]; unfold wMaxOf
    have : 0 ≤ xk * (S - 5 / 100 * S) := mul_nonneg xk0 (by linarith)
    linarith
  -- grid weights are at most the maximum
  have hgrid : ∀ v ∈ d.grid, |v| ≤ d.maxAbs := by
    intro v hvm
    rw [hv.grid, mkGrid] at hvm
    obtain ⟨p, hp, rfl⟩ := List.getElem_of_mem hvm
    rw [linspace_get _ _ _ (by omega)]
    have hp' : p < nbins * 2 - 1 := by rwa [linspace_length] at hp
    have hc : ((nbins * 2 - 1 : Nat) : K) - 1 = ((nbins * 2 - 2 : Nat) : K) := by
      have : nbins * 2 - 1 = nbins * 2 - 2 + 1 := by omega
      rw [this]; push_cast; ring
    rw [hc]
    have hpos : (0 : K) < ((nbins * 2 - 2 : Nat) : K) := by
      have : 0 < nbins * 2 - 2 := by omega
      exact_mod_cast this
    have hple : (p : K) ≤ ((nbins * 2 - 2 : Nat) : K) := by
      have : p ≤ nbins * 2 - 2 := by omega
      exact_mod_cast this
    have hp0 : (0 : K) ≤ p := by exact_mod_cast Nat.zero_le p
    have e : (p : K) * ((d.maxAbs - -d.maxAbs) / ((nbins * 2 - 2 : Nat) : K)) =
        2 * d.maxAbs * (p / ((nbins * 2 - 2 : Nat) : K)) := by ring
    rw [e]
    have r0 : 0 ≤ (p : K) / ((nbins * 2 - 2 : Nat) : K) := div_nonneg hp0 hpos.le
    have r1 : (p : K) / ((nbins * 2 - 2 : Nat) : K) ≤ 1 := (div_le_one hpos).2 hple
    have hm := hv.weights
    rw [abs_le]
    constructor
    · have := mul_nonneg hm.le r0; linarith
    · have := mul_le_mul_of_nonneg_left r1 hm.le; linarith
  have hw : ∀ v ∈ d.grid, |W / d.maxAbs * v| ≤ S := by
    intro v hvm
    rw [abs_mul, abs_of_nonneg (div_nonneg hW0 hv.weights.le), div_mul_eq_mul_div, div_le_iff₀ hv.weights]
    exact mul_le_mul hW1 (hgrid v hvm) (abs_nonneg _) hS0
  -- the columns
  have hcol : ∀ p, p < n → ∃ gs, column d fs xg n p 0 (W / d.maxAbs * d.grid.getD p 0) fs = .ok gs ∧
      gs.length = fs.length ∧ (∀ g ∈ gs, d.gMin ≤ g.1 ∧ g.1 ≤ d.gMax ∧ d.gMin ≤ g.2 ∧ g.2 ≤ d.gMax) ∧
      |csum fs gs - W / d.maxAbs * d.grid.getD p 0| ≤ d.gErr * fs.sum := by
    intro p hp
    refine column_spec d fs xg n p hv.range hv.err ?_ fs 0 _ rfl hfpos ?_
    · intro k hk
      obtain ⟨h1, h2⟩ := chunkAt_ok xg n k p (2 * fs.length - 1) hlen (by omega) hp
      exact ⟨_, h2, hxg _ (List.getElem_mem h1)⟩
    · rw [hSum]
      apply hw
      rw [List.getD_eq_getElem _ _ (by omega)]
      exact List.getElem_mem _
  choose! cols hcols using hcol
  -- the loop
  set gLen := if d.symmetric then n * 2 - 1 else n with hgLen
  have hgLen' : gLen = 2 * nbins - 1 := by
    rw [hgLen, hn]; cases d.symmetric <;> simp; omega
  set ws := if d.symmetric then (d.grid.map (W / d.maxAbs * ·)).take (gLen / 2 + 1)
    else d.grid.map (W / d.maxAbs * ·) with hws
  have hwl : ws.length = n := by
    rw [hws, hn]
    cases hs : d.symmetric with
    | true => simp only [if_true, List.length_take, List.length_map, hgl, hgLen']; omega
    | false => simp [hgl]
  have hwk : ∀ k (h : k < ws.length), ws[k] = W / d.maxAbs * d.grid.getD k 0 := by
    intro k h
    have hk : k < d.grid.length := by omega
    rw [List.getD_eq_getElem _ _ hk]
    cases hs : d.symmetric with
    | true => simp [hws, hs]
    | false => simp [hws, hs]
  obtain ⟨T, hT, -, hE⟩ := fill_spec d fs xg n gLen nbins (fun _ => hgLen') ws 0 (fun _ _ => none) cols
    (fun k hk => by
      rw [hwk k hk, Nat.zero_add]
      have := hcols k (by omega)
      exact ⟨this.1, this.2.1⟩) (by omega) (fun hs => by rw [hwl, hn, hs]; simp)
  have hTE : ∀ j p, j < fs.length → p < 2 * nbins - 1 → T (2 * j) p = some (finalPair d nbins cols p j).1 ∧
      T (2 * j + 1) p = some (finalPair d nbins cols p j).2 := by
    intro j p hj hp
    have hget : ∀ q, q < n → ∃ h : j < (cols q).length, (cols q).getD j (0, 0) = (cols q)[j] := by
      intro q hq
      have h : j < (cols q).length := by rw [(hcols q hq).2.1]; exact hj
      exact ⟨h, List.getD_eq_getElem _ _ h⟩
    unfold finalPair
    cases hs : d.symmetric with
    | true =>
      have hnn : n = nbins := by rw [hn, hs]; rfl
      simp only [if_true]
      by_cases hlt : p + 1 < nbins
      · obtain ⟨h1, h2⟩ := hget p (by omega)
        rw [if_pos hlt, h2]
        have := (hE p j (by omega) (by rw [Nat.zero_add]; exact h1)).2 (fun _ => by omega)
        simpa using this
      · obtain ⟨h1, h2⟩ := hget (2 * nbins - 2 - p) (by omega)
        rw [if_neg hlt, h2]
        have := (hE (2 * nbins - 2 - p) j (by omega) (by rw [Nat.zero_add]; exact h1)).1 hs
        have e : gLen - (0 + (2 * nbins - 2 - p)) - 1 = p := by omega
        rw [e] at this
        simpa using this
    | false =>
      have hnn : n = 2 * nbins - 1 := by rw [hn, hs]; rfl
      simp only [Bool.false_eq_true, if_false]
      obtain ⟨h1, h2⟩ := hget p (by omega)
      rw [h2]
      have := (hE p j (by omega) (by rw [Nat.zero_add]; exact h1)).2 (fun h => by rw [hs] at h; cases h)
      simpa using this
  refine ⟨fs, xk, cols, ?_, hF, xk0, xk1, hmax, fun p hp => ?_⟩
  · unfold denormalize
    rw [hpart, ok_bind]
    show (chunkLen xg fs.length >>= _) = _
    rw [hchunk, ok_bind]
    show (fill d fs xg n gLen 0 ws _ >>= _) = _
    rw [hT, ok_bind]
    congr 2
    unfold finalTable
    rw [List.map_map]
    apply List.map_congr_left
    intro r hr
    have hr' := List.mem_range.1 hr
    simp only [Function.comp_apply, List.map_map]
    change (List.range gLen).map (T r) = _
    rw [hgLen']
    apply List.map_congr_left
    intro p hp
    have hp' := List.mem_range.1 hp
    simp only [Function.comp_apply]
    obtain ⟨h1, h2⟩ := hTE (r / 2) p (by omega) hp'
    by_cases hr2 : r % 2 = 0
    · rw [if_pos hr2, ← h1]; congr 1; omega
    · rw [if_neg hr2, ← h2]; congr 1; omega
  · have := hcols p hp
    exact this.2

/-- Grid weight `p` of the optimizer. -/
theorem grid_get (d : Opt K) (nbins : Nat) (hv : Valid d nbins) (p : Nat) (hp : p < 2 * nbins - 1) :
    d.grid.getD p 0 = d.maxAbs * (p / ((nbins : K) - 1) - 1) := by
  have hb := hv.bins
  have hl : p < (mkGrid d.maxAbs nbins).length := by rw [mkGrid, linspace_length]; omega
  rw [hv.grid, List.getD_eq_getElem _ _ hl]
  refine (linspace_get (-d.maxAbs) d.maxAbs (nbins * 2 - 1) (by omega) p hl).trans ?_
  have hc : ((nbins * 2 - 1 : Nat) : K) - 1 = 2 * ((nbins : K) - 1) := by
    rw [Nat.cast_sub (by omega)]; push_cast; ring
  rw [hc]
  have h0 : ((nbins : K) - 1) ≠ 0 := by
    have : (2 : K) ≤ nbins := by exact_mod_cast hb
    intro h; linarith
  field_simp
  ring

/-- **C67** (feasible). Every point of the search cube gives a strategy: the given factors are kept and the open ones are in
their range, all conductances are in `[g_min, g_max]`, and there is a rescaled maximum `W` between 5 % and 100 % of the range of
the pairs (100 % with `use_max_kw`) such that grid point `i` realises the weight `W (i / (nbins - 1) - 1)` up to the allowed
programming error; without programming error exactly. -/
theorem C67_feasible (d : Opt K) (nbins : Nat) (hv : Valid d nbins) (x : List K) (hx : InCube d x) :
    ∃ fs g, denormalize d x = .ok (fs, g.map (·.map some)) ∧ List.Forall₂ (FactorOk d) d.fLst fs ∧
      g.length = 2 * fs.length ∧
      (∀ row ∈ g, row.length = 2 * nbins - 1 ∧ ∀ v ∈ row, d.gMin ≤ v ∧ v ≤ d.gMax) ∧
      ∃ W, 5 / 100 * fullRange d fs ≤ W ∧ W ≤ fullRange d fs ∧ 0 < W ∧ (d.useMaxKw = true → W = fullRange d fs) ∧
        ∀ i, i < 2 * nbins - 1 → |realised fs g i - W * (i / ((nbins : K) - 1) - 1)| ≤ d.gErr * fs.sum := by
  obtain ⟨fs, xk, cols, h, hF, xk0, xk1, hmax, hc⟩ := core d nbins hv x hx
  have hb := hv.bins
  have hnf : d.fLst.length = fs.length := hF.length_eq
  have hfpos := factors_pos d nbins hv d.fLst fs (fun _ h => h) hF
  have hS : 0 < fullRange d fs := by
    unfold fullRange
    apply mul_pos _ (sub_pos.2 hv.range)
    have hne : fs ≠ [] := by
      intro h0; rw [h0] at hnf; exact hv.pairs (List.eq_nil_of_length_eq_zero hnf)
    exact List.sum_pos _ hfpos hne
  set n := if d.symmetric then nbins else 2 * nbins - 1 with hn
  -- the pair used at a position
  have hpair : ∀ p, p < 2 * nbins - 1 → ∃ q, q < n ∧
      ((∀ j, finalPair d nbins cols p j = (cols q).getD j (0, 0)) ∧ q = p ∨
        (∀ j, finalPair d nbins cols p j = ((cols q).getD j (0, 0)).swap) ∧ q + p = 2 * nbins - 2) := by
    intro p hp
    unfold finalPair
    cases hs : d.symmetric with
    | false =>
      refine ⟨p, by rw [hn, hs]; exact hp, Or.inl ⟨fun j => rfl, rfl⟩⟩
    | true =>
      by_cases hlt : p + 1 < nbins
      · exact ⟨p, by rw [hn, hs]; simp only [if_true]; omega, Or.inl ⟨fun j => by simp only [if_true, if_pos hlt], rfl⟩⟩
      · exact ⟨2 * nbins - 2 - p, by rw [hn, hs]; simp only [if_true]; omega,
          Or.inr ⟨fun j => by simp only [if_true, if_neg hlt], by omega⟩⟩
  refine ⟨fs, _, h, hF, by simp [finalTable], ?_, wMaxOf d (fullRange d fs) xk, ?_, ?_, ?_, ?_, ?_⟩
  · intro row hrow
    unfold finalTable at hrow
    obtain ⟨r, hr, rfl⟩ := List.mem_map.1 hrow
    refine ⟨by simp, fun v hvm => ?_⟩
    obtain ⟨p, hp, rfl⟩ := List.mem_map.1 hvm
    have hr' := List.mem_range.1 hr
    obtain ⟨q, hq, hpq⟩ := hpair p (List.mem_range.1 hp)
    obtain ⟨hl, hrange, -⟩ := hc q hq
    have hj : r / 2 < (cols q).length := by rw [hl]; omega
    have hm : (cols q).getD (r / 2) (0, 0) ∈ cols q := by
      rw [List.getD_eq_getElem _ _ hj]; exact List.getElem_mem hj
    obtain ⟨a1, a2, a3, a4⟩ := hrange _ hm
    rcases hpq with ⟨e, -⟩ | ⟨e, -⟩
    · rw [e]; split_ifs
      · exact ⟨a1, a2⟩
      · exact ⟨a3, a4⟩
    · rw [e]; split_ifs
      · exact ⟨a3, a4⟩
      · exact ⟨a1, a2⟩
  · unfold wMaxOf
    have : 0 ≤ xk * (fullRange d fs - 5 / 100 * fullRange d fs) := mul_nonneg xk0 (by linarith)
    linarith
  · unfold wMaxOf
    nlinarith
  · unfold wMaxOf
    have : 0 ≤ xk * (fullRange d fs - 5 / 100 * fullRange d fs) := mul_nonneg xk0 (by linarith)
    linarith
  · intro hu; rw [hmax hu]; unfold wMaxOf; ring
  · intro i hi
    obtain ⟨q, hq, hpq⟩ := hpair i hi
    obtain ⟨hl, -, hs⟩ := hc q hq
    have hqb : q < 2 * nbins - 1 := by
      have : n ≤ 2 * nbins - 1 := by rw [hn]; split_ifs <;> omega
      omega
    rw [grid_get d nbins hv q hqb] at hs
    have e1 : wMaxOf d (fullRange d fs) xk / d.maxAbs * (d.maxAbs * (q / ((nbins : K) - 1) - 1)) =
        wMaxOf d (fullRange d fs) xk * (q / ((nbins : K) - 1) - 1) := by
      have := hv.weights.ne'
      field_simp
    rw [e1, csum_eq fs (cols q) hl] at hs
    have e2 : realised fs (finalTable d nbins fs.length cols) i =
        ∑ j ∈ Finset.range fs.length, fs.getD j 0 *
          ((finalPair d nbins cols i j).1 - (finalPair d nbins cols i j).2) := by
      unfold realised
      refine Finset.sum_congr rfl fun j hj => ?_
      obtain ⟨b1, b2⟩ := finalTable_get d nbins fs.length cols j i (Finset.mem_range.1 hj) hi
      rw [b1, b2]
    rw [e2]
    rcases hpq with ⟨e, rfl⟩ | ⟨e, hqi⟩
    · simp only [e]; exact hs
    · simp only [e, Prod.fst_swap, Prod.snd_swap]
      have hneg : ∑ j ∈ Finset.range fs.length, fs.getD j 0 *
          (((cols q).getD j (0, 0)).2 - ((cols q).getD j (0, 0)).1) =
          -∑ j ∈ Finset.range fs.length, fs.getD j 0 *
          (((cols q).getD j (0, 0)).1 - ((cols q).getD j (0, 0)).2) := by
        rw [← Finset.sum_neg_distrib]
        exact Finset.sum_congr rfl fun j _ => by ring
      have hb1 : ((nbins : K) - 1) ≠ 0 := by
        have : (2 : K) ≤ nbins := by exact_mod_cast hb
        intro h; linarith
      have hcast : (q : K) + i = 2 * ((nbins : K) - 1) := by
        have : q + i + 2 = 2 * nbins := by omega
        have : ((q + i + 2 : Nat) : K) = ((2 * nbins : Nat) : K) := by rw [this]
        push_cast at this; linarith
      have e3 : (i : K) / ((nbins : K) - 1) - 1 = -(q / ((nbins : K) - 1) - 1) := by
        field_simp
        linarith
      rw [hneg, e3, mul_neg, neg_sub_neg, abs_sub_comm]
      exact hs

/-- **C67** (symmetric strategies). With `symmetric` the strategy for a negative weight is that of the positive one with `g⁺` and
`g⁻` exchanged. -/
theorem C67_symmetric (d : Opt K) (nbins : Nat) (hv : Valid d nbins) (hs : d.symmetric = true) (x : List K)
    (hx : InCube d x) (fs : List K) (g : List (List K)) (h : denormalize d x = .ok (fs, g.map (·.map some))) (j i i' : Nat)
    (hj : j < fs.length) (hi : i + i' = 2 * nbins - 2) (hne : i ≠ i') :
    (g.getD (2 * j) []).getD i 0 = (g.getD (2 * j + 1) []).getD i' 0 := by
  obtain ⟨fs', xk, cols, h', -⟩ := core d nbins hv x hx
  rw [h, Except.ok.injEq, Prod.mk.injEq] at h'
  obtain ⟨rfl, hg⟩ := h'
  have hinj : g = finalTable d nbins fs.length cols := by
    refine List.map_injective_iff.2 (fun a b hab => ?_) hg
    exact List.map_injective_iff.2 (Option.some_injective K) hab
  have hb := hv.bins
  rw [hinj, (finalTable_get d nbins fs.length cols j i hj (by omega)).1,
    (finalTable_get d nbins fs.length cols j i' hj (by omega)).2]
  unfold finalPair
  simp only [hs, if_true]
  by_cases h1 : i + 1 < nbins
  · rw [if_pos h1, if_neg (by omega), show 2 * nbins - 2 - i' = i by omega]; rfl
  · rw [if_neg h1, if_pos (by omega), show 2 * nbins - 2 - i = i' by omega]; rfl

end Aihw.Wpo

import Verif.Wpo.Lemmas
import Verif.Wpo.Spec
import Verif.Inference.ConverterCustom

/-!
# Filling the conductance table
-/
namespace Aihw.Wpo
open Aihw.Inference

variable {K : Type} [Field K] [LinearOrder K] [IsStrictOrderedRing K]

theorem fill_spec (d : Opt K) (fs xg : List K) (gl gLen m : Nat) (hsym : d.symmetric = true → gLen = 2 * m - 1) :
    ∀ (ws : List K) (i : Nat) (t : Table K) (cols : Nat → List (K × K)),
      (∀ k (h : k < ws.length), column d fs xg gl (i + k) 0 ws[k] fs = .ok (cols (i + k)) ∧
        (cols (i + k)).length = fs.length) →
      i + ws.length ≤ gLen → (d.symmetric = true → i + ws.length ≤ m) →
      ∃ T, fill d fs xg gl gLen i ws t = .ok T ∧
        (∀ r p, p < i ∨ (d.symmetric = true ∧ gLen < p + 1 + i) → T r p = t r p) ∧
        (∀ k j, k < ws.length → (hj : j < (cols (i + k)).length) →
          (d.symmetric = true → T (2 * j) (gLen - (i + k) - 1) = some (cols (i + k))[j].2 ∧
            T (2 * j + 1) (gLen - (i + k) - 1) = some (cols (i + k))[j].1) ∧
          ((d.symmetric = true → i + k + 1 < m) → T (2 * j) (i + k) = some (cols (i + k))[j].1 ∧
            T (2 * j + 1) (i + k) = some (cols (i + k))[j].2)) := by
  intro ws
  induction ws with
  | nil => intro i t cols _ _ _; exact ⟨t, rfl, fun _ _ _ => rfl, fun k j hk => absurd hk (by simp)⟩
  | cons w ws ih =>
    intro i t cols hc hi hm
    rw [List.length_cons] at hi hm
    have h0 := hc 0 (by simp)
    simp only [Nat.add_zero, List.getElem_cons_zero] at h0
    obtain ⟨T, hT, hF, hE⟩ := ih (i + 1) (storeCol d gLen i 0 (cols i) t) cols
      (fun k hk => by
        have := hc (k + 1) (by simpa using hk)
        rw [show i + (k + 1) = i + 1 + k by omega] at this
        simpa using this) (by omega) (fun h => by have := hm h; omega)
    refine ⟨T, ?_, ?_, ?_⟩
    · unfold fill
      rw [h0.1, ok_bind]
      show (if i < gLen then _ else _) = _
      rw [if_pos (by omega : i < gLen)]
      exact hT
    · intro r p hp
      rw [hF r p (by rcases hp with h | h; left; omega; right; exact ⟨h.1, by omega⟩)]
      refine (storeCol_get d gLen i (cols i) 0 t 0 p).2.2 r ?_ fun hs => ?_
      · rcases hp with h | ⟨hs, h⟩
        · omega
        · have := hm hs; have := hsym hs; omega
      · have := hm hs; have := hsym hs
        rcases hp with h | ⟨_, h⟩ <;> omega
    · intro k j hk hj
      cases k with
      | zero =>
        simp only [Nat.add_zero] at hj ⊢
        have hg : ∀ p, _ := fun p => (storeCol_get d gLen i (cols i) 0 t j p).1 hj
        simp only [Nat.zero_add] at hg
        constructor
        · intro hs
          have := hm hs
          have := hsym hs
          rw [hF _ _ (Or.inr ⟨hs, by omega⟩), hF _ _ (Or.inr ⟨hs, by omega⟩), (hg _).1, (hg _).2, if_pos ⟨hs, rfl⟩,
            if_pos ⟨hs, rfl⟩]
          exact ⟨rfl, rfl⟩
        · intro hs
          rw [hF _ _ (Or.inl (by omega)), hF _ _ (Or.inl (by omega)), (hg _).1, (hg _).2]
          have hn : ¬ (d.symmetric = true ∧ i = gLen - i - 1) := by
            rintro ⟨h1, h2⟩
            have := hs h1; have := hsym h1; omega
          rw [if_neg hn, if_neg hn, if_pos rfl, if_pos rfl]
          exact ⟨rfl, rfl⟩
      | succ k =>
        have e : i + (k + 1) = i + 1 + k := by omega
        revert hj
        rw [e]
        intro hj
        exact hE k j (by simpa using hk) hj

theorem csum_eq (fs : List K) (gs : List (K × K)) (h : gs.length = fs.length) :
    csum fs gs = ∑ j ∈ Finset.range fs.length, fs.getD j 0 * ((gs.getD j (0, 0)).1 - (gs.getD j (0, 0)).2) := by
  induction fs generalizing gs with
  | nil => simp [csum]
  | cons f fs ih =>
    cases gs with
    | nil => simp at h
    | cons g gs =>
      have := ih gs (by simpa using h)
      unfold csum at this ⊢
      rw [List.zipWith_cons_cons, List.sum_cons, this, List.length_cons, Finset.sum_range_succ']
      simp only [List.getD_cons_succ, List.getD_cons_zero]
      rw [add_comm]

theorem fillF_spec (d : Opt K) (hf : d.fMin ≤ d.fMax) : ∀ (l : List (Option K)) (xs : List K), xs.length = l.count none →
    (∀ v ∈ xs, 0 ≤ v ∧ v ≤ 1) → ∃ fs, fillF d l xs = .ok fs ∧ List.Forall₂ (FactorOk d) l fs := by
  intro l
  induction l with
  | nil => intro xs _ _; exact ⟨[], rfl, List.Forall₂.nil⟩
  | cons o l ih =>
    intro xs hl hx
    cases o with
    | some f =>
      obtain ⟨fs, h1, h2⟩ := ih xs (by simpa using hl) hx
      exact ⟨f :: fs, by rw [fillF, h1]; rfl, List.Forall₂.cons rfl h2⟩
    | none =>
      cases xs with
      | nil => simp at hl
      | cons v xs =>
        obtain ⟨fs, h1, h2⟩ := ih xs (by simpa using hl) fun u hu => hx u (List.mem_cons_of_mem _ hu)
        obtain ⟨v0, v1⟩ := hx v (by simp)
        refine ⟨(v * (d.fMax - d.fMin) + d.fMin) :: fs, by rw [fillF, h1]; rfl, List.Forall₂.cons ?_ h2⟩
        constructor
        · nlinarith
        · nlinarith

theorem chunkAt_ok (xg : List K) (gl k i n : Nat) (hl : xg.length = n * gl) (hk : k < n) (hi : i < gl) :
    ∃ h : k * gl + i < xg.length, chunkAt xg gl k i = .ok xg[k * gl + i] := by
  have hlt : k * gl + i < xg.length := by
    rw [hl]
    calc k * gl + i < k * gl + gl := by omega
      _ = (k + 1) * gl := by ring
      _ ≤ n * gl := Nat.mul_le_mul_right _ hk
  refine ⟨hlt, ?_⟩
  unfold chunkAt
  have : ((xg.drop (k * gl)).take gl)[i]? = some xg[k * gl + i] := by
    rw [List.getElem?_take_of_lt hi, List.getElem?_drop, List.getElem?_eq_getElem hlt]
  rw [this]

/-- Rescaled weight of the largest grid point. -/
def wMaxOf (d : Opt K) (S xk : K) : K := xk * (S - 5 / 100 * S) + 5 / 100 * S

theorem partition_spec (d : Opt K) (nbins : Nat) (hv : Valid d nbins) (x : List K) (hx : InCube d x) :
    ∃ fs xk xg, partition d x = .ok (fs, wMaxOf d (fullRange d fs) xk / d.maxAbs, xg) ∧
      List.Forall₂ (FactorOk d) d.fLst fs ∧ 0 ≤ xk ∧ xk ≤ 1 ∧ (d.useMaxKw = true → xk = 1) ∧
      (∀ v ∈ xg, 0 ≤ v ∧ v ≤ 1) ∧
      xg.length = (2 * d.fLst.length - 1) * (if d.symmetric then nbins else 2 * nbins - 1) := by
  obtain ⟨hxl, hx01⟩ := hx
  have hgl : d.grid.length = nbins * 2 - 1 := by rw [hv.grid, mkGrid, linspace_length]
  have hb := hv.bins
  have hnb : (if d.symmetric then (d.grid.length + 1) / 2 else d.grid.length) =
      if d.symmetric then nbins else 2 * nbins - 1 := by
    rw [hgl]; split_ifs <;> omega
  unfold numBounds at hxl
  rw [hnb] at hxl
  simp only at hxl
  have hcnt : d.fLst.count none ≤ x.length := by
    rw [hxl]; split_ifs <;> omega
  obtain ⟨fs, hfs, hF⟩ := fillF_spec d hv.frange d.fLst (x.take (d.fLst.count none))
    (by rw [List.length_take]; omega) fun v hvm => hx01 v (List.mem_of_mem_take hvm)
  have hS : (fs.map fun f => f * (d.gMax - d.gMin)).sum = fullRange d fs := by
    unfold fullRange
    clear hfs hF
    induction fs with
    | nil => simp
    | cons f fs ih => rw [List.map_cons, List.sum_cons, ih, List.sum_cons]; ring
  cases hu : d.useMaxKw with
  | true =>
    rw [hu] at hxl
    simp only [if_true] at hxl
    refine ⟨fs, 1, x.drop (d.fLst.count none), ?_, hF, by norm_num, le_rfl, fun _ => rfl,
      fun v hvm => hx01 v (List.mem_of_mem_drop hvm), ?_⟩
    · unfold partition
      simp only [hfs, hu, ok_bind, kwParam, if_true, hS, if_neg hv.weights.ne']
      rfl
    · rw [List.length_drop, hxl, mul_comm]; omega
  | false =>
    rw [hu] at hxl
    simp only [Bool.false_eq_true, if_false] at hxl
    cases hd : x.drop (d.fLst.count none) with
    | nil =>
      have := congrArg List.length hd
      rw [List.length_drop, List.length_nil] at this
      omega
    | cons a r =>
      have hmem : ∀ v ∈ a :: r, 0 ≤ v ∧ v ≤ 1 := fun v hvm => hx01 v (List.mem_of_mem_drop (hd ▸ hvm))
      refine ⟨fs, a, r, ?_, hF, (hmem a (by simp)).1, (hmem a (by simp)).2, by simp,
        fun v hvm => hmem v (List.mem_cons_of_mem _ hvm), ?_⟩
      · unfold partition
        simp only [hfs, hu, hd, ok_bind, kwParam, Bool.false_eq_true, if_false, hS, if_neg hv.weights.ne',
          List.drop_succ_cons, List.drop_zero]
        rfl
      · have := congrArg List.length hd
        rw [List.length_drop, List.length_cons, hxl] at this
        rw [mul_comm]; omega

end Aihw.Wpo

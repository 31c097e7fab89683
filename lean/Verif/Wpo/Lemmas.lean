import Verif.Wpo.Model
import Mathlib.Tactic.Linarith
import Mathlib.Tactic.Ring
import Mathlib.Tactic.FieldSimp
import Mathlib.Data.List.GetD
import Mathlib.Algebra.Order.BigOperators.Group.List

/-!
# Lemmas on the optimizer's parametrisation
-/
namespace Aihw.Wpo
open Aihw.Inference

variable {K : Type} [Field K] [LinearOrder K] [IsStrictOrderedRing K]

theorem bind_ok {α β : Type} {x : Except PyErr α} {f : α → Except PyErr β} {b : β} (h : (x >>= f) = .ok b) :
    ∃ a, x = .ok a ∧ f a = .ok b := by
  cases x with
  | error e => cases h
  | ok a => exact ⟨a, rfl, h⟩

theorem ok_bind {α β : Type} {a : α} {f : α → Except PyErr β} : ((.ok a : Except PyErr α) >>= f) = f a := rfl

/-- The contribution of a pair is within its span and leaves no more than the rest can supply. -/
theorem pairDelta_spec (d : Opt K) (c rest f xd : K) (hG : d.gMin ≤ d.gMax) (hf : 0 ≤ f) (hr : 0 ≤ rest)
    (hc : |c| ≤ f * (d.gMax - d.gMin) + rest) (h0 : 0 ≤ xd) (h1 : xd ≤ 1) :
    |pairDelta d c rest f xd| ≤ f * (d.gMax - d.gMin) ∧ |c - pairDelta d c rest f xd| ≤ rest := by
  unfold pairDelta
  have hs : 0 ≤ f * (d.gMax - d.gMin) := mul_nonneg hf (by linarith)
  generalize f * (d.gMax - d.gMin) = s at *
  rw [abs_le] at hc
  simp only
  set lo := max (c - rest) (-s) with hlo
  set hi := min (c + rest) s with hhi
  have hle : lo ≤ hi := max_le (le_min (by linarith) (by linarith)) (le_min (by linarith) (by linarith))
  have a1 : lo ≤ xd * (hi - lo) + lo := by nlinarith
  have a2 : xd * (hi - lo) + lo ≤ hi := by nlinarith
  have b1 : c - rest ≤ lo := le_max_left _ _
  have b2 : -s ≤ lo := le_max_right _ _
  have b3 : hi ≤ c + rest := min_le_left _ _
  have b4 : hi ≤ s := min_le_right _ _
  constructor <;> rw [abs_le] <;> constructor <;> linarith

/-- The two conductances are in range and their difference is the requested one, up to the programming error. -/
theorem pairG_spec (d : Opt K) (delta x : K) (hG : d.gMin ≤ d.gMax) (hd : |delta| ≤ d.gMax - d.gMin) (he : 0 ≤ d.gErr)
    (h0 : 0 ≤ x) (h1 : x ≤ 1) :
    d.gMin ≤ (pairG d delta x).1 ∧ (pairG d delta x).1 ≤ d.gMax ∧ d.gMin ≤ (pairG d delta x).2 ∧
    (pairG d delta x).2 ≤ d.gMax ∧ |(pairG d delta x).1 - (pairG d delta x).2 - delta| ≤ d.gErr := by
  unfold pairG
  simp only
  rw [abs_le] at hd
  set lo := d.gMin + max delta 0 - d.gErr with hlo
  set hi := d.gMax + min delta 0 + d.gErr with hhi
  have hmm : max delta 0 + min delta 0 = delta := by rw [add_comm, min_add_max, add_zero]
  have m1 : 0 ≤ max delta 0 := le_max_right _ _
  have m2 : min delta 0 ≤ 0 := min_le_right _ _
  have m3 : max delta 0 - min delta 0 ≤ d.gMax - d.gMin := by
    rcases le_total delta 0 with h | h
    · rw [max_eq_right h, min_eq_left h]; linarith
    · rw [max_eq_left h, min_eq_right h]; linarith
  have hle : lo ≤ hi := by linarith
  have a1 : lo ≤ x * (hi - lo) + lo := by nlinarith
  have a2 : x * (hi - lo) + lo ≤ hi := by nlinarith
  generalize x * (hi - lo) + lo = y at *
  have c1 : d.gMin ≤ max (min y d.gMax) d.gMin := le_max_right _ _
  have c2 : max (min y d.gMax) d.gMin ≤ d.gMax := max_le (min_le_right _ _) hG
  -- the clipped value keeps the relaxed bounds
  have e1 : lo ≤ max (min y d.gMax) d.gMin := by
    refine le_max_of_le_left (le_min a1 ?_)
    linarith
  have e2 : max (min y d.gMax) d.gMin ≤ hi := by
    refine max_le ((min_le_left _ _).trans a2) ?_
    linarith
  generalize max (min y d.gMax) d.gMin = gp at *
  refine ⟨c1, c2, le_max_right _ _, max_le (min_le_right _ _) hG, ?_⟩
  have f1 : d.gMin - d.gErr ≤ gp - delta := by linarith
  have f2 : gp - delta ≤ d.gMax + d.gErr := by linarith
  rw [abs_le]
  rcases le_total (gp - delta) d.gMax with h | h
  · rw [min_eq_left h]
    rcases le_total (gp - delta) d.gMin with h' | h'
    · rw [max_eq_right h']; constructor <;> linarith
    · rw [max_eq_left h']; constructor <;> linarith
  · rw [min_eq_right h, max_eq_left hG]; constructor <;> linarith

/-- Weighted sum of the differences of a column. -/
def csum (fs : List K) (gs : List (K × K)) : K := (List.zipWith (fun f g => f * (g.1 - g.2)) fs gs).sum

/-- Remaining span of a suffix. -/
theorem spanRemaining_eq (l : List K) (ind : Nat) : spanRemaining l ind = (l.drop ind).sum := by
  unfold spanRemaining
  split_ifs with h
  · rw [List.drop_eq_nil_of_le (by omega)]; rfl
  · rfl

theorem spans_nonneg (d : Opt K) (hG : d.gMin ≤ d.gMax) (fs : List K) (hf : ∀ f ∈ fs, 0 < f) :
    0 ≤ (fs.map fun f => f * (d.gMax - d.gMin)).sum := by
  apply List.sum_nonneg
  intro y hy
  obtain ⟨f, hfm, rfl⟩ := List.mem_map.1 hy
  exact mul_nonneg (hf f hfm).le (by linarith)

/-- The pairs of one grid point: in range, and together the requested weight. -/
theorem column_spec (d : Opt K) (fAll xg : List K) (gl i : Nat) (hG : d.gMin < d.gMax) (he : 0 ≤ d.gErr)
    (hX : ∀ k, k + 1 < 2 * fAll.length → ∃ v, chunkAt xg gl k i = .ok v ∧ 0 ≤ v ∧ v ≤ 1) :
    ∀ (fs : List K) (j : Nat) (c : K), fAll.drop j = fs → (∀ f ∈ fs, 0 < f) →
      |c| ≤ (fs.map fun f => f * (d.gMax - d.gMin)).sum →
      ∃ gs, column d fAll xg gl i j c fs = .ok gs ∧ gs.length = fs.length ∧
        (∀ g ∈ gs, d.gMin ≤ g.1 ∧ g.1 ≤ d.gMax ∧ d.gMin ≤ g.2 ∧ g.2 ≤ d.gMax) ∧
        |csum fs gs - c| ≤ d.gErr * fs.sum := by
  intro fs
  induction fs with
  | nil =>
    intro j c _ _ hc
    refine ⟨[], rfl, rfl, by simp, ?_⟩
    simpa [csum] using hc
  | cons f fs ih =>
    intro j c hj hf hc
    have hlen := congrArg List.length hj
    rw [List.length_drop, List.length_cons] at hlen
    have hf0 : 0 < f := hf f (by simp)
    have hfs : ∀ g ∈ fs, 0 < g := fun g hg => hf g (List.mem_cons_of_mem _ hg)
    have hdrop : fAll.drop (j + 1) = fs := by
      have : fAll.drop (j + 1) = (fAll.drop j).drop 1 := by rw [List.drop_drop]
      rw [this, hj]; rfl
    have hrest : spanRemaining (fAll.map fun f => f * (d.gMax - d.gMin)) (j + 1) =
        (fs.map fun f => f * (d.gMax - d.gMin)).sum := by
      rw [spanRemaining_eq, ← List.map_drop, hdrop]
    have hr0 := spans_nonneg d hG.le fs hfs
    obtain ⟨x, hx, x0, x1⟩ := hX (2 * j) (by omega)
    have hxd : ∃ xd, xdAt fAll.length xg gl j i = .ok xd ∧ 0 ≤ xd ∧ xd ≤ 1 := by
      unfold xdAt
      by_cases h : j < fAll.length - 1
      · rw [if_pos h]; exact hX (2 * j + 1) (by omega)
      · rw [if_neg h]; exact ⟨1, rfl, by norm_num, le_rfl⟩
    obtain ⟨xd, hxd, xd0, xd1⟩ := hxd
    rw [List.map_cons, List.sum_cons] at hc
    obtain ⟨p1, p2⟩ := pairDelta_spec d c _ f xd hG.le hf0.le hr0 hc xd0 xd1
    rw [← hrest] at p1 p2
    set fd := pairDelta d c (spanRemaining (fAll.map fun f => f * (d.gMax - d.gMin)) (j + 1)) f xd with hfd
    obtain ⟨gs, hgs, hl, hb, hs⟩ := ih (j + 1) (c - fd) hdrop hfs (by rw [← hrest]; exact p2)
    have hdel : |fd / f| ≤ d.gMax - d.gMin := by
      rw [abs_div, abs_of_pos hf0, div_le_iff₀ hf0, mul_comm]; exact p1
    obtain ⟨q1, q2, q3, q4, q5⟩ := pairG_spec d (fd / f) x hG.le hdel he x0 x1
    refine ⟨pairG d (fd / f) x :: gs, ?_, by simp [hl], ?_, ?_⟩
    · unfold column
      rw [hx, ok_bind, hxd, ok_bind]
      show (if f = 0 then _ else _) = _
      rw [if_neg hf0.ne']
      rw [← hfd, hgs, ok_bind]
    · intro g hg
      rcases List.mem_cons.1 hg with rfl | hg
      · exact ⟨q1, q2, q3, q4⟩
      · exact hb g hg
    · have e : csum (f :: fs) (pairG d (fd / f) x :: gs) - c =
          f * ((pairG d (fd / f) x).1 - (pairG d (fd / f) x).2 - fd / f) + (csum fs gs - (c - fd)) := by
        simp only [csum, List.zipWith_cons_cons, List.sum_cons]
        field_simp
        ring
      rw [e, List.sum_cons]
      calc |f * ((pairG d (fd / f) x).1 - (pairG d (fd / f) x).2 - fd / f) + (csum fs gs - (c - fd))|
          ≤ |f * ((pairG d (fd / f) x).1 - (pairG d (fd / f) x).2 - fd / f)| + |csum fs gs - (c - fd)| := abs_add_le _ _
        _ ≤ f * d.gErr + d.gErr * fs.sum := by
          refine add_le_add ?_ hs
          rw [abs_mul, abs_of_pos hf0]
          exact mul_le_mul_of_nonneg_left q5 hf0.le
        _ = d.gErr * (f + fs.sum) := by ring

/-! ## The table -/

theorem write_get (t : Table K) (r i : Nat) (v : K) (r' i' : Nat) :
    t.write r i v r' i' = if r' = r ∧ i' = i then some v else t r' i' := rfl

/-- Row `2 (j + k)`, `2 (j + k) + 1` after storing a column. -/
theorem storeCol_get (d : Opt K) (gLen i : Nat) : ∀ (gs : List (K × K)) (j : Nat) (t : Table K) (k p : Nat),
    (∀ hk : k < gs.length,
      storeCol d gLen i j gs t (2 * (j + k)) p =
        (if d.symmetric = true ∧ p = gLen - i - 1 then some gs[k].2 else if p = i then some gs[k].1
          else t (2 * (j + k)) p) ∧
      storeCol d gLen i j gs t (2 * (j + k) + 1) p =
        (if d.symmetric = true ∧ p = gLen - i - 1 then some gs[k].1 else if p = i then some gs[k].2
          else t (2 * (j + k) + 1) p)) ∧
    (∀ r, r < 2 * j ∨ 2 * (j + gs.length) ≤ r → storeCol d gLen i j gs t r p = t r p) ∧
    (∀ r, p ≠ i → (d.symmetric = true → p ≠ gLen - i - 1) → storeCol d gLen i j gs t r p = t r p) := by
  intro gs
  induction gs with
  | nil =>
    intro j t k p
    exact ⟨fun hk => absurd hk (by simp), fun _ _ => rfl, fun _ _ _ => rfl⟩
  | cons g gs ih =>
    intro j t k p
    have hst : ∀ r p, storePair d gLen i t j g r p =
        if r = 2 * j then (if d.symmetric = true ∧ p = gLen - i - 1 then some g.2 else if p = i then some g.1 else t r p)
        else if r = 2 * j + 1 then
          (if d.symmetric = true ∧ p = gLen - i - 1 then some g.1 else if p = i then some g.2 else t r p)
        else t r p := by
      intro r p
      unfold storePair
      cases hsym : d.symmetric with
      | true =>
        simp only [if_true, write_get, true_and]
        by_cases h1 : r = 2 * j
        · subst h1; simp
        · by_cases h2 : r = 2 * j + 1
          · subst h2; simp
          · simp [h1, h2]
      | false =>
        simp only [Bool.false_eq_true, if_false, write_get, false_and]
        by_cases h1 : r = 2 * j
        · subst h1; simp
        · by_cases h2 : r = 2 * j + 1
          · subst h2; simp
          · simp [h1, h2]
    refine ⟨fun hk => ?_, fun r hr => ?_, fun r h1 h2 => ?_⟩
    · cases k with
      | zero =>
        have hlow := (ih (j + 1) (storePair d gLen i t j g) 0 p).2.1
        simp only [storeCol, Nat.add_zero, List.getElem_cons_zero]
        rw [hlow _ (Or.inl (by omega)), hlow _ (Or.inl (by omega)), hst, hst]
        exact ⟨if_pos rfl, (if_neg (by omega)).trans (if_pos rfl)⟩
      | succ k =>
        have := (ih (j + 1) (storePair d gLen i t j g) k p).1 (by simpa using hk)
        rw [show j + 1 + k = j + (k + 1) by omega] at this
        simp only [storeCol, List.getElem_cons_succ]
        rw [this.1, this.2, hst, hst]
        have n1 : ¬ 2 * (j + (k + 1)) = 2 * j := by omega
        have n2 : ¬ 2 * (j + (k + 1)) = 2 * j + 1 := by omega
        have n3 : ¬ 2 * (j + (k + 1)) + 1 = 2 * j := by omega
        have n4 : ¬ 2 * (j + (k + 1)) + 1 = 2 * j + 1 := by omega
        rw [if_neg n1, if_neg n2, if_neg n3, if_neg n4]
        exact ⟨rfl, rfl⟩
    · rw [List.length_cons] at hr
      have := (ih (j + 1) (storePair d gLen i t j g) 0 p).2.1 r (by omega)
      have n1 : ¬ r = 2 * j := by omega
      have n2 : ¬ r = 2 * j + 1 := by omega
      rw [storeCol, this, hst, if_neg n1, if_neg n2]
    · have := (ih (j + 1) (storePair d gLen i t j g) 0 p).2.2 r h1 h2
      rw [storeCol, this, hst]
      have hn : ¬ (d.symmetric = true ∧ p = gLen - i - 1) := fun h => h2 h.1 h.2
      rw [if_neg hn, if_neg h1, if_neg hn, if_neg h1]
      split_ifs <;> rfl

end Aihw.Wpo

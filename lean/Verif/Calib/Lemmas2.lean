import Verif.Calib.Lemmas
import Mathlib.Data.List.GetD

/-! # Lemmas on calibration: one tile -/
namespace Aihw.Calib
open Spec

theorem quantile_spec {q : ℚ} {v : Vec} {r : ℚ} (h : quantileOf q v = .ok r) :
    IsQuantile q v r := by
  unfold quantileOf at h
  by_cases c1 : q < 0 ∨ 1 < q
  · rw [if_pos c1] at h; simp at h
  rw [if_neg c1] at h
  by_cases c2 : v = []
  · rw [if_pos c2] at h; simp at h
  rw [if_neg c2] at h
  simp only [Except.ok.injEq] at h
  push Not at c1
  set s := v.insertionSort (· ≤ ·) with hs
  have hperm : s.Perm v := List.perm_insertionSort _ _
  have hsort : s.Pairwise (· ≤ ·) := List.pairwise_insertionSort _ _
  have hlen : s.length = v.length := hperm.length_eq
  have hpos : 0 < v.length := List.length_pos_iff.2 c2
  set hh := q * (((v.length : ℤ) - 1 : ℤ) : ℚ) with hhh
  have hcast : (((v.length : ℤ) - 1 : ℤ) : ℚ) = (s.length : ℚ) - 1 := by rw [hlen]; push_cast; rfl
  have hv1 : (0 : ℚ) ≤ (s.length : ℚ) - 1 := by
    have : (1 : ℚ) ≤ (s.length : ℚ) := by rw [hlen]; exact_mod_cast hpos
    linarith
  have hh0 : 0 ≤ hh := by rw [hhh, hcast]; exact mul_nonneg c1.1 hv1
  have hh1 : hh ≤ (s.length : ℚ) - 1 := by rw [hhh, hcast]; nlinarith [c1.2]
  have hf0 : 0 ≤ ⌊hh⌋ := Int.floor_nonneg.2 hh0
  have hfle : ((⌊hh⌋ : ℤ) : ℚ) ≤ hh := Int.floor_le hh
  have hflt : hh < ⌊hh⌋ + 1 := Int.lt_floor_add_one hh
  set i := ⌊hh⌋.toNat with hi
  have hicast : (i : ℤ) = ⌊hh⌋ := Int.toNat_of_nonneg hf0
  have hiq : (i : ℚ) = ((⌊hh⌋ : ℤ) : ℚ) := by exact_mod_cast congrArg (Int.cast : ℤ → ℚ) hicast
  have hilt : i < s.length := by
    have h3 : (i : ℚ) ≤ (s.length : ℚ) - 1 := by rw [hiq]; exact hfle.trans hh1
    have h4 : (i : ℚ) + 1 ≤ (s.length : ℚ) := by linarith
    have : i + 1 ≤ s.length := by exact_mod_cast h4
    omega
  have hhq : q * ((s.length : ℚ) - 1) = hh := by rw [hhh, hcast]
  refine ⟨s, hperm, hsort, i, hilt, by rw [hhq, hiq]; exact hfle, by rw [hhq, hiq]; exact hflt, ?_⟩
  rw [hhq]
  by_cases hi1 : i + 1 < s.length
  · right
    refine ⟨hi1, ?_⟩
    rw [← h, List.getD_eq_getElem _ _ hi1, List.getD_eq_getElem _ _ hilt, hiq]
  · left
    have e : s.getD (i + 1) (s.getD i 0) = s.getD i 0 := List.getD_eq_default _ _ (by omega)
    rw [e, sub_self, mul_zero, add_zero, List.getD_eq_getElem _ _ hilt] at h
    refine ⟨?_, h.symm⟩
    have hil : (i : ℚ) + 1 = s.length := by
      have : i + 1 = s.length := by omega
      exact_mod_cast this
    have : (i : ℚ) ≤ hh := by rw [hiq]; exact hfle
    linarith

theorem dropZero_eq (rows : List Vec) : dropZero rows = nonzeroRows [rows] := by
  unfold dropZero nonzeroRows
  simp only [List.flatten_cons, List.flatten_nil, List.append_nil]
  congr 1
  funext r
  induction r with
  | nil => simp
  | cons x r ih =>
    simp only [List.all_cons, Bool.not_and, List.any_cons, ih]
    rfl

theorem nonzeroRows_append (a b : List (List Vec)) :
    nonzeroRows (a ++ b) = nonzeroRows a ++ nonzeroRows b := by
  simp [nonzeroRows]

theorem entries_append (a b : List (List Vec)) : entries (a ++ b) = entries a ++ entries b := by
  simp [entries]

/-- The largest entry of the non-zero rows is the largest entry. -/
theorem maxAbs_dropZero {rows : List Vec} {M : ℚ} (h : absMaxOf (dropZero rows).flatten = .ok M) :
    IsMaxAbs (entries [rows]) M ∧ 0 ≤ M := by
  unfold absMaxOf at h
  by_cases c : (dropZero rows).flatten = []
  · rw [if_pos c] at h; simp at h
  rw [if_neg c] at h
  simp only [Except.ok.injEq] at h
  subst h
  refine ⟨⟨?_, ?_⟩, absMax_nonneg _⟩
  · obtain ⟨x, hx, e⟩ := absMax_mem c
    refine ⟨x, ?_, e.symm⟩
    simp only [List.mem_flatten] at hx
    obtain ⟨r, hr, hx⟩ := hx
    simp only [entries, List.flatten_cons, List.flatten_nil, List.append_nil, List.mem_flatten]
    exact ⟨r, (List.mem_filter.1 hr).1, hx⟩
  · intro x hx
    simp only [entries, List.flatten_cons, List.flatten_nil, List.append_nil,
      List.mem_flatten] at hx
    obtain ⟨r, hr, hx⟩ := hx
    by_cases z : r.all (fun x => x == 0) = true
    · have : x = 0 := by
        have := List.all_eq_true.1 z x hx
        simpa using this
      rw [this, abs_zero]
      exact absMax_nonneg _
    · apply abs_le_absMax
      exact List.mem_flatten.2 ⟨r, List.mem_filter.2 ⟨hr, by simp only [Bool.not_eq_true] at z; simp only [z, Bool.not_false]⟩, hx⟩

theorem maxAbs_append {a b : Vec} {A B : ℚ} (ha : IsMaxAbs a A) (hb : IsMaxAbs b B) :
    IsMaxAbs (a ++ b) (max A B) := by
  obtain ⟨⟨x, hx, ex⟩, h1⟩ := ha
  obtain ⟨⟨y, hy, ey⟩, h2⟩ := hb
  constructor
  · rcases max_choice A B with e | e
    · exact ⟨x, List.mem_append_left _ hx, by rw [e, ex]⟩
    · exact ⟨y, List.mem_append_right _ hy, by rw [e, ey]⟩
  · intro z hz
    rcases List.mem_append.1 hz with h | h
    · exact (h1 z h).trans (le_max_left _ _)
    · exact (h2 z h).trans (le_max_right _ _)

theorem callTile_single {std : List Vec → Option ℚ} {σ : List Vec → List Vec} {x : List Vec}
    {t : Tile} {h : Hook} (hh : t.hooks = [h]) :
    callTile std σ x t = ({ (runHook std σ h t x).1.2 with hooks := [(runHook std σ h t x).1.1] },
      (runHook std σ h t x).2) := by
  unfold callTile
  rw [hh]
  simp only [runHooks]
  rcases runHook std σ h t x with ⟨⟨h', t'⟩, eo⟩
  cases eo <;> rfl

theorem runHook_max {std : List Vec → Option ℚ} {σ : List Vec → List Vec} {h : Hook} {t : Tile}
    {x : List Vec} (hm : h.ctype = .max) : runHook std σ h t x =
      match absMaxOf (dropZero x).flatten with
      | .error e => ((h, t), some e)
      | .ok m => (({ h with cache := maxUpd h.cache m }, t), .none) := by
  obtain ⟨a, b, c, d⟩ := h
  simp only at hm
  subst hm
  rfl

theorem runHook_cache {std : List Vec → Option ℚ} {σ : List Vec → List Vec} {h : Hook} {t : Tile}
    {x : List Vec} (hm : h.ctype = .cacheQuantile) : runHook std σ h t x =
      (({ h with cache := .rows ((σ (cacheRows h.cache ++ dropZero x)).take h.maxSamples) }, t),
        .none) := by
  obtain ⟨a, b, c, d⟩ := h
  simp only at hm
  subst hm
  rfl

theorem runHook_moving {std : List Vec → Option ℚ} {σ : List Vec → List Vec} {h : Hook} {t : Tile}
    {x : List Vec} (hm : h.ctype = .movingQuantile ∨ h.ctype = .movingStd) : runHook std σ h t x =
      match movingVal std h t (dropZero x) with
      | .error e => ((h, t), some e)
      | .ok v => ((h, (movingUpd t v).1), (movingUpd t v).2) := by
  obtain ⟨a, b, c, d⟩ := h
  simp only at hm
  rcases hm with hm | hm <;> subst hm <;> rfl

/-! ### Maximum -/

/-- The cache of a maximum calibration represents the entries seen. -/
def RepMax : CVal → Vec → Prop
  | .rows l, xs => l = [] ∧ xs = []
  | .scalar M, xs => IsMaxAbs xs M

theorem runCalls_max {std : List Vec → Option ℚ}
    (calls : List (List Vec × (List Vec → List Vec))) {t : Tile} {h : Hook} {xs : Vec}
    (hh : t.hooks = [h]) (hm : h.ctype = .max) (hr : RepMax h.cache xs)
    (hok : (runCalls std t calls).2 = .none) :
    ∃ c, (runCalls std t calls).1 = { t with hooks := [{ h with cache := c }] } ∧
      RepMax c (xs ++ entries (calls.map (·.1))) ∧ (calls ≠ [] → ∃ M, c = .scalar M) := by
  induction calls generalizing t h xs with
  | nil =>
    refine ⟨h.cache, ?_, by simpa [entries] using hr, by simp⟩
    simp only [runCalls]
    rw [← hh]
  | cons c cs ih =>
    simp only [runCalls] at hok ⊢
    rw [callTile_single hh] at hok ⊢
    rw [runHook_max hm] at hok ⊢
    cases hM : absMaxOf (dropZero c.1).flatten with
    | error e => rw [hM] at hok; simp at hok
    | ok M =>
      rw [hM] at hok
      simp only at hok ⊢
      obtain ⟨hM1, hM0⟩ := maxAbs_dropZero hM
      have hrep : RepMax (maxUpd h.cache M) (xs ++ entries [c.1]) := by
        cases hc : h.cache with
        | rows l =>
          rw [hc] at hr
          obtain ⟨_, e2⟩ := hr
          rw [e2]
          simpa [maxUpd, RepMax] using hM1
        | scalar v =>
          rw [hc] at hr
          exact maxAbs_append hr hM1
      have hs : ∃ M', maxUpd h.cache M = .scalar M' := by
        cases h.cache <;> exact ⟨_, rfl⟩
      obtain ⟨d, e1, e2, e3⟩ := ih (h := { h with cache := maxUpd h.cache M }) (xs := xs ++ entries [c.1])
        rfl hm hrep hok
      refine ⟨d, ?_, ?_, ?_⟩
      · rw [e1]
      · have : xs ++ entries (List.map (·.1) (c :: cs)) =
            xs ++ entries [c.1] ++ entries (cs.map (·.1)) := by
          rw [List.map_cons, ← List.singleton_append, entries_append, List.append_assoc]
        rw [this]
        exact e2
      · intro _
        by_cases hcs : cs = []
        · subst hcs
          simp only [runCalls] at e1
          have := congrArg Tile.hooks e1
          simp only [List.cons.injEq, Hook.mk.injEq, and_true, true_and] at this
          rw [← this]; exact hs
        · exact e3 hcs

/-! ### Cache -/

theorem runCalls_cache {std : List Vec → Option ℚ}
    (calls : List (List Vec × (List Vec → List Vec))) {t : Tile} {h : Hook} {s xs : List Vec}
    (hσ : ∀ p ∈ calls, ∀ l, (p.2 l).Perm l)
    (hh : t.hooks = [h]) (hm : h.ctype = .cacheQuantile) (hc : h.cache = .rows s)
    (hs : s.Subperm xs) (hl : s.length = min h.maxSamples xs.length) :
    ∃ s', (runCalls std t calls).1 = { t with hooks := [{ h with cache := .rows s' }] } ∧
      s'.Subperm (xs ++ nonzeroRows (calls.map (·.1))) ∧
      s'.length = min h.maxSamples (xs ++ nonzeroRows (calls.map (·.1))).length := by
  induction calls generalizing t h s xs with
  | nil =>
    refine ⟨s, ?_, by simpa [nonzeroRows] using hs, by simpa [nonzeroRows] using hl⟩
    simp only [runCalls]
    rw [← hc, ← hh]
  | cons c cs ih =>
    simp only [runCalls]
    rw [callTile_single hh]
    rw [runHook_cache hm]
    have hp := hσ c List.mem_cons_self (cacheRows h.cache ++ dropZero c.1)
    rw [hc] at hp ⊢
    simp only [cacheRows] at hp ⊢
    have hsub : (List.take h.maxSamples (c.2 (s ++ dropZero c.1))).Subperm
        (xs ++ nonzeroRows [c.1]) := by
      rw [← dropZero_eq]
      exact (List.take_sublist _ _).subperm.trans
        (hp.subperm.trans (hs.append (List.Subperm.refl _)))
    have hlen : (List.take h.maxSamples (c.2 (s ++ dropZero c.1))).length =
        min h.maxSamples (xs ++ nonzeroRows [c.1]).length := by
      rw [← dropZero_eq, List.length_take, hp.length_eq, List.length_append, List.length_append, hl]
      omega
    obtain ⟨s', e1, e2, e3⟩ := ih
      (t := { t with hooks := [{ h with cache := .rows (List.take h.maxSamples (c.2 (s ++ dropZero c.1))) }] })
      (h := { h with cache := .rows (List.take h.maxSamples (c.2 (s ++ dropZero c.1))) })
      (fun p hp => hσ p (List.mem_cons_of_mem _ hp)) rfl hm rfl hsub hlen
    have happ : xs ++ nonzeroRows (List.map (·.1) (c :: cs)) =
        xs ++ nonzeroRows [c.1] ++ nonzeroRows (cs.map (·.1)) := by
      rw [List.map_cons, ← List.singleton_append, nonzeroRows_append, List.append_assoc]
    rw [happ]
    exact ⟨s', by rw [e1], e2, e3⟩

end Aihw.Calib

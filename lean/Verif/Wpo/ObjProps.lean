import Verif.Wpo.Objective
import Verif.Wpo.Props2
import Mathlib.Data.List.GetD
import Mathlib.Algebra.Order.BigOperators.Group.List
import Mathlib.Tactic.Linarith
import Mathlib.Tactic.FieldSimp

/-!
# C68: objective and result of the weight programming optimizer
-/
namespace Aihw.Wpo
open Aihw.Inference

variable {K : Type} [Field K] [LinearOrder K] [IsStrictOrderedRing K] {C M : Type}

/-- `A` and `B` are both `n × m` matrices. -/
def IsMat (n m : Nat) (A : Mat K) : Prop := A.length = n ∧ ∀ r ∈ A, r.length = m

/-- Mean square of the error relative to the largest weight, ten times amplified, over all entries and time steps. -/
def meanSq (maxAbs : K) (n m : Nat) (test : Mat K) (effs : List (Mat K)) : K :=
  (∑ t ∈ Finset.range effs.length, ∑ i ∈ Finset.range n, ∑ j ∈ Finset.range m,
    (10 * ((((effs.getD t []).getD i []).getD j 0 - (test.getD i []).getD j 0) / maxAbs)) ^ 2) / (n * m * effs.length)

omit [LinearOrder K] [IsStrictOrderedRing K] in
theorem zipSum {A B : Type} (F : A → B → K) (da : A) (db : B) : ∀ (a : List A) (b : List B), a.length = b.length →
    (List.zipWith F a b).sum = ∑ i ∈ Finset.range a.length, F (a.getD i da) (b.getD i db) := by
  intro a
  induction a with
  | nil => intro b _; simp
  | cons x a ih =>
    intro b h
    cases b with
    | nil => simp at h
    | cons y b =>
      simp only [List.length_cons, Nat.add_right_cancel_iff] at h
      rw [List.zipWith_cons_cons, List.sum_cons, ih b h, List.length_cons, Finset.sum_range_succ']
      simp only [List.getD_cons_succ, List.getD_cons_zero]
      rw [add_comm]

theorem listSum {A : Type} (F : A → K) (da : A) : ∀ a : List A,
    (a.map F).sum = ∑ i ∈ Finset.range a.length, F (a.getD i da) := by
  intro a
  induction a with
  | nil => simp
  | cons x a ih =>
    rw [List.map_cons, List.sum_cons, ih, List.length_cons, Finset.sum_range_succ']
    simp only [List.getD_cons_succ, List.getD_cons_zero]
    rw [add_comm]

/-- **C68** (error measure). The loss is the mean, over all entries and all time steps, of the squared weight error relative to the largest
weight (ten times amplified). -/
theorem C68_error (maxAbs : K) (h0 : maxAbs ≠ 0) (n m : Nat) (hn : 0 < n) (hm : 0 < m) (test : Mat K) (ht : IsMat n m test)
    (effs : List (Mat K)) (he : effs ≠ []) (hes : ∀ e ∈ effs, IsMat n m e) :
    tnmse maxAbs n m test effs = .ok (meanSq maxAbs n m test effs) := by
  have hl : 0 < effs.length := List.length_pos_iff.2 he
  have hz : ¬ (n * m * effs.length = 0 ∨ maxAbs = 0) := by
    rintro (h | h)
    · exact absurd h (Nat.mul_pos (Nat.mul_pos hn hm) hl).ne'
    · exact h0 h
  unfold tnmse meanSq
  rw [if_neg hz, listSum _ []]
  congr 2
  · refine Finset.sum_congr rfl fun t htl => ?_
    have htl' := Finset.mem_range.1 htl
    have hE : IsMat n m (effs.getD t []) := by
      rw [List.getD_eq_getElem _ _ htl']; exact hes _ (List.getElem_mem _)
    unfold nseStep
    rw [zipSum _ [] [] _ _ (hE.1.trans ht.1.symm), hE.1]
    refine Finset.sum_congr rfl fun i hi => ?_
    have hi' := Finset.mem_range.1 hi
    have r1 : ((effs.getD t []).getD i []).length = m := by
      rw [List.getD_eq_getElem _ _ (by rw [hE.1]; exact hi')]; exact hE.2 _ (List.getElem_mem _)
    have r2 : (test.getD i []).length = m := by
      rw [List.getD_eq_getElem _ _ (by rw [ht.1]; exact hi')]; exact ht.2 _ (List.getElem_mem _)
    rw [zipSum _ 0 0 _ _ (r1.trans r2.symm), r1]
    refine Finset.sum_congr rfl fun j _ => ?_
    rw [mul_div_assoc]
  · push_cast; ring

/-- **C68** (stopping). For a positive baseline the search stops at a point exactly if its error is below `1 - margin` times the baseline. -/
theorem C68_stop (baseline margin e v : K) (hb : 0 < baseline) (h : lossOut false baseline margin e = .ok v) :
    stops v = true ↔ e < (1 - margin) * baseline := by
  unfold lossOut at h
  simp only [Bool.false_eq_true, if_false, if_neg hb.ne'] at h
  injection h with h
  subst h
  unfold stops
  rw [decide_eq_true_iff]
  have e1 : (e - baseline) / baseline + margin = (e - (1 - margin) * baseline) / baseline := by
    field_simp; ring
  rw [e1, div_neg_iff]
  constructor
  · rintro (h | h)
    · exact absurd h.2 (not_lt.2 hb.le)
    · linarith [h.1]
  · intro h
    exact Or.inr ⟨by linarith, hb⟩

/-- **C68** (result). If the search returns a point of the cube whose objective value was evaluated (in evaluation `k`), then the optimizer
returns the converter of this point, puts it into its configuration, restores the mapping, and `best_loss` is the error of the returned
converter in that evaluation. -/
theorem C68_result (w : World K C M) (s : OptState K C M) (nbins : Nat) (hv : Valid s.opt nbins) (k0 : Nat) (x : List K)
    (hx : InCube s.opt x) (b : K) (hb : getLossBaseline w s k0 = .ok b) (hb0 : b ≠ 0) (k : Nat) (f : K)
    (hf : lossFxn w { s with lossBaseline := b } k x = .ok f) :
    ∃ (s' : OptState K C M) (fs : List K) (g : List (List K)), runOptimizer w s k0 x f = .ok (s', w.build fs (g.map (·.map some)), successOf f) ∧
      denormalize s.opt x = .ok (fs, g.map (·.map some)) ∧
      s'.conv = w.build fs (g.map (·.map some)) ∧ s'.mapping = s.saved ∧ s'.opt.fLst = fs.map some ∧ s'.lossBaseline = b ∧
      s'.bestLoss = w.err s'.conv s.mapping k := by
  obtain ⟨fs, g, h, -⟩ := C67_feasible s.opt nbins hv x hx
  refine ⟨{ s with lossBaseline := b, bestLoss := (f - s.margin) * b + b, mapping := s.saved
                   conv := w.build fs (g.map (·.map some)), opt := { s.opt with fLst := fs.map some } }, fs, g, ?_, h, ?_⟩
  · unfold runOptimizer
    rw [hb, h]
    rfl
  · refine ⟨rfl, rfl, rfl, rfl, ?_⟩
    unfold lossFxn at hf
    simp only [h, bind, Except.bind, lossOut, Bool.false_eq_true, if_false, if_neg hb0] at hf
    injection hf with hf
    rw [← hf]
    simp only
    field_simp
    ring

omit [LinearOrder K] [IsStrictOrderedRing K] in
/-- **C68** (finding: baseline). The baseline the optimizer has to beat does not depend on `g_converter_baseline` at all: it is the mean error
of the converter already present in the configuration. -/
theorem C68_baseline_ignored (w : World K C M) (s : OptState K C M) (c : C) (k0 : Nat) :
    getLossBaseline w { s with convBaseline := c } k0 = getLossBaseline w s k0 ∧
    (0 < s.iterations → getLossBaseline w s k0 =
      .ok ((∑ k ∈ Finset.range s.iterations, w.err s.conv s.mapping (k0 + k)) / s.iterations)) := by
  refine ⟨rfl, fun h => ?_⟩
  unfold getLossBaseline
  rw [if_neg h.ne']
  congr 2

omit [IsStrictOrderedRing K] in
/-- **C68** (finding: success). The success flag is truthy for every final objective except exactly zero, so also when the baseline was not
beaten. -/
theorem C68_success (f : K) : (successOf f).truthy = true ↔ f ≠ 0 := by
  unfold successOf
  split_ifs with h
  · exact ⟨fun _ => h.ne, fun _ => rfl⟩
  · simp [Success.truthy]

/-- **C68** (finding: second run). A second run optimizes with the restored mapping, keeps the factors found first and measures its baseline
with the converter found first. -/
theorem C68_second_run (w : World K C M) (s s' : OptState K C M) (k0 k1 : Nat) (x : List K) (f : K) (c : C) (u : Success K)
    (h : runOptimizer w s k0 x f = .ok (s', c, u)) (hit : 0 < s.iterations) :
    none ∉ s'.opt.fLst ∧
    getLossBaseline w s' k1 = .ok ((∑ k ∈ Finset.range s.iterations, w.err c s.saved (k1 + k)) / s.iterations) := by
  unfold runOptimizer at h
  obtain ⟨b, -, h⟩ := bind_ok h
  obtain ⟨⟨fs, g⟩, -, h⟩ := bind_ok h
  injection h with h
  injection h with h1 h2
  injection h2 with h2 h3
  subst h1; subst h2
  refine ⟨?_, ?_⟩
  · simp
  · exact (C68_baseline_ignored w _ (w.build fs g) k1).2 hit

/-! ## The test weights -/

/-- Entry `j` of the sorted weights, interpolated. -/
theorem interp_between (s : List K) (hs : s ≠ []) (lo hi : K) (hb : ∀ v ∈ s, lo ≤ v ∧ v ≤ hi) (n j : Nat) (hj : j < n) :
    lo ≤ interpAt s n j ∧ interpAt s n j ≤ hi := by
  have hl : 0 < s.length := List.length_pos_iff.2 hs
  have get : ∀ i, i < s.length → lo ≤ s.getD i 0 ∧ s.getD i 0 ≤ hi := by
    intro i hi'
    rw [List.getD_eq_getElem _ _ hi']; exact hb _ (List.getElem_mem _)
  unfold interpAt
  by_cases h1 : n = 1
  · rw [if_pos h1]; exact get 0 hl
  · rw [if_neg h1]
    have hn : 0 < n - 1 := by omega
    have hi1 : j * (s.length - 1) / (n - 1) < s.length := by
      have : j * (s.length - 1) / (n - 1) ≤ s.length - 1 := by
        apply Nat.div_le_of_le_mul
        exact Nat.mul_le_mul_right _ (by omega)
      omega
    obtain ⟨a1, a2⟩ := get _ hi1
    obtain ⟨b1, b2⟩ := get (min (j * (s.length - 1) / (n - 1) + 1) (s.length - 1)) (by omega)
    set a := s.getD (j * (s.length - 1) / (n - 1)) 0
    set b := s.getD (min (j * (s.length - 1) / (n - 1) + 1) (s.length - 1)) 0
    set l : K := (j * (s.length - 1) % (n - 1) : Nat) / ((n - 1 : Nat) : K) with hlam
    have hnK : (0 : K) < ((n - 1 : Nat) : K) := by exact_mod_cast hn
    have l0 : 0 ≤ l := div_nonneg (by exact_mod_cast Nat.zero_le _) hnK.le
    have l1 : l ≤ 1 := by
      rw [hlam, div_le_one hnK]
      exact_mod_cast (Nat.mod_lt _ hn).le
    have p1 := mul_nonneg (sub_nonneg.2 l1) (sub_nonneg.2 a1)
    have p2 := mul_nonneg l0 (sub_nonneg.2 b1)
    have p3 := mul_nonneg (sub_nonneg.2 l1) (sub_nonneg.2 a2)
    have p4 := mul_nonneg l0 (sub_nonneg.2 b2)
    constructor <;> nlinarith

theorem interp_first (s : List K) (n : Nat) : interpAt s n 0 = s.getD 0 0 := by
  unfold interpAt
  split_ifs with h
  · rfl
  · simp

theorem interp_last (s : List K) (hs : s ≠ []) (n : Nat) (hn : 2 ≤ n) : interpAt s n (n - 1) = s.getD (s.length - 1) 0 := by
  unfold interpAt
  rw [if_neg (by omega)]
  have h1 : (n - 1) * (s.length - 1) / (n - 1) = s.length - 1 := Nat.mul_div_cancel_left _ (by omega)
  have h2 : (n - 1) * (s.length - 1) % (n - 1) = 0 := Nat.mul_mod_right _ _
  simp only [h1, h2]
  simp

/-- **C68** (test weights). The test matrix has the requested shape, contains only values between the smallest and the largest weight, and with at
least two entries contains both, whatever the shuffling; so the weight range is that of the given weights. -/
theorem C68_downsample (w : List K) (hw : w ≠ []) (rows cols : Nat) (hr : 0 < rows) (hc : 0 < cols) (σ : List Nat)
    (hσ : σ.Perm (List.range rows)) (lo hi : K) (hlo : lo ∈ w) (hhi : hi ∈ w) (hb : ∀ v ∈ w, lo ≤ v ∧ v ≤ hi) :
    ∃ A, downsample w rows cols σ = .ok A ∧ IsMat rows cols A ∧ (∀ r ∈ A, ∀ v ∈ r, lo ≤ v ∧ v ≤ hi) ∧
      (∃ r ∈ A, lo ∈ r) ∧ (2 ≤ rows * cols → ∃ r ∈ A, hi ∈ r) := by
  have h0 : ¬ (w = [] ∨ rows * cols = 0) := by
    rintro (h | h)
    · exact hw h
    · exact absurd h (Nat.mul_pos hr hc).ne'
  refine ⟨_, by unfold downsample; rw [if_neg h0], ?_⟩
  set s := w.mergeSort (· ≤ ·) with hs
  have hperm : s.Perm w := List.mergeSort_perm _ _
  have hs0 : s ≠ [] := by
    intro h; rw [h] at hperm; exact hw hperm.symm.eq_nil
  have hsl : 0 < s.length := List.length_pos_iff.2 hs0
  have hsb : ∀ v ∈ s, lo ≤ v ∧ v ≤ hi := fun v hv => hb v (hperm.mem_iff.1 hv)
  have hsort : s.Pairwise (· ≤ ·) := by
    have h := List.pairwise_mergeSort (le := fun a b : K => decide (a ≤ b)) (fun a b c h1 h2 => by
      simp only [decide_eq_true_eq] at *; exact h1.trans h2) (fun a b => by
      simpa using le_total a b) w
    simpa using h
  have hσlen : σ.length = rows := by rw [hσ.length_eq, List.length_range]
  have hσm : ∀ r, r ∈ σ ↔ r < rows := fun r => by rw [hσ.mem_iff, List.mem_range]
  have hidx : ∀ r c, r < rows → c < cols → r * cols + c < rows * cols := by
    intro r c hr' hc'
    calc r * cols + c < r * cols + cols := by omega
      _ = (r + 1) * cols := by ring
      _ ≤ rows * cols := Nat.mul_le_mul_right _ hr'
  have hfirst : s.getD 0 0 = lo := by
    obtain ⟨i, hi', e⟩ := List.getElem_of_mem (hperm.mem_iff.2 hlo)
    rw [List.getD_eq_getElem _ _ hsl]
    apply le_antisymm
    · rw [← e]
      rcases Nat.eq_zero_or_pos i with h | h
      · subst h; exact le_rfl
      · exact List.pairwise_iff_getElem.1 hsort _ _ _ _ h
    · exact (hsb _ (List.getElem_mem _)).1
  have hlast : s.getD (s.length - 1) 0 = hi := by
    obtain ⟨i, hi', e⟩ := List.getElem_of_mem (hperm.mem_iff.2 hhi)
    rw [List.getD_eq_getElem _ _ (by omega)]
    apply le_antisymm
    · exact (hsb _ (List.getElem_mem _)).2
    · rw [← e]
      rcases Nat.lt_or_ge i (s.length - 1) with h | h
      · exact List.pairwise_iff_getElem.1 hsort _ _ _ _ h
      · have : i = s.length - 1 := by omega
        subst this; exact le_rfl
  refine ⟨⟨by simp [hσlen], ?_⟩, ?_, ?_, ?_⟩
  · intro r hr'
    obtain ⟨k, -, rfl⟩ := List.mem_map.1 hr'
    simp
  · intro r hr' v hv
    obtain ⟨k, hk, rfl⟩ := List.mem_map.1 hr'
    obtain ⟨c, hc', rfl⟩ := List.mem_map.1 hv
    exact interp_between s hs0 lo hi hsb _ _ (hidx k c ((hσm k).1 hk) (List.mem_range.1 hc'))
  · refine ⟨_, List.mem_map.2 ⟨0, (hσm 0).2 hr, rfl⟩, List.mem_map.2 ⟨0, List.mem_range.2 hc, ?_⟩⟩
    rw [show 0 * cols + 0 = 0 by ring, interp_first, hfirst]
  · intro h2
    refine ⟨_, List.mem_map.2 ⟨rows - 1, (hσm _).2 (by omega), rfl⟩, List.mem_map.2 ⟨cols - 1, List.mem_range.2 (by omega), ?_⟩⟩
    have : (rows - 1) * cols + (cols - 1) = rows * cols - 1 := by
      obtain ⟨a, rfl⟩ : ∃ a, rows = a + 1 := ⟨rows - 1, by omega⟩
      have : (a + 1) * cols = a * cols + cols := by ring
      simp only [Nat.add_sub_cancel]; omega
    rw [this, interp_last s hs0 _ h2, hlast]

end Aihw.Wpo

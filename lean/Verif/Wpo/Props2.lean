import Verif.Wpo.Props

/-!
# C67: the optimizer's converters round-trip
-/
namespace Aihw.Wpo
open Aihw.Inference

variable {K : Type} [Field K] [LinearOrder K] [IsStrictOrderedRing K]

/-- The specification of the custom pair converter built from factors and conductance rows
(wpo.py:638-640; conductance.py:303, 314 pairs up the rows). -/
def specOf (fs : List K) (g : List (List K)) : Spec K :=
  (List.range fs.length).map fun j => (fs.getD j 0, g.getD (2 * j) [], g.getD (2 * j + 1) [])

theorem sum_range_map (f : Nat → K) (n : Nat) : ((List.range n).map f).sum = ∑ j ∈ Finset.range n, f j := by
  induction n with
  | zero => simp
  | succ n ih => rw [List.range_succ, List.map_append, List.sum_append, ih, Finset.sum_range_succ]; simp

theorem codeFold_get (s : Spec K) (n : Nat) (hu : s.Uniform n) : ∀ (acc : List K) (_ : acc.length = n) (i : Nat), i < n →
    (s.foldl (fun acc p => List.zipWith (· + ·) acc (List.zipWith (fun a b => p.1 * (a - b)) p.2.1 p.2.2)) acc).getD i 0 =
      acc.getD i 0 + (s.map fun q => q.1 * (q.2.1.getD i 0 - q.2.2.getD i 0)).sum := by
  induction s with
  | nil => intro acc _ i _; simp
  | cons q s ih =>
    intro acc ha i hi
    obtain ⟨h1, h2⟩ := hu q (by simp)
    rw [List.foldl_cons, ih (fun r hr => hu r (List.mem_cons_of_mem _ hr)) _ (by simp [ha, h1, h2]) i hi, List.map_cons,
      List.sum_cons, ← add_assoc]
    congr 1
    rw [List.getD_eq_getElem _ _ (by simp [ha, h1, h2]; exact hi), List.getD_eq_getElem _ _ (by omega),
      List.getD_eq_getElem _ _ (by omega), List.getD_eq_getElem _ _ (by omega)]
    simp

theorem specOf_uniform (fs : List K) (g : List (List K)) (n : Nat) (hg : g.length = 2 * fs.length)
    (hr : ∀ row ∈ g, row.length = n) : (specOf fs g).Uniform n := by
  intro q hq
  obtain ⟨j, hj, rfl⟩ := List.mem_map.1 hq
  have hj' := List.mem_range.1 hj
  have h : ∀ r, r < 2 * fs.length → (g.getD r []).length = n := by
    intro r hr'
    rw [List.getD_eq_getElem _ _ (by omega)]
    exact hr _ (List.getElem_mem _)
  exact ⟨h _ (by omega), h _ (by omega)⟩

theorem code_get (fs : List K) (g : List (List K)) (n : Nat) (hg : g.length = 2 * fs.length)
    (hr : ∀ row ∈ g, row.length = n) (i : Nat) (hi : i < n) : (codeOf (specOf fs g) n).getD i 0 = realised fs g i := by
  unfold codeOf
  rw [codeFold_get _ n (specOf_uniform fs g n hg hr) _ (by simp) i hi]
  have h0 : (List.replicate n (0 : K)).getD i 0 = 0 := by
    rw [List.getD_eq_getElem _ _ (by simpa using hi)]; simp
  rw [h0, zero_add]
  unfold specOf realised
  rw [List.map_map, ← sum_range_map]
  rfl

/-- **C67** (round trip). Without programming error the converter of every point of the search cube is invertible: converting any
non-empty weight tensor to conductances and back returns it exactly. Skipping the constructor's invertibility test is therefore
justified. -/
theorem C67_round_trip (d : Opt K) (nbins : Nat) (hv : Valid d nbins) (he : d.gErr = 0) (x : List K) (hx : InCube d x) :
    ∃ fs g, denormalize d x = .ok (fs, g.map (·.map some)) ∧
      (∀ w, w ≠ [] → customTrip (specOf fs g) w = .ok w) ∧ invertibilityTest (specOf fs g) = .ok () := by
  obtain ⟨fs, g, h, hF, hgl, hrow, W, -, -, hW, -, hi⟩ := C67_feasible d nbins hv x hx
  have hb := hv.bins
  refine ⟨fs, g, h, ?_⟩
  set n := 2 * nbins - 1 with hn
  have hu := specOf_uniform fs g n hgl fun r hr => (hrow r hr).1
  have hs : specOf fs g ≠ [] := by
    intro h0
    have := congrArg List.length h0
    simp only [specOf, List.length_map, List.length_range, List.length_nil] at this
    have h2 := hF.length_eq
    rw [this] at h2
    exact hv.pairs (List.eq_nil_of_length_eq_zero h2)
  have hcl : (codeOf (specOf fs g) n).length = n := codeFold_length _ n hu _ (by simp)
  have hb1 : (0 : K) < (nbins : K) - 1 := by
    have : (2 : K) ≤ nbins := by exact_mod_cast hb
    linarith
  have hcode : ∀ i (hlt : i < (codeOf (specOf fs g) n).length),
      (codeOf (specOf fs g) n)[i] = W * (i / ((nbins : K) - 1) - 1) := by
    intro i hlt
    rw [← List.getD_eq_getElem _ 0 hlt, code_get fs g n hgl (fun r hr => (hrow r hr).1) i (by omega)]
    have := hi i (by omega)
    rw [he, zero_mul] at this
    exact sub_eq_zero.1 (abs_eq_zero.1 (le_antisymm this (abs_nonneg _)))
  have hM : amaxK (codeOf (specOf fs g) n) = W := by
    apply le_antisymm
    · unfold amaxK
      have key : ∀ l : List K, (∀ v ∈ l, |v| ≤ W) → (l.map (|·|)).foldr max 0 ≤ W := by
        intro l
        induction l with
        | nil => intro _; simpa using hW.le
        | cons a l ih =>
          intro hl
          simp only [List.map_cons, List.foldr_cons]
          exact max_le (hl a (by simp)) (ih fun v hv => hl v (List.mem_cons_of_mem _ hv))
      refine key _ fun v hvm => ?_
      obtain ⟨i, hlt, rfl⟩ := List.getElem_of_mem hvm
      rw [hcode i hlt, abs_mul, abs_of_pos hW]
      have hi0 : (0 : K) ≤ i := by exact_mod_cast Nat.zero_le i
      have hi2 : (i : K) ≤ 2 * ((nbins : K) - 1) := by
        have : i + 2 ≤ 2 * nbins := by omega
        have : ((i + 2 : Nat) : K) ≤ ((2 * nbins : Nat) : K) := by exact_mod_cast this
        push_cast at this; linarith
      have : |(i : K) / ((nbins : K) - 1) - 1| ≤ 1 := by
        rw [abs_le]
        have h1 : 0 ≤ (i : K) / ((nbins : K) - 1) := div_nonneg hi0 hb1.le
        have h2 : (i : K) / ((nbins : K) - 1) ≤ 2 := (div_le_iff₀ hb1).2 hi2
        constructor <;> linarith
      calc W * |(i : K) / ((nbins : K) - 1) - 1| ≤ W * 1 := mul_le_mul_of_nonneg_left this hW.le
        _ = W := mul_one W
    · have h0 : 0 < (codeOf (specOf fs g) n).length := by omega
      have := abs_le_amaxK (List.getElem_mem h0)
      rw [hcode 0 h0] at this
      simp only [Nat.cast_zero, zero_div, zero_sub, mul_neg, mul_one, abs_neg, abs_of_pos hW] at this
      exact this
  have htrip : ∀ w, w ≠ [] → customTrip (specOf fs g) w = .ok w := by
    rw [C22_custom_round_trip_iff _ n hs (by omega) hu (by rw [hM]; exact hW)]
    intro i hlt
    rw [hcode i hlt, hM]
    have hc : (n : K) - 1 = 2 * ((nbins : K) - 1) := by
      rw [hn, Nat.cast_sub (by omega)]; push_cast; ring
    rw [hc]
    have := hb1.ne'
    field_simp
    ring
  exact ⟨htrip, C22_test_accepts _ htrip⟩

end Aihw.Wpo

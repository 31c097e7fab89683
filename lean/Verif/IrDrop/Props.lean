import Verif.IrDrop.Lemmas4
import Verif.Inference.ConverterProps
import Mathlib.Algebra.BigOperators.Field

/-!
# C70: the time-dependent IR-drop product
-/
namespace Aihw.IrDrop
open Aihw.Inference

variable {K : Type} [Field K] [LinearOrder K] [IsStrictOrderedRing K] [FloorRing K]

/-- A converter that represents every weight tensor exactly, by non-negative conductances. -/
def ConvExact (conv : Conv K) : Prop :=
  ∀ w : List K, w ≠ [] → ∃ fs gs ratio, conv w = .ok (fs, gs, ratio) ∧ gs.length = 2 * fs.length ∧ ratio ≠ 0 ∧
    (∀ g ∈ gs, g.length = w.length ∧ ∀ v ∈ g, 0 ≤ v) ∧
    ∀ i, i < w.length →
      ∑ k ∈ Finset.range fs.length, fs.getD k 0 * ((gs.getD (2 * k) []).getD i 0 - (gs.getD (2 * k + 1) []).getD i 0) = ratio * w.getD i 0

/-- **C70** (one column). While the input pulses last, every cell drives the column by `±0.2` volts around `0.4`; the output current is, at
every time, linear in the states of the pulses, with attenuations that depend on the conductances only, lie in `(0, 1]`, grow towards the
output and are one without wire resistance, plus an input-independent leakage. -/
theorem C70_column (p : Pars K) (hp : Fits p) (gp gm : Nat → K) (hgp : ∀ r, r < p.phys → 0 ≤ gp r)
    (hgm : ∀ r, r < p.phys → 0 ≤ gm r) :
    ∃ (a : Nat → K) (c : K), RowAtt p.rs p.phys a ∧
      (p.rs = 0 → c = (4 / 10 - p.vRead) * ∑ r ∈ Finset.range p.phys, (gp r + gm r) - p.vRead * (p.segments * (1 / 10 ^ 12))) ∧
      ∀ (x : Nat → K) (t : K), 0 ≤ t → currentAt p (colRows p.phys x gp gm) t =
        .ok (2 / 10 * ∑ r ∈ Finset.range p.phys, a r * (sgnAt t (x r) * (gp r - gm r)) + c) :=
  current_linear p hp gp gm hgp hgm

/-- What IR drop does to the product with the `n × cols` matrix `w`: weight `w r j` is stored in `pairs` shares; share `k` is attenuated by
`a k j r`. -/
structure Drop (rs : K) (n cols : Nat) (w : List (List K)) (pairs : Nat) (share : Nat → Nat → Nat → K) (a : Nat → Nat → Nat → K) : Prop where
  total : ∀ r j, r < n → j < cols → ∑ k ∈ Finset.range pairs, share k r j = (w.getD r []).getD j 0
  pos : ∀ k j r, k < pairs → j < cols → r < n → 0 < a k j r
  le : ∀ k j r, k < pairs → j < cols → r < n → a k j r ≤ 1
  even : ∀ k j r s, k < pairs → j < cols → r ≤ s → s < n → j % 2 = 0 → a k j r ≤ a k j s
  odd : ∀ k j r s, k < pairs → j < cols → r ≤ s → s < n → j % 2 = 1 → a k j s ≤ a k j r
  zero : rs = 0 → ∀ k j r, k < pairs → j < cols → r < n → a k j r = 1

/-- The attenuated product with the inputs `u`, plus `o`. -/
def dropped (n cols pairs : Nat) (share : Nat → Nat → Nat → K) (a : Nat → Nat → Nat → K) (u : Nat → K) (o : Nat → K) : List K :=
  (List.range cols).map fun j =>
    ∑ k ∈ Finset.range pairs, ∑ r ∈ Finset.range n, a k j r * (share k r j * u r) + o j

/-- **C70** (product). For every tile with an even number of columns that fits into the physical rows, there are attenuations and offsets that
depend on the weights only, such that for every input and every time grid the product is that of the attenuated weights with the read
inputs, plus an offset proportional to the number of time steps. Even columns are attenuated least at the last row, odd ones at the first. -/
theorem C70_product (p : Pars K) (hp : Fits p) (hadc : p.adc = false) (conv : Conv K) (hconv : ConvExact conv) (bitRes : K)
    (cols : Nat) (hc0 : 0 < cols) (hc2 : cols % 2 = 0) (n : Nat) (w : List (List K)) (hwn : w.length = n) (hw : ∀ l ∈ w, l.length = cols) (hn : n ≤ p.phys)
    (hn1 : p.phys - n ≠ 1) :
    ∃ (pairs : Nat) (share a : Nat → Nat → Nat → K) (off : Nat → K), Drop p.rs n cols w pairs share a ∧
      ∀ (x : List K) (tMax : K) (steps : Nat), x.length = n → Grid tMax steps → (∀ v ∈ x, |v| ≤ tMax) →
        matmulIr p conv bitRes cols w tMax steps x =
          .ok (dropped n cols pairs share a (fun r => readLen p.integrationSum (stepLen tMax steps) (x.getD r 0) / (bitRes / 2))
            (fun j => steps * off j)) := by
  set P := padFront p.phys n with hP
  have hPn : P + n ≤ p.phys := by rw [hP]; unfold padFront; omega
  set w' := padded p.phys n (List.replicate cols (0 : K)) w with hw'
  have hw'l : w'.length = p.phys := padded_length _ _ _ _ hwn hn
  have hw'r : ∀ l ∈ w', l.length = cols := by
    intro l hl
    rw [hw'] at hl
    unfold padded at hl
    simp only [List.mem_append, List.mem_replicate] at hl
    rcases hl with (⟨-, rfl⟩ | h) | ⟨-, rfl⟩
    · simp
    · exact hw l h
    · simp
  have hfl : w'.flatten.length = p.phys * cols := by rw [flatten_len cols w' hw'r, hw'l]
  have hphys := hp.phys
  have hfne : w'.flatten ≠ [] := by
    intro h
    rw [h] at hfl
    exact absurd hfl.symm (Nat.mul_pos hphys hc0).ne'
  obtain ⟨fs, gs, ratio, hcv, hgl, hr0, hgg, hsum⟩ := hconv _ hfne
  have hidx : ∀ s j, s < p.phys → j < cols → s * cols + j < p.phys * cols := by
    intro s j hs hj
    calc s * cols + j < s * cols + cols := by omega
      _ = (s + 1) * cols := by ring
      _ ≤ p.phys * cols := Nat.mul_le_mul_right _ hs
  -- conductances along the chain of column `j`
  let gpf : Nat → Nat → Nat → K := fun k j r => (gs.getD (2 * k) []).getD (pos p.phys j r * cols + j) 0
  let gmf : Nat → Nat → Nat → K := fun k j r => (gs.getD (2 * k + 1) []).getD (pos p.phys j r * cols + j) 0
  have hnn : ∀ m s j, m < 2 * fs.length → s < p.phys → j < cols → 0 ≤ (gs.getD m []).getD (s * cols + j) 0 := by
    intro m s j hm hs hj
    have hmem : gs.getD m [] ∈ gs := by
      rw [List.getD_eq_getElem _ _ (by omega)]; exact List.getElem_mem _
    obtain ⟨h1, h2⟩ := hgg _ hmem
    apply h2
    have hlt : s * cols + j < (gs.getD m []).length := by rw [h1, hfl]; exact hidx s j hs hj
    rw [List.getD_eq_getElem (gs.getD m []) 0 hlt]
    exact List.getElem_mem _
  have hex : ∀ k j, k < fs.length → j < cols → ∃ (a : Nat → K) (c : K), RowAtt p.rs p.phys a ∧
      ∀ (x : Nat → K) (tMax : K) (steps : Nat), Grid tMax steps → (∀ r, r < p.phys → |x r| ≤ tMax) →
        columnCharge p (colRows p.phys x (gpf k j) (gmf k j)) tMax steps =
          .ok (2 / 10 * ∑ r ∈ Finset.range p.phys, a r *
            (readLen p.integrationSum (stepLen tMax steps) (x r) * (gpf k j r - gmf k j r)) + steps * c) := by
    intro k j hk hj
    obtain ⟨a, c, h1, -, h2⟩ := charge_linear p hp hadc (gpf k j) (gmf k j)
      (fun r hr => hnn _ _ _ (by omega) (pos_lt _ _ _ hr) hj) (fun r hr => hnn _ _ _ (by omega) (pos_lt _ _ _ hr) hj)
    exact ⟨a, c, h1, h2⟩
  choose! a c ha hq using hex
  refine ⟨fs.length,
    fun k r j => fs.getD k 0 * ((gs.getD (2 * k) []).getD ((P + r) * cols + j) 0 - (gs.getD (2 * k + 1) []).getD ((P + r) * cols + j) 0) / ratio,
    fun k j r => a k j (pos p.phys j (P + r)),
    fun j => (∑ k ∈ Finset.range fs.length, fs.getD k 0 * c k j) / ratio / (2 / 10) / (bitRes / 2), ⟨?_, ?_, ?_, ?_, ?_, ?_⟩, ?_⟩
  · intro r j hr hj
    rw [← Finset.sum_div, hsum _ (by rw [hfl]; exact hidx _ _ (by omega) hj), mul_div_assoc, mul_div_cancel₀ _ hr0,
      flatten_get cols w' _ j hw'r hj (by omega), hw']
    have := padded_get p.phys n (List.replicate cols (0 : K)) w hwn r hr
    have e : (padded p.phys n (List.replicate cols (0 : K)) w).getD (P + r) [] = w.getD r [] := by
      rw [List.getD_eq_getElem _ _ (by rw [← hw', hw'l]; omega)] at *
      rw [List.getD_eq_getElem _ _ (by omega)] at this ⊢
      exact this
    rw [e]
  · exact fun k j r hk hj hr => (ha k j hk hj).pos _ (pos_lt _ _ _ (by omega))
  · exact fun k j r hk hj hr => (ha k j hk hj).le _ (pos_lt _ _ _ (by omega))
  · intro k j r s hk hj hrs hs h2
    apply (ha k j hk hj).mono _ _ _ (pos_lt _ _ _ (by omega))
    unfold pos; rw [if_pos h2, if_pos h2]; omega
  · intro k j r s hk hj hrs hs h2
    apply (ha k j hk hj).mono _ _ _ (pos_lt _ _ _ (by omega))
    unfold pos; rw [if_neg (by omega), if_neg (by omega)]; omega
  · exact fun h k j r hk hj hr => (ha k j hk hj).zero h _ (pos_lt _ _ _ (by omega))
  · intro x tMax steps hx hg hxt
    set x' := padded p.phys n (0 : K) x with hx'
    have hx'l : x'.length = p.phys := padded_length _ _ _ _ hx hn
    have ht0 : 0 ≤ tMax := by
      rcases hg with ⟨-, h⟩ | ⟨-, h⟩
      · exact h.le
      · exact h.ge
    have hx'b : ∀ s, |x'.getD s 0| ≤ tMax := by
      intro s
      by_cases h : P ≤ s ∧ s < P + n
      · obtain ⟨r, rfl⟩ := Nat.exists_eq_add_of_le h.1
        have hr : r < n := by omega
        rw [hx', padded_get _ _ _ _ hx r hr, List.getD_eq_getElem _ _ (by omega)]
        exact hxt _ (List.getElem_mem _)
      · rw [hx', padded_out _ _ _ _ hx s (by omega), abs_zero]; exact ht0
    unfold matmulIr
    rw [(rowsPerSeg_ok p hp).1]
    simp only [bind, Except.bind]
    rw [hwn, padSymmetric_ok _ _ _ hn hn1]
    simp only
    rw [← hx', ← hw', hcv]
    simp only
    rw [if_neg (by rw [hx'l, hw'l]; simp), if_neg (by rw [hc2]; simp)]
    set δ := stepLen tMax steps
    -- the charge of each column
    set q : Nat → Nat → K := fun j k => 2 / 10 * ∑ r ∈ Finset.range p.phys, a k j r *
            (readLen p.integrationSum δ (x'.getD (pos p.phys j r) 0) * (gpf k j r - gmf k j r)) + steps * c k j with hqd
    have hcol : ∀ j, j < cols → pairLoop p x' cols j tMax steps fs gs = .ok (∑ k ∈ Finset.range fs.length, fs.getD k 0 * q j k) := by
      intro j hj
      refine pairLoop_form p x' cols j tMax steps fs gs (q j) hgl fun k hk => ?_
      rw [cells_form, hx'l]
      exact hq k j hk hj (fun r => x'.getD (pos p.phys j r) 0) tMax steps hg fun r _ => hx'b _
    have hmap : ∀ l : List Nat, (∀ j ∈ l, j < cols) →
        (l.mapM fun j => do
          let m ← pairLoop p x' cols j tMax steps fs gs
          .ok (m / ratio / (2 / 10) / (bitRes / 2))) =
        (.ok (l.map fun j => (∑ k ∈ Finset.range fs.length, fs.getD k 0 * q j k) / ratio / (2 / 10) / (bitRes / 2)) : Except PyErr (List K)) := by
      intro l
      induction l with
      | nil => intro _; rfl
      | cons j l ih =>
        intro h
        rw [List.mapM_cons, hcol j (h j (by simp)), ih fun j' h' => h j' (by simp [h'])]
        rfl
    refine (hmap _ fun j hj => List.mem_range.1 hj).trans ?_
    unfold dropped
    congr 1
    apply List.map_congr_left
    intro j hj
    have hj' := List.mem_range.1 hj
    -- reorder the sums
    have key : ∀ k, k < fs.length → q j k = 2 / 10 * ∑ r ∈ Finset.range n, a k j (pos p.phys j (P + r)) *
        (readLen p.integrationSum δ (x.getD r 0) *
          ((gs.getD (2 * k) []).getD ((P + r) * cols + j) 0 - (gs.getD (2 * k + 1) []).getD ((P + r) * cols + j) 0)) + steps * c k j := by
      intro k hk
      simp only [hqd]
      congr 2
      rw [sum_pos_eq p.phys j]
      have e1 : ∀ s ∈ Finset.range p.phys, a k j (pos p.phys j s) * (readLen p.integrationSum δ (x'.getD (pos p.phys j (pos p.phys j s)) 0) *
          (gpf k j (pos p.phys j s) - gmf k j (pos p.phys j s))) =
          a k j (pos p.phys j s) * (readLen p.integrationSum δ (x'.getD s 0) *
          ((gs.getD (2 * k) []).getD (s * cols + j) 0 - (gs.getD (2 * k + 1) []).getD (s * cols + j) 0)) := by
        intro s hs
        simp only [gpf, gmf]
        rw [pos_pos _ _ _ (Finset.mem_range.1 hs)]
      rw [Finset.sum_congr rfl e1, sum_window p.phys n P hPn]
      · refine Finset.sum_congr rfl fun r hr => ?_
        rw [hx', padded_get _ _ _ _ hx r (Finset.mem_range.1 hr)]
      · intro s hs
        rw [hx', padded_out _ _ _ _ hx s hs]
        simp [readLen, sgn]
    have key2 : ∑ k ∈ Finset.range fs.length, fs.getD k 0 * q j k = 2 / 10 * (∑ k ∈ Finset.range fs.length, ∑ r ∈ Finset.range n,
        a k j (pos p.phys j (P + r)) * (fs.getD k 0 * ((gs.getD (2 * k) []).getD ((P + r) * cols + j) 0 -
          (gs.getD (2 * k + 1) []).getD ((P + r) * cols + j) 0) * readLen p.integrationSum δ (x.getD r 0))) +
        steps * ∑ k ∈ Finset.range fs.length, fs.getD k 0 * c k j := by
      rw [Finset.mul_sum, Finset.mul_sum, ← Finset.sum_add_distrib]
      refine Finset.sum_congr rfl fun k hk => ?_
      rw [key k (Finset.mem_range.1 hk), mul_add, ← mul_assoc, mul_comm (fs.getD k 0) (2 / 10), mul_assoc, Finset.mul_sum]
      congr 1
      · congr 1
        refine Finset.sum_congr rfl fun r _ => ?_
        ring
      · ring
    rw [key2, add_div, add_div, add_div]
    congr 1
    · have h210 : (2 / 10 : K) ≠ 0 := by norm_num
      rw [mul_div_assoc, mul_div_cancel_left₀ _ h210, Finset.sum_div, Finset.sum_div]
      refine Finset.sum_congr rfl fun k _ => ?_
      rw [Finset.sum_div, Finset.sum_div]
      refine Finset.sum_congr rfl fun r _ => ?_
      ring
    · ring

end Aihw.IrDrop

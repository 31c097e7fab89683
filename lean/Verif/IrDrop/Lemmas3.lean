import Verif.IrDrop.Lemmas2
import Verif.Inference.ConverterCustom
import Verif.Common

/-!
# Lemmas: integration over the time steps
-/
namespace Aihw.IrDrop
open Aihw.Inference

variable {K : Type} [Field K] [LinearOrder K] [IsStrictOrderedRing K] [FloorRing K]

/-- A time grid from zero to `tMax`: at least two points, or the single point zero. -/
def Grid (tMax : K) (steps : Nat) : Prop := (2 ≤ steps ∧ 0 < tMax) ∨ (steps = 1 ∧ tMax = 0)

/-- Distance of two points of the grid. -/
def stepLen (tMax : K) (steps : Nat) : K := tMax / ((steps : K) - 1)

/-- Number of time steps an input `x` counts for: the whole steps it has begun, with its sign; half a step more with trapezoidal
integration. -/
def readLen (sum : Bool) (δ x : K) : K := sgn x * ((⌈|x| / δ⌉₊ : K) + if sum then 0 else 1 / 2)

theorem grid_list (tMax : K) (steps : Nat) (h : Grid tMax steps) :
    linspace 0 tMax steps = (List.range steps).map fun (k : Nat) => (k : K) * stepLen tMax steps := by
  rcases h with ⟨h1, -⟩ | ⟨rfl, rfl⟩
  · apply List.ext_getElem
    · simp [linspace_length]
    · intro i hi hi'
      rw [linspace_get _ _ _ h1]
      simp [stepLen]
  · simp [linspace]

theorem sum_count (c U : Nat) (hc : c ≤ U) : ∑ k ∈ Finset.range U, (if k < c then (1 : K) else 0) = c := by
  induction U with
  | zero => have : c = 0 := by omega
            subst this; simp
  | succ U ih =>
    rw [Finset.sum_range_succ]
    by_cases h : c ≤ U
    · rw [ih h, if_neg (by omega), add_zero]
    · have : c = U + 1 := by omega
      subst this
      rw [if_pos (by omega)]
      have : ∑ k ∈ Finset.range U, (if k < U + 1 then (1 : K) else 0) = ∑ k ∈ Finset.range U, (1 : K) :=
        Finset.sum_congr rfl fun k hk => if_pos (by have := Finset.mem_range.1 hk; omega)
      rw [this]; simp

theorem sgnAt_eq (t : K) (ht : 0 ≤ t) (x : K) : sgnAt t x = sgn x * (if t < |x| then 1 else 0) := by
  unfold sgnAt sgn
  rcases lt_trichotomy x 0 with h | h | h
  · have h1 : ¬ t < x := by intro h'; linarith
    rw [if_neg h1, abs_of_neg h, if_neg (by linarith : ¬ 0 < x), if_pos h]
    by_cases h2 : x < -t
    · rw [if_pos h2, if_pos (by linarith)]; ring
    · rw [if_neg h2, if_neg (by intro h'; linarith)]; ring
  · subst h
    rw [if_neg (by linarith), if_neg (by linarith)]; simp
  · rw [abs_of_pos h, if_pos h]
    by_cases h2 : t < x
    · rw [if_pos h2, if_pos h2]; ring
    · rw [if_neg h2, if_neg h2, if_neg (by intro h'; linarith)]; ring

theorem sum_sgnAt (tMax : K) (steps : Nat) (h : Grid tMax steps) (x : K) (hx : |x| ≤ tMax) :
    ∑ k ∈ Finset.range steps, sgnAt ((k : K) * stepLen tMax steps) x = sgn x * (⌈|x| / stepLen tMax steps⌉₊ : K) := by
  rcases h with ⟨h1, h2⟩ | ⟨rfl, rfl⟩
  · have hs : (0 : K) < (steps : K) - 1 := by
      have : (2 : K) ≤ steps := by exact_mod_cast h1
      linarith
    have hd : 0 < stepLen tMax steps := div_pos h2 hs
    have e : ∀ k ∈ Finset.range steps, sgnAt ((k : K) * stepLen tMax steps) x =
        sgn x * (if k < ⌈|x| / stepLen tMax steps⌉₊ then 1 else 0) := by
      intro k _
      rw [sgnAt_eq _ (mul_nonneg (Nat.cast_nonneg _) hd.le)]
      congr 1
      have : (k : K) * stepLen tMax steps < |x| ↔ k < ⌈|x| / stepLen tMax steps⌉₊ := by
        rw [Nat.lt_ceil, lt_div_iff₀ hd]
      simp only [this]
    rw [Finset.sum_congr rfl e, ← Finset.mul_sum, sum_count]
    apply Nat.ceil_le.2
    rw [div_le_iff₀ hd]
    calc |x| ≤ tMax := hx
      _ = ((steps : K) - 1) * stepLen tMax steps := by unfold stepLen; field_simp
      _ ≤ steps * stepLen tMax steps := by
        apply mul_le_mul_of_nonneg_right _ hd.le
        linarith
  · have : x = 0 := abs_eq_zero.1 (le_antisymm hx (abs_nonneg _))
    subst this
    simp [sgnAt, sgn]

omit [LinearOrder K] [FloorRing K] [IsStrictOrderedRing K] in
theorem trapz_sum [NeZero (2 : K)] : ∀ (l : List K) (a : K), trapz (a :: l) = a + l.sum - (a + (a :: l).getLast (by simp)) / 2 := by
  intro l
  have h2 : (2 : K) ≠ 0 := two_ne_zero
  induction l with
  | nil => intro a; simp only [trapz, List.sum_nil, List.getLast_singleton]; field_simp; ring
  | cons b l ih =>
    intro a
    rw [trapz, ih b, List.sum_cons, List.getLast_cons (List.cons_ne_nil b l)]
    field_simp
    ring

omit [LinearOrder K] [FloorRing K] [IsStrictOrderedRing K] in
theorem integrate_map [NeZero (2 : K)] (b : Bool) (n : Nat) (f : Nat → K) :
    integrate b ((List.range (n + 1)).map f) =
      .ok (∑ k ∈ Finset.range (n + 1), f k + if b then 0 else (f 0 - f n) / 2) := by
  have h2 : (2 : K) ≠ 0 := two_ne_zero
  unfold integrate
  cases b with
  | true => simp only [if_true, add_zero]; rfl
  | false =>
    rw [List.range_succ_eq_map]
    simp only [List.map_cons, Bool.false_eq_true, if_false]
    rw [trapz, trapz_sum]
    congr 1
    have e1 : ∑ k ∈ Finset.range (n + 1), f k = f 0 + (List.map f (List.map Nat.succ (List.range n))).sum := by
      rw [Finset.sum_range_succ', List.map_map, add_comm]; rfl
    have e2 : (f 0 :: List.map f (List.map Nat.succ (List.range n))).getLast (by simp) = f n := by
      cases n with
      | zero => rfl
      | succ n =>
        rw [List.getLast_cons (by simp), List.getLast_eq_getElem]
        simp
    rw [e1, e2]
    field_simp
    ring

theorem charge_linear (p : Pars K) (hp : Fits p) (hadc : p.adc = false) (gp gm : Nat → K) (hgp : ∀ r, r < p.phys → 0 ≤ gp r)
    (hgm : ∀ r, r < p.phys → 0 ≤ gm r) :
    ∃ (a : Nat → K) (c : K), RowAtt p.rs p.phys a ∧
      (p.rs = 0 → c = (4 / 10 - p.vRead) * ∑ r ∈ Finset.range p.phys, (gp r + gm r) - p.vRead * (p.segments * eps)) ∧
      ∀ (x : Nat → K) (tMax : K) (steps : Nat), Grid tMax steps → (∀ r, r < p.phys → |x r| ≤ tMax) →
        columnCharge p (colRows p.phys x gp gm) tMax steps =
          .ok (2 / 10 * ∑ r ∈ Finset.range p.phys, a r * (readLen p.integrationSum (stepLen tMax steps) (x r) * (gp r - gm r)) + steps * c) := by
  obtain ⟨a, c, ha, hc, h⟩ := current_linear p hp gp gm hgp hgm
  refine ⟨a, c, ha, hc, fun x tMax steps hg hx => ?_⟩
  have hd : 0 ≤ stepLen tMax steps := by
    rcases hg with ⟨h1, h2⟩ | ⟨rfl, rfl⟩
    · have : (2 : K) ≤ steps := by exact_mod_cast h1
      exact div_nonneg h2.le (by linarith)
    · simp [stepLen]
  obtain ⟨n, rfl⟩ : ∃ n, steps = n + 1 := ⟨steps - 1, by rcases hg with ⟨h1, -⟩ | ⟨h1, -⟩ <;> omega⟩
  set δ := stepLen tMax (n + 1) with hδ
  set cur : Nat → K := fun k => 2 / 10 * ∑ r ∈ Finset.range p.phys, a r * (sgnAt ((k : K) * δ) (x r) * (gp r - gm r)) + c with hcur
  have hm : (linspace 0 tMax (n + 1)).mapM (currentAt p (colRows p.phys x gp gm)) = .ok ((List.range (n + 1)).map cur) := by
    rw [grid_list _ _ hg]
    have : ∀ l : List Nat, (l.map fun (k : Nat) => (k : K) * δ).mapM (currentAt p (colRows p.phys x gp gm)) = .ok (l.map cur) := by
      intro l
      induction l with
      | nil => rfl
      | cons k l ih =>
        rw [List.map_cons, List.mapM_cons, h x _ (mul_nonneg (Nat.cast_nonneg k) hd), ih]
        rfl
    exact this _
  unfold columnCharge
  rw [hm]
  simp only [bind, Except.bind]
  rw [integrate_map]
  simp only [hadc, Bool.false_eq_true, if_false]
  congr 1
  -- first and last current
  have hfirst : ∀ r, sgnAt ((0 : Nat) * δ) (x r) = sgn (x r) := by
    intro r
    rw [Nat.cast_zero, zero_mul, sgnAt_eq 0 le_rfl]
    by_cases h' : x r = 0
    · rw [h']; simp [sgn]
    · rw [if_pos (abs_pos.2 h'), mul_one]
  have hlast : ∀ r, r < p.phys → sgnAt ((n : K) * δ) (x r) = 0 := by
    intro r hr
    have e : (n : K) * δ = tMax := by
      rw [hδ]; unfold stepLen
      rcases hg with ⟨h1, h2⟩ | ⟨h1, h2⟩
      · have : (n : K) ≠ 0 := by
          have : n ≠ 0 := by omega
          exact_mod_cast this
        push_cast
        rw [add_sub_cancel_right]; field_simp
      · rw [h2]; simp
    rw [e, sgnAt_eq _ ((abs_nonneg _).trans (hx r hr)), if_neg (not_lt.2 (hx r hr)), mul_zero]
  have hsum : ∑ k ∈ Finset.range (n + 1), cur k =
      2 / 10 * ∑ r ∈ Finset.range p.phys, a r * (sgn (x r) * (⌈|x r| / δ⌉₊ : K) * (gp r - gm r)) + ((n + 1 : Nat) : K) * c := by
    simp only [hcur]
    rw [Finset.sum_add_distrib, Finset.sum_const, Finset.card_range, nsmul_eq_mul, ← Finset.mul_sum, Finset.sum_comm]
    congr 2
    refine Finset.sum_congr rfl fun r hr => ?_
    rw [← Finset.mul_sum, ← Finset.sum_mul, sum_sgnAt _ _ hg _ (hx r (Finset.mem_range.1 hr))]
  rw [hsum]
  unfold readLen
  cases p.integrationSum with
  | true => simp
  | false =>
    simp only [Bool.false_eq_true, if_false]
    have e0 : cur 0 - cur n = 2 / 10 * ∑ r ∈ Finset.range p.phys, a r * (sgn (x r) * (gp r - gm r)) := by
      simp only [hcur]
      have z : ∑ r ∈ Finset.range p.phys, a r * (sgnAt ((n : K) * δ) (x r) * (gp r - gm r)) = 0 :=
        Finset.sum_eq_zero fun r hr => by rw [hlast r (Finset.mem_range.1 hr)]; ring
      rw [z]
      simp only [hfirst]
      ring
    rw [e0]
    have e1 : ∑ r ∈ Finset.range p.phys, a r * (sgn (x r) * ((⌈|x r| / δ⌉₊ : K) + 1 / 2) * (gp r - gm r)) =
        ∑ r ∈ Finset.range p.phys, a r * (sgn (x r) * (⌈|x r| / δ⌉₊ : K) * (gp r - gm r)) +
          1 / 2 * ∑ r ∈ Finset.range p.phys, a r * (sgn (x r) * (gp r - gm r)) := by
      rw [Finset.mul_sum, ← Finset.sum_add_distrib]
      exact Finset.sum_congr rfl fun r _ => by ring
    rw [e1]; ring

end Aihw.IrDrop

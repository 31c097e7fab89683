import Verif.IrDrop.Lemmas

/-!
# Lemmas: the current of a column
-/
namespace Aihw.IrDrop
open Aihw.Inference

variable {K : Type} [Field K] [LinearOrder K] [IsStrictOrderedRing K]

/-- State of an input pulse of signed length `x` at time `t`: `±1` while it lasts. -/
def sgnAt (t x : K) : K := if t < x then 1 else if x < -t then -1 else 0

/-- The cells of a column. -/
def colRows (n : Nat) (x gp gm : Nat → K) : List (Row K) := (List.range n).map fun r => (x r, gp r, gm r)

theorem row_total (t : K) (ht : 0 ≤ t) (r : Row K) : pp t r + mm t r + zz t r = r.2.1 + r.2.2 := by
  unfold pp mm zz
  obtain ⟨x, gp, gm⟩ := r
  simp only
  rcases lt_or_ge t x with h | h
  · have h2 : ¬ x < -t := by intro h'; linarith
    have h3 : ¬ |x| ≤ t := by intro h'; exact absurd (le_abs_self x) (by linarith)
    rw [if_pos h, if_neg h2, if_pos h, if_neg h2, if_neg h3]; ring
  · have h1 : ¬ x > t := not_lt.2 h
    rcases lt_or_ge x (-t) with h' | h'
    · have h3 : ¬ |x| ≤ t := by intro h''; have := neg_abs_le x; linarith
      rw [if_neg h1, if_pos h', if_neg h1, if_pos h', if_neg h3]; ring
    · have h2 : ¬ x < -t := not_lt.2 h'
      have h3 : |x| ≤ t := abs_le.2 ⟨h', h⟩
      rw [if_neg h1, if_neg h2, if_neg h1, if_neg h2, if_pos h3]; ring

theorem row_signal (t : K) (ht : 0 ≤ t) (r : Row K) :
    6 / 10 * pp t r + 2 / 10 * mm t r + 4 / 10 * zz t r =
      4 / 10 * (r.2.1 + r.2.2) + 2 / 10 * (sgnAt t r.1 * (r.2.1 - r.2.2)) := by
  unfold pp mm zz sgnAt
  obtain ⟨x, gp, gm⟩ := r
  simp only
  rcases lt_or_ge t x with h | h
  · have h2 : ¬ x < -t := by intro h'; linarith
    have h3 : ¬ |x| ≤ t := by intro h'; exact absurd (le_abs_self x) (by linarith)
    rw [if_pos h, if_neg h2, if_pos h, if_neg h2, if_neg h3, if_pos h]; ring
  · have h1 : ¬ x > t := not_lt.2 h
    rcases lt_or_ge x (-t) with h' | h'
    · have h3 : ¬ |x| ≤ t := by intro h''; have := neg_abs_le x; linarith
      rw [if_neg h1, if_pos h', if_neg h1, if_pos h', if_neg h3, if_neg h1, if_pos h']; ring
    · have h2 : ¬ x < -t := not_lt.2 h'
      have h3 : |x| ≤ t := abs_le.2 ⟨h', h⟩
      rw [if_neg h1, if_neg h2, if_neg h1, if_neg h2, if_pos h3, if_neg h1, if_neg h2]; ring

omit [LinearOrder K] [IsStrictOrderedRing K] in
theorem sum_three (a b c : Row K → K) (k1 k2 k3 : K) (l : List (Row K)) :
    k1 * (l.map a).sum + k2 * (l.map b).sum + k3 * (l.map c).sum = (l.map fun r => k1 * a r + k2 * b r + k3 * c r).sum := by
  induction l with
  | nil => simp
  | cons r l ih =>
    simp only [List.map_cons, List.sum_cons]
    rw [← ih]; ring

/-- Total conductance of some cells. -/
def cond (rows : List (Row K)) : K := (rows.map fun r => r.2.1 + r.2.2).sum

theorem seg_cond (t : K) (ht : 0 ≤ t) (rows : List (Row K)) : (thevSeg t rows).1 = cond rows + eps := by
  have h := sum_three (pp t) (mm t) (zz t) 1 1 1 rows
  have e : (rows.map fun r => 1 * pp t r + 1 * mm t r + 1 * zz t r) = rows.map fun r => r.2.1 + r.2.2 :=
    List.map_congr_left fun r _ => by rw [← row_total t ht r]; ring
  rw [e] at h
  unfold thevSeg cond
  simp only
  rw [← h]; ring

theorem seg_current (t : K) (ht : 0 ≤ t) (rows : List (Row K)) (h0 : 0 < cond rows + eps) :
    (thevSeg t rows).2 * (thevSeg t rows).1 =
      (rows.map fun r => 4 / 10 * (r.2.1 + r.2.2) + 2 / 10 * (sgnAt t r.1 * (r.2.1 - r.2.2))).sum := by
  have hg := seg_cond t ht rows
  have e : (thevSeg t rows).2 = (6 / 10 * (rows.map (pp t)).sum + 2 / 10 * (rows.map (mm t)).sum + 4 / 10 * (rows.map (zz t)).sum) /
      (thevSeg t rows).1 := rfl
  rw [e, div_mul_cancel₀ _ (by rw [hg]; exact h0.ne'), sum_three]
  congr 1
  exact List.map_congr_left fun r _ => row_signal t ht r

theorem eps_pos : (0 : K) < eps := by unfold eps; positivity

omit [LinearOrder K] [IsStrictOrderedRing K] in
theorem sum_range_mul (n m : Nat) (f : Nat → K) :
    ∑ r ∈ Finset.range (n * m), f r = ∑ i ∈ Finset.range n, ∑ k ∈ Finset.range m, f (i * m + k) := by
  induction n with
  | zero => simp
  | succ n ih => rw [Nat.succ_mul, Finset.sum_range_add, ih, Finset.sum_range_succ]

/-- Segment `i` of a column. -/
def segOf (syn : Nat) (x gp gm : Nat → K) (i : Nat) : List (Row K) :=
  (List.range syn).map fun k => (x (i * syn + k), gp (i * syn + k), gm (i * syn + k))

omit [LinearOrder K] [IsStrictOrderedRing K] in
theorem segRows_ok (syn segs : Nat) (hs : 0 < syn) (x gp gm : Nat → K) :
    segRows syn (colRows (segs * syn) x gp gm) = .ok ((List.range segs).map (segOf syn x gp gm)) := by
  unfold segRows
  have hl : (colRows (segs * syn) x gp gm).length = segs * syn := by simp [colRows]
  by_cases h1 : syn = 1
  · rw [if_pos h1]
    subst h1
    congr 1
    unfold colRows segOf
    rw [List.map_map, Nat.mul_one]
    apply List.map_congr_left
    intro i _
    simp
  · rw [if_neg h1, hl, Nat.mul_div_cancel _ hs, if_neg (by simp)]
    congr 1
    apply List.map_congr_left
    intro i hi
    have hi' := List.mem_range.1 hi
    have hle : i * syn + syn ≤ segs * syn := by
      calc i * syn + syn = (i + 1) * syn := by ring
        _ ≤ segs * syn := Nat.mul_le_mul_right _ hi'
    unfold colRows segOf
    apply List.ext_getElem
    · simp; omega
    · intro k h h'
      simp

/-- Row attenuations: positive, at most one, growing towards the output, one without wire resistance. -/
structure RowAtt (rs : K) (n : Nat) (a : Nat → K) : Prop where
  pos : ∀ r, r < n → 0 < a r
  le : ∀ r, r < n → a r ≤ 1
  mono : ∀ r s, r ≤ s → s < n → a r ≤ a s
  zero : rs = 0 → ∀ r, r < n → a r = 1

/-- The segments divide the rows. -/
structure Fits (p : Pars K) : Prop where
  segs : 0 < p.segments
  phys : 0 < p.phys
  div : p.segments ∣ p.phys
  rs : 0 ≤ p.rs

omit [IsStrictOrderedRing K] in
theorem rowsPerSeg_ok (p : Pars K) (hp : Fits p) : rowsPerSeg p = .ok (p.phys / p.segments) ∧ 0 < p.phys / p.segments ∧
    p.segments * (p.phys / p.segments) = p.phys := by
  have h := Nat.div_mul_cancel hp.div
  refine ⟨?_, Nat.div_pos (Nat.le_of_dvd hp.phys hp.div) hp.segs, by rw [Nat.mul_comm]; exact h⟩
  unfold rowsPerSeg
  rw [if_neg hp.segs.ne', if_neg (by rw [h]; simp)]

theorem current_linear (p : Pars K) (hp : Fits p) (gp gm : Nat → K) (hgp : ∀ r, r < p.phys → 0 ≤ gp r)
    (hgm : ∀ r, r < p.phys → 0 ≤ gm r) :
    ∃ (a : Nat → K) (c : K), RowAtt p.rs p.phys a ∧
      (p.rs = 0 → c = (4 / 10 - p.vRead) * ∑ r ∈ Finset.range p.phys, (gp r + gm r) - p.vRead * (p.segments * eps)) ∧
      ∀ (x : Nat → K) (t : K), 0 ≤ t → currentAt p (colRows p.phys x gp gm) t =
        .ok (2 / 10 * ∑ r ∈ Finset.range p.phys, a r * (sgnAt t (x r) * (gp r - gm r)) + c) := by
  obtain ⟨hsyn, hpos, hmul⟩ := rowsPerSeg_ok p hp
  set syn := p.phys / p.segments with hsd
  obtain ⟨n, hn⟩ : ∃ n, p.segments = n + 1 := ⟨p.segments - 1, by have := hp.segs; omega⟩
  set rw' : K := 1 / 10 ^ 6 * p.rs * syn with hrw
  have hrw0 : 0 ≤ rw' := by
    have := hp.rs
    have h2 : (0 : K) ≤ (syn : K) := Nat.cast_nonneg _
    rw [hrw]; positivity
  have hrwz : p.rs = 0 → rw' = 0 := by intro h; rw [hrw, h]; ring
  -- conductance of segment `i`
  set g : Nat → K := fun i => ∑ k ∈ Finset.range syn, (gp (i * syn + k) + gm (i * syn + k)) + eps with hgdef
  have hidx : ∀ i k, i < p.segments → k < syn → i * syn + k < p.phys := by
    intro i k hi hk
    calc i * syn + k < i * syn + syn := by omega
      _ = (i + 1) * syn := by ring
      _ ≤ p.segments * syn := Nat.mul_le_mul_right _ hi
      _ = p.phys := hmul
  have hg0 : ∀ i, i < p.segments → 0 < g i := by
    intro i hi
    have : 0 ≤ ∑ k ∈ Finset.range syn, (gp (i * syn + k) + gm (i * syn + k)) :=
      Finset.sum_nonneg fun k hk => add_nonneg (hgp _ (hidx i k hi (Finset.mem_range.1 hk))) (hgm _ (hidx i k hi (Finset.mem_range.1 hk)))
    have h2 : (0 : K) < eps := eps_pos
    simp only [hgdef]; linarith
  have hcond : ∀ (x : Nat → K) i, cond (segOf syn x gp gm i) + eps = g i := by
    intro x i
    simp only [hgdef, cond, segOf, List.map_map]
    rfl
  obtain ⟨G, a, hG, ha, hz, hf⟩ := chain_form rw' hrw0 (g 0) (hg0 0 hp.segs) ((List.range n).map fun i => g (i + 1))
    (by
      intro y hy
      obtain ⟨i, hi, rfl⟩ := List.mem_map.1 hy
      exact hg0 _ (by have := List.mem_range.1 hi; omega))
  have hlen : ((List.range n).map fun i => g (i + 1)).length + 1 = p.segments := by simp [hn]
  rw [hlen] at ha
  have h1 : 0 < 1 + rw' * G / 2 := by positivity
  set q : K := 1 / (1 + rw' * G / 2) with hq
  have q0 : 0 < q := by positivity
  have q1 : q ≤ 1 := by
    rw [hq, div_le_one h1]
    have := mul_nonneg hrw0 hG.le
    linarith
  have hdiv : ∀ r, r < p.phys → r / syn < p.segments := by
    intro r hr
    rw [Nat.div_lt_iff_lt_mul hpos, hmul]; exact hr
  refine ⟨fun r => q * a (r / syn),
    q * (4 / 10 * ∑ r ∈ Finset.range p.phys, a (r / syn) * (gp r + gm r) - p.vRead * G), ⟨?_, ?_, ?_, ?_⟩, ?_, ?_⟩
  · exact fun r hr => mul_pos q0 (ha.pos _ (hdiv r hr))
  · exact fun r hr => mul_le_one₀ q1 (ha.pos _ (hdiv r hr)).le (ha.le _ (hdiv r hr))
  · exact fun r s hrs hs => mul_le_mul_of_nonneg_left (ha.mono _ _ (Nat.div_le_div_right hrs) (hdiv s hs)) q0.le
  · intro h r hr
    rw [ha.zero (hrwz h) _ (hdiv r hr), hq, hrwz h]; simp
  · intro h
    have hq1 : q = 1 := by rw [hq, hrwz h]; simp
    have hGs : G = ∑ r ∈ Finset.range p.phys, (gp r + gm r) + p.segments * eps := by
      rw [hz (hrwz h), ← hmul, sum_range_mul, hn, Finset.sum_range_succ']
      have : ((List.range n).map fun i => g (i + 1)).sum = ∑ i ∈ Finset.range n, g (i + 1) := rfl
      rw [this]
      simp only [hgdef]
      have h2 : ∑ i ∈ Finset.range n, (∑ k ∈ Finset.range syn, (gp ((i + 1) * syn + k) + gm ((i + 1) * syn + k)) + (eps : K)) =
          ∑ i ∈ Finset.range n, ∑ k ∈ Finset.range syn, (gp ((i + 1) * syn + k) + gm ((i + 1) * syn + k)) + n * eps := by
        rw [Finset.sum_add_distrib, Finset.sum_const, Finset.card_range, nsmul_eq_mul]
      rw [h2]
      push_cast
      ring
    have hS : ∑ r ∈ Finset.range p.phys, a (r / syn) * (gp r + gm r) = ∑ r ∈ Finset.range p.phys, (gp r + gm r) :=
      Finset.sum_congr rfl fun r hr => by rw [ha.zero (hrwz h) _ (hdiv r (Finset.mem_range.1 hr)), one_mul]
    rw [hq1, hS, hGs]; ring
  · intro x t ht
    set S : K := ∑ i ∈ Finset.range p.segments, a i * ∑ k ∈ Finset.range syn,
      (4 / 10 * (gp (i * syn + k) + gm (i * syn + k)) + 2 / 10 * (sgnAt t (x (i * syn + k)) * (gp (i * syn + k) - gm (i * syn + k)))) with hSdef
    have hthev : thevenin rw' (((List.range p.segments).map (segOf syn x gp gm)).map (thevSeg t)) =
        .ok (S / G, 1 / G + 1 / 2 * rw') := by
      rw [List.map_map, hn, List.range_succ_eq_map, List.map_cons, List.map_map]
      unfold thevenin
      simp only [Function.comp_apply]
      have hz' := hf ((thevSeg t (segOf syn x gp gm 0)).2) ((List.range n).map fun i => (thevSeg t (segOf syn x gp gm (i + 1))).2) (by simp)
      have e1 : List.zip ((List.range n).map fun i => g (i + 1)) ((List.range n).map fun i => (thevSeg t (segOf syn x gp gm (i + 1))).2) =
          (List.range n).map ((thevSeg t ∘ segOf syn x gp gm) ∘ Nat.succ) := by
        rw [List.zip_map']
        apply List.map_congr_left
        intro i _
        refine Prod.ext ?_ rfl
        simp only [Function.comp_apply]
        rw [seg_cond t ht, hcond]
      have e2 : (thevSeg t (segOf syn x gp gm 0)).1 = g 0 := by rw [seg_cond t ht, hcond]
      rw [e1] at hz'
      rw [e2, hz']
      have e3 : ∑ i ∈ Finset.range (((List.range n).map fun i => g (i + 1)).length + 1),
          a i * ((((thevSeg t (segOf syn x gp gm 0)).2) :: ((List.range n).map fun i => (thevSeg t (segOf syn x gp gm (i + 1))).2)).getD i 0 *
            (g 0 :: (List.range n).map fun i => g (i + 1)).getD i 0) = S := by
        rw [hlen, hSdef]
        refine Finset.sum_congr rfl fun i hi => ?_
        have hi' := Finset.mem_range.1 hi
        congr 1
        have u1 : (((thevSeg t (segOf syn x gp gm 0)).2) :: ((List.range n).map fun i => (thevSeg t (segOf syn x gp gm (i + 1))).2)).getD i 0 =
            (thevSeg t (segOf syn x gp gm i)).2 := by
          cases i with
          | zero => rfl
          | succ i =>
            rw [List.getD_cons_succ, List.getD_eq_getElem _ _ (by simp; omega)]; simp
        have u2 : (g 0 :: (List.range n).map fun i => g (i + 1)).getD i 0 = (thevSeg t (segOf syn x gp gm i)).1 := by
          rw [seg_cond t ht, hcond]
          cases i with
          | zero => rfl
          | succ i =>
            rw [List.getD_cons_succ, List.getD_eq_getElem _ _ (by simp; omega)]; simp
        rw [u1, u2, seg_current t ht _ (by rw [hcond]; exact hg0 i hi')]
        simp only [segOf, List.map_map]
        rfl
      rw [e3]
    unfold currentAt
    rw [hsyn]
    simp only [bind, Except.bind]
    have hcr : colRows p.phys x gp gm = colRows (p.segments * syn) x gp gm := by rw [hmul]
    rw [hcr, segRows_ok syn p.segments hpos x gp gm]
    simp only [List.length_map, List.length_range, lt_irrefl, if_false]
    rw [List.take_of_length_le (by simp), ← hrw, hthev]
    simp only
    congr 1
    have e4 : (S / G - p.vRead) / (1 / G + 1 / 2 * rw') = q * (S - p.vRead * G) := by
      rw [hq]
      have : 0 < 1 / G + 1 / 2 * rw' := by positivity
      field_simp
    rw [e4]
    have e5 : S = 4 / 10 * ∑ r ∈ Finset.range p.phys, a (r / syn) * (gp r + gm r) +
        2 / 10 * ∑ r ∈ Finset.range p.phys, a (r / syn) * (sgnAt t (x r) * (gp r - gm r)) := by
      rw [hSdef, ← hmul, sum_range_mul, sum_range_mul, Finset.mul_sum, Finset.mul_sum, ← Finset.sum_add_distrib]
      refine Finset.sum_congr rfl fun i _ => ?_
      rw [Finset.mul_sum, Finset.mul_sum, Finset.mul_sum, ← Finset.sum_add_distrib]
      refine Finset.sum_congr rfl fun k hk => ?_
      have : (i * syn + k) / syn = i := by
        rw [Nat.mul_comm, Nat.mul_add_div hpos, Nat.div_eq_of_lt (Finset.mem_range.1 hk), Nat.add_zero]
      rw [this]; ring
    rw [e5]
    have e6 : ∑ r ∈ Finset.range p.phys, q * a (r / syn) * (sgnAt t (x r) * (gp r - gm r)) =
        q * ∑ r ∈ Finset.range p.phys, a (r / syn) * (sgnAt t (x r) * (gp r - gm r)) := by
      rw [Finset.mul_sum]
      exact Finset.sum_congr rfl fun r _ => by ring
    rw [e6]; ring

end Aihw.IrDrop

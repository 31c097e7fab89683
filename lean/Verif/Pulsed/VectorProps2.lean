import Verif.Pulsed.VectorProps
import Mathlib.Algebra.Order.BigOperators.Ring.Finset
import Mathlib.Algebra.Order.Ring.Abs
import Mathlib.Tactic.FinCases

/-!
# C65: writing and reading unit cells, bounds, floating point updates
-/
namespace Aihw.Pulsed

variable {K : Type} [Field K] [LinearOrder K] [IsStrictOrderedRing K] [FloorRing K]

/-- A device that stores what it is given: no write noise is added when weights are set. -/
def QuietSet (d : Dev K) : Prop := ¬ (persistent d.kd d.par = true ∧ d.par.noiseOnSet = true)

/-- Value `v` limited to the bounds of cell `k` of a device. -/
def limited (d : Dev K) (k : Nat) (v : K) : K :=
  if v < (d.cell k).minB then (d.cell k).minB
  else if (d.cell k).maxB < v then (d.cell k).maxB else v

theorem clipMM_limited (d : Dev K) (k : Nat) (v : K) (hb : (d.cell k).minB ≤ (d.cell k).maxB) :
    clipMM (d.cell k) v = limited d k v := by
  unfold limited
  split_ifs with h1 h2
  · unfold clipMM; rw [min_eq_left (h1.le.trans hb), max_eq_right h1.le]
  · unfold clipMM; rw [min_eq_right h2.le, max_eq_left hb]
  · exact clipMM_of_mem (not_lt.1 h1) (not_lt.1 h2)

theorem onSet_vis {d : Dev K} (hq : QuietSet d) (c : Cell K) (s : CS K) (v g : K) :
    (onSet d.kd d.par c s v g).vis = clipMM c v := by
  unfold onSet
  unfold QuietSet at hq
  cases hp : persistent d.kd d.par with
  | false => simp
  | true =>
    cases hn : d.par.noiseOnSet with
    | true => exact absurd ⟨hp, hn⟩ hq
    | false => simp

/-- **C65 (writing).**  Under every policy but `SINGLE_FIXED`, `set_weights` stores the given value,
limited to its own bounds, in every device; the visible weight is the weighted sum of these. -/
theorem C65_set_all (F : Fns K) (p : VPar K) (s s' : VS K) (v : Nat → K) (g : Nat → Nat → K)
    (hp : p.policy ≠ .singleFixed) (h : p.step F s (.set v g) = .ok s') (k : Nat)
    (hd : ∀ j < p.n, QuietSet (s.dev j) ∧ ((s.dev j).cell k).minB ≤ ((s.dev j).cell k).maxB) :
    (∀ j < p.n, s'.hidden j k = limited (s.dev j) k (v k)) ∧
    s'.vis k = weightedSum p.n p.gamma (fun j => limited (s.dev j) k (v k)) ∧
    s'.cur = p.first ∧ s'.upd = 0 := by
  simp only [VPar.step, Except.ok.injEq] at h
  subst h
  have hh : ∀ j < p.n, (p.set s v g).hidden j k = limited (s.dev j) k (v k) := by
    intro j hj
    simp only [VS.hidden, VPar.set, VPar.reduce, Dev.mapSt]
    rw [onSet_vis (hd j hj).1]
    simp only [VPar.setsDev, hp, if_false, if_true]
    exact clipMM_limited _ _ _ (hd j hj).2
  refine ⟨hh, ?_, ?_, rfl⟩
  · rw [show (p.set s v g).vis k = weightedSum p.n p.gamma fun j => (p.set s v g).hidden j k from
      reduce_synced p _ k]
    unfold weightedSum
    refine Finset.sum_congr rfl fun j hj => ?_
    beta_reduce
    rw [hh j (Finset.mem_range.1 hj)]
  · simp [VPar.set, VPar.reduce, VPar.resetIdx, hp]

/-- **C65 (round trip).**  If the weighting sums to one (as the default does) and the value is within
the bounds of all devices, the unit cell reads back exactly what was written. -/
theorem C65_set_get (F : Fns K) (p : VPar K) (s s' : VS K) (v : Nat → K) (g : Nat → Nat → K)
    (hp : p.policy ≠ .singleFixed) (h : p.step F s (.set v g) = .ok s') (k : Nat)
    (hd : ∀ j < p.n, QuietSet (s.dev j) ∧ ((s.dev j).cell k).minB ≤ v k ∧
      v k ≤ ((s.dev j).cell k).maxB)
    (hg : ∑ j ∈ Finset.range p.n, p.gamma j = 1) : s'.vis k = v k := by
  obtain ⟨-, h2, -⟩ := C65_set_all F p s s' v g hp h k
    (fun j hj => ⟨(hd j hj).1, (hd j hj).2.1.trans (hd j hj).2.2⟩)
  rw [h2]
  unfold weightedSum
  have hv : (∑ j ∈ Finset.range p.n, p.gamma j * v k) = v k := by
    rw [← Finset.sum_mul, hg, one_mul]
  refine Eq.trans (Finset.sum_congr rfl fun j hj => ?_) hv
  beta_reduce
  have hj' := hd j (Finset.mem_range.1 hj)
  unfold limited
  rw [if_neg (not_lt.2 hj'.2.1), if_neg (not_lt.2 hj'.2.2)]

/-- The default weighting sums to one. -/
theorem C65_default_sums_to_one (n : Nat) (hn : 0 < n) (gam : Nat → K)
    (h : mkGamma n [] = .ok gam) : ∑ j ∈ Finset.range n, gam j = 1 := by
  simp only [mkGamma, List.length_nil, if_true, Except.ok.injEq] at h
  subst h
  have hK : (n : K) ≠ 0 := by exact_mod_cast hn.ne'
  rw [Finset.sum_const, Finset.card_range, nsmul_eq_mul, mul_one_div, div_self hK]

/-- **C65 (reference cell: writing).**  Under `SINGLE_FIXED` (the reference unit cell) `set_weights`
writes the selected device only; the other devices keep their values (limited to their bounds), and
the visible weight is the weighted sum: what is read back differs from what was written by the
weighted values of the other devices. -/
theorem C65_set_fixed (F : Fns K) (p : VPar K) (s s' : VS K) (c : Nat) (v : Nat → K)
    (g : Nat → Nat → K) (hp : p.policy = .singleFixed) (hc : s.cur = (c : ℤ)) (hcn : c < p.n)
    (h : p.step F s (.set v g) = .ok s') (k : Nat)
    (hd : ∀ j < p.n, QuietSet (s.dev j) ∧ ((s.dev j).cell k).minB ≤ ((s.dev j).cell k).maxB) :
    s'.cur = (c : ℤ) ∧ s'.hidden c k = limited (s.dev c) k (v k) ∧
    (∀ j < p.n, j ≠ c → s'.hidden j k = limited (s.dev j) k (s.hidden j k)) ∧
    s'.vis k = p.gamma c * limited (s.dev c) k (v k) +
      ∑ j ∈ (Finset.range p.n).erase c, p.gamma j * limited (s.dev j) k (s.hidden j k) := by
  simp only [VPar.step, Except.ok.injEq] at h
  subst h
  have hh : ∀ j < p.n, (p.set s v g).hidden j k =
      limited (s.dev j) k (if j = c then v k else s.hidden j k) := by
    intro j hj
    simp only [VS.hidden, VPar.set, VPar.reduce, Dev.mapSt]
    rw [onSet_vis (hd j hj).1]
    simp only [VPar.setsDev, hp, if_true, hc]
    have : (decide ((c : ℤ) < 0 ∨ (j : ℤ) = (c : ℤ)) = true) ↔ j = c := by
      rw [decide_eq_true_eq]
      constructor
      · rintro (h | h)
        · omega
        · exact_mod_cast h
      · intro h; right; exact_mod_cast h
    simp only [this]
    exact clipMM_limited _ _ _ (hd j hj).2
  refine ⟨?_, ?_, ?_, ?_⟩
  · simp [VPar.set, VPar.reduce, VPar.resetIdx, hp, hc]
  · rw [hh c hcn, if_pos rfl]
  · intro j hj hjc; rw [hh j hj, if_neg hjc]
  · rw [show (p.set s v g).vis k = weightedSum p.n p.gamma fun j => (p.set s v g).hidden j k from
      reduce_synced p _ k]
    unfold weightedSum
    rw [← Finset.add_sum_erase _ _ (Finset.mem_range.2 hcn)]
    beta_reduce
    rw [hh c hcn, if_pos rfl]
    congr 1
    refine Finset.sum_congr rfl fun j hj => ?_
    have hj' := Finset.mem_erase.1 hj
    rw [hh j (Finset.mem_range.1 hj'.2), if_neg hj'.1]

/-- **C65 (finding: write noise is baked into the other devices).**  Under `SINGLE_FIXED` a weight
write also runs `onSetWeights` on the devices that are not selected: with write noise their stored
(persistent) weight is replaced by the noisy visible one. -/
theorem C65_set_bakes_noise (F : Fns K) (p : VPar K) (s s' : VS K) (c j : Nat) (v : Nat → K)
    (g : Nat → Nat → K) (hp : p.policy = .singleFixed) (hc : s.cur = (c : ℤ)) (hj : j ≠ c)
    (h : p.step F s (.set v g) = .ok s') (k : Nat)
    (hb : ((s.dev j).cell k).minB ≤ ((s.dev j).cell k).maxB) :
    (s'.dev j).weight k = limited (s.dev j) k (s.hidden j k) := by
  simp only [VPar.step, Except.ok.injEq] at h
  subst h
  rw [weight_eq]
  simp only [VPar.set, VPar.reduce, Dev.mapSt, stored_onSet]
  have hne : ¬ (decide ((c : ℤ) < 0 ∨ (j : ℤ) = (c : ℤ)) = true) := by
    rw [decide_eq_true_eq]
    rintro (h | h)
    · omega
    · exact hj (by exact_mod_cast h)
  simp only [VPar.setsDev, hp, if_true, hc]
  rw [if_neg hne]
  exact clipMM_limited _ _ _ hb

/-- The reference unit cell of the documentation: two devices, visible weight = device 0 minus
device 1, updates and writes go to device 0. -/
structure RefCell (p : VPar K) : Prop where
  n : p.n = 2
  policy : p.policy = .singleFixed
  plus : p.gamma 0 = 1
  minus : p.gamma 1 = -1

/-- **C65 (reference cell: a written weight is not read back).**  Writing the value `v` to a
reference unit cell and reading gives `v - r`, `r` the reference weight; writing back what was read
therefore changes the weight by `-r` every time. -/
theorem C65_reference_offset (F : Fns K) (p : VPar K) (hr : RefCell p) (s s' : VS K) (v : Nat → K)
    (g : Nat → Nat → K) (hc : s.cur = 0) (h : p.step F s (.set v g) = .ok s') (k : Nat)
    (hq : QuietSet (s.dev 0) ∧ QuietSet (s.dev 1))
    (h0 : ((s.dev 0).cell k).minB ≤ v k ∧ v k ≤ ((s.dev 0).cell k).maxB)
    (h1 : ((s.dev 1).cell k).minB ≤ s.hidden 1 k ∧ s.hidden 1 k ≤ ((s.dev 1).cell k).maxB) :
    s'.vis k = v k - s.hidden 1 k ∧ s'.hidden 1 k = s.hidden 1 k ∧
    (v k = s.vis k → s'.vis k = s.vis k - s.hidden 1 k) := by
  have hd : ∀ j < p.n, QuietSet (s.dev j) ∧ ((s.dev j).cell k).minB ≤ ((s.dev j).cell k).maxB := by
    intro j hj
    rw [hr.n] at hj
    rcases (show j = 0 ∨ j = 1 by omega) with rfl | rfl
    · exact ⟨hq.1, h0.1.trans h0.2⟩
    · exact ⟨hq.2, h1.1.trans h1.2⟩
  obtain ⟨-, -, h3, h4⟩ := C65_set_fixed F p s s' 0 v g hr.policy (by exact_mod_cast hc)
    (by rw [hr.n]; omega) h k hd
  have e1 : limited (s.dev 1) k (s.hidden 1 k) = s.hidden 1 k := by
    unfold limited; rw [if_neg (not_lt.2 h1.1), if_neg (not_lt.2 h1.2)]
  have e0 : limited (s.dev 0) k (v k) = v k := by
    unfold limited; rw [if_neg (not_lt.2 h0.1), if_neg (not_lt.2 h0.2)]
  have he : (Finset.range p.n).erase 0 = {1} := by rw [hr.n]; decide
  rw [he, Finset.sum_singleton, hr.plus, hr.minus, e0, e1] at h4
  have hv : s'.vis k = v k - s.hidden 1 k := by rw [h4]; ring
  refine ⟨hv, ?_, fun e => by rw [hv, e]⟩
  rw [h3 1 (by rw [hr.n]; omega) (by omega), e1]

/-- **C65 (reference cell: setting the reference).**  Selecting device 1, writing `r` and selecting
device 0 again (the documented recipe) stores `r` in the reference device, leaves device 0 as it was
and makes the visible weight `w - r`. -/
theorem C65_reference_recipe (F : Fns K) (p : VPar K) (hr : RefCell p) (s s' : VS K) (r : Nat → K)
    (g : Nat → Nat → K)
    (h : p.run F s [.setIndex 1, .set r g, .setIndex 0] = .ok s') (k : Nat)
    (hq : QuietSet (s.dev 0) ∧ QuietSet (s.dev 1))
    (h0 : ((s.dev 0).cell k).minB ≤ s.hidden 0 k ∧ s.hidden 0 k ≤ ((s.dev 0).cell k).maxB)
    (h1 : ((s.dev 1).cell k).minB ≤ r k ∧ r k ≤ ((s.dev 1).cell k).maxB) :
    s'.cur = 0 ∧ s'.hidden 0 k = s.hidden 0 k ∧ s'.hidden 1 k = r k ∧
    s'.vis k = s.hidden 0 k - r k := by
  have hd : ∀ j < p.n, QuietSet (s.dev j) ∧ ((s.dev j).cell k).minB ≤ ((s.dev j).cell k).maxB := by
    intro j hj
    rw [hr.n] at hj
    rcases (show j = 0 ∨ j = 1 by omega) with rfl | rfl
    · exact ⟨hq.1, h0.1.trans h0.2⟩
    · exact ⟨hq.2, h1.1.trans h1.2⟩
  have hset : p.step F { s with cur := 1 } (.set r g) = .ok (p.set { s with cur := 1 } r g) := rfl
  obtain ⟨-, h2, h3, h4⟩ := C65_set_fixed F p { s with cur := 1 } _ 1 r g hr.policy rfl
    (by rw [hr.n]; omega) hset k hd
  simp only [VPar.run, VPar.step, Except.ok.injEq] at h
  subst h
  have hid : ∀ j, VS.hidden ({ s with cur := 1 } : VS K) j k = s.hidden j k := fun j => rfl
  simp only [hid] at h3 h4
  have e0 : limited (s.dev 0) k (s.hidden 0 k) = s.hidden 0 k := by
    unfold limited; rw [if_neg (not_lt.2 h0.1), if_neg (not_lt.2 h0.2)]
  have e1 : limited (s.dev 1) k (r k) = r k := by
    unfold limited; rw [if_neg (not_lt.2 h1.1), if_neg (not_lt.2 h1.2)]
  have he : (Finset.range p.n).erase 1 = {0} := by rw [hr.n]; decide
  refine ⟨rfl, ?_, ?_, ?_⟩
  · exact (h3 0 (by rw [hr.n]; omega) (by omega)).trans e0
  · exact h2.trans e1
  · rw [he, Finset.sum_singleton, hr.plus, hr.minus, e0, e1] at h4
    refine h4.trans ?_
    ring

/-- **C65 (finding: index out of range).**  `set_hidden_update_index` is not checked: with an index
beyond the devices, `set_weights` writes no device at all (every device within bounds and without
write noise keeps its hidden weight, and so does the visible weight), while with a negative index it
writes all devices. -/
theorem C65_index_unchecked (F : Fns K) (p : VPar K) (s s' : VS K) (i : ℤ) (v : Nat → K)
    (g : Nat → Nat → K) (hp : p.policy = .singleFixed)
    (h : p.run F s [.setIndex i, .set v g] = .ok s') (k : Nat)
    (hd : ∀ j < p.n, QuietSet (s.dev j) ∧ ((s.dev j).cell k).minB ≤ s.hidden j k ∧
      s.hidden j k ≤ ((s.dev j).cell k).maxB) :
    ((p.n : ℤ) ≤ i → (∀ j < p.n, s'.hidden j k = s.hidden j k) ∧
      s'.vis k = weightedSum p.n p.gamma fun j => s.hidden j k) ∧
    (i < 0 → ∀ j < p.n, s'.hidden j k = limited (s.dev j) k (v k)) := by
  simp only [VPar.run, VPar.step, Except.ok.injEq] at h
  subst h
  have hh : ∀ j < p.n, (p.set { s with cur := i } v g).hidden j k =
      limited (s.dev j) k (if i < 0 ∨ (j : ℤ) = i then v k else s.hidden j k) := by
    intro j hj
    simp only [VS.hidden, VPar.set, VPar.reduce, Dev.mapSt]
    rw [onSet_vis (hd j hj).1]
    simp only [VPar.setsDev, hp, if_true, decide_eq_true_eq]
    exact clipMM_limited _ _ _ ((hd j hj).2.1.trans (hd j hj).2.2)
  constructor
  · intro hi
    have hsame : ∀ j < p.n, (p.set { s with cur := i } v g).hidden j k = s.hidden j k := by
      intro j hj
      rw [hh j hj, if_neg (by omega)]
      unfold limited
      rw [if_neg (not_lt.2 (hd j hj).2.1), if_neg (not_lt.2 (hd j hj).2.2)]
    refine ⟨hsame, ?_⟩
    rw [show (p.set { s with cur := i } v g).vis k = weightedSum p.n p.gamma fun j =>
      (p.set { s with cur := i } v g).hidden j k from reduce_synced p _ k]
    unfold weightedSum
    refine Finset.sum_congr rfl fun j hj => ?_
    beta_reduce
    rw [hsame j (Finset.mem_range.1 hj)]
  · intro hi j hj
    rw [hh j hj, if_pos (Or.inl hi)]

/-! ## The visible weights are not state -/

/-- Operations that recompute all visible weights from the hidden ones. -/
def Recomputes : VOp K → Prop
  | .update dense _ _ => dense = true
  | .fpUpdate withDev _ _ => withDev = true
  | .setIndex _ => False
  | _ => True

/-- **C65 (finding: floating point updates are lost).**  The result of every operation that recomputes
the visible weights does not depend on the visible weights before it.  So an update with pulse type
`None` (which only changes the visible weights) is undone by the next decay, diffusion, drift, clip,
reset, write or deterministic update, and an update with pulse type `NoneWithDevice` has no effect at
all. -/
theorem C65_visible_not_state (F : Fns K) (p : VPar K) (s : VS K) (vis' : Nat → K) (o : VOp K)
    (ho : Recomputes o) : p.step F { s with vis := vis' } o = p.step F s o := by
  cases o with
  | update dense l u =>
    have : dense = true := ho
    subst this
    simp only [VPar.step, Bool.true_or, if_true]
  | fpUpdate b dw g =>
    have : b = true := ho
    subst this
    simp only [VPar.step, if_true, VPar.each, VPar.reduce]
  | setIndex i => exact absurd ho (by simp [Recomputes])
  | set v g => rfl
  | setHidden c a b d g => rfl
  | decay a nb g => rfl
  | diffuse g g2 => rfl
  | drift v g => rfl
  | clip c g => rfl
  | resetCols a n sel g g2 => rfl

/-- **C65 (finding, continued).**  The gradient of a `NoneWithDevice` update does not matter, and the
gradient of a `None` update is lost with the next recomputation. -/
theorem C65_fp_update_lost (F : Fns K) (p : VPar K) (s : VS K) (dw dw' : Nat → K)
    (g : Nat → Nat → K) :
    p.step F s (.fpUpdate true dw g) = p.step F s (.fpUpdate true dw' g) ∧
    ∀ (o : VOp K) (l : List (VOp K)), Recomputes o →
      p.run F s (.fpUpdate false dw g :: o :: l) = p.run F s (o :: l) := by
  constructor
  · simp only [VPar.step, if_true, VPar.each, VPar.reduce]
  · intro o l ho
    have h1 : p.step F s (.fpUpdate false dw g) =
        .ok { s with vis := fun k => s.vis k + dw k } := rfl
    conv_lhs => rw [VPar.run, h1]
    simp only [VPar.run]
    rw [C65_visible_not_state F p s _ o ho]

/-! ## Bounds -/

/-- Side conditions on an operation: a fixed-value clip must not lie below the range of a device, new
bounds must be ordered. -/
def VOpOk (p : VPar K) (s : VS K) (k : Nat) : VOp K → Prop
  | .clip c _ => ∀ j < p.n, c < 0 ∨ -c ≤ ((s.dev j).cell k).maxB
  | .setHidden cell _ _ _ _ => ∀ j < p.n, (cell j k).minB ≤ (cell j k).maxB
  | _ => True

/-- All operations of a history satisfy their side conditions. -/
def VHistOk (F : Fns K) (p : VPar K) (k : Nat) : VS K → List (VOp K) → Prop
  | _, [] => True
  | s, o :: l => VOpOk p s k o ∧ ∀ s', p.step F s o = .ok s' → VHistOk F p k s' l

/-- The invariant of one sub device. -/
def SubOk (d : Dev K) (k : Nat) : Prop :=
  ¬ HasRef d.kd ∧ Valid d ∧ (d.cell k).minB ≤ (d.cell k).maxB ∧ Within d k

theorem subOk_exec (F : Fns K) {d : Dev K} {k : Nat} (h : SubOk d k) (o : Op K) (ho : OpOk d k o) :
    SubOk (d.exec F o) k := by
  unfold Dev.exec
  cases hs : d.step F o with
  | error e => exact h
  | ok d' =>
    obtain ⟨f1, f2, f3⟩ := step_frame F h.2.1 o hs
    exact ⟨by rw [f1]; exact h.1, f3, step_bounds F o h.2.2.1 ho hs,
      step_within F o h.1 h.2.1 h.2.2.1 ho h.2.2.2 hs⟩

theorem subOk_pulses (F : Fns K) {d : Dev K} {k : Nat} (h : SubOk d k) (l : List (P K)) :
    SubOk (d.pulses F l) k :=
  ⟨by simpa using h.1, by have := h.2.1; unfold Valid at *; simpa using this,
    by simpa using h.2.2.1, within_pulses F h.1 h.2.1 h.2.2.1 h.2.2.2 l⟩

theorem subOk_onSet {d : Dev K} {k : Nat} (h1 : ¬ HasRef d.kd) (h2 : Valid d)
    (h3 : (d.cell k).minB ≤ (d.cell k).maxB) (v g : Nat → K) (c : Nat → CS K) :
    SubOk { d with st := fun i => onSet d.kd d.par (d.cell i) (c i) (v i) (g i) } k := by
  refine ⟨h1, h2, h3, ?_⟩
  unfold Within
  rw [weight_eq]
  simp only [stored_onSet]
  exact clipMM_mem h3 _

theorem subOk_setHid (F : Fns K) {d : Dev K} {k : Nat} (h : SubOk d k) (cell : Nat → Cell K)
    (per hid : Nat → K) (dtod : K) (g : Nat → K) (hc : (cell k).minB ≤ (cell k).maxB) :
    SubOk (d.setHid F cell per hid dtod g) k := by
  unfold Dev.setHid Dev.exec
  cases hs : (d.mapSt fun k c => ⟨hid k, c.per⟩).step F (.setHidden cell per dtod g) with
  | error e => simp only [Dev.step] at hs; exact absurd hs (by simp)
  | ok d' =>
    have hv : Valid (d.mapSt fun k c => ⟨hid k, c.per⟩) := h.2.1
    obtain ⟨f1, f2, f3⟩ := step_frame F hv _ hs
    refine ⟨by rw [f1]; exact h.1, f3, step_bounds F (.setHidden cell per dtod g)
      (d := d.mapSt fun k c => ⟨hid k, c.per⟩) h.2.2.1 hc hs, ?_⟩
    simp only [Dev.step, Except.ok.injEq] at hs
    subst hs
    unfold Within
    rw [weight_eq]
    simp only [stored_onSet]
    exact clipMM_mem hc _

theorem subOk_onDev (F : Fns K) (o : VOp K) (p : VPar K) (s : VS K) (k : Nat)
    (h : ∀ j < p.n, SubOk (s.dev j) k) (ho : VOpOk p s k o) :
    ∀ j < p.n, SubOk (o.onDev F s.dev j) k := by
  intro j hj
  unfold VOp.onDev
  cases o with
  | clip c g => exact subOk_exec F (h j hj) _ (ho j hj)
  | decay a nb g => exact subOk_exec F (h j hj) _ trivial
  | diffuse g g2 => exact subOk_exec F (h j hj) _ trivial
  | drift v g => exact subOk_exec F (h j hj) _ trivial
  | resetCols a n sel g g2 => exact subOk_exec F (h j hj) _ trivial
  | _ => exact h j hj

theorem subOk_step (F : Fns K) (p : VPar K) (s s' : VS K) (k : Nat) (o : VOp K)
    (h : ∀ j < p.n, SubOk (s.dev j) k) (ho : VOpOk p s k o) (hs : p.step F s o = .ok s') :
    ∀ j < p.n, SubOk (s'.dev j) k := by
  cases o with
  | update dense l u =>
    simp only [VPar.step] at hs
    cases ha : p.applyPulses F s.dev (p.select s.cur u) l with
    | error e => rw [ha] at hs; simp at hs
    | ok dev =>
      rw [ha] at hs
      simp only [Except.ok.injEq] at hs
      subst hs
      intro j hj
      simp only
      rw [applyPulses_st F p _ _ _ _ ha j]
      split_ifs
      · exact subOk_pulses F (h j hj) _
      · exact h j hj
  | fpUpdate b dw g =>
    cases b with
    | false => simp only [VPar.step, Bool.false_eq_true, if_false, Except.ok.injEq] at hs; subst hs
               exact h
    | true =>
      simp only [VPar.step, if_true, Except.ok.injEq] at hs; subst hs
      exact subOk_onDev F (.clip (-1) g) p s k h (fun j _ => Or.inl (by norm_num))
  | set v g =>
    simp only [VPar.step, Except.ok.injEq] at hs; subst hs
    intro j hj
    exact subOk_onSet (h j hj).1 (h j hj).2.1 (h j hj).2.2.1
      (fun i => if p.setsDev s.cur j then v i else ((s.dev j).st i).vis) (g j) (s.dev j).st
  | setIndex i => simp only [VPar.step, Except.ok.injEq] at hs; subst hs; exact h
  | setHidden c a b d g =>
    simp only [VPar.step, Except.ok.injEq] at hs; subst hs
    intro j hj
    exact subOk_setHid F (h j hj) _ _ _ _ _ (ho j hj)
  | decay a nb g =>
    simp only [VPar.step, Except.ok.injEq] at hs; subst hs; exact subOk_onDev F _ p s k h ho
  | diffuse g g2 =>
    simp only [VPar.step, Except.ok.injEq] at hs; subst hs; exact subOk_onDev F _ p s k h ho
  | drift v g =>
    simp only [VPar.step, Except.ok.injEq] at hs; subst hs; exact subOk_onDev F _ p s k h ho
  | clip c g =>
    simp only [VPar.step, Except.ok.injEq] at hs; subst hs; exact subOk_onDev F _ p s k h ho
  | resetCols a n sel g g2 =>
    simp only [VPar.step, Except.ok.injEq] at hs; subst hs; exact subOk_onDev F _ p s k h ho

/-- **C65 (bounds).**  For sub devices of the classes without reference: after creation and every
history, each device's stored weight is within its own bounds; and for devices without write noise
the visible weight is at most `Σ |γ_j| B` in absolute value when all bounds are within `±B`. -/
theorem C65_bounds (F : Fns K) (p : VPar K) (dev : Nat → Dev K) (w0 : Nat → K) (g : Nat → Nat → K)
    (k : Nat) (ops : List (VOp K)) (s' : VS K)
    (hdev : ∀ j < p.n, ¬ HasRef (dev j).kd ∧ Valid (dev j) ∧
      ((dev j).cell k).minB ≤ ((dev j).cell k).maxB)
    (hok : VHistOk F p k (p.create dev w0 g) ops)
    (h : p.run F (p.create dev w0 g) ops = .ok s') :
    (∀ j < p.n, ((s'.dev j).cell k).minB ≤ (s'.dev j).weight k ∧
      (s'.dev j).weight k ≤ ((s'.dev j).cell k).maxB) ∧
    ∀ B : K, (∀ o ∈ ops, NotPlain o) →
      (∀ j < p.n, persistent (s'.dev j).kd (s'.dev j).par = false ∧
        -B ≤ ((s'.dev j).cell k).minB ∧ ((s'.dev j).cell k).maxB ≤ B) →
      |s'.vis k| ≤ (∑ j ∈ Finset.range p.n, |p.gamma j|) * B := by
  have key : ∀ (ops : List (VOp K)) (s : VS K), (∀ j < p.n, SubOk (s.dev j) k) →
      VHistOk F p k s ops → p.run F s ops = .ok s' → ∀ j < p.n, SubOk (s'.dev j) k := by
    intro ops
    induction ops with
    | nil => intro s hs _ hr; simp only [VPar.run, Except.ok.injEq] at hr; subst hr; exact hs
    | cons o l ih =>
      intro s hs ho hr
      simp only [VPar.run] at hr
      cases hst : p.step F s o with
      | error e => rw [hst] at hr; simp at hr
      | ok s1 =>
        rw [hst] at hr
        exact ih s1 (subOk_step F p s s1 k o hs ho.1 hst) (ho.2 s1 hst) hr
  have h0 : ∀ j < p.n, SubOk ((p.create dev w0 g).dev j) k := by
    intro j hj
    exact subOk_onSet (d := (dev j).mapSt fun _ c => ⟨0, c.per⟩) (hdev j hj).1 (hdev j hj).2.1
      (hdev j hj).2.2 (fun i => if p.setsDev p.first j then w0 i else 0) (g j)
      (fun i => ⟨0, ((dev j).st i).per⟩)
  have hfin := key ops _ h0 hok h
  refine ⟨fun j hj => (hfin j hj).2.2.2, ?_⟩
  intro B hnp hB
  rw [C65_visible_is_sum F p dev w0 g ops s' hnp h k]
  unfold weightedSum
  refine (Finset.abs_sum_le_sum_abs _ _).trans ?_
  rw [Finset.sum_mul]
  refine Finset.sum_le_sum fun j hj => ?_
  have hj' := Finset.mem_range.1 hj
  rw [abs_mul]
  refine mul_le_mul_of_nonneg_left ?_ (abs_nonneg _)
  have hw := (hfin j hj').2.2.2
  unfold Within at hw
  rw [weight_eq, stored_persistent] at hw
  simp only [(hB j hj').1, Bool.false_eq_true, if_false] at hw
  exact abs_le.2 ⟨(hB j hj').2.1.trans hw.1, hw.2.trans (hB j hj').2.2⟩

/-! ## The reference stays fixed -/

/-- Training with weight writes: pulsed updates and `set_weights`. -/
def TrainOp : VOp K → Prop
  | .update _ _ _ => True
  | .set _ _ => True
  | _ => False

/-- **C65 (reference cell: the reference is never touched).**  Under `SINGLE_FIXED` with device `c`
selected, any history of updates and weight writes leaves the hidden weight of every other device
(without write noise) exactly as it was. -/
theorem C65_reference_fixed (F : Fns K) (p : VPar K) (hp : p.policy = .singleFixed) (c j k : Nat)
    (hjc : j ≠ c) (ops : List (VOp K)) : ∀ (s s' : VS K), s.cur = (c : ℤ) →
    (∀ o ∈ ops, TrainOp o) → QuietSet (s.dev j) →
    ((s.dev j).cell k).minB ≤ s.hidden j k → s.hidden j k ≤ ((s.dev j).cell k).maxB →
    p.run F s ops = .ok s' → s'.hidden j k = s.hidden j k ∧ s'.cur = (c : ℤ) := by
  induction ops with
  | nil =>
    intro s s' hc _ _ _ _ h
    simp only [VPar.run, Except.ok.injEq] at h; subst h; exact ⟨rfl, hc⟩
  | cons o l ih =>
    intro s s' hc ho hq h1 h2 h
    simp only [VPar.run] at h
    cases hst : p.step F s o with
    | error e => rw [hst] at h; simp at h
    | ok s1 =>
      rw [hst] at h
      have hone : s1.cur = (c : ℤ) ∧ (s1.dev j).kd = (s.dev j).kd ∧ (s1.dev j).par = (s.dev j).par ∧
          (s1.dev j).cell = (s.dev j).cell ∧ s1.hidden j k = s.hidden j k := by
        cases o with
        | update dense l u =>
          have ht := (C65_update_targets F p s s1 c hc dense l u hst j).2
            (by unfold ChosenDevice; rw [hp]; exact hjc)
          refine ⟨?_, by rw [ht], by rw [ht], by rw [ht], by unfold VS.hidden; rw [ht]⟩
          simp only [VPar.step] at hst
          cases ha : p.applyPulses F s.dev (p.select s.cur u) l with
          | error e => rw [ha] at hst; simp at hst
          | ok dev =>
            rw [ha] at hst
            simp only [Except.ok.injEq] at hst
            subst hst
            simp only [VPar.select, hp]
            exact hc
        | set v g =>
          simp only [VPar.step, Except.ok.injEq] at hst
          subst hst
          refine ⟨?_, rfl, rfl, rfl, ?_⟩
          · simp [VPar.set, VPar.reduce, VPar.resetIdx, hp, hc]
          · simp only [VS.hidden, VPar.set, VPar.reduce, Dev.mapSt]
            rw [onSet_vis hq]
            have hne : ¬ (decide ((c : ℤ) < 0 ∨ (j : ℤ) = (c : ℤ)) = true) := by
              rw [decide_eq_true_eq]
              rintro (h | h)
              · omega
              · exact hjc (by exact_mod_cast h)
            simp only [VPar.setsDev, hp, if_true, hc]
            rw [if_neg hne]
            exact clipMM_of_mem h1 h2
        | _ => exact absurd (ho _ (List.mem_cons_self)) (by simp [TrainOp])
      obtain ⟨a1, a2, a3, a4, a5⟩ := hone
      obtain ⟨r1, r2⟩ := ih s1 s' a1 (fun q hq' => ho q (List.mem_cons_of_mem _ hq'))
        (by unfold QuietSet at *; rw [a2, a3]; exact hq) (by rw [a4, a5]; exact h1)
        (by rw [a4, a5]; exact h2) h
      exact ⟨by rw [r1, a5], r2⟩

end Aihw.Pulsed

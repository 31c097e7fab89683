import Verif.Pulsed.Vector
import Verif.Pulsed.Props2
import Mathlib.Algebra.BigOperators.Group.Finset.Basic
import Mathlib.Data.List.GetD
import Mathlib.Algebra.BigOperators.Ring.Finset
import Mathlib.Algebra.Order.BigOperators.Group.Finset

/-!
# C65: vector and reference unit cells
-/
namespace Aihw.Pulsed

variable {K : Type} [Field K] [LinearOrder K] [IsStrictOrderedRing K] [FloorRing K]

open Finset in
/-- The documented value of a unit cell: the weighted sum of the hidden weights of its devices. -/
def weightedSum (n : Nat) (gamma : Nat → K) (hidden : Nat → K) : K :=
  ∑ j ∈ range n, gamma j * hidden j

/-- Hidden weight of device `j` at cell `k`. -/
def VS.hidden (s : VS K) (j k : Nat) : K := ((s.dev j).st k).vis

theorem list_sum_range (n : Nat) (f : Nat → K) :
    ((List.range n).map f).sum = ∑ j ∈ Finset.range n, f j := by
  induction n with
  | zero => simp
  | succ n ih => rw [List.range_succ, List.map_append, List.sum_append, ih, Finset.sum_range_succ]; simp

theorem sumAt_eq (p : VPar K) (dev : Nat → Dev K) (k : Nat) :
    p.sumAt dev k = weightedSum p.n p.gamma fun j => ((dev j).st k).vis := by
  unfold VPar.sumAt weightedSum
  rw [list_sum_range]

/-- The visible weights are the weighted sums of the hidden ones. -/
def Synced (p : VPar K) (s : VS K) : Prop :=
  ∀ k, s.vis k = weightedSum p.n p.gamma fun j => s.hidden j k

/-- Everything but updates with pulse type `None`, which bypass the device. -/
def NotPlain : VOp K → Prop
  | .fpUpdate false _ _ => False
  | _ => True

theorem reduce_synced (p : VPar K) (s : VS K) : Synced p (p.reduce s) := fun k => sumAt_eq p s.dev k

theorem pulses_st_untouched (F : Fns K) (d : Dev K) (l : List (P K)) (k : Nat)
    (h : k ∉ l.map (·.k)) : (d.pulses F l).st k = d.st k := by
  rw [pulses_st]
  have : (l.filter fun q => decide (q.k = k)) = [] := by
    rw [List.filter_eq_nil_iff]
    intro q hq
    simp only [decide_eq_true_eq]
    intro hk
    exact h (List.mem_map.2 ⟨q, hq, hk⟩)
  rw [this]; rfl

theorem at_keys (l : List (VP K)) (j : Nat) :
    (l.map (VP.at · j)).map (·.k) = l.map (·.k) := by
  rw [List.map_map]; rfl

theorem applyPulses_st (F : Fns K) (p : VPar K) (dev dev' : Nat → Dev K) (cur : ℤ) (l : List (VP K))
    (h : p.applyPulses F dev cur l = .ok dev') (j : Nat) :
    dev' j = if p.policy = .all ∨ (j : ℤ) = cur then (dev j).pulses F (l.map (VP.at · j))
      else dev j := by
  unfold VPar.applyPulses at h
  split_ifs at h with h1 h2
  · injection h with h; subst h; simp [h1]
  · injection h with h; subst h; simp [h1]

theorem applyPulses_untouched (F : Fns K) (p : VPar K) (dev dev' : Nat → Dev K) (cur : ℤ)
    (l : List (VP K)) (h : p.applyPulses F dev cur l = .ok dev') (k : Nat)
    (hk : k ∉ l.map (·.k)) (j : Nat) : (dev' j).st k = (dev j).st k := by
  rw [applyPulses_st F p dev dev' cur l h j]
  split_ifs
  · exact pulses_st_untouched F _ _ _ (by rw [at_keys]; exact hk)
  · rfl

theorem step_synced (F : Fns K) (p : VPar K) (s s' : VS K) (o : VOp K) (hs : Synced p s)
    (ho : NotPlain o) (h : p.step F s o = .ok s') : Synced p s' := by
  cases o with
  | update dense l u =>
    simp only [VPar.step] at h
    cases ha : p.applyPulses F s.dev (p.select s.cur u) l with
    | error e => rw [ha] at h; simp at h
    | ok dev =>
      rw [ha] at h
      simp only [Except.ok.injEq] at h
      subst h
      intro k
      simp only [VS.hidden]
      by_cases hc : (dense || (l.map (·.k)).contains k) = true
      · rw [if_pos hc]; exact sumAt_eq p dev k
      · rw [if_neg hc]
        have hk : k ∉ l.map (·.k) := by
          intro hm
          apply hc
          rw [Bool.or_eq_true]
          exact Or.inr (List.contains_iff_mem.2 hm)
        rw [hs k]
        unfold weightedSum
        refine Finset.sum_congr rfl fun j _ => ?_
        beta_reduce
        rw [applyPulses_untouched F p _ _ _ _ ha k hk j]
        rfl
  | fpUpdate b dw g =>
    cases b with
    | false => exact absurd ho (by simp [NotPlain])
    | true =>
      simp only [VPar.step, if_true, Except.ok.injEq] at h
      subst h
      exact reduce_synced p _
  | set v g => simp only [VPar.step, Except.ok.injEq] at h; subst h; exact reduce_synced p _
  | setIndex i => simp only [VPar.step, Except.ok.injEq] at h; subst h; exact hs
  | setHidden c a b d g =>
    simp only [VPar.step, Except.ok.injEq] at h; subst h; exact reduce_synced p _
  | decay a nb g => simp only [VPar.step, Except.ok.injEq] at h; subst h; exact reduce_synced p _
  | diffuse g g2 => simp only [VPar.step, Except.ok.injEq] at h; subst h; exact reduce_synced p _
  | drift v g => simp only [VPar.step, Except.ok.injEq] at h; subst h; exact reduce_synced p _
  | clip c g => simp only [VPar.step, Except.ok.injEq] at h; subst h; exact reduce_synced p _
  | resetCols a n sel g g2 =>
    simp only [VPar.step, Except.ok.injEq] at h; subst h; exact reduce_synced p _

/-- **C65 (visible weight).**  After creation and after every history of updates of any pulse type
except `None`, decay, diffusion, drift, clipping, resets, weight writes, index changes and
hidden-parameter writes, every visible weight of a vector unit cell is the weighted sum of the
hidden weights of its devices. -/
theorem C65_visible_is_sum (F : Fns K) (p : VPar K) (dev : Nat → Dev K) (w0 : Nat → K)
    (g : Nat → Nat → K) (ops : List (VOp K)) (s' : VS K) (hops : ∀ o ∈ ops, NotPlain o)
    (h : p.run F (p.create dev w0 g) ops = .ok s') (k : Nat) :
    s'.vis k = weightedSum p.n p.gamma fun j => s'.hidden j k := by
  have key : ∀ (ops : List (VOp K)) (s : VS K), Synced p s → (∀ o ∈ ops, NotPlain o) →
      p.run F s ops = .ok s' → Synced p s' := by
    intro ops
    induction ops with
    | nil => intro s hs _ hr; simp only [VPar.run, Except.ok.injEq] at hr; subst hr; exact hs
    | cons o l ih =>
      intro s hs ho hr
      simp only [VPar.run] at hr
      cases hst : p.step F s o with
      | error e => rw [hst] at hr; simp at hr
      | ok s1 =>
        rw [hst] at hr
        exact ih s1 (step_synced F p s s1 o hs (ho o (List.mem_cons_self)) hst)
          (fun q hq => ho q (List.mem_cons_of_mem _ hq)) hr
  exact key ops _ (reduce_synced p _) hops h k

/-- **C65 (weighting).**  Without a `gamma_vec` the visible weight is the average of the devices;
with one it is weighted by it; a `gamma_vec` of another length than the number of devices is an
error. -/
theorem C65_gamma (n : Nat) (gv : List K) :
    (gv = [] → ∃ gam, mkGamma n gv = .ok gam ∧
      ∀ h : Nat → K, weightedSum n gam h = (∑ j ∈ Finset.range n, h j) / (n : K)) ∧
    (gv ≠ [] → gv.length = n → ∃ gam, mkGamma n gv = .ok gam ∧
      ∀ j (hj : j < gv.length), gam j = gv[j]) ∧
    (gv ≠ [] → gv.length ≠ n → mkGamma n gv = .error .runtimeError) := by
  refine ⟨?_, ?_, ?_⟩
  · intro h
    subst h
    refine ⟨_, rfl, ?_⟩
    intro h
    unfold weightedSum
    rw [← Finset.mul_sum]
    ring
  · intro h0 hl
    have h1 : ¬ gv.length = 0 := fun e => h0 (List.length_eq_zero_iff.1 e)
    refine ⟨fun k => gv.getD k 0, ?_, ?_⟩
    · unfold mkGamma
      rw [if_neg h1, if_neg (not_not.2 hl)]
    · intro j hj
      exact List.getD_eq_getElem _ _ hj
  · intro h0 hl
    have h1 : ¬ gv.length = 0 := fun e => h0 (List.length_eq_zero_iff.1 e)
    unfold mkGamma
    rw [if_neg h1, if_pos hl]

/-! ## Which device is updated -/

/-- The device chosen for the next update, from the documentation: the fixed one, the next one in
cyclic order, or a random one. -/
def ChosenDevice (pol : Policy) (n : Nat) (cur : Nat) (u : K) (j : Nat) : Prop :=
  match pol with
  | .all => True
  | .singleFixed => j = cur
  | .singleSequential => j = (cur + 1) % n
  | .singleRandom => (j : K) ≤ u * (n : K) ∧ u * (n : K) < (j : K) + 1

/-- **C65 (updated devices).**  An update gives the requested pulses to all devices (policy `ALL`) or
to exactly the one the policy names, and leaves the others unchanged. -/
theorem C65_update_targets (F : Fns K) (p : VPar K) (s s' : VS K) (cur : Nat) (hc : s.cur = (cur : ℤ))
    (dense : Bool) (l : List (VP K)) (u : K) (h : p.step F s (.update dense l u) = .ok s') (j : Nat) :
    (ChosenDevice p.policy p.n cur u j → s'.dev j = (s.dev j).pulses F (l.map fun q => ⟨q.k, q.down, q.g j, q.g2 j⟩)) ∧
    (¬ ChosenDevice p.policy p.n cur u j → s'.dev j = s.dev j) := by
  simp only [VPar.step] at h
  cases ha : p.applyPulses F s.dev (p.select s.cur u) l with
  | error e => rw [ha] at h; simp at h
  | ok dev =>
    rw [ha] at h
    simp only [Except.ok.injEq] at h
    subst h
    have hj := applyPulses_st F p s.dev dev _ l ha j
    have hiff : ChosenDevice p.policy p.n cur u j ↔
        (p.policy = .all ∨ (j : ℤ) = p.select s.cur u) := by
      unfold ChosenDevice VPar.select
      rw [hc]
      cases hp : p.policy with
      | all => simp
      | singleFixed => simp
      | singleSequential =>
        simp only [reduceCtorEq, false_or]
        rw [Int.tmod_eq_emod_of_nonneg (by positivity)]
        norm_cast
      | singleRandom =>
        simp only [reduceCtorEq, false_or]
        constructor
        · rintro ⟨h1, h2⟩
          symm
          rw [Int.floor_eq_iff]
          push_cast
          exact ⟨h1, h2⟩
        · intro h
          have := (Int.floor_eq_iff (a := u * (p.n : K)) (z := (j : ℤ))).1 h.symm
          push_cast at this
          exact this
    simp only
    rw [hj]
    constructor
    · intro hd; rw [if_pos (hiff.1 hd)]; rfl
    · intro hd; rw [if_neg (fun x => hd (hiff.2 x))]

/-- **C65 (no error).**  An update of a unit cell raises exactly when a single-device policy names no
existing device (in C++: undefined behaviour). -/
theorem C65_update_ok_iff (F : Fns K) (p : VPar K) (s : VS K) (dense : Bool) (l : List (VP K))
    (u : K) :
    (∃ s', p.step F s (.update dense l u) = .ok s') ↔
      (p.policy = .all ∨ (0 ≤ p.select s.cur u ∧ p.select s.cur u < (p.n : ℤ))) := by
  simp only [VPar.step]
  unfold VPar.applyPulses
  by_cases h1 : p.policy = .all
  · simp [h1]
  · by_cases h2 : 0 ≤ p.select s.cur u ∧ p.select s.cur u < (p.n : ℤ)
    · simp [h1, h2]
    · simp [h1, h2]

/-- The random and the sequential policy always name an existing device. -/
theorem C65_policies_in_range (p : VPar K) (hn : 0 < p.n) (cur : ℤ) (u : K) :
    (p.policy = .singleSequential → 0 ≤ cur →
      0 ≤ p.select cur u ∧ p.select cur u < (p.n : ℤ)) ∧
    (p.policy = .singleRandom → 0 ≤ u → u < 1 → 0 ≤ p.select cur u ∧ p.select cur u < (p.n : ℤ)) := by
  have hn' : (0 : ℤ) < (p.n : ℤ) := by exact_mod_cast hn
  constructor
  · intro hp hc
    unfold VPar.select
    rw [hp]
    simp only
    rw [Int.tmod_eq_emod_of_nonneg (by omega)]
    exact ⟨Int.emod_nonneg _ hn'.ne', Int.emod_lt_of_pos _ hn'⟩
  · intro hp h0 h1
    unfold VPar.select
    rw [hp]
    simp only
    have hK : (0 : K) < (p.n : K) := by exact_mod_cast hn
    constructor
    · exact Int.floor_nonneg.2 (mul_nonneg h0 hK.le)
    · rw [Int.floor_lt]
      push_cast
      nlinarith

/-! ## Sequential updates are fair -/

/-- An update operation of a training run. -/
structure VUpd (K : Type) where
  dense : Bool
  l : List (VP K)
  u : K

/-- As operation. -/
def VUpd.op (v : VUpd K) : VOp K := .update v.dense v.l v.u

/-- Under cyclic selection starting after device `c`, the `i`-th update (counted from 0) is for
device `(c + 1 + i) mod n`; the pulses device `j` should receive from a list of updates. -/
def turnShare (n j c : Nat) (us : List (VUpd K)) : List (P K) :=
  (us.zipIdx.filter fun x => decide ((c + 1 + x.2) % n = j)).flatMap fun x =>
    x.1.l.map fun q => ⟨q.k, q.down, q.g j, q.g2 j⟩

/-- Recursive form of `turnShare`. -/
def cyclicShare (n j : Nat) : Nat → List (VUpd K) → List (P K)
  | _, [] => []
  | c, v :: us =>
    (if (c + 1) % n = j then v.l.map (VP.at · j) else []) ++ cyclicShare n j ((c + 1) % n) us

theorem cyclicShare_eq (n j : Nat) (hn : 0 < n) (us : List (VUpd K)) : ∀ (c o : Nat),
    cyclicShare n j ((c + o) % n) us =
      ((us.zipIdx o).filter fun x => decide ((c + 1 + x.2) % n = j)).flatMap fun x =>
        x.1.l.map (VP.at · j) := by
  induction us with
  | nil => intro c o; rfl
  | cons v us ih =>
    intro c o
    have e : ((c + o) % n + 1) % n = (c + (o + 1)) % n := by rw [Nat.mod_add_mod]; congr 1
    have e2 : (c + 1 + o) % n = (c + (o + 1)) % n := by congr 1; omega
    rw [cyclicShare, e, ih c (o + 1), List.zipIdx_cons, List.filter_cons]
    by_cases h : (c + (o + 1)) % n = j
    · rw [if_pos h, if_pos (by simp only [decide_eq_true_eq]; rw [e2]; exact h), List.flatMap_cons]
    · rw [if_neg h, if_neg (by simp only [decide_eq_true_eq]; rw [e2]; exact h), List.nil_append]

theorem cyclicShare_turn (n j c : Nat) (hc : c < n) (us : List (VUpd K)) :
    cyclicShare n j c us = turnShare n j c us := by
  have := cyclicShare_eq n j (by omega) us c 0
  rw [Nat.add_zero, Nat.mod_eq_of_lt hc] at this
  exact this

theorem sequential_aux (F : Fns K) (p : VPar K) (hp : p.policy = .singleSequential) (hn : 0 < p.n)
    (us : List (VUpd K)) : ∀ (s : VS K) (c : Nat), s.cur = (c : ℤ) → c < p.n →
    ∃ s', p.run F s (us.map VUpd.op) = .ok s' ∧ s'.cur = (((c + us.length) % p.n : Nat) : ℤ) ∧
      s'.upd = s.upd + us.length ∧
      ∀ j < p.n, s'.dev j = (s.dev j).pulses F (cyclicShare p.n j c us) := by
  induction us with
  | nil =>
    intro s c hc hlt
    refine ⟨s, rfl, ?_, by simp, fun j _ => rfl⟩
    rw [hc]
    simp [Nat.mod_eq_of_lt hlt]
  | cons v us ih =>
    intro s c hc hlt
    have hsel : p.select s.cur v.u = (((c + 1) % p.n : Nat) : ℤ) := by
      unfold VPar.select
      rw [hp, hc]
      simp only
      rw [Int.tmod_eq_emod_of_nonneg (by positivity)]
      norm_cast
    have hlt' : (c + 1) % p.n < p.n := Nat.mod_lt _ hn
    obtain ⟨s1, hs1⟩ := (C65_update_ok_iff F p s v.dense v.l v.u).2 (Or.inr (by
      rw [hsel]; exact ⟨by positivity, by exact_mod_cast hlt'⟩))
    have hdev := C65_update_targets F p s s1 c hc v.dense v.l v.u hs1
    have hcur : s1.cur = (((c + 1) % p.n : Nat) : ℤ) ∧ s1.upd = s.upd + 1 := by
      simp only [VPar.step] at hs1
      cases ha : p.applyPulses F s.dev (p.select s.cur v.u) v.l with
      | error e => rw [ha] at hs1; simp at hs1
      | ok dev =>
        rw [ha] at hs1
        simp only [Except.ok.injEq] at hs1
        subst hs1
        exact ⟨hsel, rfl⟩
    obtain ⟨s', h1, h2, h3, h4⟩ := ih s1 _ hcur.1 hlt'
    refine ⟨s', ?_, ?_, ?_, ?_⟩
    · rw [List.map_cons, VPar.run]
      have : p.step F s v.op = .ok s1 := hs1
      rw [this]
      exact h1
    · rw [h2]
      congr 1
      rw [Nat.mod_add_mod, List.length_cons]
      congr 1
      omega
    · rw [h3, hcur.2, List.length_cons]; omega
    · intro j hj
      rw [h4 j hj, cyclicShare, pulses_append]
      by_cases hj2 : (c + 1) % p.n = j
      · rw [if_pos hj2]
        have := (hdev j).1 (by unfold ChosenDevice; rw [hp]; exact hj2.symm)
        rw [this]; rfl
      · rw [if_neg hj2, pulses_nil]
        have := (hdev j).2 (by unfold ChosenDevice; rw [hp]; exact fun e => hj2 e.symm)
        rw [this]

/-- **C65 (sequential policy).**  A run of any number of updates under `SINGLE_SEQUENTIAL` succeeds,
device `j` receives exactly the pulses of the updates that are its turn, and the turn moves by one
device per update; the first update after a weight write goes to the device *after*
`first_update_idx`. -/
theorem C65_sequential (F : Fns K) (p : VPar K) (hp : p.policy = .singleSequential)
    (us : List (VUpd K)) (s : VS K) (c : Nat) (hc : s.cur = (c : ℤ)) (hlt : c < p.n) :
    ∃ s', p.run F s (us.map VUpd.op) = .ok s' ∧ s'.cur = (((c + us.length) % p.n : Nat) : ℤ) ∧
      s'.upd = s.upd + us.length ∧
      ∀ j < p.n, s'.dev j = (s.dev j).pulses F (turnShare p.n j c us) := by
  obtain ⟨s', h1, h2, h3, h4⟩ := sequential_aux F p hp (by omega) us s c hc hlt
  refine ⟨s', h1, h2, h3, ?_⟩
  intro j hj
  rw [h4 j hj, cyclicShare_turn _ _ _ hlt]

/-- **C65 (sequential policy is fair).**  Of any `m * n` consecutive updates exactly `m` are the turn
of device `j`. -/
theorem C65_sequential_fair (n j c m : Nat) (hj : j < n) :
    ((List.range (m * n)).filter fun i => decide ((c + 1 + i) % n = j)).length = m := by
  have hn : 0 < n := by omega
  have one : ∀ a : Nat, ((List.range n).filter fun i => decide ((a + i) % n = j)).length = 1 := by
    intro a
    have : ((List.range n).filter fun i => decide ((a + i) % n = j)) =
        (List.range n).filter fun i => decide (i = (j + (n - a % n)) % n) := by
      apply List.filter_congr
      intro i hi
      have hi' : i < n := List.mem_range.1 hi
      have ha : a % n < n := Nat.mod_lt _ hn
      rw [decide_eq_decide, Nat.add_mod, Nat.mod_eq_of_lt hi']
      generalize a % n = b at ha
      constructor
      · intro h
        by_cases hb : b + i < n
        · rw [Nat.mod_eq_of_lt hb] at h
          have : j + (n - b) = i + n := by omega
          rw [this, Nat.add_mod_right, Nat.mod_eq_of_lt hi']
        · rw [Nat.mod_eq_sub_mod (by omega), Nat.mod_eq_of_lt (by omega)] at h
          have : j + (n - b) = i := by omega
          rw [this, Nat.mod_eq_of_lt hi']
      · intro h
        by_cases hb : j < b
        · rw [Nat.mod_eq_of_lt (by omega)] at h
          rw [Nat.mod_eq_sub_mod (by omega), Nat.mod_eq_of_lt (by omega)]
          omega
        · rw [Nat.mod_eq_sub_mod (by omega), Nat.mod_eq_of_lt (by omega)] at h
          rw [Nat.mod_eq_of_lt (by omega)]
          omega
    rw [this]
    have hlt : (j + (n - a % n)) % n < n := Nat.mod_lt _ hn
    generalize (j + (n - a % n)) % n = t at hlt
    have : ∀ (N : Nat), t < N → ((List.range N).filter fun i => decide (i = t)).length = 1 := by
      intro N
      induction N with
      | zero => intro h; omega
      | succ N ih =>
        intro h
        rw [List.range_succ, List.filter_append, List.length_append]
        by_cases hN : t = N
        · subst hN
          have : ((List.range t).filter fun i => decide (i = t)) = [] := by
            rw [List.filter_eq_nil_iff]
            intro x hx
            have := List.mem_range.1 hx
            simp only [decide_eq_true_eq]; omega
          rw [this]
          simp
        · rw [ih (by omega)]
          have : ¬ N = t := fun e => hN e.symm
          simp [this]
    exact this n hlt
  induction m with
  | zero => simp
  | succ m ih =>
    rw [Nat.succ_mul, List.range_add, List.filter_append, List.length_append, ih, List.filter_map,
      List.length_map]
    have := one (c + 1 + m * n)
    congr 1
    refine Eq.trans ?_ this
    congr 1
    apply List.filter_congr
    intro i _
    simp only [Function.comp]
    rw [Nat.add_assoc (c + 1)]

end Aihw.Pulsed

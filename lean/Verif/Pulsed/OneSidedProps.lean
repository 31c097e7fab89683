import Verif.Pulsed.OneSided
import Verif.Pulsed.VectorProps2

/-!
# C66: one-sided unit cells — difference, direction, writing, bounds
-/
namespace Aihw.Pulsed

variable {K : Type} [Field K] [LinearOrder K] [IsStrictOrderedRing K] [FloorRing K]

/-- Visible weight = `g+` minus `g-`. -/
def Paired (s : OS K) : Prop := ∀ k, s.vis k = (s.plus.st k).vis - (s.minus.st k).vis

theorem reduce_paired (s : OS K) : Paired s.reduce := fun _ => rfl

/-! ## Dense requests are sparse requests -/

theorem coincP_up (size : Nat) (c : Nat → ℤ) (g g2 : Nat → Nat → K) :
    coincPulses size (fun f => coincP (c f)) g g2 = upRequests (coincPulses size c g g2) := by
  unfold coincPulses upRequests
  rw [List.filter_flatMap, List.map_flatMap]
  congr 1
  funext f
  unfold coincP
  beta_reduce
  by_cases h : c f < 0
  · have h0 : ¬ 0 < c f := by omega
    rw [if_pos h, List.filter_eq_self.2]
    · rw [List.map_map]
      apply List.map_congr_left
      intro n _
      simp [h0]
    · intro q hq
      obtain ⟨n, -, rfl⟩ := List.mem_map.1 hq
      simp [h0]
  · rw [if_neg h]
    by_cases h0 : c f = 0
    · simp [h0]
    · have h1 : 0 < c f := by omega
      rw [List.filter_eq_nil_iff.2]
      · simp
      · intro q hq
        obtain ⟨n, -, rfl⟩ := List.mem_map.1 hq
        simp [h1]

theorem coincM_down (size : Nat) (c : Nat → ℤ) (g g2 : Nat → Nat → K) :
    coincPulses size (fun f => coincM (c f)) g g2 = downRequests (coincPulses size c g g2) := by
  unfold coincPulses downRequests
  rw [List.filter_flatMap, List.map_flatMap]
  congr 1
  funext f
  unfold coincM
  beta_reduce
  by_cases h : 0 < c f
  · have h0 : ¬ 0 < -c f := by omega
    rw [if_pos h, List.filter_eq_self.2]
    · rw [List.map_map, Int.natAbs_neg]
      apply List.map_congr_left
      intro n _
      simp [h.le]
    · intro q hq
      obtain ⟨n, -, rfl⟩ := List.mem_map.1 hq
      simp [h]
  · rw [if_neg h, List.filter_eq_nil_iff.2]
    · simp
    · intro q hq
      obtain ⟨n, -, rfl⟩ := List.mem_map.1 hq
      simp [h]

/-- The pulses an update asks for, as seen by `g+` and by `g-` (they differ only in the draws of the
noise). -/
def OReq.asked (q : OReq K) (size : Nat) (plus : Bool) : List (P K) :=
  match q with
  | .sparse l => l
  | .dense c gp gp2 gm gm2 => if plus then coincPulses size c gp gp2 else coincPulses size c gm gm2

theorem request_dev (F : Fns K) (p : OPar K) (s : OS K) (q : OReq K) :
    (p.request F s q).plus = s.plus.pulses F (upRequests (q.asked (p.xSize * p.dSize) true)) ∧
    (p.request F s q).minus = s.minus.pulses F (downRequests (q.asked (p.xSize * p.dSize) false)) ∧
    (p.request F s q).upd = s.upd ∧ (p.request F s q).refreshed = s.refreshed := by
  cases q with
  | sparse l => exact ⟨rfl, rfl, rfl, rfl⟩
  | dense c gp gp2 gm gm2 =>
    refine ⟨?_, ?_, rfl, rfl⟩
    · simp only [OPar.request, OS.reduce, OReq.asked, if_true]; rw [coincP_up]
    · simp only [OPar.request, OS.reduce, OReq.asked, Bool.false_eq_true, if_false]; rw [coincM_down]

theorem up_keys {l : List (P K)} {k : Nat} (h : k ∉ l.map (·.k)) :
    k ∉ (upRequests l).map (·.k) ∧ k ∉ (downRequests l).map (·.k) := by
  constructor
  · intro hm
    obtain ⟨q, hq, rfl⟩ := List.mem_map.1 hm
    obtain ⟨q', hq', rfl⟩ := List.mem_map.1 hq
    exact h (List.mem_map.2 ⟨q', List.mem_of_mem_filter hq', rfl⟩)
  · intro hm
    obtain ⟨q, hq, rfl⟩ := List.mem_map.1 hm
    obtain ⟨q', hq', rfl⟩ := List.mem_map.1 hq
    exact h (List.mem_map.2 ⟨q', List.mem_of_mem_filter hq', rfl⟩)

theorem request_paired (F : Fns K) (p : OPar K) (s : OS K) (hs : Paired s) (q : OReq K) :
    Paired (p.request F s q) := by
  cases q with
  | dense c gp gp2 gm gm2 => exact reduce_paired _
  | sparse l =>
    intro k
    simp only [OPar.request]
    by_cases hc : (l.map (·.k)).contains k = true
    · rw [if_pos hc]
    · rw [if_neg hc]
      have hk : k ∉ l.map (·.k) := fun hm => hc (List.contains_iff_mem.2 hm)
      rw [pulses_st_untouched F _ _ k (up_keys hk).1, pulses_st_untouched F _ _ k (up_keys hk).2]
      exact hs k

/-! ## The refresh and the pairing -/

theorem hits_split (p : OPar K) (r : RDraw K) (col : Nat) :
    (p.indices r col).length = p.countP r + p.countM r := by
  unfold OPar.indices OPar.countP OPar.countM
  rw [List.length_map]
  generalize List.range p.dSize = l
  induction l with
  | nil => rfl
  | cons i l ih =>
    rw [List.filter_cons, List.filter_cons, List.filter_cons]
    by_cases h : p.hit r i = true <;> by_cases h2 : r.readM i < r.readP i <;>
      simp [h, h2, ih] <;> omega

theorem refreshCol_mono (F : Fns K) (p : OPar K) (s s' : OS K) (col : Nat) (r : RDraw K)
    (h : p.refreshCol F s col r = .ok s') :
    s.refreshed ≤ s'.refreshed ∧ s'.upd = s.upd ∧ s'.vis = s.vis ∧
      (s'.refreshed = s.refreshed → s' = s) := by
  unfold OPar.refreshCol at h
  by_cases hp : persistent s.plus.kd s.plus.par = true ∨ persistent s.minus.kd s.minus.par = true
  · rw [if_pos hp] at h; simp at h
  rw [if_neg hp] at h
  simp only [Except.ok.injEq] at h
  subst h
  refine ⟨by simp only; omega, rfl, rfl, ?_⟩
  intro he
  simp only at he
  have h1 : p.countP r = 0 := by omega
  have h2 : p.countM r = 0 := by omega
  have h3 : p.indices r col = [] := by
    rw [← List.length_eq_zero_iff, hits_split, h1, h2]
  simp [h1, h2, h3, Dev.resetAt]

theorem refreshCols_mono (F : Fns K) (p : OPar K) (dr : Nat → RDraw K) (l : List Nat) :
    ∀ s s' : OS K, p.refreshCols F dr l s = .ok s' →
    s.refreshed ≤ s'.refreshed ∧ s'.upd = s.upd ∧ s'.vis = s.vis ∧
      (s'.refreshed = s.refreshed → s' = s) := by
  induction l with
  | nil =>
    intro s s' h
    simp only [OPar.refreshCols, Except.ok.injEq] at h
    subst h
    exact ⟨le_refl _, rfl, rfl, fun _ => rfl⟩
  | cons c l ih =>
    intro s s' h
    simp only [OPar.refreshCols] at h
    cases h1 : p.refreshCol F s c (dr c) with
    | error e => rw [h1] at h; simp at h
    | ok s1 =>
      rw [h1] at h
      obtain ⟨a1, a2, a3, a4⟩ := refreshCol_mono F p s s1 c (dr c) h1
      obtain ⟨b1, b2, b3, b4⟩ := ih s1 s' h
      refine ⟨a1.trans b1, by rw [b2, a2], by rw [b3, a3], ?_⟩
      intro he
      have e1 : s1 = s := a4 (by omega)
      have e2 : s' = s1 := b4 (by omega)
      rw [e2, e1]

theorem finish_paired (F : Fns K) (p : OPar K) (s s' : OS K) (hs : Paired s) (mB : Nat)
    (dr : Nat → RDraw K) (h : p.finish F s mB dr = .ok s') : Paired s' := by
  unfold OPar.finish at h
  simp only at h
  split_ifs at h with h1 h2 h3
  · simp only [Except.ok.injEq] at h; subst h; exact hs
  · cases hr : p.refresh F { s with upd := s.upd + 1 } dr with
    | error e => rw [hr] at h; simp at h
    | ok s1 =>
      rw [hr] at h
      simp only [Except.ok.injEq] at h
      subst h
      obtain ⟨a1, a2, a3, a4⟩ := refreshCols_mono F p dr _ _ s1 hr
      split_ifs with hlt
      · exact reduce_paired _
      · have e : s1 = { s with upd := s.upd + 1 } := a4 (by simp only at a1 ⊢; omega)
        rw [e]; exact hs
  · simp only [Except.ok.injEq] at h; subst h; exact hs

theorem step_paired (F : Fns K) (p : OPar K) (s s' : OS K) (hs : Paired s) (o : OOp K)
    (h : p.step F s o = .ok s') : Paired s' := by
  cases o with
  | update q mB dr => exact finish_paired F p _ s' (request_paired F p s hs q) mB dr h
  | set v gp gm => simp only [OPar.step, Except.ok.injEq] at h; subst h; exact reduce_paired _
  | each op om =>
    simp only [OPar.step] at h
    cases h1 : s.plus.step F op with
    | error e => rw [h1] at h; simp at h
    | ok dp =>
      cases h2 : s.minus.step F om with
      | error e => rw [h1, h2] at h; simp at h
      | ok dm =>
        rw [h1, h2] at h
        simp only [Except.ok.injEq] at h
        subst h; exact reduce_paired _

/-- **C66 (difference).**  From any state in which it holds (every state after `set_weights` is one),
the visible weight of a one-sided unit cell is `g+ - g-` at every cell after every history of
updates (with and without refresh), weight writes and common operations of both devices. -/
theorem C66_visible_is_difference (F : Fns K) (p : OPar K) (ops : List (OOp K)) :
    ∀ s s' : OS K, (∀ k, s.vis k = (s.plus.st k).vis - (s.minus.st k).vis) →
    p.run F s ops = .ok s' → ∀ k, s'.vis k = (s'.plus.st k).vis - (s'.minus.st k).vis := by
  induction ops with
  | nil => intro s s' hs h; simp only [OPar.run, Except.ok.injEq] at h; subst h; exact hs
  | cons o l ih =>
    intro s s' hs h
    simp only [OPar.run] at h
    cases h1 : p.step F s o with
    | error e => rw [h1] at h; simp at h
    | ok s1 =>
      rw [h1] at h
      exact ih s1 s' (step_paired F p s s1 hs o h1) h

/-- **C66 (writing).**  `set_weights` stores positive values in `g+` and negative ones, with flipped
sign, in `g-` (each limited to its bounds), the other side becomes zero (limited); values within both
ranges are read back exactly; the update and refresh counters restart. -/
theorem C66_set (F : Fns K) (p : OPar K) (s s' : OS K) (v gp gm : Nat → K)
    (h : p.step F s (.set v gp gm) = .ok s') (k : Nat)
    (hq : QuietSet s.plus ∧ QuietSet s.minus)
    (hP : (s.plus.cell k).minB ≤ (s.plus.cell k).maxB)
    (hM : (s.minus.cell k).minB ≤ (s.minus.cell k).maxB) :
    s'.vis k = limited s.plus k (max (v k) 0) - limited s.minus k (max (-v k) 0) ∧
    ((s.plus.cell k).minB ≤ 0 → (s.minus.cell k).minB ≤ 0 → 0 ≤ (s.plus.cell k).maxB →
      0 ≤ (s.minus.cell k).maxB → v k ≤ (s.plus.cell k).maxB → -v k ≤ (s.minus.cell k).maxB →
      s'.vis k = v k) ∧
    s'.upd = 0 ∧ s'.refreshed = 0 := by
  simp only [OPar.step, Except.ok.injEq] at h
  subst h
  have e1 : (if 0 < v k then v k else 0) = max (v k) 0 := by
    split_ifs with h
    · rw [max_eq_left h.le]
    · rw [max_eq_right (not_lt.1 h)]
  have e2 : (if v k < 0 then -v k else 0) = max (-v k) 0 := by
    split_ifs with h
    · rw [max_eq_left (by linarith)]
    · rw [max_eq_right (by linarith [not_lt.1 h])]
  have main : ∀ x : OS K, x = OS.reduce { s with
      plus := s.plus.mapSt fun k c =>
        onSet s.plus.kd s.plus.par (s.plus.cell k) c (if 0 < v k then v k else 0) (gp k)
      minus := s.minus.mapSt fun k c =>
        onSet s.minus.kd s.minus.par (s.minus.cell k) c (if v k < 0 then -v k else 0) (gm k)
      upd := 0
      refreshed := 0 } →
      x.vis k = limited s.plus k (max (v k) 0) - limited s.minus k (max (-v k) 0) := by
    rintro x rfl
    simp only [OS.reduce, Dev.mapSt]
    rw [onSet_vis hq.1, onSet_vis hq.2, clipMM_limited _ _ _ hP, clipMM_limited _ _ _ hM, e1, e2]
  refine ⟨main _ rfl, ?_, rfl, rfl⟩
  intro a1 a2 a3 a4 a5 a6
  rw [main _ rfl]
  have l1 : limited s.plus k (max (v k) 0) = max (v k) 0 := by
    unfold limited
    rw [if_neg (not_lt.2 (a1.trans (le_max_right _ _))), if_neg (not_lt.2 (max_le a5 a3))]
  have l2 : limited s.minus k (max (-v k) 0) = max (-v k) 0 := by
    unfold limited
    rw [if_neg (not_lt.2 (a2.trans (le_max_right _ _))), if_neg (not_lt.2 (max_le a6 a4))]
  rw [l1, l2]
  rcases le_total 0 (v k) with h | h
  · rw [max_eq_left h, max_eq_right (by linarith)]; ring
  · rw [max_eq_right h, max_eq_left (by linarith)]; ring

/-! ## Direction -/

/-- All pulses of the list at cell `k` have a non-negative noise factor. -/
def NoiseOk (p : Par K) (l : List (P K)) (k : Nat) : Prop :=
  ∀ q ∈ l, q.k = k → 0 ≤ 1 + p.dwMinStd * q.g

theorem up_pulses_mono (F : Fns K) (l : List (P K)) (k : Nat) (hup : ∀ q ∈ l, q.down = false) :
    ∀ d : Dev K, Directed d.kd → NodesOk d.kd → SubOk d k → 0 ≤ (d.cell k).up → 0 ≤ (d.cell k).down →
    NoiseOk d.par l k → d.weight k ≤ (d.pulses F l).weight k := by
  induction l with
  | nil => intro d _ _ _ _ _ _; exact le_refl _
  | cons q l ih =>
    intro d hd hn hs hu hdn hg
    rw [pulses_cons]
    have hs1 : SubOk (d.pulse1 F q) k := subOk_pulses F hs [q]
    have h1 : d.weight k ≤ (d.pulse1 F q).weight k := by
      rw [weight_eq, weight_eq]
      simp only [Dev.pulse1]
      by_cases hk : k = q.k
      · rw [if_pos hk, stored_pulse F hs.2.1.1 hs.2.1.2]
        have hw := hs.2.2.2
        unfold Within at hw
        rw [weight_eq] at hw
        cases hst : stepW F d.kd d.par (d.cell k) (stored d.kd d.par (d.st k)) q.down q.g with
        | none => exact le_refl _
        | some w =>
          exact (C46_direction F d.kd d.par (d.cell k) _ q.g w q.down hd hn hw.1 hw.2 hu hdn
            (hg q (List.mem_cons_self) hk.symm) hst).2 (hup q (List.mem_cons_self))
      · rw [if_neg hk]
    refine h1.trans ?_
    exact ih (fun q' hq' => hup q' (List.mem_cons_of_mem _ hq')) (d.pulse1 F q) hd hn hs1 hu hdn
      (fun q' hq' => hg q' (List.mem_cons_of_mem _ hq'))

theorem requests_up (l : List (P K)) :
    (∀ q ∈ upRequests l, q.down = false) ∧ (∀ q ∈ downRequests l, q.down = false) := by
  constructor
  · intro q hq; obtain ⟨q', -, rfl⟩ := List.mem_map.1 hq; rfl
  · intro q hq; obtain ⟨q', -, rfl⟩ := List.mem_map.1 hq; rfl

theorem requests_noise {p : Par K} {l : List (P K)} {k : Nat} (h : NoiseOk p l k) :
    NoiseOk p (upRequests l) k ∧ NoiseOk p (downRequests l) k := by
  constructor
  · intro q hq hk
    obtain ⟨q', hq', rfl⟩ := List.mem_map.1 hq
    exact h q' (List.mem_of_mem_filter hq') hk
  · intro q hq hk
    obtain ⟨q', hq', rfl⟩ := List.mem_map.1 hq
    exact h q' (List.mem_of_mem_filter hq') hk

/-- **C66 (only one direction).**  The pulses of an update never decrease the stored weight of either
device (for device classes whose up pulses do not decrease the weight): `g+` receives the up pulses
asked for, `g-` receives the down pulses asked for as up pulses.  If no down pulse is asked for at a
cell, `g-` is unchanged there, and the other way round. -/
theorem C66_one_directional (F : Fns K) (p : OPar K) (s : OS K) (q : OReq K) (k : Nat)
    (hp : Directed s.plus.kd ∧ NodesOk s.plus.kd ∧ SubOk s.plus k ∧ 0 ≤ (s.plus.cell k).up ∧
      0 ≤ (s.plus.cell k).down ∧ NoiseOk s.plus.par (q.asked (p.xSize * p.dSize) true) k)
    (hm : Directed s.minus.kd ∧ NodesOk s.minus.kd ∧ SubOk s.minus k ∧ 0 ≤ (s.minus.cell k).up ∧
      0 ≤ (s.minus.cell k).down ∧ NoiseOk s.minus.par (q.asked (p.xSize * p.dSize) false) k) :
    s.plus.weight k ≤ (p.request F s q).plus.weight k ∧
    s.minus.weight k ≤ (p.request F s q).minus.weight k ∧
    ((∀ r ∈ q.asked (p.xSize * p.dSize) false, r.k = k → r.down = false) →
      (p.request F s q).minus.st k = s.minus.st k) ∧
    ((∀ r ∈ q.asked (p.xSize * p.dSize) true, r.k = k → r.down = true) →
      (p.request F s q).plus.st k = s.plus.st k) := by
  obtain ⟨e1, e2, -, -⟩ := request_dev F p s q
  refine ⟨?_, ?_, ?_, ?_⟩
  · rw [e1]
    exact up_pulses_mono F _ k (requests_up _).1 s.plus hp.1 hp.2.1 hp.2.2.1 hp.2.2.2.1 hp.2.2.2.2.1
      (requests_noise hp.2.2.2.2.2).1
  · rw [e2]
    exact up_pulses_mono F _ k (requests_up _).2 s.minus hm.1 hm.2.1 hm.2.2.1 hm.2.2.2.1
      hm.2.2.2.2.1 (requests_noise hm.2.2.2.2.2).2
  · intro h
    rw [e2]
    apply pulses_st_untouched
    intro hmem
    obtain ⟨r, hr, hk⟩ := List.mem_map.1 hmem
    obtain ⟨r', hr', rfl⟩ := List.mem_map.1 hr
    have h1 := h r' (List.mem_of_mem_filter hr') hk
    have h2 := (List.mem_filter.1 hr').2
    rw [h1] at h2
    exact absurd h2 (by simp)
  · intro h
    rw [e1]
    apply pulses_st_untouched
    intro hmem
    obtain ⟨r, hr, hk⟩ := List.mem_map.1 hmem
    obtain ⟨r', hr', rfl⟩ := List.mem_map.1 hr
    have h1 := h r' (List.mem_of_mem_filter hr') hk
    have h2 := (List.mem_filter.1 hr').2
    rw [h1] at h2
    exact absurd h2 (by simp)

/-- **C66 (count).**  At every cell, `g+` receives exactly as many (up) pulses as up pulses were asked
for and `g-` exactly as many (up) pulses as down pulses were asked for, with the draws of those
pulses, in order. -/
theorem C66_pulse_counts (F : Fns K) (p : OPar K) (s : OS K) (q : OReq K) (k : Nat) :
    (p.request F s q).plus.st k =
      ((q.asked (p.xSize * p.dSize) true).filter fun r => decide (r.k = k) && !r.down).foldl
        (fun c r => pulse F s.plus.kd s.plus.par (s.plus.cell k) c false r.g r.g2) (s.plus.st k) ∧
    (p.request F s q).minus.st k =
      ((q.asked (p.xSize * p.dSize) false).filter fun r => decide (r.k = k) && r.down).foldl
        (fun c r => pulse F s.minus.kd s.minus.par (s.minus.cell k) c false r.g r.g2)
        (s.minus.st k) := by
  obtain ⟨e1, e2, -, -⟩ := request_dev F p s q
  constructor
  · rw [e1, pulses_st]
    unfold upRequests
    rw [List.filter_map, List.foldl_map, List.filter_filter]
    rfl
  · rw [e2, pulses_st]
    unfold downRequests
    rw [List.filter_map, List.foldl_map, List.filter_filter]
    rfl

end Aihw.Pulsed

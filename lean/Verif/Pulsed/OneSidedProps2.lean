import Verif.Pulsed.OneSidedProps
import Mathlib.Data.List.Nodup

/-!
# C66: one-sided unit cells — refresh, bounds, `copy_inverted`
-/
namespace Aihw.Pulsed

variable {K : Type} [Field K] [LinearOrder K] [IsStrictOrderedRing K] [FloorRing K]

/-! ## `resetAt` cell by cell -/

theorem resetAt_notMem (l : List Nat) (g : Nat → K) (k : Nat) (hk : k ∉ l) :
    ∀ (d : Dev K) (n : Nat), (d.resetAt l g n).st k = d.st k := by
  induction l with
  | nil => intro d n; rfl
  | cons i l ih =>
    intro d n
    unfold Dev.resetAt
    rw [ih (fun h => hk (List.mem_cons_of_mem _ h))]
    have : ¬ k = i := fun e => hk (by rw [e]; exact List.mem_cons_self)
    simp only [Dev.reset1, this, if_false]

theorem resetAt_mem (l : List Nat) (g : Nat → K) (k : Nat) (hk : k ∈ l) :
    ∀ (d : Dev K) (n : Nat), ∃ z : K,
      (d.resetAt l g n).st k = ⟨resetCell d.par (d.cell k) z, (d.st k).per⟩ := by
  induction l with
  | nil => exact absurd hk (by simp)
  | cons i l ih =>
    intro d n
    unfold Dev.resetAt
    by_cases hl : k ∈ l
    · obtain ⟨z, hz⟩ := ih hl (d.reset1 i (g n)) (n + 1)
      refine ⟨z, ?_⟩
      rw [hz]
      simp only [Dev.reset1]
      split_ifs <;> rfl
    · have hki : k = i := by
        rcases List.mem_cons.1 hk with h | h
        · exact h
        · exact absurd h hl
      refine ⟨g n, ?_⟩
      rw [resetAt_notMem l g k hl]
      simp only [Dev.reset1, hki, if_true]

theorem indices_mem (p : OPar K) (r : RDraw K) (col i j : Nat) (hi : i < p.dSize) (hj : j < p.xSize)
    (hc : col < p.xSize) :
    i * p.xSize + j ∈ p.indices r col ↔ (j = col ∧ p.hit r i = true) := by
  unfold OPar.indices
  rw [List.mem_map]
  constructor
  · rintro ⟨i', h1, h2⟩
    have h1' := List.mem_filter.1 h1
    have hx : 0 < p.xSize := by omega
    have hd : i' = i := by
      have a := congrArg (· / p.xSize) h2
      beta_reduce at a
      rwa [Nat.add_comm, Nat.add_mul_div_right _ _ hx, Nat.div_eq_of_lt hc, Nat.zero_add,
        Nat.add_comm, Nat.add_mul_div_right _ _ hx, Nat.div_eq_of_lt hj, Nat.zero_add] at a
    subst hd
    exact ⟨by omega, h1'.2⟩
  · rintro ⟨rfl, h⟩
    exact ⟨i, List.mem_filter.2 ⟨List.mem_range.2 hi, h⟩, rfl⟩

/-! ## Pulses of the refresh write -/

/-- Draws of the refresh write are uniform numbers. -/
def RUp.Ok (r : RUp K) : Prop :=
  match r with
  | .sparse _ _ tx td => UnitDraws tx ∧ UnitDraws td
  | .dense _ _ ux ud => (∀ j, 0 ≤ ux j ∧ ux j < 1) ∧ ∀ i, 0 ≤ ud i ∧ ud i < 1

/-- Number of pulses that the refresh write of column `j` sends to cell `(i, j)`. -/
def RUp.count (r : RUp K) (X D i j : Nat) (d : Nat → K) (pd : PulseDraw K) : Nat :=
  ((r.pulses X D j d pd).filter fun q => decide (q.k = i * X + j)).length

theorem rup_zero (r : RUp K) (hr : r.Ok) (X D col : Nat) (d : Nat → K) (pd : PulseDraw K) (i j : Nat)
    (hi : i < D) (hj : j < X) (h : j ≠ col ∨ d i = 0) :
    ((r.pulses X D col d pd).filter fun q => decide (q.k = i * X + j)) = [] := by
  have hx : j ≠ col → (fun j => if j = col then (1 : K) else 0) j = 0 := fun h => by simp [h]
  cases r with
  | sparse ty tr tx td =>
    simp only [RUp.pulses]
    rw [C45_cell_pulses ty tr X D (-1) (Or.inr rfl) _ d tx td hr.1 hr.2 pd i j hi hj]
    have : hits tr (fun j => if j = col then (1 : K) else 0) d tx td i j = [] := by
      unfold hits
      rw [List.filter_eq_nil_iff]
      intro k _
      simp only [decide_eq_true_eq]
      rintro ⟨h1, h2⟩
      rcases h with h | h
      · exact not_fires_zero hr.1 (hx h) h2
      · exact not_fires_zero hr.2 h h1
    rw [this]; rfl
  | dense ty q ux ud =>
    simp only [RUp.pulses]
    rw [C45_dense_sign_lost ty q X D _ d ux ud hr.1 hr.2 pd,
      C45_dense_cell ty q X D false _ d ux ud pd i j hi hj]
    have hz := (C45_dense_counts ty q (fun j => if j = col then (1 : K) else 0) d ux ud hr.1 hr.2
      i j).2.2.2 (by
        rcases h with h | h
        · rw [if_neg h, zero_mul]
        · rw [h, mul_zero])
    rw [hz]; rfl

/-- Directions of the refresh write: the stochastic pulse types write upwards, the deterministic ones
downwards. -/
theorem rup_dir (r : RUp K) (hr : r.Ok) (X D col : Nat) (d : Nat → K) (pd : PulseDraw K) (i : Nat)
    (hi : i < D) (hc : col < X) (h0 : 0 < d i) :
    ∀ q ∈ (r.pulses X D col d pd).filter (fun q => decide (q.k = i * X + col)),
      q.down = (match r with | .sparse _ _ _ _ => false | .dense _ _ _ _ => true) := by
  cases r with
  | sparse ty tr tx td =>
    simp only [RUp.pulses]
    rw [C45_cell_pulses ty tr X D (-1) (Or.inr rfl) _ d tx td hr.1 hr.2 pd i col hi hc]
    intro q hq
    obtain ⟨k, -, rfl⟩ := List.mem_map.1 hq
    simp only [if_true, one_mul]
    rw [decide_eq_false_iff_not]
    push_cast
    linarith
  | dense ty q ux ud =>
    simp only [RUp.pulses]
    rw [C45_dense_sign_lost ty q X D _ d ux ud hr.1 hr.2 pd,
      C45_dense_cell ty q X D false _ d ux ud pd i col hi hc]
    have hs := (C45_dense_counts ty q (fun j => if j = col then (1 : K) else 0) d ux ud hr.1 hr.2
      i col).2.1 (by simpa using h0)
    intro p hp
    obtain ⟨n, hn, rfl⟩ := List.mem_map.1 hp
    have hn' := List.mem_range.1 hn
    simp only [decide_eq_true_eq]
    generalize coinc ty q false (fun j => if j = col then (1 : K) else 0) d ux ud i col = z at *
    omega

/-! ## One column and the whole refresh, cell by cell -/

/-- What a refresh does to a cell of one device: nothing unless the cell is refreshed; a refreshed
cell is reset (with some noise draw `z`) and then receives the write pulses `l`. -/
def RefreshedTo (F : Fns K) (d d' : Dev K) (k : Nat) (hit : Bool) (l : List (P K)) : Prop :=
  ∃ z : K, d'.st k = (l.filter fun q => decide (q.k = k)).foldl
    (fun s q => pulse F d.kd d.par (d.cell k) s q.down q.g q.g2)
    (if hit then ⟨resetCell d.par (d.cell k) z, (d.st k).per⟩ else d.st k)

theorem refreshed_dev (F : Fns K) (p : OPar K) (r : RDraw K) (u : RUp K) (hu : u.Ok)
    (pd : PulseDraw K) (v : Nat → K) (cnt : Nat) (d : Dev K) (rs : Nat → K) (col i j : Nat)
    (hi : i < p.dSize) (hj : j < p.xSize) (hc : col < p.xSize)
    (hcnt : cnt = 0 → ∀ i < p.dSize, v i = 0) (d' : Dev K)
    (hd' : d' = if 0 < cnt then (d.resetAt (p.indices r col) rs 0).pulses F
        (u.pulses p.xSize p.dSize col v pd) else d.resetAt (p.indices r col) rs 0) :
    d'.kd = d.kd ∧ d'.par = d.par ∧ d'.cell = d.cell ∧
    (j ≠ col → d'.st (i * p.xSize + j) = d.st (i * p.xSize + j)) ∧
    (j = col → RefreshedTo F d d' (i * p.xSize + j) (p.hit r i)
      (u.pulses p.xSize p.dSize col v pd)) := by
  obtain ⟨f1, f2, f3⟩ := resetAt_frame d (p.indices r col) rs 0
  have hpul : d'.st (i * p.xSize + j) =
      ((u.pulses p.xSize p.dSize col v pd).filter fun q => decide (q.k = i * p.xSize + j)).foldl
        (fun s q => pulse F d.kd d.par (d.cell (i * p.xSize + j)) s q.down q.g q.g2)
        ((d.resetAt (p.indices r col) rs 0).st (i * p.xSize + j)) := by
    rw [hd']
    by_cases h0 : 0 < cnt
    · rw [if_pos h0, pulses_st, f1, f2, f3]
    · rw [if_neg h0, rup_zero u hu _ _ _ _ _ _ _ hi hj (Or.inr (hcnt (by omega) i hi))]
      rfl
  refine ⟨?_, ?_, ?_, ?_, ?_⟩
  · rw [hd']; split_ifs <;> simp [f1]
  · rw [hd']; split_ifs <;> simp [f2]
  · rw [hd']; split_ifs <;> simp [f3]
  · intro hne
    rw [hpul, rup_zero u hu _ _ _ _ _ _ _ hi hj (Or.inl hne),
      resetAt_notMem _ _ _ (fun h => hne ((indices_mem p r col i j hi hj hc).1 h).1)]
    rfl
  · intro he
    unfold RefreshedTo
    by_cases hh : p.hit r i = true
    · obtain ⟨z, hz⟩ := resetAt_mem (p.indices r col) rs (i * p.xSize + j)
        ((indices_mem p r col i j hi hj hc).2 ⟨he, hh⟩) d 0
      refine ⟨z, ?_⟩
      rw [hpul, hz, if_pos hh]
    · refine ⟨0, ?_⟩
      rw [hpul, resetAt_notMem _ _ _ (fun h => hh ((indices_mem p r col i j hi hj hc).1 h).2),
        if_neg hh]

theorem countP_zero (p : OPar K) (r : RDraw K) (h : p.countP r = 0) : ∀ i < p.dSize, p.vecP r i = 0 := by
  intro i hi
  unfold OPar.countP at h
  rw [List.length_eq_zero_iff, List.filter_eq_nil_iff] at h
  have := h i (List.mem_range.2 hi)
  unfold OPar.vecP
  by_cases h1 : p.hit r i = true <;> by_cases h2 : r.readM i < r.readP i <;> simp_all

theorem countM_zero (p : OPar K) (r : RDraw K) (h : p.countM r = 0) : ∀ i < p.dSize, p.vecM r i = 0 := by
  intro i hi
  unfold OPar.countM at h
  rw [List.length_eq_zero_iff, List.filter_eq_nil_iff] at h
  have := h i (List.mem_range.2 hi)
  unfold OPar.vecM
  by_cases h1 : p.hit r i = true <;> by_cases h2 : r.readM i < r.readP i <;> simp_all

/-- The draws of a refresh are uniform numbers. -/
def RDraw.Ok (r : RDraw K) : Prop := r.upP.Ok ∧ r.upM.Ok

theorem refreshCol_cell (F : Fns K) (p : OPar K) (s s' : OS K) (col : Nat) (r : RDraw K) (hr : r.Ok)
    (h : p.refreshCol F s col r = .ok s') (i j : Nat) (hi : i < p.dSize) (hj : j < p.xSize)
    (hc : col < p.xSize) :
    (s'.plus.kd = s.plus.kd ∧ s'.plus.par = s.plus.par ∧ s'.plus.cell = s.plus.cell) ∧
    (s'.minus.kd = s.minus.kd ∧ s'.minus.par = s.minus.par ∧ s'.minus.cell = s.minus.cell) ∧
    (j ≠ col → s'.plus.st (i * p.xSize + j) = s.plus.st (i * p.xSize + j) ∧
      s'.minus.st (i * p.xSize + j) = s.minus.st (i * p.xSize + j)) ∧
    (j = col →
      RefreshedTo F s.plus s'.plus (i * p.xSize + j) (p.hit r i)
        (r.upP.pulses p.xSize p.dSize col (p.vecP r) r.pdP) ∧
      RefreshedTo F s.minus s'.minus (i * p.xSize + j) (p.hit r i)
        (r.upM.pulses p.xSize p.dSize col (p.vecM r) r.pdM)) := by
  unfold OPar.refreshCol at h
  by_cases hp : persistent s.plus.kd s.plus.par = true ∨ persistent s.minus.kd s.minus.par = true
  · rw [if_pos hp] at h; simp at h
  rw [if_neg hp] at h
  simp only [Except.ok.injEq] at h
  subst h
  obtain ⟨a1, a2, a3, a4, a5⟩ := refreshed_dev F p r r.upP hr.1 r.pdP (p.vecP r) (p.countP r) s.plus
    r.resetP col i j hi hj hc (countP_zero p r) _ rfl
  obtain ⟨b1, b2, b3, b4, b5⟩ := refreshed_dev F p r r.upM hr.2 r.pdM (p.vecM r) (p.countM r) s.minus
    r.resetM col i j hi hj hc (countM_zero p r) _ rfl
  exact ⟨⟨a1, a2, a3⟩, ⟨b1, b2, b3⟩, fun hne => ⟨a4 hne, b4 hne⟩, fun he => ⟨a5 he, b5 he⟩⟩

theorem refreshed_congr (F : Fns K) {d e d' e' : Dev K} {k : Nat} {hit : Bool} {l : List (P K)}
    (h1 : e.kd = d.kd) (h2 : e.par = d.par) (h3 : e.cell = d.cell) (h4 : e.st k = d.st k)
    (h5 : e'.st k = d'.st k) (h : RefreshedTo F e d' k hit l) : RefreshedTo F d e' k hit l := by
  obtain ⟨z, hz⟩ := h
  refine ⟨z, ?_⟩
  rw [h5, hz, h1, h2, h3, h4]

theorem refreshCols_cell (F : Fns K) (p : OPar K) (dr : Nat → RDraw K) (hr : ∀ c, (dr c).Ok)
    (i j : Nat) (hi : i < p.dSize) (hj : j < p.xSize) (l : List Nat) :
    l.Nodup → (∀ c ∈ l, c < p.xSize) → ∀ s s' : OS K, p.refreshCols F dr l s = .ok s' →
    (s'.plus.kd = s.plus.kd ∧ s'.plus.par = s.plus.par ∧ s'.plus.cell = s.plus.cell) ∧
    (s'.minus.kd = s.minus.kd ∧ s'.minus.par = s.minus.par ∧ s'.minus.cell = s.minus.cell) ∧
    (j ∉ l → s'.plus.st (i * p.xSize + j) = s.plus.st (i * p.xSize + j) ∧
      s'.minus.st (i * p.xSize + j) = s.minus.st (i * p.xSize + j)) ∧
    (j ∈ l →
      RefreshedTo F s.plus s'.plus (i * p.xSize + j) (p.hit (dr j) i)
        ((dr j).upP.pulses p.xSize p.dSize j (p.vecP (dr j)) (dr j).pdP) ∧
      RefreshedTo F s.minus s'.minus (i * p.xSize + j) (p.hit (dr j) i)
        ((dr j).upM.pulses p.xSize p.dSize j (p.vecM (dr j)) (dr j).pdM)) := by
  induction l with
  | nil =>
    intro _ _ s s' h
    simp only [OPar.refreshCols, Except.ok.injEq] at h
    subst h
    exact ⟨⟨rfl, rfl, rfl⟩, ⟨rfl, rfl, rfl⟩, fun _ => ⟨rfl, rfl⟩, fun h => absurd h (by simp)⟩
  | cons c l ih =>
    intro hnd hlt s s' h
    have hnd' := List.nodup_cons.1 hnd
    simp only [OPar.refreshCols] at h
    cases h1 : p.refreshCol F s c (dr c) with
    | error e => rw [h1] at h; simp at h
    | ok s1 =>
      rw [h1] at h
      obtain ⟨⟨a1, a2, a3⟩, ⟨b1, b2, b3⟩, c1, c2⟩ := refreshCol_cell F p s s1 c (dr c) (hr c) h1 i j
        hi hj (hlt c List.mem_cons_self)
      obtain ⟨⟨d1, d2, d3⟩, ⟨e1, e2, e3⟩, f1, f2⟩ := ih hnd'.2
        (fun x hx => hlt x (List.mem_cons_of_mem _ hx)) s1 s' h
      refine ⟨⟨d1.trans a1, d2.trans a2, d3.trans a3⟩, ⟨e1.trans b1, e2.trans b2, e3.trans b3⟩,
        ?_, ?_⟩
      · intro hm
        have hjc : j ≠ c := fun e => hm (by rw [e]; exact List.mem_cons_self)
        have hjl : j ∉ l := fun e => hm (List.mem_cons_of_mem _ e)
        exact ⟨(f1 hjl).1.trans (c1 hjc).1, (f1 hjl).2.trans (c1 hjc).2⟩
      · intro hm
        by_cases hjc : j = c
        · subst hjc
          obtain ⟨q1, q2⟩ := c2 rfl
          exact ⟨refreshed_congr F rfl rfl rfl rfl (f1 hnd'.1).1 q1,
            refreshed_congr F rfl rfl rfl rfl (f1 hnd'.1).2 q2⟩
        · have hjl : j ∈ l := (List.mem_cons.1 hm).resolve_left hjc
          obtain ⟨q1, q2⟩ := f2 hjl
          exact ⟨refreshed_congr F a1 a2 a3 (c1 hjc).1 rfl q1,
            refreshed_congr F b1 b2 b3 (c1 hjc).2 rfl q2⟩

/-! ## Properties -/

/-- The documented refresh criterion: the larger of the two read-out conductances, relative to its
nominal maximum, exceeds the upper threshold and the smaller one the lower threshold. -/
def NeedsRefresh (p : OPar K) (wp wm : K) : Prop :=
  (wm < wp ∧ p.upper < wp / |p.wMaxP| ∧ p.lower < wm / |p.wMaxM|) ∨
  (wp ≤ wm ∧ p.lower < wp / |p.wMaxP| ∧ p.upper < wm / |p.wMaxM|)

theorem hit_iff (p : OPar K) (r : RDraw K) (i : Nat) :
    p.hit r i = true ↔ NeedsRefresh p (r.readP i) (r.readM i) := by
  unfold OPar.hit OPar.criterion NeedsRefresh
  by_cases h : r.readM i < r.readP i
  · simp [h, not_le.2 h]
  · simp [h, not_lt.1 h]

/-- **C66 (refresh).**  A refresh changes exactly the cells whose read-out meets the criterion: such a
cell is reset on both sides and the difference of the two read-outs is then written by pulses to the
larger side only; every other cell is unchanged on both sides. -/
theorem C66_refresh_cell (F : Fns K) (p : OPar K) (s s' : OS K) (dr : Nat → RDraw K)
    (hr : ∀ c, (dr c).Ok) (h : p.refresh F s dr = .ok s') (i j : Nat) (hi : i < p.dSize)
    (hj : j < p.xSize) :
    (¬ NeedsRefresh p ((dr j).readP i) ((dr j).readM i) →
      s'.plus.st (i * p.xSize + j) = s.plus.st (i * p.xSize + j) ∧
      s'.minus.st (i * p.xSize + j) = s.minus.st (i * p.xSize + j)) ∧
    (NeedsRefresh p ((dr j).readP i) ((dr j).readM i) → (dr j).readM i < (dr j).readP i →
      (∃ d : Nat → K, d i = (dr j).readP i - (dr j).readM i ∧
        RefreshedTo F s.plus s'.plus (i * p.xSize + j) true
          ((dr j).upP.pulses p.xSize p.dSize j d (dr j).pdP)) ∧
      ∃ z, s'.minus.st (i * p.xSize + j) =
        ⟨resetCell s.minus.par (s.minus.cell (i * p.xSize + j)) z,
          (s.minus.st (i * p.xSize + j)).per⟩) ∧
    (NeedsRefresh p ((dr j).readP i) ((dr j).readM i) → (dr j).readP i ≤ (dr j).readM i →
      (∃ z, s'.plus.st (i * p.xSize + j) =
        ⟨resetCell s.plus.par (s.plus.cell (i * p.xSize + j)) z,
          (s.plus.st (i * p.xSize + j)).per⟩) ∧
      ∃ d : Nat → K, d i = (dr j).readM i - (dr j).readP i ∧
        RefreshedTo F s.minus s'.minus (i * p.xSize + j) true
          ((dr j).upM.pulses p.xSize p.dSize j d (dr j).pdM)) := by
  obtain ⟨-, -, -, h4⟩ := refreshCols_cell F p dr hr i j hi hj (List.range p.xSize) List.nodup_range
    (fun c hc => List.mem_range.1 hc) s s' h
  obtain ⟨hP, hM⟩ := h4 (List.mem_range.2 hj)
  have hzero : ∀ (u : RUp K) (d : Nat → K) (pd : PulseDraw K), u.Ok → d i = 0 →
      ((u.pulses p.xSize p.dSize j d pd).filter fun q => decide (q.k = i * p.xSize + j)) = [] :=
    fun u d pd hu hd => rup_zero u hu _ _ _ _ _ _ _ hi hj (Or.inr hd)
  refine ⟨?_, ?_, ?_⟩
  · intro hn
    have hh : ¬ p.hit (dr j) i = true := fun e => hn ((hit_iff p _ _).1 e)
    constructor
    · obtain ⟨z, hz⟩ := hP
      rw [hz, hzero _ _ _ (hr j).1 (by unfold OPar.vecP; simp [hh]), if_neg hh]; rfl
    · obtain ⟨z, hz⟩ := hM
      rw [hz, hzero _ _ _ (hr j).2 (by unfold OPar.vecM; simp [hh]), if_neg hh]; rfl
  · intro hn hlt
    have hh : p.hit (dr j) i = true := (hit_iff p _ _).2 hn
    rw [hh] at hP hM
    refine ⟨⟨p.vecP (dr j), ?_, hP⟩, ?_⟩
    · unfold OPar.vecP; rw [if_pos hh, if_pos hlt]
    · obtain ⟨z, hz⟩ := hM
      refine ⟨z, ?_⟩
      rw [hz, hzero _ _ _ (hr j).2 (by unfold OPar.vecM; rw [if_pos hh, if_pos hlt])]; rfl
  · intro hn hle
    have hh : p.hit (dr j) i = true := (hit_iff p _ _).2 hn
    rw [hh] at hP hM
    refine ⟨?_, ⟨p.vecM (dr j), ?_, hM⟩⟩
    · obtain ⟨z, hz⟩ := hP
      refine ⟨z, ?_⟩
      rw [hz, hzero _ _ _ (hr j).1 (by unfold OPar.vecP; rw [if_pos hh, if_neg (not_lt.2 hle)])]; rfl
    · unfold OPar.vecM; rw [if_pos hh, if_neg (not_lt.2 hle)]

/-- The pulse type of a refresh write is a stochastic one. -/
def RUp.isSparse : RUp K → Bool
  | .sparse _ _ _ _ => true
  | .dense _ _ _ _ => false

/-- **C66 (refresh write direction; finding).**  With the stochastic pulse types all pulses of the
refresh write at a refreshed cell are up pulses, as intended; with the deterministic pulse types they
are all down pulses (the sign of the learning rate `-1` is lost), so the refresh pushes the reset
cell below its reset value instead of restoring the weight. -/
theorem C66_refresh_direction (r : RUp K) (hr : r.Ok) (X D i j : Nat) (d : Nat → K)
    (pd : PulseDraw K) (hi : i < D) (hj : j < X) (h0 : 0 < d i) (q : P K)
    (hq : q ∈ r.pulses X D j d pd) (hk : q.k = i * X + j) : q.down = !r.isSparse := by
  have := rup_dir r hr X D j d pd i hi hj h0 q (List.mem_filter.2 ⟨hq, by simpa using hk⟩)
  rw [this]
  cases r <;> rfl

/-- Applying `n` identical noise-free up pulses of a constant-step device without write noise. -/
theorem const_up (F : Fns K) (p : Par K) (c : Cell K) (l : List (P K)) (hu : 0 ≤ c.up)
    (hstd : p.dwMinStd ≤ 0) (hdir : ∀ q ∈ l, q.down = false) :
    ∀ s : CS K, c.minB ≤ s.vis → s.vis + (l.length : K) * c.up ≤ c.maxB →
    (l.foldl (fun s q => pulse F .constant p c s q.down q.g q.g2) s).vis =
      s.vis + (l.length : K) * c.up := by
  induction l with
  | nil => intro s _ _; simp
  | cons q l ih =>
    intro s h1 h2
    rw [List.length_cons, Nat.cast_add, Nat.cast_one] at h2
    have hl : (0 : K) ≤ (l.length : K) * c.up := mul_nonneg (Nat.cast_nonneg _) hu
    have hp1 : (pulse F .constant p c s q.down q.g q.g2).vis = s.vis + c.up := by
      have hd := hdir q List.mem_cons_self
      rw [hd]
      unfold pulse
      simp only [implementsWriteNoise, Bool.and_false, Bool.false_eq_true, if_false, stepW,
        not_lt.2 hstd, one_mul, Bool.false_and]
      exact clipMM_of_mem (by linarith) (by linarith)
    rw [List.foldl_cons, ih (fun q' hq' => hdir q' (List.mem_cons_of_mem _ hq')) _
      (by rw [hp1]; linarith) (by rw [hp1]; linarith), hp1, List.length_cons]
    push_cast
    ring

/-- **C66 (refresh preserves the weight).**  For constant-step devices without noise, with exact
read-out, resets to zero and stochastic write pulses: if the number of write pulses times the step
size makes up the difference, the refresh leaves the visible weight `g+ - g-` of the cell exactly as
it was, and one of the two sides is zero afterwards. -/
theorem C66_refresh_preserves (F : Fns K) (p : OPar K) (s s' : OS K) (dr : Nat → RDraw K)
    (hr : ∀ c, (dr c).Ok) (h : p.refresh F s dr = .ok s') (i j : Nat) (hi : i < p.dSize)
    (hj : j < p.xSize)
    (hread : (dr j).readP i = (s.plus.st (i * p.xSize + j)).vis ∧
      (dr j).readM i = (s.minus.st (i * p.xSize + j)).vis)
    (hlt : (dr j).readM i < (dr j).readP i)
    (hn : NeedsRefresh p ((dr j).readP i) ((dr j).readM i))
    (hkd : s.plus.kd = .constant) (hstd : s.plus.par.dwMinStd ≤ 0)
    (hreset : (∀ z, resetCell s.plus.par (s.plus.cell (i * p.xSize + j)) z = 0) ∧
      ∀ z, resetCell s.minus.par (s.minus.cell (i * p.xSize + j)) z = 0)
    (hs : (dr j).upP.isSparse = true) (hup : 0 ≤ (s.plus.cell (i * p.xSize + j)).up)
    (hmin : (s.plus.cell (i * p.xSize + j)).minB ≤ 0)
    (hmax : (dr j).readP i - (dr j).readM i ≤ (s.plus.cell (i * p.xSize + j)).maxB)
    (hcount : ∀ d : Nat → K, d i = (dr j).readP i - (dr j).readM i →
      ((dr j).upP.count p.xSize p.dSize i j d (dr j).pdP : K) *
        (s.plus.cell (i * p.xSize + j)).up = (dr j).readP i - (dr j).readM i) :
    (s'.plus.st (i * p.xSize + j)).vis - (s'.minus.st (i * p.xSize + j)).vis =
      (s.plus.st (i * p.xSize + j)).vis - (s.minus.st (i * p.xSize + j)).vis ∧
    (s'.minus.st (i * p.xSize + j)).vis = 0 := by
  obtain ⟨⟨d, hd, z, hz⟩, z2, hz2⟩ := (C66_refresh_cell F p s s' dr hr h i j hi hj).2.1 hn hlt
  have hm : (s'.minus.st (i * p.xSize + j)).vis = 0 := by rw [hz2]; exact hreset.2 z2
  refine ⟨?_, hm⟩
  rw [hm, hz, hkd]
  have hc := hcount d hd
  unfold RUp.count at hc
  simp only [if_true]
  have hup' := const_up F s.plus.par (s.plus.cell (i * p.xSize + j))
    (((dr j).upP.pulses p.xSize p.dSize j d (dr j).pdP).filter
      fun q => decide (q.k = i * p.xSize + j)) hup hstd
    (by
      intro q hq
      obtain ⟨hq1, hq2⟩ := List.mem_filter.1 hq
      have := C66_refresh_direction (dr j).upP (hr j).1 p.xSize p.dSize i j d (dr j).pdP hi hj
        (by rw [hd]; linarith) q hq1 (by simpa using hq2)
      rw [this, hs]; rfl)
    ⟨resetCell s.plus.par (s.plus.cell (i * p.xSize + j)) z, (s.plus.st (i * p.xSize + j)).per⟩
    (by simp only [hreset.1 z]; exact hmin)
    (by simp only [hreset.1 z]; rw [hc]; linarith)
  rw [hup', hc]
  simp only [hreset.1 z]
  rw [hread.1, hread.2]
  ring

/-- **C66 (refresh schedule).**  An update performs a refresh exactly when refreshing is on and the
number of updates since the last weight write is a multiple of `refresh_every` (times the batch size
if `units_in_mbatch`); otherwise it only applies its pulses and counts. -/
theorem C66_refresh_schedule (F : Fns K) (p : OPar K) (s : OS K) (q : OReq K) (mB : Nat)
    (dr : Nat → RDraw K) (hB : 0 < mB) :
    (¬ (p.every ≠ 0 ∧ (s.upd + 1) % (p.every * (if p.unitsInMbatch then mB else 1)) = 0) →
      p.step F s (.update q mB dr) =
        .ok { p.request F s q with upd := s.upd + 1 }) ∧
    ((p.every ≠ 0 ∧ (s.upd + 1) % (p.every * (if p.unitsInMbatch then mB else 1)) = 0) →
      ∀ s', p.step F s (.update q mB dr) = .ok s' →
        ∃ s1, p.refresh F { p.request F s q with upd := s.upd + 1 } dr = .ok s1 ∧
          s'.plus = s1.plus ∧ s'.minus = s1.minus ∧ s'.upd = s.upd + 1) := by
  obtain ⟨-, -, eu, er⟩ := request_dev F p s q
  have hper : p.period mB = p.every * (if p.unitsInMbatch then mB else 1) := by
    unfold OPar.period; split_ifs <;> simp
  have hpos : p.every ≠ 0 → p.period mB ≠ 0 := by
    intro h0
    rw [hper]
    split_ifs
    · exact Nat.mul_ne_zero h0 hB.ne'
    · simpa using h0
  simp only [OPar.step, OPar.finish, eu]
  rw [← hper]
  constructor
  · intro hno
    by_cases h0 : p.every = 0
    · rw [if_pos h0]
    · rw [if_neg h0, if_neg (hpos h0), if_neg (fun e => hno ⟨h0, e⟩)]
  · rintro ⟨h0, hmod⟩ s' h
    rw [if_neg h0, if_neg (hpos h0), if_pos hmod] at h
    cases hr : p.refresh F { p.request F s q with upd := s.upd + 1 } dr with
    | error e => rw [hr] at h; simp at h
    | ok s1 =>
      rw [hr] at h
      simp only [Except.ok.injEq] at h
      subst h
      obtain ⟨-, a2, -, -⟩ := refreshCols_mono F p dr _ _ s1 hr
      refine ⟨s1, rfl, ?_⟩
      split_ifs <;> exact ⟨rfl, rfl, a2⟩

/-- **C66 (finding: refresh and write noise).**  If one of the two devices has write noise, the update
at which the first refresh is due raises, even when no cell needs a refresh. -/
theorem C66_refresh_raises (F : Fns K) (p : OPar K) (s : OS K) (q : OReq K) (mB : Nat)
    (dr : Nat → RDraw K) (hB : 0 < mB) (hx : 0 < p.xSize) (h0 : p.every ≠ 0)
    (hdue : (s.upd + 1) % (p.every * (if p.unitsInMbatch then mB else 1)) = 0)
    (hn : persistent s.plus.kd s.plus.par = true ∨ persistent s.minus.kd s.minus.par = true) :
    p.step F s (.update q mB dr) = .error .runtimeError := by
  obtain ⟨e1, e2, eu, er⟩ := request_dev F p s q
  have hper : p.period mB = p.every * (if p.unitsInMbatch then mB else 1) := by
    unfold OPar.period; split_ifs <;> simp
  have hpos : p.period mB ≠ 0 := by
    rw [hper]
    split_ifs
    · exact Nat.mul_ne_zero h0 hB.ne'
    · simpa using h0
  simp only [OPar.step, OPar.finish, eu]
  rw [if_neg h0, if_neg hpos, hper, if_pos hdue]
  unfold OPar.refresh
  obtain ⟨n, hn'⟩ := Nat.exists_eq_succ_of_ne_zero hx.ne'
  rw [hn', List.range_succ_eq_map]
  simp only [OPar.refreshCols, OPar.refreshCol]
  rw [if_pos (by rw [e1, e2]; simpa using hn)]

/-! ## Bounds and `copy_inverted` -/

/-- Side conditions of an operation for cell `k`. -/
def OOpOk (s : OS K) (k : Nat) : OOp K → Prop
  | .each op om => op.shared = true ∧ om.shared = true ∧ OpOk s.plus k op ∧ OpOk s.minus k om
  | _ => True

/-- All operations of a history satisfy their side conditions. -/
def OHistOk (F : Fns K) (p : OPar K) (k : Nat) : OS K → List (OOp K) → Prop
  | _, [] => True
  | s, o :: l => OOpOk s k o ∧ ∀ s', p.step F s o = .ok s' → OHistOk F p k s' l

theorem subOk_resetAt {d : Dev K} {k : Nat} (h : SubOk d k) (hp : persistent d.kd d.par = false)
    (l : List Nat) (g : Nat → K) : SubOk (d.resetAt l g 0) k := by
  obtain ⟨f1, f2, f3⟩ := resetAt_frame d l g 0
  refine ⟨by rw [f1]; exact h.1, ?_, by rw [f3]; exact h.2.2.1,
    within_resetAt hp h.2.2.1 h.2.2.2 l g 0⟩
  unfold Valid; rw [f1, f2]; exact h.2.1

theorem subOk_refreshCols (F : Fns K) (p : OPar K) (dr : Nat → RDraw K) (k : Nat) (l : List Nat) :
    ∀ s s' : OS K, SubOk s.plus k → SubOk s.minus k → p.refreshCols F dr l s = .ok s' →
    (SubOk s'.plus k ∧ s'.plus.cell = s.plus.cell) ∧
      SubOk s'.minus k ∧ s'.minus.cell = s.minus.cell := by
  induction l with
  | nil =>
    intro s s' h1 h2 h
    simp only [OPar.refreshCols, Except.ok.injEq] at h; subst h
    exact ⟨⟨h1, rfl⟩, h2, rfl⟩
  | cons c l ih =>
    intro s s' h1 h2 h
    simp only [OPar.refreshCols] at h
    cases hs : p.refreshCol F s c (dr c) with
    | error e => rw [hs] at h; simp at h
    | ok s1 =>
      rw [hs] at h
      have hone : (SubOk s1.plus k ∧ s1.plus.cell = s.plus.cell) ∧
          SubOk s1.minus k ∧ s1.minus.cell = s.minus.cell := by
        unfold OPar.refreshCol at hs
        by_cases hp : persistent s.plus.kd s.plus.par = true ∨
            persistent s.minus.kd s.minus.par = true
        · rw [if_pos hp] at hs; simp at hs
        rw [if_neg hp] at hs
        simp only [Except.ok.injEq] at hs
        subst hs
        push Not at hp
        have n1 : persistent s.plus.kd s.plus.par = false := by simpa using hp.1
        have n2 : persistent s.minus.kd s.minus.par = false := by simpa using hp.2
        have r1 := subOk_resetAt h1 n1 (p.indices (dr c) c) (dr c).resetP
        have r2 := subOk_resetAt h2 n2 (p.indices (dr c) c) (dr c).resetM
        have c1 := (resetAt_frame s.plus (p.indices (dr c) c) (dr c).resetP 0).2.2
        have c2 := (resetAt_frame s.minus (p.indices (dr c) c) (dr c).resetM 0).2.2
        refine ⟨⟨?_, ?_⟩, ?_, ?_⟩
        · simp only; split_ifs
          · exact subOk_pulses F r1 _
          · exact r1
        · simp only; split_ifs <;> simp [c1]
        · simp only; split_ifs
          · exact subOk_pulses F r2 _
          · exact r2
        · simp only; split_ifs <;> simp [c2]
      obtain ⟨⟨q1, q2⟩, q3, q4⟩ := ih s1 s' hone.1.1 hone.2.1 h
      exact ⟨⟨q1, q2.trans hone.1.2⟩, q3, q4.trans hone.2.2⟩

theorem shared_cell (F : Fns K) {d d' : Dev K} (o : Op K) (h : o.shared = true)
    (hs : d.step F o = .ok d') : d'.cell = d.cell := by
  cases o <;> simp only [Op.shared, Bool.false_eq_true] at h <;>
    (simp only [Dev.step, Except.ok.injEq] at hs; subst hs; rfl)

theorem subOk_ostep (F : Fns K) (p : OPar K) (k : Nat) (s s' : OS K) (o : OOp K)
    (h1 : SubOk s.plus k) (h2 : SubOk s.minus k) (ho : OOpOk s k o) (h : p.step F s o = .ok s') :
    (SubOk s'.plus k ∧ s'.plus.cell = s.plus.cell) ∧
      SubOk s'.minus k ∧ s'.minus.cell = s.minus.cell := by
  cases o with
  | update q mB dr =>
    obtain ⟨e1, e2, eu, er⟩ := request_dev F p s q
    have r1 : SubOk (p.request F s q).plus k := by rw [e1]; exact subOk_pulses F h1 _
    have r2 : SubOk (p.request F s q).minus k := by rw [e2]; exact subOk_pulses F h2 _
    have c1 : (p.request F s q).plus.cell = s.plus.cell := by rw [e1]; simp
    have c2 : (p.request F s q).minus.cell = s.minus.cell := by rw [e2]; simp
    simp only [OPar.step, OPar.finish] at h
    split_ifs at h with g1 g2 g3
    · simp only [Except.ok.injEq] at h; subst h; exact ⟨⟨r1, c1⟩, r2, c2⟩
    · cases hr : p.refresh F { p.request F s q with upd := (p.request F s q).upd + 1 } dr with
      | error e => rw [hr] at h; simp at h
      | ok s1 =>
        rw [hr] at h
        simp only [Except.ok.injEq] at h
        subst h
        obtain ⟨⟨q1, q2⟩, q3, q4⟩ := subOk_refreshCols F p dr k _
          { p.request F s q with upd := (p.request F s q).upd + 1 } s1 r1 r2 hr
        split_ifs <;> exact ⟨⟨q1, q2.trans c1⟩, q3, q4.trans c2⟩
    · simp only [Except.ok.injEq] at h; subst h; exact ⟨⟨r1, c1⟩, r2, c2⟩
  | set v gp gm =>
    simp only [OPar.step, Except.ok.injEq] at h; subst h
    exact ⟨⟨subOk_onSet h1.1 h1.2.1 h1.2.2.1 (fun i => if 0 < v i then v i else 0) gp s.plus.st, rfl⟩,
      subOk_onSet h2.1 h2.2.1 h2.2.2.1 (fun i => if v i < 0 then -v i else 0) gm s.minus.st, rfl⟩
  | each op om =>
    simp only [OPar.step] at h
    cases g1 : s.plus.step F op with
    | error e => rw [g1] at h; simp at h
    | ok dp =>
      cases g2 : s.minus.step F om with
      | error e => rw [g1, g2] at h; simp at h
      | ok dm =>
        rw [g1, g2] at h
        simp only [Except.ok.injEq] at h
        subst h
        obtain ⟨f1, f2, f3⟩ := step_frame F h1.2.1 op g1
        obtain ⟨f4, f5, f6⟩ := step_frame F h2.2.1 om g2
        exact ⟨⟨⟨by simp only [OS.reduce]; rw [f1]; exact h1.1, f3,
              step_bounds F op h1.2.2.1 ho.2.2.1 g1,
              step_within F op h1.1 h1.2.1 h1.2.2.1 ho.2.2.1 h1.2.2.2 g1⟩,
            shared_cell F op ho.1 g1⟩,
          ⟨by simp only [OS.reduce]; rw [f4]; exact h2.1, f6,
              step_bounds F om h2.2.2.1 ho.2.2.2 g2,
              step_within F om h2.1 h2.2.1 h2.2.2.1 ho.2.2.2 h2.2.2.2 g2⟩,
          shared_cell F om ho.2.1 g2⟩

theorem subOk_orun (F : Fns K) (p : OPar K) (k : Nat) (ops : List (OOp K)) :
    ∀ s s' : OS K, SubOk s.plus k → SubOk s.minus k → OHistOk F p k s ops →
    p.run F s ops = .ok s' →
    (SubOk s'.plus k ∧ s'.plus.cell = s.plus.cell) ∧
      SubOk s'.minus k ∧ s'.minus.cell = s.minus.cell := by
  induction ops with
  | nil =>
    intro s s' h1 h2 _ h
    simp only [OPar.run, Except.ok.injEq] at h; subst h
    exact ⟨⟨h1, rfl⟩, h2, rfl⟩
  | cons o l ih =>
    intro s s' h1 h2 ho h
    simp only [OPar.run] at h
    cases hs : p.step F s o with
    | error e => rw [hs] at h; simp at h
    | ok s1 =>
      rw [hs] at h
      obtain ⟨⟨a1, a2⟩, a3, a4⟩ := subOk_ostep F p k s s1 o h1 h2 ho.1 hs
      obtain ⟨⟨b1, b2⟩, b3, b4⟩ := ih s1 s' a1 a3 (ho.2 s1 hs) h
      exact ⟨⟨b1, b2.trans a2⟩, b3, b4.trans a4⟩

/-- **C66 (bounds).**  After every history both devices are within their own bounds (which do not
change). -/
theorem C66_bounds (F : Fns K) (p : OPar K) (k : Nat) (ops : List (OOp K)) (s s' : OS K)
    (h1 : SubOk s.plus k) (h2 : SubOk s.minus k) (ho : OHistOk F p k s ops)
    (h : p.run F s ops = .ok s') :
    ((s.plus.cell k).minB ≤ s'.plus.weight k ∧ s'.plus.weight k ≤ (s.plus.cell k).maxB) ∧
    (s.minus.cell k).minB ≤ s'.minus.weight k ∧ s'.minus.weight k ≤ (s.minus.cell k).maxB := by
  obtain ⟨⟨a1, a2⟩, a3, a4⟩ := subOk_orun F p k ops s s' h1 h2 ho h
  have w1 := a1.2.2.2
  have w2 := a3.2.2.2
  unfold Within at w1 w2
  rw [a2] at w1
  rw [a4] at w2
  exact ⟨w1, w2⟩

/-- **C66 (finding: `copy_inverted`).**  With `copy_inverted` the bounds of `g+` are mirrored.  For
devices whose lower bound is zero (the usual one-sided device) `g+` can then never exceed zero: after
every history (including `set_weights` with positive values) the visible weight is at most zero. -/
theorem C66_copy_inverted (F : Fns K) (p : OPar K) (k : Nat) (ops : List (OOp K)) (s s' : OS K)
    (cell : Nat → Cell K) (hcell : s.plus.cell = populatePlus true cell)
    (h0 : (cell k).minB = 0) (hm0 : (s.minus.cell k).minB = 0)
    (h1 : SubOk s.plus k) (h2 : SubOk s.minus k) (hs : ∀ k, s.vis k =
      (s.plus.st k).vis - (s.minus.st k).vis) (ho : OHistOk F p k s ops)
    (h : p.run F s ops = .ok s') (hn : persistent s'.plus.kd s'.plus.par = false ∧
      persistent s'.minus.kd s'.minus.par = false) : s'.vis k ≤ 0 := by
  obtain ⟨⟨-, b1⟩, b2, -⟩ := C66_bounds F p k ops s s' h1 h2 ho h
  rw [C66_visible_is_difference F p ops s s' hs h k]
  rw [hcell] at b1
  simp only [populatePlus, if_true, invertCell, h0, neg_zero] at b1
  rw [hm0] at b2
  rw [weight_eq, stored_persistent] at b1 b2
  simp only [hn.1, hn.2, Bool.false_eq_true, if_false] at b1 b2
  linarith

/-- **C66 (`copy_inverted` mirrors the device).**  For constant-step devices an up pulse of the
inverted cell at `-w` does exactly the opposite of a down pulse of the original cell at `w`, and
conversely (same noise number). -/
theorem C66_copy_inverted_mirror (F : Fns K) (p : Par K) (cell : Nat → Cell K) (k : Nat)
    (hb : (cell k).minB ≤ (cell k).maxB) (w : K) (down : Bool) (g : K) :
    stepW F .constant p (populatePlus true cell k) (-w) (!down) g =
      (stepW F .constant p (cell k) w down g).map fun v => -v := by
  simp only [populatePlus, if_true, invertCell, stepW, Option.map_some, Option.some.injEq, clipMM]
  generalize (if 0 < p.dwMinStd then 1 + p.dwMinStd * g else 1) = f
  have key : ∀ x : K, max (min (-x) (-(cell k).minB)) (-(cell k).maxB) =
      -max (min x (cell k).maxB) (cell k).minB := by
    intro x
    rcases le_total x (cell k).minB with h1 | h1
    · rw [min_eq_right (neg_le_neg h1), max_eq_left (neg_le_neg hb), min_eq_left (h1.trans hb), max_eq_right h1]
    · rw [min_eq_left (neg_le_neg h1)]
      rcases le_total x (cell k).maxB with h2 | h2
      · rw [max_eq_left (neg_le_neg h2), min_eq_left h2, max_eq_left h1]
      · rw [max_eq_right (neg_le_neg h2), min_eq_right h2, max_eq_left hb]
  rw [← key]
  cases down <;> simp only [Bool.not_true, Bool.not_false, if_true, Bool.false_eq_true, if_false] <;>
    congr 2 <;> ring

end Aihw.Pulsed

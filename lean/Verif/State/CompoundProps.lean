import Verif.State.Compound

/-!
# C76: what a reload restores of compound devices — theorems
-/
namespace Aihw.State
open Aihw.Pulsed

variable {K : Type} [Field K] [LinearOrder K] [IsStrictOrderedRing K] [FloorRing K]

/-! ## Specification -/

/-- A value limited to the bounds of a cell. -/
def inBounds (c : Cell K) (v : K) : K := max (min v c.maxB) c.minB

/-- The sub devices of the new tile have the classes and parameters of the saved ones and no write
noise. -/
def SameDevs (a b : Nat → Dev K) : Prop :=
  ∀ j, (b j).kd = (a j).kd ∧ (b j).par = (a j).par ∧ persistent (a j).kd (a j).par = false

/-! ## Lemmas -/

theorem persistent_dw (kd : Kind K) (p : Par K) (x : K) :
    persistent kd { p with dwMin := x } = persistent kd p := by
  cases kd <;> rfl

theorem setHid_vis (F : Fns K) (d : Dev K) (cell : Nat → Cell K) (per hid : Nat → K) (dtod : K)
    (g : Nat → K) (h : persistent d.kd d.par = false) (k : Nat) :
    ((d.setHid F cell per hid dtod g).st k).vis = inBounds (cell k) (hid k) ∧
    (d.setHid F cell per hid dtod g).cell = cell ∧
    (d.setHid F cell per hid dtod g).kd = d.kd ∧
    persistent (d.setHid F cell per hid dtod g).kd (d.setHid F cell per hid dtod g).par = false := by
  refine ⟨?_, rfl, rfl, ?_⟩
  · simp only [Dev.setHid, Dev.exec, Dev.step, Dev.mapSt]
    rw [onSet_off _ _ (by rw [persistent_dw]; exact h)]
    rfl
  · simp only [Dev.setHid, Dev.exec, Dev.step, Dev.mapSt]
    rw [persistent_dw]; exact h

/-! ## Vector unit cell -/

/-- **C76 (vector unit cell: what a reload restores).**  After a reload the visible weights, the
learning rate, the selected device, the update counter and all device parameters are the saved ones.
The weights of a sub device are *not*: every device that `set_weights` writes to — all of them, except
under the fixed policy, where it is only the device selected in the freshly built tile — gets the saved
**visible** weight, limited to its bounds; only the other devices get their own saved weight. -/
theorem C76_vector_restored (F : Fns K) (p : VPar K) (mk : Cfg → Nat → Nat → Nat → VS K)
    (dtod : Nat → K) (G : Nat → Nat → Nat → K) (nm : VS K → List String) {A : Type}
    (src : Tile (VTile K) A) (b t : VTile K) (seed : Nat) (hs : SameDevs src.sim.s.dev b.s.dev)
    (h : restoreSim (vecOps F p mk dtod G nm) (getAnalogState (vecOps F p mk dtod G nm) src) seed b
      = .ok t) :
    t.s.vis = src.sim.s.vis ∧ t.lr = src.sim.lr ∧ t.s.cur = src.sim.s.cur ∧
    t.s.upd = src.sim.s.upd ∧ (∀ j : Nat, (t.s.dev j).cell = (src.sim.s.dev j).cell) ∧
    (∀ j k : Nat, p.policy ≠ .singleFixed ∨ b.s.cur < 0 ∨ (j : ℤ) = b.s.cur →
      ((t.s.dev j).st k).vis = inBounds ((src.sim.s.dev j).cell k) (src.sim.s.vis k)) ∧
    (∀ j k : Nat, p.policy = .singleFixed → 0 ≤ b.s.cur → (j : ℤ) ≠ b.s.cur →
      ((t.s.dev j).st k).vis =
        inBounds ((src.sim.s.dev j).cell k) ((((src.sim.s.dev j).st k).vis))) := by
  have : t = _ := (Except.ok.inj h).symm
  subst this
  refine ⟨rfl, rfl, rfl, rfl, fun j => rfl, fun j k hj => ?_, fun j k h1 h2 h3 => ?_⟩
  · have hoff : persistent (b.s.dev j).kd (b.s.dev j).par = false := by
      rw [(hs j).1, (hs j).2.1]; exact (hs j).2.2
    have hset : p.setsDev b.s.cur j = true := by
      unfold VPar.setsDev
      by_cases hp : p.policy = .singleFixed
      · rw [if_pos hp]
        rcases hj with hj | hj
        · exact absurd hp hj
        · exact decide_eq_true hj
      · rw [if_neg hp]
    have := setHid_vis F (b.s.dev j) ((src.sim.s.dev j).cell)
      (fun k => ((src.sim.s.dev j).st k).per) (fun k => ((src.sim.s.dev j).st k).vis) (dtod j)
      (G seed j) hoff k
    simp only [vecOps, getAnalogState, VPar.reduce, VPar.set, Dev.mapSt]
    rw [onSet_off _ _ this.2.2.2, this.2.1]
    show clipMM _ (if p.setsDev b.s.cur j = true then _ else _) = _
    rw [if_pos hset]
    rfl
  · have hoff : persistent (b.s.dev j).kd (b.s.dev j).par = false := by
      rw [(hs j).1, (hs j).2.1]; exact (hs j).2.2
    have hset : p.setsDev b.s.cur j = false := by
      unfold VPar.setsDev
      rw [if_pos h1]
      refine decide_eq_false ?_
      rintro (h4 | h4)
      · exact absurd h2 (not_le.2 h4)
      · exact h3 h4
    have := setHid_vis F (b.s.dev j) ((src.sim.s.dev j).cell)
      (fun k => ((src.sim.s.dev j).st k).per) (fun k => ((src.sim.s.dev j).st k).vis) (dtod j)
      (G seed j) hoff k
    simp only [vecOps, getAnalogState, VPar.reduce, VPar.set, Dev.mapSt]
    rw [onSet_off _ _ this.2.2.2, this.2.1]
    show clipMM _ (if p.setsDev b.s.cur j = true then _ else _) = _
    rw [if_neg (by rw [hset]; decide), this.1]
    simp only [clipMM, inBounds]
    by_cases hb : ((src.sim.s.dev j).cell k).minB ≤ ((src.sim.s.dev j).cell k).maxB
    · rw [min_eq_left (max_le (min_le_right _ _) hb), max_eq_left (le_max_right _ _)]
    · have hb' := le_of_lt (not_le.1 hb)
      rw [max_eq_right ((min_le_right _ _).trans hb'), max_eq_right ((min_le_right _ _).trans hb')]

/-- **C76 (vector unit cell: exactly when nothing is lost).**  Under every policy but the fixed one a
reload restores the sub devices if and only if at the time of saving every sub device held the visible
weight limited to its own bounds — the state directly after `set_weights`. -/
theorem C76_vector_exact_iff (F : Fns K) (p : VPar K) (mk : Cfg → Nat → Nat → Nat → VS K)
    (dtod : Nat → K) (G : Nat → Nat → Nat → K) (nm : VS K → List String) {A : Type}
    (src : Tile (VTile K) A) (b t : VTile K) (seed : Nat) (hs : SameDevs src.sim.s.dev b.s.dev)
    (hp : p.policy ≠ .singleFixed)
    (h : restoreSim (vecOps F p mk dtod G nm) (getAnalogState (vecOps F p mk dtod G nm) src) seed b
      = .ok t) :
    (∀ j k : Nat, ((t.s.dev j).st k).vis = ((src.sim.s.dev j).st k).vis) ↔
    ∀ j k : Nat, ((src.sim.s.dev j).st k).vis =
      inBounds ((src.sim.s.dev j).cell k) (src.sim.s.vis k) := by
  have h6 := (C76_vector_restored F p mk dtod G nm src b t seed hs h).2.2.2.2.2.1
  constructor
  · intro h1 j k
    rw [← h1 j k]; exact h6 j k (Or.inl hp)
  · intro h1 j k
    rw [h1 j k]; exact h6 j k (Or.inl hp)

/-- **C76 (vector unit cell: the weights change at the first update after a reload).**  An update
without a single coincidence leaves the saved tile as it is, but on the reloaded tile (any policy but
the fixed one) every visible weight becomes the weighted sum of its own value limited to the bounds of
the devices. -/
theorem C76_vector_first_update (F : Fns K) (p : VPar K) (mk : Cfg → Nat → Nat → Nat → VS K)
    (dtod : Nat → K) (G : Nat → Nat → Nat → K) (nm : VS K → List String) {A : Type}
    (src : Tile (VTile K) A) (b t : VTile K) (seed : Nat) (hs : SameDevs src.sim.s.dev b.s.dev)
    (hp : p.policy ≠ .singleFixed)
    (h : restoreSim (vecOps F p mk dtod G nm) (getAnalogState (vecOps F p mk dtod G nm) src) seed b
      = .ok t) (u : K) (s' : VS K) (hu : p.step F t.s (.update true [] u) = .ok s') (k : Nat) :
    s'.vis k = ((List.range p.n).map fun j =>
      p.gamma j * inBounds ((src.sim.s.dev j).cell k) (src.sim.s.vis k)).sum := by
  have h6 := (C76_vector_restored F p mk dtod G nm src b t seed hs h).2.2.2.2.2.1
  have hnil : ∀ j : Nat, (t.s.dev j).pulses F (([] : List (VP K)).map (VP.at · j)) = t.s.dev j :=
    fun j => rfl
  have key : s'.vis k = p.sumAt t.s.dev k := by
    simp only [VPar.step] at hu
    unfold VPar.applyPulses at hu
    by_cases hall : p.policy = .all
    · rw [if_pos hall] at hu
      have := (Except.ok.inj hu).symm
      subst this
      simp [VPar.sumAt, Dev.pulses]
    · rw [if_neg hall] at hu
      by_cases hc : 0 ≤ p.select t.s.cur u ∧ p.select t.s.cur u < (p.n : ℤ)
      · rw [if_pos hc] at hu
        have := (Except.ok.inj hu).symm
        subst this
        simp [VPar.sumAt, Dev.pulses]
      · rw [if_neg hc] at hu
        cases hu
  rw [key]
  simp only [VPar.sumAt]
  congr 1
  refine List.map_congr_left fun j _ => ?_
  rw [h6 j k (Or.inl hp)]

/-- **C76 (reference unit cell: a reload shifts the weights by the reference).**  Two devices with
weighting `+1`/`-1`, the first one selected under the fixed policy, saved weights within the bounds:
after a reload the visible weights are those saved, but the first device holds the *visible* weight
and the reference keeps its value, so that the first update — even without any coincidence — makes
every weight the saved weight minus the reference. -/
theorem C76_reference_shift (F : Fns K) (p : VPar K) (mk : Cfg → Nat → Nat → Nat → VS K)
    (dtod : Nat → K) (G : Nat → Nat → Nat → K) (nm : VS K → List String) {A : Type}
    (src : Tile (VTile K) A) (b t : VTile K) (seed : Nat) (hs : SameDevs src.sim.s.dev b.s.dev)
    (hp : p.policy = .singleFixed) (hn : p.n = 2) (h0 : p.gamma 0 = 1) (h1 : p.gamma 1 = -1)
    (hb : b.s.cur = 0) (hcur : src.sim.s.cur = 0)
    (h : restoreSim (vecOps F p mk dtod G nm) (getAnalogState (vecOps F p mk dtod G nm) src) seed b
      = .ok t) (k : Nat)
    (hb0 : ((src.sim.s.dev 0).cell k).minB ≤ src.sim.s.vis k ∧
      src.sim.s.vis k ≤ ((src.sim.s.dev 0).cell k).maxB)
    (hb1 : ((src.sim.s.dev 1).cell k).minB ≤ ((src.sim.s.dev 1).st k).vis ∧
      ((src.sim.s.dev 1).st k).vis ≤ ((src.sim.s.dev 1).cell k).maxB) (u : K) :
    t.s.vis k = src.sim.s.vis k ∧
    ∃ s' : VS K, p.step F t.s (.update true [] u) = .ok s' ∧
      s'.vis k = src.sim.s.vis k - ((src.sim.s.dev 1).st k).vis := by
  obtain ⟨g1, -, g3, -, -, g6, g7⟩ := C76_vector_restored F p mk dtod G nm src b t seed hs h
  have e0 := g6 0 k (Or.inr (Or.inr (by simp [hb])))
  have e1 := g7 1 k hp (by simp [hb]) (by simp [hb])
  refine ⟨by rw [g1], ?_⟩
  have hsel : p.select t.s.cur u = 0 := by simp [VPar.select, hp, g3, hcur]
  have hap : p.applyPulses F t.s.dev 0 [] =
      .ok (fun j => if (j : ℤ) = 0 then (t.s.dev j).pulses F (([] : List (VP K)).map (VP.at · j))
        else t.s.dev j) := by
    unfold VPar.applyPulses
    rw [if_neg (by rw [hp]; decide), if_pos ⟨le_refl _, by rw [hn]; decide⟩]
  have hst : ∃ s' : VS K, p.step F t.s (.update true [] u) = .ok s' ∧
      s'.vis k = p.sumAt (fun j => if (j : ℤ) = 0
        then (t.s.dev j).pulses F (([] : List (VP K)).map (VP.at · j)) else t.s.dev j) k := by
    simp only [VPar.step, hsel]
    rw [hap]
    exact ⟨_, rfl, rfl⟩
  obtain ⟨s', hs', hv⟩ := hst
  refine ⟨s', hs', ?_⟩
  rw [hv]
  simp only [VPar.sumAt, hn, List.range_succ, List.range_zero, List.nil_append,
    List.map_cons, List.map_nil, List.cons_append, List.sum_cons, List.sum_nil, h0, h1]
  simp only [Nat.cast_zero, if_true, Nat.cast_one, one_ne_zero, if_false, Dev.pulses, List.foldl_nil]
  rw [e0, e1]
  unfold inBounds
  rw [min_eq_left hb0.2, max_eq_left hb0.1, min_eq_left hb1.2, max_eq_left hb1.1]
  ring

/-! ## One-sided unit cell -/

/-- **C76 (one-sided unit cell: the common part is lost).**  After a reload the visible weights, the
learning rate, the update counter and the device parameters are the saved ones, but the two devices
hold the positive and the negative part of the visible weight (limited to their bounds), whatever they
held before, and the count of refreshes starts again at zero. -/
theorem C76_onesided_restored (F : Fns K) (p : OPar K) (mk : Cfg → Nat → Nat → Nat → OS K)
    (dtodP dtodM : K) (GP GM : Nat → Nat → K) (nm : OS K → List String) {A : Type}
    (src : Tile (OTile K) A) (b t : OTile K) (seed : Nat)
    (hP : b.s.plus.kd = src.sim.s.plus.kd ∧ b.s.plus.par = src.sim.s.plus.par ∧
      persistent src.sim.s.plus.kd src.sim.s.plus.par = false)
    (hM : b.s.minus.kd = src.sim.s.minus.kd ∧ b.s.minus.par = src.sim.s.minus.par ∧
      persistent src.sim.s.minus.kd src.sim.s.minus.par = false)
    (h : restoreSim (oneOps F p mk dtodP dtodM GP GM nm)
      (getAnalogState (oneOps F p mk dtodP dtodM GP GM nm) src) seed b = .ok t) :
    t.s.vis = src.sim.s.vis ∧ t.lr = src.sim.lr ∧ t.s.upd = src.sim.s.upd ∧ t.s.refreshed = 0 ∧
    t.s.plus.cell = src.sim.s.plus.cell ∧ t.s.minus.cell = src.sim.s.minus.cell ∧
    ∀ k : Nat,
      (t.s.plus.st k).vis = inBounds (src.sim.s.plus.cell k) (max (src.sim.s.vis k) 0) ∧
      (t.s.minus.st k).vis = inBounds (src.sim.s.minus.cell k) (max (-src.sim.s.vis k) 0) := by
  have : t = _ := (Except.ok.inj h).symm
  subst this
  refine ⟨rfl, rfl, rfl, rfl, rfl, rfl, fun k => ⟨?_, ?_⟩⟩
  · have hoff : persistent b.s.plus.kd b.s.plus.par = false := by rw [hP.1, hP.2.1]; exact hP.2.2
    have := setHid_vis F b.s.plus src.sim.s.plus.cell (fun k => (src.sim.s.plus.st k).per)
      (fun k => (src.sim.s.plus.st k).vis) dtodP (GP seed) hoff k
    simp only [oneOps, getAnalogState, OS.reduce, Dev.mapSt]
    rw [onSet_off _ _ this.2.2.2, this.2.1]
    simp only [clipMM, inBounds]
    congr 2
    show (if 0 < src.sim.s.vis k then src.sim.s.vis k else 0) = _
    by_cases hv : 0 < src.sim.s.vis k
    · rw [if_pos hv]; exact (max_eq_left hv.le).symm
    · rw [if_neg hv]; exact (max_eq_right (not_lt.1 hv)).symm
  · have hoff : persistent b.s.minus.kd b.s.minus.par = false := by rw [hM.1, hM.2.1]; exact hM.2.2
    have := setHid_vis F b.s.minus src.sim.s.minus.cell (fun k => (src.sim.s.minus.st k).per)
      (fun k => (src.sim.s.minus.st k).vis) dtodM (GM seed) hoff k
    simp only [oneOps, getAnalogState, OS.reduce, Dev.mapSt]
    rw [onSet_off _ _ this.2.2.2, this.2.1]
    simp only [clipMM, inBounds]
    congr 2
    show (if src.sim.s.vis k < 0 then -src.sim.s.vis k else 0) = _
    by_cases hv : src.sim.s.vis k < 0
    · rw [if_pos hv]; exact (max_eq_left (neg_pos.2 hv).le).symm
    · rw [if_neg hv]; exact (max_eq_right (neg_nonpos.2 (not_lt.1 hv))).symm

/-- **C76 (one-sided unit cell: a reload is a perfect refresh).**  If the visible weight was the
difference of the two saved conductances, these were within the bounds of their cells and the bounds
contain zero, then after a reload the two conductances are the saved ones minus the smaller of the two:
the difference, and with it the weight at every later update, is unchanged, the common part is gone.
So the conductances are restored if and only if one of them was zero. -/
theorem C76_onesided_refreshed (F : Fns K) (p : OPar K) (mk : Cfg → Nat → Nat → Nat → OS K)
    (dtodP dtodM : K) (GP GM : Nat → Nat → K) (nm : OS K → List String) {A : Type}
    (src : Tile (OTile K) A) (b t : OTile K) (seed : Nat)
    (hP : b.s.plus.kd = src.sim.s.plus.kd ∧ b.s.plus.par = src.sim.s.plus.par ∧
      persistent src.sim.s.plus.kd src.sim.s.plus.par = false)
    (hM : b.s.minus.kd = src.sim.s.minus.kd ∧ b.s.minus.par = src.sim.s.minus.par ∧
      persistent src.sim.s.minus.kd src.sim.s.minus.par = false)
    (h : restoreSim (oneOps F p mk dtodP dtodM GP GM nm)
      (getAnalogState (oneOps F p mk dtodP dtodM GP GM nm) src) seed b = .ok t) (k : Nat)
    (hv : src.sim.s.vis k = (src.sim.s.plus.st k).vis - (src.sim.s.minus.st k).vis)
    (hp0 : 0 ≤ (src.sim.s.plus.st k).vis ∧ (src.sim.s.plus.st k).vis ≤ (src.sim.s.plus.cell k).maxB ∧
      (src.sim.s.plus.cell k).minB ≤ 0)
    (hm0 : 0 ≤ (src.sim.s.minus.st k).vis ∧
      (src.sim.s.minus.st k).vis ≤ (src.sim.s.minus.cell k).maxB ∧ (src.sim.s.minus.cell k).minB ≤ 0) :
    (t.s.plus.st k).vis = (src.sim.s.plus.st k).vis -
      min (src.sim.s.plus.st k).vis (src.sim.s.minus.st k).vis ∧
    (t.s.minus.st k).vis = (src.sim.s.minus.st k).vis -
      min (src.sim.s.plus.st k).vis (src.sim.s.minus.st k).vis ∧
    (t.s.plus.st k).vis - (t.s.minus.st k).vis = src.sim.s.vis k := by
  obtain ⟨e1, e2⟩ :=
    (C76_onesided_restored F p mk dtodP dtodM GP GM nm src b t seed hP hM h).2.2.2.2.2.2 k
  rw [e1, e2, hv]
  set a := (src.sim.s.plus.st k).vis
  set c := (src.sim.s.minus.st k).vis
  unfold inBounds
  rcases le_total a c with hac | hac
  · rw [max_eq_right (by linarith : a - c ≤ 0), max_eq_left (by linarith : 0 ≤ -(a - c)),
      min_eq_left (by linarith : (0 : K) ≤ (src.sim.s.plus.cell k).maxB), max_eq_left hp0.2.2,
      min_eq_left (by linarith : -(a - c) ≤ (src.sim.s.minus.cell k).maxB),
      max_eq_left (by linarith : (src.sim.s.minus.cell k).minB ≤ -(a - c)), min_eq_left hac]
    refine ⟨by ring, by ring, by ring⟩
  · rw [max_eq_left (by linarith : 0 ≤ a - c), max_eq_right (by linarith : -(a - c) ≤ 0),
      min_eq_left (by linarith : (0 : K) ≤ (src.sim.s.minus.cell k).maxB), max_eq_left hm0.2.2,
      min_eq_left (by linarith : a - c ≤ (src.sim.s.plus.cell k).maxB),
      max_eq_left (by linarith : (src.sim.s.plus.cell k).minB ≤ a - c), min_eq_right hac]
    refine ⟨by ring, by ring, by ring⟩

/-! ## Mixed precision -/

/-- **C76 (mixed precision: the accumulated gradient is lost).**  After a reload the weights, the
learning rate, the row and update counters, the sparsity average and the device parameters are the
saved ones, but the accumulated gradient is zero everywhere, although it is part of the saved hidden
parameters. -/
theorem C76_mixed_restored (F : Fns K) (p : MPar K) (mk : Cfg → Nat → Nat → Nat → MS K) (dtod : K)
    (G : Nat → Nat → K) (nm : MS K → List String) {A : Type} (src : Tile (MTile K) A) (b t : MTile K)
    (seed : Nat)
    (h : restoreSim (mixOps F p mk dtod G nm) (getAnalogState (mixOps F p mk dtod G nm) src) seed b
      = .ok t) :
    (∀ k : Nat, (t.s.dev.st k).vis = (src.sim.s.dev.st k).vis) ∧ t.lr = src.sim.lr ∧
    t.s.row = src.sim.s.row ∧ t.s.idx = src.sim.s.idx ∧ t.s.avg = src.sim.s.avg ∧
    t.s.dev.cell = src.sim.s.dev.cell ∧ ∀ k : Nat, p.getChi t.s k = 0 := by
  have : t = _ := (Except.ok.inj h).symm
  subst this
  exact ⟨fun k => rfl, rfl, rfl, rfl, rfl, rfl, fun k => rfl⟩

/-- **C76 (mixed precision: exactly when nothing is lost).**  The reloaded accumulated gradient is the
saved one if and only if the saved one was zero everywhere. -/
theorem C76_mixed_exact_iff (F : Fns K) (p : MPar K) (mk : Cfg → Nat → Nat → Nat → MS K) (dtod : K)
    (G : Nat → Nat → K) (nm : MS K → List String) {A : Type} (src : Tile (MTile K) A) (b t : MTile K)
    (seed : Nat)
    (h : restoreSim (mixOps F p mk dtod G nm) (getAnalogState (mixOps F p mk dtod G nm) src) seed b
      = .ok t) :
    (∀ k : Nat, p.getChi t.s k = p.getChi src.sim.s k) ↔ ∀ k : Nat, p.getChi src.sim.s k = 0 := by
  have h0 := (C76_mixed_restored F p mk dtod G nm src b t seed h).2.2.2.2.2.2
  constructor
  · intro h1 k; rw [← h1 k]; exact h0 k
  · intro h1 k; rw [h1 k]; exact h0 k

/-- **C76 (mixed precision: what the loss means).**  Without quantisation of the vectors, the gradient
accumulated by the first update after a reload is that of this update alone: on the saved tile the same
update gives the saved gradient plus this. -/
theorem C76_mixed_next (F : Fns K) (p : MPar K) (mk : Cfg → Nat → Nat → Nat → MS K) (dtod : K)
    (G : Nat → Nat → K) (nm : MS K → List String) {A : Type} (src : Tile (MTile K) A) (b t : MTile K)
    (seed : Nat) (hx : p.nxBins ≤ 0) (hd : p.ndBins ≤ 0)
    (h : restoreSim (mixOps F p mk dtod G nm) (getAnalogState (mixOps F p mk dtod G nm) src) seed b
      = .ok t) (u : MU K) :
    ∃ a c : MAcc K, p.accumulate src.sim.s u = .ok a ∧ p.accumulate t.s u = .ok c ∧
      ∀ j i : Nat, j < p.dSize → i < p.xSize →
        c.chi j i = u.lr * u.d j * u.x i ∧ a.chi j i = src.sim.s.chi j i + c.chi j i := by
  have : t = _ := (Except.ok.inj h).symm
  subst this
  have wx : mpWidth p.nxBins p.xSize u.x = .ok 1 := by unfold mpWidth; rw [if_pos hx]
  have wd : mpWidth p.ndBins p.dSize u.d = .ok 1 := by unfold mpWidth; rw [if_pos hd]
  have acc : ∀ s : MS K, p.accumulate s u =
      .ok ⟨mpGer p.xSize p.dSize u.lr u.d u.x s.chi, s.qd, 0, 0⟩ := by
    intro s
    unfold MPar.accumulate
    rw [wx, wd]
    show (if _ then _ else _) = _
    rw [if_pos ⟨hd, hx⟩]
  refine ⟨_, _, acc _, acc _, fun j i hj hi => ?_⟩
  simp only [mpGer, if_pos (And.intro hj hi), mixOps, MPar.setWeights, zero_add]
  exact ⟨trivial, trivial⟩

end Aihw.State

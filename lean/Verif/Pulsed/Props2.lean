import Verif.Pulsed.Props
import Mathlib.Data.Rat.Floor

/-!
# C33 (construction, examples) and C46 (pulse response)
-/
namespace Aihw.Pulsed

variable {K : Type} [Field K] [LinearOrder K] [IsStrictOrderedRing K] [FloorRing K]

/-! ## Construction -/

theorem enforceBounds_le (p : PopPar K) (mx mn : K) :
    (enforceBounds p mx mn).2 ≤ (enforceBounds p mx mn).1 := by
  unfold enforceBounds
  split_ifs with h1 h2 h2
  · simp only []
    linarith [abs_nonneg mn, abs_nonneg mx]
  · simp only []
    linarith [abs_nonneg mn, abs_nonneg mx]
  · exact le_refl _
  · exact not_lt.1 h2

theorem enforceBounds_sign (p : PopPar K) (hen : p.enforce = true) (mx mn : K) :
    0 ≤ (enforceBounds p mx mn).1 ∧ (enforceBounds p mx mn).2 ≤ 0 := by
  unfold enforceBounds
  rw [if_pos hen]
  constructor <;> split_ifs <;> simp

theorem adjustBounds_le (th : K → K) (p : PopPar K) (up down mx mn : K) (h : mn ≤ mx) (b : K × K)
    (hb : adjustBounds th p up down mx mn = some b) : b.2 ≤ b.1 := by
  unfold adjustBounds at hb
  have hmm : (0 : K) ≤ mx - mn := sub_nonneg.2 h
  simp only [not_lt.2 h, if_false] at hb
  split_ifs at hb <;> simp only [Option.some.injEq] at hb <;> subst hb <;> simp only [] <;> linarith

/-- **C33 (construction).**  Whatever the device-to-device draws, a cell that is created has
`min_bound ≤ max_bound`; without bound adjustment and corruption, `enforce_consistency` gives
`min_bound ≤ 0 ≤ max_bound` and non-negative step sizes. -/
theorem C33_populate_bounds (expf th : K → K) (p : PopPar K) (last : Bool) (r : PopDraw K)
    (c : Cell K) (hdw : 0 ≤ p.dwMin) (h : populateCell expf th p last r = .ok c) :
    c.minB ≤ c.maxB ∧
    (p.enforce = true → p.adjust = false → p.corruptProb ≤ r.uCorrupt →
      c.minB ≤ 0 ∧ 0 ≤ c.maxB ∧ 0 ≤ c.up ∧ 0 ≤ c.down) := by
  unfold populateCell at h
  by_cases h0 : 0 < p.wMin ∨ p.wMax < 0
  · rw [if_pos h0] at h; simp at h
  rw [if_neg h0] at h
  push Not at h0
  obtain ⟨h01, h02⟩ := h0
  simp only [] at h
  split at h
  · simp at h
  rename_i b hb
  simp only [Except.ok.injEq] at h
  subst h
  have hle := adjustBounds_le th p _ _ _ _ (enforceBounds_le p _ _) b hb
  refine ⟨?_, ?_⟩
  · simp only []
    split_ifs
    · linarith
    · exact le_refl _
    · exact hle
  · intro he ha hc
    simp only [adjustBounds, ha, Bool.false_eq_true, if_false, Option.some.injEq] at hb
    subst hb
    simp only [he, if_true, not_lt.2 hc, decide_false, Bool.false_eq_true, if_false]
    refine ⟨?_, ?_, ?_, ?_⟩
    · split_ifs
      · linarith
      · exact (enforceBounds_sign p he _ _).2
    · split_ifs
      · linarith
      · exact (enforceBounds_sign p he _ _).1
    · split_ifs <;> first | exact hdw | exact abs_nonneg _
    · split_ifs <;> first | exact hdw | exact abs_nonneg _

/-- **C33 (corrupt devices).**  A corrupt cell (not an exempted bias cell) is created with both
bounds equal to one value within `corrupt_devices_range` and its former bounds (if these overlap),
and with zero step sizes; by `C33_stuck_cell` it never moves. -/
theorem C33_populate_corrupt (expf th : K → K) (p : PopPar K) (last : Bool) (r : PopDraw K)
    (c : Cell K) (h : populateCell expf th p last r = .ok c)
    (hc : r.uCorrupt < p.corruptProb) (hb : (p.perfectBias && last) = false)
    (hen : p.enforce = true) (had : p.adjust = false)
    (hu0 : 0 ≤ r.uValue) (hu1 : r.uValue ≤ 1) :
    c.minB = c.maxB ∧ c.up = 0 ∧ c.down = 0 ∧ |c.maxB| ≤ |p.corruptRange| := by
  unfold populateCell at h
  by_cases h0 : 0 < p.wMin ∨ p.wMax < 0
  · rw [if_pos h0] at h; simp at h
  rw [if_neg h0] at h
  simp only [] at h
  split at h
  · simp at h
  rename_i b hb'
  simp only [Except.ok.injEq] at h
  subst h
  simp only [adjustBounds, had, Bool.false_eq_true, if_false, Option.some.injEq] at hb'
  subst hb'
  simp only [hb, Bool.false_eq_true, if_false, hc, decide_true, if_true, true_and]
  set e := enforceBounds p (p.wMax * (1 + p.wMaxDtod * r.gMax)) (p.wMin * (1 + p.wMinDtod * r.gMin))
  obtain ⟨he1, he2⟩ : 0 ≤ e.1 ∧ e.2 ≤ 0 := enforceBounds_sign p hen _ _
  rw [min_eq_right (he2.trans he1), max_eq_left (he2.trans he1)]
  set lo := max e.2 (-|p.corruptRange|)
  set hi := min e.1 |p.corruptRange|
  have hr := abs_nonneg p.corruptRange
  have hlo0 : lo ≤ 0 := max_le he2 (by linarith)
  have hhi0 : 0 ≤ hi := le_min he1 hr
  have hlo : -|p.corruptRange| ≤ lo := le_max_right _ _
  have hhi : hi ≤ |p.corruptRange| := min_le_right _ _
  rw [abs_le]
  have h1 : 0 ≤ (hi - lo) * r.uValue := mul_nonneg (by linarith) hu0
  have h2 : (hi - lo) * r.uValue ≤ hi - lo := by
    have := mul_le_mul_of_nonneg_left hu1 (show (0 : K) ≤ hi - lo by linarith)
    linarith
  constructor <;> linarith

/-! ## Write / read, hidden weights -/

/-- **C33 (write/read).**  `set_weights` without write noise on write stores exactly the given value
where it is within the cell's bounds, and the nearest bound otherwise. -/
theorem C33_set_reads_clipped (F : Fns K) (d d' : Dev K) (k : Nat) (v g : Nat → K)
    (hb : (d.cell k).minB ≤ (d.cell k).maxB) (hs : d.step F (.set v g) = .ok d') :
    d'.weight k = if v k < (d.cell k).minB then (d.cell k).minB
      else if (d.cell k).maxB < v k then (d.cell k).maxB else v k := by
  simp only [Dev.step, Except.ok.injEq] at hs
  subst hs
  rw [weight_eq]
  simp only [Dev.mapSt, stored_onSet]
  split_ifs with h1 h2
  · unfold clipMM; rw [min_eq_left (h1.le.trans hb), max_eq_right h1.le]
  · unfold clipMM; rw [min_eq_right h2.le, max_eq_left hb]
  · exact clipMM_of_mem (not_lt.1 h1) (not_lt.1 h2)

/-- **C33 (finding: floating point update with write noise is lost).**  With pulse type
`NoneWithDevice` and write noise on, the floating point increment is written to the visible weights
and then overwritten by the unchanged persistent ones: no increment ever has an effect on the
stored weight. -/
theorem C33_none_with_device_lost (F : Fns K) (d d1 d2 : Dev K) (k : Nat) (dw dw' g : Nat → K)
    (hp : persistent d.kd d.par = true) (hi : implementsWriteNoise d.kd = true)
    (h1 : d.step F (.fpUpdate dw g) = .ok d1) (h2 : d.step F (.fpUpdate dw' g) = .ok d2) :
    d1.st k = d2.st k ∧ (Within d k → d1.weight k = d.weight k) := by
  simp only [Dev.step, Except.ok.injEq] at h1 h2
  subst h1; subst h2
  constructor
  · simp only [Dev.mapSt, onStored, writeNoise, hp, hi, Bool.and_self, if_true]
  · intro hw
    unfold Within at hw
    have e : d.weight k = (d.st k).per := by
      rw [weight_eq, stored_persistent]; simp only [hp, if_true]
    rw [e] at hw ⊢
    rw [weight_eq]
    simp only [Dev.mapSt, stored_onStored]
    rw [stored_persistent]
    simp only [hp, if_true]
    exact clipMM_of_mem hw.1 hw.2

/-- **C33 (finding: hidden persistent weights cannot be restored).**  Setting the hidden parameters
(for instance when a checkpoint is loaded) writes the given persistent weights and then overwrites
them with the (clipped) visible weights: the result does not depend on the given ones. -/
theorem C33_set_hidden_drops_persistent (F : Fns K) (d d1 d2 : Dev K) (k : Nat)
    (cell : Nat → Cell K) (per per' : Nat → K) (dtod : K) (g : Nat → K)
    (hp : 0 < d.par.writeNoise) (hr : ¬ HasRef d.kd)
    (h1 : d.step F (.setHidden cell per dtod g) = .ok d1)
    (h2 : d.step F (.setHidden cell per' dtod g) = .ok d2) :
    d1.st k = d2.st k ∧ d1.weight k = clipMM (cell k) (d.st k).vis := by
  simp only [Dev.step, Except.ok.injEq] at h1 h2
  subst h1; subst h2
  constructor
  · simp only [onSet]
    have : ∀ q : Par K, q.writeNoise = d.par.writeNoise → persistent d.kd q = true := by
      intro q hq
      cases hd : d.kd <;> simp_all [persistent, HasRef]
    have h3 := this { d.par with
      dwMin := newDwMin d.par.dwMin dtod (meanStep (d.xSize * d.dSize) cell) } rfl
    simp only [h3, if_true]
  · rw [weight_eq]
    simp only [stored_onSet]

/-! ## C46: pulse response -/

/-- `n` noise-free pulses in one direction on a stored weight. -/
def train (F : Fns K) (kd : Kind K) (p : Par K) (c : Cell K) (down : Bool) : Nat → K → K
  | 0, w => w
  | n + 1, w => train F kd p c down n ((stepW F kd p c w down 0).getD w)

/-- **C46 (constant step).**  `n` consecutive noise-free up pulses move a constant-step cell by
exactly `n` steps until it saturates at its upper bound (and symmetrically for down pulses). -/
theorem C46_constant_train (F : Fns K) (p : Par K) (c : Cell K) (w : K)
    (h1 : c.minB ≤ w) (h2 : w ≤ c.maxB) (hu : 0 ≤ c.up) (hd : 0 ≤ c.down) (n : Nat) :
    train F .constant p c false n w = min (w + n * c.up) c.maxB ∧
    train F .constant p c true n w = max (w - n * c.down) c.minB := by
  have f1 : ∀ x : K, (if 0 < p.dwMinStd then 1 + p.dwMinStd * 0 else 1) * x = x := by
    intro x; split_ifs <;> simp
  constructor
  · induction n generalizing w with
    | zero => simp [train, h2]
    | succ n ih =>
      have e : (stepW F .constant p c w false 0).getD w = min (w + c.up) c.maxB := by
        simp only [stepW, Option.getD_some, f1, Bool.false_eq_true, if_false, clipMM]
        exact max_eq_left (le_min (by linarith) (h1.trans h2))
      rw [train, e, ih _ (le_min (by linarith) (h1.trans h2)) (min_le_right _ _)]
      push_cast
      rcases le_total (w + c.up) c.maxB with h | h
      · rw [min_eq_left h]; congr 1; ring
      · rw [min_eq_right h]
        have h3 : (0 : K) ≤ n * c.up := mul_nonneg (Nat.cast_nonneg _) hu
        rw [min_eq_right (by linarith), min_eq_right (by linarith)]
  · induction n generalizing w with
    | zero => simp [train, h1]
    | succ n ih =>
      have e : (stepW F .constant p c w true 0).getD w = max (w - c.down) c.minB := by
        simp only [stepW, Option.getD_some, f1, if_true, clipMM]
        rw [min_eq_left (by linarith)]
      rw [train, e, ih _ (le_max_right _ _) (max_le (by linarith) (h1.trans h2))]
      push_cast
      rcases le_total c.minB (w - c.down) with h | h
      · rw [max_eq_left h]; congr 1; ring
      · rw [max_eq_right h]
        have h3 : (0 : K) ≤ n * c.down := mul_nonneg (Nat.cast_nonneg _) hd
        rw [max_eq_right (by linarith), max_eq_right (by linarith)]

/-- Population of the slopes of a linear step device (rpu_linearstep_device.cpp:22-78) for one cell;
`wMin`, `wMax` are the nominal bounds used with `ls_mean_bound_reference`. -/
structure LinPar (K : Type) where
  decUp : K
  decUpDtod : K
  decDown : K
  decDownDtod : K
  allowInc : Bool
  meanRef : Bool
  revUp : Bool
  revDown : Bool
  revOff : K
  multNoise : Bool
  wMin : K
  wMax : K

/-- rpu_linearstep_device.cpp:22-78. -/
def populateLinear (p : LinPar K) (c : Cell K) (g1 g2 : K) : Except PyErr (Cell K) :=
  if (p.revUp || p.revDown) && !p.multNoise then .error .runtimeError
  else
    let du := p.decUp + p.decUpDtod * g1
    let dd := p.decDown + p.decDownDtod * g2
    let du := if p.allowInc then du else |du|
    let dd := if p.allowInc then dd else |dd|
    let ru := if p.meanRef then (if p.revUp then p.wMin - p.revOff else p.wMax)
              else (if p.revUp then c.minB - p.revOff else c.maxB)
    let rd := if p.meanRef then (if p.revDown then p.wMax + p.revOff else p.wMin)
              else (if p.revDown then c.maxB + p.revOff else c.minB)
    .ok { c with
      slopeUp := if ru ≠ 0 then -du * c.up / ru else 0
      slopeDown := if rd ≠ 0 then -dd * c.down / rd else 0 }

/-- The soft-bounds parameters (rpu_linearstep_device.h:74-104): decrease 1 at the device's own
bounds, no variation, no reversal. -/
def SoftBounds (p : LinPar K) : Prop :=
  p.decUp = 1 ∧ p.decUpDtod = 0 ∧ p.decDown = 1 ∧ p.decDownDtod = 0 ∧ p.meanRef = false ∧
  p.revUp = false ∧ p.revDown = false

/-- **C46 (soft bounds).**  On a soft-bounds cell, `n` noise-free up pulses approach the upper bound
geometrically, `w_max - (w_max - w) * (1 - up/w_max)^n`, and `n` down pulses approach the lower
bound in the same way; in particular a bound is never passed and, for steps smaller than the range,
never reached from inside. -/
theorem C46_soft_bounds_train (F : Fns K) (p : Par K) (lp : LinPar K) (c c0 : Cell K) (g1 g2 : K)
    (m : Bool) (hsb : SoftBounds lp) (hc : populateLinear lp c0 g1 g2 = .ok c)
    (hmax : 0 < c.maxB) (hmin : c.minB < 0) (hu : 0 ≤ c.up) (hum : c.up ≤ c.maxB)
    (hd : 0 ≤ c.down) (hdm : c.down ≤ -c.minB) (w : K) (h1 : c.minB ≤ w) (h2 : w ≤ c.maxB)
    (n : Nat) :
    train F (.linear m) p c false n w = c.maxB - (c.maxB - w) * (1 - c.up / c.maxB) ^ n ∧
    train F (.linear m) p c true n w = c.minB + (w - c.minB) * (1 - c.down / -c.minB) ^ n := by
  obtain ⟨s1, s2, s3, s4, s5, s6, s7⟩ := hsb
  unfold populateLinear at hc
  rw [if_neg (by rw [s6, s7]; simp)] at hc
  simp only [Except.ok.injEq] at hc
  have eU : c.slopeUp = -(c.up / c.maxB) := by
    rw [← hc] at hmax ⊢
    simp only [s1, s2, s5, s6, Bool.false_eq_true, if_false] at hmax ⊢
    rw [if_pos (by exact hmax.ne')]
    have : (if lp.allowInc = true then (1 : K) + 0 * g1 else |1 + 0 * g1|) = 1 := by
      split_ifs <;> simp
    rw [this]; ring
  have eD : c.slopeDown = -(c.down / c.minB) := by
    rw [← hc] at hmin ⊢
    simp only [s3, s4, s5, s7, Bool.false_eq_true, if_false] at hmin ⊢
    rw [if_pos (by exact hmin.ne)]
    have : (if lp.allowInc = true then (1 : K) + 0 * g2 else |1 + 0 * g2|) = 1 := by
      split_ifs <;> simp
    rw [this]; ring
  clear hc
  have q1 : 0 ≤ c.up / c.maxB := div_nonneg hu hmax.le
  have q2 : c.up / c.maxB ≤ 1 := (div_le_one hmax).2 hum
  have q3 : 0 ≤ c.down / -c.minB := div_nonneg hd (by linarith)
  have q4 : c.down / -c.minB ≤ 1 := (div_le_one (by linarith)).2 hdm
  constructor
  · induction n generalizing w with
    | zero => simp [train]
    | succ n ih =>
      have hstep : w + (c.slopeUp * w + c.up) = c.maxB - (c.maxB - w) * (1 - c.up / c.maxB) := by
        rw [eU]; field_simp; ring
      have hin1 : c.minB ≤ c.maxB - (c.maxB - w) * (1 - c.up / c.maxB) := by
        have : (c.maxB - w) * (1 - c.up / c.maxB) ≤ c.maxB - w := by
          have := mul_le_mul_of_nonneg_left (show 1 - c.up / c.maxB ≤ 1 by linarith)
            (show 0 ≤ c.maxB - w by linarith)
          linarith
        linarith
      have hin2 : c.maxB - (c.maxB - w) * (1 - c.up / c.maxB) ≤ c.maxB := by
        have := mul_nonneg (show 0 ≤ c.maxB - w by linarith)
          (show 0 ≤ 1 - c.up / c.maxB by linarith)
        linarith
      have e : (stepW F (.linear m) p c w false 0).getD w
          = c.maxB - (c.maxB - w) * (1 - c.up / c.maxB) := by
        cases m <;>
          simp only [stepW, Option.getD_some, Bool.false_eq_true, if_false, mul_zero, add_zero,
            mul_one] <;> rw [hstep, clipXN_of_mem hin1 hin2]
      rw [train, e, ih _ hin1 hin2]
      ring
  · induction n generalizing w with
    | zero => simp [train]
    | succ n ih =>
      have hne : c.minB ≠ 0 := hmin.ne
      have hstep : w - (c.slopeDown * w + c.down) =
          c.minB + (w - c.minB) * (1 - c.down / -c.minB) := by
        rw [eD]; field_simp; ring
      have hin1 : c.minB ≤ c.minB + (w - c.minB) * (1 - c.down / -c.minB) := by
        have := mul_nonneg (show 0 ≤ w - c.minB by linarith)
          (show 0 ≤ 1 - c.down / -c.minB by linarith)
        linarith
      have hin2 : c.minB + (w - c.minB) * (1 - c.down / -c.minB) ≤ c.maxB := by
        have : (w - c.minB) * (1 - c.down / -c.minB) ≤ w - c.minB := by
          have := mul_le_mul_of_nonneg_left (show 1 - c.down / -c.minB ≤ 1 by linarith)
            (show 0 ≤ w - c.minB by linarith)
          linarith
        linarith
      have e : (stepW F (.linear m) p c w true 0).getD w
          = c.minB + (w - c.minB) * (1 - c.down / -c.minB) := by
        cases m <;>
          simp only [stepW, Option.getD_some, if_true, mul_zero, add_zero,
            mul_one] <;> rw [hstep, clipXN_of_mem hin1 hin2]
      rw [train, e, ih _ hin1 hin2]
      ring

/-- Nodes of the piecewise table are non-negative. -/
def NodesOk : Kind K → Prop
  | .piecewise tu td => (∀ x ∈ tu, 0 ≤ x) ∧ (∀ x ∈ td, 0 ≤ x)
  | _ => True

/-- Classes for which a pulse can only move the weight in its nominal direction. -/
def Directed : Kind K → Prop
  | .constant => True
  | .exp e => e.stdAdd = 0 ∧ e.stdSlope = 0
  | .piecewise _ _ => True
  | _ => False

theorem tab_nonneg {l : List K} (h : ∀ x ∈ l, 0 ≤ x) (i : Nat) : 0 ≤ tab l i := by
  unfold tab
  rw [List.getD_eq_getElem?_getD]
  cases hq : l[i]? with
  | none => simp
  | some v => exact h v (List.mem_of_getElem? hq)

theorem pieceScale_nonneg {tu t : List K} (ht : ∀ x ∈ t, 0 ≤ x) (c : Cell K) (w : K) :
    0 ≤ pieceScale tu t c w := by
  unfold pieceScale
  simp only []
  split_ifs with h
  · exact tab_nonneg ht 0
  · set ws := max ((w - c.minB) / (c.maxB - c.minB) * ((tu.length - 1 : Nat) : K)) 0
    set i := min ⌊ws⌋.toNat (tu.length - 1 - 1)
    have hws : 0 ≤ ws := le_max_right _ _
    have hi : (i : K) ≤ ws := by
      have : (i : K) ≤ (⌊ws⌋.toNat : K) := by exact_mod_cast min_le_left _ _
      refine this.trans ?_
      have hf : 0 ≤ ⌊ws⌋ := Int.floor_nonneg.2 hws
      have : ((⌊ws⌋.toNat : ℤ) : K) = (⌊ws⌋ : K) := by rw [Int.toNat_of_nonneg hf]
      rw [← Int.cast_natCast, this]
      exact Int.floor_le ws
    have h0 : 0 ≤ min (ws - (i : K)) 1 := le_min (by linarith) zero_le_one
    have h1 : min (ws - (i : K)) 1 ≤ 1 := min_le_right _ _
    exact add_nonneg (mul_nonneg (by linarith) (tab_nonneg ht _)) (mul_nonneg h0 (tab_nonneg ht _))

/-- **C46 (direction).**  For constant-step, exp-step (simple noise) and piecewise-step cells with
non-negative step sizes, as long as the cycle-to-cycle noise factor is not negative, a down pulse
never increases and an up pulse never decreases a weight that is within bounds. -/
theorem C46_direction (F : Fns K) (kd : Kind K) (p : Par K) (c : Cell K) (w g w' : K) (down : Bool)
    (hk : Directed kd) (hn : NodesOk kd) (h1 : c.minB ≤ w) (h2 : w ≤ c.maxB) (hu : 0 ≤ c.up)
    (hd : 0 ≤ c.down) (hg : 0 ≤ 1 + p.dwMinStd * g) (hs : stepW F kd p c w down g = some w') :
    (down = true → w' ≤ w) ∧ (down = false → w ≤ w') := by
  have mono : ∀ x : K, x ≤ w → clipMM c x ≤ w ∧ clipXN c x ≤ w := by
    intro x hx
    exact ⟨max_le ((min_le_left _ _).trans hx) h1, (min_le_left _ _).trans (max_le hx h1)⟩
  have mono' : ∀ x : K, w ≤ x → w ≤ clipMM c x ∧ w ≤ clipXN c x := by
    intro x hx
    exact ⟨le_max_of_le_left (le_min hx h2), le_min (le_max_of_le_left hx) h2⟩
  cases kd with
  | constant =>
    have hf : (0 : K) ≤ if 0 < p.dwMinStd then 1 + p.dwMinStd * g else 1 := by
      split_ifs
      · exact hg
      · exact zero_le_one
    simp only [stepW, Option.some.injEq] at hs
    subst hs
    constructor <;> intro h <;> subst h
    · exact (mono _ (by simp only [if_true]; linarith [mul_nonneg hf hd])).1
    · exact (mono' _ (by simp only [Bool.false_eq_true, if_false]; linarith [mul_nonneg hf hu])).1
  | exp e =>
    obtain ⟨k1, k2⟩ := hk
    simp only [stepW, k1, k2, ne_eq, not_true_eq_false, or_self, and_false, if_false] at hs
    split_ifs at hs
    · simp only [Option.some.injEq] at hs
      subst hs
      constructor <;> intro h
      · refine (mono _ ?_).1
        have := mul_nonneg (mul_nonneg (le_max_right (1 - e.aDown * F.expf (e.gDown *
          -(2 * w / (c.maxB - c.minB) * e.a + e.b))) 0) hg) hd
        linarith
      · simp_all
    · simp only [Option.some.injEq] at hs
      subst hs
      constructor <;> intro h
      · simp_all
      · refine (mono' _ ?_).1
        have := mul_nonneg (mul_nonneg (le_max_right (1 - e.aUp * F.expf (e.gUp *
          (2 * w / (c.maxB - c.minB) * e.a + e.b))) 0) hg) hu
        linarith
  | piecewise tu td =>
    simp only [stepW, Option.some.injEq] at hs
    subst hs
    constructor <;> intro h <;> subst h
    · refine (mono _ ?_).2
      have := mul_nonneg (mul_nonneg (pieceScale_nonneg (tu := tu) hn.2 c w) hd) hg
      simp only [if_true]; linarith
    · refine (mono' _ ?_).2
      have := mul_nonneg (mul_nonneg (pieceScale_nonneg (tu := tu) hn.1 c w) hu) hg
      simp only [Bool.false_eq_true, if_false]; linarith
  | linear _ => exact hk.elim
  | pow => exact hk.elim
  | sbRef _ => exact hk.elim
  | powRef => exact hk.elim

/-- **C46 (finding: pow-step-reference jump).**  If weight + reference lies outside the cell's
range (reachable: writing weights clips the weight, not weight + reference), `powf` gets a negative
base, returns NaN for a non-integer exponent, and the next pulse - in whichever direction, however
small the step - throws the cell to its minimal value. -/
theorem C46_powref_jump (F : Fns K) (p : Par K) (c : Cell K) (w g : K) (down : Bool)
    (hb : c.minB < c.maxB)
    (hnan : F.powf (if down then (w + c.ref - c.minB) / (c.maxB - c.minB)
      else (c.maxB - (w + c.ref)) / (c.maxB - c.minB)) (if down then c.gamDown else c.gamUp)
        = .nan) :
    stepW F .powRef p c w down g = some (c.minB - c.ref) := by
  have hne : c.maxB - c.minB ≠ 0 := by
    intro h; linarith
  cases down with
  | true =>
    simp only [if_true] at hnan
    simp only [stepW, hne, if_false, if_true, hnan, addPow, min_eq_left hb.le]
  | false =>
    simp only [Bool.false_eq_true, if_false] at hnan
    simp only [stepW, hne, if_false, Bool.false_eq_true, hnan, addPow, min_eq_left hb.le]

end Aihw.Pulsed

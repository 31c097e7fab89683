import Verif.Decay.Model
import Mathlib.Tactic.Ring
import Mathlib.Tactic.Linarith
import Mathlib.Tactic.FieldSimp
import Mathlib.Algebra.BigOperators.Group.List.Basic

/-!
# C89: theorems on single devices
-/
namespace Aihw.Decay
open Aihw Aihw.Pulsed

variable {K : Type} [Field K] [LinearOrder K] [IsStrictOrderedRing K] [FloorRing K]

/-! ## Lemmas -/

theorem dev_cell (F : Fns K) (c : Call K) (d : Dev K) (j : Nat) :
    (c.dev F d j).cell = d.cell ∧ (c.dev F d j).kd = d.kd ∧ (c.dev F d j).par = d.par ∧ (c.dev F d j).xSize = d.xSize := by
  cases c <;> exact ⟨rfl, rfl, rfl, rfl⟩

theorem decay_weight (F : Fns K) (a : K) (n : Nat → Nat → K) (d : Dev K) (j k : Nat) :
    ((Call.decay a n).dev F d j).weight k =
      clipMM (d.cell k) ((d.weight k - (d.cell k).resetB) * (1 + a * ((d.cell k).decay - 1)) + (d.cell k).resetB) := by
  rw [weight_eq, weight_eq]
  exact stored_onStored d.kd d.par _ (d.st k) (n j k)

theorem diffuse_weight (F : Fns K) (g n : Nat → Nat → K) (d : Dev K) (j k : Nat) :
    ((Call.diffuse g n).dev F d j).weight k = clipMM (d.cell k) (d.weight k + (d.cell k).diff * g j k) := by
  rw [weight_eq, weight_eq]
  exact stored_onStored d.kd d.par _ (d.st k) (n j k)

theorem reset_weight (F : Fns K) (st co : ℤ) (pr : K) (u g n : Nat → Nat → K) (d : Dev K) (j k : Nat) :
    ((Call.reset st co pr u g n).dev F d j).weight k =
      if inCols d.xSize st (if 0 ≤ co then co else d.xSize) ((k % d.xSize : Nat) : ℤ) && fires pr (u j k)
      then resetCell d.par (d.cell k) (g j k) else d.weight k := by
  rw [weight_eq, weight_eq]
  exact stored_onStored d.kd d.par _ (d.st k) (n j k)

/-! ## Specification -/

/-- A history of decays: scale and draws of each call. -/
def decays (l : List (K × (Nat → Nat → K))) : List (Call K) := l.map fun q => .decay q.1 q.2

/-- The weight of cell `k` is inside the bounds of the cell. -/
def Within (d : Dev K) (k : Nat) (w : K) : Prop := (d.cell k).minB ≤ w ∧ w ≤ (d.cell k).maxB

theorem limited_eq {d : Dev K} {k : Nat} {w : K} (h : Within d k w) : limited d k w = w := by
  unfold limited
  rw [if_neg (not_lt.2 h.1), if_neg (not_lt.2 h.2)]

theorem clip_eq {d : Dev K} {k : Nat} {w : K} (h : Within d k w) : clipMM (d.cell k) w = w := clipMM_of_mem h.1 h.2

/-- A weight between `b` and `w`. -/
theorem between {d : Dev K} {k : Nat} {b w s : K} (hb : Within d k b) (hw : Within d k w) (h0 : 0 ≤ s) (h1 : s ≤ 1) :
    Within d k (b + (w - b) * s) := by
  have e : b + (w - b) * s = b * (1 - s) + w * s := by ring
  have h2 : 0 ≤ 1 - s := by linarith
  rw [e]
  constructor
  · have := mul_le_mul_of_nonneg_right hb.1 h2
    have := mul_le_mul_of_nonneg_right hw.1 h0
    have : (d.cell k).minB = (d.cell k).minB * (1 - s) + (d.cell k).minB * s := by ring
    linarith
  · have := mul_le_mul_of_nonneg_right hb.2 h2
    have := mul_le_mul_of_nonneg_right hw.2 h0
    have : (d.cell k).maxB = (d.cell k).maxB * (1 - s) + (d.cell k).maxB * s := by ring
    linarith

/-! ## Decay -/

/-- One decay of a single device, whatever the parameters: the weight moves towards the reset bias of its cell by the
fraction `alpha · rate`, and is limited to the bounds. -/
theorem C89_decay_once (F : Fns K) (d : Dev K) (a : K) (n : Nat → Nat → K) :
    ∃ d', (Tile.pulsed d).exec F (.decay a n) = .ok (.pulsed d') ∧
      (Tile.mixed d).exec F (.decay a n) = .ok (.mixed d') ∧
      ∀ k, (d.cell k).minB ≤ (d.cell k).maxB →
        d'.weight k = limited d k ((d.cell k).resetB +
          (d.weight k - (d.cell k).resetB) * (1 - a * (1 - (d.cell k).decay))) := by
  refine ⟨(Call.decay a n).dev F d 0, rfl, rfl, ?_⟩
  intro k hb
  rw [decay_weight, clipMM_limited d k _ hb]
  congr 1
  ring

theorem decays_run (F : Fns K) (l : List (K × (Nat → Nat → K))) (d : Dev K) :
    ∃ d', (Tile.pulsed d).run F (decays l) = .ok (.pulsed d') ∧ (Tile.mixed d).run F (decays l) = .ok (.mixed d') ∧
      d'.cell = d.cell ∧ d'.kd = d.kd ∧ d'.par = d.par ∧
      ∀ k, Within d k (d.cell k).resetB → Within d k (d.weight k) →
        (∀ q ∈ l, 0 ≤ q.1 * (1 - (d.cell k).decay) ∧ q.1 * (1 - (d.cell k).decay) ≤ 1) →
        d'.weight k = (d.cell k).resetB + (d.weight k - (d.cell k).resetB) *
          (l.map fun q => 1 - q.1 * (1 - (d.cell k).decay)).prod := by
  induction l generalizing d with
  | nil =>
    refine ⟨d, rfl, rfl, rfl, rfl, rfl, ?_⟩
    intro k _ _ _
    simp
  | cons q l ih =>
    obtain ⟨d', r1, r2, c1, c2, c3, hk⟩ := ih ((Call.decay q.1 q.2).dev F d 0)
    obtain ⟨e1, e2, e3, -⟩ := dev_cell F (.decay q.1 q.2) d 0
    refine ⟨d', r1, r2, c1.trans e1, c2.trans e2, c3.trans e3, ?_⟩
    intro k hb hw hq
    have hs := hq q List.mem_cons_self
    have hb1 := between (s := 1 - q.1 * (1 - (d.cell k).decay)) hb hw (by linarith [hs.2]) (by linarith [hs.1])
    have e : ((Call.decay q.1 q.2).dev F d 0).weight k =
        (d.cell k).resetB + (d.weight k - (d.cell k).resetB) * (1 - q.1 * (1 - (d.cell k).decay)) := by
      rw [decay_weight, ← clip_eq hb1]
      congr 1
      ring
    have h := hk k
    simp only [Within, e1] at h
    rw [h hb (by rw [e]; exact hb1) (fun q' h' => hq q' (List.mem_cons_of_mem _ h')), e]
    simp only [List.map_cons, List.prod_cons]
    ring

/-- Any number of decays with any scales that do not overshoot: the distance of the weight to the reset bias is
multiplied by every factor.  The stored weight follows this whatever the write noise; without write noise it is the weight
of the tile. -/
theorem C89_decay (F : Fns K) (l : List (K × (Nat → Nat → K))) (d : Dev K) :
    ∃ d', (Tile.pulsed d).run F (decays l) = .ok (.pulsed d') ∧ (Tile.mixed d).run F (decays l) = .ok (.mixed d') ∧
      (¬ 0 < d.par.writeNoise → (Tile.pulsed d').weights = d'.weight) ∧
      ∀ k, Within d k (d.cell k).resetB → Within d k (d.weight k) →
        (∀ q ∈ l, 0 ≤ q.1 * (1 - (d.cell k).decay) ∧ q.1 * (1 - (d.cell k).decay) ≤ 1) →
        d'.weight k = (d.cell k).resetB + (d.weight k - (d.cell k).resetB) *
          (l.map fun q => 1 - q.1 * (1 - (d.cell k).decay)).prod := by
  obtain ⟨d', r1, r2, c1, c2, c3, hk⟩ := decays_run F l d
  refine ⟨d', r1, r2, ?_, hk⟩
  intro hn
  funext k
  rw [weight_eq, stored_persistent, c2, c3]
  have : persistent d.kd d.par = false := by
    unfold persistent
    split
    · rfl
    · exact decide_eq_false hn
  rw [this]
  rfl

/-- What the construction makes of the parameters of a device: with a lifetime `t > 1` of the cell the factor of a decay is
`1 - alpha / t`; a lifetime of at most 1 is total loss, no lifetime is no decay.  The reset bias is drawn around `reset`,
the spread is not relative. -/
theorem C89_rate (expf th : K → K) (p : PopPar K) (last : Bool) (r : PopDraw K) (c : Cell K)
    (h : populateCell expf th p last r = .ok c) (a : K) :
    (0 < p.lifetime → 1 < p.lifetime * (1 + p.lifetimeDtod * r.gLife) →
      1 - a * (1 - c.decay) = 1 - a / (p.lifetime * (1 + p.lifetimeDtod * r.gLife))) ∧
    (0 < p.lifetime → p.lifetime * (1 + p.lifetimeDtod * r.gLife) ≤ 1 → 1 - a * (1 - c.decay) = 1 - a) ∧
    (p.lifetime ≤ 0 → 1 - a * (1 - c.decay) = 1) ∧
    c.resetB = p.reset + p.resetDtod * r.gReset ∧ c.diff = |p.diffusion * (1 + p.diffusionDtod * r.gDiff)| := by
  unfold populateCell at h
  by_cases h0 : 0 < p.wMin ∨ p.wMax < 0
  · rw [if_pos h0] at h; cases h
  rw [if_neg h0] at h
  dsimp only at h
  split at h
  · cases h
  · injection h with h
    subst h
    refine ⟨?_, ?_, ?_, rfl, rfl⟩
    · intro h1 h2
      simp only [if_pos h1, if_pos h2]
      ring
    · intro h1 h2
      simp only [if_pos h1, if_neg (not_lt.2 h2)]
      ring
    · intro h1
      simp only [if_neg (not_lt.2 h1)]
      ring

/-- The factor of a decay of a floating-point tile or an ideal device. -/
def floatFactor (life a : K) : K := if 1 < life ∧ 0 < a ∧ a < life then 1 - a / life else 1

theorem simpleDecay_eq (p : SimplePar K) (a : K) (w : Nat → K) (k : Nat) :
    simpleDecay p a w k = w k * floatFactor p.lifetime a := by
  unfold simpleDecay floatFactor decayScale decayRate
  by_cases h1 : 1 < p.lifetime
  · have hl : 0 < p.lifetime := by linarith
    rw [if_pos h1]
    have e1 : (0 < 1 - a * (1 / p.lifetime)) ↔ a < p.lifetime := by
      rw [sub_pos, mul_one_div, div_lt_one hl]
    have e2 : (1 - a * (1 / p.lifetime) < 1) ↔ 0 < a := by
      rw [sub_lt_self_iff, mul_one_div, div_pos_iff_of_pos_right hl]
    by_cases h : 0 < a ∧ a < p.lifetime
    · rw [if_pos ⟨e1.2 h.2, e2.2 h.1⟩, if_pos ⟨h1, h⟩]
      show (1 - a * (1 / p.lifetime)) * w k = _
      ring
    · rw [if_neg (fun h' => h ⟨e2.1 h'.2, e1.1 h'.1⟩), if_neg (fun h' => h h'.2)]
      ring
  · rw [if_neg h1, if_neg (fun h => absurd h.2 (by rw [mul_zero, sub_zero]; exact lt_irrefl _)),
      if_neg (fun h => h1 h.1), mul_one]

/-- Decays of floating-point tiles and ideal devices: every decay multiplies by `1 - alpha / lifetime`, if the lifetime
exceeds 1 and `0 < alpha < lifetime`; otherwise the call does nothing. -/
theorem C89_float (F : Fns K) (p : SimplePar K) (x : Nat) (l : List (K × (Nat → Nat → K))) (w : Nat → K) :
    ∃ w' : Nat → K, (Tile.float p w).run F (decays l) = .ok (.float p w') ∧
      (Tile.ideal p x w).run F (decays l) = .ok (.ideal p x w') ∧
      ∀ k, w' k = w k * (l.map fun q => floatFactor p.lifetime q.1).prod := by
  induction l generalizing w with
  | nil => exact ⟨w, rfl, rfl, fun k => by simp⟩
  | cons q l ih =>
    obtain ⟨w', r1, r2, h⟩ := ih (simpleDecay p q.1 w)
    refine ⟨w', r1, r2, ?_⟩
    intro k
    rw [h k, simpleDecay_eq]
    simp only [List.map_cons, List.prod_cons]
    ring

/-- The two kinds of tiles disagree on a lifetime in `(0, 1]`, and on scales of at least the lifetime: an ideal device keeps
its weights, a pulsed device without variations loses them (`alpha = 1`). -/
theorem C89_short_lifetime (F : Fns K) (p : SimplePar K) (x : Nat) (w : Nat → K) (n : Nat → Nat → K)
    (h1 : p.lifetime ≤ 1) (d : Dev K) (hd : ∀ k, (d.cell k).decay = 0) :
    (Tile.ideal p x w).exec F (.decay 1 n) = .ok (.ideal p x w) ∧
    ∃ d', (Tile.pulsed d).exec F (.decay 1 n) = .ok (.pulsed d') ∧
      ∀ k, (d.cell k).minB ≤ (d.cell k).maxB → d'.weight k = limited d k (d.cell k).resetB := by
  constructor
  · have e : simpleDecay p 1 w = w := by
      funext k
      rw [simpleDecay_eq, floatFactor, if_neg (fun h => absurd h.1 (not_lt.2 h1)), mul_one]
    show Except.ok (Tile.ideal p x (simpleDecay p 1 w)) = _
    rw [e]
  · obtain ⟨d', r, _, h⟩ := C89_decay_once F d 1 n
    refine ⟨d', r, ?_⟩
    intro k hb
    rw [h k hb, hd k]
    congr 1
    ring

/-! ## Diffusion -/

/-- A history of diffusions. -/
def diffusions (l : List ((Nat → Nat → K) × (Nat → Nat → K))) : List (Call K) := l.map fun q => .diffuse q.1 q.2

/-- One diffusion: the weight moves by the rate of its cell times the draw, and is limited to the bounds; it never moves
further than that. -/
theorem C89_diffuse_once (F : Fns K) (d : Dev K) (g n : Nat → Nat → K) :
    ∃ d', (Tile.pulsed d).exec F (.diffuse g n) = .ok (.pulsed d') ∧
      (Tile.mixed d).exec F (.diffuse g n) = .ok (.mixed d') ∧
      ∀ k, (d.cell k).minB ≤ (d.cell k).maxB →
        d'.weight k = limited d k (d.weight k + (d.cell k).diff * g 0 k) ∧
        (Within d k (d.weight k) → |d'.weight k - d.weight k| ≤ |(d.cell k).diff * g 0 k|) := by
  refine ⟨(Call.diffuse g n).dev F d 0, rfl, rfl, ?_⟩
  intro k hb
  have e : ((Call.diffuse g n).dev F d 0).weight k = limited d k (d.weight k + (d.cell k).diff * g 0 k) := by
    rw [diffuse_weight, clipMM_limited d k _ hb]
  refine ⟨e, ?_⟩
  intro hw
  rw [e]
  generalize (d.cell k).diff * g 0 k = v
  obtain ⟨a, b⟩ := hw
  unfold limited
  split_ifs with h1 h2
  · rw [abs_of_nonpos (by linarith), abs_of_neg (by linarith)]
    linarith
  · rw [abs_of_nonneg (by linarith), abs_of_pos (by linarith)]
    linarith
  · rw [add_sub_cancel_left]

/-- Any number of diffusions: as long as the bounds are not reached, the weight does a random walk. -/
theorem C89_diffuse (F : Fns K) (l : List ((Nat → Nat → K) × (Nat → Nat → K))) (d : Dev K) :
    ∃ d', (Tile.pulsed d).run F (diffusions l) = .ok (.pulsed d') ∧
      ∀ k, (∀ i, i ≤ l.length → Within d k (d.weight k + (d.cell k).diff * ((l.take i).map fun q => q.1 0 k).sum)) →
        d'.weight k = d.weight k + (d.cell k).diff * (l.map fun q => q.1 0 k).sum := by
  induction l generalizing d with
  | nil => exact ⟨d, rfl, fun k _ => by simp⟩
  | cons q l ih =>
    obtain ⟨d', r, h⟩ := ih ((Call.diffuse q.1 q.2).dev F d 0)
    obtain ⟨e1, -⟩ := dev_cell F (.diffuse q.1 q.2) d 0
    refine ⟨d', r, ?_⟩
    intro k hk
    have e : ((Call.diffuse q.1 q.2).dev F d 0).weight k = d.weight k + (d.cell k).diff * q.1 0 k := by
      rw [diffuse_weight]
      refine clip_eq ?_
      have := hk 1 (by simp)
      simpa using this
    have h' := h k
    rw [e1, e] at h'
    rw [h']
    · simp only [List.map_cons, List.sum_cons]
      ring
    · intro i hi
      have := hk (i + 1) (by simpa using hi)
      simp only [List.take_succ_cons, List.map_cons, List.sum_cons] at this
      unfold Within at this ⊢
      rw [e1]
      have e2 : d.weight k + (d.cell k).diff * q.1 0 k + (d.cell k).diff * ((l.take i).map fun q => q.1 0 k).sum =
        d.weight k + (d.cell k).diff * (q.1 0 k + ((l.take i).map fun q => q.1 0 k).sum) := by ring
      rw [e2]
      exact this

/-- Diffusion of floating-point tiles and ideal devices: the same rate for all weights, no bounds, none for rates of at most
0. -/
theorem C89_float_diffuse (F : Fns K) (p : SimplePar K) (x : Nat) (l : List ((Nat → Nat → K) × (Nat → Nat → K)))
    (w : Nat → K) :
    ∃ w' : Nat → K, (Tile.float p w).run F (diffusions l) = .ok (.float p w') ∧
      (Tile.ideal p x w).run F (diffusions l) = .ok (.ideal p x w') ∧
      ∀ k, w' k = w k + max p.diffusion 0 * (l.map fun q => q.1 0 k).sum := by
  induction l generalizing w with
  | nil => exact ⟨w, rfl, rfl, fun k => by simp⟩
  | cons q l ih =>
    obtain ⟨w', r1, r2, h⟩ := ih (simpleDiffuse p (q.1 0) w)
    refine ⟨w', r1, r2, ?_⟩
    intro k
    rw [h k]
    have e : simpleDiffuse p (q.1 0) w k = w k + max p.diffusion 0 * q.1 0 k := by
      unfold simpleDiffuse
      split_ifs with h0
      · rw [max_eq_left h0.le]
      · rw [max_eq_right (not_lt.1 h0), zero_mul, add_zero]
    rw [e]
    simp only [List.map_cons, List.sum_cons]
    ring

/-! ## Reset -/

/-- The columns named by `reset_columns(start, cols)`: `cols` consecutive columns from `start` on, wrapping around; all
columns if `cols` is negative. -/
def Columns (x start : ℕ) (cols : ℤ) (j : ℕ) : Prop := cols < 0 ∨ ∃ m : ℕ, (m : ℤ) < cols ∧ j = (start + m) % x

theorem col_mod (x i j : ℕ) (hj : j < x) : (i * x + j) % x = j := by
  rw [Nat.mul_comm, Nat.mul_add_mod, Nat.mod_eq_of_lt hj]

theorem inCols_iff (x start : ℕ) (cols : ℤ) (j : ℕ) (hs : start < x) (hj : j < x) :
    inCols x start (if 0 ≤ cols then cols else x) (j : ℤ) = true ↔ Columns x start cols j := by
  unfold inCols Columns
  simp only [Bool.or_eq_true, Bool.and_eq_true, decide_eq_true_eq]
  by_cases hc : 0 ≤ cols
  · rw [if_pos hc]
    obtain ⟨n, rfl⟩ := Int.eq_ofNat_of_zero_le hc
    constructor
    · intro h
      right
      by_cases hge : start ≤ j
      · refine ⟨j - start, ?_, ?_⟩
        · omega
        · rw [Nat.add_sub_cancel' hge, Nat.mod_eq_of_lt hj]
      · refine ⟨j + x - start, ?_, ?_⟩
        · omega
        · rw [show start + (j + x - start) = j + x by omega, Nat.add_mod_right, Nat.mod_eq_of_lt hj]
    · rintro (h | ⟨m, hm, rfl⟩)
      · omega
      · have hm' : m < n := by exact_mod_cast hm
        by_cases hlt : start + m < x
        · rw [Nat.mod_eq_of_lt hlt]
          by_cases h2 : start + n ≤ x
          · left; omega
          · right; omega
        · have h3 : (start + m) % x ≤ start + m - x := by
            rw [Nat.mod_eq_sub_mod (by omega)]
            exact Nat.mod_le _ _
          right
          omega
  · rw [if_neg hc]
    constructor
    · intro _; left; omega
    · intro _
      by_cases h0 : start = 0
      · left; omega
      · right; omega

theorem fires_iff (prob u : K) : fires prob u = true ↔ prob = 1 ∨ u < prob := by
  unfold fires
  simp only [Bool.or_eq_true, decide_eq_true_eq]

theorem resetCell_eq (d : Dev K) (k : Nat) (g : K) (hb : (d.cell k).minB ≤ (d.cell k).maxB) :
    resetCell d.par (d.cell k) g = limited d k ((d.cell k).resetB + max d.par.resetStd 0 * g) := by
  unfold resetCell
  rw [clipMM_limited d k _ hb]
  congr 2
  split_ifs with h0
  · rw [max_eq_left h0.le]
  · rw [max_eq_right (not_lt.1 h0), zero_mul]

/-- `reset_columns` with a valid start column: the weights in the named columns for which the reset fires are drawn anew
around the reset bias of their cell, inside their bounds; all others keep their value. -/
theorem C89_reset_columns (F : Fns K) (d : Dev K) (start : ℕ) (cols : ℤ) (prob : K) (u g n : Nat → Nat → K)
    (hs : start < d.xSize) (hp : prob ≠ 0) :
    ∃ d', (Tile.pulsed d).exec F (.reset start cols prob u g n) = .ok (.pulsed d') ∧
      (Tile.mixed d).exec F (.reset start cols prob u g n) = .ok (.mixed d') ∧
      ∀ i j, j < d.xSize →
        let k := i * d.xSize + j
        (Columns d.xSize start cols j → prob = 1 ∨ u 0 k < prob → (d.cell k).minB ≤ (d.cell k).maxB →
          d'.weight k = limited d k ((d.cell k).resetB + max d.par.resetStd 0 * g 0 k)) ∧
        (¬ (Columns d.xSize start cols j ∧ (prob = 1 ∨ u 0 k < prob)) → d'.weight k = d.weight k) := by
  refine ⟨(Call.reset start cols prob u g n).dev F d 0, ?_, ?_, ?_⟩
  · show (if (decide (prob = 0)) = true then _ else _) = _
    rw [decide_eq_false hp]; rfl
  · show (if (decide (prob = 0)) = true then _ else _) = _
    rw [decide_eq_false hp]; rfl
  · intro i j hj k
    have hm : k % d.xSize = j := by
      show (i * d.xSize + j) % d.xSize = j
      exact col_mod _ _ _ hj
    rw [reset_weight, hm]
    have hi := inCols_iff d.xSize start cols j hs hj
    have hf := fires_iff prob (u 0 k)
    constructor
    · intro h1 h2 hb
      rw [hi.2 h1, hf.2 h2]
      exact resetCell_eq d k _ hb
    · intro h
      have : ¬ (inCols d.xSize start (if 0 ≤ cols then cols else d.xSize) (j : ℤ) && fires prob (u 0 k)) = true := by
        rw [Bool.and_eq_true, hi, hf]
        exact h
      rw [if_neg this]

/-- `reset_columns` of an ideal device: the weights in the named columns for which the reset fires are drawn anew around 0,
without bounds; all others keep their value. -/
theorem C89_reset_ideal (F : Fns K) (p : SimplePar K) (x : ℕ) (w : Nat → K) (start : ℕ) (cols : ℤ) (prob : K)
    (u g n : Nat → Nat → K) (hs : start < x) (hp : prob ≠ 0) :
    ∃ w', (Tile.ideal p x w).exec F (.reset start cols prob u g n) = .ok (.ideal p x w') ∧
      ∀ i j, j < x →
        (Columns x start cols j → prob = 1 ∨ u 0 (i * x + j) < prob →
          w' (i * x + j) = max p.resetStd 0 * g 0 (i * x + j)) ∧
        (¬ (Columns x start cols j ∧ (prob = 1 ∨ u 0 (i * x + j) < prob)) → w' (i * x + j) = w (i * x + j)) := by
  refine ⟨simpleReset p x start cols (fun k => fires prob (u 0 k)) (g 0) w, ?_, ?_⟩
  · show (if (decide (prob = 0)) = true then _ else _) = _
    rw [decide_eq_false hp]; rfl
  · intro i j hj
    have hi := inCols_iff x start cols j hs hj
    have hf := fires_iff prob (u 0 (i * x + j))
    unfold simpleReset
    rw [col_mod _ _ _ hj]
    beta_reduce
    constructor
    · intro h1 h2
      rw [hi.2 h1, hf.2 h2]
      show (if 0 < p.resetStd then _ else _) = _
      split_ifs with h0
      · rw [max_eq_left h0.le]
      · rw [max_eq_right (not_lt.1 h0), zero_mul]
    · intro h
      have : ¬ (inCols x start (if 0 ≤ cols then cols else x) (j : ℤ) && fires prob (u 0 (i * x + j))) = true := by
        rw [Bool.and_eq_true, hi, hf]
        exact h
      rw [if_neg this]

/-- `reset()` reaches every weight. -/
theorem C89_reset (F : Fns K) (d : Dev K) (u g n : Nat → Nat → K) (hx : 0 < d.xSize) :
    ∃ d', (Tile.pulsed d).exec F (.resetAll 1 u g n) = .ok (.pulsed d') ∧
      ∀ k, (d.cell k).minB ≤ (d.cell k).maxB →
        d'.weight k = limited d k ((d.cell k).resetB + max d.par.resetStd 0 * g 0 k) := by
  obtain ⟨d', r, -, h⟩ := C89_reset_columns F d 0 (-1) 1 u g n hx one_ne_zero
  refine ⟨d', r, ?_⟩
  intro k hb
  have hk : k / d.xSize * d.xSize + k % d.xSize = k := by rw [Nat.mul_comm]; exact Nat.div_add_mod k d.xSize
  have := (h (k / d.xSize) (k % d.xSize) (Nat.mod_lt _ hx)).1
  simp only [hk] at this
  exact this (Or.inl (by omega)) (by simp) hb

/-- With probability 0 nothing happens, and floating-point tiles refuse every reset. -/
theorem C89_reset_none (F : Fns K) (d : Dev K) (p : SimplePar K) (w : Nat → K) (start cols : ℤ) (prob : K)
    (u g n : Nat → Nat → K) :
    (Tile.pulsed d).exec F (.reset start cols 0 u g n) = .ok (.pulsed d) ∧
    (Tile.float p w).exec F (.reset start cols prob u g n) = .error .runtimeError := by
  refine ⟨?_, rfl⟩
  show (if (decide ((0 : K) = 0)) = true then _ else _) = _
  rw [decide_eq_true rfl]; rfl

/-- A start column outside `0 … x_size - 1` is not refused and not wrapped: beyond the last column all columns up to the end
of the range are reset, from the first one on; before the first column the part before it is dropped. -/
theorem C89_reset_unchecked (F : Fns K) (d : Dev K) (a c : ℕ) (u g n : Nat → Nat → K) (hc : 0 < c) :
    (∃ d', (Tile.pulsed d).exec F (.reset ((d.xSize : ℤ) + a) c 1 u g n) = .ok (.pulsed d') ∧
      ∀ i j, j < d.xSize → a + c ≤ j → d'.weight (i * d.xSize + j) = d.weight (i * d.xSize + j)) ∧
    (∃ d', (Tile.pulsed d).exec F (.reset ((d.xSize : ℤ) + a) c 1 u g n) = .ok (.pulsed d') ∧
      ∀ i j, j < d.xSize → j < a + c → (d.cell (i * d.xSize + j)).minB ≤ (d.cell (i * d.xSize + j)).maxB →
        d'.weight (i * d.xSize + j) = limited d (i * d.xSize + j)
          ((d.cell (i * d.xSize + j)).resetB + max d.par.resetStd 0 * g 0 (i * d.xSize + j))) ∧
    (∃ d', (Tile.pulsed d).exec F (.reset (-(a : ℤ)) c 1 u g n) = .ok (.pulsed d') ∧
      ∀ i j, j < d.xSize → c ≤ a + j → c ≤ a + d.xSize →
        d'.weight (i * d.xSize + j) = d.weight (i * d.xSize + j)) := by
  have ex : ∀ st : ℤ, (Tile.pulsed d).exec F (.reset st c 1 u g n) = .ok (.pulsed ((Call.reset st c 1 u g n).dev F d 0)) := by
    intro st
    show (if (decide ((1 : K) = 0)) = true then _ else _) = _
    rw [decide_eq_false one_ne_zero]; rfl
  have hm : ∀ i j, j < d.xSize → (i * d.xSize + j) % d.xSize = j := fun i j hj => col_mod _ _ _ hj
  have hn : (0 : ℤ) ≤ (c : ℤ) := by omega
  refine ⟨⟨_, ex _, ?_⟩, ⟨_, ex _, ?_⟩, ⟨_, ex _, ?_⟩⟩
  · intro i j hj hge
    rw [reset_weight, hm i j hj, if_pos hn, if_neg]
    unfold inCols
    simp only [Bool.and_eq_true, Bool.or_eq_true, decide_eq_true_eq, not_and]
    omega
  · intro i j hj hlt hb
    rw [reset_weight, hm i j hj, if_pos hn, if_pos]
    · exact resetCell_eq d _ _ hb
    · rw [Bool.and_eq_true, fires_iff]
      refine ⟨?_, Or.inl rfl⟩
      unfold inCols
      simp only [Bool.and_eq_true, Bool.or_eq_true, decide_eq_true_eq]
      omega
  · intro i j hj h1 h2
    rw [reset_weight, hm i j hj, if_pos hn, if_neg]
    unfold inCols
    simp only [Bool.and_eq_true, Bool.or_eq_true, decide_eq_true_eq, not_and]
    omega

end Aihw.Decay

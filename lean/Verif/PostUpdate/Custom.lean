import Verif.Common
import Verif.Periphery.Model
import Mathlib.Tactic.Positivity

/-!
# The custom simulator tile (C41)

src/aihwkit/simulator/tiles/custom.py:106-151 (`update`, `set_weights`) and 204-216
(`set_weights_uniform_random`); reference semantics of `set_weights_uniform_random`: the RPUCuda tile,
src/rpucuda/rpu.cpp:1299-1306, and the documentation of src/aihwkit/simulator/tiles/base.py:260-267.
-/
namespace Aihw.PostUpdate.Custom

/-- custom.py:204-216: one weight for the uniform number `u ∈ [0, 1)`. -/
def uniformRandom (bmin bmax u : ℚ) : Except PyErr ℚ :=
  if bmin ≥ bmax then .error .tileError else .ok (u / (bmax - bmin) - bmin)

/-- `d.T @ x` for a batch, entry `(i, j)`: the sum over samples of `d_i x_j` (custom.py:131). -/
def gradEntry (batch : List (Vec × Vec)) (i j : Nat) : ℚ :=
  (batch.map fun p => p.1.getD i 0 * p.2.getD j 0).sum

/-- custom.py:106-138 `update` without gradient noise: `w - lr * d.T @ x`; samples are (error, input). -/
def update (lr : ℚ) (batch : List (Vec × Vec)) (w : Mat) : Mat :=
  w.mapIdx fun i r => r.mapIdx fun j x => x - lr * gradEntry batch i j

/-! ## C41 -/

/-- **C41** (wrong range). `set_weights_uniform_random(bmin, bmax)` of the custom tile stays inside the requested
interval for all random numbers exactly if `bmin ≤ 0`, `-bmin ≤ bmax` and `(bmax - bmin)(bmax + bmin) ≥ 1`. -/
theorem C41_uniform_random_range (bmin bmax : ℚ) (h : bmin < bmax) :
    (∀ u, 0 ≤ u → u < 1 → ∃ w, uniformRandom bmin bmax u = .ok w ∧ bmin ≤ w ∧ w ≤ bmax) ↔
      (bmin ≤ 0 ∧ -bmin ≤ bmax ∧ 1 ≤ (bmax - bmin) * (bmax + bmin)) := by
  have hd : 0 < bmax - bmin := by linarith
  have hr : ∀ u, uniformRandom bmin bmax u = .ok (u / (bmax - bmin) - bmin) := by
    intro u; unfold uniformRandom; rw [if_neg (not_le.2 h)]
  simp only [hr, Except.ok.injEq, exists_eq_left']
  constructor
  · intro H
    obtain ⟨h1, h2⟩ := H 0 le_rfl (by norm_num)
    simp only [zero_div, zero_sub] at h1 h2
    refine ⟨by linarith, h2, ?_⟩
    by_contra hlt
    rw [not_le] at hlt
    -- a number close enough to one
    set c := (bmax - bmin) * (bmax + bmin) with hc
    have hc0 : 0 ≤ c := by rw [hc]; exact mul_nonneg hd.le (by linarith)
    obtain ⟨_, h4⟩ := H ((c + 1) / 2) (by linarith) (by linarith)
    rw [sub_le_iff_le_add, div_le_iff₀ hd] at h4
    have : (bmax + bmin) * (bmax - bmin) = c := by rw [hc]; ring
    linarith
  · rintro ⟨h1, h2, h3⟩ u hu0 hu1
    constructor
    · have : 0 ≤ u / (bmax - bmin) := div_nonneg hu0 hd.le
      linarith
    · rw [sub_le_iff_le_add, div_le_iff₀ hd]
      nlinarith

/-- **C41** (symmetric ranges). For every symmetric range `(-b, b)` - the one used by `program_weights` - some draws leave
the range, and no draw is below `b`: all weights are at least the upper end. -/
theorem C41_symmetric_always_outside (b : ℚ) (hb : 0 < b) :
    (∃ u, 0 ≤ u ∧ u < 1 ∧ ∃ w, uniformRandom (-b) b u = .ok w ∧ b < w) ∧
    (∀ u, 0 ≤ u → ∃ w, uniformRandom (-b) b u = .ok w ∧ b ≤ w) := by
  have hr : ∀ u, uniformRandom (-b) b u = .ok (u / (b - -b) - -b) := by
    intro u; unfold uniformRandom; rw [if_neg (by linarith)]
  have hd : 0 < b - -b := by linarith
  refine ⟨⟨1 / 2, by norm_num, by norm_num, _, hr _, ?_⟩, fun u hu => ⟨_, hr u, ?_⟩⟩
  · have : 0 < (1 / 2 : ℚ) / (b - -b) := by positivity
    linarith
  · have : 0 ≤ u / (b - -b) := div_nonneg hu hd.le
    linarith

/-- **C41** (update formula). Every weight decreases by the learning rate times the sum over the batch of error times
input. -/
theorem C41_update_entry (lr : ℚ) (batch : List (Vec × Vec)) (w : Mat) (i j : Nat) (hi : i < w.length)
    (hj : j < w[i].length) : ((update lr batch w).getD i []).getD j 0 =
      w[i][j] - lr * (batch.map fun p => p.1.getD i 0 * p.2.getD j 0).sum := by
  simp [update, hi, hj, gradEntry]

/-- **C41** (update). Without gradient noise one update with a batch equals the sequence of single-sample updates, in
any order of the samples. -/
theorem C41_update_batch (lr : ℚ) (batch batch' : List (Vec × Vec)) (hp : batch.Perm batch') (w : Mat) :
    update lr batch w = batch'.foldl (fun w p => update lr [p] w) w := by
  have hperm : update lr batch w = update lr batch' w := by
    unfold update
    have : ∀ i j, gradEntry batch i j = gradEntry batch' i j := fun i j => (hp.map _).sum_eq
    simp only [this]
  rw [hperm]
  clear hperm hp
  induction batch' generalizing w with
  | nil =>
    simp only [update, gradEntry, List.map_nil, List.sum_nil, mul_zero, sub_zero, List.foldl_nil]
    apply List.ext_getElem (by simp)
    intro i h1 h2
    rw [List.getElem_mapIdx]
    apply List.ext_getElem (by simp)
    intro j h3 h4
    rw [List.getElem_mapIdx]
  | cons p b ih =>
    rw [List.foldl_cons, ← ih]
    unfold update
    apply List.ext_getElem (by simp)
    intro i h1 h2
    simp only [List.getElem_mapIdx]
    apply List.ext_getElem (by simp)
    intro j h3 h4
    simp only [List.getElem_mapIdx, gradEntry, List.map_cons, List.sum_cons, List.map_nil, List.sum_nil]
    ring

/-- Non-vacuity: a range that does work, one that does not, and a batch. -/
example :
    (∀ u : ℚ, 0 ≤ u → u < 1 → ∃ w, uniformRandom 0 1 u = .ok w ∧ 0 ≤ w ∧ w ≤ 1) ∧
    uniformRandom (-1) 1 (1 / 2) = .ok (5 / 4) ∧
    update (1 / 2) [([1, 2], [1, 0]), ([0, 2], [4, 2])] [[1, 1], [1, 1]] = [[1 / 2, 1], [-4, -1]] := by
  refine ⟨(C41_uniform_random_range 0 1 (by norm_num)).2 (by norm_num), by decide +kernel, by decide +kernel⟩

end Aihw.PostUpdate.Custom

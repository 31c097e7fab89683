import Verif.GpuMod.AsCpu
import Mathlib.Tactic.FieldSimp

/-!
# C42 on the GPU: the same modifier, its remembered maximum, and what it refuses
-/
namespace Aihw.GpuMod
open Aihw.PostUpdate.Modifier (ModType ModPars roundC applyMod Nearest OnGrid)

/-- The kernels' loop, for every number of threads and in every order, in place and between arrays: each weight outside
a kept last column is treated once, the last column is copied. -/
theorem C42_gpu_loop (threads size nb : ℕ) (hT : 1 ≤ threads) (hs : nb ≤ size) (order : List ℕ)
    (ho : order.Perm (GpuIo.visits threads size)) (inPlace : Bool) (body : ℕ → ℚ → ℚ) (weights new : Arr) (i : ℕ) :
    wmLoop order size nb inPlace body weights new i = kernel size nb inPlace body weights new i ∧
    (i < nb → kernel size nb inPlace body weights new i = body i (if inPlace then new i else weights i)) ∧
    (nb ≤ i → i < size → kernel size nb inPlace body weights new i = if inPlace then new i else weights i) ∧
    (size ≤ i → kernel size nb inPlace body weights new i = new i) := by
  refine ⟨?_, fun h => ?_, fun h1 h2 => ?_, fun h => ?_⟩
  · rw [loop_at _ _ _ _ _ _ (ho.nodup_iff.mpr (GpuIo.nodup_visits threads size)),
      ← visit_self size nb hs inPlace body weights new i]
    have hm : i ∈ order ↔ i < size := by rw [ho.mem_iff, GpuIo.mem_visits threads size i hT]
    by_cases h : i < size
    · rw [if_pos h, if_pos (hm.2 h)]
    · rw [if_neg h, if_neg (fun hh => h (hm.1 hh))]
  · unfold kernel; rw [if_pos h]
  · unfold kernel
    rw [if_neg (not_lt.2 h1)]
    cases inPlace with
    | false => rw [if_pos ⟨h2, rfl⟩]; rfl
    | true => rw [if_neg (fun hh => absurd hh.2 (by decide))]; rfl
  · unfold kernel
    rw [if_neg (by omega), if_neg (fun hh => absurd hh.1 (not_lt.2 h))]

/-- With the same random numbers the GPU computes the same modified weights as the CPU, for all shapes, types (all that the
CPU knows), parameters and weights, after any history of applications, provided that

* the maximum is not taken over a remembered size that does not fit (`C42_gpu_maximum`),
* an assumed maximum is positive,
* noise is not added with a resolution that is not positive (`C42_gpu_discretize_add`). -/
theorem C42_gpu_as_cpu (f : Fns) (g : GPars) (d x : ℕ) (h : List Call) (r : Draws) (w new : Arr)
    (hk : g.kind = .base) (hb : g.perBatch = false) (hn : g.base.type ≠ .none)
    (hf : g.base.relToActualWmax = true → (after f (d * x) d h).Fits g (d * x) d)
    (ha : g.base.relToActualWmax = false → 0 < g.base.assumedWmax)
    (hz : g.base.type = .discretizeAddNormal → 0 < g.base.res ∨ g.base.stdDev ≤ 0) :
    ∃ out, (apply f g (d * x) d false r (after f (d * x) d h) w new).2 = .ok out ∧
      matrix d x out = applyMod g.base (byPosition d r) (matrix d x w) :=
  apply_as_cpu f g d x r _ (after_good f _ d h) w new hk hb hn hf ha hz

/-! ## The remembered size -/

theorem relative_iff (g : GPars) :
    Relative g ↔ g.base.relToActualWmax = true ∧ ¬(g.kind = .base ∧ g.base.type = .copy) := by
  unfold Relative
  constructor
  · rintro ⟨h, h2⟩
    exact ⟨h, fun hh => h2.elim (fun k => k hh.1) (fun k => k hh.2)⟩
  · rintro ⟨h, h2⟩
    refine ⟨h, ?_⟩
    by_cases hk : g.kind = .base
    · exact Or.inr (fun ht => h2 ⟨hk, ht⟩)
    · exact Or.inl hk

theorem upload_max (cs : List ℚ) (s : State) : (uploadIf cs s).maxSize = s.maxSize := by
  unfold uploadIf upload
  split_ifs <;> rfl

theorem apply_max (f : Fns) (g : GPars) (size d : ℕ) (ip : Bool) (r : Draws) (s : State) (w new : Arr) :
    (apply f g size d ip r s w new).1.maxSize =
      (maximizer g size d { s with enableTest := g.base.enableDuringTest }).maxSize := by
  unfold apply
  cases refusal g ip with
  | some e => rfl
  | none =>
    show (prepare g size d s).maxSize = _
    unfold prepare
    dsimp only
    split_ifs
    · exact upload_max _ _
    · rfl

theorem maximizer_some (g : GPars) (size d n : ℕ) (s : State) (h : s.maxSize = some n) :
    (maximizer g size d s).maxSize = some n := by
  unfold maximizer
  split_ifs
  · show some (s.maxSize.getD _) = _
    rw [h]; rfl
  · exact h

theorem fold_max_some (f : Fns) (size d n : ℕ) (h : List Call) (s : State) (hs : s.maxSize = some n) :
    (h.foldl (fun s c => (apply f c.g size d c.inPlace c.r s c.w c.new).1) s).maxSize = some n := by
  induction h generalizing s with
  | nil => exact hs
  | cons c h ih => exact ih _ (by rw [apply_max]; exact maximizer_some _ _ _ _ _ hs)

theorem fold_max_none (f : Fns) (size d : ℕ) (h : List Call) (s : State) (hs : s.maxSize = none)
    (hn : ∀ c ∈ h, ¬Relative c.g) :
    (h.foldl (fun s c => (apply f c.g size d c.inPlace c.r s c.w c.new).1) s).maxSize = none := by
  induction h generalizing s with
  | nil => exact hs
  | cons c h ih =>
    refine ih _ ?_ (fun c hc => hn c (List.mem_cons_of_mem _ hc))
    rw [apply_max]
    unfold maximizer
    rw [if_neg (fun hh => hn c (by simp) ((relative_iff _).2 hh))]
    exact hs

/-- The reference maximum on the GPU: before the first application that takes the maximum of the weights, nothing is
remembered, and it is taken over all weights, or all but the last column with `copy_last_column`; afterwards over
as many weights as in that first application, even if it was refused and whatever `copy_last_column` says now. -/
theorem C42_gpu_maximum (f : Fns) (size d : ℕ) (pre suf : List Call) (c : Call) (g : GPars) (w : Arr)
    (hp : ∀ c ∈ pre, ¬Relative c.g) (hg : Relative g) :
    (∃ a, maxValue g size d (after f size d pre) w = some a ∧
      IsMax (if g.base.copyLastColumn then size - d else size) w a) ∧
    (Relative c.g → ∃ a, maxValue g size d (after f size d (pre ++ c :: suf)) w = some a ∧
      IsMax (if c.g.base.copyLastColumn then size - d else size) w a) := by
  have h0 : (after f size d pre).maxSize = none := fold_max_none f size d pre {} rfl hp
  have hv : ∀ s : State, maxValue g size d s w =
      some (absMaxTo (s.maxSize.getD (sizeNoBias g.base.copyLastColumn size d)) w) := by
    intro s; unfold maxValue; rw [if_pos ((relative_iff _).1 hg)]
  constructor
  · refine ⟨_, hv _, ?_⟩
    rw [h0]
    exact absMaxTo_isMax _ _
  · intro hc
    have h1 : (after f size d (pre ++ c :: suf)).maxSize = some (sizeNoBias c.g.base.copyLastColumn size d) := by
      have e : after f size d (pre ++ c :: suf) = suf.foldl (fun s c => (apply f c.g size d c.inPlace c.r s c.w c.new).1)
          (apply f c.g size d c.inPlace c.r (after f size d pre) c.w c.new).1 := by
        unfold after; rw [List.foldl_append, List.foldl_cons]
      rw [e]
      refine fold_max_some f size d _ suf _ ?_
      rw [apply_max]
      unfold maximizer
      rw [if_pos ((relative_iff _).1 hc)]
      show some ((after f size d pre).maxSize.getD _) = _
      rw [h0]; rfl
    refine ⟨_, hv _, ?_⟩
    rw [h1]
    exact absMaxTo_isMax _ _

/-! ## Refusals and exceptions -/

/-- `None`, modifications per sample (other than copies) and, in place, copies and dropped connections are refused. -/
theorem C42_gpu_refuses (f : Fns) (g : GPars) (size d : ℕ) (r : Draws) (s : State) (w new : Arr) :
    (∀ ip, g.kind = .base → g.base.type = .none → (apply f g size d ip r s w new).2 = .error .runtimeError) ∧
    (∀ ip, g.perBatch = true → (g.kind ≠ .base ∨ g.base.type ≠ .copy) →
      (apply f g size d ip r s w new).2 = .error .runtimeError) ∧
    (g.kind = .base → g.base.type = .copy → (apply f g size d true r s w new).2 = .error .runtimeError) ∧
    (0 < g.base.pdrop → dividesByZero g = false → (apply f g size d true r s w new).2 = .error .runtimeError) := by
  have hsome : ∀ ip, refusal g ip = some .runtimeError → (apply f g size d ip r s w new).2 = .error .runtimeError := by
    intro ip h; unfold apply; rw [h]
  refine ⟨fun ip hk ht => hsome ip ?_, fun ip hb h => hsome ip ?_, fun hk ht => hsome true ?_, fun hp hz => ?_⟩
  · unfold refusal
    split_ifs with h1 h2 h3
    · rfl
    · rfl
    · rfl
    · exact absurd ⟨hk, ht⟩ h3
  · unfold refusal
    rw [if_pos ⟨fun hh => h.elim (fun k => k hh.1) (fun k => k hh.2), hb⟩]
  · unfold refusal
    rw [if_neg (fun hh => hh.1 ⟨hk, ht⟩), if_pos ⟨hk, ht, rfl⟩]
  · unfold apply
    cases e : refusal g true with
    | some x =>
      have : x = .runtimeError := by
        unfold refusal at e
        split_ifs at e
        all_goals (injection e with e; exact e.symm)
      rw [this]
    | none =>
      show (if dividesByZero g = true then _ else _) = _
      rw [hz, if_neg (by decide)]
      unfold finish
      dsimp only
      rw [if_pos hp, if_pos rfl]

theorem nearest_neg {y : ℚ} {k : ℤ} (h : Nearest y k) : Nearest (-y) (-k) := by
  unfold Nearest at *
  push_cast
  have e : -y - -(k : ℚ) = -(y - k) := by ring
  rw [e, abs_neg, abs_neg, abs_neg]
  exact h

/-- Exception: `DiscretizeAddNormal` with noise and a resolution that is not positive (no discretization on the CPU). With
zero the GPU's results are not numbers; with a negative resolution, as usual for switching off, the GPU does discretize,
with the magnitude of the resolution as step (with the default -1 for maximum 1: to the numbers -1, 0 and 1). -/
theorem C42_gpu_discretize_add (f : Fns) (g : GPars) (size d : ℕ) (r : Draws) (s : State) (w new : Arr)
    (hk : g.kind = .base) (hb : g.perBatch = false) (ht : g.base.type = .discretizeAddNormal)
    (hs : 0 < g.base.stdDev) (hp : g.base.pdrop ≤ 0) :
    (g.base.res = 0 → (apply f g size d false r s w new).2 = .error .nanInf) ∧
    (g.base.res < 0 → g.base.stoRound = false → ∃ out a, (apply f g size d false r s w new).2 = .ok out ∧ 0 < a ∧
      ∀ i, i < (if g.base.copyLastColumn then size - d else size) → ∃ k : ℤ,
        out i = k * (|g.base.res| * a) + g.base.stdDev * a * r.gauss i ∧ Nearest (w i / (|g.base.res| * a)) k) := by
  have e0 : refusal g false = none := by
    unfold refusal
    rw [if_neg (fun hh => by rw [hb] at hh; exact absurd hh.2 (by decide)),
      if_neg (fun hh => absurd hh.2.2 (by decide)), if_neg (fun hh => by rw [ht] at hh; cases hh.2)]
  constructor
  · intro hr
    have e1 : dividesByZero g = true := by unfold dividesByZero; rw [decide_eq_true ⟨hk, ht, hr, hs⟩]
    unfold apply
    rw [e0]
    show (if dividesByZero g = true then _ else _) = _
    rw [if_pos e1]
  · intro hr hst
    have e1 : dividesByZero g = false := by
      unfold dividesByZero
      exact decide_eq_false (fun hh => by rw [hh.2.2.1] at hr; exact lt_irrefl _ hr)
    obtain ⟨out, ho, h1, -, -⟩ := finish_at g size d r
      (body f g (prepare g size d s) (refA (maxValue g size d s w) g.base.assumedWmax) r) w new
    refine ⟨out, refA (maxValue g size d s w) g.base.assumedWmax, ?_, refA_pos _ _, fun i hi => ?_⟩
    · unfold apply
      rw [e0]
      show (if dividesByZero g = true then _ else _) = _
      rw [e1, if_neg (by decide)]
      exact ho
    · have h2 := h1 i hi
      have hA := refA_pos (maxValue g size d s w) g.base.assumedWmax
      revert h2 hA
      generalize refA (maxValue g size d s w) g.base.assumedWmax = a
      intro h2 hA
      have eb : body f g (prepare g size d s) a r =
          some (kDiscretizeAdd g.base.res g.base.stdDev a g.base.stoRound r.rnd r.gauss) := by
        unfold body baseBody
        rw [hk, ht]
        dsimp only
        rw [if_pos (Or.inr hs)]
      rw [eb, if_neg (fun hh => absurd hh.1 (not_lt.2 hp))] at h2
      refine ⟨-roundC (w i / a / g.base.res), ?_, ?_⟩
      · rw [h2]
        show kDiscretizeAdd _ _ _ _ _ _ _ _ = _
        unfold kDiscretizeAdd
        rw [hst, if_neg (by decide), add_zero, abs_of_neg hr]
        push_cast
        ring
      · have e : w i / (|g.base.res| * a) = -(w i / a / g.base.res) := by
          rw [abs_of_neg hr, div_div, ← div_neg]
          congr 1
          ring
        rw [e]
        exact nearest_neg (PostUpdate.Modifier.roundC_nearest _)

/-- `DoReFa`, with `a` the reference maximum: every weight becomes a multiple of the resolution, nearest to
`tanh w · |clip / tanh a|` (up to the stochastic rounding); hence without it no weight exceeds the clip value by more than
half a step, for a `tanh` that does not grow in magnitude below the maximum. -/
theorem C42_gpu_dorefa (f : Fns) (g : GPars) (size d : ℕ) (r : Draws) (s : State) (w new : Arr)
    (hk : g.kind = .doReFa) (hb : g.perBatch = false) (hr : 0 < g.base.res) (hp : g.base.pdrop ≤ 0) :
    ∃ out a, (apply f g size d false r s w new).2 = .ok out ∧ 0 < a ∧
      (∀ v, maxValue g size d s w = some v → 0 < v → a = v) ∧
      ∀ i, i < (if g.base.copyLastColumn then size - d else size) →
        (∃ k : ℤ, out i = k * g.base.res ∧
          Nearest (f.tanh (w i) * |g.dorefaClip / f.tanh a| / g.base.res + if g.base.stoRound then r.rnd i - 1 / 2 else 0) k) ∧
        (g.base.stoRound = false → |f.tanh (w i)| ≤ |f.tanh a| → |out i| ≤ |g.dorefaClip| + g.base.res / 2) := by
  have e0 : refusal g false = none := by
    unfold refusal
    rw [if_neg (fun hh => by rw [hb] at hh; exact absurd hh.2 (by decide)),
      if_neg (fun hh => absurd hh.2.2 (by decide)), if_neg (fun hh => by rw [hk] at hh; cases hh.1)]
  have e1 : dividesByZero g = false := by
    unfold dividesByZero
    exact decide_eq_false (fun hh => by rw [hk] at hh; cases hh.1)
  obtain ⟨out, ho, h1, -, -⟩ := finish_at g size d r
    (body f g (prepare g size d s) (refA (maxValue g size d s w) g.base.assumedWmax) r) w new
  refine ⟨out, refA (maxValue g size d s w) g.base.assumedWmax, ?_, refA_pos _ _, fun v hv h => ?_, fun i hi => ?_⟩
  · unfold apply
    rw [e0]
    show (if dividesByZero g = true then _ else _) = _
    rw [e1, if_neg (by decide)]
    exact ho
  · rw [hv]; unfold refA; dsimp only [Option.getD_some]; rw [if_pos h]
  · have h2 := h1 i hi
    revert h2
    generalize refA (maxValue g size d s w) g.base.assumedWmax = a
    intro h2
    have eb : body f g (prepare g size d s) a r =
        some (kDoReFa f.tanh g.base.res g.dorefaClip a g.base.stoRound r.rnd) := by
      unfold body
      rw [hk]
      dsimp only
      rw [if_pos hr]
    rw [eb, if_neg (fun hh => absurd hh.1 (not_lt.2 hp))] at h2
    have h3 : out i = g.base.res * roundC (f.tanh (w i) * |g.dorefaClip / f.tanh a| / g.base.res +
        if g.base.stoRound then r.rnd i - 1 / 2 else 0) := h2
    refine ⟨⟨_, by rw [h3, mul_comm], PostUpdate.Modifier.roundC_nearest _⟩, fun hst ht => ?_⟩
    rw [h3, hst, if_neg (by decide), add_zero]
    have hsp := PostUpdate.Modifier.roundC_spec (f.tanh (w i) * |g.dorefaClip / f.tanh a| / g.base.res)
    have hb2 : abs (f.tanh (w i) * abs (g.dorefaClip / f.tanh a)) ≤ |g.dorefaClip| := by
      rw [abs_mul, abs_abs, abs_div]
      rcases (abs_nonneg (f.tanh a)).eq_or_lt with h | h
      · rw [← h, div_zero, mul_zero]; exact abs_nonneg _
      · rw [mul_div_assoc', div_le_iff₀ h, mul_comm]
        exact mul_le_mul_of_nonneg_left ht (abs_nonneg _)
    generalize hy : f.tanh (w i) * |g.dorefaClip / f.tanh a| = y at hsp hb2 ⊢
    generalize (roundC (y / g.base.res) : ℤ) = k at hsp
    have e : g.base.res * (k : ℚ) = y - g.base.res * (y / g.base.res - k) := by
      field_simp
      ring
    rw [e]
    refine le_trans (abs_sub _ _) ?_
    rw [abs_mul, abs_of_pos hr]
    have := mul_le_mul_of_nonneg_left hsp hr.le
    linarith

end Aihw.GpuMod

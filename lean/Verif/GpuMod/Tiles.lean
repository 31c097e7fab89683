import Verif.GpuMod.Pcm

/-!
# C42: PCM noise of a whole matrix; copies and checkpoints of tiles with modified weights
-/
namespace Aihw.GpuMod

/-- `PCMNoise` of a matrix: each weight outside a kept last column goes through the kernel (or is dropped), with a positive
reference maximum - the maximum of the weights, if it is positive, or the assumed one; the last column is exact. -/
theorem C42_gpu_pcm_apply (f : Fns) (g : GPars) (size d : ℕ) (r : Draws) (s : State) (w new : Arr)
    (hk : g.kind = .pcm) (hb : g.perBatch = false) :
    ∃ out a, (apply f g size d false r s w new).2 = .ok out ∧ 0 < a ∧
      (∀ v, maxValue g size d s w = some v → 0 < v → a = v) ∧
      (maxValue g size d s w = none → 0 < g.base.assumedWmax → a = g.base.assumedWmax) ∧
      (∀ i, i < (if g.base.copyLastColumn then size - d else size) →
        (0 < g.base.pdrop → r.drop i < g.base.pdrop → out i = 0) ∧
        ((0 < g.base.pdrop → g.base.pdrop ≤ r.drop i) → out i = kPcm f g.pcm g.base.stdDev g.base.gMax a r i (w i))) ∧
      (∀ i, (if g.base.copyLastColumn then size - d else size) ≤ i → i < size → out i = w i) := by
  have e0 : refusal g false = none := by
    unfold refusal
    rw [if_neg (fun hh => by rw [hb] at hh; exact absurd hh.2 (by decide)),
      if_neg (fun hh => absurd hh.2.2 (by decide)), if_neg (fun hh => by rw [hk] at hh; cases hh.1)]
  have e1 : dividesByZero g = false := by
    unfold dividesByZero
    exact decide_eq_false (fun hh => by rw [hk] at hh; cases hh.1)
  obtain ⟨out, ho, h1, h2, -⟩ := finish_at g size d r
    (body f g (prepare g size d s) (refA (maxValue g size d s w) g.base.assumedWmax) r) w new
  refine ⟨out, refA (maxValue g size d s w) g.base.assumedWmax, ?_, refA_pos _ _, fun v hv h => ?_, fun hv h => ?_,
    fun i hi => ?_, fun i hi hi' => h2 i hi hi'⟩
  · unfold apply
    rw [e0]
    show (if dividesByZero g = true then _ else _) = _
    rw [e1, if_neg (by decide)]
    exact ho
  · rw [hv]; unfold refA; dsimp only [Option.getD_some]; rw [if_pos h]
  · rw [hv]; unfold refA; dsimp only [Option.getD_none]; rw [if_pos h]
  · have h3 := h1 i hi
    have eb : body f g (prepare g size d s) (refA (maxValue g size d s w) g.base.assumedWmax) r =
        some (kPcm f g.pcm g.base.stdDev g.base.gMax (refA (maxValue g size d s w) g.base.assumedWmax) r) := by
      unfold body
      rw [hk]
    rw [eb] at h3
    constructor
    · intro hp hu
      rw [h3, if_pos ⟨hp, hu⟩]
    · intro hh
      rw [h3, if_neg (fun hc => absurd hc.2 (not_lt.2 (hh hc.1)))]
      rfl

/-! ## Tiles -/

variable {W : Type}

theorem loadCpu_flag (e : Extra W) (t : Tile W) (h : t.fb = none → t.enableTest = false) :
    (loadCpu e t).enableTest = t.enableTest ∧ (loadCpu e t).w = t.w ∧ (t.fb ≠ none → (loadCpu e t).fb ≠ none) := by
  unfold loadCpu
  cases e.fb with
  | none => exact ⟨rfl, rfl, id⟩
  | some v =>
    refine ⟨?_, rfl, fun _ hh => by cases hh⟩
    show (if t.fb = none then false else t.enableTest) = _
    split_ifs with hh
    · exact (h hh).symm
    · rfl

theorem run_flag (h : List (Act W)) (t : Tile W) (h0 : t.fb = none → t.enableTest = false) :
    ((h.foldl act t).fb = none → (h.foldl act t).enableTest = false) ∧
    ((h.foldl act t).enableTest = true →
      (t.enableTest = true ∧ ∀ a ∈ h, (∃ w, a = .write w) ∨ ∃ e, a = .loadedCpu e) ∨
      ∃ pre v suf, h = pre ++ .modify true v :: suf ∧ ∀ a ∈ suf, (∃ w, a = .write w) ∨ ∃ e, a = .loadedCpu e) := by
  induction h generalizing t with
  | nil => exact ⟨h0, fun hh => Or.inl ⟨hh, fun a ha => by cases ha⟩⟩
  | cons a h ih =>
    have h1 : (act t a).fb = none → (act t a).enableTest = false := by
      cases a with
      | write w => exact h0
      | modify b v => intro hh; cases hh
      | copied => intro _; rfl
      | loadedCpu e =>
        intro hh
        have h2 : (loadCpu e t).fb = none := hh
        show (loadCpu e t).enableTest = false
        rw [(loadCpu_flag e t h0).1]
        by_cases h3 : t.fb = none
        · exact h0 h3
        · exact absurd h2 ((loadCpu_flag e t h0).2.2 h3)
    obtain ⟨i1, i2⟩ := ih (act t a) h1
    refine ⟨i1, fun hh => ?_⟩
    rcases i2 hh with ⟨hf, hall⟩ | ⟨pre, v, suf, e, hs⟩
    · cases a with
      | write w =>
        exact Or.inl ⟨hf, fun b hb => by
          rcases List.mem_cons.1 hb with rfl | hb
          · exact Or.inl ⟨w, rfl⟩
          · exact hall b hb⟩
      | modify b v =>
        have hb : b = true := hf
        subst hb
        exact Or.inr ⟨[], v, h, rfl, hall⟩
      | copied => cases hf
      | loadedCpu e =>
        have h2 : (loadCpu e t).enableTest = true := hf
        rw [(loadCpu_flag e t h0).1] at h2
        exact Or.inl ⟨h2, fun b hb => by
          rcases List.mem_cons.1 hb with rfl | hb
          · exact Or.inr ⟨e, rfl⟩
          · exact hall b hb⟩
    · exact Or.inr ⟨a :: pre, v, suf, by rw [e]; rfl, hs⟩

/-- **Evaluation.** On either device evaluation uses the true weights, after every history of writes, modifications, copies and
(CPU) restored checkpoints, unless the last modification asked for evaluation and the tile has not been copied since; then, if
only weights were written since, it uses the modified weights. -/
theorem C42_eval_copies (w0 : W) (h : List (Act W)) :
    (used (h.foldl act { w := w0 }) true = (h.foldl act { w := w0 }).w ∨
      ∃ pre v suf, h = pre ++ .modify true v :: suf ∧ ∀ a ∈ suf, (∃ w, a = .write w) ∨ ∃ e, a = .loadedCpu e) ∧
    (∀ pre v suf, h = pre ++ .modify true v :: suf → (∀ a ∈ suf, ∃ w, a = .write w) →
      used (h.foldl act { w := w0 }) true = v) := by
  constructor
  · by_cases hf : (h.foldl act { w := w0 }).enableTest = true
    · right
      rcases (run_flag h { w := w0 } (fun _ => rfl)).2 hf with ⟨h1, -⟩ | h1
      · cases h1
      · exact h1
    · left
      unfold used
      cases (h.foldl act { w := w0 }).fb with
      | none => rfl
      | some v =>
        show (if (!true || (h.foldl act { w := w0 }).enableTest) = true then _ else _) = _
        rw [Bool.eq_false_iff.2 hf]
        rfl
  · intro pre v suf e hs
    have key : ∀ (suf : List (Act W)) (t : Tile W), (∀ a ∈ suf, ∃ w, a = .write w) →
        (suf.foldl act t).fb = t.fb ∧ (suf.foldl act t).enableTest = t.enableTest := by
      intro suf
      induction suf with
      | nil => intro t _; exact ⟨rfl, rfl⟩
      | cons a suf ih =>
        intro t ht
        obtain ⟨w, rfl⟩ := ht a (by simp)
        exact ih _ (fun b hb => ht b (List.mem_cons_of_mem _ hb))
    have e2 : h.foldl act { w := w0 } = suf.foldl act (GpuMod.modify true v (pre.foldl act { w := w0 })) := by
      rw [e, List.foldl_append, List.foldl_cons]
      rfl
    obtain ⟨k1, k2⟩ := key suf (GpuMod.modify true v (pre.foldl act { w := w0 })) hs
    unfold used
    rw [e2, k1, k2]
    rfl

/-- **Copies and conversion.** A copy trains with the same modified weights, but evaluates with the true ones whatever
`enable_during_test` said, and a tile moved to the GPU has no modified weights at all, until the next modification. -/
theorem C42_copy_forgets (t : Tile W) (isTest : Bool) :
    used (copyTile t) false = used t false ∧ used (copyTile t) true = t.w ∧ used (toCuda t) isTest = t.w := by
  refine ⟨?_, ?_, rfl⟩
  · unfold used copyTile
    cases t.fb <;> rfl
  · unfold used copyTile
    cases t.fb <;> rfl

/-- **Checkpoints.** On the GPU a restored tile uses exactly the weights the saved one used, whatever it held before. On the
CPU: in training, if the saved tile had modified weights; if it had none, weights that had been modified before the
checkpoint is restored stay in use. In evaluation a new tile uses the true weights even if the saved one evaluated with
the modified ones, and a tile that has been used before decides by its own last modification. -/
theorem C42_checkpoint (t t' : Tile W) :
    (∀ isTest, used (loadGpu (dumpTile t) { t' with w := t.w }) isTest = used t isTest) ∧
    (t.fb ≠ none → used (loadCpu (dumpTile t) { t' with w := t.w }) false = used t false) ∧
    (t.fb = none → ∀ v, t'.fb = some v → used (loadCpu (dumpTile t) { t' with w := t.w }) false = v) ∧
    (t'.fb = none → used (loadCpu (dumpTile t) { t' with w := t.w }) true = t.w) ∧
    (∀ v v', t.fb = some v → t'.fb = some v' →
      used (loadCpu (dumpTile t) { t' with w := t.w }) true = if t'.enableTest then v else t.w) := by
  cases t with
  | mk w fb en =>
  cases t' with
  | mk w' fb' en' =>
  cases fb with
  | none =>
    cases fb' with
    | none =>
      refine ⟨fun b => rfl, fun h => absurd rfl h, fun _ v h => (by cases h), fun _ => rfl, fun v v' h => (by cases h)⟩
    | some v0 =>
      refine ⟨fun b => rfl, fun h => absurd rfl h, fun _ v h => (by cases h; rfl), fun h => (by cases h),
        fun v v' h => (by cases h)⟩
  | some v0 =>
    cases fb' with
    | none =>
      refine ⟨fun b => rfl, fun _ => rfl, fun h => (by cases h), fun _ => rfl, fun v v' h h' => (by cases h')⟩
    | some v1 =>
      refine ⟨fun b => rfl, fun _ => rfl, fun h => (by cases h), fun h => (by cases h), fun v v' h h' => ?_⟩
      cases h
      cases en' <;> rfl

end Aihw.GpuMod

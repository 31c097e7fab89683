import Verif.Periphery.Props5
import Verif.Periphery.Program
import Mathlib.Algebra.Order.Archimedean.Basic

/-!
# Property C17: `program_weights` of a training tile
-/
namespace Aihw.Periphery

/-! ## Specification -/

/-- Mean absolute deviation of the entries of two `o × n` matrices. -/
def meanDev (o n : Nat) (w v : Mat) : ℚ :=
  ((List.range o).map fun i => ((List.range n).map fun j => |entry w i j - entry v i j|).sum).sum / (o * n : ℕ)

/-- Largest absolute entry. -/
def maxEntry (w : Mat) : ℚ := absMax w.flatten

/-! ## Algebra of unit-vector batches -/

theorem sum_range_ite (n j : Nat) (v : ℚ) :
    ((List.range n).map fun i => if i = j then v else 0).sum = if j < n then v else 0 := by
  induction n with
  | zero => simp
  | succ n ih =>
    rw [List.range_succ, List.map_append, List.sum_append, ih]
    simp only [List.map_cons, List.map_nil, List.sum_cons, List.sum_nil, add_zero]
    rcases lt_trichotomy j n with h | h | h
    · rw [if_pos h, if_neg (by omega), if_pos (by omega), add_zero]
    · subst h; simp
    · rw [if_neg (by omega), if_neg (by omega), if_neg (by omega), add_zero]

theorem unit_getD {n j i : Nat} (hi : i < n) :
    ((List.range n).map fun k => if j = k then (1 : ℚ) else 0).getD i 0 = if i = j then 1 else 0 := by
  rw [List.getD_eq_getElem _ _ (by simpa using hi)]
  simp only [List.getElem_map, List.getElem_range, eq_comm]

theorem dot_unit {r : Vec} {n j : Nat} (hr : r.length = n) (hj : j < n) :
    dot r ((List.range n).map fun k => if j = k then (1 : ℚ) else 0) = r.getD j 0 := by
  rw [dot_eq_sum hr (by simp)]
  have : ((List.range n).map fun i => r.getD i 0 *
      ((List.range n).map fun k => if j = k then (1 : ℚ) else 0).getD i 0) =
      (List.range n).map fun i => if i = j then r.getD j 0 else 0 := by
    apply List.map_congr_left
    intro i hi
    rw [List.mem_range] at hi
    rw [unit_getD hi]
    by_cases h : i = j
    · subst h; simp
    · rw [if_neg h, if_neg h, mul_zero]
  rw [this, sum_range_ite, if_pos hj]

theorem devForward_eye {o n : Nat} {w : Mat} (hw : IsMat o n w) :
    devForwardBatch w (eye n) = (List.range n).map fun j => col w j := by
  unfold devForwardBatch eye
  rw [List.map_map]
  apply List.map_congr_left
  intro j hj
  rw [List.mem_range] at hj
  simp only [Function.comp_apply, matVec, col]
  apply List.map_congr_left
  intro r hr
  exact dot_unit (hw.2 r hr) hj

theorem matSub_eye {o n : Nat} {w v : Mat} (hw : IsMat o n w) (hv : IsMat o n v) :
    matSub (devForwardBatch w (eye n)) (devForwardBatch v (eye n)) =
      (List.range n).map fun j => (List.range o).map fun i => entry w i j - entry v i j := by
  rw [devForward_eye hw, devForward_eye hv]
  unfold matSub
  apply List.ext_getElem
  · simp
  · intro j h1 h2
    simp only [List.getElem_zipWith, List.getElem_map, List.getElem_range]
    apply List.ext_getElem
    · simp [col, hw.1, hv.1]
    · intro i h3 h4
      have hi : i < o := by simpa using h4
      simp only [List.getElem_zipWith, List.getElem_map, List.getElem_range]
      rw [← col_getD, ← col_getD, List.getD_eq_getElem _ _ (by simp [col, hw.1, hi]),
        List.getD_eq_getElem _ _ (by simp [col, hv.1, hi])]

theorem foldUpdate_entry {o n : Nat} {lr : ℚ} (l : List (Vec × Vec)) :
    ∀ {w : Mat}, IsMat o n w → (∀ p ∈ l, p.1.length = n ∧ p.2.length = o) →
    IsMat o n (l.foldl (fun w p => outerUpdate w lr p.2 p.1) w) ∧
    ∀ i < o, ∀ j < n, entry (l.foldl (fun w p => outerUpdate w lr p.2 p.1) w) i j =
      entry w i j - lr * (l.map fun p => p.2.getD i 0 * p.1.getD j 0).sum := by
  induction l with
  | nil => intro w hw _; exact ⟨hw, by simp⟩
  | cons p l ih =>
    intro w hw hp
    obtain ⟨h1, h2⟩ := hp p (by simp)
    obtain ⟨ih1, ih2⟩ := ih (outerUpdate_isMat (lr := lr) hw h2 h1) (fun q hq => hp q (by simp [hq]))
    refine ⟨ih1, ?_⟩
    intro i hi j hj
    rw [List.foldl_cons, ih2 i hi j hj, outerUpdate_entry hw h2 h1 hi hj]
    simp only [List.map_cons, List.sum_cons]
    ring

/-- One programming step on an unbounded ideal device. -/
theorem step_entry {o n : Nat} {c : Cfg} (hb : c.devBound = none) {lr : ℚ} {w v : Mat} (hw : IsMat o n w)
    (hv : IsMat o n v) :
    let w' := devUpdateBatch c lr w (eye n) (matSub (devForwardBatch w (eye n)) (devForwardBatch v (eye n)))
    IsMat o n w' ∧ ∀ i < o, ∀ j < n,
      entry w' i j - entry v i j = (1 - lr) * (entry w i j - entry v i j) := by
  intro w'
  have hw' : w' = ((eye n).zip ((List.range n).map fun j => (List.range o).map fun i =>
      entry w i j - entry v i j)).foldl (fun w p => outerUpdate w lr p.2 p.1) w := by
    show devUpdateBatch _ _ _ _ _ = _
    unfold devUpdateBatch devWrite
    rw [hb, matSub_eye hw hv]
  have hzip : (eye n).zip ((List.range n).map fun j => (List.range o).map fun i =>
      entry w i j - entry v i j) = (List.range n).map fun k =>
        ((List.range n).map fun j => if k = j then (1 : ℚ) else 0,
          (List.range o).map fun i => entry w i k - entry v i k) := by
    unfold eye; rw [List.zip_map']
  rw [hzip] at hw'
  obtain ⟨h1, h2⟩ := foldUpdate_entry (o := o) (n := n) (lr := lr) ((List.range n).map fun k =>
        ((List.range n).map fun j => if k = j then (1 : ℚ) else 0,
          (List.range o).map fun i => entry w i k - entry v i k)) hw (by
    intro p hp
    obtain ⟨k, _, rfl⟩ := List.mem_map.1 hp
    simp)
  rw [← hw'] at h1 h2
  refine ⟨h1, ?_⟩
  intro i hi j hj
  rw [h2 i hi j hj, List.map_map]
  have : ((List.range n).map ((fun p : Vec × Vec => p.2.getD i 0 * p.1.getD j 0) ∘ fun k =>
        ((List.range n).map fun j => if k = j then (1 : ℚ) else 0,
          (List.range o).map fun i => entry w i k - entry v i k))) =
      (List.range n).map fun k => if k = j then entry w i j - entry v i j else 0 := by
    apply List.map_congr_left
    intro k _
    simp only [Function.comp_apply]
    rw [unit_getD hj, List.getD_eq_getElem _ _ (by simpa using hi)]
    simp only [List.getElem_map, List.getElem_range]
    by_cases h : k = j
    · subst h; simp
    · rw [if_neg h, if_neg (Ne.symm h), mul_zero]
  rw [this, sum_range_ite, if_pos hj]
  ring

theorem meanAbs_eye {o n : Nat} {w v : Mat} (hw : IsMat o n w) (hv : IsMat o n v) :
    meanAbs (matSub (devForwardBatch w (eye n)) (devForwardBatch v (eye n))) = meanDev o n w v := by
  rw [matSub_eye hw hv]
  unfold meanAbs mean meanDev
  rw [sum_comm]
  congr 1
  · rw [List.map_flatten, List.sum_flatten, List.map_map, List.map_map]
    congr 1
    apply List.map_congr_left
    intro j _
    simp [Function.comp_def, List.map_map]
  · rw [List.length_map, List.length_flatten, List.map_map]
    have : (List.map (List.length ∘ fun j => (List.range o).map fun i => entry w i j - entry v i j)
        (List.range n)) = (List.range n).map fun _ => o := by
      apply List.map_congr_left; intro j _; simp
    rw [this]
    simp [mul_comm]

theorem mem_entry {o n : Nat} {w : Mat} (hw : IsMat o n w) (a : ℚ) :
    a ∈ w.flatten ↔ ∃ i < o, ∃ j < n, a = entry w i j := by
  rw [List.mem_flatten]
  constructor
  · rintro ⟨r, hr, ha⟩
    obtain ⟨i, hi, rfl⟩ := List.mem_iff_getElem.1 hr
    obtain ⟨j, hj, rfl⟩ := List.mem_iff_getElem.1 ha
    refine ⟨i, by rw [← hw.1]; exact hi, j, by rw [← hw.2 _ hr]; exact hj, ?_⟩
    rw [entry_eq hi hj]
  · rintro ⟨i, hi, j, hj, rfl⟩
    have hi' : i < w.length := by rw [hw.1]; exact hi
    have hj' : j < w[i].length := by rw [hw.2 _ (List.getElem_mem hi')]; exact hj
    exact ⟨w[i], List.getElem_mem hi', by rw [entry_eq hi' hj']; exact List.getElem_mem hj'⟩

theorem absMax_congr {u v : Vec} (h : ∀ a, a ∈ u ↔ a ∈ v) : absMax u = absMax v :=
  le_antisymm (absMax_le (absMax_nonneg _) fun a ha => abs_le_absMax ((h a).1 ha))
    (absMax_le (absMax_nonneg _) fun a ha => abs_le_absMax ((h a).2 ha))

theorem tmax_eye {o n : Nat} {v : Mat} (hv : IsMat o n v) :
    absMax (devForwardBatch v (eye n)).flatten = maxEntry v := by
  apply absMax_congr
  intro a
  rw [mem_entry hv, devForward_eye hv, List.mem_flatten]
  constructor
  · rintro ⟨r, hr, ha⟩
    obtain ⟨j, hj, rfl⟩ := List.mem_map.1 hr
    obtain ⟨i, hi, rfl⟩ := List.mem_iff_getElem.1 ha
    refine ⟨i, by simpa [col, hv.1] using hi, j, List.mem_range.1 hj, ?_⟩
    rw [← col_getD, List.getD_eq_getElem _ _ hi]
  · rintro ⟨i, hi, j, hj, rfl⟩
    have hi' : i < (col v j).length := by simp [col, hv.1, hi]
    exact ⟨col v j, List.mem_map.2 ⟨j, List.mem_range.2 hj, rfl⟩, by
      rw [← col_getD, List.getD_eq_getElem _ _ hi']; exact List.getElem_mem hi'⟩

/-- The loop: some number `k` of steps, each contracting the deviation by `1 - lr`. -/
theorem programLoop_spec {o n : Nat} {c : Cfg} (hb : c.devBound = none) {lr : ℚ} {v : Mat} (hv : IsMat o n v)
    {tol : Option ℚ} {tmax : ℚ} (ht : tol = none ∨ tmax ≠ 0) (N : Nat) :
    ∀ {w : Mat}, IsMat o n w →
    ∃ k ≤ N, ∃ w', programLoop c lr tol (eye n) (devForwardBatch v (eye n)) tmax N w = (.ok (), w') ∧
      IsMat o n w' ∧
      (∀ i < o, ∀ j < n, entry w' i j - entry v i j = (1 - lr) ^ k * (entry w i j - entry v i j)) ∧
      (k = N ∨ ∃ q, tol = some q ∧ meanDev o n w' v / tmax < q) := by
  induction N with
  | zero => intro w hw; exact ⟨0, le_refl _, w, rfl, hw, by simp, Or.inl rfl⟩
  | succ N ih =>
    intro w hw
    obtain ⟨s1, s2⟩ := step_entry hb (lr := lr) hw hv
    have hrec : ∃ k ≤ N, ∃ w', programLoop c lr tol (eye n) (devForwardBatch v (eye n)) tmax N
          (devUpdateBatch c lr w (eye n) (matSub (devForwardBatch w (eye n)) (devForwardBatch v (eye n)))) =
          (.ok (), w') ∧ IsMat o n w' ∧
        (∀ i < o, ∀ j < n, entry w' i j - entry v i j = (1 - lr) ^ (k + 1) * (entry w i j - entry v i j)) ∧
        (k = N ∨ ∃ q, tol = some q ∧ meanDev o n w' v / tmax < q) := by
      obtain ⟨k, hk, w', h1, h2, h3, h4⟩ := ih s1
      refine ⟨k, hk, w', h1, h2, ?_, h4⟩
      intro i hi j hj
      rw [h3 i hi j hj, s2 i hi j hj]; ring
    obtain ⟨k, hk, w', h1, h2, h3, h4⟩ := hrec
    have again : ∃ k ≤ N + 1, ∃ w'', programLoop c lr tol (eye n) (devForwardBatch v (eye n)) tmax N
          (devUpdateBatch c lr w (eye n) (matSub (devForwardBatch w (eye n)) (devForwardBatch v (eye n)))) =
          (.ok (), w'') ∧ IsMat o n w'' ∧
        (∀ i < o, ∀ j < n, entry w'' i j - entry v i j = (1 - lr) ^ k * (entry w i j - entry v i j)) ∧
        (k = N + 1 ∨ ∃ q, tol = some q ∧ meanDev o n w'' v / tmax < q) :=
      ⟨k + 1, by omega, w', h1, h2, h3, h4.imp (by omega) id⟩
    cases tol with
    | none => unfold programLoop; exact again
    | some q =>
      have htm : tmax ≠ 0 := by
        rcases ht with h | h
        · cases h
        · exact h
      unfold programLoop
      simp only [htm, if_false, meanAbs_eye hw hv]
      split_ifs with hq
      · exact ⟨0, by omega, w, rfl, hw, by simp, Or.inr ⟨q, rfl, hq⟩⟩
      · exact again

/-! ## Theorems -/

/-- Width of the crossbar (inputs plus bias column). -/
def xSize (c : Cfg) : Nat := c.inSize + if c.analogBias then 1 else 0

theorem programWeights_unbound (fromReference : Bool) (x : Option Mat) (lr maxIter tol wInit) (t : Tile)
    (h : x.isSome ∨ (fromReference = true ∧ t.reference.isSome)) :
    (programWeights fromReference x lr maxIter tol wInit t).1 = .error .unboundLocal ∧
    (programWeights fromReference x lr maxIter tol wInit t).2 =
      { t with reference := (programWeights fromReference x lr maxIter tol wInit t).2.reference } := by
  unfold programWeights targetWeights
  cases x with
  | some x =>
    cases fromReference <;> cases hr : t.reference <;> simp
  | none =>
    simp only [Option.isSome_none, Bool.false_eq_true, false_or] at h
    obtain ⟨rfl, h⟩ := h
    obtain ⟨r, hr⟩ := Option.isSome_iff_exists.1 h
    have e : ({ t with reference := some r } : Tile) = t := by rw [← hr]
    simp [hr, e]

/-- **C17** (explicit `x_values`). After any history, `program_weights(x_values=...)` raises
`UnboundLocalError` for every choice of the other arguments; weights, scales, bias, learning rate and input range
are untouched. -/
theorem C17_explicit_x_raises (c : Cfg) (calls : List Call) (fromReference : Bool) (x : Mat) (lr : ℚ)
    (maxIter : Nat) (tol : Option ℚ) (wInit : Mat) :
    let r := programWeights fromReference (some x) lr maxIter tol wInit (run c calls)
    r.1 = .error .unboundLocal ∧ r.2 = { run c calls with reference := r.2.reference } :=
  programWeights_unbound _ _ _ _ _ _ _ (Or.inl rfl)

/-- Calls that do not (re)write the weights. -/
def Call.isWrite : Call → Bool
  | .setWeights .. => true
  | .remapWeights _ => true
  | _ => false

/-- `m` leaves the reference weights alone. -/
def FramesR {α : Type} (m : Op α) : Prop := ∀ t, (m t).2.reference = t.reference

theorem FramesR.bind {α β : Type} {m : Op α} {f : α → Op β} (h : FramesR m) (hf : ∀ a, FramesR (f a)) :
    FramesR (m >>= f) := by
  intro t
  have h1 := h t
  change (Op.bind m f t).2.reference = _
  unfold Op.bind
  cases hm : m t with
  | mk r t' =>
    rw [hm] at h1
    cases r with
    | error e => exact h1
    | ok a => exact (hf a t').trans h1

theorem FramesR.get : FramesR Op.get := fun _ => rfl
theorem FramesR.pure {α : Type} {a : α} : FramesR (Pure.pure a : Op α) := fun _ => rfl
theorem FramesR.throw {α : Type} {e : PyErr} : FramesR (Op.throw e : Op α) := fun _ => rfl
theorem FramesR.lift {α : Type} {e : Except PyErr α} : FramesR (Op.lift e) := fun _ => rfl
theorem FramesR.modify {f : Tile → Tile} (h : ∀ t, (f t).reference = t.reference) : FramesR (Op.modify f) := h

theorem applyInputRange_reference (x s f) : FramesR (applyInputRange x s f) := by
  unfold applyInputRange
  refine FramesR.get.bind fun t => ?_
  split
  · refine FramesR.bind (FramesR.modify ?_) fun _ => FramesR.get.bind fun _ => FramesR.pure
    intro t
    split_ifs
    · unfold irUpdate; split_ifs <;> rfl
    · rfl
  · exact FramesR.pure

theorem preForward_reference (x s e) : FramesR (preForward x s e) := by
  unfold preForward
  refine FramesR.get.bind fun t => ?_
  split
  · exact FramesR.pure
  · refine (applyInputRange_reference _ _ _).bind fun _ => FramesR.get.bind fun _ => ?_
    dsimp only
    split_ifs
    · exact FramesR.throw
    · exact FramesR.pure

theorem setMappingScales_reference (a) : FramesR (setMappingScales a) := by
  unfold setMappingScales
  refine FramesR.get.bind fun t => ?_
  split
  · exact FramesR.modify fun _ => rfl
  · exact FramesR.modify fun _ => rfl
  · dsimp only
    refine FramesR.bind (FramesR.modify ?_) fun _ => ?_
    · exact fun _ => rfl
    split_ifs
    · exact FramesR.throw
    · exact FramesR.modify fun _ => rfl
    · exact FramesR.pure

theorem setLearned_reference (a) : FramesR (setLearnedOutScales a) := by
  unfold setLearnedOutScales
  refine FramesR.get.bind fun t => ?_
  split
  · exact FramesR.pure
  · split_ifs
    · exact FramesR.modify fun _ => rfl
    · exact FramesR.modify fun _ => rfl
    · exact FramesR.throw

theorem forward_reference (x s e) : FramesR (forward x s e) := by
  unfold forward jointForward
  refine FramesR.bind ?_ fun _ => FramesR.get.bind fun _ => FramesR.lift.bind fun _ => FramesR.pure
  exact (preForward_reference x s e).bind fun _ => FramesR.get.bind fun _ => FramesR.lift.bind fun _ =>
    FramesR.lift

theorem update_reference (x d) : FramesR (update x d) := by
  unfold update preUpdate preUpdateX
  refine FramesR.bind ?_ fun p => ?_
  · refine FramesR.bind ?_ fun _ => FramesR.get.bind fun _ => FramesR.lift.bind fun _ => FramesR.pure
    refine FramesR.get.bind fun t => ?_
    split
    · exact FramesR.pure
    · refine (applyInputRange_reference _ _ _).bind fun _ => ?_
      split_ifs
      · exact FramesR.throw
      · exact FramesR.pure
  · obtain ⟨x', d'⟩ := p
    refine FramesR.get.bind fun t => ?_
    split_ifs
    · exact FramesR.modify fun _ => rfl
    · exact FramesR.throw

theorem step_reference (t : Tile) (k : Call) (hk : k.isWrite = false) :
    (step t k).reference = t.reference := by
  cases k with
  | setWeights w b s o => cases hk
  | remapWeights o => cases hk
  | setScales a => exact ((setMappingScales_reference a).bind fun _ => setLearned_reference _) t
  | setMappingScales a => exact setMappingScales_reference a t
  | setLearnedOutScales a => exact setLearned_reference a t
  | setInputRange v =>
    show (setInputRange v t).2.reference = _
    unfold setInputRange
    simp only [Bind.bind, Op.bind, Op.get]
    cases t.inputRange <;> rfl
  | forward x s e => exact forward_reference x s e t
  | update x d => exact update_reference x d t
  | setLearningRate lr => cases lr <;> rfl

theorem programWeights_reference (fromReference : Bool) (lr maxIter tol wInit) (t : Tile) :
    (programWeights fromReference none lr maxIter tol wInit t).2.reference.isSome := by
  unfold programWeights targetWeights
  cases fromReference <;> cases hr : t.reference with
  | _ => simp [hr]; try (split <;> rfl)

/-- **C17** (second call). Once `program_weights` was called (with default `x_values`; whatever it returned), and
whatever calls other than a weight write follow, the next default `program_weights()` raises `UnboundLocalError`
and changes nothing. -/
theorem C17_second_call_raises (t : Tile) (fr : Bool) (lr : ℚ) (maxIter : Nat) (tol : Option ℚ) (wInit : Mat)
    (calls : List Call) (hcalls : ∀ k ∈ calls, k.isWrite = false)
    (lr' : ℚ) (maxIter' : Nat) (tol' : Option ℚ) (wInit' : Mat) :
    let t1 := (programWeights fr none lr maxIter tol wInit t).2
    let t2 := calls.foldl step t1
    programWeights true none lr' maxIter' tol' wInit' t2 = (.error .unboundLocal, t2) := by
  intro t1 t2
  have h1 : t1.reference.isSome := programWeights_reference _ _ _ _ _ _
  have h2 : t2.reference = t1.reference := by
    show (calls.foldl step t1).reference = _
    clear_value t1
    clear t2 h1
    induction calls generalizing t1 with
    | nil => rfl
    | cons k ks ih =>
      rw [List.foldl_cons, ih (fun k hk => hcalls k (by simp [hk])), step_reference _ _ (hcalls k (by simp))]
  obtain ⟨r, hr⟩ := Option.isSome_iff_exists.1 (h2 ▸ h1)
  unfold programWeights targetWeights
  simp [hr]

/-- **C17** (first call). On every reachable tile without stored reference (as after `set_weights`), on an ideal
device without weight bound and a non-zero target, `program_weights()` succeeds: after some number `k` of
iterations, at most `max_iter`, each entry of the stored weights deviates from the target (the weights stored
before the call) by exactly `(1 - lr)^k` times the initial deviation, and either the iterations are used up or the
mean deviation relative to the largest target entry is below the tolerance.  The device learning rate is restored and
only the stored weights and the reference change. -/
theorem C17_first_call (c : Cfg) (hc : c.Valid) (calls : List Call) (hcalls : ∀ k ∈ calls, k.Valid c)
    (hb : c.devBound = none) (fr : Bool) (lr : ℚ) (maxIter : Nat) (tol : Option ℚ) (wInit : Mat)
    (hw : IsMat c.outSize (xSize c) wInit)
    (hfirst : fr = false ∨ (run c calls).reference = none)
    (htol : tol = none ∨ maxEntry (run c calls).w ≠ 0) :
    let t := run c calls
    ∃ w', programWeights fr none lr maxIter tol wInit t = (.ok (), { t with w := w', reference := some t.w }) ∧
      ∃ k ≤ maxIter, (∀ i < c.outSize, ∀ j < xSize c,
          entry w' i j - entry t.w i j = (1 - lr) ^ k * (entry wInit i j - entry t.w i j)) ∧
        (k = maxIter ∨ ∃ q, tol = some q ∧ meanDev c.outSize (xSize c) w' t.w / maxEntry t.w < q) := by
  intro t
  have ht : Good c t := run_good hc hcalls
  have hv : IsMat c.outSize (xSize c) t.w := ht.w
  have htw : targetWeights fr t = some t.w := by
    unfold targetWeights
    rcases hfirst with rfl | h
    · simp
    · have : t.reference = none := h
      simp [this]
  have hb' : t.cfg.devBound = none := by rw [ht.cfg]; exact hb
  obtain ⟨k, hk, w', h1, _, h3, h4⟩ := programLoop_spec (c := t.cfg) hb' (lr := lr) hv (tol := tol)
    (tmax := maxEntry t.w) htol maxIter hw
  refine ⟨w', ?_, k, hk, h3, h4⟩
  unfold programWeights
  simp only [htw, Option.isSome_some, if_true]
  have hdw : devWrite t.cfg wInit = wInit := by unfold devWrite; rw [hb']
  have hxs : t.cfg.inSize + (if t.cfg.analogBias = true then 1 else 0) = xSize c := by rw [ht.cfg]; rfl
  simp only [hdw, hxs, tmax_eye hv, h1]

/-- **C17** (convergence). With `0 < lr < 2`, a positive tolerance and a non-zero target, some iteration budget
suffices: for every larger `max_iter` the programmed weights are within the tolerance. -/
theorem C17_converges (c : Cfg) (hc : c.Valid) (calls : List Call) (hcalls : ∀ k ∈ calls, k.Valid c)
    (hb : c.devBound = none) (lr q : ℚ) (hlr : 0 < lr ∧ lr < 2) (hq : 0 < q) (wInit : Mat)
    (hw : IsMat c.outSize (xSize c) wInit)
    (hfirst : (run c calls).reference = none) (hmax : maxEntry (run c calls).w ≠ 0) :
    ∃ N, ∀ maxIter, N ≤ maxIter → ∃ t', programWeights true none lr maxIter (some q) wInit (run c calls) =
      (.ok (), t') ∧
      meanDev c.outSize (xSize c) t'.w (run c calls).w / maxEntry (run c calls).w < q := by
  set t := run c calls with htdef
  have hpos : 0 < maxEntry t.w := lt_of_le_of_ne (absMax_nonneg _) (Ne.symm hmax)
  have hdn : 0 ≤ meanDev c.outSize (xSize c) wInit t.w := by
    unfold meanDev
    apply div_nonneg _ (by positivity)
    apply List.sum_nonneg
    intro a ha
    obtain ⟨i, _, rfl⟩ := List.mem_map.1 ha
    apply List.sum_nonneg
    intro b hb
    obtain ⟨j, _, rfl⟩ := List.mem_map.1 hb
    exact abs_nonneg _
  set D := meanDev c.outSize (xSize c) wInit t.w with hD
  have habs : |1 - lr| < 1 := by rw [abs_lt]; constructor <;> linarith
  obtain ⟨N, hN⟩ := exists_pow_lt_of_lt_one (show (0 : ℚ) < q * maxEntry t.w / (D + 1) by positivity) habs
  refine ⟨N, fun maxIter hm => ?_⟩
  obtain ⟨w', h1, k, hk, h3, h4⟩ := C17_first_call c hc calls hcalls hb true lr maxIter (some q) wInit hw
    (Or.inr hfirst) (Or.inr hmax)
  refine ⟨_, h1, ?_⟩
  rcases h4 with rfl | ⟨q', hq', h⟩
  swap
  · cases hq'; exact h
  have hdev : meanDev c.outSize (xSize c) w' t.w = |1 - lr| ^ k * D := by
    rw [hD]
    unfold meanDev
    rw [← mul_div_assoc, ← sum_map_mul_left']
    congr 2
    apply List.map_congr_left
    intro i hi
    rw [← sum_map_mul_left']
    congr 1
    apply List.map_congr_left
    intro j hj
    rw [h3 i (List.mem_range.1 hi) j (List.mem_range.1 hj), abs_mul, abs_pow]
  show meanDev _ _ w' t.w / maxEntry t.w < q
  rw [hdev, div_lt_iff₀ hpos]
  have hpow : |1 - lr| ^ k ≤ |1 - lr| ^ N := pow_le_pow_of_le_one (abs_nonneg _) habs.le hm
  have h5 : |1 - lr| ^ k * (D + 1) < q * maxEntry t.w := by
    have : |1 - lr| ^ k < q * maxEntry t.w / (D + 1) := lt_of_le_of_lt hpow hN
    rwa [lt_div_iff₀ (by linarith)] at this
  have h6 : 0 ≤ |1 - lr| ^ k := by positivity
  nlinarith

/-- **C17** (zero target). Programming an all-zero target with a tolerance raises `ZeroDivisionError` in the first
iteration and leaves the device at the random start weights with the programming learning rate. -/
theorem C17_zero_target_raises (c : Cfg) (hc : c.Valid) (calls : List Call) (hcalls : ∀ k ∈ calls, k.Valid c)
    (lr : ℚ) (maxIter : Nat) (hm : 0 < maxIter) (q : ℚ) (wInit : Mat)
    (hfirst : (run c calls).reference = none) (hmax : maxEntry (run c calls).w = 0) :
    let t := run c calls
    programWeights true none lr maxIter (some q) wInit t =
      (.error .zeroDivision, { t with w := devWrite c wInit, reference := some t.w, devLr := lr }) := by
  intro t
  have ht : Good c t := run_good hc hcalls
  have htw : targetWeights true t = some t.w := by
    unfold targetWeights
    have : t.reference = none := hfirst
    simp [this]
  obtain ⟨n, rfl⟩ : ∃ n, maxIter = n + 1 := ⟨maxIter - 1, by omega⟩
  unfold programWeights
  simp only [htw, Option.isSome_some, if_true]
  have hxs : t.cfg.inSize + (if t.cfg.analogBias = true then 1 else 0) = xSize c := by rw [ht.cfg]; rfl
  simp only [hxs, tmax_eye (show IsMat c.outSize (xSize c) t.w from ht.w), show maxEntry t.w = 0 from hmax]
  unfold programLoop
  simp [ht.cfg]

/-- Non-vacuity of C17: a write, a first programming (two steps at rate 1/2 from zero: deviation 1/4), and the
failing second call. -/
example :
    let c : Cfg := { outSize := 1, inSize := 2 }
    let calls := [Call.setWeights [[4, 8]] none true none]
    let t1 := (programWeights true none (1 / 2) 2 (some (1 / 100)) [[0, 0]] (run c calls)).2
    c.Valid ∧ (run c calls).reference = none ∧ maxEntry (run c calls).w = 8 ∧
      t1.w = [[3, 6]] ∧ (programWeights true none (1 / 2) 2 none [[0, 0]] t1).1 = .error .unboundLocal ∧
      maxEntry (run c []).w = 0 ∧ (run c []).reference = none := by
  refine ⟨⟨by decide, by decide, by decide⟩, ?_, ?_, ?_, ?_, ?_, ?_⟩ <;> decide +kernel

end Aihw.Periphery

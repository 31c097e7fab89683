import Verif.Periphery.Props3
import Mathlib.Data.List.Induction
import Mathlib.Algebra.Order.BigOperators.Group.List

/-!
# Property C16: the input range
-/
namespace Aihw.Periphery

/-! ## Calls that do not touch the input range -/

/-- `m` leaves input range and its batch counter alone. -/
def Frames {α : Type} (m : Op α) : Prop :=
  ∀ t, (m t).2.inputRange = t.inputRange ∧ (m t).2.irIdx = t.irIdx

theorem Frames.bind {α β : Type} {m : Op α} {f : α → Op β} (h : Frames m) (hf : ∀ a, Frames (f a)) :
    Frames (m >>= f) := by
  intro t
  have h1 := h t
  change (Op.bind m f t).2.inputRange = _ ∧ (Op.bind m f t).2.irIdx = _
  unfold Op.bind
  cases hm : m t with
  | mk r t' =>
    rw [hm] at h1
    cases r with
    | error e => exact h1
    | ok a => exact ⟨(hf a t').1.trans h1.1, (hf a t').2.trans h1.2⟩

theorem Frames.get : Frames Op.get := fun _ => ⟨rfl, rfl⟩
theorem Frames.pure {α : Type} {a : α} : Frames (Pure.pure a : Op α) := fun _ => ⟨rfl, rfl⟩
theorem Frames.throw {α : Type} {e : PyErr} : Frames (Op.throw e : Op α) := fun _ => ⟨rfl, rfl⟩
theorem Frames.lift {α : Type} {e : Except PyErr α} : Frames (Op.lift e) := fun _ => ⟨rfl, rfl⟩
theorem Frames.modify {f : Tile → Tile} (h : ∀ t, (f t).inputRange = t.inputRange ∧ (f t).irIdx = t.irIdx) :
    Frames (Op.modify f) := h

theorem setMappingScales_frames (a) : Frames (setMappingScales a) := by
  unfold setMappingScales
  refine Frames.get.bind fun t => ?_
  split
  · exact Frames.modify fun _ => ⟨rfl, rfl⟩
  · exact Frames.modify fun _ => ⟨rfl, rfl⟩
  · dsimp only
    refine Frames.bind (Frames.modify ?_) fun _ => ?_
    · exact fun _ => ⟨rfl, rfl⟩
    split_ifs
    · exact Frames.throw
    · exact Frames.modify fun _ => ⟨rfl, rfl⟩
    · exact Frames.pure

theorem setLearned_frames (a) : Frames (setLearnedOutScales a) := by
  unfold setLearnedOutScales
  refine Frames.get.bind fun t => ?_
  split
  · exact Frames.pure
  · split_ifs
    · exact Frames.modify fun _ => ⟨rfl, rfl⟩
    · exact Frames.modify fun _ => ⟨rfl, rfl⟩
    · exact Frames.throw

theorem setScales_frames (a) : Frames (setScales a) :=
  (setMappingScales_frames a).bind fun _ => setLearned_frames _

theorem applyWeightScaling_frames (w o) : Frames (applyWeightScaling w o) := by
  unfold applyWeightScaling
  refine Frames.get.bind fun t => ?_
  split
  · exact Frames.pure
  · split
    · exact Frames.pure
    · split_ifs
      · exact (setScales_frames _).bind fun _ => Frames.pure
      · exact (setScales_frames _).bind fun _ => Frames.pure
      · exact Frames.pure

theorem setWeights_frames (w b s o) : Frames (setWeights w b s o) := by
  unfold setWeights
  refine Frames.bind (Frames.modify ?_) fun _ => Frames.get.bind fun t => Frames.bind ?_
    fun b' => Frames.lift.bind fun cw => Frames.bind ?_ fun _ => Frames.modify ?_
  · exact fun _ => ⟨rfl, rfl⟩
  · split
    · exact Frames.pure
    · split_ifs
      · refine Frames.bind (Frames.modify ?_) fun _ => Frames.pure
        exact fun _ => ⟨rfl, rfl⟩
      · refine Frames.bind (Frames.modify ?_) fun _ => Frames.pure
        exact fun _ => ⟨rfl, rfl⟩
      · exact Frames.throw
      · exact Frames.pure
  · split_ifs
    · exact applyWeightScaling_frames _ _
    · exact Frames.pure
  · exact fun _ => ⟨rfl, rfl⟩

theorem applyInputRange_frames (x s) : Frames (applyInputRange x s false) := by
  unfold applyInputRange
  refine Frames.get.bind fun t => ?_
  split
  · exact (Frames.modify fun _ => ⟨rfl, rfl⟩).bind fun _ => Frames.get.bind fun _ => Frames.pure
  · exact Frames.pure

theorem update_frames (x d) : Frames (update x d) := by
  unfold update preUpdate preUpdateX
  refine Frames.bind ?_ fun p => ?_
  · refine Frames.bind ?_ fun _ => Frames.get.bind fun _ => Frames.lift.bind fun _ => Frames.pure
    refine Frames.get.bind fun t => ?_
    split
    · exact Frames.pure
    · refine (applyInputRange_frames _ _).bind fun _ => ?_
      split_ifs
      · exact Frames.throw
      · exact Frames.pure
  · obtain ⟨x', d'⟩ := p
    refine Frames.get.bind fun t => ?_
    split_ifs
    · exact Frames.modify fun _ => ⟨rfl, rfl⟩
    · exact Frames.throw

theorem forward_state {c t} (h : Good c t) (x : Vec) (std : ℚ) (e : Bool) :
    (forward x std e t).2 = afterForward t std e := by
  have hj : (jointForward x std e t).2 = afterForward t std e := by
    unfold jointForward
    simp only [Bind.bind, Op.bind, preForward_eq h, Op.get, Op.lift]
    cases (afterForward t std e).inputRange with
    | none =>
      simp only
      cases devForward (afterForward t std e) x with
      | error e => rfl
      | ok y => rfl
    | some r =>
      simp only
      split_ifs
      · rfl
      · simp only
        cases devForward (afterForward t std e) ((clippedInput (some r) x).map (· / r)) with
        | error e => rfl
        | ok y => rfl
  unfold forward
  simp only [Bind.bind, Op.bind]
  cases hq : jointForward x std e t with
  | mk r t' =>
    rw [hq] at hj
    cases r with
    | error e => exact hj
    | ok y =>
      simp only [Op.get, Op.lift]
      cases applyOutScaling t' y with
      | error e => exact hj
      | ok z => exact hj

/-- What a call other than `set_input_range` does to range and counter. -/
theorem step_range {c t} (h : Good c t) (k : Call) (hk : k.isSetRange = false) :
    ((step t k).inputRange, (step t k).irIdx) = match k with
      | .forward _ std false => ((afterForward t std false).inputRange, (afterForward t std false).irIdx)
      | _ => (t.inputRange, t.irIdx) := by
  have hf : ∀ {α : Type} (m : Op α), Frames m → ((m t).2.inputRange, (m t).2.irIdx) = (t.inputRange, t.irIdx) := by
    intro α m hm; rw [(hm t).1, (hm t).2]
  cases k with
  | setWeights w b s o => exact hf _ (setWeights_frames w b s o)
  | remapWeights o =>
    refine hf _ (Frames.get.bind fun _ => Frames.lift.bind fun p => ?_)
    exact setWeights_frames _ _ _ _
  | setScales a => exact hf _ (setScales_frames a)
  | setMappingScales a => exact hf _ (setMappingScales_frames a)
  | setLearnedOutScales a => exact hf _ (setLearned_frames a)
  | setInputRange v => cases hk
  | update x d => exact hf _ (update_frames x d)
  | setLearningRate lr =>
    refine hf _ ?_
    unfold setLearningRate
    cases lr with
    | none => exact Frames.pure
    | some lr => exact Frames.modify fun _ => ⟨rfl, rfl⟩
  | forward x std e =>
    have := forward_state h x std e
    cases e with
    | false => simp only [step, this]
    | true =>
      simp only [step, this]
      unfold afterForward
      split <;> simp

theorem average_append {l : List ℚ} {a : ℚ} :
    average (l ++ [a]) = (average l * l.length + a) / (l.length + 1) := by
  unfold average
  rcases eq_or_ne l.length 0 with h | h
  · rw [List.length_eq_zero_iff] at h; subst h; simp
  · have : (l.length : ℚ) ≠ 0 := by exact_mod_cast h
    simp only [List.sum_append, List.sum_cons, List.sum_nil, List.length_append, List.length_cons,
      List.length_nil]
    push_cast
    field_simp
    ring

theorem average_nonneg {l : List ℚ} (h : ∀ a ∈ l, 0 ≤ a) : 0 ≤ average l :=
  div_nonneg (List.sum_nonneg h) (by positivity)

theorem trainStds_pos {calls : List Call} {s : ℚ} (h : s ∈ trainStds calls) : 0 < s := by
  unfold trainStds at h
  rw [List.mem_filterMap] at h
  obtain ⟨k, _, hk⟩ := h
  split at hk
  · split_ifs at hk with h0; cases hk; exact h0
  · cases hk

theorem run_snoc (c : Cfg) (calls : List Call) (k : Call) : run c (calls ++ [k]) = step (run c calls) k := by
  simp [run]

theorem trainStds_append (a b : List Call) : trainStds (a ++ b) = trainStds a ++ trainStds b := by
  simp [trainStds]

/-- The first batches used for the range. -/
def used (p : IRPars) (calls : List Call) : List ℚ := (trainStds calls).take p.initFromData

theorem irUpdate_on {p : IRPars} {std r : ℚ} {t : Tile} (hr : t.inputRange = some r) (hs : 0 < std)
    (hi : t.irIdx < p.initFromData) :
    ((irUpdate p std t).inputRange, (irUpdate p std t).irIdx) =
      (some |(r * t.irIdx + p.initStdAlpha * std) / (t.irIdx + 1)|, t.irIdx + 1) := by
  unfold irUpdate
  simp [hi, hs, hr]

theorem range_invariant {c : Cfg} (hc : c.Valid) {p : IRPars} (hp : c.inputRange = some p)
    (ha : 0 ≤ p.initStdAlpha) (h0 : 0 ≤ p.initValue) (calls : List Call) (hcalls : ∀ k ∈ calls, k.Valid c)
    (hset : ∀ k ∈ calls, k.isSetRange = false) :
    (run c calls).irIdx = (used p calls).length ∧
    (run c calls).inputRange = some (if used p calls = [] then p.initValue else
      average ((used p calls).map (p.initStdAlpha * ·))) := by
  induction calls using List.reverseRecOn with
  | nil => simp [run, init, hp, used, trainStds]
  | append_singleton calls k ih =>
    have hv : ∀ k ∈ calls, k.Valid c := fun k hk => hcalls k (by simp [hk])
    obtain ⟨ih1, ih2⟩ := ih hv (fun k hk => hset k (by simp [hk]))
    have hg := run_good hc hv
    have hstep := step_range hg k (hset k (by simp))
    rw [← run_snoc] at hstep
    generalize hT : run c (calls ++ [k]) = T at hstep ⊢
    have hp' : (run c calls).cfg.inputRange = some p := by rw [hg.cfg]; exact hp
    have same : used p (calls ++ [k]) = used p calls →
        (T.inputRange, T.irIdx) = ((run c calls).inputRange, (run c calls).irIdx) →
        T.irIdx = (used p (calls ++ [k])).length ∧
        T.inputRange = some (if used p (calls ++ [k]) = [] then p.initValue else
          average ((used p (calls ++ [k])).map (p.initStdAlpha * ·))) := by
      intro hu hst
      rw [Prod.mk.injEq] at hst
      rw [hu, hst.1, hst.2]; exact ⟨ih1, ih2⟩
    have hnn : 0 ≤ (if used p calls = [] then p.initValue else
          average ((used p calls).map (p.initStdAlpha * ·))) := by
      split_ifs
      · exact h0
      · apply average_nonneg
        intro a hmem
        obtain ⟨s, hs, rfl⟩ := List.mem_map.1 hmem
        exact mul_nonneg ha (trainStds_pos (List.mem_of_mem_take hs)).le
    by_cases hk : ∃ x std, k = .forward x std false
    · obtain ⟨x, std, rfl⟩ := hk
      simp only at hstep
      have haf : afterForward (run c calls) std false = irUpdate p std (run c calls) := by
        unfold afterForward; simp [ih2, hp']
      rw [haf] at hstep
      by_cases hs : 0 < std
      · have ht : trainStds [Call.forward x std false] = [std] := by simp [trainStds, hs]
        by_cases hi : (trainStds calls).length < p.initFromData
        · have hu : used p calls = trainStds calls := by
            unfold used; exact List.take_of_length_le (by omega)
          have hu' : used p (calls ++ [Call.forward x std false]) = used p calls ++ [std] := by
            rw [hu]; unfold used; rw [trainStds_append, ht]
            exact List.take_of_length_le (by simp; omega)
          have hi' : (run c calls).irIdx < p.initFromData := by rw [ih1, hu]; exact hi
          rw [irUpdate_on ih2 hs hi', Prod.mk.injEq] at hstep
          have hne : used p calls ++ [std] ≠ [] := by simp
          rw [hu', hstep.1, hstep.2, ih1, if_neg hne]
          refine ⟨by simp, ?_⟩
          rw [List.map_append, List.map_singleton, average_append, List.length_map]
          congr 1
          rw [abs_of_nonneg (by
            apply div_nonneg _ (by positivity)
            exact add_nonneg (mul_nonneg hnn (by positivity)) (mul_nonneg ha hs.le))]
          by_cases he : used p calls = []
          · simp [he]
          · rw [if_neg he]
        · refine same ?_ (hstep.trans ?_)
          · unfold used; rw [trainStds_append, List.take_append_of_le_length (by omega)]
          · have hi' : ¬ (run c calls).irIdx < p.initFromData := by
              rw [ih1]; unfold used; rw [List.length_take]; omega
            unfold irUpdate; rw [if_neg hi']
      · refine same (by unfold used; rw [trainStds_append]; simp [trainStds, hs]) (hstep.trans ?_)
        unfold irUpdate
        split_ifs
        · simp only [ih2, Option.map_some, abs_of_nonneg hnn]
        · rfl
    · have hmt : trainStds [k] = [] := by
        cases k with
        | forward x std e =>
          cases e with
          | false => exact absurd ⟨x, std, rfl⟩ hk
          | true => simp [trainStds]
        | _ => rfl
      refine same (by unfold used; rw [trainStds_append, hmt, List.append_nil]) (hstep.trans ?_)
      split
      · exact absurd ⟨_, _, rfl⟩ hk
      · rfl

/-- **C16** (input range from data). For every history of calls without `set_input_range`, the input range is
the configured initial value until the first training batch with positive standard deviation; from then on it is
the mean of `init_std_alpha * std(batch)` over the first `init_from_data` such batches (all of them while there
are fewer), whatever other calls (evaluation forwards, weight or scale writes, updates, failing calls) are
interleaved. -/
theorem C16_range_from_data (c : Cfg) (hc : c.Valid) (p : IRPars) (hp : c.inputRange = some p)
    (ha : 0 ≤ p.initStdAlpha) (h0 : 0 ≤ p.initValue) (calls : List Call) (hcalls : ∀ k ∈ calls, k.Valid c)
    (hset : ∀ k ∈ calls, k.isSetRange = false) :
    let batches := (trainStds calls).take p.initFromData
    (run c calls).inputRange = some (if batches = [] then p.initValue else
      average (batches.map (p.initStdAlpha * ·))) :=
  (range_invariant hc hp ha h0 calls hcalls hset).2

/-- **C16** (order of the batches). Two histories whose training batches are a permutation of each other, with
no more than `init_from_data` of them, end with the same input range. -/
theorem C16_order_independent (c : Cfg) (hc : c.Valid) (p : IRPars) (hp : c.inputRange = some p)
    (ha : 0 ≤ p.initStdAlpha) (h0 : 0 ≤ p.initValue) (calls calls' : List Call)
    (hcalls : ∀ k ∈ calls, k.Valid c) (hset : ∀ k ∈ calls, k.isSetRange = false)
    (hcalls' : ∀ k ∈ calls', k.Valid c) (hset' : ∀ k ∈ calls', k.isSetRange = false)
    (hperm : (trainStds calls).Perm (trainStds calls')) (hn : (trainStds calls).length ≤ p.initFromData) :
    (run c calls).inputRange = (run c calls').inputRange := by
  rw [C16_range_from_data c hc p hp ha h0 calls hcalls hset,
    C16_range_from_data c hc p hp ha h0 calls' hcalls' hset']
  rw [List.take_of_length_le hn, List.take_of_length_le (by rw [← hperm.length_eq]; exact hn)]
  have he : trainStds calls = [] ↔ trainStds calls' = [] := by
    rw [← List.length_eq_zero_iff, ← List.length_eq_zero_iff, hperm.length_eq]
  have hav : average ((trainStds calls).map (p.initStdAlpha * ·)) =
      average ((trainStds calls').map (p.initStdAlpha * ·)) := by
    unfold average
    rw [(hperm.map _).sum_eq, (hperm.map _).length_eq]
  simp only [he, hav]

/-- **C16** (frozen afterwards). Once `init_from_data` training batches were seen, no call except
`set_input_range` changes the input range. -/
theorem C16_frozen (c : Cfg) (hc : c.Valid) (p : IRPars) (hp : c.inputRange = some p)
    (ha : 0 ≤ p.initStdAlpha) (h0 : 0 ≤ p.initValue) (calls more : List Call)
    (hcalls : ∀ k ∈ calls ++ more, k.Valid c) (hset : ∀ k ∈ calls ++ more, k.isSetRange = false)
    (hn : p.initFromData ≤ (trainStds calls).length) :
    (run c (calls ++ more)).inputRange = (run c calls).inputRange := by
  rw [C16_range_from_data c hc p hp ha h0 (calls ++ more) hcalls hset,
    C16_range_from_data c hc p hp ha h0 calls (fun k hk => hcalls k (by simp [hk]))
      (fun k hk => hset k (by simp [hk]))]
  rw [trainStds_append, List.take_append_of_le_length hn]

/-- **C16** (evaluation). An evaluation forward never changes the tile at all, after any history. -/
theorem C16_eval_pure (c : Cfg) (hc : c.Valid) (calls : List Call) (hcalls : ∀ k ∈ calls, k.Valid c)
    (x : Vec) (std : ℚ) : run c (calls ++ [.forward x std true]) = run c calls := by
  rw [run_snoc]
  show (forward x std true (run c calls)).2 = _
  rw [forward_state (run_good hc hcalls)]
  unfold afterForward
  split <;> simp

/-- **C16** (clipping). After any history, the values handed to the crossbar are the inputs clipped to the
range and divided by it, hence within [-1, 1]. -/
theorem C16_normalized (c : Cfg) (hc : c.Valid) (calls : List Call) (hcalls : ∀ k ∈ calls, k.Valid c)
    (x x' : Vec) (std : ℚ) (isTest : Bool) (t' : Tile)
    (h : preForward x std isTest (run c calls) = (.ok x', t')) (hr : c.inputRange.isSome) :
    ∃ r, t'.inputRange = some r ∧ r ≠ 0 ∧ x' = (clippedInput (some r) x).map (· / r) ∧
      ∀ a ∈ x', |a| ≤ 1 := by
  have hg := run_good hc hcalls
  rw [preForward_eq hg] at h
  have hg' := afterForward_good hg std isTest
  obtain ⟨r, hr'⟩ := Option.isSome_iff_exists.1 (show (afterForward (run c calls) std isTest).inputRange.isSome by
    rw [hg'.ir]; exact hr)
  simp only [hr'] at h
  split_ifs at h with h0
  · cases h
  cases h
  refine ⟨r, hr', h0, rfl, ?_⟩
  intro a hamem
  simp only [List.mem_map, clippedInput] at hamem
  obtain ⟨b, ⟨d, _, rfl⟩, rfl⟩ := hamem
  rw [abs_div, div_le_one (abs_pos.2 h0), abs_le]
  have := abs_nonneg r
  exact ⟨le_max_left _ _, max_le (by linarith) (min_le_left _ _)⟩

/-- **C16** (explicit range lost). `set_input_range(v)` before the first training batch has no lasting effect:
the first training batch replaces the range by `init_std_alpha * std`, for every `v`. -/
theorem C16_set_range_overwritten (c : Cfg) (hc : c.Valid) (p : IRPars) (hp : c.inputRange = some p)
    (ha : 0 ≤ p.initStdAlpha) (h0 : 0 ≤ p.initValue) (hn : 0 < p.initFromData) (calls : List Call)
    (hcalls : ∀ k ∈ calls, k.Valid c) (hset : ∀ k ∈ calls, k.isSetRange = false)
    (hno : trainStds calls = []) (v : ℚ) (x : Vec) (std : ℚ) (hs : 0 < std) :
    (run c (calls ++ [.setInputRange v])).inputRange = some |v| ∧
    (run c (calls ++ [.setInputRange v, .forward x std false])).inputRange = some (p.initStdAlpha * std) := by
  obtain ⟨h1, h2⟩ := range_invariant hc hp ha h0 calls hcalls hset
  have hg := run_good hc hcalls
  have e1 : run c (calls ++ [.setInputRange v]) = { run c calls with inputRange := some |v| } := by
    rw [run_snoc]
    show (setInputRange v (run c calls)).2 = _
    unfold setInputRange
    simp only [Bind.bind, Op.bind, Op.get, h2, Op.modify]
  refine ⟨by rw [e1], ?_⟩
  have hg1 : Good c (run c (calls ++ [.setInputRange v])) := by
    refine run_good hc ?_
    intro k hk
    simp only [List.mem_append, List.mem_singleton] at hk
    rcases hk with hk | rfl
    · exact hcalls k hk
    · trivial
  rw [show calls ++ [Call.setInputRange v, .forward x std false] =
    (calls ++ [Call.setInputRange v]) ++ [Call.forward x std false] by simp, run_snoc]
  show (forward x std false (run c (calls ++ [.setInputRange v]))).2.inputRange = _
  rw [forward_state hg1]
  have hidx : (run c (calls ++ [.setInputRange v])).irIdx = 0 := by
    rw [e1]; show (run c calls).irIdx = 0; rw [h1]; simp [used, hno]
  have hr : (run c (calls ++ [.setInputRange v])).inputRange = some |v| := by rw [e1]
  have hcfg : (run c (calls ++ [.setInputRange v])).cfg.inputRange = some p := by rw [hg1.cfg]; exact hp
  have : afterForward (run c (calls ++ [.setInputRange v])) std false =
      irUpdate p std (run c (calls ++ [.setInputRange v])) := by
    unfold afterForward; simp [hr, hcfg]
  rw [this]
  have hk := irUpdate_on (p := p) hr hs (by rw [hidx]; exact hn)
  rw [Prod.mk.injEq] at hk
  rw [hk.1, hidx]
  have := mul_nonneg ha hs.le
  simp [abs_of_nonneg this]

/-- Non-vacuity: three training batches (one constant) around an evaluation batch and a failing write,
`init_from_data = 2`, alpha 3. -/
example :
    let c : Cfg := { outSize := 1, inSize := 1, inputRange := some { initFromData := 2 } }
    let calls := [Call.forward [1] 0 false, .forward [1] 2 false, .forward [1] 50 true,
      .setWeights [[1, 2]] none true none, .forward [1] 4 false, .forward [1] 100 false]
    c.Valid ∧ (∀ k ∈ calls, k.Valid c) ∧ (∀ k ∈ calls, k.isSetRange = false) ∧
      trainStds calls = [2, 4, 100] ∧ (run c calls).inputRange = some 9 := by
  refine ⟨⟨by decide, by decide, by decide⟩, ?_, ?_, by decide +kernel, by decide +kernel⟩
  · intro k hk
    simp only [List.mem_cons, List.not_mem_nil, or_false] at hk
    rcases hk with rfl | rfl | rfl | rfl | rfl | rfl <;> trivial
  · intro k hk
    simp only [List.mem_cons, List.not_mem_nil, or_false] at hk
    rcases hk with rfl | rfl | rfl | rfl | rfl | rfl <;> rfl

end Aihw.Periphery

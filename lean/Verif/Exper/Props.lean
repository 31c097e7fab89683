import Verif.Exper.Spec
import Verif.Cloud.Lemmas
import Mathlib.Tactic.Ring
import Mathlib.Tactic.Linarith
import Mathlib.Tactic.Positivity
import Mathlib.Algebra.Order.Field.Basic
import Mathlib.Algebra.BigOperators.Group.List.Basic
import Mathlib.Algebra.Order.BigOperators.Group.List

/-! # C83: training experiments and their metrics -/
namespace Aihw.Exper
open Aihw Aihw.Cloud

variable {W B S : Type}

theorem emit_append (t : Table S) (a b : List (Sig × List ℚ)) (s : S) :
    emit t (a ++ b) s = (emit t a s).bind (emit t b) := by
  induction a generalizing s with
  | nil => rfl
  | cons e a ih =>
    rw [List.cons_append, emit, emit]
    cases h : callHook t e.1 e.2 s with
    | ok r => exact ih r.1
    | error x => rfl

theorem trainLoop_eq (M : Mach W B) (t : Table S) (bs : List B) (w : W) (s : S) :
    trainLoop M t bs w s =
      (emit t ((trainOut M w bs).2.map fun p => (Sig.trainBatchEnd, [(p.1 : ℚ), p.2 * p.1])) s).map
        fun s => ((trainOut M w bs).1, s) := by
  induction bs generalizing w s with
  | nil => rfl
  | cons b bs ih =>
    rw [trainLoop, trainOut, List.map_cons, emit]
    simp only
    cases h : callHook t .trainBatchEnd [(M.size b : ℚ), (M.step w b).2 * M.size b] s with
    | ok r => exact ih _ _
    | error x => rfl

theorem valLoop_eq (M : Mach W B) (t : Table S) (bs : List B) (w : W) (s : S) :
    valLoop M t bs w s =
      (emit t ((valOut M w bs).2.map fun p => (Sig.valBatchEnd, [(p.1 : ℚ), (p.2.1 : ℚ), p.2.2 * p.1])) s).map
        fun s => ((valOut M w bs).1, s) := by
  induction bs generalizing w s with
  | nil => rfl
  | cons b bs ih =>
    rw [valLoop, valOut, List.map_cons, emit]
    simp only
    cases h : callHook t .valBatchEnd
        [(M.size b : ℚ), ((M.predict w b).2.2 : ℚ), (M.predict w b).2.1 * M.size b] s with
    | ok r => exact ih _ _
    | error x => rfl

/-- One epoch for any hooks: the network is what it would be without hooks, and the hooks see exactly the
signals of the epoch. -/
theorem epoch_eq (M : Mach W B) (t : Table S) (n : ℕ) (tb vb : List B) (w : W) (s : S) :
    (epoch M t n tb vb w s).map (·.1) =
      (emit t (signals n (trainOut M (M.train w) tb).2
        (valOut M (M.eval (trainOut M (M.train w) tb).1) vb).2) s).map fun s => (epochEnd M tb vb w, s) := by
  unfold epoch signals trainingStep validationStep
  simp only [List.append_assoc, List.cons_append, List.nil_append]
  rw [emit]
  simp only
  cases h1 : callHook t .epochStart [(n : ℚ)] s with
  | error x => rfl
  | ok r1 =>
    simp only [emit]
    show ((callHook t .trainEpochStart [(n : ℚ)] r1.1 >>= _).map _) = _
    cases h2 : callHook t .trainEpochStart [(n : ℚ)] r1.1 with
    | error x => rfl
    | ok r2 =>
      simp only
      rw [emit_append]
      show ((trainLoop M t tb (M.train w) r2.1 >>= _).map _) = _
      rw [trainLoop_eq]
      cases h3 : emit t ((trainOut M (M.train w) tb).2.map
          fun p => (Sig.trainBatchEnd, [(p.1 : ℚ), p.2 * p.1])) r2.1 with
      | error x => rfl
      | ok s3 =>
        simp only [Except.map, Except.bind, emit, bind]
        cases h4 : callHook t .trainEpochEnd [] s3 with
        | error x => rfl
        | ok r4 =>
          simp only
          cases h5 : callHook t .valEpochStart [(n : ℚ)] r4.1 with
          | error x => rfl
          | ok r5 =>
            simp only
            rw [emit_append, valLoop_eq]
            cases h6 : emit t ((valOut M (M.eval (trainOut M (M.train w) tb).1) vb).2.map
                fun p => (Sig.valBatchEnd, [(p.1 : ℚ), (p.2.1 : ℚ), p.2.2 * p.1])) r5.1 with
            | error x => rfl
            | ok s6 =>
              simp only [Except.map, Except.bind, emit]
              cases h7 : callHook t .valEpochEnd [] s6 with
              | error x => rfl
              | ok r7 =>
                simp only
                cases h8 : callHook t .epochEnd [] r7.1 with
                | error x => rfl
                | ok r8 => rfl

/-- The network before the epoch `n + j`, started at epoch `n`. -/
theorem netAt_shift (M : Mach W B) (tb vb : ℕ → List B) (w : W) (j : ℕ) :
    netAt M (fun i => tb (i + 1)) (fun i => vb (i + 1)) (epochEnd M (tb 0) (vb 0) w) j =
      netAt M tb vb w (j + 1) := by
  induction j with
  | zero => rfl
  | succ j ih => rw [netAt, ih]; rfl

theorem epochs_eq (M : Mach W B) (t : Table S) (tb vb : ℕ → List B) (k n : ℕ) (w : W) (s : S) :
    (epochs M t tb vb k n w s).map (·.1) =
      (emit t ((List.range k).flatMap fun j => signals (n + j)
        (trained M (fun i => tb (n + i)) (fun i => vb (n + i)) w j)
        (validated M (fun i => tb (n + i)) (fun i => vb (n + i)) w j)) s).map
        fun s => (netAt M (fun i => tb (n + i)) (fun i => vb (n + i)) w k, s) := by
  induction k generalizing n w s with
  | zero => rfl
  | succ k ih =>
    rw [epochs, List.range_succ_eq_map, List.flatMap_cons, emit_append]
    have e := epoch_eq M t n (tb n) (vb n) w s
    have hs : signals (n + 0) (trained M (fun i => tb (n + i)) (fun i => vb (n + i)) w 0)
        (validated M (fun i => tb (n + i)) (fun i => vb (n + i)) w 0) =
        signals n (trainOut M (M.train w) (tb n)).2
          (valOut M (M.eval (trainOut M (M.train w) (tb n)).1) (vb n)).2 := rfl
    rw [hs]
    cases he : emit t (signals n (trainOut M (M.train w) (tb n)).2
        (valOut M (M.eval (trainOut M (M.train w) (tb n)).1) (vb n)).2) s with
    | error x =>
      rw [he] at e
      cases hp : epoch M t n (tb n) (vb n) w s with
      | error y => rw [hp] at e; cases e; rfl
      | ok r => rw [hp] at e; cases e
    | ok s1 =>
      rw [he] at e
      cases hp : epoch M t n (tb n) (vb n) w s with
      | error y => rw [hp] at e; cases e
      | ok r =>
        rw [hp] at e
        have e' : r.1 = (epochEnd M (tb n) (vb n) w, s1) := by
          simpa [Except.map] using e
        simp only
        rw [e']
        have h := ih (n + 1) (epochEnd M (tb n) (vb n) w) s1
        have f1 : ∀ j, (fun i => tb (n + 1 + i)) j = (fun i => (fun i => tb (n + i)) (i + 1)) j := by
          intro j; show tb (n + 1 + j) = tb (n + (j + 1)); congr 1; omega
        have f2 : ∀ j, (fun i => vb (n + 1 + i)) j = (fun i => (fun i => vb (n + i)) (i + 1)) j := by
          intro j; show vb (n + 1 + j) = vb (n + (j + 1)); congr 1; omega
        rw [funext f1, funext f2] at h
        have sh := netAt_shift M (fun i => tb (n + i)) (fun i => vb (n + i)) w
        simp only [Nat.add_zero] at sh
        have ft : ∀ j, trained M (fun i => (fun i => tb (n + i)) (i + 1))
            (fun i => (fun i => vb (n + i)) (i + 1)) (epochEnd M (tb n) (vb n) w) j =
            trained M (fun i => tb (n + i)) (fun i => vb (n + i)) w (j + 1) := by
          intro j
          unfold trained
          rw [sh]
        have fv : ∀ j, validated M (fun i => (fun i => tb (n + i)) (i + 1))
            (fun i => (fun i => vb (n + i)) (i + 1)) (epochEnd M (tb n) (vb n) w) j =
            validated M (fun i => tb (n + i)) (fun i => vb (n + i)) w (j + 1) := by
          intro j
          unfold validated
          rw [sh]
        simp only [ft, fv, sh] at h
        have hfm : ((List.range k).map Nat.succ).flatMap (fun j => signals (n + j)
            (trained M (fun i => tb (n + i)) (fun i => vb (n + i)) w j)
            (validated M (fun i => tb (n + i)) (fun i => vb (n + i)) w j)) =
            (List.range k).flatMap (fun j => signals (n + 1 + j)
            (trained M (fun i => tb (n + i)) (fun i => vb (n + i)) w (j + 1))
            (validated M (fun i => tb (n + i)) (fun i => vb (n + i)) w (j + 1))) := by
          rw [List.flatMap_map]
          congr 1
          funext j
          simp only [Nat.succ_eq_add_one]
          congr 1
          omega
        rw [hfm]
        show _ = (emit t _ s1).map _
        rw [← h]
        cases epochs M t tb vb k (n + 1) (epochEnd M (tb n) (vb n) w) s1 <;> rfl

/-- **C83 (hook protocol).** For every table of hooks, `train` takes the network through exactly the states
of training without hooks, and calls the hooks exactly for the signals of each epoch in order: epoch start,
training start, one signal per training batch with its size and summed loss, training end, validation
start, one per validation batch, validation end, epoch end.  It raises exactly when one of these hook calls
does. -/
theorem C83_signals (M : Mach W B) (t : Table S) (tb vb : ℕ → List B) (n : ℤ) (w : W) (s : S) :
    (train M t tb vb n w s).map (·.1) =
      (emit t (allSignals M tb vb w n.toNat) s).map fun s => (netAt M tb vb w n.toNat, s) := by
  have h := epochs_eq M t tb vb n.toNat 0 w s
  have e1 : (fun i => tb (0 + i)) = tb := by funext i; rw [Nat.zero_add]
  have e2 : (fun i => vb (0 + i)) = vb := by funext i; rw [Nat.zero_add]
  rw [e1, e2] at h
  simp only [Nat.zero_add] at h
  exact h

/-- **C83 (one result per epoch).** -/
theorem C83_length (M : Mach W B) (t : Table S) (tb vb : ℕ → List B) (n : ℤ) (w : W) (s : S)
    (r : (W × S) × List NDict) (h : train M t tb vb n w s = .ok r) : r.2.length = n.toNat := by
  have key : ∀ k i w s r, epochs M t tb vb k i w s = .ok r → r.2.length = k := by
    intro k
    induction k with
    | zero => intro i w s r h; cases h; rfl
    | succ k ih =>
      intro i w s r h
      rw [epochs] at h
      cases h1 : epoch M t i (tb i) (vb i) w s with
      | error x => rw [h1] at h; cases h
      | ok r1 =>
        rw [h1] at h
        simp only at h
        cases h2 : epochs M t tb vb k (i + 1) r1.1.1 r1.1.2 with
        | error x => rw [h2] at h; cases h
        | ok q =>
          rw [h2] at h
          cases h
          simp [ih _ _ _ _ h2]
  exact key _ _ _ _ _ h

/-! ## The local runner -/

theorem runner_epochStart (clock : ℕ → ℚ) (o : Bool) (t : Table Metric) :
    runnerTable clock o t .epochStart = [onEpochStart clock] ∧
    runnerTable clock o t .epochEnd = [onEpochEnd clock] ∧
    runnerTable clock o t .trainEpochEnd = [onTrainEpochEnd o] ∧
    runnerTable clock o t .trainBatchEnd = [onTrainBatchEnd] ∧
    runnerTable clock o t .valBatchEnd = [onValBatchEnd] ∧
    runnerTable clock o t .valEpochEnd = [onValEpochEnd o] ∧
    runnerTable clock o t .trainEpochStart = [] ∧ runnerTable clock o t .valEpochStart = [] := by
  refine ⟨?_, ?_, ?_, ?_, ?_, ?_, ?_, ?_⟩ <;> simp [runnerTable, addHook, clearHooks]

theorem call_one {t : Table S} {k : Sig} {h : Hook S} (e : t k = [h]) (args : List ℚ) (s : S) :
    callHook t k args s = (h args s).map fun r => (r.1, merge [] r.2) := by
  unfold callHook
  rw [e, hookLoop]
  cases h args s <;> rfl

theorem call_none {t : Table S} {k : Sig} (e : t k = []) (args : List ℚ) (s : S) :
    callHook t k args s = .ok (s, []) := by
  unfold callHook
  rw [e, hookLoop]

theorem train_batches (M : Mach W B) (clock : ℕ → ℚ) (o : Bool) (t : Table Metric) (bs : List B) (w : W)
    (c : Cur) (m : Metric) (hc : m.cur = some c) :
    trainLoop M (runnerTable clock o t) bs w m = .ok ((trainOut M w bs).1,
      { m with cur := some { c with
          trainImages := c.trainImages + images (trainOut M w bs).2,
          totalLoss := c.totalLoss + ((trainOut M w bs).2.map fun p => p.2 * (p.1 : ℚ)).sum } }) := by
  induction bs generalizing w c m with
  | nil =>
    rw [trainLoop]
    obtain ⟨cur, done, ticks⟩ := m
    simp only at hc
    subst hc
    simp [trainOut, images]
  | cons b bs ih =>
    rw [trainLoop, call_one (runner_epochStart clock o t).2.2.2.1]
    simp only [onTrainBatchEnd, hc, Except.map]
    rw [ih _ _ _ rfl]
    simp only [trainOut, images, List.map_cons, List.sum_cons, add_assoc]

theorem val_batches (M : Mach W B) (clock : ℕ → ℚ) (o : Bool) (t : Table Metric) (bs : List B) (w : W)
    (c : Cur) (m : Metric) (hc : m.cur = some c) :
    valLoop M (runnerTable clock o t) bs w m = .ok ((valOut M w bs).1,
      { m with cur := some { c with
          valImages := c.valImages + images (valOut M w bs).2,
          valCorrect := c.valCorrect + ((valOut M w bs).2.map fun p => (p.2.1 : ℚ)).sum,
          valLoss := c.valLoss + ((valOut M w bs).2.map fun p => p.2.2 * (p.1 : ℚ)).sum } }) := by
  induction bs generalizing w c m with
  | nil =>
    rw [valLoop]
    obtain ⟨cur, done, ticks⟩ := m
    simp only at hc
    subst hc
    simp [valOut, images]
  | cons b bs ih =>
    rw [valLoop, call_one (runner_epochStart clock o t).2.2.2.2.1]
    simp only [onValBatchEnd, hc, Except.map]
    rw [ih _ _ _ rfl]
    simp only [valOut, images, List.map_cons, List.sum_cons, add_assoc]

theorem upd_report (n time a l v : ℚ) :
    upd [("epoch", n)] (merge [] (some [("epoch", n), ("time_epoch", time), ("accuracy", a),
      ("train_loss", l), ("valid_loss", v)])) =
    [("epoch", n), ("time_epoch", time), ("accuracy", a), ("train_loss", l), ("valid_loss", v)] := by
  simp [upd, merge, put]

/-- An epoch under the local runner: a report of means, or `ZeroDivisionError` without samples. -/
theorem epoch_runner (M : Mach W B) (clock : ℕ → ℚ) (o : Bool) (t : Table Metric) (n : ℕ) (tb vb : List B)
    (w : W) (m : Metric) :
    (images (trainOut M (M.train w) tb).2 ≠ 0 →
      images (valOut M (M.eval (trainOut M (M.train w) tb).1) vb).2 ≠ 0 →
      ∃ m', m'.ticks = m.ticks + 2 ∧
        epoch M (runnerTable clock o t) n tb vb w m = .ok ((epochEnd M tb vb w, m'),
          report (clock (m.ticks + 1) - clock m.ticks) n (trainOut M (M.train w) tb).2
            (valOut M (M.eval (trainOut M (M.train w) tb).1) vb).2)) ∧
    (images (trainOut M (M.train w) tb).2 = 0 ∨
      images (valOut M (M.eval (trainOut M (M.train w) tb).1) vb).2 = 0 →
      epoch M (runnerTable clock o t) n tb vb w m = .error .zeroDivision) := by
  obtain ⟨r1, r2, r3, _, _, r6, r7, r8⟩ := runner_epochStart clock o t
  have start : epoch M (runnerTable clock o t) n tb vb w m = (do
      let q ← callHook (runnerTable clock o t) .trainEpochEnd []
        { m with cur := some { number := (n : ℚ), start := clock m.ticks,
                               trainImages := images (trainOut M (M.train w) tb).2,
                               totalLoss := ((trainOut M (M.train w) tb).2.map fun p => p.2 * (p.1 : ℚ)).sum },
                 ticks := m.ticks + 1 }
      let q ← callHook (runnerTable clock o t) .valEpochStart [(n : ℚ)] q.1
      let r ← validationStep M (runnerTable clock o t) vb (trainOut M (M.train w) tb).1 q.1
      let q ← callHook (runnerTable clock o t) .valEpochEnd [] r.2
      let q ← callHook (runnerTable clock o t) .epochEnd [] q.1
      .ok ((r.1, q.1), upd [("epoch", (n : ℚ))] q.2)) := by
    unfold epoch
    rw [call_one r1]
    simp only [onEpochStart, Except.map, bind, Except.bind]
    rw [call_none r7]
    simp only [trainingStep]
    rw [train_batches M clock o t tb (M.train w) { number := (n : ℚ), start := clock m.ticks } _ rfl]
    simp only [zero_add]
  rw [start]
  generalize hT : trainOut M (M.train w) tb = T
  generalize hV : valOut M (M.eval T.1) vb = V
  have val : ∀ (c : Cur) (m : Metric), m.cur = some c → c.valImages = 0 → c.valCorrect = 0 → c.valLoss = 0 →
      validationStep M (runnerTable clock o t) vb T.1 m = .ok (V.1, { m with cur := some { c with
        valImages := images V.2, valCorrect := (V.2.map fun p => (p.2.1 : ℚ)).sum,
        valLoss := (V.2.map fun p => p.2.2 * (p.1 : ℚ)).sum } }) := by
    intro c m hc h1 h2 h3
    unfold validationStep
    rw [val_batches M clock o t vb (M.eval T.1) c m hc, hV, h1, h2, h3]
    simp only [zero_add]
  have hend : epochEnd M tb vb w = V.1 := by
    unfold epochEnd; rw [hT, hV]
  -- the second half
  have rest : (images T.2 ≠ 0 ∨ o = false) → ∀ m1 : Metric, m1 = ⟨some ⟨(n : ℚ), clock m.ticks,
      (T.2.map fun p => p.2 * (p.1 : ℚ)).sum, images T.2, 0, 0, 0⟩, m.done, m.ticks + 1⟩ →
      callHook (runnerTable clock o t) .trainEpochEnd [] m1 = .ok (m1, []) := by
    intro h m1 hm1
    rw [call_one r3]
    subst hm1
    simp only [onTrainEpochEnd]
    cases o with
    | false => rfl
    | true =>
      have h : images T.2 ≠ 0 := by rcases h with h | h; exact h; cases h
      simp [pyDiv, h, Except.map, merge]
  constructor
  · intro hT0 hV0
    obtain ⟨C, hC⟩ : ∃ C : Cur, C = ⟨(n : ℚ), clock m.ticks, (T.2.map fun p => p.2 * (p.1 : ℚ)).sum, images T.2,
      images V.2, (V.2.map fun p => (p.2.1 : ℚ)).sum, (V.2.map fun p => p.2.2 * (p.1 : ℚ)).sum⟩ := ⟨_, rfl⟩
    refine ⟨⟨some C, m.done ++ [C], m.ticks + 2⟩, rfl, ?_⟩
    rw [rest (.inl hT0) _ rfl]
    simp only [bind, Except.bind]
    rw [call_none r8]
    simp only
    rw [val _ _ rfl rfl rfl rfl]
    simp only
    rw [call_one r6]
    have h6 : ∀ (c : Cur) (m : Metric), m.cur = some c → c.valImages ≠ 0 →
        onValEpochEnd o [] m = .ok (m, none) := by
      intro c m hc h0
      simp only [onValEpochEnd, hc]
      cases o <;> simp [pyDiv, h0, Except.map, Except.bind]
    rw [h6 _ _ rfl hV0]
    simp only [Except.map]
    rw [call_one r2]
    simp only [onEpochEnd, epochDict, pyDiv, if_neg hT0, if_neg hV0, bind, Except.bind, Except.map]
    rw [hend, upd_report, hC]
    rfl
  · intro h0
    by_cases hT0 : images T.2 = 0
    · cases o with
      | true =>
        rw [call_one r3]
        simp only [onTrainEpochEnd]
        simp [pyDiv, hT0, Except.map, bind, Except.bind]
      | false =>
        rw [rest (.inr rfl) _ rfl]
        simp only [bind, Except.bind]
        rw [call_none r8]
        simp only
        rw [val _ _ rfl rfl rfl rfl]
        simp only
        rw [call_one r6]
        simp only [onValEpochEnd, Except.map, Bool.false_eq_true, if_false]
        rw [call_one r2]
        simp only [onEpochEnd, epochDict, bind, Except.bind, Except.map]
        by_cases hv : images V.2 = 0
        · simp [pyDiv, hv]
        · simp [pyDiv, hv, hT0]
    · have hV0 : images V.2 = 0 := h0.resolve_left hT0
      rw [rest (.inl hT0) _ rfl]
      simp only [bind, Except.bind]
      rw [call_none r8]
      simp only
      rw [val _ _ rfl rfl rfl rfl]
      simp only
      rw [call_one r6]
      cases o with
      | true => simp [onValEpochEnd, pyDiv, hV0, Except.map, Except.bind]
      | false =>
        simp only [onValEpochEnd, Except.map, Bool.false_eq_true, if_false]
        rw [call_one r2]
        simp [onEpochEnd, epochDict, pyDiv, hV0, bind, Except.bind, Except.map]

theorem epochs_runner (M : Mach W B) (clock : ℕ → ℚ) (o : Bool) (t : Table Metric) (tb vb : ℕ → List B)
    (w : W) (k n : ℕ) (m : Metric) (hm : m.ticks = 2 * n) :
    ((∀ i, n ≤ i → i < n + k → images (trained M tb vb w i) ≠ 0 ∧ images (validated M tb vb w i) ≠ 0) →
      ∃ m', epochs M (runnerTable clock o t) tb vb k n (netAt M tb vb w n) m = .ok ((netAt M tb vb w (n + k), m'),
        (List.range' n k).map fun i => report (clock (2 * i + 1) - clock (2 * i)) i (trained M tb vb w i)
          (validated M tb vb w i))) ∧
    ((∃ i, n ≤ i ∧ i < n + k ∧ (images (trained M tb vb w i) = 0 ∨ images (validated M tb vb w i) = 0)) →
      epochs M (runnerTable clock o t) tb vb k n (netAt M tb vb w n) m = .error .zeroDivision) := by
  induction k generalizing n m with
  | zero =>
    constructor
    · intro _
      exact ⟨m, rfl⟩
    · rintro ⟨i, h1, h2, _⟩; omega
  | succ k ih =>
    obtain ⟨p1, p2⟩ := epoch_runner M clock o t n (tb n) (vb n) (netAt M tb vb w n) m
    constructor
    · intro h
      obtain ⟨h1, h2⟩ := h n (by omega) (by omega)
      obtain ⟨m1, hm1, e1⟩ := p1 h1 h2
      obtain ⟨m2, e2⟩ := (ih (n + 1) m1 (by omega)).1 (fun i a b => h i (by omega) (by omega))
      refine ⟨m2, ?_⟩
      rw [epochs, e1]
      simp only
      have e2' : epochs M (runnerTable clock o t) tb vb k (n + 1)
          (epochEnd M (tb n) (vb n) (netAt M tb vb w n)) m1 = _ := e2
      rw [e2']
      simp only
      rw [List.range'_succ, List.map_cons, hm]
      rw [show n + 1 + k = n + (k + 1) by omega]
      rfl
    · intro h
      rw [epochs]
      by_cases hz : images (trained M tb vb w n) = 0 ∨ images (validated M tb vb w n) = 0
      · rw [p2 hz]
      · rw [not_or] at hz
        obtain ⟨m1, hm1, e1⟩ := p1 hz.1 hz.2
        rw [e1]
        simp only
        obtain ⟨i, a, b, c⟩ := h
        have hne : i ≠ n := by
          rintro rfl
          exact c.elim hz.1 hz.2
        have e2 := (ih (n + 1) m1 (by omega)).2 ⟨i, by omega, by omega, c⟩
        have e2' : epochs M (runnerTable clock o t) tb vb k (n + 1)
          (epochEnd M (tb n) (vb n) (netAt M tb vb w n)) m1 = _ := e2
        rw [e2']

/-- **C83 (results).** `LocalRunner.run` reports for each epoch, in order, its number, its time, the
fraction of correctly predicted validation samples, and the mean losses per sample of training and
validation, whatever hooks the experiment had, and trains the network as without hooks. -/
theorem C83_results (M : Mach W B) (clock : ℕ → ℚ) (o : Bool) (t : Table Metric) (tb vb : ℕ → List B) (n : ℤ)
    (w : W)
    (h : ∀ i < n.toNat, images (trained M tb vb w i) ≠ 0 ∧ images (validated M tb vb w i) ≠ 0) :
    ∃ m, localRun M clock o t tb vb n w = .ok ((netAt M tb vb w n.toNat, m),
      (List.range n.toNat).map fun i => report (clock (2 * i + 1) - clock (2 * i)) i (trained M tb vb w i)
        (validated M tb vb w i)) := by
  obtain ⟨m, e⟩ := (epochs_runner M clock o t tb vb w n.toNat 0 metric0 rfl).1
    (fun i _ hi => h i (by omega))
  rw [Nat.zero_add, ← List.range_eq_range'] at e
  exact ⟨m, e⟩

/-- **C83 (no samples).** If in some epoch there is no training sample or no validation sample, the run
ends with `ZeroDivisionError`. -/
theorem C83_no_samples (M : Mach W B) (clock : ℕ → ℚ) (o : Bool) (t : Table Metric) (tb vb : ℕ → List B)
    (n : ℤ) (w : W)
    (h : ∃ i < n.toNat, images (trained M tb vb w i) = 0 ∨ images (validated M tb vb w i) = 0) :
    localRun M clock o t tb vb n w = .error .zeroDivision := by
  obtain ⟨i, hi, h⟩ := h
  exact (epochs_runner M clock o t tb vb w n.toNat 0 metric0 rfl).2 ⟨i, by omega, by omega, h⟩

/-- **C83 (other hooks).** The local runner removes the hooks that were registered before: the result does
not depend on them. -/
theorem C83_hooks_removed (M : Mach W B) (clock : ℕ → ℚ) (o : Bool) (t t' : Table Metric)
    (tb vb : ℕ → List B) (n : ℤ) (w : W) :
    localRun M clock o t tb vb n w = localRun M clock o t' tb vb n w := by
  have : runnerTable clock o t = runnerTable clock o t' := by
    funext k
    cases k <;> simp [runnerTable, addHook, clearHooks]
  unfold localRun
  rw [this]

/-- **C83 (range).** The reported accuracy is between 0 and 1, if no batch has more correct predictions
than samples. -/
theorem C83_accuracy_range (time : ℚ) (n : ℕ) (tr : List (ℕ × ℚ)) (va : List (ℕ × ℕ × ℚ))
    (h : ∀ p ∈ va, p.2.1 ≤ p.1) :
    ∃ a, get (report time n tr va) "accuracy" = some a ∧ 0 ≤ a ∧ a ≤ 1 := by
  refine ⟨_, rfl, ?_, ?_⟩
  · refine div_nonneg ?_ ?_ <;>
    · refine List.sum_nonneg ?_
      intro x hx
      obtain ⟨p, _, rfl⟩ := List.mem_map.mp hx
      positivity
  · refine div_le_one_of_le₀ ?_ ?_
    · refine List.sum_le_sum ?_
      intro p hp
      exact_mod_cast h p hp
    · refine List.sum_nonneg ?_
      intro x hx
      obtain ⟨p, _, rfl⟩ := List.mem_map.mp hx
      positivity

/-- Mean of `f` over a list. -/
def mean {α : Type} (f : α → ℚ) (l : List α) : ℚ := (l.map f).sum / l.length

/-- **C83 (batching does not matter).** For a network whose predictions depend on the sample only and a loss
that is the mean over the batch, accuracy and validation loss are those of the whole validation set: the
same for every division into (non-empty) batches and every order. -/
theorem C83_batching {X : Type} (M : Mach W (List X)) (loss : X → ℚ) (good : X → Bool)
    (hs : ∀ b, M.size b = b.length)
    (hp : ∀ w b, M.predict w b = (w, mean loss b, (b.filter good).length))
    (w : W) (bs : List (List X)) (hb : ∀ b ∈ bs, b ≠ []) (data : List X) (hd : bs.flatten.Perm data)
    (time : ℚ) (n : ℕ) (tr : List (ℕ × ℚ)) :
    get (report time n tr (valOut M w bs).2) "accuracy" =
      some (((data.filter good).length : ℚ) / data.length) ∧
    get (report time n tr (valOut M w bs).2) "valid_loss" = some (mean loss data) := by
  have key : images (valOut M w bs).2 = (bs.flatten.length : ℚ) ∧
      ((valOut M w bs).2.map fun p => (p.2.1 : ℚ)).sum = ((bs.flatten.filter good).length : ℚ) ∧
      ((valOut M w bs).2.map fun p => p.2.2 * (p.1 : ℚ)).sum = (bs.flatten.map loss).sum := by
    clear hd
    induction bs with
    | nil => simp [valOut, images]
    | cons b bs ih =>
      obtain ⟨i1, i2, i3⟩ := ih (fun b hb' => hb b (by simp [hb']))
      have hne : (b.length : ℚ) ≠ 0 := by
        have := hb b (by simp)
        simpa using this
      simp only [valOut, hp, hs, images, List.map_cons, List.sum_cons, List.flatten_cons,
        List.length_append, List.filter_append, List.map_append, List.sum_append]
      rw [show ((valOut M w bs).2.map fun p => (p.1 : ℚ)).sum = (bs.flatten.length : ℚ) from i1, i2, i3]
      refine ⟨by push_cast; ring, by push_cast; ring, ?_⟩
      unfold mean
      rw [div_mul_cancel₀ _ hne]
  obtain ⟨k1, k2, k3⟩ := key
  have l1 := hd.length_eq
  have l2 := (hd.filter good).length_eq
  have l3 := (hd.map loss).sum_eq
  constructor
  · show some _ = some _
    rw [k1, k2, l1, l2]
  · show some _ = some _
    rw [k1, k3, l1, l3]
    rfl

end Aihw.Exper

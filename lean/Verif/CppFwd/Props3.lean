import Verif.CppFwd.Props2

/-!
# C62: bound management; C61: average noise management
-/
open scoped BigOperators

namespace Aihw.CppFwd

variable {K : Type} [Field K] [LinearOrder K] [IsStrictOrderedRing K] [FloorRing K]

set_option linter.unusedSectionVars false

/-- The total divisor of the inputs in round `k` (starting with 0): the noise management value times
`2^k`; the worst-case mode starts again with the value of the positive and negative sums in round 1. -/
def IO.divisor (io : IO K) (n : Nat) (x : Nat → K) (v : K) (k : Nat) : K :=
  match io.bm with
  | .none => io.nmDiv v
  | .iterative => io.nmDiv v * 2 ^ k
  | .worstCase =>
    if io.nm = .absMaxNPSum then io.nmDiv v * 2 ^ k
    else match k with
      | 0 => io.nmDiv v
      | k + 1 => io.nmDiv (io.npSum n x) * 2 ^ k

/-- The part of it that is due to the bound management. -/
def IO.reduction (io : IO K) (k : Nat) : K :=
  if io.bm = .worstCase ∧ io.nm ≠ .absMaxNPSum then (match k with | 0 => 1 | k + 1 => 2 ^ k) else 2 ^ k

theorem red_eq (io : IO K) (n : Nat) (x : Nat → K) (v : K) (k : Nat) :
    (io.stAt n x v (k + 1)).red = io.reduction k := by
  rw [stAt_succ]
  unfold IO.reduction
  by_cases h : io.switches
  · rw [if_pos (show io.bm = .worstCase ∧ io.nm ≠ .absMaxNPSum from h)]
    cases k with
    | zero => rw [if_neg (by omega)]; simp
    | succ k => rw [if_pos ⟨h, by omega⟩]; simp
  · rw [if_neg (fun h' => h h'.1), if_neg (show ¬(io.bm = .worstCase ∧ io.nm ≠ .absMaxNPSum) from h)]

theorem scale_divisor (io : IO K) (n : Nat) (x : Nat → K) (v : K) (k : Nat) :
    io.scaleOf (io.stAt n x v (k + 1)) = 1 / io.divisor n x v k := by
  rw [scaleOf_eq, red_eq, stAt_succ]
  congr 1
  unfold IO.divisor IO.reduction IO.switches
  cases hb : io.bm with
  | none => simp
  | iterative => simp
  | worstCase =>
    by_cases hn : io.nm = .absMaxNPSum
    · simp [hn]
    · cases k with
      | zero => simp [hn]
      | succ k => simp [hn]

theorem divisor_pos (io : IO K) (n : Nat) (x : Nat → K) (v : K) (k : Nat) : 0 < io.divisor n x v k := by
  have h := scaleOf_pos io (stAt_red_pos io n x v (k + 1))
  rw [scale_divisor] at h
  exact one_div_pos.1 h

theorem scaling_irrelevant (io : IO K) (sq : K → K) (p : MVPar K) (n m : Nat) (tr : Bool)
    (w : Nat → Nat → K) (dr : Draws K) (s : LoopSt K) (x : Nat → K) :
    io.analogMV sq p n m tr w dr (io.scaleOf s) (io.scalingOf s) x =
      io.analogMV sq p n m tr w dr (io.scaleOf s) true x := by
  have e : ∀ u g v, io.prepare (io.scaleOf s) (io.scalingOf s) u g v =
      io.prepare (io.scaleOf s) true u g v := by
    intro u g v
    unfold IO.prepare
    simp only [scaled_eq, if_true]
  unfold IO.analogMV
  simp only [e]

/-- **C62 (bound management).**  For a supported mode and a noise management value `v`, the forward pass
always ends.  Its output is that of the first round `k` whose bound test passes or whose reduction
exceeds a limit, times `out_scale * alpha` and the divisor of that round; every earlier round failed its
test within the limits.  Without bound management there is exactly one round. -/
theorem C62_result {t : Pass K} (hp : t.f.perfect = false)
    (hs : t.f.mvType = .onePass ∨ t.f.mvType = .posNeg ∨ t.f.mvType = .posNegDigital) (sq : K → K)
    (w : Nat → Nat → K) (al : K) (dr : Nat → Draws K) (x : Nat → K) {aux v aux' : K}
    (hv : t.f.computeNM t.X x aux = .ok (v, aux'))
    (hcut : ¬(t.f.nm ≠ .none ∧ v ≤ 0 ∧ t.f.inpNoise ≤ 0)) :
    ∃ (R : Nat → (Nat → K) × Bool) (k : Nat),
      (∀ i, t.f.analogMV sq t.fm t.X t.D false w (dr i) (1 / t.f.divisor t.X x v i) true x = .ok (R i)) ∧
      t.forward sq w al dr x aux =
        .ok (fun o => t.f.outScale * al * t.f.divisor t.X x v k * (R k).1 o, aux') ∧
      (t.f.bm = .none → k = 0) ∧
      (t.f.bm ≠ .none → (R k).2 = true ∨ (t.f.maxBmFactor : K) < t.f.reduction k ∨
        (0 < t.f.inpRes ∧ t.f.maxBmRes / t.f.inpRes < t.f.reduction k)) ∧
      ∀ i < k, (R i).2 = false ∧ t.f.reduction i ≤ (t.f.maxBmFactor : K) ∧
        (0 < t.f.inpRes → t.f.reduction i ≤ t.f.maxBmRes / t.f.inpRes) := by
  have hperf : t.f.isPerfect = false := by
    unfold IO.isPerfect
    rw [hp]
    rcases hs with e | e | e <;> rw [e] <;> rfl
  obtain ⟨R, k, hR, hstop, hmin, hf⟩ :=
    (forward_form hperf hs (sq := sq) (w := w) (al := al) (dr := dr) hv).2 hcut
  have hint : ∀ i, ∃ z : ℤ, t.f.reduction i = (z : K) := by
    intro i
    unfold IO.reduction
    split_ifs
    · cases i with
      | zero => exact ⟨1, by simp⟩
      | succ i => exact ⟨2 ^ i, by push_cast; rfl⟩
    · exact ⟨2 ^ i, by push_cast; rfl⟩
  refine ⟨R, k, ?_, ?_, ?_, ?_, ?_⟩
  · intro i
    have := hR i
    unfold IO.roundAt at this
    rw [scaling_irrelevant, scale_divisor] at this
    exact this
  · rw [hf]
    congr 2
    funext o
    rw [scale_divisor, div_div_eq_mul_div, div_one]
  · intro hb
    by_contra hk
    exact (hmin 0 (Nat.pos_of_ne_zero hk)).1 hb
  · intro hb
    rcases hstop with h | h | h
    · exact absurd h hb
    · exact Or.inl h
    · right
      rw [red_eq] at h
      unfold IO.limit at h
      rw [Bool.or_eq_true, Bool.and_eq_true, decide_eq_true_eq, decide_eq_true_eq, decide_eq_true_eq] at h
      rcases h with h | h
      · left
        exact lt_of_lt_of_le (by exact_mod_cast h) (Int.floor_le _)
      · exact Or.inr h
  · intro i hi
    obtain ⟨-, h2, h3⟩ := hmin i hi
    rw [red_eq] at h3
    unfold IO.limit at h3
    rw [Bool.or_eq_false_iff, decide_eq_false_iff_not, Bool.and_eq_false_iff, decide_eq_false_iff_not,
      decide_eq_false_iff_not] at h3
    refine ⟨h2, ?_, ?_⟩
    · obtain ⟨z, hz⟩ := hint i
      have := le_of_not_gt h3.1
      rw [hz, Int.floor_intCast] at this
      rw [hz]
      exact_mod_cast this
    · intro h0
      rcases h3.2 with h | h
      · exact absurd h0 h
      · exact le_of_not_gt h

/-- **C62 (termination and errors).**  The forward pass never runs forever: it returns a value, or raises
because the mode or the noise management is not implemented on the CPU. -/
theorem C62_terminates {t : Pass K} (sq : K → K) (w : Nat → Nat → K) (al : K) (dr : Nat → Draws K)
    (x : Nat → K) (aux : K) :
    (∃ r, t.forward sq w al dr x aux = .ok r) ∨
    (t.forward sq w al dr x aux = .error .runtimeError ∧ (t.f.nm = .absMaxSingle ∨
      t.f.mvType = .splitMode ∨ t.f.mvType = .bitWise)) := by
  by_cases hp : t.f.isPerfect = true
  · left; unfold Pass.forward; rw [if_pos hp]; exact ⟨_, rfl⟩
  have hpf : t.f.isPerfect = false := by simpa using hp
  by_cases hsup : t.f.mvType.supported
  · cases hv : t.f.computeNM t.X x aux with
    | error e =>
      right
      have hn : t.f.nm = .absMaxSingle ∧ e = .runtimeError := by
        unfold IO.computeNM at hv
        cases hnm : t.f.nm <;> rw [hnm] at hv <;> simp at hv
        exact ⟨rfl, hv.symm⟩
      unfold Pass.forward
      rw [if_neg hp, hv, hn.2]
      exact ⟨rfl, Or.inl hn.1⟩
    | ok r =>
      left
      obtain ⟨F1, F2⟩ := forward_form hpf hsup (sq := sq) (w := w) (al := al) (dr := dr) (v := r.1)
        (aux' := r.2) hv
      by_cases hcut : t.f.nm ≠ .none ∧ r.1 ≤ 0 ∧ t.f.inpNoise ≤ 0
      · exact ⟨_, F1 hcut⟩
      · obtain ⟨R, k, -, -, -, hf⟩ := F2 hcut
        exact ⟨_, hf⟩
  · have hmv : t.f.mvType = .splitMode ∨ t.f.mvType = .bitWise := by
      unfold IO.isPerfect at hpf
      rw [Bool.or_eq_false_iff, decide_eq_false_iff_not] at hpf
      unfold MV.supported at hsup
      cases h : t.f.mvType <;> simp [h] at hsup hpf ⊢
    unfold Pass.forward
    rw [if_neg hp]
    cases hv : t.f.computeNM t.X x aux with
    | error e =>
      right
      have hn : t.f.nm = .absMaxSingle ∧ e = .runtimeError := by
        unfold IO.computeNM at hv
        cases hnm : t.f.nm <;> rw [hnm] at hv <;> simp at hv
        exact ⟨rfl, hv.symm⟩
      rw [hn.2]
      exact ⟨rfl, Or.inl hn.1⟩
    | ok r =>
      simp only
      by_cases hcut : t.f.nm ≠ .none ∧ r.1 ≤ 0 ∧ t.f.inpNoise ≤ 0
      · left; rw [if_pos hcut]; exact ⟨_, rfl⟩
      · right
        rw [if_neg hcut]
        have hf : t.f.fuel = (t.f.maxBmFactor.toNat + 2) + 1 := rfl
        rw [hf]
        unfold IO.bmLoop
        simp only [analogMV_error hsup]
        exact ⟨trivial, Or.inr hmv⟩

/-- **C62 (number of rounds).**  A pass with a positive `max_bm_factor` makes at most
`log2(max_bm_factor) + 2` rounds (one more in the worst-case mode). -/
theorem C62_rounds {t : Pass K} {k : Nat} (h : ∀ i < k, t.f.reduction i ≤ (t.f.maxBmFactor : K)) {L : Nat}
    (hL : (t.f.maxBmFactor : K) < 2 ^ (L + 1)) :
    (t.f.bm = .worstCase ∧ t.f.nm ≠ .absMaxNPSum → k ≤ L + 2) ∧
    (¬(t.f.bm = .worstCase ∧ t.f.nm ≠ .absMaxNPSum) → k ≤ L + 1) := by
  constructor
  · intro hs
    by_contra hk
    have := h (L + 2) (by omega)
    unfold IO.reduction at this
    rw [if_pos hs] at this
    exact absurd hL (not_lt.2 this)
  · intro hs
    by_contra hk
    have := h (L + 1) (by omega)
    unfold IO.reduction at this
    rw [if_neg hs] at this
    exact absurd hL (not_lt.2 this)

/-! ## The bound test -/

/-- **C62 (what the test says).**  Let `P` (and `N` in the digital mode) be the values of the output
converter before it clips, i.e. those of a converter without limits.  The outputs are the clipped ones, and
if negative outputs are tested the bound test passes exactly if no value exceeds the bound, that is if the
outputs are those of the unlimited converter. -/
theorem C62_test {io : IO K} (hbm : io.bm ≠ .none) (ht : io.bmTestNeg = true)
    (hs : io.mvType = .onePass ∨ io.mvType = .posNeg ∨ io.mvType = .posNegDigital) {b : K}
    (hob : io.outBound = some b) {sq : K → K} {p : MVPar K} {n m : Nat}
    {tr : Bool} {w : Nat → Nat → K} {dr : Draws K} {scale : K} {scaling : Bool} {x : Nat → K} {r : (Nat → K) × Bool}
    (hr : io.analogMV sq p n m tr w dr scale scaling x = .ok r) :
    ∃ r', ({ io with outBound := none } : IO K).analogMV sq p n m tr w dr scale scaling x = .ok r' ∧
      (r.2 = true → ∀ i < m, r.1 i = r'.1 i) ∧
      (io.mvType ≠ .posNegDigital → (r.2 = true ↔ ∀ i < m, |r'.1 i| ≤ b) ∧
        (0 ≤ b → ∀ i, r.1 i = max (-b) (min (r'.1 i) b))) ∧
      (io.mvType = .posNegDigital → ∃ P N : Nat → K, (∀ i, r'.1 i = P i + N i) ∧
        (r.2 = true ↔ ∀ i < m, |P i| ≤ b ∧ |N i| ≤ b) ∧
        (0 ≤ b → ∀ i, r.1 i = max (-b) (min (P i) b) + max (-b) (min (N i) b))) := by
  have hA : ∀ (i : Nat) (u g v : K), ({ io with outBound := none } : IO K).adc p i u g v = io.adc p i u g v :=
    fun _ _ _ _ => rfl
  have hfin : ∀ (q : Bool) (y : Nat → K), ∃ v : Nat → K,
      ({ io with outBound := none } : IO K).finalize p m dr q y = (v, true) ∧
      io.finalize p m dr q y = (fun i => clipB (some b) (v i), io.boundTest m v) := by
    intro q y
    refine ⟨fun i => io.adc p i (dr.outU q i) (dr.outG q i) (y i), ?_, ?_⟩
    · unfold IO.finalize
      simp only [hA]
      refine Prod.ext rfl ?_
      simp only
      rw [boundTest_iff (io := ({ io with outBound := none } : IO K)) hbm ht]
      intro i _ c hc
      cases hc
    · unfold IO.finalize
      simp only [hob]
  have htest : ∀ v : Nat → K, io.boundTest m v = true ↔ ∀ i < m, |v i| ≤ b := by
    intro v
    rw [boundTest_iff hbm ht, hob]
    constructor
    · intro h i hi; exact h i hi b rfl
    · rintro h i hi c ⟨⟩; exact h i hi
  have hpass : ∀ (m' : Nat → Nat → K) (x' g : Nat → K),
      ({ io with outBound := none } : IO K).singlePass sq p n m' x' g = io.singlePass sq p n m' x' g :=
    fun _ _ _ => rfl
  have hprep : ∀ (u g v : K), ({ io with outBound := none } : IO K).prepare scale scaling u g v =
      io.prepare scale scaling u g v := fun _ _ _ => rfl
  unfold IO.analogMV at hr ⊢
  simp only [hpass, hprep]
  generalize ({ io with outBound := none } : IO K).finalize p m dr = F at hfin ⊢
  rcases hs with e | e | e
  · rw [e] at hr ⊢
    simp only [Except.ok.injEq] at hr ⊢
    obtain ⟨v, h1, h2⟩ := hfin true (io.singlePass sq p n (eff tr w) (fun j =>
      io.prepare scale scaling (dr.inU j) (dr.inG j) (x j)) (dr.wG true))
    rw [h2] at hr
    subst hr
    refine ⟨_, rfl, ?_, ?_, fun h => nomatch h⟩
    · intro h i hi
      rw [h1]
      exact clipB_of_le (b := some b) (by rintro c ⟨⟩; exact (htest v).1 h i hi)
    · intro _
      rw [h1]
      exact ⟨htest v, fun hb i => clipB_eq_clamp hb _⟩
  · rw [e] at hr ⊢
    simp only [Except.ok.injEq] at hr ⊢
    obtain ⟨v, h1, h2⟩ := hfin true (fun i => io.singlePass sq p n (eff tr w) (fun j =>
      if 0 < io.prepare scale scaling (dr.inU j) (dr.inG j) (x j) then
        io.prepare scale scaling (dr.inU j) (dr.inG j) (x j) else 0) (dr.wG true) i +
      io.singlePass sq p n (eff tr (if 0 < io.wReadAsym then fun i j => w i j * p.wAsym i j else w))
      (fun j => if io.prepare scale scaling (dr.inU j) (dr.inG j) (x j) < 0 then
        io.prepare scale scaling (dr.inU j) (dr.inG j) (x j) else 0) (dr.wG false) i)
    rw [h2] at hr
    subst hr
    refine ⟨_, rfl, ?_, ?_, fun h => nomatch h⟩
    · intro h i hi
      rw [h1]
      exact clipB_of_le (b := some b) (by rintro c ⟨⟩; exact (htest v).1 h i hi)
    · intro _
      rw [h1]
      exact ⟨htest v, fun hb i => clipB_eq_clamp hb _⟩
  · rw [e] at hr ⊢
    simp only [Except.ok.injEq] at hr ⊢
    obtain ⟨P, h1, h2⟩ := hfin true (io.singlePass sq p n (eff tr w) (fun j =>
      if 0 < io.prepare scale scaling (dr.inU j) (dr.inG j) (x j) then
        io.prepare scale scaling (dr.inU j) (dr.inG j) (x j) else 0) (dr.wG true))
    obtain ⟨N, h3, h4⟩ := hfin false (
      io.singlePass sq p n (eff tr (if 0 < io.wReadAsym then fun i j => w i j * p.wAsym i j else w))
      (fun j => if io.prepare scale scaling (dr.inU j) (dr.inG j) (x j) < 0 then
        io.prepare scale scaling (dr.inU j) (dr.inG j) (x j) else 0) (dr.wG false))
    rw [h2, h4] at hr
    subst hr
    rw [h1, h3]
    refine ⟨_, rfl, ?_, fun h => absurd rfl h, fun _ => ⟨P, N, fun _ => rfl, ?_, ?_⟩⟩
    · intro h i hi
      simp only [Bool.and_eq_true] at h
      simp only
      rw [clipB_of_le (by rintro c ⟨⟩; exact (htest P).1 h.1 i hi),
        clipB_of_le (by rintro c ⟨⟩; exact (htest N).1 h.2 i hi)]
    · simp only [Bool.and_eq_true]
      rw [htest, htest]
      exact ⟨fun h i hi => ⟨h.1 i hi, h.2 i hi⟩, fun h => ⟨fun i hi => (h i hi).1, fun i hi => (h i hi).2⟩⟩
    · intro hb i
      simp only
      rw [clipB_eq_clamp hb, clipB_eq_clamp hb]

/-- **C62 (finding: negative outputs not tested).**  If negative outputs are not tested
(`bm_test_negative_bound = False`), an output clipped at the negative bound does not merely count as
passed: it also forgets the overflows of all earlier outputs.  The test passes whenever the last clipped
output is a negative one. -/
theorem C62_negative_forgets {io : IO K} (ht : io.bmTestNeg = false) {b : K}
    (hob : io.outBound = some b) (m : Nat) (v : Nat → K) {i : Nat} (hi : i < m) (hneg : v i < -b) (hb : 0 ≤ b)
    (hlater : ∀ j, i < j → j < m → v j ≤ b) : io.boundTest m v = true := by
  unfold IO.boundTest
  split_ifs with hbm
  · rfl
  rw [ht, hob]
  have hm : m = i + 1 + (m - (i + 1)) := by omega
  rw [hm, List.range_add, List.foldl_append, List.range_succ, List.foldl_append]
  have h1 : ¬b < v i := by intro h; linarith
  simp only [List.foldl_cons, List.foldl_nil, above, below, h1, hneg, decide_true, decide_false,
    Bool.false_eq_true, if_false, if_true, Bool.not_false]
  have key : ∀ l : List Nat, (∀ q ∈ l, v q ≤ b) → l.foldl (fun (t : Bool) q =>
      if decide (b < v q) = true then false else if decide (v q < -b) = true then true else t) true = true := by
    intro l
    induction l with
    | nil => intro _; rfl
    | cons a l ih =>
      intro hl
      rw [List.foldl_cons]
      have ha : ¬b < v a := not_lt.2 (hl a (List.mem_cons_self ..))
      simp only [ha, decide_false, Bool.false_eq_true, if_false]
      rw [ite_self]
      exact ih fun q hq => hl q (List.mem_cons_of_mem _ hq)
  apply key
  intro q hq
  obtain ⟨z, hz, rfl⟩ := List.mem_map.1 hq
  have := List.mem_range.1 hz
  exact hlater _ (by omega) (by omega)

/-- **C62 (finding: worst case without noise management).**  Without noise management the second round of
the worst-case mode repeats the first one with the same divisor. -/
theorem C62_worstCase_repeats (io : IO K) (hb : io.bm = .worstCase) (hn : io.nm = .none) (n : Nat)
    (x : Nat → K) (v : K) : io.divisor n x v 1 = io.divisor n x v 0 := by
  unfold IO.divisor IO.nmDiv
  simp [hb, hn]

/-! ## C61: average noise management -/

/-- A call of the pass. -/
inductive Call (K : Type) where
  | fwd (w : Nat → Nat → K) (al : K) (dr : Nat → Draws K) (x : Nat → K)
  | bwd (w : Nat → Nat → K) (al : K) (dr : Draws K) (d : Nat → K)

/-- The auxiliary variable after a sequence of calls. -/
def Pass.auxAfter (t : Pass K) (sq : K → K) : List (Call K) → K → Except PyErr K
  | [], aux => .ok aux
  | .fwd w al dr x :: l, aux => (t.forward sq w al dr x aux).bind fun r => t.auxAfter sq l r.2
  | .bwd w al dr d :: l, aux => (t.backward sq w al dr d aux).bind fun r => t.auxAfter sq l r.2

/-- The largest absolute value of the input of a call. -/
def Call.peak (t : Pass K) : Call K → K
  | .fwd _ _ _ x => amax t.X x
  | .bwd _ _ _ d => amax t.D d

/-- The exponential average that starts with the first value. -/
def expMean (d : K) : List K → Option K
  | [] => none
  | a :: l => some (l.foldl (fun m v => (1 - d) * m + d * v) a)

theorem fwd_aux {t : Pass K} (hp : t.f.isPerfect = false) (hs : t.f.mvType.supported)
    (hn : t.f.nm = .average) (sq : K → K) (w : Nat → Nat → K) (al : K) (dr : Nat → Draws K) (x : Nat → K)
    (aux : K) : ∃ y, t.forward sq w al dr x aux =
      .ok (y, if aux < 0 then amax t.X x else (1 - t.f.nmDecay) * aux + t.f.nmDecay * amax t.X x) := by
  have hv : t.f.computeNM t.X x aux = .ok
      (if aux < 0 then amax t.X x else (1 - t.f.nmDecay) * aux + t.f.nmDecay * amax t.X x,
       if aux < 0 then amax t.X x else (1 - t.f.nmDecay) * aux + t.f.nmDecay * amax t.X x) := by
    unfold IO.computeNM
    rw [hn]
    simp only
    rw [mul_comm aux]
  obtain ⟨F1, F2⟩ := forward_form hp hs (sq := sq) (w := w) (al := al) (dr := dr) hv
  by_cases hcut : t.f.nm ≠ .none ∧ (if aux < 0 then amax t.X x else
      (1 - t.f.nmDecay) * aux + t.f.nmDecay * amax t.X x) ≤ 0 ∧ t.f.inpNoise ≤ 0
  · exact ⟨_, F1 hcut⟩
  · obtain ⟨R, k, -, -, -, hf⟩ := F2 hcut
    exact ⟨_, hf⟩

theorem bwd_aux {t : Pass K} (hp : t.b.isPerfect = false) (hs : t.b.mvType.supported)
    (hn : t.b.nm = .average) (sq : K → K) (w : Nat → Nat → K) (al : K) (dr : Draws K) (d : Nat → K)
    (aux : K) : ∃ y, t.backward sq w al dr d aux =
      .ok (y, if aux < 0 then amax t.D d else (1 - t.b.nmDecay) * aux + t.b.nmDecay * amax t.D d) := by
  have hv : ({ t.b with bm := .none } : IO K).computeNM t.D d aux = .ok
      (if aux < 0 then amax t.D d else (1 - t.b.nmDecay) * aux + t.b.nmDecay * amax t.D d,
       if aux < 0 then amax t.D d else (1 - t.b.nmDecay) * aux + t.b.nmDecay * amax t.D d) := by
    unfold IO.computeNM
    simp only
    rw [hn]
    simp only
    rw [mul_comm aux]
  unfold Pass.backward
  rw [hp]
  simp only [Bool.false_eq_true, if_false]
  rw [hv]
  simp only
  split_ifs
  all_goals first
    | exact ⟨_, rfl⟩
    | (obtain ⟨r, hr⟩ := analogMV_ok (io := ({ t.b with bm := .none } : IO K)) hs sq t.bm t.D t.X true w dr
        _ _ d
       rw [hr]
       exact ⟨_, rfl⟩)

/-- **C61 (average noise management).**  The value used by both directions is one exponential average,
started by the first call, over the largest absolute inputs of all forward and backward calls together:
activations and gradients share one variable. -/
theorem C61_average {t : Pass K} (hpf : t.f.perfect = false) (hpb : t.b.perfect = false)
    (hsf : t.f.mvType = .onePass ∨ t.f.mvType = .posNeg ∨ t.f.mvType = .posNegDigital)
    (hsb : t.b.mvType = .onePass ∨ t.b.mvType = .posNeg ∨ t.b.mvType = .posNegDigital)
    (hnf : t.f.nm = .average) (hnb : t.b.nm = .average) (hd : t.b.nmDecay = t.f.nmDecay)
    (h0 : 0 ≤ t.f.nmDecay) (h1 : t.f.nmDecay ≤ 1) (sq : K → K) (l : List (Call K)) :
    ∃ a, t.auxAfter sq l (-1) = .ok a ∧ (l = [] → a = -1) ∧
      (l ≠ [] → expMean t.f.nmDecay (l.map (·.peak t)) = some a) := by
  have hf : t.f.isPerfect = false := by
    unfold IO.isPerfect; rw [hpf]; rcases hsf with e | e | e <;> rw [e] <;> rfl
  have hb : t.b.isPerfect = false := by
    unfold IO.isPerfect; rw [hpb]; rcases hsb with e | e | e <;> rw [e] <;> rfl
  have hstep : ∀ (c : Call K) (l : List (Call K)) (aux : K), t.auxAfter sq (c :: l) aux = t.auxAfter sq l
      (if aux < 0 then c.peak t else (1 - t.f.nmDecay) * aux + t.f.nmDecay * c.peak t) := by
    intro c l aux
    cases c with
    | fwd w al dr x =>
      obtain ⟨y, hy⟩ := fwd_aux hf hsf hnf sq w al dr x aux
      show (t.forward sq w al dr x aux).bind _ = _
      rw [hy]; rfl
    | bwd w al dr d =>
      obtain ⟨y, hy⟩ := bwd_aux hb hsb hnb sq w al dr d aux
      rw [hd] at hy
      show (t.backward sq w al dr d aux).bind _ = _
      rw [hy]; rfl
  have hpk : ∀ c : Call K, 0 ≤ c.peak t := by
    intro c; cases c <;> exact (amax_spec _ _).1
  have hrun : ∀ (l : List (Call K)) (aux : K), 0 ≤ aux → t.auxAfter sq l aux =
      .ok ((l.map (·.peak t)).foldl (fun m v => (1 - t.f.nmDecay) * m + t.f.nmDecay * v) aux) := by
    intro l
    induction l with
    | nil => intro aux _; rfl
    | cons c l ih =>
      intro aux ha
      rw [hstep, if_neg (not_lt.2 ha), ih _ (add_nonneg (mul_nonneg (by linarith) ha)
        (mul_nonneg h0 (hpk c)))]
      rfl
  cases l with
  | nil => exact ⟨-1, rfl, fun _ => rfl, fun h => absurd rfl h⟩
  | cons c l =>
    refine ⟨_, ?_, (fun h => by cases h), fun _ => rfl⟩
    rw [hstep, if_pos (by norm_num), hrun _ _ (hpk c)]

end Aihw.CppFwd

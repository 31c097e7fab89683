import Verif.GpuMod.Lemmas

/-!
# The GPU's weight modifier computes what the CPU's does
-/
namespace Aihw.GpuMod
open Aihw.PostUpdate.Modifier (ModType ModPars roundC amaxOf modEntry dropEntry applyMod IsRefMax Considered)

/-! ## Indices -/

theorem idx_lt {d x i j : ℕ} (hi : i < d) (hj : j < x) : j * d + i < d * x := by
  have : (j + 1) * d ≤ x * d := Nat.mul_le_mul_right d hj
  rw [mul_comm d x]; rw [Nat.add_mul] at this; omega

theorem idx_nb {d x i j : ℕ} (hi : i < d) (hj : j < x) (c : Bool) :
    j * d + i < sizeNoBias c (d * x) d ↔ ¬(c = true ∧ j + 1 = x) := by
  unfold sizeNoBias
  cases c with
  | false => simpa using idx_lt hi hj
  | true =>
    simp only [if_true, true_and]
    have e : d * x - d = (x - 1) * d := by rw [Nat.sub_mul, mul_comm d x, one_mul]
    rw [e]
    constructor
    · intro h hx
      have : x - 1 = j := by omega
      rw [this] at h; omega
    · intro h
      have hj' : j < x - 1 := by omega
      have := idx_lt (x := x - 1) hi hj'
      rwa [mul_comm d] at this

theorem idx_of {d n k : ℕ} (hk : k < d * n) : ∃ i j, i < d ∧ j < n ∧ k = j * d + i := by
  have hd : 0 < d := by
    rcases Nat.eq_zero_or_pos d with h | h
    · subst h; simp at hk
    · exact h
  exact ⟨k % d, k / d, Nat.mod_lt _ hd, Nat.div_lt_of_lt_mul hk, by rw [mul_comm]; exact (Nat.div_add_mod k d).symm⟩

theorem matrix_row {d x : ℕ} (mem : Arr) {i : ℕ} (hi : i < (matrix d x mem).length) :
    (matrix d x mem)[i] = (List.range x).map fun j => mem (j * d + i) := by
  simp [matrix]

theorem considered_iff (p : ModPars) (d x : ℕ) (w : Arr) (y : ℚ) :
    Considered p (matrix d x w) y ↔ ∃ k < sizeNoBias p.copyLastColumn (d * x) d, y = w k := by
  unfold Considered
  constructor
  · rintro ⟨i, j, hi, hj, e, hc⟩
    have hi' : i < d := by simpa [matrix] using hi
    have hj' : j < x := by simpa [matrix] using hj
    refine ⟨j * d + i, (idx_nb hi' hj' _).2 (fun h => hc h.1 ?_), ?_⟩
    · simp [matrix]; exact h.2
    · simpa [matrix] using e
  · rintro ⟨k, hk, e⟩
    obtain ⟨i, j, hi, hj, rfl⟩ := idx_of (lt_of_lt_of_le hk (sizeNoBias_le _ _ _))
    refine ⟨i, j, by simpa [matrix] using hi, by simpa [matrix] using hj, by simpa [matrix] using e, fun hc hl => ?_⟩
    exact (idx_nb hi hj _).1 hk ⟨hc, by simpa [matrix] using hl⟩

theorem refA_pos (o : Option ℚ) (a : ℚ) : 0 < refA o a := by
  unfold refA
  dsimp only
  split_ifs with h
  · exact h
  · norm_num

/-- The reference maximum is the documented one if the maximizer has the right size. -/
theorem refA_isRefMax (g : GPars) (d x : ℕ) (s : State) (w : Arr) (ht : ¬(g.kind = .base ∧ g.base.type = .copy))
    (hf : g.base.relToActualWmax = true → s.Fits g (d * x) d) (ha : g.base.relToActualWmax = false → 0 < g.base.assumedWmax) :
    IsRefMax g.base (matrix d x w) (refA (maxValue g (d * x) d s w) g.base.assumedWmax) := by
  refine ⟨fun h => ?_, fun h => ?_⟩
  · have : maxValue g (d * x) d s w = none := by
      unfold maxValue; rw [if_neg (fun hh => by rw [h] at hh; exact absurd hh.1 (by decide))]
    rw [this]
    unfold refA
    dsimp only [Option.getD_none]
    rw [if_pos (ha h)]
  · have hn : s.maxSize.getD (sizeNoBias g.base.copyLastColumn (d * x) d) =
        sizeNoBias g.base.copyLastColumn (d * x) d := by
      rcases hf h with e | e
      · rw [e]; rfl
      · rw [e]; rfl
    have e : maxValue g (d * x) d s w = some (absMaxTo (sizeNoBias g.base.copyLastColumn (d * x) d) w) := by
      unfold maxValue; rw [if_pos ⟨h, ht⟩, hn]
    rw [e]
    have hm := absMaxTo_isMax (sizeNoBias g.base.copyLastColumn (d * x) d) w
    revert hm
    generalize absMaxTo (sizeNoBias g.base.copyLastColumn (d * x) d) w = a
    intro hm
    unfold refA
    dsimp only [Option.getD_some]
    constructor
    · rintro ⟨y, hy, h0⟩
      obtain ⟨k, hk, rfl⟩ := (considered_iff _ _ _ _ _).1 hy
      have hpos : 0 < a := lt_of_lt_of_le (abs_pos.2 h0) (hm.1 k hk)
      rw [if_pos hpos]
      refine ⟨fun y hy => ?_, ?_⟩
      · obtain ⟨k, hk, rfl⟩ := (considered_iff _ _ _ _ _).1 hy
        exact hm.1 k hk
      · rcases hm.2 with ⟨i, hi, e⟩ | ⟨h1, _⟩
        · exact ⟨w i, (considered_iff _ _ _ _ _).2 ⟨i, hi, rfl⟩, e⟩
        · omega
    · intro hall
      have : ¬0 < a := by
        rcases hm.2 with ⟨i, hi, e⟩ | ⟨_, e⟩
        · rw [← e, hall _ ((considered_iff _ _ _ _ _).2 ⟨i, hi, rfl⟩), abs_zero]; exact lt_irrefl _
        · rw [e]; exact lt_irrefl _
      rw [if_neg this]

/-! ## Kernels -/

theorem kDiscretize_eq (p : ModPars) (a : ℚ) (hr : 0 < p.res) (u : ℕ → ℚ) (k : ℕ) (v : ℚ) :
    kDiscretize p.res a p.stoRound u k v =
      a * PostUpdate.Modifier.discretize (v / a) p.res p.stoRound (u k) := by
  unfold kDiscretize PostUpdate.Modifier.discretize
  rw [if_neg (not_le.2 hr)]
  cases p.stoRound with
  | false => simp only [Bool.false_eq_true, if_false, add_zero]; ring
  | true => simp only [if_true]; ring

/-- What the kernel of a type writes is the entry of the CPU. -/
theorem baseBody_eq (p : ModPars) (s : State) (hs : s.Good) (a : ℚ) (ha : 0 < a) (d : ℕ) (r : Draws)
    (hz : p.type = .discretizeAddNormal → 0 < p.res ∨ p.stdDev ≤ 0) (i j : ℕ) (v : ℚ) :
    ((baseBody p (uploadIf p.coeffs s) a r).getD fun _ v => v) (j * d + i) v = modEntry p a (byPosition d r) i j v := by
  have hP : ∀ aw, polynomial p.coeffs (uploadIf p.coeffs s) aw = PostUpdate.Modifier.poly p.coeffs aw :=
    polynomial_eq p.coeffs s hs
  have hc : 0 < p.coeffs.length ↔ p.coeffs ≠ [] := List.length_pos_iff
  unfold baseBody modEntry
  cases ht : p.type with
  | none => rfl
  | copy => rfl
  | dropConnect => rfl
  | discretize =>
    dsimp only
    by_cases h : p.res > 0
    · rw [if_pos h, if_pos h]; exact kDiscretize_eq p a h r.rnd _ v
    · rw [if_neg h, if_neg h]; rfl
  | multNormal =>
    dsimp only
    by_cases h : p.stdDev > 0
    · rw [if_pos h, if_pos h]; show kMult _ _ _ _ _ = _; unfold kMult byPosition; ring
    · rw [if_neg h, if_neg h]; rfl
  | addNormal =>
    dsimp only
    by_cases h : p.stdDev > 0
    · rw [if_pos h, if_pos h]; show kAdd _ _ _ _ _ = _; unfold kAdd byPosition; ring
    · rw [if_neg h, if_neg h]; rfl
  | poly =>
    dsimp only
    by_cases h : p.stdDev > 0 ∧ 0 < p.coeffs.length
    · rw [if_pos h, if_pos ⟨h.1, hc.1 h.2⟩]
      show kProg _ _ _ _ _ _ _ = _
      unfold kProg keepSign byPosition
      rw [hP]
      rfl
    · rw [if_neg h, if_neg (fun hh => h ⟨hh.1, hc.2 hh.2⟩)]; rfl
  | progNoise =>
    dsimp only
    by_cases h : p.stdDev > 0 ∧ 0 < p.coeffs.length
    · rw [if_pos h, if_pos ⟨h.1, hc.1 h.2⟩]
      show kProg _ _ _ _ _ _ _ = _
      unfold kProg keepSign byPosition
      rw [hP]
      rfl
    · rw [if_neg h, if_neg (fun hh => h ⟨hh.1, hc.2 hh.2⟩)]; rfl
  | discretizeAddNormal =>
    dsimp only
    have hsd : (0 < p.stdDev * a) ↔ 0 < p.stdDev := by
      constructor
      · intro h; by_contra hh; push Not at hh; nlinarith
      · intro h; exact mul_pos h ha
    by_cases h : p.res > 0 ∨ p.stdDev > 0
    · have hr : 0 < p.res := by
        rcases hz ht with h1 | h1
        · exact h1
        · rcases h with h2 | h2
          · exact h2
          · exact absurd h2 (not_lt.2 h1)
      rw [if_pos h, if_pos (Or.inl hr)]
      show kDiscretizeAdd _ _ _ _ _ _ _ _ = _
      have e := kDiscretize_eq p a hr r.rnd (j * d + i) v
      unfold kDiscretize at e
      unfold kDiscretizeAdd byPosition
      rw [← e]
      ring
    · rw [if_neg h, if_neg (fun hh => h (hh.imp id hsd.1))]; rfl

theorem prepare_poly (g : GPars) (size d : ℕ) (s : State) (hk : g.kind = .base) (a : ℚ) (r : Draws) :
    baseBody g.base (prepare g size d s) a r =
      baseBody g.base (uploadIf g.base.coeffs
        (maximizer g size d { s with enableTest := g.base.enableDuringTest })) a r := by
  by_cases h : polyType g.base = true
  · unfold prepare; dsimp only; rw [if_pos ⟨hk, h⟩]
  · have hq : ¬((g.base.type = .poly ∨ g.base.type = .progNoise) ∧ g.base.stdDev > 0 ∧ 0 < g.base.coeffs.length) := by
      simpa only [polyType, decide_eq_true_eq] using h
    unfold baseBody
    cases ht : g.base.type with
    | poly => dsimp only; rw [if_neg (fun hh => hq ⟨Or.inl ht, hh⟩), if_neg (fun hh => hq ⟨Or.inl ht, hh⟩)]
    | progNoise => dsimp only; rw [if_neg (fun hh => hq ⟨Or.inr ht, hh⟩), if_neg (fun hh => hq ⟨Or.inr ht, hh⟩)]
    | _ => rfl

/-- The elements after `finish`. -/
theorem finish_at (g : GPars) (size d : ℕ) (r : Draws) (k : Option (ℕ → ℚ → ℚ)) (w new : Arr) :
    ∃ out, finish g size d false r k w new = .ok out ∧
      (∀ i, i < sizeNoBias g.base.copyLastColumn size d →
        out i = if g.base.pdrop > 0 ∧ r.drop i < g.base.pdrop then 0 else (k.getD fun _ v => v) i (w i)) ∧
      (∀ i, sizeNoBias g.base.copyLastColumn size d ≤ i → i < size → out i = w i) ∧
      (∀ i, size ≤ i → out i = new i) := by
  have hle := sizeNoBias_le g.base.copyLastColumn size d
  set nb := sizeNoBias g.base.copyLastColumn size d with hnb
  obtain ⟨m, hm, m1, m2, m3⟩ : ∃ m : Arr, launched size nb false k w new = m ∧
      (∀ i, i < nb → m i = (k.getD fun _ v => v) i (w i)) ∧ (∀ i, nb ≤ i → i < size → m i = w i) ∧
      (∀ i, size ≤ i → m i = new i) := by
    refine ⟨_, rfl, ?_⟩
    unfold launched
    cases k with
    | some b =>
      dsimp only [Option.getD_some]
      unfold kernel
      refine ⟨fun i hi => ?_, fun i h1 h2 => ?_, fun i h => ?_⟩
      · rw [if_pos hi]; rfl
      · rw [if_neg (not_lt.2 h1), if_pos ⟨h2, rfl⟩]
      · rw [if_neg (by omega), if_neg (fun hh => absurd hh.1 (not_lt.2 h))]
    | none =>
      dsimp only [Option.getD_none]
      rw [if_neg (by decide)]
      unfold GpuIo.mapTo
      refine ⟨fun i hi => ?_, fun i h1 h2 => ?_, fun i h => ?_⟩
      · rw [if_pos (lt_of_lt_of_le hi hle)]
      · rw [if_pos h2]
      · rw [if_neg (not_lt.2 h)]
  have e : finish g size d false r k w new =
      (if g.base.pdrop > 0 then Except.ok (kernel size nb true (kDrop g.base.pdrop r.drop) m m) else .ok m) := by
    unfold finish
    dsimp only
    rw [← hnb, hm, if_neg (show ¬(false = true) by decide)]
  rw [e]
  by_cases hp : g.base.pdrop > 0
  · rw [if_pos hp]
    refine ⟨_, rfl, fun i hi => ?_, fun i h1 h2 => ?_, fun i h => ?_⟩
    · unfold kernel kDrop
      rw [if_pos hi]
      simp only [if_true]
      by_cases hu : r.drop i < g.base.pdrop
      · rw [if_pos hu, if_pos ⟨hp, hu⟩]
      · rw [if_neg hu, if_neg (fun hh => hu hh.2)]; exact m1 i hi
    · unfold kernel
      rw [if_neg (not_lt.2 h1), if_neg (fun hh => absurd hh.2 (by decide))]
      exact m2 i h1 h2
    · unfold kernel
      rw [if_neg (by omega), if_neg (fun hh => absurd hh.2 (by decide))]
      exact m3 i h
  · rw [if_neg hp]
    refine ⟨_, rfl, fun i hi => ?_, m2, m3⟩
    rw [if_neg (fun hh => hp hh.1)]
    exact m1 i hi

/-- Equality with the CPU, for a good state. -/
theorem apply_as_cpu (f : Fns) (g : GPars) (d x : ℕ) (r : Draws) (s : State) (hs : s.Good) (w new : Arr)
    (hk : g.kind = .base) (hb : g.perBatch = false) (hn : g.base.type ≠ .none)
    (hf : g.base.relToActualWmax = true → s.Fits g (d * x) d)
    (ha : g.base.relToActualWmax = false → 0 < g.base.assumedWmax)
    (hz : g.base.type = .discretizeAddNormal → 0 < g.base.res ∨ g.base.stdDev ≤ 0) :
    ∃ out, (apply f g (d * x) d false r s w new).2 = .ok out ∧
      matrix d x out = applyMod g.base (byPosition d r) (matrix d x w) := by
  have e0 : refusal g false = none := by
    unfold refusal
    rw [if_neg (fun hh => by rw [hb] at hh; exact absurd hh.2 (by decide)),
      if_neg (fun hh => absurd hh.2.2 (by decide)), if_neg (fun hh => hn hh.2)]
  have e1 : dividesByZero g = false := by
    unfold dividesByZero
    rw [decide_eq_false]
    rintro ⟨_, ht, hr, hsd⟩
    rcases hz ht with h | h
    · rw [hr] at h; exact lt_irrefl _ h
    · exact absurd hsd (not_lt.2 h)
  have e2 : (apply f g (d * x) d false r s w new).2 = finish g (d * x) d false r
      (body f g (prepare g (d * x) d s) (refA (maxValue g (d * x) d s w) g.base.assumedWmax) r) w new := by
    unfold apply
    rw [e0]
    show (if dividesByZero g = true then _ else _) = _
    rw [e1, if_neg (by decide)]
  obtain ⟨out, ho, h1, h2, h3⟩ := finish_at g (d * x) d r
    (body f g (prepare g (d * x) d s) (refA (maxValue g (d * x) d s w) g.base.assumedWmax) r) w new
  refine ⟨out, by rw [e2, ho], ?_⟩
  set A := refA (maxValue g (d * x) d s w) g.base.assumedWmax with hA
  have eb : body f g (prepare g (d * x) d s) A r = baseBody g.base (uploadIf g.base.coeffs
      (maximizer g (d * x) d { s with enableTest := g.base.enableDuringTest })) A r := by
    rw [← prepare_poly g (d * x) d s hk]
    unfold body
    rw [hk]
  rw [eb] at h1
  have hgood : (maximizer g (d * x) d { s with enableTest := g.base.enableDuringTest }).Good :=
    maximizer_good _ _ _ _ hs
  apply List.ext_getElem
  · simp [matrix, applyMod]
  · intro i hi hi'
    have hid : i < d := by simpa [matrix] using hi
    apply List.ext_getElem
    · simp [matrix, applyMod, PostUpdate.Modifier.modRow]
    · intro j hj hj'
      have hjx : j < x := by simpa [matrix] using hj
      obtain ⟨_, _, e3⟩ := PostUpdate.Modifier.applyMod_entry g.base (byPosition d r) (matrix d x w) i
        (by simpa [matrix] using hid) j (by simpa [matrix] using hjx)
      rw [e3]
      have el : (matrix d x out)[i][j] = out (j * d + i) := by simp [matrix]
      have er : (matrix d x w)[i]'(by simpa [matrix] using hid) = (List.range x).map fun j => w (j * d + i) := by
        simp [matrix]
      have er' : ((matrix d x w)[i]'(by simpa [matrix] using hid))[j]'(by simpa [matrix] using hjx) = w (j * d + i) := by
        simp [matrix]
      have len : ((matrix d x w)[i]'(by simpa [matrix] using hid)).length = x := by simp [matrix]
      rw [el, er', len]
      by_cases hc : g.base.copyLastColumn = true ∧ j + 1 = x
      · rw [if_pos hc]
        exact h2 _ (not_lt.1 (fun hh => (idx_nb hid hjx _).1 hh hc)) (idx_lt hid hjx)
      · rw [if_neg hc, h1 _ ((idx_nb hid hjx _).2 hc),
          baseBody_eq g.base _ hgood A (refA_pos _ _) d r hz i j]
        have em : modEntry g.base A (byPosition d r) i j (w (j * d + i)) =
            modEntry g.base (amaxOf g.base (matrix d x w)) (byPosition d r) i j (w (j * d + i)) := by
          by_cases ht : g.base.type = .copy
          · simp [modEntry, ht]
          · rw [hA, (refA_isRefMax g d x s w (fun hh => ht hh.2) hf ha).unique
              (PostUpdate.Modifier.amaxOf_isRefMax g.base ht _)]
        rw [em]
        unfold dropEntry
        have ed : (byPosition d r).drop i j = r.drop (j * d + i) := rfl
        rw [ed]
        by_cases hp : g.base.pdrop > 0
        · rw [if_pos hp]
          by_cases hu : r.drop (j * d + i) < g.base.pdrop
          · rw [if_pos hu, if_pos ⟨hp, hu⟩]
          · rw [if_neg hu, if_neg (fun hh => hu hh.2)]
        · rw [if_neg hp, if_neg (fun hh => hp hh.1)]

end Aihw.GpuMod

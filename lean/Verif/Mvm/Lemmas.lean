import Verif.Mvm.Model

namespace Aihw.Mvm

/-! ## `mapIdxE` -/

theorem mapIdxE_go_ok {α β : Type} {f : Nat → α → Except PyErr β} {l : List α} {k : Nat} {r : List β}
    (h : mapIdxE.go f k l = .ok r) :
    r.length = l.length ∧ ∀ i (h1 : i < l.length) (h2 : i < r.length), f (k + i) l[i] = .ok r[i] := by
  induction l generalizing k r with
  | nil => simp [mapIdxE.go] at h; subst h; simp
  | cons a l ih =>
    rw [mapIdxE.go] at h
    cases ha : f k a with
    | error e => simp [ha, bind, Except.bind] at h
    | ok b =>
      cases hl : mapIdxE.go f (k + 1) l with
      | error e => simp [ha, hl, bind, Except.bind] at h
      | ok bs =>
        simp [ha, hl, bind, Except.bind, pure, Except.pure] at h
        subst h
        obtain ⟨h1, h2⟩ := ih hl
        refine ⟨by simp [h1], ?_⟩
        intro i hi1 hi2
        cases i with
        | zero => simpa using ha
        | succ i =>
          have := h2 i (by simpa using hi1) (by simpa using hi2)
          simpa [Nat.add_assoc, Nat.add_comm 1 i] using this

theorem mapIdxE_ok {α β : Type} {f : Nat → α → Except PyErr β} {l : List α} {r : List β}
    (h : mapIdxE f l = .ok r) :
    r.length = l.length ∧ ∀ i (h1 : i < l.length) (h2 : i < r.length), f i l[i] = .ok r[i] := by
  have := mapIdxE_go_ok (k := 0) h
  simpa using this

theorem mapIdxE_go_of {α β : Type} {f : Nat → α → Except PyErr β} {g : Nat → α → β} (l : List α)
    (k : Nat) (h : ∀ i (hi : i < l.length), f (k + i) l[i] = .ok (g (k + i) l[i])) :
    mapIdxE.go f k l = .ok (l.mapIdx fun i a => g (k + i) a) := by
  induction l generalizing k with
  | nil => rfl
  | cons a l ih =>
    have h0 := h 0 (by simp)
    simp only [Nat.add_zero, List.getElem_cons_zero] at h0
    rw [mapIdxE.go, h0]
    have := ih (k + 1) (by
      intro i hi
      have := h (i + 1) (by simpa using hi)
      simpa [Nat.add_assoc, Nat.add_comm 1 i] using this)
    simp only [bind, Except.bind, this, pure, Except.pure, List.mapIdx_cons, Nat.add_zero]
    congr 2
    apply List.ext_getElem
    · simp
    · intro i h1 h2
      simp [Nat.add_assoc, Nat.add_comm 1 i]

theorem mapIdxE_of {α β : Type} {f : Nat → α → Except PyErr β} {g : Nat → α → β} (l : List α)
    (h : ∀ i (hi : i < l.length), f i l[i] = .ok (g i l[i])) :
    mapIdxE f l = .ok (l.mapIdx g) := by
  have := mapIdxE_go_of (f := f) (g := g) l 0 (by simpa using h)
  simpa [mapIdxE] using this

/-! ## Discretization -/

theorem resEff_pos {res : ℚ} (h : 0 < res) : 0 < (if res > 1 then 1 / res else res) := by
  split_ifs <;> positivity

theorem resEff_nonpos {res : ℚ} (h : res ≤ 0) : (if res > 1 then 1 / res else res) ≤ 0 := by
  rw [if_neg (by linarith)]; exact h

theorem qStep_ne_zero {res bound : ℚ} (h : 0 < res) (hb : bound ≠ 0) : qStep res bound ≠ 0 := by
  have := resEff_pos h
  unfold qStep
  exact mul_ne_zero this.ne' (mul_ne_zero two_ne_zero hb)

theorem qStep_pos {res bound : ℚ} (h : 0 < res) (hb : 0 < bound) : 0 < qStep res bound := by
  have := resEff_pos h
  unfold qStep
  positivity

theorem uniformQuantize_eq (x : ℚ) {res bound : ℚ} (noise : Option ℚ) (h : 0 < res)
    (hb : bound ≠ 0) : uniformQuantize x res bound noise
      = .ok ((roundHE (x / qStep res bound + noise.getD 0) : ℚ) * qStep res bound) := by
  have h1 := resEff_pos h
  have h2 := qStep_ne_zero h hb
  unfold uniformQuantize
  rw [if_neg (not_le.2 h1)]
  simp only [h2, if_false]
  cases noise <;> simp

theorem uniformQuantize_ok {x res bound v : ℚ} {noise : Option ℚ}
    (h : uniformQuantize x res bound noise = .ok v) : 0 < res ∧ bound ≠ 0 := by
  by_cases hr : 0 < res
  · refine ⟨hr, ?_⟩
    rintro rfl
    unfold uniformQuantize at h
    rw [if_neg (not_le.2 (resEff_pos hr))] at h
    simp [qStep] at h
  · unfold uniformQuantize at h
    rw [if_pos (resEff_nonpos (not_lt.1 hr))] at h
    simp at h

/-! ## Maxima -/

theorem foldl_max_eq (l : List ℚ) (a : ℚ) : l.foldl max a = l.foldr max a := by
  induction l generalizing a with
  | nil => rfl
  | cons b l ih =>
    simp only [List.foldl_cons, List.foldr_cons, ih]
    have : ∀ (l : List ℚ) (a b : ℚ), l.foldr max (max a b) = max b (l.foldr max a) := by
      intro l
      induction l with
      | nil => intro a b; simp [max_comm]
      | cons c l ih => intro a b; simp only [List.foldr_cons, ih]; rw [max_left_comm]
    exact this l a b

theorem le_foldr_max {l : List ℚ} {a b : ℚ} (h : b ∈ a :: l) : b ≤ l.foldr max a := by
  induction l with
  | nil => simp at h; simp [h]
  | cons c l ih =>
    simp only [List.foldr_cons]
    rcases List.mem_cons.1 h with rfl | h
    · exact le_max_of_le_right (ih (by simp))
    · rcases List.mem_cons.1 h with rfl | h
      · exact le_max_left _ _
      · exact le_max_of_le_right (ih (by simp [h]))

theorem foldr_max_mem (l : List ℚ) (a : ℚ) : l.foldr max a ∈ a :: l := by
  induction l with
  | nil => simp
  | cons c l ih =>
    simp only [List.foldr_cons]
    rcases max_choice c (l.foldr max a) with h | h <;> rw [h]
    · simp
    · rcases List.mem_cons.1 ih with h | h
      · simp [h]
      · simp [h]

theorem vecMax_abs {x : Vec} (h : x ≠ []) : vecMax (x.map (|·|)) = .ok (absMax x) := by
  cases x with
  | nil => exact absurd rfl h
  | cons a l =>
    simp only [List.map_cons, vecMax, foldl_max_eq]
    congr 1
    apply le_antisymm
    · have := foldr_max_mem (l.map (|·|)) |a|
      rcases List.mem_cons.1 this with h | h
      · rw [h]; exact abs_le_absMax (by simp)
      · obtain ⟨b, hb, e⟩ := List.mem_map.1 h
        rw [← e]; exact abs_le_absMax (by simp [hb])
    · obtain ⟨b, hb, e⟩ := absMax_mem (v := a :: l) (by simp)
      rw [e]
      apply le_foldr_max
      rw [← List.map_cons (f := fun x => |x|)]
      exact List.mem_map_of_mem hb

/-! ## linear algebra -/

theorem matVec_scale (w : Mat) (c : ℚ) (x : Vec) :
    matVec w (x.map (· * c)) = (matVec w x).map (· * c) := by
  simp only [matVec, List.map_map]
  apply List.map_congr_left
  intro r _
  have := dot_smul_right c r x
  simp only [Function.comp_apply]
  rw [show (fun y : ℚ => y * c) = (fun y => c * y) by funext y; ring, this]; ring

theorem dot_zero (r : Vec) (x : Vec) (h : ∀ v ∈ x, v = 0) : dot r x = 0 := by
  induction r generalizing x with
  | nil => simp
  | cons a r ih =>
    cases x with
    | nil => simp
    | cons b x =>
      rw [dot_cons, ih x (fun v hv => h v (by simp [hv])), h b (by simp)]; simp

end Aihw.Mvm

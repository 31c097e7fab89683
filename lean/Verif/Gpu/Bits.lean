import Verif.Gpu.Spec
import Mathlib.Tactic.Ring
import Mathlib.Tactic.Linarith
import Mathlib.Data.List.Basic
import Mathlib.Data.List.Nodup

/-!
# Lemmas: bits of the words the bit line maker writes
-/

namespace Aihw.Gpu

theorem one_shl (j p : ℕ) : ((1#32) <<< j).getLsbD p = (decide (p < 32) && decide (p = j)) := by
  rw [BitVec.getLsbD_shiftLeft]
  by_cases hp : p < 32
  · by_cases hj : p < j
    · have : p ≠ j := by omega
      simp [hp, hj, this]
    · by_cases he : p = j
      · subst he; simp [hp]
      · have : p - j ≠ 0 := by omega
        simp [hp, hj, he, BitVec.getLsbD_one, this]
  · simp [hp]

theorem loopBits_snd (hit : ℕ → Bool) (js : List ℕ) : ∀ s : W32 × ℕ,
    (loopBits hit js s).2 = s.2 + js.length := by
  induction js with
  | nil => intro s; rfl
  | cons j js ih =>
    intro s
    rw [loopBits, ih, List.length_cons]
    ring

theorem loopBits_bit (hit : ℕ → Bool) (n : ℕ) : ∀ (a : ℕ) (s : W32 × ℕ) (p : ℕ),
    (loopBits hit (List.range' a n) s).1.getLsbD p
      = (s.1.getLsbD p || (decide (a ≤ p) && decide (p < a + n) && decide (p < 32)
          && hit (s.2 + (p - a)))) := by
  induction n with
  | zero =>
    intro a s p
    have : (decide (a ≤ p) && decide (p < a + 0)) = false := by
      by_cases h1 : a ≤ p
      · have h2 : ¬ (p < a + 0) := by omega
        rw [decide_eq_false h2, Bool.and_false]
      · rw [decide_eq_false h1, Bool.false_and]
    rw [this]
    simp [loopBits]
  | succ n ih =>
    intro a s p
    rw [List.range'_succ, loopBits, ih, BitVec.getLsbD_or]
    have hb : (if hit s.2 then (1#32) <<< a else 0#32).getLsbD p
        = (hit s.2 && (decide (p < 32) && decide (p = a))) := by
      by_cases h : hit s.2 = true
      · rw [if_pos h, one_shl, h, Bool.true_and]
      · rw [if_neg h]
        simp [h]
    rw [hb]
    by_cases hp : p < 32
    · by_cases hpa : p = a
      · subst hpa
        have h3 : ¬ (p + 1 ≤ p) := by omega
        have h4 : p < p + (n + 1) := by omega
        simp [hp]
      · by_cases hle : a ≤ p
        · have h1 : a + 1 ≤ p := by omega
          have h2 : s.2 + 1 + (p - (a + 1)) = s.2 + (p - a) := by omega
          have h3 : (p < a + 1 + n) ↔ (p < a + (n + 1)) := by omega
          simp [hp, hpa, hle, h1, h2, h3]
        · have h1 : ¬ (a + 1 ≤ p) := by omega
          simp [hp, hpa, hle, h1]
    · simp [hp]

theorem range_bit (hit : ℕ → Bool) (n : ℕ) (s : W32 × ℕ) (p : ℕ) :
    (loopBits hit (List.range n) s).1.getLsbD p
      = (s.1.getLsbD p || (decide (p < n) && decide (p < 32) && hit (s.2 + p))) := by
  rw [List.range_eq_range', loopBits_bit]
  simp

/-- The pulse of slot `k` is bit `(k + 1) % 32` of word `(k + 1) / 32`. -/
theorem counts32_shape (e : Entry) (c nw K sz : ℕ) (hnw : 0 < nw) (hK : K / 32 < nw) :
    ∃ v : ℕ → W32, counts32 e c nw K sz = (List.range nw).map (fun i => (c + i * sz, v i))
      ∧ (v 0).getLsbD 0 = e.negative
      ∧ ∀ i p : ℕ, p < 32 → (i ≠ 0 ∨ p ≠ 0) → i < nw →
          (v i).getLsbD p = (decide (32 * i + p ≤ K) && e.hit (32 * i + p - 1)) := by
  have hl : min (K / 32) (nw - 1) = K / 32 := by omega
  have hmore : ∀ (n a drawn : ℕ), 0 < a → (drawn = 32 * a - 1 ∨ K / 32 < a) →
      ∃ v : ℕ → W32, moreWords e.hit K (K / 32) c sz (List.range' a n) drawn
          = (List.range' a n).map (fun i => (c + i * sz, v i))
        ∧ ∀ i p : ℕ, p < 32 → a ≤ i → i < a + n →
          (v i).getLsbD p = (decide (32 * i + p ≤ K) && e.hit (32 * i + p - 1)) := by
    intro n
    induction n with
    | zero =>
      intro a drawn _ _
      exact ⟨fun _ => 0#32, rfl, fun i p _ h1 h2 => by omega⟩
    | succ n ih =>
      intro a drawn ha hd
      rw [List.range'_succ, moreWords]
      by_cases hlt : K / 32 < a
      · rw [if_pos hlt]
        obtain ⟨v, hv, hb⟩ := ih (a + 1) drawn (by omega) (Or.inr (by omega))
        refine ⟨fun i => if i = a then 0#32 else v i, ?_, ?_⟩
        · rw [hv, List.map_cons]
          congr 1
          · simp
          · apply List.map_congr_left
            intro i hi
            have : i ≠ a := by have := List.mem_range'_1.mp hi; omega
            simp [this]
        · intro i p hp h1 h2
          by_cases hia : i = a
          · subst hia
            have : ¬ (32 * i + p ≤ K) := by omega
            simp [this]
          · simp only [hia, if_false]
            exact hb i p hp (by omega) (by omega)
      · rw [if_neg hlt]
        have hd' : drawn = 32 * a - 1 := by rcases hd with h | h <;> omega
        dsimp only
        obtain ⟨v, hv, hb⟩ := ih (a + 1)
          (loopBits e.hit (List.range ((if a = K / 32 then K % 32 else 31) + 1)) (0#32, drawn)).2
          (by omega) (by
            rw [loopBits_snd, List.length_range]
            by_cases h : a = K / 32
            · right; omega
            · left; rw [if_neg h]; show drawn + _ = _; omega)
        refine ⟨fun i => if i = a then (loopBits e.hit
          (List.range ((if a = K / 32 then K % 32 else 31) + 1)) (0#32, drawn)).1 else v i, ?_, ?_⟩
        · rw [hv, List.map_cons]
          congr 1
          · simp
          · apply List.map_congr_left
            intro i hi
            have : i ≠ a := by have := List.mem_range'_1.mp hi; omega
            simp [this]
        · intro i p hp h1 h2
          by_cases hia : i = a
          · subst hia
            simp only [if_true]
            rw [range_bit]
            have h0 : drawn + p = 32 * i + p - 1 := by omega
            have h3 : (p < (if i = K / 32 then K % 32 else 31) + 1) ↔ (32 * i + p ≤ K) := by
              split_ifs <;> omega
            have h4 : ((0#32, drawn) : W32 × ℕ).1.getLsbD p = false := by simp
            rw [h4]
            simp only [h3, h0, hp, decide_true, Bool.and_true, Bool.false_or]
          · simp only [hia, if_false]
            exact hb i p hp (by omega) (by omega)
  unfold counts32
  simp only [hl]
  have hfirst : ∀ p : ℕ, p < 32 → p ≠ 0 →
      (loopBits e.hit (List.range' 1 (if 0 < K / 32 then 31 else K))
        ((if e.negative then 1#32 else 0#32), 0)).1.getLsbD p
      = (decide (32 * 0 + p ≤ K) && e.hit (32 * 0 + p - 1)) := by
    intro p hp h0
    rw [loopBits_bit]
    have h1 : (if e.negative then 1#32 else 0#32).getLsbD p = false := by
      split_ifs
      · simp [BitVec.getLsbD_one, h0]
      · simp
    have h2 : (p < 1 + (if 0 < K / 32 then 31 else K)) ↔ (32 * 0 + p ≤ K) := by
      split_ifs <;> omega
    have h3 : 0 + (p - 1) = 32 * 0 + p - 1 := by omega
    have h4 : 1 ≤ p := by omega
    show ((if e.negative then 1#32 else 0#32).getLsbD p || _) = _
    rw [h1]
    simp only [h2, h3, h4, hp, decide_true, Bool.and_true, Bool.true_and, Bool.false_or]
  have hneg : (loopBits e.hit (List.range' 1 (if 0 < K / 32 then 31 else K))
        ((if e.negative then 1#32 else 0#32), 0)).1.getLsbD 0 = e.negative := by
    rw [loopBits_bit]
    have h2 : ¬ (1 ≤ 0) := by omega
    show ((if e.negative then 1#32 else 0#32).getLsbD 0 || _) = _
    cases e.negative <;> simp
  by_cases h1 : 1 < nw
  · rw [if_pos h1]
    obtain ⟨v, hv, hb⟩ := hmore (nw - 1) 1
      (loopBits e.hit (List.range' 1 (if 0 < K / 32 then 31 else K))
        ((if e.negative then 1#32 else 0#32), 0)).2 (by omega) (by
          rw [loopBits_snd, List.length_range']
          by_cases h : 0 < K / 32
          · left; rw [if_pos h]
          · right; omega)
    refine ⟨fun i => if i = 0 then (loopBits e.hit (List.range' 1 (if 0 < K / 32 then 31 else K))
        ((if e.negative then 1#32 else 0#32), 0)).1 else v i, ?_, ?_, ?_⟩
    · rw [hv]
      obtain ⟨m, rfl⟩ : ∃ m, nw = m + 1 := ⟨nw - 1, by omega⟩
      rw [List.range_eq_range', List.range'_succ, List.map_cons]
      congr 1
      · simp
      · apply List.map_congr_left
        intro i hi
        have : i ≠ 0 := by have := List.mem_range'_1.mp hi; omega
        simp [this]
    · simp only [if_true]; exact hneg
    · intro i p hp h0 hi
      by_cases hi0 : i = 0
      · subst hi0
        simp only [if_true]
        exact hfirst p hp (by rcases h0 with h | h; exact absurd rfl h; exact h)
      · simp only [hi0, if_false]
        exact hb i p hp (by omega) (by omega)
  · rw [if_neg h1]
    have : nw = 1 := by omega
    subst this
    refine ⟨fun _ => (loopBits e.hit (List.range' 1 (if 0 < K / 32 then 31 else K))
        ((if e.negative then 1#32 else 0#32), 0)).1, ?_, hneg, ?_⟩
    · simp
    · intro i p hp h0 hi
      have : i = 0 := by omega
      subst this
      exact hfirst p hp (by rcases h0 with h | h; exact absurd rfl h; exact h)

/-! ### Stores -/

theorem stores_not_mem (ops : List (ℕ × W32)) : ∀ (mem : ℕ → W32) (a : ℕ),
    a ∉ ops.map Prod.fst → stores ops mem a = mem a := by
  induction ops with
  | nil => intro mem a _; rfl
  | cons p ps ih =>
    intro mem a h
    rw [List.map_cons, List.mem_cons, not_or] at h
    rw [stores, ih _ _ h.2, Function.update_of_ne h.1]

theorem stores_mem (ops : List (ℕ × W32)) : ∀ (mem : ℕ → W32) (a : ℕ) (v : W32),
    (ops.map Prod.fst).Nodup → (a, v) ∈ ops → stores ops mem a = v := by
  induction ops with
  | nil => intro mem a v _ h; simp at h
  | cons p ps ih =>
    intro mem a v hn h
    rw [List.map_cons, List.nodup_cons] at hn
    rw [stores]
    rcases List.mem_cons.mp h with h | h
    · subst h
      rw [stores_not_mem _ _ _ hn.1, Function.update_self]
    · exact ih _ _ _ hn.2 h

theorem counts_mem {ops l : List (ℕ × W32)} (hp : ops.Perm l) (hn : (l.map Prod.fst).Nodup)
    {a : ℕ} {v : W32} (h : (a, v) ∈ l) : counts ops a = v :=
  stores_mem ops _ a v ((hp.map _).nodup_iff.mpr hn) (hp.mem_iff.mpr h)

theorem counts_not_mem {ops l : List (ℕ × W32)} (hp : ops.Perm l)
    {a : ℕ} (h : a ∉ l.map Prod.fst) : counts ops a = 0#32 :=
  stores_not_mem ops _ a (fun h' => h ((hp.map _).mem_iff.mp h'))

theorem ors_bit (ops : List (ℕ × W64)) : ∀ (mem : ℕ → W64) (a p : ℕ),
    (ors ops mem a).getLsbD p
      = ((mem a).getLsbD p || ops.any fun o => decide (o.1 = a) && o.2.getLsbD p) := by
  induction ops with
  | nil => intro mem a p; simp [ors]
  | cons o os ih =>
    intro mem a p
    rw [ors, ih, List.any_cons]
    by_cases h : o.1 = a
    · subst h
      rw [Function.update_self, BitVec.getLsbD_or]
      simp [Bool.or_assoc]
    · rw [Function.update_of_ne (Ne.symm h)]
      simp [h]

theorem counts'_bit {ops l : List (ℕ × W64)} (hp : ops.Perm l) (a p : ℕ) :
    (counts' ops a).getLsbD p = l.any fun o => decide (o.1 = a) && o.2.getLsbD p := by
  unfold counts'
  rw [ors_bit]
  simp only [BitVec.getLsbD_zero, Bool.false_or]
  rw [Bool.eq_iff_iff, List.any_eq_true, List.any_eq_true]
  simp only [hp.mem_iff]

end Aihw.Gpu

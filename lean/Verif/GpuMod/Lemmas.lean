import Verif.GpuMod.Spec
import Verif.GpuIo.Props

/-!
# Lemmas on the weight modifiers on the GPU
-/
namespace Aihw.GpuMod
open Aihw.PostUpdate.Modifier (ModType ModPars roundC amaxOf modEntry dropEntry applyMod)

/-! ## The loop -/

theorem loop_at (size nb : ℕ) (inPlace : Bool) (body : ℕ → ℚ → ℚ) (weights : Arr) (order : List ℕ) (hn : order.Nodup)
    (new : Arr) (i : ℕ) :
    wmLoop order size nb inPlace body weights new i =
      if i ∈ order then visit size nb inPlace body weights new i i else new i := by
  induction order generalizing new with
  | nil => rw [if_neg (by simp)]; rfl
  | cons a l ih =>
    obtain ⟨ha, hl⟩ := List.nodup_cons.mp hn
    have e : wmLoop (a :: l) size nb inPlace body weights new =
        wmLoop l size nb inPlace body weights (visit size nb inPlace body weights new a) := rfl
    have off : ∀ m : Arr, ∀ k, k ≠ a → visit size nb inPlace body weights m a k = m k := by
      intro m k hk
      unfold visit
      by_cases h1 : a < nb
      · rw [if_pos h1]; exact Function.update_of_ne hk _ _
      · rw [if_neg h1]
        by_cases h2 : a < size ∧ inPlace = false
        · rw [if_pos h2]; exact Function.update_of_ne hk _ _
        · rw [if_neg h2]
    rw [e, ih hl]
    by_cases h : i = a
    · subst h
      rw [if_neg ha, if_pos (by simp)]
    · have h2 : (visit size nb inPlace body weights (visit size nb inPlace body weights new a) i) i =
          visit size nb inPlace body weights new i i := by
        unfold visit
        by_cases h1 : i < nb
        · rw [if_pos h1, if_pos h1, Function.update_self, Function.update_self]
          cases inPlace with
          | false => rfl
          | true =>
            have := off new i h
            unfold visit at this
            simp only [if_true] at this ⊢
            rw [this]
        · rw [if_neg h1, if_neg h1]
          by_cases h3 : i < size ∧ inPlace = false
          · rw [if_pos h3, if_pos h3, Function.update_self, Function.update_self]
          · rw [if_neg h3, if_neg h3]
            exact off new i h
      have ho := off new i h
      by_cases hm : i ∈ l
      · rw [if_pos hm, if_pos (List.mem_cons_of_mem _ hm)]; exact h2
      · rw [if_neg hm, if_neg (by simp [h, hm])]; exact ho

theorem visit_self (size nb : ℕ) (hs : nb ≤ size) (inPlace : Bool) (body : ℕ → ℚ → ℚ) (weights new : Arr) (i : ℕ) :
    (if i < size then visit size nb inPlace body weights new i i else new i) =
      kernel size nb inPlace body weights new i := by
  unfold visit kernel
  by_cases h1 : i < nb
  · rw [if_pos (lt_of_lt_of_le h1 hs), if_pos h1, if_pos h1, Function.update_self]
  · rw [if_neg h1, if_neg h1]
    by_cases h2 : i < size
    · rw [if_pos h2]
      split_ifs
      · rw [Function.update_self]
      · rfl
    · rw [if_neg h2, if_neg (fun h => h2 h.1)]

theorem sizeNoBias_le (c : Bool) (size d : ℕ) : sizeNoBias c size d ≤ size := by
  unfold sizeNoBias
  split_ifs <;> omega

/-! ## Maximum -/

theorem absMaxTo_isMax (n : ℕ) (w : Arr) : IsMax n w (absMaxTo n w) := by
  unfold absMaxTo
  refine ⟨fun i hi => abs_le_absMax (List.mem_map.2 ⟨i, List.mem_range.2 hi, rfl⟩), ?_⟩
  rcases Nat.eq_zero_or_pos n with h | h
  · subst h; exact Or.inr ⟨rfl, rfl⟩
  · left
    obtain ⟨a, ha, e⟩ := absMax_mem (v := (List.range n).map w) (by simp; omega)
    obtain ⟨i, hi, rfl⟩ := List.mem_map.1 ha
    exact ⟨i, List.mem_range.1 hi, e.symm⟩

theorem isMax_unique {n : ℕ} {w : Arr} {a b : ℚ} (ha : IsMax n w a) (hb : IsMax n w b) : a = b := by
  rcases ha.2 with ⟨i, hi, e⟩ | ⟨h0, e⟩
  · rcases hb.2 with ⟨j, hj, e'⟩ | ⟨h0, e'⟩
    · apply le_antisymm
      · rw [← e]; exact hb.1 i hi
      · rw [← e']; exact ha.1 j hj
    · omega
  · rcases hb.2 with ⟨j, hj, e'⟩ | ⟨h0', e'⟩
    · omega
    · rw [e, e']

/-! ## Polynomials -/

theorem polyLoop_eq (aw : ℚ) (cs : List ℚ) (p s : ℚ) :
    (polyLoop aw cs (p, s)).2 = s + p * aw * PostUpdate.Modifier.poly cs aw := by
  induction cs generalizing p s with
  | nil => simp [polyLoop, PostUpdate.Modifier.poly]
  | cons c cs ih =>
    have e : polyLoop aw (c :: cs) (p, s) = polyLoop aw cs (p * aw, s + c * (p * aw)) := rfl
    rw [e, ih]
    simp only [PostUpdate.Modifier.poly]
    ring

theorem sigN_eq (cs : List ℚ) (aw : ℚ) : sigN cs aw = PostUpdate.Modifier.poly cs aw := by
  unfold sigN
  rw [polyLoop_eq]
  cases cs with
  | nil => simp [PostUpdate.Modifier.poly]
  | cons c cs => simp [PostUpdate.Modifier.poly]

theorem sig3_eq (cs : List ℚ) (h : cs.length ≤ 3) (aw : ℚ) : sig3 cs aw = PostUpdate.Modifier.poly cs aw := by
  match cs, h with
  | [], _ => simp [sig3, PostUpdate.Modifier.poly]
  | [a], _ => simp [sig3, PostUpdate.Modifier.poly]
  | [a, b], _ => simp [sig3, PostUpdate.Modifier.poly]
  | [a, b, c], _ => simp [sig3, PostUpdate.Modifier.poly]; ring

theorem upload_dev (cs : List ℚ) (s : State) (hg : s.Good) : (upload cs s).dev = some cs := by
  unfold upload
  by_cases h : cs.length ≠ s.coeffs.length ∨ s.dev = none
  · rw [if_pos h]
  · rw [if_neg h]
    push Not at h
    by_cases h2 : s.coeffs ≠ cs
    · rw [if_pos h2]
    · rw [if_neg h2]
      push Not at h2
      obtain ⟨c, hc⟩ := Option.ne_none_iff_exists'.1 h.2
      rw [hc, hg c hc, h2]

theorem polynomial_eq (cs : List ℚ) (s : State) (hg : s.Good) (aw : ℚ) :
    polynomial cs (uploadIf cs s) aw = PostUpdate.Modifier.poly cs aw := by
  unfold polynomial uploadIf
  by_cases h : cs.length ≤ 3
  · rw [if_pos h]; exact sig3_eq cs h aw
  · rw [if_neg h, if_neg h, upload_dev cs s hg]
    exact sigN_eq cs aw

/-! ## State -/

theorem maximizer_good (g : GPars) (size d : ℕ) (s : State) (hg : s.Good) : (maximizer g size d s).Good := by
  unfold maximizer
  split_ifs
  · exact hg
  · exact hg

theorem upload_good (cs : List ℚ) (s : State) (hg : s.Good) : (upload cs s).Good := by
  unfold upload
  split_ifs
  · intro c h; injection h with h; exact h.symm
  · intro c h; injection h with h; exact h.symm
  · exact hg

theorem prepare_good (g : GPars) (size d : ℕ) (s : State) (hg : s.Good) : (prepare g size d s).Good := by
  have h1 : (maximizer g size d { s with enableTest := g.base.enableDuringTest }).Good :=
    maximizer_good _ _ _ _ hg
  unfold prepare
  dsimp only
  by_cases h : g.kind = .base ∧ polyType g.base = true
  · rw [if_pos h]
    unfold uploadIf
    split_ifs
    · exact h1
    · exact upload_good _ _ h1
  · rw [if_neg h]; exact h1

theorem apply_good (f : Fns) (g : GPars) (size d : ℕ) (ip : Bool) (r : Draws) (s : State) (w new : Arr) (hg : s.Good) :
    (apply f g size d ip r s w new).1.Good := by
  unfold apply
  cases refusal g ip with
  | some e => exact maximizer_good _ _ _ _ hg
  | none => exact prepare_good _ _ _ _ hg

theorem after_good (f : Fns) (size d : ℕ) (h : List Call) : (after f size d h).Good := by
  unfold after
  have h0 : ({} : State).Good := by intro c hc; cases hc
  revert h0
  generalize ({} : State) = s
  intro hs
  induction h generalizing s with
  | nil => exact hs
  | cons c h ih => exact ih _ (apply_good f c.g size d c.inPlace c.r s c.w c.new hs)

end Aihw.GpuMod

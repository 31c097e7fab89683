import Verif.GpuNm.Lemmas

/-!
# Reductions over histories of calls
-/
open scoped BigOperators

namespace Aihw.GpuNm

variable {K : Type} [Field K] [LinearOrder K] [IsStrictOrderedRing K] [FloorRing K]
variable {a : Acc K} {n N : ℕ} {junk : ℕ → K}

theorem grow_cap (b : Buf K) (m : ℕ) (junk : ℕ → K) : (a.grow b m junk).cap = max b.cap m := by
  unfold Acc.grow
  split
  · show m = _; omega
  · omega

theorem compute_cap (b : Buf K) (c : Call K) :
    (a.compute n N b c).cap = if c.m = 1 then b.cap else max b.cap c.m := by
  unfold Acc.compute
  split
  · rfl
  · split
    · exact grow_cap _ _ _
    · exact grow_cap _ _ _

theorem cap_lt (earlier : List (Call K)) (m : ℕ) (hm : 1 ≤ m) (hpos : ∀ d ∈ earlier, 1 ≤ d.m) :
    (a.run n N junk earlier).cap < m ↔ ∀ d ∈ earlier, 2 ≤ d.m → d.m < m := by
  induction earlier with
  | nil => exact ⟨fun _ d hd => absurd hd (List.not_mem_nil), fun _ => hm⟩
  | cons c earlier ih =>
    have ih' := ih (fun d hd => hpos d (List.mem_cons_of_mem _ hd))
    have hc := hpos c List.mem_cons_self
    have e : a.run n N junk (c :: earlier) = a.compute n N (a.run n N junk earlier) c := rfl
    rw [e, compute_cap]
    constructor
    · intro h d hd hd2
      split at h
      · rename_i h1
        rcases List.mem_cons.mp hd with rfl | hd
        · omega
        · exact ih'.mp h d hd hd2
      · rcases List.mem_cons.mp hd with rfl | hd
        · omega
        · exact ih'.mp (by omega) d hd hd2
    · intro h
      have h' := ih'.mpr fun d hd => h d (List.mem_cons_of_mem _ hd)
      split
      · exact h'
      · have := h c List.mem_cons_self (by omega)
        omega

theorem run_cons (earlier : List (Call K)) (c : Call K) :
    a.run n N junk (c :: earlier) = a.compute n N (a.run n N junk earlier) c := rfl

/-- What the reduction of sample `b` should be. -/
def Acc.right (a : Acc K) (n : ℕ) (c : Call K) (b : ℕ) : K := a.total (a.taken n (c.sample n b))

theorem trans_zero (buf : Buf K) (c : Call K) (b : ℕ) (h : c.first) :
    (a.compute n N buf c).zero b = if b < c.m then a.e else (a.grow buf c.m c.junk).val b := by
  unfold Acc.compute
  rw [if_neg (by have := h.2; omega), if_pos h.1]; rfl

theorem plain_zero (buf : Buf K) (c : Call K) (b : ℕ) (hc : 1 ≤ c.m) (h : ¬c.first) :
    (a.compute n N buf c).zero b =
      if 2 ≤ c.m ∧ buf.cap < c.m then a.e else buf.zero b := by
  unfold Acc.compute
  by_cases h1 : c.m = 1
  · rw [if_pos h1, if_neg (by omega)]
  · have ht : c.trans = false := by
      by_contra ht
      exact h ⟨by simpa using ht, by omega⟩
    rw [if_neg h1, ht]
    show (a.grow buf c.m c.junk).zero b = _
    unfold Acc.grow
    by_cases h2 : buf.cap < c.m
    · rw [if_pos h2, if_pos ⟨by omega, h2⟩]
    · rw [if_neg h2, if_neg (fun h => h2 h.2)]

theorem ready_zero (earlier : List (Call K)) (hpos : ∀ d ∈ earlier, 1 ≤ d.m) (b : ℕ)
    (hr : Ready b earlier) (hb : b < (a.run n N junk earlier).cap) :
    (a.run n N junk earlier).zero b = a.e := by
  induction earlier with
  | nil => exact absurd hb (Nat.not_lt_zero b)
  | cons c earlier ih =>
    have hpos' : ∀ d ∈ earlier, 1 ≤ d.m := fun d hd => hpos d (List.mem_cons_of_mem _ hd)
    have hc := hpos c List.mem_cons_self
    rw [run_cons] at hb ⊢
    by_cases hf : c.first
    · rw [trans_zero _ _ _ hf, if_pos (hr.1 hf)]
    · rw [plain_zero _ _ _ hc hf]
      by_cases hg : 2 ≤ c.m ∧ (a.run n N junk earlier).cap < c.m
      · rw [if_pos hg]
      · rw [if_neg hg]
        rw [compute_cap] at hb
        have hb' : b < (a.run n N junk earlier).cap := by
          split at hb
          · exact hb
          · omega
        rcases hr.2 hf with h | h
        · exfalso
          have := (cap_lt (a := a) (n := n) (N := N) (junk := junk) earlier c.m hc hpos').mpr h
          apply hg
          refine ⟨?_, this⟩
          by_contra h2
          omega
        · exact ih hpos' h hb'

/-- The value of a call with the batch dimension first: what was in the other buffer is combined in. -/
theorem first_value (h : a.Laws) (buf : Buf K) (c : Call K) (b : ℕ) (hb : b < c.m) (hf : c.first)
    (hg : c.Good n N) (hz : a.Absorbs ((a.grow buf c.m c.junk).zero b)) :
    (a.compute n N buf c).val b = a.op (a.right n c b) ((a.grow buf c.m c.junk).zero b) := by
  unfold Acc.compute
  rw [if_neg (by have := hf.2; omega), if_pos hf.1]
  have hs : (c.sample n b) = fun j => c.input (j * c.m + b) := by
    funext j
    unfold Call.sample place
    rw [hf.1]; rfl
  show (if c.m ≤ N then a.kernelShared c.sched c.m c.input (a.grow buf c.m c.junk).zero
    else a.kernelLarge c.sched c.m c.input (a.grow buf c.m c.junk).zero) b = _
  unfold Acc.right
  rw [hs]
  split
  · rename_i hm
    exact sharedKernel_at h c.sched n c.m N c.input _ hm hg.2 b hb hz
  · exact large_at h c.sched n c.m N c.input _ hg.2 b hb hz

/-- The value of any other call is that of its inputs. -/
theorem plain_value (buf : Buf K) (c : Call K) (b : ℕ) (hb : b < c.m) (hf : ¬c.first) :
    (a.compute n N buf c).val b = a.right n c b := by
  unfold Acc.compute
  by_cases h1 : c.m = 1
  · rw [if_pos h1]
    have hb0 : b = 0 := by omega
    subst hb0
    show Function.update buf.val 0 (a.reduce n 0 c.input) 0 = _
    rw [Function.update_self]
    unfold Acc.reduce Acc.right Acc.taken
    congr 1
    apply List.map_congr_left
    intro j _
    unfold Call.sample place
    rw [h1]
    cases c.trans <;> simp
  · have ht : c.trans = false := by
      by_contra ht
      exact hf ⟨by simpa using ht, by omega⟩
    rw [if_neg h1, ht]
    show (if b < c.m then a.reduce n (b * n) c.input else _) = _
    rw [if_pos hb]
    unfold Acc.reduce Acc.right Acc.taken
    congr 1
    apply List.map_congr_left
    intro j _
    unfold Call.sample place
    rw [ht]; rfl

theorem right_absorbs (h : a.Laws) (c : Call K) (b : ℕ) : a.Absorbs (a.right n c b) :=
  total_absorbs h _

/-- The value after a history. -/
theorem value_right (h : a.Laws) (earlier : List (Call K)) (c : Call K)
    (hpos : ∀ d ∈ earlier, 1 ≤ d.m) (hc : c.Good n N) (b : ℕ) (hb : b < c.m)
    (hr : ¬c.first ∨ Bigger c earlier ∨ Ready b earlier) :
    (a.run n N junk (c :: earlier)).val b = a.right n c b := by
  rw [run_cons]
  by_cases hf : c.first
  · have hz : (a.grow (a.run n N junk earlier) c.m c.junk).zero b = a.e := by
      unfold Acc.grow
      by_cases hg : (a.run n N junk earlier).cap < c.m
      · rw [if_pos hg]
      · rw [if_neg hg]
        rcases hr with hr | hr | hr
        · exact absurd hf hr
        · exact absurd ((cap_lt earlier c.m hc.1 hpos).mpr hr) hg
        · exact ready_zero earlier hpos b hr (by omega)
    rw [first_value h _ _ _ hb hf hc (by rw [hz]; exact h.idem), hz, h.comm]
    exact right_absorbs h c b
  · exact plain_value _ _ _ hb hf

/-- Values of samples which a call does not have stay. -/
theorem stale_value (h : a.Laws) (earlier : List (Call K)) (c₁ c₂ c₃ : Call K)
    (hpos : ∀ d ∈ earlier, 1 ≤ d.m) (h1 : 1 ≤ c₁.m) (h2 : c₂.first) (h3 : c₃.first)
    (hg : c₃.Good n N) (b : ℕ) (hb1 : b < c₁.m) (hb2 : c₂.m ≤ b) (hb3 : b < c₃.m)
    (hsize : ∃ d ∈ c₁ :: earlier, c₃.m ≤ d.m)
    (hv : a.Absorbs ((a.run n N junk (c₁ :: earlier)).val b)) :
    (a.run n N junk (c₃ :: c₂ :: c₁ :: earlier)).val b =
      a.op (a.right n c₃ b) ((a.run n N junk (c₁ :: earlier)).val b) := by
  have hp1 : ∀ d ∈ c₁ :: earlier, 1 ≤ d.m := by
    intro d hd
    rcases List.mem_cons.mp hd with rfl | hd
    · exact h1
    · exact hpos d hd
  have hp2 : ∀ d ∈ c₂ :: c₁ :: earlier, 1 ≤ d.m := by
    intro d hd
    rcases List.mem_cons.mp hd with rfl | hd
    · have := h2.2; omega
    · exact hp1 d hd
  have hm2 := h2.2
  have hm3 := h3.2
  have n2 : ¬(a.run n N junk (c₁ :: earlier)).cap < c₂.m := by
    intro hh
    have := (cap_lt (c₁ :: earlier) c₂.m (by omega) hp1).mp hh c₁ List.mem_cons_self (by omega)
    omega
  have n3 : ¬(a.run n N junk (c₂ :: c₁ :: earlier)).cap < c₃.m := by
    intro hh
    obtain ⟨d, hd, hdm⟩ := hsize
    have := (cap_lt (c₂ :: c₁ :: earlier) c₃.m (by omega) hp2).mp hh d (List.mem_cons_of_mem _ hd)
      (by omega)
    omega
  have hz : (a.grow (a.run n N junk (c₂ :: c₁ :: earlier)) c₃.m c₃.junk).zero b =
      (a.run n N junk (c₁ :: earlier)).val b := by
    unfold Acc.grow
    rw [if_neg n3, run_cons, trans_zero _ _ _ h2, if_neg (by omega)]
    unfold Acc.grow
    rw [if_neg n2]
  rw [run_cons, first_value h _ _ _ hb3 h3 hg (by rw [hz]; exact hv), hz]

/-! ## What the reductions are -/

theorem total_amax (L : List K) (x : ℕ → K) (m : ℕ) (hL : L = (amaxAcc : Acc K).taken m x) :
    IsAbsMax m x ((amaxAcc : Acc K).total L) := by
  subst hL
  have e : ∀ v : K, (amaxAcc : Acc K).f v = |v| := by
    intro v
    show (if 0 ≤ v then v else -v) = |v|
    split
    · rename_i h; exact (abs_of_nonneg h).symm
    · rename_i h; exact (abs_of_neg (not_le.mp h)).symm
  induction m with
  | zero => exact ⟨le_refl _, fun j hj => absurd hj (Nat.not_lt_zero j), Or.inl rfl⟩
  | succ m ih =>
    have e2 : (amaxAcc : Acc K).taken (m + 1) x = (amaxAcc : Acc K).taken m x ++ [|x m|] := by
      unfold Acc.taken
      rw [List.range_succ (n := m), List.map_append, List.map_cons, List.map_nil, e]
    rw [e2, total_snoc]
    obtain ⟨h0, h1, h2⟩ := ih
    generalize (amaxAcc : Acc K).total ((amaxAcc : Acc K).taken m x) = t at h0 h1 h2 ⊢
    show IsAbsMax (m + 1) x (max |x m| t)
    refine ⟨le_max_of_le_right h0, ?_, ?_⟩
    · intro j hj
      rcases Nat.lt_succ_iff_lt_or_eq.mp hj with hj | rfl
      · exact le_max_of_le_right (h1 j hj)
      · exact le_max_left _ _
    · rcases le_total t |x m| with ht | ht
      · rw [max_eq_left ht]
        exact Or.inr ⟨m, Nat.lt_succ_self m, rfl⟩
      · rw [max_eq_right ht]
        rcases h2 with h2 | ⟨j, hj, hjt⟩
        · exact Or.inl h2
        · exact Or.inr ⟨j, Nat.lt_succ_of_lt hj, hjt⟩

theorem total_max (x : ℕ → K) (lowest : K) (m : ℕ) (hlow : ∀ j : ℕ, lowest ≤ x j) :
    IsMax (m + 1) x ((maxAcc lowest).total ((maxAcc lowest).taken (m + 1) x)) := by
  induction m with
  | zero =>
    show IsMax 1 x (max (x 0) lowest)
    rw [max_eq_left (hlow 0)]
    exact ⟨⟨0, Nat.one_pos, rfl⟩, fun j hj => by rw [Nat.lt_one_iff.mp hj]⟩
  | succ m ih =>
    have e2 : (maxAcc lowest).taken (m + 2) x = (maxAcc lowest).taken (m + 1) x ++ [x (m + 1)] := by
      unfold Acc.taken
      rw [List.range_succ (n := m + 1), List.map_append]; rfl
    rw [e2, total_snoc]
    obtain ⟨⟨i, hi, hit⟩, h1⟩ := ih
    generalize (maxAcc lowest).total ((maxAcc lowest).taken (m + 1) x) = t at hit h1 ⊢
    show IsMax (m + 2) x (max (x (m + 1)) t)
    constructor
    · rcases le_total t (x (m + 1)) with ht | ht
      · rw [max_eq_left ht]; exact ⟨m + 1, Nat.lt_succ_self _, rfl⟩
      · rw [max_eq_right ht]; exact ⟨i, by omega, hit⟩
    · intro j hj
      rcases Nat.lt_succ_iff_lt_or_eq.mp hj with hj | rfl
      · exact le_max_of_le_right (h1 j hj)
      · exact le_max_left _ _

theorem total_psum (x : ℕ → K) (m : ℕ) :
    (psumAcc : Acc K).total ((psumAcc : Acc K).taken m x) = posSum m x := by
  unfold posSum
  induction m with
  | zero => rfl
  | succ m ih =>
    have e2 : (psumAcc : Acc K).taken (m + 1) x = (psumAcc : Acc K).taken m x ++ [max (x m) 0] := by
      unfold Acc.taken
      rw [List.range_succ (n := m), List.map_append, List.map_cons, List.map_nil]
      congr 2
      show (if 0 ≤ x m then x m else 0) = _
      split
      · rename_i h; exact (max_eq_left h).symm
      · rename_i h; exact (max_eq_right (le_of_lt (not_le.mp h))).symm
    rw [e2, total_snoc, ih, Finset.sum_range_succ]
    exact add_comm _ _

theorem total_nsum (x : ℕ → K) (m : ℕ) :
    (nsumAcc : Acc K).total ((nsumAcc : Acc K).taken m x) = negSum m x := by
  unfold negSum
  induction m with
  | zero => rfl
  | succ m ih =>
    have e2 : (nsumAcc : Acc K).taken (m + 1) x = (nsumAcc : Acc K).taken m x ++ [min (x m) 0] := by
      unfold Acc.taken
      rw [List.range_succ (n := m), List.map_append, List.map_cons, List.map_nil]
      congr 2
      show (if 0 ≤ x m then 0 else x m) = _
      split
      · rename_i h; exact (min_eq_right h).symm
      · rename_i h; exact (min_eq_left (le_of_lt (not_le.mp h))).symm
    rw [e2, total_snoc, ih, Finset.sum_range_succ]
    exact add_comm _ _

end Aihw.GpuNm

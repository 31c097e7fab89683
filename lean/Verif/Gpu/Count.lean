import Verif.Gpu.Layout

/-!
# Lemmas: counting coincidences, 32-bit format
-/

namespace Aihw.Gpu

open Spec

theorem countP_blocks (f : ℕ → Bool) (n : ℕ) :
    (List.range (32 * n)).countP f
      = ((List.range n).map fun w => (List.range 32).countP fun p => f (32 * w + p)).sum := by
  induction n with
  | zero => simp
  | succ n ih =>
    rw [Nat.mul_succ, List.range_add, List.countP_append, ih, List.range_succ (n := n), List.map_append,
      List.sum_append, List.countP_map]
    simp [Function.comp_def]

theorem countP_upto (f : ℕ → Bool) {K N : ℕ} (h : K ≤ N) :
    (List.range N).countP (fun k => decide (k < K) && f k) = (List.range K).countP f := by
  obtain ⟨n, rfl⟩ := Nat.exists_eq_add_of_le h
  rw [List.range_add, List.countP_append]
  have h1 : (List.range K).countP (fun k => decide (k < K) && f k) = (List.range K).countP f := by
    apply List.countP_congr
    intro k hk
    simp [List.mem_range.mp hk]
  have h2 : ((List.range n).map (fun x => K + x)).countP (fun k => decide (k < K) && f k) = 0 := by
    rw [List.countP_eq_zero]
    intro k hk
    obtain ⟨x, _, rfl⟩ := List.mem_map.mp hk
    simp
  rw [h1, h2, Nat.add_zero]

/-- Dropping position zero of a range. -/
theorem countP_tail (f : ℕ → Bool) {N : ℕ} (h : 0 < N) :
    (List.range N).countP f
      = (if f 0 then 1 else 0) + (List.range (N - 1)).countP fun k => f (k + 1) := by
  obtain ⟨n, rfl⟩ : ∃ n, N = n + 1 := ⟨N - 1, by omega⟩
  rw [List.range_succ_eq_map, List.countP_cons, List.countP_map]
  simp only [Nat.add_sub_cancel, Function.comp_def, Nat.succ_eq_add_one]
  rw [Nat.add_comm]

theorem coincidences_eq (s : Sample) :
    coincidences s = (List.range s.slots).countP fun k => decide (fires s.x k ∧ fires s.d k) := by
  unfold coincidences
  rw [List.countP_eq_length_filter]

theorem popc_and (a b : W32) : popc (a &&& b)
    = (List.range 32).countP fun p => a.getLsbD p && b.getLsbD p := by
  unfold popc
  apply List.countP_congr
  intro p _
  simp [BitVec.getLsbD_and]

/-- What a pair of entries yields in the 32-bit format, whatever the two arrays are: the number of
bits, apart from bit zero of the first word, set in both. -/
theorem count32_eq (x d : ℕ → W32) (px pd nw xo dof : ℕ) (hnw : 0 < nw) :
    count32 x d px pd nw xo dof
      = (List.range (32 * nw - 1)).countP fun k =>
          (x (px + (k + 1) / 32 * xo)).getLsbD ((k + 1) % 32)
            && (d (pd + (k + 1) / 32 * dof)).getLsbD ((k + 1) % 32) := by
  obtain ⟨n, rfl⟩ : ∃ n, nw = n + 1 := ⟨nw - 1, by omega⟩
  have hall := countP_tail (fun q => (x (px + q / 32 * xo)).getLsbD (q % 32)
      && (d (pd + q / 32 * dof)).getLsbD (q % 32)) (N := 32 * (n + 1)) (by omega)
  rw [countP_blocks, List.range_succ_eq_map (n := n), List.map_cons, List.map_map, List.sum_cons] at hall
  have hin : ∀ w : ℕ, (List.range 32).countP (fun p =>
      (x (px + (32 * w + p) / 32 * xo)).getLsbD ((32 * w + p) % 32)
        && (d (pd + (32 * w + p) / 32 * dof)).getLsbD ((32 * w + p) % 32))
      = popc (x (px + w * xo) &&& d (pd + w * dof)) := by
    intro w
    rw [popc_and]
    apply List.countP_congr
    intro p hp
    have hp' := List.mem_range.mp hp
    have h1 : (32 * w + p) / 32 = w := by omega
    have h2 : (32 * w + p) % 32 = p := by omega
    rw [h1, h2]
  unfold count32
  simp only [hin, Function.comp_def, Nat.succ_eq_add_one, Nat.add_sub_cancel, Nat.zero_mul,
    Nat.add_zero, Nat.zero_div, Nat.zero_mod] at hall ⊢
  have hb : (x px &&& d pd).getLsbD 0 = ((x px).getLsbD 0 && (d pd).getLsbD 0) :=
    BitVec.getLsbD_and
  rw [hb]
  have hge : (if ((x px).getLsbD 0 && (d pd).getLsbD 0) = true then 1 else 0)
      ≤ popc (x px &&& d pd) := by
    split_ifs with h
    · rw [popc_and, Nat.one_le_iff_ne_zero, ne_eq, List.countP_eq_zero]
      intro hno
      exact hno 0 (by simp) h
    · exact Nat.zero_le _
  omega

/-- The two arrays the bit line maker leaves behind for one sample and one cross-point, seen by an
update kernel which uses the same number of words. -/
theorem count32_sample {xt dt o ublm : Bool} {Ks : ℕ → ℕ} {Kmax xsz dsz m : ℕ} {x d : ℕ → Entry}
    (hK : ∀ b, b < m → getK ublm Ks Kmax b ≤ Kmax) {xops dops : List (ℕ × W32)}
    (hx : xops.Perm (launch32 xt o ublm Ks Kmax xsz m x))
    (hd : dops.Perm (launch32 dt o ublm Ks Kmax dsz m d))
    {b i j : ℕ} (hb : b < m) (hi : i < xsz) (hj : j < dsz) :
    count32 (counts xops) (counts dops) (base (nK32 Kmax) xsz (place o xsz m b i))
        (base (nK32 Kmax) dsz (place o dsz m b j)) (nK32 Kmax) xsz dsz
      = coincidences ⟨x (place xt xsz m b i), d (place dt dsz m b j), getK ublm Ks Kmax b⟩ := by
  have hb' := hK b hb
  have hnw : 0 < nK32 Kmax := by unfold nK32; omega
  have hN : getK ublm Ks Kmax b ≤ 32 * nK32 Kmax - 1 := by unfold nK32; omega
  rw [count32_eq _ _ _ _ _ _ _ hnw, coincidences_eq]
  dsimp only
  rw [← countP_upto _ hN]
  apply List.countP_congr
  intro k hk
  have hk' := List.mem_range.mp hk
  have hw : (k + 1) / 32 < nK32 Kmax := by omega
  have hp : (k + 1) % 32 < 32 := by omega
  have hne : (k + 1) / 32 ≠ 0 ∨ (k + 1) % 32 ≠ 0 := by omega
  rw [(mem32 hK hx hb hi).2 _ _ hw hp hne, (mem32 hK hd hb hj).2 _ _ hw hp hne]
  have e1 : 32 * ((k + 1) / 32) + (k + 1) % 32 = k + 1 := by omega
  rw [e1, Nat.add_sub_cancel]
  have e2 : (k + 1 ≤ getK ublm Ks Kmax b) ↔ (k < getK ublm Ks Kmax b) := by omega
  simp only [e2]
  simp only [Bool.and_eq_true, decide_eq_true_eq]
  tauto

/-- An entry that fires in a slot of its train has not been skipped. -/
theorem not_skipped {e : Entry} {K k : ℕ} (hk : k < K) (h : fires e k) : e.skipped K = false := by
  have := fires_iff (e := e) hk
  rw [decide_eq_true h] at this
  cases hs : e.skipped K
  · rfl
  · rw [hs] at this; simp at this

theorem signBit_eq {e : Entry} {K k : ℕ} (hk : k < K) (h : fires e k) :
    signBit e K = decide (e.value < 0) := by
  unfold signBit
  rw [not_skipped hk h]
  rfl

theorem coincidences_pos {s : Sample} (h : 0 < coincidences s) :
    ∃ k, k < s.slots ∧ fires s.x k ∧ fires s.d k := by
  rw [coincidences_eq, List.countP_pos_iff] at h
  obtain ⟨k, hk, hf⟩ := h
  exact ⟨k, List.mem_range.mp hk, by simpa using hf⟩

/-- What is delivered for one sample. -/
theorem delivered32 {xt dt o ublm : Bool} {Ks : ℕ → ℕ} {Kmax xsz dsz m : ℕ} {x d : ℕ → Entry}
    (hK : ∀ b, b < m → getK ublm Ks Kmax b ≤ Kmax) {xops dops : List (ℕ × W32)}
    (hx : xops.Perm (launch32 xt o ublm Ks Kmax xsz m x))
    (hd : dops.Perm (launch32 dt o ublm Ks Kmax dsz m d))
    {b i j : ℕ} (hb : b < m) (hi : i < xsz) (hj : j < dsz) (side : Side) :
    delivered (read32 side (counts xops) (counts dops)
        (getIdxToLoad o b i xsz m (xsz * nK32 Kmax)) (getIdxToLoad o b j dsz m (dsz * nK32 Kmax))
        (nK32 Kmax) xsz dsz)
      = select side (pulses
          ⟨x (place xt xsz m b i), d (place dt dsz m b j), getK ublm Ks Kmax b⟩) := by
  rw [readAt hi, readAt hj]
  have hc := count32_sample hK hx hd hb hi hj (o := o)
  have hsx := (mem32 hK hx hb hi).1
  have hsd := (mem32 hK hd hb hj).1
  set s : Sample := ⟨x (place xt xsz m b i), d (place dt dsz m b j), getK ublm Ks Kmax b⟩ with hs
  unfold read32 pulses
  simp only [hsx, hsd, hc]
  rcases Nat.eq_zero_or_pos (coincidences s) with h0 | h0
  · rw [h0]
    cases side <;> simp only [select, List.replicate_zero, List.filter_nil, List.map_nil] <;>
      (try split_ifs) <;> simp [delivered]
  · obtain ⟨k, hk, hfx, hfd⟩ := coincidences_pos h0
    have e1 : signBit (x (place xt xsz m b i)) (getK ublm Ks Kmax b)
        = decide ((x (place xt xsz m b i)).value < 0) := signBit_eq hk hfx
    have e2 : signBit (d (place dt dsz m b j)) (getK ublm Ks Kmax b)
        = decide ((d (place dt dsz m b j)).value < 0) := signBit_eq hk hfd
    have ho : opposite s = (signBit (x (place xt xsz m b i)) (getK ublm Ks Kmax b)
        != signBit (d (place dt dsz m b j)) (getK ublm Ks Kmax b)) := by rw [e1, e2]; rfl
    rw [ho]
    generalize (signBit (x (place xt xsz m b i)) (getK ublm Ks Kmax b)
        != signBit (d (place dt dsz m b j)) (getK ublm Ks Kmax b)) = g
    cases side <;> cases g <;> simp [delivered, select]

end Aihw.Gpu

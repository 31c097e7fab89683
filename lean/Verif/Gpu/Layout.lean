import Verif.Gpu.Bits

/-!
# Lemmas: where the words of an entry are
-/

namespace Aihw.Gpu

open Spec

/-- Position of the first word of the entry with output number `q`. -/
def base (nw sz q : ℕ) : ℕ := q / sz * (nw * sz) + q % sz

theorem base_inj {nw sz q q' w w' : ℕ} (hsz : 0 < sz) (hw : w < nw) (hw' : w' < nw)
    (h : base nw sz q + w * sz = base nw sz q' + w' * sz) : q = q' ∧ w = w' := by
  unfold base at h
  have hr : q % sz < sz := Nat.mod_lt _ hsz
  have hr' : q' % sz < sz := Nat.mod_lt _ hsz
  have e1 : q / sz * (nw * sz) + q % sz + w * sz = sz * (q / sz * nw + w) + q % sz := by ring
  have e2 : q' / sz * (nw * sz) + q' % sz + w' * sz = sz * (q' / sz * nw + w') + q' % sz := by ring
  rw [e1, e2] at h
  have hm : q % sz = q' % sz := by
    have := congrArg (· % sz) h
    simpa [Nat.mul_add_mod, Nat.mod_eq_of_lt hr, Nat.mod_eq_of_lt hr'] using this
  have hd : q / sz * nw + w = q' / sz * nw + w' := by
    have := congrArg (· / sz) h
    simpa [Nat.mul_add_div hsz, Nat.div_eq_of_lt hr, Nat.div_eq_of_lt hr'] using this
  have hnw : 0 < nw := by omega
  have hww : w = w' := by
    have := congrArg (· % nw) hd
    simpa [Nat.mul_comm _ nw, Nat.mul_add_mod, Nat.mod_eq_of_lt hw, Nat.mod_eq_of_lt hw'] using this
  have hqq : q / sz = q' / sz := by
    have := congrArg (· / nw) hd
    simpa [Nat.mul_comm _ nw, Nat.mul_add_div hnw, Nat.div_eq_of_lt hw, Nat.div_eq_of_lt hw']
      using this
  refine ⟨?_, hww⟩
  rw [← Nat.div_add_mod q sz, ← Nat.div_add_mod q' sz, hm, hqq]

theorem place_inj {t : Bool} {sz m b i b' i' : ℕ} (hb : b < m) (hi : i < sz) (hb' : b' < m)
    (hi' : i' < sz) (h : place t sz m b i = place t sz m b' i') : b = b' ∧ i = i' := by
  unfold place at h
  cases t with
  | true =>
    simp only [if_true] at h
    have hm : 0 < m := by omega
    have h1 := congrArg (· % m) h
    have h2 := congrArg (· / m) h
    simp only [Nat.mul_comm _ m, Nat.mul_add_mod, Nat.mod_eq_of_lt hb, Nat.mod_eq_of_lt hb'] at h1
    simp only [Nat.mul_comm _ m, Nat.mul_add_div hm, Nat.div_eq_of_lt hb, Nat.div_eq_of_lt hb'] at h2
    exact ⟨h1, by omega⟩
  | false =>
    simp only [Bool.false_eq_true, if_false] at h
    have hm : 0 < sz := by omega
    have h1 := congrArg (· % sz) h
    have h2 := congrArg (· / sz) h
    simp only [Nat.mul_comm _ sz, Nat.mul_add_mod, Nat.mod_eq_of_lt hi, Nat.mod_eq_of_lt hi'] at h1
    simp only [Nat.mul_comm _ sz, Nat.mul_add_div hm, Nat.div_eq_of_lt hi, Nat.div_eq_of_lt hi'] at h2
    exact ⟨by omega, h1⟩

theorem place_lt {t : Bool} {sz m b i : ℕ} (hb : b < m) (hi : i < sz) :
    place t sz m b i < m * sz := by
  unfold place
  cases t with
  | true =>
    simp only [if_true]
    have : i * m + m ≤ sz * m := by
      have := Nat.mul_le_mul_right m (show i + 1 ≤ sz from hi)
      rw [Nat.add_mul] at this; omega
    rw [Nat.mul_comm m sz]; omega
  | false =>
    simp only [Bool.false_eq_true, if_false]
    have : b * sz + sz ≤ m * sz := by
      have := Nat.mul_le_mul_right sz (show b + 1 ≤ m from hb)
      rw [Nat.add_mul] at this; omega
    omega

/-- Every input position is the place of one entry. -/
theorem place_of {t : Bool} {sz m idx : ℕ} (h : idx < m * sz) :
    getBatchIdx t idx sz m < m ∧ getValueIdx t idx sz m < sz
      ∧ place t sz m (getBatchIdx t idx sz m) (getValueIdx t idx sz m) = idx := by
  have hm : 0 < m := by
    rcases Nat.eq_zero_or_pos m with h0 | h0
    · subst h0; omega
    · exact h0
  have hs : 0 < sz := by
    rcases Nat.eq_zero_or_pos sz with h0 | h0
    · subst h0; omega
    · exact h0
  unfold getBatchIdx getValueIdx place
  cases t with
  | true =>
    simp only [if_true]
    refine ⟨Nat.mod_lt _ hm, ?_, ?_⟩
    · rw [Nat.div_lt_iff_lt_mul hm, Nat.mul_comm]; exact h
    · rw [Nat.mul_comm]; exact Nat.div_add_mod idx m
  | false =>
    simp only [Bool.false_eq_true, if_false]
    refine ⟨?_, Nat.mod_lt _ hs, ?_⟩
    · rw [Nat.div_lt_iff_lt_mul hs]; exact h
    · rw [Nat.mul_comm]; exact Nat.div_add_mod idx sz

theorem getBatch_place {t : Bool} {sz m b i : ℕ} (hb : b < m) (hi : i < sz) :
    getBatchIdx t (place t sz m b i) sz m = b ∧ getValueIdx t (place t sz m b i) sz m = i := by
  have h := place_of (t := t) (place_lt (t := t) hb hi)
  exact place_inj h.1 h.2.1 hb hi h.2.2

/-- The bit line maker and the update kernels agree on the position of the first word. -/
theorem writeAt {t o : Bool} {sz m nw b i : ℕ} (hb : b < m) (hi : i < sz) :
    getCountsIdx32 t o (place t sz m b i) sz m (nw * sz) = base nw sz (place o sz m b i) := by
  have hm : 0 < m := by omega
  have hs : 0 < sz := by omega
  have h1 : (b * sz + i) / sz = b := by
    rw [Nat.mul_comm, Nat.mul_add_div hs, Nat.div_eq_of_lt hi, Nat.add_zero]
  have h2 : (b * sz + i) % sz = i := by
    rw [Nat.mul_comm, Nat.mul_add_mod, Nat.mod_eq_of_lt hi]
  have h3 : (i * m + b) / m = i := by
    rw [Nat.mul_comm, Nat.mul_add_div hm, Nat.div_eq_of_lt hb, Nat.add_zero]
  have h4 : (i * m + b) % m = b := by
    rw [Nat.mul_comm, Nat.mul_add_mod, Nat.mod_eq_of_lt hb]
  cases t <;> cases o <;> simp only [getCountsIdx32, base, place, if_true, Bool.false_eq_true,
    if_false, h1, h2, h3, h4]
  rw [show b + m * i = i * m + b by ring]

theorem readAt {o : Bool} {sz m nw b i : ℕ} (hi : i < sz) :
    getIdxToLoad o b i sz m (sz * nw) = base nw sz (place o sz m b i) := by
  have hs : 0 < sz := by omega
  have h1 : (b * sz + i) / sz = b := by
    rw [Nat.mul_comm, Nat.mul_add_div hs, Nat.div_eq_of_lt hi, Nat.add_zero]
  have h2 : (b * sz + i) % sz = i := by
    rw [Nat.mul_comm, Nat.mul_add_mod, Nat.mod_eq_of_lt hi]
  cases o <;> simp only [getIdxToLoad, base, place, if_true, Bool.false_eq_true, if_false, h1, h2]
  · ring
  · rw [show b + i * m = i * m + b by ring, Nat.mul_comm sz nw]

theorem fires_iff {e : Entry} {K k : ℕ} (hk : k < K) :
    (!e.skipped K && e.hit k) = decide (fires e k) := by
  unfold Entry.skipped Entry.hit fires
  have hK : K ≠ 0 := by omega
  by_cases h1 : e.value = 0
  · simp [h1]
  · by_cases h2 : e.prob = 0
    · have h3 : ¬ (e.draw k < e.prob) := by rw [h2]; exact not_lt.mpr (le_of_lt (e.drawPos k))
      simp [h3]
    · simp [hK, h1, h2]

/-- The sign bit, which a skipped entry does not set. -/
def signBit (e : Entry) (K : ℕ) : Bool := !e.skipped K && e.negative

theorem thread32_addr {t o ublm : Bool} {Ks : ℕ → ℕ} {Kmax sz m : ℕ} {entry : ℕ → Entry}
    (hK : ∀ b, b < m → getK ublm Ks Kmax b ≤ Kmax) {b i : ℕ} (hb : b < m) (hi : i < sz)
    {a : ℕ} {v : W32} (h : (a, v) ∈ thread32 t o ublm Ks Kmax sz m entry (place t sz m b i)) :
    ∃ w, w < nK32 Kmax ∧ a = base (nK32 Kmax) sz (place o sz m b i) + w * sz := by
  unfold thread32 at h
  rw [(getBatch_place hb hi).1] at h
  dsimp only at h
  split_ifs at h with hs
  · simp at h
  · have hb' := hK b hb
    obtain ⟨v', hv, _⟩ := counts32_shape (entry (place t sz m b i))
      (getCountsIdx32 t o (place t sz m b i) sz m (nK32 Kmax * sz)) (nK32 Kmax)
      (getK ublm Ks Kmax b) sz (by unfold nK32; omega) (by unfold nK32; omega)
    rw [hv, List.mem_map] at h
    obtain ⟨w, hw, he⟩ := h
    rw [writeAt hb hi] at he
    exact ⟨w, List.mem_range.mp hw, by rw [← (Prod.mk.inj he).1]⟩

theorem launch32_nodup {t o ublm : Bool} {Ks : ℕ → ℕ} {Kmax sz m : ℕ} {entry : ℕ → Entry}
    (hK : ∀ b, b < m → getK ublm Ks Kmax b ≤ Kmax) :
    ((launch32 t o ublm Ks Kmax sz m entry).map Prod.fst).Nodup := by
  unfold launch32
  rw [List.map_flatMap, List.nodup_flatMap]
  constructor
  · intro idx hidx
    have hp := place_of (t := t) (List.mem_range.mp hidx)
    have hs : 0 < sz := by omega
    unfold thread32
    dsimp only
    split_ifs with hsk
    · simp
    · have hb' := hK _ hp.1
      obtain ⟨v', hv, _⟩ := counts32_shape (entry idx)
        (getCountsIdx32 t o idx sz m (nK32 Kmax * sz)) (nK32 Kmax)
        (getK ublm Ks Kmax (getBatchIdx t idx sz m)) sz (by unfold nK32; omega)
        (by unfold nK32; omega)
      rw [hv, List.map_map]
      apply List.Nodup.map _ List.nodup_range
      intro w w' hww
      simp only [Function.comp] at hww
      have : w * sz = w' * sz := by omega
      exact Nat.eq_of_mul_eq_mul_right hs this
  · apply List.Pairwise.imp_of_mem _ (List.nodup_iff_pairwise_ne.mp List.nodup_range)
    intro idx idx' h1 h2 hne
    have hp := place_of (t := t) (List.mem_range.mp h1)
    have hp' := place_of (t := t) (List.mem_range.mp h2)
    have hs : 0 < sz := by omega
    intro a ha ha'
    rw [List.mem_map] at ha ha'
    obtain ⟨⟨a1, v1⟩, m1, e1⟩ := ha
    obtain ⟨⟨a2, v2⟩, m2, e2⟩ := ha'
    rw [← hp.2.2] at m1
    rw [← hp'.2.2] at m2
    obtain ⟨w1, hw1, q1⟩ := thread32_addr hK hp.1 hp.2.1 m1
    obtain ⟨w2, hw2, q2⟩ := thread32_addr hK hp'.1 hp'.2.1 m2
    simp only at e1 e2
    have hb := base_inj hs hw1 hw2 (by rw [← q1, ← q2, e1, e2])
    have hpl := place_inj hp.1 hp.2.1 hp'.1 hp'.2.1 hb.1
    apply hne
    rw [← hp.2.2, ← hp'.2.2, hpl.1, hpl.2]

/-- The bits of the words of the entry `i` of sample `b` after the launch, whatever the order of the
stores. -/
theorem mem32 {t o ublm : Bool} {Ks : ℕ → ℕ} {Kmax sz m : ℕ} {entry : ℕ → Entry}
    (hK : ∀ b, b < m → getK ublm Ks Kmax b ≤ Kmax) {ops : List (ℕ × W32)}
    (hp : ops.Perm (launch32 t o ublm Ks Kmax sz m entry)) {b i : ℕ} (hb : b < m) (hi : i < sz) :
    (counts ops (base (nK32 Kmax) sz (place o sz m b i))).getLsbD 0
        = signBit (entry (place t sz m b i)) (getK ublm Ks Kmax b)
    ∧ ∀ w p : ℕ, w < nK32 Kmax → p < 32 → (w ≠ 0 ∨ p ≠ 0) →
      (counts ops (base (nK32 Kmax) sz (place o sz m b i) + w * sz)).getLsbD p
        = (decide (32 * w + p ≤ getK ublm Ks Kmax b)
            && decide (fires (entry (place t sz m b i)) (32 * w + p - 1))) := by
  have hs : 0 < sz := by omega
  have hnw : 0 < nK32 Kmax := by unfold nK32; omega
  by_cases hsk : (entry (place t sz m b i)).skipped (getK ublm Ks Kmax b) = true
  · have hz : ∀ w, w < nK32 Kmax →
        counts ops (base (nK32 Kmax) sz (place o sz m b i) + w * sz) = 0#32 := by
      intro w hw
      apply counts_not_mem hp
      intro hmem
      unfold launch32 at hmem
      rw [List.map_flatMap, List.mem_flatMap] at hmem
      obtain ⟨idx, hidx, hm⟩ := hmem
      have hpl := place_of (t := t) (List.mem_range.mp hidx)
      rw [List.mem_map] at hm
      obtain ⟨⟨a1, v1⟩, m1, e1⟩ := hm
      have m1' := m1
      rw [← hpl.2.2] at m1'
      obtain ⟨w1, hw1, q1⟩ := thread32_addr hK hpl.1 hpl.2.1 m1'
      simp only at e1
      have hbb := base_inj hs hw1 hw (by rw [← q1, e1])
      have hpp := place_inj hpl.1 hpl.2.1 hb hi hbb.1
      have hid : idx = place t sz m b i := by rw [← hpl.2.2, hpp.1, hpp.2]
      subst hid
      unfold thread32 at m1
      rw [(getBatch_place hb hi).1] at m1
      simp [hsk] at m1
    constructor
    · have := hz 0 hnw
      rw [Nat.zero_mul, Nat.add_zero] at this
      rw [this]
      simp [signBit, hsk]
    · intro w p hw _ hwp
      rw [hz w hw]
      by_cases hle : 32 * w + p ≤ getK ublm Ks Kmax b
      · rw [← fires_iff (e := entry (place t sz m b i)) (K := getK ublm Ks Kmax b)
          (k := 32 * w + p - 1) (by omega)]
        simp [hsk]
      · simp [hle]
  · have hb' := hK b hb
    obtain ⟨v, hv, hv0, hvb⟩ := counts32_shape (entry (place t sz m b i))
      (getCountsIdx32 t o (place t sz m b i) sz m (nK32 Kmax * sz)) (nK32 Kmax)
      (getK ublm Ks Kmax b) sz hnw (by unfold nK32; omega)
    have hmem : ∀ w, w < nK32 Kmax →
        counts ops (base (nK32 Kmax) sz (place o sz m b i) + w * sz) = v w := by
      intro w hw
      apply counts_mem hp (launch32_nodup hK)
      unfold launch32
      rw [List.mem_flatMap]
      refine ⟨place t sz m b i, List.mem_range.mpr (place_lt hb hi), ?_⟩
      unfold thread32
      rw [(getBatch_place hb hi).1]
      dsimp only
      rw [if_neg hsk, hv, List.mem_map]
      exact ⟨w, List.mem_range.mpr hw, by rw [writeAt hb hi]⟩
    constructor
    · have := hmem 0 hnw
      rw [Nat.zero_mul, Nat.add_zero] at this
      rw [this, hv0]
      simp [signBit, hsk]
    · intro w p hw hp32 hwp
      rw [hmem w hw, hvb w p hp32 hwp hw]
      by_cases hle : 32 * w + p ≤ getK ublm Ks Kmax b
      · rw [← fires_iff (e := entry (place t sz m b i)) (K := getK ublm Ks Kmax b)
          (k := 32 * w + p - 1) (by omega)]
        simp [hsk]
      · simp [hle]

end Aihw.Gpu

import Verif.Gpu.Count

/-!
# Lemmas: the 64-bit format
-/

namespace Aihw.Gpu

open Spec

theorem getKc_zero (ublm : Bool) (Ks : ℕ → ℕ) (K : ℕ) : getKc ublm Ks K 0 = 0 := by
  cases ublm <;> simp [getKc, kcValues]

theorem getKc_succ (ublm : Bool) (Ks : ℕ → ℕ) (K b : ℕ) :
    getKc ublm Ks K (b + 1) = getKc ublm Ks K b + getK ublm Ks K b := by
  cases ublm
  · simp [getKc, getK, Nat.add_mul]
  · rfl

theorem getKc_mono (ublm : Bool) (Ks : ℕ → ℕ) (K : ℕ) {b b' : ℕ} (h : b ≤ b') :
    getKc ublm Ks K b ≤ getKc ublm Ks K b' := by
  induction h with
  | refl => exact le_refl _
  | step _ ih => rw [getKc_succ]; omega

theorem getnB_eq (ublm : Bool) (Ks : ℕ → ℕ) (K m : ℕ) :
    getnB ublm Ks K m = (getKc ublm Ks K m + 31) / 32 := by
  cases ublm <;> simp [getnB, getKc]

theorem readBatch64_eq (ublm : Bool) (Ks : ℕ → ℕ) (K m : ℕ) :
    readBatch64 ublm Ks K m = (getKc ublm Ks K m + 31) / 32 := by
  cases ublm <;> simp [readBatch64, getKc]

/-- The bits a 64-bit word gets from two 32-bit words. -/
theorem pack_low (a b : W32) {p : ℕ} (hp : p < 32) :
    (a.setWidth 64 ||| (b.setWidth 64 <<< 32)).getLsbD p = a.getLsbD p := by
  rw [BitVec.getLsbD_or, BitVec.getLsbD_shiftLeft, BitVec.getLsbD_setWidth]
  simp [hp, show p < 64 by omega]

theorem pack_high (a b : W32) {p : ℕ} (hp : p < 32) :
    (a.setWidth 64 ||| (b.setWidth 64 <<< 32)).getLsbD (32 + p) = b.getLsbD p := by
  rw [BitVec.getLsbD_or, BitVec.getLsbD_shiftLeft, BitVec.getLsbD_setWidth, BitVec.getLsbD_setWidth]
  have h1 : a.getLsbD (32 + p) = false := BitVec.getLsbD_of_ge _ _ (by omega)
  have h2 : 32 + p - 32 = p := by omega
  simp [h1, h2, show 32 + p < 64 by omega, show p < 64 by omega]

theorem negWord_bit (neg : Bool) {K p : ℕ} (hK : K ≤ 32) :
    (if neg then (0xffffffff#32) >>> (32 - K) else 0#32).getLsbD p = (decide (p < K) && neg) := by
  cases neg with
  | false => simp
  | true =>
    simp only [if_true, Bool.and_true]
    rw [BitVec.getLsbD_ushiftRight]
    have : (0xffffffff#32).getLsbD (32 - K + p) = decide (32 - K + p < 32) := by
      by_cases h : 32 - K + p < 32
      · rw [decide_eq_true h]
        have hall : ∀ q : Fin 32, (0xffffffff#32).getLsbD q.1 = true := by decide
        exact hall ⟨_, h⟩
      · rw [decide_eq_false h]
        exact BitVec.getLsbD_of_ge _ _ (by omega)
    rw [this, decide_eq_decide]
    omega

/-- A 32-bit word with the bits `f 0 … f (K-1)`, moved to position `Kc` of a row: the two pieces. -/
theorem shifted {v : W32} {f : ℕ → Bool} {K s p : ℕ} (hp : p < 32)
    (hv : ∀ q : ℕ, v.getLsbD q = (decide (q < K) && f q)) :
    (v <<< s).getLsbD p = (decide (s ≤ p) && decide (p < s + K) && f (p - s)) := by
  rw [BitVec.getLsbD_shiftLeft, hv]
  by_cases h1 : s ≤ p
  · have h2 : ¬ p < s := by omega
    have h3 : (p - s < K) ↔ (p < s + K) := by omega
    simp [hp, h1, h2, h3]
  · have h2 : p < s := by omega
    simp [h1, h2]

theorem spilled {v : W32} {f : ℕ → Bool} {K s p : ℕ} (hs : s < 32)
    (hv : ∀ q : ℕ, v.getLsbD q = (decide (q < K) && f q)) :
    (v >>> (32 - s)).getLsbD p = (decide (32 + p < s + K) && f (32 + p - s)) := by
  rw [BitVec.getLsbD_ushiftRight, hv]
  have h1 : 32 - s + p = 32 + p - s := by omega
  have h2 : (32 - s + p < K) ↔ (32 + p < s + K) := by omega
  simp only [h2]
  rw [h1]

/-- Whether one of the operations of an entry sets bit `p` of the word `r + U`. -/
theorem counts64_bits (e : Entry) {K Kc : ℕ} (hK : K ≤ 31) (r U p : ℕ) (hp : p < 32) :
    ((counts64 e (r + Kc / 32) K Kc).any fun o => decide (o.1 = r + U) && o.2.getLsbD p)
        = (decide (Kc ≤ 32 * U + p) && decide (32 * U + p < Kc + K) && e.hit (32 * U + p - Kc))
    ∧ ((counts64 e (r + Kc / 32) K Kc).any fun o => decide (o.1 = r + U) && o.2.getLsbD (32 + p))
        = (decide (Kc ≤ 32 * U + p) && decide (32 * U + p < Kc + K) && e.negative) := by
  have hs : Kc % 32 < 32 := Nat.mod_lt _ (by omega)
  have hbal : ∀ q : ℕ, (loopBits e.hit (List.range K) (0#32, 0)).1.getLsbD q
      = (decide (q < K) && e.hit q) := by
    intro q
    rw [range_bit]
    by_cases hq : q < K
    · simp [hq, show q < 32 by omega]
    · simp [hq]
  have hneg : ∀ q : ℕ, (if e.negative then (0xffffffff#32) >>> (32 - K) else 0#32).getLsbD q
      = (decide (q < K) && (fun _ => e.negative) q) := by
    intro q; exact negWord_bit _ (by omega)
  have hgen : ∀ (first second : W64) (q : ℕ) (f : ℕ → Bool),
      first.getLsbD q = (decide (Kc % 32 ≤ p) && decide (p < Kc % 32 + K) && f (p - Kc % 32)) →
      second.getLsbD q = (decide (32 + p < Kc % 32 + K) && f (32 + p - Kc % 32)) →
      (((r + Kc / 32, first) ::
          (if 32 < Kc % 32 + K then [(r + Kc / 32 + 1, second)] else [])).any
            fun o : ℕ × W64 => decide (o.1 = r + U) && o.2.getLsbD q)
        = (decide (Kc ≤ 32 * U + p) && decide (32 * U + p < Kc + K) && f (32 * U + p - Kc)) := by
    intro first second q f h1 h2
    rw [List.any_cons]
    simp only [h1]
    have hsecond : ((if 32 < Kc % 32 + K then [(r + Kc / 32 + 1, second)] else []).any
            fun o : ℕ × W64 => decide (o.1 = r + U) && o.2.getLsbD q)
        = (decide (r + Kc / 32 + 1 = r + U)
            && (decide (32 + p < Kc % 32 + K) && f (32 + p - Kc % 32))) := by
      split_ifs with h
      · simp [h2]
      · have : ¬ (32 + p < Kc % 32 + K) := by omega
        simp [this]
    rw [hsecond]
    by_cases hU : Kc / 32 = U
    · have e1 : (r + Kc / 32 = r + U) := by omega
      have e2 : ¬ (r + Kc / 32 + 1 = r + U) := by omega
      have e3 : (Kc % 32 ≤ p) ↔ (Kc ≤ 32 * U + p) := by omega
      have e4 : (p < Kc % 32 + K) ↔ (32 * U + p < Kc + K) := by omega
      have e5 : 32 * U + p - Kc = p - Kc % 32 := by omega
      rw [decide_eq_true e1, decide_eq_false e2, e5]
      simp only [e3, e4]
      simp
    · have e1 : ¬ (r + Kc / 32 = r + U) := by omega
      rw [decide_eq_false e1]
      by_cases hU1 : Kc / 32 + 1 = U
      · have e2 : (r + Kc / 32 + 1 = r + U) := by omega
        have e3 : Kc ≤ 32 * U + p := by omega
        have e4 : (32 + p < Kc % 32 + K) ↔ (32 * U + p < Kc + K) := by omega
        have e5 : 32 * U + p - Kc = 32 + p - Kc % 32 := by omega
        rw [decide_eq_true e2, decide_eq_true e3, e5]
        simp only [e4]
        simp
      · have e2 : ¬ (r + Kc / 32 + 1 = r + U) := by omega
        rw [decide_eq_false e2]
        have e3 : ¬ (Kc ≤ 32 * U + p ∧ 32 * U + p < Kc + K) := by omega
        have e4 : (decide (Kc ≤ 32 * U + p) && decide (32 * U + p < Kc + K)) = false := by
          rw [← Bool.decide_and]; exact decide_eq_false e3
        rw [e4]
        simp
  constructor
  · unfold counts64
    dsimp only
    apply hgen _ _ p e.hit
    · rw [pack_low _ _ hp]; exact shifted hp hbal
    · rw [pack_low _ _ hp]; exact spilled hs hbal
  · unfold counts64
    dsimp only
    apply hgen _ _ (32 + p) (fun _ => e.negative)
    · rw [pack_high _ _ hp]; exact shifted (f := fun _ => e.negative) hp hneg
    · rw [pack_high _ _ hp]; exact spilled (f := fun _ => e.negative) hs hneg

theorem thread64_eq {t ublm : Bool} {Ks : ℕ → ℕ} {Kmax sz m b i : ℕ} {entry : ℕ → Entry}
    (hb : b < m) (hi : i < sz) :
    thread64 t ublm Ks Kmax sz m entry (place t sz m b i)
      = if (entry (place t sz m b i)).skipped (getK ublm Ks Kmax b) then []
        else counts64 (entry (place t sz m b i))
          (i * getnB ublm Ks Kmax m + getKc ublm Ks Kmax b / 32) (getK ublm Ks Kmax b)
          (getKc ublm Ks Kmax b) := by
  unfold thread64
  rw [(getBatch_place hb hi).1]
  dsimp only
  have hv : getCountsIdx64 t (place t sz m b i) sz m (getKc ublm Ks Kmax b) (getnB ublm Ks Kmax m)
      = i * getnB ublm Ks Kmax m + getKc ublm Ks Kmax b / 32 := by
    have h2 := (getBatch_place (t := t) hb hi).2
    unfold getValueIdx at h2
    unfold getCountsIdx64
    cases t
    · simp only [Bool.false_eq_true, if_false] at h2 ⊢; rw [h2]
    · simp only [if_true] at h2 ⊢; rw [h2]
  rw [hv]

/-- The operations of the threads of line `i` stay within the words of this line. -/
theorem thread64_addr {t ublm : Bool} {Ks : ℕ → ℕ} {Kmax sz m b i : ℕ} {entry : ℕ → Entry}
    (hb : b < m) (hi : i < sz) {a : ℕ} {v : W64}
    (h : (a, v) ∈ thread64 t ublm Ks Kmax sz m entry (place t sz m b i)) :
    ∃ U, U < getnB ublm Ks Kmax m ∧ a = i * getnB ublm Ks Kmax m + U := by
  rw [thread64_eq hb hi] at h
  split_ifs at h with hs
  · simp at h
  · have hmono := getKc_mono ublm Ks Kmax (show b + 1 ≤ m from hb)
    rw [getKc_succ] at hmono
    have hK0 : getK ublm Ks Kmax b ≠ 0 := by
      intro h0
      rw [h0] at hs
      simp [Entry.skipped] at hs
    unfold counts64 at h
    dsimp only at h
    rw [List.mem_cons] at h
    rcases h with h | h
    · refine ⟨getKc ublm Ks Kmax b / 32, ?_, (Prod.mk.inj h).1⟩
      rw [getnB_eq]; omega
    · by_cases hc : 32 < getKc ublm Ks Kmax b % 32 + getK ublm Ks Kmax b
      · rw [if_pos hc, List.mem_singleton] at h
        refine ⟨getKc ublm Ks Kmax b / 32 + 1, ?_, by rw [(Prod.mk.inj h).1]; ring⟩
        rw [getnB_eq]; omega
      · rw [if_neg hc] at h
        simp at h

theorem row_inj {nB i i' U U' : ℕ} (hU : U < nB) (hU' : U' < nB)
    (h : i * nB + U = i' * nB + U') : i = i' ∧ U = U' := by
  have hn : 0 < nB := by omega
  have h1 := congrArg (· % nB) h
  have h2 := congrArg (· / nB) h
  simp only [Nat.mul_comm _ nB, Nat.mul_add_mod, Nat.mod_eq_of_lt hU, Nat.mod_eq_of_lt hU'] at h1
  simp only [Nat.mul_comm _ nB, Nat.mul_add_div hn, Nat.div_eq_of_lt hU, Nat.div_eq_of_lt hU'] at h2
  exact ⟨by omega, h1⟩

/-- The words of a line after the launch, whatever the order of the operations: slot `k` of sample
`b` is at position `Kc b + k` of the line, and nothing else is set. -/
theorem mem64 {t ublm : Bool} {Ks : ℕ → ℕ} {Kmax sz m : ℕ} {entry : ℕ → Entry} (hmax : Kmax ≤ 31)
    (hK : ∀ b, b < m → getK ublm Ks Kmax b ≤ Kmax) {ops : List (ℕ × W64)}
    (hp : ops.Perm (launch64 t ublm Ks Kmax sz m entry)) {i U p : ℕ} (hi : i < sz)
    (hU : U < getnB ublm Ks Kmax m) (hp32 : p < 32) :
    (∀ b k : ℕ, b < m → k < getK ublm Ks Kmax b → 32 * U + p = getKc ublm Ks Kmax b + k →
      (counts' ops (i * getnB ublm Ks Kmax m + U)).getLsbD p
          = decide (fires (entry (place t sz m b i)) k)
      ∧ (counts' ops (i * getnB ublm Ks Kmax m + U)).getLsbD (32 + p)
          = signBit (entry (place t sz m b i)) (getK ublm Ks Kmax b))
    ∧ (getKc ublm Ks Kmax m ≤ 32 * U + p →
      (counts' ops (i * getnB ublm Ks Kmax m + U)).getLsbD p = false) := by
  have hany : ∀ q : ℕ, (counts' ops (i * getnB ublm Ks Kmax m + U)).getLsbD q = true ↔
      ∃ b, b < m ∧ (entry (place t sz m b i)).skipped (getK ublm Ks Kmax b) = false ∧
        ((counts64 (entry (place t sz m b i))
          (i * getnB ublm Ks Kmax m + getKc ublm Ks Kmax b / 32) (getK ublm Ks Kmax b)
          (getKc ublm Ks Kmax b)).any fun o =>
            decide (o.1 = i * getnB ublm Ks Kmax m + U) && o.2.getLsbD q) = true := by
    intro q
    rw [counts'_bit hp, List.any_eq_true]
    constructor
    · rintro ⟨⟨a, v⟩, hmem, hcond⟩
      unfold launch64 at hmem
      rw [List.mem_flatMap] at hmem
      obtain ⟨idx, hidx, hin⟩ := hmem
      have hpl := place_of (t := t) (List.mem_range.mp hidx)
      rw [← hpl.2.2] at hin
      obtain ⟨U', hU', ha⟩ := thread64_addr hpl.1 hpl.2.1 hin
      have hc := hcond
      rw [Bool.and_eq_true, decide_eq_true_eq] at hc
      have hrow := row_inj hU' hU (by rw [← ha]; exact hc.1)
      rw [hrow.1, thread64_eq hpl.1 hi] at hin
      cases hs : (entry (place t sz m (getBatchIdx t idx sz m) i)).skipped
          (getK ublm Ks Kmax (getBatchIdx t idx sz m))
      · rw [hs] at hin
        simp only [Bool.false_eq_true, if_false] at hin
        exact ⟨_, hpl.1, hs, List.any_eq_true.mpr ⟨_, hin, hcond⟩⟩
      · rw [hs] at hin; simp at hin
    · rintro ⟨b, hb, hs, hex⟩
      rw [List.any_eq_true] at hex
      obtain ⟨o, ho, hcond⟩ := hex
      refine ⟨o, ?_, hcond⟩
      unfold launch64
      rw [List.mem_flatMap]
      refine ⟨place t sz m b i, List.mem_range.mpr (place_lt hb hi), ?_⟩
      rw [thread64_eq hb hi, hs]
      exact ho
  have huniq : ∀ b b' : ℕ, b < m → b' < m → 32 * U + p < getKc ublm Ks Kmax b + getK ublm Ks Kmax b →
      getKc ublm Ks Kmax b ≤ 32 * U + p → 32 * U + p < getKc ublm Ks Kmax b' + getK ublm Ks Kmax b' →
      getKc ublm Ks Kmax b' ≤ 32 * U + p → b = b' := by
    intro b b' _ _ h1 h2 h3 h4
    rw [← getKc_succ] at h1 h3
    rcases Nat.lt_trichotomy b b' with h | h | h
    · have := getKc_mono ublm Ks Kmax (show b + 1 ≤ b' from h); omega
    · exact h
    · have := getKc_mono ublm Ks Kmax (show b' + 1 ≤ b from h); omega
  constructor
  · intro b k hb hk hpos
    have hgen : ∀ (q : ℕ) (f : Entry → ℕ → Bool),
        (∀ b' : ℕ, b' < m → ((counts64 (entry (place t sz m b' i))
          (i * getnB ublm Ks Kmax m + getKc ublm Ks Kmax b' / 32) (getK ublm Ks Kmax b')
          (getKc ublm Ks Kmax b')).any fun o =>
            decide (o.1 = i * getnB ublm Ks Kmax m + U) && o.2.getLsbD q)
          = (decide (getKc ublm Ks Kmax b' ≤ 32 * U + p)
              && decide (32 * U + p < getKc ublm Ks Kmax b' + getK ublm Ks Kmax b')
              && f (entry (place t sz m b' i)) (32 * U + p - getKc ublm Ks Kmax b'))) →
        (counts' ops (i * getnB ublm Ks Kmax m + U)).getLsbD q
          = (!(entry (place t sz m b i)).skipped (getK ublm Ks Kmax b)
              && f (entry (place t sz m b i)) k) := by
      intro q f hf
      rw [Bool.eq_iff_iff, hany]
      constructor
      · rintro ⟨b', hb', hs, hex⟩
        rw [hf b' hb', Bool.and_eq_true, Bool.and_eq_true, decide_eq_true_eq,
          decide_eq_true_eq] at hex
        have hbb := huniq b b' hb hb' (by omega) (by omega) hex.1.2 hex.1.1
        subst hbb
        rw [hs, Bool.and_eq_true]
        refine ⟨rfl, ?_⟩
        have : 32 * U + p - getKc ublm Ks Kmax b = k := by omega
        rw [← this]; exact hex.2
      · intro h
        rw [Bool.and_eq_true] at h
        refine ⟨b, hb, by simpa using h.1, ?_⟩
        rw [hf b hb, Bool.and_eq_true, Bool.and_eq_true, decide_eq_true_eq, decide_eq_true_eq]
        have : 32 * U + p - getKc ublm Ks Kmax b = k := by omega
        rw [this]
        exact ⟨⟨by omega, by omega⟩, h.2⟩
    constructor
    · rw [hgen p Entry.hit (fun b' hb' => (counts64_bits _ (by have := hK b' hb'; omega) _ U p hp32).1)]
      exact fires_iff hk
    · rw [hgen (32 + p) (fun e _ => e.negative)
        (fun b' hb' => (counts64_bits _ (by have := hK b' hb'; omega) _ U p hp32).2)]
      rfl
  · intro hbeyond
    rw [Bool.eq_false_iff]
    intro h
    rw [hany] at h
    obtain ⟨b', hb', _, hex⟩ := h
    rw [(counts64_bits _ (by have := hK b' hb'; omega) _ U p hp32).1, Bool.and_eq_true,
      Bool.and_eq_true, decide_eq_true_eq, decide_eq_true_eq] at hex
    have := getKc_mono ublm Ks Kmax (show b' + 1 ≤ m from hb')
    rw [getKc_succ] at this
    omega

end Aihw.Gpu

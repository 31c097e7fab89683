import Verif.IrDrop.Props
import Verif.IrDrop.Props69
import Mathlib.Algebra.Ring.GeomSum

/-!
# C70: read-out modes, converters, resolution of the converters
-/
namespace Aihw.IrDrop
open Aihw.Inference

variable {K : Type} [Field K] [LinearOrder K] [IsStrictOrderedRing K] [FloorRing K]

omit [LinearOrder K] [IsStrictOrderedRing K] [FloorRing K] in
theorem dropped_congr (n cols pairs : Nat) (share a : Nat → Nat → Nat → K) {u u' o o' : Nat → K} (h : ∀ r, r < n → u r = u' r)
    (ho : ∀ j, o j = o' j) : dropped n cols pairs share a u o = dropped n cols pairs share a u' o' := by
  unfold dropped
  apply List.map_congr_left
  intro j _
  rw [ho j]
  congr 1
  refine Finset.sum_congr rfl fun k _ => Finset.sum_congr rfl fun r hr => ?_
  rw [h r (Finset.mem_range.1 hr)]

omit [LinearOrder K] [IsStrictOrderedRing K] [FloorRing K] in
theorem dropped_add (c : K) (n cols pairs : Nat) (share a : Nat → Nat → Nat → K) (u u' o o' : Nat → K) :
    addScaled c (dropped n cols pairs share a u o) (dropped n cols pairs share a u' o') =
      dropped n cols pairs share a (fun r => u r + c * u' r) (fun j => o j + c * o' j) := by
  unfold dropped
  rw [addScaled_map]
  apply List.map_congr_left
  intro j _
  have : ∑ k ∈ Finset.range pairs, ∑ r ∈ Finset.range n, a k j r * (share k r j * (u r + c * u' r)) =
      ∑ k ∈ Finset.range pairs, ∑ r ∈ Finset.range n, a k j r * (share k r j * u r) +
      c * ∑ k ∈ Finset.range pairs, ∑ r ∈ Finset.range n, a k j r * (share k r j * u' r) := by
    rw [Finset.mul_sum, ← Finset.sum_add_distrib]
    refine Finset.sum_congr rfl fun k _ => ?_
    rw [Finset.mul_sum, ← Finset.sum_add_distrib]
    exact Finset.sum_congr rfl fun r _ => by ring
  rw [this]; ring

/-- **C70** (ideal). Without wire resistance the attenuated product is the exact one, for every input. -/
theorem C70_exact (n cols : Nat) (w : List (List K)) (pairs : Nat) (share a : Nat → Nat → Nat → K) (h : Drop 0 n cols w pairs share a)
    (u o : Nat → K) :
    dropped n cols pairs share a u o =
      (List.range cols).map fun j => ∑ r ∈ Finset.range n, (w.getD r []).getD j 0 * u r + o j := by
  unfold dropped
  apply List.map_congr_left
  intro j hj
  have hj' := List.mem_range.1 hj
  congr 1
  rw [Finset.sum_comm]
  refine Finset.sum_congr rfl fun r hr => ?_
  have hr' := Finset.mem_range.1 hr
  rw [← h.total r j hr' hj', Finset.sum_mul]
  refine Finset.sum_congr rfl fun k hk => ?_
  rw [h.zero rfl k j r (Finset.mem_range.1 hk) hj' hr', one_mul]

/-! ## The converters represent the weights exactly -/

/-- **C70** (single pair). The single-pair converter is exact. -/
theorem C70_single_pair_exact (gMax gMin : K) (hr : checkRange gMax gMin = .ok ()) :
    ConvExact (fun w => (singleTo gMax gMin w).map fun g => ([1], g.1, g.2)) := by
  intro w hw
  obtain ⟨gp, gm, ratio, h1, h2, h3, h4, h5, -, h7⟩ := C20_single_pair gMax gMin hr w hw
  have h0 := (checkRange_ok hr).1
  have hr0 : ratio ≠ 0 := by
    intro h
    unfold singleBack at h7
    simp only at h7
    rw [if_pos h] at h7
    exact absurd h7 (by simp)
  refine ⟨[1], [gp, gm], ratio, by simp only [h1]; rfl, rfl, hr0, ?_, ?_⟩
  · intro g hg
    rcases List.mem_cons.1 hg with rfl | hg
    · exact ⟨h2, fun v hv => h0.trans (h4 v hv).1⟩
    · rw [List.mem_singleton.1 hg]
      exact ⟨h3, fun v hv => h0.trans (h5 v hv).1⟩
  · intro i hi
    have hb : singleBack gMin [gp, gm] (some ratio) =
        .ok (List.zipWith (fun a b => ((a - gMin) - (b - gMin)) / ratio) gp gm) := by
      unfold singleBack
      simp only
      rw [if_neg hr0]
    have hz : List.zipWith (fun a b => ((a - gMin) - (b - gMin)) / ratio) gp gm = w := by
      rw [hb] at h7; injection h7
    have e : w.getD i 0 = ((gp.getD i 0 - gMin) - (gm.getD i 0 - gMin)) / ratio := by
      conv_lhs => rw [← hz]
      rw [List.getD_eq_getElem _ _ (by simp [h2, h3, hi]), List.getElem_zipWith, List.getD_eq_getElem _ _ (by omega),
        List.getD_eq_getElem _ _ (by omega)]
    rw [e]
    simp
    field_simp

omit [LinearOrder K] [IsStrictOrderedRing K] [FloorRing K] in
theorem addPairs_get (fs : List K) : ∀ (gs : List (List K)) (acc : List K) (n : Nat), gs.length = 2 * fs.length → acc.length = n →
    (∀ g ∈ gs, g.length = n) → (addPairs fs gs acc).length = n ∧ ∀ i, i < n → (addPairs fs gs acc).getD i 0 = acc.getD i 0 +
      ∑ k ∈ Finset.range fs.length, fs.getD k 0 * ((gs.getD (2 * k) []).getD i 0 - (gs.getD (2 * k + 1) []).getD i 0) := by
  induction fs with
  | nil =>
    intro gs acc n _ ha _
    unfold addPairs
    exact ⟨ha, fun i _ => by simp⟩
  | cons f fs ih =>
    intro gs acc n hg ha hl
    match gs, hg with
    | gp :: gm :: gs, hg =>
      have hp := hl gp (by simp)
      have hm := hl gm (by simp)
      have hlen : (List.zipWith (fun a d => a + d) acc (List.zipWith (fun p m => f * (p - m)) gp gm)).length = n := by
        simp [ha, hp, hm]
      obtain ⟨h1, h2⟩ := ih gs _ n (by simp at hg ⊢; omega) hlen (fun g hg' => hl g (by simp [hg']))
      rw [addPairs]
      refine ⟨h1, fun i hi => ?_⟩
      rw [h2 i hi, List.length_cons, Finset.sum_range_succ']
      rw [List.getD_eq_getElem _ _ (by omega), List.getElem_zipWith, List.getElem_zipWith]
      simp only [List.getD_cons_zero, List.getD_cons_succ, Nat.mul_zero]
      have e : ∀ k ∈ Finset.range fs.length, fs.getD k 0 * (((gp :: gm :: gs).getD (2 * (k + 1)) []).getD i 0 -
          ((gm :: gs).getD (2 * (k + 1)) []).getD i 0) =
          fs.getD k 0 * ((gs.getD (2 * k) []).getD i 0 - (gs.getD (2 * k + 1) []).getD i 0) := by
        intro k _
        rw [show 2 * (k + 1) = (2 * k + 1) + 1 by ring, List.getD_cons_succ, List.getD_cons_succ, List.getD_cons_succ]
      rw [Finset.sum_congr rfl e, List.getD_eq_getElem acc _ (by omega), List.getD_eq_getElem gp _ (by omega),
        List.getD_eq_getElem gm _ (by omega)]
      ring

/-- **C70** (pairs of different significance). The converter with several pairs is exact. -/
theorem C70_n_pairs_exact (fs : List K) (gMax gMin : K) (hi : nPairInit fs gMax gMin = .ok ()) (hf : ∀ f ∈ fs, 0 < f) :
    ConvExact (fun w => (nPairTo fs gMax gMin w).map fun g => (fs, g.1, g.2)) := by
  intro w hw
  obtain ⟨gs, ratio, h1, h2, h3, -, h5⟩ := C21_n_pairs fs gMax gMin hi hf w hw
  obtain ⟨-, h0, -⟩ := (C21_accepted_iff fs gMax gMin).1 hi
  match gs, h2, h3, h1, h5 with
  | [], h2, h3, h1, h5 => exact absurd h5 (by simp [nPairBack])
  | g :: gs, h2, h3, h1, h5 =>
    have hr0 : ratio ≠ 0 := by
      intro h
      unfold nPairBack at h5
      simp only [h, if_true] at h5
      split_ifs at h5
    unfold nPairBack at h5
    simp only [if_neg hr0] at h5
    rw [if_neg (by rw [h2]; omega)] at h5
    have hz : (addPairs fs (g :: gs) (g.map fun _ => 0)).map (· / ratio) = w := by injection h5
    refine ⟨fs, g :: gs, ratio, by simp only [h1]; rfl, h2, hr0, fun g' hg' => ⟨(h3 g' hg').1, fun v hv => h0.trans ((h3 g' hg').2 v hv).1⟩, ?_⟩
    intro i hi'
    obtain ⟨hl, hget⟩ := addPairs_get fs (g :: gs) (g.map fun _ => 0) w.length h2 (by simpa using (h3 g (by simp)).1) (fun g' hg' => (h3 g' hg').1)
    have e : w.getD i 0 = (addPairs fs (g :: gs) (g.map fun _ => 0)).getD i 0 / ratio := by
      conv_lhs => rw [← hz]
      rw [List.getD_eq_getElem _ _ (by rw [List.length_map, hl]; exact hi'), List.getElem_map, List.getD_eq_getElem _ _ (by omega)]
    rw [e, hget i hi']
    have hz0 : (g.map fun _ => (0 : K)).getD i 0 = 0 := by
      rw [List.getD_eq_getElem _ _ (by rw [List.length_map, (h3 g (by simp)).1]; exact hi')]; simp
    rw [hz0, zero_add, mul_div_cancel₀ _ hr0]

/-! ## The modes -/

theorem readLen_grid (b : Bool) (δ : K) (hδ : 0 < δ) (m : Int) : readLen b δ (m * δ) = m + (if b then 0 else 1 / 2) * sgn (m : K) := by
  have hs : sgn ((m : K) * δ) = sgn (m : K) := by
    have hneg : (m : K) * δ < 0 ↔ (m : K) < 0 := by
      constructor
      · intro h; by_contra h'; nlinarith [not_lt.1 h']
      · intro h; exact mul_neg_of_neg_of_pos h hδ
    unfold sgn
    simp only [mul_pos_iff_of_pos_right hδ, hneg]
  have h1 : |(m : K) * δ| / δ = ((m.natAbs : Nat) : K) := by
    rw [abs_mul, abs_of_pos hδ, mul_div_cancel_right₀ _ hδ.ne', Nat.cast_natAbs, Int.cast_abs]
  have h2 : sgn (m : K) * ((m.natAbs : Nat) : K) = m := by
    rw [Nat.cast_natAbs, Int.cast_abs]
    unfold sgn
    rcases lt_trichotomy (m : K) 0 with h | h | h
    · rw [if_neg (by linarith), if_pos h, abs_of_neg h]; ring
    · rw [h]; simp
    · rw [if_pos h, abs_of_pos h, one_mul]
  unfold readLen
  rw [hs, h1, Nat.ceil_natCast, mul_add, h2]
  ring

theorem splitInput_ok (res : K) (hr : 0 < res) (s N : Nat) (hs : s < N) (hN : 1 / res + 2 = 2 ^ N) (x : List K) :
    splitInput res s x = .ok (x.map (lsb res s), x.map (msb res s)) := by
  have hl : ilog (1 / res + 2) = N := by rw [hN, ilog_pow]
  unfold splitInput
  simp only [hl]
  rw [if_neg (by rw [hN]; simp), if_neg (by simp [hs]), if_neg]
  simp only [not_not, List.all_eq_true]
  intro v _
  unfold closeTo
  rw [split_eq res hr s v, sub_self, abs_zero, decide_eq_true_iff]
  positivity

theorem pow_ge (res : K) (hr : 0 < res) (N : Nat) (hN : 1 / res + 2 = 2 ^ N) : 2 ≤ N ∧ (2 : K) ^ N = 2 * 2 ^ (N - 1) ∧
    1 / res / 2 = 2 ^ (N - 1) - 1 ∧ 1 / (2 ^ (N - 1) - 1) = 2 * res ∧ (0 : K) < 2 ^ (N - 1) - 1 := by
  have hpos : 0 < 1 / res := by positivity
  have h2N : 2 ≤ N := by
    by_contra h
    have : N = 0 ∨ N = 1 := by omega
    rcases this with rfl | rfl
    · rw [pow_zero] at hN; linarith
    · rw [pow_one] at hN; linarith
  have e : (2 : K) ^ N = 2 * 2 ^ (N - 1) := by
    rw [← pow_succ']; congr 1; omega
  have h3 : 1 / res / 2 = 2 ^ (N - 1) - 1 := by linarith
  refine ⟨h2N, e, h3, ?_, ?_⟩
  · rw [← h3]; field_simp
  · rw [← h3]; positivity

/-- **C70** (modes). For a resolution of the form `1 / (2^N - 2)` and inputs on the grid `m · 2 res` there are attenuations and offsets that do
not depend on the inputs and are the same in all three read-out modes. With summation (`h = 0`) all modes read the inputs themselves. With
trapezoidal integration (the default, `h = 1/2`) every pass reads non-zero inputs half a step too long: one pass adds half a step to each
non-zero input, split mode half a step of each non-zero digit, and bit-wise mode reads all inputs by a factor `1.5` too large. -/
theorem C70_modes (j : Job K) (p : Pars K) (conv : Conv K) (hir : j.ir = some (p, conv)) (hp : Fits p) (hadc : p.adc = false)
    (hconv : ConvExact conv) (res : K) (hres : getRes j.inpRes = .ok res) (N : Nat) (hN : 1 / res + 2 = 2 ^ N) (hb : j.inpBound = 1)
    (ht : j.tScale = 1) (hc0 : 0 < j.cols) (hc2 : j.cols % 2 = 0) (n : Nat) (hwn : j.w.length = n) (hw : ∀ l ∈ j.w, l.length = j.cols)
    (hn : n ≤ p.phys) (hn1 : p.phys - n ≠ 1) (h : K) (hh : h = if p.integrationSum then 0 else 1 / 2) :
    ∃ (pairs : Nat) (share a : Nat → Nat → Nat → K) (off : Nat → K), Drop p.rs n j.cols j.w pairs share a ∧
      ∀ (x : List K) (m : Nat → Int), x.length = n → (∀ r, r < n → x.getD r 0 = m r * (2 * res) ∧ |m r| < 2 ^ (N - 1)) →
        compute j .onePass idle x =
          .ok (true, dropped n j.cols pairs share a (fun r => x.getD r 0 + h * (2 * res) * sgn (m r : K)) fun c => 2 ^ (N - 1) * off c) ∧
        (∀ s, s < N → ∃ lo hi : Nat → Int, (∀ r, r < n → m r = lo r + 2 ^ s * hi r ∧ |lo r| < 2 ^ s ∧ |hi r| * 2 ^ s ≤ |m r|) ∧
          compute j (.split s) idle x = .ok (true, dropped n j.cols pairs share a
            (fun r => x.getD r 0 + h * (2 * res) * (sgn (lo r : K) + 2 ^ s * sgn (hi r : K))) fun c => (2 ^ s + 2 ^ (N - 1)) * off c)) ∧
        compute j .bitWise idle x =
          .ok (true, dropped n j.cols pairs share a (fun r => (1 + h) * x.getD r 0) fun c => (2 ^ N - 2) * off c) := by
  have hr : 0 < res := by
    unfold getRes at hres
    simp only at hres
    split_ifs at hres with h1 h2 h3
    · injection hres with h; rw [← h]; exact h2
    · injection hres with h; rw [← h]; exact h3
  obtain ⟨h2N, hpow, hhalf, hstep, hpos⟩ := pow_ge res hr N hN
  have h2r : (0 : K) < 2 * res := by positivity
  obtain ⟨pairs, share, a, off, hD, hprod⟩ :=
    C70_product p hp hadc conv hconv (j.inpBound / res) j.cols hc0 hc2 n j.w hwn hw hn hn1
  have hdiv : j.inpBound / res / 2 = 1 / (2 * res) := by rw [hb]; field_simp
  -- one pass over the grid with unit `2 res`
  have pass : ∀ (x : List K) (m : Nat → Int) (b : Nat), x.length = n →
      (∀ r, r < n → x.getD r 0 = m r * (2 * res) ∧ |m r| < 2 ^ b) →
      matmul j.ir (j.inpBound / res) j.cols j.w (2 * res * (2 ^ b - 1)) (2 ^ b) x =
        .ok (dropped n j.cols pairs share a (fun r => x.getD r 0 + h * (2 * res) * sgn (m r : K)) fun c => 2 ^ b * off c) := by
    intro x m b hx hm
    have hbnd : ∀ r, r < n → |((m r : Int) : K)| ≤ 2 ^ b - 1 := by
      intro r hr'
      have h1 : |m r| ≤ 2 ^ b - 1 := by have := (hm r hr').2; omega
      have h2 : ((|m r| : Int) : K) ≤ ((2 ^ b - 1 : Int) : K) := by exact_mod_cast h1
      rw [Int.cast_abs] at h2
      push_cast at h2
      exact h2
    rw [hir]
    simp only [matmul]
    rw [hprod x _ _ hx]
    · congr 1
      apply dropped_congr
      · intro r hr'
        rw [hdiv, (hm r hr').1]
        rcases Nat.eq_zero_or_pos b with h0 | h0
        · have : m r = 0 := by
            have := (hm r hr').2
            rw [h0, pow_zero] at this
            exact Int.abs_lt_one_iff.1 this
          rw [this]
          simp [readLen, sgn]
        · have hne : (2 : K) ^ b - 1 ≠ 0 := by
            have : (1 : K) < 2 ^ b := one_lt_pow₀ (by norm_num) (by omega)
            linarith
          have e : stepLen (2 * res * (2 ^ b - 1)) (2 ^ b) = 2 * res := by
            unfold stepLen
            push_cast
            exact mul_div_cancel_right₀ _ hne
          rw [e, readLen_grid _ _ h2r, ← hh]
          field_simp
      · intro c; push_cast; rfl
    · rcases Nat.eq_zero_or_pos b with h0 | h0
      · right; rw [h0]; simp
      · left
        have h1 : (1 : K) < 2 ^ b := one_lt_pow₀ (by norm_num) (by omega)
        refine ⟨?_, mul_pos h2r (by linarith)⟩
        calc 2 = 2 ^ 1 := by norm_num
          _ ≤ 2 ^ b := Nat.pow_le_pow_right (by norm_num) h0
    · intro v hv
      obtain ⟨r, hr', rfl⟩ := List.mem_iff_getElem.1 hv
      have h1 := (hm r (by omega)).1
      rw [List.getD_eq_getElem _ _ hr'] at h1
      rw [h1, abs_mul, abs_of_pos h2r, mul_comm]
      exact mul_le_mul_of_nonneg_left (hbnd r (by omega)) h2r.le
  refine ⟨pairs, share, a, off, hD, fun x m hx hm => ⟨?_, ?_, ?_⟩⟩
  · unfold compute
    rw [hres]
    simp only [bind, Except.bind]
    have hfl : ⌊(j.inpBound / res + 2) / 2 * j.tScale⌋₊ = 2 ^ (N - 1) := by
      rw [hb, ht, hN, hpow, mul_one, mul_div_assoc, mul_comm, div_mul_cancel₀ _ (two_ne_zero)]
      have : ((2 : K) ^ (N - 1)) = ((2 ^ (N - 1) : Nat) : K) := by push_cast; rfl
      rw [this, Nat.floor_natCast]
    have hone : 2 * res * (2 ^ (N - 1) - 1) = 1 := by rw [← hstep]; exact div_mul_cancel₀ _ hpos.ne'
    have := pass x m (N - 1) hx hm
    rw [hone] at this
    rw [hfl, this]
    rfl
  · intro s hs
    have hdig := fun r => C69_split_digits res hr s (m r)
    choose lo hi hlo hhi hsum hlb hhb using hdig
    refine ⟨lo, hi, fun r _ => ⟨hsum r, hlb r, hhb r⟩, ?_⟩
    unfold compute
    rw [hres]
    simp only [bind, Except.bind]
    rw [splitInput_ok res hr s N hs hN x]
    simp only
    have hf1 : ⌊(2 : K) ^ s * j.tScale⌋₊ = 2 ^ s := by
      have : ((2 : K) ^ s) = ((2 ^ s : Nat) : K) := by push_cast; rfl
      rw [ht, mul_one, this, Nat.floor_natCast]
    have hil : ilog (j.inpBound / res + 2) = N := by rw [hb, hN, ilog_pow]
    have hf2 : ⌊((2 ^ (ilog (j.inpBound / res + 2) - s - 1) : Nat) : K) * j.tScale⌋₊ = 2 ^ (N - s - 1) := by
      rw [ht, mul_one, Nat.floor_natCast, hil]
    rw [hf1, hf2, hil]
    have hget : ∀ (f : K → K) r, r < n → (x.map f).getD r 0 = f (m r * (2 * res)) := by
      intro f r hr'
      rw [List.getD_eq_getElem _ _ (by simp [hx, hr']), List.getElem_map]
      have := (hm r hr').1
      rw [List.getD_eq_getElem _ _ (by omega)] at this
      rw [this]
    have p1 := pass (x.map (lsb res s)) lo s (by simp [hx]) (fun r hr' => ⟨by rw [hget _ r hr', hlo], hlb r⟩)
    have p2 := pass (x.map (msb res s)) hi (N - s - 1) (by simp [hx]) (fun r hr' => ⟨by rw [hget _ r hr', hhi], by
      have h1 := hhb r
      have h2 := (hm r hr').2
      have e : (2 : Int) ^ (N - 1) = 2 ^ (N - s - 1) * 2 ^ s := by rw [← pow_add]; congr 1; omega
      rw [e] at h2
      exact lt_of_mul_lt_mul_right (lt_of_le_of_lt h1 h2) (by positivity)⟩)
    have c2 : ((2 ^ (N - s - 1) : Nat) : K) = 2 ^ (N - s - 1) := by push_cast; rfl
    rw [p1]
    simp only
    rw [c2, p2]
    simp only [idle, Bool.and_true]
    rw [dropped_add]
    congr 2
    apply dropped_congr
    · intro r hr'
      rw [hget _ r hr', hget _ r hr', hlo, hhi, (hm r hr').1]
      have : (m r : K) = lo r + 2 ^ s * hi r := by exact_mod_cast congrArg (Int.cast : Int → K) (hsum r)
      rw [this]; ring
    · intro c
      have e : (2 : K) ^ (N - 1) = 2 ^ s * 2 ^ (N - s - 1) := by rw [← pow_add]; congr 1; omega
      rw [e]; ring
  · obtain ⟨hl, hlen, hsum, hdig⟩ := C69_bits res hr (N - 1) (by omega) (by rw [hN, ilog_pow]; omega) x
    unfold compute
    rw [hres]
    simp only [bind, Except.bind]
    have hrep : List.replicate j.cols (0 : K) = (List.range j.cols).map fun _ => 0 := by
      rw [List.map_const', List.length_range]
    have hbit : ∀ b ∈ bitInputs res x, matmul j.ir (j.inpBound / res) j.cols j.w (2 * res) 2 b =
        .ok ((List.range j.cols).map fun c => ∑ k ∈ Finset.range pairs, ∑ r ∈ Finset.range n, a k c r * (share k r c * ((1 + h) * b.getD r 0)) + 2 * off c) := by
      intro b hbm
      obtain ⟨i, hi, rfl⟩ := List.mem_iff_getElem.1 hbm
      have hbl := hlen _ hbm
      have hex : ∀ r, r < n → ∃ f : Int, |f| ≤ 1 ∧ (bitInputs res x)[i].getD r 0 = f * (2 * res) := by
        intro r hr'
        obtain ⟨f, h1, h2⟩ := hdig r (by omega) (m r) (hm r hr').1 i (by omega)
        rw [List.getD_eq_getElem _ [] hi] at h2
        exact ⟨f, h1, h2⟩
      choose! f hf1 hf2 using hex
      have := pass (bitInputs res x)[i] f 1 (by omega) (fun r hr' => ⟨hf2 r hr', by have := hf1 r hr'; omega⟩)
      have e1 : (2 : K) * res * (2 ^ 1 - 1) = 2 * res := by ring
      rw [e1, pow_one] at this
      rw [this]
      congr 1
      unfold dropped
      apply List.map_congr_left
      intro c _
      simp only [pow_one]
      congr 1
      refine Finset.sum_congr rfl fun k _ => Finset.sum_congr rfl fun r hr' => ?_
      have hr'' := Finset.mem_range.1 hr'
      have hsg : sgn ((f r : Int) : K) = f r := by
        have h1 := abs_le.1 (hf1 r hr'')
        have : f r = -1 ∨ f r = 0 ∨ f r = 1 := by omega
        rcases this with h | h | h <;> rw [h] <;> simp [sgn]
      rw [hsg, hf2 r hr'']; ring
    rw [hrep, bitLoop_ok j res (fun b c => ∑ k ∈ Finset.range pairs, ∑ r ∈ Finset.range n, a k c r * (share k r c * ((1 + h) * b.getD r 0)) + 2 * off c)
      _ 0 _ hbit]
    congr 2
    unfold dropped
    apply List.map_congr_left
    intro c _
    rw [zero_add, hl]
    have e1 : ∀ k, (2 : K) ^ (0 + k) * (∑ q ∈ Finset.range pairs, ∑ r ∈ Finset.range n,
        a q c r * (share q r c * ((1 + h) * ((bitInputs res x).getD k []).getD r 0)) + 2 * off c) =
        (∑ q ∈ Finset.range pairs, ∑ r ∈ Finset.range n,
          a q c r * (share q r c * ((1 + h) * (2 ^ k * ((bitInputs res x).getD k []).getD r 0)))) + 2 ^ k * (2 * off c) := by
      intro k
      rw [Nat.zero_add, mul_add, Finset.mul_sum]
      congr 1
      refine Finset.sum_congr rfl fun q _ => ?_
      rw [Finset.mul_sum]
      exact Finset.sum_congr rfl fun r _ => by ring
    rw [Finset.sum_congr rfl fun k _ => e1 k, Finset.sum_add_distrib, ← Finset.sum_mul]
    have hgeo : ∑ k ∈ Finset.range (N - 1), (2 : K) ^ k = 2 ^ (N - 1) - 1 := by
      have := geom_sum_mul (2 : K) (N - 1)
      norm_num at this
      exact this
    rw [hgeo, hpow]
    congr 1
    · rw [Finset.sum_comm]
      refine Finset.sum_congr rfl fun q _ => ?_
      rw [Finset.sum_comm]
      refine Finset.sum_congr rfl fun r hr' => ?_
      have hr'' := Finset.mem_range.1 hr'
      have hs := (hsum r (by omega)).2 (by
        obtain ⟨h1, h2⟩ := hm r hr''
        rw [h1, abs_mul, abs_of_pos h2r]
        apply mul_lt_mul_of_pos_right _ h2r
        have h3 : ((|m r| : Int) : K) < ((2 ^ (N - 1) : Int) : K) := by exact_mod_cast h2
        rw [Int.cast_abs] at h3
        push_cast at h3
        exact h3)
      simp only []
      rw [← hs, Finset.mul_sum, Finset.mul_sum, Finset.mul_sum]
    · ring

/-! ## The converter at the output -/

/-- **C70** (ADC). Counting pulses of the output converter loses less than one count, towards zero. -/
theorem C70_adc (f m : K) (hf : 0 < f) :
    |adcQuant f m| ≤ |m| ∧ |m| - |adcQuant f m| < 100 / f ∧ 0 ≤ adcQuant f m * m ∧ ∃ k : Int, adcQuant f m = k * (100 / f) := by
  have hq : (0 : K) < 100 / f := by positivity
  have e : m / 100 * f = m / (100 / f) := by field_simp
  set y := m / (100 / f) with hy
  have hm : m = y * (100 / f) := (div_mul_cancel₀ _ hq.ne').symm
  have hA : adcQuant f m = truncK y * (100 / f) := by unfold adcQuant; rw [e, mul_div_assoc]
  have hfl := Int.floor_le |y|
  have hfl2 := Int.lt_floor_add_one |y|
  have hfl0 : (0 : K) ≤ (⌊|y|⌋ : K) := by exact_mod_cast Int.floor_nonneg.2 (abs_nonneg y)
  have hsg : |truncK y| = (⌊|y|⌋ : K) := by
    unfold truncK
    rw [abs_mul, abs_of_nonneg hfl0]
    rcases lt_trichotomy y 0 with h | h | h
    · simp [sgn, h, not_lt.2 h.le]
    · rw [h]; simp
    · simp [sgn, h]
  rw [hA, abs_mul, hsg, abs_of_pos hq]
  have habs : |m| = |y| * (100 / f) := by rw [hm, abs_mul, abs_of_pos hq]
  rw [habs]
  refine ⟨mul_le_mul_of_nonneg_right hfl hq.le, ?_, ?_, ?_⟩
  · rw [← sub_mul]
    have : |y| - (⌊|y|⌋ : K) < 1 := by linarith
    nlinarith
  · rw [hm]
    have : 0 ≤ truncK y * y := by
      unfold truncK sgn
      rcases lt_trichotomy y 0 with h | h | h
      · rw [if_neg (by linarith), if_pos h]; nlinarith
      · rw [h]; simp
      · rw [if_pos h]; nlinarith
    have h2 : truncK y * (100 / f) * (y * (100 / f)) = truncK y * y * ((100 / f) * (100 / f)) := by ring
    rw [h2]
    positivity
  · unfold truncK sgn
    rcases lt_trichotomy y 0 with h | h | h
    · rw [if_neg (by linarith), if_pos h]; exact ⟨-⌊|y|⌋, by push_cast; ring⟩
    · rw [h]; exact ⟨0, by simp⟩
    · rw [if_pos h]; exact ⟨⌊|y|⌋, by ring⟩

/-! ## Refused configurations and shapes -/

/-- **C70** (odd). With IR drop, a tile with an odd number of columns cannot be used. -/
theorem C70_odd_columns (p : Pars K) (hp : Fits p) (conv : Conv K) (hconv : ConvExact conv) (bitRes : K) (cols : Nat) (hc : cols % 2 = 1)
    (w : List (List K)) (hw : ∀ l ∈ w, l.length = cols) (hn : w.length ≤ p.phys) (hn1 : p.phys - w.length ≠ 1) (tMax : K) (steps : Nat)
    (x : List K) (hx : x.length = w.length) :
    matmulIr p conv bitRes cols w tMax steps x = .error .runtimeError := by
  have hl := padded_length p.phys w.length (List.replicate cols (0 : K)) w rfl hn
  have hlx := padded_length p.phys w.length (0 : K) x hx hn
  have hr : ∀ l ∈ padded p.phys w.length (List.replicate cols (0 : K)) w, l.length = cols := by
    intro l hl
    unfold padded at hl
    simp only [List.mem_append, List.mem_replicate] at hl
    rcases hl with (⟨-, rfl⟩ | h) | ⟨-, rfl⟩
    · simp
    · exact hw l h
    · simp
  have hfl := flatten_len cols _ hr
  rw [hl] at hfl
  have hne : (padded p.phys w.length (List.replicate cols (0 : K)) w).flatten ≠ [] := by
    intro h
    rw [h] at hfl
    exact absurd hfl.symm (Nat.mul_pos hp.phys (by omega)).ne'
  obtain ⟨fs, gs, ratio, hcv, -⟩ := hconv _ hne
  unfold matmulIr
  rw [(rowsPerSeg_ok p hp).1]
  simp only [bind, Except.bind]
  rw [padSymmetric_ok _ _ _ hn hn1]
  simp only
  rw [hcv]
  simp only
  rw [if_neg (by rw [hlx, hl]; simp), if_pos (by omega)]

/-- **C70** (segments). The number of segments has to divide the number of physical rows. -/
theorem C70_segments (p : Pars K) (h : ¬ p.segments ∣ p.phys) (conv : Conv K) (bitRes : K) (cols : Nat) (w : List (List K)) (tMax : K)
    (steps : Nat) (x : List K) :
    matmulIr p conv bitRes cols w tMax steps x = .error (if p.segments = 0 then .zeroDivision else .assertion) := by
  have : rowsPerSeg p = .error (if p.segments = 0 then .zeroDivision else .assertion) := by
    unfold rowsPerSeg
    by_cases h0 : p.segments = 0
    · rw [if_pos h0, if_pos h0]
    · rw [if_neg h0, if_neg h0, if_pos]
      intro h1
      exact h (Dvd.intro_left _ h1)
  unfold matmulIr
  rw [this]
  rfl

theorem currentAt_short (p : Pars K) (hp : Fits p) (rows : List (Row K)) (hr : rows.length + 1 = p.phys) (t : K) :
    currentAt p rows t = .error (if p.segments = p.phys then .indexError else .runtimeError) := by
  obtain ⟨h1, h2, h3⟩ := rowsPerSeg_ok p hp
  unfold currentAt
  rw [h1]
  simp only [bind, Except.bind]
  by_cases h : p.segments = p.phys
  · have e : p.phys / p.segments = 1 := by rw [h]; exact Nat.div_self hp.phys
    rw [e, if_pos h]
    unfold segRows
    rw [if_pos rfl]
    simp only
    rw [if_pos (by rw [List.length_map]; omega)]
  · have e : p.phys / p.segments ≠ 1 := by
      intro h'; rw [h', Nat.mul_one] at h3; exact h h3
    rw [if_neg h]
    unfold segRows
    rw [if_neg e, if_pos]
    intro h4
    have d1 : p.phys / p.segments ∣ rows.length := Dvd.intro_left _ h4
    have d2 : p.phys / p.segments ∣ rows.length + 1 := by rw [hr]; exact Dvd.intro_left _ h3
    exact e (Nat.dvd_one.1 ((Nat.dvd_add_right d1).1 d2))

/-- **C70** (finding: one row missing). A tile with exactly one row less than the physical rows is not padded, and cannot be used. -/
theorem C70_one_missing (p : Pars K) (hp : Fits p) (conv : Conv K) (hconv : ConvExact conv) (bitRes : K) (cols : Nat) (hc0 : 0 < cols)
    (hc : cols % 2 = 0) (w : List (List K)) (hn : w.length + 1 = p.phys) (hw : ∃ v ∈ w.flatten, v ≠ 0) (tMax : K)
    (steps : Nat) (hs : 0 < steps) (x : List K) (hx : x.length = w.length) :
    matmulIr p conv bitRes cols w tMax steps x = .error (if p.segments = p.phys then .indexError else .runtimeError) := by
  obtain ⟨v, hv, hv0⟩ := hw
  obtain ⟨fs, gs, ratio, hcv, hlen, hr0, hgg, hsum⟩ := hconv w.flatten (List.ne_nil_of_mem hv)
  have hfs : fs ≠ [] := by
    intro h
    obtain ⟨i, hi, rfl⟩ := List.mem_iff_getElem.1 hv
    have := hsum i hi
    rw [h] at this
    simp only [List.length_nil, Finset.range_zero, Finset.sum_empty] at this
    rw [List.getD_eq_getElem _ _ hi] at this
    exact (mul_ne_zero hr0 hv0) this.symm
  have hpad : padSymmetric p.phys w.length cols x w = .ok (x, w) := by
    unfold padSymmetric half
    have : (p.phys : Int) - w.length = 1 := by omega
    rw [this]
    rfl
  have hcharge : ∀ rows : List (Row K), rows.length = w.length →
      columnCharge p rows tMax steps = .error (if p.segments = p.phys then .indexError else .runtimeError) := by
    intro rows hrl
    unfold columnCharge
    have hne : linspace 0 tMax steps ≠ [] := by
      intro h
      have := congrArg List.length h
      rw [linspace_length] at this
      simp at this
      omega
    obtain ⟨t, ts, hts⟩ := List.exists_cons_of_ne_nil hne
    rw [hts, List.mapM_cons, currentAt_short p hp rows (by omega)]
    rfl
  unfold matmulIr
  rw [(rowsPerSeg_ok p hp).1]
  simp only [bind, Except.bind]
  rw [hpad]
  simp only
  rw [hcv]
  simp only
  rw [if_neg (by rw [hx]; simp), if_neg (by omega)]
  obtain ⟨c, rfl⟩ : ∃ c, cols = c + 1 := ⟨cols - 1, by omega⟩
  rw [List.range_succ_eq_map, List.mapM_cons]
  obtain ⟨f, fs', rfl⟩ := List.exists_cons_of_ne_nil hfs
  match gs, hlen with
  | gp :: gm :: gs, hlen =>
    rw [pairLoop, hcharge _ (by unfold cells; simp [hx])]
    rfl

/-- **C70** (modes refused). Separate passes for the signs are not available, in any configuration with an accepted resolution. -/
theorem C70_pos_neg (j : Job K) (res : K) (hres : getRes j.inpRes = .ok res) (fin : Nat → List K → Bool × List K) (x : List K) :
    compute j .posNeg fin x = .error .notImplemented := by
  unfold compute
  rw [hres]
  rfl

/-! ## The C++ kernel -/

/-- **C70** (compiled kernel). With one row per segment the compiled kernel computes the voltages and resistances of the Python loop at every
time of the grid. -/
theorem C70_cpp (rs tMax : K) (steps t : Nat) (hs : 2 ≤ steps) (ht : 0 < tMax) (rows : List (Row K)) (h : rows ≠ []) :
    thevenin (1 / 10 ^ 6 * rs * ((1 : Nat) : K)) (rows.map fun r => thevSeg ((t : K) * stepLen tMax steps) [r]) =
      (match cppThevenin rs tMax steps t rows with | none => .error .indexError | some v => .ok v) := by
  have hs1 : (0 : K) < (steps : K) - 1 := by
    have : (2 : K) ≤ steps := by exact_mod_cast hs
    linarith
  have hseg : ∀ r : Row K, thevSeg ((t : K) * stepLen tMax steps) [r] = cppSeg tMax steps t r := by
    intro r
    have hk : (0 : K) < ((steps : K) - 1) / tMax := by positivity
    have e : r.1 / tMax * ((steps : K) - 1) = r.1 * (((steps : K) - 1) / tMax) := by ring
    have e2 : (t : K) = (t : K) * stepLen tMax steps * (((steps : K) - 1) / tMax) := by
      unfold stepLen; field_simp
    have g1 : (r.1 / tMax * ((steps : K) - 1) > t) ↔ r.1 > (t : K) * stepLen tMax steps := by
      rw [e]
      conv_lhs => rw [e2]
      exact mul_lt_mul_iff_left₀ hk
    have g2 : (r.1 / tMax * ((steps : K) - 1) < -(t : K)) ↔ r.1 < -((t : K) * stepLen tMax steps) := by
      rw [e]
      conv_lhs => rw [e2]
      rw [← neg_mul]
      exact mul_lt_mul_iff_left₀ hk
    have g3 : (|r.1 / tMax * ((steps : K) - 1)| ≤ t) ↔ |r.1| ≤ (t : K) * stepLen tMax steps := by
      rw [e, abs_mul, abs_of_pos hk]
      conv_lhs => rw [e2]
      exact mul_le_mul_iff_left₀ hk
    unfold thevSeg cppSeg
    simp only [List.map_cons, List.map_nil, List.sum_cons, List.sum_nil, add_zero, pp, mm, zz, g1, g2, g3, ← add_assoc, mul_one_div]
  cases rows with
  | nil => exact absurd rfl h
  | cons r rows =>
    simp only [List.map_cons, thevenin, cppThevenin, hseg, List.foldl_map, Nat.cast_one]

end Aihw.IrDrop

import Verif.Gpu.Wide

/-!
# Lemmas: the pulses the update kernels read, as one stream
-/

namespace Aihw.Gpu

open Spec

theorem select_nil (side : Side) : select side [] = [] := by cases side <;> rfl

theorem select_append (side : Side) (a b : List Bool) :
    select side (a ++ b) = select side a ++ select side b := by
  cases side <;> simp [select]

theorem select_flatMap {α : Type} (side : Side) (l : List α) (f : α → List Bool) :
    select side (l.flatMap f) = l.flatMap fun a => select side (f a) := by
  induction l with
  | nil => simp [select_nil]
  | cons a l ih => simp only [List.flatMap_cons, select_append, ih]

/-! ### Words of the 64-bit format -/

/-- Pulse and sign of bit `p` of a pair of 64-bit words. -/
def bothBit (x d : W64) (p : ℕ) : Bool := x.getLsbD p && d.getLsbD p

/-- See `bothBit`. -/
def negBit (x d : W64) (p : ℕ) : Bool := x.getLsbD (32 + p) != d.getLsbD (32 + p)

/-- The pulses of a pair of words given as pulse bits and sign bits. -/
def bitsOf (data neg : ℕ → Bool) (n : ℕ) : List Bool :=
  ((List.range n).filter data).map neg

theorem map_const {l : List ℕ} {f : ℕ → Bool} {c : Bool} (h : ∀ a ∈ l, f a = c) :
    l.map f = List.replicate l.length c := by
  induction l with
  | nil => rfl
  | cons a l ih =>
    rw [List.map_cons, h a List.mem_cons_self, ih fun b hb => h b (List.mem_cons_of_mem _ hb)]
    rfl

theorem not_zero (w : W32) : (~~~w == 0#32) = true ↔ ∀ p, p < 32 → w.getLsbD p = true := by
  rw [beq_iff_eq]
  constructor
  · intro h p hp
    have := congrArg (fun v : W32 => v.getLsbD p) h
    simp only [BitVec.getLsbD_not, BitVec.getLsbD_zero, hp, decide_true, Bool.true_and] at this
    simpa using this
  · intro h
    apply BitVec.eq_of_getLsbD_eq
    intro p hp
    rw [BitVec.getLsbD_not, h p hp]
    simp

/-- What a kernel delivers for `data`, `neg`, after the selection of the side. -/
theorem delivered_words (data neg : W32) :
    delivered
      (if (~~~(neg ||| ~~~data) == 0#32) || (~~~(~~~neg ||| ~~~data) == 0#32) then
        ⟨popc data, if (~~~(~~~neg ||| ~~~data) == 0#32) then 0 else 1, false⟩
      else ⟨data.toNat, neg.toNat, true⟩ : Read)
    = bitsOf data.getLsbD neg.getLsbD 32 := by
  have hpos : (~~~(~~~neg ||| ~~~data) == 0#32) = true ↔
      ∀ p, p < 32 → data.getLsbD p = true → neg.getLsbD p = false := by
    rw [not_zero]
    refine forall_congr' fun p => forall_congr' fun hp => ?_
    rw [BitVec.getLsbD_or, BitVec.getLsbD_not, BitVec.getLsbD_not]
    cases neg.getLsbD p <;> cases data.getLsbD p <;> simp [hp]
  have hneg : (~~~(neg ||| ~~~data) == 0#32) = true ↔
      ∀ p, p < 32 → data.getLsbD p = true → neg.getLsbD p = true := by
    rw [not_zero]
    refine forall_congr' fun p => forall_congr' fun hp => ?_
    rw [BitVec.getLsbD_or, BitVec.getLsbD_not]
    cases neg.getLsbD p <;> cases data.getLsbD p <;> simp [hp]
  have hlen : popc data = ((List.range 32).filter data.getLsbD).length := by
    unfold popc; rw [List.countP_eq_length_filter]
  unfold bitsOf
  by_cases h1 : (~~~(~~~neg ||| ~~~data) == 0#32) = true
  · rw [h1, Bool.or_true]
    simp only [if_true, delivered, Bool.false_eq_true, if_false]
    rw [hlen]
    symm
    apply map_const
    intro p hp
    rw [List.mem_filter, List.mem_range] at hp
    simpa using hpos.mp h1 p hp.1 hp.2
  · by_cases h2 : (~~~(neg ||| ~~~data) == 0#32) = true
    · rw [h2, Bool.true_or]
      simp only [if_true, h1, delivered, Bool.false_eq_true, if_false]
      rw [hlen]
      symm
      apply map_const
      intro p hp
      rw [List.mem_filter, List.mem_range] at hp
      simpa using hneg.mp h2 p hp.1 hp.2
    · have h1' : (~~~(~~~neg ||| ~~~data) == 0#32) = false := by simpa using h1
      have h2' : (~~~(neg ||| ~~~data) == 0#32) = false := by simpa using h2
      rw [h1', h2']
      simp only [Bool.or_false, Bool.false_eq_true, if_false, delivered, if_true,
        BitVec.testBit_toNat]

theorem bitsOf_congr {data neg data' neg' : ℕ → Bool} {n : ℕ}
    (h : ∀ p, p < n → data p = data' p) (h' : ∀ p, p < n → data p = true → neg p = neg' p) :
    bitsOf data neg n = bitsOf data' neg' n := by
  unfold bitsOf
  have e : (List.range n).filter data = (List.range n).filter data' := by
    apply List.filter_congr
    intro p hp
    exact h p (List.mem_range.mp hp)
  rw [← e]
  apply List.map_congr_left
  intro p hp
  rw [List.mem_filter, List.mem_range] at hp
  exact h' p hp.1 hp.2

theorem bitsOf_select (side : Side) (data neg : ℕ → Bool) (n : ℕ) :
    select side (bitsOf data neg n)
      = match side with
        | .both => bitsOf data neg n
        | .minus => bitsOf (fun p => data p && !neg p) (fun _ => true) n
        | .plus => bitsOf (fun p => data p && neg p) (fun _ => true) n := by
  unfold bitsOf
  cases side with
  | both => rfl
  | minus =>
    simp only [select]
    generalize List.range n = l
    induction l with
    | nil => rfl
    | cons a l ih =>
      cases hd : data a <;> cases hn : neg a <;> simp_all
  | plus =>
    simp only [select]
    generalize List.range n = l
    induction l with
    | nil => rfl
    | cons a l ih =>
      cases hd : data a <;> cases hn : neg a <;> simp_all

theorem delivered64 (side : Side) (x d : W64) :
    delivered (read64 side x d) = select side (bitsOf (bothBit x d) (negBit x d) 32) := by
  have hdata : ∀ p, p < 32 → (x.setWidth 32 &&& d.setWidth 32 : W32).getLsbD p = bothBit x d p := by
    intro p hp
    rw [BitVec.getLsbD_and, BitVec.getLsbD_setWidth, BitVec.getLsbD_setWidth]
    simp [bothBit, hp]
  have hneg : ∀ p, p < 32 →
      ((x >>> 32).setWidth 32 ^^^ (d >>> 32).setWidth 32 : W32).getLsbD p = negBit x d p := by
    intro p hp
    rw [BitVec.getLsbD_xor, BitVec.getLsbD_setWidth, BitVec.getLsbD_setWidth,
      BitVec.getLsbD_ushiftRight, BitVec.getLsbD_ushiftRight]
    simp [negBit, hp]
  have hall : ∀ p, p < 32 → (0xffffffff#32).getLsbD p = true := by
    intro p hp
    have hall : ∀ q : Fin 32, (0xffffffff#32).getLsbD q.1 = true := by decide
    exact hall ⟨p, hp⟩
  unfold read64
  dsimp only
  rw [delivered_words, bitsOf_select]
  cases side with
  | both =>
    apply bitsOf_congr
    · intro p hp; exact hdata p hp
    · intro p hp _; exact hneg p hp
  | minus =>
    apply bitsOf_congr
    · intro p hp
      show ((x.setWidth 32 &&& d.setWidth 32 : W32) &&& ~~~_).getLsbD p = _
      rw [BitVec.getLsbD_and, BitVec.getLsbD_not, hdata p hp, hneg p hp]
      simp [hp]
    · intro p hp _; exact hall p hp
  | plus =>
    apply bitsOf_congr
    · intro p hp
      show ((x.setWidth 32 &&& d.setWidth 32 : W32) &&& _).getLsbD p = _
      rw [BitVec.getLsbD_and, hdata p hp, hneg p hp]
    · intro p hp _; exact hall p hp

/-! ### Words in a row -/

theorem bitsOf_add (data neg : ℕ → Bool) (a b : ℕ) :
    bitsOf data neg (a + b)
      = bitsOf data neg a ++ bitsOf (fun p => data (a + p)) (fun p => neg (a + p)) b := by
  unfold bitsOf
  rw [List.range_add, List.filter_append, List.map_append]
  congr 1
  rw [List.filter_map, List.map_map]
  rfl

theorem bitsOf_blocks (data neg : ℕ → Bool) (n : ℕ) :
    (List.range n).flatMap (fun u => bitsOf (fun p => data (32 * u + p)) (fun p => neg (32 * u + p)) 32)
      = bitsOf data neg (32 * n) := by
  induction n with
  | zero => rfl
  | succ n ih =>
    rw [List.range_succ, List.flatMap_append, ih, Nat.mul_succ, bitsOf_add]
    simp

theorem bitsOf_trains (data neg : ℕ → Bool) (len kc : ℕ → ℕ) (h0 : kc 0 = 0)
    (hs : ∀ b, kc (b + 1) = kc b + len b) (m : ℕ) :
    bitsOf data neg (kc m)
      = (List.range m).flatMap
          (fun b => bitsOf (fun k => data (kc b + k)) (fun k => neg (kc b + k)) (len b)) := by
  induction m with
  | zero => rw [h0]; rfl
  | succ m ih =>
    rw [hs, bitsOf_add, ih, List.range_succ, List.flatMap_append]
    simp

theorem bitsOf_none {data neg : ℕ → Bool} {n : ℕ} (h : ∀ p, p < n → data p = false) :
    bitsOf data neg n = [] := by
  unfold bitsOf
  rw [List.filter_eq_nil_iff.mpr]
  · rfl
  · intro p hp
    rw [h p (List.mem_range.mp hp)]
    simp

theorem bitsOf_sample {data neg : ℕ → Bool} {s : Sample}
    (h : ∀ k, k < s.slots → data k = decide (fires s.x k ∧ fires s.d k))
    (h' : ∀ k, k < s.slots → fires s.x k → fires s.d k → neg k = opposite s) :
    bitsOf data neg s.slots = pulses s := by
  unfold pulses coincidences bitsOf
  have e : (List.range s.slots).filter data
      = (List.range s.slots).filter fun k => decide (fires s.x k ∧ fires s.d k) := by
    apply List.filter_congr
    intro k hk
    exact h k (List.mem_range.mp hk)
  rw [e]
  apply map_const
  intro k hk
  rw [List.mem_filter, List.mem_range, decide_eq_true_eq] at hk
  exact h' k hk.1 hk.2.1 hk.2.2

theorem load64 {nb sz u i : ℕ} (hi : i < sz) :
    getIdxToLoad true u i sz nb (sz * 1) = i * nb + u := by
  have hs : 0 < sz := by omega
  unfold getIdxToLoad
  simp only [if_true, Nat.mul_one]
  rw [Nat.mul_comm _ sz, Nat.div_add_mod]
  ring

/-- The stream of the pulses of a cross-point in the 64-bit format. -/
theorem stream64 {xt dt ublm : Bool} {Ks : ℕ → ℕ} {Kmax xsz dsz m : ℕ} {x d : ℕ → Entry}
    (hmax : Kmax ≤ 31) (hK : ∀ b, b < m → getK ublm Ks Kmax b ≤ Kmax) {xops dops : List (ℕ × W64)}
    (hx : xops.Perm (launch64 xt ublm Ks Kmax xsz m x))
    (hd : dops.Perm (launch64 dt ublm Ks Kmax dsz m d))
    {i j : ℕ} (hi : i < xsz) (hj : j < dsz) (side : Side) :
    (reads64 side (readBatch64 ublm Ks Kmax m) xsz dsz (counts' xops) (counts' dops) i j).flatMap
        delivered
      = select side (train (samples xt dt xsz dsz m (getK ublm Ks Kmax) x d i j)) := by
  have hnb : readBatch64 ublm Ks Kmax m = getnB ublm Ks Kmax m := by
    rw [readBatch64_eq, getnB_eq]
  rw [hnb]
  set nB := getnB ublm Ks Kmax m with hnB
  have hKn : getKc ublm Ks Kmax m ≤ 32 * nB := by rw [hnB, getnB_eq]; omega
  let data : ℕ → Bool := fun P => bothBit (counts' xops (i * nB + P / 32))
    (counts' dops (j * nB + P / 32)) (P % 32)
  let neg : ℕ → Bool := fun P => negBit (counts' xops (i * nB + P / 32))
    (counts' dops (j * nB + P / 32)) (P % 32)
  unfold reads64
  rw [List.flatMap_map]
  have hstep : (List.range nB).flatMap (fun u => delivered (read64 side
        (counts' xops (getIdxToLoad true u i xsz nB (xsz * 1)))
        (counts' dops (getIdxToLoad true u j dsz nB (dsz * 1)))))
      = select side (bitsOf data neg (32 * nB)) := by
    rw [← bitsOf_blocks, select_flatMap]
    apply List.flatMap_congr
    intro u hu
    rw [delivered64, load64 hi, load64 hj]
    congr 1
    apply bitsOf_congr
    · intro p hp
      have h1 : (32 * u + p) / 32 = u := by omega
      have h2 : (32 * u + p) % 32 = p := by omega
      simp only [data, h1, h2]
    · intro p hp _
      have h1 : (32 * u + p) / 32 = u := by omega
      have h2 : (32 * u + p) % 32 = p := by omega
      simp only [neg, h1, h2]
  rw [hstep]
  congr 1
  obtain ⟨r, hr⟩ := Nat.exists_eq_add_of_le hKn
  rw [hr, bitsOf_add]
  have htail : bitsOf (fun p => data (getKc ublm Ks Kmax m + p))
      (fun p => neg (getKc ublm Ks Kmax m + p)) r = [] := by
    apply bitsOf_none
    intro p hp
    have hU : (getKc ublm Ks Kmax m + p) / 32 < nB := by omega
    have hz := (mem64 hmax hK hx hi hU (Nat.mod_lt (getKc ublm Ks Kmax m + p) (by omega))).2
      (by omega)
    simp only [data, bothBit]
    rw [← hnB] at hz
    rw [hz, Bool.false_and]
  rw [htail, List.append_nil, bitsOf_trains data neg (getK ublm Ks Kmax) (getKc ublm Ks Kmax)
    (getKc_zero _ _ _) (getKc_succ _ _ _)]
  unfold train samples
  rw [List.flatMap_map]
  apply List.flatMap_congr
  intro b hb
  have hb' := List.mem_range.mp hb
  have hpos : ∀ k, k < getK ublm Ks Kmax b → getKc ublm Ks Kmax b + k < getKc ublm Ks Kmax m := by
    intro k hk
    have := getKc_mono ublm Ks Kmax (show b + 1 ≤ m from hb')
    rw [getKc_succ] at this
    omega
  have hbits : ∀ k, k < getK ublm Ks Kmax b →
      data (getKc ublm Ks Kmax b + k)
          = decide (fires (x (place xt xsz m b i)) k ∧ fires (d (place dt dsz m b j)) k)
      ∧ neg (getKc ublm Ks Kmax b + k)
          = (signBit (x (place xt xsz m b i)) (getK ublm Ks Kmax b)
              != signBit (d (place dt dsz m b j)) (getK ublm Ks Kmax b)) := by
    intro k hk
    have hP := hpos k hk
    have hU : (getKc ublm Ks Kmax b + k) / 32 < nB := by omega
    have hm : (getKc ublm Ks Kmax b + k) % 32 < 32 := Nat.mod_lt _ (by omega)
    have h1 := (mem64 hmax hK hx hi hU hm).1 b k hb' hk (by omega)
    have h2 := (mem64 hmax hK hd hj hU hm).1 b k hb' hk (by omega)
    rw [← hnB] at h1 h2
    simp only [data, neg, bothBit, negBit]
    rw [h1.1, h1.2, h2.1, h2.2]
    exact ⟨by rw [Bool.decide_and], rfl⟩
  exact bitsOf_sample
    (s := ⟨x (place xt xsz m b i), d (place dt dsz m b j), getK ublm Ks Kmax b⟩)
    (fun k hk => (hbits k hk).1)
    (fun k hk hfx hfd => by
      rw [(hbits k hk).2]
      rw [signBit_eq (K := getK ublm Ks Kmax b) hk hfx, signBit_eq (K := getK ublm Ks Kmax b) hk hfd]
      rfl)

/-- The stream of the pulses of a cross-point in the 32-bit format. -/
theorem stream32 {xt dt o ublm : Bool} {Ks : ℕ → ℕ} {Kmax xsz dsz m : ℕ} {x d : ℕ → Entry}
    (hK : ∀ b, b < m → getK ublm Ks Kmax b ≤ Kmax) {xops dops : List (ℕ × W32)}
    (hx : xops.Perm (launch32 xt o ublm Ks Kmax xsz m x))
    (hd : dops.Perm (launch32 dt o ublm Ks Kmax dsz m d))
    {i j : ℕ} (hi : i < xsz) (hj : j < dsz) (side : Side) :
    (reads32 side o (nK32 Kmax) xsz dsz m (counts xops) (counts dops) i j).flatMap delivered
      = select side (train (samples xt dt xsz dsz m (getK ublm Ks Kmax) x d i j)) := by
  unfold reads32 train samples
  rw [List.flatMap_map, List.flatMap_map, select_flatMap]
  apply List.flatMap_congr
  intro b hb
  exact delivered32 hK hx hd (List.mem_range.mp hb) hi hj side

end Aihw.Gpu

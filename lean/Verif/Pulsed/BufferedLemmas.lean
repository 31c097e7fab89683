import Verif.Pulsed.Buffered
import Mathlib.Tactic.LinearCombination

/-!
# Lemmas for the buffered and chopped transfer compounds
-/
namespace Aihw.Pulsed

variable {K : Type} [Field K] [LinearOrder K] [IsStrictOrderedRing K] [FloorRing K]

/-! ## Truncation -/

theorem trunc0_abs_sub (x : K) : |x - (trunc0 x : K)| < 1 := by
  unfold trunc0
  split_ifs with h
  · rw [abs_lt]
    have := Int.floor_le x; have := Int.lt_floor_add_one x
    constructor <;> linarith
  · rw [abs_lt]
    have := Int.le_ceil x; have := Int.ceil_lt_add_one x
    constructor <;> linarith

theorem trunc0_bounds {x : K} {b : Nat} (h : |x| < (b : K) + 1) : |trunc0 x| ≤ (b : ℤ) := by
  rw [abs_lt] at h
  unfold trunc0
  split_ifs with h0
  · have h1 : ⌊x⌋ < (b : ℤ) + 1 := by
      rw [Int.floor_lt]; push_cast; exact h.2
    have h2 : 0 ≤ ⌊x⌋ := Int.floor_nonneg.2 h0
    rw [abs_le]; omega
  · have h1 : -((b : ℤ) + 1) < ⌈x⌉ := by
      rw [Int.lt_ceil]; push_cast; exact h.1
    have h2 : ⌈x⌉ ≤ 0 := Int.ceil_nonpos.2 (le_of_lt (not_le.1 h0))
    rw [abs_le]; omega

theorem trunc0_zero_of_lt {x : K} (h : |x| < 1) : trunc0 x = 0 := by
  have := trunc0_bounds (b := 0) (x := x) (by simpa using h)
  simpa using this

theorem trunc0_pos {x : K} (h : 1 ≤ x) : 1 ≤ trunc0 x := by
  unfold trunc0
  rw [if_pos (zero_le_one.trans h), Int.le_floor]
  exact_mod_cast h

theorem trunc0_neg {x : K} (h : x ≤ -1) : trunc0 x ≤ -1 := by
  unfold trunc0
  rw [if_neg (not_le.2 (lt_of_le_of_lt h (by norm_num))), Int.ceil_le]
  exact_mod_cast h

theorem clipSteps_id {b : Nat} {n : ℤ} (h : |n| ≤ (b : ℤ)) : clipSteps b n = n := by
  rw [abs_le] at h
  unfold clipSteps
  omega

theorem clipSteps_abs (b : Nat) (n : ℤ) : |clipSteps b n| ≤ (b : ℤ) := by
  unfold clipSteps
  rw [abs_le]; omega

theorem clipSteps_zero {b : Nat} (hb : 0 < b) (n : ℤ) : clipSteps b n = 0 ↔ n = 0 := by
  unfold clipSteps; omega

theorem clipSteps_pos {b : Nat} (hb : 0 < b) (n : ℤ) : 0 < clipSteps b n ↔ 0 < n := by
  unfold clipSteps; omega

theorem clipSteps_neg {b : Nat} (hb : 0 < b) (n : ℤ) : clipSteps b n < 0 ↔ n < 0 := by
  unfold clipSteps; omega

/-! ## Buffer layout -/

theorem cellOf_flat (p : BPar K) (i j : Nat) :
    p.cellOf (if p.cols then j else i) (if p.cols then i else j) = i * p.xSize + j := by
  unfold BPar.cellOf TPar.inSize
  by_cases h : p.cols = true
  · simp only [h, if_true]; ring
  · simp only [h, Bool.false_eq_true, if_false]; ring

theorem cellOf_inj (p : BPar K) {c c' o o' : Nat} (hc : c < p.inSize) (hc' : c' < p.inSize)
    (ho : o < p.outSize) (ho' : o' < p.outSize) (h : p.cellOf c o = p.cellOf c' o') :
    c = c' ∧ o = o' := by
  unfold BPar.cellOf at h
  unfold TPar.inSize TPar.outSize at *
  by_cases hp : p.cols = true
  · simp only [hp, if_true] at h hc hc'
    have h1 : c = c' := by
      have := congrArg (· % p.xSize) h
      simpa [Nat.add_mul_mod_self_right, Nat.mod_eq_of_lt hc, Nat.mod_eq_of_lt hc'] using this
    subst h1
    refine ⟨rfl, ?_⟩
    have : o * p.xSize = o' * p.xSize := by omega
    exact Nat.eq_of_mul_eq_mul_right (by omega) this
  · simp only [hp, Bool.false_eq_true, if_false] at h ho ho'
    have h1 : o = o' := by
      have := congrArg (· % p.xSize) h
      simpa [Nat.mul_add_mod, Nat.mod_eq_of_lt ho, Nat.mod_eq_of_lt ho'] using this
    subst h1
    refine ⟨?_, rfl⟩
    have : p.xSize * c = p.xSize * c' := by omega
    exact Nat.eq_of_mul_eq_mul_left (by omega) this

theorem setSlice_same (p : BPar K) {c o : Nat} (v b : Nat → K) (hc : c < p.inSize)
    (ho : o < p.outSize) : p.setSlice c v b (p.cellOf c o) = v o := by
  unfold BPar.setSlice
  cases hf : (List.range p.outSize).find? (fun o' => decide (p.cellOf c o' = p.cellOf c o)) with
  | none =>
    rw [List.find?_eq_none] at hf
    exact absurd (decide_eq_true rfl) (hf o (List.mem_range.2 ho))
  | some o' =>
    have h1 := List.mem_of_find?_eq_some hf
    have h2 := List.find?_some hf
    simp only [decide_eq_true_eq] at h2
    rw [(cellOf_inj p hc hc (List.mem_range.1 h1) ho h2).2]

theorem setSlice_other (p : BPar K) {c c' o : Nat} (v b : Nat → K) (hc : c < p.inSize)
    (hc' : c' < p.inSize) (hne : c' ≠ c) (ho : o < p.outSize) :
    p.setSlice c v b (p.cellOf c' o) = b (p.cellOf c' o) := by
  unfold BPar.setSlice
  cases hf : (List.range p.outSize).find? (fun o' => decide (p.cellOf c o' = p.cellOf c' o)) with
  | none => rfl
  | some o' =>
    have h1 := List.mem_of_find?_eq_some hf
    have h2 := List.find?_some hf
    simp only [decide_eq_true_eq] at h2
    exact absurd (cellOf_inj p hc hc' (List.mem_range.1 h1) ho h2).1.symm hne

/-! ## Invariants of an update -/

/-- What an invariant of the update cycle needs. -/
structure Inductive (v : Virt K) (F : Fns K) (p : TPar K) (u : Upd K) (Inv : BS K → Prop) :
    Prop where
  one : ∀ j, j < p.n → ∀ (n c : Nat) (s : BS K), c < p.inSize →
    v.skip (min (j + 1) (p.n - 1)) j (v.lrOf (min (j + 1) (p.n - 1)) j u.lr) = false → Inv s →
    Inv (v.one (min (j + 1) (p.n - 1)) j (v.lrOf (min (j + 1) (p.n - 1)) j u.lr) c (u.dr j n) s)
  slice : ∀ (s : BS K) (j i : Nat), Inv s → Inv (s.setSliceIdx j i)
  start : ∀ s : BS K, Inv s → Inv (v.begin F s u)
  red : ∀ s : BS K, Inv s → Inv (v.red s)

/-- The slice counters are only moved by `transfer` itself. -/
structure SliceFrame (v : Virt K) : Prop where
  one : ∀ dst src lr c w (s : BS K), (v.one dst src lr c w s).ts.slice = s.ts.slice
  red : ∀ s : BS K, (v.red s).ts.slice = s.ts.slice

theorem readAndUpdate_inv (v : Virt K) (F : Fns K) (p : TPar K) (u : Upd K) (Inv : BS K → Prop)
    (h : Inductive v F p u Inv) (hf : SliceFrame v) (j : Nat) (hj : j < p.n) (start nVec : Nat)
    (off : Nat) (hs : start + nVec ≤ p.inSize) (s : BS K) (hI : Inv s) :
    Inv (v.readAndUpdate (min (j + 1) (p.n - 1)) j (v.lrOf (min (j + 1) (p.n - 1)) j u.lr) start nVec
      (fun k => u.dr j (off + k)) s) ∧
    (v.readAndUpdate (min (j + 1) (p.n - 1)) j (v.lrOf (min (j + 1) (p.n - 1)) j u.lr) start nVec
      (fun k => u.dr j (off + k)) s).ts.slice = s.ts.slice := by
  unfold Virt.readAndUpdate
  by_cases hk : v.skip (min (j + 1) (p.n - 1)) j (v.lrOf (min (j + 1) (p.n - 1)) j u.lr) = true
  · rw [if_pos hk]; exact ⟨hI, rfl⟩
  · rw [if_neg hk]
    rw [Bool.not_eq_true] at hk
    have : ∀ l : List Nat, (∀ i ∈ l, i < nVec) → ∀ s : BS K, Inv s →
        Inv (l.foldl (fun s i => v.one (min (j + 1) (p.n - 1)) j
          (v.lrOf (min (j + 1) (p.n - 1)) j u.lr) (start + i) (u.dr j (off + i)) s) s) ∧
        (l.foldl (fun s i => v.one (min (j + 1) (p.n - 1)) j
          (v.lrOf (min (j + 1) (p.n - 1)) j u.lr) (start + i) (u.dr j (off + i)) s) s).ts.slice =
          s.ts.slice := by
      intro l
      induction l with
      | nil => intro _ s hI; exact ⟨hI, rfl⟩
      | cons i l ih =>
        intro hl s hI
        rw [List.foldl_cons]
        have hi := hl i (List.mem_cons_self ..)
        obtain ⟨a, b⟩ := ih (fun k hk => hl k (List.mem_cons_of_mem _ hk)) _
          (h.one j hj (off + i) (start + i) s (by omega) hk hI)
        exact ⟨a, b.trans (hf.one _ _ _ _ _ _)⟩
    exact this (List.range nVec) (fun i hi => List.mem_range.1 hi) s hI

theorem transfer_inv (v : Virt K) (F : Fns K) (p : TPar K) (u : Upd K) (Inv : BS K → Prop)
    (h : Inductive v F p u Inv) (hf : SliceFrame v) (hin : 0 < p.inSize) (j : Nat) (hj : j < p.n)
    (s : BS K) (hI : Inv s) (hs : ∀ k, s.ts.slice k < p.inSize) :
    Inv (v.transfer p (min (j + 1) (p.n - 1)) j u.lr (u.dr j) s) ∧
    ∀ k, (v.transfer p (min (j + 1) (p.n - 1)) j u.lr (u.dr j) s).ts.slice k < p.inSize := by
  have hsl := hs j
  unfold Virt.transfer
  by_cases hc : p.inSize - s.ts.slice j < min p.nReads p.inSize
  · simp only [hc, if_true]
    obtain ⟨a1, a2⟩ := readAndUpdate_inv v F p u Inv h hf j hj (s.ts.slice j)
      (p.inSize - s.ts.slice j) 0 (by omega) s hI
    simp only [Nat.zero_add] at a1 a2
    obtain ⟨b1, b2⟩ := readAndUpdate_inv v F p u Inv h hf j hj 0
      (min p.nReads p.inSize - (p.inSize - s.ts.slice j)) (p.inSize - s.ts.slice j) (by omega) _ a1
    refine ⟨h.slice _ _ _ b1, fun k => ?_⟩
    simp only [BS.setSliceIdx]
    split_ifs
    · exact Nat.mod_lt _ hin
    · rw [b2, a2]; exact hs k
  · simp only [hc, if_false]
    obtain ⟨a1, a2⟩ := readAndUpdate_inv v F p u Inv h hf j hj (s.ts.slice j)
      (min p.nReads p.inSize) 0 (by omega) s hI
    simp only [Nat.zero_add] at a1 a2
    refine ⟨h.slice _ _ _ a1, fun k => ?_⟩
    simp only [BS.setSliceIdx]
    split_ifs
    · exact Nat.mod_lt _ hin
    · rw [a2]; exact hs k

theorem update_inv (v : Virt K) (F : Fns K) (p : TPar K) (u : Upd K) (Inv : BS K → Prop)
    (h : Inductive v F p u Inv) (hf : SliceFrame v) (hin : 0 < p.inSize) (s : BS K) (hI : Inv s)
    (hs : ∀ k, s.ts.slice k < p.inSize) :
    Inv (v.update F p s u) ∧ ∀ k, (v.update F p s u).ts.slice k < p.inSize := by
  have key : ∀ l : List Nat, (∀ j ∈ l, j < p.n) → ∀ s : BS K, Inv s →
      (∀ k, s.ts.slice k < p.inSize) →
      Inv (l.foldl (v.maybe p u.lr u.mBatch u.dr) s) ∧
      ∀ k, (l.foldl (v.maybe p u.lr u.mBatch u.dr) s).ts.slice k < p.inSize := by
    intro l
    induction l with
    | nil => intro _ s hI hs; exact ⟨hI, hs⟩
    | cons j l ih =>
      intro hl s hI hs
      rw [List.foldl_cons]
      have hj := hl j (List.mem_cons_self ..)
      by_cases hc : 0 < v.ev j u.mBatch ∧ s.ts.idx % v.ev j u.mBatch = 0
      · have e : v.maybe p u.lr u.mBatch u.dr s j =
            v.transfer p (min (j + 1) (p.n - 1)) j u.lr (u.dr j) s := by
          unfold Virt.maybe; rw [if_pos hc]
        obtain ⟨a, b⟩ := transfer_inv v F p u Inv h hf hin j hj s hI hs
        rw [e]
        exact ih (fun k hk => hl k (List.mem_cons_of_mem _ hk)) _ a b
      · have e : v.maybe p u.lr u.mBatch u.dr s j = s := by
          unfold Virt.maybe; rw [if_neg hc]
        rw [e]
        exact ih (fun k hk => hl k (List.mem_cons_of_mem _ hk)) _ hI hs
  obtain ⟨a, b⟩ := key (List.range p.n) (fun j hj => List.mem_range.1 hj) (v.begin F s u)
    (h.start s hI) hs
  refine ⟨h.red _ a, fun k => ?_⟩
  show (v.red _).ts.slice k < _
  rw [hf.red]; exact b k

theorem bufFrame (F : Fns K) (p : BPar K) : SliceFrame (p.bufVirt F) where
  one := by
    intro dst src lr c w s
    simp only [BPar.bufVirt, BPar.bufOne]
    split_ifs <;> rfl
  red := fun s => rfl

theorem chopFrame (F : Fns K) (p : BPar K) (cnt : K) : SliceFrame (p.chopVirt F cnt) where
  one := by
    intro dst src lr c w s
    simp only [BPar.chopVirt, BPar.chopOne]
    split_ifs <;> rfl
  red := by
    intro s
    simp only [BPar.chopVirt, BPar.chopReduce]
    split_ifs <;> rfl

/-- Invariants of runs of the buffered class. -/
theorem bufRun_inv (F : Fns K) (p : BPar K) (Inv : BS K → Prop) (hin : 0 < p.inSize)
    (us : List (Upd K)) (h : ∀ u ∈ us, Inductive (p.bufVirt F) F p.toTPar u Inv) (s : BS K)
    (hI : Inv s) (hs : ∀ k, s.ts.slice k < p.inSize) :
    Inv (p.bufRun F s us) ∧ ∀ k, (p.bufRun F s us).ts.slice k < p.inSize := by
  induction us generalizing s with
  | nil => exact ⟨hI, hs⟩
  | cons u us ih =>
    obtain ⟨a, b⟩ := update_inv _ F p.toTPar u Inv (h u (List.mem_cons_self ..)) (bufFrame F p) hin
      s hI hs
    exact ih (fun v hv => h v (List.mem_cons_of_mem _ hv)) _ a b

/-- Invariants of runs of the chopped class. -/
theorem chopRun_inv (F : Fns K) (p : BPar K) (Inv : BS K → Prop) (hin : 0 < p.inSize)
    (us : List (Upd K × K)) (h : ∀ u ∈ us, Inductive (p.chopVirt F u.2) F p.toTPar u.1 Inv)
    (s : BS K) (hI : Inv s) (hs : ∀ k, s.ts.slice k < p.inSize) :
    Inv (p.chopRun F s us) ∧ ∀ k, (p.chopRun F s us).ts.slice k < p.inSize := by
  induction us generalizing s with
  | nil => exact ⟨hI, hs⟩
  | cons u us ih =>
    obtain ⟨a, b⟩ := update_inv _ F p.toTPar u.1 Inv (h u (List.mem_cons_self ..))
      (chopFrame F p u.2) hin s hI hs
    exact ih (fun v hv => h v (List.mem_cons_of_mem _ hv)) _ a b

end Aihw.Pulsed

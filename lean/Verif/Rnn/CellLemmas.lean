import Verif.Rnn.Props
import Mathlib.Algebra.BigOperators.Ring.Finset
import Mathlib.Algebra.BigOperators.Intervals
import Mathlib.Tactic.Ring
import Mathlib.Tactic.Linarith

/-!
# Lemmas on batches
-/
namespace Aihw.Rnn

variable {K E : Type}

/-- A batch of `m` rows with `n` columns. -/
def IsBat (A : Bat K) (m n : Nat) : Prop := A.length = m ∧ ∀ r ∈ A, r.length = n

/-- Entry of a batch. -/
def ent [Zero K] (A : Bat K) (b k : Nat) : K := (A.getD b []).getD k 0

theorem row_length {A : Bat K} {m n b : Nat} (h : IsBat A m n) (hb : b < m) : (A.getD b []).length = n := by
  rw [List.getD_eq_getElem _ _ (by rw [h.1]; exact hb)]
  exact h.2 _ (List.getElem_mem _)

theorem bat_ext [Zero K] {A B : Bat K} {m n : Nat} (hA : IsBat A m n) (hB : IsBat B m n)
    (h : ∀ b, b < m → ∀ k, k < n → ent A b k = ent B b k) : A = B := by
  apply List.ext_getElem (by rw [hA.1, hB.1])
  intro b h1 h2
  have hb : b < m := by rw [← hA.1]; exact h1
  have la := row_length hA hb
  have lb := row_length hB hb
  have key := h b hb
  unfold ent at key
  rw [List.getD_eq_getElem A _ h1] at la key
  rw [List.getD_eq_getElem B _ h2] at lb key
  apply List.ext_getElem (by rw [la, lb])
  intro k h3 h4
  have := key k (by omega)
  rwa [List.getD_eq_getElem _ _ h3, List.getD_eq_getElem _ _ h4] at this

theorem ent_eq [Zero K] (A : Bat K) (b k : Nat) (h : b < A.length) : ent A b k = A[b].getD k 0 := by
  unfold ent
  rw [List.getD_eq_getElem A _ h]

theorem bop_eq (f : K → K → K) {A B : Bat K} {m n : Nat} (hA : IsBat A m n) (hB : IsBat B m n) :
    bop f A B = .ok (List.zipWith (List.zipWith f) A B) := by
  unfold bop
  rw [if_neg, if_pos (by rw [hA.1, hB.1])]
  simp only [List.any_eq_true, not_exists, not_and, bne_iff_ne, ne_eq, not_not]
  intro r hr
  have hn : r.length = n := by
    rcases List.mem_append.1 hr with h | h
    · exact hA.2 r h
    · exact hB.2 r h
  rw [hn]
  cases A with
  | nil =>
    cases B with
    | nil => simp at hr
    | cons b B =>
      have h1 := hA.1
      have h2 := hB.1
      rw [List.length_nil] at h1
      rw [List.length_cons] at h2
      omega
  | cons a A => exact (hA.2 a (by simp)).symm

theorem bop_ok [Zero K] (f : K → K → K) {A B : Bat K} {m n : Nat} (hA : IsBat A m n) (hB : IsBat B m n) :
    ∃ C, bop f A B = .ok C ∧ IsBat C m n ∧ ∀ b, b < m → ∀ k, k < n → ent C b k = f (ent A b k) (ent B b k) := by
  refine ⟨_, bop_eq f hA hB, ⟨by simp [hA.1, hB.1], ?_⟩, ?_⟩
  · intro r hr
    obtain ⟨b, hb, rfl⟩ := List.getElem_of_mem hr
    rw [List.length_zipWith] at hb
    rw [List.getElem_zipWith, List.length_zipWith, hA.2 _ (List.getElem_mem _), hB.2 _ (List.getElem_mem _), Nat.min_self]
  · intro b hb k hk
    have h1 : b < A.length := by rw [hA.1]; exact hb
    have h2 : b < B.length := by rw [hB.1]; exact hb
    have l1 := hA.2 _ (List.getElem_mem h1)
    have l2 := hB.2 _ (List.getElem_mem h2)
    rw [ent_eq _ _ _ (by simp; omega), ent_eq A _ _ h1, ent_eq B _ _ h2, List.getElem_zipWith, List.getD_eq_getElem _ _ (by simp; omega), List.getD_eq_getElem _ _ (by omega),
      List.getD_eq_getElem _ _ (by omega), List.getElem_zipWith]

theorem uop_ok [Zero K] (f : K → K) {A : Bat K} {m n : Nat} (hA : IsBat A m n) :
    IsBat (uop f A) m n ∧ ∀ b, b < m → ∀ k, k < n → ent (uop f A) b k = f (ent A b k) := by
  unfold uop
  refine ⟨⟨by simp [hA.1], ?_⟩, ?_⟩
  · intro r hr
    obtain ⟨r', h, rfl⟩ := List.mem_map.1 hr
    rw [List.length_map]
    exact hA.2 _ h
  · intro b hb k hk
    have h1 : b < A.length := by rw [hA.1]; exact hb
    have l1 := hA.2 _ (List.getElem_mem h1)
    rw [ent_eq _ _ _ (by simp; omega), ent_eq A _ _ h1, List.getElem_map,
      List.getD_eq_getElem _ _ (by simp; omega), List.getD_eq_getElem _ _ (by omega), List.getElem_map]

theorem chunk_ok [Zero K] (c q : Nat) {A : Bat K} {m n : Nat} (hq : q < c) (hA : IsBat A m (c * n)) :
    IsBat (chunk c q A) m n ∧ ∀ b, b < m → ∀ k, k < n → ent (chunk c q A) b k = ent A b (q * n + k) := by
  have hc : 0 < c := by omega
  have hd : c * n / c = n := Nat.mul_div_cancel_left n hc
  have hle : q * n + n ≤ c * n := by
    calc q * n + n = (q + 1) * n := by ring
      _ ≤ c * n := Nat.mul_le_mul_right n hq
  unfold chunk
  refine ⟨⟨by simp [hA.1], ?_⟩, ?_⟩
  · intro r hr
    obtain ⟨r', h, rfl⟩ := List.mem_map.1 hr
    rw [hA.2 _ h, hd, List.length_take, List.length_drop, hA.2 _ h]
    omega
  · intro b hb k hk
    have h1 : b < A.length := by rw [hA.1]; exact hb
    have l1 := hA.2 _ (List.getElem_mem h1)
    rw [ent_eq _ _ _ (by simp; omega), ent_eq A _ _ h1, List.getElem_map, l1, hd]
    rw [List.getD_eq_getElem?_getD, List.getElem?_take, if_pos hk, List.getElem?_drop, ← List.getD_eq_getElem?_getD]

theorem zeros_ok [Zero K] (m n : Nat) : IsBat (zeros m n : Bat K) m n ∧ ∀ b k, ent (zeros m n : Bat K) b k = 0 := by
  unfold zeros
  refine ⟨⟨by simp, ?_⟩, ?_⟩
  · intro r hr
    rw [(List.mem_replicate.1 hr).2, List.length_replicate]
  · intro b k
    by_cases h : b < m
    · rw [ent_eq _ _ _ (by simpa using h), List.getElem_replicate]
      by_cases h' : k < n
      · rw [List.getD_eq_getElem _ _ (by simpa using h'), List.getElem_replicate]
      · rw [List.getD_eq_default _ _ (by simp; omega)]
    · unfold ent
      rw [List.getD_eq_default (List.replicate m (List.replicate n 0)) [] (by simp; omega)]
      rfl

/-! ## Cells on what the tiles return -/

theorem vanilla_ok [Zero K] [Add K] (τ : K → K) (wih whh : Lin K E) (e e1 e2 : E) (x h a b : Bat K) {m H : Nat}
    (h1 : wih e x = .ok (a, e1)) (h2 : whh e1 h = .ok (b, e2)) (ha : IsBat a m H) (hb : IsBat b m H) :
    ∃ y, vanillaCell τ wih whh e x h = .ok (y, y, e2) ∧ IsBat y m H ∧
      ∀ r, r < m → ∀ k, k < H → ent y r k = τ (ent a r k + ent b r k) := by
  obtain ⟨g, g1, g2, g3⟩ := bop_ok (· + ·) ha hb
  obtain ⟨u1, u2⟩ := uop_ok τ g2
  refine ⟨uop τ g, ?_, u1, ?_⟩
  · unfold vanillaCell
    simp only [h1, ok_bind, h2, g1]
    rfl
  · intro r hr k hk
    rw [u2 r hr k hk, g3 r hr k hk]

theorem lstmGates_ok [Zero K] [Add K] [Mul K] (σ τ : K → K) (g c : Bat K) {m H : Nat} (hg : IsBat g m (4 * H))
    (hc : IsBat c m H) :
    ∃ hy cy, lstmGates σ τ g c = .ok (hy, cy) ∧ IsBat hy m H ∧ IsBat cy m H ∧
      ∀ r, r < m → ∀ k, k < H →
        ent cy r k = σ (ent g r (H + k)) * ent c r k + σ (ent g r k) * τ (ent g r (2 * H + k)) ∧
        ent hy r k = σ (ent g r (3 * H + k)) * τ (ent cy r k) := by
  obtain ⟨i1, i2⟩ := chunk_ok 4 0 (n := H) (by omega) hg
  obtain ⟨f1, f2⟩ := chunk_ok 4 1 (n := H) (by omega) hg
  obtain ⟨c1, c2⟩ := chunk_ok 4 2 (n := H) (by omega) hg
  obtain ⟨o1, o2⟩ := chunk_ok 4 3 (n := H) (by omega) hg
  obtain ⟨i3, i4⟩ := uop_ok σ i1
  obtain ⟨f3, f4⟩ := uop_ok σ f1
  obtain ⟨c3, c4⟩ := uop_ok τ c1
  obtain ⟨o3, o4⟩ := uop_ok σ o1
  obtain ⟨fc, p1, p2, p3⟩ := bop_ok (· * ·) f3 hc
  obtain ⟨ig, q1, q2, q3⟩ := bop_ok (· * ·) i3 c3
  obtain ⟨cy, y1, y2, y3⟩ := bop_ok (· + ·) p2 q2
  obtain ⟨t1, t2⟩ := uop_ok τ y2
  obtain ⟨hy, z1, z2, z3⟩ := bop_ok (· * ·) o3 t1
  refine ⟨hy, cy, ?_, z2, y2, ?_⟩
  · unfold lstmGates
    simp only [p1, ok_bind, q1, y1, z1]
    rfl
  · intro r hr k hk
    rw [z3 r hr k hk, t2 r hr k hk, y3 r hr k hk, p3 r hr k hk, q3 r hr k hk, i4 r hr k hk, f4 r hr k hk, c4 r hr k hk,
      o4 r hr k hk, i2 r hr k hk, f2 r hr k hk, c2 r hr k hk, o2 r hr k hk]
    simp

theorem lstm_ok [Zero K] [Add K] [Mul K] (σ τ : K → K) (wih whh : Lin K E) (e e1 e2 : E) (x h c a b : Bat K) {m H : Nat}
    (h1 : wih e x = .ok (a, e1)) (h2 : whh e1 h = .ok (b, e2)) (ha : IsBat a m (4 * H)) (hb : IsBat b m (4 * H))
    (hc : IsBat c m H) :
    ∃ hy cy, lstmCell σ τ wih whh e x (h, c) = .ok (hy, (hy, cy), e2) ∧ IsBat hy m H ∧ IsBat cy m H ∧
      ∀ r, r < m → ∀ k, k < H →
        ent cy r k = σ (ent a r (H + k) + ent b r (H + k)) * ent c r k +
          σ (ent a r k + ent b r k) * τ (ent a r (2 * H + k) + ent b r (2 * H + k)) ∧
        ent hy r k = σ (ent a r (3 * H + k) + ent b r (3 * H + k)) * τ (ent cy r k) := by
  obtain ⟨g, g1, g2, g3⟩ := bop_ok (· + ·) ha hb
  obtain ⟨hy, cy, k1, k2, k3, k4⟩ := lstmGates_ok σ τ g c g2 hc
  refine ⟨hy, cy, ?_, k2, k3, ?_⟩
  · unfold lstmCell
    simp only [h1, ok_bind, h2, g1, k1]
    rfl
  · intro r hr k hk
    obtain ⟨m1, m2⟩ := k4 r hr k hk
    rw [g3 r hr _ (by omega), g3 r hr _ (by omega), g3 r hr _ (by omega)] at m1
    rw [g3 r hr _ (by omega)] at m2
    exact ⟨m1, m2⟩

theorem combined_ok [Zero K] [Add K] [Mul K] (σ τ : K → K) (w : Lin K E) (e e1 : E) (x h c xh g : Bat K) {m H : Nat}
    (h1 : catCols x h = .ok xh) (h2 : w e xh = .ok (g, e1)) (hg : IsBat g m (4 * H)) (hc : IsBat c m H) :
    ∃ hy cy, combinedCell σ τ w e x (h, c) = .ok (hy, (hy, cy), e1) ∧ IsBat hy m H ∧ IsBat cy m H ∧
      ∀ r, r < m → ∀ k, k < H →
        ent cy r k = σ (ent g r (H + k)) * ent c r k + σ (ent g r k) * τ (ent g r (2 * H + k)) ∧
        ent hy r k = σ (ent g r (3 * H + k)) * τ (ent cy r k) := by
  obtain ⟨hy, cy, k1, k2, k3, k4⟩ := lstmGates_ok σ τ g c hg hc
  refine ⟨hy, cy, ?_, k2, k3, k4⟩
  unfold combinedCell
  simp only [h1, ok_bind, h2, k1]
  rfl

theorem gru_ok [Zero K] [Add K] [Mul K] [Sub K] (σ τ : K → K) (wih whh : Lin K E) (e e1 e2 : E) (x h a b : Bat K)
    {m H : Nat} (h1 : wih e x = .ok (a, e1)) (h2 : whh e1 h = .ok (b, e2)) (ha : IsBat a m (3 * H))
    (hb : IsBat b m (3 * H)) (hh : IsBat h m H) :
    ∃ y, gruCell σ τ wih whh e x h = .ok (y, y, e2) ∧ IsBat y m H ∧
      ∀ r, r < m → ∀ k, k < H →
        let n := τ (ent a r (2 * H + k) + σ (ent a r k + ent b r k) * ent b r (2 * H + k))
        ent y r k = n + σ (ent a r (H + k) + ent b r (H + k)) * (ent h r k - n) := by
  obtain ⟨a1, a2⟩ := chunk_ok 3 0 (n := H) (by omega) ha
  obtain ⟨a3, a4⟩ := chunk_ok 3 1 (n := H) (by omega) ha
  obtain ⟨a5, a6⟩ := chunk_ok 3 2 (n := H) (by omega) ha
  obtain ⟨b1, b2⟩ := chunk_ok 3 0 (n := H) (by omega) hb
  obtain ⟨b3, b4⟩ := chunk_ok 3 1 (n := H) (by omega) hb
  obtain ⟨b5, b6⟩ := chunk_ok 3 2 (n := H) (by omega) hb
  obtain ⟨r, r1, r2, r3⟩ := bop_ok (· + ·) a1 b1
  obtain ⟨z, z1, z2, z3⟩ := bop_ok (· + ·) a3 b3
  obtain ⟨sr1, sr2⟩ := uop_ok σ r2
  obtain ⟨sz1, sz2⟩ := uop_ok σ z2
  obtain ⟨rn, rn1, rn2, rn3⟩ := bop_ok (· * ·) sr1 b5
  obtain ⟨n, n1, n2, n3⟩ := bop_ok (· + ·) a5 rn2
  obtain ⟨t1, t2⟩ := uop_ok τ n2
  obtain ⟨d, d1, d2, d3⟩ := bop_ok (· - ·) hh t1
  obtain ⟨zd, zd1, zd2, zd3⟩ := bop_ok (· * ·) sz1 d2
  obtain ⟨y, y1, y2, y3⟩ := bop_ok (· + ·) t1 zd2
  refine ⟨y, ?_, y2, ?_⟩
  · unfold gruCell
    simp only [h1, ok_bind, h2, r1, z1, rn1, n1, d1, zd1, y1]
    rfl
  · intro i hi k hk
    rw [y3 i hi k hk, zd3 i hi k hk, d3 i hi k hk, t2 i hi k hk, n3 i hi k hk, rn3 i hi k hk, sr2 i hi k hk,
      sz2 i hi k hk, r3 i hi k hk, z3 i hi k hk, a2 i hi k hk, a4 i hi k hk, a6 i hi k hk, b2 i hi k hk, b4 i hi k hk,
      b6 i hi k hk]
    simp

end Aihw.Rnn

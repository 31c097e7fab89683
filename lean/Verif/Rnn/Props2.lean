import Verif.Rnn.CellLemmas

/-!
# C58: cells
-/
namespace Aihw.Rnn

variable {K E : Type}

/-! ## Specification -/

/-- A linear layer (tile) of this size: it never fails for inputs of its size. -/
def Sized (w : Lin K E) (I O : Nat) : Prop :=
  ∀ (e : E) (x : Bat K) (m : Nat), IsBat x m I → ∃ y e', w e x = .ok (y, e') ∧ IsBat y m O

/-- The exact linear layer with weight `W` and bias `v`. -/
def linear [CommRing K] (I O : Nat) (W : Nat → Nat → K) (v : Nat → K) : Lin K E := fun e x =>
  if x.any (fun r => r.length != I) then .error .runtimeError
  else .ok (x.map fun r => (List.range O).map fun o => (∑ p ∈ Finset.range I, W o p * r.getD p 0) + v o, e)

/-- `W x + v` for row `r` of a batch and output `o`. -/
def affine [CommRing K] (I : Nat) (W : Nat → Nat → K) (v : Nat → K) (x : Bat K) (r o : Nat) : K :=
  (∑ p ∈ Finset.range I, W o p * ent x r p) + v o

theorem linear_ok [CommRing K] (I O : Nat) (W : Nat → Nat → K) (v : Nat → K) (e : E) (x : Bat K) (m : Nat)
    (hx : IsBat x m I) : ∃ y, linear I O W v e x = .ok (y, e) ∧ IsBat y m O ∧
      ∀ r, r < m → ∀ o, o < O → ent y r o = affine I W v x r o := by
  unfold linear
  rw [if_neg (by
    simp only [List.any_eq_true, not_exists, not_and, bne_iff_ne, ne_eq, not_not]
    exact hx.2)]
  refine ⟨_, rfl, ⟨by simp [hx.1], ?_⟩, ?_⟩
  · intro r hr
    obtain ⟨r', h, rfl⟩ := List.mem_map.1 hr
    simp
  · intro r hr o ho
    have h1 : r < x.length := by rw [hx.1]; exact hr
    rw [ent_eq _ _ _ (by simpa using h1), List.getElem_map, List.getD_eq_getElem _ _ (by simpa using ho), List.getElem_map,
      List.getElem_range]
    unfold affine
    simp only [ent_eq x r _ h1]

theorem linear_sized [CommRing K] (I O : Nat) (W : Nat → Nat → K) (v : Nat → K) : Sized (linear I O W v : Lin K E) I O := by
  intro e x m hx
  obtain ⟨y, h1, h2, -⟩ := linear_ok I O W v e x m hx
  exact ⟨y, e, h1, h2⟩

/-! ## Exact cells -/

section Exact
variable [CommRing K] (σ τ : K → K) (I H : Nat) (Wih Whh : Nat → Nat → K) (bih bhh : Nat → K)

/-- Specification: `W_ih x + b_ih + W_hh h + b_hh`. -/
def pre (x h : Bat K) (r o : Nat) : K := affine I Wih bih x r o + affine H Whh bhh h r o

/-- **C58 (vanilla cell).**  With exact tiles, `h' = tanh(W_ih x + b_ih + W_hh h + b_hh)`. -/
theorem C58_vanilla (e : E) (x h : Bat K) (m : Nat) (hx : IsBat x m I) (hh : IsBat h m H) :
    ∃ y, vanillaCell τ (linear I H Wih bih) (linear H H Whh bhh) e x h = .ok (y, y, e) ∧ IsBat y m H ∧
      ∀ r, r < m → ∀ k, k < H → ent y r k = τ (pre I H Wih Whh bih bhh x h r k) := by
  obtain ⟨a, a1, a2, a3⟩ := linear_ok I H Wih bih e x m hx
  obtain ⟨b, b1, b2, b3⟩ := linear_ok H H Whh bhh e h m hh
  obtain ⟨y, y1, y2, y3⟩ := vanilla_ok τ _ _ e e e x h a b a1 b1 a2 b2
  refine ⟨y, y1, y2, ?_⟩
  intro r hr k hk
  rw [y3 r hr k hk, a3 r hr k hk, b3 r hr k hk]
  rfl

/-- **C58 (LSTM cell).**  With exact tiles the cell is the LSTM with gates in the order input, forget, cell,
output: `c' = f * c + i * g` and `h' = o * tanh c'`. -/
theorem C58_lstm (e : E) (x h c : Bat K) (m : Nat) (hx : IsBat x m I) (hh : IsBat h m H) (hc : IsBat c m H) :
    ∃ hy cy, lstmCell σ τ (linear I (4 * H) Wih bih) (linear H (4 * H) Whh bhh) e x (h, c) = .ok (hy, (hy, cy), e) ∧
      IsBat hy m H ∧ IsBat cy m H ∧
      ∀ r, r < m → ∀ k, k < H →
        let i := σ (pre I H Wih Whh bih bhh x h r k)
        let f := σ (pre I H Wih Whh bih bhh x h r (H + k))
        let g := τ (pre I H Wih Whh bih bhh x h r (2 * H + k))
        let o := σ (pre I H Wih Whh bih bhh x h r (3 * H + k))
        ent cy r k = f * ent c r k + i * g ∧ ent hy r k = o * τ (ent cy r k) := by
  obtain ⟨a, a1, a2, a3⟩ := linear_ok I (4 * H) Wih bih e x m hx
  obtain ⟨b, b1, b2, b3⟩ := linear_ok H (4 * H) Whh bhh e h m hh
  obtain ⟨hy, cy, y1, y2, y3, y4⟩ := lstm_ok σ τ _ _ e e e x h c a b a1 b1 a2 b2 hc
  refine ⟨hy, cy, y1, y2, y3, ?_⟩
  intro r hr k hk
  obtain ⟨k1, k2⟩ := y4 r hr k hk
  rw [a3 r hr _ (by omega), b3 r hr _ (by omega), a3 r hr _ (by omega), b3 r hr _ (by omega), a3 r hr _ (by omega),
    b3 r hr _ (by omega)] at k1
  rw [a3 r hr _ (by omega), b3 r hr _ (by omega)] at k2
  exact ⟨k1, k2⟩

/-- **C58 (GRU cell).**  With exact tiles the cell is the GRU with gates in the order reset, update, new, the reset
gate acting on `W_hn h + b_hn`: `h' = (1 - z) * n + z * h`. -/
theorem C58_gru (e : E) (x h : Bat K) (m : Nat) (hx : IsBat x m I) (hh : IsBat h m H) :
    ∃ y, gruCell σ τ (linear I (3 * H) Wih bih) (linear H (3 * H) Whh bhh) e x h = .ok (y, y, e) ∧ IsBat y m H ∧
      ∀ r, r < m → ∀ k, k < H →
        let s := σ (pre I H Wih Whh bih bhh x h r k)
        let z := σ (pre I H Wih Whh bih bhh x h r (H + k))
        let n := τ (affine I Wih bih x r (2 * H + k) + s * affine H Whh bhh h r (2 * H + k))
        ent y r k = (1 - z) * n + z * ent h r k := by
  obtain ⟨a, a1, a2, a3⟩ := linear_ok I (3 * H) Wih bih e x m hx
  obtain ⟨b, b1, b2, b3⟩ := linear_ok H (3 * H) Whh bhh e h m hh
  obtain ⟨y, y1, y2, y3⟩ := gru_ok σ τ _ _ e e e x h a b a1 b1 a2 b2 hh
  refine ⟨y, y1, y2, ?_⟩
  intro r hr k hk
  have := y3 r hr k hk
  simp only at this
  rw [a3 r hr _ (by omega), b3 r hr _ (by omega), a3 r hr _ (by omega), b3 r hr _ (by omega), a3 r hr _ (by omega),
    b3 r hr _ (by omega)] at this
  simp only
  rw [this]
  unfold pre
  ring

/-- **C58 (combined weight).**  The cell with one tile for `[x, h]` equals the cell with two tiles when its weight is
`[W_ih | W_hh]` and its bias the sum of the two. -/
theorem C58_combined (e : E) (x h c : Bat K) (m : Nat) (hx : IsBat x m I) (hh : IsBat h m H) (hc : IsBat c m H) :
    combinedCell σ τ (linear (I + H) (4 * H) (fun o p => if p < I then Wih o p else Whh o (p - I))
        (fun o => bih o + bhh o)) e x (h, c) =
      lstmCell σ τ (linear I (4 * H) Wih bih) (linear H (4 * H) Whh bhh) e x (h, c) := by
  have hcat : catCols x h = .ok (List.zipWith (· ++ ·) x h) := (catCols_ok _ _ _).2 ⟨by rw [hx.1, hh.1], rfl⟩
  have hxh : IsBat (List.zipWith (· ++ ·) x h) m (I + H) := by
    refine ⟨by simp [hx.1, hh.1], ?_⟩
    intro r hr
    obtain ⟨b, hb, rfl⟩ := List.getElem_of_mem hr
    rw [List.length_zipWith] at hb
    rw [List.getElem_zipWith, List.length_append, hx.2 _ (List.getElem_mem _), hh.2 _ (List.getElem_mem _)]
  obtain ⟨g, g1, g2, g3⟩ := linear_ok (I + H) (4 * H) (fun o p => if p < I then Wih o p else Whh o (p - I))
    (fun o => bih o + bhh o) e _ m hxh
  obtain ⟨hy, cy, y1, y2, y3, y4⟩ := combined_ok σ τ _ e e x h c _ g hcat g1 g2 hc
  obtain ⟨hy', cy', z1, z2, z3, z4⟩ := C58_lstm σ τ I H Wih Whh bih bhh e x h c m hx hh hc
  have hg : ∀ r, r < m → ∀ o, o < 4 * H → ent g r o = pre I H Wih Whh bih bhh x h r o := by
    intro r hr o ho
    have r1 : r < x.length := by rw [hx.1]; exact hr
    have r2 : r < h.length := by rw [hh.1]; exact hr
    have l1 := hx.2 _ (List.getElem_mem r1)
    rw [g3 r hr o ho]
    unfold pre affine
    rw [Finset.sum_range_add]
    have s1 : ∑ p ∈ Finset.range I, (if p < I then Wih o p else Whh o (p - I)) * ent (List.zipWith (· ++ ·) x h) r p =
        ∑ p ∈ Finset.range I, Wih o p * ent x r p := by
      apply Finset.sum_congr rfl
      intro p hp
      have hp' := Finset.mem_range.1 hp
      rw [if_pos hp', ent_eq _ _ _ (by simp; omega), ent_eq x _ _ r1, List.getElem_zipWith, List.getD_append _ _ _ _ (by omega)]
    have s2 : ∑ p ∈ Finset.range H, (if I + p < I then Wih o (I + p) else Whh o (I + p - I)) *
          ent (List.zipWith (· ++ ·) x h) r (I + p) = ∑ p ∈ Finset.range H, Whh o p * ent h r p := by
      apply Finset.sum_congr rfl
      intro p hp
      rw [if_neg (by omega), ent_eq _ _ _ (by simp; omega), ent_eq h _ _ r2, List.getElem_zipWith,
        List.getD_append_right _ _ _ _ (by omega), l1, Nat.add_sub_cancel_left]
    rw [s1, s2]
    ring
  have hcy : cy = cy' := by
    apply bat_ext y3 z3
    intro r hr k hk
    rw [(y4 r hr k hk).1, (z4 r hr k hk).1, hg r hr _ (by omega), hg r hr _ (by omega), hg r hr _ (by omega)]
  have hhy : hy = hy' := by
    apply bat_ext y2 z2
    intro r hr k hk
    rw [(y4 r hr k hk).2, (z4 r hr k hk).2, hg r hr _ (by omega), hcy]
  rw [y1, z1, hcy, hhy]

end Exact

/-! ## Bounds, any tiles -/

theorem steps_inv {X S : Type} (cell : Cell X S E) (P : Nat → S → Prop) (In Out : X → Prop)
    (hc : ∀ t e x s, In x → P t s → ∃ y s' e', cell e x s = .ok (y, s', e') ∧ Out y ∧ P (t + 1) s')
    (xs : List X) (hx : ∀ x ∈ xs, In x) (t : Nat) (e : E) (s : S) (hs : P t s) :
    ∃ ys s' e', steps cell e s xs = .ok (ys, s', e') ∧ ys.length = xs.length ∧ (∀ y ∈ ys, Out y) ∧
      P (t + xs.length) s' := by
  induction xs generalizing t e s with
  | nil => exact ⟨[], s, e, rfl, rfl, by simp, hs⟩
  | cons x xs ih =>
    obtain ⟨y, s1, e1, h1, h2, h3⟩ := hc t e x s (hx x (by simp)) hs
    obtain ⟨ys, s2, e2, k1, k2, k3, k4⟩ := ih (fun x hx' => hx x (by simp [hx'])) (t + 1) e1 s1 h3
    refine ⟨y :: ys, s2, e2, (steps_cons _ _ _ _ _ _).2 ⟨y, s1, e1, ys, h1, k1, rfl⟩, by simp [k2], ?_, ?_⟩
    · intro z hz
      rcases List.mem_cons.1 hz with rfl | hz
      · exact h2
      · exact k3 z hz
    · have e' : t + (x :: xs).length = t + 1 + xs.length := by rw [List.length_cons]; omega
      rw [e']
      exact k4

theorem layers_inv {X S : Type} (cell : Cell X S E) (P : Nat → S → Prop) (In Out : X → Prop)
    (hc : ∀ t e x s, In x → P t s → ∃ y s' e', cell e x s = .ok (y, s', e') ∧ Out y ∧ P (t + 1) s')
    (xs : List X) (hne : xs ≠ []) (hx : ∀ x ∈ xs, In x) (e : E) (s : S) (hs : P 0 s) :
    (∃ ys s' e', uniLayer cell e s xs = .ok (ys, s', e') ∧ ys.length = xs.length ∧ (∀ y ∈ ys, Out y) ∧
      P xs.length s') ∧
    (∃ ys s' e', revLayer cell e s xs = .ok (ys, s', e') ∧ ys.length = xs.length ∧ (∀ y ∈ ys, Out y) ∧
      P xs.length s') := by
  constructor
  · obtain ⟨ys, s', e', h1, h2, h3, h4⟩ := steps_inv cell P In Out hc xs hx 0 e s hs
    rw [Nat.zero_add] at h4
    exact ⟨ys, s', e', (uniLayer_steps _ _ _ _ _).2 ⟨hne, h1⟩, h2, h3, h4⟩
  · obtain ⟨ys, s', e', h1, h2, h3, h4⟩ := steps_inv cell P In Out hc xs.reverse (by simpa using hx) 0 e s hs
    rw [Nat.zero_add, List.length_reverse] at h4
    refine ⟨ys.reverse, s', e', (revLayer_steps _ _ _ _ _ _).2 ⟨hne, by rw [List.reverse_reverse]; exact h1⟩, ?_, ?_, h4⟩
    · simpa using h2
    · simpa using h3

section Bounds
variable [Field K] [LinearOrder K] [IsStrictOrderedRing K]

/-- All entries of a batch of this size are at most `M` in absolute value. -/
def Bounded (A : Bat K) (m n : Nat) (M : K) : Prop := IsBat A m n ∧ ∀ r, r < m → ∀ k, k < n → |ent A r k| ≤ M

/-- The values of `sigmoid` and `tanh`. -/
def Squash (σ τ : K → K) : Prop := (∀ x, 0 ≤ σ x ∧ σ x ≤ 1) ∧ ∀ x, |τ x| ≤ 1

theorem mul_unit {a b M : K} (ha : 0 ≤ a ∧ a ≤ 1) (hb : |b| ≤ M) : |a * b| ≤ M := by
  rw [abs_mul, abs_of_nonneg ha.1]
  calc a * |b| ≤ 1 * |b| := mul_le_mul_of_nonneg_right ha.2 (abs_nonneg b)
    _ = |b| := one_mul _
    _ ≤ M := hb

/-- **C58 (vanilla layers are bounded).**  Whatever the tiles return, all outputs are in `[-1, 1]`. -/
theorem C58_vanilla_bound (σ τ : K → K) (hq : Squash σ τ) (I H m : Nat) (wih whh : Lin K E) (h1 : Sized wih I H)
    (h2 : Sized whh H H) (xs : List (Bat K)) (hne : xs ≠ []) (hx : ∀ x ∈ xs, IsBat x m I) (e : E) (h : Bat K)
    (hh : IsBat h m H) :
    (∃ ys s' e', uniLayer (vanillaCell τ wih whh) e h xs = .ok (ys, s', e') ∧ ys.length = xs.length ∧
      ∀ y ∈ ys, Bounded y m H 1) ∧
    (∃ ys s' e', revLayer (vanillaCell τ wih whh) e h xs = .ok (ys, s', e') ∧ ys.length = xs.length ∧
      ∀ y ∈ ys, Bounded y m H 1) := by
  obtain ⟨⟨ys, s, e1, a1, a2, a3, -⟩, ⟨ys', s', e1', b1, b2, b3, -⟩⟩ := layers_inv (vanillaCell τ wih whh)
    (fun _ s => IsBat s m H) (fun x => IsBat x m I) (fun y => Bounded y m H 1) (by
      intro t e x s hx hs
      obtain ⟨a, e1, k1, k2⟩ := h1 e x m hx
      obtain ⟨b, e2, k3, k4⟩ := h2 e1 s m hs
      obtain ⟨y, y1, y2, y3⟩ := vanilla_ok τ _ _ e e1 e2 x s a b k1 k3 k2 k4
      refine ⟨y, y, e2, y1, ⟨y2, ?_⟩, y2⟩
      intro r hr k hk
      rw [y3 r hr k hk]
      exact hq.2 _) xs hne hx e h hh
  exact ⟨⟨ys, s, e1, a1, a2, a3⟩, ⟨ys', s', e1', b1, b2, b3⟩⟩

/-- **C58 (LSTM layers are bounded).**  Whatever the tiles return, all outputs are in `[-1, 1]`, and after `T`
steps the cell state has grown by at most `T`. -/
theorem C58_lstm_bound (σ τ : K → K) (hq : Squash σ τ) (I H m : Nat) (wih whh : Lin K E) (h1 : Sized wih I (4 * H))
    (h2 : Sized whh H (4 * H)) (xs : List (Bat K)) (hne : xs ≠ []) (hx : ∀ x ∈ xs, IsBat x m I) (e : E) (h c : Bat K)
    (M : K) (hh : IsBat h m H) (hc : Bounded c m H M) :
    (∃ ys h' c' e', uniLayer (lstmCell σ τ wih whh) e (h, c) xs = .ok (ys, (h', c'), e') ∧ ys.length = xs.length ∧
      (∀ y ∈ ys, Bounded y m H 1) ∧ Bounded c' m H (M + xs.length)) ∧
    (∃ ys h' c' e', revLayer (lstmCell σ τ wih whh) e (h, c) xs = .ok (ys, (h', c'), e') ∧ ys.length = xs.length ∧
      (∀ y ∈ ys, Bounded y m H 1) ∧ Bounded c' m H (M + xs.length)) := by
  obtain ⟨⟨ys, s, e1, a1, a2, a3, a4⟩, ⟨ys', s', e1', b1, b2, b3, b4⟩⟩ := layers_inv (lstmCell σ τ wih whh)
    (fun t s => IsBat s.1 m H ∧ Bounded s.2 m H (M + t)) (fun x => IsBat x m I) (fun y => Bounded y m H 1) (by
      intro t e x s hx hs
      obtain ⟨hs1, hs2, hs3⟩ := hs
      obtain ⟨s1, s2⟩ := s
      obtain ⟨a, e1, k1, k2⟩ := h1 e x m hx
      obtain ⟨b, e2, k3, k4⟩ := h2 e1 s1 m hs1
      obtain ⟨y, c', y1, y2, y3, y4⟩ := lstm_ok σ τ _ _ e e1 e2 x s1 s2 a b k1 k3 k2 k4 hs2
      refine ⟨y, (y, c'), e2, y1, ⟨y2, ?_⟩, y2, y3, ?_⟩
      · intro r hr k hk
        rw [(y4 r hr k hk).2]
        exact mul_unit (hq.1 _) (hq.2 _)
      · intro r hr k hk
        simp only
        rw [(y4 r hr k hk).1]
        have u1 := mul_unit (hq.1 (ent a r (H + k) + ent b r (H + k))) (hs3 r hr k hk)
        have u2 := mul_unit (hq.1 (ent a r k + ent b r k)) (hq.2 (ent a r (2 * H + k) + ent b r (2 * H + k)))
        refine (abs_add_le _ _).trans ?_
        push_cast
        simp only at u1
        linarith) xs hne hx e (h, c) ⟨hh, by simpa using hc⟩
  exact ⟨⟨ys, s.1, s.2, e1, a1, a2, a3, a4.2⟩, ⟨ys', s'.1, s'.2, e1', b1, b2, b3, b4.2⟩⟩

/-- **C58 (GRU layers are bounded).**  Whatever the tiles return, outputs stay within `[-M, M]` if the initial state
does and `M ≥ 1`. -/
theorem C58_gru_bound (σ τ : K → K) (hq : Squash σ τ) (I H m : Nat) (wih whh : Lin K E) (h1 : Sized wih I (3 * H))
    (h2 : Sized whh H (3 * H)) (xs : List (Bat K)) (hne : xs ≠ []) (hx : ∀ x ∈ xs, IsBat x m I) (e : E) (h : Bat K)
    (M : K) (hM : 1 ≤ M) (hh : Bounded h m H M) :
    (∃ ys s' e', uniLayer (gruCell σ τ wih whh) e h xs = .ok (ys, s', e') ∧ ys.length = xs.length ∧
      ∀ y ∈ ys, Bounded y m H M) ∧
    (∃ ys s' e', revLayer (gruCell σ τ wih whh) e h xs = .ok (ys, s', e') ∧ ys.length = xs.length ∧
      ∀ y ∈ ys, Bounded y m H M) := by
  obtain ⟨⟨ys, s, e1, a1, a2, a3, -⟩, ⟨ys', s', e1', b1, b2, b3, -⟩⟩ := layers_inv (gruCell σ τ wih whh)
    (fun _ s => Bounded s m H M) (fun x => IsBat x m I) (fun y => Bounded y m H M) (by
      intro t e x s hx hs
      obtain ⟨a, e1, k1, k2⟩ := h1 e x m hx
      obtain ⟨b, e2, k3, k4⟩ := h2 e1 s m hs.1
      obtain ⟨y, y1, y2, y3⟩ := gru_ok σ τ _ _ e e1 e2 x s a b k1 k3 k2 k4 hs.1
      have hb : Bounded y m H M := by
        refine ⟨y2, ?_⟩
        intro r hr k hk
        have := y3 r hr k hk
        simp only at this
        rw [this]
        have u1 := hq.2 (ent a r (2 * H + k) + σ (ent a r k + ent b r k) * ent b r (2 * H + k))
        have u2 := hq.1 (ent a r (H + k) + ent b r (H + k))
        have u3 := hs.2 r hr k hk
        generalize τ (ent a r (2 * H + k) + σ (ent a r k + ent b r k) * ent b r (2 * H + k)) = n at u1 ⊢
        generalize σ (ent a r (H + k) + ent b r (H + k)) = z at u2 ⊢
        generalize ent s r k = w at u3 ⊢
        have e1 : n + z * (w - n) = (1 - z) * n + z * w := by ring
        rw [e1]
        refine (abs_add_le _ _).trans ?_
        rw [abs_mul, abs_mul, abs_of_nonneg u2.1, abs_of_nonneg (by linarith [u2.2] : (0 : K) ≤ 1 - z)]
        have v1 : (1 - z) * |n| ≤ (1 - z) * M := mul_le_mul_of_nonneg_left (u1.trans hM) (by linarith [u2.2])
        have v2 : z * |w| ≤ z * M := mul_le_mul_of_nonneg_left u3 u2.1
        calc (1 - z) * |n| + z * |w| ≤ (1 - z) * M + z * M := add_le_add v1 v2
          _ = M := by ring
      exact ⟨y, y, e2, y1, hb, hb⟩) xs hne hx e h hh
  exact ⟨⟨ys, s, e1, a1, a2, a3⟩, ⟨ys', s', e1', b1, b2, b3⟩⟩

end Bounds

end Aihw.Rnn

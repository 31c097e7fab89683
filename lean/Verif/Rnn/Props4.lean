import Verif.Rnn.Props3

/-!
# C58: samples of a batch are independent
-/
namespace Aihw.Rnn

variable {K E : Type} {S : Type}

/-- A tile that acts on every row of its input by `g`: no noise, nothing shared between rows. -/
def RowTile (w : Lin K E) (I O : Nat) (g : List K → List K) : Prop :=
  (∀ r, r.length = I → (g r).length = O) ∧ ∀ (e : E) (x : Bat K) (m : Nat), IsBat x m I → w e x = .ok (x.map g, e)

theorem linear_row [CommRing K] (I O : Nat) (W : Nat → Nat → K) (v : Nat → K) :
    RowTile (linear I O W v : Lin K E) I O
      (fun r => (List.range O).map fun o => (∑ p ∈ Finset.range I, W o p * r.getD p 0) + v o) := by
  refine ⟨fun r _ => by simp, ?_⟩
  intro e x m hx
  unfold linear
  rw [if_neg (by
    simp only [List.any_eq_true, not_exists, not_and, bne_iff_ne, ne_eq, not_not]
    exact hx.2)]

/-- Row `r` of a batch as a batch of its own. -/
def oneRow (r : Nat) (A : Bat K) : Bat K := [A.getD r []]

theorem oneRow_bat {A : Bat K} {m n r : Nat} (h : IsBat A m n) (hr : r < m) : IsBat (oneRow r A) 1 n := by
  refine ⟨rfl, ?_⟩
  intro q hq
  rw [List.mem_singleton.1 hq]
  exact row_length h hr

theorem ent_oneRow [Zero K] (A : Bat K) (r k : Nat) : ent (oneRow r A) 0 k = ent A r k := rfl

theorem oneRow_map {A : Bat K} {m n r : Nat} (g : List K → List K) (h : IsBat A m n) (hr : r < m) :
    (oneRow r A).map g = oneRow r (A.map g) := by
  unfold oneRow
  rw [List.map_singleton, List.getD_eq_getElem _ _ (by rw [h.1]; exact hr),
    List.getD_eq_getElem _ _ (by rw [List.length_map, h.1]; exact hr), List.getElem_map]

theorem map_bat {A : Bat K} {m I O : Nat} {g : List K → List K} (hg : ∀ r, r.length = I → (g r).length = O)
    (h : IsBat A m I) : IsBat (A.map g) m O := by
  refine ⟨by simp [h.1], ?_⟩
  intro q hq
  obtain ⟨q', hq', rfl⟩ := List.mem_map.1 hq
  exact hg _ (h.2 _ hq')

/-- The relation between a batch of `m` rows and its row `r` on its own. -/
def IsRow (m n r : Nat) (A A' : Bat K) : Prop := IsBat A m n ∧ A' = oneRow r A

/-- A cell whose outputs and states for one sample depend on this sample only. -/
def RowCell (c : Cell (Bat K) S E) (I H m r : Nat) (R : S → S → Prop) : Prop :=
  CellSim c c (IsRow m I r) (IsRow m H r) R (fun _ _ => True)

section Cells
variable [CommRing K]

theorem row_eq {y y' : Bat K} {m H r : Nat} (hr : r < m) (hy : IsBat y m H) (hy' : IsBat y' 1 H)
    (h : ∀ k, k < H → ent y' 0 k = ent y r k) : y' = oneRow r y := by
  apply bat_ext hy' (oneRow_bat hy hr)
  intro b hb k hk
  obtain rfl : b = 0 := by omega
  rw [h k hk, ent_oneRow]

theorem tile_row {w : Lin K E} {I O : Nat} {g : List K → List K} (hw : RowTile w I O g) {x : Bat K} {m r : Nat}
    (hx : IsBat x m I) (hr : r < m) (e e' : E) :
    ∃ a, w e x = .ok (a, e) ∧ w e' (oneRow r x) = .ok (oneRow r a, e') ∧ IsBat a m O ∧ IsBat (oneRow r a) 1 O := by
  refine ⟨x.map g, hw.2 e x m hx, ?_, map_bat hw.1 hx, oneRow_bat (map_bat hw.1 hx) hr⟩
  rw [hw.2 e' _ 1 (oneRow_bat hx hr), oneRow_map g hx hr]

theorem vanilla_row (τ : K → K) (I H m r : Nat) (hr : r < m) (wih whh : Lin K E) (g g' : List K → List K)
    (h1 : RowTile wih I H g) (h2 : RowTile whh H H g') :
    RowCell (vanillaCell τ wih whh) I H m r (IsRow m H r) := by
  rintro e e' x x' s s' - ⟨hx, rfl⟩ ⟨hs, rfl⟩
  obtain ⟨a, a1, a2, a3, a4⟩ := tile_row h1 hx hr e e'
  obtain ⟨b, b1, b2, b3, b4⟩ := tile_row h2 hs hr e e'
  obtain ⟨y, y1, y2, y3⟩ := vanilla_ok τ _ _ _ _ _ x s a b a1 b1 a3 b3
  obtain ⟨y', z1, z2, z3⟩ := vanilla_ok τ _ _ _ _ _ _ _ _ _ a2 b2 a4 b4
  have hyy : y' = oneRow r y := row_eq hr y2 z2 fun k hk => by
    rw [z3 0 (by omega) k hk, y3 r hr k hk, ent_oneRow, ent_oneRow]
  exact ⟨y, y, e, y', y', e', y1, z1, ⟨y2, hyy⟩, ⟨y2, hyy⟩, trivial⟩

/-- The relation for the two parts of an LSTM state. -/
def IsRow2 (m H r : Nat) (s s' : Bat K × Bat K) : Prop := IsRow m H r s.1 s'.1 ∧ IsRow m H r s.2 s'.2

theorem lstm_row (σ τ : K → K) (I H m r : Nat) (hr : r < m) (wih whh : Lin K E) (g g' : List K → List K)
    (h1 : RowTile wih I (4 * H) g) (h2 : RowTile whh H (4 * H) g') :
    RowCell (lstmCell σ τ wih whh) I H m r (IsRow2 m H r) := by
  rintro e e' x x' ⟨s1, s2⟩ ⟨s1', s2'⟩ - ⟨hx, rfl⟩ ⟨⟨hs, h3⟩, ⟨hc, h4⟩⟩
  simp only at hs hc h3 h4
  subst h3 h4
  obtain ⟨a, a1, a2, a3, a4⟩ := tile_row h1 hx hr e e'
  obtain ⟨b, b1, b2, b3, b4⟩ := tile_row h2 hs hr e e'
  obtain ⟨y, c, y1, y2, y3, y4⟩ := lstm_ok σ τ _ _ _ _ _ x s1 s2 a b a1 b1 a3 b3 hc
  obtain ⟨y', c', z1, z2, z3, z4⟩ := lstm_ok σ τ _ _ _ _ _ _ _ _ _ _ a2 b2 a4 b4 (oneRow_bat hc hr)
  have hcc : c' = oneRow r c := row_eq hr y3 z3 fun k hk => by
    rw [(z4 0 (by omega) k hk).1, (y4 r hr k hk).1]
    simp only [ent_oneRow]
  have hyy : y' = oneRow r y := row_eq hr y2 z2 fun k hk => by
    rw [(z4 0 (by omega) k hk).2, (y4 r hr k hk).2, hcc]
    simp only [ent_oneRow]
  exact ⟨y, (y, c), e, y', (y', c'), e', y1, z1, ⟨y2, hyy⟩, ⟨⟨y2, hyy⟩, ⟨y3, hcc⟩⟩, trivial⟩

theorem gru_row (σ τ : K → K) (I H m r : Nat) (hr : r < m) (wih whh : Lin K E) (g g' : List K → List K)
    (h1 : RowTile wih I (3 * H) g) (h2 : RowTile whh H (3 * H) g') :
    RowCell (gruCell σ τ wih whh) I H m r (IsRow m H r) := by
  rintro e e' x x' s s' - ⟨hx, rfl⟩ ⟨hs, rfl⟩
  obtain ⟨a, a1, a2, a3, a4⟩ := tile_row h1 hx hr e e'
  obtain ⟨b, b1, b2, b3, b4⟩ := tile_row h2 hs hr e e'
  obtain ⟨y, y1, y2, y3⟩ := gru_ok σ τ _ _ _ _ _ x s a b a1 b1 a3 b3 hs
  obtain ⟨y', z1, z2, z3⟩ := gru_ok σ τ _ _ _ _ _ _ _ _ _ a2 b2 a4 b4 (oneRow_bat hs hr)
  have hyy : y' = oneRow r y := row_eq hr y2 z2 fun k hk => by
    have u := z3 0 (by omega) k hk
    have v := y3 r hr k hk
    simp only [ent_oneRow] at u v
    rw [u, v]
  exact ⟨y, y, e, y', y', e', y1, z1, ⟨y2, hyy⟩, ⟨y2, hyy⟩, trivial⟩

/-- **C58 (cells treat samples separately).**  With tiles that act row by row (any deterministic tile, linear or
not), output and new state of sample `r` are those of the cell applied to sample `r` alone. -/
theorem C58_cell_rows (σ τ : K → K) (I H m r : Nat) (hr : r < m) (g g' : List K → List K) :
    (∀ wih whh : Lin K E, RowTile wih I H g → RowTile whh H H g' →
      RowCell (vanillaCell τ wih whh) I H m r (IsRow m H r)) ∧
    (∀ wih whh : Lin K E, RowTile wih I (4 * H) g → RowTile whh H (4 * H) g' →
      RowCell (lstmCell σ τ wih whh) I H m r (IsRow2 m H r)) ∧
    (∀ wih whh : Lin K E, RowTile wih I (3 * H) g → RowTile whh H (3 * H) g' →
      RowCell (gruCell σ τ wih whh) I H m r (IsRow m H r)) :=
  ⟨fun wih whh => vanilla_row τ I H m r hr wih whh g g', fun wih whh => lstm_row σ τ I H m r hr wih whh g g',
    fun wih whh => gru_row σ τ I H m r hr wih whh g g'⟩

end Cells

theorem forall₂_isRow {m n r : Nat} {xs xs' : List (Bat K)} :
    List.Forall₂ (IsRow m n r) xs xs' ↔ (∀ x ∈ xs, IsBat x m n) ∧ xs' = xs.map (oneRow r) := by
  constructor
  · intro h
    induction h with
    | nil => simp
    | cons h _ ih =>
      obtain ⟨h1, rfl⟩ := h
      obtain ⟨h2, rfl⟩ := ih
      exact ⟨by simpa using ⟨h1, h2⟩, rfl⟩
  · rintro ⟨h, rfl⟩
    induction xs with
    | nil => exact .nil
    | cons x xs ih => exact .cons ⟨h x (by simp), rfl⟩ (ih fun y hy => h y (by simp [hy]))

/-- **C58 (samples of a batch are independent).**  For stacks of unidirectional layers of cells that treat samples
separately, without active dropout: the outputs for sample `r` of a batch are those of the network applied to sample
`r` alone (with its states). -/
theorem C58_batch (num : Int) (drop : Option (Nat → List (Bat K) → List (Bat K))) (hd : NoDrop drop) (m I H r : Nat)
    (R : S → S → Prop) (c : Cell (Bat K) S E) (cs : List (Cell (Bat K) S E)) (hc : RowCell c I H m r R)
    (hcs : ∀ c ∈ cs, RowCell c H H m r R) (e : E) (es : List E) (he : es.length = cs.length) (ss ss' : List S)
    (hs : List.Forall₂ R ss ss') (hlen : cs.length < ss.length) (xs : List (Bat K)) (hne : xs ≠ [])
    (hx : ∀ x ∈ xs, IsBat x m I) :
    ∃ o ts fs ts' fs', modular num drop ss 0 (unis (c :: cs) (e :: es)) xs = .ok (o, ts, fs) ∧
      modular num drop ss' 0 (unis (c :: cs) (e :: es)) (xs.map (oneRow r)) = .ok (o.map (oneRow r), ts', fs') ∧
      List.Forall₂ R ts ts' ∧ ∀ y ∈ o, IsBat y m H := by
  have hll : (unis cs es).length = cs.length := by simp [unis, he]
  obtain ⟨o, ts, fs, o', ts', fs', h1, h2, h3, h4, h5, -, -⟩ := modular_sim (Re := fun _ _ => True) num drop drop
    (Ry := IsRow m H r) (by
      intro i z z' _ hzz
      rw [noDrop_eq hd, noDrop_eq hd]
      exact ⟨hzz, rfl⟩) ss ss' hs 0 (uniLayer c) (uniLayer c) (unis cs es) (unis cs es) e e trivial (uni_sim hc) (by
      rw [List.forall₂_same]
      intro p hp
      obtain ⟨i, hi, rfl⟩ := List.getElem_of_mem hp
      unfold unis at hi ⊢
      rw [List.getElem_zipWith]
      exact ⟨uni_sim (hcs _ (List.getElem_mem _)), trivial⟩) (by omega) xs (xs.map (oneRow r)) hne (forall₂_isRow.2 ⟨hx, rfl⟩)
  obtain ⟨k1, rfl⟩ := forall₂_isRow.1 h3
  exact ⟨o, ts, fs, ts', fs', h1, h2, h5, k1⟩

/-- **C58 (samples of a batch are independent, bidirectional).** -/
theorem C58_batch_bidir (num : Int) (drop : Option (Nat → List (Bat K) → List (Bat K))) (hd : NoDrop drop) (m I H r : Nat)
    (hr : r < m) (R : S → S → Prop) (c : Cell (Bat K) S E × Cell (Bat K) S E)
    (cs : List (Cell (Bat K) S E × Cell (Bat K) S E)) (hc : RowCell c.1 I H m r R ∧ RowCell c.2 I H m r R)
    (hcs : ∀ c ∈ cs, RowCell c.1 (2 * H) H m r R ∧ RowCell c.2 (2 * H) H m r R) (e : E × E) (es : List (E × E))
    (he : es.length = cs.length) (ss ss' : List (List S))
    (hs : List.Forall₂ (fun s s' => s.length = 2 ∧ List.Forall₂ R s s') ss ss') (hlen : cs.length < ss.length)
    (xs : List (Bat K)) (hne : xs ≠ []) (hx : ∀ x ∈ xs, IsBat x m I) :
    ∃ o ts fs ts' fs', modular num drop ss 0 (bidirs (c :: cs) (e :: es)) xs = .ok (o, ts, fs) ∧
      modular num drop ss' 0 (bidirs (c :: cs) (e :: es)) (xs.map (oneRow r)) = .ok (o.map (oneRow r), ts', fs') ∧
      List.Forall₂ (fun s s' => s.length = 2 ∧ List.Forall₂ R s s') ts ts' ∧ ∀ y ∈ o, IsBat y m (2 * H) := by
  have hll : (bidirs cs es).length = cs.length := by simp [bidirs, he]
  have hcat : ∀ a a' b b' : Bat K, IsRow m H r a a' → IsRow m H r b b' →
      ∃ z z', catCols a b = .ok z ∧ catCols a' b' = .ok z' ∧ IsRow m (2 * H) r z z' := by
    rintro a a' b b' ⟨ha, rfl⟩ ⟨hb, rfl⟩
    obtain ⟨h1, h2⟩ := catCols_bat a b ha hb
    obtain ⟨h3, h4⟩ := catCols_bat _ _ (oneRow_bat ha hr) (oneRow_bat hb hr)
    refine ⟨_, _, h1, h3, by rw [Nat.two_mul]; exact h2, ?_⟩
    have la : r < a.length := by rw [ha.1]; exact hr
    have lb : r < b.length := by rw [hb.1]; exact hr
    unfold oneRow
    rw [List.getD_eq_getElem _ _ la, List.getD_eq_getElem _ _ lb, List.getD_eq_getElem _ _ (by simp [la, lb]),
      List.getElem_zipWith]
    rfl
  obtain ⟨o, ts, fs, o', ts', fs', h1, h2, h3, h4, h5, -, -⟩ := modular_sim (Re := fun _ _ => True ∧ True) num drop drop
    (Ry := IsRow m (2 * H) r) (by
      intro i z z' _ hzz
      rw [noDrop_eq hd, noDrop_eq hd]
      exact ⟨hzz, rfl⟩) ss ss' hs 0 (bidirLayer c.1 c.2) (bidirLayer c.1 c.2) (bidirs cs es) (bidirs cs es) e e ⟨trivial, trivial⟩
      (bidir_sim hc.1 hc.2 hcat) (by
      rw [List.forall₂_same]
      intro p hp
      obtain ⟨i, hi, rfl⟩ := List.getElem_of_mem hp
      unfold bidirs at hi ⊢
      rw [List.getElem_zipWith]
      have hi2 : i < cs.length := by rw [List.length_zipWith] at hi; omega
      have := hcs _ (List.getElem_mem hi2)
      exact ⟨bidir_sim this.1 this.2 hcat, trivial, trivial⟩) (by omega) xs (xs.map (oneRow r)) hne
      (forall₂_isRow.2 ⟨hx, rfl⟩)
  obtain ⟨k1, rfl⟩ := forall₂_isRow.1 h3
  exact ⟨o, ts, fs, ts', fs', h1, h2, h5, k1⟩

/-- **C58 (zero state).**  Without states, the pass is that from the zero states for as many samples as the first batch
has rows; the zero state is all zero. -/
theorem C58_zero_state [Zero K] (num : Int) (drop : Option (Nat → List (Bat K) → List (Bat K)))
    (zero : Nat → List S) (layers : List (Layer (Bat K) S E × E)) (x : Bat K) (xs : List (Bat K)) (B H : Nat) :
    rnnForward num drop List.length zero layers none (x :: xs) =
      rnnForward num drop List.length zero layers (some (zero x.length)) (x :: xs) ∧
    IsBat (zeros B H : Bat K) B H ∧ ∀ b k, ent (zeros B H : Bat K) b k = 0 :=
  ⟨rfl, zeros_ok B H⟩

end Aihw.Rnn

import Verif.Rnn.Props2

/-!
# C58: shapes and batches of whole networks
-/
namespace Aihw.Rnn

variable {K E : Type} {X S : Type}

/-! ## Simulation -/

/-- Two cells respond to related arguments with related results. -/
def CellSim (c c' : Cell X S E) (Rx Ry : X → X → Prop) (Rs : S → S → Prop) (Re : E → E → Prop) : Prop :=
  ∀ e e' x x' s s', Re e e' → Rx x x' → Rs s s' → ∃ y t f y' t' f', c e x s = .ok (y, t, f) ∧
    c' e' x' s' = .ok (y', t', f') ∧ Ry y y' ∧ Rs t t' ∧ Re f f'

/-- Two layers respond to related sequences with related sequences. -/
def LayerSim (l l' : Layer X S E) (Rx Ry : X → X → Prop) (Rs : S → S → Prop) (Re : E → E → Prop) : Prop :=
  ∀ e e' xs xs' s s', xs ≠ [] → Re e e' → List.Forall₂ Rx xs xs' → Rs s s' → ∃ ys t f ys' t' f',
    l e s xs = .ok (ys, t, f) ∧ l' e' s' xs' = .ok (ys', t', f') ∧ List.Forall₂ Ry ys ys' ∧ Rs t t' ∧ Re f f' ∧
      ys.length = xs.length

theorem steps_sim {c c' : Cell X S E} {Rx Ry : X → X → Prop} {Rs : S → S → Prop} {Re : E → E → Prop}
    (h : CellSim c c' Rx Ry Rs Re) (xs xs' : List X) (hx : List.Forall₂ Rx xs xs') (e e' : E) (s s' : S)
    (he : Re e e') (hs : Rs s s') : ∃ ys t f ys' t' f', steps c e s xs = .ok (ys, t, f) ∧
      steps c' e' s' xs' = .ok (ys', t', f') ∧ List.Forall₂ Ry ys ys' ∧ Rs t t' ∧ Re f f' ∧ ys.length = xs.length := by
  induction hx generalizing e e' s s' with
  | nil => exact ⟨[], s, e, [], s', e', rfl, rfl, .nil, hs, he, rfl⟩
  | @cons x x' xs xs' hxx _ ih =>
    obtain ⟨y, t, f, y', t', f', h1, h2, h3, h4, h5⟩ := h e e' x x' s s' he hxx hs
    obtain ⟨ys, u, g, ys', u', g', k1, k2, k3, k4, k5, k6⟩ := ih f f' t t' h5 h4
    exact ⟨y :: ys, u, g, y' :: ys', u', g', (steps_cons _ _ _ _ _ _).2 ⟨y, t, f, ys, h1, k1, rfl⟩,
      (steps_cons _ _ _ _ _ _).2 ⟨y', t', f', ys', h2, k2, rfl⟩, .cons h3 k3, k4, k5, by simp [k6]⟩

theorem forall₂_ne {A B : Type} {R : A → B → Prop} {a : List A} {b : List B} (h : List.Forall₂ R a b) (ha : a ≠ []) :
    b ≠ [] := by
  rintro rfl
  cases h
  exact ha rfl

theorem uni_sim {c c' : Cell X S E} {Rx Ry : X → X → Prop} {Rs : S → S → Prop} {Re : E → E → Prop}
    (h : CellSim c c' Rx Ry Rs Re) : LayerSim (uniLayer c) (uniLayer c') Rx Ry Rs Re := by
  intro e e' xs xs' s s' hne he hx hs
  obtain ⟨ys, t, f, ys', t', f', h1, h2, h3, h4, h5, h6⟩ := steps_sim h xs xs' hx e e' s s' he hs
  exact ⟨ys, t, f, ys', t', f', (uniLayer_steps _ _ _ _ _).2 ⟨hne, h1⟩,
    (uniLayer_steps _ _ _ _ _).2 ⟨forall₂_ne hx hne, h2⟩, h3, h4, h5, h6⟩

theorem rev_sim {c c' : Cell X S E} {Rx Ry : X → X → Prop} {Rs : S → S → Prop} {Re : E → E → Prop}
    (h : CellSim c c' Rx Ry Rs Re) : LayerSim (revLayer c) (revLayer c') Rx Ry Rs Re := by
  intro e e' xs xs' s s' hne he hx hs
  obtain ⟨ys, t, f, ys', t', f', h1, h2, h3, h4, h5, h6⟩ := steps_sim h xs.reverse xs'.reverse
    (List.forall₂_reverse_iff.2 hx) e e' s s' he hs
  exact ⟨ys.reverse, t, f, ys'.reverse, t', f', (revLayer_steps _ _ _ _ _ _).2 ⟨hne, by rw [List.reverse_reverse]; exact h1⟩,
    (revLayer_steps _ _ _ _ _ _).2 ⟨forall₂_ne hx hne, by rw [List.reverse_reverse]; exact h2⟩,
    List.forall₂_reverse_iff.2 h3, h4, h5, by simpa using h6⟩

theorem catSeq_sim {Ry Rz : Bat K → Bat K → Prop}
    (hcat : ∀ a a' b b', Ry a a' → Ry b b' → ∃ z z', catCols a b = .ok z ∧ catCols a' b' = .ok z' ∧ Rz z z')
    (a a' b b' : List (Bat K)) (ha : List.Forall₂ Ry a a') (hb : List.Forall₂ Ry b b') (hl : a.length = b.length) :
    ∃ z z', catSeq a b = .ok z ∧ catSeq a' b' = .ok z' ∧ List.Forall₂ Rz z z' ∧ z.length = a.length := by
  have hl' : a'.length = b'.length := by rw [← ha.length_eq, ← hb.length_eq, hl]
  unfold catSeq
  rw [if_pos hl, if_pos hl']
  clear hl'
  induction ha generalizing b b' with
  | nil =>
    cases b with
    | nil =>
      cases hb
      exact ⟨[], [], rfl, rfl, .nil, rfl⟩
    | cons _ _ => simp at hl
  | @cons x x' a a' hxx _ ih =>
    cases hb with
    | nil => simp at hl
    | @cons w w' b b' hww hb =>
      obtain ⟨z, z', h1, h2, h3⟩ := hcat x x' w w' hxx hww
      obtain ⟨zs, zs', k1, k2, k3, k4⟩ := ih b b' hb (by simpa using hl)
      refine ⟨z :: zs, z' :: zs', ?_, ?_, .cons h3 k3, by simp [k4]⟩
      · rw [List.zip_cons_cons, List.mapM_cons]
        simp only [h1, k1, ok_bind]
        rfl
      · rw [List.zip_cons_cons, List.mapM_cons]
        simp only [h2, k2, ok_bind]
        rfl

theorem bidir_sim {cf cf' cb cb' : Cell (Bat K) S E} {Rx Ry Rz : Bat K → Bat K → Prop} {Rs : S → S → Prop}
    {Re : E → E → Prop} (hf : CellSim cf cf' Rx Ry Rs Re) (hb : CellSim cb cb' Rx Ry Rs Re)
    (hcat : ∀ a a' b b', Ry a a' → Ry b b' → ∃ z z', catCols a b = .ok z ∧ catCols a' b' = .ok z' ∧ Rz z z') :
    LayerSim (bidirLayer cf cb) (bidirLayer cf' cb') Rx Rz
      (fun ss ss' => ss.length = 2 ∧ List.Forall₂ Rs ss ss') (fun e e' => Re e.1 e'.1 ∧ Re e.2 e'.2) := by
  intro e e' xs xs' ss ss' hne he hx hs
  obtain ⟨hl, hs⟩ := hs
  obtain ⟨s, q, rfl⟩ := List.length_eq_two.1 hl
  cases hs with
  | @cons _ s' _ _ hs hq =>
    cases hq with
    | @cons _ q' _ _ hq hn =>
      cases hn
      obtain ⟨y, t, f, y', t', f', h1, h2, h3, h4, h5, h6⟩ := uni_sim hf e.1 e'.1 xs xs' s s' hne he.1 hx hs
      obtain ⟨w, u, g, w', u', g', k1, k2, k3, k4, k5, k6⟩ := rev_sim hb e.2 e'.2 xs xs' q q' hne he.2 hx hq
      obtain ⟨z, z', m1, m2, m3, m4⟩ := catSeq_sim hcat y y' w w' h3 k3 (by rw [h6, k6])
      refine ⟨z, [t, u], (f, g), z', [t', u'], (f', g'), ?_, ?_, m3, ⟨rfl, .cons h4 (.cons k4 .nil)⟩, ⟨h5, k5⟩,
        by rw [m4, h6]⟩
      · unfold bidirLayer
        simp only [h1, k1, m1, ok_bind]
        rfl
      · unfold bidirLayer
        simp only [h2, k2, m2, ok_bind]
        rfl

theorem modular_sim (num : Int) (drop drop' : Option (Nat → List X → List X)) {Rx Ry : X → X → Prop} {Rs : S → S → Prop}
    {Re : E → E → Prop} (hd : ∀ i z z', z ≠ [] → List.Forall₂ Ry z z' →
      List.Forall₂ Ry (dropped num drop i z) (dropped num drop' i z') ∧ (dropped num drop i z).length = z.length)
    (ss ss' : List S) (hs : List.Forall₂ Rs ss ss') (i : Nat) (l l' : Layer X S E) (ls ls' : List (Layer X S E × E))
    (e e' : E) (he : Re e e') (h0 : LayerSim l l' Rx Ry Rs Re)
    (hls : List.Forall₂ (fun p p' => LayerSim p.1 p'.1 Ry Ry Rs Re ∧ Re p.2 p'.2) ls ls') (hlen : i + ls.length < ss.length)
    (xs xs' : List X) (hne : xs ≠ []) (hx : List.Forall₂ Rx xs xs') :
    ∃ o ts es o' ts' es', modular num drop ss i ((l, e) :: ls) xs = .ok (o, ts, es) ∧
      modular num drop' ss' i ((l', e') :: ls') xs' = .ok (o', ts', es') ∧ List.Forall₂ Ry o o' ∧
      o.length = xs.length ∧ List.Forall₂ Rs ts ts' ∧ ts.length = ls.length + 1 ∧ List.Forall₂ Re es es' := by
  induction ls generalizing ls' i l l' e e' xs xs' Rx with
  | nil =>
    cases hls
    have hi : i < ss.length := by simpa using hlen
    have hi' : i < ss'.length := by rw [← hs.length_eq]; exact hi
    have hsi := List.forall₂_iff_get.1 hs |>.2 i hi hi'
    simp only [List.get_eq_getElem] at hsi
    obtain ⟨ys, t, f, ys', t', f', h1, h2, h3, h4, h5, h6⟩ := h0 e e' xs xs' _ _ hne he hx hsi
    have hyne : ys ≠ [] := by
      intro h; rw [h] at h6; exact hne (List.length_eq_zero_iff.1 h6.symm)
    obtain ⟨d1, d2⟩ := hd i ys ys' hyne h3
    refine ⟨dropped num drop i ys, [t], [f], dropped num drop' i ys', [t'], [f'], (modular_cons _ _ _ _ _ _ _ _ _).2 ⟨_, ys, t, f, [], [], List.getElem?_eq_getElem hi,
        h1, rfl, rfl⟩, (modular_cons _ _ _ _ _ _ _ _ _).2 ⟨_, ys', t', f', [], [], List.getElem?_eq_getElem hi', h2, rfl, rfl⟩,
      d1, by rw [d2, h6], .cons h4 .nil, rfl, .cons h5 .nil⟩
  | cons p ls ih =>
    cases hls with
    | @cons _ p' _ ls' hp hls =>
      obtain ⟨l2, e2⟩ := p
      obtain ⟨l2', e2'⟩ := p'
      rw [List.length_cons] at hlen
      have hi : i < ss.length := by omega
      have hi' : i < ss'.length := by rw [← hs.length_eq]; exact hi
      have hsi := List.forall₂_iff_get.1 hs |>.2 i hi hi'
      simp only [List.get_eq_getElem] at hsi
      obtain ⟨ys, t, f, ys', t', f', h1, h2, h3, h4, h5, h6⟩ := h0 e e' xs xs' _ _ hne he hx hsi
      have hyne : ys ≠ [] := by
        intro h; rw [h] at h6; exact hne (List.length_eq_zero_iff.1 h6.symm)
      obtain ⟨d1, d2⟩ := hd i ys ys' hyne h3
      have hdne : dropped num drop i ys ≠ [] := by
        intro h; rw [h] at d2; exact hyne (List.length_eq_zero_iff.1 d2.symm)
      obtain ⟨o, ts, es, o', ts', es', k1, k2, k3, k4, k5, k6, k7⟩ :=
        ih (i + 1) l2 l2' ls' e2 e2' hp.2 hp.1 hls (by omega) _ _ hdne d1
      refine ⟨o, t :: ts, f :: es, o', t' :: ts', f' :: es',
        (modular_cons _ _ _ _ _ _ _ _ _).2 ⟨_, ys, t, f, ts, es, List.getElem?_eq_getElem hi, h1, k1, rfl⟩,
        (modular_cons _ _ _ _ _ _ _ _ _).2 ⟨_, ys', t', f', ts', es', List.getElem?_eq_getElem hi', h2, k2, rfl⟩,
        k3, by rw [k4, d2, h6], .cons h4 k5, by simp [k6], .cons h5 k7⟩

/-! ## Shapes -/

/-- A cell for `I` inputs and `H` outputs whose states for `m` samples satisfy `P m`: it never fails. -/
def CellSized (c : Cell (Bat K) S E) (I H : Nat) (P : Nat → S → Prop) : Prop :=
  ∀ m e x s, IsBat x m I → P m s → ∃ y s' e', c e x s = .ok (y, s', e') ∧ IsBat y m H ∧ P m s'

/-- **C58 (cells keep shapes).**  With tiles of the right size no cell fails, and outputs and states have `H`
columns. -/
theorem C58_cell_shapes [Field K] (σ τ : K → K) (I H : Nat) :
    (∀ wih whh : Lin K E, Sized wih I H → Sized whh H H → CellSized (vanillaCell τ wih whh) I H fun m h => IsBat h m H) ∧
    (∀ wih whh : Lin K E, Sized wih I (4 * H) → Sized whh H (4 * H) →
      CellSized (lstmCell σ τ wih whh) I H fun m s => IsBat s.1 m H ∧ IsBat s.2 m H) ∧
    (∀ w : Lin K E, Sized w (I + H) (4 * H) →
      CellSized (combinedCell σ τ w) I H fun m s => IsBat s.1 m H ∧ IsBat s.2 m H) ∧
    (∀ wih whh : Lin K E, Sized wih I (3 * H) → Sized whh H (3 * H) →
      CellSized (gruCell σ τ wih whh) I H fun m h => IsBat h m H) := by
  refine ⟨?_, ?_, ?_, ?_⟩
  · intro wih whh h1 h2 m e x s hx hs
    obtain ⟨a, e1, k1, k2⟩ := h1 e x m hx
    obtain ⟨b, e2, k3, k4⟩ := h2 e1 s m hs
    obtain ⟨y, y1, y2, -⟩ := vanilla_ok τ _ _ e e1 e2 x s a b k1 k3 k2 k4
    exact ⟨y, y, e2, y1, y2, y2⟩
  · intro wih whh h1 h2 m e x s hx hs
    obtain ⟨s1, s2⟩ := s
    obtain ⟨a, e1, k1, k2⟩ := h1 e x m hx
    obtain ⟨b, e2, k3, k4⟩ := h2 e1 s1 m hs.1
    obtain ⟨y, c, y1, y2, y3, -⟩ := lstm_ok σ τ _ _ e e1 e2 x s1 s2 a b k1 k3 k2 k4 hs.2
    exact ⟨y, (y, c), e2, y1, y2, y2, y3⟩
  · intro w h1 m e x s hx hs
    obtain ⟨s1, s2⟩ := s
    have hcat : catCols x s1 = .ok (List.zipWith (· ++ ·) x s1) := (catCols_ok _ _ _).2 ⟨by rw [hx.1, hs.1.1], rfl⟩
    have hxh : IsBat (List.zipWith (· ++ ·) x s1) m (I + H) := by
      refine ⟨by simp [hx.1, hs.1.1], ?_⟩
      intro r hr
      obtain ⟨b, hb, rfl⟩ := List.getElem_of_mem hr
      rw [List.length_zipWith] at hb
      rw [List.getElem_zipWith, List.length_append, hx.2 _ (List.getElem_mem _), hs.1.2 _ (List.getElem_mem _)]
    obtain ⟨g, e1, k1, k2⟩ := h1 e _ m hxh
    obtain ⟨y, c, y1, y2, y3, -⟩ := combined_ok σ τ _ e e1 x s1 s2 _ g hcat k1 k2 hs.2
    exact ⟨y, (y, c), e1, y1, y2, y2, y3⟩
  · intro wih whh h1 h2 m e x s hx hs
    obtain ⟨a, e1, k1, k2⟩ := h1 e x m hx
    obtain ⟨b, e2, k3, k4⟩ := h2 e1 s m hs
    obtain ⟨y, y1, y2, -⟩ := gru_ok σ τ _ _ e e1 e2 x s a b k1 k3 k2 k4 hs
    exact ⟨y, y, e2, y1, y2, y2⟩

theorem sized_sim {c : Cell (Bat K) S E} {I H : Nat} {P : Nat → S → Prop} (h : CellSized c I H P) (m : Nat) :
    CellSim c c (fun x x' => x = x' ∧ IsBat x m I) (fun y y' => y = y' ∧ IsBat y m H) (fun s s' => s = s' ∧ P m s)
      (· = ·) := by
  rintro e e' x x' s s' rfl ⟨rfl, hx⟩ ⟨rfl, hs⟩
  obtain ⟨y, t, f, h1, h2, h3⟩ := h m e x s hx hs
  exact ⟨y, t, f, y, t, f, h1, h1, ⟨rfl, h2⟩, ⟨rfl, h3⟩, rfl⟩

theorem catCols_bat {m n k : Nat} (a b : Bat K) (ha : IsBat a m n) (hb : IsBat b m k) :
    catCols a b = .ok (List.zipWith (· ++ ·) a b) ∧ IsBat (List.zipWith (· ++ ·) a b) m (n + k) := by
  refine ⟨(catCols_ok _ _ _).2 ⟨by rw [ha.1, hb.1], rfl⟩, ⟨by simp [ha.1, hb.1], ?_⟩⟩
  intro r hr
  obtain ⟨i, hi, rfl⟩ := List.getElem_of_mem hr
  rw [List.length_zipWith] at hi
  rw [List.getElem_zipWith, List.length_append, ha.2 _ (List.getElem_mem _), hb.2 _ (List.getElem_mem _)]

theorem forall₂_diag {A : Type} {P : A → Prop} {l : List A} : List.Forall₂ (fun x x' => x = x' ∧ P x) l l ↔ ∀ x ∈ l, P x := by
  induction l with
  | nil => simp
  | cons a l ih => simp [ih]

theorem forall₂_diag' {A : Type} {P : A → Prop} {l l' : List A} (h : List.Forall₂ (fun x x' => x = x' ∧ P x) l l') :
    l = l' ∧ ∀ x ∈ l, P x := by
  induction h with
  | nil => simp
  | cons h _ ih =>
    obtain ⟨rfl, h⟩ := h
    obtain ⟨rfl, ih⟩ := ih
    exact ⟨rfl, by simpa using ⟨h, ih⟩⟩

theorem shapes_aux (num : Int) (drop : Option (Nat → List (Bat K) → List (Bat K))) (m I O : Nat) (P : S → Prop)
    (hd : ∀ i z, (∀ y ∈ z, IsBat y m O) → (∀ y ∈ dropped num drop i z, IsBat y m O) ∧
      (dropped num drop i z).length = z.length)
    (l : Layer (Bat K) S E) (ls : List (Layer (Bat K) S E × E)) (e : E)
    (h0 : LayerSim l l (fun x x' => x = x' ∧ IsBat x m I) (fun y y' => y = y' ∧ IsBat y m O) (fun s s' => s = s' ∧ P s) (· = ·))
    (hls : ∀ p ∈ ls, LayerSim p.1 p.1 (fun x x' => x = x' ∧ IsBat x m O) (fun y y' => y = y' ∧ IsBat y m O)
      (fun s s' => s = s' ∧ P s) (· = ·))
    (ss : List S) (hs : ∀ s ∈ ss, P s) (hlen : ls.length < ss.length) (xs : List (Bat K)) (hne : xs ≠ [])
    (hx : ∀ x ∈ xs, IsBat x m I) :
    ∃ o ts es, modular num drop ss 0 ((l, e) :: ls) xs = .ok (o, ts, es) ∧ o.length = xs.length ∧
      (∀ y ∈ o, IsBat y m O) ∧ ts.length = ls.length + 1 ∧ ∀ s ∈ ts, P s := by
  obtain ⟨o, ts, es, o', ts', es', h1, h2, h3, h4, h5, h6, h7⟩ := modular_sim (Re := (· = ·)) num drop drop
    (Ry := fun y y' => y = y' ∧ IsBat y m O) (by
      intro i z z' hz hzz
      obtain ⟨q1, q2⟩ := forall₂_diag' hzz
      subst q1
      obtain ⟨a, b⟩ := hd i z q2
      exact ⟨forall₂_diag.2 a, b⟩) ss ss (forall₂_diag.2 hs) 0 l l ls ls e e rfl h0 (by
      rw [List.forall₂_same]
      exact fun p hp => ⟨hls p hp, rfl⟩) (by omega) xs xs hne (forall₂_diag.2 hx)
  exact ⟨o, ts, es, h1, h4, (forall₂_diag' h3).2, h6, (forall₂_diag' h5).2⟩

/-- Dropout keeps shapes. -/
def DropShape (drop : Option (Nat → List (Bat K) → List (Bat K))) (m n : Nat) : Prop :=
  ∀ d, drop = some d → ∀ i z, (∀ y ∈ z, IsBat y m n) → (∀ y ∈ d i z, IsBat y m n) ∧ (d i z).length = z.length

theorem dropShape_ok {drop : Option (Nat → List (Bat K) → List (Bat K))} {m n : Nat} (h : DropShape drop m n) (num : Int)
    (i : Nat) (z : List (Bat K)) (hz : ∀ y ∈ z, IsBat y m n) :
    (∀ y ∈ dropped num drop i z, IsBat y m n) ∧ (dropped num drop i z).length = z.length := by
  unfold dropped
  by_cases hi : (i : Int) < num - 1
  · rw [if_pos hi]
    cases drop with
    | none => exact ⟨hz, rfl⟩
    | some d => exact h d rfl i z hz
  · rw [if_neg hi]
    exact ⟨hz, rfl⟩

/-- **C58 (shapes of stacks).**  A stack of unidirectional layers, the first cell for `I` inputs and the others for
`H`, never fails for a sequence of `T ≥ 1` batches of `m` rows and `I` columns and enough states, and returns `T`
batches of `m` rows and `H` columns and a state for every layer. -/
theorem C58_shapes (num : Int) (drop : Option (Nat → List (Bat K) → List (Bat K))) (m I H : Nat) (P : Nat → S → Prop)
    (hd : DropShape drop m H) (c : Cell (Bat K) S E) (cs : List (Cell (Bat K) S E)) (hc : CellSized c I H P)
    (hcs : ∀ c ∈ cs, CellSized c H H P) (e : E) (es : List E) (ss : List S) (hs : ∀ s ∈ ss, P m s)
    (hlen : cs.length < ss.length) (he : es.length = cs.length) (xs : List (Bat K)) (hne : xs ≠ [])
    (hx : ∀ x ∈ xs, IsBat x m I) :
    ∃ o ts fs, modular num drop ss 0 (unis (c :: cs) (e :: es)) xs = .ok (o, ts, fs) ∧ o.length = xs.length ∧
      (∀ y ∈ o, IsBat y m H) ∧ ts.length = cs.length + 1 ∧ ∀ s ∈ ts, P m s := by
  have hll : (unis cs es).length = cs.length := by simp [unis, he]
  obtain ⟨o, ts, fs, h1, h2, h3, h4, h5⟩ := shapes_aux num drop m I H (P m) (dropShape_ok hd num) (uniLayer c) (unis cs es) e
    (uni_sim (sized_sim hc m)) (by
      intro p hp
      obtain ⟨i, hi, rfl⟩ := List.getElem_of_mem hp
      unfold unis at hi ⊢
      rw [List.getElem_zipWith]
      exact uni_sim (sized_sim (hcs _ (List.getElem_mem _)) m)) ss hs (by omega) xs hne hx
  exact ⟨o, ts, fs, h1, h2, h3, by rw [h4, hll], h5⟩

/-- Bidirectional layers with these pairs of cells and environments. -/
def bidirs (cells : List (Cell (Bat K) S E × Cell (Bat K) S E)) (es : List (E × E)) :
    List (Layer (Bat K) (List S) (E × E) × (E × E)) :=
  List.zipWith (fun c e => (bidirLayer c.1 c.2, e)) cells es

theorem bidir_sized {cf cb : Cell (Bat K) S E} {I H : Nat} {P : Nat → S → Prop} (hf : CellSized cf I H P)
    (hb : CellSized cb I H P) (m : Nat) :
    LayerSim (bidirLayer cf cb) (bidirLayer cf cb) (fun x x' => x = x' ∧ IsBat x m I)
      (fun y y' => y = y' ∧ IsBat y m (2 * H)) (fun s s' => s = s' ∧ (s.length = 2 ∧ ∀ q ∈ s, P m q)) (· = ·) := by
  have h := bidir_sim (Rz := fun y y' => y = y' ∧ IsBat y m (2 * H)) (sized_sim hf m) (sized_sim hb m) (by
    rintro a a' b b' ⟨rfl, ha⟩ ⟨rfl, hb⟩
    obtain ⟨h1, h2⟩ := catCols_bat a b ha hb
    exact ⟨_, _, h1, h1, rfl, by rw [Nat.two_mul]; exact h2⟩)
  rintro e e' xs xs' s s' hne rfl hx ⟨rfl, hs1, hs2⟩
  obtain ⟨ys, t, f, ys', t', f', h1, h2, h3, h4, h5, h6⟩ := h e e xs xs' s s hne ⟨rfl, rfl⟩ hx ⟨hs1, forall₂_diag.2 hs2⟩
  obtain ⟨k1, k2⟩ := forall₂_diag' h4.2
  exact ⟨ys, t, f, ys', t', f', h1, h2, h3, ⟨k1, h4.1, k2⟩, Prod.ext h5.1 h5.2, h6⟩

/-- **C58 (shapes of bidirectional stacks).**  The same for bidirectional layers, whose outputs have `2 * H` columns;
a state consists of a state for each direction. -/
theorem C58_shapes_bidir (num : Int) (drop : Option (Nat → List (Bat K) → List (Bat K))) (m I H : Nat)
    (P : Nat → S → Prop) (hd : DropShape drop m (2 * H)) (c : Cell (Bat K) S E × Cell (Bat K) S E)
    (cs : List (Cell (Bat K) S E × Cell (Bat K) S E)) (hc : CellSized c.1 I H P ∧ CellSized c.2 I H P)
    (hcs : ∀ c ∈ cs, CellSized c.1 (2 * H) H P ∧ CellSized c.2 (2 * H) H P) (e : E × E) (es : List (E × E))
    (ss : List (List S)) (hs : ∀ s ∈ ss, s.length = 2 ∧ ∀ q ∈ s, P m q) (hlen : cs.length < ss.length)
    (he : es.length = cs.length) (xs : List (Bat K)) (hne : xs ≠ []) (hx : ∀ x ∈ xs, IsBat x m I) :
    ∃ o ts fs, modular num drop ss 0 (bidirs (c :: cs) (e :: es)) xs = .ok (o, ts, fs) ∧ o.length = xs.length ∧
      (∀ y ∈ o, IsBat y m (2 * H)) ∧ ts.length = cs.length + 1 ∧ ∀ s ∈ ts, s.length = 2 ∧ ∀ q ∈ s, P m q := by
  have hll : (bidirs cs es).length = cs.length := by simp [bidirs, he]
  obtain ⟨o, ts, fs, h1, h2, h3, h4, h5⟩ := shapes_aux num drop m I (2 * H) (fun s => s.length = 2 ∧ ∀ q ∈ s, P m q)
    (dropShape_ok hd num) (bidirLayer c.1 c.2) (bidirs cs es) e
    (bidir_sized hc.1 hc.2 m) (by
      intro p hp
      obtain ⟨i, hi, rfl⟩ := List.getElem_of_mem hp
      unfold bidirs at hi ⊢
      rw [List.getElem_zipWith]
      have hi2 : i < cs.length := by rw [List.length_zipWith] at hi; omega
      have := hcs _ (List.getElem_mem hi2)
      exact bidir_sized this.1 this.2 m) ss hs (by omega) xs hne hx
  exact ⟨o, ts, fs, h1, h2, h3, by rw [h4, hll], h5⟩

end Aihw.Rnn

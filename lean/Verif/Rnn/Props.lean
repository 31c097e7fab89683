import Verif.Rnn.Model
import Mathlib.Data.List.Forall2
import Mathlib.Data.List.GetD
import Mathlib.Tactic.SplitIfs

/-!
# C58: recurrent layers, any cell
-/
namespace Aihw.Rnn

theorem bind_ok {α β : Type} {a : Except PyErr α} {f : α → Except PyErr β} {y : β} :
    (a >>= f) = .ok y ↔ ∃ x, a = .ok x ∧ f x = .ok y := by
  cases a with
  | error e => simp [bind, Except.bind]
  | ok x => simp [bind, Except.bind]

theorem ok_bind {α β : Type} (x : α) (f : α → Except PyErr β) : ((Except.ok x : Except PyErr α) >>= f) = f x := rfl

variable {X S E : Type}

/-! ## Specification -/

/-- The outputs `ys` are those of the recurrence over time started in state `s`: a state `h t` for every time. -/
def Forward (cell : Cell X S E) (e : E) (s : S) (xs ys : List X) (s' : S) (e' : E) : Prop :=
  ∃ (h : Nat → S) (n : Nat → E), h 0 = s ∧ n 0 = e ∧ h xs.length = s' ∧ n xs.length = e' ∧ ys.length = xs.length ∧
    ∀ (t : Nat) (x : X), xs[t]? = some x → ∃ y, ys[t]? = some y ∧ cell (n t) x (h t) = .ok (y, h (t + 1), n (t + 1))

/-- The same backwards in time, from a state after the last input to one before the first. -/
def Backward (cell : Cell X S E) (e : E) (s : S) (xs ys : List X) (s' : S) (e' : E) : Prop :=
  ∃ (h : Nat → S) (n : Nat → E), h xs.length = s ∧ n xs.length = e ∧ h 0 = s' ∧ n 0 = e' ∧ ys.length = xs.length ∧
    ∀ (t : Nat) (x : X), xs[t]? = some x → ∃ y, ys[t]? = some y ∧ cell (n (t + 1)) x (h (t + 1)) = .ok (y, h t, n t)

/-! ## Loop -/

theorem steps_nil (cell : Cell X S E) (e : E) (s : S) : steps cell e s [] = .ok ([], s, e) := rfl

theorem steps_cons (cell : Cell X S E) (e : E) (s : S) (x : X) (xs : List X) (r : List X × S × E) :
    steps cell e s (x :: xs) = .ok r ↔
      ∃ y s1 e1 ys, cell e x s = .ok (y, s1, e1) ∧ steps cell e1 s1 xs = .ok (ys, r.2) ∧ r.1 = y :: ys := by
  conv_lhs => unfold steps
  rw [bind_ok]
  constructor
  · rintro ⟨⟨y, s1, e1⟩, h1, h2⟩
    rw [bind_ok] at h2
    obtain ⟨⟨ys, q⟩, h3, h4⟩ := h2
    cases h4
    exact ⟨y, s1, e1, ys, h1, h3, rfl⟩
  · rintro ⟨y, s1, e1, ys, h1, h2, h3⟩
    refine ⟨_, h1, ?_⟩
    rw [bind_ok]
    refine ⟨_, h2, ?_⟩
    obtain ⟨r1, r2⟩ := r
    simp only at h3
    rw [h3]
    rfl

theorem steps_length (cell : Cell X S E) (e : E) (s : S) (xs : List X) (r : List X × S × E)
    (h : steps cell e s xs = .ok r) : r.1.length = xs.length := by
  induction xs generalizing e s r with
  | nil => cases h; rfl
  | cons x xs ih =>
    obtain ⟨y, s1, e1, ys, h1, h2, h3⟩ := (steps_cons cell e s x xs r).1 h
    rw [h3, List.length_cons, List.length_cons, ih _ _ _ h2]

theorem steps_append (cell : Cell X S E) (e : E) (s : S) (xs ys : List X) (r : List X × S × E) :
    steps cell e s (xs ++ ys) = .ok r ↔
      ∃ a s1 e1 b, steps cell e s xs = .ok (a, s1, e1) ∧ steps cell e1 s1 ys = .ok (b, r.2) ∧ r.1 = a ++ b := by
  induction xs generalizing e s r with
  | nil =>
    constructor
    · intro h
      exact ⟨[], s, e, r.1, rfl, h, rfl⟩
    · rintro ⟨a, s1, e1, b, h1, h2, h3⟩
      cases h1
      simp only [List.nil_append] at h3 ⊢
      rw [h2, ← h3]
  | cons x xs ih =>
    rw [List.cons_append, steps_cons]
    constructor
    · rintro ⟨y, s1, e1, o, h1, h2, h3⟩
      obtain ⟨a, s2, e2, b, k1, k2, k3⟩ := (ih e1 s1 _).1 h2
      simp only at k2 k3
      refine ⟨y :: a, s2, e2, b, (steps_cons _ _ _ _ _ _).2 ⟨y, s1, e1, a, h1, k1, rfl⟩, k2, ?_⟩
      rw [h3, k3, List.cons_append]
    · rintro ⟨a, s2, e2, b, h1, h2, h3⟩
      obtain ⟨y, s1, e1, a', k1, k2, k3⟩ := (steps_cons _ _ _ _ _ _).1 h1
      simp only at k2 k3
      refine ⟨y, s1, e1, a' ++ b, k1, (ih e1 s1 _).2 ⟨a', s2, e2, b, k2, h2, rfl⟩, ?_⟩
      rw [h3, k3, List.cons_append]

theorem steps_forward (cell : Cell X S E) (e : E) (s : S) (xs ys : List X) (s' : S) (e' : E) :
    steps cell e s xs = .ok (ys, s', e') ↔ Forward cell e s xs ys s' e' := by
  induction xs generalizing e s ys with
  | nil =>
    constructor
    · intro h
      cases h
      exact ⟨fun _ => s', fun _ => e', rfl, rfl, rfl, rfl, rfl, fun t x hx => by simp at hx⟩
    · rintro ⟨h, n, rfl, rfl, rfl, rfl, h1, _⟩
      have : ys = [] := List.length_eq_zero_iff.1 (by simpa using h1)
      rw [this]
      rfl
  | cons x xs ih =>
    rw [steps_cons]
    constructor
    · rintro ⟨y, s1, e1, zs, h1, h2, h3⟩
      obtain ⟨h, n, k1, k2, k3, k4, k5, k6⟩ := (ih _ _ _).1 h2
      simp only at h3
      refine ⟨fun t => if t = 0 then s else h (t - 1), fun t => if t = 0 then e else n (t - 1), rfl, rfl, ?_, ?_, ?_,
        ?_⟩
      · simpa using k3
      · simpa using k4
      · rw [h3]; simpa using k5
      · intro t x' hx
        cases t with
        | zero =>
          simp only [List.getElem?_cons_zero, Option.some.injEq] at hx
          subst hx
          refine ⟨y, by rw [h3]; rfl, ?_⟩
          simpa [k1, k2] using h1
        | succ t =>
          rw [List.getElem?_cons_succ] at hx
          obtain ⟨y', m1, m2⟩ := k6 t x' hx
          refine ⟨y', by rw [h3]; simpa using m1, ?_⟩
          simpa using m2
    · rintro ⟨h, n, rfl, rfl, rfl, rfl, h1, h2⟩
      obtain ⟨y, m1, m2⟩ := h2 0 x rfl
      cases ys with
      | nil => simp at h1
      | cons y' zs =>
        simp only [List.getElem?_cons_zero, Option.some.injEq] at m1
        subst m1
        refine ⟨y', h 1, n 1, zs, m2, (ih _ _ _).2 ⟨fun t => h (t + 1), fun t => n (t + 1), rfl, rfl, rfl, rfl, ?_, ?_⟩,
          rfl⟩
        · simpa using h1
        · intro t x' hx
          obtain ⟨y, m1, m2⟩ := h2 (t + 1) x' (by simpa using hx)
          exact ⟨y, by simpa using m1, m2⟩

theorem stackSeq_ok (ys zs : List X) : stackSeq ys = .ok zs ↔ ys ≠ [] ∧ zs = ys := by
  unfold stackSeq
  cases ys with
  | nil => simp
  | cons y ys => simp [eq_comm]

theorem uniLayer_steps (cell : Cell X S E) (e : E) (s : S) (xs : List X) (r : List X × S × E) :
    uniLayer cell e s xs = .ok r ↔ xs ≠ [] ∧ steps cell e s xs = .ok r := by
  unfold uniLayer
  rw [bind_ok]
  constructor
  · rintro ⟨⟨a, q⟩, h1, h2⟩
    rw [bind_ok] at h2
    obtain ⟨b, h3, h4⟩ := h2
    cases h4
    obtain ⟨h5, rfl⟩ := (stackSeq_ok _ _).1 h3
    refine ⟨?_, h1⟩
    rintro rfl
    cases h1
    exact h5 rfl
  · rintro ⟨h1, h2⟩
    refine ⟨r, h2, ?_⟩
    rw [bind_ok]
    refine ⟨r.1, (stackSeq_ok _ _).2 ⟨?_, rfl⟩, rfl⟩
    have := steps_length _ _ _ _ _ h2
    intro h
    rw [h] at this
    exact h1 (List.length_eq_zero_iff.1 this.symm)

theorem revLayer_steps (cell : Cell X S E) (e : E) (s : S) (xs : List X) (ys : List X) (q : S × E) :
    revLayer cell e s xs = .ok (ys, q) ↔ xs ≠ [] ∧ steps cell e s xs.reverse = .ok (ys.reverse, q) := by
  unfold revLayer
  rw [bind_ok]
  constructor
  · rintro ⟨⟨a, q⟩, h1, h2⟩
    rw [bind_ok] at h2
    obtain ⟨b, h3, h4⟩ := h2
    cases h4
    obtain ⟨h5, rfl⟩ := (stackSeq_ok _ _).1 h3
    refine ⟨?_, by rw [List.reverse_reverse]; exact h1⟩
    rintro rfl
    cases h1
    exact h5 rfl
  · rintro ⟨h1, h2⟩
    refine ⟨_, h2, ?_⟩
    rw [bind_ok]
    refine ⟨ys, (stackSeq_ok _ _).2 ⟨?_, by rw [List.reverse_reverse]⟩, rfl⟩
    have := steps_length _ _ _ _ _ h2
    intro h
    simp only at h this
    rw [List.reverse_reverse] at h
    rw [h] at this
    simp only [List.reverse_nil, List.length_nil, List.length_reverse] at this
    exact h1 (List.length_eq_zero_iff.1 this.symm)

/-! ## Theorems -/

/-- **C58 (a layer is a recurrence).**  For every cell, environment, state and inputs: the forward pass succeeds
with these outputs and this final state exactly if the inputs are not empty and the outputs satisfy the recurrence,
output `t` being the output of the cell for input `t` and the state after the inputs before `t`. -/
theorem C58_forward_layer (cell : Cell X S E) (e : E) (s : S) (xs ys : List X) (s' : S) (e' : E) :
    uniLayer cell e s xs = .ok (ys, s', e') ↔ xs ≠ [] ∧ Forward cell e s xs ys s' e' := by
  rw [uniLayer_steps, steps_forward]

/-- **C58 (a reverse layer is the recurrence backwards in time).**  Output `t` is the output of the cell for input
`t` and the state after the inputs behind `t`. -/
theorem C58_reverse_layer (cell : Cell X S E) (e : E) (s : S) (xs ys : List X) (s' : S) (e' : E) :
    revLayer cell e s xs = .ok (ys, s', e') ↔ xs ≠ [] ∧ Backward cell e s xs ys s' e' := by
  rw [revLayer_steps, steps_forward]
  refine and_congr_right fun _ => ?_
  have key : ∀ (l : List X) (t : Nat), t < l.length → l.reverse[l.length - 1 - t]? = l[t]? := by
    intro l t ht
    rw [List.getElem?_reverse (by omega)]
    congr 1
    omega
  constructor
  · rintro ⟨h, n, h1, h2, h3, h4, h5, h6⟩
    simp only [List.length_reverse] at h3 h4 h5
    refine ⟨fun t => h (xs.length - t), fun t => n (xs.length - t), by simpa using h1, by simpa using h2, by simpa using h3,
      by simpa using h4, h5, ?_⟩
    intro t x hx
    have ht : t < xs.length := (List.getElem?_eq_some_iff.1 hx).1
    obtain ⟨y, m1, m2⟩ := h6 (xs.length - 1 - t) x (by rw [key xs t ht]; exact hx)
    refine ⟨y, ?_, ?_⟩
    · rw [← h5] at m1
      rw [key ys t (by omega)] at m1
      exact m1
    · have e1 : xs.length - (t + 1) = xs.length - 1 - t := by omega
      have e2 : xs.length - t = xs.length - 1 - t + 1 := by omega
      simp only [e1, e2]
      exact m2
  · rintro ⟨h, n, h1, h2, h3, h4, h5, h6⟩
    refine ⟨fun t => h (xs.length - t), fun t => n (xs.length - t), by simpa using h1, by simpa using h2, by simpa using h3,
      by simpa using h4, by simpa using h5, ?_⟩
    intro t x hx
    have ht : t < xs.length := by simpa using (List.getElem?_eq_some_iff.1 hx).1
    rw [List.getElem?_reverse ht] at hx
    obtain ⟨y, m1, m2⟩ := h6 _ x hx
    refine ⟨y, ?_, ?_⟩
    · rw [List.getElem?_reverse (by omega), h5]
      exact m1
    · have e1 : xs.length - (t + 1) = xs.length - 1 - t := by omega
      have e2 : xs.length - t = xs.length - 1 - t + 1 := by omega
      simp only [e1, e2]
      exact m2

/-- **C58 (empty sequences).**  A sequence without time steps raises for every layer. -/
theorem C58_empty (cell : Cell X S E) (e : E) (s : S) :
    uniLayer cell e s [] = .error .runtimeError ∧ revLayer cell e s [] = .error .runtimeError := ⟨rfl, rfl⟩

theorem catCols_ok {K : Type} (A B C : Bat K) : catCols A B = .ok C ↔
    A.length = B.length ∧ C = List.zipWith (· ++ ·) A B := by
  unfold catCols
  by_cases h : A.length = B.length
  · rw [if_pos h]; simp [h, eq_comm]
  · rw [if_neg h]; simp [h]

/-- **C58 (bidirectional layers).**  With a state for each direction: every output row is the row of the forward
recurrence followed by the row of the backward recurrence, and both final states are returned. -/
theorem C58_bidir {K : Type} (cf cb : Cell (Bat K) S E) (ef eb : E) (sf sb : S) (xs ys : List (Bat K)) (ss : List S)
    (e' : E × E) (h : bidirLayer cf cb (ef, eb) [sf, sb] xs = .ok (ys, ss, e')) :
    ∃ f b sf' sb', Forward cf ef sf xs f sf' e'.1 ∧ Backward cb eb sb xs b sb' e'.2 ∧ ss = [sf', sb'] ∧
      ys.length = xs.length ∧
      ∀ t, t < xs.length → (ys.getD t []).length = (f.getD t []).length ∧
        (ys.getD t []).length = (b.getD t []).length ∧
        ∀ r, r < (ys.getD t []).length →
          (ys.getD t []).getD r [] = (f.getD t []).getD r [] ++ (b.getD t []).getD r [] := by
  unfold bidirLayer at h
  simp only at h
  obtain ⟨⟨f, sf', ef'⟩, h1, h⟩ := bind_ok.1 h
  obtain ⟨⟨b, sb', eb'⟩, h2, h⟩ := bind_ok.1 h
  obtain ⟨y, h3, h⟩ := bind_ok.1 h
  cases h
  have hf := ((C58_forward_layer _ _ _ _ _ _ _).1 h1).2
  have hb := ((C58_reverse_layer _ _ _ _ _ _ _).1 h2).2
  have lf : f.length = xs.length := by obtain ⟨_, _, _, _, _, _, h, _⟩ := hf; exact h
  have lb : b.length = xs.length := by obtain ⟨_, _, _, _, _, _, h, _⟩ := hb; exact h
  unfold catSeq at h3
  simp only at h3
  rw [if_pos (by rw [lf, lb])] at h3
  have h4 := mapM_ok_forall₂ h3
  have ly : ys.length = xs.length := by
    have := h4.length_eq
    rw [List.length_zip, lf, lb] at this
    omega
  refine ⟨f, b, sf', sb', hf, hb, rfl, ly, ?_⟩
  intro t ht
  have hz : (f.zip b)[t]'(by simp [lf, lb, ht]) = (f[t]'(by omega), b[t]'(by omega)) := List.getElem_zip
  have h5 := List.forall₂_iff_get.1 h4 |>.2 t (by simp [lf, lb, ht]) (by omega)
  simp only [List.get_eq_getElem] at h5
  rw [hz] at h5
  obtain ⟨h6, h7⟩ := (catCols_ok _ _ _).1 h5
  have e1 : ys.getD t [] = ys[t]'(by omega) := List.getD_eq_getElem _ _ _
  have e2 : f.getD t [] = f[t]'(by omega) := List.getD_eq_getElem _ _ _
  have e3 : b.getD t [] = b[t]'(by omega) := List.getD_eq_getElem _ _ _
  rw [e1, e2, e3]
  rw [h7]
  simp only at h6
  refine ⟨by simp [h6], by simp [h6], ?_⟩
  intro r hr
  simp only [List.length_zipWith] at hr
  rw [List.getD_eq_getElem _ _ (by simp; omega), List.getD_eq_getElem _ _ (by omega), List.getD_eq_getElem _ _ (by omega),
    List.getElem_zipWith]

/-- **C58 (bidirectional layers, finding: too few states).**  With a single state the backward direction is silently
left out: the output is that of the forward layer alone; further states beyond two are ignored; with none the pass
raises. -/
theorem C58_bidir_states {K : Type} (cf cb : Cell (Bat K) S E) (e : E × E) (s s' : S) (ss : List S)
    (xs : List (Bat K)) :
    (bidirLayer cf cb e [s] xs).map (fun r => (r.1, r.2.1)) =
      (uniLayer cf e.1 s xs).map (fun r => (r.1, [r.2.1])) ∧
    bidirLayer cf cb e (s :: s' :: ss) xs = bidirLayer cf cb e [s, s'] xs ∧
    bidirLayer cf cb e [] xs = .error .runtimeError := by
  refine ⟨?_, rfl, rfl⟩
  unfold bidirLayer
  simp only
  cases uniLayer cf e.1 s xs <;> rfl

/-! ## Stacks -/

theorem modular_cons (num : Int) (drop : Option (Nat → List X → List X)) (states : List S) (i : Nat)
    (l : Layer X S E) (e : E) (ls : List (Layer X S E × E)) (xs : List X) (r : List X × List S × List E) :
    modular num drop states i ((l, e) :: ls) xs = .ok r ↔
      ∃ s z s' e' ss es, states[i]? = some s ∧ l e s xs = .ok (z, s', e') ∧
        modular num drop states (i + 1) ls
          (dropped num drop i z) = .ok (r.1, ss, es) ∧
        r.2 = (s' :: ss, e' :: es) := by
  conv_lhs => unfold modular
  cases hs : states[i]? with
  | none => simp
  | some s =>
    simp only
    rw [bind_ok]
    constructor
    · rintro ⟨⟨z, s', e'⟩, h1, h2⟩
      rw [bind_ok] at h2
      obtain ⟨⟨o, ss, es⟩, h3, h4⟩ := h2
      cases h4
      exact ⟨s, z, s', e', ss, es, rfl, h1, h3, rfl⟩
    · rintro ⟨s1, z, s', e', ss, es, h0, h1, h2, h3⟩
      cases h0
      refine ⟨_, h1, ?_⟩
      rw [bind_ok]
      refine ⟨_, h2, ?_⟩
      obtain ⟨r1, r2⟩ := r
      simp only at h3
      rw [h3]
      rfl

theorem modular_congr (num : Int) (drop : Option (Nat → List X → List X)) (ss ss' : List S) (i : Nat)
    (ls : List (Layer X S E × E)) (xs : List X) (h : ∀ j, i ≤ j → ss[j]? = ss'[j]?) :
    modular num drop ss i ls xs = modular num drop ss' i ls xs := by
  induction ls generalizing i xs with
  | nil => rfl
  | cons p ls ih =>
    obtain ⟨l, e⟩ := p
    unfold modular
    rw [h i (Nat.le_refl _)]
    cases ss'[i]? with
    | none => rfl
    | some s =>
      simp only
      congr 1
      funext r
      rw [ih (i + 1) _ fun j hj => h j (by omega)]

theorem modular_chain (num : Int) (drop : Option (Nat → List X → List X)) (ss : List S) (i : Nat)
    (ls : List (Layer X S E × E)) (xs : List X) (r : List X × List S × List E)
    (h : modular num drop ss i ls xs = .ok r) :
    ∃ q : Nat → List X, q 0 = xs ∧ q ls.length = r.1 ∧ r.2.1.length = ls.length ∧ r.2.2.length = ls.length ∧
      ∀ (k : Nat) (l : Layer X S E) (e : E), ls[k]? = some (l, e) → ∃ s z s' e',
        ss[i + k]? = some s ∧ l e s (q k) = .ok (z, s', e') ∧ r.2.1[k]? = some s' ∧ r.2.2[k]? = some e' ∧
        q (k + 1) = dropped num drop (i + k) z := by
  induction ls generalizing i xs r with
  | nil =>
    cases h
    exact ⟨fun _ => xs, rfl, rfl, rfl, rfl, fun k l e hk => by simp at hk⟩
  | cons p ls ih =>
    obtain ⟨l, e⟩ := p
    obtain ⟨s, z, s', e', ss1, es1, h1, h2, h3, h4⟩ := (modular_cons _ _ _ _ _ _ _ _ _).1 h
    obtain ⟨q, k1, k2, k3, k4, k5⟩ := ih _ _ _ h3
    obtain ⟨r1, r2⟩ := r
    simp only at h4
    subst h4
    refine ⟨fun k => if k = 0 then xs else q (k - 1), rfl, by simpa using k2, by simpa using k3, by simpa using k4, ?_⟩
    intro k l' e'' hk
    cases k with
    | zero =>
      simp only [List.getElem?_cons_zero, Option.some.injEq, Prod.mk.injEq] at hk
      obtain ⟨rfl, rfl⟩ := hk
      exact ⟨s, z, s', e', h1, h2, rfl, rfl, k1⟩
    | succ k =>
      rw [List.getElem?_cons_succ] at hk
      obtain ⟨s2, z2, s2', e2', m1, m2, m3, m4, m5⟩ := k5 k l' e'' hk
      have e1 : i + 1 + k = i + (k + 1) := by omega
      rw [e1] at m1 m5
      refine ⟨s2, z2, s2', e2', m1, by simpa using m2, by simpa using m3, by simpa using m4, ?_⟩
      simpa using m5

/-- **C58 (stacks, dropout).**  Every layer gets the outputs of the one before and the state of its own position;
with `n` layers dropout is applied to the outputs of the layers `0, …, n - 2` and not to those of the last, the
new states are returned in order. -/
theorem C58_stack (drop : Option (Nat → List X → List X)) (ss : List S) (ls : List (Layer X S E × E)) (xs : List X)
    (o : List X) (ss' : List S) (es' : List E) (h : modular (ls.length : Int) drop ss 0 ls xs = .ok (o, ss', es')) :
    ∃ q : Nat → List X, q 0 = xs ∧ o = q ls.length ∧ ss'.length = ls.length ∧
      ∀ (k : Nat) (l : Layer X S E) (e : E), ls[k]? = some (l, e) → ∃ s z s' e',
        ss[k]? = some s ∧ l e s (q k) = .ok (z, s', e') ∧ ss'[k]? = some s' ∧ es'[k]? = some e' ∧
        (k + 1 = ls.length → q (k + 1) = z) ∧
        (k + 1 < ls.length → q (k + 1) = (drop.elim z fun d => d k z)) := by
  obtain ⟨q, k1, k2, k3, k4, k5⟩ := modular_chain _ _ _ _ _ _ _ h
  refine ⟨q, k1, k2.symm, k3, ?_⟩
  intro k l e hk
  obtain ⟨s, z, s', e', m1, m2, m3, m4, m5⟩ := k5 k l e hk
  rw [Nat.zero_add] at m1 m5
  refine ⟨s, z, s', e', m1, m2, m3, m4, ?_, ?_⟩
  · intro hl
    unfold dropped at m5
    rw [if_neg (by omega)] at m5
    exact m5
  · intro hl
    unfold dropped at m5
    rw [if_pos (by omega)] at m5
    exact m5

/-- **C58 (number of states).**  With fewer states than layers the pass fails; states beyond the number of layers are
ignored. -/
theorem C58_states (num : Int) (drop : Option (Nat → List X → List X)) (ss extra : List S)
    (ls : List (Layer X S E × E)) (xs : List X) :
    (ss.length < ls.length → ∃ e, modular num drop ss 0 ls xs = .error e) ∧
    (ls.length ≤ ss.length → modular num drop (ss ++ extra) 0 ls xs = modular num drop ss 0 ls xs) := by
  constructor
  · intro hl
    cases h : modular num drop ss 0 ls xs with
    | error e => exact ⟨e, rfl⟩
    | ok r =>
      obtain ⟨q, -, -, -, -, k5⟩ := modular_chain _ _ _ _ _ _ _ h
      obtain ⟨s, z, s', e', m1, -⟩ := k5 ss.length (ls[ss.length]).1 (ls[ss.length]).2 (List.getElem?_eq_getElem hl)
      simp at m1
  · intro hl
    have key : ∀ (i : Nat) (ls : List (Layer X S E × E)) (xs : List X), i + ls.length ≤ ss.length →
        modular num drop (ss ++ extra) i ls xs = modular num drop ss i ls xs := by
      intro i ls
      induction ls generalizing i with
      | nil => intro xs _; rfl
      | cons p ls ih =>
        intro xs hl
        obtain ⟨l, e⟩ := p
        rw [List.length_cons] at hl
        unfold modular
        rw [List.getElem?_append_left (by omega)]
        cases ss[i]? with
        | none => rfl
        | some s =>
          simp only
          congr 1
          funext r
          rw [ih (i + 1) _ (by omega)]
    exact key 0 ls xs (by omega)

/-- **C58 (number of layers, finding).**  `num_layers` layers are built, but one for zero or a negative number. -/
theorem C58_layers {L : Type} (num : Int) (first : L) (other : Nat → L) :
    (1 ≤ num → ((buildLayers num first other).length : Int) = num) ∧
    (num ≤ 1 → buildLayers num first other = [first]) := by
  unfold buildLayers
  constructor
  · intro h
    simp
    omega
  · intro h
    have : (num - 1).toNat = 0 := by omega
    rw [this]
    rfl

/-- Dropout is absent or off (evaluation mode). -/
def NoDrop (drop : Option (Nat → List X → List X)) : Prop := drop = none ∨ drop = some fun _ a => a

/-- Unidirectional layers with these cells and environments. -/
def unis (cells : List (Cell X S E)) (es : List E) : List (Layer X S E × E) :=
  List.zipWith (fun c e => (uniLayer c, e)) cells es

theorem noDrop_eq {drop : Option (Nat → List X → List X)} (h : NoDrop drop) (num : Int) (i : Nat) (z : List X) :
    (dropped num drop i z) = z := by
  unfold dropped
  rcases h with rfl | rfl <;> simp

theorem unis_cons (c : Cell X S E) (cells : List (Cell X S E)) (e : E) (es : List E) :
    unis (c :: cells) (e :: es) = (uniLayer c, e) :: unis cells es := rfl

theorem resume_aux (num : Int) (drop : Option (Nat → List X → List X)) (hd : NoDrop drop) (cells : List (Cell X S E))
    (es : List E) (hl : es.length = cells.length) (ss : List S) (i : Nat) (pre : List S) (hp : pre.length = i)
    (xs ys : List X) (hx : xs ≠ []) (hy : ys ≠ []) (r : List X × List S × List E) :
    modular num drop ss i (unis cells es) (xs ++ ys) = .ok r ↔
      ∃ a s1 e1 b, modular num drop ss i (unis cells es) xs = .ok (a, s1, e1) ∧
        modular num drop (pre ++ s1) i (unis cells e1) ys = .ok (b, r.2) ∧ r.1 = a ++ b := by
  induction cells generalizing es i xs ys r pre with
  | nil =>
    simp only [unis, List.zipWith_nil_left, modular]
    constructor
    · intro h
      cases h
      exact ⟨xs, [], [], ys, rfl, rfl, rfl⟩
    · rintro ⟨a, s1, e1, b, h1, h2, h3⟩
      cases h1
      obtain ⟨r1, r2⟩ := r
      simp only [Except.ok.injEq, Prod.mk.injEq] at h2 h3
      obtain ⟨rfl, rfl⟩ := h2
      rw [h3]
  | cons c cells ih =>
    cases es with
    | nil => simp at hl
    | cons e es =>
      have hl' : es.length = cells.length := by simpa using hl
      rw [unis_cons, modular_cons]
      simp only [noDrop_eq hd]
      constructor
      · rintro ⟨s, z, s', e', ss1, es1, h1, h2, h3, h4⟩
        rw [uniLayer_steps] at h2
        obtain ⟨a, s1, e1, b, k1, k2, k3⟩ := (steps_append _ _ _ _ _ _).1 h2.2
        simp only at k2 k3
        have la := steps_length _ _ _ _ _ k1
        have lb := steps_length _ _ _ _ _ k2
        have ha : a ≠ [] := by
          intro h; rw [h] at la; exact hx (List.length_eq_zero_iff.1 la.symm)
        have hb : b ≠ [] := by
          intro h; rw [h] at lb; exact hy (List.length_eq_zero_iff.1 lb.symm)
        rw [k3] at h3
        obtain ⟨o1, t1, f1, o2, m1, m2, m3⟩ := (ih es hl' (i + 1) (pre ++ [s1]) (by simp [hp]) a b ha hb _).1 h3
        refine ⟨o1, s1 :: t1, e1 :: f1, o2, (modular_cons _ _ _ _ _ _ _ _ _).2
          ⟨s, a, s1, e1, t1, f1, h1, (uniLayer_steps _ _ _ _ _).2 ⟨hx, k1⟩, by rw [noDrop_eq hd]; exact m1, rfl⟩, ?_, m3⟩
        rw [unis_cons]
        refine (modular_cons _ _ _ _ _ _ _ _ _).2 ⟨s1, b, s', e', ss1, es1, ?_, (uniLayer_steps _ _ _ _ _).2 ⟨hy, k2⟩, ?_,
          h4⟩
        · rw [List.getElem?_append_right (by omega), hp]
          simp
        · rw [noDrop_eq hd]
          rw [List.append_assoc] at m2
          exact m2
      · rintro ⟨o1, s1', e1', o2, h1, h2, h3⟩
        obtain ⟨s, a, s1, e1, t1, f1, k1, k2, k3, k4⟩ := (modular_cons _ _ _ _ _ _ _ _ _).1 h1
        simp only [Prod.mk.injEq] at k4
        obtain ⟨rfl, rfl⟩ := k4
        rw [unis_cons] at h2
        obtain ⟨s2, b, s', e', ss1, es1, m1, m2, m3, m4⟩ := (modular_cons _ _ _ _ _ _ _ _ _).1 h2
        rw [List.getElem?_append_right (by omega), hp] at m1
        simp only [Nat.sub_self, List.getElem?_cons_zero, Option.some.injEq] at m1
        subst m1
        rw [noDrop_eq hd] at k3 m3
        rw [uniLayer_steps] at k2 m2
        have la := steps_length _ _ _ _ _ k2.2
        have lb := steps_length _ _ _ _ _ m2.2
        have ha : a ≠ [] := by
          intro h; rw [h] at la; exact hx (List.length_eq_zero_iff.1 la.symm)
        have hb : b ≠ [] := by
          intro h; rw [h] at lb; exact hy (List.length_eq_zero_iff.1 lb.symm)
        refine ⟨s, a ++ b, s', e', ss1, es1, k1, (uniLayer_steps _ _ _ _ _).2 ⟨by simp [hx],
          (steps_append _ _ _ _ _ _).2 ⟨a, s1, e1, b, k2.2, m2.2, rfl⟩⟩, ?_, m4⟩
        refine (ih es hl' (i + 1) (pre ++ [s1]) (by simp [hp]) a b ha hb _).2 ⟨o1, t1, f1, o2, k3, ?_, h3⟩
        rw [List.append_assoc]
        exact m3

/-- **C58 (resuming).**  For every stack of unidirectional layers without active dropout, every cell and every noise:
a forward pass over a sequence equals a pass over its first part followed by a pass over the rest that starts from the
returned states (and the noise sources as they were left). -/
theorem C58_resume (num : Int) (drop : Option (Nat → List X → List X)) (hd : NoDrop drop) (cells : List (Cell X S E))
    (es : List E) (hl : es.length = cells.length) (ss : List S) (xs ys : List X) (hx : xs ≠ []) (hy : ys ≠ [])
    (o : List X) (ss' : List S) (es' : List E) :
    modular num drop ss 0 (unis cells es) (xs ++ ys) = .ok (o, ss', es') ↔
      ∃ a s1 e1 b, modular num drop ss 0 (unis cells es) xs = .ok (a, s1, e1) ∧
        modular num drop s1 0 (unis cells e1) ys = .ok (b, ss', es') ∧ o = a ++ b :=
  resume_aux num drop hd cells es hl ss 0 [] rfl xs ys hx hy (o, ss', es')

theorem unis_length_out (num : Int) (drop : Option (Nat → List X → List X)) (hd : NoDrop drop)
    (cells : List (Cell X S E)) (es : List E) (ss : List S) (i : Nat) (xs : List X) (r : List X × List S × List E)
    (h : modular num drop ss i (unis cells es) xs = .ok r) : r.1.length = xs.length := by
  induction cells generalizing es i xs r with
  | nil =>
    simp only [unis, List.zipWith_nil_left, modular] at h
    cases h
    rfl
  | cons c cells ih =>
    cases es with
    | nil =>
      simp only [unis, List.zipWith_nil_right, modular] at h
      cases h
      rfl
    | cons e es =>
      rw [unis_cons, modular_cons] at h
      simp only [noDrop_eq hd] at h
      obtain ⟨s, z, s', e', ss1, es1, h1, h2, h3, h4⟩ := h
      rw [uniLayer_steps] at h2
      rw [ih _ _ _ _ h3, steps_length _ _ _ _ _ h2.2]

/-- **C58 (causality).**  The first outputs of a stack of unidirectional layers do not depend on later inputs: two
sequences with a common beginning have the same outputs there. -/
theorem C58_causal (num : Int) (drop : Option (Nat → List X → List X)) (hd : NoDrop drop) (cells : List (Cell X S E))
    (es : List E) (hl : es.length = cells.length) (ss : List S) (xs ys zs : List X) (hx : xs ≠ [])
    (o o' : List X) (q q' : List S × List E)
    (h : modular num drop ss 0 (unis cells es) (xs ++ ys) = .ok (o, q))
    (h' : modular num drop ss 0 (unis cells es) (xs ++ zs) = .ok (o', q')) :
    o.take xs.length = o'.take xs.length ∧ o.length = (xs ++ ys).length := by
  have key : ∀ (ys : List X) (o : List X) (q : List S × List E),
      modular num drop ss 0 (unis cells es) (xs ++ ys) = .ok (o, q) →
      ∃ a t, modular num drop ss 0 (unis cells es) xs = .ok (a, t) ∧ o.take xs.length = a := by
    intro ys o q h
    cases ys with
    | nil =>
      rw [List.append_nil] at h
      refine ⟨o, q, h, ?_⟩
      have := unis_length_out _ _ hd _ _ _ _ _ _ h
      simp only at this
      rw [← this, List.take_length]
    | cons y ys =>
      obtain ⟨a, s1, e1, b, h1, -, h3⟩ := (C58_resume num drop hd cells es hl ss xs (y :: ys) hx (by simp) o q.1 q.2).1 h
      refine ⟨a, _, h1, ?_⟩
      have := unis_length_out _ _ hd _ _ _ _ _ _ h1
      simp only at this
      rw [h3, ← this, List.take_left]
  obtain ⟨a, t, h1, h2⟩ := key ys o q h
  obtain ⟨a', t', h1', h2'⟩ := key zs o' q' h'
  rw [h1] at h1'
  cases h1'
  exact ⟨by rw [h2, h2'], unis_length_out _ _ hd _ _ _ _ _ _ h⟩

end Aihw.Rnn

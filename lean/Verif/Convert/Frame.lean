import Verif.Convert.Paths

/-!
# The traversal of a deep copy does not touch the original, whatever is shared — lemmas for C29
-/
namespace Aihw.Convert

variable {P C : Type}

/-- Objects from `n` on only refer to objects from `n` on. -/
def Up (n : Nat) (st : St P) : Prop :=
  n ≤ st.next ∧ ∀ x, n ≤ x → ∀ m k, (m, some k) ∈ (st.heap x).kids → n ≤ k

/-- A step that only works above `n`. -/
def Above (n : Nat) (st : St P) (st' : St P) : Prop :=
  Up n st' ∧ ∀ x, x < n → st'.heap x = st.heap x

theorem Above.refl {n : Nat} {st : St P} (h : Up n st) : Above n st st := ⟨h, fun _ _ => rfl⟩

theorem Above.trans {n : Nat} {a b c : St P} (h1 : Above n a b) (h2 : Above n b c) : Above n a c :=
  ⟨h2.1, fun x hx => (h2.2 x hx).trans (h1.2 x hx)⟩

theorem Above.alloc {n : Nat} {st : St P} (h : Up n st) (o : Obj P)
    (ho : ∀ m k, (m, some k) ∈ o.kids → n ≤ k) : Above n st (st.alloc o).2 := by
  refine ⟨⟨le_trans h.1 (by simp [St.alloc]), ?_⟩, ?_⟩
  · intro x hx m k hm
    simp only [St.alloc] at hm
    split_ifs at hm with hc
    · exact ho m k hm
    · exact h.2 x hx m k hm
  · intro x hx
    have := h.1
    simp only [St.alloc]
    rw [if_neg (by omega)]

theorem Above.setKids {n : Nat} {st : St P} (h : Up n st) {i : Nat} (hi : n ≤ i)
    (d : List (String × Nat)) (hd : ∀ a ∈ d, n ≤ a.2) : Above n st (st.setKids i d) := by
  refine ⟨⟨h.1, ?_⟩, ?_⟩
  · intro x hx m k hm
    simp only [St.setKids] at hm
    split_ifs at hm with hc
    · simp only [replaceKids, List.mem_map] at hm
      obtain ⟨⟨a, b⟩, h1, h2⟩ := hm
      simp only at h2
      cases hf : find a d with
      | none =>
        rw [hf] at h2
        simp only [Prod.mk.injEq] at h2
        obtain ⟨rfl, rfl⟩ := h2
        exact h.2 i hi _ _ h1
      | some y =>
        rw [hf] at h2
        simp only [Prod.mk.injEq, Option.some.injEq] at h2
        obtain ⟨rfl, rfl⟩ := h2
        exact hd _ (find_mem hf)
    · exact h.2 x hx m k hm
  · intro x hx
    simp only [St.setKids]
    rw [if_neg (by omega)]

theorem namedChildren_up {n : Nat} {st : St P} (h : Up n st) {i : Nat} (hi : n ≤ i)
    {a : String × Nat} (ha : a ∈ namedChildren (st.heap i)) : n ≤ a.2 :=
  h.2 i hi a.1 a.2 (namedFrom_mem ha).1

/-- A conversion of one module that only works above `n`. -/
def StepUp (n : Nat) (s : String → Nat → St P → Except PyErr (Option Nat × St P)) : Prop :=
  ∀ nm i st r st', Up n st → n ≤ i → s nm i st = .ok (r, st') →
    Above n st st' ∧ n ≤ r.getD i

theorem kidsLoop_above {n : Nat} {step : String → Nat → St P → Except PyErr (Option Nat × St P)}
    (hs : StepUp n step) : ∀ (l : List (String × Nat)) (st : St P) d st', Up n st →
      (∀ a ∈ l, n ≤ a.2) → kidsLoop step l st = .ok (d, st') →
      Above n st st' ∧ ∀ a ∈ d, n ≤ a.2 := by
  intro l
  induction l with
  | nil =>
    intro st d st' hu _ h
    simp only [kidsLoop, Except.ok.injEq, Prod.mk.injEq] at h
    obtain ⟨rfl, rfl⟩ := h
    exact ⟨Above.refl hu, by simp⟩
  | cons a l ih =>
    rcases a with ⟨m, j⟩
    intro st d st' hu hl h
    simp only [kidsLoop] at h
    rcases h1 : step m j st with e | ⟨r, st1⟩
    · rw [h1] at h; cases h
    rw [h1] at h
    simp only at h
    rcases h2 : kidsLoop step l st1 with e | ⟨d2, st2⟩
    · rw [h2] at h; cases h
    rw [h2] at h
    simp only [Except.ok.injEq, Prod.mk.injEq] at h
    obtain ⟨rfl, rfl⟩ := h
    obtain ⟨a1, a2⟩ := hs m j st r st1 hu (hl (m, j) (List.mem_cons_self ..)) h1
    obtain ⟨b1, b2⟩ := ih st1 d2 st2 a1.1 (fun a ha => hl a (List.mem_cons_of_mem _ ha)) h2
    refine ⟨a1.trans b1, ?_⟩
    intro a ha
    cases r with
    | none => exact b2 a ha
    | some k =>
      rcases List.mem_cons.1 ha with rfl | ha'
      · exact a2
      · exact b2 a ha'

theorem walk_above {n : Nat} {skip : String → Bool}
    {self leaf : String → Nat → St P → Except PyErr (Option Nat × St P)}
    {finish : String → Nat → St P → Nat × St P} (h1 : StepUp n self) (h2 : StepUp n leaf)
    (h3 : ∀ nm i st, Up n st → n ≤ i → Above n st (finish nm i st).2 ∧ n ≤ (finish nm i st).1) :
    ∀ (f : Nat) (nm : String) (i : Nat) (st : St P) (res : Nat × St P), Up n st → n ≤ i →
      walk skip self leaf finish f nm i st = .ok res → Above n st res.2 ∧ n ≤ res.1 := by
  intro f
  induction f with
  | zero => intro nm i st res _ _ h; cases h
  | succ f ih =>
    intro nm i st res hu hi h
    rw [walk] at h
    rcases hs : self nm i st with e | ⟨r, st1⟩
    · rw [hs] at h; cases h
    rw [hs] at h
    simp only at h
    obtain ⟨a1, a2⟩ := h1 nm i st r st1 hu hi hs
    rcases hl : kidsLoop (fun n j st => if skip (fullName nm n) then .ok (none, st)
      else if 0 < (namedChildren (st.heap j)).length then
        (walk skip self leaf finish f (fullName nm n) j st).map fun p => (some p.1, p.2)
      else leaf (fullName nm n) j st) (namedChildren (st1.heap (r.getD i))) st1 with e | ⟨d, st2⟩
    · rw [hl] at h; cases h
    rw [hl] at h
    simp only [Except.ok.injEq] at h
    obtain ⟨b1, b2⟩ := kidsLoop_above (n := n) (by
        intro m j s r' s' hs1 hs2 hs3
        simp only at hs3
        split_ifs at hs3 with c1 c2
        · cases hs3; exact ⟨Above.refl hs1, hs2⟩
        · rcases hw : walk skip self leaf finish f (fullName nm m) j s with e | q
          · rw [hw] at hs3; cases hs3
          rw [hw] at hs3
          simp only [Except.map, Except.ok.injEq, Prod.mk.injEq] at hs3
          obtain ⟨rfl, rfl⟩ := hs3
          exact ih _ _ _ _ hs1 hs2 hw
        · exact h2 _ _ _ _ _ hs1 hs2 hs3) _ _ _ _ a1.1 (fun a ha => namedChildren_up a1.1 a2 ha) hl
    have c := Above.setKids b1.1 a2 d b2
    obtain ⟨d1, d2⟩ := h3 nm (r.getD i) (st2.setKids (r.getD i) d) c.1 a2
    rw [h] at d1 d2
    exact ⟨((a1.trans b1).trans c).trans d1, d2⟩

theorem newContainer_up {n : Nat} {st : St P} (h : Up n st) {i : Nat} (hi : n ≤ i) (v : P) (c : Nat) :
    ∀ m k, (m, some k) ∈ (newContainer v c (st.heap i)).kids → n ≤ k := by
  intro m k hm
  simp only [newContainer, List.mem_map, Prod.mk.injEq, Option.some.injEq] at hm
  obtain ⟨a, h1, rfl, rfl⟩ := hm
  exact namedChildren_up h hi h1

theorem fromDigital_up (E : Env P C) (n : Nat) (t : Target) (nm : String) (i : Nat) (st : St P)
    (res : Nat × St P) (hu : Up n st) (hi : n ≤ i) (h : fromDigital E t nm i st = .ok res) :
    Above n st res.2 ∧ n ≤ res.1 := by
  have hu' : Up n { st with calls := st.calls ++ [nm] } := hu
  cases t with
  | container c =>
    simp only [fromDigital, Except.ok.injEq] at h
    subst h
    exact ⟨Above.alloc hu' _ (newContainer_up hu hi _ _), hu.1⟩
  | layer c =>
    simp only [fromDigital] at h
    rcases he : E.enc c (E.cfgFun nm (st.heap i).cls (st.heap i).val E.cfg) (st.heap i).val with e | v
    · rw [he] at h; cases h
    rw [he] at h
    simp only [Except.ok.injEq] at h
    subst h
    have a := Above.alloc hu' ⟨.plain E.tileCls, [], true, v⟩ (by simp)
    refine ⟨Above.trans a (Above.alloc a.1 _ ?_), a.1.1⟩
    intro m k hm
    simp only [List.mem_cons, Prod.mk.injEq, Option.some.injEq, List.not_mem_nil, or_false] at hm
    rw [hm.2]
    exact hu.1

theorem selfA_up (E : Env P C) (ex : List String) (n : Nat) : StepUp n (selfA E ex) := by
  intro nm i st r st' hu hi h
  unfold selfA at h
  cases ht : E.target (st.heap i).cls with
  | none => rw [ht] at h; cases h; exact ⟨Above.refl hu, hi⟩
  | some t =>
    rw [ht] at h
    simp only at h
    split_ifs at h
    · cases h; exact ⟨Above.refl hu, hi⟩
    rcases hf : fromDigital E t nm i st with e | q
    · rw [hf] at h; cases h
    rw [hf] at h
    cases h
    exact fromDigital_up E n t nm i st q hu hi hf

theorem leafA_up (E : Env P C) (n : Nat) : StepUp n (leafA E) := by
  intro nm i st r st' hu hi h
  unfold leafA at h
  cases ht : E.target (st.heap i).cls with
  | none => rw [ht] at h; cases h; exact ⟨Above.refl hu, hi⟩
  | some t =>
    rw [ht] at h
    simp only at h
    rcases hf : fromDigital E t nm i st with e | q
    · rw [hf] at h; cases h
    rw [hf] at h
    cases h
    exact fromDigital_up E n t nm i st q hu hi hf

theorem finishA_up (E : Env P C) (ensure : Bool) (n : Nat) (nm : String) (i : Nat) (st : St P)
    (hu : Up n st) (hi : n ≤ i) :
    Above n st (finishA E ensure nm i st).2 ∧ n ≤ (finishA E ensure nm i st).1 := by
  unfold finishA
  split_ifs
  · unfold wrap
    cases (st.heap i).cls with
    | wrapped c => exact ⟨Above.refl hu, hi⟩
    | plain c =>
      simp only
      cases find (E.name c) st.registry with
      | some c' => exact ⟨Above.alloc hu _ (hu.2 i hi), hu.1⟩
      | none =>
        have hu' : Up n { st with registry := st.registry ++ [(E.name c, c)] } := hu
        exact ⟨Above.alloc hu' _ (hu.2 i hi), hu.1⟩
  · exact ⟨Above.refl hu, hi⟩

theorem toDigital_up (E : Env P C) (n : Nat) (t : Option Target) (i : Nat) (st : St P)
    (res : Nat × St P) (hu : Up n st) (hi : n ≤ i) (h : toDigital E t i st = .ok res) :
    Above n st res.2 ∧ n ≤ res.1 := by
  rcases t with _ | ⟨c | c⟩
  · cases h
  · simp only [toDigital, Except.ok.injEq] at h
    subst h
    exact ⟨Above.alloc hu _ (newContainer_up hu hi _ _), hu.1⟩
  · simp only [toDigital] at h
    cases hf : (find "analog_module" (st.heap i).kids).join with
    | none => rw [hf] at h; cases h
    | some t =>
      rw [hf] at h
      simp only at h
      cases hd : E.dec c (st.heap i).val (st.heap t).val with
      | error e => rw [hd] at h; cases h
      | ok v =>
        rw [hd] at h
        simp only [Except.ok.injEq] at h
        subst h
        exact ⟨Above.alloc hu _ (by simp), hu.1⟩

theorem selfD_up (E : Env P C) (n : Nat) : StepUp n (selfD E) := by
  intro nm i st r st' hu hi h
  unfold selfD at h
  cases hc : (st.heap i).cls with
  | wrapped c =>
    rw [hc] at h
    simp only [Except.ok.injEq, Prod.mk.injEq] at h
    obtain ⟨rfl, rfl⟩ := h
    exact ⟨Above.alloc hu _ (hu.2 i hi), hu.1⟩
  | plain c =>
    rw [hc] at h
    simp only at h
    cases hd : E.dmap c with
    | none => rw [hd] at h; cases h; exact ⟨Above.refl hu, hi⟩
    | some t =>
      rw [hd] at h
      simp only at h
      rcases hf : toDigital E t i st with e | q
      · rw [hf] at h; cases h
      rw [hf] at h
      cases h
      exact toDigital_up E n t i st q hu hi hf

theorem leafD_up (E : Env P C) (n : Nat) : StepUp n (leafD E) := by
  intro nm i st r st' hu hi h
  unfold leafD at h
  cases hc : (st.heap i).cls with
  | wrapped c =>
    rw [hc] at h
    cases h
    exact ⟨Above.refl hu, hi⟩
  | plain c =>
    rw [hc] at h
    simp only at h
    cases hd : E.dmap c with
    | none => rw [hd] at h; cases h; exact ⟨Above.refl hu, hi⟩
    | some t =>
      rw [hd] at h
      simp only at h
      rcases hf : toDigital E t i st with e | q
      · rw [hf] at h; cases h
      rw [hf] at h
      cases h
      exact toDigital_up E n t i st q hu hi hf

theorem up_deepcopy (st : St P) : Up st.next (deepcopy st) := by
  refine ⟨by simp [deepcopy], ?_⟩
  intro x hx m k hm
  obtain ⟨y, rfl⟩ : ∃ y, x = y + st.next := ⟨x - st.next, by omega⟩
  rw [deepcopy_new] at hm
  simp only [List.mem_map, Prod.mk.injEq, Option.map_eq_some_iff] at hm
  obtain ⟨a, _, _, z, _, rfl⟩ := hm
  omega

theorem resolve_up {n : Nat} {st : St P} (hu : Up n st) {i : Nat} (hi : n ≤ i) {p : List String}
    {x : Nat} (h : resolve st.heap i p = some x) : n ≤ x := by
  induction p generalizing i with
  | nil => simp only [resolve, Option.some.injEq] at h; omega
  | cons m p ih =>
    obtain ⟨j, h1, h2⟩ := resolve_cons.1 h
    exact ih (hu.2 i hi m j (child_mem h1)) h2

end Aihw.Convert

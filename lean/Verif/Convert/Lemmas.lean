import Verif.Convert.Model

/-!
# Paths, sharing and the traversal — lemmas for C29
-/
namespace Aihw.Convert

variable {P C : Type}

/-! ## Specification vocabulary -/

/-- The child registered under a name (`module._modules.get(name)`). -/
def child (h : Nat → Obj P) (i : Nat) (n : String) : Option Nat := (find n (h i).kids).join

/-- `get_submodule`: follow the names. -/
def resolve (h : Nat → Obj P) : Nat → List String → Option Nat
  | i, [] => some i
  | i, n :: p => (child h i n).bind fun j => resolve h j p

/-- No module object is registered at two places below `i` (nor below itself). -/
def Unshared (h : Nat → Obj P) (i : Nat) : Prop :=
  ∀ p q j, resolve h i p = some j → resolve h i q = some j → p = q

/-- A well-formed heap: `_modules` is a dictionary with non-empty names, children exist. -/
structure WF (st : St P) : Prop where
  nodup : ∀ i, i < st.next → ((st.heap i).kids.map Prod.fst).Nodup
  names : ∀ i, i < st.next → ∀ n o, (n, o) ∈ (st.heap i).kids → n ≠ ""
  closed : ∀ i, i < st.next → ∀ n j, (n, some j) ∈ (st.heap i).kids → j < st.next

/-- The full name of the module at a path. -/
def pathName (nm : String) : List String → String
  | [] => nm
  | n :: p => pathName (fullName nm n) p

/-- The names of the children, in order. -/
def names (o : Obj P) : List String := o.kids.filterMap fun a => a.2.map fun _ => a.1

/-- Same class, mode, value and child names in the same order (the children themselves may have been
converted). -/
def SameHead (o o' : Obj P) : Prop :=
  o'.cls = o.cls ∧ o'.training = o.training ∧ o'.val = o.val ∧ names o' = names o

/-! ## Basic lemmas -/

theorem find_mem {β : Type} {n : String} {l : List (String × β)} {v : β} (h : find n l = some v) :
    (n, v) ∈ l := by
  induction l with
  | nil => simp [find] at h
  | cons a l ih =>
    rcases a with ⟨m, w⟩
    simp only [find] at h
    split_ifs at h with hm
    · subst hm; cases h; exact List.mem_cons_self ..
    · exact List.mem_cons_of_mem _ (ih h)

theorem find_of_mem {β : Type} {n : String} {l : List (String × β)} {v : β}
    (hn : (l.map Prod.fst).Nodup) (h : (n, v) ∈ l) : find n l = some v := by
  induction l with
  | nil => cases h
  | cons a l ih =>
    rcases a with ⟨m, w⟩
    simp only [List.map_cons, List.nodup_cons] at hn
    simp only [find]
    rcases List.mem_cons.1 h with h' | h'
    · cases h'; simp
    · rw [if_neg]
      · exact ih hn.2 h'
      · rintro rfl
        exact hn.1 (List.mem_map.2 ⟨_, h', rfl⟩)

theorem find_none {β : Type} {n : String} {l : List (String × β)} (h : n ∉ l.map Prod.fst) :
    find n l = none := by
  cases hf : find n l with
  | none => rfl
  | some v => exact absurd (List.mem_map.2 ⟨_, find_mem hf, rfl⟩) h

theorem child_mem {h : Nat → Obj P} {i : Nat} {n : String} {j : Nat} (hc : child h i n = some j) :
    (n, some j) ∈ (h i).kids := by
  unfold child at hc
  cases hf : find n (h i).kids with
  | none => rw [hf] at hc; simp at hc
  | some v => rw [hf] at hc; simp at hc; subst hc; exact find_mem hf

theorem child_of_mem {h : Nat → Obj P} {i : Nat} {n : String} {j : Nat}
    (hn : ((h i).kids.map Prod.fst).Nodup) (hm : (n, some j) ∈ (h i).kids) : child h i n = some j := by
  unfold child; rw [find_of_mem hn hm]; rfl

theorem resolve_cons {h : Nat → Obj P} {i : Nat} {n : String} {p : List String} {x : Nat} :
    resolve h i (n :: p) = some x ↔ ∃ j, child h i n = some j ∧ resolve h j p = some x := by
  simp [resolve, Option.bind_eq_some_iff]

theorem resolve_append {h : Nat → Obj P} {i : Nat} {p q : List String} {x : Nat} :
    resolve h i (p ++ q) = some x ↔ ∃ j, resolve h i p = some j ∧ resolve h j q = some x := by
  induction p generalizing i with
  | nil => simp [resolve]
  | cons n p ih =>
    simp only [List.cons_append, resolve_cons]
    constructor
    · rintro ⟨j, h1, h2⟩
      obtain ⟨k, h3, h4⟩ := ih.1 h2
      exact ⟨k, ⟨j, h1, h3⟩, h4⟩
    · rintro ⟨k, ⟨j, h1, h3⟩, h4⟩
      exact ⟨j, h1, ih.2 ⟨k, h3, h4⟩⟩

theorem resolve_lt {st : St P} (hw : WF st) {i : Nat} (hi : i < st.next) {p : List String} {x : Nat}
    (h : resolve st.heap i p = some x) : x < st.next := by
  induction p generalizing i with
  | nil => simp only [resolve, Option.some.injEq] at h; omega
  | cons n p ih =>
    obtain ⟨j, h1, h2⟩ := resolve_cons.1 h
    exact ih (hw.closed i hi n j (child_mem h1)) h2

/-- Heaps that agree on everything below `i` resolve alike. -/
theorem resolve_congr {h h' : Nat → Obj P} {i : Nat}
    (ha : ∀ p x, resolve h i p = some x → h' x = h x) (p : List String) :
    resolve h' i p = resolve h i p := by
  induction p generalizing i with
  | nil => rfl
  | cons n p ih =>
    have h0 : h' i = h i := ha [] i rfl
    have hc : child h' i n = child h i n := by simp [child, h0]
    simp only [resolve, hc]
    cases hj : child h i n with
    | none => rfl
    | some j =>
      exact ih fun q x hq => ha (n :: q) x (resolve_cons.2 ⟨j, hj, hq⟩)

theorem Unshared.child {h : Nat → Obj P} {i : Nat} (hu : Unshared h i) {n : String} {j : Nat}
    (hc : child h i n = some j) : Unshared h j := by
  intro p q x h1 h2
  have := hu (n :: p) (n :: q) x (resolve_cons.2 ⟨j, hc, h1⟩) (resolve_cons.2 ⟨j, hc, h2⟩)
  simpa using this

theorem Unshared.acyclic {h : Nat → Obj P} {i : Nat} (hu : Unshared h i) {n : String} {j : Nat}
    (hc : Convert.child h i n = some j) (p : List String) : resolve h j p ≠ some i := by
  intro hr
  have := hu (n :: p) [] i (resolve_cons.2 ⟨j, hc, hr⟩) rfl
  simp at this

theorem Unshared.disjoint {h : Nat → Obj P} {i : Nat} (hu : Unshared h i) {n m : String} {j k : Nat}
    (h1 : Convert.child h i n = some j) (h2 : Convert.child h i m = some k) (hne : n ≠ m)
    (p q : List String) (x : Nat)
    (hp : resolve h j p = some x) (hq : resolve h k q = some x) : False := by
  have := hu (n :: p) (m :: q) x (resolve_cons.2 ⟨j, h1, hp⟩) (resolve_cons.2 ⟨k, h2, hq⟩)
  simp only [List.cons.injEq] at this
  exact hne this.1

/-! ### Named children -/

theorem namedFrom_mem {memo : List Nat} {l : List (String × Option Nat)} {n : String} {j : Nat}
    (h : (n, j) ∈ namedFrom memo l) : (n, some j) ∈ l ∧ j ∉ memo := by
  induction l generalizing memo with
  | nil => simp [namedFrom] at h
  | cons a l ih =>
    rcases a with ⟨m, _ | k⟩
    · simp only [namedFrom] at h
      exact ⟨List.mem_cons_of_mem _ (ih h).1, (ih h).2⟩
    · simp only [namedFrom] at h
      split_ifs at h with hk
      · exact ⟨List.mem_cons_of_mem _ (ih h).1, (ih h).2⟩
      · rcases List.mem_cons.1 h with h' | h'
        · cases h'; exact ⟨List.mem_cons_self .., hk⟩
        · have := ih h'
          exact ⟨List.mem_cons_of_mem _ this.1, fun hc => this.2 (List.mem_cons_of_mem _ hc)⟩

theorem namedFrom_sublist (memo : List Nat) (l : List (String × Option Nat)) :
    ((namedFrom memo l).map Prod.fst).Sublist (l.map Prod.fst) := by
  induction l generalizing memo with
  | nil => simp [namedFrom]
  | cons a l ih =>
    rcases a with ⟨m, _ | k⟩
    · simp only [namedFrom, List.map_cons]; exact (ih memo).cons _
    · simp only [namedFrom, List.map_cons]
      split_ifs
      · exact (ih memo).cons _
      · simp only [List.map_cons]; exact (ih _).cons_cons _

theorem namedFrom_ids (memo : List Nat) (l : List (String × Option Nat)) :
    ((namedFrom memo l).map Prod.snd).Nodup ∧ ∀ p ∈ namedFrom memo l, p.2 ∉ memo := by
  induction l generalizing memo with
  | nil => simp [namedFrom]
  | cons a l ih =>
    rcases a with ⟨m, _ | k⟩
    · simp only [namedFrom]; exact ih memo
    · simp only [namedFrom]
      split_ifs with hk
      · exact ih memo
      · obtain ⟨h1, h2⟩ := ih (k :: memo)
        refine ⟨?_, ?_⟩
        · simp only [List.map_cons, List.nodup_cons]
          refine ⟨?_, h1⟩
          intro hm
          obtain ⟨p, hp, rfl⟩ := List.mem_map.1 hm
          exact h2 p hp (List.mem_cons_self ..)
        · intro p hp
          rcases List.mem_cons.1 hp with rfl | hp'
          · exact hk
          · exact fun hc => h2 p hp' (List.mem_cons_of_mem _ hc)

theorem namedFrom_map_some (memo : List Nat) (l : List (String × Nat)) (h : (l.map Prod.snd).Nodup)
    (hm : ∀ p ∈ l, p.2 ∉ memo) : namedFrom memo (l.map fun p => (p.1, some p.2)) = l := by
  induction l generalizing memo with
  | nil => rfl
  | cons a l ih =>
    simp only [List.map_cons, List.nodup_cons] at h
    simp only [List.map_cons, namedFrom]
    rw [if_neg (hm a (List.mem_cons_self ..)), ih _ h.2]
    intro p hp hc
    rcases List.mem_cons.1 hc with hc' | hc'
    · exact h.1 (hc' ▸ List.mem_map_of_mem hp)
    · exact hm p (List.mem_cons_of_mem _ hp) hc'

/-- Without sharing among the children, all of them are visited. -/
theorem mem_namedFrom {memo : List Nat} {l : List (String × Option Nat)}
    (hn : (l.map Prod.fst).Nodup)
    (hinj : ∀ n m j, (n, some j) ∈ l → (m, some j) ∈ l → n = m)
    (hmemo : ∀ n j, (n, some j) ∈ l → j ∉ memo) {n : String} {j : Nat} (h : (n, some j) ∈ l) :
    (n, j) ∈ namedFrom memo l := by
  induction l generalizing memo with
  | nil => cases h
  | cons a l ih =>
    rcases a with ⟨m, _ | k⟩
    · simp only [List.map_cons, List.nodup_cons] at hn
      simp only [namedFrom]
      rcases List.mem_cons.1 h with h' | h'
      · cases h'
      · exact ih hn.2 (fun n m j a b => hinj n m j (List.mem_cons_of_mem _ a) (List.mem_cons_of_mem _ b))
          (fun n j a => hmemo n j (List.mem_cons_of_mem _ a)) h'
    · simp only [List.map_cons, List.nodup_cons] at hn
      simp only [namedFrom]
      rw [if_neg (hmemo m k (List.mem_cons_self ..))]
      rcases List.mem_cons.1 h with h' | h'
      · cases h'; exact List.mem_cons_self ..
      · refine List.mem_cons_of_mem _ (ih hn.2
          (fun n m j a b => hinj n m j (List.mem_cons_of_mem _ a) (List.mem_cons_of_mem _ b)) ?_ h')
        intro n' j' hm hc
        rcases List.mem_cons.1 hc with rfl | hc'
        · have := hinj n' m j' (List.mem_cons_of_mem _ hm) (List.mem_cons_self ..)
          subst this
          exact hn.1 (List.mem_map.2 ⟨_, hm, rfl⟩)
        · exact hmemo n' j' (List.mem_cons_of_mem _ hm) hc'

theorem mem_namedChildren {h : Nat → Obj P} {i : Nat} (hu : Unshared h i)
    (hn : ((h i).kids.map Prod.fst).Nodup) {n : String} {j : Nat} :
    (n, j) ∈ namedChildren (h i) ↔ child h i n = some j := by
  constructor
  · intro hm
    exact child_of_mem hn (namedFrom_mem hm).1
  · intro hc
    refine mem_namedFrom hn ?_ (by simp) (child_mem hc)
    intro a b k ha hb
    have := hu [a] [b] k (resolve_cons.2 ⟨k, child_of_mem hn ha, rfl⟩)
      (resolve_cons.2 ⟨k, child_of_mem hn hb, rfl⟩)
    simpa using this

theorem namedFrom_eq {memo : List Nat} {l : List (String × Option Nat)}
    (hn : (l.map Prod.fst).Nodup)
    (hinj : ∀ n m j, (n, some j) ∈ l → (m, some j) ∈ l → n = m)
    (hmemo : ∀ n j, (n, some j) ∈ l → j ∉ memo) :
    (namedFrom memo l).map Prod.fst = l.filterMap fun a => a.2.map fun _ => a.1 := by
  induction l generalizing memo with
  | nil => rfl
  | cons a l ih =>
    simp only [List.map_cons, List.nodup_cons] at hn
    have hi' := fun n m j a b => hinj n m j (List.mem_cons_of_mem _ a) (List.mem_cons_of_mem _ b)
    rcases a with ⟨m, _ | k⟩
    · simp only [namedFrom, List.filterMap_cons, Option.map_none]
      exact ih hn.2 hi' fun n j a => hmemo n j (List.mem_cons_of_mem _ a)
    · simp only [namedFrom, List.filterMap_cons, Option.map_some]
      rw [if_neg (hmemo m k (List.mem_cons_self ..)), List.map_cons, ih hn.2 hi']
      intro n' j' hm hc
      rcases List.mem_cons.1 hc with rfl | hc'
      · have := hinj n' m j' (List.mem_cons_of_mem _ hm) (List.mem_cons_self ..)
        subst this
        exact hn.1 (List.mem_map.2 ⟨_, hm, rfl⟩)
      · exact hmemo n' j' (List.mem_cons_of_mem _ hm) hc'

/-- Without sharing, a new container has the names of the old one in the same order. -/
theorem names_newContainer {h : Nat → Obj P} {i : Nat} (hu : Unshared h i)
    (hn : ((h i).kids.map Prod.fst).Nodup) (v : P) (c : Nat) :
    names (newContainer v c (h i)) = names (h i) := by
  have e : names (newContainer v c (h i)) = (namedChildren (h i)).map Prod.fst := by
    simp [names, newContainer, List.filterMap_map, Function.comp_def]
  rw [e]
  refine namedFrom_eq hn ?_ (by simp)
  intro a b k ha hb
  have := hu [a] [b] k (resolve_cons.2 ⟨k, child_of_mem hn ha, rfl⟩)
    (resolve_cons.2 ⟨k, child_of_mem hn hb, rfl⟩)
  simpa using this

theorem namedChildren_newContainer (v : P) (c : Nat) (o : Obj P) :
    namedChildren (newContainer v c o) = namedChildren o := by
  unfold namedChildren newContainer
  have := namedFrom_ids [] o.kids
  exact namedFrom_map_some [] _ this.1 this.2

theorem child_newContainer {h h' : Nat → Obj P} {i i' : Nat} (v : P) (c : Nat) (hu : Unshared h i)
    (hn : ((h i).kids.map Prod.fst).Nodup) (ho : h' i' = newContainer v c (h i)) (n : String) :
    child h' i' n = child h i n := by
  have hk : ((newContainer v c (h i)).kids.map Prod.fst).Nodup := by
    simp only [newContainer, List.map_map, Function.comp_def]
    exact (namedFrom_sublist [] _).nodup hn
  have key : ∀ j, child h' i' n = some j ↔ child h i n = some j := by
    intro j
    rw [← mem_namedChildren hu hn]
    constructor
    · intro hc
      have := child_mem hc
      rw [ho] at this
      simp only [newContainer, List.mem_map, Prod.mk.injEq, Option.some.injEq] at this
      obtain ⟨⟨a, b⟩, h1, rfl, rfl⟩ := this
      exact h1
    · intro hm
      refine child_of_mem (by rw [ho]; exact hk) ?_
      rw [ho]
      exact List.mem_map.2 ⟨_, hm, rfl⟩
  cases hc : child h i n with
  | some j => exact (key j).2 hc
  | none =>
    cases hc' : child h' i' n with
    | none => rfl
    | some j => rw [(key j).1 hc'] at hc; cases hc

/-- An object without children is unshared. -/
theorem unshared_leaf {h : Nat → Obj P} {i : Nat} (h1 : (h i).kids = []) : Unshared h i := by
  have nil : ∀ p x, resolve h i p = some x → p = [] := by
    intro p x hx
    cases p with
    | nil => rfl
    | cons m p =>
      obtain ⟨j, e1, _⟩ := resolve_cons.1 hx
      have := child_mem e1
      rw [h1] at this
      cases this
  intro p q x hp hq
  rw [nil p x hp, nil q x hq]

/-- An object with a single child without children is unshared. -/
theorem unshared_layer {h : Nat → Obj P} {i t : Nat} {n : String} (h1 : (h i).kids = [(n, some t)])
    (h2 : (h t).kids = []) (hne : t ≠ i) : Unshared h i := by
  have key : ∀ p x, resolve h i p = some x → (p = [] ∧ x = i) ∨ (p = [n] ∧ x = t) := by
    intro p x hx
    cases p with
    | nil => simp only [resolve, Option.some.injEq] at hx; exact Or.inl ⟨rfl, hx.symm⟩
    | cons m p =>
      obtain ⟨j, e1, e2⟩ := resolve_cons.1 hx
      have hm := child_mem e1
      rw [h1] at hm
      simp only [List.mem_cons, Prod.mk.injEq, Option.some.injEq, List.not_mem_nil, or_false] at hm
      obtain ⟨rfl, rfl⟩ := hm
      cases p with
      | nil => simp only [resolve, Option.some.injEq] at e2; exact Or.inr ⟨rfl, e2.symm⟩
      | cons b p =>
        obtain ⟨k, e3, _⟩ := resolve_cons.1 e2
        have := child_mem e3
        rw [h2] at this
        cases this
  intro p q x hp hq
  rcases key p x hp with ⟨rfl, e⟩ | ⟨rfl, e⟩ <;> rcases key q x hq with ⟨rfl, e'⟩ | ⟨rfl, e'⟩
  · rfl
  · exact absurd (e'.symm.trans e) hne
  · exact absurd (e.symm.trans e') hne
  · rfl

theorem fullName_ne (nm n : String) (h : n ≠ "") : fullName nm n ≠ "" := by
  unfold fullName
  split_ifs with hm
  · exact h
  · intro hc
    apply hm
    have := congrArg String.length hc
    simp only [String.length_append] at this
    have h0 : nm.length = 0 := by
      have : ("" : String).length = 0 := rfl
      omega
    exact String.length_eq_zero_iff.1 h0

end Aihw.Convert

import Verif.Convert.Analog

/-!
# Names, deep copies and the root — lemmas for C29
-/
namespace Aihw.Convert

variable {P C : Type}

/-! ## Dotted names -/

/-- The full dotted name of the module at path `p` when the root is called `nm`. -/
def fullPath (nm : String) (p : List String) : String :=
  ".".intercalate (if nm = "" then p else nm :: p)

/-- The module at path `p` is excluded: by its own name, or by the name of a module above it other
than the root (excluding the root does not exclude what is below it). -/
def Excluded (ex : List String) (nm : String) (p : List String) : Prop :=
  (p = [] ∧ nm ∈ ex) ∨ ∃ q, q ≠ [] ∧ q <+: p ∧ fullPath nm q ∈ ex

theorem pathName_go (nm : String) (h : nm ≠ "") (p : List String) (hp : ∀ n ∈ p, n ≠ "") :
    pathName nm p = ".".intercalate (nm :: p) := by
  induction p generalizing nm with
  | nil => rw [String.intercalate_singleton]; rfl
  | cons n p ih =>
    have hn := hp n (List.mem_cons_self ..)
    have e : fullName nm n = nm ++ "." ++ n := by simp [fullName, h]
    rw [pathName, ih _ (fullName_ne nm n hn) fun m hm => hp m (List.mem_cons_of_mem _ hm), e,
      String.intercalate_cons_append, String.intercalate_cons_cons]

theorem pathName_eq (nm : String) (p : List String) (hp : ∀ n ∈ p, n ≠ "") :
    pathName nm p = fullPath nm p := by
  unfold fullPath
  by_cases h : nm = ""
  · subst h
    rw [if_pos rfl]
    cases p with
    | nil => rw [String.intercalate_nil]; rfl
    | cons n p =>
      have hn := hp n (List.mem_cons_self ..)
      rw [pathName, show fullName "" n = n by simp [fullName],
        pathName_go n hn p fun m hm => hp m (List.mem_cons_of_mem _ hm)]
  · rw [if_neg h, pathName_go nm h p hp]

theorem resolve_names {st : St P} (hw : WF st) {i : Nat} (hi : i < st.next) {p : List String} {x : Nat}
    (h : resolve st.heap i p = some x) : ∀ n ∈ p, n ≠ "" := by
  induction p generalizing i with
  | nil => simp
  | cons n p ih =>
    obtain ⟨j, h1, h2⟩ := resolve_cons.1 h
    intro m hm
    have hc := child_mem h1
    rcases List.mem_cons.1 hm with rfl | hm'
    · exact hw.names i hi _ _ hc
    · exact ih (hw.closed i hi n j hc) h2 m hm'

/-! ## What the traversal sees -/

def SkipPath (skip : String → Bool) (nm : String) (p : List String) : Prop :=
  ∃ q, q ≠ [] ∧ q <+: p ∧ skip (pathName nm q) = true

def Hid (skip : String → Bool) (L : String → Cls → Bool) (h : Nat → Obj P) (nm : String) (i : Nat)
    (p : List String) : Prop :=
  ∃ q r j, p = q ++ r ∧ r ≠ [] ∧ resolve h i q = some j ∧ ¬SkipPath skip nm q ∧
    L (pathName nm q) (h j).cls = true

theorem skipPath_nil (skip : String → Bool) (nm : String) : ¬SkipPath skip nm [] := by
  rintro ⟨q, h1, h2, _⟩
  exact h1 (List.prefix_nil.1 h2)

theorem skipPath_cons_skip {skip : String → Bool} {nm n : String} (p : List String)
    (h : skip (fullName nm n) = true) : SkipPath skip nm (n :: p) :=
  ⟨[n], by simp, ⟨p, rfl⟩, h⟩

theorem skipPath_cons {skip : String → Bool} {nm n : String} (p : List String)
    (h : skip (fullName nm n) = false) :
    SkipPath skip nm (n :: p) ↔ SkipPath skip (fullName nm n) p := by
  constructor
  · rintro ⟨q, h1, h2, h3⟩
    cases q with
    | nil => exact absurd rfl h1
    | cons m q =>
      obtain ⟨rfl, h4⟩ := List.cons_prefix_cons.1 h2
      refine ⟨q, ?_, h4, h3⟩
      rintro rfl
      rw [show pathName nm [m] = fullName nm m from rfl, h] at h3
      cases h3
  · rintro ⟨q, h1, h2, h3⟩
    exact ⟨n :: q, by simp, List.cons_prefix_cons.2 ⟨rfl, h2⟩, h3⟩

theorem vis_iff (skip : String → Bool) (L : String → Cls → Bool) (h : Nat → Obj P) (nm : String)
    (i : Nat) (p : List String) (j : Nat) (b : Bool) :
    vis skip L h nm i p = some (j, b) ↔
      resolve h i p = some j ∧ ¬Hid skip L h nm i p ∧ (b = true ↔ SkipPath skip nm p) := by
  induction p generalizing nm i with
  | nil =>
    have hh : ¬Hid skip L h nm i [] := by
      rintro ⟨q, r, j, h1, h2, _⟩
      exact h2 (List.append_eq_nil_iff.1 h1.symm).2
    simp only [vis, resolve, Option.some.injEq, Prod.mk.injEq, hh, not_false_eq_true, true_and,
      skipPath_nil, iff_false, Bool.not_eq_true]
    constructor
    · rintro ⟨a, b⟩; exact ⟨a, b.symm⟩
    · rintro ⟨a, b⟩; exact ⟨a, b.symm⟩
  | cons n p ih =>
    simp only [vis]
    by_cases hL : L nm (h i).cls = true
    · rw [if_pos hL]
      have : Hid skip L h nm i (n :: p) :=
        ⟨[], n :: p, i, rfl, by simp, rfl, skipPath_nil _ _, hL⟩
      simp [this]
    rw [if_neg hL]
    cases hc : child h i n with
    | none => simp [resolve, hc]
    | some k =>
      simp only [Option.bind_some, resolve, hc]
      cases hs : skip (fullName nm n) with
      | true =>
        have h1 := skipPath_cons_skip (skip := skip) (nm := nm) (n := n) p hs
        have h2 : ¬Hid skip L h nm i (n :: p) := by
          rintro ⟨q, r, x, e1, e2, e3, e4, e5⟩
          cases q with
          | nil =>
            simp only [resolve, Option.some.injEq] at e3
            subst e3
            exact hL e5
          | cons m q =>
            simp only [List.cons_append, List.cons.injEq] at e1
            obtain ⟨rfl, _⟩ := e1
            exact e4 (skipPath_cons_skip q hs)
        simp only [if_true, Option.map_eq_some_iff, Prod.mk.injEq, h1, h2, iff_true,
          not_false_eq_true, true_and]
        constructor
        · rintro ⟨x, e1, rfl, rfl⟩; exact ⟨e1, rfl⟩
        · rintro ⟨e1, rfl⟩; exact ⟨j, e1, rfl, rfl⟩
      | false =>
        have h1 := skipPath_cons (skip := skip) (nm := nm) (n := n) p hs
        have h2 : Hid skip L h nm i (n :: p) ↔ Hid skip L h (fullName nm n) k p := by
          constructor
          · rintro ⟨q, r, x, e1, e2, e3, e4, e5⟩
            cases q with
            | nil =>
              simp only [resolve, Option.some.injEq] at e3
              subst e3
              exact absurd e5 hL
            | cons m q =>
              simp only [List.cons_append, List.cons.injEq] at e1
              obtain ⟨rfl, e1⟩ := e1
              obtain ⟨k', e6, e7⟩ := resolve_cons.1 e3
              rw [hc] at e6
              cases e6
              exact ⟨q, r, x, e1, e2, e7, fun hh => e4 ((skipPath_cons q hs).2 hh), e5⟩
          · rintro ⟨q, r, x, e1, e2, e3, e4, e5⟩
            exact ⟨n :: q, r, x, by rw [e1]; rfl, e2, resolve_cons.2 ⟨k, hc, e3⟩,
              fun hh => e4 ((skipPath_cons q hs).1 hh), e5⟩
        simp only [Bool.false_eq_true, if_false]
        rw [ih, h1, h2]

/-! ## Deep copies -/

theorem find_map_snd {α β : Type} (f : α → β) (n : String) (l : List (String × α)) :
    find n (l.map fun a => (a.1, f a.2)) = (find n l).map f := by
  induction l with
  | nil => rfl
  | cons a l ih =>
    rcases a with ⟨m, v⟩
    simp only [List.map_cons, find]
    split_ifs
    · rfl
    · exact ih

theorem deepcopy_new (st : St P) (x : Nat) :
    (deepcopy st).heap (x + st.next) =
      { st.heap x with kids := (st.heap x).kids.map fun a => (a.1, a.2.map (· + st.next)) } := by
  simp only [deepcopy]
  rw [if_neg (by omega)]
  simp

theorem deepcopy_old (st : St P) {x : Nat} (hx : x < st.next) : (deepcopy st).heap x = st.heap x := by
  simp only [deepcopy]
  rw [if_pos hx]

theorem child_deepcopy (st : St P) (i : Nat) (n : String) :
    child (deepcopy st).heap (i + st.next) n = (child st.heap i n).map (· + st.next) := by
  unfold child
  rw [deepcopy_new]
  simp only
  rw [find_map_snd]
  cases find n (st.heap i).kids with
  | none => rfl
  | some o => cases o <;> rfl

theorem resolve_deepcopy (st : St P) (i : Nat) (p : List String) :
    resolve (deepcopy st).heap (i + st.next) p = (resolve st.heap i p).map (· + st.next) := by
  induction p generalizing i with
  | nil => rfl
  | cons n p ih =>
    simp only [resolve, child_deepcopy]
    cases child st.heap i n with
    | none => rfl
    | some j => exact ih j

theorem WF.deepcopy {st : St P} (hw : WF st) : WF (deepcopy st) := by
  have hk : ∀ x, ¬x < st.next → ∃ y, x = y + st.next := fun x hx => ⟨x - st.next, by omega⟩
  have hn : (Convert.deepcopy st).next = st.next + st.next := rfl
  refine ⟨?_, ?_, ?_⟩
  · intro x hx
    by_cases hc : x < st.next
    · rw [deepcopy_old st hc]; exact hw.nodup x hc
    · obtain ⟨y, rfl⟩ := hk x hc
      rw [deepcopy_new]
      simp only [List.map_map, Function.comp_def]
      exact hw.nodup y (by omega)
  · intro x hx n o hm
    by_cases hc : x < st.next
    · rw [deepcopy_old st hc] at hm; exact hw.names x hc n o hm
    · obtain ⟨y, rfl⟩ := hk x hc
      rw [deepcopy_new] at hm
      simp only [List.mem_map, Prod.mk.injEq] at hm
      obtain ⟨⟨a, b⟩, h1, rfl, _⟩ := hm
      exact hw.names y (by omega) _ _ h1
  · intro x hx n k hm
    by_cases hc : x < st.next
    · rw [deepcopy_old st hc] at hm
      have := hw.closed x hc n k hm; omega
    · obtain ⟨y, rfl⟩ := hk x hc
      rw [deepcopy_new] at hm
      simp only [List.mem_map, Prod.mk.injEq, Option.map_eq_some_iff] at hm
      obtain ⟨⟨a, b⟩, h1, rfl, z, h2, rfl⟩ := hm
      simp only at h2
      subst h2
      have := hw.closed y (by omega) _ _ h1; omega

theorem Unshared.deepcopy {st : St P} {i : Nat} (hu : Unshared st.heap i) :
    Unshared (Convert.deepcopy st).heap (i + st.next) := by
  intro p q j h1 h2
  rw [resolve_deepcopy] at h1 h2
  obtain ⟨x, hx, rfl⟩ := Option.map_eq_some_iff.1 h1
  obtain ⟨y, hy, e⟩ := Option.map_eq_some_iff.1 h2
  have : y = x := by omega
  subst this
  exact hu p q y hx hy

theorem sameHead_deepcopy (st : St P) (j : Nat) :
    SameHead (st.heap j) ((deepcopy st).heap (j + st.next)) := by
  rw [deepcopy_new]
  refine ⟨rfl, rfl, rfl, ?_⟩
  simp only [names, List.filterMap_map]
  apply List.filterMap_congr
  rintro ⟨n, k⟩ _
  cases k <;> rfl

/-! ## The root -/

/-- The class of the root after `ensure_analog_root`: a module that is not analog becomes an
`AnalogWrapper` of the first class of that *name* wrapped in this process. -/
def rootCls (E : Env P C) (reg : List (String × Nat)) (ensure : Bool) (nm : String) (c : Cls) : Cls :=
  match c with
  | .wrapped c => .wrapped c
  | .plain c =>
    if ensure = true ∧ nm = "" ∧ E.analog c = false then .wrapped ((find (E.name c) reg).getD c)
    else .plain c

theorem finishA_spec (E : Env P C) (ensure : Bool) (nm : String) (i : Nat) (st : St P) (hw : WF st)
    (hi : i < st.next) :
    (finishA E ensure nm i st).2.calls = st.calls ∧
    (∀ x, x < st.next → (finishA E ensure nm i st).2.heap x = st.heap x) ∧
    (finishA E ensure nm i st).2.heap (finishA E ensure nm i st).1 =
      { st.heap i with cls := rootCls E st.registry ensure nm (st.heap i).cls } ∧
    WF (finishA E ensure nm i st).2 ∧ st.next ≤ (finishA E ensure nm i st).2.next ∧
    (finishA E ensure nm i st).1 < (finishA E ensure nm i st).2.next ∧
    ∀ p, p ≠ [] → resolve (finishA E ensure nm i st).2.heap (finishA E ensure nm i st).1 p =
      resolve st.heap i p := by
  have hobj : ∀ o : Obj P, { o with cls := o.cls } = o := fun _ => rfl
  have key : ∀ (reg : List (String × Nat)) (c' : Nat),
      let r := St.alloc { st with registry := reg } { st.heap i with cls := .wrapped c' }
      r.2.calls = st.calls ∧ (∀ x, x < st.next → r.2.heap x = st.heap x) ∧
      r.2.heap r.1 = { st.heap i with cls := .wrapped c' } ∧ WF r.2 ∧ st.next ≤ r.2.next ∧
      r.1 < r.2.next ∧ ∀ p, p ≠ [] → resolve r.2.heap r.1 p = resolve st.heap i p := by
    intro reg c'
    refine ⟨rfl, ?_, by simp [St.alloc], ?_, by simp [St.alloc], by simp [St.alloc], ?_⟩
    · intro x hx; simp only [St.alloc]; rw [if_neg (by omega)]
    · exact (hw.withRegistry reg).alloc _ (hw.nodup i hi) (fun n k h => hw.names i hi n k h)
        fun n k h => hw.closed i hi n k h
    · intro p hp
      cases p with
      | nil => exact absurd rfl hp
      | cons n p =>
        have hc : child (St.alloc { st with registry := reg }
            { st.heap i with cls := .wrapped c' }).2.heap st.next n = child st.heap i n := by
          simp [child, St.alloc]
        change resolve (St.alloc { st with registry := reg }
            { st.heap i with cls := .wrapped c' }).2.heap st.next (n :: p) = _
        simp only [resolve, hc]
        cases hj : child st.heap i n with
        | none => rfl
        | some j =>
          simp only [Option.bind_some]
          refine resolve_congr ?_ p
          intro q x hq
          have := resolve_lt hw (hw.closed i hi n j (child_mem hj)) hq
          simp only [St.alloc]
          rw [if_neg (by omega)]
  have same : rootCls E st.registry ensure nm (st.heap i).cls = (st.heap i).cls →
      finishA E ensure nm i st = (i, st) →
      (finishA E ensure nm i st).2.calls = st.calls ∧
      (∀ x, x < st.next → (finishA E ensure nm i st).2.heap x = st.heap x) ∧
      (finishA E ensure nm i st).2.heap (finishA E ensure nm i st).1 =
        { st.heap i with cls := rootCls E st.registry ensure nm (st.heap i).cls } ∧
      WF (finishA E ensure nm i st).2 ∧ st.next ≤ (finishA E ensure nm i st).2.next ∧
      (finishA E ensure nm i st).1 < (finishA E ensure nm i st).2.next ∧
      ∀ p, p ≠ [] → resolve (finishA E ensure nm i st).2.heap (finishA E ensure nm i st).1 p =
        resolve st.heap i p := by
    intro h1 h2
    rw [h1, h2]
    exact ⟨rfl, fun _ _ => rfl, rfl, hw, le_refl _, hi, fun _ _ => rfl⟩
  cases hc : (st.heap i).cls with
  | wrapped c =>
    rw [hc] at same
    exact same rfl (by simp [finishA, hc, Env.isAnalog])
  | plain c =>
    rw [hc] at same
    by_cases hcond : ensure = true ∧ nm = "" ∧ E.analog c = false
    · have e1 : finishA E ensure nm i st = wrap E i st := by
        simp [finishA, hc, Env.isAnalog, hcond.1, hcond.2.1, hcond.2.2]
      have e2 : rootCls E st.registry ensure nm (.plain c) =
          .wrapped ((find (E.name c) st.registry).getD c) := by
        simp only [rootCls]; rw [if_pos hcond]
      rw [e1, e2]
      unfold wrap
      rw [hc]
      simp only
      cases hf : find (E.name c) st.registry with
      | none => exact key (st.registry ++ [(E.name c, c)]) c
      | some c' => exact key st.registry c'
    · refine same ?_ ?_
      · simp only [rootCls]; rw [if_neg hcond]
      · simp only [finishA, hc, Env.isAnalog]
        rw [if_neg]
        simp only [Bool.and_eq_true, decide_eq_true_eq, Bool.not_eq_true']
        tauto

end Aihw.Convert

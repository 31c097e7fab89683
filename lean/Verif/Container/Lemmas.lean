import Verif.Container.Model
import Mathlib.Data.List.Nodup
import Mathlib.Data.List.Perm.Subperm
import Mathlib.Tactic.Linarith

/-!
# Names and depth-first search
-/
namespace Aihw.Container

variable {σ W : Type}

/-! ## Specification: paths and dotted names -/

/-- The object registered under a name. -/
def child (h : Nat → Obj) (i : Nat) (n : String) : Option Nat := (look n (h i).kids).join

/-- The object reached from `i` by a list of attribute names (`m.a.b.c`). -/
def resolve (h : Nat → Obj) : Nat → List String → Option Nat
  | i, [] => some i
  | i, n :: p => (child h i n).bind fun j => resolve h j p

/-- `"a.b.c"`. -/
def dotted : List String → String
  | [] => ""
  | [n] => n
  | n :: m :: p => n ++ "." ++ dotted (m :: p)

/-- torch's invariants of `_modules` (`add_module` refuses empty names and names with a dot; dictionary
keys are distinct) and all registered objects exist. -/
structure WF (s : Sys σ) : Prop where
  kids : ∀ i n j, (n, some j) ∈ (s.heap i).kids → j < s.size
  names : ∀ i n j, (n, j) ∈ (s.heap i).kids → n ≠ "" ∧ '.' ∉ n.toList
  keys : ∀ i, ((s.heap i).kids.map Prod.fst).Nodup

/-! ## Dotted names -/

theorem dotted_snoc (p : List String) (hp : ∀ n ∈ p, n ≠ "") (n : String) :
    subName (dotted p) n = dotted (p ++ [n]) := by
  induction p with
  | nil => rfl
  | cons a p ih =>
    cases p with
    | nil =>
      unfold subName
      rw [if_neg (show ¬ dotted [a] = "" from hp a (List.mem_cons_self ..))]
      rfl
    | cons b p =>
      have ih := ih (fun n hn => hp n (List.mem_cons_of_mem _ hn))
      have hb : dotted (b :: p) ≠ "" := by
        cases p with
        | nil => exact hp b (by simp)
        | cons c p =>
          intro h
          have := congrArg String.toList h
          simp [dotted] at this
      have ha : dotted (a :: b :: p) ≠ "" := by
        intro h
        have := congrArg String.toList h
        simp [dotted] at this
      unfold subName at ih ⊢
      rw [if_neg hb] at ih
      rw [if_neg ha]
      show a ++ "." ++ dotted (b :: p) ++ "." ++ n = a ++ "." ++ dotted (b :: p ++ [n])
      rw [← ih]
      simp only [String.append_assoc]

theorem split_dot {a b r t : List Char} (ha : '.' ∉ a) (hb : '.' ∉ b)
    (h : a ++ '.' :: r = b ++ '.' :: t) : a = b ∧ r = t := by
  induction a generalizing b with
  | nil =>
    cases b with
    | nil => exact ⟨rfl, by simpa using h⟩
    | cons c b => simp at h; exact absurd (by rw [← h.1]; simp) hb
  | cons c a ih =>
    cases b with
    | nil => simp at h; exact absurd (by rw [h.1]; simp) ha
    | cons d b =>
      simp only [List.cons_append, List.cons.injEq] at h
      obtain ⟨h1, h2⟩ := ih (fun hc => ha (List.mem_cons_of_mem _ hc))
        (fun hc => hb (List.mem_cons_of_mem _ hc)) h.2
      exact ⟨by rw [h.1, h1], h2⟩

theorem dotted_inj (p q : List String) (hp : ∀ n ∈ p, n ≠ "" ∧ '.' ∉ n.toList)
    (hq : ∀ n ∈ q, n ≠ "" ∧ '.' ∉ n.toList) (h : dotted p = dotted q) : p = q := by
  have toL : ∀ (n m : String) (p : List String), (dotted (n :: m :: p)).toList =
      n.toList ++ '.' :: (dotted (m :: p)).toList := by
    intro n m p; simp [dotted]
  induction p generalizing q with
  | nil =>
    cases q with
    | nil => rfl
    | cons b q =>
      exfalso
      cases q with
      | nil => exact (hq b (by simp)).1 h.symm
      | cons c q =>
        have := congrArg String.toList h
        rw [toL] at this
        simp [dotted] at this
  | cons a p ih =>
    cases p with
    | nil =>
      cases q with
      | nil => exact absurd h (hp a (by simp)).1
      | cons b q =>
        cases q with
        | nil => rw [show a = b from h]
        | cons c q =>
          exfalso
          have := congrArg String.toList h
          rw [toL] at this
          exact (hp a (by simp)).2 (by rw [show a.toList = _ from this]; simp)
    | cons a' p =>
      cases q with
      | nil =>
        exfalso
        have := congrArg String.toList h
        rw [toL] at this
        simp [dotted] at this
      | cons b q =>
        cases q with
        | nil =>
          exfalso
          have := congrArg String.toList h
          rw [toL] at this
          exact (hq b (by simp)).2 (by rw [show b.toList = _ from this.symm]; simp)
        | cons c q =>
          have e := congrArg String.toList h
          rw [toL, toL] at e
          obtain ⟨e1, e2⟩ := split_dot (hp a (by simp)).2 (hq b (by simp)).2 e
          have e1 : a = b := String.toList_inj.1 e1
          have e2 : dotted (a' :: p) = dotted (c :: q) := String.toList_inj.1 e2
          rw [e1, ih (c :: q) (fun n hn => hp n (List.mem_cons_of_mem _ hn))
            (fun n hn => hq n (List.mem_cons_of_mem _ hn)) e2]

/-! ## Dictionary lookup -/

theorem look_mem {β : Type} {n : String} {l : List (String × β)} {v : β} (h : look n l = some v) :
    (n, v) ∈ l := by
  induction l with
  | nil => cases h
  | cons p l ih =>
    unfold look at h
    by_cases hp : p.1 = n
    · rw [if_pos hp] at h
      cases h
      rw [← hp]
      exact List.mem_cons_self ..
    · rw [if_neg hp] at h
      exact List.mem_cons_of_mem _ (ih h)

theorem look_of_mem {β : Type} {n : String} {l : List (String × β)} {v : β}
    (hk : (l.map Prod.fst).Nodup) (h : (n, v) ∈ l) : look n l = some v := by
  induction l with
  | nil => cases h
  | cons p l ih =>
    rw [List.map_cons, List.nodup_cons] at hk
    unfold look
    rcases List.mem_cons.1 h with rfl | h
    · rw [if_pos rfl]
    · rw [if_neg, ih hk.2 h]
      rintro rfl
      exact hk.1 (List.mem_map.2 ⟨_, h, rfl⟩)

theorem look_none {β : Type} {n : String} {l : List (String × β)} (h : n ∉ l.map Prod.fst) :
    look n l = none := by
  induction l with
  | nil => rfl
  | cons p l ih =>
    rw [List.map_cons, List.mem_cons, not_or] at h
    unfold look
    rw [if_neg (fun e => h.1 e.symm), ih h.2]

theorem resolve_append (h : Nat → Obj) (i : Nat) (p q : List String) :
    resolve h i (p ++ q) = (resolve h i p).bind fun j => resolve h j q := by
  induction p generalizing i with
  | nil => rfl
  | cons n p ih =>
    simp only [List.cons_append, resolve]
    cases child h i n with
    | none => rfl
    | some j => exact ih j

theorem resolve_names {s : Sys σ} (hw : WF s) {i : Nat} {p : List String} {j : Nat}
    (h : resolve s.heap i p = some j) : ∀ n ∈ p, n ≠ "" ∧ '.' ∉ n.toList := by
  induction p generalizing i with
  | nil => intro n hn; cases hn
  | cons m p ih =>
    simp only [resolve, child] at h
    cases hk : look m (s.heap i).kids with
    | none => rw [hk] at h; cases h
    | some o =>
      rw [hk] at h
      cases o with
      | none => cases h
      | some k =>
        intro n hn
        rcases List.mem_cons.1 hn with rfl | hn
        · exact hw.names i n _ (look_mem hk)
        · exact ih h n hn

/-! ## Depth-first search -/

/-- What a call of `visit` achieves. -/
structure Visited (h : Nat → Obj) (nm : List String) (i : Nat) (memo : List Nat)
    (r : List (String × Nat) × List Nat) : Prop where
  memo_eq : r.2 = (r.1.map Prod.snd).reverse ++ memo
  nodup : r.2.Nodup
  lt : ∀ N, (∀ k n j, (n, some j) ∈ (h k).kids → j < N) → i < N → (∀ k ∈ memo, k < N) → ∀ k ∈ r.2, k < N
  path : ∀ q ∈ r.1, ∃ p, resolve h i p = some q.2 ∧ q.1 = dotted (nm ++ p)
  start : i ∈ r.2
  closed : ∀ q ∈ r.1, ∀ n j, (n, some j) ∈ (h q.2).kids → j ∈ r.2
  hd : i ∉ memo → r.1.head? = some (dotted nm, i)

theorem visit_spec {s : Sys σ} (hw : WF s) (f : Nat) :
    ∀ (nm : List String) (i : Nat) (memo : List Nat), (∀ n ∈ nm, n ≠ "" ∧ '.' ∉ n.toList) →
      i < s.size → memo.Nodup → (∀ k ∈ memo, k < s.size) → s.size ≤ f + memo.length →
      Visited s.heap nm i memo (visit s.heap f (dotted nm) i memo) := by
  induction f with
  | zero =>
    intro nm i memo hnm hi hnd hlt hf
    have hin : i ∈ memo := by
      by_contra hc
      have h1 : (i :: memo).Nodup := List.nodup_cons.2 ⟨hc, hnd⟩
      have h2 : (i :: memo) ⊆ List.range s.size := by
        intro k hk
        rcases List.mem_cons.1 hk with rfl | hk
        · exact List.mem_range.2 hi
        · exact List.mem_range.2 (hlt k hk)
      have := (h1.subperm h2).length_le
      simp at this
      omega
    exact ⟨rfl, hnd, fun N _ _ h => h, (by intro q hq; cases hq), hin, (by intro q hq; cases hq),
      fun h => absurd hin h⟩
  | succ f ih =>
    intro nm i memo hnm hi hnd hlt hf
    unfold visit
    by_cases hin : i ∈ memo
    · rw [if_pos hin]
      exact ⟨rfl, hnd, fun N _ _ h => h, (by intro q hq; cases hq), hin, (by intro q hq; cases hq),
        fun h => absurd hin h⟩
    · rw [if_neg hin]
      -- invariant of the loop over the kids
      have loop : ∀ (ks ks' : List (String × Option Nat)) (a : List (String × Nat) × List Nat),
          (s.heap i).kids = ks' ++ ks →
          a.2 = (a.1.map Prod.snd).reverse ++ memo → a.2.Nodup →
          (∀ N, (∀ k n j, (n, some j) ∈ (s.heap k).kids → j < N) → i < N → (∀ k ∈ memo, k < N) →
            ∀ k ∈ a.2, k < N) →
          (∀ q ∈ a.1, ∃ p, resolve s.heap i p = some q.2 ∧ q.1 = dotted (nm ++ p)) →
          i ∈ a.2 → (∀ q ∈ a.1, q.2 = i ∨ ∀ n j, (n, some j) ∈ (s.heap q.2).kids → j ∈ a.2) →
          (∀ n j, (n, some j) ∈ ks' → j ∈ a.2) → a.1.head? = some (dotted nm, i) →
          memo.length + 1 ≤ a.2.length →
          Visited s.heap nm i memo (ks.foldl (fun a p => match p.2 with
            | none => a
            | some j =>
              let r := visit s.heap f (subName (dotted nm) p.1) j a.2
              (a.1 ++ r.1, r.2)) a) := by
        intro ks
        induction ks with
        | nil =>
          intro ks' a hk h1 h2 h3 h4 h5 h6 h7 h8 _
          refine ⟨h1, h2, h3, h4, h5, ?_, fun _ => h8⟩
          intro q hq n j hj
          rcases h6 q hq with e | e
          · rw [e, hk, List.append_nil] at hj
            exact h7 n j hj
          · exact e n j hj
        | cons kd ks ihk =>
          intro ks' a hk h1 h2 h3 h4 h5 h6 h7 h8 h9
          obtain ⟨n, o⟩ := kd
          rw [List.foldl_cons]
          cases o with
          | none =>
            refine ihk (ks' ++ [(n, none)]) a (by rw [hk]; simp) h1 h2 h3 h4 h5 h6 ?_ h8 h9
            intro m j hj
            rcases List.mem_append.1 hj with hj | hj
            · exact h7 m j hj
            · simp at hj
          | some j =>
            have hmem : (n, some j) ∈ (s.heap i).kids := by rw [hk]; simp
            have hn := hw.names i n _ hmem
            have hch : child s.heap i n = some j := by
              unfold child; rw [look_of_mem (hw.keys i) hmem]; rfl
            have hname : subName (dotted nm) n = dotted (nm ++ [n]) :=
              dotted_snoc nm (fun m hm => (hnm m hm).1) n
            have V := ih (nm ++ [n]) j a.2 (by
                intro m hm
                rcases List.mem_append.1 hm with hm | hm
                · exact hnm m hm
                · rw [List.mem_singleton.1 hm]; exact hn) (hw.kids i n j hmem) h2
              (h3 s.size hw.kids hi hlt) (by omega)
            simp only
            rw [hname]
            generalize visit s.heap f (dotted (nm ++ [n])) j a.2 = r at V
            have sub : ∀ k ∈ a.2, k ∈ r.2 := by
              intro k hk; rw [V.memo_eq]; exact List.mem_append_right _ hk
            refine ihk (ks' ++ [(n, some j)]) (a.1 ++ r.1, r.2) (by rw [hk]; simp) ?_ V.nodup ?_ ?_
              (sub i h5) ?_ ?_ ?_ ?_
            · rw [V.memo_eq, h1]; simp
            · intro N hN hi' hm
              exact V.lt N hN (hN i n j hmem) (h3 N hN hi' hm)
            · intro q hq
              rcases List.mem_append.1 hq with hq | hq
              · exact h4 q hq
              · obtain ⟨p, hp1, hp2⟩ := V.path q hq
                refine ⟨n :: p, ?_, by rw [hp2]; simp⟩
                simp only [resolve, hch, Option.bind_some]
                exact hp1
            · intro q hq
              rcases List.mem_append.1 hq with hq | hq
              · exact (h6 q hq).imp id fun e m k hk => sub k (e m k hk)
              · exact Or.inr fun m k hk => V.closed q hq m k hk
            · intro m k hk
              rcases List.mem_append.1 hk with hk | hk
              · exact sub k (h7 m k hk)
              · simp only [List.mem_singleton, Prod.mk.injEq, Option.some.injEq] at hk
                rw [hk.2]; exact V.start
            · simp [h8, List.head?_append]
            · have e1 := congrArg List.length V.memo_eq
              rw [List.length_append] at e1
              simp only
              omega
      refine loop (s.heap i).kids [] _ rfl (by simp) (List.nodup_cons.2 ⟨hin, hnd⟩) ?_ ?_ (by simp) ?_
        (by intro _ _ h; cases h) rfl (by simp)
      · intro N _ hi' hm k hk
        rcases List.mem_cons.1 hk with rfl | hk
        · exact hi'
        · exact hm k hk
      · intro q hq
        rw [List.mem_singleton.1 hq]
        exact ⟨[], rfl, by simp⟩
      · intro q hq
        rw [List.mem_singleton.1 hq]
        exact Or.inl rfl

end Aihw.Container

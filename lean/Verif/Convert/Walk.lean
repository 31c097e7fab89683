import Verif.Convert.Lemmas
import Mathlib.Data.List.Nodup

/-!
# The traversal on module trees without sharing — lemmas for C29
-/
namespace Aihw.Convert

variable {P : Type}

/-- What is below `i`, as the traversal sees it: nothing below a module that is replaced as a layer,
everything (marked) below a skipped name. -/
def vis (skip : String → Bool) (L : String → Cls → Bool) (h : Nat → Obj P) :
    String → Nat → List String → Option (Nat × Bool)
  | _, i, [] => some (i, false)
  | nm, i, n :: p =>
    if L nm (h i).cls then none
    else (child h i n).bind fun j =>
      if skip (fullName nm n) then (resolve h j p).map fun x => (x, true)
      else vis skip L h (fullName nm n) j p

/-- Parameters of the traversal: which names are skipped, which nodes are replaced as layers, which
nodes cause a call, and how nodes and layers relate to what they are replaced by. -/
structure Spec (P : Type) where
  skip : String → Bool
  L : String → Cls → Bool
  cv : String → Cls → Bool
  Head : String → Obj P → Obj P → Prop
  Lay : String → (Nat → Obj P) → Nat → (Nat → Obj P) → Nat → Prop
  G : String → Obj P → Prop

/-- The relation ignores children. -/
structure Spec.OK (S : Spec P) : Prop where
  head : ∀ nm o o' o₂, S.Head nm o o' → SameHead o' o₂ → S.Head nm o o₂
  lay : ∀ nm h j h' j' h₂ h₂', S.Lay nm h j h' j' →
    (∀ p x, resolve h j p = some x → h₂ x = h x) →
    (∀ p x, resolve h' j' p = some x → h₂' x = h' x) → S.Lay nm h₂ j h₂' j'

/-- Relation between the tree below `i` and the tree below `i'`. -/
structure Core (S : Spec P) (nm : String) (h : Nat → Obj P) (n0 i : Nat) (h' : Nat → Obj P)
    (n1 i' : Nat) : Prop where
  unsh : Unshared h' i'
  reach : ∀ p x, resolve h' i' p = some x → x < n1 ∧ (n0 ≤ x ∨ ∃ q, resolve h i q = some x)
  skipped : ∀ p j, vis S.skip S.L h nm i p = some (j, true) →
    ∃ j', resolve h' i' p = some j' ∧ SameHead (h j) (h' j')
  fwd : ∀ p j, vis S.skip S.L h nm i p = some (j, false) → ∃ j', resolve h' i' p = some j' ∧
    (S.L (pathName nm p) (h j).cls = false → S.Head (pathName nm p) (h j) (h' j')) ∧
    (S.L (pathName nm p) (h j).cls = true → S.Lay (pathName nm p) h j h' j')
  bwd : ∀ p x, resolve h' i' p = some x → (∃ y, vis S.skip S.L h nm i p = some y) ∨
    ∃ q r j, p = q ++ r ∧ r ≠ [] ∧ vis S.skip S.L h nm i q = some (j, false) ∧
      S.L (pathName nm q) (h j).cls = true

/-- The full result of a traversal step. -/
structure Out (S : Spec P) (nm : String) (st : St P) (i : Nat) (st' : St P) (i' : Nat) : Prop where
  mono : st.next ≤ st'.next
  reg : st'.registry = st.registry
  lt : i' < st'.next
  wf : WF st'
  frame : ∀ x, x < st.next → (∀ p, resolve st.heap i p ≠ some x) → st'.heap x = st.heap x
  core : Core S nm st.heap st.next i st'.heap st'.next i'
  calls : ∃ ps : List (List String), st'.calls = st.calls ++ ps.map (pathName nm) ∧ ps.Nodup ∧
    ∀ p, p ∈ ps ↔ ∃ j, vis S.skip S.L st.heap nm i p = some (j, false) ∧
      S.cv (pathName nm p) (st.heap j).cls = true

/-- What converting one module itself must do. -/
structure SelfOK (S : Spec P) (leaf : String → Nat → St P → Except PyErr (Option Nat × St P))
    (nm : String) (st : St P) (i : Nat) (r : Option Nat) (st1 : St P) : Prop where
  mono : st.next ≤ st1.next
  reg : st1.registry = st.registry
  wf : WF st1
  old : ∀ x, x < st.next → st1.heap x = st.heap x
  none_eq : r = none → st1 = st
  some_new : ∀ i1, r = some i1 → st.next ≤ i1 ∧ i1 < st1.next
  calls : st1.calls = st.calls ++ (if S.cv nm (st.heap i).cls then [nm] else [])
  node : S.L nm (st.heap i).cls = false →
    (∀ n, child st1.heap (r.getD i) n = child st.heap i n) ∧
    namedChildren (st1.heap (r.getD i)) = namedChildren (st.heap i) ∧
    S.Head nm (st.heap i) (st1.heap (r.getD i))
  layer : S.L nm (st.heap i).cls = true →
    (∀ p x, resolve st1.heap (r.getD i) p = some x → st.next ≤ x ∧ x < st1.next) ∧
    S.Lay nm st.heap i st1.heap (r.getD i) ∧ Unshared st1.heap (r.getD i) ∧
    ∀ n t, (n, t) ∈ namedChildren (st1.heap (r.getD i)) →
      namedChildren (st1.heap t) = [] ∧ leaf (fullName nm n) t st1 = .ok (none, st1)

theorem vis_resolve {skip : String → Bool} {L : String → Cls → Bool} {h : Nat → Obj P} {nm : String}
    {i : Nat} {p : List String} {x : Nat × Bool} (hv : vis skip L h nm i p = some x) :
    resolve h i p = some x.1 := by
  induction p generalizing nm i with
  | nil => simp only [vis, Option.some.injEq] at hv; subst hv; rfl
  | cons n p ih =>
    simp only [vis] at hv
    by_cases hl : L nm (h i).cls = true
    · rw [if_pos hl] at hv; cases hv
    rw [if_neg hl] at hv
    obtain ⟨j, h1, h2⟩ := Option.bind_eq_some_iff.1 hv
    refine resolve_cons.2 ⟨j, h1, ?_⟩
    split_ifs at h2
    · obtain ⟨y, h3, rfl⟩ := Option.map_eq_some_iff.1 h2
      exact h3
    · exact ih h2

theorem vis_congr {skip : String → Bool} {L : String → Cls → Bool} {h h' : Nat → Obj P} {nm : String}
    {i : Nat} (ha : ∀ p x, resolve h i p = some x → h' x = h x) (p : List String) :
    vis skip L h' nm i p = vis skip L h nm i p := by
  induction p generalizing nm i with
  | nil => rfl
  | cons n p ih =>
    have h0 : h' i = h i := ha [] i rfl
    have hc : child h' i n = child h i n := by simp [child, h0]
    simp only [vis, hc, h0]
    by_cases hl : L nm (h i).cls = true
    · rw [if_pos hl, if_pos hl]
    · rw [if_neg hl, if_neg hl]
      cases hj : child h i n with
      | none => rfl
      | some j =>
        have ha' : ∀ q x, resolve h j q = some x → h' x = h x :=
          fun q x hq => ha (n :: q) x (resolve_cons.2 ⟨j, hj, hq⟩)
        simp only [Option.bind_some]
        rw [resolve_congr ha', ih ha']

/-- Changing the two heaps elsewhere does not matter. -/
theorem Core.congr {S : Spec P} (hS : S.OK) {nm : String} {h h₂ h' h₂' : Nat → Obj P}
    {n0 i n1 i' m0 m1 : Nat} (c : Core S nm h n0 i h' n1 i')
    (ha : ∀ p x, resolve h i p = some x → h₂ x = h x)
    (hb : ∀ p x, resolve h' i' p = some x → h₂' x = h' x)
    (hm : m0 ≤ n0) (hn : n1 ≤ m1) : Core S nm h₂ m0 i h₂' m1 i' where
  unsh p q x h1 h2 := by
    rw [resolve_congr hb] at h1 h2
    exact c.unsh p q x h1 h2
  reach p x hx := by
    rw [resolve_congr hb] at hx
    obtain ⟨h1, h2⟩ := c.reach p x hx
    refine ⟨by omega, ?_⟩
    rcases h2 with h2 | ⟨q, hq⟩
    · exact Or.inl (by omega)
    · exact Or.inr ⟨q, by rw [resolve_congr ha]; exact hq⟩
  skipped p j hj := by
    rw [vis_congr ha] at hj
    obtain ⟨j', h1, h2⟩ := c.skipped p j hj
    refine ⟨j', by rw [resolve_congr hb]; exact h1, ?_⟩
    rw [hb p j' h1, ha p j (vis_resolve hj)]
    exact h2
  fwd p j hj := by
    rw [vis_congr ha] at hj
    obtain ⟨j', h1, h2, h3⟩ := c.fwd p j hj
    have e1 := hb p j' h1
    have e2 := ha p j (vis_resolve hj)
    refine ⟨j', by rw [resolve_congr hb]; exact h1, ?_, ?_⟩
    · rw [e1, e2]; exact h2
    · rw [e2]
      intro hl
      refine hS.lay _ _ _ _ _ _ _ (h3 hl) ?_ ?_
      · intro q x hq
        exact ha (p ++ q) x (resolve_append.2 ⟨j, vis_resolve hj, hq⟩)
      · intro q x hq
        exact hb (p ++ q) x (resolve_append.2 ⟨j', h1, hq⟩)
  bwd p x hx := by
    rw [resolve_congr hb] at hx
    rcases c.bwd p x hx with ⟨y, hy⟩ | ⟨q, r, j, h1, h2, h3, h4⟩
    · exact Or.inl ⟨y, by rw [vis_congr ha]; exact hy⟩
    · refine Or.inr ⟨q, r, j, h1, h2, by rw [vis_congr ha]; exact h3, ?_⟩
      rw [ha q j (vis_resolve h3)]
      exact h4

/-- The relation of one child (registered under `n`) before and after. -/
def KidCore (S : Spec P) (nm n : String) (h : Nat → Obj P) (n0 j : Nat) (h' : Nat → Obj P)
    (n1 k : Nat) : Prop :=
  if S.skip (fullName nm n) then (k = j ∧ Unshared h j) ∧ j < n1 ∧
    ∀ p x, resolve h j p = some x → x < n0 ∧ h' x = h x
  else Core S (fullName nm n) h n0 j h' n1 k

theorem KidCore.reach {S : Spec P} {nm n : String} {h h' : Nat → Obj P} {n0 j n1 k : Nat}
    (hle : n0 ≤ n1) (c : KidCore S nm n h n0 j h' n1 k) (p : List String) (x : Nat)
    (hx : resolve h' k p = some x) : x < n1 ∧ (n0 ≤ x ∨ ∃ q, resolve h j q = some x) := by
  unfold KidCore at c
  split_ifs at c
  · obtain ⟨⟨rfl, _⟩, h1, h2⟩ := c
    rw [resolve_congr fun p x hp => (h2 p x hp).2] at hx
    exact ⟨by have := (h2 p x hx).1; omega, Or.inr ⟨p, hx⟩⟩
  · exact c.reach p x hx

theorem KidCore.unsh {S : Spec P} {nm n : String} {h h' : Nat → Obj P} {n0 j n1 k : Nat}
    (c : KidCore S nm n h n0 j h' n1 k) : Unshared h' k := by
  unfold KidCore at c
  split_ifs at c
  · obtain ⟨⟨rfl, hu⟩, h1, h2⟩ := c
    intro p q x e1 e2
    rw [resolve_congr fun p x hp => (h2 p x hp).2] at e1 e2
    exact hu p q x e1 e2
  · exact c.unsh

theorem KidCore.congr {S : Spec P} (hS : S.OK) {nm n : String} {h h₂ h' h₂' : Nat → Obj P}
    {n0 j n1 k m0 m1 : Nat} (c : KidCore S nm n h n0 j h' n1 k)
    (ha : ∀ p x, resolve h j p = some x → x < m0 ∧ h₂ x = h x)
    (hb : ∀ p x, resolve h' k p = some x → h₂' x = h' x)
    (hm : m0 ≤ n0) (hn : n1 ≤ m1) : KidCore S nm n h₂ m0 j h₂' m1 k := by
  unfold KidCore at c ⊢
  split_ifs at c ⊢
  · obtain ⟨⟨rfl, hu⟩, h1, h2⟩ := c
    refine ⟨⟨rfl, fun p q x e1 e2 => ?_⟩, by omega, fun p x hx => ?_⟩
    · rw [resolve_congr (fun p x hp => (ha p x hp).2)] at e1 e2
      exact hu p q x e1 e2
    have hx' : resolve h k p = some x := by
      rw [← resolve_congr (fun p x hp => (ha p x hp).2)]; exact hx
    have e1 := (h2 p x hx').2
    refine ⟨(ha p x hx').1, ?_⟩
    rw [hb p x (by rw [resolve_congr fun p x hp => (h2 p x hp).2]; exact hx'), e1, (ha p x hx').2]
  · exact c.congr hS (fun p x hp => (ha p x hp).2) hb hm hn

/-- Paths below one child that cause calls. -/
def KidCalls (S : Spec P) (nm : String) (h : Nat → Obj P) (n : String) (j : Nat) (p : List String) :
    Prop :=
  S.skip (fullName nm n) = false ∧ ∃ q x, p = n :: q ∧
    vis S.skip S.L h (fullName nm n) j q = some (x, false) ∧
    S.cv (pathName (fullName nm n) q) (h x).cls = true

theorem KidCalls.congr {S : Spec P} {nm n : String} {h h' : Nat → Obj P} {j : Nat}
    (ha : ∀ p x, resolve h j p = some x → h' x = h x) (p : List String) :
    KidCalls S nm h' n j p ↔ KidCalls S nm h n j p := by
  unfold KidCalls
  constructor
  · rintro ⟨h1, q, x, h2, h3, h4⟩
    rw [vis_congr ha] at h3
    refine ⟨h1, q, x, h2, h3, ?_⟩
    rw [← ha q x (vis_resolve h3)]; exact h4
  · rintro ⟨h1, q, x, h2, h3, h4⟩
    refine ⟨h1, q, x, h2, by rw [vis_congr ha]; exact h3, ?_⟩
    rw [ha q x (vis_resolve h3)]; exact h4

/-- The loop over the children. -/
theorem kidsLoop_out (S : Spec P) (hS : S.OK) (nm : String)
    (step : String → Nat → St P → Except PyErr (Option Nat × St P)) (Pre : String → Nat → (Nat → Obj P) → Prop)
    (hPre : ∀ n j h h', (∀ p x, resolve h j p = some x → h' x = h x) → Pre n j h → Pre n j h')
    (hstep : ∀ n j st r st', WF st → j < st.next → Unshared st.heap j → Pre n j st.heap →
      n ≠ "" → step n j st = .ok (r, st') →
      (S.skip (fullName nm n) = true → r = none ∧ st' = st) ∧
      (S.skip (fullName nm n) = false → Out S (fullName nm n) st j st' (r.getD j))) :
    ∀ (l : List (String × Nat)) (st : St P) (d : List (String × Nat)) (st' : St P),
      WF st → (l.map Prod.fst).Nodup → (∀ a ∈ l, a.1 ≠ "" ∧ a.2 < st.next ∧ Unshared st.heap a.2 ∧
        Pre a.1 a.2 st.heap) →
      (∀ a ∈ l, ∀ b ∈ l, a.1 ≠ b.1 → ∀ p q x, resolve st.heap a.2 p = some x →
        resolve st.heap b.2 q = some x → False) →
      kidsLoop step l st = .ok (d, st') →
      st.next ≤ st'.next ∧ st'.registry = st.registry ∧ WF st' ∧
      (∀ x, x < st.next → (∀ a ∈ l, ∀ p, resolve st.heap a.2 p ≠ some x) →
        st'.heap x = st.heap x) ∧
      (∀ a ∈ d, a.1 ∈ l.map Prod.fst ∧ a.2 < st'.next) ∧
      (∀ a ∈ l, KidCore S nm a.1 st.heap st.next a.2 st'.heap st'.next ((find a.1 d).getD a.2)) ∧
      (∀ a ∈ l, ∀ b ∈ l, a.1 ≠ b.1 → ∀ p q x, resolve st'.heap ((find a.1 d).getD a.2) p = some x →
        resolve st'.heap ((find b.1 d).getD b.2) q = some x → False) ∧
      ∃ ps : List (List String), st'.calls = st.calls ++ ps.map (pathName nm) ∧ ps.Nodup ∧
        ∀ p, p ∈ ps ↔ ∃ a ∈ l, KidCalls S nm st.heap a.1 a.2 p := by
  intro l
  induction l with
  | nil =>
    intro st d st' hw _ _ _ h
    simp only [kidsLoop, Except.ok.injEq, Prod.mk.injEq] at h
    obtain ⟨rfl, rfl⟩ := h
    exact ⟨le_refl _, rfl, hw, fun _ _ _ => rfl, by simp, by simp, by simp, [], by simp, by simp, by simp⟩
  | cons a l ih =>
    intro st d st' hw hnd hall hdis h
    rcases a with ⟨n, j⟩
    simp only [kidsLoop] at h
    rcases hs : step n j st with e | ⟨r, st1⟩
    · rw [hs] at h; simp at h
    rw [hs] at h
    simp only at h
    rcases hl : kidsLoop step l st1 with e | ⟨d1, st2⟩
    · rw [hl] at h; simp at h
    rw [hl] at h
    simp only [Except.ok.injEq, Prod.mk.injEq] at h
    obtain ⟨hd, rfl⟩ := h
    obtain ⟨hne, hj, huj, hpj⟩ := hall (n, j) (List.mem_cons_self ..)
    simp only at hne hj huj hpj
    simp only [List.map_cons, List.nodup_cons] at hnd
    obtain ⟨hsk, hns⟩ := hstep n j st r st1 hw hj huj hpj hne hs
    -- facts about the first step, in both cases
    have F : st.next ≤ st1.next ∧ st1.registry = st.registry ∧ WF st1 ∧ (r.getD j) < st1.next ∧
        (∀ x, x < st.next → (∀ p, resolve st.heap j p ≠ some x) → st1.heap x = st.heap x) ∧
        KidCore S nm n st.heap st.next j st1.heap st1.next (r.getD j) ∧
        ∃ ps : List (List String), st1.calls = st.calls ++ ps.map (pathName nm) ∧ ps.Nodup ∧
          ∀ p, p ∈ ps ↔ KidCalls S nm st.heap n j p := by
      cases hsk' : S.skip (fullName nm n) with
      | true =>
        obtain ⟨rfl, rfl⟩ := hsk hsk'
        refine ⟨le_refl _, rfl, hw, hj, fun _ _ _ => rfl, ?_, [], by simp, by simp, ?_⟩
        · unfold KidCore
          rw [if_pos hsk']
          exact ⟨⟨rfl, huj⟩, hj, fun p x hx => ⟨resolve_lt hw hj hx, rfl⟩⟩
        · intro p
          simp [KidCalls, hsk']
      | false =>
        have o := hns hsk'
        refine ⟨o.mono, o.reg, o.wf, o.lt, o.frame, ?_, ?_⟩
        · unfold KidCore; rw [if_neg (by simp [hsk'])]; exact o.core
        · obtain ⟨ps, h1, h2, h3⟩ := o.calls
          refine ⟨ps.map (n :: ·), ?_, ?_, ?_⟩
          · rw [h1, List.map_map]; rfl
          · exact List.Nodup.map (fun a b (hab : n :: a = n :: b) => (List.cons.inj hab).2) h2
          · intro p
            simp only [List.mem_map, KidCalls, hsk', true_and]
            constructor
            · rintro ⟨q, hq, rfl⟩
              obtain ⟨x, hx1, hx2⟩ := (h3 q).1 hq
              exact ⟨q, x, rfl, hx1, hx2⟩
            · rintro ⟨q, x, rfl, hx1, hx2⟩
              exact ⟨q, (h3 q).2 ⟨x, hx1, hx2⟩, rfl⟩
    obtain ⟨f1, freg, f2, f3, f4, f5, ps1, f6, f7, f8⟩ := F
    -- the remaining children are untouched by the first step
    have agree : ∀ b ∈ l, ∀ p x, resolve st.heap b.2 p = some x → st1.heap x = st.heap x := by
      intro b hb p x hx
      have hbl := (hall b (List.mem_cons_of_mem _ hb)).2.1
      refine f4 x (resolve_lt hw hbl hx) fun q hq => ?_
      refine hdis (n, j) (List.mem_cons_self ..) b (List.mem_cons_of_mem _ hb) ?_ q p x hq hx
      rintro rfl
      exact hnd.1 (List.mem_map_of_mem hb)
    have hres : ∀ b ∈ l, ∀ p, resolve st1.heap b.2 p = resolve st.heap b.2 p := fun b hb p =>
      resolve_congr (agree b hb) p
    obtain ⟨g1, greg, g2, g3, g4, g5, gd, ps2, g6, g7, g8⟩ := ih st1 d1 st2 f2 hnd.2 (by
        intro b hb
        obtain ⟨a1, a2, a3, a4⟩ := hall b (List.mem_cons_of_mem _ hb)
        refine ⟨a1, by omega, ?_, hPre _ _ _ _ (agree b hb) a4⟩
        intro p q x h1 h2
        rw [hres b hb] at h1 h2
        exact a3 p q x h1 h2) (by
        intro a ha b hb hab p q x h1 h2
        rw [hres a ha] at h1
        rw [hres b hb] at h2
        exact hdis a (List.mem_cons_of_mem _ ha) b (List.mem_cons_of_mem _ hb) hab p q x h1 h2) hl
    -- the results of the first step are untouched by the rest
    have stay : ∀ p x, resolve st1.heap (r.getD j) p = some x → st2.heap x = st1.heap x := by
      intro p x hx
      obtain ⟨b1, b2⟩ := f5.reach f1 p x hx
      refine g3 x b1 fun b hb q hq => ?_
      rw [hres b hb] at hq
      have hbl := (hall b (List.mem_cons_of_mem _ hb)).2.1
      rcases b2 with b2 | ⟨q', hq'⟩
      · have := resolve_lt hw hbl hq; omega
      · refine hdis (n, j) (List.mem_cons_self ..) b (List.mem_cons_of_mem _ hb) ?_ q' q x hq' hq
        rintro rfl
        exact hnd.1 (List.mem_map_of_mem hb)
    have hfind : ∀ m, find m d = if m = n then r.or (find m d1) else find m d1 := by
      intro m
      cases r with
      | none => simp only at hd; rw [← hd]; split_ifs <;> rfl
      | some k =>
        simp only at hd
        rw [← hd]
        simp only [find]
        by_cases hmn : m = n
        · subst hmn; simp
        · rw [if_neg (fun h => hmn h.symm), if_neg hmn]
    have hnn : find n d1 = none := by
      apply find_none
      intro hm
      obtain ⟨b, hb, hbn⟩ := List.mem_map.1 hm
      exact hnd.1 (hbn ▸ (g4 b hb).1)
    have hfirst : (find n d).getD j = r.getD j := by
      rw [hfind, if_pos rfl, hnn]; cases r <;> rfl
    have hother : ∀ b ∈ l, find b.1 d = find b.1 d1 := by
      intro b hb
      rw [hfind, if_neg]
      rintro rfl
      exact hnd.1 (List.mem_map_of_mem hb)
    have hdj : ∀ b ∈ l, ∀ p q x, resolve st2.heap (r.getD j) p = some x →
        resolve st2.heap ((find b.1 d1).getD b.2) q = some x → False := by
      intro b hb p q x h1 h2
      rw [resolve_congr stay] at h1
      obtain ⟨b1, b2⟩ := f5.reach f1 p x h1
      have hbl := (hall b (List.mem_cons_of_mem _ hb)).2.1
      obtain ⟨_, c2⟩ := (g5 b hb).reach g1 q x h2
      rcases c2 with c2 | ⟨q', hq'⟩
      · omega
      · rw [hres b hb] at hq'
        have := resolve_lt hw hbl hq'
        rcases b2 with b2 | ⟨q2, hq2⟩
        · omega
        · refine hdis (n, j) (List.mem_cons_self ..) b (List.mem_cons_of_mem _ hb) ?_ q2 q' x hq2 hq'
          rintro rfl
          exact hnd.1 (List.mem_map_of_mem hb)
    refine ⟨by omega, greg.trans freg, g2, ?_, ?_, ?_, ?_, ps1 ++ ps2, ?_, ?_, ?_⟩
    · intro x hx hnot
      rw [g3 x (by omega) ?_, f4 x hx (hnot (n, j) (List.mem_cons_self ..))]
      intro b hb p
      rw [hres b hb]
      exact hnot b (List.mem_cons_of_mem _ hb) p
    · intro b hb
      have hb' : b ∈ d1 ∨ ∃ k, r = some k ∧ b = (n, k) := by
        cases r with
        | none => simp only at hd; rw [← hd] at hb; exact Or.inl hb
        | some k =>
          simp only at hd
          rw [← hd] at hb
          rcases List.mem_cons.1 hb with rfl | hb
          · exact Or.inr ⟨k, rfl, rfl⟩
          · exact Or.inl hb
      rcases hb' with hb' | ⟨k, hk, rfl⟩
      · exact ⟨List.mem_cons_of_mem _ (g4 b hb').1, (g4 b hb').2⟩
      · refine ⟨List.mem_cons_self .., ?_⟩
        rw [hk] at f3
        simp only [Option.getD_some] at f3
        exact lt_of_lt_of_le f3 g1
    · intro b hb
      rcases List.mem_cons.1 hb with rfl | hb'
      · have : (find n d).getD j = r.getD j := by
          rw [hfind, if_pos rfl, hnn]
          cases r <;> rfl
        simp only [this]
        exact f5.congr hS (fun p x hx => ⟨resolve_lt hw hj hx, rfl⟩) stay (le_refl _) g1
      · have hbn : b.1 ≠ n := by
          rintro rfl
          exact hnd.1 (List.mem_map_of_mem hb')
        have : find b.1 d = find b.1 d1 := by rw [hfind, if_neg hbn]
        rw [this]
        have hbl := (hall b hb).2.1
        refine (g5 b hb').congr hS ?_ (fun _ _ _ => rfl) f1 (le_refl _)
        intro p x hx
        rw [hres b hb'] at hx
        exact ⟨resolve_lt hw hbl hx, (agree b hb' p x hx).symm⟩
    · intro a ha b hb hab p q x h1 h2
      rcases List.mem_cons.1 ha with rfl | ha'
      · rcases List.mem_cons.1 hb with rfl | hb'
        · exact hab rfl
        · simp only [hfirst] at h1
          rw [hother b hb'] at h2
          exact hdj b hb' p q x h1 h2
      · rcases List.mem_cons.1 hb with rfl | hb'
        · simp only [hfirst] at h2
          rw [hother a ha'] at h1
          exact hdj a ha' q p x h2 h1
        · rw [hother a ha'] at h1
          rw [hother b hb'] at h2
          exact gd a ha' b hb' hab p q x h1 h2
    · rw [g6, f6, List.map_append, List.append_assoc]
    · refine List.nodup_append.2 ⟨f7, g7, ?_⟩
      intro p hp q hq
      rintro rfl
      obtain ⟨_, q1, _, h1, _⟩ := (f8 p).1 hp
      obtain ⟨b, hb, _, q2, _, h2, _⟩ := (g8 p).1 hq
      rw [h1] at h2
      simp only [List.cons.injEq] at h2
      exact hnd.1 (h2.1 ▸ List.mem_map_of_mem hb)
    · intro p
      rw [List.mem_append, f8, g8]
      constructor
      · rintro (hp | ⟨b, hb, hp⟩)
        · exact ⟨_, List.mem_cons_self .., hp⟩
        · exact ⟨b, List.mem_cons_of_mem _ hb, (KidCalls.congr (agree b hb) p).1 hp⟩
      · rintro ⟨b, hb, hp⟩
        rcases List.mem_cons.1 hb with rfl | hb'
        · exact Or.inl hp
        · exact Or.inr ⟨b, hb', (KidCalls.congr (agree b hb') p).2 hp⟩


/-! ## One node -/

/-- A node that is kept or replaced by a container: its own relation and those of its children. -/
theorem Core.mkNode {S : Spec P} {nm : String} {h h' : Nat → Obj P} {n0 i n1 i1 : Nat}
    (d : String → Nat → Nat) (hle : n0 ≤ n1) (hL : S.L nm (h i).cls = false)
    (hH : S.Head nm (h i) (h' i1))
    (hi1 : i1 < n1) (hnew : n0 ≤ i1 ∨ i1 = i)
    (hc : ∀ n, child h' i1 n = (child h i n).map (d n))
    (hk : ∀ n j, child h i n = some j → KidCore S nm n h n0 j h' n1 (d n j))
    (hdj : ∀ n j m k, child h i n = some j → child h i m = some k → n ≠ m → ∀ p q x,
      resolve h' (d n j) p = some x → resolve h' (d m k) q = some x → False)
    (hac : ∀ n j, child h i n = some j → ∀ p, resolve h' (d n j) p ≠ some i1) :
    Core S nm h n0 i h' n1 i1 where
  unsh p q x h1 h2 := by
    have fst : ∀ n p, resolve h' i1 (n :: p) = some x → ∃ j, child h i n = some j ∧
        resolve h' (d n j) p = some x := by
      intro n p hx
      obtain ⟨k, h1, h2⟩ := resolve_cons.1 hx
      rw [hc] at h1
      obtain ⟨j, h3, rfl⟩ := Option.map_eq_some_iff.1 h1
      exact ⟨j, h3, h2⟩
    cases p with
    | nil =>
      simp only [resolve, Option.some.injEq] at h1
      subst h1
      cases q with
      | nil => rfl
      | cons m q =>
        obtain ⟨j, e1, e2⟩ := fst m q h2
        exact absurd e2 (hac m j e1 q)
    | cons n p =>
      obtain ⟨j, e1, e2⟩ := fst n p h1
      cases q with
      | nil =>
        simp only [resolve, Option.some.injEq] at h2
        subst h2
        exact absurd e2 (hac n j e1 p)
      | cons m q =>
        obtain ⟨k, e3, e4⟩ := fst m q h2
        by_cases hnm : n = m
        · subst hnm
          rw [e1] at e3
          cases e3
          rw [(hk n j e1).unsh p q x e2 e4]
        · exact (hdj n j m k e1 e3 hnm p q x e2 e4).elim
  reach p x hx := by
    cases p with
    | nil =>
      simp only [resolve, Option.some.injEq] at hx
      subst hx
      refine ⟨hi1, ?_⟩
      rcases hnew with h1 | h1
      · exact Or.inl h1
      · exact Or.inr ⟨[], by rw [h1]; rfl⟩
    | cons n p =>
      obtain ⟨k, h1, h2⟩ := resolve_cons.1 hx
      rw [hc] at h1
      obtain ⟨j, h3, rfl⟩ := Option.map_eq_some_iff.1 h1
      obtain ⟨a, b⟩ := (hk n j h3).reach hle p x h2
      refine ⟨a, ?_⟩
      rcases b with b | ⟨q, hq⟩
      · exact Or.inl b
      · exact Or.inr ⟨n :: q, resolve_cons.2 ⟨j, h3, hq⟩⟩
  skipped p j hj := by
    cases p with
    | nil => simp [vis] at hj
    | cons n p =>
      simp only [vis, hL, Bool.false_eq_true, if_false] at hj
      obtain ⟨j0, h1, h2⟩ := Option.bind_eq_some_iff.1 hj
      have k := hk n j0 h1
      unfold KidCore at k
      have hc' : child h' i1 n = some (d n j0) := by rw [hc, h1]; rfl
      by_cases hs : S.skip (fullName nm n) = true
      · rw [if_pos hs] at h2 k
        obtain ⟨y, h3, h4⟩ := Option.map_eq_some_iff.1 h2
        cases h4
        obtain ⟨⟨k1, _⟩, k2, k3⟩ := k
        refine ⟨j, resolve_cons.2 ⟨_, hc', ?_⟩, ?_⟩
        · rw [k1, resolve_congr fun p x hp => (k3 p x hp).2]; exact h3
        · rw [(k3 p j h3).2]; exact ⟨rfl, rfl, rfl, rfl⟩
      · rw [if_neg hs] at h2 k
        obtain ⟨j', h3, h4⟩ := k.skipped p j h2
        exact ⟨j', resolve_cons.2 ⟨_, hc', h3⟩, h4⟩
  fwd p j hj := by
    cases p with
    | nil =>
      simp only [vis, Option.some.injEq, Prod.mk.injEq, and_true] at hj
      subst hj
      exact ⟨i1, rfl, fun _ => hH, fun h => by simp only [pathName] at h; rw [hL] at h; cases h⟩
    | cons n p =>
      simp only [vis, hL, Bool.false_eq_true, if_false] at hj
      obtain ⟨j0, h1, h2⟩ := Option.bind_eq_some_iff.1 hj
      have k := hk n j0 h1
      unfold KidCore at k
      have hc' : child h' i1 n = some (d n j0) := by rw [hc, h1]; rfl
      by_cases hs : S.skip (fullName nm n) = true
      · rw [if_pos hs] at h2
        obtain ⟨y, h3, h4⟩ := Option.map_eq_some_iff.1 h2
        cases h4
      · rw [if_neg hs] at h2 k
        obtain ⟨j', h3, h4⟩ := k.fwd p j h2
        exact ⟨j', resolve_cons.2 ⟨_, hc', h3⟩, h4⟩
  bwd p x hx := by
    cases p with
    | nil => exact Or.inl ⟨(i, false), rfl⟩
    | cons n p =>
      obtain ⟨k0, h1, h2⟩ := resolve_cons.1 hx
      rw [hc] at h1
      obtain ⟨j0, h3, rfl⟩ := Option.map_eq_some_iff.1 h1
      have k := hk n j0 h3
      unfold KidCore at k
      have hv : ∀ q, vis S.skip S.L h nm i (n :: q) =
          if S.skip (fullName nm n) then (resolve h j0 q).map fun x => (x, true)
          else vis S.skip S.L h (fullName nm n) j0 q := by
        intro q
        simp only [vis, hL, Bool.false_eq_true, if_false, h3, Option.bind_some]
      by_cases hs : S.skip (fullName nm n) = true
      · rw [if_pos hs] at k
        obtain ⟨⟨k1, _⟩, k2, k3⟩ := k
        rw [k1, resolve_congr fun p x hp => (k3 p x hp).2] at h2
        exact Or.inl ⟨(x, true), by rw [hv, if_pos hs, h2]; rfl⟩
      · rw [if_neg hs] at k
        rcases k.bwd p x h2 with ⟨y, hy⟩ | ⟨q, r, j, e1, e2, e3, e4⟩
        · exact Or.inl ⟨y, by rw [hv, if_neg hs]; exact hy⟩
        · exact Or.inr ⟨n :: q, r, j, by rw [e1]; rfl, e2, by rw [hv, if_neg hs]; exact e3, e4⟩

/-- A node that is replaced as a layer. -/
theorem Core.mkLayer {S : Spec P} {nm : String} {h h' : Nat → Obj P} {n0 i n1 i1 : Nat}
    (hL : S.L nm (h i).cls = true) (hlay : S.Lay nm h i h' i1)
    (hu : Unshared h' i1)
    (hr : ∀ p x, resolve h' i1 p = some x → n0 ≤ x ∧ x < n1) : Core S nm h n0 i h' n1 i1 where
  unsh := hu
  reach p x hx := ⟨(hr p x hx).2, Or.inl (hr p x hx).1⟩
  skipped p j hj := by
    cases p with
    | nil => simp [vis] at hj
    | cons n p => simp [vis, hL] at hj
  fwd p j hj := by
    cases p with
    | nil =>
      simp only [vis, Option.some.injEq, Prod.mk.injEq, and_true] at hj
      subst hj
      exact ⟨i1, rfl, (fun hh => by have hh' : S.L nm (h i).cls = false := hh; rw [hL] at hh'; cases hh'), fun _ => hlay⟩
    | cons n p => simp [vis, hL] at hj
  bwd p x _ := by
    cases p with
    | nil => exact Or.inl ⟨(i, false), rfl⟩
    | cons n p => exact Or.inr ⟨[], n :: p, i, rfl, by simp, rfl, hL⟩

/-- Calls of a node: its own, then those of its children. -/
theorem calls_node {S : Spec P} {nm : String} {h : Nat → Obj P} {i : Nat}
    (hL : S.L nm (h i).cls = false) (l : List (String × Nat))
    (hl : ∀ n j, (n, j) ∈ l ↔ child h i n = some j) (ps : List (List String)) (hnd : ps.Nodup)
    (hps : ∀ p, p ∈ ps ↔ ∃ a ∈ l, KidCalls S nm h a.1 a.2 p) (p : List String) :
    ((if S.cv nm (h i).cls then [[]] else []) ++ ps).Nodup ∧
    (p ∈ (if S.cv nm (h i).cls then [[]] else []) ++ ps ↔
      ∃ j, vis S.skip S.L h nm i p = some (j, false) ∧ S.cv (pathName nm p) (h j).cls = true) := by
  have hnil : [] ∉ ps := by
    intro hp
    obtain ⟨a, _, _, q, _, h1, _⟩ := (hps []).1 hp
    cases h1
  constructor
  · split_ifs
    · simp only [List.cons_append, List.nil_append, List.nodup_cons]; exact ⟨hnil, hnd⟩
    · simpa using hnd
  · cases p with
    | nil =>
      simp only [vis, Option.some.injEq, Prod.mk.injEq, and_true, exists_eq_left', pathName,
        List.mem_append, hnil, or_false]
      split_ifs with hc <;> simp [hc]
    | cons n p =>
      have e1 : n :: p ∉ (if S.cv nm (h i).cls then [[]] else ([] : List (List String))) := by
        split_ifs <;> simp
      simp only [List.mem_append, e1, false_or, hps]
      constructor
      · rintro ⟨⟨m, j⟩, ha, h1, q, x, h2, h3, h4⟩
        simp only [List.cons.injEq] at h2
        obtain ⟨rfl, rfl⟩ := h2
        refine ⟨x, ?_, h4⟩
        simp only at h1 h3
        simp only [vis, hL, Bool.false_eq_true, if_false, (hl _ _).1 ha, Option.bind_some, h1, h3]
      · rintro ⟨x, h1, h2⟩
        simp only [vis, hL, Bool.false_eq_true, if_false] at h1
        obtain ⟨j, h3, h4⟩ := Option.bind_eq_some_iff.1 h1
        refine ⟨(n, j), (hl _ _).2 h3, ?_⟩
        by_cases hs : S.skip (fullName nm n) = true
        · rw [if_pos hs] at h4
          obtain ⟨y, _, h5⟩ := Option.map_eq_some_iff.1 h4
          cases h5
        · rw [if_neg hs] at h4
          exact ⟨by simpa using hs, p, x, rfl, h4, h2⟩

theorem calls_layer {S : Spec P} {nm : String} {h : Nat → Obj P} {i : Nat}
    (hL : S.L nm (h i).cls = true) (p : List String) :
    (if S.cv nm (h i).cls then [[]] else ([] : List (List String))).Nodup ∧
    (p ∈ (if S.cv nm (h i).cls then [[]] else ([] : List (List String))) ↔
      ∃ j, vis S.skip S.L h nm i p = some (j, false) ∧ S.cv (pathName nm p) (h j).cls = true) := by
  constructor
  · split_ifs <;> simp
  · cases p with
    | nil =>
      simp only [vis, Option.some.injEq, Prod.mk.injEq, and_true, exists_eq_left', pathName]
      split_ifs with hc <;> simp [hc]
    | cons n p =>
      simp only [vis, hL, if_true]
      split_ifs <;> simp

theorem pathNames_self (S : Spec P) (nm : String) (b : Bool) (calls calls' : List String)
    (ps : List (List String))
    (h : calls' = (calls ++ (if b then [nm] else [])) ++ ps.map (pathName nm)) :
    calls' = calls ++ ((if b then [[]] else []) ++ ps).map (pathName nm) := by
  rw [h, List.map_append, List.append_assoc]
  cases b <;> simp [pathName]

/-- A module without children. -/
theorem leaf_out (S : Spec P) (leaf : String → Nat → St P → Except PyErr (Option Nat × St P))
    (nm : String) (st : St P) (i : Nat) (r : Option Nat) (st1 : St P) (hw : WF st)
    (hi : i < st.next) (hu : Unshared st.heap i) (hk : namedChildren (st.heap i) = [])
    (o : SelfOK S leaf nm st i r st1) : Out S nm st i st1 (r.getD i) := by
  have hlt : r.getD i < st1.next := by
    cases r with
    | none => exact lt_of_lt_of_le hi o.mono
    | some k => exact (o.some_new k rfl).2
  have hnew : st.next ≤ r.getD i ∨ r.getD i = i := by
    cases r with
    | none => exact Or.inr rfl
    | some k => exact Or.inl (o.some_new k rfl).1
  have hnoc : ∀ n, child st.heap i n = none := by
    intro n
    cases hc : child st.heap i n with
    | none => rfl
    | some j =>
      have := (mem_namedChildren hu (hw.nodup i hi)).2 hc
      rw [hk] at this; cases this
  have hframe : ∀ x, x < st.next → (∀ p, resolve st.heap i p ≠ some x) → st1.heap x = st.heap x :=
    fun x hx _ => o.old x hx
  cases hL : S.L nm (st.heap i).cls with
  | true =>
    obtain ⟨h1, h2, h4, _⟩ := o.layer hL
    refine ⟨o.mono, o.reg, hlt, o.wf, hframe, Core.mkLayer hL h2 h4 h1, _, ?_, (calls_layer hL []).1,
      fun p => (calls_layer hL p).2⟩
    have := pathNames_self S nm (S.cv nm (st.heap i).cls) st.calls st1.calls [] (by simpa using o.calls)
    simpa using this
  | false =>
    obtain ⟨h1, _, h3⟩ := o.node hL
    have hcn := calls_node (S := S) (nm := nm) hL [] (by simp [hnoc]) [] (by simp) (by simp)
    refine ⟨o.mono, o.reg, hlt, o.wf, hframe, Core.mkNode (fun _ j => j) o.mono hL h3 hlt hnew ?_ ?_ ?_ ?_, _,
      pathNames_self S nm _ _ _ [] (by simpa using o.calls), (hcn []).1, fun p => (hcn p).2⟩
    · intro n; rw [h1, hnoc]; rfl
    · intro n j hc; rw [hnoc] at hc; cases hc
    · intro n j m k hc; rw [hnoc] at hc; cases hc
    · intro n j hc; rw [hnoc] at hc; cases hc

theorem find_replaceKids (n : String) (d : List (String × Nat)) (kids : List (String × Option Nat)) :
    find n (replaceKids d kids) = (find n kids).map fun o => match find n d with
      | some k => some k
      | none => o := by
  induction kids with
  | nil => rfl
  | cons a l ih =>
    rcases a with ⟨m, o⟩
    unfold replaceKids at ih ⊢
    simp only [List.map_cons]
    by_cases hm : m = n
    · subst hm
      cases hd : find m d <;> simp [find, hd]
    · cases hd : find m d <;> simp only [find, hd, hm, if_false] <;> exact ih

theorem replaceKids_fst (d : List (String × Nat)) (kids : List (String × Option Nat)) :
    (replaceKids d kids).map Prod.fst = kids.map Prod.fst := by
  unfold replaceKids
  rw [List.map_map]
  apply List.map_congr_left
  rintro ⟨n, o⟩ _
  simp only [Function.comp]
  cases find n d <;> rfl

theorem names_replaceKids (d : List (String × Nat)) (o : Obj P)
    (h : ∀ n, (n, none) ∈ o.kids → find n d = none) :
    names { o with kids := replaceKids d o.kids } = names o := by
  simp only [names, replaceKids, List.filterMap_map]
  apply List.filterMap_congr
  rintro ⟨n, k⟩ hm
  simp only [Function.comp]
  cases k with
  | none => rw [h n hm]
  | some k => cases find n d <;> rfl

theorem WF.setKids {st : St P} (hw : WF st) (i : Nat) (d : List (String × Nat)) (hi : i < st.next)
    (hd : ∀ a ∈ d, a.2 < st.next) : WF (st.setKids i d) := by
  have hk : ∀ k, ((st.setKids i d).heap k).kids =
      if k = i then replaceKids d (st.heap i).kids else (st.heap k).kids := by
    intro k
    simp only [St.setKids]
    split_ifs <;> rfl
  refine ⟨?_, ?_, ?_⟩
  · intro k hk'
    rw [hk]
    split_ifs with h
    · rw [replaceKids_fst]; exact hw.nodup i hi
    · exact hw.nodup k hk'
  · intro k hk' n o hm
    rw [hk] at hm
    split_ifs at hm with h
    · have : n ∈ (replaceKids d (st.heap i).kids).map Prod.fst := List.mem_map.2 ⟨_, hm, rfl⟩
      rw [replaceKids_fst] at this
      obtain ⟨⟨n', o'⟩, h1, h2⟩ := List.mem_map.1 this
      simp only at h2
      subst h2
      exact hw.names i hi n' o' h1
    · exact hw.names k hk' n o hm
  · intro k hk' n j hm
    rw [hk] at hm
    show j < st.next
    split_ifs at hm with h
    · unfold replaceKids at hm
      obtain ⟨⟨n', o'⟩, h1, h2⟩ := List.mem_map.1 hm
      simp only at h2
      cases hf : find n' d with
      | some k' =>
        rw [hf] at h2
        simp only [Prod.mk.injEq, Option.some.injEq] at h2
        rw [← h2.2]
        exact hd _ (find_mem hf)
      | none =>
        rw [hf] at h2
        simp only [Prod.mk.injEq] at h2
        rw [h2.2] at h1
        exact hw.closed i hi n' j h1
    · exact hw.closed k hk' n j hm

theorem setKids_nil (st : St P) (i : Nat) : st.setKids i [] = st := by
  rcases st with ⟨h, a, b, c⟩
  unfold St.setKids replaceKids
  simp only [find, List.map_id', St.mk.injEq, and_true]
  funext k
  split_ifs with hk
  · subst hk; rfl
  · rfl

theorem kidsLoop_trivial (step : String → Nat → St P → Except PyErr (Option Nat × St P)) (st : St P)
    (l : List (String × Nat)) (h : ∀ a ∈ l, step a.1 a.2 st = .ok (none, st)) :
    kidsLoop step l st = .ok ([], st) := by
  induction l with
  | nil => rfl
  | cons a l ih =>
    rcases a with ⟨n, j⟩
    have h1 := h (n, j) (List.mem_cons_self ..)
    simp only at h1
    simp only [kidsLoop, h1, ih fun a ha => h a (List.mem_cons_of_mem _ ha)]

/-! ## The traversal -/

/-- The traversal on a module tree without sharing. -/
theorem walk_out (S : Spec P) (hS : S.OK)
    (self leaf : String → Nat → St P → Except PyErr (Option Nat × St P))
    (finish : String → Nat → St P → Nat × St P)
    (hfin : ∀ nm i st, nm ≠ "" → finish nm i st = (i, st))
    (hself : ∀ nm i st r st1, WF st → i < st.next → Unshared st.heap i → S.G nm (st.heap i) →
      self nm i st = .ok (r, st1) → SelfOK S leaf nm st i r st1)
    (hleaf : ∀ nm i st r st1, nm ≠ "" → S.skip nm = false → WF st → i < st.next → Unshared st.heap i →
      S.G nm (st.heap i) → namedChildren (st.heap i) = [] → leaf nm i st = .ok (r, st1) →
      SelfOK S leaf nm st i r st1) :
    ∀ (f : Nat) (nm : String) (i : Nat) (st : St P) (res : Nat × St P), WF st → i < st.next →
      Unshared st.heap i →
      (∀ p j, vis S.skip S.L st.heap nm i p = some (j, false) → S.G (pathName nm p) (st.heap j)) →
      walk S.skip self leaf finish f nm i st = .ok res →
      ∃ i1 st1, res = finish nm i1 st1 ∧ Out S nm st i st1 i1 := by
  intro f
  induction f with
  | zero => intro nm i st res _ _ _ _ h; simp [walk] at h
  | succ f ih =>
    intro nm i st res hw hi hu hG h
    rw [walk] at h
    rcases hs : self nm i st with e | ⟨r, st1⟩
    · rw [hs] at h; simp at h
    rw [hs] at h
    simp only at h
    have o := hself nm i st r st1 hw hi hu (hG [] i rfl) hs
    have hlt1 : r.getD i < st1.next := by
      cases r with
      | none => exact lt_of_lt_of_le hi o.mono
      | some k => exact (o.some_new k rfl).2
    have hnew : st.next ≤ r.getD i ∨ r.getD i = i := by
      cases r with
      | none => exact Or.inr rfl
      | some k => exact Or.inl (o.some_new k rfl).1
    set i1 := r.getD i with hi1
    set step : String → Nat → St P → Except PyErr (Option Nat × St P) := fun n j st =>
      if S.skip (fullName nm n) then .ok (none, st)
      else if 0 < (namedChildren (st.heap j)).length then
        (walk S.skip self leaf finish f (fullName nm n) j st).map fun p => (some p.1, p.2)
      else leaf (fullName nm n) j st with hstepdef
    rcases hl : kidsLoop step (namedChildren (st1.heap i1)) st1 with e | ⟨d, st2⟩
    · rw [hl] at h; simp at h
    rw [hl] at h
    simp only [Except.ok.injEq] at h
    refine ⟨i1, st2.setKids i1 d, h.symm, ?_⟩
    cases hL : S.L nm (st.heap i).cls with
    | true =>
      obtain ⟨a1, a2, a4, a3⟩ := o.layer hL
      have ht := kidsLoop_trivial step st1 (namedChildren (st1.heap i1)) (by
        rintro ⟨n, t⟩ ha
        obtain ⟨b1, b2⟩ := a3 n t ha
        simp only [hstepdef, b1, List.length_nil, lt_irrefl, if_false, b2]
        split_ifs <;> rfl)
      rw [ht] at hl
      simp only [Except.ok.injEq, Prod.mk.injEq] at hl
      obtain ⟨rfl, rfl⟩ := hl
      rw [setKids_nil]
      refine ⟨o.mono, o.reg, hlt1, o.wf, fun x hx _ => o.old x hx, Core.mkLayer hL a2 a4 a1, _, ?_,
        (calls_layer hL []).1, fun p => (calls_layer hL p).2⟩
      have := pathNames_self S nm (S.cv nm (st.heap i).cls) st.calls st1.calls [] (by simpa using o.calls)
      simpa using this
    | false =>
      obtain ⟨a1, a2, a3⟩ := o.node hL
      rw [a2] at hl
      have hmem : ∀ n j, (n, j) ∈ namedChildren (st.heap i) ↔ child st.heap i n = some j :=
        fun n j => mem_namedChildren hu (hw.nodup i hi)
      have hjlt : ∀ n j, child st.heap i n = some j → j < st.next := fun n j hc =>
        hw.closed i hi n j (child_mem hc)
      -- the first step did not change the old objects
      have agree : ∀ j, j < st.next → ∀ p x, resolve st.heap j p = some x → st1.heap x = st.heap x :=
        fun j hj p x hx => o.old x (resolve_lt hw hj hx)
      have hres : ∀ j, j < st.next → ∀ p, resolve st1.heap j p = resolve st.heap j p := fun j hj p =>
        resolve_congr (agree j hj) p
      let Pre : String → Nat → (Nat → Obj P) → Prop := fun n j h =>
        S.skip (fullName nm n) = false → ∀ p x, vis S.skip S.L h (fullName nm n) j p = some (x, false) →
          S.G (pathName (fullName nm n) p) (h x)
      obtain ⟨g1, greg, g2, g3, g4, g5, gd, ps, g6, g7, g8⟩ := kidsLoop_out S hS nm step Pre
        (by
          intro n j h h' ha hp hs p x hv
          rw [vis_congr ha] at hv
          rw [ha p x (vis_resolve hv)]
          exact hp hs p x hv)
        (by
          intro n j s r' s' w1 w2 w3 w4 hne hst
          have hfn := fullName_ne nm n hne
          constructor
          · intro hk
            simp only [hstepdef, hk, if_true, Except.ok.injEq, Prod.mk.injEq] at hst
            exact ⟨hst.1.symm, hst.2.symm⟩
          · intro hk
            simp only [hstepdef, hk, Bool.false_eq_true, if_false] at hst
            by_cases hkids : 0 < (namedChildren (s.heap j)).length
            · rw [if_pos hkids] at hst
              rcases hwk : walk S.skip self leaf finish f (fullName nm n) j s with e | ⟨k, s2⟩
              · rw [hwk] at hst; cases hst
              · rw [hwk] at hst
                have hst' : (some k, s2) = (r', s') := Except.ok.inj hst
                simp only [Prod.mk.injEq] at hst'
                obtain ⟨rfl, rfl⟩ := hst'
                obtain ⟨k1, s3, e1, e2⟩ := ih (fullName nm n) j s (k, s2) w1 w2 w3 (w4 hk) hwk
                rw [hfin _ _ _ hfn] at e1
                simp only [Prod.mk.injEq] at e1
                obtain ⟨rfl, rfl⟩ := e1
                exact e2
            · rw [if_neg hkids] at hst
              have hk0 : namedChildren (s.heap j) = [] := List.length_eq_zero_iff.1 (by omega)
              exact leaf_out S leaf _ s j r' s' w1 w2 w3 hk0
                (hleaf _ j s r' s' hfn hk w1 w2 w3 (w4 hk [] j rfl) hk0 hst))
        (namedChildren (st.heap i)) st1 d st2 o.wf
        ((namedFrom_sublist [] _).nodup (hw.nodup i hi))
        (by
          rintro ⟨n, j⟩ ha
          have hc := (hmem n j).1 ha
          have hj := hjlt n j hc
          refine ⟨hw.names i hi n _ (child_mem hc), lt_of_lt_of_le hj o.mono, ?_, ?_⟩
          · intro p q x h1 h2
            rw [hres j hj] at h1 h2
            exact hu.child hc p q x h1 h2
          · intro hs p x hv
            rw [vis_congr (agree j hj)] at hv
            rw [agree j hj p x (vis_resolve hv)]
            refine hG (n :: p) x ?_
            simp only [vis, hL, Bool.false_eq_true, if_false, hc, Option.bind_some, hs]
            exact hv)
        (by
          rintro ⟨n, j⟩ ha ⟨m, k⟩ hb hab p q x h1 h2
          have hc := (hmem n j).1 ha
          have hc' := (hmem m k).1 hb
          rw [hres j (hjlt n j hc)] at h1
          rw [hres k (hjlt m k hc')] at h2
          exact hu.disjoint hc hc' hab p q x h1 h2) hl
      -- the node itself is not touched by the loop
      have hnot : ∀ n j, child st.heap i n = some j → ∀ p, resolve st.heap j p ≠ some i1 := by
        intro n j hc p hp
        rcases hnew with h1 | h1
        · have := resolve_lt hw (hjlt n j hc) hp; omega
        · rw [h1] at hp; exact hu.acyclic hc p hp
      have hst2i : st2.heap i1 = st1.heap i1 := by
        refine g3 i1 hlt1 ?_
        rintro ⟨n, j⟩ ha p
        have hc := (hmem n j).1 ha
        rw [hres j (hjlt n j hc)]
        exact hnot n j hc p
      -- the new children
      have hchild : ∀ n, child (st2.setKids i1 d).heap i1 n =
          (child st.heap i n).map fun j => (find n d).getD j := by
        intro n
        have e0 : child (st2.setKids i1 d).heap i1 n = (find n (replaceKids d (st1.heap i1).kids)).join := by
          simp only [child, St.setKids, if_true, hst2i]
        have e1 : child st1.heap i1 n = child st.heap i n := a1 n
        rw [e0, find_replaceKids]
        unfold child at e1 ⊢
        cases hf : find n (st1.heap i1).kids with
        | none => rw [hf] at e1; rw [← e1]; rfl
        | some q =>
          rw [hf] at e1
          simp only [Option.join] at e1
          cases q with
          | some j =>
            have e2 : (find n (st.heap i).kids).join = some j := e1.symm
            rw [e2]
            cases hd : find n d <;> rfl
          | none =>
            have e2 : (find n (st.heap i).kids).join = none := e1.symm
            rw [e2]
            have : find n d = none := by
              apply find_none
              intro hm
              obtain ⟨b, hb, hbn⟩ := List.mem_map.1 hm
              have := (g4 b hb).1
              rw [hbn] at this
              obtain ⟨⟨n', j⟩, hb2, hb3⟩ := List.mem_map.1 this
              simp only at hb3
              subst hb3
              have := (hmem n' j).1 hb2
              unfold child at this
              rw [e2] at this
              cases this
            rw [this]; rfl
      have hkid : ∀ n j, child st.heap i n = some j →
          KidCore S nm n st.heap st.next j (st2.setKids i1 d).heap st2.next ((find n d).getD j) := by
        intro n j hc
        have hj := hjlt n j hc
        have k := g5 (n, j) ((hmem n j).2 hc)
        simp only at k
        refine k.congr hS ?_ ?_ o.mono (le_refl _)
        · intro p x hx
          rw [hres j hj] at hx
          exact ⟨resolve_lt hw hj hx, (agree j hj p x hx).symm⟩
        · intro p x hx
          obtain ⟨_, b⟩ := k.reach g1 p x hx
          have hne : x ≠ i1 := by
            rintro rfl
            rcases b with b | ⟨q, hq⟩
            · omega
            · rw [hres j hj] at hq; exact hnot n j hc q hq
          simp only [St.setKids, hne, if_false]
      have hnei : ∀ n j, child st.heap i n = some j → ∀ p x,
          resolve st2.heap ((find n d).getD j) p = some x → x ≠ i1 := by
        intro n j hc p x hx
        have hj := hjlt n j hc
        obtain ⟨_, b⟩ := (g5 (n, j) ((hmem n j).2 hc)).reach g1 p x hx
        rintro rfl
        rcases b with b | ⟨q, hq⟩
        · omega
        · rw [hres j hj] at hq; exact hnot n j hc q hq
      have hset : ∀ n j, child st.heap i n = some j → ∀ p,
          resolve (st2.setKids i1 d).heap ((find n d).getD j) p =
            resolve st2.heap ((find n d).getD j) p := by
        intro n j hc p
        refine resolve_congr ?_ p
        intro q x hq
        simp only [St.setKids, hnei n j hc q x hq, if_false]
      have hac : ∀ n j, child st.heap i n = some j → ∀ p,
          resolve (st2.setKids i1 d).heap ((find n d).getD j) p ≠ some i1 := by
        intro n j hc p hx
        rw [hset n j hc] at hx
        exact hnei n j hc p i1 hx rfl
      have hdj : ∀ n j m k, child st.heap i n = some j → child st.heap i m = some k → n ≠ m →
          ∀ p q x, resolve (st2.setKids i1 d).heap ((find n d).getD j) p = some x →
            resolve (st2.setKids i1 d).heap ((find m d).getD k) q = some x → False := by
        intro n j m k h1 h2 hnm p q x hp hq
        rw [hset n j h1] at hp
        rw [hset m k h2] at hq
        exact gd (n, j) ((hmem n j).2 h1) (m, k) ((hmem m k).2 h2) hnm p q x hp hq
      have hhead : S.Head nm (st.heap i) ((st2.setKids i1 d).heap i1) := by
        refine hS.head _ _ _ _ a3 ?_
        simp only [St.setKids, if_true, hst2i]
        refine ⟨rfl, rfl, rfl, names_replaceKids d _ fun n hn => find_none fun hm => ?_⟩
        obtain ⟨b, hb, hbn⟩ := List.mem_map.1 hm
        obtain ⟨⟨n', j⟩, hb2, hb3⟩ := List.mem_map.1 (g4 b hb).1
        have e3 : n' = n := hb3.trans hbn
        subst e3
        have e4 := (hmem n' j).1 hb2
        rw [← a1 n'] at e4
        have e5 := find_of_mem (o.wf.nodup i1 hlt1) hn
        rw [child, e5] at e4
        cases e4
      have hcn := calls_node (S := S) (nm := nm) (h := st.heap) (i := i) hL (namedChildren (st.heap i))
        hmem ps g7 (by
          intro p
          rw [g8]
          constructor
          · rintro ⟨⟨n, j⟩, ha, hp⟩
            exact ⟨(n, j), ha, (KidCalls.congr (agree j (hjlt n j ((hmem n j).1 ha))) p).1 hp⟩
          · rintro ⟨⟨n, j⟩, ha, hp⟩
            exact ⟨(n, j), ha, (KidCalls.congr (agree j (hjlt n j ((hmem n j).1 ha))) p).2 hp⟩)
      refine ⟨le_trans o.mono g1, greg.trans o.reg, lt_of_lt_of_le hlt1 g1, ?_, ?_,
        Core.mkNode (fun n j => (find n d).getD j) (le_trans o.mono g1) hL hhead
          (lt_of_lt_of_le hlt1 g1) hnew hchild hkid hdj hac, _, ?_, (hcn []).1, fun p => (hcn p).2⟩
      · exact g2.setKids i1 d (lt_of_lt_of_le hlt1 g1) fun a ha => (g4 a ha).2
      · intro x hx hnr
        have hne : x ≠ i1 := by
          rintro rfl
          rcases hnew with h1 | h1
          · omega
          · exact hnr [] (by rw [h1]; rfl)
        have e : (st2.setKids i1 d).heap x = st2.heap x := by simp only [St.setKids, hne, if_false]
        rw [e, g3 x (lt_of_lt_of_le hx o.mono) ?_, o.old x hx]
        rintro ⟨n, j⟩ ha p
        have hc := (hmem n j).1 ha
        rw [hres j (hjlt n j hc)]
        intro hp
        exact hnr (n :: p) (resolve_cons.2 ⟨j, hc, hp⟩)
      · apply pathNames_self S nm _ _ _ ps
        have : (st2.setKids i1 d).calls = st2.calls := rfl
        rw [this, g6, o.calls]

end Aihw.Convert

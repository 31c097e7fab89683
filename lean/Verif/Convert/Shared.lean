import Verif.Convert.RoundTrip

/-!
# C29 — shared modules, wrappers, concrete cases
-/
namespace Aihw.Convert

variable {P C : Type}

/-! ## Key lists never change -/

/-- Existing objects keep their child names, nothing is freed. -/
def Keys (st st' : St P) : Prop :=
  st.next ≤ st'.next ∧
  ∀ x, x < st.next → (st'.heap x).kids.map Prod.fst = (st.heap x).kids.map Prod.fst

theorem Keys.refl (st : St P) : Keys st st := ⟨le_refl _, fun _ _ => rfl⟩

theorem Keys.trans {a b c : St P} (h1 : Keys a b) (h2 : Keys b c) : Keys a c :=
  ⟨le_trans h1.1 h2.1, fun x hx => (h2.2 x (lt_of_lt_of_le hx h1.1)).trans (h1.2 x hx)⟩

theorem Keys.alloc (st : St P) (o : Obj P) : Keys st (st.alloc o).2 := by
  refine ⟨by simp [St.alloc], fun x hx => ?_⟩
  simp only [St.alloc]
  rw [if_neg (by omega)]

theorem Keys.setKids (st : St P) (i : Nat) (d : List (String × Nat)) : Keys st (st.setKids i d) := by
  refine ⟨le_refl _, fun x _ => ?_⟩
  simp only [St.setKids]
  split_ifs with h
  · subst h; exact replaceKids_fst d _
  · rfl

def StepKeys (s : String → Nat → St P → Except PyErr (Option Nat × St P)) : Prop :=
  ∀ nm i st r st', s nm i st = .ok (r, st') → Keys st st'

theorem kidsLoop_keys {step : String → Nat → St P → Except PyErr (Option Nat × St P)}
    (hs : StepKeys step) : ∀ (l : List (String × Nat)) (st : St P) d st',
      kidsLoop step l st = .ok (d, st') → Keys st st' := by
  intro l
  induction l with
  | nil => intro st d st' h; cases h; exact Keys.refl _
  | cons a l ih =>
    rcases a with ⟨m, j⟩
    intro st d st' h
    simp only [kidsLoop] at h
    rcases h1 : step m j st with e | ⟨r, st1⟩
    · rw [h1] at h; cases h
    rw [h1] at h
    simp only at h
    rcases h2 : kidsLoop step l st1 with e | ⟨d2, st2⟩
    · rw [h2] at h; cases h
    rw [h2] at h
    simp only [Except.ok.injEq, Prod.mk.injEq] at h
    obtain ⟨_, rfl⟩ := h
    exact (hs _ _ _ _ _ h1).trans (ih _ _ _ h2)

theorem fromDigital_keys (E : Env P C) (t : Target) (nm : String) (i : Nat) (st : St P)
    (res : Nat × St P) (h : fromDigital E t nm i st = .ok res) : Keys st res.2 := by
  have h0 : Keys st { st with calls := st.calls ++ [nm] } := ⟨le_refl _, fun _ _ => rfl⟩
  cases t with
  | container c =>
    simp only [fromDigital, Except.ok.injEq] at h
    subst h
    exact h0.trans (Keys.alloc _ _)
  | layer c =>
    simp only [fromDigital] at h
    rcases he : E.enc c (E.cfgFun nm (st.heap i).cls (st.heap i).val E.cfg) (st.heap i).val with e | v
    · rw [he] at h; cases h
    rw [he] at h
    simp only [Except.ok.injEq] at h
    subst h
    exact (h0.trans (Keys.alloc _ _)).trans (Keys.alloc _ _)

theorem selfA_keys (E : Env P C) (ex : List String) : StepKeys (selfA E ex) := by
  intro nm i st r st' h
  unfold selfA at h
  cases ht : E.target (st.heap i).cls with
  | none => rw [ht] at h; cases h; exact Keys.refl _
  | some t =>
    rw [ht] at h
    simp only at h
    split_ifs at h
    · cases h; exact Keys.refl _
    rcases hf : fromDigital E t nm i st with e | q
    · rw [hf] at h; cases h
    rw [hf] at h
    cases h
    exact fromDigital_keys E t nm i st q hf

theorem leafA_keys (E : Env P C) : StepKeys (leafA E) := by
  intro nm i st r st' h
  unfold leafA at h
  cases ht : E.target (st.heap i).cls with
  | none => rw [ht] at h; cases h; exact Keys.refl _
  | some t =>
    rw [ht] at h
    simp only at h
    rcases hf : fromDigital E t nm i st with e | q
    · rw [hf] at h; cases h
    rw [hf] at h
    cases h
    exact fromDigital_keys E t nm i st q hf

theorem finishA_keys (E : Env P C) (ensure : Bool) (nm : String) (i : Nat) (st : St P) :
    Keys st (finishA E ensure nm i st).2 ∧
    ((finishA E ensure nm i st).2.heap (finishA E ensure nm i st).1).kids = (st.heap i).kids := by
  unfold finishA
  split_ifs
  · unfold wrap
    cases (st.heap i).cls with
    | wrapped c => exact ⟨Keys.refl _, rfl⟩
    | plain c =>
      simp only
      cases find (E.name c) st.registry with
      | some c' => exact ⟨Keys.alloc _ _, by simp [St.alloc]⟩
      | none =>
        have h0 : Keys st { st with registry := st.registry ++ [(E.name c, c)] } :=
          ⟨le_refl _, fun _ _ => rfl⟩
        exact ⟨h0.trans (Keys.alloc _ _), by simp [St.alloc]⟩
  · exact ⟨Keys.refl _, rfl⟩

theorem walk_keys {skip : String → Bool}
    {self leaf : String → Nat → St P → Except PyErr (Option Nat × St P)}
    {finish : String → Nat → St P → Nat × St P} (h1 : StepKeys self) (h2 : StepKeys leaf)
    (h3 : ∀ nm i st, Keys st (finish nm i st).2) :
    ∀ (f : Nat) (nm : String) (i : Nat) (st : St P) (res : Nat × St P),
      walk skip self leaf finish f nm i st = .ok res → Keys st res.2 ∧
      ∃ r st1 st2, self nm i st = .ok (r, st1) ∧ Keys st1 st2 ∧ res = finish nm (r.getD i) st2 := by
  intro f
  induction f with
  | zero => intro nm i st res h; cases h
  | succ f ih =>
    intro nm i st res h
    rw [walk] at h
    rcases hs : self nm i st with e | ⟨r, st1⟩
    · rw [hs] at h; cases h
    rw [hs] at h
    simp only at h
    rcases hl : kidsLoop (fun n j st => if skip (fullName nm n) then .ok (none, st)
      else if 0 < (namedChildren (st.heap j)).length then
        (walk skip self leaf finish f (fullName nm n) j st).map fun p => (some p.1, p.2)
      else leaf (fullName nm n) j st) (namedChildren (st1.heap (r.getD i))) st1 with e | ⟨d, st2⟩
    · rw [hl] at h; cases h
    rw [hl] at h
    simp only [Except.ok.injEq] at h
    have b1 := kidsLoop_keys (by
        intro m j s r' s' hs3
        simp only at hs3
        split_ifs at hs3 with c1 c2
        · cases hs3; exact Keys.refl _
        · rcases hw : walk skip self leaf finish f (fullName nm m) j s with e | q
          · rw [hw] at hs3; cases hs3
          rw [hw] at hs3
          simp only [Except.map, Except.ok.injEq, Prod.mk.injEq] at hs3
          obtain ⟨_, rfl⟩ := hs3
          exact (ih _ _ _ _ hw).1
        · exact h2 _ _ _ _ _ hs3) _ _ _ _ hl
    have b2 := b1.trans (Keys.setKids st2 (r.getD i) d)
    refine ⟨?_, r, st1, st2.setKids (r.getD i) d, rfl, b2, h.symm⟩
    rw [← h]
    exact ((h1 _ _ _ _ _ hs).trans b2).trans (h3 _ _ _)

/-! ## Shared modules in a converted container -/

/-- In a converted container (`Sequential`), a child that is the same module object as an earlier child
is gone: `Sequential(lin1, act, lin2, act)` loses its last element. -/
theorem C29_shared_dropped (E : Env P C) (fuel : Nat) (ex : List String) (nm : String)
    (ensure inplace : Bool) (i : Nat) (st : St P) (i' : Nat) (st' : St P) (hw : WF st)
    (hi : i < st.next) (c c' : Nat) (hc : (st.heap i).cls = .plain c)
    (hm : E.map c = some (.container c')) (hx : nm ∉ ex) (n m : String) (j : Nat)
    (l1 l2 l3 : List (String × Option Nat))
    (hk : (st.heap i).kids = l1 ++ (n, some j) :: l2 ++ (m, some j) :: l3)
    (h : convertToAnalog E fuel ex nm ensure inplace i st = .ok (i', st')) :
    child st'.heap i' m = none := by
  rw [convertToAnalog_start] at h
  obtain ⟨_, r, st1, st2, h1, h2, h3⟩ := walk_keys (selfA_keys E ex) (leafA_keys E)
    (fun nm i st => (finishA_keys E ensure nm i st).1) fuel nm _ _ _ h
  -- the container made from the (copied) object
  have hobj : ∃ o : Obj P, ∃ g : Nat → Nat, (start inplace i st).2.heap (start inplace i st).1 = o ∧
      o.cls = .plain c ∧ o.kids = (st.heap i).kids.map fun a => (a.1, a.2.map g) := by
    cases inplace with
    | true => exact ⟨_, id, rfl, hc, by simp [start]⟩
    | false =>
      refine ⟨_, (· + st.next), rfl, ?_, ?_⟩
      · exact (congrArg Obj.cls (deepcopy_new st i)).trans hc
      · exact congrArg Obj.kids (deepcopy_new st i)
  obtain ⟨o, g, ho, hoc, hok⟩ := hobj
  have hstep : r = some (start inplace i st).2.next ∧
      (start inplace i st).2.next < st1.next ∧
      st1.heap (start inplace i st).2.next = newContainer (E.fresh c') c' o := by
    unfold selfA at h1
    rw [ho, hoc] at h1
    simp only [Env.target, hm, hx, if_false, fromDigital, ho, Except.map, Except.ok.injEq,
      Prod.mk.injEq] at h1
    obtain ⟨rfl, rfl⟩ := h1
    exact ⟨rfl, by simp [St.alloc], by simp [St.alloc]⟩
  obtain ⟨hr, hlt, hnew⟩ := hstep
  subst hr
  have keys : (st'.heap i').kids.map Prod.fst = (namedChildren o).map Prod.fst := by
    have e1 : (i', st') = finishA E ensure nm (start inplace i st).2.next st2 := h3
    have e2 := (finishA_keys E ensure nm (start inplace i st).2.next st2).2
    rw [← e1] at e2
    simp only at e2
    rw [e2, h2.2 _ hlt, hnew]
    simp [newContainer, List.map_map, Function.comp_def]
  have hnot : m ∉ (namedChildren o).map Prod.fst := by
    intro hmem
    obtain ⟨⟨m', x⟩, hx1, hx2⟩ := List.mem_map.1 hmem
    simp only at hx2
    subst hx2
    have hnd := hw.nodup i hi
    rw [hk] at hnd
    have hnd2 : (o.kids.map Prod.fst).Nodup := by
      rw [hok, List.map_map]
      have : (Prod.fst ∘ fun a : String × Option Nat => (a.1, a.2.map g)) = Prod.fst := rfl
      rw [this, hk]; exact hnd
    have hx3 := (namedFrom_mem hx1).1
    have hxj : x = g j := by
      have a1 := find_of_mem hnd2 hx3
      have a2 : (m', some (g j)) ∈ o.kids := by
        rw [hok, hk]
        simp
      have a3 := find_of_mem hnd2 a2
      rw [a1] at a3
      simpa using a3
    subst hxj
    have hne : n ≠ m' := by
      rintro rfl
      simp [List.nodup_append, List.nodup_cons] at hnd
    -- the first occurrence has the name `n` or an earlier one
    have key : ∀ (l l' : List (String × Option Nat)) (memo : List Nat),
        (m', g j) ∈ namedFrom memo (l ++ (n, some (g j)) :: l') → m' ∉ (l.map Prod.fst) → n ≠ m' →
        False := by
      intro l
      induction l with
      | nil =>
        intro l' memo hh _ hnm
        simp only [List.nil_append, namedFrom] at hh
        split_ifs at hh with hmemo
        · exact (namedFrom_mem hh).2 hmemo
        · rcases List.mem_cons.1 hh with e | e
          · exact hnm (by cases e; rfl)
          · exact (namedFrom_mem e).2 (List.mem_cons_self ..)
      | cons a l ih =>
        rcases a with ⟨b, _ | k⟩
        · intro l' memo hh hnl hnm
          simp only [List.cons_append, namedFrom] at hh
          simp only [List.map_cons, List.mem_cons, not_or] at hnl
          exact ih l' memo hh hnl.2 hnm
        · intro l' memo hh hnl hnm
          simp only [List.map_cons, List.mem_cons, not_or] at hnl
          simp only [List.cons_append, namedFrom] at hh
          split_ifs at hh with hmemo
          · exact ih l' memo hh hnl.2 hnm
          · rcases List.mem_cons.1 hh with e | e
            · exact hnl.1 (by cases e; rfl)
            · exact ih l' _ e hnl.2 hnm
    refine key (l1.map fun a => (a.1, a.2.map g))
      ((l2 ++ (m', some j) :: l3).map fun a => (a.1, a.2.map g)) [] ?_ ?_ hne
    · have : o.kids = (l1.map fun a => (a.1, a.2.map g)) ++ (n, some (g j)) ::
          ((l2 ++ (m', some j) :: l3).map fun a => (a.1, a.2.map g)) := by
        rw [hok, hk]; simp
      rw [← this]; exact hx1
    · rw [List.map_map]
      have : (Prod.fst ∘ fun a : String × Option Nat => (a.1, a.2.map g)) = Prod.fst := rfl
      rw [this]
      intro hml
      simp only [List.map_append, List.map_cons, List.append_assoc, List.cons_append] at hnd
      rw [List.nodup_append] at hnd
      exact hnd.2.2 m' hml m' (by simp) rfl
  unfold child
  rw [find_none (by rw [keys]; exact hnot)]
  rfl

/-! ## A concrete conversion -/

/-- Classes: 0 a network class, 1 `Sequential`, 2 `AnalogSequential`, 3 `Linear`, 4 `AnalogLinear`,
5 the tile module, 6 an activation, 7 another class with the name of class 0. -/
def exE : Env Nat String where
  name c := if c = 7 then "Net" else if c = 0 then "Net" else "C" ++ toString c
  analog c := decide (c = 2) || decide (c = 4)
  map c := if c = 1 then some (.container 2) else if c = 3 then some (.layer 4) else none
  dmap c := if c = 2 then some (some (.container 1)) else if c = 4 then some (some (.layer 3)) else none
  tileCls := 5
  shell _ := 0
  enc _ _ v := .ok (v + 100)
  dec _ _ v := .ok (v - 100)
  fresh _ := 0
  cfg := "rpu"
  cfgFun nm _ _ c := c ++ nm

/-- `Net(features=Sequential(Linear, act, Linear), head=Linear)` in evaluation mode. -/
def exHeap : Nat → Obj Nat
  | 0 => ⟨.plain 0, [("features", some 1), ("head", some 5)], false, 3⟩
  | 1 => ⟨.plain 1, [("0", some 2), ("1", some 3), ("2", some 4)], false, 0⟩
  | 2 => ⟨.plain 3, [], false, 7⟩
  | 3 => ⟨.plain 6, [], false, 0⟩
  | 4 => ⟨.plain 3, [], false, 9⟩
  | 5 => ⟨.plain 3, [], false, 11⟩
  | _ => ⟨.plain 6, [], false, 0⟩

def exSt : St Nat := ⟨exHeap, 6, [], []⟩

/-- Observations: class, mode, value of the module at a path. -/
def look (r : Except PyErr (Nat × St Nat)) (p : List String) : Option (Cls × Bool × Nat) :=
  match r with
  | .error _ => none
  | .ok (i, st) => (resolve st.heap i p).map fun j => ((st.heap j).cls, (st.heap j).training, (st.heap j).val)

def callsOf (r : Except PyErr (Nat × St Nat)) : List String :=
  match r with
  | .error _ => []
  | .ok (_, st) => st.calls

theorem exWF : WF exSt where
  nodup i hi := by
    have : i = 0 ∨ i = 1 ∨ i = 2 ∨ i = 3 ∨ i = 4 ∨ i = 5 := by simp only [exSt] at hi; omega
    rcases this with rfl | rfl | rfl | rfl | rfl | rfl <;> decide +kernel
  names i hi n o hm := by
    have : i = 0 ∨ i = 1 ∨ i = 2 ∨ i = 3 ∨ i = 4 ∨ i = 5 := by simp only [exSt] at hi; omega
    rcases this with rfl | rfl | rfl | rfl | rfl | rfl <;> simp [exSt, exHeap] at hm <;> aesop
  closed i hi n j hm := by
    have : i = 0 ∨ i = 1 ∨ i = 2 ∨ i = 3 ∨ i = 4 ∨ i = 5 := by simp only [exSt] at hi; omega
    rcases this with rfl | rfl | rfl | rfl | rfl | rfl <;> simp [exSt, exHeap] at hm ⊢ <;> aesop

def exPaths : List (List String × Nat) :=
  [([], 0), (["features"], 1), (["features", "0"], 2), (["features", "1"], 3), (["features", "2"], 4),
    (["head"], 5)]

theorem exResolve (p : List String) (j : Nat) (h : resolve exHeap 0 p = some j) : (p, j) ∈ exPaths := by
  have leaf : ∀ (k : Nat) (q : List String) (x : Nat), (exHeap k).kids = [] →
      resolve exHeap k q = some x → q = [] ∧ x = k := by
    intro k q x hk hq
    cases q with
    | nil => simp only [resolve, Option.some.injEq] at hq; exact ⟨rfl, hq.symm⟩
    | cons a q =>
      obtain ⟨y, h1, _⟩ := resolve_cons.1 hq
      have := child_mem h1
      rw [hk] at this
      cases this
  cases p with
  | nil => simp only [resolve, Option.some.injEq] at h; subst h; simp [exPaths]
  | cons a p =>
    obtain ⟨y, h1, h2⟩ := resolve_cons.1 h
    have hm := child_mem h1
    simp only [exHeap, List.mem_cons, Prod.mk.injEq, Option.some.injEq, List.not_mem_nil, or_false] at hm
    rcases hm with ⟨rfl, rfl⟩ | ⟨rfl, rfl⟩
    · cases p with
      | nil => simp only [resolve, Option.some.injEq] at h2; subst h2; simp [exPaths]
      | cons b p =>
        obtain ⟨z, h3, h4⟩ := resolve_cons.1 h2
        have hm := child_mem h3
        simp only [exHeap, List.mem_cons, Prod.mk.injEq, Option.some.injEq, List.not_mem_nil,
          or_false] at hm
        rcases hm with ⟨rfl, rfl⟩ | ⟨rfl, rfl⟩ | ⟨rfl, rfl⟩
        · obtain ⟨rfl, rfl⟩ := leaf 2 p j rfl h4; simp [exPaths]
        · obtain ⟨rfl, rfl⟩ := leaf 3 p j rfl h4; simp [exPaths]
        · obtain ⟨rfl, rfl⟩ := leaf 4 p j rfl h4; simp [exPaths]
    · obtain ⟨rfl, rfl⟩ := leaf 5 p j rfl h2; simp [exPaths]

/-- The hypotheses of the C29 theorems hold of this model. -/
example : WF exSt ∧ (0 : Nat) < exSt.next ∧ Unshared exSt.heap 0 ∧ Inverse exE ∧
    Digital exE exSt.heap 0 := by
  refine ⟨exWF, by decide, ?_, ?_, ?_⟩
  · intro p q j hp hq
    have h1 := exResolve p j hp
    have h2 := exResolve q j hq
    simp only [exPaths, List.mem_cons, Prod.mk.injEq, List.not_mem_nil, or_false] at h1 h2
    rcases h1 with ⟨rfl, rfl⟩ | ⟨rfl, rfl⟩ | ⟨rfl, rfl⟩ | ⟨rfl, rfl⟩ | ⟨rfl, rfl⟩ | ⟨rfl, rfl⟩ <;>
      simp at h2 <;> exact h2.symm
  · refine ⟨rfl, rfl, ?_, ?_, ?_, ?_⟩
    · intro c c' h
      simp only [exE] at h ⊢
      split_ifs at h <;> simp at h <;> subst h <;> rfl
    · intro c c' h
      simp only [exE] at h ⊢
      split_ifs at h <;> simp at h
      subst h; simp_all
    · intro c c' h
      simp only [exE] at h ⊢
      split_ifs at h <;> simp at h
      subst h; simp_all
    · intro c c' cfg v tv _ h
      simp only [exE, Except.ok.injEq] at h ⊢
      omega
  · refine ⟨?_, ?_, ?_⟩
    · intro p j hp
      have h1 := exResolve p j hp
      simp only [exPaths, List.mem_cons, Prod.mk.injEq, List.not_mem_nil, or_false] at h1
      rcases h1 with ⟨rfl, rfl⟩ | ⟨rfl, rfl⟩ | ⟨rfl, rfl⟩ | ⟨rfl, rfl⟩ | ⟨rfl, rfl⟩ | ⟨rfl, rfl⟩ <;>
        exact ⟨_, rfl, rfl⟩
    · intro p j c hp ht
      have h1 := exResolve p j hp
      simp only [exPaths, List.mem_cons, Prod.mk.injEq, List.not_mem_nil, or_false] at h1
      rcases h1 with ⟨rfl, rfl⟩ | ⟨rfl, rfl⟩ | ⟨rfl, rfl⟩ | ⟨rfl, rfl⟩ | ⟨rfl, rfl⟩ | ⟨rfl, rfl⟩ <;>
        first | rfl | (simp [exSt, exHeap, Env.target, exE] at ht)
    · intro p j c hp ht
      have h1 := exResolve p j hp
      simp only [exPaths, List.mem_cons, Prod.mk.injEq, List.not_mem_nil, or_false] at h1
      rcases h1 with ⟨rfl, rfl⟩ | ⟨rfl, rfl⟩ | ⟨rfl, rfl⟩ | ⟨rfl, rfl⟩ | ⟨rfl, rfl⟩ | ⟨rfl, rfl⟩ <;>
        first | exact ⟨1, rfl, rfl⟩ | (simp [exSt, exHeap, Env.target, exE] at ht)

/-- The conversion succeeds: the network is wrapped, the layers are analog, `features.2` is excluded,
converted modules are back in training mode, the configuration function saw the dotted names. -/
example :
    let r := convertToAnalog exE 5 ["features.2"] "" true false 0 exSt
    look r [] = some (.wrapped 0, false, 3) ∧
    look r ["features"] = some (.plain 2, true, 0) ∧
    look r ["features", "0"] = some (.plain 4, true, 0) ∧
    look r ["features", "0", "analog_module"] = some (.plain 5, true, 107) ∧
    look r ["features", "1"] = some (.plain 6, false, 0) ∧
    look r ["features", "2"] = some (.plain 3, false, 9) ∧
    look r ["head", "analog_module"] = some (.plain 5, true, 111) ∧
    callsOf r = ["features", "features.0", "head"] := by decide +kernel

/-- The way back. -/
example :
    (match convertToAnalog exE 5 [] "" true false 0 exSt with
      | .error _ => []
      | .ok (i, st) =>
        [[], ["features"], ["features", "0"], ["features", "2"], ["head"], ["head", "analog_module"]].map
          (look (convertToDigital exE 5 "" false i st))) =
      [some (.plain 0, false, 3), some (.plain 1, true, 0), some (.plain 3, true, 7),
        some (.plain 3, true, 9), some (.plain 3, true, 11), none] := by decide +kernel

/-! ## Findings -/

/-- `Sequential(lin1, act, lin2, act)` with one activation object. -/
def exShared : St Nat :=
  ⟨fun k => match k with
    | 0 => ⟨.plain 1, [("0", some 1), ("1", some 2), ("2", some 3), ("3", some 2)], true, 0⟩
    | 1 => ⟨.plain 3, [], true, 7⟩
    | 2 => ⟨.plain 6, [], true, 0⟩
    | 3 => ⟨.plain 3, [], true, 9⟩
    | _ => ⟨.plain 6, [], true, 0⟩, 4, [], []⟩

/-- The converted model has three elements instead of four. -/
example :
    let r := convertToAnalog exE 5 [] "" true false 0 exShared
    look r ["1"] = some (.plain 6, true, 0) ∧ look r ["2"] = some (.plain 4, true, 0) ∧
    look r ["3"] = none := by decide +kernel

/-- A network with a tied layer: `encoder` and `decoder` are the same `Linear` object. -/
def exTied : St Nat :=
  ⟨fun k => match k with
    | 0 => ⟨.plain 0, [("encoder", some 1), ("decoder", some 1)], true, 0⟩
    | 1 => ⟨.plain 3, [], true, 7⟩
    | _ => ⟨.plain 6, [], true, 0⟩, 2, [], []⟩

/-- Tied layers are untied by the conversion: after `convert_to_analog` the first name is an analog
layer and the second still the digital one; they are no longer the same object. -/
theorem C29_shared_untied : ∃ (E : Env Nat String) (st : St Nat) (i' : Nat) (st' : St Nat) (a b : Nat),
    WF st ∧ resolve st.heap 0 ["encoder"] = resolve st.heap 0 ["decoder"] ∧
    convertToAnalog E 5 [] "" true false 0 st = .ok (i', st') ∧
    resolve st'.heap i' ["encoder"] = some a ∧ resolve st'.heap i' ["decoder"] = some b ∧ a ≠ b ∧
    E.target (st'.heap b).cls ≠ none ∧ E.isAnalog (st'.heap a).cls = true := by
  have h : ∃ r, convertToAnalog exE 5 [] "" true false 0 exTied = .ok r ∧
      resolve r.2.heap r.1 ["encoder"] = some 5 ∧ resolve r.2.heap r.1 ["decoder"] = some 3 ∧
      exE.target (r.2.heap 3).cls ≠ none ∧ exE.isAnalog (r.2.heap 5).cls = true := by
    refine ⟨_, rfl, ?_⟩
    decide +kernel
  obtain ⟨⟨i', st'⟩, h1, h2, h3, h4, h5⟩ := h
  refine ⟨exE, exTied, i', st', 5, 3, ?_, by decide +kernel, h1, h2, h3, by decide, h4, h5⟩
  refine ⟨?_, ?_, ?_⟩
  · intro i hi
    have : i = 0 ∨ i = 1 := by simp only [exTied] at hi; omega
    rcases this with rfl | rfl <;> decide +kernel
  · intro i hi n o hm
    have : i = 0 ∨ i = 1 := by simp only [exTied] at hi; omega
    rcases this with rfl | rfl <;> simp [exTied] at hm <;> aesop
  · intro i hi n j hm
    have : i = 0 ∨ i = 1 := by simp only [exTied] at hi; omega
    rcases this with rfl | rfl <;> simp [exTied] at hm ⊢ <;> aesop

/-- The wrapper class is looked up by class *name*: if another class of the same name was wrapped
before, the converted root becomes an instance of (a subclass of) that other class. -/
theorem C29_wrapper_by_name (E : Env P C) (hT : E.map E.tileCls = none) (fuel : Nat)
    (ex : List String) (inplace : Bool) (i : Nat) (st : St P) (i' : Nat) (st' : St P)
    (hw : WF st) (hi : i < st.next) (hu : Unshared st.heap i) (c k : Nat)
    (hc : (st.heap i).cls = .plain c) (hm : E.map c = none) (ha : E.analog c = false)
    (hk : find (E.name c) st.registry = some k)
    (h : convertToAnalog E fuel ex "" true inplace i st = .ok (i', st')) :
    (st'.heap i').cls = .wrapped k := by
  have hh : ¬Hidden E ex "" st.heap i [] := by
    rintro ⟨q, r, j, c, e1, e2, _⟩
    exact e2 (List.append_eq_nil_iff.1 e1.symm).2
  obtain ⟨j', k1, k2, _, _⟩ := C29_converted E hT fuel ex "" true inplace i st i' st' hw hi hu h [] i rfl hh
  simp only [resolve, Option.some.injEq] at k1
  subst k1
  have := (k2 (Or.inr (by rw [hc]; exact hm))).1
  rw [this, hc]
  simp [finalCls, rootCls, ha, hk]

/-- Two different classes called `Net`. -/
example : exE.name 0 = exE.name 7 ∧
    (match convertToAnalog exE 5 [] "" true false 0 exSt with
      | .error _ => none
      | .ok (_, st) =>
        look (convertToAnalog exE 5 [] "" true false st.next
          { st with heap := fun k => if k = st.next then ⟨.plain 7, [], true, 4⟩ else st.heap k,
                    next := st.next + 1 }) []) = some (.wrapped 0, true, 4) := by decide +kernel

/-- Excluding the root by its (empty) name does not exclude what is below. -/
example :
    let r := convertToAnalog exE 5 [""] "" true false 0 { exSt with
      heap := fun k => if k = 0 then ⟨.plain 1, [("features", some 1), ("head", some 5)], false, 0⟩
        else exHeap k }
    look r [] = some (.wrapped 1, false, 0) ∧ look r ["head"] = some (.plain 4, true, 0) := by
  decide +kernel

end Aihw.Convert

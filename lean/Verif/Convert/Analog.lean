import Verif.Convert.Walk

/-!
# `convert_to_analog` as an instance of the traversal — lemmas for C29
-/
namespace Aihw.Convert

variable {P C : Type}

def tgtA (E : Env P C) (ex : List String) (nm : String) (c : Cls) : Option Target :=
  if nm ∈ ex then none else E.target c

def isLayer : Option Target → Bool
  | some (.layer _) => true
  | _ => false

def headA (E : Env P C) (o o' : Obj P) : Option Target → Prop
  | none => SameHead o o'
  | some (.container c) => o'.cls = .plain c ∧ o'.training = true ∧ o'.val = E.fresh c ∧
      names o' = names o
  | some (.layer _) => False

def SA (E : Env P C) (ex : List String) : Spec P where
  skip f := decide (f ∈ ex)
  L nm c := isLayer (tgtA E ex nm c)
  cv nm c := (tgtA E ex nm c).isSome
  Head nm o o' := headA E o o' (tgtA E ex nm o.cls)
  Lay nm h j h' j' := ∃ (c t : Nat) (v : P), tgtA E ex nm (h j).cls = some (.layer c) ∧
    E.enc c (E.cfgFun nm (h j).cls (h j).val E.cfg) (h j).val = .ok v ∧
    h' j' = ⟨.plain c, [("analog_module", some t)], true, E.shell (h j).val⟩ ∧
    h' t = ⟨.plain E.tileCls, [], true, v⟩
  G _ _ := True

theorem SA_ok (E : Env P C) (ex : List String) : (SA E ex).OK where
  head nm o o' o₂ h1 h2 := by
    simp only [SA] at h1 ⊢
    obtain ⟨a1, a2, a3, a4⟩ := h2
    revert h1
    cases tgtA E ex nm o.cls with
    | none =>
      rintro ⟨b1, b2, b3, b4⟩
      exact ⟨a1.trans b1, a2.trans b2, a3.trans b3, a4.trans b4⟩
    | some t =>
      cases t with
      | container c =>
        rintro ⟨b1, b2, b3, b4⟩
        exact ⟨a1.trans b1, a2.trans b2, a3.trans b3, a4.trans b4⟩
      | layer c => exact fun h => h
  lay nm h j h' j' h₂ h₂' hl ha hb := by
    obtain ⟨c, t, v, e1, e2, e3, e4⟩ := hl
    have h0 := ha [] j rfl
    have h1 := hb [] j' rfl
    have h2 := hb ["analog_module"] t (by simp [resolve, child, e3, find])
    exact ⟨c, t, v, by rw [h0]; exact e1, by rw [h0]; exact e2, by rw [h0, h1]; exact e3,
      by rw [h2]; exact e4⟩

/-- Allocation keeps the heap well formed. -/
theorem WF.alloc {st : St P} (hw : WF st) (o : Obj P) (h1 : (o.kids.map Prod.fst).Nodup)
    (h2 : ∀ n k, (n, k) ∈ o.kids → n ≠ "") (h3 : ∀ n k, (n, some k) ∈ o.kids → k < st.next) :
    WF (st.alloc o).2 where
  nodup i hi := by
    simp only [St.alloc] at hi ⊢
    split_ifs with hc
    · exact h1
    · exact hw.nodup i (by omega)
  names i hi n k hm := by
    simp only [St.alloc] at hi hm
    split_ifs at hm with hc
    · exact h2 n k hm
    · exact hw.names i (by omega) n k hm
  closed i hi n k hm := by
    simp only [St.alloc] at hi hm ⊢
    split_ifs at hm with hc
    · have := h3 n k hm; omega
    · have := hw.closed i (by omega) n k hm; omega

theorem WF.withCalls {st : St P} (hw : WF st) (l : List String) : WF { st with calls := l } :=
  ⟨hw.nodup, hw.names, hw.closed⟩

theorem WF.withRegistry {st : St P} (hw : WF st) (l : List (String × Nat)) :
    WF { st with registry := l } :=
  ⟨hw.nodup, hw.names, hw.closed⟩

theorem WF.allocContainer {st : St P} (hw : WF st) {i : Nat} (hi : i < st.next) (v : P) (c : Nat) :
    WF (st.alloc (newContainer v c (st.heap i))).2 := by
  have hk : (newContainer v c (st.heap i)).kids.map Prod.fst = (namedChildren (st.heap i)).map Prod.fst := by
    simp [Convert.newContainer, List.map_map, Function.comp_def]
  refine hw.alloc _ ?_ ?_ ?_
  · rw [hk]; exact (namedFrom_sublist [] _).nodup (hw.nodup i hi)
  · intro n k hm
    simp only [Convert.newContainer, List.mem_map, Prod.mk.injEq] at hm
    obtain ⟨⟨a, b⟩, h1, rfl, _⟩ := hm
    exact hw.names i hi _ _ (namedFrom_mem h1).1
  · intro n k hm
    simp only [Convert.newContainer, List.mem_map, Prod.mk.injEq, Option.some.injEq] at hm
    obtain ⟨⟨a, b⟩, h1, rfl, rfl⟩ := hm
    exact hw.closed i hi _ _ (namedFrom_mem h1).1

theorem leafA_tile (E : Env P C) (hT : E.map E.tileCls = none) (nm : String) (i : Nat) (st : St P)
    (h : (st.heap i).cls = .plain E.tileCls) : leafA E nm i st = .ok (none, st) := by
  simp [leafA, h, Env.target, hT]

theorem fromDigital_ok (E : Env P C) (hT : E.map E.tileCls = none) (ex : List String) (t : Target)
    (nm : String) (i : Nat) (st : St P) (res : Nat × St P) (hw : WF st) (hi : i < st.next)
    (hu : Unshared st.heap i) (ht : tgtA E ex nm (st.heap i).cls = some t)
    (h : fromDigital E t nm i st = .ok res) :
    SelfOK (SA E ex) (leafA E) nm st i (some res.1) res.2 := by
  cases t with
  | container c =>
    simp only [fromDigital, Except.ok.injEq] at h
    subst h
    have hhead : (St.alloc { st with calls := st.calls ++ [nm] }
        (newContainer (E.fresh c) c (st.heap i))).2.heap st.next =
        newContainer (E.fresh c) c (st.heap i) := by simp [St.alloc]
    refine ⟨by simp [St.alloc], rfl, (hw.withCalls _).allocContainer (st := { st with calls := st.calls ++ [nm] }) hi _ _,
      ?_, by simp, ?_, ?_, ?_, ?_⟩
    · intro x hx; simp only [St.alloc]; rw [if_neg (by omega)]
    · intro i1 h1
      simp only [St.alloc, Option.some.injEq] at h1 ⊢
      omega
    · simp [St.alloc, SA, ht]
    · intro _
      refine ⟨fun n => child_newContainer _ _ hu (hw.nodup i hi) hhead n, ?_, ?_⟩
      · simp only [Option.getD_some]
        change namedChildren ((St.alloc { st with calls := st.calls ++ [nm] }
          (newContainer (E.fresh c) c (st.heap i))).2.heap st.next) = _
        rw [hhead, namedChildren_newContainer]
      · simp only [SA, ht, headA, Option.getD_some]
        have e : ∀ o' : Obj P, o' = newContainer (E.fresh c) c (st.heap i) →
            o'.cls = .plain c ∧ o'.training = true ∧ o'.val = E.fresh c ∧
              names o' = names (st.heap i) := by
          rintro _ rfl
          exact ⟨rfl, rfl, rfl, names_newContainer hu (hw.nodup i hi) _ _⟩
        exact e _ hhead
    · intro hL; simp [SA, ht, isLayer] at hL
  | layer c =>
    simp only [fromDigital] at h
    rcases he : E.enc c (E.cfgFun nm (st.heap i).cls (st.heap i).val E.cfg) (st.heap i).val with e | v
    · rw [he] at h; simp at h
    rw [he] at h
    simp only [Except.ok.injEq] at h
    subst h
    have ht1 : (St.alloc (St.alloc { st with calls := st.calls ++ [nm] }
        ⟨.plain E.tileCls, [], true, v⟩).2
        ⟨.plain c, [("analog_module", some st.next)], true, E.shell (st.heap i).val⟩).2.heap (st.next + 1) =
        ⟨.plain c, [("analog_module", some st.next)], true, E.shell (st.heap i).val⟩ := by
      simp [St.alloc]
    have ht2 : (St.alloc (St.alloc { st with calls := st.calls ++ [nm] }
        ⟨.plain E.tileCls, [], true, v⟩).2
        ⟨.plain c, [("analog_module", some st.next)], true, E.shell (st.heap i).val⟩).2.heap st.next =
        ⟨.plain E.tileCls, [], true, v⟩ := by
      simp [St.alloc]
    refine ⟨by simp only [St.alloc]; omega, rfl, ?_, ?_, by simp, ?_, ?_, ?_, ?_⟩
    · refine WF.alloc (WF.alloc (hw.withCalls _) _ ?_ ?_ ?_) _ ?_ ?_ ?_ <;> simp [St.alloc]
    · intro x hx; simp only [St.alloc]; rw [if_neg (by omega), if_neg (by omega)]
    · intro i1 h1
      simp only [St.alloc, Option.some.injEq] at h1 ⊢
      omega
    · simp [St.alloc, SA, ht]
    · intro hL; simp [SA, ht, isLayer] at hL
    · intro _
      simp only [Option.getD_some]
      refine ⟨?_, ?_, ?_, ?_⟩
      · intro p x hx
        cases p with
        | nil =>
          simp only [resolve, St.alloc, Option.some.injEq] at hx ⊢
          omega
        | cons n p =>
          obtain ⟨j, h1, h2⟩ := resolve_cons.1 hx
          have hj : j = st.next := by
            have := child_mem h1
            rw [show (St.alloc { st with calls := st.calls ++ [nm] }
              ⟨.plain E.tileCls, [], true, v⟩).1 = st.next from rfl] at this
            erw [ht1] at this
            simp at this
            exact this.2
          subst hj
          cases p with
          | nil => simp only [resolve, Option.some.injEq] at h2; simp only [St.alloc]; omega
          | cons m p =>
            obtain ⟨k, h3, _⟩ := resolve_cons.1 h2
            have := child_mem h3
            erw [ht2] at this
            simp at this
      · exact ⟨c, st.next, v, ht, he, ht1, ht2⟩
      · exact unshared_layer (i := st.next + 1) (t := st.next) (n := "analog_module")
          (congrArg Obj.kids ht1) (congrArg Obj.kids ht2) (by omega)
      · intro n k hm
        erw [ht1] at hm
        simp only [namedChildren, namedFrom, List.not_mem_nil, if_false, List.mem_cons, Prod.mk.injEq,
          or_false] at hm
        obtain ⟨rfl, rfl⟩ := hm
        refine ⟨?_, ?_⟩
        · erw [ht2]; rfl
        · refine leafA_tile E hT _ _ _ ?_
          erw [ht2]

theorem SelfOK.refl (E : Env P C) (ex : List String) (nm : String) (i : Nat) (st : St P) (hw : WF st)
    (ht : tgtA E ex nm (st.heap i).cls = none) :
    SelfOK (SA E ex) (leafA E) nm st i none st where
  mono := le_refl _
  reg := rfl
  wf := hw
  old _ _ := rfl
  none_eq _ := rfl
  some_new _ h := by cases h
  calls := by simp [SA, ht]
  node _ := ⟨fun _ => rfl, rfl, by simp [SA, ht, headA, SameHead]⟩
  layer hL := by simp [SA, ht, isLayer] at hL

theorem selfA_ok (E : Env P C) (hT : E.map E.tileCls = none) (ex : List String) (nm : String) (i : Nat)
    (st : St P) (r : Option Nat) (st1 : St P) (hw : WF st) (hi : i < st.next)
    (hu : Unshared st.heap i) (h : selfA E ex nm i st = .ok (r, st1)) :
    SelfOK (SA E ex) (leafA E) nm st i r st1 := by
  unfold selfA at h
  cases ht : E.target (st.heap i).cls with
  | none =>
    rw [ht] at h
    simp only [Except.ok.injEq, Prod.mk.injEq] at h
    obtain ⟨rfl, rfl⟩ := h
    exact SelfOK.refl E ex nm i st hw (by simp [tgtA, ht])
  | some t =>
    rw [ht] at h
    simp only at h
    by_cases hx : nm ∈ ex
    · rw [if_pos hx] at h
      simp only [Except.ok.injEq, Prod.mk.injEq] at h
      obtain ⟨rfl, rfl⟩ := h
      exact SelfOK.refl E ex nm i st hw (by simp [tgtA, hx])
    · rw [if_neg hx] at h
      rcases hf : fromDigital E t nm i st with e | res
      · rw [hf] at h; cases h
      rw [hf] at h
      simp only [Except.map, Except.ok.injEq, Prod.mk.injEq] at h
      obtain ⟨rfl, rfl⟩ := h
      exact fromDigital_ok E hT ex t nm i st res hw hi hu (by simp [tgtA, hx, ht]) hf

theorem leafA_ok (E : Env P C) (hT : E.map E.tileCls = none) (ex : List String) (nm : String) (i : Nat)
    (st : St P) (r : Option Nat) (st1 : St P) (hx : nm ∉ ex) (hw : WF st) (hi : i < st.next)
    (hu : Unshared st.heap i) (h : leafA E nm i st = .ok (r, st1)) :
    SelfOK (SA E ex) (leafA E) nm st i r st1 := by
  apply selfA_ok E hT ex nm i st r st1 hw hi hu
  rw [← h]
  unfold selfA leafA
  cases E.target (st.heap i).cls with
  | none => rfl
  | some t => simp only [hx, if_false]

theorem walkA_out (E : Env P C) (hT : E.map E.tileCls = none) (ex : List String) (ensure : Bool)
    (f : Nat) (nm : String) (i : Nat) (st : St P) (res : Nat × St P) (hw : WF st) (hi : i < st.next)
    (hu : Unshared st.heap i)
    (h : walk (fun f => decide (f ∈ ex)) (selfA E ex) (leafA E) (finishA E ensure) f nm i st = .ok res) :
    ∃ i1 st1, res = finishA E ensure nm i1 st1 ∧ Out (SA E ex) nm st i st1 i1 := by
  refine walk_out (SA E ex) (SA_ok E ex) (selfA E ex) (leafA E) (finishA E ensure) ?_ ?_ ?_ f nm i st res
    hw hi hu (fun _ _ _ => trivial) h
  · intro nm i st hn; simp [finishA, hn]
  · intro nm i st r st1 hw hi hu _ h; exact selfA_ok E hT ex nm i st r st1 hw hi hu h
  · intro nm i st r st1 _ hs hw hi hu _ _ h
    exact leafA_ok E hT ex nm i st r st1 (by simpa [SA] using hs) hw hi hu h

end Aihw.Convert

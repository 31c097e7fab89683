import Verif.Convert.Idem

/-!
# C29 — conversion back to digital, and the round trip
-/
namespace Aihw.Convert

variable {P C : Type}

/-- What `convert_to_digital` makes of a class in the conversion set. -/
def dtgt (E : Env P C) : Cls → Option Target
  | .plain c => (E.dmap c).join
  | .wrapped _ => none

def headD (E : Env P C) (o o' : Obj P) : Option Target → Prop
  | none => o'.cls = (match o.cls with | .wrapped c => .plain c | .plain c => .plain c) ∧
      o'.training = o.training ∧ o'.val = o.val ∧ names o' = names o
  | some (.container c) => o'.cls = .plain c ∧ o'.training = true ∧ o'.val = E.fresh c ∧
      names o' = names o
  | some (.layer _) => False

def SD (E : Env P C) : Spec P where
  skip _ := false
  L _ c := isLayer (dtgt E c)
  cv _ _ := false
  Head _ o o' := headD E o o' (dtgt E o.cls)
  Lay _ h j h' j' := ∃ (c t : Nat) (v : P), dtgt E (h j).cls = some (.layer c) ∧
    child h j "analog_module" = some t ∧ E.dec c (h j).val (h t).val = .ok v ∧
    h' j' = ⟨.plain c, [], true, v⟩
  G nm o := nm ≠ "" → ∀ c, o.cls = .wrapped c → namedChildren o ≠ []

theorem SD_ok (E : Env P C) : (SD E).OK where
  head nm o o' o₂ h1 h2 := by
    simp only [SD] at h1 ⊢
    obtain ⟨a1, a2, a3, a4⟩ := h2
    revert h1
    cases dtgt E o.cls with
    | none =>
      rintro ⟨b1, b2, b3, b4⟩
      exact ⟨a1.trans b1, a2.trans b2, a3.trans b3, a4.trans b4⟩
    | some t =>
      cases t with
      | container c =>
        rintro ⟨b1, b2, b3, b4⟩
        exact ⟨a1.trans b1, a2.trans b2, a3.trans b3, a4.trans b4⟩
      | layer c => exact fun h => h
  lay nm h j h' j' h₂ h₂' hl ha hb := by
    obtain ⟨c, t, v, e1, e2, e3, e4⟩ := hl
    have h0 := ha [] j rfl
    have h1 := hb [] j' rfl
    have h2 := ha ["analog_module"] t (resolve_cons.2 ⟨t, e2, rfl⟩)
    exact ⟨c, t, v, by rw [h0]; exact e1, by simp only [child, h0]; exact e2,
      by rw [h0, h2]; exact e3, by rw [h1]; exact e4⟩

theorem toDigital_ok (E : Env P C) (t : Option Target) (nm : String) (i c0 : Nat) (st : St P)
    (res : Nat × St P) (hw : WF st) (hi : i < st.next) (hu : Unshared st.heap i)
    (hc : (st.heap i).cls = .plain c0) (hd : E.dmap c0 = some t) (h : toDigital E t i st = .ok res) :
    SelfOK (SD E) (leafD E) nm st i (some res.1) res.2 := by
  have ht : dtgt E (st.heap i).cls = t := by rw [hc]; simp [dtgt, hd]
  rcases t with _ | ⟨c | c⟩
  · cases h
  · simp only [toDigital, Except.ok.injEq] at h
    subst h
    have hhead : (St.alloc st (newContainer (E.fresh c) c (st.heap i))).2.heap st.next =
        newContainer (E.fresh c) c (st.heap i) := by simp [St.alloc]
    refine ⟨by simp [St.alloc], rfl, hw.allocContainer hi _ _, ?_, by simp, ?_, ?_, ?_, ?_⟩
    · intro x hx; simp only [St.alloc]; rw [if_neg (by omega)]
    · intro i1 h1
      simp only [St.alloc, Option.some.injEq] at h1 ⊢
      omega
    · simp [St.alloc, SD]
    · intro _
      refine ⟨fun n => child_newContainer _ _ hu (hw.nodup i hi) hhead n, ?_, ?_⟩
      · exact (congrArg namedChildren hhead).trans (namedChildren_newContainer _ _ _)
      · have e : ∀ o' : Obj P, o' = newContainer (E.fresh c) c (st.heap i) →
            o'.cls = .plain c ∧ o'.training = true ∧ o'.val = E.fresh c ∧
              names o' = names (st.heap i) := by
          rintro _ rfl
          exact ⟨rfl, rfl, rfl, names_newContainer hu (hw.nodup i hi) _ _⟩
        simp only [SD, ht, headD]
        exact e _ hhead
    · intro hL; simp [SD, ht, isLayer] at hL
  · simp only [toDigital] at h
    cases hf : (find "analog_module" (st.heap i).kids).join with
    | none => rw [hf] at h; cases h
    | some t =>
      rw [hf] at h
      simp only at h
      cases hdec : E.dec c (st.heap i).val (st.heap t).val with
      | error e => rw [hdec] at h; cases h
      | ok v =>
        rw [hdec] at h
        simp only [Except.ok.injEq] at h
        subst h
        have hhead : (St.alloc st ⟨.plain c, [], true, v⟩).2.heap st.next = ⟨.plain c, [], true, v⟩ := by
          simp [St.alloc]
        refine ⟨by simp [St.alloc], rfl, hw.alloc _ (by simp) (by simp) (by simp), ?_, by simp, ?_, ?_,
          ?_, ?_⟩
        · intro x hx; simp only [St.alloc]; rw [if_neg (by omega)]
        · intro i1 h1
          simp only [St.alloc, Option.some.injEq] at h1 ⊢
          omega
        · simp [St.alloc, SD]
        · intro hL; simp [SD, ht, isLayer] at hL
        · intro _
          have hkids : ((St.alloc st ⟨.plain c, [], true, v⟩).2.heap st.next).kids = [] := by rw [hhead]
          refine ⟨?_, ⟨c, t, v, ht, hf, hdec, hhead⟩, unshared_leaf hkids, ?_⟩
          · intro p x hx
            cases p with
            | nil =>
              simp only [resolve, St.alloc, Option.getD_some, Option.some.injEq] at hx ⊢
              omega
            | cons n p =>
              obtain ⟨j, h1, _⟩ := resolve_cons.1 hx
              have := child_mem h1
              erw [hkids] at this
              cases this
          · intro n k hm
            have hn : namedChildren ((St.alloc st ⟨.plain c, [], true, v⟩).2.heap st.next) = [] := by
              rw [hhead]; rfl
            erw [hn] at hm
            cases hm

theorem SelfOK.reflD (E : Env P C) (nm : String) (i c : Nat) (st : St P) (hw : WF st)
    (hc : (st.heap i).cls = .plain c) (ht : E.dmap c = none) :
    SelfOK (SD E) (leafD E) nm st i none st where
  mono := le_refl _
  reg := rfl
  wf := hw
  old _ _ := rfl
  none_eq _ := rfl
  some_new _ h := by cases h
  calls := by simp [SD]
  node _ := ⟨fun _ => rfl, rfl, by
    have : dtgt E (st.heap i).cls = none := by rw [hc]; simp [dtgt, ht]
    simp only [SD, this, headD]
    exact ⟨by rw [hc]; exact hc, rfl, rfl, rfl⟩⟩
  layer hL := by
    have : dtgt E (st.heap i).cls = none := by rw [hc]; simp [dtgt, ht]
    simp [SD, this, isLayer] at hL

theorem plainD_ok (E : Env P C) (nm : String) (i c : Nat) (st : St P) (r : Option Nat) (st1 : St P)
    (hw : WF st) (hi : i < st.next) (hu : Unshared st.heap i) (hc : (st.heap i).cls = .plain c)
    (h : (match E.dmap c with
      | none => (.ok (none, st) : Except PyErr (Option Nat × St P))
      | some t => (toDigital E t i st).map fun (p : Nat × St P) => (some p.1, p.2)) = .ok (r, st1)) :
    SelfOK (SD E) (leafD E) nm st i r st1 := by
  cases hd : E.dmap c with
  | none =>
    rw [hd] at h
    cases h
    exact SelfOK.reflD E nm i c st hw hc hd
  | some t =>
    rw [hd] at h
    simp only at h
    rcases hf : toDigital E t i st with e | res
    · rw [hf] at h; cases h
    rw [hf] at h
    simp only [Except.map, Except.ok.injEq, Prod.mk.injEq] at h
    obtain ⟨rfl, rfl⟩ := h
    exact toDigital_ok E t nm i c st res hw hi hu hc hd hf

theorem selfD_ok (E : Env P C) (nm : String) (i : Nat) (st : St P) (r : Option Nat) (st1 : St P)
    (hw : WF st) (hi : i < st.next) (hu : Unshared st.heap i) (h : selfD E nm i st = .ok (r, st1)) :
    SelfOK (SD E) (leafD E) nm st i r st1 := by
  cases hc : (st.heap i).cls with
  | plain c =>
    unfold selfD at h
    rw [hc] at h
    exact plainD_ok E nm i c st r st1 hw hi hu hc h
  | wrapped c =>
    unfold selfD at h
    rw [hc] at h
    simp only [Except.ok.injEq, Prod.mk.injEq] at h
    obtain ⟨rfl, rfl⟩ := h
    have hhead : (St.alloc st { st.heap i with cls := .plain c }).2.heap st.next =
        { st.heap i with cls := .plain c } := by simp [St.alloc]
    refine ⟨by simp [St.alloc], rfl, hw.alloc _ (hw.nodup i hi) (fun n k h => hw.names i hi n k h)
      fun n k h => hw.closed i hi n k h, ?_, by simp, ?_, ?_, ?_, ?_⟩
    · intro x hx; simp only [St.alloc]; rw [if_neg (by omega)]
    · intro i1 h1
      simp only [St.alloc, Option.some.injEq] at h1 ⊢
      omega
    · simp [St.alloc, SD]
    · intro _
      refine ⟨fun n => ?_, ?_, ?_⟩
      · have : ∀ o' : Obj P, o' = { st.heap i with cls := .plain c } →
            (find n o'.kids).join = (find n (st.heap i).kids).join := by rintro _ rfl; rfl
        exact this _ hhead
      · have : ∀ o' : Obj P, o' = { st.heap i with cls := .plain c } →
            namedChildren o' = namedChildren (st.heap i) := by rintro _ rfl; rfl
        exact this _ hhead
      · have : ∀ o' : Obj P, o' = { st.heap i with cls := .plain c } →
            headD E (st.heap i) o' (dtgt E (st.heap i).cls) := by
          rintro _ rfl
          rw [hc]
          simp only [dtgt, headD, hc]
          exact ⟨trivial, trivial, trivial, rfl⟩
        exact this _ hhead
    · intro hL; simp [SD, hc, dtgt, isLayer] at hL

theorem leafD_ok (E : Env P C) (nm : String) (i : Nat) (st : St P) (r : Option Nat) (st1 : St P)
    (hn : nm ≠ "") (hw : WF st) (hi : i < st.next) (hu : Unshared st.heap i)
    (hG : (SD E).G nm (st.heap i)) (hk : namedChildren (st.heap i) = [])
    (h : leafD E nm i st = .ok (r, st1)) :
    SelfOK (SD E) (leafD E) nm st i r st1 := by
  cases hc : (st.heap i).cls with
  | wrapped c => exact absurd hk (hG hn c hc)
  | plain c =>
    unfold leafD at h
    rw [hc] at h
    exact plainD_ok E nm i c st r st1 hw hi hu hc h

/-- Strictly below a layer that is converted back. -/
def HiddenD (E : Env P C) (h : Nat → Obj P) (i : Nat) (p : List String) : Prop :=
  ∃ q r j c c', p = q ++ r ∧ r ≠ [] ∧ resolve h i q = some j ∧ (h j).cls = .plain c ∧
    E.dmap c = some (some (.layer c'))

theorem isLayer_dtgt (E : Env P C) (c : Cls) :
    isLayer (dtgt E c) = true ↔ ∃ k k', c = .plain k ∧ E.dmap k = some (some (.layer k')) := by
  cases c with
  | wrapped c => simp [dtgt, isLayer]
  | plain c =>
    simp only [dtgt, Cls.plain.injEq, exists_and_left, exists_eq_left']
    rcases E.dmap c with _ | _ | ⟨t | t⟩ <;> simp [isLayer]

theorem skipPath_none (nm : String) (p : List String) : ¬SkipPath (fun _ => false) nm p := by
  rintro ⟨q, _, _, h⟩; cases h

theorem hiddenD_iff (E : Env P C) (nm : String) (h : Nat → Obj P) (i : Nat) (p : List String) :
    HiddenD E h i p ↔ Hid (SD E).skip (SD E).L h nm i p := by
  constructor
  · rintro ⟨q, r, j, c, c', e1, e2, e3, e4, e5⟩
    exact ⟨q, r, j, e1, e2, e3, skipPath_none nm q, (isLayer_dtgt E _).2 ⟨c, c', e4, e5⟩⟩
  · rintro ⟨q, r, j, e1, e2, e3, _, e5⟩
    obtain ⟨c, c', e6, e7⟩ := (isLayer_dtgt E _).1 e5
    exact ⟨q, r, j, c, c', e1, e2, e3, e6, e7⟩

theorem visD_iff (E : Env P C) (nm : String) (h : Nat → Obj P) (i : Nat) (p : List String) (j : Nat)
    (b : Bool) : vis (SD E).skip (SD E).L h nm i p = some (j, b) ↔
      resolve h i p = some j ∧ ¬HiddenD E h i p ∧ b = false := by
  rw [vis_iff, hiddenD_iff E nm h i p]
  have := skipPath_none nm p
  have e : SkipPath (SD E).skip nm p ↔ False := ⟨this, False.elim⟩
  rw [e]
  simp

theorem convertToDigital_start (E : Env P C) (fuel : Nat) (nm : String) (inplace : Bool) (i : Nat)
    (st : St P) : convertToDigital E fuel nm inplace i st =
      walk (fun _ => false) (selfD E) (leafD E) (fun _ i st => (i, st)) fuel nm
        (start inplace i st).1 (start inplace i st).2 := by
  cases inplace <;> rfl

theorem hiddenD_transfer (E : Env P C) (h h0 : Nat → Obj P) (i i0 : Nat) (f : Nat → Nat)
    (hr : ∀ p, resolve h0 i0 p = (resolve h i p).map f)
    (hs : ∀ j, SameHead (h j) (h0 (f j))) (p : List String) :
    HiddenD E h0 i0 p ↔ HiddenD E h i p := by
  constructor
  · rintro ⟨q, r, j, c, c', e1, e2, e3, e4, e5⟩
    rw [hr] at e3
    obtain ⟨x, e6, rfl⟩ := Option.map_eq_some_iff.1 e3
    rw [(hs x).1] at e4
    exact ⟨q, r, x, c, c', e1, e2, e6, e4, e5⟩
  · rintro ⟨q, r, j, c, c', e1, e2, e3, e4, e5⟩
    exact ⟨q, r, f j, c, c', e1, e2, by rw [hr, e3]; rfl, by rw [(hs j).1]; exact e4, e5⟩

theorem pathName_empty {p : List String} (hp : ∀ n ∈ p, n ≠ "") (h : pathName "" p = "") : p = [] := by
  cases p with
  | nil => rfl
  | cons n p =>
    exfalso
    have aux : ∀ (p : List String) (nm : String), nm ≠ "" → (∀ n ∈ p, n ≠ "") → pathName nm p ≠ "" := by
      intro p
      induction p with
      | nil => exact fun nm h _ => h
      | cons m p ih =>
        intro nm _ hp'
        exact ih _ (fullName_ne nm m (hp' m (List.mem_cons_self ..)))
          fun n hn => hp' n (List.mem_cons_of_mem _ hn)
    exact aux p _ (fullName_ne "" n (hp n (List.mem_cons_self ..)))
      (fun m hm => hp m (List.mem_cons_of_mem _ hm)) h

/-- `convert_to_digital`: every module not below a converted layer is found under the same name;
`AnalogWrapper`s become their base class, containers of the conversion set digital containers, layers
of the set are rebuilt from their tile, everything else is kept; nothing else is in the result.
(A childless `AnalogWrapper` below the root would be overlooked and is excluded here.) -/
theorem C29_digital (E : Env P C) (fuel : Nat) (inplace : Bool) (i : Nat) (st : St P) (i' : Nat)
    (st' : St P) (hw : WF st) (hi : i < st.next) (hu : Unshared st.heap i)
    (hwrap : ∀ p j c, p ≠ [] → resolve st.heap i p = some j → (st.heap j).cls = .wrapped c →
      names (st.heap j) ≠ [])
    (h : convertToDigital E fuel "" inplace i st = .ok (i', st')) :
    (∀ p j, resolve st.heap i p = some j → ¬HiddenD E st.heap i p →
      ∃ j', resolve st'.heap i' p = some j' ∧
        (∀ c, (st.heap j).cls = .wrapped c → Kept (fun _ => .plain c) (st.heap j) (st'.heap j')) ∧
        (∀ c, (st.heap j).cls = .plain c → E.dmap c = none → Kept id (st.heap j) (st'.heap j')) ∧
        (∀ c c', (st.heap j).cls = .plain c → E.dmap c = some (some (.container c')) →
          IsContainer E id c' (st.heap j) (st'.heap j')) ∧
        (∀ c c', (st.heap j).cls = .plain c → E.dmap c = some (some (.layer c')) →
          ∃ t v, child st.heap j "analog_module" = some t ∧
            E.dec c' (st.heap j).val (st.heap t).val = .ok v ∧
            st'.heap j' = ⟨.plain c', [], true, v⟩)) ∧
    (∀ p x, resolve st'.heap i' p = some x →
      ∃ j, resolve st.heap i p = some j ∧ ¬HiddenD E st.heap i p) := by
  rw [convertToDigital_start] at h
  obtain ⟨w0, l0, u0, r0, _, f, fr, fs⟩ := start_spec inplace i st hw hi hu
  set i0 := (start inplace i st).1
  set st0 := (start inplace i st).2
  have back : ∀ q y, resolve st0.heap i0 q = some y → ∃ j, resolve st.heap i q = some j ∧ f j = y := by
    intro q y hq
    rw [fr] at hq
    exact Option.map_eq_some_iff.1 hq
  have tr := hiddenD_transfer E _ _ _ _ f fr fs
  obtain ⟨i1, st1, e1, o⟩ := walk_out (SD E) (SD_ok E) (selfD E) (leafD E) (fun _ i st => (i, st))
    (fun _ _ _ _ => rfl)
    (fun nm i st r st1 hw hi hu _ h => selfD_ok E nm i st r st1 hw hi hu h)
    (fun nm i st r st1 hn _ hw hi hu hG hk h => leafD_ok E nm i st r st1 hn hw hi hu hG hk h)
    fuel "" i0 st0 (i', st') w0 l0 u0 (by
      intro p x hv hne c hc hk
      obtain ⟨v1, _, _⟩ := (visD_iff E "" st0.heap i0 p x false).1 hv
      obtain ⟨j, d1, rfl⟩ := back p x v1
      have hp : p ≠ [] := by rintro rfl; exact hne rfl
      rw [(fs j).1] at hc
      apply hwrap p j c hp d1 hc
      rw [← (fs j).2.2.2]
      have hsub : Unshared st0.heap (f j) := by
        intro a b y ha hb
        have := u0 (p ++ a) (p ++ b) y (resolve_append.2 ⟨_, v1, ha⟩) (resolve_append.2 ⟨_, v1, hb⟩)
        simpa using this
      have hlt := resolve_lt w0 l0 v1
      cases hnm : names (st0.heap (f j)) with
      | nil => rfl
      | cons n l =>
        exfalso
        have hn : n ∈ names (st0.heap (f j)) := by rw [hnm]; exact List.mem_cons_self ..
        simp only [names, List.mem_filterMap] at hn
        obtain ⟨⟨m, o⟩, hm, he⟩ := hn
        cases o with
        | none => cases he
        | some k =>
          have := (mem_namedChildren hsub (w0.nodup _ hlt)).2 (child_of_mem (w0.nodup _ hlt) hm)
          rw [hk] at this
          cases this) h
  cases e1
  refine ⟨?_, ?_⟩
  · intro p j hj hh
    have hv := (visD_iff E "" st0.heap i0 p (f j) false).2
      ⟨by rw [fr, hj]; rfl, fun hc => hh ((tr p).1 hc), rfl⟩
    obtain ⟨j', a1, a2, a3⟩ := o.core.fwd p (f j) hv
    obtain ⟨s1, s2, s3, s4⟩ := fs j
    refine ⟨j', a1, ?_, ?_, ?_, ?_⟩
    · intro c hc
      have ht : dtgt E (st0.heap (f j)).cls = none := by rw [s1, hc]; rfl
      have hb := a2 (by simp [SD, ht, isLayer])
      simp only [SD, ht, headD] at hb
      obtain ⟨t1, t2, t3, t4⟩ := hb
      rw [s1, hc] at t1
      exact ⟨t1, t2.trans s2, t3.trans s3, t4.trans s4⟩
    · intro c hc hd
      have ht : dtgt E (st0.heap (f j)).cls = none := by rw [s1, hc]; simp [dtgt, hd]
      have hb := a2 (by simp [SD, ht, isLayer])
      simp only [SD, ht, headD] at hb
      obtain ⟨t1, t2, t3, t4⟩ := hb
      rw [s1, hc] at t1
      exact ⟨by rw [hc]; exact t1, t2.trans s2, t3.trans s3, t4.trans s4⟩
    · intro c c' hc hd
      have ht : dtgt E (st0.heap (f j)).cls = some (.container c') := by rw [s1, hc]; simp [dtgt, hd]
      have hb := a2 (by simp [SD, ht, isLayer])
      simp only [SD, ht, headD] at hb
      obtain ⟨t1, t2, t3, t4⟩ := hb
      exact ⟨t1, t2, t3, t4.trans s4⟩
    · intro c c' hc hd
      have ht : dtgt E (st0.heap (f j)).cls = some (.layer c') := by rw [s1, hc]; simp [dtgt, hd]
      obtain ⟨k, t, v, q1, q2, q3, q4⟩ := a3 (by simp [SD, ht, isLayer])
      rw [ht] at q1
      simp only [Option.some.injEq, Target.layer.injEq] at q1
      subst q1
      have hr : resolve st0.heap i0 (p ++ ["analog_module"]) = some t :=
        resolve_append.2 ⟨f j, by rw [fr, hj]; rfl, resolve_cons.2 ⟨t, q2, rfl⟩⟩
      obtain ⟨t0, d1, rfl⟩ := back _ _ hr
      obtain ⟨j2, d2, d3⟩ := resolve_append.1 d1
      rw [hj] at d2
      cases d2
      obtain ⟨t1, d4, d5⟩ := resolve_cons.1 d3
      simp only [resolve, Option.some.injEq] at d5
      subst d5
      refine ⟨t1, v, d4, ?_, q4⟩
      rw [s3, (fs t1).2.2.1] at q3
      exact q3
  · intro p x hx
    rcases o.core.bwd p x hx with ⟨⟨y, b⟩, hy⟩ | ⟨q, r, y, e2, e3, e4, e5⟩
    · obtain ⟨c1, c2, _⟩ := (visD_iff E "" st0.heap i0 p y b).1 hy
      obtain ⟨j, d1, _⟩ := back p y c1
      exact ⟨j, d1, fun hc => c2 ((tr p).2 hc)⟩
    · exfalso
      obtain ⟨j1, m1, _, m2⟩ := o.core.fwd q y e4
      obtain ⟨c, t, v, q1, q2, q3, q4⟩ := m2 e5
      rw [e2] at hx
      obtain ⟨y1, n1, n2⟩ := resolve_append.1 hx
      rw [m1] at n1
      cases n1
      cases r with
      | nil => exact e3 rfl
      | cons a r =>
        obtain ⟨z, n3, _⟩ := resolve_cons.1 n2
        have := child_mem n3
        rw [q4] at this
        cases this

end Aihw.Convert

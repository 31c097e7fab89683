import Verif.BuildCfg.Props
import Mathlib.Data.List.Nodup

/-! # Which objects a configuration is made of -/
namespace Aihw.BuildCfg
open Aihw

mutual
theorem Val.ids_rename (f : Nat → Nat) : ∀ v : Val, (v.rename f).ids = v.ids.map f
  | .atom _ => rfl
  | .obj i c fs => by simp [Val.rename, Val.ids, Fields.ids_rename f fs]
theorem Fields.ids_rename (f : Nat → Nat) : ∀ fs : Fields, (fs.rename f).ids = fs.ids.map f
  | .nil => rfl
  | .cons k v r => by
    simp [Fields.rename, Fields.ids, Val.ids_rename f v, Fields.ids_rename f r]
end

mutual
theorem Val.ids_bound : ∀ (v : Val) (i : Nat), i ∈ v.ids → i < v.bound
  | .atom _, i, h => by simp [Val.ids] at h
  | .obj j c fs, i, h => by
    rw [Val.ids, List.mem_cons] at h
    rw [Val.bound]
    rcases h with rfl | h
    · omega
    · have := Fields.ids_bound fs i h
      omega
theorem Fields.ids_bound : ∀ (fs : Fields) (i : Nat), i ∈ fs.ids → i < fs.bound
  | .nil, i, h => by simp [Fields.ids] at h
  | .cons k v r, i, h => by
    rw [Fields.ids, List.mem_append] at h
    rw [Fields.bound]
    rcases h with h | h
    · have := Val.ids_bound v i h
      omega
    · have := Fields.ids_bound r i h
      omega
end

theorem set_sublist : ∀ (fs : Fields) (q : Key) (a : Atom),
    List.Sublist (fs.set q (.atom a)).ids fs.ids
  | .nil, q, a => by simp [Fields.set, Fields.ids, Val.ids]
  | .cons k v r, q, a => by
    rw [Fields.set]
    split
    · simp [Fields.ids, Val.ids]
    · rw [Fields.ids, Fields.ids]
      exact List.Sublist.append (List.Sublist.refl _) (set_sublist r q a)

theorem update_sublist (kw : List (String × Atom)) (fs : Fields) :
    List.Sublist (fs.update kw).ids fs.ids := by
  induction kw generalizing fs with
  | nil => exact List.Sublist.refl _
  | cons e kw ih =>
    rw [Fields.update]
    exact (ih _).trans (set_sublist fs _ _)

theorem get_ids {fs : Fields} {k : Key} {v : Val} (h : fs.get k = some v) :
    List.Sublist v.ids fs.ids := by
  match fs, h with
  | .cons k' v' r, h =>
    rw [Fields.get] at h
    rw [Fields.ids]
    split at h
    · cases h; exact List.sublist_append_left _ _
    · exact (get_ids h).trans (List.sublist_append_right _ _)

theorem get_disjoint {fs : Fields} (hn : fs.ids.Nodup) {k k' : Key} {v v' : Val}
    (h : fs.get k = some v) (h' : fs.get k' = some v') (hk : k ≠ k') :
    ∀ i ∈ v.ids, i ∉ v'.ids := by
  match fs, h, h' with
  | .cons q w r, h, h' =>
    rw [Fields.get] at h h'
    rw [Fields.ids, List.nodup_append] at hn
    by_cases h1 : q = k
    · rw [if_pos h1] at h
      cases h
      have h2 : ¬ q = k' := by rw [h1]; exact hk
      rw [if_neg h2] at h'
      exact fun i hi hi' => hn.2.2 i hi i ((get_ids h').subset hi') rfl
    · rw [if_neg h1] at h
      by_cases h2 : q = k'
      · rw [if_pos h2] at h'
        cases h'
        exact fun i hi hi' => hn.2.2 i hi' i ((get_ids h).subset hi) rfl
      · rw [if_neg h2] at h'
        exact get_disjoint hn.2.1 h h' hk

theorem mem_ids_fill {n : Nat} {args : Fields} {i : Nat} : ∀ {F : Fields},
    i ∈ (fill n F args).ids →
      (∃ k v, k ∈ F.keys ∧ args.get k = some v ∧ i ∈ v.ids) ∨ ∃ j ∈ F.ids, i = n + j
  | .nil, h => by simp [fill, Fields.ids] at h
  | .cons k d r, h => by
    rw [fill, Fields.ids, List.mem_append] at h
    rcases h with h | h
    · cases hv : args.get k with
      | none =>
        rw [hv] at h
        simp only [Option.getD_none, Val.ids_rename, List.mem_map] at h
        obtain ⟨j, hj, rfl⟩ := h
        exact Or.inr ⟨j, by simp [Fields.ids, hj], rfl⟩
      | some v =>
        rw [hv] at h
        exact Or.inl ⟨k, v, by simp [Fields.keys], hv, h⟩
    · rcases mem_ids_fill h with ⟨k', v, hk, hv, hi⟩ | ⟨j, hj, rfl⟩
      · exact Or.inl ⟨k', v, by simp [Fields.keys, hk], hv, hi⟩
      · exact Or.inr ⟨j, by simp [Fields.ids, hj], rfl⟩

theorem fill_nodup {n : Nat} {args : Fields} (ha : args.ids.Nodup) (hl : ∀ i ∈ args.ids, i < n) :
    ∀ {F : Fields}, F.keys.Nodup → F.ids.Nodup → (fill n F args).ids.Nodup
  | .nil, _, _ => by simp [fill, Fields.ids]
  | .cons k d r, hk, hF => by
    rw [Fields.keys, List.nodup_cons] at hk
    rw [Fields.ids, List.nodup_append] at hF
    rw [fill, Fields.ids, List.nodup_append]
    refine ⟨?_, fill_nodup ha hl hk.2 hF.2.1, ?_⟩
    · cases hv : args.get k with
      | none =>
        simp only [Option.getD_none, Val.ids_rename]
        exact hF.1.map fun x y h => by simpa using h
      | some v => exact (get_ids hv).nodup ha
    · intro x hx y hy hxy
      subst hxy
      cases hv : args.get k with
      | none =>
        rw [hv] at hx
        simp only [Option.getD_none, Val.ids_rename, List.mem_map] at hx
        obtain ⟨j, hj, rfl⟩ := hx
        rcases mem_ids_fill hy with ⟨k', v, hk', hv', hi⟩ | ⟨j', hj', he⟩
        · have := hl _ ((get_ids hv').subset hi)
          omega
        · have : j = j' := by omega
          subst this
          exact hF.2.2 j hj j hj' rfl
      | some v =>
        rw [hv] at hx
        simp only [Option.getD_some] at hx
        rcases mem_ids_fill hy with ⟨k', v', hk', hv', hi⟩ | ⟨j', hj', he⟩
        · have hne : k ≠ k' := fun e => hk.1 (e ▸ hk')
          exact get_disjoint ha hv hv' hne x hx hi
        · have := hl _ ((get_ids hv).subset hx)
          omega

theorem kwFields_ids (kw : List (String × Atom)) : (kwFields kw).ids = [] := by
  induction kw with
  | nil => rfl
  | cons e kw ih => simp [kwFields, Fields.ids, Val.ids, ih]

theorem fill_sublist {n : Nat} {args : Fields} (ha : args.ids = []) : ∀ F : Fields,
    List.Sublist (fill n F args).ids (F.ids.map (n + ·))
  | .nil => by simp [fill, Fields.ids]
  | .cons k d r => by
    rw [fill, Fields.ids, Fields.ids, List.map_append]
    refine List.Sublist.append ?_ (fill_sublist ha r)
    cases hv : args.get k with
    | none => simp [Val.ids_rename]
    | some v =>
      have := (get_ids hv)
      rw [ha] at this
      rw [Option.getD_some, List.sublist_nil.1 this]
      exact List.nil_sublist _

/-- What the arguments return is new. -/
theorem make_fresh {arg : Arg} (hF : Fresh arg) {kw : List (String × Atom)} {n m : Nat} {v : Val}
    (h : arg.make kw n = .ok (v, m)) : n ≤ m ∧ ∀ i ∈ v.ids, n ≤ i ∧ i < m := by
  cases arg with
  | inst j c fs =>
    simp only [Arg.make, deepcopy, Except.ok.injEq, Prod.mk.injEq] at h
    obtain ⟨rfl, rfl⟩ := h
    refine ⟨by omega, fun i hi => ?_⟩
    have hi : i ∈ ((Val.obj j c fs).rename (n + ·)).ids := by
      rw [Val.rename, dictUpdate, Val.ids, List.mem_cons] at hi
      rw [Val.rename, Val.ids, List.mem_cons]
      exact hi.imp id fun h => (update_sublist kw _).subset h
    rw [Val.ids_rename, List.mem_map] at hi
    obtain ⟨k, hk, rfl⟩ := hi
    have := Val.ids_bound _ _ hk
    omega
  | cls c =>
    obtain ⟨-, -, rfl, rfl⟩ := call_ok h
    refine ⟨by omega, fun i hi => ?_⟩
    rw [Val.ids, List.mem_cons] at hi
    rcases hi with rfl | hi
    · omega
    · have hi := (fill_sublist (kwFields_ids kw) c.fields).subset hi
      rw [List.mem_map] at hi
      obtain ⟨k, hk, rfl⟩ := hi
      have := Fields.ids_bound _ _ hk
      omega
  | call f => exact hF kw n v m h
  | other => cases h

/-- What the arguments return reaches every object once. -/
theorem make_nodup {arg : Arg} (hT : Treelike arg) {kw : List (String × Atom)} {n m : Nat}
    {v : Val} (h : arg.make kw n = .ok (v, m)) : v.ids.Nodup := by
  cases arg with
  | inst j c fs =>
    simp only [Arg.make, deepcopy, Except.ok.injEq, Prod.mk.injEq] at h
    obtain ⟨rfl, -⟩ := h
    have h1 : ((Val.obj j c fs).rename (n + ·)).ids.Nodup := by
      rw [Val.ids_rename]
      exact List.Nodup.map (fun x y h => by simpa using h) hT
    rw [Val.rename, Val.ids] at h1
    rw [Val.rename, dictUpdate, Val.ids]
    exact ((update_sublist kw _).cons_cons _).nodup h1
  | cls c =>
    obtain ⟨-, -, rfl, -⟩ := call_ok h
    have hT : (0 :: c.fields.ids).Nodup := hT
    have h1 : ((0 :: c.fields.ids).map (n + ·)).Nodup := hT.map fun x y h => by simpa using h
    rw [List.map_cons, Nat.add_zero] at h1
    rw [Val.ids]
    exact ((fill_sublist (kwFields_ids kw) c.fields).cons_cons n).nodup h1
  | call f => exact hT kw n v m h
  | other => cases h

mutual
/-- An expression without passed objects, whose classes list every field and every default object
once. -/
def Expr.own : Expr → Prop
  | .lit _ => True
  | .make _ _ => True
  | .list es => es.own
  | .new c es => es.own ∧ c.fields.keys.Nodup ∧ (0 :: c.fields.ids).Nodup
  | .given v => v.ids = []
/-- The same of keyword arguments. -/
def Exprs.own : Exprs → Prop
  | .nil => True
  | .cons _ e r => e.own ∧ r.own
end

theorem call_nodup {c : Cls} {fs : Fields} {n m : Nat} {v : Val} (h : c.call fs n = .ok (v, m))
    (hk : c.fields.keys.Nodup) (hi : (0 :: c.fields.ids).Nodup) (ha : fs.ids.Nodup)
    (hl : ∀ i ∈ fs.ids, i < n) : v.ids.Nodup := by
  obtain ⟨-, -, rfl, -⟩ := call_ok h
  rw [List.nodup_cons] at hi
  rw [Val.ids, List.nodup_cons]
  refine ⟨fun h => ?_, fill_nodup ha hl hk hi.2⟩
  rcases mem_ids_fill h with ⟨k', v, hk', hv', h1⟩ | ⟨j, hj, he⟩
  · have := hl _ ((get_ids hv').subset h1)
    omega
  · have : j = 0 := by omega
    exact hi.1 (this ▸ hj)

theorem call_range {c : Cls} {fs : Fields} {n m : Nat} {v : Val} (h : c.call fs n = .ok (v, m)) :
    n < m ∧ ∀ i ∈ v.ids, (n ≤ i ∧ i < m) ∨ ∃ k x, fs.get k = some x ∧ i ∈ x.ids := by
  obtain ⟨-, -, rfl, rfl⟩ := call_ok h
  refine ⟨by omega, fun i hi => ?_⟩
  rw [Val.ids, List.mem_cons] at hi
  rcases hi with rfl | hi
  · left; omega
  · rcases mem_ids_fill hi with ⟨k', v, -, hv', h1⟩ | ⟨j, hj, rfl⟩
    · exact Or.inr ⟨k', v, hv', h1⟩
    · have := Fields.ids_bound _ _ hj
      left; omega

mutual
theorem Expr.eval_fresh (a : Args) (hF : ∀ w, Fresh (a.arg w)) : ∀ (e : Expr) (n m : Nat) (v : Val),
    e.own → e.eval a n = .ok (v, m) →
      n ≤ m ∧ (∀ i ∈ v.ids, n ≤ i ∧ i < m) ∧ ((∀ w, Treelike (a.arg w)) → v.ids.Nodup)
  | .lit x, n, m, v, ho, h => by
    simp only [Expr.eval, Except.ok.injEq, Prod.mk.injEq] at h
    obtain ⟨rfl, rfl⟩ := h
    exact ⟨le_refl _, by simp [Val.ids], fun _ => by simp [Val.ids]⟩
  | .make w kw, n, m, v, ho, h => by
    rw [Expr.eval] at h
    have := make_fresh (hF w) h
    exact ⟨this.1, this.2, fun hT => make_nodup (hT w) h⟩
  | .list es, n, m, v, ho, h => by
    obtain ⟨fs, m1, he, rfl, rfl⟩ := eval_list h
    obtain ⟨h1, h2, h3⟩ := Exprs.eval_fresh a hF es n m1 fs ho he
    refine ⟨by omega, fun i hi => ?_, fun hT => ?_⟩
    · rw [Val.ids, List.mem_cons] at hi
      rcases hi with rfl | hi
      · omega
      · have := h2 i hi; omega
    · rw [Val.ids, List.nodup_cons]
      exact ⟨fun h => by have := h2 _ h; omega, h3 hT⟩
  | .new c es, n, m, v, ho, h => by
    obtain ⟨fs, m1, he, hc⟩ := eval_new h
    obtain ⟨h1, h2, h3⟩ := Exprs.eval_fresh a hF es n m1 fs ho.1 he
    obtain ⟨h4, h5⟩ := call_range hc
    refine ⟨by omega, fun i hi => ?_, fun hT => ?_⟩
    · rcases h5 i hi with h | ⟨k, x, hx, hi⟩
      · omega
      · have := h2 i ((get_ids hx).subset hi); omega
    · exact call_nodup hc ho.2.1 ho.2.2 (h3 hT) fun i hi => (h2 i hi).2
  | .given x, n, m, v, ho, h => by
    simp only [Expr.eval, Except.ok.injEq, Prod.mk.injEq] at h
    obtain ⟨rfl, rfl⟩ := h
    have ho : x.ids = [] := ho
    exact ⟨le_refl _, by simp [ho], fun _ => by simp [ho]⟩
theorem Exprs.eval_fresh (a : Args) (hF : ∀ w, Fresh (a.arg w)) :
    ∀ (es : Exprs) (n m : Nat) (fs : Fields), es.own → es.eval a n = .ok (fs, m) →
      n ≤ m ∧ (∀ i ∈ fs.ids, n ≤ i ∧ i < m) ∧ ((∀ w, Treelike (a.arg w)) → fs.ids.Nodup)
  | .nil, n, m, fs, ho, h => by
    simp only [Exprs.eval, Except.ok.injEq, Prod.mk.injEq] at h
    obtain ⟨rfl, rfl⟩ := h
    exact ⟨le_refl _, by simp [Fields.ids], fun _ => by simp [Fields.ids]⟩
  | .cons k e r, n, m, fs, ho, h => by
    obtain ⟨v, m1, fs', he, hr, rfl⟩ := evals_cons h
    obtain ⟨h1, h2, h3⟩ := Expr.eval_fresh a hF e n m1 v ho.1 he
    obtain ⟨h4, h5, h6⟩ := Exprs.eval_fresh a hF r m1 m fs' ho.2 hr
    refine ⟨by omega, fun i hi => ?_, fun hT => ?_⟩
    · rw [Fields.ids, List.mem_append] at hi
      rcases hi with hi | hi
      · have := h2 i hi; omega
      · have := h5 i hi; omega
    · rw [Fields.ids, List.nodup_append]
      refine ⟨h3 hT, h6 hT, fun x hx y hy hxy => ?_⟩
      have := h2 x hx
      have := h5 y hy
      omega
end

/-- In a value that reaches every object once, an object is found at one path only. -/
theorem sits_unique (p q : List Key) (v : Val) (i : Nat) (hn : v.ids.Nodup)
    (hp : Sits v p i) (hq : Sits v q i) : p = q := by
  have mem : ∀ (p : List Key) (v : Val), Sits v p i → i ∈ v.ids := by
    intro p
    induction p with
    | nil =>
      rintro v ⟨c, fs, h⟩
      rw [at_nil] at h
      cases h
      simp [Val.ids]
    | cons k p ih =>
      rintro v ⟨c, fs, h⟩
      cases v with
      | atom a => simp [Val.at] at h
      | obj j c' gs =>
        rw [at_cons] at h
        cases hg : gs.get k with
        | none => rw [hg] at h; cases h
        | some w =>
          rw [hg] at h
          rw [Val.ids]
          exact List.mem_cons_of_mem _ ((get_ids hg).subset (ih w ⟨c, fs, h⟩))
  induction p generalizing v q with
  | nil =>
    cases q with
    | nil => rfl
    | cons k q =>
      exfalso
      obtain ⟨c, fs, h⟩ := hp
      rw [at_nil] at h
      cases h
      obtain ⟨c', fs', h⟩ := hq
      rw [at_cons] at h
      cases hg : fs.get k with
      | none => rw [hg] at h; cases h
      | some w =>
        rw [hg] at h
        rw [Val.ids, List.nodup_cons] at hn
        exact hn.1 ((get_ids hg).subset (mem q w ⟨c', fs', h⟩))
  | cons k p ih =>
    obtain ⟨c, fs, h⟩ := hp
    cases v with
    | atom a => simp [Val.at] at h
    | obj j c' gs =>
      rw [at_cons] at h
      rw [Val.ids, List.nodup_cons] at hn
      cases hg : gs.get k with
      | none => rw [hg] at h; cases h
      | some w =>
        rw [hg] at h
        cases q with
        | nil =>
          exfalso
          obtain ⟨c1, fs1, h1⟩ := hq
          rw [at_nil] at h1
          cases h1
          exact hn.1 ((get_ids hg).subset (mem p w ⟨c, fs, h⟩))
        | cons k' q =>
          obtain ⟨c1, fs1, h1⟩ := hq
          rw [at_cons] at h1
          cases hg' : gs.get k' with
          | none => rw [hg'] at h1; cases h1
          | some w' =>
            rw [hg'] at h1
            by_cases hk : k = k'
            · subst hk
              rw [hg] at hg'
              cases hg'
              rw [ih q w ((get_ids hg).nodup hn.2) ⟨c, fs, h⟩ ⟨c1, fs1, h1⟩]
            · exfalso
              exact get_disjoint hn.2 hg hg' hk i (mem p w ⟨c, fs, h⟩) (mem q w' ⟨c1, fs1, h1⟩)

end Aihw.BuildCfg

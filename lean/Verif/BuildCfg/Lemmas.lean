import Verif.BuildCfg.Spec

/-! # Reading what an expression evaluates to -/
namespace Aihw.BuildCfg
open Aihw

theorem at_nil (v : Val) : v.at [] = some v := by cases v <;> rfl

theorem at_cons (i : Nat) (c : String) (fs : Fields) (k : Key) (p : List Key) :
    (Val.obj i c fs).at (k :: p) = (fs.get k).bind fun w => w.at p := by
  simp only [Val.at]
  cases fs.get k <;> rfl

theorem get_rename (f : Nat → Nat) (fs : Fields) (k : Key) :
    (fs.rename f).get k = (fs.get k).map (Val.rename f) := by
  induction fs using Fields.rec (motive_1 := fun _ => True) with
  | atom => trivial
  | obj => trivial
  | nil => simp [Fields.rename, Fields.get]
  | cons k' v r _ ih =>
    simp only [Fields.rename, Fields.get]
    by_cases h : k' = k
    · simp [h]
    · simp [h, ih]

theorem face_rename (f : Nat → Nat) (v : Val) : (v.rename f).face = v.face := by
  cases v <;> simp [Val.rename, Val.face]

theorem at_rename (f : Nat → Nat) (p : List Key) (v : Val) :
    (v.rename f).at p = (v.at p).map (Val.rename f) := by
  induction p generalizing v with
  | nil => simp [at_nil]
  | cons k p ih =>
    cases v with
    | atom a => simp [Val.rename, Val.at]
    | obj i c fs =>
      rw [Val.rename, at_cons, at_cons, get_rename]
      cases fs.get k <;> simp [ih]

theorem look_rename (f : Nat → Nat) (p : List Key) (v : Val) :
    (v.rename f).look p = v.look p := by
  rw [Val.look, at_rename, Val.look]
  cases v.at p <;> simp [face_rename]

theorem look_cons (i : Nat) (c : String) (fs : Fields) (k : Key) (p : List Key) :
    (Val.obj i c fs).look (k :: p) = (fs.get k).bind fun w => w.look p := by
  rw [Val.look, at_cons]
  cases fs.get k <;> rfl

theorem get_set (fs : Fields) (q : Key) (w : Val) (k : Key) :
    (fs.set q w).get k = if q = k then some w else fs.get k := by
  induction fs using Fields.rec (motive_1 := fun _ => True) with
  | atom => trivial
  | obj => trivial
  | nil => simp [Fields.set, Fields.get]
  | cons k' v r _ ih =>
    simp only [Fields.set]
    by_cases h : k' = q
    · subst h
      by_cases h2 : k' = k <;> simp [Fields.get, h2]
    · rw [if_neg h]
      by_cases h2 : q = k
      · subst h2
        simp [Fields.get, h, ih]
      · by_cases h3 : k' = k <;> simp [Fields.get, h2, h3, ih]

theorem get_update (kw : List (String × Atom)) (hn : (kw.map Prod.fst).Nodup) (fs : Fields)
    (k : String) :
    (fs.update kw).get (.name k) =
      match kw.lookup k with
      | none => fs.get (.name k)
      | some a => some (.atom a) := by
  induction kw generalizing fs with
  | nil => simp [Fields.update]
  | cons e kw ih =>
    obtain ⟨q, a⟩ := e
    simp only [List.map_cons, List.nodup_cons] at hn
    rw [Fields.update, ih hn.2, get_set]
    by_cases h : q = k
    · subst h
      have : kw.lookup q = none := by
        rw [List.lookup_eq_none_iff]
        intro e he
        have : e.1 ≠ q := fun h => hn.1 (h ▸ List.mem_map_of_mem he)
        simpa using fun h => this h.symm
      simp [this, List.lookup]
    · have h' : (k == q) = false := by simpa using fun e => h e.symm
      have h2 : ¬ Key.name q = Key.name k := by simpa using h
      simp [List.lookup, h', h2]

theorem get_update_idx (kw : List (String × Atom)) (fs : Fields) (i : Nat) :
    (fs.update kw).get (.idx i) = fs.get (.idx i) := by
  induction kw generalizing fs with
  | nil => rfl
  | cons e kw ih =>
    rw [Fields.update, ih, get_set]
    simp

theorem get_kwFields (kw : List (String × Atom)) (k : String) :
    (kwFields kw).get (.name k) = (kw.lookup k).map Val.atom := by
  induction kw with
  | nil => rfl
  | cons e kw ih =>
    obtain ⟨q, a⟩ := e
    simp only [kwFields, Fields.get, ih, List.lookup]
    by_cases h : q = k
    · subst h; simp
    · have h' : (k == q) = false := by simpa using fun e => h e.symm
      have h2 : ¬ Key.name q = Key.name k := by simpa using h
      simp [h', h2]

theorem get_kwFields_idx (kw : List (String × Atom)) (i : Nat) :
    (kwFields kw).get (.idx i) = none := by
  induction kw with
  | nil => rfl
  | cons e kw ih => simp [kwFields, Fields.get, ih]

theorem keys_kwFields (kw : List (String × Atom)) :
    (kwFields kw).keys = kw.map fun e => Key.name e.1 := by
  induction kw with
  | nil => rfl
  | cons e kw ih => simp [kwFields, Fields.keys, ih]

theorem get_none_iff (fs : Fields) (k : Key) : fs.get k = none ↔ k ∉ fs.keys := by
  induction fs using Fields.rec (motive_1 := fun _ => True) with
  | atom => trivial
  | obj => trivial
  | nil => simp [Fields.get, Fields.keys]
  | cons k' v r _ ih =>
    by_cases h : k' = k
    · subst h; simp [Fields.get, Fields.keys]
    · have : ¬ k = k' := fun e => h e.symm
      simp [Fields.get, Fields.keys, h, ih, this]

theorem get_fill (n : Nat) (F args : Fields) (k : Key) :
    (fill n F args).get k =
      (F.get k).map fun d => (args.get k).getD (d.rename (n + ·)) := by
  induction F using Fields.rec (motive_1 := fun _ => True) with
  | atom => trivial
  | obj => trivial
  | nil => simp [fill, Fields.get]
  | cons k' v r _ ih =>
    by_cases h : k' = k
    · subst h; simp [fill, Fields.get]
    · simp [fill, Fields.get, h, ih]

theorem call_ok {c : Cls} {args : Fields} {n m : Nat} {v : Val} (h : c.call args n = .ok (v, m)) :
    args.keys.Nodup ∧ (∀ k ∈ args.keys, k ∈ c.fields.keys) ∧
      v = .obj n c.name (fill n c.fields args) ∧ m = n + max 1 c.fields.bound := by
  unfold Cls.call at h
  split at h
  · cases h
  · split at h
    · cases h
    · simp only [Except.ok.injEq, Prod.mk.injEq] at h
      exact ⟨by simpa using ‹¬ ¬ args.keys.Nodup›, by tauto, h.1.symm, h.2.symm⟩

/-- What a successful call of one of the arguments returns. -/
theorem make_made {arg : Arg} {kw : List (String × Atom)} {n m : Nat} {v : Val}
    (hn : (kw.map Prod.fst).Nodup) (h : arg.make kw n = .ok (v, m)) : Made arg kw v := by
  cases arg with
  | inst i c fs =>
    simp only [Arg.make, deepcopy, Except.ok.injEq, Prod.mk.injEq] at h
    obtain ⟨rfl, -⟩ := h
    intro p
    cases p with
    | nil => simp [Val.look, at_nil, overridden, Val.rename, dictUpdate, Val.face]
    | cons k p =>
      rw [Val.rename, dictUpdate, look_cons]
      cases k with
      | idx j =>
        rw [get_update_idx, overridden, look_cons, get_rename]
        cases fs.get (.idx j) <;> simp [look_rename]
      | name k =>
        rw [get_update kw hn, overridden]
        cases kw.lookup k with
        | none =>
          simp only
          rw [look_cons, get_rename]
          cases fs.get (.name k) <;> simp [look_rename]
        | some a => cases p <;> simp [Val.look, Val.at, Val.face]
  | cls c =>
    obtain ⟨-, hk, rfl, -⟩ := call_ok h
    intro p
    cases p with
    | nil => simp [Val.look, at_nil, overridden, Val.face]
    | cons k p =>
      rw [look_cons, get_fill]
      cases k with
      | idx j =>
        rw [overridden, look_cons, get_kwFields_idx]
        cases c.fields.get (.idx j) <;> simp [look_rename]
      | name k =>
        rw [overridden, get_kwFields, look_cons]
        cases hl : kw.lookup k with
        | none => cases c.fields.get (.name k) <;> simp [look_rename]
        | some a =>
          have : Key.name k ∈ c.fields.keys := by
            apply hk
            have := get_kwFields kw k
            by_contra hc
            rw [(get_none_iff _ _).2 hc, hl] at this
            simp at this
          obtain ⟨d, hd⟩ : ∃ d, c.fields.get (.name k) = some d := by
            cases hd : c.fields.get (.name k) with
            | none => exact absurd this ((get_none_iff _ _).1 hd)
            | some d => exact ⟨d, rfl⟩
          rw [hd]
          cases p <;> simp [Val.look, Val.at, Val.face]
  | call f => exact ⟨n, m, h⟩
  | other => cases h

/-- The want that describes a default. -/
def Want.ofFace : Option Face → Want
  | none => .absent
  | some (.atom a) => .value a
  | some (.obj c) => .cls c

/-- The keyword names used in the expressions are given once. -/
def kwOk (kw : List (String × Atom)) : Bool := decide ((kw.map Prod.fst).Nodup)

mutual
/-- What an expression puts at a path (helper of the proofs; `none` if not determined here). -/
def Expr.find : Expr → List Key → Option Want
  | .lit a, [] => some (.value a)
  | .lit _, _ :: _ => some .absent
  | .make w kw, [] => if kwOk kw then some (.made w kw) else none
  | .make _ _, _ :: _ => none
  | .list _, [] => some (.cls "list")
  | .list es, k :: p => es.find k p
  | .new c _, [] => some (.cls c.name)
  | .new c es, k :: p =>
    if k ∈ es.keys then es.find k p
    else some (Want.ofFace ((Val.obj 0 c.name c.fields).look (k :: p)))
  | .given _, _ => none
/-- The same below a key. -/
def Exprs.find : Exprs → Key → List Key → Option Want
  | .nil, _, _ => some .absent
  | .cons k' e r, k, p => if k' = k then e.find p else r.find k p
/-- The keys of keyword arguments. -/
def Exprs.keys : Exprs → List Key
  | .nil => []
  | .cons k _ r => k :: r.keys
end

theorem evals_cons {a : Args} {k : Key} {e : Expr} {r : Exprs} {n m : Nat} {fs : Fields}
    (h : (Exprs.cons k e r).eval a n = .ok (fs, m)) :
    ∃ v m1 fs', e.eval a n = .ok (v, m1) ∧ r.eval a m1 = .ok (fs', m) ∧ fs = .cons k v fs' := by
  rw [Exprs.eval] at h
  cases he : e.eval a n with
  | error x => rw [he] at h; cases h
  | ok o =>
    obtain ⟨v, m1⟩ := o
    rw [he] at h
    simp only at h
    cases hr : r.eval a m1 with
    | error x => rw [hr] at h; cases h
    | ok o =>
      obtain ⟨fs', m2⟩ := o
      rw [hr] at h
      simp only [Except.ok.injEq, Prod.mk.injEq] at h
      obtain ⟨rfl, rfl⟩ := h
      exact ⟨v, m1, fs', rfl, hr, rfl⟩

theorem eval_list {a : Args} {es : Exprs} {n m : Nat} {v : Val}
    (h : (Expr.list es).eval a n = .ok (v, m)) :
    ∃ fs m1, es.eval a n = .ok (fs, m1) ∧ v = .obj m1 "list" fs ∧ m = m1 + 1 := by
  rw [Expr.eval] at h
  cases he : es.eval a n with
  | error x => rw [he] at h; cases h
  | ok o =>
    obtain ⟨fs, m1⟩ := o
    rw [he] at h
    simp only [Except.ok.injEq, Prod.mk.injEq] at h
    exact ⟨fs, m1, rfl, h.1.symm, h.2.symm⟩

theorem eval_new {a : Args} {c : Cls} {es : Exprs} {n m : Nat} {v : Val}
    (h : (Expr.new c es).eval a n = .ok (v, m)) :
    ∃ fs m1, es.eval a n = .ok (fs, m1) ∧ c.call fs m1 = .ok (v, m) := by
  rw [Expr.eval] at h
  cases he : es.eval a n with
  | error x => rw [he] at h; cases h
  | ok o =>
    obtain ⟨fs, m1⟩ := o
    rw [he] at h
    exact ⟨fs, m1, rfl, h⟩

theorem evals_keys (a : Args) : ∀ (es : Exprs) (n m : Nat) (fs : Fields),
    es.eval a n = .ok (fs, m) → fs.keys = es.keys
  | .nil, n, m, fs, h => by
    simp only [Exprs.eval, Except.ok.injEq, Prod.mk.injEq] at h
    rw [← h.1]; rfl
  | .cons k e r, n, m, fs, h => by
    obtain ⟨v, m1, fs', -, hr, rfl⟩ := evals_cons h
    simp [Fields.keys, Exprs.keys, evals_keys a r m1 m fs' hr]

theorem holds_obj (a : Args) (i : Nat) (c : String) (fs : Fields) (k : Key) (p : List Key)
    (v : Val) (hv : fs.get k = some v) (w : Want) (h : holds a v p w) :
    holds a (.obj i c fs) (k :: p) w := by
  cases w with
  | made u kw =>
    obtain ⟨x, hx, hm⟩ := h
    exact ⟨x, by rw [at_cons, hv]; exact hx, hm⟩
  | value x => show Val.look _ _ = _; rw [look_cons, hv]; exact h
  | cls x => show Val.look _ _ = _; rw [look_cons, hv]; exact h
  | absent => show Val.at _ _ = _; rw [at_cons, hv]; exact h

theorem holds_ofFace (a : Args) (v : Val) (p : List Key) : holds a v p (Want.ofFace (v.look p)) := by
  unfold Val.look
  cases h : v.at p with
  | none => exact h
  | some w =>
    cases w <;> simp [Val.face, Want.ofFace, holds, Val.look, h]

theorem ofFace_congr (a : Args) (v : Val) (p : List Key) (f : Option Face) (h : v.look p = f) :
    holds a v p (Want.ofFace f) := h ▸ holds_ofFace a v p

mutual
theorem Expr.eval_holds (a : Args) : ∀ (e : Expr) (n m : Nat) (v : Val) (p : List Key) (w : Want),
    e.eval a n = .ok (v, m) → e.find p = some w → holds a v p w
  | .lit x, n, m, v, p, w, h, hf => by
    simp only [Expr.eval, Except.ok.injEq, Prod.mk.injEq] at h
    obtain ⟨rfl, -⟩ := h
    cases p with
    | nil =>
      simp only [Expr.find, Option.some.injEq] at hf
      subst hf; rfl
    | cons k p =>
      simp only [Expr.find, Option.some.injEq] at hf
      subst hf; rfl
  | .make u kw, n, m, v, p, w, h, hf => by
    cases p with
    | nil =>
      simp only [Expr.find] at hf
      split at hf
      · rename_i hk
        simp only [Option.some.injEq] at hf
        subst hf
        exact ⟨v, at_nil v, make_made (by simpa [kwOk] using hk) (by simpa [Expr.eval] using h)⟩
      · cases hf
    | cons k p => simp [Expr.find] at hf
  | .list es, n, m, v, p, w, h, hf => by
    obtain ⟨fs, m1, he, rfl, -⟩ := eval_list h
    cases p with
    | nil =>
      simp only [Expr.find, Option.some.injEq] at hf
      subst hf; rfl
    | cons k p =>
      rw [Expr.find] at hf
      exact Exprs.eval_holds a es n m1 fs k p w he hf m1 "list"
  | .new c es, n, m, v, p, w, h, hf => by
    obtain ⟨fs, m1, he, hc⟩ := eval_new h
    obtain ⟨-, hk, rfl, -⟩ := call_ok hc
    cases p with
    | nil =>
      simp only [Expr.find, Option.some.injEq] at hf
      subst hf; rfl
    | cons k p =>
      rw [Expr.find] at hf
      split at hf
      · rename_i hmem
        have hmem : k ∈ fs.keys := by rw [evals_keys a es n m1 fs he]; exact hmem
        have key := Exprs.eval_holds a es n m1 fs k p w he hf m1 c.name
        obtain ⟨x, hx⟩ : ∃ x, fs.get k = some x := by
          cases hx : fs.get k with
          | none => exact absurd hmem ((get_none_iff _ _).1 hx)
          | some x => exact ⟨x, rfl⟩
        obtain ⟨d, hd⟩ : ∃ d, c.fields.get k = some d := by
          cases hd : c.fields.get k with
          | none => exact absurd (hk k hmem) ((get_none_iff _ _).1 hd)
          | some x => exact ⟨x, rfl⟩
        have hat : (Val.obj m1 c.name (fill m1 c.fields fs)).at (k :: p) =
            (Val.obj m1 c.name fs).at (k :: p) := by
          rw [at_cons, at_cons, get_fill, hd, hx]; rfl
        cases w with
        | made u kw =>
          obtain ⟨y, hy, hm⟩ := key
          exact ⟨y, hat.trans hy, hm⟩
        | value y => show Option.map _ _ = _; rw [hat]; exact key
        | cls y => show Option.map _ _ = _; rw [hat]; exact key
        | absent => exact hat.trans key
      · rename_i hmem
        have hmem : k ∉ fs.keys := by rw [evals_keys a es n m1 fs he]; exact hmem
        simp only [Option.some.injEq] at hf
        subst hf
        apply ofFace_congr
        rw [look_cons, look_cons, get_fill, (get_none_iff _ _).2 hmem]
        cases c.fields.get k <;> simp [look_rename]
  | .given x, n, m, v, p, w, h, hf => by simp [Expr.find] at hf
theorem Exprs.eval_holds (a : Args) : ∀ (es : Exprs) (n m : Nat) (fs : Fields) (k : Key)
    (p : List Key) (w : Want), es.eval a n = .ok (fs, m) → es.find k p = some w →
      ∀ i c, holds a (.obj i c fs) (k :: p) w
  | .nil, n, m, fs, k, p, w, h, hf, i, c => by
    simp only [Exprs.eval, Except.ok.injEq, Prod.mk.injEq] at h
    obtain ⟨rfl, -⟩ := h
    simp only [Exprs.find, Option.some.injEq] at hf
    subst hf
    show Val.at _ _ = _
    rw [at_cons]; rfl
  | .cons k' e r, n, m, fs, k, p, w, h, hf, i, c => by
    obtain ⟨v, m1, fs', he, hr, rfl⟩ := evals_cons h
    rw [Exprs.find] at hf
    split at hf
    · rename_i hk
      exact holds_obj a i c _ k p v (by simp [Fields.get, hk]) w
        (Expr.eval_holds a e n m1 v p w he hf)
    · rename_i hk
      have key := Exprs.eval_holds a r m1 m fs' k p w hr hf i c
      have hat : (Val.obj i c (.cons k' v fs')).at (k :: p) = (Val.obj i c fs').at (k :: p) := by
        rw [at_cons, at_cons]; simp [Fields.get, hk]
      cases w with
      | made u kw =>
        obtain ⟨y, hy, hm⟩ := key
        exact ⟨y, hat.trans hy, hm⟩
      | value y => show Option.map _ _ = _; rw [hat]; exact key
      | cls y => show Option.map _ _ = _; rw [hat]; exact key
      | absent => exact hat.trans key
end

end Aihw.BuildCfg

import Verif.BuildCfg.Props2

/-! # Property C92: outcome and identities -/
namespace Aihw.BuildCfg
open Aihw

mutual
/-- An expression whose parts can be evaluated. -/
def Expr.good (a : Args) : Expr → Prop
  | .lit _ => True
  | .make w kw => ∀ n, ∃ v m, (a.arg w).make kw n = .ok (v, m)
  | .list es => es.good a
  | .new c es => es.good a ∧ decide (es.keys.Nodup ∧ ∀ k ∈ es.keys, k ∈ c.fields.keys) = true
  | .given _ => True
/-- The same of keyword arguments. -/
def Exprs.good (a : Args) : Exprs → Prop
  | .nil => True
  | .cons _ e r => e.good a ∧ r.good a
end

theorem call_total {c : Cls} {fs : Fields} (h1 : fs.keys.Nodup)
    (h2 : ∀ k ∈ fs.keys, k ∈ c.fields.keys) (n : Nat) : ∃ v m, c.call fs n = .ok (v, m) := by
  unfold Cls.call
  exact ⟨_, _, by rw [if_neg (not_not.2 h1), if_neg (not_not.2 h2)]⟩

mutual
theorem Expr.eval_total (a : Args) : ∀ (e : Expr) (n : Nat), e.good a →
    ∃ v m, e.eval a n = .ok (v, m)
  | .lit x, n, _ => ⟨.atom x, n, rfl⟩
  | .make w kw, n, h => by rw [Expr.eval]; exact h n
  | .list es, n, h => by
    obtain ⟨fs, m, he⟩ := Exprs.eval_total a es n h
    exact ⟨.obj m "list" fs, m + 1, by rw [Expr.eval, he]⟩
  | .new c es, n, h => by
    obtain ⟨fs, m, he⟩ := Exprs.eval_total a es n h.1
    have h2 := of_decide_eq_true h.2
    rw [← evals_keys a es n m fs he] at h2
    obtain ⟨v, m', hv⟩ := call_total h2.1 h2.2 m
    exact ⟨v, m', by rw [Expr.eval, he]; exact hv⟩
  | .given v, n, _ => ⟨v, n, rfl⟩
theorem Exprs.eval_total (a : Args) : ∀ (es : Exprs) (n : Nat), es.good a →
    ∃ fs m, es.eval a n = .ok (fs, m)
  | .nil, n, _ => ⟨.nil, n, rfl⟩
  | .cons k e r, n, h => by
    obtain ⟨v, m1, he⟩ := Expr.eval_total a e n h.1
    obtain ⟨fs, m, hr⟩ := Exprs.eval_total a r m1 h.2
    exact ⟨.cons k v fs, m, by rw [Exprs.eval, he]; simp [hr]⟩
end

theorem make_total {arg : Arg} {settings : List String} (h : Accepts arg settings)
    (kw : List (String × Atom)) (hn : (kw.map Prod.fst).Nodup)
    (hk : ∀ e ∈ kw, e.1 ∈ settings) (n : Nat) : ∃ v m, arg.make kw n = .ok (v, m) := by
  cases arg with
  | inst i c fs => exact ⟨_, _, rfl⟩
  | cls c =>
    refine call_total ?_ ?_ n
    rotate_left
    · rw [keys_kwFields]
      intro k hkm
      obtain ⟨e, he, rfl⟩ := List.mem_map.1 hkm
      exact h e.1 (hk e he)
    · rw [keys_kwFields]
      have : (kw.map fun e => Key.name e.1) = (kw.map Prod.fst).map Key.name := by simp
      rw [this]
      exact hn.map fun x y h => by simpa using h
  | call f => exact absurd h (by simp [Accepts])
  | other => exact absurd h (by simp [Accepts])

theorem rep_good (a : Args) (e : Expr) (h : e.good a) (n i : Nat) : (Exprs.rep e i n).good a := by
  induction n generalizing i with
  | zero => trivial
  | succ n ih => exact ⟨h, ih (i + 1)⟩

theorem rep_own (e : Expr) (h : e.own) (n i : Nat) : (Exprs.rep e i n).own := by
  induction n generalizing i with
  | zero => trivial
  | succ n ih => exact ⟨h, ih (i + 1)⟩

/-- The settings that the algorithms give to the three arguments. -/
theorem expression_good {a : Args} (hd : Accepts a.device ["construction_seed"])
    (hio : Accepts a.io ["noise_management", "bound_management"])
    (hup : Accepts a.up ["desired_bl", "update_bl_management", "update_management"])
    {name : String} {nd seed : Int} {c : Cls} {es : Exprs}
    (h : expression name nd seed = some (c, es)) : es.good a := by
  have d0 : (Expr.make .device []).good a := make_total hd [] (by simp) (by simp)
  have d1 : (Expr.make .device [("construction_seed", .int seed)]).good a :=
    make_total hd _ (by simp) (by simp)
  have i0 : (Expr.make .io []).good a := make_total hio [] (by simp) (by simp)
  have i1 : (Expr.make .io noManagement).good a :=
    make_total hio _ (by simp [noManagement]) (by simp [noManagement])
  have u0 : (Expr.make .up []).good a := make_total hup [] (by simp) (by simp)
  have u1 : ∀ i j k, (Expr.make .up [("desired_bl", i), ("update_bl_management", j),
      ("update_management", k)]).good a := fun i j k => make_total hup _ (by simp) (by simp)
  have u2 : ∀ i, (Expr.make .up [("desired_bl", i)]).good a :=
    fun i => make_total hup _ (by simp) (by simp)
  have dd : twoDevices.good a := rep_good a _ d0 2 0
  unfold expression at h
  split at h
  · split at h
    · cases h; exact ⟨d1, i0, i0, u0, trivial⟩
    · cases h
      exact ⟨⟨⟨rep_good a _ d0 _ 0, trivial, trivial, trivial⟩, rfl⟩, i0, i0, u0, trivial⟩
  · split at h
    · cases h
      exact ⟨⟨⟨dd, i1, u0, trivial, trivial, trivial⟩, rfl⟩, i0, i0, u0, trivial⟩
    · split at h
      · cases h
        exact ⟨⟨⟨dd, i1, u1 _ _ _, trivial, trivial, trivial, trivial, trivial⟩, rfl⟩,
          i0, i0, u2 _, trivial⟩
      · split at h
        · cases h
          exact ⟨⟨⟨dd, i1, u1 _ _ _, trivial, trivial, trivial, trivial, trivial⟩, rfl⟩,
            i0, i0, u2 _, trivial⟩
        · split at h
          · cases h
            exact ⟨⟨⟨dd, i0, u1 _ _ _, trivial, trivial, trivial, trivial, trivial⟩, rfl⟩,
              i0, i0, u2 _, trivial⟩
          · split at h
            · cases h
              exact ⟨⟨⟨d1, trivial⟩, rfl⟩, i0, i0, u0, trivial⟩
            · cases h

theorem expression_own {name : String} {nd seed : Int} {c : Cls} {es : Exprs}
    (h : expression name nd seed = some (c, es)) : es.own := by
  have t : True := trivial
  have d0 : (Expr.make .device []).own := trivial
  have dd : twoDevices.own := rep_own _ d0 2 0
  unfold expression at h
  split at h
  · split at h
    · cases h; exact ⟨t, t, t, t, t⟩
    · cases h
      exact ⟨⟨⟨rep_own _ d0 _ 0, t, t, t⟩, by decide +kernel, by decide +kernel⟩, t, t, t, t⟩
  · split at h
    · cases h
      exact ⟨⟨⟨dd, t, t, t, t, t⟩, by decide +kernel, by decide +kernel⟩, t, t, t, t⟩
    · split at h
      · cases h
        exact ⟨⟨⟨dd, t, t, t, t, t, t, t⟩, by decide +kernel, by decide +kernel⟩, t, t, t, t⟩
      · split at h
        · cases h
          exact ⟨⟨⟨dd, t, t, t, t, t, t, t⟩, by decide +kernel, by decide +kernel⟩, t, t, t, t⟩
        · split at h
          · cases h
            exact ⟨⟨⟨dd, t, t, t, t, t, t, t⟩, by decide +kernel, by decide +kernel⟩, t, t, t, t⟩
          · split at h
            · cases h
              exact ⟨⟨⟨t, t⟩, by decide +kernel, by decide +kernel⟩, t, t, t, t⟩
            · cases h

theorem expression_some {name : String} {nd seed : Int} :
    (∃ o, expression name nd seed = some o) ↔ ∃ A : Algo, name ∈ A.names := by
  constructor
  · rintro ⟨o, h⟩
    unfold expression at h
    split at h
    · exact ⟨.sgdOne, by simpa [Algo.names] using ‹name ∈ ["sgd"]›⟩
    · split at h
      · rename_i hm
        refine ⟨.tikiTaka, ?_⟩
        simp only [Algo.names, List.mem_cons, List.not_mem_nil, or_false] at hm ⊢
        tauto
      · split at h
        · exact ⟨.ttv2, by assumption⟩
        · split at h
          · exact ⟨.choppedTtv2, by assumption⟩
          · split at h
            · exact ⟨.agad, by assumption⟩
            · split at h
              · exact ⟨.mixedPrecision, by assumption⟩
              · cases h
  · rintro ⟨A, h⟩
    cases A <;> simp only [Algo.names, List.mem_cons, List.not_mem_nil, or_false] at h
    case sgdOne => subst h; by_cases h1 : nd = 1 <;> exact ⟨_, by simp [expression, h1]; rfl⟩
    case sgdMany => subst h; by_cases h1 : nd = 1 <;> exact ⟨_, by simp [expression, h1]; rfl⟩
    case tikiTaka => rcases h with rfl | rfl | rfl <;> exact ⟨_, rfl⟩
    case ttv2 => subst h; exact ⟨_, rfl⟩
    case choppedTtv2 => rcases h with rfl | rfl | rfl <;> exact ⟨_, rfl⟩
    case agad => rcases h with rfl | rfl <;> exact ⟨_, rfl⟩
    case mixedPrecision => rcases h with rfl | rfl <;> exact ⟨_, rfl⟩

/-- C92: an unknown algorithm is rejected, whatever else is passed. -/
theorem C92_unknown (lower : String → String) (alg : String) (a : Args) (nDevices seed : Int)
    (kwargs : List (String × Val)) (n : Nat) (h : ∀ A : Algo, lower alg ∉ A.names) :
    buildConfig lower alg a nDevices seed kwargs n = .error .argumentError := by
  unfold buildConfig
  cases he : expression (lower alg) nDevices seed with
  | none => rfl
  | some o =>
    obtain ⟨A, hA⟩ := expression_some.1 ⟨o, he⟩
    exact absurd hA (h A)

/-- C92: with a documented name, instances or suitable classes as arguments and passable keyword
arguments there is a configuration; other keyword arguments raise a `TypeError`. -/
theorem C92_outcome (lower : String → String) (alg : String) (a : Args) (nDevices seed : Int)
    (kwargs : List (String × Val)) (n : Nat) (A : Algo) (hA : lower alg ∈ A.names)
    (hd : Accepts a.device ["construction_seed"])
    (hio : Accepts a.io ["noise_management", "bound_management"])
    (hup : Accepts a.up ["desired_bl", "update_bl_management", "update_management"]) :
    (Passable kwargs → ∃ cfg m, buildConfig lower alg a nDevices seed kwargs n = .ok (cfg, m)) ∧
    (¬ Passable kwargs →
      buildConfig lower alg a nDevices seed kwargs n = .error .typeError) := by
  obtain ⟨⟨c, es⟩, he⟩ := (expression_some (nd := nDevices) (seed := seed)).2 ⟨A, hA⟩
  obtain ⟨fs, m1, hes⟩ := Exprs.eval_total a es n (expression_good hd hio hup he)
  obtain ⟨hc, hk⟩ := expression_shape he
  rw [← evals_keys a es n m1 fs hes] at hk
  have key : buildConfig lower alg a nDevices seed kwargs n =
      c.call (fs.appendKw kwargs) m1 := by
    unfold buildConfig
    rw [he]
    show Expr.eval a _ n = _
    rw [Expr.eval, append_eval' a kwargs es n m1 fs hes]
  rw [key]
  exact ⟨call_passable' m1 hk hc, call_not_passable m1 hk hc⟩

theorem get_of_some {kw : List (String × Val)} {k : Key} {v : Val}
    (h : (Fields.of kw).get k = some v) : ∃ s, k = .name s ∧ (s, v) ∈ kw := by
  induction kw with
  | nil => simp [Fields.of, Fields.get] at h
  | cons e kw ih =>
    obtain ⟨q, w⟩ := e
    rw [Fields.of, Fields.get] at h
    split at h
    · rename_i hq
      cases h
      exact ⟨q, hq.symm, List.mem_cons_self⟩
    · obtain ⟨s, hs, hm⟩ := ih h
      exact ⟨s, hs, List.mem_cons_of_mem _ hm⟩

/-- C92: a configuration consists of new objects and of the objects passed as keyword arguments:
changing it changes neither the instances it was built from nor any earlier configuration. -/
theorem C92_new_objects (lower : String → String) (alg : String) (a : Args) (nDevices seed : Int)
    (kwargs : List (String × Val)) (n m : Nat) (cfg : Val) (hF : ∀ w, Fresh (a.arg w))
    (h : buildConfig lower alg a nDevices seed kwargs n = .ok (cfg, m)) :
    n < m ∧ ∀ i ∈ cfg.ids, (n ≤ i ∧ i < m) ∨ ∃ e ∈ kwargs, i ∈ e.2.ids := by
  obtain ⟨c, es, fs, m1, he, hes, hk, hc, hcall⟩ := build_shape h
  obtain ⟨h1, h2, -⟩ := Exprs.eval_fresh a hF es n m1 fs (expression_own he) hes
  obtain ⟨h3, h4⟩ := call_range hcall
  refine ⟨by omega, fun i hi => ?_⟩
  rcases h4 i hi with h | ⟨k, x, hx, hi⟩
  · left; omega
  · rw [get_appendKw] at hx
    cases hf : fs.get k with
    | some y =>
      rw [hf] at hx
      cases hx
      have := h2 i ((get_ids hf).subset hi)
      left; omega
    | none =>
      rw [hf, Option.none_or] at hx
      obtain ⟨s, -, hm⟩ := get_of_some hx
      exact Or.inr ⟨(s, x), hm, hi⟩

/-- C92: two configurations share the objects that were passed to both as keyword arguments and
nothing else. -/
theorem C92_two_configs (lower : String → String) (alg alg' : String) (a a' : Args)
    (nDevices nDevices' seed seed' : Int) (kwargs kwargs' : List (String × Val))
    (n m n' m' : Nat) (cfg cfg' : Val)
    (hF : ∀ w, Fresh (a.arg w)) (hF' : ∀ w, Fresh (a'.arg w))
    (hk : ∀ e ∈ kwargs, ∀ i ∈ e.2.ids, i < n) (hk' : ∀ e ∈ kwargs', ∀ i ∈ e.2.ids, i < n)
    (h : buildConfig lower alg a nDevices seed kwargs n = .ok (cfg, m)) (hn : m ≤ n')
    (h' : buildConfig lower alg' a' nDevices' seed' kwargs' n' = .ok (cfg', m'))
    (i : Nat) (hi : i ∈ cfg.ids) (hi' : i ∈ cfg'.ids) :
    (∃ e ∈ kwargs, i ∈ e.2.ids) ∧ ∃ e ∈ kwargs', i ∈ e.2.ids := by
  obtain ⟨h1, h2⟩ := C92_new_objects lower alg a nDevices seed kwargs n m cfg hF h
  obtain ⟨h3, h4⟩ := C92_new_objects lower alg' a' nDevices' seed' kwargs' n' m' cfg' hF' h'
  rcases h2 i hi with h5 | h5
  · rcases h4 i hi' with h6 | ⟨e, he, h6⟩
    · omega
    · have := hk' e he i h6; omega
  · rcases h4 i hi' with h6 | h6
    · obtain ⟨e, he, h5⟩ := h5
      have := hk e he i h5; omega
    · exact ⟨h5, h6⟩

/-- A path into one of the passed keyword arguments. -/
def Under (kwargs : List (String × Val)) (p : List Key) : Prop :=
  ∃ k ∈ kwargs.map Prod.fst, ∃ r, p = .name k :: r

/-- C92: no two settings of a configuration are the same object (forward and backward, the devices
of a unit cell, ...), except inside objects passed as keyword arguments. -/
theorem C92_distinct (lower : String → String) (alg : String) (a : Args) (nDevices seed : Int)
    (kwargs : List (String × Val)) (n m : Nat) (cfg : Val) (hF : ∀ w, Fresh (a.arg w))
    (hT : ∀ w, Treelike (a.arg w)) (hk : ∀ e ∈ kwargs, ∀ i ∈ e.2.ids, i < n)
    (h : buildConfig lower alg a nDevices seed kwargs n = .ok (cfg, m))
    (p q : List Key) (i : Nat) (hp : Sits cfg p i) (hq : Sits cfg q i) :
    p = q ∨ (Under kwargs p ∧ Under kwargs q) := by
  obtain ⟨c, es, fs, m1, he, hes, hkeys, hc, hcall⟩ := build_shape h
  obtain ⟨h1, h2, h3⟩ := Exprs.eval_fresh a hF es n m1 fs (expression_own he) hes
  have hpass := call_passable hkeys hc hcall
  let kw' : List (String × Val) := kwargs.map fun e => (e.1, .atom .none)
  have hnames : kw'.map Prod.fst = kwargs.map Prod.fst := by simp [kw', Function.comp_def]
  have hpass' : Passable kw' := by unfold Passable; rw [hnames]; exact hpass
  obtain ⟨v', m', hcall'⟩ := call_passable' m1 hkeys hc hpass'
  have hids : ∀ fs : Fields, (fs.appendKw kw').ids = fs.ids := by
    have h0 : (Fields.of kw').ids = [] := by
      simp only [kw']
      generalize kwargs = l
      induction l with
      | nil => rfl
      | cons e l ih => simp [Fields.of, Fields.ids, Val.ids, ih]
    intro fs
    induction fs using Fields.rec (motive_1 := fun _ => True) with
    | atom => trivial
    | obj => trivial
    | nil => simp [Fields.appendKw, h0, Fields.ids]
    | cons k v r _ ih => simp [Fields.appendKw, Fields.ids, ih]
  have hn' : v'.ids.Nodup := by
    refine call_nodup hcall' ?_ ?_ ?_ ?_
    · rw [hc]; decide +kernel
    · rw [hc]; decide +kernel
    · rw [hids]; exact h3 hT
    · rw [hids]; exact fun i hi => (h2 i hi).2
  have hrange : ∀ i ∈ v'.ids, n ≤ i := by
    intro i hi
    rcases (call_range hcall').2 i hi with h | ⟨k, x, hx, hi⟩
    · omega
    · have := (get_ids hx).subset hi
      rw [hids] at this
      exact (h2 i this).1
  obtain ⟨-, -, rfl, -⟩ := call_ok hcall
  obtain ⟨-, -, rfl, -⟩ := call_ok hcall'
  have getname : ∀ (l : List (String × Val)) (k : Key), (∀ s ∈ l.map Prod.fst, k ≠ .name s) →
      (Fields.of l).get k = none := by
    intro l k hl
    rw [get_none_iff, keys_of]
    intro hx
    obtain ⟨e, he, rfl⟩ := List.mem_map.1 hx
    exact hl e.1 (List.mem_map_of_mem he) rfl
  have own : ∀ p, ¬ Under kwargs p → Sits (.obj m1 c.name (fill m1 c.fields (fs.appendKw kwargs))) p i →
      Sits (.obj m1 c.name (fill m1 c.fields (fs.appendKw kw'))) p i := by
    intro p hu hs
    obtain ⟨c1, fs1, hs⟩ := hs
    cases p with
    | nil =>
      rw [at_nil] at hs
      cases hs
      exact ⟨_, _, at_nil _⟩
    | cons k p =>
      have hno : ∀ s ∈ kwargs.map Prod.fst, k ≠ .name s := by
        rintro s hsm rfl
        exact hu ⟨s, hsm, p, rfl⟩
      refine ⟨c1, fs1, ?_⟩
      rw [at_cons, get_fill, get_appendKw, getname kw' k (by rw [hnames]; exact hno)]
      rw [at_cons, get_fill, get_appendKw, getname kwargs k hno] at hs
      exact hs
  have below : ∀ p, Under kwargs p → Sits (.obj m1 c.name (fill m1 c.fields (fs.appendKw kwargs))) p i →
      i < n := by
    rintro p ⟨k, hkm, r, rfl⟩ ⟨c1, fs1, hs⟩
    obtain ⟨e, he, rfl⟩ := List.mem_map.1 hkm
    obtain ⟨-, hat, -⟩ := C92_kwargs lower alg a nDevices seed kwargs n m _ h
    have := hat e.1 e.2 he
    rw [at_cons] at this hs
    cases hg : (fill m1 c.fields (fs.appendKw kwargs)).get (.name e.1) with
    | none => rw [hg] at this; cases this
    | some w =>
      rw [hg] at this hs
      simp only [Option.bind_some, at_nil, Option.some.injEq] at this
      subst this
      simp only [Option.bind_some] at hs
      refine hk e he i ?_
      clear * - hs
      generalize e.2 = v at hs
      induction r generalizing v with
      | nil =>
        rw [at_nil] at hs
        cases hs
        simp [Val.ids]
      | cons k p ih =>
        cases v with
        | atom a => simp [Val.at] at hs
        | obj j c' gs =>
          rw [at_cons] at hs
          cases hg : gs.get k with
          | none => rw [hg] at hs; cases hs
          | some w =>
            rw [hg] at hs
            rw [Val.ids]
            exact List.mem_cons_of_mem _ ((get_ids hg).subset (ih w hs))
  have memIds : ∀ p (v : Val), Sits v p i → i ∈ v.ids := by
    intro p
    induction p with
    | nil =>
      rintro v ⟨c, fs, h⟩
      rw [at_nil] at h
      cases h
      simp [Val.ids]
    | cons k p ih =>
      rintro v ⟨c, fs, h⟩
      cases v with
      | atom a => simp [Val.at] at h
      | obj j c' gs =>
        rw [at_cons] at h
        cases hg : gs.get k with
        | none => rw [hg] at h; cases h
        | some w =>
          rw [hg] at h
          rw [Val.ids]
          exact List.mem_cons_of_mem _ ((get_ids hg).subset (ih w ⟨c, fs, h⟩))
  by_cases hup : Under kwargs p
  · by_cases huq : Under kwargs q
    · exact Or.inr ⟨hup, huq⟩
    · have h5 := below p hup hp
      have h6 := hrange i (memIds q _ (own q huq hq))
      omega
  · by_cases huq : Under kwargs q
    · have h5 := below q huq hq
      have h6 := hrange i (memIds p _ (own p hup hp))
      omega
    · exact Or.inl (sits_unique p q _ i hn' (own p hup hp) (own q huq hq))

/-- C92 (as the code is): the construction seed of an instance passed as `device` is overwritten
by the argument `construction_seed` (0 by default) for plain SGD and mixed precision, and kept in
the unit cells of the other algorithms, whose compound gets the argument instead. -/
theorem C92_seed (lower : String → String) (alg : String) (i : Nat) (c : String) (fs : Fields)
    (io up : Arg) (nDevices seed : Int) (kwargs : List (String × Val)) (n m : Nat) (cfg : Val)
    (A : Algo) (hA : Selects (lower alg) nDevices A)
    (h : buildConfig lower alg ⟨.inst i c fs, io, up⟩ nDevices seed kwargs n = .ok (cfg, m)) :
    (A = .sgdOne → cfg.look (path ["device", "construction_seed"]) = some (.atom (.int seed))) ∧
    (A = .mixedPrecision →
      cfg.look (path ["device", "device", "construction_seed"]) = some (.atom (.int seed))) ∧
    (A ∈ [Algo.tikiTaka, .ttv2, .choppedTtv2, .agad] →
      cfg.look (path ["device", "construction_seed"]) = some (.atom (.int seed)) ∧
      ∀ j < 2, cfg.look (devicePath j ++ path ["construction_seed"]) =
        (Val.obj i c fs).look (path ["construction_seed"])) := by
  have hw := C92_settings lower alg _ nDevices seed kwargs n m cfg A hA h
  have hcat : ∀ (p q : List Key) (v w : Val), v.at p = some w → v.look (p ++ q) = w.look q := by
    intro p
    induction p with
    | nil => intro q v w h; rw [at_nil] at h; cases h; rfl
    | cons k p ih =>
      intro q v w h
      cases v with
      | atom a => simp [Val.at] at h
      | obj j c' gs =>
        rw [at_cons] at h
        rw [List.cons_append, look_cons]
        cases hg : gs.get k with
        | none => rw [hg] at h; cases h
        | some x => rw [hg] at h; exact ih q x w h
  refine ⟨?_, ?_, ?_⟩
  · rintro rfl
    obtain ⟨v, hv, hm⟩ := hw (path ["device"], .made .device [("construction_seed", .int seed)])
      (by simp [Algo.wants])
    exact (hcat _ (path ["construction_seed"]) cfg v hv).trans (hm _)
  · rintro rfl
    obtain ⟨v, hv, hm⟩ := hw
      (path ["device", "device"], .made .device [("construction_seed", .int seed)])
      (by simp [Algo.wants, ofDevice])
    exact (hcat _ (path ["construction_seed"]) cfg v hv).trans (hm _)
  · intro hAl
    have key : (path ["device", "construction_seed"], Want.value (.int seed)) ∈ A.wants seed ∧
        ∀ j < 2, (devicePath j, Want.made .device []) ∈ A.wants seed := by
      have two : ∀ j < 2, (devicePath j, Want.made .device []) ∈ twoDevicesWant := by
        intro j hj
        obtain rfl | rfl : j = 0 ∨ j = 1 := by omega
        · simp [twoDevicesWant]
        · simp [twoDevicesWant]
      simp only [List.mem_cons, List.not_mem_nil, or_false] at hAl
      rcases hAl with rfl | rfl | rfl | rfl
      · exact ⟨by simp [Algo.wants, ofDevice],
          fun j hj => by simp [Algo.wants, two j hj]⟩
      · exact ⟨by simp [Algo.wants, ofDevice, choppedCommon],
          fun j hj => by simp [Algo.wants, two j hj]⟩
      · exact ⟨by simp [Algo.wants, ofDevice, choppedCommon],
          fun j hj => by simp [Algo.wants, two j hj]⟩
      · exact ⟨by simp [Algo.wants, ofDevice, choppedCommon],
          fun j hj => by simp [Algo.wants, two j hj]⟩
    refine ⟨hw _ key.1, fun j hj => ?_⟩
    obtain ⟨v, hv, hm⟩ := hw _ (key.2 j hj)
    exact (hcat _ (path ["construction_seed"]) cfg v hv).trans (hm _)

end Aihw.BuildCfg

import Verif.BuildCfg.Fresh

/-! # Property C92: outcome, passed objects, new objects -/
namespace Aihw.BuildCfg
open Aihw

/-- Explicit arguments followed by the passed ones. -/
def Fields.appendKw : Fields → List (String × Val) → Fields
  | .nil, kw => .of kw
  | .cons k v r, kw => .cons k v (r.appendKw kw)

theorem passed_eval (a : Args) (kw : List (String × Val)) (n : Nat) :
    (Exprs.passed kw).eval a n = .ok (.of kw, n) := by
  induction kw with
  | nil => rfl
  | cons e kw ih =>
    obtain ⟨k, v⟩ := e
    simp [Exprs.passed, Exprs.eval, Expr.eval, ih, Fields.of]

theorem append_eval (a : Args) (kw : List (String × Val)) : ∀ (es : Exprs) (n m : Nat)
    (fs : Fields), (es.append kw).eval a n = .ok (fs, m) →
      ∃ fs1, es.eval a n = .ok (fs1, m) ∧ fs = fs1.appendKw kw
  | .nil, n, m, fs, h => by
    rw [Exprs.append, passed_eval] at h
    simp only [Except.ok.injEq, Prod.mk.injEq] at h
    obtain ⟨rfl, rfl⟩ := h
    exact ⟨.nil, rfl, rfl⟩
  | .cons k e r, n, m, fs, h => by
    rw [Exprs.append] at h
    obtain ⟨v, m1, fs', he, hr, rfl⟩ := evals_cons h
    obtain ⟨fs1, h1, rfl⟩ := append_eval a kw r m1 m fs' hr
    exact ⟨.cons k v fs1, by rw [Exprs.eval, he]; simp [h1], rfl⟩

theorem append_eval' (a : Args) (kw : List (String × Val)) : ∀ (es : Exprs) (n m : Nat)
    (fs : Fields), es.eval a n = .ok (fs, m) →
      (es.append kw).eval a n = .ok (fs.appendKw kw, m)
  | .nil, n, m, fs, h => by
    simp only [Exprs.eval, Except.ok.injEq, Prod.mk.injEq] at h
    obtain ⟨rfl, rfl⟩ := h
    rw [Exprs.append, passed_eval]; rfl
  | .cons k e r, n, m, fs, h => by
    obtain ⟨v, m1, fs', he, hr, rfl⟩ := evals_cons h
    rw [Exprs.append, Exprs.eval, he]
    simp [append_eval' a kw r m1 m fs' hr, Fields.appendKw]

theorem keys_of (kw : List (String × Val)) : (Fields.of kw).keys = kw.map fun e => Key.name e.1 := by
  induction kw with
  | nil => rfl
  | cons e kw ih => obtain ⟨k, v⟩ := e; simp [Fields.of, Fields.keys, ih]

theorem keys_appendKw (kw : List (String × Val)) : ∀ fs : Fields,
    (fs.appendKw kw).keys = fs.keys ++ kw.map fun e => Key.name e.1
  | .nil => by simp [Fields.appendKw, Fields.keys, keys_of]
  | .cons k v r => by simp [Fields.appendKw, Fields.keys, keys_appendKw kw r]

theorem get_of_mem {kw : List (String × Val)} (hn : (kw.map Prod.fst).Nodup) {k : String} {v : Val}
    (h : (k, v) ∈ kw) : (Fields.of kw).get (.name k) = some v := by
  induction kw with
  | nil => simp at h
  | cons e kw ih =>
    obtain ⟨q, w⟩ := e
    simp only [List.map_cons, List.nodup_cons] at hn
    rw [List.mem_cons] at h
    rcases h with h | h
    · cases h; simp [Fields.of, Fields.get]
    · have : q ≠ k := fun e => hn.1 (by rw [e]; exact List.mem_map_of_mem (f := Prod.fst) h)
      have : ¬ Key.name q = Key.name k := by simpa using this
      rw [Fields.of, Fields.get, if_neg this, ih hn.2 h]

theorem get_appendKw (kw : List (String × Val)) (k : Key) : ∀ fs : Fields,
    (fs.appendKw kw).get k = (fs.get k).or ((Fields.of kw).get k)
  | .nil => by simp [Fields.appendKw, Fields.get]
  | .cons q v r => by
    by_cases h : q = k
    · simp [Fields.appendKw, Fields.get, h]
    · simp [Fields.appendKw, Fields.get, h, get_appendKw kw k r]

/-- The keys that the explicit arguments of a configuration occupy. -/
def explicitKeys : List Key :=
  [.name "device", .name "forward", .name "backward", .name "update"]

theorem expression_shape {name : String} {nd seed : Int} {c : Cls} {es : Exprs}
    (h : expression name nd seed = some (c, es)) :
    c.fields = configFields ∧ es.keys = explicitKeys := by
  unfold expression at h
  split at h
  · split at h <;> (cases h; exact ⟨rfl, rfl⟩)
  · split at h
    · cases h; exact ⟨rfl, rfl⟩
    · split at h
      · cases h; exact ⟨rfl, rfl⟩
      · split at h
        · cases h; exact ⟨rfl, rfl⟩
        · split at h
          · cases h; exact ⟨rfl, rfl⟩
          · split at h
            · cases h; exact ⟨rfl, rfl⟩
            · cases h

theorem configKeys : configFields.keys = ["tile_class", "runtime", "pre_post", "tile_array_class",
    "mapping", "forward", "backward", "update", "device"].map Key.name := rfl

/-- The shape of a successful call. -/
theorem build_shape {lower : String → String} {alg : String} {a : Args} {nd seed : Int}
    {kw : List (String × Val)} {n m : Nat} {cfg : Val}
    (h : buildConfig lower alg a nd seed kw n = .ok (cfg, m)) :
    ∃ c es fs m1, expression (lower alg) nd seed = some (c, es) ∧ es.eval a n = .ok (fs, m1) ∧
      fs.keys = explicitKeys ∧ c.fields = configFields ∧
      c.call (fs.appendKw kw) m1 = .ok (cfg, m) := by
  unfold buildConfig at h
  cases he : expression (lower alg) nd seed with
  | none => rw [he] at h; cases h
  | some o =>
    obtain ⟨c, es⟩ := o
    rw [he] at h
    simp only at h
    obtain ⟨fs, m1, h1, h2⟩ := eval_new h
    obtain ⟨fs1, h3, rfl⟩ := append_eval a kw es n m1 fs h1
    obtain ⟨hc, hk⟩ := expression_shape he
    exact ⟨c, es, fs1, m1, rfl, h3, by rw [evals_keys a es n m1 fs1 h3, hk], hc, h2⟩

theorem keys_nodup_names {l : List (String × Val)}
    (h : (l.map fun e => Key.name e.1).Nodup) : (l.map Prod.fst).Nodup := by
  have : (l.map fun e => Key.name e.1) = (l.map Prod.fst).map Key.name := by simp
  rw [this] at h
  exact List.Nodup.of_map _ h

/-- Only passable keyword arguments come through. -/
theorem call_passable {c : Cls} {fs : Fields} {kw : List (String × Val)} {n m : Nat} {v : Val}
    (hk : fs.keys = explicitKeys) (hc : c.fields = configFields)
    (h : c.call (fs.appendKw kw) n = .ok (v, m)) : Passable kw := by
  obtain ⟨h1, h2, -, -⟩ := call_ok h
  rw [keys_appendKw, hk, List.nodup_append] at h1
  refine ⟨keys_nodup_names h1.2.1, fun k hkm => ?_⟩
  obtain ⟨e, he, rfl⟩ := List.mem_map.1 hkm
  have hm : Key.name e.1 ∈ kw.map fun e => Key.name e.1 := List.mem_map.2 ⟨e, he, rfl⟩
  have h3 := h2 (.name e.1) (by rw [keys_appendKw]; exact List.mem_append_right _ hm)
  have h4 : Key.name e.1 ∉ explicitKeys := fun hx => h1.2.2 _ hx _ hm rfl
  rw [hc, configKeys] at h3
  simp only [List.map_cons, List.map_nil, List.mem_cons, Key.name.injEq, List.not_mem_nil,
    or_false] at h3
  simp only [explicitKeys, List.mem_cons, Key.name.injEq, List.not_mem_nil, or_false] at h4
  simp only [List.mem_cons, List.not_mem_nil, or_false]
  tauto

theorem call_passable' {c : Cls} {fs : Fields} {kw : List (String × Val)} (n : Nat)
    (hk : fs.keys = explicitKeys) (hc : c.fields = configFields) (h : Passable kw) :
    ∃ v m, c.call (fs.appendKw kw) n = .ok (v, m) := by
  unfold Cls.call
  have h1 : (fs.appendKw kw).keys.Nodup := by
    rw [keys_appendKw, hk, List.nodup_append]
    refine ⟨by decide, ?_, ?_⟩
    · have : (kw.map fun e => Key.name e.1) = (kw.map Prod.fst).map Key.name := by simp
      rw [this]
      exact h.1.map fun x y h => by simpa using h
    · rintro x hx y hy rfl
      obtain ⟨e, he, rfl⟩ := List.mem_map.1 hy
      have := h.2 e.1 (List.mem_map_of_mem he)
      simp only [explicitKeys, List.mem_cons, Key.name.injEq, List.not_mem_nil, or_false] at hx
      simp only [List.mem_cons, List.not_mem_nil, or_false] at this
      rcases hx with hx | hx | hx | hx <;> rw [hx] at this <;> revert this <;> decide
  have h2 : ∀ k ∈ (fs.appendKw kw).keys, k ∈ c.fields.keys := by
    intro k hkm
    rw [keys_appendKw, hk, List.mem_append] at hkm
    rw [hc]
    rcases hkm with hkm | hkm
    · revert k; decide
    · obtain ⟨e, he, rfl⟩ := List.mem_map.1 hkm
      have := h.2 e.1 (List.mem_map_of_mem he)
      rw [configKeys]
      simp only [List.mem_cons, List.not_mem_nil, or_false] at this
      simp only [List.map_cons, List.map_nil, List.mem_cons, Key.name.injEq, List.not_mem_nil,
        or_false]
      tauto
  exact ⟨_, _, by rw [if_neg (not_not.2 h1), if_neg (not_not.2 h2)]⟩

theorem call_not_passable {c : Cls} {fs : Fields} {kw : List (String × Val)} (n : Nat)
    (hk : fs.keys = explicitKeys) (hc : c.fields = configFields) (h : ¬ Passable kw) :
    c.call (fs.appendKw kw) n = .error .typeError := by
  cases hr : c.call (fs.appendKw kw) n with
  | ok o => exact absurd (call_passable hk hc hr) h
  | error e =>
    unfold Cls.call at hr
    split at hr
    · cases hr; rfl
    · split at hr
      · cases hr; rfl
      · cases hr

/-- C92: objects passed as keyword arguments are used as they are; the other optional fields get
their defaults. -/
theorem C92_kwargs (lower : String → String) (alg : String) (a : Args) (nDevices seed : Int)
    (kwargs : List (String × Val)) (n m : Nat) (cfg : Val)
    (h : buildConfig lower alg a nDevices seed kwargs n = .ok (cfg, m)) :
    Passable kwargs ∧
    (∀ k v, (k, v) ∈ kwargs → cfg.at [.name k] = some v) ∧
    ∀ o ∈ optional, o.1 ∉ kwargs.map Prod.fst →
      ∀ e ∈ o.2, holds a cfg (.name o.1 :: e.1) e.2 := by
  obtain ⟨c, es, fs, m1, he, hes, hk, hc, hcall⟩ := build_shape h
  have hp := call_passable hk hc hcall
  obtain ⟨hnd, hin, rfl, -⟩ := call_ok hcall
  refine ⟨hp, fun k v hkv => ?_, fun o ho hno e hee => ?_⟩
  · have hg : (fs.appendKw kwargs).get (.name k) = some v := by
      rw [get_appendKw]
      have : fs.get (.name k) = none := by
        rw [get_none_iff, hk]
        rw [keys_appendKw, hk, List.nodup_append] at hnd
        exact fun hx => hnd.2.2 _ hx _ (List.mem_map.2 ⟨(k, v), hkv, rfl⟩) rfl
      rw [this, get_of_mem hp.1 hkv]; rfl
    have hd : Key.name k ∈ c.fields.keys := hin _ (by
      by_contra hc
      rw [(get_none_iff _ _).2 hc] at hg
      cases hg)
    rw [at_cons, get_fill, hg]
    cases hx : c.fields.get (.name k) with
    | none => exact absurd hd ((get_none_iff _ _).1 hx)
    | some d => simp [at_nil]
  · have hg : (fs.appendKw kwargs).get (.name o.1) = none := by
      rw [get_none_iff, keys_appendKw, hk, List.mem_append]
      rintro (hx | hx)
      · simp only [optional, List.mem_cons, List.not_mem_nil, or_false] at ho
        rcases ho with rfl | rfl | rfl | rfl | rfl <;> revert hx <;> decide
      · obtain ⟨e', he', hx⟩ := List.mem_map.1 hx
        injection hx with hx
        exact hno (List.mem_map.2 ⟨e', he', hx⟩)
    have hlook : ∀ p, (Val.obj m1 c.name (fill m1 c.fields (fs.appendKw kwargs))).look
        (.name o.1 :: p) = (Val.obj 0 "" configFields).look (.name o.1 :: p) := by
      intro p
      rw [look_cons, get_fill, hg, look_cons, hc]
      cases configFields.get (.name o.1) <;> simp [look_rename]
    have hw : e.2 = Want.ofFace ((Val.obj 0 "" configFields).look (.name o.1 :: e.1)) := by
      have hall : ∀ o ∈ optional, ∀ e ∈ o.2,
          e.2 = Want.ofFace ((Val.obj 0 "" configFields).look (.name o.1 :: e.1)) := by
        simp only [optional, List.forall_mem_cons]
        repeat' first | exact rfl | constructor | (intro x hx; exact absurd hx (by simp))
      exact hall o ho e hee
    rw [hw]
    exact ofFace_congr a _ _ _ (hlook _)

end Aihw.BuildCfg

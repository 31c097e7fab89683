import Verif.BuildCfg.Lemmas

/-! # Property C92: the settings of each algorithm -/
namespace Aihw.BuildCfg
open Aihw

/-- The expression that an algorithm stands for. -/
theorem expression_of {name : String} {nDevices : Int} {A : Algo} (h : Selects name nDevices A)
    (seed : Int) : expression name nDevices seed = expression (A.names.headD "") nDevices seed := by
  obtain ⟨hn, -⟩ := h
  cases A <;> simp only [Algo.names, List.mem_cons, List.not_mem_nil, or_false] at hn
  case sgdOne => subst hn; rfl
  case sgdMany => subst hn; rfl
  case tikiTaka => rcases hn with rfl | rfl | rfl <;> rfl
  case ttv2 => subst hn; rfl
  case choppedTtv2 => rcases hn with rfl | rfl | rfl <;> rfl
  case agad => rcases hn with rfl | rfl <;> rfl
  case mixedPrecision => rcases hn with rfl | rfl <;> rfl

theorem append_find (es : Exprs) (kw : List (String × Val)) (k : Key) (p : List Key)
    (hk : k ∈ es.keys) : (es.append kw).find k p = es.find k p := by
  match es, hk with
  | .cons k' e r, hk =>
    by_cases h : k' = k
    · simp [Exprs.append, Exprs.find, h]
    · have : k ∈ r.keys := by
        rw [Exprs.keys, List.mem_cons] at hk
        rcases hk with rfl | hk
        · exact absurd rfl h
        · exact hk
      simp only [Exprs.append, Exprs.find, if_neg h]
      exact append_find r kw k p this

theorem append_keys (es : Exprs) (kw : List (String × Val)) :
    (es.append kw).keys = es.keys ++ kw.map fun e => Key.name e.1 := by
  match es with
  | .nil =>
    induction kw with
    | nil => rfl
    | cons e kw ih =>
      obtain ⟨k, v⟩ := e
      simpa [Exprs.append, Exprs.passed, Exprs.keys] using ih
  | .cons k e r => simp [Exprs.append, Exprs.keys, append_keys r kw]

/-- A path that an explicit argument of the configuration decides is found without the
`**kwargs`. -/
theorem find_new (c : Cls) (es : Exprs) (kw : List (String × Val)) (k : Key) (p : List Key)
    (hk : k ∈ es.keys) : (Expr.new c (es.append kw)).find (k :: p) = es.find k p := by
  rw [Expr.find, if_pos (by rw [append_keys]; simp [hk]), append_find es kw k p hk]

theorem rep_find (e : Expr) (p : List Key) (n j i : Nat) (h : j ≤ i) :
    (Exprs.rep e j n).find (.idx i) p = if i < j + n then e.find p else some .absent := by
  induction n generalizing j with
  | zero => simp [Exprs.rep, Exprs.find, h]
  | succ n ih =>
    rw [Exprs.rep, Exprs.find]
    by_cases hj : j = i
    · subst hj; simp
    · have : ¬ Key.idx j = Key.idx i := by simpa using hj
      rw [if_neg this, ih (j + 1) (by omega)]
      congr 1
      simp only [eq_iff_iff]; omega

/-- A description decides the wants at its paths. -/
def decides (c : Cls) (es : Exprs) (e : List Key × Want) : Prop :=
  match e.1 with
  | [] => e.2 = .cls c.name
  | k :: p => decide (k ∈ es.keys) = true ∧ es.find k p = some e.2

theorem decides_all {c : Cls} {es : Exprs} {l : List (List Key × Want)}
    (h : ∀ e ∈ l, decides c es e) {a : Args} {kw : List (String × Val)} {n m : Nat} {cfg : Val}
    (hb : (Expr.new c (es.append kw)).eval a n = .ok (cfg, m)) :
    ∀ e ∈ l, holds a cfg e.1 e.2 := by
  intro e he
  have hd := h e he
  obtain ⟨p, w⟩ := e
  cases p with
  | nil =>
    simp only [decides] at hd
    subst hd
    exact Expr.eval_holds a _ n m cfg [] _ hb rfl
  | cons k p =>
    simp only [decides] at hd
    exact Expr.eval_holds a _ n m cfg (k :: p) w hb (by
      rw [find_new _ _ _ _ _ (by simpa using hd.1), hd.2])

theorem dnil (c : Cls) (es : Exprs) : ∀ e ∈ ([] : List (List Key × Want)), decides c es e := by
  simp

theorem dcons {c : Cls} {es : Exprs} {e : List Key × Want} {l : List (List Key × Want)}
    (h : decides c es e) (hl : ∀ e ∈ l, decides c es e) : ∀ x ∈ e :: l, decides c es x := by
  simpa using ⟨h, fun a b => hl (a, b)⟩

/-- Checks the entries of a table one by one. -/
macro "each_entry" : tactic =>
  `(tactic| repeat' first | exact dnil _ _ | refine dcons ?_ ?_ | exact ⟨rfl, rfl⟩ | exact rfl)

theorem sgdOne_decides (seed : Int) :
    ∃ c es, expression "sgd" 1 seed = some (c, es) ∧
      ∀ e ∈ Algo.sgdOne.wants seed, decides c es e :=
  ⟨_, _, rfl, by each_entry⟩

theorem tikiTaka_decides (nd seed : Int) :
    ∃ c es, expression "tiki-taka" nd seed = some (c, es) ∧
      ∀ e ∈ Algo.tikiTaka.wants seed, decides c es e :=
  ⟨_, _, rfl, by each_entry⟩

theorem ttv2_decides (nd seed : Int) :
    ∃ c es, expression "ttv2" nd seed = some (c, es) ∧
      ∀ e ∈ Algo.ttv2.wants seed, decides c es e :=
  ⟨_, _, rfl, by each_entry⟩

theorem choppedTtv2_decides (nd seed : Int) :
    ∃ c es, expression "chopped-ttv2" nd seed = some (c, es) ∧
      ∀ e ∈ Algo.choppedTtv2.wants seed, decides c es e :=
  ⟨_, _, rfl, by each_entry⟩

theorem agad_decides (nd seed : Int) :
    ∃ c es, expression "agad" nd seed = some (c, es) ∧
      ∀ e ∈ Algo.agad.wants seed, decides c es e :=
  ⟨_, _, rfl, by each_entry⟩

theorem mixedPrecision_decides (nd seed : Int) :
    ∃ c es, expression "mp" nd seed = some (c, es) ∧
      ∀ e ∈ Algo.mixedPrecision.wants seed, decides c es e :=
  ⟨_, _, rfl, by each_entry⟩

theorem dappend {c : Cls} {es : Exprs} {l l' : List (List Key × Want)}
    (h : ∀ e ∈ l, decides c es e) (h' : ∀ e ∈ l', decides c es e) :
    ∀ e ∈ l ++ l', decides c es e := by
  intro e he
  rcases List.mem_append.1 he with he | he
  · exact h e he
  · exact h' e he

theorem sgdMany_decides (nd seed : Int) (h1 : nd ≠ 1) :
    ∃ c es, expression "sgd" nd seed = some (c, es) ∧
      ∀ e ∈ (Algo.sgdMany nd.toNat).wants seed, decides c es e := by
  unfold expression
  rw [if_pos (by decide), if_neg h1]
  refine ⟨_, _, rfl, ?_⟩
  refine dappend (dappend (dappend ?_ ?_) ?_) ?_
  · refine dcons rfl (dcons ⟨rfl, rfl⟩ (dcons ⟨rfl, rfl⟩ (dcons ⟨rfl, ?_⟩ (dnil _ _))))
    have := rep_find (.make .device []) [] nd.toNat 0 nd.toNat (by omega)
    rw [if_neg (by omega)] at this
    exact this
  · intro e he
    obtain ⟨i, hi, rfl⟩ := List.mem_map.1 he
    rw [List.mem_range] at hi
    have := rep_find (.make .device []) [] nd.toNat 0 i (by omega)
    rw [if_pos (by omega)] at this
    exact ⟨rfl, this⟩
  · each_entry
  · each_entry

/-- C92: every entry of the algorithm's table is satisfied by the configuration. -/
theorem C92_settings (lower : String → String) (alg : String) (a : Args) (nDevices seed : Int)
    (kwargs : List (String × Val)) (n m : Nat) (cfg : Val) (A : Algo)
    (hA : Selects (lower alg) nDevices A)
    (h : buildConfig lower alg a nDevices seed kwargs n = .ok (cfg, m)) :
    ∀ e ∈ A.wants seed, holds a cfg e.1 e.2 := by
  unfold buildConfig at h
  rw [expression_of hA seed] at h
  have key : ∃ c es, expression (A.names.headD "") nDevices seed = some (c, es) ∧
      ∀ e ∈ A.wants seed, decides c es e := by
    cases A with
    | sgdOne =>
      have h1 : nDevices = 1 := hA.2
      subst h1
      exact sgdOne_decides seed
    | sgdMany k =>
      obtain ⟨h1, h2⟩ : nDevices ≠ 1 ∧ k = nDevices.toNat := hA.2
      subst h2
      exact sgdMany_decides nDevices seed h1
    | tikiTaka => exact tikiTaka_decides _ _
    | ttv2 => exact ttv2_decides _ _
    | choppedTtv2 => exact choppedTtv2_decides _ _
    | agad => exact agad_decides _ _
    | mixedPrecision => exact mixedPrecision_decides _ _
  obtain ⟨c, es, he, hd⟩ := key
  rw [he] at h
  exact decides_all hd h

end Aihw.BuildCfg

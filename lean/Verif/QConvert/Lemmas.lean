import Verif.QConvert.Spec

namespace Aihw.QConvert

variable {T : Type}

theorem find_lookup {β : Type} (a : String) (l : List (String × β)) : find a l = l.lookup a := by
  induction l with
  | nil => rfl
  | cons p l ih =>
    obtain ⟨k, v⟩ := p
    rw [find, List.lookup_cons]
    by_cases h : k = a
    · subst h; simp
    · rw [if_neg h, ih]
      have : (a == k) = false := by simpa using fun e => h e.symm
      simp [this]

theorem find_find? {α β : Type} [DecidableEq α] (a : α) (l : List (α × β)) :
    find a l = (l.find? fun e => e.1 = a).map (·.2) := by
  induction l with
  | nil => rfl
  | cons p l ih =>
    obtain ⟨k, v⟩ := p
    rw [find, List.find?_cons]
    by_cases h : k = a <;> simp [h, ih]

theorem find_none {α β : Type} [DecidableEq α] (a : α) (l : List (α × β)) :
    find a l = none ↔ ∀ v, (a, v) ∉ l := by
  induction l with
  | nil => simp [find]
  | cons p l ih =>
    obtain ⟨k, v⟩ := p
    rw [find]
    by_cases h : k = a
    · subst h; simp only [if_true, List.mem_cons, reduceCtorEq, false_iff]
      intro hh; exact hh v (Or.inl rfl)
    · rw [if_neg h, ih]
      constructor
      · intro hh w hw
        rcases List.mem_cons.1 hw with e | e
        · exact h (by injection e with e1 _; exact e1.symm)
        · exact hh w e
      · intro hh w hw
        exact hh w (List.mem_cons_of_mem _ hw)

theorem select_some {qm : QMap} {p : List String} {c : Cls} {mc : QModCfg} :
    Applies qm p c mc ↔ select qm (dotted p) c = some mc := by
  unfold Applies select
  rw [find_lookup, find_find?]
  cases h : List.lookup (dotted p) qm.byName <;> simp

theorem select_none {qm : QMap} {p : List String} {c : Cls} :
    ¬Selected qm p c ↔ select qm (dotted p) c = none := by
  unfold Selected select
  push Not
  constructor
  · rintro ⟨h1, h2⟩
    have e1 := (find_none (dotted p) qm.byName).2 h1
    have e2 := (find_none c qm.byClass).2 h2
    rw [e1]; exact e2
  · intro h
    cases e : find (dotted p) qm.byName with
    | some mc => rw [e] at h; simp at h
    | none =>
      rw [e] at h
      exact ⟨(find_none _ _).1 e, (find_none _ _).1 h⟩

theorem isLeaf_iff {c : Cls} : c.isLeaf = false ↔ ∀ l, c ≠ .leaf l := by
  cases c <;> simp [Cls.isLeaf]

/-! ### Names -/

theorem intercalate_snoc (p : List String) (n : String) (hp : p ≠ []) :
    ".".intercalate (p ++ [n]) = ".".intercalate p ++ "." ++ n := by
  induction p with
  | nil => exact absurd rfl hp
  | cons a p ih =>
    cases p with
    | nil =>
      rw [List.singleton_append, String.intercalate_cons_cons, String.intercalate_singleton,
        String.intercalate_singleton]
    | cons b p =>
      have := ih (by simp)
      rw [List.cons_append, List.cons_append, String.intercalate_cons_cons, ← List.cons_append, this,
        String.intercalate_cons_cons]
      simp only [String.append_assoc]

theorem dotted_ne (p : List String) (hp : p ≠ []) (h : "" ∉ p) : dotted p ≠ "" := by
  unfold dotted
  cases p with
  | nil => exact absurd rfl hp
  | cons a p =>
    have ha : a ≠ "" := fun e => h (by simp [e])
    cases p with
    | nil => rwa [String.intercalate_singleton]
    | cons b p =>
      rw [String.intercalate_cons_cons]
      intro e
      have := congrArg String.length e
      simp [String.length_append] at this

theorem dotted_snoc (p : List String) (n : String) (h : "" ∉ p) :
    dotted (p ++ [n]) = fullName (dotted p) n := by
  by_cases hp : p = []
  · subst hp
    simp [dotted, fullName, String.intercalate_singleton]
  · unfold fullName
    rw [if_neg (dotted_ne p hp h)]
    exact intercalate_snoc p n hp

/-! ### Lookups -/

theorem at_append (m : Mod T) (p q : List String) :
    m.at (p ++ q) = (m.at p).bind fun x => x.at q := by
  induction p generalizing m with
  | nil => simp [Mod.at]
  | cons n p ih =>
    obtain ⟨c, v, ks⟩ := m
    simp only [List.cons_append, Mod.at]
    cases ks.get n with
    | none => rfl
    | some e => exact ih e.2

theorem at_one (c : Cls) (v : Val T) (ks : Kids T) (n : String) :
    (Mod.node c v ks).at [n] = (ks.get n).map (·.2) := by
  simp only [Mod.at]
  cases ks.get n <;> rfl

theorem get_mem_names (ks : Kids T) (n : String) (e : Nat × Mod T) (h : ks.get n = some e) :
    n ∈ ks.names := by
  induction ks using Kids.rec (motive_1 := fun _ => True) with
  | node => trivial
  | nil => simp [Kids.get] at h
  | cons a i m rest _ ih =>
    rw [Kids.get] at h
    by_cases ha : a = n
    · simp [Kids.names, ha]
    · rw [if_neg ha] at h
      exact List.mem_cons_of_mem _ (ih h)

/-! ### `enable_quant_states` -/

theorem get_enable (ks : Kids T) (n : String) :
    (enableKids ks).get n = (ks.get n).map fun e => (e.1, enableMod e.2) := by
  induction ks using Kids.rec (motive_1 := fun _ => True) with
  | node => trivial
  | nil => simp [Kids.get, enableKids]
  | cons a i m rest _ ih =>
    simp only [enableKids, Kids.get]
    by_cases ha : a = n
    · simp [ha]
    · simp [ha, ih]

theorem names_enable (ks : Kids T) : (enableKids ks).names = ks.names := by
  induction ks using Kids.rec (motive_1 := fun _ => True) with
  | node => trivial
  | nil => simp [enableKids]
  | cons a i m rest _ ih => simp [enableKids, Kids.names, ih]

theorem at_enable (m : Mod T) (q : List String) : (enableMod m).at q = (m.at q).map enableMod := by
  induction q generalizing m with
  | nil => rfl
  | cons n q ih =>
    obtain ⟨c, v, ks⟩ := m
    simp only [enableMod, Mod.at, get_enable]
    cases ks.get n with
    | none => rfl
    | some e => exact ih e.2

theorem refreshed_enable (v : Val T) : Refreshed v (enableVal v) := by
  unfold enableVal Refreshed
  cases h : v.q with
  | none => simp [h]
  | some s =>
    refine ⟨rfl, rfl, rfl, rfl, rfl, by simp, ?_⟩
    rintro s' ⟨⟩
    exact ⟨_, rfl, rfl, by simp, by simp⟩

theorem enable_cls (m : Mod T) : (enableMod m).cls = m.cls := by cases m; rfl
theorem enable_val (m : Mod T) : (enableMod m).val = enableVal m.val := by cases m; rfl
theorem enable_names (m : Mod T) : (enableMod m).kids.names = m.kids.names := by
  cases m; exact names_enable _

theorem sameTree_enable (m : Mod T) : SameTree m (enableMod m) := by
  intro q
  rw [at_enable]
  refine ⟨by simp, ?_⟩
  intro x x' h h'
  rw [h] at h'
  injection h' with h'
  subst h'
  exact ⟨enable_cls x, enable_names x, by rw [enable_val]; exact refreshed_enable _⟩

/-! ### The walk -/

theorem qm_excluded (E : Env T) (qm : QMap) (nm : String) (m : Mod T) (h : nm ∈ qm.excluded) :
    quantizeModel E qm nm m = .ok .skip := by
  obtain ⟨c, v, ks⟩ := m
  rw [quantizeModel, if_pos h]

theorem qm_leaf (E : Env T) (qm : QMap) (nm : String) (m : Mod T) (l : Nat) (h : m.cls = .leaf l) :
    quantizeModel E qm nm m = .ok .skip := by
  obtain ⟨c, v, ks⟩ := m
  have h : c = .leaf l := h
  subst h
  rw [quantizeModel]
  by_cases he : nm ∈ qm.excluded
  · rw [if_pos he]
  · rw [if_neg he]; rfl

theorem qm_selected (E : Env T) (qm : QMap) (p : List String) (m : Mod T) (mc : QModCfg)
    (ha : Active qm p m) (h : Applies qm p m.cls mc) :
    quantizeModel E qm (dotted p) m = convertSelf E qm mc m := by
  obtain ⟨c, v, ks⟩ := m
  have hl : c.isLeaf = false := isLeaf_iff.2 ha.2
  have hs : select qm (dotted p) c = some mc := select_some.1 h
  rw [quantizeModel, if_neg ha.1, hl, if_neg (by simp), hs]

theorem qm_open (E : Env T) (qm : QMap) (p : List String) (c : Cls) (v : Val T) (ks : Kids T)
    (he : dotted p ∉ qm.excluded) (hl : ∀ l, c ≠ .leaf l) (h : ¬Selected qm p c) :
    quantizeModel E qm (dotted p) (.node c v ks) =
      (quantizeKids E qm (dotted p) [] ks).map fun ks' => .same (.node c v ks') := by
  rw [quantizeModel, if_neg he, isLeaf_iff.2 hl, if_neg (by simp), select_none.1 h]

theorem kids_names (E : Env T) (qm : QMap) (nm : String) (ks ks' : Kids T)
    (seen : List (Nat × Mod T)) (h : quantizeKids E qm nm seen ks = .ok ks') :
    ks'.names = ks.names := by
  induction ks using Kids.rec (motive_1 := fun _ => True) generalizing seen ks' with
  | node => trivial
  | nil => rw [quantizeKids] at h; cases h; rfl
  | cons a i m rest _ ih =>
    rw [quantizeKids] at h
    cases hf : find i seen with
    | some m' =>
      rw [hf] at h; simp only at h
      cases hr : quantizeKids E qm nm seen rest with
      | error e => rw [hr] at h; cases h
      | ok r => rw [hr] at h; cases h; simp [Kids.names, ih _ _ hr]
    | none =>
      rw [hf] at h; simp only at h
      by_cases he : fullName nm a ∈ qm.excluded
      · rw [if_pos he] at h
        cases hr : quantizeKids E qm nm ((i, m) :: seen) rest with
        | error e => rw [hr] at h; cases h
        | ok r => rw [hr] at h; cases h; simp [Kids.names, ih _ _ hr]
      · rw [if_neg he] at h
        cases ho : quantizeModel E qm (fullName nm a) m with
        | error e => rw [ho] at h; cases h
        | ok o =>
          rw [ho] at h; simp only at h
          cases hr : quantizeKids E qm nm ((i, after m o) :: seen) rest with
          | error e => rw [hr] at h; cases h
          | ok r => rw [hr] at h; cases h; simp [Kids.names, ih _ _ hr]

/-- One step of the loop, for a slot not seen before. -/
theorem kids_step (E : Env T) (qm : QMap) (nm n : String) (i : Nat) (m : Mod T) (rest ks' : Kids T)
    (seen : List (Nat × Mod T)) (hs : find i seen = none)
    (h : quantizeKids E qm nm seen (.cons n i m rest) = .ok ks') :
    ∃ o r, quantizeModel E qm (fullName nm n) m = .ok o ∧
      quantizeKids E qm nm ((i, after m o) :: seen) rest = .ok r ∧
      ks' = .cons n i (slotOf qm (fullName nm n) m o) r := by
  rw [quantizeKids, hs] at h
  simp only at h
  by_cases he : fullName nm n ∈ qm.excluded
  · rw [if_pos he] at h
    refine ⟨.skip, ?_⟩
    cases hr : quantizeKids E qm nm ((i, m) :: seen) rest with
    | error e => rw [hr] at h; cases h
    | ok r =>
      rw [hr] at h; cases h
      exact ⟨r, qm_excluded E qm _ m he, hr, rfl⟩
  · rw [if_neg he] at h
    cases ho : quantizeModel E qm (fullName nm n) m with
    | error e => rw [ho] at h; cases h
    | ok o =>
      rw [ho] at h; simp only at h
      refine ⟨o, ?_⟩
      cases hr : quantizeKids E qm nm ((i, after m o) :: seen) rest with
      | error e => rw [hr] at h; cases h
      | ok r =>
        rw [hr] at h; cases h
        exact ⟨r, rfl, rfl, rfl⟩

theorem kids_step_seen (E : Env T) (qm : QMap) (nm n : String) (i : Nat) (m y : Mod T)
    (rest ks' : Kids T) (seen : List (Nat × Mod T)) (hs : find i seen = some y)
    (h : quantizeKids E qm nm seen (.cons n i m rest) = .ok ks') :
    ∃ r, quantizeKids E qm nm seen rest = .ok r ∧ ks' = .cons n i y r := by
  rw [quantizeKids, hs] at h
  simp only at h
  cases hr : quantizeKids E qm nm seen rest with
  | error e => rw [hr] at h; cases h
  | ok r => rw [hr] at h; cases h; exact ⟨r, rfl, rfl⟩

/-- The slot of a child under its first name. -/
theorem kids_get (E : Env T) (qm : QMap) (nm n : String) (i : Nat) (m : Mod T) (ks ks' : Kids T)
    (seen : List (Nat × Mod T)) (hs : find i seen = none) (hg : ks.get n = some (i, m))
    (hf : ks.firstName i = some n) (h : quantizeKids E qm nm seen ks = .ok ks') :
    ∃ o, quantizeModel E qm (fullName nm n) m = .ok o ∧
      ks'.get n = some (i, slotOf qm (fullName nm n) m o) := by
  induction ks using Kids.rec (motive_1 := fun _ => True) generalizing seen ks' with
  | node => trivial
  | nil => simp [Kids.get] at hg
  | cons a j y rest _ ih =>
    rw [Kids.get] at hg
    rw [Kids.firstName] at hf
    by_cases ha : a = n
    · rw [if_pos ha] at hg
      subst ha
      simp only [Option.some.injEq, Prod.mk.injEq] at hg
      obtain ⟨rfl, rfl⟩ := hg
      obtain ⟨o, r, ho, _, rfl⟩ := kids_step E qm nm a j y rest ks' seen hs h
      exact ⟨o, ho, by simp [Kids.get]⟩
    · rw [if_neg ha] at hg
      have hj : j ≠ i := by
        intro e
        rw [if_pos e] at hf
        exact ha (by simpa using hf)
      rw [if_neg hj] at hf
      cases hsj : find j seen with
      | some x =>
        obtain ⟨r, hr, rfl⟩ := kids_step_seen E qm nm a j y x rest ks' seen hsj h
        obtain ⟨o, ho, hg'⟩ := ih r seen hs hg hf hr
        exact ⟨o, ho, by simp [Kids.get, ha, hg']⟩
      | none =>
        obtain ⟨o', r, _, hr, rfl⟩ := kids_step E qm nm a j y rest ks' seen hsj h
        obtain ⟨o, ho, hg'⟩ := ih r ((j, after y o') :: seen) (by simp [find, hj, hs]) hg hf hr
        exact ⟨o, ho, by simp [Kids.get, ha, hg']⟩

theorem kids_get_seen (E : Env T) (qm : QMap) (nm n : String) (i : Nat) (m y : Mod T)
    (ks ks' : Kids T) (seen : List (Nat × Mod T)) (hs : find i seen = some y)
    (hg : ks.get n = some (i, m)) (h : quantizeKids E qm nm seen ks = .ok ks') :
    ks'.get n = some (i, y) := by
  induction ks using Kids.rec (motive_1 := fun _ => True) generalizing seen ks' with
  | node => trivial
  | nil => simp [Kids.get] at hg
  | cons a j z rest _ ih =>
    rw [Kids.get] at hg
    by_cases ha : a = n
    · rw [if_pos ha] at hg
      simp only [Option.some.injEq, Prod.mk.injEq] at hg
      obtain ⟨rfl, rfl⟩ := hg
      obtain ⟨r, _, rfl⟩ := kids_step_seen E qm nm a j z y rest ks' seen hs h
      simp [Kids.get, ha]
    · rw [if_neg ha] at hg
      cases hsj : find j seen with
      | some x =>
        obtain ⟨r, hr, rfl⟩ := kids_step_seen E qm nm a j z x rest ks' seen hsj h
        simp [Kids.get, ha, ih r seen hs hg hr]
      | none =>
        have hj : j ≠ i := by
          rintro rfl
          rw [hs] at hsj; cases hsj
        obtain ⟨o', r, _, hr, rfl⟩ := kids_step E qm nm a j z rest ks' seen hsj h
        simp [Kids.get, ha, ih r ((j, after z o') :: seen) (by simp [find, hj, hs]) hg hr]

/-- The slot of a child under a later name. -/
theorem kids_get_later (E : Env T) (qm : QMap) (nm n n1 : String) (i : Nat) (m m1 : Mod T)
    (ks ks' : Kids T) (seen : List (Nat × Mod T)) (hs : find i seen = none)
    (hg : ks.get n = some (i, m)) (hg1 : ks.get n1 = some (i, m1))
    (hf : ks.firstName i = some n1) (hn : n ≠ n1) (h : quantizeKids E qm nm seen ks = .ok ks') :
    ∃ o, quantizeModel E qm (fullName nm n1) m1 = .ok o ∧ ks'.get n = some (i, after m1 o) := by
  induction ks using Kids.rec (motive_1 := fun _ => True) generalizing seen ks' with
  | node => trivial
  | nil => simp [Kids.get] at hg
  | cons a j y rest _ ih =>
    rw [Kids.get] at hg hg1
    rw [Kids.firstName] at hf
    by_cases ha : a = n1
    · rw [if_pos ha] at hg1
      subst ha
      simp only [Option.some.injEq, Prod.mk.injEq] at hg1
      obtain ⟨rfl, rfl⟩ := hg1
      rw [if_neg (Ne.symm hn)] at hg
      obtain ⟨o, r, ho, hr, rfl⟩ := kids_step E qm nm a j y rest ks' seen hs h
      refine ⟨o, ho, ?_⟩
      rw [Kids.get, if_neg (Ne.symm hn)]
      exact kids_get_seen E qm nm n j m _ rest r _ (by simp [find]) hg hr
    · rw [if_neg ha] at hg1
      have hj : j ≠ i := by
        intro e
        rw [if_pos e] at hf
        exact ha (by simpa using hf)
      rw [if_neg hj] at hf
      have han : a ≠ n := by
        intro e
        rw [if_pos e] at hg
        simp only [Option.some.injEq, Prod.mk.injEq] at hg
        exact hj hg.1
      rw [if_neg han] at hg
      cases hsj : find j seen with
      | some x =>
        obtain ⟨r, hr, rfl⟩ := kids_step_seen E qm nm a j y x rest ks' seen hsj h
        obtain ⟨o, ho, hg'⟩ := ih r seen hs hg hg1 hf hr
        exact ⟨o, ho, by simp [Kids.get, han, hg']⟩
      | none =>
        obtain ⟨o', r, _, hr, rfl⟩ := kids_step E qm nm a j y rest ks' seen hsj h
        obtain ⟨o, ho, hg'⟩ := ih r ((j, after y o') :: seen) (by simp [find, hj, hs]) hg hg1 hf hr
        exact ⟨o, ho, by simp [Kids.get, han, hg']⟩

/-- The content of the slot at `p`, before the states are enabled: no wrapper at the root. -/
def content (qm : QMap) (p : List String) (x : Mod T) (o : Out T) : Mod T :=
  if p = [] then after x (match o with | .fresh m => .same m | o => o) else slotOf qm (dotted p) x o

theorem inside_at (qm : QMap) (p r : List String) (res x y : Mod T)
    (h : res.at r = some (content qm p x (.same y))) : res.at (inside qm p r) = some y := by
  unfold content at h
  unfold inside
  by_cases hp : p = []
  · subst hp
    simpa [after] using h
  · rw [if_neg hp, slotOf, wrapIf, find_lookup] at h
    cases hl : List.lookup (dotted p) qm.inputs with
    | none =>
      rw [hl] at h
      simpa using h
    | some cfg =>
      rw [hl] at h
      simp only [ne_eq, hp, not_false_eq_true, Option.isSome_some, and_self, if_true]
      rw [at_append, h]
      simp [wrapInput, at_one, Kids.get]

theorem visited_at (qm : QMap) (model : Mod T) (p r : List String) (x : Mod T)
    (hv : Visited qm model p x r) : model.at p = some x := by
  induction hv with
  | root => rfl
  | child hv _ _ _ hg _ ih => rw [at_append, ih, Option.bind_some, at_one, hg]; rfl

theorem visited_names (qm : QMap) (model : Mod T) (hn : NamesOk model) (p r : List String) (x : Mod T)
    (hv : Visited qm model p x r) : "" ∉ p := by
  induction hv with
  | root => simp
  | child hv _ _ _ hg _ ih =>
    have h1 := hn _ _ (visited_at qm model _ _ _ hv)
    have h2 := get_mem_names _ _ _ hg
    simp only [List.mem_append, List.mem_singleton, not_or]
    refine ⟨ih, ?_⟩
    rintro rfl
    exact h1 h2

theorem open_inv (E : Env T) (qm : QMap) (p : List String) (c : Cls) (v : Val T) (ks : Kids T)
    (o : Out T) (he : dotted p ∉ qm.excluded) (hl : ∀ l, c ≠ .leaf l) (h : ¬Selected qm p c)
    (ho : quantizeModel E qm (dotted p) (.node c v ks) = .ok o) :
    ∃ ks', quantizeKids E qm (dotted p) [] ks = .ok ks' ∧ o = .same (.node c v ks') := by
  rw [qm_open E qm p c v ks he hl h] at ho
  cases hk : quantizeKids E qm (dotted p) [] ks with
  | error e => rw [hk] at ho; cases ho
  | ok ks' => rw [hk] at ho; cases ho; exact ⟨ks', rfl, rfl⟩

/-- What the conversion makes of a visited module. -/
theorem visited_out (E : Env T) (qm : QMap) (model pre : Mod T) (hn : NamesOk model)
    (h : quantizeModel E qm "" model = .ok (.same pre) ∨
      quantizeModel E qm "" model = .ok (.fresh pre))
    (p r : List String) (x : Mod T) (hv : Visited qm model p x r) :
    ∃ o, quantizeModel E qm (dotted p) x = .ok o ∧ pre.at r = some (content qm p x o) := by
  induction hv with
  | root =>
    rcases h with h | h
    · exact ⟨_, h, by simp [content, Mod.at, after]⟩
    · exact ⟨_, h, by simp [content, Mod.at, after]⟩
  | @child p r c v ks n i x hv he hl hs hg hf ih =>
    obtain ⟨o, ho, hat⟩ := ih
    obtain ⟨ks', hk, rfl⟩ := open_inv E qm p c v ks o he hl hs ho
    have hin := inside_at qm p r pre _ _ hat
    obtain ⟨o, ho', hg'⟩ := kids_get E qm (dotted p) n i x ks ks' [] rfl hg hf hk
    have hd := dotted_snoc p n (visited_names qm model hn p r _ hv)
    refine ⟨o, by rw [hd]; exact ho', ?_⟩
    rw [at_append, hin, Option.bind_some, at_one, hg']
    simp [content, hd]

/-- The same for a later name of a child. -/
theorem later_out (E : Env T) (qm : QMap) (model pre : Mod T) (hn : NamesOk model)
    (h : quantizeModel E qm "" model = .ok (.same pre) ∨
      quantizeModel E qm "" model = .ok (.fresh pre))
    (p r : List String) (c : Cls) (v : Val T) (ks : Kids T) (hv : Visited qm model p (.node c v ks) r)
    (he : dotted p ∉ qm.excluded) (hl : ∀ l, c ≠ .leaf l) (hs : ¬Selected qm p c)
    (n n1 : String) (i : Nat) (x x1 : Mod T) (hg : ks.get n = some (i, x))
    (hg1 : ks.get n1 = some (i, x1)) (hf : ks.firstName i = some n1) (hne : n ≠ n1) :
    ∃ o, quantizeModel E qm (dotted (p ++ [n1])) x1 = .ok o ∧
      pre.at (inside qm p r ++ [n]) = some (after x1 o) := by
  obtain ⟨o, ho, hat⟩ := visited_out E qm model pre hn h p r _ hv
  obtain ⟨ks', hk, rfl⟩ := open_inv E qm p c v ks o he hl hs ho
  have hin := inside_at qm p r pre _ _ hat
  obtain ⟨o, ho', hg'⟩ := kids_get_later E qm (dotted p) n n1 i x x1 ks ks' [] rfl hg hg1 hf hne hk
  have hd := dotted_snoc p n1 (visited_names qm model hn p r _ hv)
  refine ⟨o, by rw [hd]; exact ho', ?_⟩
  rw [at_append, hin, Option.bind_some, at_one, hg']
  rfl

theorem convert_inv (E : Env T) (qm : QMap) (model res : Mod T)
    (h : convertToQuantized E qm model = .ok res) :
    ∃ pre, res = enableMod pre ∧ (quantizeModel E qm "" model = .ok (.same pre) ∨
      quantizeModel E qm "" model = .ok (.fresh pre)) := by
  unfold convertToQuantized at h
  cases hq : quantizeModel E qm "" model with
  | error e => rw [hq] at h; cases h
  | ok o =>
    rw [hq] at h
    cases o with
    | skip => cases h
    | same m => cases h; exact ⟨m, rfl, Or.inl rfl⟩
    | fresh m => cases h; exact ⟨m, rfl, Or.inr rfl⟩

end Aihw.QConvert

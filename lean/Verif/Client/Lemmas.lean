/-
Lemmas about the client: parsing, and what each request adds to the trace.
-/
import Verif.Client.Spec

namespace Aihw.Client

/-! ### JSON -/

theorem lookup_iff (k : String) (kvs : List (String × Val)) (x : Val) :
    lookup k kvs = some x ↔ ∃ pre post, kvs = pre ++ (k, x) :: post ∧ ∀ p ∈ pre, p.1 ≠ k := by
  induction kvs with
  | nil => simp [lookup]
  | cons p ps ih =>
    simp only [lookup]
    by_cases hp : p.1 = k
    · rw [if_pos hp]
      constructor
      · intro h
        injection h with h
        exact ⟨[], ps, by rw [← hp, ← h]; rfl, by simp⟩
      · rintro ⟨pre, post, e, hpre⟩
        cases pre with
        | nil => simp at e; rw [e.1]
        | cons q qs =>
          simp at e
          exact absurd (e.1 ▸ hp) (hpre q (by simp))
    · rw [if_neg hp, ih]
      constructor
      · rintro ⟨pre, post, e, hpre⟩
        refine ⟨p :: pre, post, by rw [e]; rfl, ?_⟩
        intro q hq
        rcases List.mem_cons.mp hq with rfl | hq
        · exact hp
        · exact hpre q hq
      · rintro ⟨pre, post, e, hpre⟩
        cases pre with
        | nil => simp at e; exact absurd (by rw [e.1]) hp
        | cons q qs =>
          simp at e
          exact ⟨qs, post, e.2, fun r hr => hpre r (by simp [hr])⟩

theorem has_iff (v : Val) (k : String) (x : Val) :
    Has v k x ↔ ∃ kvs, v = .dict kvs ∧ lookup k kvs = some x := by
  constructor
  · rintro ⟨pre, post, rfl, h⟩
    exact ⟨_, rfl, (lookup_iff k _ x).mpr ⟨pre, post, rfl, h⟩⟩
  · rintro ⟨kvs, rfl, h⟩
    obtain ⟨pre, post, e, h⟩ := (lookup_iff k _ x).mp h
    exact ⟨pre, post, by rw [e], h⟩

theorem index_iff (v : Val) (k : String) (x : Val) : index v k = .ok x ↔ Has v k x := by
  rw [has_iff]
  cases v with
  | dict kvs =>
    simp only [index]
    cases hl : lookup k kvs with
    | none => simp [hl]
    | some y => simp [hl]
  | _ => simp [index]

theorem blank_iff (v : Val) : Blank v ↔ truthy v = false := by
  constructor
  · rintro (_ | _ | _ | _ | _ | _) <;> rfl
  · intro h
    cases v with
    | null => exact .null
    | bool b => cases b with
      | false => exact .off
      | true => simp [truthy] at h
    | num n => simp [truthy] at h; rw [h]; exact .zero
    | str s => simp [truthy] at h; rw [h]; exact .noText
    | list xs => simp [truthy] at h; rw [h]; exact .noItems
    | dict kvs => simp [truthy] at h; rw [h]; exact .noFields

theorem not_blank {v : Val} (ht : truthy v = true) : ¬ Blank v := fun hb => by
  rw [blank_iff] at hb
  rw [hb] at ht
  cases ht

theorem getOpt_iff (v : Val) (k : String) (x : Val) :
    getOpt v k = .ok x ↔ (∃ kvs, v = .dict kvs) ∧ (Has v k x ∨ ((∀ y, ¬ Has v k y) ∧ x = .null)) := by
  cases v with
  | dict kvs =>
    simp only [getOpt, has_iff]
    cases hl : lookup k kvs with
    | none => simp [hl, eq_comm]
    | some y => simp [hl]
  | _ => simp [getOpt]

theorem has_unique {v : Val} {k : String} {x y : Val} (hx : Has v k x) (hy : Has v k y) : x = y := by
  obtain ⟨a, ha, ha'⟩ := (has_iff _ _ _).mp hx
  obtain ⟨b, hb, hb'⟩ := (has_iff _ _ _).mp hy
  rw [ha] at hb
  injection hb with hb
  rw [hb, hb'] at ha'
  injection ha' with h
  exact h.symm

theorem has_dict {v : Val} {k : String} {x : Val} (h : Has v k x) : ∃ kvs, v = .dict kvs := by
  obtain ⟨pre, post, rfl, _⟩ := h
  exact ⟨_, rfl⟩

theorem optional_dict {v : Val} {k : String} {x : Val} (h : Optional v k x) : ∃ kvs, v = .dict kvs := by
  rcases h with ⟨h, _⟩ | ⟨h, _⟩
  · exact has_dict h
  · exact h

/-- `x if truthy(v.get(k)) else None`. -/
theorem optional_iff (v : Val) (k : String) (x : Val) :
    (∃ o, getOpt v k = .ok o ∧ (if truthy o then o else .null) = x) ↔ Optional v k x := by
  constructor
  · rintro ⟨o, ho, rfl⟩
    obtain ⟨hv, h⟩ := (getOpt_iff v k o).mp ho
    by_cases ht : truthy o = true
    · rw [if_pos ht]
      rcases h with h | ⟨_, rfl⟩
      · exact .inl ⟨h, not_blank ht⟩
      · cases ht
    · rw [if_neg ht]
      refine .inr ⟨hv, fun y hy => ?_, rfl⟩
      rcases h with h | ⟨h, _⟩
      · rw [has_unique hy h, blank_iff]; simpa using ht
      · exact absurd hy (h y)
  · rintro (⟨h, hb⟩ | ⟨hv, h, rfl⟩)
    · refine ⟨x, (getOpt_iff v k x).mpr ⟨has_dict h, .inl h⟩, ?_⟩
      rw [if_pos]
      rw [blank_iff] at hb
      simpa using hb
    · by_cases hy : ∃ y, Has v k y
      · obtain ⟨y, hy⟩ := hy
        refine ⟨y, (getOpt_iff v k y).mpr ⟨hv, .inl hy⟩, ?_⟩
        rw [if_neg]
        rw [(blank_iff y).mp (h y hy)]
        simp
      · push Not at hy
        exact ⟨.null, (getOpt_iff v k _).mpr ⟨hv, .inr ⟨hy, rfl⟩⟩, rfl⟩

theorem oneOf_iff (v : Val) (xs : List String) : oneOf v xs = true ↔ ∃ s ∈ xs, v = .str s := by
  cases v with
  | str s => simp [oneOf]
  | _ => simp [oneOf]

/-! ### Sequencing of results -/

theorem except_bind_ok {α β : Type} {m : Except Err α} {f : α → Except Err β} {b : β} :
    (m >>= f) = .ok b ↔ ∃ a, m = .ok a ∧ f a = .ok b := by
  cases m with
  | error e => simp [bind, Except.bind]
  | ok a => simp [bind, Except.bind]

/-! ### Parsing -/

theorem parseStatus_iff (v : Val) (s : JobStatus) :
    parseStatus v = .ok s ↔ ∃ t, Has v "status" (.str t) ∧ StatusWord t s := by
  simp only [parseStatus, except_bind_ok, index_iff]
  constructor
  · rintro ⟨x, hx, h⟩
    split_ifs at h with h1 h2 h3 h4
    · obtain ⟨t, ht, rfl⟩ := (oneOf_iff _ _).mp h1
      injection h with h
      subst h
      simp at ht
      rcases ht with rfl | rfl | rfl
      exacts [⟨_, hx, .waiting⟩, ⟨_, hx, .validating⟩, ⟨_, hx, .validated⟩]
    · obtain ⟨t, ht, rfl⟩ := (oneOf_iff _ _).mp h2
      injection h with h
      subst h
      simp at ht
      subst ht
      exact ⟨_, hx, .running⟩
    · obtain ⟨t, ht, rfl⟩ := (oneOf_iff _ _).mp h3
      injection h with h
      subst h
      simp at ht
      rcases ht with rfl | rfl
      exacts [⟨_, hx, .failed⟩, ⟨_, hx, .cancelled⟩]
    · obtain ⟨t, ht, rfl⟩ := (oneOf_iff _ _).mp h4
      injection h with h
      subst h
      simp at ht
      subst ht
      exact ⟨_, hx, .completed⟩
  · rintro ⟨t, ht, hw⟩
    refine ⟨_, ht, ?_⟩
    cases hw <;> simp [oneOf]

theorem parseCategory_iff (v : Val) (s : Category) :
    parseCategory v = .ok s ↔ ∃ t, Has v "category" (.str t) ∧ CategoryWord t s := by
  simp only [parseCategory, except_bind_ok, index_iff]
  constructor
  · rintro ⟨x, hx, h⟩
    split_ifs at h with h1 h2
    · obtain ⟨t, ht, rfl⟩ := (oneOf_iff _ _).mp h1
      injection h with h
      subst h
      simp at ht
      rcases ht with rfl | rfl
      exacts [⟨_, hx, .train⟩, ⟨_, hx, .trainweb⟩]
    · obtain ⟨t, ht, rfl⟩ := (oneOf_iff _ _).mp h2
      injection h with h
      subst h
      simp at ht
      rcases ht with rfl | rfl
      exacts [⟨_, hx, .inference⟩, ⟨_, hx, .inferenceweb⟩]
  · rintro ⟨t, ht, hw⟩
    refine ⟨_, ht, ?_⟩
    cases hw <;> simp [oneOf]

theorem parseJob_iff (v : Val) (j : Job) : parseJob v = .ok j ↔ JobOf v j := by
  simp only [parseJob, except_bind_ok, index_iff, parseStatus_iff]
  constructor
  · rintro ⟨id, hid, s, hs, o, ho, h⟩
    injection h with h
    subst h
    exact ⟨hid, hs, (optional_iff v "output" _).mp ⟨o, ho, rfl⟩⟩
  · rintro ⟨hid, hs, ho⟩
    obtain ⟨o, ho, hx⟩ := (optional_iff v "output" _).mpr ho
    refine ⟨j.id, hid, j.status, hs, o, ho, ?_⟩
    rw [hx]

theorem parseInput_iff {v : Val} (hv : ∃ kvs, v = .dict kvs) (x : Val) :
    parseInput v = .ok x ↔ (∃ i, Has v "input" i ∧ ¬ Blank i ∧ Optional i "id" x) ∨
      ((∀ i, Has v "input" i → Blank i) ∧ x = .null) := by
  simp only [parseInput, except_bind_ok]
  constructor
  · rintro ⟨i, hi, h⟩
    have hg := ((getOpt_iff v "input" i).mp hi).2
    by_cases ht : truthy i = true
    · rw [if_pos ht] at h
      obtain ⟨y, hy, hxy⟩ := except_bind_ok.mp h
      injection hxy with hxy
      refine .inl ⟨i, ?_, not_blank ht, ?_⟩
      · rcases hg with hg | ⟨_, rfl⟩
        · exact hg
        · cases ht
      · exact (optional_iff i "id" x).mp ⟨y, hy, hxy⟩
    · rw [if_neg ht] at h
      injection h with h
      refine .inr ⟨fun y hy => ?_, h.symm⟩
      rcases hg with hg | ⟨hg, _⟩
      · rw [has_unique hy hg, blank_iff]; simpa using ht
      · exact absurd hy (hg y)
  · rintro (⟨i, hi, hb, ho⟩ | ⟨h, rfl⟩)
    · refine ⟨i, (getOpt_iff _ _ _).mpr ⟨hv, .inl hi⟩, ?_⟩
      have ht : truthy i = true := by rw [blank_iff] at hb; simpa using hb
      rw [if_pos ht]
      obtain ⟨y, hy, hx⟩ := (optional_iff i "id" x).mpr ho
      exact except_bind_ok.mpr ⟨y, hy, by rw [hx]⟩
    · by_cases hy : ∃ y, Has v "input" y
      · obtain ⟨y, hy⟩ := hy
        refine ⟨y, (getOpt_iff _ _ _).mpr ⟨hv, .inl hy⟩, ?_⟩
        rw [if_neg (by rw [(blank_iff y).mp (h y hy)]; simp)]
      · push Not at hy
        exact ⟨.null, (getOpt_iff _ _ _).mpr ⟨hv, .inr ⟨hy, rfl⟩⟩, rfl⟩

theorem parseJobOf_iff {v : Val} (hv : ∃ kvs, v = .dict kvs) (x : Option Job) :
    parseJobOf v = .ok x ↔ (∃ o j, Has v "job" o ∧ ¬ Blank o ∧ JobOf o j ∧ x = some j) ∨
      ((∀ o, Has v "job" o → Blank o) ∧ x = none) := by
  simp only [parseJobOf, except_bind_ok]
  constructor
  · rintro ⟨i, hi, h⟩
    have hg := ((getOpt_iff v "job" i).mp hi).2
    by_cases ht : truthy i = true
    · rw [if_pos ht] at h
      obtain ⟨y, hy, hxy⟩ := except_bind_ok.mp h
      injection hxy with hxy
      refine .inl ⟨i, y, ?_, not_blank ht,
        (parseJob_iff i y).mp hy, hxy.symm⟩
      rcases hg with hg | ⟨_, rfl⟩
      · exact hg
      · cases ht
    · rw [if_neg ht] at h
      injection h with h
      refine .inr ⟨fun y hy => ?_, h.symm⟩
      rcases hg with hg | ⟨hg, _⟩
      · rw [has_unique hy hg, blank_iff]; simpa using ht
      · exact absurd hy (hg y)
  · rintro (⟨i, j, hi, hb, hj, rfl⟩ | ⟨h, rfl⟩)
    · refine ⟨i, (getOpt_iff _ _ _).mpr ⟨hv, .inl hi⟩, ?_⟩
      have ht : truthy i = true := by rw [blank_iff] at hb; simpa using hb
      rw [if_pos ht]
      exact except_bind_ok.mpr ⟨j, (parseJob_iff i j).mpr hj, rfl⟩
    · by_cases hy : ∃ y, Has v "job" y
      · obtain ⟨y, hy⟩ := hy
        refine ⟨y, (getOpt_iff _ _ _).mpr ⟨hv, .inl hy⟩, ?_⟩
        rw [if_neg (by rw [(blank_iff y).mp (h y hy)]; simp)]
      · push Not at hy
        exact ⟨.null, (getOpt_iff _ _ _).mpr ⟨hv, .inr ⟨hy, rfl⟩⟩, rfl⟩

theorem parseExperiment_iff (c : Cfg) (v : Val) (e : Exp) :
    parseExperiment c v = .ok e ↔ ExpOf c v e := by
  simp only [parseExperiment, except_bind_ok, index_iff, parseCategory_iff]
  constructor
  · rintro ⟨id, hid, name, hname, cat, hcat, d, hd, cr, hcr, i, hi, j, hj, h⟩
    injection h with h
    subst h
    exact ⟨hid, hname, hcat, ⟨d, hd, hcr⟩, (parseInput_iff (has_dict hid) _).mp hi,
      (parseJobOf_iff (has_dict hid) _).mp hj⟩
  · rintro ⟨hid, hname, hcat, ⟨d, hd, hcr⟩, hi, hj⟩
    exact ⟨e.id, hid, e.name, hname, e.category, hcat, d, hd, e.created, hcr, e.input,
      (parseInput_iff (has_dict hid) _).mpr hi, e.job, (parseJobOf_iff (has_dict hid) _).mpr hj, rfl⟩

/-! ### Computations -/

variable {α β : Type}

theorem bind_inv {m : M α} {f : α → M β} {w w' : World} {r : Except Err β}
    (h : (m >>= f) w = (r, w')) :
    (∃ e, m w = (.error e, w') ∧ r = .error e) ∨ (∃ a w1, m w = (.ok a, w1) ∧ f a w1 = (r, w')) := by
  simp only [bind, M.bind] at h
  rcases hm : m w with ⟨x, w1⟩
  rw [hm] at h
  cases x with
  | error e =>
    injection h with h1 h2
    exact .inl ⟨e, by rw [h2], h1.symm⟩
  | ok a => exact .inr ⟨a, w1, rfl, h⟩

theorem bind_run {m : M α} {f : α → M β} {w w1 : World} {a : α} (h : m w = (.ok a, w1)) :
    (m >>= f) w = f a w1 := by
  simp only [bind, M.bind, h]

/-- Exchanging one more message. -/
def push (w : World) (s : Sent) : World := { w with trace := w.trace ++ [s] }

theorem bad_iff (r : Reply) : bad r = true ↔ ¬ Fine r := by
  simp [bad, Fine]

/-- The result of the status check. -/
def checked (e : Err) (r : Reply) : Except Err Reply := if bad r then .error e else .ok r

theorem apiRequest_eq (c : Cfg) (m : Method) (url : String) (json : Option Val) (w : World) :
    apiRequest c m url json w =
      (checked (.api (c.service w.trace ⟨.api, m, c.url ++ "/" ++ url, authHeader c w, json, none⟩).status
          (c.service w.trace ⟨.api, m, c.url ++ "/" ++ url, authHeader c w, json, none⟩).json)
        (c.service w.trace ⟨.api, m, c.url ++ "/" ++ url, authHeader c w, json, none⟩),
       push w ⟨⟨.api, m, c.url ++ "/" ++ url, authHeader c w, json, none⟩,
        c.service w.trace ⟨.api, m, c.url ++ "/" ++ url, authHeader c w, json, none⟩⟩) := rfl

theorem storageRequest_eq (c : Cfg) (m : Method) (url : String) (data : Option Bytes) (w : World) :
    storageRequest c m url data w =
      (checked (.storage (c.service w.trace (storageReq m url data)).status)
        (c.service w.trace (storageReq m url data)),
       push w ⟨storageReq m url data, c.service w.trace (storageReq m url data)⟩) := rfl

theorem checked_ok {e : Err} {r x : Reply} : checked e r = .ok x ↔ Fine r ∧ x = r := by
  unfold checked
  by_cases hb : bad r = true
  · rw [if_pos hb]
    simp [(bad_iff r).mp hb]
  · rw [if_neg hb]
    rw [bad_iff] at hb
    push Not at hb
    simp [hb, eq_comm]

theorem authHeader_eq {c : Cfg} {w : World} {jwt : Val} (h : w.jwt = some jwt) :
    authHeader c w = some ("Bearer " ++ c.text jwt) := by
  rw [authHeader, h]; rfl

/-- An API request of a client which is logged in, followed by decoding the JSON of the reply. -/
theorem request_eq (c : Cfg) (m : Method) (path url : String) (json : Option Val) {w : World} {jwt : Val}
    (hj : w.jwt = some jwt) (hp : path = "/" ++ url) :
    (apiRequest c m url json >>= fun r => lift (asJson r)) w =
      ((checked (.api (c.service w.trace (apiReq c jwt m path json)).status
          (c.service w.trace (apiReq c jwt m path json)).json)
          (c.service w.trace (apiReq c jwt m path json)) >>= asJson),
        push w ⟨apiReq c jwt m path json, c.service w.trace (apiReq c jwt m path json)⟩) := by
  have e : (⟨.api, m, c.url ++ "/" ++ url, authHeader c w, json, none⟩ : Request)
      = apiReq c jwt m path json := by
    rw [apiReq, authHeader_eq hj, hp, String.append_assoc]
  rcases hk : checked (.api (c.service w.trace (apiReq c jwt m path json)).status
      (c.service w.trace (apiReq c jwt m path json)).json)
      (c.service w.trace (apiReq c jwt m path json)) with x | x
  · simp only [bind, M.bind, Except.bind, apiRequest_eq, e, hk]
  · simp only [bind, M.bind, Except.bind, apiRequest_eq, e, hk, lift]

/-- The JSON value of an accepted reply. -/
theorem body_ok {e : Err} {r : Reply} {v : Val} :
    (checked e r >>= asJson) = .ok v ↔ Fine r ∧ r.json = some v := by
  rw [except_bind_ok]
  simp only [checked_ok]
  constructor
  · rintro ⟨a, ⟨h, rfl⟩, ha⟩
    refine ⟨h, ?_⟩
    cases hr : a.json with
    | none => simp [asJson, hr] at ha
    | some x => simp [asJson, hr] at ha; rw [ha]
  · rintro ⟨h, hv⟩
    exact ⟨r, ⟨h, rfl⟩, by simp [asJson, hv]⟩

/-- What a request to a stub does. -/
def Asked (c : Cfg) (req : Request) (w w' : World) (r : Except Err Val) : Prop :=
  w' = push w ⟨req, c.service w.trace req⟩ ∧
    ∀ v, r = .ok v ↔ Fine (c.service w.trace req) ∧ (c.service w.trace req).json = some v

theorem listStub_asked (c : Cfg) (s : Stub) (path : String) {w w' : World} {jwt : Val} {r : Except Err Val}
    (hj : w.jwt = some jwt) (hp : path = "/" ++ s.listUrl) (h : listStub c s w = (r, w')) :
    Asked c (apiReq c jwt .GET path none) w w' r := by
  rw [listStub, request_eq c _ path _ _ hj hp] at h
  injection h with h1 h2
  exact ⟨h2.symm, fun v => by rw [← h1, body_ok]⟩

theorem getStub_asked (c : Cfg) (s : Stub) (id : Val) (path : String) {w w' : World} {jwt : Val}
    {r : Except Err Val} (hj : w.jwt = some jwt) (hp : path = "/" ++ s.getUrl (c.text id))
    (h : getStub c s id w = (r, w')) : Asked c (apiReq c jwt .GET path none) w w' r := by
  rw [getStub, request_eq c _ path _ _ hj hp] at h
  injection h with h1 h2
  exact ⟨h2.symm, fun v => by rw [← h1, body_ok]⟩

theorem postStub_asked (c : Cfg) (s : Stub) (x : Val) (path : String) {w w' : World} {jwt : Val}
    {r : Except Err Val} (hj : w.jwt = some jwt) (hp : path = "/" ++ s.base)
    (h : postStub c s x w = (r, w')) : Asked c (apiReq c jwt .POST path (some x)) w w' r := by
  rw [postStub, request_eq c _ path _ _ hj hp] at h
  injection h with h1 h2
  exact ⟨h2.symm, fun v => by rw [← h1, body_ok]⟩

theorem asUrl_iff (v : Val) (s : String) : asUrl v = .ok s ↔ v = .str s := by
  cases v <;> simp [asUrl]

theorem says_iff (r : Reply) (k : String) (x : Val) : Says r k x ↔ ∃ v, r.json = some v ∧ index v k = .ok x := by
  simp only [Says, index_iff]

end Aihw.Client

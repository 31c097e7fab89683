/-
The status of an experiment object.
-/
import Verif.Client.Runs

namespace Aihw.Client

/-- The outcomes of asking for a job. -/
def Refreshed (c : Cfg) (jwt : Val) (k : ℕ) (j : Job) (w w' : World) (r : Except Err JobStatus) : Prop :=
  ∃ rep : Reply, rep = c.service w.trace (apiReq c jwt .GET ("/jobs/" ++ c.text j.id) none) ∧
    ((∃ x, r = .error x ∧ w' = push w ⟨apiReq c jwt .GET ("/jobs/" ++ c.text j.id) none, rep⟩) ∨
     (∃ (v : Val) (n : Job), Fine rep ∧ rep.json = some v ∧ JobOf v n ∧ r = .ok n.status ∧
      w' = { push w ⟨apiReq c jwt .GET ("/jobs/" ++ c.text j.id) none, rep⟩ with
        exps := w.exps.modify k fun e => { e with job := some n } }))

theorem refresh_inv {c : Cfg} {k : ℕ} {j : Job} {jwt : Val} {w w' : World} {r : Except Err JobStatus}
    (hj : w.jwt = some jwt) (h : refresh c k j w = (r, w')) : Refreshed c jwt k j w w' r := by
  rcases bind_inv h with ⟨x, h1, rfl⟩ | ⟨n, w1, h1, h2⟩
  · obtain ⟨hw, -⟩ := jobGet_inv hj h1
    exact ⟨_, rfl, .inl ⟨x, rfl, hw⟩⟩
  · obtain ⟨hw, hn⟩ := jobGet_inv hj h1
    obtain ⟨hf, v, hv, hjob⟩ := (hn n).mp rfl
    rcases bind_inv h2 with ⟨x, h3, -⟩ | ⟨u, w2, h3, h4⟩
    · injection h3 with h3
      cases h3
    · injection h3 with _ h3
      injection h4 with h4 h4'
      refine ⟨_, rfl, .inr ⟨v, n, hf, hv, hjob, h4.symm, ?_⟩⟩
      rw [← h4', ← h3, hw]
      rfl

/-- What follows once the job is there or known to be missing. -/
def Looked (c : Cfg) (jwt : Val) (k : ℕ) (job : Option Job) (w w' : World) (r : Except Err JobStatus) :
    Prop :=
  (job = none ∧ r = .ok .unknown ∧ w' = w) ∨
  (∃ j, job = some j ∧ j.ended = true ∧ r = .ok j.status ∧ w' = w) ∨
  (∃ j, job = some j ∧ j.ended = false ∧ Refreshed c jwt k j w w' r)

/-- The second half of `status`. -/
def look (c : Cfg) (k : ℕ) : M JobStatus := do
  let e ← readExp k
  match e.job with
  | none => lift (.ok .unknown)
  | some j => if j.ended then lift (.ok j.status) else refresh c k j

theorem look_inv {c : Cfg} {k : ℕ} {e : Exp} {jwt : Val} {w w' : World} {r : Except Err JobStatus}
    (hj : w.jwt = some jwt) (he : w.exps[k]? = some e) (h : look c k w = (r, w')) :
    Looked c jwt k e.job w w' r := by
  have hr : readExp k w = (.ok e, w) := by simp only [readExp, he]
  rw [look, bind_run hr] at h
  rcases (show e.job = none ∨ ∃ j, e.job = some j by cases e.job <;> simp) with hn | ⟨j, hn⟩
  · simp only [hn] at h
    injection h with h1 h2
    exact .inl ⟨hn, h1.symm, h2.symm⟩
  · simp only [hn] at h
    by_cases hend : j.ended = true
    · rw [if_pos hend] at h
      injection h with h1 h2
      exact .inr (.inl ⟨j, hn, hend, h1.symm, h2.symm⟩)
    · rw [if_neg hend] at h
      exact .inr (.inr ⟨j, hn, by simpa using hend, refresh_inv hj h⟩)

/-- What the experiment object takes over from the service. -/
def take (t : Exp) (e : Exp) : Exp := { e with input := t.input, job := t.job }

theorem modify_get {α : Type} (l : List α) (k : ℕ) (f : α → α) (x : α) (h : l[k]? = some x) :
    (l.modify k f)[k]? = some (f x) := by
  simp [List.getElem?_modify, h]

theorem modify_other {α : Type} (l : List α) (k i : ℕ) (f : α → α) (h : i ≠ k) :
    (l.modify k f)[i]? = l[i]? := by
  simp [List.getElem?_modify, Ne.symm h]

theorem status_eq (c : Cfg) (k : ℕ) : status c k = (populate c k >>= fun _ => look c k) := rfl

/-- All outcomes of `status`. -/
theorem status_cases {c : Cfg} {k : ℕ} {e : Exp} {jwt : Val} {w w' : World} {r : Except Err JobStatus}
    (hj : w.jwt = some jwt) (he : w.exps[k]? = some e) (h : status c k w = (r, w')) :
    (e.job ≠ none ∧ Looked c jwt k e.job w w' r) ∨
    (e.job = none ∧ ∃ rep : Reply,
      rep = c.service w.trace (apiReq c jwt .GET ("/experiments/" ++ c.text e.id) none) ∧
      ((∃ x, r = .error x ∧
          w' = push w ⟨apiReq c jwt .GET ("/experiments/" ++ c.text e.id) none, rep⟩) ∨
       (∃ (v : Val) (t : Exp), Fine rep ∧ rep.json = some v ∧ ExpOf c v t ∧
          Looked c jwt k t.job
            { push w ⟨apiReq c jwt .GET ("/experiments/" ++ c.text e.id) none, rep⟩ with
              exps := w.exps.modify k (take t) } w' r))) := by
  have hr : readExp k w = (.ok e, w) := by simp only [readExp, he]
  rw [status_eq] at h
  rcases (show e.job = none ∨ ∃ j, e.job = some j by cases e.job <;> simp) with hn | ⟨j, hn⟩
  · refine .inr ⟨hn, ?_⟩
    rcases bind_inv h with ⟨x, h1, rfl⟩ | ⟨u, w1, h1, h2⟩
    · rw [populate, bind_run hr] at h1
      simp only [hn] at h1
      rcases bind_inv h1 with ⟨y, h3, h4⟩ | ⟨t, w2, h3, h4⟩
      · obtain ⟨hw, -⟩ := experimentGet_inv hj h3
        exact ⟨_, rfl, .inl ⟨x, rfl, hw⟩⟩
      · injection h4 with h4
        cases h4
    · rw [populate, bind_run hr] at h1
      simp only [hn] at h1
      rcases bind_inv h1 with ⟨y, h3, h4⟩ | ⟨t, w2, h3, h4⟩
      · cases h4
      · obtain ⟨hw, ht⟩ := experimentGet_inv hj h3
        obtain ⟨hf, v, hv, hof⟩ := (ht t).mp rfl
        injection h4 with _ h4
        have hw1 : w1 = { push w ⟨apiReq c jwt .GET ("/experiments/" ++ c.text e.id) none,
            c.service w.trace (apiReq c jwt .GET ("/experiments/" ++ c.text e.id) none)⟩ with
            exps := w.exps.modify k (take t) } := by
          rw [← h4, hw]; rfl
        have hj1 : w1.jwt = some jwt := by rw [hw1]; exact hj
        have he1 : w1.exps[k]? = some (take t e) := by
          rw [hw1]; exact modify_get _ _ _ _ he
        refine ⟨_, rfl, .inr ⟨v, t, hf, hv, hof, ?_⟩⟩
        rw [← hw1]
        exact look_inv (e := take t e) hj1 he1 h2
  · refine .inl ⟨by rw [hn]; simp, ?_⟩
    have hp : populate c k w = (.ok (), w) := by
      rw [populate, bind_run hr]
      simp only [hn]
      rfl
    rw [bind_run hp] at h
    exact look_inv hj he h

theorem status_none {c : Cfg} {k : ℕ} {w : World} (he : w.exps[k]? = none) :
    status c k w = (.error .key, w) := by
  have hr : readExp k w = (.error .key, w) := by simp only [readExp, he]
  simp only [status, populate, bind, M.bind, hr]

/-! ### What changes -/

/-- The effect of a computation on the trace and the token. -/
def Grows (c : Cfg) (jwt : Val) (w w' : World) : Prop :=
  w'.jwt = some jwt ∧ (Proper c jwt w.trace → Proper c jwt w'.trace)

theorem Grows.trans {c : Cfg} {jwt : Val} {w w1 w2 : World} (h1 : Grows c jwt w w1)
    (h2 : Grows c jwt w1 w2) : Grows c jwt w w2 := ⟨h2.1, fun h => h2.2 (h1.2 h)⟩

theorem grows_same {c : Cfg} {jwt : Val} {w w' : World} (hj : w.jwt = some jwt) (h1 : w'.jwt = w.jwt)
    (h2 : w'.trace = w.trace) : Grows c jwt w w' := ⟨by rw [h1, hj], fun h => by rw [h2]; exact h⟩

theorem proper_snoc {c : Cfg} {jwt : Val} {tr : List Sent} {s : Sent} (h : Proper c jwt tr)
    (hs : (∃ (m : Method) (path : String) (json : Option Val), s.req = apiReq c jwt m ("/" ++ path) json) ∨
      (∃ (m : Method) (url : String) (data : Option Bytes) (p : Sent),
        s.req = storageReq m url data ∧ tr.getLast? = some p ∧ p.req.via = .api ∧ Fine p.reply ∧
          Says p.reply "url" (.str url))) : Proper c jwt (tr ++ [s]) := by
  obtain ⟨⟨r, hf, hs1, hh⟩, hrest⟩ := h
  have hne : tr ≠ [] := by rintro rfl; simp at hh
  refine ⟨⟨r, hf, hs1, by rw [List.head?_append, hh]; rfl⟩, ?_⟩
  intro i s' hs'
  by_cases hi : i + 1 < tr.length
  · rw [List.getElem?_append_left hi] at hs'
    rcases hrest i s' hs' with h1 | ⟨m, url, d, p, a, b, cc, dd, ee⟩
    · exact .inl h1
    · exact .inr ⟨m, url, d, p, a, by rw [List.getElem?_append_left (by omega)]; exact b, cc, dd, ee⟩
  · have hlen : i + 1 = tr.length := by
      have := (List.getElem?_eq_some_iff.mp hs').1
      simp at this
      omega
    rw [hlen, List.getElem?_append_right (by omega)] at hs'
    simp at hs'
    subst hs'
    rcases hs with h1 | ⟨m, url, d, p, a, b, cc, dd, ee⟩
    · exact .inl h1
    · refine .inr ⟨m, url, d, p, a, ?_, cc, dd, ee⟩
      rw [List.getElem?_append_left (by omega), ← b, List.getLast?_eq_getElem?]
      congr 1
      omega

theorem grows_api {c : Cfg} {jwt : Val} {w : World} (hj : w.jwt = some jwt) (m : Method)
    (path : String) (hp : ∃ p, path = "/" ++ p) (json : Option Val) (r : Reply) :
    Grows c jwt w (push w ⟨apiReq c jwt m path json, r⟩) := by
  obtain ⟨p, rfl⟩ := hp
  exact ⟨hj, fun h => proper_snoc h (.inl ⟨m, p, json, rfl⟩)⟩

theorem grows_storage {c : Cfg} {jwt : Val} {w : World} (hj : w.jwt = some jwt) (m : Method)
    (path : String) (json : Option Val) (r1 : Reply) (m2 : Method) (url : String)
    (data : Option Bytes) (r2 : Reply) (hf : Fine r1) (hs : Says r1 "url" (.str url)) :
    Grows c jwt (push w ⟨apiReq c jwt m path json, r1⟩)
      (push (push w ⟨apiReq c jwt m path json, r1⟩) ⟨storageReq m2 url data, r2⟩) :=
  ⟨hj, fun h => proper_snoc h (.inr ⟨m2, url, data, ⟨apiReq c jwt m path json, r1⟩, rfl, by simp [push],
    rfl, hf, hs⟩)⟩

theorem slash (a b : String) (h : ∃ p, a = "/" ++ p) : ∃ p, a ++ b = "/" ++ p := by
  obtain ⟨p, rfl⟩ := h
  exact ⟨p ++ b, by rw [String.append_assoc]⟩

theorem slash_exp (x : String) : ∃ p, ("/experiments/" ++ x : String) = "/" ++ p :=
  slash _ _ ⟨"experiments/", rfl⟩
theorem slash_job (x : String) : ∃ p, ("/jobs/" ++ x : String) = "/" ++ p :=
  slash _ _ ⟨"jobs/", rfl⟩
theorem slash_in (x : String) : ∃ p, ("/inputs/" ++ x ++ "/file" : String) = "/" ++ p :=
  slash _ _ (slash _ _ ⟨"inputs/", rfl⟩)
theorem slash_out (x : String) : ∃ p, ("/outputs/" ++ x ++ "/file" : String) = "/" ++ p :=
  slash _ _ (slash _ _ ⟨"outputs/", rfl⟩)

theorem looked_grows {c : Cfg} {jwt : Val} {k : ℕ} {job : Option Job} {w w' : World}
    {r : Except Err JobStatus} (hj : w.jwt = some jwt) (h : Looked c jwt k job w w' r) :
    Grows c jwt w w' := by
  rcases h with ⟨_, _, rfl⟩ | ⟨_, _, _, _, rfl⟩ | ⟨j, _, _, rep, _, ⟨x, _, rfl⟩ | ⟨v, n, _, _, _, _, rfl⟩⟩
  · exact grows_same hj rfl rfl
  · exact grows_same hj rfl rfl
  · exact grows_api hj _ _ (slash_job _) _ _
  · exact (grows_api hj _ _ (slash_job (c.text j.id)) none rep).trans (grows_same hj rfl rfl)

theorem status_grows {c : Cfg} {k : ℕ} {jwt : Val} {w w' : World} {r : Except Err JobStatus}
    (hj : w.jwt = some jwt) (h : status c k w = (r, w')) : Grows c jwt w w' := by
  rcases (show w.exps[k]? = none ∨ ∃ e, w.exps[k]? = some e by cases w.exps[k]? <;> simp) with he | ⟨e, he⟩
  · rw [status_none he] at h
    injection h with _ h
    subst h
    exact grows_same hj rfl rfl
  rcases status_cases hj he h with ⟨_, h⟩ | ⟨_, rep, _, ⟨x, _, rfl⟩ | ⟨v, t, _, _, _, h⟩⟩
  · exact looked_grows hj h
  · exact grows_api hj _ _ (slash_exp _) _ _
  · have hj1 : ({ push w ⟨apiReq c jwt .GET ("/experiments/" ++ c.text e.id) none, rep⟩ with
        exps := w.exps.modify k (take t) } : World).jwt = some jwt := hj
    have g1 := grows_api (c := c) hj .GET _ (slash_exp (c.text e.id)) none rep
    have g2 := looked_grows hj1 h
    exact ⟨g2.1, fun hp => g2.2 (g1.2 hp)⟩

/-- What a status request does to the experiment objects. -/
def Touches (k : ℕ) (w w' : World) : Prop :=
  ∀ (i : ℕ) (e : Exp), w.exps[i]? = some e → ∃ e', w'.exps[i]? = some e' ∧
    e'.id = e.id ∧ e'.name = e.name ∧ e'.category = e.category ∧ e'.created = e.created ∧
    (i ≠ k → e' = e) ∧
    (∀ j, e.job = some j → e'.input = e.input ∧ (∃ j', e'.job = some j') ∧ (j.ended = true → e' = e))

theorem touches_refl (k : ℕ) (w w' : World) (h : w'.exps = w.exps) : Touches k w w' := by
  intro i e he
  exact ⟨e, by rw [h]; exact he, rfl, rfl, rfl, rfl, fun _ => rfl, fun j hj => ⟨rfl, ⟨j, hj⟩, fun _ => rfl⟩⟩

theorem Touches.trans {k : ℕ} {w w1 w2 : World} (h1 : Touches k w w1) (h2 : Touches k w1 w2) :
    Touches k w w2 := by
  intro i e he
  obtain ⟨e1, he1, a1, b1, c1, d1, f1, g1⟩ := h1 i e he
  obtain ⟨e2, he2, a2, b2, c2, d2, f2, g2⟩ := h2 i e1 he1
  refine ⟨e2, he2, by rw [a2, a1], by rw [b2, b1], by rw [c2, c1], by rw [d2, d1],
    fun hi => by rw [f2 hi, f1 hi], ?_⟩
  intro j hj
  obtain ⟨p, ⟨j', hj'⟩, q⟩ := g1 j hj
  obtain ⟨p', hj'', q'⟩ := g2 j' hj'
  refine ⟨by rw [p', p], hj'', fun hend => ?_⟩
  have := q hend
  subst this
  rw [hj] at hj'
  injection hj' with hj'
  subst hj'
  exact q' hend

theorem touches_modify {k : ℕ} {w w' : World} {f : Exp → Exp} (hw : w'.exps = w.exps.modify k f)
    (hf : ∀ e, w.exps[k]? = some e → (f e).id = e.id ∧ (f e).name = e.name ∧
      (f e).category = e.category ∧ (f e).created = e.created ∧
      ∀ j, e.job = some j → (f e).input = e.input ∧ (∃ j', (f e).job = some j') ∧ j.ended = false) :
    Touches k w w' := by
  intro i e he
  by_cases hi : i = k
  · subst hi
    obtain ⟨a, b, cc, d, g⟩ := hf e he
    refine ⟨f e, by rw [hw]; exact modify_get _ _ _ _ he, a, b, cc, d, fun h => absurd rfl h, ?_⟩
    intro j hj
    obtain ⟨p, q, s⟩ := g j hj
    exact ⟨p, q, fun h => by rw [s] at h; cases h⟩
  · exact ⟨e, by rw [hw, modify_other _ _ _ _ hi]; exact he, rfl, rfl, rfl, rfl, fun _ => rfl,
      fun j hj => ⟨rfl, ⟨j, hj⟩, fun _ => rfl⟩⟩

theorem looked_touches {c : Cfg} {jwt : Val} {k : ℕ} {e : Exp} {w w' : World}
    {r : Except Err JobStatus} (he : w.exps[k]? = some e) (h : Looked c jwt k e.job w w' r) :
    Touches k w w' := by
  rcases h with ⟨_, _, rfl⟩ | ⟨_, _, _, _, rfl⟩ | ⟨j, hjob, hend, rep, _, ⟨x, _, rfl⟩ | ⟨v, n, _, _, _, _, rfl⟩⟩
  · exact touches_refl _ _ _ rfl
  · exact touches_refl _ _ _ rfl
  · exact touches_refl _ _ _ rfl
  · refine touches_modify rfl ?_
    intro e' he'
    rw [he] at he'
    injection he' with he'
    subst he'
    refine ⟨rfl, rfl, rfl, rfl, fun j' hj' => ⟨rfl, ⟨n, rfl⟩, ?_⟩⟩
    rw [hjob] at hj'
    injection hj' with hj'
    rw [← hj']
    exact hend

theorem status_touches {c : Cfg} {k : ℕ} {jwt : Val} {w w' : World} {r : Except Err JobStatus}
    (hj : w.jwt = some jwt) (h : status c k w = (r, w')) : Touches k w w' := by
  rcases (show w.exps[k]? = none ∨ ∃ e, w.exps[k]? = some e by cases w.exps[k]? <;> simp) with he | ⟨e, he⟩
  · rw [status_none he] at h
    injection h with _ h
    subst h
    exact touches_refl _ _ _ rfl
  rcases status_cases hj he h with ⟨_, h⟩ | ⟨hn, rep, _, ⟨x, _, rfl⟩ | ⟨v, t, _, _, _, h⟩⟩
  · exact looked_touches he h
  · exact touches_refl _ _ _ rfl
  · refine Touches.trans (w1 := { push w ⟨apiReq c jwt .GET ("/experiments/" ++ c.text e.id) none, rep⟩ with
      exps := w.exps.modify k (take t) }) (touches_modify rfl ?_)
      (looked_touches (e := take t e) (modify_get _ _ _ _ he) h)
    intro e' he'
    rw [he] at he'
    injection he' with he'
    subst he'
    refine ⟨rfl, rfl, rfl, rfl, fun j' hj' => ?_⟩
    rw [hn] at hj'
    cases hj'

end Aihw.Client

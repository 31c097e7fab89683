/-
Properties of the cloud client.
-/
import Verif.Client.Status

namespace Aihw.Client

/-! ### Logging in -/

/-- Creating a client sends one request, with the token of the user and without authorization; it
succeeds exactly if the service accepts it and answers with a token. -/
theorem C97_login (c : Cfg) (w : World) :
    connect c = (.ok (), w) ↔
      ∃ jwt : Val, Fine (c.service [] (loginReq c)) ∧ Says (c.service [] (loginReq c)) "jwt" jwt ∧
        w = ⟨some jwt, [⟨loginReq c, c.service [] (loginReq c)⟩], []⟩ := by
  have hreq : (⟨.api, .POST, c.url ++ "/" ++ Stub.login.base, authHeader c ⟨none, [], []⟩,
      some (.dict [("token", .str c.token)]), none⟩ : Request) = loginReq c := by
    rw [loginReq, String.append_assoc]; rfl
  have hpost : postStub c .login (.dict [("token", .str c.token)]) ⟨none, [], []⟩ =
      (checked (.api (c.service [] (loginReq c)).status (c.service [] (loginReq c)).json)
        (c.service [] (loginReq c)) >>= asJson,
       push ⟨none, [], []⟩ ⟨loginReq c, c.service [] (loginReq c)⟩) := by
    rcases hk : checked (.api (c.service [] (loginReq c)).status (c.service [] (loginReq c)).json)
      (c.service [] (loginReq c)) with x | x
    · simp only [postStub, bind, M.bind, Except.bind, apiRequest_eq, hreq, hk]
    · simp only [postStub, bind, M.bind, Except.bind, apiRequest_eq, hreq, hk, lift]
  rcases hb : (checked (.api (c.service [] (loginReq c)).status (c.service [] (loginReq c)).json)
        (c.service [] (loginReq c)) >>= asJson) with x | v
  · constructor
    · intro h
      simp only [connect, login, bind, M.bind, mapErr, hpost] at h
      simp only [bind] at hb
      rw [hb] at h
      simp at h
    · rintro ⟨jwt, hf, ⟨v, hv, _⟩, _⟩
      rw [body_ok.mpr ⟨hf, hv⟩] at hb
      cases hb
  · obtain ⟨hf, hv⟩ := body_ok.mp hb
    have hlog : connect c = (lift (index v "jwt") >>= fun jwt => setJwt jwt)
        (push ⟨none, [], []⟩ ⟨loginReq c, c.service [] (loginReq c)⟩) := by
      have hm : mapErr loginError (postStub c .login (.dict [("token", .str c.token)])) ⟨none, [], []⟩ =
          (.ok v, push ⟨none, [], []⟩ ⟨loginReq c, c.service [] (loginReq c)⟩) := by
        simp only [mapErr, hpost, hb]
      rw [connect, login, bind_run hm]
    rw [hlog]
    constructor
    · intro h
      rcases bind_inv h with ⟨x, _, h2⟩ | ⟨jwt, w1, h1, h2⟩
      · cases h2
      · injection h1 with h1 h1'
        subst h1'
        injection h2 with _ h2
        exact ⟨jwt, hf, (says_iff _ _ _).mpr ⟨v, hv, h1⟩, by rw [← h2]; rfl⟩
    · rintro ⟨jwt, _, hs, rfl⟩
      obtain ⟨v', hv', hi⟩ := (says_iff _ _ _).mp hs
      rw [hv] at hv'
      injection hv' with hv'
      subst hv'
      simp only [bind, M.bind, lift, hi, setJwt, push, List.nil_append]

/-- A login that the service refuses: the client has no token. With status 400 the user is told that the
credentials are wrong, in the words of the service if it sent an object with a message; with any other
status the error carries the reply. -/
theorem C97_login_refused (c : Cfg) (h : ¬Fine (c.service [] (loginReq c))) :
    (connect c).2 = ⟨none, [⟨loginReq c, c.service [] (loginReq c)⟩], []⟩ ∧
    ((c.service [] (loginReq c)).status ≠ 400 → (connect c).1 =
      .error (.api (c.service [] (loginReq c)).status (c.service [] (loginReq c)).json)) ∧
    ((c.service [] (loginReq c)).status = 400 →
      ((c.service [] (loginReq c)).json = none → (connect c).1 = .error (.credentials (.str "unknown"))) ∧
      (∀ kvs : List (String × Val), (c.service [] (loginReq c)).json = some (.dict kvs) →
        (∀ x : Val, Has (.dict kvs) "message" x → (connect c).1 = .error (.credentials x)) ∧
        ((∀ x : Val, (("message", x) : String × Val) ∉ kvs) →
          (connect c).1 = .error (.credentials (.str "unknown"))))) := by
  have hreq : (⟨.api, .POST, c.url ++ "/" ++ Stub.login.base, authHeader c ⟨none, [], []⟩,
      some (.dict [("token", .str c.token)]), none⟩ : Request) = loginReq c := by
    rw [loginReq, String.append_assoc]; rfl
  have hk : checked (.api (c.service [] (loginReq c)).status (c.service [] (loginReq c)).json)
      (c.service [] (loginReq c)) =
      .error (.api (c.service [] (loginReq c)).status (c.service [] (loginReq c)).json) := by
    have hb : bad (c.service [] (loginReq c)) = true := by
      unfold Fine at h
      unfold bad
      simpa using h
    unfold checked
    rw [if_pos hb]
  have hc : connect c = (.error (loginError (.api (c.service [] (loginReq c)).status
      (c.service [] (loginReq c)).json)), push ⟨none, [], []⟩ ⟨loginReq c, c.service [] (loginReq c)⟩) := by
    simp only [connect, login, mapErr, postStub, bind, M.bind, apiRequest_eq, hreq, hk]
  rw [hc]
  generalize c.service [] (loginReq c) = r
  refine ⟨rfl, fun hs => ?_, fun hs => ⟨fun hj => ?_, fun kvs hj => ⟨fun x hx => ?_, fun hx => ?_⟩⟩⟩
  · show Except.error (loginError (.api r.status r.json)) = _
    unfold loginError
    split
    · rename_i e; injection e with e; exact absurd e hs
    · rename_i e; injection e with e; exact absurd e hs
    · rename_i e; injection e with e; exact absurd e hs
    · rfl
  · show Except.error (loginError (.api r.status r.json)) = _
    rw [hs, hj]
    rfl
  · show Except.error (loginError (.api r.status r.json)) = _
    rw [hs, hj]
    obtain ⟨pre, post, e, hp⟩ := hx
    injection e with e
    have : lookup "message" kvs = some x := by
      rw [e]
      clear e hj
      induction pre with
      | nil => simp [lookup]
      | cons a pre ih =>
        rw [List.cons_append, lookup, if_neg (hp a List.mem_cons_self)]
        exact ih fun p hm => hp p (List.mem_cons_of_mem _ hm)
    show Except.error (Err.credentials ((lookup "message" kvs).getD (.str "unknown"))) = _
    rw [this]
    rfl
  · show Except.error (loginError (.api r.status r.json)) = _
    rw [hs, hj]
    have : lookup "message" kvs = none := by
      clear hj
      induction kvs with
      | nil => rfl
      | cons a kvs ih =>
        rw [lookup, if_neg]
        · exact ih fun x hm => hx x (List.mem_cons_of_mem _ hm)
        · intro e
          refine hx a.2 ?_
          rw [← e]
          exact List.mem_cons_self
    show Except.error (Err.credentials ((lookup "message" kvs).getD (.str "unknown"))) = _
    rw [this]
    rfl

/-! ### Every request -/

theorem download_grows {c : Cfg} {s : Stub} {id jwt : Val} {path : String} {w w' : World}
    {r : Except Err Bytes} (hj : w.jwt = some jwt) (hp : path = "/" ++ s.getUrl (c.text id))
    (hs : ∃ p, path = "/" ++ p) (h : download c s id w = (r, w')) :
    Grows c jwt w w' ∧ w'.exps = w.exps := by
  rcases download_inv hj hp h with ⟨r1, rfl, _⟩ | ⟨r1, r2, url, hf, hu, _, rfl, _⟩
  · exact ⟨grows_api hj _ _ hs _ _, rfl⟩
  · exact ⟨(grows_api hj _ _ hs none r1).trans (grows_storage hj _ _ _ _ _ _ _ _ hf hu), rfl⟩

theorem jwt_status {c : Cfg} {k : ℕ} {jwt : Val} {w w' : World} {r : Except Err JobStatus}
    (hj : w.jwt = some jwt) (h : status c k w = (r, w')) : w'.jwt = some jwt := (status_grows hj h).1

theorem definition_steps {c : Cfg} {k : ℕ} {jwt : Val} {w w' : World} {r : Except Err ℕ}
    (hj : w.jwt = some jwt) (h : getExperiment c k w = (r, w')) :
    ∃ (w1 : World) (x : Except Err JobStatus), status c k w = (x, w1) ∧ Grows c jwt w1 w' ∧
      w'.exps = w1.exps := by
  rcases bind_inv h with ⟨x, h1, rfl⟩ | ⟨s, w1, h1, h2⟩
  · exact ⟨_, _, h1, grows_same (jwt_status hj h1) rfl rfl, rfl⟩
  refine ⟨w1, _, h1, ?_⟩
  have hj1 := jwt_status hj h1
  split_ifs at h2 with hs
  · injection h2 with _ h2
    subst h2
    exact ⟨grows_same hj1 rfl rfl, rfl⟩
  · rcases (show w1.exps[k]? = none ∨ ∃ e, w1.exps[k]? = some e by cases w1.exps[k]? <;> simp)
      with he | ⟨e, he⟩
    · have hr : readExp k w1 = (.error .key, w1) := by simp only [readExp, he]
      simp only [bind, M.bind, hr] at h2
      injection h2 with _ h2
      subst h2
      exact ⟨grows_same hj1 rfl rfl, rfl⟩
    · have hr : readExp k w1 = (.ok e, w1) := by simp only [readExp, he]
      rw [bind_run hr] at h2
      rcases bind_inv h2 with ⟨x, h3, -⟩ | ⟨b, w2, h3, h4⟩
      · exact download_grows hj1 (inputsPath c e.input) (slash_in _) h3
      · injection h4 with _ h4
        subst h4
        exact download_grows hj1 (inputsPath c e.input) (slash_in _) h3

theorem result_steps {c : Cfg} {k : ℕ} {jwt : Val} {w w' : World} {r : Except Err ℕ}
    (hj : w.jwt = some jwt) (h : getResult c k w = (r, w')) :
    ∃ (w1 : World) (x : Except Err JobStatus), status c k w = (x, w1) ∧ Grows c jwt w1 w' ∧
      w'.exps = w1.exps := by
  rcases bind_inv h with ⟨x, h1, rfl⟩ | ⟨s, w1, h1, h2⟩
  · exact ⟨_, _, h1, grows_same (jwt_status hj h1) rfl rfl, rfl⟩
  refine ⟨w1, _, h1, ?_⟩
  have hj1 := jwt_status hj h1
  by_cases hs : s ≠ .completed
  · rw [if_pos hs] at h2
    injection h2 with _ h2
    subst h2
    exact ⟨grows_same hj1 rfl rfl, rfl⟩
  · rw [if_neg hs] at h2
    rcases (show w1.exps[k]? = none ∨ ∃ e, w1.exps[k]? = some e by cases w1.exps[k]? <;> simp)
      with he | ⟨e, he⟩
    · have hr : readExp k w1 = (.error .key, w1) := by simp only [readExp, he]
      simp only [bind, M.bind, hr] at h2
      injection h2 with _ h2
      subst h2
      exact ⟨grows_same hj1 rfl rfl, rfl⟩
    · have hr : readExp k w1 = (.ok e, w1) := by simp only [readExp, he]
      rw [bind_run hr] at h2
      rcases bind_inv h2 with ⟨x, h3, -⟩ | ⟨o, w2, h3, h4⟩
      · injection h3 with _ h3
        subst h3
        exact ⟨grows_same hj1 rfl rfl, rfl⟩
      · injection h3 with _ h3
        subst h3
        rcases bind_inv h4 with ⟨x, h5, -⟩ | ⟨b, w3, h5, h6⟩
        · exact download_grows hj1 (outputsPath c o) (slash_out _) h5
        · injection h6 with _ h6
          subst h6
          exact download_grows hj1 (outputsPath c o) (slash_out _) h5

theorem creation_grows {c : Cfg} {jwt : Val} {payload : Except Err Bytes} {name device : String}
    {w : World} {seg : List Sent} (hj : w.jwt = some jwt) (h : Creation c jwt payload name device seg) :
    Grows c jwt w { w with trace := w.trace ++ seg } := by
  have g1 : ∀ r1, Grows c jwt w (push w ⟨expReq c jwt name, r1⟩) := fun r1 =>
    grows_api hj _ _ ⟨"experiments", rfl⟩ _ _
  have g2 : ∀ (r1 r2 : Reply) (id : Val), Grows c jwt (push w ⟨expReq c jwt name, r1⟩)
      (push (push w ⟨expReq c jwt name, r1⟩) ⟨inReq c jwt id device, r2⟩) := fun r1 r2 id =>
    grows_api (by exact hj) _ _ ⟨"inputs", rfl⟩ _ _
  rcases h with rfl | ⟨r1, rfl⟩ | ⟨r1, r2, id, _, _, rfl⟩ |
    ⟨r1, r2, r3, id, url, data, _, _, h3, h4, _, rfl⟩ | ⟨r1, r2, r3, r4, id, url, data, _, _, h3, h4, _, _, rfl⟩
  · exact grows_same hj rfl (by simp)
  · exact g1 r1
  · rw [← push2]
    exact (g1 r1).trans (g2 r1 r2 id)
  · rw [← push3]
    exact ((g1 r1).trans (g2 r1 r2 id)).trans
      (grows_storage (w := push w ⟨expReq c jwt name, r1⟩) hj _ _ _ _ _ _ _ _ h3 h4)
  · rw [← push4]
    exact (((g1 r1).trans (g2 r1 r2 id)).trans
      (grows_storage (w := push w ⟨expReq c jwt name, r1⟩) hj _ _ _ _ _ _ _ _ h3 h4)).trans
      (grows_api (w := push (push (push w ⟨expReq c jwt name, r1⟩) ⟨inReq c jwt id device, r2⟩)
        ⟨storageReq .PUT url (some data), r3⟩) hj _ _ ⟨"jobs", rfl⟩ _ _)

/-- What every operation does to the trace, the token and the objects. -/
theorem exec_effect {c : Cfg} {jwt : Val} {w w' : World} {op : Op} {r : Except Err Out}
    (hj : w.jwt = some jwt) (h : exec c op w = (r, w')) :
    Grows c jwt w w' ∧ SameHandles op.handles w w' ∧
      ∀ (i : ℕ) (e : Exp) (j : Job), w.exps[i]? = some e → e.job = some j →
        ∃ e', w'.exps[i]? = some e' ∧ e'.input = e.input ∧ (∃ j', e'.job = some j') ∧
          (j.ended = true → e' = e) := by
  have appended : ∀ (w1 : World) (es : List Exp), w1.exps = w.exps ++ es → ∀ ks, SameHandles ks w w1 ∧
      ∀ (i : ℕ) (e : Exp) (j : Job), w.exps[i]? = some e → e.job = some j →
        ∃ e', w1.exps[i]? = some e' ∧ e'.input = e.input ∧ (∃ j', e'.job = some j') ∧
          (j.ended = true → e' = e) := by
    intro w1 es h1 ks
    have hget : ∀ (i : ℕ) (e : Exp), w.exps[i]? = some e → w1.exps[i]? = some e := by
      intro i e he
      rw [h1, List.getElem?_append_left (List.getElem?_eq_some_iff.mp he).1]
      exact he
    exact ⟨fun i e he => ⟨e, hget i e he, rfl, rfl, rfl, rfl, fun _ => rfl⟩,
      fun i e j he hjob => ⟨e, hget i e he, rfl, ⟨j, hjob⟩, fun _ => rfl⟩⟩
  have kept : ∀ (w1 : World), w1.exps = w.exps → ∀ ks, SameHandles ks w w1 ∧
      ∀ (i : ℕ) (e : Exp) (j : Job), w.exps[i]? = some e → e.job = some j →
        ∃ e', w1.exps[i]? = some e' ∧ e'.input = e.input ∧ (∃ j', e'.job = some j') ∧
          (j.ended = true → e' = e) := fun w1 h1 => appended w1 [] (by simp [h1])
  have touched : ∀ (k : ℕ) (w1 w2 : World), Touches k w w1 → w2.exps = w1.exps → SameHandles [k] w w2 ∧
      ∀ (i : ℕ) (e : Exp) (j : Job), w.exps[i]? = some e → e.job = some j →
        ∃ e', w2.exps[i]? = some e' ∧ e'.input = e.input ∧ (∃ j', e'.job = some j') ∧
          (j.ended = true → e' = e) := by
    intro k w1 w2 ht h2
    constructor
    · intro i e he
      obtain ⟨e', a, b1, b2, b3, b4, b5, _⟩ := ht i e he
      exact ⟨e', by rw [h2]; exact a, b1, b2, b3, b4, fun hi => b5 (by simpa using hi)⟩
    · intro i e j he hjob
      obtain ⟨e', a, _, _, _, _, _, g⟩ := ht i e he
      obtain ⟨g1, g2, g3⟩ := g j hjob
      exact ⟨e', by rw [h2]; exact a, g1, g2, g3⟩
  cases op with
  | list =>
    rcases bind_inv h with ⟨x, h1, rfl⟩ | ⟨es, w1, h1, h2⟩
    · obtain ⟨hw, -⟩ := experimentsList_inv hj h1
      subst hw
      exact ⟨grows_api hj _ _ ⟨"experiments/me", rfl⟩ _ _, kept _ rfl _⟩
    · obtain ⟨hw, -⟩ := experimentsList_inv hj h1
      subst hw
      injection h2 with _ h2
      subst h2
      exact ⟨(grows_api hj _ _ ⟨"experiments/me", rfl⟩ none _).trans (grows_same hj rfl rfl),
        appended _ es rfl _⟩
  | get id =>
    rcases bind_inv h with ⟨x, h1, rfl⟩ | ⟨e, w1, h1, h2⟩
    · obtain ⟨hw, -⟩ := experimentGet_inv hj h1
      subst hw
      exact ⟨grows_api hj _ _ (slash_exp _) _ _, kept _ rfl _⟩
    · obtain ⟨hw, -⟩ := experimentGet_inv hj h1
      subst hw
      injection h2 with _ h2
      subst h2
      exact ⟨(grows_api hj _ _ (slash_exp (c.text id)) none _).trans (grows_same hj rfl rfl),
        appended _ [e] rfl _⟩
  | create payload name device =>
    rcases bind_inv h with ⟨x, h1, rfl⟩ | ⟨e, w1, h1, h2⟩
    · obtain ⟨seg, hw, hc, -⟩ := create_inv hj h1
      subst hw
      exact ⟨creation_grows hj hc, kept _ rfl _⟩
    · obtain ⟨seg, hw, hc, -⟩ := create_inv hj h1
      subst hw
      injection h2 with _ h2
      subst h2
      exact ⟨(creation_grows hj hc).trans (grows_same hj rfl rfl), appended _ [e] rfl _⟩
  | status k =>
    rcases bind_inv h with ⟨x, h1, rfl⟩ | ⟨s, w1, h1, h2⟩
    · exact ⟨status_grows hj h1, touched k _ _ (status_touches hj h1) rfl⟩
    · injection h2 with _ h2
      subst h2
      exact ⟨status_grows hj h1, touched k _ _ (status_touches hj h1) rfl⟩
  | result k =>
    rcases bind_inv h with ⟨x, h1, rfl⟩ | ⟨s, w1, h1, h2⟩
    · obtain ⟨w2, y, h3, h4, h5⟩ := result_steps hj h1
      exact ⟨(status_grows hj h3).trans h4, touched k _ _ (status_touches hj h3) h5⟩
    · injection h2 with _ h2
      subst h2
      obtain ⟨w2, y, h3, h4, h5⟩ := result_steps hj h1
      exact ⟨(status_grows hj h3).trans h4, touched k _ _ (status_touches hj h3) h5⟩
  | definition k =>
    rcases bind_inv h with ⟨x, h1, rfl⟩ | ⟨s, w1, h1, h2⟩
    · obtain ⟨w2, y, h3, h4, h5⟩ := definition_steps hj h1
      exact ⟨(status_grows hj h3).trans h4, touched k _ _ (status_touches hj h3) h5⟩
    · injection h2 with _ h2
      subst h2
      obtain ⟨w2, y, h3, h4, h5⟩ := definition_steps hj h1
      exact ⟨(status_grows hj h3).trans h4, touched k _ _ (status_touches hj h3) h5⟩

theorem run_grows {c : Cfg} {jwt : Val} (ops : List Op) : ∀ {w : World}, w.jwt = some jwt →
    Grows c jwt w (run c ops w) := by
  induction ops with
  | nil => intro w hj; exact grows_same hj rfl rfl
  | cons op ops ih =>
    intro w hj
    have h1 := (exec_effect (w := w) (w' := (exec c op w).2) (r := (exec c op w).1) hj rfl).1
    exact h1.trans (ih h1.1)

/-- For every history of a client, whatever the service answers: the first request is the login; every
other request to the service carries the token received at the login, and nothing but requests to the
service carries it; the storage is only asked at the addresses the service gave in the accepted reply
directly before. -/
theorem C97_requests (c : Cfg) (w : World) (h : connect c = (.ok (), w)) (ops : List Op) :
    ∃ jwt : Val, (run c ops w).jwt = some jwt ∧ Proper c jwt (run c ops w).trace := by
  obtain ⟨jwt, hf, hs, rfl⟩ := (C97_login c w).mp h
  have g := run_grows (c := c) (jwt := jwt) ops (w := ⟨some jwt, [⟨loginReq c, c.service [] (loginReq c)⟩], []⟩) rfl
  refine ⟨jwt, g.1, g.2 ⟨⟨_, hf, hs, rfl⟩, ?_⟩⟩
  intro i s hs
  simp at hs

/-- An operation on one experiment object changes no other one, and never the identity of an
object. -/
theorem C97_handles (c : Cfg) (jwt : Val) (w : World) (hj : w.jwt = some jwt) (op : Op) :
    SameHandles op.handles w (exec c op w).2 :=
  (exec_effect (r := (exec c op w).1) hj rfl).2.1

/-! ### Creating, getting and listing -/

/-- Running an experiment: what is exchanged, whatever goes wrong. -/
theorem C97_create (c : Cfg) (jwt : Val) (w w' : World) (payload : Except Err Bytes)
    (name device : String) (r : Except Err Out) (hj : w.jwt = some jwt)
    (h : exec c (.create payload name device) w = (r, w')) :
    ∃ seg : List Sent, w'.trace = w.trace ++ seg ∧ Creation c jwt payload name device seg ∧
      ∀ out, r = .ok out → ∃ e : Exp, out = .exps [e] ∧ w'.exps = w.exps ++ [e] ∧
        Created c jwt payload name device seg e := by
  rcases bind_inv h with ⟨x, h1, rfl⟩ | ⟨e, w1, h1, h2⟩
  · obtain ⟨seg, hw, hc, -⟩ := create_inv hj h1
    exact ⟨seg, by rw [hw], hc, fun out h => by cases h⟩
  · obtain ⟨seg, hw, hc, hok⟩ := create_inv hj h1
    injection h2 with h2 h3
    subst h2
    subst h3
    subst hw
    refine ⟨seg, rfl, hc, fun out h => ?_⟩
    injection h with h
    exact ⟨e, h.symm, rfl, hok e rfl⟩

/-- Getting an experiment by its identifier. -/
theorem C97_get (c : Cfg) (jwt : Val) (w w' : World) (id : Val) (r : Except Err Out)
    (hj : w.jwt = some jwt) (h : exec c (.get id) w = (r, w')) :
    ∃ rep : Reply, rep = c.service w.trace (apiReq c jwt .GET ("/experiments/" ++ c.text id) none) ∧
      w'.trace = w.trace ++ [⟨apiReq c jwt .GET ("/experiments/" ++ c.text id) none, rep⟩] ∧
      ∀ out, r = .ok out ↔ ∃ e v, Fine rep ∧ rep.json = some v ∧ ExpOf c v e ∧ out = .exps [e] := by
  rcases bind_inv h with ⟨x, h1, rfl⟩ | ⟨e, w1, h1, h2⟩
  · obtain ⟨hw, hr⟩ := experimentGet_inv hj h1
    refine ⟨_, rfl, by rw [hw]; rfl, fun out => ⟨fun h => (by cases h), ?_⟩⟩
    rintro ⟨e, v, a, b, d, _⟩
    exact absurd ((hr e).mpr ⟨a, v, b, d⟩) (by simp)
  · obtain ⟨hw, hr⟩ := experimentGet_inv hj h1
    injection h2 with h2 h3
    subst h3
    obtain ⟨hf, v, hv, hof⟩ := (hr e).mp rfl
    refine ⟨_, rfl, by rw [hw]; rfl, fun out => ?_⟩
    rw [← h2]
    constructor
    · intro h
      injection h with h
      exact ⟨e, v, hf, hv, hof, h.symm⟩
    · rintro ⟨e', v', a, b, d, rfl⟩
      have := (hr e').mpr ⟨a, v', b, d⟩
      injection this with this
      rw [this]

theorem mapM_iff (c : Cfg) (xs : List Val) : ∀ es : List Exp,
    xs.mapM (parseExperiment c) = .ok es ↔ List.Forall₂ (ExpOf c) xs es := by
  induction xs with
  | nil =>
    intro es
    cases es with
    | nil => simp [pure, Except.pure]
    | cons e es =>
      simp only [List.mapM_nil, pure, Except.pure]
      exact ⟨fun h => (by injection h with h; cases h), fun h => (by cases h)⟩
  | cons x xs ih =>
    intro es
    rw [List.mapM_cons, except_bind_ok]
    constructor
    · rintro ⟨e, he, h⟩
      obtain ⟨es', hes, h⟩ := except_bind_ok.mp h
      injection h with h
      subst h
      exact .cons ((parseExperiment_iff c x e).mp he) ((ih es').mp hes)
    · intro h
      cases h with
      | cons h1 h2 =>
        exact ⟨_, (parseExperiment_iff c x _).mpr h1, except_bind_ok.mpr ⟨_, (ih _).mpr h2, rfl⟩⟩

/-- Listing: one object per entry of the reply, in order. -/
theorem C97_list (c : Cfg) (jwt : Val) (w w' : World) (r : Except Err Out)
    (hj : w.jwt = some jwt) (h : exec c .list w = (r, w')) :
    ∃ rep : Reply, rep = c.service w.trace (apiReq c jwt .GET "/experiments/me" none) ∧
      w'.trace = w.trace ++ [⟨apiReq c jwt .GET "/experiments/me" none, rep⟩] ∧
      ∀ out, r = .ok out ↔ ∃ es vs, Fine rep ∧ rep.json = some (.list vs) ∧
        List.Forall₂ (ExpOf c) vs es ∧ out = .exps es := by
  have all : ∀ (v : Val) (es : List Exp), parseAll c v = .ok es ↔
      ∃ vs, v = .list vs ∧ List.Forall₂ (ExpOf c) vs es := by
    intro v es
    cases v with
    | list vs => simp [parseAll, mapM_iff]
    | _ => simp [parseAll]
  rcases bind_inv h with ⟨x, h1, rfl⟩ | ⟨es, w1, h1, h2⟩
  · obtain ⟨hw, hr⟩ := experimentsList_inv hj h1
    refine ⟨_, rfl, by rw [hw]; rfl, fun out => ⟨fun h => (by cases h), ?_⟩⟩
    rintro ⟨es, vs, a, b, d, _⟩
    exact absurd ((hr es).mpr ⟨a, _, b, (all _ _).mpr ⟨vs, rfl, d⟩⟩) (by simp)
  · obtain ⟨hw, hr⟩ := experimentsList_inv hj h1
    injection h2 with h2 h3
    subst h3
    obtain ⟨hf, v, hv, hof⟩ := (hr es).mp rfl
    obtain ⟨vs, rfl, hvs⟩ := (all _ _).mp hof
    refine ⟨_, rfl, by rw [hw]; rfl, fun out => ?_⟩
    rw [← h2]
    constructor
    · intro h
      injection h with h
      exact ⟨es, vs, hf, hv, hvs, h.symm⟩
    · rintro ⟨es', vs', a, b, d, rfl⟩
      have := (hr es').mpr ⟨a, _, b, (all _ _).mpr ⟨vs', rfl, d⟩⟩
      injection this with this
      rw [this]

/-! ### The status -/

theorem exec_status {c : Cfg} {k : ℕ} {w w' : World} {s : JobStatus}
    (h : exec c (.status k) w = (.ok (.status s), w')) : status c k w = (.ok s, w') := by
  rcases bind_inv h with ⟨x, h1, h2⟩ | ⟨s', w1, h1, h2⟩
  · cases h2
  · injection h2 with h2 h3
    injection h2 with h2
    injection h2 with h2
    subst h2
    subst h3
    exact h1

theorem status_exec {c : Cfg} {k : ℕ} {w w' : World} {s : JobStatus}
    (h : status c k w = (.ok s, w')) : exec c (.status k) w = (.ok (.status s), w') := by
  show (status c k >>= fun s => lift (.ok (Out.status s))) w = _
  rw [bind_run h]
  rfl

/-- Where a status comes from: nothing is asked and it is an end state, or it is what the last reply
tells: the reply to a question for the job, or the one to a question for an experiment whose job was
not known, with its job (or with none). -/
theorem C97_status (c : Cfg) (jwt : Val) (w w' : World) (k : ℕ) (s : JobStatus)
    (hj : w.jwt = some jwt) (h : exec c (.status k) w = (.ok (.status s), w')) :
    (w' = w ∧ (s = .completed ∨ s = .failed)) ∨
    ∃ p : Sent, w'.trace.getLast? = some p ∧ Fine p.reply ∧
      ((∃ id : Val, p.req = apiReq c jwt .GET ("/jobs/" ++ c.text id) none ∧ Tells p.reply s) ∨
       (∃ id : Val, p.req = apiReq c jwt .GET ("/experiments/" ++ c.text id) none ∧
        ((s = .unknown ∧ ∀ o, Says p.reply "job" o → Blank o) ∨
         (s = .completed ∨ s = .failed) ∧ ∃ o t, Says p.reply "job" o ∧ Has o "status" (.str t) ∧
          StatusWord t s))) := by
  replace h := exec_status h
  rcases (show w.exps[k]? = none ∨ ∃ e, w.exps[k]? = some e by cases w.exps[k]? <;> simp) with he | ⟨e, he⟩
  · rw [status_none he] at h
    injection h with h
    cases h
  have ends : ∀ j : Job, j.ended = true → j.status = .completed ∨ j.status = .failed := by
    intro j hjend
    simp [Job.ended] at hjend
    tauto
  have refreshed : ∀ (w1 : World) (j : Job), Refreshed c jwt k j w1 w' (.ok s) →
      ∃ p : Sent, w'.trace.getLast? = some p ∧ Fine p.reply ∧
      ∃ id : Val, p.req = apiReq c jwt .GET ("/jobs/" ++ c.text id) none ∧ Tells p.reply s := by
    intro w1 j hr
    rcases hr with ⟨rep, _, ⟨x, hx, _⟩ | ⟨v, n, hf, hv, hjob, hs, hw⟩⟩
    · cases hx
    · injection hs with hs
      obtain ⟨t, ht, hword⟩ := hjob.status
      rw [← hs] at hword
      exact ⟨⟨apiReq c jwt .GET ("/jobs/" ++ c.text j.id) none, rep⟩, by rw [hw]; simp [push], hf,
        j.id, rfl, t, ⟨v, hv, ht⟩, hword⟩
  rcases status_cases hj he h with ⟨hne, h⟩ | ⟨hn, rep, _, ⟨x, hx, _⟩ | ⟨v, t, hf, hv, hof, h⟩⟩
  · rcases h with ⟨hno, _⟩ | ⟨j, hjob, hend, hr, hw⟩ | ⟨j, hjob, hend, hr⟩
    · exact absurd hno hne
    · injection hr with hr
      exact .inl ⟨hw, by rw [hr]; exact ends j hend⟩
    · obtain ⟨p, a, b, id, d⟩ := refreshed _ _ hr
      exact .inr ⟨p, a, b, .inl ⟨id, d⟩⟩
  · cases hx
  · rcases h with ⟨hno, hr, hw⟩ | ⟨j, hjob, hend, hr, hw⟩ | ⟨j, hjob, hend, hr⟩
    · injection hr with hr
      refine .inr ⟨⟨apiReq c jwt .GET ("/experiments/" ++ c.text e.id) none, rep⟩, by rw [hw]; simp [push],
        hf, .inr ⟨e.id, rfl, .inl ⟨hr, ?_⟩⟩⟩
      rintro o ⟨v', hv', ho⟩
      rw [hv] at hv'
      injection hv' with hv'
      subst hv'
      rcases hof.job with ⟨o', j, ho', _, _, hj'⟩ | ⟨hall, _⟩
      · rw [hno] at hj'; cases hj'
      · exact hall o ho
    · injection hr with hr
      refine .inr ⟨⟨apiReq c jwt .GET ("/experiments/" ++ c.text e.id) none, rep⟩, by rw [hw]; simp [push],
        hf, .inr ⟨e.id, rfl, .inr ⟨by rw [hr]; exact ends j hend, ?_⟩⟩⟩
      rcases hof.job with ⟨o', j', ho', _, hjof, hj'⟩ | ⟨_, hno⟩
      · rw [hjob] at hj'
        injection hj' with hj'
        subst hj'
        obtain ⟨t', ht', hword⟩ := hjof.status
        exact ⟨o', t', ⟨v, hv, ho'⟩, ht', by rw [hr]; exact hword⟩
      · rw [hjob] at hno; cases hno
    · obtain ⟨p, a, b, id, d⟩ := refreshed _ _ hr
      exact .inr ⟨p, a, b, .inl ⟨id, d⟩⟩

/-- What is left in the object after a status: the job with this status (none if unknown). -/
theorem status_leaves {c : Cfg} {jwt : Val} {w w' : World} {k : ℕ} {s : JobStatus}
    (hj : w.jwt = some jwt) (h : status c k w = (.ok s, w')) :
    ∃ e, w'.exps[k]? = some e ∧
      ((e.job = none ∧ s = .unknown) ∨ ∃ j, e.job = some j ∧ j.status = s) := by
  rcases (show w.exps[k]? = none ∨ ∃ e, w.exps[k]? = some e by cases w.exps[k]? <;> simp) with he | ⟨e, he⟩
  · rw [status_none he] at h
    injection h with h
    cases h
  have looked : ∀ (w1 : World) (e1 : Exp), w1.exps[k]? = some e1 → Looked c jwt k e1.job w1 w' (.ok s) →
      ∃ e, w'.exps[k]? = some e ∧
      ((e.job = none ∧ s = .unknown) ∨ ∃ j, e.job = some j ∧ j.status = s) := by
    intro w1 e1 he1 h
    rcases h with ⟨hno, hr, hw⟩ | ⟨j, hjob, hend, hr, hw⟩ |
      ⟨j, hjob, hend, rep, _, ⟨x, hx, _⟩ | ⟨v, n, _, _, _, hs, hw⟩⟩
    · injection hr with hr
      exact ⟨e1, by rw [hw]; exact he1, .inl ⟨hno, hr⟩⟩
    · injection hr with hr
      exact ⟨e1, by rw [hw]; exact he1, .inr ⟨j, hjob, hr.symm⟩⟩
    · cases hx
    · injection hs with hs
      exact ⟨_, by rw [hw]; exact modify_get _ _ _ _ he1, .inr ⟨n, rfl, hs.symm⟩⟩
  rcases status_cases hj he h with ⟨hne, h⟩ | ⟨hn, rep, _, ⟨x, hx, _⟩ | ⟨v, t, hf, hv, hof, h⟩⟩
  · exact looked w e he h
  · cases hx
  · exact looked _ (take t e) (modify_get _ _ _ _ he) h

theorem ended_status {c : Cfg} {w : World} {k : ℕ} {e : Exp} {j : Job} (he : w.exps[k]? = some e)
    (hjob : e.job = some j) (hend : j.ended = true) : status c k w = (.ok j.status, w) := by
  have hr : readExp k w = (.ok e, w) := by simp only [readExp, he]
  have hp : populate c k w = (.ok (), w) := by
    rw [populate, bind_run hr]
    simp only [hjob]
    rfl
  rw [status_eq, bind_run hp, look, bind_run hr]
  simp only [hjob]
  rw [if_pos hend]
  rfl

theorem run_ended {c : Cfg} {jwt : Val} {k : ℕ} {e : Exp} {j : Job} (hjob : e.job = some j)
    (hend : j.ended = true) (ops : List Op) : ∀ {w : World}, w.jwt = some jwt → w.exps[k]? = some e →
    (run c ops w).exps[k]? = some e := by
  induction ops with
  | nil => intro w _ he; exact he
  | cons op ops ih =>
    intro w hj he
    obtain ⟨g, _, hx⟩ := exec_effect (w := w) (w' := (exec c op w).2) (r := (exec c op w).1) hj rfl
    obtain ⟨e', he', _, _, hsame⟩ := hx k e j he hjob
    rw [hsame hend] at he'
    exact ih g.1 he'

/-- Once a status was `FAILED` it stays so, without asking the service again. -/
theorem C97_failed_stays (c : Cfg) (jwt : Val) (w w' : World) (k : ℕ) (hj : w.jwt = some jwt)
    (h : exec c (.status k) w = (.ok (.status .failed), w')) (ops : List Op) :
    exec c (.status k) (run c ops w') = (.ok (.status .failed), run c ops w') := by
  replace h := exec_status h
  obtain ⟨e, he, ⟨_, hs⟩ | ⟨j, hjob, hs⟩⟩ := status_leaves hj h
  · cases hs
  have hend : j.ended = true := by simp [Job.ended, hs]
  have he' := run_ended hjob hend ops (c := c) (jwt_status hj h) he
  have := ended_status (c := c) he' hjob hend
  rw [hs] at this
  exact status_exec this

/-- Once a status was `COMPLETED` and the job has an output it stays so, without asking again. -/
theorem C97_completed_stays (c : Cfg) (jwt : Val) (w w' : World) (k : ℕ) (e : Exp) (j : Job)
    (hj : w.jwt = some jwt) (h : exec c (.status k) w = (.ok (.status .completed), w'))
    (he : w'.exps[k]? = some e) (hjob : e.job = some j) (ho : ¬ Blank j.output) (ops : List Op) :
    exec c (.status k) (run c ops w') = (.ok (.status .completed), run c ops w') := by
  replace h := exec_status h
  obtain ⟨e', he', ⟨_, hs⟩ | ⟨j', hjob', hs⟩⟩ := status_leaves hj h
  · cases hs
  rw [he] at he'
  injection he' with he'
  subst he'
  rw [hjob] at hjob'
  injection hjob' with hjob'
  subst hjob'
  have hend : j.ended = true := by
    rw [blank_iff] at ho
    simp [Job.ended, hs]
    simpa using ho
  have he' := run_ended hjob hend ops (c := c) (jwt_status hj h) he
  have := ended_status (c := c) he' hjob hend
  rw [hs] at this
  exact status_exec this

/-! ### Results and definitions -/

/-- The result is only asked for once the status is `COMPLETED`; before, the status is asked for and
the exception tells so. -/
theorem C97_result_early (c : Cfg) (w w' : World) (k : ℕ) (s : JobStatus)
    (h : exec c (.status k) w = (.ok (.status s), w')) (hs : s ≠ .completed) :
    exec c (.result k) w = (.error .status, w') := by
  replace h := exec_status h
  show (getResult c k >>= fun n => lift (.ok (Out.object n))) w = _
  have hg : getResult c k w = (.error .status, w') := by
    rw [getResult, bind_run h, if_pos hs]
    rfl
  simp only [bind, M.bind, hg]

/-- A result is the converted content of the output of the job, read according to the category. -/
theorem C97_result (c : Cfg) (jwt : Val) (w w' : World) (k n : ℕ) (hj : w.jwt = some jwt)
    (h : exec c (.result k) w = (.ok (.object n), w')) :
    ∃ (w1 : World) (e : Exp) (j : Job) (b : Bytes) (seg : List Sent),
      exec c (.status k) w = (.ok (.status .completed), w1) ∧ w'.trace = w1.trace ++ seg ∧
      w'.exps[k]? = some e ∧ e.job = some j ∧ j.status = .completed ∧
      Download c jwt ("/outputs/" ++ c.text j.output ++ "/file") b seg ∧
      (e.category = .training → c.epochs b = .ok n) ∧
      (e.category = .inference → c.results b = .ok n) := by
  rcases bind_inv h with ⟨x, h1, h2⟩ | ⟨n', w2, h1, h2⟩
  · cases h2
  injection h2 with h2 h3
  injection h2 with h2
  injection h2 with h2
  subst h2
  subst h3
  rcases bind_inv h1 with ⟨x, h3, h4⟩ | ⟨s, w1, h3, h4⟩
  · cases h4
  by_cases hs : s ≠ .completed
  · rw [if_pos hs] at h4
    injection h4 with h4
    cases h4
  · rw [if_neg hs] at h4
    push Not at hs
    subst hs
    have hj1 := jwt_status hj h3
    obtain ⟨e, he, ⟨_, hs⟩ | ⟨j, hjob, hs⟩⟩ := status_leaves hj h3
    · cases hs
    have hr : readExp k w1 = (.ok e, w1) := by simp only [readExp, he]
    have ho : (lift (outputId e) : M Val) w1 = (.ok j.output, w1) := by
      simp only [lift, outputId, hjob]
    rw [bind_run hr, bind_run ho] at h4
    rcases bind_inv h4 with ⟨x, h5, h6⟩ | ⟨b, w3, h5, h6⟩
    · cases h6
    injection h6 with h6 h7
    subst h7
    rcases download_inv hj1 (outputsPath c j.output) h5 with ⟨r1, _, hno⟩ | ⟨r1, r2, url, hf, hu, _, hw, hb⟩
    · exact absurd rfl (hno b)
    obtain ⟨hf2, hc⟩ := (hb b).mp rfl
    refine ⟨w1, e, j, b, _, status_exec h3, by rw [hw, push2], by rw [hw]; exact he, hjob, hs,
      ⟨r1, r2, url, hf, hu, hf2, hc, rfl⟩, ?_, ?_⟩
    · intro hcat
      simpa only [hcat] using h6
    · intro hcat
      simpa only [hcat] using h6

/-- Without a job there is no definition. -/
theorem C97_definition_early (c : Cfg) (w w' : World) (k : ℕ)
    (h : exec c (.status k) w = (.ok (.status .unknown), w')) :
    exec c (.definition k) w = (.error .status, w') := by
  replace h := exec_status h
  show (getExperiment c k >>= fun n => lift (.ok (Out.object n))) w = _
  have hg : getExperiment c k w = (.error .status, w') := by
    rw [getExperiment, bind_run h, if_pos rfl]
    rfl
  simp only [bind, M.bind, hg]

theorem mentions_iff (b : Bytes) :
    mentionsInference b = true ↔ "InferenceRPUConfig".toList.map Char.toNat <:+: b :=
  decide_eq_true_iff

/-- The definition is asked for at the input of the experiment object, and read as an inference
experiment exactly if the text `InferenceRPUConfig` occurs in it. -/
theorem C97_definition (c : Cfg) (jwt : Val) (w w1 w' : World) (k : ℕ) (s : JobStatus)
    (r : Except Err Out) (hj : w.jwt = some jwt)
    (hs : exec c (.status k) w = (.ok (.status s), w1)) (hne : s ≠ .unknown)
    (h : exec c (.definition k) w = (r, w')) :
    ∃ (e : Exp) (rep : Reply) (seg : List Sent), w1.exps[k]? = some e ∧
      w'.trace = w1.trace ++
        ⟨apiReq c jwt .GET ("/inputs/" ++ c.text e.input ++ "/file") none, rep⟩ :: seg ∧
      ∀ n, r = .ok (.object n) → ∃ b : Bytes,
        Download c jwt ("/inputs/" ++ c.text e.input ++ "/file") b
          (⟨apiReq c jwt .GET ("/inputs/" ++ c.text e.input ++ "/file") none, rep⟩ :: seg) ∧
        (("InferenceRPUConfig".toList.map Char.toNat <:+: b → c.readInference b = .ok n) ∧
         (¬ "InferenceRPUConfig".toList.map Char.toNat <:+: b → c.readTraining b = .ok n)) := by
  replace hs := exec_status hs
  have hj1 := jwt_status hj hs
  obtain ⟨e, he, -⟩ := status_leaves hj hs
  have hr : readExp k w1 = (.ok e, w1) := by simp only [readExp, he]
  have key : ∀ (x : Except Err ℕ) (w2 : World), getExperiment c k w = (x, w2) →
      ∃ (rep : Reply) (seg : List Sent), w2.trace = w1.trace ++
        ⟨apiReq c jwt .GET ("/inputs/" ++ c.text e.input ++ "/file") none, rep⟩ :: seg ∧
      ∀ n, x = .ok n → ∃ b : Bytes,
        Download c jwt ("/inputs/" ++ c.text e.input ++ "/file") b
          (⟨apiReq c jwt .GET ("/inputs/" ++ c.text e.input ++ "/file") none, rep⟩ :: seg) ∧
        (("InferenceRPUConfig".toList.map Char.toNat <:+: b → c.readInference b = .ok n) ∧
         (¬ "InferenceRPUConfig".toList.map Char.toNat <:+: b → c.readTraining b = .ok n)) := by
    intro x w2 hx
    rw [getExperiment, bind_run hs, if_neg hne, bind_run hr] at hx
    rcases bind_inv hx with ⟨y, h5, rfl⟩ | ⟨b, w3, h5, h6⟩
    · rcases download_inv hj1 (inputsPath c e.input) h5 with ⟨r1, hw, _⟩ | ⟨r1, r2, url, _, _, _, hw, _⟩
      · exact ⟨r1, [], by rw [hw]; rfl, fun n h => by cases h⟩
      · exact ⟨r1, _, by rw [hw, push2], fun n h => by cases h⟩
    · injection h6 with h6 h7
      subst h7
      rcases download_inv hj1 (inputsPath c e.input) h5 with ⟨r1, _, hno⟩ | ⟨r1, r2, url, hf, hu, _, hw, hb⟩
      · exact absurd rfl (hno b)
      obtain ⟨hf2, hc⟩ := (hb b).mp rfl
      refine ⟨r1, _, by rw [hw, push2], fun n hn => ⟨b, ⟨r1, r2, url, hf, hu, hf2, hc, rfl⟩, ?_, ?_⟩⟩
      · intro hin
        rw [← hn, ← h6, if_pos ((mentions_iff b).mpr hin)]
      · intro hin
        rw [← hn, ← h6, if_neg (fun h => hin ((mentions_iff b).mp h))]
  rcases bind_inv h with ⟨y, h1, rfl⟩ | ⟨m, w2, h1, h2⟩
  · obtain ⟨rep, seg, a, _⟩ := key _ _ h1
    exact ⟨e, rep, seg, he, a, fun n h => by cases h⟩
  · injection h2 with h2 h3
    subst h3
    obtain ⟨rep, seg, a, b⟩ := key _ _ h1
    refine ⟨e, rep, seg, he, a, fun n hn => ?_⟩
    rw [← h2] at hn
    injection hn with hn
    injection hn with hn
    subst hn
    exact b _ rfl

theorem run_input {c : Cfg} {jwt x : Val} {k : ℕ} (ops : List Op) : ∀ {w : World}, w.jwt = some jwt →
    (∃ e j, w.exps[k]? = some e ∧ e.input = x ∧ e.job = some j) →
    ∃ e j, (run c ops w).exps[k]? = some e ∧ e.input = x ∧ e.job = some j := by
  induction ops with
  | nil => intro w _ h; exact h
  | cons op ops ih =>
    rintro w hj ⟨e, j, he, hi, hjob⟩
    obtain ⟨g, _, hx⟩ := exec_effect (w := w) (w' := (exec c op w).2) (r := (exec c op w).1) hj rfl
    obtain ⟨e', he', hi', ⟨j', hj'⟩, _⟩ := hx k e j he hjob
    exact ih g.1 ⟨e', j', he', by rw [hi', hi], hj'⟩

/-- The object given by a creation keeps the input the service told when registering the experiment,
for ever: if it told none (the input is only registered afterwards), a later request for the definition
asks for the input `None`. -/
theorem C97_created_definition (c : Cfg) (jwt : Val) (w w1 w3 : World) (payload : Except Err Bytes)
    (name device : String) (e : Exp) (s : JobStatus) (hj : w.jwt = some jwt)
    (h : exec c (.create payload name device) w = (.ok (.exps [e]), w1)) (hi : e.input = .null)
    (ops : List Op)
    (hs : exec c (.status w.exps.length) (run c ops w1) = (.ok (.status s), w3)) :
    ∃ (rep : Reply) (seg : List Sent),
      (exec c (.definition w.exps.length) (run c ops w1)).2.trace = w3.trace ++
        ⟨apiReq c jwt .GET "/inputs/None/file" none, rep⟩ :: seg := by
  obtain ⟨seg, -, -, hok⟩ := C97_create c jwt w w1 payload name device _ hj h
  obtain ⟨e', hee, hexps, r1, r2, r3, r4, url, data, v1, v4, e1, j, _, _, _, _, _, _, _, _, _, _, _, hjob⟩ :=
    hok _ rfl
  injection hee with hee
  injection hee with hee
  subst hee
  have hj1 : w1.jwt = some jwt := (exec_effect hj h).1.1
  have h1 : ∃ e j, w1.exps[w.exps.length]? = some e ∧ e.input = .null ∧ e.job = some j :=
    ⟨e, j, by rw [hexps]; simp, hi, by rw [hjob]⟩
  have hj2 : (run c ops w1).jwt = some jwt := (run_grows ops hj1).1
  obtain ⟨e2, j2, he2, hi2, hjob2⟩ := run_input ops (c := c) hj1 h1
  have hs' := exec_status hs
  obtain ⟨e3, he3, _, _, _, _, _, ht⟩ := status_touches hj2 hs' _ _ he2
  obtain ⟨hi3, ⟨j3, hj3⟩, _⟩ := ht j2 hjob2
  have hne : s ≠ .unknown := by
    rintro rfl
    obtain ⟨e4, he4, hcase⟩ := status_leaves hj2 hs'
    rw [he3] at he4
    injection he4 with he4
    subst he4
    rcases C97_status c jwt _ _ _ _ hj2 hs with ⟨_, h | h⟩ | ⟨p, _, _, ⟨id, _, t, _, hw⟩ | ⟨id, hreq, _⟩⟩
    · cases h
    · cases h
    · cases hw
    · rcases status_cases hj2 he2 hs' with ⟨_, h⟩ | ⟨hno, _⟩
      · rcases h with ⟨hno, _⟩ | ⟨j, hjb, hend, hr, _⟩ | ⟨j, _, _, rep, _, ⟨x, hx, _⟩ | ⟨v, n, _, _, hn, hr, _⟩⟩
        · rw [hjob2] at hno; cases hno
        · injection hr with hr
          simp [Job.ended, ← hr] at hend
        · cases hx
        · injection hr with hr
          obtain ⟨t, _, hw⟩ := hn.status
          rw [← hr] at hw
          cases hw
      · rw [hjob2] at hno; cases hno
  obtain ⟨e4, rep, seg, he4, ht4, _⟩ := C97_definition c jwt _ _ _ _ s _ hj2 hs hne rfl
  rw [he3] at he4
  injection he4 with he4
  subst he4
  rw [hi3, hi2] at ht4
  exact ⟨rep, seg, ht4⟩

/-! ### Credentials -/

theorem firstOf_or (a : Option String) (xs : List (Option String)) (s : String) :
    FirstOf (a :: xs) s ↔ a = some s ∨ (a = none ∧ FirstOf xs s) := by
  constructor
  · rintro ⟨pre, post, e, h⟩
    cases pre with
    | nil => simp at e; exact .inl e.1
    | cons p ps =>
      simp at e
      have := h p (by simp)
      exact .inr ⟨by rw [e.1, this], ps, post, e.2, fun x hx => h x (by simp [hx])⟩
  · rintro (rfl | ⟨rfl, pre, post, rfl, h⟩)
    · exact ⟨[], xs, rfl, by simp⟩
    · refine ⟨none :: pre, post, rfl, ?_⟩
      intro x hx
      rcases List.mem_cons.mp hx with rfl | hx
      · rfl
      · exact h x hx

theorem firstOf_nil (s : String) : ¬ FirstOf [] s := by
  rintro ⟨pre, post, e, _⟩
  simp at e

theorem given_iff (a : Option String) : given a = true ↔ ¬ (a = none ∨ a = some "") := by
  cases a <;> simp [given]

theorem chosen_iff (arg x : Option String) (xs : List (Option String)) (s : String)
    (hx : ∀ s, FirstOf xs s ↔ x = some s) :
    Chosen arg xs s ↔ given (orElse arg x) = true ∧ s = (orElse arg x).getD "" := by
  unfold Chosen orElse
  by_cases ha : given arg = true
  · rw [if_pos ha]
    have ha' := (given_iff arg).mp ha
    cases arg with
    | none => simp at ha'
    | some a =>
      constructor
      · rintro ⟨hs, h | ⟨h, _⟩⟩
        · injection h with h
          exact ⟨ha, by rw [h]; rfl⟩
        · exact absurd h ha'
      · rintro ⟨_, rfl⟩
        refine ⟨fun h => ha' (.inr ?_), .inl rfl⟩
        rw [← h]
  · rw [if_neg ha]
    have ha' : arg = none ∨ arg = some "" := by
      rw [given_iff] at ha
      push Not at ha
      tauto
    constructor
    · rintro ⟨hs, rfl | ⟨_, hf⟩⟩
      · rcases ha' with h | h
        · cases h
        · injection h with h; exact absurd h hs
      · rw [hx] at hf
        subst hf
        simp [given, hs]
    · rintro ⟨hg, rfl⟩
      cases x with
      | none => simp [given] at hg
      | some y =>
        refine ⟨by simpa [given] using hg, .inr ⟨ha', (hx _).mpr rfl⟩⟩

/-- The URL and the token a runner uses: the argument; without one, the file in the configuration
directory of the user, then the one in the working directory, then the standard URL; for the token, the
environment first. If one of them is empty no runner is created. -/
theorem C97_credentials (env : Env) (url token : Option String) (u t : String) :
    credentials env url token = .ok (u, t) ↔
      Chosen url [env.home.url, env.here.url,
        some "https://api-aihw-composer.draco.res.ibm.com"] u ∧
      Chosen token [env.envToken, env.home.token, env.here.token] t := by
  rw [chosen_iff url (some env.url), chosen_iff token env.token]
  · unfold credentials
    have keep : ∀ a b : Option String, given a = true → orElse a b = a := fun a b h => by
      simp only [orElse, h, if_true]
    by_cases hg : (!given url || !given token) = true
    · rw [if_pos hg]
      by_cases hg2 : (!given (orElse url (some env.url)) || !given (orElse token env.token)) = true
      · simp only [hg2, if_true]
        simp only [Bool.or_eq_true, Bool.not_eq_true'] at hg2
        constructor
        · intro h; cases h
        · rintro ⟨⟨a, _⟩, b, _⟩
          rcases hg2 with h | h
          · rw [h] at a; cases a
          · rw [h] at b; cases b
      · simp only [if_neg hg2]
        simp only [Bool.or_eq_true, Bool.not_eq_true', not_or, Bool.not_eq_false] at hg2
        constructor
        · intro h
          injection h with h
          injection h with h1 h2
          exact ⟨⟨hg2.1, h1.symm⟩, hg2.2, h2.symm⟩
        · rintro ⟨⟨_, rfl⟩, _, rfl⟩
          rfl
    · rw [if_neg hg]
      simp only [Bool.or_eq_true, Bool.not_eq_true', not_or, Bool.not_eq_false] at hg
      rw [keep _ _ hg.1, keep _ _ hg.2]
      constructor
      · intro h
        injection h with h
        injection h with h1 h2
        exact ⟨⟨hg.1, h1.symm⟩, hg.2, h2.symm⟩
      · rintro ⟨⟨_, rfl⟩, _, rfl⟩
        rfl
  · intro s
    rcases env with ⟨te, ⟨u1, t1⟩, ⟨u2, t2⟩⟩
    simp only [firstOf_or, firstOf_nil, Env.token, stored]
    cases te <;> cases t1 <;> cases t2 <;> simp
  · intro s
    rcases env with ⟨te, ⟨u1, t1⟩, ⟨u2, t2⟩⟩
    simp only [firstOf_or, firstOf_nil, Env.url, stored]
    cases u1 <;> cases u2 <;> simp

end Aihw.Client

/-
What the operations of the client do to the trace.
-/
import Verif.Client.Lemmas

namespace Aihw.Client

variable {α β : Type}

theorem lift_run (x : Except Err α) (w : World) : lift x w = (x, w) := rfl

/-- A request followed by parsing its result. -/
theorem asked_lift {c : Cfg} {req : Request} {m : M Val} {f : Val → Except Err α} {w w' : World}
    {r : Except Err α} (hm : ∀ (r1 : Except Err Val) (w1 : World), m w = (r1, w1) → Asked c req w w1 r1)
    (h : (m >>= fun v => lift (f v)) w = (r, w')) :
    w' = push w ⟨req, c.service w.trace req⟩ ∧
      ∀ x, r = .ok x ↔ Fine (c.service w.trace req) ∧
        ∃ v, (c.service w.trace req).json = some v ∧ f v = .ok x := by
  rcases bind_inv h with ⟨e, h1, rfl⟩ | ⟨a, w1, h1, h2⟩
  · obtain ⟨hw, hr⟩ := hm _ _ h1
    refine ⟨hw, fun x => ⟨fun h => (by cases h), ?_⟩⟩
    rintro ⟨hf, v, hv, _⟩
    exact absurd ((hr v).mpr ⟨hf, hv⟩) (by simp)
  · obtain ⟨hw, hr⟩ := hm _ _ h1
    injection h2 with h2 h3
    subst h3
    refine ⟨hw, fun x => ?_⟩
    obtain ⟨hf, hv⟩ := (hr a).mp rfl
    rw [← h2]
    constructor
    · intro hx
      exact ⟨hf, a, hv, hx⟩
    · rintro ⟨_, v, hv', hx⟩
      rw [hv] at hv'
      injection hv' with hv'
      rw [hv']
      exact hx

theorem experimentGet_inv {c : Cfg} {id jwt : Val} {w w' : World} {r : Except Err Exp}
    (hj : w.jwt = some jwt) (h : experimentGet c id w = (r, w')) :
    w' = push w ⟨apiReq c jwt .GET ("/experiments/" ++ c.text id) none,
        c.service w.trace (apiReq c jwt .GET ("/experiments/" ++ c.text id) none)⟩ ∧
      ∀ e, r = .ok e ↔
        Fine (c.service w.trace (apiReq c jwt .GET ("/experiments/" ++ c.text id) none)) ∧
        ∃ v, (c.service w.trace (apiReq c jwt .GET ("/experiments/" ++ c.text id) none)).json = some v ∧
          ExpOf c v e := by
  have hp : ("/experiments/" ++ c.text id : String) = "/" ++ Stub.experiments.getUrl (c.text id) := by
    simp only [Stub.getUrl, Stub.base, ← String.append_assoc]; rfl
  have := asked_lift (fun r1 w1 h1 => getStub_asked c .experiments id _ hj hp h1) h
  simpa only [parseExperiment_iff] using this

theorem jobGet_inv {c : Cfg} {id jwt : Val} {w w' : World} {r : Except Err Job}
    (hj : w.jwt = some jwt) (h : jobGet c id w = (r, w')) :
    w' = push w ⟨apiReq c jwt .GET ("/jobs/" ++ c.text id) none,
        c.service w.trace (apiReq c jwt .GET ("/jobs/" ++ c.text id) none)⟩ ∧
      ∀ j, r = .ok j ↔
        Fine (c.service w.trace (apiReq c jwt .GET ("/jobs/" ++ c.text id) none)) ∧
        ∃ v, (c.service w.trace (apiReq c jwt .GET ("/jobs/" ++ c.text id) none)).json = some v ∧
          JobOf v j := by
  have hp : ("/jobs/" ++ c.text id : String) = "/" ++ Stub.jobs.getUrl (c.text id) := by
    simp only [Stub.getUrl, Stub.base, ← String.append_assoc]; rfl
  have := asked_lift (fun r1 w1 h1 => getStub_asked c .jobs id _ hj hp h1) h
  simpa only [parseJob_iff] using this

theorem experimentsList_inv {c : Cfg} {jwt : Val} {w w' : World} {r : Except Err (List Exp)}
    (hj : w.jwt = some jwt) (h : experimentsList c w = (r, w')) :
    w' = push w ⟨apiReq c jwt .GET "/experiments/me" none,
        c.service w.trace (apiReq c jwt .GET "/experiments/me" none)⟩ ∧
      ∀ es, r = .ok es ↔
        Fine (c.service w.trace (apiReq c jwt .GET "/experiments/me" none)) ∧
        ∃ v, (c.service w.trace (apiReq c jwt .GET "/experiments/me" none)).json = some v ∧
          parseAll c v = .ok es := by
  have hp : ("/experiments/me" : String) = "/" ++ Stub.experiments.listUrl := by
    simp only [Stub.listUrl]; rfl
  exact asked_lift (fun r1 w1 h1 => listStub_asked c .experiments _ hj hp h1) h

theorem storageRequest_inv {c : Cfg} {m : Method} {url : String} {data : Option Bytes} {w w' : World}
    {r : Except Err Reply} (h : storageRequest c m url data w = (r, w')) :
    w' = push w ⟨storageReq m url data, c.service w.trace (storageReq m url data)⟩ ∧
      ∀ x, r = .ok x ↔ Fine (c.service w.trace (storageReq m url data)) ∧
        x = c.service w.trace (storageReq m url data) := by
  rw [storageRequest_eq] at h
  injection h with h1 h2
  exact ⟨h2.symm, fun x => by rw [← h1]; exact checked_ok⟩

/-- The two outcomes of a download. -/
theorem download_inv {c : Cfg} {s : Stub} {id jwt : Val} {path : String} {w w' : World}
    {r : Except Err Bytes} (hj : w.jwt = some jwt) (hp : path = "/" ++ s.getUrl (c.text id))
    (h : download c s id w = (r, w')) :
    (∃ r1 : Reply, w' = push w ⟨apiReq c jwt .GET path none, r1⟩ ∧ (∀ b, r ≠ .ok b)) ∨
    (∃ (r1 r2 : Reply) (url : String), Fine r1 ∧ Says r1 "url" (.str url) ∧
      r1 = c.service w.trace (apiReq c jwt .GET path none) ∧
      w' = push (push w ⟨apiReq c jwt .GET path none, r1⟩) ⟨storageReq .GET url none, r2⟩ ∧
      ∀ b, r = .ok b ↔ Fine r2 ∧ r2.content = b) := by
  rcases bind_inv h with ⟨e, h1, rfl⟩ | ⟨v, w1, h1, h2⟩
  · obtain ⟨hw, -⟩ := getStub_asked c s id path hj hp h1
    exact .inl ⟨_, hw, fun b hb => by cases hb⟩
  obtain ⟨hw, hr⟩ := getStub_asked c s id path hj hp h1
  obtain ⟨hf, hv⟩ := (hr v).mp rfl
  rcases bind_inv h2 with ⟨e, h3, rfl⟩ | ⟨u, w2, h3, h4⟩
  · injection h3 with _ h3
    exact .inl ⟨_, by rw [← h3, hw], fun b hb => by cases hb⟩
  injection h3 with h3 h3'
  subst h3'
  rcases bind_inv h4 with ⟨e, h5, rfl⟩ | ⟨url, w3, h5, h6⟩
  · injection h5 with _ h5
    exact .inl ⟨_, by rw [← h5, hw], fun b hb => by cases hb⟩
  injection h5 with h5 h5'
  subst h5'
  rw [asUrl_iff] at h5
  subst h5
  refine .inr ⟨_, c.service w1.trace (storageReq .GET url none), url, hf,
    (says_iff _ _ _).mpr ⟨v, hv, h3⟩, rfl, ?_⟩
  rcases bind_inv h6 with ⟨e, h7, rfl⟩ | ⟨x, w4, h7, h8⟩
  · obtain ⟨hs, hx⟩ := storageRequest_inv h7
    refine ⟨by rw [← hw]; exact hs, fun b => ⟨fun hb => (by cases hb), ?_⟩⟩
    rintro ⟨hfine, _⟩
    exact absurd ((hx _).mpr ⟨hfine, rfl⟩) (by simp)
  · obtain ⟨hs, hx⟩ := storageRequest_inv h7
    injection h8 with h8 h8'
    subst h8'
    obtain ⟨hfine, hxe⟩ := (hx x).mp rfl
    refine ⟨by rw [← hw]; exact hs, fun b => ?_⟩
    rw [← h8, hxe]
    simp [hfine]

theorem inputsPath (c : Cfg) (id : Val) :
    ("/inputs/" ++ c.text id ++ "/file" : String) = "/" ++ Stub.inputs.getUrl (c.text id) := by
  simp only [Stub.getUrl, ← String.append_assoc]; rfl

theorem outputsPath (c : Cfg) (id : Val) :
    ("/outputs/" ++ c.text id ++ "/file" : String) = "/" ++ Stub.outputs.getUrl (c.text id) := by
  simp only [Stub.getUrl, ← String.append_assoc]; rfl

theorem push_jwt (w : World) (s : Sent) : (push w s).jwt = w.jwt := rfl
theorem push_exps (w : World) (s : Sent) : (push w s).exps = w.exps := rfl
theorem push_trace (w : World) (s : Sent) : (push w s).trace = w.trace ++ [s] := rfl

theorem push2 (w : World) (a b : Sent) : push (push w a) b = { w with trace := w.trace ++ [a, b] } := by
  simp [push]

theorem push3 (w : World) (a b d : Sent) :
    push (push (push w a) b) d = { w with trace := w.trace ++ [a, b, d] } := by
  simp [push]

theorem push4 (w : World) (a b d e : Sent) :
    push (push (push (push w a) b) d) e = { w with trace := w.trace ++ [a, b, d, e] } := by
  simp [push]

/-- The outcomes of a creation, up to handing out the object. -/
theorem create_inv {c : Cfg} {payload : Except Err Bytes} {name device : String} {jwt : Val}
    {w w' : World} {r : Except Err Exp} (hj : w.jwt = some jwt)
    (h : experimentCreate c payload name device w = (r, w')) :
    ∃ seg, w' = { w with trace := w.trace ++ seg } ∧ Creation c jwt payload name device seg ∧
      ∀ e, r = .ok e → Created c jwt payload name device seg e := by
  have no : ∀ (x : Err) (e : Exp), (Except.error x : Except Err Exp) = .ok e →
      Created c jwt payload name device [] e := fun x e h => by cases h
  rcases bind_inv h with ⟨x, h1, rfl⟩ | ⟨data, w1, h1, h2⟩
  · injection h1 with _ h1
    exact ⟨[], by rw [← h1]; simp, .inl rfl, fun e h => by cases h⟩
  injection h1 with h1 h1'
  subst h1'
  have hp : ("/experiments" : String) = "/" ++ Stub.experiments.base := rfl
  have hcat : some (Val.dict [("name", .str name), ("category", .str c.category)]) =
      some (.dict [("name", .str name),
        ("category", .str (if c.inference then "inference" else "train"))]) := rfl
  rcases bind_inv h2 with ⟨x, h3, rfl⟩ | ⟨v1, w1, h3, h4⟩
  · obtain ⟨hw, -⟩ := postStub_asked c _ _ _ hj hp h3
    exact ⟨[_], by rw [hw]; rfl, .inr (.inl ⟨_, rfl⟩), fun e h => by cases h⟩
  obtain ⟨hw, hr⟩ := postStub_asked c _ _ _ hj hp h3
  obtain ⟨hf1, hv1⟩ := (hr v1).mp rfl
  clear hr
  have hj1 : w1.jwt = some jwt := by rw [hw]; exact hj
  generalize hr1 : c.service w.trace (apiReq c jwt .POST "/experiments"
    (some (Val.dict [("name", .str name), ("category", .str c.category)]))) = r1 at *
  rcases bind_inv h4 with ⟨x, h5, rfl⟩ | ⟨e1, w2, h5, h6⟩
  · injection h5 with _ h5
    exact ⟨[⟨expReq c jwt name, r1⟩], by rw [← h5, hw]; rfl, .inr (.inl ⟨_, rfl⟩), fun e h => by cases h⟩
  injection h5 with h5 h5'
  subst h5'
  have he1 := (parseExperiment_iff c v1 e1).mp h5
  have hs1 : Says r1 "id" e1.id := ⟨v1, hv1, he1.id⟩
  have hp2 : ("/inputs" : String) = "/" ++ Stub.inputs.base := rfl
  rcases bind_inv h6 with ⟨x, h7, rfl⟩ | ⟨v2, w2, h7, h8⟩
  · obtain ⟨hw2, -⟩ := postStub_asked c _ _ _ hj1 hp2 h7
    exact ⟨[⟨expReq c jwt name, r1⟩, ⟨inReq c jwt e1.id device, c.service w1.trace (inReq c jwt e1.id device)⟩],
      by rw [hw2]; nth_rw 1 [hw]; exact push2 _ _ _,
      .inr (.inr (.inl ⟨r1, _, e1.id, hf1, hs1, rfl⟩)), fun e h => by cases h⟩
  obtain ⟨hw2, hr⟩ := postStub_asked c _ _ _ hj1 hp2 h7
  obtain ⟨hf2, hv2⟩ := (hr v2).mp rfl
  clear hr
  have hj2 : w2.jwt = some jwt := by rw [hw2]; exact hj1
  generalize hr2 : c.service w1.trace (apiReq c jwt .POST "/inputs"
    (some (Val.dict [("experiment", e1.id), ("device", .str device)]))) = r2 at *
  have stop2 : ∃ seg, w2 = { w with trace := w.trace ++ seg } ∧ Creation c jwt payload name device seg :=
    ⟨[⟨expReq c jwt name, r1⟩, ⟨inReq c jwt e1.id device, r2⟩], by rw [hw2, hw]; exact push2 _ _ _,
      .inr (.inr (.inl ⟨r1, _, e1.id, hf1, hs1, rfl⟩))⟩
  rcases bind_inv h8 with ⟨x, h9, rfl⟩ | ⟨u, w3, h9, h10⟩
  · injection h9 with _ h9
    subst h9
    obtain ⟨seg, a, b⟩ := stop2
    exact ⟨seg, a, b, fun e h => by cases h⟩
  injection h9 with h9 h9'
  subst h9'
  rcases bind_inv h10 with ⟨x, h11, rfl⟩ | ⟨url, w3, h11, h12⟩
  · injection h11 with _ h11
    subst h11
    obtain ⟨seg, a, b⟩ := stop2
    exact ⟨seg, a, b, fun e h => by cases h⟩
  injection h11 with h11 h11'
  subst h11'
  rw [asUrl_iff] at h11
  subst h11
  have hs2 : Says r2 "url" (.str url) := (says_iff _ _ _).mpr ⟨v2, hv2, h9⟩
  rcases bind_inv h12 with ⟨x, h13, rfl⟩ | ⟨r3', w3, h13, h14⟩
  · obtain ⟨hw3, -⟩ := storageRequest_inv h13
    exact ⟨[⟨expReq c jwt name, r1⟩, ⟨inReq c jwt e1.id device, r2⟩, ⟨storageReq .PUT url (some data), c.service w2.trace (storageReq .PUT url (some data))⟩],
      by rw [hw3]; nth_rw 1 [hw2, hw]; exact push3 _ _ _ _,
      .inr (.inr (.inr (.inl ⟨r1, r2, _, e1.id, url, data, hf1, hs1, hf2, hs2, h1, rfl⟩))),
      fun e h => by cases h⟩
  obtain ⟨hw3, hr⟩ := storageRequest_inv h13
  obtain ⟨hf3, -⟩ := (hr r3').mp rfl
  clear hr
  have hj3 : w3.jwt = some jwt := by rw [hw3]; exact hj2
  generalize hr3 : c.service w2.trace (storageReq .PUT url (some data)) = r3 at *
  have hp4 : ("/jobs" : String) = "/" ++ Stub.jobs.base := rfl
  have full : ∀ r4, ∃ seg, push w3 ⟨jobReq c jwt e1.id device, r4⟩ = { w with trace := w.trace ++ seg } ∧
      Creation c jwt payload name device seg ∧
      seg = [⟨expReq c jwt name, r1⟩, ⟨inReq c jwt e1.id device, r2⟩,
        ⟨storageReq .PUT url (some data), r3⟩, ⟨jobReq c jwt e1.id device, r4⟩] := fun r4 =>
    ⟨_, by rw [hw3, hw2, hw]; exact push4 _ _ _ _ _,
      .inr (.inr (.inr (.inr ⟨r1, r2, r3, r4, e1.id, url, data, hf1, hs1, hf2, hs2, h1, hf3, rfl⟩))), rfl⟩
  rcases bind_inv h14 with ⟨x, h15, rfl⟩ | ⟨v4, w4, h15, h16⟩
  · obtain ⟨hw4, -⟩ := postStub_asked c _ _ _ hj3 hp4 h15
    obtain ⟨seg, a, b, -⟩ := full (c.service w3.trace (jobReq c jwt e1.id device))
    exact ⟨seg, by rw [hw4]; exact a, b, fun e h => by cases h⟩
  obtain ⟨hw4, hr⟩ := postStub_asked c _ _ _ hj3 hp4 h15
  obtain ⟨hf4, hv4⟩ := (hr v4).mp rfl
  clear hr
  obtain ⟨seg, a, b, hseg⟩ := full (c.service w3.trace (jobReq c jwt e1.id device))
  rcases bind_inv h16 with ⟨x, h17, rfl⟩ | ⟨j, w5, h17, h18⟩
  · injection h17 with _ h17
    subst h17
    exact ⟨seg, by rw [hw4]; exact a, b, fun e h => by cases h⟩
  injection h17 with h17 h17'
  subst h17'
  injection h18 with h18 h18'
  subst h18'
  refine ⟨seg, by rw [hw4]; exact a, b, fun e h => ?_⟩
  rw [← h18] at h
  injection h with h
  exact ⟨r1, r2, r3, _, url, data, v1, v4, e1, j, hf1, hv1, he1, hf2, hs2, h1, hf3, hf4, hv4,
    (parseJob_iff v4 j).mp h17, hseg, h.symm⟩

end Aihw.Client

/-
When the service answers as it should, the client succeeds.
-/
import Verif.Client.Props

namespace Aihw.Client

theorem postStub_run {c : Cfg} (s : Stub) (x v : Val) (path : String) {w : World} {jwt : Val}
    (hj : w.jwt = some jwt) (hp : path = "/" ++ s.base)
    (hf : Fine (c.service w.trace (apiReq c jwt .POST path (some x))))
    (hv : (c.service w.trace (apiReq c jwt .POST path (some x))).json = some v) :
    postStub c s x w = (.ok v, push w ⟨apiReq c jwt .POST path (some x),
      c.service w.trace (apiReq c jwt .POST path (some x))⟩) := by
  rw [postStub, request_eq c _ path _ _ hj hp, body_ok.mpr ⟨hf, hv⟩]

theorem getStub_run {c : Cfg} (s : Stub) (id v : Val) (path : String) {w : World} {jwt : Val}
    (hj : w.jwt = some jwt) (hp : path = "/" ++ s.getUrl (c.text id))
    (hf : Fine (c.service w.trace (apiReq c jwt .GET path none)))
    (hv : (c.service w.trace (apiReq c jwt .GET path none)).json = some v) :
    getStub c s id w = (.ok v, push w ⟨apiReq c jwt .GET path none,
      c.service w.trace (apiReq c jwt .GET path none)⟩) := by
  rw [getStub, request_eq c _ path _ _ hj hp, body_ok.mpr ⟨hf, hv⟩]

theorem storage_run {c : Cfg} {m : Method} {url : String} {data : Option Bytes} {w : World}
    (hf : Fine (c.service w.trace (storageReq m url data))) :
    storageRequest c m url data w = (.ok (c.service w.trace (storageReq m url data)),
      push w ⟨storageReq m url data, c.service w.trace (storageReq m url data)⟩) := by
  rw [storageRequest_eq, checked_ok.mpr ⟨hf, rfl⟩]

/-- If the service accepts the four requests of a creation and answers them with what is needed, the
creation succeeds, does exactly these requests and gives the experiment object. -/
theorem C97_create_succeeds (c : Cfg) (jwt : Val) (w : World) (payload : Except Err Bytes)
    (name device : String) (seg : List Sent) (e : Exp) (hj : w.jwt = some jwt)
    (h : Created c jwt payload name device seg e)
    (hrep : ∀ (i : ℕ) (s : Sent), seg[i]? = some s →
      s.reply = c.service (w.trace ++ seg.take i) s.req) :
    exec c (.create payload name device) w =
      (.ok (.exps [e]), { w with trace := w.trace ++ seg, exps := w.exps ++ [e] }) := by
  obtain ⟨r1, r2, r3, r4, url, data, v1, v4, e1, j, hf1, hv1, he1, hf2, ⟨v2, hv2, hu⟩, hpay, hf3, hf4, hv4,
    hjob, rfl, rfl⟩ := h
  have a1 := hrep 0 _ rfl
  have a2 := hrep 1 _ rfl
  have a3 := hrep 2 _ rfl
  have a4 := hrep 3 _ rfl
  simp only [List.take, List.append_nil] at a1 a2 a3 a4
  have p1 : postStub c .experiments (.dict [("name", .str name), ("category", .str c.category)]) w =
      (.ok v1, push w ⟨expReq c jwt name, r1⟩) := by
    have := postStub_run (c := c) .experiments
      (.dict [("name", .str name), ("category", .str c.category)]) v1 "/experiments" hj rfl
      (by rw [a1] at hf1; exact hf1) (by rw [a1] at hv1; exact hv1)
    rw [this, a1]
    rfl
  have p2 : postStub c .inputs (.dict [("experiment", e1.id), ("device", .str device)])
      (push w ⟨expReq c jwt name, r1⟩) =
      (.ok v2, push (push w ⟨expReq c jwt name, r1⟩) ⟨inReq c jwt e1.id device, r2⟩) := by
    have a2' : r2 = c.service (push w ⟨expReq c jwt name, r1⟩).trace
        (apiReq c jwt .POST "/inputs"
          (some (.dict [("experiment", e1.id), ("device", .str device)]))) := a2
    have := postStub_run (c := c) .inputs (.dict [("experiment", e1.id), ("device", .str device)]) v2
      "/inputs" (w := push w ⟨expReq c jwt name, r1⟩) (jwt := jwt) hj rfl
      (by rw [← a2']; exact hf2) (by rw [← a2']; exact hv2)
    rw [this, ← a2']
    rfl
  have p3 : storageRequest c .PUT url (some data)
      (push (push w ⟨expReq c jwt name, r1⟩) ⟨inReq c jwt e1.id device, r2⟩) =
      (.ok r3, push (push (push w ⟨expReq c jwt name, r1⟩) ⟨inReq c jwt e1.id device, r2⟩)
        ⟨storageReq .PUT url (some data), r3⟩) := by
    have a3' : r3 = c.service (push (push w ⟨expReq c jwt name, r1⟩)
        ⟨inReq c jwt e1.id device, r2⟩).trace (storageReq .PUT url (some data)) := by
      rw [push2]; exact a3
    rw [storage_run (by rw [← a3']; exact hf3), ← a3']
  have p4 : postStub c .jobs (.dict [("device", .str device), ("experiment", e1.id)])
      (push (push (push w ⟨expReq c jwt name, r1⟩) ⟨inReq c jwt e1.id device, r2⟩)
        ⟨storageReq .PUT url (some data), r3⟩) =
      (.ok v4, push (push (push (push w ⟨expReq c jwt name, r1⟩) ⟨inReq c jwt e1.id device, r2⟩)
        ⟨storageReq .PUT url (some data), r3⟩) ⟨jobReq c jwt e1.id device, r4⟩) := by
    have a4' : r4 = c.service (push (push (push w ⟨expReq c jwt name, r1⟩)
        ⟨inReq c jwt e1.id device, r2⟩) ⟨storageReq .PUT url (some data), r3⟩).trace
        (apiReq c jwt .POST "/jobs"
          (some (.dict [("device", .str device), ("experiment", e1.id)]))) := by
      rw [push3]; exact a4
    have := postStub_run (c := c) .jobs (.dict [("device", .str device), ("experiment", e1.id)]) v4
      "/jobs" (w := push (push (push w ⟨expReq c jwt name, r1⟩) ⟨inReq c jwt e1.id device, r2⟩)
        ⟨storageReq .PUT url (some data), r3⟩) (jwt := jwt) hj rfl
      (by rw [← a4']; exact hf4) (by rw [← a4']; exact hv4)
    rw [this, ← a4']
    rfl
  have he : parseExperiment c v1 = .ok e1 := (parseExperiment_iff c v1 e1).mpr he1
  have hurl : index v2 "url" = .ok (.str url) := (index_iff _ _ _).mpr hu
  have hjj : parseJob v4 = .ok j := (parseJob_iff v4 j).mpr hjob
  have hall : experimentCreate c payload name device w = (.ok { e1 with job := some j },
      push (push (push (push w ⟨expReq c jwt name, r1⟩) ⟨inReq c jwt e1.id device, r2⟩)
        ⟨storageReq .PUT url (some data), r3⟩) ⟨jobReq c jwt e1.id device, r4⟩) := by
    rw [experimentCreate, hpay, bind_run (lift_run _ _), bind_run p1, he, bind_run (lift_run _ _),
      bind_run p2, hurl, bind_run (lift_run _ _), asUrl, bind_run (lift_run _ _), bind_run p3,
      bind_run p4, hjj, bind_run (lift_run _ _)]
    rfl
  show (experimentCreate c payload name device >>= fun e => give [e]) w = _
  rw [bind_run hall, push4]
  rfl

/-- A job which has not ended is asked for, and its new state is what the object has and what the
user gets. -/
theorem C97_status_fresh (c : Cfg) (jwt : Val) (w : World) (k : ℕ) (e : Exp) (j n : Job) (v : Val)
    (hj : w.jwt = some jwt) (he : w.exps[k]? = some e) (hjob : e.job = some j)
    (hrun : j.status ≠ .failed ∧ (j.status ≠ .completed ∨ Blank j.output))
    (hf : Fine (c.service w.trace (apiReq c jwt .GET ("/jobs/" ++ c.text j.id) none)))
    (hv : (c.service w.trace (apiReq c jwt .GET ("/jobs/" ++ c.text j.id) none)).json = some v)
    (hn : JobOf v n) :
    ∃ w', exec c (.status k) w = (.ok (.status n.status), w') ∧
      w'.exps[k]? = some { e with job := some n } := by
  have hend : j.ended = false := by
    obtain ⟨h1, h2⟩ := hrun
    rw [blank_iff] at h2
    simp only [Job.ended, Bool.or_eq_false_iff, Bool.and_eq_false_iff, decide_eq_false_iff_not]
    exact ⟨h2, h1⟩
  rcases hs : status c k w with ⟨r, w'⟩
  rcases status_cases hj he hs with ⟨_, h⟩ | ⟨hno, _⟩
  · rcases h with ⟨hno, _⟩ | ⟨j', hj', hend', _⟩ | ⟨j', hj', _, rep, hrep, ⟨x, hx, hw⟩ | ⟨v', n', _, hv', hn', hr, hw⟩⟩
    · rw [hjob] at hno; cases hno
    · rw [hjob] at hj'
      injection hj' with hj'
      rw [← hj', hend] at hend'
      cases hend'
    · exfalso
      rw [hjob] at hj'
      injection hj' with hj'
      subst hj'
      have hr : readExp k w = (.ok e, w) := by simp only [readExp, he]
      have hp : populate c k w = (.ok (), w) := by
        rw [populate, bind_run hr]
        simp only [hjob]
        rfl
      have hg : jobGet c j.id w = (.ok n, push w ⟨apiReq c jwt .GET ("/jobs/" ++ c.text j.id) none,
          c.service w.trace (apiReq c jwt .GET ("/jobs/" ++ c.text j.id) none)⟩) := by
        rw [jobGet, bind_run (getStub_run .jobs j.id v _ hj (by
          simp only [Stub.getUrl, Stub.base, ← String.append_assoc]; rfl) hf hv), (parseJob_iff v n).mpr hn]
        rfl
      rw [status_eq, bind_run hp, look, bind_run hr] at hs
      simp only [hjob] at hs
      rw [if_neg (by rw [hend]; simp), refresh, bind_run hg] at hs
      rw [hx] at hs
      injection hs with hs
      cases hs
    · rw [hjob] at hj'
      injection hj' with hj'
      subst hj'
      rw [hrep, hv] at hv'
      injection hv' with hv'
      subst hv'
      have : n' = n := by
        have h1 := (parseJob_iff v n').mpr hn'
        rw [(parseJob_iff v n).mpr hn] at h1
        injection h1 with h1
        exact h1.symm
      subst this
      refine ⟨w', status_exec (by rw [hs, hr]), ?_⟩
      rw [hw]
      exact modify_get _ _ _ _ he
  · rw [hjob] at hno; cases hno

end Aihw.Client

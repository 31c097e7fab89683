/-
What the cloud client is expected to do, in terms of the exchanged messages.
-/
import Verif.Client.Model

namespace Aihw.Client

/-- The service accepted the request. -/
def Fine (r : Reply) : Prop := ¬ (400 ≤ r.status ∧ r.status < 600)

/-- A JSON object has the value `x` at the key `k`. -/
def Has (v : Val) (k : String) (x : Val) : Prop :=
  ∃ pre post, v = .dict (pre ++ (k, x) :: post) ∧ ∀ p ∈ pre, p.1 ≠ k

/-- A reply is a JSON object with the value `x` at the key `k`. -/
def Says (r : Reply) (k : String) (x : Val) : Prop := ∃ v, r.json = some v ∧ Has v k x

/-- The values which count as absent. -/
inductive Blank : Val → Prop where
  | null : Blank .null
  | off : Blank (.bool false)
  | zero : Blank (.num 0)
  | noText : Blank (.str "")
  | noItems : Blank (.list [])
  | noFields : Blank (.dict [])

/-- An object has something at `k`, namely `x`; or has nothing there and `x` is `None`. -/
def Optional (v : Val) (k : String) (x : Val) : Prop :=
  (Has v k x ∧ ¬ Blank x) ∨ ((∃ kvs, v = .dict kvs) ∧ (∀ y, Has v k y → Blank y) ∧ x = .null)

/-- The words of the service for the status of a job. -/
inductive StatusWord : String → JobStatus → Prop where
  | waiting : StatusWord "waiting" .waiting
  | validating : StatusWord "validating" .waiting
  | validated : StatusWord "validated" .waiting
  | running : StatusWord "running" .running
  | failed : StatusWord "failed" .failed
  | cancelled : StatusWord "cancelled" .failed
  | completed : StatusWord "completed" .completed

/-- The words of the service for the category of an experiment. -/
inductive CategoryWord : String → Category → Prop where
  | train : CategoryWord "train" .training
  | trainweb : CategoryWord "trainweb" .training
  | inference : CategoryWord "inference" .inference
  | inferenceweb : CategoryWord "inferenceweb" .inference

/-- The job object describes the job of a JSON object. -/
structure JobOf (v : Val) (j : Job) : Prop where
  id : Has v "id" j.id
  status : ∃ t, Has v "status" (.str t) ∧ StatusWord t j.status
  output : Optional v "output" j.output

/-- The experiment object describes the experiment of a JSON object. -/
structure ExpOf (c : Cfg) (v : Val) (e : Exp) : Prop where
  id : Has v "id" e.id
  name : Has v "name" e.name
  category : ∃ t, Has v "category" (.str t) ∧ CategoryWord t e.category
  created : ∃ d, Has v "createdAt" d ∧ c.date d = .ok e.created
  input : (∃ i, Has v "input" i ∧ ¬ Blank i ∧ Optional i "id" e.input) ∨
    ((∀ i, Has v "input" i → Blank i) ∧ e.input = .null)
  job : (∃ o j, Has v "job" o ∧ ¬ Blank o ∧ JobOf o j ∧ e.job = some j) ∨
    ((∀ o, Has v "job" o → Blank o) ∧ e.job = none)

/-! ### Requests -/

/-- The request of the login, the only one without authorization header on this session. -/
def loginReq (c : Cfg) : Request :=
  ⟨.api, .POST, c.url ++ "/token/login", none, some (.dict [("token", .str c.token)]), none⟩

/-- A request to the service, with the token received. -/
def apiReq (c : Cfg) (jwt : Val) (m : Method) (path : String) (json : Option Val) : Request :=
  ⟨.api, m, c.url ++ path, some ("Bearer " ++ c.text jwt), json, none⟩

/-- A request to the object storage: nothing but the address and the data. -/
def storageReq (m : Method) (url : String) (data : Option Bytes) : Request :=
  ⟨.storage, m, url, none, none, data⟩

/-- Registering an experiment. -/
def expReq (c : Cfg) (jwt : Val) (name : String) : Request :=
  apiReq c jwt .POST "/experiments"
    (some (.dict [("name", .str name),
      ("category", .str (if c.inference then "inference" else "train"))]))

/-- Registering the input of an experiment. -/
def inReq (c : Cfg) (jwt id : Val) (device : String) : Request :=
  apiReq c jwt .POST "/inputs" (some (.dict [("experiment", id), ("device", .str device)]))

/-- Starting the job of an experiment. -/
def jobReq (c : Cfg) (jwt id : Val) (device : String) : Request :=
  apiReq c jwt .POST "/jobs" (some (.dict [("device", .str device), ("experiment", id)]))

/-- What is exchanged while an experiment is created: the experiment, its input, the upload of the
payload to the address received for the input, the job; a step is only taken if all the ones before
were accepted. -/
def Creation (c : Cfg) (jwt : Val) (payload : Except Err Bytes) (name device : String)
    (seg : List Sent) : Prop :=
  seg = [] ∨
  (∃ r1 : Reply, seg = [⟨expReq c jwt name, r1⟩]) ∨
  (∃ (r1 r2 : Reply) (id : Val), Fine r1 ∧ Says r1 "id" id ∧
    seg = [⟨expReq c jwt name, r1⟩, ⟨inReq c jwt id device, r2⟩]) ∨
  (∃ (r1 r2 r3 : Reply) (id : Val) (url : String) (data : Bytes), Fine r1 ∧ Says r1 "id" id ∧
    Fine r2 ∧ Says r2 "url" (.str url) ∧ payload = .ok data ∧
    seg = [⟨expReq c jwt name, r1⟩, ⟨inReq c jwt id device, r2⟩,
      ⟨storageReq .PUT url (some data), r3⟩]) ∨
  (∃ (r1 r2 r3 r4 : Reply) (id : Val) (url : String) (data : Bytes), Fine r1 ∧ Says r1 "id" id ∧
    Fine r2 ∧ Says r2 "url" (.str url) ∧ payload = .ok data ∧ Fine r3 ∧
    seg = [⟨expReq c jwt name, r1⟩, ⟨inReq c jwt id device, r2⟩,
      ⟨storageReq .PUT url (some data), r3⟩, ⟨jobReq c jwt id device, r4⟩])

/-- The exchange of a successful creation, and the experiment object it gives. -/
def Created (c : Cfg) (jwt : Val) (payload : Except Err Bytes) (name device : String)
    (seg : List Sent) (e : Exp) : Prop :=
  ∃ (r1 r2 r3 r4 : Reply) (url : String) (data : Bytes) (v1 v4 : Val) (e1 : Exp) (j : Job),
    Fine r1 ∧ r1.json = some v1 ∧ ExpOf c v1 e1 ∧
    Fine r2 ∧ Says r2 "url" (.str url) ∧ payload = .ok data ∧ Fine r3 ∧
    Fine r4 ∧ r4.json = some v4 ∧ JobOf v4 j ∧
    seg = [⟨expReq c jwt name, r1⟩, ⟨inReq c jwt e1.id device, r2⟩,
      ⟨storageReq .PUT url (some data), r3⟩, ⟨jobReq c jwt e1.id device, r4⟩] ∧
    e = { e1 with job := some j }

/-- Downloading: asking the service for the address (`path`), then the storage. -/
def Download (c : Cfg) (jwt : Val) (path : String) (b : Bytes) (seg : List Sent) : Prop :=
  ∃ (r1 r2 : Reply) (url : String), Fine r1 ∧ Says r1 "url" (.str url) ∧ Fine r2 ∧ r2.content = b ∧
    seg = [⟨apiReq c jwt .GET path none, r1⟩, ⟨storageReq .GET url none, r2⟩]

/-- Every request of a history goes where it may and carries what it may: the first one is the login
and is the only one that is not of one of these two forms. A request to the service has the token
received at the login. A request to the storage has no token, and goes to the address in the accepted
reply directly before it, which is a reply of the service. -/
def Proper (c : Cfg) (jwt : Val) (tr : List Sent) : Prop :=
  (∃ r : Reply, Fine r ∧ Says r "jwt" jwt ∧ tr.head? = some ⟨loginReq c, r⟩) ∧
  ∀ (i : ℕ) (s : Sent), tr[i + 1]? = some s →
    (∃ (m : Method) (path : String) (json : Option Val),
      s.req = apiReq c jwt m ("/" ++ path) json) ∨
    (∃ (m : Method) (url : String) (data : Option Bytes) (p : Sent),
      s.req = storageReq m url data ∧ tr[i]? = some p ∧ p.req.via = .api ∧ Fine p.reply ∧
        Says p.reply "url" (.str url))

/-- The status a reply of the service tells for a job. -/
def Tells (r : Reply) (s : JobStatus) : Prop :=
  ∃ t, Says r "status" (.str t) ∧ StatusWord t s

/-- `s` is the first text which is there (it may be empty). -/
def FirstOf (xs : List (Option String)) (s : String) : Prop :=
  ∃ pre post, xs = pre ++ some s :: post ∧ ∀ x ∈ pre, x = none

/-- The argument if it is there and not empty, otherwise the first text which is there; the result is
not empty. -/
def Chosen (arg : Option String) (xs : List (Option String)) (s : String) : Prop :=
  s ≠ "" ∧ (arg = some s ∨ ((arg = none ∨ arg = some "") ∧ FirstOf xs s))

/-- The first experiment objects of the world, up to what the service says about them: their
identity is fixed, and nothing at all changes for those not in `ks`. -/
def SameHandles (ks : List ℕ) (w w' : World) : Prop :=
  ∀ (i : ℕ) (e : Exp), w.exps[i]? = some e → ∃ e', w'.exps[i]? = some e' ∧
    e'.id = e.id ∧ e'.name = e.name ∧ e'.category = e.category ∧ e'.created = e.created ∧
    (i ∉ ks → e' = e)

/-- The experiment objects an operation is applied to. -/
def Op.handles : Op → List ℕ
  | .status k => [k]
  | .result k => [k]
  | .definition k => [k]
  | _ => []

end Aihw.Client

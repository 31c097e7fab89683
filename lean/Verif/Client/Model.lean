/-
Model of the client of the AIHW Composer cloud service.

Sources (under `/repo/src/aihwkit`): `cloud/client/session.py` (the HTTP sessions),
`cloud/client/v1/stubs.py` (the end points), `cloud/client/v1/api_client.py` and
`cloud/client/v1/i_api_client.py` (the clients for training and for inference experiments, which only
differ in the converter and in the category), `cloud/client/v1/parsers.py` (parsing the responses),
`cloud/client/entities.py` (the experiment objects), `cloud/client/utils.py` and
`experiments/runners/cloud.py` (credentials and runner).

Simplifications. The service is an arbitrary function of everything exchanged so far, so it may answer
anything at any time. Of the `requests` library only what is sent and the status check
`raise_for_status` are modelled (no redirects, no retries, no `netrc`); connection errors are not
modelled. The conversion from and to protobuf is the subject of area `Cloud`; here the bytes to upload
and the parsing of downloaded bytes are arbitrary functions which may raise. Dates are parsed by an
arbitrary function which may raise.
-/
import Mathlib.Data.List.Infix

namespace Aihw.Client

/-- A value in a decoded JSON document. -/
inductive Val where
  | null
  | bool (b : Bool)
  | num (n : ℤ)
  | str (s : String)
  | list (xs : List Val)
  | dict (kvs : List (String × Val))

/-- The exceptions: `ApiResponseError`, `ResponseError`, `CredentialsError`,
`InvalidResponseFieldError` and `ExperimentStatusError` (`cloud/client/exceptions.py:14-56`), a
response which is not JSON, the errors of accesses to JSON values, and whatever a conversion raises. -/
inductive Err where
  | api (status : ℕ) (body : Option Val)
  | storage (status : ℕ)
  | credentials (message : Val)
  | field
  | status
  | json
  | key
  | type
  | attribute
  | convert (n : ℕ)

/-- The first entry of a key. -/
def lookup (k : String) : List (String × Val) → Option Val
  | [] => none
  | p :: ps => if p.1 = k then some p.2 else lookup k ps

/-- `v[k]` with a string `k`. -/
def index (v : Val) (k : String) : Except Err Val :=
  match v with
  | .dict kvs => match lookup k kvs with
    | some x => .ok x
    | none => .error .key
  | _ => .error .type

/-- `v.get(k)`. -/
def getOpt (v : Val) (k : String) : Except Err Val :=
  match v with
  | .dict kvs => .ok ((lookup k kvs).getD .null)
  | _ => .error .attribute

/-- The truth value of a JSON value. -/
def truthy : Val → Bool
  | .null => false
  | .bool b => b
  | .num n => n != 0
  | .str s => s != ""
  | .list xs => !xs.isEmpty
  | .dict kvs => !kvs.isEmpty

/-- `v in (…)` for a tuple of strings. -/
def oneOf (v : Val) (xs : List String) : Bool :=
  match v with
  | .str s => xs.contains s
  | _ => false

/-- Bytes. -/
abbrev Bytes := List ℕ

/-! ### Sessions -/

/-- Which session sends a request: `ApiSession` or `ObjectStorageSession`. -/
inductive Via where
  | api | storage
  deriving DecidableEq, Repr

/-- HTTP methods used. -/
inductive Method where
  | GET | POST | PUT
  deriving DecidableEq, Repr

/-- What is sent: the URL, the header `Authorization`, the JSON body and the raw body. -/
structure Request where
  via : Via
  method : Method
  url : String
  auth : Option String
  json : Option Val
  data : Option Bytes

/-- What comes back: the status code, the body as JSON if it is JSON, and the raw body. -/
structure Reply where
  status : ℕ
  json : Option Val
  content : Bytes

/-- A request and its reply. -/
structure Sent where
  req : Request
  reply : Reply

/-- The status of a job (`cloud/client/entities.py:38-46`). -/
inductive JobStatus where
  | unknown | waiting | running | completed | failed
  deriving DecidableEq, Repr

/-- The category of an experiment (`cloud/client/entities.py:48-53`). -/
inductive Category where
  | training | inference
  deriving DecidableEq, Repr

/-- `CloudJob` (`cloud/client/entities.py:55-62`). -/
structure Job where
  id : Val
  output : Val
  status : JobStatus

/-- `CloudExperiment` (`cloud/client/entities.py:64-75`); the reference to the client is left out. -/
structure Exp where
  id : Val
  name : Val
  category : Category
  created : ℤ
  input : Val
  job : Option Job

/-- The settings of a client and its surroundings: URL and token of the session, whether it is the
client for inference experiments, the service, `str()` of JSON values which are no strings, the parsing
of dates, and the four conversions of downloaded bytes (input and output of training and inference
experiments). -/
structure Cfg where
  url : String
  token : String
  inference : Bool
  service : List Sent → Request → Reply
  str : Val → String
  date : Val → Except Err ℤ
  readTraining : Bytes → Except Err ℕ
  readInference : Bytes → Except Err ℕ
  epochs : Bytes → Except Err ℕ
  results : Bytes → Except Err ℕ

/-- `"{}".format(v)`: a string is itself, `None` is `None`. -/
def Cfg.text (c : Cfg) : Val → String
  | .str s => s
  | .null => "None"
  | v => c.str v

/-- The state: the token in the headers of the API session, everything exchanged so far, and the
experiment objects handed out. -/
structure World where
  jwt : Option Val
  trace : List Sent
  exps : List Exp

/-- A computation which may raise; what it did before raising stays. -/
def M (α : Type) : Type := World → Except Err α × World

/-- Sequencing. -/
def M.bind {α β : Type} (m : M α) (f : α → M β) : M β := fun w =>
  match m w with
  | (.ok a, w') => f a w'
  | (.error e, w') => (.error e, w')

instance : Monad M where
  pure a := fun w => (.ok a, w)
  bind := M.bind

/-- Raising or returning. -/
def lift {α : Type} (r : Except Err α) : M α := fun w => (r, w)

/-- Sending a request (`requests.Session.request`). -/
def send (c : Cfg) (req : Request) : M Reply := fun w =>
  (.ok (c.service w.trace req), { w with trace := w.trace ++ [⟨req, c.service w.trace req⟩] })

/-- `raise_for_status` raises for these status codes. -/
def bad (r : Reply) : Bool := decide (400 ≤ r.status) && decide (r.status < 600)

/-- The headers of the API session (`cloud/client/session.py:78-81`). -/
def authHeader (c : Cfg) (w : World) : Option String := w.jwt.map fun v => "Bearer " ++ c.text v

/-- Sending with the current headers of the API session. -/
def sendApi (c : Cfg) (m : Method) (url : String) (json : Option Val) : M Reply := fun w =>
  send c ⟨.api, m, c.url ++ "/" ++ url, authHeader c w, json, none⟩ w

/-- `ApiSession.request` (`cloud/client/session.py:83-110`). -/
def apiRequest (c : Cfg) (m : Method) (url : String) (json : Option Val) : M Reply := do
  let r ← sendApi c m url json
  lift (if bad r then .error (.api r.status r.json) else .ok r)

/-- `ObjectStorageSession.request` (`cloud/client/session.py:22-50`). -/
def storageRequest (c : Cfg) (m : Method) (url : String) (data : Option Bytes) : M Reply := do
  let r ← send c ⟨.storage, m, url, none, none, data⟩
  lift (if bad r then .error (.storage r.status) else .ok r)

/-! ### Stubs -/

/-- `Response.json()`. -/
def asJson (r : Reply) : Except Err Val :=
  match r.json with
  | some v => .ok v
  | none => .error .json

/-- The entities with end points (`cloud/client/v1/stubs.py:98-164`). -/
inductive Stub where
  | experiments | inputs | outputs | jobs | login
  deriving DecidableEq, Repr

/-- `base_url` (`cloud/client/v1/stubs.py:101`, `:120`, `:139`, `:158`, `:164`). -/
def Stub.base : Stub → String
  | .experiments => "experiments"
  | .inputs => "inputs"
  | .outputs => "outputs"
  | .jobs => "jobs"
  | .login => "token/login"

/-- The URL of the listing (`cloud/client/v1/stubs.py:54`, `:112`). -/
def Stub.listUrl : Stub → String
  | .experiments => "experiments/me"
  | s => s.base

/-- The URL of one entity (`cloud/client/v1/stubs.py:55`, `:131`, `:150`). -/
def Stub.getUrl (s : Stub) (id : String) : String :=
  match s with
  | .inputs => "inputs/" ++ id ++ "/file"
  | .outputs => "outputs/" ++ id ++ "/file"
  | s => s.base ++ "/" ++ id

/-- `ApiStub.list` (`cloud/client/v1/stubs.py:59-67`). -/
def listStub (c : Cfg) (s : Stub) : M Val := do
  let r ← apiRequest c .GET s.listUrl none
  lift (asJson r)

/-- `ApiStub.get` (`cloud/client/v1/stubs.py:69-82`). -/
def getStub (c : Cfg) (s : Stub) (id : Val) : M Val := do
  let r ← apiRequest c .GET (s.getUrl (c.text id)) none
  lift (asJson r)

/-- `ApiStub.post` (`cloud/client/v1/stubs.py:84-95`). -/
def postStub (c : Cfg) (s : Stub) (content : Val) : M Val := do
  let r ← apiRequest c .POST s.base (some content)
  lift (asJson r)

/-! ### Parsing -/

/-- `parse_experiment_status` (`cloud/client/v1/parsers.py:81-105`). -/
def parseStatus (v : Val) : Except Err JobStatus := do
  let s ← index v "status"
  if oneOf s ["waiting", "validating", "validated"] then .ok .waiting
  else if oneOf s ["running"] then .ok .running
  else if oneOf s ["failed", "cancelled"] then .ok .failed
  else if oneOf s ["completed"] then .ok .completed
  else .error .field

/-- `parse_experiment_category` (`cloud/client/v1/parsers.py:108-129`). -/
def parseCategory (v : Val) : Except Err Category := do
  let s ← index v "category"
  if oneOf s ["train", "trainweb"] then .ok .training
  else if oneOf s ["inference", "inferenceweb"] then .ok .inference
  else .error .field

/-- `parse_job` (`cloud/client/v1/parsers.py:59-78`). -/
def parseJob (v : Val) : Except Err Job := do
  let id ← index v "id"
  let s ← parseStatus v
  let o ← getOpt v "output"
  .ok ⟨id, if truthy o then o else .null, s⟩

/-- The identifier of the input in `parse_experiment` (`cloud/client/v1/parsers.py:49-51`). -/
def parseInput (v : Val) : Except Err Val := do
  let i ← getOpt v "input"
  if truthy i then do
    let x ← getOpt i "id"
    .ok (if truthy x then x else .null)
  else .ok .null

/-- The job in `parse_experiment` (`cloud/client/v1/parsers.py:53-54`). -/
def parseJobOf (v : Val) : Except Err (Option Job) := do
  let j ← getOpt v "job"
  if truthy j then do
    let x ← parseJob j
    .ok (some x)
  else .ok none

/-- `parse_experiment` (`cloud/client/v1/parsers.py:25-56`). -/
def parseExperiment (c : Cfg) (v : Val) : Except Err Exp := do
  let id ← index v "id"
  let name ← index v "name"
  let category ← parseCategory v
  let d ← index v "createdAt"
  let created ← c.date d
  let input ← parseInput v
  let job ← parseJobOf v
  .ok ⟨id, name, category, created, input, job⟩

/-! ### The client -/

/-- What `login` makes of an error (`cloud/client/v1/api_client.py:60-73`). -/
def loginError : Err → Err
  | .api 400 none => .credentials (.str "unknown")
  | .api 400 (some (.dict kvs)) => .credentials ((lookup "message" kvs).getD (.str "unknown"))
  | .api 400 (some _) => .attribute
  | e => e

/-- Replacing the exception of a computation. -/
def mapErr {α : Type} (f : Err → Err) (m : M α) : M α := fun w =>
  match m w with
  | (.ok a, w') => (.ok a, w')
  | (.error e, w') => (.error (f e), w')

/-- `update_jwt_token` (`cloud/client/session.py:78-81`). -/
def setJwt (v : Val) : M Unit := fun w => (.ok (), { w with jwt := some v })

/-- `login` (`cloud/client/v1/api_client.py:53-76`). -/
def login (c : Cfg) : M Unit := do
  let v ← mapErr loginError (postStub c .login (.dict [("token", .str c.token)]))
  let jwt ← lift (index v "jwt")
  setJwt jwt

/-- Creating a client: a new session without token, then `login`
(`cloud/client/session.py:65-76`, `cloud/client/v1/api_client.py:31-51`). -/
def connect (c : Cfg) : Except Err Unit × World := login c ⟨none, [], []⟩

/-- Iterating over a JSON value and parsing each element; only a list is supported here (a string or
a dictionary would fail at its first element, or be empty). -/
def parseAll (c : Cfg) (v : Val) : Except Err (List Exp) :=
  match v with
  | .list xs => xs.mapM (parseExperiment c)
  | _ => .error .type

/-- `experiments_list` (`cloud/client/v1/api_client.py:78-82`). -/
def experimentsList (c : Cfg) : M (List Exp) := do
  let v ← listStub c .experiments
  lift (parseAll c v)

/-- `experiment_get` (`cloud/client/v1/api_client.py:121-132`). -/
def experimentGet (c : Cfg) (id : Val) : M Exp := do
  let v ← getStub c .experiments id
  lift (parseExperiment c v)

/-- `job_get` (`cloud/client/v1/api_client.py:134-145`). -/
def jobGet (c : Cfg) (id : Val) : M Job := do
  let v ← getStub c .jobs id
  lift (parseJob v)

/-- A URL is a string. -/
def asUrl : Val → Except Err String
  | .str s => .ok s
  | _ => .error .type

/-- `input_get` and `output_get` (`cloud/client/v1/api_client.py:147-177`). -/
def download (c : Cfg) (s : Stub) (id : Val) : M Bytes := do
  let v ← getStub c s id
  let u ← lift (index v "url")
  let url ← lift (asUrl u)
  let r ← storageRequest c .GET url none
  lift (.ok r.content)

/-- The category sent (`cloud/client/v1/api_client.py:103`, `cloud/client/v1/i_api_client.py:111`). -/
def Cfg.category (c : Cfg) : String := if c.inference then "inference" else "train"

/-- `experiment_create` (`cloud/client/v1/api_client.py:84-119`,
`cloud/client/v1/i_api_client.py:84-127`). `payload` is the result of the conversion. -/
def experimentCreate (c : Cfg) (payload : Except Err Bytes) (name device : String) : M Exp := do
  let data ← lift payload
  let v ← postStub c .experiments (.dict [("name", .str name), ("category", .str c.category)])
  let e ← lift (parseExperiment c v)
  let v2 ← postStub c .inputs (.dict [("experiment", e.id), ("device", .str device)])
  let u ← lift (index v2 "url")
  let url ← lift (asUrl u)
  let _ ← storageRequest c .PUT url (some data)
  let v3 ← postStub c .jobs (.dict [("device", .str device), ("experiment", e.id)])
  let j ← lift (parseJob v3)
  lift (.ok { e with job := some j })

/-! ### Experiment objects -/

/-- Reading an experiment object. -/
def readExp (k : ℕ) : M Exp := fun w =>
  match w.exps[k]? with
  | some e => (.ok e, w)
  | none => (.error .key, w)

/-- Assigning to attributes of an experiment object. -/
def writeExp (k : ℕ) (f : Exp → Exp) : M Unit := fun w =>
  (.ok (), { w with exps := w.exps.modify k f })

/-- The new experiment object of `status` (`cloud/client/entities.py:135-139`). -/
def populate (c : Cfg) (k : ℕ) : M Unit := do
  let e ← readExp k
  match e.job with
  | some _ => lift (.ok ())
  | none => do
    let t ← experimentGet c e.id
    writeExp k fun e => { e with input := t.input, job := t.job }

/-- Refreshing the job (`cloud/client/entities.py:151-153`). -/
def refresh (c : Cfg) (k : ℕ) (j : Job) : M JobStatus := do
  let n ← jobGet c j.id
  writeExp k fun e => { e with job := some n }
  lift (.ok n.status)

/-- The end states (`cloud/client/entities.py:145-149`). -/
def Job.ended (j : Job) : Bool :=
  (decide (j.status = .completed) && truthy j.output) || decide (j.status = .failed)

/-- `CloudExperiment.status` (`cloud/client/entities.py:133-153`). -/
def status (c : Cfg) (k : ℕ) : M JobStatus := do
  populate c k
  let e ← readExp k
  match e.job with
  | none => lift (.ok .unknown)
  | some j => if j.ended then lift (.ok j.status) else refresh c k j

/-- `"InferenceRPUConfig" in str(input_)` for bytes (`cloud/client/entities.py:90`): all these
characters are printed as they are and occur in no escape sequence, so it is the test whether the bytes
occur. -/
def mentionsInference (b : Bytes) : Bool :=
  decide (("InferenceRPUConfig".toList.map Char.toNat) <:+: b)

/-- `CloudExperiment.get_experiment` (`cloud/client/entities.py:76-99`). -/
def getExperiment (c : Cfg) (k : ℕ) : M ℕ := do
  let s ← status c k
  if s = .unknown then lift (.error .status)
  else do
    let e ← readExp k
    let b ← download c .inputs e.input
    lift (if mentionsInference b then c.readInference b else c.readTraining b)

/-- The output of the job: `self.job.output_id`. -/
def outputId (e : Exp) : Except Err Val :=
  match e.job with
  | some j => .ok j.output
  | none => .error .attribute

/-- `CloudExperiment.get_result` (`cloud/client/entities.py:101-131`). -/
def getResult (c : Cfg) (k : ℕ) : M ℕ := do
  let s ← status c k
  if s ≠ .completed then lift (.error .status)
  else do
    let e ← readExp k
    let o ← lift (outputId e)
    let b ← download c .outputs o
    lift (match e.category with
      | .training => c.epochs b
      | .inference => c.results b)

/-! ### Histories -/

/-- What a user can do with a client: list the experiments, get one, run one, and ask an experiment
object (the `k`-th handed out) for its status, its result or its definition. -/
inductive Op where
  | list
  | get (id : Val)
  | create (payload : Except Err Bytes) (name device : String)
  | status (k : ℕ)
  | result (k : ℕ)
  | definition (k : ℕ)

/-- What the user gets. -/
inductive Out where
  | exps (es : List Exp)
  | status (s : JobStatus)
  | object (n : ℕ)

/-- Handing out experiment objects. -/
def give (es : List Exp) : M Out := fun w => (.ok (.exps es), { w with exps := w.exps ++ es })

/-- One operation (`experiments/runners/cloud.py:63-111` for the first three). -/
def exec (c : Cfg) : Op → M Out
  | .list => do
    let es ← experimentsList c
    give es
  | .get id => do
    let e ← experimentGet c id
    give [e]
  | .create payload name device => do
    let e ← experimentCreate c payload name device
    give [e]
  | .status k => do
    let s ← status c k
    lift (.ok (.status s))
  | .result k => do
    let n ← getResult c k
    lift (.ok (.object n))
  | .definition k => do
    let n ← getExperiment c k
    lift (.ok (.object n))

/-- A history: the exceptions are caught by the user. -/
def run (c : Cfg) : List Op → World → World
  | [], w => w
  | op :: ops, w => run c ops (exec c op w).2

/-! ### Credentials -/

/-- What a configuration file says about the service: section `cloud`, keys `api_url` and
`api_token`. -/
structure Conf where
  url : Option String
  token : Option String

/-- The surroundings of a runner: the environment variable `AIHW_API_TOKEN`, the file `aihwkit.conf`
in the working directory and the one in the configuration directory of the user. -/
structure Env where
  envToken : Option String
  here : Conf
  home : Conf

/-- `ConfigParser.read` of the two files, the later one overriding the earlier one
(`cloud/client/utils.py:40-61`). -/
def stored (e : Env) : Conf :=
  ⟨e.home.url.or e.here.url, e.home.token.or e.here.token⟩

/-- `ClientConfiguration.token` (`cloud/client/utils.py:63-66`). -/
def Env.token (e : Env) : Option String := e.envToken.or (stored e).token

/-- `ClientConfiguration.url` (`cloud/client/utils.py:68-71`, `:13`). -/
def Env.url (e : Env) : String :=
  (stored e).url.getD "https://api-aihw-composer.draco.res.ibm.com"

/-- Truth value of an optional string. -/
def given (s : Option String) : Bool := s.getD "" != ""

/-- `a or b` for optional strings. -/
def orElse (a b : Option String) : Option String := if given a then a else b

/-- The credentials of a runner (`experiments/runners/cloud.py:47-57`). -/
def credentials (env : Env) (url token : Option String) : Except Err (String × String) :=
  if !given url || !given token then
    let u := orElse url (some env.url)
    let t := orElse token env.token
    if !given u || !given t then .error (.credentials (.str "No credentials could be found"))
    else .ok (u.getD "", t.getD "")
  else .ok (url.getD "", token.getD "")

end Aihw.Client

/-
A concrete service, and histories of clients with it.
-/
import Verif.Client.Works

namespace Aihw.Client.Examples

open Aihw.Client

/-- A service: it knows one user and one experiment, whose job runs until it has been asked for three
times. -/
def service (tr : List Sent) (r : Request) : Reply :=
  let job (status : String) (out : Val) : Val :=
    .dict [("id", .str "j1"), ("status", .str status), ("output", out)]
  match r.via, r.method, r.url with
  | .api, .POST, "http://x/token/login" => ⟨200, some (.dict [("jwt", .str "T")]), []⟩
  | .api, .POST, "http://x/experiments" =>
    ⟨201, some (.dict [("id", .str "e1"), ("name", .str "n"), ("category", .str "train"),
      ("createdAt", .str "d")]), []⟩
  | .api, .GET, "http://x/experiments/e1" =>
    ⟨200, some (.dict [("id", .str "e1"), ("name", .str "n"), ("category", .str "train"),
      ("createdAt", .str "d"), ("input", .dict [("id", .str "i1")]), ("job", job "running" .null)]), []⟩
  | .api, .POST, "http://x/inputs" => ⟨200, some (.dict [("url", .str "http://s/up")]), []⟩
  | .storage, .PUT, "http://s/up" => ⟨200, none, []⟩
  | .api, .POST, "http://x/jobs" => ⟨200, some (job "waiting" .null), []⟩
  | .api, .GET, "http://x/jobs/j1" =>
    if tr.length < 8 then ⟨200, some (job "running" .null), []⟩
    else ⟨200, some (job "completed" (.str "o1")), []⟩
  | .api, .GET, "http://x/outputs/o1/file" => ⟨200, some (.dict [("url", .str "http://s/out")]), []⟩
  | .storage, .GET, "http://s/out" => ⟨200, none, [7]⟩
  | _, _, _ => ⟨404, none, []⟩

/-- The client for training experiments of the user. -/
def cfg : Cfg where
  url := "http://x"
  token := "secret"
  inference := false
  service := service
  str := fun _ => ""
  date := fun _ => .ok 5
  readTraining := fun b => .ok b.length
  readInference := fun b => .ok b.length
  epochs := fun b => .ok b.sum
  results := fun _ => .ok 0

/-- After the login. -/
def w0 : World := (connect cfg).2

example : connect cfg = (.ok (), w0) := rfl

/-- The statuses the user gets, one after the other. -/
def statusOf (r : Except Err Out) : Option JobStatus :=
  match r with
  | .ok (.status s) => some s
  | _ => none

/-- The number the user gets. -/
def objectOf (r : Except Err Out) : Option ℕ :=
  match r with
  | .ok (.object n) => some n
  | _ => none

/-- A run: created, asked three times for the status (the job completes), then for the result. -/
def w1 : World := (exec cfg (.create (.ok [1, 2, 3]) "n" "gpu") w0).2
def w2 : World := (exec cfg (.status 0) w1).2
def w3 : World := (exec cfg (.status 0) w2).2
def w4 : World := (exec cfg (.status 0) w3).2
def w5 : World := (exec cfg (.status 0) w4).2

example : w1.trace.length = 5 ∧ w1.exps.length = 1 := ⟨rfl, rfl⟩
example : statusOf (exec cfg (.status 0) w1).1 = some .running := rfl
example : statusOf (exec cfg (.status 0) w3).1 = some .running := rfl
example : statusOf (exec cfg (.status 0) w4).1 = some .completed := rfl
example : w5.trace.length = 9 := rfl
/- No further question once completed. -/
example : statusOf (exec cfg (.status 0) w5).1 = some .completed ∧
    (exec cfg (.status 0) w5).2.trace.length = 9 := ⟨rfl, rfl⟩
example : objectOf (exec cfg (.result 0) w5).1 = some 7 := rfl
/- The result before the completion is refused. -/
example : objectOf (exec cfg (.result 0) w1).1 = none ∧
    (exec cfg (.result 0) w1).2.trace.length = 6 := ⟨rfl, rfl⟩
/- The definition of a created experiment is asked for at the input `None`, which fails; the same
experiment got from the service has its input. -/
example : ((exec cfg (.definition 0) w1).2.trace.map fun s => s.req.url).getLast? =
    some "http://x/inputs/None/file" := rfl
example : ((run cfg [.get (.str "e1"), .definition 1] w1).trace.map fun s => s.req.url).getLast? =
    some "http://x/inputs/i1/file" := rfl
/- A completed status has an output, as the theorem about it requires. -/
example : ∃ e j, w5.exps[0]? = some e ∧ e.job = some j ∧ j.output = .str "o1" := ⟨_, _, rfl, rfl, rfl⟩
/- The upload carries no token. -/
example : (w1.trace.map fun s => (s.req.url, s.req.auth)) =
    [("http://x/token/login", none), ("http://x/experiments", some "Bearer T"),
     ("http://x/inputs", some "Bearer T"), ("http://s/up", none), ("http://x/jobs", some "Bearer T")] := rfl

/-- A service refusing the upload: no job is started. -/
def refusing : Cfg := { cfg with service := fun tr r =>
  if r.via = .storage then ⟨403, none, []⟩ else service tr r }

example : ((exec refusing (.create (.ok [1]) "n" "gpu") (connect refusing).2).2.trace.map fun s =>
    s.req.url) = ["http://x/token/login", "http://x/experiments", "http://x/inputs", "http://s/up"] := rfl

/- A service that refuses the token, in its own words. -/
example : (connect { cfg with service := fun _ _ => ⟨400, some (.dict [("message", .str "no")]), []⟩ }).1 =
    .error (.credentials (.str "no")) := rfl

/- Credentials: the environment wins over the files, but an empty variable hides the files. -/
def credOf (r : Except Err (String × String)) : Option (String × String) :=
  match r with
  | .ok p => some p
  | .error _ => none

example : credOf (credentials ⟨some "t", ⟨none, some "h"⟩, ⟨some "u", none⟩⟩ none none) =
    some ("u", "t") := by decide +kernel
example : credOf (credentials ⟨some "", ⟨none, some "h"⟩, ⟨some "u", none⟩⟩ none none) = none := by
  decide +kernel
example : credOf (credentials ⟨none, ⟨none, some "h"⟩, ⟨none, some "w"⟩⟩ (some "") none) =
    some ("https://api-aihw-composer.draco.res.ibm.com", "w") := by decide +kernel

end Aihw.Client.Examples

import Verif.Exper.Template

/-!
# C85: specification and proofs
-/
namespace Aihw.Exper
open Aihw Aihw.Legacy
variable {C M : Type}

/-- A local file: the identifier starts with a dot or a slash. -/
def LocalId (tid : Str) : Prop := ∃ r, tid = '.' :: r ∨ tid = '/' :: r

/-- An address. -/
def HttpId (tid : Str) : Prop := ∃ r, tid = 'h' :: 't' :: 't' :: 'p' :: r

/-- Loading the content `c` into a model and remapping gives `r`: the checkpoint is converted (C78), loaded,
and the weights are remapped if asked. -/
def LoadsTo (o : Ops C M) (remap : Bool) (m : M) (c : C) (r : M) : Prop :=
  ∃ chk out cfg v m', o.parse c = .ok chk ∧ convert chk (some (o.view m)) = (.ok (out, cfg), some v) ∧
    o.load (o.setView m v) out = .ok m' ∧ r = if remap then o.remap m' else m'

theorem local_iff (tid : Str) : (tid.take 1 = ".".toList ∨ tid.take 1 = "/".toList) ↔ LocalId tid := by
  cases tid with
  | nil => simp [LocalId]
  | cons a t =>
    simp only [List.take_succ_cons, List.take_zero, LocalId, List.cons.injEq]
    constructor
    · rintro (h | h)
      · exact ⟨t, Or.inl ⟨by simpa using h, rfl⟩⟩
      · exact ⟨t, Or.inr ⟨by simpa using h, rfl⟩⟩
    · rintro ⟨r, ⟨rfl, _⟩ | ⟨rfl, _⟩⟩
      · left; rfl
      · right; rfl

theorem http_iff (tid : Str) : "http".toList.isPrefixOf tid = true ↔ HttpId tid := by
  rw [List.isPrefixOf_iff_prefix]
  constructor
  · rintro ⟨r, h⟩; exact ⟨r, h.symm⟩
  · rintro ⟨r, h⟩; exact ⟨r, h.symm⟩

theorem loadFile_iff (o : Ops C M) (remap : Bool) (w : World C) (m : M) (p : Str) (c : C)
    (h : w.files p = some c) (r : M) : fromPath o remap w m p = .ok r ↔ LoadsTo o remap m c r := by
  unfold fromPath LoadsTo
  rw [h]
  simp only [loadFile, bind, Except.bind]
  cases hp : o.parse c with
  | error e => simp [Except.map]
  | ok chk =>
    simp only
    obtain ⟨v, hv⟩ : ∃ v, (convert chk (some (o.view m))).2 = some v := by
      obtain ⟨m', h, _⟩ := C78_model_limits chk (o.view m)
      exact ⟨m', h⟩
    cases hc : (convert chk (some (o.view m))).1 with
    | error e =>
      simp only [Except.map]
      constructor
      · intro h; cases h
      · rintro ⟨chk', out, cfg, v', m', h1, h2, _⟩
        cases h1
        rw [h2] at hc
        cases hc
    | ok q =>
      obtain ⟨out, cfg⟩ := q
      simp only [hv]
      have hcv : convert chk (some (o.view m)) = (.ok (out, cfg), some v) := Prod.ext hc hv
      cases hl : o.load (o.setView m v) out with
      | error e =>
        simp only [Except.map]
        constructor
        · intro h; cases h
        · rintro ⟨chk', out', cfg', v', m', h1, h2, h3, _⟩
          cases h1
          rw [hcv] at h2
          cases h2
          rw [hl] at h3
          cases h3
      | ok m' =>
        simp only [Except.map, Except.ok.injEq]
        constructor
        · intro h
          exact ⟨chk, out, cfg, v, m', rfl, hcv, hl, h.symm⟩
        · rintro ⟨chk', out', cfg', v', m'', h1, h2, h3, h4⟩
          cases h1
          rw [hcv] at h2
          cases h2
          rw [hl] at h3
          cases h3
          exact h4.symm

/-- **C85 (no template).** With an empty identifier the model is used as it is: nothing is loaded and nothing is
remapped, even if remapping is asked for. -/
theorem C85_empty (o : Ops C M) (remap : Bool) (w : World C) (m : M) : getModel o remap [] w m = (.ok m, w) := rfl

/-- **C85 (local file).** A local file is loaded if it exists; otherwise no error is raised and the model keeps
its weights (remapped if asked).  The world does not change. -/
theorem C85_local (o : Ops C M) (remap : Bool) (tid : Str) (h : LocalId tid) (w : World C) (m : M) :
    (getModel o remap tid w m).2 = w ∧
    (w.files tid = none → (getModel o remap tid w m).1 = .ok (if remap then o.remap m else m)) ∧
    (∀ c, w.files tid = some c → ∀ r, (getModel o remap tid w m).1 = .ok r ↔ LoadsTo o remap m c r) := by
  have hne : tid ≠ [] := by rintro rfl; obtain ⟨r, h | h⟩ := h <;> cases h
  have e : getModel o remap tid w m = (fromPath o remap w m tid, w) := by
    unfold getModel
    rw [if_neg hne, if_pos ((local_iff tid).mpr h)]
  rw [e]
  refine ⟨rfl, ?_, fun c hc r => loadFile_iff o remap w m tid c hc r⟩
  intro hf
  simp [fromPath, hf, Except.map]

/-- **C85 (address).** An address never works: the call always raises `UnboundLocalError`. -/
theorem C85_address (o : Ops C M) (remap : Bool) (tid : Str) (h : HttpId tid) (w : World C) (m : M) :
    (getModel o remap tid w m).1 = .error .unboundLocal ∧ (getModel o remap tid w m).2.files = w.files := by
  have hne : tid ≠ [] := by rintro rfl; obtain ⟨r, h⟩ := h; cases h
  have hl : ¬ LocalId tid := by
    rintro ⟨r, hr⟩
    obtain ⟨q, rfl⟩ := h
    rcases hr with hr | hr <;> simp at hr
  have e : getModel o remap tid w m = (.error .unboundLocal, makeDir w) := by
    unfold getModel
    rw [if_neg hne, if_neg (fun x => hl ((local_iff tid).mp x)), if_pos ((http_iff tid).mpr h)]
  rw [e]
  exact ⟨rfl, rfl⟩

/-- A name of a template: neither empty nor a local file nor an address. -/
def NameId (tid : Str) : Prop := tid ≠ [] ∧ ¬ LocalId tid ∧ ¬ HttpId tid

/-- The address of a template. -/
def urlOf (tid : Str) : Str :=
  "https://github.com/IBM-AI-Hardware-Center/Composer/raw/main/".toList ++ tid ++ ".pth".toList

/-- The place of a template. -/
def placeOf (tid : Str) : Str := "/tmp/weight_templates/".toList ++ tid ++ ".pth".toList

theorem urlOf_eq (tid : Str) : urlOf tid = templateUrl tid := rfl

theorem placeOf_eq (tid : Str) : placeOf tid = templatePath tid := by
  have e : "/tmp/weight_templates/".toList = "/tmp/weight_templates".toList ++ "/".toList := by decide
  unfold placeOf templatePath
  rw [e]

theorem named (o : Ops C M) (remap : Bool) (tid : Str) (h : NameId tid) (w : World C) (m : M) :
    getModel o remap tid w m = (match (makeDir w).files (templatePath tid) with
    | some _ => (fromPath o remap (makeDir w) m (templatePath tid), makeDir w)
    | none => match download (makeDir w) (templateUrl tid) (templatePath tid) with
      | (.error e, w) => (.error e, w)
      | (.ok _, w) => (fromPath o remap w m (templatePath tid), w)) := by
  unfold getModel
  rw [if_neg h.1, if_neg (fun x => h.2.1 ((local_iff tid).mp x)), if_neg (fun x => h.2.2 ((http_iff tid).mp x))]
  rfl

/-- **C85 (named template).** A template that is in the template directory is loaded from there, and the server
is not asked; otherwise the answer of the server for its address is stored there, whatever it is, and loaded;
if the server does not answer or the file cannot be written, the call raises and no file changes. -/
theorem C85_named (o : Ops C M) (remap : Bool) (tid : Str) (h : NameId tid) (w : World C) (m : M) :
    (∀ c, w.files (placeOf tid) = some c → (getModel o remap tid w m).2.files = w.files ∧
      ∀ r, (getModel o remap tid w m).1 = .ok r ↔ LoadsTo o remap m c r) ∧
    (w.files (placeOf tid) = none → ∀ c, w.server (urlOf tid) = some c → w.writable (placeOf tid) = true →
      (getModel o remap tid w m).2.files = (fun p => if p = placeOf tid then some c else w.files p) ∧
      ∀ r, (getModel o remap tid w m).1 = .ok r ↔ LoadsTo o remap m c r) ∧
    (w.files (placeOf tid) = none → (w.server (urlOf tid) = none ∨ w.writable (placeOf tid) = false) →
      (getModel o remap tid w m).2.files = w.files ∧ ∃ e, (getModel o remap tid w m).1 = .error e) := by
  rw [placeOf_eq, urlOf_eq, named o remap tid h]
  refine ⟨?_, ?_, ?_⟩
  · intro c hc
    have hc' : (makeDir w).files (templatePath tid) = some c := hc
    simp only [hc']
    exact ⟨by trivial, fun r => loadFile_iff o remap (makeDir w) m _ c hc r⟩
  · intro hn c hs hw
    have hn' : (makeDir w).files (templatePath tid) = none := hn
    have hd : download (makeDir w) (templateUrl tid) (templatePath tid) = (.ok (),
        { makeDir w with files := fun p => if p = templatePath tid then some c else w.files p }) := by
      unfold download
      have : (makeDir w).server (templateUrl tid) = some c := hs
      rw [this]
      have : (makeDir w).writable (templatePath tid) = true := hw
      simp only [this, if_true]
      rfl
    simp only [hn', hd]
    exact ⟨by trivial, fun r => loadFile_iff o remap _ m _ c (by simp) r⟩
  · intro hn hx
    have hn' : (makeDir w).files (templatePath tid) = none := hn
    have hd : download (makeDir w) (templateUrl tid) (templatePath tid) = (.error .other, makeDir w) := by
      unfold download
      rcases hx with hx | hx
      · have : (makeDir w).server (templateUrl tid) = none := hx
        rw [this]
      · cases hs : (makeDir w).server (templateUrl tid) with
        | none => rfl
        | some c =>
          have : (makeDir w).writable (templatePath tid) = false := hx
          simp [this]
    simp only [hn', hd]
    exact ⟨by trivial, _, rfl⟩

theorem files_keep (o : Ops C M) (remap : Bool) (tid : Str) (w : World C) (m : M) (p : Str) (c : C)
    (h : w.files p = some c) : (getModel o remap tid w m).2.files p = some c := by
  unfold getModel
  split
  · exact h
  · split
    · exact h
    · split
      · exact h
      · dsimp only
        split
        · exact h
        · rename_i hn
          unfold download
          split
          · rename_i e
            split at e
            · cases e; exact h
            · split at e <;> cases e
              exact h
          · rename_i e
            split at e
            · cases e
            · split at e <;> cases e
              have hp : p ≠ templatePath tid := by
                rintro rfl
                rw [show (makeDir w).files (templatePath tid) = w.files (templatePath tid) from rfl, h] at hn
                cases hn
              show (if p = templatePath tid then _ else _) = _
              rw [if_neg hp]
              exact h

/-- **C85 (cache).** No call ever changes or removes a stored template, whatever the calls and the servers are:
what was once stored, even an error page, is loaded by all later calls. -/
theorem C85_cache (o : Ops C M) (cs : List (Bool × Str × M × (Str → Option C))) (w : World C) (tid : Str)
    (h : NameId tid) (c : C) (hc : w.files (placeOf tid) = some c) (remap : Bool) (m : M)
    (server : Str → Option C) (r : M) :
    (getModel o remap tid { calls o cs w with server := server } m).1 = .ok r ↔ LoadsTo o remap m c r := by
  have key : ∀ (cs : List (Bool × Str × M × (Str → Option C))) (w : World C),
      w.files (placeOf tid) = some c → (calls o cs w).files (placeOf tid) = some c := by
    intro cs
    induction cs with
    | nil => intro w h; exact h
    | cons a cs ih =>
      intro w h
      exact ih _ (files_keep o a.1 a.2.1 { w with server := a.2.2.2 } a.2.2.1 _ _ h)
  exact ((C85_named o remap tid h { calls o cs w with server := server } m).1 c (key cs w hc)).2 r

/-- **C85 (current format).** A checkpoint of the current format — ordinary names and a tile state without
`out_size` — cannot be used as a template: loading it always raises. -/
theorem C85_current_refused (o : Ops C M) (remap : Bool) (m : M) (c : C) (chk : Chk) (hc : o.parse c = .ok chk)
    (ho : ∀ p ∈ chk, Ordinary p.1) {p : Str × CVal} (hp : p ∈ chk) (hk : TileKey p.1)
    (hs : ∀ d, p.2 = .state d → sget d "out_size" = none) (r : M) : ¬ LoadsTo o remap m c r := by
  rintro ⟨chk', out, cfg, v, m', h1, h2, _⟩
  rw [hc] at h1
  cases h1
  obtain ⟨e, he⟩ := C78_current_refused (o.view m) ho hp hk hs
  rw [h2] at he
  cases he

end Aihw.Exper

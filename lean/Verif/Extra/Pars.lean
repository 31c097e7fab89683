import Verif.Extra.Load2

/-!
# Forward and backward parameters
-/
namespace Aihw.Extra

/-! ## Specification -/

/-- The parameters of one pass, by name. -/
def MvPar.named (m : MvPar) : Dict := [(key "v_offset", m.vOffset), (key "w_asymmetry", m.wAsym), (key "out_nonlinearity", m.outNl),
  (key "out_nonlinearity_factor", [m.outNlFactor]), (key "out_noise_values", m.outNoise)]

/-- The new value of a parameter. -/
def pick (dic : Dict) (k : Key) (old : Vec) : Vec := (find dic k).getD old

/-- The parameters of one pass with the given ones replaced. -/
def MvPar.replaced (dic : Dict) (m : MvPar) : MvPar where
  vOffset := pick dic (key "v_offset") m.vOffset
  wAsym := pick dic (key "w_asymmetry") m.wAsym
  outNl := pick dic (key "out_nonlinearity") m.outNl
  outNlFactor := (pick dic (key "out_nonlinearity_factor") [m.outNlFactor]).headD 0
  outNoise := pick dic (key "out_noise_values") m.outNoise

/-- The forward or the backward pass. -/
def FbPass.side (fwd : Bool) (f : FbPass) : MvPar := if fwd then f.fwd else f.bwd

def FbPass.setSide (fwd : Bool) (f : FbPass) (m : MvPar) : FbPass := if fwd then { f with fwd := m } else { f with bwd := m }

/-- Key substring used by `get_forward_parameters` and `get_backward_parameters`. -/
def sidePre (fwd : Bool) : Key := if fwd then fwdPre else bwdPre

def Top.trans : Top → Option TransSt
  | .pulsed d => d.trans
  | _ => none

/-- All analog passes of a tile: its own and the one of its transfer device. -/
def Tile.passes (fwd : Bool) (t : Tile) : List MvPar :=
  match t.pulsed with
  | none => []
  | some s => s.fb.side fwd :: (s.dev.trans.map fun x => x.fb.side fwd).toList

def FbPass.replaced (fwd : Bool) (dic : Dict) (f : FbPass) : FbPass := f.setSide fwd ((f.side fwd).replaced dic)

def TransSt.replaced (fwd : Bool) (dic : Dict) (t : TransSt) : TransSt := { t with fb := t.fb.replaced fwd dic }

def Dev.replaced (fwd : Bool) (dic : Dict) : Dev → Dev
  | .leaf b => .leaf b
  | .cell b subs v t => .cell b subs v (t.map fun x => x.replaced fwd dic)

def Top.replaced (fwd : Bool) (dic : Dict) : Top → Top
  | .pulsed d => .pulsed (d.replaced fwd dic)
  | d => d

def PulsedSt.replaced (fwd : Bool) (dic : Dict) (s : PulsedSt) : PulsedSt :=
  { s with fb := s.fb.replaced fwd dic, dev := s.dev.replaced fwd dic }

/-- The tile with the parameters of all its passes replaced. -/
def Tile.replaced (fwd : Bool) (dic : Dict) (t : Tile) : Tile := { t with pulsed := t.pulsed.map fun s => s.replaced fwd dic }

/-- Known names. -/
def Known (fwd : Bool) (t : Tile) (dic : Dict) : Prop := ∀ x ∈ dic, ∃ m ∈ t.passes fwd, x.1 ∈ m.named.map (·.1)

/-- Unchanged lengths. -/
def Fits (fwd : Bool) (t : Tile) (dic : Dict) : Prop :=
  ∀ m ∈ t.passes fwd, ∀ x ∈ m.named, ∀ v, find dic x.1 = some v → v.length = x.2.length

/-! ## Segments of keys -/

def segCons (c : Char) : List Key → List Key
  | [] => [[c]]
  | x :: xs => (c :: x) :: xs

/-- The parts between dots. -/
def segs : Key → List Key
  | [] => [[]]
  | c :: k => if c = '.' then [] :: segs k else segCons c (segs k)

theorem segs_ne (k : Key) : segs k ≠ [] := by
  cases k with
  | nil => simp [segs]
  | cons c k =>
    unfold segs
    split
    · simp
    · cases segs k <;> simp [segCons]

theorem segs_append (a b : Key) : segs (sub a b) = segs a ++ segs b := by
  induction a with
  | nil => simp [sub, segs]
  | cons c a ih =>
    show (if c = '.' then [] :: segs (sub a b) else segCons c (segs (sub a b))) =
      (if c = '.' then [] :: segs a else segCons c (segs a)) ++ segs b
    rw [ih]
    split
    · rfl
    · have := segs_ne a
      cases h : segs a with
      | nil => exact absurd h this
      | cons x xs => rfl

theorem segs_noDot {p : Key} (h : NoDot p) : segs p = [p] := by
  induction p with
  | nil => rfl
  | cons c p ih =>
    unfold NoDot at h
    rw [List.mem_cons, not_or] at h
    unfold segs
    rw [if_neg (fun e => h.1 e.symm), ih h.2]
    rfl

theorem segs_sub {p : Key} (h : NoDot p) (k : Key) : segs (sub p k) = p :: segs k := by
  rw [segs_append, segs_noDot h]; rfl

def sideName (fwd : Bool) : Key := if fwd then key "fwd" else key "bwd"

theorem afterLast_infix {pre k s : Key} (h : afterLast pre k = some s) : ∃ a, k = a ++ pre ++ s := by
  induction k generalizing s with
  | nil => cases h
  | cons c k ih =>
    unfold afterLast at h
    cases hk : afterLast pre k with
    | some x =>
      rw [hk] at h
      obtain rfl : x = s := by simpa using h
      obtain ⟨a, ha⟩ := ih hk
      exact ⟨c :: a, by rw [ha]; rfl⟩
    | none =>
      rw [hk] at h
      by_cases hp : pre <+: c :: k
      · rw [if_pos hp] at h
        obtain ⟨y, hy⟩ := hp
        refine ⟨[], ?_⟩
        have : (c :: k).drop pre.length = s := by simpa using h
        rw [← this, ← hy]
        simp
      · rw [if_neg hp] at h; cases h

theorem afterLast_segs {fwd : Bool} {k s : Key} (h : afterLast (sidePre fwd) k = some s) : sideName fwd ∈ segs k := by
  obtain ⟨a, rfl⟩ := afterLast_infix h
  have e : a ++ sidePre fwd ++ s = sub (a ++ key "fb_pass") (sub (sideName fwd) s) := by
    cases fwd
    · show a ++ key "fb_pass.bwd." ++ s = (a ++ key "fb_pass") ++ '.' :: (key "bwd" ++ '.' :: s)
      have : key "fb_pass.bwd." = key "fb_pass" ++ ('.' :: (key "bwd" ++ ['.'])) := by decide
      rw [this]; simp
    · show a ++ key "fb_pass.fwd." ++ s = (a ++ key "fb_pass") ++ '.' :: (key "fwd" ++ '.' :: s)
      have : key "fb_pass.fwd." = key "fb_pass" ++ ('.' :: (key "fwd" ++ ['.'])) := by decide
      rw [this]; simp
  rw [e, segs_append, segs_sub (by cases fwd <;> decide)]
  simp

/-- No key mentions the pass. -/
def Free (fwd : Bool) (d : Dict) : Prop := ∀ x ∈ d, sideName fwd ∉ segs x.1

theorem free_append {fwd : Bool} {a b : Dict} (ha : Free fwd a) (hb : Free fwd b) : Free fwd (a ++ b) := by
  intro x hx
  rcases List.mem_append.1 hx with h | h
  · exact ha x h
  · exact hb x h

theorem free_prefixed {fwd : Bool} {p : Key} (hp : NoDot p) (hn : p ≠ sideName fwd) {d : Dict} (h : Free fwd d) : Free fwd (prefixed p d) := by
  intro x hx
  obtain ⟨y, hy, rfl⟩ := List.mem_map.1 hx
  show sideName fwd ∉ segs (sub p y.1)
  rw [segs_sub hp, List.mem_cons, not_or]
  exact ⟨fun e => hn e.symm, h y hy⟩

theorem free_keys {fwd : Bool} {d : Dict} (l : List Key) (e : d.map (·.1) = l) (h : ∀ k ∈ l, sideName fwd ∉ segs k) : Free fwd d := by
  intro x hx
  exact h _ (by rw [← e]; exact List.mem_map_of_mem hx)

theorem free_opt {α : Type} {fwd : Bool} (f : α → Dict) (h : ∀ a, Free fwd (f a)) (a : Option α) : Free fwd (optSpec f a) := by
  cases a with
  | none => intro x hx; cases hx
  | some a => exact h a

theorem free_nil (fwd : Bool) : Free fwd [] := by intro x hx; cases hx

theorem driftSpec_free (fwd : Bool) (d : Option Drift) : Free fwd (driftSpec d) := by
  cases d with
  | none => exact free_nil _
  | some s => exact free_prefixed (by decide) (by cases fwd <;> decide) (free_keys driftNames rfl (by cases fwd <;> decide))

theorem Base.free (fwd : Bool) (b : Base) : Free fwd b.spec :=
  free_append (free_keys [key "num_states", key "weight_granularity"] rfl (by cases fwd <;> decide)) (driftSpec_free _ _)

theorem dec_ne_side (fwd : Bool) (k : Nat) : dec k ≠ sideName fwd := by
  intro e
  have h := dec_digits k
  rw [e] at h
  revert h
  cases fwd <;> decide

theorem subsSpec_free (fwd : Bool) (bs : List Base) : ∀ k, Free fwd (subsSpec bs k) := by
  induction bs with
  | nil => intro k; exact free_nil _
  | cons b bs ih => intro k; exact free_append (ih _) (free_prefixed (dec_noDot k) (dec_ne_side _ _) (b.free fwd))

theorem Pwu.free (fwd : Bool) (s : Pwu) : Free fwd s.spec := free_keys pwuNames rfl (by cases fwd <;> decide)

theorem TransSt.free_fields (fwd : Bool) (t : TransSt) : Free fwd t.fields :=
  free_keys [key "current_slice_indices", key "transfer_every"] rfl (by cases fwd <;> decide)

theorem TransSt.free_sub (fwd : Bool) (t : TransSt) : Free fwd (optSpec DynSt.spec t.dyn) ∧ Free fwd (optSpec ChopSt.spec t.chop) :=
  ⟨free_opt _ (fun a => free_keys dynNames rfl (by cases fwd <;> decide)) _,
    free_opt _ (fun a => free_keys chopNames rfl (by cases fwd <;> decide)) _⟩

theorem cellOwn_free (fwd : Bool) (bs : List Base) (v : VecSt) : Free fwd (cellOwn bs v) :=
  free_append (free_keys vecNames rfl (by cases fwd <;> decide)) (subsSpec_free _ _ _)

theorem Dev.free (fwd : Bool) (d : Dev) (h : d.trans = none) : Free fwd d.spec := by
  cases d with
  | leaf b => exact b.free fwd
  | cell b subs v t =>
    cases (show t = none from h)
    exact free_append (free_nil _) (free_append (cellOwn_free _ _ _) (b.free fwd))

theorem mixed_free (fwd : Bool) (d : Dev) (m : MixSt) (h : d.trans = none) : Free fwd (Top.mixed d m).spec := by
  refine free_append (free_opt _ (fun i => free_keys intNames rfl (by cases fwd <;> decide)) _) (free_append
    (free_keys mixFieldNames rfl (by cases fwd <;> decide)) (free_append (free_prefixed (by decide) (by cases fwd <;> decide) (m.pwu.free fwd))
      (free_prefixed (by decide) (by cases fwd <;> decide) (d.free fwd h))))

theorem Tile.free_simple (fwd : Bool) (t : Tile) : Free fwd t.simpleSpec := by
  refine free_append (free_keys tileNames rfl (by cases fwd <;> decide)) (free_append (driftSpec_free _ _) (free_append ?_ ?_))
  · unfold bufSpec
    split
    · exact free_keys [key "weights_buffer"] rfl (by cases fwd <;> decide)
    · exact free_nil _
  · cases t.fb with
    | none => exact free_nil _
    | some x =>
      exact free_append (free_prefixed (by decide) (by cases fwd <;> decide)
        (free_keys [key "saved_bias", key "enable_during_test"] rfl (by cases fwd <;> decide)))
        (free_keys [key "fb_weights"] rfl (by cases fwd <;> decide))

/-! ## Selection -/

def selOne (fwd : Bool) (x : Key × Vec) : Option (Key × Key × Vec) := (afterLast (sidePre fwd) x.1).map fun s => (s, x.1, x.2)

theorem sel_free {fwd : Bool} {d : Dict} (h : Free fwd d) : d.filterMap (selOne fwd) = [] := by
  rw [List.filterMap_eq_nil_iff]
  intro x hx
  unfold selOne
  cases ha : afterLast (sidePre fwd) x.1 with
  | none => rfl
  | some s => exact absurd (afterLast_segs ha) (h x hx)

/-- Full keys of the parameters of one pass. -/
def located (p : Key) (m : MvPar) : List (Key × Key × Vec) := m.named.map fun x => (x.1, p ++ x.1, x.2)

/-- Replacement on the level of entries. -/
def upd (fwd : Bool) (dic : Dict) (x : Key × Vec) : Key × Vec := (x.1, ((afterLast (sidePre fwd) x.1).bind (find dic)).getD x.2)

theorem upd_free {fwd : Bool} {dic d : Dict} (h : Free fwd d) : d.map (upd fwd dic) = d := by
  conv_rhs => rw [← List.map_id d]
  apply List.map_congr_left
  intro x hx
  unfold upd
  cases ha : afterLast (sidePre fwd) x.1 with
  | none => rfl
  | some s => exact absurd (afterLast_segs ha) (h x hx)

theorem prefixed_append (p : Key) (a b : Dict) : prefixed p (a ++ b) = prefixed p a ++ prefixed p b := by
  unfold prefixed; rw [List.map_append]

/-- Location of the own pass and of the pass of the transfer device. -/
def ownLoc (fwd : Bool) : Key := if fwd then key "rpu.fb_pass.fwd." else key "rpu.fb_pass.bwd."
def transLoc (fwd : Bool) : Key := if fwd then key "rpu.rpu_device.transfer_fb_pass.fwd." else key "rpu.rpu_device.transfer_fb_pass.bwd."

theorem sel_own (fwd : Bool) (f : FbPass) :
    (prefixed (key "rpu") (prefixed (key "fb_pass") f.spec)).filterMap (selOne fwd) = located (ownLoc fwd) (f.side fwd) := by
  cases fwd <;> rfl

theorem sel_trans (fwd : Bool) (f : FbPass) :
    (prefixed (key "rpu") (prefixed (key "rpu_device") (prefixed (key "transfer_fb_pass") f.spec))).filterMap (selOne fwd) =
      located (transLoc fwd) (f.side fwd) := by
  cases fwd <;> rfl

end Aihw.Extra

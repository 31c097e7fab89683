import Verif.Extra.Nested

/-!
# Incomplete dictionaries
-/
namespace Aihw.Extra

/-! ## Strict loading needs all entries -/

/-- All the keys of `spec` are present. -/
def Present (st spec : Dict) : Prop := ∀ x ∈ spec, (find st x.1).isSome

theorem present_append {st a b : Dict} (ha : Present st a) (hb : Present st b) : Present st (a ++ b) := by
  intro x hx
  rcases List.mem_append.1 hx with h | h
  · exact ha x h
  · exact hb x h

theorem present_prefixed {st : Dict} {p : Key} {d : Dict} (h : Present (selectWithPrefix st p) d) : Present st (prefixed p d) := by
  intro x hx
  obtain ⟨y, hy, rfl⟩ := List.mem_map.1 hx
  have := h y hy
  rwa [find_select] at this

theorem present_nil (st : Dict) : Present st [] := by intro x hx; cases hx

theorem present_cons {st d : Dict} {x : Key × Vec} (h : (find st x.1).isSome) (hd : Present st d) : Present st (x :: d) := by
  intro y hy
  rcases List.mem_cons.1 hy with rfl | hy
  · exact h
  · exact hd y hy

theorem loadV_strict {st : Dict} {k : Key} {old v : Vec} (h : loadV st k old true = .ok v) : (find st k).isSome := by
  unfold loadV at h
  cases hf : find st k with
  | none => rw [hf] at h; cases h
  | some w => rfl

theorem load1_strict {α : Type} {dec : ℚ → α} {st : Dict} {k : Key} {old v : α} (h : load1 dec st k old true = .ok v) : (find st k).isSome := by
  unfold load1 at h
  cases hf : find st k with
  | none => rw [hf] at h; cases h
  | some w => rfl

theorem loadL_strict {α : Type} {dec : ℚ → α} {st : Dict} {k : Key} {old v : List α} (h : loadL dec st k old true = .ok v) :
    (find st k).isSome := by
  unfold loadL at h
  cases hf : find st k with
  | none => rw [hf] at h; cases h
  | some w => rfl

theorem map_eq_ok {α β : Type} {r : Except PyErr α} {f : α → β} {b : β} (h : r.map f = .ok b) : ∃ a, r = .ok a ∧ f a = b := by
  cases r with
  | error e => cases h
  | ok a => exact ⟨a, rfl, by injection h⟩

theorem Drift.present {r s : Drift} {extra : Dict} {p : Key} (h : r.load extra p true = .ok s) : Present (selectWithPrefix extra p) r.spec := by
  unfold Drift.load at h
  obtain ⟨_, h1, h⟩ := bind_eq_ok h
  obtain ⟨_, h2, h⟩ := bind_eq_ok h
  obtain ⟨_, h3, h⟩ := bind_eq_ok h
  obtain ⟨_, h4, h⟩ := bind_eq_ok h
  obtain ⟨_, h5, h⟩ := bind_eq_ok h
  obtain ⟨_, h6, h⟩ := bind_eq_ok h
  exact present_cons (load1_strict h6) (present_cons (load1_strict h5) (present_cons (loadV_strict h1) (present_cons (loadV_strict h2)
    (present_cons (loadV_strict h3) (present_cons (loadV_strict h4) (present_nil _))))))

theorem FbPass.present {r s : FbPass} {extra : Dict} {p : Key} (h : r.load extra p true = .ok s) : Present (selectWithPrefix extra p) r.spec := by
  unfold FbPass.load at h
  obtain ⟨_, h1, h⟩ := bind_eq_ok h
  obtain ⟨_, h2, h⟩ := bind_eq_ok h
  obtain ⟨_, h3, h⟩ := bind_eq_ok h
  obtain ⟨_, h4, h⟩ := bind_eq_ok h
  obtain ⟨_, h5, h⟩ := bind_eq_ok h
  obtain ⟨_, g1, h⟩ := bind_eq_ok h
  obtain ⟨_, g2, h⟩ := bind_eq_ok h
  obtain ⟨_, g3, h⟩ := bind_eq_ok h
  obtain ⟨_, g4, h⟩ := bind_eq_ok h
  obtain ⟨_, g5, h⟩ := bind_eq_ok h
  obtain ⟨_, a1, h⟩ := bind_eq_ok h
  exact present_cons (load1_strict a1) (present_cons (loadV_strict h1) (present_cons (loadV_strict h2) (present_cons (loadV_strict h3)
    (present_cons (load1_strict h4) (present_cons (loadV_strict h5) (present_cons (loadV_strict g1) (present_cons (loadV_strict g2)
      (present_cons (loadV_strict g3) (present_cons (load1_strict g4) (present_cons (loadV_strict g5) (present_nil _)))))))))))

theorem Pwu.present {junk : Bool} {r s : Pwu} {extra : Dict} {p : Key} (h : r.load junk extra p true = .ok s) :
    Present (selectWithPrefix extra p) r.spec := by
  unfold Pwu.load at h
  obtain ⟨_, h1, h⟩ := bind_eq_ok h
  obtain ⟨_, h2, h⟩ := bind_eq_ok h
  obtain ⟨_, h3, h⟩ := bind_eq_ok h
  exact present_cons (load1_strict h1) (present_cons (load1_strict h2) (present_cons (load1_strict h3) (present_nil _)))

theorem loadDrift_present {r s : Option Drift} {extra : Dict} {p : Key} (h : loadDrift extra p true r = .ok s) :
    Present (selectWithPrefix extra p) (driftSpec r) := by
  cases r with
  | none => exact present_nil _
  | some r =>
    obtain ⟨a, h1, _⟩ := map_eq_ok (show (r.load _ _ _).map some = _ from h)
    exact present_prefixed (Drift.present h1)

theorem Base.present {r s : Base} {extra : Dict} {p : Key} (h : r.load extra p true = .ok s) : Present (selectWithPrefix extra p) r.spec := by
  unfold Base.load at h
  obtain ⟨_, h1, h⟩ := bind_eq_ok h
  obtain ⟨_, h2, h⟩ := bind_eq_ok h
  obtain ⟨_, h3, h⟩ := bind_eq_ok h
  exact present_append (present_cons (load1_strict h2) (present_cons (load1_strict h3) (present_nil _))) (loadDrift_present h1)

theorem ChopSt.present {r s : ChopSt} {extra : Dict} {p : Key} (h : ChopSt.load extra p true r = .ok s) :
    Present (selectWithPrefix extra p) r.spec := by
  unfold ChopSt.load at h
  obtain ⟨_, h1, h⟩ := bind_eq_ok h
  obtain ⟨_, h2, h⟩ := bind_eq_ok h
  obtain ⟨_, h3, h⟩ := bind_eq_ok h
  obtain ⟨_, h4, h⟩ := bind_eq_ok h
  obtain ⟨_, h5, h⟩ := bind_eq_ok h
  obtain ⟨_, h6, h⟩ := bind_eq_ok h
  obtain ⟨_, h7, h⟩ := bind_eq_ok h
  exact present_cons (loadL_strict h1) (present_cons (loadL_strict h2) (present_cons (load1_strict h3) (present_cons (load1_strict h4)
    (present_cons (load1_strict h5) (present_cons (load1_strict h6) (present_cons (load1_strict h7) (present_nil _)))))))

theorem DynSt.present {r s : DynSt} {extra : Dict} {p : Key} (h : DynSt.load extra p true r = .ok s) :
    Present (selectWithPrefix extra p) r.spec := by
  unfold DynSt.load at h
  obtain ⟨_, h1, h⟩ := bind_eq_ok h
  obtain ⟨_, h2, h⟩ := bind_eq_ok h
  obtain ⟨_, h3, h⟩ := bind_eq_ok h
  obtain ⟨_, h4, h⟩ := bind_eq_ok h
  exact present_cons (loadL_strict h1) (present_cons (load1_strict h2) (present_cons (loadV_strict h3) (present_cons (load1_strict h4) (present_nil _))))

theorem loadOpt_ok {α : Type} {f : α → Except PyErr α} {r s : Option α} (h : loadOpt f r = .ok s) : ∀ a, r = some a → ∃ b, f a = .ok b := by
  rintro a rfl
  obtain ⟨b, h1, _⟩ := map_eq_ok (show (f a).map some = _ from h)
  exact ⟨b, h1⟩

theorem present_opt {α : Type} {f : α → Except PyErr α} {g : α → Dict} {st : Dict} {r s : Option α} (h : loadOpt f r = .ok s)
    (hg : ∀ a b, f a = .ok b → Present st (g a)) : Present st (optSpec g r) := by
  cases r with
  | none => exact present_nil _
  | some a =>
    obtain ⟨b, hb⟩ := loadOpt_ok h a rfl
    exact hg a b hb

/-- The transfer layer without `transfer_every`. -/
def TransSt.needed (t : TransSt) : Dict := optSpec DynSt.spec t.dyn ++ (optSpec ChopSt.spec t.chop ++
  (prefixed (key "transfer_pwu") t.pwu.spec ++ (prefixed (key "transfer_fb_pass") t.fb.spec ++ [(key "current_slice_indices", t.slices.map encI)])))

theorem TransSt.present {junk : Bool} {r s : TransSt} {extra : Dict} {p : Key} (h : TransSt.load junk extra p true r = .ok s) :
    Present (selectWithPrefix extra p) r.needed := by
  unfold TransSt.load at h
  obtain ⟨_, h1, h⟩ := bind_eq_ok h
  obtain ⟨_, h2, h⟩ := bind_eq_ok h
  obtain ⟨_, h3, h⟩ := bind_eq_ok h
  obtain ⟨_, h4, h⟩ := bind_eq_ok h
  obtain ⟨_, h5, h⟩ := bind_eq_ok h
  obtain ⟨_, h6, h⟩ := bind_eq_ok h
  obtain ⟨_, h7, h⟩ := bind_eq_ok h
  exact present_append (present_opt h7 fun a b hb => DynSt.present hb) (present_append (present_opt h6 fun a b hb => ChopSt.present hb)
    (present_append (present_prefixed (Pwu.present h5)) (present_append (present_prefixed (FbPass.present h4))
      (present_cons (loadL_strict h1) (present_nil _)))))

theorem subs_present {junk : Bool} {st : Dict} {bs : List Base} : ∀ (k : Nat) (s : List Dev),
    loadSubs junk true (bs.map .leaf) k st = .ok s → Present st (subsSpec bs k) := by
  induction bs with
  | nil => intro k s _; exact present_nil _
  | cons b bs ih =>
    intro k s h
    rw [List.map_cons, loadSubs] at h
    obtain ⟨d, h1, h⟩ := bind_eq_ok h
    obtain ⟨ds, h2, h⟩ := bind_eq_ok h
    rw [Dev.load] at h1
    obtain ⟨c, h3, _⟩ := map_eq_ok h1
    exact present_append (ih (k + 1) ds h2) (present_prefixed (Base.present h3))

def Dev.needed : Dev → Dict
  | .leaf b => b.spec
  | .cell b subs v t => optSpec TransSt.needed t ++ (cellOwn (subs.map Dev.base) v ++ b.spec)

theorem Dev.present {junk : Bool} {r s : Dev} (hf : r.Flat) {extra : Dict} {p : Key} (h : Dev.load junk true r extra p = .ok s) :
    Present (selectWithPrefix extra p) r.needed := by
  cases r with
  | leaf b =>
    rw [Dev.load] at h
    obtain ⟨c, h3, _⟩ := map_eq_ok h
    exact Base.present h3
  | cell b subs v t =>
    rw [Dev.load] at h
    obtain ⟨_, h1, h⟩ := bind_eq_ok h
    obtain ⟨_, h2, h⟩ := bind_eq_ok h
    obtain ⟨_, h3, h⟩ := bind_eq_ok h
    obtain ⟨_, h4, h⟩ := bind_eq_ok h
    obtain ⟨_, h5, h⟩ := bind_eq_ok h
    obtain ⟨_, h6, h⟩ := bind_eq_ok h
    rw [flat_subs hf] at h2
    exact present_append (present_opt h6 fun a b hb => TransSt.present hb) (present_append (present_append
      (present_cons (loadV_strict h3) (present_cons (load1_strict h4) (present_cons (load1_strict h5) (present_nil _))))
        (subs_present 0 _ h2)) (Base.present h1))

def Top.needed : Top → Dict
  | .simple dr => driftSpec dr
  | .pulsed d => d.needed
  | .mixed d m => optSpec intSpec m.int ++ (m.fields ++ (prefixed (key "transfer_pwu") m.pwu.spec ++ prefixed (key "rpu_device") d.needed))

theorem Top.present {junk : Bool} {r s : Top} (hf : r.Plain) {extra : Dict} {p : Key} (h : r.load junk true extra p = .ok s) :
    Present (selectWithPrefix extra p) r.needed := by
  cases r with
  | simple dr =>
    obtain ⟨a, h1, _⟩ := map_eq_ok (show (loadDrift _ _ _ _).map Top.simple = _ from h)
    exact loadDrift_present h1
  | pulsed d =>
    obtain ⟨a, h1, _⟩ := map_eq_ok (show (Dev.load _ _ _ _ _).map Top.pulsed = _ from h)
    exact Dev.present hf h1
  | mixed d m =>
    unfold Top.load at h
    obtain ⟨_, h1, h⟩ := bind_eq_ok h
    obtain ⟨_, h2, h⟩ := bind_eq_ok h
    obtain ⟨_, h3, h⟩ := bind_eq_ok h
    obtain ⟨_, h4, h⟩ := bind_eq_ok h
    obtain ⟨_, h5, h⟩ := bind_eq_ok h
    obtain ⟨_, h6, h⟩ := bind_eq_ok h
    obtain ⟨_, h7, h⟩ := bind_eq_ok h
    obtain ⟨_, h8, h⟩ := bind_eq_ok h
    refine present_append (present_opt h8 fun a b hb => ?_) (present_append (present_cons (load1_strict h3) (present_cons (loadV_strict h4)
      (present_cons (load1_strict h5) (present_cons (load1_strict h6) (present_cons (load1_strict h7) (present_nil _)))))) (present_append
        (present_prefixed (Pwu.present h2)) (present_prefixed (Dev.present hf.1 h1))))
    unfold loadInt at hb
    obtain ⟨_, i1, hb⟩ := bind_eq_ok hb
    obtain ⟨_, i2, hb⟩ := bind_eq_ok hb
    exact present_cons (load1_strict i1) (present_cons (load1_strict i2) (present_nil _))

def Tile.needed (t : Tile) : Dict := optSpec (fun s : PulsedSt => prefixed (key "rpu_device") s.dev.needed ++ (prefixed (key "fb_pass") s.fb.spec ++
  prefixed (key "pwu") s.pwu.spec)) t.pulsed ++ t.fields

theorem Tile.present {new : Drift} {junk : Bool} {r s : Tile} (hp : r.Plain) {extra : Dict} (h : r.loadExtra new junk true extra = .ok s) :
    Present (selectWithPrefix extra (key "rpu")) r.needed := by
  unfold Tile.loadExtra at h
  obtain ⟨_, h1, h⟩ := bind_eq_ok h
  obtain ⟨_, h2, h⟩ := bind_eq_ok h
  obtain ⟨_, h3, h⟩ := bind_eq_ok h
  obtain ⟨_, h4, h⟩ := bind_eq_ok h
  obtain ⟨_, h5, h⟩ := bind_eq_ok h
  obtain ⟨_, h6, h⟩ := bind_eq_ok h
  obtain ⟨_, h7, h⟩ := bind_eq_ok h
  obtain ⟨_, h8, h⟩ := bind_eq_ok h
  obtain ⟨_, h9, h⟩ := bind_eq_ok h
  obtain ⟨_, h10, h⟩ := bind_eq_ok h
  refine present_append ?_ (present_cons (load1_strict h3) (present_cons (loadV_strict h2) (present_cons (loadL_strict h8)
    (present_cons (load1_strict h4) (present_cons (load1_strict h5) (present_cons (load1_strict h6) (present_cons (load1_strict h7)
      (present_nil _))))))))
  cases hs : r.pulsed with
  | none => exact present_nil _
  | some a =>
    obtain ⟨b, hb⟩ := loadOpt_ok h10 a hs
    unfold PulsedSt.load at hb
    obtain ⟨_, b1, hb⟩ := bind_eq_ok hb
    obtain ⟨_, b2, hb⟩ := bind_eq_ok hb
    obtain ⟨_, b3, hb⟩ := bind_eq_ok hb
    exact present_append (present_prefixed (Top.present (hp a hs) b3)) (present_append (present_prefixed (FbPass.present b2))
      (present_prefixed (Pwu.present b1)))

/-! ### Entries that a strict load does without -/

/-- Specification: entries below `rpu` that may be missing also if strict. -/
def MayMiss (k : Key) : Prop := k = key "rpu_device.transfer_every" ∨
  head k = key "fb_weights" ∨ head k = key "fb_weight_modifier" ∨ head k = key "wdrifter" ∨ head k = key "weights_buffer"

theorem Dev.needed_of (d : Dev) {x : Key × Vec} (hx : x ∈ d.spec) (hn : x.1 ≠ key "transfer_every") : x ∈ d.needed := by
  cases d with
  | leaf b => exact hx
  | cell b subs v t =>
    rcases List.mem_append.1 (show x ∈ optSpec TransSt.spec t ++ (cellOwn (subs.map Dev.base) v ++ b.spec) from hx) with h | h
    · refine List.mem_append_left _ ?_
      cases t with
      | none => exact h
      | some t =>
        show x ∈ optSpec DynSt.spec t.dyn ++ (optSpec ChopSt.spec t.chop ++ (prefixed (key "transfer_pwu") t.pwu.spec ++
          (prefixed (key "transfer_fb_pass") t.fb.spec ++ [(key "current_slice_indices", t.slices.map encI)])))
        have h' : x ∈ optSpec DynSt.spec t.dyn ++ (optSpec ChopSt.spec t.chop ++ (prefixed (key "transfer_pwu") t.pwu.spec ++
          (prefixed (key "transfer_fb_pass") t.fb.spec ++ [(key "current_slice_indices", t.slices.map encI), (key "transfer_every", t.every)]))) := h
        simp only [List.mem_append, List.mem_cons, List.not_mem_nil, or_false] at h' ⊢
        rcases h' with h' | h' | h' | h' | h' | h'
        · tauto
        · tauto
        · tauto
        · tauto
        · tauto
        · exact absurd (by rw [h']) hn
    · exact List.mem_append_right _ h

theorem Top.needed_of (d : Top) (hp : d.Plain) {x : Key × Vec} (hx : x ∈ d.spec) (hn : x.1 ≠ key "transfer_every") : x ∈ d.needed := by
  cases d with
  | simple dr => exact hx
  | pulsed d => exact d.needed_of hx hn
  | mixed d m =>
    have : d.needed = d.spec := by
      cases d with
      | leaf b => rfl
      | cell b subs v t =>
        cases (show t = none from hp.2)
        rfl
    show x ∈ optSpec intSpec m.int ++ (m.fields ++ (prefixed (key "transfer_pwu") m.pwu.spec ++ prefixed (key "rpu_device") d.needed))
    rw [this]
    exact hx

theorem Tile.needed_of (t : Tile) (hp : t.Plain) {k : Key} (hk : (find t.spec k).isSome) (hn : ¬ MayMiss k) : ∃ v, (k, v) ∈ t.needed := by
  obtain ⟨v, hv⟩ := Option.isSome_iff_exists.1 hk
  have hm := (find_eq_some_iff t.wf k v).1 hv
  refine ⟨v, ?_⟩
  unfold MayMiss at hn
  push Not at hn
  obtain ⟨n1, n2, n3, n4, n5⟩ := hn
  rcases List.mem_append.1 hm with h | h
  · refine List.mem_append_left _ ?_
    cases hs : t.pulsed with
    | none => rw [hs] at h; exact h
    | some s =>
      rw [hs] at h
      rcases List.mem_append.1 (show (k, v) ∈ prefixed (key "rpu_device") s.dev.spec ++ (prefixed (key "fb_pass") s.fb.spec ++
        prefixed (key "pwu") s.pwu.spec) from h) with h | h
      · refine List.mem_append_left _ ?_
        obtain ⟨y, hy, e⟩ := List.mem_map.1 h
        refine List.mem_map.2 ⟨y, s.dev.needed_of (hp s hs) hy ?_, e⟩
        intro e2
        apply n1
        have : sub (key "rpu_device") y.1 = k := congrArg Prod.fst e
        rw [← this, e2]
        decide
      · exact List.mem_append_right _ h
  · rcases List.mem_append.1 h with h | h
    · exact List.mem_append_right _ h
    · exfalso
      have hh : ∀ {d : Dict} {S : Key → Prop}, Heads d S → (k, v) ∈ d → S (head k) := by
        intro d S hd hkv
        exact hd k ((find_isSome_iff d k).2 (List.mem_map.2 ⟨(k, v), hkv, rfl⟩))
      rcases List.mem_append.1 h with h | h
      · exact n4 (hh (driftSpec_heads _) h)
      · rcases List.mem_append.1 h with h | h
        · exact n5 (hh (bufSpec_heads _ _) h)
        · rcases hh (fbSpec_heads _) h with h | h
          · exact n2 h
          · exact n3 h

/-! ## Loading nothing -/

/-- Nothing below the prefix. -/
def Nothing (st : Dict) : Prop := ∀ k, find st k = none

theorem nothing_sub {st : Dict} (h : Nothing st) (p : Key) : Nothing (selectWithPrefix st p) := by
  intro k; rw [find_select]; exact h _

theorem loadV_none {st : Dict} (h : Nothing st) (k : Key) (old : Vec) : loadV st k old false = .ok old := by
  unfold loadV; rw [h k]; rfl
theorem load1_none {α : Type} (dec : ℚ → α) {st : Dict} (h : Nothing st) (k : Key) (old : α) : load1 dec st k old false = .ok old := by
  unfold load1; rw [h k]; rfl
theorem loadL_none {α : Type} (dec : ℚ → α) {st : Dict} (h : Nothing st) (k : Key) (old : List α) : loadL dec st k old false = .ok old := by
  unfold loadL; rw [h k]; rfl

theorem Drift.load_none (s : Drift) {extra : Dict} {p : Key} (h : Nothing (selectWithPrefix extra p)) : s.load extra p false = .ok s := by
  unfold Drift.load
  simp only [loadV_none h, load1_none _ h, ok_bind']
  rfl

theorem FbPass.load_none (s : FbPass) {extra : Dict} {p : Key} (h : Nothing (selectWithPrefix extra p)) : s.load extra p false = .ok s := by
  unfold FbPass.load
  simp only [loadV_none h, load1_none _ h, ok_bind']
  rfl

/-- Specification: the allocation flag is set if the uninitialised variable happens to be true. -/
def Pwu.touched (junk : Bool) (s : Pwu) : Pwu := { s with alloc := s.alloc || junk }

theorem Pwu.load_none (s : Pwu) (junk : Bool) {extra : Dict} {p : Key} (h : Nothing (selectWithPrefix extra p)) :
    s.load junk extra p false = .ok (s.touched junk) := by
  unfold Pwu.load
  simp only [load1_none _ h, ok_bind']
  rfl

theorem loadOpt_none {α : Type} {f : α → Except PyErr α} {g : α → α} (h : ∀ a, f a = .ok (g a)) (a : Option α) : loadOpt f a = .ok (a.map g) := by
  cases a with
  | none => rfl
  | some a => show (f a).map some = _; rw [h]; rfl

theorem loadDrift_none (d : Option Drift) {extra : Dict} {p : Key} (h : Nothing (selectWithPrefix extra p)) :
    loadDrift extra p false d = .ok d := by
  cases d with
  | none => rfl
  | some s => show (s.load _ _ _).map some = _; rw [s.load_none (nothing_sub h _)]; rfl

theorem Base.load_none (b : Base) {extra : Dict} {p : Key} (h : Nothing (selectWithPrefix extra p)) : b.load extra p false = .ok b := by
  unfold Base.load
  simp only [loadDrift_none b.drift h, load1_none _ h, ok_bind']
  rfl

theorem ChopSt.load_none (s : ChopSt) {extra : Dict} {p : Key} (h : Nothing (selectWithPrefix extra p)) : ChopSt.load extra p false s = .ok s := by
  unfold ChopSt.load
  simp only [loadL_none _ h, load1_none _ h, ok_bind']
  rfl

theorem DynSt.load_none (s : DynSt) {extra : Dict} {p : Key} (h : Nothing (selectWithPrefix extra p)) : DynSt.load extra p false s = .ok s := by
  unfold DynSt.load
  simp only [loadL_none _ h, load1_none _ h, loadV_none h, ok_bind']
  rfl

def TransSt.touched (junk : Bool) (t : TransSt) : TransSt := { t with pwu := t.pwu.touched junk }

theorem TransSt.load_none (t : TransSt) (junk : Bool) {extra : Dict} {p : Key} (h : Nothing (selectWithPrefix extra p)) :
    TransSt.load junk extra p false t = .ok (t.touched junk) := by
  unfold TransSt.load
  simp only [loadL_none _ h, loadV_none h, t.fb.load_none (nothing_sub h _), t.pwu.load_none junk (nothing_sub h _),
    loadOpt_none (g := id) (fun a => ChopSt.load_none a h), loadOpt_none (g := id) (fun a => DynSt.load_none a h), ok_bind', Option.map_id_fun, id]
  rfl

mutual
/-- Specification: a device after loading nothing. -/
def Dev.touched (junk : Bool) : Dev → Dev
  | .leaf b => .leaf b
  | .cell b subs v t => .cell b (subsTouched junk subs) v (t.map (TransSt.touched junk))
def subsTouched (junk : Bool) : List Dev → List Dev
  | [] => []
  | d :: ds => Dev.touched junk d :: subsTouched junk ds
end

mutual
theorem Dev.load_none (junk : Bool) : ∀ (d : Dev) (extra : Dict) (p : Key), Nothing (selectWithPrefix extra p) →
    Dev.load junk false d extra p = .ok (d.touched junk)
  | .leaf b, extra, p, h => by
    rw [Dev.load, b.load_none h, Dev.touched]; rfl
  | .cell b subs v t, extra, p, h => by
    rw [Dev.load, Dev.touched]
    simp only [b.load_none h, subs_load_none junk subs 0 _ h, loadV_none h, load1_none _ h,
      loadOpt_none (g := TransSt.touched junk) (fun a => a.load_none junk h), ok_bind']
    rfl
theorem subs_load_none (junk : Bool) : ∀ (ds : List Dev) (k : Nat) (st : Dict), Nothing st → loadSubs junk false ds k st = .ok (subsTouched junk ds)
  | [], _, _, _ => by rw [loadSubs, subsTouched]
  | d :: ds, k, st, h => by
    rw [loadSubs, subsTouched, Dev.load_none junk d st (Aihw.Extra.dec k) (nothing_sub h _), subs_load_none junk ds (k + 1) st h]
    rfl
end

def Top.touched (junk : Bool) : Top → Top
  | .simple d => .simple d
  | .pulsed d => .pulsed (d.touched junk)
  | .mixed d m => .mixed (d.touched junk) { m with pwu := m.pwu.touched junk }

theorem Top.load_none (junk : Bool) (d : Top) {extra : Dict} {p : Key} (h : Nothing (selectWithPrefix extra p)) :
    d.load junk false extra p = .ok (d.touched junk) := by
  cases d with
  | simple dr => show (loadDrift _ _ _ _).map Top.simple = _; rw [loadDrift_none dr h]; rfl
  | pulsed d => show (Dev.load _ _ _ _ _).map Top.pulsed = _; rw [Dev.load_none junk d _ _ h]; rfl
  | mixed d m =>
    have hi : ∀ i : ℚ × ℚ, loadInt extra p false i = .ok i := by
      intro i
      unfold loadInt
      simp only [load1_none _ h, ok_bind']
      rfl
    unfold Top.load
    simp only [Dev.load_none junk d _ _ (nothing_sub h _), m.pwu.load_none junk (nothing_sub h _), load1_none _ h, loadV_none h,
      loadOpt_none (g := id) hi, ok_bind', Option.map_id_fun, id]
    rfl

def PulsedSt.touched (junk : Bool) (s : PulsedSt) : PulsedSt := { s with pwu := s.pwu.touched junk, dev := s.dev.touched junk }

/-- Specification: a tile after loading nothing: only allocation flags may change. -/
def Tile.touched (junk : Bool) (t : Tile) : Tile := { t with pulsed := t.pulsed.map (PulsedSt.touched junk) }

theorem Tile.load_none (new : Drift) (junk : Bool) (t : Tile) {extra : Dict} (h : Nothing (selectWithPrefix extra (key "rpu"))) :
    t.loadExtra new junk false extra = .ok (t.touched junk) := by
  have hb : ∀ d, loadBuf (selectWithPrefix extra (key "rpu")) d false t.wbuf = .ok t.wbuf := by
    intro d
    unfold loadBuf
    cases d with
    | false => rfl
    | true => rw [if_pos rfl, loadV_none h]; rfl
  have hd : loadTileDrift new (selectWithPrefix extra (key "rpu")) false t.drift = .ok t.drift := by
    unfold loadTileDrift; rw [h]
  have hf : loadFb (selectWithPrefix extra (key "rpu")) t.fb = t.fb := by
    unfold loadFb; rw [h]
  have hp : ∀ s, PulsedSt.load junk false extra (key "rpu") s = .ok (s.touched junk) := by
    intro s
    unfold PulsedSt.load
    simp only [s.pwu.load_none junk (nothing_sub h _), s.fb.load_none (nothing_sub h _), s.dev.load_none junk (nothing_sub h _), ok_bind']
    rfl
  unfold Tile.loadExtra
  simp only [hd, hf, hb, loadV_none h, load1_none _ h, loadL_none _ h, loadOpt_none hp, ok_bind']
  rfl

end Aihw.Extra

import Verif.Shared.Steps

/-!
# C90: one memory behind the weights
-/

namespace Aihw.Shared

open Aihw

variable {K : Type} [Inhabited K]

theorem run_inv (zero : K) (ops : List (Op K)) : ∀ {w : Wrap} {h : Heap K}, Inv w h → AllGiven zero w h ops →
    Inv (run zero w h ops).1 (run zero w h ops).2 ∧
      (run zero w h ops).1.tile.native = w.tile.native ∧ (run zero w h ops).1.tile.d = w.tile.d ∧
      (run zero w h ops).1.tile.x = w.tile.x := by
  induction ops with
  | nil => intro w h H _; exact ⟨H, rfl, rfl, rfl⟩
  | cons o ops ih =>
    intro w h H g
    have P := step_post zero H o g.1
    obtain ⟨i1, i2, i3, i4⟩ := ih P.inv g.2
    exact ⟨i1, i2.trans P.same.1, i3.trans P.same.2.1, i4.trans P.same.2.2⟩

/-- **C90 (live memory).** Whatever is done to a tile, whichever calls raise and are caught: the weights of the tile
are in memory that has not been given back, they keep the size of the tile, and what Python uses as reference to the
weights of the tile is that same memory; for a C++ tile it is the tensor the wrapper holds. -/
theorem C90_memory (zero : K) (native shared : Bool) (d x : ℕ) (init : List K) (h0 : Heap K) (good : Good h0)
    (w : Wrap) (h : Heap K) (hc : construct zero native shared d x init h0 = (none, w, h)) (ops : List (Op K))
    (g : AllGiven zero w h ops) (w' : Wrap) (h' : Heap K) (hr : run zero w h ops = (w', h')) :
    w'.tile.ptr ∉ h'.dead ∧ w'.tile.ptr < h'.next ∧ Fits (weightsOf w' h') d x ∧
      h'.mem (ref w') = weightsOf w' h' ∧ (native = true → w'.bound = some w'.tile.ptr) ∧
      (∀ a, Knows w' a → a ∉ h'.dead) := by
  obtain ⟨w1, h1, e, inv, en, ed, ex, -⟩ := construct_spec zero native shared d x init h0 good
  rw [e] at hc
  cases hc
  obtain ⟨i1, i2, i3, i4⟩ := run_inv zero ops inv g
  rw [hr] at i1 i2 i3 i4
  refine ⟨i1.live.2, i1.live.1, ?_, ?_, fun n => (i1.cpp (by rw [i2, en]; exact n)).1, fun a k => (i1.knows_live k).2⟩
  · have := i1.fits
    rw [i3, i4, ed, ex] at this
    exact this
  · rw [ref_eq i1]; rfl

/-- **C90 (construction).** Constructing a tile does not raise.  Without the shared parameter it has the weights the
simulator tile was created with.  With it the weights are zero - the initial weights of the simulator tile are lost -
and the context still shows the initial ones. -/
theorem C90_initial (zero : K) (native shared : Bool) (d x : ℕ) (init : List K) (h0 : Heap K) (good : Good h0) :
    ∃ (w : Wrap) (h : Heap K), construct zero native shared d x init h0 = (none, w, h) ∧
      contextOf w h = ⟨d, x, init⟩ ∧
      ((shared && native) = false → weightsOf w h = ⟨d, x, init⟩ ∧ paramOf w h = none) ∧
      ((shared && native) = true → weightsOf w h = ⟨d, x, List.replicate (d * x) zero⟩ ∧
        paramOf w h = some ⟨d, x, List.replicate (d * x) zero⟩) := by
  obtain ⟨w1, h1, e, inv, en, ed, ex, -, -, -, -, c, c1, c2⟩ := construct_spec zero native shared d x init h0 good
  refine ⟨w1, h1, e, c, ?_, ?_⟩
  · intro q
    obtain ⟨q1, q2⟩ := c1 q
    refine ⟨?_, by simp [paramOf, q1]⟩
    rw [weightsOf, ← q2, c]
  · intro q
    obtain ⟨q1, q2, q3⟩ := c2 q
    exact ⟨q3, by simp [paramOf, q1, q3]⟩

/-! ### Ordinary programs -/

/-- The calls after which the context shows the weights. -/
def Settles (d x : ℕ) : Op K → Prop
  | .setWeights v => Fits v d x
  | .reload _ _ _ => True
  | .sync => True
  | _ => False

/-- The state of a tile that is one matrix `m`; `s`: the context shows it, too. -/
structure One (hasParam : Bool) (d x : ℕ) (init m : List K) (s : Prop) (w : Wrap) (h : Heap K) : Prop where
  inv : Inv w h
  dims : w.tile.d = d ∧ w.tile.x = x
  val : h.mem w.tile.ptr = ⟨d, x, m⟩
  param : w.param = if hasParam then some w.tile.ptr else none
  yes : s → w.ctx = w.tile.ptr
  no : ¬ s → w.ctx ≠ w.tile.ptr ∧ h.mem w.ctx = ⟨d, x, init⟩

theorem One.congr {hasParam : Bool} {d x : ℕ} {init m : List K} {s s' : Prop} {w : Wrap} {h : Heap K}
    (o : One hasParam d x init m s w h) (e : s ↔ s') : One hasParam d x init m s' w h :=
  ⟨o.inv, o.dims, o.val, o.param, fun q => o.yes (e.2 q), fun q => o.no (fun r => q (e.1 r))⟩

theorem One.write {hasParam : Bool} {d x : ℕ} {init m : List K} {s : Prop} {w : Wrap} {h : Heap K}
    (o : One hasParam d x init m s w h) (u : List K) : One hasParam d x init u s w (h.write w.tile.ptr u) := by
  refine ⟨inv_write o.inv _ _, o.dims, ?_, o.param, o.yes, fun q => ⟨(o.no q).1, ?_⟩⟩
  · rw [write_mem, if_pos rfl, o.val]
  · rw [write_mem, if_neg (o.no q).1]
    exact (o.no q).2

theorem One.settle {hasParam : Bool} {d x : ℕ} {init m : List K} {s : Prop} {w : Wrap} {h : Heap K}
    (o : One hasParam d x init m s w h) : One hasParam d x init m True { w with ctx := w.tile.ptr } h :=
  ⟨inv_ctx o.inv, o.dims, o.val, o.param, fun _ => rfl, fun q => absurd trivial q⟩

theorem One.ensure {hasParam : Bool} {d x : ℕ} {init m : List K} {s : Prop} {w : Wrap} {h : Heap K}
    (o : One hasParam d x init m s w h) :
    (if (none : Option ℕ).isSome || w.param.isSome then Shared.ensure w h (none <|> w.param) else (none, w, h)) =
      (none, w, h) := by
  cases hasParam with
  | false =>
    have := o.param
    simp only [Bool.false_eq_true, if_false] at this
    simp [this]
  | true =>
    have hp := o.param
    simp only [if_true] at hp
    have nat := native_of_param o.inv (by rw [hp]; rfl)
    have hb := (o.inv.cpp nat).1
    rcases ensure_cases (w := w) (h := h) (p := w.tile.ptr) (arg := some w.tile.ptr) o.inv (by rw [hp]; rfl) rfl with
      ⟨_, e⟩ | ⟨f, _⟩
    · rw [hp]
      show Shared.ensure w h (some w.tile.ptr) = _
      rw [e]
      obtain ⟨t, b, pm, c⟩ := w
      simp only at hp hb
      subst hp hb
      rfl
    · exact absurd o.inv.fits f

theorem One.step (zero : K) {hasParam : Bool} {d x : ℕ} {init m : List K} {s : Prop} {w : Wrap} {h : Heap K}
    (o : One hasParam d x init m s w h) (c : Op K) (pl : Plain d x c) :
    One hasParam d x init (cell hasParam d x m c) (s ∨ Settles d x c) (step zero w h c).2.1 (step zero w h c).2.2 := by
  obtain ⟨hd, hx⟩ := o.dims
  cases c with
  | setWeights v =>
    simp only [Shared.step, tileSet, hd, hx]
    by_cases f : Fits v d x
    · have f' := (sameShape_iff v d x).2 f
      simp only [f', if_true, Option.isSome_none, Bool.false_eq_true, if_false]
      rw [sync_eq o.inv]
      rw [show cell hasParam d x m (.setWeights v) = v.val by simp [cell, f]]
      exact (o.write v.val).settle.congr (s' := s ∨ Settles d x (.setWeights v)) (by simp [Settles, f])
    · have f' : v.sameShape d x = false := by rw [← Bool.not_eq_true, sameShape_iff]; exact f
      simp only [f', Bool.false_eq_true, if_false, Option.isSome_some, if_true]
      rw [show cell hasParam d x m (.setWeights v) = m by simp [cell, f]]
      exact o.congr (s' := s ∨ Settles d x (.setWeights v)) (by simp [Settles, f])
  | rawSet v =>
    simp only [Shared.step, tileSet, hd, hx]
    by_cases f : Fits v d x
    · have f' := (sameShape_iff v d x).2 f
      simp only [f', if_true]
      rw [show cell hasParam d x m (.rawSet v) = v.val by simp [cell, f]]
      exact (o.write v.val).congr (s' := s ∨ Settles d x (.rawSet v)) (by simp [Settles])
    · have f' : v.sameShape d x = false := by rw [← Bool.not_eq_true, sameShape_iff]; exact f
      simp only [f', Bool.false_eq_true, if_false]
      rw [show cell hasParam d x m (.rawSet v) = m by simp [cell, f]]
      exact o.congr (s' := s ∨ Settles d x (.rawSet v)) (by simp [Settles])
  | inPlace f =>
    simp only [Shared.step, o.val]
    exact (o.write (f m)).congr (by simp [Settles])
  | optim f =>
    cases hasParam with
    | false =>
      have := o.param
      simp only [Bool.false_eq_true, if_false] at this
      simp only [Shared.step, this]
      exact o.congr (by simp [Settles])
    | true =>
      have := o.param
      simp only [if_true] at this
      simp only [Shared.step, this, o.val]
      exact (o.write (f m)).congr (by simp [Settles])
  | assign i => exact absurd pl id
  | forward arg =>
    have : arg = none := pl
    subst this
    simp only [Shared.step]
    rw [o.ensure]
    exact o.congr (by simp [Settles])
  | backward arg =>
    have : arg = none := pl
    subst this
    simp only [Shared.step]
    rw [o.ensure]
    exact o.congr (by simp [Settles])
  | reload v init' no =>
    obtain ⟨fv, hno⟩ := pl
    subst hno
    have P := post_reload (zero := zero) o.inv v init' false
    obtain ⟨-, R⟩ := restore_cases zero w init' v h o.inv.old (fun e => (o.inv.py e).2) o.inv.param o.inv.context
    have hstep : Shared.step zero w h (.reload v init' false) = restore zero w init' v h := by
      simp [Shared.step]
    rw [hstep] at P ⊢
    have fv' : Fits v w.tile.d w.tile.x := by rw [hd, hx]; exact fv
    have hv : v = ⟨d, x, v.val⟩ := by
      obtain ⟨e1, e2⟩ := fv
      rw [← e1, ← e2]
    rcases R with ⟨_, _, r3, r4, r5⟩ | ⟨_, r2, _⟩ | ⟨_, _, _, _, _, _, p, r7, r8, _⟩
    · refine ⟨P.inv, ⟨P.same.2.1.trans hd, P.same.2.2.trans hx⟩, r4.trans hv, ?_, fun _ => r3, ?_⟩
      · cases hasParam with
        | false =>
          have := o.param
          simp only [Bool.false_eq_true, if_false] at this
          rcases r5 with ⟨_, r5, _⟩ | ⟨p, r5, _⟩
          · simpa using r5
          · rw [this] at r5; cases r5
        | true =>
          have := o.param
          simp only [if_true] at this
          rcases r5 with ⟨r5, _⟩ | ⟨p, _, r5, _⟩
          · rw [this] at r5; cases r5
          · simpa using r5
      · intro q
        exact absurd (Or.inr trivial) q
    · exact absurd fv' r2
    · cases hasParam with
      | false =>
        have := o.param
        simp only [Bool.false_eq_true, if_false] at this
        rw [this] at r7; cases r7
      | true =>
        have := o.param
        simp only [if_true] at this
        rw [this] at r7
        injection r7 with r7
        rw [← r7] at r8
        exact absurd o.inv.fits r8
  | sync =>
    simp only [Shared.step]
    rw [sync_eq o.inv]
    exact o.settle.congr (by simp [Settles])

theorem One.run (zero : K) {hasParam : Bool} {d x : ℕ} {init : List K} (ops : List (Op K)) : ∀ {m : List K} {s : Prop}
    {w : Wrap} {h : Heap K}, One hasParam d x init m s w h → (∀ c ∈ ops, Plain d x c) →
    One hasParam d x init (cells hasParam d x m ops) (s ∨ ∃ c ∈ ops, Settles d x c) (run zero w h ops).1
      (run zero w h ops).2 := by
  induction ops with
  | nil => intro m s w h o _; exact o.congr (by simp)
  | cons c ops ih =>
    intro m s w h o pl
    have := ih (o.step zero c (pl c (by simp))) (fun c' q => pl c' (by simp [q]))
    refine this.congr ?_
    simp only [List.mem_cons, exists_eq_or_imp]
    tauto

theorem construct_one (zero : K) (native shared : Bool) (d x : ℕ) (init : List K) (h0 : Heap K) (good : Good h0) :
    ∃ (w : Wrap) (h : Heap K), construct zero native shared d x init h0 = (none, w, h) ∧
      One (shared && native) d x init (if shared && native then List.replicate (d * x) zero else init)
        ((shared && native) = false) w h := by
  obtain ⟨w1, h1, e, inv, en, ed, ex, -, -, -, -, c, c1, c2⟩ := construct_spec zero native shared d x init h0 good
  refine ⟨w1, h1, e, inv, ⟨ed, ex⟩, ?_, ?_, ?_, ?_⟩
  · cases q : (shared && native) with
    | false => rw [← (c1 q).2, c]; simp
    | true => rw [(c2 q).2.2]; simp
  · cases q : (shared && native) with
    | false => rw [(c1 q).1]; simp
    | true => rw [(c2 q).1]; simp
  · intro q; exact (c1 q).2
  · intro q
    have q' : (shared && native) = true := by simpa using q
    exact ⟨(c2 q').2.1, c⟩

/-- **C90 (one matrix).** A tile behaves as one matrix in every ordinary program - any sequence of weight settings,
updates and other in-place operations of the tile, optimizer steps on the shared parameter, forward and backward passes,
state loading and synchronisations: after it the weights read from the tile and the content of the shared parameter are
the matrix obtained by applying the calls to a single matrix; the context shows the same matrix as soon as the weights
have been set, a state loaded or the tile moved once, and always for a tile without shared parameter; before that it
shows the weights from the construction. -/
theorem C90_one_matrix (zero : K) (native shared : Bool) (d x : ℕ) (init : List K) (h0 : Heap K) (good : Good h0)
    (w : Wrap) (h : Heap K) (hc : construct zero native shared d x init h0 = (none, w, h)) (ops : List (Op K))
    (pl : ∀ c ∈ ops, Plain d x c) (w' : Wrap) (h' : Heap K) (hr : run zero w h ops = (w', h')) (m : List K)
    (hm : m = cells (shared && native) d x (if shared && native then List.replicate (d * x) zero else init) ops) :
    weightsOf w' h' = ⟨d, x, m⟩ ∧
    paramOf w' h' = (if shared && native then some ⟨d, x, m⟩ else none) ∧
    (((shared && native) = false ∨ ∃ c ∈ ops, Settles d x c) → contextOf w' h' = ⟨d, x, m⟩) ∧
    (((shared && native) = true ∧ ∀ c ∈ ops, ¬ Settles d x c) → contextOf w' h' = ⟨d, x, init⟩) := by
  obtain ⟨w1, h1, e, o⟩ := construct_one zero native shared d x init h0 good
  rw [e] at hc
  cases hc
  have o' := o.run zero ops pl
  rw [hr] at o'
  rw [← hm] at o'
  refine ⟨o'.val, ?_, ?_, ?_⟩
  · rw [paramOf, o'.param]
    cases (shared && native) with
    | false => rfl
    | true =>
      show some (h'.mem w'.tile.ptr) = _
      rw [show h'.mem w'.tile.ptr = _ from o'.val]
      rfl
  · intro q
    rw [contextOf, o'.yes q, o'.val]
  · rintro ⟨q1, q2⟩
    refine (o'.no ?_).2
    rintro (q | ⟨c, q, q'⟩)
    · rw [q1] at q; cases q
    · exact q2 c q q'

end Aihw.Shared

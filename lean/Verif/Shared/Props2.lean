import Verif.Shared.Props

/-!
# C90: foreign tensors, two tiles, copies
-/

namespace Aihw.Shared

open Aihw

variable {K : Type} [Inhabited K]

/-- A state of a `d × x` tile that some program reaches. -/
def Reached (zero : K) (d x : ℕ) (w : Wrap) (h : Heap K) : Prop :=
  ∃ (native shared : Bool) (init : List K) (h0 : Heap K) (w0 : Wrap) (h1 : Heap K) (ops : List (Op K)),
    Good h0 ∧ construct zero native shared d x init h0 = (none, w0, h1) ∧ AllGiven zero w0 h1 ops ∧
    run zero w0 h1 ops = (w, h)

theorem Reached.inv {zero : K} {d x : ℕ} {w : Wrap} {h : Heap K} (r : Reached zero d x w h) :
    Inv w h ∧ w.tile.d = d ∧ w.tile.x = x := by
  obtain ⟨native, shared, init, h0, w0, h1, ops, good, e, g, hr⟩ := r
  obtain ⟨w1, h2, e', inv, en, ed, ex, -⟩ := construct_spec zero native shared d x init h0 good
  rw [e'] at e
  cases e
  obtain ⟨i1, -, i3, i4⟩ := run_inv zero ops inv g
  rw [hr] at i1 i3 i4
  exact ⟨i1, i3.trans ed, i4.trans ex⟩

/-- **C90 (another tensor).** A forward (or backward) pass with a tensor other than the parameter, for a tile with
shared parameter: a tensor of another size is refused and the weights stay, but the parameter is left with the refused
data; otherwise the weights of the tile and the parameter are from then on that tensor - its content is taken over, not
overwritten - while the context keeps showing the previous memory until the next synchronisation.  A tile without shared
parameter refuses every tensor and is unchanged. -/
theorem C90_another_tensor (zero : K) (d x : ℕ) (w : Wrap) (h : Heap K) (r : Reached zero d x w h) (i : ℕ)
    (op : Op K) (hop : op = .forward (some i) ∨ op = .backward (some i)) (res : Res K) (hres : res = step zero w h op) :
    (w.param = none → res = (some .attributeError, w, h)) ∧
    (∀ p, w.param = some p → ¬ Fits (h.mem i) d x → res.1 = some .runtimeError ∧
      weightsOf res.2.1 res.2.2 = weightsOf w h ∧ contextOf res.2.1 res.2.2 = contextOf w h ∧
      res.2.1.param = some i) ∧
    (∀ p, w.param = some p → Fits (h.mem i) d x → res.1 = none ∧
      weightsOf res.2.1 res.2.2 = h.mem i ∧ paramOf res.2.1 res.2.2 = some (h.mem i) ∧
      contextOf res.2.1 res.2.2 = contextOf w h ∧
      contextOf (sync res.2.1) res.2.2 = h.mem i ∧
      ∀ (f : List K → List K), weightsOf res.2.1 (step zero res.2.1 res.2.2 (.optim f)).2.2 =
        ⟨d, x, f (h.mem i).val⟩) := by
  obtain ⟨inv, hd, hx⟩ := r.inv
  have hs : res = ensure w h (some i) := by
    rw [hres]
    rcases hop with rfl | rfl <;> simp [step]
  refine ⟨?_, ?_, ?_⟩
  · intro e
    rw [hs]
    simp [ensure, e]
  · intro p e nf
    rcases ensure_cases (w := w) (h := h) (p := i) (arg := some i) inv (by rw [e]; rfl) rfl with ⟨f, _⟩ | ⟨_, q⟩
    · rw [hd, hx] at f; exact absurd f nf
    · rw [hs, q]
      exact ⟨rfl, rfl, rfl, rfl⟩
  · intro p e f0
    rcases ensure_cases (w := w) (h := h) (p := i) (arg := some i) inv (by rw [e]; rfl) rfl with ⟨f, q⟩ | ⟨nf, _⟩
    · rw [hs, q]
      refine ⟨rfl, rfl, rfl, rfl, ?_, ?_⟩
      · by_cases c : w.ctx = i
        · subst c
          simp [sync, ref, contextOf]
        · simp [sync, ref, contextOf, c]
      · intro g
        simp only [step, weightsOf, write_mem, if_true]
        obtain ⟨f1, f2⟩ := f0
        rw [f1, f2]
    · rw [hd, hx] at nf; exact absurd f0 nf

/-- **C90 (when the context lags).** Starting from a state in which the context shows the memory of the weights, a call
ends in a state in which it does not exactly if it was a pass that put another memory behind the tile, or a state
loading that raised. -/
theorem C90_lag (zero : K) (d x : ℕ) (w : Wrap) (h : Heap K) (r : Reached zero d x w h) (hctx : w.ctx = w.tile.ptr)
    (op : Op K) (res : Res K) (hres : res = step zero w h op) :
    res.2.1.ctx ≠ res.2.1.tile.ptr ↔
      (∃ (arg : Option ℕ) (i : ℕ), (op = .forward arg ∨ op = .backward arg) ∧ w.param.isSome ∧
        (arg <|> w.param) = some i ∧ i ≠ w.tile.ptr ∧ Fits (h.mem i) d x) ∨
      (∃ (v : Buf K) (init : List K) (no : Bool), op = .reload v init no ∧ res.1.isSome) := by
  obtain ⟨inv, hd, hx⟩ := r.inv
  have pass : ∀ (arg : Option ℕ), (op = .forward arg ∨ op = .backward arg) →
      (res.2.1.ctx ≠ res.2.1.tile.ptr ↔ ∃ i : ℕ, w.param.isSome ∧
        (arg <|> w.param) = some i ∧ i ≠ w.tile.ptr ∧ Fits (h.mem i) d x) := by
    intro arg ho
    have hs : res = (if arg.isSome || w.param.isSome then ensure w h (arg <|> w.param) else (none, w, h)) := by
      rw [hres]
      rcases ho with rfl | rfl <;> rfl
    rcases (show w.param = none ∨ ∃ p, w.param = some p by cases w.param <;> simp) with ep | ⟨p, ep⟩
    · have : res.2.1 = w := by
        rw [hs, ep]
        cases arg with
        | none => rfl
        | some i => simp [ensure, ep]
      rw [this, ep]
      simp [hctx]
    · obtain ⟨i, hi⟩ : ∃ i, (arg <|> w.param) = some i := by
        cases arg with
        | none => exact ⟨p, by rw [ep]; rfl⟩
        | some i => exact ⟨i, rfl⟩
      rw [ep] at hi
      rw [ep] at hs
      simp only [Option.isSome_some, Bool.or_true, if_true] at hs
      rw [hi] at hs
      rw [ep, hi]
      rcases ensure_cases (w := w) (h := h) (p := i) (arg := some i) inv (by rw [ep]; rfl) rfl with ⟨f, q⟩ | ⟨nf, q⟩
      · rw [hs, q]
        rw [hd, hx] at f
        constructor
        · intro c
          refine ⟨i, rfl, rfl, ?_, f⟩
          rintro rfl
          exact c hctx
        · rintro ⟨j, _, e, c, _⟩
          injection e with e
          subst e
          show w.ctx ≠ i
          rw [hctx]
          exact fun q => c q.symm
      · rw [hs, q]
        rw [hd, hx] at nf
        constructor
        · intro c; exact absurd hctx c
        · rintro ⟨j, _, e, _, f⟩
          injection e with e
          subst e
          exact absurd f nf
  constructor
  · intro c
    cases op with
    | forward arg =>
      obtain ⟨i, q1, q2, q3, q4⟩ := (pass arg (Or.inl rfl)).1 c
      exact Or.inl ⟨arg, i, Or.inl rfl, q1, q2, q3, q4⟩
    | backward arg =>
      obtain ⟨i, q1, q2, q3, q4⟩ := (pass arg (Or.inr rfl)).1 c
      exact Or.inl ⟨arg, i, Or.inr rfl, q1, q2, q3, q4⟩
    | reload v init no =>
      refine Or.inr ⟨v, init, no, rfl, ?_⟩
      have hsub : ∀ p, (if no then none else w.param) = some p → w.param = some p := by
        intro p e
        cases no <;> simp_all
      obtain ⟨-, R⟩ := restore_cases zero { w with param := if no then none else w.param } init v h inv.old
        (fun e => by have := (inv.py e).2; cases no <;> simp [this]) (fun p e => inv.param p (hsub p e)) inv.context
      have hs : res = restore zero { w with param := if no then none else w.param } init v h := hres
      rw [← hs] at R
      rcases R with ⟨_, _, r3, _⟩ | ⟨r1, _⟩ | ⟨r1, _⟩
      · exact absurd r3 c
      · rw [r1]; rfl
      · rw [r1]; rfl
    | setWeights v =>
      exfalso
      apply c
      rw [hres]
      simp only [step, tileSet]
      by_cases f : v.sameShape w.tile.d w.tile.x = true
      · simp only [f, if_true, Option.isSome_none, Bool.false_eq_true, if_false]
        rw [sync_eq inv]
      · simp only [f, Bool.false_eq_true, if_false, Option.isSome_some, if_true]
        exact hctx
    | rawSet v => rw [hres] at c; exact absurd hctx c
    | inPlace f => rw [hres] at c; exact absurd hctx c
    | optim f =>
      exfalso
      apply c
      rw [hres]
      simp only [step]
      cases w.param <;> exact hctx
    | assign i =>
      exfalso
      apply c
      rw [hres]
      simp only [step]
      cases w.param <;> exact hctx
    | sync =>
      exfalso
      apply c
      rw [hres]
      simp only [step]
      rw [sync_eq inv]
  · rintro (⟨arg, i, ho, q⟩ | ⟨v, init, no, rfl, q⟩)
    · exact (pass arg ho).2 ⟨i, q⟩
    · have hsub : ∀ p, (if no then none else w.param) = some p → w.param = some p := by
        intro p e
        cases no <;> simp_all
      obtain ⟨-, R⟩ := restore_cases zero { w with param := if no then none else w.param } init v h inv.old
        (fun e => by have := (inv.py e).2; cases no <;> simp [this]) (fun p e => inv.param p (hsub p e)) inv.context
      have hs : res = restore zero { w with param := if no then none else w.param } init v h := hres
      rw [← hs] at R
      have hcl := inv.context.1
      rcases R with ⟨r1, _⟩ | ⟨_, _, r3, r4, _⟩ | ⟨_, _, r3, r4, _⟩
      · rw [r1] at q; cases q
      · rw [r4]
        show w.ctx ≠ _
        omega
      · rw [r4]
        show w.ctx ≠ _
        omega

/-! ### Two tiles -/

/-- Calls to two tiles in any order; `true`: to the first. -/
def run2 (zero : K) (a b : Wrap) (h : Heap K) : List (Bool × Op K) → Wrap × Wrap × Heap K
  | [] => (a, b, h)
  | (true, o) :: os => run2 zero (step zero a h o).2.1 b (step zero a h o).2.2 os
  | (false, o) :: os => run2 zero a (step zero b h o).2.1 (step zero b h o).2.2 os

/-- The tensors given to the calls exist, and the memory of one tile is not given to the other. -/
def Given2 (zero : K) (a b : Wrap) (h : Heap K) : List (Bool × Op K) → Prop
  | [] => True
  | (true, o) :: os => Given h o ∧ (∀ i ∈ o.args, ¬ Knows b i) ∧
      Given2 zero (step zero a h o).2.1 b (step zero a h o).2.2 os
  | (false, o) :: os => Given h o ∧ (∀ i ∈ o.args, ¬ Knows a i) ∧
      Given2 zero a (step zero b h o).2.1 (step zero b h o).2.2 os

/-- All that can be read of a tile. -/
def reads (w : Wrap) (h : Heap K) : Buf K × Buf K × Option (Buf K) := (weightsOf w h, contextOf w h, paramOf w h)

/-- Two tiles that share nothing. -/
structure Apart (a b : Wrap) (h : Heap K) : Prop where
  left : Inv a h
  right : Inv b h
  apart : ∀ i, Knows a i → ¬ Knows b i

theorem Apart.step (zero : K) {a b : Wrap} {h : Heap K} (A : Apart a b h) (o : Op K) (g : Given h o)
    (n : ∀ i ∈ o.args, ¬ Knows b i) :
    Apart (step zero a h o).2.1 b (step zero a h o).2.2 ∧ reads b (step zero a h o).2.2 = reads b h := by
  have P := step_post zero A.left o g
  have same : ∀ i, Knows b i → (Shared.step zero a h o).2.2.mem i = h.mem i := by
    intro i k
    refine P.frame i (A.right.knows_live k).1 ?_ ?_
    · rintro rfl
      exact A.apart _ (Or.inl rfl) k
    · intro e
      exact A.apart _ (Or.inr (Or.inr (Or.inl e))) k
  have live : ∀ i, i < h.next ∧ i ∉ h.dead → i < (Shared.step zero a h o).2.2.next ∧
      i ∉ (Shared.step zero a h o).2.2.dead := by
    intro i q
    refine ⟨lt_of_lt_of_le q.1 P.mono, fun c => ?_⟩
    rcases P.dead i c with c | c
    · exact q.2 c
    · omega
  refine ⟨⟨P.inv, ?_, ?_⟩, ?_⟩
  · refine ⟨A.right.cpp, A.right.py, live _ A.right.live, ?_, live _ A.right.context,
      fun p e => live p (A.right.param p e), P.inv.old⟩
    rw [same _ (Or.inl rfl)]
    exact A.right.fits
  · intro i k kb
    rcases P.knows i k with q | q | q
    · exact A.apart i q kb
    · have := (A.right.knows_live kb).1
      omega
    · exact n i q kb
  · unfold reads weightsOf contextOf paramOf
    rw [same _ (Or.inl rfl), same _ (Or.inr (Or.inr (Or.inr rfl)))]
    congr 2
    cases e : b.param with
    | none => rfl
    | some p => simp [same p (Or.inr (Or.inr (Or.inl e)))]

theorem Apart.symm {a b : Wrap} {h : Heap K} (A : Apart a b h) : Apart b a h :=
  ⟨A.right, A.left, fun i k k' => A.apart i k' k⟩

theorem Apart.run2 (zero : K) (ops : List (Bool × Op K)) : ∀ {a b : Wrap} {h : Heap K}, Apart a b h →
    Given2 zero a b h ops → Apart (run2 zero a b h ops).1 (run2 zero a b h ops).2.1 (run2 zero a b h ops).2.2 := by
  induction ops with
  | nil => intro a b h A _; exact A
  | cons c ops ih =>
    intro a b h A g
    obtain ⟨side, o⟩ := c
    cases side with
    | true => exact ih (A.step zero o g.1 g.2.1).1 g.2.2
    | false => exact ih (A.symm.step zero o g.1 g.2.1).1.symm g.2.2

/-- Two tiles constructed one after the other share nothing. -/
theorem construct_apart (zero : K) (na sa nb sb : Bool) (d x d' x' : ℕ) (ia ib : List K) (h0 : Heap K) (good : Good h0)
    (a : Wrap) (h1 : Heap K) (ha : construct zero na sa d x ia h0 = (none, a, h1)) (b : Wrap) (h2 : Heap K)
    (hb : construct zero nb sb d' x' ib h1 = (none, b, h2)) : Apart a b h2 := by
  obtain ⟨a', h1', ea, inva, -, -, -, -, -, -, -, -⟩ := construct_spec zero na sa d x ia h0 good
  rw [ea] at ha
  cases ha
  obtain ⟨b', h2', eb, invb, -, -, -, kb, fb, mb, db, -⟩ := construct_spec zero nb sb d' x' ib h1 inva.old
  rw [eb] at hb
  cases hb
  have live : ∀ i, i < h1.next ∧ i ∉ h1.dead → i < h2.next ∧ i ∉ h2.dead := by
    intro i q
    refine ⟨lt_of_lt_of_le q.1 mb, fun c => ?_⟩
    rcases db i c with c | c
    · exact q.2 c
    · omega
  refine ⟨⟨inva.cpp, inva.py, live _ inva.live, ?_, live _ inva.context, fun p e => live p (inva.param p e), invb.old⟩,
    invb, ?_⟩
  · rw [fb _ inva.live.1]
    exact inva.fits
  · intro i k k'
    have h1 := (inva.knows_live k).1
    have h2 := kb i k'
    omega

/-- **C90 (two tiles).** Two tiles never influence each other: after any interleaved calls to two tiles (the memory of
one not being given to the other by the user), a further call to one of them - including loading a state into it,
raising or not - leaves everything that can be read of the other unchanged. -/
theorem C90_apart (zero : K) (na sa nb sb : Bool) (d x d' x' : ℕ) (ia ib : List K) (h0 : Heap K) (good : Good h0)
    (a : Wrap) (h1 : Heap K) (ha : construct zero na sa d x ia h0 = (none, a, h1)) (b : Wrap) (h2 : Heap K)
    (hb : construct zero nb sb d' x' ib h1 = (none, b, h2)) (ops : List (Bool × Op K))
    (g : Given2 zero a b h2 ops) (a' b' : Wrap) (h : Heap K) (hr : run2 zero a b h2 ops = (a', b', h)) (o : Op K)
    (go : Given h o) :
    ((∀ i ∈ o.args, ¬ Knows b' i) → reads b' (step zero a' h o).2.2 = reads b' h) ∧
    ((∀ i ∈ o.args, ¬ Knows a' i) → reads a' (step zero b' h o).2.2 = reads a' h) := by
  have A := (construct_apart zero na sa nb sb d x d' x' ia ib h0 good a h1 ha b h2 hb).run2 zero ops g
  rw [hr] at A
  exact ⟨fun n => (A.step zero o go n).2, fun n => (A.symm.step zero o go n).2⟩

/-- **C90 (copies).** Copying or pickling a tile in any state fails only if the user has put data of a foreign size
behind the shared parameter; otherwise the copy has the weights of the original in all its views (also if other data
were put behind the parameter of the original but not yet used), it shares no memory with the original, and everything
that can be read of the original is unchanged. -/
theorem C90_copy (zero : K) (d x : ℕ) (w : Wrap) (h : Heap K) (r : Reached zero d x w h) (init : List K)
    (res : Res K) (hres : res = deepcopy zero w init h) :
    (res.1 = none ↔ ∀ p, w.param = some p → Fits (h.mem p) d x ∨ Fits (h.mem p) x d) ∧
    (res.1 = none → weightsOf res.2.1 res.2.2 = weightsOf w h ∧ contextOf res.2.1 res.2.2 = weightsOf w h ∧
      paramOf res.2.1 res.2.2 = w.param.map (fun _ => weightsOf w h) ∧
      reads w res.2.2 = reads w h ∧ ∀ i, Knows w i → ¬ Knows res.2.1 i) := by
  obtain ⟨inv, hd, hx⟩ := r.inv
  have fw : Fits (h.mem w.tile.ptr) w.tile.d w.tile.x := inv.fits
  rcases (show w.param = none ∨ ∃ p, w.param = some p by cases w.param <;> simp) with ep | ⟨p, ep⟩
  · have hs : res = restore zero w init (h.mem w.tile.ptr) h := by
      rw [hres]
      simp only [deepcopy, ep]
    obtain ⟨P, R⟩ := restore_cases zero w init (h.mem w.tile.ptr) h inv.old (fun e => (inv.py e).2) inv.param inv.context
    rw [← hs] at P R
    have frame : ∀ i, Knows w i → res.2.2.mem i = h.mem i := by
      intro i k
      have := (inv.knows_live k).1
      exact P.frame i this (by show i ≠ h.next; omega) (by show w.param ≠ some i; rw [ep]; simp)
    rcases R with ⟨r1, _, r3, r4, r5⟩ | ⟨_, r2, _⟩ | ⟨_, _, _, _, _, _, p, r7, _⟩
    · rcases r5 with ⟨_, r5, r6⟩ | ⟨p, r5, _⟩
      swap
      · rw [ep] at r5; cases r5
      refine ⟨⟨fun _ p e => (by rw [ep] at e; cases e), fun _ => r1⟩, fun _ => ⟨r4, ?_, ?_, ?_, ?_⟩⟩
      · rw [contextOf, r3]; exact r4
      · simp [paramOf, r5, ep]
      · unfold reads weightsOf contextOf paramOf
        rw [frame _ (Or.inl rfl), frame _ (Or.inr (Or.inr (Or.inr rfl))), ep]
        rfl
      · intro i k k'
        have hl := (inv.knows_live k).1
        have hk : i = res.2.1.tile.ptr := by
          rcases k' with k' | k' | k' | k'
          · exact k'
          · have I := P.inv
            cases e : res.2.1.tile.native with
            | true => rw [(I.cpp e).1] at k'; injection k' with k'; exact k'.symm
            | false => rw [(I.py e).1] at k'; cases k'
          · rw [r5] at k'; cases k'
          · rw [k', r3]
        omega
    · exact absurd fw r2
    · rw [ep] at r7; cases r7
  · have nat := native_of_param inv (by rw [ep]; rfl)
    have hs : res = restore zero { w with param := some h.next } init (h.mem w.tile.ptr) (h.alloc (h.mem p)) := by
      rw [hres]
      simp only [deepcopy, ep]
    have hn : (h.alloc (h.mem p)).next = h.next + 1 := rfl
    have hnew : (h.alloc (h.mem p)).mem h.next = h.mem p := by simp [alloc_mem]
    have hold : ∀ i, i < h.next → (h.alloc (h.mem p)).mem i = h.mem i := by
      intro i hi
      simp [alloc_mem, ne_of_lt hi]
    obtain ⟨P, R⟩ := restore_cases zero { w with param := some h.next } init (h.mem w.tile.ptr) (h.alloc (h.mem p))
      (fun a q => by have := inv.old a q; rw [hn]; omega) (fun e => by rw [show w.tile.native = true from nat] at e; cases e)
      (fun q e => by
        injection e with e
        subst e
        exact ⟨by rw [hn]; omega, fun c => absurd (inv.old _ c) (lt_irrefl _)⟩)
      ⟨by rw [hn]; have := inv.context.1; show w.ctx < _; omega, inv.context.2⟩
    rw [← hs] at P R
    have frame : ∀ i, Knows w i → res.2.2.mem i = h.mem i := by
      intro i k
      have hi := (inv.knows_live k).1
      rw [P.frame i (by rw [hn]; omega) (by show i ≠ (h.alloc (h.mem p)).next; rw [hn]; omega)
        (by show some h.next ≠ some i; intro c; injection c with c; omega), hold i hi]
    rcases R with ⟨r1, _, r3, r4, r5⟩ | ⟨_, r2, _⟩ | ⟨r1, _, _, _, _, _, q, r7, r8, r9⟩
    · rcases r5 with ⟨r5, _⟩ | ⟨q, r5, r6, r7⟩
      · cases r5
      have hq : h.next = q := by injection r5
      subst hq
      have hge : h.next ≤ res.2.1.tile.ptr := by
        rcases r7 with ⟨_, r7⟩ | ⟨_, _, r7⟩
        · omega
        · rw [hn] at r7; omega
      refine ⟨⟨fun _ q e => ?_, fun _ => r1⟩, fun _ => ⟨r4, ?_, ?_, ?_, ?_⟩⟩
      · rw [ep] at e
        injection e with e
        subst e
        rw [hnew] at r7
        rcases r7 with ⟨r7, _⟩ | ⟨_, r7, _⟩
        · left; rw [← hd, ← hx]; exact r7
        · right; rw [← hd, ← hx]; exact r7
      · rw [contextOf, r3]; exact r4
      · rw [paramOf, r6, ep]
        show some (res.2.2.mem res.2.1.tile.ptr) = some (h.mem w.tile.ptr)
        rw [r4]
      · unfold reads weightsOf contextOf paramOf
        rw [frame _ (Or.inl rfl), frame _ (Or.inr (Or.inr (Or.inr rfl))), ep]
        show (_, _, some (res.2.2.mem p)) = _
        rw [frame p (Or.inr (Or.inr (Or.inl ep)))]
        rfl
      · intro i k k'
        have hl := (inv.knows_live k).1
        have hk : i = res.2.1.tile.ptr := by
          rcases k' with k' | k' | k' | k'
          · exact k'
          · have I := P.inv
            cases e : res.2.1.tile.native with
            | true => rw [(I.cpp e).1] at k'; injection k' with k'; exact k'.symm
            | false => rw [(I.py e).1] at k'; cases k'
          · rw [r6] at k'; injection k' with k'; exact k'.symm
          · rw [k', r3]
        omega
    · exact absurd fw r2
    · have hq : h.next = q := by injection r7
      subst hq
      rw [hnew] at r8 r9
      refine ⟨⟨fun e => (by rw [r1] at e; cases e), fun c => ?_⟩, fun e => (by rw [r1] at e; cases e)⟩
      rcases c p ep with c | c
      · rw [← hd, ← hx] at c; exact absurd c r8
      · rw [← hd, ← hx] at c; exact absurd c r9

end Aihw.Shared

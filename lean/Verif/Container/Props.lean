import Verif.Container.Lemmas
import Mathlib.Data.List.Forall2

/-!
# C60: containers reach every tile exactly once
-/
namespace Aihw.Container

variable {σ W : Type}

/-! ## Specification -/

/-- An object registered (directly or indirectly, under any name) in `root`, or `root` itself. -/
def Registered (s : Sys σ) (root i : Nat) : Prop := ∃ p, resolve s.heap root p = some i

/-- `l` lists exactly the registered objects of a kind, each once, under distinct names by which they
can be reached. -/
structure Lists (s : Sys σ) (root : Nat) (P : Kind → Prop) (l : List (String × Nat)) : Prop where
  names : (l.map Prod.fst).Nodup
  ids : (l.map Prod.snd).Nodup
  all : ∀ i, i ∈ l.map Prod.snd ↔ Registered s root i ∧ P (s.heap i).kind
  path : ∀ q ∈ l, ∃ p, q.1 = dotted p ∧ resolve s.heap root p = some q.2

/-! ## Search -/

theorem modules_visited {s : Sys σ} (hw : WF s) {root : Nat} (hr : root < s.size) :
    Visited s.heap [] root [] (visit s.heap (s.size + 1) "" root []) :=
  visit_spec hw (s.size + 1) [] root [] (by intro n hn; cases hn) hr List.nodup_nil
    (by intro k hk; cases hk) (by simp)

theorem modules_all {s : Sys σ} (hw : WF s) {root : Nat} (hr : root < s.size) :
    ∀ i, i ∈ (namedModules s root).map Prod.snd ↔ Registered s root i := by
  have V := modules_visited hw hr
  have hmemo : ∀ k, k ∈ (visit s.heap (s.size + 1) "" root []).2 ↔
      k ∈ (namedModules s root).map Prod.snd := by
    intro k; rw [V.memo_eq]; simp [namedModules]
  intro i
  constructor
  · intro h
    obtain ⟨q, hq, rfl⟩ := List.mem_map.1 h
    obtain ⟨p, hp, -⟩ := V.path q hq
    exact ⟨p, hp⟩
  · rintro ⟨p, hp⟩
    have key : ∀ (p : List String) (j : Nat), j ∈ (namedModules s root).map Prod.snd →
        resolve s.heap j p = some i → i ∈ (namedModules s root).map Prod.snd := by
      intro p
      induction p with
      | nil => intro j hj h; cases h; exact hj
      | cons n p ih =>
        intro j hj h
        simp only [resolve, child] at h
        cases hk : look n (s.heap j).kids with
        | none => rw [hk] at h; cases h
        | some o =>
          rw [hk] at h
          cases o with
          | none => cases h
          | some k =>
            obtain ⟨q, hq, hqj⟩ := List.mem_map.1 hj
            refine ih k ((hmemo k).1 (V.closed q hq n k ?_)) h
            rw [hqj]; exact look_mem hk
    exact key p root ((hmemo root).1 V.start) hp

theorem nodup_of_map {α β : Type} {f : α → β} {l : List α} (h : (l.map f).Nodup) : l.Nodup :=
  List.Nodup.of_map f h

theorem lists_filter {s : Sys σ} (hw : WF s) {root : Nat} (hr : root < s.size) (P : Kind → Bool) :
    Lists s root (fun k => P k = true) ((namedModules s root).filter fun p => P (s.heap p.2).kind) := by
  have V := modules_visited hw hr
  have hids : ((namedModules s root).map Prod.snd).Nodup := by
    have := V.nodup
    rw [V.memo_eq, List.append_nil, List.nodup_reverse] at this
    exact this
  have hsub : ((namedModules s root).filter fun p => P (s.heap p.2).kind).Sublist (namedModules s root) :=
    List.filter_sublist
  have hpath : ∀ q ∈ namedModules s root, ∃ p, q.1 = dotted p ∧ resolve s.heap root p = some q.2 := by
    intro q hq
    obtain ⟨p, h1, h2⟩ := V.path q hq
    exact ⟨p, h2, h1⟩
  have hnames : ((namedModules s root).map Prod.fst).Nodup := by
    have hnd := nodup_of_map hids
    rw [List.nodup_map_iff_inj_on hnd]
    intro a ha b hb hab
    obtain ⟨p, p1, p2⟩ := hpath a ha
    obtain ⟨q, q1, q2⟩ := hpath b hb
    have hpq : p = q := dotted_inj p q (resolve_names hw p2) (resolve_names hw q2)
      (by rw [← p1, ← q1, hab])
    rw [hpq, q2] at p2
    exact Prod.ext hab (Option.some.inj p2).symm
  refine ⟨hnames.sublist (hsub.map _), hids.sublist (hsub.map _), ?_, fun q hq => hpath q (hsub.subset hq)⟩
  intro i
  rw [← modules_all hw hr]
  simp only [List.mem_map, List.mem_filter]
  constructor
  · rintro ⟨q, ⟨h1, h2⟩, rfl⟩; exact ⟨⟨q, h1, rfl⟩, h2⟩
  · rintro ⟨⟨q, h1, rfl⟩, h2⟩; exact ⟨q, ⟨h1, h2⟩, rfl⟩

/-- **C60 (every tile once).**  `named_analog_tiles` of any module of any model (with shared modules
and even cycles) lists every registered tile exactly once; the names are distinct, and the tile is
what one gets by following its name. -/
theorem C60_tiles_once (s : Sys σ) (hw : WF s) (root : Nat) (hr : root < s.size) :
    Lists s root (fun k => ∃ a b, k = .tile a b) (namedTiles s root) := by
  have h := lists_filter hw hr Kind.isTile
  refine ⟨h.names, h.ids, ?_, h.path⟩
  intro i
  rw [show i ∈ (namedTiles s root).map Prod.snd ↔ _ from h.all i]
  apply and_congr_right
  intro _
  cases (s.heap i).kind <;> simp [Kind.isTile]

/-- **C60 (every layer once).**  The same for the analog layers (without containers) and for the
analog modules (with containers). -/
theorem C60_layers_once (s : Sys σ) (hw : WF s) (root : Nat) (hr : root < s.size) :
    Lists s root (· = .layer) (namedLayers s root) ∧
    Lists s root (fun k => k = .layer ∨ k = .container) (namedAnalogModules s root) := by
  constructor
  · have h := lists_filter hw hr (fun k => k.isAnalog && !decide (k = .container))
    refine ⟨h.names, h.ids, ?_, h.path⟩
    intro i
    rw [show i ∈ (namedLayers s root).map Prod.snd ↔ _ from h.all i]
    apply and_congr_right
    intro _
    cases (s.heap i).kind <;> simp [Kind.isAnalog]
  · have h := lists_filter hw hr Kind.isAnalog
    refine ⟨h.names, h.ids, ?_, h.path⟩
    intro i
    rw [show i ∈ (namedAnalogModules s root).map Prod.snd ↔ _ from h.all i]
    apply and_congr_right
    intro _
    cases (s.heap i).kind <;> simp [Kind.isAnalog]

/-- **C60 (names in unshared models).**  A tile registered under one path only is listed under that
path; so models built in the same way have the same tile names. -/
theorem C60_unshared_name (s : Sys σ) (hw : WF s) (root : Nat) (hr : root < s.size) (p : List String)
    (i : Nat) (hp : resolve s.heap root p = some i)
    (honly : ∀ q, resolve s.heap root q = some i → q = p) (ht : ∃ a b, (s.heap i).kind = .tile a b) :
    (dotted p, i) ∈ namedTiles s root := by
  have L := C60_tiles_once s hw root hr
  obtain ⟨q, hq, hqi⟩ := List.mem_map.1 ((L.all i).2 ⟨⟨p, hp⟩, ht⟩)
  obtain ⟨p', h1, h2⟩ := L.path q hq
  rw [hqi] at h2
  have := honly p' h2
  subst this
  have : q = (dotted p', i) := Prod.ext h1 hqi
  rwa [this] at hq

/-- **C60 (a name determines its tile).**  Any path with the listed name leads to the listed tile. -/
theorem C60_name_resolves (s : Sys σ) (hw : WF s) (root : Nat) (hr : root < s.size) (p : List String)
    (i : Nat) (hv : ∀ n ∈ p, n ≠ "" ∧ '.' ∉ n.toList) (h : (dotted p, i) ∈ namedTiles s root) :
    resolve s.heap root p = some i := by
  obtain ⟨q, h1, h2⟩ := (C60_tiles_once s hw root hr).path _ h
  rw [dotted_inj p q hv (resolve_names hw h2) h1]
  exact h2

/-! ## Loops over the tiles -/

/-- Outcome of a loop over listed tiles: either all of them went through, or the loop stopped at the
first tile that raised; every processed tile got its own new state, the others are untouched. -/
structure LoopRes (body : String → Nat → σ → Except PyErr Unit × σ) (l : List (String × Nat))
    (s : Sys σ) (r : Except PyErr Unit × Sys σ) : Prop where
  heap : r.2.heap = s.heap ∧ r.2.size = s.size
  ok : (∀ q ∈ l, (body q.1 q.2 (s.st q.2)).1 = .ok ()) → r.1 = .ok () ∧
    (∀ q ∈ l, r.2.st q.2 = (body q.1 q.2 (s.st q.2)).2)
  other : ∀ i, i ∉ l.map Prod.snd → r.2.st i = s.st i
  raised : ∀ e, r.1 = .error e → ∃ l₁ q l₂, l = l₁ ++ q :: l₂ ∧
    (∀ z ∈ l₁, (body z.1 z.2 (s.st z.2)).1 = .ok () ∧ r.2.st z.2 = (body z.1 z.2 (s.st z.2)).2) ∧
    (body q.1 q.2 (s.st q.2)).1 = .error e ∧ r.2.st q.2 = (body q.1 q.2 (s.st q.2)).2 ∧
    ∀ z ∈ l₂, r.2.st z.2 = s.st z.2

theorem tileLoop_spec (body : String → Nat → σ → Except PyErr Unit × σ) (l : List (String × Nat))
    (hl : (l.map Prod.snd).Nodup) (s : Sys σ) : LoopRes body l s (tileLoop body l s) := by
  induction l generalizing s with
  | nil =>
    exact ⟨⟨rfl, rfl⟩, fun _ => ⟨rfl, by intro q hq; cases hq⟩, fun _ _ => rfl,
      by intro e h; cases h⟩
  | cons q l ih =>
    obtain ⟨n, i⟩ := q
    rw [List.map_cons, List.nodup_cons] at hl
    obtain ⟨hi, hl⟩ := hl
    unfold tileLoop
    simp only
    generalize hs' : ({ s with st := fun k => if k = i then (body n i (s.st i)).2 else s.st k } : Sys σ)
      = s'
    have hst : ∀ k, s'.st k = if k = i then (body n i (s.st i)).2 else s.st k := by
      intro k; rw [← hs']
    have hne : ∀ z ∈ l, z.2 ≠ i := fun z hz e => hi (List.mem_map.2 ⟨z, hz, e⟩)
    have hz : ∀ z ∈ l, s'.st z.2 = s.st z.2 := fun z h => by rw [hst, if_neg (hne z h)]
    have hhp : s'.heap = s.heap ∧ s'.size = s.size := by rw [← hs']; exact ⟨rfl, rfl⟩
    cases hb : (body n i (s.st i)).1 with
    | error e =>
      simp only
      refine ⟨hhp, ?_, ?_, ?_⟩
      · intro h
        have := h (n, i) (List.mem_cons_self ..)
        simp only at this
        rw [hb] at this; cases this
      · intro k hk
        rw [List.map_cons, List.mem_cons, not_or] at hk
        show s'.st k = s.st k
        rw [hst, if_neg hk.1]
      · intro e' he
        cases he
        refine ⟨[], (n, i), l, rfl, (by intro z h; cases h), hb, ?_, hz⟩
        show s'.st i = _
        rw [hst, if_pos rfl]
    | ok u =>
      simp only
      have R := ih hl s'
      refine ⟨⟨R.heap.1.trans hhp.1, R.heap.2.trans hhp.2⟩, ?_, ?_, ?_⟩
      · intro h
        obtain ⟨r1, r2⟩ := R.ok (fun z h' => by
          rw [hz z h']; exact h z (List.mem_cons_of_mem _ h'))
        refine ⟨r1, ?_⟩
        intro z hz'
        rcases List.mem_cons.1 hz' with rfl | hz'
        · rw [R.other i hi, hst, if_pos rfl]
        · rw [r2 z hz', hz z hz']
      · intro k hk
        rw [List.map_cons, List.mem_cons, not_or] at hk
        rw [R.other k hk.2, hst, if_neg hk.1]
      · intro e he
        obtain ⟨l₁, q, l₂, h1, h2, h3, h4, h5⟩ := R.raised e he
        have m1 : ∀ z ∈ l₁, z ∈ l := fun z h => by rw [h1]; simp [h]
        have mq : q ∈ l := by rw [h1]; simp
        have m2 : ∀ z ∈ l₂, z ∈ l := fun z h => by rw [h1]; simp [h]
        refine ⟨(n, i) :: l₁, q, l₂, by rw [h1]; rfl, ?_, ?_, ?_, ?_⟩
        · intro z hz'
          rcases List.mem_cons.1 hz' with rfl | hz'
          · exact ⟨hb, by rw [R.other i hi, hst, if_pos rfl]⟩
          · have := h2 z hz'
            rw [hz z (m1 z hz')] at this
            exact this
        · rw [← hz q mq]; exact h3
        · rw [← hz q mq]; exact h4
        · intro z hz'
          rw [h5 z hz', hz z (m2 z hz')]

/-- **C60 (applying a function to all tiles).**  `apply_to_analog_tiles` calls the function exactly
once on every registered tile, whatever the number of names it is registered under, and on nothing
else. -/
theorem C60_apply (s : Sys σ) (hw : WF s) (root : Nat) (hr : root < s.size)
    (fn : Nat → σ → Except PyErr Unit × σ)
    (hok : ∀ i, Registered s root i → (∃ a b, (s.heap i).kind = .tile a b) → (fn i (s.st i)).1 = .ok ()) :
    (applyTiles fn root s).1 = .ok () ∧ (applyTiles fn root s).2.heap = s.heap ∧
    ∀ i, ((Registered s root i ∧ ∃ a b, (s.heap i).kind = .tile a b) →
        (applyTiles fn root s).2.st i = (fn i (s.st i)).2) ∧
      (¬(Registered s root i ∧ ∃ a b, (s.heap i).kind = .tile a b) →
        (applyTiles fn root s).2.st i = s.st i) := by
  have L := C60_tiles_once s hw root hr
  have R := tileLoop_spec (fun _ i => fn i) (namedTiles s root) L.ids s
  obtain ⟨r1, r2⟩ := R.ok (fun q hq => by
    have := (L.all q.2).1 (List.mem_map_of_mem hq)
    exact hok q.2 this.1 this.2)
  refine ⟨r1, R.heap.1, fun i => ⟨fun h => ?_, fun h => ?_⟩⟩
  · obtain ⟨q, hq, rfl⟩ := List.mem_map.1 ((L.all i).2 h)
    exact r2 q hq
  · exact R.other i (fun hc => h ((L.all i).1 hc))

end Aihw.Container

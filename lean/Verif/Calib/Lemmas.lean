import Verif.Calib.Spec
import Mathlib.Data.List.Perm.Subperm

/-! # Lemmas on calibration: the loops act tile by tile -/
namespace Aihw.Calib
open Spec

/-- The calls of tile `i` with their shuffles. -/
def callsOf (i : Nat) : List Event → List (List Vec × (List Vec → List Vec))
  | [] => []
  | .raises _ :: _ => []
  | .call j x σ :: evs => if j = i then (x, σ) :: callsOf i evs else callsOf i evs

theorem callsOf_fst (i : Nat) (evs : List Event) : (callsOf i evs).map (·.1) = fed i evs := by
  induction evs with
  | nil => rfl
  | cons e evs ih =>
    cases e with
    | raises e => rfl
    | call j x σ =>
      simp only [callsOf, fed]
      by_cases h : j = i <;> simp [h, ih]

theorem callsOf_mem {i : Nat} {evs : List Event} {p : List Vec × (List Vec → List Vec)}
    (h : p ∈ callsOf i evs) : Event.call i p.1 p.2 ∈ evs := by
  induction evs with
  | nil => simp [callsOf] at h
  | cons e evs ih =>
    cases e with
    | raises e => simp [callsOf] at h
    | call j x σ =>
      simp only [callsOf] at h
      by_cases c : j = i
      · rw [if_pos c] at h
        rcases List.mem_cons.1 h with h | h
        · rw [h, c]; exact List.mem_cons_self
        · exact List.mem_cons_of_mem _ (ih h)
      · rw [if_neg c] at h
        exact List.mem_cons_of_mem _ (ih h)

/-- A sequence of calls of one tile. -/
def runCalls (std : List Vec → Option ℚ) :
    Tile → List (List Vec × (List Vec → List Vec)) → Tile × Option PyErr
  | t, [] => (t, .none)
  | t, c :: cs =>
    match callTile std c.2 c.1 t with
    | (t', some e) => (t', some e)
    | (t', .none) => runCalls std t' cs

theorem pass_length (std : List Vec → Option ℚ) (evs : List Event) (ts : List Tile) :
    (pass std ts evs).1.length = ts.length := by
  induction evs generalizing ts with
  | nil => rfl
  | cons e evs ih =>
    cases e with
    | raises e => rfl
    | call i x σ =>
      simp only [pass]
      cases h : ts[i]? with
      | none => simpa using ih ts
      | some t =>
        simp only
        rcases hc : callTile std σ x t with ⟨t', eo⟩
        cases eo with
        | some e => simp
        | none => simp only; rw [ih]; simp

theorem pass_ok {std : List Vec → Option ℚ} {evs : List Event} {ts : List Tile}
    (h : (pass std ts evs).2 = .none) {i : Nat} {t : Tile} (ht : ts[i]? = some t) :
    (pass std ts evs).1[i]? = some (runCalls std t (callsOf i evs)).1 ∧
    (runCalls std t (callsOf i evs)).2 = .none := by
  induction evs generalizing ts t with
  | nil => exact ⟨ht, rfl⟩
  | cons e evs ih =>
    cases e with
    | raises e => simp [pass] at h
    | call j x σ =>
      simp only [pass] at h ⊢
      cases hj : ts[j]? with
      | none =>
        rw [hj] at h
        simp only at h ⊢
        have hne : j ≠ i := by intro c; rw [c, ht] at hj; cases hj
        simp only [callsOf, if_neg hne]
        exact ih h ht
      | some tj =>
        rw [hj] at h
        simp only at h ⊢
        rcases hc : callTile std σ x tj with ⟨t', eo⟩
        rw [hc] at h
        cases eo with
        | some e => simp at h
        | none =>
          simp only at h ⊢
          by_cases c : j = i
          · subst c
            rw [ht] at hj
            cases hj
            have hl : j < ts.length := (List.getElem?_eq_some_iff.1 ht).1
            have ht' : (ts.set j t')[j]? = some t' := by simp [hl]
            obtain ⟨h1, h2⟩ := ih h ht'
            simp only [callsOf, if_true, runCalls, hc]
            exact ⟨h1, h2⟩
          · simp only [callsOf, if_neg c]
            have ht' : (ts.set j t')[i]? = some t := by
              rw [List.getElem?_set_ne c]; exact ht
            exact ih h ht'

theorem prepareAll_ok {a : Args} {ts : List Tile} (h : (prepareAll a ts).2.2 = .none) :
    (prepareAll a ts).1 = ts.map (fun t => (prepare a t).1) ∧
    (prepareAll a ts).2.1 = ts.map (fun t => (prepare a t).2.1) ∧
    ∀ t ∈ ts, (prepare a t).2.2 = .none := by
  induction ts with
  | nil => simp [prepareAll]
  | cons t ts ih =>
    simp only [prepareAll] at h ⊢
    rcases hp : prepare a t with ⟨t', s, eo⟩
    rw [hp] at h
    cases eo with
    | some e => simp at h
    | none =>
      simp only at h ⊢
      obtain ⟨h1, h2, h3⟩ := ih h
      refine ⟨by simp [h1, hp], by simp [h2, hp], ?_⟩
      intro u hu
      rcases List.mem_cons.1 hu with hu | hu
      · rw [hu, hp]
      · exact h3 u hu

theorem finishAll_ok {a : Args} {ws : List (Option Bool × Option CVal × Tile)}
    (h : (finishAll a ws).2 = .none) :
    (finishAll a ws).1 = ws.map (fun w => (finish a w.1 w.2.1 w.2.2).1) ∧
    ∀ w ∈ ws, (finish a w.1 w.2.1 w.2.2).2 = .none := by
  induction ws with
  | nil => simp [finishAll]
  | cons w ws ih =>
    obtain ⟨s, c, t⟩ := w
    simp only [finishAll] at h ⊢
    rcases hp : finish a s c t with ⟨t', eo⟩
    rw [hp] at h
    cases eo with
    | some e => simp at h
    | none =>
      simp only at h ⊢
      obtain ⟨h1, h2⟩ := ih h
      refine ⟨by simp [h1, hp], ?_⟩
      intro u hu
      rcases List.mem_cons.1 hu with hu | hu
      · rw [hu, hp]
      · exact h2 u hu

/-- What a successful calibration does to one tile. -/
def tileResult (std : List Vec → Option ℚ) (a : Args) (t : Tile)
    (calls : List (List Vec × (List Vec → List Vec))) : Tile × Option PyErr :=
  let p := prepare a t
  let c := (runCalls std p.1 calls).1
  finish a p.2.1 (ownCache p.2.1 c) (enableRange (dropOwn p.2.1 c))

theorem calibrate_ok {std : List Vec → Option ℚ} {a : Args} {analog : Bool} {m m' : Model}
    {evs : List Event} (hn : a.ctype ≠ .none) (h : calibrate std a analog m evs = (m', .none)) :
    m'.training = m.training ∧ m'.sub = m.sub.map (fun _ => m.training) ∧
    m'.tiles.length = m.tiles.length ∧
    ∀ i t, m.tiles[i]? = some t →
      m'.tiles[i]? = some (tileResult std a t (callsOf i evs)).1 ∧
      (prepare a t).2.2 = .none ∧ (runCalls std (prepare a t).1 (callsOf i evs)).2 = .none ∧
      (tileResult std a t (callsOf i evs)).2 = .none := by
  unfold calibrate at h
  rw [if_neg hn] at h
  cases analog with
  | false => simp at h
  | true =>
    simp only [Bool.not_true, Bool.false_eq_true, if_false] at h
    rcases hp : prepareAll a m.tiles with ⟨ts, saved, eo⟩
    rw [hp] at h
    cases eo with
    | some e => simp at h
    | none =>
      simp only at h
      have hpa := prepareAll_ok (a := a) (ts := m.tiles) (by rw [hp])
      rw [hp] at hpa
      obtain ⟨p1, p2, p3⟩ := hpa
      simp only at p1 p2
      rcases hq : pass std ts evs with ⟨ts', eo⟩
      rw [hq] at h
      cases eo with
      | some e => simp at h
      | none =>
        simp only at h
        rcases hf : finishAll a ((saved.zip ts').map fun p =>
          (p.1, ownCache p.1 p.2, enableRange (dropOwn p.1 p.2))) with ⟨r, eo⟩
        rw [hf] at h
        cases eo with
        | some e => simp at h
        | none =>
          simp only [Prod.mk.injEq, and_true] at h
          subst h
          have hfa := finishAll_ok (a := a) (ws := (saved.zip ts').map fun p =>
            (p.1, ownCache p.1 p.2, enableRange (dropOwn p.1 p.2))) (by rw [hf])
          rw [hf] at hfa
          obtain ⟨f1, f2⟩ := hfa
          simp only at f1
          have hlen : ts'.length = m.tiles.length := by
            have := pass_length std evs ts
            rw [hq] at this
            rw [this, p1]; simp
          refine ⟨rfl, rfl, ?_, ?_⟩
          · simp [setTraining, f1, p2, hlen]
          · intro i t ht
            have hti : ts[i]? = some (prepare a t).1 := by rw [p1]; simp [ht]
            have hsi : saved[i]? = some (prepare a t).2.1 := by rw [p2]; simp [ht]
            have hpk := pass_ok (std := std) (evs := evs) (ts := ts) (by rw [hq]) hti
            rw [hq] at hpk
            obtain ⟨k1, k2⟩ := hpk
            simp only at k1
            have hz : (saved.zip ts')[i]? =
                some ((prepare a t).2.1, (runCalls std (prepare a t).1 (callsOf i evs)).1) := by
              rw [List.getElem?_zip_eq_some]; exact ⟨hsi, k1⟩
            refine ⟨?_, p3 t (List.mem_of_getElem? ht), k2, ?_⟩
            · simp only [setTraining, f1, List.map_map, List.getElem?_map, hz, Option.map_some]
              rfl
            · have := f2 _ (List.mem_map.2 ⟨_, List.mem_of_getElem? hz, rfl⟩)
              exact this

end Aihw.Calib

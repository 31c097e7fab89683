import Verif.Legacy.Entries
import Mathlib.Data.List.Induction

/-!
# C78: conversion of legacy checkpoints

Specification: Spec.lean (`OutSpec`, `FixedEntry`, `StateConv`, `newKey`, `lastVal`), `Legit` (Entries), `Convertible` (States).
-/
namespace Aihw.Legacy
open Aihw

/-- Specification: some layer of the model is mapped. -/
def HasMapped (m : LModel) : Prop := ∃ p ∈ m.layers, "Mapped".toList <:+: p.2

theorem hasMapped_iff (m : LModel) : m.hasMapped = true ↔ HasMapped m := by
  unfold LModel.hasMapped HasMapped
  rw [List.any_eq_true]
  constructor
  · rintro ⟨p, hp, h⟩; exact ⟨p, hp, (contains_iff _ _).1 h⟩
  · rintro ⟨p, hp, h⟩; exact ⟨p, hp, (contains_iff _ _).2 h⟩

/-- Specification: a key of a tile state. -/
def TileKey (k : Str) : Prop := ∃ ps t, k = path ps ++ ("analog_tile_state".toList ++ t) ∧ '.' ∉ t

theorem split_key : ∀ k : Str, ∃ ps name, k = path ps ++ name ∧ '.' ∉ name := by
  intro k
  induction k with
  | nil => exact ⟨[], [], rfl, List.not_mem_nil⟩
  | cons c t ih =>
    obtain ⟨ps, name, h, hd⟩ := ih
    by_cases hc : c = '.'
    · refine ⟨[] :: ps, name, ?_, hd⟩
      rw [path_cons, h, hc]
      rfl
    · cases ps with
      | nil =>
        refine ⟨[], c :: name, by rw [h]; rfl, ?_⟩
        rw [List.mem_cons, not_or]
        exact ⟨fun e => hc e.symm, hd⟩
      | cons p ps =>
        refine ⟨(c :: p) :: ps, name, ?_, hd⟩
        rw [h, path_cons, path_cons]
        rfl

theorem tileKey_iff (k : Str) : tileState.isPrefixOf (afterDot k) = true ↔ TileKey k := by
  rw [isPrefixOf_iff]
  constructor
  · intro h
    obtain ⟨ps, name, rfl, hd⟩ := split_key k
    rw [afterDot_path ps name hd] at h
    obtain ⟨t, rfl⟩ := h
    exact ⟨ps, t, rfl, fun g => hd (List.mem_append_right _ g)⟩
  · rintro ⟨ps, t, rfl, ht⟩
    rw [afterDot_path ps _ (by rw [List.mem_append, not_or]; exact ⟨by decide, ht⟩)]
    exact List.prefix_append _ _

theorem tileKey_infix {k : Str} (h : TileKey k) : "analog_tile_state".toList <:+: k := by
  obtain ⟨ps, t, rfl, _⟩ := h
  exact ⟨path ps, t, by rw [List.append_assoc]⟩

/-- Specification: `c` is the configuration of the last entry whose key satisfies `P`. -/
def LastCfg (P : Str → Prop) (l : Chk) (c : LCfg) : Prop :=
  ∃ a k d b, l = a ++ (k, .state d) :: b ∧ P k ∧ (∀ q ∈ b, ¬ P q.1) ∧ sget d "rpu_config" = some (.cfg c)

theorem cfgOf_ok {v : CVal} {c : LCfg} (h : cfgOf v = .ok c) : ∃ d, v = .state d ∧ sget d "rpu_config" = some (.cfg c) := by
  cases v with
  | tensor l => cases h
  | state d =>
    refine ⟨d, rfl, ?_⟩
    cases hg : sget d "rpu_config" with
    | none => simp only [cfgOf, hg] at h; cases h
    | some w => cases w <;> simp only [cfgOf, hg] at h <;> cases h; rfl

theorem find_last {P : Str → Prop} {f : Str × CVal → Bool} (hf : ∀ p, f p = true ↔ P p.1) {l : Chk} {p : Str × CVal}
    (h : l.reverse.find? f = some p) {c : LCfg} (hc : cfgOf p.2 = .ok c) : LastCfg P l c := by
  obtain ⟨h1, a, b, h2, h3⟩ := List.find?_eq_some_iff_append.1 h
  obtain ⟨d, hd, hs⟩ := cfgOf_ok hc
  refine ⟨b.reverse, p.1, d, a.reverse, ?_, (hf p).1 h1, ?_, hs⟩
  · have := congrArg List.reverse h2
    rw [List.reverse_reverse] at this
    rw [this, List.reverse_append, List.reverse_cons, ← hd]
    simp
  · intro q hq
    have := h3 q (List.mem_reverse.1 hq)
    rw [← hf q]
    simpa using this

/-- Without a model the function always raises, although the argument is optional. -/
theorem C78_needs_model (chk : Chk) : (convert chk none).1 = .error .attributeError := rfl

/-- The model's limits are set to zero if it has no mapped layer, also if the conversion raises; nothing else of it changes. -/
theorem C78_model_limits (chk : Chk) (m : LModel) : ∃ m', (convert chk (some m)).2 = some m' ∧ m'.layers = m.layers ∧
    (HasMapped m → m'.limits = m.limits) ∧ (¬ HasMapped m → m'.limits.length = m.limits.length ∧ ∀ x ∈ m'.limits, x = (0, 0)) := by
  have hs : (convert chk (some m)).2 = some (if m.hasMapped then m else { m with limits := m.limits.map fun _ => (0, 0) }) := by
    unfold convert
    dsimp only
    split
    · rfl
    · split
      · rfl
      · split <;> rfl
  refine ⟨_, hs, ?_, ?_, ?_⟩
  · split <;> rfl
  · intro h
    rw [if_pos ((hasMapped_iff m).2 h)]
  · intro h
    rw [if_neg fun g => h ((hasMapped_iff m).1 g)]
    refine ⟨by simp, fun x hx => ?_⟩
    obtain ⟨y, _, rfl⟩ := List.mem_map.1 hx
    rfl

theorem newMark_none {chk : Chk} (h : ∀ p ∈ chk, ¬ "analog_model.analog_tile_state".toList <:+: p.1) :
    chk.find? (fun p => contains newMark p.1) = none := by
  rw [List.find?_eq_none]
  intro p hp g
  exact h p hp ((contains_iff _ _).1 g)

theorem convert_form {chk : Chk} (m : LModel) (h : ∀ p ∈ chk, ¬ "analog_model.analog_tile_state".toList <:+: p.1) :
    (convert chk (some m)).1 = (fixLoop m.hasMapped chk >>= fun fixed => convLoop m fixed fixed [] >>= fun out =>
      (lastCfg fixed).map fun c => (out, c)) := by
  unfold convert
  dsimp only
  rw [newMark_none h]
  cases h1 : fixLoop m.hasMapped chk with
  | error x => rfl
  | ok f =>
    cases h2 : convLoop m f f [] with
    | error x => simp only [bind, Except.bind, h2]
    | ok o => simp only [bind, Except.bind, h2]

/-- What a successful conversion returns: the configurations are converted, every entry is stored as specified (later entries overwrite
earlier ones with the same key), and the configuration is the one of the last tile. -/
theorem C78_converted {chk out : Chk} {m : LModel} {c : LCfg} (h : ∀ p ∈ chk, ¬ "analog_model.analog_tile_state".toList <:+: p.1)
    (hr : (convert chk (some m)).1 = .ok (out, c)) (b : Bool) (hb : b = true ↔ HasMapped m) :
    ∃ fixed outs, List.Forall₂ (FixedEntry b) chk fixed ∧ List.Forall₂ (fun p o => OutSpec m fixed p.1 p.2 o) fixed outs ∧
      (∀ k, cget out k = lastVal outs.flatten k) ∧
      (LastCfg TileKey fixed c ∨ ((∀ p ∈ fixed, ¬ TileKey p.1) ∧ LastCfg (fun k => "analog_tile_state".toList <:+: k) fixed c)) := by
  rw [convert_form m h] at hr
  have hbm : m.hasMapped = b := by rw [Bool.eq_iff_iff, hasMapped_iff, hb]
  rw [hbm] at hr
  cases h1 : fixLoop b chk with
  | error x => rw [h1] at hr; cases hr
  | ok f =>
    cases h2 : convLoop m f f [] with
    | error x => simp only [bind, Except.bind, h1, h2] at hr; cases hr
    | ok o =>
      simp only [bind, Except.bind, h1, h2] at hr
      cases h3 : lastCfg f with
      | error x => rw [h3] at hr; cases hr
      | ok c' =>
        rw [h3] at hr
        injection hr with hr
        injection hr with hr1 hr2
        subst hr1 hr2
        obtain ⟨outs, e1, e2⟩ := convLoop_ok h2
        refine ⟨f, outs, fixLoop_ok h1, ?_, ?_, ?_⟩
        · exact e1.imp fun _ _ g => entry_spec g
        · intro k
          rw [e2, cget_foldl]
          show (lastVal _ _).or none = _
          rw [Option.or_none]
        · unfold lastCfg at h3
          cases h4 : f.reverse.find? fun p => tileState.isPrefixOf (afterDot p.1) with
          | some p =>
            rw [h4] at h3
            exact Or.inl (find_last (fun p => tileKey_iff p.1) h4 h3)
          | none =>
            rw [h4] at h3
            refine Or.inr ⟨?_, ?_⟩
            · intro p hp g
              have := List.find?_eq_none.1 h4 p (List.mem_reverse.2 hp)
              exact this ((tileKey_iff p.1).2 g)
            · cases h5 : f.reverse.find? fun p => contains tileState p.1 with
              | some p =>
                rw [h5] at h3
                exact find_last (fun p => contains_iff _ p.1) h5 h3
              | none => rw [h5] at h3; cases h3

theorem legit_fixed {b : Bool} {p q : Str × CVal} (h : FixedEntry b p q) (hl : Legit p.1 p.2) : Legit q.1 q.2 := by
  obtain ⟨h1, h2, h3⟩ := h
  refine ⟨by rw [h1]; exact hl.named, ?_, by rw [h1]; exact hl.numbered⟩
  intro ps name hk hd hp
  rw [h1] at hk
  obtain ⟨e1, d, n, r, c, hv, g1, g2, g3, g4, g5⟩ := hl.tile ps name hk hd hp
  refine ⟨e1, ?_⟩
  have hin : "analog_tile_state".toList <:+: p.1 := by
    rw [hk]
    obtain ⟨t, rfl⟩ := hp
    exact ⟨path ps, t, by rw [List.append_assoc]⟩
  obtain ⟨d0, d', c0, c', f1, f2, f3, f4, f5, _⟩ := h3 hin
  rw [hv] at f1
  injection f1 with f1
  subst f1
  refine ⟨d', n, .cfg c', c, f2, ?_, f4, ?_, ?_, ?_⟩
  · rw [f5 _ (by decide), g1]
  · rw [f5 _ (by decide), g3]
  · rw [f5 _ (by decide)]; exact g4
  · rw [f5 _ (by decide)]; exact g5

theorem forall₂_right {α β : Type} {R : α → β → Prop} : ∀ {l : List α} {f : List β}, List.Forall₂ R l f → ∀ q ∈ f, ∃ p ∈ l, R p q := by
  intro l f h
  induction h with
  | nil => intro q hq; cases hq
  | @cons x y l1 l2 hxy _ ih =>
    intro q hq
    rcases List.mem_cons.1 hq with rfl | hq
    · exact ⟨x, List.mem_cons_self, hxy⟩
    · obtain ⟨p, hp, hpq⟩ := ih q hq
      exact ⟨p, List.mem_cons_of_mem _ hp, hpq⟩

theorem forall₂_left {α β : Type} {R : α → β → Prop} : ∀ {l : List α} {f : List β}, List.Forall₂ R l f → ∀ p ∈ l, ∃ q ∈ f, R p q := by
  intro l f h
  induction h with
  | nil => intro q hq; cases hq
  | @cons x y l1 l2 hxy _ ih =>
    intro q hq
    rcases List.mem_cons.1 hq with rfl | hq
    · exact ⟨y, List.mem_cons_self, hxy⟩
    · obtain ⟨p, hp, hpq⟩ := ih q hq
      exact ⟨p, List.mem_cons_of_mem _ hp, hpq⟩

/-- Specification: all entries are legitimate and the configurations of the tiles can be converted. -/
def Good (chk : Chk) : Prop := (∀ p ∈ chk, ¬ "analog_model.analog_tile_state".toList <:+: p.1) ∧ (∀ p ∈ chk, Legit p.1 p.2) ∧
  ∀ p ∈ chk, "analog_tile_state".toList <:+: p.1 → ∃ d c, p.2 = .state d ∧ sget d "rpu_config" = some (.cfg c) ∧ Convertible c

theorem good_loops {chk : Chk} (m : LModel) (h : Good chk) : ∃ f o, fixLoop m.hasMapped chk = .ok f ∧ convLoop m f f [] = .ok o ∧
    List.Forall₂ (FixedEntry m.hasMapped) chk f := by
  obtain ⟨f, hf⟩ := fixLoop_total (b := m.hasMapped) h.2.2
  have h2 := fixLoop_ok hf
  obtain ⟨o, ho⟩ := convLoop_total (m := m) (all := f) (l := f) (fun q hq => by
    obtain ⟨p, hp, hpq⟩ := forall₂_right h2 q hq
    exact entry_total m f (legit_fixed hpq (h.2.1 p hp))) []
  exact ⟨f, o, hf, ho, h2⟩

/-- A checkpoint with legitimate entries and at least one tile is converted. -/
theorem C78_total {chk : Chk} (m : LModel) (h : Good chk) (ht : ∃ p ∈ chk, "analog_tile_state".toList <:+: p.1) :
    ∃ out c, (convert chk (some m)).1 = .ok (out, c) := by
  rw [convert_form m h.1]
  obtain ⟨f, o, hf, ho, h2⟩ := good_loops m h
  have hin : ∀ q ∈ f, contains tileState q.1 = true → ∃ c, cfgOf q.2 = .ok c := by
    intro q hq hk
    obtain ⟨p, hp, h3, h4, h5⟩ := forall₂_right h2 q hq
    rw [h3] at hk
    obtain ⟨d, d', c, c', e1, e2, e3, e4, _⟩ := h5 ((contains_iff _ _).1 hk)
    refine ⟨c', ?_⟩
    rw [e2]
    simp only [cfgOf, e4]
  have hlast : ∃ c, lastCfg f = .ok c := by
    unfold lastCfg
    cases h4 : f.reverse.find? fun p => tileState.isPrefixOf (afterDot p.1) with
    | some p =>
      have hm := List.mem_reverse.1 (List.mem_of_find?_eq_some h4)
      have hp := List.find?_some h4
      exact hin p hm ((contains_iff _ _).2 (tileKey_infix ((tileKey_iff p.1).1 hp)))
    | none =>
      cases h5 : f.reverse.find? fun p => contains tileState p.1 with
      | some p => exact hin p (List.mem_reverse.1 (List.mem_of_find?_eq_some h5)) (show contains tileState p.1 = true from List.find?_some (p := fun p : Str × CVal => contains tileState p.1) h5)
      | none =>
        obtain ⟨p, hp, hk⟩ := ht
        obtain ⟨q, hq, hqk, _⟩ := forall₂_left h2 p hp
        have := List.find?_eq_none.1 h5 q (List.mem_reverse.2 hq)
        exact absurd ((contains_iff _ _).2 (hqk ▸ hk)) this
  obtain ⟨c, hc⟩ := hlast
  exact ⟨o, c, by simp only [bind, Except.bind, hf, ho, hc]; rfl⟩

/-- A checkpoint without any tile (a model without analog layers) raises after all the work. -/
theorem C78_no_tiles {chk : Chk} (m : LModel) (h : Good chk) (ht : ∀ p ∈ chk, ¬ "analog_tile_state".toList <:+: p.1) :
    (convert chk (some m)).1 = .error .unboundLocal := by
  rw [convert_form m h.1]
  obtain ⟨f, o, hf, ho, h2⟩ := good_loops m h
  have hn : ∀ q ∈ f, ¬ contains tileState q.1 = true := by
    intro q hq hk
    obtain ⟨p, hp, h3, _⟩ := forall₂_right h2 q hq
    rw [h3] at hk
    exact ht p hp ((contains_iff _ _).1 hk)
  have hlast : lastCfg f = .error .unboundLocal := by
    unfold lastCfg
    have h4 : (f.reverse.find? fun p => tileState.isPrefixOf (afterDot p.1)) = none := by
      rw [List.find?_eq_none]
      intro q hq g
      exact hn q (List.mem_reverse.1 hq) ((contains_iff _ _).2 (tileKey_infix ((tileKey_iff q.1).1 g)))
    have h5 : (f.reverse.find? fun p => contains tileState p.1) = none := by
      rw [List.find?_eq_none]
      intro q hq
      exact hn q (List.mem_reverse.1 hq)
    rw [h4, h5]
  simp only [bind, Except.bind, hf, ho, hlast]
  rfl

/-- A configuration of a tile that lacks both the old and the new coefficients of the modifier: the conversion raises. -/
theorem C78_bad_config {chk : Chk} (m : LModel) (h : ∀ p ∈ chk, ¬ "analog_model.analog_tile_state".toList <:+: p.1)
    {p : Str × CVal} (hp : p ∈ chk) (hk : "analog_tile_state".toList <:+: p.1) {d : TState} (hd : p.2 = .state d) {c : LCfg}
    (hc : sget d "rpu_config" = some (.cfg c)) (hn : ¬ Convertible c) : ∃ e, (convert chk (some m)).1 = .error e := by
  rw [convert_form m h]
  cases hf : fixLoop m.hasMapped chk with
  | error x => exact ⟨x, rfl⟩
  | ok f =>
    exfalso
    clear h
    induction chk generalizing f with
    | nil => cases hp
    | cons q t ih =>
      obtain ⟨k, v⟩ := q
      have hf' := hf
      unfold fixLoop at hf'
      rcases List.mem_cons.1 hp with rfl | hp
      · dsimp only at hk hd
        subst hd
        rw [if_pos (show contains tileState k = true from (contains_iff _ _).2 hk)] at hf'
        simp only [cfgOf, hc, fixCfg_missing hn] at hf'
        cases hf'
      · cases ht : fixLoop m.hasMapped t with
        | ok t' => exact ih hp t' ht
        | error x =>
          by_cases hkk : contains tileState k = true
          · rw [if_pos hkk] at hf'
            cases v with
            | tensor l => cases hf'
            | state d1 =>
              cases h1 : cfgOf (.state d1) with
              | error y => simp only [h1] at hf'; cases hf'
              | ok c1 =>
                simp only [h1] at hf'
                cases h2 : fixCfg m.hasMapped c1 with
                | error y => simp only [h2] at hf'; cases hf'
                | ok c2 => simp only [h2, ht] at hf'; cases hf'
          · rw [if_neg hkk, ht] at hf'
            cases hf'

/-! ## Checkpoints of the current version -/

/-- The mark spans two parts of a key: one that ends with `analog_model`, and the next. -/
theorem mark_path (ps : List Str) (name : Str) (hp : ∀ p ∈ ps, '.' ∉ p) (hd : '.' ∉ name)
    (h : "analog_model.analog_tile_state".toList <:+: path ps ++ name) : ∃ p ∈ ps, "analog_model".toList <:+ p := by
  induction ps with
  | nil =>
    exfalso
    exact hd (h.subset (show '.' ∈ "analog_model.analog_tile_state".toList by decide))
  | cons p ps ih =>
    rw [path_cons, List.append_assoc, List.cons_append] at h
    obtain ⟨a, b, e⟩ := h
    have hpd := hp p List.mem_cons_self
    -- the mark is `analog_model`, a dot, and the rest
    have e' : (a ++ "analog_model".toList) ++ '.' :: ("analog_tile_state".toList ++ b) = p ++ '.' :: (path ps ++ name) := by
      rw [← e]
      rw [List.append_assoc, List.append_assoc]
      rfl
    rcases List.append_eq_append_iff.1 e' with ⟨w, h1, h2⟩ | ⟨w, h1, h2⟩
    · cases w with
      | nil =>
        rw [List.append_nil] at h1
        exact ⟨p, List.mem_cons_self, ⟨a, h1.symm⟩⟩
      | cons x w =>
        exfalso
        rw [List.cons_append] at h2
        injection h2 with h2 _
        refine hpd ?_
        rw [h1, ← h2]
        simp
    · cases w with
      | nil =>
        rw [List.append_nil] at h1
        exact ⟨p, List.mem_cons_self, ⟨a, h1⟩⟩
      | cons x w =>
        rw [List.cons_append] at h2
        injection h2 with h2 h3
        obtain ⟨q, hq, hs⟩ := ih (fun q hq => hp q (List.mem_cons_of_mem _ hq)) (by
          -- `a ++ analog_model = p ++ '.' :: w`: the mark lies in the rest
          rw [← h2] at h1
          rw [h3]
          have h1' : a ++ "analog_model".toList = (p ++ ['.']) ++ w := by rw [h1]; simp
          have hw : ∃ y, w = y ++ "analog_model".toList := by
            rcases List.append_eq_append_iff.1 h1' with ⟨y, g1, g2⟩ | ⟨y, g1, g2⟩
            · cases y using List.reverseRecOn with
              | nil => exact ⟨[], by rw [g2]; rfl⟩
              | append_singleton y z _ =>
                exfalso
                rw [← List.append_assoc] at g1
                have hz : '.' = z := by
                  have := congrArg List.getLast? g1
                  simpa using this
                have : '.' ∈ "analog_model".toList := by rw [g2, ← hz]; simp
                exact absurd this (by decide)
            · exact ⟨y, g2⟩
          obtain ⟨y, rfl⟩ := hw
          refine ⟨y, b, ?_⟩
          rw [List.append_assoc, List.append_assoc]
          rfl)
        exact ⟨q, List.mem_cons_of_mem _ hq, hs⟩

/-- Specification: a key of a checkpoint without modules whose name ends with `analog_model`. -/
def Ordinary (k : Str) : Prop := ∃ ps name, k = path ps ++ name ∧ (∀ p ∈ ps, '.' ∉ p ∧ ¬ "analog_model".toList <:+ p) ∧ '.' ∉ name

/-- A checkpoint that the current version has saved (tile states without the size) is not recognised as new, and the conversion raises:
a name is misspelled in the test (`analog_model` for `analog_module`). -/
theorem C78_current_refused {chk : Chk} (m : LModel) (ho : ∀ p ∈ chk, Ordinary p.1) {p : Str × CVal} (hp : p ∈ chk) (hk : TileKey p.1)
    (hs : ∀ d, p.2 = .state d → sget d "out_size" = none) : ∃ e, (convert chk (some m)).1 = .error e := by
  have hm : ∀ p ∈ chk, ¬ "analog_model.analog_tile_state".toList <:+: p.1 := by
    intro p hp h
    obtain ⟨ps, name, e, h1, h2⟩ := ho p hp
    rw [e] at h
    obtain ⟨q, hq, hs⟩ := mark_path ps name (fun q hq => (h1 q hq).1) h2 h
    exact (h1 q hq).2 hs
  rw [convert_form m hm]
  cases hf : fixLoop m.hasMapped chk with
  | error x => exact ⟨x, rfl⟩
  | ok f =>
    cases hc : convLoop m f f [] with
    | error x => exact ⟨x, by simp only [bind, Except.bind, hc]⟩
    | ok o =>
      exfalso
      obtain ⟨outs, h1, _⟩ := convLoop_ok hc
      obtain ⟨q, hq, g1, g2, g3⟩ := forall₂_left (fixLoop_ok hf) p hp
      obtain ⟨d, d', c, c', e1, e2, e3, e4, e5, _⟩ := g3 (tileKey_infix hk)
      have hn : sget d' "out_size" = none := by rw [e5 _ (by decide)]; exact hs d e1
      obtain ⟨w, _, hw⟩ := forall₂_left h1 q hq
      rw [g1] at hw
      obtain ⟨ps, t, ek, ht⟩ := hk
      have hd : '.' ∉ "analog_tile_state".toList ++ t := by
        rw [List.mem_append, not_or]
        exact ⟨by decide, ht⟩
      have hne : "analog_tile_state".toList ++ t ≠ [] := fun g => absurd (List.append_eq_nil_iff.1 g).1 (by decide)
      rw [ek, convEntry_path m f ps _ hd hne, e2] at hw
      unfold entryOf at hw
      rw [if_neg (fun g => name_ne_bias (par := "analog_tile_state".toList) (x := 'a') rfl (by decide) _ g.1),
        if_pos (show tileState.isPrefixOf ("analog_tile_state".toList ++ t) = true from (isPrefixOf_iff _ _).2 (List.prefix_append _ _))] at hw
      cases hkk : keyFromEnding m ("analog_tile_state".toList ++ t) tileState (before ("analog_tile_state".toList ++ t)
          (path ps ++ ("analog_tile_state".toList ++ t))) with
      | error x => rw [hkk] at hw; cases hw
      | ok k =>
        rw [hkk] at hw
        simp only [bind, Except.bind, convState_needs_size hn] at hw
        cases hw

end Aihw.Legacy

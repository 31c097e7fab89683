import Verif.Legacy.States

/-!
# C78: the entries of a checkpoint
-/
namespace Aihw.Legacy
open Aihw

/-- The entry as a function of the last part of its key and of the text before it. -/
def entryOf (m : LModel) (all : Chk) (key name pre : Str) (v : CVal) : Except PyErr (List (Str × CVal)) :=
  if name = "bias".toList ∧ (all.any fun p => (pre ++ tileState).isPrefixOf p.1) = true then
    .ok [(if m.convMapped pre then pre ++ name else pre ++ modDot ++ name, v)]
  else if tileState.isPrefixOf name then do
    let k ← keyFromEnding m name tileState pre
    match v with
    | .tensor _ => .error .attributeError
    | .state d => do
      let r ← convState d
      let nk := pre ++ k
      .ok ((match r.2.1 with
        | some a => [(replace tileState "alpha".toList nk, CVal.tensor a)]
        | none => []) ++
        [(replace tileState "mapping_scales".toList nk, .tensor r.2.2), (nk, .state r.1)])
  else if "analog_out_scaling_alpha".toList.isPrefixOf name then do
    let k ← keyFromEnding m (lastPart "analog_".toList name ++ "_0".toList) outAlpha pre
    .ok [(pre ++ k, v)]
  else if "analog_shared_weights".toList.isPrefixOf name then .ok []
  else if ctxName.isPrefixOf name then do
    let k ← keyFromEnding m name ctxName pre
    .ok [(pre ++ k, v)]
  else .ok [(key, v)]

theorem convEntry_path (m : LModel) (all : Chk) (ps : List Str) (name : Str) (hd : '.' ∉ name) (hne : name ≠ []) (v : CVal) :
    convEntry m all (path ps ++ name) v = entryOf m all (path ps ++ name) name (before name (path ps ++ name)) v := by
  unfold convEntry
  rw [afterDot_path ps name hd]
  have : name.isEmpty = false := by
    cases name with
    | nil => exact absurd rfl hne
    | cons a b => rfl
  dsimp only
  rw [this]
  rfl

theorem before_eq (ps : List Str) (name : Str) (hd : '.' ∉ name) (hne : name ≠ []) (h : ∀ p ∈ ps, ¬ name <:+: p) :
    before name (path ps ++ name) = path ps := by
  rw [before_path name hd hne ps (fun p hp => contains_false.2 (h p hp)), before_self name hne, List.append_nil]

theorem bang_prefix {a b : Str} (h : ¬ a <+: b) : a.isPrefixOf b = false := by
  rw [Bool.eq_false_iff]
  exact fun g => h ((isPrefixOf_iff _ _).1 g)

theorem name_ne_bias {par : Str} {x : Char} (hx : par.head? = some x) (hb : x ≠ 'b') (t : Str) : par ++ t ≠ "bias".toList := by
  intro h
  cases par with
  | nil => cases hx
  | cons y s =>
    have h1 : y = x := by simpa using hx
    have h2 : (y :: s ++ t).head? = some 'b' := by rw [h]; rfl
    have h3 : y = 'b' := by simpa using h2
    exact hb (h1.symm.trans h3)

theorem any_iff (all : Chk) (pre : Str) : (all.any fun p => pre.isPrefixOf p.1) = true ↔ ∃ e ∈ all, pre <+: e.1 := by
  rw [List.any_eq_true]
  constructor
  · rintro ⟨e, he, h⟩; exact ⟨e, he, (isPrefixOf_iff _ _).1 h⟩
  · rintro ⟨e, he, h⟩; exact ⟨e, he, (isPrefixOf_iff _ _).2 h⟩

theorem not_prefix_ext {a b : Str} (t : Str) (hl : a.length ≤ b.length) (h : ¬ a <+: b) : ¬ a <+: b ++ t := by
  intro g
  exact h (List.prefix_of_prefix_length_le g (List.prefix_append b t) hl)

/-- `"analog_" ++ …`: the part after the only occurrence. -/
theorem lastPart_out (idx : List Nat) : lastPart "analog_".toList ("analog_out_scaling_alpha".toList ++ ending idx) =
    outAlpha ++ ending idx := by
  have e : lastPart "analog_".toList ("analog_out_scaling_alpha".toList ++ ending idx) = lastGo "analog_".toList (ending idx) 0 outAlpha.reverse := by
    cases idx with
    | nil => rfl
    | cons n l => rfl
  rw [e, lastGo_none _ 'a' rfl _ _ (ending_not rfl (by decide) idx), List.reverse_reverse]

theorem ending_append (idx : List Nat) : ending idx ++ "_0".toList = ending (idx ++ [0]) := by
  unfold ending
  rw [List.flatMap_append]
  rfl

/-- The digital bias of an analog layer below a module whose name contains `bias` is not moved (unless a key starts like that), because the
key is cut at the first occurrence of the name. -/
theorem entry_shadowed {m : LModel} {all : Chk} {ps : List Str} {p : Str} (hp : p ∈ ps) (hb : "bias".toList <:+: p)
    (hn : ∀ e ∈ all, ∀ a, a <+: path ps → a.length < (path ps).length → ¬ a ++ "analog_tile_state".toList <+: e.1) (v : CVal) :
    convEntry m all (path ps ++ "bias".toList) v = .ok [(path ps ++ "bias".toList, v)] := by
  rw [convEntry_path m all ps _ (by decide) (by decide)]
  have hc : contains "bias".toList (path ps) = true := by
    have := contains_path "bias".toList (by decide) (by decide) ps []
    rw [List.append_nil] at this
    rw [this, Bool.or_eq_true]
    exact Or.inl (List.any_eq_true.2 ⟨p, hp, (contains_iff _ _).2 hb⟩)
  rw [before_append_of_contains _ _ _ (by decide) hc]
  unfold entryOf
  rw [if_neg]
  · rfl
  · rintro ⟨_, g⟩
    obtain ⟨e, he, g⟩ := (any_iff _ _).1 g
    have hl := before_length _ _ hc
    refine hn e he _ ?_ ?_ g
    · exact before_prefix _ _
    · have : "bias".toList.length = 4 := rfl
      omega

/-- What is stored for an entry. -/
theorem entry_spec {m : LModel} {all : Chk} {k : Str} {v : CVal} {o : List (Str × CVal)} (h : convEntry m all k v = .ok o) :
    OutSpec m all k v o where
  bias := by
    rintro ps rfl hp ⟨e, he, hpre⟩
    rw [convEntry_path m all ps _ (by decide) (by decide), before_eq ps _ (by decide) (by decide) hp] at h
    unfold entryOf at h
    rw [if_pos ⟨rfl, (any_iff _ _).2 ⟨e, he, hpre⟩⟩] at h
    injection h with h
    constructor
    · intro hc
      rw [(convMapped_iff m ps).2 hc] at h
      exact h.symm
    · intro hc
      have : m.convMapped (path ps) = false := by
        rw [Bool.eq_false_iff]
        exact fun g => hc ((convMapped_iff m ps).1 g)
      rw [this] at h
      rw [← h]
      show [(path ps ++ modDot ++ "bias".toList, v)] = _
      rw [List.append_assoc]
      rfl
  noBias := by
    rintro ps rfl hp hn
    rw [convEntry_path m all ps _ (by decide) (by decide), before_eq ps _ (by decide) (by decide) hp] at h
    unfold entryOf at h
    rw [if_neg (fun g => hn ((any_iff _ _).1 g.2))] at h
    injection h with h
    exact h.symm
  shadowed := by
    rintro ps p rfl hp hb hn
    rw [entry_shadowed hp hb hn] at h
    injection h with h
    exact h.symm
  tile := by
    rintro ps idx d rfl hp rfl conv hc
    have hd : '.' ∉ tileState ++ ending idx := by
      rw [List.mem_append, not_or]
      exact ⟨by decide, ending_not rfl (by decide) idx⟩
    have hne : tileState ++ ending idx ≠ [] := by
      intro g
      have := congrArg List.length g
      rw [List.length_append] at this
      exact absurd this (by show tileState.length + _ ≠ 0; rw [show tileState.length = 17 from rfl]; omega)
    have hpp : ∀ p ∈ ps, ¬ tileState ++ ending idx <:+: p := fun p h g => hp p h ((List.prefix_append _ _).isInfix.trans g)
    rw [List.append_assoc] at h
    change convEntry m all (path ps ++ (tileState ++ ending idx)) _ = _ at h
    rw [convEntry_path m all ps _ hd hne, before_eq ps _ hd hne hpp] at h
    unfold entryOf at h
    rw [if_neg (fun g => name_ne_bias (par := tileState) (x := 'a') rfl (by decide) _ g.1),
      if_pos ((isPrefixOf_iff _ _).2 (List.prefix_append _ _)), key_eq m par_tile idx ps conv hc] at h
    cases hs : convState d with
    | error x =>
      simp only [bind, Except.bind, hs] at h
      cases h
    | ok r =>
      simp only [bind, Except.bind, hs] at h
      injection h with h
      obtain ⟨h1, h2⟩ := convState_ok hs
      refine ⟨r.1, r.2.2, h1, ?_⟩
      rw [← h, replace_newKey _ conv idx ps hp, replace_newKey _ conv idx ps hp]
      congr 1
      rw [h2]
      unfold alphaOut
      cases hg : sget d "alpha" with
      | none => rfl
      | some w => cases w <;> rfl
  outScale := by
    rintro ps idx rfl hp conv hc
    have hd : '.' ∉ "analog_out_scaling_alpha".toList ++ ending idx := by
      rw [List.mem_append, not_or]
      exact ⟨by decide, ending_not rfl (by decide) idx⟩
    have hne : "analog_out_scaling_alpha".toList ++ ending idx ≠ [] := fun g => by
      have := (List.append_eq_nil_iff.1 g).1
      exact absurd this (by decide)
    have hpp : ∀ p ∈ ps, ¬ "analog_out_scaling_alpha".toList ++ ending idx <:+: p :=
      fun p h g => hp p h ((List.prefix_append _ _).isInfix.trans g)
    rw [List.append_assoc] at h
    rw [convEntry_path m all ps _ hd hne, before_eq ps _ hd hne hpp] at h
    unfold entryOf at h
    rw [if_neg (fun g => name_ne_bias (par := "analog_out_scaling_alpha".toList) (x := 'a') rfl (by decide) _ g.1),
      bang_prefix (not_prefix_ext (a := tileState) (b := "analog_out_scaling_alpha".toList) _ (by decide) (by decide)),
      if_neg (by decide), if_pos ((isPrefixOf_iff _ _).2 (List.prefix_append _ _)), lastPart_out, List.append_assoc, ending_append,
      key_eq m par_out (idx ++ [0]) ps conv hc] at h
    injection h with h
    exact h.symm
  ctx := by
    rintro ps idx rfl hp conv hc
    have hd : '.' ∉ ctxName ++ ending idx := by
      rw [List.mem_append, not_or]
      exact ⟨by decide, ending_not rfl (by decide) idx⟩
    have hne : ctxName ++ ending idx ≠ [] := fun g => by
      have := (List.append_eq_nil_iff.1 g).1
      exact absurd this (by decide)
    have hpp : ∀ p ∈ ps, ¬ ctxName ++ ending idx <:+: p :=
      fun p h g => hp p h ((List.prefix_append _ _).isInfix.trans g)
    rw [List.append_assoc] at h
    change convEntry m all (path ps ++ (ctxName ++ ending idx)) _ = _ at h
    rw [convEntry_path m all ps _ hd hne, before_eq ps _ hd hne hpp] at h
    unfold entryOf at h
    have hp1 : ∀ a : Str, a.take 10 ≠ ctxName → a.length ≥ 10 → a.isPrefixOf (ctxName ++ ending idx) = false := by
      intro a h1 h2
      refine bang_prefix fun g => h1 ?_
      have h3 : a.take 10 <+: ctxName ++ ending idx := (List.take_prefix _ _).trans g
      have h4 : a.take 10 <+: ctxName := List.prefix_of_prefix_length_le h3 (List.prefix_append _ _)
        (by rw [List.length_take]; exact Nat.min_le_left _ _)
      exact h4.eq_of_length (by rw [List.length_take]; show min 10 _ = 10; omega)
    rw [if_neg (fun g => name_ne_bias (par := ctxName) (x := 'a') rfl (by decide) _ g.1),
      hp1 tileState (by decide) (by decide), if_neg (by decide), hp1 "analog_out_scaling_alpha".toList (by decide) (by decide),
      if_neg (by decide), hp1 "analog_shared_weights".toList (by decide) (by decide), if_neg (by decide),
      if_pos ((isPrefixOf_iff _ _).2 (List.prefix_append _ _)), key_eq m par_ctx idx ps conv hc] at h
    injection h with h
    exact h.symm
  shared := by
    rintro ps t rfl ht
    have hd : '.' ∉ "analog_shared_weights".toList ++ t := by
      rw [List.mem_append, not_or]
      exact ⟨by decide, ht⟩
    have hne : "analog_shared_weights".toList ++ t ≠ [] := fun g => by
      have := (List.append_eq_nil_iff.1 g).1
      exact absurd this (by decide)
    rw [List.append_assoc, convEntry_path m all ps _ hd hne] at h
    unfold entryOf at h
    have hp1 : ∀ a : Str, a.take 10 ≠ "analog_sha".toList → a.length ≥ 10 → a.isPrefixOf ("analog_shared_weights".toList ++ t) = false := by
      intro a h1 h2
      refine bang_prefix fun g => h1 ?_
      have h3 : a.take 10 <+: "analog_shared_weights".toList ++ t := (List.take_prefix _ _).trans g
      have h4 : a.take 10 <+: "analog_sha".toList := List.prefix_of_prefix_length_le h3
        (⟨"red_weights".toList ++ t, rfl⟩) (by rw [List.length_take]; exact Nat.min_le_left _ _)
      exact h4.eq_of_length (by rw [List.length_take]; show min 10 _ = 10; omega)
    rw [if_neg (fun g => name_ne_bias (par := "analog_shared_weights".toList) (x := 'a') rfl (by decide) _ g.1),
      hp1 tileState (by decide) (by decide), if_neg (by decide), hp1 "analog_out_scaling_alpha".toList (by decide) (by decide),
      if_neg (by decide), if_pos ((isPrefixOf_iff _ _).2 (List.prefix_append _ _))] at h
    injection h with h
    exact h.symm
  other := by
    rintro ps name rfl hd hb h1 h2 h3 h4
    by_cases hne : name = []
    · subst hne
      unfold convEntry at h
      rw [afterDot_path ps [] hd] at h
      cases h
    · rw [convEntry_path m all ps _ hd hne] at h
      unfold entryOf at h
      rw [if_neg (fun g => hb g.1), show tileState.isPrefixOf name = false from bang_prefix h1, if_neg (by decide), bang_prefix h2,
        if_neg (by decide), bang_prefix h3, if_neg (by decide), show ctxName.isPrefixOf name = false from bang_prefix h4, if_neg (by decide)] at h
      injection h with h
      exact h.symm

/-- Specification: an entry of a legacy checkpoint. -/
structure Legit (k : Str) (v : CVal) : Prop where
  named : ∃ ps name, k = path ps ++ name ∧ '.' ∉ name ∧ name ≠ []
  /-- Tile states. -/
  tile : ∀ ps name, k = path ps ++ name → '.' ∉ name → "analog_tile_state".toList <+: name →
    (∃ idx, name = "analog_tile_state".toList ++ ending idx) ∧
    ∃ d n r c, v = .state d ∧ sget d "out_size" = some (.nat n) ∧ sget d "rpu_config" = some r ∧ sget d "analog_ctx" = some (.tensor c) ∧
      CanScale n (sget d "mapping_scales") ∧ CanScale n (sget d "analog_alpha_scale")
  /-- Output scales and contexts. -/
  numbered : ∀ ps name par, k = path ps ++ name → '.' ∉ name → par ∈ ["analog_out_scaling_alpha".toList, "analog_ctx".toList] → par <+: name →
    ∃ idx, name = par ++ ending idx

theorem keyFromEnding_total (m : LModel) {par : Str} (hp : Par par) (idx : List Nat) (pre : Str) :
    ∃ k, keyFromEnding m (par ++ ending idx) par pre = .ok k := by
  obtain ⟨x, hx, hd, hu⟩ := hp
  unfold keyFromEnding
  rw [lastPart_append par x hx _ (ending_not hd hu idx)]
  dsimp only
  rw [endNumbers_ending]
  match idx with
  | [] => exact ⟨_, rfl⟩
  | [n] => exact ⟨_, rfl⟩
  | a :: b :: l => exact ⟨_, rfl⟩

theorem entry_total (m : LModel) (all : Chk) {k : Str} {v : CVal} (h : Legit k v) : ∃ o, convEntry m all k v = .ok o := by
  obtain ⟨ps, name, rfl, hd, hne⟩ := h.named
  rw [convEntry_path m all ps name hd hne]
  unfold entryOf
  generalize before name (path ps ++ name) = pre
  by_cases hb : name = "bias".toList ∧ (all.any fun p => (pre ++ tileState).isPrefixOf p.1) = true
  · rw [if_pos hb]; exact ⟨_, rfl⟩
  · rw [if_neg hb]
    by_cases h1 : tileState.isPrefixOf name = true
    · rw [if_pos h1]
      obtain ⟨⟨idx, hn⟩, d, n, r, c, rfl, e1, e2, e3, e4, e5⟩ := h.tile ps name rfl hd ((isPrefixOf_iff _ _).1 h1)
      obtain ⟨k, hk⟩ := keyFromEnding_total m par_tile idx pre
      obtain ⟨r', hr⟩ := convState_total e1 e2 e3 e4 e5
      have hk' : keyFromEnding m name tileState pre = .ok k := by rw [hn]; exact hk
      simp only [bind, Except.bind, hk', hr]
      exact ⟨_, rfl⟩
    · rw [if_neg h1]
      by_cases h2 : "analog_out_scaling_alpha".toList.isPrefixOf name = true
      · rw [if_pos h2]
        obtain ⟨idx, hn⟩ := h.numbered ps name _ rfl hd (by simp) ((isPrefixOf_iff _ _).1 h2)
        obtain ⟨k, hk⟩ := keyFromEnding_total m par_out (idx ++ [0]) pre
        have hk' : keyFromEnding m (lastPart "analog_".toList name ++ "_0".toList) outAlpha pre = .ok k := by
          rw [hn, lastPart_out, List.append_assoc, ending_append]; exact hk
        simp only [bind, Except.bind, hk']
        exact ⟨_, rfl⟩
      · rw [if_neg h2]
        by_cases h3 : "analog_shared_weights".toList.isPrefixOf name = true
        · rw [if_pos h3]; exact ⟨_, rfl⟩
        · rw [if_neg h3]
          by_cases h4 : ctxName.isPrefixOf name = true
          · rw [if_pos h4]
            obtain ⟨idx, hn⟩ := h.numbered ps name ctxName rfl hd (List.mem_cons_of_mem _ List.mem_cons_self) ((isPrefixOf_iff _ _).1 h4)
            obtain ⟨k, hk⟩ := keyFromEnding_total m par_ctx idx pre
            have hk' : keyFromEnding m name ctxName pre = .ok k := by rw [hn]; exact hk
            simp only [bind, Except.bind, hk']
            exact ⟨_, rfl⟩
          · rw [if_neg h4]; exact ⟨_, rfl⟩

/-! ## The loop -/

theorem convLoop_ok {m : LModel} {all : Chk} : ∀ {l acc out : Chk}, convLoop m all l acc = .ok out →
    ∃ outs, List.Forall₂ (fun p o => convEntry m all p.1 p.2 = .ok o) l outs ∧
      out = outs.flatten.foldl (fun a q => cset a q.1 q.2) acc := by
  intro l
  induction l with
  | nil =>
    intro acc out h
    injection h with h
    exact ⟨[], .nil, h.symm⟩
  | cons p t ih =>
    intro acc out h
    unfold convLoop at h
    cases he : convEntry m all p.1 p.2 with
    | error x => simp only [he] at h; cases h
    | ok o =>
      simp only [he] at h
      obtain ⟨outs, h1, h2⟩ := ih h
      exact ⟨o :: outs, .cons he h1, by rw [h2, List.flatten_cons, List.foldl_append]⟩

theorem convLoop_total {m : LModel} {all : Chk} : ∀ {l : Chk}, (∀ p ∈ l, ∃ o, convEntry m all p.1 p.2 = .ok o) → ∀ acc : Chk,
    ∃ out, convLoop m all l acc = .ok out := by
  intro l
  induction l with
  | nil => intro _ acc; exact ⟨_, rfl⟩
  | cons p t ih =>
    intro h acc
    obtain ⟨o, ho⟩ := h p List.mem_cons_self
    unfold convLoop
    simp only [ho]
    exact ih (fun q hq => h q (List.mem_cons_of_mem _ hq)) _

end Aihw.Legacy

import Verif.Legacy.Spec

/-!
# C78: lemmas about the parts of the conversion
-/
namespace Aihw.Legacy
open Aihw

/-! ## Layers -/

theorem dropLast_path (ps : List Str) : (path ps).dropLast = List.intercalate ['.'] ps := by
  induction ps with
  | nil => rfl
  | cons p ps ih =>
    cases ps with
    | nil =>
      rw [path_cons, path_nil]
      simp [List.intercalate]
    | cons q ps =>
      rw [path_cons]
      have hne : path (q :: ps) ≠ [] := by rw [path_cons]; simp
      have : p ++ '.' :: path (q :: ps) = (p ++ ['.']) ++ path (q :: ps) := by simp
      rw [this, List.dropLast_append_of_ne_nil hne, ih]
      simp [List.intercalate]

theorem cls_iff (m : LModel) (name cls : Str) : m.cls name = some cls ↔
    ∃ a b, m.layers = a ++ (name, cls) :: b ∧ ∀ x ∈ b, x.1 ≠ name := by
  unfold LModel.cls
  constructor
  · intro h
    rw [Option.map_eq_some_iff] at h
    obtain ⟨x, hx, rfl⟩ := h
    obtain ⟨h1, a, b, h2, h3⟩ := List.find?_eq_some_iff_append.1 hx
    refine ⟨b.reverse, a.reverse, ?_, ?_⟩
    · have := congrArg List.reverse h2
      rw [List.reverse_reverse] at this
      rw [this, List.reverse_append, List.reverse_cons]
      have : x.1 = name := by simpa using h1
      rw [← this]
      simp
    · intro y hy
      have := h3 y (List.mem_reverse.1 hy)
      simpa using this
  · rintro ⟨a, b, h, hb⟩
    have : m.layers.reverse.find? (fun p => p.1 = name) = some (name, cls) := by
      rw [List.find?_eq_some_iff_append]
      refine ⟨by simp, b.reverse, a.reverse, ?_, ?_⟩
      · rw [h]; simp
      · intro y hy
        simpa using hb y (List.mem_reverse.1 hy)
    rw [this]
    rfl

theorem convMapped_iff (m : LModel) (ps : List Str) : m.convMapped (path ps) = true ↔ MappedConv m ps := by
  unfold LModel.convMapped MappedConv
  rw [dropLast_path]
  cases h : m.cls (List.intercalate ['.'] ps) with
  | none =>
    constructor
    · intro h; cases h
    · rintro ⟨a, b, cls, h1, h2, _⟩
      rw [(cls_iff m _ cls).2 ⟨a, b, h1, h2⟩] at h
      cases h
  | some c =>
    show (contains _ c && contains _ c) = true ↔ _
    rw [Bool.and_eq_true, contains_iff, contains_iff]
    constructor
    · rintro ⟨h3, h4⟩
      obtain ⟨a, b, h1, h2⟩ := (cls_iff m _ c).1 h
      exact ⟨a, b, c, h1, h2, h3, h4⟩
    · rintro ⟨a, b, cls, h1, h2, h3, h4⟩
      rw [(cls_iff m _ cls).2 ⟨a, b, h1, h2⟩] at h
      injection h with h
      rw [← h]
      exact ⟨h3, h4⟩

theorem foldl_dots (idx : List Nat) : ∀ root : Str, idx.foldl (fun k v => k ++ ['.'] ++ showNat v) root =
    root ++ idx.flatMap fun i => '.' :: showNat i := by
  induction idx with
  | nil => intro root; simp
  | cons n idx ih =>
    intro root
    rw [List.foldl_cons, ih, List.flatMap_cons]
    simp

/-- The three parameters. -/
def Par (par : Str) : Prop := ∃ x, par.head? = some x ∧ x.isDigit = false ∧ x ≠ '_'

theorem par_tile : Par tileState := ⟨'a', rfl, rfl, by decide⟩
theorem par_ctx : Par ctxName := ⟨'a', rfl, rfl, by decide⟩
theorem par_out : Par outAlpha := ⟨'o', rfl, rfl, by decide⟩

theorem key_eq (m : LModel) {par : Str} (hp : Par par) (idx : List Nat) (ps : List Str) (conv : Bool) (hc : conv = true ↔ MappedConv m ps) :
    keyFromEnding m (par ++ ending idx) par (path ps) = .ok (newKey conv idx par) := by
  obtain ⟨x, hx, hd, hu⟩ := hp
  have hcv : m.convMapped (path ps) = conv := by
    rw [Bool.eq_iff_iff, convMapped_iff, hc]
  unfold keyFromEnding
  rw [lastPart_append par x hx _ (ending_not hd hu idx)]
  dsimp only
  rw [endNumbers_ending]
  unfold newKey
  match idx with
  | [] => 
    show Except.ok (modDot ++ par ++ ending []) = _
    rw [if_neg (show ¬ 2 ≤ ([] : List Nat).length by decide), if_neg (show ¬ ([] : List Nat).headD 0 ≠ 0 by decide)]
    show Except.ok (modDot ++ par ++ []) = _
    rw [List.append_nil]
    rfl
  | [n] =>
    show Except.ok (if n = 0 then modDot ++ par else modDot ++ par ++ ['.'] ++ showOne n) = _
    rw [if_neg (show ¬ 2 ≤ [n].length by simp)]
    by_cases h : n = 0
    · rw [if_pos h, h]; rfl
    · rw [if_neg h, if_pos (show [n].headD 0 ≠ 0 from h)]
      unfold showOne modDot
      simp
  | a :: b :: l =>
    show Except.ok ((a :: b :: l).foldl (fun k v => k ++ ['.'] ++ showNat v)
      (if m.convMapped (path ps) = true then "array".toList else "analog_module.array".toList) ++ ['.'] ++ par) = _
    rw [if_pos (show 2 ≤ (a :: b :: l).length by simp), foldl_dots, hcv]
    cases conv <;> simp

/-! ## Replacing the name of the parameter -/

theorem contains_false {sub s : Str} : contains sub s = false ↔ ¬ sub <:+: s := by
  rw [← contains_iff, Bool.not_eq_true]

theorem contains_head {sep : Str} {x : Char} (hx : sep.head? = some x) : ∀ t : Str, x ∉ t → contains sep t = false := by
  intro t ht
  rw [contains_false]
  rintro ⟨a, b, rfl⟩
  refine ht ?_
  cases sep with
  | nil => cases hx
  | cons y s =>
    have : y = x := by simpa using hx
    rw [← this]
    simp

theorem contains_dots (idx : List Nat) : ∀ a : Str, contains tileState a = false →
    contains tileState (a ++ idx.flatMap fun i => '.' :: showNat i) = false := by
  induction idx with
  | nil => intro a h; rw [List.flatMap_nil, List.append_nil]; exact h
  | cons n idx ih =>
    intro a h
    have e : a ++ (n :: idx).flatMap (fun i => '.' :: showNat i) = (a ++ '.' :: showNat n) ++ idx.flatMap fun i => '.' :: showNat i := by
      rw [List.flatMap_cons]; simp
    rw [e]
    refine ih _ ?_
    rw [contains_dot _ (by decide) (by decide), h]
    exact contains_head (x := 'a') rfl _ (digit_not rfl n)

theorem replace_newKey (new : Str) (conv : Bool) (idx : List Nat) (ps : List Str) (h : ∀ p ∈ ps, ¬ "analog_tile_state".toList <:+: p) :
    replace tileState new (path ps ++ newKey conv idx tileState) = path ps ++ newKey conv idx new := by
  have hp : ps.any (contains tileState) = false := by
    rw [List.any_eq_false]
    intro p hp
    rw [Bool.not_eq_true]
    exact contains_false.2 (h p hp)
  unfold newKey
  by_cases h2 : 2 ≤ idx.length
  · rw [if_pos h2, if_pos h2]
    have e : ∀ x : Str, path ps ++ ((if conv = true then [] else "analog_module.".toList) ++ "array".toList ++
        (idx.flatMap fun i => '.' :: showNat i) ++ '.' :: x) =
        (path ps ++ ((if conv = true then [] else "analog_module.".toList) ++ "array".toList)) ++ (idx.flatMap fun i => '.' :: showNat i) ++
          '.' :: x := by intro x; simp only [List.append_assoc]
    rw [e, e]
    refine replace_last tileState new (by decide) (by decide) _ ?_
    refine contains_dots idx _ ?_
    rw [contains_path _ (by decide) (by decide), hp]
    cases conv <;> decide
  · rw [if_neg h2, if_neg h2]
    have hm : contains tileState (path ps ++ "analog_module".toList) = false := by
      rw [contains_path _ (by decide) (by decide), hp]
      decide
    by_cases h3 : idx.headD 0 ≠ 0
    · rw [if_pos h3, if_pos h3]
      have := replace_mid tileState new (by decide) (by decide) (path ps ++ "analog_module".toList)
        (".[".toList ++ showNat (idx.headD 0) ++ "]".toList) hm ?_
      · simpa using this
      · refine contains_head (x := 'a') rfl _ ?_
        intro hc
        rcases List.mem_append.1 hc with hc | hc
        · rcases List.mem_append.1 hc with hc | hc
          · revert hc; decide
          · exact digit_not rfl _ hc
        · revert hc; decide
    · rw [if_neg h3, if_neg h3]
      have := replace_last tileState new (by decide) (by decide) (path ps ++ "analog_module".toList) hm
      simpa using this

/-! ## Tile states -/

theorem find?_append_none {α : Type} {p : α → Bool} (l r : List α) (h : l.find? p = none) : (l ++ r).find? p = r.find? p := by
  rw [List.find?_append, h]; rfl

theorem sget_sdel (d : TState) (k q : String) : sget (sdel d k) q = if q = k then none else sget d q := by
  unfold sget sdel
  rw [List.find?_filter]
  by_cases h : q = k
  · rw [if_pos h]
    have : d.find? (fun a => decide (decide (a.1 ≠ k) = true ∧ decide (a.1 = q) = true)) = none := by
      rw [List.find?_eq_none]
      intro a _
      subst h
      by_cases g : a.1 = q <;> simp [g]
    rw [this]; rfl
  · rw [if_neg h]
    congr 1
    congr 1
    funext a
    by_cases g : a.1 = q
    · rw [g]; simp [h]
    · simp [g]

theorem sget_sset (d : TState) (k q : String) (v : SVal) : sget (sset d k v) q = if q = k then some v else sget d q := by
  unfold sget sset
  by_cases h : (d.any fun p => p.1 = k) = true
  · rw [if_pos h]
    induction d with
    | nil => cases h
    | cons x d ih =>
      rw [List.map_cons, List.find?_cons, List.find?_cons]
      by_cases hx : x.1 = k
      · rw [if_pos hx]
        by_cases hq : q = k
        · rw [if_pos hq]; simp [hq]
        · rw [if_neg hq]
          have e1 : decide (k = q) = false := by simp; exact fun e => hq e.symm
          have e2 : decide (x.1 = q) = false := by rw [hx]; exact e1
          simp only [e1, e2]
          by_cases hd : (d.any fun p => p.1 = k) = true
          · have := ih hd
            rw [if_neg hq] at this
            exact this
          · congr 1
            have : d.map (fun p => if p.1 = k then (k, v) else p) = d := by
              rw [List.map_congr_left (g := id), List.map_id]
              intro y hy
              have : ¬ y.1 = k := fun e => hd (List.any_eq_true.2 ⟨y, hy, by simpa using e⟩)
              rw [if_neg this]; rfl
            rw [this]
      · rw [if_neg hx]
        have hd : (d.any fun p => p.1 = k) = true := by
          rw [List.any_cons] at h
          simpa [hx] using h
        by_cases hq : x.1 = q
        · have : q ≠ k := fun e => hx (hq.trans e)
          rw [if_neg this]
          simp [hq]
        · have e1 : decide (x.1 = q) = false := by simpa using hq
          simp only [e1]
          exact ih hd
  · rw [if_neg h]
    rw [List.find?_append]
    by_cases hq : q = k
    · rw [if_pos hq]
      have : d.find? (fun p => decide (p.1 = q)) = none := by
        rw [List.find?_eq_none]
        intro x hx
        rw [hq]
        exact fun g => h (List.any_eq_true.2 ⟨x, hx, g⟩)
      rw [this, hq]
      simp
    · rw [if_neg hq]
      have : decide (k = q) = false := by simp; exact fun e => hq e.symm
      simp [this]

theorem cget_cset (d : Chk) (k q : Str) (v : CVal) : cget (cset d k v) q = if q = k then some v else cget d q := by
  unfold cget cset
  by_cases h : (d.any fun p => p.1 = k) = true
  · rw [if_pos h]
    induction d with
    | nil => cases h
    | cons x d ih =>
      rw [List.map_cons, List.find?_cons, List.find?_cons]
      by_cases hx : x.1 = k
      · rw [if_pos hx]
        by_cases hq : q = k
        · rw [if_pos hq]; simp [hq]
        · rw [if_neg hq]
          have e1 : decide (k = q) = false := by simp; exact fun e => hq e.symm
          have e2 : decide (x.1 = q) = false := by rw [hx]; exact e1
          simp only [e1, e2]
          by_cases hd : (d.any fun p => p.1 = k) = true
          · have := ih hd
            rw [if_neg hq] at this
            exact this
          · congr 1
            have : d.map (fun p => if p.1 = k then (k, v) else p) = d := by
              rw [List.map_congr_left (g := id), List.map_id]
              intro y hy
              have : ¬ y.1 = k := fun e => hd (List.any_eq_true.2 ⟨y, hy, by simpa using e⟩)
              rw [if_neg this]; rfl
            rw [this]
      · rw [if_neg hx]
        have hd : (d.any fun p => p.1 = k) = true := by
          rw [List.any_cons] at h
          simpa [hx] using h
        by_cases hq : x.1 = q
        · have : q ≠ k := fun e => hx (hq.trans e)
          rw [if_neg this]
          simp [hq]
        · have e1 : decide (x.1 = q) = false := by simpa using hq
          simp only [e1]
          exact ih hd
  · rw [if_neg h]
    rw [List.find?_append]
    by_cases hq : q = k
    · rw [if_pos hq]
      have : d.find? (fun p => decide (p.1 = q)) = none := by
        rw [List.find?_eq_none]
        intro x hx
        rw [hq]
        exact fun g => h (List.any_eq_true.2 ⟨x, hx, g⟩)
      rw [this, hq]
      simp
    · rw [if_neg hq]
      have : decide (k = q) = false := by simp; exact fun e => hq e.symm
      simp [this]

theorem cget_foldl (l : List (Str × CVal)) : ∀ (d : Chk) (k : Str),
    cget (l.foldl (fun a q => cset a q.1 q.2) d) k = (lastVal l k).or (cget d k) := by
  induction l with
  | nil => intro d k; rfl
  | cons x l ih =>
    intro d k
    rw [List.foldl_cons, ih, cget_cset]
    unfold lastVal
    rw [List.reverse_cons, List.find?_append]
    cases h : l.reverse.find? fun p => decide (p.1 = k) with
    | some y => rfl
    | none =>
      show _ = ((List.find? (fun p => decide (p.1 = k)) [x]).map (·.2)).or _
      by_cases e : k = x.1
      · rw [if_pos e, List.find?_cons, ← e]
        simp
      · rw [if_neg e]
        have : decide (x.1 = k) = false := by simp; exact fun g => e g.symm
        simp [this]

end Aihw.Legacy

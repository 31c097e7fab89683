import Verif.Legacy.Model
import Mathlib.Data.List.Infix
import Mathlib.Data.Nat.Digits.Lemmas

/-!
# C78: lemmas about the string methods
-/
namespace Aihw.Legacy

/-- Specification: the start of a key, from the names of the modules on the path. -/
def path (l : List Str) : Str := l.flatMap fun p => p ++ ['.']

theorem path_cons (p : Str) (l : List Str) : path (p :: l) = p ++ '.' :: path l := by
  unfold path
  rw [List.flatMap_cons, List.append_assoc]
  rfl

theorem path_nil : path [] = [] := rfl

/-! ## `contains` -/

theorem isPrefixOf_iff (a b : Str) : a.isPrefixOf b = true ↔ a <+: b := List.isPrefixOf_iff_prefix

theorem contains_iff (sub : Str) : ∀ s : Str, contains sub s = true ↔ sub <:+: s := by
  intro s
  induction s with
  | nil =>
    show sub.isEmpty = true ↔ _
    rw [List.isEmpty_iff, List.infix_nil]
  | cons c t ih =>
    show (sub.isPrefixOf (c :: t) || contains sub t) = true ↔ _
    rw [Bool.or_eq_true, ih, isPrefixOf_iff, List.infix_cons_iff]

/-- A name without dots that starts before a dot ends before it. -/
theorem prefix_dot (sep : Str) : ∀ a b : Str, '.' ∉ sep → (sep <+: a ++ '.' :: b ↔ sep <+: a) := by
  induction sep with
  | nil => intro a b _; simp
  | cons c sep ih =>
    intro a b hd
    have hd' : '.' ∉ sep := fun h => hd (List.mem_cons_of_mem _ h)
    cases a with
    | nil =>
      rw [List.nil_append, List.cons_prefix_cons]
      constructor
      · intro h; exact absurd (h.1 ▸ List.mem_cons_self) hd
      · intro h; simp at h
    | cons x a => rw [List.cons_append, List.cons_prefix_cons, List.cons_prefix_cons, ih a b hd']

theorem contains_dot (sep : Str) (hd : '.' ∉ sep) (hne : sep ≠ []) : ∀ a b : Str,
    contains sep (a ++ '.' :: b) = (contains sep a || contains sep b) := by
  intro a b
  induction a with
  | nil =>
    show (sep.isPrefixOf ('.' :: b) || contains sep b) = (sep.isEmpty || contains sep b)
    have h1 : sep.isPrefixOf ('.' :: b) = false := by
      rw [Bool.eq_false_iff]
      intro h
      rw [isPrefixOf_iff] at h
      have := (prefix_dot sep [] b hd).1 h
      exact hne (List.prefix_nil.1 this)
    have h2 : sep.isEmpty = false := by
      cases sep with
      | nil => exact absurd rfl hne
      | cons x y => rfl
    rw [h1, h2]
  | cons c a ih =>
    show (sep.isPrefixOf (c :: a ++ '.' :: b) || contains sep (a ++ '.' :: b)) = ((sep.isPrefixOf (c :: a) || contains sep a) || contains sep b)
    rw [ih, Bool.or_assoc]
    congr 1
    rw [Bool.eq_iff_iff, isPrefixOf_iff, isPrefixOf_iff, prefix_dot _ _ _ hd]

theorem contains_path (sep : Str) (hd : '.' ∉ sep) (hne : sep ≠ []) (l : List Str) (b : Str) :
    contains sep (path l ++ b) = (l.any (contains sep) || contains sep b) := by
  induction l with
  | nil => rfl
  | cons p l ih =>
    rw [path_cons, List.append_assoc, List.cons_append, contains_dot sep hd hne, ih, List.any_cons, Bool.or_assoc]

theorem not_prefix_of_not_contains {sep s : Str} (h : contains sep s = false) : sep.isPrefixOf s = false := by
  cases s with
  | nil =>
    cases sep with
    | nil => exact h
    | cons a b => rfl
  | cons c t => exact (Bool.or_eq_false_iff.1 h).1

/-! ## `split(sep)[0]` -/

theorem before_dot (sep : Str) (hd : '.' ∉ sep) (hne : sep ≠ []) : ∀ a b : Str, contains sep a = false →
    before sep (a ++ '.' :: b) = a ++ '.' :: before sep b := by
  intro a b
  induction a with
  | nil =>
    intro _
    show (if sep.isPrefixOf ('.' :: b) then [] else '.' :: before sep b) = _
    have h1 : sep.isPrefixOf ('.' :: b) = false := by
      rw [Bool.eq_false_iff]
      intro h
      rw [isPrefixOf_iff] at h
      exact hne (List.prefix_nil.1 ((prefix_dot sep [] b hd).1 h))
    rw [h1]
    rfl
  | cons c a ih =>
    intro h
    show (if sep.isPrefixOf (c :: a ++ '.' :: b) then [] else c :: before sep (a ++ '.' :: b)) = _
    have h1 : sep.isPrefixOf (c :: a ++ '.' :: b) = false := by
      rw [Bool.eq_false_iff]
      intro g
      rw [isPrefixOf_iff, prefix_dot _ _ _ hd, ← isPrefixOf_iff] at g
      rw [(Bool.or_eq_false_iff.1 h).1] at g
      cases g
    rw [h1, ih (Bool.or_eq_false_iff.1 h).2]
    rfl

theorem before_length (sep : Str) : ∀ s : Str, contains sep s = true → (before sep s).length + sep.length ≤ s.length := by
  intro s
  induction s with
  | nil =>
    intro h
    have : sep = [] := List.isEmpty_iff.1 h
    rw [this]; rfl
  | cons c t ih =>
    intro h
    show (if sep.isPrefixOf (c :: t) then [] else c :: before sep t).length + _ ≤ _
    by_cases hp : sep.isPrefixOf (c :: t) = true
    · rw [if_pos hp, List.length_nil, Nat.zero_add]
      exact ((isPrefixOf_iff _ _).1 hp).length_le
    · rw [if_neg hp]
      have : contains sep t = true := by
        rcases Bool.or_eq_true_iff.1 h with h | h
        · exact absurd h hp
        · exact h
      have := ih this
      rw [List.length_cons, List.length_cons]
      omega

theorem before_self (sep : Str) (hne : sep ≠ []) : before sep sep = [] := by
  cases sep with
  | nil => exact absurd rfl hne
  | cons c t =>
    show (if (c :: t).isPrefixOf (c :: t) then [] else _) = _
    rw [if_pos ((isPrefixOf_iff _ _).2 (List.prefix_refl _))]

theorem before_path (sep : Str) (hd : '.' ∉ sep) (hne : sep ≠ []) : ∀ l : List Str, (∀ p ∈ l, contains sep p = false) →
    ∀ b : Str, before sep (path l ++ b) = path l ++ before sep b := by
  intro l
  induction l with
  | nil => intro _ b; rfl
  | cons p l ih =>
    intro h b
    rw [path_cons, List.append_assoc, List.cons_append, before_dot sep hd hne _ _ (h p List.mem_cons_self),
      ih (fun q hq => h q (List.mem_cons_of_mem _ hq))]
    simp

/-- The text before the first occurrence does not change when the string is extended. -/
theorem before_append_of_contains (sep : Str) : ∀ a b : Str, sep ≠ [] → contains sep a = true → before sep (a ++ b) = before sep a := by
  intro a b hne
  induction a with
  | nil =>
    intro h
    exact absurd (List.isEmpty_iff.1 h) hne
  | cons c t ih =>
    intro h
    show (if sep.isPrefixOf (c :: t ++ b) then [] else c :: before sep (t ++ b)) = (if sep.isPrefixOf (c :: t) then [] else c :: before sep t)
    by_cases hp : sep.isPrefixOf (c :: t) = true
    · rw [if_pos hp, if_pos ((isPrefixOf_iff _ _).2 (((isPrefixOf_iff _ _).1 hp).trans (List.prefix_append _ _)))]
    · have ht : contains sep t = true := by
        rcases Bool.or_eq_true_iff.1 h with h | h
        · exact absurd h hp
        · exact h
      rw [if_neg hp, ih ht]
      have hl := ((contains_iff _ _).1 ht).length_le
      have : ¬ sep.isPrefixOf (c :: t ++ b) = true := by
        intro g
        refine hp ((isPrefixOf_iff _ _).2 ?_)
        refine List.prefix_of_prefix_length_le ((isPrefixOf_iff _ _).1 g) (List.prefix_append _ _) ?_
        rw [List.length_cons]; omega
      rw [if_neg this]

theorem before_prefix (sep : Str) : ∀ s : Str, before sep s <+: s := by
  intro s
  induction s with
  | nil => exact List.prefix_refl _
  | cons c t ih =>
    show (if sep.isPrefixOf (c :: t) then [] else c :: before sep t) <+: c :: t
    by_cases h : sep.isPrefixOf (c :: t) = true
    · rw [if_pos h]; exact List.nil_prefix
    · rw [if_neg h, List.cons_prefix_cons]; exact ⟨rfl, ih⟩

/-! ## `split(".")[-1]` -/

theorem takeWhile_append_stop {p : Char → Bool} : ∀ (a b : Str), (∀ c ∈ a, p c = true) → (b = [] ∨ ∃ x y, b = x :: y ∧ p x = false) →
    (a ++ b).takeWhile p = a := by
  intro a b ha hb
  induction a with
  | nil =>
    rcases hb with rfl | ⟨x, y, rfl, hx⟩
    · rfl
    · rw [List.nil_append, List.takeWhile_cons, hx]; rfl
  | cons c a ih =>
    rw [List.cons_append, List.takeWhile_cons, ha c List.mem_cons_self, ih fun d hd => ha d (List.mem_cons_of_mem _ hd)]
    rfl

theorem path_reverse (l : List Str) : (path l).reverse = [] ∨ ∃ y, (path l).reverse = '.' :: y := by
  induction l with
  | nil => exact Or.inl rfl
  | cons p l ih =>
    refine Or.inr ?_
    rw [path_cons]
    rcases ih with h | ⟨y, h⟩
    · refine ⟨p.reverse, ?_⟩
      rw [List.reverse_append, List.reverse_cons, h]
      rfl
    · refine ⟨y ++ '.' :: p.reverse, ?_⟩
      rw [List.reverse_append, List.reverse_cons, h]
      simp

theorem afterDot_path (l : List Str) (name : Str) (h : '.' ∉ name) : afterDot (path l ++ name) = name := by
  unfold afterDot
  rw [List.reverse_append, takeWhile_append_stop, List.reverse_reverse]
  · intro c hc
    simp only [ne_eq, decide_not, Bool.not_eq_true', decide_eq_false_iff_not]
    rintro rfl
    exact h (List.mem_reverse.1 hc)
  · rcases path_reverse l with h | ⟨y, h⟩
    · exact Or.inl h
    · exact Or.inr ⟨'.', y, h, by decide⟩

/-! ## `replace` -/

theorem replGo_dot (sep new : Str) (hd : '.' ∉ sep) (hne : sep ≠ []) : ∀ a b : Str, contains sep a = false →
    replGo sep new (a ++ '.' :: b) 0 = a ++ '.' :: replGo sep new b 0 := by
  intro a b
  induction a with
  | nil =>
    intro _
    show (if sep.isPrefixOf ('.' :: b) then new ++ _ else '.' :: replGo sep new b 0) = _
    have h1 : ¬ sep.isPrefixOf ('.' :: b) = true := by
      intro h
      rw [isPrefixOf_iff] at h
      exact hne (List.prefix_nil.1 ((prefix_dot sep [] b hd).1 h))
    rw [if_neg h1]
    rfl
  | cons c a ih =>
    intro h
    show (if sep.isPrefixOf (c :: a ++ '.' :: b) then new ++ _ else c :: replGo sep new (a ++ '.' :: b) 0) = _
    have h1 : ¬ sep.isPrefixOf (c :: a ++ '.' :: b) = true := by
      intro g
      rw [isPrefixOf_iff, prefix_dot _ _ _ hd, ← isPrefixOf_iff] at g
      rw [(Bool.or_eq_false_iff.1 h).1] at g
      cases g
    rw [if_neg h1, ih (Bool.or_eq_false_iff.1 h).2]
    rfl

theorem replGo_skip (sep new : Str) : ∀ t : Str, replGo sep new t t.length = [] := by
  intro t
  induction t with
  | nil => rfl
  | cons c t ih => exact ih

theorem replGo_self (sep new : Str) (hne : sep ≠ []) : replGo sep new sep 0 = new := by
  cases sep with
  | nil => exact absurd rfl hne
  | cons c t =>
    show (if (c :: t).isPrefixOf (c :: t) then new ++ replGo (c :: t) new t ((c :: t).length - 1) else _) = _
    rw [if_pos ((isPrefixOf_iff _ _).2 (List.prefix_refl _))]
    show new ++ replGo (c :: t) new t t.length = _
    rw [replGo_skip, List.append_nil]

/-- The name at the end of a key is replaced. -/
theorem replace_last (sep new : Str) (hd : '.' ∉ sep) (hne : sep ≠ []) (a : Str) (h : contains sep a = false) :
    replace sep new (a ++ '.' :: sep) = a ++ '.' :: new := by
  unfold replace
  rw [replGo_dot sep new hd hne a sep h, replGo_self sep new hne]

theorem replGo_none (sep new : Str) : ∀ t : Str, contains sep t = false → replGo sep new t 0 = t := by
  intro t
  induction t with
  | nil => intro _; rfl
  | cons c t ih =>
    intro h
    obtain ⟨h1, h2⟩ := Bool.or_eq_false_iff.1 h
    show (if sep.isPrefixOf (c :: t) then _ else c :: replGo sep new t 0) = _
    rw [h1, ih h2]
    rfl

theorem replGo_skip_append (sep new : Str) : ∀ a t : Str, replGo sep new (a ++ t) a.length = replGo sep new t 0 := by
  intro a t
  induction a with
  | nil => rfl
  | cons c a ih => exact ih

/-- A name in the key is replaced. -/
theorem replace_mid (sep new : Str) (hd : '.' ∉ sep) (hne : sep ≠ []) (a t : Str) (h : contains sep a = false) (ht : contains sep t = false) :
    replace sep new (a ++ '.' :: (sep ++ t)) = a ++ '.' :: (new ++ t) := by
  unfold replace
  rw [replGo_dot sep new hd hne a _ h]
  congr 2
  cases sep with
  | nil => exact absurd rfl hne
  | cons c s =>
    show (if (c :: s).isPrefixOf (c :: (s ++ t)) then new ++ replGo (c :: s) new (s ++ t) s.length else _) = _
    rw [if_pos (show (c :: s).isPrefixOf (c :: (s ++ t)) = true from (isPrefixOf_iff _ _).2 (List.prefix_append (c :: s) t)),
      replGo_skip_append, replGo_none _ _ _ ht]

/-! ## `split(sep)[-1]` -/

theorem lastGo_none (sep : Str) (x : Char) (hx : sep.head? = some x) : ∀ (t cur : Str), x ∉ t →
    lastGo sep t 0 cur = cur.reverse ++ t := by
  intro t
  induction t with
  | nil => intro cur _; show cur.reverse = _; rw [List.append_nil]
  | cons c t ih =>
    intro cur h
    show (if sep.isPrefixOf (c :: t) then _ else lastGo sep t 0 (c :: cur)) = _
    have h1 : ¬ sep.isPrefixOf (c :: t) = true := by
      intro g
      cases sep with
      | nil => cases hx
      | cons y s =>
        rw [isPrefixOf_iff, List.cons_prefix_cons] at g
        have : y = x := by simpa using hx
        exact h (by rw [← this, g.1]; exact List.mem_cons_self)
    rw [if_neg h1, ih _ fun g => h (List.mem_cons_of_mem _ g)]
    simp

theorem lastGo_skip (sep : Str) : ∀ (a t : Str), lastGo sep (a ++ t) a.length [] = lastGo sep t 0 [] := by
  intro a t
  induction a with
  | nil => rfl
  | cons c a ih => exact ih

/-- The text after a name that does not come again. -/
theorem lastPart_append (sep : Str) (x : Char) (hx : sep.head? = some x) (t : Str) (h : x ∉ t) : lastPart sep (sep ++ t) = t := by
  cases sep with
  | nil => cases hx
  | cons y s =>
    unfold lastPart
    show (if (y :: s).isPrefixOf (y :: (s ++ t)) then lastGo (y :: s) (s ++ t) s.length [] else _) = _
    rw [if_pos (show (y :: s).isPrefixOf (y :: (s ++ t)) = true from (isPrefixOf_iff _ _).2 (List.prefix_append (y :: s) t)), lastGo_skip, lastGo_none _ x hx t [] h]
    rfl

/-! ## Numbers -/

/-- Specification: the numbers at the end of a legacy name. -/
def ending (idx : List Nat) : Str := idx.flatMap fun i => '_' :: showNat i

theorem char_digit (d : Nat) (h : d < 10) : (Char.ofNat (48 + d)).isDigit = true ∧ (Char.ofNat (48 + d)).toNat - 48 = d := by
  interval_cases d <;> exact ⟨rfl, rfl⟩

theorem showNat_digits (n : Nat) : ∀ c ∈ showNat n, c.isDigit = true := by
  unfold showNat
  by_cases h : n = 0
  · rw [if_pos h]
    intro c hc
    rw [List.mem_singleton] at hc
    rw [hc]
    rfl
  · rw [if_neg h]
    intro c hc
    obtain ⟨d, hd, rfl⟩ := List.mem_map.1 hc
    exact (char_digit d (Nat.digits_lt_base (by norm_num) (List.mem_reverse.1 hd))).1

theorem showNat_ne (n : Nat) : showNat n ≠ [] := by
  unfold showNat
  by_cases h : n = 0
  · rw [if_pos h]; simp
  · rw [if_neg h]
    simp [Nat.digits_ne_nil_iff_ne_zero, h]

theorem foldl_digits (l : List Nat) (h : ∀ d ∈ l, d < 10) :
    (l.reverse.map fun d => Char.ofNat (48 + d)).foldl (fun a c => 10 * a + (c.toNat - 48)) 0 = Nat.ofDigits 10 l := by
  induction l with
  | nil => rfl
  | cons d l ih =>
    rw [List.reverse_cons, List.map_append, List.foldl_append, ih fun x hx => h x (List.mem_cons_of_mem _ hx)]
    show 10 * Nat.ofDigits 10 l + ((Char.ofNat (48 + d)).toNat - 48) = _
    rw [(char_digit d (h d List.mem_cons_self)).2, Nat.ofDigits_cons, Nat.add_comm]

theorem parseNat_showNat (n : Nat) : parseNat (showNat n) = .ok n := by
  unfold parseNat
  have h1 : (showNat n).isEmpty = false := by
    cases h : showNat n with
    | nil => exact absurd h (showNat_ne n)
    | cons a b => rfl
  have h2 : ((showNat n).any fun c => !c.isDigit) = false := by
    rw [List.any_eq_false]
    intro c hc
    rw [showNat_digits n c hc]
    decide
  rw [h1, h2]
  show Except.ok _ = Except.ok n
  congr 1
  unfold showNat
  by_cases h : n = 0
  · rw [if_pos h, h]; rfl
  · rw [if_neg h, foldl_digits _ fun d hd => Nat.digits_lt_base (by norm_num) hd, Nat.ofDigits_digits]

theorem splitUnder_take : ∀ (a cur t : Str), (∀ c ∈ a, c ≠ '_') →
    splitUnder (a ++ t) cur = splitUnder t (a.reverse ++ cur) := by
  intro a
  induction a with
  | nil => intro cur t _; rfl
  | cons c a ih =>
    intro cur t h
    show (if c = '_' then _ else splitUnder (a ++ t) (c :: cur)) = _
    rw [if_neg (h c List.mem_cons_self), ih _ _ fun d hd => h d (List.mem_cons_of_mem _ hd)]
    simp

theorem digit_ne_under (n : Nat) : ∀ c ∈ showNat n, c ≠ '_' := by
  intro c hc h
  have := showNat_digits n c hc
  rw [h] at this
  exact absurd this (by decide)

theorem splitUnder_ending (idx : List Nat) : ∀ cur : Str, splitUnder (ending idx) cur = cur.reverse :: idx.map showNat := by
  induction idx with
  | nil => intro cur; rfl
  | cons n idx ih =>
    intro cur
    show splitUnder ('_' :: showNat n ++ ending idx) cur = _
    show (if '_' = '_' then cur.reverse :: splitUnder (showNat n ++ ending idx) [] else _) = _
    rw [if_pos rfl, splitUnder_take _ _ _ (digit_ne_under n), ih]
    simp

theorem mapM_parse (idx : List Nat) : (idx.map showNat).mapM parseNat = .ok idx := by
  induction idx with
  | nil => rfl
  | cons n idx ih =>
    rw [List.map_cons, List.mapM_cons, parseNat_showNat, ih]
    rfl

theorem endNumbers_ending (idx : List Nat) : endNumbers (ending idx) = .ok idx := by
  unfold endNumbers
  rw [splitUnder_ending]
  have : (([] : Str).reverse :: idx.map showNat).filter (fun s => !s.isEmpty) = idx.map showNat := by
    show (idx.map showNat).filter (fun s => !s.isEmpty) = _
    rw [List.filter_eq_self]
    intro s hs
    obtain ⟨n, _, rfl⟩ := List.mem_map.1 hs
    cases h : showNat n with
    | nil => exact absurd h (showNat_ne n)
    | cons a b => rfl
  rw [this, mapM_parse]

theorem digit_not {c : Char} (h : c.isDigit = false) (n : Nat) : c ∉ showNat n := by
  intro hc
  rw [showNat_digits n c hc] at h
  cases h

theorem ending_not {c : Char} (h : c.isDigit = false) (hu : c ≠ '_') (idx : List Nat) : c ∉ ending idx := by
  intro hc
  obtain ⟨n, _, hn⟩ := List.mem_flatMap.1 hc
  rcases List.mem_cons.1 hn with e | hn
  · exact hu e
  · exact digit_not h n hn

end Aihw.Legacy

import Verif.Extra.Model
import Mathlib.Data.Nat.Digits.Lemmas
import Mathlib.Data.List.Nodup
import Mathlib.Tactic.Ring

/-!
# Lemmas on dictionaries with prefixed keys
-/
namespace Aihw.Extra

theorem ok_bind' {α β : Type} (a : α) (f : α → Except PyErr β) : ((Except.ok a : Except PyErr α) >>= f) = f a := rfl

theorem find_append (a b : Dict) (k : Key) : find (a ++ b) k = (find a k).or (find b k) := by
  induction a with
  | nil => rfl
  | cons x a ih =>
    show (if x.1 = k then some x.2 else find (a ++ b) k) = (if x.1 = k then some x.2 else find a k).or _
    by_cases h : x.1 = k
    · rw [if_pos h, if_pos h]; rfl
    · rw [if_neg h, if_neg h, ih]

theorem find_filter_ne (d : Dict) (k q : Key) (h : q ≠ k) : find (d.filter fun x => decide (x.1 ≠ k)) q = find d q := by
  induction d with
  | nil => rfl
  | cons x d ih =>
    by_cases hx : x.1 = k
    · rw [List.filter_cons_of_neg (by simpa using hx), ih]
      show _ = if x.1 = q then _ else _
      rw [if_neg (fun e => h (e.symm.trans hx))]
    · rw [List.filter_cons_of_pos (by simpa using hx)]
      show (if x.1 = q then _ else _) = if x.1 = q then _ else _
      rw [ih]

theorem find_insert (d : Dict) (k q : Key) (v : Vec) : find (insert d k v) q = if k = q then some v else find d q := by
  unfold insert
  show (if k = q then some v else _) = _
  by_cases h : k = q
  · rw [if_pos h, if_pos h]
  · rw [if_neg h, if_neg h, find_filter_ne _ _ _ (fun e => h e.symm)]

/-- Keys occur once. -/
def WF (d : Dict) : Prop := (d.map (·.1)).Nodup

theorem wf_nil : WF [] := List.nodup_nil

theorem wf_insert {d : Dict} (h : WF d) (k : Key) (v : Vec) : WF (insert d k v) := by
  unfold WF insert
  rw [List.map_cons, List.nodup_cons]
  constructor
  · intro hm
    obtain ⟨x, hx, e⟩ := List.mem_map.1 hm
    have := (List.mem_filter.1 hx).2
    simp at this
    exact this e
  · exact List.Nodup.sublist (List.Sublist.map _ List.filter_sublist) h

theorem fill_spec (l : List (Key × Vec)) : ∀ d : Dict, WF d → WF (fill d l) ∧
    ((l.map (·.1)).Nodup → ∀ q, find (fill d l) q = (find l q).or (find d q)) := by
  induction l with
  | nil => intro d h; exact ⟨h, fun _ q => rfl⟩
  | cons x l ih =>
    intro d h
    obtain ⟨h1, h2⟩ := ih (insert d x.1 x.2) (wf_insert h _ _)
    refine ⟨h1, ?_⟩
    intro hn q
    rw [List.map_cons, List.nodup_cons] at hn
    show find (fill (insert d x.1 x.2) l) q = _
    rw [h2 hn.2 q, find_insert]
    show _ = (if x.1 = q then some x.2 else find l q).or _
    by_cases hq : x.1 = q
    · rw [if_pos hq, if_pos hq]
      have : find l q = none := by
        have hx := hn.1
        rw [hq] at hx
        clear hn h1 h2 ih
        induction l with
        | nil => rfl
        | cons y l ih =>
          rw [List.map_cons, List.mem_cons, not_or] at hx
          show (if y.1 = q then _ else _) = _
          rw [if_neg (fun e => hx.1 e.symm)]
          exact ih hx.2
      rw [this]; rfl
    · rw [if_neg hq, if_neg hq]

theorem find_isSome_iff (d : Dict) (k : Key) : (find d k).isSome ↔ k ∈ d.map (·.1) := by
  induction d with
  | nil => simp [find]
  | cons x d ih =>
    rw [List.map_cons, List.mem_cons]
    show (if x.1 = k then some x.2 else find d k).isSome ↔ _
    by_cases h : x.1 = k
    · rw [if_pos h]; simp [h]
    · rw [if_neg h, ih]
      exact ⟨fun h2 => Or.inr h2, fun h2 => h2.resolve_left (fun e => h e.symm)⟩

theorem find_eq_some_iff {d : Dict} (h : WF d) (k : Key) (v : Vec) : find d k = some v ↔ (k, v) ∈ d := by
  induction d with
  | nil => simp [find]
  | cons x d ih =>
    unfold WF at h
    rw [List.map_cons, List.nodup_cons] at h
    show (if x.1 = k then some x.2 else find d k) = some v ↔ _
    rw [List.mem_cons]
    by_cases hx : x.1 = k
    · rw [if_pos hx]
      constructor
      · intro e; left; injection e with e; exact Prod.ext hx.symm e.symm
      · rintro (e | e)
        · rw [← e]
        · exact absurd (List.mem_map.2 ⟨_, e, hx.symm⟩) h.1
    · rw [if_neg hx, ih h.2]
      exact ⟨fun e => Or.inr e, fun e => e.resolve_left (fun e => hx (by rw [← e]))⟩

theorem find_perm {d e : Dict} (h : WF d) (p : e.Perm d) (k : Key) : find e k = find d k := by
  have he : WF e := (p.map _).nodup_iff.2 h
  apply Option.ext
  intro v
  rw [find_eq_some_iff he, find_eq_some_iff h, p.mem_iff]

/-! ## Prefixes -/

theorem strip_sub (p k : Key) : strip p (sub p k) = some k := by
  induction p with
  | nil => rfl
  | cons c p ih =>
    show (if c = c then strip p (sub p k) else none) = _
    rw [if_pos rfl, ih]

theorem strip_iff (p q k : Key) : strip p q = some k ↔ q = sub p k := by
  constructor
  · revert q
    induction p with
    | nil =>
      intro q h
      cases q with
      | nil => cases h
      | cons c q =>
        by_cases hc : c = '.'
        · subst hc; injection h with h; rw [h]; rfl
        · unfold strip at h
          split at h
          · rename_i heq; injection heq with h1 h2; exact absurd h1 hc
          · rename_i heq _; cases heq
          · cases h
    | cons d p ih =>
      intro q h
      cases q with
      | nil => cases h
      | cons c q =>
        have h' : (if d = c then strip p q else none) = some k := h
        by_cases hc : d = c
        · rw [if_pos hc] at h'
          rw [ih q h', hc]; rfl
        · rw [if_neg hc] at h'; cases h'
  · rintro rfl
    exact strip_sub p k

theorem strip_none_iff (p q : Key) : strip p q = none ↔ ∀ k, q ≠ sub p k := by
  constructor
  · intro h k e
    rw [(strip_iff p q k).2 e] at h
    cases h
  · intro h
    cases hs : strip p q with
    | none => rfl
    | some k => exact absurd ((strip_iff p q k).1 hs) (h k)

theorem sub_inj (p : Key) {k k' : Key} (h : sub p k = sub p k') : k = k' := by
  have := strip_sub p k
  rw [h, strip_sub] at this
  injection this with this
  exact this.symm

/-- Everything below a prefix. -/
def prefixed (p : Key) (d : Dict) : Dict := d.map fun x => (sub p x.1, x.2)

theorem find_prefixed (p : Key) (d : Dict) (q : Key) : find (prefixed p d) q = (strip p q).bind (find d) := by
  induction d with
  | nil =>
    show none = _
    cases strip p q <;> rfl
  | cons x d ih =>
    show (if sub p x.1 = q then some x.2 else find (prefixed p d) q) = _
    by_cases h : sub p x.1 = q
    · rw [if_pos h, (strip_iff p q x.1).2 h.symm]
      show _ = if x.1 = x.1 then some x.2 else _
      rw [if_pos rfl]
    · rw [if_neg h, ih]
      cases hs : strip p q with
      | none => rfl
      | some k =>
        show _ = if x.1 = k then some x.2 else _
        rw [if_neg]
        · rfl
        · intro e
          rw [strip_iff] at hs
          exact h (by rw [hs, e])

theorem find_select (extra : Dict) (p k : Key) : find (selectWithPrefix extra p) k = find extra (sub p k) := by
  induction extra with
  | nil => rfl
  | cons x d ih =>
    have e : selectWithPrefix (x :: d) p = ((strip p x.1).map fun k => (k, x.2)).toList ++ selectWithPrefix d p := by
      unfold selectWithPrefix
      cases hs : strip p x.1 with
      | none => rw [List.filterMap_cons_none (by rw [hs]; rfl)]; rfl
      | some k' => rw [List.filterMap_cons_some (by rw [hs]; rfl)]; rfl
    rw [e, find_append, ih]
    show _ = if x.1 = sub p k then some x.2 else find d (sub p k)
    cases hs : strip p x.1 with
    | none =>
      rw [if_neg ((strip_none_iff _ _).1 hs k)]; rfl
    | some k' =>
      rw [strip_iff] at hs
      show (if k' = k then some x.2 else none).or _ = _
      by_cases h : k' = k
      · rw [if_pos h, if_pos (by rw [hs, h])]; rfl
      · rw [if_neg h, if_neg (fun e => h (sub_inj p (hs.symm.trans e)))]; rfl

/-! ## First segments -/

/-- The part of a key before the first dot. -/
def head (k : Key) : Key := k.takeWhile fun c => decide (c ≠ '.')

def NoDot (p : Key) : Prop := '.' ∉ p

instance (p : Key) : Decidable (NoDot p) := by unfold NoDot; infer_instance

theorem head_sub {p : Key} (h : NoDot p) (k : Key) : head (sub p k) = p := by
  unfold head sub
  induction p with
  | nil => rfl
  | cons c p ih =>
    have hc : c ≠ '.' := fun e => h (by rw [e]; exact List.mem_cons_self)
    rw [List.cons_append, List.takeWhile_cons_of_pos (by simpa using hc), ih (fun e => h (List.mem_cons_of_mem _ e))]

theorem strip_other {p p' : Key} (h : NoDot p) (h' : NoDot p') (hn : p ≠ p') (k : Key) : strip p (sub p' k) = none := by
  rw [strip_none_iff]
  intro k2 e
  have := congrArg head e
  rw [head_sub h', head_sub h] at this
  exact hn this.symm

/-- All first segments satisfy `S`. -/
def Heads (d : Dict) (S : Key → Prop) : Prop := ∀ k, (find d k).isSome → S (head k)

theorem heads_nil (S : Key → Prop) : Heads [] S := by intro k h; cases h

theorem find_none_of_heads {d : Dict} {S : Key → Prop} (h : Heads d S) {k : Key} (hk : ¬ S (head k)) : find d k = none := by
  cases hf : find d k with
  | none => rfl
  | some v => exact absurd (h k (by rw [hf]; rfl)) hk

theorem heads_append {a b : Dict} {S : Key → Prop} (ha : Heads a S) (hb : Heads b S) : Heads (a ++ b) S := by
  intro k h
  rw [find_append] at h
  cases hf : find a k with
  | none => rw [hf] at h; exact hb k h
  | some v => exact ha k (by rw [hf]; rfl)

theorem heads_mono {d : Dict} {S T : Key → Prop} (h : Heads d S) (hst : ∀ k, S k → T k) : Heads d T := fun k hk => hst _ (h k hk)

theorem heads_prefixed {p : Key} (hp : NoDot p) (d : Dict) : Heads (prefixed p d) (· = p) := by
  intro k h
  rw [find_prefixed] at h
  cases hs : strip p k with
  | none => rw [hs] at h; cases h
  | some k' =>
    rw [strip_iff] at hs
    rw [hs, head_sub hp]

/-- A list of fields. -/
theorem heads_fields {l : Dict} {S : Key → Prop} (h : ∀ x ∈ l.map fun x => head x.1, S x) : Heads l S := by
  intro k hk
  rw [find_isSome_iff] at hk
  obtain ⟨x, hx, rfl⟩ := List.mem_map.1 hk
  exact h _ (List.mem_map.2 ⟨x, hx, rfl⟩)

/-! ## Insertion with a prefix -/

theorem insertLoop_ok (p : Key) (st : Dict) : ∀ extra : Dict, WF extra → (st.map (·.1)).Nodup →
    (∀ k ∈ st.map (·.1), find extra k = none) → (∀ k ∈ st.map (·.1), ∀ k' ∈ st.map (·.1), k ≠ sub p k') →
    ∃ e, insertLoop p extra st = .ok e ∧ WF e ∧ ∀ q, find e q = ((strip p q).bind (find st)).or (find extra q) := by
  induction st with
  | nil =>
    intro extra hw _ _ _
    refine ⟨extra, rfl, hw, fun q => ?_⟩
    cases strip p q <;> rfl
  | cons x st ih =>
    intro extra hw hn h1 h2
    rw [List.map_cons, List.nodup_cons] at hn
    have hx : find extra x.1 = none := h1 x.1 (by simp)
    obtain ⟨e, e1, e2, e3⟩ := ih (insert extra (sub p x.1) x.2) (wf_insert hw _ _) hn.2
      (by
        intro k hk
        rw [find_insert, if_neg]
        · exact h1 k (by rw [List.map_cons]; exact List.mem_cons_of_mem _ hk)
        · exact fun e => h2 k (by rw [List.map_cons]; exact List.mem_cons_of_mem _ hk) x.1 (by simp) e.symm)
      (fun k hk k' hk' => h2 k (by rw [List.map_cons]; exact List.mem_cons_of_mem _ hk) k'
        (by rw [List.map_cons]; exact List.mem_cons_of_mem _ hk'))
    refine ⟨e, ?_, e2, ?_⟩
    · show (if (find extra x.1).isSome then _ else insertLoop p (insert extra (sub p x.1) x.2) st) = _
      rw [hx]; exact e1
    · intro q
      rw [e3 q, find_insert]
      cases hs : strip p q with
      | none =>
        rw [if_neg (fun e => ((strip_none_iff p q).1 hs) x.1 e.symm)]; rfl
      | some k =>
        have hq := (strip_iff p q k).1 hs
        show (find st k).or _ = (if x.1 = k then some x.2 else find st k).or _
        by_cases hk : x.1 = k
        · rw [if_pos hk, if_pos (by rw [hq, hk])]
          have : find st k = none := by
            cases hf : find st k with
            | none => rfl
            | some v =>
              have := (find_isSome_iff st k).1 (by rw [hf]; rfl)
              rw [← hk] at this
              exact absurd this hn.1
          rw [this]; rfl
        · rw [if_neg hk, if_neg (fun e => hk (sub_inj p (e.trans hq)))]

theorem insertLoop_mono (p : Key) (st : Dict) : ∀ extra e : Dict, insertLoop p extra st = .ok e →
    ∀ k, (find extra k).isSome → (find e k).isSome := by
  induction st with
  | nil => intro extra e h k hk; injection h with h; rw [← h]; exact hk
  | cons x st ih =>
    intro extra e h k hk
    have h' : (if (find extra x.1).isSome then (.error .runtimeError : Except PyErr Dict)
      else insertLoop p (insert extra (sub p x.1) x.2) st) = .ok e := h
    by_cases hc : (find extra x.1).isSome = true
    · rw [if_pos hc] at h'; cases h'
    · rw [if_neg hc] at h'
      apply ih _ _ h' k
      rw [find_insert]
      by_cases hq : sub p x.1 = k
      · rw [if_pos hq]; rfl
      · rw [if_neg hq]; exact hk

theorem insertLoop_has (p : Key) (st : Dict) : ∀ extra e : Dict, insertLoop p extra st = .ok e →
    ∀ k ∈ st.map (·.1), (find e (sub p k)).isSome := by
  induction st with
  | nil => intro extra e _ k hk; simp at hk
  | cons x st ih =>
    intro extra e h k hk
    have h' : (if (find extra x.1).isSome then (.error .runtimeError : Except PyErr Dict)
      else insertLoop p (insert extra (sub p x.1) x.2) st) = .ok e := h
    by_cases hc : (find extra x.1).isSome = true
    · rw [if_pos hc] at h'; cases h'
    · rw [if_neg hc] at h'
      rw [List.map_cons, List.mem_cons] at hk
      rcases hk with hk | hk
      · apply insertLoop_mono p st _ _ h'
        rw [hk, find_insert, if_pos rfl]; rfl
      · exact ih _ _ h' k hk

theorem insertLoop_err (p : Key) (st : Dict) : ∀ extra : Dict, (∃ k ∈ st.map (·.1), (find extra k).isSome) →
    insertLoop p extra st = .error .runtimeError := by
  induction st with
  | nil => rintro extra ⟨k, hk, _⟩; simp at hk
  | cons x st ih =>
    rintro extra ⟨k, hk, hs⟩
    show (if (find extra x.1).isSome then (.error .runtimeError : Except PyErr Dict)
      else insertLoop p (insert extra (sub p x.1) x.2) st) = _
    by_cases hc : (find extra x.1).isSome = true
    · rw [if_pos hc]
    · rw [if_neg hc]
      apply ih
      rw [List.map_cons, List.mem_cons] at hk
      rcases hk with hk | hk
      · rw [hk] at hs; exact absurd hs hc
      · refine ⟨k, hk, ?_⟩
        rw [find_insert]
        by_cases hq : sub p x.1 = k
        · rw [if_pos hq]; rfl
        · rw [if_neg hq]; exact hs

/-- The result of a dump: the old content, and `spec` below the prefix. -/
def Dumps (r : Except PyErr Dict) (extra : Dict) (p : Key) (spec : Dict) : Prop :=
  ∃ e, r = .ok e ∧ WF e ∧ ∀ q, find e q = ((strip p q).bind (find spec)).or (find extra q)

theorem insert_ok (o : Order) {extra st : Dict} (hw : WF extra) (hs : WF st) {p : Key} {spec : Dict} (hf : ∀ k, find st k = find spec k)
    (h1 : ∀ k, (find st k).isSome → find extra k = none) (h2 : ∀ k k', (find st k).isSome → (find st k').isSome → k ≠ sub p k') :
    Dumps (insertWithPrefix o extra st p) extra p spec := by
  have hm : ∀ k, k ∈ (o.ord st).map (·.1) → (find st k).isSome := by
    intro k hk
    rw [find_isSome_iff]
    exact ((o.perm st).map _).mem_iff.1 hk
  obtain ⟨e, e1, e2, e3⟩ := insertLoop_ok p (o.ord st) extra hw (((o.perm st).map _).nodup_iff.2 hs)
    (fun k hk => h1 k (hm k hk)) (fun k hk k' hk' => h2 k k' (hm k hk) (hm k' hk'))
  refine ⟨e, e1, e2, fun q => ?_⟩
  rw [e3 q]
  cases strip p q with
  | none => rfl
  | some k =>
    show (find (o.ord st) k).or _ = (find spec k).or _
    rw [find_perm hs (o.perm st), hf]

theorem insert_heads (o : Order) {extra st : Dict} (hw : WF extra) (hs : WF st) {p : Key} {spec : Dict} (hf : ∀ k, find st k = find spec k)
    {A B : Key → Prop} (ha : Heads st A) (hb : Heads extra B) (hd : ∀ h, A h → ¬ B h) (hp : NoDot p) (hpa : ¬ A p) :
    Dumps (insertWithPrefix o extra st p) extra p spec := by
  apply insert_ok o hw hs hf
  · intro k hk
    exact find_none_of_heads hb (hd _ (ha k hk))
  · intro k k' hk hk' e
    have := ha k hk
    rw [e, head_sub hp] at this
    exact hpa this

theorem insert_err (o : Order) (extra st : Dict) (p k : Key) (h1 : (find st k).isSome) (h2 : (find extra k).isSome) :
    insertWithPrefix o extra st p = .error .runtimeError := by
  apply insertLoop_err
  refine ⟨k, ?_, h2⟩
  rw [find_isSome_iff] at h1
  exact ((o.perm st).map _).mem_iff.2 h1

/-- A layer of fields only. -/
theorem fields_ok (o : Order) {extra : Dict} (hw : WF extra) (l : Dict) (hn : (l.map (·.1)).Nodup) {p : Key} {A B : Key → Prop}
    (ha : Heads l A) (hb : Heads extra B) (hd : ∀ h, A h → ¬ B h) (hp : NoDot p) (hpa : ¬ A p) :
    Dumps (insertWithPrefix o extra (fill [] l) p) extra p l := by
  obtain ⟨f1, f2⟩ := fill_spec l [] wf_nil
  have f3 : ∀ k, find (fill [] l) k = find l k := by
    intro k
    rw [f2 hn k]
    show (find l k).or none = _
    simp
  exact insert_heads o hw f1 f3 (fun k hk => ha k (by rw [← f3 k]; exact hk)) hb hd hp hpa

theorem dumps_heads {extra e : Dict} {p : Key} {spec : Dict} {B : Key → Prop} (hp : NoDot p) (hb : Heads extra B)
    (h : ∀ q, find e q = ((strip p q).bind (find spec)).or (find extra q)) : Heads e (fun x => B x ∨ x = p) := by
  intro k hk
  rw [h k] at hk
  cases hs : strip p k with
  | none => rw [hs] at hk; exact Or.inl (hb k hk)
  | some k' =>
    rw [strip_iff] at hs
    right
    rw [hs, head_sub hp]

/-- Two layers below the same prefix. -/
theorem dumps_bind {r : Except PyErr Dict} {extra : Dict} {p : Key} {s1 s2 : Dict} (h1 : Dumps r extra p s1)
    {f : Dict → Except PyErr Dict}
    (h2 : ∀ e, WF e → (∀ q, find e q = ((strip p q).bind (find s1)).or (find extra q)) → Dumps (f e) e p s2) :
    Dumps (r >>= f) extra p (s2 ++ s1) := by
  obtain ⟨e, rfl, w, g⟩ := h1
  obtain ⟨e', h3, w', g'⟩ := h2 e w g
  refine ⟨e', h3, w', fun q => ?_⟩
  rw [g' q, g q]
  cases strip p q with
  | none => rfl
  | some k =>
    show (find s2 k).or ((find s1 k).or _) = (find (s2 ++ s1) k).or _
    rw [find_append, Option.or_assoc]

/-! ## Decimal numbers -/

theorem digitChar_isDigit (d : Nat) (h : d < 10) : (Nat.digitChar d).isDigit = true := by
  have : ∀ d < 10, (Nat.digitChar d).isDigit = true := by decide
  exact this d h

theorem digitChar_inj {a b : Nat} (ha : a < 10) (hb : b < 10) (h : Nat.digitChar a = Nat.digitChar b) : a = b := by
  have : ∀ a < 10, ∀ b < 10, Nat.digitChar a = Nat.digitChar b → a = b := by decide
  exact this a ha b hb h

/-- Decimal digits only. -/
def Digits (p : Key) : Prop := p ≠ [] ∧ ∀ c ∈ p, c.isDigit = true

instance (p : Key) : Decidable (Digits p) := by unfold Digits; infer_instance

theorem dec_digits (n : Nat) : Digits (dec n) := by
  unfold dec
  by_cases h : n = 0
  · rw [if_pos h]; decide
  · rw [if_neg h]
    constructor
    · intro e
      rw [List.map_eq_nil_iff, List.reverse_eq_nil_iff, Nat.digits_eq_nil_iff_eq_zero] at e
      exact h e
    · intro c hc
      obtain ⟨d, hd, rfl⟩ := List.mem_map.1 hc
      exact digitChar_isDigit d (Nat.digits_lt_base (by norm_num) (List.mem_reverse.1 hd))

theorem Digits.noDot {p : Key} (h : Digits p) : NoDot p := by
  intro hm
  have := h.2 _ hm
  revert this; decide

theorem dec_noDot (n : Nat) : NoDot (dec n) := (dec_digits n).noDot

theorem map_digitChar_inj (l : List Nat) : ∀ l' : List Nat, (∀ d ∈ l, d < 10) → (∀ d ∈ l', d < 10) →
    l.map Nat.digitChar = l'.map Nat.digitChar → l = l' := by
  induction l with
  | nil => intro l' _ _ h; cases l' with
    | nil => rfl
    | cons a l' => cases h
  | cons a l ih =>
    intro l' h1 h2 h
    cases l' with
    | nil => cases h
    | cons b l' =>
      rw [List.map_cons, List.map_cons] at h
      injection h with e1 e2
      rw [digitChar_inj (h1 a List.mem_cons_self) (h2 b List.mem_cons_self) e1,
        ih l' (fun d hd => h1 d (List.mem_cons_of_mem _ hd)) (fun d hd => h2 d (List.mem_cons_of_mem _ hd)) e2]

theorem dec_inj {a b : Nat} (h : dec a = dec b) : a = b := by
  unfold dec at h
  have key0 : ∀ n, n ≠ 0 → (Nat.digits 10 n).reverse.map Nat.digitChar ≠ ['0'] := by
    intro n hn e
    have : (Nat.digits 10 n).reverse.map Nat.digitChar = [0].map Nat.digitChar := e
    have := map_digitChar_inj _ _ (fun d hd => Nat.digits_lt_base (by norm_num) (List.mem_reverse.1 hd)) (by simp) this
    have e2 : Nat.digits 10 n = [0] := by
      rw [← List.reverse_reverse (Nat.digits 10 n), this]; rfl
    have e3 : n = 0 := by
      rw [← Nat.ofDigits_digits 10 n, e2]; rfl
    exact hn e3
  by_cases ha : a = 0
  · by_cases hb : b = 0
    · rw [ha, hb]
    · rw [if_pos ha, if_neg hb] at h
      exact absurd h.symm (key0 b hb)
  · by_cases hb : b = 0
    · rw [if_neg ha, if_pos hb] at h
      exact absurd h (key0 a ha)
    · rw [if_neg ha, if_neg hb] at h
      have := map_digitChar_inj _ _ (fun d hd => Nat.digits_lt_base (by norm_num) (List.mem_reverse.1 hd))
        (fun d hd => Nat.digits_lt_base (by norm_num) (List.mem_reverse.1 hd)) h
      rw [List.reverse_inj] at this
      rw [← Nat.ofDigits_digits 10 a, this, Nat.ofDigits_digits]

end Aihw.Extra

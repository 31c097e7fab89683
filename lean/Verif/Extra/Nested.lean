import Verif.Extra.Pars2

/-!
# Cells inside cells, mixed precision around transfer devices, incomplete dictionaries
-/
namespace Aihw.Extra

/-- Adds entries, or raises a runtime error. -/
def Grows (r : Except PyErr Dict) (extra : Dict) : Prop :=
  (∀ e, r = .error e → e = .runtimeError) ∧ ∀ e, r = .ok e → ∀ k, (find extra k).isSome → (find e k).isSome

theorem grows_refl (extra : Dict) : Grows (.ok extra) extra := by
  constructor
  · intro e h; cases h
  · intro e h k hk; injection h with h; rw [← h]; exact hk

theorem grows_bind {r : Except PyErr Dict} {extra : Dict} (h : Grows r extra) {f : Dict → Except PyErr Dict} (hf : ∀ e, Grows (f e) e) :
    Grows (r >>= f) extra := by
  cases r with
  | error e =>
    constructor
    · intro e' h'; injection h' with h'; rw [← h']; exact h.1 e rfl
    · intro e' h'; cases h'
  | ok a => exact ⟨(hf a).1, fun e he k hk => (hf a).2 e he k (h.2 a rfl k hk)⟩

/-- A part computed separately. -/
theorem grows_side {r : Except PyErr Dict} {st extra : Dict} (h : Grows r st) {f : Dict → Except PyErr Dict} (hf : ∀ e, Grows (f e) extra) :
    Grows (r >>= f) extra := by
  cases r with
  | error e =>
    constructor
    · intro e' h'; injection h' with h'; rw [← h']; exact h.1 e rfl
    · intro e' h'; cases h'
  | ok a => exact hf a

theorem grows_insert (o : Order) (extra st : Dict) (p : Key) : Grows (insertWithPrefix o extra st p) extra := by
  constructor
  · intro e h
    unfold insertWithPrefix at h
    revert h
    generalize o.ord st = l
    induction l generalizing extra with
    | nil => intro h; cases h
    | cons x l ih =>
      intro h
      have h' : (if (find extra x.1).isSome then (.error .runtimeError : Except PyErr Dict)
        else insertLoop p (insert extra (sub p x.1) x.2) l) = .error e := h
      split at h'
      · injection h' with h'; exact h'.symm
      · exact ih _ h'
  · intro e h k hk
    exact insertLoop_mono p _ _ _ h k hk

theorem grows_fill {r : Except PyErr Dict} {extra st : Dict} (h : Grows r st) (l : Dict) {f : Dict → Except PyErr Dict}
    (hf : ∀ e, Grows (f e) extra) : Grows (r >>= fun e => f (fill e l)) extra := grows_side h fun e => hf _

theorem Drift.grows (o : Order) (s : Drift) (extra : Dict) (p : Key) : Grows (s.dump o extra p) extra := grows_insert _ _ _ _
theorem Pwu.grows (o : Order) (s : Pwu) (extra : Dict) (p : Key) : Grows (s.dump o extra p) extra := grows_insert _ _ _ _
theorem FbPass.grows (o : Order) (s : FbPass) (extra : Dict) (p : Key) : Grows (s.dump o extra p) extra :=
  grows_bind (grows_insert _ _ _ _) fun _ => grows_insert _ _ _ _

theorem dumpDrift_grows (o : Order) (d : Option Drift) (extra : Dict) (p : Key) : Grows (dumpDrift o d extra p) extra := by
  cases d with
  | none => exact grows_refl _
  | some s => exact grows_side (s.grows o [] _) fun _ => grows_insert _ _ _ _

theorem Base.grows (o : Order) (b : Base) (extra : Dict) (p : Key) : Grows (b.dump o extra p) extra :=
  grows_bind (dumpDrift_grows _ _ _ _) fun _ => grows_insert _ _ _ _

theorem grows_opt {α : Type} (f : α → Dict → Key → Except PyErr Dict) (h : ∀ a extra p, Grows (f a extra p) extra) (a : Option α) (extra : Dict)
    (p : Key) : Grows (dumpOpt f a extra p) extra := by
  cases a with
  | none => exact grows_refl _
  | some a => exact h a extra p

theorem TransSt.grows (o : Order) (t : TransSt) (extra : Dict) (p : Key) : Grows (t.dump o extra p) extra := by
  unfold TransSt.dump
  refine grows_side (t.fb.grows o _ _) fun _ => grows_side (t.pwu.grows o _ _) fun _ => grows_bind (grows_insert _ _ _ _) fun _ =>
    grows_bind (grows_opt _ (fun a e q => ?_) _ _ _) fun _ => grows_opt _ (fun a e q => ?_) _ _ _
  · exact grows_insert _ _ _ _
  · exact grows_insert _ _ _ _

mutual
theorem Dev.grows (o : Order) : ∀ (d : Dev) (extra : Dict) (p : Key), Grows (Dev.dump o d extra p) extra
  | .leaf b, extra, p => by rw [Dev.dump]; exact b.grows o extra p
  | .cell b subs v t, extra, p => by
    rw [Dev.dump]
    refine grows_bind (b.grows o extra p) fun e1 => grows_side (subs_grows o subs 0 []) fun e2 => grows_bind (grows_insert _ _ _ _) fun e3 =>
      grows_opt _ (fun a e q => a.grows o e q) _ _ _
theorem subs_grows (o : Order) : ∀ (ds : List Dev) (k : Nat) (st : Dict), Grows (dumpSubs o ds k st) st
  | [], _, st => by rw [dumpSubs]; exact grows_refl _
  | d :: ds, k, st => by
    rw [dumpSubs]
    exact grows_bind (Dev.grows o d st (Aihw.Extra.dec k)) fun e => subs_grows o ds (k + 1) e
end

theorem bind_eq_ok {α β : Type} {r : Except PyErr α} {f : α → Except PyErr β} {b : β} (h : (r >>= f) = .ok b) : ∃ a, r = .ok a ∧ f a = .ok b := by
  cases r with
  | error e => cases h
  | ok a => exact ⟨a, rfl, h⟩

theorem Base.has (o : Order) (b : Base) (extra : Dict) (p : Key) {e : Dict} (h : b.dump o extra p = .ok e) :
    (find e (sub p (key "num_states"))).isSome := by
  obtain ⟨a, _, h2⟩ := bind_eq_ok h
  refine insertLoop_has p _ _ _ h2 _ ?_
  refine ((o.perm _).map _).mem_iff.2 ((find_isSome_iff _ _).1 (fill_has _ _ _ (Or.inl ?_)))
  show key "num_states" ∈ [key "num_states", key "weight_granularity"]
  decide

theorem Dev.has (o : Order) (d : Dev) (extra : Dict) (p : Key) {e : Dict} (h : d.dump o extra p = .ok e) :
    (find e (sub p (key "num_states"))).isSome := by
  cases d with
  | leaf b => rw [Dev.dump] at h; exact b.has o extra p h
  | cell b subs v t =>
    rw [Dev.dump] at h
    obtain ⟨e1, h1, h⟩ := bind_eq_ok h
    obtain ⟨e2, h2, h⟩ := bind_eq_ok h
    obtain ⟨e3, h3, h⟩ := bind_eq_ok h
    exact (grows_opt _ (fun a e q => a.grows o e q) t e3 p).2 e h _ ((grows_insert _ _ _ _).2 _ h3 _ (b.has o extra p h1))

/-- A cell with at least one device. -/
def Dev.IsCell : Dev → Prop
  | .leaf _ => False
  | .cell _ subs _ _ => subs ≠ []

/-- A cell inside a cell. -/
def Dev.Nested : Dev → Prop
  | .leaf _ => False
  | .cell _ subs _ _ => ∃ d ∈ subs, d.IsCell

theorem err_of {r : Except PyErr Dict} {extra : Dict} (h : Grows r extra) (hn : ∀ e, r ≠ .ok e) : r = .error .runtimeError := by
  cases r with
  | error e => rw [h.1 e rfl]
  | ok a => exact absurd rfl (hn a)

/-- `0.num_states`. -/
def zeroKey : Key := sub (dec 0) (key "num_states")

theorem subs_has (o : Order) (ds : List Dev) (hd : ds ≠ []) (st : Dict) {e : Dict} (h : dumpSubs o ds 0 st = .ok e) : (find e zeroKey).isSome := by
  cases ds with
  | nil => exact absurd rfl hd
  | cons d ds =>
    rw [dumpSubs] at h
    obtain ⟨a, h1, h2⟩ := bind_eq_ok h
    exact (subs_grows o ds 1 a).2 e h2 _ (d.has o st _ h1)

/-- A cell cannot be dumped next to the device with number 0. -/
theorem cell_fails (o : Order) (d : Dev) (hc : d.IsCell) (extra : Dict) (p : Key)
    (h0 : (find extra zeroKey).isSome ∨ p = dec 0) {e : Dict} : d.dump o extra p ≠ .ok e := by
  cases d with
  | leaf b => exact hc.elim
  | cell b subs v t =>
    intro h
    rw [Dev.dump] at h
    obtain ⟨e1, h1, h⟩ := bind_eq_ok h
    obtain ⟨e2, h2, h⟩ := bind_eq_ok h
    obtain ⟨e3, h3, h⟩ := bind_eq_ok h
    have hz : (find e1 zeroKey).isSome := by
      rcases h0 with h0 | rfl
      · exact (b.grows o extra p).2 e1 h1 _ h0
      · exact b.has o extra _ h1
    have hz2 : (find (fill e2 [(key "reduce_weightening", v.reduce), (key "current_device_idx", [encI v.devIdx]),
        (key "current_update_idx", [encI v.updIdx])]) zeroKey).isSome :=
      fill_has _ _ _ (Or.inr (subs_has o subs hc [] h2))
    rw [insert_err o e1 _ p zeroKey hz2 hz] at h3
    cases h3

theorem subs_fails (o : Order) (ds : List Dev) : ∀ (k : Nat) (st : Dict), (∃ d ∈ ds, d.IsCell) → (k = 0 ∨ (find st zeroKey).isSome) →
    ∀ e, dumpSubs o ds k st ≠ .ok e := by
  induction ds with
  | nil => rintro k st ⟨d, hd, _⟩; cases hd
  | cons d ds ih =>
    intro k st hc hk e h
    rw [dumpSubs] at h
    obtain ⟨a, h1, h2⟩ := bind_eq_ok h
    obtain ⟨c, hm, hcc⟩ := hc
    rcases List.mem_cons.1 hm with rfl | hm
    · refine cell_fails o c hcc st (dec k) ?_ h1
      rcases hk with rfl | hk
      · exact Or.inr rfl
      · exact Or.inl hk
    · refine ih (k + 1) a ⟨c, hm, hcc⟩ (Or.inr ?_) e h2
      rcases hk with rfl | hk
      · exact d.has o st _ h1
      · exact (d.grows o st _).2 a h1 _ hk

theorem Dev.nested_fails (o : Order) (d : Dev) (h : d.Nested) (extra : Dict) (p : Key) : d.dump o extra p = .error .runtimeError := by
  refine err_of (d.grows o extra p) ?_
  intro e he
  cases d with
  | leaf b => exact h
  | cell b subs v t =>
    rw [Dev.dump] at he
    obtain ⟨e1, h1, he⟩ := bind_eq_ok he
    obtain ⟨e2, h2, he⟩ := bind_eq_ok he
    exact subs_fails o subs 0 [] h (Or.inl rfl) e2 h2

/-- The pulsed device of a tile. -/
def Top.dev? : Top → Option Dev
  | .simple _ => none
  | .pulsed d => some d
  | .mixed d _ => some d

theorem Top.nested_fails (o : Order) (d : Top) {x : Dev} (hx : d.dev? = some x) (h : x.Nested) (extra : Dict) (p : Key) :
    d.dump o extra p = .error .runtimeError := by
  cases d with
  | simple dr => cases hx
  | pulsed d =>
    cases hx
    exact Dev.nested_fails o _ h extra p
  | mixed d m =>
    cases hx
    show (Dev.dump o _ [] (key "rpu_device") >>= _) = _
    rw [Dev.nested_fails o _ h]
    rfl

/-- The tile device raises: the whole dump raises. -/
theorem Tile.fails (o : Order) (t : Tile) {s : PulsedSt} (hs : t.pulsed = some s)
    (h : ∀ extra, (∀ q, find extra q = find (prefixed (key "fb_pass") s.fb.spec ++ prefixed (key "pwu") s.pwu.spec) q) → WF extra →
      s.dev.dump o extra (key "rpu_device") = .error .runtimeError) : t.dumpExtra o = .error .runtimeError := by
  obtain ⟨e0, z1, z2, z3⟩ := t.simple_ok o
  obtain ⟨e1, a1, a2, a3⟩ := dumps_empty (s.pwu.dump_ok o wf_nil (heads_nil (fun _ => False)) (p := key "pwu") (fun _ _ h => h)
    (by decide) (by decide))
  have h1 : Heads e1 (fun h => h = key "pwu") := heads_congr a3 (heads_prefixed (by decide) _)
  obtain ⟨e2, b1, b2, b3⟩ := dumps_into (s.fb.dump_ok o a2 h1 (p := key "fb_pass") (by decide) (by decide) (by decide))
  have b4 : ∀ q, find e2 q = find (prefixed (key "fb_pass") s.fb.spec ++ prefixed (key "pwu") s.pwu.spec) q := by
    intro q; rw [b3 q, find_append, find_append, a3 q]
  unfold Tile.dumpExtra
  rw [z1, ok_bind', hs]
  show PulsedSt.dump o s e0 (key "rpu") = _
  unfold PulsedSt.dump
  simp only [a1, ok_bind', b1, h e2 b4 b2]
  rfl

/-! ## Mixed precision around a transfer device -/

/-- Keys below `transfer_pwu` first. -/
def pwuFirst : Order where
  ord d := d.filter (fun x => decide (head x.1 = key "transfer_pwu")) ++ d.filter (fun x => !decide (head x.1 = key "transfer_pwu"))
  perm d := List.filter_append_perm _ d

theorem mixed_fails (d : Dev) (hf : d.Flat) (m : MixSt) {t : TransSt} (ht : d.trans = some t) (extra : Dict) :
    (Top.mixed d m).dump pwuFirst extra (key "rpu_device") = .error .runtimeError := by
  obtain ⟨e1, e2, a1, b1, f1, f2⟩ := mix_st pwuFirst d hf m
  have e : (Top.mixed d m).dump pwuFirst extra (key "rpu_device") = (insertWithPrefix pwuFirst extra (fill e2 m.fields) (key "rpu_device") >>=
      fun extra => dumpOpt (fun i e q => dumpInt pwuFirst i e q) m.int extra (key "rpu_device")) := by
    unfold Top.dump
    simp only [a1, ok_bind', b1]
    rfl
  rw [e]
  have key1 : find (fill e2 m.fields) (sub (key "transfer_pwu") (key "d_noz")) = some [encI m.pwu.dNoz] := by
    rw [f2]
    exact has_of_find (mixOwn_wf d m) (fun _ => rfl) (sub (key "transfer_pwu") (key "d_noz"), [encI m.pwu.dNoz]) (by
      unfold mixOwn
      refine List.mem_append_right _ (List.mem_append_left _ ?_)
      exact List.mem_map.2 ⟨(key "d_noz", [encI m.pwu.dNoz]), by unfold Pwu.spec; simp, rfl⟩)
  have key2 : find (fill e2 m.fields) (sub (key "rpu_device") (sub (key "transfer_pwu") (key "d_noz"))) = some [encI t.pwu.dNoz] := by
    rw [f2]
    exact has_of_find (mixOwn_wf d m) (fun _ => rfl) (sub (key "rpu_device") (sub (key "transfer_pwu") (key "d_noz")), [encI t.pwu.dNoz]) (by
      unfold mixOwn
      refine List.mem_append_right _ (List.mem_append_right _ ?_)
      refine List.mem_map.2 ⟨(sub (key "transfer_pwu") (key "d_noz"), [encI t.pwu.dNoz]), ?_, rfl⟩
      cases d with
      | leaf b => cases ht
      | cell b subs v t' =>
        cases (show t' = some t from ht)
        refine List.mem_append_left _ (List.mem_append_right _ (List.mem_append_right _ (List.mem_append_left _ ?_)))
        exact List.mem_map.2 ⟨(key "d_noz", [encI t.pwu.dNoz]), by unfold Pwu.spec; simp, rfl⟩)
  generalize hst : fill e2 m.fields = st at *
  have m1 := (find_eq_some_iff f1 _ _).1 key1
  have m2 := (find_eq_some_iff f1 _ _).1 key2
  have hins : insertWithPrefix pwuFirst extra st (key "rpu_device") = .error .runtimeError := by
    refine err_of (grows_insert _ _ _ _) ?_
    intro e he
    have hsplit : ∀ (a b : Dict) (x : Dict), insertLoop (key "rpu_device") x (a ++ b) = (insertLoop (key "rpu_device") x a >>= fun y =>
        insertLoop (key "rpu_device") y b) := by
      intro a
      induction a with
      | nil => intro b x; rfl
      | cons z a ih =>
        intro b x
        show (if (find x z.1).isSome then (.error .runtimeError : Except PyErr Dict) else insertLoop _ (insert x (sub _ z.1) z.2) (a ++ b)) =
          ((if (find x z.1).isSome then (.error .runtimeError : Except PyErr Dict) else insertLoop _ (insert x (sub _ z.1) z.2) a) >>= _)
        split
        · rfl
        · exact ih b _
    have he' : insertLoop (key "rpu_device") extra (st.filter (fun x => decide (head x.1 = key "transfer_pwu")) ++
      st.filter (fun x => !decide (head x.1 = key "transfer_pwu"))) = .ok e := he
    rw [hsplit] at he'
    obtain ⟨y, h1, h2⟩ := bind_eq_ok he'
    have hy := insertLoop_has _ _ _ _ h1 (sub (key "transfer_pwu") (key "d_noz")) (by
      refine List.mem_map.2 ⟨_, List.mem_filter.2 ⟨m1, ?_⟩, rfl⟩
      show decide (head (sub (key "transfer_pwu") (key "d_noz")) = key "transfer_pwu") = true
      decide)
    rw [insertLoop_err (key "rpu_device") _ y ⟨sub (key "rpu_device") (sub (key "transfer_pwu") (key "d_noz")), ?_, hy⟩] at h2
    · cases h2
    · refine List.mem_map.2 ⟨_, List.mem_filter.2 ⟨m2, ?_⟩, rfl⟩
      show (!decide (head (sub (key "rpu_device") (sub (key "transfer_pwu") (key "d_noz"))) = key "transfer_pwu")) = true
      decide
  rw [hins]
  rfl

end Aihw.Extra

import Verif.Bind.Props2

/-!
# C74: which devices a compound hands to the simulator
-/
namespace Aihw.Bind

theorem asBs_eq (L : Lib) (dt : DType) : ∀ l : List DevC, asBs L dt l = l.map (asB L dt)
  | [] => rfl
  | c :: cs => by
    show asB L dt c :: asBs L dt cs = _
    rw [asBs_eq L dt cs]; rfl

/-- A simulator parameter object (not a Python dataclass) that can be one of several devices. -/
def Appendable (L : Lib) (b : BDev) : Prop := ∃ c : String, b.own.ccls = some c ∧ L.pulsedBase c = true

theorem appendVec_ok {L : Lib} {o : BVal} {vec v' : List BDev} {b : BDev} :
    appendVec L o vec b = .ok v' ↔ o.ccls.isSome = true ∧ Appendable L b ∧ v' = vec ++ [b] := by
  unfold appendVec Appendable
  cases o.ccls with
  | none => simp
  | some c0 =>
    simp only [Option.isSome_some, true_and]
    cases b.own.ccls with
    | none => simp
    | some c =>
      simp only
      by_cases h : L.pulsedBase c = true
      · rw [if_pos h]; simp [h]; exact eq_comm
      · rw [if_neg h]; simp [h]

theorem appendAll_ok (L : Lib) (o : BVal) (rs : List (Except PyErr BDev)) : ∀ vec v' : List BDev,
    appendAll L o rs vec = .ok v' ↔ ∃ add : List BDev, v' = vec ++ add ∧
      List.Forall₂ (fun (r : Except PyErr BDev) (b : BDev) => r = .ok b ∧ o.ccls.isSome = true ∧ Appendable L b) rs add := by
  induction rs with
  | nil =>
    intro vec v'
    simp only [appendAll, Except.ok.injEq, List.forall₂_nil_left_iff]
    constructor
    · intro h; exact ⟨[], by rw [h, List.append_nil], rfl⟩
    · rintro ⟨add, h1, h2⟩; rw [h1, h2, List.append_nil]
  | cons r rs ih =>
    intro vec v'
    unfold appendAll
    cases r with
    | error x =>
      simp only [List.forall₂_cons_left_iff]
      constructor
      · intro h; cases h
      · rintro ⟨add, -, b, c, ⟨h, -⟩, -⟩; cases h
    | ok b =>
      simp only
      constructor
      · intro h
        cases e : appendVec L o vec b with
        | error x => rw [e] at h; cases h
        | ok v1 =>
          rw [e] at h
          simp only at h
          obtain ⟨q1, q2, q3⟩ := appendVec_ok.1 e
          obtain ⟨add, r1, r2⟩ := (ih v1 v').1 h
          exact ⟨b :: add, by rw [r1, q3, List.append_assoc]; rfl, List.Forall₂.cons ⟨rfl, q1, q2⟩ r2⟩
      · rintro ⟨add, h1, h2⟩
        rw [List.forall₂_cons_left_iff] at h2
        obtain ⟨b', add', ⟨h3, h4, h5⟩, h6, h7⟩ := h2
        cases h3
        rw [appendVec_ok.2 ⟨h4, h5, rfl⟩]
        exact (ih _ v').2 ⟨add', by rw [h1, h7, List.append_assoc]; rfl, h6⟩

theorem bind_iff {α β : Type} (x : Except PyErr α) (f : α → Except PyErr β) (b : β) :
    x.bind f = .ok b ↔ ∃ a : α, x = .ok a ∧ f a = .ok b := by
  cases x with
  | error e => simp [Except.bind]
  | ok a => simp [Except.bind]

/-- The devices of a vector-like cell as handed over: each converted on its own, in order. -/
def Handed (L : Lib) (dt : DType) (o : BVal) (cs : List DevC) (vs : List BDev) : Prop :=
  List.Forall₂ (fun (c : DevC) (b : BDev) => asB L dt c = .ok b ∧ o.ccls.isSome = true ∧ Appendable L b) cs vs

/-- **C74 (vector cell).**  `VectorUnitCell.as_bindings` hands over exactly the devices of
`unit_cell_devices`, each converted on its own, in the order given, and fails if one of them cannot
be converted or appended. -/
theorem C74_vector_cell (L : Lib) (dt : DType) (h : Head) (d : Dict) (isList : Bool) (subs : List DevC) (r : BDev) :
    asB L dt (.node .vector h d isList subs) = .ok r ↔
      isList = true ∧ ∃ (o : BVal) (vs : List BDev), paramsToB L dt true h d = .ok o ∧ r = .node o vs ∧
        Handed L dt o subs vs := by
  rw [asB]
  unfold asVector Handed
  rw [asBs_eq, bind_iff]
  constructor
  · rintro ⟨o, h1, h2⟩
    by_cases hl : isList = false
    · rw [if_pos hl] at h2; cases h2
    · rw [if_neg hl, bind_iff] at h2
      obtain ⟨vs, h3, h4⟩ := h2
      obtain ⟨add, q1, q2⟩ := (appendAll_ok L o _ [] vs).1 h3
      rw [List.nil_append] at q1
      subst q1
      rw [List.forall₂_map_left_iff] at q2
      exact ⟨by simpa using hl, o, vs, h1, (Except.ok.inj h4).symm, q2⟩
  · rintro ⟨hl, o, vs, h1, h2, h3⟩
    refine ⟨o, h1, ?_⟩
    rw [if_neg (by rw [hl]; decide), bind_iff]
    refine ⟨vs, (appendAll_ok L o _ [] vs).2 ⟨vs, rfl, ?_⟩, by rw [h2]⟩
    rw [List.forall₂_map_left_iff]
    exact h3

/-- The two devices a reference cell uses: the first two given, or the only one twice. -/
def RefDevices : List DevC → List DevC → Prop
  | [], _ => False
  | [a], l => l = [a, a]
  | a :: b :: _, l => l = [a, b]

theorem refList_iff {α β : Type} (f : α → β) (l : List α) (l' : List β) :
    refList (l.map f) = .ok l' ↔
      (∃ a : α, l = [a] ∧ l' = [f a, f a]) ∨ ∃ (a b : α) (t : List α), l = a :: b :: t ∧ l' = [f a, f b] := by
  cases l with
  | nil => simp [refList]
  | cons a l =>
    cases l with
    | nil => simp [refList, eq_comm]
    | cons b l =>
      cases l with
      | nil => simp [refList, eq_comm]
      | cons c l =>
        have : 2 < ((a :: b :: c :: l).map f).length := by simp
        unfold refList
        rw [if_pos this]
        simp [eq_comm]

/-- **C74 (reference cell).**  `ReferenceUnitCell.as_bindings` hands over exactly two devices: the
first two given (further ones are dropped), or the only one given twice; with none it fails. -/
theorem C74_reference_cell (L : Lib) (dt : DType) (h : Head) (d : Dict) (isList : Bool) (subs : List DevC) (r : BDev) :
    asB L dt (.node .reference h d isList subs) = .ok r ↔
      isList = true ∧ ∃ (o : BVal) (vs : List BDev) (two : List DevC), paramsToB L dt true h d = .ok o ∧
        r = .node o vs ∧ RefDevices subs two ∧ Handed L dt o two vs := by
  rw [asB]
  unfold asReference Handed
  rw [asBs_eq, bind_iff]
  constructor
  · rintro ⟨o, h1, h2⟩
    by_cases hl : isList = false
    · rw [if_pos hl] at h2; cases h2
    · rw [if_neg hl, bind_iff] at h2
      obtain ⟨l', h3, h4⟩ := h2
      rw [bind_iff] at h4
      obtain ⟨vs, h5, h6⟩ := h4
      obtain ⟨add, q1, q2⟩ := (appendAll_ok L o _ [] vs).1 h5
      rw [List.nil_append] at q1
      subst q1
      refine ⟨by simpa using hl, o, vs, ?_⟩
      rcases (refList_iff _ _ _).1 h3 with ⟨a, e1, e2⟩ | ⟨a, b, t, e1, e2⟩
      · refine ⟨[a, a], h1, (Except.ok.inj h6).symm, by rw [e1]; rfl, ?_⟩
        rw [e2, show [asB L dt a, asB L dt a] = [a, a].map (asB L dt) from rfl, List.forall₂_map_left_iff] at q2
        exact q2
      · refine ⟨[a, b], h1, (Except.ok.inj h6).symm, by rw [e1]; rfl, ?_⟩
        rw [e2, show [asB L dt a, asB L dt b] = [a, b].map (asB L dt) from rfl, List.forall₂_map_left_iff] at q2
        exact q2
  · rintro ⟨hl, o, vs, two, h1, h2, h3, h4⟩
    refine ⟨o, h1, ?_⟩
    rw [if_neg (by rw [hl]; decide), bind_iff]
    refine ⟨two.map (asB L dt), ?_, ?_⟩
    · rw [refList_iff]
      cases subs with
      | nil => exact absurd h3 id
      | cons a l =>
        cases l with
        | nil => left; exact ⟨a, rfl, by rw [show two = [a, a] from h3]; rfl⟩
        | cons b l => right; exact ⟨a, b, l, rfl, by rw [show two = [a, b] from h3]; rfl⟩
    · rw [bind_iff]
      refine ⟨vs, (appendAll_ok L o _ [] vs).2 ⟨vs, rfl, ?_⟩, by rw [h2]⟩
      rw [List.forall₂_map_left_iff]
      exact h4

theorem appendTimes_ok (L : Lib) (o : BVal) (b : BDev) (n : Nat) : ∀ vec v' : List BDev,
    appendTimes L o b n vec = .ok v' ↔ v' = vec ++ List.replicate n b ∧ (n = 0 ∨ o.ccls.isSome = true ∧ Appendable L b) := by
  induction n with
  | zero => intro vec v'; simp [appendTimes]; exact eq_comm
  | succ n ih =>
    intro vec v'
    unfold appendTimes
    constructor
    · intro h
      cases e : appendVec L o vec b with
      | error x => rw [e] at h; cases h
      | ok v1 =>
        rw [e] at h
        obtain ⟨q1, q2, q3⟩ := appendVec_ok.1 e
        obtain ⟨r1, -⟩ := (ih v1 v').1 h
        refine ⟨?_, Or.inr ⟨q1, q2⟩⟩
        rw [r1, q3, List.append_assoc]; rfl
    · rintro ⟨h1, h2⟩
      have h2' := h2.resolve_left (by omega)
      rw [appendVec_ok.2 ⟨h2'.1, h2'.2, rfl⟩]
      simp only
      refine (ih _ v').2 ⟨?_, Or.inr h2'⟩
      rw [h1, List.append_assoc]; rfl

theorem asTransfer_iff (L : Lib) (dt : DType) (own : Except PyErr BVal) (isList : Bool) (subs : List DevC) (r : BDev) :
    asTransfer L own isList (asBs L dt subs) = .ok r ↔
      isList = true ∧ ∃ (o : BVal) (fast slow : DevC) (rest : List DevC) (bf bs : BDev), own = .ok o ∧
        subs = fast :: slow :: rest ∧ asB L dt fast = .ok bf ∧ asB L dt slow = .ok bs ∧
        o.ccls.isSome = true ∧ Appendable L bf ∧ Appendable L bs ∧
        r = .node o (bf :: List.replicate (rest.length + 1) bs) := by
  unfold asTransfer
  rw [asBs_eq]
  constructor
  · intro h
    by_cases hl : isList = false
    · rw [if_pos hl] at h; cases h
    · rw [if_neg hl, bind_iff] at h
      obtain ⟨o, h1, h2⟩ := h
      cases subs with
      | nil => cases h2
      | cons a l =>
        simp only [List.map_cons] at h2
        rw [bind_iff] at h2
        obtain ⟨bf, h3, h4⟩ := h2
        cases l with
        | nil => cases h4
        | cons b l =>
          simp only [List.map_cons] at h4
          rw [bind_iff] at h4
          obtain ⟨bs, h5, h6⟩ := h4
          rw [bind_iff] at h6
          obtain ⟨v, h7, h8⟩ := h6
          rw [bind_iff] at h8
          obtain ⟨v', h9, h10⟩ := h8
          obtain ⟨q1, q2, q3⟩ := appendVec_ok.1 h7
          obtain ⟨r1, r2⟩ := (appendTimes_ok L o bs _ v v').1 h9
          have r2' := r2.resolve_left (by simp)
          refine ⟨by simpa using hl, o, a, b, l, bf, bs, h1, rfl, h3, h5, q1, q2, r2'.2, ?_⟩
          rw [← Except.ok.inj h10, r1, q3]
          simp
  · rintro ⟨hl, o, fast, slow, rest, bf, bs, h1, h2, h3, h4, h5, h6, h7, h8⟩
    rw [if_neg (by rw [hl]; decide), bind_iff]
    refine ⟨o, h1, ?_⟩
    subst h2
    simp only [List.map_cons]
    rw [h3, h4, bind_iff]
    refine ⟨bf, rfl, ?_⟩
    rw [bind_iff]
    refine ⟨bs, rfl, ?_⟩
    rw [bind_iff]
    refine ⟨[bf], appendVec_ok.2 ⟨h5, h6, rfl⟩, ?_⟩
    rw [bind_iff]
    refine ⟨[bf] ++ List.replicate (rest.length + 1) bs, ?_, by rw [h8]; rfl⟩
    rw [appendTimes_ok]
    exact ⟨by simp, Or.inr ⟨h5, h7⟩⟩

/-- **C74 (transfer compound).**  `TransferCompound.as_bindings` needs at least two devices; the
simulator gets as many devices as given, the first converted from the first one and *all* others
converted from the second one. -/
theorem C74_transfer_compound (L : Lib) (dt : DType) (h : Head) (d : Dict) (isList : Bool) (subs : List DevC) (r : BDev) :
    asB L dt (.node .transfer h d isList subs) = .ok r ↔
      isList = true ∧ ∃ (o : BVal) (fast slow : DevC) (rest : List DevC) (bf bs : BDev),
        paramsToB L dt true h d = .ok o ∧
        subs = fast :: slow :: rest ∧ asB L dt fast = .ok bf ∧ asB L dt slow = .ok bs ∧
        o.ccls.isSome = true ∧ Appendable L bf ∧ Appendable L bs ∧
        r = .node o (bf :: List.replicate (rest.length + 1) bs) := by
  rw [asB]
  exact asTransfer_iff L dt _ isList subs r

/-- **C74 (transfer compound, further devices).**  So a third, fourth, … device of a
`TransferCompound` has no effect at all, whatever it is: any replacement of the same number of
devices gives the same simulator parameter. -/
theorem C74_transfer_rest_ignored (L : Lib) (dt : DType) (h : Head) (d : Dict) (isList : Bool)
    (fast slow : DevC) (rest rest' : List DevC) (hlen : rest.length = rest'.length) (r : BDev) :
    asB L dt (.node .transfer h d isList (fast :: slow :: rest)) = .ok r ↔
      asB L dt (.node .transfer h d isList (fast :: slow :: rest')) = .ok r := by
  rw [C74_transfer_compound, C74_transfer_compound]
  constructor
  · rintro ⟨hl, o, f, s, t, bf, bs, h1, h2, h3⟩
    cases h2
    exact ⟨hl, o, fast, slow, rest', bf, bs, h1, rfl, by rw [← hlen]; exact h3⟩
  · rintro ⟨hl, o, f, s, t, bf, bs, h1, h2, h3⟩
    cases h2
    exact ⟨hl, o, fast, slow, rest, bf, bs, h1, rfl, by rw [hlen]; exact h3⟩

/-- **C74 (chopped and dynamic transfer).**  These compounds accept exactly two devices and hand over
those two in order; any other number is refused with a `ConfigError`. -/
theorem C74_chopped_compound (L : Lib) (dt : DType) (h : Head) (d : Dict) (subs : List DevC) (r : BDev) :
    (asB L dt (.node .chopped h d true subs) = .ok r ↔
      ∃ (o : BVal) (fast slow : DevC) (bf bs : BDev), paramsToB L dt true h d = .ok o ∧ subs = [fast, slow] ∧
        asB L dt fast = .ok bf ∧ asB L dt slow = .ok bs ∧ o.ccls.isSome = true ∧ Appendable L bf ∧
        Appendable L bs ∧ r = .node o [bf, bs]) ∧
    (subs.length ≠ 2 → asB L dt (.node .chopped h d true subs) = .error .configError) := by
  rw [asB]
  unfold asChopped
  rw [if_neg (by decide)]
  constructor
  · by_cases hl : (asBs L dt subs).length ≠ 2
    · rw [if_pos hl]
      constructor
      · intro h; cases h
      · rintro ⟨o, f, s, bf, bs, -, h2, -⟩
        rw [h2] at hl
        exact absurd rfl hl
    · rw [if_neg hl, asTransfer_iff]
      rw [not_not, asBs_eq, List.length_map] at hl
      constructor
      · rintro ⟨-, o, f, s, t, bf, bs, h1, h2, h3, h4, h5, h6, h7, h8⟩
        rw [h2] at hl
        simp only [List.length_cons] at hl
        have : t = [] := List.length_eq_zero_iff.1 (by omega)
        subst this
        exact ⟨o, f, s, bf, bs, h1, h2, h3, h4, h5, h6, h7, h8⟩
      · rintro ⟨o, f, s, bf, bs, h1, h2, h3, h4, h5, h6, h7, h8⟩
        exact ⟨rfl, o, f, s, [], bf, bs, h1, h2, h3, h4, h5, h6, h7, h8⟩
  · intro hl
    rw [if_pos (by rw [asBs_eq, List.length_map]; exact hl)]

theorem appendOne_first {L : Lib} {o : BVal} {v : List BDev} {b : BDev} :
    appendOne L o [] b = .ok v ↔ o.ccls.isSome = true ∧ (∃ c : String, b.own.ccls = some c ∧ L.pulsed c = true) ∧ v = [b] := by
  unfold appendOne
  cases o.ccls with
  | none => simp
  | some c0 =>
    simp only [Option.isSome_some, true_and]
    cases b.own.ccls with
    | none => simp
    | some c =>
      simp only
      by_cases h : L.pulsed c = false
      · rw [if_pos h]; simp [h]
      · rw [if_neg h, if_neg (by simp)]
        simp only [Bool.not_eq_false] at h
        simp [h]; exact eq_comm

theorem appendOne_second {L : Lib} {o : BVal} {v : List BDev} {a b : BDev} :
    appendOne L o [a] b = .ok v ↔ o.ccls.isSome = true ∧
      (∃ c : String, b.own.ccls = some c ∧ L.pulsed c = true ∧ a.own.ccls = some c) ∧ v = [a, b] := by
  unfold appendOne
  cases o.ccls with
  | none => simp
  | some c0 =>
    simp only [Option.isSome_some, true_and]
    cases b.own.ccls with
    | none => simp
    | some c =>
      simp only
      by_cases h : L.pulsed c = false
      · rw [if_pos h]; simp [h]
      · rw [if_neg h, if_neg (by simp)]
        simp only [Bool.not_eq_false] at h
        by_cases h2 : a.own.ccls = some c
        · rw [if_pos h2]; simp [h, h2]; exact eq_comm
        · rw [if_neg h2]; simp [h2]

/-- The two devices of a one-sided cell: the only one twice, or the two given. -/
def OneSidedDevices : List DevC → DevC → DevC → Prop
  | [a], x, y => x = a ∧ y = a
  | [a, b], x, y => x = a ∧ y = b
  | _, _, _ => False

/-- **C74 (one-sided cell).**  `OneSidedUnitCell.as_bindings` accepts one or two devices and hands
over two of the same simulator class: the two given, or the only one twice. -/
theorem C74_onesided_cell (L : Lib) (dt : DType) (h : Head) (d : Dict) (isList : Bool) (subs : List DevC) (r : BDev) :
    asB L dt (.node .oneSided h d isList subs) = .ok r ↔
      isList = true ∧ ∃ (o : BVal) (x y : DevC) (bx by' : BDev) (c : String), paramsToB L dt true h d = .ok o ∧
        o.ccls.isSome = true ∧ OneSidedDevices subs x y ∧ asB L dt x = .ok bx ∧ asB L dt y = .ok by' ∧
        bx.own.ccls = some c ∧ by'.own.ccls = some c ∧ L.pulsed c = true ∧ r = .node o [bx, by'] := by
  rw [asB]
  unfold asOneSided
  rw [asBs_eq]
  constructor
  · intro hh
    by_cases hl : isList = false
    · rw [if_pos hl] at hh; cases hh
    · rw [if_neg hl, bind_iff] at hh
      obtain ⟨o, h1, h2⟩ := hh
      refine ⟨by simpa using hl, ?_⟩
      cases subs with
      | nil => cases h2
      | cons a l =>
        simp only [List.map_cons] at h2
        rw [bind_iff] at h2
        obtain ⟨b0, h3, h4⟩ := h2
        cases l with
        | nil =>
          rw [if_neg (by simp)] at h4
          simp only [List.map_nil] at h4
          rw [bind_iff] at h4
          obtain ⟨b1, h5, h6⟩ := h4
          cases h5
          rw [bind_iff] at h6
          obtain ⟨v, h7, h8⟩ := h6
          rw [bind_iff] at h8
          obtain ⟨v', h9, h10⟩ := h8
          obtain ⟨q1, ⟨c, q2, q3⟩, q4⟩ := appendOne_first.1 h7
          subst q4
          obtain ⟨-, -, q6⟩ := appendOne_second.1 h9
          exact ⟨o, a, a, b0, b0, c, h1, q1, ⟨rfl, rfl⟩, h3, h3, q2, q2, q3, by rw [← Except.ok.inj h10, q6]⟩
        | cons b l =>
          cases l with
          | cons e l => rw [if_pos (by simp)] at h4; cases h4
          | nil =>
            rw [if_neg (by simp)] at h4
            simp only [List.map_cons] at h4
            rw [bind_iff] at h4
            obtain ⟨b1, h5, h6⟩ := h4
            rw [bind_iff] at h6
            obtain ⟨v, h7, h8⟩ := h6
            rw [bind_iff] at h8
            obtain ⟨v', h9, h10⟩ := h8
            obtain ⟨q1, ⟨c, q2, q3⟩, q4⟩ := appendOne_first.1 h7
            subst q4
            obtain ⟨-, ⟨c', q5, q6, q7⟩, q8⟩ := appendOne_second.1 h9
            exact ⟨o, a, b, b0, b1, c', h1, q1, ⟨rfl, rfl⟩, h3, h5, q7, q5, q6, by rw [← Except.ok.inj h10, q8]⟩
  · rintro ⟨hl, o, x, y, bx, b2, c, h1, h2, h3, h4, h5, h6, h7, h8, h9⟩
    rw [if_neg (by rw [hl]; decide), bind_iff]
    refine ⟨o, h1, ?_⟩
    have key : (appendOne L o [] bx).bind (fun v => (appendOne L o v b2).bind fun v' =>
        (.ok (.node o v') : Except PyErr BDev)) = .ok r := by
      rw [bind_iff]
      refine ⟨[bx], appendOne_first.2 ⟨h2, ⟨c, h6, h8⟩, rfl⟩, ?_⟩
      rw [bind_iff]
      exact ⟨[bx, b2], appendOne_second.2 ⟨h2, ⟨c, h7, h8, h6⟩, rfl⟩, by rw [h9]⟩
    cases subs with
    | nil => exact absurd h3 id
    | cons a l =>
      cases l with
      | nil =>
        obtain ⟨rfl, rfl⟩ := h3
        rw [h4] at h5
        cases h5
        simp only [List.map_cons, List.map_nil]
        rw [h4, bind_iff]
        refine ⟨bx, rfl, ?_⟩
        rw [if_neg (by simp)]
        exact key
      | cons b l =>
        cases l with
        | cons e l => exact absurd h3 id
        | nil =>
          obtain ⟨rfl, rfl⟩ := h3
          simp only [List.map_cons, List.map_nil]
          rw [h4, bind_iff]
          refine ⟨bx, rfl, ?_⟩
          rw [if_neg (by simp), h5]
          exact key

/-- **C74 (no device).**  With an empty `unit_cell_devices` a one-sided cell and a transfer compound
raise `IndexError` (not `ConfigError`), a reference cell and a chopped compound `ConfigError`, and a
vector cell passes no device on without any error. -/
theorem C74_no_device (L : Lib) (dt : DType) (h : Head) (d : Dict) (o : BVal) (ho : paramsToB L dt true h d = .ok o) :
    asB L dt (.node .oneSided h d true []) = .error .indexError ∧
    asB L dt (.node .transfer h d true []) = .error .indexError ∧
    asB L dt (.node .reference h d true []) = .error .configError ∧
    asB L dt (.node .chopped h d true []) = .error .configError ∧
    asB L dt (.node .vector h d true []) = .ok (.node o []) := by
  refine ⟨?_, ?_, ?_, ?_, ?_⟩ <;> rw [asB] <;> rw [ho] <;> rfl

/-- **C74 (mixed precision).**  The mixed precision compound hands over its own settings and the one
device, if the simulator accepts that device. -/
theorem C74_mixed_precision (L : Lib) (dt : DType) (h : Head) (d : Dict) (isList : Bool) (dev : DevC) (r : BDev) :
    asB L dt (.node .mixed h d isList [dev]) = .ok r ↔
      ∃ (o : BVal) (b : BDev) (c : String), paramsToB L dt true h d = .ok o ∧ o.ccls.isSome = true ∧
        asB L dt dev = .ok b ∧ b.own.ccls = some c ∧ L.mixDevice c = true ∧ r = .node o [b] := by
  rw [asB]
  unfold asMixed
  rw [asBs_eq, bind_iff]
  constructor
  · rintro ⟨o, h1, h2⟩
    simp only [List.map_cons] at h2
    rw [bind_iff] at h2
    obtain ⟨b, h3, h4⟩ := h2
    cases e1 : o.ccls with
    | none => rw [e1] at h4; cases h4
    | some c0 =>
      rw [e1] at h4
      simp only at h4
      cases e2 : b.own.ccls with
      | none => rw [e2] at h4; cases h4
      | some c =>
        rw [e2] at h4
        simp only at h4
        by_cases hm : L.mixDevice c = true
        · rw [if_pos hm] at h4
          exact ⟨o, b, c, h1, by rw [e1]; rfl, h3, e2, hm, (Except.ok.inj h4).symm⟩
        · rw [if_neg hm] at h4; cases h4
  · rintro ⟨o, b, c, h1, h2, h3, h4, h5, h6⟩
    refine ⟨o, h1, ?_⟩
    simp only [List.map_cons]
    rw [h3, bind_iff]
    refine ⟨b, rfl, ?_⟩
    obtain ⟨c0, hc0⟩ := Option.isSome_iff_exists.1 h2
    rw [hc0]
    simp only
    rw [h4]
    simp only
    rw [if_pos h5, h6]

end Aihw.Bind

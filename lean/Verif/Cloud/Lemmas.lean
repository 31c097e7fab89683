import Verif.Cloud.Spec
import Mathlib.Data.List.Nodup
import Mathlib.Data.List.Forall2

/-! # Lemmas for C79 and C80 -/
namespace Aihw.Cloud
open Aihw

variable {α : Type}

theorem get_put (d : List (String × α)) (k : String) (v : α) (n : String) :
    get (put d k v) n = if n = k then some v else get d n := by
  unfold put
  by_cases h : (d.any fun p => decide (p.1 = k)) = true
  · rw [if_pos h]
    induction d with
    | nil => simp at h
    | cons p t ih =>
      by_cases hp : p.1 = k
      · by_cases hn : n = k
        · subst hn
          simp [get, List.find?, hp]
        · rw [if_neg hn]
          have hk : ¬ (k = n) := fun e => hn e.symm
          have hp' : ¬ (p.1 = n) := by rw [hp]; exact hk
          have : get (List.map (fun p => if p.1 = k then (k, v) else p) (p :: t)) n
              = get (List.map (fun p => if p.1 = k then (k, v) else p) t) n := by
            simp [get, List.find?, hp, hk]
          rw [this]
          have e2 : get (p :: t) n = get t n := by simp [get, List.find?, hp']
          rw [e2]
          by_cases ht : (t.any fun p => decide (p.1 = k)) = true
          · have := ih ht
            rw [if_neg hn] at this
            exact this
          · have : List.map (fun p => if p.1 = k then (k, v) else p) t = t := by
              rw [List.map_congr_left (g := id)]
              · simp
              · intro q hq
                have : ¬ (q.1 = k) := by
                  intro e
                  apply ht
                  rw [List.any_eq_true]
                  exact ⟨q, hq, by simp [e]⟩
                simp [this]
            rw [this]
      · have ht : (t.any fun p => decide (p.1 = k)) = true := by simpa [hp] using h
        have := ih ht
        by_cases hn : p.1 = n
        · have : ¬ (n = k) := fun e => hp (hn.trans e)
          simp [get, List.find?, hp, hn, this]
        · have e1 : get (List.map (fun p => if p.1 = k then (k, v) else p) (p :: t)) n
              = get (List.map (fun p => if p.1 = k then (k, v) else p) t) n := by
            simp [get, List.find?, hp, hn]
          have e2 : get (p :: t) n = get t n := by simp [get, List.find?, hn]
          rw [e1, e2, this]
  · rw [if_neg h]
    have hd : ∀ p ∈ d, p.1 ≠ k := by
      intro p hp e
      exact h (List.any_eq_true.mpr ⟨p, hp, by simp [e]⟩)
    unfold get
    rw [List.find?_append]
    by_cases hn : n = k
    · subst hn
      have : d.find? (fun p => decide (p.1 = n)) = none := by
        rw [List.find?_eq_none]
        intro p hp
        simpa using hd p hp
      simp [this]
    · rw [if_neg hn]
      have hk : ¬ (k = n) := fun e => hn e.symm
      cases hf : d.find? (fun p => decide (p.1 = n)) <;> simp [hk]

theorem mem_put {d : List (String × α)} {k : String} {v : α} {p : String × α} (h : p ∈ put d k v) :
    p.1 = k ∨ p ∈ d := by
  unfold put at h
  by_cases hc : (d.any fun p => decide (p.1 = k)) = true
  · rw [if_pos hc] at h
    obtain ⟨q, hq, e⟩ := List.mem_map.mp h
    by_cases hk : q.1 = k
    · rw [if_pos hk] at e; left; rw [← e]
    · rw [if_neg hk] at e; right; rw [← e]; exact hq
  · rw [if_neg hc] at h
    rcases List.mem_append.mp h with h | h
    · exact .inr h
    · left; rw [List.mem_singleton.mp h]

theorem get_some_of_mem {d : List (String × α)} {n : String} (h : n ∈ d.map (·.1)) :
    ∃ v, get d n = some v := by
  obtain ⟨p, hp, e⟩ := List.mem_map.mp h
  cases hf : d.find? (fun p => decide (p.1 = n)) with
  | none => rw [List.find?_eq_none] at hf; exact absurd e (by simpa using hf p hp)
  | some q => exact ⟨q.2, by simp [get, hf]⟩

theorem get_none_of_not_mem {d : List (String × α)} {n : String} (h : n ∉ d.map (·.1)) :
    get d n = none := by
  unfold get
  rw [List.find?_eq_none.mpr]
  · rfl
  · intro p hp
    have : p.1 ≠ n := fun e => h (List.mem_map.mpr ⟨p, hp, e⟩)
    simpa using this

theorem mem_of_get {d : List (String × α)} {n : String} {v : α} (h : get d n = some v) : (n, v) ∈ d := by
  unfold get at h
  cases hf : d.find? (fun p => decide (p.1 = n)) with
  | none => rw [hf] at h; simp at h
  | some q =>
    rw [hf] at h
    have h1 := List.find?_some hf
    have h2 := List.mem_of_find?_eq_some hf
    simp only [Option.map_some, Option.some.injEq] at h
    have : q.1 = n := by simpa using h1
    rw [← h, ← this]
    exact h2

theorem get_of_mem {d : List (String × α)} (hn : (d.map (·.1)).Nodup) {n : String} {v : α}
    (h : (n, v) ∈ d) : get d n = some v := by
  obtain ⟨w, hw⟩ := get_some_of_mem (List.mem_map.mpr ⟨_, h, rfl⟩ : n ∈ d.map (·.1))
  have h2 := mem_of_get hw
  have := List.inj_on_of_nodup_map hn h h2 rfl
  rw [hw]
  simpa using this.symm

theorem mapM_forall₂ {β γ : Type} {f : β → Except Err γ} {l : List β} {r : List γ}
    (h : l.mapM f = .ok r) : List.Forall₂ (fun x y => f x = .ok y) l r := by
  induction l generalizing r with
  | nil => cases h; exact .nil
  | cons x t ih =>
    rw [List.mapM_cons] at h
    cases hx : f x with
    | error e => rw [hx] at h; cases h
    | ok y =>
      cases ht : t.mapM f with
      | error e => rw [hx, ht] at h; cases h
      | ok r' => rw [hx, ht] at h; cases h; exact .cons hx (ih ht)

theorem forall₂_mapM {β γ : Type} {f : β → Except Err γ} {l : List β} {r : List γ}
    (h : List.Forall₂ (fun x y => f x = .ok y) l r) : l.mapM f = .ok r := by
  induction h with
  | nil => rfl
  | cons hx _ ih => rw [List.mapM_cons, hx, ih]; rfl

/-! ## Writing -/

theorem store_ok {f32 : ℚ → ℚ} {n : String} {ty : Ty} {v : Val} {a : Attr}
    (h : store f32 n ty v = .ok a) : a.name = n ∧ (ty ≠ .str → Survives f32 ty v (load ty a)) ∧
      (ty = .str → v = .str a.s) := by
  cases ty with
  | int =>
    simp only [store] at h
    cases v <;> simp only [asInt] at h <;> try (cases h)
    · split at h
      · cases h; exact ⟨rfl, fun _ => .inl ⟨_, rfl, rfl⟩, by simp⟩
      · cases h
    · rename_i b
      cases b <;> (cases h; exact ⟨rfl, fun _ => .inr ⟨_, rfl, rfl⟩, by simp⟩)
  | bool =>
    simp only [store] at h
    cases v <;> simp only [asInt] at h <;> try (cases h)
    · exact ⟨rfl, fun _ => .inr ⟨_, rfl, rfl⟩, by simp⟩
    · rename_i b
      refine ⟨rfl, fun _ => .inl ⟨b, rfl, ?_⟩, by simp⟩
      cases b <;> rfl
  | str =>
    simp only [store] at h
    cases v <;> simp only at h <;> try (cases h)
    exact ⟨rfl, by simp, fun _ => rfl⟩
  | float =>
    simp only [store] at h
    cases v <;> simp only [asFloat] at h <;> try (cases h)
    · exact ⟨rfl, fun _ => .inr (.inl ⟨_, rfl, rfl⟩), by simp⟩
    · rename_i b
      refine ⟨rfl, fun _ => .inr (.inr ⟨b, rfl, ?_⟩), by simp⟩
      cases b <;> simp [load]
    · exact ⟨rfl, fun _ => .inl ⟨_, rfl, rfl⟩, by simp⟩
  | ints =>
    simp only [store] at h
    cases v <;> simp only [asInts] at h <;> try (cases h)
    · split at h
      · cases h; exact ⟨rfl, fun _ => .inr (.inl ⟨_, rfl, rfl⟩), by simp⟩
      · cases h
    · rename_i b
      cases b <;> (cases h; exact ⟨rfl, fun _ => .inr (.inr ⟨_, rfl, rfl⟩), by simp⟩)
    · split at h
      · cases h; exact ⟨rfl, fun _ => .inl ⟨_, rfl, rfl⟩, by simp⟩
      · cases h

/-- The attribute with a name. -/
def named (l : List Attr) (n : String) : Option Attr := l.find? fun a => a.name = n

/-- Attributes written for a list of arguments. -/
def Written (w : String × Ty → Except Err Attr) (args : List (String × Ty)) (l : List Attr) : Prop :=
  List.Forall₂ (fun p a => w p = .ok a) args l

theorem written_names {w : String × Ty → Except Err Attr} (hw : ∀ p a, w p = .ok a → a.name = p.1)
    {args : List (String × Ty)} {l : List Attr} (h : Written w args l) :
    l.map (·.name) = args.map (·.1) := by
  induction h with
  | nil => rfl
  | cons h _ ih => simp [hw _ _ h, ih]

theorem written_named {w : String × Ty → Except Err Attr} (hw : ∀ p a, w p = .ok a → a.name = p.1)
    {args : List (String × Ty)} {l : List Attr} (h : Written w args l) (n : String) :
    (get args n = none ∧ named l n = none) ∨
      ∃ ty a, get args n = some ty ∧ named l n = some a ∧ w (n, ty) = .ok a := by
  induction h with
  | nil => left; exact ⟨rfl, rfl⟩
  | @cons p a args l h _ ih =>
    by_cases hp : p.1 = n
    · right
      refine ⟨p.2, a, ?_, ?_, ?_⟩
      · simp [get, List.find?, hp]
      · have : a.name = n := (hw _ _ h).trans hp
        simp [named, List.find?, this]
      · rw [← hp]; exact h
    · have ha : ¬ (a.name = n) := by rw [hw _ _ h]; exact hp
      have e1 : get (p :: args) n = get args n := by simp [get, List.find?, hp]
      have e2 : named (a :: l) n = named l n := by simp [named, List.find?, ha]
      rw [e1, e2]
      exact ih

/-! ## Reading -/

theorem readArgs_ok (k : Kind) (mk : MkCfg) (args : List (String × Ty)) (l : List Attr)
    (hl : ∀ a ∈ l, a.name ∈ args.map (·.1)) (hn : (l.map (·.name)).Nodup)
    (hmk : ∀ a ∈ l, a.name = "rpu_config" → ∃ c, mk a.s = .ok c) (kw : Kw) :
    ∃ kw', readArgs k mk args l kw = .ok kw' ∧
      (∀ n, n ≠ "rpu_config" → get kw'.plain n =
        ((named l n).bind fun a => (get args n).map fun ty => load ty a).orElse fun _ => get kw.plain n) ∧
      (∀ p ∈ kw'.plain, p.1 ∈ (l.map (·.name)) ∧ p.1 ≠ "rpu_config" ∨ p ∈ kw.plain) ∧
      kw'.cfg = ((named l "rpu_config").bind fun a => (mk a.s).toOption).orElse fun _ => kw.cfg := by
  induction l generalizing kw with
  | nil => exact ⟨kw, rfl, fun n _ => by simp [named], fun p h => .inr h, by simp [named]⟩
  | cons a t ih =>
    obtain ⟨ty, hty⟩ := get_some_of_mem (hl a (by simp))
    have hl' : ∀ b ∈ t, b.name ∈ args.map (·.1) := fun b hb => hl b (by simp [hb])
    have hn' : (t.map (·.name)).Nodup := (List.nodup_cons.mp hn).2
    have hna : a.name ∉ t.map (·.name) := (List.nodup_cons.mp hn).1
    have hmk' : ∀ b ∈ t, b.name = "rpu_config" → ∃ c, mk b.s = .ok c := fun b hb => hmk b (by simp [hb])
    have hnt : named t a.name = none := by
      unfold named
      rw [List.find?_eq_none]
      intro b hb e
      exact hna (List.mem_map.mpr ⟨b, hb, by simpa using e⟩)
    by_cases hr : a.name = "rpu_config"
    · obtain ⟨c, hc⟩ := hmk a (by simp) hr
      obtain ⟨kw', h1, h2, h3, h4⟩ := ih hl' hn' hmk' { kw with cfg := some c }
      refine ⟨kw', ?_, ?_, ?_, ?_⟩
      · rw [readArgs, readArg, hty]
        simp only [hr, if_true, hc, Except.map]
        exact h1
      · intro n hne
        have : ¬ (a.name = n) := fun e => hne (e.symm.trans hr)
        have e2 : named (a :: t) n = named t n := by simp [named, List.find?, this]
        rw [e2]
        exact h2 n hne
      · intro p hp
        rcases h3 p hp with ⟨h, h'⟩ | h
        · exact .inl ⟨by simp only [List.map_cons, List.mem_cons]; exact .inr h, h'⟩
        · exact .inr h
      · have e2 : named (a :: t) "rpu_config" = some a := by simp [named, List.find?, hr]
        rw [hr] at hnt
        rw [hnt] at h4
        rw [h4, e2]
        simp [hc, Except.toOption]
    · obtain ⟨kw', h1, h2, h3, h4⟩ := ih hl' hn' hmk' { kw with plain := put kw.plain a.name (load ty a) }
      refine ⟨kw', ?_, ?_, ?_, ?_⟩
      · rw [readArgs, readArg, hty]
        simp only [if_neg hr]
        exact h1
      · intro n hne
        rw [h2 n hne]
        by_cases han : a.name = n
        · subst han
          have e2 : named (a :: t) a.name = some a := by simp [named, List.find?]
          rw [e2, hnt, get_put]
          simp [hty]
        · have e2 : named (a :: t) n = named t n := by simp [named, List.find?, han]
          rw [e2, get_put, if_neg (fun e => han e.symm)]
      · intro p hp
        rcases h3 p hp with ⟨h, h'⟩ | h
        · exact .inl ⟨by simp only [List.map_cons, List.mem_cons]; exact .inr h, h'⟩
        · rcases mem_put h with h | h
          · exact .inl ⟨by simp [h], by rw [h]; exact hr⟩
          · exact .inr h
      · have e2 : named (a :: t) "rpu_config" = named t "rpu_config" := by
          simp [named, List.find?, hr]
        rw [e2]
        exact h4

/-- A configuration that cannot be made. -/
theorem readArgs_error (k : Kind) (mk : MkCfg) (args : List (String × Ty)) (l : List Attr)
    (hl : ∀ a ∈ l, a.name ∈ args.map (·.1)) {a : Attr} (ha : named l "rpu_config" = some a) {e : Err}
    (he : mk a.s = .error e) (kw : Kw) : readArgs k mk args l kw = .error e := by
  induction l generalizing kw with
  | nil => simp [named] at ha
  | cons b t ih =>
    obtain ⟨ty, hty⟩ := get_some_of_mem (hl b (by simp))
    by_cases hr : b.name = "rpu_config"
    · have : named (b :: t) "rpu_config" = some b := by simp [named, List.find?, hr]
      rw [this] at ha
      cases ha
      rw [readArgs, readArg, hty]
      simp only [hr, if_true, he, Except.map]
    · have e2 : named (b :: t) "rpu_config" = named t "rpu_config" := by simp [named, List.find?, hr]
      rw [readArgs, readArg, hty]
      simp only [if_neg hr]
      exact ih (fun c hc => hl c (by simp [hc])) (e2 ▸ ha) _

/-! ## Constructors -/

theorem attrs_get {c : Cls} {kw : List (String × Val)} {s : List (String × Option Val)}
    {a : List (String × Val)} (h : s.mapM (attrOf c kw) = .ok a) (n : String) :
    get a n = (get s n).bind fun d => ((get kw n).orElse fun _ => d).map (norm c n) := by
  replace h := mapM_forall₂ h
  induction h with
  | nil => rfl
  | @cons p q s a hp _ ih =>
    unfold attrOf at hp
    cases hv : (get kw p.1).orElse fun _ => p.2 with
    | none => rw [hv] at hp; cases hp
    | some v =>
      rw [hv] at hp
      cases hp
      by_cases hn : p.1 = n
      · have e1 : get ((p.1, norm c p.1 v) :: a) n = some (norm c p.1 v) := by
          simp [get, List.find?, hn]
        have e2 : get (p :: s) n = some p.2 := by simp [get, List.find?, hn]
        rw [e1, e2]
        subst hn
        simp only [Option.bind_some, hv, Option.map_some]
      · have e1 : get ((p.1, norm c p.1 v) :: a) n = get a n := by simp [get, List.find?, hn]
        have e2 : get (p :: s) n = get s n := by simp [get, List.find?, hn]
        rw [e1, e2, ih]

theorem attrs_total (c : Cls) (kw : List (String × Val)) (s : List (String × Option Val))
    (h : ∀ p ∈ s, p.2 = none → ∃ v, get kw p.1 = some v) : ∃ a, s.mapM (attrOf c kw) = .ok a := by
  induction s with
  | nil => exact ⟨[], rfl⟩
  | cons p t ih =>
    obtain ⟨a, ha⟩ := ih fun q hq => h q (by simp [hq])
    have : ∃ v, ((get kw p.1).orElse fun _ => p.2) = some v := by
      cases hp : p.2 with
      | some v => cases hk : get kw p.1 <;> simp
      | none =>
        obtain ⟨v, hv⟩ := h p (by simp) hp
        exact ⟨v, by simp [hv]⟩
    obtain ⟨v, hv⟩ := this
    exact ⟨(p.1, norm c p.1 v) :: a, by
      rw [List.mapM_cons]
      have : attrOf c kw p = .ok (p.1, norm c p.1 v) := by unfold attrOf; rw [hv]
      rw [this, ha]; rfl⟩

end Aihw.Cloud

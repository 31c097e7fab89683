import Verif.Extra.Load

/-!
# Loading what was dumped: whole devices and tiles
-/
namespace Aihw.Extra

/-! ## Specification: tiles of the same kind, and what is restored -/

/-- Both have a weight drifter, or none. -/
def Base.Alike (s r : Base) : Prop := r.drift.isSome = s.drift.isSome

/-- Both of the same transfer class. -/
def TransSt.Alike (s r : TransSt) : Prop := r.chop.isSome = s.chop.isSome ∧ r.dyn.isSome = s.dyn.isSome

def transAlike : Option TransSt → Option TransSt → Prop
  | none, none => True
  | some s, some r => s.Alike r
  | _, _ => False

/-- Single devices of the same kind. -/
def leafAlike (d e : Dev) : Prop := ∃ b c, d = .leaf b ∧ e = .leaf c ∧ b.Alike c

/-- Devices built from the same configuration. -/
def Dev.Alike : Dev → Dev → Prop
  | .leaf b, .leaf c => b.Alike c
  | .cell b subs _ t, .cell c subs' _ t' => b.Alike c ∧ List.Forall₂ leafAlike subs subs' ∧ transAlike t t'
  | _, _ => False

def transRestored : Option TransSt → Option TransSt → Option TransSt
  | some s, some r => some (s.restored r)
  | s, _ => s

def Dev.restored : Dev → Dev → Dev
  | .cell b subs v t, .cell _ _ _ t' => .cell b subs v (transRestored t t')
  | s, _ => s

def Top.Alike : Top → Top → Prop
  | .simple d, .simple e => e.isSome = d.isSome
  | .pulsed d, .pulsed e => d.Alike e
  | .mixed d m, .mixed e n => d.Alike e ∧ n.int.isSome = m.int.isSome
  | _, _ => False

def Top.restored : Top → Top → Top
  | .pulsed d, .pulsed e => .pulsed (d.restored e)
  | .mixed d m, .mixed e n => .mixed (d.restored e) { m with pwu := { m.pwu with alloc := n.pwu.alloc || m.pwu.alloc } }
  | s, _ => s

def pulsedAlike : Option PulsedSt → Option PulsedSt → Prop
  | none, none => True
  | some s, some r => s.dev.Alike r.dev
  | _, _ => False

def PulsedSt.restored (s r : PulsedSt) : PulsedSt :=
  { pwu := { s.pwu with alloc := r.pwu.alloc || s.pwu.alloc }, fb := s.fb, dev := s.dev.restored r.dev }

def pulsedRestored : Option PulsedSt → Option PulsedSt → Option PulsedSt
  | some s, some r => some (s.restored r)
  | s, _ => s

/-- Tiles built from the same configuration. -/
def Tile.Alike (s r : Tile) : Prop := pulsedAlike s.pulsed r.pulsed

/-- Weights modified for the forward / backward pass are restored, their modifier is not. -/
def fbRestored : Option (Vec × Modif) → Option (Vec × Modif) → Option (Vec × Modif)
  | none, r => r
  | some (w, _), r => if w = [] then r else some (w, (r.map (·.2)).getD Modif.fresh)

/-- What a tile `r` holds after loading the extra state of `s`. -/
def Tile.restored (s r : Tile) : Tile :=
  { s with
    fb := fbRestored s.fb r.fb
    wbuf := if s.delayed then s.wbuf ++ r.wbuf.drop s.wbuf.length else r.wbuf
    drift := r.drift
    pulsed := pulsedRestored s.pulsed r.pulsed }

/-! ## Proofs -/

theorem loadSubs_of (junk strict : Bool) {st : Dict} {subs subs' : List Dev} (ha : List.Forall₂ leafAlike subs subs') :
    ∀ k, Has st (subsSpec (subs.map Dev.base) k) → loadSubs junk strict subs' k st = .ok subs := by
  induction ha with
  | nil => intro k _; rw [loadSubs]
  | cons h _ ih =>
    intro k hs
    obtain ⟨b, c, rfl, rfl, hbc⟩ := h
    obtain ⟨h1, h2⟩ := has_append (show Has st (subsSpec _ (k + 1) ++ prefixed (dec k) b.spec) from hs)
    rw [loadSubs, Dev.load, Base.load_of b c hbc strict (has_prefixed h2), ih (k + 1) h1]
    rfl

theorem Dev.load_of (s r : Dev) (junk strict : Bool) (ha : s.Alike r) {extra : Dict} {p : Key}
    (h : Has (selectWithPrefix extra p) s.spec) (hn : find (selectWithPrefix extra p) (key "transfer_vecs") = none) :
    Dev.load junk strict r extra p = .ok (s.restored r) := by
  cases s with
  | leaf b =>
    cases r with
    | cell c subs' v' t' => exact ha.elim
    | leaf c =>
      rw [Dev.load, Base.load_of b c ha strict h]
      rfl
  | cell b subs v t =>
    cases r with
    | leaf c => exact ha.elim
    | cell c subs' v' t' =>
      obtain ⟨ha1, ha2, ha3⟩ := ha
      obtain ⟨h1, h2⟩ := has_append (show Has _ (optSpec TransSt.spec t ++ (cellOwn (subs.map Dev.base) v ++ b.spec)) from h)
      obtain ⟨h3, h4⟩ := has_append h2
      obtain ⟨h5, h6⟩ := has_append h3
      unfold VecSt.spec at h5
      obtain ⟨v1, h5⟩ := has_cons h5
      obtain ⟨v2, h5⟩ := has_cons h5
      obtain ⟨v3, h5⟩ := has_cons h5
      have ht : loadOpt (TransSt.load junk extra p strict) t' = .ok (transRestored t t') := by
        cases t with
        | none =>
          cases t' with
          | none => rfl
          | some _ => exact ha3.elim
        | some t =>
          cases t' with
          | none => exact ha3.elim
          | some t' =>
            show (TransSt.load junk extra p strict t').map some = _
            rw [TransSt.load_of t t' junk ha3.1 ha3.2 strict h1 hn]
            rfl
      rw [Dev.load]
      simp only [Base.load_of b c ha1 strict h4, loadSubs_of junk strict ha2 0 h6, loadV_of v1, load1_of _ v2, load1_of _ v3, ht, ok_bind',
        decI_encI]
      rfl

theorem find_dev_none (d : Dev) : find d.spec (key "transfer_vecs") = none :=
  find_none_of_heads d.heads (show ¬ CellHead (head (key "transfer_vecs")) by decide)

theorem Dev.not_mixed (d : Dev) (k : Key) (h : ¬ CellHead (head k)) : find d.spec k = none := find_none_of_heads d.heads h

theorem Top.load_of (s r : Top) (junk strict : Bool) (ha : s.Alike r) {extra : Dict} {p : Key}
    (h : ∀ k, find (selectWithPrefix extra p) k = find s.spec k) :
    r.load junk strict extra p = .ok (s.restored r) := by
  have hh := has_of_find s.wf h
  cases s with
  | simple d =>
    cases r with
    | simple e =>
      show (loadDrift extra p strict e).map Top.simple = _
      rw [loadDrift_of d e ha strict hh]
      rfl
    | pulsed e => exact ha.elim
    | mixed e n => exact ha.elim
  | pulsed d =>
    cases r with
    | simple e => exact ha.elim
    | pulsed e =>
      show (Dev.load junk strict e extra p).map Top.pulsed = _
      rw [Dev.load_of d e junk strict ha hh (by rw [h]; exact find_dev_none d)]
      rfl
    | mixed e n => exact ha.elim
  | mixed d m =>
    cases r with
    | simple e => exact ha.elim
    | pulsed e => exact ha.elim
    | mixed e n =>
      obtain ⟨ha1, ha2⟩ := ha
      obtain ⟨g1, g2⟩ := has_append (show Has _ (optSpec intSpec m.int ++ mixOwn d m) from hh)
      obtain ⟨g3, g4⟩ := has_append g2
      obtain ⟨g5, g6⟩ := has_append g4
      unfold MixSt.fields at g3
      obtain ⟨v1, g3⟩ := has_cons g3
      obtain ⟨v2, g3⟩ := has_cons g3
      obtain ⟨v3, g3⟩ := has_cons g3
      obtain ⟨v4, g3⟩ := has_cons g3
      obtain ⟨v5, g3⟩ := has_cons g3
      have hi : loadOpt (loadInt extra p strict) n.int = .ok m.int := by
        cases hm : m.int with
        | none =>
          rw [hm] at ha2
          cases hn : n.int with
          | none => rfl
          | some i => rw [hn] at ha2; cases ha2
        | some i =>
          rw [hm] at ha2 g1
          cases hn : n.int with
          | none => rw [hn] at ha2; cases ha2
          | some j =>
            show (loadInt extra p strict j).map some = _
            unfold loadInt
            obtain ⟨i1, g1⟩ := has_cons (show Has _ [(key "md", [i.1]), (key "mx", [i.2])] from g1)
            obtain ⟨i2, g1⟩ := has_cons g1
            simp only [load1_of _ i1, load1_of _ i2, ok_bind']
            rfl
      have hn : find (selectWithPrefix (selectWithPrefix extra p) (key "rpu_device")) (key "transfer_vecs") = none := by
        rw [find_select, h]
        show find (optSpec intSpec m.int ++ mixOwn d m) _ = none
        rw [find_append, find_none_of_heads (heads_opt _ _ intSpec_heads) (by rw [head_sub (by decide)]; decide), mixOwn, find_append,
          find_none_of_heads m.heads (by rw [head_sub (by decide)]; decide), find_append, find_prefixed, find_prefixed, strip_sub,
          strip_other (by decide) (by decide) (by decide)]
        exact find_dev_none d
      unfold Top.load
      simp only [Dev.load_of d e junk strict ha1 (has_prefixed g6) hn, Pwu.load_of _ _ junk strict (has_prefixed g5), load1_of _ v1, loadV_of v2,
        load1_of _ v3, load1_of _ v4, load1_of _ v5, hi, ok_bind', decI_encI]
      rfl

theorem PulsedSt.load_of (s r : PulsedSt) (junk strict : Bool) (ha : s.dev.Alike r.dev) {extra : Dict} {p : Key}
    (h : Has (selectWithPrefix extra p) s.spec) 
    (hd : ∀ k, find (selectWithPrefix extra p) (sub (key "rpu_device") k) = find s.dev.spec k) :
    PulsedSt.load junk strict extra p r = .ok (s.restored r) := by
  obtain ⟨_, h2⟩ := has_append h
  obtain ⟨h3, h4⟩ := has_append h2
  unfold PulsedSt.load
  have := Top.load_of s.dev r.dev junk strict ha (extra := selectWithPrefix extra p) (p := key "rpu_device") (by
    intro k; rw [find_select]; exact hd k)
  simp only [this, Pwu.load_of _ _ junk strict (has_prefixed h4), FbPass.load_of _ _ strict (has_prefixed h3), ok_bind']
  rfl

theorem loadFb_of {st : Dict} (s r : Option (Vec × Modif)) (h : find st (key "fb_weights") = find (fbSpec s) (key "fb_weights")) :
    loadFb st r = fbRestored s r := by
  unfold loadFb
  rw [h]
  cases s with
  | none => rfl
  | some x =>
    have : find (fbSpec (some x)) (key "fb_weights") = some x.1 := by
      show find (prefixed _ _ ++ [(key "fb_weights", x.1)]) _ = _
      rw [find_append, find_none_of_heads (heads_prefixed (p := key "fb_weight_modifier") (by decide) _) (by decide)]
      rfl
    rw [this]
    rfl

/-- Loading a dictionary with the content of a dump. -/
theorem Tile.load_of (s r : Tile) (new : Drift) (junk strict : Bool) (ha : s.Alike r) {extra : Dict}
    (h : ∀ q, find extra q = find (prefixed (key "rpu") s.spec) q) :
    r.loadExtra new junk strict extra = .ok (s.restored r) := by
  have hq : ∀ k, find (selectWithPrefix extra (key "rpu")) k = find s.spec k := by
    intro k; rw [find_select, h, find_prefixed, strip_sub]; rfl
  have hsimple : ∀ k, SimpleHead (head k) → find (selectWithPrefix extra (key "rpu")) k = find s.simpleSpec k := by
    intro k hk
    rw [hq, Tile.spec, find_append, find_none_of_heads (heads_opt _ _ PulsedSt.heads) (S := PulsedHead)]
    · rfl
    · rintro (e | e | e) <;> (rw [e] at hk; revert hk; decide)
  have hh := has_of_find s.wf hq
  obtain ⟨h1, h2⟩ := has_append hh
  obtain ⟨h3, h4⟩ := has_append h2
  obtain ⟨h5, h6⟩ := has_append h4
  obtain ⟨h7, h8⟩ := has_append h6
  have hfb : loadFb (selectWithPrefix extra (key "rpu")) r.fb = fbRestored s.fb r.fb := by
    apply loadFb_of
    rw [hsimple _ (by decide), Tile.simpleSpec, find_append, find_none_of_heads s.fields_heads (by decide), find_append,
      find_none_of_heads (driftSpec_heads _) (by decide), find_append, find_none_of_heads (bufSpec_heads _ _) (by decide)]
    rfl
  have hdr : loadTileDrift new (selectWithPrefix extra (key "rpu")) strict r.drift = .ok r.drift := by
    have : find (selectWithPrefix extra (key "rpu")) (key "wdrifter") = none := by
      rw [hsimple _ (by decide), Tile.simpleSpec, find_append, find_none_of_heads s.fields_heads (by decide), find_append,
        find_append, find_none_of_heads (bufSpec_heads _ _) (by decide), find_none_of_heads (fbSpec_heads _) (by decide)]
      cases s.drift with
      | none => rfl
      | some d =>
        show ((find (prefixed (key "wdrifter") d.spec) (key "wdrifter"))) = none
        rw [find_prefixed]
        rfl
    unfold loadTileDrift
    rw [this]
  have hbuf : loadBuf (selectWithPrefix extra (key "rpu")) s.delayed strict r.wbuf =
      .ok (if s.delayed then s.wbuf ++ r.wbuf.drop s.wbuf.length else r.wbuf) := by
    unfold loadBuf
    cases hd : s.delayed with
    | false => rfl
    | true =>
      rw [hd] at h7
      obtain ⟨b1, _⟩ := has_cons (show Has _ [(key "weights_buffer", s.wbuf)] from h7)
      rw [loadV_of b1]
      rfl
  have hpu : loadOpt (PulsedSt.load junk strict extra (key "rpu")) r.pulsed = .ok (pulsedRestored s.pulsed r.pulsed) := by
    cases hs : s.pulsed with
    | none =>
      cases hr : r.pulsed with
      | none => rfl
      | some b => unfold Tile.Alike at ha; rw [hs, hr] at ha; exact ha.elim
    | some a =>
      cases hr : r.pulsed with
      | none => unfold Tile.Alike at ha; rw [hs, hr] at ha; exact ha.elim
      | some b =>
        unfold Tile.Alike at ha
        rw [hs, hr] at ha
        rw [hs] at h1
        show (PulsedSt.load junk strict extra (key "rpu") b).map some = _
        rw [PulsedSt.load_of a b junk strict ha h1]
        · rfl
        · intro k
          rw [hq, Tile.spec, hs, find_append, find_none_of_heads s.simple_heads (by rw [head_sub (by decide)]; decide), Option.or_none]
          show find a.spec _ = _
          unfold PulsedSt.spec
          rw [find_append, find_append, find_prefixed, find_prefixed, find_prefixed, strip_sub, strip_other (by decide) (by decide) (by decide),
            strip_other (by decide) (by decide) (by decide)]
          show (find a.dev.spec k).or _ = _
          simp
  unfold Tile.fields at h3
  obtain ⟨v1, h3⟩ := has_cons h3
  obtain ⟨v2, h3⟩ := has_cons h3
  obtain ⟨v3, h3⟩ := has_cons h3
  obtain ⟨v4, h3⟩ := has_cons h3
  obtain ⟨v5, h3⟩ := has_cons h3
  obtain ⟨v6, h3⟩ := has_cons h3
  obtain ⟨v7, h3⟩ := has_cons h3
  unfold Tile.loadExtra
  simp only [hfb, hdr, loadV_of v2, load1_of _ v1, load1_of _ v4, load1_of _ v5, load1_of _ v6, load1_of _ v7, loadL_of _ v3, decB_encB, hbuf, hpu,
    ok_bind', decI_encI, map_decI]
  rfl

end Aihw.Extra

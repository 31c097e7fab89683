import Verif.Extra.Strict

/-!
# C73: optional entries
-/
namespace Aihw.Extra

/-- A dump of a transfer device that was made before `transfer_every` was part of the state: it is also accepted by a strict load, and the
device keeps its own value. -/
theorem C73_every_optional (s r : TransSt) (junk : Bool) (hc : r.chop.isSome = s.chop.isSome) (hd : r.dyn.isSome = s.dyn.isSome)
    {extra : Dict} {p : Key} (strict : Bool) (h : ∀ x ∈ s.spec, x.1 ≠ key "transfer_every" → find (selectWithPrefix extra p) x.1 = some x.2)
    (he : find (selectWithPrefix extra p) (key "transfer_every") = none)
    (hn : find (selectWithPrefix extra p) (key "transfer_vecs") = none) :
    TransSt.load junk extra p strict r = .ok { s.restored r with every := r.every } := by
  have hm : ∀ x, x ∈ s.spec → head x.1 ≠ head (key "transfer_every") → find (selectWithPrefix extra p) x.1 = some x.2 :=
    fun x hx hn => h x hx fun e => hn (by rw [e])
  have hne : ∀ (d : Dict) (S : Key → Prop), WF d → Heads d S → ¬ S (head (key "transfer_every")) → ∀ x ∈ d,
      head x.1 ≠ head (key "transfer_every") := by
    intro d S hw hd hS x hx hh
    refine hS ?_
    rw [← hh]
    exact hd x.1 (by rw [(find_eq_some_iff hw x.1 x.2).2 hx]; rfl)
  have h1 : Has (selectWithPrefix extra p) (optSpec DynSt.spec s.dyn) := fun x hx => hm x (List.mem_append_left _ hx)
    (hne _ _ (wf_opt _ DynSt.wf _) (heads_opt _ _ DynSt.heads) (by decide) x hx)
  have h2 : Has (selectWithPrefix extra p) (optSpec ChopSt.spec s.chop) := fun x hx =>
    hm x (List.mem_append_right _ (List.mem_append_left _ hx)) (hne _ _ (wf_opt _ ChopSt.wf _) (heads_opt _ _ ChopSt.heads) (by decide) x hx)
  have hown : ∀ x, x ∈ s.own → x.1 ≠ key "transfer_every" → find (selectWithPrefix extra p) x.1 = some x.2 :=
    fun x hx => h x (List.mem_append_right _ (List.mem_append_right _ hx))
  have hpre : ∀ (q : Key) (d : Dict), head (sub q []) ≠ head (key "transfer_every") → (∀ k, head (sub q k) = head (sub q [])) →
      (∀ x ∈ prefixed q d, x ∈ s.own) → Has (selectWithPrefix extra p) (prefixed q d) := by
    intro q d hq hk hin x hx
    refine hown x (hin x hx) fun e => hq ?_
    obtain ⟨y, _, hy⟩ := List.mem_map.1 hx
    rw [← e, ← hy, hk y.1]
  have h3 : Has (selectWithPrefix extra p) (prefixed (key "transfer_pwu") s.pwu.spec) :=
    hpre _ _ (by decide) (fun _ => rfl) fun x hx => List.mem_append_left _ hx
  have h4 : Has (selectWithPrefix extra p) (prefixed (key "transfer_fb_pass") s.fb.spec) :=
    hpre _ _ (by decide) (fun _ => rfl) fun x hx => List.mem_append_right _ (List.mem_append_left _ hx)
  have h5 : find (selectWithPrefix extra p) (key "current_slice_indices") = some (s.slices.map encI) :=
    hown (key "current_slice_indices", s.slices.map encI) (List.mem_append_right _ (List.mem_append_right _ (by unfold TransSt.fields; simp)))
      (show key "current_slice_indices" ≠ key "transfer_every" by decide)
  have h6 : loadV (selectWithPrefix extra p) (key "transfer_every") r.every false = .ok r.every := by
    unfold loadV; rw [he]; rfl
  have hv : loadV (selectWithPrefix extra p) (key "transfer_vecs") r.vecs false = .ok r.vecs := by
    unfold loadV; rw [hn]; rfl
  have hcl : loadOpt (ChopSt.load extra p strict) r.chop = .ok s.chop := by
    rw [loadOpt_of _ (fun a _ => a) s.chop r.chop hc]
    · cases hsc : s.chop with
      | none => rfl
      | some a =>
        rw [hsc] at hc
        obtain ⟨b, hb⟩ := Option.isSome_iff_exists.1 hc
        rw [hb]; rfl
    · intro a b ha _
      rw [ha] at h2
      exact ChopSt.load_of a b strict h2
  have hdl : loadOpt (DynSt.load extra p strict) r.dyn = .ok s.dyn := by
    rw [loadOpt_of _ (fun a _ => a) s.dyn r.dyn hd]
    · cases hsc : s.dyn with
      | none => rfl
      | some a =>
        rw [hsc] at hd
        obtain ⟨b, hb⟩ := Option.isSome_iff_exists.1 hd
        rw [hb]; rfl
    · intro a b ha _
      rw [ha] at h1
      exact DynSt.load_of a b strict h1
  unfold TransSt.load
  simp only [loadL_of _ h5, hv, h6, FbPass.load_of _ _ strict (has_prefixed h4), Pwu.load_of _ _ junk strict (has_prefixed h3), hcl, hdl,
    ok_bind', map_decI]
  rfl

end Aihw.Extra

import Verif.GpuPost.Drift

/-!
# The drift clock in checkpoints (C47)
-/
namespace Aihw.GpuPost
open Aihw.Pulsed (DriftPar DCall driftLaw total C47_total_time)

variable {V : Type}

/-- No name in a saved state begins with a drifter's name. -/
def NoDrifter (d : Dict V) : Prop := ∀ e ∈ d, e.1.head? ≠ some "wdrifter" ∧ e.1.head? ≠ some "wdrifter_cuda"

theorem select_append (a b : Dict V) (pre : String) :
    Dict.selectWithPrefix (a ++ b) pre = a.selectWithPrefix pre ++ b.selectWithPrefix pre := by
  unfold Dict.selectWithPrefix; rw [List.filterMap_append]

theorem select_prefixed (a : Dict V) (p q : String) :
    Dict.selectWithPrefix (a.map fun e => (p :: e.1, e.2)) q = if p = q then a else [] := by
  unfold Dict.selectWithPrefix
  rw [List.filterMap_map]
  by_cases h : p = q
  · rw [if_pos h]
    show List.filterMap (fun e : List String × V => if p = q then some (e.1, e.2) else none) a = a
    simp only [h, if_true]
    exact List.filterMap_some
  · rw [if_neg h]
    rw [List.filterMap_eq_nil_iff]
    intro e _
    simp [h]

theorem select_other {d : Dict V} (h : NoDrifter d) (q : String) (hq : q = "wdrifter" ∨ q = "wdrifter_cuda") :
    d.selectWithPrefix q = [] := by
  unfold Dict.selectWithPrefix
  rw [List.filterMap_eq_nil_iff]
  rintro ⟨k, v⟩ he
  cases k with
  | nil => rfl
  | cons a l =>
    have := h _ he
    simp only [List.head?_cons, ne_eq, Option.some.injEq] at this
    have hne : a ≠ q := by rcases hq with rfl | rfl; exacts [this.1, this.2]
    simp [hne]

theorem at_none {d : Dict V} {k : List String} (h : ∀ e ∈ d, e.1 ≠ k) : d.at k = none := by
  unfold Dict.at
  rw [Option.map_eq_none_iff, List.find?_eq_none]
  intro e he
  simpa using h e he

theorem load_dump (gpu : Bool) (s s' : DrifterState V) (others : Dict V) (h : NoDrifter others) (pre : String)
    (hq : pre = "wdrifter" ∨ pre = "wdrifter_cuda") (strict : Bool) :
    s'.load gpu (s.dump gpu others pre) pre strict = .ok s := by
  have e : (s.dump gpu others pre).selectWithPrefix pre = [(["active"], s.active), (["current_t"], s.currentT),
    ([arrayName gpu "previous_weights"], s.prev), ([arrayName gpu "w0"], s.w0), ([arrayName gpu "t"], s.t),
    ([arrayName gpu "nu"], s.nu)] := by
    unfold DrifterState.dump Dict.insertWithPrefix
    rw [select_append, select_other h pre hq, select_prefixed, if_pos rfl, List.nil_append]
  unfold DrifterState.load
  dsimp only
  rw [e]
  cases gpu <;> rfl

theorem load_nothing (gpu : Bool) (s : DrifterState V) (d : Dict V) (pre : String) (h : d.selectWithPrefix pre = []) :
    s.load gpu d pre false = .ok s ∧ s.load gpu d pre true = .error .runtimeError := by
  unfold DrifterState.load
  dsimp only
  rw [h]
  exact ⟨rfl, rfl⟩

/-- **C47** (checkpoints). A tile with drifter state `s` is saved, beside other things, and the saved state is loaded into a
tile of the same type with drifter state `s'`. Only the pulsed tile on the CPU takes over the saved state: the
floating-point tiles keep the state they have, on CPU and GPU, strict or not; so does the pulsed tile on the GPU, which
saves its drifter under a name other than the one it loads, and strict loading fails. -/
theorem C47_checkpoint (k : TileType) (new s : DrifterState V) (s' : Option (DrifterState V)) (others : Dict V)
    (h : NoDrifter others) (strict : Bool) :
    (k = ⟨true, false⟩ → s'.isSome → loadTile k new s' (saveTile k (some s) others) strict = .ok (some s)) ∧
    (k.pulsed = false → loadTile k new s' (saveTile k (some s) others) strict = .ok s') ∧
    (k = ⟨true, true⟩ → s'.isSome → loadTile k new s' (saveTile k (some s) others) false = .ok s' ∧
      loadTile k new s' (saveTile k (some s) others) true = .error .runtimeError) := by
  refine ⟨fun hk hs => ?_, fun hk => ?_, fun hk hs => ?_⟩
  · subst hk
    obtain ⟨v, rfl⟩ := Option.isSome_iff_exists.1 hs
    show (v.load false (s.dump false others "wdrifter") "wdrifter" strict).map some = _
    rw [load_dump false s v others h "wdrifter" (.inl rfl) strict]
    rfl
  · have hq : saveName k = "wdrifter" ∨ saveName k = "wdrifter_cuda" := by
      unfold saveName
      cases k.gpu
      · exact .inl rfl
      · exact .inr rfl
    have hl : loadName k = "wdrifter" ∨ loadName k = "wdrifter_cuda" := by
      unfold loadName
      split_ifs
      · exact .inr rfl
      · exact .inl rfl
    have : (saveTile k (some s) others).at [loadName k] = none := by
      apply at_none
      intro e he hek
      unfold saveTile DrifterState.dump Dict.insertWithPrefix at he
      rcases List.mem_append.1 he with he | he
      · have hn := h e he
        rw [hek] at hn
        simp only [List.head?_cons, ne_eq, Option.some.injEq] at hn
        rcases hl with e' | e'
        · exact hn.1 e'
        · exact hn.2 e'
      · obtain ⟨e', he', rfl⟩ := List.mem_map.1 he
        simp only [List.mem_cons, List.not_mem_nil, or_false] at he'
        rcases he' with rfl | rfl | rfl | rfl | rfl | rfl <;> simp at hek
    unfold loadTile
    rw [hk, this]
    rfl
  · subst hk
    obtain ⟨v, rfl⟩ := Option.isSome_iff_exists.1 hs
    have hsel : (s.dump true others "wdrifter_cuda").selectWithPrefix "wdrifter" = [] := by
      unfold DrifterState.dump Dict.insertWithPrefix
      rw [select_append, select_other h "wdrifter" (.inl rfl), select_prefixed, if_neg (by decide)]
      rfl
    have hn := load_nothing true v (s.dump true others "wdrifter_cuda") "wdrifter" hsel
    constructor
    · show (v.load true (s.dump true others "wdrifter_cuda") "wdrifter" false).map some = _
      rw [hn.1]; rfl
    · show (v.load true (s.dump true others "wdrifter_cuda") "wdrifter" true).map some = _
      rw [hn.2]; rfl

/-- **C47** (what losing the state means, also for a tile copied from the CPU to the GPU, whose new drifter is not active).
A drifter that starts anew measures the time from the moment it was replaced: the weight it gives follows the power law
of the already drifted weight at the time since then, not that of the initial weight at the total time. -/
theorem C47_restarted (threads size : ℕ) (hT : 1 ≤ threads) (p : DriftPar) (hk : p.nuK = 0) (htol : 0 ≤ p.tol)
    (hr : p.readStd ≤ 0) (hs : p.nuStd ≤ 0) (w : ℕ → ℝ) (c c' : List ℕ × GpuCall)
    (hc : c.1.Perm (GpuIo.visits threads size)) (hc' : c'.1.Perm (GpuIo.visits threads size)) (i : ℕ) (hi : i < size) :
    let w1 := (gpuRun p none none w [c]).1
    (gpuRun p none none w1 [c']).1 i =
        driftLaw (driftLaw (w i) p.a p.nu (c.2.dt / p.t0)) p.a p.nu (c'.2.dt / p.t0) ∧
      (gpuRun p none none w [c, c']).1 i = driftLaw (w i) p.a p.nu ((c.2.dt + c'.2.dt) / p.t0) := by
  have h1 : ∀ (w : ℕ → ℝ) (c : List ℕ × GpuCall), c.1.Perm (GpuIo.visits threads size) →
      (gpuRun p none none w [c]).1 i = driftLaw (w i) p.a p.nu (c.2.dt / p.t0) := by
    intro w c hc
    have := C47_gpu_total_time threads size hT p hk htol none w [] c (by simpa using hc) i hi
    simpa [elemNu, hs, not_lt.2 hr] using this
  refine ⟨?_, ?_⟩
  · rw [h1 _ _ hc', h1 _ _ hc]
  · have := C47_gpu_total_time threads size hT p hk htol none w [c] c' (by
      intro x hx
      rcases List.mem_append.1 hx with hx | hx
      · rw [List.mem_singleton.1 hx]; exact hc
      · rw [List.mem_singleton.1 hx]; exact hc') i hi
    simpa [elemNu, hs, not_lt.2 hr] using this

end Aihw.GpuPost

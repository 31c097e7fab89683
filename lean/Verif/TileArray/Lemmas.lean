import Verif.TileArray.Spec

namespace Aihw.TileArray

/-! ## Split sizes -/

theorem sum_map_range_extra (n base extra : Nat) (h : extra ≤ n) :
    ((List.range n).map fun i => base + (if i < extra then 1 else 0)).sum = n * base + extra := by
  induction n generalizing extra with
  | zero => simp; omega
  | succ n ih =>
    rw [List.range_succ, List.map_append, List.sum_append]
    by_cases hn : extra ≤ n
    · rw [ih extra hn]
      have : ¬ n < extra := by omega
      simp only [List.map_cons, List.map_nil, List.sum_cons, List.sum_nil, this, if_false]
      ring
    · have he : extra = n + 1 := by omega
      subst he
      have : (List.map (fun i => base + if i < n + 1 then 1 else 0) (List.range n))
           = (List.map (fun i => base + if i < n then 1 else 0) (List.range n)) := by
        apply List.map_congr_left
        intro i hi
        have : i < n := List.mem_range.1 hi
        simp [this, Nat.lt_succ_of_lt this]
      rw [this, ih n le_rfl]
      simp only [List.map_cons, List.map_nil, List.sum_cons, List.sum_nil, Nat.lt_succ_self, if_true]
      ring

theorem getSplitSizes_ne_nil {size : Nat} {m : Int} {l : List Nat}
    (h : getSplitSizes size m = .ok l) : l ≠ [] := by
  unfold getSplitSizes at h
  split_ifs at h with h1
  · cases h; simp
  · simp only at h
    split_ifs at h with h2
    cases h
    intro hc
    rw [List.map_eq_nil_iff, List.range_eq_nil] at hc
    exact h2 hc

theorem getSplitSizes_sum {size : Nat} {m : Int} {l : List Nat}
    (h : getSplitSizes size m = .ok l) : l.sum = size := by
  unfold getSplitSizes at h
  split_ifs at h with h1
  · cases h; simp
  · simp only at h
    split_ifs at h with h2
    cases h
    rw [sum_map_range_extra _ _ _ (Nat.mod_lt _ (Nat.pos_of_ne_zero h2)).le]
    exact Nat.div_add_mod _ _

/-! ## Slices -/

theorem reshape_flatten {m n : Nat} {w : Mat} (h : IsMat m n w) :
    reshape m n w.flatten = .ok w := by
  obtain ⟨h1, h2⟩ := h
  have hlen : w.flatten.length = m * n := by
    subst h1
    induction w with
    | nil => simp
    | cons r w ih =>
      simp only [List.flatten_cons, List.length_append, List.length_cons]
      rw [ih (fun r hr => h2 r (List.mem_cons_of_mem _ hr)), h2 r (by simp)]
      rw [Nat.add_mul, one_mul, Nat.add_comm]
  unfold reshape
  rw [if_pos hlen]
  congr 1
  subst h1
  clear hlen
  induction w with
  | nil => simp
  | cons r w ih =>
    have hr : r.length = n := h2 r (by simp)
    rw [List.length_cons, List.range_succ_eq_map, List.map_cons, List.map_map]
    congr 1
    · simp only [Nat.zero_mul, List.drop_zero, List.flatten_cons]
      rw [← hr, List.take_left]
    · conv_rhs => rw [← ih (fun r hr => h2 r (List.mem_cons_of_mem _ hr))]
      apply List.map_congr_left
      intro i _
      simp only [Function.comp_apply, List.flatten_cons]
      congr 1
      rw [show (i + 1) * n = r.length + i * n by rw [hr]; ring, List.drop_append]
      rw [List.drop_of_length_le (by omega)]
      simp

/-- column slice of a matrix -/
def cols (w : Mat) (is s : Nat) : Mat := w.map fun r => (r.drop is).take s

theorem slice2_eq (w : Mat) (os s is t : Nat) :
    slice2 w os (os + s) is (is + t) = cols ((w.drop os).take s) is t := by
  simp [slice2, cols]

/-- blocks of rows -/
def rowBlocks (w : Mat) (is t : Nat) : Nat → List Nat → List Mat
  | _, [] => []
  | os, s :: ss => cols ((w.drop os).take s) is t :: rowBlocks w is t (os + s) ss

theorem rowBlocks_flatten (w : Mat) (is t os : Nat) (ss : List Nat) :
    (rowBlocks w is t os ss).flatten = cols ((w.drop os).take ss.sum) is t := by
  induction ss generalizing os with
  | nil => simp [rowBlocks, cols]
  | cons s ss ih =>
    rw [rowBlocks, List.flatten_cons, ih, List.sum_cons, cols, cols, cols, ← List.map_append]
    congr 1
    rw [← List.drop_drop, ← List.take_add]

theorem rowBlocks_ne_nil {w : Mat} {is t os : Nat} {ss : List Nat} (h : ss ≠ []) :
    rowBlocks w is t os ss ≠ [] := by
  cases ss with
  | nil => exact absurd rfl h
  | cons _ _ => simp [rowBlocks]

theorem cols_isMat {m n os s is t : Nat} {w : Mat} (h : IsMat m n w) (h1 : os + s ≤ m)
    (h2 : is + t ≤ n) : IsMat s t (cols ((w.drop os).take s) is t) := by
  obtain ⟨ha, hb⟩ := h
  constructor
  · simp [cols]; omega
  · intro r hr
    simp only [cols, List.mem_map] at hr
    obtain ⟨r', hr', rfl⟩ := hr
    have := hb r' (List.mem_of_mem_drop (List.mem_of_mem_take hr'))
    simp; omega

/-- column blocks -/
def colBlocks (w : Mat) : Nat → List Nat → List Mat
  | _, [] => []
  | is, t :: ts => cols w is t :: colBlocks w (is + t) ts

theorem cat1_colBlocks (w : Mat) (is : Nat) (ts : List Nat) (h : ts ≠ []) :
    cat1 (colBlocks w is ts) = .ok (cols w is ts.sum) := by
  induction ts generalizing is with
  | nil => exact absurd rfl h
  | cons t ts ih =>
    cases ts with
    | nil => simp [colBlocks, cat1]
    | cons t' ts =>
      have e : colBlocks w is (t :: t' :: ts) = cols w is t :: colBlocks w (is + t) (t' :: ts) := rfl
      have e2 : ∀ m l, l ≠ [] → cat1 (m :: l) = (do
          let r ← cat1 l
          if m.length = r.length then return List.zipWith (· ++ ·) m r else throw .runtimeError) := by
        intro m l hl
        cases l with
        | nil => exact absurd rfl hl
        | cons _ _ => rfl
      rw [e, e2 _ _ (by simp [colBlocks]), ih (is + t) (by simp)]
      have hl : (cols w is t).length = (cols w (is + t) (t' :: ts).sum).length := by simp [cols]
      simp only [bind, Except.bind, hl, if_true, pure, Except.pure]
      congr 1
      rw [List.sum_cons (a := t)]
      simp only [cols]
      rw [List.zipWith_map_left, List.zipWith_map_right, List.zipWith_self]
      apply List.map_congr_left
      intro r _
      rw [← List.drop_drop, ← List.take_add]

theorem cols_full {m n : Nat} {w : Mat} (h : IsMat m n w) : cols w 0 n = w := by
  unfold cols
  conv_rhs => rw [← List.map_id w]
  apply List.map_congr_left
  intro r hr
  simp [List.take_of_length_le (h.2 r hr).le]

theorem splitVec_go_sum (sizes : List Nat) (x : Vec) :
    (splitVec.go sizes x).length = sizes.length := by
  induction sizes generalizing x with
  | nil => rfl
  | cons s ss ih => simp [splitVec.go, ih]

/-! ## matrix-vector products of blocks -/

theorem matVec_append (a b : Mat) (x : Vec) : matVec (a ++ b) x = matVec a x ++ matVec b x := by
  simp [matVec]

theorem matVec_flatten (l : List Mat) (x : Vec) :
    (l.map fun w => matVec w x).flatten = matVec l.flatten x := by
  induction l with
  | nil => simp [matVec]
  | cons a l ih => simp [ih, matVec_append]

theorem matVec_zipWith_append (B W : Mat) (x x' : Vec) (h : B.length = W.length)
    (hB : ∀ r ∈ B, r.length = x.length) :
    matVec (List.zipWith (· ++ ·) B W) (x ++ x') = vadd (matVec B x) (matVec W x') := by
  induction B generalizing W with
  | nil => simp [matVec, vadd]
  | cons r B ih =>
    cases W with
    | nil => simp at h
    | cons r' W =>
      have e := ih W (by simpa using h) (fun r hr => hB r (List.mem_cons_of_mem _ hr))
      simp only [matVec, vadd, List.zipWith_cons_cons, List.map_cons] at e ⊢
      rw [e, dot_append _ _ _ _ (hB r (by simp))]

theorem vadd_assoc (a b c : Vec) : vadd (vadd a b) c = vadd a (vadd b c) := by
  induction a generalizing b c with
  | nil => simp [vadd]
  | cons a as ih =>
    cases b with
    | nil => simp [vadd]
    | cons b bs =>
      cases c with
      | nil => simp [vadd]
      | cons c cs =>
        have := ih bs cs
        simp only [vadd, List.zipWith_cons_cons] at this ⊢
        rw [this, add_assoc]

@[simp] theorem matVec_length (w : Mat) (x : Vec) : (matVec w x).length = w.length := by
  simp [matVec]

@[simp] theorem vadd_length (a b : Vec) : (vadd a b).length = min a.length b.length := by
  simp [vadd]

section
variable {T : Type} {ops : TileOps T} {P : Nat → Nat → T → Prop}

theorem sum_le_length_mul {m : Nat} (l : List Nat) (h : ∀ s ∈ l, s ≤ m) : l.sum ≤ l.length * m := by
  induction l with
  | nil => simp
  | cons a l ih =>
    have h1 := ih fun s hs => h s (List.mem_cons_of_mem _ hs)
    have h2 := h a (by simp)
    rw [List.sum_cons, List.length_cons, Nat.add_mul, Nat.one_mul]
    omega

theorem forall₂_map_right_self {α β : Type} {R : α → β → Prop} {f : α → β} (l : List α)
    (h : ∀ a ∈ l, R a (f a)) : List.Forall₂ R l (l.map f) := by
  induction l with
  | nil => exact .nil
  | cons a l ih =>
    exact .cons (h a (by simp)) (ih fun a ha => h a (List.mem_cons_of_mem _ ha))

theorem nat_mul_eq_one (a b : Nat) : a * b = 1 ↔ a = 1 ∧ b = 1 :=
  ⟨fun h => ⟨Nat.eq_one_of_mul_eq_one_right h, Nat.eq_one_of_mul_eq_one_left h⟩,
   by rintro ⟨rfl, rfl⟩; rfl⟩

theorem setInner_spec (hst : StoringTile ops P) {w : Mat} {o i : Nat} (hw : IsMat o i w)
    (is t : Nat) (hi : is + t ≤ i) (os : Nat) (ss : List Nat) (row : List T)
    (hrow : List.Forall₂ (fun m tl => P m t tl) ss row) (ho : os + ss.sum ≤ o) :
    ∃ row', setInner ops w is (is + t) os ss row = .ok row' ∧
      List.Forall₂ (fun m tl => P m t tl) ss row' ∧
      List.Forall₂ (fun tl b => ops.getW tl = .ok b) row' (rowBlocks w is t os ss) := by
  induction hrow generalizing os with
  | nil => exact ⟨[], rfl, .nil, .nil⟩
  | @cons s tl ss row hp _ ih =>
    rw [List.sum_cons] at ho
    have hm := cols_isMat hw (os := os) (s := s) (is := is) (t := t) (by omega) hi
    obtain ⟨t', ht1, ht2, ht3⟩ := hst.set_get s t tl _ hp hm
    obtain ⟨row', hr1, hr2, hr3⟩ := ih (os + s) (by omega)
    refine ⟨t' :: row', ?_, .cons ht2 hr2, .cons ht3 hr3⟩
    rw [setInner, slice2_eq, ht1]
    simp only [bind, Except.bind, hr1, pure, Except.pure]

theorem setOuter_spec (hst : StoringTile ops P) {w : Mat} {o i : Nat} (hw : IsMat o i w)
    (outSizes : List Nat) (ho : outSizes.sum = o) (is : Nat) (ts : List Nat) (rows : List (List T))
    (hrows : List.Forall₂ (fun n row => List.Forall₂ (fun m t => P m n t) outSizes row) ts rows)
    (hi : is + ts.sum ≤ i) :
    ∃ rows', setOuter ops w outSizes is ts rows = .ok rows' ∧
      List.Forall₂ (fun n row => List.Forall₂ (fun m t => P m n t) outSizes row) ts rows' ∧
      ∀ k, k < ts.length → ∃ row, rows'[k]? = some row ∧
        List.Forall₂ (fun tl b => ops.getW tl = .ok b) row
          (rowBlocks w (is + (ts.take k).sum) (ts.getD k 0) 0 outSizes) := by
  induction hrows generalizing is with
  | nil => exact ⟨[], rfl, .nil, by simp⟩
  | @cons t row ts rows hrow _ ih =>
    rw [List.sum_cons] at hi
    obtain ⟨row', h1, h2, h3⟩ := setInner_spec hst hw is t (by omega) 0 outSizes row hrow (by omega)
    obtain ⟨rows', g1, g2, g3⟩ := ih (is + t) (by omega)
    refine ⟨row' :: rows', ?_, .cons h2 g2, ?_⟩
    · rw [setOuter]
      simp only [bind, Except.bind, h1, g1, pure, Except.pure]
    · intro k hk
      cases k with
      | zero => exact ⟨row', rfl, by simpa using h3⟩
      | succ k =>
        obtain ⟨row'', e1, e2⟩ := g3 k (by simpa using hk)
        refine ⟨row'', by simpa using e1, ?_⟩
        simpa [Nat.add_assoc] using e2

theorem getRows (w : Mat) {o i : Nat} (hw : IsMat o i w) (outSizes : List Nat)
    (ho : outSizes.sum = o) (hone : outSizes ≠ []) (is : Nat) (ts : List Nat)
    (rows : List (List T)) (hlen : rows.length = ts.length)
    (h : ∀ k, k < ts.length → ∃ row, rows[k]? = some row ∧
        List.Forall₂ (fun tl b => ops.getW tl = .ok b) row
          (rowBlocks w (is + (ts.take k).sum) (ts.getD k 0) 0 outSizes)) :
    (rows.mapM fun row => do let l ← row.mapM ops.getW; cat0 l) = .ok (colBlocks w is ts) := by
  induction ts generalizing is rows with
  | nil =>
    have : rows = [] := List.length_eq_zero_iff.1 hlen
    subst this; rfl
  | cons t ts ih =>
    cases rows with
    | nil => simp at hlen
    | cons row rows =>
      obtain ⟨row', e1, e2⟩ := h 0 (by simp)
      simp only [List.getElem?_cons_zero, Option.some.injEq] at e1
      subst e1
      have hr := ih (is + t) rows (by simpa using hlen) (by
        intro k hk
        obtain ⟨r, a, b⟩ := h (k + 1) (by simpa using hk)
        exact ⟨r, by simpa using a, by simpa [Nat.add_assoc] using b⟩)
      simp only [List.take_zero, List.sum_nil, Nat.add_zero, List.getD_cons_zero] at e2
      have hm := forall₂_mapM_ok e2
      have hc : cat0 (rowBlocks w is t 0 outSizes) = .ok (cols w is t) := by
        have hne := rowBlocks_ne_nil (w := w) (is := is) (t := t) (os := 0) hone
        have hf := rowBlocks_flatten w is t 0 outSizes
        rw [List.drop_zero, ho, List.take_of_length_le (by rw [hw.1])] at hf
        cases hh : rowBlocks w is t 0 outSizes with
        | nil => exact absurd hh hne
        | cons a l => rw [hh] at hf; rw [cat0, hf]; simp
      rw [List.mapM_cons, hm]
      simp only [bind, Except.bind] at hr ⊢
      rw [hc, hr]
      rfl

theorem rowBlocks_getElem? (w : Mat) (is t os : Nat) (ss : List Nat) (l : Nat) (hl : l < ss.length) :
    (rowBlocks w is t os ss)[l]? =
      some (cols ((w.drop (os + (ss.take l).sum)).take (ss.getD l 0)) is t) := by
  induction ss generalizing os l with
  | nil => simp at hl
  | cons s ss ih =>
    cases l with
    | zero => simp [rowBlocks]
    | succ l =>
      rw [rowBlocks, List.getElem?_cons_succ, ih (os + s) l (by simpa using hl)]
      simp [Nat.add_assoc]

theorem row_forward (hlin : LinearTile ops P) {n : Nat} {ss : List Nat} {row : List T}
    (hrow : List.Forall₂ (fun m t => P m n t) ss row) {ms : List Mat}
    (hms : row.mapM ops.getW = .ok ms) {x : Vec} (hx : x.length = n) :
    (row.mapM fun t => ops.fwd t x) = .ok (ms.map fun w => matVec w x) ∧
      IsMat ss.sum n ms.flatten ∧ ms.length = ss.length := by
  have h2 := mapM_ok_forall₂ hms
  clear hms
  induction hrow generalizing ms with
  | nil => cases h2; exact ⟨rfl, ⟨rfl, by simp⟩, rfl⟩
  | @cons m t ss row hp _ ih =>
    cases h2 with
    | @cons _ w _ ws hw hws =>
      obtain ⟨a, b, c⟩ := ih hws
      have hs := hlin.shape m n t w hp hw
      refine ⟨?_, ⟨?_, ?_⟩, by simp [c]⟩
      · rw [List.mapM_cons, hlin.fwd m n t w x hp hw hx]
        simp only [bind, Except.bind] at a ⊢
        rw [a]; rfl
      · rw [List.flatten_cons, List.length_append, hs.1, b.1, List.sum_cons]
      · intro r hr
        rw [List.flatten_cons, List.mem_append] at hr
        rcases hr with hr | hr
        · exact hs.2 r hr
        · exact b.2 r hr

theorem rowForward_eq (hlin : LinearTile ops P) {n : Nat} {ss : List Nat} {row : List T}
    (hne : ss ≠ []) (hrow : List.Forall₂ (fun m t => P m n t) ss row) {B : Mat}
    (hB : (do let l ← row.mapM ops.getW; cat0 l) = .ok B) {x : Vec} (hx : x.length = n) :
    rowForward ops row x = .ok (matVec B x) ∧ IsMat ss.sum n B := by
  cases hms : row.mapM ops.getW with
  | error e => simp [hms, bind, Except.bind] at hB
  | ok ms =>
    obtain ⟨a, b, c⟩ := row_forward hlin hrow hms hx
    simp only [hms, bind, Except.bind] at hB
    have hne' : ms ≠ [] := by
      intro h; subst h; simp at c; exact hne (List.length_eq_zero_iff.1 c.symm)
    have hcat : cat0 ms = .ok ms.flatten := by
      cases ms with
      | nil => exact absurd rfl hne'
      | cons _ _ => rfl
    rw [hcat] at hB
    cases hB
    refine ⟨?_, b⟩
    simp only [rowForward, bind, Except.bind, a]
    rw [← matVec_flatten]
    cases ms with
    | nil => exact absurd rfl hne'
    | cons _ _ => rfl

theorem cat1_cons_cons (m m' : Mat) (l : List Mat) : cat1 (m :: m' :: l) = (do
    let r ← cat1 (m' :: l)
    if m.length = r.length then return List.zipWith (· ++ ·) m r else throw .runtimeError) := rfl

theorem accum_eq (hlin : LinearTile ops P) {outSizes : List Nat} (hone : outSizes ≠ [])
    {ts : List Nat} {rows : List (List T)}
    (hrows : List.Forall₂ (fun n row => List.Forall₂ (fun m t => P m n t) outSizes row) ts rows)
    {Bs : List Mat} (hBs : List.Forall₂
      (fun row B => (do let l ← row.mapM ops.getW; cat0 l) = .ok B) rows Bs)
    {x : Vec} (hx : ts.sum = x.length) (acc : Vec) (hacc : acc.length = outSizes.sum) :
    accum ops acc (splitVec.go ts x) rows =
      if Bs = [] then .ok acc
      else (cat1 Bs).map fun W => vadd acc (matVec W x) := by
  induction hrows generalizing Bs x acc with
  | nil => cases hBs; rfl
  | @cons t row ts rows hrow hrest ih =>
    cases hBs with
    | @cons _ B _ Bs' hB hBs' =>
      rw [List.sum_cons] at hx
      have htl : (x.take t).length = t := by simp; omega
      obtain ⟨hf, hsh⟩ := rowForward_eq hlin hone hrow hB htl
      have hal : acc.length = (matVec B (x.take t)).length := by rw [matVec_length, hsh.1, hacc]
      have hih := ih hBs' (x := x.drop t) (by simp; omega) (vadd acc (matVec B (x.take t)))
        (by rw [vadd_length, ← hal, hacc]; simp)
      rw [splitVec.go, accum, hf]
      simp only [bind, Except.bind, addVec, hal, if_true]
      rw [hih]
      cases Bs' with
      | nil =>
        have : ts = [] := by
          cases hBs'; cases hrest; rfl
        subst this
        simp only [cat1, Except.map]
        simp only [List.sum_nil, Nat.add_zero] at hx
        rw [List.take_of_length_le hx.ge]
        simp
      | cons B' Bs' =>
        simp only [cat1_cons_cons, List.cons_ne_nil, if_false]
        cases hc : cat1 (B' :: Bs') with
        | error e => rfl
        | ok W =>
          simp only [bind, Except.bind, Except.map]
          have hWl : B.length = W.length := by
            have hall : ∀ B'' ∈ (B' :: Bs'), B''.length = outSizes.sum := by
              clear hc hih
              intro B'' hmem
              have key : ∀ (ts : List Nat) (rows : List (List T)) (Bs : List Mat),
                  List.Forall₂ (fun n row => List.Forall₂ (fun m t => P m n t) outSizes row) ts rows →
                  List.Forall₂ (fun row B => (do let l ← row.mapM ops.getW; cat0 l) = .ok B) rows Bs →
                  ∀ B ∈ Bs, B.length = outSizes.sum := by
                intro ts rows Bs h1 h2
                induction h1 generalizing Bs with
                | nil => cases h2; simp
                | @cons n r ns rs hr _ ih =>
                  cases h2 with
                  | @cons _ b _ bs hb hbs =>
                    intro B hB
                    rcases List.mem_cons.1 hB with rfl | hB
                    · exact (rowForward_eq hlin hone hr hb (x := List.replicate n 0) (by simp)).2.1
                    · exact ih bs hbs B hB
              exact key ts rows _ hrest hBs' B'' hmem
            have hW : ∀ (l : List Mat) (W : Mat) (k : Nat), (∀ B ∈ l, B.length = k) →
                cat1 l = .ok W → W.length = k := by
              intro l
              induction l with
              | nil => intro W k _ h; simp [cat1] at h
              | cons m l ih =>
                intro W k hk h
                cases l with
                | nil => simp [cat1] at h; subst h; exact hk m (by simp)
                | cons m' l =>
                  rw [cat1_cons_cons] at h
                  cases hc : cat1 (m' :: l) with
                  | error e => simp [hc, bind, Except.bind] at h
                  | ok r =>
                    have := ih r k (fun B hB => hk B (List.mem_cons_of_mem _ hB)) hc
                    simp only [hc, bind, Except.bind] at h
                    split_ifs at h
                    simp [pure, Except.pure] at h
                    subst h
                    simp [this, hk m (by simp)]
            rw [hsh.1, hW _ W _ hall hc]
          simp only [hWl, if_true, pure, Except.pure]
          congr 1
          have := matVec_zipWith_append B W (x.take t) (x.drop t) hWl
            (fun r hr => by rw [htl]; exact hsh.2 r hr)
          rw [List.take_append_drop] at this
          rw [this, vadd_assoc]

end

end Aihw.TileArray

import Verif.Conv.Props6

/-!
# Mapped analog convolutions

Models `_AnalogConvNdMapped` (src/aihwkit/nn/modules/conv_mapped.py): splitting of the channels over several
tiles, `set_weights`, `get_weights`, and the forward pass.  Simplifications as in `Conv.Model`; the weight is a
list of `out_channels` rows of `in_channels * kernel_elem` entries; the bias is digital or absent.
-/
namespace Aihw.Conv

/-- `get_split_sizes` (conv_mapped.py:121-151). -/
def splitGroups (size : Nat) (maxSize : Int) (group : Nat) : Except PyErr (List Nat) :=
  if group = 0 then .error .zeroDivision
  else if maxSize ≤ 0 then .ok [size / group]
  else if maxSize < group then .error .moduleError
  else
    let per := size / group
    let mx := maxSize.toNat / group
    let n := (per + mx - 1) / mx
    if n = 0 then .error .zeroDivision
    else .ok ((List.range n).map fun i => per / n + (if i < per % n then 1 else 0))

/-- The layer (conv_mapped.py:84-100): channels, dimensions, 2-d or not, split sizes, bias. -/
structure MLayer where
  C : Nat
  O : Nat
  ks : List KDim
  two : Bool
  ins : List Nat
  outs : List Nat
  bias : Option (List ℚ)

/-- Constructor (conv_mapped.py:81-100): an analog bias is rejected. -/
def MLayer.make (C O : Nat) (ks : List KDim) (two : Bool) (maxIn maxOut : Int) (digital : Bool)
    (bias : Option (List ℚ)) : Except PyErr MLayer :=
  if bias.isSome && !digital then .error .analogBias
  else if C = 0 then .error .zeroDivision
  else match splitGroups (C * (ks.map (·.k)).prod) maxIn (C * (ks.map (·.k)).prod / C) with
    | .error e => .error e
    | .ok ins => match splitGroups O maxOut 1 with
      | .error e => .error e
      | .ok outs => .ok ⟨C, O, ks, two, ins, outs, bias⟩

/-- Start of part `i` of a split. -/
def off (sizes : List Nat) (i : Nat) : Nat := (sizes.take i).sum

/-- Number of kernel elements of the layer. -/
def MLayer.K (l : MLayer) : Nat := (l.ks.map (·.k)).prod

/-- The convolution of tile `[i, j]` as a layer of its own. -/
def MLayer.sub (l : MLayer) (i j : Nat) : Layer := ⟨l.ins.getD i 0, l.outs.getD j 0, l.ks, false, l.two⟩

/-- Channels `o, ..., o + s - 1` (`torch.split` along dimension 1, conv_mapped.py:202, 253). -/
def chans (x : Img) (o s : Nat) : Img :=
  ⟨x.N, s, x.sizes, (List.range (x.N * (s * x.sizes.prod))).map fun e =>
    x.data.getD ((e / (s * x.sizes.prod) * x.C + o) * x.sizes.prod + e % (s * x.sizes.prod)) 0⟩

/-- Part `i` of the input. -/
def MLayer.part (l : MLayer) (x : Img) (i : Nat) : Img := chans x (off l.ins i) (l.ins.getD i 0)

/-- State: remembered input size and, once indexed, the indices of every input part and the output
image size. -/
structure MSt where
  size : Nat
  idx : Option (List (List Nat) × List Nat)

/-- `_recalculate_indexes` if necessary (conv_mapped.py:186-208, 236-239): the size is remembered before the
checks that may fail. -/
def MLayer.refresh (l : MLayer) (st : MSt) (x : Img) : MSt × Except PyErr (List (List Nat) × List Nat) :=
  match st.idx with
  | some r =>
    if st.size = x.data.length / x.N then (st, .ok r)
    else if l.ins.sum = x.C then
      match (List.range l.ins.length).mapM fun i => (l.sub i 0).indexes (l.part x i) with
      | .error e => (⟨x.data.length / x.N, st.idx⟩, .error e)
      | .ok f => (⟨x.data.length / x.N, some (f, ((l.sub 0 0).dims x.sizes).map Dim.out)⟩,
          .ok (f, ((l.sub 0 0).dims x.sizes).map Dim.out))
    else (⟨x.data.length / x.N, st.idx⟩, .error .runtimeError)
  | none =>
    if l.ins.sum = x.C then
      match (List.range l.ins.length).mapM fun i => (l.sub i 0).indexes (l.part x i) with
      | .error e => (⟨x.data.length / x.N, st.idx⟩, .error e)
      | .ok f => (⟨x.data.length / x.N, some (f, ((l.sub 0 0).dims x.sizes).map Dim.out)⟩,
          .ok (f, ((l.sub 0 0).dims x.sizes).map Dim.out))
    else (⟨x.data.length / x.N, st.idx⟩, .error .runtimeError)

/-- Entry `[n, o, w]` of `cat(..., 1)` of blocks `[N, size, m]` (conv_mapped.py:265-268). -/
def pick (m : Nat) : List (Nat × List ℚ) → Nat → Nat → Nat → ℚ
  | [], _, _, _ => 0
  | (s, y) :: bs, n, o, w => if o < s then y.getD ((n * s + o) * m + w) 0 else pick m bs n (o - s) w

/-- The bias added to output channel `o` (conv_mapped.py:270-273). -/
def MLayer.biasOf (l : MLayer) (o : Nat) : ℚ :=
  match l.bias with
  | none => 0
  | some b => b.getD o 0

/-- The outputs of all tiles, `[i][j]` (conv_mapped.py:255-264). -/
def MLayer.tiles (l : MLayer) (T : Nat → Nat → Nat → List ℚ → Nat → ℚ) (f : List (List Nat)) (m : Nat) (x : Img) :
    Except PyErr (List (List (List ℚ))) :=
  (List.range l.ins.length).mapM fun i => (List.range l.outs.length).mapM fun j =>
    forwardIndexed (T i j) (f.getD i []) (l.part x i).data (l.sub i j).xs (l.sub i j).O m x.N

/-- Indexed `forward` (conv_mapped.py:229-273): one tile gets the input as it is, several tiles get its
parts, and the results are joined along the output channels and summed over the parts. -/
def MLayer.forwardI (l : MLayer) (T : Nat → Nat → Nat → List ℚ → Nat → ℚ) (st : MSt) (x : Img) :
    MSt × Except PyErr (List Nat × List ℚ) :=
  if x.N = 0 then (st, .error .zeroDivision)
  else match l.refresh st x with
    | (st', .error e) => (st', .error e)
    | (st', .ok r) =>
      if l.ins.length = 1 ∧ l.outs.length = 1 then
        (st', (forwardIndexed (T 0 0) (r.1.getD 0 []) x.data (l.sub 0 0).xs l.O r.2.prod x.N).map fun y =>
          (x.N :: l.O :: r.2, (List.range (x.N * l.O * r.2.prod)).map fun e =>
            y.getD e 0 + l.biasOf (e / r.2.prod % l.O)))
      else if l.ins.sum = x.C then
        (st', (l.tiles T r.1 r.2.prod x).map fun ys =>
          (x.N :: l.O :: r.2, (List.range (x.N * l.O * r.2.prod)).map fun e =>
            (ys.map fun row => pick r.2.prod (l.outs.zip row) (e / (l.O * r.2.prod)) (e / r.2.prod % l.O)
              (e % r.2.prod)).sum + l.biasOf (e / r.2.prod % l.O)))
      else (st', .error .runtimeError)

/-- The weights of tile `[i, j]` (`set_weights`, conv_mapped.py:289-302). -/
def MLayer.tileWeight (l : MLayer) (W : Mat) (i j : Nat) : Mat :=
  ((W.map fun row => (row.drop (off l.ins i * l.K)).take (l.ins.getD i 0 * l.K)).drop (off l.outs j)).take
    (l.outs.getD j 0)

/-- `get_weights` of tiles with weights `V i j` (conv_mapped.py:318-325): rows joined over `j`, then columns over
`i`. -/
def MLayer.getWeight (l : MLayer) (V : Nat → Nat → Mat) : Mat :=
  (List.range l.O).map fun o => (List.range l.ins.length).flatMap fun i =>
    (((List.range l.outs.length).flatMap fun j => V i j).getD o [])

end Aihw.Conv

# Formal model of IBM/aihwkit in Lean 4 — design

## 1. Approach

* Everything under `/verif/lean/Verif/<Area>/` is a Lean 4 model of part of the repository:
  * `Model.lean`  – total, (almost always) computable functions, one per function of the code, each with a
    comment citing file and lines in `/repo` and every simplification made;
  * `Lemmas.lean` – helper lemmas;
  * `Props.lean`  – the specification (small, independent of the model's helpers) and the property theorems,
    each followed by an `example` showing that its hypotheses are met by a concrete non-trivial case.
* Exceptions of the Python/C++ code are values (`Except PyErr α`). Objects are structures, a mutating method is a
  function to the new structure. Loops are recursion on lists / fuel whose sufficiency is proved.
* Randomness: every call of a random generator is an explicit argument (a value, a list or a function of
  draws), universally quantified in the theorems, constrained only by the support the generator documents.
* Numbers: values are rationals `ℚ` (every finite float is a rational) with exact arithmetic; `ℝ` where the code
  uses `log`, `exp`, `**` with non-integer exponents. Floating-point rounding, NaN and infinities are *not* modelled.
  Where the code would divide by zero (torch: NaN/inf; Python: ZeroDivisionError) the model returns an explicit error
  value so that no theorem is true merely because Lean defines x/0 = 0.
* Tensors: lists (1-d) and lists of lists (2-d, row major). A batch is treated one sample at a time except where an
  operation mixes samples.

## 2. Trusted base

* Lean 4.33.0 kernel. Axioms used: at most `propext`, `Classical.choice`, `Quot.sound` (listed per theorem in
  `AXIOMS.md`, generated by `tools/axioms.sh`). No own axioms, no `native_decide`, no `bv_decide`.
* Faithfulness of the hand-written model: read against the cited lines; the code is not executed.
* Assumed behaviour of external libraries: `torch.clamp/max/abs/cat/split/round (half to even)`, `numpy.interp`,
  `sklearn LinearRegression` (1-d least squares with intercept, coefficient 0 for constant regressor),
  `csv`, Python dict ordering, `deepcopy` as value copy.
* CUDA (area `Gpu` only): 32/64-bit unsigned arithmetic and shifts, `__popc`, `atomicOr` as an atomic or (so the
  order of the threads does not matter), `cub` prefix sums, every thread draws its own numbers in (0, 1]; the
  assignment of positions to threads is the strided loop that visits each position once.

## 3. Per-property plan

See the table below (kept up to date with MANIFEST.json).

| id | model | proof idea |
|----|-------|-----------|
| C01 | `TileArray.Model.getSplitSizes` | arithmetic on div/mod, induction on list of sizes |
| C02 | `setWeights/getWeights` of tile array over abstract tiles | induction over the split lists, take/drop algebra |
| C03 | `forward` of tile array | dot product additivity over append, induction |
| C04 | `QArray` forward with attribute table | case analysis; error for every input |
| C05 | `UniformQuantize` on ℚ, `roundHalfEven` | rounding lemma |x - round x| ≤ 1/2, monotonicity |
| C06 | `_prepare_input`, `_finalize_output` | clamp lemmas |
| C07 | BM loop with fuel | fuel sufficiency by 2^k growth; first-passing-round characterisation |
| C08 | `matmul` with ideal chain | scale cancels |
| C09 | `matmul` perfect branch, `check_support` | equality; iff |
| C10–C13 | tile state machine (weights, bias, mapping scales, learned scales) | algebra per row; invariants |
| C14 | forward with periphery | algebra |
| C15 | update with periphery | algebra |
| C16 | input range state machine | induction over batches |
| C17 | program_weights with unbound-local semantics | case analysis |
| C18 | inference tile state machine | induction over histories |
| C19 | drift compensation | algebra on mean of abs |
| C20–C22 | converters | clamp algebra, telescoping sum, interpolation on grid |
| C23 | `Fusion.*`: converter, layers of periphery tiles, CSV rows | regression algebra; induction over tiles and layers with offsets into the data |
| C24 | noise models over ℝ | clamp, rpow monotonicity |
| C25–C26, C43 | `Optim.Model`: groups, records, abstract tile world that may raise | list induction, conservation invariant over command histories |
| C27 | `Optim.Context`: storages, tensor objects, three modes, arbitrary torch functions | separation invariant over op sequences; non-interference by a masking simulation |
| C28, C44 | `State.*`: state dictionaries of models with abstract simulators, configuration heap, torch tensor loading; instantiated with the pulsed device model; optimizer histories across a load | induction over tiles; bisimulation of the reloaded device; invariants over training histories |
| C29 | `Convert.*`: heap of module objects, traversal shared by both directions | induction on recursion depth with a path-wise invariant; frame lemma for deep copies |
| C30, C37, C48–C50 | `Quant.*`: quantizers, range estimators, manager, quantised layer with parameter cache, range calibration as a state machine of calls that may raise | rounding lemmas; fold characterisation; invariants and bisimulation over call sequences |
| C52, C53 | `Pulsed.Buffered`: `BufferedTransferRPUDevice`, `ChoppedTransferRPUDevice` over the base transfer cycle (virtual methods as a record), ghost list of reads | invariants over update histories, simulation between the classes |
| C54 | `Pulsed.Dynamic`: `DynamicTransferRPUDevice` with running and past means, chopper flags, warm-up | invariants and a shift simulation over update histories |
| C55 | `PyTransfer`: `TransferSimulatorTile.update` over arbitrary inner tiles (update and read operations with explicit draws), counters, choppers, buffers, reload | invariants over update histories; simulation for resuming |
| C56 | `Conv`: index tensors of `_calculate_indexes`, remembered input size, indexed forward, backward and update of the C++ simulator over flat tensors, arbitrary tile per column | index arithmetic (flat/div/mod), invariant over histories of forward passes, fold of the scatter-add |
| C57 | `Conv/Mapped*`: `get_split_sizes`, remembered size and indices per part, forward over the tile grid, `set_weights`, `get_weights` | splits reduce to C01; each tile pass reduces to the C56 lemmas; sums over parts regrouped into sums over channels |
| C58 | `Rnn`: the four cells over batches with broadcasting, uni-, reverse and bidirectional layers, stacks with dropout, `AnalogRNN.forward`; tiles are arbitrary functions with an environment that may raise | recurrences as functions of time, induction over sequences and stacks, one simulation lemma for shapes and for batch independence |
| C59 | `Pulsed.MixedPrec*`: `MixedPrecRPUDevice` (quantised accumulation, transfer schedule, row writes through the modelled pulse trains and devices, statistics, setting weights, hidden weights) | conservation invariant over updates, per-cell pulse lists, closed form of the update management over ℝ |
| C60 | `Container`: `AnalogLayerBase`/`AnalogContainerBase` on a heap of module objects (sharing, cycles), torch's `named_modules` as depth first search | search invariant (closed set of visited objects), injectivity of dotted names, one specification of loops over tiles |
| C61 | `CppFwd`: `forwardVector`/`backwardVector` with noise management over an arbitrary ordered field with floor; random numbers of every round are arguments | closed form `forward_form` of the loop result (round, scale), linearity of every pass, induction over calls for the average |
| C62 | `CppFwd`: the bound-management loop with reductions and limits | loop specification with minimal round, doubling against the limit for termination |
| C63 | `CppFwd`: converters, IR drop, voltage offsets, weight noise, non-linearity, parameter initialisation | element-wise relations written independently of the model (`Rounds`, `Clips`, `Scales`, `saturate`, `series`, `dropPoly`) |
| C64 | `CppFwd.Torch`: translation of python parameters, data and draws into those of the C++ model | element-wise equality of all stages, then equality of rounds, limits and loop results |
| C65 | `Pulsed.Vector`: policies, weighted sum, writes, reference cell | invariant `Synced` over histories; `turnShare` (cyclic turns) by induction; per-device reuse of the C33 step lemmas |
| C66 | `Pulsed.OneSided`: routing of pulses, refresh with read/reset/write, `copy_inverted` | invariant `Paired`; refresh cell by cell (`RefreshedTo`) through the column loop; monotone pulses from C46 |
| C67 | `Wpo.Model`: `denormalize` with its table of conductances, cube dimension, grid | loop invariants (`column_spec`, `fill_spec`); round trip from C22's characterisation |
| C68 | `Wpo.Objective`: loss, baseline, `run_optimizer`, interpolation of the sorted weights | algebra over an ordered field; sortedness of the merge sort |
| C69 | `IrDrop.Model`: `splitInput`, `bitInputs`, `compute` without IR drop | induction over the bits, floor arithmetic |
| C70 | `IrDrop.Model`: Thevenin chain, segments, time grid, integration, padding, pairs, read-out modes, C++ kernel | induction over the chain (affine form), counting of time steps, geometric sums |
| C71 | `FloatPrec.Model`: bit operations of the cast, op checks, IEEE value of a bit pattern | bitwise operations as arithmetic, magnitude strictly monotone in the bit pattern, nearest-point argument on the significand |
| C72 | `Linalg.Model`: AnalogMatrix over `Periphery` tiles or a `TileArray` of them; products, transposed products, `ger`, matrix operands | invariant of the reachable tiles (stored weights times scales = expected matrix), C14 for products, C02/C03 for arrays |
| C73 | `Extra.Model`: `dumpExtra`/`loadExtra` of tiles, analog passes, updaters, single devices, vector / transfer / chopped / dynamic cells, mixed precision, over string-keyed maps visited in an arbitrary order; `get/set_forward/backward_parameters` | explicit content of the dump (first key segments keep layers disjoint), loads evaluated on it; segment argument for the substring search |
| C74 | `Bind.Model`: `get_bindings_class`, `parameters_to_bindings`, `tile_parameters_to_bindings`, all `as_bindings` of compounds with the C++ `appendVecPar`; the compiled library is a parameter (`Lib`) | attribute paths in `Bind.Spec`; induction over the path and over the field list; exact acceptance as an iff; device lists by `Forall₂` |
| C75 | `Pulsed.Pmax`: `SoftBoundsPmaxDevice.as_bindings` over ℝ, composed with `populateCell`, `populateLinear`, `train` | closed form from `C46_soft_bounds_train`; comparison with the documented exponential by `1 - s ≤ exp(-s)` |
| C76 | `State.Compound`: `restoreSim` instantiated with `VPar`, `OPar`, `MPar` | unfolding `restoreSim`, `setHid_vis`, `onSet_off` |
| C77 | `Info`: module trees, hook registration, hook execution over arbitrary call lists, reuse factor, utilisation | structural induction on trees; induction over calls and hooks; C01 for the splits |
| C78 | utils/legacy.py with Python string methods over character lists, tile states as dictionaries, the touched attributes of configurations | lemmas on split/replace at dots; per-entry specification proved from the code for arbitrary module paths and numbers; folds over the checkpoint; totality under a legitimacy predicate |
| C79 | cloud/converter/v1/training.py, mappings.py: messages, constructors with their defaults, both directions | tables checked class by class by the kernel, per-item write/read lemma, then induction over the children |
| C80 | cloud/converter/v1/inferencing.py, i_mappings.py, rpu_config_info.py | shared item lemma, common configuration name by flattening the written attributes, error propagation through the loop |
| C81 | rpu_config_from_info with message constructors, NoiseModelInfo, create_inference_rpu_config | equivalence of every field with a relational reading of the dictionaries; induction over the keys of the analog dictionary |
| C82 | result converters and the two settings readers | relational reading of dictionaries, induction over results, keys and metrics |
| C83 | the epoch, batch and hook loops and the metric hooks over an arbitrary network machine | induction over batches, epochs and emitted signals |
| C84 | the time, batch and repeat loops with numpy's logspace, reshape, mean and std, and the metric hooks, over an arbitrary network machine in the reals | induction over batches, times and repeats; invariant of the flat result arrays |
| C85 | get_model and download on an explicit world of files and servers | case analysis, induction over calls, C78 |
| C86 | heap of modules, tree with shared nodes, Module.apply order, all functions of quantization_states | induction on the tree for the visited set, folds of idempotent updates, induction over calls |
| C87 | flat memory, row-major gemm/gemv/ger, bias buffers as loops of memcpy, dispatch of forward/backward/update, tensor bindings | cell-wise lemmas for gemm, loop invariants for the bias buffers, case analysis over layouts |
| C88 | RPUPulsed::updateVector/updateMatrix with gradient memory over an arbitrary device, binding, AnalogFunction.backward | unfolding, field arithmetic, C87, induction over histories |
| C89 | tiles over the device models of Pulsed: RPUSimple, SimpleRPUDevice, PulsedRPUDevice, vector, transfer and mixed-precision cells; requires_* and post_update_step | closed forms by induction over histories, column arithmetic |
| C90 | memory with addresses; wrapper holding tile pointer, bound tensor, parameter and context; construction, set_weights, in-place operations, optimizer steps, data assignment, passes, __setstate__, deepcopy, each with its state after an exception | invariant over all histories; refinement to a single matrix; frame and separation for two tiles |
| C91 | row pointers on a flat memory, setSharedWeights and setDeltaWeights | invariant over histories; exact characterisation of the missed case |
| C92 | objects as trees with identities; deepcopy, __dict__.update and dataclass construction; the return expressions of the branches as expressions with an evaluator | induction over expressions and values; a separate table of settings per algorithm |
| C93 | heap of configuration and part objects; tiles with their references, copied bindings and cache; calls as steps that also report the settings used | invariants over all histories (disjoint part objects, cache = what an observer of the calls remembers), frame lemmas per call |
| C94 | words as BitVec 32, memory as a function, a launch as any permutation of its stores | bits of every word from the loops, injectivity of the positions, counting over 32-bit blocks |
| C95 | words as BitVec 64, atomicOr in any order | bit p of word u of a line = slot (32u+p - Kc b) of sample b, uniqueness of b by the prefix sums, then concatenation |
| C96 | loop state (weight, pending count, pending sign) | invariant: weight after the pending steps = steps so far; merging of limited steps of one sign; no limit reached if neither all up nor all down steps reach a bound |
| C97 | client monad over a log of requests with the service as an oracle of the log | every operation as a list of requests and conditions on the replies; induction over histories for order, token and status |
| C98 | double buffers, shared and global memory with one atomic operation per thread in any possible order; a reduction is generic (max, sum) | commutative folds are independent of permutations; invariant over histories on which buffer is initialized for which samples |
| C99 | arrays as functions of an index, kernels as loops over permuted index lists shown to be maps, matrix products per layout with `gemm` leading dimensions, the state of the `InputOutputManager` between rounds | each kernel commutes with the view of a sample; induction over rounds with the state before each round determined by the recursion of scales; equality with the CPU model of C62 |
| C51 | `QConvert.*`: module trees with object identities, quantization map, `quantize_model`, `enable_quant_states` | mutual induction over trees, path-wise invariant along visited paths |
| C31, C32 | bias layout, clipping | list algebra |
| C38–C40 | aliasing heap of tile tensors; update/gradient paths of the periphery | invariants over histories |
| C41, C42 | custom tile, weight modifiers of both back ends; on the GPU the kernels with their loop, the state of the modifier (size of the maximum, coefficients) over any history, PCM noise, copies and checkpoints of tiles (Verif/GpuMod) | algebra, state invariants; equality of the GPU with the CPU model entry by entry; induction over histories |
| C12, C32, C47 (GPU) | `GpuPost`: weight clipper, remapper and drifter on the device: kernels over column-major memory in any thread order, tile dispatch, saved drifter states as dictionaries with prefixes | equality with the CPU models `PostUpdate`, `Pulsed.Drift` element by element; direct statements on logical weights, bounds, total time; types of remapping Python cannot select and weight averaging are not modelled |
| C35 (GPU) | `GpuPulse`: update-management kernel, what `makeCounts` and the pulse-drawing kernels make of its scales and lengths, implicit pulses | per sample and layout equality with the CPU's `performUpdateManagement`, `generateCounts` and `generateDetImplicit`; the exception stated exactly |
| C89 (GPU) | `GpuDecay`: transposed parameters of a pulsed device on the GPU, the kernels of decay, diffusion, clipping and reset with their pointers and passes, the write noise after them | each kernel's loop is a map over cells; column arithmetic of the wrap-around; formulas per cell of the CPU's device |
| C33–C35, C45–C47 | `Pulsed.*`: C++ device layer (cells, pulses, bit-line makers, update scaling, transfer compound, drift) over a generic linearly ordered field with floor (ℝ for sqrt/exp/expectations) | invariants by induction over pulses/histories; list algebra; measure theory for the expected update |
| C36 | `Calib.*`: `calibrate_input_ranges` with hooks, over arbitrary traces of tile calls and exceptions | projection to one tile, fold characterisations per type |

## 4. Findings (places where code and documentation / expectation disagree)

Collected while modelling. A theorem is named where one states it; the others are observations from reading.

**Tile arrays, MVM**
* `QuantizedTileModuleArray` with a single tile: attribute error in every forward (C04); with a quantized bias and
  `learn_quant_params`: attribute error in the constructor (`self.device`, C04_learned_bias_quant_raises).
* `get_split_sizes(0, m>0)`: division by zero (C01).
* `bm_test_negative_bound` ignored, asymmetry also applied in ONE_PASS mode, `mv_type IDEAL` rejected by
  `check_support`; torch tile ignores the magnitude of `out_noise_std` when `out_noise_values` is given (C05–C09).
* An all-zero batch short cuts the MVM and drops output noise; MAX noise management with sample maximum 0 gives 0.

**Periphery**
* `program_weights` of training tiles: second call / explicit `x_values` raise UnboundLocalError; all-zero target
  divides by zero (C17).
* `set_mapping_scales(float)` is a no-op; omega ≤ 0 leaves stale scales; remap with omega None squares scales;
  `mapping_lr_scale` is not reset by `set_scales(None)`; scale tensors are shared by reference (C10–C13, C38).
* analog bias is multiplied by the input range; the digital bias is overwritten before a failing weight check;
  `get_weights` returns a live alias of the digital bias (C11, C31).
* `set_input_range` is overwritten by the first training batch (C16); `gradient_scale` ignored without
  `gradient_relative`; output percentage uses the wrong divisor (C40).
* custom tile `set_weights_uniform_random` leaves its range (C41).
* fixed-value clip with a negative value overwrites all weights; layer-Gaussian clip zeroes constant matrices (C32).

**Modifiers, remapping**
* stale modified weights in the C++ tile; DISCRETIZE step differs by factor 2 between back ends; MULT_NORMAL is
  scaled by max only in C++; torch DISCRETIZE of all-zero weights is 0/0 (C42).

**Inference**
* `set_weights` does not reset programmed weights, alpha is never reset, the reference is not refreshed by training
  (C18); `in_trans` with compensation always raises (typo `tranpose`); per-column compensation broadcasts over the last
  dimension for images (C19); NPair check uses max instead of min, zero factor divides by zero (C21); five-point
  invertibility test incomplete (C22); noise models: t ≤ 0 raises, both coefficient arguments → attribute error, Wan
  reference ignored, CMO negative conductances / NaN (C24).

* fusion import: constant rows become zero, an analog bias is multiplied by the output scales (read scaled, written
  unscaled), two-matrix converters can be exported but not imported, failing imports are not atomic (C23).

**Optimizer, context, conversion**
* regrouping drops per-group options of analog parameters; duplicate context raises ValueError (C25); `zero_grad` keeps
  analog gradients; indexed update retried after a failure applies pairs twice (C26); context views / copies are
  writable aliases of tile memory (C27); the class registry is keyed by class name (C43).
* conversion: a module object registered twice is dropped from a converted `Sequential` (C29_shared_dropped), elsewhere
  untied (C29_shared_untied); the root wrapper class is keyed by class name (C29_wrapper_by_name); converted modules
  come out in training mode even if the model was in evaluation mode (part of C29_converted).

**Digital quantizers**
* per-channel view built once and surviving reset (C30_rank_change); one-bit signed grid divides by zero
  (C30_one_bit_signed); per-tensor percentile cuts one end only (C37_percentile_upper_end); golden-section search ignores
  the batches between (C37_golden_last_batch); `one_sided_dist` survives reset (C37_mse_reset_keeps_sign); managers with
  explicit range raise AttributeError in forward (C48_explicit_range_unusable); parameters cached in evaluation mode
  survive loads and weight changes (C49_stale_cache).
* `convert_to_quantized`: second name of a shared child stays unquantised (C51_shared_child); `QuantConv2d` ignores the
  padding mode (C51_conv_padding_mode); LayerNorm without parameters raises; new layers are in training mode and
  trainable even if the original was frozen (C51_torch_layer); the root never gets an input wrapper.

**Calibration**
* floating point tiles get their input range switched on with `init_value` 3.0 and clip from then on
  (C36_float_tile_clipped); with `force_all_layers=False` one switched-off tile makes every calibration end in KeyError
  (C36_disabled_tile_raises); tiles without input stay perfect (C36_unused_tile); one all-zero batch aborts
  (C36_all_zero_batch); nothing is undone on failure, so leftover hooks count batches twice (C36_failure_not_undone);
  quantiles are of signed values (C36_signed_quantile); the analog parameter is replaced (C36_parameter_replaced);
  moving types do not record their result (C36_moving_quantile); noise management is not restored; submodules in
  evaluation mode come out in training mode (C36_flags).
* Buffered/chopped transfer: `set_weights` leaves buffers and choppers (C52_set_weights_keeps_buffer);
  `transfer_tmp_` is sized `d_size` although row transfer reads `x_size` values (C52_layout); the visible weight of a
  chopped compound takes the chopper of flat index k from k / d_size, k % d_size although weights are row-major
  (C53_visible_weight_finding); flips of the output chopper are not undone for the other slices; a negative
  `transfer_every` makes the last device's self transfer read the fast device a second time; the documented identity
  with the buffered class needs equal thresholds (`thres_scale * granularity(slow)` versus
  `buffer_granularity * granularity(fast)`); the move assignment of the buffered class moves the buffer to itself
  (rpu_buffered_transfer_device.cpp, not modelled).
* Dynamic transfer: steps requested during the warm-up are lost (C54_warmup_loses_steps); `in_chop_random` adds to the
  regular switching instead of replacing it and `in_chop_prob = 0` chops every second read on the CPU, where
  `checkSupported` is never called (C54_switching); `momentum` is not clamped unlike in the parent classes.
* Analog convolutions: an input of another shape with as many elements as the last one is evaluated with the old shape,
  output size included (C56_stale_finding); with indexing the number of input channels is not checked: more are silently
  skipped or ignored, fewer make the C++ code read out of bounds (C56_channels1d, C56_channels2d); backward pass and
  optimizer step use the indices of the latest forward pass, e.g. of an evaluation with another image size before
  `step()` (C56_latest_finding; numbers in `Conv/Examples.lean`). Observed only: `AnalogConv*` append `C * L` instead of
  `L` ones for the analog bias (harmless).
* Mapped convolutions: `_recalculate_indexes` stores the input size before the checks that may fail; after a rejected input,
  inputs with that number of elements are processed with the indices of the last accepted one (C57_failed_finding; numbers in
  `Conv/MappedExamples.lean`). The stale-shape exception of C56 applies too. Observed only: the tiles are called without
  `tensor_view`, so learned output scales are applied along the last dimension instead of the channels.
* Recurrent layers: a bidirectional layer iterates `zip(directions, states)` and silently returns half of the features when
  given one state (C58_bidir_states); sequences of length zero raise in `stack` (C58_empty); `num_layers = 0` builds one layer
  (C58_layers). Observed only: `AnalogGRUCell` without `rpu_config` uses `InferenceRPUConfig` although a native torch model is
  documented; unbatched `[T, F]` inputs are taken as batches of `F` samples.
* Python transfer tile: `update` multiplies the caller's input by the choppers in place (C55_input_modified); `forget_buffer`
  stores the constant `momentum` instead of `momentum * H` (C55_forget_finding); `transfer_every = 0` raises
  `ZeroDivisionError` after the gradient update (C55_zero_period); `transfer_lr`, `scale_transfer_lr`, `thres_scale`,
  `scale_fast_lr`, `gamma` and the `desired_BL` clip are ignored; row transfer raises `IndexError` for rows beyond the number
  of columns (C55_row_transfer); columns other than 0 switch at their first read (C55_regular_chopper); the counters are not
  in the `state_dict` (C55_resume_finding).
* `calibrate_quantization_ranges` uses one batch more than asked and leaves the model in evaluation mode (C50).

**Checkpoints**
* `load_rpu_config` / strict flags stay in force for later loads (C28_flags_sticky); `mapping_lr_scale`, programmed
  weights and drift state are not saved (C28_unsaved_attributes, C28_lr_compensation_lost, C28_drift_*); a
  hidden-parameter mismatch destroys weights and configuration before it raises (C28_hidden_mismatch); scales the
  destination has registered as None are dropped (C28_dropped_tensor); configurations are shared without a file
  (C28_config_shared); alpha of a drifted, compensated model does not fit a fresh model (C28_alpha_shape); persistent
  weights, `dw_min` and fast transfer devices (C28_persistent_lost, C28_step_replaced, C28_transfer_fast_lost).
* A load replaces the analog parameter: optimizers built before it silently stop updating the tile
  (C44_stale_optimizer), old gradients are applied to the new weights (C44_old_gradients_applied).
* Observed only: an `InferenceRPUConfig` destination accepts `TorchInferenceTile` states but not vice versa.

**C++ devices**
* dense pulse types ignore a negative learning rate's sign (C45_dense_sign_lost); `x_res >= 2` yields no pulses
  (C45_res_steps_no_pulses); `clip_weights` can move a weight out of its range (C33_clip_escapes); the floating-point
  update of NoneWithDevice is lost with write noise (C33_none_with_device_lost); persistent hidden weights cannot be
  restored (C33_set_hidden_drops_persistent); pow-step-reference jump (C46_powref_jump); default transfer period uses
  output size (C34_default_period_finding); cancelling gamma (C34_cancelling_gamma); fully hidden + write noise
  (C34_hidden_persistent_kept); changed weight not drifted for one interval (C47_restart).
* Observed only: `RPUPulsed::setLearningRate(negative)` raises after the rate changed; ExpStep granularity uses
  `(dw_down + dw_down)/2`; `copyInvertDeviceParameter` inverts its own parameters; Exp/Piecewise are not mirrored on
  invert; `n_vec > 1` reads with reset clear later columns before they are read.
* Mixed precision: exactly one of `n_x_bins`/`n_d_bins` positive writes `qd_[i]` instead of `qd_[j]`, so only row
  `x_size - 1` learns, out of bounds for more columns than rows (C59_one_quantised_finding); one bin divides by zero
  (C59_single_bin_finding); step counts above `desired_bl` are taken from the accumulator but not written
  (C59_long_transfer_finding); the reported sparsity is the fraction of cells with both factors zero
  (C59_sparsity_finding); the first transfer happens one vector late (C59_cyclic); with `transfer_lr ≠ 1` the accumulator is
  reduced by whole steps while the write is scaled (C59_conserve, C59_weights).
- Containers: `set_weights` is not atomic and ignores further entries (C60_set_weights, C60_set_weights_raises);
  `program_analog_weights` raises TypeError for tiles without `noise_model` argument (C60_program); `analog_tile_count` is cached
  for ever (C60_tile_count); `load_state_dict` deletes entries from the dictionary of the caller and drops `strict` (C60_load);
  the check `word not in exclude_params` of `prepare_for_ddp` compares words with parameter names (C60_ddp_finding); drift and
  programming look at the training flag of the root only (C60_drift).
* C++ passes: forward and backward pass share the variable of the average noise management (C61_average); NM `Max` with a
  non-positive maximum outputs zeros; the backward shortcut for a zero value ignores `inp_noise` while the forward one does not
  (C61_backward); with `bm_test_negative_bound = false` an output below the bound erases earlier overflows
  (C62_negative_forgets); worst-case bound management without noise management repeats the round (C62_worstCase_repeats);
  input and output asymmetries are applied in one-pass mode although documented for separate passes only; the IR-drop profile
  spares input 0 instead of the farthest (C63_ir_drop); a wrong-size `out_nonlinearity` vector is silently replaced while a
  wrong-size `v_offset` vector raises (C63_nl_vector_ignored, C63_init); the output-noise branch is always taken, so a negative
  `out_noise` is applied. Observed only: the copy constructor of the pass does not copy `aux_nm_value_`.
* Vector unit cells: updates with pulse type `None`/`NoneWithDevice` are lost because the visible weights are recomputed
  (C65_fp_update_lost); `set_hidden_update_index` is unchecked (C65_index_unchecked); a reference cell does not read back what
  was written (C65_reference_offset); write noise is baked into devices that are not written (C65_set_bakes_noise).
* One-sided unit cells: the refresh with deterministic pulse types writes downwards (C66_refresh_direction), raises with
  write noise (C66_refresh_raises), and `copy_inverted` mirrors the own parameters of `g+` (C66_copy_inverted).
* Time-dependent IR drop: trapezoidal integration (default) reads every non-zero input half a time step too long, by a factor 1.5 in
  bit-wise mode (C70_modes); bit-wise mode loses inputs for resolutions not of the form `1/(2^N-2)` (C69_bits_lost); tiles with an odd
  number of columns or with one row less than the physical rows raise (C70_odd_columns, C70_one_missing).
* Bindings (C74): `get_bindings_class` builds a `ConfigError` without throwing it when the class is missing (`C74_missing_class_silent`); misspelt
  attributes of the tile configuration are not reported (`C74_tile_typo_silent`); `TransferCompound` ignores the third and later devices.
* `SoftBoundsPmaxDevice` (C75): the documented relation between `p_max`, `range_max` and the slope does not hold (`C75_overshoots`).
* CPU tiles do not restore the state of the weight modifier (rpu.cpp:457-467 loads the modified weights but never calls `fb_weight_modifier_->loadExtra`): after a checkpoint, evaluation uses the true weights although `enable_during_test` was set; copies forget it too (rpu.cpp:315-316, rpucuda.cu:122-126), a tile moved to the GPU loses the modified weights (C42_checkpoint, C42_copy_forgets).
* CPU tiles keep the modified weights they have if a checkpoint without modified weights is restored (rpu.cpp:457): training goes on with stale weights (C42_checkpoint).
* weight_modifier_cuda.cu:422-430: the maximizer is built once, with the size of the first use; a later `copy_last_column` is ignored for the maximum (C42_gpu_maximum).
* weight_modifier_cuda.cu:125, 578: `DiscretizeAddNormal` with noise and `res <= 0` divides by the resolution: not-a-number for 0, discretization with step |res| for a negative one; the CPU does not discretize (C42_gpu_discretize_add).
* weight_modifier_cuda.cu:308-322, 380: the sign of a PCM weight is fixed before devices are stuck at `g_max`; those on the other side become `g_max - |g|` instead (C42_gpu_pcm_stuck).
* weight_clipper_cuda.cu:37-48, 84-118: unlike the CPU the GPU clips with a bound that is not positive: layer-Gaussian clipping of equal weights sets them to zero, a negative `sigma` sets all weights to the negative bound, and the standard deviation of a single weight is 0/0 (C32_gpu_gaussian_overwrites, C32_gpu_single_weight).
* weight_remapper_cuda.cu:245-258: with a bounded scale range the magnitude of the old scale is used: a row with a negative scale changes the sign of its logical weights (C12_gpu_logical); the CPU keeps the sign.
* weight_drifter_cuda.cu:73-75 takes `__log10f`, weight_drifter.cpp:144 `logf`: with `nu_k` the same parameters drift differently on CPU and GPU (C47_gpu_step).
* rpu_pulsed_meta_parameter.cpp:219-222: the CPU limits `d` with `desired_BL` even if the train is longer (no fixed or managed length, `lr > granularity * desired_BL`): probabilities of errors exceed one and are cut off although the train has room, e.g. nine tenths of an update are lost for lr = 1, granularity = 0.001, desired_bl = 10 and unit vectors; the GPU compares with the actual length (bit_line_maker.cu:2014-2016) and loses nothing (C35_gpu_long).
* bit_line_maker.cu:1281-1283 limits implicit pulses before discretizing, dense_bit_line_maker.cpp:223-231 after: they agree if one is a multiple of the resolution (C35_gpu_implicit), otherwise not (`GpuPulse/Examples.lean`).
* rpucuda_pulsed_device.cu:360-362 adds, after decay, diffusion, drift, clipping and reset, write noise of standard deviation `write_noise_std`; the CPU (rpu_pulsed_device.cpp:581) and the GPU's own update kernels use `write_noise_std * dw_min` (C89_gpu_noise)
* rpucuda_pulsed_device.cu:402-410 fills buffers of the size of the matrix with `n_cols * d_size` random numbers: more columns than the matrix has, which the CPU accepts, write behind the buffers (read from the code; the model's buffers are unlimited)
* rpucuda_pulsed_device.cu:259-261: a GPU diffusion without any rate returns before the bounds check and the write noise, the CPU's does both (C89_gpu_diffuse)
* rpucuda_simple_device.cu:179, 190: the drifter is saved as `wdrifter_cuda` and loaded as `wdrifter`; rpu.cpp:469 and rpucuda.cu:258 look for a key that is exactly the prefix, which is never there: except for pulsed devices on the CPU the drift clock is lost in a checkpoint (C47_checkpoint, C47_restarted).
* rpucuda_pulsed.cu:278, rpucuda_simple_device.cu:305: a fixed clip value of 0 zeroes the weights of a tile with a pulsed floating-point device, and is ignored by weight_clipper_cuda.cu:121 (C32_gpu_tiles).
* io_manager.cu:515-524: `exceeded += test_negative_bound ? 0 : 1` for values below the negative bound of a single sample: the test is inverted compared with the kernel for batches (io_manager.cu:588-599) and the CPU (C99_bound, `Spec.beyond`)
* io_manager.cu:121-177, :213-227: the input noise is added before the input bound (on the CPU after it), and io_manager.cu:403-470: the order of output noise and asymmetry differs between the kernel for a single sample and that for batches (C99_forward_as_cpu)
* io_manager.cu:308-329: without noise management the scale of a sample is multiplied with the already accumulated reduction in every round, so it grows like 1, 2, 8, 64, 1024 (C99_scale_without_management)
* forward_backward_pass.cu:728-760, :786-836: `iom.setInBuffer(pos_neg_buffer_in)` is never undone, so from the second round of bound management on the inputs are separated in place and all positive inputs are lost (C99_lost_inputs)
* io_manager.cu:733-748: in the worst case mode with `AbsMaxNPSum` the second round sets the reduction to one again and repeats the first (C99_worst_repeats)
* io_manager.cu:91-94: if the value of noise management is zero, the outputs are zero even with input noise, other than on the CPU
* maximizer.cu:89-91, noise_manager.cu:77-80, :130-135: the buffer for the next call is only initialized for the samples of the current batch, so after a smaller batch the next larger one (batch dimension first) starts from stale maxima and sums (C98_left_over)
* noise_manager.cu:143-159, :467-474: `kernelAverageAbsMaxSetScales` is given `dev_scale_values_->getSize()` (the largest batch so far) as batch size: the sum of the maxima of a smaller batch is divided by it, and the average is not updated if it is at least the number of threads; `*ravg` is read by all threads and written by one without synchronization (C98_average_small_batch)
* noise_manager.cu:354-410: `Constant` and `AbsMaxNPSum` share the scale values, and `const_set_if_` stays true when the latter overwrites them (bound management `IterativeWorstCase`), so the constant is lost (C98_constant_lost)
* noise_manager.cu:402-408: without input resolution `AbsMaxNPSum` is just `AbsMax` on the GPU, unlike on the CPU (C98_npsum_management)
* entities.py:135-139, api_client.py:84-119: `experiment_create` returns an experiment whose `input_id` stays None for ever (it is only filled in with a missing job), so `get_experiment()` on it asks for `inputs/None/file` (C97_created_definition); likewise a completed job without output asks for `outputs/None/file`
* cloud/client/exceptions.py: `ResponseError` of the object storage prints the complete presigned address, while only `ApiResponseError` shortens it (seemingly swapped)
* experiments/runners/i_cloud.py:31: `InferenceCloudRunner` has `verify=False` as default, i.e. no check of TLS certificates
* cloud/client/utils.py: an empty AIHW_API_TOKEN hides the token of the files; the file in the home directory overrides the one in the working directory (C97_credentials)
* pwu_kernel.h:451-459: stoch_value is drawn but not used: with the bound check kernel the cycle-to-cycle noise of words with pulses of both signs is not random but adds sqrt(n)*std to both counts (C96_noise_unused)
* pulsed_weight_updater.cu:77-78 / pwu_kernel_parameter.h:196, 252-263: non-shared update kernels use nK32 of the desired length (getNK32Default) while the bit line maker uses the actual one (bit_line_maker.cu:26-28); with fixed_bl=False, update_bl_management=False and lr > desired_bl * granularity pulses are lost and, with several samples, words of one sample are read as another sample; only the shared-memory kernels check this (pwu_kernel_parameter.h:338-341) (C94_fewer_words)
* base.py:320, 342: the configuration is copied, but the simulator tile is made from the caller's object: TorchTransferTile (transfer.py:80), torch tiles before their first forward pass (torch_tile.py:61-62) and the IR-drop converter (torch_tile_irdrop_t.py:42) follow later changes of the caller's configuration and not of tile.rpu_config (C93_transfer, C93_foreign)
* inference.py:303-349: the cached clip, remap and modifier settings survive load_state_dict with another configuration, but are dropped by state_dict() and deepcopy, so that writing a checkpoint changes later behaviour (C93_post_update)
* module.py:416-427, base.py:736: load_state_dict makes source and destination tile share one live configuration object and overwrites its tile_class (C93_load_shares)
* helpers.py:155-157, 249-251: an instance's own construction_seed is overwritten by the default 0 for sgd (n_devices=1) and mixed precision, but kept in unit cells (C92_seed)
* helpers.py:164: n_devices <= 0 silently gives a VectorUnitCell without devices
* rpu.cpp:1391-1396: the test whether the row pointers have to be set compares the last row with base + x_size * d_size instead of base + x_size * (d_size - 1): row pointers stay on the old memory if the new tensor starts exactly one row before the old one (C91_one_row_before)
* rpucuda.py:112-117 after base.py:344: with shared_weights=True the tile is bound twice, and rpu.cpp:1385 copies the weights only into the first tensor: the initial weights of the C++ tile are replaced by zeros, and analog_ctx keeps showing the first tensor (with the initial weights) until the first set_weights (C90_initial)
* rpucuda.py:221-229: a tensor of another size given to a forward pass raises, but has already replaced the data of the parameter (C90_another_tensor)
* base.py:745-796: a __setstate__ that raises (weights of another size) leaves a tile with the fresh weights of a new simulator tile while context and parameter still show the old ones (C90_lag)
* functions.py:45-48 / base.py:460: a pass with another tensor rebinds the tile, but the context is not synchronised (C90_lag)
* rpu_simple_device.cpp:98-102 and rpu.cpp:1558-1562: a lifetime in (0, 1], or alpha of at least the lifetime, switches the decay of ideal devices off, while rpu_pulsed_device.cpp:725 makes the same lifetime a total loss (C89_short_lifetime)
* rpu_pulsed_device.cpp:473-481: reset_columns does not check the start column; a start beyond the last column resets all columns from the first one on, a negative one drops columns (C89_reset_unchecked)
* configs/devices.py:101-105 documents the reset bias with a relative spread, rpu_pulsed_device.cpp:716 draws an absolute one (C89_rate)
* rpu_transfer_device.cpp:645-651: tile.reset() on a fully hidden transfer compound leaves the weights of the tile unchanged (C89_transfer_reset)
* simulator/tiles/functions.py:96 with rpu_base_tiles.cpp:546-549: tile.update returns early for learning rate 0, so the gradient of the shared weights is the uninitialised empty_like (C88_garbage)
* rpu_pulsed.cpp:567-583: computing a gradient advances the state of the devices although the weights are put back (C88_gradient)
* rpu_base_tiles.cpp:429-435, 499-505: with x_trans != d_trans the result tensor has wrong dimensions, and forward writes behind its end if there are more vectors than inputs (C87_mixed_layouts)
* rpu_base_tiles.cpp:418, 488, 564: integer division by zero for tensors with an empty vector dimension, before the sizes are checked (C87_empty)
* rpu_base_tiles.cpp:597-598: keyword names of update are declared as bias, d_trans, x_trans for parameters bias, x_trans, d_trans: keyword callers get them exchanged (C87_keywords)
* nn/low_precision_modules/quantization_states.py:128-150 with base_quantized_classes.py:14-35: fix_ranges/learn_ranges silently skip uninitialised quantizers (C86_ranges)
* quantization_states.py:240-244: reset_act_ranges raises AttributeError for a quantizer made with a fixed range (no estimator) (C86_reset)
* experiments/experiments/inferencing.py:176-186: an http identifier leaves template_path unset: always UnboundLocalError (C85_address)
* experiments/experiments/inferencing.py:34-38: download does not check the status; an error page is cached and never replaced (C85_cache)
* experiments/experiments/inferencing.py:191: checkpoints of the current format cannot be used as weight template (C85_current_refused)
* experiments/experiments/inferencing.py:168,196: remap_weights has no effect without a weight template (C85_empty)
* experiments/experiments/inferencing.py:330: is_partial compares with the attribute inference_repeats, not with the argument of inference() (C84_results)
* experiments/runners/local.py:66: LocalRunner.run clears hooks the user added (C83_hooks_removed)
* experiments/runners/metrics.py:75-95: empty loaders end a run with ZeroDivisionError (C83_no_samples)
* cloud/converter/v1/inferencing.py:289: the device id of the settings read back is the kind of the message item, not the stored id (C82_noise_info)
* cloud/converter/v1/rpu_config_info.py:166-167: a missing or zero adc/dac gives resolution -1 instead of an error, one bit a bare ZeroDivisionError (C81_config_iff, C81_errors)
* cloud/converter/v1/inferencing.py:82: the loss function of an inference experiment is not part of the format; it is always NLLLoss after import, and remap_weights returns to its default (C80_round_trip)
* cloud/converter/v1/mappings.py:155-172: `bias` is written as `field is not None`, but AnalogLinear/AnalogConv2d store the flag, so bias=False is reloaded as bias=True (C79_bias)
* cloud/converter/v1/mappings.py:134-139: omega is assigned to `weights_scaling_omega` (the parameter is `weight_scaling_omega`), so it is lost on import (C79_omega)
* cloud/converter/v1/training.py:100: children() yields each module object once, so a model that uses one object twice is exported shorter (C79_children)
* convert_legacy_checkpoint: `model=None` (the default) always raises AttributeError (legacy.py:82)
* convert_legacy_checkpoint looks for `analog_model.analog_tile_state` instead of `analog_module.…` (legacy.py:88), so checkpoints of the current version are not recognised and raise KeyError; BasicInferencing.get_model (experiments/experiments/inferencing.py:165-200) converts every template and thus cannot load them
* convert_legacy_checkpoint cuts keys at the first occurrence of the last name (legacy.py:138), so the bias of an analog layer below a module named e.g. `bias_net` is left at a key the new model does not have
* convert_legacy_checkpoint: a single tile number k≠0 gives a key ending in `.[k]` (legacy.py:60-61)
* convert_legacy_checkpoint zeroes max_input_size/max_output_size in the configurations of the model passed in, also when it raises (legacy.py:81-84)
* `analog_summary` (C77): forward hooks are never removed (`C77_keeps_growing`), after a failed summary the model itself raises on every forward (`C77_failure_sticks`); layers called several times are counted several times; unbatched convolutions get a wrong reuse factor; split `AnalogLinear` layers report 100 percent utilisation.
* Reload of compounds (C76): `__setstate__` calls `set_weights` after `set_hidden_parameters`, which overwrites the hidden weights just restored: vector cells lose the distribution over the devices, `ReferenceUnitCell` shifts its weights by the reference at the first update after loading, one-sided cells lose the common part; `MixedPrecisionCompound` loses the accumulated gradient although it is among the saved hidden parameters.
* Extra state (C73): the drift state of a floating point tile is saved under `rpu.wdrifter.*` but loaded only if a key `rpu.wdrifter` exists,
  so never (`C73_drift_lost`); the weight modifier's state is saved and not loaded; `insertWithPrefix` tests the key without its prefix, so a
  compound inside a compound cannot be dumped, hence not pickled (`C73_nested_raises`), and mixed precision around a transfer compound depends
  on the hash order; `was_allocated` is read uninitialised on a lenient load; `get/set_forward_parameters` match the transfer pass as well.
* AnalogMatrix (C72): `A.matmat(X)` returns `X A^T` for square operands and raises otherwise; column vectors raise; `ger(x, d)` adds
  `alpha d x^T` (the documented left vector is the right one); above the mapping limits (512 by default) numpy products, `x @ A` and
  `ger` raise AttributeError because `TileModuleArray` has neither `device`, `backward` nor `update`.
* Float precision cast (C71): without saturation, numbers beyond the format keep the significand under the reserved exponent
  (C71_wraps) and the order is lost (C71_not_monotone); NaN becomes an infinity (C71_nonfinite); the backward pass of the autograd
  function returns one gradient for four arguments and raises (C71_backward_raises). The macro for the 1-6-9 format
  (float_prec_common.h:39-52) is not used by the op and not modelled; its sign mask `0x8000000` has a digit too few.
* Weight programming optimizer: `g_converter_baseline` is ignored when the baseline loss is measured (C68_baseline_ignored), the
  success flag is truthy although the baseline was not beaten (C68_success), a second run differs from the first (C68_second_run).
* Torch against C++ products: `out_scale` is ignored by perfect torch products (C64_perfect_scale); the worst-case bound
  management does not exist in torch (C64_worst_case_is_iterative); NM `MAX` with negative inputs (C64_max_negative); torch
  couples the samples of a batch through the bound management, C++ does not (`CppFwd/TorchExamples.lean`); torch does not
  check that noise management needs an input bound of 1.

{"id": "C01", "title": "Split sizes of a mapped layer partition the dimension", "statement": "For a layer dimension `size` >= 1 and a mapping limit `max_input_size`/`max_output_size`, the tile sizes computed for that dimension add up exactly to `size`, every tile size is at least 1 and (for a positive limit) at most the limit, any two tile sizes differ by at most one with the larger first, and the number of tiles is the minimum possible, ceil(size/limit). A non-positive limit gives a single tile of the full size. A zero dimension with a positive limit raises (division by zero) instead of producing tiles.", "quantifier": "all dimensions and all limits (any integer)", "why_tests_cant": "sizes are unbounded; tests pick a few shapes", "anchors": ["src/aihwkit/simulator/tiles/array.py:TileModuleArray.get_split_sizes"]}
{"id": "C02", "title": "Weights written to a mapped (multi-tile) layer are read back unchanged", "statement": "After `set_weights(W, b)` on a TileModuleArray of any shape, `get_weights()` returns exactly W (and b if the module has a bias), provided each tile returns the block it was given; every entry of W is written to exactly one tile at the position determined by the split sizes.", "quantifier": "all matrices, all split layouts, all tiles honouring their own write/read contract", "why_tests_cant": "unbounded shapes and block layouts", "anchors": ["src/aihwkit/simulator/tiles/array.py:TileModuleArray.set_weights,get_weights"]}
{"id": "C03", "title": "A mapped layer computes the same matrix-vector product as an unmapped one", "statement": "The forward pass of a TileModuleArray whose tiles are linear equals W x + b for the full weight matrix W, for every number of row and column splits: splitting the inputs, concatenating tile outputs and accumulating partial sums loses nothing and adds the digital bias exactly once.", "quantifier": "all inputs, matrices, biases, split layouts", "why_tests_cant": "unbounded shapes", "anchors": ["src/aihwkit/simulator/tiles/array.py:TileModuleArray.forward"]}
{"id": "C04", "title": "The quantized tile array cannot run with a single tile", "statement": "A QuantizedTileModuleArray whose logical matrix fits in one tile never defines its output quantizer, so every forward call raises AttributeError; with more than one tile the forward pass applies bias addition and then (if configured) output quantization. An array with a quantized bias whose quantization parameters are learned cannot be created at all (AttributeError).", "quantifier": "all single-tile configurations and inputs", "why_tests_cant": "tests with only multi-tile layouts never see it", "anchors": ["src/aihwkit/simulator/tiles/array.py:QuantizedTileModuleArray.__init__,forward"]}
{"id": "C05", "title": "DAC/ADC discretization: grid, error and idempotence", "statement": "Uniform discretization with resolution `res` (a step fraction, or a number of states when > 1) relative to range `bound` returns an integer multiple of the step 2*bound*res', is within half a step of its input (one full step with stochastic rounding), is monotone, odd (without stochastic rounding), fixes grid points and is idempotent.", "quantifier": "all real inputs, resolutions and bounds > 0, all rounding noise in [-1/2,1/2]", "why_tests_cant": "continuum of inputs and resolutions", "anchors": ["src/aihwkit/simulator/tiles/utils.py:UniformQuantize"]}
{"id": "C06", "title": "Analog MVM outputs and DAC inputs respect the configured bounds", "statement": "In the non-ideal torch MVM every value entering the crossbar before input noise lies in [-inp_bound, inp_bound] (if inp_bound > 0) and every ADC output before rescaling lies in [-out_bound, out_bound] (if out_bound > 0), for all weights, inputs and noise draws; a non-positive bound means no clipping.", "quantifier": "all weights, inputs, noise draws, IO parameters", "why_tests_cant": "continuum of inputs and all noise realisations", "anchors": ["src/aihwkit/simulator/tiles/analog_mvm.py:AnalogMVM._prepare_input,_finalize_output"]}
{"id": "C07", "title": "Iterative bound management terminates and never shrinks below its limit", "statement": "The bound-management loop of the analog MVM terminates for every input, weight and noise sequence after at most log2(max_bm_factor)+2 rounds; in round k inputs are divided by 2^(k-1) relative to noise management, it stops at the first round with no clipped output or when the reduction exceeds max_bm_factor (or max_bm_res/inp_res), and the result is rescaled by exactly the reduction used.", "quantifier": "all inputs, all noise sequences, all parameter values", "why_tests_cant": "termination and the loop invariant quantify over all executions", "anchors": ["src/aihwkit/simulator/tiles/analog_mvm.py:AnalogMVM.matmul"]}
{"id": "C08", "title": "Noise management is transparent for an otherwise ideal converter chain", "statement": "With no discretization, no noise, no asymmetry and no clipping, the analog MVM returns out_scale * W x for the noise-management types None, AbsMax and Constant, and for Max unless the maximum of every sample of the batch is exactly 0 (then the zero shortcut returns all zeros although W x need not vanish); in particular all-zero inputs give all-zero outputs and no division by zero happens.", "quantifier": "all inputs, weights, noise management types and thresholds", "why_tests_cant": "continuum of inputs; includes the zero input edge case", "anchors": ["src/aihwkit/simulator/tiles/analog_mvm.py:AnalogMVM.matmul,_compute_noise_management"]}
{"id": "C09", "title": "Perfect forward is the exact matrix product", "statement": "With is_perfect (or IDEAL mv type) the analog MVM is exactly the (transposed) matrix product, ignoring every non-ideality parameter; the supported-config check accepts exactly the implemented configurations, and rejects mv type IDEAL unless is_perfect is set.", "quantifier": "all weights, inputs, parameters", "why_tests_cant": "all inputs", "anchors": ["src/aihwkit/simulator/tiles/analog_mvm.py:AnalogMVM.matmul,check_support"]}
{"id": "C10", "title": "Tile weight write/read round trip under weight scaling", "statement": "On a tile with digital scales, `set_weights(W, b)` followed by `get_weights()` returns (W, b) for layer-wise and column-wise scaling and any omega > 0, with analog, digital or no bias, from any previous scale state; the stored analog weights satisfy max|w| = omega (per row if column-wise) unless the row/matrix is zero; zero rows keep scale 1 and no division by zero happens.", "quantifier": "all weight matrices, biases, omegas, previous histories of the tile", "why_tests_cant": "any history of scale-changing calls may precede", "anchors": ["src/aihwkit/simulator/tiles/periphery.py:TileWithPeriphery.set_weights,get_weights,apply_weight_scaling,set_scales,get_scales"]}
{"id": "C11", "title": "Without weight scaling the write/read round trip depends on stale scales", "statement": "If weight scaling is off (omega <= 0 or apply_weight_scaling=False on write only), `set_weights` does not reset the digital scales: the scaled read returns the written weights multiplied by whatever scales the tile had; it is the identity exactly when those scales are absent or 1 (on non-zero rows); raw write / raw read is always the identity.", "quantifier": "all matrices, all previous scale states", "why_tests_cant": "depends on history of previous calls", "anchors": ["src/aihwkit/simulator/tiles/periphery.py:TileWithPeriphery.apply_weight_scaling,set_mapping_scales"]}
{"id": "C12", "title": "Remapping preserves the logical weights", "statement": "With a positive effective omega, `remap_weights` leaves the logical weights (analog weights times digital scales) and bias unchanged and makes the maximal analog magnitude equal to omega; without an effective omega (None or <= 0) it writes the scaled weights back without resetting the scales, so every digital factor is applied twice. The post-update LAYERWISE/CHANNELWISE remap preserves the logical weights too, after any history, except that in the torch tile an all-zero matrix/row gives NaN (0/0) and that the C++ tile with a bounded scale range clips the weights. On the GPU remapping gives the weights and scales the CPU tile gives, for every number of threads, and refuses what it refuses; with a bounded range the scales become positive and at most the range times the larger of the smallest scale's magnitude and the reference. Exception: with a bounded range a row whose scale is negative (a learned scale can be) changes the sign of its logical weights on the GPU.", "quantifier": "all weight matrices and scales", "why_tests_cant": "continuum of weights", "anchors": ["src/aihwkit/simulator/tiles/periphery.py:TileWithPeriphery.remap_weights", "src/aihwkit/simulator/tiles/torch_tile.py:TorchSimulatorTile.remap_weights", "src/rpucuda/weight_remapper.cpp", "src/rpucuda/cuda/weight_remapper_cuda.cu"]}
{"id": "C13", "title": "Setting digital scales", "statement": "`set_scales(s)` with a tensor makes `get_scales()` return s (a length-1 tensor is spread over the previous length) and resets learned scales to 1, whatever the history; with a python float it takes effect only if no mapping scales existed before, otherwise it is silently ignored; with learning-rate compensation a tensor of mean zero raises ZeroDivisionError after the scales were already replaced.", "quantifier": "all scale values and histories", "why_tests_cant": "history dependent", "anchors": ["src/aihwkit/simulator/tiles/periphery.py:TileWithPeriphery.set_mapping_scales,set_scales,get_scales,set_learned_out_scales"]}
{"id": "C14", "title": "Forward with digital periphery equals the logical layer", "statement": "With an ideal crossbar, the tile forward output equals (logical weights) x + bias, where logical weights are those returned by get_weights(): input range division, mapping scales, learned output scales and digital or analog bias compose to the identity on inputs within the input range, and inputs beyond it are treated as clipped. Exception: an analog bias combined with an input range r enters multiplied by r.", "quantifier": "all weights, scales, inputs, input ranges", "why_tests_cant": "continuum of inputs and scales", "anchors": ["src/aihwkit/simulator/tiles/periphery.py:TileWithPeriphery.joint_forward,pre_forward,post_forward,apply_out_scaling"]}
{"id": "C15", "title": "SGD step in logical weight space is independent of the mapping scales", "statement": "For an ideal update device, one analog update at learning rate lr changes the logical weights by -lr * l_i * d_i * clip(x)_j / r (l_i the learned output scale, r the input range, each 1 if absent), irrespective of the mapping scales and of the learning-rate compensation, as long as the compensation factor is not left over from scales that were since removed; get_learning_rate returns what set_learning_rate was given, unless scales change in between, in which case it is off by the ratio of the compensation factors.", "quantifier": "all gradients, inputs, scales, learning rates", "why_tests_cant": "continuum of values", "anchors": ["src/aihwkit/simulator/tiles/periphery.py:TileWithPeriphery.pre_update,set_learning_rate,get_learning_rate,set_mapping_scales"]}
{"id": "C16", "title": "Input range initialisation from data is a running mean and then frozen", "statement": "With input-range learning enabled and no set_input_range call, after n <= init_from_data training batches of non-zero standard deviation the input range is the arithmetic mean of init_std_alpha*std over these batches, independent of the initial value and of batch order; batches with zero std do not count; after init_from_data batches data never changes it again; evaluation never changes anything; the crossbar input is clipped and normalised into [-1, 1]. A range set explicitly before the first training batch is overwritten by that batch.", "quantifier": "all batch histories", "why_tests_cant": "unbounded sequences of batches", "anchors": ["src/aihwkit/simulator/tiles/periphery.py:TileWithPeriphery.apply_input_range,set_input_range"]}
{"id": "C17", "title": "Programming weights twice on a training tile", "statement": "`program_weights` of a training tile succeeds on the first call after set_weights with default arguments, but a second call from the stored reference, and every call giving explicit x_values, raises UnboundLocalError before touching the device.", "quantifier": "all call sequences", "why_tests_cant": "call histories", "anchors": ["src/aihwkit/simulator/tiles/periphery.py:TileWithPeriphery.program_weights"]}
{"id": "C18", "title": "Programming and drift life cycle of an inference tile", "statement": "On an inference tile: programming always starts from the reference weights so repeated programming does not compound noise; repeated `drift_weights(t)` always starts from the same programmed weights, so the result depends only on the last t; training-mode forward never applies drift compensation. After `set_weights(new)` a subsequent drift_weights without explicit program_weights drifts the old programmed weights and discards the new ones; weights trained after programming are discarded by the next program_weights(); a noise model argument replaces the configured one for good; the compensation factor is changed by drift_weights only and stays in force when new weights are set and programmed; with compensation and transposed inputs every program_weights and drift_weights call raises.", "quantifier": "all interleavings of set/program/drift/read operations", "why_tests_cant": "operation histories", "anchors": ["src/aihwkit/simulator/tiles/inference.py:InferenceTileWithPeriphery.program_weights,drift_weights,post_forward"]}
{"id": "C19", "title": "Global drift compensation cancels a uniform conductance decay", "statement": "With global drift compensation and an ideal readout, if all weights decay by the same factor c > 0 and readouts stay above the clip value, the compensated evaluation output equals the output at programming time; the per-column variant does so for column-dependent factors; in general the factor times the current read-out equals the read-out at programming time (of the exact target in the exact-reference variant); the compensation factor is always positive and bounded. On convolution outputs (indexed interface) per-column factors are applied to the last dimension instead of the channels, or raise.", "quantifier": "all weights, factors, inputs", "why_tests_cant": "continuum", "anchors": ["src/aihwkit/inference/compensation/drift.py", "src/aihwkit/inference/compensation/base.py", "src/aihwkit/simulator/tiles/inference.py"]}
{"id": "C20", "title": "Conductance conversion round trip and range (single pair)", "statement": "SinglePairConductanceConverter maps every weight tensor to two conductance tensors in [g_min, g_max], at least one device of each pair sitting at g_min, and converting back returns the weights exactly; wrong list lengths or missing params raise ValueError.", "quantifier": "all weight tensors, all 0 <= g_min < g_max", "why_tests_cant": "continuum of weights; zero tensor edge case", "anchors": ["src/aihwkit/inference/converter/conductance.py:SinglePairConductanceConverter"]}
{"id": "C21", "title": "Conductance conversion round trip and range (N pairs)", "statement": "NPair/DualPairConductanceConverter with positive factors maps weights into [g_min, g_max] per device, converts back exactly, and uses a more significant pair only when all less significant pairs are exhausted; the constructor rejects exactly the empty lists and the lists without a non-negative factor, so a list with some negative factors passes although documented as rejected; for such a list the round trip can fail (factors 3,-2,3 double every full-scale weight), and a list with factor zero as its only non-negative factor divides by zero. DualPair requires exactly two factors.", "quantifier": "all weights, all factor lists of any length", "why_tests_cant": "any number of pairs", "anchors": ["src/aihwkit/inference/converter/conductance.py:NPairConductanceConverter,DualPairConductanceConverter"]}
{"id": "C22", "title": "Conductance conversion (single device and custom pairs)", "statement": "SingleDevice conversion maps min/max weight to g_min/g_max, stays within range and round-trips for every non-constant tensor (constant tensors divide by zero). CustomPair conversion round-trips for every weight tensor exactly when the specification's weighted conductance differences are the (scaled) grid points; the constructor's invertibility test, which probes five points, accepts specifications that do not round-trip.", "quantifier": "all weights; all custom specifications", "why_tests_cant": "continuum; adversarial specifications", "anchors": ["src/aihwkit/inference/converter/conductance.py:SingleDeviceConductanceConverter,CustomPairConductanceConverter"]}
{"id": "C23", "title": "Fusion export/import preserves weights", "statement": "Exporting an analog model to fusion conductances (each in [0, g_max], proportional to the absolute weights of a row) and importing the unmodified data into it or any model with the same layer names and tile sizes restores the crossbar weights of every tile of every layer, keeps scales, input ranges and digital biases, and does so also if every row was scaled by a non-zero gain; a constant row (in particular every row of a tile with one input) comes back as zero, and an analog bias comes back multiplied by the output scales. Too little data raises, surplus data is ignored; a failing import has already changed the tiles before the failing one. Converters with more than one matrix per weight can be exported but never imported. g_max must be within [10, 40]; other than inference tiles raise TileError. The CSV file round-trips, a model with analog layers of other number, class or size is rejected with FusionExportError, other layer names pass the check and raise KeyError.", "quantifier": "all models (any number of layers/tiles), all weights, gains and files", "why_tests_cant": "unbounded models", "anchors": ["src/aihwkit/utils/export.py:fusion_export,fusion_import", "src/aihwkit/inference/converter/fusion.py:FusionConductanceConverter"]}
{"id": "C24", "title": "Statistical noise models keep conductances non-negative and drift monotone", "statement": "PCM-like programming and drift never yield negative conductances for any noise draw; without read noise drift is the identity at t_inference <= 0 and non-increasing in time; drift coefficients are non-negative. The generic apply_noise raises at t_inference <= 0. Noise-free programming returns the weights exactly, and drift with a uniform coefficient multiplies all weights by the same factor, for every converter that round-trips. Giving both prog_coeff and prog_coeff_g_max_reference leaves the model unusable. The ReRAM (Wan) model programs with the smallest tabulated time, drift is defined only at tabulated times, and the stored reference of its default coefficients is never used; the ReRAM (CMO) model silently replaces its default acceptance range, can program negative conductances, keeps drifted conductances in range, and yields NaN for non-positive relaxed conductances. The custom drift model accepts incomplete dictionaries and fails later.", "quantifier": "all conductances, all noise draws, all times", "why_tests_cant": "all noise realisations and times", "anchors": ["src/aihwkit/inference/noise/base.py", "src/aihwkit/inference/noise/pcm.py", "src/aihwkit/inference/noise/hermes.py", "src/aihwkit/inference/noise/custom.py", "src/aihwkit/inference/noise/reram.py"]}
{"id": "C25", "title": "Analog optimizer regrouping", "statement": "After a successful regroup_param_groups every parameter occurs in exactly one group, each analog context sits alone in its own group, digital parameters keep their group options and order, empty groups vanish; regrouping again changes nothing. It succeeds exactly when no analog context is listed twice. The options of an analog parameter's own group are replaced by the optimizer defaults (also a learning rate set by a scheduler).", "quantifier": "all parameter group lists", "why_tests_cant": "arbitrary models / group layouts", "anchors": ["src/aihwkit/optim/analog_optimizer.py:AnalogOptimizerMixin.regroup_param_groups"]}
{"id": "C26", "title": "Analog optimizer step consumes each recorded gradient exactly once", "statement": "A step applies, for every analog parameter without torch-update and with recorded gradients and non-zero learning rate, exactly one tile update with all recorded activations and errors in order at the group learning rate, then clears the record; with learning rate 0 it clears without updating; with no gradient it does nothing; the post-update step runs exactly once per analog parameter, after all updates. Over every history of forward/backward/zero_grad/step/schedule/regroup the samples applied to a tile followed by those still recorded are exactly those its backward passes produced, in order (a raising step keeps the record; zero_grad discards nothing); at learning rate 0 they are an ordered sublist. Exception: an indexed update raising midway re-applies the earlier pairs at the next step.", "quantifier": "all parameter lists, all traces of forward/backward calls and exceptions", "why_tests_cant": "histories of forward/backward/step", "anchors": ["src/aihwkit/optim/analog_optimizer.py:AnalogOptimizerMixin.step", "src/aihwkit/simulator/tiles/functions.py:AnalogFunction"]}
{"id": "C27", "title": "The analog context never exposes a write path to analog weights, except through returned views", "statement": "For every sequence of data-view mode switches, torch operations, item assignments and .data accesses on an analog context (and on the tensors they return), the tile weights change only through the tile API, as long as no successful operation hands out a view of the data view and the context is not copied; on tiles with output scales views are harmless too. Without scales a view taken in DATA_VIEW mode (ctx.detach(), ctx.t(), ctx.get_data()) and copy.copy(ctx) in any mode are writable aliases of the tile. In PLACEHOLDER mode only metadata operations succeed; outside DATA_VIEW the weight values cannot be observed at all; in DATA_VIEW mode reads return the current logical weights and in-place operations raise without effect; in BUFFER mode in-place operations change exactly the buffer, which is zero whenever the mode is (re-)entered.", "quantifier": "all operation sequences", "why_tests_cant": "operation histories", "anchors": ["src/aihwkit/optim/context.py:AnalogContext", "src/aihwkit/optim/weight_view.py"]}
{"id": "C43", "title": "AnalogOptimizer wraps the requested optimizer class", "statement": "AnalogOptimizer(cls, ...) creates an instance whose digital step is cls's, whenever every optimizer class wrapped before under the same class name is cls itself. Deviation: with two different classes of the same name the first one ever wrapped is used for both, for every history of constructions.", "quantifier": "all histories of constructions", "why_tests_cant": "registry state depends on the whole process history", "anchors": ["src/aihwkit/optim/analog_optimizer.py:AnalogOptimizer"]}
{"id": "C28", "title": "Checkpoint round trip of models", "statement": "Loading the state dictionary of a model into a model of the same structure succeeds for every number of tiles and restores every tile's configuration, simulator state and all registered tensors (bias, mapping scales, learned scales, input range, ...); a pulsed device without write noise then behaves under every future history exactly like the saved one, if the mean saved step is within 2*dw_min_dtod of dw_min. A tile class mismatch raises TileError without any effect; with load_rpu_config=False the destination keeps its own configuration; a shape mismatch raises RuntimeError in every mode. Exceptions, each exact: the load flags stay in force for later calls; attributes outside the dictionary (learning-rate compensation, programmed weights, drift state) keep the destination's values; a hidden-parameter mismatch raises after configuration and weights were replaced; tiles before a failing tile are already loaded; tensors the destination registers as None are dropped; without a file the configuration object becomes shared; the persistent weights of write-noise devices and the fast devices of transfer compounds are not restored; a drifted and compensated inference model cannot be loaded into a fresh one.", "quantifier": "all models, simulators, device parameters, checkpoints, and all later histories", "why_tests_cant": "all states and unbounded continuations after the load", "anchors": ["src/aihwkit/simulator/tiles/base.py:SimulatorTileWrapper.__getstate__,__setstate__,get_analog_state", "src/aihwkit/simulator/tiles/module.py:TileModule._load_state_dict_pre_hook,replace_with,compatible_with", "src/aihwkit/nn/modules/base.py:AnalogLayerBase.load_state_dict"]}
{"id": "C44", "title": "Loading a checkpoint replaces the analog parameter", "statement": "Every successful load or configuration replacement gives the tile a new, empty analog parameter object, distinct from all earlier ones. Hence an optimizer built before the load never updates the tile again: for every later history of training through the new parameter the old optimizer causes no device update, no post-update step for it, and gradients recorded before the load through the old parameter are applied to the reloaded weights.", "quantifier": "all models and all training histories after the load", "why_tests_cant": "object identity over unbounded histories", "anchors": ["src/aihwkit/simulator/tiles/base.py:SimulatorTileWrapper.__setstate__", "src/aihwkit/optim/context.py:AnalogContext", "src/aihwkit/optim/analog_optimizer.py:AnalogOptimizerMixin.step"]}
{"id": "C29", "title": "Model conversion digital -> analog -> digital", "statement": "On a model in which no module object is registered twice, convert_to_analog replaces exactly the modules whose class is in the conversion map and whose dotted name (or an ancestor's) is not excluded: layers by analog layers holding the encoded weights, containers by analog containers with the same child names in the same order; everything else keeps class, mode, value and names, and nothing is added except the tile modules. specific_rpu_config_fun sees the full dotted name of every converted module, containers included, exactly once. Excluding the root name keeps only the root itself. Without inplace neither direction changes any existing module and the result shares no module with the input. Conversion is idempotent, and convert_to_digital after convert_to_analog restores classes, names and values whenever the tile encoding is decoded exactly (modes become training for every rebuilt module). Exceptions: in a converted container a module registered a second time loses its second name; elsewhere the second name keeps the digital object, so the weights are untied; the class of the root wrapper is looked up by class name, so a model of another class with the same name becomes an instance of the first class.", "quantifier": "all module graphs, conversion maps, exclusion lists and configuration functions", "why_tests_cant": "unbounded module trees", "anchors": ["src/aihwkit/nn/conversion.py:convert_to_analog,convert_to_digital", "src/aihwkit/nn/modules/container.py:AnalogSequential,AnalogWrapper"]}
{"id": "C30", "title": "Digital low-precision quantizers", "statement": "After a range has been set, the symmetric and asymmetric uniform quantizers map every element of every channel to a nearest level of a uniform grid with 2^n levels containing zero; they are monotone, idempotent, keep zero exactly and err by at most half a step inside the requested range; integer outputs stay in the n-bit range. The step follows from the range (one bit goes to the sign if any channel has a negative minimum). Quantizers that are not set raise; reset makes them unset; a saved and reloaded quantizer quantises identically. Exceptions: one-bit signed symmetric quantizers cannot be set; a per-channel quantizer rejects inputs of another rank for ever, also after reset.", "quantifier": "all inputs, bit widths, ranges, ranks, numbers of channels", "why_tests_cant": "continuum", "anchors": ["src/aihwkit/simulator/digital_low_precision/quantizers.py"]}
{"id": "C31", "title": "Digital bias and analog bias layout", "statement": "Combining weights with an analog bias column and separating again returns both; a tile with analog bias rejects a missing bias with ValueError before writing the device; a digital bias is stored exactly and never scaled; a write that fails because of the weight shape has already replaced the digital bias.", "quantifier": "all weights and biases", "why_tests_cant": "all shapes", "anchors": ["src/aihwkit/simulator/tiles/base.py:SimulatorTileWrapper._combine_weights,_separate_weights", "src/aihwkit/simulator/tiles/periphery.py:TileWithPeriphery.set_weights"]}
{"id": "C32", "title": "Weight clipping", "statement": "With a positive clip bound (the fixed value, or the layer-Gaussian sigma times the standard deviation of the weights, lowered to the fixed value if that is positive) clipping replaces every weight by the nearest value within [-bound, bound]: all weights end inside, none already inside changes, order is kept and fixed-value clipping is idempotent. Exceptions: the torch tile with a negative fixed value (the default is -1) overwrites every weight with that value, and its layer-Gaussian clipping of a constant matrix zeroes all weights, where the C++ tile leaves them unchanged; average-channel-max is implemented only in the C++ tile. The GPU clips as the C++ tile does whenever the bound is positive, for every number of threads; but layer-Gaussian clipping on the GPU overwrites all weights by a bound that is not positive (zero for equal weights), and one single weight becomes not-a-number. A tile with a pulsed floating-point device takes a fixed value of zero as a bound, a tile without does not; other devices take only fixed values.", "quantifier": "all weights and clip values", "why_tests_cant": "continuum", "anchors": ["src/aihwkit/simulator/tiles/torch_tile.py:TorchSimulatorTile.clip_weights", "src/rpucuda/weight_clipper.cpp", "src/rpucuda/cuda/weight_clipper_cuda.cu", "src/rpucuda/cuda/rpucuda_pulsed.cu:clipWeights"]}
{"id": "C33", "title": "Pulsed devices never leave their weight bounds", "statement": "For constant-step, linear-step / soft-bounds, exp-step, pow-step and piecewise-step devices, every history of pulses, decay, diffusion, reset, clipping and weight setting, with arbitrary noise draws, keeps each (stored) weight within its cell's [w_min, w_max], provided a clip value does not lie outside the cell's range; corrupt cells never move; with write noise the bound holds for the persistent weight. For reference classes the bound is shifted by the reference. Population creates w_min <= w_max for every draw.", "quantifier": "all operation histories, all noise draws, all device parameters", "why_tests_cant": "unbounded histories, continuum of draws", "anchors": ["src/rpucuda/rpu_constantstep_device.cpp", "src/rpucuda/rpu_linearstep_device.cpp", "src/rpucuda/rpu_simple_device.cpp", "src/rpucuda/rpu_pulsed_device.cpp"]}
{"id": "C34", "title": "Transfer learning (Tiki-Taka) scheduling", "statement": "The transfer compound transfers from device j exactly at every transfer_every_j-th update and never in between, reading the columns (rows) cyclically, so after n transfers every column has been read equally often (up to one); a period or learning rate of zero means no transfer; the visible weight is always the gamma-weighted sum of the devices; devices other than the first change only by transfers; set_weights restarts the schedule. Default periods of slower devices multiply by the output (not input) size and cancelling gamma entries switch to the fully hidden mode.", "quantifier": "all update histories, sizes, numbers of devices and draws", "why_tests_cant": "unbounded histories", "anchors": ["src/rpucuda/rpu_transfer_device.cpp", "src/aihwkit/simulator/configs/compounds.py:TransferCompound"]}
{"id": "C35", "title": "Update pulse-train length and scaling", "statement": "With update management / bit-length management the number of pulses per update is at least 1 and never exceeds desired_BL, the product of the scales, the length and the granularity equals the learning rate, no probability exceeds 1 unless the train is too short, a zero learning rate or zero vectors give no pulse, and on a constant-step device the expected weight change of an update (over the uniform draws) is exactly -lr * x_j * d_i. On the GPU every sample of a batch, in every layout, gets the length and the scales that the CPU computes for this sample alone, the same draws give the same trains and implicit pulses, and a sample without an input, an error or a learning rate gives no pulse; only with update management and a learning rate above granularity times desired_BL (length neither fixed nor managed) the scales differ: the GPU cuts off no probability while the CPU may cut those of the errors.", "quantifier": "all learning rates, input and error vectors, granularities, probability spaces; on the GPU all batches, layouts and draws", "why_tests_cant": "continuum and expectation over all draws", "anchors": ["src/rpucuda/rpu_pulsed_meta_parameter.cpp", "src/rpucuda/sparse_bit_line_maker.cpp", "src/rpucuda/cuda/update_management_helper.cu:kernelUMGetScaleAndKValues,computeKandScaleValues", "src/rpucuda/cuda/bit_line_maker.cu:makeCounts"]}
{"id": "C36", "title": "Input-range calibration", "statement": "After calibrate_input_ranges succeeds, each analog tile's range is determined only by the arguments, that tile and its own inputs in order: the largest absolute entry (Max), the absolute quantile of a sample of at most max_samples non-zero rows, all of them if they fit (CacheQuantile), or the running mean of the positive batch statistics (MovingQuantile, MovingStd up to max_samples updates). Training flag, hooks and is_perfect are restored; caching types record the range. Exceptions: quantiles are signed; a caching calibration leaves unused tiles perfect; noise management stays off; floating point tiles are switched to clipping at init_value; moving types record nothing; an all-zero batch fails Max and MovingQuantile; force_all_layers=False fails if any tile is off; a failure leaves hooks, evaluation mode and changes behind; the analog parameter is replaced; submodule flags are overwritten.", "quantifier": "all models, tile states, arguments, traces of tile calls with their inputs, random samples", "why_tests_cant": "unbounded batch sequences and all interleavings of tile calls", "anchors": ["src/aihwkit/inference/calibration/calibration.py:calibrate_input_ranges"]}
{"id": "C37", "title": "Range estimators", "statement": "For every sequence of batches since construction or reset: the current min-max estimate is the minimum and maximum of the last batch, the all-min-max estimate that of all batches, the running estimate the exponential moving average of the batch extremes (and stays between them), grouped channels share the extremes of their group, and the MSE grid search returns the first candidate that minimises the squared quantisation error summed over all batches within a search range fixed by the first one. Exceptions: the per-tensor percentile cuts only the minimum; the golden-section estimate depends on the first and last batch only; reset does not forget that a distribution was one-sided; one-bit asymmetric grid search raises on negative data.", "quantifier": "all batch sequences, channels, options", "why_tests_cant": "unbounded sequences", "anchors": ["src/aihwkit/simulator/digital_low_precision/range_estimators.py"]}
{"id": "C38", "title": "Scale tensors are not shared between callers and tile", "statement": "Values returned by get_scales stay what they were and tensors given to set_scales do not tie tile state together. In fact tensors are stored by reference: `set_scales(get_scales())` on a tile with only learned scales (as done by `TileModule.to(dtype)`) makes mapping scales and learned scales one tensor and resets all scales to 1; a scale tensor returned earlier changes on a later layer-wise weight write. Without such sharing the by-reference program behaves exactly like the by-value one.", "quantifier": "all histories of scale reads and writes, all aliasing patterns", "why_tests_cant": "aliasing depends on the history", "anchors": ["src/aihwkit/simulator/tiles/periphery.py:TileWithPeriphery.set_mapping_scales,set_scales,get_scales", "src/aihwkit/simulator/tiles/module.py:TileModule.to"]}
{"id": "C39", "title": "Backward pass is the transpose of the logical layer", "statement": "With an ideal crossbar the input gradient returned for an output gradient d is W^T d for the logical weights W of get_weights(), whatever scales, bias and range; for inputs inside the input range it is the exact derivative of the evaluation forward pass.", "quantifier": "all gradients, inputs, reachable tile states", "why_tests_cant": "continuum and histories", "anchors": ["src/aihwkit/simulator/tiles/periphery.py:TileWithPeriphery.pre_backward,backward,post_backward", "src/aihwkit/simulator/tiles/functions.py:AnalogFunction.backward"]}
{"id": "C40", "title": "Gradient of the input range", "statement": "For every batch the gradient accumulated for the input range is non-positive except for the decay term, so an SGD step shrinks the range only by decay, and decay acts only when more than input_min_percentage of the inputs are inside the range; inputs strictly inside contribute no clipping gradient. gradient_scale has no effect without gradient_relative, and the output-clipping percentage divides the number of clipped outputs by the number of inputs.", "quantifier": "all inputs, gradients, parameters", "why_tests_cant": "continuum", "anchors": ["src/aihwkit/simulator/tiles/periphery.py:TileWithPeriphery.post_backward"]}
{"id": "C41", "title": "Custom tile: uniform random weights and batch update", "statement": "`set_weights_uniform_random(bmin, bmax)` of the custom tile does not produce weights in [bmin, bmax]: it returns rand/(bmax-bmin) - bmin, which for a symmetric range lies outside it for every draw. Its rank update of a batch equals the sequence of the single-sample updates in any order.", "quantifier": "all ranges, draws, batches", "why_tests_cant": "continuum and unbounded batches", "anchors": ["src/aihwkit/simulator/tiles/custom.py:CustomSimulatorTile.set_weights_uniform_random,update"]}
{"id": "C42", "title": "Weight modifiers act on training passes only", "statement": "For every history of weight writes, modifier calls and passes, an evaluation pass uses the true weights. In training the modified copy is used; it is not refreshed by a weight write, nor dropped when a later modifier has type None, so training passes use the stale copy until the next modification. Per-type: modified weights lie on the quantization grid (discretize), keep zeros zero (multiplicative noise, drop connect), programming noise acts on magnitude and keeps sign; discretize and multiplicative noise scale differently in the C++ and torch back ends. The GPU computes the modified weights of the CPU for every shape, type, parameters and history, with three exceptions: the number of weights its maximum is taken over is fixed by the first use; an assumed maximum that is not positive is replaced by one; adding noise with a resolution that is not positive discretizes, or gives no numbers. PCM noise (GPU only) keeps signs, only limits weights if its noise is off, and has the documented noise otherwise; a device stuck at maximum on the other side reflects the weight instead. A copied tile, a tile moved to the GPU, and on the CPU a restored checkpoint no longer evaluate with the modified weights although the modifier asked for it; restoring a checkpoint without modified weights on the CPU leaves the old ones in use.", "quantifier": "all histories, weights, modifier parameters and noise draws", "why_tests_cant": "unbounded histories, all draws", "anchors": ["src/rpucuda/weight_modifier.cpp", "src/rpucuda/rpu.cpp", "src/rpucuda/cuda/weight_modifier_cuda.cu", "src/rpucuda/cuda/rpucuda.cu", "src/aihwkit/simulator/tiles/torch_tile.py:TorchSimulatorTile.modify_weights"]}
{"id": "C45", "title": "Pulses delivered by an update", "statement": "In each time slot a crosspoint receives a pulse iff both its row and its column fire; the direction of every pulse is that of -lr * x_j * d_i; both stochastic pulse types deliver the same pulses to each cell; a zero input or error leaves the cell untouched; a saturated pair receives exactly BL pulses; the deterministic types deliver the documented count. Exceptions: a resolution given as a number of steps yields no pulse at all, and the deterministic types ignore the sign of the learning rate.", "quantifier": "all vectors, sizes, train lengths, resolutions, draws", "why_tests_cant": "continuum and unbounded sizes", "anchors": ["src/rpucuda/sparse_bit_line_maker.cpp", "src/rpucuda/dense_bit_line_maker.cpp", "src/rpucuda/rpu_weight_updater.cpp"]}
{"id": "C46", "title": "Pulse response of devices", "statement": "n noise-free pulses move a constant-step cell by n steps until the bound; a soft-bounds cell approaches its bound geometrically with ratio 1 - dw/w_bound and never passes it; for the modelled classes an up (down) pulse without noise never decreases (increases) the weight. A pow-step-reference cell whose weight plus reference leaves the range jumps to its lower end.", "quantifier": "all cells, weights, numbers of pulses", "why_tests_cant": "continuum, unbounded pulse counts", "anchors": ["src/rpucuda/rpu_constantstep_device.cpp", "src/rpucuda/rpu_linearstep_device.cpp", "src/rpucuda/rpu_powstep_reference_device.cpp"]}
{"id": "C47", "title": "Weight drift in training devices depends on total time only", "statement": "Repeatedly applying drift to an unchanged weight gives a weight that depends only on the total elapsed time, not on how it was split into calls (for nu independent of the weight), also with bounds; a changed weight restarts its drift, but only at the next call, so it is not drifted for the interval in which it changed; without noise drift only shrinks magnitudes and keeps signs. The GPU does the same for every element of the array, number of threads and order, except that the dependence on the weight uses the logarithm to base ten instead of the natural one. A checkpoint keeps the drift clock only for tiles with a pulsed device on the CPU: floating-point tiles never load it, pulsed devices on the GPU save it under a name they do not load (strict loading fails), and a tile moved to the GPU starts its clock anew; then the already drifted weight drifts from the start of the power law again.", "quantifier": "all sequences of calls, times, drift parameters", "why_tests_cant": "unbounded call sequences", "anchors": ["src/rpucuda/weight_drifter.cpp", "src/rpucuda/cuda/weight_drifter_cuda.cu", "src/rpucuda/cuda/rpucuda_simple_device.cu:dumpExtra,loadExtra", "src/rpucuda/rpu.cpp:loadExtra"]}
{"id": "C48", "title": "Quantization ranges change only while estimating", "statement": "A quantization manager updates its ranges exactly in forward passes made while estimating (always) or estimating in training (in training mode). Otherwise no sequence of forward passes on any inputs, successful or not, changes how any tensor is quantised. While updating with the current or all-min-max estimator, each batch is reproduced within half a step of a grid spanned by the extremes of that batch or of all batches. Before any data evaluation and fix_ranges raise. reset_ranges makes the manager behave like a new one on every later sequence of calls. Exception: a manager constructed with x_min and x_max has no estimator and raises AttributeError in every forward and reset.", "quantifier": "all sequences of calls, inputs, options", "why_tests_cant": "unbounded call sequences", "anchors": ["src/aihwkit/simulator/digital_low_precision/quantization_manager.py"]}
{"id": "C49", "title": "Parameter cache of quantised layers", "statement": "In training mode a quantised layer always computes with its present weights (quantised if switched on). In evaluation mode it may reuse cached parameters; if weights and range states change only in training mode, every sequence of calls gives the same outputs and errors as with caching off. train(True), quantized_weights, full_precision_weights, caching=False and a device or type move refresh the cache. Exception: after a forward pass in evaluation mode, load_state_dict, optimizer steps and range estimation are ignored until such a refresh, even in full precision.", "quantifier": "all sequences of calls, weights, layer operations", "why_tests_cant": "unbounded call sequences", "anchors": ["src/aihwkit/simulator/digital_low_precision/hijacker.py", "src/aihwkit/simulator/digital_low_precision/base_quantized_classes.py"]}
{"id": "C50", "title": "Calibration of quantization ranges", "statement": "calibrate_quantization_ranges estimates on exactly the first max_num_batches + 1 batches (one more than documented); later batches have no influence. If it succeeds, weights are unchanged, every quantizer that has a range is fixed and every layer called in the used batches has its quantizers initialised; fixed quantizers keep their ranges under every later sequence of calls except a new range state. Exceptions: the model is left in evaluation mode, quantizers of layers not called stay estimating, and the weight range of a layer that held cached parameters in evaluation mode is not estimated.", "quantifier": "all networks, loaders, sequences of layer calls", "why_tests_cant": "unbounded batch sequences", "anchors": ["src/aihwkit/inference/calibration/calibration.py:calibrate_quantization_ranges", "src/aihwkit/nn/low_precision_modules/quantization_states.py"]}
{"id": "C51", "title": "convert_to_quantized follows the quantization map", "statement": "If convert_to_quantized succeeds: excluded modules and quantizers keep their class, tensors and everything below; an instance entry has priority over a class entry; an entry with zero bits leaves the module as it is; a selected torch layer becomes its quantized class with the same attributes and the very tensors of the original, an analog layer is first converted to digital, other modules go through the constructor of the entry; unselected modules keep class, value and child names; modules below the root with an input entry are wrapped; the quantization states of all quantized modules are those of their configuration. It succeeds whenever every selected module it reaches is convertible. The converted layer computes the function of the original on the quantized weight. Exceptions: only the first name of a child shared within a parent is converted; convolutions pad with zeros whatever their padding mode; new layers are in training mode with trainable parameters; a LayerNorm without parameters raises; an excluded root raises.", "quantifier": "all module trees, quantization maps, paths", "why_tests_cant": "trees and maps are unbounded", "anchors": ["src/aihwkit/nn/low_precision_conversion.py:convert_to_quantized,quantize_model", "src/aihwkit/nn/low_precision_modules/conversion_utils.py", "src/aihwkit/nn/low_precision_modules/quantized_base_modules.py", "src/aihwkit/nn/low_precision_modules/quantized_input_module.py", "src/aihwkit/nn/low_precision_modules/quantization_states.py:enable_quant_states"]}
{"id": "C52", "title": "Buffered transfer (TTv2) loses nothing", "statement": "For every history of updates of a buffered transfer compound and every weight: the digital buffer equals the initial value plus everything read (times the absolute transfer learning rate) minus (1 - momentum) times the threshold for every step requested from the next device; a step is requested exactly when the buffer reaches the threshold, in the direction of its sign, never more than desired_BL per read; without momentum the steps track the accumulated reads within one threshold; the next device is changed by nothing but pulses answering these requests (exactly one pulse per requested step for desired_BL = 1). The read schedule is that of the plain transfer compound. Exceptions: set_weights keeps the buffers; forget_buffer drops the remainder; the scratch vector is shorter than the read for row transfer with more columns than rows.", "quantifier": "all histories, weights, buffers, read results, draws", "why_tests_cant": "unbounded histories", "anchors": ["src/rpucuda/rpu_buffered_transfer_device.cpp", "src/rpucuda/rpu_transfer_device.cpp"]}
{"id": "C53", "title": "Chopped transfer undoes its chopping", "statement": "Chopped compound: the buffer conserves the signed reads as in C52 and the slow device receives only the requested pulses; without an output chopper every gradient pulse on a weight is inverted exactly if the next read of that weight is entered with inverted sign; regular choppers switch every max(ceil(1/p), 2) reads of the slice; with zero chopper probability and equal thresholds devices, counters and visible weights are those of the buffered compound for every history; the visible weight uses the right chopper signs while all choppers agree. Exceptions: output choppers are not undone for slices read earlier in the cycle; the visible weight of a non-hidden compound mixes up rows and columns of the choppers; with automatic transfer_every the fast device is read twice per period.", "quantifier": "all histories, chopper draws, array sizes, transfer directions", "why_tests_cant": "unbounded histories, all draws", "anchors": ["src/rpucuda/rpu_chopped_transfer_device.cpp", "src/rpucuda/rpu_buffered_transfer_device.cpp"]}
{"id": "C54", "title": "Dynamic transfer (AGAD) cancels offsets", "statement": "For every history of updates of a dynamic transfer compound: adding any constant offset per weight to all reads (with means shifted alike) changes nothing but the means; the reference subtracted from a read is the exponential mean of all earlier reads of the weight up to the end of the last finished chopper phase; the mean stays among the reads; the buffer is the sum of signed scaled differences minus the requested steps and is bounded by the cap; gradient pulses are inverted exactly if the next read is entered inverted; the slow device receives only pulses answering requested steps and none before every slice has been read n+1 times. Exceptions: steps requested in the warm-up are removed from the buffer without being written; random chopping does not replace the regular switching; in_chop_prob = 0 chops at every second read.", "quantifier": "all histories, offsets, draws, array sizes, directions", "why_tests_cant": "unbounded histories, continuum of offsets", "anchors": ["src/rpucuda/rpu_dynamic_transfer_device.cpp", "src/rpucuda/rpu_chopped_transfer_device.cpp"]}
{"id": "C55", "title": "Python transfer tile conserves what it reads", "statement": "For every history of updates of a TorchTransferTile and every pair of inner tiles (any device, any noise), failing updates included: the digital buffer is its initial value plus all scaled signed reads minus (1 - momentum) times the steps written; the steps of a read are the buffer without its fractional part; the visible weights change only by the writes of these steps; for a supported setting with batches of at most one period exactly floor(N/T) slices are read after N samples, in cyclic order starting at slice 1, one per period; the chopper applied to the inputs of a column equals the one applied to the next read of it, so that with an ideal gradient tile gradients enter the buffer with their own sign; the reference of the dynamic compound is the running mean at the last chopper switch. Unsupported settings raise before any change. Exceptions: the input tensor of the caller is multiplied by the choppers in place; forget_buffer sets the buffer to the constant momentum; transfer_every = 0 and batches containing two transfers raise after the gradient update; row transfer with more rows than columns raises IndexError; columns other than 0 switch their chopper at their first read; counters are not part of the state_dict, so a resumed tile reads other slices unless saved when all counters are zero.", "quantifier": "all histories, inner tiles, draws, batch sizes, options", "why_tests_cant": "unbounded histories, arbitrary inner devices", "anchors": ["src/aihwkit/simulator/tiles/transfer.py:TransferSimulatorTile.update", "src/aihwkit/simulator/tiles/transfer.py:TransferSimulatorTile.__init__", "src/aihwkit/simulator/tiles/transfer.py:TransferSimulatorTile.dump_extra", "src/aihwkit/simulator/configs/compounds.py"]}
{"id": "C56", "title": "Analog convolutions are convolutions", "statement": "For every 1-, 2- or 3-d analog convolution (kernel, stride, padding, dilation, channels, analog bias), every tile and every history of well-formed inputs of any sizes and batch sizes (in 2-d and 3-d: inputs with equally many pixels have the same shape): the next forward pass gives the tile exactly the zero-padded windows of the input in channel order (plus a one for the bias) and places its outputs at [sample, channel, window]; with an exact tile the result is the convolution. Output sizes are those of the convolution. Implicit indexing and explicit unfolding agree for every tile. The backward pass adds to each pixel what the tile returns for every window and kernel element that looked at it; the update receives the pairs of windows and output gradients. Exceptions: a changed shape with equally many elements is not noticed and convolved as if it had the former shape; with indexing the number of channels is not checked; backward pass and update use the indices of the latest forward pass, so a forward pass with another size in between gives wrong updates.", "quantifier": "all geometries, tiles, histories, inputs", "why_tests_cant": "all geometries and unbounded histories of shapes", "anchors": ["src/aihwkit/nn/modules/conv.py:_AnalogConvNd,AnalogConv1d,AnalogConv2d,AnalogConv3d", "src/aihwkit/simulator/tiles/periphery.py:set_indexed,joint_forward_indexed,backward_indexed,update_indexed", "src/rpucuda/rpu.cpp:forwardIndexed,backwardIndexed,updateIndexed,copyIndexedInput,copyIndexedOutput", "src/rpucuda/math_util.cpp:permute132"]}
{"id": "C57", "title": "Mapped convolutions are the unmapped convolution", "statement": "For every mapped 1-, 2- or 3-d analog convolution and every tile size limit: the channels are split into parts that add up, none empty, none exceeding the limit, balanced, as few as possible; a kernel that does not fit raises ModuleError; an analog bias is rejected. For every history of well-formed inputs (equal numbers of pixels meaning equal shapes) each tile receives the windows of the channels of its part only, and output channel o is the sum over the input parts of what the responsible tiles return, plus the bias of o; with exact tiles this is what the unmapped layer computes. get_weights after set_weights returns the weight. Exception: the input size is remembered before it is checked, so after a rejected input the next input with that number of elements is processed with the indices of the last accepted one.", "quantifier": "all geometries, tile size limits, tiles, histories, weights", "why_tests_cant": "all geometries and unbounded histories of shapes", "anchors": ["src/aihwkit/nn/modules/conv_mapped.py:_AnalogConvNdMapped.get_split_sizes,_recalculate_indexes,forward,set_weights,get_weights"]}
{"id": "C58", "title": "Recurrent layers are recurrences", "statement": "For every cell, noise and sequence: output t of a layer is the output of the cell for input t and the state after the earlier (reverse layers: later) inputs; rows of bidirectional outputs are the forward row followed by the backward row; in a stack every layer gets the outputs of the one before, dropout acts on all but the last. A pass over a sequence equals two passes over its parts with the returned states handed over; early outputs do not depend on later inputs. With exact tiles the cells are the vanilla, LSTM (gates i, f, g, o) and GRU cells of torch, and the combined-weight LSTM with [W_ih | W_hh] and the summed biases equals the LSTM. Whatever the tiles return, LSTM and vanilla outputs stay in [-1, 1], GRU outputs in [-M, M] for M at least 1 and the initial state, LSTM cell states grow by at most one per step. Well-shaped inputs never raise and give the expected shapes; with row-wise tiles the samples of a batch do not influence each other. Exceptions: empty sequences raise; a bidirectional layer with one state silently drops the backward direction; fewer states than layers raise, further ones are ignored; num_layers < 1 builds one layer.", "quantifier": "all cells, tiles, sequences, batch sizes, numbers of layers", "why_tests_cant": "unbounded sequences and stacks, arbitrary noise", "anchors": ["src/aihwkit/nn/modules/rnn/cells.py:AnalogVanillaRNNCell,AnalogLSTMCell,AnalogLSTMCellCombinedWeight,AnalogGRUCell", "src/aihwkit/nn/modules/rnn/layers.py", "src/aihwkit/nn/modules/rnn/rnn.py:ModularRNN,AnalogRNN.forward"]}
{"id": "C59", "title": "Mixed-precision compound loses no gradient", "statement": "For every sequence of updates with both vectors quantised or none: accumulator entry plus granularity times all steps ever transferred from it equals its initial value plus the sum of lr * q(d)_j * q(x)_i, where q rounds to the nearest admissible multiple of max/floor(bins/2) (after adding the stochastic offset). A transfer takes whole steps only, leaves less than one step of the same sign, and writes only cells of transferred rows, all pulses in the direction of the gradient step, none for a zero count; transfers happen exactly after positive multiples of transfer_every * m_batch completed updates, rows are served cyclically and equally often (up to one), never if disabled. With the forced update management, um_grad_scale 1 and counts within desired_bl the largest count of a row is delivered exactly; on an ideal constant-step device with counts up to one, weight minus accumulator is exact SGD for all draws. Setting weights clears accumulator, schedule and statistics; the hidden weights round-trip; a positive granularity is required. Exceptions: one quantised vector writes the error to a wrong buffer position (only one row learns, out of bounds for more columns than rows); one bin divides by zero; counts beyond desired_bl are lost silently; the reported sparsity counts only cells where both factors vanish.", "quantifier": "all parameters, vectors, draws and sequences of updates", "why_tests_cant": "unbounded histories, all random draws", "anchors": ["src/rpucuda/rpu_mixedprec_device.cpp:MixedPrecRPUDevice.doDirectVectorUpdate,forwardUpdate,onSetWeights,getChi,setChi", "src/rpucuda/rpu_mixedprec_device_base.cpp:transfer,doTransfer,setUpPar,computeSparsity,populate", "src/aihwkit/simulator/configs/compounds.py:MixedPrecisionCompound,DigitalRankUpdateCell"]}
{"id": "C60", "title": "Containers reach every tile exactly once", "statement": "For every model (modules shared under several names, None entries and cycles included): the named tiles, layers and analog modules of any module are exactly the registered ones, each once, under distinct names by which they can be reached. Functions applied to the tiles act once on each. get_weights of a container returns under every tile name what that tile returns; set_weights writes every tile once with its own entry, so that writing what was read succeeds and changes nothing, and weights can be copied between models with the same tile names. Drift reaches every inference tile once and nothing else, and is refused in training mode before any change. Loading a checkpoint leaves dictionary and strictness alone unless it has empty analog contexts; the load flags reach every tile. prepare_for_ddp raises exactly if some tile does not support it and otherwise ignores exactly the analog contexts and tile states. Exceptions: set_weights with a missing entry raises after the earlier tiles have been written, and further entries are ignored; program_analog_weights raises whenever a tile is not an inference tile; the tile count is never refreshed; an old checkpoint is shortened in the dictionary of the caller and makes the load non-strict; only the training flag of the module itself is looked at; an entry named exactly like a search word stops later entries from being ignored.", "quantifier": "all module graphs, tiles, dictionaries", "why_tests_cant": "unbounded graphs with sharing and cycles", "anchors": ["src/aihwkit/nn/modules/base.py:AnalogLayerBase", "src/aihwkit/nn/modules/container.py:AnalogContainerBase"]}
{"id": "C61", "title": "C++ analog passes: exactness, scale, range, averaging", "statement": "The forward and backward pass of the C++ tiles (one-pass, positive-negative in analog or digital). Without converters, noise and circuit effects the outputs are out_scale * alpha * W x exactly, whatever noise and bound management, if the inputs fit into the input range after division by the noise-management value and the outputs fit after the largest allowed reduction; the backward pass is the forward pass of the transposed tile without bound management, so the two are adjoint. With absolute-maximum (or NP-sum) noise management multiplying the input by c > 0 multiplies every output by c, for all converters, noises and non-linearities with the same random numbers. Outputs never exceed the output range times scale, reduction and number of passes. The noise-management values are the documented ones; the average one is the exponential mean of the peaks of all calls. Exceptions: forward and backward passes share that average; with NM Max and no positive input the outputs are zero; the backward pass returns zeros for a zero value even with input noise; absMaxSingle raises.", "quantifier": "all sizes, weights, inputs, parameters, random draws, call histories", "why_tests_cant": "continuum of parameters and draws, unbounded histories", "anchors": ["src/rpucuda/rpu_forward_backward_pass.cpp:forwardVector,backwardVector,computeNoiseManagement", "src/rpucuda/rpu_pulsed_meta_parameter.h:IOMetaParameter"]}
{"id": "C62", "title": "C++ bound management", "statement": "The forward pass always ends: it returns an output or raises (only for absMaxSingle, split mode and bit-wise). The output is that of the first round whose bound test passes or whose reduction exceeds a limit, multiplied back by exactly the divisor applied to the inputs in that round; rounds before it overflowed within the limits; their number is at most logarithmic in max_bm_factor. With bm_test_negative_bound the test passes exactly if no output was clipped. Exceptions: without it an output below the negative bound resets the test, so overflows of earlier outputs are forgotten; worst-case bound management without noise management repeats the first round unchanged.", "quantifier": "all inputs, parameters, draws of every round", "why_tests_cant": "data-dependent loop with arbitrary draws", "anchors": ["src/rpucuda/rpu_forward_backward_pass.cpp:forwardVector,finalizeOutputImplStage5"]}
{"id": "C63", "title": "C++ converters and circuit non-idealities", "statement": "Input stage: round to the grid, clip, noise, asymmetry; output stage: saturation, asymmetry, noise, round, clip. The saturation is odd, strictly increasing, bounded and of slope at most its calibration. IR drop subtracts from every product a share growing with the total current of the line, is odd and never increases or reverses the output of a line of positive products while the drop is moderate. Voltage offsets and series resistance are monotone contractions (without reference current). Weight noise has the standard deviation of the documented model. Positive-negative splitting changes nothing for linear circuits. Initialisation converts resolutions into steps, non-positive bounds into none, rejects noise management with another input bound and offset vectors of wrong size. Exceptions: the first input of a line suffers no IR drop; a vector of output non-linearities of wrong size is silently replaced; asymmetries act in one-pass mode too.", "quantifier": "all parameters, weights, inputs, draws", "why_tests_cant": "continuum of parameters and draws", "anchors": ["src/rpucuda/rpu_forward_backward_pass.cpp:prepareInput,finalizeOutput,applyIrDrop,applyVoltageOffsets,applyOutputWeightNoise,populateFBParameter", "src/rpucuda/rpu_pulsed_meta_parameter.cpp:initializeForForward,initializeForBackward"]}
{"id": "C64", "title": "Torch and C++ analog products are the same function", "statement": "For every configuration the torch product accepts (iterative or no bound management; noise management none, absolute maximum, constant or maximum; with noise management an input bound of 1; positive ranges where resolutions are set; non-negative output noise and asymmetry), every weight matrix and every input vector: the python AnalogMVM product and the C++ forward pass with the same IOParameters and the same random numbers return the same outputs, bound-management rounds included. Exceptions: a perfect torch product ignores out_scale; torch treats ITERATIVE_WORST_CASE as ITERATIVE; with noise management MAX and only negative inputs the C++ pass returns zeros; in a torch batch one overflowing sample puts all samples into the next round; negative output noise or asymmetry.", "quantifier": "all supported configurations, weights, inputs, draws of every round", "why_tests_cant": "two independent implementations, continuum of inputs and draws", "anchors": ["src/aihwkit/simulator/tiles/analog_mvm.py:AnalogMVM.matmul", "src/rpucuda/rpu_forward_backward_pass.cpp:forwardVector", "src/aihwkit/simulator/rpu_base_src/rpu_base_devices.cpp"]}
{"id": "C65", "title": "Vector and reference unit cells", "statement": "After creation and every history of updates (any pulse type but None), decay, diffusion, drift, clips, resets, writes and hidden-parameter writes, the visible weight of a vector unit cell is the weighted sum of the hidden weights (mean by default). Each update reaches all devices or exactly the one the policy names; sequential updates visit the devices in turn, equally often, starting after first_update_idx; the other devices are unchanged and stay within bounds. set_weights writes all devices (or under the fixed policy only the selected one), so reading back returns the value times the sum of the weighting; in a reference cell it returns the value minus the reference, and the reference is never changed by training. Exceptions: an update index outside the devices is not checked; floating-point updates (None, NoneWithDevice) are lost on unit cells.", "quantifier": "all devices, weightings, policies, draws, histories", "why_tests_cant": "unbounded histories of operations and all random draws", "anchors": ["src/rpucuda/rpu_vector_device.cpp:initUpdateCycle,doSparseUpdate,doDenseUpdate,reduceToWeights,onSetWeights,populate,setHiddenUpdateIdx", "src/aihwkit/simulator/configs/compounds.py:VectorUnitCell,ReferenceUnitCell"]}
{"id": "C66", "title": "One-sided unit cells", "statement": "For every history the visible weight is g+ - g-. An update never lowers either device: up requests go to g+ and down requests, as up pulses, to g-, each exactly as often as requested. set_weights puts the positive part on g+, the negative part on g- and reads back exactly when within bounds. A refresh happens exactly after every refresh_every updates (times batch size if in batches), touches only cells that exceed the thresholds, resets both sides there and writes the difference to the larger side; with noise-free steps whose pulses add up to the difference it preserves the weight. Both devices stay within their bounds. Exceptions: with deterministic pulse types the refresh writes downwards and loses the weight; with write noise it raises; with copy_inverted the weight can never become positive.", "quantifier": "all devices, requests, draws, thresholds, histories", "why_tests_cant": "unbounded histories, all draws", "anchors": ["src/rpucuda/rpu_onesided_device.cpp:doSparseUpdate,doDenseUpdate,finishUpdateCycle,refreshWeights,refreshCriterion,onSetWeights,populate", "src/aihwkit/simulator/configs/compounds.py:OneSidedUnitCell"]}
{"id": "C67", "title": "Weight programming strategies of the optimizer are feasible", "statement": "Every point of the optimizer's search cube becomes a valid programming strategy: given significance factors are kept and open ones lie in their range, all conductances lie in [g_min, g_max], and grid point i realises the weight W (i/(nbins-1) - 1) up to the allowed programming error (exactly without it), where W is between 5 % and 100 % of the range of the pairs (100 % with use_max_kw). With symmetric=True the strategy of a negative weight is the mirror image of that of the positive one. Without programming error the resulting CustomPairConductanceConverter converts every weight tensor to conductances and back exactly, so skipping its invertibility test is justified.", "quantifier": "all optimizers (pairs, factors, ranges, grid sizes >= 2) and all points of the cube", "why_tests_cant": "continuum of points in a cube of unbounded dimension", "anchors": ["src/aihwkit/inference/converter/wpo.py:denormalize,partition_parameters,reformat_x_g,span_of_remaining_pairs,WeightProgrammingOptimizer.generate_hop_bounds"]}
{"id": "C68", "title": "Weight programming optimizer: objective, baseline and result", "statement": "The error of a strategy is the mean over entries and time steps of the squared (ten times amplified) weight error relative to the largest weight; the search stops at a point exactly if its error is below (1 - loss_margin) times the baseline. The test weights have the requested shape, lie between the smallest and largest given weight and contain both. The returned converter is that of the point returned by the search, the mapping of the configuration is restored and best_loss is the error of that point. Exceptions: the baseline does not depend on g_converter_baseline but on the converter already in the configuration; the success flag is truthy unless the objective is exactly zero; a second run keeps the factors found, uses the restored mapping and the first result as baseline.", "quantifier": "all configurations, weights, drifted weights, search results", "why_tests_cant": "continuum of weights, random programming and drift, arbitrary search results", "anchors": ["src/aihwkit/inference/converter/wpo.py:loss_weights,loss_fxn,stop_criterion,downsample_weight_distribution,WeightProgrammingOptimizer.get_loss_baseline,differential_weight_evolution,run_optimizer"]}
{"id": "C69", "title": "Time-dependent IR drop: decomposition of the inputs", "statement": "Split mode accepts exactly the input resolutions 1 / (2^N - 2) with a shift s below N and writes every input as lo + 2^s hi, both whole numbers of time units when the input is one, |lo| < 2^s units, |hi| 2^s <= |x|. Bit-wise mode represents an input of the form sum of 2^b times -1, 0 or 1 units exactly if its magnitude is below 2^n units, which covers the whole input range for resolutions of that form. Without IR drop and with an ideal output stage all three modes return the plain product. Exception: bit-wise mode does not check the form of the resolution and loses the largest inputs for other resolutions.", "quantifier": "all resolutions, shifts, inputs and weights", "why_tests_cant": "continuum of inputs and resolutions", "anchors": ["src/aihwkit/simulator/tiles/analog_mvm_irdrop_t.py:AnalogMVMIRDropT._prepare_inputs,_compute_analog_mv"]}
{"id": "C70", "title": "Time-dependent IR drop: linear circuit and read-out", "statement": "The output current of a column is at every time linear in the states of the input pulses, with attenuations that depend on the conductances and wire resistance only, lie in (0, 1], grow towards the output and are 1 without wire resistance, plus an input-independent leakage. Hence for every converter that represents the weights exactly (single pair, several pairs) and every input on the time grid the product is that of attenuated weights, plus an offset proportional to the number of time steps; even columns are attenuated least at the last row and odd ones at the first; without wire resistance it is the exact product. The attenuations are the same in one-pass, split and bit-wise mode. The output converter loses less than one count, towards zero. The compiled kernel equals the Python loop with one row per segment. Exceptions: with trapezoidal integration (the default) every non-zero input is read half a step too long, in bit-wise mode the product is 1.5 times too large; an odd number of columns, exactly one row less than the physical rows, or segments that do not divide the rows raise.", "quantifier": "all weights, inputs, conductances, wire resistances, segments, time grids", "why_tests_cant": "continuum of weights and inputs, circuits of unbounded size", "anchors": ["src/aihwkit/simulator/tiles/analog_mvm_irdrop_t.py:AnalogMVMIRDropT._matmul_irdrop,_thev_equiv,_interleave_cols_nd,_pad_symmetric,_apply_adc_quantization", "src/aihwkit/extension/extension_src/ops/thevenin_equiv_op.cpp"]}
{"id": "C71", "title": "Float precision cast", "statement": "The float-precision-cast op accepts exactly 2..8 exponent bits with 3..22 mantissa bits (RuntimeError otherwise) and works element by element. A normal FP32 number is rounded to the nearest number with ml+1 significant bits, ties away from zero; results below the smallest normal number of the format become +0; numbers of the format are unchanged; casting twice is casting once; negating the input negates the value. With saturation to infinity (or 8 exponent bits) too large numbers become infinities and the cast is monotone. Exceptions: without saturation a too large number is not clipped to the largest one but keeps its significand with the reserved exponent, so the cast is not monotone for any format with fewer than 8 exponent bits; NaN becomes an infinity (or the reserved power of two); the gradient of the autograd function raises.", "quantifier": "all FP32 bit patterns, formats, tensor lengths", "why_tests_cant": "2^32 inputs times all formats; order and idempotence relate pairs of executions", "anchors": ["src/aihwkit/extension/extension_src/ops/float_prec_common.h", "src/aihwkit/extension/extension_src/ops/float_prec_op.cpp:floatPrecisionCastCPU,float_precision_cast", "src/aihwkit/extension/functions.py:FloatPrecisionCast"]}
{"id": "C72", "title": "AnalogMatrix is the matrix it was made from", "statement": "For every matrix, every configuration that stores exactly without input range, and every history of products, transposed products and rank updates: the shape is that of the matrix, A @ x is the matrix-vector product and x @ A the transposed one (adjoint to each other) with the matrix plus alpha times the sum of d x^T of all ger calls. Operands of a wrong length raise and change nothing. A matrix as right operand is taken row by row: X (k, cols) gives X A^T; A.matmat raises for a non-square operand with cols rows and returns X A^T for a square one; a column vector raises. Matrices above the mapping limits (default 512) are stored on a tile array: products with torch vectors stay exact, while products with numpy vectors, x @ A and ger raise AttributeError.", "quantifier": "all matrices, configurations, operands, call histories", "why_tests_cant": "unbounded histories and sizes", "anchors": ["src/aihwkit/linalg/matrix.py:AnalogMatrix", "src/aihwkit/simulator/parameters/mapping.py:MappableRPU.get_default_tile_module_class"]}
{"id": "C73", "title": "Extra state and analog-pass parameters of C++ tiles", "statement": "The extra state (dump_extra, part of every pickled or saved tile) of a tile without nested compounds can always be dumped and, loaded strictly or not into a tile of the same configuration, restores counters, choppers, noise and analog-pass parameters, learning rate, delayed-update buffer and all device fields, whatever order the maps are visited in; not restored are the tile-level drift state and the weight modifier's flag, although both are saved. A compound inside a compound always makes the dump raise; mixed precision around a transfer compound raises depending on the map order. A strict load raises if any entry of the tile's own dump is missing, up to four optional ones; a lenient load of nothing changes nothing but (via an uninitialised variable) allocation flags. set_forward/backward_parameters changes exactly the named parameters and raises ArgumentError on unknown names or other lengths; get after set returns the values. With a transfer compound the names address both its own and the transfer pass.", "quantifier": "all tiles, devices (any number per cell), values, map orders, dictionaries", "why_tests_cant": "any nesting and number of devices, any iteration order of the hash maps", "anchors": ["src/rpucuda/utility_functions.cpp:insertWithPrefix,selectWithPrefix,load,insert", "src/rpucuda/rpu.cpp:dumpExtra,loadExtra", "src/rpucuda/rpu_pulsed.cpp:dumpExtra,loadExtra", "src/rpucuda/rpu_vector_device.cpp:dumpExtra,loadExtra", "src/rpucuda/rpu_transfer_device.cpp:dumpExtra,loadExtra", "src/rpucuda/rpu_mixedprec_device_base.cpp:dumpExtra,loadExtra", "src/aihwkit/simulator/tiles/rpucuda.py:_get_extra_parameters,_set_extra_parameters"]}
{"id": "C74", "title": "Configuration settings reach the simulator", "statement": "For every configuration object: if the conversion to a simulator object returns, every setting at any nesting depth whose path goes through declared, not ignored fields of dataclasses with a bindings class is found under the same attribute path with the same value (enums: the bound member of the same name; tile level: forward/backward renamed to forward_io/backward_io), nothing else is assigned, and the object is of the named class of the requested data type. It returns exactly if all declared fields are present, no undeclared attribute exists (ConfigError otherwise; but the tile-level object is not checked, so misspelt attributes are silently ignored there), all plain values have an admissible type (int for float, bool for int, never bool for float) and the simulator accepts them. A class missing in the library is not reported: the Python object itself is returned. Compounds: vector cells pass all devices in order; reference cells the first two, or the only one twice; one-sided cells one (twice) or two of the same class; transfer compounds the first and then only copies of the second (further devices have no effect); chopped/dynamic exactly two; mixed precision its one device.", "quantifier": "all configuration objects, nestings, libraries, data types, device lists", "why_tests_cant": "unbounded nesting depth and number of fields and devices, any library", "anchors": ["src/aihwkit/simulator/parameters/helpers.py:get_bindings_class,parameters_to_bindings,tile_parameters_to_bindings", "src/aihwkit/simulator/configs/compounds.py:as_bindings", "src/rpucuda/rpu_vector_device.cpp:appendVecPar", "src/rpucuda/rpu_onesided_device.cpp:appendVecPar"]}
{"id": "C75", "title": "Response of a SoftBoundsPmaxDevice", "statement": "For every p_max >= 1, alpha in (0,1/2], range_min < 0 <= range_max, a device without variations converts to w_min = range_min, w_max = range_min + B, dw_min = B alpha, up_down = 1 + 2 range_min / B with B = (range_max - range_min)/(1 - exp(-alpha p_max)), all other attributes unchanged; n up pulses give w_max - (w_max - w)(1 - alpha min(B/w_max, 2))^n and n down pulses range_min + (w - range_min)(1 - alpha min(B/-range_min, 2))^n. Contrary to the documentation (p_max pulses drive range_min to range_max), the response lies strictly above the documented curve for every n >= 1, so range_max is passed before p_max pulses. p_max alpha = 0 or an empty range raise ZeroDivisionError, range_min > 0 is refused when the tile is built, and with range_min = 0 down pulses have no effect.", "quantifier": "all parameters, numbers of pulses and start weights", "why_tests_cant": "real-valued parameters and unbounded pulse trains", "anchors": ["src/aihwkit/simulator/configs/devices.py:SoftBoundsPmaxDevice.as_bindings", "src/rpucuda/rpu_pulsed_device.cpp:populate", "src/rpucuda/rpu_linearstep_device.cpp:populate"]}
{"id": "C76", "title": "What a reload restores of compound devices", "statement": "Saving and loading a tile restores visible weights, learning rate, device parameters and counters of vector, one-sided and mixed-precision unit cells. It does not restore their inner weights: every device of a vector cell (the selected one under the fixed policy) gets the visible weight limited to its bounds, so the cell is restored exactly iff every device held that value, and the first update makes the weight the weighted sum of these; a reference cell is shifted by the reference; a one-sided cell comes back as after an ideal refresh (common part lost, difference kept); the accumulated gradient of mixed precision becomes zero, and the next update accumulates only its own gradient.", "quantifier": "all device parameters, weights, policies, weightings, counters and random draws", "why_tests_cant": "needs all states of the hidden devices; tests compare the visible weights after loading", "anchors": ["src/aihwkit/simulator/tiles/base.py:SimulatorTileWrapper.__setstate__", "src/rpucuda/rpu_vector_device.cpp:setDeviceParameter,onSetWeights", "src/rpucuda/rpu_onesided_device.cpp:onSetWeights", "src/rpucuda/rpu_mixedprec_device_base.cpp:setDeviceParameter"]}
{"id": "C77", "title": "What analog_summary reports and leaves behind", "statement": "analog_summary lists, in order of the calls of its forward pass, one entry per call of each leaf or innermost non-container analog layer; every tile of the model belongs to exactly one such layer, and the reported totals equal the number of tiles and analog layers if each is called exactly once (n calls count n times, no call counts zero). The reuse factor of a linear layer is the product of the leading input dimensions, that of a convolution batch times positions (for unbatched outputs the height is mistaken for the channels). Utilisations of a mapped layer lie in (0,100] and average to weights/(tiles x tile area); other classes always report 100, a zero limit on a mapped class raises. The hooks are never removed: later forward passes extend earlier summaries without changing their totals, and if a summary raises, every later equal run of the model raises the same error.", "quantifier": "all module trees, layer sizes, limits, call sequences and histories of summaries and runs", "why_tests_cant": "unbounded trees and call sequences; the effect on later runs only shows in histories", "anchors": ["src/aihwkit/utils/analog_info.py:TileInfo.__init__,LayerInfo.calculate_reuse_factor,AnalogInfo.register_hooks_recursively,AnalogInfo.create_layer_summary"]}
{"id": "C78", "title": "Conversion of legacy checkpoints", "statement": "convert_legacy_checkpoint, given a model, converts every checkpoint whose entries are legitimate and that has at least one tile: tile states, analog contexts and output scales named with `_0` (or no number) move to <layer>.analog_module.<name>, those with two or more numbers to <layer>.analog_module.array.i.j.<name> (<layer>.array.i.j.<name> for mapped convolutions); mapping scales become the product of the stored mapping scales and the very old alpha scale, one per output; old entries are dropped, the bias flag is renamed and everything else in a state is kept; a digital bias of an analog layer moves into the tile module; shared weights are dropped; all other entries are kept; the returned configuration is the converted one of the last tile. Exceptions: without a model it always raises AttributeError although the argument is optional; a checkpoint without tiles raises UnboundLocalError; a checkpoint saved by the current version is not recognised as new (misspelled name) and raises; a bias below a module whose name contains `bias` is not moved; a single number other than 0 yields a key with a list literal; the limits in the model's configurations are zeroed if it has no mapped layer, even if the conversion raises.", "quantifier": "all checkpoints (keys as strings, states, configurations) and models", "why_tests_cant": "unbounded key structure: the conversion is string surgery on module paths chosen by users", "anchors": ["src/aihwkit/utils/legacy.py:convert_legacy_checkpoint,check_conv_mapped,get_key_from_ending"]}
{"id": "C79", "title": "Composer training format: export and import", "statement": "BasicTrainingConverter.to_proto succeeds exactly for the FashionMNIST and SVHN data sets, the four supported losses, batch size and epochs in the 32-bit range, and an AnalogSequential whose children are all of supported classes, have all carried attributes in range, and (analog ones) a configuration of one of the presets; every exported experiment can be imported by from_proto: data set, batch size, loss, epochs are equal, the learning rate is rounded to 32 bits, and the model has one new module per child in the same order with the same class and the carried attributes. Exceptions: a module object used twice is exported once; AnalogLinear and AnalogConv2d with bias=False come back with a bias (False is not None); the weight scaling omega of the configuration is lost (set under the misspelled name weights_scaling_omega) and all other settings of the configuration and the uncarried constructor arguments return to defaults. Export and import of an imported experiment changes nothing else.", "quantifier": "all experiments, models of any length and order, attribute values, configurations and 32-bit roundings", "why_tests_cant": "the formats tables are cross-module and the losses depend on every attribute of every layer; tests sample a few models", "anchors": ["src/aihwkit/cloud/converter/v1/training.py:BasicTrainingConverter", "src/aihwkit/cloud/converter/v1/mappings.py:Function,LayerFunction,Mappings,InverseMappings"]}
{"id": "C80", "title": "Composer inference format: export and import", "statement": "BasicInferencingConverter.to_proto succeeds exactly for the two data sets, 64-bit batch size, repeats and time, a sequential model of supported layers with supported configuration classes, and dictionaries with the required keys and values. from_proto of the message returns the same data set, batch size, template, repeats and time and one new module per child with the carried attributes, and every analog layer gets the one configuration made from the settings and the common configuration class, whatever its own configuration was. Exceptions: the loss is always NLLLoss and remapping is always on; import raises ConfigError if two analog layers have different configuration classes, ZeroDivisionError for a one-bit converter, NoiseModelDeviceIDException for another device, AnalogBiasConfigError for a mapped convolution with bias whose configuration class has no digital bias; without analog layers none of these matters.", "quantifier": "all experiments, models, settings dictionaries and default configurations", "why_tests_cant": "depends on every layer of an arbitrary model and on arbitrary dictionaries", "anchors": ["src/aihwkit/cloud/converter/v1/inferencing.py:BasicInferencingConverter", "src/aihwkit/cloud/converter/v1/i_mappings.py:Mappings,InverseMappings,LayerFunction", "src/aihwkit/cloud/converter/v1/rpu_config_info.py:RPUconfigInfo"]}
{"id": "C81", "title": "Inference configuration from Composer settings", "statement": "rpu_config_from_info(analog_info, noise_model_info) returns a WebComposerInferenceRPUConfig with output noise, resolutions 1/(2^adc-2) and 1/(2^dac-2), noise model (pcm or generic, g_max 25, coefficients constant, first, second order, scales, drift parameters only for generic) and drift compensation exactly as in the dictionaries, rounded to 32 bits, and succeeds exactly if all noise settings are present, the analog dictionary has only the three known keys, values fit, neither converter has one bit and the device is pcm or generic; one bit raises ZeroDivisionError, another device NoiseModelDeviceIDException; a missing adc or dac counts as 0 bits, which gives resolution -1.", "quantifier": "all dictionaries (keys, values, bit numbers)", "why_tests_cant": "arbitrary dictionaries and bit numbers", "anchors": ["src/aihwkit/cloud/converter/v1/inferencing.py:rpu_config_from_info", "src/aihwkit/cloud/converter/v1/rpu_config_info.py:create_inference_rpu_config", "src/aihwkit/cloud/converter/v1/noise_model_info.py:NoiseModelInfo"]}
{"id": "C82", "title": "Composer results and settings dictionaries", "statement": "BasicInferencingResultConverter.to_proto succeeds exactly if all keys are present with values of the right kind and writes each number, flag and result in order; to_json_from_pb and result_from_proto return these values (floats rounded to 32 bits) and writing them again gives the same message; to_json keeps all entries and adds version 1/1 unless the results have an entry `version`; BasicTrainingResultConverter.from_proto reports every epoch in order and for each metric the last value; the settings dictionaries read from a message give the same message, except that a device other than pcm is called generic.", "quantifier": "all result dictionaries, any number of results, epochs and metrics", "why_tests_cant": "arbitrary dictionaries and lists", "anchors": ["src/aihwkit/cloud/converter/v1/inferencing.py:BasicInferencingResultConverter", "src/aihwkit/cloud/converter/v1/training.py:BasicTrainingResultConverter"]}
{"id": "C83", "title": "Training experiments", "statement": "BasicTraining.train runs exactly `epochs` epochs (none for a negative number); in each it switches to training mode, optimizes once on every training batch in order, switches to evaluation mode and predicts every validation batch, and calls the hooks with the documented signals and arguments in that order, even if a hook raises somewhere; with LocalRunner the result has one entry per epoch with the epoch number, its duration, the fraction of correct predictions and the losses per sample - not per batch, so that accuracy and validation loss do not depend on how the data are batched; accuracy is between 0 and 1.  An epoch without training or validation samples ends the run with ZeroDivisionError, and the local runner removes hooks registered before.", "quantifier": "all networks, optimizers, losses, data loaders (shuffled differently in each epoch), numbers of epochs, hooks and clocks", "why_tests_cant": "arbitrary sequences of batches, epochs and hooks", "anchors": ["src/aihwkit/experiments/experiments/base.py:Experiment", "src/aihwkit/experiments/experiments/training.py:BasicTraining", "src/aihwkit/experiments/runners/metrics.py:LocalMetric", "src/aihwkit/experiments/runners/local.py:LocalRunner.run"]}
{"id": "C84", "title": "Inference experiments", "statement": "BasicInferencing.inference uses the times 0 and n-1 times from 1 to inference_time equally spaced in the logarithm (increasing, the last one is inference_time); each repeat programs the weights once in evaluation mode and for each time drifts the weights and predicts all batches; after each repeat the hooks get the averages over the repeats so far; with the local runner the final result holds for every time the average accuracy in percent, its population standard deviation, the average error and loss per sample; accuracy and error add up to 100, accuracy is from 0 to 100, the square of the deviation is at most accuracy times error, one repeat has deviation 0; no repeats give an empty result, no samples ZeroDivisionError; the first max_elements samples are used (all if not positive, IndexError if there are fewer) and their batching does not matter.", "quantifier": "all networks, losses, batches, hooks, clocks, numbers of repeats and times, positive inference times", "why_tests_cant": "arbitrary data, repeats and hooks; real arithmetic", "anchors": ["src/aihwkit/experiments/experiments/inferencing.py:BasicInferencing.inference", "src/aihwkit/experiments/experiments/inferencing.py:BasicInferencing.inferencing_step", "src/aihwkit/experiments/runners/i_metrics.py:InferenceLocalMetric", "src/aihwkit/experiments/runners/i_local.py:InferenceLocalRunner.run"]}
{"id": "C85", "title": "Weight templates of inference experiments", "statement": "BasicInferencing.get_model works on a copy of the model: an empty identifier leaves it as it is (without remapping); a local path is converted as in C78 and loaded, and a missing file is no error; a name is loaded from /tmp/weight_templates, where the answer of the server is stored first if it is missing - whatever the answer is - and no later call ever changes a stored file, so that a stored error page is used forever; addresses always raise UnboundLocalError; checkpoints of the current format always raise.", "quantifier": "all identifiers, file systems, servers, models, checkpoints and sequences of calls", "why_tests_cant": "histories of calls with arbitrary server answers", "anchors": ["src/aihwkit/experiments/experiments/inferencing.py:BasicInferencing.get_model", "src/aihwkit/experiments/experiments/inferencing.py:download"]}
{"id": "C86", "title": "Switching the quantization states of a model", "statement": "The functions of quantization_states reach every module of a model, however deeply nested and however often shared, and nothing else: after any sequence of calls a quantized module quantizes its weights (activations) iff the last call that speaks about them said so (enable_quant_states: iff it has bits), and its cached weights are dropped iff a call spoke about weights; the switches never change a quantizer; fix/learn/estimate(_train)_ranges set the state of every quantizer of the model - of the activation (weight) quantizers only for the *_act_* (*_weight_*) functions - except that fixing and learning silently skip quantizers not initialised; reset_act_ranges puts every activation quantizer back to uninitialised estimation, and raises AttributeError as soon as one of them has no range estimator.", "quantifier": "all module trees with shared modules, all states of modules and quantizers, all sequences of calls", "why_tests_cant": "all models and call histories", "anchors": ["src/aihwkit/nn/low_precision_modules/quantization_states.py", "src/aihwkit/simulator/digital_low_precision/base_quantized_model.py:QuantizedModel", "src/aihwkit/simulator/digital_low_precision/base_quantized_classes.py:QuantizedModule", "src/aihwkit/simulator/digital_low_precision/quantization_manager.py:QuantizationManager.reset_ranges"]}
{"id": "C87", "title": "Passes of the C++ floating-point tile in every layout", "statement": "For every tile, batch and combination of the flags bias, x_trans, d_trans: forward computes the product of the weights (the modified ones in training) with every input vector plus the bias column, backward the product with the transposed weights without the bias column, update subtracts learning rate times the sum of the outer products of errors and extended inputs; nothing beyond the results is written. The tensor bindings accept exactly the tensors whose first (transposed) or last dimension fits; with equal layouts the result has the dimensions of the input with that one replaced. Exceptions in the code: with different layouts of input and output the result has wrong dimensions, and for more vectors than inputs results are written behind its end; an empty vector dimension is a division by zero; the keywords x_trans and d_trans of update are exchanged; update with learning rate zero does nothing, without any check.", "quantifier": "all tile sizes, weights, batches, tensor shapes, layouts and values", "why_tests_cant": "all shapes, layouts and values", "anchors": ["src/rpucuda/rpu.cpp:RPUSimple", "src/rpucuda/math_util.cpp:makeBias", "src/rpucuda/math_util.cpp:copyWithoutBias", "src/aihwkit/simulator/rpu_base_src/rpu_base_tiles.cpp"]}
{"id": "C88", "title": "Weight gradients of C++ tiles with shared weights", "statement": "The gradient that the backward pass of a tile with shared weights (hardware-aware training) returns is, for every device and layout, the weight change the update of the tile would make divided by minus the learning rate - exactly the sum of the outer products for floating-point updates, independent of the learning rate; the weights are kept and later updates act on the weights, so that after any history the weights only reflect the updates. A batch is given to the devices sample by sample, in order, in whichever layout the tensors are. Exception in the code: with learning rate zero the returned gradient is uninitialised memory.", "quantifier": "all tiles, devices, learning rates, batches, layouts and histories of updates, backward passes and learning-rate changes", "why_tests_cant": "all devices and histories", "anchors": ["src/aihwkit/simulator/tiles/functions.py:AnalogFunction.backward", "src/rpucuda/rpu_pulsed.cpp:RPUPulsed::updateMatrix", "src/rpucuda/rpu.cpp:RPUSimple::getAndResetWeightUpdate", "src/rpucuda/rpu.cpp:RPUSimple::setDeltaWeights"]}
{"id": "C89", "title": "Decay, diffusion and reset of tiles", "statement": "decay_weights(alpha) moves every stored weight towards the reset bias of its device by the fraction alpha/lifetime, diffuse_weights adds the device's diffusion rate times the draw, both limited to the bounds of the device; so n decays multiply the distance to the bias by the product of the factors and diffusions are random walks. reset_columns redraws exactly the named columns (with wrap-around, for a valid start column) and reset() all of them. Floating-point tiles and ideal devices scale by 1 - alpha/lifetime if lifetime > 1 and 0 < alpha < lifetime and do nothing otherwise. Devices of unit cells do this independently and the tile weights stay the weighted sum; a reset of a transfer compound reaches the first device only. post_update_step does diffusion then decay and its queries skip only calls that change nothing. Exceptions in the code: lifetimes of at most 1 mean total loss for pulsed and no decay for ideal devices; start columns out of range are neither refused nor wrapped. Pulsed devices on the GPU do the same cell by cell for every number and order of threads, with three exceptions: the write noise added after each of these operations has the standard deviation write_noise_std (on the CPU and in updates write_noise_std * dw_min), the last input is not brought within its bounds if the bias does not decay, and a diffusion with all rates zero does nothing at all.", "quantifier": "all devices, parameters, construction draws, histories of calls and random draws", "why_tests_cant": "all histories and draws", "anchors": ["src/aihwkit/simulator/tiles/rpucuda.py:SimulatorTileWrapper.decay_weights", "src/aihwkit/simulator/tiles/rpucuda.py:SimulatorTileWrapper.post_update_step", "src/rpucuda/rpu_pulsed_device.cpp:PulsedRPUDevice::decayWeights", "src/rpucuda/rpu_pulsed_device.cpp:PulsedRPUDevice::resetCols", "src/rpucuda/rpu_simple_device.cpp", "src/rpucuda/rpu_vector_device.cpp", "src/rpucuda/rpu_transfer_device.cpp", "src/rpucuda/cuda/rpucuda_pulsed_device.cu:PulsedRPUDeviceCuda::decayWeights", "src/rpucuda/cuda/rpucuda_pulsed_device.cu:PulsedRPUDeviceCuda::resetCols", "src/rpucuda/cuda/cuda_math_util.cu:kernelElemResetSat"]}
{"id": "C90", "title": "One memory behind the weights of a tile", "statement": "The weights read from a tile, the content of its shared parameter (inference training) and the data of its analog context are one matrix: after any ordinary program - weights set, updates and other in-place operations, optimizer steps on the shared parameter, forward and backward passes, states loaded - all of them equal the result of applying the calls to a single matrix; the tile never works on memory that was given back; two tiles never influence each other, and copies are equal and share nothing. Exceptions in the code: with shared_weights=True the initial weights of the simulator tile are replaced by zeros and the context shows the initial ones until the weights are first set; after a pass with another tensor, or a state loading that raised, the context shows the previous memory until the next synchronisation.", "quantifier": "all tile sizes, initial weights, interleaved histories of calls to two tiles including raising ones, and tensors of the user", "why_tests_cant": "all histories, including calls that raise, and all aliasing patterns", "anchors": ["src/aihwkit/simulator/tiles/base.py:SimulatorTileWrapper._bind_shared_weights", "src/aihwkit/simulator/tiles/base.py:SimulatorTileWrapper._get_tile_weights_ref", "src/aihwkit/simulator/tiles/base.py:SimulatorTileWrapper._sync_analog_ctx_weights", "src/aihwkit/simulator/tiles/base.py:SimulatorTileWrapper._copy_weights_to_shared_tensors", "src/aihwkit/simulator/tiles/base.py:SimulatorTileWrapper.__setstate__", "src/aihwkit/simulator/tiles/rpucuda.py:RPUCudaSimulatorTileWrapper.ensure_shared_weights", "src/rpucuda/rpu.cpp:RPUSimple::setSharedWeights"]}
{"id": "C91", "title": "C++ tiles address a shared tensor by rows and flat alike", "statement": "A tensor handed to a C++ tile with set_shared_weights receives the weights of the tile the first time and keeps its content later; after any sequence of tensors handed over and gradient memories set and reset, the devices (which work by rows), the matrix products and get_weights (which work on the flat array) and Python see the same weight at every position, and updates write to the gradient memory exactly if one is set - provided each tensor is the previous one or has no element in common with it. Exception in the code: if a tensor starts exactly one row before the previous one (two views of a larger tensor), the devices work on the rows after the right ones, the last of them outside of the tensor.", "quantifier": "all sizes, addresses, memory contents and sequences of calls", "why_tests_cant": "all address layouts and histories", "anchors": ["src/rpucuda/rpu.cpp:RPUSimple::setSharedWeights", "src/rpucuda/rpu.cpp:RPUSimple::setDeltaWeights", "src/rpucuda/rpu.cpp:RPUSimple::getUpWeights", "src/aihwkit/simulator/rpu_base_src/rpu_base_tiles.cpp:set_shared_weights"]}
{"id": "C92", "title": "Configurations built for a training algorithm", "statement": "build_config returns, for each documented algorithm name, a configuration with exactly the documented settings: forward, backward, update, transfer and device settings are copies of the given instances (or new instances of the given classes) with only the settings of the algorithm changed, everything else has its default, n_devices counts the devices for plain SGD only, and keyword arguments are passed on as they are; an unknown name raises ArgumentError and an unsuitable keyword TypeError. The configuration consists of new objects: no two of its settings are the same object, and changing it changes neither the arguments nor another configuration, except through objects passed as keyword arguments, which are shared. Exceptions in the code: construction_seed (0 by default) overwrites the seed of a device instance for SGD and mixed precision but not in the compounds; n_devices below one gives an empty unit cell.", "quantifier": "all algorithm names, device, io and update arguments (instances with arbitrary attributes, classes, callables), device counts, seeds and keyword arguments", "why_tests_cant": "all argument objects and object graphs", "anchors": ["src/aihwkit/simulator/configs/helpers.py:build_config", "src/aihwkit/simulator/configs/compounds.py:TransferCompound", "src/aihwkit/simulator/configs/compounds.py:ChoppedTransferCompound", "src/aihwkit/simulator/configs/compounds.py:DynamicTransferCompound", "src/aihwkit/simulator/configs/compounds.py:MixedPrecisionCompound", "src/aihwkit/simulator/configs/configs.py:UnitCellRPUConfig"]}
{"id": "C93", "title": "Which settings a tile uses", "statement": "Changing a configuration object changes exactly the tiles that hold it: a tile's own settings change only through its own configuration object, a load or a replacement. New, copied and re-configured tiles hold a configuration of their own, while loading a state with its configuration makes the tile hold the very object of the tile the state came from. C++ tiles compute with the settings at the time their simulator tile was made; torch tiles with the settings of now; post_update_step with on_the_fly_bindings uses the settings of now, otherwise those of its last use since a state was taken; the torch transfer tile, read-outs before the first forward pass and the IR-drop converter use the configuration object of the caller.", "quantifier": "all configurations, tiles and histories of construction, in-place changes, assignments, passes, updates, checkpoints, loads, replacements and copies", "why_tests_cant": "all histories of mutations and calls", "anchors": ["src/aihwkit/simulator/tiles/base.py:SimulatorTileWrapper", "src/aihwkit/simulator/tiles/module.py:TileModule.replace_with", "src/aihwkit/simulator/tiles/inference.py:InferenceTileWithPeriphery.post_update_step", "src/aihwkit/simulator/tiles/inference_torch.py:TorchInferenceTile", "src/aihwkit/simulator/tiles/torch_tile.py:TorchSimulatorTile.set_config", "src/aihwkit/simulator/tiles/transfer.py:TransferSimulatorTile", "src/aihwkit/simulator/tiles/custom.py:CustomSimulatorTile", "src/aihwkit/simulator/tiles/torch_tile_irdrop_t.py:TorchSimulatorTileIRDropT"]}
{"id": "C94", "title": "GPU pulse trains, 32-bit format", "statement": "On the GPU, the counts arrays of a pulsed update carry exactly the stochastic pulse trains: for every sample and cross-point the update kernel reads as many pulses as there are slots in which both lines fired, with the sign of the product of the two inputs, for ordinary devices and for both devices of a one-sided pair, for every layout of inputs and counts, every length of the trains (also one per sample) and every order in which the threads store; no store is outside the array and no two collide. The exception: if fixed_bl and update_bl_management are off and the length of the trains grows past a multiple of 32 beyond the desired one, kernels without shared memory read fewer words than were written and miss the later slots.", "quantifier": "all sizes, batch sizes, layouts, lengths of trains, inputs, random numbers and thread schedules", "why_tests_cant": "all sizes and layouts and all schedules of the threads; needs a GPU", "anchors": ["src/rpucuda/cuda/bit_line_maker.cu:kernelUpdateGetCountsBatch_SimpleLoop2", "src/rpucuda/cuda/bit_line_maker.cu:getCountsSimpleLoop", "src/rpucuda/cuda/bit_line_maker.cu:getCountsIdx", "src/rpucuda/cuda/pwu_kernel.h:getNfromCount", "src/rpucuda/cuda/pwu_kernel.h:getIdxToLoad", "src/rpucuda/rpu_pulsed_meta_parameter.h:getNK32Default"]}
{"id": "C95", "title": "GPU pulse trains, 64-bit batch-order format", "statement": "In the 64-bit format (BO64, trains of up to 31 slots, written with atomic operations) the words of a line are the trains of all samples one after the other: reading the words of a cross-point yields every coincident pulse once, in the order of the samples and slots, with its own sign, for common and per-sample lengths, every input layout and every order of the atomic operations; the stream of pulses is the same as that of the 32-bit format; no operation is outside the array, nor in the words of another line.", "quantifier": "all sizes, batch sizes, layouts, lengths up to 31, inputs, random numbers and schedules of the atomic operations", "why_tests_cant": "all interleavings of the atomic operations and all word boundaries; needs a GPU", "anchors": ["src/rpucuda/cuda/bit_line_maker.cu:getCountsSimpleLoop", "src/rpucuda/cuda/bit_line_maker.cu:getCountsIdx", "src/rpucuda/cuda/update_management_helper.cu:computeKc", "src/rpucuda/cuda/pwu_kernel.h:getNfromCount"]}
{"id": "C96", "title": "GPU update kernels make one step per pulse", "statement": "Without cycle-to-cycle noise, the weights after a pulsed update with constant-step devices on the GPU are those obtained by making one step per pulse, one after the other and limited to the bounds each time, although the kernels add up pulses of equal sign over words and samples and, with the bound check, add all pulses of a word at once; for every kernel (functor, sum, sum with bound check), format, layout and schedule. With noise no kernel moves a weight out of its bounds. The exception: the kernel with bound check does not use the random numbers it draws for words with pulses of both signs; the noise is a systematic enlargement of both kinds of steps there.", "quantifier": "all devices, weights within bounds, pulse trains, kernels, formats, layouts and schedules", "why_tests_cant": "all pulse trains and weights near the bounds; needs a GPU", "anchors": ["src/rpucuda/cuda/pwu_kernel.h:UpdateFunctorConstantStep", "src/rpucuda/cuda/pwu_kernel.h:kernelUpdateWBatchSum", "src/rpucuda/cuda/pwu_kernel.h:kernelUpdateWBatchSumBoundCheck", "src/rpucuda/cuda/pwu_kernel.h:kernelUpdateWBatchFunctor", "src/rpucuda/cuda/pwu_kernel.h:kernelUpdateWFunctor"]}
{"id": "C97", "title": "client of the Composer cloud service", "statement": "Whatever the service answers and whatever history of operations a session goes through: the first request is the login, and no other is sent before its token is accepted; the token is sent only to the service, and the object storage is only asked at the address in the accepted reply directly before; creating an experiment sends its requests in order, and the job is only registered after the upload was accepted; the status of an experiment is what the last accepted reply says, completed and failed are never left and make no more requests; results are only fetched once completed and are the stored output, otherwise an error without any request for them; a definition is read back as the inference or training experiment it was. The credentials are taken from the environment first, then the files. The exception: an experiment object returned by creation has no input, so its definition is asked at an address that contains None.", "quantifier": "all replies of the service (as data), all sequences of operations, all experiments, environments and configuration files", "why_tests_cant": "all answers of a remote service and all sequences of operations; the tests need the service", "anchors": ["src/aihwkit/cloud/client/v1/api_client.py:ApiClient", "src/aihwkit/cloud/client/v1/api_client.py:ApiClient.experiment_create", "src/aihwkit/cloud/client/v1/i_api_client.py:InferenceApiClient", "src/aihwkit/cloud/client/v1/parsers.py", "src/aihwkit/cloud/client/entities.py:CloudExperiment", "src/aihwkit/cloud/client/session.py:ApiSession", "src/aihwkit/cloud/client/utils.py:ClientConfiguration", "src/aihwkit/experiments/runners/cloud.py:CloudRunner"]}
{"id": "C98", "title": "noise management on the GPU over histories of batches", "statement": "On the GPU, in every order of the threads and after every history of batches of any sizes and layouts, noise management divides each sample by its own value: the absolute maximum, the maximum, the larger of the absolute maximum and the bound from the sums of positive and of negative values (limited by the input resolution), the constant, or the running average of the absolute maxima; limited by the threshold. The exceptions: after a smaller batch, a larger one with the batch dimension first combines maxima and sums of samples the smaller one did not have with those of the batch before; the running average is divided by the size of the largest batch so far, and is not updated if that is not smaller than the number of threads; the constant is lost once the worst case bound management was used.", "quantifier": "all numbers of inputs, batch sizes, block sizes, layouts, inputs, orders of threads, all histories of uses and kinds of noise management", "why_tests_cant": "all schedules of thousands of threads and all histories of batches; the tests need a GPU and fix one batch size", "anchors": ["src/rpucuda/cuda/maximizer.cu:Maximizer::compute", "src/rpucuda/cuda/maximizer.cu:kernelMaximizeBatchTrans", "src/rpucuda/cuda/maximizer.cu:kernelMaximizeBatchTrans_LargeBatch", "src/rpucuda/cuda/noise_manager.cu:NoiseManager::compute", "src/rpucuda/cuda/noise_manager.cu:computeNPSum", "src/rpucuda/cuda/noise_manager.cu:kernelAverageAbsMaxSetScales", "src/rpucuda/cuda/noise_manager.cu:NoiseManager::getScaleValues"]}
{"id": "C99", "title": "the analog pass on the GPU, sample by sample, and its bound management", "statement": "On the GPU each sample of a batch goes through the analog pass by itself: input converter with its own value of noise management, matrix product with its non-idealities (IR drop, voltage offsets, weight noise), output converter and scale; for every batch size, layout of inputs and outputs, direction, number of threads and order, whatever the buffers held before. Without bound management the result is that of the CPU with the same random numbers, unless the operations are done in another order (input noise before the input bound; output noise before the asymmetry for batches). Bound management always ends; all samples are processed again, each with its own scale, until none exceeds the bound or the limit is reached. The exceptions: without noise management the scales of a batch grow by the product of the reductions (1, 2, 8, 64, ...); with separate passes for negative and positive inputs all rounds but the first lose the positive inputs; a single sample tests the negative bound exactly when it should not; the worst case mode with `AbsMaxNPSum` repeats the first round.", "quantifier": "all sizes, batch sizes, layouts, directions, inputs, weights, parameters, random numbers, numbers of threads and orders, earlier contents of buffers", "why_tests_cant": "all schedules, batches and layouts, and agreement between two implementations; the tests need a GPU and compare with tolerances on single shapes", "anchors": ["src/rpucuda/cuda/forward_backward_pass.h:ForwardBackwardPassIOManagedCuda::forwardMatrixIterator", "src/rpucuda/cuda/forward_backward_pass.h:ForwardBackwardPassIOManagedCuda::backwardMatrixIterator", "src/rpucuda/cuda/forward_backward_pass.cu:computeAnalogMV", "src/rpucuda/cuda/forward_backward_pass.cu:computeAnalogMVSinglePass", "src/rpucuda/cuda/io_manager.cu:InputOutputManager::applyToInput", "src/rpucuda/cuda/io_manager.cu:InputOutputManager::applyToOutput", "src/rpucuda/cuda/io_manager.cu:kernelOutputBoundManagementBatch", "src/rpucuda/cuda/io_manager.cu:kernelUpdateScaleValuesAndInitialize"]}

{
 "C12": {
  "note": "The native counter check is one draw stricter than the Python one at exactly 2^63 draws; the completeness theorem therefore assumes fewer than 2^63 draws."
 },
 "C13": {
  "note": "A snapshot taken after exactly 2^63 draws is refused by restore; the resume theorem assumes fewer draws."
 },
 "C37": {
  "note": "Process crashes are modelled (any prefix of the primitive operations); power loss without fsync is not."
 },
 "C40": {
  "note": "With num_keep_states = 0 the pruning deletes the state just saved (finding, shown as an example)."
 },
 "C42": {
  "note": "Full claim fails in one window: an asynchronous interrupt between setting and clearing _checkpoint_safe with the deferred check (C42_interrupt_witness). Proved without such interrupts, for immediate checks with them, and in general that only the last update can be affected."
 },
 "C65": {
  "note": "NumPy primitives are an arbitrary record of functions (no writes into arguments): exact for calls without surplus positional arguments. Gaps of the code shown as theorems: unchecked conjunction of chained comparisons, surplus ufunc (out) arguments accepted, raw errors, partial update on short fields."
 },
 "C75": {
  "note": "Exact rationals instead of floats; torch.log is an arbitrary function; dtype/device promotion of results is not modelled. What each head sums over its rows is a parameter (any function of the part)."
 },
 "C76": {
  "note": "Exact rationals; sigmoid, softmax, log-softmax, exp, log, power, BCE and Huber are arbitrary functions shared by both sides. Board masks must be binary (a fractional mask is weighted in training and counted in validation). A VQ auxiliary loss is assumed to report the value of its own slot statistics. An unknown loss type name (KeyError in training, treated as CE by validation) is outside the model, which has an enumeration."
 },
 "C77": {
  "note": "Exact rationals; the nearest-code search and the soft assignment are arbitrary functions of a vector, the same on all ranks (evaluation never updates the codebook). The feature of an entry is assumed to be a function of its line encoding, as the code comments say of its mapping network."
 },
 "C78": {
  "note": "Exact rationals (the code's safety factor 2 and the 1e-6 margins are then slack; the theorem needs only that they are at least 1); the code search and the random generator are arbitrary functions. plainHistory is the specification without bounds; C78_expiry says what one of its expiry steps does."
 },
 "C79": {
  "note": "The argmin of k-means is an arbitrary function of means and entry; dtype and finiteness checks of samples are not modelled; kmeans_iter >= 1 (0 leaves `bins` unbound). Ranks share their settings (the first-forward check of that is not modelled)."
 },
 "C80": {
  "note": "BoundsOk: on one process the host bounds are valid (an invariant by C78), on several they are never set. C80_single_process needs a search that ignores the random state (no stochastic sampling)."
 },
 "C81": {
  "note": "One query at a time; the coarse products and the refinement are exact sums of (rounded) operands, so only the BF16 rounding of the operands is modelled, not the FP32 accumulation. kept codes per tile: 4/2/3/3 for 32/64/96/128 dimensions, 3 for cosine."
 },
 "C82": {
  "note": "One process. What the step, validation and saving compute is arbitrary; the model has whether each raises, whether the check is finite, when copies land, and a signal in the gap after 4087. `Ready` fixes an empty event log and that no copy is outstanding on a CPU run; C82_clean needs NoInterrupt, which C82_interrupt_gap shows to be necessary."
 },
 "C83": {
  "note": "Hypothesis Shared: clip/prepare errors, file existence and the verdict on gathered states are the same on all processes; C83_prepare_gap and C83_exists_gap show that prepare and file existence are needed. A process dying or raising inside backward is not modelled. Validation is one guarded phase (its inside is C68); committing a prepared cursor does not fail (C23, C33)."
 },
 "C50": {
  "note": "Partial because the full claim is false of the code: for an odd opening the packed reader reports the wrong side (C50_packed_side_odd)."
 },
 "C70": {
  "note": "Partial because the full claim is false of the code: moves are not transformed and padding is moved when augmentation is a second post-processing (witness theorems)."
 },
 "C90": {
  "note": "Both loaders are assumed to succeed and conditions to be row-wise; C90_raw_empty_file and C90_condition_must_be_rowwise show what happens otherwise."
 },
 "C89": {
  "note": "Exact rationals instead of floats. Tensor sides 1 and 3 are excluded (C89_side_three). Findings C89_komi_zero, C89_small_board_symmetry, C89_small_pass_symmetry."
 },
 "C91": {
  "note": "Exact reals instead of float/bfloat16. C91_vectors_refused: why two dimensions are required (the muon-adamw builder routes only those)."
 },
 "C92": {
  "note": "Exact reals instead of float/bfloat16."
 },
 "C93": {
  "note": "Exact rationals; argmax/topk are arbitrary deterministic functions of the row. C93_draws_differ: the two kinds of value heads count drawn targets differently."
 },
 "C94": {
  "note": "Exact real arithmetic. C94_zero_source is the degenerate exception: an input shorter than the clamp is not replaced by the code."
 },
 "C95": {
  "note": "Hypothesis Regular: initialisation is monotone and a mapping belongs to one quantiser, as the models guarantee; C95_order_matters shows monotonicity is needed."
 },
 "C96": {
  "note": "Findings C96_new_metric_aborts and C96_short_window."
 },
 "C97": {
  "note": "Exact arithmetic over any commutative ring; normalisation per cell (none, or batch norm in eval mode); use_nonzero_padding and masks not modelled."
 },
 "C98": {
  "note": "Exact arithmetic; rotation_trick off; the nearest-code search is any function of a vector."
 },
 "C99": {
  "note": "Rational arithmetic with arbitrary numerical primitives; the gradient is any linear operator on functions of the parameters; networks whose rows influence each other (batch norm in training mode) are outside: the rows' outputs are given as functions of the parameters."
 },
 "C100": {
  "note": "The regex is modelled as a matcher on character lists and proved equal to the grammar. fsync of the directory is not modelled (the code does none)."
 },
 "C101": {
  "note": "torch.save/torch.load are an arbitrary lossless pair (existence shown in the example), SHA-256 an arbitrary function with 64 hex digits. Wrong-typed or wrong-keyed decoded values count as undecodable."
 },
 "C102": {
  "note": "SHA-256 is an arbitrary function; 'unchanged' is up to the digest, and C102_digest shows the digest stream determines dictionary-free values. Object arrays and custom classes are not in the stream model. `reject_unknown` is not used by the composer and not modelled."
 },
 "C103": {
  "note": "Exact arithmetic instead of float32/float16; evaluation mode; policy heads (not exported) are not modelled; the codebook search of v4VQ is an arbitrary function."
 },
 "C104": {
  "note": "Contents, numpy promotion and element equality are abstract with the laws stated in `Laws`; reflexivity of equality on shared values (false for NaN) is a hypothesis of `C104_collated`; error texts are not modelled."
 },
 "C105": {
  "note": "Exact arithmetic, one sample; the board-to-feature mapping is that of C97. Hypotheses: no spherical_feature, mapping outputs above -511.5/32, depthwise biases in [-64, 64]: each is needed (C105_low_feature_differs, C105_spherical_not_exported, C85_bias_clip_differs)."
 },
 "C106": {
  "note": "Exact real arithmetic for finite entries (no rounding or overflow); Euclidean norm (the trainer's); the fallbacks to torch's and Accelerate's clipping are assumed to compute the same function."
 },
 "C107": {
  "note": "Loaded values are arguments (torch.load outside); torch.equal and Python == on scalars are parameters; the manifest and sidecar validators are predicates here (manifest and sidecar: C100, C101)."
 },
 "C108": {
  "note": "isinstance/key-set checks are folded into the structured manifest; SHA-256 and torch.save are parameters."
 },
 "C109": {
  "note": "torch's LRScheduler classes are modelled from torch 2's source (not in /repo); the closed forms hold over the reals, the resume claims in any arithmetic; the step period is assumed positive."
 },
 "C110": {
  "note": "torch's state_dict/load_state_dict are modelled from torch 2's source (not in /repo); tensors shared between modules are not modelled; isdigit is ASCII."
 },
 "C111": {
  "note": "The settings change only while the generator is suspended (the tuner runs in the consumer); worker interleavings are C31's subject."
 },
 "C112": {
  "note": "Over the reals: rounding and the half-precision conversions are not modelled. `var` and `mean` are marked non-differentiable outputs, as in the code. The ONNX export branch calls `F.batch_norm` and is not modelled."
 },
 "C113": {
  "note": "The data pipelines, the network and checkpoint loading are not modelled; the policy is an arbitrary real function and `torch.sort` an arbitrary descending order. Parsing covers lines of one character followed by digits."
 },
 "C114": {
  "note": "`torch.save` followed by `torch.load` is trusted to be the identity; crashes are C37's subject, permissions and disk space are not modelled."
 },
 "C115": {
  "note": "Symbolic links, unreadable directories and changes during the walk are not modelled; names are elements of a linear order."
 },
 "C116": {
  "note": "The feature vectors, the mapping after concatenation and the quantisation are not modelled; integers do not overflow; the size divisions are exact (the code divides floats); torch.round is any rounding to within 1/2."
 },
 "C117": {
  "note": "One sample and channel; exact arithmetic; the straight-through gradient of fake_quant is not modelled."
 }
}
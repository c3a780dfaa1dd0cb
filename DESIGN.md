# Formal model of TenniS in Lean 4

## Trusted base

* **Lean 4.33.0's kernel.** Every theorem named in MANIFEST.json depends on no axioms other than `propext`,
  `Classical.choice` and `Quot.sound` (`#print axioms`; vcheck replays every module). There are no axioms of our own, no
  compiled-code tactics, no unfinished proofs. `decide`/`decide +kernel` is used only for witnesses of negations, for
  non-vacuity examples and for genuinely finite tables (type promotion).
* **The reading of the C++ in /repo.** Nothing but the citation `file:lines` on every definition ties the model to the code.
* **The specifications**: small definitions at the top of each `Verif/Props/*.lean` file (and `Core/ShapeSpec.lean`: row-major
  index, bounds, element count), written without reference to the model's loops.

## How C++ is represented

* A call that returns, throws (`TS_AUTO_CHECK`, `TS_LOG_ERROR … << eject`, `throw`) or has undefined behaviour is a value
  `Res.ok a`, `Res.err`, `Res.ub` (`Core/Res.lean`); models with state carry it explicitly, and RAII scopes become restore
  steps on both exits. This assumes the log level is at most `error` (the default is below it): above it checks do not throw
  at all (`C83`). A check whose text is not followed by `eject` only logs, and `TS_AUTO_ASSERT` ends the process; the models say so
  where it happens. Undefined behaviour that is modelled: signed overflow of `int` (`int32`), division by zero, reading or
  writing outside a buffer, past the inline buffer of `otl::vector`, before the start of a vector; use after free.
* `size_t` and extents are naturals, `int` is `Int` with range checks where a computation can leave the range; where a
  definition treats a product as a natural number it says why (it is bounded by an element count already computed as `int`).
* Loops are recursive functions over the same counters (or a step relation with unbounded runs); loops that may not terminate
  take fuel with a `none` outcome, and theorems say what holds for every sufficient fuel, or that no fuel suffices.
* Tensors are a shape and the list of elements in row-major order. Data-moving kernels are the sequences of element copies
  that their loops produce, executed on concrete buffers with the previous content of the output as a parameter.
* Scalars: properties of kernels that add and multiply are proved over an arbitrary commutative (semi)ring, that is in exact
  arithmetic. Where floating point matters in control flow it is modelled: rounding to the nearest double by its error bound
  and exactness on integers (`NearestDouble`), half/single/double conversion bit by bit, inexact comparisons by their meaning.
* Concurrency: interleavings of atomic steps, one per critical section or atomic operation, any number of threads;
  sequentially consistent (the C++ memory model is not modelled).
* Operators in graphs, programs and the machine are arbitrary functions (universally quantified), so theorems about compiling,
  folding, zipping, translating and running hold for any operator set.

## Layout

`lean/Verif/<Area>/*.lean`: models with citations, and lemma files (`*Lemmas.lean` or a phase of a proof).
`lean/Verif/Props/*.lean`: the property theorems with their specifications and, beside each theorem, an `example` showing that
its hypotheses are met by a concrete non-trivial case.
Theorems named `Cnn_…_partial` prove the part of a property that holds of the code, `Cnn_…_false` refute the rest, either for
all inputs of a class or by a concrete witness; the note in MANIFEST.json says which. `tools/props.py` and `tools/claims.py`
generate properties.jsonl and MANIFEST.json. `seeded/LOG.jsonl` records the wrong programs tried against the theorems.

## Per property: what is modelled and how it is proved

| id | code modelled | model | proof |
|----|---------------|-------|-------|
| C01 | compiler.cpp, instruction.cpp | `Compiler/{Graph,Schedule,Compile}` | backward simulation: running the emitted code from the final simulator row computes the values of the initial row |
| C02 | the compile loop | same, as a step relation | well-founded measure (multiset of path weights) |
| C03, C04 | stack.h, operator instruction, program launch on/offline | `Runtime/{Machine,Launch,Safe}` | direct; induction over instructions that may throw |
| C05, C06 | compiler.cpp constant folding, zipper.cpp | `Compiler/{Heap,HeapPasses}` | memoised recursion on a heap graph, memo invariant |
| C07, C08, C09 | graph listing, module loading, input sorting | `Module/{Bubble,Load}` | worklist invariants, reachability closure |
| C10, C11, C12 | binary reader/writer of modules, tensors, strings | `Module/Serial` | round trip by induction; UB outcomes for malformed input |
| C13, C14, C15 | HypeShape, ShapeIterator, reshape, reshape_v2 | `Core/{Shape,Reshape}` | mixed radix induction with overflow |
| C16, C17, C18, C19 | transpose, concat, stridedslice, broadcasting element-wise kernels | `Kernels/*` | index maps of copy sequences; dimension merging lemma |
| C20 | type promotion table | `Kernels/Promote` | whole finite table |
| C21, C43, C44, C45 | conv/pooling geometry, pooling kernels, im2col + packed gemm, static shape inference | `Kernels/{Geometry,Pooling,Conv,Gemm,OpShapes}`, `Runtime/{InferRules,InferAnswer,InferAnswer2}` | loop invariants, sums over a semiring, agreement of two shape rules |
| C22, C23, C24, C25 | vat/pot allocator, shared handles, sync block, memset | `Memory/*` | invariants over all histories; refinement |
| C26, C27, C28, C29, C30 | split_bins, parallel loops, rwmutex, thread pool, context scopes | `Concurrency/*`, `Utils/Ctx` | interleaving transition systems, inductive invariants |
| C31, C32, C33 | otl::vector, half float, fixed point | `Utils/OtlVector`, `Core/{HalfFloat,Sink}` | refinement to lists; arithmetic for all formats |
| C34, C35, C36, C37 | operator params, argparse, workbench, program clone | `Runtime/{OpParams,Bench,Clone}`, `Compiler/ArgParse` | history invariants, refinement |
| C38, C39, C40, C41 | node links, module fusion, tensor fields, single evaluation | `Module/{Links,Fusion}`, `Core/Tensor`, `Compiler/Once` | invariants; bubble-free graphs |
| C42 | squeeze, unsqueeze, flatten, expand, reshape ops | `Core/ShapeOps` | list arithmetic |
| C46 | cpu gemm, Gemm, InnerProd, MatMul, packed weights | `Kernels/{MatMul,Gemm}` | blocked sums equal defining sums |
| C47 | translater.cpp with pack and gemm options | `Compiler/Translate*`, `PackKern` | memoised rewriting that mutates shared constants; value invariant |
| C48 | gather, gather_v2, gather_elements, dimshuffle, scatter_nd | `Kernels/DataMove` | copy sequences |
| C49 | tile, slice, stack, split, chunk | `Kernels/DataMove` | copy sequences, explicit bins |
| C50 | reduce_sum, reduce_mean, max, argmax, softmax, l2_norm | `Kernels/Buf`, `Kernels/Reduce` | loop invariants over buffers; element arithmetic arbitrary, the reals for softmax and l2_norm |
| C51 | add_bias, batch_norm, batch_scale, fused_batch_norm, prelu | `Kernels/Channel` | block-wise loop invariant, vector lanes and remainder; arbitrary arithmetic, the reals for formulas |
| C52 | encrypted file streams | `Encryption/Stream` | invariant "the reader will deliver d"; induction over blocks, writes and reads |
| C53 | AES, CBC, CTR | `Encryption/Aes`, spec `Encryption/AesSpec` | every step of the rounds refined to FIPS-197 on matrices; S-box and schedule shown unique |
| C54 | damaged files, wrong keys | `Encryption/StreamSafe` | invariant over arbitrary files; witnesses for the unchecked padding byte and short keys |
| C55 | pad | `Kernels/Pad`, `PadSpec` | effects of nested loops (`Kernels/Eff`); the two algorithms against one relational specification; out-of-bounds theorem for batch cuts |
| C56 | space_to_batch4d, batch_to_space4d | `Kernels/Pad`, `BatchLemmas` | quotient and remainder arithmetic of the cell map; round trip from the two statements |
| C57 | topkv2 | `Kernels/TopK`, `TopKLemmas` | std::partial_sort is any function that meets the contract of the C++ standard (permutation, sorted front, nothing larger behind); a comparison that is no strict weak order is undefined |
| C58 | non_max_suppression_v3 | `Kernels/TopK`, `TopKLemmas` | std::priority_queue's top is any maximal element; loop invariant over popped candidates; IoU as quotient of Lebesgue measures over ℝ |
| C59 | broadcast, where, equal | `Kernels/Broadcast`, `BroadcastLemmas` | per-algorithm write effects; odometer positions proved equal to numpy's by mixed-radix induction; specification shared with C19 |
| C60 | Winograd convolution | `Kernels/Winograd`, `WinogradAlgebra`, `WinogradLemmas` | the tile identity from `A G B` = correlation (finite table checked by the kernel over ℚ, transported to any field of characteristic 0); write effects of each stage; induction over the runs |
| C61 | depthwise convolution | `Kernels/Depthwise` | write effects of border, vector and remainder parts; sums by induction; loop_ub for the over-read |
| C62 | range, constant_of_shape, shape | `Kernels/Generate` | C++ integer types with promotion, wrapping and undefined overflow; the count by division with remainder; pattern fill from C25 |
| C63 | conversions | `Kernels/Cast` | values as exact rationals, C++ integer types; write effects of the unrolled loop; strtol by induction over the string |
| C64 | transposed convolution | `Kernels/ConvTranspose` | additive effects of loops; the product from the lemmas of C44/C46; exchange of finite sums for the adjoint |
| C65 | resize2d | `Kernels/Resample` | interpolation specified as kernel-weighted sums over the whole image; sums over windows; clamping lemmas; undefined cells propagate |
| C66 | affine_sample2d, sample2d | `Kernels/Resample` | the sampling lemmas of C65; characterisation of rounding and truncation by inequalities |
| C67 | ImageFilter: history of calls, compile, run, program | `Runtime/Filter`, `Compiler/Graph`, `Runtime` | invariant over histories (the node chain is the list of steps); the compiler theorem for chains; fuel bound |
| C68 | ImageFilter::clone | `Runtime/Filter` | invariant over histories; counterexamples by evaluation |
| C69 | nhwc_center_crop2d, crop_nd, limit, divided | `Kernels/Crop`, `Core/Float32` | amounts per axis by case analysis of truncating division, then the theorem of C55; float quotient by the error bound of nearest rounding |
| C70 | nhwc_scale_resize2d, nhwc_letterbox | `Kernels/ScaleImage` | integer division bounds; the theorems of C65 and C66 instantiated |
| C71 | force_color, force_gray | `Kernels/ImageNorm` | loops with the effect rule; error bounds of nearest rounding for 8 bits; all 256 equal pixels by evaluation in the kernel |
| C72 | prewhiten, norm_image | `Kernels/ImageNorm` | invariant over the images: those done, those still original; real numbers as an instance of the abstract arithmetic |
| C73 | C interface of tensors: handles, blocks, owners, borrowers | `Api/Tensor` | invariants over all programs of calls: owners have their block, a fresh handle is the only one of its block |
| C74 | operator registry, plugin registration and inference | `Api/Plugin` | induction over the history; each announced prototype needs two integers, so as many as integers never fit |
| C75 | activations applied per element | `Kernels/Activation` | one loop lemma for all scalar loops, an invariant for the vector loop; laws of the arithmetic as hypotheses with an instance |
| C76 | quantise, quantised convolution | `Kernels/Quantize` | loop invariants for vector part, rest and groups; bound of the sum of products; the dequantising loop for every order of its iterations; witnesses |
| C77 | computed paddings | `Kernels/AutoPad` | quotients in float against integer division, exactness of the backward formula, composition with C21's formulas, operators by computation |
| C78 | LSTM | `Runtime/Lstm` (on `Runtime/Machine`) | symbolic execution of one step on the stack machine, induction over the steps, element-wise contracts of the callees |
| C79 | crop_to | `Kernels/CropTo` (on `Kernels/Pad`) | reduction to C55's padding theorem; induction over the history of calls |
| C80 | shape_index_patch | `Kernels/ShapeIndex` | effect calculus for the five nested loops (`Kernels/Eff`), error analysis of the float expressions |
| C81 | yolo, yolo_poster | `Kernels/Yolo` | in-place update calculus with disjoint ranges; loop invariant of the suppression over the sorted order; the sort by its contract |
| C82 | prior_box | `Kernels/PriorBox` | emission calculus: nested loops with a counter write the concatenation of their blocks; monotonicity of rounding for the ratio 1 |
| C83 | checks and the log | `Api/Log` | the statement as a fold over the stream; case split on the levels |
| C84 | detection_output, bbox_util.cpp (decoding, suppression) | `Kernels/DetectionOutput` | stable order of candidates; induction over the candidates with the kept prefix; contract of std::sort; emission calculus |
| C85 | roi_align (Dragon kernel), its shape inference | `Kernels/RoiAlign` | pure counterpart of the kernel; effects of the four loops; sums of tents |
| C86 | proposal (Dragon kernel), its outputs, its shape inference | `Kernels/Proposal`, `Kernels/ProposalLemmas` | quicksort invariant; greedy suppression by induction; row-major blocks |
| C87 | dcn_v2_forward (modulated deformable convolution), its shape inference | `Kernels/Dcn` | write effects of the column loop; the product of `Kernels/MatMul` per image; hat functions |
| C88 | `Splitter::split`: reference cache, the two queues, the search for a group, the loop over groups, filters, building of sub nodes | `Compiler/Split` | invariant of the two-way search (frontiers never lead back into the group), measure for the fuel, values by strong induction along the numbering |
| C89 | `Conv2DV2`, `DepthwiseConv2DV2`, `Pooling2DV2`: remembered operands, re-initialisation, delegation; `Conv2D::init`, `Pooling2D::init` | `Runtime/Delegate` | invariant over histories: the inner operator is initialised with the remembered operands whenever they are acceptable |
| C90 | `DeviceContext` (initialize, finalize, move, `Switch`), per-thread current context, `BindWorkbenchRuntime`, plugin device context API | `Runtime/Context` | invariant over interleaved histories (log of administration calls is orderly, each living handle has one owner); induction on nesting for scopes |
| C91 | `graphics2d.h`: `dot`, `stack`, `transform`, `affine::*` | `Api/Graphics2d` | ring identities, induction on the list; rotation as multiplication by a complex exponential (Mathlib) |
| C92 | `Iteration`, `update_iteration`, `clone_iteration`, `IterationInterpreter` (scan.h) | `Core/Scan` | well-founded loop of `deploy`; invariant: what the stack still yields |
| C93 | `desc::*`, `symbol::*`, `intime::*`, `Workbench::online_run/offline_run` | `Runtime/Intime` | on the stack machine of C01; operators arbitrary; parameters through `Runtime/OpParams` |
| C94 | `Switcher`, `SwitchControll`, `OperatorCreator::flush`, cpuid bits | `Api/Switch` | invariants over histories of registrations and workbenches |
| C95 | `Profiler`, `Board`, `Later`, labels of `OperatorInstruction` | `Runtime/Profiler` | induction over runs; permutation invariant over moves of timers |
| C96 | `StringStream*`, `FileStream*`, `Module::LoadV2`, `ModuleLoader`, `open_loader` header, writing of `Module::Save` | `Module/Io` | refinement of a queue of bytes; induction over loader programs |
| C97 | `HardMemory` with `cpu_allocator` | `Memory/Hard`, `Memory/HardLemmas` | invariant over histories: blocks and owners correspond one to one |
| C98 | `MT19937`, `Random::seed/next/u/binomial` | `Utils/Random` | refinement: circular array = window of the infinite sequence |
| C99 | `Conv2dZipperOption`, `winograd_check`, ARM part of packing, `conv2d(_v2)`, `conv2d_winograd(_v2)` | `Compiler/WinogradZip` | inversion of the decision; C44 and C60 for every run, induction over runs |
| C100 | `Fp16TranslatorOption::translate`, `translate_node`, `Translator::translate` | `Compiler/Half` | invariant of the translated arena and the ready map, induction on fuel; value of a graph as a fold |
| C101 | `edit_distance`, `fuzzy_name`, `fuzzy_param_name`, `fuzzy_field_name` | `Utils/Fuzzy` | rows of the table as a recursion from the ends, induction on edit scripts |
| C102 | rules for resize2d, sample, affine_sample2d, dimshuffle, limit, center_crop2d, crop_nd, letterbox, scale_resize2d, divided, force_color/gray, space_to_batch, batch_to_space, slice, gatherv2, max, reduce_sum, nms, constant_of_shape, transpose_conv2d, where, and the shapes their `run` makes | `Kernels/OpShapes2`, `Runtime/InferRules2`, `Runtime/InferAnswer4` | agreement per operator, lifted by the induction of C45 |
| C103 | `SliceV3::load_params`, `run` | `Kernels/SliceV3` | loop invariants on the fields and masks, then C18 |
| C104 | `Split`, `Join`, `FindDecollator`, `memory_size_string`, `mkdir` of the dump | `Utils/Text` | uniqueness of the decomposition, loop invariant over path prefixes |
| C105 | hook calls of `OperatorInstruction::run`, `track`, callback of `run_hook`, dump files | `Runtime/Track`, `Runtime/TrackLemmas`, `Runtime/TrackSound` | simulation of the plain machine, compiler loop invariant extended by the records, injectivity of file names |
| C106 | `CpuEnable` (sort, split, pinning), `RuntimeContext` thread number and pool, `Workbench::set_cpu_power_mode` | `Runtime/Power` | reachable-state invariant, selection sort permutation and order, half-way split |
| C107 | `HardAllocator` (`Bind`, `RegisterV2`, `RegisterV3`, registry), `HardConverter` registry | `Memory/Devices` | case analysis over abstract device functions, histories of registrations by reverse induction, pointwise equality with the processor's allocator |
| C108 | `Workbench::clone`, `setup`, `set_operator_param`, `bind_filter` over shared programs | `Runtime/Benches` | reachability invariant (idle stacks, valid programs), history of the heap of operators (C37), induction over calls that do not concern the workbench |
| C109 | `plot_graph`, `plot_node` | `Module/Plot` | induction over the recursion (printed set closed downwards), rank for termination, infinite descent for cycles |
| C110 | rules for equal, slice_v2, sample2d, sample2d_v2, broadcast, winograd_transform_kernel, depthwise_conv2d, conv2d_v2, pooling2d_v2, roi_align, strided_slice, and the shapes their `run` makes | `Runtime/InferRules3`, `Runtime/InferAgree4`, `Runtime/InferAnswer3` | agreement per operator, lifted by the induction of C45 over the order of the graph; that the rules answer: per operator, from the success of the execution |
| C112 | float element-wise operators with vector lanes told from single elements; maximum with NaN | `Kernels/VecBinary` | simulation: C19 applied to sets of possible values |
| C113 | power of every element; what the exponent parameter is read as | `Kernels/Pow` | loop lemma of C75, conversion loop of C63 |

Further properties (C114 …) follow the same pattern; their files are named in MANIFEST.json's theorems and the module comments.

## What is not modelled

Rounding of floating point arithmetic in the kernels (exact arithmetic instead), SIMD instruction semantics (loops over lanes
are modelled as loops over elements in the same order), CUDA/ARM/x86 special backends, the operating system, files beyond their
byte contents, wall clock and profiling, logging text, the Python front end, image utilities, third party libraries, and
the C++ memory model (sequential consistency is assumed). Operators not named above are covered only as arbitrary functions.

## Where the code disagrees with the property

Every disagreement found is a theorem with suffix `_false` in the file of the property, listed in MANIFEST.json. The main ones:
repeated input nodes and unused inputs in compiled programs (C01), parameters with inputs make compiling loop (C02), truncated
or malformed files are accepted or undefined (C12), weights shared by several readers are packed under a reader that expects
them unpacked (C47), clones lose input names (C37), the thread pool's destructor can hang (C29), indices out of range read
outside the buffer (C48), chunk reads past its bins (C49), small non-zero alpha is treated as zero (C46), argmax reads every operand as int32
(C50).

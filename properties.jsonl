{"id": "C01", "title": "Compiled program computes the graph", "statement": "Compiling a module and running the produced instruction sequence on any list of input tensors leaves exactly the tensors that the graph denotes for the module's output nodes, in output order, for every interpretation of the operators.", "quantifier": "every finite acyclic graph (any sharing, any repeated outputs), every choice and order of inputs, every operator semantics, every input value", "why_tests_cant": "The instruction scheduler (reuse of stack slots, swaps, pushes) takes a different path for every graph shape and every output order; tests visit a handful of networks.", "anchors": ["src/compiler/compiler.cpp:Compiler::compile", "src/runtime/instruction/stack_instruction.cpp", "src/runtime/instruction.cpp:OperatorInstruction::run"]}
{"id": "C02", "title": "Compilation terminates", "statement": "Compiling a module returns (with an instruction block or an error) on every finite acyclic graph; it never loops.", "quantifier": "every finite acyclic graph and every list of outputs and inputs", "why_tests_cant": "Non-termination cannot be observed by a test that returns; the loop has no fuel and its swap cases do not shrink anything visible.", "anchors": ["src/compiler/compiler.cpp:Compiler::compile (main loop)"]}
{"id": "C03", "title": "Operator instruction frame discipline", "statement": "Running an operator instruction with nargs arguments and nresults results replaces exactly the top nargs stack entries by the nresults entries the operator produced; every entry below is untouched and the base offset is what it was before; if the operator returns another number of results, or fewer than nargs entries exist, an error is raised.", "quantifier": "every stack content, every base offset, every operator behaviour", "why_tests_cant": "Corruption below the frame depends on what the operator leaves on the stack; tests only run well-behaved operators.", "anchors": ["src/runtime/instruction.cpp:OperatorInstruction::run", "src/runtime/stack.cpp"]}
{"id": "C04", "title": "Base offset restored on every exit", "statement": "After any program run, whether it finishes or any instruction throws at any point, the workbench's stack has the contents and base offset it had before the run was launched, so that the workbench is reusable.", "quantifier": "every program, every point at which an instruction throws, every prior stack", "why_tests_cant": "Exception at each instruction times each prior state cannot be enumerated.", "anchors": ["src/runtime/workbench.cpp:Workbench::launch_offline", "src/runtime/workbench.cpp:Workbench::launch_online", "include/utils/need.h"]}
{"id": "C05", "title": "Constant folding preserves meaning", "statement": "Pre-computing the constant part of a graph at compile time yields a graph that denotes the same output tensors for every input.", "quantifier": "every finite acyclic graph, every operator semantics that is deterministic, every input value", "why_tests_cant": "Folding rewrites arbitrary sub-graphs with sharing; equality is over all inputs.", "anchors": ["src/compiler/compiler.cpp:run_const_node", "src/compiler/compiler.cpp:run_const_nodes"]}
{"id": "C06", "title": "Local graph rewriting preserves meaning", "statement": "Zipping a graph with rewrite options that each preserve a node's value yields outputs of equal value, shares rewritten nodes (each source node is rewritten once) and leaves the original graph untouched; with options that never make a node higher it terminates.", "quantifier": "every finite acyclic graph, every list of value-preserving options", "why_tests_cant": "Options interact through a memo table over arbitrarily shared graphs.", "anchors": ["src/compiler/zipper.cpp:zip_node"]}
{"id": "C07", "title": "Dependency listing is a complete topological order", "statement": "Listing the nodes referenced by a set of nodes terminates and returns those nodes and every node they transitively use, each exactly once, nothing else, and every node after all of its inputs.", "quantifier": "every finite acyclic graph and every output list, including repeated outputs and shared sub-graphs", "why_tests_cant": "Wrong order or omission shows only on particular sharing patterns.", "anchors": ["src/module/module.cpp:list_reference_nodes", "src/compiler/compiler.cpp"]}
{"id": "C08", "title": "Loading finds exactly the required inputs", "statement": "Loading outputs from a graph reports as module inputs exactly the parameter nodes on which some output transitively depends, each once; it fails iff a reachable node that is neither parameter nor constant has no inputs or lies outside the graph.", "quantifier": "every finite graph and output list", "why_tests_cant": "Reachability over arbitrary graphs; the result order is unspecified.", "anchors": ["src/module/module.cpp:graph_walker", "src/module/module.cpp:Module::load"]}
{"id": "C09", "title": "Input sorting is validated", "statement": "Sorting a module's inputs by node list or by name list succeeds only if every current input is mentioned, then the input list is exactly the given list; otherwise the module's input list is unchanged and an error is raised.", "quantifier": "every current input list and every request list", "why_tests_cant": "Duplicates, omissions and foreign names combine freely.", "anchors": ["src/module/module.cpp:Module::sort_inputs"]}
{"id": "C10", "title": "Graph serialisation round trip", "statement": "Reading back a serialised module yields a graph with the same number of nodes, each with the same operator, name, parameters and inputs, with the same module inputs and outputs in the same order, and the reader consumes exactly the bytes that were written.", "quantifier": "every module whose counts and lengths fit 32 bits", "why_tests_cant": "Every nesting of names, parameters, tensor fields and links must survive; tests only sample files.", "anchors": ["src/module/module.cpp:Module::Save", "src/module/module.cpp:Module::Load", "src/module/menu.cpp", "src/module/bubble.cpp", "src/module/header.cpp"]}
{"id": "C11", "title": "Tensor serialisation round trip", "statement": "Reading back a serialised tensor (including packed tensors) yields the same field count, types, shapes and bytes, consuming exactly the bytes written.", "quantifier": "every tensor of every dtype, rank up to 7 and field count that fits 32 bits", "why_tests_cant": "Byte-level framing must hold for every shape.", "anchors": ["src/core/tensor.cpp:Tensor::serialize", "src/core/tensor.cpp:Tensor::externalize"]}
{"id": "C12", "title": "Readers reject malformed files", "statement": "Reading a truncated or corrupted module or tensor file raises an error; it never reads or writes outside the objects being built.", "quantifier": "every byte string", "why_tests_cant": "The set of malformed files is infinite; each malformed field combination takes its own path.", "anchors": ["src/core/tensor.cpp:Tensor::externalize", "src/module/menu.cpp:externalize_nodes", "src/module/module.cpp:Module::Load", "include/utils/otl.h:vector"]}
{"id": "C13", "title": "Coordinate/index bijection", "statement": "For every shape, converting an index below the element count to a coordinate and back gives the same index, coordinates are in bounds, and distinct in-bounds coordinates have distinct in-range indices.", "quantifier": "every shape of every rank, every index and coordinate", "why_tests_cant": "All shapes and all indices.", "anchors": ["include/core/tensor_iterator.h:HypeShape"]}
{"id": "C14", "title": "Shape iteration enumerates row-major", "statement": "Starting at the zero coordinate, the i-th increment of the iterator is the coordinate of linear index i; after all elements it wraps to zero; decrement undoes increment.", "quantifier": "every shape with positive extents, every number of increments", "why_tests_cant": "Unbounded iteration over all shapes.", "anchors": ["include/core/tensor_iterator.h:ShapeIterator"]}
{"id": "C15", "title": "Reshape keeps the elements", "statement": "Reshaping succeeds exactly when the requested shape (with at most one inferred extent) has the same element count, and then the data is the same sequence under the new shape; an inferred extent is the unique value that fits.", "quantifier": "every tensor shape and every requested shape", "why_tests_cant": "All pairs of shapes including zero extents and several inferred extents.", "anchors": ["src/core/tensor.cpp:Tensor::reshape", "src/backend/base/base_reshape_v2.cpp"]}
{"id": "C16", "title": "Transpose permutes elements", "statement": "Transpose with permutation p writes every output element exactly once, with out[c∘p] = in[c] for every coordinate c; a parameter that is not a permutation is rejected; without a parameter the last two dimensions are swapped; transposing by p and then by its inverse is the identity.", "quantifier": "every rank, shape and permutation", "why_tests_cant": "Rank-generic index maps and fast paths selected by shape.", "anchors": ["src/kernels/cpu/transpose.cpp", "src/backend/base/base_transpose.cpp"]}
{"id": "C17", "title": "Concat places every element", "statement": "Concatenating along any dimension yields a tensor whose element at (.., offset_k + i, ..) is element (.., i, ..) of the k-th input, every output element written exactly once, with the extent being the sum; incompatible shapes or types are rejected.", "quantifier": "every number of inputs, every rank, shapes and dimension", "why_tests_cant": "Unbounded families of shapes and inputs.", "anchors": ["src/kernels/cpu/concat.cpp", "src/backend/base/base_concat.cpp"]}
{"id": "C18", "title": "Strided slice follows Python slicing", "statement": "For a dimension of extent x and any begin, end, non-zero stride and mask flags, the sliced extent and selected positions are those of the Python slice begin:end:stride, and all accessed positions are in bounds.", "quantifier": "every extent, begin, end (negative or out of range), stride of either sign, and masks", "why_tests_cant": "The boundary cases (-x, x, wrap) for both stride signs are a large product.", "anchors": ["src/backend/base/base_strided_slice.cpp:infer_output", "src/kernels/cpu/strided_slice.cpp", "src/backend/base/base_slice_v3.cpp"]}
{"id": "C19", "title": "Element-wise broadcasting", "statement": "An element-wise binary operator on two tensors yields the tensor of the broadcast shape with out[c] = f(lhs[c mod], rhs[c mod]); dimension merging and the scalar/bias/same-shape fast paths compute the same result; incompatible shapes are rejected.", "quantifier": "every pair of shapes, every rank, every scalar function", "why_tests_cant": "Product of shape pairs and path selections.", "anchors": ["src/backend/base/element_wise_reduce.cpp", "src/kernels/cpu/add.cpp"]}
{"id": "C20", "title": "Type promotion", "statement": "Promoting the operand types of an element-wise operator is commutative, idempotent and associative, and never selects a type outside the supported ones.", "quantifier": "every pair and triple of dtypes", "why_tests_cant": "Finite but untested table; associativity over triples.", "anchors": ["src/backend/base/element_wise_reduce.cpp:upcast_dtype"]}
{"id": "C21", "title": "Convolution/pooling window geometry", "statement": "The inferred output size of convolution and pooling is the number of window positions that fit; every window of every inferred position lies inside the padded input; the forward formula inverts the backward formula.", "quantifier": "every input size, padding, kernel, stride, dilation", "why_tests_cant": "All integer parameter combinations.", "anchors": ["include/backend/common_function.h"]}
{"id": "C22", "title": "Allocator hands out disjoint live buffers", "statement": "Memory handed out by the pooled allocator is at least as large as requested, no two live buffers share storage, freeing an unknown pointer raises an error and changes nothing, a buffer is reusable after being freed, and nothing is leaked on dispose.", "quantifier": "every sequence of malloc/free/clean/dispose/deprecated calls", "why_tests_cant": "Histories of arbitrary length with reuse.", "anchors": ["src/memory/orz/vat.cpp", "src/memory/orz/pot.cpp", "src/memory/flow.cpp"]}
{"id": "C23", "title": "Shared ownership frees exactly once", "statement": "An object managed by the reference-counted handle is destroyed exactly once, exactly when its last counted owner disappears, and never while a counted owner exists.", "quantifier": "every sequence of copy, move, assign, weaken, strengthen and drop on any number of handles", "why_tests_cant": "Unbounded ownership histories.", "anchors": ["include/core/threadsafe/smart.h"]}
{"id": "C24", "title": "Synchronised multi-device memory coherence", "statement": "A buffer has at most one copy per device; the copy on a device is made from the asking handle's device when first asked for and afterwards shows exactly what is written there; after broadcasting through a handle every device shows that handle's content, and all handles stay usable.", "quantifier": "every sequence of view/sync/broadcast/write operations over any set of devices", "why_tests_cant": "Histories with stale copies.", "anchors": ["include/core/sync/sync_block.h", "include/core/sync/sync_memory.h"]}
{"id": "C25", "title": "Pattern fill", "statement": "Filling a buffer with a pattern makes byte i equal to pattern byte (i mod pattern size), for every buffer and pattern length, and terminates.", "quantifier": "every destination size and pattern size", "why_tests_cant": "Doubling copy has different remainders for all sizes; termination.", "anchors": ["src/core/memory.cpp:memset"]}
{"id": "C26", "title": "Range splitting partitions the work", "statement": "Splitting [first, last) into at most n bins yields consecutive, disjoint, non-empty ranges covering every index exactly once, at most n of them.", "quantifier": "every range and bin count", "why_tests_cant": "All integer pairs.", "anchors": ["src/utils/box.cpp:split_bins", "src/utils/box.cpp:lsplit_bins"]}
{"id": "C27", "title": "Parallel loops equal sequential loops", "statement": "A parallel loop with independent iterations gives the same final state as the sequential loop, every iteration runs exactly once, under every interleaving of the workers, and with or without a thread pool.", "quantifier": "every range, pool size and schedule", "why_tests_cant": "All schedules.", "anchors": ["include/runtime/inside/parallel.h", "src/runtime/inside/thread_pool.cpp"]}
{"id": "C28", "title": "Read/write lock exclusion and progress", "statement": "A writer excludes all readers and other writers; readers can share; once no thread holds the lock some waiting thread can proceed; no wake-up is lost.", "quantifier": "every number of threads and every interleaving", "why_tests_cant": "All schedules.", "anchors": ["include/utils/mutex.h"]}
{"id": "C29", "title": "Thread pool task accounting", "statement": "Every task submitted to the pool runs exactly once on one worker, a worker never runs two tasks at once, and join returns only when every submitted task has finished.", "quantifier": "every number of workers and tasks and every interleaving", "why_tests_cant": "All schedules.", "anchors": ["src/runtime/inside/thread_pool.cpp"]}
{"id": "C30", "title": "Scoped context binding", "statement": "Entering and leaving scoped contexts in any nesting restores the previously visible context on every exit path, and binding on one thread never changes what another thread sees.", "quantifier": "every nesting of scopes and every interleaving of threads", "why_tests_cant": "All nestings and interleavings.", "anchors": ["include/utils/ctxmgr_lite.h", "src/utils/ctxmgr_lite.cpp"]}
{"id": "C31", "title": "Inline vector stays in its buffer", "statement": "The fixed-capacity vector used for shapes never writes outside its buffer: an operation that would exceed the capacity raises an error, and otherwise it behaves like a list.", "quantifier": "every sequence of operations", "why_tests_cant": "All operation histories and sizes at the boundary.", "anchors": ["include/utils/otl.h:vector"]}
{"id": "C32", "title": "Half-float conversion", "statement": "Widening a half float to single keeps the value exactly and narrowing back returns the same half float; comparison of half floats is the numeric order.", "quantifier": "every bit pattern", "why_tests_cant": "Exhaustive over formats and generic widths.", "anchors": ["include/core/ieee754_float.h"]}
{"id": "C33", "title": "Fixed-point numbers order and arithmetic", "statement": "Fixed-point numbers compare as the rationals they represent and addition is exact while in range.", "quantifier": "every width, every fraction size, every value", "why_tests_cant": "All widths.", "anchors": ["include/core/sink.h"]}
{"id": "C34", "title": "Operator parameters are validated", "statement": "An operator accepts only declared fields (or retention parameters), refuses to initialise while a required field is missing, and clearing parameters restores defaults.", "quantifier": "every sequence of field/set/clear calls", "why_tests_cant": "All histories.", "anchors": ["src/runtime/operator.cpp"]}
{"id": "C35", "title": "Compile option parsing", "statement": "For each switch the last mention on the command line wins, else its default; device aliases are followed to a final device name and the lookup terminates.", "quantifier": "every command line and alias table", "why_tests_cant": "Aliases can chain or cycle arbitrarily.", "anchors": ["src/compiler/argparse.cpp"]}
{"id": "C36", "title": "Workbench inputs and outputs by slot and name", "statement": "An input bound by slot or by name is what the program's input of that slot sees, results are delivered to the slot order of the module outputs, unknown slots or names are rejected, and a run with missing inputs never yields stale outputs.", "quantifier": "every sequence of input/run/output calls and every program", "why_tests_cant": "Histories of binds and runs.", "anchors": ["src/runtime/workbench.cpp", "src/runtime/program.cpp"]}
{"id": "C37", "title": "Program clones are independent and equivalent", "statement": "A cloned program computes the same function as the original, has the same named inputs and outputs for every entry point, and changing a parameter on one does not affect the other.", "quantifier": "every program and every sequence of operations after the clone", "why_tests_cant": "All histories.", "anchors": ["src/runtime/program.cpp:Program::clone", "src/runtime/workbench.cpp:Workbench::run_hook"]}
{"id": "C38", "title": "Graph links stay symmetric", "statement": "After any sequence of links, a node lists another as input exactly as often as it is listed as that node's output.", "quantifier": "every sequence of Link calls over any nodes", "why_tests_cant": "All histories, re-links, repeated inputs.", "anchors": ["include/module/graph.h:LinkedValue::Link", "include/module/graph.h:LinkedValue::ReplaceOutput"]}
{"id": "C39", "title": "Module fusion connects what was asked", "statement": "Fusing modules along routes gives a module whose inputs and outputs are the modules' own ones that no route uses, in order, and whose every output has the value it has when each routed input takes the value of the output slot named by its route. A route naming no such slot is refused with an error. The modules fused are not changed.", "quantifier": "every list of modules (any graphs), every list of routes, every binding of the remaining inputs", "why_tests_cant": "Tests fuse a few pairs of networks along one route; the claim is about all graphs, route lists and orders of routes.", "anchors": ["include/module/module.h:Route", "src/module/module.cpp:Module::Fusion"]}
{"id": "C40", "title": "Tensor field access and packing", "statement": "Packing tensors and reading field i returns the i-th tensor; negative indices count from the end; out of range is rejected; unpacking a pack returns the list; the pack and field instructions are inverse.", "quantifier": "every list of tensors and index", "why_tests_cant": "All list lengths and nested packs.", "anchors": ["src/core/tensor.cpp", "src/runtime/instruction/tensor_instruction.cpp"]}
{"id": "C41", "title": "Each needed node is computed once", "statement": "In the compiled program every node the outputs depend on (that is not an input or constant) is computed by exactly one instruction group however many nodes use it, nothing else is computed, and every needed constant is stored once in the data segment.", "quantifier": "every finite acyclic graph, input list and output list on which compilation succeeds", "why_tests_cant": "Sharing patterns are unbounded.", "anchors": ["src/compiler/compiler.cpp:Compiler::compile"]}
{"id": "C42", "title": "Shape-only operators keep the elements", "statement": "Squeeze, unsqueeze, flatten, flatten2d, expand and the first-generation reshape accept exactly the parameters their documented meaning allows, produce the shape that meaning gives (ones removed or inserted at the named axes, trailing extents merged), and keep the element sequence.", "quantifier": "every shape and every list of axes or extents, negative axes included", "why_tests_cant": "Parameter lists and ranks are unbounded combinations; negative axes interact with the rank changing while the list is processed.", "anchors": ["src/backend/base/base_new_shape.cpp", "src/kernels/cpu/squeeze.cpp", "src/backend/base/base_unsqueeze.cpp", "src/backend/base/base_flatten.cpp", "src/backend/base/base_flatten2d.cpp", "src/backend/base/base_reshape.cpp"]}
{"id": "C43", "title": "Pooling computes the window reduction", "statement": "Max pooling writes, for every batch, channel and output position, the largest element of the part of the window lying inside the image; average pooling writes the mean of that part (or of the whole window when padding counts); every output element is written exactly once and nothing outside the input is read.", "quantifier": "every image size, window, stride, padding, batch and channel count, and element value", "why_tests_cant": "Window clipping depends on every combination of size, padding and stride; element values are unbounded.", "anchors": ["src/kernels/cpu/pooling2d.cpp", "src/kernels/cpu/pooling_algorithm.cpp"]}
{"id": "C44", "title": "Convolution computes its defining sum", "statement": "Two-dimensional convolution writes at every batch, output channel and position the sum over input channels and kernel cells of weight times padded input, whichever of its internal layouts and blockings (1x1 shortcut, unfolding, 8x8 packed multiplication with remainders) is used; every output element is written.", "quantifier": "every tensor size, kernel, stride, padding, dilation and every element value over a commutative semiring (exact arithmetic)", "why_tests_cant": "The blocked multiplication takes different paths for every residue of the sizes modulo the block; unfolding depends on all geometry parameters.", "anchors": ["src/kernels/cpu/conv2d_core.cpp", "src/kernels/cpu/im2col.cpp", "src/kernels/cpu/math_cpu.cpp:math<T>::gemm", "src/kernels/common/math.h"]}
{"id": "C45", "title": "Static shape inference agrees with execution", "statement": "The shape the static inference gives a node is the shape the operator produces when the node is executed, for every operator it covers and all parameters on which both succeed.", "quantifier": "every operator covered by the static inference, every input shape and parameter", "why_tests_cant": "Two independent implementations of each shape rule must agree on an unbounded domain.", "anchors": ["src/runtime/inferer/factory.cpp", "src/backend/base/base_conv2d.cpp", "src/backend/base/base_pooling2d.cpp"]}
{"id": "C46", "title": "Matrix products compute their defining sums", "statement": "The BLAS-style gemm replaces exactly the M x N block of its destination by beta C + alpha op(A) op(B), for both storage orders, all transpositions and leading extents; the Gemm operator adds a bias broadcast from any compatible shape; InnerProd and MatMul compute the matrix product of the flattened operands, in every leading shape; an inner product with weights packed in advance gives the same result as with the original weights.", "quantifier": "every extent, leading extent, transposition, scalar, bias shape and element value over a commutative semiring (exact arithmetic)", "why_tests_cant": "Blocking, transposition and flattening take different paths for every combination of extents; element values are unbounded.", "anchors": ["src/kernels/cpu/math_cpu.cpp:math<T>::gemm", "src/kernels/cpu/cpu_gemm.cpp", "src/kernels/cpu/inner_prod.cpp", "src/backend/base/base_gemm.cpp", "src/backend/base/base_matmul.cpp", "src/kernels/cpu/matmul.cpp", "src/compiler/option/pack_translator_option.cpp"]}
{"id": "C47", "title": "Translating a module keeps its meaning", "statement": "Before compiling, the translator rewrites the module (replacing Gemm by an inner product followed by scaling and addition, packing the constant weights of inner products, matrix products and convolutions in advance and marking the operator that uses them). The translated outputs have the same values as the original outputs for all inputs, and so has the program compiled from them.", "quantifier": "every module graph (any size, any sharing of nodes), all constants and all input values", "why_tests_cant": "Graphs are unbounded and shared; the rewriting changes both constants and the operators reading them, so a weight seen by one more reader than expected silently changes results.", "anchors": ["src/compiler/translater.cpp", "src/compiler/option/pack_translator_option.cpp", "src/compiler/compiler.cpp"]}
{"id": "C48", "title": "Index-driven operators read the elements their indices name", "statement": "gather replaces the chosen axis by the extents of the indices and puts at (u, v, w) the element of the operand at (u, index at v, w); gather_v2 puts at (v, w) the element at (tuple at v, w); gather_elements puts at every coordinate the element with the chosen coordinate replaced by the index there; dimshuffle does the same for a fixed list of rows; scatter_nd replaces exactly the rows named by the indices by the corresponding updates, the last one winning. Indices that name nothing are refused.", "quantifier": "every operand shape, axis, index list (negative and out of range included) and element values", "why_tests_cant": "The indices are data: every combination of shape, axis and index value is a different access pattern.", "anchors": ["src/kernels/cpu/gather.cpp", "src/kernels/cpu/gatherv2.cpp", "src/kernels/cpu/gather_elements.cpp", "src/kernels/cpu/dimshuffle.cpp", "src/kernels/cpu/scatter_nd.cpp", "src/backend/base/base_gather.cpp", "src/backend/base/base_gatherv2.cpp", "src/backend/base/base_gather_elements.cpp", "src/backend/base/base_dimshuffle.cpp", "src/backend/base/base_scatter_nd.cpp"]}
{"id": "C49", "title": "Cutting, repeating and stacking place every element", "statement": "tile multiplies the right-aligned extents by the repeats and fills position c with the element at c modulo the extents; slice returns exactly the box meant by begins and sizes (a negative size meaning the rest) and refuses boxes that do not lie inside; stack puts operand k at index k of a new axis and refuses operands of different type or shape; split and chunk cut an axis into consecutive parts which together are the whole operand.", "quantifier": "every shape, repeat list, box, axis, number of operands, list of parts and element values", "why_tests_cant": "Shapes, axes and part lists are unbounded, and every element of every output has to be accounted for.", "anchors": ["src/kernels/cpu/tile.cpp", "src/kernels/cpu/slice.cpp", "src/kernels/cpu/slice_v2.cpp", "src/kernels/cpu/stack_tensor.cpp", "src/kernels/cpu/split.cpp", "src/kernels/cpu/chunk.cpp", "src/backend/base/base_tile.cpp", "src/backend/base/base_slice.cpp", "src/backend/base/base_split.cpp", "src/backend/base/base_chunk.cpp"]}
{"id": "C50", "title": "Reductions and normalisations combine exactly the elements along their dimension", "statement": "reduce_sum and reduce_mean put at (u, v) the sum, respectively the mean, of the elements at (u, i, v) over the reduced dimension(s), with the dimension kept as one or removed; max gives the largest of them and argmax the first index of the largest; softmax gives exp x_i / sum_j exp x_j, with the smooth form equal to the plain one; l2_norm gives x_i / sqrt(sum_j x_j^2 + epsilon). A dimension the tensor does not have is refused.", "quantifier": "every shape, dimension (from the front or from the end), element type and element values", "why_tests_cant": "Shapes, dimensions and values are unbounded, and every output element depends on a whole column of the input.", "anchors": ["src/kernels/cpu/reduce_sum.cpp", "src/kernels/cpu/reduce_mean.cpp", "src/kernels/cpu/max.cpp", "src/kernels/cpu/argmax.cpp", "src/kernels/cpu/softmax.cpp", "src/kernels/cpu/l2_norm.cpp", "src/backend/base/base_reduce_sum.cpp", "src/backend/base/base_reduce_mean.cpp", "src/backend/base/base_argmax.cpp"]}
{"id": "C51", "title": "Per-channel operators apply the coefficients of each element's own channel", "statement": "add_bias adds the bias of the element's channel; batch_norm gives (x - mean) / sqrt(variance + epsilon) and batch_scale x * scale + bias with the coefficients of its channel; fused_batch_norm gives exactly, bit for bit, what batch_norm followed by batch_scale gives; prelu keeps elements not below zero and multiplies the others by the slope of their channel (for elements comparable with zero). The channel is the coordinate along dim, or along the letter C of the format. Negative dims, dims out of range, coefficients that are not one per channel, coefficients of another type and types without arithmetic are refused. The result does not depend on whether an element is processed by the vector loop or the remainder loop.", "quantifier": "every shape, dimension, element type, element and coefficient values, every remainder of the vectorised loops, and every arithmetic (rounding)", "why_tests_cant": "The offset of an element depends on the products of the extents before and after the channel dimension and on the vector remainder; all shapes and values have to be covered.", "anchors": ["src/kernels/cpu/add_bias.cpp", "src/kernels/cpu/batch_norm.cpp", "src/kernels/cpu/batch_scale.cpp", "src/kernels/cpu/fused_batch_norm.cpp", "src/kernels/cpu/prelu.cpp", "src/backend/base/base_add_bias.cpp", "src/backend/base/base_batch_norm.cpp", "src/backend/base/base_prelu.cpp"]}
{"id": "C52", "title": "An encrypted file gives back what was written", "statement": "Writing any data through an encrypted file stream, in any pieces, closing it, and reading it through an encrypted stream with the same key gives the same bytes, cut into pieces of the sizes asked for; a request beyond the end gets what is left, and the one after it is refused. The file is the PKCS #7 padded data, block by block under the block cipher, so its length is the next larger multiple of 16.", "quantifier": "every key (of any length), data, division into writes and sequence of read sizes", "why_tests_cant": "The reader keeps one block decrypted ahead and strips padding at the end; all alignments of writes, reads and the end of the data have to agree.", "anchors": ["src/encryption/aes_fstream.cpp", "src/encryption/aes_fstream.h", "src/encryption/encrypted_fstream.cpp", "include/encryption/encrypted_fstream.h"]}
{"id": "C53", "title": "Encryption is AES-256, and its modes are CBC and CTR", "statement": "AES_ECB_encrypt with the schedule of AES_init_ctx is the AES-256 cipher of FIPS-197 (S-box as inverse and affine map in GF(2^8), ShiftRows, MixColumns, 14 rounds, key expansion) for every 32-byte key and block, and AES_ECB_decrypt undoes it for keys of any length; shorter keys are completed by the default key. AES_CBC_encrypt_buffer chains blocks as CBC and AES_CBC_decrypt_buffer undoes it; AES_CTR_xcrypt_buffer adds the encrypted 128-bit big-endian counter, undoes itself, and leaves the next counter.", "quantifier": "every key, block, initialisation vector and buffer", "why_tests_cant": "There are 2^256 keys and 2^128 blocks; test vectors cover a handful.", "anchors": ["src/encryption/aes.cpp", "src/encryption/aes.h"]}
{"id": "C54", "title": "Wrong keys and damaged files are refused and never read outside memory", "statement": "Reading a file that is not what the writer produced for the key (cut off, damaged, another key, not an encrypted file at all) gives an exception or wrong bytes but never accesses memory outside the reader; a file whose length is not a multiple of 16 is refused by a client that reads to its end; different keys are different; setting up a key with an initialisation vector gives the same key schedule as without.", "quantifier": "every file content, key and sequence of read sizes", "why_tests_cant": "The contents of damaged files are arbitrary; fuzzing samples them.", "anchors": ["src/encryption/aes_fstream.cpp", "src/encryption/aes.cpp"]}
{"id": "C55", "title": "Padding moves elements and fills the rest", "statement": "pad with amounts (before, after) per axis, negative ones cutting, puts every element of the operand at its coordinate plus the amounts before, if that is inside the output, and the padding value everywhere else; the extents of the output are the sums. A number of pairs other than the rank and types without arithmetic are refused.", "quantifier": "every shape and rank, element type, combination of positive and negative amounts, padding value and element values", "why_tests_cant": "There is one algorithm for rank 4 and another for all other ranks; signs of the amounts per axis and all shapes have to be covered.", "anchors": ["src/backend/base/base_pad.cpp", "src/kernels/cpu/pad_cpu.cpp", "src/kernels/cpu/pad2d_algorithm.cpp"]}
{"id": "C56", "title": "Blocks become batches and back", "statement": "space_to_batch4d puts the element (n, c, h, w), after padding, into batch (position in its block) * N + n at the block's row and column, distinct elements in distinct cells, and zero everywhere else; batch_to_space4d takes each element from that cell; applied one after the other with crop equal to padding they give the tensor back. Blocks below one, ranks other than 4 and extents that the block does not divide are refused.", "quantifier": "every shape, block, padding, crop and element values", "why_tests_cant": "The cell of an element depends on quotients and remainders of all its coordinates; testing samples shapes and blocks.", "anchors": ["src/backend/base/base_spacetobatch4d.cpp", "src/backend/base/base_batchtospace4d.cpp", "src/kernels/cpu/spacetobatch4d.cpp", "src/kernels/cpu/batchtospace4d.cpp"]}
{"id": "C57", "title": "top-k returns the K largest elements of every row, in order", "statement": "topkv2 keeps the leading extents and replaces the last extent by K, the smaller of it and number; every output row holds K elements of the corresponding input row, in descending order, at pairwise distinct positions, and none of the elements left out is larger than one returned; the second output holds the position of each returned element in its row. Negative numbers and types without order are refused.", "quantifier": "every shape, number K, element type, element values, and every implementation of partial sorting that meets the C++ standard", "why_tests_cant": "All orders of all rows and ties have to be covered, and the standard leaves the order of ties open.", "anchors": ["src/backend/base/base_topkv2.cpp", "src/kernels/cpu/topkv2.cpp"]}
{"id": "C58", "title": "Non-maximum suppression keeps the greedy selection", "statement": "non_max_suppression_v3 returns at most max_output_size pairwise distinct box indices in order of descending score; no two returned boxes overlap by more than the threshold; every box with a score above the threshold that is not returned overlaps a returned box of no smaller score by more than the threshold, unless the maximum number was reached; overlap is the area of the intersection divided by the area of the union of the two rectangles. The rest of the output is -1. Operands of wrong shapes and non-positive maximum sizes are refused.", "quantifier": "every number of boxes, coordinates, scores, thresholds and maximum sizes, both box encodings, and every choice among equal scores", "why_tests_cant": "Suppression depends on all pairs of boxes and the order of their scores; tests sample configurations.", "anchors": ["src/backend/base/base_non_max_suppression_v3.cpp", "src/kernels/cpu/non_max_suppression_v3.cpp"]}
{"id": "C59", "title": "broadcast, where and equal follow numpy", "statement": "For operands that numpy can broadcast together, broadcast, where and equal return the numpy shape (extents aligned at the last axis, missing ones counting as one), and at every coordinate the operand's element there, the element of lhs if the condition's element there is not zero and that of rhs otherwise, and 1 or 0 as the two elements there are equal or not. Shapes that do not match and types the kernels do not support are refused.", "quantifier": "every pair or triple of shapes and ranks, every element type and all element values", "why_tests_cant": "Each kernel switches between several algorithms according to the shapes; every position of every shape has to be read from the right place.", "anchors": ["src/backend/base/base_broadcast_v2.cpp", "src/kernels/cpu/broadcast_v2.cpp", "src/backend/base/base_where.cpp", "src/kernels/cpu/where.cpp", "src/backend/base/base_equal.cpp", "src/kernels/cpu/equal.cpp"]}
{"id": "C60", "title": "Winograd convolution computes the convolution", "statement": "Every run of conv2d_winograd returns the tensor of the extents that conv2d computes for a 3x3 kernel with stride and dilation 1, and at every position the sum over input channels and kernel cells of kernel element times padded input element, whatever earlier runs of the same operator computed and whatever the memory it allocates holds; a kernel given as transformed is used as it is.", "quantifier": "every batch, channel counts, image sizes, padding, padding value, kernel, elements, both tile sizes, and every history of runs of the operator", "why_tests_cant": "The output is computed tile by tile through transformed kernels that are cached between runs; all sizes relative to the tiles, all elements and all histories have to be covered.", "anchors": ["src/backend/base/base_conv2d_winograd.cpp", "src/kernels/cpu/conv2d_winograd.cpp", "src/kernels/cpu/winograd_algorithm.cpp", "src/kernels/cpu/pad2d_algorithm.cpp", "src/kernels/common/function.cpp"]}
{"id": "C61", "title": "Depthwise convolution convolves each channel with its own kernel", "statement": "depthwise_conv2d returns a tensor of the extents that conv2d computes, with the channels of the input, and at every position of every channel the sum over the kernel cells of the channel's kernel element times the padded input element; it reads and writes only the elements of its operands and result. Weights of another type, with another number of channels or a channel multiplier, packed weights and types other than float and double are refused.", "quantifier": "every batch, number of channels, image size, kernel size, padding, stride, dilation, padding value, weights and elements of both element types", "why_tests_cant": "3x3 kernels with stride 1 and 2 use code of their own that splits the image into border, vector and remainder parts; all sizes, paddings and positions have to be covered.", "anchors": ["src/backend/base/base_depthwise_conv2d.cpp", "src/kernels/cpu/depthwise_conv2d_core.cpp", "src/kernels/cpu/depthwise_conv2d_algorithm.cpp"]}
{"id": "C62", "title": "range, constant_of_shape and shape make the tensors they are asked for", "statement": "range returns the numbers start, start+delta, ... that lie before limit, in the direction of delta, no more and no fewer, and an empty tensor if there are none; constant_of_shape returns a tensor of the given shape with the value in every element; shape and _dims return the extents and the number of dimensions of their operand. Operands that are not single numbers of one type, a zero delta and values that are not single are refused.", "quantifier": "every start, limit and delta of every element type, every value and shape", "why_tests_cant": "Counts come from integer arithmetic with wrapping and rounding that differs per type and sign; all combinations have to be covered.", "anchors": ["src/kernels/cpu/range.cpp", "src/kernels/cpu/constant_of_shape.cpp", "src/backend/base/base_shape.cpp", "src/kernels/cpu/dims.cpp"]}
{"id": "C63", "title": "Conversions keep every representable number", "statement": "Converting a tensor to another element type keeps its shape, and every number that the new type has; integers it does not have are reduced modulo its range, fractions are dropped towards zero; as a truth value a number is true exactly if it is not zero. Reading a single number from a tensor converts the same way, and a string of white space, sign and digits denotes its number. Types without conversion and empty tensors are refused.", "quantifier": "every pair of element types, every tensor and all its values, every string", "why_tests_cant": "All pairs of types and all values have to be covered.", "anchors": ["src/core/tensor_builder.cpp", "src/backend/base/base_cast.cpp", "src/backend/base/base_cast_v2.cpp"]}
{"id": "C64", "title": "Transposed convolution adds every input element times the kernel", "statement": "transpose_conv2d returns a tensor with the output channels of the weights and the extents that a convolution with the same parameters turns back into those of the input; at every position it holds the sum of input element times kernel element over all that meet there; it is the adjoint of that convolution. Weights of another type or number of channels, other layouts and types and packed weights are refused.", "quantifier": "every batch, channel counts, image and kernel sizes, padding, stride, dilation and elements", "why_tests_cant": "All overlaps of all shifted kernels at all positions have to be counted exactly once.", "anchors": ["src/backend/base/base_conv2d_transpose.cpp", "src/kernels/cpu/transpose_conv2d_core.cpp", "src/kernels/cpu/im2col.cpp"]}
{"id": "C65", "title": "Resizing interpolates between the pixels of the source", "statement": "resize2d gives the two extents asked for and keeps the others (negative: as it is); every request for two neighbouring extents is accepted, and an unchanged one returns the operand. Every element is, with the centres of the pixels of both images aligned: for linear the interpolation between the four pixels around its place and thus between their values; for cubic the one with Keys' kernel; for nearest the nearest pixel; for hard the pixel at the place scaled with rounding down. resize_nearest_neighbor and sample2d_v2 are resize2d with the extents given or scaled. Every image of the batch and every channel is treated alike; nothing outside the image is read.", "quantifier": "every shape and request, element type, kind of sampling, image and target size and elements; for linear, cubic and copying also every rounding of the coordinates", "why_tests_cant": "Clamping at all borders, for all ratios of sizes and all positions, decides whether memory outside the image is read.", "anchors": ["src/backend/base/base_resize2d.cpp", "src/kernels/cpu/resize2d.cpp", "src/kernels/cpu/resize_nearest_neighbor.cpp", "src/kernels/cpu/sample2d_v2.cpp"]}
{"id": "C66", "title": "Affine sampling reads the source at the transformed place", "statement": "affine_sample2d gives the two extents asked for and keeps the others; the element at a row and column is the source sampled (linear, cubic, nearest, hard) at the place that the matrix maps them to, limited to the range of the element type; a place outside the source gives the value for outside if there is one, and is moved inside otherwise. sample2d is this with both extents and the matrix scaled by one factor and zero outside. Unknown kinds, impossible dimensions, matrices that are not 3x3 and types without arithmetic are refused. Nothing outside the image is read.", "quantifier": "every matrix (every rounding of the places), shape, kind of sampling, element type, target size and elements", "why_tests_cant": "Every matrix moves places across borders in its own way; the decision inside or outside has to be right for each of them.", "anchors": ["src/backend/base/base_affine_sample2d.cpp", "src/kernels/cpu/affine_sample2d.cpp", "src/kernels/cpu/sample2d.cpp"]}
{"id": "C67", "title": "An image filter applies exactly the steps added since it was last cleared", "statement": "After any sequence of calls on an image filter (clear, adding steps, compile, run, also calls that threw), running it on an image returns the image sent through exactly the steps added since the last clear, in the order they were added, each with its own operands, and the image itself if there are none. It throws exactly when the operator of a step is missing on the device or throws or the image cannot be brought to four dimensions; it always comes back; the stack of the workbench is as before. The program handed to a workbench by bind_filter does the same.", "quantifier": "every history of calls, every set of steps with every operand, every image, every operator library and iteration order of hash sets", "why_tests_cant": "The filter is compiled lazily and recompiled after changes; a test sees one history, not all of them.", "anchors": ["src/runtime/image_filter.cpp", "src/runtime/workbench.cpp", "src/compiler/compiler.cpp"]}
{"id": "C68", "title": "A clone of an image filter behaves as a filter with the same steps", "statement": "At any time an image filter can be cloned, and whatever is then called on the clone, it behaves like a filter which had the steps of the original from the beginning.", "quantifier": "every history of calls before and after cloning, every image and operator library", "why_tests_cant": "Clones share the compiled program but not the steps; which histories expose the difference is not something a test can enumerate.", "anchors": ["src/runtime/image_filter.cpp"]}
{"id": "C69", "title": "Cropping operators cut and pad where they say", "statement": "nhwc_center_crop2d, limit and crop_nd give the extents asked for (or the own ones where nothing is asked), cutting or padding both sides of an axis equally with an odd one at the end, or at the given shift; every element that stays is found at its moved place and everything else is the padding value. divided extends the last axes to the next multiples. The announced shapes are those of the results; impossible parameters are refused.", "quantifier": "every shape, request, shift, limit, stride, element type and content", "why_tests_cant": "Parity of each difference, sign of each request and rank select different paths; a test sees a few of them.", "anchors": ["src/backend/zoo/nhwc_center_crop2d.cpp", "src/backend/zoo/crop_nd.cpp", "src/backend/zoo/limit.cpp", "src/backend/zoo/divided.cpp"]}
{"id": "C70", "title": "Scaling whole images keeps the ratio of their sides", "statement": "nhwc_scale_resize2d gives the width and height asked for, or makes the shorter side as long as asked and keeps the ratio (rounding down); its pixels are those of resize2d. nhwc_letterbox gives the size asked for and shows the whole image, scaled by the largest factor with which it fits, with the given value outside of it. An image that has the size already is returned unchanged.", "quantifier": "every image size, target, kind of sampling, element type and content", "why_tests_cant": "The result depends on products and quotients of all sizes; tests try a few aspect ratios.", "anchors": ["src/backend/zoo/nhwc_scale_resize2d.cpp", "src/backend/zoo/nhwc_letterbox.cpp"]}
{"id": "C71", "title": "Images are turned to colour and to gray pixel by pixel", "statement": "force_color copies the one channel to three, force_gray replaces the channels by their weighted sum (given weights, or those of blue, green and red), converted to the type of the image; images that have the channels already are returned as they are and all others are refused. With the default weights 8 bit images always have a defined result within rounding of the weighted sum, and a pixel with three equal channels keeps its value. The announced shape is that of the result.", "quantifier": "every shape, element type, weights, rounding of the sums and content", "why_tests_cant": "Number of channels, type and weights select the path, and the rounding of a sum depends on the pixel; there are 2^24 colours.", "anchors": ["src/backend/base/base_force_color.cpp", "src/backend/base/base_force_gray.cpp", "src/kernels/cpu/force_color.cpp", "src/kernels/cpu/force_gray.cpp"]}
{"id": "C72", "title": "Image normalisation works on each image of the batch", "statement": "prewhiten and norm_image subtract from each element the mean of its own image and multiply it by the inverse of the standard deviation of its own image (prewhiten: at least 1/sqrt(count); norm_image: plus epsilon); in exact arithmetic whitened images have mean 0 and standard deviation 1. Only float and double tensors are accepted.", "quantifier": "every batch, shape, arithmetic of the two floating point types, epsilon and content", "why_tests_cant": "The result of every element depends on all elements of its image and must not depend on other images, which are normalised in the same buffer before.", "anchors": ["src/kernels/cpu/prewhiten.cpp", "src/kernels/cpu/norm_image.cpp", "src/backend/base/base_prewhiten.cpp", "src/backend/base/base_norm_image.cpp", "src/backend/base/base_activation.cpp"]}
{"id": "C73", "title": "Tensors of the C interface own or share their memory as documented", "statement": "A tensor made by ts_new_Tensor, ts_Tensor_clone or ts_Tensor_cast to another type reads the elements it was given, changes no other tensor and is changed by none, and stays readable until its own handle is freed; one made by ts_Tensor_reshape, ts_Tensor_slice, ts_Tensor_slice_v2 or ts_Tensor_cast to its own type reads the same elements as the original for as long as both exist, whatever is written through either. Freeing a tensor does not change what others read. A call that fails returns NULL, sets the message and changes nothing; a call that succeeds leaves no message.", "quantifier": "every program of calls and element accesses, with any number of handles alive, any shapes and any order of freeing", "why_tests_cant": "Aliasing and lifetime are properties of all later calls, in every order, not of one result.", "anchors": ["src/api/tensor.cpp", "include/api/tensor.h", "src/core/tensor.cpp", "src/core/memory.cpp", "src/api/errno.h", "src/api/declaration.h", "src/core/tensor_builder.cpp"]}
{"id": "C74", "title": "Operators are found where they were registered", "statement": "After any sequence of registrations an operator is made by the last one that was accepted for its device and name; if it is not asked for strictly, the memory device and then the CPU are tried. A registration without a needed function, or with a device name that does not fit, changes nothing. What an operator of a plugin announces in the documented format is what is inferred.", "quantifier": "every sequence of registrations, device, name and answer of a plugin", "why_tests_cant": "The registry is global and its history is arbitrary; the answers of plugins are arbitrary integer arrays.", "anchors": ["src/global/operator_factory.cpp", "src/global/memory_device.cpp", "src/api/operator.cpp", "include/api/operator.h", "include/utils/otl.h", "include/utils/except.h"]}
{"id": "C75", "title": "Activations apply their function to every element", "statement": "Relu, relu_max, leaky_relu, hard_sigmoid, square, abs, sqrt, rsqrt, exp, tanh, erf, sigmoid, softplus, ceil and floor give a tensor of as many elements whose element at each place is the named function of the operand's element at that place, whether it is computed four at a time or by itself, for every numeric type the operator takes.", "quantifier": "every number of elements, every element, every parameter and every numeric type", "why_tests_cant": "The vector loop and the rest of it use different instructions, which agree only by laws of the arithmetic, at every length and value.", "anchors": ["src/kernels/cpu/relu.cpp", "src/kernels/cpu/relu_max.cpp", "src/kernels/cpu/leaky_relu.cpp", "src/kernels/cpu/hard_sigmoid.cpp", "src/kernels/cpu/square.cpp", "src/kernels/cpu/sigmoid.cpp", "src/kernels/cpu/softplus.cpp", "src/kernels/cpu/tanh.cpp", "include/kernels/common/math.h"]}
{"id": "C76", "title": "Quantisation rounds to the nearest byte and quantised convolution is exact in integers", "statement": "Quantising a tensor multiplies each element by the scale of its row, or by the one scale, rounds to a nearest integer and limits it to -128..127, at every place and for every number of elements. Convolving quantised tensors computes the defining sum of products exactly in integers and multiplies it by the scale of its own output channel, however the loops are scheduled.", "quantifier": "every tensor, every list of scales, every geometry and kernel size, every order in which the parallel iterations are run", "why_tests_cant": "The vector loop and its remainder, group sizes computed in float, integer overflow and the schedule of the parallel loop go wrong only for particular lengths, values and schedules.", "anchors": ["src/kernels/cpu/quantize.cpp", "src/backend/base/base_quantize.cpp", "src/kernels/cpu/quantized/conv2d_quantized_core.cpp", "src/backend/base/base_conv2d_quantized.cpp", "src/kernels/cpu/math_cpu.cpp"]}
{"id": "C77", "title": "Computed paddings give the documented output size", "statement": "The operators that compute the padding of a convolution or pooling for models converted from TensorFlow, ONNX, MXNet and Dragon give, for SAME, a padding with which the convolution or pooling has as many outputs as input elements divided by the stride and rounded up, divided evenly with the odd element at the end (at the start for SAME_LOWER), and for VALID one with which it has exactly the windows that fit.", "quantifier": "every input extent, static padding, kernel, stride and dilation, both directions, both layouts", "why_tests_cant": "The sizes go through float divisions, truncating integer divisions and two inverse formulas; a wrong case depends on the exact combination of extent, stride and kernel.", "anchors": ["src/backend/tf/conv2d_padding.cpp", "src/backend/tf/pooling2d_padding.cpp", "src/backend/onnx/pooling2d_auto_pad.cpp", "src/backend/mxnet/pooling2d_padding.cpp", "src/backend/dragon/conv2d_padding.cpp", "src/backend/dragon/pooling2d_auto_pad.cpp", "include/backend/common_function.h"]}
{"id": "C78", "title": "The LSTM operator computes the LSTM recurrence", "statement": "Running the LSTM operator on a sequence gives the hidden state after every step, the last hidden state and the last cell state of the standard recurrence (gates in the order input, output, forget, cell); in the bidirectional form the second direction runs over the sequence backwards with its own weights and its states are stored at the times they belong to. The rest of the tensor stack is untouched.", "quantifier": "every sequence length, batch size, feature and hidden size, all weights, all scalar arithmetics, every stack the operator is called on", "why_tests_cant": "The operator is a program on the tensor stack: it keeps gate values by their position while running other operators above them and cleans up relative to fixed indices, so an error depends on the step number and on what else is on the stack.", "anchors": ["src/backend/base/base_lstm.cpp", "src/kernels/cpu/lstm.cpp", "src/runtime/stack.cpp"]}
{"id": "C79", "title": "crop_to cuts its first operand to the size of the second, whatever was run before", "statement": "Running crop_to gives the first operand cut (and filled up with zeros) to the extents the second operand has from the axis on, moved by the offsets; the result depends only on the operands and the parameters, not on what the operator object was run on before; inference announces the same shape; wrong ranks, axes and numbers of offsets are refused.", "quantifier": "every rank, every pair of shapes, all offsets, all element values, every history of earlier infer and run calls on the same operator object", "why_tests_cant": "The operator rewrites its own axis parameter when it is negative, so what it does depends on the history of calls, and a test that runs it once on one shape cannot see it; the element contents range over all shapes and offsets.", "anchors": ["src/kernels/cpu/crop_to.cpp", "src/backend/base/base_pad.cpp", "src/kernels/cpu/pad.cpp"]}
{"id": "C80", "title": "shape_index_patch cuts a patch around every landmark", "statement": "For every image and every landmark the operator gives, in every channel, the patch of the feature map whose centre is the landmark (rounded to whole rows and columns), with zeros outside of the image; the patches have the size the parameters describe for the original image, scaled to the feature map; wrong operands are refused.", "quantifier": "every number of images, channels and landmarks, every size of feature map and patch, all positions, all element values, every rounding of float arithmetic within half a unit in the last place", "why_tests_cant": "Rounding, borders and the index arithmetic of a five-dimensional result depend on positions and sizes; tests use landmarks inside the image.", "anchors": ["src/kernels/cpu/shape_index_patch.cpp", "src/backend/base/base_shape_index_patch.cpp", "include/core/tensor_iterator.h"]}
{"id": "C81", "title": "yolo activates and yolo_poster decodes, cuts and suppresses the boxes of every class", "statement": "The yolo operator passes the extents of every anchor on unchanged and applies the sigmoid to every other entry exactly once. yolo_poster returns, for every image, exactly the boxes decoded from the anchors whose objectness is above the threshold, cut at the border of the image, and suppressed class by class: two boxes kept for a class never overlap by more than the threshold, and every box dropped for a class overlaps a kept one with no smaller score. infer announces the shape that run returns.", "quantifier": "every number of operands, images, anchors, classes, every size of the feature maps, all element values, thresholds and priors, every sorting algorithm within the standard, every rounding", "why_tests_cant": "Suppression depends on the order of all scores and on all pairs of boxes, and the index arithmetic on all extents; tests run one picture.", "anchors": ["src/kernels/cpu/yolo.cpp", "src/kernels/cpu/yolo_poster.cpp"]}
{"id": "C82", "title": "prior_box returns one box per place, size and aspect ratio", "statement": "At every place of the feature map prior_box returns, in the documented order, a square of every minimal size, a square of the geometric mean of minimal and maximal size, and a box per further aspect ratio and its inverse, around the centre of the place and relative to the image; clipped boxes lie in the image; as many variances follow. Rounding moves a corner by a few units in the last place. The announced number of boxes is the number written.", "quantifier": "every map and image size, all lists of sizes, ratios and variances, with and without flip and clip, every placement of the steps, single precision rounding", "why_tests_cant": "The number of boxes written must agree with the number allocated for all lists of ratios under rounding; a test uses one list.", "anchors": ["src/kernels/cpu/prior_box.cpp"]}
{"id": "C83", "title": "A failed check is refused with an exception that says where and why", "statement": "A check whose condition holds has no effect. A check whose condition fails throws an exception carrying the place, the condition and the message, and writes the same to the log in one line; nothing after the check is executed. This does not depend on the log level.", "quantifier": "every log level, condition, place, message and log contents", "why_tests_cant": "All other refusals rest on this macro; a test at the default log level cannot show what another level does.", "anchors": ["include/utils/log.h", "include/utils/assert.h", "src/utils/log.cpp"]}
{"id": "C84", "title": "detection_output returns, per image and class, the greedily suppressed detections, limited to the best of the image", "statement": "For location predictions, confidences and priors that fit each other, every class but the background is treated by itself: the priors with a confidence above the threshold, in descending order and at most nms_top_k of them, are taken in turn, and one is kept unless its decoded box overlaps an already kept one by more than the threshold, which falls by the factor nms_eta after every kept box while above one half. Of all kept ones of an image the keep_top_k best remain. The output has one row (image, class, confidence, box) for each, images and classes in order, or one row per image with -1 if there are none. Boxes are decoded from prior, variance and prediction by the three codings. The announced shape is that of the result.", "quantifier": "every number of images, priors and classes, all operands, codings, thresholds, limits, with and without shared locations, every rounding of float operations, every order std::sort may give to equal scores", "why_tests_cant": "Suppression depends on all pairs of boxes and on ties of scores; the limits, the adaptive threshold and the shared locations interact.", "anchors": ["src/kernels/cpu/detection_output.cpp", "src/kernels/cpu/caffe/bbox_util.cpp:ApplyNMSFast", "src/kernels/cpu/caffe/bbox_util.cpp:DecodeBBox", "src/kernels/cpu/caffe/bbox_util.cpp:JaccardOverlap"]}
{"id": "C85", "title": "roi_align averages linearly interpolated samples of the region's image, region by region", "statement": "For features [N, C, H, W] and regions [R, 5] (image, left, top, right, bottom) roi_align gives [R, C, pool_h, pool_w]: the region is scaled, made at least one pixel long, divided into bins, and each element is the mean of sampling_ratio x sampling_ratio samples of its bin (or as many as the bin has pixels), linearly interpolated in the plane of the region's image and the channel, with the border extended by one pixel and zero beyond. Regions of a negative image give zeros. An element depends on its region and plane only. Other element types and pools that are not positive are refused, and the announced shape is that of the result.", "quantifier": "every number of images, channels and regions, all extents, features, regions, pools, scales and sampling ratios, every rounding that keeps whole numbers", "why_tests_cant": "The samples may fall on the border, beyond it, or exactly on a pixel for infinitely many regions; offsets combine four extents.", "anchors": ["src/kernels/cpu/dragon/roi_align_op_kernel.cpp", "src/kernels/cpu/dragon/roi_align_op.cpp", "src/kernels/cpu/roi_align.cpp", "src/backend/base/base_roi_align.cpp"]}
{"id": "C86", "title": "proposal keeps the best non-overlapping boxes of every image and distributes them by size", "statement": "proposal decodes one box per anchor and cell (centre moved, width and height scaled, clipped to the image), sorts by score, keeps of the pre_nms_top_n best each box that overlaps no kept one by more than the threshold, up to post_nms_top_n, best first, and returns (image, box) rows; with several outputs each row goes to the output of its level (one level per doubling of the side), in order, and an empty output has one dummy row. Each image has its own proposals; boxes below min_size are left out; each stride has its own scale; outputs have exactly the rows found; mismatched operands are refused; the announced outputs are those of the run.", "quantifier": "every number of images, anchors, strides and cells, all scores, shifts, sizes and parameters, every rounding (where not stated for exact arithmetic)", "why_tests_cant": "The hand-written quicksort, suppression and level assignment must be right for every score order, ties included, and all box geometries.", "anchors": ["src/kernels/cpu/proposal.cpp", "src/kernels/cpu/dragon/proposal_op.cpp", "src/kernels/cpu/dragon/bbox_utils.cpp", "src/kernels/cpu/dragon/bbox_utils.h", "src/backend/base/base_proposal.cpp"]}
{"id": "C87", "title": "modulated deformable convolution samples the moved places and sums them", "statement": "dcn_v2_forward gives, at every place of the result, the bias of the channel plus the sum over channels and kernel places of weight times mask times the image interpolated bilinearly at the place moved by the two offsets of that kernel place and group, zero outside the image; the extents are those of a convolution and are those announced; the operands are only read inside their memory, and operands that do not fit (bias, offsets, masks, groups) are refused; NHWC gives the same in the other order.", "quantifier": "every number of images, channels, groups and kernel places, all extents, strides, paddings, dilations, image values, weights, offsets and masks, every rounding of the columns", "why_tests_cant": "Offsets are data: reads depend on every offset value, and the column layout must agree with the matrix product for all extents.", "anchors": ["src/kernels/cpu/dcn_v2_forward.cpp", "src/kernels/cpu/dcn/dcn_v2_cpu.cpp", "src/kernels/cpu/dcn/dcn_v2_im2col_cpu.cpp", "src/kernels/cpu/dcn/utils.h", "src/backend/torch/base_dcn_v2_forward.cpp"]}
{"id": "C88", "title": "cutting a graph gives sub graphs that can stand for their nodes", "statement": "Splitter::split finds disjoint groups of nodes accepted by the rule, each with at least one supported node, each convex (no outside node needs a node of the group and is needed by another), with lists of inputs and outputs that are exactly the ways into and out of the group; every needed supported node is in a group; only_max_graph keeps the largest one and min_graph_size drops the smaller ones; and the fused graph, each group replaced by one node, computes the same outputs as the original.", "quantifier": "every acyclic graph, choice of outputs and inputs, rule, setting, operators and values", "why_tests_cant": "Convexity depends on the order of two searches over all paths of every graph; a test sees a handful of graphs.", "anchors": ["src/compiler/fence/splitter.cpp", "include/compiler/fence/splitter.h", "include/module/graph.h", "test/subgraph.cpp"]}
{"id": "C89", "title": "an operator with its geometry as operands uses the operands of this call", "statement": "Every run or infer of conv2d_v2, depthwise_conv2d_v2 and pooling2d_v2 behaves as conv2d, depthwise_conv2d or pooling2d with the padding (window, stride) operands of this call as parameters: the same geometry when they make sense for the layout, an exception that leaves the stack alone when they do not, whatever calls were made before on the same object and however they ended.", "quantifier": "every history of run and infer calls, attributes, operands, stack below the frame, and computation of the inner operator", "why_tests_cant": "The object remembers operands across calls and exceptions; a wrong reuse only shows after particular histories.", "anchors": ["src/kernels/cpu/conv2d_v2.cpp", "src/kernels/cpu/depthwise_conv2d_v2.cpp", "src/kernels/cpu/pooling2d_v2.cpp", "src/backend/base/base_conv2d.cpp", "src/backend/base/base_pooling2d.cpp", "src/runtime/operator.cpp"]}
{"id": "C90", "title": "device handles are made, used and given back in order", "statement": "In every history of calls in any number of threads that create, initialise, move, switch to, bind, finalise and destroy device contexts: a handle is made once, is used and given back only by the device that made it and only while it has not been given back, and is given back exactly once by the time no context is left. After nested workbench runs a thread's current context is the one from before, also when a run ends with an exception, whatever other threads do. No call uses a context that has been destroyed.", "quantifier": "every history of calls, any number of threads, contexts and devices, every registration of devices", "why_tests_cant": "A leak, a double release or a dangling current context shows only after particular histories and only on devices with handles.", "anchors": ["src/core/device_context.cpp", "include/core/device_context.h", "src/global/device_admin.cpp", "include/utils/ctxmgr_lite_support.h", "src/runtime/workbench.cpp", "src/api/plugin.cpp"]}
{"id": "C91", "title": "stacked transformations of the plane apply in order and can be undone", "statement": "With the C++ helpers of graphics2d.h, in exact arithmetic: stacking any list of transformations on the identity gives one that maps every point as applying them one after the other; rotate turns by the angle, keeps distances and adds up; translate, scale, shear and reflect move points as their names say; inverse undoes the transformation, so that sampling an image with the inverse matrix shows at M p what was at p.", "quantifier": "every list of matrices, every point, angle, factor and pixel, over any ordered field (rotations over the reals)", "why_tests_cant": "The claims are identities over all real parameters and all compositions.", "anchors": ["include/api/cpp/graphics2d.h", "src/kernels/cpu/affine_sample2d.cpp"]}
{"id": "C92", "title": "a loop yields exactly the steps of its description", "statement": "A Loop bound to a Scan returns, call by call, the steps of the description written out (each part repeated as often as it says, groups one after the other), then finish for ever, and always comes to an answer, also with counts of 0 and empty groups; step() shows what the next call returns; a copied description is the same; update() returns the number of steps and keeps their sequence.", "quantifier": "every tree of iterations, of any depth and counts, and every number of calls", "why_tests_cant": "Depth, counts and number of calls are unbounded; termination is part of the claim.", "anchors": ["include/core/scan.h"]}
{"id": "C93", "title": "functions called at once return the operator's result and leave no trace; their graph twins compute the same", "statement": "intime::run (and the functions built on it: add, transpose, softmax, affine_sample2d, …) returns what the operator yields for the inputs (one tensor, or the packed results), and Workbench::offline_run the list of them; in both cases, whether the call returns or throws, the stack of the workbench is exactly as before and is undefined only if the operator is. Every description sets only parameters its operator declares, and all that it requires, to the given values. A node made by the symbol or frontend function of the same name computes the same as the call at once.", "quantifier": "every operator that keeps to its frame, every stack, input list and parameter value, returning or throwing", "why_tests_cant": "Operators, stacks and failures are arbitrary; tests only run the built-in operators on an empty stack.", "anchors": ["src/frontend/intime.cpp", "src/frontend/symbol.cpp", "src/frontend/desc.cpp", "src/frontend/frontend.cpp", "src/runtime/workbench.cpp:Workbench::offline_run"]}
{"id": "C94", "title": "operators run only on instructions the processor has", "statement": "Making a Workbench with a library built for instructions that the processor lacks loads the library for the best set it has (AVX+FMA, AVX, SSE+SSE2) and from then on every operator that can be created is one the processor can run; every lookup answers as that library. It happens once: later workbenches change nothing. When the process ends the registry is what it was before. A workbench that was made can be run.", "quantifier": "every processor, every set of installed libraries, every history of plugin registrations and workbenches, made or failed", "why_tests_cant": "Tests run on one machine with one set of libraries.", "anchors": ["src/runtime/switcher.cpp", "src/runtime/importor.cpp", "src/api/plugin.cpp", "src/utils/cpu_info.cpp", "src/runtime/workbench.cpp:Workbench::Workbench", "src/global/operator_factory.cpp:OperatorCreator::flush"]}
{"id": "C95", "title": "profiling records every run exactly once under the operator's own label", "statement": "With profiling on, every run of an operator adds exactly one time to the board, under a label made of a number (operators in the order of first use), the operator and the node's name; different operators have different labels and nothing else is recorded; the average is the sum over the number of runs. A timer object reports exactly once however it is moved. Clearing a label empties it.", "quantifier": "every sequence of runs with any operator and node names, every program of making, moving and destroying timers", "why_tests_cant": "Names, orders and moves are unlimited; tests look at one printed report.", "anchors": ["src/board/profiler.cpp", "include/board/profiler.h", "include/board/board.h", "src/runtime/instruction.cpp:profiler_run"]}
{"id": "C96", "title": "streams give back what was written, and every loader sees the file from its beginning", "statement": "A string stream answers every sequence of calls like a queue of bytes. A file reader gives consecutive pieces of its file, also after it was closed and opened on another file, and from the beginning again after rewind. Loading a file tries the registered loaders in the order of their names, each on the whole file, and returns what the first one that recognises the format returns. A write that is reported as complete was written, and saving that returns normally has saved everything.", "quantifier": "every sequence of calls and sizes, every file, every set of loaders (as programs that read), every history of registrations, every capacity of the disk", "why_tests_cant": "What happens after the end of a stream or disk depends on all earlier calls; tests read back what fits.", "anchors": ["src/module/io/sstream.cpp", "src/module/io/fstream.cpp", "src/module/module.cpp:Module::LoadV2", "src/module/module.cpp:Module::Save", "src/global/module_loader_factory.cpp", "src/module/loaders/open.cpp"]}
{"id": "C97", "title": "owned memory is freed exactly once and keeps its bytes", "statement": "After every history of creating, growing, shrinking, resizing, moving, swapping, disposing and destroying memory objects, every allocated block belongs to exactly one object, which reports its exact size; nothing is freed twice and nothing is left when all objects are gone. Growing keeps all bytes, shrinking keeps the first ones, a refused request changes nothing, and no call touches the bytes of an object it does not name.", "quantifier": "every history of calls, every size, every pattern of refusals by the system, every content of fresh memory", "why_tests_cant": "A leak or a double free depends on the whole history and on the system refusing memory at the wrong moment.", "anchors": ["src/core/hard_memory.cpp", "include/core/hard_memory.h", "src/kernels/cpu/memory_cpu.cpp:cpu_allocator"]}
{"id": "C98", "title": "random numbers are the sequence of their seed and lie in their bounds", "statement": "After seeding, the numbers drawn are the sequence of the Mersenne Twister for that seed, whatever was drawn before; every draw is in [0, 2^31-1], every u() in [0, 1], and next(min, max) in [min, max], all values being equally likely.", "quantifier": "every seed, every history of seedings and draws, every number of draws, all bounds, every rounding of doubles", "why_tests_cant": "The array is rewritten in place for ever; tests compare a few draws of one seed on one compiler.", "anchors": ["src/utils/random.cpp", "include/utils/random.h:MT19937", "include/utils/random.h:Random"]}
{"id": "C99", "title": "replacing a convolution by a Winograd convolution keeps the results", "statement": "Compiling with the Winograd option replaces exactly the 3x3 convolutions with stride and dilation 1 and at least 32 channels; whatever a replaced convolution computes, in any number of runs on images of any size, the replacement computes too; and packed weights never reach it.", "quantifier": "every convolution node with any parameters and operands, every sequence of images and padding operands, every content of fresh buffers", "why_tests_cant": "The replacement keeps the transformed kernel between runs and picks its algorithm by the first image; tests compare single runs of chosen layers.", "anchors": ["src/compiler/option/winograd_zipper_option.cpp:Conv2dZipperOption::zip", "src/kernels/common/function.cpp:winograd_check", "src/compiler/option/pack_translator_option.cpp", "src/backend/base/base_conv2d_winograd.cpp", "src/kernels/cpu/conv2d_winograd_v2.cpp"]}
{"id": "C100", "title": "compiling for half precision changes precision only", "statement": "A module compiled with --float16 has the same outputs up to rounding: same operators on the same operands with conversions in between, operators without a half precision version get single precision, operators with one get half precision, the outputs of the module stay single precision, and compiling changes neither the original module nor what its batch norms compute.", "quantifier": "every graph, every set of operators with half precision versions, every meaning of the operators, any number of outputs and of translations", "why_tests_cant": "Which conversions are put in depends on neighbours, operand order and the order of outputs; tests look at a few networks on one device.", "anchors": ["src/compiler/option/fp16_translator_option.cpp:Fp16TranslatorOption::translate", "src/compiler/translater.cpp:translate_node", "src/global/fp16_operator_factory.cpp", "src/core/tensor_builder.cpp:cast"]}
{"id": "C101", "title": "an unknown name is answered with the closest known one", "statement": "When an input, output or parameter is asked for by a name that does not exist, the error message suggests one of the names that do exist, and no other of them is closer (in insertions and deletions) to the one asked for, whatever the order in which the names are stored.", "quantifier": "every set of names, every order of the hash map, every name asked for, any alphabet", "why_tests_cant": "Whether the table computes a distance at all is a statement about all pairs of texts; the tests try a few.", "anchors": ["src/utils/box.cpp:edit_distance", "src/runtime/program.cpp:fuzzy_name", "src/runtime/operator.cpp:Operator::fuzzy_param_name", "src/module/bubble.cpp:Bubble::fuzzy_param_name"]}
{"id": "C102", "title": "inferred shapes agree with executed shapes for resizing, cropping, slicing, reducing and selecting operators", "statement": "If shape inference gives a prototype for a node of a graph of these operators and of those of C45, every execution of the graph gives that node a tensor of the same rank whose extents are the known extents of the prototype.", "quantifier": "every graph, every value of the inputs fitting their prototypes, every kernel, every rounding of floats", "why_tests_cant": "Inference and execution are written twice, once per operator; agreement is a statement about all graphs and all shapes.", "anchors": ["src/runtime/inferer/factory.cpp", "src/backend/base/base_resize2d.cpp", "src/backend/base/base_slice.cpp", "src/backend/zoo/divided.cpp", "src/backend/zoo/limit.cpp", "src/backend/zoo/crop_nd.cpp", "src/backend/base/base_where.cpp"]}
{"id": "C103", "title": "slices given by operands select what the standard says", "statement": "slice_v3 with starts, ends and optional axes and steps as operands gives, for every axis named, the Python slice start:end:step and the other dimensions whole, at every coordinate, with starts, ends and steps of any size (INT64_MAX meaning to the end); axes outside the tensor are refused.", "quantifier": "every tensor, every list of starts, ends, axes and steps of any size", "why_tests_cant": "The operands are data of the running network; their values are unbounded and every combination selects other elements.", "anchors": ["src/backend/base/base_slice_v3.cpp", "src/kernels/cpu/slice_v3.cpp"]}
{"id": "C104", "title": "dump directories, split texts and memory sizes are right", "statement": "Splitting a text gives the parts between separators, and joining undoes it; making a dump directory creates exactly the missing directories on the way, keeps everything else, and success means that they exist; a memory size is shown up to a twentieth of the greatest unit it reaches.", "quantifier": "every text, set of separators, file system, path and size", "why_tests_cant": "Texts, paths, file systems and sizes are unbounded; the tests use a few.", "anchors": ["src/utils/box.cpp:Split", "src/utils/box.cpp:Join", "src/utils/box.cpp:memory_size_string", "src/board/dump.cpp:mkdir"]}
{"id": "C105", "title": "tracked and hooked runs show what the operators computed", "statement": "Tracking a run changes neither its results nor its failure; it yields one test case per operator node that the outputs need, each once and after those it needs, holding the values of the node's inputs and of the node; the files of the test cases are all found afterwards under the documented names; a hooked run reports for a node asked for by name the value of that node.", "quantifier": "every graph, arguments, stack, hook names, operator and parameter names and dump directory", "why_tests_cant": "Graphs, stacks and values are unbounded; the tests track one program.", "anchors": ["src/board/dump.cpp:track", "src/runtime/instruction.cpp:OperatorInstruction::run", "src/runtime/workbench.cpp:Workbench::run_hook", "include/board/hook.h:Hook"]}
{"id": "C106", "title": "power modes choose the processors they name, and the thread number follows", "statement": "Setting a power mode never throws; it succeeds exactly if the platform can pin threads, the mode has processors and every computing thread was accepted; then each computing thread is pinned to exactly the processors of the mode (all, those at or above half way between slowest and fastest, those below) and the mode is remembered, otherwise the mode stays; a workbench afterwards computes with as many threads as the mode has processors; a computing context always has a thread pool of its thread number, and a clone has the same number.", "quantifier": "every number of processors, frequencies, answers of the scheduler, history of calls, thread number and environment", "why_tests_cant": "Machines, histories and scheduler answers are unbounded and not those of the test machine.", "anchors": ["src/utils/cpu.cpp:CpuEnable::set_power_mode", "src/runtime/runtime.cpp:RuntimeContext", "src/runtime/workbench.cpp:Workbench::set_cpu_power_mode", "src/api/workbench.cpp:ts_Workbench_set_cpu_mode"]}
{"id": "C107", "title": "a device's memory is allocated and copied by what was registered for it", "statement": "The allocator of a device and the function that copies from one device to another are the ones registered last, and exactly the registered ones are listed; an allocator registered by a device's own functions to get, free and (optionally) resize memory frees for size 0, gives a block of the size asked for, keeps the first bytes of a resized block, frees the old block exactly once and touches no other block; if memory is refused it throws and a block to be resized is kept.", "quantifier": "every history of registrations, device functions, memory contents, sizes and device numbers", "why_tests_cant": "Backends bring their own functions; histories and memory contents are unbounded.", "anchors": ["src/global/hard_allocator.cpp:HardAllocator::Bind", "src/global/hard_allocator.cpp:HardAllocator::RegisterV2", "src/global/hard_converter.cpp:HardConverter::Register", "include/global/hard_allocator.h:HardAllocator"]}
{"id": "C108", "title": "a cloned workbench answers like its original and lives on its own", "statement": "Cloning a workbench gives a workbench with as many (empty) input and output slots and as many computing threads, with a program of its own, that answers every input like the original; afterwards nothing done to one of them (inputs, runs, parameters, filters, thread numbers, programs, further clones) changes the slots, the threads or the answers of the other.", "quantifier": "every history of calls on any number of programs and workbenches, every sound program, all inputs", "why_tests_cant": "The sharing of operators between workbenches depends on the history of calls; histories are unbounded.", "anchors": ["src/runtime/workbench.cpp:Workbench::clone", "src/runtime/workbench.cpp:Workbench::setup", "src/runtime/program.cpp:Program::clone", "src/api/workbench.cpp:ts_Workbench_clone"]}
{"id": "C109", "title": "printing a graph shows every node once, after its inputs", "statement": "Printing the graph that ends in given nodes returns for every graph without cycles and writes one line for every node from which the given nodes are computed and for no other, each node once and behind all its inputs.", "quantifier": "every finite graph without cycles, every list of nodes to end in, nodes given twice or sharing inputs included", "why_tests_cant": "The graphs are unbounded in size and in the sharing of their nodes.", "anchors": ["src/module/graph.cpp:plot_graph", "src/module/graph.cpp:plot_node", "include/module/graph.h:plot_graph"]}
{"id": "C110", "title": "inferred shapes agree with executed shapes for comparing, sampling, broadcasting and further convolution operators", "statement": "If shape inference gives a prototype for a node of a graph of equal, slice_v2, sample2d, sample2d_v2, broadcast, winograd_transform_kernel, depthwise_conv2d, conv2d_v2, pooling2d_v2, roi_align and strided_slice operators and of those of C45 and C102, every execution of the graph gives that node a tensor of the same rank whose extents are the known extents of the prototype; and for operands of which everything is known it gives one wherever the execution succeeds.", "quantifier": "every graph, every value of the inputs fitting their prototypes, every kernel, every rounding of floats that keeps 0 and the sign", "why_tests_cant": "Inference and execution are written twice, once per operator; agreement is a statement about all graphs and all shapes.", "anchors": ["src/runtime/inferer/factory.cpp", "src/backend/base/base_slice_v2.cpp", "src/kernels/cpu/sample2d_v2.cpp", "src/backend/base/base_broadcast_v2.cpp", "src/backend/base/base_strided_slice.cpp", "src/kernels/cpu/depthwise_conv2d.cpp"]}
{"id": "C111", "title": "a memory controller takes all memory of a device from one allocator until the device is cleared", "statement": "Two blocks of memory taken from memory controllers come from the same allocator exactly when they were taken from the same controller for the same device with no clearing of that device in between. A block taken is new and keeps its device and contents whatever other calls follow, until it is written. Synchronising a memory to a device copies the bytes of its own block once; doing so again returns the same block. The summary names each device that is served, once, and always the controller's own device, which cannot be cleared. A clone serves only its own device and shares nothing.", "quantifier": "every history of making, cloning and clearing controllers, allocating, synchronising and writing memory, over every number of controllers and devices and every registry of allocators and converters", "why_tests_cant": "Which allocator serves a request depends on the whole history of requests and clears.", "anchors": ["include/core/sync/sync_controller.h", "src/core/sync/sync_controller.cpp", "include/core/sync/sync_block.h", "src/memory/flow.cpp"]}
{"id": "C112", "title": "element-wise operators on floats use the right operands in vector lanes and outside; maximum does not depend on the position", "statement": "Every element of the result of adding, subtracting, multiplying or taking the maximum of two float tensors is computed, by a vector lane or by the operator on one element, from the two elements that broadcasting pairs; where the two compute alike the result is the broadcast result. The maximum of two elements is the left one if greater and the right one otherwise, wherever the elements stand, also for NaN.", "quantifier": "every pair of shapes with positive extents, every contents including NaN, every lane operation, every kind of vector instructions", "why_tests_cant": "Whether an element is computed in a lane depends on the merged shapes, the fast path and the position; tests use few elements and no NaN.", "anchors": ["src/kernels/cpu/maximum.cpp", "src/kernels/cpu/add.cpp", "src/kernels/cpu/sub.cpp", "src/kernels/cpu/mul.cpp", "include/kernels/common/simd.h", "include/kernels/common/simd_def/simd_base_def.h"]}
{"id": "C113", "title": "pow raises every element to the exponent it is given", "statement": "The operator pow gives, for an operand of floats or doubles of any shape, a tensor of the same type and shape whose element at each place is the operand's element at that place raised to the exponent parameter, in whatever numeric type or as text the exponent was given; operands of other types, another number of operands and missing or empty exponents are refused.", "quantifier": "every operand, every shape and contents, every exponent in every type", "why_tests_cant": "The exponent is converted before it is used; tests give exponents that every type represents.", "anchors": ["src/backend/base/base_pow.cpp", "src/kernels/cpu/pow.cpp", "src/core/tensor_builder.cpp"]}

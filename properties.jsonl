{"id": "C01", "title": "Parameter container behaves like a finite map", "statement": "After any sequence of SetValue, += (merge), Params(map) and clear calls on a parameter container, isPresent(key) is true exactly for the keys the last relevant call left defined, and GetValue(key) yields the value most recently stored for that key (or reports absence and the documented default); iterating with GetNextValue after ResetPosition visits every stored pair exactly once in key order.", "quantifier": "every finite sequence of container operations, every key, every value", "why_tests_cant": "Tests exercise fixed call sequences; the map semantics must hold for every history of calls.", "anchors": ["src/tools/ParamContainer.cpp: SetValue, GetValue, operator+=, operator=, clear, Params, isPresent, ResetPosition, GetNextValue"]}
{"id": "C02", "title": "Meta data written to disk is read back unchanged", "statement": "Writing a parameter container to its text form and parsing that text gives back the same keys, the same values and the same type tags, for every container whose keys and values are representable (non empty trimmed keys without '=', '[', ']', '#' prefix or newline; trimmed values without newline).", "quantifier": "every representable container, typed or untyped, of any size", "why_tests_cant": "The set of containers is infinite and the failing cases depend on a coincidence between key length and type name length that sample tests may never hit.", "anchors": ["src/tools/ParamContainer.cpp: operator<<, operator>>, Parse, Write", "src/tools/helpers.cpp: trim"]}
{"id": "C03", "title": "Merging containers: right hand side wins, nothing is lost", "statement": "After a += b every key of b has b's value, every key of a that is not in b keeps its value, and no other key exists; merging is idempotent and associative in its effect on values.", "quantifier": "all pairs/triples of containers and all keys", "why_tests_cant": "Needs to hold for every pair of key sets and overlaps.", "anchors": ["src/tools/ParamContainer.cpp: operator+="]}
{"id": "C04", "title": "Comma separated array parameters round trip", "statement": "Storing a non empty list of comma free strings as an array parameter and reading the parameter back as an array yields the same list; reading any string as an array yields one more element than the string has commas and no element contains a comma.", "quantifier": "every non empty list of comma free strings; every string", "why_tests_cant": "Infinite set of lists, including empty elements, leading and trailing separators.", "anchors": ["src/tools/ParamContainer.h: SetArray, GetArray", "src/tools/helpers.cpp: split"]}
{"id": "C05", "title": "Parsing parameter text terminates", "statement": "Reading parameter text from a stream terminates for every input text.", "quantifier": "every input byte sequence", "why_tests_cant": "A test can not observe non termination, and the diverging inputs (a line longer than the line buffer) are a measure zero corner of the input space.", "anchors": ["src/tools/ParamContainer.cpp: operator>>", "src/tools/ParamContainer.h: MAX_LINE_LENGTH"]}
{"id": "C06", "title": "Memory pool accounting is exact", "statement": "At every moment the pool's used byte counter equals the total size of all blocks currently obtained from the system and not yet returned to it, the peak counter is at least the used counter and never decreases, and no block is both in use and on the free list, for clients which free a pointer only while they own it.", "quantifier": "every sequence of Align/Free/Cleanup calls by a client that frees only what it owns", "why_tests_cant": "Invariant over unbounded call histories.", "anchors": ["src/tools/Memory.cpp: Align, Free, Cleanup", "src/tools/Memory.h"]}
{"id": "C07", "title": "The memory pool never hands out a block that is still owned", "statement": "A pointer returned by Align is different from every pointer handed out earlier and not freed since, and the block it points to is at least as large as requested; this holds for every client, including clients that free the same pointer twice or free pointers the pool does not know.", "quantifier": "every sequence of Align/Free/Cleanup calls", "why_tests_cant": "Aliasing needs specific histories (double free followed by two allocations of the same size class).", "anchors": ["src/tools/Memory.cpp: Align, Free"]}
{"id": "C08", "title": "The configured memory limit is enforced", "statement": "When a maximum memory size is configured, the memory obtained from the system never exceeds the limit: Align throws instead.", "quantifier": "every limit and every sequence of allocation requests", "why_tests_cant": "The violation depends on the rounding of the request to the block size near the limit, and afterwards on unsigned wrap around.", "anchors": ["src/tools/Memory.cpp: Align", "src/tools/Memory.h: MaxSize"]}
{"id": "C09", "title": "Memory cleanup returns every unused block and nothing else", "statement": "After Cleanup no unused block is retained by the pool, every block in use keeps its address and size, and the used counter drops by exactly the bytes of the blocks returned.", "quantifier": "every pool state reachable by a client that frees only what it owns", "why_tests_cant": "State space unbounded.", "anchors": ["src/tools/Memory.cpp: Cleanup, Free"]}
{"id": "C10", "title": "Memory size strings mean what they say", "statement": "Reading a size such as '<number>', '<number>K', '<number>M', '<number>G' (optionally followed by 'B') yields number times 1, 1024, 1024^2, 1024^3 for every number whose product fits the counter; every string of length 0 or consisting of a unit only is rejected rather than read out of bounds.", "quantifier": "every decimal number and unit suffix, every string", "why_tests_cant": "Infinite input space with boundary cases at string length zero and one and at counter overflow.", "anchors": ["src/tools/Memory.cpp: ReadFromString"]}
{"id": "C11", "title": "Shared object registry deletes an object exactly when its last registration is dropped", "statement": "For every sequence of register/delete requests the registry reports an object as alive exactly when it was registered more often than it was deleted since it last became unregistered, the destructor runs exactly once per life, and deleting an unregistered object is a no-op.", "quantifier": "every finite sequence of Register/Delete requests over any set of objects", "why_tests_cant": "Reference counting errors show up only in particular histories.", "anchors": ["src/tools/Collector.h: Register, Delete, IsAllocated, Elements"]}
{"id": "C12", "title": "Level wave function serialisation round trip", "statement": "Deserialising the bytes produced by serialising a level wave function yields the same vector, the reported size equals the number of bytes produced, and input whose declared byte count does not match its declared element count is rejected.", "quantifier": "every vector length and contents, every byte string", "why_tests_cant": "All vectors and all (malformed) inputs.", "anchors": ["src/qdlib/WFLevel.cpp: Serialize, DeSerialize"]}
{"id": "C13", "title": "Hermitian matrix serialisation round trip", "statement": "Deserialising the bytes produced by serialising a square matrix operator yields the same matrix.", "quantifier": "every matrix size and contents", "why_tests_cant": "All sizes and contents.", "anchors": ["src/qdlib/OHermitianMatrix.cpp: Serialize, DeSerialize"]}
{"id": "C14", "title": "Laser field serialisation round trip", "statement": "Deserialising the bytes produced by serialising a laser field with at least one sample and a positive time step yields the same samples and time step; zero samples or a non positive time step are rejected.", "quantifier": "every field length, time step and contents", "why_tests_cant": "All lengths and contents, including the empty field, for which the writer emits nothing.", "anchors": ["src/qdlib/Laser.cpp: Serialize, DeSerialize"]}
{"id": "C15", "title": "Framed object streams are self delimiting", "statement": "Writing any sequence of objects one after the other as framed stream records and reading records back until the end yields the same sequence of headers and payloads; a record with a wrong magic, unsupported version or truncated body is rejected and never yields an object.", "quantifier": "every sequence of headers and payloads, every truncation point", "why_tests_cant": "Every split point of every stream.", "anchors": ["src/tools/FileSingle.h: WriteMeta, WriteMetaToStream, PrepareStreamPayload, CheckIntroFromStream, ReadMetaFromStream, ReadDataFromStream", "src/tools/FileSingleHeader.proto"]}
{"id": "C16", "title": "Multistate wave functions survive a write/read cycle", "statement": "A multistate wave function written to a stream and read back has the same number of states with the same contents in the same order, also when it is followed by further objects in the stream or nested in another multistate wave function.", "quantifier": "every number of states (including one and zero), all contents, all following streams", "why_tests_cant": "Depends on the more_files_follow chain over arbitrary lengths and nestings.", "anchors": ["src/qdlib/FileWF.cpp"]}
{"id": "C17", "title": "Numbered output files never overwrite each other", "statement": "With counting enabled and a non zero increment, successive writes of one file object use pairwise different file names, numbered from the start counter in steps of the increment, and a reader using the same start counter and increment gets back the written objects in the same order (in reverse order when counting backwards from the last).", "quantifier": "every base name, suffix, start counter, non zero increment and number of writes", "why_tests_cant": "Unbounded number of files; collisions could come from digit concatenation.", "anchors": ["src/tools/FileSingle.h: BuildDataFileName, Counter, ActivateSequence, ReverseSequence, WriteFile, ReadFile"]}
{"id": "C18", "title": "Protocol buffer varints round trip", "statement": "Encoding any unsigned 64 bit value as a varint and decoding it at the same offset returns the value and the number of bytes written, independently of the bytes that follow; the predicted encoded size equals the real one.", "quantifier": "all 2^64 values and all following bytes", "why_tests_cant": "2^64 values times arbitrary suffix.", "anchors": ["src/matlab/pblib_write_varint.m", "src/matlab/pblib_read_varint64.m", "src/matlab/pblib_encoded_varint_size.m"]}
{"id": "C19", "title": "Multi dimensional grid addressing is a bijection", "statement": "For every dimension of a grid the map from (line number, position on the line) to the linear index hits every grid point exactly once; the total size is the product of the dimension sizes; and walking a dimension changes only that coordinate.", "quantifier": "every number of dimensions and all dimension sizes, every active dimension", "why_tests_cant": "Unbounded dimensions and sizes.", "anchors": ["src/qdlib/GridSystem.h: Index, IndexBase, LowOthers, NumOthers, Size"]}
{"id": "C20", "title": "One dimensional operations on a grid view act on every line and only there", "statement": "Multiplying/adding a one dimensional vector along an active dimension of a grid multiplies/adds element j of the vector to exactly the grid points whose coordinate in that dimension is j, each exactly once.", "quantifier": "every grid shape, active dimension, vector, and grid contents", "why_tests_cant": "Unbounded shapes.", "anchors": ["src/math/VectorView.h: operator+=, operator*=, ActiveDim"]}
{"id": "C21", "title": "Strided vector storage addresses every element once", "statement": "For a vector of n elements split into k equal strides the element access v[i] addresses stride i/(n/k) position i%(n/k), stays in bounds and is injective for all i<n when k divides n; for other n the access must not leave the allocated storage.", "quantifier": "all sizes and stride counts", "why_tests_cant": "Depends on divisibility of arbitrary sizes.", "anchors": ["src/math/Vector.h: operator[], newsize, StrideCopy"]}
{"id": "C22", "title": "Momentum grid matches the Fourier frequencies", "statement": "The momentum grid built for N points assigns to index j the frequency j for j < N/2 rounded up and j-N otherwise, in units of 2pi/L, and the second derivative grid holds minus the square of the frequency; index j and N-j carry opposite frequencies (except the Nyquist frequency).", "quantifier": "every number of grid points, even and odd, every grid length", "why_tests_cant": "All N.", "anchors": ["src/qdlib/Kspace.cpp: Init1Dddx, Init1Dd2dx2"]}
{"id": "C23", "title": "Matrix vector products implement the mathematical product", "statement": "The matrix vector product of the linear algebra layer yields the rows-times-vector product, and with the transpose flag the product with the (conjugate) transpose, for every matrix shape.", "quantifier": "every matrix shape and contents", "why_tests_cant": "All shapes; the non square transpose case is easily missed.", "anchors": ["src/math/Matrix.h", "src/math/Matrix.h: MatVecMult"]}
{"id": "C24", "title": "Operator sums and products act as sums and compositions", "statement": "Applying a sum operator with n>=1 entries yields the sum of the entries' results; applying a product operator yields the composition in list order (first entry applied last); in place and out of place application agree; an empty list is rejected with an error.", "quantifier": "every list length and every linear (or non linear) member operators, every wave function", "why_tests_cant": "All lists of operators and all vectors.", "anchors": ["src/qdlib/OSum.cpp: Apply", "src/qdlib/OProduct.cpp: Apply", "src/qdlib/OList.cpp"]}
{"id": "C25", "title": "Operator list bookkeeping", "statement": "In an operator list, after any sequence of Add and Set calls (by index or name) and Conj calls, Size equals the number of successful additions, Get(name) and Get(index) return the operator last stored under that name or index, duplicate names, null operators and more than 128 entries are rejected without changing the list, and a copy of the list answers the same queries as the original.", "quantifier": "every sequence of list operations", "why_tests_cant": "Unbounded histories.", "anchors": ["src/qdlib/OList.cpp: Add, Get, Set, Copy, Exists, GetIndex, Conj"]}
{"id": "C26", "title": "The sum of grid operators equals the pointwise sum of its parts", "statement": "Applying a grid sum operator multiplies each grid point with the sum of all member potentials at that point, for any number of members.", "quantifier": "every number of members, every grid size, every wave function", "why_tests_cant": "All list lengths; fails for every list with two or more members.", "anchors": ["src/qdlib/OGridSum.cpp: _Update, Add, Apply"]}
{"id": "C27", "title": "Multistate operator acts as a block matrix", "statement": "Applying a multistate operator yields in state i the sum over j of block (i,j) applied to state j, where missing off diagonal blocks act as zero and missing diagonal blocks as identity if unity is enabled, as zero otherwise; in hermitian mode a block given only in the upper triangle is used for both (i,j) and (j,i).", "quantifier": "every number of states up to the limit, every pattern of present blocks, every wave function", "why_tests_cant": "2^(n*n) patterns of present blocks times arbitrary operators.", "anchors": ["src/qdlib/OMultistate.cpp: Add, Init, Apply"]}
{"id": "C28", "title": "Multistate state indices are validated", "statement": "Adding a block or a state with an index outside 0..63 is rejected with an error and leaves the object unchanged.", "quantifier": "every integer index", "why_tests_cant": "All integers including negative ones.", "anchors": ["src/qdlib/OMultistate.cpp: Add", "src/qdlib/WFMultistate.cpp: Add"]}
{"id": "C29", "title": "Projection operator is a projector onto the span of its states", "statement": "For an orthonormal set of stored states the projection operator is linear and idempotent, its inverse variant is its complement, both results are orthogonal to each other and sum to the input; a copy of a projection operator acts like the original.", "quantifier": "every inner product space, every finite orthonormal family, every wave function", "why_tests_cant": "All dimensions and families.", "anchors": ["src/qdlib/OProjection.cpp: Apply, Copy, Init"]}
{"id": "C30", "title": "Direction and time mode of a propagator determine its exponent", "statement": "After any sequence of Forward, Backward, ImaginaryTime, RealTime, Conj and Clock calls the propagator exponent equals -i dt, +i dt, -dt-type or +dt-type as determined only by the current direction and mode, i.e. is independent of the order in which direction, mode and clock were set.", "quantifier": "every call sequence and every time step", "why_tests_cant": "Order dependent state machine; tests fix one order.", "anchors": ["src/qdlib/OPropagator.h: Forward, Backward, ImaginaryTime, RealTime, Clock, Conj, Exponent"]}
{"id": "C31", "title": "Chebychev propagator evaluates its polynomial series", "statement": "The result of one Chebychev step equals the sum of the expansion coefficients times the Chebychev polynomials of the scaled Hamiltonian applied to the input (real time: with the (-i)^k phases), for every expansion order, whenever it does not stop early; when it stops early it equals a truncation of the same series.", "quantifier": "every order, every linear Hamiltonian, every coefficient set, every wave function", "why_tests_cant": "All orders and operators; recurrences with buffer swaps are prone to aliasing errors.", "anchors": ["src/qdlib/OCheby.cpp: Apply, Init"]}
{"id": "C32", "title": "Runge-Kutta step is the fourth order Taylor polynomial", "statement": "For a time independent linear Hamiltonian one Runge-Kutta step equals the degree four Taylor polynomial of the exponential applied to the state; out of place application leaves the source unchanged and stores the same result in the destination.", "quantifier": "every linear operator, time step and wave function", "why_tests_cant": "All operators.", "anchors": ["src/qdlib/ORK4.cpp: Apply"]}
{"id": "C33", "title": "Split operator step is a symmetric product and uses fresh exponentials", "statement": "One split operator step applies the exponentials of the parts in palindromic order (so a forward step followed by a backward step is the identity), and with time dependent parts or a changed exponent the exponentials used always belong to the current time step and exponent.", "quantifier": "every number of parts, every sequence of time steps and exponent changes", "why_tests_cant": "Cache freshness depends on histories of clock and exponent changes.", "anchors": ["src/qdlib/OGSPO.cpp: Apply, InitExp"]}
{"id": "C34", "title": "Quantum jump selection follows the cumulative probabilities", "statement": "For every random number in [0,1) the jump operator selects the unique channel whose cumulative probability interval contains the number, no channel when the number exceeds the total, never an index outside the list, and rejects total probabilities at or above the threshold.", "quantifier": "every list of non negative probabilities and every random number", "why_tests_cant": "Continuous range of random numbers and all lists.", "anchors": ["src/qdlib/OJump.cpp: Apply"]}
{"id": "C35", "title": "Finite difference derivative equals the central stencil with boundary rule", "statement": "For grids of at least the stencil width the single dimension finite difference derivative equals, at each grid point, the sum over the stencil coefficients times the neighbours, with neighbours outside the grid taken as zero (open) or wrapped around (periodic); it reads no point outside the grid.", "quantifier": "every order, grid size, position and wave function", "why_tests_cant": "All sizes and orders, edges handled by separate loops.", "anchors": ["src/qdlib/HOFD.h: _DiffSingleDim, Diff"]}
{"id": "C36", "title": "Propagation writes exactly the scheduled snapshots and restarts seamlessly", "statement": "A propagation over n steps with write cycle w writes the initial state and the state after every w-th step, numbered consecutively, and applies exactly n steps; continuing from the snapshot with number s yields the same files and final state as the uninterrupted run; a write cycle below one is rejected.", "quantifier": "every number of steps, write cycle, start index and step map", "why_tests_cant": "Off by one errors depend on combinations of start, cycle and step numbers.", "anchors": ["src/ProgPropa.cpp: Run, _InitParams"]}
{"id": "C37", "title": "The filter program reads exactly the snapshots a propagation wrote", "statement": "For every completed propagation, the filter program processes each written snapshot exactly once, in order, and assigns it the time at which it was written.", "quantifier": "every number of steps, write cycle, time step", "why_tests_cant": "All combinations of steps and cycles including non divisible ones.", "anchors": ["src/ProgFilter.cpp: Run", "src/ProgPropa.cpp: _WriteMeta"]}
{"id": "C38", "title": "The correlation program can read the meta data a propagation wrote", "statement": "The write cycle stored by a propagation run is found again by the correlation function program and its snapshot indices stay within the stored snapshots.", "quantifier": "every propagation parameter set", "why_tests_cant": "Cross program key agreement holds or fails for all runs; division by the value read must be guarded.", "anchors": ["src/ProgCfun.cpp: Run, RunC1", "src/ProgPropa.cpp: _WriteMeta"]}
{"id": "C39", "title": "Linear combinations of wave functions have the given coefficients", "statement": "A wave function defined as a linear combination evaluates to the sum of coefficient times component for every number of components; an explicit coefficient, including zero, scales the function by exactly that value.", "quantifier": "every number of components, all coefficients including zero", "why_tests_cant": "All coefficient lists; a repeated addition is masked by later normalisation in typical tests.", "anchors": ["src/ChainLoader.cpp: LoadWFLC_, LoadWaveFunctionChain"]}
{"id": "C40", "title": "Multistate mapping places states where requested", "statement": "Loading a multistate wave function with a state map puts input state i at position map[i] scaled by its coefficient, rejects maps longer than the input and leaves all other positions empty.", "quantifier": "every map and number of states", "why_tests_cant": "All maps.", "anchors": ["src/ChainLoader.cpp: LoadWFMultimap_"]}
{"id": "C41", "title": "Global operator registry", "statement": "After any sequence of additions, initialisations and clears, looking up a key yields the operator registered under it or an error, registering an existing key is rejected, operators are initialised exactly once before use, and clearing removes exactly the non persistent entries.", "quantifier": "every sequence of registry operations", "why_tests_cant": "Unbounded histories.", "anchors": ["src/GlobalOpList.cpp"]}
{"id": "C42", "title": "Global wave function registry never leaves a dangling entry", "statement": "After any sequence of Add/Set/Clear calls every key resolves to a live wave function, replaced wave functions are released exactly when no other key refers to them, and setting a key to the wave function it already holds keeps it alive.", "quantifier": "every sequence of registry operations", "why_tests_cant": "Use after free only in particular histories.", "anchors": ["src/GlobalWFList.cpp", "src/tools/Collector.h"]}
{"id": "C43", "title": "Every message in interactive mode is answered exactly once", "statement": "In interactive mode every message received (a command, or the data that belongs to it) is answered exactly once before the next one is read: by one well formed response, or by data announced in a response; also when the command is malformed or fails.", "quantifier": "every command sequence, every combination of present and missing arguments, every success or failure of the calls made", "why_tests_cant": "Protocol desynchronisation shows only for particular argument combinations and failures.", "anchors": ["src/CmdHandler.cpp: RunInteractive and cmd_*", "src/IACmds.proto"]}
{"id": "C44", "title": "Filter lists do what their section says", "statement": "A filter section is accepted exactly if every element is a documented mode with documented options; executing the list applies the configured actions from top to bottom to each wave function and writes, after a header, one line per call with the expectation values of the wave function as left by the filters above (accumulated if asked for, in the representation asked for, real by default); invalid state selections are rejected with an exception.", "quantifier": "every filter section, number of calls and wave function", "why_tests_cant": "All configurations, call sequences and state numbers.", "anchors": ["src/FiltersList.cpp: Init, Add, Apply", "doc/Handbook.tex: Defining Filter Lists"]}
{"id": "C45", "title": "Spectrum frequency axis", "statement": "The frequency axis written with a spectrum of N samples at distance dt assigns to line i the frequency i dw for i < N/2 and (i-N) dw otherwise, with dw=2pi/(N dt), is strictly increasing within each half, and every frequency occurs once.", "quantifier": "every N and dt", "why_tests_cant": "All N including odd.", "anchors": ["src/Reporter.cpp: WriteSpectrum"]}
{"id": "C46", "title": "Simple input language: escaped text is inert", "statement": "Any attribute text, after escaping, contains no raw '<' or '>' and every '&' starts one of the defined entities, and un-escaping it yields the original text.", "quantifier": "every string", "why_tests_cant": "All strings.", "anchors": ["src/simpleXml/grammar.yy: EscapeString"]}
{"id": "C47", "title": "Simple input language: for loops run the expected number of times", "statement": "A for loop from b to e with step s (s nonzero, pointing from b to e) executes its body once for each of b, b+s, ... not beyond e, in that order; a zero step or a step pointing away is rejected or executes nothing.", "quantifier": "all begin/end/step values", "why_tests_cant": "All values; wrong directions and zero steps are not obvious.", "anchors": ["src/simpleXml/SyntacticTreeModel.h"]}
{"id": "C48", "title": "Simple input language: nested blocks become well formed XML", "statement": "Every input with balanced braces is translated into element output in which open and close tags nest properly and in the order of the input; unbalanced input is reported as an error.", "quantifier": "all nestings of any depth and width, any number of top level blocks", "why_tests_cant": "Unbounded nesting and several top level blocks.", "anchors": ["src/simpleXml/SyntacticTreeModel.h", "src/simpleXml/grammar.yy"]}
{"id": "C49", "title": "Simple input language: variables", "statement": "A variable reference evaluates to the value most recently assigned to that variable before the reference in the input; assignments of concatenations and of other variables store the full evaluated text.", "quantifier": "all programs of assignments and references", "why_tests_cant": "All sequences of assignments and references.", "anchors": ["src/simpleXml/SyntacticTreeModel.h", "src/simpleXml/grammar.yy"]}
{"id": "C50", "title": "Wave function buffer returns what was stored", "statement": "For every sequence of Set, Get, Lock, Unlock, and eviction decisions, reading index i of the buffer yields the wave function most recently stored at i, whether it meanwhile lived in memory or on disk, and the number of in memory entries never exceeds the memory budget.", "quantifier": "every sequence of buffer operations and every memory budget", "why_tests_cant": "Eviction histories are unbounded.", "anchors": ["src/qdlib/WFBuffer.cpp: Set, Get, _MoveToDisk, _MoveToMem, ResizeBuffer"]}
{"id": "C51", "title": "Clock arithmetic", "statement": "Time equals the step number times the step length; after any sequence of ++ and -- the time has moved by their difference times the step length; Begin is time zero and End is the time of the last step that counting up from Begin reaches; Sync puts a clock to the time of another one exactly if some step number gives that time, and otherwise fails and leaves the clock as it was.", "quantifier": "every sequence of clock operations", "why_tests_cant": "Unbounded histories and all step lengths.", "anchors": ["src/tools/QDClock.cpp", "src/tools/QDClock.h"]}
{"id": "C52", "title": "Command line options: querying does not change the answers", "statement": "Asking for an option's value never changes whether the option is later reported as given; required options that are missing are reported.", "quantifier": "every command line and every order of queries", "why_tests_cant": "Order of queries matters.", "anchors": ["src/tools/Getopt.cpp: GetOption, CheckOptions"]}
{"id": "C53", "title": "Work distribution over processes covers every state exactly once", "statement": "For every number of processes and states, the rank strided distribution of states assigns every state to exactly one process, process loads differ by at most one, and combining the per process results equals the sequential result.", "quantifier": "all numbers of processes and states", "why_tests_cant": "All combinations.", "anchors": ["src/qdlib/OMultistate.cpp: Apply", "src/qdlib/WFMultistate.cpp"]}
{"id": "C54", "title": "Laser coupling: exponential and operator describe the same interaction", "statement": "For laser driven operators the exponential used by the split operator scheme is the exponential of the operator that Apply applies, for all field values.", "quantifier": "all field values, grid points and coupling strengths", "why_tests_cant": "Both code paths are separate; agreement must hold for all field values.", "anchors": ["src/qdlib/OGridDipole.cpp", "src/qdlib/OGridRaman.cpp", "src/qdlib/OMatDipole.cpp: Apply, InitExponential"]}
{"id": "C55", "title": "Pulse energy and vector potential scale consistently with the field scaling", "statement": "Scaling a laser field by s multiplies its pulse energy by s^2 and its vector potential by s; the vector potential at step t is the time step times the sum of the field values before t.", "quantifier": "all fields, scalings and steps", "why_tests_cant": "All real scalings.", "anchors": ["src/qdlib/Laser.cpp: PulseEnergy, GetVectorPot, Get"]}
{"id": "C56", "title": "Input format detection", "statement": "A file is detected as XML exactly if it contains an XML closing construct, as simple input if it contains braces but no such construct, otherwise unknown; the decision does not depend on what follows the first decisive construct.", "quantifier": "every input text", "why_tests_cant": "All texts, including constructs that straddle lines.", "anchors": ["src/simpleXml/Simple2Xml.cpp: CheckType"]}
{"id": "C57", "title": "Complex arithmetic follows the field laws", "statement": "The complex type's addition, multiplication, conjugation, division and multiplication with reals and with i agree with the complex numbers.", "quantifier": "all pairs of complex numbers (exact arithmetic)", "why_tests_cant": "All pairs.", "anchors": ["src/math/dcomplex.h"]}
{"id": "C58", "title": "Perfectly matched layer touches only the layer", "statement": "Applying the absorbing layer transform multiplies exactly the points within the layer thickness at the selected sides, symmetric on both sides, each line identically, and leaves the interior unchanged; the layer never exceeds the grid.", "quantifier": "every grid shape, dimension, thickness and side selection", "why_tests_cant": "All shapes and thicknesses, including overlapping layers.", "anchors": ["src/qdlib/PML.cpp: ApplyTransform, InitParams"]}
{"id": "C59", "title": "Type tags follow the values", "statement": "After any sequence of calls, the type reported for a parameter is the type given with the assignment that produced its present value, and 'undefined' if that assignment carried no type or there is no value.", "quantifier": "all histories of calls and all keys", "why_tests_cant": "Types are stored apart from values; a test shows the tags for the call sequences it tries, not for all interleavings of setting, merging, replacing and clearing.", "anchors": ["src/tools/ParamContainer.cpp: ParamContainer::GetType, ParamContainer::Params, ParamContainer::SetValue, operator+="]}
{"id": "C60", "title": "Meaning of a parameter line", "statement": "When a parameter text is read, a line 'key = value' with any blanks and tabs around key and value stores exactly value under key and changes nothing else; a line whose first non blank character is '#' and a line without an equals sign change nothing.", "quantifier": "all lines, keys, values and containers", "why_tests_cant": "The reader handles arbitrary user text; a test covers some spellings only.", "anchors": ["src/tools/ParamContainer.cpp: ParamContainer::Parse", "src/tools/helpers.cpp: trim"]}
{"id": "C61", "title": "Grid wave functions survive serialisation", "statement": "A grid wave function written to a stream and read back yields the same grid (number of dimensions, points and ranges) and bit for bit the same coefficients, and leaves the stream positioned at the byte after the object.", "quantifier": "all grids, all coefficient vectors (any 64 bit patterns), any data following in the stream", "why_tests_cant": "Tests cover a few grids; the claim is about all dimensions, sizes and bit patterns.", "anchors": ["src/qdlib/WFGridSystem.cpp WFGridSystem::Serialize, DeSerialize", "src/qdlib/GridSystem.proto", "src/qdlib/GridSystem.cpp GridSystem::Size"]}
{"id": "C62", "title": "Field tags round trip in the Matlab interface", "statement": "A field tag written by the Matlab protocol buffer library is read back as the same field number and wire type, and the announced tag size is the number of bytes written.", "quantifier": "all field numbers below 2^29, all wire types, any position in the buffer", "why_tests_cant": "Tests cover a handful of field numbers, tags change size at several powers of two.", "anchors": ["src/matlab/pblib_write_tag.m", "src/matlab/pblib_read_tag.m", "src/matlab/pblib_encoded_tag_size.m"]}
{"id": "C63", "title": "Protocol buffer messages round trip", "statement": "A message written in the wire format is parsed back to the same fields in the same order; file headers and grid headers are recovered exactly, and an empty string is not accepted as file header.", "quantifier": "all messages (any number of fields, any values and string lengths in range)", "why_tests_cant": "Infinitely many messages; lengths are varints whose size varies.", "anchors": ["src/matlab/pblib_generic_serialize_to_string.m", "src/matlab/pblib_generic_parse_from_string.m", "src/tools/FileSingleHeader.proto", "src/qdlib/GridSystem.proto"]}
{"id": "C64", "title": "Momentum grids of the Fourier difference operator", "statement": "The difference operator in momentum space multiplies each grid point with the wave number of its coordinate (first derivative), with minus its square (second derivative), with the sum of these over all dimensions (collective derivative) and, for the mixed derivative along two dimensions, with minus the product of the two wave numbers; each with the prefactor of the dimension.", "quantifier": "every number of dimensions, sizes, ranges and prefactors", "why_tests_cant": "Unbounded shapes; the mixed derivative is only visible on grids with two different dimensions.", "anchors": ["src/qdlib/Diff.cpp: _InitKspace", "src/math/VectorView.h: operator=, operator+=", "src/qdlib/Kspace.cpp"]}
{"id": "C65", "title": "Finite difference coefficients are accurate", "statement": "For every supported order and derivative the tabulated coefficients agree with the exact central difference formula to fifteen digits, and that formula differentiates every polynomial up to the degree of the order exactly, at every point and for every spacing.", "quantifier": "all orders 2..50, first and second derivative, all polynomials, points and spacings", "why_tests_cant": "A wrong digit in one of 700 numbers changes results only slightly; polynomials and spacings are unbounded.", "anchors": ["src/qdlib/cfd_table_1.h", "src/qdlib/cfd_table_2.h", "src/qdlib/HOFD.h: constructor"]}
{"id": "C66", "title": "Transposition and diagonal of a matrix", "statement": "Transposing a square matrix yields the transpose, for complex matrices the adjoint; transposing twice gives the matrix back; other matrices are left unchanged; the diagonal of a square matrix holds its diagonal elements.", "quantifier": "every size and contents", "why_tests_cant": "All sizes; the in place swap works on a triangle.", "anchors": ["src/math/Matrix.h: transpose, diag"]}
{"id": "C67", "title": "Lower triangular input fills a matrix row by row", "statement": "A linear list of the elements of a lower triangle is stored row by row: element (i,j), j<=i, is element i(i+1)/2+j of the list; with the symmetric flag also (j,i); all other elements stay as they were.", "quantifier": "every matrix size and list that fits", "why_tests_cant": "Index arithmetic over unbounded sizes.", "anchors": ["src/tools/helpers.h: ReorderLowerTriangular"]}
{"id": "C68", "title": "Finite difference derivative of all dimensions is the sum over the dimensions", "statement": "The derivative taken along all dimensions at once equals the sum of the derivatives along the single dimensions, with the same treatment of the boundaries.", "quantifier": "every grid shape, order, boundary condition and wave function", "why_tests_cant": "Unbounded shapes; one dimensional periodic grids behave correctly.", "anchors": ["src/qdlib/HOFD.h: Diff(res, in, acc)"]}
{"id": "C69", "title": "Flags of operator lists follow their members", "statement": "In an operator list every member carries the conjugation flag last set on the list, no matter if it was added before or after; the list is time dependent exactly if some member is, and hermitian exactly if all members are; copies report the same flags.", "quantifier": "every sequence of list operations", "why_tests_cant": "Unbounded histories of additions, replacements and flag changes.", "anchors": ["src/qdlib/OList.cpp: Add, Set, Conj, Copy"]}
{"id": "C70", "title": "Matrix elements use the action of the operator and leave bra and ket unchanged", "statement": "The matrix element of an operator is the scalar product of the bra with the result of the operator on the ket, for bra and ket different or the same object, and neither bra nor ket is changed.", "quantifier": "every operator acting as a function, all wave functions", "why_tests_cant": "All operators and wave functions.", "anchors": ["src/qdlib/Operator.h: MatrixElement"]}
{"id": "C71", "title": "Initialising a multistate wave function fills the missing states with zeros", "statement": "After initialisation, a multistate wave function holds every state that was given unchanged, zeros in every other state, and the larger of the number of states given and requested; without any given state it is rejected.", "quantifier": "every pattern of given states, every requested number of states", "why_tests_cant": "2^64 patterns of given states.", "anchors": ["src/qdlib/WFMultistate.cpp: Init, Add"]}
{"id": "C72", "title": "A multistate operator in hermitian mode is hermitian", "statement": "If a multistate operator is in hermitian mode (the default) and its diagonal blocks are hermitian, it is hermitian with respect to the total scalar product, whatever coupling blocks are given.", "quantifier": "every number of states, every pattern of blocks, every pair of wave functions", "why_tests_cant": "All block patterns and all vectors.", "anchors": ["src/qdlib/OMultistate.cpp: Init, Apply"]}
{"id": "C73", "title": "Chebychev propagator maps the spectrum into the interval of the expansion", "statement": "For every Hamiltonian whose energies lie between its reported bounds, the offset and scaling chosen map every energy into [-1, 1] (where the expansion is valid), and the scaling can be divided by.", "quantifier": "every pair of bounds and every energy between them, real and imaginary time", "why_tests_cant": "The range of bounds is continuous; a few example Hamiltonians all have bounds of the harmless kind.", "anchors": ["src/qdlib/OCheby.cpp: Init"]}
{"id": "C74", "title": "Composite operators accept a wave function exactly when their parts do", "statement": "The validity check of a list, sum, product, multistate operator or split operator propagator answers yes exactly when every part accepts the wave function (or the state) it will be applied to.", "quantifier": "every composite operator, every combination of answers of the parts, every wave function", "why_tests_cant": "All combinations of parts and states.", "anchors": ["src/qdlib/OList.cpp: Valid", "src/qdlib/OMultistate.cpp: Valid", "src/qdlib/OGSPO.cpp: Valid", "src/qdlib/OSPO.cpp: Valid"]}
{"id": "C75", "title": "Locked and recently read wave functions stay in memory", "statement": "A position of the wave function buffer that was locked by Lock stays in memory until UnLock is called for it, and the last N positions read (N set by AutoLock, two by default) stay in memory, so pointers returned by Get for them stay valid.", "quantifier": "every sequence of buffer operations and every memory budget", "why_tests_cant": "Whether a pointer returned earlier is still valid depends on the whole history of reads, locks and evictions.", "anchors": ["src/qdlib/WFBuffer.cpp: Lock, UnLock, AutoLock, Get, _MoveToDisk"]}
{"id": "C76", "title": "All ways of applying a laser driven operator agree", "statement": "For an operator coupled to a laser field, applying it out of place, in place and with addition to an existing wave function give the same interaction: minus the dipole moment times the current field value (minus one half of the polarisability times both fields for Raman operators) times the wave function.", "quantifier": "all wave functions, dipole moments, matrices and field values", "why_tests_cant": "Three separate code paths per operator; agreement needed for all field values, and sums of operators use only one of them.", "anchors": ["src/qdlib/OGridDipole.cpp: Apply, ApplyAdd", "src/qdlib/OGridRaman.cpp: Apply", "src/qdlib/OMatDipole.cpp: Apply", "src/qdlib/OGridPotential.cpp: ApplyAdd", "src/qdlib/Operator.h: ApplyAdd"]}
{"id": "C77", "title": "The parameter scale multiplies the interaction once", "statement": "Giving a laser driven operator the parameter scale = s multiplies the interaction it applies by s, relative to the same operator without this parameter.", "quantifier": "all factors s, fields, dipole moments and time steps", "why_tests_cant": "The parameter is read in several places; the effect for all s is the product of all of them.", "anchors": ["src/qdlib/OLaser.cpp: Clock", "src/qdlib/OGridPotential.cpp: Init", "src/qdlib/OGridDipole.cpp", "src/qdlib/OGridRaman.cpp", "src/qdlib/OMatDipole.cpp"]}
{"id": "C78", "title": "A copy of a laser driven operator applies the same field", "statement": "Copying a laser driven operator gives an operator that applies the same interaction at the current time.", "quantifier": "all operators, scaling factors and wave functions", "why_tests_cant": "A field forgotten in a copy shows only for states in which it differs from its default.", "anchors": ["src/qdlib/Laser.cpp: operator=", "src/qdlib/OLaser.cpp: Copy, operator=", "src/qdlib/OGridDipole.cpp: Copy, operator="]}
{"id": "C79", "title": "An accepted clock always finds a field value", "statement": "If a laser accepts a clock, the field has a value at every step of this clock; a clock with another time step or with more steps than the field has values is rejected and has no effect; a value set at a step is the one read back there and other steps are unaffected.", "quantifier": "all fields, clocks and steps", "why_tests_cant": "All steps of all clocks; memory safety.", "anchors": ["src/qdlib/Laser.cpp: Clock, Get, Set"]}
{"id": "C80", "title": "Energy bounds of laser driven operators enclose the interaction", "statement": "The bounds Emin and Emax of a dipole operator enclose its eigenvalues at every time of the pulse (the Chebychev and Lanczos propagators rely on this).", "quantifier": "all dipole moments and fields", "why_tests_cant": "All fields and dipole moments.", "anchors": ["src/qdlib/OGridDipole.cpp: Emax, Emin"]}
{"id": "C81", "title": "Labels group registered operators", "statement": "Giving a registered operator a label changes the label of that key only and unknown keys are rejected; asking for a label yields the operators carrying it, at most as many as the caller's array holds; the label check answers whether an operator carries the label.", "quantifier": "every registry content, label and array size", "why_tests_cant": "All registry contents; array sizes including zero.", "anchors": ["src/GlobalOpList.cpp: SetLabel, GetLabels, CheckLabel"]}
{"id": "C82", "title": "A second initialisation with an incompatible wave function is reported", "statement": "If an operator that is already initialised is initialised again with a wave function it does not fit, the caller gets an error; if it fits nothing is initialised again.", "quantifier": "every operator, history and wave function", "why_tests_cant": "Depends on the answer of the operator for arbitrary histories.", "anchors": ["src/GlobalOpList.cpp: Init", "src/qdlib/Operator.h: Valid"]}
{"id": "C83", "title": "State maps work as documented", "statement": "Remapping a multistate wave function with map m and coefficients c gives, as documented in the handbook, the wave function whose state i is c[i] times input state m[i]; a single entry gives that state as a plain wave function.", "quantifier": "every map, coefficient list and input", "why_tests_cant": "Swaps and identity maps, the usual test cases, cannot tell the documented direction from its inverse.", "anchors": ["src/ChainLoader.cpp: LoadWFMultimap_", "doc/Handbook.tex: Remapping of electronic states"]}
{"id": "C84", "title": "Named wave functions keep their value", "statement": "A wave function given a key in the input is registered under that key, in the order of the input, and its registered value is that of its section, whatever the surrounding sections do with it.", "quantifier": "every tree of wave function sections and every placement of keys", "why_tests_cant": "Sharing of storage between sections shows only for particular nestings and coefficients.", "anchors": ["src/ChainLoader.cpp: LoadWaveFunctionChain, LoadWFLC_, LoadWFMultistate_, LoadWFMultimap_"]}
{"id": "C85", "title": "Reported autocorrelation and its spectrum", "statement": "During a propagation with a spectrum requested, every reported wave function contributes exactly one sample, in order, to the spectrum; the reported value is the overlap the column is labelled with; the spectrum is computed from exactly the reported samples, weighted with the Hann window when the window is on.", "quantifier": "every sequence of wave functions, every number of steps, all switches", "why_tests_cant": "The buffer is sized from the clock and filled by a separate counter; only particular combinations of the two leave it or leave entries unset.", "anchors": ["src/Reporter.cpp: Analyze, Finalize", "src/Reporter.h: Proj0Square, Window", "src/math/math_functions.h: Hann"]}
{"id": "C86", "title": "The spectrum of an eigenstate is a single line at its energy", "statement": "Propagating an eigenstate whose energy lies on the frequency axis gives, without a window function, a spectrum with the whole weight in the line carrying that energy, with the right sign, and zero in all other lines.", "quantifier": "every even number of steps, every time step, every such energy", "why_tests_cant": "Sign conventions of overlap, transform and axis have to fit together for all parameters.", "anchors": ["src/Reporter.cpp: Analyze, WriteSpectrum"]}
{"id": "C87", "title": "An unwritable spectrum file is reported and does not lose the run", "statement": "If the spectrum file cannot be opened a message is printed and the program continues.", "quantifier": "every run", "why_tests_cant": "Needs an unwritable path at the end of a long run.", "anchors": ["src/Reporter.cpp: WriteSpectrum"]}
{"id": "C88", "title": "The parameter file of a propagation describes only snapshots that exist", "statement": "At every moment of a propagation, also after it was interrupted or stopped with an error, the number of steps and the write cycle in the parameter file of the output directory describe only snapshots that have been written, so that a program reading the directory finds every file it expects.", "quantifier": "every number of steps, write cycle, propagator, point of interruption and failing step", "why_tests_cant": "The moment of interruption and the failing step are arbitrary; the guarantee concerns every prefix of a run.", "anchors": ["src/ProgPropa.cpp: Run, _WriteMeta, _Finalize", "src/ProgFilter.cpp: Run"]}
{"id": "C89", "title": "One-point correlation functions are the documented ones", "statement": "The correlation function program writes floor(steps/wcycle) values; value k is the documented scalar product <Psi0|O_b U+(t,0) O_p U(t,0) O_k|Psi0> at the time t of k*wcycle steps, an omitted bra section meaning <Psi0|O_k U+(t,0); every series index used exists and inputs without a meaningful value (no write cycle) are rejected.", "quantifier": "every propagator (also time dependent), operators, wave function, number of steps and write cycle", "why_tests_cant": "The relation between loop indices, propagation steps and operator lists must hold for all lengths and all operator sequences; a test with commuting or unit operators does not see an error.", "anchors": ["src/ProgCfun.cpp: Run, ReadKetBra, InitializeKetBra, RunC1", "doc/Handbook.tex: Correlation functions"]}
{"id": "C90", "title": "Two-point correlation functions are the documented ones", "statement": "For every pair of times t1 <= t that are multiples of the write cycle the program stores the documented two-point function, with the operators of the input acting in the given order at the given times; pairs further apart than the given limit and pairs with t1 > t are zero; element (t1,t) has a fixed place in the array and no access leaves it.", "quantifier": "every propagator (also time dependent), operators, wave function, number of steps, write cycle and limit", "why_tests_cant": "The nested loops keep several states in step; off by one errors and skipped operators show only for particular operator sequences and times.", "anchors": ["src/ProgCfun.cpp: RunC2, Run", "doc/Handbook.tex: Correlation functions"]}
{"id": "C91", "title": "The supplied client stays in step with the program", "statement": "When a function of the supplied client ends, with or without an error, the program waits for the next command and no message is left unread in either direction.", "quantifier": "every client function, every combination of arguments and every failure in the program", "why_tests_cant": "Deadlocks and left over messages depend on failures inside the program.", "anchors": ["src/matlab/qd_write_cmd.m", "src/matlab/qd_handle_response.m", "src/matlab/qd_cmd_*.m", "src/CmdHandler.cpp"]}
{"id": "C92", "title": "An input file runs in order", "statement": "Running an input loads the operator definitions first, then the wave function definitions, then runs the programs in the order of the file, each with the same working directory (command line before input before global parameters, always ending in a slash), and stops at the first failure or unknown element; an input without anything to run is rejected.", "quantifier": "for all inputs, global parameters and all ways the single programs and definitions succeed or fail", "why_tests_cant": "Tests run a few inputs; the order, the directory and the stop at a failure have to hold for all inputs.", "anchors": ["src/CmdHandler.cpp RunXML", "src/tools/XmlNode.cpp NextChild, NextNode, EndNode", "src/tools/GlobalParams.cpp"]}
{"id": "C93", "title": "Variables of the command line", "statement": "Arguments behind the input file define variables: each is split at its first equal sign, arguments without one are rejected, the last definition of a name holds and other variables are unchanged.", "quantifier": "for all lists of arguments and all variables defined before", "why_tests_cant": "There are infinitely many argument lists (several equal signs, empty values, repeated names).", "anchors": ["src/qdng.cpp main"]}
{"id": "C94", "title": "The XML input is read completely and exactly", "statement": "The text handed to the XML parser is the contents of the input file, for every file size and whatever the memory held before.", "quantifier": "for all file contents and all states of the memory", "why_tests_cant": "Depends on uninitialised memory behind the buffer, which tests cannot control.", "anchors": ["src/qdng.cpp CheckInput"]}
{"id": "C95", "title": "Output directories", "statement": "Creating an output directory succeeds exactly if nothing on the way is a file and what is missing may be created; afterwards the directory and all its parents exist and nothing else has changed; on failure there is an exception.", "quantifier": "for all file systems, current directories and paths", "why_tests_cant": "The path and the file system are unbounded (repeated slashes, any depth, partly existing parents).", "anchors": ["src/tools/fstools.cpp FS::CreateDir, FS::StripLast"]}
{"id": "C96", "title": "Peaks of a spectrum", "statement": "The peak finder delivers exactly the peaks of the data in increasing order: the place of the largest value of each region of the data above mean + tol*sigma; every reported place is inside of the data and above the threshold.", "quantifier": "all data, tolerances", "why_tests_cant": "The data are arbitrary; tests can only look at a few spectra", "anchors": ["src/tools/PeakFinder.cpp: _Mean, _Sigma, _FindData, Find", "src/ProgEigen.cpp: AutoCorrEF"]}
{"id": "C97", "title": "Local maxima, local minima and peaks in a window", "statement": "Maximas delivers exactly the local maxima and Minimas exactly the local minima of the data, in increasing order; with a window the peak finder delivers exactly those local maxima that are above mean + tol*sigma of the data in the window around them.", "quantifier": "all data, windows, tolerances", "why_tests_cant": "The data are arbitrary; tests can only look at a few spectra", "anchors": ["src/tools/PeakFinder.cpp: Maximas, Minimas, Find"]}
{"id": "C98", "title": "Eigenfunctions by relaxation are orthonormal", "statement": "A relaxation in imaginary time that ends without an exception delivers the requested number of functions; they are orthonormal (also after a restart), the new ones are written to the files, the energies are their expectation values, and a converged function is an eigenfunction of the propagation step up to a residual given by the convergence criterion.", "quantifier": "all propagators, Hamiltonians, initial functions, numbers of functions, restarts, convergence criteria", "why_tests_cant": "The result depends on arbitrary propagators and initial functions; a test sees one Hamiltonian", "anchors": ["src/ProgEigen.cpp: ImagTimeEF, _InitParams, Run", "src/qdlib/OProjection.cpp: Apply"]}
{"id": "C99", "title": "Eigenfunctions from the autocorrelation", "statement": "Every function extracted from a propagation is a normalized eigenfunction of the Hamiltonian, its energy is the eigenvalue, and the estimate from the spectrum is that eigenvalue; every energy that stands out of the spectrum is found; the same holds if the propagation is read from disk.", "quantifier": "all Hamiltonians with energies on the grid of the spectrum, initial functions, tolerances, window widths, numbers of steps", "why_tests_cant": "The claim is about all Hamiltonians and initial functions; a test sees one spectrum", "anchors": ["src/ProgEigen.cpp: AutoCorrEF", "src/tools/PeakFinder.cpp: Find"]}
{"id": "C100", "title": "Diagonalization in the basis of the functions found", "statement": "The functions written after the diagonalization are orthonormal, the Hamiltonian is diagonal between them with the energies reported, in ascending order; they are eigenfunctions if the Hamiltonian does not lead out of their space.", "quantifier": "all Hermitian Hamiltonians and sets of functions", "why_tests_cant": "The claim is about all Hamiltonians and bases", "anchors": ["src/ProgEigen.cpp: DiagBasis", "src/linalg/LapackDiag.cpp: FullDiagHermitian"]}
{"id": "C101", "title": "Grid wave function from parameters", "statement": "Initialising a grid wave function from parameters gives exactly the grid that dims, N<i>, xmin<i> and xmax<i> describe if it has one to four dimensions, each with points and of positive length; every other input is rejected with a parameter error.", "quantifier": "all parameter sets", "why_tests_cant": "The claim is about every combination of present, absent and unreadable parameters", "anchors": ["src/qdlib/GridSystem.cpp: GridSystemHeaderPm::InitFromParamContainer", "src/qdlib/WFGridCartesian.cpp: Init", "src/qdlib/WFGridSystem.cpp: Init", "src/tools/ParamContainer.cpp: GetValue"]}
{"id": "C102", "title": "Grid parameters survive writing and reading", "statement": "A grid that is written to the parameters of a wave function (its meta data) and read back by a new wave function is the same grid, and no other parameter changes.", "quantifier": "all grids and all parameter sets written to", "why_tests_cant": "The claim is about all numbers a grid can have, a test uses a few short ones", "anchors": ["src/qdlib/GridSystem.cpp: GridSystemHeaderPm::DumpParams, InitFromParamContainer", "src/tools/ParamContainer.cpp: SetValue(double), GetValue(double)"]}
{"id": "C103", "title": "Comparison of grids and grids from arrays", "statement": "Two grids compare equal exactly if they have the same number of dimensions and each has the same number of points and ends that agree up to 1e-10; the comparison is reflexive and symmetric, and != is its opposite. A grid initialised from arrays has exactly the given dimensions, and arrays of different lengths or with more than four entries are rejected. The grid points run from xmin to xmax.", "quantifier": "all grids, all arrays", "why_tests_cant": "The claim is about all pairs of grids", "anchors": ["src/qdlib/GridSystem.cpp: operator==, operator!=, SetFromArrays, Dim, Dx"]}
{"id": "C104", "title": "The Lanczos propagator is the time evolution of the wave function", "statement": "One step of the SIL propagator of length tau applied to a wave function agrees with the exponential series of the Hamiltonian to at least two terms, and to all terms of the requested order when the expansion is not ended early; it is exactly exp(tau H) psi when the Krylov space of the requested order is invariant. With a Hermitian Hamiltonian and imaginary tau it keeps norm and mean energy. It works for every wave function, including eigenfunctions and wave functions that are not normalised.", "quantifier": "for all Hamiltonians, orders >= 3, error limits, time steps, wave functions, buffer contents and all correct tridiagonal solvers", "why_tests_cant": "The recursion, the end of the expansion and the coefficients have to fit for all Hamiltonians, orders and wave functions; a test compares a few steps on one grid with a tolerance.", "anchors": ["src/qdlib/OSIL.cpp: OSIL::Init, OSIL::BuildLZB, OSIL::DiagLZB, OSIL::Apply", "src/linalg/LapackDiag.cpp: LAPACK::TriDiagHermitian"]}
{"id": "C105", "title": "The Arnoldi propagator is the time evolution of the wave function", "statement": "One step of the Arnoldi propagator agrees with the exponential series of the (not necessarily Hermitian) Hamiltonian to at least two terms; without the error estimate it has the requested order or ends in a space that is invariant up to the underrun limit, and on an invariant space it is exactly exp(tau H) psi. With a Hermitian Hamiltonian it keeps norm and mean energy. An eigenfunction gets its phase. All this holds whatever earlier calls have left in the buffers and for every norm of the wave function.", "quantifier": "for all linear Hamiltonians, orders >= 3, limits, time steps, wave functions, buffer contents, previous orders and all correct eigenvalue solvers", "why_tests_cant": "Orthogonalization, matrix and coefficients have to fit for all Hamiltonians, and stale buffers only matter in special sequences of calls that tests do not contain.", "anchors": ["src/qdlib/OArnoldi.cpp: OArnoldi::BuildLZB, OArnoldi::DiagLZB, OArnoldi::Propagate, OArnoldi::Apply", "src/linalg/LapackDiag.cpp: LAPACK::DiagHessenberg, LAPACK::InvertGeneral"]}
{"id": "C106", "title": "Plain text form of a parameter container round trips", "statement": "Writing a container in the default (untyped) text form and parsing that text, with any container, gives back the same keys and values and the same number of entries.", "quantifier": "every container whose keys and values are representable, however it was built; every reading container", "why_tests_cant": "Depends on trimming, comments and separators for all texts.", "anchors": ["src/tools/ParamContainer.cpp: operator<<, operator>>, Parse, Write"]}
{"id": "C107", "title": "Bytes of a level wave function and of a laser field are read back unchanged", "statement": "Deserialising the bytes of a serialised level wave function gives back its vector, those of a laser field with samples and a positive time step its samples and time step; exactly these bytes are consumed, and the level wave function has the size it reports plus two counters.", "quantifier": "every vector and field that fits the memory, every rest of the stream", "why_tests_cant": "Bit patterns and lengths are unbounded.", "anchors": ["src/qdlib/WFLevel.cpp: Serialize, DeSerialize", "src/qdlib/Laser.cpp: Serialize, DeSerialize"]}
{"id": "C108", "title": "A stream of wave functions is read back in order", "statement": "Objects, and single and multistate wave functions of up to 63 states, written one after the other to a stream are read back in order and unchanged with the stream at the end of the last; reading ends on every input.", "quantifier": "every sequence of storable wave functions, with and without compression for single objects, every rest of the stream, every damaged input", "why_tests_cant": "Framing depends on all lengths and contents.", "anchors": ["src/tools/FileSingle.h: WriteMetaToStream, PrepareStreamPayload, ReadMetaFromStream, ReadDataFromStream", "src/qdlib/FileWF.cpp"]}
{"id": "C109", "title": "A vector split into strides behaves like a plain vector", "statement": "When the number of strides divides the size, every element can be read and written inside the storage, writing one element changes no other, every place of the storage belongs to an element, and scaling or filling acts on every element once.", "quantifier": "every size, number of strides dividing it, element and value", "why_tests_cant": "Index arithmetic for all sizes.", "anchors": ["src/math/Vector.h: operator[], newsize, operator*=, operator="]}
{"id": "C110", "title": "A sum of operators acts as the sum of its entries", "statement": "A sum with at least one entry yields the sum of the results of its entries in all four variants of application, and an empty one is rejected with an error that leaves the wave functions as they were; an operator that only implements out of place application acts the same in the inherited variants.", "quantifier": "every list of operators (linear or not), every wave function", "why_tests_cant": "All operators and aliasing patterns.", "anchors": ["src/qdlib/OSum.cpp: Apply", "src/qdlib/Operator.h: Apply, ApplyAdd, ApplyParent"]}
{"id": "C111", "title": "The projection operator projects onto the span of its states", "statement": "With orthonormal states and the default sign, the operator gives the part of the wave function in the span of the states, out of place and in place; it is linear and idempotent; with inv it gives the complement; both parts are orthogonal and sum to the input.", "quantifier": "every orthonormal list of states in every inner product space, every wave function", "why_tests_cant": "Infinitely many states and wave functions.", "anchors": ["src/qdlib/OProjection.cpp: Apply"]}
{"id": "C112", "title": "An operator list answers as its history says", "statement": "After every sequence of additions, replacements and conjugations (replacing only by operators that exist, at indices that are not negative) the list reports the sizes, indices, names and operators the history implies; duplicate names, additions of null operators, more than 128 entries and replacements of missing entries are rejected without a change; and every member has the conjugation flag of the list.", "quantifier": "every such sequence of calls", "why_tests_cant": "Histories are unbounded.", "anchors": ["src/qdlib/OList.cpp: Add, Get, Set, Exists, GetIndex, Conj"]}
{"id": "C113", "title": "The operator registry finds what was registered", "statement": "After every sequence of calls a user key finds the operator registered under it and an error otherwise; registering an existing key or no operator is rejected without a change; clearing removes exactly the entries that are not persistent and gives back one reference for each.", "quantifier": "every sequence of calls, every key without the prefix of generated keys", "why_tests_cant": "Histories are unbounded.", "anchors": ["src/GlobalOpList.cpp: Add, Get, Clear"]}
{"id": "C114", "title": "A line of the spectrum file holds the Fourier sum at the frequency written in it", "statement": "In the spectrum of two and more samples each line holds the frequency and absolute value, real and imaginary part of the Fourier sum of the samples at this very frequency divided by half the number of samples; no frequency occurs twice, and within each half the frequencies grow.", "quantifier": "every number of samples (even and odd) of at least two, every time step, all samples", "why_tests_cant": "Axis and transform have to fit for all sizes.", "anchors": ["src/Reporter.cpp: WriteSpectrum"]}
{"id": "C115", "title": "Escaping attribute text of the simple input language is loss free", "statement": "For every text the escaped text contains no raw markup, decodes to the original text, and fits into the memory allocated for it.", "quantifier": "every text", "why_tests_cant": "All texts.", "anchors": ["src/simpleXml/grammar.yy: EscapeString"]}
{"id": "C116", "title": "Dipole operators: application and exponential describe the same interaction", "statement": "For dipole and matrix dipole operators all ways of application agree, they apply minus the dipole moment times the field, and the exponential used by the split operator scheme is the exponential of what is applied.", "quantifier": "every grid size, dipole moment, field value, factor and wave function", "why_tests_cant": "Continuous parameters.", "anchors": ["src/qdlib/OGridDipole.cpp: Apply, ApplyAdd, InitExponential", "src/qdlib/OMatDipole.cpp: Apply, InitExponential"]}
{"id": "C117", "title": "Complex arithmetic", "statement": "Sum, difference, product, conjugate, multiplication by i, division, exponential, absolute value and phase of the complex type are those of the complex numbers; division by zero gives no finite number.", "quantifier": "all numbers", "why_tests_cant": "Continuous parameters.", "anchors": ["src/math/dcomplex.h"]}
{"id": "C118", "title": "The absorbing layer touches only the layer", "statement": "For a selection of begin, end or both sides and a thickness up to the grid size, the transform multiplies the points in the selected layers by the factors of their distance from the edge, the same in all lines, mirrored at the other end, and leaves all other points unchanged.", "quantifier": "every dimension, grid, thickness and factors", "why_tests_cant": "All grid shapes.", "anchors": ["src/qdlib/PML.cpp: ApplyTransform"]}
{"id": "C119", "title": "Momentum grids of single and collective derivatives", "statement": "The momentum grid of a derivative along one dimension holds at each point the wave number of the coordinate (minus its square for the second derivative) times the prefactor; that of the collective derivative the sum over the dimensions.", "quantifier": "every number of dimensions, grid sizes, boundaries and prefactors", "why_tests_cant": "All grid shapes.", "anchors": ["src/qdlib/Diff.cpp: _InitKspace", "src/qdlib/Kspace.cpp"]}
{"id": "C120", "title": "A laser gives a field value at every step of an accepted clock", "statement": "If a laser accepts a clock the field has a value at every step of it, a clock with another time step or more steps than values is rejected, a value set at a step is read back there and other steps keep theirs; the vector potential at a step is the time step times the sum of the values before.", "quantifier": "every field, clock, step and value", "why_tests_cant": "All fields and clocks.", "anchors": ["src/qdlib/Laser.cpp: Clock, Get, Set, VectorPot"]}
{"id": "C121", "title": "A composite operator accepts a wave function exactly when all members do", "statement": "The validity check of a list, sum or product answers yes exactly when the wave function exists and every member accepts it.", "quantifier": "every list of operators, every wave function", "why_tests_cant": "All combinations.", "anchors": ["src/qdlib/OList.cpp: Valid"]}
{"id": "C122", "title": "Local maxima of a data set", "statement": "Maximas delivers exactly the strict local maxima of the data, in increasing order.", "quantifier": "every data set", "why_tests_cant": "All data.", "anchors": ["src/tools/PeakFinder.cpp: Maximas"]}
{"id": "C123", "title": "A completed Lanczos step keeps norm and energy and is exact on an invariant space", "statement": "When a step of the SIL propagator with a Hermitian Hamiltonian and a normalised wave function yields a wave function, it is normalised; when the error estimate does not end the expansion it has the same mean energy, agrees with the exponential series to the requested order, and is the exact evolution when the Krylov space is invariant.", "quantifier": "every Hermitian Hamiltonian on every inner product space, every order of three and more, time step and normalised wave function for which the step is defined", "why_tests_cant": "Operators and wave functions are infinite in number.", "anchors": ["src/qdlib/OSIL.cpp: Init, BuildLZB, DiagLZB, Apply"]}
{"id": "C124", "title": "Optimal control: the reported yield belongs to the written field", "statement": "In every line of the report of the optimal control program the yield is that of the initial wave functions propagated over all time steps with the laser fields of this line, which are those written to the laser files. Behind the first iteration all lasers share one field, and the laser file left at the end is the field of the last line, so propagating with this file reproduces the last yield reported.", "quantifier": "all numbers of steps, targets and lasers, all propagators, gobblers, targets, methods krotov, rabitz, rabitzfb, all guess fields, all iteration counts", "why_tests_cant": "A test runs one optimisation; the statement is about every iteration of every run and about swapped laser buffers, which agree by accident when the optimisation has converged.", "anchors": ["src/ProgOCT.cpp: Run, Iterate, IterateRabitzFB, Report", "src/ProgOCT.h"]}
{"id": "C125", "title": "Optimal control: Krotov's method never makes the yield worse", "statement": "With a unitary propagator whose answer to a change of the field is the dipole interaction up to second order (constant K), no gobbler and normalised wave functions, the yield of the Krotov method does not fall from one line of the report to the next as long as K*shape <= alpha*dt; it rises at least by a multiple of the squared change of the field. The same holds for the real part of the overlaps (phase sensitive) and for the expectation values of positive operators that do not enlarge.", "quantifier": "all systems, targets, numbers of steps, iterations, guess fields, shapes and alpha meeting the bound", "why_tests_cant": "Monotonic convergence is an inequality for every iteration of every run; a test sees one sequence of yields, and a wrong sign or index often still increases the yield for one example.", "anchors": ["src/ProgOCT.cpp: CalcCorr, CalcLaserField, Iterate, SyncTargetOverlap, SyncTargetOperator, Report"]}
{"id": "C126", "title": "Optimal control: the zero reference method never makes its objective worse", "statement": "For the method rabitz with wave functions as targets, from the first iteration on the yield minus n times the laser objective (n targets) does not fall if 2*K*shape <= alpha*dt; with one target this is the objective printed in the report.", "quantifier": "all systems, targets, numbers of steps, iterations, guess fields, shapes and alpha meeting the bound", "why_tests_cant": "The inequality concerns all iterations of all runs; the laser objective is accumulated step by step and its agreement with the field penalty cannot be seen from one run.", "anchors": ["src/ProgOCT.cpp: CalcLaserField, Iterate, Report"]}
{"id": "C127", "title": "Optimal control: moving targets steer the field", "statement": "With moving targets (a series of wave functions) the correction of the field at a time step is made with the wave function of the series at this time.", "quantifier": "all series, systems and guess fields", "why_tests_cant": "The run completes and prints yields; that the field never follows the series is only visible when the data flow through the buffers is examined for arbitrary series.", "anchors": ["src/ProgOCT.cpp: Run (reading of the series, propagation of the guess), SyncTargetOverlap, PropagateForward"]}
{"id": "C128", "title": "Optimal control: when the iteration stops", "statement": "There are at most as many lines in the report as iterations asked for, and the program stops earlier, and says that convergence is reached, exactly if the sum of the last two changes of the yield is not above the convergence criterion.", "quantifier": "all runs", "why_tests_cant": "The criterion depends on three successive yields; tests with one smooth run do not meet the start values of the memory.", "anchors": ["src/ProgOCT.cpp: Run (main loop, deltaTarget)"]}
{"id": "C129", "title": "Optimal control: the feedback method uses the new field at once", "statement": "The method rabitzfb propagates the target backward with the field it has just calculated, starting (for operators) from the operator applied to the final wave function.", "quantifier": "all runs of the feedback method", "why_tests_cant": "The yields of a run look plausible; that the result is identical to that of the other method for all inputs, or zero for all operators without support in the initial state, needs a proof.", "anchors": ["src/ProgOCT.cpp: IterateRabitzFB"]}
{"id": "C130", "title": "Optimal control: the shape protects the field", "statement": "At time steps where the shape is zero the Krotov method keeps the guess field of every laser in all iterations, the other methods give a zero field.", "quantifier": "all runs, all shapes, all numbers of lasers", "why_tests_cant": "Needs all iterations and arbitrary guess fields; with one laser, or equal guess fields, a test cannot notice that fields are mixed up.", "anchors": ["src/ProgOCT.cpp: CalcLaserField, Iterate"]}
{"id": "C131", "title": "Kinetic energy of plane waves", "statement": "Applying the Cartesian kinetic energy operator (GridNablaSq) to a wave function multiplies each plane wave exp(i k x) of the grid with the sum of k_i^2/(2 m_i); since the operator is linear and the plane waves span all wave functions this fixes the result for every wave function.", "quantifier": "all grids with at least two points per dimension and positive lengths, any number of dimensions, all masses that are accepted", "why_tests_cant": "The result combines the forward and backward Fourier transform, the momentum grid in every dimension and its normalisation; a test can only compare some functions on some grids.", "anchors": ["src/qdlib/OGridNablaSq.cpp: Init, InitDspace, Apply", "src/qdlib/Diff.cpp: DnDxn, _InitKspace", "src/qdlib/Kspace.cpp: Init1Dd2dx2"]}
{"id": "C132", "title": "Kinetic energy is Hermitian and within its bounds", "statement": "The Cartesian kinetic energy operator is Hermitian, and the kinetic energy of every wave function lies between Emin and Emax times the norm.", "quantifier": "all grids with at least two points per dimension and positive lengths, any number of dimensions, all wave functions, all masses", "why_tests_cant": "Expectation values of all wave functions have to be bounded, the Chebychev propagator relies on this bound; a test sees only single wave functions.", "anchors": ["src/qdlib/OGridNablaSq.cpp: Apply, Emax, Emin, Init"]}
{"id": "C133", "title": "A mass of zero leaves the dimension out", "statement": "As documented in the Handbook, a mass of 0 for a dimension means that the kinetic energy operator is not applied in this dimension.", "quantifier": "all lists of masses with a zero", "why_tests_cant": "The documented case is never used in the tests; the claim is about each input with a zero mass.", "anchors": ["src/qdlib/OGridNablaSq.cpp: Init", "doc/Handbook.tex: option mass"]}
{"id": "C134", "title": "A copied kinetic energy operator acts like the original", "statement": "A copy of the kinetic energy operator gives the same result, exponential and energy bounds as the original.", "quantifier": "all grids with at least two points per dimension and positive lengths, any number of dimensions, operators before and after their first use", "why_tests_cant": "Depends on which data a copy shares with its original; all states of the original have to be considered.", "anchors": ["src/qdlib/OGridNablaSq.cpp: Copy, Init, Apply, InitExponential"]}
{"id": "C135", "title": "Exponential of the kinetic energy", "statement": "The exponential of the kinetic energy operator, as used by the split operator propagators, multiplies each plane wave with exp(c E), E being its kinetic energy; exponentials combine like numbers, and with an imaginary factor all scalar products are conserved.", "quantifier": "all grids with at least two points per dimension and positive lengths, any number of dimensions, all complex factors", "why_tests_cant": "Exact identities for all wave functions and factors.", "anchors": ["src/qdlib/OGridNablaSq.cpp: InitExponential", "src/qdlib/OGSPO.cpp: Apply"]}
{"id": "C136", "title": "Nabla and momentum operator", "statement": "GridNabla is the derivative (sum over all dimensions or one selected dimension, times the prefactor) and GridMomentum is -i times it: exact for all plane waves of the grid, linear, Nabla is anti-Hermitian and the momentum Hermitian. Both variants of Apply give the same result.", "quantifier": "all grids with at least two points per dimension and positive lengths, any number of dimensions, all prefactors and dimensions", "why_tests_cant": "The derivative has to be exact for every plane wave and Hermiticity concerns all pairs of wave functions.", "anchors": ["src/qdlib/OGridNabla.cpp: Apply, _InitDspaceReal", "src/qdlib/Kspace.cpp: Init1Dddx"]}
{"id": "C137", "title": "Conjugate flag of the Nabla operator", "statement": "With the conjugate flag set, Nabla and momentum operator act as the complex conjugate of the operator.", "quantifier": "all grids with at least two points per dimension and positive lengths, any number of dimensions, both modes", "why_tests_cant": "The meaning of the flag has to agree for all wave functions and both modes.", "anchors": ["src/qdlib/OGridNabla.cpp: Apply", "src/qdlib/Operator.h: Conj"]}
{"id": "C138", "title": "A copied Nabla operator acts like the original", "statement": "A copy of a Nabla or momentum operator acts like the original, also for a selected dimension and after initialisation with the wave function.", "quantifier": "all grids with at least two points per dimension and positive lengths, any number of dimensions, all operators", "why_tests_cant": "Depends on which members are copied, for all settings.", "anchors": ["src/qdlib/OGridNabla.cpp: Copy, Init"]}
{"id": "C139", "title": "Exponential of the Nabla operator", "statement": "The exponential of the Nabla or momentum operator is the exponential of the operator that Apply uses.", "quantifier": "all grids with at least two points per dimension and positive lengths, any number of dimensions, all complex factors, all previous contents of the memory", "why_tests_cant": "Depends on memory which is not initialised and on a sign for all plane waves.", "anchors": ["src/qdlib/OGridNabla.cpp: InitDspace, InitExponential"]}
{"id": "C140", "title": "Emax of the Nabla operator", "statement": "Emax of the Nabla operator is the largest wave number of the grid, as its comment says.", "quantifier": "all grids with at least two points per dimension and positive lengths, any number of dimensions (one dimension for Emax)", "why_tests_cant": "All numbers of points have to be considered, even and odd.", "anchors": ["src/qdlib/OGridNabla.cpp: Emax"]}
{"id": "C141", "title": "Kinetic energy with a G-matrix", "statement": "The operator GridGMat is the kinetic energy -1/2 sum d_r G_rs d_s: its matrix elements are half the sum of the matrix elements of G_rs between the derivatives (only the diagonal without kinetic coupling). It is Hermitian, not negative for a positive semidefinite G-matrix, and for a constant matrix it multiplies plane waves with half the sum of G_rs k_r k_s.", "quantifier": "all grids with at least two points per dimension and positive lengths, any number of dimensions, all G-matrices of constant, grid or unused elements, without chain rule and absorbing layer", "why_tests_cant": "Hermiticity and positivity concern all wave functions and all coordinate dependent matrices.", "anchors": ["src/qdlib/OGridGMat.cpp: Init, Apply, ApplyAdd", "src/qdlib/Diff.cpp: DnDxn, DnDxnAdd"]}
{"id": "C142", "title": "G-matrix and Cartesian kinetic energy agree", "statement": "A diagonal G-matrix with the inverse masses gives the same result as the Cartesian kinetic energy operator with these masses, with and without kinetic coupling.", "quantifier": "all grids with at least two points per dimension and positive lengths, any number of dimensions, all masses, all wave functions", "why_tests_cant": "Two different implementations (transforms per dimension and for all dimensions at once) have to agree on all wave functions.", "anchors": ["src/qdlib/OGridGMat.cpp: ApplyAdd", "src/qdlib/OGridNablaSq.cpp: Apply"]}
{"id": "C143", "title": "Energy bounds of the G-matrix operator", "statement": "The kinetic energy of each wave function lies between Emin and Emax of the G-matrix operator times the norm.", "quantifier": "all grids with at least two points per dimension and positive lengths, any number of dimensions, all positive semidefinite G-matrices", "why_tests_cant": "A bound on all wave functions, used by the Chebychev propagator.", "anchors": ["src/qdlib/OGridGMat.cpp: Emax, Emin"]}
{"id": "C144", "title": "Kinetic coupling can be turned off", "statement": "With coup=false the G-matrix operator can be initialised and used with the diagonal elements only.", "quantifier": "all grids with at least two points per dimension and positive lengths, any number of dimensions, all elements from files", "why_tests_cant": "Crash in a documented configuration, for all grids of two or more dimensions.", "anchors": ["src/qdlib/OGridGMat.cpp: Init(Psi), Init(params)"]}
{"id": "C145", "title": "Non adiabatic coupling", "statement": "GridNAC applies sign/(2 m) times the sum of f_i d_i + d_i f_i, whatever the destination contained before. It is anti-Hermitian, and two of them with opposite signs are adjoint to each other, so that the coupled Hamiltonian is Hermitian.", "quantifier": "all grids with at least two points per dimension and positive lengths, any number of dimensions, all coupling functions, signs and masses", "why_tests_cant": "Hermiticity of the coupled Hamiltonian concerns all pairs of wave functions and all coupling functions.", "anchors": ["src/qdlib/OGridNAC.cpp: Apply", "src/qdlib/OGridNabla.cpp: Apply"]}
{"id": "C146", "title": "Energy bounds of the non adiabatic coupling", "statement": "Emax and Emin of GridNAC bound the matrix elements of the operator.", "quantifier": "all grids with at least two points per dimension and positive lengths, any number of dimensions, all coupling functions", "why_tests_cant": "A bound on all pairs of wave functions.", "anchors": ["src/qdlib/OGridNAC.cpp: Emax, Emin"]}
{"id": "C147", "title": "Butterworth mask of the Gobbler", "statement": "Without nip the Gobbler multiplies the wave function with the product of the Butterworth functions of all edges lp<i> and rp<i> and the gain. Each factor is between 0 and 1, one half on the edge, and with growing order the mask tends to 1 on the side to be left and to 0 beyond an edge.", "quantifier": "all grids with at least two points per dimension and positive lengths, any number of dimensions, all edges inside of the grid, all orders", "why_tests_cant": "The limit and the claim for every position of the edges cannot be tested.", "anchors": ["src/qdlib/OGobbler.cpp: OGobbler::_Init, OGobbler::Apply", "src/math/math_functions.h: FunctionGenerator::BwHighpass, FunctionGenerator::BwLowpass"]}
{"id": "C148", "title": "The Gobbler as negative imaginary potential", "statement": "With nip the Gobbler is the potential -i V, V being the gain times the Butterworth functions of the edges: it takes probability from every wave function, its conjugate is its adjoint, and both forms of Apply agree.", "quantifier": "all grids with at least two points per dimension and positive lengths, any number of dimensions, all edges inside of the grid, all wave functions", "why_tests_cant": "A statement about all wave functions and all sets of edges.", "anchors": ["src/qdlib/OGobbler.cpp: OGobbler::_Init, OGobbler::Apply"]}
{"id": "C149", "title": "Emax and Emin of the Gobbler", "statement": "Emax and Emin of the Gobbler bound its values.", "quantifier": "all grids with at least two points per dimension and positive lengths, any number of dimensions, all edges inside of the grid, all gains", "why_tests_cant": "All grid points and edges have to be considered.", "anchors": ["src/qdlib/OGobbler.cpp: OGobbler::Emax, OGobbler::Emin"]}
{"id": "C150", "title": "Expectation value and residue of the Gobbler", "statement": "The expectation value of the Gobbler is the integral of g |psi|^2, with residue it is the norm of the result, the integral of g^2 |psi|^2.", "quantifier": "all operators whose values are numbers, all wave functions", "why_tests_cant": "Holds for all wave functions.", "anchors": ["src/qdlib/OGobbler.cpp: OGobbler::Expec", "src/qdlib/Operator.h: Operator::MatrixElement", "src/qdlib/WFGridCartesian.cpp: WFGridCartesian::operator*"]}
{"id": "C151", "title": "A copied Gobbler acts like the original", "statement": "A copy of a Gobbler acts, also as conjugated operator, like the original, has the same expectation values and bounds, and answers the same on whether it is Hermitian.", "quantifier": "all operators", "why_tests_cant": "The copy has to agree for all wave functions.", "anchors": ["src/qdlib/OGobbler.cpp: OGobbler::Copy", "src/qdlib/OGridsystem.cpp: OGridSystem::Copy"]}
{"id": "C152", "title": "An operator that refused its initialisation does not pass at the second attempt", "statement": "If the initialisation of a Gobbler, a position operator, a kick or a flux operator with a wave function ends with an error, it ends with an error again when it is repeated.", "quantifier": "all grids and parameters that are refused", "why_tests_cant": "The claim is about all refused inputs and repeated calls.", "anchors": ["src/qdlib/OGobbler.cpp: OGobbler::Init", "src/qdlib/OGridPosition.cpp: OGridPosition::Init", "src/qdlib/OGridKick.cpp: OGridKick::Init", "src/qdlib/OFlux.cpp: OFlux::Init"]}
{"id": "C153", "title": "Momentum kick", "statement": "GridKick multiplies the wave function with exp(i s k x), missing components of k being zero. It keeps all scalar products and the density, adds s k to the momentum of plane waves, and the opposite kick takes it back.", "quantifier": "all grids, all momentum vectors not longer than the number of dimensions, all wave functions", "why_tests_cant": "Exactness and unitarity are claims about all wave functions.", "anchors": ["src/qdlib/OGridKick.cpp: OGridKick::Init, OGridKick::Apply"]}
{"id": "C154", "title": "A copied kick acts like the original", "statement": "Copying a kick operator gives an operator that acts like the original.", "quantifier": "all grids with at least one dimension, all kicks", "why_tests_cant": "All states of the two operators have to be considered.", "anchors": ["src/qdlib/OGridKick.cpp: OGridKick::Copy"]}
{"id": "C155", "title": "Position operator", "statement": "GridPosition multiplies the wave function with the coordinate of the chosen dimension, or the sum of all coordinates without one, times the scale.", "quantifier": "all grids, dimensions and scales, all wave functions", "why_tests_cant": "Holds for all grids and wave functions.", "anchors": ["src/qdlib/OGridPosition.cpp: OGridPosition::Init, OGridPosition::_InitDim, OGridPosition::Apply"]}
{"id": "C156", "title": "Emax and Emin of the position operator", "statement": "Emax and Emin of GridPosition bound its values, also for copies.", "quantifier": "all grids with at least two points per dimension and positive lengths, any number of dimensions, all dimensions and scales", "why_tests_cant": "All grid points and parameters have to be considered.", "anchors": ["src/qdlib/OGridPosition.cpp: OGridPosition::Emax, OGridPosition::Emin, OGridPosition::Copy"]}
{"id": "C157", "title": "Modifiers of a potential", "statement": "The modifiers of GridPotential are carried out in the documented order: setzero subtracts the minimum, offset is added, scale is multiplied.", "quantifier": "all potentials and values of the modifiers", "why_tests_cant": "Holds for all potentials.", "anchors": ["src/qdlib/OGridPotential.cpp: OGridPotential::Init"]}
{"id": "C158", "title": "Potential energy is Hermitian and within its bounds", "statement": "GridPotential is Hermitian, Emin and Emax are its smallest and largest value, and the potential energy of every normalised wave function lies between them; ApplyAdd adds the result of Apply.", "quantifier": "all grids with at least two points per dimension and positive lengths, any number of dimensions, all potentials and wave functions", "why_tests_cant": "A claim about all wave functions.", "anchors": ["src/qdlib/OGridPotential.cpp: OGridPotential::Emax, OGridPotential::Emin, OGridPotential::Apply, OGridPotential::ApplyAdd"]}
{"id": "C159", "title": "Outgoing flux", "statement": "The value of the flux operator is the outgoing flux -2 integral over the volume of Im(psi* T psi), the rate at which probability leaves the volume.", "quantifier": "all grids, operators T, volumes and wave functions", "why_tests_cant": "The sign follows from the time evolution of all wave functions.", "anchors": ["src/qdlib/OFlux.cpp: OFlux::MatrixElement", "src/qdlib/WaveFunction.h: WaveFunction::DirectProductConjugate", "doc/Handbook.tex: Flux Operator"]}
{"id": "C160", "title": "No flux out of a closed system", "statement": "With the whole grid as volume and a Hermitian kinetic energy the flux is zero.", "quantifier": "all grids, Hermitian operators and wave functions", "why_tests_cant": "A claim about all wave functions.", "anchors": ["src/qdlib/OFlux.cpp: OFlux::MatrixElement"]}
{"id": "C161", "title": "A copied flux operator works like the original", "statement": "A copy of an initialised flux operator gives the same values as the original.", "quantifier": "all pairs of operators, all wave functions", "why_tests_cant": "States of the copy have to be followed.", "anchors": ["src/qdlib/OFlux.cpp: OFlux::Copy, OFlux::Init"]}
{"id": "C162", "title": "Diagonalisation of symmetric 2x2 matrices", "statement": "diag22symm returns the eigenvalues in ascending order for a coupled matrix, and the columns of the returned matrix are orthonormal eigenvectors for these eigenvalues.", "quantifier": "all real matrices", "why_tests_cant": "Infinitely many matrices; the sign cases are easily missed.", "anchors": ["src/math/math_functions.h: diag22symm"]}
{"id": "C163", "title": "One step of the split operator propagator", "statement": "For a single state wave function one step of SPO is exp(cV/2) exp(cT) exp(cV/2), T being the exact kinetic energy of the grid and V the sum of Vpot and VcoupI at the time of the step.", "quantifier": "all grids with at least two points per dimension and positive lengths, any number of dimensions, all masses accepted, all potentials, exponents and wave functions", "why_tests_cant": "The step has to be the product of exponentials for all wave functions.", "anchors": ["src/qdlib/OSPO.cpp: OSPO::Init, OSPO::_InitT, OSPO::_InitV, OSPO::Apply"]}
{"id": "C164", "title": "Unitarity, reversibility and exactness of the split operator", "statement": "A step in real time keeps all scalar products; a step with the opposite exponent undoes it; for a constant potential a plane wave gets exactly the phase of its energy.", "quantifier": "all grids with at least two points per dimension and positive lengths, any number of dimensions, all potentials, time steps and wave functions", "why_tests_cant": "Statements about all wave functions, with no rounding.", "anchors": ["src/qdlib/OSPO.cpp: OSPO::Init, OSPO::Apply"]}
{"id": "C165", "title": "The split operator propagator follows the clock", "statement": "In each step the potential at the time step the clock shows is used, whatever steps were made before.", "quantifier": "all histories of steps in any order of time, all potentials", "why_tests_cant": "All histories have to be considered.", "anchors": ["src/qdlib/OSPO.cpp: OSPO::Init, OSPO::Apply, OSPO::_InitV"]}
{"id": "C166", "title": "Two level systems", "statement": "A two state wave function with a matching potential and coupling is accepted and propagated.", "quantifier": "all histories, operators and wave functions", "why_tests_cant": "That no history reaches the two state branch is a statement about all histories.", "anchors": ["src/qdlib/OSPO.cpp: OSPO::Init, OSPO::Apply", "src/qdlib/OGridNablaSq.cpp: OGridNablaSq::Init", "src/qdlib/OList.cpp: OList::Init"]}
{"id": "C167", "title": "A refused configuration of the split operator propagator is not accepted later", "statement": "Whenever Init returns without an error, steps are possible; a configuration that was refused is refused again.", "quantifier": "all operators, wave functions and times", "why_tests_cant": "Covers all failing configurations and repeated calls.", "anchors": ["src/qdlib/OSPO.cpp: OSPO::Init, OSPO::Apply"]}
{"id": "C168", "title": "Changing the direction of a split operator propagator", "statement": "After Backward, Forward, ImaginaryTime or another exponent, the next step uses the new exponent.", "quantifier": "all histories of steps and changes", "why_tests_cant": "Histories of any length.", "anchors": ["src/qdlib/OSPO.cpp: OSPO::Init, OSPO::Apply", "src/qdlib/OPropagator.h: OPropagator::Exponent"]}
{"id": "C169", "title": "Both forms of Apply of the split operator propagator agree", "statement": "Applying the propagator to a target wave function gives the same as applying it in place.", "quantifier": "all grids with at least two points per dimension and positive lengths, any number of dimensions, all potentials, time steps and wave functions", "why_tests_cant": "Holds or fails for all wave functions.", "anchors": ["src/qdlib/OSPO.cpp: OSPO::Apply"]}
{"id": "C170", "title": "UpdateTime of the split operator propagator", "statement": "Calling UpdateTime before a step does not change the step.", "quantifier": "all potentials and times", "why_tests_cant": "All combinations of time dependent and static parts.", "anchors": ["src/qdlib/OSPO.cpp: OSPO::UpdateTime"]}
{"id": "C171", "title": "Copying a split operator propagator", "statement": "A copy of a propagator makes the same steps as the original.", "quantifier": "all histories of the source and the target", "why_tests_cant": "All histories have to be considered.", "anchors": ["src/qdlib/OSPO.cpp: OSPO::Copy"]}
{"id": "C172", "title": "Element wise vector operations", "statement": "Each element wise vector operation (sums, products, complex products, exponentials, absolute value, real and imaginary part) gives for each element the documented value, also if the same vector is passed more than once, with and without SSE2 or SSE3, and for all distributions of the elements over threads; nothing else changes.", "quantifier": "all 37 operations, all vectors, lengths, parameters and orders of execution", "why_tests_cant": "Aliasing, schedules and builds multiply; tests use one build and small vectors.", "anchors": ["src/math/codelets/vec.cl", "src/math/codelets/codelet.pl", "src/math/VectorPrimitives.h", "src/math/m128dc.h: m128dc", "src/math/codelets/Im.h: Im"]}
{"id": "C173", "title": "Complex arithmetic with SSE", "statement": "Product, sum, difference, scaling, conjugation and the product with an imaginary number of the SSE type are those of complex numbers; the real and the imaginary part as numbers are those of the complex number.", "quantifier": "all complex numbers, SSE2 and SSE3", "why_tests_cant": "All numbers.", "anchors": ["src/math/m128dc.h: m128dc::operator*, m128dc::MultImag, m128dc::conj, m128dc::imag, m128dc::real, m128dc::imags, m128dc::reals"]}
{"id": "C174", "title": "The flux does not depend on the instruction set", "statement": "The expectation value of the flux operator is the same in builds with and without SSE.", "quantifier": "all kinetic energies, boundaries and wave functions", "why_tests_cant": "Depends on the build; tests run one build.", "anchors": ["src/qdlib/OFlux.cpp: OFlux::MatrixElement", "src/qdlib/WaveFunction.h: WaveFunction::Imag", "src/math/codelets/Im.h: Im"]}
{"id": "C175", "title": "Scalar product of wave functions on grids", "statement": "The scalar product of two grid wave functions is the sum of conj(a) b over all elements times the volume element (in k space the factors 2 pi / length), for every build, number of strides, threads and processes, and all processes get this value.", "quantifier": "all vectors, strides, distributions over threads, numbers of processes and spacings", "why_tests_cant": "All schedules and distributions.", "anchors": ["src/qdlib/WFGridCartesian.cpp: WFGridCartesian::operator*"]}
{"id": "C176", "title": "One order of the Chebychev recursion", "statement": "One order of the recursion gives the documented next vector, wave function and accumulated norm, the same in all builds and for all distributions over threads, in real and in imaginary time.", "quantifier": "all vectors, lengths, factors and orders of execution", "why_tests_cant": "All schedules and vectors.", "anchors": ["src/qdlib/OCheby.cpp: OCheby::real_time_step, OCheby::imag_time_step"]}
{"id": "C177", "title": "Reference norm of the Chebychev propagator", "statement": "The norm which decides about the convergence of the Chebychev series is the sum of the squares of all elements, whatever the schedule of the threads.", "quantifier": "all vectors, numbers of strides and interleavings of the threads", "why_tests_cant": "A race shows up rarely and depends on the schedule.", "anchors": ["src/qdlib/OCheby.cpp: OCheby::raw_norm"]}
{"id": "C178", "title": "Exponential of a matrix operator", "statement": "In a step of the split operator propagator a matrix operator acts as the exponential of the matrix it applies, whatever has been done with the operator before.", "quantifier": "all symmetric matrices of any size, factors, states and histories of uses", "why_tests_cant": "The diagonal form is cached; the order of calls decides which matrix it belongs to.", "anchors": ["src/qdlib/OHermitianMatrix.cpp: OHermitianMatrix::Init, OHermitianMatrix::InitDspace", "src/qdlib/ODSpace.h: InitExponential", "src/qdlib/TransformMat.cpp: TransformMat::Forward, TransformMat::Backward", "src/qdlib/OGSPO.cpp: OGSPO::Apply"]}
{"id": "C179", "title": "Energy bounds of a matrix operator", "statement": "The lower and the upper energy bound of a matrix operator are the smallest and the largest expectation value of what it applies; with setzero the lower bound is zero.", "quantifier": "all symmetric matrices of any size, with and without setzero, all histories of uses", "why_tests_cant": "The bounds come from a cached diagonalisation; a sample of matrices shows neither attainment nor staleness.", "anchors": ["src/qdlib/OHermitianMatrix.cpp: OHermitianMatrix::Emin, OHermitianMatrix::Emax, OHermitianMatrix::Init", "src/linalg/LapackDiag.cpp: FullDiagHermitian"]}
{"id": "C180", "title": "Copies of a matrix operator", "statement": "A copy of a matrix operator applies the same matrix, acts as the same exponential and has the same energy bounds as its source.", "quantifier": "all sources and targets, before and after diagonalisation", "why_tests_cant": "Depends on which of the two operators has been diagonalised; tests copy one combination.", "anchors": ["src/qdlib/OHermitianMatrix.cpp: OHermitianMatrix::Copy, OHermitianMatrix::NewInstance"]}
{"id": "C181", "title": "Hermiticity and eigenbasis of a matrix operator", "statement": "A matrix operator read from a symmetric file is linear and hermitian; its transformation keeps the norm, is undone by the transformation back and turns the operator into the multiplication with its eigenvalues.", "quantifier": "all symmetric matrices of any size and all states", "why_tests_cant": "Algebraic laws over all complex vectors.", "anchors": ["src/qdlib/OHermitianMatrix.cpp: OHermitianMatrix::Apply", "src/qdlib/TransformMat.cpp: TransformMat::Forward, TransformMat::Backward", "src/math/Matrix.h: MatVecMult"]}
{"id": "C182", "title": "Energy bounds of a matrix dipole operator", "statement": "The energy bounds of a matrix dipole operator enclose the energies of the operator for all values the laser field takes.", "quantifier": "all symmetric dipole matrices and all laser fields", "why_tests_cant": "Depends on the signs of the field and of the eigenvalues.", "anchors": ["src/qdlib/OMatDipole.cpp: OMatDipole::Emax, OMatDipole::Emin, OMatDipole::Apply", "src/math/math_functions.cpp: VecMin, VecMax"]}
{"id": "C183", "title": "Exponential of coupled potentials", "statement": "In a step of the split operator propagator a matrix of coupled potentials acts at each grid point as the exponential of the matrix which it applies there.", "quantifier": "all numbers of states and grid points, potentials, couplings, factors, states and histories of steps", "why_tests_cant": "The matrix is diagonalised at every grid point and the result is cached; agreement on samples says nothing about missing, time dependent or one-sided elements.", "anchors": ["src/qdlib/ODMultistate.cpp: ODMultistate::Init, ODMultistate::InitDspace, ODMultistate::InitExponential", "src/qdlib/TransformMSD.cpp: TransformMSD::Forward, TransformMSD::Backward", "src/qdlib/OMultistate.cpp: OMultistate::Apply", "src/qdlib/OGSPO.cpp: OGSPO::Apply"]}
{"id": "C184", "title": "Multistate operators with transformations", "statement": "If the elements of a multistate operator bring their own transformation, a step acts in each state as the exponential of the element there.", "quantifier": "all numbers of states and grid points, transformations, elements and times", "why_tests_cant": "Which elements bring a transformation decides which code runs; only some combinations are tested.", "anchors": ["src/qdlib/ODMultistate.cpp: ODMultistate::Init, ODMultistate::InitExponential", "src/qdlib/TransformMSD.cpp: TransformMSD::ExternalTransform, TransformMSD::Forward, TransformMSD::Backward, TransformMSD::Normalization"]}
{"id": "C185", "title": "Refusal of unusable elements", "statement": "Initialising a multistate operator which has elements without diagonal form, or couplings with a transformation, fails, and the operator can not be used afterwards.", "quantifier": "all matrices of elements, repeated initialisations", "why_tests_cant": "The second initialisation depends on the state left by the first, failed one.", "anchors": ["src/qdlib/ODMultistate.cpp: ODMultistate::Init", "src/qdlib/OMultistate.cpp: OMultistate::Init"]}
{"id": "C186", "title": "Energy bounds of multistate operators", "statement": "The energies of a multistate operator lie between its lower and its upper energy bound.", "quantifier": "all numbers of states, elements with given bounds, and states", "why_tests_cant": "The bounds are estimates which mix absolute values; samples with positive potentials do not show it.", "anchors": ["src/qdlib/OMultistate.cpp: OMultistate::Emax, OMultistate::Emin"]}
{"id": "C187", "title": "Copies of multistate operators", "statement": "A copy of a multistate operator applies the same, takes the same steps and is time dependent if its source is.", "quantifier": "all operators of potentials, copied before or after any number of steps", "why_tests_cant": "Depends on the caches of the source at the time of the copy and on members which are not copied.", "anchors": ["src/qdlib/ODMultistate.cpp: ODMultistate::Copy", "src/qdlib/OMultistate.cpp: OMultistate::Copy"]}
{"id": "C188", "title": "Friction takes energy", "statement": "If a wave function evolves with a kinetic energy, a potential and the Albrecht friction operator built from this kinetic energy and the position, the mean position moves with a velocity v, the energy decreases with the rate 6 pi R eta v^2 and the norm is kept.", "quantifier": "all grid sizes, hermitian kinetic energy and position operators, potentials which commute with the position, radii, viscosities and states", "why_tests_cant": "The rate is a derivative for each state of a nonlinear equation; runs show it up to the error of the propagator only.", "anchors": ["src/qdlib/OGridStokesAlbrecht.cpp: OGridStokesAlbrecht::Init, OGridStokesAlbrecht::Apply"]}
{"id": "C189", "title": "Frozen friction", "statement": "After the Albrecht friction operator has been applied to a state and told not to recalculate its mean values, it is one linear hermitian operator through any number of further applications, and gives the same for that state.", "quantifier": "all grid sizes, hermitian position operators, states and sequences of applications", "why_tests_cant": "Linear for all pairs of states, after any history.", "anchors": ["src/qdlib/OGridStokesAlbrecht.cpp: OGridStokesAlbrecht::Apply", "src/qdlib/Operator.h: Operator::RecalcInternals"]}
{"id": "C190", "title": "Friction does not shift the energy", "statement": "The expectation value of the Albrecht friction operator is zero in each state.", "quantifier": "all grid sizes, operators and states of any norm", "why_tests_cant": "Only states with norm one hide how the mean position is normalised.", "anchors": ["src/qdlib/OGridStokesAlbrecht.cpp: OGridStokesAlbrecht::Apply", "src/qdlib/Operator.h: Operator::Expec", "src/qdlib/WFGridSystem.cpp: WFGridSystem::Norm"]}
{"id": "C191", "title": "Documented friction operator", "statement": "The Stokes friction operator is c((xp + px)/2 - <x>p) + (1-c)<p>(x - <x>) times 6 pi eta R / m; with kept mean values it is linear and hermitian.", "quantifier": "all grids, hermitian momentum operators, parameters and states", "why_tests_cant": "A sign error in a small friction force shows as plausible motion.", "anchors": ["src/qdlib/OGridStokes.cpp: OGridStokes::Init, OGridStokes::Apply", "src/qdlib/OGridStokes.h: OGridStokes"]}
{"id": "C192", "title": "Momentum kicks", "statement": "The momentum kick operator changes the momentum by -6 pi eta R dt times the given matrix times the mean momenta: it multiplies the wave function at each point with the phase of momentum change times position, and keeps its magnitude there.", "quantifier": "all numbers of dimensions and points, matrix elements, operators, time steps and states; repeated initialisations", "why_tests_cant": "Depends on how often the operator has been initialised and on the size of files.", "anchors": ["src/qdlib/OGridGStokes.cpp: OGridGStokes::Init, OGridGStokes::Apply"]}
{"id": "C193", "title": "Copies of friction operators", "statement": "A copy of a friction operator gives the same as the original.", "quantifier": "all operators and states, copied at any time", "why_tests_cant": "Depends on the members which are not copied and on the state of the source.", "anchors": ["src/qdlib/OGridStokesAlbrecht.cpp: OGridStokesAlbrecht::Copy", "src/qdlib/OGridStokes.cpp: OGridStokes::Copy"]}
{"id": "C194", "title": "Finite difference kinetic energy", "statement": "The finite difference operator, set up for a grid with a derivative, an even order, boundaries, a dimension (or all) and masses, gives at each point of the grid the sum over its dimensions of the finite difference derivative along that dimension times -1/(2 mass of that dimension); the previous content of the destination does not matter.", "quantifier": "all numbers of dimensions and points, orders 2 to 50, first and second derivatives, open and periodic boundaries, masses, functions", "why_tests_cant": "The masses of different dimensions only matter together; tests use one dimension or equal masses.", "anchors": ["src/qdlib/OGridHOFD.cpp: OGridHOFD::Init, OGridHOFD::Apply", "src/qdlib/HOFD.h: HOFD::Diff"]}
{"id": "C195", "title": "Hermitian finite differences", "statement": "The finite difference operator with the second derivative is hermitian, the one with the first derivative of order two or four anti-hermitian, with open and with periodic boundaries.", "quantifier": "all pairs of functions, numbers of dimensions and points, orders, boundaries, masses the operator can be used with", "why_tests_cant": "A statement on all pairs of functions, needed by every propagator that relies on a conserved norm.", "anchors": ["src/qdlib/OGridHOFD.cpp: OGridHOFD::Apply", "src/qdlib/HOFD.h: HOFD::Diff"]}
{"id": "C196", "title": "Energy bounds of the finite differences", "statement": "The maximum and minimum of the energy reported by the finite difference operator bound its expectation value in all functions, as a Chebyshev propagator relies on.", "quantifier": "all functions, numbers of dimensions and points, orders, boundaries, masses", "why_tests_cant": "A bound on all functions; tests see some.", "anchors": ["src/qdlib/OGridHOFD.cpp: OGridHOFD::Emax, OGridHOFD::Emin, OGridHOFD::Apply"]}
{"id": "C197", "title": "Copies of the finite difference operator", "statement": "A copy of the finite difference operator acts as the original and reports the same energies.", "quantifier": "all operators and functions", "why_tests_cant": "Depends on members which are not copied.", "anchors": ["src/qdlib/OGridHOFD.cpp: OGridHOFD::Copy, OGridHOFD::Apply, OGridHOFD::Emax"]}
{"id": "C198", "title": "All messages arrive in order", "statement": "After a flush of the logger all messages given while not suppressed, and the details if asked for, have arrived at the destination: in the order given, each once, and nothing else.", "quantifier": "all sequences of messages, details, flushes and suppressions, all texts, all destinations", "why_tests_cant": "A statement on all interleavings of two buffered streams.", "anchors": ["src/tools/Logger.cpp: Logger::cout, Logger::coutdbg, Logger::flush", "src/tools/Logger.h: Logger::Supress, Logger::Debug"]}
{"id": "C199", "title": "Indentation", "statement": "Each line of a message arrives behind two spaces for each indent that was set when the message was given, wherever flushes are made.", "quantifier": "all sequences of messages, details, flushes and changes of the indentation, all texts and numbers of indents", "why_tests_cant": "The indentation is inserted at flushes, into texts of several messages.", "anchors": ["src/tools/Logger.cpp: Logger::_IndentString, Logger::flush", "src/tools/Logger.h: Logger::SetIndent, Logger::IndentInc, Logger::IndentDec"]}
{"id": "C200", "title": "Headers", "statement": "A header arrives behind the messages given before, its lines are not longer than the line length, the title is centred.", "quantifier": "all titles, line lengths and states of the logger", "why_tests_cant": "The length of the fill is computed in unsigned numbers; tests use short titles.", "anchors": ["src/tools/Logger.cpp: Logger::Header", "src/tools/Logger.h: Logger::SetLineLength"]}
{"id": "C201", "title": "Redirection to files", "statement": "All messages given between the redirection to a file and its end are in this file and nowhere else, and later ones arrive on the console again.", "quantifier": "all sequences of messages before, during and after the redirection, all files", "why_tests_cant": "Which destination a message goes to depends on what is pending when it changes.", "anchors": ["src/tools/Logger.cpp: Logger::FileOutput, Logger::FileClose, Logger::SetRedirect"]}
{"id": "C202", "title": "The absorbing layer damps", "statement": "All factors of an absorbing layer are numbers, none of them amplifies, points nearer to the border are damped more, and the strength grows from zero at the inner edge to the given maximum at the border.", "quantifier": "all strengths, orders, angles and thicknesses", "why_tests_cant": "A statement on all parameters; the sign of the base of the monomial matters for odd orders only.", "anchors": ["src/qdlib/PML.cpp: PML::InitParams, PML::PML"]}
{"id": "C203", "title": "The strength that is estimated meets the tolerance", "statement": "If no strength is given, the estimated one lets at most the tolerance of a wave with the characteristic wave number return from the border.", "quantifier": "all tolerances, wave numbers, thicknesses, spacings, orders and angles", "why_tests_cant": "An identity with an integral over the layer; the effect shows up only in long simulations.", "anchors": ["src/qdlib/PML.cpp: PML::InitParams"]}
{"id": "C204", "title": "Energy range of the kinetic energy with layers", "statement": "The maximal energy bounds the operator, and no eigenvalue has an imaginary part below that of the minimal energy.", "quantifier": "all grids, masses and layers that do not amplify, all wave functions", "why_tests_cant": "Bounds for all wave functions.", "anchors": ["src/qdlib/OGridPML.cpp: OGridPML::Emax, OGridPML::Emin, OGridPML::Apply"]}
{"id": "C205", "title": "Adjoint of the kinetic energy with layers", "statement": "With the flag for the adjoint set, the operator is the adjoint of the operator without it.", "quantifier": "all grids, masses, layers and pairs of wave functions", "why_tests_cant": "All matrix elements; products of operators in the wrong order agree on many test functions.", "anchors": ["src/qdlib/OGridPML.cpp: OGridPML::Apply", "src/qdlib/Operator.h: Operator::Conj"]}
{"id": "C206", "title": "Kinetic energy and absorption", "statement": "Without layers the operator equals the kinetic energy operator without absorbing boundaries; it is linear; on a line with layers the energy in the stretched coordinate never has a positive imaginary part (nothing is emitted).", "quantifier": "all grids, masses, layers and wave functions", "why_tests_cant": "Equality of two operators for all wave functions; a sign for all wave functions.", "anchors": ["src/qdlib/OGridPML.cpp: OGridPML::Apply", "src/qdlib/OGridNablaSq.cpp: OGridNablaSq::Apply"]}
{"id": "C207", "title": "Life of the operator with layers", "statement": "After its initialisation the operator works on the grid of the wave function, copies work as well, an operator that was rejected or has not seen a wave function is not used.", "quantifier": "all sequences of initialisation, copy and application, all grids", "why_tests_cant": "Depends on null pointers in states tests do not reach.", "anchors": ["src/qdlib/OGridPML.cpp: OGridPML::Init, OGridPML::Copy, OGridPML::Valid, OGridPML::Apply"]}
{"id": "C208", "title": "Derivative of the metric", "statement": "The second table of the layer holds the derivative of the first at each point of the layer.", "quantifier": "all parameters and points", "why_tests_cant": "An identity between derivative and table for all parameters.", "anchors": ["src/qdlib/PML.cpp: PML::InitParams, PML::ApplyTransformDiff"]}
{"id": "C209", "title": "Writing to a stream with its own buffers", "statement": "Writing a block of memory appends exactly these bytes to the stream, whatever sizes the stream chooses for its buffers; no unspecified bytes stay behind, and if the stream is full an exception is thrown.", "quantifier": "all contents, all sequences of buffer sizes (including zero)", "why_tests_cant": "The sizes are the choice of the stream, all sequences of them.", "anchors": ["src/tools/ZCopyStream.cpp: WriteToZeroCopyStream"]}
{"id": "C210", "title": "Reading from a stream with its own buffers", "statement": "Reading delivers exactly the next bytes of the stream, whatever pieces it hands out, and leaves the stream directly behind them; if there are not enough, an exception is thrown; what was written is read back.", "quantifier": "all streams, all divisions into pieces, all sizes", "why_tests_cant": "All divisions into pieces.", "anchors": ["src/tools/ZCopyStream.cpp: ReadFromZeroCopyStream, WriteToZeroCopyStream"]}
{"id": "C211", "title": "Classes loaded by name", "statement": "The name of a compiled-in class always gives this class, with and without the prefix of the class name; a name stands for the same class during the whole run; the link count is the number of successful loads.", "quantifier": "all sequences of loads and changes of the path, all states of the file system between the calls", "why_tests_cant": "All histories and environments.", "anchors": ["src/modules/ModuleLoader.h: ModuleLoader::Load", "src/modules/ModuleLoader.cpp: ModuleLoader::_Internal", "src/modules/InternalMods.cpp: InternalWF, InternalOP"]}
{"id": "C212", "title": "Search order for modules", "statement": "A class that is not compiled in comes from the first directory that has it: path of the user, QD_MOD_PATH, compiled-in path, directories of the system linker; if there is none the load fails and leaves no trace; an empty path switches the directory of the user off.", "quantifier": "all paths, names and file systems", "why_tests_cant": "All combinations of paths and installed files.", "anchors": ["src/modules/ModuleLoader.h: ModuleLoader::Load, ModuleLoader::UserPath, ModuleLoader::try_lib_path, ModuleLoader::_Register"]}
{"id": "C213", "title": "The name of a class is taken literally", "statement": "A load opens the file with the name of the class and nothing else, whatever characters the name and the paths contain.", "quantifier": "all names and paths", "why_tests_cant": "All strings; effects of special characters are not visible with ordinary names.", "anchors": ["src/modules/ModuleLoader.h: ModuleLoader::try_lib_path"]}
{"id": "C214", "title": "Command line of the compression program", "statement": "The program does what its options say, with the documented defaults (zlib, level 4, tolerance 1e-5); levels 0 to 9 are accepted; wrong values and a missing file are reported by the exit status.", "quantifier": "all command lines", "why_tests_cant": "All command lines.", "anchors": ["src/qdz.cpp: main, PrepareCmdline", "src/tools/Getopt.cpp: Getopt::GetOption"]}
{"id": "C215", "title": "Conversion of a series", "statement": "Every file of a series is replaced by the same data in the other form, up to the first number that does not exist; other files are untouched; errors are reported.", "quantifier": "all series and file contents, all places where reading or writing fails", "why_tests_cant": "All lengths and all failures in between.", "anchors": ["src/qdz.cpp: Compress, DeCompress"]}
{"id": "C216", "title": "Planner and wisdom of the Fourier transform", "statement": "With a wisdom file plans are measured, without it they are optimal unless fftwOptimize is off; wisdom is saved to the file the program announces.", "quantifier": "all parameters and files", "why_tests_cant": "Decision table over all parameters.", "anchors": ["src/fft/FFTGlobal.cpp: FFTGlobal::FFTGlobal, FFTGlobal::FlushWisdom"]}
{"id": "C217", "title": "Root of the parsed document", "statement": "After a document was parsed the root belongs to this document; documents that cannot be parsed are reported.", "quantifier": "all sequences of parse and root", "why_tests_cant": "Depends on the history of calls.", "anchors": ["src/tools/XmlParser.cpp: XmlParser::Parse, XmlParser::Root"]}
{"id": "C218", "title": "A temporary file works like an array", "statement": "Blocks written anywhere in a temporary file are read back, at each position the last one, zeros where nothing was written; files of every size the system supports can be created, and reading and writing starts at the first element.", "quantifier": "all sizes, sequences of blocks and positions", "why_tests_cant": "All sequences of writes; sizes of several gigabytes.", "anchors": ["src/tools/TmpFile.h: TmpFile::Open, TmpFile::Seek, TmpFile::Read, TmpFile::Write, TmpFile::_Upsize"]}
{"id": "C219", "title": "Temporary files are removed", "statement": "When the object is destroyed no file is left, whatever was done with it.", "quantifier": "all sequences of calls, all answers of the system", "why_tests_cant": "All sequences of calls including failures.", "anchors": ["src/tools/TmpFile.h: TmpFile::Close, TmpFile::Open, TmpFile::~TmpFile, TmpFile::Read, TmpFile::Write"]}
{"id": "C220", "title": "Size of a temporary file", "statement": "The object reports the number of elements, also after resizing; resizing keeps the elements; a mapping into memory that fails is reported.", "quantifier": "all sizes and contents", "why_tests_cant": "All sizes and histories.", "anchors": ["src/tools/TmpFile.h: TmpFile::Resize, TmpFile::Size, TmpFile::Open"]}
{"id": "C221", "title": "Pair of named pipes", "statement": "The constructor creates two pipes and touches nothing else, the destructor removes them; existing files are not taken over; without a path the name is unique; a constructor that fails leaves nothing behind.", "quantifier": "all names and file systems", "why_tests_cant": "All states of the file system.", "anchors": ["src/tools/FIFO.cpp: FIFO::FIFO, FIFO::_Open, FIFO::~FIFO"]}
{"id": "C222", "title": "A wave function in the binary format is read back", "statement": "A single wave function written in the binary format, with or without compression, is read back with the same data, into a new or an existing object, whatever the data is.", "quantifier": "all classes, objects, names, file systems, compression libraries", "why_tests_cant": "All contents, in particular those that look like another format.", "anchors": ["src/tools/FileSingle.h: FileSingle::DetectFormat, FileSingle::DetectCompressionInPayload, FileSingle::ReadDataFromRaw, FileSingle::WriteDataToRaw, FileSingle::PrepareData", "src/qdlib/FileWF.cpp: FileWF::LoadWaveFunctionByMeta, FileWF::ReadWaveFunction, FileWF::WriteWaveFunction"]}
{"id": "C223", "title": "A series in the binary format is read back", "statement": "Wave functions written one after the other to numbered binary files are read back in order, each with its own parameters.", "quantifier": "all lists of wave functions, all starts and increments", "why_tests_cant": "All lengths and parameters.", "anchors": ["src/tools/FileSingle.h: FileSingle::WriteMetaToRaw, FileSingle::ReadMetaFromRaw, FileSingle::BuildMetaFileName, FileSingle::BuildDataFileName", "src/qdlib/FileWF.cpp: FileWF::WriteWaveFunction"]}
{"id": "C224", "title": "Several states in the binary format are read back", "statement": "A wave function with several states written in the binary format is read back with all its states.", "quantifier": "all numbers of states, names, file systems", "why_tests_cant": "All file systems: the result depends on a file nobody writes.", "anchors": ["src/qdlib/FileWF.cpp: FileWF::LoadWaveFunctionByMeta, FileWF::ReadWaveFunction, FileWF::WriteWaveFunction", "src/tools/FileSingle.h: FileSingle::ReadMeta, FileSingle::DetectFormat"]}
{"id": "C225", "title": "Files written for several states", "statement": "Writing several states in the binary format creates a data file and a parameter file per state and one parameter file for the whole, changes nothing else, keeps the name of the file object and moves the counter of a series once.", "quantifier": "all states, methods of compression, file systems", "why_tests_cant": "All numbers of states and file systems.", "anchors": ["src/qdlib/FileWF.cpp: FileWF::WriteWaveFunction", "src/tools/FileSingle.h: FileSingle::WriteMeta"]}
{"id": "C226", "title": "File objects after reading and after errors", "statement": "Reading changes no file; after every operation, successful or not, the file object has the name it had before.", "quantifier": "all file systems, all errors", "why_tests_cant": "All places where an error can occur.", "anchors": ["src/qdlib/FileWF.cpp: FileWF::LoadWaveFunctionByMeta, FileWF::WriteWaveFunction"]}
{"id": "C227", "title": "One frame of a series by its name", "statement": "Every frame of a series of wave functions of one class with the same parameters, with data recognised as raw data, can be read on its own by giving its file name without suffix.", "quantifier": "all series and frames", "why_tests_cant": "All numbers, starts and increments.", "anchors": ["src/tools/FileSingle.h: FileSingle::ReadMetaFromRaw"]}
{"id": "C228", "title": "Options for wave function files", "statement": "The global options choose format and compression; unknown values are refused before anything is written.", "quantifier": "all option values", "why_tests_cant": "All combinations.", "anchors": ["src/qdlib/FileWF.cpp: FileWF::FileWF, FileWF::WriteWaveFunction", "src/tools/FileSingle.h: FileSingle::WriteMeta"]}
{"id": "C229", "title": "States and multistate wave function show the same values", "statement": "However a multistate wave function is used (values written through it or through its states, storage given back and taken again, representation changed back and forth), there is no undefined behaviour, and as long as the storage is there, the multistate wave function and its states show the same values: those last written in this representation.", "quantifier": "all numbers and sizes of states, all sequences of calls, all contents of memory", "why_tests_cant": "Unbounded sequences of calls that relink pointers.", "anchors": ["src/math/Vector.h: Vector::StrideRef, Vector::RetireStorage, Vector::ReaquireStorage, Vector::swap", "src/qdlib/WaveFunction.h: WaveFunction::IsKspace, WaveFunction::GetSpaceBuffer, WaveFunction::Retire, WaveFunction::Reaquire", "src/qdlib/WFMultistate.cpp: WFMultistate::Init, WFMultistate::IsKspace, WFMultistate::Retire, WFMultistate::Reaquire"]}
{"id": "C230", "title": "No leak and no double free with failing requests for memory", "statement": "Whichever requests for memory fail, no sequence of calls to a multistate wave function leads to undefined behaviour, also if exceptions are caught and work goes on; after Retire it holds no memory; deleting it gives back exactly its own memory and leaves all other memory as it was.", "quantifier": "all patterns of failing requests, all sequences of calls", "why_tests_cant": "All failure patterns.", "anchors": ["src/math/Vector.h: Vector::destroy, Vector::RetireStorage, Vector::ReaquireStorage", "src/qdlib/WaveFunction.h: WaveFunction::~WaveFunction", "src/qdlib/WFMultistate.cpp: WFMultistate::~WFMultistate"]}
{"id": "C231", "title": "The states have the representation of the multistate wave function", "statement": "IsKspace() of a multistate wave function and of all its states is what was set last.", "quantifier": "all sequences of calls, all failing requests", "why_tests_cant": "All failure patterns.", "anchors": ["src/qdlib/WFMultistate.cpp: WFMultistate::IsKspace", "src/qdlib/WaveFunction.h: WaveFunction::IsKspace"]}
{"id": "C232", "title": "Calls to one state are seen through the multistate wave function", "statement": "What is done to a state directly (values, representation, size), or to the multistate wave function through a pointer to the base class, is seen through the multistate wave function.", "quantifier": "all multistate wave functions and states", "why_tests_cant": "Aliasing for all states and sizes.", "anchors": ["src/math/Vector.h: Vector::newsize", "src/qdlib/WaveFunction.h: WaveFunction::IsKspace", "src/qdlib/TransformMat.cpp: TransformMat::Forward"]}
{"id": "C233", "title": "swap exchanges two vectors", "statement": "swap exchanges the elements of two vectors of the same size and refuses vectors of different size.", "quantifier": "all vectors, all numbers of strides", "why_tests_cant": "All combinations of strides.", "anchors": ["src/math/Vector.h: Vector::swap"]}
{"id": "C234", "title": "Storage of a vector that is made or resized", "statement": "After newsize every element can be accessed; if memory runs out nothing is lost and the vector can still be deleted.", "quantifier": "all sizes, numbers of strides, failing requests", "why_tests_cant": "All failure patterns.", "anchors": ["src/math/Vector.h: Vector::newsize, Vector::initialize, Vector::destroy"]}
{"id": "C235", "title": "The exit status of the program", "statement": "The program ends with status 0 exactly if the help or the version was asked for or the input was processed without error; a command line that cannot be understood (no input file, a word that defines no variable, an unknown option) runs nothing and ends with a status that is not 0.", "quantifier": "all command lines, environments and runs", "why_tests_cant": "All command lines and all ways a run can end.", "anchors": ["src/qdng.cpp: main", "src/tools/Getopt.cpp: Getopt::ParseArgs"]}
{"id": "C236", "title": "Settings of a run", "statement": "The directory is that of -d, else that of QD_DIR; the module path that of -m, else the global one; the number of threads that of -p, else a positive OMP_NUM_THREADS, else 1; -c and -g switch the interactive mode and the debug output on; the first word is the input, the others define variables.", "quantifier": "all command lines and environments", "why_tests_cant": "All combinations of options and environment variables.", "anchors": ["src/qdng.cpp: main"]}
{"id": "C237", "title": "The format of the input file is recognised", "statement": "Whether an input file is XML or in the simple format is recognised from its contents; other files, unreadable and empty files are refused.", "quantifier": "all files", "why_tests_cant": "Files of every length and content.", "anchors": ["src/simpleXml/Simple2Xml.cpp: CheckType", "src/qdng.cpp: CheckInput"]}
{"id": "C238", "title": "Parameters of the calculation of eigenfunctions", "statement": "The set-up of an eigenfunction calculation ends with an exception exactly if the method is unknown, the time step is missing or a parameter is out of its documented range; otherwise the settings are those of the input with the documented defaults.", "quantifier": "all attributes and directories", "why_tests_cant": "All combinations of attributes.", "anchors": ["src/ProgEigen.cpp: ProgEigen::ProgEigen, ProgEigen::_InitParams"]}
{"id": "C239", "title": "The table of energies", "statement": "The table of energies has a line for each function with its number, energy, energy in wave numbers and the differences to the first energy and to the line above; energies of the diagonalization if there was one. If it cannot be written this is reported and the run goes on.", "quantifier": "all numbers of functions, energies and file names", "why_tests_cant": "All numbers of functions.", "anchors": ["src/ProgEigen.cpp: ProgEigen::WriteEnergyFile"]}
{"id": "C240", "title": "Each iteration with frequency shaping starts from the masked field", "statement": "In each iteration of the optimal control program with the method freq, the old laser field is replaced by the field whose spectrum is the mask times the spectrum of the field of the previous line of the report, for all lasers and in both copies of the field. Where the shape function is zero the new field is this field, and the wave functions of the line belong to the new field.", "quantifier": "all numbers of time steps, masks, targets, fields, propagators and iterations", "why_tests_cant": "Depends on the number of iterations and on which storage the Fourier transforms work.", "anchors": ["src/ProgOCT.cpp: IterateFreq, Run", "src/qdlib/Laser.cpp: Spectrum, ToTime", "src/math/Vector.h: Vector::swap"]}
{"id": "C241", "title": "A mask of ones changes nothing", "statement": "With a mask that is one everywhere the method freq reports the same fields, yields and objectives, in the same number of iterations, as Krotov's method.", "quantifier": "all numbers of steps and iterations, targets, propagators", "why_tests_cant": "Compares two whole runs.", "anchors": ["src/ProgOCT.cpp: IterateFreq, IterateKrotov, CalcLaserField, Run"]}
{"id": "C242", "title": "Blocked components are removed from the change of the field", "statement": "With the method freq, components of the spectrum that the mask blocks are removed from the change of the field (the comment in the code says: subtract the correction field).", "quantifier": "all runs", "why_tests_cant": "All masks, fields and numbers of steps.", "anchors": ["src/ProgOCT.cpp: IterateFreq, CalcLaserField"]}
{"id": "C243", "title": "The yield of the method freq is that of the targets", "statement": "With the method freq the yield in each line of the report is that of the final wave functions and the targets given in the input.", "quantifier": "all runs", "why_tests_cant": "All propagators, gobblers and numbers of steps.", "anchors": ["src/ProgOCT.cpp: IterateFreq, Run, CalcYield"]}
{"id": "C244", "title": "Frequency bounds of the mask", "statement": "The mask made from freql and freqh has values between 0 and 1 and passes (with at least half of the value) exactly the components with a frequency between freql and freqh.", "quantifier": "all numbers of steps, time steps and bounds", "why_tests_cant": "All real bounds.", "anchors": ["src/ProgOCT.cpp: _InitParams", "src/math/math_functions.h: BWHighPass, BWLowPass"]}
{"id": "C245", "title": "Parameters of the optimal control program", "statement": "The set-up of the optimal control program ends with an exception exactly if a parameter is missing or out of its documented range (time step, positive number of steps, method, shape that fits, mask, iterations, convergence, coupling, targets, alpha); otherwise the settings are those of the input with the documented defaults.", "quantifier": "all attributes and directories", "why_tests_cant": "All combinations of attributes.", "anchors": ["src/ProgOCT.cpp: _InitParams"]}
{"id": "C246", "title": "Wrong input of the optimal control program ends with a message", "statement": "If the input of the optimal control program is refused or a wave function or operator is missing, the program ends with an error message.", "quantifier": "all inputs and failures", "why_tests_cant": "Destructors run on all paths of an exception.", "anchors": ["src/ProgOCT.cpp: ProgOCT::~ProgOCT, Run", "src/CmdHandler.cpp: CmdHandler::ExecNode"]}
{"id": "C247", "title": "Optimal control finds the lasers of the Hamiltonian", "statement": "The optimal control program optimises exactly the laser operators of the Hamiltonian that carry the label OptLaser, or all laser operators if none carries it, wherever they are in nested sums, products and matrices of operators. If there is no laser operator it stops with an error.", "quantifier": "all Hamiltonians of any nesting, all labels", "why_tests_cant": "All nestings of sums, products and matrices.", "anchors": ["src/ChainLoader.h: FindOperatorType", "src/ProgOCT.cpp: Run"]}
{"id": "C248", "title": "The coupling operator is the response of the Hamiltonian to the field", "statement": "If the lasers that are optimised have the field value e, the Hamiltonian is the one with zero field minus e times the coupling operator from which the optimal control program calculates the new field.", "quantifier": "all Hamiltonians of any nesting, all field values of the other lasers", "why_tests_cant": "All nestings and field values.", "anchors": ["src/ChainLoader.h: FindOperatorType", "src/ProgOCT.cpp: Run", "src/qdlib/OSum.cpp: ApplyParent", "src/qdlib/OProduct.cpp: ApplyParent", "src/qdlib/OMultistate.cpp: ApplyParent, Init"]}
{"id": "C249", "title": "Generated laser pulses are those of the handbook", "statement": "An operator with laser fields and the option gen has at each time step the field of the handbook: one Gaussian pulse for gauss, the sum of two for gauss2, with the default values of the handbook (center T/2, width T/8) for options that are missing, times the option scale.", "quantifier": "all options, numbers of steps, time steps, and steps of the clock", "why_tests_cant": "All numbers of steps; the default values depend on their divisibility.", "anchors": ["src/qdlib/OLaser.cpp: OLaser::Clock, OLaser::Init", "doc/Handbook.tex: Laser Fields"]}
{"id": "C250", "title": "Where a laser field comes from and which clocks it accepts", "statement": "An operator with one laser takes its field from the file in the option laser, otherwise generates it, otherwise fails; unknown pulse types and unusable files are errors. A generated field accepts any sequence of clocks and is always the one generated for the last clock. A field from a file accepts exactly the clocks with its time step and no more steps than it has values.", "quantifier": "all options, file contents, and sequences of clocks", "why_tests_cant": "All sequences of clocks; the clock is set by several parts of a program.", "anchors": ["src/qdlib/OLaser.cpp: OLaser::Init, OLaser::Clock", "src/qdlib/Laser.cpp: Laser::Clock, Laser::DeSerialize"]}
{"id": "C251", "title": "A generated field written to a file can be used instead", "statement": "A field that was generated and written with the option lasero is at each step the same field if it is read with the option laser by a run with the same clock and the same scale.", "quantifier": "all pulses, clocks and scales", "why_tests_cant": "All pulses and time steps.", "anchors": ["src/qdlib/OLaser.cpp: OLaser::Clock, OLaser::Init", "src/qdlib/Laser.cpp: Laser::Serialize, Laser::DeSerialize"]}
{"id": "C252", "title": "Copies of operators with a generated field", "statement": "A copy of an operator with a generated field accepts the same clocks as the original and has the same field then.", "quantifier": "all pulses and clocks, copies made before or after setting a clock", "why_tests_cant": "Depends on when the copy is made.", "anchors": ["src/qdlib/OLaser.cpp: OLaser::Clock", "src/qdlib/OGridDipole.cpp: OGridDipole::Copy", "src/qdlib/OMatDipole.cpp: OMatDipole::Copy"]}
{"id": "C253", "title": "The power spectrum of a laser stays inside its arrays", "statement": "Calculating the power spectrum of a laser field with an accepted clock accesses only elements that exist.", "quantifier": "all sizes of fields and numbers of steps", "why_tests_cant": "All numbers of steps.", "anchors": ["src/qdlib/Laser.cpp: Laser::PowerSpectrum, Laser::Spectrum"]}
{"id": "C254", "title": "Polarisation vectors are deleted once", "statement": "Whatever the order in which polarisation is switched on and off and the number of lasers is changed, the destructor and these calls delete each array of polarisation vectors at most once.", "quantifier": "all sequences of calls", "why_tests_cant": "All sequences of calls.", "anchors": ["src/qdlib/OLaser.cpp: OLaser::UsePol, OLaser::NumLaser, OLaser::~OLaser"]}
{"id": "C255", "title": "The operator in memory is the one the input describes", "statement": "Loading an operator from the input succeeds exactly if the input describes one: all modules exist and accept their attributes, references name operators that were given before, keys are new, lists, sums on grids and matrices have parts that fit. The operator then has the described parts at the described places, down to the single operators.", "quantifier": "all inputs, of any depth and number of parts, all modules, and all operators loaded before", "why_tests_cant": "Inputs are trees of any depth; references connect parts of several inputs.", "anchors": ["src/ChainLoader.cpp: ChainLoader::LoadOperatorChain", "src/GlobalOpList.cpp: GlobalOpList::Add, GlobalOpList::operator[]", "src/qdlib/OGridSum.cpp: OGridSum::Add", "src/qdlib/OMultistate.cpp: OMultistate::Add", "src/qdlib/OList.cpp: OList::Add"]}
{"id": "C256", "title": "Elements of matrices are where their names say", "statement": "An element m<row>.<col> of a matrix of operators is loaded into this row and column; other names are refused. No place is used twice, and the number of states is the given one or the smallest that is enough.", "quantifier": "all names, rows, columns and matrices", "why_tests_cant": "All numbers.", "anchors": ["src/ChainLoader.cpp: ChainLoader::LoadOperatorChain", "src/qdlib/OMultistate.cpp: OMultistate::Add", "doc/Handbook.tex: Multiple electronic states"]}
{"id": "C257", "title": "Operators are shared, without cycles, and keep their keys", "statement": "A reference gives the very operator that was given under the key, not a copy. Whatever is loaded afterwards, with or without errors, the operator and its key stay as they are. No operator is a part of itself, and each operator has one key at most.", "quantifier": "all sequences of inputs, accepted or refused", "why_tests_cant": "All sequences of inputs.", "anchors": ["src/ChainLoader.cpp: ChainLoader::LoadOperatorChain", "src/GlobalOpList.cpp: GlobalOpList::Add, GlobalOpList::operator[]"]}
{"id": "C258", "title": "An input of an operator that cannot be used ends in an error message", "statement": "Loading an operator ends with an operator or with an exception that the program reports.", "quantifier": "all inputs and all operators loaded before", "why_tests_cant": "All inputs.", "anchors": ["src/ChainLoader.cpp: ChainLoader::LoadOperatorChain", "src/tools/XmlNode.cpp: XmlNode::NextChild, XmlNode::AdjustElementNode", "src/qdlib/OGridSum.cpp: OGridSum::Add", "src/qdlib/OLaser.cpp: OLaser::Clock"]}
{"id": "C259", "title": "The default diagonal of matrices", "statement": "Missing diagonal elements of a matrix of operators count as the handbook and the log say: as given in the attribute unity, as zero if it is missing.", "quantifier": "all matrices", "why_tests_cant": "The log is written by another function than the one that reads the attribute.", "anchors": ["src/ChainLoader.cpp: ChainLoader::LoadOperatorChain", "src/qdlib/OMultistate.cpp: OMultistate::Init", "doc/Handbook.tex: Multiple electronic states"]}
{"id": "C260", "title": "Labels", "statement": "An operator carries exactly the label given with it in the input.", "quantifier": "all inputs and states", "why_tests_cant": "All sequences of inputs.", "anchors": ["src/ChainLoader.cpp: ChainLoader::LoadOperatorChain", "src/GlobalOpList.cpp: GlobalOpList::SetLabel, GlobalOpList::CheckLabel"]}
{"id": "C261", "title": "The chain rule does not change the kinetic energy", "statement": "The kinetic energy with a G-matrix is the same operator with and without the chain rule: -1/2 times the sum of d_j G_ij d_i. With the chain rule the derivatives of the elements are taken by finite differences of the given order.", "quantifier": "all grids, all G-matrices, all orders, all wave functions", "why_tests_cant": "All grids, elements, orders and wave functions; tests compare numbers on one grid.", "anchors": ["src/qdlib/OGridGMat.cpp: OGridGMat::Init, OGridGMat::ApplyAdd, OGridGMat::Apply", "src/qdlib/HOFD.h: HOFD::Diff", "doc/Handbook.tex: Kinetic Energy in the G-Matrix Represenation"]}
{"id": "C262", "title": "Chain rule and absorbing layers exclude each other", "statement": "Asking for the chain rule together with absorbing layers is refused.", "quantifier": "all sequences of set-ups", "why_tests_cant": "The check exists but depends on the order of statements over several calls.", "anchors": ["src/qdlib/OGridGMat.cpp: OGridGMat::Init, OGridGMat::ApplyAdd, OGridGMat::Apply", "src/qdlib/PML.cpp: PML::ApplyTransform"]}
{"id": "C263", "title": "Constant elements of the G-matrix as numbers or as functions", "statement": "An element of the G-matrix that is given as a number has the same effect as a function on the grid with this value.", "quantifier": "all grids, matrices, layers and wave functions", "why_tests_cant": "All matrices and wave functions.", "anchors": ["src/qdlib/OGridGMat.cpp: OGridGMat::Init, OGridGMat::ApplyAdd, OGridGMat::Apply", "src/qdlib/PML.cpp: PML::ApplyTransform", "doc/Handbook.tex: Kinetic Energy in the G-Matrix Represenation"]}
{"id": "C264", "title": "Copies of the kinetic energy with a G-matrix", "statement": "A copy of a kinetic energy operator with a G-matrix acts like the original.", "quantifier": "all numbers of dimensions, original initialised or not, any number of initialisations of the copy", "why_tests_cant": "All states of both objects.", "anchors": ["src/qdlib/OGridGMat.cpp: OGridGMat::Copy, OGridGMat::Init, OGridGMat::ApplyAdd"]}
{"id": "C265", "title": "Accuracy of a step of the Chebychev propagator", "statement": "One step of the Chebychev propagator gives the solution of the time dependent Schrödinger equation one time step later (earlier for propagation backward), with an error that is bounded by the energy range, the time step and the number of terms, and goes to zero with the number of terms.", "quantifier": "all Hermitian Hamiltonians in a space of finite dimension with energies between the bounds, all time steps, directions, wave functions and numbers of terms", "why_tests_cant": "A limit process over all Hamiltonians and time steps; tests compare with one analytic solution.", "anchors": ["src/qdlib/OCheby.cpp: OCheby::Init, OCheby::Apply, OCheby::real_time_step", "src/linalg/Bessel.cpp: BesselJ0", "src/qdlib/OPropagator.h: OPropagator::Forward, OPropagator::Backward"]}
{"id": "C266", "title": "The number of terms chosen by the Chebychev propagator", "statement": "Without a number of terms in the input the propagator uses enough terms for an error of a step below 1e-10.", "quantifier": "all Hamiltonians, energy ranges, time steps, directions and wave functions", "why_tests_cant": "All energy ranges and time steps.", "anchors": ["src/qdlib/OCheby.cpp: OCheby::Init, OCheby::Apply, OCheby::real_time_step", "src/linalg/Bessel.cpp: BesselJ0", "src/qdlib/OPropagator.h: OPropagator::Forward, OPropagator::Backward"]}
{"id": "C267", "title": "The precision of the Chebychev propagator", "statement": "If the propagator stops before the last term because the norm agrees to the given precision, the wave function is correct to that precision.", "quantifier": "all Hamiltonians, wave functions and precisions", "why_tests_cant": "For all wave functions; a test finds only the usual ones.", "anchors": ["src/qdlib/OCheby.cpp: OCheby::Init, OCheby::Apply, OCheby::real_time_step", "src/linalg/Bessel.cpp: BesselJ0", "src/qdlib/OPropagator.h: OPropagator::Forward, OPropagator::Backward"]}
{"id": "C268", "title": "Imaginary time steps of the Chebychev propagator", "statement": "One step in imaginary time gives the solution of d/dt psi = -H psi one time step later.", "quantifier": "all Hermitian Hamiltonians with energies between the bounds, all time steps, directions and wave functions", "why_tests_cant": "All Hamiltonians and wave functions; the result is usually normalised before it is compared.", "anchors": ["src/qdlib/OCheby.cpp: OCheby::Init, OCheby::Apply, OCheby::imag_time_step", "src/linalg/Bessel.cpp: BesselI0", "src/qdlib/OPropagator.h: OPropagator::ImaginaryTime"]}
{"id": "C269", "title": "Accuracy of the Runge-Kutta propagator", "statement": "One step of the Runge-Kutta propagator gives the solution of the time dependent Schrödinger equation one time step later (earlier for propagation backward) with an error of at most (W dt)^5/120 of the norm, W being the largest energy by size; over many steps the errors add up at most.", "quantifier": "all Hermitian Hamiltonians in a space of finite dimension, time steps, directions, wave functions and numbers of steps (for many steps: W dt at most the square root of eight)", "why_tests_cant": "All Hamiltonians and wave functions; tests compare with one analytic solution.", "anchors": ["src/qdlib/ORK4.cpp: ORK4::Apply", "src/qdlib/OPropagator.h: OPropagator::Forward, OPropagator::Backward, OPropagator::Exponent"]}
{"id": "C270", "title": "The norm under the Runge-Kutta propagator", "statement": "Propagation with the Runge-Kutta propagator in real time conserves the norm, at least does not increase it.", "quantifier": "all Hermitian Hamiltonians, time steps and wave functions", "why_tests_cant": "All time steps and Hamiltonians.", "anchors": ["src/qdlib/ORK4.cpp: ORK4::Apply", "src/qdlib/OPropagator.h: OPropagator::Forward, OPropagator::Backward, OPropagator::Exponent"]}
{"id": "C271", "title": "Accuracy of the split operator propagator", "statement": "One step of the split operator propagator gives the solution of the Schrödinger equation on the grid with the kinetic plus the potential energy one time step later, with an error of at most a third of (dt (Tmax + Vmax))^3 of the norm; over many steps the errors add up at most.", "quantifier": "all grids, numbers of dimensions, masses, potentials, time steps of both signs, wave functions and numbers of steps", "why_tests_cant": "All grids and potentials; the propagator is exact for no interesting case.", "anchors": ["src/qdlib/OSPO.cpp: OSPO::Init, OSPO::_InitT, OSPO::_InitV, OSPO::Apply"]}
{"id": "C272", "title": "Many steps of the Chebychev propagator", "statement": "A run of n steps of the Chebychev propagator with the criterion on the norm switched off gives the solution of the Schrödinger equation at the end of the run with an error of at most (1 + e)^n - 1 of the norm, e being the bound for one step.", "quantifier": "all Hermitian Hamiltonians with energies between the bounds, time steps, directions, wave functions, numbers of terms and of steps", "why_tests_cant": "All Hamiltonians and lengths of runs.", "anchors": ["src/qdlib/OCheby.cpp: OCheby::Init, OCheby::Apply, OCheby::real_time_step"]}
{"id": "C273", "title": "Accuracy of the Lanczos propagator", "statement": "One step of the SIL propagator that is not ended by its error estimate gives the solution of the time dependent Schrödinger equation a time step dt later with an error of at most 2 (W dt)^order / order! for a normalised wave function, W being the largest energy by size; over many steps the errors add up at most.", "quantifier": "all Hermitian Hamiltonians in a space of finite dimension, orders of at least three, time steps of both signs, normalised wave functions, buffer contents, numbers of steps and correct tridiagonal solvers", "why_tests_cant": "All Hamiltonians and orders; tests compare with a reference at one setting and a tolerance.", "anchors": ["src/qdlib/OSIL.cpp: OSIL::BuildLZB, OSIL::DiagLZB, OSIL::Apply", "src/qdlib/OPropagator.h: OPropagator::Forward, OPropagator::Backward, OPropagator::Exponent", "src/linalg/LapackDiag.cpp: LAPACK::TriDiagHermitian"]}
{"id": "C274", "title": "Accuracy of the Arnoldi propagator", "statement": "One step of the Arnoldi propagator with a Hermitian Hamiltonian gives the solution of the time dependent Schrödinger equation a time step dt later with an error of at most 2 (W dt)^n / n! for a normalised wave function, n being the number of terms at which the expansion ends; without the error estimate n is the requested order or the error is at most dt times the underrun limit. Over many steps the errors add up at most.", "quantifier": "all Hermitian Hamiltonians in a space of finite dimension, orders of at least three, limits, time steps of both signs, normalised wave functions that are not eigenfunctions (up to the underrun limit), buffer contents, numbers of steps and correct eigenvalue solvers", "why_tests_cant": "All Hamiltonians and orders; tests compare with a reference at one setting and a tolerance.", "anchors": ["src/qdlib/OArnoldi.cpp: OArnoldi::BuildLZB, OArnoldi::DiagLZB, OArnoldi::Propagate, OArnoldi::Apply", "src/linalg/LapackDiag.cpp: LAPACK::DiagHessenberg, LAPACK::InvertGeneral"]}
{"id": "C275", "title": "A driven Hamiltonian follows the clock of the propagator", "statement": "After a propagator was given a Hamiltonian, a clock and a wave function, every step uses the laser fields at the time step the clock shows at that moment.", "quantifier": "all sums and matrices of operators with and without lasers, fields from files and generated pulses, clocks, moments, and the propagators Chebychev, Lanczos, Arnoldi and Runge-Kutta", "why_tests_cant": "All shapes of Hamiltonians and all moments; tests use one laser and one propagator.", "anchors": ["src/qdlib/OPropagator.h: OPropagator::Clock, OPropagator::Init, OPropagator::Copy", "src/qdlib/OList.cpp: OList::Clock, OList::Init, OList::Copy, OList::Get", "src/qdlib/OCheby.cpp: OCheby::Init, OCheby::Copy", "src/qdlib/OSIL.cpp: OSIL::Init, OSIL::Copy", "src/qdlib/OArnoldi.cpp: OArnoldi::Init, OArnoldi::Copy", "src/qdlib/ORK4.cpp: ORK4::Init, ORK4::Copy", "src/qdlib/OLaser.cpp: OLaser::Clock", "src/qdlib/Laser.cpp: Laser::Clock, Laser::Get", "src/qdlib/OMultistate.cpp: OMultistate::Clock", "src/ProgPropa.cpp: ProgPropa::Run"]}
{"id": "C276", "title": "Copies of propagators", "statement": "A copy of a propagator that was set up makes the same steps as the original, directly or after it was given a clock and a wave function.", "quantifier": "all Hamiltonians, all histories of clocks, directions and set-ups after the copy", "why_tests_cant": "All histories of the copy.", "anchors": ["src/qdlib/OPropagator.h: OPropagator::Clock, OPropagator::Init, OPropagator::Copy", "src/qdlib/OList.cpp: OList::Clock, OList::Init, OList::Copy, OList::Get", "src/qdlib/OCheby.cpp: OCheby::Init, OCheby::Copy", "src/qdlib/OSIL.cpp: OSIL::Init, OSIL::Copy", "src/qdlib/OArnoldi.cpp: OArnoldi::Init, OArnoldi::Copy", "src/qdlib/ORK4.cpp: ORK4::Init, ORK4::Copy"]}
{"id": "C277", "title": "Another clock for a propagator", "statement": "A propagator that was set up, is given another clock and is set up again, makes the steps of one that was set up with the second clock from the start.", "quantifier": "all Hamiltonians, pairs of clocks, propagators Chebychev, Lanczos, Arnoldi and Runge-Kutta", "why_tests_cant": "All pairs of clocks and all Hamiltonians.", "anchors": ["src/qdlib/OPropagator.h: OPropagator::Clock, OPropagator::Init, OPropagator::Copy", "src/qdlib/OList.cpp: OList::Clock, OList::Init, OList::Copy, OList::Get", "src/qdlib/OCheby.cpp: OCheby::Init, OCheby::Copy", "src/qdlib/OSIL.cpp: OSIL::Init, OSIL::Copy", "src/qdlib/OArnoldi.cpp: OArnoldi::Init, OArnoldi::Copy", "src/qdlib/ORK4.cpp: ORK4::Init, ORK4::Copy"]}
{"id": "C278", "title": "What a propagator refuses when it is set up", "statement": "A missing Hamiltonian, clock, time step or wave function, a Hamiltonian that is not hermitian for the Lanczos propagator, lasers that do not fit the clock and an order that is too small are reported, and reported again if the set-up is repeated.", "quantifier": "all states of the propagators, Hamiltonians, clocks and wave functions", "why_tests_cant": "All failing configurations and repeated calls.", "anchors": ["src/qdlib/OPropagator.h: OPropagator::Clock, OPropagator::Init, OPropagator::Copy", "src/qdlib/OList.cpp: OList::Clock, OList::Init, OList::Copy, OList::Get", "src/qdlib/OCheby.cpp: OCheby::Init, OCheby::Copy", "src/qdlib/OSIL.cpp: OSIL::Init, OSIL::Copy", "src/qdlib/OArnoldi.cpp: OArnoldi::Init, OArnoldi::Copy", "src/qdlib/ORK4.cpp: ORK4::Init, ORK4::Copy"]}
{"id": "C279", "title": "Functions and energies of the Lanczos method", "statement": "The calculation of eigenfunctions with the method lanczos ends with an exception just if there is no Arnoldi propagator of order three or more. Otherwise every function written is normalised and built from the initial wave function and its images under the Hamiltonian, its energy is the (real part of the) expectation value and what is missing to an eigenfunction is orthogonal to the space searched. For a Hermitian Hamiltonian the functions are orthonormal, span the space searched, the Hamiltonian is diagonal between them and no energy occurs twice.", "quantifier": "all Hamiltonians, initial wave functions, orders, thresholds, time steps and contents of the buffers", "why_tests_cant": "All Hamiltonians and initial wave functions; tests know the levels of one system.", "anchors": ["src/ProgEigen.cpp: ProgEigen::LanczosEF, ProgEigen::Run", "src/qdlib/OArnoldi.cpp: OArnoldi::BuildLZB, OArnoldi::DiagLZB", "src/qdlib/OArnoldi.h: OArnoldi::Basis, OArnoldi::Evals, OArnoldi::Evecs, OArnoldi::Size", "src/linalg/LapackDiag.cpp: LAPACK::DiagHessenberg"]}
{"id": "C280", "title": "The energies of the Lanczos method are variational", "statement": "If the initial wave function is not an eigenfunction, all energies lie between the lowest and the highest energy of the Hamiltonian; for a Hermitian Hamiltonian no wave function of the space searched has an energy below the lowest or above the highest one found, in particular the lowest energy is not above the energy of the initial wave function.", "quantifier": "all Hamiltonians with bounds, initial wave functions that are not eigenfunctions within 1e-11, orders, thresholds, time steps", "why_tests_cant": "All wave functions of the space.", "anchors": ["src/ProgEigen.cpp: ProgEigen::LanczosEF, ProgEigen::Run", "src/qdlib/OArnoldi.cpp: OArnoldi::BuildLZB, OArnoldi::DiagLZB", "src/qdlib/OArnoldi.h: OArnoldi::Basis, OArnoldi::Evals, OArnoldi::Evecs, OArnoldi::Size", "src/linalg/LapackDiag.cpp: LAPACK::DiagHessenberg"]}
{"id": "C281", "title": "The energies of the Lanczos method are eigenvalues up to the residual", "statement": "For a Hermitian Hamiltonian and an initial wave function that is not an eigenfunction there is an eigenvalue within the norm of the residual of each energy. Without the error estimate (conv 0) and with fewer functions than the order this is at most 1e-11. If the Hamiltonian does not lead out of the space searched the functions are eigenfunctions, and every level that overlaps with the initial wave function is found.", "quantifier": "all Hermitian Hamiltonians (finite dimension for the distance to the levels), initial wave functions that are not eigenfunctions within 1e-11, orders, thresholds, time steps", "why_tests_cant": "All Hamiltonians; error bounds cannot be measured without the exact levels.", "anchors": ["src/ProgEigen.cpp: ProgEigen::LanczosEF, ProgEigen::Run", "src/qdlib/OArnoldi.cpp: OArnoldi::BuildLZB, OArnoldi::DiagLZB", "src/qdlib/OArnoldi.h: OArnoldi::Basis, OArnoldi::Evals, OArnoldi::Evecs, OArnoldi::Size", "src/linalg/LapackDiag.cpp: LAPACK::DiagHessenberg"]}
{"id": "C282", "title": "The option diag after the Lanczos method", "statement": "With the option diag after the method lanczos the energies come in strictly ascending order; they are the energies found before and the functions written are those found before, up to the sign.", "quantifier": "all Hermitian Hamiltonians, initial wave functions that are not eigenfunctions within 1e-11, orders, thresholds, time steps, answers of the diagonalization routine within its contract", "why_tests_cant": "All orders in which the eigenvalues of the small matrix may come.", "anchors": ["src/ProgEigen.cpp: ProgEigen::LanczosEF, ProgEigen::Run", "src/qdlib/OArnoldi.cpp: OArnoldi::BuildLZB, OArnoldi::DiagLZB", "src/qdlib/OArnoldi.h: OArnoldi::Basis, OArnoldi::Evals, OArnoldi::Evecs, OArnoldi::Size", "src/linalg/LapackDiag.cpp: LAPACK::DiagHessenberg", "src/ProgEigen.cpp: ProgEigen::DiagBasis"]}
{"id": "C283", "title": "Integers in a parameter container", "statement": "An integer that is stored in a parameter container is found again by a variable of any integer type that can hold it, whatever the container and the variable held before; the text stored is its decimal notation and no other entry changes.", "quantifier": "all containers, names, integers and integer types", "why_tests_cant": "Depends on the whole range of numbers including signs and limits.", "anchors": ["src/tools/ParamContainer.cpp: SetValue, GetValue (int, long, size_t, unsigned)"]}
{"id": "C284", "title": "Integers given in the input", "statement": "An entry of a parameter container that holds an integer in decimal notation gives this number; a missing entry is reported; an entry that is not an integer that the variable can hold is rejected.", "quantifier": "all texts, integer types and previous contents of the variable", "why_tests_cant": "The texts are unbounded.", "anchors": ["src/tools/ParamContainer.cpp: GetValue (int, long, size_t, unsigned)"]}
{"id": "C285", "title": "Arrays of numbers in a parameter container", "statement": "An array of integers or truth values that is stored is read back, behind what the receiving array held; an array written by the user gives one number for each element; a missing array is reported.", "quantifier": "all containers, names, arrays and receiving arrays", "why_tests_cant": "Arrays of any length.", "anchors": ["src/tools/ParamContainer.cpp: SetArray, GetArray (int, unsigned, size_t, bool, char)"]}
{"id": "C286", "title": "Parameter files", "statement": "Writing a container to a file reports success just if the file then holds the text; the file read by another container gives the same entries; a file that exists and can be read is read, a missing one is reported without a change.", "quantifier": "all containers, disks with any permissions and any room", "why_tests_cant": "Depends on permissions and on the room of the device.", "anchors": ["src/tools/ParamContainer.cpp: WriteToFile, ReadFromFile"]}
{"id": "C287", "title": "Parameters of a correlation function run", "statement": "The program uses the time step, the number of steps, the limit of intermediate steps, the write cycle and the directory of the input, with the documented defaults; a run with missing or meaningless values (zero or negative numbers, texts) is rejected.", "quantifier": "all sets of attributes and directories of the command line", "why_tests_cant": "Combinations of attributes and numbers are unbounded.", "anchors": ["src/ProgCfun.cpp: InitParams_"]}
{"id": "C288", "title": "Meta data of a correlation function", "statement": "The meta data of the file that a correlation function run writes describe its values: dim times with Nt values each, in all Nt^dim values, spaced by the time step times the write cycle.", "quantifier": "all inputs, operators and propagators for which the run ends", "why_tests_cant": "Depends on the whole run for every number of steps and write cycle.", "anchors": ["src/ProgCfun.cpp: CreateMetaData, RunC1, RunC2, Run"]}
{"id": "C289", "title": "File of a correlation function", "statement": "The correlation function is written to the file named by fname in the directory of the run; one- and two-point functions get different files.", "quantifier": "all inputs", "why_tests_cant": "All names.", "anchors": ["src/ProgCfun.cpp: InitParams_, RunC1, RunC2", "doc/Handbook.tex: option fname"]}
{"id": "C290", "title": "What a compressed wave function file loses", "statement": "A wave function on a grid that is written with compression and read back has lost only the plane wave parts below the tolerance times the largest amplitude; the error is bounded by the tolerance, tolerance zero loses nothing, and the norm does not grow.", "quantifier": "all grids, wave functions, tolerances, states of the Fourier library", "why_tests_cant": "The bound is for all data, and the loss depends on the state of an external planner.", "anchors": ["src/qdlib/WFGridSystem.cpp: WFGridSystem::Reduce, WFGridSystem::Restore, WFGridSystem::CheckFFT", "src/fft/fft.cpp: FFT::FFT", "src/fft/FFTGlobal.cpp: FFTGlobal::FFTGlobal", "src/qdlib/FileWF.cpp: FileWF::WriteWaveFunction, FileWF::ReadWaveFunction, FileWF::LoadWaveFunctionByMeta"]}
{"id": "C291", "title": "Writing a compressed file leaves the wave function alone", "statement": "Preparing a wave function for a compressed file does not change the wave function in memory.", "quantifier": "all wave functions, representations, tolerances", "why_tests_cant": "Only a proof covers all states of the object.", "anchors": ["src/qdlib/WFGridSystem.cpp: WFGridSystem::Reduce", "src/qdlib/WaveFunction.h: WaveFunction::Reduce, WaveFunction::IsKspace"]}
{"id": "C292", "title": "What a compressed level wave function loses", "statement": "A level wave function that is written with compression and read back has lost only real and imaginary parts whose modulus is below tolerance times norm over size.", "quantifier": "all level wave functions and tolerances", "why_tests_cant": "All vectors and tolerances.", "anchors": ["src/qdlib/WFLevel.cpp: WFLevel::Reduce, WFLevel::Restore"]}
{"id": "C293", "title": "Fourier transform over a grid of any dimension", "statement": "The transforms of a wave function are the discrete Fourier transforms over all grid points, for any number of dimensions, in the order in which wave functions are stored; each element is set, nothing outside is touched.", "quantifier": "all grids and data; library as documented", "why_tests_cant": "All numbers and sizes of dimensions.", "anchors": ["src/fft/fft.cpp: FFT::FFT, FFT::forward, FFT::backward", "src/qdlib/TransformFFT.cpp: TransformFFT::Forward, TransformFFT::Backward"]}
{"id": "C294", "title": "Fourier transform along one dimension", "statement": "The transforms along a dimension are the discrete Fourier transforms over the index of this dimension for each value of the other indices.", "quantifier": "all grids, dimensions, data; library as documented", "why_tests_cant": "All numbers and sizes of dimensions.", "anchors": ["src/fft/fft.cpp: FFT::_CreatePlanDim, FFT::_lothers, FFT::_uothers"]}
{"id": "C295", "title": "The first transform along a dimension keeps the data", "statement": "The first transform of a wave function along a dimension, which has to find a plan first, transforms the wave function as it was.", "quantifier": "all wave functions, origins of the transform, states of the library", "why_tests_cant": "The result depends on the planner and the history of the object.", "anchors": ["src/fft/fft.cpp: FFT::_CreatePlanDim, FFT::forward", "src/qdlib/WFGridSystem.cpp: WFGridSystem::CheckFFT, WFGridSystem::Restore"]}
{"id": "C296", "title": "The operator Scalar multiplies with its constant", "statement": "The operator Scalar multiplies a wave function with value + i im, in place and out of place, with the documented defaults one and zero.", "quantifier": "all parameters and wave functions", "why_tests_cant": "Defaults and texts that are no numbers; all wave functions.", "anchors": ["src/qdlib/OScalar.cpp: OScalar::Init, OScalar::Apply", "src/tools/ParamContainer.cpp: ParamContainer::GetValue", "doc/Handbook.tex: Scalar"]}
{"id": "C297", "title": "Matrix elements and validity of the operator Scalar", "statement": "The matrix element of the operator Scalar is its constant times the scalar product; wave functions of different size are refused; copies agree with the original.", "quantifier": "all operators, wave functions, orders of the calls", "why_tests_cant": "States before the first wave function is known.", "anchors": ["src/qdlib/OScalar.cpp: OScalar::MatrixElement, OScalar::Valid, OScalar::Copy, OScalar::Init"]}
{"id": "C298", "title": "Energy range of the operator Scalar", "statement": "The expectation value of the operator Scalar lies between the lowest and highest energy that it reports.", "quantifier": "all real constants and normalised wave functions", "why_tests_cant": "All constants; propagators scale with the reported range.", "anchors": ["src/qdlib/OScalar.h: OScalar::Emin, OScalar::Emax"]}
{"id": "C299", "title": "The operator Normalize", "statement": "The operator Normalize gives the positive multiple of the wave function that has the norm one, in place and out of place, and keeps normalised wave functions.", "quantifier": "all wave functions and weights of the scalar product", "why_tests_cant": "All wave functions, including zero.", "anchors": ["src/qdlib/ONormalize.h: ONormalize::Apply", "src/qdlib/WaveFunction.h: WaveFunction::Norm, WaveFunction::Normalize"]}
{"id": "C300", "title": "Mixed derivative by finite differences", "statement": "The mixed derivative along two dimensions by finite differences is, at each point of the grid, the difference stencil along the second dimension of the difference stencil along the first one, divided by both spacings and times the given factor; it touches nothing outside of the arrays.", "quantifier": "all grids with two dimensions, orders, wave functions, factors, previous contents of result and buffer", "why_tests_cant": "All grid sizes: the block sizes depend on the divisors of the number of points; a test on one size checks part of the rows.", "anchors": ["src/qdlib/HOFD.h: HOFD::Diff(res, buf, in, dim1, dim2), HOFD::_DiffBlock2D", "src/qdlib/Diff.cpp: Diff::DxDy"]}
{"id": "C301", "title": "Derivative along one dimension by finite differences with prefactors", "statement": "The difference operator stores (or adds) the finite difference derivative along the given dimension times the prefactor of this dimension and the given factor.", "quantifier": "all grids, dimensions, prefactors, factors, wave functions", "why_tests_cant": "All prefactors; with prefactor one the variants agree.", "anchors": ["src/qdlib/Diff.cpp: Diff::DnDxn(out, in, dim, d), Diff::DnDxnAdd, Diff::InitParams", "src/qdlib/HOFD.h: HOFD::SetFactor, HOFD::Diff"]}
{"id": "C302", "title": "Set-up of the difference operator", "statement": "The set-up succeeds exactly for a known method, a supported derivative and order, a grid, and one of its dimensions; afterwards the operator is prepared for the grid it was given.", "quantifier": "all parameters, grids, repeated set-ups", "why_tests_cant": "All parameter combinations and histories of the object.", "anchors": ["src/qdlib/Diff.cpp: Diff::InitParams, Diff::_InitKspace", "src/qdlib/HOFD.h: HOFD::_CheckSetup"]}
{"id": "C303", "title": "Arrays given to LAPACK are long enough", "statement": "Every diagonalization and the inversion give LAPACK arrays at least as long as its documentation demands for the sizes they pass, so nothing is written beyond an array.", "quantifier": "all matrix sizes, states of the memory pool, builds", "why_tests_cant": "An overrun of a work array is mostly not seen, since memory comes in blocks; it depends on size and build.", "anchors": ["src/linalg/LapackDiag.cpp: LAPACK::FullDiagHermitian (real and complex), LAPACK::TriDiagHermitian, LAPACK::DiagHessenberg, LAPACK::DiagGeneral, LAPACK::InvertGeneral", "src/linalg/LapackDiag.h", "src/tools/Memory.cpp: Memory::Align, Memory::Free"]}
{"id": "C304", "title": "Work memory of the linear algebra is given back", "statement": "After a diagonalization or an inversion the memory held by the program is the same as before, also when it is repeated in every time step or ends with an exception.", "quantifier": "all matrix sizes, states of the memory pool, memory limits, numbers of time steps", "why_tests_cant": "Needs the memory after arbitrarily many steps and all failing requests.", "anchors": ["src/linalg/LapackDiag.cpp: LAPACK::FullDiagHermitian (real and complex), LAPACK::TriDiagHermitian, LAPACK::DiagHessenberg, LAPACK::DiagGeneral, LAPACK::InvertGeneral", "src/linalg/LapackDiag.h", "src/tools/Memory.cpp: Memory::Align, Memory::Free", "src/qdlib/OArnoldi.cpp: OArnoldi::Propagate"]}
{"id": "C305", "title": "Return codes of the linear algebra", "statement": "A matrix that is not square or a strided vector of eigenvalues is refused with a code; otherwise the code returned is zero exactly if no step of the library reported a failure.", "quantifier": "all sizes, all answers of the library", "why_tests_cant": "Failures of the library cannot be provoked for all its steps.", "anchors": ["src/linalg/LapackDiag.cpp: LAPACK::FullDiagHermitian (real and complex), LAPACK::TriDiagHermitian, LAPACK::DiagHessenberg, LAPACK::DiagGeneral, LAPACK::InvertGeneral", "src/linalg/LapackDiag.h", "src/tools/Memory.cpp: Memory::Align, Memory::Free"]}
{"id": "C306", "title": "Energy bounds of a sum of grid operators", "statement": "The lower and upper energy bound of a sum of potentials enclose the sum of the potentials at every grid point, and each is a sum of values the potentials have. An empty sum is reported.", "quantifier": "all numbers of members up to the capacity, all grids with at least one point, all potentials", "why_tests_cant": "All values of all members have to be considered.", "anchors": ["src/qdlib/OGridSum.cpp: OGridSum::Emin, OGridSum::Emax", "src/qdlib/OGridPotential.cpp: OGridPotential::Emin, OGridPotential::Emax", "src/math/math_functions.cpp: VecMin, VecMax"]}
{"id": "C307", "title": "Which operators a sum on a grid takes", "statement": "Adding an operator to a sum on a grid succeeds exactly if it is no null pointer, has as many points as the first one and the sum has less than sixteen members; otherwise it is reported. Size and Get give back the operators taken in their order, and Get reports every number that is not that of a member.", "quantifier": "all sequences of operators, all numbers given to Get", "why_tests_cant": "All sequences of calls.", "anchors": ["src/qdlib/OGridSum.cpp: OGridSum::Add, OGridSum::Get, OGridSum::Size, OGridSum::OGridSum"]}
{"id": "C308", "title": "A sum on a grid refuses wave functions of other grids", "statement": "Setting up a sum with a wave function succeeds exactly if the sum is not empty and its members can be set up with this wave function.", "quantifier": "all sums built with Add, all wave functions", "why_tests_cant": "All pairs of grids.", "anchors": ["src/qdlib/OGridSum.cpp: OGridSum::Init", "src/qdlib/OGridPotential.cpp: OGridPotential::Init", "src/qdlib/GridSystem.cpp: GridSystem::operator =="]}
{"id": "C309", "title": "Copies and deletion of sums on a grid", "statement": "A copy of a sum answers as the original and can be used on after the original is deleted; deleting sums destroys each of their members and no other operator.", "quantifier": "all sums, all orders of adding, copying, deleting and creating operators", "why_tests_cant": "All histories, and the addresses the system gives to new operators.", "anchors": ["src/qdlib/OGridSum.cpp: OGridSum::Copy, OGridSum::~OGridSum", "src/tools/Collector.h: Delete, Register", "src/qdlib/Operator.h: operator new"]}
{"id": "C310", "title": "Grid of a potential set up from parameters", "statement": "A potential set up with the parameters of a grid has exactly this grid and one value per point; parameters that are missing, unreadable or describe a grid that cannot be used are reported.", "quantifier": "all parameters, all states of the potential before", "why_tests_cant": "All combinations of present, missing and unreadable parameters.", "anchors": ["src/qdlib/OGridPotential.cpp: OGridPotential::Init, OGridPotential::OGridPotential", "src/qdlib/GridSystem.cpp: GridSystem::Dim, GridSystem::Size", "src/tools/ParamContainer.cpp: GetValue"]}
{"id": "C311", "title": "Potential set up from a file", "statement": "A potential set up with the name of a file has the grid and the values in the file; files that are missing, too short or describe a grid that cannot be used are reported. This holds whatever other parameters are given and whatever set-ups failed before.", "quantifier": "all parameters, all files, all histories of set-ups", "why_tests_cant": "All combinations of parameters and files and all histories.", "anchors": ["src/qdlib/OGridPotential.cpp: OGridPotential::Init, OGridPotential::OGridPotential", "src/qdlib/GridSystem.cpp: GridSystem::Dim, GridSystem::Size", "src/tools/FileSingle.h: ReadSingleFileFromRaw, ReadDataFromRaw, InitDataStorage"]}
{"id": "C312", "title": "Set-up of the split operator propagator", "statement": "The split operator propagator can be set up exactly when it has at least one part, the parts are named A, B, C, ... (in whatever order they are given) and have a diagonal representation, there is a clock with a time step, and all parts accept the wave function. Then its parts are used in the order of the letters, its Hamiltonian is the sum of exactly these parts and follows the clock, and there is room for all exponentials. Everything else, also a missing wave function, is reported.", "quantifier": "all lists of parts, clocks and wave functions", "why_tests_cant": "All names, orders, missing parts and sizes.", "anchors": ["src/qdlib/OGSPO.cpp: OGSPO::Init, OGSPO::Valid, OGSPO::UpdateTime", "src/qdlib/OList.cpp: OList::Add, OList::Get, OList::Init", "src/qdlib/OPropagator.h: OPropagator::Init, OPropagator::Clock"]}
{"id": "C313", "title": "Repeated set-up of the split operator propagator", "statement": "Setting up a split operator propagator again does not change it and is no error; it reports an error as long as the reason of an earlier error persists or the wave function does not fit, and succeeds once the reason is removed.", "quantifier": "all lists of parts, clocks, wave functions and histories of calls", "why_tests_cant": "Histories of failing and repeated set-ups.", "anchors": ["src/qdlib/OGSPO.cpp: OGSPO::Init, OGSPO::Valid, OGSPO::UpdateTime", "src/qdlib/OList.cpp: OList::Add, OList::Get, OList::Init", "src/qdlib/OPropagator.h: OPropagator::Init, OPropagator::Clock"]}
{"id": "C314", "title": "Split operator propagator after a refused set-up", "statement": "Whatever set-ups were refused before, the propagator can be asked whether it accepts a wave function and can be told to go on in time; once set up it tells every part, each once.", "quantifier": "all lists of parts and histories of refused set-ups", "why_tests_cant": "Repeated failures are not tried by tests.", "anchors": ["src/qdlib/OGSPO.cpp: OGSPO::Init, OGSPO::Valid, OGSPO::UpdateTime", "src/qdlib/OList.cpp: OList::Add, OList::Get, OList::Init", "src/qdlib/OPropagator.h: OPropagator::Init, OPropagator::Clock"]}
{"id": "C315", "title": "Deleted operators are destroyed", "statement": "An operator made with new or NewInstance is destroyed by one DELETE_OP of it, once, and by nothing else; afterwards the registry does not know it any more.", "quantifier": "all histories of making and deleting operators, all addresses, all layouts of objects", "why_tests_cant": "All histories and addresses, and leaks and double frees are not observed by tests.", "anchors": ["src/qdlib/Operator.h: operator new, DELETE_OP", "src/qdlib/OHermitianMatrix.cpp: OHermitianMatrix::NewInstance", "src/tools/Collector.h: Register, Delete", "src/qdlib/ODSpace.h: ODSpaceT", "src/qdlib/OLaser.h: OLaser"]}
{"id": "C316", "title": "Scalar product of multistate wave functions", "statement": "The scalar product of multistate wave functions is the sum over all states of the products of the conjugated values of the left with the values of the right side; exchanged it is the complex conjugate, with itself it is real and positive unless all values are zero. Wave functions of other kinds, sizes or numbers of states are refused.", "quantifier": "all multistate wave functions with level wave functions as states", "why_tests_cant": "All numbers of states, sizes and values.", "anchors": ["src/qdlib/WFMultistate.cpp: WFMultistate::operator*, WFMultistate::operator=", "src/qdlib/WFLevel.cpp: WFLevel::operator*, WFLevel::operator="]}
{"id": "C317", "title": "Assignment of multistate wave functions", "statement": "After an assignment a multistate wave function has the states and parameters of the right side; wave functions of other kinds or with another number of states, and missing ones, are refused without a change.", "quantifier": "all multistate wave functions with level wave functions as states", "why_tests_cant": "All numbers of states and values.", "anchors": ["src/qdlib/WFMultistate.cpp: WFMultistate::operator*, WFMultistate::operator=", "src/qdlib/WFLevel.cpp: WFLevel::operator*, WFLevel::operator="]}
{"id": "C318", "title": "Files of wave function buffers", "statement": "Different wave functions that are moved to disk, in one buffer or in two buffers with different random numbers, are never written to the same file.", "quantifier": "all random numbers of buffers and all positions in them", "why_tests_cant": "The numbers are random; a clash needs particular pairs of random numbers and many wave functions on disk.", "anchors": ["src/qdlib/WFBuffer.cpp: WFBuffer::WFBuffer, WFBuffer::_GetFileName", "src/qdlib/WFBuffer.h: DEFAULT_BUFFER_NAME"]}
{"id": "C319", "title": "Directory of the files of wave function buffers", "statement": "The files of wave function buffers are in the directory given by the parameter tmpdir; if it is not given in the one of the environment variable TMPDIR; if neither is given, or the one that counts is empty, in the current directory.", "quantifier": "all parameters, environments, random numbers and positions", "why_tests_cant": "All values of parameter and environment, and all file names.", "anchors": ["src/qdlib/WFBuffer.cpp: WFBuffer::WFBuffer, WFBuffer::_GetFileName", "src/qdlib/WFBuffer.h: DEFAULT_BUFFER_NAME"]}
{"id": "C320", "title": "Set-up of the non adiabatic coupling", "statement": "Setting up GridNAC with one to four dimensions reads for every dimension the coupling function from the file with the given name followed by the number of the dimension (in one dimension with a mass from the file with the name alone); sign and, in one dimension, mass are the given ones, otherwise one. Other numbers of dimensions, a missing file name and unreadable files are refused.", "quantifier": "all parameters, files and states of the operator", "why_tests_cant": "All combinations of parameters, files and earlier set-ups.", "anchors": ["src/qdlib/OGridNAC.cpp: OGridNAC::OGridNAC, OGridNAC::Init, OGridNAC::Apply", "src/qdlib/GridSystem.cpp: GridSystem::Dim"]}
{"id": "C321", "title": "Preparation of the non adiabatic coupling", "statement": "GridNAC accepts exactly the wave functions on the grid on which all coupling functions are given, and then works on this grid; applying it without a preparation is refused.", "quantifier": "all operators, wave functions and sequences of preparations", "why_tests_cant": "All grids, coupling functions and repeated preparations.", "anchors": ["src/qdlib/OGridNAC.cpp: OGridNAC::OGridNAC, OGridNAC::Init, OGridNAC::Apply", "src/qdlib/GridSystem.cpp: GridSystem::Dim"]}
{"id": "C322", "title": "Energy bounds of a sum of operators", "statement": "If Emin and Emax of all operators in a sum enclose the expectation values of these operators, Emin and Emax of the sum enclose the expectation values of the sum; they are the sums of the values of the operators. An empty sum is refused.", "quantifier": "all lists of operators, all wave functions", "why_tests_cant": "All numbers of operators, all operators and wave functions.", "anchors": ["src/qdlib/OSum.cpp: OSum::Emax, OSum::Emin, OSum::Apply"]}
{"id": "C323", "title": "Energy bounds of a product of operators", "statement": "If Emin and Emax of all operators in a product enclose the expectation values of these operators, Emin and Emax of the product enclose the expectation values of the product.", "quantifier": "all lists of operators, all wave functions", "why_tests_cant": "All numbers of operators, all operators and wave functions.", "anchors": ["src/qdlib/OProduct.cpp: OProduct::Emax, OProduct::Emin, OProduct::Apply"]}
{"id": "C324", "title": "Time of the elements of a multistate operator", "statement": "Setting the clock or updating the time of a multistate operator does so for every element of the matrix and for nothing else.", "quantifier": "all matrices, numbers of states, modes and preparations", "why_tests_cant": "All matrices; an element that is missed only shows in time dependent couplings.", "anchors": ["src/qdlib/OMultistate.cpp: OMultistate::UpdateTime, OMultistate::Clock, OMultistate::Init"]}
{"id": "C325", "title": "Operators on a grid survive serialisation", "statement": "Reading back a serialised operator on a grid, such as a potential, returns the same grid and the same values bit by bit, and leaves what follows in the stream.", "quantifier": "all grids with at least one dimension and fewer than 2^31 points, all values, anything behind the operator", "why_tests_cant": "All grids and all bit patterns.", "anchors": ["src/qdlib/OGridsystem.cpp: OGridSystem::Serialize, OGridSystem::DeSerialize"]}
{"id": "C326", "title": "Damaged operator files are refused", "statement": "Reading an operator on a grid from a stream whose header can not be parsed, whose data is incomplete, or whose data is not of the size that belongs to real values on the grid, is refused with an error.", "quantifier": "all streams", "why_tests_cant": "All ways in which a file can be cut or exchanged.", "anchors": ["src/qdlib/OGridsystem.cpp: OGridSystem::Serialize, OGridSystem::DeSerialize"]}
{"id": "C327", "title": "Energy bounds of the Raman operator", "statement": "At every point of the grid and every time step the energy of the Raman operator, minus one half of the polarisability times both fields, is between its lower and its upper energy bound.", "quantifier": "all polarisabilities and laser fields", "why_tests_cant": "All grids, fields and time steps.", "anchors": ["src/qdlib/OGridRaman.cpp: OGridRaman::Emax, OGridRaman::Emin, OGridRaman::Apply", "src/math/math_functions.cpp: VecMax"]}
{"id": "C328", "title": "Seeds of the quantum jump operator", "statement": "Different seeds of the quantum jump operator give different sequences of random numbers; negative seeds are refused.", "quantifier": "all seeds", "why_tests_cant": "All seeds; a sample shows no collision.", "anchors": ["src/qdlib/OJump.cpp: OJump::Init"]}

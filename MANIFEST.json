{
 "claims": [
  {
   "property": "C01",
   "status": "proved",
   "theorems": [
    "QDng.Params.C01_lookup",
    "QDng.Params.C01_iteration"
   ],
   "note": "For every history of calls (tree of constructors, setters, merges, assignments, clears, parsed lines)."
  },
  {
   "property": "C02",
   "status": "partial",
   "theorems": [
    "QDng.Params.C02_untyped_roundtrip",
    "QDng.Params.C02_typed_roundtrip_partial",
    "QDng.Params.C02_violated"
   ],
   "note": "Untyped text form: full round trip for all representable containers. Typed form: holds exactly when every typed key is as long as its type name; otherwise reading throws (defect in Parse), shown by a witness."
  },
  {
   "property": "C03",
   "status": "proved",
   "theorems": [
    "QDng.Params.C03_merge_value",
    "QDng.Params.C03_merge_algebra"
   ],
   "note": ""
  },
  {
   "property": "C04",
   "status": "proved",
   "theorems": [
    "QDng.Params.C04_array_roundtrip",
    "QDng.Params.C04_array_read",
    "QDng.Params.C04_empty_array"
   ],
   "note": "Elements are modelled as their printed text."
  },
  {
   "property": "C05",
   "status": "partial",
   "theorems": [
    "QDng.Params.C05_terminates_partial",
    "QDng.Params.C05_violated",
    "QDng.Params.C05_violated_witness"
   ],
   "note": "Terminates for all texts whose lines fit the 2048 byte buffer; with a longer line the loop never ends (defect)."
  },
  {
   "property": "C06",
   "status": "proved",
   "theorems": [
    "QDng.Memory.C06_accounting",
    "QDng.Memory.C06_step",
    "QDng.Memory.C06_disjoint"
   ],
   "note": "All histories of Align/Free/Cleanup/Reconfigure by clients that free only what they own."
  },
  {
   "property": "C07",
   "status": "partial",
   "theorems": [
    "QDng.Memory.C07_fresh_partial",
    "QDng.Memory.C07_backed",
    "QDng.Memory.C07_violated"
   ],
   "note": "Proved for clients that do not free a block twice; with a double free the next two allocations alias (C07_violated)."
  },
  {
   "property": "C08",
   "status": "partial",
   "theorems": [
    "QDng.Memory.C08_limit_partial",
    "QDng.Memory.C08_violated"
   ],
   "note": "The limit holds if it is a multiple of the block size; otherwise it can be exceeded and the next check wraps around (C08_violated)."
  },
  {
   "property": "C09",
   "status": "proved",
   "theorems": [
    "QDng.Memory.C09_cleanup"
   ],
   "note": "All reachable states."
  },
  {
   "property": "C10",
   "status": "partial",
   "theorems": [
    "QDng.Memory.C10_size_partial",
    "QDng.Memory.C10_rejects",
    "QDng.Memory.C10_violated"
   ],
   "note": "Values whose product fits 64 bit; empty strings, unit-only strings and overflowing products violate the claim."
  },
  {
   "property": "C11",
   "status": "proved",
   "theorems": [
    "QDng.Collector.C11_refcount",
    "QDng.Collector.C11_delete_unregistered"
   ],
   "note": "All histories of Register/Delete/Delete-all."
  },
  {
   "property": "C12",
   "status": "partial",
   "theorems": [
    "QDng.Serial.C12_roundtrip",
    "QDng.Serial.C12_size",
    "QDng.Serial.C12_reject_partial",
    "QDng.Serial.C12_violated",
    "QDng.Serial.C12_truncated"
   ],
   "note": "Round trip and size proved for all vectors below 2^31 elements. Rejection of inconsistent input fails for counts of 2^60 and more (wrap around) and a count of 2^32+1 overflows the buffer; truncated input is not rejected but leaves indeterminate contents."
  },
  {
   "property": "C13",
   "status": "proved",
   "theorems": [
    "QDng.Serial.C13_roundtrip"
   ],
   "note": ""
  },
  {
   "property": "C14",
   "status": "partial",
   "theorems": [
    "QDng.Serial.C14_roundtrip",
    "QDng.Serial.C14_reject",
    "QDng.Serial.C14_violated_empty"
   ],
   "note": "Round trip for fields with samples; an empty field writes nothing and reading back evaluates an uninitialised size."
  },
  {
   "property": "C15",
   "status": "partial",
   "theorems": [
    "QDng.Stream.C15_roundtrip",
    "QDng.Stream.C15_magic_partial",
    "QDng.Stream.C15_version",
    "QDng.Stream.C15_truncated",
    "QDng.Stream.C15_terminates",
    "QDng.Stream.C15_violated_magic",
    "QDng.Stream.C15_violated_truncated"
   ],
   "note": "Round trip for all object lists with and without compression; termination on every input. Rejection is partial: a file without zero byte in the first 16 bytes is read out of bounds, truncated data yields an object with indeterminate contents."
  },
  {
   "property": "C16",
   "status": "partial",
   "theorems": [
    "QDng.Stream.C16_roundtrip",
    "QDng.Stream.C16_sequence",
    "QDng.Stream.C16_levels",
    "QDng.Stream.C16_empty",
    "QDng.Stream.C16_violated_nested"
   ],
   "note": "Flat multi states with 1 to 63 states, followed by anything. Nested multi states are not read back (violated). zlib and the single state classes are parameters, level wave functions a concrete instance."
  },
  {
   "property": "C17",
   "status": "proved",
   "theorems": [
    "QDng.FileSeq.C17_names",
    "QDng.FileSeq.C17_roundtrip",
    "QDng.FileSeq.C17_reverse",
    "QDng.FileSeq.C17_seek",
    "QDng.FileSeq.C17_increment_zero"
   ],
   "note": "Increment not zero; overflow of the int counter is not modelled."
  },
  {
   "property": "C18",
   "status": "proved",
   "theorems": [
    "QDng.Serial.C18_roundtrip",
    "QDng.Serial.C18_size",
    "QDng.Serial.C18_bytes"
   ],
   "note": ""
  },
  {
   "property": "C19",
   "status": "proved",
   "theorems": [
    "QDng.Grid.C19_address",
    "QDng.Grid.C19_counts",
    "QDng.Grid.C19_bijection",
    "QDng.Grid.C19_walk"
   ],
   "note": "every shape and active dimension"
  },
  {
   "property": "C20",
   "status": "partial",
   "theorems": [
    "QDng.Grid.C20_partial",
    "QDng.Grid.C20_violated_returns",
    "QDng.Grid.C20_violated_bounds"
   ],
   "note": "holds for any sequence of statements that activates each dimension once; returning to a dimension that was active before uses the line count of another dimension: points are left out or the address table is read out of bounds (violated, proved)"
  },
  {
   "property": "C21",
   "status": "partial",
   "theorems": [
    "QDng.Linalg.C21_init",
    "QDng.Linalg.C21_elements",
    "QDng.Linalg.C21_covers",
    "QDng.Linalg.C21_bounds",
    "QDng.Linalg.C21_violated_remainder",
    "QDng.Linalg.C21_scale_fill",
    "QDng.Linalg.C21_stride_copy",
    "QDng.Linalg.C21_violated_stride_copy"
   ],
   "note": "proved when the number of strides divides the size; otherwise elements outside of the storage are addressed (violated, proved), and StrideCopy accepts a stride number equal to the number of strides"
  },
  {
   "property": "C22",
   "status": "proved",
   "theorems": [
    "QDng.Grid.C22_first",
    "QDng.Grid.C22_second",
    "QDng.Grid.C22_kinetic",
    "QDng.Grid.C22_opposite"
   ],
   "note": "exact arithmetic in a field of characteristic zero"
  },
  {
   "property": "C23",
   "status": "partial",
   "theorems": [
    "QDng.Linalg.C23_square_partial",
    "QDng.Linalg.C23_size_mismatch",
    "QDng.Linalg.C23_violated_shape",
    "QDng.Linalg.C23_violated_bounds",
    "QDng.Linalg.C23_violated_transpose"
   ],
   "note": "square matrices proved; other shapes leave elements unset or leave the storage (violated, proved)"
  },
  {
   "property": "C24",
   "status": "partial",
   "theorems": [
    "QDng.Ops.C24_default",
    "QDng.Ops.C24_sum",
    "QDng.Ops.C24_product",
    "QDng.Ops.C24_empty_sum",
    "QDng.Ops.C24_scalar",
    "QDng.Ops.C24_violated_empty_product",
    "QDng.Ops.C24_violated_parent"
   ],
   "note": "Sums and products with at least one entry act as sum and composition in all variants (in place, out of place, accumulating), for every list and with scratch objects modelled. False for empty products (in place: identity, else undefined) and for ApplyParent of products."
  },
  {
   "property": "C25",
   "status": "partial",
   "theorems": [
    "QDng.Ops.C25_answers",
    "QDng.Ops.C25_rejects",
    "QDng.Ops.C25_copy_partial",
    "QDng.Ops.C25_violated_copy",
    "QDng.Ops.C25_violated_negative"
   ],
   "note": "All call sequences are covered by induction. Copies lose names (violated); negative indices are not rejected (violated)."
  },
  {
   "property": "C26",
   "status": "partial",
   "theorems": [
    "QDng.Ops.C26_single_partial",
    "QDng.Ops.C26_violated",
    "QDng.Ops.C26_rejects"
   ],
   "note": "Holds for one member only; every sum with two or more members reads behind its members (violated)."
  },
  {
   "property": "C27",
   "status": "partial",
   "theorems": [
    "QDng.Multi.C27_block_matrix_partial",
    "QDng.Multi.C27_violated_64",
    "QDng.Multi.C27_init_rejects"
   ],
   "note": "Block matrix action for all patterns of blocks and all process numbers. Missing: 64 states without hermitian completion, where Init leaves the matrix (violated)."
  },
  {
   "property": "C28",
   "status": "partial",
   "theorems": [
    "QDng.Multi.C28_too_large",
    "QDng.Multi.C28_in_range",
    "QDng.Multi.C28_violated_negative",
    "QDng.Multi.C28_violated_in_use",
    "QDng.Multi.C28_wf_too_large",
    "QDng.Multi.C28_wf_in_range_partial",
    "QDng.Multi.C28_wf_violated",
    "QDng.Multi.C28_wf_violated_strided"
   ],
   "note": "Too large indices are rejected without a change. Negative indices are not rejected, wave functions reject index 63, and rejected strided states stay in the object (violated)."
  },
  {
   "property": "C29",
   "status": "partial",
   "theorems": [
    "QDng.Ops.C29_projection",
    "QDng.Ops.C29_complement",
    "QDng.Ops.C29_idempotent_linear",
    "QDng.Ops.C29_sum_orthogonal",
    "QDng.Ops.C29_setup",
    "QDng.Ops.C29_missing_files",
    "QDng.Ops.C29_violated_negative_inverse",
    "QDng.Ops.C29_violated_copy",
    "QDng.Ops.C29_violated_add_first"
   ],
   "note": "Projector properties hold in every complex inner product space for the default sign. Copies lose all states, states added before Init leave the scratch object unset, inv with negative sign adds instead of removes (violated)."
  },
  {
   "property": "C30",
   "status": "partial",
   "theorems": [
    "QDng.Ops.C30_exponent_partial",
    "QDng.Ops.C30_order_partial",
    "QDng.Ops.C30_no_clock",
    "QDng.Ops.C30_violated_mode_without_clock",
    "QDng.Ops.C30_violated_clock_changed",
    "QDng.Ops.C30_violated_copy"
   ],
   "note": "Exponent determined by direction, mode and clock for all call sequences in which a clock precedes the mode. Setting the mode first reads a null pointer; later changes of the clock's step are not seen; copies lose the conjugation flag (violated). Exact numbers."
  },
  {
   "property": "C31",
   "status": "partial",
   "theorems": [
    "QDng.Propa.C31_real_partial",
    "QDng.Propa.C31_imaginary_partial",
    "QDng.Propa.C31_out_of_place_partial",
    "QDng.Propa.C31_coefficients",
    "QDng.Propa.C31_order",
    "QDng.Propa.C31_violated_order"
   ],
   "note": "Every linear Hamiltonian, order of two and more, coefficient set, direction, early stop. The Bessel functions themselves are a library routine. Violated when the order is given and all Bessel functions but the first underflow: a coefficient outside of the array is read."
  },
  {
   "property": "C32",
   "status": "partial",
   "theorems": [
    "QDng.Propa.C32_in_place_partial",
    "QDng.Propa.C32_violated_out_of_place"
   ],
   "note": "In place: proved for all linear Hamiltonians. Out of place the code exchanges source and destination, so that part of the claim is false (negation proved)."
  },
  {
   "property": "C33",
   "status": "partial",
   "theorems": [
    "QDng.Propa.C33_symmetric_and_fresh_partial",
    "QDng.Propa.C33_reversible",
    "QDng.Propa.C33_violated_norm"
   ],
   "note": "Proved for all histories of steps, exponents, copies and energies if no transformation has a normalization, or if the energy is computed before the first step and after each copy, as the propagation program does. Violated otherwise: the normalization of the FFT is one until it has been used, the exponentials are made before and kept, so that n steps multiply a free wave function on two points by 2^n."
  },
  {
   "property": "C34",
   "status": "partial",
   "theorems": [
    "QDng.Propa.C34_selection_partial",
    "QDng.Propa.C34_violated_empty"
   ],
   "note": "All non empty lists. An empty list is undefined behaviour (negation proved)."
  },
  {
   "property": "C35",
   "status": "proved",
   "theorems": [
    "QDng.Stencil.C35_single",
    "QDng.Stencil.C35_setup",
    "QDng.Stencil.C35_narrow"
   ],
   "note": "every shape, dimension, order, derivative; C35_narrow shows that the width hypothesis is needed"
  },
  {
   "property": "C36",
   "status": "partial",
   "theorems": [
    "QDng.Prog.C36_run_partial",
    "QDng.Prog.C36_directory_partial",
    "QDng.Prog.C36_reject_partial",
    "QDng.Prog.C36_restart_partial",
    "QDng.Prog.C36_violated_zero",
    "QDng.Prog.C36_violated_negative",
    "QDng.Prog.C36_violated_empty_dir",
    "QDng.Prog.C36_violated_restart",
    "QDng.Prog.C36_violated_cycle",
    "QDng.Prog.C36_violated_clock"
   ],
   "note": "Complete runs from start 0 write exactly the scheduled snapshots and apply exactly n steps, for every step map, step number and write cycle; continuing with write cycle 1 and start s+1 reproduces files and final state for a step map independent of the clock. False in the code: write cycle 0 is undefined behaviour, negative ones are accepted, start = s takes one step too many, no start number continues a run with write cycle 2, the clock of a continued run is one step ahead."
  },
  {
   "property": "C37",
   "status": "partial",
   "theorems": [
    "QDng.Prog.C37_snapshots_partial",
    "QDng.Prog.C37_violated_start"
   ],
   "note": "Every completed run with start 0: each snapshot once, in order, with its time. A completed run with start above 0 in an empty directory cannot be read (refuted for all such runs)."
  },
  {
   "property": "C38",
   "status": "partial",
   "theorems": [
    "QDng.Prog.C38_violated_read",
    "QDng.Prog.C38_violated_name",
    "QDng.Cfun.C38_violated_bra",
    "QDng.Cfun.C89_values_partial",
    "QDng.Cfun.C90_ket_partial"
   ],
   "note": "Refuted for every completed propagation: the reading section never succeeds (key wcycle vs. Wcycle, file name without base name); a series that is read is used with an access to a missing bra. For a series computed by the program itself all indices are within the series (part of C89 and C90: no exception)."
  },
  {
   "property": "C39",
   "status": "partial",
   "theorems": [
    "QDng.Chain.C39_load_partial",
    "QDng.Chain.C39_normalized_partial",
    "QDng.Chain.C39_sum_partial",
    "QDng.Chain.C39_sum_normalized",
    "QDng.Chain.C39_violated_twice",
    "QDng.Chain.C39_violated_zero"
   ],
   "note": "Loading any tree of sections without zero coefficients gives the value read off from the input with every linear combination counted twice, and nothing if that value does not exist; with all linear combinations normalised the value is exact. Violated: an unnormalised combination is twice the sum, an explicit coefficient zero is ignored."
  },
  {
   "property": "C40",
   "status": "partial",
   "theorems": [
    "QDng.Chain.C40_places_partial",
    "QDng.Chain.C40_rejects",
    "QDng.Chain.C40_violated_no_map",
    "QDng.Chain.C40_violated_single",
    "QDng.Chain.C40_violated_missing",
    "QDng.Chain.C40_violated_shared"
   ],
   "note": "Proved for maps with at least two different entries below 63 and enough coefficients; rejections proved. Violated: a single entry selects, a missing map is undefined behaviour, a missing coefficient gives zero, the states of the input are scaled in place."
  },
  {
   "property": "C41",
   "status": "partial",
   "theorems": [
    "QDng.Registry.C41_lookup",
    "QDng.Registry.C41_add",
    "QDng.Registry.C41_clear",
    "QDng.Registry.C41_anonymous",
    "QDng.Registry.C41_init_once_partial",
    "QDng.Registry.C41_violated_twice",
    "QDng.Registry.C41_violated_dangling",
    "QDng.Registry.C41_violated_replaced"
   ],
   "note": "Lookup, rejection, clearing and generated keys proved for all histories (user keys without the generated prefix). Initialisation exactly once: for operators registered once before use; operators under two keys are initialised twice, may dangle after Clear, and a user key like a generated one is replaced (witnesses)."
  },
  {
   "property": "C42",
   "status": "partial",
   "theorems": [
    "QDng.Registry.C42_alive_partial",
    "QDng.Registry.C42_add_rejected",
    "QDng.Registry.C42_set",
    "QDng.Registry.C42_clear",
    "QDng.Registry.C42_violated_same",
    "QDng.Registry.C42_violated_null"
   ],
   "note": "Proved for all histories in which callers own the references they hand over; setting a key to the function it holds (when nobody else owns it) or to NULL breaks it (witnesses)."
  },
  {
   "property": "C43",
   "status": "partial",
   "theorems": [
    "QDng.Cmd.C43_command_partial",
    "QDng.Cmd.C43_session_partial",
    "QDng.Cmd.C43_wellFormed_partial",
    "QDng.Cmd.C43_violated_load_op",
    "QDng.Cmd.C43_violated_load_U",
    "QDng.Cmd.C43_violated_set_params",
    "QDng.Cmd.C43_violated_read_op",
    "QDng.Cmd.C43_violated_matel",
    "QDng.Cmd.C43_violated_expec",
    "QDng.Cmd.C43_violated_no_operator",
    "QDng.Cmd.C43_violated_read_wf",
    "QDng.Cmd.C43_violated_delete_quit",
    "QDng.Cmd.C43_violated_wellFormed",
    "QDng.Cmd.C43_violated_eof"
   ],
   "note": "The commands answered exactly once are characterised exactly (iff); sessions of them are answered message by message. False in general: witnesses for each kind of command that is answered not at all or twice."
  },
  {
   "property": "C44",
   "status": "partial",
   "theorems": [
    "QDng.Filters.C44_load",
    "QDng.Filters.C44_run_partial",
    "QDng.Filters.C44_reject_partial",
    "QDng.Filters.C44_violated_add_default",
    "QDng.Filters.C44_violated_add_operator",
    "QDng.Filters.C44_violated_rho",
    "QDng.Filters.C44_violated_negative",
    "QDng.Filters.C44_violated_ms",
    "QDng.Filters.C44_violated_reinit"
   ],
   "note": "Loading decided exactly; evaluation and output file proved for lists loaded once. False in general: Add has no usable default for the value and drops its operator, rho without or with negative states is undefined behaviour, ms has no effect on operators, a second load keeps old states."
  },
  {
   "property": "C45",
   "status": "partial",
   "theorems": [
    "QDng.Report.C45_axis_partial",
    "QDng.Report.C45_violated_odd",
    "QDng.Report.C45_increasing",
    "QDng.Report.C45_once",
    "QDng.Report.C45_values",
    "QDng.Report.C45_violated_single"
   ],
   "note": "Axis proved for even N, order and uniqueness and the agreement of values and labelled frequencies for all N. For odd N the middle line carries an alias outside the promised axis (violated, all odd N); N=1 divides by zero."
  },
  {
   "property": "C46",
   "status": "partial",
   "theorems": [
    "QDng.SimpleXml.C46_escape",
    "QDng.SimpleXml.C46_output_partial",
    "QDng.SimpleXml.C46_violated_variable",
    "QDng.SimpleXml.C46_violated_truncation"
   ],
   "note": "The escaping function is proved right for every text and the output for quoted attribute texts. The full claim is false: text assigned to a variable is stored unescaped, and texts longer than the buffer of 1024 characters are cut, also inside of an entity."
  },
  {
   "property": "C47",
   "status": "partial",
   "theorems": [
    "QDng.SimpleXml.C47_loop_partial",
    "QDng.SimpleXml.C47_program_partial",
    "QDng.SimpleXml.C47_violated_direction",
    "QDng.SimpleXml.C47_violated_zero_step"
   ],
   "note": "Rational instead of floating point numbers. Proved for all loops whose step points from begin to end. A step pointing away is executed for wrong values and a zero step is undefined behaviour."
  },
  {
   "property": "C48",
   "status": "partial",
   "theorems": [
    "QDng.SimpleXml.C48_nesting_partial",
    "QDng.SimpleXml.C48_violated_missing_brace",
    "QDng.SimpleXml.C48_violated_second_block",
    "QDng.SimpleXml.C48_violated_extra_brace"
   ],
   "note": "Proved for one block with any nesting in it. The full claim is false: a missing brace is not reported and nothing is written, a second top level block or an extra closing brace is undefined behaviour. Lexer and generated parser are not modelled."
  },
  {
   "property": "C49",
   "status": "partial",
   "theorems": [
    "QDng.SimpleXml.C49_variables_partial",
    "QDng.SimpleXml.C49_violated_concat",
    "QDng.SimpleXml.C49_violated_copy",
    "QDng.SimpleXml.C49_violated_late"
   ],
   "note": "Proved for assignments of words before the block and any nesting of blocks and attributes. The full claim is false: concatenations and other variables are not evaluated in assignments, and an assignment after a reference in the block changes the reference."
  },
  {
   "property": "C50",
   "status": "partial",
   "theorems": [
    "QDng.Buffer.C50_read_partial",
    "QDng.Buffer.C50_not_null_partial",
    "QDng.Buffer.C50_budget_partial",
    "QDng.Buffer.C50_defined_partial",
    "QDng.Buffer.C50_violated_null",
    "QDng.Buffer.C50_violated_no_init",
    "QDng.Buffer.C50_violated_budget",
    "QDng.Buffer.C50_violated_resize"
   ],
   "note": "Every non-null pointer returned by Get has the content stored last, for every history of calls including those ended by exceptions; the budget holds after every history of calls that returned; no proper call is undefined once Init filled the first position. The full statement is false: Get can return a null pointer for a stored wave function (C50_violated_null), without Init Get uses a null pointer (C50_violated_no_init), an exception leaves the budget exceeded (C50_violated_budget), ResizeBuffer(0) is undefined (C50_violated_resize)."
  },
  {
   "property": "C51",
   "status": "proved",
   "theorems": [
    "QDng.Clock.C51_moves",
    "QDng.Clock.C51_begin_end",
    "QDng.Clock.C51_setters",
    "QDng.Clock.C51_sync",
    "QDng.Clock.C51_sync_zero"
   ],
   "note": "Exact real arithmetic; leaving the range of int is undefined and excluded by the result being ok."
  },
  {
   "property": "C52",
   "status": "partial",
   "theorems": [
    "QDng.Cmdline.C52_value_partial",
    "QDng.Cmdline.C52_has_partial",
    "QDng.Cmdline.C52_required_partial",
    "QDng.Cmdline.C52_non_option_partial",
    "QDng.Cmdline.C52_violated_query",
    "QDng.Cmdline.C52_violated_check",
    "QDng.Cmdline.C52_violated_flag_default",
    "QDng.Cmdline.C52_violated_non_option_chars",
    "QDng.Cmdline.C52_violated_non_option_negative"
   ],
   "note": "Values, presence, required options and other arguments are those of the command line for every declaration, command line and sequence of earlier questions that do not ask for the value of the option in question. The full statement is false: asking for a value or CheckOptions makes a missing option appear as given, and the character form of GetNonOption returns arguments of options."
  },
  {
   "property": "C53",
   "status": "proved",
   "theorems": [
    "QDng.Multi.C53_exactly_one",
    "QDng.Multi.C53_once",
    "QDng.Multi.C53_balanced",
    "QDng.Multi.C53_combined"
   ],
   "note": "Loop of OMultistate::Apply; the sum over processes stands for the reduction done by the MPI wrapper, which is not modelled."
  },
  {
   "property": "C54",
   "status": "partial",
   "theorems": [
    "QDng.Lasers.C54_dipole",
    "QDng.Lasers.C54_matrix",
    "QDng.Lasers.C54_raman_partial",
    "QDng.Lasers.C54_violated_raman"
   ],
   "note": "Dipole operators on grids and matrix dipole operators (with LAPACK's diagonalisation assumed orthonormal): proved. Raman operators: the exponential is that of twice the operator that is applied (false as claimed, witness)."
  },
  {
   "property": "C55",
   "status": "partial",
   "theorems": [
    "QDng.Lasers.C55_vector_pot",
    "QDng.Lasers.C55_scaling_partial",
    "QDng.Lasers.C55_violated_energy",
    "QDng.Lasers.C55_violated_vector_pot"
   ],
   "note": "Vector potential formula and scaling of stored values proved; the scaling factor of the laser enters the pulse energy linearly instead of squared and is missing in the vector potential (negations proved)."
  },
  {
   "property": "C56",
   "status": "partial",
   "theorems": [
    "QDng.SimpleXml.C56_detect_partial",
    "QDng.SimpleXml.C56_empty",
    "QDng.SimpleXml.C56_violated_long",
    "QDng.SimpleXml.C56_violated_brace"
   ],
   "note": "Proved for files shorter than the buffer of 1024 characters. For longer files without a closing construct of XML the search runs past the end of the buffer; one opening brace is enough for simple input."
  },
  {
   "property": "C57",
   "status": "partial",
   "theorems": [
    "QDng.Cplx.C57_ring",
    "QDng.Cplx.C57_div",
    "QDng.Cplx.C57_exp",
    "QDng.Cplx.C57_phase",
    "QDng.Cplx.C57_sqrt_partial",
    "QDng.Cplx.C57_violated_sqrt",
    "QDng.Cplx.C57_pow_partial",
    "QDng.Cplx.C57_violated_pow"
   ],
   "note": "All operations agree with the complex numbers in exact arithmetic except the square root of zero (not a number) and negative powers of i (no result)."
  },
  {
   "property": "C58",
   "status": "partial",
   "theorems": [
    "QDng.Stencil.C58_transform",
    "QDng.Stencil.C58_interior",
    "QDng.Stencil.C58_symmetric",
    "QDng.Stencil.C58_violated_none",
    "QDng.Stencil.C58_violated_thickness",
    "QDng.Stencil.C58_thickness_checked",
    "QDng.Stencil.C58_parameters",
    "QDng.Stencil.C58_violated_parameters"
   ],
   "note": "proved for sides 1, 2, 3 and a thickness up to the grid size; violated: the documented side 0 (none) activates both layers, the default thickness is not checked against the grid, too short parameter lists are read out of bounds"
  },
  {
   "property": "C59",
   "status": "partial",
   "theorems": [
    "QDng.Params.C59_type_partial",
    "QDng.Params.C59_violated"
   ],
   "note": "Violated by Params(map), which keeps the old type table; proved for all other histories."
  },
  {
   "property": "C60",
   "status": "proved",
   "theorems": [
    "QDng.Params.C60_line"
   ],
   "note": "Line texts with an empty value are covered by C02 (one blank)."
  },
  {
   "property": "C61",
   "status": "proved",
   "theorems": [
    "QDng.Serial.C61_roundtrip",
    "QDng.Wire.C61_roundtrip_wire"
   ],
   "note": "The header encoder of the protobuf runtime is a parameter; the wire format of C63 is a concrete instance."
  },
  {
   "property": "C62",
   "status": "proved",
   "theorems": [
    "QDng.Serial.C62_tag"
   ],
   "note": ""
  },
  {
   "property": "C63",
   "status": "proved",
   "theorems": [
    "QDng.Wire.C63_message",
    "QDng.Wire.C63_bytes",
    "QDng.Wire.C63_headers"
   ],
   "note": "The C++ protobuf runtime itself is external and assumed to follow the wire format."
  },
  {
   "property": "C64",
   "status": "partial",
   "theorems": [
    "QDng.Grid.C64_single",
    "QDng.Grid.C64_collective",
    "QDng.Grid.C64_mixed_value",
    "QDng.Grid.C64_violated_mixed"
   ],
   "note": "single and collective derivatives proved; the mixed derivative grid holds only the wave number of the second dimension (violated, proved)"
  },
  {
   "property": "C65",
   "status": "proved",
   "theorems": [
    "QDng.Stencil.C65_first",
    "QDng.Stencil.C65_second",
    "QDng.Stencil.C65_exact_first",
    "QDng.Stencil.C65_exact_second"
   ],
   "note": "complete table checked by the kernel; exactness for all polynomials over fields of characteristic zero"
  },
  {
   "property": "C66",
   "status": "partial",
   "theorems": [
    "QDng.Linalg.C66_transpose",
    "QDng.Linalg.C66_not_square",
    "QDng.Linalg.C66_involution",
    "QDng.Linalg.C66_violated_diagonal",
    "QDng.Linalg.C66_diag"
   ],
   "note": "the adjoint does not conjugate the diagonal (violated, proved), everything else proved"
  },
  {
   "property": "C67",
   "status": "proved",
   "theorems": [
    "QDng.Linalg.C67_reorder"
   ],
   "note": ""
  },
  {
   "property": "C68",
   "status": "partial",
   "theorems": [
    "QDng.Stencil.C68_periodic_partial",
    "QDng.Stencil.C68_violated_open",
    "QDng.Stencil.C68_violated_dims"
   ],
   "note": "proved for one periodic dimension; violated for open boundaries and for more than one dimension"
  },
  {
   "property": "C69",
   "status": "partial",
   "theorems": [
    "QDng.Ops.C69_conj",
    "QDng.Ops.C69_flags_partial",
    "QDng.Ops.C69_violated_set",
    "QDng.Ops.C69_violated_copy"
   ],
   "note": "Conjugation holds for all histories. Time dependence and hermiticity hold without replacements; replacing and copying lose them (violated)."
  },
  {
   "property": "C70",
   "status": "proved",
   "theorems": [
    "QDng.Ops.C70_matrix_element"
   ],
   "note": "Default MatrixElement of the operator base class."
  },
  {
   "property": "C71",
   "status": "partial",
   "theorems": [
    "QDng.Multi.C71_init_partial",
    "QDng.Multi.C71_empty",
    "QDng.Multi.C71_violated_large"
   ],
   "note": "Holds up to 64 requested states; more are written behind the array (violated)."
  },
  {
   "property": "C72",
   "status": "partial",
   "theorems": [
    "QDng.Multi.C72_hermitian_partial",
    "QDng.Multi.C72_violated_general"
   ],
   "note": "Holds if the coupling blocks are symmetric too. For others the same block, not its adjoint, is used on both sides (violated)."
  },
  {
   "property": "C73",
   "status": "partial",
   "theorems": [
    "QDng.Propa.C73_real",
    "QDng.Propa.C73_imaginary_partial",
    "QDng.Propa.C73_violated_imaginary",
    "QDng.Propa.C73_violated_no_range"
   ],
   "note": "Real time proved for different bounds. In imaginary time the margin at the lower end pushes the upper end beyond one when the lower bound is larger in size than the range (negation proved); equal bounds give a scaling of zero (negation proved)."
  },
  {
   "property": "C74",
   "status": "partial",
   "theorems": [
    "QDng.Ops.C74_list",
    "QDng.Ops.C74_multistate_partial",
    "QDng.Ops.C74_violated_multistate",
    "QDng.Ops.C74_violated_split",
    "QDng.Ops.C74_violated_coupled"
   ],
   "note": "Lists: proved. Multistate operators check the state a block writes to, not the one it reads (negation proved). The general split operator refuses everything and the coupled split operator looks at the first state only (negations proved)."
  },
  {
   "property": "C75",
   "status": "partial",
   "theorems": [
    "QDng.Buffer.C75_locked_partial",
    "QDng.Buffer.C75_violated_explicit",
    "QDng.Buffer.C75_violated_recent"
   ],
   "note": "One call keeps every position whose lock flag is set in memory. The full statement is false: the lock flag of an explicitly locked position is cleared by later reads (C75_violated_explicit), and a position read several times in a row loses its flag (C75_violated_recent)."
  },
  {
   "property": "C76",
   "status": "partial",
   "theorems": [
    "QDng.Lasers.C76_dipole",
    "QDng.Lasers.C76_matrix",
    "QDng.Lasers.C76_interaction",
    "QDng.Lasers.C76_raman_partial",
    "QDng.Lasers.C76_violated_raman"
   ],
   "note": "Dipole and matrix operators proved; ApplyAdd of Raman operators is inherited and adds the polarisability without the fields (witness)."
  },
  {
   "property": "C77",
   "status": "partial",
   "theorems": [
    "QDng.Lasers.C77_matrix",
    "QDng.Lasers.C77_dipole_partial",
    "QDng.Lasers.C77_violated_dipole",
    "QDng.Lasers.C77_violated_raman"
   ],
   "note": "Matrix operators proved; grid operators multiply the interaction by the square, Raman operators by the third power of the factor (proved for all factors)."
  },
  {
   "property": "C78",
   "status": "partial",
   "theorems": [
    "QDng.Lasers.C78_copy_partial",
    "QDng.Lasers.C78_violated_scale"
   ],
   "note": "Proved for scaling factor 1; other factors are lost in the copy (witness)."
  },
  {
   "property": "C79",
   "status": "partial",
   "theorems": [
    "QDng.Lasers.C79_accepted",
    "QDng.Lasers.C79_rejected",
    "QDng.Lasers.C79_set_get",
    "QDng.Lasers.C79_violated_kept"
   ],
   "note": "Accepted clocks, rejection and Set/Get proved; a rejected clock is kept and the next access is out of bounds (witness)."
  },
  {
   "property": "C80",
   "status": "partial",
   "theorems": [
    "QDng.Lasers.C80_emax_partial",
    "QDng.Lasers.C80_violated_emin",
    "QDng.Lasers.C80_violated_emax"
   ],
   "note": "Upper bound for non-negative dipole moments and fields whose largest value bounds the negative ones; in general both bounds are wrong (witnesses)."
  },
  {
   "property": "C81",
   "status": "partial",
   "theorems": [
    "QDng.Registry.C81_get_labels_partial",
    "QDng.Registry.C81_set_label",
    "QDng.Registry.C81_check_label_partial",
    "QDng.Registry.C81_violated_empty"
   ],
   "note": "Arrays with at least one element, operators under one key; an array of size zero is overrun (witness)."
  },
  {
   "property": "C82",
   "status": "partial",
   "theorems": [
    "QDng.Registry.C82_asked_partial",
    "QDng.Registry.C82_violated_ignored"
   ],
   "note": "The operator is asked and not initialised again, but its answer is ignored (witness)."
  },
  {
   "property": "C83",
   "status": "partial",
   "theorems": [
    "QDng.Chain.C83_single",
    "QDng.Chain.C83_involution_partial",
    "QDng.Chain.C83_violated_handbook"
   ],
   "note": "Proved for single entries and for maps that are their own inverse; violated for the example of the handbook: the inverse map is applied."
  },
  {
   "property": "C84",
   "status": "partial",
   "theorems": [
    "QDng.Chain.C84_keys_partial",
    "QDng.Chain.C84_violated_multistate",
    "QDng.Chain.C40_violated_shared"
   ],
   "note": "Proved for all trees of files and linear combinations (up to the factor two of C39); violated inside of multistate sections, whose coefficient changes the registered state, and for inputs of state maps."
  },
  {
   "property": "C85",
   "status": "partial",
   "theorems": [
    "QDng.Report.C85_samples_partial",
    "QDng.Report.C85_square_partial",
    "QDng.Report.C85_window_partial",
    "QDng.Report.C85_report_only_partial",
    "QDng.Report.C85_violated_conjugate",
    "QDng.Report.C85_violated_short",
    "QDng.Report.C85_violated_long",
    "QDng.Report.C85_violated_window_single"
   ],
   "note": "Proved when Analyze is called once per clock step. The column shows the complex conjugate of its label; with fewer calls the spectrum reads entries never written; with more calls the buffer is left; one sample with window gives 0/0."
  },
  {
   "property": "C86",
   "status": "proved",
   "theorems": [
    "QDng.Report.C86_eigenstate"
   ],
   "note": "Every frequency of the axis, positive and negative; exact arithmetic, the Fourier transform library is assumed to compute the Fourier sum."
  },
  {
   "property": "C87",
   "status": "partial",
   "theorems": [
    "QDng.Report.C87_violated_unwritable",
    "QDng.Report.C87_unused_partial"
   ],
   "note": "Violated: rethrow without active exception ends the program. Holds trivially when no spectrum is requested."
  },
  {
   "property": "C88",
   "status": "partial",
   "theorems": [
    "QDng.Prog.C88_running_partial",
    "QDng.Prog.C88_violated_failure"
   ],
   "note": "Proved at the end of every pass of a run (all prefixes, hence for a killed run); refuted for every run that fails with an exception before its last snapshot: the file then promises the complete run and the filter program fails."
  },
  {
   "property": "C89",
   "status": "partial",
   "theorems": [
    "QDng.Cfun.C89_values_partial",
    "QDng.Cfun.C89_violated_pre",
    "QDng.Cfun.C89_violated_bra",
    "QDng.Cfun.C89_violated_default",
    "QDng.Cfun.C89_violated_zero"
   ],
   "note": "Proved for ket U,O_p... without bra, for every propagator, probe list, number of steps and write cycle. Refuted for all inputs with operators before the first U of the ket (the probe is never applied), for all inputs with an explicit bra (one write cycle ahead) and for write cycle 0 (undefined)."
  },
  {
   "property": "C90",
   "status": "partial",
   "theorems": [
    "QDng.Cfun.C90_ket_partial",
    "QDng.Cfun.C90_violated_stepsint",
    "QDng.Cfun.C90_violated_several",
    "QDng.Cfun.C90_violated_bra",
    "QDng.Cfun.C90_violated_ahead",
    "QDng.Cfun.C90_violated_example",
    "QDng.Cfun.C90_violated_empty"
   ],
   "note": "Proved for ket O_k...,U,O_1,U,O_p... without bra (all values and all zeros, limit as coded: stepsint+1). Refuted: limit exceeded by one, all but the last of several intermediate operators skipped, explicit bra one cycle ahead on either side, the input of the handbook's example rejected, empty ket undefined."
  },
  {
   "property": "C91",
   "status": "partial",
   "theorems": [
    "QDng.Cmd.C91_in_step_partial",
    "QDng.Cmd.C91_violated_get_params",
    "QDng.Cmd.C91_violated_set_params",
    "QDng.Cmd.C91_violated_apply",
    "QDng.Cmd.C91_violated_matel",
    "QDng.Cmd.C91_violated_quit",
    "QDng.Cmd.C91_violated_load"
   ],
   "note": "Proved for running programs, clearing, loading, saving and expectation values; false for the other client functions."
  },
  {
   "property": "C92",
   "status": "partial",
   "theorems": [
    "QDng.RunXml.C92_input_runs_in_order_partial",
    "QDng.RunXml.C92_definitions_before_programs",
    "QDng.RunXml.C92_empty_input_rejected",
    "QDng.RunXml.C92_violated_comment_only",
    "QDng.RunXml.C92_violated_empty_directory"
   ],
   "note": "Missing: a container with only comments (null pointer) and an empty directory attribute (index -1), both refuted."
  },
  {
   "property": "C93",
   "status": "proved",
   "theorems": [
    "QDng.RunXml.C93_definitions_need_equal_sign",
    "QDng.RunXml.C93_variables_have_last_value"
   ],
   "note": "Both directions."
  },
  {
   "property": "C94",
   "status": "partial",
   "theorems": [
    "QDng.RunXml.C94_input_text_is_file_partial",
    "QDng.RunXml.C94_violated_unterminated",
    "QDng.RunXml.C94_violated_overrun"
   ],
   "note": "Holds only if the memory behind the data starts with a zero byte; refuted otherwise."
  },
  {
   "property": "C95",
   "status": "partial",
   "theorems": [
    "QDng.Fs.C95_create_directory_partial",
    "QDng.Fs.C95_failure_keeps_rest_partial",
    "QDng.Fs.C95_create_twice_partial",
    "QDng.Fs.C95_strip_last_partial",
    "QDng.Fs.C95_violated_dot",
    "QDng.Fs.C95_violated_strip_root"
   ],
   "note": "Missing: paths with . or .. whose parts do not exist yet (exception after creating, refuted) and StripLast of the root (reads in front of the text, refuted)."
  },
  {
   "property": "C96",
   "status": "partial",
   "theorems": [
    "QDng.Peak.C96_peaks_partial",
    "QDng.Peak.C96_inside_partial",
    "QDng.Peak.C96_violated_negative"
   ],
   "note": "Exact characterisation for nonnegative data and tolerance (the only use in the program). Negative data report -1 (violated theorem)."
  },
  {
   "property": "C97",
   "status": "partial",
   "theorems": [
    "QDng.Peak.C97_maxima",
    "QDng.Peak.C97_window_partial",
    "QDng.Peak.C97_window_nonempty",
    "QDng.Peak.C97_violated_plateau",
    "QDng.Peak.C97_violated_window",
    "QDng.Peak.C97_violated_minima"
   ],
   "note": "Maximas = strict local maxima; the window finder is exact for the window the code uses, which leaves out its upper end; plateaus are missed and Minimas is wrong (violated theorems)."
  },
  {
   "property": "C98",
   "status": "partial",
   "theorems": [
    "QDng.Eigen.C98_orthonormal_partial",
    "QDng.Eigen.C98_too_many",
    "QDng.Eigen.C98_residual",
    "QDng.Eigen.C98_eigenfunction",
    "QDng.Eigen.C98_violated_conv_one"
   ],
   "note": "Exact arithmetic, arbitrary propagator. conv=1 is accepted by the parameter check and then no step is done (violated theorem)."
  },
  {
   "property": "C99",
   "status": "partial",
   "theorems": [
    "QDng.Eigen.C99_spectrum",
    "QDng.Eigen.C99_eigenfunctions_partial",
    "QDng.Eigen.C99_complete_partial",
    "QDng.Eigen.C99_violated_read",
    "QDng.Eigen.C99_violated_read_steps"
   ],
   "note": "Exact arithmetic, energies on the frequency grid, no window function. With read from disk the estimate uses the time step and number of steps of the input (violated theorems)."
  },
  {
   "property": "C100",
   "status": "partial",
   "theorems": [
    "QDng.Eigen.C100_diagonal_partial",
    "QDng.Eigen.C100_eigenfunctions_partial",
    "QDng.Eigen.C100_violated_complex",
    "QDng.Eigen.C100_violated_overlap"
   ],
   "note": "Proved for orthonormal functions with real matrix elements, LAPACK described by its contract. Imaginary parts are dropped and the overlap is ignored (violated theorems)."
  },
  {
   "property": "C101",
   "status": "partial",
   "theorems": [
    "QDng.GridPm.C101_init_partial",
    "QDng.GridPm.C101_no_dims_partial",
    "QDng.GridPm.C101_accepted_partial",
    "QDng.GridPm.C101_violated_missing_size",
    "QDng.GridPm.C101_violated_dims",
    "QDng.GridPm.C101_violated_unreadable"
   ],
   "note": "Proved for readable values with N0 present. Violated: without N0 nothing is rejected and a description that does not exist is read; unreadable dims uses an uninitialised variable; an unreadable number of points silently takes that of the dimension before."
  },
  {
   "property": "C102",
   "status": "partial",
   "theorems": [
    "QDng.GridPm.C102_round_trip_partial",
    "QDng.GridPm.C102_close_partial",
    "QDng.GridPm.C102_violated_digits",
    "QDng.GridPm.C102_violated_collapse"
   ],
   "note": "Proved for ends with at most six significant digits; otherwise the ends change by up to 5e-6 of their size. Violated: numbers are printed with six digits, so other grids come back different or are rejected."
  },
  {
   "property": "C103",
   "status": "proved",
   "theorems": [
    "QDng.GridPm.C103_equal",
    "QDng.GridPm.C103_refl_symm",
    "QDng.GridPm.C103_arrays",
    "QDng.GridPm.C103_dx",
    "QDng.GridPm.C103_not_transitive"
   ],
   "note": "For grids with as many descriptions as dimensions, as the member functions leave them. Also shown: the comparison is not transitive."
  },
  {
   "property": "C104",
   "status": "partial",
   "theorems": [
    "QDng.Krylov.C104_sil_agrees_with_series",
    "QDng.Krylov.C104_sil_keeps_norm",
    "QDng.Krylov.C104_sil_keeps_energy",
    "QDng.Krylov.C104_sil_exact_on_invariant_space",
    "QDng.Krylov.C104_sil_defined_when_independent",
    "QDng.Krylov.C104_sil_undefined_when_dependent",
    "QDng.Krylov.C104_violated_eigenfunction",
    "QDng.Krylov.C104_violated_unnormalised"
   ],
   "note": "Agreement with the series holds for every linear Hamiltonian and wave function; norm, energy and exactness for normalised wave functions with independent Krylov vectors. False for normalised eigenfunctions (division by a zero norm) and in general whenever the Krylov vectors are dependent, and for wave functions that are not normalised (two coupled levels lose two thirds of the norm in one step). Exact arithmetic; LAPACK by contract."
  },
  {
   "property": "C105",
   "status": "partial",
   "theorems": [
    "QDng.Krylov.C105_arnoldi_agrees_with_series",
    "QDng.Krylov.C105_arnoldi_keeps_norm_and_energy",
    "QDng.Krylov.C105_arnoldi_eigenfunction",
    "QDng.Krylov.C105_violated_old_vectors",
    "QDng.Krylov.C105_violated_unnormalised"
   ],
   "note": "Series, exactness, norm and energy hold when the first residual is above the underrun limit; eigenfunctions get their phase when the solver finds a basis of eigenvectors. False for wave functions that are not normalised and for eigenfunctions with old vectors in the buffers (the order is not reset). Exact arithmetic; LAPACK by contract."
  },
  {
   "property": "C106",
   "status": "proved",
   "theorems": [
    "QDng.Params.C02_untyped_roundtrip"
   ],
   "note": "The part of C02 about the default text form; type tags are not written there (see C02)."
  },
  {
   "property": "C107",
   "status": "proved",
   "theorems": [
    "QDng.Serial.C12_roundtrip",
    "QDng.Serial.C12_size",
    "QDng.Serial.C14_roundtrip"
   ],
   "note": "The round trips of C12 and C14; rejection of damaged input is in C12/C14."
  },
  {
   "property": "C108",
   "status": "proved",
   "theorems": [
    "QDng.Stream.C15_roundtrip",
    "QDng.Stream.C15_terminates",
    "QDng.Stream.C16_roundtrip",
    "QDng.Stream.C16_sequence",
    "QDng.Stream.C16_levels"
   ],
   "note": "The positive parts of C15 and C16: protobuf and zlib behaviour assumed as documented there."
  },
  {
   "property": "C109",
   "status": "proved",
   "theorems": [
    "QDng.Linalg.C21_elements",
    "QDng.Linalg.C21_covers",
    "QDng.Linalg.C21_bounds",
    "QDng.Linalg.C21_scale_fill"
   ],
   "note": "The part of C21 for divisible sizes."
  },
  {
   "property": "C110",
   "status": "proved",
   "theorems": [
    "QDng.Ops.C24_sum",
    "QDng.Ops.C24_empty_sum",
    "QDng.Ops.C24_default"
   ],
   "note": "The part of C24 about sums and inherited variants."
  },
  {
   "property": "C111",
   "status": "proved",
   "theorems": [
    "QDng.Ops.C29_projection",
    "QDng.Ops.C29_complement",
    "QDng.Ops.C29_idempotent_linear",
    "QDng.Ops.C29_sum_orthogonal"
   ],
   "note": "The part of C29 about applying the operator with the default sign; exact arithmetic."
  },
  {
   "property": "C112",
   "status": "proved",
   "theorems": [
    "QDng.Ops.C25_answers",
    "QDng.Ops.C25_rejects",
    "QDng.Ops.C69_conj"
   ],
   "note": "The parts of C25 and C69 without copies."
  },
  {
   "property": "C113",
   "status": "proved",
   "theorems": [
    "QDng.Registry.C41_lookup",
    "QDng.Registry.C41_add",
    "QDng.Registry.C41_clear"
   ],
   "note": "The parts of C41 about keys; initialisation is in C41."
  },
  {
   "property": "C114",
   "status": "proved",
   "theorems": [
    "QDng.Report.C45_values",
    "QDng.Report.C45_once",
    "QDng.Report.C45_increasing"
   ],
   "note": "Holds for all N, unlike the axis promised in C45."
  },
  {
   "property": "C115",
   "status": "proved",
   "theorems": [
    "QDng.SimpleXml.C46_escape"
   ],
   "note": "The part of C46 about the escape function itself; where it is applied is in C46."
  },
  {
   "property": "C116",
   "status": "proved",
   "theorems": [
    "QDng.Lasers.C54_dipole",
    "QDng.Lasers.C54_matrix",
    "QDng.Lasers.C76_dipole",
    "QDng.Lasers.C76_matrix",
    "QDng.Lasers.C76_interaction"
   ],
   "note": "The parts of C54 and C76 without Raman operators; the diagonalisation by LAPACK is assumed; exact arithmetic."
  },
  {
   "property": "C117",
   "status": "proved",
   "theorems": [
    "QDng.Cplx.C57_ring",
    "QDng.Cplx.C57_div",
    "QDng.Cplx.C57_exp",
    "QDng.Cplx.C57_phase"
   ],
   "note": "C57 without roots and powers; exact arithmetic."
  },
  {
   "property": "C118",
   "status": "proved",
   "theorems": [
    "QDng.Stencil.C58_transform",
    "QDng.Stencil.C58_interior",
    "QDng.Stencil.C58_symmetric"
   ],
   "note": "The part of C58 about the transform; parameters are in C58."
  },
  {
   "property": "C119",
   "status": "proved",
   "theorems": [
    "QDng.Grid.C64_single",
    "QDng.Grid.C64_collective"
   ],
   "note": "C64 without the mixed derivative; exact arithmetic."
  },
  {
   "property": "C120",
   "status": "proved",
   "theorems": [
    "QDng.Lasers.C79_accepted",
    "QDng.Lasers.C79_rejected",
    "QDng.Lasers.C79_set_get",
    "QDng.Lasers.C55_vector_pot"
   ],
   "note": "The parts of C79 and C55 that hold; exact arithmetic."
  },
  {
   "property": "C121",
   "status": "proved",
   "theorems": [
    "QDng.Ops.C74_list"
   ],
   "note": "The part of C74 about lists."
  },
  {
   "property": "C122",
   "status": "proved",
   "theorems": [
    "QDng.Peak.C97_maxima"
   ],
   "note": "The part of C97 about maxima."
  },
  {
   "property": "C123",
   "status": "proved",
   "theorems": [
    "QDng.Krylov.C104_sil_keeps_norm",
    "QDng.Krylov.C104_sil_keeps_energy",
    "QDng.Krylov.C104_sil_agrees_with_series",
    "QDng.Krylov.C104_sil_exact_on_invariant_space",
    "QDng.Krylov.C104_sil_defined_when_independent"
   ],
   "note": "The part of C104 for completed steps from normalised wave functions; LAPACK's diagonalisation assumed; exact arithmetic."
  },
  {
   "property": "C124",
   "status": "proved",
   "theorems": [
    "QDng.Oct.C124_yield_of_field"
   ],
   "note": "Exact numbers; propagator, gobbler and operators are parameters."
  },
  {
   "property": "C125",
   "status": "proved",
   "theorems": [
    "QDng.Oct.C125_krotov_overlap",
    "QDng.Oct.C125_krotov_phase",
    "QDng.Oct.C125_krotov_operator"
   ],
   "note": "Up to the first order error d of the propagator, which is zero if the dipole interaction stands at the begin of the step; the condition on alpha is explicit."
  },
  {
   "property": "C126",
   "status": "proved",
   "theorems": [
    "QDng.Oct.C126_rabitz",
    "QDng.Oct.C126_rabitz_objective"
   ],
   "note": "Up to the first order error d of the propagator."
  },
  {
   "property": "C127",
   "status": "partial",
   "theorems": [
    "QDng.Oct.C127_moving_violated"
   ],
   "note": "Violated: the propagation of the guess overwrites the series; with Krotov and a Hermitian coupling the field never changes."
  },
  {
   "property": "C128",
   "status": "partial",
   "theorems": [
    "QDng.Oct.C128_stops_partial",
    "QDng.Oct.C128_first",
    "QDng.Oct.C128_early_violated"
   ],
   "note": "Holds from the third iteration on; violated before: the memory starts with ones, so a summed yield of one in the first iteration ends the run."
  },
  {
   "property": "C129",
   "status": "partial",
   "theorems": [
    "QDng.Oct.C129_feedback_violated",
    "QDng.Oct.C129_operator_violated"
   ],
   "note": "Violated: the backward propagation uses the old field, so the results equal those of rabitz; with operators the initial wave function is used."
  },
  {
   "property": "C130",
   "status": "partial",
   "theorems": [
    "QDng.Oct.C130_shape",
    "QDng.Oct.C130_lasers_violated"
   ],
   "note": "Holds if all lasers have the same guess; violated otherwise: all lasers get the field of the first one."
  },
  {
   "property": "C131",
   "status": "proved",
   "theorems": [
    "QDng.Deriv.C131_kinetic",
    "QDng.Deriv.C131_span"
   ],
   "note": "The operator is the one linear map with these eigenvalues; the plane waves with the wave numbers of the grid span the space."
  },
  {
   "property": "C132",
   "status": "partial",
   "theorems": [
    "QDng.Deriv.C132_hermitian",
    "QDng.Deriv.C132_bounds",
    "QDng.Deriv.C132_sharp",
    "QDng.Deriv.C132_negative_violated"
   ],
   "note": "Proved for positive masses; the upper bound is attained on grids with even numbers of points. A negative mass is accepted if another mass is positive; then energies below Emin occur (violation)."
  },
  {
   "property": "C133",
   "status": "partial",
   "theorems": [
    "QDng.Deriv.C133_zero_mass_violated",
    "QDng.Deriv.C133_accept_partial"
   ],
   "note": "Violated: every list with a zero is rejected with an error. Proved instead: exactly which lists are accepted."
  },
  {
   "property": "C134",
   "status": "partial",
   "theorems": [
    "QDng.Deriv.C134_copy_violated",
    "QDng.Deriv.C134_early_copy_violated",
    "QDng.Deriv.C134_copy_partial"
   ],
   "note": "Violated: the copy of an operator in use reads an empty vector, a copy made before the first use applies minus the sum of squared wave numbers without masses. Bounds and (in use) the exponential agree."
  },
  {
   "property": "C135",
   "status": "proved",
   "theorems": [
    "QDng.Deriv.C135_exponential",
    "QDng.Deriv.C135_group",
    "QDng.Deriv.C135_unitary"
   ],
   "note": ""
  },
  {
   "property": "C136",
   "status": "proved",
   "theorems": [
    "QDng.Deriv.C136_plane",
    "QDng.Deriv.C136_linear",
    "QDng.Deriv.C136_derivative",
    "QDng.Deriv.C136_in_place",
    "QDng.Deriv.C136_momentum",
    "QDng.Deriv.C136_nabla"
   ],
   "note": ""
  },
  {
   "property": "C137",
   "status": "partial",
   "theorems": [
    "QDng.Deriv.C137_momentum_partial",
    "QDng.Deriv.C137_nabla_violated",
    "QDng.Deriv.C137_adjoint_partial",
    "QDng.Deriv.C137_momentum_adjoint_violated"
   ],
   "note": "Holds for the momentum operator (odd numbers of points, without the unpaired frequency). For Nabla the flag changes the sign of a real operator: the result is the adjoint. As adjoint it would be wrong for the momentum operator."
  },
  {
   "property": "C138",
   "status": "partial",
   "theorems": [
    "QDng.Deriv.C138_copy_partial",
    "QDng.Deriv.C138_copy_violated",
    "QDng.Deriv.C138_flag_violated"
   ],
   "note": "Violated: the selected dimension is not copied, so that an initialised copy acts on all dimensions; the conjugate flag is lost. A copy used right away is right."
  },
  {
   "property": "C139",
   "status": "partial",
   "theorems": [
    "QDng.Deriv.C139_sign_violated",
    "QDng.Deriv.C139_junk_violated",
    "QDng.Deriv.C139_momentum_violated"
   ],
   "note": "Violated: the real part of the diagonal is never set, the sign is the opposite one and the momentum mode is ignored. The exact results are given by the theorems."
  },
  {
   "property": "C140",
   "status": "partial",
   "theorems": [
    "QDng.Deriv.C140_odd_partial",
    "QDng.Deriv.C140_even_violated"
   ],
   "note": "Holds for odd numbers of points; for even numbers, the usual case, Emax is the smallest (negative) wave number."
  },
  {
   "property": "C141",
   "status": "proved",
   "theorems": [
    "QDng.Deriv.C141_coupled",
    "QDng.Deriv.C141_uncoupled",
    "QDng.Deriv.C141_hermitian",
    "QDng.Deriv.C141_nonneg",
    "QDng.Deriv.C141_constant"
   ],
   "note": ""
  },
  {
   "property": "C142",
   "status": "proved",
   "theorems": [
    "QDng.Deriv.C142_same"
   ],
   "note": ""
  },
  {
   "property": "C143",
   "status": "partial",
   "theorems": [
    "QDng.Deriv.C143_upper_partial",
    "QDng.Deriv.C143_lower_partial",
    "QDng.Deriv.C143_constant_violated"
   ],
   "note": "Proved for off diagonal elements on the grid which are not negative everywhere. For constant off diagonal elements the grid spacings are left out and Emax is too small, also for a positive definite matrix (violation)."
  },
  {
   "property": "C144",
   "status": "partial",
   "theorems": [
    "QDng.Deriv.C144_uncoupled_violated",
    "QDng.Deriv.C144_init_partial"
   ],
   "note": "Violated for elements from files: an element that was not loaded is dereferenced. The other configurations are initialised."
  },
  {
   "property": "C145",
   "status": "proved",
   "theorems": [
    "QDng.Deriv.C145_formula",
    "QDng.Deriv.C145_pair",
    "QDng.Deriv.C145_anti"
   ],
   "note": ""
  },
  {
   "property": "C146",
   "status": "partial",
   "theorems": [
    "QDng.Deriv.C146_upper_partial",
    "QDng.Deriv.C146_upper_violated",
    "QDng.Deriv.C146_lower_violated"
   ],
   "note": "Emax is right for coupling functions that are nowhere negative if the first dimension has the smallest spacing. Violated in general: negative functions give a negative Emax; Emin is always zero."
  },
  {
   "property": "C147",
   "status": "partial",
   "theorems": [
    "QDng.GridFn.C147_mask_partial",
    "QDng.GridFn.C147_sharp",
    "QDng.GridFn.C147_half",
    "QDng.GridFn.C147_left_border_violated"
   ],
   "note": "Violated for an edge on the left border of the grid: it is accepted and the first value of the mask is not a number (0/0). Proved for all edges further inside."
  },
  {
   "property": "C148",
   "status": "partial",
   "theorems": [
    "QDng.GridFn.C148_absorber_partial",
    "QDng.GridFn.C148_left_violated"
   ],
   "note": "Proved for edges rp<i> (sum over the dimensions). Violated for lp<i>: the left pass is multiplied to a vector of zeros, so that an absorber on the left side of the grid is the zero operator."
  },
  {
   "property": "C149",
   "status": "partial",
   "theorems": [
    "QDng.GridFn.C149_bounds_partial",
    "QDng.GridFn.C149_absorber_violated"
   ],
   "note": "Proved for masks with non negative gain. Violated for absorbers with edges in several dimensions, whose values add up beyond the gain."
  },
  {
   "property": "C150",
   "status": "proved",
   "theorems": [
    "QDng.GridFn.C150_expectation"
   ],
   "note": "For an absorber without residue the real part, which is reported, is zero."
  },
  {
   "property": "C151",
   "status": "partial",
   "theorems": [
    "QDng.GridFn.C151_copy_partial",
    "QDng.GridFn.C151_flags_violated"
   ],
   "note": "Violated: the copy of an absorber says that it is Hermitian, and the conjugation is lost. The action of operators that are not conjugated agrees."
  },
  {
   "property": "C152",
   "status": "partial",
   "theorems": [
    "QDng.GridFn.C152_kick_partial",
    "QDng.GridFn.C152_gobbler_violated",
    "QDng.GridFn.C152_position_violated",
    "QDng.GridFn.C152_flux_violated"
   ],
   "note": "Holds for the kick. Violated for the others: the second attempt succeeds and leaves a mask without the edge, the zero operator, or a flux operator with a wrong number of members."
  },
  {
   "property": "C153",
   "status": "proved",
   "theorems": [
    "QDng.GridFn.C153_kick",
    "QDng.GridFn.C153_unitary"
   ],
   "note": ""
  },
  {
   "property": "C154",
   "status": "partial",
   "theorems": [
    "QDng.GridFn.C154_copy_partial",
    "QDng.GridFn.C154_new_violated",
    "QDng.GridFn.C154_old_violated"
   ],
   "note": "Violated: copying an initialised kick to a new one writes elements of an empty vector (undefined), copying it to an initialised one keeps the old kick. Only kicks that have not seen a wave function are copied correctly."
  },
  {
   "property": "C155",
   "status": "proved",
   "theorems": [
    "QDng.GridFn.C155_position"
   ],
   "note": ""
  },
  {
   "property": "C156",
   "status": "partial",
   "theorems": [
    "QDng.GridFn.C156_bounds_partial",
    "QDng.GridFn.C156_scale_violated",
    "QDng.GridFn.C156_sum_violated",
    "QDng.GridFn.C156_copy_violated"
   ],
   "note": "Proved for a chosen dimension without scale. Violated: the scale is ignored; without a dimension, the default, and for every copy the access is undefined (dimension -1)."
  },
  {
   "property": "C157",
   "status": "proved",
   "theorems": [
    "QDng.GridFn.C157_modifiers",
    "QDng.GridFn.C157_setzero"
   ],
   "note": "The reading of the file is not part of this model."
  },
  {
   "property": "C158",
   "status": "proved",
   "theorems": [
    "QDng.GridFn.C158_bounds"
   ],
   "note": ""
  },
  {
   "property": "C159",
   "status": "partial",
   "theorems": [
    "QDng.GridFn.C159_rate_partial",
    "QDng.GridFn.C159_sign_violated"
   ],
   "note": "Violated: the value is the opposite, the rate at which the probability inside of the volume grows under T + V, because the product is taken with the conjugate of T psi. The magnitude is right."
  },
  {
   "property": "C160",
   "status": "proved",
   "theorems": [
    "QDng.GridFn.C160_closed"
   ],
   "note": ""
  },
  {
   "property": "C161",
   "status": "partial",
   "theorems": [
    "QDng.GridFn.C161_copy_partial",
    "QDng.GridFn.C161_copy_violated"
   ],
   "note": "Violated: the copy has no buffer, so that asking it for a value dereferences a null pointer. It works once it has been initialised itself."
  },
  {
   "property": "C162",
   "status": "partial",
   "theorems": [
    "QDng.Spo.C162_eigen_partial",
    "QDng.Spo.C162_violated_degenerate",
    "QDng.Spo.C162_values",
    "QDng.Spo.C162_orthonormal"
   ],
   "note": "Violated for equal diagonal elements and a negative off diagonal element: the eigenvectors are exchanged. Values and orthonormality hold for all matrices."
  },
  {
   "property": "C163",
   "status": "proved",
   "theorems": [
    "QDng.Spo.C163_step"
   ],
   "note": "Time steps after the first are covered by C165."
  },
  {
   "property": "C164",
   "status": "proved",
   "theorems": [
    "QDng.Spo.C164_reverse",
    "QDng.Spo.C164_unitary",
    "QDng.Spo.C164_exact"
   ],
   "note": ""
  },
  {
   "property": "C165",
   "status": "partial",
   "theorems": [
    "QDng.Spo.C165_fresh_partial",
    "QDng.Spo.C165_violated_reset"
   ],
   "note": "Proved for propagators initialised at time step zero. Violated otherwise: the time of the initialisation is not recorded, a following step at time zero uses the values of the other time."
  },
  {
   "property": "C166",
   "status": "partial",
   "theorems": [
    "QDng.Spo.C166_single_partial",
    "QDng.Spo.C166_violated_init",
    "QDng.Spo.C166_violated_apply"
   ],
   "note": "Violated for all inputs: the kinetic energy of a single grid is a member of the sum that is initialised with the two state wave function, which it refuses. No history ends with a propagated two state wave function. The single state case works."
  },
  {
   "property": "C167",
   "status": "partial",
   "theorems": [
    "QDng.Spo.C167_accepted_partial",
    "QDng.Spo.C167_first",
    "QDng.Spo.C167_violated_second"
   ],
   "note": "Proved for the first call of Init of a propagator. Violated for the second: the buffer is allocated before the last check, so that the next Init returns at once and Apply reads null pointers."
  },
  {
   "property": "C168",
   "status": "partial",
   "theorems": [
    "QDng.Spo.C168_first_partial",
    "QDng.Spo.C168_violated_backward"
   ],
   "note": "Violated: the exponentials are computed at Init with the exponent of that time, later changes have no effect on either factor, in any history."
  },
  {
   "property": "C169",
   "status": "partial",
   "theorems": [
    "QDng.Spo.C169_violated_target"
   ],
   "note": "Violated for all inputs: the form with a target has an empty body, the target is left as it was. No case remains in which the claim holds."
  },
  {
   "property": "C170",
   "status": "partial",
   "theorems": [
    "QDng.Spo.C170_update_partial",
    "QDng.Spo.C170_violated_static"
   ],
   "note": "Proved for time dependent potentials. Violated for static ones: the missing coupling is asked for its time dependence (null pointer) at any time step other than zero."
  },
  {
   "property": "C171",
   "status": "partial",
   "theorems": [
    "QDng.Spo.C171_violated_copy"
   ],
   "note": "Violated for all histories: Copy assigns through pointers of which at least one is null in each reachable state. No case remains in which the claim holds."
  },
  {
   "property": "C172",
   "status": "partial",
   "theorems": [
    "QDng.Simd.C172_codelets_partial",
    "QDng.Simd.C172_imag_scalar",
    "QDng.Simd.C172_violated_imag"
   ],
   "note": "Violated for the imaginary part with SSE: the result is i Im(z) instead of Im(z), for every element that is not real. All other operations are proved for all builds."
  },
  {
   "property": "C173",
   "status": "partial",
   "theorems": [
    "QDng.Simd.C173_arithmetic_partial",
    "QDng.Simd.C173_violated_imags"
   ],
   "note": "Violated for imags(): it returns the real part of every number."
  },
  {
   "property": "C174",
   "status": "partial",
   "theorems": [
    "QDng.Simd.C174_scalar_partial",
    "QDng.Simd.C174_violated_sse",
    "QDng.Simd.C174_violated_case"
   ],
   "note": "Without SSE the operator is the one of C159. Violated with SSE: the flux through every boundary is reported as zero, because the imaginary part is not moved to the real part (C172)."
  },
  {
   "property": "C175",
   "status": "partial",
   "theorems": [
    "QDng.Simd.C175_product_partial",
    "QDng.Simd.C175_violated_processes"
   ],
   "note": "Proved for one process. Violated for several processes: the sums of the processes are not added (Integral does this), each process returns the share of its strides."
  },
  {
   "property": "C176",
   "status": "proved",
   "theorems": [
    "QDng.Simd.C176_recursion",
    "QDng.Simd.C176_agree"
   ],
   "note": ""
  },
  {
   "property": "C177",
   "status": "partial",
   "theorems": [
    "QDng.Simd.C177_norm_partial",
    "QDng.Simd.C177_stride",
    "QDng.Simd.C177_bound_partial",
    "QDng.Simd.C177_violated_race"
   ],
   "note": "Proved if the strides are handled one after the other. Violated for interleavings: the shared sum is updated without protection, the share of a stride can be lost. In no interleaving the value is too large."
  },
  {
   "property": "C178",
   "status": "partial",
   "theorems": [
    "QDng.HMat.C178_exponential_partial",
    "QDng.HMat.C178_violated_setzero",
    "QDng.HMat.C178_violated_setzero_value",
    "QDng.HMat.C178_violated_qdiag"
   ],
   "note": "Proved for operators read from a file without setzero, given the contract of LAPACK (shown to be satisfiable for every size). Violated with setzero: the diagonal form is computed before the shift and kept, so the step uses the matrix without the shift. Violated with qdiag: the transformation never gets its matrix, every step uses a null pointer."
  },
  {
   "property": "C179",
   "status": "proved",
   "theorems": [
    "QDng.HMat.C179_bounds"
   ],
   "note": "LAPACK enters through its contract (orthonormal eigenvectors, ascending eigenvalues of the matrix given by the upper triangle)."
  },
  {
   "property": "C180",
   "status": "partial",
   "theorems": [
    "QDng.HMat.C180_copy_partial",
    "QDng.HMat.C180_violated_fresh",
    "QDng.HMat.C180_violated_used"
   ],
   "note": "Application and exponential proved for new targets and for diagonalised pairs. Violated: the copy of a diagonalised operator into a new one uses a null pointer when asked for its energy bounds; copying an operator which is not diagonalised into one which is uses a null pointer."
  },
  {
   "property": "C181",
   "status": "proved",
   "theorems": [
    "QDng.HMat.C181_hermitian",
    "QDng.HMat.C181_transform"
   ],
   "note": "The transformation is stated after the first diagonalisation."
  },
  {
   "property": "C182",
   "status": "partial",
   "theorems": [
    "QDng.HMat.C182_emax_partial",
    "QDng.HMat.C182_violated"
   ],
   "note": "The upper bound is proved if neither the field nor the spectrum is larger in size on the negative side. Violated: for a pair of states in a field between -1 and 1 the lower bound is +1 while the energy -1 occurs."
  },
  {
   "property": "C183",
   "status": "partial",
   "theorems": [
    "QDng.Dms.C183_exponential_partial",
    "QDng.Dms.C183_violated_dipole",
    "QDng.Dms.C183_violated_nonhermitian",
    "QDng.Dms.C183_violated_unity",
    "QDng.Dms.C183_violated_missing"
   ],
   "note": "Proved for static potentials in symmetric matrices with all diagonal elements (or without unity and with a coupling), given the contract of LAPACK. Violated for dipole operators (the dipole moment is propagated instead of its product with the field), for couplings on one side only (the part below the diagonal is ignored), for missing diagonal elements with unity (applied as one, propagated as zero) and without couplings (null pointer)."
  },
  {
   "property": "C184",
   "status": "partial",
   "theorems": [
    "QDng.Dms.C184_transform_partial",
    "QDng.Dms.C184_violated_mixed",
    "QDng.Dms.C184_violated_coupling"
   ],
   "note": "Proved if all diagonal elements have transformations with one normalization and there are no couplings. Violated: with a diagonal element without transformation an entry which was never written is used; a potential as coupling is accepted and has no effect in a step."
  },
  {
   "property": "C185",
   "status": "partial",
   "theorems": [
    "QDng.Dms.C185_refused_partial",
    "QDng.Dms.C185_violated_twice"
   ],
   "note": "The first initialisation fails exactly for these operators. Violated: the second initialisation of a refused operator returns at once, and a step then uses an unset transformation."
  },
  {
   "property": "C186",
   "status": "partial",
   "theorems": [
    "QDng.Dms.C186_emax_partial",
    "QDng.Dms.C186_violated_emax",
    "QDng.Dms.C186_violated_emin"
   ],
   "note": "The upper bound is proved if the magnitudes of the bounds of the elements bound their energies and couplings. Violated: couplings with larger negative values (bound 1, energy 5) and negative energies (lower bound +1, energy -1)."
  },
  {
   "property": "C187",
   "status": "partial",
   "theorems": [
    "QDng.Dms.C187_copy_partial",
    "QDng.Dms.C187_violated_unity",
    "QDng.Dms.C187_violated_new",
    "QDng.Dms.C187_violated_time"
   ],
   "note": "Application and steps proved with all diagonal elements. Violated: unity is not copied (missing diagonal elements act as zero), a copy never tells to be time dependent, copying an operator which has not been initialised uses a null pointer."
  },
  {
   "property": "C188",
   "status": "proved",
   "theorems": [
    "QDng.Fric.C188_dissipation"
   ],
   "note": "The derivative is that of the equation of motion at the time of the application; the error of the propagators is not part of the statement."
  },
  {
   "property": "C189",
   "status": "proved",
   "theorems": [
    "QDng.Fric.C189_frozen"
   ],
   "note": "Independent of the kinetic energy operator."
  },
  {
   "property": "C190",
   "status": "partial",
   "theorems": [
    "QDng.Fric.C190_zero_partial",
    "QDng.Fric.C190_violated_norm"
   ],
   "note": "Proved for states with norm one. Violated otherwise: the mean position is divided by the norm instead of its square."
  },
  {
   "property": "C191",
   "status": "partial",
   "theorems": [
    "QDng.Fric.C191_hermitian_partial",
    "QDng.Fric.C191_violated_formula",
    "QDng.Fric.C191_violated_slope"
   ],
   "note": "With a mask (slope not zero) the operator with kept mean values is linear and hermitian. Violated: the product of the mean values is added instead of subtracted, so for c = 0 each state on positive positions has an expectation value with the sign of the mean momentum where the documented operator has zero; without mask (the default) values are used which were never set."
  },
  {
   "property": "C192",
   "status": "partial",
   "theorems": [
    "QDng.Fric.C192_kick_partial",
    "QDng.Fric.C192_violated_twice",
    "QDng.Fric.C192_violated_size"
   ],
   "note": "Proved after one initialisation for matrix elements on the grid of the wave function. Violated: each further initialisation multiplies with the time step again; matrix elements with fewer points are read behind their end."
  },
  {
   "property": "C193",
   "status": "partial",
   "theorems": [
    "QDng.Fric.C193_copy_partial",
    "QDng.Fric.C193_violated_frozen",
    "QDng.Fric.C193_violated_stokes"
   ],
   "note": "Proved for the Albrecht operator while it recalculates. Violated: kept mean values are not copied (the copy has none and no friction), and each use of a copy of the Stokes operator uses a pointer which was never set."
  },
  {
   "property": "C194",
   "status": "partial",
   "theorems": [
    "QDng.Fd.C194_partial",
    "QDng.Fd.C194_violated_masses",
    "QDng.Fd.C194_violated_negative",
    "QDng.Fd.C194_violated_few"
   ],
   "note": "Proved for equal masses above -1 and without masses. Violated: with different masses the factor of the last one is used for all dimensions; a mass of -1 gives a negative kinetic energy (and not an inactive dimension); fewer masses than dimensions are read behind their end."
  },
  {
   "property": "C195",
   "status": "proved",
   "theorems": [
    "QDng.Fd.C195_hermitian",
    "QDng.Fd.C195_antihermitian"
   ],
   "note": "For real numbers without rounding. First derivatives of order 6 and above are not exactly anti-hermitian, because the tabulated coefficient of the point itself is of the order of 10^-22."
  },
  {
   "property": "C196",
   "status": "partial",
   "theorems": [
    "QDng.Fd.C196_partial",
    "QDng.Fd.C196_violated_min",
    "QDng.Fd.C196_violated_first"
   ],
   "note": "Proved for the second derivative with the same positive mass in all dimensions: the expectation value is real and at most the reported maximum in absolute value; for order two it is also not below the minimum zero. Violated: without masses the operator is negative and the minimum is still zero; the maximum of the first derivative uses the spacing of the first dimension whatever the dimensions of the derivative are."
  },
  {
   "property": "C197",
   "status": "partial",
   "theorems": [
    "QDng.Fd.C197_partial",
    "QDng.Fd.C197_violated",
    "QDng.Fd.C197_violated_emax"
   ],
   "note": "Proved for a copy which is set up again with parameters and a wave function. Violated: the stencil is not copied and applying the copy uses a null pointer; the masses are not copied, so the reported maximum differs."
  },
  {
   "property": "C198",
   "status": "partial",
   "theorems": [
    "QDng.Logs.C198_partial",
    "QDng.Logs.C198_violated_detail",
    "QDng.Logs.C198_violated_reference",
    "QDng.Logs.C198_violated_header"
   ],
   "note": "Proved without indentation, with one setting of the details and one destination. Violated: details given while asked for are lost if that is switched off before the flush; text written through a stream reference obtained before a flush does not arrive with the next flush; headers are written although messages are suppressed."
  },
  {
   "property": "C199",
   "status": "partial",
   "theorems": [
    "QDng.Logs.C199_partial",
    "QDng.Logs.lines_spec",
    "QDng.Logs.C199_violated_midline",
    "QDng.Logs.C199_violated_spaces"
   ],
   "note": "Proved for messages of whole lines without suppression. Violated: a flush in the middle of a line puts the indentation in the middle; after a suppressed message a flush writes the indentation without a message."
  },
  {
   "property": "C200",
   "status": "partial",
   "theorems": [
    "QDng.Logs.C200_partial",
    "QDng.Logs.C200_centred",
    "QDng.Logs.C200_violated_long",
    "QDng.Logs.C200_violated_section"
   ],
   "note": "Proved for titles which fit. Violated: for longer titles the fill is computed in unsigned numbers and has more than 2^62 characters, for sections also if the title has less than four characters less than the line."
  },
  {
   "property": "C201",
   "status": "partial",
   "theorems": [
    "QDng.Logs.C201_partial",
    "QDng.Logs.C201_violated_pending",
    "QDng.Logs.C201_violated_second"
   ],
   "note": "Proved if nothing is pending at the redirection and no file is open. Violated: messages given before a redirection arrive at the new destination; asking for a second file fails and all later messages are lost."
  },
  {
   "property": "C202",
   "status": "partial",
   "theorems": [
    "QDng.Absorb.C202_damping_partial",
    "QDng.Absorb.C202_default_partial",
    "QDng.Absorb.C202_quadrant_partial",
    "QDng.Absorb.C202_violated_odd",
    "QDng.Absorb.C202_violated_amplifies",
    "QDng.Absorb.C202_violated_infinite",
    "QDng.Absorb.C202_violated_profile"
   ],
   "note": "Proved for even orders (as the default) and angles up to a quarter turn. Violated: with odd orders the layer amplifies or divides by zero; the strength at the border is larger than the given maximum by (1+1/thick)^p, and the innermost point is at depth 2/thick."
  },
  {
   "property": "C203",
   "status": "partial",
   "theorems": [
    "QDng.Absorb.C203_estimate_partial",
    "QDng.Absorb.C203_tolerance_partial",
    "QDng.Absorb.C203_default_partial",
    "QDng.Absorb.C203_violated"
   ],
   "note": "The returning amplitude is the tolerance to the power 2 sin(gamma pi)/1.141, so it is at most the tolerance for the default angle. Violated: the estimate does not depend on the angle, for smaller angles more returns."
  },
  {
   "property": "C204",
   "status": "partial",
   "theorems": [
    "QDng.Absorb.C204_emax_partial",
    "QDng.Absorb.C204_violated_emin"
   ],
   "note": "The bound by the maximal energy is proved. Violated for the imaginary part of the minimal energy (angle without the factor pi, first dimension only)."
  },
  {
   "property": "C205",
   "status": "partial",
   "theorems": [
    "QDng.Absorb.C205_adjoint_partial",
    "QDng.Absorb.C205_violated_adjoint"
   ],
   "note": "Proved for matrix elements between wave functions that vanish in the layers. Violated otherwise: the order of derivatives and layers is kept."
  },
  {
   "property": "C206",
   "status": "proved",
   "theorems": [
    "QDng.Absorb.C206_kinetic",
    "QDng.Absorb.C206_linear",
    "QDng.Absorb.C206_absorbs"
   ],
   "note": "The absorption is proved for one dimension and layers that do not overlap."
  },
  {
   "property": "C207",
   "status": "partial",
   "theorems": [
    "QDng.Absorb.C207_life_partial",
    "QDng.Absorb.C207_violated_copy",
    "QDng.Absorb.C207_violated_again",
    "QDng.Absorb.C207_violated_rejected"
   ],
   "note": "Proved for the first initialisation and copies of initialised operators. Violated: copying an operator before its initialisation and self assignment are undefined behaviour; a second initialisation for another grid is ignored; after a rejected initialisation the operator claims to be valid."
  },
  {
   "property": "C208",
   "status": "partial",
   "theorems": [
    "QDng.Absorb.C208_derivative_partial",
    "QDng.Absorb.C208_violated"
   ],
   "note": "Violated: the table holds the derivative divided by the fourth power of the factor (it is not used by the operators at present)."
  },
  {
   "property": "C209",
   "status": "partial",
   "theorems": [
    "QDng.Zcopy.C209_write_partial",
    "QDng.Zcopy.C209_full_partial",
    "QDng.Zcopy.C209_violated_empty"
   ],
   "note": "Proved for at least one byte. Violated for zero bytes: the test after the loop reads a variable that is not set."
  },
  {
   "property": "C210",
   "status": "proved",
   "theorems": [
    "QDng.Zcopy.C210_read",
    "QDng.Zcopy.C210_short",
    "QDng.Zcopy.C210_round_trip"
   ],
   "note": ""
  },
  {
   "property": "C211",
   "status": "partial",
   "theorems": [
    "QDng.Mods.C211_builtin",
    "QDng.Mods.C211_stable",
    "QDng.Mods.C211_links",
    "QDng.Mods.C211_violated_prefix"
   ],
   "note": "Precedence, stability and link count are proved. Violated: the prefix is accepted for wave functions only, the full name of an operator class is not found or comes from some library."
  },
  {
   "property": "C212",
   "status": "partial",
   "theorems": [
    "QDng.Mods.C212_order_partial",
    "QDng.Mods.C212_missing_partial",
    "QDng.Mods.C212_invalid_partial",
    "QDng.Mods.C212_violated_slash",
    "QDng.Mods.C212_violated_system",
    "QDng.Mods.C212_violated_empty_path"
   ],
   "note": "Proved for QD_MOD_PATH and compiled-in path with a slash at the end. Violated: QD_MOD_PATH without slash is not searched; system directories are searched for a name without .so; the empty user path is undefined behaviour."
  },
  {
   "property": "C213",
   "status": "partial",
   "theorems": [
    "QDng.Mods.C213_sources_partial",
    "QDng.Mods.C213_violated_expansion"
   ],
   "note": "Proved: the class is loaded, compiled in, or comes from the first word of the expansion of a tried name. Violated: the names are expanded like in a shell; a failing expansion is undefined behaviour, with several words another file is opened."
  },
  {
   "property": "C214",
   "status": "partial",
   "theorems": [
    "QDng.Qdz.C214_letters_partial",
    "QDng.Qdz.C214_compress_partial",
    "QDng.Qdz.C214_decompress_partial",
    "QDng.Qdz.C214_refuse_partial",
    "QDng.Qdz.C214_violated_default",
    "QDng.Qdz.C214_violated_level0",
    "QDng.Qdz.C214_violated_number",
    "QDng.Qdz.C214_violated_status"
   ],
   "note": "Proved with the method given. Violated: without -m every compression is refused; level 0 is refused; unreadable numbers are undefined behaviour; a missing file ends with status 0."
  },
  {
   "property": "C215",
   "status": "partial",
   "theorems": [
    "QDng.Qdz.C215_series_partial",
    "QDng.Qdz.C215_first_partial",
    "QDng.Qdz.C215_violated_read",
    "QDng.Qdz.C215_violated_silent"
   ],
   "note": "Proved without errors behind the first file. Violated: errors at later files end the program with success, the rest is not converted."
  },
  {
   "property": "C216",
   "status": "partial",
   "theorems": [
    "QDng.Qdz.C216_planner_partial",
    "QDng.Qdz.C216_save_partial",
    "QDng.Qdz.C216_violated_file"
   ],
   "note": "Planner proved. Saving is proved if wisdomsave is given or wisdom is not. Violated: with the parameter wisdom alone another file is written than announced."
  },
  {
   "property": "C217",
   "status": "partial",
   "theorems": [
    "QDng.Qdz.C217_first_partial",
    "QDng.Qdz.C217_fails_partial",
    "QDng.Qdz.C217_violated_second"
   ],
   "note": "Proved for the first document. Violated: after the root was asked for, a second document does not change it; before any document the root is a node without element."
  },
  {
   "property": "C218",
   "status": "partial",
   "theorems": [
    "QDng.Tmp.C218_array_partial",
    "QDng.Tmp.C218_violated_position",
    "QDng.Tmp.C218_violated_large"
   ],
   "note": "Proved for explicit positions whose byte offset is not -1 modulo 2^32. Violated: after the opening with a size the position is the end; sizes that are multiples of 4 GiB cannot be created."
  },
  {
   "property": "C219",
   "status": "partial",
   "theorems": [
    "QDng.Tmp.C219_clean_partial",
    "QDng.Tmp.C219_full_partial",
    "QDng.Tmp.C219_violated_error"
   ],
   "note": "Proved if no call fails, and for a full disk while the file is created. Violated: after a failed read or write the file stays for ever."
  },
  {
   "property": "C220",
   "status": "partial",
   "theorems": [
    "QDng.Tmp.C220_size_partial",
    "QDng.Tmp.C220_resize_partial",
    "QDng.Tmp.C220_violated_resize",
    "QDng.Tmp.C220_violated_map"
   ],
   "note": "Proved for the opening; resizing keeps the elements. Violated: resizing does not change the reported size, so going back to the first size does nothing; a failing mapping is not noticed."
  },
  {
   "property": "C221",
   "status": "partial",
   "theorems": [
    "QDng.Tmp.C221_pair_partial",
    "QDng.Tmp.C221_exists_partial",
    "QDng.Tmp.C221_violated_unique",
    "QDng.Tmp.C221_violated_leftover"
   ],
   "note": "Violated: the default name is the same for all objects; if the second pipe cannot be created the first stays."
  },
  {
   "property": "C222",
   "status": "partial",
   "theorems": [
    "QDng.Raw.C222_roundtrip_partial",
    "QDng.Raw.C222_into_partial",
    "QDng.Raw.C222_compressed_partial",
    "QDng.Raw.C222_incompressible_partial",
    "QDng.Raw.C222_violated_overread",
    "QDng.Raw.C222_violated_tag"
   ],
   "note": "Proved for data with a zero byte among the first 16 that looks neither like a stream nor like compressed data. Violated: without a zero byte in the first complex number the format detection reads beyond its buffer; data that ends with the tag of a compression is not readable; data that does not get smaller cannot be stored compressed (an exception, no file touched)."
  },
  {
   "property": "C223",
   "status": "partial",
   "theorems": [
    "QDng.Raw.C223_series_partial",
    "QDng.Raw.C223_violated_params"
   ],
   "note": "Proved for wave functions of one class with the same parameters. Violated: there is one parameter file for the whole series, the last frame decides how all frames are read; a larger frame is cut off silently."
  },
  {
   "property": "C224",
   "status": "partial",
   "theorems": [
    "QDng.Raw.C224_violated_multi",
    "QDng.Raw.C224_state_partial",
    "QDng.Raw.C224_leftover_partial",
    "QDng.Raw.C224_into_partial"
   ],
   "note": "Violated in general: the reader wants a data file with the name of the whole, which is never written, so reading always ends with an exception. Proved: every state can be read on its own; with an unrelated file of that name up to 63 states are read back."
  },
  {
   "property": "C225",
   "status": "proved",
   "theorems": [
    "QDng.Raw.C225_files",
    "QDng.Raw.C225_total"
   ],
   "note": "For the suffix the class sets."
  },
  {
   "property": "C226",
   "status": "partial",
   "theorems": [
    "QDng.Raw.C226_read_partial",
    "QDng.Raw.C226_violated_write",
    "QDng.Raw.C226_violated_read"
   ],
   "note": "Proved: reading changes no file and after success name and counter are as expected. Violated: an exception while a state is written or read leaves the name of that state in the object."
  },
  {
   "property": "C227",
   "status": "proved",
   "theorems": [
    "QDng.Raw.C227_frame"
   ],
   "note": "As long as no parameter file of the very name of the frame exists."
  },
  {
   "property": "C228",
   "status": "partial",
   "theorems": [
    "QDng.Raw.C228_options_partial",
    "QDng.Raw.C228_invalid_partial",
    "QDng.Raw.C228_violated_lost"
   ],
   "note": "Proved: decision table of the options; with an unknown method nothing is written in the binary format. Violated: with several states in the stream format the existing file is emptied before the unknown method is noticed."
  },
  {
   "property": "C229",
   "status": "proved",
   "theorems": [
    "QDng.Store.C229_session",
    "QDng.Store.C229_returns"
   ],
   "note": "States that are not themselves multistate wave functions; calls made to the multistate wave function by its own class (see C232)."
  },
  {
   "property": "C230",
   "status": "proved",
   "theorems": [
    "QDng.Store.C230_delete",
    "QDng.Store.C230_catching",
    "QDng.Store.C230_retired",
    "QDng.Store.C230_build"
   ],
   "note": ""
  },
  {
   "property": "C231",
   "status": "partial",
   "theorems": [
    "QDng.Store.C231_kspace_partial",
    "QDng.Store.C231_retry",
    "QDng.Store.C231_violated_exception",
    "QDng.Store.C231_violated_stays"
   ],
   "note": "Proved for sessions without exception, and for a second call after an exception. Violated: if memory runs out during the change some states stay in the new representation while the multistate wave function says the old one, and setting the old one does nothing."
  },
  {
   "property": "C232",
   "status": "partial",
   "theorems": [
    "QDng.Store.C232_write_partial",
    "QDng.Store.C232_violated_switch",
    "QDng.Store.C232_violated_resize",
    "QDng.Store.C232_violated_base"
   ],
   "note": "Proved for writing values. Violated: after IsKspace of a state the multistate wave function shows the old buffer and no longer the values of the state; after newsize of a state it points to memory that was given back; IsKspace is not virtual, a call through WaveFunction* unlinks the states and deleting gives memory back twice."
  },
  {
   "property": "C233",
   "status": "partial",
   "theorems": [
    "QDng.Store.C233_swap_partial",
    "QDng.Store.C233_violated_fewer",
    "QDng.Store.C233_violated_more"
   ],
   "note": "Proved for the same number of strides. Violated: only total sizes are compared; with fewer strides in the second vector pointers beyond an array are exchanged, with more strides elements are lost although success is reported."
  },
  {
   "property": "C234",
   "status": "partial",
   "theorems": [
    "QDng.Store.C234_newsize_partial",
    "QDng.Store.C234_violated_exception",
    "QDng.Store.C234_violated_leak",
    "QDng.Store.C234_violated_retired"
   ],
   "note": "Proved when newsize returns with another shape. Violated: after every exception in newsize deleting the vector is undefined behaviour (pointers never set); an exception in the constructor after the first stride leaks it; newsize to the present size after RetireStorage leaves the vector without storage."
  },
  {
   "property": "C235",
   "status": "partial",
   "theorems": [
    "QDng.Main.C235_run_begins",
    "QDng.Main.C235_status_partial",
    "QDng.Main.C235_text",
    "QDng.Main.C235_violated_no_input",
    "QDng.Main.C235_violated_bad_definition",
    "QDng.Main.C235_violated_unknown_option"
   ],
   "note": "Proved: exactly when a run begins, and the status of a run that begins. Violated: without input file and with a malformed variable definition the status is 0; unknown options are ignored silently."
  },
  {
   "property": "C236",
   "status": "partial",
   "theorems": [
    "QDng.Main.C236_settings_partial",
    "QDng.Main.C236_threads_partial",
    "QDng.Main.C236_violated_no_number",
    "QDng.Main.C236_violated_not_positive"
   ],
   "note": "Proved for all settings, for the number of threads if the argument of -p is a positive number. Violated: an argument of -p that is no number means one thread, whatever the environment says; 0 and negative numbers are passed on to OpenMP."
  },
  {
   "property": "C237",
   "status": "partial",
   "theorems": [
    "QDng.Main.C237_format_partial",
    "QDng.Main.C237_violated_long",
    "QDng.Main.C237_unreadable",
    "QDng.Main.C237_input"
   ],
   "note": "Proved for text files with fewer than 1024 characters. Violated: the buffer has no terminating zero for longer files, the search runs beyond its end unless both ends of tags are among the first 1024 characters; this is the case for all long files in the simple format."
  },
  {
   "property": "C238",
   "status": "partial",
   "theorems": [
    "QDng.EigRun.C238_checked_partial",
    "QDng.EigRun.C238_settings",
    "QDng.EigRun.C238_violated_empty_directory"
   ],
   "note": "Proved with a usable directory name. Violated: an empty directory attribute is undefined behaviour."
  },
  {
   "property": "C239",
   "status": "partial",
   "theorems": [
    "QDng.EigRun.C239_table_partial",
    "QDng.EigRun.C239_failure_reported",
    "QDng.EigRun.C239_violated_terminates"
   ],
   "note": "Proved if the file can be opened. Violated: if it cannot be opened, throw without an exception ends the whole program (std::terminate) and the message is never printed."
  },
  {
   "property": "C240",
   "status": "proved",
   "theorems": [
    "QDng.OctFreq.C240_both_fields",
    "QDng.OctFreq.C240_unique",
    "QDng.OctFreq.C240_iteration"
   ],
   "note": "For FFTW transformations as documented; exact arithmetic."
  },
  {
   "property": "C241",
   "status": "proved",
   "theorems": [
    "QDng.OctFreq.C241_krotov"
   ],
   "note": "For guess fields that are equal for all lasers, and operators as targets or a reversible propagator."
  },
  {
   "property": "C242",
   "status": "partial",
   "theorems": [
    "QDng.OctFreq.C242_spectrum_partial",
    "QDng.OctFreq.C242_violated_doubled",
    "QDng.OctFreq.C242_violated_run"
   ],
   "note": "Proved: the exact spectrum of the new field for a constant shape. Violated: the correction field has the wrong sign (line 351 adds it to the correlation inside the bracket), blocked components of the change are doubled instead of removed."
  },
  {
   "property": "C243",
   "status": "partial",
   "theorems": [
    "QDng.OctFreq.C243_yield_partial",
    "QDng.OctFreq.C243_violated_gobbler"
   ],
   "note": "Proved for operators and for reversible propagators without gobbler. Violated with a gobbler: the target is propagated backward and forward again with absorption and not restored; the report can say 1 while the overlap is 9/25."
  },
  {
   "property": "C244",
   "status": "partial",
   "theorems": [
    "QDng.OctFreq.C244_bounds_partial",
    "QDng.OctFreq.C244_lower",
    "QDng.OctFreq.C244_upper",
    "QDng.OctFreq.C244_violated_edge",
    "QDng.OctFreq.C244_violated_zero",
    "QDng.OctFreq.C244_edge_accepted"
   ],
   "note": "Proved with the bounds multiplied by (N-1)/N. Violated: the position of a bound is computed with N-1 steps instead of N, so the component with exactly the upper frequency is damped below one half; a bound of zero makes the constant component not a number."
  },
  {
   "property": "C245",
   "status": "partial",
   "theorems": [
    "QDng.OctRun.C245_checked_partial",
    "QDng.OctRun.C245_settings",
    "QDng.OctRun.C245_yield_file",
    "QDng.OctRun.C245_violated_negative",
    "QDng.OctRun.C245_violated_freq"
   ],
   "note": "Proved for a number of steps that is not negative, a usable directory, and for the method freq if both bounds are given. Violated: negative numbers of steps are accepted; with the method freq and a mask file, or with one bound only, values that were never set are printed."
  },
  {
   "property": "C246",
   "status": "partial",
   "theorems": [
    "QDng.OctRun.C246_message_partial",
    "QDng.OctRun.C246_violated",
    "QDng.OctRun.C246_violated_targets"
   ],
   "note": "Proved for failures behind the search for the laser field. Violated: the destructor reads the pointer _Coup, which is set only by that search, so all earlier failures are undefined behaviour; a refused number of targets above 16 is used by the destructor as a bound for arrays with 16 elements."
  },
  {
   "property": "C247",
   "status": "partial",
   "theorems": [
    "QDng.Coupling.C247_finds_partial",
    "QDng.Coupling.C247_violated_many",
    "QDng.Coupling.C247_violated_alone",
    "QDng.Coupling.C247_violated_diagonal",
    "QDng.Coupling.C247_violated_permanent",
    "QDng.Coupling.C247_violated_grid",
    "QDng.Coupling.C247_violated_upper",
    "QDng.Coupling.C247_violated_null"
   ],
   "note": "Proved for symmetric matrices without lasers on the diagonal or in sums on a grid, a Hamiltonian that is not one laser operator alone, and up to 16 lasers. Violated: more than 16 lasers write behind arrays; one laser operator without label as the whole Hamiltonian; lasers on the diagonal of a matrix, in sums on a grid (GridSum), or above the diagonal only are not found; a matrix that is not symmetric without any label uses a null pointer."
  },
  {
   "property": "C248",
   "status": "partial",
   "theorems": [
    "QDng.Coupling.C248_response_partial",
    "QDng.Coupling.C248_violated_product",
    "QDng.Coupling.C248_violated_two",
    "QDng.Coupling.C248_violated_one_sided"
   ],
   "note": "Proved under the hypotheses of C247 if no laser is a factor of a product. Sums on a grid are taken for the sum of their members (see C26), lasers for linear in the field. Violated: other factors of a product are left out; with two lasers as factors the response is quadratic; a laser at one side of a matrix that is not symmetric is put at both sides."
  },
  {
   "property": "C249",
   "status": "partial",
   "theorems": [
    "QDng.LaserGen.C249_single_partial",
    "QDng.LaserGen.C249_double_partial",
    "QDng.LaserGen.C249_violated_short",
    "QDng.LaserGen.C249_violated_center",
    "QDng.LaserGen.C249_violated_width",
    "QDng.LaserGen.C249_violated_several"
   ],
   "note": "Proved for operators with one laser if the number of steps is divisible by 2 and 8 where the default center and width are used. Violated: both defaults use a division of integers, so the center is off for odd numbers of steps, the width is too small if the number of steps is not a multiple of 8, and below 8 steps the field is NaN in the middle and zero elsewhere; operators with several lasers (Raman) do not support gen. Exact arithmetic."
  },
  {
   "property": "C250",
   "status": "proved",
   "theorems": [
    "QDng.LaserGen.C250_source",
    "QDng.LaserGen.C250_clocks",
    "QDng.LaserGen.C250_file"
   ],
   "note": "Reading a file written for an empty field is undefined behaviour in the model and not part of the claim."
  },
  {
   "property": "C251",
   "status": "partial",
   "theorems": [
    "QDng.LaserGen.C251_reload_partial",
    "QDng.LaserGen.C251_violated_backward"
   ],
   "note": "Proved for positive time steps, given that files keep their content (C14, C107). Violated: with a time step that is not positive the field is generated and written, but the file is refused on reading."
  },
  {
   "property": "C252",
   "status": "partial",
   "theorems": [
    "QDng.LaserGen.C252_copy_partial",
    "QDng.LaserGen.C252_violated_early",
    "QDng.LaserGen.C252_violated_other"
   ],
   "note": "Proved for a copy made after setting a clock and used with the same clock. Violated: the parameters of the pulse are not copied, so a copy made before refuses every clock, and one made afterwards refuses all clocks that are longer or have another time step."
  },
  {
   "property": "C253",
   "status": "partial",
   "theorems": [
    "QDng.LaserGen.C253_bounds_partial"
   ],
   "note": "True for up to two steps. Violated for every clock with three or more steps: the loop runs over all values of the field although the spectrum has only half as many. The function is not called by the programs."
  },
  {
   "property": "C254",
   "status": "partial",
   "theorems": [
    "QDng.LaserGen.C254_once_partial",
    "QDng.LaserGen.C254_violated"
   ],
   "note": "Proved exactly: an array is deleted twice if and only if the number of lasers is changed while vectors exist that are switched off. The functions are protected and not called by the classes of the repository."
  },
  {
   "property": "C255",
   "status": "partial",
   "theorems": [
    "QDng.OpChain.C255_sound_partial",
    "QDng.OpChain.C255_complete_partial",
    "QDng.OpChain.C255_violated_underscores"
   ],
   "note": "Proved in both directions for inputs where keys do not begin with two underscores and elements of matrices are named letter, row, point, column. Violated for keys like the generated ones: they are silently replaced by an operator without a key. A sum on a grid with a dipole that generates its laser field does not count as an input with a meaning (C258)."
  },
  {
   "property": "C256",
   "status": "partial",
   "theorems": [
    "QDng.OpChain.C256_name",
    "QDng.OpChain.C256_places_partial",
    "QDng.OpChain.C256_violated_point",
    "QDng.OpChain.C256_violated_letters",
    "QDng.OpChain.C256_violated_empty",
    "QDng.OpChain.C256_violated_negative"
   ],
   "note": "Proved for names of the documented form. Violated: names without a point go to the first column, letters count as zero, with an empty row an uninitialised number is used, with negative numbers memory in front of the matrix is written."
  },
  {
   "property": "C257",
   "status": "proved",
   "theorems": [
    "QDng.OpChain.C257_acyclic",
    "QDng.OpChain.C257_shared",
    "QDng.OpChain.C257_reference",
    "QDng.OpChain.C257_self"
   ],
   "note": "Keys of users do not begin with two underscores (see C255). Removing operators from the list between two runs of programs is not part of the model (C41)."
  },
  {
   "property": "C258",
   "status": "partial",
   "theorems": [
    "QDng.OpChain.C258_answered_partial",
    "QDng.OpChain.C258_violated_text",
    "QDng.OpChain.C258_violated_empty",
    "QDng.OpChain.C258_violated_comment",
    "QDng.OpChain.C258_violated_clock"
   ],
   "note": "Proved for inputs without sums on grids whose matrices have elements with proper names and whose lists with text in them have elements. Violated: an operator that is not on a grid in a sum on a grid throws a text, which is not an Exception; empty sums on grids and matrices use a NULL pointer, also lists with white space or a comment only; a dipole with a generated field in a sum on a grid uses the clock before there is one."
  },
  {
   "property": "C259",
   "status": "partial",
   "theorems": [
    "QDng.OpChain.C259_given_partial",
    "QDng.OpChain.C259_violated_default"
   ],
   "note": "Proved if the attribute is given as true or false. Violated without it: the operator uses one, the handbook, the comment of the class and the log say zero."
  },
  {
   "property": "C260",
   "status": "partial",
   "theorems": [
    "QDng.OpChain.C260_label_partial",
    "QDng.OpChain.C260_violated_reference",
    "QDng.OpChain.C260_violated_inherited"
   ],
   "note": "Proved for operators that are given with a label. Violated: a label of a reference is ignored, and an operator without a key and a label takes over the label of an entry with its generated key."
  },
  {
   "property": "C261",
   "status": "partial",
   "theorems": [
    "QDng.Gmc.C261_formula_partial",
    "QDng.Gmc.C261_product_partial",
    "QDng.Gmc.C261_interior_partial",
    "QDng.Gmc.C261_interior_near_partial",
    "QDng.Gmc.C261_violated_edge",
    "QDng.Gmc.C261_violated_mixed",
    "QDng.Gmc.C261_violated_constant",
    "QDng.Gmc.C261_violated_constant_single"
   ],
   "note": "Proved if all elements are functions on the grid: the operator is the one of the product rule with finite differences, and for constant elements equal to the one without chain rule away from the edges (for orders above 4 up to the rounding of the table). Violated: at the edges the elements are taken as zero outside of the grid, an element that is not loaded uses a pointer that was never assigned, a constant diagonal element an empty vector."
  },
  {
   "property": "C262",
   "status": "partial",
   "theorems": [
    "QDng.Gmc.C262_single_partial",
    "QDng.Gmc.C262_violated_refusal",
    "QDng.Gmc.C262_violated_accepted",
    "QDng.Gmc.C262_violated_ignored"
   ],
   "note": "Proved: each of them alone is set up. Violated: the check comes before the parameter is read, no sequence of calls is ever refused, and the layers then have no effect."
  },
  {
   "property": "C263",
   "status": "partial",
   "theorems": [
    "QDng.Gmc.C263_same_partial",
    "QDng.Gmc.C263_violated_layer"
   ],
   "note": "Proved without chain rule and layers. Violated with absorbing layers: the factor of the layer is applied twice for a number and once for a function."
  },
  {
   "property": "C264",
   "status": "partial",
   "theorems": [
    "QDng.Gmc.C264_original_partial",
    "QDng.Gmc.C264_violated",
    "QDng.Gmc.C264_violated_uninitialised"
   ],
   "note": "Violated: a copy lacks a buffer and its set-up returns early, so every application uses a NULL pointer; copying an operator that was not initialised does so at once. Proved: the original can be applied."
  },
  {
   "property": "C265",
   "status": "proved",
   "theorems": [
    "QDng.Chexp.C265_step",
    "QDng.Chexp.C265_converges"
   ],
   "note": "Against the differential equation itself: the expansion of the exponential function in Chebychev polynomials with Bessel functions is proved from the power series, with a bound for the rest. The library routine for the Bessel functions is assumed to be exact, numbers are exact."
  },
  {
   "property": "C266",
   "status": "partial",
   "theorems": [
    "QDng.Chexp.C266_enough_partial",
    "QDng.Chexp.C266_small",
    "QDng.Chexp.C266_refuses",
    "QDng.Chexp.C266_violated_crossing"
   ],
   "note": "Proved wherever the chosen number is at least 1.5 z + 1, z half of the energy range times the time step; always for z up to 2/3. Violated where two successive Bessel functions agree below that: there is a z between one and two for which two terms are chosen and accepted, with an error of a fifth of the norm. Also proved: which set-ups are refused."
  },
  {
   "property": "C267",
   "status": "partial",
   "theorems": [
    "QDng.Chexp.C267_norm_partial",
    "QDng.Chexp.C267_violated_cut"
   ],
   "note": "Proved: only the norm is that close, otherwise all terms are used. Violated: for a two level system there is a wave function for which three terms have exactly the norm of the input, the series is cut for every precision and the result is wrong by more than 0.3 percent."
  },
  {
   "property": "C268",
   "status": "partial",
   "theorems": [
    "QDng.Chexp.C268_scaled_partial",
    "QDng.Chexp.C268_violated_factor"
   ],
   "note": "Proved up to a factor exp(-1.05 range dt), for a lower bound that is not larger in size than the range: the Bessel functions are requested scaled by exp(-x) and the scaling is never undone. Violated without the factor: a state of zero energy loses a third of its norm at least. Forward in imaginary time is the growing direction."
  },
  {
   "property": "C269",
   "status": "proved",
   "theorems": [
    "QDng.Accur.C269_step",
    "QDng.Accur.C269_many"
   ],
   "note": "Against the differential equation itself. Hamiltonians that do not depend on time; numbers are exact."
  },
  {
   "property": "C270",
   "status": "partial",
   "theorems": [
    "QDng.Accur.C270_bounded_partial",
    "QDng.Accur.C270_violated_growth",
    "QDng.Accur.C270_violated_loss"
   ],
   "note": "Proved: the norm does not grow if the time step times the largest energy is at most the square root of eight; nothing in the propagator checks that. Violated beyond: every eigenstate above the limit grows without bound. The norm is not conserved below the limit either: eigenstates of other energies than zero lose norm in each step."
  },
  {
   "property": "C271",
   "status": "proved",
   "theorems": [
    "QDng.Accur.C271_step",
    "QDng.Accur.C271_many"
   ],
   "note": "Against the differential equation on the grid. Single state wave functions, many steps for operators that do not depend on time; numbers are exact, the Fourier transform is the exact discrete one."
  },
  {
   "property": "C272",
   "status": "proved",
   "theorems": [
    "QDng.Accur.C272_many"
   ],
   "note": "The library routine for the Bessel functions is assumed to be exact, numbers are exact."
  },
  {
   "property": "C273",
   "status": "proved",
   "theorems": [
    "QDng.Accur.C273_step",
    "QDng.Accur.C273_many"
   ],
   "note": "Against the differential equation itself. The steps are those that are defined (the Krylov vectors are independent, see C104); the Hamiltonian does not depend on time, numbers are exact."
  },
  {
   "property": "C274",
   "status": "proved",
   "theorems": [
    "QDng.Accur.C274_step",
    "QDng.Accur.C274_many"
   ],
   "note": "Against the differential equation itself. The steps are those that are defined (the matrix of eigenvectors can be inverted); eigenfunctions are in C105, with old vectors in the buffers they may fail. The Hamiltonian does not depend on time, numbers are exact."
  },
  {
   "property": "C275",
   "status": "partial",
   "theorems": [
    "QDng.PLife.C275_fields_partial",
    "QDng.PLife.C275_violated_rk4",
    "QDng.PLife.C275_rk4_clocked_partial"
   ],
   "note": "Holds for the Chebychev, Lanczos and Arnoldi propagators. The Runge-Kutta propagator accepts the set-up, but no one gives the clock to the Hamiltonian, so every step with a laser reads a null pointer; it holds if the Hamiltonian was given the clock before, as the optimal control program does."
  },
  {
   "property": "C276",
   "status": "partial",
   "theorems": [
    "QDng.PLife.C276_arnoldi_partial",
    "QDng.PLife.C276_violated",
    "QDng.PLife.C276_violated_threshold",
    "QDng.PLife.C276_violated_early"
   ],
   "note": "Copies of Chebychev, Lanczos and Runge-Kutta propagators never make a step, whatever is done with them: the names of the operators, the buffer of the Krylov vectors or the Hamiltonian are missing. Copies of Arnoldi propagators make the same steps if the threshold is the default one. Copying a propagator that was never set up reads a null pointer."
  },
  {
   "property": "C277",
   "status": "partial",
   "theorems": [
    "QDng.PLife.C277_partial",
    "QDng.PLife.C277_violated_cheby",
    "QDng.PLife.C277_violated_lasers"
   ],
   "note": "Holds without lasers for the Lanczos, Arnoldi and Runge-Kutta propagators. The Chebychev propagator keeps the series for the first time step; the lasers of the Lanczos and Arnoldi propagators stay with the first clock."
  },
  {
   "property": "C278",
   "status": "partial",
   "theorems": [
    "QDng.PLife.C278_hamiltonian",
    "QDng.PLife.C278_krylov",
    "QDng.PLife.C278_hermitian",
    "QDng.PLife.C278_cheby_clock_partial",
    "QDng.PLife.C278_violated_cheby",
    "QDng.PLife.C278_violated_order",
    "QDng.PLife.C278_violated_rk4",
    "QDng.PLife.C278_violated_laser"
   ],
   "note": "A missing Hamiltonian is always reported; the Lanczos and Arnoldi propagators report a missing clock, time step or wave function and the Lanczos propagator a Hamiltonian that is not hermitian as often as they are asked. The Chebychev propagator without a clock reads a null pointer if there is a generated pulse. Refused only the first time: an order that is too small (Chebychev, steps then read coefficients that do not exist), a missing clock (Runge-Kutta), a laser that does not fit (Lanczos, Arnoldi)."
  },
  {
   "property": "C279",
   "status": "partial",
   "theorems": [
    "QDng.RitzEf.C279_needs_arnoldi",
    "QDng.RitzEf.C279_ritz_partial",
    "QDng.RitzEf.C279_hermitian_partial",
    "QDng.RitzEf.C279_violated_eigenfunction"
   ],
   "note": "Holds if the initial wave function is not an eigenfunction within 1e-11. If it is one, the order is not reduced: `order` functions are written, all but one are zero (or undefined memory) with the energy zero, whatever the levels are."
  },
  {
   "property": "C280",
   "status": "proved",
   "theorems": [
    "QDng.RitzEf.C280_bounds",
    "QDng.RitzEf.C280_best",
    "QDng.RitzEf.C280_initial"
   ],
   "note": ""
  },
  {
   "property": "C281",
   "status": "proved",
   "theorems": [
    "QDng.RitzEf.C281_error",
    "QDng.RitzEf.C281_invariant"
   ],
   "note": ""
  },
  {
   "property": "C282",
   "status": "proved",
   "theorems": [
    "QDng.RitzEf.C282"
   ],
   "note": ""
  },
  {
   "property": "C283",
   "status": "proved",
   "theorems": [
    "QDng.PNum.C283_roundtrip",
    "QDng.PNum.C283_others"
   ],
   "note": "For all containers, integer types and numbers of the type; number output and sscanf as in the C standard."
  },
  {
   "property": "C284",
   "status": "partial",
   "theorems": [
    "QDng.PNum.C284_number_partial",
    "QDng.PNum.C284_violated_rest",
    "QDng.PNum.C284_violated_text",
    "QDng.PNum.C284_violated_range",
    "QDng.PNum.C284_violated_negative"
   ],
   "note": "Proved for all texts that begin with a number of the type, with blanks, signs and leading zeros, and for missing entries. Refuted for all others: what follows the digits is ignored (1e5 gives 1), a text without a number is reported as found and leaves the variable as it was, numbers out of range are undefined or wrap around."
  },
  {
   "property": "C285",
   "status": "partial",
   "theorems": [
    "QDng.PNum.C285_ints_partial",
    "QDng.PNum.C285_bools_partial",
    "QDng.PNum.C285_text_partial",
    "QDng.PNum.C285_chars_partial",
    "QDng.PNum.C285_violated_empty",
    "QDng.PNum.C285_violated_text"
   ],
   "note": "Proved for all non empty arrays. Refuted: the empty array comes back with an element without a value (undefined) or false; an element that is not a number is undefined."
  },
  {
   "property": "C286",
   "status": "partial",
   "theorems": [
    "QDng.PNum.C286_partial",
    "QDng.PNum.C286_violated_write",
    "QDng.PNum.C286_violated_read"
   ],
   "note": "Proved for all files that can be opened for writing, also on devices that are full. Refuted: a file that cannot be opened for writing is reported as written; a write protected file is not read (the default mode of fstream asks for writing)."
  },
  {
   "property": "C287",
   "status": "partial",
   "theorems": [
    "QDng.CfIn.C287_accepts_partial",
    "QDng.CfIn.C287_rejects_partial",
    "QDng.CfIn.C287_violated_sign",
    "QDng.CfIn.C287_violated_dir",
    "QDng.CfIn.C287_violated_text"
   ],
   "note": "Proved for all inputs with meaningful values and for missing and zero values. Refuted: every negative number of steps and every write cycle below one is taken, an empty dir and a number of steps that is no number are undefined."
  },
  {
   "property": "C288",
   "status": "proved",
   "theorems": [
    "QDng.CfIn.C288_meta"
   ],
   "note": "For every run without a baseline from files that ends without exception; numbers of values from the model of the calculation (C89, C90)."
  },
  {
   "property": "C289",
   "status": "partial",
   "theorems": [
    "QDng.CfIn.C289_partial",
    "QDng.CfIn.C289_violated"
   ],
   "note": "Proved: directory and different names. Refuted for all inputs: the attribute fname has no effect."
  },
  {
   "property": "C290",
   "status": "partial",
   "theorems": [
    "QDng.Lossy.C290_partial",
    "QDng.Lossy.C290_exact_partial",
    "QDng.Lossy.C290_violated",
    "QDng.Lossy.C290_flag"
   ],
   "note": "Holds if a plan exists, wisdom is present or the flag is FFTW_ESTIMATE. With default options the first compressed wave function read is destroyed: Restore copies the data and then searches for a plan, which overwrites the array."
  },
  {
   "property": "C291",
   "status": "partial",
   "theorems": [
    "QDng.Lossy.C291_partial",
    "QDng.Lossy.C291_violated"
   ],
   "note": "Holds in the coordinate representation; a wave function in the momentum representation is overwritten."
  },
  {
   "property": "C292",
   "status": "partial",
   "theorems": [
    "QDng.Lossy.C292_partial",
    "QDng.Lossy.C292_violated"
   ],
   "note": "Holds for non negative parts; the comparison lacks the modulus, so all negative parts are set to zero."
  },
  {
   "property": "C293",
   "status": "proved",
   "theorems": [
    "QDng.FftN.C293_transform",
    "QDng.FftN.C293_places"
   ],
   "note": "The library is a parameter that does what its documentation says about the arguments it is given."
  },
  {
   "property": "C294",
   "status": "proved",
   "theorems": [
    "QDng.FftN.C294_transform"
   ],
   "note": "The library is a parameter that does what its documentation says about the arguments it is given."
  },
  {
   "property": "C295",
   "status": "partial",
   "theorems": [
    "QDng.FftN.C295_partial",
    "QDng.FftN.C295_violated"
   ],
   "note": "Holds if the transform was created in the coordinate representation, a plan exists or nothing has to be searched. After reading a compressed file the transform saves the wrong vector while searching and the wave function is lost."
  },
  {
   "property": "C296",
   "status": "partial",
   "theorems": [
    "QDng.Scal.C296_partial",
    "QDng.Scal.C296_violated",
    "QDng.Scal.C296_violated_text"
   ],
   "note": "Holds if value is given as a number. Without value the constant is zero instead of the documented one; a text that is no number is accepted; old imaginary parts stay."
  },
  {
   "property": "C297",
   "status": "partial",
   "theorems": [
    "QDng.Scal.C297_partial",
    "QDng.Scal.C297_violated"
   ],
   "note": "Holds after the operator was given a wave function; before, a null pointer is dereferenced."
  },
  {
   "property": "C298",
   "status": "partial",
   "theorems": [
    "QDng.Scal.C298_partial",
    "QDng.Scal.C298_violated"
   ],
   "note": "Holds for constants that are not negative; the lower end is always zero."
  },
  {
   "property": "C299",
   "status": "partial",
   "theorems": [
    "QDng.Scal.C299_partial",
    "QDng.Scal.C299_violated"
   ],
   "note": "Holds for wave functions that are not zero; zero gives elements that are not a number."
  },
  {
   "property": "C300",
   "status": "partial",
   "theorems": [
    "QDng.MixDiff.C300_partial",
    "QDng.MixDiff.C300_violated",
    "QDng.MixDiff.C300_violated_factor"
   ],
   "note": "Holds at inner points before the last block of rows, with factor one and block sizes that divide the number of points. On every grid with two dimensions and for all orders up to 30 there are points that are never set, or memory outside of the arrays is written; the factor enters twice."
  },
  {
   "property": "C301",
   "status": "partial",
   "theorems": [
    "QDng.DiffSet.C301_add",
    "QDng.DiffSet.C301_partial",
    "QDng.DiffSet.C301_violated"
   ],
   "note": "The adding variant is right. The setting variant is right for prefactors one and zero; in general it multiplies twice with the prefactor."
  },
  {
   "property": "C302",
   "status": "partial",
   "theorems": [
    "QDng.DiffSet.C302_partial",
    "QDng.DiffSet.C302_violated"
   ],
   "note": "Holds for the first set-up. After a set-up for one dimension a second one prepares nothing, and the tables of the old grid are used."
  },
  {
   "property": "C303",
   "status": "partial",
   "theorems": [
    "QDng.Lap.C303_partial",
    "QDng.Lap.C303_violated",
    "QDng.Lap.C303_violated_general"
   ],
   "note": "Proved for real symmetric, tridiagonal (size two and more), Hessenberg matrices and the inversion, and in release builds for complex Hermitian matrices up to size 85. Violated for complex Hermitian matrices: the work array has half of the length announced (lengths of the two work arrays exchanged), for all sizes in debug builds and from 86 on in release builds. Violated for general matrices if the vector for the eigenvalues is too short at the call."
  },
  {
   "property": "C304",
   "status": "partial",
   "theorems": [
    "QDng.Lap.C304_partial",
    "QDng.Lap.C304_violated",
    "QDng.Lap.C304_violated_steps",
    "QDng.Lap.C304_violated_exception"
   ],
   "note": "Proved for all diagonalizations that return. Violated for the inversion: the work array is never given back; therefore the Arnoldi propagator does at most limit/(160 order) steps. Violated if the second request for memory fails."
  },
  {
   "property": "C305",
   "status": "partial",
   "theorems": [
    "QDng.Lap.C305_partial",
    "QDng.Lap.C305_violated",
    "QDng.Lap.C305_violated_zero"
   ],
   "note": "Proved for symmetric, Hermitian, tridiagonal matrices and the inversion. Violated for Hessenberg and general matrices: the failure of the eigenvalue calculation or of the reduction is overwritten; zero is returned."
  },
  {
   "property": "C306",
   "status": "proved",
   "theorems": [
    "QDng.GSum.C306"
   ],
   "note": "Members are potentials (operators whose bounds are the extreme values of their vector); real numbers instead of double."
  },
  {
   "property": "C307",
   "status": "partial",
   "theorems": [
    "QDng.GSum.C307_partial",
    "QDng.GSum.C307_violated_negative",
    "QDng.GSum.C307_violated_empty"
   ],
   "note": "Proved for all sequences of operators with at least one point and for Get with numbers from zero on. Violated: Get with a negative number reads outside of the array; after an operator without points one with any number of points is taken."
  },
  {
   "property": "C308",
   "status": "partial",
   "theorems": [
    "QDng.GSum.C308_partial",
    "QDng.GSum.C308_violated"
   ],
   "note": "Proved: accepted exactly if the sum has members and the numbers of points agree. Violated: the grids are not compared, so a wave function on another grid with the same number of points is accepted although the members refuse it."
  },
  {
   "property": "C309",
   "status": "partial",
   "theorems": [
    "QDng.GSum.C309_partial",
    "QDng.GSum.C309_delete_partial",
    "QDng.GSum.C309_violated",
    "QDng.GSum.C309_violated_other",
    "QDng.GSum.C309_violated_leak",
    "QDng.GSum.C309_violated_layout"
   ],
   "note": "Proved: a copy answers as the original right after copying; without copies and with every operator in one sum, members live as long as their sum and are destroyed with it, nothing else is. Violated with copies: they share the members, so after deleting the original the copy uses destroyed operators, deleting it can destroy an unrelated operator with the same address, and former members of the target are never deleted. The theorems on deletion are for layouts in which DELETE_OP finds the operator (Operator part at the beginning of the object); in the usual layout nothing is destroyed (C309_violated_layout, C315)."
  },
  {
   "property": "C310",
   "status": "partial",
   "theorems": [
    "QDng.PotIn.C310_partial",
    "QDng.PotIn.C310_negative_partial",
    "QDng.PotIn.C310_violated_none",
    "QDng.PotIn.C310_violated_missing",
    "QDng.PotIn.C310_violated_dims"
   ],
   "note": "Proved for readable values with N0 present. Violated: without file and dims a potential without grid is accepted; a missing N0 is accepted and gives no values; an unreadable dims is undefined behaviour."
  },
  {
   "property": "C311",
   "status": "partial",
   "theorems": [
    "QDng.PotIn.C311_partial",
    "QDng.PotIn.C311_violated_ignored",
    "QDng.PotIn.C311_violated_retry"
   ],
   "note": "Proved without dims (or not positive) and without a failure before. Violated: with a grid given the file is ignored and the values are never set; after a failure the flag that marks reading stays set, so a later set-up with a good file is accepted without reading it. Raw format; modifiers see C157."
  },
  {
   "property": "C312",
   "status": "partial",
   "theorems": [
    "QDng.Gspo.C312_partial",
    "QDng.Gspo.C312_prepared",
    "QDng.Gspo.C312_violated_null"
   ],
   "note": "Proved for every wave function that exists, with the states reached by every history of additions and clocks (C312_prepared). Violated: with parts and a clock a missing wave function is used before it is checked."
  },
  {
   "property": "C313",
   "status": "partial",
   "theorems": [
    "QDng.Gspo.C313_partial",
    "QDng.Gspo.C313_violated_silent",
    "QDng.Gspo.C313_violated_other",
    "QDng.Gspo.C313_violated_stuck",
    "QDng.Gspo.C313_violated_empty"
   ],
   "note": "Proved after success for wave functions with elements. Violated: after a zero time step or a part that refuses, the second set-up returns as if it had succeeded; another size is not noticed; after a missing clock or part every later set-up is refused because the Hamiltonian keeps part A; with no elements the second set-up is refused."
  },
  {
   "property": "C314",
   "status": "partial",
   "theorems": [
    "QDng.Gspo.C314_partial",
    "QDng.Gspo.C314_ready_partial",
    "QDng.Gspo.C314_violated"
   ],
   "note": "Proved after success and after one refusal. Violated: after two refusals the counted length exceeds the parts and a null pointer is used."
  },
  {
   "property": "C315",
   "status": "partial",
   "theorems": [
    "QDng.OpMem.C315_partial",
    "QDng.OpMem.C315_violated",
    "QDng.OpMem.C315_violated_matrix"
   ],
   "note": "Proved for operators whose Operator part is at the beginning of the object (lists, sums, propagators). Violated where it is not (virtual base in the usual layout, a parameter of the model): DELETE_OP never finds the operator; matrix operators made by NewInstance are destroyed but their memory stays registered, so it is destroyed again at the end or a later operator there is not destroyed."
  },
  {
   "property": "C316",
   "status": "partial",
   "theorems": [
    "QDng.MsWf.C316_partial",
    "QDng.MsWf.C316_self_partial",
    "QDng.MsWf.C316_sizes_partial",
    "QDng.MsWf.C316_violated_more",
    "QDng.MsWf.C316_violated_fewer",
    "QDng.MsWf.C316_violated_null"
   ],
   "note": "Proved for the same number of states, with sizes that agree or not, exact arithmetic, one process. Violated: the numbers of states are not compared; further states of the right side are ignored, missing ones are null pointers that are used; for a null pointer the message of the exception uses it."
  },
  {
   "property": "C317",
   "status": "partial",
   "theorems": [
    "QDng.MsWf.C317_partial",
    "QDng.MsWf.C317_violated"
   ],
   "note": "Proved for wave functions that exist with all states set. Violated: a null pointer and missing states are used unchecked."
  },
  {
   "property": "C318",
   "status": "partial",
   "theorems": [
    "QDng.BufName.C318_partial",
    "QDng.BufName.C318_two_partial",
    "QDng.BufName.C318_violated",
    "QDng.BufName.C318_violated_wrap"
   ],
   "note": "Proved for positions below 2^32 of one buffer, and for two buffers whose random numbers have the same number of hexadecimal digits. Violated: the numbers are written without padding and without a separator, so if one random number is the other one with a digit appended the buffers share files; positions from 2^32 on use the files of lower ones (a comment in the code names this limit)."
  },
  {
   "property": "C319",
   "status": "proved",
   "theorems": [
    "QDng.BufName.C319_directory"
   ],
   "note": "Reading /dev/urandom is assumed to succeed; the random number is arbitrary."
  },
  {
   "property": "C320",
   "status": "partial",
   "theorems": [
    "QDng.NacIn.C320_partial",
    "QDng.NacIn.C320_refused_partial",
    "QDng.NacIn.C320_violated"
   ],
   "note": "Proved for new operators, the refusal in every state. Violated: a repeated set-up keeps the sign, and in more dimensions the mass, of the one before. Parameters that are present are assumed to be readable."
  },
  {
   "property": "C321",
   "status": "partial",
   "theorems": [
    "QDng.NacIn.C321_partial",
    "QDng.NacIn.C321_violated",
    "QDng.NacIn.C321_violated_null"
   ],
   "note": "Proved for the first preparation. Violated: once prepared, every other grid with as many dimensions is accepted and ignored; without a preparation the operator uses a null pointer. Grids are compared exactly (C103 has the comparison)."
  },
  {
   "property": "C322",
   "status": "proved",
   "theorems": [
    "QDng.SumBnd.C322_sum",
    "QDng.SumBnd.C322_values",
    "QDng.SumBnd.C322_empty"
   ],
   "note": "Exact arithmetic; the parts are arbitrary functions on wave functions with the bounds they report."
  },
  {
   "property": "C323",
   "status": "partial",
   "theorems": [
    "QDng.SumBnd.C323_partial",
    "QDng.SumBnd.C323_violated"
   ],
   "note": "Proved for parts that multiply with real values that are not negative, such as potentials with zero as lowest value. Violated for negative values: the square of an operator with the bounds a and b, where b^2 < a^2, exceeds the reported upper bound b^2. Parts that do not commute are not treated."
  },
  {
   "property": "C324",
   "status": "partial",
   "theorems": [
    "QDng.MsTime.C324_partial",
    "QDng.MsTime.C324_clock_partial",
    "QDng.MsTime.C324_violated",
    "QDng.MsTime.C324_violated_64"
   ],
   "note": "Proved for the clock always and for the time update after the preparation for a wave function, which all programs do first. Violated: before it a coupling given in the upper triangle only is missed in hermitian mode; without hermitian mode and with 64 states the array is left (the loop over the columns goes one too far)."
  },
  {
   "property": "C325",
   "status": "proved",
   "theorems": [
    "QDng.OpSer.C325_roundtrip",
    "QDng.OpSer.C325_roundtrip_wire"
   ],
   "note": "For every header codec that round trips, and for the wire format of Verif/Wire. Little endian host, values as bit patterns."
  },
  {
   "property": "C326",
   "status": "partial",
   "theorems": [
    "QDng.OpSer.C326_partial",
    "QDng.OpSer.C326_violated_short",
    "QDng.OpSer.C326_violated_kind"
   ],
   "note": "Proved for headers that can not be parsed and grids that do not fit into the memory. Violated: missing bytes of the data are not noticed, the operator keeps values that were never set; every file of a grid wave function is accepted as an operator, since the data size in the header is not looked at."
  },
  {
   "property": "C327",
   "status": "partial",
   "theorems": [
    "QDng.RamSeed.C327_partial",
    "QDng.RamSeed.C327_violated_lower",
    "QDng.RamSeed.C327_violated_upper"
   ],
   "note": "Proved: the upper bound if polarisability and fields are not negative. Violated: Emin is zero although the energy is negative whenever polarisability and fields are positive; with fields of both signs the energy exceeds Emax, which is calculated from the largest instead of the largest absolute values."
  },
  {
   "property": "C328",
   "status": "partial",
   "theorems": [
    "QDng.RamSeed.C328_partial",
    "QDng.RamSeed.C328_words_partial",
    "QDng.RamSeed.C328_refused",
    "QDng.RamSeed.C328_violated"
   ],
   "note": "Proved for seeds below 2^48: the state that is given to the random number generator is different, and is the seed in three words of 16 bits. Violated: seeds that differ by 2^48 give the same numbers. The generator itself is external."
  }
 ]
}

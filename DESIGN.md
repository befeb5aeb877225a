# Design

Formal model of QDng (quantum dynamics package, C++, source under `/repo/src`) in Lean 4.
The sources are read as text; nothing of the project is built or run.

## Method

* Each area of the code gets a model file `lean/Verif/<Area>/Model.lean` (or a single
  `<Area>.lean` for small areas): total, computable functions that follow the C++ function
  by function.  Every definition cites the file and lines it models and says where it
  simplifies.
* The model follows the code, bugs included.  C++ undefined behaviour (out of bounds access,
  null dereference, division by zero, use after free) is a distinct outcome (`ub`) of the
  model and not assumed away.
* Specifications are written separately from the model helpers (`Spec` sections) in terms of
  plain mathematics: finite maps, sums, matrices, lists.
* Property theorems are in `Props` sections/files and named after the property (`C07_...`).
  Beside each there is an `example` with a concrete, non trivial case that meets the
  hypotheses.
* Where the English property is false for the code, the negation is proved with a concrete
  witness (`C.._violated...`) and the largest correct fragment is proved with suffix `_partial`.

## Trusted base

* Lean 4.33.0 kernel; axioms at most `propext`, `Classical.choice`, `Quot.sound`.
* The hand translation from C++ to the model (the citations in the model files).
* Exact arithmetic: floating point numbers are modelled by an arbitrary commutative ring or
  field (or by ℝ/ℂ); rounding, NaN and overflow of `double` are not modelled.
* Sizes and counters are modelled as natural numbers / integers unless the property is about
  wrap around (memory limit, size strings, varints), where arithmetic mod 2^64 is used.
* External libraries (LAPACK, FFTW, zlib, protobuf runtime, expat, the file system, MPI) are
  parameters of the model; assumed behaviour is stated where used.

## Plan per property

* **C01** Model: association list maps for values and types, one step function per method. Refinement to a function key -> Option value by induction over the operation list.
* **C02** Model: character lists; Write, trim, Parse with the type extraction of the code. Untyped round trip proved; typed round trip is expected to be false (wrong substr length): counterexample plus exact condition.
* **C03** Same model as C01; extensional laws of merge.
* **C04** Model: split on comma as recursive scan; SetArray as join. Induction over lists.
* **C05** Model: stream as (rest, eof, fail) with getline of bounded buffer; the reading loop is a step relation; termination for short lines by measure, divergence for overlong line by invariant.
* **C06** Model: pool state (slots, free map, used, peak) with step function; client ownership as ghost state; invariant by induction.
* **C07** Same model; freshness from invariant for well behaved clients; concrete double free history as counterexample.
* **C08** Same model with unsigned wrap around of the limit check; witness of overshoot, partial bound.
* **C09** Same model; Cleanup characterised.
* **C10** Model: string scan with explicit out of bounds outcome and wrap around multiplication.
* **C11** Model: map object -> count; trace semantics; induction over the trace.
* **C12** Model: bytes as lists, fixed width little endian integers; round trip by list lemmas.
* **C13** As C12.
* **C14** As C12 including the empty field.
* **C15** Model: record = intro, length, header bytes, payload; the header encoding is a parameter with a round trip assumption (protobuf); induction over the record list.
* **C16** Model on top of C15: the chain of more_files_follow flags; induction over states; nesting as separate claim.
* **C17** Model: file name from base, counter, suffix; injectivity of decimal rendering.
* **C18** Model: recursive base 128 encoder and decoder with mod 2^64 arithmetic.
* **C19** Model: index arithmetic on natural numbers; bijection by div/mod lemmas.
* **C20** Model: loops as folds over (line, position) with updates; result characterised pointwise.
* **C21** Model: index map; bounds from divisibility; counterexample otherwise.
* **C22** Model: the filling loops of the code as updates of a table; pointwise characterisation.
* **C23** Model: column major storage and loops; compare with Finset sums.
* **C24** Model: operators as functions on a module; the loops as folds, buffers explicit.
* **C25** Model: list plus name map with limit; invariants; Copy compared with original.
* **C26** Model: the update loop including the brace mistake, index out of range as ub.
* **C27** Model: partial block table, Init mirroring, Apply loops; compare with Finset sums.
* **C28** Model: index checks on integers; negative index is ub.
* **C29** Model: inner product space over complex numbers (Mathlib), Apply as fold.
* **C30** Model: state machine over (forward, imaginary, exponent, conj); exhaustive case analysis, induction over traces.
* **C31** Model: recurrence with buffer swap as loop; compare with Chebyshev polynomials of an endomorphism.
* **C32** Model: the assignments of Apply; algebra in Module.End.
* **C33** Model: index loops and cache variables; algebra of palindromic products; cache invariant by induction over traces.
* **C34** Model: cumulative sums and selection loop over an ordered field.
* **C35** Model: the three loops; pointwise equality with stencil sum.
* **C36** Model: the run loop with clock and file counter; closed form by induction; restart comparison.
* **C37** Model: file lists and times of writer and reader.
* **C38** Model: key lookup and division with ub outcome.
* **C39** Model: loop of LoadWFLC_ and coefficient handling.
* **C40** Model: map loop with rejection and ub for empty map.
* **C41** Model: registry step functions; invariants over traces.
* **C42** Model: registry on top of C11 model with freed objects as ub.
* **C43** Model: per command the list of messages read and written, for all outcomes of the calls made (Cmd/Model); order of messages as inductive predicate; exact table by case analysis, sessions by induction; violations as witnesses.
* **C44** Model: FiltersList Init, Add and Apply with slots, sums and output tokens (Filters); loading and evaluation refined to a chain over the configured list by induction over slots and calls.
* **C45** Model: axis function; arithmetic over an ordered field.
* **C46** Model: EscapeString as recursion; inverse function in the specification.
* **C47** Model: iteration count formula over rationals; compare with arithmetic progression.
* **C48** Model: tree builder driven by brace tokens with ub outcome; induction over trees.
* **C49** Model: environment, assignment actions at parse time, attributes expanded later.
* **C50** Model: slots with memory/disk flags, eviction, counters; refinement to a function.
* **C51** Model: clock state machine.
* **C52** Model: maps with insertion on lookup; trace independence fails: witness, partial.
* **C53** Model: strided index sets; partition and sum over ranks.
* **C54** Model: scalar factors in Apply and InitExponential as functions of the field.
* **C55** Model: sums over lists in a commutative ring.
* **C56** Model: line scanner.
* **C57** Model: pair arithmetic; ring isomorphism with Mathlib's complex numbers.
* **C58** Model: loops over lines and layer positions; pointwise characterisation.
* **C59** Model of C01 extended by the type table; invariant by induction over histories; witness for Params(map).
* **C60** Model of C02; one parsed line characterised, histories by induction.
* **C61** Model: header bytes (parameter with round trip assumption, instance from C63) and data block; list lemmas.
* **C62** Model: tag arithmetic of the client; div/mod lemmas.
* **C63** Model: fields as tag and varint or length delimited bytes; decoder with fuel; induction over the field list.
* **C64** Model: filling loops of the momentum grids; pointwise characterisation, witness for the mixed grid.
* **C65** Model: the coefficient table as rational numbers; moment equations checked entry by entry by the kernel, exactness for polynomials by linearity.
* **C66** Model: loops over a column major matrix; pointwise characterisation, witness for the adjoint.
* **C67** Model: the reordering loop; pointwise characterisation by induction.
* **C68** Model: loops of the derivative of all dimensions; compared with the sum of C35; witnesses.
* **C69** Model of C25 with flags; induction over histories; witnesses.
* **C70** Model: scratch objects and aliasing explicit; algebra.
* **C71** Model: integer index loop with an array of 64 states; pointwise characterisation; witness.
* **C72** Model of C27 in an inner product space; double sum exchanged; witness.
* **C73** Model: the formulas of ScaleParams over an ordered field; inequalities; witnesses.
* **C74** Model: Valid of the composite operators as boolean folds; equivalences; witnesses.
* **C75** Model of C50; invariant of one call; witnesses.
* **C76** Model of C54; algebra in a module.
* **C77** Model: parameter handling of Init with the factor; algebra.
* **C78** Model: Copy and Init of the laser operators; witness.
* **C79** Model: index access with out of bounds outcome; decision logic.
* **C80** Model: maximum and minimum over samples in an ordered field; inequalities; witnesses.
* **C81** Model of C41 with labels; induction over the list.
* **C82** Model of C41: the second Init call; witness.
* **C83** Model of C40; permutation algebra; witness.
* **C84** Model of C39 and C42 with a store of shared objects; induction over trees; witnesses.
* **C85** Model: Reporter with buffer of samples, indeterminate entries as none; induction over calls; witnesses.
* **C86** Model of C85 with the discrete Fourier sum; geometric sums of roots of unity.
* **C87** Model: exceptions of the spectrum output as outcomes; decision logic.
* **C88** Model of C36 with the parameter file as a component of the state; invariant over all prefixes of a run; refutation for every failing run.
* **C89** Model: element list of the ket, fill and probe loops (Cfun); refinement to the formula of the handbook; refutations.
* **C90** As C89 with the intermediate time loop.
* **C91** Model: client functions as message lists run together with the program of C43; case analysis.
* **C92** Model: document tree with the node cursor, `RunXML` with the calls it makes (RunXml); refinement to a list of items executed in order; refutations for a comment-only container and an empty directory.
* **C93** Model: the command line loop over variable definitions (RunXml); induction.
* **C94** Model: the read loop of the XML input as the memory it leaves (RunXml); partial under a zero byte behind the data, refuted without.
* **C95** Model: file system as a map of absolute paths with POSIX path walking, `CreateDir`, `StripLast` (Fs); induction over the recursion, exact characterisation for paths without dots, refutations.
* **C96** The scan of the peak finder is a fold over the data; an invariant over the rounds (peaks of runs closed so far, running first maximum of the open run) gives the exact characterisation; negative data violate it.
* **C97** The loops of Maximas and Minimas are folds; exact characterisation of strict local maxima by induction; the window statistics are compared with the mean and variance of the list segment; plateaus, the asymmetric window and Minimas violate the claim.
* **C98** The relaxation loop over vectors of an inner product space with an arbitrary propagator; induction over the functions gives orthonormality, the stop criterion gives the residual bound; conv=1 violates it.
* **C99** Autocorrelation, Fourier transform, peak search and time integration as sums; geometric sums of roots of unity give the spectrum and the integrated functions exactly for energies on the grid; reading from disk violates the energy estimate.
* **C100** The matrix built from matrix elements, LAPACK by its contract, the linear combinations as folds; algebra in the inner product space; complex matrix elements and overlapping functions violate it.
* **C101** Reading of numeric parameters and the loop over the dimensions with the variables that keep their value; induction over the dimensions gives the exact grid or the error; missing N0 and unreadable numbers violate it.
* **C102** Writing with six significant digits as rounding of rationals, keys by injectivity of the printed integers; composition with C101; longer numbers violate it.
* **C103** The comparison loop and the loop over the arrays; induction over the dimensions.
* **C104** Model: BuildLZB, DiagLZB, Apply of OSIL on a complex inner product space, with division by zero as an outcome of its own and the tridiagonal solver of LAPACK by its contract. Proof: the three term recursion as a loop invariant, orthonormality by induction, moments of the small matrix, spectral decomposition. The full property is false (eigenfunctions, wave functions that are not normalised); two witnesses.
* **C105** Model: BuildLZB, DiagLZB, Propagate, Apply of OArnoldi, with the stale basis and order as parameters. Proof: Gram-Schmidt loop invariant, Hessenberg moments, uniqueness of the coefficients for any basis of eigenvectors. The full property is false (norm, stale order); two witnesses.
* **C106** The part of C02 about the default text form; type tags are not written there (see C02).
* **C107** The round trips of C12 and C14; rejection of damaged input is in C12/C14.
* **C108** The positive parts of C15 and C16: protobuf and zlib behaviour assumed as documented there.
* **C109** The part of C21 for divisible sizes.
* **C110** The part of C24 about sums and inherited variants.
* **C111** The part of C29 about applying the operator with the default sign; exact arithmetic.
* **C112** The parts of C25 and C69 without copies.
* **C113** The parts of C41 about keys; initialisation is in C41.
* **C114** Holds for all N, unlike the axis promised in C45.
* **C115** The part of C46 about the escape function itself; where it is applied is in C46.
* **C116** The parts of C54 and C76 without Raman operators; the diagonalisation by LAPACK is assumed; exact arithmetic.
* **C117** C57 without roots and powers; exact arithmetic.
* **C118** The part of C58 about the transform; parameters are in C58.
* **C119** C64 without the mixed derivative; exact arithmetic.
* **C120** The parts of C79 and C55 that hold; exact arithmetic.
* **C121** The part of C74 about lists.
* **C122** The part of C97 about maxima.
* **C123** The part of C104 for completed steps from normalised wave functions; LAPACK's diagonalisation assumed; exact arithmetic.
* **C124** The iterations as state transitions (fields, buffers, wave functions); invariant through the loops over time steps and the main loop; yield compared with a separate propagation in the specification.
* **C125** Back and forward propagation reduced to two recurrences; overlap of the backward and forward wave function followed step by step (telescoping sum); assumption on the propagator stated in Spec.Responds and met by a dipole kick with any unitary step.
* **C126** As C125, with the laser objective written as a penalty of the field.
* **C127** Violated; invariant: buffer holds the propagation of the guess, field never changes.
* **C128** Induction over the main loop with the list of yields; violation by a run with two targets.
* **C129** Violated; both methods satisfy the same recurrence, which has one solution; operators: all backward wave functions are zero.
* **C130** From the recurrence for the field; violation for several lasers.
* **C131** Orthogonality of the roots of unity for any number of dimensions, then eigenvalue equation on the Fourier basis and uniqueness.
* **C132** Parseval's identity turns the expectation value into a weighted sum of the eigenvalues; violation by a mass of -1.
* **C133** Violated for all inputs with a zero mass; the accepted inputs are characterised.
* **C134** Violated in both states of the original; the parts which agree are proved.
* **C135** Diagonal in the Fourier basis; unitarity from Parseval's identity.
* **C136** Eigenvalue equation on the Fourier basis and uniqueness of the derivative.
* **C137** Opposite frequencies under complex conjugation; both readings of the flag are violated in one mode.
* **C138** Violation by a plane wave along the second dimension.
* **C139** Violated; the result for each plane wave is computed.
* **C140** The element in the middle of the momentum grid, for even and odd numbers.
* **C141** The loops are turned into a double sum, partial integration with the derivative of C136.
* **C142** Both are linear with the same eigenvalues.
* **C143** Cauchy-Schwarz inequality for each element; violation by a constant matrix.
* **C144** Violated for all operators with an off diagonal element from a file.
* **C145** The loop is turned into a sum; partial integration.
* **C146** Cauchy-Schwarz inequality; violation by a constant negative function.
* **C147** Induction over the dimensions for the product; geometric sequences for the limits; division by zero as a separate outcome.
* **C148** Induction over the dimensions for the sum; violated for all inputs with left edges only.
* **C149** From the range of the factors; violation by the corner of a grid with two dimensions.
* **C150** Direct computation of the scalar products.
* **C151** Comparison of all functions of the copy; violation by an absorber.
* **C152** The state left by the exception is part of the model; violated for all refused dimensions and lists.
* **C153** The loop is turned into a sum; exponentials.
* **C154** Violated for all grids; undefined behaviour is a separate outcome.
* **C155** The loop over the dimensions is turned into a sum.
* **C156** Range of the coordinates; violations for a scale of 2, for all operators without dimension and for all copies.
* **C157** Case distinction over the modifiers.
* **C158** Weighted average of the values.
* **C159** Derivative of the probability in the volume along the Schroedinger equation; violation for all operators.
* **C160** Hermitian expectation values are real.
* **C161** The pointers are part of the state of the model.
* **C162** Real algebra with square roots; violation proved for all degenerate matrices with negative coupling.
* **C163** Fourier analysis of the grid (plane waves are a basis, C135), pointwise exponentials.
* **C164** From C163 and the unitarity of the kinetic exponential (C135).
* **C165** Invariant: the stored exponentials belong to the recorded time; induction over the history.
* **C166** Invariant over all histories of calls: an initialised propagator is a single state one.
* **C167** Postconditions of each part of Init; violation for all operators of this shape.
* **C168** Invariant over histories; violation on a grid with two dimensions by the phase of a plane wave.
* **C169** Violation for all wave functions that are not zero, by unitarity.
* **C170** Case distinction over the stored time; violation for all static potentials.
* **C171** Reachable states by the invariant of C166.
* **C172** Expressions of the codelets evaluated with the rules of the scalar and the SSE types; induction over the order of the loop.
* **C173** Model of the instructions used; algebra of the two components.
* **C174** The two builds of the codelet inserted into the model of the flux operator.
* **C175** Folds over strides, threads and elements; permutation of sums.
* **C176** Induction over the order of the loop: an iteration reads and writes its own index only.
* **C177** Steps of the threads as separate reads and writes; invariant over all interleavings; a lost update as witness.
* **C178** State machine of the cached diagonal form; invariant over all histories of uses; matrix exponential of the spectral decomposition.
* **C179** Invariant over all histories: what is marked valid belongs to the matrix; Rayleigh quotients in the basis of the eigenvectors.
* **C180** Case analysis on the pointers of source and target.
* **C181** Loops of the product reduced to sums; adjoint of a real matrix; orthonormality of the eigenvectors.
* **C182** Products of eigenvalues and field values bounded by absolute values; concrete counterexample.
* **C183** State machine of the cached diagonal form; invariant over all histories; matrix exponential from the spectral decomposition at each grid point.
* **C184** Loop of the checks by induction over the pairs; conjugation of the exponential with the transformation.
* **C185** Loop of the checks by induction over the pairs; state left by the failed call.
* **C186** Quadratic form of the norms in the states, largest eigenvalue as largest Rayleigh quotient; concrete counterexamples.
* **C187** Invariant of the caches carried from the source to the copy; case analysis for the members which are not copied.
* **C188** Derivative of quadratic forms along the right hand side of the equation of motion; commutator with the position.
* **C189** Induction over the applications; the operator is a matrix with kept coefficients.
* **C190** Expansion of the scalar product; counterexample on two points.
* **C191** The applied operator as a matrix; positivity of the integrated mask; documented operator as separate specification.
* **C192** Loops as sums; the exponent of an imaginary number has magnitude one.
* **C193** Case analysis of the copied members.
* **C194** The result of the stencil along one dimension (C35), induction over the dimensions; the loop over the masses.
* **C195** Moving along a line is a symmetric relation of grid points; the form of a symmetric stencil is symmetric.
* **C196** Each link of two points is bounded by the norm; the sum of the magnitudes of the coefficients of each of the 25 stencils is below pi^2.
* **C197** Case analysis of the copied members.
* **C198** Invariant: only the buffer of the last stream holds text; induction over the calls.
* **C199** The loop over insert positions equals the padding of the lines, by induction over the newlines; then as C198.
* **C200** Arithmetic modulo 2^64; the text as a list of lines.
* **C201** As C199, with the destinations as separate texts.
* **C202** Square of the norm of 1 + exp(i a) t is 1 + 2 t cos a + t^2, monotone in t; violations by general statements and witnesses.
* **C203** The integral of the profile is evaluated; then exponentials and logarithms.
* **C204** Norm of the derivative by Parseval, triangle inequality over the dimensions; violation by an eigenfunction on two points.
* **C205** The derivative is antisymmetric; violation by two wave functions on a grid with two points.
* **C206** Both operators are diagonal in the Fourier basis; the absorption by partial summation.
* **C207** Case analysis on the state of the buffers.
* **C208** Derivative of the inverse of a polynomial.
* **C209** Induction on the buffers with the last buffer in the state.
* **C210** Induction on the pieces.
* **C211** Invariant over sequences of calls: entries with the name of a compiled-in class hold it.
* **C212** The list of tried names equals the documented list; induction on the names in front of the first hit.
* **C213** Case analysis on the answers of the C library.
* **C214** main is rewritten in terms of the command line by the theorems on Getopt (C52).
* **C215** Induction on the rest of the series.
* **C216** Case analysis.
* **C217** Case analysis, induction on the number of calls.
* **C218** Induction on the blocks; contents as lists of elements.
* **C219** Invariant: the file of the object is the only difference to the file system before.
* **C220** Evaluation of the model and lemmas on lists.
* **C221** Case analysis on the names.
* **C222** Refinement: files as bytes; class, text of the parameters and compression library as parameters.
* **C223** Induction on the list, using the theorem on numbered files (C17).
* **C224** Universal statement on the result of writing; induction on the states.
* **C225** Induction on the states with a frame condition for all other files.
* **C226** Induction on the recursion of the reader.
* **C227** The digits of a number contain no underscore; induction as in C223.
* **C228** Case analysis.
* **C229** Refinement to a table of values; invariant that every block in use belongs to exactly one slot; induction on the calls.
* **C230** The invariant of C229 also holds after every exception.
* **C231** Part of the invariant of C229; concrete witness for the exception.
* **C232** Universal statements from the invariant of C229; concrete witness for the call through the base class.
* **C233** Case analysis on the pointers; universal negations.
* **C234** Induction on the strides; universal negations.
* **C235** Refinement of main to what getopt finds on the command line; case analysis.
* **C236** The same refinement as for C235.
* **C237** Induction on the buffer for the search; universal negation for long files.
* **C238** Decision logic, case analysis on all attributes.
* **C239** Induction on the lines.
* **C240** Discrete Fourier inversion for real data; invariant of the main loop (all lasers have the same field) by induction over iterations and time steps.
* **C241** Simulation between the two main loops: the shaping is the identity and the correction field is zero.
* **C242** Linearity of the transformation applied to the invariant of the iteration; universal negation and a family of concrete runs.
* **C243** Backward and forward propagation cancel by reversibility, induction over time steps; a family of counterexamples.
* **C244** Monotonicity of the Butterworth functions.
* **C245** Decision logic, case analysis on all attributes.
* **C246** Case analysis on where the exception comes from.
* **C247** Operators as a mutually inductive type; the search with its arrays (elements may be unset) by mutual structural induction against the list of all lasers; violations universally over the rest of the Hamiltonian.
* **C248** Operators as elements of an algebra over the reals, with linear maps for the places in a matrix; mutual induction on the operator.
* **C249** Formula of the handbook as a separate specification; the generated list evaluated at each step; strict inequalities for the violations.
* **C250** Case analysis of the options; induction over the sequence of clocks.
* **C251** Composition of generation, writing, reading and the check of the clock.
* **C252** State of the copy computed for all operators behind Init.
* **C253** Arithmetic of the sizes.
* **C254** Invariant between the pointer and the history of calls, by induction.
* **C255** Meaning of an input as a relation between the input, the operators known before, a tree and the operators known afterwards, with conditions on whole lists of parts; soundness and completeness of the loops by mutual induction over the input.
* **C256** Round trip of decimal numbers; places from the meaning of the input (C255).
* **C257** Invariant of all states that can be reached, also behind exceptions, by mutual induction over the input.
* **C258** Mutual induction over the input; violations for all states and inputs of the form.
* **C259** Both readings of the attribute compared.
* **C260** From the registration and the uniqueness of keys (C257).
* **C261** Set-up and application as loops with undefined behaviour as an outcome; sums over the elements by symmetry of the matrix; coefficients of the table by evaluation of the whole table.
* **C262** Invariant over all sequences of set-ups, with or without exceptions.
* **C263** Both matrices have the same values; evaluation on plane waves for the violation.
* **C264** States of the pointers of both objects; induction over the number of set-ups.
* **C265** Jacobi-Anger expansion from the product of two exponential series; spectral theorem for the Hamiltonian; uniqueness of solutions by components; error bound for every eigenvector.
* **C266** Stirling-like bound for the estimate; Bessel functions decrease beyond their argument (recurrence, downward induction) so that the rest is geometric where the search stops; intermediate value theorem for the violation.
* **C267** Explicit two level system; bounds of alternating series for the Bessel functions at one; weights chosen such that the norms agree.
* **C268** The same expansion with modified Bessel functions.
* **C269** Rest of the exponential series on the imaginary axis by induction on its length; spectral theorem; the step is the Taylor polynomial by C32; difference of two solutions keeps its norm.
* **C270** The square of the amplification factor is 1 - x^6/72 + x^8/576.
* **C271** The step is the product of exponentials by C163; expansion of the product to second order with rests bounded by the norms; plane waves as an orthonormal basis; solution to second order by the spectral theorem.
* **C272** C265 for each step, starting from the solution through the current wave function; induction on the number of steps.
* **C273** Step and solution have the same Taylor polynomial (C104); the rest of the step is bounded through the eigenvalues of the small matrix, which are expectation values of the Hamiltonian; the rest of the solution by the spectral theorem.
* **C274** As C273, with the unitary diagonalisation of the small matrix, to which the result of the solver is equivalent; an early end leaves a source of the size of the underrun limit in the Schrödinger equation of the step.
* **C275** Clocks are objects with numbers, a Hamiltonian is a tree; induction over the tree shows that handing over a clock succeeds and what the lasers show later.
* **C276** An invariant of dead states is kept by all calls; nothing is assumed about the set-up that made the original.
* **C277** The states after both ways are computed and the steps compared; the violations are for all Hamiltonians.
* **C278** An exception keeps the state the object had at that point, so a repeated call is a call on that state.
* **C279** On top of the model of the Arnoldi recursion; LAPACK is described by the roots of the characteristic polynomial and eigenvectors. The matrix is unreduced, so a Hermitian one has different eigenvalues.
* **C280** Expansion of the wave function in the functions found; the energy is a mean of the energies with positive weights.
* **C281** The residual is the last coefficient times the part of the next vector that is orthogonal to the space; expansion in the eigenbasis gives the distance to the levels.
* **C282** The matrix built by DiagBasis is diagonal with different elements, so an orthogonal matrix of eigenvectors is a permutation with signs.
* **C283** sscanf modelled character by character (blanks, sign, digits), output by decimal digits; round trip by induction over the digits.
* **C284** specification of decimal notation by Nat.ofDigits; nothing is converted just if no prefix is a number.
* **C285** builds on the round trip of C04 and the conversions of C283.
* **C286** disk with permissions and room for each name; stream state bits failbit and badbit as in the C++ standard.
* **C287** attributes as a parameter container with the conversions of C284, decision logic of InitParams_.
* **C288** length of the result by induction over the loops of RunC1 and RunC2, meta data by the round trip of C283.
* **C289** non-interference of the attribute fname with the whole program.
* **C290** Reduce and Restore as functions of the object (two arrays, representation, plan) and the planner; Parseval on the grid; bound of the cut; planner overwriting the output array gives the violation.
* **C291** Case analysis over the representation; the coordinate array is untouched by planning and transforming.
* **C292** Elementwise bound and sum over the list; the violation is proved for all vectors.
* **C293** Arguments of the planner as functions of the dimensions; induction over the dimensions relates row-major order of reversed dimensions to the storage order.
* **C294** Strides of the guru interface; sum over the dimensions of index times stride.
* **C295** State of the object with the vector the transform refers to; case analysis.
* **C296** The two parameters as optional texts, sscanf as a parameter; equality of lists.
* **C297** The buffer as an optional wave function, null dereference as undefined behaviour; linearity by induction.
* **C298** Expectation value by linearity of the scalar product.
* **C299** Norm as square root of the scalar product; homogeneity by induction.
* **C300** Blocks as loops over lists with undefined reads and writes; frame and value of a block in coordinates; invariants of the loops over blocks and stripes.
* **C301** Reduction to the derivative along one dimension (C35).
* **C302** Set-up as a function on the members; case analysis over the parameters.
* **C303** Calls as records with the lengths of the arrays in bytes; memory from the pool model (C06, C07); demands of the LAPACK documentation as a separate specification.
* **C304** Requests and releases as steps of the pool model; the pointers held as list; bound over the number of steps by induction with the limit (C08).
* **C305** The library answers each call with an arbitrary code; case analysis over the runs.
* **C306** The loops over the values and over the members by induction.
* **C307** Induction over the sequence of calls with the array of addresses as invariant; the operators to take as a separate specification with filter and take.
* **C308** From the invariant of C307; the comparison of grids modelled for the members.
* **C309** Living objects by address, reference counting with count one; invariant of careful executions by induction; violations for all worlds in which a sum with a member is copied; the layout of objects as a parameter of deleting (see C315).
* **C310** Loop over the dimensions by induction with the list of dimensions as invariant; specification of the parameters from C101.
* **C311** Files as a function from names to parameters and values; case analysis over the steps of reading, grid part from C310.
* **C312** Loop invariant: after i rounds the Hamiltonian holds the parts of the first i letters; pigeonhole is not needed because the loop asks for as many letters as there are parts.
* **C313** States after success, late and early refusal from the loop invariants; that every later set-up is refused by induction over the history.
* **C314** Array of parts below and above the counted length from the loop invariants.
* **C315** Histories as requests to the registry, count one for every living object by induction with C11; violations for every reachable registry, every address and every distance other than zero.
* **C316** Loops by induction against double sums over states and values; positivity from the squared absolute values.
* **C317** Loop by induction with the states copied so far as invariant.
* **C318** Injectivity of hexadecimal notation by strong induction; lengths of numbers with the same number of digits; the clash for all numbers, digits and positions of the given form.
* **C319** Case analysis; no digit is a slash.
* **C320** Loop over the dimensions by induction, with what was set and what was left; names against a separate specification.
* **C321** Loop by induction as an equivalence with a statement about all dimensions.
* **C322** Loop by induction with the bounds of the partial sum as invariant.
* **C323** Induction over the parts from the last to the first; violation for all such bounds and all wave functions that are not zero.
* **C324** Loops by induction as equivalences with membership; the preparation makes the matrix symmetric (Verif.Multi).
* **C325** Round trip from the lemmas of Verif.Serial on reading what was appended.
* **C326** Case analysis of the reader for all streams of the given form.
* **C327** Maximum of a vector by induction; signs of products.
* **C328** Injectivity of the split into words by linear arithmetic with quotients and remainders.

## Results

Status, theorems (without the name space prefix of the area) and what is missing.  `_partial` and `_violated` as explained above.

* **C01** (proved) Parameter container behaves like a finite map. `Params.C01_lookup`, `Params.C01_iteration`. For every history of calls (tree of constructors, setters, merges, assignments, clears, parsed lines).
* **C02** (partial) Meta data written to disk is read back unchanged. `Params.C02_untyped_roundtrip`, `Params.C02_typed_roundtrip_partial`, `Params.C02_violated`. Untyped text form: full round trip for all representable containers. Typed form: holds exactly when every typed key is as long as its type name; otherwise reading throws (defect in Parse), shown by a witness.
* **C03** (proved) Merging containers: right hand side wins, nothing is lost. `Params.C03_merge_value`, `Params.C03_merge_algebra`. 
* **C04** (proved) Comma separated array parameters round trip. `Params.C04_array_roundtrip`, `Params.C04_array_read`, `Params.C04_empty_array`. Elements are modelled as their printed text.
* **C05** (partial) Parsing parameter text terminates. `Params.C05_terminates_partial`, `Params.C05_violated`, `Params.C05_violated_witness`. Terminates for all texts whose lines fit the 2048 byte buffer; with a longer line the loop never ends (defect).
* **C06** (proved) Memory pool accounting is exact. `Memory.C06_accounting`, `Memory.C06_step`, `Memory.C06_disjoint`. All histories of Align/Free/Cleanup/Reconfigure by clients that free only what they own.
* **C07** (partial) The memory pool never hands out a block that is still owned. `Memory.C07_fresh_partial`, `Memory.C07_backed`, `Memory.C07_violated`. Proved for clients that do not free a block twice; with a double free the next two allocations alias (C07_violated).
* **C08** (partial) The configured memory limit is enforced. `Memory.C08_limit_partial`, `Memory.C08_violated`. The limit holds if it is a multiple of the block size; otherwise it can be exceeded and the next check wraps around (C08_violated).
* **C09** (proved) Memory cleanup returns every unused block and nothing else. `Memory.C09_cleanup`. All reachable states.
* **C10** (partial) Memory size strings mean what they say. `Memory.C10_size_partial`, `Memory.C10_rejects`, `Memory.C10_violated`. Values whose product fits 64 bit; empty strings, unit-only strings and overflowing products violate the claim.
* **C11** (proved) Shared object registry deletes an object exactly when its last registration is dropped. `Collector.C11_refcount`, `Collector.C11_delete_unregistered`. All histories of Register/Delete/Delete-all.
* **C12** (partial) Level wave function serialisation round trip. `Serial.C12_roundtrip`, `Serial.C12_size`, `Serial.C12_reject_partial`, `Serial.C12_violated`, `Serial.C12_truncated`. Round trip and size proved for all vectors below 2^31 elements. Rejection of inconsistent input fails for counts of 2^60 and more (wrap around) and a count of 2^32+1 overflows the buffer; truncated input is not rejected but leaves indeterminate contents.
* **C13** (proved) Hermitian matrix serialisation round trip. `Serial.C13_roundtrip`. 
* **C14** (partial) Laser field serialisation round trip. `Serial.C14_roundtrip`, `Serial.C14_reject`, `Serial.C14_violated_empty`. Round trip for fields with samples; an empty field writes nothing and reading back evaluates an uninitialised size.
* **C15** (partial) Framed object streams are self delimiting. `Stream.C15_roundtrip`, `Stream.C15_magic_partial`, `Stream.C15_version`, `Stream.C15_truncated`, `Stream.C15_terminates`, `Stream.C15_violated_magic`, `Stream.C15_violated_truncated`. Round trip for all object lists with and without compression; termination on every input. Rejection is partial: a file without zero byte in the first 16 bytes is read out of bounds, truncated data yields an object with indeterminate contents.
* **C16** (partial) Multistate wave functions survive a write/read cycle. `Stream.C16_roundtrip`, `Stream.C16_sequence`, `Stream.C16_levels`, `Stream.C16_empty`, `Stream.C16_violated_nested`. Flat multi states with 1 to 63 states, followed by anything. Nested multi states are not read back (violated). zlib and the single state classes are parameters, level wave functions a concrete instance.
* **C17** (proved) Numbered output files never overwrite each other. `FileSeq.C17_names`, `FileSeq.C17_roundtrip`, `FileSeq.C17_reverse`, `FileSeq.C17_seek`, `FileSeq.C17_increment_zero`. Increment not zero; overflow of the int counter is not modelled.
* **C18** (proved) Protocol buffer varints round trip. `Serial.C18_roundtrip`, `Serial.C18_size`, `Serial.C18_bytes`. 
* **C19** (proved) Multi dimensional grid addressing is a bijection. `Grid.C19_address`, `Grid.C19_counts`, `Grid.C19_bijection`, `Grid.C19_walk`. every shape and active dimension
* **C20** (partial) One dimensional operations on a grid view act on every line and only there. `Grid.C20_partial`, `Grid.C20_violated_returns`, `Grid.C20_violated_bounds`. holds for any sequence of statements that activates each dimension once; returning to a dimension that was active before uses the line count of another dimension: points are left out or the address table is read out of bounds (violated, proved)
* **C21** (partial) Strided vector storage addresses every element once. `Linalg.C21_init`, `Linalg.C21_elements`, `Linalg.C21_covers`, `Linalg.C21_bounds`, `Linalg.C21_violated_remainder`, `Linalg.C21_scale_fill`, `Linalg.C21_stride_copy`, `Linalg.C21_violated_stride_copy`. proved when the number of strides divides the size; otherwise elements outside of the storage are addressed (violated, proved), and StrideCopy accepts a stride number equal to the number of strides
* **C22** (proved) Momentum grid matches the Fourier frequencies. `Grid.C22_first`, `Grid.C22_second`, `Grid.C22_kinetic`, `Grid.C22_opposite`. exact arithmetic in a field of characteristic zero
* **C23** (partial) Matrix vector products implement the mathematical product. `Linalg.C23_square_partial`, `Linalg.C23_size_mismatch`, `Linalg.C23_violated_shape`, `Linalg.C23_violated_bounds`, `Linalg.C23_violated_transpose`. square matrices proved; other shapes leave elements unset or leave the storage (violated, proved)
* **C24** (partial) Operator sums and products act as sums and compositions. `Ops.C24_default`, `Ops.C24_sum`, `Ops.C24_product`, `Ops.C24_empty_sum`, `Ops.C24_scalar`, `Ops.C24_violated_empty_product`, `Ops.C24_violated_parent`. Sums and products with at least one entry act as sum and composition in all variants (in place, out of place, accumulating), for every list and with scratch objects modelled. False for empty products (in place: identity, else undefined) and for ApplyParent of products.
* **C25** (partial) Operator list bookkeeping. `Ops.C25_answers`, `Ops.C25_rejects`, `Ops.C25_copy_partial`, `Ops.C25_violated_copy`, `Ops.C25_violated_negative`. All call sequences are covered by induction. Copies lose names (violated); negative indices are not rejected (violated).
* **C26** (partial) The sum of grid operators equals the pointwise sum of its parts. `Ops.C26_single_partial`, `Ops.C26_violated`, `Ops.C26_rejects`. Holds for one member only; every sum with two or more members reads behind its members (violated).
* **C27** (partial) Multistate operator acts as a block matrix. `Multi.C27_block_matrix_partial`, `Multi.C27_violated_64`, `Multi.C27_init_rejects`. Block matrix action for all patterns of blocks and all process numbers. Missing: 64 states without hermitian completion, where Init leaves the matrix (violated).
* **C28** (partial) Multistate state indices are validated. `Multi.C28_too_large`, `Multi.C28_in_range`, `Multi.C28_violated_negative`, `Multi.C28_violated_in_use`, `Multi.C28_wf_too_large`, `Multi.C28_wf_in_range_partial`, `Multi.C28_wf_violated`, `Multi.C28_wf_violated_strided`. Too large indices are rejected without a change. Negative indices are not rejected, wave functions reject index 63, and rejected strided states stay in the object (violated).
* **C29** (partial) Projection operator is a projector onto the span of its states. `Ops.C29_projection`, `Ops.C29_complement`, `Ops.C29_idempotent_linear`, `Ops.C29_sum_orthogonal`, `Ops.C29_setup`, `Ops.C29_missing_files`, `Ops.C29_violated_negative_inverse`, `Ops.C29_violated_copy`, `Ops.C29_violated_add_first`. Projector properties hold in every complex inner product space for the default sign. Copies lose all states, states added before Init leave the scratch object unset, inv with negative sign adds instead of removes (violated).
* **C30** (partial) Direction and time mode of a propagator determine its exponent. `Ops.C30_exponent_partial`, `Ops.C30_order_partial`, `Ops.C30_no_clock`, `Ops.C30_violated_mode_without_clock`, `Ops.C30_violated_clock_changed`, `Ops.C30_violated_copy`. Exponent determined by direction, mode and clock for all call sequences in which a clock precedes the mode. Setting the mode first reads a null pointer; later changes of the clock's step are not seen; copies lose the conjugation flag (violated). Exact numbers.
* **C31** (partial) Chebychev propagator evaluates its polynomial series. `Propa.C31_real_partial`, `Propa.C31_imaginary_partial`, `Propa.C31_out_of_place_partial`, `Propa.C31_coefficients`, `Propa.C31_order`, `Propa.C31_violated_order`. Every linear Hamiltonian, order of two and more, coefficient set, direction, early stop. The Bessel functions themselves are a library routine. Violated when the order is given and all Bessel functions but the first underflow: a coefficient outside of the array is read.
* **C32** (partial) Runge-Kutta step is the fourth order Taylor polynomial. `Propa.C32_in_place_partial`, `Propa.C32_violated_out_of_place`. In place: proved for all linear Hamiltonians. Out of place the code exchanges source and destination, so that part of the claim is false (negation proved).
* **C33** (partial) Split operator step is a symmetric product and uses fresh exponentials. `Propa.C33_symmetric_and_fresh_partial`, `Propa.C33_reversible`, `Propa.C33_violated_norm`. Proved for all histories of steps, exponents, copies and energies if no transformation has a normalization, or if the energy is computed before the first step and after each copy, as the propagation program does. Violated otherwise: the normalization of the FFT is one until it has been used, the exponentials are made before and kept, so that n steps multiply a free wave function on two points by 2^n.
* **C34** (partial) Quantum jump selection follows the cumulative probabilities. `Propa.C34_selection_partial`, `Propa.C34_violated_empty`. All non empty lists. An empty list is undefined behaviour (negation proved).
* **C35** (proved) Finite difference derivative equals the central stencil with boundary rule. `Stencil.C35_single`, `Stencil.C35_setup`, `Stencil.C35_narrow`. every shape, dimension, order, derivative; C35_narrow shows that the width hypothesis is needed
* **C36** (partial) Propagation writes exactly the scheduled snapshots and restarts seamlessly. `Prog.C36_run_partial`, `Prog.C36_directory_partial`, `Prog.C36_reject_partial`, `Prog.C36_restart_partial`, `Prog.C36_violated_zero`, `Prog.C36_violated_negative`, `Prog.C36_violated_empty_dir`, `Prog.C36_violated_restart`, `Prog.C36_violated_cycle`, `Prog.C36_violated_clock`. Complete runs from start 0 write exactly the scheduled snapshots and apply exactly n steps, for every step map, step number and write cycle; continuing with write cycle 1 and start s+1 reproduces files and final state for a step map independent of the clock. False in the code: write cycle 0 is undefined behaviour, negative ones are accepted, start = s takes one step too many, no start number continues a run with write cycle 2, the clock of a continued run is one step ahead.
* **C37** (partial) The filter program reads exactly the snapshots a propagation wrote. `Prog.C37_snapshots_partial`, `Prog.C37_violated_start`. Every completed run with start 0: each snapshot once, in order, with its time. A completed run with start above 0 in an empty directory cannot be read (refuted for all such runs).
* **C38** (partial) The correlation program can read the meta data a propagation wrote. `Prog.C38_violated_read`, `Prog.C38_violated_name`, `Cfun.C38_violated_bra`, `Cfun.C89_values_partial`, `Cfun.C90_ket_partial`. Refuted for every completed propagation: the reading section never succeeds (key wcycle vs. Wcycle, file name without base name); a series that is read is used with an access to a missing bra. For a series computed by the program itself all indices are within the series (part of C89 and C90: no exception).
* **C39** (partial) Linear combinations of wave functions have the given coefficients. `Chain.C39_load_partial`, `Chain.C39_normalized_partial`, `Chain.C39_sum_partial`, `Chain.C39_sum_normalized`, `Chain.C39_violated_twice`, `Chain.C39_violated_zero`. Loading any tree of sections without zero coefficients gives the value read off from the input with every linear combination counted twice, and nothing if that value does not exist; with all linear combinations normalised the value is exact. Violated: an unnormalised combination is twice the sum, an explicit coefficient zero is ignored.
* **C40** (partial) Multistate mapping places states where requested. `Chain.C40_places_partial`, `Chain.C40_rejects`, `Chain.C40_violated_no_map`, `Chain.C40_violated_single`, `Chain.C40_violated_missing`, `Chain.C40_violated_shared`. Proved for maps with at least two different entries below 63 and enough coefficients; rejections proved. Violated: a single entry selects, a missing map is undefined behaviour, a missing coefficient gives zero, the states of the input are scaled in place.
* **C41** (partial) Global operator registry. `Registry.C41_lookup`, `Registry.C41_add`, `Registry.C41_clear`, `Registry.C41_anonymous`, `Registry.C41_init_once_partial`, `Registry.C41_violated_twice`, `Registry.C41_violated_dangling`, `Registry.C41_violated_replaced`. Lookup, rejection, clearing and generated keys proved for all histories (user keys without the generated prefix). Initialisation exactly once: for operators registered once before use; operators under two keys are initialised twice, may dangle after Clear, and a user key like a generated one is replaced (witnesses).
* **C42** (partial) Global wave function registry never leaves a dangling entry. `Registry.C42_alive_partial`, `Registry.C42_add_rejected`, `Registry.C42_set`, `Registry.C42_clear`, `Registry.C42_violated_same`, `Registry.C42_violated_null`. Proved for all histories in which callers own the references they hand over; setting a key to the function it holds (when nobody else owns it) or to NULL breaks it (witnesses).
* **C43** (partial) Every message in interactive mode is answered exactly once. `Cmd.C43_command_partial`, `Cmd.C43_session_partial`, `Cmd.C43_wellFormed_partial`, `Cmd.C43_violated_load_op`, `Cmd.C43_violated_load_U`, `Cmd.C43_violated_set_params`, `Cmd.C43_violated_read_op`, `Cmd.C43_violated_matel`, `Cmd.C43_violated_expec`, `Cmd.C43_violated_no_operator`, `Cmd.C43_violated_read_wf`, `Cmd.C43_violated_delete_quit`, `Cmd.C43_violated_wellFormed`, `Cmd.C43_violated_eof`. The commands answered exactly once are characterised exactly (iff); sessions of them are answered message by message. False in general: witnesses for each kind of command that is answered not at all or twice.
* **C44** (partial) Filter lists do what their section says. `Filters.C44_load`, `Filters.C44_run_partial`, `Filters.C44_reject_partial`, `Filters.C44_violated_add_default`, `Filters.C44_violated_add_operator`, `Filters.C44_violated_rho`, `Filters.C44_violated_negative`, `Filters.C44_violated_ms`, `Filters.C44_violated_reinit`. Loading decided exactly; evaluation and output file proved for lists loaded once. False in general: Add has no usable default for the value and drops its operator, rho without or with negative states is undefined behaviour, ms has no effect on operators, a second load keeps old states.
* **C45** (partial) Spectrum frequency axis. `Report.C45_axis_partial`, `Report.C45_violated_odd`, `Report.C45_increasing`, `Report.C45_once`, `Report.C45_values`, `Report.C45_violated_single`. Axis proved for even N, order and uniqueness and the agreement of values and labelled frequencies for all N. For odd N the middle line carries an alias outside the promised axis (violated, all odd N); N=1 divides by zero.
* **C46** (partial) Simple input language: escaped text is inert. `SimpleXml.C46_escape`, `SimpleXml.C46_output_partial`, `SimpleXml.C46_violated_variable`, `SimpleXml.C46_violated_truncation`. The escaping function is proved right for every text and the output for quoted attribute texts. The full claim is false: text assigned to a variable is stored unescaped, and texts longer than the buffer of 1024 characters are cut, also inside of an entity.
* **C47** (partial) Simple input language: for loops run the expected number of times. `SimpleXml.C47_loop_partial`, `SimpleXml.C47_program_partial`, `SimpleXml.C47_violated_direction`, `SimpleXml.C47_violated_zero_step`. Rational instead of floating point numbers. Proved for all loops whose step points from begin to end. A step pointing away is executed for wrong values and a zero step is undefined behaviour.
* **C48** (partial) Simple input language: nested blocks become well formed XML. `SimpleXml.C48_nesting_partial`, `SimpleXml.C48_violated_missing_brace`, `SimpleXml.C48_violated_second_block`, `SimpleXml.C48_violated_extra_brace`. Proved for one block with any nesting in it. The full claim is false: a missing brace is not reported and nothing is written, a second top level block or an extra closing brace is undefined behaviour. Lexer and generated parser are not modelled.
* **C49** (partial) Simple input language: variables. `SimpleXml.C49_variables_partial`, `SimpleXml.C49_violated_concat`, `SimpleXml.C49_violated_copy`, `SimpleXml.C49_violated_late`. Proved for assignments of words before the block and any nesting of blocks and attributes. The full claim is false: concatenations and other variables are not evaluated in assignments, and an assignment after a reference in the block changes the reference.
* **C50** (partial) Wave function buffer returns what was stored. `Buffer.C50_read_partial`, `Buffer.C50_not_null_partial`, `Buffer.C50_budget_partial`, `Buffer.C50_defined_partial`, `Buffer.C50_violated_null`, `Buffer.C50_violated_no_init`, `Buffer.C50_violated_budget`, `Buffer.C50_violated_resize`. Every non-null pointer returned by Get has the content stored last, for every history of calls including those ended by exceptions; the budget holds after every history of calls that returned; no proper call is undefined once Init filled the first position. The full statement is false: Get can return a null pointer for a stored wave function (C50_violated_null), without Init Get uses a null pointer (C50_violated_no_init), an exception leaves the budget exceeded (C50_violated_budget), ResizeBuffer(0) is undefined (C50_violated_resize).
* **C51** (proved) Clock arithmetic. `Clock.C51_moves`, `Clock.C51_begin_end`, `Clock.C51_setters`, `Clock.C51_sync`, `Clock.C51_sync_zero`. Exact real arithmetic; leaving the range of int is undefined and excluded by the result being ok.
* **C52** (partial) Command line options: querying does not change the answers. `Cmdline.C52_value_partial`, `Cmdline.C52_has_partial`, `Cmdline.C52_required_partial`, `Cmdline.C52_non_option_partial`, `Cmdline.C52_violated_query`, `Cmdline.C52_violated_check`, `Cmdline.C52_violated_flag_default`, `Cmdline.C52_violated_non_option_chars`, `Cmdline.C52_violated_non_option_negative`. Values, presence, required options and other arguments are those of the command line for every declaration, command line and sequence of earlier questions that do not ask for the value of the option in question. The full statement is false: asking for a value or CheckOptions makes a missing option appear as given, and the character form of GetNonOption returns arguments of options.
* **C53** (proved) Work distribution over processes covers every state exactly once. `Multi.C53_exactly_one`, `Multi.C53_once`, `Multi.C53_balanced`, `Multi.C53_combined`. Loop of OMultistate::Apply; the sum over processes stands for the reduction done by the MPI wrapper, which is not modelled.
* **C54** (partial) Laser coupling: exponential and operator describe the same interaction. `Lasers.C54_dipole`, `Lasers.C54_matrix`, `Lasers.C54_raman_partial`, `Lasers.C54_violated_raman`. Dipole operators on grids and matrix dipole operators (with LAPACK's diagonalisation assumed orthonormal): proved. Raman operators: the exponential is that of twice the operator that is applied (false as claimed, witness).
* **C55** (partial) Pulse energy and vector potential scale consistently with the field scaling. `Lasers.C55_vector_pot`, `Lasers.C55_scaling_partial`, `Lasers.C55_violated_energy`, `Lasers.C55_violated_vector_pot`. Vector potential formula and scaling of stored values proved; the scaling factor of the laser enters the pulse energy linearly instead of squared and is missing in the vector potential (negations proved).
* **C56** (partial) Input format detection. `SimpleXml.C56_detect_partial`, `SimpleXml.C56_empty`, `SimpleXml.C56_violated_long`, `SimpleXml.C56_violated_brace`. Proved for files shorter than the buffer of 1024 characters. For longer files without a closing construct of XML the search runs past the end of the buffer; one opening brace is enough for simple input.
* **C57** (partial) Complex arithmetic follows the field laws. `Cplx.C57_ring`, `Cplx.C57_div`, `Cplx.C57_exp`, `Cplx.C57_phase`, `Cplx.C57_sqrt_partial`, `Cplx.C57_violated_sqrt`, `Cplx.C57_pow_partial`, `Cplx.C57_violated_pow`. All operations agree with the complex numbers in exact arithmetic except the square root of zero (not a number) and negative powers of i (no result).
* **C58** (partial) Perfectly matched layer touches only the layer. `Stencil.C58_transform`, `Stencil.C58_interior`, `Stencil.C58_symmetric`, `Stencil.C58_violated_none`, `Stencil.C58_violated_thickness`, `Stencil.C58_thickness_checked`, `Stencil.C58_parameters`, `Stencil.C58_violated_parameters`. proved for sides 1, 2, 3 and a thickness up to the grid size; violated: the documented side 0 (none) activates both layers, the default thickness is not checked against the grid, too short parameter lists are read out of bounds
* **C59** (partial) Type tags follow the values. `Params.C59_type_partial`, `Params.C59_violated`. Violated by Params(map), which keeps the old type table; proved for all other histories.
* **C60** (proved) Meaning of a parameter line. `Params.C60_line`. Line texts with an empty value are covered by C02 (one blank).
* **C61** (proved) Grid wave functions survive serialisation. `Serial.C61_roundtrip`, `Wire.C61_roundtrip_wire`. The header encoder of the protobuf runtime is a parameter; the wire format of C63 is a concrete instance.
* **C62** (proved) Field tags round trip in the Matlab interface. `Serial.C62_tag`. 
* **C63** (proved) Protocol buffer messages round trip. `Wire.C63_message`, `Wire.C63_bytes`, `Wire.C63_headers`. The C++ protobuf runtime itself is external and assumed to follow the wire format.
* **C64** (partial) Momentum grids of the Fourier difference operator. `Grid.C64_single`, `Grid.C64_collective`, `Grid.C64_mixed_value`, `Grid.C64_violated_mixed`. single and collective derivatives proved; the mixed derivative grid holds only the wave number of the second dimension (violated, proved)
* **C65** (proved) Finite difference coefficients are accurate. `Stencil.C65_first`, `Stencil.C65_second`, `Stencil.C65_exact_first`, `Stencil.C65_exact_second`. complete table checked by the kernel; exactness for all polynomials over fields of characteristic zero
* **C66** (partial) Transposition and diagonal of a matrix. `Linalg.C66_transpose`, `Linalg.C66_not_square`, `Linalg.C66_involution`, `Linalg.C66_violated_diagonal`, `Linalg.C66_diag`. the adjoint does not conjugate the diagonal (violated, proved), everything else proved
* **C67** (proved) Lower triangular input fills a matrix row by row. `Linalg.C67_reorder`. 
* **C68** (partial) Finite difference derivative of all dimensions is the sum over the dimensions. `Stencil.C68_periodic_partial`, `Stencil.C68_violated_open`, `Stencil.C68_violated_dims`. proved for one periodic dimension; violated for open boundaries and for more than one dimension
* **C69** (partial) Flags of operator lists follow their members. `Ops.C69_conj`, `Ops.C69_flags_partial`, `Ops.C69_violated_set`, `Ops.C69_violated_copy`. Conjugation holds for all histories. Time dependence and hermiticity hold without replacements; replacing and copying lose them (violated).
* **C70** (proved) Matrix elements use the action of the operator and leave bra and ket unchanged. `Ops.C70_matrix_element`. Default MatrixElement of the operator base class.
* **C71** (partial) Initialising a multistate wave function fills the missing states with zeros. `Multi.C71_init_partial`, `Multi.C71_empty`, `Multi.C71_violated_large`. Holds up to 64 requested states; more are written behind the array (violated).
* **C72** (partial) A multistate operator in hermitian mode is hermitian. `Multi.C72_hermitian_partial`, `Multi.C72_violated_general`. Holds if the coupling blocks are symmetric too. For others the same block, not its adjoint, is used on both sides (violated).
* **C73** (partial) Chebychev propagator maps the spectrum into the interval of the expansion. `Propa.C73_real`, `Propa.C73_imaginary_partial`, `Propa.C73_violated_imaginary`, `Propa.C73_violated_no_range`. Real time proved for different bounds. In imaginary time the margin at the lower end pushes the upper end beyond one when the lower bound is larger in size than the range (negation proved); equal bounds give a scaling of zero (negation proved).
* **C74** (partial) Composite operators accept a wave function exactly when their parts do. `Ops.C74_list`, `Ops.C74_multistate_partial`, `Ops.C74_violated_multistate`, `Ops.C74_violated_split`, `Ops.C74_violated_coupled`. Lists: proved. Multistate operators check the state a block writes to, not the one it reads (negation proved). The general split operator refuses everything and the coupled split operator looks at the first state only (negations proved).
* **C75** (partial) Locked and recently read wave functions stay in memory. `Buffer.C75_locked_partial`, `Buffer.C75_violated_explicit`, `Buffer.C75_violated_recent`. One call keeps every position whose lock flag is set in memory. The full statement is false: the lock flag of an explicitly locked position is cleared by later reads (C75_violated_explicit), and a position read several times in a row loses its flag (C75_violated_recent).
* **C76** (partial) All ways of applying a laser driven operator agree. `Lasers.C76_dipole`, `Lasers.C76_matrix`, `Lasers.C76_interaction`, `Lasers.C76_raman_partial`, `Lasers.C76_violated_raman`. Dipole and matrix operators proved; ApplyAdd of Raman operators is inherited and adds the polarisability without the fields (witness).
* **C77** (partial) The parameter scale multiplies the interaction once. `Lasers.C77_matrix`, `Lasers.C77_dipole_partial`, `Lasers.C77_violated_dipole`, `Lasers.C77_violated_raman`. Matrix operators proved; grid operators multiply the interaction by the square, Raman operators by the third power of the factor (proved for all factors).
* **C78** (partial) A copy of a laser driven operator applies the same field. `Lasers.C78_copy_partial`, `Lasers.C78_violated_scale`. Proved for scaling factor 1; other factors are lost in the copy (witness).
* **C79** (partial) An accepted clock always finds a field value. `Lasers.C79_accepted`, `Lasers.C79_rejected`, `Lasers.C79_set_get`, `Lasers.C79_violated_kept`. Accepted clocks, rejection and Set/Get proved; a rejected clock is kept and the next access is out of bounds (witness).
* **C80** (partial) Energy bounds of laser driven operators enclose the interaction. `Lasers.C80_emax_partial`, `Lasers.C80_violated_emin`, `Lasers.C80_violated_emax`. Upper bound for non-negative dipole moments and fields whose largest value bounds the negative ones; in general both bounds are wrong (witnesses).
* **C81** (partial) Labels group registered operators. `Registry.C81_get_labels_partial`, `Registry.C81_set_label`, `Registry.C81_check_label_partial`, `Registry.C81_violated_empty`. Arrays with at least one element, operators under one key; an array of size zero is overrun (witness).
* **C82** (partial) A second initialisation with an incompatible wave function is reported. `Registry.C82_asked_partial`, `Registry.C82_violated_ignored`. The operator is asked and not initialised again, but its answer is ignored (witness).
* **C83** (partial) State maps work as documented. `Chain.C83_single`, `Chain.C83_involution_partial`, `Chain.C83_violated_handbook`. Proved for single entries and for maps that are their own inverse; violated for the example of the handbook: the inverse map is applied.
* **C84** (partial) Named wave functions keep their value. `Chain.C84_keys_partial`, `Chain.C84_violated_multistate`, `Chain.C40_violated_shared`. Proved for all trees of files and linear combinations (up to the factor two of C39); violated inside of multistate sections, whose coefficient changes the registered state, and for inputs of state maps.
* **C85** (partial) Reported autocorrelation and its spectrum. `Report.C85_samples_partial`, `Report.C85_square_partial`, `Report.C85_window_partial`, `Report.C85_report_only_partial`, `Report.C85_violated_conjugate`, `Report.C85_violated_short`, `Report.C85_violated_long`, `Report.C85_violated_window_single`. Proved when Analyze is called once per clock step. The column shows the complex conjugate of its label; with fewer calls the spectrum reads entries never written; with more calls the buffer is left; one sample with window gives 0/0.
* **C86** (proved) The spectrum of an eigenstate is a single line at its energy. `Report.C86_eigenstate`. Every frequency of the axis, positive and negative; exact arithmetic, the Fourier transform library is assumed to compute the Fourier sum.
* **C87** (partial) An unwritable spectrum file is reported and does not lose the run. `Report.C87_violated_unwritable`, `Report.C87_unused_partial`. Violated: rethrow without active exception ends the program. Holds trivially when no spectrum is requested.
* **C88** (partial) The parameter file of a propagation describes only snapshots that exist. `Prog.C88_running_partial`, `Prog.C88_violated_failure`. Proved at the end of every pass of a run (all prefixes, hence for a killed run); refuted for every run that fails with an exception before its last snapshot: the file then promises the complete run and the filter program fails.
* **C89** (partial) One-point correlation functions are the documented ones. `Cfun.C89_values_partial`, `Cfun.C89_violated_pre`, `Cfun.C89_violated_bra`, `Cfun.C89_violated_default`, `Cfun.C89_violated_zero`. Proved for ket U,O_p... without bra, for every propagator, probe list, number of steps and write cycle. Refuted for all inputs with operators before the first U of the ket (the probe is never applied), for all inputs with an explicit bra (one write cycle ahead) and for write cycle 0 (undefined).
* **C90** (partial) Two-point correlation functions are the documented ones. `Cfun.C90_ket_partial`, `Cfun.C90_violated_stepsint`, `Cfun.C90_violated_several`, `Cfun.C90_violated_bra`, `Cfun.C90_violated_ahead`, `Cfun.C90_violated_example`, `Cfun.C90_violated_empty`. Proved for ket O_k...,U,O_1,U,O_p... without bra (all values and all zeros, limit as coded: stepsint+1). Refuted: limit exceeded by one, all but the last of several intermediate operators skipped, explicit bra one cycle ahead on either side, the input of the handbook's example rejected, empty ket undefined.
* **C91** (partial) The supplied client stays in step with the program. `Cmd.C91_in_step_partial`, `Cmd.C91_violated_get_params`, `Cmd.C91_violated_set_params`, `Cmd.C91_violated_apply`, `Cmd.C91_violated_matel`, `Cmd.C91_violated_quit`, `Cmd.C91_violated_load`. Proved for running programs, clearing, loading, saving and expectation values; false for the other client functions.
* **C92** (partial) An input file runs in order. `RunXml.C92_input_runs_in_order_partial`, `RunXml.C92_definitions_before_programs`, `RunXml.C92_empty_input_rejected`, `RunXml.C92_violated_comment_only`, `RunXml.C92_violated_empty_directory`. Missing: a container with only comments (null pointer) and an empty directory attribute (index -1), both refuted.
* **C93** (proved) Variables of the command line. `RunXml.C93_definitions_need_equal_sign`, `RunXml.C93_variables_have_last_value`. Both directions.
* **C94** (partial) The XML input is read completely and exactly. `RunXml.C94_input_text_is_file_partial`, `RunXml.C94_violated_unterminated`, `RunXml.C94_violated_overrun`. Holds only if the memory behind the data starts with a zero byte; refuted otherwise.
* **C95** (partial) Output directories. `Fs.C95_create_directory_partial`, `Fs.C95_failure_keeps_rest_partial`, `Fs.C95_create_twice_partial`, `Fs.C95_strip_last_partial`, `Fs.C95_violated_dot`, `Fs.C95_violated_strip_root`. Missing: paths with . or .. whose parts do not exist yet (exception after creating, refuted) and StripLast of the root (reads in front of the text, refuted).
* **C96** (partial) Peaks of a spectrum. `Peak.C96_peaks_partial`, `Peak.C96_inside_partial`, `Peak.C96_violated_negative`. Exact characterisation for nonnegative data and tolerance (the only use in the program). Negative data report -1 (violated theorem).
* **C97** (partial) Local maxima, local minima and peaks in a window. `Peak.C97_maxima`, `Peak.C97_window_partial`, `Peak.C97_window_nonempty`, `Peak.C97_violated_plateau`, `Peak.C97_violated_window`, `Peak.C97_violated_minima`. Maximas = strict local maxima; the window finder is exact for the window the code uses, which leaves out its upper end; plateaus are missed and Minimas is wrong (violated theorems).
* **C98** (partial) Eigenfunctions by relaxation are orthonormal. `Eigen.C98_orthonormal_partial`, `Eigen.C98_too_many`, `Eigen.C98_residual`, `Eigen.C98_eigenfunction`, `Eigen.C98_violated_conv_one`. Exact arithmetic, arbitrary propagator. conv=1 is accepted by the parameter check and then no step is done (violated theorem).
* **C99** (partial) Eigenfunctions from the autocorrelation. `Eigen.C99_spectrum`, `Eigen.C99_eigenfunctions_partial`, `Eigen.C99_complete_partial`, `Eigen.C99_violated_read`, `Eigen.C99_violated_read_steps`. Exact arithmetic, energies on the frequency grid, no window function. With read from disk the estimate uses the time step and number of steps of the input (violated theorems).
* **C100** (partial) Diagonalization in the basis of the functions found. `Eigen.C100_diagonal_partial`, `Eigen.C100_eigenfunctions_partial`, `Eigen.C100_violated_complex`, `Eigen.C100_violated_overlap`. Proved for orthonormal functions with real matrix elements, LAPACK described by its contract. Imaginary parts are dropped and the overlap is ignored (violated theorems).
* **C101** (partial) Grid wave function from parameters. `GridPm.C101_init_partial`, `GridPm.C101_no_dims_partial`, `GridPm.C101_accepted_partial`, `GridPm.C101_violated_missing_size`, `GridPm.C101_violated_dims`, `GridPm.C101_violated_unreadable`. Proved for readable values with N0 present. Violated: without N0 nothing is rejected and a description that does not exist is read; unreadable dims uses an uninitialised variable; an unreadable number of points silently takes that of the dimension before.
* **C102** (partial) Grid parameters survive writing and reading. `GridPm.C102_round_trip_partial`, `GridPm.C102_close_partial`, `GridPm.C102_violated_digits`, `GridPm.C102_violated_collapse`. Proved for ends with at most six significant digits; otherwise the ends change by up to 5e-6 of their size. Violated: numbers are printed with six digits, so other grids come back different or are rejected.
* **C103** (proved) Comparison of grids and grids from arrays. `GridPm.C103_equal`, `GridPm.C103_refl_symm`, `GridPm.C103_arrays`, `GridPm.C103_dx`, `GridPm.C103_not_transitive`. For grids with as many descriptions as dimensions, as the member functions leave them. Also shown: the comparison is not transitive.
* **C104** (partial) The Lanczos propagator is the time evolution of the wave function. `Krylov.C104_sil_agrees_with_series`, `Krylov.C104_sil_keeps_norm`, `Krylov.C104_sil_keeps_energy`, `Krylov.C104_sil_exact_on_invariant_space`, `Krylov.C104_sil_defined_when_independent`, `Krylov.C104_sil_undefined_when_dependent`, `Krylov.C104_violated_eigenfunction`, `Krylov.C104_violated_unnormalised`. Agreement with the series holds for every linear Hamiltonian and wave function; norm, energy and exactness for normalised wave functions with independent Krylov vectors. False for normalised eigenfunctions (division by a zero norm) and in general whenever the Krylov vectors are dependent, and for wave functions that are not normalised (two coupled levels lose two thirds of the norm in one step). Exact arithmetic; LAPACK by contract.
* **C105** (partial) The Arnoldi propagator is the time evolution of the wave function. `Krylov.C105_arnoldi_agrees_with_series`, `Krylov.C105_arnoldi_keeps_norm_and_energy`, `Krylov.C105_arnoldi_eigenfunction`, `Krylov.C105_violated_old_vectors`, `Krylov.C105_violated_unnormalised`. Series, exactness, norm and energy hold when the first residual is above the underrun limit; eigenfunctions get their phase when the solver finds a basis of eigenvectors. False for wave functions that are not normalised and for eigenfunctions with old vectors in the buffers (the order is not reset). Exact arithmetic; LAPACK by contract.
* **C106** (proved) Plain text form of a parameter container round trips. `Params.C02_untyped_roundtrip`. The part of C02 about the default text form; type tags are not written there (see C02).
* **C107** (proved) Bytes of a level wave function and of a laser field are read back unchanged. `Serial.C12_roundtrip`, `Serial.C12_size`, `Serial.C14_roundtrip`. The round trips of C12 and C14; rejection of damaged input is in C12/C14.
* **C108** (proved) A stream of wave functions is read back in order. `Stream.C15_roundtrip`, `Stream.C15_terminates`, `Stream.C16_roundtrip`, `Stream.C16_sequence`, `Stream.C16_levels`. The positive parts of C15 and C16: protobuf and zlib behaviour assumed as documented there.
* **C109** (proved) A vector split into strides behaves like a plain vector. `Linalg.C21_elements`, `Linalg.C21_covers`, `Linalg.C21_bounds`, `Linalg.C21_scale_fill`. The part of C21 for divisible sizes.
* **C110** (proved) A sum of operators acts as the sum of its entries. `Ops.C24_sum`, `Ops.C24_empty_sum`, `Ops.C24_default`. The part of C24 about sums and inherited variants.
* **C111** (proved) The projection operator projects onto the span of its states. `Ops.C29_projection`, `Ops.C29_complement`, `Ops.C29_idempotent_linear`, `Ops.C29_sum_orthogonal`. The part of C29 about applying the operator with the default sign; exact arithmetic.
* **C112** (proved) An operator list answers as its history says. `Ops.C25_answers`, `Ops.C25_rejects`, `Ops.C69_conj`. The parts of C25 and C69 without copies.
* **C113** (proved) The operator registry finds what was registered. `Registry.C41_lookup`, `Registry.C41_add`, `Registry.C41_clear`. The parts of C41 about keys; initialisation is in C41.
* **C114** (proved) A line of the spectrum file holds the Fourier sum at the frequency written in it. `Report.C45_values`, `Report.C45_once`, `Report.C45_increasing`. Holds for all N, unlike the axis promised in C45.
* **C115** (proved) Escaping attribute text of the simple input language is loss free. `SimpleXml.C46_escape`. The part of C46 about the escape function itself; where it is applied is in C46.
* **C116** (proved) Dipole operators: application and exponential describe the same interaction. `Lasers.C54_dipole`, `Lasers.C54_matrix`, `Lasers.C76_dipole`, `Lasers.C76_matrix`, `Lasers.C76_interaction`. The parts of C54 and C76 without Raman operators; the diagonalisation by LAPACK is assumed; exact arithmetic.
* **C117** (proved) Complex arithmetic. `Cplx.C57_ring`, `Cplx.C57_div`, `Cplx.C57_exp`, `Cplx.C57_phase`. C57 without roots and powers; exact arithmetic.
* **C118** (proved) The absorbing layer touches only the layer. `Stencil.C58_transform`, `Stencil.C58_interior`, `Stencil.C58_symmetric`. The part of C58 about the transform; parameters are in C58.
* **C119** (proved) Momentum grids of single and collective derivatives. `Grid.C64_single`, `Grid.C64_collective`. C64 without the mixed derivative; exact arithmetic.
* **C120** (proved) A laser gives a field value at every step of an accepted clock. `Lasers.C79_accepted`, `Lasers.C79_rejected`, `Lasers.C79_set_get`, `Lasers.C55_vector_pot`. The parts of C79 and C55 that hold; exact arithmetic.
* **C121** (proved) A composite operator accepts a wave function exactly when all members do. `Ops.C74_list`. The part of C74 about lists.
* **C122** (proved) Local maxima of a data set. `Peak.C97_maxima`. The part of C97 about maxima.
* **C123** (proved) A completed Lanczos step keeps norm and energy and is exact on an invariant space. `Krylov.C104_sil_keeps_norm`, `Krylov.C104_sil_keeps_energy`, `Krylov.C104_sil_agrees_with_series`, `Krylov.C104_sil_exact_on_invariant_space`, `Krylov.C104_sil_defined_when_independent`. The part of C104 for completed steps from normalised wave functions; LAPACK's diagonalisation assumed; exact arithmetic.
* **C124** (proved) Optimal control: the reported yield belongs to the written field. `Oct.C124_yield_of_field`. Exact numbers; propagator, gobbler and operators are parameters.
* **C125** (proved) Optimal control: Krotov's method never makes the yield worse. `Oct.C125_krotov_overlap`, `Oct.C125_krotov_phase`, `Oct.C125_krotov_operator`. Up to the first order error d of the propagator, which is zero if the dipole interaction stands at the begin of the step; the condition on alpha is explicit.
* **C126** (proved) Optimal control: the zero reference method never makes its objective worse. `Oct.C126_rabitz`, `Oct.C126_rabitz_objective`. Up to the first order error d of the propagator.
* **C127** (partial) Optimal control: moving targets steer the field. `Oct.C127_moving_violated`. Violated: the propagation of the guess overwrites the series; with Krotov and a Hermitian coupling the field never changes.
* **C128** (partial) Optimal control: when the iteration stops. `Oct.C128_stops_partial`, `Oct.C128_first`, `Oct.C128_early_violated`. Holds from the third iteration on; violated before: the memory starts with ones, so a summed yield of one in the first iteration ends the run.
* **C129** (partial) Optimal control: the feedback method uses the new field at once. `Oct.C129_feedback_violated`, `Oct.C129_operator_violated`. Violated: the backward propagation uses the old field, so the results equal those of rabitz; with operators the initial wave function is used.
* **C130** (partial) Optimal control: the shape protects the field. `Oct.C130_shape`, `Oct.C130_lasers_violated`. Holds if all lasers have the same guess; violated otherwise: all lasers get the field of the first one.
* **C131** (proved) Kinetic energy of plane waves. `Deriv.C131_kinetic`, `Deriv.C131_span`. The operator is the one linear map with these eigenvalues; the plane waves with the wave numbers of the grid span the space.
* **C132** (partial) Kinetic energy is Hermitian and within its bounds. `Deriv.C132_hermitian`, `Deriv.C132_bounds`, `Deriv.C132_sharp`, `Deriv.C132_negative_violated`. Proved for positive masses; the upper bound is attained on grids with even numbers of points. A negative mass is accepted if another mass is positive; then energies below Emin occur (violation).
* **C133** (partial) A mass of zero leaves the dimension out. `Deriv.C133_zero_mass_violated`, `Deriv.C133_accept_partial`. Violated: every list with a zero is rejected with an error. Proved instead: exactly which lists are accepted.
* **C134** (partial) A copied kinetic energy operator acts like the original. `Deriv.C134_copy_violated`, `Deriv.C134_early_copy_violated`, `Deriv.C134_copy_partial`. Violated: the copy of an operator in use reads an empty vector, a copy made before the first use applies minus the sum of squared wave numbers without masses. Bounds and (in use) the exponential agree.
* **C135** (proved) Exponential of the kinetic energy. `Deriv.C135_exponential`, `Deriv.C135_group`, `Deriv.C135_unitary`. 
* **C136** (proved) Nabla and momentum operator. `Deriv.C136_plane`, `Deriv.C136_linear`, `Deriv.C136_derivative`, `Deriv.C136_in_place`, `Deriv.C136_momentum`, `Deriv.C136_nabla`. 
* **C137** (partial) Conjugate flag of the Nabla operator. `Deriv.C137_momentum_partial`, `Deriv.C137_nabla_violated`, `Deriv.C137_adjoint_partial`, `Deriv.C137_momentum_adjoint_violated`. Holds for the momentum operator (odd numbers of points, without the unpaired frequency). For Nabla the flag changes the sign of a real operator: the result is the adjoint. As adjoint it would be wrong for the momentum operator.
* **C138** (partial) A copied Nabla operator acts like the original. `Deriv.C138_copy_partial`, `Deriv.C138_copy_violated`, `Deriv.C138_flag_violated`. Violated: the selected dimension is not copied, so that an initialised copy acts on all dimensions; the conjugate flag is lost. A copy used right away is right.
* **C139** (partial) Exponential of the Nabla operator. `Deriv.C139_sign_violated`, `Deriv.C139_junk_violated`, `Deriv.C139_momentum_violated`. Violated: the real part of the diagonal is never set, the sign is the opposite one and the momentum mode is ignored. The exact results are given by the theorems.
* **C140** (partial) Emax of the Nabla operator. `Deriv.C140_odd_partial`, `Deriv.C140_even_violated`. Holds for odd numbers of points; for even numbers, the usual case, Emax is the smallest (negative) wave number.
* **C141** (proved) Kinetic energy with a G-matrix. `Deriv.C141_coupled`, `Deriv.C141_uncoupled`, `Deriv.C141_hermitian`, `Deriv.C141_nonneg`, `Deriv.C141_constant`. 
* **C142** (proved) G-matrix and Cartesian kinetic energy agree. `Deriv.C142_same`. 
* **C143** (partial) Energy bounds of the G-matrix operator. `Deriv.C143_upper_partial`, `Deriv.C143_lower_partial`, `Deriv.C143_constant_violated`. Proved for off diagonal elements on the grid which are not negative everywhere. For constant off diagonal elements the grid spacings are left out and Emax is too small, also for a positive definite matrix (violation).
* **C144** (partial) Kinetic coupling can be turned off. `Deriv.C144_uncoupled_violated`, `Deriv.C144_init_partial`. Violated for elements from files: an element that was not loaded is dereferenced. The other configurations are initialised.
* **C145** (proved) Non adiabatic coupling. `Deriv.C145_formula`, `Deriv.C145_pair`, `Deriv.C145_anti`. 
* **C146** (partial) Energy bounds of the non adiabatic coupling. `Deriv.C146_upper_partial`, `Deriv.C146_upper_violated`, `Deriv.C146_lower_violated`. Emax is right for coupling functions that are nowhere negative if the first dimension has the smallest spacing. Violated in general: negative functions give a negative Emax; Emin is always zero.
* **C147** (partial) Butterworth mask of the Gobbler. `GridFn.C147_mask_partial`, `GridFn.C147_sharp`, `GridFn.C147_half`, `GridFn.C147_left_border_violated`. Violated for an edge on the left border of the grid: it is accepted and the first value of the mask is not a number (0/0). Proved for all edges further inside.
* **C148** (partial) The Gobbler as negative imaginary potential. `GridFn.C148_absorber_partial`, `GridFn.C148_left_violated`. Proved for edges rp<i> (sum over the dimensions). Violated for lp<i>: the left pass is multiplied to a vector of zeros, so that an absorber on the left side of the grid is the zero operator.
* **C149** (partial) Emax and Emin of the Gobbler. `GridFn.C149_bounds_partial`, `GridFn.C149_absorber_violated`. Proved for masks with non negative gain. Violated for absorbers with edges in several dimensions, whose values add up beyond the gain.
* **C150** (proved) Expectation value and residue of the Gobbler. `GridFn.C150_expectation`. For an absorber without residue the real part, which is reported, is zero.
* **C151** (partial) A copied Gobbler acts like the original. `GridFn.C151_copy_partial`, `GridFn.C151_flags_violated`. Violated: the copy of an absorber says that it is Hermitian, and the conjugation is lost. The action of operators that are not conjugated agrees.
* **C152** (partial) An operator that refused its initialisation does not pass at the second attempt. `GridFn.C152_kick_partial`, `GridFn.C152_gobbler_violated`, `GridFn.C152_position_violated`, `GridFn.C152_flux_violated`. Holds for the kick. Violated for the others: the second attempt succeeds and leaves a mask without the edge, the zero operator, or a flux operator with a wrong number of members.
* **C153** (proved) Momentum kick. `GridFn.C153_kick`, `GridFn.C153_unitary`. 
* **C154** (partial) A copied kick acts like the original. `GridFn.C154_copy_partial`, `GridFn.C154_new_violated`, `GridFn.C154_old_violated`. Violated: copying an initialised kick to a new one writes elements of an empty vector (undefined), copying it to an initialised one keeps the old kick. Only kicks that have not seen a wave function are copied correctly.
* **C155** (proved) Position operator. `GridFn.C155_position`. 
* **C156** (partial) Emax and Emin of the position operator. `GridFn.C156_bounds_partial`, `GridFn.C156_scale_violated`, `GridFn.C156_sum_violated`, `GridFn.C156_copy_violated`. Proved for a chosen dimension without scale. Violated: the scale is ignored; without a dimension, the default, and for every copy the access is undefined (dimension -1).
* **C157** (proved) Modifiers of a potential. `GridFn.C157_modifiers`, `GridFn.C157_setzero`. The reading of the file is not part of this model.
* **C158** (proved) Potential energy is Hermitian and within its bounds. `GridFn.C158_bounds`. 
* **C159** (partial) Outgoing flux. `GridFn.C159_rate_partial`, `GridFn.C159_sign_violated`. Violated: the value is the opposite, the rate at which the probability inside of the volume grows under T + V, because the product is taken with the conjugate of T psi. The magnitude is right.
* **C160** (proved) No flux out of a closed system. `GridFn.C160_closed`. 
* **C161** (partial) A copied flux operator works like the original. `GridFn.C161_copy_partial`, `GridFn.C161_copy_violated`. Violated: the copy has no buffer, so that asking it for a value dereferences a null pointer. It works once it has been initialised itself.
* **C162** (partial) Diagonalisation of symmetric 2x2 matrices. `Spo.C162_eigen_partial`, `Spo.C162_violated_degenerate`, `Spo.C162_values`, `Spo.C162_orthonormal`. Violated for equal diagonal elements and a negative off diagonal element: the eigenvectors are exchanged. Values and orthonormality hold for all matrices.
* **C163** (proved) One step of the split operator propagator. `Spo.C163_step`. Time steps after the first are covered by C165.
* **C164** (proved) Unitarity, reversibility and exactness of the split operator. `Spo.C164_reverse`, `Spo.C164_unitary`, `Spo.C164_exact`. 
* **C165** (partial) The split operator propagator follows the clock. `Spo.C165_fresh_partial`, `Spo.C165_violated_reset`. Proved for propagators initialised at time step zero. Violated otherwise: the time of the initialisation is not recorded, a following step at time zero uses the values of the other time.
* **C166** (partial) Two level systems. `Spo.C166_single_partial`, `Spo.C166_violated_init`, `Spo.C166_violated_apply`. Violated for all inputs: the kinetic energy of a single grid is a member of the sum that is initialised with the two state wave function, which it refuses. No history ends with a propagated two state wave function. The single state case works.
* **C167** (partial) A refused configuration of the split operator propagator is not accepted later. `Spo.C167_accepted_partial`, `Spo.C167_first`, `Spo.C167_violated_second`. Proved for the first call of Init of a propagator. Violated for the second: the buffer is allocated before the last check, so that the next Init returns at once and Apply reads null pointers.
* **C168** (partial) Changing the direction of a split operator propagator. `Spo.C168_first_partial`, `Spo.C168_violated_backward`. Violated: the exponentials are computed at Init with the exponent of that time, later changes have no effect on either factor, in any history.
* **C169** (partial) Both forms of Apply of the split operator propagator agree. `Spo.C169_violated_target`. Violated for all inputs: the form with a target has an empty body, the target is left as it was. No case remains in which the claim holds.
* **C170** (partial) UpdateTime of the split operator propagator. `Spo.C170_update_partial`, `Spo.C170_violated_static`. Proved for time dependent potentials. Violated for static ones: the missing coupling is asked for its time dependence (null pointer) at any time step other than zero.
* **C171** (partial) Copying a split operator propagator. `Spo.C171_violated_copy`. Violated for all histories: Copy assigns through pointers of which at least one is null in each reachable state. No case remains in which the claim holds.
* **C172** (partial) Element wise vector operations. `Simd.C172_codelets_partial`, `Simd.C172_imag_scalar`, `Simd.C172_violated_imag`. Violated for the imaginary part with SSE: the result is i Im(z) instead of Im(z), for every element that is not real. All other operations are proved for all builds.
* **C173** (partial) Complex arithmetic with SSE. `Simd.C173_arithmetic_partial`, `Simd.C173_violated_imags`. Violated for imags(): it returns the real part of every number.
* **C174** (partial) The flux does not depend on the instruction set. `Simd.C174_scalar_partial`, `Simd.C174_violated_sse`, `Simd.C174_violated_case`. Without SSE the operator is the one of C159. Violated with SSE: the flux through every boundary is reported as zero, because the imaginary part is not moved to the real part (C172).
* **C175** (partial) Scalar product of wave functions on grids. `Simd.C175_product_partial`, `Simd.C175_violated_processes`. Proved for one process. Violated for several processes: the sums of the processes are not added (Integral does this), each process returns the share of its strides.
* **C176** (proved) One order of the Chebychev recursion. `Simd.C176_recursion`, `Simd.C176_agree`. 
* **C177** (partial) Reference norm of the Chebychev propagator. `Simd.C177_norm_partial`, `Simd.C177_stride`, `Simd.C177_bound_partial`, `Simd.C177_violated_race`. Proved if the strides are handled one after the other. Violated for interleavings: the shared sum is updated without protection, the share of a stride can be lost. In no interleaving the value is too large.
* **C178** (partial) Exponential of a matrix operator. `HMat.C178_exponential_partial`, `HMat.C178_violated_setzero`, `HMat.C178_violated_setzero_value`, `HMat.C178_violated_qdiag`. Proved for operators read from a file without setzero, given the contract of LAPACK (shown to be satisfiable for every size). Violated with setzero: the diagonal form is computed before the shift and kept, so the step uses the matrix without the shift. Violated with qdiag: the transformation never gets its matrix, every step uses a null pointer.
* **C179** (proved) Energy bounds of a matrix operator. `HMat.C179_bounds`. LAPACK enters through its contract (orthonormal eigenvectors, ascending eigenvalues of the matrix given by the upper triangle).
* **C180** (partial) Copies of a matrix operator. `HMat.C180_copy_partial`, `HMat.C180_violated_fresh`, `HMat.C180_violated_used`. Application and exponential proved for new targets and for diagonalised pairs. Violated: the copy of a diagonalised operator into a new one uses a null pointer when asked for its energy bounds; copying an operator which is not diagonalised into one which is uses a null pointer.
* **C181** (proved) Hermiticity and eigenbasis of a matrix operator. `HMat.C181_hermitian`, `HMat.C181_transform`. The transformation is stated after the first diagonalisation.
* **C182** (partial) Energy bounds of a matrix dipole operator. `HMat.C182_emax_partial`, `HMat.C182_violated`. The upper bound is proved if neither the field nor the spectrum is larger in size on the negative side. Violated: for a pair of states in a field between -1 and 1 the lower bound is +1 while the energy -1 occurs.
* **C183** (partial) Exponential of coupled potentials. `Dms.C183_exponential_partial`, `Dms.C183_violated_dipole`, `Dms.C183_violated_nonhermitian`, `Dms.C183_violated_unity`, `Dms.C183_violated_missing`. Proved for static potentials in symmetric matrices with all diagonal elements (or without unity and with a coupling), given the contract of LAPACK. Violated for dipole operators (the dipole moment is propagated instead of its product with the field), for couplings on one side only (the part below the diagonal is ignored), for missing diagonal elements with unity (applied as one, propagated as zero) and without couplings (null pointer).
* **C184** (partial) Multistate operators with transformations. `Dms.C184_transform_partial`, `Dms.C184_violated_mixed`, `Dms.C184_violated_coupling`. Proved if all diagonal elements have transformations with one normalization and there are no couplings. Violated: with a diagonal element without transformation an entry which was never written is used; a potential as coupling is accepted and has no effect in a step.
* **C185** (partial) Refusal of unusable elements. `Dms.C185_refused_partial`, `Dms.C185_violated_twice`. The first initialisation fails exactly for these operators. Violated: the second initialisation of a refused operator returns at once, and a step then uses an unset transformation.
* **C186** (partial) Energy bounds of multistate operators. `Dms.C186_emax_partial`, `Dms.C186_violated_emax`, `Dms.C186_violated_emin`. The upper bound is proved if the magnitudes of the bounds of the elements bound their energies and couplings. Violated: couplings with larger negative values (bound 1, energy 5) and negative energies (lower bound +1, energy -1).
* **C187** (partial) Copies of multistate operators. `Dms.C187_copy_partial`, `Dms.C187_violated_unity`, `Dms.C187_violated_new`, `Dms.C187_violated_time`. Application and steps proved with all diagonal elements. Violated: unity is not copied (missing diagonal elements act as zero), a copy never tells to be time dependent, copying an operator which has not been initialised uses a null pointer.
* **C188** (proved) Friction takes energy. `Fric.C188_dissipation`. The derivative is that of the equation of motion at the time of the application; the error of the propagators is not part of the statement.
* **C189** (proved) Frozen friction. `Fric.C189_frozen`. Independent of the kinetic energy operator.
* **C190** (partial) Friction does not shift the energy. `Fric.C190_zero_partial`, `Fric.C190_violated_norm`. Proved for states with norm one. Violated otherwise: the mean position is divided by the norm instead of its square.
* **C191** (partial) Documented friction operator. `Fric.C191_hermitian_partial`, `Fric.C191_violated_formula`, `Fric.C191_violated_slope`. With a mask (slope not zero) the operator with kept mean values is linear and hermitian. Violated: the product of the mean values is added instead of subtracted, so for c = 0 each state on positive positions has an expectation value with the sign of the mean momentum where the documented operator has zero; without mask (the default) values are used which were never set.
* **C192** (partial) Momentum kicks. `Fric.C192_kick_partial`, `Fric.C192_violated_twice`, `Fric.C192_violated_size`. Proved after one initialisation for matrix elements on the grid of the wave function. Violated: each further initialisation multiplies with the time step again; matrix elements with fewer points are read behind their end.
* **C193** (partial) Copies of friction operators. `Fric.C193_copy_partial`, `Fric.C193_violated_frozen`, `Fric.C193_violated_stokes`. Proved for the Albrecht operator while it recalculates. Violated: kept mean values are not copied (the copy has none and no friction), and each use of a copy of the Stokes operator uses a pointer which was never set.
* **C194** (partial) Finite difference kinetic energy. `Fd.C194_partial`, `Fd.C194_violated_masses`, `Fd.C194_violated_negative`, `Fd.C194_violated_few`. Proved for equal masses above -1 and without masses. Violated: with different masses the factor of the last one is used for all dimensions; a mass of -1 gives a negative kinetic energy (and not an inactive dimension); fewer masses than dimensions are read behind their end.
* **C195** (proved) Hermitian finite differences. `Fd.C195_hermitian`, `Fd.C195_antihermitian`. For real numbers without rounding. First derivatives of order 6 and above are not exactly anti-hermitian, because the tabulated coefficient of the point itself is of the order of 10^-22.
* **C196** (partial) Energy bounds of the finite differences. `Fd.C196_partial`, `Fd.C196_violated_min`, `Fd.C196_violated_first`. Proved for the second derivative with the same positive mass in all dimensions: the expectation value is real and at most the reported maximum in absolute value; for order two it is also not below the minimum zero. Violated: without masses the operator is negative and the minimum is still zero; the maximum of the first derivative uses the spacing of the first dimension whatever the dimensions of the derivative are.
* **C197** (partial) Copies of the finite difference operator. `Fd.C197_partial`, `Fd.C197_violated`, `Fd.C197_violated_emax`. Proved for a copy which is set up again with parameters and a wave function. Violated: the stencil is not copied and applying the copy uses a null pointer; the masses are not copied, so the reported maximum differs.
* **C198** (partial) All messages arrive in order. `Logs.C198_partial`, `Logs.C198_violated_detail`, `Logs.C198_violated_reference`, `Logs.C198_violated_header`. Proved without indentation, with one setting of the details and one destination. Violated: details given while asked for are lost if that is switched off before the flush; text written through a stream reference obtained before a flush does not arrive with the next flush; headers are written although messages are suppressed.
* **C199** (partial) Indentation. `Logs.C199_partial`, `Logs.lines_spec`, `Logs.C199_violated_midline`, `Logs.C199_violated_spaces`. Proved for messages of whole lines without suppression. Violated: a flush in the middle of a line puts the indentation in the middle; after a suppressed message a flush writes the indentation without a message.
* **C200** (partial) Headers. `Logs.C200_partial`, `Logs.C200_centred`, `Logs.C200_violated_long`, `Logs.C200_violated_section`. Proved for titles which fit. Violated: for longer titles the fill is computed in unsigned numbers and has more than 2^62 characters, for sections also if the title has less than four characters less than the line.
* **C201** (partial) Redirection to files. `Logs.C201_partial`, `Logs.C201_violated_pending`, `Logs.C201_violated_second`. Proved if nothing is pending at the redirection and no file is open. Violated: messages given before a redirection arrive at the new destination; asking for a second file fails and all later messages are lost.
* **C202** (partial) The absorbing layer damps. `Absorb.C202_damping_partial`, `Absorb.C202_default_partial`, `Absorb.C202_quadrant_partial`, `Absorb.C202_violated_odd`, `Absorb.C202_violated_amplifies`, `Absorb.C202_violated_infinite`, `Absorb.C202_violated_profile`. Proved for even orders (as the default) and angles up to a quarter turn. Violated: with odd orders the layer amplifies or divides by zero; the strength at the border is larger than the given maximum by (1+1/thick)^p, and the innermost point is at depth 2/thick.
* **C203** (partial) The strength that is estimated meets the tolerance. `Absorb.C203_estimate_partial`, `Absorb.C203_tolerance_partial`, `Absorb.C203_default_partial`, `Absorb.C203_violated`. The returning amplitude is the tolerance to the power 2 sin(gamma pi)/1.141, so it is at most the tolerance for the default angle. Violated: the estimate does not depend on the angle, for smaller angles more returns.
* **C204** (partial) Energy range of the kinetic energy with layers. `Absorb.C204_emax_partial`, `Absorb.C204_violated_emin`. The bound by the maximal energy is proved. Violated for the imaginary part of the minimal energy (angle without the factor pi, first dimension only).
* **C205** (partial) Adjoint of the kinetic energy with layers. `Absorb.C205_adjoint_partial`, `Absorb.C205_violated_adjoint`. Proved for matrix elements between wave functions that vanish in the layers. Violated otherwise: the order of derivatives and layers is kept.
* **C206** (proved) Kinetic energy and absorption. `Absorb.C206_kinetic`, `Absorb.C206_linear`, `Absorb.C206_absorbs`. The absorption is proved for one dimension and layers that do not overlap.
* **C207** (partial) Life of the operator with layers. `Absorb.C207_life_partial`, `Absorb.C207_violated_copy`, `Absorb.C207_violated_again`, `Absorb.C207_violated_rejected`. Proved for the first initialisation and copies of initialised operators. Violated: copying an operator before its initialisation and self assignment are undefined behaviour; a second initialisation for another grid is ignored; after a rejected initialisation the operator claims to be valid.
* **C208** (partial) Derivative of the metric. `Absorb.C208_derivative_partial`, `Absorb.C208_violated`. Violated: the table holds the derivative divided by the fourth power of the factor (it is not used by the operators at present).
* **C209** (partial) Writing to a stream with its own buffers. `Zcopy.C209_write_partial`, `Zcopy.C209_full_partial`, `Zcopy.C209_violated_empty`. Proved for at least one byte. Violated for zero bytes: the test after the loop reads a variable that is not set.
* **C210** (proved) Reading from a stream with its own buffers. `Zcopy.C210_read`, `Zcopy.C210_short`, `Zcopy.C210_round_trip`. 
* **C211** (partial) Classes loaded by name. `Mods.C211_builtin`, `Mods.C211_stable`, `Mods.C211_links`, `Mods.C211_violated_prefix`. Precedence, stability and link count are proved. Violated: the prefix is accepted for wave functions only, the full name of an operator class is not found or comes from some library.
* **C212** (partial) Search order for modules. `Mods.C212_order_partial`, `Mods.C212_missing_partial`, `Mods.C212_invalid_partial`, `Mods.C212_violated_slash`, `Mods.C212_violated_system`, `Mods.C212_violated_empty_path`. Proved for QD_MOD_PATH and compiled-in path with a slash at the end. Violated: QD_MOD_PATH without slash is not searched; system directories are searched for a name without .so; the empty user path is undefined behaviour.
* **C213** (partial) The name of a class is taken literally. `Mods.C213_sources_partial`, `Mods.C213_violated_expansion`. Proved: the class is loaded, compiled in, or comes from the first word of the expansion of a tried name. Violated: the names are expanded like in a shell; a failing expansion is undefined behaviour, with several words another file is opened.
* **C214** (partial) Command line of the compression program. `Qdz.C214_letters_partial`, `Qdz.C214_compress_partial`, `Qdz.C214_decompress_partial`, `Qdz.C214_refuse_partial`, `Qdz.C214_violated_default`, `Qdz.C214_violated_level0`, `Qdz.C214_violated_number`, `Qdz.C214_violated_status`. Proved with the method given. Violated: without -m every compression is refused; level 0 is refused; unreadable numbers are undefined behaviour; a missing file ends with status 0.
* **C215** (partial) Conversion of a series. `Qdz.C215_series_partial`, `Qdz.C215_first_partial`, `Qdz.C215_violated_read`, `Qdz.C215_violated_silent`. Proved without errors behind the first file. Violated: errors at later files end the program with success, the rest is not converted.
* **C216** (partial) Planner and wisdom of the Fourier transform. `Qdz.C216_planner_partial`, `Qdz.C216_save_partial`, `Qdz.C216_violated_file`. Planner proved. Saving is proved if wisdomsave is given or wisdom is not. Violated: with the parameter wisdom alone another file is written than announced.
* **C217** (partial) Root of the parsed document. `Qdz.C217_first_partial`, `Qdz.C217_fails_partial`, `Qdz.C217_violated_second`. Proved for the first document. Violated: after the root was asked for, a second document does not change it; before any document the root is a node without element.
* **C218** (partial) A temporary file works like an array. `Tmp.C218_array_partial`, `Tmp.C218_violated_position`, `Tmp.C218_violated_large`. Proved for explicit positions whose byte offset is not -1 modulo 2^32. Violated: after the opening with a size the position is the end; sizes that are multiples of 4 GiB cannot be created.
* **C219** (partial) Temporary files are removed. `Tmp.C219_clean_partial`, `Tmp.C219_full_partial`, `Tmp.C219_violated_error`. Proved if no call fails, and for a full disk while the file is created. Violated: after a failed read or write the file stays for ever.
* **C220** (partial) Size of a temporary file. `Tmp.C220_size_partial`, `Tmp.C220_resize_partial`, `Tmp.C220_violated_resize`, `Tmp.C220_violated_map`. Proved for the opening; resizing keeps the elements. Violated: resizing does not change the reported size, so going back to the first size does nothing; a failing mapping is not noticed.
* **C221** (partial) Pair of named pipes. `Tmp.C221_pair_partial`, `Tmp.C221_exists_partial`, `Tmp.C221_violated_unique`, `Tmp.C221_violated_leftover`. Violated: the default name is the same for all objects; if the second pipe cannot be created the first stays.
* **C222** (partial) A wave function in the binary format is read back. `Raw.C222_roundtrip_partial`, `Raw.C222_into_partial`, `Raw.C222_compressed_partial`, `Raw.C222_incompressible_partial`, `Raw.C222_violated_overread`, `Raw.C222_violated_tag`. Proved for data with a zero byte among the first 16 that looks neither like a stream nor like compressed data. Violated: without a zero byte in the first complex number the format detection reads beyond its buffer; data that ends with the tag of a compression is not readable; data that does not get smaller cannot be stored compressed (an exception, no file touched).
* **C223** (partial) A series in the binary format is read back. `Raw.C223_series_partial`, `Raw.C223_violated_params`. Proved for wave functions of one class with the same parameters. Violated: there is one parameter file for the whole series, the last frame decides how all frames are read; a larger frame is cut off silently.
* **C224** (partial) Several states in the binary format are read back. `Raw.C224_violated_multi`, `Raw.C224_state_partial`, `Raw.C224_leftover_partial`, `Raw.C224_into_partial`. Violated in general: the reader wants a data file with the name of the whole, which is never written, so reading always ends with an exception. Proved: every state can be read on its own; with an unrelated file of that name up to 63 states are read back.
* **C225** (proved) Files written for several states. `Raw.C225_files`, `Raw.C225_total`. For the suffix the class sets.
* **C226** (partial) File objects after reading and after errors. `Raw.C226_read_partial`, `Raw.C226_violated_write`, `Raw.C226_violated_read`. Proved: reading changes no file and after success name and counter are as expected. Violated: an exception while a state is written or read leaves the name of that state in the object.
* **C227** (proved) One frame of a series by its name. `Raw.C227_frame`. As long as no parameter file of the very name of the frame exists.
* **C228** (partial) Options for wave function files. `Raw.C228_options_partial`, `Raw.C228_invalid_partial`, `Raw.C228_violated_lost`. Proved: decision table of the options; with an unknown method nothing is written in the binary format. Violated: with several states in the stream format the existing file is emptied before the unknown method is noticed.
* **C229** (proved) States and multistate wave function show the same values. `Store.C229_session`, `Store.C229_returns`. States that are not themselves multistate wave functions; calls made to the multistate wave function by its own class (see C232).
* **C230** (proved) No leak and no double free with failing requests for memory. `Store.C230_delete`, `Store.C230_catching`, `Store.C230_retired`, `Store.C230_build`. 
* **C231** (partial) The states have the representation of the multistate wave function. `Store.C231_kspace_partial`, `Store.C231_retry`, `Store.C231_violated_exception`, `Store.C231_violated_stays`. Proved for sessions without exception, and for a second call after an exception. Violated: if memory runs out during the change some states stay in the new representation while the multistate wave function says the old one, and setting the old one does nothing.
* **C232** (partial) Calls to one state are seen through the multistate wave function. `Store.C232_write_partial`, `Store.C232_violated_switch`, `Store.C232_violated_resize`, `Store.C232_violated_base`. Proved for writing values. Violated: after IsKspace of a state the multistate wave function shows the old buffer and no longer the values of the state; after newsize of a state it points to memory that was given back; IsKspace is not virtual, a call through WaveFunction* unlinks the states and deleting gives memory back twice.
* **C233** (partial) swap exchanges two vectors. `Store.C233_swap_partial`, `Store.C233_violated_fewer`, `Store.C233_violated_more`. Proved for the same number of strides. Violated: only total sizes are compared; with fewer strides in the second vector pointers beyond an array are exchanged, with more strides elements are lost although success is reported.
* **C234** (partial) Storage of a vector that is made or resized. `Store.C234_newsize_partial`, `Store.C234_violated_exception`, `Store.C234_violated_leak`, `Store.C234_violated_retired`. Proved when newsize returns with another shape. Violated: after every exception in newsize deleting the vector is undefined behaviour (pointers never set); an exception in the constructor after the first stride leaks it; newsize to the present size after RetireStorage leaves the vector without storage.
* **C235** (partial) The exit status of the program. `Main.C235_run_begins`, `Main.C235_status_partial`, `Main.C235_text`, `Main.C235_violated_no_input`, `Main.C235_violated_bad_definition`, `Main.C235_violated_unknown_option`. Proved: exactly when a run begins, and the status of a run that begins. Violated: without input file and with a malformed variable definition the status is 0; unknown options are ignored silently.
* **C236** (partial) Settings of a run. `Main.C236_settings_partial`, `Main.C236_threads_partial`, `Main.C236_violated_no_number`, `Main.C236_violated_not_positive`. Proved for all settings, for the number of threads if the argument of -p is a positive number. Violated: an argument of -p that is no number means one thread, whatever the environment says; 0 and negative numbers are passed on to OpenMP.
* **C237** (partial) The format of the input file is recognised. `Main.C237_format_partial`, `Main.C237_violated_long`, `Main.C237_unreadable`, `Main.C237_input`. Proved for text files with fewer than 1024 characters. Violated: the buffer has no terminating zero for longer files, the search runs beyond its end unless both ends of tags are among the first 1024 characters; this is the case for all long files in the simple format.
* **C238** (partial) Parameters of the calculation of eigenfunctions. `EigRun.C238_checked_partial`, `EigRun.C238_settings`, `EigRun.C238_violated_empty_directory`. Proved with a usable directory name. Violated: an empty directory attribute is undefined behaviour.
* **C239** (partial) The table of energies. `EigRun.C239_table_partial`, `EigRun.C239_failure_reported`, `EigRun.C239_violated_terminates`. Proved if the file can be opened. Violated: if it cannot be opened, throw without an exception ends the whole program (std::terminate) and the message is never printed.
* **C240** (proved) Each iteration with frequency shaping starts from the masked field. `OctFreq.C240_both_fields`, `OctFreq.C240_unique`, `OctFreq.C240_iteration`. For FFTW transformations as documented; exact arithmetic.
* **C241** (proved) A mask of ones changes nothing. `OctFreq.C241_krotov`. For guess fields that are equal for all lasers, and operators as targets or a reversible propagator.
* **C242** (partial) Blocked components are removed from the change of the field. `OctFreq.C242_spectrum_partial`, `OctFreq.C242_violated_doubled`, `OctFreq.C242_violated_run`. Proved: the exact spectrum of the new field for a constant shape. Violated: the correction field has the wrong sign (line 351 adds it to the correlation inside the bracket), blocked components of the change are doubled instead of removed.
* **C243** (partial) The yield of the method freq is that of the targets. `OctFreq.C243_yield_partial`, `OctFreq.C243_violated_gobbler`. Proved for operators and for reversible propagators without gobbler. Violated with a gobbler: the target is propagated backward and forward again with absorption and not restored; the report can say 1 while the overlap is 9/25.
* **C244** (partial) Frequency bounds of the mask. `OctFreq.C244_bounds_partial`, `OctFreq.C244_lower`, `OctFreq.C244_upper`, `OctFreq.C244_violated_edge`, `OctFreq.C244_violated_zero`, `OctFreq.C244_edge_accepted`. Proved with the bounds multiplied by (N-1)/N. Violated: the position of a bound is computed with N-1 steps instead of N, so the component with exactly the upper frequency is damped below one half; a bound of zero makes the constant component not a number.
* **C245** (partial) Parameters of the optimal control program. `OctRun.C245_checked_partial`, `OctRun.C245_settings`, `OctRun.C245_yield_file`, `OctRun.C245_violated_negative`, `OctRun.C245_violated_freq`. Proved for a number of steps that is not negative, a usable directory, and for the method freq if both bounds are given. Violated: negative numbers of steps are accepted; with the method freq and a mask file, or with one bound only, values that were never set are printed.
* **C246** (partial) Wrong input of the optimal control program ends with a message. `OctRun.C246_message_partial`, `OctRun.C246_violated`, `OctRun.C246_violated_targets`. Proved for failures behind the search for the laser field. Violated: the destructor reads the pointer _Coup, which is set only by that search, so all earlier failures are undefined behaviour; a refused number of targets above 16 is used by the destructor as a bound for arrays with 16 elements.
* **C247** (partial) Optimal control finds the lasers of the Hamiltonian. `Coupling.C247_finds_partial`, `Coupling.C247_violated_many`, `Coupling.C247_violated_alone`, `Coupling.C247_violated_diagonal`, `Coupling.C247_violated_permanent`, `Coupling.C247_violated_grid`, `Coupling.C247_violated_upper`, `Coupling.C247_violated_null`. Proved for symmetric matrices without lasers on the diagonal or in sums on a grid, a Hamiltonian that is not one laser operator alone, and up to 16 lasers. Violated: more than 16 lasers write behind arrays; one laser operator without label as the whole Hamiltonian; lasers on the diagonal of a matrix, in sums on a grid (GridSum), or above the diagonal only are not found; a matrix that is not symmetric without any label uses a null pointer.
* **C248** (partial) The coupling operator is the response of the Hamiltonian to the field. `Coupling.C248_response_partial`, `Coupling.C248_violated_product`, `Coupling.C248_violated_two`, `Coupling.C248_violated_one_sided`. Proved under the hypotheses of C247 if no laser is a factor of a product. Sums on a grid are taken for the sum of their members (see C26), lasers for linear in the field. Violated: other factors of a product are left out; with two lasers as factors the response is quadratic; a laser at one side of a matrix that is not symmetric is put at both sides.
* **C249** (partial) Generated laser pulses are those of the handbook. `LaserGen.C249_single_partial`, `LaserGen.C249_double_partial`, `LaserGen.C249_violated_short`, `LaserGen.C249_violated_center`, `LaserGen.C249_violated_width`, `LaserGen.C249_violated_several`. Proved for operators with one laser if the number of steps is divisible by 2 and 8 where the default center and width are used. Violated: both defaults use a division of integers, so the center is off for odd numbers of steps, the width is too small if the number of steps is not a multiple of 8, and below 8 steps the field is NaN in the middle and zero elsewhere; operators with several lasers (Raman) do not support gen. Exact arithmetic.
* **C250** (proved) Where a laser field comes from and which clocks it accepts. `LaserGen.C250_source`, `LaserGen.C250_clocks`, `LaserGen.C250_file`. Reading a file written for an empty field is undefined behaviour in the model and not part of the claim.
* **C251** (partial) A generated field written to a file can be used instead. `LaserGen.C251_reload_partial`, `LaserGen.C251_violated_backward`. Proved for positive time steps, given that files keep their content (C14, C107). Violated: with a time step that is not positive the field is generated and written, but the file is refused on reading.
* **C252** (partial) Copies of operators with a generated field. `LaserGen.C252_copy_partial`, `LaserGen.C252_violated_early`, `LaserGen.C252_violated_other`. Proved for a copy made after setting a clock and used with the same clock. Violated: the parameters of the pulse are not copied, so a copy made before refuses every clock, and one made afterwards refuses all clocks that are longer or have another time step.
* **C253** (partial) The power spectrum of a laser stays inside its arrays. `LaserGen.C253_bounds_partial`. True for up to two steps. Violated for every clock with three or more steps: the loop runs over all values of the field although the spectrum has only half as many. The function is not called by the programs.
* **C254** (partial) Polarisation vectors are deleted once. `LaserGen.C254_once_partial`, `LaserGen.C254_violated`. Proved exactly: an array is deleted twice if and only if the number of lasers is changed while vectors exist that are switched off. The functions are protected and not called by the classes of the repository.
* **C255** (partial) The operator in memory is the one the input describes. `OpChain.C255_sound_partial`, `OpChain.C255_complete_partial`, `OpChain.C255_violated_underscores`. Proved in both directions for inputs where keys do not begin with two underscores and elements of matrices are named letter, row, point, column. Violated for keys like the generated ones: they are silently replaced by an operator without a key. A sum on a grid with a dipole that generates its laser field does not count as an input with a meaning (C258).
* **C256** (partial) Elements of matrices are where their names say. `OpChain.C256_name`, `OpChain.C256_places_partial`, `OpChain.C256_violated_point`, `OpChain.C256_violated_letters`, `OpChain.C256_violated_empty`, `OpChain.C256_violated_negative`. Proved for names of the documented form. Violated: names without a point go to the first column, letters count as zero, with an empty row an uninitialised number is used, with negative numbers memory in front of the matrix is written.
* **C257** (proved) Operators are shared, without cycles, and keep their keys. `OpChain.C257_acyclic`, `OpChain.C257_shared`, `OpChain.C257_reference`, `OpChain.C257_self`. Keys of users do not begin with two underscores (see C255). Removing operators from the list between two runs of programs is not part of the model (C41).
* **C258** (partial) An input of an operator that cannot be used ends in an error message. `OpChain.C258_answered_partial`, `OpChain.C258_violated_text`, `OpChain.C258_violated_empty`, `OpChain.C258_violated_comment`, `OpChain.C258_violated_clock`. Proved for inputs without sums on grids whose matrices have elements with proper names and whose lists with text in them have elements. Violated: an operator that is not on a grid in a sum on a grid throws a text, which is not an Exception; empty sums on grids and matrices use a NULL pointer, also lists with white space or a comment only; a dipole with a generated field in a sum on a grid uses the clock before there is one.
* **C259** (partial) The default diagonal of matrices. `OpChain.C259_given_partial`, `OpChain.C259_violated_default`. Proved if the attribute is given as true or false. Violated without it: the operator uses one, the handbook, the comment of the class and the log say zero.
* **C260** (partial) Labels. `OpChain.C260_label_partial`, `OpChain.C260_violated_reference`, `OpChain.C260_violated_inherited`. Proved for operators that are given with a label. Violated: a label of a reference is ignored, and an operator without a key and a label takes over the label of an entry with its generated key.
* **C261** (partial) The chain rule does not change the kinetic energy. `Gmc.C261_formula_partial`, `Gmc.C261_product_partial`, `Gmc.C261_interior_partial`, `Gmc.C261_interior_near_partial`, `Gmc.C261_violated_edge`, `Gmc.C261_violated_mixed`, `Gmc.C261_violated_constant`, `Gmc.C261_violated_constant_single`. Proved if all elements are functions on the grid: the operator is the one of the product rule with finite differences, and for constant elements equal to the one without chain rule away from the edges (for orders above 4 up to the rounding of the table). Violated: at the edges the elements are taken as zero outside of the grid, an element that is not loaded uses a pointer that was never assigned, a constant diagonal element an empty vector.
* **C262** (partial) Chain rule and absorbing layers exclude each other. `Gmc.C262_single_partial`, `Gmc.C262_violated_refusal`, `Gmc.C262_violated_accepted`, `Gmc.C262_violated_ignored`. Proved: each of them alone is set up. Violated: the check comes before the parameter is read, no sequence of calls is ever refused, and the layers then have no effect.
* **C263** (partial) Constant elements of the G-matrix as numbers or as functions. `Gmc.C263_same_partial`, `Gmc.C263_violated_layer`. Proved without chain rule and layers. Violated with absorbing layers: the factor of the layer is applied twice for a number and once for a function.
* **C264** (partial) Copies of the kinetic energy with a G-matrix. `Gmc.C264_original_partial`, `Gmc.C264_violated`, `Gmc.C264_violated_uninitialised`. Violated: a copy lacks a buffer and its set-up returns early, so every application uses a NULL pointer; copying an operator that was not initialised does so at once. Proved: the original can be applied.
* **C265** (proved) Accuracy of a step of the Chebychev propagator. `Chexp.C265_step`, `Chexp.C265_converges`. Against the differential equation itself: the expansion of the exponential function in Chebychev polynomials with Bessel functions is proved from the power series, with a bound for the rest. The library routine for the Bessel functions is assumed to be exact, numbers are exact.
* **C266** (partial) The number of terms chosen by the Chebychev propagator. `Chexp.C266_enough_partial`, `Chexp.C266_small`, `Chexp.C266_refuses`, `Chexp.C266_violated_crossing`. Proved wherever the chosen number is at least 1.5 z + 1, z half of the energy range times the time step; always for z up to 2/3. Violated where two successive Bessel functions agree below that: there is a z between one and two for which two terms are chosen and accepted, with an error of a fifth of the norm. Also proved: which set-ups are refused.
* **C267** (partial) The precision of the Chebychev propagator. `Chexp.C267_norm_partial`, `Chexp.C267_violated_cut`. Proved: only the norm is that close, otherwise all terms are used. Violated: for a two level system there is a wave function for which three terms have exactly the norm of the input, the series is cut for every precision and the result is wrong by more than 0.3 percent.
* **C268** (partial) Imaginary time steps of the Chebychev propagator. `Chexp.C268_scaled_partial`, `Chexp.C268_violated_factor`. Proved up to a factor exp(-1.05 range dt), for a lower bound that is not larger in size than the range: the Bessel functions are requested scaled by exp(-x) and the scaling is never undone. Violated without the factor: a state of zero energy loses a third of its norm at least. Forward in imaginary time is the growing direction.
* **C269** (proved) Accuracy of the Runge-Kutta propagator. `Accur.C269_step`, `Accur.C269_many`. Against the differential equation itself. Hamiltonians that do not depend on time; numbers are exact.
* **C270** (partial) The norm under the Runge-Kutta propagator. `Accur.C270_bounded_partial`, `Accur.C270_violated_growth`, `Accur.C270_violated_loss`. Proved: the norm does not grow if the time step times the largest energy is at most the square root of eight; nothing in the propagator checks that. Violated beyond: every eigenstate above the limit grows without bound. The norm is not conserved below the limit either: eigenstates of other energies than zero lose norm in each step.
* **C271** (proved) Accuracy of the split operator propagator. `Accur.C271_step`, `Accur.C271_many`. Against the differential equation on the grid. Single state wave functions, many steps for operators that do not depend on time; numbers are exact, the Fourier transform is the exact discrete one.
* **C272** (proved) Many steps of the Chebychev propagator. `Accur.C272_many`. The library routine for the Bessel functions is assumed to be exact, numbers are exact.
* **C273** (proved) Accuracy of the Lanczos propagator. `Accur.C273_step`, `Accur.C273_many`. Against the differential equation itself. The steps are those that are defined (the Krylov vectors are independent, see C104); the Hamiltonian does not depend on time, numbers are exact.
* **C274** (proved) Accuracy of the Arnoldi propagator. `Accur.C274_step`, `Accur.C274_many`. Against the differential equation itself. The steps are those that are defined (the matrix of eigenvectors can be inverted); eigenfunctions are in C105, with old vectors in the buffers they may fail. The Hamiltonian does not depend on time, numbers are exact.
* **C275** (partial) A driven Hamiltonian follows the clock of the propagator. `PLife.C275_fields_partial`, `PLife.C275_violated_rk4`, `PLife.C275_rk4_clocked_partial`. Holds for the Chebychev, Lanczos and Arnoldi propagators. The Runge-Kutta propagator accepts the set-up, but no one gives the clock to the Hamiltonian, so every step with a laser reads a null pointer; it holds if the Hamiltonian was given the clock before, as the optimal control program does.
* **C276** (partial) Copies of propagators. `PLife.C276_arnoldi_partial`, `PLife.C276_violated`, `PLife.C276_violated_threshold`, `PLife.C276_violated_early`. Copies of Chebychev, Lanczos and Runge-Kutta propagators never make a step, whatever is done with them: the names of the operators, the buffer of the Krylov vectors or the Hamiltonian are missing. Copies of Arnoldi propagators make the same steps if the threshold is the default one. Copying a propagator that was never set up reads a null pointer.
* **C277** (partial) Another clock for a propagator. `PLife.C277_partial`, `PLife.C277_violated_cheby`, `PLife.C277_violated_lasers`. Holds without lasers for the Lanczos, Arnoldi and Runge-Kutta propagators. The Chebychev propagator keeps the series for the first time step; the lasers of the Lanczos and Arnoldi propagators stay with the first clock.
* **C278** (partial) What a propagator refuses when it is set up. `PLife.C278_hamiltonian`, `PLife.C278_krylov`, `PLife.C278_hermitian`, `PLife.C278_cheby_clock_partial`, `PLife.C278_violated_cheby`, `PLife.C278_violated_order`, `PLife.C278_violated_rk4`, `PLife.C278_violated_laser`. A missing Hamiltonian is always reported; the Lanczos and Arnoldi propagators report a missing clock, time step or wave function and the Lanczos propagator a Hamiltonian that is not hermitian as often as they are asked. The Chebychev propagator without a clock reads a null pointer if there is a generated pulse. Refused only the first time: an order that is too small (Chebychev, steps then read coefficients that do not exist), a missing clock (Runge-Kutta), a laser that does not fit (Lanczos, Arnoldi).
* **C279** (partial) Functions and energies of the Lanczos method. `RitzEf.C279_needs_arnoldi`, `RitzEf.C279_ritz_partial`, `RitzEf.C279_hermitian_partial`, `RitzEf.C279_violated_eigenfunction`. Holds if the initial wave function is not an eigenfunction within 1e-11. If it is one, the order is not reduced: `order` functions are written, all but one are zero (or undefined memory) with the energy zero, whatever the levels are.
* **C280** (proved) The energies of the Lanczos method are variational. `RitzEf.C280_bounds`, `RitzEf.C280_best`, `RitzEf.C280_initial`. 
* **C281** (proved) The energies of the Lanczos method are eigenvalues up to the residual. `RitzEf.C281_error`, `RitzEf.C281_invariant`. 
* **C282** (proved) The option diag after the Lanczos method. `RitzEf.C282`. 
* **C283** (proved) Integers in a parameter container. `PNum.C283_roundtrip`, `PNum.C283_others`. For all containers, integer types and numbers of the type; number output and sscanf as in the C standard.
* **C284** (partial) Integers given in the input. `PNum.C284_number_partial`, `PNum.C284_violated_rest`, `PNum.C284_violated_text`, `PNum.C284_violated_range`, `PNum.C284_violated_negative`. Proved for all texts that begin with a number of the type, with blanks, signs and leading zeros, and for missing entries. Refuted for all others: what follows the digits is ignored (1e5 gives 1), a text without a number is reported as found and leaves the variable as it was, numbers out of range are undefined or wrap around.
* **C285** (partial) Arrays of numbers in a parameter container. `PNum.C285_ints_partial`, `PNum.C285_bools_partial`, `PNum.C285_text_partial`, `PNum.C285_chars_partial`, `PNum.C285_violated_empty`, `PNum.C285_violated_text`. Proved for all non empty arrays. Refuted: the empty array comes back with an element without a value (undefined) or false; an element that is not a number is undefined.
* **C286** (partial) Parameter files. `PNum.C286_partial`, `PNum.C286_violated_write`, `PNum.C286_violated_read`. Proved for all files that can be opened for writing, also on devices that are full. Refuted: a file that cannot be opened for writing is reported as written; a write protected file is not read (the default mode of fstream asks for writing).
* **C287** (partial) Parameters of a correlation function run. `CfIn.C287_accepts_partial`, `CfIn.C287_rejects_partial`, `CfIn.C287_violated_sign`, `CfIn.C287_violated_dir`, `CfIn.C287_violated_text`. Proved for all inputs with meaningful values and for missing and zero values. Refuted: every negative number of steps and every write cycle below one is taken, an empty dir and a number of steps that is no number are undefined.
* **C288** (proved) Meta data of a correlation function. `CfIn.C288_meta`. For every run without a baseline from files that ends without exception; numbers of values from the model of the calculation (C89, C90).
* **C289** (partial) File of a correlation function. `CfIn.C289_partial`, `CfIn.C289_violated`. Proved: directory and different names. Refuted for all inputs: the attribute fname has no effect.
* **C290** (partial) What a compressed wave function file loses. `Lossy.C290_partial`, `Lossy.C290_exact_partial`, `Lossy.C290_violated`, `Lossy.C290_flag`. Holds if a plan exists, wisdom is present or the flag is FFTW_ESTIMATE. With default options the first compressed wave function read is destroyed: Restore copies the data and then searches for a plan, which overwrites the array.
* **C291** (partial) Writing a compressed file leaves the wave function alone. `Lossy.C291_partial`, `Lossy.C291_violated`. Holds in the coordinate representation; a wave function in the momentum representation is overwritten.
* **C292** (partial) What a compressed level wave function loses. `Lossy.C292_partial`, `Lossy.C292_violated`. Holds for non negative parts; the comparison lacks the modulus, so all negative parts are set to zero.
* **C293** (proved) Fourier transform over a grid of any dimension. `FftN.C293_transform`, `FftN.C293_places`. The library is a parameter that does what its documentation says about the arguments it is given.
* **C294** (proved) Fourier transform along one dimension. `FftN.C294_transform`. The library is a parameter that does what its documentation says about the arguments it is given.
* **C295** (partial) The first transform along a dimension keeps the data. `FftN.C295_partial`, `FftN.C295_violated`. Holds if the transform was created in the coordinate representation, a plan exists or nothing has to be searched. After reading a compressed file the transform saves the wrong vector while searching and the wave function is lost.
* **C296** (partial) The operator Scalar multiplies with its constant. `Scal.C296_partial`, `Scal.C296_violated`, `Scal.C296_violated_text`. Holds if value is given as a number. Without value the constant is zero instead of the documented one; a text that is no number is accepted; old imaginary parts stay.
* **C297** (partial) Matrix elements and validity of the operator Scalar. `Scal.C297_partial`, `Scal.C297_violated`. Holds after the operator was given a wave function; before, a null pointer is dereferenced.
* **C298** (partial) Energy range of the operator Scalar. `Scal.C298_partial`, `Scal.C298_violated`. Holds for constants that are not negative; the lower end is always zero.
* **C299** (partial) The operator Normalize. `Scal.C299_partial`, `Scal.C299_violated`. Holds for wave functions that are not zero; zero gives elements that are not a number.
* **C300** (partial) Mixed derivative by finite differences. `MixDiff.C300_partial`, `MixDiff.C300_violated`, `MixDiff.C300_violated_factor`. Holds at inner points before the last block of rows, with factor one and block sizes that divide the number of points. On every grid with two dimensions and for all orders up to 30 there are points that are never set, or memory outside of the arrays is written; the factor enters twice.
* **C301** (partial) Derivative along one dimension by finite differences with prefactors. `DiffSet.C301_add`, `DiffSet.C301_partial`, `DiffSet.C301_violated`. The adding variant is right. The setting variant is right for prefactors one and zero; in general it multiplies twice with the prefactor.
* **C302** (partial) Set-up of the difference operator. `DiffSet.C302_partial`, `DiffSet.C302_violated`. Holds for the first set-up. After a set-up for one dimension a second one prepares nothing, and the tables of the old grid are used.
* **C303** (partial) Arrays given to LAPACK are long enough. `Lap.C303_partial`, `Lap.C303_violated`, `Lap.C303_violated_general`. Proved for real symmetric, tridiagonal (size two and more), Hessenberg matrices and the inversion, and in release builds for complex Hermitian matrices up to size 85. Violated for complex Hermitian matrices: the work array has half of the length announced (lengths of the two work arrays exchanged), for all sizes in debug builds and from 86 on in release builds. Violated for general matrices if the vector for the eigenvalues is too short at the call.
* **C304** (partial) Work memory of the linear algebra is given back. `Lap.C304_partial`, `Lap.C304_violated`, `Lap.C304_violated_steps`, `Lap.C304_violated_exception`. Proved for all diagonalizations that return. Violated for the inversion: the work array is never given back; therefore the Arnoldi propagator does at most limit/(160 order) steps. Violated if the second request for memory fails.
* **C305** (partial) Return codes of the linear algebra. `Lap.C305_partial`, `Lap.C305_violated`, `Lap.C305_violated_zero`. Proved for symmetric, Hermitian, tridiagonal matrices and the inversion. Violated for Hessenberg and general matrices: the failure of the eigenvalue calculation or of the reduction is overwritten; zero is returned.
* **C306** (proved) Energy bounds of a sum of grid operators. `GSum.C306`. Members are potentials (operators whose bounds are the extreme values of their vector); real numbers instead of double.
* **C307** (partial) Which operators a sum on a grid takes. `GSum.C307_partial`, `GSum.C307_violated_negative`, `GSum.C307_violated_empty`. Proved for all sequences of operators with at least one point and for Get with numbers from zero on. Violated: Get with a negative number reads outside of the array; after an operator without points one with any number of points is taken.
* **C308** (partial) A sum on a grid refuses wave functions of other grids. `GSum.C308_partial`, `GSum.C308_violated`. Proved: accepted exactly if the sum has members and the numbers of points agree. Violated: the grids are not compared, so a wave function on another grid with the same number of points is accepted although the members refuse it.
* **C309** (partial) Copies and deletion of sums on a grid. `GSum.C309_partial`, `GSum.C309_delete_partial`, `GSum.C309_violated`, `GSum.C309_violated_other`, `GSum.C309_violated_leak`, `GSum.C309_violated_layout`. Proved: a copy answers as the original right after copying; without copies and with every operator in one sum, members live as long as their sum and are destroyed with it, nothing else is. Violated with copies: they share the members, so after deleting the original the copy uses destroyed operators, deleting it can destroy an unrelated operator with the same address, and former members of the target are never deleted. The theorems on deletion are for layouts in which DELETE_OP finds the operator (Operator part at the beginning of the object); in the usual layout nothing is destroyed (C309_violated_layout, C315).
* **C310** (partial) Grid of a potential set up from parameters. `PotIn.C310_partial`, `PotIn.C310_negative_partial`, `PotIn.C310_violated_none`, `PotIn.C310_violated_missing`, `PotIn.C310_violated_dims`. Proved for readable values with N0 present. Violated: without file and dims a potential without grid is accepted; a missing N0 is accepted and gives no values; an unreadable dims is undefined behaviour.
* **C311** (partial) Potential set up from a file. `PotIn.C311_partial`, `PotIn.C311_violated_ignored`, `PotIn.C311_violated_retry`. Proved without dims (or not positive) and without a failure before. Violated: with a grid given the file is ignored and the values are never set; after a failure the flag that marks reading stays set, so a later set-up with a good file is accepted without reading it. Raw format; modifiers see C157.
* **C312** (partial) Set-up of the split operator propagator. `Gspo.C312_partial`, `Gspo.C312_prepared`, `Gspo.C312_violated_null`. Proved for every wave function that exists, with the states reached by every history of additions and clocks (C312_prepared). Violated: with parts and a clock a missing wave function is used before it is checked.
* **C313** (partial) Repeated set-up of the split operator propagator. `Gspo.C313_partial`, `Gspo.C313_violated_silent`, `Gspo.C313_violated_other`, `Gspo.C313_violated_stuck`, `Gspo.C313_violated_empty`. Proved after success for wave functions with elements. Violated: after a zero time step or a part that refuses, the second set-up returns as if it had succeeded; another size is not noticed; after a missing clock or part every later set-up is refused because the Hamiltonian keeps part A; with no elements the second set-up is refused.
* **C314** (partial) Split operator propagator after a refused set-up. `Gspo.C314_partial`, `Gspo.C314_ready_partial`, `Gspo.C314_violated`. Proved after success and after one refusal. Violated: after two refusals the counted length exceeds the parts and a null pointer is used.
* **C315** (partial) Deleted operators are destroyed. `OpMem.C315_partial`, `OpMem.C315_violated`, `OpMem.C315_violated_matrix`. Proved for operators whose Operator part is at the beginning of the object (lists, sums, propagators). Violated where it is not (virtual base in the usual layout, a parameter of the model): DELETE_OP never finds the operator; matrix operators made by NewInstance are destroyed but their memory stays registered, so it is destroyed again at the end or a later operator there is not destroyed.
* **C316** (partial) Scalar product of multistate wave functions. `MsWf.C316_partial`, `MsWf.C316_self_partial`, `MsWf.C316_sizes_partial`, `MsWf.C316_violated_more`, `MsWf.C316_violated_fewer`, `MsWf.C316_violated_null`. Proved for the same number of states, with sizes that agree or not, exact arithmetic, one process. Violated: the numbers of states are not compared; further states of the right side are ignored, missing ones are null pointers that are used; for a null pointer the message of the exception uses it.
* **C317** (partial) Assignment of multistate wave functions. `MsWf.C317_partial`, `MsWf.C317_violated`. Proved for wave functions that exist with all states set. Violated: a null pointer and missing states are used unchecked.
* **C318** (partial) Files of wave function buffers. `BufName.C318_partial`, `BufName.C318_two_partial`, `BufName.C318_violated`, `BufName.C318_violated_wrap`. Proved for positions below 2^32 of one buffer, and for two buffers whose random numbers have the same number of hexadecimal digits. Violated: the numbers are written without padding and without a separator, so if one random number is the other one with a digit appended the buffers share files; positions from 2^32 on use the files of lower ones (a comment in the code names this limit).
* **C319** (proved) Directory of the files of wave function buffers. `BufName.C319_directory`. Reading /dev/urandom is assumed to succeed; the random number is arbitrary.
* **C320** (partial) Set-up of the non adiabatic coupling. `NacIn.C320_partial`, `NacIn.C320_refused_partial`, `NacIn.C320_violated`. Proved for new operators, the refusal in every state. Violated: a repeated set-up keeps the sign, and in more dimensions the mass, of the one before. Parameters that are present are assumed to be readable.
* **C321** (partial) Preparation of the non adiabatic coupling. `NacIn.C321_partial`, `NacIn.C321_violated`, `NacIn.C321_violated_null`. Proved for the first preparation. Violated: once prepared, every other grid with as many dimensions is accepted and ignored; without a preparation the operator uses a null pointer. Grids are compared exactly (C103 has the comparison).
* **C322** (proved) Energy bounds of a sum of operators. `SumBnd.C322_sum`, `SumBnd.C322_values`, `SumBnd.C322_empty`. Exact arithmetic; the parts are arbitrary functions on wave functions with the bounds they report.
* **C323** (partial) Energy bounds of a product of operators. `SumBnd.C323_partial`, `SumBnd.C323_violated`. Proved for parts that multiply with real values that are not negative, such as potentials with zero as lowest value. Violated for negative values: the square of an operator with the bounds a and b, where b^2 < a^2, exceeds the reported upper bound b^2. Parts that do not commute are not treated.
* **C324** (partial) Time of the elements of a multistate operator. `MsTime.C324_partial`, `MsTime.C324_clock_partial`, `MsTime.C324_violated`, `MsTime.C324_violated_64`. Proved for the clock always and for the time update after the preparation for a wave function, which all programs do first. Violated: before it a coupling given in the upper triangle only is missed in hermitian mode; without hermitian mode and with 64 states the array is left (the loop over the columns goes one too far).
* **C325** (proved) Operators on a grid survive serialisation. `OpSer.C325_roundtrip`, `OpSer.C325_roundtrip_wire`. For every header codec that round trips, and for the wire format of Verif/Wire. Little endian host, values as bit patterns.
* **C326** (partial) Damaged operator files are refused. `OpSer.C326_partial`, `OpSer.C326_violated_short`, `OpSer.C326_violated_kind`. Proved for headers that can not be parsed and grids that do not fit into the memory. Violated: missing bytes of the data are not noticed, the operator keeps values that were never set; every file of a grid wave function is accepted as an operator, since the data size in the header is not looked at.
* **C327** (partial) Energy bounds of the Raman operator. `RamSeed.C327_partial`, `RamSeed.C327_violated_lower`, `RamSeed.C327_violated_upper`. Proved: the upper bound if polarisability and fields are not negative. Violated: Emin is zero although the energy is negative whenever polarisability and fields are positive; with fields of both signs the energy exceeds Emax, which is calculated from the largest instead of the largest absolute values.
* **C328** (partial) Seeds of the quantum jump operator. `RamSeed.C328_partial`, `RamSeed.C328_words_partial`, `RamSeed.C328_refused`, `RamSeed.C328_violated`. Proved for seeds below 2^48: the state that is given to the random number generator is different, and is the seed in three words of 16 bits. Violated: seeds that differ by 2^48 give the same numbers. The generator itself is external.

## Where the code disagrees with the property

One line per negation that is proved, from the comments of the theorems.

* `C02_violated`: as stated is violated: a container holding the single typed entry `mass[int] = 1` cannot be read back from its own text form.
* `C05_violated`: is violated: if some line has 2048 characters or more and the lines before it do not make the parser stop or throw, parsing never ends.
* `C05_violated_witness`: The hypotheses of `C05_violated` are met, for instance by any line of at least 2048 letters.
* `C07_violated`: as stated is violated: after a double free (release build) the pool hands out the same pointer twice.
* `C08_violated`: is violated in a release build for a limit that is not a multiple of 4096: the limit is exceeded, and from then on requests of nearly any size pass the check.
* `C100_violated_complex`: (violated for complex matrix elements). Only the real part of the matrix elements is used: for a Hermitian Hamiltonian with the eigenvalues `1` and `-1` and an orthonormal basis the energies reported are all zero, and zero is not an eigenvalue.
* `C100_violated_overlap`: (violated for functions that are not orthogonal, as those of the method `ac` may be). Two equal functions and the Hamiltonian one: the energies reported are zero or two.
* `C101_violated_dims`: if `dims` is not a number, an uninitialised variable is used.
* `C101_violated_missing_size`: without `N0` the initialisation is not rejected; with any positive number of dimensions, the description of a dimension that does not exist is read (undefined behaviour).
* `C101_violated_unreadable`: a number of points that is not a number is not rejected; the second dimension silently gets the number of points of the first one.
* `C102_violated_collapse`: a usable grid can be written but not read back: both ends are printed as 1, and the wave function is rejected.
* `C102_violated_digits`: the grid from 0 to 1.2345678 is read back as a grid that the comparison of grids tells apart from the one that was written.
* `C104_violated_eigenfunction`: C104, violated: an eigenfunction of the Hamiltonian that is normalised, the easiest case for a propagator, divides by a zero norm.
* `C104_violated_unnormalised`: C104, violated: a wave function that is not normalised loses norm in a step of the two coupled levels, although the Hamiltonian is Hermitian and no approximation is left (three vectors in a space of two dimensions). The wave function in the result is a third of what it should be up to a phase.
* `C105_violated_old_vectors`: C105, violated: an eigenfunction has no step when the buffers contain, from an earlier call, a wave function that overlaps with it: `_order` is not reset, the old vector enters the matrix, and the matrix need not have a basis of eigenvectors.
* `C105_violated_unnormalised`: C105, violated: a wave function of norm below one loses norm in a step of a single level with energy one, where the time evolution is only a phase.
* `C10_violated`: is violated: the empty text, `B` and a bare unit are not rejected, reading them is undefined behaviour; a product that does not fit is silently reduced modulo 2^64.
* `C127_moving_violated`: C127: with moving targets the correction does not use them: the propagation of the guess overwrites the series that has been read. Krotov with a Hermitian coupling then never changes the field, whatever the targets are.
* `C128_early_violated`: C128: in the first iteration of this run (two targets, normalised wave functions, 50 iterations) the yield rises from zero to one, and the program stops and says that convergence is reached.
* `C129_feedback_violated`: C129: the backward propagation of the feedback method is to use the field it has just found ("Propagate Target Backward with new field"). It uses the old one: for targets that are wave functions every run of rabitzfb has the same fields and yields as the run of rabitz, the feedback has no effect.
* `C129_operator_violated`: C129: targets that are operators. The feedback method, designed for them, applies the operator to the initial wave function instead of the final one: if there is nothing of the target in the initial wave functions (the usual case), the field of every iteration is zero.
* `C12_violated`: for unreasonable counts: `2^60` declared elements with `0` declared bytes are accepted as an empty vector; `2^32 + 1` declared elements write over the end of the buffer.
* `C130_lasers_violated`: C130: several lasers with different guess fields. Where the shape is zero nothing is to change, but from the first iteration on all lasers have the field of the first one.
* `C132_negative_violated`: The claim is wrong for negative masses, which are accepted besides a positive one: then there is a wave function with an energy below `Emin`.
* `C133_zero_mass_violated`: The Handbook says that a mass of zero leaves the dimension out. Instead each such input is rejected.
* `C134_copy_violated`: A copy of an operator that is in use reads an empty vector, with or without a new initialisation.
* `C134_early_copy_violated`: A copy of an operator that was not in use yet gives minus the sum of the squared wave numbers: the masses and the sign of the kinetic energy are lost.
* `C137_momentum_adjoint_violated`: For the momentum operator the flag does not give the adjoint: this is the operator itself, with the flag the sign changes.
* `C137_nabla_violated`: For the Nabla operator the flag gives minus the complex conjugate operator: the derivative is real, but its sign is changed.
* `C138_copy_violated`: A copy that is initialised before it is used acts on all dimensions, also if the original acts on one.
* `C138_flag_violated`: A copy of an operator with the conjugate flag has lost the flag.
* `C139_junk_violated`: The result depends on what was in the memory before.
* `C139_momentum_violated`: In momentum mode the exponential has an additional factor `-i`: it is again the one of minus the derivative.
* `C139_sign_violated`: If the memory for the exponential happens to be zero, the exponential of the Nabla operator is the one of minus the operator: the plane waves get the opposite phase.
* `C140_even_violated`: On a grid with an even number of points `Emax` is the smallest, negative wave number and not the largest.
* `C143_constant_violated`: With a constant off diagonal element `Emax` is not an upper bound, although the matrix is positive definite: the grid spacings are left out.
* `C144_uncoupled_violated`: The kinetic coupling cannot be turned off for elements from files: the initialisation uses an element that was not loaded.
* `C146_lower_violated`: `Emin` is always zero, although the matrix elements have both signs.
* `C146_upper_violated`: In general `Emax` is not an upper bound: with a negative coupling function it is negative.
* `C147_left_border_violated`: An edge on the left border of the grid is accepted, but the first value of the mask is not a number then, for a left pass as well as for a right pass.
* `C148_left_violated`: With `nip` and edges on the left only the operator is zero on every grid: the absorber is multiplied to a vector of zeros.
* `C149_absorber_violated`: An absorber with edges in two dimensions has a value larger than `Emax` in magnitude: the contributions of the dimensions are added.
* `C14_violated_empty`: for a field without samples: nothing is written, and reading it back from the stream does not raise the exception but evaluates an uninitialised size.
* `C151_flags_violated`: The copy of an absorber says that it is Hermitian, and the copy of a conjugated absorber is not conjugated.
* `C152_flux_violated`: A flux operator with a wrong number of operators is refused, but the second attempt to initialise it succeeds.
* `C152_gobbler_violated`: An edge outside of the grid is refused, but the second attempt to initialise the same operator succeeds and leaves a mask without that edge.
* `C152_position_violated`: A dimension outside of the grid is refused, but the second attempt to initialise the same operator succeeds and leaves the zero operator.
* `C154_new_violated`: Copying an initialised kick to a new operator is undefined on every grid: the momentum vector of the copy has no elements.
* `C154_old_violated`: Copying an initialised kick to another initialised kick has no effect on how it acts.
* `C156_copy_violated`: A copy of a position operator acts like the original, but its bounds are undefined.
* `C156_scale_violated`: With a scale the operator has values above `Emax`.
* `C156_sum_violated`: Without a dimension, the default, `Emax` and `Emin` access a dimension that does not exist.
* `C159_sign_violated`: The reported flux is the opposite of the documented outgoing flux `-2 ∫ Im(ψ* T ψ)`, for all operators and wave functions, and it is not zero in general.
* `C15_violated_magic`: a file whose first 16 bytes contain no zero byte is not rejected; the check reads over the end of the intro (undefined behaviour).
* `C15_violated_truncated`: when the last byte of a level wave function is missing, reading does not fail but returns an object with indeterminate contents.
* `C161_copy_violated`: Asking the copy of an initialised flux operator for a value is undefined.
* `C162_violated_degenerate`: For equal diagonal elements and a negative off diagonal element the eigenvectors are assigned to the wrong eigenvalues.
* `C165_violated_reset`: A propagator that was initialised at another time step uses the old potential energy if the clock is set back to zero.
* `C166_violated_apply`: In no history of calls a two state wave function is ever propagated.
* `C166_violated_init`: No two state wave function is ever accepted by a new propagator, whatever operators it has.
* `C167_violated_second`: A coupling with a single potential is rejected, but the next attempt with the same operators is accepted, and the propagation that follows is undefined.
* `C168_violated_backward`: Changing to backward propagation after the initialisation has no effect: the step is not the one with the new exponent.
* `C169_violated_target`: The application with a separate target does nothing: for a wave function that is not zero the target, if it was zero before, differs from the result of the application in place.
* `C16_violated_nested`: a multi state whose first state is a multi state with one state is written without complaint, reading it back fails.
* `C170_violated_static`: For a potential that does not depend on time an update at any later time step reads a null pointer.
* `C171_violated_copy`: No propagator can be copied, in whatever histories the source and the target were used.
* `C172_violated_imag`: With SSE the imaginary part stays where it was: the result is different from the documented one for every vector with an element that is not real.
* `C173_violated_imags`: The function for the imaginary part as a number returns the real part.
* `C174_violated_case`: There are cases in which the build without SSE reports a flux of 2 and the builds with SSE report zero.
* `C174_violated_sse`: With SSE the flux through every boundary (a real mask `g`) is reported as zero, for every kinetic energy and wave function: the real part, which is the expectation value, vanishes.
* `C175_violated_processes`: With several processes each one returns the share of its own strides only.
* `C177_violated_race`: If two threads read before either writes, the share of one stride is lost.
* `C178_violated_qdiag`: C178 fails with `qdiag`: after the operator has been set up, every step uses a null pointer.
* `C178_violated_setzero`: C178 fails with `setzero`: the operator applies the shifted matrix, the step uses the exponential of the matrix which is not shifted.
* `C178_violated_setzero_value`: A matrix with one element: the step is not the exponential of the operator which is applied.
* `C180_violated_fresh`: C180 fails for the energy bounds: a new copy of an operator whose bounds have been asked for uses a null pointer when its own bounds are asked for.
* `C180_violated_used`: C180 fails for a target which has been diagonalised: copying an operator which has not uses a null pointer.
* `C182_violated`: C182 fails: for a pair of states in a field which oscillates between −1 and 1 the lower bound is 1, and the energy is −1 for a state.
* `C183_violated_dipole`: C183 fails for elements with a laser field: one state with the dipole moment 1 in the constant field 1 is propagated with the energy +1, the operator applies −1.
* `C183_violated_missing`: C183 fails if a diagonal element is missing and there are no couplings: the first step uses a null pointer.
* `C183_violated_nonhermitian`: C183 fails for matrices which are not symmetric: they are accepted, but a coupling below the diagonal has no effect in a step.
* `C183_violated_unity`: C183 fails for missing diagonal elements with `unity` (the default): they act as one, a step takes them as zero.
* `C184_violated_coupling`: C184 fails for potentials as couplings between states with transformations: the operator is accepted and a step ignores the coupling.
* `C184_violated_mixed`: C184 fails if one state has an element with a transformation and another state one without: the entry of the second state in the list of transformations is never set.
* `C185_violated_twice`: C185 fails for a second initialisation: an operator which has been refused is accepted unchanged the next time, and a step of it is undefined.
* `C186_violated_emax`: C186 fails for the upper bound if a coupling has larger negative values: two states on two points with the coupling 1 and −5 have the upper bound 1 and a state with the energy 5.
* `C186_violated_emin`: C186 fails for a lower bound which is negative: one state with the energy −1 has the lower bound 1.
* `C187_violated_new`: C187 fails for an operator which has not been initialised: copying it uses a null pointer.
* `C187_violated_time`: C187 fails for the time dependence: no copy tells to be time dependent.
* `C187_violated_unity`: C187 fails for missing diagonal elements: they act as one, in the copy as zero.
* `C190_violated_norm`: C190 fails for other states: the mean position is divided by the norm instead of its square. For the state (3, 4) the operator with `hop`, `pos`, R = η = 1 has the expectation value −9216π, with the mean position 16/25 it would be zero.
* `C191_violated_formula`: C191 fails for the documented formula: with c = 0 and a mask on a grid of positive positions the operator always has an expectation value with the sign of the mean momentum, the documented one has the expectation value zero.
* `C191_violated_slope`: C191 fails without mask: the operator uses values which have never been set.
* `C192_violated_size`: C192 fails if the matrix elements have fewer points than the wave function: values behind their end are used.
* `C192_violated_twice`: C192 fails if the operator is initialised twice: the strength is multiplied with the time step once more.
* `C193_violated_frozen`: C193 fails while the mean values are kept: the copy calculates them again from what it is applied to, and one which keeps them has none, and no friction at all.
* `C193_violated_stokes`: C193 fails for the other friction operator: each use of a copy is one of a pointer which has never been set.
* `C194_violated_few`: C194 violated: fewer masses than dimensions are read behind their end.
* `C194_violated_masses`: C194 violated: with the masses 1 and 2 the second derivative along both dimensions gets the factor of the mass 2. For the function which is one at the origin of a grid of two times two points the result there is 1 in place of 3/2.
* `C194_violated_negative`: C194 violated: a mass of -1, which is let pass as long as another mass is above, is not left out but makes the kinetic energy negative: with the masses 1 and -1 the result at the origin is -2.
* `C196_violated_first`: C196 violated: the reported maximum of the first derivative is always the one of the first dimension. On a grid with the spacings 1 and 1/10 and periodic boundaries the derivative along the second dimension has the eigenvalue 10 i, the reported maximum is π i.
* `C196_violated_min`: C196 violated: without masses the operator is the plain second derivative, but the reported minimum stays zero: the function which is one at the origin has the expectation value -4.
* `C197_violated`: C197 violated: a copy of an operator which is ready cannot be applied: its stencil is not copied.
* `C197_violated_emax`: C197 violated: the copy does not report the same maximum of the energy: the masses are not copied. For an operator with one dimension of the spacing 1 and the mass 2 it is π²/4, for the copy π²/2.
* `C198_violated_detail`: C198 violated: the details are asked for when they are given, but not any more at the flush: they are lost.
* `C198_violated_header`: C198 violated: a header arrives although all messages are suppressed.
* `C198_violated_reference`: C198 violated: text written to the stream after a flush, through the reference returned before, does not arrive with the next flush.
* `C199_violated_midline`: C199 violated: a flush in the middle of a line puts the indentation there.
* `C199_violated_spaces`: C199 violated: after a suppressed message a flush writes spaces although there is no message.
* `C200_violated_long`: C200 violated: the fill of a title longer than the line is counted in unsigned numbers: more than 2^62 characters.
* `C200_violated_section`: C200 violated: a section needs four characters more than its title; with a title of 77 characters on the default line length of 80 it has more than 2^63 characters.
* `C201_violated_pending`: C201 violated: a message given before a redirection arrives at the new destination.
* `C201_violated_second`: C201 violated: asking for another file while one is open fails, and all later messages are lost although the first file is still open.
* `C202_violated_amplifies`: The third order with the default angle, thickness and strength: the innermost factor amplifies.
* `C202_violated_infinite`: for an odd order and angle zero the factor can be a division by zero.
* `C202_violated_odd`: for odd orders: the monomial is negative in the layer, so a layer that is not very strong amplifies.
* `C202_violated_profile`: for the profile: at depth `1` (the border) the usual strength is `smax`, at the innermost point of the layer it is that of depth `1/thick`. The code uses the depths `1 + 1/thick` and `2/thick`.
* `C203_violated`: for smaller angles, since the estimate does not know the angle: with `gamma = 0.1` more than the tolerance returns, without an angle everything does.
* `C204_violated_emin`: for the lower end: the imaginary part of an eigenvalue of the operator is below the imaginary part of the minimal energy (the angle is used without the factor pi).
* `C205_violated_adjoint`: in general: the flag is documented to give the adjoint, but the derivatives and the layers keep their order.
* `C207_violated_again`: initialising again for a wave function on another grid changes nothing and reports no error, and applying the operator to that wave function is undefined behaviour.
* `C207_violated_copy`: copying an operator that has not seen a wave function is undefined behaviour, and so is assigning an operator to itself.
* `C207_violated_rejected`: after an initialisation that was rejected, the operator claims to be valid for the wave function although applying it is undefined behaviour.
* `C208_violated`: the table does not hold the derivative.
* `C209_violated_empty`: for zero bytes: a variable that is not initialised decides whether bytes written earlier are taken back.
* `C20_violated_bounds`: C20 in general is violated: on a grid of 3 times 2 points the same statements read beyond the end of the table of addresses.
* `C20_violated_returns`: C20 in general is violated: on a grid of 2 times 3 points, adding along the first, the second and again the first dimension leaves out the points of the last line in the third statement.
* `C211_violated_prefix`: for operators: the full name of a compiled-in class is not found as such; with a loader for modules some library is opened instead, without one the load fails.
* `C212_violated_empty_path`: the path of the user cannot be switched off, the empty path is undefined behaviour.
* `C212_violated_slash`: a QD_MOD_PATH without a slash at the end is not searched, although the module is there; the path of the user in the same form is.
* `C212_violated_system`: the directories of the system linker (LD_LIBRARY_PATH) are searched for a file without the suffix, so that an installed module `libqd-O….so` is not found there.
* `C213_violated_expansion`: names are given to the shell: if the expansion of a path fails, the behaviour is undefined, and if it gives several words, the first alone is opened instead of the file.
* `C214_violated_default`: the documented default method does not exist: without `-m` every compression is refused.
* `C214_violated_level0`: the documented level 0 is refused.
* `C214_violated_number`: a number that cannot be read leaves a variable unset that is used.
* `C214_violated_status`: a command line without a file is an error, but the exit status is that of success.
* `C215_violated_read`: a file in the middle that cannot be read ends the work with success, and the files behind it stay as they are.
* `C215_violated_silent`: an unreadable file number 2 of four, and a full disk from number 2 on: success is reported although two files are not converted; with the full disk one of them is lost.
* `C216_violated_file`: with the parameter `wisdom` alone the program announces that wisdom is written to that file, but writes to the file "wisdom" of the current directory; the next run does not find it.
* `C217_violated_second`: if the root was asked for once, reading a second document succeeds, but the root stays that of the first document; before any document the root is a node without element.
* `C218_violated_large`: a file whose size in bytes is a multiple of 2^32 cannot be created, although the system can; a file is left behind that nobody removes.
* `C218_violated_position`: directly after the opening with a size the position is the end of the file: a read fails, a write makes the file longer.
* `C219_violated_error`: after a read beyond the end, or a write to a full disk, the file stays behind for ever, and the object cannot be used any more.
* `C21_violated_remainder`: C21 is violated when the number of strides does not divide the size: there always is an element below the size whose access leaves the storage.
* `C21_violated_stride_copy`: C21 is violated by the range test of the stride copy: the stride number equal to the number of strides passes the test and writes behind the storage.
* `C220_violated_map`: if the mapping into memory fails, the opening succeeds and hands out the value that stands for the failure as if it was an address.
* `C220_violated_resize`: after resizing the object still reports the old size; going back to the original size then does nothing, the file keeps the other length.
* `C221_violated_leftover`: if the second pipe cannot be created, or the pipes cannot be opened, the constructor fails and leaves a file behind.
* `C221_violated_unique`: a pipe without given name is documented to have a unique name; all have the same, so the second one in a directory cannot be created while the first one lives.
* `C222_violated_overread`: is violated: a wave function whose first complex number has no zero byte is written without complaint, and reading it back reads beyond an object (the search for the end of the magic string).
* `C222_violated_tag`: is violated: an uncompressed wave function whose last eight bytes are the tag of the compression is taken for a compressed one; if the library does not accept the data, reading it back is an exception.
* `C223_violated_params`: is violated: there is one file with parameters for the whole series and the last frame decides. A frame followed by one with smaller data is read back cut off, with the parameters of the other one, without a message.
* `C224_violated_multi`: is violated: several states written in the binary format can never be read back. The reader looks for a data file with the name of the whole, which the writer does not create; if there was none before, both ways of reading end with an exception.
* `C226_violated_read`: is violated in the same way for reading: the parameter file promises two states, the first one is not there.
* `C226_violated_write`: is violated: if the data of the first state does not fit the buffer for compression, the exception leaves the name of that state in the file object, and the next wave function goes to another file.
* `C228_violated_lost`: is violated for several states in the stream format: the exception comes after the file was opened, so what was stored there before is lost.
* `C231_violated_exception`: If there is no memory for the second buffer of the second state, the first state stays in the new representation, the multistate wave function and the second state in the old one.
* `C231_violated_stays`: Nothing brings the states together again but changing the representation: setting the old one does nothing.
* `C232_violated_base`: After `IsKspace` through a pointer to the base class the call returns, but deleting the multistate wave function gives back the memory of the states twice.
* `C232_violated_resize`: A state gets another size: the multistate wave function points to memory that was given back.
* `C232_violated_switch`: `IsKspace` called for a state: afterwards the multistate wave function still shows the values of the old representation, and what is written to the state is not seen.
* `C233_violated_fewer`: The second vector has the same size in fewer strides: pointers beyond its array are exchanged.
* `C233_violated_more`: The second vector has the same size in more strides: the call reports success, and the elements of the first vector beyond the length of a stride of the second one cannot be read any more.
* `C234_violated_exception`: If `newsize` ends with an exception, the pointers of the vector are not set, and deleting it is undefined behaviour.
* `C234_violated_leak`: If making a vector ends with an exception after the first stride, its memory is in use for ever: no vector has it.
* `C234_violated_retired`: A vector that gave back its storage is given the size it has: it is left without storage.
* `C235_violated_bad_definition`: C235 is violated: with a word that does not define a variable the program reports the problem, runs nothing and ends with the status of success.
* `C235_violated_no_input`: C235 is violated: without an input file the program reports the problem and ends with the status of success.
* `C235_violated_unknown_option`: C235 is violated: an option that the program does not know is ignored without a word: every command line starts the same run with it as without it.
* `C236_violated_no_number`: C236 is violated: with an argument of `-p` that is no number the program runs with one thread, whatever the environment says.
* `C236_violated_not_positive`: C236 is violated: a number of threads that is not positive is passed on to OpenMP, which accepts only positive ones.
* `C237_violated_long`: C237 is violated: a text file with 1024 or more characters is searched beyond the end of the buffer, unless both ends of tags are among its first 1024 characters. No file of this length in the simple format is recognised by the rules of the language.
* `C238_violated_empty_directory`: C238 is violated: with an empty directory in the input and none on the command line the set-up looks at the character before the first one of an empty string.
* `C239_violated_terminates`: C239 is violated: if the file cannot be opened the message is never printed; the whole program is ended, whatever has been calculated.
* `C23_violated_bounds`: C23 is violated for a matrix with more rows than columns: the product writes behind the end of the result.
* `C23_violated_shape`: C23 is violated for a matrix with fewer rows than columns: the product of a 1 times 2 matrix has one element, the result has two, and the second one is not initialised.
* `C23_violated_transpose`: C23 is violated with the transpose flag for a matrix that is not square: the transposed product of the 2 times 1 matrix (3, 4) with (5, 6) is (39), the call reads a column that does not exist.
* `C242_violated_doubled`: The correction field has the wrong sign: when the correlation is the same with the shaped and with the new field (here: a propagator that does not depend on the field), a component that the mask blocks is not removed from the change of the field, the change has twice of it.
* `C242_violated_run`: A run that writes a field with a component the mask blocks: the mean value of the field, for any number of time steps and any mask that blocks it.
* `C243_violated_gobbler`: With a gobbler the report is not about the target: here it says that the target is reached, while the overlap with the target given is 9/25, for any number of time steps, any mask and any guess.
* `C244_violated_edge`: So a component with exactly the upper frequency does not pass, for every number of steps, time step and component: its value is less than half.
* `C244_violated_zero`: A bound of zero is not the same as no bound: the constant component of the mask is not a number.
* `C245_violated_freq`: With the method freq and a good input, values that were never set are printed, unless both bounds are given.
* `C245_violated_negative`: A negative number of steps is accepted, whatever the rest of a good input says.
* `C246_violated`: An input that is refused never ends with a message: the destructor reads a pointer that was not set. The same holds for a missing propagator, wave function or target.
* `C246_violated_targets`: A number of targets above 16 is refused, but the destructor uses it to read arrays with 16 elements; this would be so even if the pointer were set.
* `C247_violated_alone`: A Hamiltonian that is one laser operator without label: pointers without a value are used.
* `C247_violated_diagonal`: Lasers on the diagonal of a matrix are not looked at, with or without label.
* `C247_violated_grid`: Lasers in a sum on a grid are not looked at: such a Hamiltonian is refused whatever it contains.
* `C247_violated_many`: More than 16 lasers: elements behind the end of an array are written.
* `C247_violated_null`: A matrix with different operators at both sides of the diagonal, if no laser operator has the label: a null pointer is used.
* `C247_violated_permanent`: So a Hamiltonian with a laser on the diagonal only is refused.
* `C247_violated_upper`: Elements above the diagonal are not looked at if there is none at the other side, with or without label.
* `C248_violated_one_sided`: A matrix that is not symmetric, with a laser at one side of the diagonal: the coupling operator has it at both sides.
* `C248_violated_product`: A laser operator in a product: the other factors are missing in the coupling operator.
* `C248_violated_two`: Two laser operators as factors: the Hamiltonian is quadratic in the field, the coupling operator is the product of both dipole moments, in the order of the factors.
* `C249_violated_center`: With an odd number of steps the pulse is not in the middle: with the other default values, the first half of the steps (rounded down) is at its maximum, where the pulse of the handbook is smaller.
* `C249_violated_several`: An operator with several lasers does not generate pulses: without files it is refused, whatever pulse is asked for.
* `C249_violated_short`: With fewer than 8 steps and without a width in the input the field is not a number at the middle step, and zero at the others.
* `C249_violated_width`: If the number of steps is not a multiple of 8 the default width is too small: a pulse without oscillation at the beginning of the time decays faster than the one of the handbook.
* `C24_violated_empty_product`: C24 is violated for empty products: the in place variant silently acts as the identity, the others read in front of the array of entries.
* `C24_violated_parent`: C24 is violated for `ApplyParent` of a product: it calls the entries with the same wave function as source and destination. For the product of the identity-like scalar 1 and the sum 2 + 3 the result of applying it to 1 is 8 instead of 5, although `Apply` gives 5.
* `C251_violated_backward`: A time step that is not positive is accepted for generating and writing a field, but the file can not be read.
* `C252_violated_early`: A copy that is made before `Clock` does not generate the field: it refuses each clock.
* `C252_violated_other`: A copy that is made behind `Clock` refuses all clocks with more steps or another time step, the original does not.
* `C254_violated`: Switching polarisation on and off and then changing the number of lasers deletes the vectors twice.
* `C255_violated_underscores`: Keys of users that look like the generated ones are replaced by the next operator without a key: the reference gives another operator.
* `C256_violated_empty`: A matrix with an element without a row uses an uninitialised number, for all states and matrices.
* `C256_violated_letters`: Letters are read as zero.
* `C256_violated_negative`: Negative numbers are written in front of the matrix.
* `C256_violated_point`: A name without a point is accepted: the operator is in the first column.
* `C258_violated_clock`: A dipole with a generated laser field in a sum on a grid: the clock is NULL.
* `C258_violated_comment`: A list with only a comment or white space in it: the same. Without anything in it the list is empty.
* `C258_violated_empty`: Sums on grids and matrices without an element in them: a NULL pointer is used.
* `C258_violated_text`: A sum on a grid with an operator that is not on a grid: a text is thrown instead of an exception, no part of the program catches it.
* `C259_violated_default`: Without the attribute the diagonal is one, although the handbook and the log say zero.
* `C25_violated_copy`: C25 is violated for copies: the names are not copied, so the copy of a list with one entry named "a" does not know the name.
* `C25_violated_negative`: C25 is violated for negative indices: they are not rejected but read or write in front of the array.
* `C260_violated_inherited`: An operator without a key and a label takes over the label of an entry with its generated key.
* `C260_violated_reference`: A label in an element with a reference is ignored, nothing is changed.
* `C261_violated_constant`: With a constant or unused diagonal element the operator reads an empty vector when it is applied, if its set-up works at all.
* `C261_violated_constant_single`: In one dimension the set-up with a constant or unused element works, for every allowed order, and every application of the operator is undefined.
* `C261_violated_edge`: For a constant diagonal G-matrix both forms are the same differential operator. But with the chain rule the elements are taken to be zero outside of the grid: for every plane wave that moves along one dimension the results differ at the first points of the grid along this dimension, whatever the order of the differences.
* `C261_violated_mixed`: If an element outside of the diagonal is not loaded from a file (it is constant or not used, or the coupling is off), the set-up of the chain rule uses a pointer that was never assigned.
* `C262_violated_accepted`: The combination is accepted by a new operator.
* `C262_violated_ignored`: With the chain rule the layers have no effect at all.
* `C262_violated_refusal`: The combination of the chain rule with absorbing layers is never refused, although there is a check for it: whatever is asked for, in any number of calls.
* `C263_violated_layer`: With absorbing layers it matters whether a constant element is given as a number or as a function on the grid: for a number the factor of the layer is applied twice, for a function once. For every plane wave that moves along the dimension the results differ at every point where the factor is neither zero nor one.
* `C264_violated`: A copy of a G-matrix operator cannot be applied, whether the original was initialised or not and however often the copy is initialised: one of its buffers is missing.
* `C264_violated_uninitialised`: Copying an operator that has not seen a wave function uses a null pointer.
* `C266_violated_crossing`: C266 does not hold in general: there is a number `z` between one and two such that for energy bounds `-z` and `z`, the time step one and every way to propagate (direction, precision), the program chooses two terms and accepts them, because the first two Bessel functions agree; a state of zero energy, which should not change, is changed by a fifth of its norm at least.
* `C267_violated_cut`: C267 does not hold: for a Hamiltonian with the energies zero and one in the bounds `-1` and `1`, the time step one, every number of terms from three on, every precision and every measure `f` of the norm there is a wave function for which the series is cut after the third term, since the sum has the norm of the wave function by chance; the result differs from the solution by more than a third of a percent, however small the precision is.
* `C268_violated_factor`: C268 does not hold without the factor: for energy bounds zero and one, the time step one, both directions, every number of terms and every precision, a step multiplies a state of zero energy, which should not change, by two thirds at most.
* `C26_violated`: C26 is violated for every sum with two or more members on every grid: applying it (and updating it) dereferences a null pointer or leaves the array, because the addition loop runs after the loop over the members with its final index.
* `C270_violated_growth`: C270 does not hold for larger time steps: the norm of every eigenstate whose energy times the time step is beyond the square root of eight grows with each step by a fixed factor, over all limits.
* `C270_violated_loss`: C270: the norm is not conserved either: an eigenstate with an energy that is not zero, and not beyond the limit, loses norm in each step.
* `C275_violated_rk4`: With the Runge-Kutta propagator the set-up is accepted, but every step with a driven Hamiltonian reads a null pointer, for all Hamiltonians with at least one laser that was not given a clock by someone else.
* `C276_violated`: A copy of a Chebychev, Lanczos or Runge-Kutta propagator never makes a step, whatever clocks, directions and wave functions it is given afterwards, for all propagators that were set up.
* `C276_violated_early`: Copying a propagator that was never set up reads a null pointer.
* `C276_violated_threshold`: With another threshold the copy of an Arnoldi propagator is computed with a different threshold than the original.
* `C277_violated_cheby`: The Chebychev propagator keeps what it computed for the first clock: its steps differ from those of one that was set up with the second clock whenever the series of the two differ, for all Hamiltonians that fit both clocks.
* `C277_violated_lasers`: The lasers of a Lanczos or Arnoldi propagator that is given another clock and is set up again still follow the first clock.
* `C278_violated_cheby`: With a generated pulse the missing clock is not reported: a null pointer is read.
* `C278_violated_laser`: The Lanczos and Arnoldi propagators refuse a laser that does not fit the clock only once: asked again they accept it, and steps are made with the field that was refused.
* `C278_violated_order`: The Chebychev propagator refuses an order that is too small only once: asked again it accepts, and the step reads coefficients that do not exist.
* `C278_violated_rk4`: The Runge-Kutta propagator refuses a missing clock only once: asked again it accepts, and a step reads a null pointer.
* `C279_violated_eigenfunction`: C279 (violated): if the initial wave function is an eigenfunction with an energy other than zero, `order` functions are written although only one is found. One is the initial wave function with its energy, up to a factor; the others are zero, with the energy zero, whatever the eigenvalues of the Hamiltonian are. The vectors of the basis that were never set are memory with undefined content (src/qdlib/WFBuffer.cpp:275-276); here they are zero.
* `C27_violated_64`: C27 is violated for operators without completion by symmetry on 64 states: initialisation leaves the matrix.
* `C284_violated_negative`: C284 is violated: a negative number is accepted for a `size_t` and becomes a huge one.
* `C284_violated_range`: C284 is violated: a number that the variable cannot hold has an undefined effect (`int`, `long int`, and `unsigned int` for numbers above minus two to the 63).
* `C284_violated_rest`: C284 is violated: whatever follows the digits is ignored without a report. A number of steps given as `1e5` is one step.
* `C284_violated_text`: C284 is violated: an entry that does not begin with a number is reported as found, and the variable keeps what it had; if it was never set it still is not.
* `C285_violated_empty`: C285 is violated: reading an empty array of integers back is undefined (one element without a value appears), and an empty array of truth values comes back with one element.
* `C285_violated_text`: C285 is violated: an element that is not a number has an undefined effect.
* `C286_violated_read`: C286 is violated: a file that exists and can be read is not read if it is write protected.
* `C286_violated_write`: C286 is violated: if the file cannot be opened for writing nothing is written, and the call reports success all the same, for every container, name and form.
* `C287_violated_dir`: C287 is violated: an empty attribute `dir` is undefined.
* `C287_violated_sign`: C287 is violated: no write cycle and no number of steps but zero is rejected. All negative numbers of steps and all write cycles below one are taken.
* `C287_violated_text`: C287 is violated: a number of steps that is not a number (`steps=many`) is used without a value.
* `C289_violated`: C289 is violated: the attribute `fname` has no effect whatever on the file.
* `C28_violated_in_use`: C28 is violated for places in use: the call throws, but the number of states has been changed if it was set by hand to a smaller value.
* `C28_violated_negative`: C28 is violated for negative indices: they are not rejected.
* `C28_wf_violated`: C28 is violated for wave functions: the last index 63 is rejected although the operators accept it, and negative indices write in front of the array.
* `C28_wf_violated_strided`: C28 is violated for strided wave functions: they are rejected, but stay in the object.
* `C290_violated`: with the default options the first wave function that is read from a compressed file is destroyed. The stored data are copied into the array before the plan is searched for, and the search overwrites it: what is read does not depend on the file at all.
* `C291_violated`: a wave function in the momentum representation is lost, its data are overwritten by the transform of the unused array, and the representation changes.
* `C292_violated`: the threshold is compared with the parts and not with their moduli. For each tolerance, also for zero, no negative part survives; a level wave function without positive parts is read back as zero.
* `C295_violated`: after a wave function was read from a compressed file, its transform refers to the other vector. The first transform along a dimension for which a plan is searched saves the wrong vector: the result does not depend on the wave function at all.
* `C296_violated`: the documented default for `value` is one. Without the parameter the real part is zero: all wave functions become zero if `im` is not given either.
* `C296_violated_text`: a text that is no number is not refused, the constant stays one; after a second set of parameters without `im` the old imaginary part is still there.
* `C297_violated`: without a wave function the operator dereferences a null pointer when it is asked for a matrix element or whether a wave function is valid; so does a copy of it.
* `C298_violated`: the lower end of the range is always zero, so that for a negative constant it is above the upper end and above every expectation value.
* `C299_violated`: the wave function zero is not refused, its elements become "not a number".
* `C29_violated_add_first`: C29 is violated if states are added before `Init(Psi)`: the scratch object is never created, so the in place variant and the complement dereference a null pointer.
* `C29_violated_copy`: C29 is violated for copies: a copy has no states, whatever the original and the target had; it maps every wave function to zero (or, with `inv`, dereferences a null pointer or acts as the identity).
* `C29_violated_negative_inverse`: C29 is violated for `inv` with negative sign: the operator adds the part in the space instead of removing it.
* `C300_violated`: on all grids with two dimensions for all orders up to 30 (the default is eight): there is a point that is never set, unless the program writes outside of the arrays before. The content of the result at this point is what was there before.
* `C300_violated_factor`: the prefactor enters twice.
* `C301_violated`: the setting variant multiplies twice with the prefactor of the dimension.
* `C302_violated`: a second set-up of an object that was set up for a dimension prepares nothing: after a new grid the tables still belong to the old one, without an error.
* `C303_violated`: is violated for complex Hermitian matrices: in a debug build for every size, in a release build from size 86 on, a run that does not end with an exception gives `ZHEEV` a work array of half the length it is told.
* `C303_violated_general`: is violated for general matrices: the vector for the eigenvalues gets its length only after the first library call, so with a vector that is too short (an empty one, say) the call writes beyond it.
* `C304_violated`: is violated for the inversion: every inversion of a regular matrix keeps its work array of 160 bytes per row for ever.
* `C304_violated_exception`: is violated if the second of two requests fails: then the first work array is lost.
* `C304_violated_steps`: is violated in propagations with the Arnoldi method: whatever the memory limit is, the number of steps that can be done is bounded by the limit divided by 160 bytes times the order; the next step ends with the exception of the memory pool.
* `C305_violated`: is violated for Hessenberg matrices: the code of the eigenvalue calculation is lost, only that of the eigenvector calculation is returned; a failure of the first is reported as success.
* `C305_violated_zero`: is violated for Hessenberg and general matrices: zero is returned although library calls failed.
* `C307_violated_empty`: If the first operator has no points, an operator with any other number of points is taken after it.
* `C307_violated_negative`: `Get` with a negative number is not reported but reads outside of the array.
* `C308_violated`: A sum accepts every wave function with the right number of points, although its member refuses it because the grids differ.
* `C309_violated`: The copy of a sum cannot be used after the original is deleted: it still has the same members, but asking it for its energy bounds uses a destroyed operator.
* `C309_violated_layout`: In the usual layout of objects (`Operator` part not at the beginning) deleting a sum, whether a copy or not and however its members got into it, destroys neither the sum nor any member.
* `C309_violated_leak`: Copying to a sum that has members of its own: they are never deleted, not even with both sums.
* `C309_violated_other`: Deleting the copy after the original can destroy an operator that was never added to any of them: a new one that got the address of a former member.
* `C30_violated_clock_changed`: C30 is violated when the time step of the clock is changed afterwards: the exponent keeps the old one, until direction or mode are set again.
* `C30_violated_copy`: C30 is violated for copies: the copy of a backward propagator has the exponent of the original, but not its conjugation flag; operators added to it later are not conjugated.
* `C30_violated_mode_without_clock`: C30 is violated before a clock is given: choosing the time mode reads a null pointer instead of being rejected like the direction.
* `C310_violated_dims`: A number of dimensions that is no number is not reported: the behaviour is undefined.
* `C310_violated_missing`: If the number of points of the first dimension is missing, nothing is reported: the potential has no values.
* `C310_violated_none`: Without a file and without a number of dimensions a potential without grid and without values is accepted.
* `C311_violated_ignored`: If a grid is given as well, the file is not read at all, whatever is on the disk, and the values of a new potential are never set.
* `C311_violated_retry`: After a file could not be read, the potential never reads a file again: a second set-up with a good file is accepted and leaves the potential without values.
* `C312_violated_null`: with parts in order and a clock it is used before it is checked.
* `C313_violated_empty`: the first set-up succeeds, the second is refused.
* `C313_violated_other`: a set-up with a wave function of another size returns as if it had succeeded, and the propagator is not ready for it.
* `C313_violated_silent`: if the time step is zero or a part refuses the wave function, the first set-up is refused, and every further one returns as if it had succeeded although nothing was changed; the Hamiltonian is not set up and has no clock.
* `C313_violated_stuck`: if there is a diagonal part A but a later part is missing or not diagonal, or the clock is missing, the set-up is refused, and whatever the program adds, whichever clock it sets and however often it tries, every later set-up is refused too.
* `C314_violated`: if there is a diagonal part A but a later part is missing or not diagonal, or the clock is missing, then after two refused set-ups asking for the time update is undefined behaviour, and so is asking whether a wave function is accepted if all parts accept it.
* `C315_violated`: (operators on grids, on matrices, and with lasers in the usual layout): however often such an operator is deleted, it is not destroyed and the registry does not change.
* `C315_violated_matrix`: in the usual layout: one deletion destroys the operator, but the registry still counts its memory as an operator, so destroying everything destroys it a second time, and an operator that gets the same memory later is not destroyed when it is deleted.
* `C316_violated_fewer`: a null pointer is used.
* `C316_violated_more`: the product is not refused, the states the left one does not have are ignored.
* `C316_violated_null`: another wave function is refused; with a null pointer the refusal itself is undefined behaviour.
* `C317_violated`: both are used unchecked.
* `C318_violated`: whenever one number is the other one with a digit appended, files of the two buffers have the same name.
* `C318_violated_wrap`: they use the file of a lower position.
* `C31_violated_order`: C31 is violated for a given order: when the library reports that all Bessel functions but the first one underflow (a tiny time step), one coefficient is left and the step reads a second one.
* `C320_violated`: without a sign the one of the set-up before is kept, and in more than one dimension, where no mass can be given, the mass of a set-up before in one dimension.
* `C321_violated`: a wave function on any other grid with as many dimensions is accepted, and the operator goes on with the first grid.
* `C321_violated_null`: an operator that was only set up with parameters uses a null pointer when it is applied.
* `C323_violated`: for all `a < 0` and `b` with `a ≤ b` and `b² < a²` there is a part with these bounds, which enclose its expectation values, whose square exceeds the upper bound of the product for every wave function that is not zero.
* `C324_violated`: a coupling that is given in the upper triangle only is not reached.
* `C324_violated_64`: that are not in hermitian mode: the array is left.
* `C326_violated_kind`: every serialised grid wave function is accepted as an operator; the data size in the header is not looked at, and half of the data is left in the stream.
* `C326_violated_short`: whenever bytes of the data are missing the operator is returned with values that were never set.
* `C327_violated_lower`: whenever the polarisability and both fields are positive the energy is below `Emin`.
* `C327_violated_upper`: in the second time step the first field has the value `-m` and the second one `m`; the largest value of the first field is only `k`, less than `m`, so that the energy exceeds `Emax`.
* `C328_violated`: seeds that differ by 2⁴⁸ give the same random numbers.
* `C32_violated_out_of_place`: C32 is violated out of place: the destination keeps its content and the source is replaced by the propagated destination.
* `C33_violated_norm`: C33 fails if the transformation has not been used before the first step: the exponentials are made without the normalization and kept, so that with the kinetic energy zero, which should not change the wave function, `n` steps multiply it by 2ⁿ.
* `C34_violated_empty`: C34 is violated for an empty list: the last element of an empty vector is read.
* `C36_violated_clock`: The clock of a continued run is one step ahead, also with the start number that fits the files: a time dependent propagation of two steps continued after the first one ends in a different state.
* `C36_violated_cycle`: With a write cycle of two no start number at all continues the run seamlessly.
* `C36_violated_empty_dir`: An empty directory name reads before the beginning of a string.
* `C36_violated_negative`: A negative write cycle is not rejected either.
* `C36_violated_restart`: Continuing from snapshot `s` with `start = s`, the number of that snapshot, takes one step too many and stores a later wave function under the number of the snapshot: for every run of more than `s` steps.
* `C36_violated_zero`: A write cycle of zero is not rejected: the first step divides by it.
* `C37_violated_start`: A run with a start number above zero that completes in an empty directory cannot be read by the filter program: it looks for snapshot 0.
* `C38_violated_bra`: With a baseline of more than one wave function from files and no bra, the first element of the missing bra is read.
* `C38_violated_name`: In an empty directory the reading program stops with an exception: the first wave function is not found.
* `C38_violated_read`: Whatever propagation is read by the correlation function program, it is never read successfully: the write cycle is looked up under a name under which it was not stored and the wave functions under a wrong name.
* `C39_violated_twice`: Linear combinations are doubled: a combination of the single function 1 with coefficient 1 is 2.
* `C39_violated_zero`: The coefficient zero is ignored: the function is loaded as it is, for every function.
* `C40_violated_missing`: A state without a coefficient is not taken as it is but becomes zero.
* `C40_violated_no_map`: Without a map the behaviour is undefined, for every multistate input.
* `C40_violated_shared`: The remapped wave function shares the states of its input: an input that is also registered under a key is scaled along with it.
* `C40_violated_single`: A map with a single entry does not place input state 0 but selects: with the map "1" the result is input state 1.
* `C41_violated_dangling`: C41 is violated: a persistent entry of an operator that is also registered temporarily refers to a destroyed operator after clearing. (`register 1` is the creation of the operator.)
* `C41_violated_replaced`: C41 is violated: registering without a key replaces an operator whose key looks like a generated one, without an error.
* `C41_violated_twice`: C41 is violated: an operator registered under two keys is initialised twice by one call.
* `C42_violated_null`: C42 is violated: a key that exists can be set to nothing.
* `C42_violated_same`: C42 is violated: setting a key to the wave function it holds, when nobody else refers to it, destroys this wave function and leaves it under the key.
* `C43_violated_delete_quit`: `DELETE_OP` is a documented command; it is not answered and ends the program. `QUIT` is not answered.
* `C43_violated_eof`: a client that closes its end without `QUIT` leaves the program reading indeterminate values.
* `C43_violated_expec`: a failing `Init` in `GET_EXPEC` is reported, and then the value is sent nevertheless.
* `C43_violated_load_U`: a `LOAD_U` without arguments is answered four times.
* `C43_violated_load_op`: a `LOAD_OP` that fails is answered twice, with an error and with success.
* `C43_violated_matel`: `GET_MATEL` is never answered before the wave functions are read.
* `C43_violated_no_operator`: with an operator that does not exist, `APPLY_OP`, `GET_EXPEC` and `GET_MATEL` use a NULL pointer after the error message.
* `C43_violated_read_op`: `READ_OP` sends the operator without the announcement that `READ_WF` makes, and an unknown class ends the program without an answer.
* `C43_violated_read_wf`: the file of `READ_WF` cannot be loaded: a NULL pointer is written to the stream.
* `C43_violated_set_params`: `SET_GLOBAL_PARAMS` without parameters is answered twice.
* `C43_violated_wellFormed`: required fields are missing in the response to `GET_GLOBAL_PARAMS` and in the values sent.
* `C44_violated_add_default`: `Add` documents `[real]` as the default representation; leaving it out is always rejected.
* `C44_violated_add_operator`: the operator given to `Add` is not stored; the first call of the filter is undefined behaviour.
* `C44_violated_ms`: `ms` is documented as the state to act on; for an operator it has no effect. Whatever the states, the value shown is the one for the whole wave function.
* `C44_violated_negative`: a negative state number beside a valid one is accepted and leads to undefined behaviour.
* `C44_violated_reinit`: a list loaded a second time keeps states of the first time. The section with one `expeconly` element without states works with a new list, and not after a section that named the states 0 and 5.
* `C44_violated_rho`: `rho` without the mandatory states is accepted, and evaluating it on a wave function with two states is undefined behaviour.
* `C45_violated_odd`: For every odd number of samples from three on the line in the middle does not carry the promised frequency `(N-1)/2 dw`; it carries `-(N+1)/2 dw`, which lies outside the range the samples resolve.
* `C45_violated_single`: With a single sample the spectrum file contains no numbers: the values are divided by zero.
* `C46_violated_truncation`: C46 is violated: the buffer cuts a long text inside of an entity.
* `C46_violated_variable`: C46 is violated: a quoted text that is assigned to a variable reaches the output without escaping.
* `C47_violated_direction`: C47 is violated: a loop whose step points away from its end is executed, for values on the wrong side.
* `C47_violated_zero_step`: C47 is violated: a zero step is a conversion of infinity to `int`.
* `C48_violated_extra_brace`: C48 is violated: a closing brace too much is not reported but uses a null pointer or a deleted object.
* `C48_violated_missing_brace`: C48 is violated: a missing closing brace is not reported, and nothing is written.
* `C48_violated_second_block`: C48 is violated: a second block at the top level uses a deleted object.
* `C49_violated_concat`: C49 is violated: an assigned concatenation stores its first element only.
* `C49_violated_copy`: C49 is violated: assigning another variable stores the name of that variable.
* `C49_violated_late`: C49 is violated: an assignment that follows a reference in the same block changes the reference.
* `C50_violated_budget`: C50 is violated by an exception: `Get` throws when the budget is exceeded but leaves it exceeded.
* `C50_violated_no_init`: C50 is violated without `Init`: with room for one wave function, reading the only position ever stored uses a null pointer.
* `C50_violated_null`: C50 is violated: with room for two wave functions, after storing at 1 and 2, reading 1 three times and storing at 2 again, reading 1 returns a null pointer.
* `C50_violated_resize`: C50 is violated by `ResizeBuffer(0)`: an unsigned loop counter runs past zero.
* `C52_violated_check`: C52 is violated: `CheckOptions` itself makes the program report a required option as given, although the call reported it as missing.
* `C52_violated_flag_default`: C52 is violated: `CheckOptions` reports an option without argument as given if it has a default.
* `C52_violated_non_option_chars`: C52 is violated by the second form of `GetNonOption`: with an option that has its argument in the next word, the argument is returned instead of the first word that is not an option.
* `C52_violated_non_option_negative`: C52 is violated for negative numbers: `GetNonOption(-1)` gives a word that is an option.
* `C52_violated_query`: C52 is violated: asking for the value of an option that is not on the command line makes the program report it as given.
* `C54_violated_raman`: C54 is violated: the exponential of a Raman operator is not that of the operator it applies.
* `C55_violated_energy`: C55 is violated: the pulse energy of a laser with the scaling factor 2 is two instead of four times that of the laser without.
* `C55_violated_vector_pot`: C55 is violated: the vector potential does not contain the scaling factor.
* `C56_violated_brace`: C56 is violated: one opening brace is enough for simple input.
* `C56_violated_long`: C56 is violated: a simple input of 1024 characters or more without a construct of XML is searched past the end of the buffer.
* `C57_violated_pow`: C57 is violated: for negative exponents that are no multiple of four the function ends without a result.
* `C57_violated_sqrt`: C57 is violated: the square root of zero is not a number.
* `C58_violated_none`: C58 is violated: the documented selection "0 = none" activates both layers.
* `C58_violated_parameters`: C58 is violated: values for two dimensions are read out of bounds for the third dimension instead of being rejected.
* `C58_violated_thickness`: C58 is violated: with the default thickness (no parameter given) the layer of 10 points is accepted for a grid of 4 points, and the transform leaves the array.
* `C59_violated`: is violated by `Params(map)`: the type of an old value is reported for the new one.
* `C64_violated_mixed`: C64 is violated for mixed derivatives: at a point with wave number zero in dimension 1 the product of the two wave numbers is zero, but the momentum grid for the dimensions 1 and 0 holds the wave number of dimension 0.
* `C66_violated_diagonal`: C66 as the adjoint is violated on the diagonal: the adjoint of the 1 times 1 matrix with the imaginary element i has the element -i, the transposition leaves i. (The conjugation is modelled on pairs of integers.)
* `C68_violated_dims`: C68 is violated for two dimensions, also with periodic boundaries: on a grid of 3 times 3 points the sum of the derivatives along the two dimensions differs from the derivative along all dimensions.
* `C68_violated_open`: C68 is violated for open boundaries: the value at the right end of the line enters the derivative at the left end.
* `C69_violated_copy`: C69 is violated for copies: the copy of a list with a time dependent entry reports to be time independent, and does not take over the conjugation flag.
* `C69_violated_set`: C69 is violated for replacements: after replacing the only entry by a time dependent, non hermitian operator the list still reports a time independent hermitian operator.
* `C71_violated_large`: C71 is violated for more than 64 requested states: they are written behind the array of states.
* `C72_violated_general`: C72 is violated for coupling blocks that are not symmetric: in hermitian mode the same block, not its adjoint, is used on both sides of the diagonal. For vectors of two integers and the block that moves the second component to the first, the two scalar products differ.
* `C73_violated_imaginary`: C73 is violated in imaginary time: with the bounds 10 and 11 the energy 11 is mapped to `1.5 / 1.05`.
* `C73_violated_no_range`: C73 is violated when both bounds agree (a Hamiltonian that is a multiple of the identity): the scaling, which is divided by in every step, is zero.
* `C74_violated_coupled`: C74 is violated for the split operator propagator with two coupled states: the second state is accepted unseen.
* `C74_violated_multistate`: C74 is violated for multistate operators: the block in row 0 and column 1 is applied to state 1 but only state 0 is checked, so a wave function is accepted although the block refuses the state it will be applied to.
* `C74_violated_split`: C74 is violated for the general split operator propagator: it accepts no wave function, whatever its parts answer.
* `C75_violated_explicit`: C75 is violated: an explicitly locked position is unlocked by reading other positions, and then moved to disk by the next call.
* `C75_violated_recent`: C75 is violated: the position read last (three times) is moved to disk by the next call although the last two positions read should stay in memory.
* `C76_violated_raman`: C76 is violated: the sum with a Raman operator contains the polarisability without the fields, also without any field.
* `C77_violated_dipole`: C77 is violated: for a dipole operator on a grid the parameter `scale` multiplies the dipole moment and the field, and so the interaction by its square.
* `C77_violated_raman`: C77 is violated: for a Raman operator the interaction is multiplied by the third power.
* `C78_violated_scale`: C78 is violated: a copy loses the scaling factor of the field.
* `C79_violated_kept`: C79 is violated: a rejected clock is kept all the same, and the next access is outside of the field.
* `C80_violated_emax`: C80 is violated: with a negative dipole moment and a positive field the eigenvalue is above the upper bound.
* `C80_violated_emin`: C80 is violated: with a positive dipole moment and a positive field the only eigenvalue is below the lower bound.
* `C81_violated_empty`: C81 is violated: with an array without elements the search writes behind it.
* `C82_violated_ignored`: C82 is violated: the call succeeds although the operator does not fit the wave function.
* `C83_violated_handbook`: The example of the handbook: the map 3,0,1 with coefficients c₀, c₁, c₂ should give c₀ Ψ₃, c₁ Ψ₀, c₂ Ψ₁. The result is c₁ Ψ₁, c₂ Ψ₂, 0, c₀ Ψ₀.
* `C84_violated_multistate`: A registered state of a multistate wave function is scaled along with it: the function 5 is registered under `k`, after loading a multistate wave function with coefficient 3 that contains it the entry has the value 15.
* `C85_violated_conjugate`: The column headed `<Psi0|PsiT>` does not show `⟨Ψ(0)|Ψ(t)⟩` but its complex conjugate: for `Ψ(t) = i`, `Ψ(0) = 1` the file says `-i`.
* `C85_violated_long`: One call more than steps leaves the buffer.
* `C85_violated_short`: Fewer calls than steps (a run that was continued or that failed): the rest of the samples was never written, yet the spectrum is computed from them.
* `C85_violated_window_single`: With the window a run of a single step gives no numbers at all.
* `C87_violated_unwritable`: A spectrum file that cannot be opened ends the whole program, whatever was propagated: the message prepared for this case is never printed.
* `C88_violated_failure`: After a failure the parameter file promises all snapshots of the complete run: for every run that fails before its last snapshot. The filter program then fails as well.
* `C89_violated_bra`: With an explicit bra `O_b, U` the bra is one write cycle ahead of the ket: the value for step `t w` is the scalar product of the bra at `(t + 1) w` with the ket at `t w`. Also, `O_b` acts at the last step number instead of the first.
* `C89_violated_default`: The explicit bra `U` is documented to be what is assumed without a bra. The results differ.
* `C89_violated_pre`: With operators before the first propagator of the ket the probe has no effect at all: the leading operators are applied a second time in its place.
* `C89_violated_zero`: A write cycle of zero is not rejected.
* `C90_violated_ahead`: The same for an explicit bra with an interaction on the ket side (ket `U, O_1, U, O_p`, bra `U`).
* `C90_violated_bra`: Interaction on the bra side (ket `U, O_p`, bra `U, O_2, U`): the operator `O_2` acts on the bra one write cycle later than documented, `⟨Ψ0|U†(t2 + w,0) O_2 …` instead of `⟨Ψ0|U†(t2,0) O_2 …`.
* `C90_violated_empty`: A section `ket` without elements, or none at all, is not rejected: its last element is read.
* `C90_violated_example`: A ket that ends with a propagator is rejected, as in the first example of the handbook (doc/Handbook.tex:512-533).
* `C90_violated_several`: Of several operators between the propagators of the ket only the last one is applied.
* `C90_violated_stepsint`: The limit on the intermediate time is exceeded: with `stepsint = k` the value `k + 1` write cycles behind `t1` is computed as well, though the handbook speaks of at most `k` time steps.
* `C91_violated_apply`: `qd_cmd_apply_op` ends with an error while the program waits for the wave function.
* `C91_violated_get_params`: `qd_get_global_params` waits for a second response that is never sent.
* `C91_violated_load`: after `qd_cmd_load_op` or `qd_cmd_expec` with an operator that cannot be loaded, a response is left over.
* `C91_violated_matel`: `qd_cmd_matel` waits for a response to the command, which is sent only after the wave functions.
* `C91_violated_quit`: `qd_cmd_quit` waits for a response that is never sent.
* `C91_violated_set_params`: `qd_set_global_params` sends the command without its parameters (the field is called `param_s1`, not `param1`); the function ends with the error and the second response is left over for the next command.
* `C92_violated_comment_only`: C92 violated: a container that holds only a comment is not rejected, the name of a node that does not exist is read (src/CmdHandler.cpp:94-97, 120): `NextChild` returns an object for it, not `NULL`.
* `C92_violated_empty_directory`: C92 violated: an input with an empty directory attribute (which means the current directory for all programs) makes the code read in front of the empty text (src/CmdHandler.cpp:106).
* `C94_violated_overrun`: C94 violated: for every file there is a state of the memory in which bytes behind the buffer are read.
* `C94_violated_unterminated`: C94 violated: the bytes are followed by whatever the memory holds (src/qdng.cpp:119-132 allocates it with `malloc` and never writes a zero byte), and every text can follow.
* `C95_violated_dot`: C95 violated: a path with a dot for a part that does not exist yet: the directory can be created, but an exception is thrown.
* `C95_violated_strip_root`: C95 violated: stripping the last part of the root (or of an empty path) reads in front of the text (src/tools/fstools.cpp:23).
* `C96_violated_negative`: (violated in general). For negative data the peak finder reports the index `-1`: the search for the largest value of a run starts at `0`.
* `C97_violated_minima`: (violated, minima). `Minimas` reports every index whose successor is larger (compared with zero at the first one): in an increasing sequence it reports every index although there is no local minimum.
* `C97_violated_plateau`: (violated, plateau). A maximum that is reached by two equal neighbours is not found.
* `C97_violated_window`: (violated, window). The window leaves out its upper end: here the maximum `4` at `2` with a window of one compares with `(1 + 4) / 2` instead of the mean value `(1 + 4 + 13/4) / 3 = 11/4`; with `sqrt` of the variance replaced by one and a tolerance of `13/10` it is reported although it does not exceed the threshold `11/4 + 13/10`.
* `C98_violated_conv_one`: (violated for `conv = 1`). The convergence criterion one is accepted and ends every relaxation before its first step: all functions are the initial one and they are not orthogonal.
* `C99_violated_read`: (violated for a propagation that is read from disk). The estimate of the energy is wrong by the ratio of the total time of the propagation and the one given in the input.
* `C99_violated_read_steps`: (violated, concrete). The propagation of the example read from disk with `steps="8"` in the input: the one energy reported in the spectrum is half of the eigenvalue.

## Axioms

Axioms of the theorems named in the manifest, from `#print axioms`.

* no axioms: Absorb.C207_violated_copy, Buffer.C50_violated_resize, Cmd.C43_violated_delete_quit, Cmd.C43_violated_expec, Cmd.C43_violated_load_op, Cmd.C43_violated_read_op, Cmd.C43_violated_read_wf, Cmd.C43_violated_set_params, Gmc.C262_violated_accepted, Lap.C304_violated_exception, LaserGen.C254_once_partial, LaserGen.C254_violated, Lossy.C290_flag, Main.C237_unreadable, Memory.C08_violated, Mods.C212_violated_empty_path, Multi.C28_violated_in_use, Ops.C24_violated_empty_product, Qdz.C215_first_partial, Qdz.C215_violated_silent, Qdz.C217_fails_partial, Qdz.C217_first_partial, Qdz.C217_violated_second, Zcopy.C209_violated_empty.
* `propext`: Absorb.C207_life_partial, Absorb.C207_violated_again, Absorb.C207_violated_rejected, Buffer.C50_violated_budget, Buffer.C50_violated_no_init, Buffer.C50_violated_null, Buffer.C75_violated_explicit, Buffer.C75_violated_recent, Cfun.C38_violated_bra, Cfun.C90_violated_empty, Cfun.C90_violated_example, Cmd.C43_violated_eof, Cmd.C43_violated_load_U, Cmd.C43_violated_matel, Cmd.C43_violated_no_operator, Cmd.C43_violated_wellFormed, Collector.C11_delete_unregistered, Coupling.C247_violated_alone, Coupling.C247_violated_diagonal, Coupling.C247_violated_grid, Coupling.C247_violated_null, Coupling.C247_violated_permanent, Coupling.C247_violated_upper, Gmc.C262_single_partial, Gmc.C264_original_partial, Grid.C20_violated_bounds, Grid.C20_violated_returns, Lap.C305_violated_zero, Linalg.C21_violated_stride_copy, Linalg.C23_size_mismatch, Linalg.C66_not_square, Linalg.C66_violated_diagonal, Logs.C199_violated_midline, Logs.C199_violated_spaces, MsTime.C324_violated_64, Multi.C28_wf_violated_strided, NacIn.C321_violated, Ops.C24_default, Ops.C24_empty_sum, Ops.C24_scalar, Ops.C24_sum, Ops.C24_violated_parent, Ops.C29_missing_files, Ops.C29_setup, Ops.C70_matrix_element, Ops.C74_violated_coupled, Ops.C74_violated_multistate, Ops.C74_violated_split, RamSeed.C328_refused, Serial.C14_violated_empty, SimpleXml.C56_empty, Stencil.C58_violated_none, Stencil.C58_violated_parameters, Stencil.C58_violated_thickness, Store.C231_violated_exception, Store.C231_violated_stays, Store.C232_violated_base, Store.C233_violated_fewer.
* `Quot.sound`, `propext`: BufName.C318_partial, BufName.C318_two_partial, BufName.C318_violated, BufName.C318_violated_wrap, BufName.C319_directory, Cmd.C43_command_partial, Cmd.C43_session_partial, Cmd.C43_wellFormed_partial, Cmd.C91_in_step_partial, Cmd.C91_violated_apply, Cmd.C91_violated_get_params, Cmd.C91_violated_load, Cmd.C91_violated_matel, Cmd.C91_violated_quit, Cmd.C91_violated_set_params, Cmdline.C52_has_partial, Cmdline.C52_non_option_partial, Cmdline.C52_required_partial, Cmdline.C52_value_partial, Coupling.C247_finds_partial, Coupling.C247_violated_many, FileSeq.C17_increment_zero, FileSeq.C17_names, FileSeq.C17_reverse, FileSeq.C17_roundtrip, FileSeq.C17_seek, Fs.C95_strip_last_partial, Gmc.C262_violated_refusal, Gmc.C264_violated, Gmc.C264_violated_uninitialised, Grid.C22_opposite, Linalg.C21_covers, Linalg.C21_init, Linalg.C23_violated_bounds, Linalg.C23_violated_shape, Linalg.C23_violated_transpose, Logs.C198_violated_detail, Logs.C198_violated_header, Logs.C200_violated_long, Logs.C200_violated_section, Logs.lines_spec, Main.C237_format_partial, Main.C237_input, Main.C237_violated_long, Memory.C07_violated, Memory.C10_size_partial, Multi.C27_init_rejects, Multi.C28_in_range, Multi.C28_too_large, Multi.C28_violated_negative, Multi.C28_wf_in_range_partial, Multi.C28_wf_too_large, Multi.C28_wf_violated, Multi.C53_balanced, Multi.C53_exactly_one, Multi.C53_once, Multi.C71_violated_large, OpChain.C256_name, OpChain.C256_violated_point, Ops.C24_product, Ops.C25_violated_negative, Ops.C26_rejects, Ops.C74_list, Ops.C74_multistate_partial, Peak.C97_window_nonempty, Propa.C34_violated_empty, RamSeed.C328_partial, RamSeed.C328_violated, RamSeed.C328_words_partial, Raw.C222_incompressible_partial, Raw.C228_violated_lost, Registry.C81_get_labels_partial, RunXml.C94_input_text_is_file_partial, RunXml.C94_violated_overrun, RunXml.C94_violated_unterminated, Serial.C12_reject_partial, Serial.C12_size, Serial.C18_bytes, Serial.C18_roundtrip, Serial.C18_size, Stencil.C58_interior, Stencil.C58_parameters, Stencil.C58_symmetric, Store.C230_build, Store.C232_violated_resize, Store.C232_violated_switch, Store.C232_write_partial, Store.C233_swap_partial, Store.C233_violated_more, Store.C234_newsize_partial, Store.C234_violated_exception, Store.C234_violated_leak, Store.C234_violated_retired, Stream.C15_magic_partial, Stream.C15_version, Stream.C15_violated_magic, Stream.C15_violated_truncated, Stream.C16_empty, Tmp.C218_violated_large, Tmp.C218_violated_position, Tmp.C219_clean_partial, Tmp.C219_full_partial, Tmp.C219_violated_error, Tmp.C220_resize_partial, Tmp.C220_size_partial, Tmp.C220_violated_map, Tmp.C220_violated_resize, Wire.C63_bytes, Zcopy.C209_full_partial, Zcopy.C209_write_partial, Zcopy.C210_read, Zcopy.C210_round_trip.
* `Classical.choice`, `Quot.sound`, `propext`: Absorb.C202_damping_partial, Absorb.C202_default_partial, Absorb.C202_quadrant_partial, Absorb.C202_violated_amplifies, Absorb.C202_violated_infinite, Absorb.C202_violated_odd, Absorb.C202_violated_profile, Absorb.C203_default_partial, Absorb.C203_estimate_partial, Absorb.C203_tolerance_partial, Absorb.C203_violated, Absorb.C204_emax_partial, Absorb.C204_violated_emin, Absorb.C205_adjoint_partial, Absorb.C205_violated_adjoint, Absorb.C206_absorbs, Absorb.C206_kinetic, Absorb.C206_linear, Absorb.C208_derivative_partial, Absorb.C208_violated, Accur.C269_many, Accur.C269_step, Accur.C270_bounded_partial, Accur.C270_violated_growth, Accur.C270_violated_loss, Accur.C271_many, Accur.C271_step, Accur.C272_many, Accur.C273_many, Accur.C273_step, Accur.C274_many, Accur.C274_step, Buffer.C50_budget_partial, Buffer.C50_defined_partial, Buffer.C50_not_null_partial, Buffer.C50_read_partial, Buffer.C75_locked_partial, CfIn.C287_accepts_partial, CfIn.C287_rejects_partial, CfIn.C287_violated_dir, CfIn.C287_violated_sign, CfIn.C287_violated_text, CfIn.C288_meta, CfIn.C289_partial, CfIn.C289_violated, Cfun.C89_values_partial, Cfun.C89_violated_bra, Cfun.C89_violated_default, Cfun.C89_violated_pre, Cfun.C89_violated_zero, Cfun.C90_ket_partial, Cfun.C90_violated_ahead, Cfun.C90_violated_bra, Cfun.C90_violated_several, Cfun.C90_violated_stepsint, Chain.C39_load_partial, Chain.C39_normalized_partial, Chain.C39_sum_normalized, Chain.C39_sum_partial, Chain.C39_violated_twice, Chain.C39_violated_zero, Chain.C40_places_partial, Chain.C40_rejects, Chain.C40_violated_missing, Chain.C40_violated_no_map, Chain.C40_violated_shared, Chain.C40_violated_single, Chain.C83_involution_partial, Chain.C83_single, Chain.C83_violated_handbook, Chain.C84_keys_partial, Chain.C84_violated_multistate, Chexp.C265_converges, Chexp.C265_step, Chexp.C266_enough_partial, Chexp.C266_refuses, Chexp.C266_small, Chexp.C266_violated_crossing, Chexp.C267_norm_partial, Chexp.C267_violated_cut, Chexp.C268_scaled_partial, Chexp.C268_violated_factor, Clock.C51_begin_end, Clock.C51_moves, Clock.C51_setters, Clock.C51_sync, Clock.C51_sync_zero, Cmdline.C52_violated_check, Cmdline.C52_violated_flag_default, Cmdline.C52_violated_non_option_chars, Cmdline.C52_violated_non_option_negative, Cmdline.C52_violated_query, Collector.C11_refcount, Coupling.C248_response_partial, Coupling.C248_violated_one_sided, Coupling.C248_violated_product, Coupling.C248_violated_two, Cplx.C57_div, Cplx.C57_exp, Cplx.C57_phase, Cplx.C57_pow_partial, Cplx.C57_ring, Cplx.C57_sqrt_partial, Cplx.C57_violated_pow, Cplx.C57_violated_sqrt, Deriv.C131_kinetic, Deriv.C131_span, Deriv.C132_bounds, Deriv.C132_hermitian, Deriv.C132_negative_violated, Deriv.C132_sharp, Deriv.C133_accept_partial, Deriv.C133_zero_mass_violated, Deriv.C134_copy_partial, Deriv.C134_copy_violated, Deriv.C134_early_copy_violated, Deriv.C135_exponential, Deriv.C135_group, Deriv.C135_unitary, Deriv.C136_derivative, Deriv.C136_in_place, Deriv.C136_linear, Deriv.C136_momentum, Deriv.C136_nabla, Deriv.C136_plane, Deriv.C137_adjoint_partial, Deriv.C137_momentum_adjoint_violated, Deriv.C137_momentum_partial, Deriv.C137_nabla_violated, Deriv.C138_copy_partial, Deriv.C138_copy_violated, Deriv.C138_flag_violated, Deriv.C139_junk_violated, Deriv.C139_momentum_violated, Deriv.C139_sign_violated, Deriv.C140_even_violated, Deriv.C140_odd_partial, Deriv.C141_constant, Deriv.C141_coupled, Deriv.C141_hermitian, Deriv.C141_nonneg, Deriv.C141_uncoupled, Deriv.C142_same, Deriv.C143_constant_violated, Deriv.C143_lower_partial, Deriv.C143_upper_partial, Deriv.C144_init_partial, Deriv.C144_uncoupled_violated, Deriv.C145_anti, Deriv.C145_formula, Deriv.C145_pair, Deriv.C146_lower_violated, Deriv.C146_upper_partial, Deriv.C146_upper_violated, DiffSet.C301_add, DiffSet.C301_partial, DiffSet.C301_violated, DiffSet.C302_partial, DiffSet.C302_violated, Dms.C183_exponential_partial, Dms.C183_violated_dipole, Dms.C183_violated_missing, Dms.C183_violated_nonhermitian, Dms.C183_violated_unity, Dms.C184_transform_partial, Dms.C184_violated_coupling, Dms.C184_violated_mixed, Dms.C185_refused_partial, Dms.C185_violated_twice, Dms.C186_emax_partial, Dms.C186_violated_emax, Dms.C186_violated_emin, Dms.C187_copy_partial, Dms.C187_violated_new, Dms.C187_violated_time, Dms.C187_violated_unity, EigRun.C238_checked_partial, EigRun.C238_settings, EigRun.C238_violated_empty_directory, EigRun.C239_failure_reported, EigRun.C239_table_partial, EigRun.C239_violated_terminates, Eigen.C100_diagonal_partial, Eigen.C100_eigenfunctions_partial, Eigen.C100_violated_complex, Eigen.C100_violated_overlap, Eigen.C98_eigenfunction, Eigen.C98_orthonormal_partial, Eigen.C98_residual, Eigen.C98_too_many, Eigen.C98_violated_conv_one, Eigen.C99_complete_partial, Eigen.C99_eigenfunctions_partial, Eigen.C99_spectrum, Eigen.C99_violated_read, Eigen.C99_violated_read_steps, Fd.C194_partial, Fd.C194_violated_few, Fd.C194_violated_masses, Fd.C194_violated_negative, Fd.C195_antihermitian, Fd.C195_hermitian, Fd.C196_partial, Fd.C196_violated_first, Fd.C196_violated_min, Fd.C197_partial, Fd.C197_violated, Fd.C197_violated_emax, FftN.C293_places, FftN.C293_transform, FftN.C294_transform, FftN.C295_partial, FftN.C295_violated, Filters.C44_load, Filters.C44_reject_partial, Filters.C44_run_partial, Filters.C44_violated_add_default, Filters.C44_violated_add_operator, Filters.C44_violated_ms, Filters.C44_violated_negative, Filters.C44_violated_reinit, Filters.C44_violated_rho, Fric.C188_dissipation, Fric.C189_frozen, Fric.C190_violated_norm, Fric.C190_zero_partial, Fric.C191_hermitian_partial, Fric.C191_violated_formula, Fric.C191_violated_slope, Fric.C192_kick_partial, Fric.C192_violated_size, Fric.C192_violated_twice, Fric.C193_copy_partial, Fric.C193_violated_frozen, Fric.C193_violated_stokes, Fs.C95_create_directory_partial, Fs.C95_create_twice_partial, Fs.C95_failure_keeps_rest_partial, Fs.C95_violated_dot, Fs.C95_violated_strip_root, GSum.C306, GSum.C307_partial, GSum.C307_violated_empty, GSum.C307_violated_negative, GSum.C308_partial, GSum.C308_violated, GSum.C309_delete_partial, GSum.C309_partial, GSum.C309_violated, GSum.C309_violated_layout, GSum.C309_violated_leak, GSum.C309_violated_other, Gmc.C261_formula_partial, Gmc.C261_interior_near_partial, Gmc.C261_interior_partial, Gmc.C261_product_partial, Gmc.C261_violated_constant, Gmc.C261_violated_constant_single, Gmc.C261_violated_edge, Gmc.C261_violated_mixed, Gmc.C262_violated_ignored, Gmc.C263_same_partial, Gmc.C263_violated_layer, Grid.C19_address, Grid.C19_bijection, Grid.C19_counts, Grid.C19_walk, Grid.C20_partial, Grid.C22_first, Grid.C22_kinetic, Grid.C22_second, Grid.C64_collective, Grid.C64_mixed_value, Grid.C64_single, Grid.C64_violated_mixed, GridFn.C147_half, GridFn.C147_left_border_violated, GridFn.C147_mask_partial, GridFn.C147_sharp, GridFn.C148_absorber_partial, GridFn.C148_left_violated, GridFn.C149_absorber_violated, GridFn.C149_bounds_partial, GridFn.C150_expectation, GridFn.C151_copy_partial, GridFn.C151_flags_violated, GridFn.C152_flux_violated, GridFn.C152_gobbler_violated, GridFn.C152_kick_partial, GridFn.C152_position_violated, GridFn.C153_kick, GridFn.C153_unitary, GridFn.C154_copy_partial, GridFn.C154_new_violated, GridFn.C154_old_violated, GridFn.C155_position, GridFn.C156_bounds_partial, GridFn.C156_copy_violated, GridFn.C156_scale_violated, GridFn.C156_sum_violated, GridFn.C157_modifiers, GridFn.C157_setzero, GridFn.C158_bounds, GridFn.C159_rate_partial, GridFn.C159_sign_violated, GridFn.C160_closed, GridFn.C161_copy_partial, GridFn.C161_copy_violated, GridPm.C101_accepted_partial, GridPm.C101_init_partial, GridPm.C101_no_dims_partial, GridPm.C101_violated_dims, GridPm.C101_violated_missing_size, GridPm.C101_violated_unreadable, GridPm.C102_close_partial, GridPm.C102_round_trip_partial, GridPm.C102_violated_collapse, GridPm.C102_violated_digits, GridPm.C103_arrays, GridPm.C103_dx, GridPm.C103_equal, GridPm.C103_not_transitive, GridPm.C103_refl_symm, Gspo.C312_partial, Gspo.C312_prepared, Gspo.C312_violated_null, Gspo.C313_partial, Gspo.C313_violated_empty, Gspo.C313_violated_other, Gspo.C313_violated_silent, Gspo.C313_violated_stuck, Gspo.C314_partial, Gspo.C314_ready_partial, Gspo.C314_violated, HMat.C178_exponential_partial, HMat.C178_violated_qdiag, HMat.C178_violated_setzero, HMat.C178_violated_setzero_value, HMat.C179_bounds, HMat.C180_copy_partial, HMat.C180_violated_fresh, HMat.C180_violated_used, HMat.C181_hermitian, HMat.C181_transform, HMat.C182_emax_partial, HMat.C182_violated, Krylov.C104_sil_agrees_with_series, Krylov.C104_sil_defined_when_independent, Krylov.C104_sil_exact_on_invariant_space, Krylov.C104_sil_keeps_energy, Krylov.C104_sil_keeps_norm, Krylov.C104_sil_undefined_when_dependent, Krylov.C104_violated_eigenfunction, Krylov.C104_violated_unnormalised, Krylov.C105_arnoldi_agrees_with_series, Krylov.C105_arnoldi_eigenfunction, Krylov.C105_arnoldi_keeps_norm_and_energy, Krylov.C105_violated_old_vectors, Krylov.C105_violated_unnormalised, Lap.C303_partial, Lap.C303_violated, Lap.C303_violated_general, Lap.C304_partial, Lap.C304_violated, Lap.C304_violated_steps, Lap.C305_partial, Lap.C305_violated, LaserGen.C249_double_partial, LaserGen.C249_single_partial, LaserGen.C249_violated_center, LaserGen.C249_violated_several, LaserGen.C249_violated_short, LaserGen.C249_violated_width, LaserGen.C250_clocks, LaserGen.C250_file, LaserGen.C250_source, LaserGen.C251_reload_partial, LaserGen.C251_violated_backward, LaserGen.C252_copy_partial, LaserGen.C252_violated_early, LaserGen.C252_violated_other, LaserGen.C253_bounds_partial, Lasers.C54_dipole, Lasers.C54_matrix, Lasers.C54_raman_partial, Lasers.C54_violated_raman, Lasers.C55_scaling_partial, Lasers.C55_vector_pot, Lasers.C55_violated_energy, Lasers.C55_violated_vector_pot, Lasers.C76_dipole, Lasers.C76_interaction, Lasers.C76_matrix, Lasers.C76_raman_partial, Lasers.C76_violated_raman, Lasers.C77_dipole_partial, Lasers.C77_matrix, Lasers.C77_violated_dipole, Lasers.C77_violated_raman, Lasers.C78_copy_partial, Lasers.C78_violated_scale, Lasers.C79_accepted, Lasers.C79_rejected, Lasers.C79_set_get, Lasers.C79_violated_kept, Lasers.C80_emax_partial, Lasers.C80_violated_emax, Lasers.C80_violated_emin, Linalg.C21_bounds, Linalg.C21_elements, Linalg.C21_scale_fill, Linalg.C21_stride_copy, Linalg.C21_violated_remainder, Linalg.C23_square_partial, Linalg.C66_diag, Linalg.C66_involution, Linalg.C66_transpose, Linalg.C67_reorder, Logs.C198_partial, Logs.C198_violated_reference, Logs.C199_partial, Logs.C200_centred, Logs.C200_partial, Logs.C201_partial, Logs.C201_violated_pending, Logs.C201_violated_second, Lossy.C290_exact_partial, Lossy.C290_partial, Lossy.C290_violated, Lossy.C291_partial, Lossy.C291_violated, Lossy.C292_partial, Lossy.C292_violated, Main.C235_run_begins, Main.C235_status_partial, Main.C235_text, Main.C235_violated_bad_definition, Main.C235_violated_no_input, Main.C235_violated_unknown_option, Main.C236_settings_partial, Main.C236_threads_partial, Main.C236_violated_no_number, Main.C236_violated_not_positive, Memory.C06_accounting, Memory.C06_disjoint, Memory.C06_step, Memory.C07_backed, Memory.C07_fresh_partial, Memory.C08_limit_partial, Memory.C09_cleanup, Memory.C10_rejects, Memory.C10_violated, MixDiff.C300_partial, MixDiff.C300_violated, MixDiff.C300_violated_factor, Mods.C211_builtin, Mods.C211_links, Mods.C211_stable, Mods.C211_violated_prefix, Mods.C212_invalid_partial, Mods.C212_missing_partial, Mods.C212_order_partial, Mods.C212_violated_slash, Mods.C212_violated_system, Mods.C213_sources_partial, Mods.C213_violated_expansion, MsTime.C324_clock_partial, MsTime.C324_partial, MsTime.C324_violated, MsWf.C316_partial, MsWf.C316_self_partial, MsWf.C316_sizes_partial, MsWf.C316_violated_fewer, MsWf.C316_violated_more, MsWf.C316_violated_null, MsWf.C317_partial, MsWf.C317_violated, Multi.C27_block_matrix_partial, Multi.C27_violated_64, Multi.C53_combined, Multi.C71_empty, Multi.C71_init_partial, Multi.C72_hermitian_partial, Multi.C72_violated_general, NacIn.C320_partial, NacIn.C320_refused_partial, NacIn.C320_violated, NacIn.C321_partial, NacIn.C321_violated_null, Oct.C124_yield_of_field, Oct.C125_krotov_operator, Oct.C125_krotov_overlap, Oct.C125_krotov_phase, Oct.C126_rabitz, Oct.C126_rabitz_objective, Oct.C127_moving_violated, Oct.C128_early_violated, Oct.C128_first, Oct.C128_stops_partial, Oct.C129_feedback_violated, Oct.C129_operator_violated, Oct.C130_lasers_violated, Oct.C130_shape, OctFreq.C240_both_fields, OctFreq.C240_iteration, OctFreq.C240_unique, OctFreq.C241_krotov, OctFreq.C242_spectrum_partial, OctFreq.C242_violated_doubled, OctFreq.C242_violated_run, OctFreq.C243_violated_gobbler, OctFreq.C243_yield_partial, OctFreq.C244_bounds_partial, OctFreq.C244_edge_accepted, OctFreq.C244_lower, OctFreq.C244_upper, OctFreq.C244_violated_edge, OctFreq.C244_violated_zero, OctRun.C245_checked_partial, OctRun.C245_settings, OctRun.C245_violated_freq, OctRun.C245_violated_negative, OctRun.C245_yield_file, OctRun.C246_message_partial, OctRun.C246_violated, OctRun.C246_violated_targets, OpChain.C255_complete_partial, OpChain.C255_sound_partial, OpChain.C255_violated_underscores, OpChain.C256_places_partial, OpChain.C256_violated_empty, OpChain.C256_violated_letters, OpChain.C256_violated_negative, OpChain.C257_acyclic, OpChain.C257_reference, OpChain.C257_self, OpChain.C257_shared, OpChain.C258_answered_partial, OpChain.C258_violated_clock, OpChain.C258_violated_comment, OpChain.C258_violated_empty, OpChain.C258_violated_text, OpChain.C259_given_partial, OpChain.C259_violated_default, OpChain.C260_label_partial, OpChain.C260_violated_inherited, OpChain.C260_violated_reference, OpMem.C315_partial, OpMem.C315_violated, OpMem.C315_violated_matrix, OpSer.C325_roundtrip, OpSer.C325_roundtrip_wire, OpSer.C326_partial, OpSer.C326_violated_kind, OpSer.C326_violated_short, Ops.C25_answers, Ops.C25_copy_partial, Ops.C25_rejects, Ops.C25_violated_copy, Ops.C26_single_partial, Ops.C26_violated, Ops.C29_complement, Ops.C29_idempotent_linear, Ops.C29_projection, Ops.C29_sum_orthogonal, Ops.C29_violated_add_first, Ops.C29_violated_copy, Ops.C29_violated_negative_inverse, Ops.C30_exponent_partial, Ops.C30_no_clock, Ops.C30_order_partial, Ops.C30_violated_clock_changed, Ops.C30_violated_copy, Ops.C30_violated_mode_without_clock, Ops.C69_conj, Ops.C69_flags_partial, Ops.C69_violated_copy, Ops.C69_violated_set, PLife.C275_fields_partial, PLife.C275_rk4_clocked_partial, PLife.C275_violated_rk4, PLife.C276_arnoldi_partial, PLife.C276_violated, PLife.C276_violated_early, PLife.C276_violated_threshold, PLife.C277_partial, PLife.C277_violated_cheby, PLife.C277_violated_lasers, PLife.C278_cheby_clock_partial, PLife.C278_hamiltonian, PLife.C278_hermitian, PLife.C278_krylov, PLife.C278_violated_cheby, PLife.C278_violated_laser, PLife.C278_violated_order, PLife.C278_violated_rk4, PNum.C283_others, PNum.C283_roundtrip, PNum.C284_number_partial, PNum.C284_violated_negative, PNum.C284_violated_range, PNum.C284_violated_rest, PNum.C284_violated_text, PNum.C285_bools_partial, PNum.C285_chars_partial, PNum.C285_ints_partial, PNum.C285_text_partial, PNum.C285_violated_empty, PNum.C285_violated_text, PNum.C286_partial, PNum.C286_violated_read, PNum.C286_violated_write, Params.C01_iteration, Params.C01_lookup, Params.C02_typed_roundtrip_partial, Params.C02_untyped_roundtrip, Params.C02_violated, Params.C03_merge_algebra, Params.C03_merge_value, Params.C04_array_read, Params.C04_array_roundtrip, Params.C04_empty_array, Params.C05_terminates_partial, Params.C05_violated, Params.C05_violated_witness, Params.C59_type_partial, Params.C59_violated, Params.C60_line, Peak.C96_inside_partial, Peak.C96_peaks_partial, Peak.C96_violated_negative, Peak.C97_maxima, Peak.C97_violated_minima, Peak.C97_violated_plateau, Peak.C97_violated_window, Peak.C97_window_partial, PotIn.C310_negative_partial, PotIn.C310_partial, PotIn.C310_violated_dims, PotIn.C310_violated_missing, PotIn.C310_violated_none, PotIn.C311_partial, PotIn.C311_violated_ignored, PotIn.C311_violated_retry, Prog.C36_directory_partial, Prog.C36_reject_partial, Prog.C36_restart_partial, Prog.C36_run_partial, Prog.C36_violated_clock, Prog.C36_violated_cycle, Prog.C36_violated_empty_dir, Prog.C36_violated_negative, Prog.C36_violated_restart, Prog.C36_violated_zero, Prog.C37_snapshots_partial, Prog.C37_violated_start, Prog.C38_violated_name, Prog.C38_violated_read, Prog.C88_running_partial, Prog.C88_violated_failure, Propa.C31_coefficients, Propa.C31_imaginary_partial, Propa.C31_order, Propa.C31_out_of_place_partial, Propa.C31_real_partial, Propa.C31_violated_order, Propa.C32_in_place_partial, Propa.C32_violated_out_of_place, Propa.C33_reversible, Propa.C33_symmetric_and_fresh_partial, Propa.C33_violated_norm, Propa.C34_selection_partial, Propa.C73_imaginary_partial, Propa.C73_real, Propa.C73_violated_imaginary, Propa.C73_violated_no_range, Qdz.C214_compress_partial, Qdz.C214_decompress_partial, Qdz.C214_letters_partial, Qdz.C214_refuse_partial, Qdz.C214_violated_default, Qdz.C214_violated_level0, Qdz.C214_violated_number, Qdz.C214_violated_status, Qdz.C215_series_partial, Qdz.C215_violated_read, Qdz.C216_planner_partial, Qdz.C216_save_partial, Qdz.C216_violated_file, RamSeed.C327_partial, RamSeed.C327_violated_lower, RamSeed.C327_violated_upper, Raw.C222_compressed_partial, Raw.C222_into_partial, Raw.C222_roundtrip_partial, Raw.C222_violated_overread, Raw.C222_violated_tag, Raw.C223_series_partial, Raw.C223_violated_params, Raw.C224_into_partial, Raw.C224_leftover_partial, Raw.C224_state_partial, Raw.C224_violated_multi, Raw.C225_files, Raw.C225_total, Raw.C226_read_partial, Raw.C226_violated_read, Raw.C226_violated_write, Raw.C227_frame, Raw.C228_invalid_partial, Raw.C228_options_partial, Registry.C41_add, Registry.C41_anonymous, Registry.C41_clear, Registry.C41_init_once_partial, Registry.C41_lookup, Registry.C41_violated_dangling, Registry.C41_violated_replaced, Registry.C41_violated_twice, Registry.C42_add_rejected, Registry.C42_alive_partial, Registry.C42_clear, Registry.C42_set, Registry.C42_violated_null, Registry.C42_violated_same, Registry.C81_check_label_partial, Registry.C81_set_label, Registry.C81_violated_empty, Registry.C82_asked_partial, Registry.C82_violated_ignored, Report.C45_axis_partial, Report.C45_increasing, Report.C45_once, Report.C45_values, Report.C45_violated_odd, Report.C45_violated_single, Report.C85_report_only_partial, Report.C85_samples_partial, Report.C85_square_partial, Report.C85_violated_conjugate, Report.C85_violated_long, Report.C85_violated_short, Report.C85_violated_window_single, Report.C85_window_partial, Report.C86_eigenstate, Report.C87_unused_partial, Report.C87_violated_unwritable, RitzEf.C279_hermitian_partial, RitzEf.C279_needs_arnoldi, RitzEf.C279_ritz_partial, RitzEf.C279_violated_eigenfunction, RitzEf.C280_best, RitzEf.C280_bounds, RitzEf.C280_initial, RitzEf.C281_error, RitzEf.C281_invariant, RitzEf.C282, RunXml.C92_definitions_before_programs, RunXml.C92_empty_input_rejected, RunXml.C92_input_runs_in_order_partial, RunXml.C92_violated_comment_only, RunXml.C92_violated_empty_directory, RunXml.C93_definitions_need_equal_sign, RunXml.C93_variables_have_last_value, Scal.C296_partial, Scal.C296_violated, Scal.C296_violated_text, Scal.C297_partial, Scal.C297_violated, Scal.C298_partial, Scal.C298_violated, Scal.C299_partial, Scal.C299_violated, Serial.C12_roundtrip, Serial.C12_truncated, Serial.C12_violated, Serial.C13_roundtrip, Serial.C14_reject, Serial.C14_roundtrip, Serial.C61_roundtrip, Serial.C62_tag, Simd.C172_codelets_partial, Simd.C172_imag_scalar, Simd.C172_violated_imag, Simd.C173_arithmetic_partial, Simd.C173_violated_imags, Simd.C174_scalar_partial, Simd.C174_violated_case, Simd.C174_violated_sse, Simd.C175_product_partial, Simd.C175_violated_processes, Simd.C176_agree, Simd.C176_recursion, Simd.C177_bound_partial, Simd.C177_norm_partial, Simd.C177_stride, Simd.C177_violated_race, SimpleXml.C46_escape, SimpleXml.C46_output_partial, SimpleXml.C46_violated_truncation, SimpleXml.C46_violated_variable, SimpleXml.C47_loop_partial, SimpleXml.C47_program_partial, SimpleXml.C47_violated_direction, SimpleXml.C47_violated_zero_step, SimpleXml.C48_nesting_partial, SimpleXml.C48_violated_extra_brace, SimpleXml.C48_violated_missing_brace, SimpleXml.C48_violated_second_block, SimpleXml.C49_variables_partial, SimpleXml.C49_violated_concat, SimpleXml.C49_violated_copy, SimpleXml.C49_violated_late, SimpleXml.C56_detect_partial, SimpleXml.C56_violated_brace, SimpleXml.C56_violated_long, Spo.C162_eigen_partial, Spo.C162_orthonormal, Spo.C162_values, Spo.C162_violated_degenerate, Spo.C163_step, Spo.C164_exact, Spo.C164_reverse, Spo.C164_unitary, Spo.C165_fresh_partial, Spo.C165_violated_reset, Spo.C166_single_partial, Spo.C166_violated_apply, Spo.C166_violated_init, Spo.C167_accepted_partial, Spo.C167_first, Spo.C167_violated_second, Spo.C168_first_partial, Spo.C168_violated_backward, Spo.C169_violated_target, Spo.C170_update_partial, Spo.C170_violated_static, Spo.C171_violated_copy, Stencil.C35_narrow, Stencil.C35_setup, Stencil.C35_single, Stencil.C58_thickness_checked, Stencil.C58_transform, Stencil.C65_exact_first, Stencil.C65_exact_second, Stencil.C65_first, Stencil.C65_second, Stencil.C68_periodic_partial, Stencil.C68_violated_dims, Stencil.C68_violated_open, Store.C229_returns, Store.C229_session, Store.C230_catching, Store.C230_delete, Store.C230_retired, Store.C231_kspace_partial, Store.C231_retry, Stream.C15_roundtrip, Stream.C15_terminates, Stream.C15_truncated, Stream.C16_levels, Stream.C16_roundtrip, Stream.C16_sequence, Stream.C16_violated_nested, SumBnd.C322_empty, SumBnd.C322_sum, SumBnd.C322_values, SumBnd.C323_partial, SumBnd.C323_violated, Tmp.C218_array_partial, Tmp.C221_exists_partial, Tmp.C221_pair_partial, Tmp.C221_violated_leftover, Tmp.C221_violated_unique, Wire.C61_roundtrip_wire, Wire.C63_headers, Wire.C63_message, Zcopy.C210_short.

## Modelled code

Files and lines cited by the definitions of the model.  What a definition leaves out is said in its comment and in the header of its file.

* `doc/Handbook.tex`: 433-496, 512-533, 1239-1257
* `src/ChainLoader.cpp`: 34-438
* `src/ChainLoader.h`: 48-168
* `src/CmdHandler.cpp`: 54-69, 73-233, 280-313, 349-600, 605-773, 779-858
* `src/FiltersList.cpp`: 11-15, 26-38, 57-127, 134-145, 161-232, 237-253, 258-340
* `src/FiltersList.h`: 15, 30-51
* `src/GlobalOpList.cpp`: 43-79, 89-103, 108-122, 128-151, 159-171, 178-185, 212-224
* `src/GlobalOpList.h`: 26-39, 46-60
* `src/GlobalWFList.cpp`: 41-62, 67-74, 94-103, 108-120
* `src/GlobalWFList.h`: 28-38, 45-57
* `src/IACmds.proto`: 6-45
* `src/ProgCfun.cpp`: 24-25, 34-101, 107, 116-126, 135-174, 187-225, 229-237, 253-373, 378-539
* `src/ProgCfun.h`: 51-56, 69-70
* `src/ProgEigen.cpp`: 31-38, 53-89, 100-112, 122-129, 144-263, 318-409, 414-736
* `src/ProgEigen.h`: 15-21, 66-69, 77-93
* `src/ProgFilter.cpp`: 46-51, 62-92, 117-175
* `src/ProgOCT.cpp`: 20-24, 34-45, 49-300, 304-332, 337-370, 376-447, 454-473, 483-515, 522-557, 562-602, 607-701, 706-798, 803-1092
* `src/ProgOCT.h`: 20, 57-60, 70-111
* `src/ProgPropa.cpp`: 18, 35-137, 144-158, 163-172, 178-336
* `src/Reporter.cpp`: 14-18, 35-51, 64-154, 160-192, 200-217, 223-228
* `src/Reporter.h`: 24-45, 84-87, 101
* `src/fft/FFTGlobal.cpp`: 27-82, 108-122
* `src/fft/fft.cpp`: 18-46, 57-71, 82-122, 132-134, 161-225, 250-290
* `src/linalg/Bessel.cpp`: 22-97
* `src/linalg/LapackDiag.cpp`: 22-249
* `src/linalg/LapackDiag.h`: 41-643
* `src/math/Matrix.h`: 21-69, 80-95, 140-146, 188-200, 221-234, 242-252, 304-342
* `src/math/Vector.h`: 73-86, 99-128, 138-148, 163-176, 180-201, 216-241, 248-251, 258-259, 267-278, 283-297, 344, 356, 364-407, 439-463, 523-531, 545-569, 573-594, 603-612, 680-692
* `src/math/VectorPrimitives.h`: 12-48
* `src/math/VectorView.h`: 19-40, 50-69, 92-133, 160-209
* `src/math/codelets/Abs.h`
* `src/math/codelets/AddElementsCC.h`: 6-33
* `src/math/codelets/ExpElements.h`: 6-34
* `src/math/codelets/ExpElementsCDc.h`: 6-34
* `src/math/codelets/Im.h`
* `src/math/codelets/MultElementsAddCCD.h`: 6-33
* `src/math/codelets/MultElementsAddCCDd.h`: 6-33
* `src/math/codelets/MultElementsCCDd.h`: 6-33
* `src/math/codelets/MultElementsCDd.h`: 6-33
* `src/math/codelets/MultElementsCc.h`: 6-30
* `src/math/codelets/MultElementsCd.h`: 6-30
* `src/math/codelets/MultElementsConjugateCCd.h`
* `src/math/codelets/MultElementsCopyCCc.h`: 6-35
* `src/math/codelets/MultElementsDd.h`: 22-30
* `src/math/codelets/codelet.pl`: 27-34, 86-118
* `src/math/codelets/vec.cl`: 6, 14-31
* `src/math/dcomplex.cpp`: 18-22
* `src/math/dcomplex.h`: 22-25, 39, 44-375, 380-390, 395-401
* `src/math/m128dc.h`: 27-222
* `src/math/math_functions.cpp`: 10-18, 23-31, 53-61
* `src/math/math_functions.h`: 38-48, 60-69, 78-84, 92-98, 108-113, 133-138, 146-183
* `src/math/typedefs.h`: 16, 28
* `src/matlab/pblib_encoded_tag_size.m`: 38-39
* `src/matlab/pblib_encoded_varint_size.m`: 41-77
* `src/matlab/pblib_generic_parse_from_string.m`: 65-105
* `src/matlab/pblib_generic_serialize_to_string.m`: 45-86
* `src/matlab/pblib_read_tag.m`: 38-40
* `src/matlab/pblib_read_varint32.m`: 1-46
* `src/matlab/pblib_read_varint64.m`: 1-46
* `src/matlab/pblib_read_wire_type.m`: 49-72
* `src/matlab/pblib_write_tag.m`: 38-39
* `src/matlab/pblib_write_varint.m`: 74-82
* `src/matlab/pblib_write_wire_type.m`: 51-65
* `src/matlab/qd_cmd_apply_op.m`: 27-28
* `src/matlab/qd_cmd_matel.m`: 27-28
* `src/matlab/qd_get_global_params.m`: 12-23
* `src/matlab/qd_handle_response.m`: 12-24
* `src/matlab/qd_set_global_params.m`: 12-24
* `src/matlab/qd_write_cmd.m`: 20-29
* `src/modules/InternalMods.cpp`: 120-167
* `src/modules/ModuleLoader.cpp`: 14-22, 47-98
* `src/modules/ModuleLoader.h`: 20-24, 52-66, 83-91, 120-136, 142-150, 157-184, 195-243
* `src/qdlib/Diff.cpp`: 26-30, 52-91, 98-114, 120-139, 149-195, 203-212, 223-240, 250-266, 274-304
* `src/qdlib/Diff.h`: 35-58, 68
* `src/qdlib/FileWF.cpp`: 16-65, 78-155, 165-197, 212-226, 236-298
* `src/qdlib/FileWF.h`: 11, 38-43
* `src/qdlib/GridSystem.cpp`: 9, 15-78, 97-122, 149-158, 165-168, 186-189, 207-211, 216-228, 233-243, 248-261, 266-270, 275-294, 300-324
* `src/qdlib/GridSystem.h`: 24-116
* `src/qdlib/GridSystem.proto`: 6-17
* `src/qdlib/HOFD.h`: 30-42, 64, 85-93, 99-113, 123-177, 187-319, 340-433
* `src/qdlib/Kspace.cpp`: 17-88
* `src/qdlib/Kspace.h`: 20-23
* `src/qdlib/Laser.cpp`: 11-12, 65-74, 81-92, 97-101, 106-112, 125-128, 133-136, 143-169, 174-184, 206-239
* `src/qdlib/Laser.h`: 19-34, 52, 78-82
* `src/qdlib/OArnoldi.cpp`: 14-18, 43-53, 61-81, 86-214, 222-242
* `src/qdlib/OArnoldi.h`: 11-13, 33-35, 39
* `src/qdlib/OCheby.cpp`: 22-27, 64-194, 205-218, 227-294, 299-322, 330-493
* `src/qdlib/OCheby.h`: 10, 34-42
* `src/qdlib/ODMultistate.cpp`: 11-14, 35-182
* `src/qdlib/ODMultistate.h`: 24-33, 65
* `src/qdlib/ODSpace.h`: 21, 42-47, 65-69
* `src/qdlib/OFlux.cpp`: 12-15, 30-64, 81-98
* `src/qdlib/OFlux.h`: 26-32
* `src/qdlib/OGSPO.cpp`: 12-18, 30-54, 61-105, 114-139, 146-177
* `src/qdlib/OGSPO.h`: 36-40
* `src/qdlib/OGobbler.cpp`: 14-22, 32-214, 221-246
* `src/qdlib/OGobbler.h`: 31-43
* `src/qdlib/OGridDipole.cpp`: 18-29, 36-60, 68-87
* `src/qdlib/OGridDipole.h`: 21-25
* `src/qdlib/OGridGMat.cpp`: 16-19, 56-137, 142-244, 250-385, 408-443
* `src/qdlib/OGridGMat.h`: 37-60
* `src/qdlib/OGridGStokes.cpp`: 49-259
* `src/qdlib/OGridGStokes.h`: 29-46
* `src/qdlib/OGridHOFD.cpp`: 21-25, 32-129, 136-149
* `src/qdlib/OGridHOFD.h`: 36-43
* `src/qdlib/OGridKick.cpp`: 10-13, 50-113, 121-152
* `src/qdlib/OGridKick.h`: 32-38
* `src/qdlib/OGridNAC.cpp`: 11-155
* `src/qdlib/OGridNAC.h`: 28-38
* `src/qdlib/OGridNabla.cpp`: 54-114, 122-141, 155-167, 172-213
* `src/qdlib/OGridNabla.h`: 34-40
* `src/qdlib/OGridNablaSq.cpp`: 14-22, 28-83, 89-111, 119-140, 156-170
* `src/qdlib/OGridNablaSq.h`: 26-36
* `src/qdlib/OGridPML.cpp`: 22-26, 47-126, 133-159
* `src/qdlib/OGridPML.h`: 28-35
* `src/qdlib/OGridPosition.cpp`: 12-15, 23-36, 40-105, 113-117
* `src/qdlib/OGridPosition.h`: 22-26
* `src/qdlib/OGridPotential.cpp`: 15-16, 26-120, 124-142
* `src/qdlib/OGridPotential.h`
* `src/qdlib/OGridRaman.cpp`: 13, 18-29, 36-54, 78-82
* `src/qdlib/OGridRaman.h`: 21-57
* `src/qdlib/OGridStokes.cpp`: 11-75, 84-138, 156-172
* `src/qdlib/OGridStokes.h`: 18-21, 29-47
* `src/qdlib/OGridStokesAlbrecht.cpp`: 18, 27-45, 65-85, 98-112
* `src/qdlib/OGridStokesAlbrecht.h`: 36-51
* `src/qdlib/OGridSum.cpp`: 11-23, 28-45, 51-63, 88-117, 133-153, 158-163, 168-171, 176-196
* `src/qdlib/OGridSum.h`: 10, 24-32
* `src/qdlib/OGridsystem.cpp`: 28-42, 57-95
* `src/qdlib/OGridsystem.h`: 19
* `src/qdlib/OHermitianMatrix.cpp`: 21-22, 28-34, 48-94, 141-153, 160-180, 185-205, 233-236, 262-302
* `src/qdlib/OHermitianMatrix.h`: 28-41
* `src/qdlib/OJump.cpp`: 25-46, 59-92
* `src/qdlib/OLaser.cpp`: 9-174, 181-206, 211-222
* `src/qdlib/OLaser.h`: 21-29, 48
* `src/qdlib/OList.cpp`: 9-16, 47-52, 59-78, 83-152, 161-175, 180-212
* `src/qdlib/OList.h`: 11, 20-26
* `src/qdlib/OMatDipole.cpp`: 41-61, 69-91
* `src/qdlib/OMatDipole.h`: 20-24
* `src/qdlib/OMultistate.cpp`: 14-22, 34-54, 68-231, 244-270, 279-344
* `src/qdlib/OMultistate.h`: 30-45, 79
* `src/qdlib/ONormalize.h`: 44-50
* `src/qdlib/OProduct.cpp`: 21-76
* `src/qdlib/OProduct.h`: 19-48
* `src/qdlib/OProjection.cpp`: 13, 30-87, 98-149
* `src/qdlib/OProjection.h`: 33-35
* `src/qdlib/OPropagator.h`: 22-39, 43-150, 156-185
* `src/qdlib/ORK4.cpp`: 18-22, 30-101, 108-125
* `src/qdlib/ORK4.h`
* `src/qdlib/OSIL.cpp`: 13-16, 45-46, 54-78, 83-199, 207-227
* `src/qdlib/OSIL.h`: 11-12, 30-35
* `src/qdlib/OSPO.cpp`: 15-22, 38-45, 49-82, 159-325, 331-340, 357-435, 444-489
* `src/qdlib/OSPO.h`: 41-62
* `src/qdlib/OScalar.cpp`: 11-14, 22-58, 66-87
* `src/qdlib/OScalar.h`: 24-27, 40-41
* `src/qdlib/OSum.cpp`: 28-92
* `src/qdlib/OSum.h`: 21-52
* `src/qdlib/Operator.h`: 13, 60, 64, 75-105, 121-134, 176, 206, 219, 226-259, 266, 276-316, 361, 369
* `src/qdlib/PML.cpp`: 25, 41-81, 96-130, 147-205, 210-246
* `src/qdlib/PML.h`: 31-37
* `src/qdlib/Transform.h`: 15-35
* `src/qdlib/TransformFFT.cpp`: 11-12, 25-63
* `src/qdlib/TransformFFT.h`: 29
* `src/qdlib/TransformMSD.cpp`: 22-26, 31-100
* `src/qdlib/TransformMat.cpp`: 19-30
* `src/qdlib/TransformMat.h`: 29
* `src/qdlib/WFBuffer.cpp`: 16-17, 34-64, 73-89, 95-101, 119-139, 148-154, 162-186, 192-217, 224-290, 313-339, 346-362, 367-371, 378-381, 386-398
* `src/qdlib/WFBuffer.h`: 18, 35-53
* `src/qdlib/WFGridCartesian.cpp`: 38-47, 62-119
* `src/qdlib/WFGridSystem.cpp`: 28-46, 57-61, 90-152, 158-177
* `src/qdlib/WFGridSystem.h`: 26-40
* `src/qdlib/WFLevel.cpp`: 52-161
* `src/qdlib/WFMultistate.cpp`: 12-34, 43-59, 89-139, 152-224, 228-239, 262-276, 288-293
* `src/qdlib/WFMultistate.h`: 10, 20-30
* `src/qdlib/WaveFunction.h`: 16, 37-43, 49-56, 94-128, 135-139, 169-174, 179-183, 247-254, 280-285, 290-293
* `src/qdlib/cfd_table_1.h`: 5-354
* `src/qdlib/cfd_table_2.h`: 5-354
* `src/qdng.cpp`: 101-139, 156-349
* `src/qdz.cpp`: 24-41, 50-98, 125-156, 167-230
* `src/simpleXml/Simple2Xml.cpp`: 13, 28-77
* `src/simpleXml/Simple2Xml.h`: 19-20
* `src/simpleXml/SyntacticTreeModel.h`: 20, 25, 38, 53-63, 106-132, 138-298
* `src/simpleXml/grammar.yy`: 17, 47-108, 124-219
* `src/simpleXml/simpleXml.ll`: 12-30
* `src/tools/Collector.h`: 27-41, 77-83, 92-103, 109-113, 119-123, 149-165, 172-196
* `src/tools/FIFO.cpp`: 26-53, 58-82, 94-102
* `src/tools/FileSingle.h`: 23-27, 51-54, 141-147, 179-182, 187-199, 207-214, 362-363, 415-422, 542-548, 582-588, 595-758, 770-802, 807-815, 821-859, 865-888, 894-944, 950-976, 989-999, 1005-1021, 1051-1069, 1075-1095, 1101-1105, 1113-1140, 1146-1196, 1203-1210, 1217-1300, 1306-1314, 1320-1366, 1378, 1387-1390, 1399-1410, 1419-1438, 1446-1462, 1471-1490, 1519, 1529-1549, 1559-1579
* `src/tools/FileSingleHeader.proto`: 8-21
* `src/tools/Getopt.cpp`: 21-24, 45-60, 75-90, 108-112, 124-130, 176-195, 205-210, 217-223, 230-249, 256-262, 275-282, 292-299
* `src/tools/Getopt.h`: 51-58
* `src/tools/GlobalParams.cpp`: 11-28
* `src/tools/Logger.cpp`: 25-32, 37-58, 67-73, 105-118, 123-131, 137-140, 145-149, 154-162, 169-176, 182-228, 233-268
* `src/tools/Logger.h`: 26-43, 61, 83-133
* `src/tools/Memory.cpp`: 34-37, 56-71, 86-89, 105-160, 205-240, 245-263, 268-283
* `src/tools/Memory.h`: 21-25, 46-54, 60-67
* `src/tools/ParamContainer.cpp`: 19-39, 44-67, 75-79, 94-97, 129-140, 149-159, 167-177, 189, 207, 223-234, 245-259, 264-272, 300-338, 344-358, 364-381, 388-391, 403-413, 420-439, 466-472, 477-481, 495-496, 508-513, 524-532, 543-551, 562-570, 584-592, 603-609, 614-670, 676-684, 691-711, 731-796, 811-832, 844-857
* `src/tools/ParamContainer.h`: 14, 18, 32-42, 58-63, 86
* `src/tools/PeakFinder.cpp`: 20-84, 92-102, 107-143, 177-204
* `src/tools/QDClock.cpp`: 11-13, 26-29, 34-37, 50-53, 66-69, 75-78, 83-86, 91-95, 100-104, 109-115, 120-128
* `src/tools/QDClock.h`: 13-18
* `src/tools/TmpFile.h`: 34-40, 44, 48-57, 65-90, 101-152, 159-195, 199-226, 239-247, 252-262, 267-276
* `src/tools/XmlNode.cpp`: 43-101, 122-159
* `src/tools/XmlParser.cpp`: 11, 33-74
* `src/tools/ZCopyStream.cpp`: 19-60
* `src/tools/fstools.cpp`: 18-32, 42-83, 113, 132
* `src/tools/helpers.cpp`: 9-50
* `src/tools/helpers.h`: 95-112

## Code that is not modelled

* Floating point rounding; all numbers are exact.
* MPI communication (the partition of work over processes is modelled, C53, C175). OpenMP loops and SSE code are modelled for the vector operations, the scalar product and the Chebychev recursion (C172-C177), elsewhere loops are sequential. The AVX code paths (src/math/m256dc.h) do not compile. Alignment of memory.
* The numerical libraries: LAPACK, FFTW, Bessel functions (slatec), zlib, bzip2. The accuracy of the Chebychev propagator (C265-C268) assumes that the routine for the Bessel functions returns their exact values.
* The generated parser and lexer of the simple input language and the expat callbacks behind the tree builder.
* The buffers of the C++ output streams behind the logger, timing and memory reports.
* Test programs under src/tests and build files.
* src/qdlib/OSPO.cpp: the comparison of grid sizes, the limit of sixteen operators in a sum and the assignments between the parts in Copy.
* Code that no program uses: src/math/TNT_Matrix.h, src/math/tnt_extensions.h, src/tools/SharedVar.h, src/tools/tnt_io.h, src/tools/Thread.cpp (a test only), src/linalg/lapack_rs.cpp, src/ProgAutocorr.cpp, src/Autokorr.cpp. The main function of the converter src/simpleXml/qds2qdi.cpp.
* The texts of exceptions (src/tools/Exception.cpp) and of the program information (src/qdng_info.cpp); that an exception is thrown is modelled, what it says is not.
* src/qdlib/PML.cpp: ApplyTransformAdd, which its own comment calls broken and which is not used. src/qdlib/WFBuffer.cpp: the selection of the buffer size, SaveToFiles.

C++ files from which no definition is taken: Autokorr.cpp, CmdHandler.h, ProgAutocorr.cpp, ProgAutocorr.h, ProgFilter.h, ProgPropa.h, fft/FFTGlobal.h, fft/fft.h, lib/libqdng.cpp, linalg/Bessel.h, linalg/lapack_double.h, linalg/lapack_rs.cpp, linalg/lapack_rs.h, math/TNT_Matrix.h, math/codelets/AddElementsCCc.h, math/codelets/AddElementsCCd.h, math/codelets/AddElementsEqCCC.h, math/codelets/ImCC.h, math/codelets/MultElementsAddCCc.h, math/codelets/MultElementsAddCCd.h, math/codelets/MultElementsCC.h, math/codelets/MultElementsCCD.h, math/codelets/MultElementsCCd.h, math/codelets/MultElementsCD.h, math/codelets/MultElementsCDc.h, math/codelets/MultElementsComplexCCDd.h, math/codelets/MultElementsComplexCCd.h, math/codelets/MultElementsComplexCDd.h, math/codelets/MultElementsComplexEqCCDd.h, math/codelets/MultElementsConjugateCCCd.h, math/codelets/MultElementsCopyCCC.h, math/codelets/MultElementsCopyCCCd.h, math/codelets/MultElementsCopyCCD.h, math/codelets/MultElementsCopyCCDd.h, math/codelets/MultElementsCopyCCd.h, math/codelets/Re.h, math/codelets/ReCC.h, math/cplx_sse2.h, math/m128dc.cpp, math/m256dc.cpp, math/m256dc.h, math/tnt_extensions.h, modules/InternalMods.h, modules/Module.h, modules/mod-OCheby.cpp, modules/mod-OFlux.cpp, modules/mod-OGSPO.cpp, modules/mod-OGobbler.cpp, modules/mod-OGridDipole.cpp, modules/mod-OGridGMat.cpp, modules/mod-OGridHOFD.cpp, modules/mod-OGridKick.cpp, modules/mod-OGridNAC.cpp, modules/mod-OGridNabla.cpp, modules/mod-OGridNablaSq.cpp, modules/mod-OGridPML.cpp, modules/mod-OGridPosition.cpp, modules/mod-OGridPotential.cpp, modules/mod-OGridRaman.cpp, modules/mod-OGridSum.cpp, modules/mod-OHermitianMatrix.cpp, modules/mod-OMatDipole.cpp, modules/mod-OMultistate.cpp, modules/mod-ORK4.cpp, modules/mod-OSIL.cpp, qdlib/Conversion.h, qdlib/HOFD.cpp, qdlib/OJump.h, qdlib/ONormalize.cpp, qdlib/Serializable.h, qdlib/TransformMSD.h, qdlib/WFGridCartesian.h, qdlib/WFLevel.h, qdlib/WaveFunction.cpp, qdng_info.cpp, simpleXml/qds2qdi.cpp, tests/ComplexNumbers.cpp, tests/ComplexNumbers.h, tests/FFTnTest.cpp, tests/FFTnTest.h, tests/FIFOTEst.cpp, tests/FIFOTEst.h, tests/FileSingleTest.cpp, tests/FileSingleTest.h, tests/FileWFTest.cpp, tests/FileWFTest.h, tests/GridSystem.cpp, tests/GridSystem.h, tests/LapackTest.cpp, tests/LapackTest.h, tests/MatrixTest.cpp, tests/MatrixTest.h, tests/MemoryTest.cpp, tests/MemoryTest.h, tests/MultElementsTest.cpp, tests/MultElementsTest.h, tests/OGSPOTest.cpp, tests/OGSPOTest.h, tests/OGridHOFDTest.cpp, tests/OGridHOFDTest.h, tests/OGridHarmonic.cpp, tests/OGridHarmonic.h, tests/OGridNablaSqTest.cpp, tests/OGridNablaSqTest.h, tests/OGridNablaTest.cpp, tests/OGridNablaTest.h, tests/OHermitianMatrixTest.cpp, tests/OHermitianMatrixTest.h, tests/OMatDipoleTest.cpp, tests/OMatDipoleTest.h, tests/ParamContainerTest.cpp, tests/ParamContainerTest.h, tests/PeakFinderTest.cpp, tests/PeakFinderTest.h, tests/QDClock.cpp, tests/QDClock.h, tests/TestCheby.cpp, tests/TestCheby.h, tests/TestGetopt.cpp, tests/TestGetopt.h, tests/TestLogger.cpp, tests/TestLogger.h, tests/TestMathFunctions.cpp, tests/TestMathFunctions.h, tests/TestStridedVector.cpp, tests/TestStridedVector.h, tests/TestViews.cpp, tests/TestViews.h, tests/ThreadTest.cpp, tests/ThreadTest.h, tests/TmpFileTest.cpp, tests/TmpFileTest.h, tests/Vector.cpp, tests/Vector.h, tests/WFBufferTest.cpp, tests/WFBufferTest.h, tests/WFGridCartesian.cpp, tests/WFGridCartesian.h, tests/WFGridCartesianTest.cpp, tests/WFGridCartesianTest.h, tests/WFGridHarmonic.cpp, tests/WFGridHarmonic.h, tests/WFGridSystemTest.cpp, tests/WFGridSystemTest.h, tests/WFLevelTest.cpp, tests/WFLevelTest.h, tests/WaveFunctionTest.cpp, tests/WaveFunctionTest.h, tests/dVecMinMax.cpp, tests/dVecMinMax.h, tests/defs.h, tests/function_gens.cpp, tests/function_gens.h, tests/main.cpp, tests/mpitest.cpp, tools/Exception.cpp, tools/Exception.h, tools/FIFO.h, tools/FileSingle.cpp, tools/FileSingleDefs.h, tools/GlobalParams.h, tools/PeakFinder.h, tools/QDGlobalClock.cpp, tools/QDGlobalClock.h, tools/SharedVar.h, tools/Thread.cpp, tools/Thread.h, tools/XmlNode.h, tools/XmlParser.h, tools/ZCopyStream.h, tools/fstools.h, tools/tnt_io.h.

{"id": "C01", "title": "Flattened index and (x,y,z) coordinates are inverse bijections", "statement": "For a grid with ny,nz >= 1, the index object built for point (x,y,z) with 0<=y<ny, 0<=z<nz, x>=0 reports exactly those x(), y(), z(); conversely an index is determined by its coordinates, so distinct in-range points never share storage.", "quantifier": "every ny, nz, every in-range point, every non-negative flat index", "why_tests_cant": "tests fix a handful of grid shapes; aliasing or transposition can appear only for particular ny/nz ratios", "anchors": ["include/bout/region.hxx:SpecificInd::x", "include/bout/region.hxx:SpecificInd::y", "include/bout/region.hxx:SpecificInd::z"]}
{"id": "C02", "title": "Index offsets move in exactly one direction, z is periodic", "statement": "i.xp(d)/xm(d) changes only x by +-d, i.yp(d)/ym(d) changes only y by +-d when the target stays in range, i.zp(d)/zm(d) keep x and y and move z by +-d modulo nz for every d>=0 (also d>=nz); zm(d) undoes zp(d) and vice versa; offset(dx,dy,dz) is the combined move.", "quantifier": "every grid shape, index and offset, including offsets larger than the period", "why_tests_cant": "wrap-around at dz=nz, dz>nz and multiples of nz is a boundary case for every nz", "anchors": ["include/bout/region.hxx:SpecificInd::xp", "include/bout/region.hxx:SpecificInd::yp", "include/bout/region.hxx:SpecificInd::zp", "include/bout/region.hxx:SpecificInd::zm", "include/bout/region.hxx:SpecificInd::offset"]}
{"id": "C03", "title": "A rectangular region holds exactly the points of its box, once, in row-major order", "statement": "Region(xs,xe,ys,ye,zs,ze,ny,nz) contains index i iff i is the index of a point with xs<=x<=xe, ys<=y<=ye, zs<=z<=ze; each appears once; order is strictly increasing for boxes inside the grid; an inverted range gives the empty region; the construction loop terminates and writes exactly the allocated length.", "quantifier": "every box (also empty/inverted), every grid shape", "why_tests_cant": "the loop is a hand-rolled three-level odometer; tests cover a few boxes", "anchors": ["include/bout/region.hxx:Region::createRegionIndices", "include/bout/region.hxx:Region::Region"]}
{"id": "C04", "title": "Blocked (BOUT_FOR) iteration visits exactly the region's index sequence", "statement": "For any index sequence and any maximum block size > 0, iterating the contiguous blocks of a region in order produces exactly the region's index sequence (same order, same multiplicity); every block is non-empty and no longer than the maximum; blocks may be split across threads without a point being missed or visited twice.", "quantifier": "every index sequence (unsorted, with duplicates), every maximum block size, every split of the block list among threads", "why_tests_cant": "the block splitting interacts with arbitrary index patterns and block sizes", "anchors": ["include/bout/region.hxx:Region::getContiguousBlocks", "include/bout/region.hxx:Region::getRegionIndices", "include/bout/region.hxx:BOUT_FOR_SERIAL"]}
{"id": "C05", "title": "Region set operations have set semantics and keep blocks and indices in step", "statement": "mask removes exactly the points of the mask, intersection keeps exactly the common points (both preserving order and duplicates of the rest), unique yields the strictly increasing list of the same points, sort the sorted permutation, + the concatenation; after any sequence of these operations iterating blocks still equals the index list.", "quantifier": "every region, every sequence of region operations", "why_tests_cant": "the invariant is over arbitrary operation histories", "anchors": ["include/bout/region.hxx:Region::mask", "include/bout/region.hxx:Region::getIntersection", "include/bout/region.hxx:Region::asUnique", "include/bout/region.hxx:Region::asSorted", "include/bout/region.hxx:operator+"]}
{"id": "C06", "title": "Shifting regions: offset and periodicShift", "statement": "offset(n) moves every point by n and offset(-n) undoes it, and the moved indices still report correct coordinates; periodicShift(s,p) rolls within each period: it is a permutation of every complete period, composes additively modulo p, and periodicShift(-s,p) undoes periodicShift(s,p) for |s|<=p.", "quantifier": "every region, shift, period", "why_tests_cant": "negative shifts recurse, integer remainder of negatives is implementation-sensitive, and regions constructed from index lists do not carry grid sizes", "anchors": ["include/bout/region.hxx:Region::offset", "include/bout/region.hxx:Region::periodicShift"]}
{"id": "C07", "title": "Array has value semantics after ensureUnique (copy on write)", "statement": "After a.ensureUnique(), a write through a never changes the contents seen through any other Array; contents of a are unchanged by ensureUnique; copies share until then; this holds after any history of construct, copy, assign, reallocate, write, clear, and store recycling.", "quantifier": "every history of Array operations over any number of Arrays", "why_tests_cant": "aliasing bugs depend on the whole history of copies and on which block the store hands out", "anchors": ["include/bout/array.hxx:Array::ensureUnique", "include/bout/array.hxx:Array::release", "include/bout/array.hxx:Array::get"]}
{"id": "C08", "title": "The Array memory store never recycles a block still in use and never returns the wrong size", "statement": "A block handed out by the store is referenced by no other live Array, has exactly the requested length, and every block in the store is unreferenced and stored once; disabling the store is irreversible and from then on no block is added to it.", "quantifier": "every history of allocations, releases, copies, cleanup and useStore calls", "why_tests_cant": "double-insertion or premature release requires particular interleavings of copies and releases", "anchors": ["include/bout/array.hxx:Array::get", "include/bout/array.hxx:Array::release", "include/bout/array.hxx:Array::useStore", "include/bout/array.hxx:Array::cleanup"]}
{"id": "C09", "title": "Options assignment: last value wins, silent conflicting reassignment is impossible", "statement": "After a successful assignment the option returns that value and source; re-assigning a different value from the same source throws and leaves the option unchanged; re-assigning from another source, or the same value, succeeds; force always succeeds on a value; assigning to a section with children throws.", "quantifier": "every options state and every assignment history", "why_tests_cant": "conflict detection depends on the history of sources and values", "anchors": ["include/bout/options.hxx:Options::_set", "include/bout/options.hxx:Options::_set_no_check", "include/bout/options.hxx:Options::assign", "include/bout/options.hxx:Options::force"]}
{"id": "C10", "title": "withDefault returns the user's value if set, else the default, and rejects inconsistent defaults", "statement": "withDefault(d) on an unset option returns d and records it with source 'default'; a later withDefault with the same d returns d again; with a different d it throws; if the user set a value it is returned regardless of the default; const withDefault never changes the tree.", "quantifier": "every options state, every sequence of withDefault/overrideDefault/set calls", "why_tests_cant": "order of defaults and overrides across the whole program", "anchors": ["include/bout/options.hxx:Options::withDefault", "include/bout/options.hxx:Options::overrideDefault"]}
{"id": "C11", "title": "Options paths: opts[\"a:b:c\"] is opts[\"a\"][\"b\"][\"c\"], and full names spell the path", "statement": "Indexing with a colon-separated path reaches the same node as successive indexing; indexing never changes any value already stored; each node's full name is the colon-joined path from the root.", "quantifier": "every path, every tree", "why_tests_cant": "recursion over arbitrary strings and tree shapes", "anchors": ["src/sys/options.cxx:Options::operator[]"]}
{"id": "C12", "title": "Unused-option checking is exact", "statement": "The unused report lists exactly the options that were set by the user (source not 'default'/'Output' per the exclusion list) and never read; a read option is never reported; an unread user option is always reported unless conditionally used.", "quantifier": "every options tree and access history", "why_tests_cant": "depends on the complete history of accesses in a run", "anchors": ["src/sys/options.cxx:Options::getUnused", "src/sys/options.cxx:bout::checkForUnusedOptions", "src/sys/options.cxx:Options::setConditionallyUsed"]}
{"id": "C13", "title": "INI input and command line set the option they name", "statement": "Reading an INI file assigns, in order, each key of each section to the option with path section:key (comments stripped, continuation brackets joined, bare keys set TRUE); a command-line argument section:key=value assigns value to option section:key with source 'Command line'; malformed lines are rejected rather than mis-assigned.", "quantifier": "every sequence of sections and entries; every command-line argument", "why_tests_cant": "string handling over arbitrary inputs", "anchors": ["src/sys/options/options_ini.cxx:OptionINI::read", "src/sys/options/options_ini.cxx:OptionINI::parse", "src/sys/optionsreader.cxx:OptionsReader::parseCommandLine"]}
{"id": "C14", "title": "Expression parsing respects precedence and associativity", "statement": "Parsing the (minimally or fully parenthesised) token sequence of an expression tree over numbers, identifiers, + - * / ^ and parentheses yields a generator denoting that tree, with ^ over * / over + -, all left-associative; the parser consumes exactly the expression; parsing any string terminates.", "quantifier": "every expression tree of any size and nesting", "why_tests_cant": "tests cover a finite list of expression strings", "anchors": ["src/sys/expressionparser.cxx:ExpressionParser::parseBinOpRHS", "src/sys/expressionparser.cxx:ExpressionParser::parsePrimary", "src/sys/expressionparser.cxx:ExpressionParser::parseExpression"]}
{"id": "C15", "title": "Expression unary minus and implicit multiplication mean what they say", "statement": "-e evaluates to the negation of e at the start of an expression and after an opening parenthesis; after a binary operator a unary minus should negate its operand (violated: 2*-3 and 2^-1 mis-evaluate); a number directly followed by an identifier or bracket multiplies.", "quantifier": "every expression and environment", "why_tests_cant": "failure only appears for particular operator contexts", "anchors": ["src/sys/expressionparser.cxx:ExpressionParser::parsePrimary", "src/sys/expressionparser.cxx:LexInfo::nextToken"]}
{"id": "C16", "title": "Processor numbering is a bijection between ranks and the NXPE x NYPE grid", "statement": "For every rank, PE_XIND,PE_YIND are in range and PROC_NUM gives the rank back; PROC_NUM of out-of-range processor coordinates is -1; distinct grid positions have distinct ranks.", "quantifier": "every NXPE,NYPE", "why_tests_cant": "only a few decompositions are ever run", "anchors": ["src/mesh/impls/bout/boutmesh.cxx:BoutMesh::PROC_NUM", "src/mesh/impls/bout/boutmesh.cxx:BoutMesh::XPROC", "src/mesh/impls/bout/boutmesh.cxx:BoutMesh::YPROC"]}
{"id": "C17", "title": "Domain decomposition partitions the grid; global and local indices are inverse", "statement": "With NXPE*NYPE processors and divisible sizes every interior global (x,y) cell is owned by exactly one processor and one local index; converting local->global->local and global->owner->local is the identity; XLOCAL/YLOCAL/XGLOBAL/YGLOBAL are mutually consistent.", "quantifier": "every grid size, processor count, guard width, index", "why_tests_cant": "depends on arithmetic over decompositions never run in CI", "anchors": ["src/mesh/impls/bout/boutmesh.cxx:BoutMesh::getGlobalXIndex", "src/mesh/impls/bout/boutmesh.cxx:BoutMesh::getGlobalYIndex", "src/mesh/impls/bout/boutmesh.cxx:BoutMesh::getLocalYIndex", "src/mesh/impls/bout/boutmesh.cxx:BoutMesh::setDerivedGridSizes"]}
{"id": "C18", "title": "Guard-cell messages pair up: every send has exactly one matching receive", "statement": "In a communication each message posted by a processor to a peer with a tag and length has exactly one matching receive on that peer with same tag and at least as great a length, and conversely every posted receive is matched, for every x/y topology with symmetric connections; so the wait loop terminates.", "quantifier": "every processor grid, every symmetric topology (core/private-flux splits at any x), every guard width", "why_tests_cant": "a mismatch deadlocks only on particular decompositions/topologies", "anchors": ["src/mesh/impls/bout/boutmesh.cxx:BoutMesh::send", "src/mesh/impls/bout/boutmesh.cxx:BoutMesh::post_receive", "src/mesh/impls/bout/boutmesh.cxx:BoutMesh::wait"]}
{"id": "C19", "title": "Y-topology connections are symmetric between processors", "statement": "After the topology is built, if processor p sends its upper guard data for x range R to processor q, q's corresponding (inner/outer) lower or upper destination for R is p; target plates connect to nobody; periodic core closes on itself; for single-null, double-null, limiter, and slab layouts.", "quantifier": "every valid jyseps/ixseps layout and decomposition", "why_tests_cant": "topologies x decompositions is a huge space; reversed connection with MYSUB==1 is such a hole", "anchors": ["src/mesh/impls/bout/boutmesh.cxx:BoutMesh::set_connection", "src/mesh/impls/bout/boutmesh.cxx:BoutMesh::add_target", "src/mesh/impls/bout/boutmesh.cxx:BoutMesh::topology", "src/mesh/impls/bout/boutmesh.cxx:BoutMesh::default_connections"]}
{"id": "C20", "title": "Packing and unpacking guard cells is lossless", "statement": "Unpacking a packed buffer with the same x/y ranges and variable shapes reproduces every value in place, touches no cell outside the ranges, and the number of values packed equals msg_len for these ranges and variables.", "quantifier": "every list of 2D/3D variables, every range", "why_tests_cant": "buffer layout must agree for any variable mix", "anchors": ["src/mesh/impls/bout/boutmesh.cxx:BoutMesh::pack_data", "src/mesh/impls/bout/boutmesh.cxx:BoutMesh::unpack_data", "src/mesh/impls/bout/boutmesh.cxx:BoutMesh::msg_len"]}
{"id": "C21", "title": "An accepted y decomposition never splits a processor across a branch cut", "statement": "If checkBoutMeshYDecomposition accepts NYPE, then every y region (inner leg, core halves, outer legs) contains a whole number of processors' subdomains, so no processor straddles a separatrix position; the processor-split search only returns divisors that pass the checks.", "quantifier": "every ny, NYPE, jyseps, guard width", "why_tests_cant": "arithmetic conditions over the full parameter space; a modulo-by-zero corner", "anchors": ["src/mesh/impls/bout/boutmesh.cxx:bout::checkBoutMeshYDecomposition", "src/mesh/impls/bout/boutmesh.cxx:BoutMesh::findProcessorSplit"]}
{"id": "C22", "title": "Parallel cyclic reduction solves the tridiagonal system it was given", "statement": "For any number of processors, each holding N>=2 rows, if the solve completes (no tiny pivot detected and final 2x2 nonsingular) the returned x satisfies every row of the assembled (optionally cyclic) tridiagonal system in exact arithmetic; adjacent rows on different processors are consistent.", "quantifier": "every system size, processor count, periodic or not, all coefficient values", "why_tests_cant": "correctness over all coefficients and processor counts", "anchors": ["include/bout/cyclic_reduction.hxx:CyclicReduce::reduce", "include/bout/cyclic_reduction.hxx:CyclicReduce::solve", "include/bout/cyclic_reduction.hxx:CyclicReduce::back_solve"]}
{"id": "C23", "title": "Cyclic reduction distributes the systems as a partition", "statement": "Each of the Nsys systems is solved by exactly one processor; the ranges computed by every processor agree; counts differ by at most one.", "quantifier": "every Nsys, nprocs", "why_tests_cant": "remainder handling for arbitrary counts", "anchors": ["include/bout/cyclic_reduction.hxx:CyclicReduce::solve"]}
{"id": "C24", "title": "Monitors fire exactly at the multiples of their period", "statement": "After initialisation, each monitor is called at internal step k iff k is a multiple of its period, in list order, with its own call count; all monitor timesteps are integer multiples of the internal step so a monitor with timestep T fires at times T,2T,...; a monitor whose timestep is not commensurate is rejected.", "quantifier": "every set of monitor timesteps added in any order, every run length", "why_tests_cant": "rescaling of periods depends on the order monitors were added", "anchors": ["src/solver/solver.cxx:Solver::adjustMonitorPeriods", "src/solver/solver.cxx:Solver::finaliseMonitorPeriods", "src/solver/solver.cxx:Solver::call_monitors"]}
{"id": "C25", "title": "State vector round trip: save_vars then load_vars is the identity", "statement": "The flattening of all evolving variables to the solver's state vector is a bijection with getLocalN() entries: loading what was saved restores each evolved point, each vector entry is used exactly once, and global indices agree with positions.", "quantifier": "every mesh size/boundary configuration, every mix of 2D/3D variables with and without evolving boundaries", "why_tests_cant": "layout must agree among four independently written loops", "anchors": ["src/solver/solver.cxx:Solver::loop_vars", "src/solver/solver.cxx:Solver::loop_vars_op", "src/solver/solver.cxx:Solver::getLocalN", "src/solver/solver.cxx:Solver::globalIndex"]}
{"id": "C26", "title": "RK4 reaches every output time exactly and is the classical 4th order scheme", "statement": "A fixed step run returns with time exactly equal to start + NOUT*output_step; each step computes the classical RK4 update, exact on polynomial right hand sides in t up to degree 3 and with linear amplification 1+z+z^2/2+z^3/6+z^4/24; the adaptive run never steps beyond the output time and accepts only steps with error below tolerance.", "quantifier": "every initial state, right-hand side, step size and number of outputs", "why_tests_cant": "floating tests compare tolerances on one problem", "anchors": ["src/solver/impls/rk4/rk4.cxx:RK4Solver::run", "src/solver/impls/rk4/rk4.cxx:RK4Solver::take_step"]}
{"id": "C27", "title": "Embedded Runge-Kutta tableaux are consistent", "statement": "The RKF45 / Cash-Karp / RKF34 tableaux used by the generic scheme satisfy the row-sum condition and the order conditions of the stated orders, and the generic stage evaluation computes the Butcher update, so polynomial quadratures up to the order are exact.", "quantifier": "every right hand side, state and step size", "why_tests_cant": "a typo in one coefficient lowers order only", "anchors": ["src/solver/impls/rkgeneric/rkscheme.cxx", "src/solver/impls/rkgeneric/impls/rkf45/rkf45.cxx", "src/solver/impls/rkgeneric/impls/cashkarp/cashkarp.cxx"]}
{"id": "C28", "title": "Flux limiters are TVD-safe and symmetric", "statement": "Upwind/Fromm/MinMod/MC cell-edge reconstructions: reconstruct constants exactly, linear profiles exactly (where claimed), and for limited schemes edge values lie between neighbouring cell values (no new extrema) and are odd/mirror symmetric.", "quantifier": "every triple of cell values", "why_tests_cant": "inequality over all reals", "anchors": ["include/bout/fv_ops.hxx:FV::MinMod", "include/bout/fv_ops.hxx:FV::MC", "include/bout/fv_ops.hxx:FV::Fromm"]}
{"id": "C29", "title": "Finite-volume operators conserve", "statement": "The volume-weighted sum over the domain of a finite-volume divergence equals the net flux through the domain boundary: interior faces cancel exactly, across processor boundaries too.", "quantifier": "every field, velocity, metric and limiter choice", "why_tests_cant": "conservation is a universally quantified identity", "anchors": ["include/bout/fv_ops.hxx:FV::Div_par", "src/mesh/fv_ops.cxx:FV::Div_a_Grad_perp"]}
{"id": "C30", "title": "Derivative stencils are exact on polynomials of their order", "statement": "Each registered derivative stencil differentiates polynomials up to its formal degree exactly (C2/C4 first, second, fourth derivative, staggered versions), annihilates constants, is antisymmetric/symmetric as appropriate; upwind operators agree with v*derivative for smooth data and pick the correct side.", "quantifier": "every polynomial, position, spacing", "why_tests_cant": "stencil order is an algebraic identity for all coefficients", "anchors": ["src/mesh/index_derivs.cxx", "include/bout/index_derivs_interface.hxx"]}
{"id": "C31", "title": "Boundary conditions impose what they name", "statement": "After applying Dirichlet(v) the interpolated value at the boundary face is v; Neumann(g) gives the boundary derivative g; higher order versions do so with their formal order; every guard cell in the boundary width is set and interior cells are unchanged.", "quantifier": "every field, boundary value, direction, and width", "why_tests_cant": "all stagger and direction combinations with all values", "anchors": ["src/mesh/boundary_standard.cxx"]}
{"id": "C32", "title": "Metric inversion: contravariant and covariant metrics are inverse, vectors round-trip", "statement": "calcCovariant/calcContravariant produce the matrix inverse, invert3x3 reports failure exactly for (near) singular input, toCovariant and toContravariant round trip any vector, dot product agrees in both representations, and cross product is orthogonal to its operands with the right magnitude; the connection terms are the Christoffel symbols of the metric (violated for G2_22 when g23 varies in y), V_dot_Grad is independent of the operand's representation, Curl(Grad f) = 0, Div(Curl v) = 0 and Laplace f = Div(Grad f) for derivative operators that commute and obey the product rule.", "quantifier": "every nonsingular symmetric metric, every vector", "why_tests_cant": "algebraic identities over all values", "anchors": ["src/mesh/coordinates.cxx:Coordinates::calcCovariant", "include/bout/utils.hxx:invert3x3", "src/field/vector3d.cxx:Vector3D::toCovariant"]}
{"id": "C33", "title": "The message stack behaves as a stack", "statement": "push/pop sequences behave as a stack with pop(id) truncating; the dump lists exactly the live non-empty messages, most recent first; nested scoped trackers always restore the depth.", "quantifier": "every sequence of push, pop, pop(id), clear", "why_tests_cant": "invariant over histories", "anchors": ["src/sys/msg_stack.cxx:MsgStack"]}
{"id": "C34", "title": "RangeIterator enumerates exactly its ranges", "statement": "Iterating a RangeIterator visits exactly the union of its (ordered) ranges in order and isDone iff exhausted; intersects(i) iff i in range; adding ranges yields the concatenation; subtracting removes exactly the points (violated for total overlap).", "quantifier": "every list of ranges (including empty ones), every operand", "why_tests_cant": "histories of additions and subtractions", "anchors": ["src/sys/range.cxx:RangeIterator"]}
{"id": "C35", "title": "Matrix and Tensor element access is injective", "statement": "Distinct in-range index tuples address distinct in-range storage cells; a write is seen by that tuple only; reallocate gives exactly the product of dimensions; copies are independent.", "quantifier": "every shape and index tuple", "why_tests_cant": "all shapes", "anchors": ["include/bout/utils.hxx:Matrix", "include/bout/utils.hxx:Tensor"]}
{"id": "C36", "title": "String utilities", "statement": "Joining the pieces returned by strsplit with the delimiter gives back the string up to one trailing delimiter, and no piece contains the delimiter; trim removes exactly leading/trailing separators and is idempotent; trimComments keeps exactly the prefix before the first comment character; lowercasequote leaves quoted text intact.", "quantifier": "every string", "why_tests_cant": "all strings", "anchors": ["src/sys/utils.cxx"]}
{"id": "C37", "title": "editDistance is the optimal-string-alignment distance", "statement": "The value computed by the dynamic programme equals the recursively specified optimal string alignment distance; zero iff equal; symmetric.", "quantifier": "every pair of strings", "why_tests_cant": "all pairs", "anchors": ["src/sys/utils.cxx:editDistance"]}
{"id": "C38", "title": "Factory registration and lookup", "statement": "After any history of add/remove, create(name) runs the creator of the first add since the name was last absent, throws the recorded reason for names declared unavailable and throws for unknown names; add of an existing name does not replace and returns false; remove makes the name absent; listAvailable is exactly the registered names; registering distinct names in any order gives the same factory; the type option (or else the default, which is recorded) selects the type.", "quantifier": "every history", "why_tests_cant": "histories, static-initialisation order", "anchors": ["include/bout/generic_factory.hxx"]}
{"id": "C39", "title": "Global indexer numbers every unknown once", "statement": "Global PETSc indices assigned over all processors are a bijection onto [0,N) and guard cells carry the owner's number after communication.", "quantifier": "every region layout, number of processors", "why_tests_cant": "distributed numbering", "anchors": ["include/bout/globalindexer.hxx"]}
{"id": "C40", "title": "Message-buffer handle reuse", "statement": "A communication handle taken from the pool is never in use by another outstanding communication and has buffers at least as long as required.", "quantifier": "every interleaving of get and free", "why_tests_cant": "histories", "anchors": ["src/mesh/impls/bout/boutmesh.cxx:BoutMesh::get_handle", "src/mesh/impls/bout/boutmesh.cxx:BoutMesh::free_handle"]}
{"id": "C41", "title": "Expression sums, scopes and selection functions", "statement": "sum(i,n,e) is the sum of e over {i}=0..n-1 and rejects negative or non-integer counts; [a=e1,b=e2](e) evaluates e with each name bound to its definition's value in the outer scope (simultaneously); min/max/clamp/where return what they say for any number of arguments.", "quantifier": "every expression, context and argument list", "why_tests_cant": "values range over all expressions and contexts", "anchors": ["src/sys/expressionparser.cxx:FieldSum", "src/sys/expressionparser.cxx:FieldContext", "src/field/fieldgenerators.hxx:FieldMin"]}
{"id": "C42", "title": "communicate fills guard cells with the field-line neighbours' values", "statement": "After Mesh::communicate (send + wait) every Y guard cell of every communicated field holds the value of the cell that follows along the field line (on whichever rank), Z-shifted once iff the field is field-aligned and the step crosses the branch cut; every X guard cell holds the neighbouring column; guard cells with no neighbour and all other cells are unchanged - for every order in which messages arrive and are unpacked. Quantified over accepted layouts with at least two rows per rank or no private-flux region, all poloidal regions non-empty, no field listed twice (outside there are proved violations).", "quantifier": "every layout, rank, field list, cell, arrival and unpack order, blocking or non-blocking sends", "why_tests_cant": "depends on the processor layout, topology and message timing", "anchors": ["src/mesh/impls/bout/boutmesh.cxx:BoutMesh::sendX", "src/mesh/impls/bout/boutmesh.cxx:BoutMesh::sendY", "src/mesh/impls/bout/boutmesh.cxx:BoutMesh::wait"]}
{"id": "C43", "title": "Guard-cell communication cannot deadlock", "statement": "When all ranks make the same sequence of communicate calls, in every interleaving of ranks and message deliveries the system can always take a step until every rank has finished, and every maximal run is finite and ends with every rank finished.", "quantifier": "every symmetric network, every program of communications, every interleaving, blocking (rendezvous or eager) or non-blocking sends", "why_tests_cant": "schedules", "anchors": ["src/mesh/impls/bout/boutmesh.cxx:BoutMesh::sendX", "src/mesh/impls/bout/boutmesh.cxx:BoutMesh::sendY", "src/mesh/impls/bout/boutmesh.cxx:BoutMesh::wait"]}
{"id": "C44", "title": "Boundary regions are exactly the guard cells communication does not fill", "statement": "In a rank's own columns an upper/lower guard cell belongs to a Y boundary region iff the field line ends on a target there; X guard cells of interior rows belong to an X boundary region iff the rank is at the edge of a non-periodic X, labelled core/pf/sol correctly; looping over a region visits each of its cells exactly once.", "quantifier": "every accepted layout, rank, cell", "why_tests_cant": "depends on layout and topology", "anchors": ["src/mesh/impls/bout/boutmesh.cxx:BoutMesh::createXBoundaries", "src/mesh/impls/bout/boutmesh.cxx:BoutMesh::createYBoundaries", "src/mesh/boundary_region.cxx"]}
{"id": "C45", "title": "Named mesh regions contain exactly the points they promise", "statement": "RGN_ALL, RGN_NOBNDRY, RGN_NOX/NOY/NOZ, RGN_GUARDS, RGN_XGUARDS/YGUARDS/ZGUARDS, RGN_NOCORNERS, RGN_LOWER/UPPER(_INNER/_OUTER)_Y, RGN_INNER_X/OUTER_X(_THIN), RGN_BNDRY and RGN_WITH_*BNDRIES, in 3D, 2D and perpendicular form, contain each promised point exactly once in increasing order and nothing else; converting an index between 2D, 3D and perpendicular form keeps its coordinates.", "quantifier": "every local mesh size, number of guard cells, place of the rank in the processor grid and topology", "why_tests_cant": "all sizes and places of ranks", "anchors": ["src/mesh/mesh.cxx:Mesh::createDefaultRegions", "src/mesh/impls/bout/boutmesh.cxx:BoutMesh::addBoundaryRegions", "include/bout/mesh.hxx:Mesh::ind3Dto2D"]}
{"id": "C46", "title": "The Arakawa bracket is the documented discrete Poisson bracket and conserves", "statement": "bracket(f, g, BRACKET_ARAKAWA) sets every interior point of an X-Z plane, across the periodic seam in Z, to the average of the three second-order Jacobian forms, and nothing else; BRACKET_ARAKAWA_OLD gives the same; a Field2D argument acts as a field constant in Z; the bracket is antisymmetric, vanishes against a constant, is exact on a quadratic and an affine function, and, on any grid spacing and any number of X processors, the integrals over the domain of the bracket, of f times it and of g times it are zero when X is periodic or f is constant along the walls.", "quantifier": "every mesh size (at least two Z points), every pair of fields, every number of X processors", "why_tests_cant": "all fields and all mesh and processor sizes; the conservation laws are global sums over all ranks", "anchors": ["src/mesh/difops.cxx:bracket"]}
{"id": "C47", "title": "Options written to a file read back as the same options", "statement": "Writing a tree of options to an INI file and reading that file into an empty tree succeeds and yields values at exactly the same paths (sections nested to any depth), each with the text of the value written, so that every typed read that succeeded on the original gives the same value; the comments added by the writer (unused mark, type, documentation, source) do not change what is read.", "quantifier": "every tree any history of calls can build from plain names and values", "why_tests_cant": "all trees, names, values", "anchors": ["src/sys/options/options_ini.cxx:OptionINI::write", "src/sys/options.cxx:OptionsFormatterBase::format", "src/sys/options/options_ini.cxx:OptionINI::read", "include/bout/utils.hxx:toString"]}
{"id": "C48", "title": "A field read from a grid file holds at each local point the value stored for the same global point", "statement": "Mesh::get of a 2-D or 3-D field from a grid file: if the call returns, every local point holds a value from the file: the column is the point's global X index; with Y boundary rows in the file (g at each target, 2g extra in front of ny_inner in a double null) an interior point of global row J holds the file row of J and guard rows hold the adjacent file rows; without boundary rows interior rows are exact and guard rows repeat the nearest interior row. Two ranks holding the same point agree. A file whose sizes match the mesh is always read without exception or out-of-range access. Fourier-stored data delivers mode i*zperiod as coefficient i. Scalars fill the field, files without X guards, with more guards, with 2-D data for a 3-D field or FieldPerp data are read as documented.", "quantifier": "every mesh layout and rank, every file size and guard width, every content, checked and unchecked builds", "why_tests_cant": "offset arithmetic depends on rank, guard widths, topology and file layout together; tests use one or two layouts on one rank", "anchors": ["src/mesh/data/gridfromfile.cxx:GridFile::getField", "src/mesh/data/gridfromfile.cxx:GridFile::readField", "src/mesh/data/gridfromfile.cxx:GridFile::readgrid_3dvar_real", "src/mesh/data/gridfromfile.cxx:GridFile::readgrid_3dvar_fft", "src/mesh/impls/bout/boutmesh.cxx:BoutMesh::setYDecompositionIndices"]}
{"id": "C49", "title": "Interpolation reproduces polynomials of its order, respects its bounds and stays inside the grid", "statement": "Interpolating a field to positions (delta_x, delta_z): bilinear reproduces bilinear functions and never leaves the range of the four surrounding values; four-point Lagrange reproduces bicubics; Hermite splines reproduce bicubics given exact derivatives and biquadratics with the derivatives they compute themselves, and outside [xstart, xend] use the nearest interior column; the monotonic variant stays within the range of the corner values and equals the Hermite value when that is in range; the weights offered for matrix assembly give the same number as the spline; Z is periodic for every real position; interpolation between centres and faces reproduces cubics and round-trips them; interpolation of a Field2D by a displacement gives the value at the displaced point. No position between the first and last column makes the routine read outside the grid.", "quantifier": "every real position, every grid size, every field, every polynomial of the stated degree", "why_tests_cant": "wrap-around, corner selection and clamping depend on the real-valued position; tests sample a few positions of smooth functions", "anchors": ["src/mesh/interpolation/bilinear_xz.cxx:XZBilinear::interpolate", "src/mesh/interpolation/lagrange_4pt_xz.cxx:XZLagrange4pt::interpolate", "src/mesh/interpolation/hermite_spline_xz.cxx:XZHermiteSpline::interpolate", "src/mesh/interpolation/hermite_spline_xz.cxx:XZHermiteSpline::getWeightsForYApproximation", "src/mesh/interpolation/monotonic_hermite_spline_xz.cxx:XZMonotonicHermiteSpline::interpolate", "src/mesh/interpolation/hermite_spline_z.cxx:ZHermiteSpline::interpolate", "src/mesh/interpolation_xz.cxx:interpolate", "include/bout/interpolation.hxx:interp_to"]}
{"id": "C50", "title": "Field arithmetic has value semantics although storage is shared", "statement": "Whatever sequence of declarations, assignments, binary operators, in-place operators, allocate-then-write element updates and parallel-slice operations a program performs on fields, every field ends up with exactly the values it would have if each field held its own copy of its elements: changing one field never changes another field or a slice, in-place and ordinary operators agree, and whether data happens to be shared has no effect. Comparing two fields with == is true exactly when they agree at every point.", "quantifier": "every program over fields (any number of fields, steps and points), every element type and operator, every initial contents of memory", "why_tests_cant": "copy-on-write depends on reference counts produced by the whole history of assignments; a test exercises a handful of sharing patterns", "anchors": ["src/field/field3d.cxx:Field3D::allocate", "src/field/field3d.cxx:Field3D::operator=", "src/field/field3d.cxx:Field3D::clearParallelSlices", "src/field/generated_fieldops.cxx:operator+", "src/field/generated_fieldops.cxx:Field3D::operator+=", "src/mesh/parallel/identity.cxx:ParallelTransformIdentity::calcParallelSlices", "src/field/field3d.cxx:operator=="]}
{"id": "C51", "title": "Reductions, averages and smoothing give decomposition-independent, bounded results", "statement": "min, max and mean over a region with allpe are the minimum, maximum and arithmetic mean over all cells of all ranks, identical on every rank and independent of how cells are divided between ranks and threads; without allpe they are those of the calling rank. isUniform(f, true) is true exactly when the field has one value on all ranks. averageX, averageY, Average_XY and Vol_Integral are the mean over the line, the mean over the domain and the integral 2 pi sum J f dx dy. The 1-2-1 and smoothXY filters preserve linear profiles, damp the grid-scale mode and stay within the range of the data; nl_filter conserves the sum, leaves profiles without extrema unchanged and, for weights in [0,1], never leaves the range of its input.", "quantifier": "every number of ranks and threads, every distribution of cells, every field, every weight", "why_tests_cant": "results must not depend on the processor count or thread schedule; tests run on one rank", "anchors": ["include/bout/field.hxx:min", "include/bout/field.hxx:max", "include/bout/field.hxx:mean", "include/bout/field.hxx:isUniform", "include/bout/field.hxx:getUniform", "src/physics/smoothing.cxx:averageX", "src/physics/smoothing.cxx:averageY", "src/physics/smoothing.cxx:Average_XY", "src/physics/smoothing.cxx:Vol_Integral", "src/physics/smoothing.cxx:smooth_x", "src/physics/smoothing.cxx:smoothXY", "src/physics/smoothing.cxx:nl_filter", "src/field/field3d.cxx:DC"]}
{"id": "C52", "title": "X and Y communicators follow flux surfaces", "statement": "On every rank of every legal decomposition (single or double null, balanced or not) the mesh creates its communicators without error. getXcomm is the rank's row of processors in X order. getYcomm(jx) consists of exactly the ranks at this X position that share a field line with this rank at that radial position, each once, ordered along the field: the last row of each member is followed by the first row of the next. All members hold the same communicator. The collective calls that create them match on all ranks, so no schedule deadlocks. SurfaceIter::firstY and lastY are true exactly where the field line ends on a target. ySize(jx) is the number of rows of the surface.", "quantifier": "every legal layout of separatrices and processors, every rank, every radial index", "why_tests_cant": "the number of topologies times decompositions is unbounded and a wrong group only deadlocks or gives wrong flux-surface averages on many processors", "anchors": ["src/mesh/impls/bout/boutmesh.cxx:createCommunicators", "src/mesh/impls/bout/boutmesh.cxx:getYcomm", "src/mesh/impls/bout/boutmesh.cxx:firstY", "src/mesh/impls/bout/boutmesh.cxx:lastY", "src/mesh/impls/bout/boutmesh.cxx:ySize", "src/mesh/mesh.cxx:ySize", "src/mesh/surfaceiter.cxx:firstY", "src/mesh/surfaceiter.cxx:lastY"]}
{"id": "C53", "title": "Fourier operations in Z mean what they say", "statement": "A row of n points in Z is a sum of waves of wave number below n/2 plus, for even n, a sawtooth. rfft returns the amplitudes and irfft rebuilds the row, for every n. shiftZ by an angle, toFieldAligned, fromFieldAligned and the parallel slices of ShiftedMetric evaluate those waves at the shifted position; shifting by whole cells is a cyclic move of the values; the mean is preserved; going to field-aligned coordinates and back is the identity, and a slice equals the neighbour in aligned coordinates. filter and lowPass keep exactly the named wave numbers. The FFT derivative methods return the exact derivatives of the waves, up to the configured cut. DST and DST_rev are inverse on interior points.", "quantifier": "every number of points in Z, every row, angle, zShift field, filter setting and wave number", "why_tests_cant": "tests sample a few lengths and smooth signals; the identities are for every signal, and fail only on particular components", "anchors": ["src/invert/fft_fftw.cxx:rfft", "src/invert/fft_fftw.cxx:irfft", "src/invert/fft_fftw.cxx:DST", "src/invert/fft_fftw.cxx:DST_rev", "src/mesh/parallel/shiftedmetric.cxx:shiftZ", "src/mesh/parallel/shiftedmetric.cxx:cachePhases", "src/mesh/parallel/shiftedmetric.cxx:calcParallelSlices", "src/field/field3d.cxx:filter", "src/field/field3d.cxx:lowPass", "src/field/field3d.cxx:shiftZ", "src/mesh/index_derivs.cxx:FFTDerivativeType", "src/mesh/index_derivs.cxx:FFT2ndDerivativeType"]}
{"id": "C54", "title": "Laplacian inversion solves the equation it states", "statement": "Delp2 of a field is the perpendicular Laplacian of the waves through its rows, with central differences in X. A solve by the cyclic-reduction Laplacian that returns gives a field which, at every point off the X boundaries and across processors, satisfies D Delp2(x) + (1/C1) Grad_perp(C2).Grad_perp(x) + A x = rhs for the wave numbers up to maxmode; Delp2 of the solution of Delp2(x) = rhs is rhs. At the boundaries it satisfies the condition selected by the flags: value, zero gradient, prescribed gradient, decay, cylinder axis. In periodic X the waves satisfy the equation everywhere, the mean has zero average. Helmholtz-type problems (A < 0) are always solved.", "quantifier": "every number of processors in X, every order of message arrival, all metric and coefficient fields, flags, right-hand sides, number of modes", "why_tests_cant": "tests invert a few smooth fields on one or two processors; the equation has to hold for every field, processor count and flag combination", "anchors": ["src/invert/laplace/invert_laplace.cxx:tridagCoefs", "src/invert/laplace/invert_laplace.cxx:tridagMatrix", "src/invert/laplace/impls/cyclic/cyclic_laplace.cxx:solve", "src/mesh/coordinates.cxx:Delp2", "include/bout/cyclic_reduction.hxx:solve"]}
{"id": "C55", "title": "Inversion of parallel derivatives solves the equation it states", "statement": "A solve by InvertParCR that returns gives a field which, at every point off the targets and across the processors of a flux surface, satisfies A x + B Grad2_par2(x) + C D2DYDZ(x) + D D2DZ2(x) + E DDY(x) = rhs; across the branch cut of a closed surface the neighbouring row is the one at the other end, moved by the twist-shift angle. InvertParDivCR likewise satisfies A x + Div_par(B Grad_par x) = rhs with the divergence of Div_par_K_Grad_par. At the targets of an open surface all guard cells have zero gradient. Every row is solved for exactly once. Problems with A > 0 and B <= 0 are always solved, with any number of guard cells.", "quantifier": "every number of processors in Y, every order of message arrival, open and closed surfaces, any twist-shift angle, number of guard cells, cell centre or lower Y face, all metric and coefficient fields and right-hand sides", "why_tests_cant": "tests invert a few fields on one processor and check the result to a tolerance; the equation must hold for every decomposition, twist and field", "anchors": ["src/invert/parderiv/impls/cyclic/cyclic.cxx:InvertParCR::solve", "src/invert/pardiv/impls/cyclic/pardiv_cyclic.cxx:InvertParDivCR::solve", "include/bout/invert_parderiv.hxx:InvertPar", "include/bout/invert_pardiv.hxx:InvertParDiv", "src/mesh/surfaceiter.cxx:SurfaceIter"]}
{"id": "C56", "title": "Parallel and drift operators mean the vector operations they name", "statement": "Grad_par(f) is the component of Grad(f) along the unit vector of the y coordinate line, Vpar_Grad_par the velocity times it, Div_par(f) the divergence of f times that unit vector, Grad2_par2 is Grad_par applied twice, Laplace_par is the parallel divergence of the parallel gradient, Laplace_perp the divergence of Grad_perp, Div_par_K_Grad_par the divergence of the diffusive flux K b (b.Grad f), b0xGrad_dot_Grad(phi, A) is (b x Grad phi).Grad A in all four overloads and with IncIntShear set or not, DDZ of a vector is its covariant derivative along z, Div_par(f, v) on cell faces conserves, and Grad_parP is the derivative along the perturbed field line computed from assigned values only.", "quantifier": "every metric (smooth, invertible, g_22 > 0, and J B = sqrt(g_22) where B enters), every field of a class closed under the exact derivatives, every point; every line length and slice-consistent field for the face fluxes; every grid size and affine field for Grad_parP", "why_tests_cant": "the identities are between operators, for all metrics and fields; tests compare a few analytic fields on one or two metrics with tolerances, usually slab-like ones where the wrong terms vanish", "anchors": ["src/mesh/coordinates.cxx: Coordinates::Grad_par, Div_par, Grad2_par2, Vpar_Grad_par, Laplace_par, invSg, Grad2_par2_DDY_invSg", "src/mesh/difops.cxx: Div_par_K_Grad_par, Div_par(f,v), Laplace_perp, b0xGrad_dot_Grad, Grad_parP", "src/sys/derivs.cxx: DDZ(Vector3D), DDZ(Vector2D)"]}
{"id": "C57", "title": "Single-index operators compute the field operators", "statement": "Each operator of single_index_ops.hxx (DDX, DDY, DDZ, D2DY2, Delp2, Grad_par, Div_par, Div_par_Grad_par, b0xGrad_dot_Grad, bracket), evaluated through field accessors at the integer index of an interior point, returns the value the corresponding field operator (second-order schemes, non-uniform correction on) stores at that point; the index helpers move exactly one point in the named direction, periodic in z, and agree with Ind3D; an accessor reads the current coordinates when it is the first for its Coordinates object or the first after clear().", "quantifier": "every local grid size, every interior point, every field and slice content, every metric (2D metrics), every content of a fresh stripe array, every store of earlier accessors", "why_tests_cant": "unit tests compare the two forms on one grid with one field; index arithmetic errors show only at particular points (z edges), and stale coordinates only after particular histories", "anchors": ["include/bout/single_index_ops.hxx: i_xp.. i_zm, bracket, DDX, DDY, DDZ, Delp2, Div_par_Grad_par, b0xGrad_dot_Grad, D2DY2, Grad_par, Div_par", "include/bout/field_accessor.hxx: FieldAccessor", "include/bout/coordinates_accessor.hxx: CoordinatesAccessor", "src/mesh/coordinates_accessor.cxx"]}
{"id": "C58", "title": "The pipelined and the serial tridiagonal Laplacian solvers solve the same equations", "statement": "If LaplaceSPT (the forward and backward sweeps passed from processor to processor) or LaplaceSerialTri returns, the values it returns on the domain and the boundary cells satisfy, row by row, the tridiagonal equations tridagMatrix assembles, so everything promised for LaplaceCyclic (interior equations, boundary conditions, Fourier truncation) holds for them too, and on non-singular problems the three solvers return the same numbers. A slice is finished after a fixed number of calls, the solution does not depend on old contents of the work arrays, the solvers succeed on diagonally dominant problems, the cyclic tridiagonal routine solves the periodic system, every message sent is received by the processor it was meant for, and no schedule of calls, however slices are interleaved, deadlocks.", "quantifier": "every number of processors, local size, matrix, right-hand side, boundary flag, content of the work arrays; every interleaving of calls for any number of slices and every relative progress of the processors", "why_tests_cant": "tests run a handful of grids on one to four processors with one metric; agreement of three algorithms for all inputs and absence of deadlock for all schedules are universal statements", "anchors": ["src/invert/laplace/impls/spt/spt.cxx: LaplaceSPT::solve, start, next, finish, tridagForward, tridagBack", "src/invert/laplace/impls/serial_tri/serial_tri.cxx: LaplaceSerialTri::solve", "src/invert/lapack_routines.cxx: tridag, cyclic_tridag", "src/invert/laplace/invert_laplace.cxx: Laplacian::tridagMatrix"]}
{"id": "C59", "title": "The Adams-Bashforth solver takes steps of the order it says and lands on the output times", "statement": "Every run of the Adams-Bashforth solver calls the monitors exactly at the output times with the state of a march of steps from the initial data; each step is an Adams-Bashforth step of its recorded order for the actual, possibly uneven, earlier times (full step, or two half steps when the more accurate solution is followed), is positive and at most max_timestep, uses only right-hand sides of earlier accepted states, and has an error estimate below the tolerance in adaptive mode, also when the order is lowered. The order never exceeds the requested one or the number of states known; without order control it rises by one per step. A step of order k is exact for problems whose solution is a polynomial of degree at most k. The history is never read out of range, and the loop ends (or reports mxstep).", "quantifier": "every right-hand side, system size, option set, output interval, sequence of accepted and rejected steps, monitor behaviour; every spacing of times and every polynomial", "why_tests_cant": "the weights depend on the spacing of all earlier steps, which adaptivity makes arbitrary; tests run one problem and look at its convergence", "anchors": ["src/solver/impls/adams_bashforth/adams_bashforth.cxx: AdamsBashforthSolver::run, take_step, get_adams_bashforth_coefficients, integrate_lagrange_curve, get_timestep_limit, get_error"]}
{"id": "C60", "title": "The split Runge-Kutta solver: order, stability and output times", "statement": "The split-RK solver advances the diffusive part with the Runge-Kutta-Legendre method with the requested number of stages and the convective part with the third-order SSP Runge-Kutta method, in symmetric (Strang) order. For every number of stages s >= 2 the diffusion step has order two and, for a symmetric negative semi-definite linear operator whose spectrum times the step lies in [-(s^2+s-2)/2, 0], does not increase the norm of any state; the combined step has order two also for operators that do not commute. The monitors are called exactly at the output times until the end or a monitor asks to stop; the state they get comes from steps following each other in time, each over exactly the interval by which the time advances; in adaptive mode each step has an error estimate below the tolerance; the loop ends or reports mxstep.", "quantifier": "every number of stages, system size, right-hand sides (linear and not), step size, option set, output interval and monitor behaviour", "why_tests_cant": "order and the stability interval are statements about all stage numbers, operators and states; tests run one problem with one set of options", "anchors": ["src/solver/impls/split-rk/split-rk.cxx: SplitRK::init, run, take_step, take_diffusion_step, take_advection_step"]}
{"id": "C61", "title": "The IMEX-BDF solver: weights, history and output times", "statement": "At every order from one to four the IMEX-BDF solver combines the last states and explicit right-hand sides with the weights of the variable-step BDF formula for the times at which these states were accepted: the implicit step is exact for every solution polynomial of degree at most the order, for every sequence of positive step sizes, and these weights are the only ones with that property. Each accepted state solves the implicit equation for weights belonging to the steps really taken, also after a failed solve, a rejected step or a change of order. The monitors are called at the output times, with states of that history, until the end or a monitor asks to stop; the run ends or reports an error.", "quantifier": "every order, step history, right-hand side, nonlinear solver behaviour (including failures), error estimate, option set, output interval and monitor behaviour", "why_tests_cant": "the step history depends on failures and error estimates; tests run one problem at one order with fixed steps", "anchors": ["src/solver/impls/imex-bdf2/imex-bdf2.cxx: IMEXBDF2::run, take_step, calculateCoeffs, shuffleState, solve_implicit"]}
{"id": "C62", "title": "Boundary condition strings and the choice of the setting", "statement": "A boundary condition written in the documented syntax - a name, a name with arguments, or a modifier around another condition, with any white space and any bracketed expressions as arguments - creates exactly that condition with exactly those arguments; nothing else can be read from the text, and only registered conditions are ever created. Parsing always ends. The setting used for a region is the first that exists of: the region's label, its side, and 'all' in the section of the variable, then the same three in the section 'all', then the default. Adding a condition to the factory changes no other one.", "quantifier": "every text, nesting depth, white space, argument list, set of registered conditions and modifiers, variable, region and set of options", "why_tests_cant": "input texts and option combinations are unbounded; the tests parse a handful of strings", "anchors": ["src/mesh/boundary_factory.cxx: BoundaryFactory::create, createFromOptions, add, addMod, BoundaryFactory", "src/field/field_data.cxx: markBoundariesAsConditionallyUsed"]}
{"id": "C63", "title": "Boundary modifiers, application and ownership of boundary conditions", "statement": "Applying the boundary conditions of a field applies each of them in order on its own region and width and leaves the width of the region, which other variables share, unchanged, whatever modifiers are nested. relax drives the time derivative towards the inner condition at the given rate and touches neither the field nor cells outside the region; width applies the inner condition on the given width; the field-aligned modifiers transform, apply and transform back. A condition given as text is applied on every region, or on the region named. Fields may be created, copied, moved, assigned and destroyed in any order: conditions are neither deleted twice nor used after their deletion nor leaked.", "quantifier": "every nesting of modifiers, base condition, region, width, rate, field, time, list of conditions, and every program of field creations, copies, moves, assignments, destructions and boundary calls", "why_tests_cant": "nestings and object histories are unbounded; the tests apply single modifiers to one field", "anchors": ["src/mesh/boundary_standard.cxx: BoundaryRelax, BoundaryWidth, BoundaryToFieldAligned, BoundaryFromFieldAligned", "src/field/field3d.cxx: applyBoundary, applyTDerivBoundary, applyParallelBoundary", "src/field/field2d.cxx: applyBoundary", "src/field/field_data.cxx: FieldData, ~FieldData, setBoundary, copyBoundary, swap", "src/solver/solver.cxx: pre_rhs, post_rhs"]}
{"id": "C64", "title": "Restarting continues where the last output was", "statement": "A run may be stopped by its end, a monitor, a signal or a crash between any two file writes, and be restarted any number of times. Unless the crash falls into the writing of the restart file itself, the restarted run reads the time, the run id and all evolving variables of one and the same moment, the last one written, and a variable that the file does not have keeps its initial value. With an integrator that needs nothing but the state, a chain of restarted, appending runs leaves in the output file exactly the records of the uninterrupted run, none missing and none twice, and the consistency check after every output succeeds.", "quantifier": "every number of runs and outputs, every crash point between two writes, every set of evolving variables, state history, integrator, previous file contents and output variables", "why_tests_cant": "crash points and restart histories are unbounded; the tests restart once after a completed run", "anchors": ["src/physics/physicsmodel.cxx: initialise, postInit, restartVars, PhysicsModelMonitor::call", "src/solver/solver.cxx: solve, outputVars, readEvolvingVariablesFromOptions, call_monitors", "src/bout++.cxx: BoutMonitor::call", "src/sys/options/options_netcdf.cxx: OptionsNetCDF::write, writeGroup, verifyTimesteps"]}
{"id": "C65", "title": "A derivative call uses the method it is asked for, at the location asked for", "statement": "After any history of registrations, initialisations and forced defaults, a derivative asked for by method name is taken with the first method registered under that type, direction, staggering and name, or an exception is thrown; with the default name it is the method the options select. A call returns exactly if its locations, method name and guard cells fit; the result then has the location asked for, and on polynomials up to the degree of the method it is the exact derivative at the position of that location, for first, second, fourth, advection and flux derivatives. Y derivatives taken across parallel slices and in field-aligned coordinates agree for linear methods. On non-uniform grids the result is the derivative in the coordinate, not in the index.", "quantifier": "every registration history, hash function, option tree, direction, derivative type, pair of locations, method name, grid spacing, polynomial field, shear, and point of the region", "why_tests_cant": "the combination of methods, directions, staggerings, types, histories and fields is unbounded; the tests check a few methods on a few grids", "anchors": ["include/bout/deriv_store.hxx: DerivativeStore (registerDerivative, getStandardDerivative, getFlowDerivative, initialise, forceDefaultMethod)", "include/bout/index_derivs.hxx: DerivativeType, registerMethod", "include/bout/index_derivs_interface.hxx: standardDerivative, flowDerivative, DDY", "src/mesh/index_derivs.cxx", "src/mesh/coordinates.cxx: DDX, DDY; src/sys/derivs.cxx: D2DX2, D2DXDY, DDZ"]}
{"id": "C66", "title": "The parallel cyclic reduction Laplacian solvers solve the same equations as the others", "statement": "On any power-of-two number of processors and of points, whatever the uninitialised memory: what the `pcr` solver returns satisfies every row of the tridiagonal systems of all modes, boundary rows included, if nothing is divided by zero; for Helmholtz-type problems nothing ever is, and the fields of `pcr`, `pcr_thomas` and `cyclic` are equal. Other sizes are refused. Every message sent has exactly one receiver waiting for it, so no run hangs or mixes up messages.", "quantifier": "every field of numbers, every power of two of processors and of points per processor, number of boundary rows, matrix, right-hand side, boundary flags, uninitialised memory, processor and exchange", "why_tests_cant": "the reduction tree depends on the number of processors and points; the tests run a few sizes and compare with a tolerance", "anchors": ["src/invert/laplace/impls/pcr/pcr.cxx: LaplacePCR (solve, cr_pcr_solver, eliminate_boundary_rows, apply_boundary_conditions, cr_forward_multiple_row, cr_backward_multiple_row, pcr_forward_single_row)", "src/invert/laplace/impls/pcr_thomas/pcr_thomas.cxx: LaplacePCR_THOMAS", "include/bout/utils.hxx: is_pow2", "src/invert/laplace/invert_laplace.cxx: Laplacian::tridagMatrix"]}
{"id": "C67", "title": "An input expression gets one meaning: names refer to the nearest enclosing option, circular definitions are refused", "statement": "`FieldFactory::parse` always returns or throws. What it returns for a text read in a section is the generator the text denotes by the grammar, each name standing for what the nearest enclosing section that has the option defines, read in that section in turn (sub:name for a qualified name); that generator is unique and does not depend on what was parsed before. Conversely a text that has such a meaning is accepted, and names whose definitions lead back to themselves are refused.", "quantifier": "every option tree, text, section, registered set of generators, and every history of earlier parse and cleanCache calls", "why_tests_cant": "the recursion, the cache and the lookup list are state shared between all calls; tests run a few expressions on fresh factories", "anchors": ["src/field/field_factory.cxx: FieldFactory::parse, resolve, findOption, cleanCache", "include/bout/field_factory.hxx: FieldFactory", "src/sys/expressionparser.cxx: ExpressionParser::parseString", "src/sys/options.cxx: Options::getSection, isSet, parent"]}
{"id": "C68", "title": "Analytic inputs are evaluated at the same position whichever processor does it", "statement": "The normalised coordinates x, y at which expressions are evaluated depend only on the global cell: the interior columns are centred at (k+1/2)/MX, core rows at (r+1/2)/n where r counts the core rows before and n all of them, each row is 1/n after the row before it along the field line (up to whole circuits), and so a guard row has the y of the row it is a copy of. Hence a field created from an expression does not depend on how the grid is split, and, if the expression is periodic, its guard cells hold what communication would put there. Values of boundary conditions are evaluated exactly on the walls. The integer and real overloads agree.", "quantifier": "every grid layout, splitting, processor, cell (guard cells included), location, expression and either convention of GlobalX/GlobalY", "why_tests_cant": "the position of a row depends on the topology and the processor; tests check a few indices of small grids", "anchors": ["src/mesh/impls/bout/boutmesh.cxx: BoutMesh::GlobalX, GlobalY", "src/sys/generator_context.cxx: Context", "src/field/field_factory.cxx: create2D, create3D, createPerp", "src/mesh/data/gridfromoptions.cxx: GridFromOptions::get", "src/field/fieldgenerators.cxx: FieldBallooning", "src/mesh/boundary_standard.cxx (positions of boundary values)"]}
{"id": "C69", "title": "Gathering a field onto one processor and scattering it again", "statement": "GlobalField2D and GlobalField3D: after gather, the array on the chosen processor holds at [x*ny*nz + y*nz + z], for every global point x in 0..nx-1 (X boundary cells included), y in 0..ny-1 (Y guard and boundary cells left out) and z, the value held by the one processor that owns that point, whatever order the messages arrive in and whatever the memory and the buffers held before; nothing outside the nx*ny*nz elements is written. After scatter every processor has, at each point it owns, the value of the global array, and its other points are untouched. gather then scatter, and scatter then gather, are the identity on owned points and on the whole array. Every message fits its buffer exactly, one slot per point, and sender and receiver agree on the length.", "quantifier": "every decomposition the mesh accepts (any numbers of processors in X and Y, any guard widths, one or two Y boundaries), every root processor, every number of Z points, every field, every arrival order and every initial memory", "why_tests_cant": "the loops use hand-made origins and sizes per processor; an error shows only for particular processor grids, roots or arrival orders", "anchors": ["src/field/globalfield.cxx: GlobalField::proc_local_origin, proc_origin, proc_size, GlobalField2D::gather, scatter, GlobalField3D::gather, scatter, msg_len", "include/bout/globalfield.hxx: operator()"]}
{"id": "C70", "title": "Flux coordinate independent parallel slices and their boundary conditions", "statement": "With the FCI transform, after calcParallelSlices and applyParallelBoundary every interior point has a value one step forward and one step back along its field line: the interpolated value if the line ends inside the domain, and otherwise the value of the parallel boundary condition; a point is in a parallel boundary region exactly if its line leaves, once, in the region of the wall it leaves by. dirichlet makes the field equal the given value at the recorded distance, dirichlet_O3 is exact for quadratics, dirichlet_interp keeps fields equal to the boundary value, neumann sets the derivative. The recorded intersection lies on the field line. integrateParallelSlices averages only values that exist and keeps constants. The same for every number of slices.", "quantifier": "every mesh, field line map, interpolation method, field, boundary value, and previous content of memory", "why_tests_cant": "maps come from grid files; tests use straight maps with one slice", "anchors": ["src/mesh/parallel/fci.cxx: FCIMap::FCIMap, FCIMap::integrate, FCITransform::calcParallelSlices", "src/mesh/parallel/fci.hxx: FCITransform::FCITransform", "src/mesh/parallel_boundary_region.cxx", "src/mesh/parallel_boundary_op.cxx: BoundaryOpPar_dirichlet, BoundaryOpPar_dirichlet_O3, BoundaryOpPar_dirichlet_interp, BoundaryOpPar_neumann"]}
{"id": "C71", "title": "The LaplaceXZ solver inverts Div(A Grad_perp x) + B x with its boundary conditions", "statement": "Whenever the cyclic LaplaceXZ solver returns, its result satisfies Div(A Grad_perp x) + B x = rhs at every point off the X boundary, across processor boundaries, and at each X boundary, Fourier mode by Fourier mode, its gradient or mean through the boundary is zero, or that of the starting guess (INVERT_SET), or that of the right-hand side (INVERT_RHS), as the flags say. With positive metric and A and negative B it does return.", "quantifier": "all numbers of processors in X, grid sizes, metrics, coefficients, boundary flags, right-hand sides, starting guesses, message arrival orders", "why_tests_cant": "an equation in real numbers for every input, processor count and message order; tests compare a few grids to a tolerance", "anchors": ["src/invert/laplacexz/impls/cyclic/laplacexz-cyclic.cxx: LaplaceXZcyclic::setCoefs, solve", "include/bout/invert/laplacexz.hxx: LaplaceXZ"]}
{"id": "C72", "title": "The Naulin solver solves the full perpendicular equation to its tolerance, or throws", "statement": "Whenever the Naulin Laplacian solver returns, its result satisfies D Delp2(x) + 1/C1 Grad_perp(C2).Grad_perp(x) + A x = rhs at every point off the boundaries, with A, C1, C2, D varying in X, Y and Z, to within |D| times the accepted error (relative to the RMS of rhs/D, or absolute). It always ends, within maxits iterations, by returning or throwing; it converges if the iteration contracts; with coefficients constant in Z it calls the FFT solver once. Boundary values are those of x0 with INVERT_SET and of the right-hand side with INVERT_RHS.", "quantifier": "all coefficients, metrics, right-hand sides, guesses, tolerances, iteration limits, processor counts, and FFT solvers that invert their own operator", "why_tests_cant": "a statement about every stopping point of a fixed-point iteration with restarts; tests check a few convergent cases", "anchors": ["src/invert/laplace/impls/naulin/naulin_laplace.cxx: LaplaceNaulin::solve, copy_x_boundaries", "src/field/field3d.cxx: DC"]}
{"id": "C73", "title": "Timers measure the time their objects exist, however they are nested and reset", "statement": "After every history of timers made, destroyed and reset, getTotalTime of a label is the time during which at least one timer of that label existed, getTime the same since the label's last reset, resetTime returns getTime, hits counts how often the label went from no timers to one; labels do not influence each other, and times never decrease or exceed the time that passed. The report lists every timer once, by falling total time, with the percentage of the largest.", "quantifier": "all histories of events on all labels, all clock readings", "why_tests_cant": "a claim about every interleaving of nested timers and resets; tests run a few with sleeps and tolerances", "anchors": ["include/bout/sys/timer.hxx: Timer", "src/sys/timer.cxx: Timer::Timer, Timer::~Timer, Timer::resetTime, Timer::getTotalTime, Timer::printTimeReport"]}
{"id": "C74", "title": "Metric quantities are continued smoothly into the boundary guard cells and moved exactly to staggered locations", "statement": "When the geometry is set up, each metric quantity is moved to the requested cell location and continued into the guard cells beyond the boundaries of the grid. Cells of the grid keep their (interpolated, exchanged) values. If the quantity is a polynomial of degree at most two in each of x and y, then the values on the grid, on the upper boundary of a staggered grid and in every boundary guard cell (corners included, if those are set) are those of the same polynomial at the new location. If corner cells are not included, exactly the corner cells are made invalid. If the grid has fewer than three points in a direction the last value is repeated; a processor with too few points is refused, and memory outside the field is never read.", "quantifier": "every field, every mesh with guard cells and at least three points per direction on the processor, every set of boundary regions as BoutMesh makes them, every location, every choice of the extrapolation flags; the failures for all meshes of the kind named", "why_tests_cant": "The guard values depend on the order of the boundary loops, on the number of cells and guard cells of the processor and of the grid, and on the location; tests use one mesh.", "anchors": ["src/mesh/coordinates.cxx: interpolateAndExtrapolate", "src/mesh/boundary_region.cxx", "src/mesh/impls/bout/boutmesh.cxx: createXBoundaries, createYBoundaries, setDerivedGridSizes"]}
{"id": "C75", "title": "LaplaceXY returns a field satisfying the discretised equation and its boundary conditions, on any processor layout", "statement": "When LaplaceXY::solve returns (the Krylov solver having reported convergence), the returned field, once communicated, satisfies Laplace_perpXY(A,f) + B f = rhs at every interior cell in the finite volume form, and the documented operator with central differences in the finite difference form; on the X boundaries the Dirichlet or Neumann condition, on the Y boundaries the requested condition (Dirichlet, Neumann, third order free); further guard cells repeat the boundary value. Every unknown of the run has one row number and every row number one unknown, the assertion on the local size cannot fail, and all processors agree on the numbers. The operator is the flux form of the manual: the volume integral over any block of cells is the flux through its sides, and the matrix weighted with cell volumes is symmetric.", "quantifier": "every number of processors, every mesh and connection between processors meeting the stated conditions (and every slab decomposition outright), all coefficients, right hand sides, guesses, options, every history of earlier solves (stale vector entries)", "why_tests_cant": "The matrix is assembled by all processors with overwriting inserts into rows chosen by a communicated index field; a wrong column shows up only for particular decompositions, topologies and sizes. Tests run a few small grids.", "anchors": ["src/invert/laplacexy/laplacexy.cxx: LaplaceXY::LaplaceXY, localSize, globalIndex, setCoefs, setMatrixElementsFiniteVolume, setMatrixElementsFiniteDifference, solve, solveFiniteVolume, solveFiniteDifference", "src/mesh/coordinates.cxx: Coordinates::Laplace_perpXY", "src/mesh/mesh.cxx: Mesh::hasBndryLowerY"]}
{"id": "C76", "title": "Command-line switches: every combination means what the help text says, and decides which files a run reads and writes", "statement": "For every command line: the first argument asking for information (-h, --help, --print-config, --list-*, --help-* <name>) makes the program print it and leave without touching files; otherwise the last value given with -d, -f, -o, -l/--log counts (defaults data, BOUT.inp, BOUT.settings, BOUT.log), the verbosity is 4 plus the number of -v minus the number of -q, -c colours the output, and a switch without its value is refused; everything else reaches the options in the order given, with switches turned into their long names. Each option named on an accepted command line has the last value given there with source \"Command line\", all others keep the value of the input file. Input file, log and settings file are in the same directory and the settings never overwrite the input file.", "quantifier": "every list of arguments (any number, order and mixture of switches, settings and flags), every input file contents (as the tree it is read into)", "why_tests_cant": "The meaning of an argument depends on its neighbours (values of switches, '=' separated by spaces, removal of empty arguments) and the same setting reaches the program by two routes (the switch and the option of the same name); unit tests check a few single switches.", "anchors": ["src/bout++.cxx: parseCommandLineArgs, handleFactoryHelp, BoutInitialise, writeSettingsFile", "include/bout/bout.hxx: CommandLineArgs", "src/sys/optionsreader.cxx: OptionsReader::parseCommandLine"]}
{"id": "C77", "title": "Fourier and sine transforms depend on their arguments only, for every history of calls and every schedule of threads", "statement": "rfft, irfft, DST and DST_rev keep work arrays and plans in static variables. Whatever was called before, with whatever lengths and rows, a call returns the transform of the row it was given, writes exactly the promised cells of the caller's array, touches no memory it does not own and leaks none when the length changes. In OpenMP builds the same holds for rfft and irfft under every interleaving of the threads of a team that all use the same row length, after any sequence of parallel regions with any team sizes and lengths; no thread waits for ever.", "quantifier": "every finite history of calls (functions, lengths, rows), every content of uninitialised and clobbered memory; every team size, every number of calls per thread, every sequence of parallel regions, every schedule of single memory accesses", "why_tests_cant": "Tests run a few lengths in a fixed order and see one schedule; a stale buffer, a released array or a race shows up only for particular orders of lengths and interleavings.", "anchors": ["src/invert/fft_fftw.cxx: rfft, irfft (serial and OpenMP), DST, DST_rev, Array overloads", "include/bout/fft.hxx", "src/invert/laplace/impls/cyclic/cyclic_laplace.cxx: calls of DST in a parallel loop"]}
{"id": "C78", "title": "The PETSc perpendicular Laplacian solver solves the stated equation, whatever the decomposition and whatever was solved before", "statement": "LaplacePetsc::solve(b, x0) returns, on all processors of an X communicator, the pieces of one field which satisfies D*Laplace_perp(f) + (1/C1)Grad_perp(C2).Grad_perp(f) + Ex df/dx + Ez df/dz + A f = b at every interior point with central differences of second (or fourth, fourth_order=true) order, periodic in Z, and at every boundary point the requested condition (value or gradient/sqrt(g_11), set from b, from x0 or zero), provided the linear solver solves the system it is given. The system depends neither on the number of processors nor on earlier solves with the same object. Unimplemented flags are refused.", "quantifier": "every number of processors, points per processor, guard cells and Z points (with the stated minimal sizes), all metric and coefficient fields, all switches and flags, every history of solves, every behaviour of the linear solver", "why_tests_cant": "The matrix is assembled by index arithmetic over local and global numbers with values that replace one another; tests compare norms on one or two decompositions.", "anchors": ["src/invert/laplace/impls/petsc/petsc_laplace.cxx: LaplacePetsc, solve, Element, Coeffs", "include/bout/invert_laplace.hxx: INVERT_* flags"]}
{"id": "C79", "title": "The backward Euler (beuler/snes) solver takes backward Euler steps to exactly the output times, whatever the nonlinear solver does", "statement": "For every sequence of successes, failures and iteration counts of PETSc's SNES: solver type beuler/snes calls the monitors exactly at t0+(k+1)*output_timestep, after running the user's function on the state they see; every internal step is positive, stays within the current output step and starts from the end of the last accepted step, so failed attempts leave time and state alone; every accepted step whose equation SNES solved satisfies x = x0 + dt f(t+dt, x) (both backward Euler forms), with the residual as defect otherwise; a failed attempt is tried again with a smaller step and a fresh Jacobian; the step grows or shrinks by 10% with the iteration count, within max_timestep; the first guess is the linear extrapolation of the last two states; when the step falls below dt_min_reset the solver resets itself once and otherwise gives up with an exception; every run ends.", "quantifier": "every user function, initial time and state, every behaviour of SNES at every call, every answer of the monitors, all option values with dt_min_reset > 0 and a positive output step", "why_tests_cant": "The loop depends on the whole sequence of failures and iteration counts of an external solver; tests exercise a handful of well-behaved sequences.", "anchors": ["src/solver/impls/snes/snes.cxx: SNESSolver::run, snes_function, SNESSolver::SNESSolver", "src/solver/impls/snes/snes.hxx: time1, predictor, BoutSnesEquationForm"]}
{"id": "C80", "title": "The CVODE, ARKODE, PVODE and IDA solvers report the integrator's own solution at the output times, whatever the integrator does", "statement": "For every sequence of internal steps of the integrator (lengths, failures, dense output): the output monitors are called in order, number k exactly at t0+(k+1)*output_timestep, with the variables holding the integrator's solution interpolated to that time and the user's function run there last; the outputs are the same with and without monitor_timestep; timestep monitors are called once per internal step, in order, with its end and length, and with the variables of that time; a run returns with all outputs unless a monitor stops it, and throws only if the integrator fails or mxstep internal steps do not reach the next output. Vectors of absolute tolerances and positivity constraints carry, at each position of the state, the value asked for by the field stored there; options given for a field are accepted; IDA's residual is zero iff du = F for evolving and F = 0 for constraint variables.", "quantifier": "every integrator behaviour (any number, lengths and failures of internal steps, any dense output), every start time, output step, number of outputs, mxstep and monitor answers; every set of fields, regions and option trees", "why_tests_cant": "Where output times fall relative to internal steps depends on the whole history of an adaptive integrator; tests see a few problems, all starting from non-negative times.", "anchors": ["src/solver/impls/cvode/cvode.cxx: CvodeSolver::run, create_constraints, set_vector_option_values", "src/solver/impls/arkode/arkode.cxx: ArkodeSolver::run, set_abstol_values", "src/solver/impls/pvode/pvode.cxx: PvodeSolver::run", "src/solver/impls/ida/ida.cxx: IdaSolver::run, res", "src/solver/solver.cxx: Solver::solve (checkForUnusedOptions)"]}
{"id": "C81", "title": "The 3D Laplacian solvers (petsc3damg, hypre3d) pose the equation documented", "statement": "For every grid with at least three points in z, every metric, every parallel transform given by weights, and after every sequence of setCoef..., set...BoundaryFlags and solve calls, solve(b, x0) hands the linear solver a system whose solutions are exactly the fields that satisfy D Laplace_perp(x) + (1/C1) Grad_perp(C2).Grad_perp(x) + Ex DDX(x) + Ez DDZ(x) + A x = b at every interior cell with the coefficients last set (discretised with the same central differences and parallel slices as the forward operators), and the condition asked for by the flags at every boundary cell with the value taken from b (INVERT_RHS), x0 (INVERT_SET) or zero. Building and rebuilding the matrix never fails and the entries do not depend on earlier coefficients. PetscMatrix and HypreMatrix end up with the same entries. Guard cells beyond the first are filled by quadratic extrapolation.", "quantifier": "every grid, metric, weights of the parallel transform, field of coefficients, right-hand side, initial guess, set of boundary flags and history of calls; every sequence of statements on a matrix", "why_tests_cant": "The matrix is built once and then overwritten and added to in place at every update; whether values of earlier updates survive depends on the history, on overlapping interpolation stencils and on the flags at construction. Unit tests check a few sizes and one update.", "anchors": ["src/invert/laplace/impls/petsc3damg/petsc3damg.cxx: LaplacePetsc3dAmg::LaplacePetsc3dAmg, solve, updateMatrix3D", "src/invert/laplace/impls/petsc3damg/petsc3damg.hxx: setCoef*", "src/invert/laplace/impls/hypre3d/hypre3d_laplace.cxx: LaplaceHypre3d::LaplaceHypre3d, solve, updateMatrix3D", "include/bout/petsc_interface.hxx: PetscMatrix::Element, operator(), yup, ydown, partialAssemble", "include/bout/hypre_interface.hxx: HypreMatrix::Element, setVal, addVal, getVal"]}
{"id": "C82", "title": "The iterative parallel tridiagonal Laplacian solver (ipt) returns only converged solutions of the whole system", "statement": "For every number of processors in x, every tridiagonal system per Fourier mode whose local blocks are nonsingular and coupled, every right-hand side and every history of calls at one y index with unchanged coefficients (calls that threw included), a solve that returns gives for every mode an array satisfying every row of the system exactly on each processor, whose copies of the neighbour above agree exactly and whose copies of the neighbour below differ by exactly the residual of one reduced row that the convergence test accepted for this very result; with a test accepting only zero it is the solution. Every call returns or throws after at most maxits sweeps. Violated on one processor, at a second y index, after a change of coefficients and with INVERT_KX_ZERO.", "quantifier": "every number of processors, geometry, matrices, right-hand sides, saved state, coarse-grid corrections, choice of cycles that test, number of modes and history of calls", "why_tests_cant": "The result depends on the state kept from earlier calls (coefficients, levels, last solution), on the modes converging at different times and on the parity of processors; the one test runs one y index with fixed coefficients on few processors.", "anchors": ["src/invert/laplace/impls/iterative_parallel_tri/iterative_parallel_tri.cxx: LaplaceIPT::solve, Level::Level(LaplaceIPT&), init_rhs, gauss_seidel_red_black, calculate_residual, calculate_total_residual, update_solution, synchronize_reduced_field, reconstruct_full_solution, resetSolver", "src/invert/laplace/impls/iterative_parallel_tri/iterative_parallel_tri.hxx: setCoefA, setCoefC, setCoefD"]}
{"id": "C83", "title": "The band Laplacian solver solves the documented equation at fourth order", "statement": "For every grid, metric, set of coefficients and flags, and whatever earlier solves left in the arrays, the band solver hands LAPACK exactly the five-diagonal matrix it assembled, and its result satisfies at every cell inside that is not next to a single boundary cell the fourth-order form of D Delp2(x) + (1/C) Grad_perp(C).Grad_perp(x) + A x = b, for every Fourier mode up to maxmode, exactly when g13 = 0 and D = 1 (or no first-derivative terms are asked for), and otherwise up to the missing terms stated; boundary cells without gradient flags hold zero, x0 or b as INVERT_SET and INVERT_RHS ask. Violated: mixed derivative, single boundary cell, INVERT_SET for the DC mode.", "quantifier": "every number of cells and boundary cells, metric, coefficients, flags, mode, right-hand side, contents of the arrays before, and solver meeting the LAPACK contract", "why_tests_cant": "There is no unit test of this solver; the claim ranges over all metrics, flags and previous contents, and the wrong terms vanish on the orthogonal uniform grids a test would use.", "anchors": ["src/invert/laplace/impls/serial_band/serial_band.cxx: LaplaceSerialBand::solve", "src/invert/lapack_routines.cxx: cband_solve"]}
{"id": "C84", "title": "The multigrid Laplacian solver returns what its tolerance and boundary flags promise", "statement": "For every number of processors, grid, number of levels, set of coefficients and flags: when LaplaceMultigrid::solve returns, the field meets both boundary conditions exactly and its error (root of the summed squared defects of the documented equation over the whole grid) is at most rtol times the error of the zero field with those boundary conditions, plus atol; otherwise it throws. Every call ends. A solution of the system is left unchanged by a multigrid cycle, and each coarse matrix is half the averaged fine matrix applied to copied values.", "quantifier": "every number of processors in x, local grid, level count, smoother, solver type, metric, coefficients, boundary flags, right-hand side, guess and sequence of Krylov scalars", "why_tests_cant": "Only one integrated test compares a few grids; convergence, level counts for odd sizes and mixed boundary flags range over all configurations.", "anchors": ["src/invert/laplace/impls/multigrid/multigrid_laplace.cxx: LaplaceMultigrid::solve, generateMatrixF", "src/invert/laplace/impls/multigrid/multigrid_alg.cxx: cycleMG, pGMRES, solveMG, smoothings, setMatrixC", "src/invert/laplace/impls/multigrid/multigrid_solver.cxx: Multigrid1DP"]}
{"id": "C85", "title": "Approximate matches of option and function names are complete, correct and ordered by similarity", "statement": "For every options tree, name and limit: Options::fuzzyFind returns every value of the tree within the limit of the name, each with its documented distance (the least number of insertions, deletions, substitutions and transpositions, or 1 when only the case differs or when only the sections are missing), and nothing else, in the order of similarity. The suggestions under an unused option are exactly the options read that match approximately. \"Did you mean\" for an unknown function names the closest one.", "quantifier": "every options tree reachable by assignments and reads, every name, limit, case folding and set of generators", "why_tests_cant": "The unit tests look up a few names in one small tree; ordering, completeness and the interplay of the alternatives concern every tree and name.", "anchors": ["src/sys/options.cxx: Options::fuzzyFind, checkForUnusedOptions", "include/bout/options.hxx: Options::FuzzyMatch, Options::name", "src/sys/expressionparser.cxx: ExpressionParser::fuzzyFind, parseIdentifierExpr", "src/field/field_factory.cxx: FieldFactory::fuzzyFind"]}
{"id": "C86", "title": "MPI, PETSc, HYPRE and SLEPc are initialised before their first use and finalised once, whatever is created, copied and destroyed on which thread", "statement": "For every number of threads and every interleaving of constructing, copying, using and destroying PetscLib, HypreLib and SlepcLib objects: the library is initialised only while it is down, finalised only while it is up, up whenever an object may be used, and down when none is left. cleanup (as BoutFinalise calls it) finalises it once however destructors are interleaved, and nothing deadlocks. BoutComm initialises and finalises MPI exactly once when no communicator was set, and never when the program set one, always returns a valid communicator and frees its duplicates.", "quantifier": "every number of threads, schedule, history of objects and cleanups, and sequence of calls of BoutComm", "why_tests_cant": "Tests create a single object for the whole process; orders of destruction, copies, races and cleanup with objects left cannot be enumerated.", "anchors": ["src/sys/petsclib.cxx: PetscLib::PetscLib, ~PetscLib, cleanup", "src/sys/hyprelib.cxx: HypreLib", "src/sys/slepclib.cxx: SlepcLib", "src/sys/boutcomm.cxx: BoutComm", "src/bout++.cxx: BoutFinalise"]}
{"id": "C87", "title": "The convective and diffusive evaluations of the model add up to the whole right-hand side", "statement": "For every physics model, set of evolving variables, boundary conditions, state and time, and with or without a manufactured solution: the time derivatives obtained from a convective and a diffusive evaluation at the same state add up to those of a full evaluation, with the manufactured source added exactly once; every evolving vector derivative is in the basis its vector is evolved in and every evolving boundary condition on derivatives is applied; a failure status of the model reaches the caller; the call counters equal the numbers of evaluations since their resets; and the manufactured-solution error of every variable is its value minus the solution.", "quantifier": "every model (arbitrary functions), variable set, boundary condition, metric, field memory, time, and every sequence of evaluations and counter resets", "why_tests_cant": "The equality is between three code paths for arbitrary user functions; tests run one model with one integrator and compare final numbers within a tolerance.", "anchors": ["src/solver/solver.cxx: Solver::run_rhs, run_convective, run_diffusive, pre_rhs, post_rhs, add_mms_sources, calculate_mms_error, resetRHSCounter", "src/field/vector3d.cxx: Vector3D::toCovariant, toContravariant"]}
{"id": "C88", "title": "The power-method solver finds the dominant eigenvalue", "statement": "For a linear model started on a combination of eigenvectors one of which is dominant, the estimates written at each output converge to the dominant eigenvalue and the state to its eigenvector; each estimate is the ratio of the sizes of successive applications of the model to the start; on an eigenvector the estimate is the eigenvalue at once; for a symmetric model the estimates never decrease; the result does not depend on how the variables are spread over processors; and a monitor that asks to stop ends the run there.", "quantifier": "every number of processors and variables, linear model, start, number of outputs and monitor answers", "why_tests_cant": "Convergence is a limit over all numbers of steps, for all models; tests have no case for this solver beyond one fixed operator.", "anchors": ["src/solver/impls/power/power.cxx: PowerSolver::run, norm, divide, init", "src/solver/impls/power/power.hxx"]}
{"id": "C89", "title": "Eigenvalue runs report the frequencies of the model", "statement": "With the SLEPc solver, for a linear model: every converged eigenvalue is reported as the complex frequency w of solutions proportional to exp(-i w t), whether SLEPc works on the time derivative, on one step of the model, or on a run of another solver; every frequency of the model can be found; converting to and from SLEPc eigenvalues loses nothing; with a wanted frequency the eigenvalue nearest to it is preferred and searched for; and the output holds, for each, the real and the imaginary part of frequency and fields, with auxiliary fields computed from them, while progress is reported once for each eigenvalue.", "quantifier": "every finite-dimensional linear model, time step and number of steps, mode, target, list of converged eigenvalues and history of monitor calls", "why_tests_cant": "SLEPc is an optional dependency and no unit test runs it; the claims are about all linear operators, logarithm branches included.", "anchors": ["src/solver/impls/slepc/slepc.cxx: SlepcSolver::SlepcSolver, init, advanceStep, compareEigs, monitor, slepcToBout, boutToSlepc, analyseResults"]}
{"id": "C90", "title": "Gyro-averages invert the documented operators whatever was done before", "statement": "gyroPade0, gyroPade1 and gyroPade2 of a field return (1 - rho^2 Lap)^-1 f, (1 - rho^2/2 Lap)^-1 f and rho^2/2 Lap (1 - rho^2/2 Lap)^-1 Gamma1(f), with the z average of a 3D gyro-radius and the boundary flags given; gyroTaylor0 returns f + rho^2 Lap f. The result does not depend on what was done before with the shared Laplacian solver, and using them does not change other solves; averages never amplify a field, and act on Fourier modes by the documented factors.", "quantifier": "every field, gyro-radius, boundary flags, history of calls on the shared solver, linear Laplacian and correct inversion", "why_tests_cant": "The averages share one process-wide solver with all other users of it: only reasoning over all histories of settings and solves can exclude interference.", "anchors": ["src/physics/gyro_average.cxx: gyroTaylor0, gyroPade0, gyroPade1, gyroPade2", "src/invert/laplace/invert_laplace.cxx: Laplacian::defaultInstance, cleanup, solve", "include/bout/invert_laplace.hxx: setCoefA ... setOuterBoundaryFlags"]}
{"id": "C91", "title": "Coordinates accessors give the values of their coordinates", "statement": "An accessor made for a Coordinates object gives, for every quantity and every 3D index, the value of that quantity at that point (for 2D metrics: at its column), for every mesh size and both metric kinds. Data cached for one object is not disturbed by anything that happens to other objects or arrays, stays as it was when it was cached until cleared, and clear returns how many arrays it removed and removes only those asked for.", "quantifier": "every history of objects made, changed and destroyed, accessors made, caches cleared and other arrays written, every mesh size, allocation order and metric kind", "why_tests_cant": "The cache is process-wide state keyed by address: its correctness depends on the whole history and on the allocator.", "anchors": ["src/mesh/coordinates_accessor.cxx: CoordinatesAccessor::CoordinatesAccessor, clear", "include/bout/coordinates_accessor.hxx: lookup, Offset, stripe_size"]}
{"id": "C92", "title": "The nonlocal heat flux conserves energy, never amplifies the local flux and reduces to it", "statement": "divHeatFlux of the SNB model returns the documented Spitzer-Harm divergence corrected by the sum over energy groups of solutions of the documented group equations, with weights that are the exact integrals of the energy distribution; the volume integral of the result vanishes, each Fourier mode is multiplied by a factor between 0 and 1, which tends to 1 for short mean free paths, and an isothermal plasma has no flux.", "quantifier": "every temperature and density, number of groups, maximum energy, charge, constants, mesh, and correct conservative inversion", "why_tests_cant": "Tests compare a few profiles: positivity and limits of the factor for all wave numbers, group numbers and mean free paths, and exactness of the weights, need proof.", "anchors": ["src/physics/snb.cxx: HeatFluxSNB::divHeatFlux", "include/bout/snb.hxx: HeatFluxSNB, int_beta4_exp, groupWeight"]}
{"id": "C93", "title": "Laplacian inversions solve exactly the slices they should, and all processors take part alike", "statement": "Laplacian::solve of a 3D field inverts each interior y slice with its own right hand side, and with include_yguards each guard slice beyond a y boundary of the mesh, leaves other slices alone, reports failure exactly if one of them fails, and makes the same collective calls in the same order on all processors of a row so that it always ends.", "quantifier": "every mesh, options, history of earlier queries and solves, both overloads, inversion and its failures, number of processors and order of their steps", "why_tests_cant": "The range depends on static caches filled by earlier calls, and deadlocks on which processors fail: tests run one mesh and no failure.", "anchors": ["src/invert/laplace/invert_laplace.cxx: Laplacian::solve(Field3D), Laplacian::solve(Field3D, Field3D)", "src/mesh/mesh.cxx: Mesh::hasBndryLowerY, hasBndryUpperY", "src/sys/boutexception.cxx: BoutParallelThrowRhsFail"]}
{"id": "C94", "title": "The global index stored with a perpendicular slice names the same row wherever it is read", "statement": "A FieldPerp written to a file and read back has its y index on the processor it came from if that is an interior row or one beyond an existing boundary, and -1 elsewhere; the stored index depends only on which row of the whole mesh it is, so a file can be read with another decomposition; no two rows of processors accept the same index.", "quantifier": "every decomposition in y, guard cell width, single or double null, boundary flags, index and processor", "why_tests_cant": "Tests use fixed small meshes: agreement between decompositions and absence of clashes at the upper target range over all decompositions.", "anchors": ["src/field/fieldperp.cxx: FieldPerp::getGlobalIndex, setIndexFromGlobal", "src/mesh/impls/bout/boutmesh.cxx: getGlobalYIndex, getLocalYIndex, getLocalYIndexNoBoundaries", "src/sys/options.cxx: Options::assign<FieldPerp>, Options::as<FieldPerp>"]}
{"id": "C95", "title": "Radial sources and sinks are the documented smooth layers and never amplify the field", "statement": "source_tanhx is a layer falling from 1 to 0 through one half at the given position, source_expx2 a Gaussian with its maximum there; the sinks are the field times such a layer on the left or right, with the sign of the field and never above it; buff_x damps symmetrically at the two radial boundaries and not in the middle; values are finite.", "quantifier": "every grid, field, width, position, point, largest number, and origin of communicated values", "why_tests_cant": "Monotonicity, bounds and finiteness are claims about all widths and positions; no tests exist.", "anchors": ["src/physics/sourcex.cxx: TanH, source_tanhx, source_expx2, sink_tanhx, sink_tanhxl, sink_tanhxr, mask_x, buff_x", "include/bout/sourcex.hxx"]}

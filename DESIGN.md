# Formal model of BOUT-dev (Lean 4)

## 1. Method and layout

* `/verif/lean/Verif/<Area>/…` – one directory per part of the code: `Region`, `Array`, `Options`, `Expr`, `Mesh`, `Comm`,
  `Cyclic`, `Solver`, `Num`, `Indexer`, `Sys`.  Files called `Model`, or named after the thing modelled (`Flux`, `Bndry`,
  `Monitor`, `Vars`, …), hold executable definitions, one per C++ function, each citing file and lines in `/repo` and naming
  its simplifications.  `Spec` files (or a section "Specification" at the top of a `…Props` file) hold model-independent
  specifications.  `Lemmas*` files hold helper lemmas.  `*Props`, `*Final`, `*Main`, `*Witness`, … hold the property theorems,
  named `Cnn_…`, each with a concrete `example` beside it that meets the hypotheses.
* Theorem names: `Cnn_x` proved as stated; `Cnn_x_partial` a restricted form (the docstring says what is missing);
  `Cnn_x_violated` a concrete execution of the code, as modelled, on which a clause of the English property is false.
* C++ exceptions and undefined behaviour are distinct outcomes (`Except`/`Option`/`Res`), never a totalised default.
* `int` is `Int`/`Nat` without overflow; `BoutReal` is an arbitrary ordered field (no rounding), except where a theorem says
  otherwise.
* `properties.jsonl` lists the properties, `MANIFEST.json` the theorem names per property, `seeded/LOG.jsonl` the
  wrong-program experiments.

## 2. Trusted base

* The Lean 4.33.0 kernel.  No axioms are added; the axioms used are `propext`, `Classical.choice` and `Quot.sound` (section 6
  lists them theorem by theorem).  No compiled code is trusted (`decide +kernel` is evaluated by the kernel).
* The fidelity of the hand translation from C++ to Lean.  The code is never built or run here.
* Outside every model: integer overflow, floating-point rounding (NaN and infinities appear only where a definition says so),
  the C++ memory model (interleavings are at the granularity of one operation), the implementations of MPI, OpenMP, the C++
  standard library, FFTW, NetCDF, PETSc, SUNDIALS, LAPACK.  What is assumed of them where they matter:
  - MPI: messages between a pair of ranks with one tag arrive unchanged and in order; a receive completes when its matching
    send has started; a blocking send completes at the latest when its matching receive has been posted (rendezvous).
    `MPI_Allreduce`/`MPI_Scan` compute the sum/maximum/prefix sum they name.
  - `std::sort`, `std::unique`, `std::binary_search`, `std::map`, `std::vector`, `std::string` behave as specified by the
    standard; `std::shared_ptr::use_count` is the number of owners.
  - `std::stod`, `std::pow`, `sin`, … are parameters (arbitrary functions).

## 3. Modelled and not modelled

| file in /repo | modelled | not modelled |
|---|---|---|
| include/bout/region.hxx | `SpecificInd` arithmetic, `Region` construction, blocks, `mask`, `getIntersection`, `+`, sort/unique, offset, periodicShift, blocked iteration | `RegionStats`, printing |
| include/bout/array.hxx | whole class, store, `useStore`, `cleanup`, threads' arenas | iterators as pointers; Umpire |
| include/bout/utils.hxx | `Matrix`, `Tensor`, `invert3x3`, `SIGN`, `minmod`-style helpers used by the limiters | random numbers, conversions to string |
| src/sys/utils.cxx | string utilities, `editDistance` | `copy_string` memory, `ROUND` rounding |
| src/sys/range.cxx | whole class incl. allocation of the chain | – |
| src/sys/msg_stack.cxx | whole class and the scoped tracker | string formatting |
| include/bout/generic_factory.hxx | registration, removal, creation, `getType`, listing | message text, static initialisation order |
| include/bout/options.hxx, src/sys/options.cxx | tree, assignment with source and conflict check, `as<T>`, `withDefault`, `overrideDefault`, paths, usage tracking, unused reporting | attributes other than source, printing, `Field` values' contents |
| src/sys/options/options_ini.cxx, src/sys/optionsreader.cxx | reading, sections, bare keys, continued lines, command line, writing (`OptionsFormatterBase::format` with `uds`) | other format flags, files' encoding |
| src/sys/expressionparser.cxx, src/field/fieldgenerators.hxx | lexer, parser, generator trees, evaluation of the arithmetic, context, sum, min/max/clamp/where generators | error message text, fuzzy suggestions, field factory transforms |
| src/mesh/impls/bout/boutmesh.cxx | decomposition, index conversions, `checkBoutMeshYDecomposition`, processor split, default connections, `set_connection`, `add_target`, `topology`, `sendX`, `sendY`, `wait`, `send`, pack/unpack, handle pool, twist shift hook, boundary creation, `addBoundaryRegions` | grid file reading, `iterateBndry*`, `ySize`, communicators, `sendXIn…`-style ad hoc messages, FieldPerp messages |
| src/mesh/mesh.cxx | `createDefaultRegions`, index maps between 2D/3D regions, `communicate` entry points | I/O, caching of coordinates |
| src/mesh/boundary_region.cxx, boundary_standard.cxx | loops, most conditions and modifiers (section 4, C31) | non-orthogonal Neumann, Laplacian conditions (FFT) |
| include/bout/fv_ops.hxx, src/mesh/fv_ops.cxx | slope limiters, `Div_par`, `Div_par_K_Grad_par`, `D4DY4`, `D4DY4_Index`, `Div_f_v`, `Div_a_Grad_perp`, `Div_Perp_Lap`, `communicateFluxes` | field-aligned transforms, FCI slices |
| src/mesh/index_derivs.cxx, include/bout/stencils.hxx | every stencil method, FFT methods (C53) | SPLIT methods |
| src/mesh/coordinates.cxx, src/field/vector*.cxx, vecops.cxx | metric inversion, Jacobian, Christoffel symbols, vector algebra and operators | guard extrapolation, staggered coordinates, CELL_VSHIFT |
| include/bout/cyclic_reduction.hxx | whole algorithm on any number of processors | gather buffers as raw memory |
| src/solver/solver.cxx | monitors, run/solve bookkeeping, variables <-> flat vector, `globalIndex`, split rhs | output files, constraint handling, MMS sources |
| src/solver/impls/{rk4,rk3-ssp,euler,rkgeneric} | steps, run loops, adaptivity, tableaux | – |
| src/mesh/difops.cxx | `bracket` with `BRACKET_ARAKAWA` and `BRACKET_ARAKAWA_OLD`, all argument kinds | other bracket methods, other operators |
| src/mesh/data/gridfromfile.cxx | reading Field2D, Field3D, FieldPerp: offsets, copy loops, guard filling, packing of Fourier modes | netCDF, attributes, scalars and strings, log |
| src/mesh/interpolation/*.cxx, src/mesh/interpolation_xz.cxx, include/bout/interpolation.hxx | corner selection, weights, values, `interp`, `interp_to` along a line | masks, `interp_to` region handling and shifting, communication of derivatives |
| src/physics/sourcex.cxx | all functions (Verif/Physics/SourceX) | rounding and underflow |
| src/field/fieldperp.cxx, src/sys/options.cxx (FieldPerp) | global index of a slice, storing and reading it (Verif/Field/PerpIndex) | the data |
| src/invert/laplace/invert_laplace.cxx, src/mesh/mesh.cxx | loops over y slices, boundary queries and their static caches, collective calls (Verif/Invert/LapSlice) | 2D overloads, overriding solvers |
| src/physics/snb.cxx, include/bout/snb.hxx | `divHeatFlux`, group weights (Verif/Physics/Snb) | options, choice of the parallel inversion |
| src/mesh/coordinates_accessor.cxx | constructor, cache, clear, lookup, memory (Verif/Mesh/CAcc) | GPU copies |
| src/physics/gyro_average.cxx, `Laplacian::defaultInstance` | all overloads, settings of the shared solver over histories (Verif/Physics/Gyro) | timers, several meshes, solvers whose setCoefC differs |
| src/solver/impls/slepc/slepc.cxx | conversions, operator, comparison, monitor count, records, default target (Verif/Solver/Slepc) | SLEPc itself, spectral transformation set-up, useInitial, moves between vectors and fields |
| src/solver/impls/power/power.cxx | run, norm, divide, the loop of outputs (Verif/Solver/Power) | output, timers |
| src/solver/solver.cxx: run_rhs, run_convective, run_diffusive, pre_rhs, post_rhs, MMS sources and error | evaluation order, boundary conditions, bases, statuses, counters (Verif/Solver/Rhs) | cell locations, staggered vectors, exceptions of the model |
| src/sys/{petsclib,hyprelib,slepclib,boutcomm}.cxx | counts, critical sections, constructors, destructors, cleanup, communicator ownership | option passing, log events, PETSc and SLEPc finalising each other |
| src/sys/options.cxx, src/sys/expressionparser.cxx, src/field/field_factory.cxx (fuzzyFind) | approximate matches, suggestions for unused options, suggestion for unknown generators | text of messages |
| src/invert/laplace/impls/multigrid/*.cxx | assembly, boundary conditions, levels, communications, smoothers, projection, prolongation, Galerkin matrices, cycle, restarted GMRES, plain iteration, serial lowest solver | Arnoldi scalars (arbitrary), Multigrid2DPf1D, OpenMP, MPI beyond matched copies, NaN propagation |
| src/invert/laplace/impls/serial_band, cband_solve | assembly of every row, right-hand side, band array, INVERT_KX_ZERO (Invert/SBand) | transforms, zgbsv, second-order variant (compiled out) |
| src/invert/laplace/impls/iterative_parallel_tri | local problems, reduced rows, sweeps on level 0, loop, convergence test, caches, reconstruction (Invert/Ipt) | coarse grids, transforms, message order, prediction of convergence |
| src/invert/laplace/impls/petsc3damg, hypre3d; PetscMatrix and HypreMatrix elements | constructor rows, updateMatrix3D, solve right-hand side, setters, yup/ydown elements, guard extrapolation (Invert/Lap3D*) | Krylov and AMG solvers, preallocation, options |
| src/solver/impls/{cvode,arkode,pvode,ida} | run(), run(tout), tolerance/constraint vectors, IDA residual, reading of per-field options | the integrators, preconditioners, Jacobian-vector products, diagnostics |
| `src/solver/impls/snes/snes.cxx` (C79) | constructor defaults, `run`, `snes_function` | `init` (PETSc set-up, Jacobian colouring), `precon`, rounding |
| src/invert/laplace/impls/petsc/petsc_laplace.cxx | constructor checks and preallocation, solve (assembly, right hand side, initial guess, copy back), Element, Coeffs | KSP configuration and solve (contract only), preconditioner shell, sqrt of g_11 is a given field |
| src/invert/fft_fftw.cxx | serial and OpenMP rfft/irfft, DST, DST_rev, Array overloads, with static caches and heap (Verif/Fft) | FFTW itself, measurement flags, weak memory |
| src/bout++.cxx, include/bout/bout.hxx | parseCommandLineArgs, handleFactoryHelp, the option part of BoutInitialise (rank 0), as Verif/Options/CmdArgs | signal handlers, gettext, colour filter, MPI/PETSc/SLEPc argument passing, data directory check, mesh creation, BoutFinalise |
| src/invert/laplacexy/laplacexy.cxx; src/mesh/coordinates.cxx (Laplace_perpXY) | numbering, assembly of the matrix in both forms, boundary rows, right hand side, copy back (LapXY) | preconditioner, preallocation, PETSc and Krylov solver (contract), 3D metrics |
| src/mesh/coordinates.cxx interpolateAndExtrapolate (L36-285), src/mesh/boundary_region.cxx | Mesh/Extrap*: interpolation, exchange (parameter), extrapolation, corners | transforms to field-aligned in the 3D version; reading of variables |
| include/bout/sys/timer.hxx, src/sys/timer.cxx | all operations, rows of the report | text formatting |
| src/invert/laplace/impls/naulin/naulin_laplace.cxx | `solve`, `copy_x_boundaries` | performance counters, `outputVars` |
| `src/invert/laplacexz/impls/cyclic/laplacexz-cyclic.cxx` | `setCoefs`, `solve` of all processors in X | the PETSc implementation |
| src/mesh/parallel/fci.cxx, fci.hxx, parallel_boundary_region.cxx, parallel_boundary_op.cxx | Fci/*: maps, masks, regions, slices, all four conditions, integrate | reading the grid file (C48), the interpolation method (parameter; C49), checkInputGrid |
| src/sys/generator_context.cxx, BoutMesh::GlobalX/GlobalY, field_factory.cxx create2D/3D/Perp, gridfromoptions.cxx vectors, fieldgenerators.cxx ballooning | Mesh/Coord*: both overloads and conventions, positions of points and boundary values | transform_from_field_aligned, mixmode and the other generators |
| src/field/globalfield.cxx | Mesh/GField*: gather, scatter, addresses, messages, arrival order | locations and directions of the result |
| src/field/field_factory.cxx (parse, resolve, findOption, cleanCache) | Expr/Factory*: state (cache, lookup, options) and recursion through the expression parser | FieldIndirect and max_recursion_depth ≠ 0, create2D/3D/Perp, the registration of the generators |
| `src/invert/laplace/impls/pcr/pcr.cxx`, `impls/pcr_thomas/pcr_thomas.cxx` | both tridiagonal solvers on all processors, boundary elimination, messages, `solve` for Field3D (per slice) and FieldPerp | DST branch, periodic X, timing output |
| include/bout/deriv_store.hxx, index_derivs.hxx, index_derivs_interface.hxx, src/mesh/index_derivs.cxx, src/sys/derivs.cxx | derivative store, registration table, dispatch, staggering rules, index-space calls; DDY by slices or aligned | `checkData`, OpenMP loops, vector derivatives |
| src/physics/physicsmodel.cxx, src/solver/solver.cxx (restart), src/sys/options/options_netcdf.cxx (write, verifyTimesteps) | restart and output writes event by event, reading back, chains of runs | netCDF itself, mesh and version entries, several time dimensions |
| src/mesh/boundary_factory.cxx, src/field/field_data.cxx | parsing, registration, option priority; copies, moves and ownership of boundary conditions | constructors of the operations (parameters), option file reading |
| src/mesh/boundary_standard.cxx L3579-3768, src/field/field3d.cxx (applyBoundary etc.), src/solver/solver.cxx (pre_rhs, post_rhs) | modifiers, order of application, text conditions | corner zeroing in Field2D |
| src/solver/impls/imex-bdf2 | coefficients, history, step control, run loop | PETSc SNES (contract parameter), preconditioner, Jacobian colouring, DAE constraints |
| src/solver/impls/split-rk | everything except diagnostics and the factor of the step change (Solver/SplitRK*.lean) | rounding other than of times, MPI reductions |
| src/solver/impls/adams_bashforth | everything except diagnostics (Solver/Adams*.lean) | rounding, MPI reductions as one maximum |
| src/invert/laplace/impls/{spt,serial_tri}, src/invert/lapack_routines.cxx | SPT sweeps of one slice on all processors, message schedule, serial_tri solve, cyclic_tridag (Invert/Spt*.lean, LaplaceSolvers.lean, SerialTri.lean) | zgtsv (specification), rounding, sine transform |
| single_index_ops.hxx, field_accessor.hxx, coordinates_accessor.* | index helpers, striped coordinates and their store, all operators, 2D metrics | 3D metrics, device execution, rounding |
| `src/mesh/difops.cxx`, `src/mesh/coordinates.cxx` (operators), `src/sys/derivs.cxx` (vector DDZ) | parallel gradient/divergence/Laplacians, diffusion, drift bracket, face-flux divergence, Grad_parP (C56) | upwind forms, Div_par_flux, staggering |
| src/invert/parderiv/impls/cyclic/cyclic.cxx, src/invert/pardiv/impls/cyclic/pardiv_cyclic.cxx | matrix assembly, twist-shift and target rows, solve on all processors of a flux surface (Invert/Par.lean) | field-aligned transforms around it, Field2D solve, 3D metric |
| src/invert/laplace/invert_laplace.cxx, impls/cyclic/cyclic_laplace.cxx, Delp2 of coordinates.cxx | tridagCoefs, tridagMatrix (zperiodic, no guards), solve(FieldPerp) on one row of processors, Delp2 with FFT | DST branch, 3D solve loop over Y, other implementations, option reading, 3D metrics |
| src/invert/fft_fftw.cxx, src/mesh/parallel/shiftedmetric.cxx, src/field/field3d.cxx L604-732 | `rfft`, `irfft`, `DST`, `DST_rev` over exact complex numbers, `ShiftedMetric` transforms and slices, `shiftZ`, `filter`, `lowPass` | FFTW itself (its documented transform is assumed), plan caching, rounding |
| `src/mesh/impls/bout/boutmesh.cxx` createCommunicators, getYcomm, firstY/lastY(xpos), ySize; `src/mesh/surfaceiter.cxx` | MPI groups as rank lists, the log of collective calls, every loop | freeing of groups, debug output, MPI internals |
| include/bout/field.hxx, src/physics/smoothing.cxx | min, max, mean, isUniform, getUniform, averages, volume integral, smoothing and nonlinear filters, DC | rounding; field-aligned transform in nl_filter_y |
| src/field/field3d.cxx, field2d.cxx, generated_fieldops.cxx | storage sharing, allocate, assignment, generated operators, slices, `==` | time derivative, names, several meshes |
| include/bout/globalindexer.hxx | numbering, regions, guard exchange, `isLocal` | PETSc vectors |

Everything else in /repo (invert/, physics/, interpolation, parallel transforms, FCI, I/O, external solver interfaces, Python
tools) is not modelled unless section 4 names it.

## 4. Properties: model and proof


### C01 Flattened index and (x,y,z) coordinates are inverse bijections

*Model and proof.* `Region/Model.lean`: `SpecificInd` as (ind, ny, nz); C++ `/`, `%` are truncating. Integer div/mod arithmetic.

*Status: proved.* int modelled as Int (no overflow).

### C02 Index offsets move in exactly one direction, z is periodic

*Model and proof.* All of `xp … zm`, `offset` on the same record; statement in terms of coordinates of the flat index.

*Status: proved.* All offsets incl. dz>nz; CHECK>=4 behaviour of yp as well.

### C03 A rectangular region holds exactly the points of its box, once, in row-major order

*Model and proof.* The odometer loop of `createRegionIndices` writing into an array (out-of-range write is an outcome). Loop invariant: the first k writes are the first k points of the box.

*Status: partial.* Proved for 3D boxes; for Region<Ind2D> the constructor accepts zend>0 (finding F9), witness C03_ind2D_zend_unchecked, restricted claim C03_ind2D_partial.

### C04 Blocked (BOUT_FOR) iteration visits exactly the region's index sequence

*Model and proof.* `getContiguousBlocks` and `getRegionIndices`; induction over the index list; any distribution of blocks to threads is a permutation.

*Status: proved.* Order, multiplicity, block sizes, greedy cuts, any assignment of blocks to threads.

### C05 Region set operations have set semantics and keep blocks and indices in step

*Model and proof.* Operations on index lists; blocks recomputed; set semantics against `∈`, `filter`, `Pairwise`.

*Status: proved.* std::sort/unique/binary_search modelled by their specification.

### C06 Shifting regions: offset and periodicShift

*Model and proof.* `offset`, `periodicShift` against a numpy-style roll.

*Status: partial.* periodicShift fully proved for non-negative indices and positive period; offset proved on flat indices, but coordinates after offset are wrong for regions that lost ny,nz (finding F1), with witness.

### C07 Array has value semantics after ensureUnique (copy on write)

*Model and proof.* Heap of blocks, handles, stores; refinement of every history to a machine in which each array owns its values.

*Status: proved.* Refinement to a value machine for arbitrary histories and thread interleavings at operation granularity; element access UB kept separate.

### C08 The Array memory store never recycles a block still in use and never returns the wrong size

*Model and proof.* Invariant over every history: a stored block has no other owner and the right size.

*Status: partial.* Bookkeeping invariant, no leak, no use-after-free, irreversibility proved for every history. No-UB holds for threads with a store; after cleanup() in an OpenMP run other threads index the arena out of bounds (finding F17, witness C08_ub_after_cleanup).

### C09 Options assignment: last value wins, silent conflicting reassignment is impossible

*Model and proof.* Option trees; assignment with source; induction over op lists.

*Status: proved.* Assignment, conflict detection, force and attributes over every tree and history; model of Options::_set/_set_no_check/assign/force on arbitrary option trees.

### C10 withDefault returns the user's value if set, else the default, and rejects inconsistent defaults

*Model and proof.* Conversion functions over ℚ, then `withDefault` by cases on the stored value.

*Status: proved.* withDefault/overrideDefault on every tree and over call sequences.

### C11 Options paths: opts["a:b:c"] is opts["a"]["b"]["c"], and full names spell the path

*Model and proof.* `operator[]` by induction on the path; frame theorem for other paths.

*Status: partial.* Paths, frame and full names proved for every tree and path; the full-name clause is false after Options::withDefault(const Options&) (C11_copied_default_violated), which copies the name of the default option.

### C12 Unused-option checking is exact

*Model and proof.* Structural induction on the tree; access histories.

*Status: proved.* Exactness of getUnused, the reporting walk, read marking and conditional use over every tree and access history.

### C13 INI input and command line set the option they name

*Model and proof.* Line reader on lists of characters; spec gives the lines of an item; induction over items.

*Status: partial.* INI reading and the command line on every sequence of well-formed items, with rejection of malformed lines; the 'never mis-assigned' clause fails on three kinds of malformed lines (the *_violated theorems).

### C14 Expression parsing respects precedence and associativity

*Model and proof.* Lexer and precedence climbing parser as partial fixed points; grammar as inductive relation; parser = grammar by induction on derivations; termination by a token measure.

*Status: proved.* For every operator table, generator set and string spelled by the grammar of Spec.lean (all whitespace layouts, escapes, implicit products): parse = the denoted tree; unambiguity; termination on every string. std::stod and generator clone/resolve are parameters.

### C15 Expression unary minus and implicit multiplication mean what they say

*Model and proof.* Same model; values over ℝ; witness family for the violated clause.

*Status: partial.* Leading/bracketed minus and implicit multiplication proved; the clause for a minus after an operator is false of the code (C15_minus_after_operator_violated for all primaries and operators at least as tight as '-').

### C16 Processor numbering is a bijection between ranks and the NXPE x NYPE grid

*Model and proof.* Arithmetic on ranks.

*Status: proved.* Rank <-> (PE_XIND, PE_YIND) bijection, -1 outside the processor grid.

### C17 Domain decomposition partitions the grid; global and local indices are inverse

*Model and proof.* Arithmetic on decompositions; partition of the grid.

*Status: partial.* X and Y ownership, index inverses and guard overlap proved for every decomposition; the boundary-including global Y index (getGlobalYIndex) is proved consistent only when ranks above ny_inner are identified correctly by the code's test; C17_global_y_index_violated exhibits an accepted double-null decomposition (MYSUB <= 2*MYG) where the code's test misplaces a rank (finding F28).

### C18 Guard-cell messages pair up: every send has exactly one matching receive

*Model and proof.* Message lists of one exchange per rank; counting equality per channel from symmetry of the connection tables.

*Status: proved.* For every symmetric network (any number of ranks) each posted receive is matched by exactly one send of the same length and order, and peers exist; C18_layout_channels_match_partial instantiates it for layouts with all regions non-empty and MYSUB>=2 or no PF region (outside: C19_*_violated).

### C19 Y-topology connections are symmetric between processors

*Model and proof.* Sequence of `set_connection` calls in processor coordinates; each neighbour slot is computed in closed form; symmetry by cases.

*Status: partial.* Proved for every layout accepted by the mesh's own checks in which every region is present (single null, double null, limiter/core only, SOL only) and there is more than one row per rank or no private flux region. C19_one_row_per_rank_violated and C19_one_leg_violated show that the property is false of the code outside those hypotheses (findings F7, F29).

### C20 Packing and unpacking guard cells is lossless

*Model and proof.* Pack/unpack loops as folds over cells; round trip.

*Status: proved.* Pack/unpack of every list of fields and rectangle; lengths equal msg_len; unpack restores exactly the packed cells.

### C21 An accepted y decomposition never splits a processor across a branch cut

*Model and proof.* The check as a decision function; equivalence with divisibility of each region.

*Status: proved.* Acceptance is equivalent to every region being a whole number of ranks; no rank straddles a separatrix; the split search is sound and complete. C21_check_division_by_zero records that the check itself divides by zero when ny < NYPE and MYG = 0 (finding F10).

### C22 Parallel cyclic reduction solves the tridiagonal system it was given

*Model and proof.* Elimination as an invariant of the set of solutions: each reduction step preserves the solution set of the local rows; glue the blocks.

*Status: proved.* Exact arithmetic over any field; tiny pivot test abstract (must reject 0). MPI payload delivery trusted, any arrival order. Also uniqueness and success for non-singular matrices.

### C23 Cyclic reduction distributes the systems as a partition

*Model and proof.* Division with remainder; sums over processors.

*Status: proved.* Partition of systems, agreement of the three start formulas, message matching and buffer sizes, for every Nsys and nprocs.

### C24 Monitors fire exactly at the multiples of their period

*Model and proof.* Periods as naturals over a rational base step; invariant over `addMonitor` sequences; then the call times.

*Status: partial.* Monitor periods, call times and quit behaviour proved for every sequence of added monitors and every run; the claim that a monitor faster than the output interval is called at its own interval is FALSE of Solver::solve (it adjusts local copies of nout/timestep only): C24_fast_monitor_violated, and two further violations are exhibited (late and duplicate monitors).

### C25 State vector round trip: save_vars then load_vars is the identity

*Model and proof.* Enumeration of (point, variable, level) as a list without repetition; load/save as folds.

*Status: proved.* Layout of the flat state vector, save/load of variables and derivatives, set_id, globalIndex and the split right-hand side, for every set of variables, boundary flags, regions and nz>0.

### C26 RK4 reaches every output time exactly and is the classical 4th order scheme

*Model and proof.* Steps as vector expressions; run loops with fuel shown sufficient.

*Status: proved.* RK4/RK3-SSP/Euler steps are the classical, SSP3 and Euler tableau steps; the run loops of RK4, RKGeneric, RK3-SSP and Euler end exactly on every output time by a chain of such steps, fixed and adaptive, with termination (or MXSTEP), acceptance below rtol, CFL limits respected on all ranks. Initial time step above max_timestep is not clamped: C26_initial_timestep_violated.

### C27 Embedded Runge-Kutta tableaux are consistent

*Model and proof.* Tableaux in ℚ, order conditions over all rooted trees up to the order.

*Status: proved.* Every built-in tableau has the declared order on all rooted-tree order conditions; the generic step is the tableau's step; error estimate; two half-step Richardson step for RK4-simple. The coefficient-dropping quirk (F16) is C27_large_atol_violated.

### C28 Flux limiters are TVD-safe and symmetric

*Model and proof.* Formulas over an ordered field.

*Status: proved.* Upwind, Fromm, MinMod and MC reconstructions over any ordered field: constants and linear profiles exact, MinMod/MC edge values between neighbours, maximum principle, mirror and odd symmetry; Fromm shown not to be limited.

### C29 Finite-volume operators conserve

*Model and proof.* Telescoping of face fluxes on one rank, then across ranks through guard cells.

*Status: partial.* Div_par, Div_par_K_Grad_par, D4DY4 and Div_f_v (X with communicateFluxes, Y, Z) and Div_a_Grad_perp conserve exactly, on any number of ranks, open or closed lines; D4DY4_Index only on uniform grids, and it is shown to depend on the decomposition; D4DY4 is shown to return twice the derivative, Div_Perp_Lap to add the flow through the lower Z face. Missing: field-aligned transforms (identity here), FCI slices, OpenMP execution of loops that write to neighbours.

### C30 Derivative stencils are exact on polynomials of their order

*Model and proof.* Stencils evaluated on monomials; linearity.

*Status: proved.* Every registered stencil method of index_derivs.cxx (standard, upwind, flux, staggered) with populateStencil, over any ordered field, any uniform grid and any content of unfilled points: exact on polynomials of the stated degree at the right location, upwind side, monotone U1, conservative fluxes, mirror symmetry, stagger selection. FFT/SPLIT methods and the DerivativeStore lookup are outside this claim.

### C31 Boundary conditions impose what they name

*Model and proof.* Conditions as lists of assignments along a boundary line; the imposed relation after all assignments.

*Status: partial.* Frame, Dirichlet (2nd, 3rd, 4th order), Neumann, free, Robin, constant gradient, parallel Neumann, zero ddt and relaxation are proved for every region, width, staggering and field; the places where the code breaks the claim are proved as *_violated theorems. Not modelled: neumann_nonorthogonal, Laplacian and divcurl conditions.

### C32 Metric inversion: contravariant and covariant metrics are inverse, vectors round-trip

*Model and proof.* Cofactor inversion; field algebra.

*Status: partial.* Proved for every ordered field: inversion, failure report, round trips, vector algebra, V_dot_Grad, Curl Grad, Div Curl (for any additive commuting difference operators), Grad_perp. Laplace = Div Grad and Laplace_par, and the torsion forms of Curl, for exact derivatives on a class of fields closed under them (smooth functions on R^3 are a proved instance). The Christoffel property is false of the code for G2_22 (coordinates.cxx:989 differentiates g23 instead of g_23): C32_christoffel_violated; C32_christoffel_partial gives the exact deviation. Curl double-counts torsion with IncIntShear: C32_curl_grad_intshear_violated. Exact arithmetic.

### C33 The message stack behaves as a stack

*Model and proof.* State machine refined to a list.

*Status: proved.* Every operation history; scoped trackers including exceptions. Unguarded pop() in a parallel region is unbalanced (F20, C33_pop_in_parallel_violated).

### C34 RangeIterator enumerates exactly its ranges

*Model and proof.* Chain as list; iteration by induction.

*Status: partial.* Iteration proved for chains whose later ranges are non-empty; an empty later range is visited (F18, witness). Subtraction proved for one range without total overlap; total overlap is wrong (F6) or reads freed memory (F19), witnesses.

### C35 Matrix and Tensor element access is injective

*Model and proof.* Index arithmetic and reuse of the Array machine.

*Status: proved.* Index bijection and value semantics of all matrix/tensor programs on top of the Array machine. int overflow of products not modelled.

### C36 String utilities

*Model and proof.* Functions on lists of characters.

*Status: proved.* std::string primitives modelled by list functions; mixed quotes in lowercasequote (F21) recorded as witness.

### C37 editDistance is the optimal-string-alignment distance

*Model and proof.* Dynamic programme vs. inductive alignment cost.

*Status: proved.* Minimality against an independent alignment specification.

### C38 Factory registration and lookup

*Model and proof.* `std::map` as ordered association list; histories vs. declarative registration.

*Status: proved.* Every history of add/addUnavailable/remove/removeUnavailable against a declarative specification of registration; std::map as an ordered list of pairs; creators are arbitrary functions that may throw; getType via the Options model (C10).

### C39 Global indexer numbers every unknown once

*Model and proof.* Prefix sums over ranks; permutation with 0..N-1; guard exchange through the C42 model.

*Status: proved.* Bijection, unknowns, order, construction failures, isLocal for every set of ranks, stencils and mesh regions (C39_mesh_regions_*); guard cells carry the owner's number and own numbers are kept on every accepted layout (C39_y_guard_numbers, C39_x_guard_numbers, C39_own_numbers_kept; corner cells excluded: with periodic X they are numbered twice, C45_periodic_x_corner_violated). Numbers are exact integers (BoutReal below 2^53).

### C40 Message-buffer handle reuse

*Model and proof.* Pool as state machine; conservation of handles.

*Status: proved.* Every history of starts and waits in which each wait is for an outstanding communication; outside, violations are proved (repeated wait, empty group). C40_buffers_suffice for every symmetric network.

### C41 Expression sums, scopes and selection functions

*Model and proof.* Evaluation semantics; sums as finite sums.

*Status: proved.* Evaluation over the reals; pow and other math functions are parameters.

### C42 communicate fills guard cells with the field-line neighbours' values

*Model and proof.* Cells of all ranks; messages by C18/C20; final content in terms of the neighbour on the field line.

*Status: proved.* For every accepted layout in the stated quantifier; violation for repeated fields proved (C42_repeated_field_violated).

### C43 Guard-cell communication cannot deadlock

*Model and proof.* Small-step interleaving semantics; progress by a potential argument (first blocked operation).

*Status: proved.* Every program of communications on every symmetric network, every interleaving; a blocking send is only assumed to complete once the matching receive is posted (rendezvous).

### C44 Boundary regions are exactly the guard cells communication does not fill

*Model and proof.* Boundary iterators as lists; complement of the filled cells.

*Status: partial.* Proved in each rank's own columns; Y regions spill into communicated X guard columns on one side (C44_y_boundary_in_guard_column_violated).

### C45 Named mesh regions contain exactly the points they promise

*Model and proof.* Boxes and Y-boundary lists by C03/C05.

*Status: partial.* All named regions proved for every local size and rank place; the corner-cell clause of the Y boundary regions is false when a rank has one interior column in the region (C45_single_column_corner_violated) and for periodic X (C45_periodic_x_corner_violated).

### C46 The Arakawa bracket is the documented discrete Poisson bracket and conserves

*Model and proof.* Loops over one X-Z plane as folds, reads outside the array are a distinct outcome; values by induction on the loop; conservation by writing the bracket as antisymmetric sums over edges, telescoped across ranks.

*Status: proved.* Proved for at least two Z points, any grid spacing and any number of X processors. With one Z point the Field3D/Field2D version reads outside its array (C46_single_z_violated), which the quantifier excludes.

### C47 Options written to a file read back as the same options

*Model and proof.* Formatter as text, split at line ends; the lines spell items of the C13 grammar; reading them is tracked by an invariant (the tree read so far agrees with the one written) by mutual induction on the tree.

*Status: partial.* C47_round_trip, C47_history and C47_typed_read prove the claim for every tree with plain names and values (typed reads of numbers: provided they are printed with enough digits). Not proved because false of the code: values that need escaping and reals with more than six significant digits (the _violated theorems).

### C48 A field read from a grid file holds at each local point the value stored for the same global point

*Model and proof.* `Mesh/GridFile.lean`: the offset computation as outcomes (exception, undefined behaviour, value), the copy loops as folds of bounds-checked assignments over partial fields, the guard-filling loops; values abstract. Fold invariants give the exact content; in-range source and destination for every pass pin the offsets even in unchecked builds.

*Status: partial.* Proved for every layout, rank, size and build under the start-up facts collected in `Ready` (established from the decomposition by `C48_points_from_decomposition`). The clauses for files without X guards, with more X guards, an upper null only, 2-D data for Field3D, FieldPerp with nz, and zperiod 0 are false of the code (theorems `C48_*_violated`). Location attributes and log output not modelled.

### C49 Interpolation reproduces polynomials of its order, respects its bounds and stays inside the grid

*Model and proof.* `Num/Interp.lean` over any ordered field with a floor: corner selection, weights, bounds-checked accesses. One-dimensional identities (`ring`), then the two-dimensional ones by exchanging the order of a polynomial in two variables; index arithmetic reduces every wrap to `% ncz`.

*Status: partial.* Over an exact ordered field with floor. All clauses proved except those false of the code: bilinear at the last column, Lagrange just past xend, Field2D with negative displacement (theorems `C49_*_violated`). skip_mask, rounding and the field-aligned shift inside interp_to not modelled.

### C50 Field arithmetic has value semantics although storage is shared

*Model and proof.* `Field/Model.lean`: objects with references to blocks, reference counts, copy on write, operators as loops over memory that may alias. `Field/Props.lean`: a specification in which variables hold lists, an abstraction function, the invariant that references are to existing blocks, simulation of every step (aliasing of the loop handled by `loop_get`), lifted to every program by induction.

*Status: partial.* Simulation proved for every program of the listed steps; completion of legal steps proved. Missing: equality (false of the code), unguarded element writes and operands that are slices of the destination (false of the code); time derivatives, boundary conditions, several meshes and cell locations not modelled.

### C51 Reductions, averages and smoothing give decomposition-independent, bounded results

*Model and proof.* `Num/Reduce.lean`: reductions over lists of ranks of lists of threads, averages over processor lines, filters. `Num/ReduceProps.lean`: min and max as one selection argument with an invariant over threads and ranks; means by flattening sums; `nl_filter` by an invariant of its in-place loop.

*Status: partial.* All clauses proved over an ordered field except isUniform(f, true) (false of the code) and min/max when some rank has no cells (undefined behaviour). Rounding is not modelled; averageY assumes, as the code says, that the Y communicator is the whole column.

### C52 X and Y communicators follow flux surfaces

*Model and proof.* Model each loop of createCommunicators on one rank with MPI groups as lists of world ranks and a log of the collective calls. Close every loop by an invariant giving the exact state, so that getYcomm is a function of the kind of flux surface. Specification: SameSurface, by following upNeighbour row by row (the relation of C19). Prove group = surface, order = field-line order, agreement, matching of the collectives as filters of one global script, and the end tests.

*Status: partial.* Communicators, order, agreement, matching collectives and firstY/lastY proved for every legal layout; ySize proved right outside the separatrices and in the inner core, violated elsewhere (C52_ysize_violated). MPI itself (group union, range_incl, comm_create) is modelled by its specification.

### C53 Fourier operations in Z mean what they say

*Model and proof.* Represent FFTW's r2c and c2r by their documented sums over complex numbers. Orthogonality of roots of unity gives irfft(rfft f) = f, hence every row is a sum of waves, and a general lemma says what multiplying each mode does to the amplitudes. All operations are instances. Specification: waves and sawtooth as real functions, HasDerivAt for the derivatives.

*Status: partial.* All operations characterised exactly for every row and length. The round trip and slice identities are proved for odd nz or fields without Nyquist component; for even nz they are violated (C53_aligned_roundtrip_violated), as is lowPass with negative zmax and keep_zonal=false. FFTW is represented by its documented transform; arithmetic is exact.

### C54 Laplacian inversion solves the equation it states

*Model and proof.* Model tridagCoefs, tridagMatrix, Delp2 and LaplaceCyclic::solve on all processors of one row over the complex numbers, on top of the tridiagonal solver of C22 and the Fourier model of C53. The specification is the operator in real space acting on the functions through the rows, with derivatives of Mathlib. Proof: tridagCoefs in closed form, rows applied to amplitudes are the operator applied to waves, solutions of the matrix by C22. Existence by diagonal dominance through the reduction.

*Status: partial.* proved for every processor count and message order: Delp2, the interior equation, both boundaries, Delp2 after solve, periodic X, existence for Helmholtz problems with any number of boundary cells. Violated in the code: three outer flags for the mean, prescribed outer gradient on several processors, periodic X with non-zero A. Not covered: DST branch, IncIntShear, 3D metrics, the other Laplacian implementations, outer gradient flags on several processors.

### C55 Inversion of parallel derivatives solves the equation it states

*Model and proof.* Model the assembly of the matrix of both solvers on all processors of one flux surface (row numbering, twist-shift phases, target rows, rows left from an earlier surface), on top of the tridiagonal solver of C22 and the Fourier model of C53. The specification is the operator in real space, with Mathlib derivatives in Z, and the model of Div_par_K_Grad_par of C29. Proof: matrix rows applied to amplitudes are the operator applied to the waves; phases are shifts. Existence: a version of diagonal dominance that allows any number of boundary rows at both ends, kept through the reduction (C22_block_succeeds).

*Status: partial.* proved on one flux surface for every processor count, message order, twist and guard width: interior equation of both solvers, targets, coverage, existence. Not covered: transforms to and from field-aligned coordinates around the solve (C53), the shortest wave of an even nz with the mixed derivative or with twist, 3D metrics, rounding.

### C56 Parallel and drift operators mean the vector operations they name

*Model and proof.* Model the operators over fields ι → ℝ with abstract derivative operators (Verif/Num/ParOps.lean); hypotheses: a class S closed under arithmetic, reciprocal, sqrt and differentiation on which the operators are derivations (DiffAlg), shown to hold for smooth functions on R^3 with fderiv. Specification: dot, cross, grad, div of the C32 model with the unit vector bhat. Face-flux conservation by telescoping induction; Grad_parP with an Option-valued work array.

*Status: partial.* Proved for exact derivatives (smooth fields and metrics are a proved instance) and for every metric: Grad_par, Vpar_Grad_par, Div_par, Grad2_par2, Laplace_par, Laplace_perp, Div_par_K_Grad_par with a field coefficient, b0xGrad_dot_Grad in all overloads, DDZ of a Vector3D, conservation of the face-flux Div_par, exactness of Grad_parP on affine fields. Violated and shown: Div_par_K_Grad_par with a constant coefficient, DDZ(Vector2D), Grad_parP with one x guard cell. Not modelled: truncation error of the discrete stencils (C30), upwind schemes, Div_par_flux, staggered locations.

### C57 Single-index operators compute the field operators

*Model and proof.* Model the index helpers, the striped array, the accessor store and each operator on flat integer indices; prove the flat index arithmetic, the stripe layout (no overlap, all entries written) and the equality of each operator with the grid operators of C30/C34/C46/C56 (Verif/Num/SingleIndex.lean, SingleIndexProps.lean, SingleIndexOps.lean).

*Status: partial.* All operators equal the field operators at interior points (C57_derivatives, C57_delp2, C57_parallel, C57_div_par_grad_par, C57_bracket, C57_bracket_2d); b0xGrad without integrated shear only (C57_b0xgrad_partial; refuted with it). Current coordinates after clear (C57_coords_current); stale without (C57_coords_stale_violated). 3D metrics not modelled.

### C58 The pipelined and the serial tridiagonal Laplacian solvers solve the same equations

*Model and proof.* Model start/next/tridagForward/tridagBack over an arbitrary field with the state of one Fourier mode on all processors (Invert/Spt.lean), with arbitrary initial work arrays; prove by an invariant over the calls that the result is the Thomas solution of the system joined over the processors, and that the joined solution solves every processor's rows provided both neighbours hold the same row for a shared guard (the exact condition: the violation theorem gives the converse). LAPACK zgtsv enters as a specification (Correct: a returned vector solves; Complete: a non-singular system returns). All C54 theorems are restated for an inductive `Returned` with one constructor per solver. The message schedule is a separate model of waits, sends and receives of each call; deadlock freedom by taking the slowest processor.

*Status: partial.* Proved: the pipelined solver returns a solution of the joined system for any number of processors and any old work arrays (C58_spt_solves, needs both neighbours to hold the same guard rows, shown sufficient with two guard cells and violated with one), finishes after 2P-2 calls, succeeds on dominant problems, agrees with LaplaceCyclic and LaplaceSerialTri (C58_solvers_agree); the C54 theorems hold for all three solvers; messages match and no schedule deadlocks; cyclic_tridag solves the periodic system and succeeds on dominant ones. Missing: LAPACK zgtsv is a specification, rounding, the discrete sine transform branch, the low-memory and Field3D loops except as schedules.

### C59 The Adams-Bashforth solver takes steps of the order it says and lands on the output times

*Model and proof.* Model the file function by function over an ordered field (Solver/Adams.lean), with the limit exp(-log(err/rtol)/order) as a parameter characterised by two facts proved for the real function. Weights: Newton-Cotes moments by kernel evaluation of the tables, then polynomials by linearity and affine change of variables, then Lagrange interpolation (Mathlib). Runs: an invariant linking the deques to the recorded steps, through attempt, output loop and run loop.

*Status: partial.* All clauses proved for requested orders up to 8 (C59_weights, C59_run, C59_terminates, C59_exact, C59_exact_solution, C59_limit_ok). For every order above 8 and every history of times the weights do not even add up to the step: C59_order_above_eight_violated. Exact arithmetic; the vectors of all processors are one vector.

### C60 The split Runge-Kutta solver: order, stability and output times

*Model and proof.* Model the file function by function (Solver/SplitRK.lean), times through a rounding parameter. Diffusion step: stages on a linear operator are shifted Legendre polynomials (recurrence, derivatives at 1), |P_n| <= 1 on [-1,1] from the generating function over C; general right-hand sides through an explicit tableau and Butcher's conditions for all s; norm bound through the spectral theorem. Splitting: polynomials in dt with operator coefficients. Runs: invariant through output and run loop.

*Status: partial.* Order, stability, splitting, output times, acceptance and termination proved (C60_rkl_linear, C60_rkl_order, C60_rkl_step, C60_rkl_mode, C60_rkl_stable, C60_advection, C60_strang, C60_run, C60_adaptive_ends, C60_fixed_partial). 'Each over exactly the interval by which the time advances' holds for adapt_period = 1 and for fixed steps in exact arithmetic; the code violates it otherwise (C60_adapt_period_violated, C60_fixed_step_rounding_violated), and the order claim for time-dependent diffusive right-hand sides (C60_time_dependent_violated). Order for the split step is proved for linear operators.

### C61 The IMEX-BDF solver: weights, history and output times

*Model and proof.* Model the run loop, attempts, coefficient formulas and history shuffles (Solver/Imex.lean) with the nonlinear solver and the error estimate as parameters. Weights by the polynomial exactness specification and its uniqueness; run by an invariant relating the arrays of the solver to a list of accepted (time, state) pairs; termination from the counters and the fatal minimum step.

*Status: partial.* Weights, exactness, history and output times proved for every legal option set (maximal order 2-4, predictor legal, and fixed steps, nadapt = 1, or dtMin <= dtMinFatal, which includes the defaults). Outside: violated by the code (C61_order_one_violated, C61_stale_coefficients_violated). 'Errors only with reason' violated by C61_short_last_step_violated. The nonlinear solver is a parameter with the contract that a reported convergence solves the implicit equation; exact arithmetic.

### C62 Boundary condition strings and the choice of the setting

*Model and proof.* Model the parser character by character (Bndry/Factory.lean), with the constructors of the operations as parameters; specify the documented grammar as an inductive relation `Denotes`; induction over the grammar, with lemmas on splitting bracketed text at top-level commas. Option priority by case analysis against a list of keys.

*Status: partial.* Proved for arguments without '=': with one, violated by the code (C62_equals_violated). Rejection of malformed text is violated (C62_malformed_violated). The constructors of the operations (which may refuse their arguments) are parameters.

### C63 Boundary modifiers, application and ownership of boundary conditions

*Model and proof.* Modifiers as an inductive type over abstract base conditions with apply and apply_ddt threading the mutable width of the region (Bndry/Modify.lean); denotational value as specification; structural induction. Ownership as a heap machine with faults (Bndry/Own.lean); invariant: owners' conditions exist, are distinct and disjoint. Text conditions on top of the C62 grammar (Bndry/Direct.lean).

*Status: partial.* Proved: width restored for every nesting; values for nestings without relax, for Field2D, or at t = 0 (otherwise violated, C63_relax_time_violated); relax on the derivative with the inner condition at t = 0; no double free / use after free for programs that respect the stated rules (violated otherwise: C63_copy_setBoundary_violated, C63_outlive_violated); no leak without parallel boundaries; text conditions other than 'none'. Base conditions are parameters (C08 treats them). Corner zeroing of Field2D::applyBoundary not modelled.

### C64 Restarting continues where the last output was

*Model and proof.* Model a run as the sequence of its file events (create, put one variable, append one record, check) so that a crash is a prefix (Restart/Model.lean). The restart events form blocks with equal keys; content after any prefix by counting (Props). Chains of runs as an inductive predicate; invariant: restart state = orbit point, records = orbit records (Main). Alignment of record counts (More).

*Status: partial.* C64_restart_point for every crash point outside a restart write (inside: violated, content given exactly by C64_torn_content). C64_chain_partial for crash points at which both files have the same number of outputs (otherwise violated by C64_gap_violated, C64_append_abort_violated) and memoryless integrators (multistep solvers restart at order one). Writes are assumed to reach the file in program order.

### C65 A derivative call uses the method it is asked for, at the location asked for

*Model and proof.* DerivativeStore as finite maps over an arbitrary hash, histories as lists of operations (Deriv/Store, StoreProps). The built-in registration table and the index-space calls (Deriv/Dispatch); the polynomial exactness of the stencils of C51 lifted through the dispatch (DispatchThms, Flow); characterisation of the calls that return (Calls); grid spacing, shear, mixed derivatives (Physical); linearity of the Fourier shift and C53 give slices = aligned (ParDeriv).

*Status: partial.* Violated: fourth derivatives (staggered, non-uniform), FFT defaults, case of names, XOR keys, DDZ(Field2D) location, DDY with 3D metrics. Exactness is on one line of the grid, exact arithmetic; the WENO/limited methods are exact to the degree given by exactDegree only; slices = aligned only for linear methods (nonlinear ones do not commute with the shift) and rows without sawtooth. The spacing corrections `d1_dx`, `d1_dy` of `Coordinates::geometry` are modelled (`C65_spacing_correction`); the claim fails for Y when the grid has no `d2y` (`C65_d1_dy_violated`) and for `D2DZ2` with a varying `dz` (`C65_d2dz2_violated`).

### C66 The parallel cyclic reduction Laplacian solvers solve the same equations as the others

*Model and proof.* All processors of a row in X modelled together over any field (Invert/Pcr). Invariant: after each level the reduced rows are satisfied by exactly the values at the remaining points of any solution, and substitution restores the rest (PcrProps, PcrCore); the boundary rows are eliminated and filled in again (PcrBndry); the Thomas variant by reduction to rows 1 and n (PcrThomas). Diagonal dominance is preserved by every reduction, hence no zero pivots (PcrPivots). Connection to the inversion of C54/C58 through LapSetup.Returned (LaplacePcr, PcrThms). Messages as lists of (peer, tag) per exchange, matched by parity of the level rank.

*Status: partial.* Violated for FieldPerp (both solvers) and for pcr_thomas with one point per processor or fewer boundary rows than guard cells. Periodic X is not covered (unsupported, not refused). Freedom from division by zero is proved for Helmholtz-type problems with full-width boundaries, otherwise it is the hypothesis Pivots; a division by zero is modelled as a failure. Not DST; exact arithmetic; every processor has as many points (as BoutMesh makes them).

### C67 An input expression gets one meaning: names refer to the nearest enclosing option, circular definitions are refused

*Model and proof.* parse, resolve and findOption as mutually recursive functions on the factory's state (cache, lookup, options) over the expression parser of C14 (Expr/Factory, by partial_fixpoint). Specification: Nearest (the nearest enclosing section), own/inherited, and Means (the grammar of C14 with names standing for the meaning of their definitions, of finite height) in FactorySpec. Invariant: every cache entry holds the meaning of its key (FactoryMain); termination by the finite number of keys not yet on the lookup list (FactoryTerm); theorems in FactoryThms, violations in FactoryFindings.

*Status: partial.* Proved for texts whose qualified names have at most one colon, on a factory that has not thrown (for acceptance) and given an explicit section; the five _violated theorems show each restriction is needed. For qualified names soundness allows inheritance (`inherited`), completeness needs the option in the section itself (`own`), see C67_qualified_violated. max_recursion_depth = 0 (the default): FieldIndirect is not modelled. One option tree. Generators as functions, FieldGenerator arities as in C14.

### C68 Analytic inputs are evaluated at the same position whichever processor does it

*Model and proof.* GlobalX/GlobalY in both overloads and conventions, the two Contexts, create2D/3D/Perp, the vectors of GridFromOptions and ballooning over any ordered field (Mesh/Coord). Specification: counting core rows as finite sets, and the field-line neighbours of C19 (followUp). Proof: the position is a function of the row that is linear except at the upper targets (CoordProps), then each consequence (CoordThms).

*Status: partial.* Violated at the upper targets of a double null, by createPerp, by ballooning with one column, and in the old convention without closed surfaces (the _violated theorems). Proved for layouts accepted by the Y decomposition checks (Grid = Layout of C19 plus the order established by setYDecompositionIndices). Guard agreement of created fields for CELL_CENTRE, CELL_XLOW, CELL_ZLOW. Exact arithmetic. transform_from_field_aligned not modelled here (C44/C47 model the transforms).

### C69 Gathering a field onto one processor and scattering it again

*Model and proof.* Model all ranks together: memory as a function from addresses, the loops as folds of stores, the messages through their buffers, arrival order any list containing every other rank. Owned points are defined from the mesh alone (interior plus X boundaries at the edge of the processor grid). Prove that the loop points of a processor are its owned points, that owned points and global points correspond one to one (from C16 and C17), that row-major addresses are distinct, and conclude by induction over the stores and the arrivals.

*Status: proved.* Proved for all decompositions, roots and arrival orders. MPI is assumed to deliver each message unchanged. Read from the source and not modelled: the result of scatter always has location CELL_CENTRE and standard directions, whatever the gathered field had.

### C70 Flux coordinate independent parallel slices and their boundary conditions

*Model and proof.* The loops that build masks and regions as folds over the interior, the slices as memory with arbitrary initial content, the conditions as folds over regions in the order they are applied. Closed form of the regions by induction; completeness of the slices by the last-write argument; algebra for the conditions and the intersection; the failing parts as general theorems about every mesh meeting the stated conditions.

*Status: partial.* Proved for one Y guard cell: regions, completeness of the slices for dirichlet and neumann (and dirichlet_O3 forward where the backward line is inside), the conditions, the end of the line for affine positions, integration. The code violates the rest: several slices, the inner side, the intersection, dirichlet_interp, O3 with two leaving lines, outer corners, corners across the end of Z (theorems _violated). The wrapping of zt_prime comes after the weights are computed and has no effect.

### C71 The LaplaceXZ solver inverts Div(A Grad_perp x) + B x with its boundary conditions

*Model and proof.* Model setCoefs and solve (matrix rows, right-hand sides, transforms) of all processors of an X line together, on top of the tridiagonal solver of C22 and the transforms of C53. Prove that each row's equation, summed over modes, is the finite-volume operator on the waves through the rows; the boundary conditions mode by mode; success from block dominance.

*Status: partial.* Proved: the equation at every interior point (C71_interior), the inner boundary (C71_inner), the outer one for zero values (C71_outer_partial), success for elliptic coefficients (C71_succeeds). Violated: a non-zero outer value (C71_outer_set_violated). Not modelled: the PETSc LaplaceXZ implementation; periodicX.

### C72 The Naulin solver solves the full perpendicular equation to its tolerance, or throws

*Model and proof.* Model solve with its two loops, the splitting into DC and AC parts and the lambdas on all processors together; the FFT solver is a parameter assumed exact (C54). Loop invariants: the pair held was made by the FFT solver; counts and under-relaxation factor. The equation follows by algebra from the stopping test; termination by counting; convergence by induction on remaining iterations.

*Status: partial.* Proved: equation within tolerance (C72_equation), termination (C72_ends, C72_effort), convergence for contractions (C72_converges), single call for coefficients constant in Z (C72_axisymmetric), INVERT_SET boundary values (C72_set_boundary). Violated: INVERT_RHS (C72_rhs_boundary_violated). The FFT solver is a parameter with the contract proved in C54; the derivative in Z is a parameter (C53); NaN is modelled only for a zero right-hand side.

### C73 Timers measure the time their objects exist, however they are nested and reset

*Model and proof.* Model the static map and each operation with an explicit clock reading; histories are lists of timed events. Specification: sum of the intervals between events during which an object exists. Proof by an invariant relating each entry to count, last event time, busy time so far, preserved by each event; induction over the history.

*Status: partial.* Proved: total time, time since reset, hits, absence of interference, bounds, order of the report. Violated: the percentage column (C73_percent_violated); undefined behaviour for an empty report and for cleanup while timers exist. Not modelled: column widths and number formatting, clock resolution, floating-point rounding.

### C74 Metric quantities are continued smoothly into the boundary guard cells and moved exactly to staggered locations

*Model and proof.* Verif/Mesh/Extrap*.lean: the function on one X-Y plane of one processor with checked reads; the loops are turned into a list of jobs; invariant: every job finds three right cells to start from.

*Status: partial.* Proved: frame, corners, success, continuation and staggering exactness, few points. Missing: processors with fewer than three points of their own (continuation from exchanged guard cells), exX = false together with included corners. Violated: counting of points in Y, refusal of too small processors (out-of-bounds read).

### C75 LaplaceXY returns a field satisfying the discretised equation and its boundary conditions, on any processor layout

*Model and proof.* Verif/Invert/LapXY*.lean: numbering, insert calls and copy back of all processors; PETSc by the meaning of INSERT_VALUES and the contract that the returned vector satisfies the assembled system. Rows are shown to be written once, hence row times vector equals the stencil at the communicated field; slab decompositions of any size instantiate the hypotheses.

*Status: partial.* Proved: numbering, interior rows of both forms, X and Y boundary rows, guard copies, flux form, conservation, symmetry, all slab decompositions. Missing: existence and uniqueness of the solution, corner rows of the finite difference form as a separate statement, Y boundaries of processors with fewer than three points. Violated: Y closed on fewer than three points, finite difference form on limiter grids, conservation with varying spacing.

### C76 Command-line switches: every combination means what the help text says, and decides which files a run reads and writes

*Model and proof.* Both argument loops and the option part of BoutInitialise as functions (Verif/Options/CmdArgs); the specification is a grammar of words with their spelling. C76_switches: induction over the words; C76_every_command_line: every argument list is a list of words, possibly followed by a switch lacking its value. C76_command_line_values: refinement of the assignments by C09_step. C76_files composes these with C13_command_line and C10.

*Status: partial.* Proved for all command lines: C76_information, C76_type_information, C76_switches, C76_every_command_line, C76_command_line_values, C76_files, C76_options. Partial because the code violates the claim for the long names (datadir=, settingsfile=), for empty values and for values that look like switches or contain '=' (witness theorems *_violated); C76_files states the conditions. Not modelled: colour filter, MPI/PETSc argument handling, the check of the data directory.

### C77 Fourier and sine transforms depend on their arguments only, for every history of calls and every schedule of threads

*Model and proof.* Heap with explicit allocation and release (Verif/Fft/Heap); the serial functions as programs on it (Serial), histories of mixed calls (Calls), invariant relating cached length, arrays and plan, by induction over the history (SerialProps, Thms). The OpenMP version as a transition system, one step per access to a shared variable or array, with a critical section (Par); inductive invariant over all schedules and regions (ParInv, ParStep, ParRun), ranking function for termination (ParLive).

*Status: partial.* Proved for all histories: C77_every_history, C77_memory, C77_array_rfft, C77_array_irfft; for all regions and schedules: C77_every_schedule_rfft, C77_every_schedule_irfft, C77_no_deadlock, C77_terminates, C77_threads_memory. Partial because the code violates the claim for one-point sine transforms, zero-length irfft, threads using different lengths, and DST called by several threads (witness theorems *_violated). Memory is sequentially consistent in the model; FFTW itself is represented by the transform its manual specifies; arithmetic is exact.

### C78 The PETSc perpendicular Laplacian solver solves the stated equation, whatever the decomposition and whatever was solved before

*Model and proof.* Model of the row numbering, Element, Coeffs, all three loops, preallocation and PETSc's insertion rules (Verif/Invert/LapPetsc). Closed form of the numbering (LapPetscProps); each row written once by its owner (LapPetscAsm); preallocation suffices (LapPetscFit); columns distinct and complete (LapPetscRow); matrix rows in global indices, invariant over histories (LapPetscMain); row sums equal the independent specification LapPetscSpec (LapPetscThms); layout, history, exactness of stencils, flags, violations (LapPetscMore).

*Status: partial.* C78_equation, C78_history, C78_layout, C78_initial_guess, C78_boundary_flags, C78_constructor, C78_stencils, C78_boundary_stencils and C78_preallocation prove the claim for every decomposition with enough points (Sized). It is false of the code for smaller sizes, one guard cell with C set, and global flags set later (the _violated theorems). Not modelled: the Krylov solver itself (its contract is a hypothesis), the user preconditioner, rounding.

### C79 The backward Euler (beuler/snes) solver takes backward Euler steps to exactly the output times, whatever the nonlinear solver does

*Model and proof.* Model of run() as a transition on the solver's state with SNES an arbitrary oracle and a ghost list of events (Verif/Solver/Snes); an independent specification reads the events from the left and says which may come next (SnesSpec); invariant per attempt (SnesProps), over runs, termination by a ranking on remaining time and on the halvings left, determinism (SnesRun); the plain statements (SnesThms, SnesMore).

*Status: partial.* Proved for every behaviour of SNES: C79_history (every event allowed by the specification), C79_equation, C79_output_times, C79_outputs, C79_steps, C79_retry, C79_step_size, C79_gives_up, C79_termination, C79_predictor, C79_max_timestep, C79_reset. The code violates parts of the claim, shown by the theorems with suffix _violated: double step if SNES makes no iterations, reset never reached after a failure, the same step repeated, max_timestep not applied to first and reset steps, predictor unused after a first step from time 0, pseudo_transient form, no end with dt_min_reset <= 0. Exact arithmetic; SNES itself, Jacobian colouring and preconditioner are not modelled.

### C80 The CVODE, ARKODE, PVODE and IDA solvers report the integrator's own solution at the output times, whatever the integrator does

*Model and proof.* Model of run() and run(tout) of the four drivers over an arbitrary integrator with a ghost list of events (Verif/Solver/Sundials); trajectory and monitor specification independent of the drivers (SundialsSpec); invariant over output steps, cause of every exception, termination (SundialsProps, SundialsThms); tolerances over the state layout of C25, residual with C25's id vector, option reading over the tree of C09-C12 (SundialsMore).

*Status: partial.* Proved for every integrator behaviour: C80_outputs, C80_timestep_monitors, C80_ends, C80_completes, C80_modes_agree; C80_vector_options, C80_constraint_codes, C80_ida_residual, C80_field_option. The code violates parts of the claim, shown by theorems with suffix _violated: runs at negative times throw, timestep monitors see the wrong state, mxstep without effect in single-step mode, options read from a copy count as unused. Exact arithmetic; the SUNDIALS libraries, preconditioners and Jacobians are not modelled.

### C81 The 3D Laplacian solvers (petsc3damg, hypre3d) pose the equation documented

*Model and proof.* Model the matrix as entries plus the pending mode, elements as rows of (position, weight), the two loops as lists of statements, and the solver object with its setters. A run of statements is projected to one row; inserts agree with one function so the row after the first loop is that function whatever was there before (support invariant); adds are linear in the row's sum. An invariant over histories of calls ties the rows to the equation written independently with discrete derivatives. HypreMatrix by an invariant over statements.

*Status: partial.* Proved for grids with three or more points in z and histories without setCoefC1(Field2D) and without a change of INVERT_AC_GRAD; those cases are refuted (C81_stale_violated, C81_flags_violated, C81_one_z_point_violated). Assumes numbering (C39) and that slices above and below are made from cells outside the plane. The Krylov solver is external.

### C82 The iterative parallel tridiagonal Laplacian solver (ipt) returns only converged solutions of the whole system

*Model and proof.* Model local solves by an external tridiagonal solver with the internal guard rows patched, the reduced rows, the sweeps as simultaneous exchanges, the loop with arbitrary coarse corrections and an arbitrary test, and the object kept between calls. Every sweep leaves the copies in step; a converged mode is frozen, so the accepted residuals are those returned; algebra links a reduced residual to the mismatch of the copies; an invariant over histories keeps the stored coefficients those of the matrices.

*Status: partial.* Returned results are converged for any history at one y index with unchanged coefficients (C82_converged_partial, C82_exact), calls end (C82_ends), two processors always converge (C82_two). Refuted: one processor, second y index, changed coefficients, INVERT_KX_ZERO. Not modelled: coarse grids (arbitrary corrections), convergence on more than two processors, rounding, transforms, message order.

### C83 The band Laplacian solver solves the documented equation at fourth order

*Model and proof.* Model the assembly row by row as overwriting updates of the array, the band array index by index, LAPACK by its contract. Prove the band array stands for the matrix, that no flag touches an interior row, and an identity giving row = operator - defect for any argument.

*Status: partial.* Rows characterised exactly for every flag and metric (C83_rows); the documented equation holds where g13 = 0 and D = 1 and away from a single boundary cell (C83_solution_partial); fixed-value and gradient boundary rows proved (C83_fixed_value, C83_gradient). The mixed derivative, single boundary cells and INVERT_SET for DC are refuted. Zero-Laplacian and GRADPAR boundary rows are modelled but no claim is proved of them. zgbsv and the transforms are external.

### C84 The multigrid Laplacian solver returns what its tolerance and boundary flags promise

*Model and proof.* Model the distributed vectors with their ghost cells, all operators of the levels, both outer solvers with restarts and counters, and the assembly. Prove ghosts stay consistent, the GMRES acceptance test bounds the true defect of the returned field, the counters end every loop, Galerkin identity, and invariance of solutions. The Krylov scalars are arbitrary.

*Status: partial.* Proved for the GMRES outer solver (the default) on uniform grids and matching SET flags, for any Krylov scalars (C84_solution_partial); every call ends (C84_ends); Galerkin identity (C84_galerkin) and solutions as fixed points of the cycle (C84_cycle). Violated for the plain iteration, non-uniform grids, outer SET and single local levels. Not modelled: the Arnoldi scalars themselves, more than mergempi processors (Multigrid2DPf1D), OpenMP. C84_plain_partial: the plain iteration returns a solution within tolerance unless it has used all its cycles.

### C85 Approximate matches of option and function names are complete, correct and ordered by similarity

*Model and proof.* Model the recursive search with the multiset as an ordered list and specify distance by alignments (C37). Prove order, soundness and completeness by induction on the tree, and exact suggestions. The parser comparison is shown to order by name.

*Status: partial.* C85_find: order, soundness and completeness for every tree. The exact documented distance holds when the full name gives it or is beyond the limit (C85_distance_partial); the code violates it otherwise. C85_suggestions is exact. For function names the suggestion is an approximate match and exists exactly when one does (C85_did_you_mean_partial), but is the alphabetically first (C85_alphabetical), not the closest. Not modelled: the text of messages, std::tolower (arbitrary function).

### C86 MPI, PETSc, HYPRE and SLEPc are initialised before their first use and finalised once, whatever is created, copied and destroyed on which thread

*Model and proof.* Transition system with a step for each action of each thread and the critical section as a lock. Invariant: outside the section the count is the number of objects and the library is up exactly when there are any; per-location facts inside. A second invariant covers the end of the run. BoutComm is a sequential model with the rules of MPI as errors.

*Status: partial.* C86_lifetime_partial, C86_no_deadlock: for the classes with a critical section, without cleanup, refused options and uncounted copies, where the code violates the claim. C86_cleanup_partial: for the end of the run. BoutComm: C86_comm_own, C86_comm_given. Not modelled: PETSc and SLEPc finalising each other, exceptions leaving OpenMP regions.

### C87 The convective and diffusive evaluations of the model add up to the whole right-hand side

*Model and proof.* Field memory as functions over a commutative ring; user functions, boundary conditions and metric arbitrary. Folds over the lists of variables are characterised pointwise; the split branch uses the effect of the moves proved in C25. "The outcome is determined by the evolving values" is the hypothesis on the user functions that the equality needs.

*Status: partial.* C87_parts_sum (split models and models declared convective), C87_default_partial (default flag, no vectors or evolving boundaries), C87_source_once, C87_manufactured, C87_model_sees, C87_basis, C87_turn, C87_unset, C87_status_partial, C87_counters, C87_error_partial. Missing because the code violates it: post-processing in run_diffusive, status of the convective part, errors of 2D variables. Not modelled: cell locations and staggered vectors, exceptions thrown by the model.

### C88 The power-method solver finds the dominant eigenvalue

*Model and proof.* State as a function on the processors and their local numbers; loops as folds; division by zero as an explicit not-a-number outcome. The norm is proved to be the root mean square; induction gives the iterates; limits from Mathlib give convergence; Cauchy-Schwarz gives monotonicity; a bijection of the numbers gives independence of the decomposition.

*Status: partial.* C88_iterates, C88_converges (dominant eigenvalue up to sign), C88_eigenvector (absolute value), C88_monotone, C88_decomposition, C88_norm, C88_quit. The sign and complex pairs are lost by the code. Exact real arithmetic.

### C89 Eigenvalue runs report the frequencies of the model

*Model and proof.* The model is a linear endomorphism of a finite-dimensional complex space, SLEPc any source of its eigenvalues, the advance solver any operator that commutes with the model and advances its exponential solutions exactly. Existence of an eigenvector in an invariant eigenspace turns eigenvalues of the advance operator into frequencies; the complex logarithm gives the 2 pi ambiguity; the derivative of the logarithm gives the limit for Euler steps; output and monitor by induction on lists.

*Status: partial.* C89_round_trip, C89_ddt, C89_advance_partial (frequency up to 2 pi over the run time; exact if all are below pi), C89_advance_complete, C89_euler_partial, C89_euler_limit, C89_compare, C89_records_partial, C89_monitor_partial. SLEPc itself is any source of eigenpairs; exact arithmetic. C89_steps, C89_target_partial: steps per output and the default target.

### C90 Gyro-averages invert the documented operators whatever was done before

*Model and proof.* The shared solver is an optional record of settings, calls a transition system, the inversion any function that is correct for problems without Ex, Ez and global flags. Invariants over histories show that only those three settings survive a gyro-average; existence, uniqueness and contraction follow from a negative semidefinite Laplacian.

*Status: partial.* C90_pade0_partial, C90_pade1_partial, C90_pade2_partial (cell centres, no Ex, Ez, global flags), C90_pade1_two, C90_history, C90_reset, C90_exists, C90_contraction, C90_modes, C90_taylor. The inversion is any correct one (C01-C82 for the implementations).

### C91 Coordinates accessors give the values of their coordinates

*Model and proof.* Memory is numbered blocks of cells; the allocator is part of the history. Layout injective by arithmetic; the copy loops by induction over symbols and points; an invariant of the store (distinct addresses and blocks) and preservation lemmas give the snapshot theorem over all histories.

*Status: partial.* C91_layout, C91_snapshot (all histories without a clear of the object), C91_current_partial (object unchanged since), C91_clear.

### C92 The nonlocal heat flux conserves energy, never amplifies the local flux and reduces to it

*Model and proof.* The loop over groups is a fold over a pair; its closed form by induction. The weights are shown equal to integrals with the fundamental theorem of calculus and sum by telescoping. Conservation by summation, uniqueness of the group solutions from dissipativity of the operator.

*Status: partial.* C92_weight, C92_weights, C92_groups_partial (with the code's 0.25), C92_conservation, C92_mode, C92_isothermal, C92_conductivity, C92_coulomb. The parallel inversion is any correct one. Violated: C92_ratio_violated, C92_coulomb_violated, C92_tail_violated.

### C93 Laplacian inversions solve exactly the slices they should, and all processors take part alike

*Model and proof.* The static variables are a cache state over histories of queries, the loop a recursion that stops at a failure, the collective calls a transition system in which an operation takes place when all members of its communicator have reached one. An invariant gives progress.

*Status: partial.* C93_slices_partial (one mesh, no excluded rows), C93_extra, C93_progress (failures the same on a row), C93_program. Violated: C93_cache_violated, C93_guess_violated, C93_deadlock_violated.

### C94 The global index stored with a perpendicular slice names the same row wherever it is read

*Model and proof.* The index arithmetic is modelled function by function on integers and compared with a closed formula in the number of the row; uniqueness from disjointness of the accepted intervals.

*Status: partial.* C94_roundtrip (no restriction), C94_meaning_partial and C94_owner_partial (MYSUB > 2 MYG), C94_default_partial (first row of processors). Violated: C94_small_violated, C94_default_violated.

### C95 Radial sources and sinks are the documented smooth layers and never amplify the field

*Model and proof.* Numbers are reals with overflow and IEEE infinities; without overflow each function is reduced to a closed formula whose bounds and monotonicity are proved.

*Status: partial.* C95_source_partial, C95_sinks_partial, C95_gauss_partial, C95_buff_partial: where nothing overflows, exact arithmetic otherwise. Violated: C95_overflow_violated, C95_source_violated, C95_mask_violated.

## 5. Findings: places where the code does not do what the property (or its own comment) says

A finding marked *proved* has a `…_violated` (or otherwise named) theorem about the model; the others were seen while reading and are not formalised.

* **F1** `Region::offset` loses `ny`, `nz` for regions built from indices, sort, unique or `+` (proved, C06).
* **F2** Unary minus after an operator: `2*-3` parses as `(2*0)-3`, `2^-1` as `(2^0)-1` (proved, C15).
* **F3** `FieldFactory::findOption` uses `substr(lastpos, pos)` instead of `pos - lastpos`: names such as `a:b:c` are not found.
* **F4** `FieldFactory::parse` is not exception safe.
* **F5** `ExpressionParser::FuzzyMatch::operator<` is not a strict weak order.
* **F6** `RangeIterator -=` with total overlap modifies `this` instead of the inner range (proved, C34).
* **F7** `set_connection` with one row per rank reverses the direction of private-flux/upper X-point connections (proved, `C19_one_row_per_rank_violated`).
* **F8** `ySize` is off by one (lower private flux, middle SOL) and has a wrong condition (upper private flux).
* **F9** The `Region` constructor checks `zstart`/`ystart` twice and never `zend`/`yend` for 2D and perpendicular regions (proved, C03).
* **F10** `checkBoutMeshYDecomposition` computes `% 0` when `ny < NYPE` and `MYG = 0` (proved, C21).
* **F11** Copying a `RangeIterator` is shallow.
* **F12** `Solver::getLocalN` has a static cache shared between instances.
* **F13** `finaliseMonitorPeriods`' else-branch leaves `internal_timestep` unset: a monitor added later gets a wrong period (proved, `C24_late_monitor_violated`).
* **F14** Adams–Bashforth of order above 8 uses coefficients for 9 points with 8 points; the weights then sum to more than the step for every history (C59_order_above_eight_violated), so even a constant right-hand side is integrated wrongly.
* **F15** RK4 adaptive: `err == 0` divides by zero (harmless infinity); `err == rtol` repeats until the maximum number of steps.
* **F16** `RKScheme::setCurState` drops stage coefficients below `atol` (proved, `C27_large_atol_violated`).
* **F17** `Array::cleanup` resizes the arena to one store; other threads then index out of bounds (proved, C08).
* **F18** `RangeIterator`: an empty later range is visited once (proved, C34).
* **F19** `RangeIterator -=` reads freed memory (proved, C34).
* **F20** `MsgStack::pop()` in a parallel region is unbalanced (proved, C33).
* **F21** `lowercasequote` tracks `'` and `"` independently (proved, C36).
* **F22** `Options::withDefault(const Options&)` copies the default's full name (proved, C11).
* **F23** INI line `[a] b` selects the section `a] b` (proved, C13).
* **F24** INI line `[ a ]` keeps the spaces (proved, C13).
* **F25** An INI bare key `a:b` bypasses the colon check (proved, C13).
* **F26** `FieldIndirect`'s depth counter is not restored when an exception passes.
* **F27** The parser accepts mismatched brackets `(1]`; `{}x}` and double back-quotes are read oddly; `2exp(x)` throws.
* **F28** `getGlobalYIndex`/`getLocalYIndex`: double-null condition wrong when `MYSUB <= 2*MYG` (proved, `C17_global_y_index_violated`).
* **F29** `topology`: one-legged layouts give asymmetric connections (proved, `C19_one_leg_violated`).
* **F30** `wait` with `async_send` waits on send requests that were never posted after a `sendX` alone.
* **F31** `communicate` of an empty group waits for one request only (proved, `C40_empty_group_violated`).
* **F32** `get_handle` leaves two members of a new handle uninitialised.
* **F33** A field listed twice in a group is twist-shifted twice (proved, `C42_repeated_field_violated`).
* **F34** A `Field3D` added through `FieldData&` is never twist-shifted; `FieldGroup::makeUnique` sorts by address.
* **F35** `wait` never resets `in_progress`: a second wait frees the handle twice (proved, `C40_double_wait_violated`).
* **F37** `createYBoundaries` clips on one side only (proved, `C44_y_boundary_in_guard_column_violated`).
* **F38** `sendX/sendY(g, handle)` never check the length of the buffers of a handle supplied by the caller.
* **F39** `Solver::solve` passes local copies of `nout`, `timestep` to `finaliseMonitorPeriods`: a monitor faster than the output is called at output steps only (proved, `C24_fast_monitor_violated`).
* **F40** A monitor added twice has its period multiplied twice (proved, `C24_added_twice_violated`).
* **F41** `Solver::run_diffusive` of an unsplit model never calls `post_rhs`.
* **F42** `globalIndex` at boundary points with 2D but no 3D evolving boundaries (proved, `C25_globalIndex_2d_boundary`).
* **F43** `D4DY4_Index` counts each internal face twice within a rank, once at rank boundaries (proved, `C29_D4DY4_Index_violated`); its left common factor uses `dy(j+1)`, and there is a `J(i,j,j)` typo.
* **F44** `D4DY4` returns twice the fourth derivative (proved, `C29_D4DY4_twice_violated`).
* **F45** `Div_Perp_Lap` adds the flow down where it should subtract (proved, `C29_div_perp_lap_violated`).
* **F46** `Div_f_v` and `Div_a_Grad_perp` write neighbour cells inside `BOUT_FOR`: a data race under OpenMP.
* **F47** `Div_par` reads `j-1` at `j = ystart-1`: out of bounds with one guard cell.
* **F48** `DDX_S2` multiplies by the sign of the value: not odd or linear (proved, `C30_S2_not_odd_violated`).
* **F49** `BoundaryDirichlet_4thOrder` has wrong coefficients; both fourth-order conditions write outside the array with one guard cell (proved, C31).
* **F50** `Neumann_NonOrthogonal` for `Field2D` tests `bx == 2` instead of the width.
* **F51** `neumann_4thorder(val)` imposes the derivative `-val` (proved, C31).
* **F52** `BoundaryConstLaplace` for `Field2D` reads `f(x-bx-1)` instead of `f(x-2bx-1)`.
* **F53** Same condition: wrong sign of one term.
* **F54** `BoundaryRelax::apply(Field3D, t)` drops `t` (proved, C31).
* **F55** `BoundaryTo/FromFieldAligned::apply_ddt` leave the field transformed (proved, C31).
* **F56** Neumann with width 3 or more leaves the outer guard cells unset (proved, C31).
* **F57** `BoundaryDivCurl`: `/ J * g11` precedence, sign of the `g13` term.
* **F58** `BoundaryWidth` makes the condition act between the two guard cells (proved, C31).
* **F59** `Coordinates::geometry`: `G2_22` uses `DDY(g23)` for `DDY(g_23)` (proved, `C32_christoffel_violated`).
* **F60** `cross()` never sets the location of its result.
* **F61** `invert3x3` with a zero threshold does not detect an exactly singular matrix (proved, C32); the error branch of `calcCovariant` is dead.
* **F62** The `while` loop of `GlobalIndexer` over candidate indices never changes anything (proved, `C39_loop`).
* **F63** `addBoundaryRegions`: a corner cell is left out of the Y boundary regions when the region has one interior column (proved, C45).
* **F64** `addBoundaryRegions` ignores periodic X: Y boundary regions contain X guard columns which are copies (proved, C45).
* **F65** `GlobalIndexer::calculateSparsity` double counts off-diagonal entries when a rank is its own Y neighbour and has a remote X neighbour (see C39).
* **F66** Smaller ones: the RK4 initial time step is not clamped to the maximum (proved, `C26_initial_timestep_violated`); `chooseProcessorSplit` does not check `ny % NYPE`; Neumann at a staggered inner X boundary of a `Field2D` uses `dx` at a different cell than the others; `SpecificInd::zm` of a negative flat index can be non-negative; periodic X with one rank and `MXSUB < MXG` packs guard cells.
* **F67** `bracket(Field3D, Field2D, BRACKET_ARAKAWA)` peels the first and last Z point; with `LocalNz == 1` it reads at z = 1, outside the field (proved, `C46_single_z_violated`).
* **F68** `bracket(Field2D, …, BRACKET_ARAKAWA_OLD)` has no case of its own and silently uses the default full expression.
* **F69** Reals are written to BOUT.settings through a stream with default precision: six significant digits; a re-run from the settings file uses a different value (proved, `C47_precision_violated`).
* **F70** The INI writer does not escape: a string with `#`/`;`, an open bracket or quotes at its ends, or a documentation string with a line end does not survive writing and reading; an open bracket swallows the following options silently (proved, `C47_*_violated`).
* **F71** Grid file fields without X boundary columns: the branch `else if (grid_xguards == 0)` in GridFile::getField is dead (`>= 0` is tested first), so the documented case throws (CHECK) or writes at negative X indices (proved for every mesh with MXG > 0, `C48_no_x_guards_violated`).
* **F72** Grid file fields with more X boundary columns than the mesh: the surplus is added to the destination instead of the source index, so the read overruns the local field although the error message says `grid_xguards >= mxg` is accepted (proved, `C48_extra_x_guards_violated`).
* **F73** Upper null only (jyseps1_1 = -1, jyseps2_2 = ny-1, jyseps2_1 /= jyseps1_2): numberOfXPoints is 0, so a grid file with Y boundary rows passes the size check and is read 2*g rows too low on every rank past the upper targets, silently (proved, `C48_upper_null_violated`).
* **F74** Reading a FieldPerp, or a Field3D from 2-D data (both documented as supported), from a file with `nz` evaluates size[2] on a two-element vector: undefined behaviour; it can never succeed (proved, `C48_fieldperp_violated`, `C48_field3d_from_2d_violated`).
* **F75** Reading Fourier-stored 3-D data on a domain longer than two turns rounds zperiod to 0 and divides by zero (proved, `C48_fft_zperiod_violated`).
* **F76** GridFile::readField(FieldPerp): the test `yindex <= LocalNy` accepts the index LocalNy, one past the last row (read, not proved).
* **F77** XZBilinear at the last column exactly reads column LocalNx, one past the array, with weight zero (proved, `C49_bilinear_last_column_violated`).
* **F78** XZLagrange4pt: for xend < delta_x < xend+1 the position is replaced by xend, although the guard cells hold data and positions beyond xend+1 are interpolated normally (proved, `C49_lagrange_past_end_violated`).
* **F79** interpolate(Field2D, delta_x) truncates a negative displacement towards zero and extrapolates from the wrong side (proved, `C49_field2d_negative_violated`); it also takes delta_x as a displacement while interpolate(Field3D, ...) takes an absolute index under the same name.
* **F80** `operator==` on Field2D, Field3D and FieldPerp tests `min(abs(a - b)) < 1e-10`, so two fields compare equal if they agree at any one point (proved, `C50_equality_is_some_point`, `C50_equality_violated`).
* **F81** Writing an element with `f[i] = v` without calling `allocate()` first changes every field that shares the data (proved, `C50_raw_write_violated`).
* **F82** `f += f.yup()` and `f = f.yup()` destroy their own operand; the first only when the data of `f` is not shared, so an unrelated copy decides whether the program is defined (proved, `C50_own_slice_violated`).
* **F83** `isUniform(f, true)` combines the ranks with MPI_LOR, so it is true if the field is uniform on any one rank, and `getUniform(f, true)` then accepts a field that varies within and between ranks (proved, `C51_uniform_all_is_some_rank`, `C51_uniform_all_violated`).
* **F84** `min` and `max` start from `f[*region.cbegin()]`: on a rank where the region has no cells this dereferences the end iterator, so `min(f, true, "RGN_...")` over a boundary region is undefined on ranks without that boundary (proved, `C51_empty_rank_violated`).
* **F85** `BoutMesh::ySize` (see F8), measured against the Y communicator: single null private flux +1, outer half of the core returns 0; double null outer core returns the length of the upper private flux region and vice versa; between the separatrices +1 (`C52_ysize_violated`).
* **F86** For an even number of points in Z the round trip `fromFieldAligned(toFieldAligned(f))` multiplies the Nyquist component by cos²(π nz zShift/zlength) instead of 1, as does shifting forth and back; a sawtooth shifted by a quarter of its phase is lost (`C53_aligned_roundtrip_violated`). The same holds for each application of the twist-shift.
* **F87** `lowPass(f, zmax, false)` with negative zmax: with keep_zonal a negative zmax means no limit, without it zmax = -1 removes every mode and zmax < -1 writes in front of the coefficient array (`C53_lowPass_negative_violated`).
* **F88** Outer boundary, mean: the branches for INVERT_DC_GRADPAR, INVERT_DC_GRADPARINV and INVERT_DC_LAP test inner_boundary_flags and loop to inbndry (invert_laplace.cxx L684-705), so these outer flags are ignored and the inner ones change the outer condition (`C54_outer_dc_flags_violated`, `C54_outer_follows_inner_violated`); the DC_GRADPAR branch also reads g_22(ncx - ix + 1), beyond the array on the last point of a single processor.
* **F89** Outer boundary with a prescribed gradient reads g_11 and dx at the row number ncx - ix instead of the X index xe - ix; they differ on the last of several processors, where rows start at xstart.
* **F90** Periodic X pins the mean at the first point and subtracts the X average also when A is not zero: `Delp2(x) + A x = A` has the solution 1, which is never returned (`C54_periodic_helmholtz_violated`).
* **F91** For even nz the shortest wave is solved with complex coefficients when g13 or G3 is non-zero and its imaginary part is dropped on return, so Delp2(solve(b)) differs from b in that wave; `C54_delp2_solve` needs the extra hypothesis.
* **F92** With IncIntShear the term g11 I^2 is added to the Z coefficient after the multiplication by D (invert_laplace.cxx L367-373), so it is not multiplied by D.
* **F93** `Div_par_K_Grad_par(BoutReal kY, f)` (difops.cxx:328-335) returns `kY * Grad2_par2(f)`: it drops the `Div_par(kY) * Grad_par(f)` term the overloads for a field coefficient have, so it is not the divergence of the diffusive flux when B varies along the field line. Passing the same constant as a field gives a different answer. Witness `C56_div_par_K_const_violated` (0 against -1).
* **F94** `DDZ(const Vector2D&)` (derivs.cxx:127-143) returns zero, with the comment that the connection terms `Gx_y3` contain z derivatives; they also contain x and y derivatives (`G3_13 = g33 DDX(g_33)/2 + ...`), and `DDZ(const Vector3D&)` includes them. Witness `C56_ddz_vector2d_violated`.
* **F95** `Grad_parP` (difops.cxx:95-104) fills `gys` for 1 <= x <= LocalNx-2 and reads it at x-1 and x+1 for the same range, so with `MXG = 1` the first and last domain cells in x are computed from uninitialised memory. Witness `C56_grad_parP_violated`.
* **F96** `Curl` subtracts the `ShiftTorsion` term also when `IncIntShear` is set, where x and y derivatives already commute: the curl of a gradient is then -ShiftTorsion DDZ(f)/J. Witness `C32_curl_grad_intshear_violated`.
* **F97** `Div_par_flux` (difops.cxx:281-298) divides only yup(0)/ydown(0) of f by B, using `Bxy` itself where `Div_par` uses `Bxy.yup(i)`/`Bxy.ydown(i)` (wrong point for 3D metrics), and leaves further slices of `f_B` unset after `splitParallelSlices`. `Coordinates::DDY(Field3D)` with 3D metrics and no parallel slices (coordinates.cxx:1501-1507) returns the index derivative without dividing by dy. (Noted, not modelled.)
* **F98** C57: `CoordinatesAccessor` caches by the address of the `Coordinates` object; `Coordinates::geometry()` and the destructor do not clear the entry, so after a metric change (or when a new object reuses the address) accessors read the old metric unless the user calls `clear` (`C57_coords_stale_violated`; the need to call clear is documented for metric changes only).
* **F99** C57: the single-index `b0xGrad_dot_Grad` and `DDX` have no integrated-shear term, the field operators have when IncIntShear is set (`C57_b0xgrad_intshear_violated`). Also `b0xGrad_dot_Grad(FieldAccessor, Field2DAccessor, int)` (single_index_ops.hxx:292) declares two template parameters that no argument determines, so a call without explicit template arguments cannot resolve to it (read from the text, not modelled).
* **F100** `LaplaceSPT` solves for guard cells with each processor's own copy of the row: the forward sweep stops at `xend` and the next processor starts at `xstart`, but `tridagMatrix` is called on the whole local array, and the coefficients at `xend` are only right if the metric and `C` in the guard cells determine the same row as on the neighbour. With one guard cell the first-derivative terms of the outermost cell cannot be formed from data of the neighbour, so a varying `C` or non-uniform `dx` gives other equations at processor boundaries than on one processor. Witnesses `C58_one_guard_violated`, `C58_spt_guard_violated`.
* **F101** `LaplaceSPT::solve(FieldPerp)` (spt.cxx:97-101) takes one boundary row only for the global flag `INVERT_BOTH_BNDRY_ONE`; `tridagMatrix` also honours `INVERT_BNDRY_ONE` per side. With that flag, `INVERT_SET` and `MXG >= 2`, `x0` is copied into right-hand sides of rows that hold interior equations. (Noted; modelled right-hand side is the code's.)
* **F102** `LaplaceSerialTri` on a periodic X domain: `tridagMatrix` pins the DC mode by replacing the row of index 0, which is a guard cell that `cyclic_tridag` (serial_tri.cxx:201) does not get, so with A = 0 the system it solves for kz = 0 is singular. Witness `C58_serial_periodic_mean_violated`.
* **F103** `tridagForward` (spt.cxx) checks the pivots of rows 1.. for zero but not the first one on each processor: a zero there gives infinities instead of the exception. (Modelled as failure.)
* **F104** split-RK, `run`: the step without adaptation is `take_step(simtime, timestep, ...)` although the time is advanced by `dt`, which is cut to end on the output. With `adapt_period > 1` the last step before an output is too long (dy/dt = 1 gives 3/2 instead of 1, C60_adapt_period_violated); with `adaptive = false` rounding is enough: output interval 1 and time step 0.1 take eleven full steps of 0.1 (C60_fixed_step_rounding_violated).
* **F105** split-RK, `take_diffusion_step`: the right-hand side is evaluated at `curtime + (weight/3)*dt` where `weight` already contains `dt`, and at `curtime` for all later stages. For a right-hand side that depends on time the step is only first order for every number of stages: dy/dt = t gives a multiple of dt^3 instead of dt^2/2 (C60_time_dependent_violated).
* **F106** IMEX-BDF, `run`: with `max_order = 1` the shuffle of the time steps reads and writes `timesteps[1]` of an array of length one, and the predictor reads `uV[1]` (or `uV[2]` at maximal order two with predictor 2) (C61_order_one_violated).
* **F107** IMEX-BDF, `run`: after a failed solve the step is retried with a smaller `dt`, but the coefficients are computed again only in steps that check the error (`nadapt` divides the counter) or when dt has changed by the check. With `nadapt > 1` and `dtMin > dtMinFatal` the retry uses the weights of the failed attempt: dy/dt = 1 gives y(5) = 16/3 (C61_stale_coefficients_violated).
* **F108** IMEX-BDF, `run`: when a checked step is cut to end on an output its length becomes the next step size. A tail below `dtMinFatal` makes the next output interval abort although the solver converges and all errors are below the tolerance (C61_short_last_step_violated).
* **F109** Boundary factory: `bndry_par_yup` and `bndry_par_ydown` are marked as possible settings but never read, so a misconfigured or old-style parallel setting is silently ignored (C62_par_yup_violated).
* **F110** Boundary factory: an argument that contains '=' inside brackets (the scope syntax `[n=2](n*x)` of expressions) is taken for a keyword: `dirichlet([n=2](n*x))` throws, and inside a modifier `front()` of an empty list is read (C62_equals_violated).
* **F111** Boundary factory: keywords given to modifiers or to parallel conditions are silently dropped (C62_keyword_dropped_violated).
* **F112** Boundary factory: a modifier around a condition on a parallel boundary silently removes the condition (C62_parallel_modifier_violated).
* **F113** Boundary factory: text after the last closing bracket is ignored, and missing closing brackets are accepted (C62_malformed_violated).
* **F114** Boundary conditions: `pre_rhs` calls `applyBoundary(t)`, which also imposes the conditions marked `apply_to_ddt` on the values. So with `relax(c, r)` the field satisfies `c` exactly at every right-hand side evaluation and the relaxation never acts (C63_relax_imposed_violated).
* **F115** `BoundaryRelax::apply(Field3D&, t)` and its `apply_ddt` ignore the time: the inner condition is applied as at t = 0 (C63_relax_time_violated).
* **F116** `BoundaryToFieldAligned::apply_ddt` and `BoundaryFromFieldAligned::apply_ddt` transform the field itself and never transform it back (C63_aligned_ddt_violated).
* **F117** `width(relax(..))` and the field-aligned modifiers around `relax` lose the flag `apply_to_ddt`, so `applyBoundary(false)` imposes them on the values (C63_flag_lost_violated).
* **F118** `setBoundary` (so `solver->add`) on a copy of a field with boundary conditions appends to the shared conditions and marks the field as owner: both fields delete them (C63_copy_setBoundary_violated).
* **F119** A copy of a field that outlives the original applies deleted boundary conditions (C63_outlive_violated).
* **F120** `setBoundary` called again adds the conditions to the old ones instead of replacing them; parallel conditions are never deleted (C63_setBoundary_twice_violated).
* **F121** `applyBoundary("none")` calls a member function of a null pointer on every processor with a boundary (C63_none_violated).
* **F122** `applyBoundary(region, condition)` throws on every processor without that region, so it cannot be used for a target in a parallel run; the parallel variant ignores unknown labels (C63_region_missing_violated).
* **F123** Restart files are overwritten in place, variable by variable: a crash while writing leaves a file whose variables belong to different outputs, and it is read without complaint (C64_torn_restart_violated; exact content C64_torn_content).
* **F124** A restarted run empties the restart file it has just read before writing it again: killed at that point, the state is lost (C64_truncated_violated).
* **F125** The restart file is written before the output file: after a crash in between, a restart that appends never writes the records of that output, and no check notices (C64_gap_violated).
* **F126** After a crash while the output file is written, every run that appends to it is aborted by `verifyTimesteps` at its first output (C64_append_abort_violated).
* **F127** `hist_hi` is written before `BoutMonitor` increments the counter, so it lags by one and every restart loses one output in the count (C64_counter_violated).
* **F128** A restarted run writes back every variable it has read: one that is no longer evolved stays with its old value and is taken up from there when it is evolved again (C64_stale_variable_violated).
* **F129** A changing scalar registered with `restart.add(x, "x")` or `addOnce` aborts the run at the first output at which it has changed ('Setting a value from same source') (C64_restart_scalar_violated).
* **F130** `DerivativeStore::getKey` combines hashes with XOR: two different (direction, staggering, method) triples can share a key, so the second registration is refused and the first method is used for both; it depends on `std::hash` (C65_key_unique_violated for a concrete hash; C65_lookup gives the condition).
* **F131** Staggered fourth derivatives always throw: none is registered, not even the default (C65_staggered_fourth_violated).
* **F132** `[ddz] first = fft` / `second = fft` makes every default staggered Z derivative, and the default second Z derivative of a Field2D, throw (C65_fft_default_violated).
* **F133** Method names given in calls are case-sensitive although those in the options are not (C65_case_violated).
* **F134** The manual lists an upwind method `U4` and second-derivative methods `W2`, `W3`, `S2` that are not registered (C65_methods gives the complete list).
* **F135** `D4DX4`, `D4DY4` have no correction for non-uniform grids (C65_nonuniform_fourth_violated).
* **F136** `Coordinates::DDY` under `BOUT_USE_METRIC_3D` omits the division by `dy` for fields without parallel slices (C65_ddy_metric3d_violated).
* **F137** `DDZ(Field2D, outloc)` ignores `outloc` (C65_ddz2d_location_violated).
* **F138** In a direction with one point any method name is accepted silently (C65_single_point).
* **F139** `DerivativeStore::initialise` falls back on the *previous* default, so a second initialisation with fewer options does not restore the built-in defaults (C65_default_from_options states the exact rule).
* **F140** `LaplacePCR::solve(FieldPerp)` and `LaplacePCR_THOMAS::solve(FieldPerp)` never set `nsys` (0 until a Field3D has been solved for): the result is the transform of uninitialised memory whatever the right-hand side; after a Field3D solve with more than one Y slice the arrays are overrun (C66_fieldperp_violated).
* **F141** `pcr_thomas` with one X point per processor is accepted and returns a wrong solution: each row is reduced with itself (C66_thomas_one_point_violated).
* **F142** `pcr_thomas` with two or more guard cells and one boundary row (`INVERT_BNDRY_ONE`, `INVERT_BOTH_BNDRY_ONE`) returns a wrong solution: the guard row next to the interior is not eliminated completely (C66_thomas_narrow_violated).
* **F143** `pcr` and `pcr_thomas` do not refuse periodic X, which they do not support: `firstX`/`lastX` still eliminate rows of interior points.
* **F144** The parallel-boundary forms of the per-variable option (`bndry_par_all`, `bndry_par_yup_xin`, ...) are looked up by `BoundaryFactory::createFromOptions` but are not among the keys marked conditionally used, so with the unused-option check an input that sets them for a variable whose parallel boundaries are not applied on some processor is reported as having unused options (C62_marked_violated).
* **F145** `FieldFactory::findOption` cuts the parts of a name a:b:c with `substr(lastpos, pos)`, whose second argument is a length: names with two or more colons are looked up in the wrong sections and are not found although they are set (C67_nested_violated).
* **F146** `FieldFactory` is not exception safe: when parsing throws inside `resolve`, the names under evaluation stay on the `lookup` list, so after the input is corrected (and the cache cleaned) the same factory still reports `Infinite recursion` for a definition that is not recursive (C67_after_exception_violated).
* **F147** Whether a qualified name `s:b`, with b defined not in s but in a section above it, is found depends on history: it is refused by a fresh factory and accepted after `b` was parsed in section s, because the cache key is the same (C67_qualified_violated).
* **F148** `FieldFactory::parse(x, nullptr)` reads the names in the factory's default section but files the result under the key of the root section, so a later `parse(x, root)` returns the wrong generator (C67_default_section_violated).
* **F149** The cache is not invalidated when options change: `parse` returns the old generator unless `cleanCache` is called (C67_stale_violated).
* **F150** Qualified names are resolved from the global root `Options::getRoot()` and not from the root of the tree given to the factory (read from the source; the model has one tree).
* **F151** `GlobalY` gives the guard rows at the two upper targets of a double null positions in the opposite leg, so boundary values there are evaluated half the length of the upper legs away from the target (C68_upper_target_violated); the same for fields at CELL_YLOW in the first row of the outer upper leg (C68_upper_face_violated) and for `GlobalY(ystart - 0.5)` used by ShiftedMetricInterp (C68_y_half_violated).
* **F152** `FieldFactory::createPerp` evaluates y at local row 0, a guard row, so every row of processors creates a different FieldPerp from the same expression (C68_perp_violated). It also lacks the fallback of create3D: with `transform_from_field_aligned` and a transform that cannot transform, the result stays marked as field aligned.
* **F153** `ballooning` divides zero by zero when a processor has one X point (MXSUB = 1) and converts the result to int (C68_ballooning_one_column_violated).
* **F154** With `symmetricGlobalY = false` and no closed surfaces, rows between the X-points are numbered from the start of the inner leg instead of the start of the core (C68_old_open_violated).
* **F155** FCI with two Y guard cells: `FCITransform` gives the maps of all offsets the same two regions per direction, so a point whose line leaves only on the second step has its first slice overwritten by the boundary condition, and the second slice is never set at points whose line leaves (`C70_second_slice_violated`).
* **F156** FCI: a line ending at an index in [0, xstart) leaves through the inner wall but is put in the outer region (`C70_inner_violated`).
* **F157** FCI: the recorded intersection has the Y of the middle of the line and the X and Z of its end, so generator boundary values are evaluated off the field line (`C70_off_line_violated`).
* **F158** `dirichlet_interp` (parallel): the formula does not keep constants; a field equal to the boundary value gets -14/3 of it at half a cell with unit spacing (`C70_dirichlet_interp_violated`).
* **F159** `dirichlet_O3` (parallel) at a point both of whose lines leave reads the opposite slice before it is set (`C70_o3_order_violated`).
* **F160** `FCIMap` corner maps are marked as leaving only for negative indices; corners with a line that left through the outer wall are interpolated at a mean of indices inside and outside (`C70_outer_corner_violated`).
* **F161** `FCIMap` corner maps: at the last Z point the mean of the indices is taken across the periodic boundary, which puts the corner half the domain away (`C70_corner_wrap_violated`).
* **F162** `LaplaceXZcyclic::solve` (`src/invert/laplacexz/impls/cyclic/laplacexz-cyclic.cxx` L222-249) computes the outer boundary value asked for by `INVERT_SET` or `INVERT_RHS` and then overwrites it with zero unconditionally: non-zero outer boundary values are silently ignored, while the inner ones are honoured (`C71_outer_set_violated`).
* **F163** `LaplaceNaulin::solve` (`naulin_laplace.cxx` L249-257) builds the right-hand side of the FFT solver with whole-field arithmetic from derivatives that are only set in `RGN_NOBNDRY`: with `INVERT_RHS` the boundary value is built from uninitialised memory (and divided by `D`), so it is not the value the user put in the boundary cells (`C72_rhs_boundary_violated`).
* **F164** `Timer::printTimeReport` (`src/sys/timer.cxx` L132-143): the column headed "% of top" shows the fraction, not the percentage: the top timer has 1.00 (`C73_percent_violated`).
* **F165** `Timer::printTimeReport` with no timers dereferences `std::max_element` of an empty map (`C73_empty_report`); `Timer::cleanup` while a timer exists leaves it with a dangling reference, written to in its destructor (`C73_cleanup_dangling`).
* **F166** `Coordinates::geometry` (`coordinates.cxx` L1114, L1166) computes `d1_dy = DDY(1. / dy)` with the class's own `DDY`, which divides by `dy`, where X uses the index-space derivative (and the comment says `d/di(1/dy)`): without `d2y` in the grid file `D2DY2` on a non-uniform grid is corrected by the wrong amount (`C65_d1_dy_violated`).
* **F167** `D2DZ2` (`derivs.cxx` L227-237) has no correction for a spacing that varies in Z, although with 3D metrics `dz` may and `d1_dz` is computed for it (`C65_d2dz2_violated`).
* **F168** `interpolateAndExtrapolate` for Field2D (`coordinates.cxx` L99-102) tests `GlobalNy - numberOfYBoundaries() * width >= 3`, but `GlobalNy` contains two sets of guard cells per pair of targets, so guard cells are counted as points: with ny = 1 and MYG = 2 the metric at the upper target is extrapolated from the unset guard cells of the lower target (`C74_y_count_violated`, `C74_point_count_partial`). The Field3D version (L249-250) subtracts `2 * width`, right for one pair of targets and wrong for two.
* **F169** The check meant to refuse processors with too few points (`LocalNx == 1 && width == 1`, L103-116) can never hold, since `LocalNx` includes the guard cells: with one cell per processor in X and MXG = 1 the extrapolation reads outside the array (`C74_refuse_violated`).
* **F170** LaplaceXY with Y closed on fewer than three points in total: the upper and lower neighbour are the same unknown, and `INSERT_VALUES` lets the second coefficient overwrite the first (laplacexy.cxx L983-994), with one point even the diagonal. The solver then accepts a constant as the solution for right hand side -1 (`C75_two_points_violated`).
* **F171** LaplaceXY with `finite_volume = false` on a grid closed in Y for small X and open for large X (limiter): `hasBndryLowerY()` is true for the whole X communicator, so the corner cells at the inner X boundary are given rows (laplacexy.cxx L109-136) although they are communicated cells; their index is overwritten by `communicate(indexXY)`, the corner equations are inserted into rows of the inner boundary at the other end of Y, and two rows stay empty. The Neumann condition fails there (`C75_fd_limiter_violated`).
* **F172** The flux form is conservative with the cell volume J dx dy only if dy does not vary with X and dx not with Y; otherwise the fluxes through inner faces do not cancel (`C75_conservation_violated`).
* **F173** The documented switch `--list-laplacexz` is not recognised (the program compares with `--list-laplacexzs`); the run goes ahead with an option `-list-laplacexz` set (`C76_list_laplacexz_violated`; bout++.cxx L342, L387).
* **F174** The long form `datadir=out` on the command line (or in the input file) changes only where the settings are written; input file and log stay in `data` (`C76_long_datadir_violated`; bout++.cxx L172-193).
* **F175** `-o BOUT.inp` is refused to protect the input file, `settingsfile=BOUT.inp` is not, and overwrites it (`C76_overwrite_violated`; bout++.cxx L492-496, L187-193).
* **F176** An empty value of a switch is removed from the arguments after the switch has become `datadir=`, which then takes the next argument as its value (`C76_empty_value_violated`; bout++.cxx L489-490).
* **F177** A value after `key=` and a space which equals a switch is taken as the switch (`C76_value_like_switch_violated`); a directory or file name containing '=' is refused with "Multiple '='" (`C76_equals_in_name_violated`).
* **F178** `DST` and `DST_rev` use one static work array for all threads, also in OpenMP builds, but LaplaceCyclic and LaplacePCR (`dst = true`) call them from every thread of a parallel loop: a thread can return the sine transform of another thread's row, for every length (C77_dst_threads_violated).
* **F179** `ASSERT1(length > 0)` in DST/DST_rev lets `length = 1` through, which plans zero points (null plan) or writes to an array of zero cells (C77_dst_one_point_violated).
* **F180** `irfft(Array, length)` accepts `length = 0` with one coefficient and executes a null or stale plan (C77_irfft_zero_length_violated).
* **F181** OpenMP rfft/irfft called at the same time with different lengths use released memory (C77_two_lengths_violated); nothing in the documentation says all threads must use the same length.
* **F182** The first test of the static `size` in OpenMP rfft/irfft is an unsynchronised read of a plain int which another thread may be writing: a data race by the C++ standard, although harmless under sequentially consistent execution (C77_unsynchronised_check_violated, C77_every_schedule_rfft).
* **F183** `LaplacePetsc::solve` tests `global_flags & !implemented_flags` with the logical not, which is zero: no global flag set after construction is ever refused (C78_global_flags_violated).
* **F184** `LaplacePetsc`: with fewer than three points in Z (five at fourth order) neighbours in Z coincide and INSERT_VALUES overwrites, so the Z derivatives are wrong (C78_two_z_points_violated).
* **F185** `LaplacePetsc::Coeffs` leaves out the gradient of C at local x <= 1 and x >= LocalNx-2: with one X guard cell it is missing at the first and last point of every processor and the equation depends on the decomposition (C78_one_guard_cell_violated).
* **F186** `LaplacePetsc`: the preallocated off-diagonal space is too small with one point in X per processor (second order), or fewer than four (fourth order, gradient boundary condition); PETSc refuses the entries, the error codes are ignored and the rows are incomplete (C78_one_point_per_processor_violated, C78_fourth_order_boundary_violated).
* **F187** `LaplacePetsc` constructor at fourth order with one point in X on an inner processor writes past the end of d_nnz/o_nnz (C78_preallocation_violated).
* **F188** `SNESSolver::run`: if SNES reports no iterations, a forward Euler step is added to the vector SNES left. With the (default) predictor that vector is the extrapolated state, which may already be the solution: the step is then taken twice (C79_no_iterations_violated: x'=1 gives 5/2 instead of 2).
* **F189** `SNESSolver::run`: the reset for repeated failures is unreachable after a failure, because the first failure sets saved_jacobian_lag; the solver throws instead (C79_reset_after_failure_violated).
* **F190** `SNESSolver::run`: after a failure the trial timestep is halved, not the step: if the failed step was cut at the output time the same solve is repeated until the trial timestep is smaller than the remaining time (C79_smaller_timestep_violated).
* **F191** `SNESSolver`: max_timestep is applied only when a step grows; the initial timestep and the step after a reset may exceed it (C79_max_timestep_violated, C79_max_timestep_reset_violated).
* **F192** `SNESSolver::run` uses `time1 > 0.0` as test for a known previous point: after a first step from time 0 (the usual start) the predictor is not used (C79_predictor_from_zero_violated).
* **F193** `SNESSolver`: equation_form=pseudo_transient solves f(x) = x/dt, which contains neither the previous state nor has the steady states of f as solutions (C79_pseudo_transient_violated).
* **F194** `SNESSolver`: with dt_min_reset <= 0 and a solve that keeps failing the loop never ends (C79_no_limit_violated).
* **F195** `CvodeSolver::run`, `ArkodeSolver::run`, `PvodeSolver::run`, `IdaSolver::run`: the time returned by run(tout) is tested with `< 0` for failure, so every run with a negative output time throws at the first output although the integration succeeded (C80_negative_time_violated).
* **F196** CVODE/ARKODE/PVODE with monitor_timestep: the variables are not loaded before call_timestep_monitors; monitors see the last state the integrator evaluated the right-hand side at, not the solution at that time (C80_timestep_state_violated).
* **F197** mxstep has no effect with monitor_timestep (C80_mxstep_violated); IDA ignores monitor_timestep altogether (C80_timestep_monitors).
* **F198** `CvodeSolver::create_constraints` and the 2D tolerances of CVODE and ARKODE read the field's options from a copy (`auto f_options = Options::root()[f.name]`): the option stays 'unused' and, with the default error_on_unused_options, the run is refused (C80_field_option_violated).
* **F199** **petsc3damg and hypre3d, setCoefC1(Field2D) does not set updateRequired** (petsc3damg.hxx, hypre3d_laplace.hxx L72-77): after a first solve, changing C1 with a Field2D leaves the old matrix in use (`C81_stale_violated`). All other setters ask for an update.
* **F200** **boundary flags changed after construction only reach the right-hand side.** The boundary rows are set once in the constructor (petsc3damg.cxx L142-194) from the flags of that moment, but solve() reads the members; switching a boundary to INVERT_AC_GRAD later solves the Dirichlet condition (`C81_flags_violated`).
* **F201** **with one point in z the 3D solvers lose the coefficient A and the x terms.** l.zp() and l.zm() are then l itself, and the assignments for them overwrite the diagonal (petsc3damg.cxx L384-392): the matrix does not depend on A (`C81_one_z_point_violated`). Nothing checks nz. With two points zp and zm are one cell and the first of the two assignments is lost.
* **F202** **F: ipt on one processor never converges.** The sweep updates index 1 of red processors only `if (red and not lastX())` (iterative_parallel_tri.cxx L762), and processor 0 is red; with NXPE = 1, which the constructor accepts with max_level = 0, the residual at index 1 never changes and every call whose local solution is not tiny at the first cell throws after maxits sweeps (`C82_one_processor_violated`). With NXPE = 1 and an odd y processor number the processor is black and waits for a message nobody sends.
* **F203** **F: ipt levels are appended, and only levels[0] is used** (L389-397): a first call at a second y index appends new levels but the sweep uses levels[0], whose ar, br, cr, brinv were never assigned at that index (`C82_second_y_violated`). Solving a Field3D, which loops over y, therefore does not converge or uses whatever is in the recycled memory. With INVERT_SET or INVERT_AC_GRAD every call appends max_level + 1 levels for ever.
* **F204** **F: ipt keeps coefficients although setCoefA, setCoefC or setCoefD changed them** (L376-390, header L60-78): `store_coefficients` looks at flags only, and the setters do not reset `first_call`. The guard vectors of the old matrix are used with local solutions of the new one and a wrong result is returned without an error (`C82_stale_violated`).
* **F205** **F: ipt INVERT_KX_ZERO subtracts each processor's own mean** (L612-622) instead of the mean over x (`C82_kx_zero_violated`).
* **F206** **F: ipt, ar(2) and cr(2) of the last processor are never assigned on level 0**: `if (not lastX())` inside `if (lastX())` (L1085-1092); they keep the contents of the recycled array and enter the sweep, the residual and the coarse grids.
* **F207** **F: serial_band has half of the mixed derivative**: coef3 is `g13` where the operator has `2 g13` (serial_band.cxx L163, L219, L236; compare `tridagCoefs`, invert_laplace.cxx L328), and the `g13 dC/dx d/dz` part of the gradient of C is missing (`C83_rows`, `C83_mixed_violated`). G1, G3 and the correction for nonuniform meshes are not multiplied by D.
* **F208** **F: serial_band with one boundary cell**: the rows of the first and last cells inside use `coef4`, left over from the interior loop where it is the first-derivative coefficient of the last row, where `Acoef` is meant (L228, L240); A is not applied there at all, nor D at the last cell (`C83_edge_violated`). G1, C and G3 terms are missing there too.
* **F209** **F: serial_band, INVERT_SET or INVERT_RHS on the inner side turns the DC condition into a gradient condition**: `inner_boundary_flags & (INVERT_DC_GRAD + INVERT_SET)` is nonzero when either bit is set (L268-269), so the branch for a plain INVERT_DC_GRAD is dead and a fixed value is never imposed on the DC mode (`C83_set_violated`).
* **F210** **F: cband_solve ignores LAPACK's error code** (lapack_routines.cxx L258-264): a singular matrix gives whatever zgbsv left in the vector, without an exception.
* **F211** **F: multigrid solver with a gradient set at the outer boundary only**: the outer gradient branches test `inner_boundary_flags & INVERT_SET` (multigrid_laplace.cxx L305, L549), so the value asked for is dropped, or, with the inner flag only, one is imposed from x0 that was not asked for (`C84_outer_set_violated`).
* **F212** **F: multigrid solver on non-uniform grids**: the correction is `D * d1_dx` where `D * g11 * d1_dx / dx` is meant (multigrid_laplace.cxx L630-633; compare tridagCoefs) (`C84_nonuniform_violated`).
* **F213** **F: multigrid solver with a local size that is odd**: when one processor allows one level but the global grid more, `if (level > 0) kMG->setMultigridC(0)` (multigrid_laplace.cxx L388-390) skips `convertMatrixFS` and the serial levels work on uninitialised matrices (`C84_serial_violated`).
* **F214** **F: multigrid solver with solvertype = 0 returns silently after 150 iterations** whatever the error is (multigrid_alg.cxx L830-858), while GMRES throws (`C84_limit_violated`: error above a third of the initial one).
* **F215** **F: multigrid solver ignores the first guess** (both pGMRES L316-320 and solveMG start from zero, so `INVERT_START_NEW` and x0 make no difference), and `dtol` is an absolute error (1e5), so a large right-hand side throws.
* **F216** **F: an unqualified name matches with the wrong distance**: `Options::fuzzyFind` tries the name without sections only when the full name is not within the limit (options.cxx L196-202), so "key" matches "ab:key" with distance 3 although options.hxx L343-347 documents 1; short section names therefore rank lower than long ones (`C85_unqualified_violated`).
* **F217** **F: options that differ in case are returned beyond the limit**: the branch for case inserts 1 (or 2 without sections) without comparing with `distance`, so a limit of 0 still returns them (`C85_limit_violated`).
* **F218** **F: `operator<` of `ExpressionParser::FuzzyMatch` is not a strict weak ordering** (expressionparser.hxx L140-142: smaller distance *and* smaller name), which `std::multiset` requires; matches come out in alphabetical order, so the message for `sanh` asks "Did you mean 'sin'?" and not `sinh` (`C85_comparison_violated`, `C85_order_violated`).
* **F219** **F: `cleanup` of PetscLib, HypreLib and SlepcLib sets the count to 0 with objects left** (petsclib.cxx L95, hyprelib.cxx L76, slepclib.cxx L47): an object made later is finalised under by the destruction of an earlier one, or finds a negative count and never initialises the library (`C86_cleanup_violated`, `C86_negative_violated`).
* **F220** **F: copies of `PetscLib` and `SlepcLib` are not counted** (only HypreLib has copy constructors): PETSc is finalised while the copy exists (`C86_copy_violated`).
* **F221** **F: `PetscLib` with options that are refused** (a subsection in `petsc`) throws after `PetscInitialize` and before `count++` (petsclib.cxx L45-58), out of an OpenMP critical section: the next object initialises PETSc again and, if there is none, it is never finalised (`C86_options_violated`).
* **F222** **F: `SlepcLib` has no critical section** although PetscLib and HypreLib do: two threads initialise SLEPc twice (`C86_slepc_violated`).
* **F223** **F: `BoutComm::cleanup` after only `setArgs` calls `MPI_Finalize` without `MPI_Init`** (`C86_finalize_violated`); `setComm` after `get` makes nobody finalise the MPI that BOUT++ initialised (`C86_set_late_violated`); `setComm(BoutComm::get())` frees the communicator before duplicating it (boutcomm.cxx L20-25, `C86_set_self_violated`).
* **F224** **F: `run_diffusive` skips `post_rhs` for an unsplit model** (solver.cxx L1443-1445) with the default `is_nonsplit_model_diffusive`: with IMEX-BDF2, ARKODE or split-RK evolving vectors keep time derivatives in the wrong basis, conditions on evolving boundaries are not applied and unset derivatives are not detected; the same model is right with `run_rhs` (`C87_default_violated`, `C87_boundary_violated`, `C87_unset_violated`).
* **F225** **F: `run_rhs` drops the status of `runConvective`** (solver.cxx L1370, L1376): a split model that fails in its convective part passes the check of the first call (L548) (`C87_status_violated`).
* **F226** **F: the manufactured source is added after the boundary condition on time derivatives** (solver.cxx L1395, L1427), which then does not hold with `evolve_bndry` (`C87_source_boundary_violated`); the error of 2D variables is allocated but never computed or written (L1564, `C87_error2_violated`).
* **F227** **F: `rhs_ncalls` does not count diffusive evaluations** (solver.cxx L1456), so the total reported in the log of an IMEX run is the number of convective ones (`C87_total_violated`).
* **F228** **F: the power solver reports the absolute value of the eigenvalue** (power.cxx L62): with a negative dominant eigenvalue no estimate equals it (`C88_sign_violated`); with a complex pair the estimates may alternate for ever between values that belong to no eigenvalue (`C88_complex_violated`).
* **F229** **F: the power solver divides by the norm without looking at it** (power.cxx L51, L65): a zero start, or a model that maps the start to zero, fills the state and every later output with NaN and the run ends with status 0 (`C88_zero_violated`, `C88_vanish_violated`). Linearity is not checked either: with a constant source the estimate is the size of the source (`C88_affine_violated`).
* **F230** **F: the SLEPc solver reports fast modes under another frequency** (slepc.cxx L650-661): the principal logarithm is divided by the time of the run, so a real frequency of pi over that time or more is reported wrongly, without a warning (`C89_aliasing_violated`; `C89_advance_partial` gives the exact ambiguity).
* **F231** **F: `selfSolve` reports the frequencies of one Euler step** (slepc.cxx L500-512): i log(1 - i w dt) / dt in place of w, e.g. a growth rate log 2 in place of 1 (`C89_euler_violated`; it converges only for small steps, `C89_euler_limit`).
* **F232** **F: the default SLEPc target is wrong** (slepc.cxx L183-199): the modulus of the converted target is used, which loses its phase, so in `ddtMode` a wanted frequency 2 makes SLEPc search around growth rate 2 (`C89_target_violated`); and it is computed in the constructor, before `init` sets the number of output steps to 1 for `selfSolve`, so it belongs to another time than the reports (`C89_target_steps_violated`).
* **F233** **F: auxiliary fields of the imaginary part are stale** (slepc.cxx L735-756): the right-hand side is run only for the real part of an eigenvector (`C89_aux_violated`).
* **F234** **F: the SLEPc monitor's count of reported eigenvalues is a static variable** (slepc.cxx L572): a second solve in the process reports nothing that converges at once, and a count that falls and rises reports an eigenvalue twice (`C89_monitor_violated`).
* **F235** **F: gyro-averages overwrite the settings of the shared Laplacian solver** (gyro_average.cxx L50-58): coefficients A, C, D and the boundary flags of `Laplacian::defaultInstance()` are set and not restored, so a later solve by another user solves another equation (`C90_shared_violated`; setting all of them again is enough, `C90_reset`).
* **F236** **F: gyro-averages inherit the rest of the shared solver's settings** (same lines): global flags and Ex, Ez are not set, so with e.g. INVERT_ZERO_DC left from another use the average of a constant loses its mean (`C90_flags_violated`; only those three matter, `C90_history`).
* **F237** **F: Padé gyro-averages of staggered fields** (gyro_average.cxx L60, invert_laplace.cxx L160): the shared solver is at cell centres, so with checks the call is an error and without them the cell-centre metric is used and the result labelled with the field's location (`C90_location_violated`, `C90_metric_violated`).
* **F238** **F: cached coordinates data outlives its object** (coordinates_accessor.cxx L23-29): nothing removes the entry when a `Coordinates` object is destroyed, so another object at the same address gets the old values (`C91_reuse_violated`), on a larger mesh from beyond the end of the array (`C91_bounds_violated`).
* **F239** **F: `CoordinatesAccessor::clear` leaves living accessors dangling** (coordinates_accessor.cxx L66-74): they keep a raw pointer to memory that goes back to the pool of arrays (`C91_dangling_violated`). That changes of the coordinates are not seen is documented (`C91_stale_violated`).
* **F240** **F: SNB electron-ion mean free path** (snb.cxx L38): the factor is `(Z + 0.25) / (Z + 4.2)` where the conductivity (L30) and the manual have 0.24 (`C92_ratio_violated`).
* **F241** **F: SNB Coulomb logarithm without a floor** (snb.cxx L17): in cold dense plasma (below about 0.0123 eV at 1e20 m^-3) it is negative, and with it the conductivity: heat flows from cold to hot (`C92_coulomb_violated`).
* **F242** **F: SNB energies above `beta_max` are local** (snb.cxx L40-75): the share exp(-b)(1+b+b^2/2+b^3/6+b^4/24) of the flux (3 per cent at the default 10) is never corrected, so the flux is not limited for steep gradients however many groups are used (`C92_tail_violated`).
* **F243** **F: boundary queries cached across meshes** (mesh.cxx L400-426): `hasBndryLowerY` and `hasBndryUpperY` keep their answers in function-local static variables, so the first mesh asked answers for all meshes: inversions on another mesh skip or add guard slices (`C93_cache_violated`).
* **F244** **F: `Laplacian::solve(b, x0)` ignores `extra_yguards_lower/upper`** (invert_laplace.cxx L228-234): it solves rows which `solve(b)` and the documentation leave out (`C93_guess_violated`).
* **F245** **F: deadlock after an inversion fails on one processor only** (invert_laplace.cxx L185-195): the failing processor leaves the loop and waits in `BoutParallelThrowRhsFail` while others of its row wait for it in the next slice (`C93_deadlock_violated`; excluded if failures are the same on a row, `C93_progress`).
* **F246** **F: global y indices with small subdomains** (boutmesh.cxx L1640, L1653): the test for being past the upper target holds one row of processors early if MYSUB is at most 2 MYG, so slices are read back into other rows with another decomposition and two processors accept the same index (`C94_small_violated`).
* **F247** **F: default index of slices from old files** (options.cxx L649-654): `getLocalYIndexNoBoundaries(0)` is a grid cell only on the first row of processors; on others the index is negative, and is set without a check (`C94_default_violated`).
* **F248** **F: `TanH` is not a number for large arguments** (sourcex.cxx L15-18): as soon as exp(a) or its inverse overflows (|a| > 709 in double precision) infinities are divided, so layers narrow compared with the domain (width 0.001) fill sources and sinks with NaN (`C95_overflow_violated`, `C95_source_violated`).
* **F249** **F: `mask_x` does not mask** (sourcex.cxx L92-95): `GlobalX` lies between 0 and 1 but is divided by 40, so the result is the field itself up to one part in 6400 everywhere, and exactly at the boundaries, where it is said to be zero (`C95_mask_violated`).


## 6. Axioms per theorem

* **no axioms** (20): `C17_global_y_index_violated`, `C19_one_leg_violated`, `C19_one_row_per_rank_violated`, `C21_check_division_by_zero`, `C33_pop_in_parallel_violated`, `C42_repeated_field_violated`, `C48_field2d_constants`, `C48_upper_null_violated`, `C65_ddz2d_location_violated`, `C78_preallocation_violated`, `C87_total_violated`, `C89_monitor_example`, `C89_monitor_violated`, `C93_cache_violated`, `C93_guess_violated`, `C93_row_example`, `C93_slices_example`, `C94_meaning_example`, `C94_roundtrip_example`, `C94_small_violated`

* **propext** (41): `C11_empty_component`, `C11_split_join`, `C13_unbalanced_rejected`, `C34_minus_use_after_free`, `C34_plus`, `C35_write_read`, `C36_lowercasequote_length`, `C36_trimComments`, `C36_trimLeft`, `C40_double_wait_violated`, `C40_empty_group_violated`, `C44_y_boundary_in_guard_column_violated`, `C48_field3d_from_2d_violated`, `C48_fieldperp_violated`, `C50_example`, `C50_raw_write_violated`, `C62_add`, `C62_marked_violated`, `C63_copy_setBoundary_violated`, `C63_outlive_violated`, `C63_setBoundary_twice_violated`, `C64_append_abort_violated`, `C64_counter_violated`, `C64_gap_violated`, `C64_new_variable`, `C64_stale_variable_violated`, `C64_torn_restart_violated`, `C64_truncated_violated`, `C65_mixed_locations`, `C67_nearest`, `C85_limit_violated`, `C87_boundary_violated`, `C87_default_violated`, `C87_error2_violated`, `C87_source_boundary_violated`, `C87_status_partial`, `C87_status_violated`, `C87_unset_violated`, `C91_modify`, `C93_deadlock_violated`, `C94_default_partial`

* **Quot.sound** (1): `C93_progress_example`

* **Quot.sound, propext** (134): `C01_no_alias`, `C01_point_coordinates`, `C02_xp`, `C02_yp`, `C02_zp`, `C03_empty`, `C03_ind2D_zend_unchecked`, `C04_blocked_iteration`, `C04_threads_cover`, `C04_threads_disjoint`, `C05_add`, `C05_constructors`, `C05_history`, `C05_intersection`, `C05_mask`, `C05_mask_intersection_partition`, `C05_sort`, `C06_offset`, `C06_offset_coordinates_partial`, `C06_offset_coordinates_violated`, `C06_offset_coordinates_violated_concrete`, `C06_periodicShift`, `C06_periodicShift_compose`, `C06_periodicShift_diverges`, `C08_cleanup_empties`, `C08_ub_after_cleanup`, `C1`, `C11_const`, `C11_nested`, `C11_split`, `C13_malformed_rejected_partial`, `C16_proc_num_bijection`, `C16_proc_num_outside`, `C17_guard_overlap`, `C17_index_inverse`, `C2`, `C20_unpack_length`, `C22_unique`, `C23_balanced`, `C23_buffers_fit`, `C23_gather_matched`, `C23_partition`, `C23_scatter_matched`, `C23_starts_agree`, `C28_constants`, `C28_min_max`, `C29_div_f_v_guard`, `C31_aligned_apply`, `C31_relax_apply_2D`, `C32_curl_grad`, `C33_backtrace`, `C33_dump`, `C33_history`, `C33_push_pop_id`, `C33_scope_restores`, `C34_iteration_partial`, `C34_iteration_violated`, `C34_minus_total_overlap_violated`, `C35_index2_bijective`, `C35_index3_bijective`, `C36_lowercasequote`, `C36_split_join`, `C36_trim`, `C36_trimRight`, `C36_trim_idempotent`, `C39_construction`, `C39_loop`, `C45_single_column_corner_violated`, `C48_fft_zperiod_violated`, `C48_points_from_decomposition`, `C49_field2d_inside`, `C50_equality_is_some_point`, `C50_legal_completes`, `C50_own_slice_violated`, `C50_raw_write_scope`, `C51_empty_rank_violated`, `C51_local`, `C51_mean_all`, `C51_mean_decomposition`, `C51_mean_local`, `C51_uniform_all_is_some_rank`, `C51_uniform_local`, `C52_ysize_violated`, `C57_index`, `C57_index_objects`, `C58_spt_position`, `C61_order_one_violated`, `C63_aligned_ddt_violated`, `C63_aligned_relax`, `C63_aligned_unchanged`, `C63_apply_partial`, `C63_initial`, `C63_relax_ddt`, `C63_relax_imposed_violated`, `C63_sequence`, `C63_width_relax`, `C63_width_restored`, `C65_ddx_shear`, `C68_ballooning_one_column_violated`, `C68_vector`, `C68_vector_y`, `C68_x_guards`, `C68_x_overloads`, `C68_x_split`, `C70_z_periodic`, `C74_point_count_partial`, `C78_boundary_flags`, `C78_global_flags_violated`, `C80_mxstep_violated`, `C80_vector_example`, `C81_guard_cells`, `C81_hypre_same`, `C81_one_z_point_violated`, `C82_ends`, `C82_fixed`, `C85_alphabetical`, `C85_expression_matches`, `C85_suggestion_lists`, `C87_basis`, `C87_counters`, `C87_error_partial`, `C87_manufactured`, `C87_model_sees`, `C87_source_once`, `C87_turn`, `C87_unset`, `C91_bounds_violated`, `C91_clear_example`, `C91_dangling_violated`, `C91_layout`, `C91_reuse_violated`, `C91_snapshot_example`, `C91_stale_violated`, `C93_program`

* **Classical.choice, Quot.sound, propext** (899): `C01_index_from_coordinates`, `C02_offset`, `C02_ypChecked`, `C02_zm`, `C02_zp_zm_inverse`, `C03_box_region`, `C03_box_region_increasing`, `C03_ind2D_partial`, `C04_block_sizes`, `C04_blocked_iteration_exact`, `C05_unique`, `C06_periodicShift_permutes`, `C07_ensureUnique_unshared`, `C07_program_refines_values`, `C07_step_refines_values`, `C07_unshared_write`, `C08_disable_irreversible`, `C08_get_fresh`, `C08_master_has_store`, `C08_no_ub_partial`, `C08_store_bookkeeping`, `C09_assign_succeeds_iff`, `C09_conflict_rejected`, `C09_force_succeeds_iff`, `C09_history`, `C09_reachable_inv`, `C09_step`, `C10_bool_conversion`, `C10_const_pure`, `C10_const_value`, `C10_defaults_agree`, `C10_int_conversion`, `C10_int_refused`, `C10_override`, `C10_repeated_default`, `C10_repeated_default_agrees`, `C10_set`, `C10_unset`, `C10_user_value_wins`, `C11_copied_default_violated`, `C11_full_names_partial`, `C11_index_changes_nothing`, `C11_path`, `C12_check_exact`, `C12_conditionally_used`, `C12_history`, `C12_reported_keys`, `C12_unused_exact`, `C13_bare_colon_violated`, `C13_command_line`, `C13_command_line_rejects`, `C13_header_spaces_violated`, `C13_ini`, `C13_junk_after_header_violated`, `C14_parse`, `C14_terminates`, `C14_unambiguous`, `C15_implicit_multiplication`, `C15_leading_minus_partial`, `C15_minus_after_operator_violated`, `C15_minus_in_brackets`, `C15_two_times_minus_three_violated`, `C16_proc_num_injective`, `C17_global_y_index_partial`, `C17_x_owner`, `C17_y_owner`, `C18_channels_match`, `C18_layout_channels_match_partial`, `C18_peers_exist`, `C18_sequence_match`, `C19_connections_follow_topology_partial`, `C19_connections_symmetric_partial`, `C19_destinations_valid_partial`, `C19_periodicY_iff_closed`, `C19_x_connections_symmetric_partial`, `C20_pack_length`, `C20_round_trip`, `C21_check_defined`, `C21_check_no_straddling`, `C21_check_success_iff`, `C21_choose_split_sound`, `C21_find_split_complete`, `C21_find_split_defined`, `C21_find_split_sound`, `C21_indices_kept`, `C21_indices_ordered`, `C21_indices_throw`, `C22_block_succeeds`, `C22_dominant_succeeds`, `C22_solves`, `C22_succeeds`, `C23_no_duplicates`, `C24_accepted_iff`, `C24_added_twice_violated`, `C24_fast_monitor_violated`, `C24_fire_times`, `C24_late_monitor_violated`, `C24_periods`, `C24_periods_exact`, `C24_quit`, `C24_quit_ends_run`, `C24_run_partial`, `C24_solve_calls`, `C24_step`, `C24_user_quit`, `C25_globalIndex`, `C25_globalIndex_2d_boundary`, `C25_globalIndex_total`, `C25_layout`, `C25_load_derivs`, `C25_load_save`, `C25_load_vars`, `C25_save_load`, `C25_saves`, `C25_split_rhs`, `C26_adaptive_terminates`, `C26_error_range`, `C26_euler`, `C26_euler_cfl`, `C26_euler_unlimited`, `C26_fixed_step`, `C26_initial_timestep_violated`, `C26_max_timestep`, `C26_output_reached`, `C26_rk3ssp`, `C26_rk4_classical`, `C26_rk4_half_steps`, `C26_rk4_linear`, `C26_rk4_quadrature`, `C26_rk4_steps_classical`, `C26_run`, `C27_cashkarp_order`, `C27_declared_order`, `C27_default_tolerance`, `C27_error_estimate`, `C27_generic_step`, `C27_large_atol_violated`, `C27_linear`, `C27_quadrature`, `C27_rk4simple_order`, `C27_rk4simple_two_half_steps`, `C27_rkf34_order`, `C27_rkf45_order`, `C28_MINMOD_helper`, `C28_extremum`, `C28_fromm_not_limited`, `C28_linear`, `C28_maximum_principle`, `C28_mc_overlap`, `C28_minmod_monotone`, `C28_mirror`, `C28_no_new_extrema`, `C28_odd`, `C29_D4DY4_Index_conserves_partial`, `C29_D4DY4_Index_violated`, `C29_D4DY4_cell`, `C29_D4DY4_conserves`, `C29_D4DY4_conserves_periodic`, `C29_D4DY4_twice_violated`, `C29_div_a_grad_perp_constant`, `C29_div_a_grad_perp_x_conserves`, `C29_div_a_grad_perp_yz_cell`, `C29_div_a_grad_perp_yz_conserves`, `C29_div_f_v_x_cell`, `C29_div_f_v_x_conserves`, `C29_div_f_v_y_conserves`, `C29_div_f_v_z_cell`, `C29_div_f_v_z_conserves`, `C29_div_par_K_Grad_par_cell`, `C29_div_par_K_Grad_par_conserves`, `C29_div_par_K_Grad_par_conserves_periodic`, `C29_div_par_cell`, `C29_div_par_conserves`, `C29_div_par_conserves_periodic`, `C29_div_par_decomposition`, `C29_div_perp_lap_violated`, `C29_flux_consistent`, `C30_S2_not_odd_violated`, `C30_U1_monotone`, `C30_W2_between`, `C30_W3_blend`, `C30_first_S2`, `C30_first_W2`, `C30_first_W3`, `C30_first_central`, `C30_flux_central`, `C30_flux_conservative`, `C30_flux_uniform`, `C30_getStagger`, `C30_higher_central`, `C30_mirror`, `C30_staggered`, `C30_staggered_upwind`, `C30_staggered_upwind_central`, `C30_staggered_upwind_divergent`, `C30_upwind`, `C30_upwind_side`, `C31_4thorder_one_guard_violated`, `C31_aligned_ddt_violated`, `C31_cells`, `C31_const_gradient`, `C31_ddt_zero`, `C31_dirichlet_3D_mid`, `C31_dirichlet_4thorder_violated`, `C31_dirichlet_exact`, `C31_dirichlet_value`, `C31_frame`, `C31_free_exact`, `C31_neumann_4thorder_sign_violated`, `C31_neumann_exact`, `C31_neumann_o4_exact`, `C31_neumann_par`, `C31_neumann_value`, `C31_neumann_wide_violated`, `C31_points`, `C31_relax`, `C31_relax_time_violated`, `C31_robin`, `C31_robin_const`, `C31_width_violated`, `C32_calcCovariant`, `C32_christoffel_exact`, `C32_christoffel_partial`, `C32_christoffel_violated`, `C32_cross_magnitude`, `C32_cross_orthogonal`, `C32_curl_grad_intshear_violated`, `C32_curl_grad_torsion`, `C32_curl_shifted`, `C32_div_curl`, `C32_div_curl_torsion`, `C32_dot`, `C32_grad_perp`, `C32_invert3x3`, `C32_invert3x3_zero_threshold_violated`, `C32_laplace`, `C32_laplace_par`, `C32_metric_compatible`, `C32_roundtrip`, `C32_v_dot_grad`, `C32_vector_arith`, `C32_vector_roundtrip`, `C34_intersects_point`, `C34_intersects_range`, `C34_minus_partial`, `C35_program`, `C36_apostrophe_in_string_violated`, `C37_bounds`, `C37_is_minimum`, `C37_symm`, `C37_zero_iff`, `C38_create`, `C38_creator_unique`, `C38_first_wins`, `C38_flags`, `C38_frame`, `C38_list`, `C38_registration_order`, `C38_type_from_options`, `C39_bijection`, `C39_indexer_exists`, `C39_isLocal`, `C39_mesh_regions_2D`, `C39_mesh_regions_3D`, `C39_mesh_regions_perp`, `C39_order`, `C39_own_numbers_kept`, `C39_ranks_exist`, `C39_unknowns`, `C39_x_guard_numbers`, `C39_y_guard_numbers`, `C40_buffers_suffice`, `C40_handle_not_in_use`, `C40_no_handle_lost`, `C40_requests_clean`, `C40_wait_succeeds`, `C41_clamp_where`, `C41_context`, `C41_min_max`, `C41_sum`, `C41_sum_bad_count`, `C42_communicate_lower`, `C42_communicate_upper`, `C42_communicate_x`, `C42_inner_lower_corner`, `C42_inner_upper_corner`, `C42_interior_unchanged`, `C42_lower_guard_cells`, `C42_lower_guard_follows_field_line`, `C42_other_cells_unchanged`, `C42_outer_lower_corner`, `C42_outer_upper_corner`, `C42_upper_guard_cells`, `C42_upper_guard_follows_field_line`, `C42_x_guard_cells`, `C42_x_guard_columns_with_corners`, `C43_every_run_completes`, `C43_no_deadlock`, `C44_region_loop`, `C44_x_boundaries`, `C44_y_boundaries_at_targets`, `C45_boundaries_2D`, `C45_boundaries_3D`, `C45_boundaries_perp`, `C45_conversions`, `C45_default_2D`, `C45_default_3D`, `C45_default_perp`, `C45_lookup`, `C45_periodic_x_corner_violated`, `C46_antisymmetric`, `C46_arakawa`, `C46_arakawa_2D`, `C46_arakawa_old`, `C46_conservation`, `C46_constant`, `C46_exact`, `C46_single_z_violated`, `C47_bracket_violated`, `C47_comment_violated`, `C47_doc_newline_violated`, `C47_history`, `C47_precision_violated`, `C47_quotes_violated`, `C47_round_trip`, `C47_typed_read`, `C48_extra_x_guards_violated`, `C48_fft_modes`, `C48_interior`, `C48_matching_file_is_read`, `C48_no_x_guards_violated`, `C48_ranks_agree`, `C48_read`, `C49_bilinear_bounded`, `C49_bilinear_exact`, `C49_bilinear_last_column_violated`, `C49_field2d_linear`, `C49_field2d_negative_violated`, `C49_hermite_clamped`, `C49_hermite_exact`, `C49_hermite_quadratic`, `C49_lagrange_exact`, `C49_lagrange_exact_at_end`, `C49_lagrange_past_end_violated`, `C49_monotonic_agrees`, `C49_monotonic_bounded`, `C49_stagger_cubic`, `C49_stagger_round_trip`, `C49_weights_match`, `C49_z_quadratic`, `C50_equality_violated`, `C50_others_unchanged`, `C50_step`, `C50_value_semantics`, `C51_averageX`, `C51_averageXY`, `C51_averageY`, `C51_dc`, `C51_example`, `C51_max_all`, `C51_mean_between`, `C51_min_all`, `C51_min_max_decomposition`, `C51_nlfilter_bounded`, `C51_nlfilter_conserves`, `C51_nlfilter_example`, `C51_nlfilter_monotone`, `C51_smooth`, `C51_smoothXY`, `C51_smoothXY_bounded`, `C51_smooth_bounded`, `C51_uniform_all_violated`, `C51_volIntegral`, `C52_collectives_match`, `C52_surface_ends`, `C52_xcomm_is_row`, `C52_ycomm_agrees`, `C52_ycomm_is_flux_surface`, `C52_ycomm_order`, `C52_ysize_partial`, `C53_aligned_roundtrip`, `C53_aligned_roundtrip_exact`, `C53_aligned_roundtrip_violated`, `C53_direction_checked`, `C53_dst_of_sines`, `C53_dst_rev_sines`, `C53_dst_roundtrip`, `C53_every_row_is_waves`, `C53_fft_derivative`, `C53_fft_derivative_filtered`, `C53_fft_second_derivative`, `C53_filter`, `C53_fromFieldAligned`, `C53_lowPass`, `C53_lowPass_negative_keep`, `C53_lowPass_negative_violated`, `C53_parallel_slice`, `C53_rfft_irfft`, `C53_rfft_reads_amplitudes`, `C53_roundtrip`, `C53_shift`, `C53_shift_back`, `C53_shift_mean`, `C53_shift_shift`, `C53_shift_whole_cells`, `C53_slice_is_aligned_neighbour`, `C53_slice_written`, `C53_toFieldAligned`, `C54_delp2`, `C54_delp2_solve`, `C54_dirichlet`, `C54_helmholtz_periodic_succeeds`, `C54_helmholtz_succeeds`, `C54_helmholtz_wide_succeeds`, `C54_inner_cylinder`, `C54_inner_decay`, `C54_inner_gradient`, `C54_inner_gradpar`, `C54_inner_value`, `C54_inner_zero_gradient`, `C54_outer_dc_flags_violated`, `C54_outer_decay`, `C54_outer_follows_inner_violated`, `C54_outer_gradient`, `C54_outer_value`, `C54_outer_zero_gradient`, `C54_periodic_helmholtz_violated`, `C54_periodic_mean`, `C54_periodic_mean_equation`, `C54_periodic_waves`, `C54_solve_interior`, `C55_div`, `C55_div_succeeds`, `C55_div_twist`, `C55_par`, `C55_par_sawtooth`, `C55_par_succeeds`, `C55_rows_cover`, `C55_targets`, `C56_b0xgrad`, `C56_b0xgrad_antisymm`, `C56_b0xgrad_overloads`, `C56_ddz_vector`, `C56_ddz_vector2d_violated`, `C56_div_par`, `C56_div_par_K_const_partial`, `C56_div_par_K_const_violated`, `C56_div_par_K_grad_par`, `C56_div_par_conserves`, `C56_div_par_uniform`, `C56_grad2_par2`, `C56_grad_par`, `C56_grad_parP_affine`, `C56_grad_parP_defined`, `C56_grad_parP_domain_partial`, `C56_grad_parP_violated`, `C56_laplace_par`, `C56_laplace_perp`, `C57_b0xgrad_intshear_violated`, `C57_b0xgrad_partial`, `C57_bracket`, `C57_bracket_2d`, `C57_coords_current`, `C57_coords_shared`, `C57_coords_stale_violated`, `C57_delp2`, `C57_derivatives`, `C57_div_par_grad_par`, `C57_parallel`, `C58_cyclic_tridag`, `C58_cyclic_tridag_succeeds`, `C58_guards_agree`, `C58_kx_zero`, `C58_one_guard_violated`, `C58_serial_periodic_mean_violated`, `C58_solvers_agree`, `C58_spt_finishes`, `C58_spt_guard_violated`, `C58_spt_helmholtz_succeeds`, `C58_spt_messages_match`, `C58_spt_no_deadlock`, `C58_spt_solves`, `C58_spt_solves_joined`, `C58_spt_succeeds`, `C58_widths`, `C58_widths_agree`, `C59_exact`, `C59_exact_solution`, `C59_limit_ok`, `C59_order_above_eight_violated`, `C59_run`, `C59_terminates`, `C59_weights`, `C60_adapt_period_violated`, `C60_adaptive_ends`, `C60_advection`, `C60_fixed_partial`, `C60_fixed_step_rounding_violated`, `C60_rkl_linear`, `C60_rkl_mode`, `C60_rkl_order`, `C60_rkl_stable`, `C60_rkl_step`, `C60_run`, `C60_strang`, `C60_time_dependent_violated`, `C61_ends`, `C61_exact`, `C61_run_partial`, `C61_short_last_step_violated`, `C61_stale_coefficients_violated`, `C61_weights`, `C61_weights_unique`, `C62_equals_violated`, `C62_keyword_dropped_violated`, `C62_malformed_violated`, `C62_marked`, `C62_own_section`, `C62_par_yup_violated`, `C62_parallel_modifier_violated`, `C62_priority`, `C62_priority_parallel`, `C62_registered`, `C62_side_options`, `C62_standard`, `C62_syntax_partial`, `C62_total`, `C62_unambiguous`, `C63_apply_condition_partial`, `C63_apply_region_partial`, `C63_apply_time`, `C63_flag_lost_violated`, `C63_no_double_free`, `C63_no_fault`, `C63_no_leak_partial`, `C63_none_violated`, `C63_region_missing_violated`, `C63_relax_time_violated`, `C64_chain_partial`, `C64_check_passes`, `C64_restart_point`, `C64_restart_scalar_violated`, `C64_torn_content`, `C65_accepted_is_used`, `C65_advection_exact`, `C65_case_violated`, `C65_d1_dy_violated`, `C65_d2dz2_violated`, `C65_ddy_metric3d_violated`, `C65_default_builtin`, `C65_default_from_options`, `C65_default_is_a_name`, `C65_derivative_exact`, `C65_documented_default`, `C65_fft_default_violated`, `C65_flux_exact`, `C65_force`, `C65_key_unique_violated`, `C65_lookup`, `C65_methods`, `C65_moves`, `C65_nonuniform_fourth_violated`, `C65_nonuniform_second`, `C65_register_accepted`, `C65_returns_iff`, `C65_single_point`, `C65_slices_or_aligned`, `C65_spacing_correction`, `C65_split_exact`, `C65_staggered_fourth_violated`, `C66_exchanges`, `C66_fieldperp_violated`, `C66_helmholtz_succeeds`, `C66_messages`, `C66_pcr_solves`, `C66_powers_of_two`, `C66_same_as_cyclic`, `C66_thomas_narrow_violated`, `C66_thomas_one_point_violated`, `C66_thomas_solves_partial`, `C67_after_exception_violated`, `C67_circular`, `C67_default_section_violated`, `C67_finds_meaning`, `C67_history`, `C67_nested_violated`, `C67_one_meaning`, `C67_qualified_violated`, `C67_ready`, `C67_returns_meaning`, `C67_stale_violated`, `C67_terminates`, `C68_ballooning_images`, `C68_ballooning_surface`, `C68_created_guards`, `C68_created_split`, `C68_old_open_violated`, `C68_old_y`, `C68_perp_violated`, `C68_upper_face_violated`, `C68_upper_target_violated`, `C68_x_centre`, `C68_x_face`, `C68_x_walls`, `C68_y_core`, `C68_y_face_partial`, `C68_y_follows`, `C68_y_guards`, `C68_y_half_partial`, `C68_y_half_violated`, `C68_y_overloads`, `C68_y_split`, `C68_y_walls_partial`, `C68_zlow_context`, `C69_access`, `C69_gather`, `C69_gather_bounds`, `C69_gather_scatter`, `C69_guards_not_gathered`, `C69_messages`, `C69_one_owner`, `C69_scatter`, `C69_scatter_gather`, `C70_boundary_values`, `C70_classified_partial`, `C70_corner_position_partial`, `C70_corner_wrap_violated`, `C70_dirichlet`, `C70_dirichlet_half`, `C70_dirichlet_interp_violated`, `C70_dirichlet_o3`, `C70_end_of_line`, `C70_inner_violated`, `C70_integrate_constant`, `C70_integrate_corners`, `C70_neumann`, `C70_o3_complete_partial`, `C70_o3_order_violated`, `C70_off_line_violated`, `C70_outer_corner_violated`, `C70_second_slice_violated`, `C70_sides_partial`, `C70_slices_complete_partial`, `C71_inner`, `C71_interior`, `C71_outer_partial`, `C71_outer_set_violated`, `C71_succeeds`, `C72_axisymmetric`, `C72_converges`, `C72_effort`, `C72_ends`, `C72_equation`, `C72_rhs_boundary_violated`, `C72_set_boundary`, `C73_bounds`, `C73_cleanup_dangling`, `C73_empty_report`, `C73_percent_violated`, `C73_report`, `C73_runs`, `C73_time`, `C73_time_unreset`, `C73_total`, `C74_continued`, `C74_corners`, `C74_few_points`, `C74_frame`, `C74_refuse_violated`, `C74_staggered`, `C74_succeeds`, `C74_y_count_violated`, `C75_conservation`, `C75_conservation_violated`, `C75_corners`, `C75_fd_limiter_violated`, `C75_finite_difference`, `C75_finite_difference_x`, `C75_finite_volume`, `C75_finite_volume_x`, `C75_flux_form`, `C75_guard_copies`, `C75_guard_copies_y`, `C75_inner_x`, `C75_numbering`, `C75_outer_x`, `C75_slab`, `C75_symmetric`, `C75_two_points_violated`, `C75_y_boundary`, `C76_command_line_values`, `C76_empty_value_violated`, `C76_equals_in_name_violated`, `C76_every_command_line`, `C76_files`, `C76_information`, `C76_list_laplacexz_violated`, `C76_long_datadir_violated`, `C76_options`, `C76_overwrite_violated`, `C76_switches`, `C76_type_information`, `C76_value_like_switch_violated`, `C77_array_irfft`, `C77_array_rfft`, `C77_dst_one_point_violated`, `C77_dst_threads_violated`, `C77_every_history`, `C77_every_schedule_irfft`, `C77_every_schedule_rfft`, `C77_irfft_zero_length_violated`, `C77_memory`, `C77_no_deadlock`, `C77_terminates`, `C77_threads_memory`, `C77_two_lengths_violated`, `C77_unsynchronised_check_violated`, `C78_boundary_stencils`, `C78_constructor`, `C78_equation`, `C78_fourth_order_boundary_violated`, `C78_history`, `C78_initial_guess`, `C78_layout`, `C78_one_guard_cell_violated`, `C78_one_point_per_processor_violated`, `C78_preallocation`, `C78_stencils`, `C78_two_z_points_violated`, `C79_equation`, `C79_example`, `C79_gives_up`, `C79_history`, `C79_max_timestep`, `C79_max_timestep_reset_violated`, `C79_max_timestep_violated`, `C79_no_iterations_violated`, `C79_no_limit_violated`, `C79_output_times`, `C79_outputs`, `C79_predictor`, `C79_predictor_from_zero_violated`, `C79_pseudo_transient_violated`, `C79_reset`, `C79_reset_after_failure_violated`, `C79_retry`, `C79_smaller_timestep_violated`, `C79_step_size`, `C79_steps`, `C79_termination`, `C80_completes`, `C80_completes_example`, `C80_constraint_codes`, `C80_ends`, `C80_example`, `C80_field_option`, `C80_field_option_example`, `C80_field_option_violated`, `C80_ida_residual`, `C80_modes_agree`, `C80_negative_time_violated`, `C80_outputs`, `C80_timestep_monitors`, `C80_timestep_state_violated`, `C80_vector_options`, `C81_example`, `C81_flags_violated`, `C81_hypre_matrix`, `C81_solution_partial`, `C81_stale_violated`, `C82_converged_partial`, `C82_exact`, `C82_example`, `C82_kx_zero_violated`, `C82_one_processor_violated`, `C82_second_y_violated`, `C82_stale_violated`, `C82_two`, `C83_band`, `C83_edge_violated`, `C83_example`, `C83_fixed_value`, `C83_gradient`, `C83_mixed_violated`, `C83_rows`, `C83_set_violated`, `C83_solution_partial`, `C83_width`, `C84_cycle`, `C84_ends`, `C84_galerkin`, `C84_limit_violated`, `C84_nonuniform_violated`, `C84_outer_set_violated`, `C84_plain_partial`, `C84_serial_violated`, `C84_solution_partial`, `C85_comparison_violated`, `C85_did_you_mean_partial`, `C85_distance_partial`, `C85_find`, `C85_order_violated`, `C85_suggestions`, `C85_unqualified_violated`, `C86_cleanup_partial`, `C86_cleanup_violated`, `C86_comm_given`, `C86_comm_own`, `C86_copy_violated`, `C86_finalize_violated`, `C86_lifetime_partial`, `C86_negative_violated`, `C86_no_deadlock`, `C86_options_violated`, `C86_set_late_violated`, `C86_set_self_violated`, `C86_slepc_violated`, `C87_default_partial`, `C87_parts_sum`, `C88_affine_violated`, `C88_complex_violated`, `C88_converges`, `C88_decomposition`, `C88_eigenvector`, `C88_iterates`, `C88_monotone`, `C88_norm`, `C88_quit`, `C88_sign_violated`, `C88_vanish_violated`, `C88_zero_violated`, `C89_advance_complete`, `C89_advance_example`, `C89_advance_partial`, `C89_aliasing_violated`, `C89_aux_violated`, `C89_compare`, `C89_ddt`, `C89_ddt_example`, `C89_euler_limit`, `C89_euler_partial`, `C89_euler_violated`, `C89_monitor_partial`, `C89_records_partial`, `C89_round_trip`, `C89_steps`, `C89_target_partial`, `C89_target_steps_violated`, `C89_target_violated`, `C90_contraction`, `C90_exists`, `C90_flags_violated`, `C90_history`, `C90_location_violated`, `C90_metric_violated`, `C90_modes`, `C90_modes_example`, `C90_pade0_partial`, `C90_pade1_partial`, `C90_pade1_two`, `C90_pade1_two_example`, `C90_pade2_partial`, `C90_reset`, `C90_shared_violated`, `C90_taylor`, `C90_violated_example`, `C91_clear`, `C91_current_partial`, `C91_snapshot`, `C92_conductivity`, `C92_conservation`, `C92_conservation_example`, `C92_coulomb`, `C92_coulomb_violated`, `C92_groups_partial`, `C92_isothermal`, `C92_isothermal_example`, `C92_mode`, `C92_mode_example`, `C92_ratio_violated`, `C92_tail_violated`, `C92_weight`, `C92_weights`, `C93_extra`, `C93_progress`, `C93_slices_partial`, `C94_default_violated`, `C94_meaning_partial`, `C94_owner_partial`, `C94_roundtrip`, `C95_buff_partial`, `C95_gauss_example`, `C95_gauss_partial`, `C95_mask_violated`, `C95_overflow_violated`, `C95_sinks_partial`, `C95_source_example`, `C95_source_partial`, `C95_source_violated`

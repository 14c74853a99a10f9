# Formal model of psc-code/psc in Lean 4 — design

## Trusted base

* Lean 4.33.0's kernel, and the three standard axioms `propext`, `Classical.choice`,
  `Quot.sound` (checked with `#print axioms`; no other axiom, no `sorry`, no
  `native_decide`/`bv_decide`, no `implemented_by`).
* Mathlib definitions used in statements (`ℤ`, `ℚ`, `ℝ`, `Int.floor`, `List.Perm`,
  `Finset.sum`, …).
* The hand translation C++ → Lean.  Every definition carries a comment with the file
  and lines it models and any simplification made.
* The English ↔ theorem reading of the statements in `Verif/Props/*.lean`.

## Modelling conventions

* **Numbers.** `real_t`/`double` values are elements of an arbitrary linearly ordered
  field with a floor (`ℚ` and `ℝ` are instances); where a square root is needed, of `ℝ`.
  Floating-point rounding, overflow, NaN are *not* modelled: "exactly" in a property
  means exactly in real arithmetic.  `int` values are `ℤ`/`ℕ`; 32-bit overflow is not
  modelled unless stated.
* **Undefined behaviour / assertion failure** is an explicit outcome (`none`,
  `Except.error`), never a totalised value.
* **Field updates** `F(m,i,j,k) += v` are modelled as a list of add-events, summed per
  index; loops in the code are loops (list maps / folds) in the model.
* **MPI** is modelled by per-channel FIFO matching on (source, destination, tag); "any
  schedule" means any order of completion of the posted requests.
* **Random numbers** are universally quantified inputs.
* Templates are modelled once per instantiated dimensionality.

## Layout

* `lean/Verif/Model/*.lean`  — the model (definitions only, with citations).
* `lean/Verif/Spec/*.lean`   — small independent specifications used in statements.
* `lean/Verif/Lemmas/*.lean` — helper lemmas.
* `lean/Verif/Props/*.lean`  — the property theorems with witnesses (`example`s).
* `MANIFEST.json` maps each property to its theorems.

When the code violates the property as stated in English, the negation is proved with a
concrete witness, and the largest true part is proved with suffix `_partial`.

## Per-property plan

| id | what is modelled | how it is proved |
|----|------------------|------------------|
| C01 | `Current1vbSplit` (dim_xyz), `CurrentDeposition1vb`, `Deposit1stNc`, `div_nc` | one-cell polynomial identity + telescoping over the split segments |
| C02 | same for dim_yz, dim_xz | same; bound on the invariant direction + witness of a miss |
| C03 | `Current1vbVar1` | case split on crossing pattern, one-cell identity |
| C04 | `Current1vb2d` | same |
| C05 | `CurrentZigzag` | one-cell identity + telescoping |
| C06 | `CurrentEsirkepov` order 1 | cumulative-sum identity, Σ(s1-s0)=0 |
| C07 | `CurrentEsirkepov` order 2 | same |
| C08 | particle loop of `push_mprts`, continuity check | induction over the particle list |
| C09 | `Deposit1st/2nd`, Nc/Cc | finite-sum identity, tent/spline spec |
| C10 | `PushH` stencil | polynomial identity + induction over pushes |
| C11 | `PushE` stencil, step order | polynomial identity + induction over steps |
| C12 | `MarderCommon` correction | curl of gradient identity; convexity + induction |
| C13 | `radiative_H_lo/hi` + `push_E` | algebraic identity; witness for p-polarisation |
| C14 | `AdvanceParticle::push_p` | polynomial identity, induction |
| C15 | `calc_v`, `push_x` | real analysis (sqrt), floor bounds |
| C16, C17 | `process_patch` | case analysis per direction, induction over the list |
| C18 | `ddc_particles` constructor tables and `comm` | list/permutation reasoning over ranks |
| C19 | periodicity flags of `MrcDomain` vs. particle bc | witness of loss; partial under matching bcs |
| C20 | `SortCountsort`, `SortCountsort2` | induction, permutation + sortedness + stability |
| C21 | `ParticleIndexer` | arithmetic bijection |
| C22 | `BinaryCollision` | algebraic identities over ℝ |
| C23 | `CollisionHost` loops | list induction |
| C24 | `sfc_*` orderings | mixed-radix / bit-interleave / Hilbert state induction |
| C25 | `gpatch_off_all`, lookup | prefix sums |
| C26 | neighbour lookup | modular arithmetic |
| C27, C28 | ghost exchange regions | index arithmetic, finite sums |
| C29 | pattern setup order | list reasoning |
| C30 | `best_mapping_recursive` | induction over patches |
| C31 | `Communicate` of balance | list reasoning |
| C32 | `Descr<...>` put/get | round trip; witness for omitted members |
| C33 | `Checkpointing` | induction over the run |
| C34 | `ip_coeff_*`, interpolation helpers | algebra, convexity |
| C35 | `UniqueIdGenerator` | mixed radix injectivity; restart witness |
| C36 | `VecRange` iterator | induction; witness for empty ranges |
| C37 | `SetupParticles` | arithmetic |
| C38 | `OutputTfieldItemParams` etc. | induction over steps; witnesses |
| C39 | `OutputParticlesHdf5` index | counting-sort lemmas; witness |
| C40 | `add_ghosts_reflecting_*` | finite-sum reindexing |
| C41 | `InvertedCdf` | monotone search; witness u = 0 |
| C42 | `bintree.c` | tree induction |
| C43 | `bitfield3d.c` | bit arithmetic |
| C44 | `InputParams` | list induction |
| C45 | `Psc::integrate/step` | induction over steps |
| C46 | `BoundaryInjector` | reuse of C01/C02 |
| C47 | heating | induction over the list |
| C48 | `Foreach_3d` | list reasoning |
| C49 | `DiagEnergiesField` | witness + correct sum under intended view |
| C50 | `BinaryCollision` frame | orthonormal frame algebra; witness for -z |
| C100 | `mrc_list.h` on a memory of next and prev pointers that may be null; creation, `get`, `put` and class information of `mrc_obj.c` on top of it | refinement: a memory represents a family of disjoint sequences; every function keeps that relation with the sequences that it is to produce; histories by induction; walks by induction over the part of the list still ahead. The class information before any object exists follows a null pointer (`C100_class_info_violation`) |
| C101 | registering, starting, stopping and restarting regions, the profile table over all processes, the statistics | induction over the history with an account for each region; the registered regions are those of the functions entered, in the order of first entry, so rows of different processes match. False for regions open while a table is printed (`C101_open_violation`), processes that have not called a region (`C101_absent_violation`) and the names of field output (`C101_name_violation`) |
| C102 | neighbours, regions, messages by source, destination and tag, packing and unpacking of `mrc_ddc_simple.c` | the two ends of a message are the same region shifted; the tag determines the direction, so receives and messages match one to one; unpacking sets or adds to each cell once per direction. False for more ghost points than cells (`C102_wide_violation`) and for neighbours whose sizes do not match (`C102_uneven_violation`), neither of which is checked |
| C103 | setup with its collective communications, local numbering, lookup with the shared variable of `mrc_decomposition.c` | prefix sums; the search started anywhere at or before the owner finds it, so the shared variable does not matter; induction over the history. False for processes without indices (`C103_empty_violation`) and for negative indices (`C103_negative_violation`) |
| C104 | the four checks of `cuda_mparticles_checks.cxx` on the state of C71; specification: ranges of blocks, positions in blocks and patches | loops with early return as conditions on all particles, by induction; for histories the relation of C71 between arrays and multisets. False for the check after a push (`C104_after_push_violation`), the check of patches after an exchange (`C104_in_patch_violation`), and lost particles (`C104_lost_violation`) |
| C105 | memory of `Mfields`, the two kinds of access (`operator()`, `make_Fields3d<dim>(flds[p])`), `reset`, strides of both layouts of `kg::SArrayView`; specification: a function of component, cell and patch | mixed radix numbers: in range, injective, onto; refinement of the memory by the function, induction over the history |
| C106 | `get_as`, `put_as`, `convert` with the tables of conversions, `psc_mparticles_copy`, `psc_mparticles_check` on a memory of containers; specification: particles by patch, loans as functions on them | the copy loops by induction on particles and patches with `checkInPatchMod` of C65; histories by induction on loans. False for particles outside of their patches (`C106_moved_violation`, `C106_check_violation`) and for particles with ids (`C106_ids_violation`) |
| C107 | `get_as`, `put_as`, `convert` with the tables of conversions and the two copy functions, on the storage of C105 and a memory of fields; specification: fields as functions of component, cell and patch, loans as writes | the copy loops are a program of writes in C105, the loop indices are exactly the keys of the components (membership); histories by induction on loans |
| C51 | `setup_particles` kind handling | case analysis; witness where the kind set by the user is ignored |
| C52 | neutralising population | sum over populations |
| C53 | ghost exchanges between the stages of a step | refinement to global fields; stencil support |
| C54 | `conducting_wall_*` | invariants over steps |
| C55 | all current depositions | telescoping sums over the deposit events |
| C56 | index ranges of interpolation, current and charge deposition | interval bounds on floors; witness for 2nd order |
| C57 | `Psc::step`: push, exchange, fields, correctors, checks on all patches | refinement to global fields + weak form of continuity + induction over steps |
| C58 | `Psc::step` on all patches, against a reference simulation on one undivided grid | refinement: translation covariance of push and deposition, exchanges, induction over steps |
| C59 | `push_E`, `push_H`, ghost exchange over steps, `courant_length` | summation by parts on the periodic grid; curl bound by the sum of squared differences; above the limit the checkerboard mode is an eigenvector of the step with eigenvalue below -1 |
| C60 | `moment_n`, `moment_rho`, `moment_v`, `moment_p`, `moment_all`, `ItemMoment`, `addKindSuffix`, ghost folding at walls and patch boundaries | deposited shares against the density on the undivided domain; share functions are translation covariant and sum to one |
| C61 | `Psc::step` with boundary conditions: push, particle exchange with reflection and removal, folding of currents and charge at walls, radiating boundaries, both checks | mirror symmetry of the deposited charge and current (affine maps per direction), continuity of deposition under folding, induction over steps |
| C62 | `Psc::step` with load balancing: loads, gathering, mapping, moving particles and fields, then the step on the new decomposition | the moved state represents the same undivided state (bijection of patches by their place in the grid), then C57/C58 step by step |
| C63 | `setupFields`, `setupScalarField`, `get_pos`, patch coordinates, `pre_first_step` (periodic and with boundaries) | loop over distinct cells adds once per cell; patch-local position = global position; ghost exchange spreads what owners hold; then C58 and C61 |
| C64 | `WriterADIOS2` compiled without and with I/O threads (program, queue, mutex and condition variable, writer's thread), file names, the calls of field output | default build: induction over the calls; threads: invariants over all schedules (order, exit flag, no lost wake-up), a weight that bounds the number of steps; witnesses for lost files and wrong names |
| C65 | `InjectorSimple`, `push_back`, `checkInPatchMod`; `OutputParticlesAdios2`: counting, filling of columns, selections, joined arrays, attributes, file names | counts agree with what is pushed, so selections are whole columns; rows = particles of the kind by induction over patches; injectivity of names; witnesses for the ignored box and directory |
| C66 | `parsing::safe_getline`, `Table`: header and row parsing, `get`, `get_row`, `get_interpolated`; `std::stod` is a parameter | lines and words split back by induction over the text; loop invariants of the two searches; convexity; witnesses for unknown names, single rows, blank lines and missing files |
| C67 | the time loop, `write_checkpoint`, `read_checkpoint` and `pre_first_step` around the whole step of C58 and C62, for processes that follow each other | the step depends on a state only through particles and stored cells, so identical states stay identical, through load balancing too; `C32` gives particles and owned cells, the ghost exchange gives the ghost cells; induction over steps and stops |
| C68 | the block classes of the GPU kernels, their launch grids and the loop over the particles of a block, as lists of (block, particle) pairs | numbers of blocks are mixed-radix numbers; every list has no repetition and the same members as the list of all particles, hence is a permutation of it; violation for the class used by the moments in yz |
| C69 | `calc_j` of the GPU in yz and xyz, as lists of additions to the current | a deposition is a path: a chain of times from 0 to 1 with the Villasenor-Buneman current of each piece of the straight move inside one closed cell; that current is additive when a piece is cut, hence any two chains give the same sum (induction on the number of pieces); GPU and CPU codes are both shown to be chains; continuity holds for each piece and telescopes; violation for the component normal to the plane |
| C70 | the push kernel as a concurrent program: events (accesses to shared memory, global memory and registers) of all threads, any interleaving that follows each program and obeys the barriers | race freedom by showing which thread owns each address in each phase and that the tiles of blocks of one launch are disjoint; non-conflicting events commute, so any two schedules have the same effect (induction on the trace, moving the next event to the front); one particular schedule is computed: zero, sum into 16 copies, add copies; with C68 the sum is over every particle once; with C69 the continuity equation for the currents of a whole push |
| C71 | the arrays of `cuda_mparticles` (storage, block numbers, permutation, block offsets, `need_reorder`) and every operation on them; specification: a multiset of particles per patch | refinement: a relation between the arrays and the multisets for each phase (in order, pushed, exchanged, cleared), kept by every allowed operation; induction over the history. Key lemmas: writes by index, stable sort seen through the permutation, offsets = prefix sums of the buckets, block numbers of positions. Violations by concrete runs |
| C72 | `CudaCollision::operator()`: lazy reorder, random sort keys, unstable sort by key, cell offsets by lower bound, strided kernel over pairs; on the storage of C71; any scattering law, and the one of C22 over ℝ | the sorted ids of a cell are the ids of its particles (keys cell + u/2), offsets by counting, the threads' pairs are a partition into twos; fold over pairs = simultaneous update; relation of C71 kept. Conservation per pair from C22, summed over multisets; rates by arithmetic |
| C73 | `MfieldsCuda` storage as linear memory, the field push kernels (xyz: one launch; yz: three view assignments) and the Marder kernels as lists of assignments, each launch executed in any permutation, out-of-bounds accesses failing | places are injective in cell, component and patch (mixed radix); assignments write distinct places and read components no one writes, so any order gives the simultaneous update; that update compared with the CPU loops per component |
| C74 | `CudaBnd`: setting up the index maps in preallocated vectors, the cache of maps with its integer key and generation, gathering, offsets of messages, matching of messages, the two scatter kernels with threads in any order, writes outside of vectors and failing assertions as failures | the maps of a call list the places of the cells the CPU exchange reads and writes, in its order (matched entries of C26/C27); every permutation of the writes gives the same fields, as addition commutes and filled cells are distinct; invariant over histories: every cached map is the one of a call of this generation with the same key, and keys are injective below 100 components |
| C75 | the GPU state of every rank (particles of C71, memory of C73, cached maps of C74) and the time step as a sequence of relations: caching of fields, push and deposition by blocks with `atomicAdd`s in any order into zeroed currents, prep / exchange / post of particles, ghost exchanges, field pushes; failures as outcomes | refinement: a relation between GPU and CPU state (same particles up to order, same fields, reachable particle storage, maps made by the calls of the run) is kept by every operation of the step, each of which cannot fail; induction over steps, then C58 for the undivided grid.  The push of a block reads only cells it has cached, and the sum of all added values at a place is the deposit of the CPU |
| C76 | the moment items of the GPU: zeroed memory, one kernel over blocks with `atomicAdd`s in any order, folding at walls on the host, ghost exchange with cached maps; particle storage as in C71, so the kernel sees whatever order and offsets its history left | refinement of the CPU items of C60: the sum of all adds at a place is the deposit of the CPU (C68 for the particles handled, C71 for the particles stored), the walls and the exchange act alike; then induction over traces of steps (C75) and moments |
| C77 | the heating kernel (128 threads per block, each with the generator of its global thread number), its cached patch corners with `first_time_` and the balance generation, the shared vector of generators with its reseeding `resize`, the draws of sorting and collisions; particle storage and collisions as in C71 and C72 | invariant by induction over histories: storage related to the particles of each patch, generator `i` on sequence `i`, all values drawn so far behind the generators and without duplicates, never fewer than 131072 generators (so never reseeded), cached corners those of the current grid unless they will be refreshed. That two processes use different numbers is false of the code (same seed everywhere): negation with a witness |
| C78 | the run with walls of C61; the reference simulation in the undivided box, in Spec/SerialWall.lean, has no patches, ranks, ghost cells or messages: fields behind a conducting wall are odd or even mirror images, particles behind a wall are mirrored, currents behind a wall are added to their mirror image | simulation relation `Represents` by induction over steps: particles as a multiset in coordinates of the box, every stored cell inside the box is the cell of the box, the plane of the upper wall included; each of the phases of a step is shown to take represented states to represented states. Decomposition independence follows by comparing both runs with the undivided box. A particle that the push puts exactly on an upper wall is moved by a relative 1e-6 of the patch, not of the box: negation with a witness |
| C79 | the default field writer down to the files: `WriterMRC`, `mrc_fld` storage and strides, object paths made from addresses on rank 0, reference counts, HDF5 groups and data sets (a group or data set made twice is an error), hyperslab selection, XDMF index files and the file of the series, on all ranks, over a sequence of steps | a viewer (Spec/Xdmf.lean) that looks a point up in the grids of an index file and reads the data set it refers to; invariant over the fields of a step (paths in use belong to live addresses, hence new paths are new; every component of every patch has its data set), then geometry of the grids; induction over steps for files that stay. The region asked for is ignored, the series is written anew after a restart, more than 100 components and equal names end the program: negations with witnesses |
| C80 | the run of C61/C78 with the load balancing of C62 before any step | balancing is a bijection of patches by their place in the grid that moves whole patches, ghost cells included: everything C61 and C78 need of a state, and the charge density, is shown to be carried along; then induction over steps with the step theorems of C61 and C78. The latter is first extended to particles exactly on an upper wall (put a millionth of a patch below it, `SerialWall.stepN`), since the size of the patches does not change |
| C81 | `Psc::step` with boundary injectors (C46) in the run of C61 | the continuity equation of C46 for each injector is added to that of the push, with the imaginary particles as the old population; their charge is shown not to reach any node above an open boundary; the fold of currents at walls and the exchange (C61) are shown for any current with its support in the patch and one cell around it. The exchange is shown to treat every particle on its own (a sum over particles in the multisets), so newcomers add up with what the step without injection leaves |
| C82 | `AdvectedPeriodicFields` on all ranks: cached fields, number of exchanges, `MPI_Sendrecv_replace` matched between the ranks, the loop that shifts a position into a patch | invariant over the calls: after k exchanges every rank holds the wave field k patches further down; the shift loop gives the unique number of patches for a position; source and destination rank are shown to be inverse to each other and to be the neighbours in y; then the interpolation is shown to commute with shifts by whole cells |
| C83 | `initializeFields` of the shock driver with both methods, all loops over patches and cells with out-of-storage access as failure, the sum over all ranks, the random numbers as a function of the seed, the phase that is never set as an arbitrary value per rank | waves are shown to repeat after the lengths of the box (plane waves: 2 pi times an integer; noise: the seeds of the cells repeat), so that ghost cells agree; the sum over patches is shown to be the sum over the cells of the box; scaling is solved for the mean; divergence by telescoping; the background by algebra against the general Lorentz transformation |
| C84 | `setupParticles` with random offsets, the engines of the kinds, the linear congruential engine behind `std::default_random_engine` and libstdc++'s `generate_canonical` for both precisions (exact arithmetic), the seed of the process | bounds and the split by kind by induction over the calls; the factor between the engines of two processes is an invariant of all draws and carries over to the positions |
| C85 | both checks on all ranks, with NaN as a value of its own and the maximum as any function that agrees with max on numbers, the boundary layers, printing, dumping and aborting | the fold over cells and the reduction over ranks are characterised as bound and attained; the layers are shown to contribute 0; NaN by induction over the folds |
| C86 | the normalisation, and the chain from the deck's density function through populations, particle numbers, weights and injection on all patches to the moments of C60 | the calls of every cell by induction (weights times numbers give the density), injection keeps position, kind and charge, the share of a particle at a cell's centre is 1 in that cell and 0 elsewhere; sum over all cells of the domain with one non-zero term |
| C87 | the composition of the set-up of the particles (C86), of the fields (C63) and of the steps (C57) | a particle at the centre of a cell gives equal shares to the nodes of the cell; sum over all cells, exchanged with the sum over the nodes of a cell; then the invariants of C57 |
| C88 | parameters, populations, fields, grid and boundary conditions of the driver psc_harris_yz, put into the models of the set-up of particles and fields (C51, C63), the field step (C10) and the exchange (C19) | real analysis: `tanh² = 1 - 1/cosh²`, derivatives; addition theorems for the divergence on the grid and parity of integers for its non-zeros; induction over cells for the charge; the violations on the driver's own parameters |
| C89 | the initial conditions of the driver psc_bgk (potential, gradient, divergence, particles at the nodes, fields) on all ranks, put into the models of the set-up (C63, C86), the ghost exchange (C26) and the step (C57) | the fields hold global periodic functions (as C63); particles at nodes give all their charge to them; sums over cells and patches; then C57 for all later times |
| C90 | reading of `argv`, look-up and conversion of options of each kind, the two passes over the variables of an object, the domain built from the deck and the options, the name of output files | the reader inverts the writing of options (induction over arguments); induction over the variables of a pass; tiling in one direction, then in three; the violations on concrete command lines |
| C91 | parameters, particle function and field function of the driver, as functions of the position, over the reals | only one bubble reaches a point (triangle inequality); identities for that bubble; derivatives of the profile by the chain rule, near points off the edges of the shells |
| C92 | a whole step with external currents: each lambda adds a value given by the global cell and time in the owned cells of every patch; the lambda of psc_radiation | the sum over all patches of what is added is the periodic continuation of the source (every cell has one owner); then as C57, with the divergence of the source left over; induction over steps with a property that refers to the steps to come |
| C93 | initial plasma, injection (measured density, lambda, setupParticles on all patches) and heating of psc_flatfoil_yz, in a whole step | the population loop of a cell is computed in closed form; particles of a cell share its position, so their deposit is their charge times a common shape and vanishes; density measured after the push stays within two ghost points; then as C57 |
| C94 | initial plasma, fields, injection and heating of psc_2d_shock, in a whole step | as C93, with a population loop of four kinds in closed form: the charge of a cell is what the ambient ions are too many; 0 if the number of ambient particles asked for is an integer |
| C95 | parameters, populations and fields of psc_whistler as a deck of C87 | charge of the deck 0 in every cell, so C87 applies; component d of B does not depend on coordinate d, so its discrete divergence is 0, then C87; derivatives of the fields by calculus |
| C96 | set-up of arrays and views, element access, iterators with their `int` arithmetic, set, scale, norm, copy, axpy on a memory of allocated pieces | addresses are numbers in mixed radix (bounds, injective, onto by induction on the number of dimensions); views by induction on how an array was made; the iterator steps the Fortran rank by one (induction over the carried digits), whole-array loops by an invariant on ranks |
| C97 | the whole steps of C57 and, for the census, of C61; the injections of C81, C93, C94 | sums over all patches of what a particle keeps when it is re-expressed in another patch (`exchange_core`), as multisets; differences sum to zero over the periodic domain, so curls, gradients and divergences drop out; the current by C55; induction over the steps |
| C98 | `mrc_domain_simple.c`: setup as a transition system over all processes with channels by (sender, receiver, tag), ranks and places, neighbours, patch information | an inductive invariant that relates each process with its right neighbour in each direction; progress by taking a process that is least far, and among those the first on its line; the sum of what is left decreases; partial sums for the tiling. False if sizes are given and not equal (`C98_info_violation`) or do not fit (`C98_hole_violation`) |
| C99 | `kg/io` with its puts, gets, attributes and prefixes; the programs that write and read checkpoints and write fields, with the memory they pass; a transition system in which the library carries out pending operations at any time and in any order | a static discipline (memory with a pending put is not changed, memory with a pending get is not used, neither ends, no two pending puts of one name), shown to make every run end like the run with all operations at once; the programs follow it; then the contents by induction. Reading does not follow it (`C99_n_local_violation`) and nests steps (`C99_steps_violation`) |

## What is modelled

The citation at each definition is authoritative; this is an overview.

| model module | code |
|---|---|
| Basic, Deposit | `psc/deposit.hxx`, `psc/moment.hxx` (charge density, 1st and 2nd order, nc and cc, xyz and yz) |
| Current1vb, CurrentVar1, Esirkepov | `psc/current_deposition.hxx`, `inc_curr_1vb_split.cxx`, `inc_curr_1vb_var1.cxx`, `inc_curr_1vb_2d.cxx`, `inc_curr_zigzag.cxx`, `pushp_current_esirkepov.hxx` (all dimensions that are instantiated) |
| Interp | `interpolate.hxx` (1vb ec, 1st and 2nd order) |
| Push | `pushp.hxx`, `push_particles_1vb.hxx`, `push_particles_esirkepov.hxx`, `push_config.hxx` |
| Fields, FieldStep | `psc_push_fields_impl.hxx`, `marder_impl.hxx` (host), `fields_item_fields.hxx` (`div_nc`, `grad_ec`), field part of `psc.hxx` |
| BndFields | `psc_bnd_fields_impl.hxx`, `radiating_bnd.hxx` (conducting walls, open boundaries) |
| Domain, Bintree, Bitfield | `mrc_domain_multi.c`, `mrc_domain_lib.c` (curves, lookup, neighbours), `mrc_domain.hxx`, `bintree.c`, `bitfield3d.c` |
| Ddc | `mrc_ddc_multi.c`, `psc_bnd_impl.hxx` (ghost add and fill) |
| BndParticles | `bnd_particles_impl.hxx`, `ddc_particles.hxx` |
| Sort, Collision, Heating | `psc_sort_impl.hxx`, `particle_indexer.hxx`, `psc_collision_impl.hxx`, `binary_collision.hxx`, `psc_heating_impl.hxx`, `heating_spot_foil.hxx` |
| Balance | `psc_balance_impl.hxx` (mapping, communication of particles and fields) |
| Checkpoint, Loop, InputParams | `checkpoint.hxx`, `grid.hxx` (stored members), `psc.hxx` (`integrate`, `step`), `input_params.hxx` |
| SetupParticles, BoundaryInjector, Rng | `setup_particles.hxx`, `injector_simple.hxx`, `boundary_injector.hxx`, `rng.hxx`, `UniqueIdGenerator.h` |
| Reflecting | `add_ghosts_reflecting.hxx` |
| OutputFields, OutputPrts, Energies | `output_fields.hxx`, `output_particles_hdf5_impl.hxx` (index tables), `DiagEnergies*` |
| VecRange | `kg/VecRange.hxx`, `Foreach_3d` loops |
| Pic | `psc.hxx` (`Psc::step` with particles and fields), `checks_impl.hxx`, `fields_item.hxx` (item moments) |
| Moments | src/include/psc/moment.hxx, src/include/fields_item.hxx, src/libpsc/psc_output_fields/fields_item_moments_1st.hxx |
| WallPic | src/include/psc.hxx (`Psc::step`), src/libpsc/psc_checks/checks_impl.hxx, src/libpsc/psc_bnd_fields/psc_bnd_fields_impl.hxx, src/include/bnd_particles_impl.hxx (with walls and open boundaries) |
| Hilbert | src/libmrc/src/hilbert.c (`bitTranspose`, `mrc_hilbert_i2c`, `mrc_hilbert_c2i`), src/libmrc/src/mrc_domain_lib.c (`sfc_hilbert_*`) |
| BalancedPic | src/include/psc.hxx (`Psc::step`), src/libpsc/psc_balance/psc_balance_impl.hxx (`get_loads`, `gather_loads`, `Balance_::operator()`) |
| SetupFields | src/include/setup_fields.hxx, src/include/centering.hxx, src/include/grid.hxx (`Patch`), src/include/psc.hxx (`pre_first_step`) |
| Writer | src/include/writer_adios2.hxx, src/include/output_fields.hxx (use of the writers) |
| Adios2Prts | src/libpsc/psc_output_particles/output_particles_adios2_impl.hxx, src/include/injector_simple.hxx, src/include/particles_simple.hxx (`push_back`), src/include/particle_indexer.hxx (`checkInPatchMod`) |
| Table | src/psc_bgk_util/table.hxx |
| Restart | src/include/psc.hxx (`integrate`), src/include/checkpoint.hxx, restart in the drivers (src/psc_bubble_yz.cxx) |
| CudaGrid | src/libpsc/cuda/cuda_mparticles_indexer.h, loops over blocks and particles of the kernels in src/libpsc/cuda |
| CudaDeposit | src/libpsc/cuda/cuda_push_mprts_yz.cxx: `calc_j` and what it calls, for `dim_yz` and `dim_xyz` with `DEPOSIT_VB_3D` (the variants that are instantiated) |
| CudaSched | src/libpsc/cuda/cuda_push_mprts_yz.cxx: `push_mprts`, `push_mprts_ab`; cuda_currmem.hxx; cuda_fld_cache.hxx (`load`, `index`) |
| CudaPrts | src/libpsc/cuda/cuda_mparticles.{hxx,cxx}, cuda_mparticles_base.cxx, cuda_mparticles_sort.hxx (`find_block_indices_ids`, `cuda_mparticles_sort_by_block`), cuda_mparticles_indexer.h, cuda_bndp.{h,cxx} (`prep`, `post`), cuda_push_mprts_yz.cxx (which particles a push reads and where it writes them), mparticles_patch_cuda.hxx (`ConstAccessorCuda`) |
| CudaCollision | src/libpsc/cuda/cuda_collision.hxx (`CudaCollision`, `k_collide`), cuda_mparticles_sort.hxx (`cuda_mparticles_randomize_sort`), with binary_collision.hxx from `Collision`; curand states are universally quantified numbers in [0, 1] |
| CudaFlds | src/libpsc/cuda/push_fields_cuda_impl.cxx (`PushFieldsCuda`), src/libpsc/psc_push_fields/marder_impl.hxx (the CUDA `correct`, `cuda_marder_correct_yz/xyz`), src/include/psc_fields_cuda.h (storage of `MfieldsCuda`); the index order and slices of the external library gtensor are taken from its documentation |
| CudaBnd | src/libpsc/cuda/cuda_bnd.hxx (`CudaBnd`), src/libpsc/cuda/bnd_cuda_3_impl.cxx; MPI messages are matched by sender and receiver, one per pair and call |
| CudaPic | src/libpsc/cuda/cuda_push_mprts_yz.cxx (3-d), src/libpsc/cuda/bnd_particles_cuda_impl.cxx, src/psc_config.hxx (`PscConfig1vbecCuda<dim_xyz>`), the order of operations in `Psc::step`; builds on CudaPrts, CudaDeposit, CudaFlds, CudaBnd and Pic; without collisions, injectors, Gauss correction and balancing |
| CudaMoments | src/libpsc/cuda/cuda_moments_1st_nc.cxx, src/libpsc/cuda/fields_item_moments_1st_cuda.hxx, src/include/fields_item.hxx (`ItemMoment::operator()`); builds on CudaPic and Moments |
| CudaHeating | src/libpsc/cuda/cuda_heating.cxx, src/libpsc/cuda/rng_state.hxx, src/libpsc/cuda/cuda_base.cxx (`get_rng_state`); builds on CudaPrts, CudaCollision and Heating |
| SerialWall (Spec) | no code of its own: the reference simulation in an undivided box with walls, against which the model WallPic (C61) is proved |
| Xdmf | src/include/writer_mrc.hxx; src/libmrc/src/mrc_io.c (55-117, 183-206), mrc_io_xdmf2.c (xdmf2 type: 40-110, 381-513), mrc_io_xdmf_lib.c (m3 parts), mrc_obj.c (write, reference counts), mrc_fld.c (setup, strides), mrc_nd.c, mrc_crds_gen_uniform.c; HDF5 itself is modelled as a map from paths to groups and data sets |
| BalancedWall | src/include/psc.hxx (350-354); src/libpsc/psc_balance/psc_balance_impl.hxx (797-885), with walls and open boundaries |
| InjectPic | src/include/psc.hxx (172-176, 321-482 without CUDA); src/include/boundary_injector.hxx (97-161) |
| Advected | src/psc_shock.cxx (600-741); src/kg/include/kg/Vec3.h (480-488) |
| Turbulence | src/psc_shock.cxx (91-103, 207-598) |
| Offsets | src/include/rng.hxx (21-60), src/include/setup_particles.hxx (262-333) |
| Verdict | src/include/checks_params.hxx, src/libpsc/psc_checks/checks_impl.hxx, src/include/psc/helper.hxx |
| InitDensity | src/include/setup_particles.hxx, src/include/grid.hxx (normalisation), src/include/injector_simple.hxx |
| DeckRun | src/include/psc.hxx (`integrate`), drivers (set-up of particles and fields) |
| Harris | src/psc_harris_yz.cxx |
| Bgk | src/psc_bgk.cxx, grad_ec in src/libpsc/psc_output_fields/fields_item_fields.hxx |
| Options | src/libmrc/src/mrc_params.c (options, not the other functions), set_from_options in src/libmrc/src/mrc_obj.c, src/include/mrc_domain.hxx, set-up in src/libmrc/src/mrc_domain_multi.c, `open` in src/include/writer_mrc.hxx |
| Bubble | src/psc_bubble_yz.cxx (parameters and initial conditions) |
| ExtCurrent | src/include/external_current_base.hxx, external currents in src/include/psc.hxx `step`, the current of src/psc_radiation.cxx |
| Foil | src/psc_flatfoil_yz.cxx: initial plasma and fields, injection, whole runs |
| CellInject | whole runs of drivers that inject plasma cell by cell (common to psc_flatfoil_yz and psc_2d_shock) |
| Shock2d | src/psc_2d_shock.cxx: initial plasma and fields, injection |
| Whistler | src/psc_whistler.cxx: parameters, populations, initial fields |
| Ndarray | src/libmrc/src/mrc_ndarray.c, src/libmrc/src/mrc_ndarray_common.c, src/libmrc/include/mrc_ndarray.h; copy and axpy of src/libmrc/src/mrc_vec.c |
| DomainSimple | src/libmrc/src/mrc_domain_simple.c |
| DeferredIO | src/kg/include/kg/io, src/include/checkpoint.hxx, grid.inl, fields3d.inl, particles_simple.inl, writer_adios2.hxx |
| Lists | src/libmrc/include/mrc_list.h, src/libmrc/src/mrc_obj.c (creation, references, class information) |
| Profile | src/libmrc/include/mrc_profile.h, src/libmrc/src/mrc_profile.c, src/include/psc_stats.h, src/libpsc/psc_stats.cxx |
| DdcSimple | src/libmrc/src/mrc_ddc_simple.c |
| Decomposition | src/libmrc/src/mrc_decomposition.c |
| CudaChecks | src/libpsc/cuda/cuda_mparticles_checks.cxx, mparticles_cuda.hxx (`check_after_push`) |
| FieldStorage | src/include/fields3d.hxx (`MfieldsCRTP`, `Mfields` constructor, `SArrayView`), src/include/fields.hxx (`Fields3d`), src/kg/include/kg/SArrayView.h, src/kg/include/kg/Array3d.h; strides and `resize` of the external library gtensor are taken from its documentation |
| Lend | src/include/particles.hxx, src/libpsc/mparticles.cxx, src/libpsc/psc_particles_impl.cxx, src/include/particles_simple.hxx (`push_back`) |
| LendFields | src/include/fields3d.hxx (`get_as`, `put_as`), src/libpsc/mfields.cxx, src/libpsc/psc_fields_single.cxx, psc_fields_c.cxx |

## Not modelled

* Of the GPU code in `src/libpsc/cuda` only what the modules whose names begin with `Cuda` cite (a whole run on the GPU for 3-d, C75; in the yz plane the parts of a step, not the run); the CUDA runtime, thrust and rmm are taken to do what they document.
* Floating-point rounding, overflow, NaN (but for the checks, C85); 32-bit integer overflow unless a theorem says so.
* The libraries: MPI (modelled by FIFO matching per source, destination and tag), HDF5, ADIOS2 (`kg/io` engines:
  a checkpoint is modelled as a map from names to values; `Local::get` with a deferred read is taken to have
  been performed), gtensor (views, slices and reductions are taken to have their documented meaning), kokkos.
* Other `mrc_io` types than xdmf2 (collective, serial, binary, ascii), other `mrc_fld` and `mrc_crds` types than those of C79, `libmrc` configuration objects beyond C90 (options that choose a type or print an object, arrays); HDF5 itself.
* Memory management, profiling, logging, and the drivers (`src/psc_*.cxx`) except for psc_harris_yz (C88), psc_bgk (C89), psc_bubble_yz (C91), psc_flatfoil_yz (C93), psc_2d_shock (C94), psc_whistler (C95), the current of psc_radiation (C92), the set-up of psc_shock (C83) and the parameters quoted in theorems.
* The parts of `hilbert.c` that the curve does not use (boxes, IEEE coordinates), AMR domains and the AMR ghost exchange.

## Findings

Each of these is a theorem: the property as a user would state it is false of the code, with a concrete witness checked by
the kernel.  The matching `_partial` theorems prove what remains true.

| theorem | what is wrong |
|---|---|
| `C02_split_yz_violation` | 1vb split current in yz: a move of more than half a cell in the invariant direction breaks charge continuity |
| `C06_check_order_violation` | 1st order Esirkepov push declares the 2nd order density for the run-time checks; the checked continuity equation is false |
| `C13_current_violation` | radiating boundary, p polarisation: wrong sign of the `dt*J` term |
| `C13_patch_violation` | radiating boundary: the patch index handed to the pulse is shadowed and always 0 |
| `C19_violation` | particles in a direction that is periodic for particles but not for fields are lost |
| `C30_violation` | load balancer reads beyond the list of loads if the last patch has load 0 |
| `C32_violation` | restart with other patch counts per rank leaves members of additional patches unset |
| `C35_restart_violation` | unique ids repeat after a restart |
| `C36_empty_violation` | `VecRange` over a box with an empty axis visits cells |
| `C37_fractional_violation` | announced and created numbers of particles differ (fractional particles) |
| `C38_step0_violation`, `C38_disabled_violation`, `C38_restart_violation` | time-averaged output: null accumulator at step 0, division by 0, samples lost on restart |
| `C39_violation` | HDF5 particle output with a sub-box reads out of bounds |
| `C41_zero_violation`, `C41_support_violation` | inverse-cdf sampling reads `cdf[-1]` for u = 0; wrong tables away from 0 |
| `C43_violation`, `C43_count_violation`, `C43_compare_violation` | bit fields of more than 32 cells are accessed out of bounds; count and compare are wrong |
| `C44_int_violation` | `nmax 1e6` in an input file is read as 1 |
| `C45_stats_violation` | status interval 0 divides by 0 |
| `C47_kinds_undefined` | heating of kinds that are not configured reads an undefined value |
| `C49_field_violation`, `C49_ghost_violation` | field energy diagnostic sums outside the interior |
| `C50_violation` | collision of particles moving along -z scatters by pi - psi |
| `C51_kind_violation` | the kind set by a particle initialisation function is ignored |
| `C56_esirkepov2_violation` | 2nd order push with the 2 ghost points all drivers set writes out of bounds |
| `C56_split_yz_violation` | 1vb split in yz writes out of bounds for large moves in the invariant direction |
| `C60_neutral` | moments divide by the charge of the species: undefined with neutral particles |
| `C61_onWall_violation` | a particle pushed exactly onto an upper reflecting wall is moved inwards without a current: charge continuity and Gauss's law fail |
| `C62_measured_violation` | load balancing by measured times (negative field factor) dereferences a null pointer at the first balancing; later ones read memory that is never initialised |
| `C63_ghosts_violation` | `setupFields` uses the largest number of ghost points for all directions: with different numbers in two directions that are not invariant it writes outside of the storage (no driver does that) |
| `C64_lost_violation` | with `PSC_USE_IO_THREADS` (off by default) the writer's thread leaves its loop as soon as the destructor sets the exit flag, without emptying the queue: whatever is queued then is never written |
| `C64_name_violation` | with `PSC_USE_IO_THREADS` the file name is made from the prefix and directory at the time of writing, without a lock: `close` right after `write_step` gives a file without a name, and the two threads race on the strings |
| `C65_subbox_violation` | ADIOS2 particle output checks the box `lo`, `hi` and then ignores it: all particles are written (the HDF5 output honours it) |
| `C65_dir_violation` | ADIOS2 particle output ignores `data_dir`: files go to the working directory |
| `C65_neutral_violation` | particles store weight times charge, so weights of neutral kinds are lost at injection and written as 0/0 |
| `C66_unknown_violation` | looking up a column that is not in the table silently reads the first column, and adds the name to the header |
| `C66_single_violation` | interpolating in a table with one row reads outside of it |
| `C66_blank_violation` | rows after an empty line are dropped without a message |
| `C66_missing_violation` | a table file that does not exist reads as an empty table (`assert_file_open` is not called by the constructor); look-ups then read outside of it |
| `C68_moments_yz_violation` | The number of a block in the GPU moments of two-dimensional runs is computed with the number of blocks in z instead of y (`BlockSimple<BS, dim_yz>::init`): unless they are equal, particles are counted in the wrong patch, twice or never, or offsets are read beyond their end. |
| `C69_yz_Jx_violation` | In two-dimensional runs on the GPU the current in the invariant direction is wrong: the correction `h` is added and subtracted at the wrong nodes in `curr_vb_cell` (signs +,−,+,− instead of +,−,−,+), so the current differs from the CPU's by up to a twelfth of the product of the displacements. |
| `C71_emptied` | When all particles of a GPU process leave in an exchange and none arrives, `n_prts` becomes 0 but the arrays keep their size, and `reorder` and `push_mprts` return early for `n_prts == 0`: the next exchange (`cuda_bndp::prep`), read (`get_particles`) and injection (`inject_initial`) fail an assertion. |
| `C71_twice` | A second exchange without a push, injection or read in between overwrites the permutation that the first one left to be applied later: particles are then reported in the wrong patch. (The main loop has one exchange per step.) |
| `C71_cleared` | `clear` empties the storage but not the block numbers: an exchange right after it fails. |
| `C71_ids_lost` | Particle ids and tags are not stored on the GPU: every particle read back, or sent to another patch, has id 0 and tag 0. |
| `C72_weights` | the GPU collisions take every particle to have weight 1 (`wni = 1`): particles of weight w collide at 1/w times the rate of the CPU code |
| `C73_marder_violated`, `C73_marder_ignores_x` | the 3-d Marder kernel on the GPU corrects Ex with the difference of the residual along y instead of x (marder_impl.hxx:101): an error in Gauss's law that varies along x only is never reduced |
| `C74_key_violated`, `C74_ghosts_violated`, `C74_violated` | the key of the cached index maps is `mb + 100*me + 10000*n_comps` (cuda_bnd.hxx:184): with 100 or more components different ranges share maps, and the number of ghost points is not part of it at all, so a field with other ghost points and equally many components is exchanged with the wrong map |
| `C75_idle`, `C75_idle_violated` | `push_mprts` on the GPU returns before `zero_currents` when a rank has no particles (cuda_push_mprts_yz.cxx:552): the currents of the step before stay in memory and drive the electric field once more, in every such step; the CPU has zero currents.  (`PscConfig1vbecCuda` has `BndFieldsNone`, so boundary conditions of fields other than periodic are ignored on the GPU without a message.) |
| `C76_yz_violated` | moments in the yz plane on the GPU, with patches that have more blocks in y than in z: an ion in the last block is counted nowhere, all moments come out zero (the consequence of `C68_moments_yz_violation` for what a user sees) |
| `C77_processes_violated` | heating (and sorting and colliding) on the GPU with several processes: all processes seed their generators alike (seed 0, sequence = thread number), so particles on different processes get the same kicks |
| `C78_onWall_violated` | a particle that the push puts exactly on an upper reflecting wall is moved inwards by a millionth of the length of its patch (src/include/bnd_particles_impl.hxx), so its position depends on how the box is cut into patches (two patches against one patch: different states after one step) |
| `C79_region_violated` | `pfield.rn`, `pfield.rx` (and those of `tfield`) select a region for output, but `WriterMRC::set_subset` (writer_mrc.hxx:50-66) only does so for an `mrc_io` of type xdmf_collective; with the default type the whole box is written |
| `C79_restart_violated` | the file of the series (`pfd.xdmf`) is written anew by a program that goes on from a checkpoint and lists only the steps since then |
| `C79_limit_violated` | more than 100 components in one output step fail an assertion (mrc_io_xdmf_lib.c:345-351): moments of 8 kinds have 104 |
| `C79_names_violated` | two components of the same name in a field (moments of two kinds of the same name) make HDF5 fail |
| `C83_noise_violation` | `GaborKernel::randomize` (psc_shock.cxx:366) declares a local `wave_phase` that hides the member: the member is never set, and the noise depends on what is in memory |
| `C83_div_violation` | `inject_b_from_potential` (psc_shock.cxx:274-300) takes differences without dividing by the spacing: with cells that are not cubes the initial magnetic field has divergence |
| `C83_parallel_violation` | `background_h` (psc_shock.cxx:102-103) multiplies the component along the flow by 0 where the Lorentz transformation leaves it as it is: a parallel shock starts without magnetic field |
| `C83_small_violation` | with at most two cells in every direction there are no modes and `set_mean_b2` divides by 0 |
| `C84_ranks_violation` | seeds of the processes are 10000 (rank + 1) (rng.hxx:21-26) and `std::default_random_engine` of libstdc++ only multiplies: the numbers of process `r` are `r + 1` times those of process 0 for ever, and so are the places of the particles in their cells |
| `C84_neutral_violation` | the engines of the kinds (setup_particles.hxx:294-303) get out of step at the first cell with unequal numbers and stay so, so that cells of equal numbers after it are charged |
| `C85_nan_violation` | `max_err >= err_threshold` (checks_impl.hxx:119, 198) is false for NaN: with `exit_on_failure` a run whose charge density is NaN everywhere goes on, and nothing is listed or dumped |
| `C85_tie_violation` | the run is aborted at `max_err >= err_threshold` but messages are printed only for `>` |
| `C86_default_violation` | grid.hxx:273 asserts a unit length of 1, which the default `NormalizationParams` (grid.hxx:222-236) do not have: they are refused whatever else is set |
| `C86_intensity_violation` | grid.hxx:274-277 derive `e0` from the laser intensity when `prm.e0` is 0, but `phi0` and `vos` (280, 283) still use `prm.e0`: `eta` is 0 and `fnqs` infinite |
| `C88_div_violation` | psc_harris_yz.cxx:310-338 samples the perturbation at the faces; its divergence vanishes analytically, but not on the driver's grid of 128 times 512 cells: it is non-zero in every cell and stays |
| `C88_neutral_violation` | psc_harris_yz.cxx:421-423 asks for 4 populations of 2 kinds; the kind set for populations 2 and 3 is ignored (setup_particles.hxx:230-241), both become electrons, and the neutralising population gets a negative number: every cell has at least 4 electrons too many |
| `C88_lost_violation` | psc_harris_yz.cxx:230-234 makes particles periodic in y, where fields have walls, and reflects them in z, where fields are periodic: a particle that crosses the boundary in y is delivered to no patch |
| `C89_negative_violation` | psc_bgk.cxx:336-338 takes as electron density what Gauss's law leaves and does not check its sign: for a table whose potential needs more positive charge than the ions have, electrons of negative weight are created |
| `C90_cells_violation` | mrc_domain.hxx:46-52 lets options change the domain and checks only the number of patches: with `--my 4` (or `--mrc_domain_my 4`) on a deck with 8 cells in 2 patches, the second patch begins at cell 2, and the last two cells belong to none |
| `C90_periodic_violation` | the same for `--bcy none`: patches at a periodic boundary have no neighbours beyond it |
| `C90_text_violation` | mrc_params.c:196, 481: `sscanf` takes `16x16` for 16 and `1e6` for 1; mrc_params.c:669-672: a component of a triple of doubles that is no number is reported, and the run goes on |
| `C90_output_violation` | writer_mrc.hxx:18: an option `--basename` or `--mrc_io_basename` applies to every output, so that fields and moments go to the same files |
| `C91_current_violation` | psc_bubble_yz.cxx:185-193 (and `JXI`, 255-262): the drift of the electrons is the derivative of the profile only, the curl of the field of a bubble has also the profile divided by the radius, so the comment "electron drift consistent with initial current" is false at every point of the shells |
| `C13_storage_violation` | psc_bnd_fields_impl.hxx:549-580, 599-630: the loops over the other directions begin at the first ghost cell, `mflds.ib()`, and read one cell before it: outside of the patch's storage in the component, so that the outermost ghost cells get values of other memory (and a build with bounds checks stops) |
| `C92_check_violation` | checks_impl.hxx:62-123 with psc.hxx:399-406: external currents are in the current density the check of continuity uses, but there is no density of external charge, so with the source of psc_radiation.cxx it reports `2 dt abs(cos) / dz` in every step (the driver leaves the checks off) |
| `C93_zi_violation` | psc_flatfoil_yz.cxx with setup_particles.hxx:181-186: for `Zi` other than 1 the number of ions, `(n_e + n_he) / Zi`, is rounded down, so each cell may start and be injected with up to `Zi` surplus electron charges, always of the same sign, while the electric field starts as 0 |
| `C94_ambient_violation` | psc_2d_shock.cxx:336-370 with setup_particles.hxx:173-191: ambient electrons and ions of a cell are rounded with different random numbers; where there are more ions, the number of neutralising target ions is negative and none are made, so the cell starts with positive charge while the electric field starts as 0 (not with the driver's numbers, for which 0.01 · 2000 is an integer) |
| `C94_factor_violation` | psc_2d_shock.cxx:573-575: `npt.n *= inject_fac` appears twice, so each injection closes only `inject_fac²` of the gap to the target density |
| `C95_period_violation` | psc_whistler.cxx:186-187, 234-239: the envelopes are not periodic, so the initial field jumps at the periodic boundary in z (by about 1e-7 of its maximum with the driver's numbers) |
| `C95_current_violation` | psc_whistler.cxx:197-216: electrons and ions get the same drift, so no current flows although the magnetic field of the packets has a curl |
| `C95_frozen_violation` | psc_whistler.cxx:241: the electric field starts as 0 although the plasma moves across the background field |
| `C96_copy_view_violation` | mrc_ndarray_common.c:50-53 with mrc_ndarray.c:142-144: the vector of a view begins where the base begins, so copying a contiguous view (for instance one component made with `mrc_fld_make_view`) copies the beginning of the base |
| `C96_axpy_layout_violation` | mrc_fld.c:492-497: `mrc_fld_axpy` compares only shapes and then adds in memory order, so fields with different order of dimensions (`aos`, `c_order`) are added wrongly |
| `C96_empty_violation` | mrc_ndarray.h:171-199: an iterator over an array without elements starts at an element, so `mrc_ndarray_set` writes outside of the memory |
| `C96_large_violation` | mrc_ndarray.h:160, 183: the strides in bytes of an iterator are `int`s, so on arrays of 2 GiB and more `mrc_ndarray_set` writes outside of the memory |
| `C98_info_violation` | patch information of a "simple" domain assumes equal patches although sizes may be given per process |
| `C98_hole_violation` | local sizes of a "simple" domain that do not fit together are not rejected; cells end up in no patch |
| `C99_n_local_violation` | `Local::get` (kg/io/Descr.inl) copies a value out of a temporary right after asking for a deferred get into it, and the temporary goes away before the get is carried out: reading a checkpoint can use 0 patches and write to freed memory |
| `C99_steps_violation` | reading fields begins a step inside the step that `read_checkpoint` has begun |
| `C100_class_info_violation` | `mrc_obj_print_class_info` before any object was created follows the null pointer of a list head that is only set up with the first object |
| `C101_name_violation` | `OutputFieldsItem` registers its region under the characters of a temporary string (output_fields.hxx:165); the pointer is kept and read by every later table |
| `C101_open_violation` | a region open while a table is printed (those of the I/O thread of writer_adios2.hxx can be) is reported with the time since 1970 in the next table |
| `C101_absent_violation` | a process that has not called a region enters mean and minimum with -1 instead of 0 |
| `C102_wide_violation` | `mrc_ddc_simple` accepts more ghost points than cells; ghost cells then get values of the neighbour's ghost cells |
| `C102_uneven_violation` | `mrc_ddc_simple` does not check that the sizes of neighbours match; receives are posted for the wrong length |
| `C103_empty_violation` | a process with no indices skips the summation that the other processes call in the setup of `mrc_decomposition` (mrc_decomposition.c:21) |
| `C103_negative_violation` | `mrc_decomposition_find_rank` gives rank 0 for negative indices instead of refusing them |
| `C104_after_push_violation` | `check_bidx_after_push` expects `n_blocks` for particles that left their patch, but the push writes `n_blocks + p`: a right state gets a no if a particle of any patch but the first has left |
| `C104_in_patch_violation` | `check_in_patch_unordered_slow` after an exchange looks at particles that have been handed over (it does not use `d_id` when `need_reorder` is set) and answers no for a right state |
| `C104_lost_violation` | `check_ordered` does not check that `d_id` is a permutation: it answers yes for a list of indices with a particle twice and another missing |
| `C106_moved_violation` | lending particles in another type uses `push_back`, which moves a particle left of its patch to the face: a loan between push and exchange changes positions although the borrower changes nothing |
| `C106_check_violation` | `psc_mparticles_check` looks at the lent copy, in which particles left of their patch have been moved to the face, so it passes for particles in single precision that it reports in double precision |
| `C106_ids_violation` | there are no conversions for particles with ids: `get_as` to another type stops the program |

## Axioms

Every theorem in `MANIFEST.json` depends on exactly `propext`, `Classical.choice`, `Quot.sound`, except these, which need fewer:

* `C03_var1_in_plane`: `propext`, `Quot.sound`
* `C100_class_info_violation`: `propext`
* `C101_stats_time`: `propext`, `Quot.sound`
* `C103_empty_violation`: `propext`
* `C103_negative_violation`: `propext`, `Quot.sound`
* `C105_invariant`: `propext`
* `C105_outside`: `propext`, `Quot.sound`
* `C105_patches`: `propext`, `Quot.sound`
* `C106_refused`: `propext`, `Quot.sound`
* `C30_too_few`: `propext`, `Quot.sound`
* `C33_disabled`: `propext`
* `C35_restart_violation`: `propext`, `Quot.sound`
* `C38_disabled_violation`: `propext`, `Quot.sound`
* `C42_tree`: `propext`, `Quot.sound`
* `C43_compare_violation`: `propext`, `Quot.sound`
* `C43_count_violation`: `propext`, `Quot.sound`
* `C43_violation`: `propext`, `Quot.sound`
* `C44_int_partial`: `propext`, `Quot.sound`
* `C45_stats_violation`: `propext`, `Quot.sound`
* `C51_kind_partial`: `propext`, `Quot.sound`
* `C64_lost_violation`: `propext`
* `C65_complete`: `propext`, `Quot.sound`
* `C65_dir_violation`: `propext`, `Quot.sound`
* `C65_neutral_violation`: `propext`, `Quot.sound`
* `C65_not_due`: `propext`, `Quot.sound`
* `C65_weight`: `propext`, `Quot.sound`
* `C66_single_violation`: `propext`, `Quot.sound`
* `C66_unknown_violation`: `propext`, `Quot.sound`
* `C68_moments_yz_violation`: `propext`, `Quot.sound`
* `C71_ids_lost`: `propext`, `Quot.sound`
* `C85_schedule`: `propext`, `Quot.sound`
* `C98_accepted`: `propext`, `Quot.sound`

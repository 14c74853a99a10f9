{"id": "C01", "title": "Villasenor-Buneman split deposition conserves charge (3-d)", "statement": "When a particle of charge-weight q moves from normalised position xm to xp (at most one cell boundary crossed per direction), the currents that the 1vb 'split' current deposition adds to jx, jy, jz satisfy the discrete continuity equation at every node: the change of the 1st-order node-centred charge density plus dt times the backward-difference divergence of the deposited current is exactly zero, for any combination of crossings, including moves that start or end exactly on a cell boundary.", "quantifier": "all real start/end positions whose cell indices differ by at most 1 per direction, all charges, dx, dt != 0, all grid nodes", "why_tests_cant": "positions are continuous; tests sample a few moves, and corner crossings/boundary-exact moves form measure-zero sets that random tests never hit", "anchors": ["src/libpsc/psc_push_particles/inc_curr_1vb_split.cxx:Current1vbSplit::calc_j", "src/include/psc/current_deposition.hxx:CurrentDeposition1vb (dim_xyz)", "src/include/psc/deposit.hxx:Deposit1stNc"]}
{"id": "C02", "title": "1vb split deposition conserves charge in reduced dimensions (yz, xz)", "statement": "With an invariant x (yz runs) or invariant y (xz runs) direction, the currents deposited by the 1vb 'split' deposition satisfy the discrete continuity equation in the two active directions at every node, and all deposits go to index 0 of the invariant direction, for every velocity below light speed.", "quantifier": "all positions, velocities, charges, dt != 0; active-direction cell index change at most 1", "why_tests_cant": "continuum of positions and velocities; the failing case needs an unusually small invariant length", "anchors": ["src/libpsc/psc_push_particles/inc_curr_1vb_split.cxx:Current1vbSplit::calc_j", "src/include/psc/current_deposition.hxx:CurrentDeposition1vb (dim_yz, dim_xz)"]}
{"id": "C03", "title": "1vb 'var1' deposition conserves charge (yz)", "statement": "The 1vb 'var1' current deposition satisfies the discrete continuity equation in the yz plane at every node for each particle move, whichever order the two cell faces are crossed in.", "quantifier": "all positions, all moves with per-direction cell index change at most 1, all charges and velocities", "why_tests_cant": "continuum of positions, four crossing patterns each with degenerate corner cases", "anchors": ["src/libpsc/psc_push_particles/inc_curr_1vb_var1.cxx:Current1vbVar1::calc_j"]}
{"id": "C04", "title": "1vb '2d' deposition conserves charge (yz)", "statement": "The 1vb '2d' current deposition (with its own out-of-plane current) satisfies the discrete continuity equation in the yz plane at every node for each particle move.", "quantifier": "all positions, all moves with per-direction cell index change at most 1, all charges", "why_tests_cant": "continuum of positions and degenerate corner cases", "anchors": ["src/libpsc/psc_push_particles/inc_curr_1vb_2d.cxx:Current1vb2d::calc_j"]}
{"id": "C05", "title": "Zigzag deposition conserves charge", "statement": "The zigzag current deposition satisfies the discrete continuity equation at every node for each particle move in 3-d.", "quantifier": "all positions, all moves with per-direction cell index change at most 1, all charges", "why_tests_cant": "continuum of positions; relay point selection has eight crossing patterns", "anchors": ["src/libpsc/psc_push_particles/inc_curr_zigzag.cxx:CurrentZigzag::calc_j"]}
{"id": "C06", "title": "Esirkepov 1st-order deposition conserves charge", "statement": "The Esirkepov current deposition with 1st-order form factors satisfies the discrete continuity equation with the 1st-order node-centred charge density at every node, in every dimensionality it is instantiated for (yz, xz).", "quantifier": "all positions, all moves with per-direction cell index change at most 1, all charges and velocities, all nodes", "why_tests_cant": "continuum of positions, loop bounds depend on crossing pattern", "anchors": ["src/libpsc/psc_push_particles/pushp_current_esirkepov.hxx:CurrentEsirkepov", "src/libpsc/psc_push_particles/push_particles_esirkepov.hxx"]}
{"id": "C07", "title": "Esirkepov 2nd-order deposition conserves charge", "statement": "The Esirkepov current deposition with 2nd-order form factors satisfies the discrete continuity equation with the 2nd-order node-centred charge density at every node, in every supported dimensionality.", "quantifier": "all positions, all moves shorter than one cell per direction, all charges and velocities, all nodes", "why_tests_cant": "continuum of positions, loop bounds depend on crossing pattern", "anchors": ["src/libpsc/psc_push_particles/pushp_current_esirkepov.hxx:CurrentEsirkepov", "src/include/psc/deposit.hxx:Deposit2ndNc"]}
{"id": "C08", "title": "Charge continuity of a whole particle push", "statement": "After pushing any number of particles, the sum of all deposited currents satisfies the discrete continuity equation against the charge densities computed before and after the push: the continuity check's residual is zero at every node, however many particles there are and in whatever order they are pushed.", "quantifier": "all finite particle lists, all orders, all nodes", "why_tests_cant": "unbounded number of particles; superposition must hold in all orders", "anchors": ["src/libpsc/psc_push_particles/push_particles_1vb.hxx:PushParticlesVb::push_mprts", "src/libpsc/psc_checks/checks_impl.hxx:continuity"]}
{"id": "C09", "title": "Charge deposition conserves the particle's charge", "statement": "Depositing a particle's charge onto the grid with the 1st-order or 2nd-order, node- or cell-centred deposition adds exactly the particle's charge in total, with non-negative weights, and touches only the nodes adjacent to the particle.", "quantifier": "all particle positions, all charges, both orders, both centrings, all dimensionalities", "why_tests_cant": "continuum of positions", "anchors": ["src/include/psc/deposit.hxx", "src/include/psc/moment.hxx", "src/include/interpolate.hxx:ip_coeff_1st,ip_coeff_2nd"]}
{"id": "C10", "title": "Magnetic divergence is preserved by the field push", "statement": "Advancing the magnetic field by any fraction of a time step, any number of times, with arbitrary electric fields in between, leaves the discrete divergence of B in every cell exactly unchanged; in particular any number of complete time steps does, on any periodic decomposition, whatever the particles deposit and with or without Marder corrections.", "quantifier": "all field values, all step fractions, any number of pushes, all cells, any subset of invariant directions", "why_tests_cant": "unbounded number of steps and arbitrary fields", "anchors": ["src/include/psc_push_fields_impl.hxx:PushH", "src/include/psc_push_fields_impl.hxx:PushFields::push_H"]}
{"id": "C11", "title": "Gauss's law is preserved by the time step", "statement": "On a domain that is periodic in its non-invariant directions: if div E equals rho at every node initially and each step's current (summed over everything the patches deposited) satisfies the discrete continuity equation, then div E equals rho after any number of steps (current exchange, two half pushes of B around one full push of E, ghost exchanges), for any decomposition into patches and ranks; in general the residual div E - rho at every node is the same after every step, and the fields on all patches are those of the leap-frog Maxwell equations on the whole grid.", "quantifier": "all initial fields, all deposit histories satisfying continuity, any number of steps, all nodes, all decompositions into patches and ranks", "why_tests_cant": "holds over unbounded histories; tests run a handful of steps to within a tolerance", "anchors": ["src/include/psc_push_fields_impl.hxx:PushE", "src/include/psc.hxx:Psc::step", "src/libpsc/psc_checks/checks_impl.hxx:gauss"]}
{"id": "C12", "title": "Marder correction leaves B evolution untouched and damps the Gauss residual", "statement": "A Marder correction adds a discrete gradient to E, so the discrete curl of E (hence all subsequent B) is exactly unchanged; and for a diffusion parameter between 0 and 1 on a periodic domain, the maximum Gauss residual never grows under any number of Marder loops, nor over any number of time steps with Marder corrections whose currents satisfy the continuity equation.", "quantifier": "all fields, all residuals, any number of loops, diffusion in [0,1], any set of non-invariant directions", "why_tests_cant": "arbitrary fields and loop counts", "anchors": ["src/libpsc/psc_push_fields/marder_impl.hxx:MarderCommon"]}
{"id": "C13", "title": "Radiating boundary condition", "statement": "At an open boundary the field update enforces the absorbing characteristic condition for both polarisations with the prescribed incoming pulse, whatever the interior fields and currents are, and it depends on nothing but what the patch stores.", "quantifier": "all interior fields, currents, time steps, incoming pulse amplitudes", "why_tests_cant": "arbitrary field values; tests use vacuum where the current term vanishes", "anchors": ["src/libpsc/psc_bnd_fields/psc_bnd_fields_impl.hxx:radiative_H_lo", "src/libpsc/psc_bnd_fields/psc_bnd_fields_impl.hxx:radiative_H_hi"]}
{"id": "C14", "title": "Boris rotation preserves the momentum magnitude", "statement": "Pushing a particle's momentum in a purely magnetic field changes its direction only: |u| is exactly preserved for every field strength and time step; with an electric field, the push equals half-kick, rotation, half-kick.", "quantifier": "all momenta, all magnetic fields, all time steps, any number of pushes", "why_tests_cant": "continuum of states, unbounded number of pushes", "anchors": ["src/include/pushp.hxx:AdvanceParticle::push_p"]}
{"id": "C15", "title": "Particle speed stays below light speed", "statement": "The velocity derived from any momentum has magnitude strictly below 1, so one push moves a particle by less than dt in every direction, and under the Courant condition used by the code (dt below the cell size) the cell index changes by at most one per direction, which is what all current depositions rely on.", "quantifier": "all momenta, all dt, all cell sizes with dt <= dx, all positions", "why_tests_cant": "continuum of momenta including ultra-relativistic", "anchors": ["src/include/pushp.hxx:calc_v, push_x", "src/include/psc.hxx:courant_length"]}
{"id": "C16", "title": "Boundary processing never loses or duplicates a particle", "statement": "For each patch, boundary processing of the particles after a push partitions them: every particle is either kept in the patch with a valid cell, put into exactly one outgoing buffer, or dropped, and it is dropped only when it left through an absorbing or open domain boundary.", "quantifier": "all particle lists, all positions with bounded overshoot, all boundary-condition combinations and patch locations", "why_tests_cant": "unbounded particle lists and all boundary combinations", "anchors": ["src/include/bnd_particles_impl.hxx:BndParticlesCommon::process_patch"]}
{"id": "C17", "title": "Outgoing particles are re-expressed correctly for the neighbour patch", "statement": "A particle put into an outgoing buffer keeps its global position (modulo the periodic domain length): its new local position plus the neighbour's offset equals its old local position plus the patch's offset, and its momentum, charge and kind are unchanged; a particle reflected at a wall has its position mirrored and exactly the normal momentum component negated.", "quantifier": "all positions within one patch length of the patch, all boundary conditions", "why_tests_cant": "continuum of positions, all direction combinations", "anchors": ["src/include/bnd_particles_impl.hxx:process_patch"]}
{"id": "C18", "title": "Particle exchange delivers every particle exactly once", "statement": "Particle communication between patches delivers every particle in an outgoing buffer to exactly one patch, the neighbour in that direction, for every assignment of patches to ranks and every order in which messages complete; locally kept particles are not touched.", "quantifier": "all domain decompositions, all assignments of patches to ranks, all buffer contents, all message completion orders", "why_tests_cant": "schedules and decompositions are unbounded; tests run on one or two ranks", "anchors": ["src/include/ddc_particles.hxx:ddc_particles::comm", "src/include/ddc_particles.hxx:ddc_particles ctor"]}
{"id": "C19", "title": "Particles crossing a periodic particle boundary survive", "statement": "A particle that leaves through a domain boundary that is periodic for particles re-enters on the opposite side, whatever the field boundary condition.", "quantifier": "all boundary-condition combinations accepted by the grid", "why_tests_cant": "combination of settings not exercised by tests", "anchors": ["src/include/bnd_particles_impl.hxx:process_patch", "src/include/mrc_domain.hxx:MrcDomain", "src/include/ddc_particles.hxx"]}
{"id": "C20", "title": "Counting sort is a stable permutation ordered by cell", "statement": "Sorting the particles of a patch yields the same particles, ordered by cell index, keeping the relative order of particles in the same cell; the two sort implementations produce the same result, and particle data is not changed.", "quantifier": "all particle lists, all grid sizes", "why_tests_cant": "unbounded lists", "anchors": ["src/libpsc/psc_sort/psc_sort_impl.hxx:SortCountsort,SortCountsort2"]}
{"id": "C21", "title": "Cell indexing is a bijection onto the patch's cells", "statement": "For positions inside the patch, the linear cell index identifies exactly one cell, is in range, covers all cells, and for positions outside the patch the index is reported invalid.", "quantifier": "all positions, all patch sizes", "why_tests_cant": "continuum of positions, unbounded sizes", "anchors": ["src/include/particle_indexer.hxx:ParticleIndexer"]}
{"id": "C22", "title": "Binary collisions conserve momentum and energy", "statement": "A binary collision of two particles with equal weights conserves the total momentum vector and the total relativistic energy, whatever scattering angles are drawn; colliding with a neutral particle changes nothing.", "quantifier": "all momenta, masses, charges, random numbers", "why_tests_cant": "continuum of states and random draws; tests check one seed", "anchors": ["src/include/binary_collision.hxx:BinaryCollision"]}
{"id": "C23", "title": "Collision pairing stays inside a cell and covers it", "statement": "In each collision step every particle of a cell with at least two particles takes part in a collision, every collision pairs two distinct particles of the same cell, cells with fewer than two particles are untouched, and the random shuffle only permutes particles within their own cell.", "quantifier": "all particle lists sorted by cell, all cell occupancies, all random numbers", "why_tests_cant": "unbounded occupancies, odd/even/three-particle cases", "anchors": ["src/libpsc/psc_collision/psc_collision_impl.hxx:CollisionHost"]}
{"id": "C24", "title": "Space-filling curves number the patches bijectively", "statement": "Each of the patch orderings (by dimension, Morton, Hilbert) assigns every patch of the domain a distinct number in 0..n-1 and the inverse lookup returns the same patch.", "quantifier": "all patch-grid sizes accepted by the ordering", "why_tests_cant": "unbounded sizes", "anchors": ["src/libmrc/src/mrc_domain_lib.c:sfc_idx_to_idx3,sfc_idx3_to_idx", "src/libmrc/src/hilbert.c"]}
{"id": "C25", "title": "Patch ownership is a partition", "statement": "For any list of per-rank patch counts, every global patch belongs to exactly one rank and local index; looking up rank and local index from the global index, and back, are inverse.", "quantifier": "all numbers of ranks, all per-rank counts", "why_tests_cant": "unbounded numbers of ranks and patches", "anchors": ["src/libmrc/src/mrc_domain_multi.c:gpatch_to_rank_patch", "src/libmrc/src/mrc_domain_multi.c:setup_gpatch_off_all"]}
{"id": "C26", "title": "Neighbour relation is symmetric and respects periodicity", "statement": "If patch B is patch A's neighbour in direction d then A is B's neighbour in direction -d; a patch has a neighbour in every direction exactly when that direction is interior or periodic.", "quantifier": "all patch grids, all periodicity flags, all 27 directions, all patches", "why_tests_cant": "unbounded grids", "anchors": ["src/libmrc/src/mrc_domain_multi.c:mrc_domain_multi_get_neighbor_rank_patch"]}
{"id": "C27", "title": "Ghost fill copies the owner's values", "statement": "After filling ghost cells, every ghost cell that maps to an interior cell of some patch (with periodic wrap) holds that cell's value, interior cells are unchanged, for every assignment of patches to ranks and any order of message completion.", "quantifier": "all patch grids, assignments, ghost widths up to the patch size, field contents", "why_tests_cant": "decompositions and schedules unbounded", "anchors": ["src/libmrc/src/mrc_ddc_multi.c:mrc_ddc_multi_fill_ghosts", "src/libpsc/psc_bnd/psc_bnd_impl.hxx:Bnd_::fill_ghosts"]}
{"id": "C28", "title": "Ghost add conserves totals", "statement": "Adding ghost-cell contributions into their owners makes each interior cell the sum of all contributions deposited for that physical cell by any patch; on a periodic domain the domain total is preserved.", "quantifier": "all patch grids, assignments, field contents", "why_tests_cant": "decompositions unbounded", "anchors": ["src/libmrc/src/mrc_ddc_multi.c:mrc_ddc_multi_add_ghosts", "src/libpsc/psc_bnd/psc_bnd_impl.hxx:Bnd_::add_ghosts"]}
{"id": "C29", "title": "Sender and receiver agree on ghost message layout", "statement": "For each pair of ranks, the concatenation order in which the sender packs ghost regions for the receiver is exactly the order in which the receiver unpacks them, and region sizes agree.", "quantifier": "all patch grids, all assignments of patches to ranks, all pairs of ranks", "why_tests_cant": "decompositions unbounded; a mismatch silently corrupts fields", "anchors": ["src/libmrc/src/mrc_ddc_multi.c:mrc_ddc_multi_setup_pattern2", "src/include/ddc_particles.hxx"]}
{"id": "C30", "title": "Load balancer produces a valid mapping", "statement": "For every list of non-negative patch loads with positive total and at least as many patches as ranks, the new patch-to-rank mapping gives every rank at least one patch and the counts add up to the number of patches.", "quantifier": "all load lists, all numbers of ranks, all rank capabilities", "why_tests_cant": "unbounded load vectors", "anchors": ["src/libpsc/psc_balance/psc_balance_impl.hxx:best_mapping_recursive,best_mapping"]}
{"id": "C31", "title": "Rebalancing preserves every patch's data", "statement": "Moving patches between ranks preserves each global patch's particle list and fields exactly: after rebalancing, the rank owning global patch g holds exactly what the old owner held for g, independent of message completion order.", "quantifier": "all old and new mappings, all contents", "why_tests_cant": "unbounded mappings and contents; message tag matching", "anchors": ["src/libpsc/psc_balance/psc_balance_impl.hxx:Communicate,balance"]}
{"id": "C32", "title": "Checkpoint/restart restores the simulation", "statement": "Writing a checkpoint and reading it back reproduces the grid, particles and interior fields, so a restarted run continues as the uninterrupted one.", "quantifier": "all grids, particles and fields; every checkpoint time", "why_tests_cant": "every crash point; all field values", "anchors": ["src/include/checkpoint.hxx", "src/include/grid.inl", "src/include/grid.hxx:Descr"]}
{"id": "C33", "title": "Checkpoint schedule", "statement": "With interval n>0, checkpoints are written exactly at the positive-step-count multiples of n encountered during the run (never on the very first loop iteration of a (re)started run) plus one final checkpoint; with interval <= 0 only nothing periodic is written.", "quantifier": "all intervals, start steps, run lengths", "why_tests_cant": "unbounded runs and restart histories", "anchors": ["src/include/checkpoint.hxx:Checkpointing", "src/include/psc.hxx:Psc::integrate"]}
{"id": "C34", "title": "Field interpolation reproduces constant and linear fields", "statement": "The interpolation weights are non-negative, sum to one, and are supported on the adjacent nodes, so interpolated values lie between the minimum and maximum of the neighbouring grid values, and constant fields are reproduced exactly; node-centred weights reproduce linear functions of position.", "quantifier": "all positions, both orders, all field values", "why_tests_cant": "continuum of positions", "anchors": ["src/include/interpolate.hxx:ip_coeff_1st,ip_coeff_2nd,ip_coeffs,InterpolateEM_Helper"]}
{"id": "C35", "title": "Particle unique ids are unique", "statement": "Ids handed out by the id generators of all ranks are pairwise distinct during a run, and remain distinct from previously handed-out ids after a restart.", "quantifier": "all numbers of ranks, all numbers of ids per rank, all restart histories", "why_tests_cant": "unbounded histories", "anchors": ["src/include/UniqueIdGenerator.h:UniqueIdGenerator"]}
{"id": "C36", "title": "Range iteration visits exactly the box", "statement": "Iterating over a 3-d index range visits every index in the half-open box exactly once in row-major order, and visits nothing for an empty box.", "quantifier": "all range bounds", "why_tests_cant": "unbounded bounds, empty ranges", "anchors": ["src/kg/include/kg/VecRange.hxx:VecRange"]}
{"id": "C37", "title": "Particle setup reproduces the requested density", "statement": "For every cell and population, the particle weights sum to density times particles-per-unit-density (constant-weight mode excepted), at least one particle is created when the density is non-zero, none when it is zero, and the count announced for allocation equals the count created.", "quantifier": "all densities, all particle-per-cell numbers, all populations", "why_tests_cant": "continuum of densities, rounding boundary cases", "anchors": ["src/include/setup_particles.hxx:SetupParticles"]}
{"id": "C38", "title": "Time-averaged output is the mean of the samples in its window", "statement": "Time-averaged field output at step t is the arithmetic mean of exactly the samples taken in the averaging window ending at t, the accumulator is reset after each output, and disabled averaged output has no effect.", "quantifier": "all interval/averaging settings, all runs", "why_tests_cant": "unbounded histories, all parameter combinations including disabled", "anchors": ["src/include/output_fields.hxx:OutputTfieldItemParams,OutputFieldsItem"]}
{"id": "C39", "title": "HDF5 particle output index table is correct", "statement": "In the written particle index, the entry for every cell and kind gives exactly the global range of output particles of that cell and kind, for the ranks' patches and any output sub-box.", "quantifier": "all grids, all sub-boxes, all particle lists, all numbers of ranks", "why_tests_cant": "unbounded decompositions and sub-boxes", "anchors": ["src/libpsc/psc_output_particles/output_particles_hdf5_impl.hxx:OutputParticlesHdf5"]}
{"id": "C40", "title": "Reflecting-wall moment folding conserves charge", "statement": "At a reflecting wall, folding ghost moments back into the interior adds each ghost contribution to its mirror cell exactly once, so nothing deposited outside the wall is lost or double counted.", "quantifier": "all field contents, sizes, ghost widths", "why_tests_cant": "arbitrary fields and sizes", "anchors": ["src/include/add_ghosts_reflecting.hxx"]}
{"id": "C41", "title": "Inverse-CDF sampling stays in the support", "statement": "For every uniform random number in its documented range, the inverted CDF sampler returns a value inside the support of the distribution without reading outside its table, monotonically in the random number; the ends of the support are where the distribution function crosses the tolerance and one minus the tolerance.", "quantifier": "all cumulative distribution functions, table sizes, tolerances and random numbers u with 0 <= u < 1 (the range of the project's uniform generator)", "why_tests_cant": "u==0 has tiny probability", "anchors": ["src/include/rng.hxx:InvertedCdf"]}
{"id": "C42", "title": "Global patch lookup tree behaves as a map", "statement": "The lookup tree used to find local patches by global index is created from an ascending list of keys; looking a key up returns the value stored with it, and keys that are not in the list are reported as missing. The patch map built on it inverts the map from space-filling-curve index to global patch.", "quantifier": "all ascending key lists of any length; all domains", "why_tests_cant": "unbounded histories", "anchors": ["src/libmrc/src/bintree.c"]}
{"id": "C43", "title": "Occupancy bit field behaves as a set of cells", "statement": "Setting, clearing, filling and testing bits of the 3-d bit field agree with a mathematical set of cells.", "quantifier": "all sizes, all operation histories", "why_tests_cant": "unbounded histories and word-boundary effects", "anchors": ["src/libmrc/src/bitfield3d.c"]}
{"id": "C44", "title": "Input parameter file semantics", "statement": "Parsing an input file makes each named parameter available with the value of its last occurrence; absent names are reported absent and default values are returned for them; a value that is not of the requested type is rejected.", "quantifier": "all input files, all names", "why_tests_cant": "unbounded inputs", "anchors": ["src/include/input_params.hxx:InputParams"]}
{"id": "C45", "title": "Simulation loop runs exactly to the requested step", "statement": "Integration advances the step counter by exactly one per step, stops exactly when nmax steps are reached or the wall-clock limit is hit, and performs balancing, sorting, collision, Marder and checks exactly at the multiples of their intervals in the fixed order; an interval of zero switches the operation off.", "quantifier": "all interval settings, all nmax, all start steps, all wall-clock behaviours", "why_tests_cant": "unbounded runs", "anchors": ["src/include/psc.hxx:Psc::integrate,Psc::step"]}
{"id": "C46", "title": "Boundary injection conserves charge in the interior", "statement": "The current deposited for particles injected through the lower y boundary satisfies the discrete continuity equation at every node inside the domain, and only particles that end up inside are added.", "quantifier": "all injected positions, momenta, weights", "why_tests_cant": "continuum of positions", "anchors": ["src/include/boundary_injector.hxx:BoundaryInjector"]}
{"id": "C47", "title": "Heating changes only momenta inside the heated region", "statement": "The heating operator changes only the momentum of particles whose position lies in the heating region and of the selected kind; positions, weights, kinds and counts are unchanged.", "quantifier": "all particles, all heating profiles, random numbers", "why_tests_cant": "arbitrary particle lists", "anchors": ["src/libpsc/psc_heating/psc_heating_impl.hxx", "src/include/heating_spot_foil.hxx"]}
{"id": "C48", "title": "Interior/ghost loops cover exactly the intended cells", "statement": "Grid loops with l ghost cells below and r above visit every index of [-l, n+r) exactly once in active directions and exactly index 0 in invariant directions.", "quantifier": "all grid sizes, ghost widths", "why_tests_cant": "unbounded sizes", "anchors": ["src/include/grid.hxx:Foreach_3d"]}
{"id": "C49", "title": "Energy diagnostics sum the interior", "statement": "The field energy diagnostic sums exactly the interior cells of each patch, the particle energy diagnostic sums the kinetic energy of every particle under its own sign of charge, and a line is written exactly at the multiples of the interval.", "quantifier": "all sizes, ghost widths, fields", "why_tests_cant": "tests compare against uniform fields", "anchors": ["src/include/DiagEnergiesField.h"]}
{"id": "C50", "title": "Scattering by the drawn angle", "statement": "In the frame of the centre of momentum, the angle between a particle's momentum before and after a binary collision is the scattering angle drawn for it.", "quantifier": "all pairs of charged particles, all directions of relative motion, all angles", "why_tests_cant": "the exceptional direction is a set of measure zero for random tests, but is exactly the one of beams along an axis", "anchors": ["src/include/binary_collision.hxx:BinaryCollision::operator()"]}
{"id": "C51", "title": "Particles are created with the kind the initialisation asks for", "statement": "Every particle created at start-up has the species requested by the user's initialisation function for its population, and its momentum is drawn for the mass of that same species.", "quantifier": "all initialisation functions, all numbers of populations and kinds, all cells", "why_tests_cant": "The number of populations may exceed the number of kinds and the function may set the kind itself; a test uses one deck only.", "anchors": ["src/include/setup_particles.hxx:SetupParticles::initNpt_to_initNp", "src/include/setup_particles.hxx:SetupParticles::op_cellwise", "src/psc_harris_yz.cxx:initializeParticles"]}
{"id": "C52", "title": "A neutralising population makes every cell neutral", "statement": "With constant particle weights and a neutralising last population of charge -1, the particles created in every cell have total charge zero, whatever densities are requested and whatever random numbers are drawn.", "quantifier": "all densities, all random draws, all numbers of populations, integer ion charges", "why_tests_cant": "Counts depend on random draws per cell; no finite set of runs covers them.", "anchors": ["src/include/setup_particles.hxx:SetupParticles::op_cellwise"]}
{"id": "C53", "title": "Ghost cells are never stale when they are read", "statement": "In every run, whatever the intervals and the number of injectors, external currents, correctors and diagnostics: an operation of the time step that reads ghost cells of E, H or J finds them up to date (wall treatment, accumulation of currents and exchange done since the last write, in this order), and positions, E and H are at the half or full time step the leap-frog scheme needs.", "quantifier": "all interval settings, component counts, start and end steps, wall-clock and memory behaviours", "why_tests_cant": "The order of exchanges only matters across patches and walls, and which operations run depends on the interplay of all the intervals.", "anchors": ["src/include/psc.hxx: Psc::integrate, Psc::step, Psc::pre_first_step"]}
{"id": "C54", "title": "Conducting walls", "statement": "At a boundary declared a conducting wall the electric field along the wall is zero after every time step, the magnetic field through the wall never changes, and the fields a particle sees beyond the wall are the mirror image of those inside, whatever particles and fields do inside.", "quantifier": "all patch decompositions, geometries, wall directions y and z, initial fields, deposited currents and numbers of steps", "why_tests_cant": "the wall must hold for every field and every current pattern next to it, in every decomposition, including the copies in ghost cells, not just for the runs one can test", "anchors": ["src/libpsc/psc_bnd_fields/psc_bnd_fields_impl.hxx: conducting_wall_E_lo, conducting_wall_E_hi, conducting_wall_H_lo, conducting_wall_H_hi, fill_ghosts_E, fill_ghosts_H", "src/include/psc.hxx: step"]}
{"id": "C55", "title": "Deposited current totals charge times velocity", "statement": "Summed over all grid nodes, each component of the current deposited in a time step equals the sum over particles of charge times velocity, both along the directions in which the particles move on the grid and along the invariant ones.", "quantifier": "all particle lists, momenta, fields, grid spacings, time steps within the Courant limit, and all depositions: 1vb split xyz/yz/xz, var1 yz, zigzag, Esirkepov 1st order yz/xz and 2nd order xyz/yz/xz/xy/y/z", "why_tests_cant": "the deposit is spread over up to hundreds of nodes with weights depending on where the path crosses cell boundaries; a wrong weight that still satisfies continuity (e.g. in an invariant direction) shows only for particular paths", "anchors": ["src/include/psc/current_deposition.hxx: CurrentDeposition1vb", "src/libpsc/psc_push_particles/inc_curr_1vb_split.cxx: calc_j", "src/libpsc/psc_push_particles/inc_curr_1vb_var1.cxx: calc_j", "src/libpsc/psc_push_particles/inc_curr_1vb_2d.cxx: calc_j", "src/libpsc/psc_push_particles/inc_curr_zigzag.cxx: calc_j", "src/libpsc/psc_push_particles/pushp_current_esirkepov.hxx: calc"]}
{"id": "C56", "title": "Push and charge deposition stay inside a patch's storage", "statement": "For particles that lie in their patch, pushing them and depositing their charge writes only to grid points that the patch's fields hold (its cells and ghost cells), and depends only on field values held there, given the ghost width set by the drivers.", "quantifier": "all particle lists inside the patch, momenta, fields, patch sizes, grid spacings and time steps within the Courant limit; all push configurations; ghost widths of at least 2", "why_tests_cant": "an out-of-bounds write happens only for particles near a patch boundary with particular velocities, and silently corrupts a neighbouring patch or component rather than crashing", "anchors": ["src/include/psc/current_deposition.hxx: CurrentDeposition1vb", "src/libpsc/psc_push_particles/inc_curr_1vb_split.cxx: calc_j", "src/libpsc/psc_push_particles/inc_curr_1vb_var1.cxx: calc_j", "src/libpsc/psc_push_particles/pushp_current_esirkepov.hxx: calc", "src/include/interpolate.hxx: InterpolateEM", "src/include/psc/deposit.hxx: Deposit1stNc, Deposit2ndNc", "src/psc_flatfoil_yz.cxx: n_ghosts", "src/psc_config.hxx: PscConfig2ndDouble"]}
{"id": "C57", "title": "Gauss's law over whole particle-in-cell runs", "statement": "In a periodic run, starting from particles inside their patches and consistent ghost cells, any number of time steps (each: any reordering and scattering of the particles of a patch, particle push with current deposition, exchange of particles between patches and ranks, exchange and push of the fields, Gauss correctors or not) succeeds on all ranks; every particle ends up in the patch that holds it; the largest difference between div E and the charge density at any node of any patch does not grow, so that Gauss's law stays exact if it holds at the start; without correctors div E - rho is exactly unchanged at every node; div B is exactly unchanged in every cell; at every step the built-in continuity check reports error 0 and the built-in Gauss check reports an error no larger than the initial residual.", "quantifier": "every decomposition into patches and ranks, patch and ghost size, spacing and time step within the Courant condition, number of steps, particle list, momenta, initial fields, permutation and change of momenta by sorting and collisions, corrector parameters with 0 <= diffusion <= 1", "why_tests_cant": "a test runs a few steps of a few particles on one decomposition; the property couples push, deposition, particle exchange, ghost exchange, field push and diagnostics over unboundedly many steps", "anchors": ["src/include/psc.hxx:Psc::step", "src/libpsc/psc_push_particles/push_particles_1vb.hxx", "src/include/bnd_particles_impl.hxx", "src/libpsc/psc_checks/checks_impl.hxx", "src/include/fields_item.hxx"]}
{"id": "C58", "title": "Results do not depend on the domain decomposition", "statement": "A periodic run of any number of time steps gives the same result however the domain is cut into patches, however the patches are distributed over ranks, however many (enough) ghost points there are, and whenever and however particles are sorted: the same particles with the same positions, momenta, weights and kinds, and the same fields in every cell. That result is what the same simulation gives on one undivided periodic grid without patches, ghost cells or messages.", "quantifier": "every pair of decompositions into patches and ranks, patch and ghost sizes, spacing and time step within the Courant condition, number of steps, particle list, initial fields, reordering of the particles of each patch before each push, Gauss correctors", "why_tests_cant": "a test compares a few decompositions on a few steps; the property must hold for all of them, with every particle path across patch and rank boundaries and every order of messages and accumulation (in exact arithmetic)", "anchors": ["src/include/psc.hxx:Psc::step", "src/libpsc/psc_push_particles/push_particles_1vb.hxx", "src/include/bnd_particles_impl.hxx", "src/libmrc/src/mrc_ddc_multi.c", "src/include/ddc_particles.hxx", "src/libpsc/psc_push_fields/marder_impl.hxx"]}
{"id": "C59", "title": "The field push is stable below the Courant limit and accounts for energy exactly", "statement": "In a periodic run, with the time step chosen as cfl times the Courant length with cfl < 1, fields without currents stay bounded for ever: after any number of steps the field energy is at most 1/(1-cfl^2) times that at the start. The energy of the scheme (E^2 plus the product of the magnetic fields half a step before and after) is exactly constant without currents, for any time step, and in every step changes by exactly minus the work dt J.(E before + E after) of the current deposited on all patches. The limit is sharp: with a longer time step, on every grid with even numbers of cells, there are fields that grow exponentially.", "quantifier": "all decompositions, grid sizes, cell sizes, time steps, initial fields, currents, numbers of steps", "why_tests_cant": "a test integrates one initial field for a limited number of steps; an instability or an energy leak at patch boundaries can take many steps, particular wave numbers or particular decompositions to show", "anchors": ["src/include/psc_push_fields_impl.hxx:push_E", "src/include/psc_push_fields_impl.hxx:push_H", "src/include/psc.hxx:courant_length", "src/include/psc.hxx:Psc::step"]}
{"id": "C60", "title": "Moments written to output are the named quantities of the named species", "statement": "For every moment (number, charge, velocity, momentum densities, and the set of charge, current, momentum and stress densities), every component of the output carries the name quantity_species and its value at every cell is exactly the density of that quantity over the particles of that species and no others, as it would be computed on the undivided domain, wrapped at periodic boundaries and mirrored at reflecting walls: patch boundaries do not show. In a closed domain (periodic, or cell-centred between reflecting walls) the sum over all cells is the sum over all particles.", "quantifier": "all decompositions, patch sizes, ghost widths, species lists, particle lists, boundary conditions, the six depositions (first order at cell centres and nodes, second order at nodes, in 3-d and yz)", "why_tests_cant": "a test deposits a few particles of one species on one grid and looks at totals or single values; swapped components, contributions at patch corners, next to walls or of later species show only for particular particles", "anchors": ["src/include/psc/moment.hxx:moment_all", "src/include/fields_item.hxx:ItemMoment", "src/include/fields_item.hxx:ItemMomentBnd", "src/include/fields_item.hxx:addKindSuffix", "src/include/psc/deposit.hxx:norm"]}
{"id": "C61", "title": "Gauss's law and charge continuity survive walls and open boundaries", "statement": "In a run with any mixture of periodic directions, conducting walls that reflect particles and open boundaries that remove them, every step succeeds on all ranks, every particle that is still in the domain is in the patch that holds it, the divergence of the magnetic field never changes, and neither does the difference between the divergence of the electric field and the charge density (as the built-in checks compute them) at any node that is not on a lower wall or open boundary: reflected particles carry their current back, the current and charge that spill over a wall are folded back consistently, and removed particles take their charge with them through the boundary. The built-in continuity check, which includes the nodes on walls, reports zero at every step, and the built-in Gauss check never reports more than the error at the start.", "quantifier": "all boundary condition mixtures, decompositions into patches and ranks, patch and ghost sizes, spacings and time steps within the Courant condition, numbers of steps, particle lists, initial fields, incoming radiation, reorderings and momentum scatterings of the particles of each patch before each push", "why_tests_cant": "a test runs one boundary configuration for a few steps from one seed; sign errors in the folding at walls, at corners of walls with patch or open boundaries, or in the treatment of leaving particles show only for particles that cross the boundary at particular places", "anchors": ["src/include/psc.hxx:Psc::step", "src/include/bnd_particles_impl.hxx", "src/libpsc/psc_bnd_fields/psc_bnd_fields_impl.hxx:add_ghosts_J", "src/include/fields_item.hxx:ItemMomentBnd", "src/libpsc/psc_checks/checks_impl.hxx", "src/libpsc/psc_push_particles/push_particles_1vb.hxx"]}
{"id": "C62", "title": "Load balancing during a run does not change its results", "statement": "A run in which load balancing redistributes the patches over the ranks before any of its steps, with whatever loads the particle counts give, succeeds on all ranks, leaves every rank with at least one patch, and ends up with the same particles and the same fields in every cell and ghost cell as the run without balancing, and as the simulation on one undivided grid. In particular the Gauss residual at every node and the divergence of B in every cell are exactly what they were, whichever rank they are on by then, also with collisions.", "quantifier": "all decompositions with at least one patch per rank, weights of the cells in the load, numbers of steps, subsets of steps with balancing, particle lists, initial fields, sorting and collisions before each push", "why_tests_cant": "a test balances once from one load distribution; a patch that arrives with stale ghost cells, in the wrong order or with the wrong offset, or a mapping that leaves a rank empty, shows only for particular loads and only in later steps", "anchors": ["src/include/psc.hxx:Psc::step", "src/libpsc/psc_balance/psc_balance_impl.hxx:Balance_", "src/libpsc/psc_balance/psc_balance_impl.hxx:get_loads", "src/libpsc/psc_balance/psc_balance_impl.hxx:communicate_ctx"]}
{"id": "C63", "title": "Initial fields are the user's functions on the Yee grid, whatever the decomposition", "statement": "setupFields gives every cell and ghost cell of every patch, for all components of J, E and H, the value of the user's function at the position of that component of the global cell (E and J in the middle of edges, H in the middle of faces), added to what is there; it writes nowhere else. Repeated set-ups superpose. setupScalarField uses nodes or cell centres, and stops for other centrings. After the ghost exchanges before the first step the patches of a periodic run hold exactly the user's functions on the domain continued periodically, so that a run started from the same functions and particles gives the same state after any number of steps for every decomposition. With conducting walls and open boundaries the start succeeds too, patches agree, there is no electric field along walls, and div B stays that of the user's function during the run.", "quantifier": "all decompositions, patch sizes, numbers of ghost points (the same in all directions that are not invariant), grid spacings and corners, user functions (periodic or not), boundary conditions, numbers of steps", "why_tests_cant": "a test samples a few functions on one decomposition; a wrong half-cell offset in one component or an offset missing in patches other than the first is invisible for symmetric functions and single patches", "anchors": ["src/include/setup_fields.hxx:setupFields", "src/include/setup_fields.hxx:setupScalarField", "src/include/centering.hxx:get_pos", "src/include/grid.hxx:Grid_::Patch", "src/include/psc.hxx:Psc::pre_first_step"]}
{"id": "C64", "title": "Every write_step ends up in one intact file, with the values of the call, under all schedules", "statement": "A field writer produces, for every write_step, one file named dir/prefix.<step, at least nine digits>.bp after the prefix and directory of the open in force at the call, holding the values the field has at the call; files appear in the order of the calls and file names of different steps differ. Over a run of field output, each snapshot that is due is on disk, intact, at the end of the run, and nothing else is. This is to hold whether or not writing is handed over to a separate thread: then for every interleaving of the program and the writer's thread nothing is written twice, out of order or with later values, no wake-up is lost, nothing deadlocks, and nothing submitted is missing when the writer is destroyed.", "quantifier": "all sequences of open, write_step, close and changes of the field, all directories, prefixes and int steps, all output settings, all interleavings of the two threads including spurious wake-ups", "why_tests_cant": "interleavings cannot be enumerated by running the code; a test that finishes slowly enough never sees the queue dropped at the end, and a test that does not close the writer never sees a wrong file name", "anchors": ["src/include/writer_adios2.hxx:WriterADIOS2", "src/include/writer_adios2.hxx:write_step", "src/include/writer_adios2.hxx:thread_func", "src/include/output_fields.hxx:OutputFieldsItem::perform_diagnostic"]}
{"id": "C65", "title": "Particles come out of the particle files as they were put in", "statement": "Injecting a particle anywhere in a patch, faces included, succeeds, appends exactly one particle in one of the patch's cells with the position (on an upper face a millionth of the patch's extent inside), momentum, weight, kind and tag asked for, and leaves the others alone. ADIOS2 particle output writes, at every step that is a multiple of the interval and at no other, one file per kind, named in the output directory after the kind and the step so that no two collide; its rows are exactly the particles of that kind inside the requested box of cells on all ranks, each once, with the values of one particle in the same row of all requested columns, and positions in the domain rather than in the patch.", "quantifier": "all grids, numbers of ranks and patches, kinds, particles, injection positions, column choices, intervals, steps, boxes, directories", "why_tests_cant": "a row misaligned by one rank's count, a column in patch coordinates, or a particle of the last kind dropped shows only for particular distributions over ranks and patches; options that are accepted and ignored are invisible unless the test looks for what should be absent", "anchors": ["src/include/injector_simple.hxx:InjectorSimple", "src/include/particles_simple.hxx:push_back", "src/include/particle_indexer.hxx:checkInPatchMod", "src/libpsc/psc_output_particles/output_particles_adios2_impl.hxx:OutputParticlesAdios2", "src/libpsc/psc_output_particles/output_particles_adios2_impl.hxx:get_file_name"]}
{"id": "C66", "title": "Tables of initial conditions are read and interpolated faithfully", "statement": "Reading a table file whose lines end in any mixture of the three usual line ends, the last line with or without one, gives exactly its rows of numbers in order, each under the name in the header. Looking a value up in a strictly increasing column finds the row that brackets it, whatever the spacing of the column; interpolation returns the tabulated value at tabulated points, the straight line in between (never outside of the two neighbouring values), and throws for values outside of the table. Reading or looking up never changes the table, and a missing file, an unknown column name or an odd number of rows is never mistaken for data.", "quantifier": "all files, headers, numbers of rows and columns, line ends, columns, spacings and look-up values", "why_tests_cant": "the search starts from a guess that is exact for evenly spaced tables starting at zero, which are the ones tests use; uneven spacing, offsets, mixed line ends and boundary values are a continuum", "anchors": ["src/psc_bgk_util/table.hxx:Table", "src/psc_bgk_util/table.hxx:safe_getline", "src/psc_bgk_util/table.hxx:get_row", "src/psc_bgk_util/table.hxx:get_interpolated"]}
{"id": "C67", "title": "Stopping and restarting does not change a run", "statement": "A periodic run that is stopped after any number of steps and restarted from the checkpoint, any number of times, on as many ranks, ends at the same time step, with the same patches on each rank, and in exactly the same state as the run that is never stopped: the same particles in the same order in every patch, and the same currents and fields in every cell, ghost cells included. This holds with load balancing, sorting, collisions that draw the same numbers at the same time step, and Gauss correctors, and whatever the memory of the new processes contains.", "quantifier": "all decks, decompositions, initial states, numbers and positions of stops, numbers of steps, load balancing schedules, contents of uninitialised memory", "why_tests_cant": "a test restarts once, at one step, of one small run; ghost cells that are not stored, patches that moved since the start and the order of particles only matter for other stops and longer runs", "anchors": ["src/include/checkpoint.hxx:write_checkpoint", "src/include/checkpoint.hxx:read_checkpoint", "src/include/psc.hxx:Psc::integrate", "src/include/psc.hxx:Psc::pre_first_step", "src/include/psc.hxx:Psc::step", "src/libpsc/psc_balance/psc_balance_impl.hxx:Balance_"]}
{"id": "C68", "title": "GPU kernels process every particle exactly once", "statement": "When the particles are on the GPU, every particle is processed exactly once, in the block of cells it belongs to, by each kernel that works on particles: the push, heating, collisions and the moments. This holds for every patch size, block size, number of patches, number of threads per block and distribution of the particles over the blocks, and no kernel reads the block offsets beyond their end.", "quantifier": "all patch sizes, block sizes, numbers of patches, numbers of threads and distributions of particles over blocks", "why_tests_cant": "a test runs a few grids on one GPU; sizes with odd numbers of blocks, unequal numbers of blocks in y and z, more blocks than the limit of the grid and several patches combine in ways no test enumerates", "anchors": ["src/libpsc/cuda/cuda_mparticles_indexer.h:BlockSimple", "src/libpsc/cuda/cuda_mparticles_indexer.h:BlockSimple2", "src/libpsc/cuda/cuda_mparticles_indexer.h:BlockQ", "src/libpsc/cuda/cuda_mparticles_indexer.h:in_block_loop", "src/libpsc/cuda/cuda_moments_1st_nc.cxx"]}
{"id": "C69", "title": "Currents deposited on the GPU conserve charge and agree with those of the CPU", "statement": "When the particles are on the GPU, the current deposited by every particle conserves charge exactly at every node of the grid, for every position, move, cell size and time step; the kernel ends for every move, and no particle writes currents outside of its patch and ghost cells, or outside of the part of the grid its block of threads works on. For every move that crosses at most one face per direction the deposited current is, at every edge, the one the CPU deposits, so that results do not depend on where a run is executed.", "quantifier": "all positions, moves, charges, weights, cell sizes, time steps and blocks", "why_tests_cant": "a test deposits a few moves; ties between faces, moves through corners, starts on a face and zero displacements form a continuum", "anchors": ["src/libpsc/cuda/cuda_push_mprts_yz.cxx:calc_j", "src/libpsc/cuda/cuda_push_mprts_yz.cxx:calc_dx1", "src/libpsc/cuda/cuda_push_mprts_yz.cxx:curr_vb_cell", "src/libpsc/cuda/cuda_currmem.hxx:SCurr", "src/libpsc/psc_push_particles/inc_curr_1vb_var1.cxx", "src/libpsc/psc_push_particles/inc_curr_1vb_split.cxx"]}
{"id": "C70", "title": "A push on the GPU gives the same result whatever the order in which its threads run", "statement": "The kernel that pushes particles on the GPU has no data races: no two of its threads access the same value of shared or global memory, one of them writing, without a barrier in between, unless by atomic additions. Whatever the order in which thread blocks and threads run, and whatever is in shared memory before, after the launches of a push the currents in memory are, at every edge of every patch, the sums of the currents of all particles, each counted exactly once; and every thread that interpolates fields finds in the cache of its block the fields of its patch for all cells of the block and two cells around it.", "quantifier": "all executions of the threads of all thread blocks that obey the barriers, all grids of blocks, numbers of threads, particles per block, field values and contents of shared memory", "why_tests_cant": "a test sees the few orders the hardware happens to choose; a race shows up only in some of the astronomically many interleavings", "anchors": ["src/libpsc/cuda/cuda_push_mprts_yz.cxx:push_mprts", "src/libpsc/cuda/cuda_push_mprts_yz.cxx:push_mprts_ab", "src/libpsc/cuda/cuda_currmem.hxx:SCurr", "src/libpsc/cuda/cuda_currmem.hxx:GCurr", "src/libpsc/cuda/cuda_fld_cache.hxx:FldCache", "src/libpsc/cuda/cuda_mparticles_indexer.h:BlockQ"]}
{"id": "C71", "title": "On the GPU no particle is lost, duplicated or assigned to a wrong patch by any history of operations", "statement": "Whatever the sequence of injections, pushes, exchanges between patches, reads and removals, the GPU storage of a process holds, for each of its patches, exactly the particles that were injected or received there and have not been handed over to another patch. A push handles exactly these particles, each once and in the block of cells its position is in; an exchange hands over exactly those whose position is outside of their patch; reading gives, for each patch, exactly its particles; the numbers of particles reported for the patches are theirs. None of the operations fails.", "quantifier": "all sequences of operations, numbers and positions of particles, decompositions into patches and blocks, orders of the threads of the push kernel", "why_tests_cant": "storage is sorted lazily, so that each operation meets a different arrangement depending on what came before: the histories of operations and particle positions are unbounded", "anchors": ["src/libpsc/cuda/cuda_mparticles.cxx:cuda_mparticles", "src/libpsc/cuda/cuda_mparticles_sort.hxx:cuda_mparticles_sort_by_block", "src/libpsc/cuda/cuda_mparticles_indexer.h:DParticleIndexer", "src/libpsc/cuda/cuda_bndp.h:cuda_bndp", "src/libpsc/cuda/cuda_bndp.cxx:post", "src/libpsc/cuda/cuda_push_mprts_yz.cxx:push_mprts", "src/libpsc/cuda/mparticles_patch_cuda.hxx:ConstAccessorCuda"]}
{"id": "C72", "title": "Collisions on the GPU pair each particle with another of its cell, keep particles, momentum and energy, and agree with the CPU in rate", "statement": "When collisions are carried out on the GPU after any history of operations with every particle in its patch, nothing fails, and in every cell all particles (all but one, if their number is odd) collide exactly once, each with another particle of the same cell, whatever the random numbers and the order in which threads run and equal keys are sorted. No particle is lost or changes its cell, patch, charge or kind, and total momentum and energy of every cell are kept. The sum of the rates of the collisions in a cell is that of the CPU code. All later operations see the particles so changed and nothing else.", "quantifier": "all histories of operations, numbers of particles per cell, random numbers, orders of threads and of equal sort keys, scattering laws", "why_tests_cant": "the pairing depends on random keys and on an unstable sort and runs in parallel on storage whose arrangement depends on the history; all of them together cannot be enumerated", "anchors": ["src/libpsc/cuda/cuda_collision.hxx:CudaCollision", "src/libpsc/cuda/cuda_mparticles_sort.hxx:cuda_mparticles_randomize_sort", "src/libpsc/cuda/cuda_collision.hxx:k_collide", "src/include/binary_collision.hxx:BinaryCollision"]}
{"id": "C73", "title": "Field push and Marder correction on the GPU give what they give on the CPU, in any order of threads", "statement": "Advancing the electric or the magnetic field, or applying the Marder correction, on the GPU leaves in the memory of the GPU exactly the fields that the same call on the CPU gives, in all cells including ghost cells, for every field, time step, patch size and number of patches, in three dimensions and in the yz plane. The result does not depend on the order in which threads run: no thread reads or writes what another of the same launch writes, and nothing outside the memory is accessed.", "quantifier": "all fields, patch sizes, numbers of patches, time steps and diffusion parameters, and all orders of threads", "why_tests_cant": "the kernels run one thread per cell in any order on linear memory; a test sees some orders on some sizes", "anchors": ["src/libpsc/cuda/push_fields_cuda_impl.cxx:PushFieldsCuda", "src/libpsc/psc_push_fields/marder_impl.hxx:cuda_marder_correct_xyz", "src/libpsc/psc_push_fields/marder_impl.hxx:cuda_marder_correct_yz", "src/include/psc_fields_cuda.h:MfieldsCuda"]}
{"id": "C74", "title": "Exchanging ghost cells on the GPU gives what it gives on the CPU, after any history of exchanges", "statement": "Adding up or filling the ghost cells of a field on the GPU leaves on every rank exactly the field the same call on the CPU gives, for every decomposition, patch size, number of ghost points, range of components and contents, whatever was exchanged and redistributed before, although index maps made by earlier calls are kept and used again. The order in which threads run does not matter, filling writes no value twice, every message is received with the length expected, and nothing outside the memory or the maps is accessed.", "quantifier": "all histories of exchanges and redistributions, all decompositions, fields and component ranges, all orders of threads", "why_tests_cant": "which maps are used depends on all earlier calls, and the values on a decomposition and an order of threads; a test sees a few of each", "anchors": ["src/libpsc/cuda/cuda_bnd.hxx:CudaBnd", "src/libpsc/cuda/bnd_cuda_3_impl.cxx:BndCuda3", "src/libmrc/src/mrc_ddc_multi.c:mrc_ddc_multi_setup_pattern2"]}
{"id": "C75", "title": "A simulation on GPUs gives what the same simulation on CPUs gives, over any number of steps", "statement": "Started with the same particles and fields, a periodic 3-d simulation on any number of GPUs ends up, after any number of steps, with what the same simulation on CPUs ends up with (and so with what it gives on one undivided grid): the same particles in every patch, in some order, and the same fields in every cell and ghost cell. No step fails an assertion, accesses anything outside of memory or sends a message that does not fit. This does not depend on the order in which threads run, nor on which ghost exchanges diagnostics do in between, although index maps, block offsets and sort permutations are kept between steps. Reading the particles back gives those of the CPU.", "quantifier": "all decompositions, patch and block sizes, initial particles and fields, numbers of steps, orders of threads and interleaved ghost exchanges", "why_tests_cant": "the result depends on the whole history of cached maps and of the order of particles on the device; a test runs a few steps of a few set-ups in whatever order the device happens to choose", "anchors": ["src/psc_config.hxx:PscConfig1vbecCuda", "src/include/psc.hxx:Psc::step", "src/libpsc/cuda/cuda_push_mprts_yz.cxx:CudaPushParticles_", "src/libpsc/cuda/bnd_particles_cuda_impl.cxx:BndParticlesCuda", "src/libpsc/cuda/push_fields_cuda_impl.cxx:PushFieldsCuda", "src/libpsc/cuda/bnd_cuda_3_impl.cxx:BndCuda3"]}
{"id": "C76", "title": "Moments on GPUs are those on CPUs, whatever was done before, and computing them does not change the run", "statement": "Whatever has been done to the particles on the GPUs and to their ghost exchange before, asking for the charge density, the number densities or all moments succeeds in every order of threads; the result has the components, names and values (ghost cells included) that the CPU gives for the same particles, which are the densities of the named quantity on the undivided domain. Particles, fields and the time steps that follow are not changed by it: any sequence of time steps and moments gives what the CPU gives for the same sequence.", "quantifier": "all decompositions, patch and block sizes, boundary conditions of particles, sets of particles, numbers of species up to four, orders of threads, and histories of the particle storage and of cached ghost exchange maps", "why_tests_cant": "the kernel reads block offsets and orders of particles that depend on everything done before, and adds concurrently; a test looks at one set of particles right after it was put on the device", "anchors": ["src/libpsc/cuda/cuda_moments_1st_nc.cxx:CudaMoments1stN::operator()", "src/libpsc/cuda/cuda_moments_1st_nc.cxx:rho_1st_nc_cuda_run", "src/libpsc/cuda/fields_item_moments_1st_cuda.hxx:moment_rho_1st_nc_cuda", "src/libpsc/cuda/fields_item_moments_1st_cuda.hxx:moments_1st_cc_cuda", "src/include/fields_item.hxx:ItemMoment"]}
{"id": "C77", "title": "Heating on GPUs kicks exactly the particles to be heated, with fresh random numbers, whatever was done before", "statement": "Whatever has been done to the particles of a process before (injection, pushes, exchanges, collisions, heating, redistribution of the patches), heating succeeds in every order of threads; afterwards a particle has been kicked if and only if it is in the heated layer of the domain, by the position its patch has now, and is of a kind to be heated; its kick in each direction has the prescribed variance; nothing else about it or any other particle has changed. No random number is used twice in a run: not by two threads, not by heating, sorting and collisions, not before and after a redistribution, and not by two processes.", "quantifier": "all decompositions, patch and block sizes, sets of particles, heated layers and temperatures, values of the random sequences, orders of threads, and histories of operations of a process including load balancing", "why_tests_cant": "generators are shared by three kernels with grids of different sizes, and growing their number starts all of them again; corners of patches are cached and have to be refreshed after a redistribution. A test heats one set of particles once, and cannot see that a number has been used before", "anchors": ["src/libpsc/cuda/cuda_heating.cxx:cuda_heating_foil", "src/libpsc/cuda/cuda_heating.cxx:k_heating_run_foil", "src/libpsc/cuda/cuda_heating.cxx:HeatingCuda::operator()", "src/libpsc/cuda/rng_state.hxx:RngStateCuda", "src/libpsc/cuda/cuda_base.cxx:cuda_base_init"]}
{"id": "C78", "title": "In boxes with walls, results do not depend on how the domain is decomposed", "statement": "A simulation of any number of time steps in a box that is closed by conducting, reflecting walls in some directions and periodic in the others does the same, however the box is cut into patches, however the patches are distributed over ranks, however many ghost points there are and whenever particles are sorted: it succeeds on all ranks and ends up with the particles (as a multiset of positions in the box, momenta, weights and kinds) and the fields in every cell that the same algorithm gives on the undivided box, where a particle that went behind a wall is put back to its mirror image with its normal momentum reversed, and current deposited behind a wall is added to its mirror image.", "quantifier": "all boxes, step sizes, particle species, numbers of ranks and patches per rank, decompositions, initial states, and numbers of steps, for any set of periodic and walled directions", "why_tests_cant": "a test compares one or two decompositions of one problem; walls that coincide with patch boundaries on some ranks only, corners of walls with periodic directions, and particles that reach a wall and a neighbouring patch in the same step each take different code paths", "anchors": ["src/include/psc.hxx:Psc::step", "src/libpsc/psc_push_particles/push_particles_1vb.hxx", "src/include/bnd_particles_impl.hxx", "src/libpsc/psc_bnd_fields/psc_bnd_fields_impl.hxx:BndFields_", "src/libpsc/psc_bnd/psc_bnd_impl.hxx:Bnd_", "src/include/ddc_particles.hxx"]}
{"id": "C79", "title": "Field output in HDF5/XDMF files shows every value at its place", "statement": "A program that opens the default field writer and writes any number of steps runs to its end, and afterwards a viewer that opens the index file of any of its steps sees the step's time, the written quantities with their names, exactly the selected region of the box and, at every point of it, in exactly one grid cell, the value that the field has in the cell of this point. This holds for every decomposition and distribution of patches over ranks, also if it changes between steps, and whatever addresses the memory allocator gives (objects are named by their addresses). The file of the series lists the index files of all steps of the simulation, also after a restart; other files are left alone; no memory is kept.", "quantifier": "all numbers of ranks and patches, decompositions, fields and components, sequences of output steps, allocators, and orders in which ranks close their files", "why_tests_cant": "the layout of the files depends on the decomposition, names on addresses that the allocator gives out and re-uses, and the index is written by one rank about the data of all; a test looks at one file of one small run", "anchors": ["src/include/writer_mrc.hxx:WriterMRC", "src/libmrc/src/mrc_io_xdmf2.c:xdmf_write_m3", "src/libmrc/src/mrc_io_xdmf_lib.c:xdmf_spatial_write", "src/libmrc/src/mrc_io.c:mrc_io_add_obj", "src/libmrc/src/mrc_obj.c:mrc_obj_write", "src/libmrc/src/mrc_fld.c:_mrc_fld_setup", "src/libmrc/src/mrc_domain_multi.c:mrc_domain_multi_get_global_patch_info", "src/include/output_fields.hxx:OutputFieldsItem"]}
{"id": "C80", "title": "Load balancing changes nothing, in boxes with walls and open boundaries", "statement": "A run with walls or open boundaries in which patches are redistributed over the ranks before any of the steps succeeds on all ranks, keeps at least one patch on every rank and all boundary conditions, keeps every particle in the patch that holds it and the divergence of B in every cell away from upper boundaries, and keeps the difference of div E and the charge density at every node away from lower boundaries. In a box closed by walls, it ends up in the same state as the same run without load balancing: the same particles, the same fields in every cell, the same magnetic field through the upper walls.", "quantifier": "all decompositions, distributions of particles, sequences of steps with and without balancing, initial states", "why_tests_cant": "whether balancing goes unnoticed depends on which patches are at a boundary before and after it, in every combination; a test sees one redistribution", "anchors": ["src/include/psc.hxx:step", "src/libpsc/psc_balance/psc_balance_impl.hxx:Balance_", "src/include/bnd_particles_impl.hxx", "src/libpsc/psc_bnd_fields/psc_bnd_fields_impl.hxx:BndFields_"]}
{"id": "C81", "title": "Gauss's law and charge continuity over whole runs with injection through a boundary", "statement": "A run with any number of injectors at an open lower y boundary, in any box with walls, open and periodic boundaries, succeeds on all ranks whatever the random numbers are. In every step, the particles are those that the same step without injectors leaves, plus exactly those particles of the imaginary population below the boundary that reach the domain in that step. All copies of the fields keep agreeing, the divergence of B does not change, the built-in check of charge continuity reports error 0 at every step, and the Gauss residual never exceeds its initial value.", "quantifier": "all decompositions, initial states, numbers of steps, injectors, and all values of the random number generators", "why_tests_cant": "the newly injected particles, their current, the exchange of particles and currents and the boundary conditions of the fields interact on every step of every run; a test sees one sequence of random numbers", "anchors": ["src/include/psc.hxx:step", "src/include/boundary_injector.hxx:BoundaryInjector", "src/include/injector_simple.hxx:InjectorSimple", "src/psc_shock.cxx", "src/libpsc/psc_checks/checks_impl.hxx"]}
{"id": "C82", "title": "A periodic wave field carried into the box through the lower y boundary", "statement": "In the shock simulation the wave let in through the open lower y boundary is the periodic turbulent field of the start, carried along with the plasma: at every time, at every point of the lower y side of the patches, the amplitudes of both polarisations are those of the initial field without background, interpolated the distance v t further down in the periodically continued box. No rank waits for another in vain. This holds for any sequence of times at which the boundary conditions are applied, provided the wave does not travel more than the length of a patch between two of them, which the time steps of a run meet; otherwise the run ends with an error, and no wrong wave is let in.", "quantifier": "all decompositions with one patch per process, initial fields, speeds, sequences of times and points", "why_tests_cant": "the wave comes from fields that are passed around between the processes; a wrong partner, a missed or repeated exchange, or a mismatch between position and number of exchanges shows only after the wave has travelled across patches, on some decompositions", "anchors": ["src/psc_shock.cxx:AdvectedPeriodicFields", "src/libpsc/psc_bnd_fields/psc_bnd_fields_impl.hxx:radiative_H_lo", "src/kg/include/kg/Vec3.h:flatten_index"]}
{"id": "C83", "title": "Initial turbulence and background of the shock simulation", "statement": "The shock simulation starts with one turbulent magnetic field of the whole box, periodic in all directions, on top of a uniform background. The field depends only on the parameters and the seed: with any decomposition into patches and any distribution over processes every patch starts with the same field, also in its ghost cells. Its mean square is the one the user asks for, it has no divergence, and it is what the boundary that lets the turbulence in continues (C82). The background is the uniform field of the upstream plasma seen from a frame in which the plasma moves: a particle at rest in the plasma feels no electric field and the magnetic field the user gave.", "quantifier": "all boxes, decompositions, lengths, correlation lengths, powers, random numbers, velocities and upstream fields", "why_tests_cant": "ghost cells are computed from positions outside of the patch and must agree with the neighbour's values for all decompositions; lost factors of the spacing show only with cells that are not cubes, and an uninitialised variable only on some machines", "anchors": ["src/psc_shock.cxx:add_background_fields", "src/psc_shock.cxx:set_mean_b2", "src/psc_shock.cxx:inject_b_from_potential", "src/psc_shock.cxx:inject_plane_alfven_wave", "src/psc_shock.cxx:inject_turbulence_dense", "src/psc_shock.cxx:inject_turbulence_noise", "src/psc_shock.cxx:GaborKernel", "src/psc_shock.cxx:initializeFields"]}
{"id": "C84", "title": "Random initial positions", "statement": "With random offsets every initial particle lies in the cell it was asked for, and exactly at the position of the cell in directions in which nothing varies. Kinds that are asked for in the same cells are at the same positions, so that two kinds of opposite charge and equal density leave no charge at any grid point; this holds for every cell of equal numbers. Processes use different random numbers, and the positions on one process have nothing to do with those on another.", "quantifier": "all grids and centrings, numbers of particles, kinds and populations, processes, and both precisions", "why_tests_cant": "correlations between processes do not show in any single run's mean values; that kinds stay in step depends on the numbers of particles in all earlier cells and patches", "anchors": ["src/include/rng.hxx:get_process_seed", "src/include/rng.hxx:Uniform", "src/include/setup_particles.hxx:setupParticles", "src/include/setup_particles.hxx:op_cellwise"]}
{"id": "C85", "title": "Verdict of the built-in checks of charge continuity and Gauss's law", "statement": "At the steps at which a check is due, and at no others, all processes come to the same verdict on the whole box. The error reported is the largest one of all cells, leaving out only the first layer at lower boundaries that are open (and conducting walls for Gauss's law). If the user has asked to exit on failure, all processes abort exactly if some cell is off by the threshold or more, and a run that has gone wrong does not pass. The fields are dumped by all processes or by none, and every process lists exactly its cells that are off by more than the threshold.", "quantifier": "all decompositions over processes, all charges, currents and fields including NaN, thresholds, intervals and steps, and all ways in which libraries take the maximum with NaN", "why_tests_cant": "a cell overlooked by the reduction, on any process, shows only if exactly that cell fails; dumping is collective, and verdicts that differ between processes hang the run; NaN compares as false", "anchors": ["src/include/checks_params.hxx:should_do_check", "src/include/checks_params.hxx:should_print_diffs", "src/include/checks_params.hxx:should_dump", "src/libpsc/psc_checks/checks_impl.hxx:after_particle_push", "src/libpsc/psc_checks/checks_impl.hxx:gauss", "src/include/psc/helper.hxx:print_diff"]}
{"id": "C86", "title": "Output density of the initial particles", "statement": "A deck gives densities as functions of the position. The number and charge densities that are output for the initial particles, before the first step, are in every cell and for every kind exactly the densities asked for at the centre of that cell (summed over the populations of the kind), whatever the number of particles per cell, the decomposition over processes, the walls and the random numbers drawn. In other units they are that times a constant that follows from the units. Every set of units that the parameters can describe is accepted.", "quantifier": "all grids, decompositions, decks, populations, densities, numbers of particles per cell, random numbers and momenta, and all parameters of the normalisation", "why_tests_cant": "rounding of particle numbers, weights, normalisation, positions, injection, deposition, walls and exchange between processes must cancel exactly in every cell for every density function", "anchors": ["src/include/setup_particles.hxx:op_cellwise", "src/include/setup_particles.hxx:setupParticles", "src/include/setup_particles.hxx:getWeight", "src/include/setup_particles.hxx:get_n_in_cell", "src/include/grid.hxx:Normalization", "src/include/grid.hxx:dimensionless", "src/include/injector_simple.hxx:InjectorSimple", "src/include/psc/moment.hxx:moment_n", "src/include/fields_item.hxx:ItemMoment"]}
{"id": "C87", "title": "Gauss's law from the deck to the end of a run", "statement": "For a periodic simulation with the standard 1st-order pushers (3-d or yz), the set-up succeeds for every deck; how well Gauss's law is obeyed is decided by the deck alone: at every node the difference of div E and the charge density in the simulation is, at the start and without Gauss correctors after every number of steps, the divergence of the deck's electric field less the mean of the charge density the deck asks for over the cells that touch the node. Correctors never raise the largest difference. In particular, a deck whose charge densities cancel in every cell and whose electric field is uniform obeys Gauss's law exactly at all times, and the built-in checks report zero; and the divergence of B in every cell stays that of the user's initial field.", "quantifier": "all decks (densities, kinds, populations), initial fields, decompositions, numbers of particles per cell, random numbers, numbers of steps, sorts and collisions", "why_tests_cant": "rounding of particle numbers, weights, deposition at nodes, ghost exchange, field set-up, push, current deposition and field update must fit together exactly for every deck and all steps; a test sees one deck to within a tolerance", "anchors": ["src/include/setup_particles.hxx:setupParticles", "src/include/psc.hxx:pre_first_step", "src/include/psc.hxx:integrate", "src/libpsc/psc_checks/checks_impl.hxx:gauss", "src/psc_bubble_yz.cxx:initializeParticles", "src/include/psc/moment.hxx:moment_rho"]}
{"id": "C88", "title": "Harris sheet starts in equilibrium", "statement": "The driver psc_harris_yz sets up a Harris current sheet. Without the perturbation, the pressure of the plasma and of the magnetic field add up to the same everywhere, and the drifts of the populations carry exactly the current that is the curl of the magnetic field, for any ratios of masses, temperatures, frequencies and lengths. Electrons and ions balance in every cell. The magnetic field, with its perturbation, has no divergence, also on the grid, so that it has none at any later time, and does not go through the conducting walls. No particle is lost at the boundaries.", "quantifier": "all parameters of the driver, positions, cells, parallelisations and random numbers, and all later times", "why_tests_cant": "statements about every point of space, every cell and every sequence of random numbers and steps", "anchors": ["src/psc_harris_yz.cxx:setupParameters", "src/psc_harris_yz.cxx:setupGrid", "src/psc_harris_yz.cxx:initializeParticles", "src/psc_harris_yz.cxx:initializeFields", "src/include/setup_particles.hxx:initNpt_to_initNp", "src/include/setup_fields.hxx:setupFields", "src/include/bnd_particles_impl.hxx:process_patch"]}
{"id": "C89", "title": "BGK driver starts, and stays, with Gauss's law exact", "statement": "The driver psc_bgk reads a potential from a table and sets up the electric field, electrons and ions from it. Whatever the table and the parameters, at the start the electric field is minus the gradient of the potential on the periodic grid, without curl, the ions have the density asked for, and the charge density at every node is exactly the divergence of the electric field. This, and a magnetic field without divergence, stay so for any number of steps. The particles created have positive weights.", "quantifier": "all tables and parameters of the driver, grids, parallelisations and random numbers, nodes, and all later times", "why_tests_cant": "statements about every table, every node and every sequence of random numbers and steps", "anchors": ["src/psc_bgk.cxx:initializePhi", "src/psc_bgk.cxx:initializeGradPhi", "src/psc_bgk.cxx:initializeDivGradPhi", "src/psc_bgk.cxx:initializeParticles", "src/psc_bgk.cxx:initializeFields", "src/psc_bgk.cxx:getCoord", "src/libpsc/psc_output_fields/fields_item_fields.hxx:grad_ec", "src/libpsc/psc_output_fields/fields_item_fields.hxx:div_nc", "src/include/setup_particles.hxx:op_cellwise"]}
{"id": "C90", "title": "Options on the command line", "statement": "The command line is read as options, each with at most one value, in only one possible way, or refused. A variable of an object gets the value meant by the first option named after the object and the variable, else by the first named after the variable alone, else it keeps the value of the deck; nothing else changes. A text that means nothing for the variable ends the program. No option makes the grid differ from that of the deck: its patches always tile the domain, with the deck's boundary conditions. Different outputs go to different files.", "quantifier": "all command lines, sets of variables, texts, decks (numbers of cells and patches, boundary conditions)", "why_tests_cant": "statements about every command line and every deck", "anchors": ["src/libmrc/src/mrc_params.c:libmrc_params_init", "src/libmrc/src/mrc_params.c:find_option", "src/libmrc/src/mrc_params.c:mrc_params_parse_nodefault", "src/libmrc/src/mrc_params.c:mrc_params_parse_pfx", "src/libmrc/src/mrc_obj.c:mrc_obj_set_from_options_this", "src/include/mrc_domain.hxx:MrcDomain", "src/libmrc/src/mrc_domain_multi.c:mrc_domain_multi_do_setup", "src/include/writer_mrc.hxx:open"]}
{"id": "C91", "title": "Colliding bubbles driver", "statement": "The driver of two colliding plasma bubbles starts from what it says: at every point the electric field is that of ideal motion with the flow of the ions, and no bubble is faster than the Mach number asked for; electrons and ions have the same density everywhere, between background and peak, and the same flow in the plane; densities, flows, temperatures and fields fit the periodic box; the magnetic field has no divergence; and the electrons carry the current of the magnetic field.", "quantifier": "all parameters with bubbles that do not overlap and fit the box, all points of the plane", "why_tests_cant": "a statement about every point and every choice of the parameters, with derivatives", "anchors": ["src/psc_bubble_yz.cxx:setupParameters", "src/psc_bubble_yz.cxx:initializeParticles", "src/psc_bubble_yz.cxx:initializeFields"]}
{"id": "C92", "title": "External currents", "statement": "Currents added from outside act like those of particles: each cell of the domain gets them once, whatever the decomposition; without particles the fields are those of the leap-frog scheme with exactly this source; the charge the field gains is minus the time integral of their divergence, node by node, so divergence-free currents leave Gauss's law as it was; the driver of radiation builds up the charge of a quadrupole, 1 : -2 : 1, and nothing else; the built-in checks stay usable.", "quantifier": "all periodic decompositions, numbers of patches, ranks and steps, all external currents given per cell and time, all particles", "why_tests_cant": "a statement about every source, decomposition and length of a run; a unit test sees one of them", "anchors": ["src/include/external_current_base.hxx:ExternalCurrentFromLambda", "src/include/psc.hxx:step", "src/psc_radiation.cxx:run"]}
{"id": "C93", "title": "The flat foil driver: injection keeps the plasma neutral", "statement": "The flat foil driver starts neutral, and the plasma it injects during the run is neutral: Gauss's law holds exactly at the start and after any number of steps, and the built-in checks report no error although particles are added in between; the injection never fails and reads and writes inside of its fields even though the particles have left their patches at that point; it closes a fixed part of the gap to the target density in every cell of the foil, does nothing where the target is reached or outside of the foil, and never goes beyond the target by more than two particles.", "quantifier": "all periodic decompositions, parameters of the driver, random numbers, measured densities, numbers of steps, sorting, collisions and heating", "why_tests_cant": "a statement about all random numbers, histories and decompositions; a unit test sees one of them", "anchors": ["src/psc_flatfoil_yz.cxx:InjectFoil", "src/psc_flatfoil_yz.cxx:initializeParticles", "src/psc_flatfoil_yz.cxx:lf_inject_heat", "src/include/setup_particles.hxx:setupParticles", "src/include/psc.hxx:step"]}
{"id": "C94", "title": "The 2-d shock driver: neutral start and injection", "statement": "The 2-d shock driver starts neutral, with ambient plasma everywhere and target plasma in addition in the foil, and the target plasma it injects during the run is neutral: Gauss's law holds exactly at the start and after any number of steps, and the built-in checks report no error; neither start nor injection fail; the injection adds no ambient particles, nothing outside of the foil or where the target density is reached, and elsewhere closes the part inject_fac of the gap to the target density.", "quantifier": "all periodic decompositions, parameters of the driver, random numbers, measured densities, numbers of steps, sorting, collisions and heating", "why_tests_cant": "a statement about all random numbers, histories and decompositions; a unit test sees one of them, and the driver's own numbers hide both of its faults", "anchors": ["src/psc_2d_shock.cxx:InjectFoil", "src/psc_2d_shock.cxx:initializeParticles", "src/psc_2d_shock.cxx:lf_inject_heat", "src/include/setup_particles.hxx:setupParticles", "src/include/psc.hxx:step"]}
{"id": "C95", "title": "The wave packets of psc_whistler", "statement": "The whistler driver starts with a neutral uniform plasma of the betas it names and two wave packets in opposite directions along the background field: Gauss's law and the vanishing divergence of B hold exactly at the start and after any number of steps, and the built-in checks report no error; the drift of both kinds is minus (plus) the transverse field of the first (second) packet; the initial fields fit the periodic box, the drift carries the current of the fields, and the electric field is that of the moving plasma.", "quantifier": "all grids, decompositions, parameters of the driver, points, random numbers, numbers of steps, sorting and collisions", "why_tests_cant": "a statement about all points and histories; a test of the driver compares one run with itself, and the checks that are built in do not look at currents and periodicity", "anchors": ["src/psc_whistler.cxx:initializeParticles", "src/psc_whistler.cxx:initializeFields", "src/psc_whistler.cxx:setupParameters", "src/psc_whistler.cxx:setupGrid"]}
{"id": "C96", "title": "Arrays of libmrc, their views, and operations on whole arrays", "statement": "In an n-dimensional array with any extents, first indices and order of the dimensions in memory, and in views, views of views and so on, different indices are different elements, all of them inside the allocated memory, and what is written to one element is read back from it and from no other; a new array has memory of its own, filled with zeros; element i of a view is the element of its base shifted by the origin of the view; the test for Fortran order is right; and set, scale, norm, copy and axpy act on exactly the elements of the array: all of them, each once, nothing else.", "quantifier": "all numbers of dimensions up to 5, extents, first indices, orders of dimensions, nested views, element types, contents of memory", "why_tests_cant": "a test tries a few shapes; the indices, shapes and nestings of views are unbounded, and an element touched twice or a neighbour overwritten shows only for shapes the test does not contain", "anchors": ["src/libmrc/src/mrc_ndarray.c:_mrc_ndarray_setup", "src/libmrc/src/mrc_ndarray.c:mrc_ndarray_f_contiguous", "src/libmrc/src/mrc_ndarray_common.c:mrc_ndarray_sub_copy", "src/libmrc/include/mrc_ndarray.h:mrc_ndarray_it_next", "src/libmrc/src/mrc_vec.c:mrc_vec_copy", "src/libmrc/src/mrc_fld.c:mrc_fld_axpy"]}
{"id": "C97", "title": "Totals over whole runs", "statement": "During a periodic run of any number of steps on any decomposition no particle is lost, made or given another charge or species; the sums over the whole domain of each component of the magnetic field and of the charge density do not change; and at every step the sum of each component of the current is fnqs times the sum of charge times velocity of all particles, and the sum of that component of the electric field changes by minus dt times it, with or without Gauss correction. Reflecting walls keep every particle too; open and absorbing boundaries can only take particles away. Drivers that inject plasma in cells add only particles of unit weight, with ions of charge 1 exactly as many ions as electrons over any run, and leave the sums of the magnetic field and of the charge density as they are; an injector at a boundary adds exactly the particles that enter.", "quantifier": "all decompositions, patches, particles, fields, numbers of steps, what sorting and collisions do, Gauss corrections, boundary conditions", "why_tests_cant": "a test follows a few particles for a few steps on one or two decompositions; a particle lost or doubled in a corner crossing, or a current counted twice at a patch boundary, shows only for particular positions at particular steps", "anchors": ["src/include/psc.hxx:Psc::step", "src/include/bnd_particles_impl.hxx:process_and_exchange", "src/libpsc/psc_push_particles/push_particles_1vb.hxx:push_mprts", "src/include/psc_push_fields_impl.hxx:push_E"]}
{"id": "C98", "title": "Domains with one patch per process", "statement": "Setting up a domain with one patch per process never deadlocks and always ends, whatever the schedule of the processes and whether or not the MPI library buffers messages. Afterwards the offset of every patch is the number of cells of the patches before it, no message is left over, and if the processes at the same place of a direction have the same number of cells there, every cell of the domain is in exactly one patch. If no local sizes are given, the setup succeeds exactly if the process grid divides the domain, and the patch information every process reports is that of its patch. Neighbours are the processes next in that direction, with wrap-around exactly in periodic directions, and are mutual. A domain written by several processes becomes one patch when it is set up on one process.", "quantifier": "all process grids, local and global sizes, schedules of the processes, message buffering, boundary conditions, directions", "why_tests_cant": "the offsets are passed along lines of processes by blocking sends and receives: whether some schedule or some MPI buffering deadlocks, or mixes up the three directions, cannot be seen from runs on a few processes", "anchors": ["src/libmrc/src/mrc_domain_simple.c:mrc_domain_simple_do_setup", "src/libmrc/src/mrc_domain_simple.c:mrc_domain_simple_get_neighbor_rank_patch", "src/libmrc/src/mrc_domain_simple.c:mrc_domain_simple_get_global_patch_info"]}
{"id": "C99", "title": "Checkpoints and fields with deferred input and output", "statement": "The I/O library may carry out a deferred put or get at any time between the call and the next point of completion, in any order. Whatever it chooses, after a checkpoint or a field has been written the file holds exactly the data of the simulation, each under its own name, and no memory was read after its life ended. Whatever it chooses, a checkpoint that is read back delivers exactly what was written, no value is used before it is there, no memory is written after its life ended, and steps are opened and closed in pairs. Different paths of names without colons never share a name in the file.", "quantifier": "all times and orders in which the I/O library carries out deferred operations, all numbers of patches, all data, all lists of particle components", "why_tests_cant": "whether a deferred operation has been carried out when the memory is used or given up depends on the I/O library, its engine and buffer sizes; a test sees one choice", "anchors": ["src/include/checkpoint.hxx:write_checkpoint", "src/include/checkpoint.hxx:read_checkpoint", "src/include/grid.inl:Descr", "src/include/fields3d.inl:Descr", "src/include/particles_simple.inl:PutComponent", "src/kg/include/kg/io/Descr.inl:Local", "src/kg/include/kg/io/Engine.h:prefix", "src/include/writer_adios2.hxx:write"]}
{"id": "C100", "title": "Linked lists and the lifetimes of objects", "statement": "After every history of the list functions (add at either end, delete, move, splice) on lists and entries that are in use as these functions require, each list has exactly the entries it is to have in the order it is to have, lists have nothing in common, and functions on one list leave all others alone. Walking a list meets its entries in order and ends; walking back meets them in the opposite order; the safe walk meets every entry even if entries are deleted on the way; a list is found empty exactly if it is. After every history in which objects are created and references to them are taken and given up, an object is there exactly as long as there are references to it, each class lists exactly its objects in the order of their creation and knows how many they are, every class with an object so far is listed once, and the number of objects that the class information reports is the number of objects there are.", "quantifier": "all histories of list functions, all memory contents at the start, all histories of creating objects and taking and giving up references, all numbers of classes and objects", "why_tests_cant": "a wrong link is only found by a later walk that passes it; the state of the links depends on the whole history of additions and deletions", "anchors": ["src/libmrc/include/mrc_list.h:list_add", "src/libmrc/include/mrc_list.h:list_del", "src/libmrc/include/mrc_list.h:list_splice", "src/libmrc/src/mrc_obj.c:obj_create", "src/libmrc/src/mrc_obj.c:mrc_obj_put", "src/libmrc/src/mrc_obj.c:mrc_obj_print_class_info"]}
{"id": "C101", "title": "Timings and statistics printed during a run", "statement": "Whatever regions are timed inside, before and after it, and however often tables are printed in between, the number of calls and the time that the profile shows for a region are those of its calls since the last table, and the cumulative numbers are those of all its calls. If all processes enter the same timed functions in the same order, the table has a row for each region ever called, with its name and with the mean, the least and the largest time of the processes. The statistics table shows for each quantity the mean, the least, the largest and the sum of the values of all processes, and the quantities start again from zero. Both tables can always be printed.", "quantifier": "all histories of entering timed functions, starting, stopping and restarting regions and printing tables, all clock readings, all numbers of processes and regions", "why_tests_cant": "the numbers are sums over the whole history of a run, with nested and interrupted regions; whether a region is open, or its name still there, when a table is printed depends on the schedule", "anchors": ["src/libmrc/include/mrc_profile.h:prof_start", "src/libmrc/include/mrc_profile.h:prof_restart", "src/libmrc/src/mrc_profile.c:prof_register", "src/libmrc/src/mrc_profile.c:prof_print_mpi", "src/libpsc/psc_stats.cxx:psc_stats_log", "src/libpsc/psc_stats.cxx:psc_stats_register", "src/include/output_fields.hxx:pr_outf", "src/include/writer_adios2.hxx:pr_thread"]}
{"id": "C102", "title": "Ghost cells of domains with one patch per process", "statement": "Filling the ghost cells of a domain with one patch per process gives each ghost cell that lies in the domain, across periodic boundaries too, the value of the cell at the same place in the neighbour's patch, and changes nothing else. Adding ghost cells adds to each cell the values of all ghost cells of neighbours at its place, and changes nothing else, so that the total is conserved. Every receive is met by exactly one message, of the length it was posted for, and no message is left over.", "quantifier": "all numbers of processes in each direction, sizes and first indices of patches that fit together, numbers of ghost points up to the size of a patch, boundary conditions, numbers of components and field contents", "why_tests_cant": "which message meets which receive depends on ranks, tags and sizes of all processes together; with few processes the same pair of processes exchanges several messages, across different sides", "anchors": ["src/libmrc/src/mrc_ddc_simple.c:mrc_ddc_simple_fill_ghosts", "src/libmrc/src/mrc_ddc_simple.c:mrc_ddc_simple_add_ghosts", "src/libmrc/src/mrc_ddc_simple.c:mrc_ddc_simple_setup", "src/libmrc/src/mrc_ddc_simple.c:ddc_run", "src/libmrc/include/mrc_ddc.h:MRC_DDC_BUF3"]}
{"id": "C103", "title": "Distribution of indices over processes", "statement": "When processes set up a decomposition of a range of indices by giving their local sizes, each process gets the total and its offset, the number of indices of the processes before it. Each index of the range is local to exactly one process, which numbers its indices from zero on; other indices are local to none. The process found for an index is the one that has it, whatever was looked up before, in the same or in other decompositions, and an index that no process has is refused.", "quantifier": "all numbers of processes and local sizes, all indices, all histories of lookups in any decompositions", "why_tests_cant": "the lookup starts from a variable that is shared by all decompositions and keeps the last result, so its answers depend on the history; the setup communicates depending on local sizes", "anchors": ["src/libmrc/src/mrc_decomposition.c:_mrc_decomposition_setup", "src/libmrc/src/mrc_decomposition.c:mrc_decomposition_find_rank", "src/libmrc/src/mrc_decomposition.c:mrc_decomposition_is_local", "src/libmrc/src/mrc_decomposition.c:mrc_decomposition_global_to_local"]}
{"id": "C104", "title": "Self-checks of the particles on the GPU", "statement": "The check of the order answers yes exactly if the ranges of the blocks follow each other from zero to the number of particles and every range has particles of its block; the checks before sorting answer yes exactly if every particle is in its patch, or in the block it is said to be in. After any history of injections, exchanges, reads and removals the check of the order answers yes, the check of patches answers yes exactly if every particle is in its patch, and after any push the check of block numbers answers yes. A yes from the check of the order means that putting the particles in order loses none.", "quantifier": "all states, all grids of patches and blocks, all positions of particles, all allowed histories of operations", "why_tests_cant": "the tests call the checks on a few states that are right; what a yes or no means for any state, and whether a right state can get a no, depends on all positions and histories", "anchors": ["src/libpsc/cuda/cuda_mparticles_checks.cxx:check_ordered", "src/libpsc/cuda/cuda_mparticles_checks.cxx:check_in_patch_unordered_slow", "src/libpsc/cuda/cuda_mparticles_checks.cxx:check_bidx_id_unordered_slow", "src/libpsc/cuda/cuda_mparticles_checks.cxx:check_bidx_after_push", "src/libpsc/cuda/mparticles_cuda.hxx:check_after_push"]}
{"id": "C105", "title": "Storage of fields", "statement": "Fields have a value for each component, each cell and ghost point of a patch, and each patch. After any history of writes and resets, reading a value, directly or through a view of its patch, gives what was last written there in either way, or zero if nothing was; writing one value changes no other. Every element of the memory holds exactly one value, and the values of a patch are next to each other. Views of runs with invariant directions do not look at the index there. Both layouts of array views hold all values of a box without overlap or gap.", "quantifier": "all numbers of cells, ghost points, components and patches, all indices, all histories of writes and resets through both kinds of access, all invariant directions, both layouts", "why_tests_cant": "unit tests compare one small box; that different indices never refer to the same memory, with any shape and any mix of the two kinds of access, is a statement about all shapes and indices", "anchors": ["src/include/fields3d.hxx:MfieldsCRTP", "src/include/fields3d.hxx:SArrayView", "src/include/fields.hxx:Fields3d", "src/kg/include/kg/SArrayView.h:strides", "src/kg/include/kg/Array3d.h:Box3"]}
{"id": "C106", "title": "Particles lent in another representation come back", "statement": "Who asks for the particles in single or double precision sees all of them, in the same patches and order, with every number rounded to that type (a particle on an upper face is moved inside by a millionth). When they are returned the container has them as the borrower left them, or as they were if they are not to be copied back; other containers do not change and none that was lent is left behind. A loan by which nothing is changed changes nothing. A loan for which no conversion is known is refused. The check of particles that uses a loan passes exactly if the particles are in their patches.", "quantifier": "all containers and particles in their patches, all roundings, all histories of loans, anything the borrowers do", "why_tests_cant": "a test lends a few particles once; loss, reordering, rounding, leaks and containers written in the wrong direction depend on the types, the positions and the history of loans", "anchors": ["src/include/particles.hxx:get_as", "src/include/particles.hxx:put_as", "src/libpsc/mparticles.cxx:convert", "src/libpsc/mparticles.cxx:psc_mparticles_check", "src/libpsc/psc_particles_impl.cxx:psc_mparticles_copy", "src/libpsc/psc_particles_impl.cxx:psc_mparticles_copy_from"]}
{"id": "C107", "title": "Fields lent in another representation come back", "statement": "Who asks for components of fields in single or double precision sees them in every cell and ghost point of every patch, rounded to that type, and zero for components not asked for. When components are returned the fields have there what the borrower left, rounded, and elsewhere what they had; other fields do not change, none that was lent is left behind, and no access is out of bounds. A program that writes only to components it returns, returns only components it asked for, and uses numbers of both types gets the same fields as by writing to them directly, whatever the type it asks for.", "quantifier": "all shapes of fields, numbers of patches and ghost points, all ranges of components, all roundings, all histories of loans, any writes of the borrowers", "why_tests_cant": "a test lends one component of one field once; missed ghost points, patches or components, the wrong direction of a copy and leaks depend on the shape, the ranges and the history", "anchors": ["src/include/fields3d.hxx:get_as", "src/include/fields3d.hxx:put_as", "src/libpsc/mfields.cxx:convert", "src/libpsc/psc_fields_single.cxx:psc_mfields_single_copy_from_c", "src/libpsc/psc_fields_single.cxx:psc_mfields_single_copy_to_c"]}

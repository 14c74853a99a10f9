{
 "claims": [
  {
   "property": "C01",
   "status": "proved",
   "theorems": [
    "Psc.Props.C01_split_xyz_continuity"
   ],
   "note": ""
  },
  {
   "property": "C02",
   "status": "partial",
   "theorems": [
    "Psc.Props.C02_split_yz_continuity_partial",
    "Psc.Props.C02_split_xz_continuity_partial",
    "Psc.Props.C02_split_yz_violation"
   ],
   "note": "Holds when the displacement in the invariant direction is within half a cell; the code violates it otherwise (machine-checked witness)."
  },
  {
   "property": "C03",
   "status": "proved",
   "theorems": [
    "Psc.Props.C03_var1_continuity",
    "Psc.Props.C03_var1_in_plane"
   ],
   "note": ""
  },
  {
   "property": "C04",
   "status": "proved",
   "theorems": [
    "Psc.Props.C04_vb2d_continuity"
   ],
   "note": ""
  },
  {
   "property": "C05",
   "status": "proved",
   "theorems": [
    "Psc.Props.C05_zigzag_xyz_continuity"
   ],
   "note": ""
  },
  {
   "property": "C06",
   "status": "proved",
   "theorems": [
    "Psc.Props.C06_esirkepov1_yz_continuity",
    "Psc.Props.C06_esirkepov1_xz_continuity",
    "Psc.Props.C06_rho1d_in_bounds",
    "Psc.Props.C06_check_order_violation"
   ],
   "note": "Exact for the 1st-order charge deposition; the deposited current does not satisfy the 2nd-order check equation (witness)."
  },
  {
   "property": "C07",
   "status": "proved",
   "theorems": [
    "Psc.Props.C07_esirkepov2_xyz_continuity",
    "Psc.Props.C07_esirkepov2_yz_continuity",
    "Psc.Props.C07_esirkepov2_xz_continuity",
    "Psc.Props.C07_esirkepov2_xy_continuity",
    "Psc.Props.C07_esirkepov2_y_continuity",
    "Psc.Props.C07_esirkepov2_z_continuity",
    "Psc.Props.C07_rho1d_in_bounds"
   ],
   "note": ""
  },
  {
   "property": "C08",
   "status": "partial",
   "theorems": [
    "Psc.Props.C08_push_split_xyz",
    "Psc.Props.C08_push_split_yz_partial",
    "Psc.Props.C08_push_split_xz_partial",
    "Psc.Props.C08_push_var1_yz",
    "Psc.Props.C08_push_esirkepov1_yz",
    "Psc.Props.C08_push_esirkepov1_xz",
    "Psc.Props.C08_push_esirkepov2_xyz",
    "Psc.Props.C08_push_esirkepov2_yz",
    "Psc.Props.C08_push_esirkepov2_xz",
    "Psc.Props.C08_push_esirkepov2_xy",
    "Psc.Props.C08_push_order_irrelevant"
   ],
   "note": "Full for 1vb split 3-d, var1 and all Esirkepov configurations; the 2-d split configurations need 2 dt <= dx in the invariant direction (the code violates it otherwise, C02). All species charges must be nonzero: the code recovers the weight as qni_wni/q."
  },
  {
   "property": "C09",
   "status": "proved",
   "theorems": [
    "Psc.Props.C09_nc1_xyz",
    "Psc.Props.C09_nc1_yz",
    "Psc.Props.C09_cc1_xyz",
    "Psc.Props.C09_cc1_yz",
    "Psc.Props.C09_nc2_xyz",
    "Psc.Props.C09_nc2_yz",
    "Psc.Props.C09_rho_total"
   ],
   "note": "The code has these depositions for xyz and yz."
  },
  {
   "property": "C10",
   "status": "proved",
   "theorems": [
    "Psc.Props.C10_push_H_div",
    "Psc.Props.C10_pushes_div",
    "Psc.Props.C10_steps",
    "Psc.Props.C10_boundaries"
   ],
   "note": "C10_boundaries: with walls and open boundaries, at all cells not at an upper boundary. Whole runs on all patches and ranks: C10_steps. Single patch: for any field, fraction, number of pushes and set of invariant directions, in every interior cell and lower ghost cell of a patch."
  },
  {
   "property": "C11",
   "status": "proved",
   "theorems": [
    "Psc.Props.C11_steps",
    "Psc.Props.C11_leapfrog",
    "Psc.Props.C11_initial",
    "Psc.Props.C11_push_E_div",
    "Psc.Props.C11_push_frame",
    "Psc.Props.C11_boundaries"
   ],
   "note": "C11_boundaries: with walls and open boundaries, at all nodes not on a lower boundary. C11_steps and C11_leapfrog are about the step on all patches and ranks, including current and ghost exchange by message passing; C11_initial shows every state meets their hypothesis after a ghost exchange; C11_push_E_div/frame are the patch-level laws, for any boundary."
  },
  {
   "property": "C12",
   "status": "proved",
   "theorems": [
    "Psc.Props.C12_gradient",
    "Psc.Props.C12_bound",
    "Psc.Props.C12_steps"
   ],
   "note": "Periodic non-invariant directions, no walls; CPU implementation."
  },
  {
   "property": "C13",
   "status": "partial",
   "theorems": [
    "Psc.Props.C13_partial",
    "Psc.Props.C13_lower",
    "Psc.Props.C13_upper",
    "Psc.Props.C13_current_violation",
    "Psc.Props.C13_patch_violation",
    "Psc.Props.C13_storage_partial",
    "Psc.Props.C13_storage_violation"
   ],
   "note": "C13_lower/C13_upper give the incoming characteristic exactly, for all fields and currents. Polarisation s is right for all currents. The code violates the property for polarisation p if the transverse current on the boundary is not zero (wrong sign of dt*J), and for pulses that depend on the patch argument (always passed 0); C13_partial proves the rest. The loop reads one cell before the storage of the patch in the other directions (C13_storage_violation, in every patch at an open boundary); only ghost cells of the outermost layer depend on it (C13_storage_partial)."
  },
  {
   "property": "C14",
   "status": "proved",
   "theorems": [
    "Psc.Props.C14_push_p_norm",
    "Psc.Props.C14_pushes_norm",
    "Psc.Props.C14_push_p_kick_rotate_kick",
    "Psc.Props.C14_push_p_boris",
    "Psc.Props.C14_push_p_parallel"
   ],
   "note": ""
  },
  {
   "property": "C15",
   "status": "proved",
   "theorems": [
    "Psc.Props.C15_speed_lt_one",
    "Psc.Props.C15_move_lt_dt",
    "Psc.Props.C15_cell_change",
    "Psc.Props.C15_courant_le_dx",
    "Psc.Props.C15_cfl_cell_change"
   ],
   "note": ""
  },
  {
   "property": "C16",
   "status": "proved",
   "theorems": [
    "Psc.Props.C16_partition"
   ],
   "note": ""
  },
  {
   "property": "C17",
   "status": "proved",
   "theorems": [
    "Psc.Props.C17_reexpressed",
    "Psc.Props.C17_global_position"
   ],
   "note": "A particle exactly on the upper reflecting wall is placed just inside (its mirror image is the wall itself)."
  },
  {
   "property": "C18",
   "status": "proved",
   "theorems": [
    "Psc.Props.C18_exchange",
    "Psc.Props.C18_total"
   ],
   "note": "MPI messages are matched by (source, tag); the receive posted in the constructor is assumed complete (the code never waits for it)."
  },
  {
   "property": "C19",
   "status": "partial",
   "theorems": [
    "Psc.Props.C19_exchange_conserves_partial",
    "Psc.Props.C19_violation"
   ],
   "note": "Holds when particle-periodic directions are field-periodic too; otherwise the particle is lost (machine-checked witness)."
  },
  {
   "property": "C20",
   "status": "proved",
   "theorems": [
    "Psc.Props.C20_sort",
    "Psc.Props.C20_outside"
   ],
   "note": ""
  },
  {
   "property": "C21",
   "status": "proved",
   "theorems": [
    "Psc.Props.C21_index_injective",
    "Psc.Props.C21_index_surjective",
    "Psc.Props.C21_index_invalid",
    "Psc.Props.C21_position"
   ],
   "note": "Index arithmetic on unbounded integers."
  },
  {
   "property": "C22",
   "status": "proved",
   "theorems": [
    "Psc.Props.C22_conserves",
    "Psc.Props.C22_neutral"
   ],
   "note": "Over the reals; the early return for a negative discriminant cannot happen. The scattering law is an arbitrary function."
  },
  {
   "property": "C23",
   "status": "proved",
   "theorems": [
    "Psc.Props.C23_offsets",
    "Psc.Props.C23_pairs",
    "Psc.Props.C23_collide"
   ],
   "note": "Total momentum and energy of a cell need equal weights in the cell, which the code documents as a requirement."
  },
  {
   "property": "C24",
   "status": "proved",
   "theorems": [
    "Psc.Props.C24_sfc_roundtrip",
    "Psc.Props.C24_sfc_roundtrip_inv",
    "Psc.Props.C24_sfc_unique",
    "Psc.Props.C24_morton_setup",
    "Psc.Props.C24_hilbert_setup",
    "Psc.Props.C24_hilbert_curve"
   ],
   "note": "Lexicographic (bydim), Morton and Hilbert curves for all grids their setup accepts: extents that are powers of two for Morton, at most 30 bits for Hilbert (otherwise 1 << n_total_bits overflows, e.g. 2048 x 2 x 2 patches)."
  },
  {
   "property": "C25",
   "status": "proved",
   "theorems": [
    "Psc.Props.C25_owner_of_local",
    "Psc.Props.C25_partition",
    "Psc.Props.C25_lookup",
    "Psc.Props.C25_uniform",
    "Psc.Props.C25_idx3_owner",
    "Psc.Props.C25_owner_idx3"
   ],
   "note": ""
  },
  {
   "property": "C26",
   "status": "proved",
   "theorems": [
    "Psc.Props.C26_neighbour_position",
    "Psc.Props.C26_position_symm",
    "Psc.Props.C26_neighbour_symm",
    "Psc.Props.C26_neighbour_exists"
   ],
   "note": ""
  },
  {
   "property": "C27",
   "status": "proved",
   "theorems": [
    "Psc.Props.C27_fill_owner",
    "Psc.Props.C27_fill_rest",
    "Psc.Props.C27_unique_owner"
   ],
   "note": "For any decomposition (bydim or Morton), assignment to ranks, ghost width up to the patch size."
  },
  {
   "property": "C28",
   "status": "proved",
   "theorems": [
    "Psc.Props.C28_add_owner",
    "Psc.Props.C28_add_rest",
    "Psc.Props.C28_total"
   ],
   "note": ""
  },
  {
   "property": "C29",
   "status": "proved",
   "theorems": [
    "Psc.Props.C29_fill_layout",
    "Psc.Props.C29_add_layout",
    "Psc.Props.C29_buf3"
   ],
   "note": "Field ghost messages. The particle messages are covered under C18."
  },
  {
   "property": "C30",
   "status": "partial",
   "theorems": [
    "Psc.Props.C30_mapping_partial",
    "Psc.Props.C30_too_few",
    "Psc.Props.C30_violation"
   ],
   "note": "True when the last patch has positive load (always so with the default field factor); otherwise the scan can read beyond the list (machine-checked witness)."
  },
  {
   "property": "C31",
   "status": "proved",
   "theorems": [
    "Psc.Props.C31_moved",
    "Psc.Props.C31_balance"
   ],
   "note": "Host (non-CUDA) path."
  },
  {
   "property": "C32",
   "status": "partial",
   "theorems": [
    "Psc.Props.C32_stored",
    "Psc.Props.C32_restart_partial",
    "Psc.Props.C32_continue_partial",
    "Psc.Props.C32_violation"
   ],
   "note": "All stored members, all particles and all interior fields come back for every prior state; the whole grid comes back if every rank already had the same number of patches. After load balancing it may not (machine-checked witness: the cell size of additional patches is never set). ADIOS2 is not modelled."
  },
  {
   "property": "C33",
   "status": "proved",
   "theorems": [
    "Psc.Props.C33_schedule",
    "Psc.Props.C33_disabled",
    "Psc.Props.C33_distinct"
   ],
   "note": ""
  },
  {
   "property": "C34",
   "status": "proved",
   "theorems": [
    "Psc.Props.C34_2nd_xyz_between",
    "Psc.Props.C34_2nd_yz_between",
    "Psc.Props.C34_2nd_xz_between",
    "Psc.Props.C34_2nd_xy_between",
    "Psc.Props.C34_2nd_y_between",
    "Psc.Props.C34_2nd_z_between",
    "Psc.Props.C34_1st_yz_between",
    "Psc.Props.C34_1st_xz_between",
    "Psc.Props.C34_ec_xyz_between",
    "Psc.Props.C34_ec_yz_between",
    "Psc.Props.C34_ec_xz_between",
    "Psc.Props.C34_constants",
    "Psc.Props.C34_2nd_xyz_linear",
    "Psc.Props.C34_2nd_yz_linear",
    "Psc.Props.C34_2nd_xz_linear",
    "Psc.Props.C34_2nd_xy_linear",
    "Psc.Props.C34_2nd_y_linear",
    "Psc.Props.C34_2nd_z_linear",
    "Psc.Props.C34_1st_yz_linear",
    "Psc.Props.C34_1st_xz_linear",
    "Psc.Props.C34_ec_xyz_linear"
   ],
   "note": ""
  },
  {
   "property": "C35",
   "status": "partial",
   "theorems": [
    "Psc.Props.C35_unique_partial",
    "Psc.Props.C35_restart_violation"
   ],
   "note": "Ids are unique over all ranks and all draws of one run. Missing: uniqueness across a restart, which the code violates because the generator starts again from zero (C35_restart_violation)."
  },
  {
   "property": "C36",
   "status": "partial",
   "theorems": [
    "Psc.Props.C36_rowMajor_partial",
    "Psc.Props.C36_once_partial",
    "Psc.Props.C36_empty_violation"
   ],
   "note": "Proved for boxes with no empty axis, in any number of dimensions. An empty axis is visited anyway (C36_empty_violation)."
  },
  {
   "property": "C37",
   "status": "partial",
   "theorems": [
    "Psc.Props.C37_setup_partial",
    "Psc.Props.C37_fractional_partial",
    "Psc.Props.C37_fractional_violation"
   ],
   "note": "Proved for the default (variable weight) mode without a neutralising population: any cells, any number of populations, any draws. Constant-weight mode: weights one and counts within one of the target, but the announced count can differ from the created count (C37_fractional_violation)."
  },
  {
   "property": "C38",
   "status": "partial",
   "theorems": [
    "Psc.Props.C38_mean_partial",
    "Psc.Props.C38_step0_violation",
    "Psc.Props.C38_disabled_violation",
    "Psc.Props.C38_restart_violation"
   ],
   "note": "Proved for uninterrupted runs of any length with positive intervals, where the initial call samples or snapshots are off. Violations proved for the remaining cases: null accumulator at step 0, division by zero when disabled, samples lost across a restart."
  },
  {
   "property": "C39",
   "status": "partial",
   "theorems": [
    "Psc.Props.C39_index_partial",
    "Psc.Props.C39_violation"
   ],
   "note": "Full index property (tables delimit exactly the group; dataset is a rearrangement) for any ranks, patches, sub-box and selection, under the restriction that the sub-box does not start beyond the lower corner of one of rank 0's patches; without it the code indexes idx[p] with the wrong origin and reads out of bounds, proved as C39_violation."
  },
  {
   "property": "C40",
   "status": "proved",
   "theorems": [
    "Psc.Props.C40_fold_cc",
    "Psc.Props.C40_total_cc",
    "Psc.Props.C40_fold_nc"
   ],
   "note": "Any patch size and ghost width not wider than the patch, any set of reflecting walls, cell- and node-centred."
  },
  {
   "property": "C41",
   "status": "partial",
   "theorems": [
    "Psc.Props.C41_sample_partial",
    "Psc.Props.C41_monotone_partial",
    "Psc.Props.C41_cutoff_partial",
    "Psc.Props.C41_zero_violation",
    "Psc.Props.C41_support_violation"
   ],
   "note": "Proved for 0<u<1 and a distribution with mass on both sides of 0 (tol <= F 0 <= 1-tol), any table size >= 2; the ends of the support found are where F crosses the tolerances, to (R+1)/682 if it does so within R of 0. u = 0 reads cdf[-1] (C41_zero_violation); a distribution supported away from 0 gets a wrong table (C41_support_violation)."
  },
  {
   "property": "C42",
   "status": "proved",
   "theorems": [
    "Psc.Props.C42_tree",
    "Psc.Props.C42_patch_map"
   ],
   "note": "Ascending key lists of any length."
  },
  {
   "property": "C43",
   "status": "partial",
   "theorems": [
    "Psc.Props.C43_set_partial",
    "Psc.Props.C43_violation",
    "Psc.Props.C43_count_violation",
    "Psc.Props.C43_compare_violation"
   ],
   "note": "Proved for fields of at most 32 cells, all operation histories. Every larger field is accessed out of bounds (C43_violation); counting and comparing are wrong (C43_count_violation, C43_compare_violation)."
  },
  {
   "property": "C44",
   "status": "partial",
   "theorems": [
    "Psc.Props.C44_file",
    "Psc.Props.C44_bool",
    "Psc.Props.C44_int_partial",
    "Psc.Props.C44_int_violation"
   ],
   "note": "File semantics proved for all files. Integer-valued lookups accept values that are not integers (nmax 1e6 gives 1, C44_int_violation); C44_int_partial covers values that are."
  },
  {
   "property": "C45",
   "status": "partial",
   "theorems": [
    "Psc.Props.C45_integrate",
    "Psc.Props.C45_stats_violation"
   ],
   "note": "Complete characterisation of the calls of a run for every non-zero status interval. A status interval of zero divides by zero (C45_stats_violation)."
  },
  {
   "property": "C46",
   "status": "partial",
   "theorems": [
    "Psc.Props.C46_split_xyz",
    "Psc.Props.C46_var1_yz",
    "Psc.Props.C46_split_yz_partial"
   ],
   "note": "Full for the 3-d and the yz var1 depositions, all random draws; the yz split deposition needs 2 dt <= dx in the invariant direction (see C02)."
  },
  {
   "property": "C47",
   "status": "proved",
   "theorems": [
    "Psc.Props.C47_heating",
    "Psc.Props.C47_kinds_undefined"
   ],
   "note": "Foil heating spot; particle kinds below n_kinds, n_kinds below HEATING_MAX_N_KINDS. C47_kinds_undefined: a kind outside the configured ones reads an uninitialised factor."
  },
  {
   "property": "C48",
   "status": "proved",
   "theorems": [
    "Psc.Props.C48_foreach_mem",
    "Psc.Props.C48_foreach_invariant",
    "Psc.Props.C48_foreach_nodup"
   ],
   "note": "Foreach_3d visits exactly the intended index set, each index once, for all grid sizes and ghost widths."
  },
  {
   "property": "C49",
   "status": "partial",
   "theorems": [
    "Psc.Props.C49_field_partial",
    "Psc.Props.C49_field_violation",
    "Psc.Props.C49_ghost_violation",
    "Psc.Props.C49_particles",
    "Psc.Props.C49_interval"
   ],
   "note": "Field energies are right only without ghost cells; for every grid with ghost cells in z the sum reads outside the patch (C49_field_violation). Particle energies and output interval proved in full."
  },
  {
   "property": "C50",
   "status": "partial",
   "theorems": [
    "Psc.Props.C50_angle_partial",
    "Psc.Props.C50_violation"
   ],
   "note": "True unless the relative motion is exactly along -z, where the code scatters by pi - psi (machine-checked witness)."
  },
  {
   "property": "C51",
   "status": "partial",
   "theorems": [
    "Psc.Props.C51_kind_partial",
    "Psc.Props.C51_kind_violation"
   ],
   "note": "Proved for initialisation functions that keep the kind they are given; one that sets the kind is ignored (C51_kind_violation, the situation of psc_harris_yz)."
  },
  {
   "property": "C52",
   "status": "proved",
   "theorems": [
    "Psc.Props.C52_neutral"
   ],
   "note": "Constant-weight mode, integer charges, last population neutralising with charge -1."
  },
  {
   "property": "C53",
   "status": "proved",
   "theorems": [
    "Psc.Props.C53_fresh"
   ],
   "note": "The read and write sets of the operations are part of the specification (Spec/Loop.lean)."
  },
  {
   "property": "C54",
   "status": "proved",
   "theorems": [
    "Psc.Props.C54_tangential",
    "Psc.Props.C54_normal",
    "Psc.Props.C54_image"
   ],
   "note": "From any state, over any number of steps, on all patches and in all copies; the normal field at wall cells that are not at another (non-periodic) upper boundary, the mirror images at cells away from other non-periodic boundaries."
  },
  {
   "property": "C55",
   "status": "proved",
   "theorems": [
    "Psc.Props.C55_split_xyz",
    "Psc.Props.C55_split_yz",
    "Psc.Props.C55_split_xz",
    "Psc.Props.C55_zigzag_xyz",
    "Psc.Props.C55_var1_yz",
    "Psc.Props.C55_vb2d_yz",
    "Psc.Props.C55_esirkepov1_yz",
    "Psc.Props.C55_esirkepov1_xz",
    "Psc.Props.C55_esirkepov2_xyz",
    "Psc.Props.C55_esirkepov2_yz",
    "Psc.Props.C55_esirkepov2_xz",
    "Psc.Props.C55_esirkepov2_xy",
    "Psc.Props.C55_esirkepov2_y",
    "Psc.Props.C55_esirkepov2_z",
    "Psc.Props.C55_push_split_xyz",
    "Psc.Props.C55_push_split_yz",
    "Psc.Props.C55_push_split_xz",
    "Psc.Props.C55_push_var1_yz",
    "Psc.Props.C55_push_esirkepov1_yz",
    "Psc.Props.C55_push_esirkepov1_xz",
    "Psc.Props.C55_push_esirkepov2_xyz",
    "Psc.Props.C55_push_esirkepov2_yz",
    "Psc.Props.C55_push_esirkepov2_xz",
    "Psc.Props.C55_push_esirkepov2_xy"
   ],
   "note": "Every deposition for single moves, and whole pushes of any particle list for every push configuration. 1vb 2d (unused in the code) deposits only its two in-plane components in calc_j."
  },
  {
   "property": "C56",
   "status": "partial",
   "theorems": [
    "Psc.Props.C56_split_xyz",
    "Psc.Props.C56_var1_yz",
    "Psc.Props.C56_esirkepov1_yz",
    "Psc.Props.C56_esirkepov1_xz",
    "Psc.Props.C56_rho",
    "Psc.Props.C56_split_yz_partial",
    "Psc.Props.C56_split_xz_partial",
    "Psc.Props.C56_esirkepov2_xyz_partial",
    "Psc.Props.C56_esirkepov2_yz_partial",
    "Psc.Props.C56_esirkepov2_xz_partial",
    "Psc.Props.C56_esirkepov2_xy_partial",
    "Psc.Props.C56_esirkepov2_violation",
    "Psc.Props.C56_split_yz_violation"
   ],
   "note": "Full for first order in xyz and yz (split xyz, var1 yz, Esirkepov 1st order). The 2nd-order depositions need three ghost cells: with the two all drivers set, C56_esirkepov2_violation exhibits an out-of-bounds deposit. The yz/xz split needs 2 dt <= dx in the invariant direction (C56_split_yz_violation otherwise)."
  },
  {
   "property": "C57",
   "status": "partial",
   "theorems": [
    "Psc.Props.C57_gauss",
    "Psc.Props.C57_residual",
    "Psc.Props.C57_divB",
    "Psc.Props.C57_checks",
    "Psc.Props.C57_max_err",
    "Psc.Props.C57_gauss_partial",
    "Psc.Props.C57_checks_partial"
   ],
   "note": "Full for the 1vb split push in 3-d and the 1vb var1 push in yz with the 2 ghost points the drivers set. The _partial theorems: 1st order Esirkepov in yz with the 1st order density (the code would use the 2nd order one, C06_check_order_violation), 1vb split in yz needs 2 dt <= dx in the invariant direction (C02_split_yz_violation), 2nd order needs 3 ghost points (C56_esirkepov2_violation). Missing: walls and open boundaries (see C61), load balancing within the run (see C62), injectors, configurations without a charge density in the code (xz, xy), rounding."
  },
  {
   "property": "C58",
   "status": "partial",
   "theorems": [
    "Psc.Props.C58_represented",
    "Psc.Props.C58_serial",
    "Psc.Props.C58_decomposition",
    "Psc.Props.C58_serial_partial",
    "Psc.Props.C58_decomposition_partial"
   ],
   "note": "Full for the 1vb split push in 3-d and the 1vb var1 push in yz with the 2 ghost points the drivers set, in exact arithmetic; the reference simulation on an undivided grid is in Spec/Serial.lean. The _partial theorems: 1st order Esirkepov in yz, 1vb split in yz (needs 2 dt <= dx in the invariant direction), 2nd order (needs 3 ghost points). Missing: collisions (their random pairing depends on the patch), open boundaries, rounding; walls are C78, load balancing inside the run is C62."
  },
  {
   "property": "C59",
   "status": "proved",
   "theorems": [
    "Psc.Props.C59_balance",
    "Psc.Props.C59_conserved",
    "Psc.Props.C59_stable",
    "Psc.Props.C59_sharp"
   ],
   "note": "Exact arithmetic, periodic boundaries, no Gauss correctors."
  },
  {
   "property": "C60",
   "status": "proved",
   "theorems": [
    "Psc.Props.C60_moments",
    "Psc.Props.C60_total",
    "Psc.Props.C60_neutral"
   ],
   "note": "Species must be charged: C60_neutral shows that with any particle of a neutral species no moment is defined (division by zero when recovering the weight). moment_T is not modelled: it does not compile when instantiated. The total is for periodic directions or cell-centred moments between reflecting walls; node-centred moments have no owner for the node on an upper wall."
  },
  {
   "property": "C61",
   "status": "partial",
   "theorems": [
    "Psc.Props.C61_run",
    "Psc.Props.C61_residual_partial",
    "Psc.Props.C61_checks_partial",
    "Psc.Props.C61_onWall_violation"
   ],
   "note": "1vb split push in 3-d and 1vb var1 push in yz, exact arithmetic, any mixture of periodic, wall and open sides. C61_run (success, particles placed, copies agree, div B) without further restriction; Gauss residual and checks for runs in which no push puts a particle exactly on an upper wall. In that case the code moves the particle inwards by a relative 1e-6 without depositing a current and the continuity check fails (C61_onWall_violation)."
  },
  {
   "property": "C62",
   "status": "partial",
   "theorems": [
    "Psc.Props.C62_serial",
    "Psc.Props.C62_unbalanced",
    "Psc.Props.C62_gauss",
    "Psc.Props.C62_residual",
    "Psc.Props.C62_divB",
    "Psc.Props.C62_serial_partial",
    "Psc.Props.C62_measured_violation"
   ],
   "note": "Full for positive weights of the cells (all drivers), the 1vb split push in 3-d and the 1vb var1 push in yz, periodic boundaries, exact arithmetic. With a negative weight (loads from measured times) the first balancing dereferences a null pointer (C62_measured_violation); with weight zero the mapping may fail (C30_violation). C62_serial_partial: the other schemes under the conditions of C58_serial_partial. Walls and open boundaries together with balancing: C80."
  },
  {
   "property": "C63",
   "status": "partial",
   "theorems": [
    "Psc.Props.C63_setup",
    "Psc.Props.C63_superpose",
    "Psc.Props.C63_scalar_nc",
    "Psc.Props.C63_scalar_cc",
    "Psc.Props.C63_scalar_other",
    "Psc.Props.C63_ghosts_violation",
    "Psc.Props.C63_start",
    "Psc.Props.C63_serial",
    "Psc.Props.C63_decomposition",
    "Psc.Props.C63_walls",
    "Psc.Props.C63_walls_run"
   ],
   "note": "Full for storage with the same number of ghost points in all directions that are not invariant (what all drivers set up); for any other storage setupFields writes out of bounds (C63_ghosts_violation). C63_serial and C63_decomposition for the 1vb split push in 3-d and 1vb var1 in yz, exact arithmetic. With walls the electric field on the lower boundary itself is left out of the statement of C63_walls, except that it vanishes along conducting walls."
  },
  {
   "property": "C64",
   "status": "partial",
   "theorems": [
    "Psc.Props.C64_names",
    "Psc.Props.C64_default",
    "Psc.Props.C64_snapshots",
    "Psc.Props.C64_order",
    "Psc.Props.C64_terminates",
    "Psc.Props.C64_threads_partial",
    "Psc.Props.C64_lost_violation",
    "Psc.Props.C64_name_violation"
   ],
   "note": "Proved in full for the default build (no I/O threads). With PSC_USE_IO_THREADS, order, contents and absence of deadlock are proved for all schedules, but queued output is lost when the writer is destroyed and names are wrong after close (machine-checked schedules)."
  },
  {
   "property": "C65",
   "status": "partial",
   "theorems": [
    "Psc.Props.C65_files_partial",
    "Psc.Props.C65_complete",
    "Psc.Props.C65_not_due",
    "Psc.Props.C65_names",
    "Psc.Props.C65_inject",
    "Psc.Props.C65_weight",
    "Psc.Props.C65_subbox_violation",
    "Psc.Props.C65_dir_violation",
    "Psc.Props.C65_neutral_violation"
   ],
   "note": "Injection, rows, columns, completeness and names are proved; the box of cells and the output directory are accepted and ignored, and weights of neutral particles are lost (machine-checked)."
  },
  {
   "property": "C66",
   "status": "partial",
   "theorems": [
    "Psc.Props.C66_parse_partial",
    "Psc.Props.C66_row_partial",
    "Psc.Props.C66_interp_partial",
    "Psc.Props.C66_unknown_violation",
    "Psc.Props.C66_single_violation",
    "Psc.Props.C66_blank_violation",
    "Psc.Props.C66_missing_violation"
   ],
   "note": "Proved for well-formed files and tables with at least two rows; unknown columns, single rows, blank lines and missing files are machine-checked violations."
  },
  {
   "property": "C67",
   "status": "proved",
   "theorems": [
    "Psc.Props.C67_life",
    "Psc.Props.C67_once",
    "Psc.Props.C67_start",
    "Psc.Props.C67_life_partial"
   ],
   "note": "Periodic boundaries; collisions must draw the same numbers, which the random number generators of the code do not by themselves after a restart (C35). The _partial theorem covers the schemes that need more than the drivers guarantee."
  },
  {
   "property": "C68",
   "status": "partial",
   "theorems": [
    "Psc.Props.C68_cells",
    "Psc.Props.C68_xyz",
    "Psc.Props.C68_yz",
    "Psc.Props.C68_moments_yz_partial",
    "Psc.Props.C68_moments_yz_violation"
   ],
   "note": "Holds for the kernels of the push, heating and collisions and for all kernels in three dimensions. The code violates it for the moments in yz unless a patch has as many blocks in y as in z."
  },
  {
   "property": "C69",
   "status": "partial",
   "theorems": [
    "Psc.Props.C69_xyz_continuity",
    "Psc.Props.C69_xyz_same",
    "Psc.Props.C69_xyz_inside",
    "Psc.Props.C69_yz_same_partial",
    "Psc.Props.C69_yz_continuity",
    "Psc.Props.C69_yz_inside",
    "Psc.Props.C69_yz_Jx_total_partial",
    "Psc.Props.C69_yz_Jx_violation"
   ],
   "note": "Proved in three dimensions, and in yz for charge conservation and the currents in the plane. The code violates it for the current normal to the plane, of which only the sum over the grid is right."
  },
  {
   "property": "C70",
   "status": "proved",
   "theorems": [
    "Psc.Props.C70_yz_race_free",
    "Psc.Props.C70_xyz_race_free",
    "Psc.Props.C70_order",
    "Psc.Props.C70_yz",
    "Psc.Props.C70_xyz",
    "Psc.Props.C70_runs",
    "Psc.Props.C70_cache_yz",
    "Psc.Props.C70_cache_xyz",
    "Psc.Props.C70_yz_continuity",
    "Psc.Props.C70_xyz_same"
   ],
   "note": "Memory is sequentially consistent and sums are exact (with floating point numbers the sums depend on the order in the last digits). In yz for blocks of at least 3 x 3 cells and at least (by+3)(bz+3) threads per thread block; the code has 4 x 4 and 512."
  },
  {
   "property": "C71",
   "status": "partial",
   "theorems": [
    "Psc.Props.C71_history_partial",
    "Psc.Props.C71_runs",
    "Psc.Props.C71_count",
    "Psc.Props.C71_emptied",
    "Psc.Props.C71_twice",
    "Psc.Props.C71_cleared",
    "Psc.Props.C71_ids_lost",
    "Psc.Props.C71_not_full"
   ],
   "note": "C71_full is the full statement; it is false of the code (C71_not_full). C71_history_partial is the statement for all histories without two exchanges in a row, an exchange after clear, or an exchange that leaves a process that had particles with none; for these the violations are proved. Particles are compared without id and tag (C71_ids_lost)."
  },
  {
   "property": "C72",
   "status": "partial",
   "theorems": [
    "Psc.Props.C72_collisions",
    "Psc.Props.C72_history",
    "Psc.Props.C72_conserves",
    "Psc.Props.C72_rate_partial",
    "Psc.Props.C72_weights"
   ],
   "note": "Agreement of the rates with the CPU holds for particles of weight 1; for other weights it is false of the code (C72_weights). Momentum and energy are those of particles of equal weight. Everything else is proved in full."
  },
  {
   "property": "C73",
   "status": "partial",
   "theorems": [
    "Psc.Props.C73_push_xyz",
    "Psc.Props.C73_push_yz",
    "Psc.Props.C73_marder_yz",
    "Psc.Props.C73_marder_xyz_partial",
    "Psc.Props.C73_marder_ignores_x",
    "Psc.Props.C73_marder_violated"
   ],
   "note": "The field push is proved in full in 3-d and in the yz plane, the Marder correction in the yz plane. In 3-d the claim is false of the code for the x component of the electric field (C73_marder_violated); all else is proved."
  },
  {
   "property": "C74",
   "status": "partial",
   "theorems": [
    "Psc.Props.C74_exchange",
    "Psc.Props.C74_history_partial",
    "Psc.Props.C74_key_violated",
    "Psc.Props.C74_ghosts_violated",
    "Psc.Props.C74_violated"
   ],
   "note": "Proved for every first use, and after every history for fields of fewer than 100 components whose number of ghost points is determined by the number of components. Otherwise false of the code, with witnesses."
  },
  {
   "property": "C75",
   "status": "partial",
   "theorems": [
    "Psc.Props.C75_run_partial",
    "Psc.Props.C75_serial_partial",
    "Psc.Props.C75_one_rank",
    "Psc.Props.C75_start",
    "Psc.Props.C75_read",
    "Psc.Props.C75_idle",
    "Psc.Props.C75_idle_violated"
   ],
   "note": "Proved for runs in which every rank keeps having particles (always true on one GPU with particles). Otherwise false of the code: the currents of the step before are used again, with a witness. 3-d, periodic, without collisions, injectors, Gauss correction and balancing."
  },
  {
   "property": "C76",
   "status": "partial",
   "theorems": [
    "Psc.Props.C76_item_partial",
    "Psc.Props.C76_density_partial",
    "Psc.Props.C76_trace_partial",
    "Psc.Props.C76_start",
    "Psc.Props.C76_yz_violated"
   ],
   "note": "Proved in three dimensions, and in the yz plane for patches with as many blocks in y as in z; otherwise false of the code, with a witness (C76_yz_violated). Traces with time steps need every rank to keep having particles, as in C75."
  },
  {
   "property": "C77",
   "status": "partial",
   "theorems": [
    "Psc.Props.C77_heating",
    "Psc.Props.C77_history",
    "Psc.Props.C77_once_partial",
    "Psc.Props.C77_processes_violated"
   ],
   "note": "Proved for every process on its own. That different processes use different random numbers is false of the code (C77_processes_violated)."
  },
  {
   "property": "C78",
   "status": "partial",
   "theorems": [
    "Psc.Props.C78_represented",
    "Psc.Props.C78_serial_partial",
    "Psc.Props.C78_decomposition_partial",
    "Psc.Props.C78_distribution",
    "Psc.Props.C78_onWall_violated"
   ],
   "note": "1vb split push in 3-d and 1vb var1 push in yz, exact arithmetic, any mixture of periodic directions and directions with walls. Proved for all runs in which no push puts a particle exactly on an upper wall; in that case the position depends on the size of the patches (C78_onWall_violated), but on nothing else (C78_distribution). Open boundaries are left out."
  },
  {
   "property": "C79",
   "status": "partial",
   "theorems": [
    "Psc.Props.C79_viewer_partial",
    "Psc.Props.C79_series_partial",
    "Psc.Props.C79_others",
    "Psc.Props.C79_memory",
    "Psc.Props.C79_region_violated",
    "Psc.Props.C79_restart_violated",
    "Psc.Props.C79_limit_violated",
    "Psc.Props.C79_names_violated"
   ],
   "note": "the default mrc_io type xdmf2, every rank with at least one patch, no ghost points in the output (--mrc_io_sw 0), fewer than 2^46 addresses in use. The region is ignored (C79_region_violated), the series forgets steps before a restart (C79_restart_violated), and steps with more than 100 components or components of equal names end the program; everything else is proved. Rounding of values to float and of coordinates when they are printed is left out."
  },
  {
   "property": "C80",
   "status": "partial",
   "theorems": [
    "Psc.Props.C80_run",
    "Psc.Props.C80_residual_partial",
    "Psc.Props.C80_serial",
    "Psc.Props.C80_unbalanced"
   ],
   "note": "1vb split push in 3-d and 1vb var1 push in yz, exact arithmetic, positive weight of the cells. Only the Gauss residual is partial: it changes when the push puts a particle exactly on an upper wall (C61_onWall_violation)."
  },
  {
   "property": "C81",
   "status": "partial",
   "theorems": [
    "Psc.Props.C81_run",
    "Psc.Props.C81_population",
    "Psc.Props.C81_residual_partial",
    "Psc.Props.C81_checks_partial"
   ],
   "note": "1vb split push in 3-d and 1vb var1 push in yz, exact arithmetic, open lower y boundary. Only the Gauss residual and the checks are partial: they fail when the push puts a particle exactly on an upper wall (C61_onWall_violation). The branch for CUDA, in which the injectors run before the checks and the push, is not covered."
  },
  {
   "property": "C82",
   "status": "proved",
   "theorems": [
    "Psc.Props.C82_pulses",
    "Psc.Props.C82_steps",
    "Psc.Props.C82_skips"
   ],
   "note": "Exact arithmetic; 3-d and yz. C82_pulses gives the amplitudes after any paced sequence of calls, C82_steps that a run paces its calls, C82_skips that the run ends with an error otherwise. One patch per process, patches ordered direction by direction (the driver asserts the former and always uses the latter)."
  },
  {
   "property": "C83",
   "status": "partial",
   "theorems": [
    "Psc.Props.C83_dense",
    "Psc.Props.C83_starts",
    "Psc.Props.C83_noise_partial",
    "Psc.Props.C83_noise_phase",
    "Psc.Props.C83_noise_violation",
    "Psc.Props.C83_div_partial",
    "Psc.Props.C83_div_violation",
    "Psc.Props.C83_drift",
    "Psc.Props.C83_boost_partial",
    "Psc.Props.C83_parallel_violation",
    "Psc.Props.C83_small_violation"
   ],
   "note": "Exact arithmetic. Plane waves: proved for all decompositions (C83_dense, C83_starts). The full claim is false: noise depends on a variable that is never set (C83_noise_violation), the field has divergence if the cells are not cubes (C83_div_violation), the component of the upstream field along the flow is lost (C83_parallel_violation), and boxes of at most two cells in each direction divide by 0 (C83_small_violation); the _partial theorems prove the rest. Hypothesis NotZero: the waves do not cancel everywhere."
  },
  {
   "property": "C84",
   "status": "partial",
   "theorems": [
    "Psc.Props.C84_cells",
    "Psc.Props.C84_same",
    "Psc.Props.C84_neutral",
    "Psc.Props.C84_streams",
    "Psc.Props.C84_ranks_violation",
    "Psc.Props.C84_neutral_violation"
   ],
   "note": "Cells, kinds and charge proved. False as stated: positions on a process are the multiples of those on process 0 (C84_ranks_violation), and a cell of unequal numbers makes all later cells of equal numbers charged (C84_neutral_violation). The engine is the one libstdc++ has; exact arithmetic."
  },
  {
   "property": "C85",
   "status": "partial",
   "theorems": [
    "Psc.Props.C85_continuity",
    "Psc.Props.C85_gauss",
    "Psc.Props.C85_schedule",
    "Psc.Props.C85_nan_violation",
    "Psc.Props.C85_tie_violation"
   ],
   "note": "Proved for numbers (C85_continuity, C85_gauss, C85_schedule). False with NaN: a run whose charges are all NaN passes both checks (C85_nan_violation). An error of exactly the threshold aborts without any message (C85_tie_violation)."
  },
  {
   "property": "C86",
   "status": "partial",
   "theorems": [
    "Psc.Props.C86_density",
    "Psc.Props.C86_scaled",
    "Psc.Props.C86_default_violation",
    "Psc.Props.C86_intensity_violation"
   ],
   "note": "Proved for the units the constructor accepts (C86_density, C86_scaled; all positions at cell centres, no neutralising population, numbers not fractional). Not all units are accepted: the defaults are refused (C86_default_violation), and a field strength derived from the laser intensity gives a division by zero (C86_intensity_violation)."
  },
  {
   "property": "C87",
   "status": "proved",
   "theorems": [
    "Psc.Props.C87_start",
    "Psc.Props.C87_gauss",
    "Psc.Props.C87_neutral",
    "Psc.Props.C87_stays",
    "Psc.Props.C87_divB"
   ],
   "note": "For the schemes that work with 2 ghost points (1vb split in 3-d, 1vb var1 in yz), particles at cell centres, as in C57 and C86."
  },
  {
   "property": "C88",
   "status": "partial",
   "theorems": [
    "Psc.Props.C88_balance",
    "Psc.Props.C88_current",
    "Psc.Props.C88_asks_neutral",
    "Psc.Props.C88_divfree",
    "Psc.Props.C88_grid",
    "Psc.Props.C88_grid_partial",
    "Psc.Props.C88_div_violation",
    "Psc.Props.C88_neutral_violation",
    "Psc.Props.C88_lost_violation"
   ],
   "note": "Pressure balance, current and analytic divergence are proved for all parameters. On the grid the divergence is computed exactly (C88_grid): zero if there are twice as many cells in z as in y (C88_grid_partial), but non-zero in every cell of the grid the driver uses, for ever (C88_div_violation). The particles are not neutral in any cell (C88_neutral_violation), and particles that cross the walls in y vanish (C88_lost_violation)."
  },
  {
   "property": "C89",
   "status": "partial",
   "theorems": [
    "Psc.Props.C89_start",
    "Psc.Props.C89_density",
    "Psc.Props.C89_gauss",
    "Psc.Props.C89_divB",
    "Psc.Props.C89_curl",
    "Psc.Props.C89_negative_violation"
   ],
   "note": "Gauss's law, densities, curl and div B are proved for all tables and all later times; that weights are positive is false: where the table needs more positive charge than the ions have, electrons of negative weight are created (C89_negative_violation). The expression for the charge density is taken to be evaluated on the fields as they are after the initial balancing."
  },
  {
   "property": "C90",
   "status": "partial",
   "theorems": [
    "Psc.Props.C90_args",
    "Psc.Props.C90_value_partial",
    "Psc.Props.C90_refused",
    "Psc.Props.C90_tiles_partial",
    "Psc.Props.C90_np",
    "Psc.Props.C90_cells_violation",
    "Psc.Props.C90_periodic_violation",
    "Psc.Props.C90_text_violation",
    "Psc.Props.C90_output_violation"
   ],
   "note": "Proved: how the command line is read, which value a variable gets if the text means something, and that texts without any meaning end the program. False: texts that begin with a number, or components of triples that are no numbers, are accepted (C90_text_violation); --mx etc. and --bcx etc. change the grid behind the deck (C90_cells_violation: the patches then tile the domain only where there is one; C90_periodic_violation), only --np is guarded (C90_np); an option for the base name sends all output to the same files (C90_output_violation)."
  },
  {
   "property": "C91",
   "status": "partial",
   "theorems": [
    "Psc.Props.C91_frozen",
    "Psc.Props.C91_density",
    "Psc.Props.C91_periodic",
    "Psc.Props.C91_div",
    "Psc.Props.C91_current_violation"
   ],
   "note": "Proved for all parameters that make sense and all points, except the last part: the current of the electrons misses the term of the curvature of the bubbles at every point of the shells (C91_current_violation)."
  },
  {
   "property": "C92",
   "status": "partial",
   "theorems": [
    "Psc.Props.C92_residual",
    "Psc.Props.C92_gauss",
    "Psc.Props.C92_fields",
    "Psc.Props.C92_checks",
    "Psc.Props.C92_quadrupole",
    "Psc.Props.C92_moments",
    "Psc.Props.C92_check_violation"
   ],
   "note": "Proved for all periodic runs, except the last part: the check of charge continuity does not know of the charge that external currents move and reports an error in every step of a run like that of the radiation driver (C92_check_violation; C92_checks says when it stays silent)."
  },
  {
   "property": "C93",
   "status": "partial",
   "theorems": [
    "Psc.Props.C93_run_partial",
    "Psc.Props.C93_checks_partial",
    "Psc.Props.C93_gauss_partial",
    "Psc.Props.C93_residual_partial",
    "Psc.Props.C93_runs",
    "Psc.Props.C93_relax",
    "Psc.Props.C93_outside",
    "Psc.Props.C93_initial",
    "Psc.Props.C93_cell",
    "Psc.Props.C93_injects",
    "Psc.Props.C93_starts",
    "Psc.Props.C93_charge_partial",
    "Psc.Props.C93_zi_violation"
   ],
   "note": "Neutrality, Gauss's law and the checks are proved for ions of charge 1 (the default of the driver). For other charges the number of ions is rounded down, and the plasma is charged negatively (C93_zi_violation; C93_charge_partial bounds by how much). Everything else is proved for any charge."
  },
  {
   "property": "C94",
   "status": "partial",
   "theorems": [
    "Psc.Props.C94_run_partial",
    "Psc.Props.C94_checks_partial",
    "Psc.Props.C94_gauss",
    "Psc.Props.C94_residual",
    "Psc.Props.C94_runs",
    "Psc.Props.C94_relax_partial",
    "Psc.Props.C94_outside",
    "Psc.Props.C94_initial",
    "Psc.Props.C94_injects_partial",
    "Psc.Props.C94_starts",
    "Psc.Props.C94_factor_violation",
    "Psc.Props.C94_ambient_violation"
   ],
   "note": "Proved for ions of charge 1 and an integer number of ambient particles per cell (as with the numbers of the driver). False otherwise: the ambient kinds are rounded with different random numbers, and surplus ions are not compensated (C94_ambient_violation). The injection closes only the square of inject_fac of the gap, since the factor is applied twice (C94_factor_violation; C94_relax_partial says what is injected)."
  },
  {
   "property": "C95",
   "status": "partial",
   "theorems": [
    "Psc.Props.C95_gauss",
    "Psc.Props.C95_divB",
    "Psc.Props.C95_plasma",
    "Psc.Props.C95_drift",
    "Psc.Props.C95_period_partial",
    "Psc.Props.C95_period_violation",
    "Psc.Props.C95_current_violation",
    "Psc.Props.C95_frozen_violation"
   ],
   "note": "Gauss, div B, plasma and drift are proved as stated. Periodic only in x, and in y if the box is as long as in x (C95_period_partial); not in z, where the packets are cut off (C95_period_violation). The plasma carries no current although B has a curl (C95_current_violation), and the electric field of a plasma moving across the field is missing (C95_frozen_violation)."
  },
  {
   "property": "C96",
   "status": "partial",
   "theorems": [
    "Psc.Props.C96_address",
    "Psc.Props.C96_put_get",
    "Psc.Props.C96_setup",
    "Psc.Props.C96_view",
    "Psc.Props.C96_contiguous",
    "Psc.Props.C96_set_partial",
    "Psc.Props.C96_set_view_partial",
    "Psc.Props.C96_scale_partial",
    "Psc.Props.C96_norm_partial",
    "Psc.Props.C96_copy_partial",
    "Psc.Props.C96_axpy_partial",
    "Psc.Props.C96_copy_view_violation",
    "Psc.Props.C96_axpy_layout_violation",
    "Psc.Props.C96_empty_violation",
    "Psc.Props.C96_large_violation"
   ],
   "note": "Addresses, views, set-up and the test for Fortran order are proved as stated. The operations on whole arrays need non-empty arrays whose extents in bytes fit into an int (C96_empty_violation, C96_large_violation), copy needs contiguous views to begin where their base begins (C96_copy_view_violation), axpy needs fields with the same order in memory (C96_axpy_layout_violation)."
  },
  {
   "property": "C97",
   "status": "partial",
   "theorems": [
    "Psc.Props.C97_census",
    "Psc.Props.C97_flux",
    "Psc.Props.C97_charge",
    "Psc.Props.C97_current",
    "Psc.Props.C97_totals_partial",
    "Psc.Props.C97_current_partial",
    "Psc.Props.C97_census_open",
    "Psc.Props.C97_census_walls",
    "Psc.Props.C97_foil",
    "Psc.Props.C97_foil_neutral",
    "Psc.Props.C97_shock2d",
    "Psc.Props.C97_shock2d_neutral",
    "Psc.Props.C97_census_wind"
   ],
   "note": "Proved as stated for 1vb split in 3-d and 1vb var1 in yz; for the other schemes under the conditions they need elsewhere (see C57). Missing: sums of fields with walls, restarts, GPU."
  },
  {
   "property": "C98",
   "status": "partial",
   "theorems": [
    "Psc.Props.C98_progress",
    "Psc.Props.C98_terminates",
    "Psc.Props.C98_completes",
    "Psc.Props.C98_offsets",
    "Psc.Props.C98_tiles",
    "Psc.Props.C98_uniform",
    "Psc.Props.C98_one",
    "Psc.Props.C98_accepted",
    "Psc.Props.C98_neighbour",
    "Psc.Props.C98_neighbour_mutual",
    "Psc.Props.C98_neighbour_periodic",
    "Psc.Props.C98_info_violation",
    "Psc.Props.C98_hole_violation"
   ],
   "note": "Proved as stated. False without the conditions of the statement: unequal given sizes make the patch information wrong, and sizes that do not fit leave holes; neither is rejected. The final broadcast and MPI itself are not modelled as steps."
  },
  {
   "property": "C99",
   "status": "partial",
   "theorems": [
    "Psc.Props.C99_names",
    "Psc.Props.C99_write",
    "Psc.Props.C99_field",
    "Psc.Props.C99_read_partial",
    "Psc.Props.C99_round_trip_partial",
    "Psc.Props.C99_n_local_violation",
    "Psc.Props.C99_steps_violation"
   ],
   "note": "Writing proved for every schedule of the I/O library. Reading is proved for the program in which the number of patches is read at once; the code defers it, and then reading can use an initial value and write to dead memory. One process is modelled; what a put transfers is one value."
  },
  {
   "property": "C100",
   "status": "partial",
   "theorems": [
    "Psc.Props.C100_step",
    "Psc.Props.C100_history",
    "Psc.Props.C100_walk",
    "Psc.Props.C100_walk_safe",
    "Psc.Props.C100_drain",
    "Psc.Props.C100_objects",
    "Psc.Props.C100_class_info_partial",
    "Psc.Props.C100_class_info_violation"
   ],
   "note": "Proved for all histories. The report of class information is proved once any object was created; before that it follows a null pointer. The list functions for other containers and the parameters of objects are not part of this model."
  },
  {
   "property": "C101",
   "status": "partial",
   "theorems": [
    "Psc.Props.C101_time",
    "Psc.Props.C101_table_partial",
    "Psc.Props.C101_stats_time",
    "Psc.Props.C101_stats_table",
    "Psc.Props.C101_stats_register",
    "Psc.Props.C101_absent_violation",
    "Psc.Props.C101_open_violation",
    "Psc.Props.C101_name_violation"
   ],
   "note": "Times, counts and totals proved for all histories; the table for processes that enter the same functions in the same order. False where a region is open while a table is printed, where a process has not called a region, and for the names of field output. Rounding to float and the layout of the tables are not modelled."
  },
  {
   "property": "C102",
   "status": "partial",
   "theorems": [
    "Psc.Props.C102_received",
    "Psc.Props.C102_sent",
    "Psc.Props.C102_fill",
    "Psc.Props.C102_add",
    "Psc.Props.C102_total",
    "Psc.Props.C102_place",
    "Psc.Props.C102_wide_violation",
    "Psc.Props.C102_uneven_violation"
   ],
   "note": "Proved for patches that fit together and have at least as many cells as ghost points; without these conditions, which the code does not check, it is false. The user-supplied copy functions are those of mrc_fld; MPI is a matching by source, destination and tag."
  },
  {
   "property": "C103",
   "status": "partial",
   "theorems": [
    "Psc.Props.C103_setup_partial",
    "Psc.Props.C103_local",
    "Psc.Props.C103_find",
    "Psc.Props.C103_refused",
    "Psc.Props.C103_empty_violation",
    "Psc.Props.C103_negative_violation"
   ],
   "note": "Setup proved if no process is without indices and the total is left open; local numbering and lookups for all histories. False for processes without indices, and negative indices are not refused. Overflow of int is not modelled."
  },
  {
   "property": "C104",
   "status": "partial",
   "theorems": [
    "Psc.Props.C104_ordered",
    "Psc.Props.C104_in_patch",
    "Psc.Props.C104_bidx_id",
    "Psc.Props.C104_ordered_history",
    "Psc.Props.C104_in_patch_history_partial",
    "Psc.Props.C104_after_push_partial",
    "Psc.Props.C104_after_push_violation",
    "Psc.Props.C104_in_patch_violation",
    "Psc.Props.C104_lost_violation"
   ],
   "note": "What a yes means is proved for all states, and the answers for all allowed histories (allowed as in C71). False: the check after a push answers no for right states, the check of patches answers no for right states after an exchange, and the check of the order does not see a lost particle. check_after_push is characterised exactly."
  },
  {
   "property": "C105",
   "status": "proved",
   "theorems": [
    "Psc.Props.C105_history",
    "Psc.Props.C105_filled",
    "Psc.Props.C105_patches",
    "Psc.Props.C105_layouts",
    "Psc.Props.C105_invariant",
    "Psc.Props.C105_outside",
    "Psc.Props.C105_ghost"
   ],
   "note": "For all shapes and histories. C105_outside: indices after the ghost points are not detected. C105_ghost: a view with an invariant direction needs fields without ghost points there, which the hypothesis Path.Ok states. Overflow of int is not modelled."
  },
  {
   "property": "C106",
   "status": "partial",
   "theorems": [
    "Psc.Props.C106_seen",
    "Psc.Props.C106_loans",
    "Psc.Props.C106_unchanged",
    "Psc.Props.C106_refused",
    "Psc.Props.C106_check_double",
    "Psc.Props.C106_check_single_partial",
    "Psc.Props.C106_moved_violation",
    "Psc.Props.C106_check_violation",
    "Psc.Props.C106_ids_violation"
   ],
   "note": "Proved for all histories of loans of particles in their patches, for the types without ids. False for particles outside of their patches, which are moved, for the check in single precision, which does not see them, and for particles with ids, which cannot be lent. The check looks at two of three directions (C106_check_double is exact). Containers on the GPU are not in this model."
  },
  {
   "property": "C107",
   "status": "proved",
   "theorems": [
    "Psc.Props.C107_seen",
    "Psc.Props.C107_loans",
    "Psc.Props.C107_direct",
    "Psc.Props.C107_more"
   ],
   "note": "Proved for all shapes, ranges of components, roundings and histories of loans of fields in main memory; fields on the GPU are not in this model. C107_more shows that the condition of C107_direct on the components returned is needed."
  }
 ]
}
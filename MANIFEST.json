{
 "claims": [
  {
   "property": "C01",
   "status": "proved",
   "theorems": [
    "Vayesta.Props.permutations_with_signs_complete",
    "Vayesta.Props.permutations_with_signs_length"
   ],
   "note": ""
  },
  {
   "property": "C02",
   "status": "proved",
   "theorems": [
    "Vayesta.Props.tril_indices_exact",
    "Vayesta.Props.tril_indices_zero_dims"
   ],
   "note": ""
  },
  {
   "property": "C03",
   "status": "proved",
   "theorems": [
    "Vayesta.Props.decompress_has_symmetry",
    "Vayesta.Props.compress_decompress",
    "Vayesta.Props.decompress_compress"
   ],
   "note": "Packed axes of one group are modelled as adjacent."
  },
  {
   "property": "C04",
   "status": "proved",
   "theorems": [
    "Vayesta.Props.brange_tiles",
    "Vayesta.Props.brange_default_step_positive",
    "Vayesta.Props.brange_empty",
    "Vayesta.Props.brange_errors"
   ],
   "note": ""
  },
  {
   "property": "C05",
   "status": "proved",
   "theorems": [
    "Vayesta.Props.split_into_blocks_reassembles",
    "Vayesta.Props.split_into_blocks_zero",
    "Vayesta.Props.split_into_blocks_memory",
    "Vayesta.Props.split_into_blocks_exceeds_memory"
   ],
   "note": ""
  },
  {
   "property": "C06",
   "status": "proved",
   "theorems": [
    "Vayesta.Props.einsum_replace_faithful",
    "Vayesta.Props.einsum_replace_rejects"
   ],
   "note": ""
  },
  {
   "property": "C07",
   "status": "proved",
   "theorems": [
    "Vayesta.Props.options_replace_success_iff",
    "Vayesta.Props.options_replace_value",
    "Vayesta.Props.options_replace_frame",
    "Vayesta.Props.options_update_value",
    "Vayesta.Props.options_get_after_replace",
    "Vayesta.Props.options_replace_not_atomic"
   ],
   "note": "A failing replace is not atomic (options_replace_not_atomic)."
  },
  {
   "property": "C08",
   "status": "proved",
   "theorems": [
    "Vayesta.Props.replace_attr_restores",
    "Vayesta.Props.replace_attr_block",
    "Vayesta.Props.replace_attr_pins_class_attribute"
   ],
   "note": "Restoring writes the instance dictionary, so a class attribute stays shadowed (replace_attr_pins_class_attribute)."
  },
  {
   "property": "C09",
   "status": "proved",
   "theorems": [
    "Vayesta.Props.cache_copy_transparent",
    "Vayesta.Props.cache_transparent_without_mutation",
    "Vayesta.Props.cache_holds_most_recent",
    "Vayesta.Props.cache_without_copy_aliases"
   ],
   "note": ""
  },
  {
   "property": "C10",
   "status": "proved",
   "theorems": [
    "Vayesta.Props.pack_unpack_roundtrip",
    "Vayesta.Props.pack_raises_iff",
    "Vayesta.Props.pack_unpack_limits"
   ],
   "note": "complex128 arrays and maxdim != 8 do not round-trip (pack_unpack_limits)."
  },
  {
   "property": "C11",
   "status": "proved",
   "theorems": [
    "Vayesta.Props.register_ids_unique",
    "Vayesta.Props.register_ranks_round_robin",
    "Vayesta.Props.register_ranks_balanced",
    "Vayesta.Props.register_estimate_loses_id"
   ],
   "note": ""
  },
  {
   "property": "C12",
   "status": "partial",
   "theorems": [
    "Vayesta.Props.get_fragments_filters_partial",
    "Vayesta.Props.get_fragments_exact",
    "Vayesta.Props.get_fragments_ignores_options"
   ],
   "note": "The full claim is false: options conditions are ignored when flags conditions are given (get_fragments_ignores_options). get_fragments_exact states what is returned in every case."
  },
  {
   "property": "C13",
   "status": "proved",
   "theorems": [
    "Vayesta.Props.symmetry_children_sublists",
    "Vayesta.Props.symmetry_children_partition",
    "Vayesta.Props.symmetry_children_raises_iff"
   ],
   "note": ""
  },
  {
   "property": "C14",
   "status": "proved",
   "theorems": [
    "Vayesta.Props.symmetry_contexts_full_product",
    "Vayesta.Props.symmetry_contexts_count",
    "Vayesta.Props.symmetry_contexts_ids_unique",
    "Vayesta.Props.loop_symmetry_children_exactly_once",
    "Vayesta.Props.image_unique"
   ],
   "note": "Traversal theorems assume at most 1000 nested contexts, the generation limit in the code."
  },
  {
   "property": "C15",
   "status": "proved",
   "theorems": [
    "Vayesta.Props.symmetry_weighted_sum",
    "Vayesta.Props.symmetry_factors_sum"
   ],
   "note": "At most 1000 nested contexts, the generation limit in the code."
  },
  {
   "property": "C16",
   "status": "partial",
   "theorems": [
    "Vayesta.Props.secondary_pairs_partial",
    "Vayesta.Props.secondary_total_partial",
    "Vayesta.Props.secondary_cancels_partial",
    "Vayesta.Props.secondary_rejects_symmetry_derived",
    "Vayesta.Props.secondary_zero_weight"
   ],
   "note": "Holds for non-zero weights; for weight 0 the double-counting copy gets weight -1 (secondary_zero_weight)."
  },
  {
   "property": "C17",
   "status": "partial",
   "theorems": [
    "Vayesta.Props.cas_fragment_partial",
    "Vayesta.Props.cas_fragment_succeeds",
    "Vayesta.Props.cas_fragment_rejects",
    "Vayesta.Props.cas_fragment_gaps",
    "Vayesta.Props.cas_fragment_too_small_window"
   ],
   "note": "The full claim is false when one more orbital than ncas is needed (cas_fragment_too_small_window)."
  },
  {
   "property": "C18",
   "status": "proved",
   "theorems": [
    "Vayesta.Props.fragment_environment_partition",
    "Vayesta.Props.fragment_errors"
   ],
   "note": ""
  },
  {
   "property": "C19",
   "status": "proved",
   "theorems": [
    "Vayesta.Props.cluster_coefficients",
    "Vayesta.Props.cluster_indices"
   ],
   "note": ""
  },
  {
   "property": "C20",
   "status": "proved",
   "theorems": [
    "Vayesta.Props.dmetBath_empty",
    "Vayesta.Props.dmetBath_nbath",
    "Vayesta.Props.dmetBath_partition",
    "Vayesta.Props.dmetBath_any_tol"
   ],
   "note": ""
  },
  {
   "property": "C21",
   "status": "proved",
   "theorems": [
    "Vayesta.Props.dmet_eigenvalue_range",
    "Vayesta.Props.dmet_bath_count",
    "Vayesta.Props.dmet_coupling",
    "Vayesta.Props.dmet_discarded_coupling",
    "Vayesta.Props.dmet_exact_environment",
    "Vayesta.Props.dmet_cluster_orthonormal",
    "Vayesta.Props.dmet_cluster_idempotent",
    "Vayesta.Props.dmet_cluster_electron_number"
   ],
   "note": ""
  },
  {
   "property": "C22",
   "status": "proved",
   "theorems": [
    "Vayesta.Props.truncateBno_append",
    "Vayesta.Props.truncateBno_minimal",
    "Vayesta.Props.truncateBno_succeeds",
    "Vayesta.Props.truncateBno_occupation",
    "Vayesta.Props.truncateBno_number",
    "Vayesta.Props.bno_invalid",
    "Vayesta.Props.bno_criteria",
    "Vayesta.Props.truncateBosons_eq"
   ],
   "note": ""
  },
  {
   "property": "C23",
   "status": "proved",
   "theorems": [
    "Vayesta.Props.cpt_sound",
    "Vayesta.Props.cpt_linear"
   ],
   "note": ""
  },
  {
   "property": "C24",
   "status": "partial",
   "theorems": [
    "Vayesta.Props.dmet_cpt_bracket",
    "Vayesta.Props.dmet_cpt_direction_partial",
    "Vayesta.Props.dmet_cpt_direction_flips",
    "Vayesta.Props.dmet_cpt_direction_false"
   ],
   "note": "The bracket part is proved in full. The direction part is false after a caught LinAlgError (dmet_cpt_direction_false); it is proved when none occurs, and the exact behaviour (one flip per caught error) is proved in dmet_cpt_direction_flips."
  },
  {
   "property": "C25",
   "status": "proved",
   "theorems": [
    "Vayesta.Props.rccsd_to_cisd_to_ccsd",
    "Vayesta.Props.rcisd_to_ccsd_to_cisd",
    "Vayesta.Props.rcisd_as_ccsd_iff",
    "Vayesta.Props.rccsd_projected_as_cisd",
    "Vayesta.Props.rcisd_renormalise",
    "Vayesta.Props.rcisd_renormalise_projected",
    "Vayesta.Props.rcisd_projected_as_ccsd",
    "Vayesta.Props.rcisd_projected_singles",
    "Vayesta.Props.rmp2_conversions",
    "Vayesta.Props.restricted_unrestricted_agree"
   ],
   "note": ""
  },
  {
   "property": "C26",
   "status": "partial",
   "theorems": [
    "Vayesta.Props.uccsd_to_cisd_to_ccsd_partial",
    "Vayesta.Props.ucisd_to_ccsd_to_cisd_partial",
    "Vayesta.Props.ucisd_as_ccsd_iff",
    "Vayesta.Props.ucisd_ccsd_antisymmetric",
    "Vayesta.Props.uccsd_four_block_as_cisd_partial",
    "Vayesta.Props.uccsd_four_block_as_cisd_false",
    "Vayesta.Props.ucisd_four_block_as_ccsd_raises",
    "Vayesta.Props.ucisd_four_block_as_ccsd_false",
    "Vayesta.Props.ucisd_renormalise",
    "Vayesta.Props.ucisd_renormalise_blocks",
    "Vayesta.Props.ucisd_projected_as_ccsd",
    "Vayesta.Props.restricted_unrestricted_agree"
   ],
   "note": "Round trips hold for the usual three-block amplitudes. With four blocks (projected, unsymmetrised) conversion to CISD loses or mixes blocks and conversion to CCSD raises or gives wrong blocks (the _false/_raises theorems)."
  },
  {
   "property": "C27",
   "status": "proved",
   "theorems": [
    "Vayesta.Props.ccsdtq_unrestricted",
    "Vayesta.Props.ccsdtq_restricted",
    "Vayesta.Props.ccsdtq_unrestricted_every_ci",
    "Vayesta.Props.ccsdtq_restricted_every_ci",
    "Vayesta.Props.ccsdtq_restricted_unrestricted"
   ],
   "note": "Exact arithmetic in any field; a reference coefficient of zero (division by zero in the code) is excluded. The theorems with every_ci show that every antisymmetric, spin-conserving (and closed-shell) CI vector has amplitudes of all ranks, so that the hypotheses of the others lose nothing."
  },
  {
   "property": "C28",
   "status": "proved",
   "theorems": [
    "Vayesta.Props.rccsd_project_restore_sum",
    "Vayesta.Props.rcisd_project_restore_sum",
    "Vayesta.Props.restore_unprojected",
    "Vayesta.Props.u_project_restore_sum",
    "Vayesta.Props.u_project_restore_singles",
    "Vayesta.Props.u_symmetrize"
   ],
   "note": ""
  },
  {
   "property": "C29",
   "status": "proved",
   "theorems": [
    "Vayesta.Props.rwf_has_rdms",
    "Vayesta.Props.rdm1_demo_symmetric",
    "Vayesta.Props.rdm1_demo_electrons",
    "Vayesta.Props.rdm1_demo_fragment_block",
    "Vayesta.Props.rdm1_demo_exact",
    "Vayesta.Props.rdm1_demo_full",
    "Vayesta.Props.rdm1_demo_truncated",
    "Vayesta.Props.urdm1_demo_symmetric",
    "Vayesta.Props.urdm1_demo_electrons",
    "Vayesta.Props.urdm1_demo_exact"
   ],
   "note": "rdm1_demo_truncated shows that the coverage condition of the last part is needed."
  },
  {
   "property": "C30",
   "status": "partial",
   "theorems": [
    "Vayesta.Props.dmet_energy_of_density_matrices",
    "Vayesta.Props.dmet_energy_from_cumulant",
    "Vayesta.Props.dmet_energy_exact",
    "Vayesta.Props.dmet_energy_missing_cumulant",
    "Vayesta.Props.dmet_energy_options",
    "Vayesta.Props.fragment_mf_energy_sum",
    "Vayesta.Props.dmet_contributions",
    "Vayesta.Props.dmet_energy_documented",
    "Vayesta.Props.dmet_energy_kinds_differ",
    "Vayesta.Props.dmet_energy_auxiliary_partial"
   ],
   "note": "Restricted case, fragments without symmetry images. Fails for auxiliary fragments: they are left out of the density matrices but counted in the energy (dmet_energy_auxiliary_partial). With part_cumulant=True and approx_cumulant=False the energy raises NotImplementedError where make_rdm2_demo forms the cumulant itself (dmet_energy_missing_cumulant). The documented formula for the literature energy in terms of the cumulant is the other energy (dmet_energy_documented, dmet_energy_kinds_differ) and both documented literature formulas lack a factor of one half."
  },
  {
   "property": "C31",
   "status": "proved",
   "theorems": [
    "Vayesta.Props.pop_conserves_electrons",
    "Vayesta.Props.pop_names",
    "Vayesta.Props.pop_mo_basis",
    "Vayesta.Props.pop_incomplete_orbitals",
    "Vayesta.Props.atomic_charges_sum",
    "Vayesta.Props.atomic_charges_spin",
    "Vayesta.Props.atomic_charges_spin_unchecked"
   ],
   "note": "The local orbitals must resolve the identity (pop_incomplete_orbitals shows that this is needed). For unrestricted populations the number of populations is not checked against the atom assignment (atomic_charges_spin_unchecked). Writing of population files is not modelled."
  },
  {
   "property": "C32",
   "status": "proved",
   "theorems": [
    "Vayesta.Props.fix_orbital_sign_convention",
    "Vayesta.Props.fix_orbital_sign_raises",
    "Vayesta.Props.fix_orbital_sign_independent",
    "Vayesta.Props.fix_orbital_sign_idempotent",
    "Vayesta.Props.fix_orbital_sign_unrestricted"
   ],
   "note": "Independence of input signs is proved without the uniqueness assumption of the statement."
  },
  {
   "property": "C33",
   "status": "proved",
   "theorems": [
    "Vayesta.Props.cluster_fock_consistent",
    "Vayesta.Props.cluster_fock_matched",
    "Vayesta.Props.cluster_heff_unmatched",
    "Vayesta.Props.cluster_screening_missing",
    "Vayesta.Props.cluster_mf_consistent",
    "Vayesta.Props.cluster_mf_force_bare",
    "Vayesta.Props.cluster_mf_overwrite",
    "Vayesta.Props.cluster_integrals_bare",
    "Vayesta.Props.cluster_mf_mismatch",
    "Vayesta.Props.dummy_eris_one_body",
    "Vayesta.Props.padding_fock",
    "Vayesta.Props.padding_entries"
   ],
   "note": "Real integrals with (pq|rs)=(rs|pq), exact arithmetic; the density-fitted branch of to_pyscf_mf is not modelled. Options outside the claim, with exact conditions: force_bare_eris, an overwritten Fock matrix, and bare integrals passed to get_integrals mix bare and screened interactions (cluster_mf_force_bare, cluster_mf_overwrite, cluster_integrals_bare; witness cluster_mf_mismatch)."
  },
  {
   "property": "C34",
   "status": "proved",
   "theorems": [
    "Vayesta.Props.rma_refines_shared",
    "Vayesta.Props.rma_processes_agree",
    "Vayesta.Props.rma_read_after_write",
    "Vayesta.Props.rma_phase_errors",
    "Vayesta.Props.rma_conflict_iff",
    "Vayesta.Props.rma_conflict_persists",
    "Vayesta.Props.rma_serial",
    "Vayesta.Props.rma_delete_is_local",
    "Vayesta.Props.rma_clear_none"
   ],
   "note": "Write/read/phase-end events proved by refinement to one shared dictionary for any number of processes and any schedule. Observed limits, proved as such: after a rejected phase the unpublished values stay and every later phase is rejected; deletion only affects the calling process; clear() fails when a None value is stored."
  },
  {
   "property": "C35",
   "status": "partial",
   "theorems": [
    "Vayesta.Props.fragments_on_one_rank",
    "Vayesta.Props.fragments_independent_of_size",
    "Vayesta.Props.distributed_sum",
    "Vayesta.Props.mpi_wf_energy",
    "Vayesta.Props.mpi_cumulant_energy_partial",
    "Vayesta.Props.mpi_global_cumulant_energy_multiplied",
    "Vayesta.Props.mpi_rdm1_demo",
    "Vayesta.Props.mpi_rdm1_demo_target",
    "Vayesta.Props.mpi_rdm1_proj_lambda",
    "Vayesta.Props.mpi_rdm1_global_mp2_raises"
   ],
   "note": "Proved for the fragment sums of the projected energy, the projected-lambda cumulant energy and the density matrices. The claim is false for get_dm_corr_energy_e2(dm2='global-wf'): every process already has the full value and the all-reduce multiplies it by the number of processes (ewf.py:397-416). Processes other than mpi_target raise TypeError in make_rdm1_demo (core/qemb/rdm.py:42-48); the MP2 global density matrix raises on more than one process (ewf/rdm.py:437)."
  },
  {
   "property": "C36",
   "status": "partial",
   "theorems": [
    "Vayesta.Props.hubbard1D_succeeds_iff",
    "Vayesta.Props.hubbard1D_errors",
    "Vayesta.Props.hubbard1D_symmetric",
    "Vayesta.Props.hubbard1D_hopping_partial",
    "Vayesta.Props.hubbard1D_two_sites",
    "Vayesta.Props.hubbard1D_one_site",
    "Vayesta.Props.hubbard1D_auto_closed_shell",
    "Vayesta.Props.hubbard1D_other_boundary_open",
    "Vayesta.Props.hubbard2D_ok_iff",
    "Vayesta.Props.hubbard2D_hopping",
    "Vayesta.Props.hubbard2D_symmetric",
    "Vayesta.Props.hubbard2D_errors",
    "Vayesta.Props.hubbard2D_auto_closed_shell_partial",
    "Vayesta.Props.hubbard2D_auto_open_shell"
   ],
   "note": "Symmetry holds in full. Hopping of chains with one or two sites is not the sum over bonds (hubbard1D_two_sites, hubbard1D_one_site). The automatic two-dimensional boundary is not a closed shell for e.g. 8 x 4 sites (hubbard2D_auto_open_shell gives the exact exception)."
  },
  {
   "property": "C37",
   "status": "proved",
   "theorems": [
    "Vayesta.Props.tiles_order_succeeds_iff",
    "Vayesta.Props.tiles_order_permutation",
    "Vayesta.Props.tiles_order_contiguous",
    "Vayesta.Props.tiles_order_value"
   ],
   "note": "Tiles are with respect to the coordinates reported by atom_coords; see C51 for their relation to the hopping."
  },
  {
   "property": "C38",
   "status": "partial",
   "theorems": [
    "Vayesta.Props.lattice_jk",
    "Vayesta.Props.eri_nearest_neighbour",
    "Vayesta.Props.eri_one_site",
    "Vayesta.Props.lattice_ao2mo",
    "Vayesta.Props.lattice_df_partial",
    "Vayesta.Props.lattice_df_errors",
    "Vayesta.Props.lattice_df_attractive"
   ],
   "note": "Everything but density fitting holds for all U; density-fitting factors need a square root of U, so U >= 0 (lattice_df_attractive)."
  },
  {
   "property": "C39",
   "status": "proved",
   "theorems": [
    "Vayesta.Props.unflatten_rebuilds",
    "Vayesta.Props.unflatten_flatten",
    "Vayesta.Props.unflatten_wrong_length",
    "Vayesta.Props.flatten_unsupported",
    "Vayesta.Props.mix_history",
    "Vayesta.Props.mix_fixed_point",
    "Vayesta.Props.mix_one",
    "Vayesta.Props.mix_change_zero_iff",
    "Vayesta.Props.mix_structure_fixed"
   ],
   "note": "Arrays without axes and empty lists are outside the claim and raise (flatten_unsupported). The structure is fixed by the first call (mix_structure_fixed)."
  },
  {
   "property": "C40",
   "status": "partial",
   "theorems": [
    "Vayesta.Props.solver_lookup_usable",
    "Vayesta.Props.solver_lookup_decision",
    "Vayesta.Props.solver_ansatz",
    "Vayesta.Props.check_solver_partial",
    "Vayesta.Props.check_solver_one_orbital",
    "Vayesta.Props.check_solver_bosonic_bath",
    "Vayesta.Props.solver_boson_fallthrough"
   ],
   "note": "Lookup is characterised completely. The up-front check disagrees with construction for one basis function, for bosonic baths and for unknown names containing CC (check_solver_*), and solvers missing for bosons fall through to ebcc (solver_boson_fallthrough)."
  },
  {
   "property": "C41",
   "status": "partial",
   "theorems": [
    "Vayesta.Props.rdm1_mean_field",
    "Vayesta.Props.rdm2_exact_cumulant",
    "Vayesta.Props.rdm2_approximate_cumulant",
    "Vayesta.Props.rdm2_cumulants_differ",
    "Vayesta.Props.rdm2_other_cumulants",
    "Vayesta.Props.rdm2_cumulant_ao",
    "Vayesta.Props.urdm1_mean_field",
    "Vayesta.Props.urdm2_exact_cumulant",
    "Vayesta.Props.ufci_approximate_cumulant",
    "Vayesta.Props.urdm_approximate_cumulant_partial",
    "Vayesta.Props.urdm_approximate_cumulant_transposed",
    "Vayesta.Props.urdm_approximate_cumulant_false",
    "Vayesta.Props.urdm2_cumulants_differ",
    "Vayesta.Props.urdm2_other_cumulants",
    "Vayesta.Props.urdm2_exact_cumulant_ao",
    "Vayesta.Props.urdm_dm2ba_three_blocks"
   ],
   "note": "Proved for restricted wave functions and unrestricted FCI. URDM_WaveFunction uses the transposed density matrix in one exchange term (rdm.py:167): its approximate cumulant is right only for symmetric density matrices (urdm_approximate_cumulant_partial, urdm_approximate_cumulant_false). With three stored blocks dm2ba returns the transposed bb block (urdm_dm2ba_three_blocks)."
  },
  {
   "property": "C42",
   "status": "proved",
   "theorems": [
    "Vayesta.Props.mp2_rdm1_symmetric",
    "Vayesta.Props.mp2_rdm1_trace",
    "Vayesta.Props.mp2_rdm1_trace_ao",
    "Vayesta.Props.mp2_trace_needs_symmetry",
    "Vayesta.Props.mp2_rdm2",
    "Vayesta.Props.mp2_cumulant_blocks",
    "Vayesta.Props.mp2_energy_of_density_matrices",
    "Vayesta.Props.mp2_pair_count"
   ],
   "note": "Exchange symmetry is needed for the trace (mp2_trace_needs_symmetry). The number of electron pairs is not conserved by the two-body density matrix (mp2_pair_count gives the exact count). Full amplitudes only, not projected ones."
  },
  {
   "property": "C43",
   "status": "proved",
   "theorems": [
    "Vayesta.Props.charge_correlation",
    "Vayesta.Props.charge_correlation_mf",
    "Vayesta.Props.spin_correlation_singlet",
    "Vayesta.Props.spin_correlation_unrestricted",
    "Vayesta.Props.spin_correlation_mf",
    "Vayesta.Props.spin_correlation_mf_restricted",
    "Vayesta.Props.corrfunc_kinds",
    "Vayesta.Props.corrfunc_full",
    "Vayesta.Props.corrfunc_cumulant",
    "Vayesta.Props.corrfunc_fragments",
    "Vayesta.Props.corrfunc_detects_full",
    "Vayesta.Props.corrfunc_detects_cumulant",
    "Vayesta.Props.corrfunc_automatic",
    "Vayesta.Props.corrfunc_charge_sum",
    "Vayesta.Props.corrfunc_spin_sum",
    "Vayesta.Props.corrfunc_mf",
    "Vayesta.Props.ucorrfunc_full",
    "Vayesta.Props.ucorrfunc_cumulant",
    "Vayesta.Props.ucorrfunc_fragments",
    "Vayesta.Props.ucorrfunc_automatic"
   ],
   "note": "Symmetric projectors (those of orthonormal fragments are). The recognition of a full two-body density matrix is by its trace and fails for fewer than two electrons (example in Props/CorrFunc). How the embedding builds projectors for atoms (get_atomic_...) is not modelled."
  },
  {
   "property": "C44",
   "status": "proved",
   "theorems": [
    "Vayesta.Props.atom_reorder_sound",
    "Vayesta.Props.atom_reorder_decision",
    "Vayesta.Props.operation_decision",
    "Vayesta.Props.operation_moves_orbitals",
    "Vayesta.Props.operations_compose",
    "Vayesta.Props.operation_power",
    "Vayesta.Props.inversion_twice",
    "Vayesta.Props.reflection_twice",
    "Vayesta.Props.translation_sound",
    "Vayesta.Props.translation_decision",
    "Vayesta.Props.translations_compose",
    "Vayesta.Props.translation_power",
    "Vayesta.Props.translation_opposite",
    "Vayesta.Props.operation_points",
    "Vayesta.Props.translation_shifts"
   ],
   "note": "Exact arithmetic; atoms further apart than a multiple of the tolerance (stated in each theorem); check_basis on. A molecule with an atom without orbitals makes the constructors raise IndexError (operation_decision). Cartesian functions and the angular matrices of rotations (scipy, pyscf) are not modelled: their composition is a hypothesis."
  },
  {
   "property": "C45",
   "status": "proved",
   "theorems": [
    "Vayesta.Props.symmetric_orth_orthonormal",
    "Vayesta.Props.symmetric_orth_dropped",
    "Vayesta.Props.sao_orthonormal",
    "Vayesta.Props.iao_virtuals_complete",
    "Vayesta.Props.iao_complete",
    "Vayesta.Props.pao_complete",
    "Vayesta.Props.label_order_permutation",
    "Vayesta.Props.iaopao_complete"
   ],
   "note": "Exact arithmetic; the eigenvalue solver, the square root and pyscf's iao() are parameters with their specifications as hypotheses. If an eigenvalue lies below the threshold the orbitals are returned although not orthonormal (symmetric_orth_dropped). Unrestricted orbitals are the same functions applied per spin."
  },
  {
   "property": "C46",
   "status": "partial",
   "theorems": [
    "Vayesta.Props.symmetry_exception_free_partial",
    "Vayesta.Props.symmetry_register_leak",
    "Vayesta.Props.exec_refines",
    "Vayesta.Props.symmetry_exception_breaks_outer"
   ],
   "note": "The full claim is false: an exception in a body leaves a stale list that the enclosing context pops (symmetry_exception_breaks_outer)."
  },
  {
   "property": "C48",
   "status": "partial",
   "theorems": [
    "Vayesta.Props.rwf_rotate_ov_invariant",
    "Vayesta.Props.rwf_rotate_ov_comp",
    "Vayesta.Props.rwf_rotate_back",
    "Vayesta.Props.rotate_commutes_with_cisd",
    "Vayesta.Props.rwf_rotate_iff",
    "Vayesta.Props.uwf_rotate_ov_invariant_partial",
    "Vayesta.Props.uwf_rotate_ov_raises",
    "Vayesta.Props.uwf_rotate_ov_false"
   ],
   "note": "Restricted case in full. Unrestricted: the rotation functions capture the loop variable late, so only equal spin rotations are right (uwf_rotate_ov_false)."
  },
  {
   "property": "C49",
   "status": "partial",
   "theorems": [
    "Vayesta.Props.rccsd_multiply_get",
    "Vayesta.Props.rccsd_multiply_partial",
    "Vayesta.Props.solver_factor_with_lambda",
    "Vayesta.Props.rccsd_multiply_shared",
    "Vayesta.Props.secondary_factor_lost",
    "Vayesta.Props.rccsd_copy",
    "Vayesta.Props.uccsd_multiply"
   ],
   "note": "False when l1/l2 are the same arrays as t1/t2, as the CCSD solver produces without lambda equations (rccsd_multiply_shared, secondary_factor_lost)."
  },
  {
   "property": "C50",
   "status": "partial",
   "theorems": [
    "Vayesta.Props.global_amplitudes_ccsd_partial",
    "Vayesta.Props.global_amplitudes_t_as_lambda",
    "Vayesta.Props.global_amplitudes_mp2_partial",
    "Vayesta.Props.global_amplitudes_cisd",
    "Vayesta.Props.global_t2_cisd_false"
   ],
   "note": "False for projected CI wave functions (FCI solver); global_amplitudes_cisd gives the exact value in all cases."
  },
  {
   "property": "C51",
   "status": "partial",
   "theorems": [
    "Vayesta.Props.hubbard2D_coords_partial",
    "Vayesta.Props.hubbard2D_coords_false",
    "Vayesta.Props.hubbard2D_tiles_false",
    "Vayesta.Props.hubbard2D_boundary_false"
   ],
   "note": "False for non-square lattices and for different boundary conditions in the two directions."
  },
  {
   "property": "C52",
   "status": "partial",
   "theorems": [
    "Vayesta.Props.mix_electrons_partial",
    "Vayesta.Props.mix_first_call_loses_electrons"
   ],
   "note": "False for the first call, which mixes with zeros and so returns alpha times the electrons (mix_first_call_loses_electrons)."
  },
  {
   "property": "C53",
   "status": "partial",
   "theorems": [
    "Vayesta.Props.dmet_kernel_rejects",
    "Vayesta.Props.dmet_converged_partial",
    "Vayesta.Props.dmet_iterations",
    "Vayesta.Props.dmet_gives_up",
    "Vayesta.Props.dmet_oneshot",
    "Vayesta.Props.dmet_no_bracket",
    "Vayesta.Props.dmet_restart_reports_convergence",
    "Vayesta.Props.dmet_false_convergence"
   ],
   "note": "A second run of an unconverged calculation repeats the last iteration on the unchanged mean field and reports convergence (dmet_restart_reports_convergence); an early failure after an earlier run leaves that run's energy (dmet_no_bracket)."
  },
  {
   "property": "C55",
   "status": "partial",
   "theorems": [
    "Vayesta.Props.with_send_values_partial",
    "Vayesta.Props.with_send_progress",
    "Vayesta.Props.with_send_drained",
    "Vayesta.Props.own_loop_leaves_messages",
    "Vayesta.Props.with_send_stale"
   ],
   "note": "Proved if all processes make the same calls. get_dmet_elec_energy (qemb.py:1289) calls the wrapped function only on the fragment's process: the messages are never received, and the next call by all processes returns the stale value on the destination (with_send_stale)."
  },
  {
   "property": "C56",
   "status": "proved",
   "theorems": [
    "Vayesta.Props.symmetry_children_descendants",
    "Vayesta.Props.loop_symmetry_children_images",
    "Vayesta.Props.symmetry_factor_sum",
    "Vayesta.Props.symmetry_parent_root",
    "Vayesta.Props.symmetry_factor_counts_inactive"
   ],
   "note": "Deeper than 1000 generations the code stops; the theorems state this bound. A symmetry child that was made inactive is still counted by the factor of its parent (symmetry_factor_counts_inactive)."
  },
  {
   "property": "C57",
   "status": "proved",
   "theorems": [
    "Vayesta.Props.rdm2_demo_exact"
   ],
   "note": "Restricted. The argument with_mf of make_rdm2_demo is not used by the code."
  },
  {
   "property": "C58",
   "status": "partial",
   "theorems": [
    "Vayesta.Props.uhf_cluster_fock_consistent",
    "Vayesta.Props.uhf_cluster_fock_partial",
    "Vayesta.Props.uhf_cluster_fock_screened",
    "Vayesta.Props.uhf_match_fock_ignored",
    "Vayesta.Props.ucompress_beta",
    "Vayesta.Props.ucompress_wrong"
   ],
   "note": "Consistency holds. False in the code: with screening the Fock matrix is shifted although match_fock is on (uhf_match_fock_ignored; exact shift in uhf_cluster_fock_screened), and compression of unrestricted density-fitting integrals replaces the beta array by the alpha one (ucompress_beta, ucompress_wrong; hamiltonian.py:740)."
  },
  {
   "property": "C59",
   "status": "proved",
   "theorems": [
    "Vayesta.Props.eris_cache_transparent",
    "Vayesta.Props.ueris_block"
   ],
   "note": "Real integrals. Blocks pairing an alpha with a beta orbital in one charge distribution are outside the claim."
  },
  {
   "property": "C61",
   "status": "partial",
   "theorems": [
    "Vayesta.Props.charge_correlation_defaults",
    "Vayesta.Props.charge_correlation_mf_default_partial",
    "Vayesta.Props.charge_correlation_mf_default_needs",
    "Vayesta.Props.spin_correlation_unrestricted_default"
   ],
   "note": "True for chargecharge. False in the code: spinspin_z_unrestricted without projectors raises NameError (spin_correlation_unrestricted_default), and chargecharge_mf without projectors returns tr(D)^2, which is the correlation only for determinants (charge_correlation_mf_default_partial with its condition, charge_correlation_mf_default_needs shows it fails otherwise)."
  },
  {
   "property": "C62",
   "status": "partial",
   "theorems": [
    "Vayesta.Props.translation_inverse_raises",
    "Vayesta.Props.translation_inverse_partial"
   ],
   "note": "False in the code: inverse() passes the molecule where the group is expected and raises AttributeError (operation.py:290). Proved instead: the translation constructed with the opposite vector exists and undoes the translation."
  },
  {
   "property": "C63",
   "status": "partial",
   "theorems": [
    "Vayesta.Props.reorder_signs_first",
    "Vayesta.Props.reorder_signs_partial",
    "Vayesta.Props.reorder_signs_list_changed",
    "Vayesta.Props.reorder_signs_agree"
   ],
   "note": "True for one name, two names, or no boundary conditions. False in the code for a list of three names: it is overwritten with numbers in place, and the next call with it raises AttributeError (reorder_signs_list_changed; tsymmetry.py:157-163)."
  },
  {
   "property": "C64",
   "status": "partial",
   "theorems": [
    "Vayesta.Props.symmetric_images_decision",
    "Vayesta.Props.symlist_exact",
    "Vayesta.Props.symmetric_images_partial",
    "Vayesta.Props.rotation_images_group",
    "Vayesta.Props.symmetric_images_overlap"
   ],
   "note": "Proved for a fragment and its own images. Overlaps between images of different fragments are not checked: two fragments exchanged by an inversion are accepted and duplicated (symmetric_images_overlap)."
  },
  {
   "property": "C65",
   "status": "partial",
   "theorems": [
    "Vayesta.Props.mesh_from_counts",
    "Vayesta.Props.mesh_from_vectors_partial",
    "Vayesta.Props.mesh_never_rejected",
    "Vayesta.Props.mesh_wrong",
    "Vayesta.Props.loop_tvecs_all"
   ],
   "note": "Three numbers and the loop: proved. Three vectors: true only for lengths that are whole numbers of Bohr, since the length is rounded before dividing (tsymmetry.py:31); vectors that do not fit are never rejected, since the check follows the rounding (mesh_never_rejected, mesh_wrong)."
  },
  {
   "property": "C66",
   "status": "proved",
   "theorems": [
    "Vayesta.Props.tsymmetric_atoms_lowest",
    "Vayesta.Props.tsymmetric_atoms_needs_transitive"
   ],
   "note": "Coordinates are internal ones. Without transitivity of equivalence within the tolerance the lowest index need not be found (tsymmetric_atoms_needs_transitive). For a cell without atoms the code returns [0]."
  },
  {
   "property": "C54",
   "status": "partial",
   "theorems": [
    "Vayesta.Props.gen_space_partial",
    "Vayesta.Props.actspace_decision",
    "Vayesta.Props.gen_space_empty_active",
    "Vayesta.Props.gen_space_default"
   ],
   "note": "Proved for at least one active orbital on each side. False in the code for none on one side: the slice [-0:] marks all orbitals of this side active, also frozen ones (gen_space_empty_active; ebcc.py:425). Exact arithmetic: singular values are compared exactly. That frozen indices are within range is a hypothesis; negative indices are not modelled."
  },
  {
   "property": "C47",
   "status": "partial",
   "theorems": [
    "Vayesta.Props.bath_option_precedence",
    "Vayesta.Props.bath_option_set",
    "Vayesta.Props.addbuffer_vir_broken",
    "Vayesta.Props.bath_partition_partial",
    "Vayesta.Props.cluster_orbitals_partial",
    "Vayesta.Props.cluster_contains_dmet",
    "Vayesta.Props.cluster_occupations",
    "Vayesta.Props.cluster_check_passes",
    "Vayesta.Props.cluster_without_virtuals",
    "Vayesta.Props.ewdmet_orders",
    "Vayesta.Props.ewdmet_bath",
    "Vayesta.Props.ewdmet_succeeds",
    "Vayesta.Props.block_svd_orthogonal",
    "Vayesta.Props.r2_bath_cutoff_partial",
    "Vayesta.Props.r2_unit_ignored",
    "Vayesta.Props.r2_bath_one_atom",
    "Vayesta.Props.bno_natural_orbitals",
    "Vayesta.Props.bath_dmet_full",
    "Vayesta.Props.bath_type_refused",
    "Vayesta.Props.missing_number_duplicates",
    "Vayesta.Props.svd_exists",
    "Vayesta.Props.realSvd_solves",
    "Vayesta.Props.sortedEigh_ascending",
    "Vayesta.Props.sortedEigh_solves"
   ],
   "note": "False in the code: truncation='number' without a threshold returns all orbitals as bath and as frozen orbitals (missing_number_duplicates; excluded in bath_partition_partial); the unit of the distance cutoff is read but not used, so it is always \u00c5ngstr\u00f6m (r2_unit_ignored; r2_bath_cutoff_partial is for \u00c5ngstr\u00f6m); systems without virtual orbitals raise IndexError (cluster_without_virtuals); the buffer option of virtual orbitals cannot be set since its key is misspelt (addbuffer_vir_broken). Restricted orbitals, exact arithmetic; the correlated density matrices of MP2 and RPA baths are arbitrary symmetric matrices here."
  },
  {
   "property": "C60",
   "status": "proved",
   "theorems": [
    "Vayesta.Props.polaritonic_unrestricted",
    "Vayesta.Props.polaritonic_off",
    "Vayesta.Props.polaritonic_traceless",
    "Vayesta.Props.polaritonic_optimal",
    "Vayesta.Props.eb_density_matrix"
   ],
   "note": "Exact arithmetic. No commutation relations are needed: the identity holds in every algebra. The constant (sum of squared shifts times frequencies) is not added to the energy by the code. Zero frequencies and clusters without electrons (infinities in NumPy) are excluded where they matter."
  },
  {
   "property": "C69",
   "status": "partial",
   "theorems": [
    "Vayesta.Props.polaritonic_restricted_partial",
    "Vayesta.Props.restricted_couplings_refused",
    "Vayesta.Props.restricted_couplings_ignored",
    "Vayesta.Props.restricted_heff_alpha",
    "Vayesta.Props.eb_density_matrix_restricted"
   ],
   "note": "False in the code: without the shift the couplings of alpha electrons are used for both spins without any check (restricted_couplings_ignored), and the effective one-body part only logs a difference (restricted_heff_alpha). With the shift, RuntimeError is raised exactly for couplings that differ by more than the tolerances (restricted_couplings_refused); for equal couplings the Hamiltonian is right. The restricted electron-boson density matrix is right exactly if both spins have the same density matrix (eb_density_matrix_restricted)."
  },
  {
   "property": "C70",
   "status": "partial",
   "theorems": [
    "Vayesta.Props.bosons_any_order_partial",
    "Vayesta.Props.couplings_access_order"
   ],
   "note": "False in the code: with the polaritonic shift and generated bosons, reading the couplings first raises AttributeError since the shift is read before it is made (couplings_access_order gives the exact condition). All other accesses always succeed with the same values (bosons_any_order_partial)."
  },
  {
   "property": "C67",
   "status": "proved",
   "theorems": [
    "Vayesta.Props.tailor_restricted",
    "Vayesta.Props.tailor_unrestricted",
    "Vayesta.Props.tailor_succeeds",
    "Vayesta.Props.tailor_order",
    "Vayesta.Props.tailor_orbital_choice",
    "Vayesta.Props.tailor_fixed",
    "Vayesta.Props.tailor_exchange_symmetry",
    "Vayesta.Props.tailor_full_t1",
    "Vayesta.Props.tailor_full_t2",
    "Vayesta.Props.tailor_flags_broken",
    "Vayesta.Props.callback_decision"
   ],
   "note": "Exact arithmetic. The docstring of the option `project` lists levels 1, 2, 3, which are not what the code does: 3 raises ValueError. The arguments tailor_t1=False and tailor_t2=False, which no caller passes, always raise (tailor_flags_broken)."
  },
  {
   "property": "C71",
   "status": "partial",
   "theorems": [
    "Vayesta.Props.external_corrections_partial",
    "Vayesta.Props.external_mixed_types_broken",
    "Vayesta.Props.external_last_type_decides",
    "Vayesta.Props.external_unsupported"
   ],
   "note": "False in the code for lists with both types: the type of the last correction decides for all (external_last_type_decides, external_mixed_types_broken; coupling.py:662-668). The residuals and the contraction of triples with the cluster integrals are parameters. Restricted."
  },
  {
   "property": "C68",
   "status": "proved",
   "theorems": [
    "Vayesta.Props.fold_mesh_found",
    "Vayesta.Props.fold_phase_unitary",
    "Vayesta.Props.folded_integrals_gamma",
    "Vayesta.Props.fold_lattice_sum",
    "Vayesta.Props.fold_translation_invariant",
    "Vayesta.Props.fold_unfold",
    "Vayesta.Props.unfold_fold",
    "Vayesta.Props.fold_mul",
    "Vayesta.Props.fold_one",
    "Vayesta.Props.fold_conj",
    "Vayesta.Props.fold_trace",
    "Vayesta.Props.fold_expectation",
    "Vayesta.Props.fold_energy_expectation",
    "Vayesta.Props.fold_energy_roundtrip",
    "Vayesta.Props.fold_real_iff",
    "Vayesta.Props.fold_real_decision",
    "Vayesta.Props.fold_shifted_mesh"
   ],
   "note": "Exact arithmetic over the complex numbers. The gamma point is needed: shifted meshes are accepted silently, although the supercell is then not at its gamma point and the folded integrals are not translationally invariant (fold_shifted_mesh). The k-point integrals themselves are PySCF's."
  },
  {
   "property": "C72",
   "status": "proved",
   "theorems": [
    "Vayesta.Props.fold_mos_correct",
    "Vayesta.Props.fold_mos_canonical",
    "Vayesta.Props.fold_mos_density",
    "Vayesta.Props.make_mo_real",
    "Vayesta.Props.make_mo_real_degenerate",
    "Vayesta.Props.genEigh_exists"
   ],
   "note": "Exact arithmetic; orbitals are assumed to be either real or to have an imaginary part above the tolerance. fold_mos_correct is for as many orbitals as basis functions at every k-point; make_mo_real also covers fewer. The condition on occupations is necessary (make_mo_real_degenerate). sort=False, which no caller uses, is not modelled."
  },
  {
   "property": "C73",
   "status": "proved",
   "theorems": [
    "Vayesta.Props.rpa_solution",
    "Vayesta.Props.rpa_orbitals",
    "Vayesta.Props.rpa_stable",
    "Vayesta.Props.rpa_succeeds",
    "Vayesta.Props.rpa_moments",
    "Vayesta.Props.rpa_moment_relations",
    "Vayesta.Props.rpa_rotation",
    "Vayesta.Props.rpa_xc_solution",
    "Vayesta.Props.rpa_exchange_solution",
    "Vayesta.Props.response_moment_unique",
    "Vayesta.Props.xc_arrays",
    "Vayesta.Props.xc_coulomb",
    "Vayesta.Props.xc_symmetric",
    "Vayesta.Props.rpa_unrestricted_same",
    "Vayesta.Props.rpa_interaction_symmetric",
    "Vayesta.Props.xc_succeeds",
    "Vayesta.Props.anyEigh_diagonalises",
    "Vayesta.Props.takesRoots_cfc"
   ],
   "note": "Exact real arithmetic. Eigensolver and matrix square root are parameters with their specification. For the class with exchange, A-B is assumed to be positive definite. Empty rotations (UnboundLocalError in the restricted class) and `_eri` tuples in the unrestricted class (NameError) are not modelled."
  },
  {
   "property": "C74",
   "status": "proved",
   "theorems": [
    "Vayesta.Props.rpa_energy",
    "Vayesta.Props.rpa_energy_formula",
    "Vayesta.Props.rpa_adiabatic_connection",
    "Vayesta.Props.rpa_xc_connection",
    "Vayesta.Props.rpa_linear_versions",
    "Vayesta.Props.rpa_moment_noninteracting",
    "Vayesta.Props.rpa_energy_refused",
    "Vayesta.Props.rpa_energy_strength_broken"
   ],
   "note": "Exact real arithmetic and exact integration (the quadrature of the code is a parameter). The conditions of full strength and all excitations are necessary: the energy is computed with the trace of the unscaled, unrotated interaction, so e.g. strength 0 gives minus half the trace of the interaction (rpa_energy_strength_broken; ssrpa.py:107)."
  },
  {
   "property": "C75",
   "status": "partial",
   "theorems": [
    "Vayesta.Props.rpax_energy_partial",
    "Vayesta.Props.rpa_direct_energy",
    "Vayesta.Props.rpax_stable",
    "Vayesta.Props.rpax_case_broken",
    "Vayesta.Props.rpa_kernel_argument"
   ],
   "note": "The energies are proved for the lower case names and None. False in the code otherwise: \"RPAX\" gives twice the energy, since the interaction is chosen without but the factor of one half with regard to case (rpax_case_broken; rpa.py:79,150), and tuples raise AttributeError (rpa_kernel_argument; rpa.py:137)."
  },
  {
   "property": "C76",
   "status": "partial",
   "theorems": [
    "Vayesta.Props.xc_factors_partial",
    "Vayesta.Props.xc_factors_broken"
   ],
   "note": "False in the code: the mixed-spin part is made from the alpha factors only (xc_factors_broken; ssrpa.py:247). True if the right factors of both spins are the same (xc_factors_partial)."
  },
  {
   "property": "C77",
   "status": "proved",
   "theorems": [
    "Vayesta.Props.mrpa_excitations_orthonormal",
    "Vayesta.Props.mrpa_moment",
    "Vayesta.Props.mrpa_limits",
    "Vayesta.Props.mrpa_orbital_rotation",
    "Vayesta.Props.mrpa_restricted",
    "Vayesta.Props.mrpa_arrays",
    "Vayesta.Props.mrpa_symmetry",
    "Vayesta.Props.mrpa_restricted_integrals",
    "Vayesta.Props.mrpa_ccsd",
    "Vayesta.Props.mrpa_ccsd_twice",
    "Vayesta.Props.mrpa_refused",
    "Vayesta.Props.mrpa_build_iff"
   ],
   "note": "Exact real arithmetic; the numerical integration of the moment is treated as exact, the eigensolver is a parameter. Restoring bare integrals after screening twice gives the ones of the first screening (mrpa_ccsd_twice). Not modelled: get_screened_eris_full without a logger (AttributeError) and with copy=False for one array."
  },
  {
   "property": "C78",
   "status": "proved",
   "theorems": [
    "Vayesta.Props.crpa_static_response",
    "Vayesta.Props.crpa_restricted",
    "Vayesta.Props.crpa_symmetry",
    "Vayesta.Props.crpa_real_symmetry",
    "Vayesta.Props.crpa_pcoupled_symmetry_broken",
    "Vayesta.Props.crpa_attractive",
    "Vayesta.Props.crpa_only_ov",
    "Vayesta.Props.crpa_integrals",
    "Vayesta.Props.crpa_succeeds",
    "Vayesta.Props.crpa_uncoupled_response_lost",
    "Vayesta.Props.screening_options",
    "Vayesta.Props.screening_documented_word_ignored"
   ],
   "note": "Exact real arithmetic. The condition on the coupling is necessary: without \"pcoupled\" the static response is lost for clusters whose excitations are mixed by orbital energies (crpa_uncoupled_response_lost). With \"pcoupled\" and such coupling (ia|jb) and (ia|bj) always differ (crpa_pcoupled_symmetry_broken), so that solvers which assume real orbital symmetry cannot use them. The documented word \"pcoupling\" has no effect, the code looks for \"pcoupled\" (screening_documented_word_ignored; hamiltonian.py:457,487). The RPA of the excitations outside of the cluster is the model of C73."
  },
  {
   "property": "C79",
   "status": "proved",
   "theorems": [
    "Vayesta.Props.rpa_local_energies",
    "Vayesta.Props.rpa_local_cumulants",
    "Vayesta.Props.rpa_correction_vanishes",
    "Vayesta.Props.rpa_local_rotation",
    "Vayesta.Props.rpa_local_refused",
    "Vayesta.Props.rpa_correction_options"
   ],
   "note": "Exact real arithmetic; the energy and moments from numerical integration are treated as exact. An empty string as option passes the check of unrestricted systems' base class and then raises TypeError on reading e_nonlocal (not modelled)."
  },
  {
   "property": "C80",
   "status": "proved",
   "theorems": [
    "Vayesta.Props.scmf_kernel",
    "Vayesta.Props.scmf_raises",
    "Vayesta.Props.scmf_returns",
    "Vayesta.Props.scmf_no_iterations",
    "Vayesta.Props.scmf_converged",
    "Vayesta.Props.scmf_energies",
    "Vayesta.Props.scmf_stationary",
    "Vayesta.Props.scmf_limit",
    "Vayesta.Props.scmf_stale_convergence",
    "Vayesta.Props.scmf_energy_per_cell"
   ],
   "note": "The conditions are necessary: a second call that runs out of iterations keeps converged=True of the first one (scmf_stale_convergence; scmf.py does not reset it), and for k-points the recorded energies add the mean-field energy of the supercell to the correlation energy per cell (scmf_energy_per_cell). maxiter=0 raises UnboundLocalError (scmf_no_iterations). Energies are real numbers."
  },
  {
   "property": "C81",
   "status": "proved",
   "theorems": [
    "Vayesta.Props.pdmet_orthonormal",
    "Vayesta.Props.pdmet_closest",
    "Vayesta.Props.pdmet_reference",
    "Vayesta.Props.pdmet_fixed_point",
    "Vayesta.Props.pdmet_refused",
    "Vayesta.Props.pdmet_no_beta",
    "Vayesta.Props.pdmet_unrestricted",
    "Vayesta.Props.pdmet_density"
   ],
   "note": "Exact real arithmetic; the eigensolver is a parameter, right for every symmetric matrix. Systems without beta electrons cannot be treated (pdmet_no_beta): index -1 compares the last with the first occupation."
  },
  {
   "property": "C82",
   "status": "proved",
   "theorems": [
    "Vayesta.Props.brueckner_orthonormal",
    "Vayesta.Props.brueckner_space",
    "Vayesta.Props.brueckner_fixed_point",
    "Vayesta.Props.brueckner_no_occupied"
   ],
   "note": "Exact real arithmetic; eigensolvers are parameters. Extrapolation (DIIS) is any function that keeps matrices symmetric. Systems without beta electrons raise AssertionError, since the slice of the last zero columns gives all of them (brueckner_no_occupied)."
  },
  {
   "property": "C83",
   "status": "proved",
   "theorems": [
    "Vayesta.Props.wf_energy_assembled",
    "Vayesta.Props.wf_energy_images",
    "Vayesta.Props.wf_energy_exact",
    "Vayesta.Props.wf_energy_exact_plain",
    "Vayesta.Props.wf_energy_restored",
    "Vayesta.Props.wf_energy_rotation",
    "Vayesta.Props.ccsd_energy_exact",
    "Vayesta.Props.uwf_energy_exact",
    "Vayesta.Props.uwf_energy_closed_shell"
   ],
   "note": "Exact arithmetic, one MPI process (see C62 for the sum over processes). get_ccsd_corr_energy uses the Fock matrix without exchange divergence; agreement needs equal occupied-virtual blocks. Not modelled: c1=None, axis1=\"cluster\" and c2ba_order=\"ab\" of the unrestricted get_fragment_energy (not used; with c1 the former raises UnboundLocalError), wf_factor, store_wf_type."
  },
  {
   "property": "C84",
   "status": "proved",
   "theorems": [
    "Vayesta.Props.rdm1_global",
    "Vayesta.Props.global_amplitudes_invariant",
    "Vayesta.Props.rdm1_global_symmetry",
    "Vayesta.Props.global_amplitudes_exact",
    "Vayesta.Props.rdm1_global_exact",
    "Vayesta.Props.rdm1_ccsd_exact",
    "Vayesta.Props.rdm1_proj_lambda_exact",
    "Vayesta.Props.cc_rdm1_trace",
    "Vayesta.Props.rdm1_global_electrons",
    "Vayesta.Props.rdm1_ccsd_electrons",
    "Vayesta.Props.rdm1_proj_lambda_electrons",
    "Vayesta.Props.rdm1_ao_electrons",
    "Vayesta.Props.rdm1_symmetric",
    "Vayesta.Props.rdm1_missing_lambda",
    "Vayesta.Props.rdm1_ccsd_missing_lambda",
    "Vayesta.Props.rdm1_fragment_option_false"
   ],
   "note": "Exact arithmetic, one MPI process, restricted. Agreement of the fast and slow algorithm needs that the option t_as_lambda of fragments is not set, unless the argument is: the fast one ignores it (rdm1_fragment_option_false; rdm.py:197). Singular value decomposition and screening are any functions; agreement is for those that lose nothing. With more than one MPI process and with_t1=False the code raises NameError (not modelled)."
  },
  {
   "property": "C85",
   "status": "partial",
   "theorems": [
    "Vayesta.Props.ccsd_t_partition",
    "Vayesta.Props.ccsd_t_rotation",
    "Vayesta.Props.ccsd_t_exact",
    "Vayesta.Props.ccsd_t_exact_plain",
    "Vayesta.Props.ccsd_t_given_doubles",
    "Vayesta.Props.ccsd_t_unknown_projection",
    "Vayesta.Props.ccsd_t_kernel_option_partial"
   ],
   "note": "Exact real arithmetic; denominators are assumed to be non-zero in the code (in the model division by zero gives zero). The part that is false: the option calc_e_ccsd_t_corr of Fragment.kernel always raises TypeError, since the function takes one positional argument (ccsd_t_kernel_option_partial). Not modelled: external potentials, screened interactions, MPI. The option sym_factor of fragments is ignored by the code."
  },
  {
   "property": "C86",
   "status": "proved",
   "theorems": [
    "Vayesta.Props.uccsd_t_partition",
    "Vayesta.Props.uccsd_t_rotation",
    "Vayesta.Props.uccsd_t_closed_shell",
    "Vayesta.Props.uccsd_t_exact",
    "Vayesta.Props.uccsd_t_exact_plain",
    "Vayesta.Props.uccsd_t_given_integrals",
    "Vayesta.Props.uccsd_t_unknown_projection"
   ],
   "note": "Exact real arithmetic; denominators are assumed to be non-zero in the code (in the model division by zero gives zero). global_t1=False only. Not modelled: external potentials, screened interactions, MPI, passing amplitudes. The projection \"z\" of restricted calculations is not known here, \"r\" not there."
  },
  {
   "property": "C87",
   "status": "proved",
   "theorems": [
    "Vayesta.Props.ebfci_hamiltonian",
    "Vayesta.Props.uebfci_hamiltonian",
    "Vayesta.Props.ebfci_couplings",
    "Vayesta.Props.ebfci_no_bosons",
    "Vayesta.Props.ebfci_closed_shell",
    "Vayesta.Props.ebfci_symmetric",
    "Vayesta.Props.uebfci_symmetric",
    "Vayesta.Props.ebfci_density_matrices",
    "Vayesta.Props.uebfci_density_matrices",
    "Vayesta.Props.ebfci_coupling_density_matrices",
    "Vayesta.Props.ebfci_electron_number",
    "Vayesta.Props.ebfci_energy",
    "Vayesta.Props.uebfci_energy",
    "Vayesta.Props.ebfci_boson_number",
    "Vayesta.Props.ebfci_zero_phonon_reversed"
   ],
   "note": "Exact arithmetic over a field; link tables are parameters that tabulate the generators p\u2020q, square roots are a parameter. Only for adj_zero_pho=False: the option subtracts twice the mean, and reverses the coupling to the number of electrons instead of removing it (ebfci_zero_phonon_reversed). Not modelled: the Davidson solver and its preconditioner make_hdiag, several roots (the unrestricted version passes packed integrals and fails), contract_1e (raises NotImplementedError), make_rdm12s of the restricted module, make_eb_rdm without bosons (unrestricted: one array instead of a pair), packed integrals."
  },
  {
   "property": "C88",
   "status": "proved",
   "theorems": [
    "Vayesta.Props.ebfci_moments",
    "Vayesta.Props.uebfci_moments",
    "Vayesta.Props.ebfci_moments_rotated",
    "Vayesta.Props.ebfci_moments_single_density_wrong"
   ],
   "note": "Exact arithmetic. The condition on the density matrix is necessary: with the default of the restricted code, half of the spin-summed density matrix, states with different spin densities have wrong moments (ebfci_moments_single_density_wrong)."
  },
  {
   "property": "C89",
   "status": "proved",
   "theorems": [
    "Vayesta.Props.self_energy_moments_eq",
    "Vayesta.Props.self_energy_moments_exact",
    "Vayesta.Props.self_energy_1proj_iff",
    "Vayesta.Props.self_energy_1proj_exact",
    "Vayesta.Props.self_energy_1proj_causal",
    "Vayesta.Props.self_energy_1proj_no_assertion",
    "Vayesta.Props.self_energy_1proj_drop_no_effect",
    "Vayesta.Props.self_energy_1proj_loses_noncausal",
    "Vayesta.Props.self_energy_moments_symmetry",
    "Vayesta.Props.self_energy_1proj_symmetry",
    "Vayesta.Props.get_unique_slices",
    "Vayesta.Props.get_unique_sum",
    "Vayesta.Props.get_unique_neighbours_apart",
    "Vayesta.Props.exists_svd",
    "Vayesta.Props.self_energy_other_inputs"
   ],
   "note": "Exact real arithmetic, with infinite precision also where the code uses complex64. Everything of the package dyson is a parameter or a plain description (Lehmann sorts poles). Not modelled: the optional shift of auxiliaries, fit_hermitian, numpy broadcasting with a single molecular orbital. A wrong number of projectors gives zeros instead of an exception, and fewer molecular than atomic orbitals ValueError (self_energy_other_inputs)."
  },
  {
   "property": "C90",
   "status": "partial",
   "theorems": [
    "Vayesta.Props.self_energy_2proj_exact",
    "Vayesta.Props.self_energy_2proj_causal",
    "Vayesta.Props.self_energy_2proj_symmetry",
    "Vayesta.Props.self_energy_moments_symmetry",
    "Vayesta.Props.self_energy_moments_two_half_partial",
    "Vayesta.Props.self_energy_moments_two_wrong",
    "Vayesta.Props.self_energy_2proj_mixed",
    "Vayesta.Props.self_energy_other_inputs"
   ],
   "note": "What is false: the moments with two projectors are half of those of the poles (self_energy_moments_two_half_partial; self_energy.py:101), so that they are not exact even for a single fragment of the whole system (self_energy_moments_two_wrong); and make_self_energy_moments returns zeros for other numbers of projectors (self_energy_other_inputs). Exact arithmetic as for C89."
  },
  {
   "property": "C91",
   "status": "proved",
   "theorems": [
    "Vayesta.Props.qp_diis",
    "Vayesta.Props.qp_global_potential",
    "Vayesta.Props.qp_no_iterations",
    "Vayesta.Props.qp_hamiltonian",
    "Vayesta.Props.qp_exact",
    "Vayesta.Props.qp_symmetric",
    "Vayesta.Props.qp_diagonalised",
    "Vayesta.Props.qp_sc_orbitals",
    "Vayesta.Props.qp_sc_damping_no_effect",
    "Vayesta.Props.qp_kernel",
    "Vayesta.Props.qp_returns",
    "Vayesta.Props.qp_converged",
    "Vayesta.Props.qp_energies",
    "Vayesta.Props.qp_stationary",
    "Vayesta.Props.qp_wrong_projection",
    "Vayesta.Props.qp_folded",
    "Vayesta.Props.qp_init"
   ],
   "note": "Exact arithmetic; eigensolvers, mean-fields, DIIS and Green's functions are parameters. Oddities of the code which are theorems: damping has no effect with a self-consistent field, which is the default (qp_sc_damping_no_effect); a wrong number of projectors raises AttributeError after the first calculation, since NotImplementedError is returned (qp_wrong_projection); an initial potential that breaks symmetry raises NameError (qp_init). drop_non_causal is never passed on. Not modelled: histories, what the object holds after an exception in an update, reset of the embedding."
  },
  {
   "property": "C92",
   "status": "proved",
   "theorems": [
    "Vayesta.Props.icmp2_pairs",
    "Vayesta.Props.icmp2_symmetry",
    "Vayesta.Props.icmp2_mp2",
    "Vayesta.Props.icmp2_no_double_counting",
    "Vayesta.Props.icmp2_zero",
    "Vayesta.Props.icmp2_diagonal",
    "Vayesta.Props.icmp2_terms",
    "Vayesta.Props.icmp2_fragments",
    "Vayesta.Props.icmp2_unrestricted",
    "Vayesta.Props.icmp2_unrestricted_pairs",
    "Vayesta.Props.icmp2_left_out",
    "Vayesta.Props.icmp2_version",
    "Vayesta.Props.icmp2_errors"
   ],
   "note": "Exact arithmetic, one MPI process; the bath spaces chosen by thresholds are given. Symmetry needs three-center integrals that move with the auxiliary functions and negative ones that do not change, and sym_factor 1 for all fragments: with other factors the code multiplies both, and the energy of a single fragment stays zero with any factor by icmp2_zero. What is odd in the code: other versions than 1 and 2 silently give no direct energy (icmp2_version); no pairs, later generations of symmetry children and other operations than translations raise NameError, KeyError and AttributeError (icmp2_errors). Not modelled: negative three-center integrals in the unrestricted function, where the part of eris_ba is subtracted from eris_ab (icmp2.py:383)."
  },
  {
   "property": "C93",
   "status": "proved",
   "theorems": [
    "Vayesta.Props.rdm1_unrestricted_global",
    "Vayesta.Props.global_amplitudes_unrestricted_invariant",
    "Vayesta.Props.rdm1_unrestricted_symmetry",
    "Vayesta.Props.global_amplitudes_unrestricted_exact",
    "Vayesta.Props.rdm1_unrestricted_exact",
    "Vayesta.Props.rdm1_unrestricted_ccsd_exact",
    "Vayesta.Props.cc_rdm1_unrestricted_trace",
    "Vayesta.Props.rdm1_unrestricted_mf",
    "Vayesta.Props.rdm1_unrestricted_electrons",
    "Vayesta.Props.rdm1_unrestricted_ccsd_electrons",
    "Vayesta.Props.rdm1_unrestricted_symmetric",
    "Vayesta.Props.rdm1_unrestricted_closed_shell",
    "Vayesta.Props.rdm1_unrestricted_missing_lambda"
   ],
   "note": "Exact arithmetic, one MPI process. Unlike the restricted fast algorithm (C84) the unrestricted one follows the option t_as_lambda of the fragments; make_rdm1_ccsd ignores that option, and raises TypeError without lambda amplitudes even with it (rdm1_unrestricted_missing_lambda). Not modelled: ba_order='ab', the logged ratio of screened pairs (which is a division by zero without fragments), AO basis."
  },
  {
   "property": "C94",
   "status": "proved",
   "theorems": [
    "Vayesta.Props.cc_rdm1_electrons",
    "Vayesta.Props.cc_rdm2_partial_trace",
    "Vayesta.Props.cc_rdm2_pairs",
    "Vayesta.Props.cc_rdm2_singlet",
    "Vayesta.Props.cc_rdm2_symmetric",
    "Vayesta.Props.cc_rdm_affine",
    "Vayesta.Props.cc_rdm_energy_no_multipliers",
    "Vayesta.Props.cc_two_electrons",
    "Vayesta.Props.cc_rdm2_needs_symmetry"
   ],
   "note": "Exact real arithmetic. Not modelled: blocks over virtual orbitals and HDF5 files, compress_vvvv=True, frozen orbitals, the AO basis, complex numbers. The symmetry of the doubles is needed (cc_rdm2_needs_symmetry)."
  },
  {
   "property": "C95",
   "status": "proved",
   "theorems": [
    "Vayesta.Props.frag_dm1_complete",
    "Vayesta.Props.frag_rdm2_complete",
    "Vayesta.Props.frag_rdm2_complete_exact",
    "Vayesta.Props.frag_rdm2_exact_needs_multipliers",
    "Vayesta.Props.frag_rdm2_mp2",
    "Vayesta.Props.frag_rdm2_routes",
    "Vayesta.Props.frag_rdm2_sum_rule",
    "Vayesta.Props.frag_rdm2_order",
    "Vayesta.Props.frag_rdm2_errors",
    "Vayesta.Props.frag_rdm2_unsupported"
   ],
   "note": "Exact arithmetic, one MPI process, basis of molecular orbitals. The routines of pyscf.cc.ccsd_rdm called for fragments are external and taken to compute the formulas of core/vpyscf/ccsd_rdm.py (C94). What is odd in the code: approx_cumulant=False together with t_as_lambda=True gives a wrong density matrix (frag_rdm2_exact_needs_multipliers; fragment.py:484), and the option sym_dm2 of make_rdm2 is never passed on. Complete clusters are modelled with cluster orbitals equal to the molecular orbitals. Not modelled: symmetry children, missing multipliers."
  },
  {
   "property": "C96",
   "status": "proved",
   "theorems": [
    "Vayesta.Props.urdm1_closed_shell",
    "Vayesta.Props.urdm2_closed_shell",
    "Vayesta.Props.urdm2_closed_shell_antisymmetric",
    "Vayesta.Props.urdm2_closed_shell_partial_trace",
    "Vayesta.Props.urdm2_two_electrons",
    "Vayesta.Props.urdm1_electrons",
    "Vayesta.Props.urdm2_partial_trace",
    "Vayesta.Props.urdm2_pairs",
    "Vayesta.Props.urdm2_antisymmetric",
    "Vayesta.Props.urdm2_opposite_symmetric",
    "Vayesta.Props.urdm2_one_of_each"
   ],
   "note": "Exact real arithmetic. Not modelled: blocks over virtual orbitals and HDF5 files, compress_vvvv=True, frozen orbitals, the AO basis, complex numbers."
  }
 ]
}
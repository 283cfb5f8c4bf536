# Formal model of Vayesta: design

The subject is the Python package in `/repo/vayesta` (BoothGroup/Vayesta). Nothing of it is run: every definition in
`lean/Verif` was written by reading the source and carries a comment with file and line numbers.

## Layout

* `lean/Verif/Model/*.lean`: the model. One file per group of source files. Functions mirror the Python functions branch by
  branch; exceptions are values (`Except`), mutated objects are returned, generators are lists, loops are structural
  recursion or folds.
* `lean/Verif/Spec/*.lean`: specifications used in theorem statements when they are longer than a few lines; they do not
  mention the model's helpers. Short specifications stand directly above the theorem in `Props`.
* `lean/Verif/Lemmas/*.lean`: helper lemmas.
* `lean/Verif/Props/*.lean`: the property theorems with small independent specifications and non-vacuity `example`s.
* `seeded/LOG.jsonl`: mutation tests of the theorems.

## Trusted base

* Lean 4.33.0's kernel and the axioms `propext`, `Classical.choice`, `Quot.sound` (checked with `#print axioms`; no theorem
  depends on anything else). No `sorry`, no own axioms, no `native_decide`, no `bv_decide`.
* The reading of the Python source recorded in the comments of the model.
* Numbers: integers are unbounded (as in Python); floating point numbers are replaced by elements of a field (usually an
  ordered field or the reals). Rounding is *not* modelled.
* NumPy/SciPy/PySCF/MPI calls are replaced by their documented effect: `np.argmax` returns the first maximum, `eigh`
  returns an orthonormal eigenbasis, `brentq` is an arbitrary strategy of function evaluations, MPI collectives deliver what
  was sent, and so on. Each such assumption is a parameter or hypothesis in the statement and is named in the comment.
* Not modelled: solvers (FCI/CCSD/...), integral transformation, logging, timing, file output, EDMET numerics,
  performance, memory.


## Per-property plan and result

### C01 Signed permutations are complete and carry the right parity

*Status:* proved.

*Model and proof:* Literal recursion over lists (`perms`), signs by enumeration index; spec = Mathlib `List.Perm`/`Nodup`/`Equiv.Perm.sign`-style inversion count. Induction on the length.

*Theorems:* `Vayesta.Props.permutations_with_signs_complete`, `Vayesta.Props.permutations_with_signs_length`

### C02 Lower-triangular index enumeration is exact

*Status:* proved.

*Model and proof:* Model the boolean mask over the n^dims index grid in C order and the mask selection; prove membership iff, Nodup, sorted.

*Theorems:* `Vayesta.Props.tril_indices_exact`, `Vayesta.Props.tril_indices_zero_dims`

### C03 Decompressing antisymmetric amplitudes inverts compression

*Status:* proved.

*Model and proof:* Model the scatter loop for one packed axis group of arbitrary rank (and a pair of groups); prove the read-back value for an arbitrary index tuple = sign * packed entry; antisymmetry under any permutation follows.

*Theorems:* `Vayesta.Props.decompress_has_symmetry`, `Vayesta.Props.compress_decompress`, `Vayesta.Props.decompress_compress`

*Note:* Packed axes of one group are modelled as adjacent.

### C04 Block ranges tile the range

*Status:* proved.

*Model and proof:* Model over Int with the generator as a list; induction on the remaining length.

*Theorems:* `Vayesta.Props.brange_tiles`, `Vayesta.Props.brange_default_step_positive`, `Vayesta.Props.brange_empty`, `Vayesta.Props.brange_errors`

### C05 split_into_blocks reassembles to the array

*Status:* proved.

*Model and proof:* Model on a list of rows along the axis with the ceil-division sizes; prove concatenation and slice agreement.

*Theorems:* `Vayesta.Props.split_into_blocks_reassembles`, `Vayesta.Props.split_into_blocks_zero`, `Vayesta.Props.split_into_blocks_memory`, `Vayesta.Props.split_into_blocks_exceeds_memory`

### C06 Decorated einsum subscripts never alias

*Status:* proved.

*Model and proof:* Model the character loop literally (free list, replaced dictionary, output stack); spec tokenises the string into (letter, decorators); invariant over the loop.

*Theorems:* `Vayesta.Props.einsum_replace_faithful`, `Vayesta.Props.einsum_replace_rejects`

### C07 Options.replace changes exactly what was asked, or raises

*Status:* proved.

*Model and proof:* Model options as an association list with scalar/dict values, sequential assignment, exceptions as values with the partially updated object; prove success-iff, value-after and frame theorems, and a witness that a failed replace leaves earlier keywords applied.

*Theorems:* `Vayesta.Props.options_replace_success_iff`, `Vayesta.Props.options_replace_value`, `Vayesta.Props.options_replace_frame`, `Vayesta.Props.options_update_value`, `Vayesta.Props.options_get_after_replace`, `Vayesta.Props.options_replace_not_atomic`

*Note:* A failing replace is not atomic (options_replace_not_atomic).

### C08 Temporarily replaced attributes are always restored

*Status:* proved.

*Model and proof:* Model objects as finite maps, the context manager as setup/body/finally with exceptions as values; prove restoration for arbitrary bodies.

*Theorems:* `Vayesta.Props.replace_attr_restores`, `Vayesta.Props.replace_attr_block`, `Vayesta.Props.replace_attr_pins_class_attribute`

*Note:* Restoring writes the instance dictionary, so a class attribute stays shadowed (replace_attr_pins_class_attribute).

### C09 Memoised functions behave like the function itself

*Status:* proved.

*Model and proof:* Heap model: cache maps keys to object references, results are references into a store; ops = call, mutate, clear. Refinement to the pure function.

*Theorems:* `Vayesta.Props.cache_copy_transparent`, `Vayesta.Props.cache_transparent_without_mutation`, `Vayesta.Props.cache_holds_most_recent`, `Vayesta.Props.cache_without_copy_aliases`

### C10 Packing arrays for MPI round-trips

*Status:* proved.

*Model and proof:* Words model: an array is (dtype code, shape, words); prove round trip by induction; witness that a 16-byte dtype does not round trip and that 0-d/None corner cases are covered.

*Theorems:* `Vayesta.Props.pack_unpack_roundtrip`, `Vayesta.Props.pack_raises_iff`, `Vayesta.Props.pack_unpack_limits`

*Note:* complex128 arrays and maxdim != 8 do not round-trip (pack_unpack_limits).

### C11 Fragment ids are unique and consecutive, MPI ranks are balanced

*Status:* proved.

*Model and proof:* State machine over requests; invariant by induction over histories.

*Theorems:* `Vayesta.Props.register_ids_unique`, `Vayesta.Props.register_ranks_round_robin`, `Vayesta.Props.register_ranks_balanced`, `Vayesta.Props.register_estimate_loses_id`

### C12 get_fragments returns exactly the fragments satisfying all conditions, in order

*Status:* partial.

*Model and proof:* Literal loop model with the `skip` variable. The full statement is false (options are ignored when flags are given): negation witness plus `_partial` theorem for the cases that hold and an exact characterisation of what is returned.

*Theorems:* `Vayesta.Props.get_fragments_filters_partial`, `Vayesta.Props.get_fragments_exact`, `Vayesta.Props.get_fragments_ignores_options`

*Note:* The full claim is false: options conditions are ignored when flags conditions are given (get_fragments_ignores_options). get_fragments_exact states what is returned in every case.

### C13 Symmetry parents and children partition the fragments

*Status:* proved.

*Model and proof:* Model fragments with ids and optional parent id; prove permutation/partition; nested symmetry operations shown to make the call raise.

*Theorems:* `Vayesta.Props.symmetry_children_sublists`, `Vayesta.Props.symmetry_children_partition`, `Vayesta.Props.symmetry_children_raises_iff`

### C14 Nested symmetry contexts create the full product of images

*Status:* proved.

*Model and proof:* State machine for the register and the fragment list; tree traversal by generations; group action abstract (a monoid action).

*Theorems:* `Vayesta.Props.symmetry_contexts_full_product`, `Vayesta.Props.symmetry_contexts_count`, `Vayesta.Props.symmetry_contexts_ids_unique`, `Vayesta.Props.loop_symmetry_children_exactly_once`, `Vayesta.Props.image_unique`

*Note:* Traversal theorems assume at most 1000 nested contexts, the generation limit in the code.

### C15 Symmetry-weighted sums equal full sums

*Status:* proved.

*Model and proof:* Forest model; induction over generations.

*Theorems:* `Vayesta.Props.symmetry_weighted_sum`, `Vayesta.Props.symmetry_factors_sum`

*Note:* At most 1000 nested contexts, the generation limit in the code.

### C16 Secondary fragments cancel exactly

*Status:* partial.

*Model and proof:* List model with options; the plus fragment inherits wf_factor None->1.

*Theorems:* `Vayesta.Props.secondary_pairs_partial`, `Vayesta.Props.secondary_total_partial`, `Vayesta.Props.secondary_cancels_partial`, `Vayesta.Props.secondary_rejects_symmetry_derived`, `Vayesta.Props.secondary_zero_weight`

*Note:* Holds for non-zero weights; for weight 0 the double-counting copy gets weight -1 (secondary_zero_weight).

### C17 CAS fragments hold the requested number of orbitals and electrons

*Status:* partial.

*Model and proof:* Literal model of the search loop including Python negative indexing. The statement is false when ncas is one less than the number of occupied orbitals needed (negation witness); `_partial` theorem under the corrected guard.

*Theorems:* `Vayesta.Props.cas_fragment_partial`, `Vayesta.Props.cas_fragment_succeeds`, `Vayesta.Props.cas_fragment_rejects`, `Vayesta.Props.cas_fragment_gaps`, `Vayesta.Props.cas_fragment_too_small_window`

*Note:* The full claim is false when one more orbital than ncas is needed (cas_fragment_too_small_window).

### C18 Fragment and environment orbitals partition the basis

*Status:* proved.

*Model and proof:* List-index model of fancy indexing and np.setdiff1d-like complement.

*Theorems:* `Vayesta.Props.fragment_environment_partition`, `Vayesta.Props.fragment_errors`

### C19 Cluster orbital bookkeeping partitions all orbitals

*Status:* proved.

*Model and proof:* List-of-columns model.

*Theorems:* `Vayesta.Props.cluster_coefficients`, `Vayesta.Props.cluster_indices`

### C20 DMET bath construction classifies every environment orbital exactly once

*Status:* proved.

*Model and proof:* Mask model over a linearly ordered field.

*Theorems:* `Vayesta.Props.dmetBath_empty`, `Vayesta.Props.dmetBath_nbath`, `Vayesta.Props.dmetBath_partition`, `Vayesta.Props.dmetBath_any_tol`

### C21 DMET cluster of a mean-field state has an integer electron number and few bath orbitals

*Status:* proved.

*Model and proof:* Mathlib matrices over R: block algebra of an idempotent matrix, eigenvector basis of the environment block as an orthogonal matrix (external eigh assumed to return one).

*Theorems:* `Vayesta.Props.dmet_eigenvalue_range`, `Vayesta.Props.dmet_bath_count`, `Vayesta.Props.dmet_coupling`, `Vayesta.Props.dmet_discarded_coupling`, `Vayesta.Props.dmet_exact_environment`, `Vayesta.Props.dmet_cluster_orthonormal`, `Vayesta.Props.dmet_cluster_idempotent`, `Vayesta.Props.dmet_cluster_electron_number`

### C22 Natural-orbital truncation is minimal and exact

*Status:* proved.

*Model and proof:* Literal model over an ordered field with errors as values.

*Theorems:* `Vayesta.Props.truncateBno_append`, `Vayesta.Props.truncateBno_minimal`, `Vayesta.Props.truncateBno_succeeds`, `Vayesta.Props.truncateBno_occupation`, `Vayesta.Props.truncateBno_number`, `Vayesta.Props.bno_invalid`, `Vayesta.Props.bno_criteria`, `Vayesta.Props.truncateBosons_eq`

### C23 Chemical-potential search reports convergence only at a root

*Status:* proved.

*Model and proof:* Root finder as an arbitrary strategy tree that reads function values; exceptions as values.

*Theorems:* `Vayesta.Props.cpt_sound`, `Vayesta.Props.cpt_linear`

### C24 DMET chemical-potential bracketing moves against the electron error

*Status:* partial.

*Model and proof:* Literal model of the try/except/for-else search. The direction claim is false after a caught LinAlgError (the 3/8 step flips sign): negation witness plus `_partial`.

*Theorems:* `Vayesta.Props.dmet_cpt_bracket`, `Vayesta.Props.dmet_cpt_direction_partial`, `Vayesta.Props.dmet_cpt_direction_flips`, `Vayesta.Props.dmet_cpt_direction_false`

*Note:* The bracket part is proved in full. The direction part is false after a caught LinAlgError (dmet_cpt_direction_false); it is proved when none occurs, and the exact behaviour (one flip per caught error) is proved in dmet_cpt_direction_flips.

### C25 Restricted CISD <-> CCSD amplitude conversions are mutually inverse

*Status:* proved.

*Model and proof:* Tensors as functions on index types; field algebra.

*Theorems:* `Vayesta.Props.rccsd_to_cisd_to_ccsd`, `Vayesta.Props.rcisd_to_ccsd_to_cisd`, `Vayesta.Props.rcisd_as_ccsd_iff`, `Vayesta.Props.rccsd_projected_as_cisd`, `Vayesta.Props.rcisd_renormalise`, `Vayesta.Props.rcisd_renormalise_projected`, `Vayesta.Props.rcisd_projected_as_ccsd`, `Vayesta.Props.rcisd_projected_singles`, `Vayesta.Props.rmp2_conversions`, `Vayesta.Props.restricted_unrestricted_agree`

### C26 Unrestricted CISD <-> CCSD amplitude conversions are mutually inverse

*Status:* partial.

*Model and proof:* As C25. The four-block variants are false in the code (wrong c0 power / wrong block): negation witnesses, `_partial` theorems for three-block storage and c0 = 1.

*Theorems:* `Vayesta.Props.uccsd_to_cisd_to_ccsd_partial`, `Vayesta.Props.ucisd_to_ccsd_to_cisd_partial`, `Vayesta.Props.ucisd_as_ccsd_iff`, `Vayesta.Props.ucisd_ccsd_antisymmetric`, `Vayesta.Props.uccsd_four_block_as_cisd_partial`, `Vayesta.Props.uccsd_four_block_as_cisd_false`, `Vayesta.Props.ucisd_four_block_as_ccsd_raises`, `Vayesta.Props.ucisd_four_block_as_ccsd_false`, `Vayesta.Props.ucisd_renormalise`, `Vayesta.Props.ucisd_renormalise_blocks`, `Vayesta.Props.ucisd_projected_as_ccsd`, `Vayesta.Props.restricted_unrestricted_agree`

*Note:* Round trips hold for the usual three-block amplitudes. With four blocks (projected, unsymmetrised) conversion to CISD loses or mixes blocks and conversion to CCSD raises or gives wrong blocks (the _false/_raises theorems).

### C27 Triple and quadruple CI coefficients convert to cluster amplitudes consistently with exp(T)

*Status:* proved.

*Model and proof:* Tensors as functions; spec = signed sum over ways to split the excitation into connected clusters; polynomial identity by `ring`/`linear_combination` using antisymmetry hypotheses.

*Theorems:* `Vayesta.Props.ccsdtq_unrestricted`, `Vayesta.Props.ccsdtq_restricted`, `Vayesta.Props.ccsdtq_unrestricted_every_ci`, `Vayesta.Props.ccsdtq_restricted_every_ci`, `Vayesta.Props.ccsdtq_restricted_unrestricted`

*Note:* Exact arithmetic in any field; a reference coefficient of zero (division by zero in the code) is excluded. The theorems with every_ci show that every antisymmetric, spin-conserving (and closed-shell) CI vector has amplitudes of all ranks, so that the hypotheses of the others lose nothing.

### C28 Projection followed by restoration and summation recovers the amplitudes

*Status:* proved.

*Model and proof:* Matrices/tensors over a field; linearity of finite sums.

*Theorems:* `Vayesta.Props.rccsd_project_restore_sum`, `Vayesta.Props.rcisd_project_restore_sum`, `Vayesta.Props.restore_unprojected`, `Vayesta.Props.u_project_restore_sum`, `Vayesta.Props.u_project_restore_singles`, `Vayesta.Props.u_symmetrize`

### C29 Democratic partitioning of the one-body density matrix

*Status:* proved.

*Model and proof:* Matrices over a field; projector algebra; counterexample for truncated clusters shows that the coverage condition is needed.

*Theorems:* `Vayesta.Props.rwf_has_rdms`, `Vayesta.Props.rdm1_demo_symmetric`, `Vayesta.Props.rdm1_demo_electrons`, `Vayesta.Props.rdm1_demo_fragment_block`, `Vayesta.Props.rdm1_demo_exact`, `Vayesta.Props.rdm1_demo_full`, `Vayesta.Props.rdm1_demo_truncated`, `Vayesta.Props.urdm1_demo_symmetric`, `Vayesta.Props.urdm1_demo_electrons`, `Vayesta.Props.urdm1_demo_exact`

*Note:* rdm1_demo_truncated shows that the coverage condition of the last part is needed.

### C30 DMET energies are energies of the partitioned density matrices

*Status:* partial.

*Model and proof:* Both sides are written in the MO basis as bilinear forms of projected density matrices; sums over projectors on the first index; permutational symmetry of the integrals moves transposes.

*Theorems:* `Vayesta.Props.dmet_energy_of_density_matrices`, `Vayesta.Props.dmet_energy_from_cumulant`, `Vayesta.Props.dmet_energy_exact`, `Vayesta.Props.dmet_energy_missing_cumulant`, `Vayesta.Props.dmet_energy_options`, `Vayesta.Props.fragment_mf_energy_sum`, `Vayesta.Props.dmet_contributions`, `Vayesta.Props.dmet_energy_documented`, `Vayesta.Props.dmet_energy_kinds_differ`, `Vayesta.Props.dmet_energy_auxiliary_partial`

*Note:* Restricted case, fragments without symmetry images. Fails for auxiliary fragments: they are left out of the density matrices but counted in the energy (dmet_energy_auxiliary_partial). With part_cumulant=True and approx_cumulant=False the energy raises NotImplementedError where make_rdm2_demo forms the cumulant itself (dmet_energy_missing_cumulant). The documented formula for the literature energy in terms of the cumulant is the other energy (dmet_energy_documented, dmet_energy_kinds_differ) and both documented literature formulas lack a factor of one half.

### C31 Population analysis conserves electrons and charge

*Status:* proved.

*Model and proof:* Matrix trace identities and sums over fibres.

*Theorems:* `Vayesta.Props.pop_conserves_electrons`, `Vayesta.Props.pop_names`, `Vayesta.Props.pop_mo_basis`, `Vayesta.Props.pop_incomplete_orbitals`, `Vayesta.Props.atomic_charges_sum`, `Vayesta.Props.atomic_charges_spin`, `Vayesta.Props.atomic_charges_spin_unchecked`

*Note:* The local orbitals must resolve the identity (pop_incomplete_orbitals shows that this is needed). For unrestricted populations the number of populations is not checked against the atom assignment (atomic_charges_spin_unchecked). Writing of population files is not modelled.

### C32 Orbital sign convention is a convention

*Status:* proved.

*Model and proof:* List/matrix model over an ordered field with first-maximum argmax.

*Theorems:* `Vayesta.Props.fix_orbital_sign_convention`, `Vayesta.Props.fix_orbital_sign_raises`, `Vayesta.Props.fix_orbital_sign_independent`, `Vayesta.Props.fix_orbital_sign_idempotent`, `Vayesta.Props.fix_orbital_sign_unrestricted`

*Note:* Independence of input signs is proved without the uniqueness assumption of the statement.

### C33 Cluster Hamiltonian reproduces the Fock matrix

*Status:* proved.

*Model and proof:* Function-level model with the screening/match_fock options; matrix identities.

*Theorems:* `Vayesta.Props.cluster_fock_consistent`, `Vayesta.Props.cluster_fock_matched`, `Vayesta.Props.cluster_heff_unmatched`, `Vayesta.Props.cluster_screening_missing`, `Vayesta.Props.cluster_mf_consistent`, `Vayesta.Props.cluster_mf_force_bare`, `Vayesta.Props.cluster_mf_overwrite`, `Vayesta.Props.cluster_integrals_bare`, `Vayesta.Props.cluster_mf_mismatch`, `Vayesta.Props.dummy_eris_one_body`, `Vayesta.Props.padding_fock`, `Vayesta.Props.padding_entries`

*Note:* Real integrals with (pq|rs)=(rs|pq), exact arithmetic; the density-fitted branch of to_pyscf_mf is not modelled. Options outside the claim, with exact conditions: force_bare_eris, an overwritten Fock matrix, and bare integrals passed to get_integrals mix bare and screened interactions (cluster_mf_force_bare, cluster_mf_overwrite, cluster_integrals_bare; witness cluster_mf_mismatch).

### C34 RMA dictionary: every rank reads what some rank wrote

*Status:* proved.

*Model and proof:* Multi-rank state machine with the collective synchronise step; refinement to a single global map.

*Theorems:* `Vayesta.Props.rma_refines_shared`, `Vayesta.Props.rma_processes_agree`, `Vayesta.Props.rma_read_after_write`, `Vayesta.Props.rma_phase_errors`, `Vayesta.Props.rma_conflict_iff`, `Vayesta.Props.rma_conflict_persists`, `Vayesta.Props.rma_serial`, `Vayesta.Props.rma_delete_is_local`, `Vayesta.Props.rma_clear_none`

*Note:* Write/read/phase-end events proved by refinement to one shared dictionary for any number of processes and any schedule. Observed limits, proved as such: after a rejected phase the unpublished values stay and every later phase is rejected; deletion only affects the calling process; clear() fails when a None value is stored.

### C35 Distributed fragment sums equal the serial sum

*Status:* partial.

*Model and proof:* Finite sums in a commutative monoid over the round-robin assignment (exact arithmetic; floating point reordering not modelled).

*Theorems:* `Vayesta.Props.fragments_on_one_rank`, `Vayesta.Props.fragments_independent_of_size`, `Vayesta.Props.distributed_sum`, `Vayesta.Props.mpi_wf_energy`, `Vayesta.Props.mpi_cumulant_energy_partial`, `Vayesta.Props.mpi_global_cumulant_energy_multiplied`, `Vayesta.Props.mpi_rdm1_demo`, `Vayesta.Props.mpi_rdm1_demo_target`, `Vayesta.Props.mpi_rdm1_proj_lambda`, `Vayesta.Props.mpi_rdm1_global_mp2_raises`

*Note:* Proved for the fragment sums of the projected energy, the projected-lambda cumulant energy and the density matrices. The claim is false for get_dm_corr_energy_e2(dm2='global-wf'): every process already has the full value and the all-reduce multiplies it by the number of processes (ewf.py:397-416). Processes other than mpi_target raise TypeError in make_rdm1_demo (core/qemb/rdm.py:42-48); the MP2 global density matrix raises on more than one process (ewf/rdm.py:437).

### C36 Hubbard lattices: symmetric hopping, correct coordination and boundary conditions

*Status:* partial.

*Model and proof:* Integer-indexed matrix models; statements about entries.

*Theorems:* `Vayesta.Props.hubbard1D_succeeds_iff`, `Vayesta.Props.hubbard1D_errors`, `Vayesta.Props.hubbard1D_symmetric`, `Vayesta.Props.hubbard1D_hopping_partial`, `Vayesta.Props.hubbard1D_two_sites`, `Vayesta.Props.hubbard1D_one_site`, `Vayesta.Props.hubbard1D_auto_closed_shell`, `Vayesta.Props.hubbard1D_other_boundary_open`, `Vayesta.Props.hubbard2D_ok_iff`, `Vayesta.Props.hubbard2D_hopping`, `Vayesta.Props.hubbard2D_symmetric`, `Vayesta.Props.hubbard2D_errors`, `Vayesta.Props.hubbard2D_auto_closed_shell_partial`, `Vayesta.Props.hubbard2D_auto_open_shell`

*Note:* Symmetry holds in full. Hopping of chains with one or two sites is not the sum over bonds (hubbard1D_two_sites, hubbard1D_one_site). The automatic two-dimensional boundary is not a closed shell for e.g. 8 x 4 sites (hubbard2D_auto_open_shell gives the exact exception).

### C37 Lattice tiling order is a permutation that keeps tiles contiguous

*Status:* proved.

*Model and proof:* divmod arithmetic; bijection.

*Theorems:* `Vayesta.Props.tiles_order_succeeds_iff`, `Vayesta.Props.tiles_order_permutation`, `Vayesta.Props.tiles_order_contiguous`, `Vayesta.Props.tiles_order_value`

*Note:* Tiles are with respect to the coordinates reported by atom_coords; see C51 for their relation to the hopping.

### C38 Lattice mean-field integrals agree with the two-electron tensor

*Status:* partial.

*Model and proof:* Finite sums with Kronecker deltas.

*Theorems:* `Vayesta.Props.lattice_jk`, `Vayesta.Props.eri_nearest_neighbour`, `Vayesta.Props.eri_one_site`, `Vayesta.Props.lattice_ao2mo`, `Vayesta.Props.lattice_df_partial`, `Vayesta.Props.lattice_df_errors`, `Vayesta.Props.lattice_df_attractive`

*Note:* Everything but density fitting holds for all U; density-fitting factors need a square root of U, so U >= 0 (lattice_df_attractive).

### C39 DMET parameter flattening round-trips

*Status:* proved.

*Model and proof:* Inductive tree type; round trip by induction.

*Theorems:* `Vayesta.Props.unflatten_rebuilds`, `Vayesta.Props.unflatten_flatten`, `Vayesta.Props.unflatten_wrong_length`, `Vayesta.Props.flatten_unsupported`, `Vayesta.Props.mix_history`, `Vayesta.Props.mix_fixed_point`, `Vayesta.Props.mix_one`, `Vayesta.Props.mix_change_zero_iff`, `Vayesta.Props.mix_structure_fixed`

*Note:* Arrays without axes and empty lists are outside the claim and raise (flatten_unsupported). The structure is fixed by the first call (mix_structure_fixed).

### C40 Solver selection is total, deterministic and never returns an unusable class

*Status:* partial.

*Model and proof:* Decision-logic model with exceptions as values.

*Theorems:* `Vayesta.Props.solver_lookup_usable`, `Vayesta.Props.solver_lookup_decision`, `Vayesta.Props.solver_ansatz`, `Vayesta.Props.check_solver_partial`, `Vayesta.Props.check_solver_one_orbital`, `Vayesta.Props.check_solver_bosonic_bath`, `Vayesta.Props.solver_boson_fallthrough`

*Note:* Lookup is characterised completely. The up-front check disagrees with construction for one basis function, for bosonic baths and for unknown names containing CC (check_solver_*), and solvers missing for bosons fall through to ebcc (solver_boson_fallthrough).

### C41 Cumulant split and reassembly of two-body density matrices is exact

*Status:* partial.

*Model and proof:* Tensor algebra with occupied-index indicator; symmetric density needed in one unrestricted branch (negation witness otherwise).

*Theorems:* `Vayesta.Props.rdm1_mean_field`, `Vayesta.Props.rdm2_exact_cumulant`, `Vayesta.Props.rdm2_approximate_cumulant`, `Vayesta.Props.rdm2_cumulants_differ`, `Vayesta.Props.rdm2_other_cumulants`, `Vayesta.Props.rdm2_cumulant_ao`, `Vayesta.Props.urdm1_mean_field`, `Vayesta.Props.urdm2_exact_cumulant`, `Vayesta.Props.ufci_approximate_cumulant`, `Vayesta.Props.urdm_approximate_cumulant_partial`, `Vayesta.Props.urdm_approximate_cumulant_transposed`, `Vayesta.Props.urdm_approximate_cumulant_false`, `Vayesta.Props.urdm2_cumulants_differ`, `Vayesta.Props.urdm2_other_cumulants`, `Vayesta.Props.urdm2_exact_cumulant_ao`, `Vayesta.Props.urdm_dm2ba_three_blocks`

*Note:* Proved for restricted wave functions and unrestricted FCI. URDM_WaveFunction uses the transposed density matrix in one exchange term (rdm.py:167): its approximate cumulant is right only for symmetric density matrices (urdm_approximate_cumulant_partial, urdm_approximate_cumulant_false). With three stored blocks dm2ba returns the transposed bb block (urdm_dm2ba_three_blocks).

### C42 MP2 density matrices conserve electrons and reproduce the MP2 energy

*Status:* proved.

*Model and proof:* Density matrices as functions of the amplitudes; finite sums over occupied and virtual indices; the energy by splitting off the mean-field part and summing the orbital energies over the correlation part.

*Theorems:* `Vayesta.Props.mp2_rdm1_symmetric`, `Vayesta.Props.mp2_rdm1_trace`, `Vayesta.Props.mp2_rdm1_trace_ao`, `Vayesta.Props.mp2_trace_needs_symmetry`, `Vayesta.Props.mp2_rdm2`, `Vayesta.Props.mp2_cumulant_blocks`, `Vayesta.Props.mp2_energy_of_density_matrices`, `Vayesta.Props.mp2_pair_count`

*Note:* Exchange symmetry is needed for the trace (mp2_trace_needs_symmetry). The number of electron pairs is not conserved by the two-body density matrix (mp2_pair_count gives the exact count). Full amplitudes only, not projected ones.

### C43 Correlation functions are the expectation values of the site operators

*Status:* proved.

*Model and proof:* Tensor algebra with Model/Rdm; expectation values written out in Spec/CorrFunc.

*Theorems:* `Vayesta.Props.charge_correlation`, `Vayesta.Props.charge_correlation_mf`, `Vayesta.Props.spin_correlation_singlet`, `Vayesta.Props.spin_correlation_unrestricted`, `Vayesta.Props.spin_correlation_mf`, `Vayesta.Props.spin_correlation_mf_restricted`, `Vayesta.Props.corrfunc_kinds`, `Vayesta.Props.corrfunc_full`, `Vayesta.Props.corrfunc_cumulant`, `Vayesta.Props.corrfunc_fragments`, `Vayesta.Props.corrfunc_detects_full`, `Vayesta.Props.corrfunc_detects_cumulant`, `Vayesta.Props.corrfunc_automatic`, `Vayesta.Props.corrfunc_charge_sum`, `Vayesta.Props.corrfunc_spin_sum`, `Vayesta.Props.corrfunc_mf`, `Vayesta.Props.ucorrfunc_full`, `Vayesta.Props.ucorrfunc_cumulant`, `Vayesta.Props.ucorrfunc_fragments`, `Vayesta.Props.ucorrfunc_automatic`

*Note:* Symmetric projectors (those of orthonormal fragments are). The recognition of a full two-body density matrix is by its trace and fails for fewer than two electrons (example in Props/CorrFunc). How the embedding builds projectors for atoms (get_atomic_...) is not modelled.

### C44 Symmetry operations act on orbitals as the spatial operations they stand for

*Status:* proved.

*Model and proof:* Model of the reordering loops with exact coordinates and squared distances; triangle inequality for the uniqueness of partners; orbital reordering by shells. The angular matrices of rotations (pyscf Dmatrix) are parameters.

*Theorems:* `Vayesta.Props.atom_reorder_sound`, `Vayesta.Props.atom_reorder_decision`, `Vayesta.Props.operation_decision`, `Vayesta.Props.operation_moves_orbitals`, `Vayesta.Props.operations_compose`, `Vayesta.Props.operation_power`, `Vayesta.Props.inversion_twice`, `Vayesta.Props.reflection_twice`, `Vayesta.Props.translation_sound`, `Vayesta.Props.translation_decision`, `Vayesta.Props.translations_compose`, `Vayesta.Props.translation_power`, `Vayesta.Props.translation_opposite`, `Vayesta.Props.operation_points`, `Vayesta.Props.translation_shifts`

*Note:* Exact arithmetic; atoms further apart than a multiple of the tolerance (stated in each theorem); check_basis on. A molecule with an atom without orbitals makes the constructors raise IndexError (operation_decision). Cartesian functions and the angular matrices of rotations (scipy, pyscf) are not modelled: their composition is a hypothesis.

### C45 Fragmentation orbitals form a complete orthonormal basis

*Status:* proved.

*Model and proof:* Matrix algebra over any ordered field, for any correct eigenvalue solver and square root; examples over the reals with the spectral theorem. A dropped eigenvalue is shown to give non-orthonormal orbitals without an exception.

*Theorems:* `Vayesta.Props.symmetric_orth_orthonormal`, `Vayesta.Props.symmetric_orth_dropped`, `Vayesta.Props.sao_orthonormal`, `Vayesta.Props.iao_virtuals_complete`, `Vayesta.Props.iao_complete`, `Vayesta.Props.pao_complete`, `Vayesta.Props.label_order_permutation`, `Vayesta.Props.iaopao_complete`

*Note:* Exact arithmetic; the eigenvalue solver, the square root and pyscf's iao() are parameters with their specifications as hypotheses. If an eigenvalue lies below the threshold the orbitals are returned although not orthonormal (symmetric_orth_dropped). Unrestricted orbitals are the same functions applied per spin.

### C46 A symmetry context left by an exception does not disturb the contexts around it

*Status:* partial.

*Model and proof:* Script trees with raising blocks. The claim is false (no try/finally around yield): negation witness, an exact count of the lists left behind, and a `_partial` refinement to C14 for scripts without exceptions.

*Theorems:* `Vayesta.Props.symmetry_exception_free_partial`, `Vayesta.Props.symmetry_register_leak`, `Vayesta.Props.exec_refines`, `Vayesta.Props.symmetry_exception_breaks_outer`

*Note:* The full claim is false: an exception in a body leaves a stale list that the enclosing context pops (symmetry_exception_breaks_outer).

### C48 Rotating a wave function's orbitals does not change the wave function

*Status:* partial.

*Model and proof:* Tensor contractions with finite sums over an arbitrary commutative ring. The unrestricted claim is false when spin channels have different rotations (a lambda captures the loop variable): negation witness plus `_partial`.

*Theorems:* `Vayesta.Props.rwf_rotate_ov_invariant`, `Vayesta.Props.rwf_rotate_ov_comp`, `Vayesta.Props.rwf_rotate_back`, `Vayesta.Props.rotate_commutes_with_cisd`, `Vayesta.Props.rwf_rotate_iff`, `Vayesta.Props.uwf_rotate_ov_invariant_partial`, `Vayesta.Props.uwf_rotate_ov_raises`, `Vayesta.Props.uwf_rotate_ov_false`

*Note:* Restricted case in full. Unrestricted: the rotation functions capture the loop variable late, so only equal spin rotations are right (uwf_rotate_ov_false).

### C49 Scaling a wave function scales every amplitude by the factor exactly once

*Status:* partial.

*Model and proof:* Heap model of arrays with references. False when the Lagrange multipliers alias the amplitudes (CCSD without lambda equations): negation witness, exact exponent, and `_partial` for unshared storage.

*Theorems:* `Vayesta.Props.rccsd_multiply_get`, `Vayesta.Props.rccsd_multiply_partial`, `Vayesta.Props.solver_factor_with_lambda`, `Vayesta.Props.rccsd_multiply_shared`, `Vayesta.Props.secondary_factor_lost`, `Vayesta.Props.rccsd_copy`, `Vayesta.Props.uccsd_multiply`

*Note:* False when l1/l2 are the same arrays as t1/t2, as the CCSD solver produces without lambda equations (rccsd_multiply_shared, secondary_factor_lost).

### C50 Assembling global amplitudes from fragments is exact when the clusters are exact

*Status:* partial.

*Model and proof:* Tensor sums over fragments. True for CCSD and MP2 solvers; for solvers that store CI amplitudes the disconnected part is subtracted per fragment and products of singles of different fragments remain: exact formula and negation witness.

*Theorems:* `Vayesta.Props.global_amplitudes_ccsd_partial`, `Vayesta.Props.global_amplitudes_t_as_lambda`, `Vayesta.Props.global_amplitudes_mp2_partial`, `Vayesta.Props.global_amplitudes_cisd`, `Vayesta.Props.global_t2_cisd_false`

*Note:* False for projected CI wave functions (FCI solver); global_amplitudes_cisd gives the exact value in all cases.

### C51 Reported site coordinates agree with the hopping of a two-dimensional lattice

*Status:* partial.

*Model and proof:* Site-number arithmetic. False unless the lattice is square (hopping numbers sites row-major in the first size, coordinates and tiles in the second): negation witnesses and `_partial` for square lattices.

*Theorems:* `Vayesta.Props.hubbard2D_coords_partial`, `Vayesta.Props.hubbard2D_coords_false`, `Vayesta.Props.hubbard2D_tiles_false`, `Vayesta.Props.hubbard2D_boundary_false`

*Note:* False for non-square lattices and for different boundary conditions in the two directions.

### C52 Mixing density matrices between DMET iterations keeps the electron number

*Status:* partial.

*Model and proof:* Same model as C39 with the trace as specification. False in the first iteration, which is mixed with zeros: negation witness and a `_partial` theorem giving the exact number for every call.

*Theorems:* `Vayesta.Props.mix_electrons_partial`, `Vayesta.Props.mix_first_call_loses_electrons`

*Note:* False for the first call, which mixes with zeros and so returns alpha times the electrons (mix_first_call_loses_electrons).

### C53 A DMET calculation reported as converged is self-consistent

*Status:* partial.

*Model and proof:* Loop as a recursive function over arbitrary component functions; induction over iterations. False when an unconverged calculation is run again: general negation theorem, witness, and `_partial`.

*Theorems:* `Vayesta.Props.dmet_kernel_rejects`, `Vayesta.Props.dmet_converged_partial`, `Vayesta.Props.dmet_iterations`, `Vayesta.Props.dmet_gives_up`, `Vayesta.Props.dmet_oneshot`, `Vayesta.Props.dmet_no_bracket`, `Vayesta.Props.dmet_restart_reports_convergence`, `Vayesta.Props.dmet_false_convergence`

*Note:* A second run of an unconverged calculation repeats the last iteration on the unchanged mean field and reports convergence (dmet_restart_reports_convergence); an early failure after an earlier run leaves that run's energy (dmet_no_bracket).

### C55 Fragment results computed on one process reach the destination process

*Status:* partial.

*Model and proof:* Processes with FIFO message queues per source and tag; invariant over arbitrary schedules.

*Theorems:* `Vayesta.Props.with_send_values_partial`, `Vayesta.Props.with_send_progress`, `Vayesta.Props.with_send_drained`, `Vayesta.Props.own_loop_leaves_messages`, `Vayesta.Props.with_send_stale`

*Note:* Proved if all processes make the same calls. get_dmet_elec_energy (qemb.py:1289) calls the wrapped function only on the fragment's process: the messages are never received, and the next call by all processes returns the stale value on the destination (with_send_stale).

### C56 Symmetry trees list every symmetry-related fragment exactly once

*Status:* proved.

*Model and proof:* Breadth-first and depth-first listings compared with an inductive descendant relation.

*Theorems:* `Vayesta.Props.symmetry_children_descendants`, `Vayesta.Props.loop_symmetry_children_images`, `Vayesta.Props.symmetry_factor_sum`, `Vayesta.Props.symmetry_parent_root`, `Vayesta.Props.symmetry_factor_counts_inactive`

*Note:* Deeper than 1000 generations the code stops; the theorems state this bound. A symmetry child that was made inactive is still counted by the factor of its parent (symmetry_factor_counts_inactive).

### C57 Democratic partitioning of the two-body density matrix

*Status:* proved.

*Model and proof:* Tensors over a field; the fragment contributions are computed for general clusters, then summed.

*Theorems:* `Vayesta.Props.rdm2_demo_exact`

*Note:* Restricted. The argument with_mf of make_rdm2_demo is not used by the code.

### C58 Unrestricted cluster Hamiltonian reproduces the Fock matrix

*Status:* partial.

*Model and proof:* Same method as for restricted clusters; the violated parts by witness.

*Theorems:* `Vayesta.Props.uhf_cluster_fock_consistent`, `Vayesta.Props.uhf_cluster_fock_partial`, `Vayesta.Props.uhf_cluster_fock_screened`, `Vayesta.Props.uhf_match_fock_ignored`, `Vayesta.Props.ucompress_beta`, `Vayesta.Props.ucompress_wrong`

*Note:* Consistency holds. False in the code: with screening the Fock matrix is shifted although match_fock is on (uhf_match_fock_ignored; exact shift in uhf_cluster_fock_screened), and compression of unrestricted density-fitting integrals replaces the beta array by the alpha one (ucompress_beta, ucompress_wrong; hamiltonian.py:740).

### C59 Integral cache of a cluster is transparent

*Status:* proved.

*Model and proof:* Cache as a state machine with an invariant, induction over the history; slices of transformed arrays as transformations with slices.

*Theorems:* `Vayesta.Props.eris_cache_transparent`, `Vayesta.Props.ueris_block`

*Note:* Real integrals. Blocks pairing an alpha with a beta orbital in one charge distribution are outside the claim.

### C61 Correlation functions called without projectors refer to the whole system

*Status:* partial.

*Model and proof:* Same model as C43.

*Theorems:* `Vayesta.Props.charge_correlation_defaults`, `Vayesta.Props.charge_correlation_mf_default_partial`, `Vayesta.Props.charge_correlation_mf_default_needs`, `Vayesta.Props.spin_correlation_unrestricted_default`

*Note:* True for chargecharge. False in the code: spinspin_z_unrestricted without projectors raises NameError (spin_correlation_unrestricted_default), and chargecharge_mf without projectors returns tr(D)^2, which is the correlation only for determinants (charge_correlation_mf_default_partial with its condition, charge_correlation_mf_default_needs shows it fails otherwise).

### C62 The inverse of a translation undoes it

*Status:* partial.

*Model and proof:* Constructor with an explicit first argument (group or molecule); inverse() passes the molecule and raises, construction with the opposite vector is proved to undo.

*Theorems:* `Vayesta.Props.translation_inverse_raises`, `Vayesta.Props.translation_inverse_partial`

*Note:* False in the code: inverse() passes the molecule where the group is expected and raises AttributeError (operation.py:290). Proved instead: the translation constructed with the opposite vector exists and undoes the translation.

### C63 Computing a translation leaves the boundary conditions alone

*Status:* partial.

*Model and proof:* Boundary objects with in-place conversion; induction over the number of calls.

*Theorems:* `Vayesta.Props.reorder_signs_first`, `Vayesta.Props.reorder_signs_partial`, `Vayesta.Props.reorder_signs_list_changed`, `Vayesta.Props.reorder_signs_agree`

*Note:* True for one name, two names, or no boundary conditions. False in the code for a list of three names: it is overwritten with numbers in place, and the next call with it raises AttributeError (reorder_signs_list_changed; tsymmetry.py:157-163).

### C64 Fragments related by symmetry do not overlap

*Status:* partial.

*Model and proof:* Loops with their checks; group law of the operations for overlaps between images of one fragment; witness for overlaps between images of different fragments.

*Theorems:* `Vayesta.Props.symmetric_images_decision`, `Vayesta.Props.symlist_exact`, `Vayesta.Props.symmetric_images_partial`, `Vayesta.Props.rotation_images_group`, `Vayesta.Props.symmetric_images_overlap`

*Note:* Proved for a fragment and its own images. Overlaps between images of different fragments are not checked: two fragments exchanged by an inversion are accepted and duplicated (symmetric_images_overlap).

### C65 Meshes of translation vectors fit the lattice

*Status:* partial.

*Model and proof:* Exact arithmetic with rounding to nearest even; product loops as lists.

*Theorems:* `Vayesta.Props.mesh_from_counts`, `Vayesta.Props.mesh_from_vectors_partial`, `Vayesta.Props.mesh_never_rejected`, `Vayesta.Props.mesh_wrong`, `Vayesta.Props.loop_tvecs_all`

*Note:* Three numbers and the loop: proved. Three vectors: true only for lengths that are whole numbers of Bohr, since the length is rounded before dividing (tsymmetry.py:31); vectors that do not fit are never rejected, since the check follows the rounding (mesh_never_rejected, mesh_wrong).

### C66 Translationally equivalent atoms get the lowest index

*Status:* proved.

*Model and proof:* Loop with an arbitrary set order; minimality by induction over the atoms.

*Theorems:* `Vayesta.Props.tsymmetric_atoms_lowest`, `Vayesta.Props.tsymmetric_atoms_needs_transitive`

*Note:* Coordinates are internal ones. Without transitivity of equivalence within the tolerance the lowest index need not be found (tsymmetric_atoms_needs_transitive). For a cell without atoms the code returns [0].

### C54 The active space of a coupled-cluster solver contains exactly the requested orbitals

*Status:* partial.

*Model and proof:* Lists of columns with an eigenvalue solver as parameter; projector algebra. The claim is false for an empty set of active orbitals on one side (negation proved), so the theorem is `_partial`.

*Theorems:* `Vayesta.Props.gen_space_partial`, `Vayesta.Props.actspace_decision`, `Vayesta.Props.gen_space_empty_active`, `Vayesta.Props.gen_space_default`

*Note:* Proved for at least one active orbital on each side. False in the code for none on one side: the slice [-0:] marks all orbitals of this side active, also frozen ones (gen_space_empty_active; ebcc.py:425). Exact arithmetic: singular values are compared exactly. That frozen indices are within range is a hypothesis; negative indices are not modelled.

### C47 Every bath type splits the environment, and cluster orbitals form an orthonormal basis

*Status:* partial.

*Model and proof:* Lists of columns; eigenvalue solver, singular value decomposition and square root are parameters with their specifications as hypotheses, shown to be met over the reals. Induction over the recursion of the block decomposition.

*Theorems:* `Vayesta.Props.bath_option_precedence`, `Vayesta.Props.bath_option_set`, `Vayesta.Props.addbuffer_vir_broken`, `Vayesta.Props.bath_partition_partial`, `Vayesta.Props.cluster_orbitals_partial`, `Vayesta.Props.cluster_contains_dmet`, `Vayesta.Props.cluster_occupations`, `Vayesta.Props.cluster_check_passes`, `Vayesta.Props.cluster_without_virtuals`, `Vayesta.Props.ewdmet_orders`, `Vayesta.Props.ewdmet_bath`, `Vayesta.Props.ewdmet_succeeds`, `Vayesta.Props.block_svd_orthogonal`, `Vayesta.Props.r2_bath_cutoff_partial`, `Vayesta.Props.r2_unit_ignored`, `Vayesta.Props.r2_bath_one_atom`, `Vayesta.Props.bno_natural_orbitals`, `Vayesta.Props.bath_dmet_full`, `Vayesta.Props.bath_type_refused`, `Vayesta.Props.missing_number_duplicates`, `Vayesta.Props.svd_exists`, `Vayesta.Props.realSvd_solves`, `Vayesta.Props.sortedEigh_ascending`, `Vayesta.Props.sortedEigh_solves`

*Note:* False in the code: truncation='number' without a threshold returns all orbitals as bath and as frozen orbitals (missing_number_duplicates; excluded in bath_partition_partial); the unit of the distance cutoff is read but not used, so it is always Ångström (r2_unit_ignored; r2_bath_cutoff_partial is for Ångström); systems without virtual orbitals raise IndexError (cluster_without_virtuals); the buffer option of virtual orbitals cannot be set since its key is misspelt (addbuffer_vir_broken). Restricted orbitals, exact arithmetic; the correlated density matrices of MP2 and RPA baths are arbitrary symmetric matrices here.

### C60 The polaritonic shift changes variables, not the Hamiltonian

*Status:* proved.

*Model and proof:* The object as a state with its properties; Hamiltonians as elements of an arbitrary algebra; identity proved by expanding the displaced products.

*Theorems:* `Vayesta.Props.polaritonic_unrestricted`, `Vayesta.Props.polaritonic_off`, `Vayesta.Props.polaritonic_traceless`, `Vayesta.Props.polaritonic_optimal`, `Vayesta.Props.eb_density_matrix`

*Note:* Exact arithmetic. No commutation relations are needed: the identity holds in every algebra. The constant (sum of squared shifts times frequencies) is not added to the energy by the code. Zero frequencies and clusters without electrons (infinities in NumPy) are excluded where they matter.

### C69 Restricted electron-boson Hamiltonians do not ignore spin-dependent couplings

*Status:* partial.

*Model and proof:* Same model. The claim is false without the shift (negation proved), so the theorem is `_partial`.

*Theorems:* `Vayesta.Props.polaritonic_restricted_partial`, `Vayesta.Props.restricted_couplings_refused`, `Vayesta.Props.restricted_couplings_ignored`, `Vayesta.Props.restricted_heff_alpha`, `Vayesta.Props.eb_density_matrix_restricted`

*Note:* False in the code: without the shift the couplings of alpha electrons are used for both spins without any check (restricted_couplings_ignored), and the effective one-body part only logs a difference (restricted_heff_alpha). With the shift, RuntimeError is raised exactly for couplings that differ by more than the tolerances (restricted_couplings_refused); for equal couplings the Hamiltonian is right. The restricted electron-boson density matrix is right exactly if both spins have the same density matrix (eb_density_matrix_restricted).

### C70 Bosonic attributes of a cluster Hamiltonian can be read in any order

*Status:* partial.

*Model and proof:* State machine over accesses, invariant by induction. The claim is false if the couplings are read first (exact condition proved), so the theorem is `_partial`.

*Theorems:* `Vayesta.Props.bosons_any_order_partial`, `Vayesta.Props.couplings_access_order`

*Note:* False in the code: with the polaritonic shift and generated bosons, reading the couplings first raises AttributeError since the shift is read before it is made (couplings_access_order gives the exact condition). All other accesses always succeed with the same values (bosons_any_order_partial).

### C67 Tailoring adds exactly the projected differences to the other fragments

*Status:* proved.

*Model and proof:* Einsums as finite sums, shown equal to Kronecker products; specification through projectors in atomic orbitals; induction over the fragments.

*Theorems:* `Vayesta.Props.tailor_restricted`, `Vayesta.Props.tailor_unrestricted`, `Vayesta.Props.tailor_succeeds`, `Vayesta.Props.tailor_order`, `Vayesta.Props.tailor_orbital_choice`, `Vayesta.Props.tailor_fixed`, `Vayesta.Props.tailor_exchange_symmetry`, `Vayesta.Props.tailor_full_t1`, `Vayesta.Props.tailor_full_t2`, `Vayesta.Props.tailor_flags_broken`, `Vayesta.Props.callback_decision`

*Note:* Exact arithmetic. The docstring of the option `project` lists levels 1, 2, 3, which are not what the code does: 3 raises ValueError. The arguments tailor_t1=False and tailor_t2=False, which no caller passes, always raise (tailor_flags_broken).

### C71 External corrections are the sum of the corrections of all fragments

*Status:* partial.

*Model and proof:* The loop over corrections with the residuals as parameters. The claim is false for lists with both types (negation proved), so the theorem is `_partial`.

*Theorems:* `Vayesta.Props.external_corrections_partial`, `Vayesta.Props.external_mixed_types_broken`, `Vayesta.Props.external_last_type_decides`, `Vayesta.Props.external_unsupported`

*Note:* False in the code for lists with both types: the type of the last correction decides for all (external_last_type_decides, external_mixed_types_broken; coupling.py:662-668). The residuals and the contraction of triples with the cluster integrals are parameters. Restricted.

### C68 Integrals of a folded k-point mean-field are those of the supercell

*Status:* proved.

*Model and proof:* Phases as complex exponentials, unitarity through sums of roots of unity, einsums as finite sums; specification through lattice sums.

*Theorems:* `Vayesta.Props.fold_mesh_found`, `Vayesta.Props.fold_phase_unitary`, `Vayesta.Props.folded_integrals_gamma`, `Vayesta.Props.fold_lattice_sum`, `Vayesta.Props.fold_translation_invariant`, `Vayesta.Props.fold_unfold`, `Vayesta.Props.unfold_fold`, `Vayesta.Props.fold_mul`, `Vayesta.Props.fold_one`, `Vayesta.Props.fold_conj`, `Vayesta.Props.fold_trace`, `Vayesta.Props.fold_expectation`, `Vayesta.Props.fold_energy_expectation`, `Vayesta.Props.fold_energy_roundtrip`, `Vayesta.Props.fold_real_iff`, `Vayesta.Props.fold_real_decision`, `Vayesta.Props.fold_shifted_mesh`

*Note:* Exact arithmetic over the complex numbers. The gamma point is needed: shifted meshes are accepted silently, although the supercell is then not at its gamma point and the folded integrals are not translationally invariant (fold_shifted_mesh). The k-point integrals themselves are PySCF's.

### C72 Folded orbitals are real canonical orbitals with the density of the k-point calculation

*Status:* proved.

*Model and proof:* The eigensolver as a parameter with its specification (existence proved); matching of eigenvalues by characteristic polynomials, then a unitary rotation commuting with the energies.

*Theorems:* `Vayesta.Props.fold_mos_correct`, `Vayesta.Props.fold_mos_canonical`, `Vayesta.Props.fold_mos_density`, `Vayesta.Props.make_mo_real`, `Vayesta.Props.make_mo_real_degenerate`, `Vayesta.Props.genEigh_exists`

*Note:* Exact arithmetic; orbitals are assumed to be either real or to have an imaginary part above the tolerance. fold_mos_correct is for as many orbitals as basis functions at every k-point; make_mo_real also covers fewer. The condition on occupations is necessary (make_mo_real_degenerate). sort=False, which no caller uses, is not modelled.

### C73 RPA frequencies, amplitudes and moments solve the RPA equations

*Status:* proved.

*Model and proof:* Real matrices, eigensolver and matrix root as parameters with their specification (existence proved); a biorthogonal pair diagonalising A-B and A+B; uniqueness of positive definite roots.

*Theorems:* `Vayesta.Props.rpa_solution`, `Vayesta.Props.rpa_orbitals`, `Vayesta.Props.rpa_stable`, `Vayesta.Props.rpa_succeeds`, `Vayesta.Props.rpa_moments`, `Vayesta.Props.rpa_moment_relations`, `Vayesta.Props.rpa_rotation`, `Vayesta.Props.rpa_xc_solution`, `Vayesta.Props.rpa_exchange_solution`, `Vayesta.Props.response_moment_unique`, `Vayesta.Props.xc_arrays`, `Vayesta.Props.xc_coulomb`, `Vayesta.Props.xc_symmetric`, `Vayesta.Props.rpa_unrestricted_same`, `Vayesta.Props.rpa_interaction_symmetric`, `Vayesta.Props.xc_succeeds`, `Vayesta.Props.anyEigh_diagonalises`, `Vayesta.Props.takesRoots_cfc`

*Note:* Exact real arithmetic. Eigensolver and matrix square root are parameters with their specification. For the class with exchange, A-B is assumed to be positive definite. Empty rotations (UnboundLocalError in the restricted class) and `_eri` tuples in the unrestricted class (NameError) are not modelled.

### C74 RPA correlation energies agree with each other and with the adiabatic connection

*Status:* proved.

*Model and proof:* The sum of frequencies is a minimum over biorthogonal pairs, so the integrand is a supergradient of it and the integral follows without derivatives; continuity of moments through the continuous functional calculus.

*Theorems:* `Vayesta.Props.rpa_energy`, `Vayesta.Props.rpa_energy_formula`, `Vayesta.Props.rpa_adiabatic_connection`, `Vayesta.Props.rpa_xc_connection`, `Vayesta.Props.rpa_linear_versions`, `Vayesta.Props.rpa_moment_noninteracting`, `Vayesta.Props.rpa_energy_refused`, `Vayesta.Props.rpa_energy_strength_broken`

*Note:* Exact real arithmetic and exact integration (the quadrature of the code is a parameter). The conditions of full strength and all excitations are necessary: the energy is computed with the trace of the unscaled, unrotated interaction, so e.g. strength 0 gives minus half the trace of the interaction (rpa_energy_strength_broken; ssrpa.py:107).

### C75 RPA with exchange gives the spin-adapted RPAX energy

*Status:* partial.

*Model and proof:* Combination of the solutions of the singlet and triplet problems into one of the spin-orbital problem. False for names in other case and for tuples (negations proved), so the claim is partial.

*Theorems:* `Vayesta.Props.rpax_energy_partial`, `Vayesta.Props.rpa_direct_energy`, `Vayesta.Props.rpax_stable`, `Vayesta.Props.rpax_case_broken`, `Vayesta.Props.rpa_kernel_argument`

*Note:* The energies are proved for the lower case names and None. False in the code otherwise: "RPAX" gives twice the energy, since the interaction is chosen without but the factor of one half with regard to case (rpax_case_broken; rpa.py:79,150), and tuples raise AttributeError (rpa_kernel_argument; rpa.py:137).

### C76 A factorised xc-kernel gives the same RPA problem as its arrays

*Status:* partial.

*Model and proof:* Finite sums. False for different factors of both spins (negation proved), so the theorem is `_partial`.

*Theorems:* `Vayesta.Props.xc_factors_partial`, `Vayesta.Props.xc_factors_broken`

*Note:* False in the code: the mixed-spin part is made from the alpha factors only (xc_factors_broken; ssrpa.py:247). True if the right factors of both spins are the same (xc_factors_partial).

### C77 Moment-conserving screened interactions reproduce the RPA response of the cluster

*Status:* proved.

*Model and proof:* Real matrices; the RPA of system and cluster through the relation eta (A+B) eta = A-B and the uniqueness of its positive definite solution.

*Theorems:* `Vayesta.Props.mrpa_excitations_orthonormal`, `Vayesta.Props.mrpa_moment`, `Vayesta.Props.mrpa_limits`, `Vayesta.Props.mrpa_orbital_rotation`, `Vayesta.Props.mrpa_restricted`, `Vayesta.Props.mrpa_arrays`, `Vayesta.Props.mrpa_symmetry`, `Vayesta.Props.mrpa_restricted_integrals`, `Vayesta.Props.mrpa_ccsd`, `Vayesta.Props.mrpa_ccsd_twice`, `Vayesta.Props.mrpa_refused`, `Vayesta.Props.mrpa_build_iff`

*Note:* Exact real arithmetic; the numerical integration of the moment is treated as exact, the eigensolver is a parameter. Restoring bare integrals after screening twice gives the ones of the first screening (mrpa_ccsd_twice). Not modelled: get_screened_eris_full without a logger (AttributeError) and with copy=False for one array.

### C78 Static constrained RPA interactions reproduce the static response of the system

*Status:* proved.

*Model and proof:* Schur complement of A+B and A-B with respect to the excitations of the cluster, with the inverse on the other excitations from the RPA solution.

*Theorems:* `Vayesta.Props.crpa_static_response`, `Vayesta.Props.crpa_restricted`, `Vayesta.Props.crpa_symmetry`, `Vayesta.Props.crpa_real_symmetry`, `Vayesta.Props.crpa_pcoupled_symmetry_broken`, `Vayesta.Props.crpa_attractive`, `Vayesta.Props.crpa_only_ov`, `Vayesta.Props.crpa_integrals`, `Vayesta.Props.crpa_succeeds`, `Vayesta.Props.crpa_uncoupled_response_lost`, `Vayesta.Props.screening_options`, `Vayesta.Props.screening_documented_word_ignored`

*Note:* Exact real arithmetic. The condition on the coupling is necessary: without "pcoupled" the static response is lost for clusters whose excitations are mixed by orbital energies (crpa_uncoupled_response_lost). With "pcoupled" and such coupling (ia|jb) and (ia|bj) always differ (crpa_pcoupled_symmetry_broken), so that solvers which assume real orbital symmetry cannot use them. The documented word "pcoupling" has no effect, the code looks for "pcoupled" (screening_documented_word_ignored; hamiltonian.py:457,487). The RPA of the excitations outside of the cluster is the model of C73.

### C79 The external RPA correction adds nothing that the clusters already contain

*Status:* proved.

*Model and proof:* Local energies as traces with Kronecker products of projectors; the response of the system is invariant under its symmetries by uniqueness.

*Theorems:* `Vayesta.Props.rpa_local_energies`, `Vayesta.Props.rpa_local_cumulants`, `Vayesta.Props.rpa_correction_vanishes`, `Vayesta.Props.rpa_local_rotation`, `Vayesta.Props.rpa_local_refused`, `Vayesta.Props.rpa_correction_options`

*Note:* Exact real arithmetic; the energy and moments from numerical integration are treated as exact. An empty string as option passes the check of unrestricted systems' base class and then raises TypeError on reading e_nonlocal (not modelled).

### C80 A self-consistent mean-field calculation is a series of one-shot calculations that stops when it should

*Status:* proved.

*Model and proof:* The loop as recursion over the iterations, with the embedding, its energies and the update as parameters; related to a trajectory of calculations by induction.

*Theorems:* `Vayesta.Props.scmf_kernel`, `Vayesta.Props.scmf_raises`, `Vayesta.Props.scmf_returns`, `Vayesta.Props.scmf_no_iterations`, `Vayesta.Props.scmf_converged`, `Vayesta.Props.scmf_energies`, `Vayesta.Props.scmf_stationary`, `Vayesta.Props.scmf_limit`, `Vayesta.Props.scmf_stale_convergence`, `Vayesta.Props.scmf_energy_per_cell`

*Note:* The conditions are necessary: a second call that runs out of iterations keeps converged=True of the first one (scmf_stale_convergence; scmf.py does not reset it), and for k-points the recorded energies add the mean-field energy of the supercell to the correlation energy per cell (scmf_energy_per_cell). maxiter=0 raises UnboundLocalError (scmf_no_iterations). Energies are real numbers.

### C81 The p-DMET update finds the determinant closest to the correlated density matrix

*Status:* proved.

*Model and proof:* Real matrices; Ky Fan type inequality for the trace of the density matrix with projectors.

*Theorems:* `Vayesta.Props.pdmet_orthonormal`, `Vayesta.Props.pdmet_closest`, `Vayesta.Props.pdmet_reference`, `Vayesta.Props.pdmet_fixed_point`, `Vayesta.Props.pdmet_refused`, `Vayesta.Props.pdmet_no_beta`, `Vayesta.Props.pdmet_unrestricted`, `Vayesta.Props.pdmet_density`

*Note:* Exact real arithmetic; the eigensolver is a parameter, right for every symmetric matrix. Systems without beta electrons cannot be treated (pdmet_no_beta): index -1 compares the last with the first occupation.

### C82 The Brueckner update rotates orbitals by the single amplitudes until these vanish

*Status:* proved.

*Model and proof:* Real matrices; rank and projector arguments for the generalised eigenvalue problem of the new density matrix.

*Theorems:* `Vayesta.Props.brueckner_orthonormal`, `Vayesta.Props.brueckner_space`, `Vayesta.Props.brueckner_fixed_point`, `Vayesta.Props.brueckner_no_occupied`

*Note:* Exact real arithmetic; eigensolvers are parameters. Extrapolation (DIIS) is any function that keeps matrices symmetric. Systems without beta electrons raise AssertionError, since the slice of the last zero columns gives all of them (brueckner_no_occupied).

### C83 The projected energy is the energy of the assembled wave function, and exact for exact clusters

*Status:* proved.

*Model and proof:* Tensors as functions over a field; contractions with orbital coefficients are moved from integrals to coefficients.

*Theorems:* `Vayesta.Props.wf_energy_assembled`, `Vayesta.Props.wf_energy_images`, `Vayesta.Props.wf_energy_exact`, `Vayesta.Props.wf_energy_exact_plain`, `Vayesta.Props.wf_energy_restored`, `Vayesta.Props.wf_energy_rotation`, `Vayesta.Props.ccsd_energy_exact`, `Vayesta.Props.uwf_energy_exact`, `Vayesta.Props.uwf_energy_closed_shell`

*Note:* Exact arithmetic, one MPI process (see C62 for the sum over processes). get_ccsd_corr_energy uses the Fock matrix without exchange divergence; agreement needs equal occupied-virtual blocks. Not modelled: c1=None, axis1="cluster" and c2ba_order="ab" of the unrestricted get_fragment_energy (not used; with c1 the former raises UnboundLocalError), wf_factor, store_wf_type.

### C84 One-body density matrices of embedded coupled-cluster calculations conserve electrons and are exact for exact clusters

*Status:* proved.

*Model and proof:* Tensors as functions over a field; pair contributions are bilinear, so that the sum over pairs is the contraction of the sums.

*Theorems:* `Vayesta.Props.rdm1_global`, `Vayesta.Props.global_amplitudes_invariant`, `Vayesta.Props.rdm1_global_symmetry`, `Vayesta.Props.global_amplitudes_exact`, `Vayesta.Props.rdm1_global_exact`, `Vayesta.Props.rdm1_ccsd_exact`, `Vayesta.Props.rdm1_proj_lambda_exact`, `Vayesta.Props.cc_rdm1_trace`, `Vayesta.Props.rdm1_global_electrons`, `Vayesta.Props.rdm1_ccsd_electrons`, `Vayesta.Props.rdm1_proj_lambda_electrons`, `Vayesta.Props.rdm1_ao_electrons`, `Vayesta.Props.rdm1_symmetric`, `Vayesta.Props.rdm1_missing_lambda`, `Vayesta.Props.rdm1_ccsd_missing_lambda`, `Vayesta.Props.rdm1_fragment_option_false`

*Note:* Exact arithmetic, one MPI process, restricted. Agreement of the fast and slow algorithm needs that the option t_as_lambda of fragments is not set, unless the argument is: the fast one ignores it (rdm1_fragment_option_false; rdm.py:197). Singular value decomposition and screening are any functions; agreement is for those that lose nothing. With more than one MPI process and with_t1=False the code raises NameError (not modelled).

### C85 Perturbative triples energies of fragments add up to the exact one for exact clusters

*Status:* partial.

*Model and proof:* Tensors as functions over a field; the triangular loop is turned into a full sum, permutations are moved between both factors.

*Theorems:* `Vayesta.Props.ccsd_t_partition`, `Vayesta.Props.ccsd_t_rotation`, `Vayesta.Props.ccsd_t_exact`, `Vayesta.Props.ccsd_t_exact_plain`, `Vayesta.Props.ccsd_t_given_doubles`, `Vayesta.Props.ccsd_t_unknown_projection`, `Vayesta.Props.ccsd_t_kernel_option_partial`

*Note:* Exact real arithmetic; denominators are assumed to be non-zero in the code (in the model division by zero gives zero). The part that is false: the option calc_e_ccsd_t_corr of Fragment.kernel always raises TypeError, since the function takes one positional argument (ccsd_t_kernel_option_partial). Not modelled: external potentials, screened interactions, MPI. The option sym_factor of fragments is ignored by the code.

### C86 Unrestricted perturbative triples energies of fragments add up to the exact one for exact clusters

*Status:* proved.

*Model and proof:* The specification is the spin-orbital formula over the disjoint union of alpha and beta orbitals; permutation operators are moved between both factors, and each spin case of the code is shown to be a block of the spin-orbital sum.

*Theorems:* `Vayesta.Props.uccsd_t_partition`, `Vayesta.Props.uccsd_t_rotation`, `Vayesta.Props.uccsd_t_closed_shell`, `Vayesta.Props.uccsd_t_exact`, `Vayesta.Props.uccsd_t_exact_plain`, `Vayesta.Props.uccsd_t_given_integrals`, `Vayesta.Props.uccsd_t_unknown_projection`

*Note:* Exact real arithmetic; denominators are assumed to be non-zero in the code (in the model division by zero gives zero). global_t1=False only. Not modelled: external potentials, screened interactions, MPI, passing amplitudes. The projection "z" of restricted calculations is not known here, "r" not there.

### C87 The electron-boson FCI solver diagonalises the coupled Hamiltonian, and its density matrices are those of the vector

*Status:* proved.

*Model and proof:* Link tables of PySCF are parameters that tabulate matrices obeying the algebra of p†q; the loops of the code are shown to be products of matrices on the tensor product of strings and boson occupations.

*Theorems:* `Vayesta.Props.ebfci_hamiltonian`, `Vayesta.Props.uebfci_hamiltonian`, `Vayesta.Props.ebfci_couplings`, `Vayesta.Props.ebfci_no_bosons`, `Vayesta.Props.ebfci_closed_shell`, `Vayesta.Props.ebfci_symmetric`, `Vayesta.Props.uebfci_symmetric`, `Vayesta.Props.ebfci_density_matrices`, `Vayesta.Props.uebfci_density_matrices`, `Vayesta.Props.ebfci_coupling_density_matrices`, `Vayesta.Props.ebfci_electron_number`, `Vayesta.Props.ebfci_energy`, `Vayesta.Props.uebfci_energy`, `Vayesta.Props.ebfci_boson_number`, `Vayesta.Props.ebfci_zero_phonon_reversed`

*Note:* Exact arithmetic over a field; link tables are parameters that tabulate the generators p†q, square roots are a parameter. Only for adj_zero_pho=False: the option subtracts twice the mean, and reverses the coupling to the number of electrons instead of removing it (ebfci_zero_phonon_reversed). Not modelled: the Davidson solver and its preconditioner make_hdiag, several roots (the unrestricted version passes packed integrals and fails), contract_1e (raises NotImplementedError), make_rdm12s of the restricted module, make_eb_rdm without bosons (unrestricted: one array instead of a pair), packed integrals.

### C88 Moments of the density response of electron-boson FCI are those of the excitation spectrum

*Status:* proved.

*Model and proof:* The dictionary of intermediates as association list; moments of order k from powers floor and ceiling of k/2, by symmetry of H.

*Theorems:* `Vayesta.Props.ebfci_moments`, `Vayesta.Props.uebfci_moments`, `Vayesta.Props.ebfci_moments_rotated`, `Vayesta.Props.ebfci_moments_single_density_wrong`

*Note:* Exact arithmetic. The condition on the density matrix is necessary: with the default of the restricted code, half of the spin-summed density matrix, states with different spin densities have wrong moments (ebfci_moments_single_density_wrong).

### C89 The self-energy assembled with one projector is the democratically partitioned one, and exact for exact clusters

*Status:* proved.

*Model and proof:* Matrices over the reals; a self-energy is a list of poles, and is compared by its sums over poles with arbitrary weights. Singular value decompositions and eigensolvers are any that are right.

*Theorems:* `Vayesta.Props.self_energy_moments_eq`, `Vayesta.Props.self_energy_moments_exact`, `Vayesta.Props.self_energy_1proj_iff`, `Vayesta.Props.self_energy_1proj_exact`, `Vayesta.Props.self_energy_1proj_causal`, `Vayesta.Props.self_energy_1proj_no_assertion`, `Vayesta.Props.self_energy_1proj_drop_no_effect`, `Vayesta.Props.self_energy_1proj_loses_noncausal`, `Vayesta.Props.self_energy_moments_symmetry`, `Vayesta.Props.self_energy_1proj_symmetry`, `Vayesta.Props.get_unique_slices`, `Vayesta.Props.get_unique_sum`, `Vayesta.Props.get_unique_neighbours_apart`, `Vayesta.Props.exists_svd`, `Vayesta.Props.self_energy_other_inputs`

*Note:* Exact real arithmetic, with infinite precision also where the code uses complex64. Everything of the package dyson is a parameter or a plain description (Lehmann sorts poles). Not modelled: the optional shift of auxiliaries, fit_hermitian, numpy broadcasting with a single molecular orbital. A wrong number of projectors gives zeros instead of an exception, and fewer molecular than atomic orbitals ValueError (self_energy_other_inputs).

### C90 The self-energy assembled with two projectors is the part of the exact one within fragments

*Status:* partial.

*Model and proof:* As C89.

*Theorems:* `Vayesta.Props.self_energy_2proj_exact`, `Vayesta.Props.self_energy_2proj_causal`, `Vayesta.Props.self_energy_2proj_symmetry`, `Vayesta.Props.self_energy_moments_symmetry`, `Vayesta.Props.self_energy_moments_two_half_partial`, `Vayesta.Props.self_energy_moments_two_wrong`, `Vayesta.Props.self_energy_2proj_mixed`, `Vayesta.Props.self_energy_other_inputs`

*Note:* What is false: the moments with two projectors are half of those of the poles (self_energy_moments_two_half_partial; self_energy.py:101), so that they are not exact even for a single fragment of the whole system (self_energy_moments_two_wrong); and make_self_energy_moments returns zeros for other numbers of projectors (self_energy_other_inputs). Exact arithmetic as for C89.

### C91 Quasi-particle self-consistent embedding iterates the quasi-particle Hamiltonian, and is converged when the static potential is

*Status:* proved.

*Model and proof:* The loop as recursion over the number of iterations left; a series of one-shot calculations is the specification. Self-energies from C89 and C90.

*Theorems:* `Vayesta.Props.qp_diis`, `Vayesta.Props.qp_global_potential`, `Vayesta.Props.qp_no_iterations`, `Vayesta.Props.qp_hamiltonian`, `Vayesta.Props.qp_exact`, `Vayesta.Props.qp_symmetric`, `Vayesta.Props.qp_diagonalised`, `Vayesta.Props.qp_sc_orbitals`, `Vayesta.Props.qp_sc_damping_no_effect`, `Vayesta.Props.qp_kernel`, `Vayesta.Props.qp_returns`, `Vayesta.Props.qp_converged`, `Vayesta.Props.qp_energies`, `Vayesta.Props.qp_stationary`, `Vayesta.Props.qp_wrong_projection`, `Vayesta.Props.qp_folded`, `Vayesta.Props.qp_init`

*Note:* Exact arithmetic; eigensolvers, mean-fields, DIIS and Green's functions are parameters. Oddities of the code which are theorems: damping has no effect with a self-consistent field, which is the default (qp_sc_damping_no_effect); a wrong number of projectors raises AttributeError after the first calculation, since NotImplementedError is returned (qp_wrong_projection); an initial potential that breaks symmetry raises NameError (qp_init). drop_non_causal is never passed on. Not modelled: histories, what the object holds after an exception in an update, reset of the embedding.

### C92 The intercluster MP2 energy is the MP2 energy of all pairs of fragments, without what is within the clusters

*Status:* proved.

*Model and proof:* Tensors as functions over a field; amplitudes in the spaces of the fragments are rotated to those of the whole system, which is possible since denominators are the same for orbitals of the same energy.

*Theorems:* `Vayesta.Props.icmp2_pairs`, `Vayesta.Props.icmp2_symmetry`, `Vayesta.Props.icmp2_mp2`, `Vayesta.Props.icmp2_no_double_counting`, `Vayesta.Props.icmp2_zero`, `Vayesta.Props.icmp2_diagonal`, `Vayesta.Props.icmp2_terms`, `Vayesta.Props.icmp2_fragments`, `Vayesta.Props.icmp2_unrestricted`, `Vayesta.Props.icmp2_unrestricted_pairs`, `Vayesta.Props.icmp2_left_out`, `Vayesta.Props.icmp2_version`, `Vayesta.Props.icmp2_errors`

*Note:* Exact arithmetic, one MPI process; the bath spaces chosen by thresholds are given. Symmetry needs three-center integrals that move with the auxiliary functions and negative ones that do not change, and sym_factor 1 for all fragments: with other factors the code multiplies both, and the energy of a single fragment stays zero with any factor by icmp2_zero. What is odd in the code: other versions than 1 and 2 silently give no direct energy (icmp2_version); no pairs, later generations of symmetry children and other operations than translations raise NameError, KeyError and AttributeError (icmp2_errors). Not modelled: negative three-center integrals in the unrestricted function, where the part of eris_ba is subtracted from eris_ab (icmp2.py:383).

### C93 One-body density matrices of unrestricted embedded coupled-cluster calculations conserve electrons of each spin and are exact for exact clusters

*Status:* proved.

*Model and proof:* Tensors as functions over a field with orbital types depending on the spin; each block is reduced to a bilinear form of global amplitudes.

*Theorems:* `Vayesta.Props.rdm1_unrestricted_global`, `Vayesta.Props.global_amplitudes_unrestricted_invariant`, `Vayesta.Props.rdm1_unrestricted_symmetry`, `Vayesta.Props.global_amplitudes_unrestricted_exact`, `Vayesta.Props.rdm1_unrestricted_exact`, `Vayesta.Props.rdm1_unrestricted_ccsd_exact`, `Vayesta.Props.cc_rdm1_unrestricted_trace`, `Vayesta.Props.rdm1_unrestricted_mf`, `Vayesta.Props.rdm1_unrestricted_electrons`, `Vayesta.Props.rdm1_unrestricted_ccsd_electrons`, `Vayesta.Props.rdm1_unrestricted_symmetric`, `Vayesta.Props.rdm1_unrestricted_closed_shell`, `Vayesta.Props.rdm1_unrestricted_missing_lambda`

*Note:* Exact arithmetic, one MPI process. Unlike the restricted fast algorithm (C84) the unrestricted one follows the option t_as_lambda of the fragments; make_rdm1_ccsd ignores that option, and raises TypeError without lambda amplitudes even with it (rdm1_unrestricted_missing_lambda). Not modelled: ba_order='ab', the logged ratio of screened pairs (which is a division by zero without fragments), AO basis.

### C94 The coupled-cluster two-body density matrix is consistent with the one-body density matrix, a singlet, and exact for two electrons

*Status:* proved.

*Model and proof:* Tensors as functions over a field. Sums of products of tensors are compared by a decision procedure (names of summation indices, order of factors, symmetries) which is proved sound for all numbers of orbitals.

*Theorems:* `Vayesta.Props.cc_rdm1_electrons`, `Vayesta.Props.cc_rdm2_partial_trace`, `Vayesta.Props.cc_rdm2_pairs`, `Vayesta.Props.cc_rdm2_singlet`, `Vayesta.Props.cc_rdm2_symmetric`, `Vayesta.Props.cc_rdm_affine`, `Vayesta.Props.cc_rdm_energy_no_multipliers`, `Vayesta.Props.cc_two_electrons`, `Vayesta.Props.cc_rdm2_needs_symmetry`

*Note:* Exact real arithmetic. Not modelled: blocks over virtual orbitals and HDF5 files, compress_vvvv=True, frozen orbitals, the AO basis, complex numbers. The symmetry of the doubles is needed (cc_rdm2_needs_symmetry).

### C95 The two-body density matrix assembled from fragments is that of the wave function for complete clusters, and obeys the sum rule for any clusters

*Status:* proved.

*Model and proof:* Each fragment's contribution is shown to be additive in the projected amplitudes (from C94), so that the sum over fragments is that for the sum of the projections. The sum rule follows from that of C94 for each cluster and orthonormal cluster orbitals.

*Theorems:* `Vayesta.Props.frag_dm1_complete`, `Vayesta.Props.frag_rdm2_complete`, `Vayesta.Props.frag_rdm2_complete_exact`, `Vayesta.Props.frag_rdm2_exact_needs_multipliers`, `Vayesta.Props.frag_rdm2_mp2`, `Vayesta.Props.frag_rdm2_routes`, `Vayesta.Props.frag_rdm2_sum_rule`, `Vayesta.Props.frag_rdm2_order`, `Vayesta.Props.frag_rdm2_errors`, `Vayesta.Props.frag_rdm2_unsupported`

*Note:* Exact arithmetic, one MPI process, basis of molecular orbitals. The routines of pyscf.cc.ccsd_rdm called for fragments are external and taken to compute the formulas of core/vpyscf/ccsd_rdm.py (C94). What is odd in the code: approx_cumulant=False together with t_as_lambda=True gives a wrong density matrix (frag_rdm2_exact_needs_multipliers; fragment.py:484), and the option sym_dm2 of make_rdm2 is never passed on. Complete clusters are modelled with cluster orbitals equal to the molecular orbitals. Not modelled: symmetry children, missing multipliers.

### C96 The unrestricted coupled-cluster density matrices obey the sum rules of each spin, and for a closed shell are the restricted ones resolved by spin

*Status:* proved.

*Model and proof:* Model translated statement by statement from the contractions of the code. Each block is compared with the restricted one by the decision procedure of C94.

*Theorems:* `Vayesta.Props.urdm1_closed_shell`, `Vayesta.Props.urdm2_closed_shell`, `Vayesta.Props.urdm2_closed_shell_antisymmetric`, `Vayesta.Props.urdm2_closed_shell_partial_trace`, `Vayesta.Props.urdm2_two_electrons`, `Vayesta.Props.urdm1_electrons`, `Vayesta.Props.urdm2_partial_trace`, `Vayesta.Props.urdm2_pairs`, `Vayesta.Props.urdm2_antisymmetric`, `Vayesta.Props.urdm2_opposite_symmetric`, `Vayesta.Props.urdm2_one_of_each`

*Note:* Exact real arithmetic. Not modelled: blocks over virtual orbitals and HDF5 files, compress_vvvv=True, frozen orbitals, the AO basis, complex numbers.


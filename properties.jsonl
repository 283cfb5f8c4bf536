{"id": "C01", "title": "Signed permutations are complete and carry the right parity", "statement": "permutations_with_signs(seq) returns every rearrangement of the positions of seq exactly once (n! entries), and the sign attached to each entry is +1 exactly when that rearrangement is an even permutation of the input.", "quantifier": "every sequence of every length", "why_tests_cant": "Tests can only list small n; completeness and parity for every n need the induction over the insertion scheme.", "anchors": ["vayesta/core/util.py: permutations_with_signs"]}
{"id": "C02", "title": "Lower-triangular index enumeration is exact", "statement": "tril_indices_ndim(n, dims) lists every strictly decreasing (non-increasing with include_diagonal) index tuple below n exactly once, in lexicographic order, and nothing else.", "quantifier": "every n, every number of dimensions, both diagonal settings", "why_tests_cant": "An enumeration can be compared with brute force only for finitely many n and dims.", "anchors": ["vayesta/core/util.py: tril_indices_ndim"]}
{"id": "C03", "title": "Decompressing antisymmetric amplitudes inverts compression", "statement": "decompress_axes applied to the packed strictly-lower-triangular entries of an array yields an array that is antisymmetric in the packed axes, vanishes when two packed indices coincide, and whose strictly-lower-triangular entries are exactly the packed data.", "quantifier": "every axis size, every number of packed axes in a group, all packed data", "why_tests_cant": "Needs all permutations of all index tuples; samples leave the sign pattern unproved for larger groups.", "anchors": ["vayesta/core/util.py: decompress_axes, tril_indices_ndim, permutations_with_signs; vayesta/core/types/wf/fci.py: UFCI_WaveFunction.as_cisdtq"]}
{"id": "C04", "title": "Block ranges tile the range", "statement": "brange(start, stop, step, minstep, maxstep) yields consecutive, non-empty, disjoint slices whose concatenation is exactly range(start, stop), each no longer than the clipped step, and all but the last exactly that long; an empty or reversed range yields nothing.", "quantifier": "every integer start, stop and every step/minstep/maxstep for which the clipped step is positive; the other cases raise", "why_tests_cant": "Off-by-one errors occur at arbitrary boundaries; every start/stop/step combination must be covered.", "anchors": ["vayesta/core/util.py: brange; used by vayesta/core/bath/bno.py: MP2_BNO_Bath._make_t2"]}
{"id": "C05", "title": "split_into_blocks reassembles to the array", "statement": "Concatenating the blocks yielded by split_into_blocks along the axis gives back the array, for every explicit block size and every memory limit; the slice that accompanies a block selects exactly that block. With an automatic block size no block exceeds the memory limit by a whole slab.", "quantifier": "every array length along the axis, every block size >= 1, every memory limit >= 1", "why_tests_cant": "The block size is derived from byte counts, so the interesting boundaries are unbounded.", "anchors": ["vayesta/core/util.py: split_into_blocks"]}
{"id": "C06", "title": "Decorated einsum subscripts never alias", "statement": "When einsum accepts subscripts with decorated indices (a!, b$, c3, d123), two index occurrences are mapped to the same plain letter if and only if they are written identically, no decorated index is mapped to a letter that occurs undecorated, and separators are preserved; an unattached decorator is rejected, and running out of letters raises.", "quantifier": "every subscripts string", "why_tests_cant": "Capture could occur for any of infinitely many decorations and orders.", "anchors": ["vayesta/core/util.py: _einsum_replace_decorated_subscripts, einsum"]}
{"id": "C07", "title": "Options.replace changes exactly what was asked, or raises", "statement": "OptionsBase.replace(**kw) succeeds only if every key (and every key of a dictionary merged into a dictionary option) already exists; then each named option has its new value (dictionaries merged key-wise, new value winning) and every other option is unchanged, and the set of options never changes. OptionsBase.update does the same while silently ignoring unknown names.", "quantifier": "every option set, every keyword list, all values", "why_tests_cant": "Keyword sets and nested dictionaries are unbounded.", "anchors": ["vayesta/core/util.py: OptionsBase.replace, OptionsBase.update"]}
{"id": "C08", "title": "Temporarily replaced attributes are always restored", "statement": "replace_attr restores every attribute it replaced to its previous value when the block ends, whether the block returns, raises, or the replacement of a later attribute fails; attributes not named are left as the block left them, and an exception of the block propagates.", "quantifier": "every object state, every keyword list, every block (any sequence of attribute writes, normal or exceptional exit), failure at any keyword", "why_tests_cant": "Exception points inside the block and between assignments cannot be enumerated by tests.", "anchors": ["vayesta/core/util.py: replace_attr; vayesta/core/types/wf/fci.py: UFCI_WaveFunction_w_dummy"]}
{"id": "C09", "title": "Memoised functions behave like the function itself", "statement": "A function decorated with cache(...) returns, for any history of calls, cache_clear calls and evictions, the same values as the undecorated function, never holds more than maxsize entries, and with copy=True a caller that mutates a result cannot change what later calls return; without copy=True it can.", "quantifier": "every deterministic function, every maxsize, every call history, every caller mutation", "why_tests_cant": "Histories are unbounded; aliasing shows only in particular interleavings of mutation and hits.", "anchors": ["vayesta/core/util.py: cache; vayesta/core/qemb/qemb.py: get_ovlp-like cached getters"]}
{"id": "C10", "title": "Packing arrays for MPI round-trips", "statement": "unpack_arrays(pack_arrays(a1, ..., an)) returns the same arrays, including None entries, shapes and data, for all arrays of up to 8 dimensions with an 8-byte dtype; more dimensions are rejected.", "quantifier": "every list of arrays/None, every shape (including zero-size axes), all data", "why_tests_cant": "Shapes, counts and data are unbounded.", "anchors": ["vayesta/core/helper.py: pack_metadata, unpack_metadata, pack_arrays, unpack_arrays"]}
{"id": "C11", "title": "Fragment ids are unique and consecutive, MPI ranks are balanced", "statement": "For any interleaving of get_next, get_next_id and get_next_mpi_rank the ids handed out are 0,1,2,... without gaps or repeats, the ranks are 0,1,...,size-1,0,... so that after any number of requests the number of fragments on two ranks differs by at most one; a request with a runtime or memory estimate raises and, in get_next, has already consumed an id.", "quantifier": "every MPI size >= 1 and every request history", "why_tests_cant": "The history is unbounded.", "anchors": ["vayesta/core/qemb/register.py: FragmentRegister; vayesta/core/fragmentation/fragmentation.py: Fragmentation._create_fragment"]}
{"id": "C12", "title": "get_fragments returns exactly the fragments satisfying all conditions, in order", "statement": "get_fragments(fragments, options=..., flags=..., **filters) returns, in the original order and with multiplicity, exactly the fragments whose attributes satisfy every filter, whose options satisfy every options condition and whose flags satisfy every flags condition.", "quantifier": "every fragment list and every combination of conditions (value, list of values or predicate)", "why_tests_cant": "Every combination of filter groups on every fragment list; existing tests only use one group at a time.", "anchors": ["vayesta/core/qemb/qemb.py: Embedding.get_fragments"]}
{"id": "C13", "title": "Symmetry parents and children partition the fragments", "statement": "get_symmetry_parent_fragments and get_symmetry_child_fragments together list every fragment exactly once, each child in the sublist of its own parent, in fragment order; the sublist lengths plus one add up to the number of fragments.", "quantifier": "every fragment list in which each symmetry parent is a listed fragment without a parent of its own; otherwise the call raises", "why_tests_cant": "Arbitrary numbers of parents and children and orders.", "anchors": ["vayesta/core/qemb/qemb.py: get_symmetry_parent_fragments, get_symmetry_child_fragments; vayesta/dmet/dmet.py: DMET.kernel"]}
{"id": "C14", "title": "Nested symmetry contexts create the full product of images", "statement": "Leaving nested symmetry contexts of orders n1..nk around m fragments leaves exactly m*n1*...*nk fragments with distinct ids; each has a unique root among the m originals and a unique sequence of operations leading to it; loop_symmetry_children over the originals with include_self visits every fragment exactly once and hands out the root's object transformed by exactly that sequence.", "quantifier": "every number of fragments, nesting depth and order", "why_tests_cant": "Depth and orders are unbounded.", "anchors": ["vayesta/core/fragmentation/fragmentation.py: rotational_symmetry, inversion_symmetry, mirror_symmetry; vayesta/core/qemb/qemb.py: create_symmetric_fragments; vayesta/core/qemb/fragment.py: loop_symmetry_children, get_symmetry_parent, get_symmetry_children, n_symmetry_children"]}
{"id": "C15", "title": "Symmetry-weighted sums equal full sums", "statement": "Summing a symmetry-invariant quantity over the fragments without symmetry parent, weighted by each fragment's symmetry factor, equals summing it over all fragments.", "quantifier": "every forest of symmetry-related fragments, every invariant quantity with values in any commutative monoid", "why_tests_cant": "All forests and quantities.", "anchors": ["vayesta/core/qemb/fragment.py: n_symmetry_children, symmetry_factor; vayesta/core/qemb/qemb.py: get_dmet_elec_energy; vayesta/dmet/dmet.py: DMET.kernel, calc_electron_number_defect"]}
{"id": "C16", "title": "Secondary fragments cancel exactly", "statement": "Leaving a secondary_fragments context adds, for each primary fragment, one secondary fragment with the reduced bath threshold and weight +w and one with the original bath and weight -w, so that if the low-level result does not depend on the bath the pair contributes zero and the total equals the primary result; every created fragment is flagged as secondary and refers to its primary fragment, and exactly the enlarged one stays in the envelope.", "quantifier": "every list of primary fragments, options, weights", "why_tests_cant": "All option combinations and fragment lists.", "anchors": ["vayesta/core/fragmentation/fragmentation.py: secondary_fragments, _create_secondary_fragments"]}
{"id": "C17", "title": "CAS fragments hold the requested number of orbitals and electrons", "statement": "add_cas_fragment(ncas, nelec) either raises or selects a window of ncas consecutive orbitals around the Fermi level which contains exactly nelec electrons and is separated from its neighbours by the degeneracy tolerance.", "quantifier": "every occupation pattern (aufbau-ordered integer occupations), every ncas and nelec", "why_tests_cant": "All occupations and window sizes; the boundary ncas = number of occupied orbitals needed - 1 is easy to miss.", "anchors": ["vayesta/core/fragmentation/cas.py: CAS_Fragmentation.add_cas_fragment"]}
{"id": "C18", "title": "Fragment and environment orbitals partition the basis", "statement": "For every fragment, the fragment orbitals and environment orbitals selected by the fragmentation are complementary: together a permutation of all orbitals, disjoint, each in ascending (environment) or given (fragment) order.", "quantifier": "every orbital count and index list without repetition", "why_tests_cant": "All index sets.", "anchors": ["vayesta/core/fragmentation/fragmentation.py: get_frag_coeff, get_env_coeff, get_atomic_fragment_indices"]}
{"id": "C19", "title": "Cluster orbital bookkeeping partitions all orbitals", "statement": "For every cluster, active and frozen index ranges are disjoint and together cover all orbitals; the active occupied orbitals come right after the frozen occupied ones, and slicing the total coefficient matrix with the active/frozen indices returns exactly the active/frozen coefficients.", "quantifier": "all numbers of frozen/active occupied/virtual orbitals", "why_tests_cant": "All sizes.", "anchors": ["vayesta/core/types/cluster.py: ClusterRHF"]}
{"id": "C20", "title": "DMET bath construction classifies every environment orbital exactly once", "statement": "make_dmet_bath splits the environment orbitals into bath, occupied environment and virtual environment such that every environment orbital lands in exactly one part, in eigenvalue order, whenever the tolerance is at most one half; for a larger tolerance it raises exactly when some eigenvalue falls into the overlap region.", "quantifier": "every list of eigenvalues, every tolerance", "why_tests_cant": "Eigenvalues and tolerance range over a continuum.", "anchors": ["vayesta/core/bath/dmet.py: DMET_Bath.make_dmet_bath"]}
{"id": "C21", "title": "DMET cluster of a mean-field state has an integer electron number and few bath orbitals", "statement": "For an idempotent (mean-field) density matrix the bath has at most as many orbitals as the fragment, environment orbitals outside the bath are exactly doubly occupied or empty and decoupled from the fragment, and the density matrix of fragment plus bath is again idempotent, so that the number of electrons in the cluster is an integer.", "quantifier": "every number of fragment and environment orbitals and every idempotent symmetric density matrix", "why_tests_cant": "A theorem over all matrices; tests use a few molecules.", "anchors": ["vayesta/core/bath/dmet.py: DMET_Bath.make_dmet_bath, get_cluster_electrons; vayesta/core/qemb/fragment.py: diagonalize_cluster_dm"]}
{"id": "C22", "title": "Natural-orbital truncation is minimal and exact", "statement": "truncate_bno keeps the leading orbitals and splits without loss: kept ++ discarded = all; with an occupation threshold it keeps exactly the orbitals at or above it (for descending occupations), with a percentage or truncation criterion it keeps the smallest number of orbitals that reaches the target, with a number criterion exactly that many.", "quantifier": "every occupation list, every threshold type and value", "why_tests_cant": "Real-valued thresholds and occupation lists are a continuum.", "anchors": ["vayesta/core/bath/bno.py: BNO_Threshold, BNO_Bath.truncate_bno"]}
{"id": "C23", "title": "Chemical-potential search reports convergence only at a root", "statement": "If ChempotBisection.kernel reports convergence, the returned chemical potential is one at which the function was actually evaluated with an error within the tolerance, for every function and whatever points the root finder tries; the interval passed to the root finder always brackets a sign change; otherwise it raises or reports non-convergence.", "quantifier": "every (even stateful) electron-number function, every query strategy of the root finder", "why_tests_cant": "The function and the root finder's choices are arbitrary.", "anchors": ["vayesta/misc/cptbisect.py: ChempotBisection.kernel"]}
{"id": "C24", "title": "DMET chemical-potential bracketing moves against the electron error", "statement": "While DMET.kernel searches for a bracket it changes the chemical potential in the direction opposite to the electron-number error, and the interval handed to the root finder has error values of opposite sign (or zero) at its ends.", "quantifier": "every electron-number function, including ones that raise a linear-algebra error at some points", "why_tests_cant": "Solver failures at arbitrary points.", "anchors": ["vayesta/dmet/dmet.py: DMET.kernel"]}
{"id": "C25", "title": "Restricted CISD <-> CCSD amplitude conversions are mutually inverse", "statement": "Converting a restricted CCSD wave function to CISD form with any non-zero reference coefficient and back returns the same amplitudes, and converting CISD to CCSD and back with the original reference coefficient returns the same coefficients.", "quantifier": "all amplitudes over any field, all index ranges, any non-zero c0", "why_tests_cant": "Identity over all tensors.", "anchors": ["vayesta/core/types/wf/ccsd.py: RCCSD_WaveFunction.as_cisd; vayesta/core/types/wf/cisd.py: RCISD_WaveFunction.as_ccsd"]}
{"id": "C26", "title": "Unrestricted CISD <-> CCSD amplitude conversions are mutually inverse", "statement": "The same round trips hold for unrestricted wave functions in every spin block, including wave functions that store the beta-alpha block separately.", "quantifier": "all amplitudes, any non-zero c0, three- and four-block storage", "why_tests_cant": "Identity over all tensors and storage variants.", "anchors": ["vayesta/core/types/wf/ccsd.py: UCCSD_WaveFunction.as_cisd; vayesta/core/types/wf/cisd.py: UCISD_WaveFunction.as_ccsd"]}
{"id": "C27", "title": "Triple and quadruple CI coefficients convert to cluster amplitudes consistently with exp(T)", "statement": "The T3 and T4 amplitudes computed from CI coefficients, together with T1 and T2, reproduce the CI coefficients through the exponential ansatz (disconnected products with the correct fermionic signs) in every spin block, and the restricted formulas agree with the unrestricted ones on spin-adapted amplitudes.", "quantifier": "all CI coefficients with the antisymmetry of their spin block, all index ranges", "why_tests_cant": "Hundreds of generated terms; any sign error is invisible unless all tensors are covered.", "anchors": ["vayesta/core/types/wf/t_to_c.py: t1_rhf..t4_rhf, t1_uhf..t4_uhf"]}
{"id": "C28", "title": "Projection followed by restoration and summation recovers the amplitudes", "statement": "If the fragment projectors in the occupied space of a cluster sum to the identity, then projecting a wave function's amplitudes onto each fragment (first occupied index), restoring, symmetrising and summing gives back the original amplitudes (restricted and unrestricted).", "quantifier": "every number of fragments, all amplitudes with particle-exchange symmetry, all projector sets resolving the identity", "why_tests_cant": "Continuum of tensors and unbounded numbers of fragments.", "anchors": ["vayesta/core/types/wf/project.py: project_c1, project_c2, project_uc2, symmetrize_c2, symmetrize_uc2; vayesta/core/types/wf/ccsd.py: restore; vayesta/ewf/amplitudes.py"]}
{"id": "C29", "title": "Democratic partitioning of the one-body density matrix", "statement": "If every fragment's cluster holds the correct one-body density matrix of its cluster orbitals, every cluster contains its fragment, and the fragments resolve the identity, then make_rdm1_demo returns a matrix with the correct number of electrons (restricted, and for each spin if unrestricted), whose elements between a fragment and its cluster are exact; the whole matrix is exact if no fragment is coupled to the outside of its cluster, in particular if the clusters span all orbitals; with symmetrisation the result is symmetric for all inputs.", "quantifier": "every number and size of fragments and clusters, all density matrices, any non-orthogonal basis", "why_tests_cant": "Continuum; all fragmentations.", "anchors": ["vayesta/core/qemb/rdm.py: make_rdm1_demo_rhf, make_rdm1_demo_uhf"]}
{"id": "C30", "title": "DMET energies are energies of the partitioned density matrices", "statement": "For fragments that resolve the identity, get_dmet_elec_energy returns, for every choice of part_cumulant and approx_cumulant, the energy of the one- and two-body density matrices which make_rdm1_demo and make_rdm2_demo return with the same options, per cell; the documented formulas in terms of the cumulant give the same values; if the clusters span all orbitals and are exact, all options give the exact energy. The energies of get_dmet_energy_contrib and get_fragment_mf_energy add up to the DMET energy and the mean-field energy.", "quantifier": "all Hamiltonians, density matrices, complete fragmentations, options", "why_tests_cant": "Continuum of Hamiltonians and density matrices; the code uses two different routes (projected energies, density matrices) whose agreement is an algebraic identity.", "anchors": ["vayesta/core/qemb/fragment.py: get_fragment_dmet_energy, get_fragment_mf_energy; vayesta/core/qemb/qemb.py: get_dmet_elec_energy; vayesta/core/qemb/rdm.py: make_rdm2_demo_rhf (documented formulas); vayesta/dmet/fragment.py: get_dmet_energy_contrib"]}
{"id": "C31", "title": "Population analysis conserves electrons and charge", "statement": "Mulliken populations, and populations in local orbitals that resolve the identity (Loewdin and other complete orthonormal sets), returned by pop_analysis add up to the number of electrons of the density matrix, and atomic charges add up to total nuclear charge minus that number.", "quantifier": "all density matrices, overlaps, atom assignments", "why_tests_cant": "Continuum and arbitrary atom partitions.", "anchors": ["vayesta/core/qemb/qemb.py: pop_analysis, get_atomic_charges"]}
{"id": "C32", "title": "Orbital sign convention is a convention", "statement": "fix_orbital_sign flips whole orbitals only, returns signs that reproduce the output from the input, makes the largest-magnitude entry of each orbital non-negative, is idempotent, and gives the same result for inputs that differ by orbital signs when the largest magnitude is attained by a unique entry.", "quantifier": "all coefficient matrices", "why_tests_cant": "Continuum; ties need care.", "anchors": ["vayesta/core/util.py: fix_orbital_sign; vayesta/core/helper.py: orbital_sign_convention"]}
{"id": "C33", "title": "Cluster Hamiltonian reproduces the Fock matrix", "statement": "For restricted clusters, the effective one-body Hamiltonian plus the mean-field potential of the cluster's active electrons in the interaction handed to the solver equals the cluster's Fock matrix, with or without screening and external potential; with match_fock that is the Fock matrix of the full system in the cluster's orbitals, without it the one-body part is that of the bare interaction. Mean-field objects made for solvers with default options carry the same Fock matrix, and dummy orbitals added to balance spin channels are decoupled from the others.", "quantifier": "all Fock matrices, interaction tensors, numbers of occupied orbitals, option settings", "why_tests_cant": "Continuum; option combinations.", "anchors": ["vayesta/solver/hamiltonian.py: RClusterHamiltonian.get_fock, get_heff, get_integrals, get_eris_screened, to_pyscf_mf"]}
{"id": "C34", "title": "RMA dictionary: every rank reads what some rank wrote", "statement": "After any sequence of write phases on any number of ranks, reading a key on any rank returns the array most recently written under that key by the rank that owns it, keys written by two ranks in the same phase are rejected, reading during a write phase or writing outside one raises.", "quantifier": "every number of ranks, every schedule of phases and writes", "why_tests_cant": "Schedules and rank counts are unbounded.", "anchors": ["vayesta/mpi/rma.py: RMA_Dict"]}
{"id": "C35", "title": "Distributed fragment sums equal the serial sum", "statement": "For any number of MPI ranks, summing over the fragments assigned to each rank and reducing gives the same result as the serial sum over all fragments; every fragment is handled by exactly one rank.", "quantifier": "every number of ranks and fragments, every contribution", "why_tests_cant": "All rank counts and assignments.", "anchors": ["vayesta/core/qemb/register.py; vayesta/core/qemb/qemb.py: get_fragments(mpi_rank=...); vayesta/mpi/interface.py: nreduce"]}
{"id": "C36", "title": "Hubbard lattices: symmetric hopping, correct coordination and boundary conditions", "statement": "The hopping matrix built for 1D and 2D Hubbard models is symmetric for all sizes and boundary conditions, each site hops to its nearest neighbours with the periodic/antiperiodic sign on wrapped bonds, and 'auto' boundaries give a closed shell choice or an error.", "quantifier": "all lattice sizes, boundary choices and orders", "why_tests_cant": "Sizes unbounded; wrap-around corner cases at sizes 1 and 2.", "anchors": ["vayesta/lattmod/latt.py: Hubbard1D, Hubbard2D"]}
{"id": "C37", "title": "Lattice tiling order is a permutation that keeps tiles contiguous", "statement": "get_tiles_order returns a permutation of all sites in which the sites of each tile are consecutive.", "quantifier": "all lattice and tile sizes where the tile size divides the lattice size", "why_tests_cant": "All sizes.", "anchors": ["vayesta/lattmod/latt.py: Hubbard2D.get_tiles_order"]}
{"id": "C38", "title": "Lattice mean-field integrals agree with the two-electron tensor", "statement": "get_jk of the lattice mean field equals contraction of the explicit interaction tensor get_eri with the density matrix, and the density-fitting factors reproduce that tensor.", "quantifier": "all sizes, U, density matrices", "why_tests_cant": "Continuum.", "anchors": ["vayesta/lattmod/latt.py: LatticeMole/LatticeSCF get_jk, get_eri, HubbardDF.loop"]}
{"id": "C39", "title": "DMET parameter flattening round-trips", "statement": "The self-consistency updaters flatten a nested list of arrays and rebuild a nested list of the same structure: rebuilding a flattened list returns it unchanged, the rebuild consumes exactly the whole vector, and mixing leaves a fixed point unchanged with zero reported change.", "quantifier": "every nesting depth and every list of arrays of positive dimension count", "why_tests_cant": "Nesting depth unbounded.", "anchors": ["vayesta/dmet/updates.py: Update._flatten_params, Update._unflatten_params, MixUpdate.update"]}
{"id": "C40", "title": "Solver selection is total, deterministic and never returns an unusable class", "statement": "For every solver name and spin/boson setting, the solver lookup either returns a class usable for exactly that setting or raises an error (ValueError for unknown names, NotImplementedError for known but missing combinations, ImportError without ebcc); the check made up front accepts exactly the configurations for which construction succeeds.", "quantifier": "every string, both spin symmetries, with and without bosons, with and without ebcc", "why_tests_cant": "Arbitrary strings.", "anchors": ["vayesta/solver/__init__.py: _get_solver_class, _get_solver_class_internal, _get_solver_class_ebcc, check_solver_config"]}
{"id": "C41", "title": "Cumulant split and reassembly of two-body density matrices is exact", "statement": "Splitting a two-body density matrix into one-body parts and a cumulant and adding the parts back returns the original, for exact and approximate cumulants, and the two cumulants differ by exactly the product of the correlation parts of the one-body density matrix.", "quantifier": "all one- and two-body density matrices, any number of occupied orbitals, restricted and unrestricted", "why_tests_cant": "Continuum.", "anchors": ["vayesta/core/types/wf/rdm.py: RRDM_WaveFunction.make_rdm2, URDM_WaveFunction.make_rdm2; vayesta/core/types/wf/fci.py: make_rdm2"]}
{"id": "C42", "title": "MP2 density matrices conserve electrons and reproduce the MP2 energy", "statement": "The MP2 one-body density matrix is symmetric and, built from amplitudes with exchange symmetry, has trace equal to the number of electrons (and zero without the mean-field part), in the MO and in the AO basis. The two-body density matrix is the linearised one-body part plus the returned approximate cumulant; other cumulants are refused. For canonical orbitals and MP2 amplitudes the energy expectation value of both density matrices is the Hartree-Fock energy plus the MP2 correlation energy.", "quantifier": "all amplitudes, all Hamiltonians with permutational symmetry and a gap, all sizes", "why_tests_cant": "Continuum of amplitudes and integrals.", "anchors": ["vayesta/core/types/wf/mp2.py: RMP2_WaveFunction.make_rdm1, make_rdm2"]}
{"id": "C43", "title": "Correlation functions are the expectation values of the site operators", "statement": "For every pair of symmetric site projectors P and Q the charge correlation is <N_P N_Q> computed from the one- and two-body density matrices, the 'dn,dn' correlation is <N_P N_Q> - <N_P><N_Q>, and the spin correlation is <Sz_P Sz_Q>: for restricted calculations it follows from the spin-summed two-body density matrix of a singlet, for unrestricted ones from the spin blocks. The embedding functions give the same value whether they are handed the full two-body density matrix, one without its one-body part, or only the fragments' cumulants, and the automatic recognition of which of the two was handed over is right for two or more electrons. Summed over a complete set of sites, the charge correlations of a site give N times its charge, the 'dn,dn' and singlet spin correlations give zero. An unknown kind raises an error.", "quantifier": "all symmetric one-body and two-body density matrices, all projectors, all fragments with any number of symmetry images, all kind strings", "why_tests_cant": "Continuum of density matrices; factors and spin-block identities only show up as wrong numbers for correlated states.", "anchors": ["vayesta/core/qemb/corrfunc.py: get_corrfunc_mf, get_corrfunc, get_corrfunc_unrestricted", "vayesta/misc/corrfunc.py: chargecharge, chargecharge_mf, spinspin_z_unrestricted, spinspin_z, spinspin_z_mf"]}
{"id": "C44", "title": "Symmetry operations act on orbitals as the spatial operations they stand for", "statement": "Constructing an inversion, reflection, rotation or translation succeeds exactly if it brings every atom to an atom of the same kind (within the tolerance; translations across at most one cell boundary per direction), and otherwise raises. Applied to orbital coefficients it moves the coefficients of each atom to the atom it is brought to, rotated within each shell, or, for translations, multiplied by minus one for every antiperiodic boundary crossed. Operations compose: applying two operations equals applying the combined one; an operation of order n applied n times is the identity (for a translation: the sign of the boundaries crossed); inversion and reflection applied twice and opposite translations after each other are the identity.", "quantifier": "all molecules and cells with atoms further apart than a small multiple of the tolerance, all bases of spherical functions, all isometries and translation vectors, all orders n, all boundary conditions", "why_tests_cant": "Composition laws for all geometries, bases and orders.", "anchors": ["vayesta/core/symmetry/operation.py: SymmetryOperation.__call__, get_atom_reorder, get_ao_reorder, rotate_angular_orbitals, SymmetryInversion, SymmetryReflection, SymmetryRotation, SymmetryTranslation", "vayesta/core/symmetry/group.py: compare_atoms, get_closest_atom"]}
{"id": "C45", "title": "Fragmentation orbitals form a complete orthonormal basis", "statement": "Symmetric atomic orbitals, intrinsic atomic orbitals with virtuals, and intrinsic with projected atomic orbitals are orthonormal with respect to the overlap and span the full space, with exactly as many orbitals as the space has, and the number check on the virtual orbitals never rejects a valid input, provided that no overlap eigenvalue in the orthogonalisation lies below the threshold. Intrinsic orbitals span the same space before and after orthogonalisation, and the ordering by labels puts every orbital at the place of its atomic orbital.", "quantifier": "all basis sizes, overlap matrices, molecular orbitals, intrinsic orbitals and labels", "why_tests_cant": "Holds over a continuum of matrices; the linearly dependent case is silent (a log message only).", "anchors": ["vayesta/core/fragmentation/fragmentation.py: Fragmentation.symmetric_orth", "vayesta/core/fragmentation/sao.py: SAO_Fragmentation.get_coeff", "vayesta/core/fragmentation/iao.py: IAO_Fragmentation.get_coeff, get_virtual_coeff", "vayesta/core/fragmentation/iaopao.py: IAOPAO_Fragmentation"]}
{"id": "C46", "title": "A symmetry context left by an exception does not disturb the contexts around it", "statement": "If the body of a symmetry context raises and the exception is caught by an enclosing script, the enclosing contexts still create the images of exactly the fragments added inside them, and no context leaves state behind.", "quantifier": "every nesting of contexts and every set of bodies that raise", "why_tests_cant": "Exceptions can occur at any point of any nesting.", "anchors": ["vayesta/core/fragmentation/fragmentation.py: rotational_symmetry, inversion_symmetry, mirror_symmetry"]}
{"id": "C48", "title": "Rotating a wave function's orbitals does not change the wave function", "statement": "Rotating the occupied and virtual orbitals of a correlated wave function by orthogonal matrices leaves the amplitudes expressed in the atomic-orbital basis unchanged, successive rotations compose, rotating back restores the amplitudes, and converting between amplitude types commutes with rotating.", "quantifier": "all orbital counts, coefficient matrices, amplitudes and orthogonal rotations, restricted and unrestricted", "why_tests_cant": "Amplitudes and rotations range over a continuum and all sizes; a test compares a few random tensors.", "anchors": ["vayesta/core/types/wf/ccsd.py: RCCSD.rotate_ov, UCCSD.rotate_ov", "vayesta/core/types/wf/cisd.py: rotate_ov", "vayesta/core/types/wf/mp2.py: rotate_ov", "vayesta/core/types/wf/wf.py: rotate"]}
{"id": "C49", "title": "Scaling a wave function scales every amplitude by the factor exactly once", "statement": "Multiplying a wave function by a factor multiplies each of its amplitude tensors by that factor, exactly once, so that a fragment of weight -1 contributes the negative of the corresponding fragment of weight +1.", "quantifier": "every wave function, every sharing of storage between amplitude arrays, every factor", "why_tests_cant": "The effect depends on which arrays share memory, a property of the history of the object and not of its values.", "anchors": ["vayesta/core/types/wf/ccsd.py: RCCSD.multiply, RCCSD.copy, UCCSD.multiply", "vayesta/solver/ccsd.py: RCCSD_Solver.kernel", "vayesta/ewf/fragment.py: EWFFragment.kernel (wf_factor)"]}
{"id": "C50", "title": "Assembling global amplitudes from fragments is exact when the clusters are exact", "statement": "If every fragment's cluster spans the whole orbital space and its solver returned the exact amplitudes, the global T1 and T2 amplitudes assembled from the projected fragment amplitudes equal the exact amplitudes.", "quantifier": "all orbital counts, complete orthogonal fragmentations, cluster bases and exact amplitudes", "why_tests_cant": "Any number of fragments, any rotation between cluster and mean-field bases.", "anchors": ["vayesta/ewf/amplitudes.py: get_global_t1_rhf, get_global_t2_rhf", "vayesta/ewf/fragment.py: EWFFragment.kernel", "vayesta/core/types/wf/cisd.py: RCISD.as_ccsd, restore"]}
{"id": "C51", "title": "Reported site coordinates agree with the hopping of a two-dimensional lattice", "statement": "Two sites of a two-dimensional Hubbard lattice hop to each other exactly if the positions reported by atom_coords are nearest neighbours modulo the lattice vectors, and the boundary condition given for a direction applies to bonds along that direction; tiles built by the tiling order are connected plaquettes of the hopping graph.", "quantifier": "all lattice sizes, boundary conditions, tilings", "why_tests_cant": "Sizes unbounded; the usual tests use square lattices with equal boundaries, for which the two numberings coincide.", "anchors": ["vayesta/lattmod/latt.py: Hubbard2D.get_index, Hubbard2D.atom_coords, Hubbard2D.get_tiles_order"]}
{"id": "C52", "title": "Mixing density matrices between DMET iterations keeps the electron number", "statement": "If every iteration passes fragment density matrices with the same total number of electrons to the mixing updater, the density matrices it returns for fitting have that number of electrons too.", "quantifier": "every number of iterations, every list of density matrices, every mixing parameter", "why_tests_cant": "Histories of any length and continuous values; tests use the DIIS updater.", "anchors": ["vayesta/dmet/updates.py: MixUpdate.update", "vayesta/dmet/dmet.py: DMET.kernel, update_vcorr"]}
{"id": "C53", "title": "A DMET calculation reported as converged is self-consistent", "statement": "When a self-consistent DMET calculation ends converged, the energy it reports was computed on the mean field it keeps, that mean field belongs to the correlation potential it keeps, and refitting changes the potential by less than the tolerance; it never makes more iterations than allowed, gives up early only if no chemical potential is found, and reports no energy if it could not compute one.", "quantifier": "every system (mean field, solver, fit and updater arbitrary functions), every option setting, any number of earlier runs", "why_tests_cant": "Depends on the history of runs and on arbitrary solver results.", "anchors": ["vayesta/dmet/dmet.py: DMET.kernel, DMET.update_vcorr, DMET.e_tot", "vayesta/core/qemb/qemb.py: Embedding.reset, Embedding.update_mf"]}
{"id": "C55", "title": "Fragment results computed on one process reach the destination process", "statement": "If all processes make the same calls of functions that are computed on the process of the fragment, then for every interleaving no deadlock occurs, each call returns on the destination process (and on the fragment's process) the value computed for that call, the other processes get None, and no message is left over.", "quantifier": "every number of processes, every sequence of calls, every interleaving", "why_tests_cant": "Interleavings and message histories are unbounded and not controlled by tests.", "anchors": ["vayesta/mpi/interface.py: MPI_Interface.with_send", "vayesta/core/qemb/fragment.py: get_fragment_dmet_energy, pop_analysis", "vayesta/core/qemb/qemb.py: get_dmet_elec_energy"]}
{"id": "C56", "title": "Symmetry trees list every symmetry-related fragment exactly once", "statement": "For any nesting of symmetries, the symmetry children of a fragment are exactly its descendants, each once; looping over them applies the operations along the way down in order; summing fragments without parent weighted with their symmetry factor counts every fragment once.", "quantifier": "every forest of fragments (up to 1000 generations), every operation, every energy", "why_tests_cant": "All tree shapes and depths.", "anchors": ["vayesta/core/qemb/fragment.py: get_symmetry_generations, get_symmetry_children, get_symmetry_tree, loop_symmetry_children, symmetry_factor, get_symmetry_parent"]}
{"id": "C57", "title": "Democratic partitioning of the two-body density matrix", "statement": "If every fragment's cluster spans all orbitals and holds the correct density matrices, and the fragments resolve the identity, then make_rdm2_demo returns the exact two-body density matrix for every choice of part_cumulant, approx_cumulant and symmetrize, and the exact or approximate cumulant if with_dm1 is False; also if the wave function does not implement the exact cumulant.", "quantifier": "every number and size of fragments, all density matrices with the symmetries of real wave functions, all options", "why_tests_cant": "Continuum; all fragmentations and option combinations.", "anchors": ["vayesta/core/qemb/rdm.py: make_rdm2_demo_rhf"]}
{"id": "C58", "title": "Unrestricted cluster Hamiltonian reproduces the Fock matrix", "statement": "For unrestricted clusters, one-body part plus open-shell mean-field potential in the interaction handed to the solver equals the cluster's Fock matrix in both spin channels; with match_fock that is the Fock matrix of the full system whatever the screening. Compressed density-fitting integrals reproduce the integrals of both spins.", "quantifier": "all Fock matrices, interaction tensors, numbers of occupied orbitals, option settings, density-fitting arrays", "why_tests_cant": "Continuum; option combinations.", "anchors": ["vayesta/solver/hamiltonian.py: UClusterHamiltonian.get_fock, get_heff, get_cderi_bare"]}
{"id": "C59", "title": "Integral cache of a cluster is transparent", "statement": "Whatever full arrays and blocks of two-electron integrals are requested in whatever order, with or without caching, each answer is the array of integrals over the orbitals which the request names; for unrestricted clusters this includes mixed-spin blocks in either order, taken from the three stored arrays. Malformed block names are refused.", "quantifier": "all integrals and orbitals, every history of requests, every block name", "why_tests_cant": "Unbounded histories; 64 spin-conserving blocks over arbitrary sizes.", "anchors": ["vayesta/solver/hamiltonian.py: get_eris_bare, _get_eris_block"]}
{"id": "C61", "title": "Correlation functions called without projectors refer to the whole system", "statement": "The stand-alone correlation functions called without projectors return the correlation of the whole system with itself: the same value as with the identity matrix for both projectors.", "quantifier": "all density matrices", "why_tests_cant": "Default arguments are rarely exercised, and for the determinants used in tests the shortcut and the true value agree.", "anchors": ["vayesta/misc/corrfunc.py: chargecharge, chargecharge_mf, spinspin_z_unrestricted"]}
{"id": "C62", "title": "The inverse of a translation undoes it", "statement": "Calling inverse() on a translation returns the operation that undoes it, signs of antiperiodic boundaries included.", "quantifier": "all cells, boundary conditions and translation vectors for which the translation can be constructed", "why_tests_cant": "All geometries and boundary conditions.", "anchors": ["vayesta/core/symmetry/operation.py: SymmetryTranslation.inverse, SymmetryTranslation.__init__"]}
{"id": "C63", "title": "Computing a translation leaves the boundary conditions alone", "statement": "Computing the reordering of atoms under a translation uses the boundary conditions of the cell (or those passed), periodic or antiperiodic by name in upper or lower case and for one, two or three directions, raises ValueError for unknown names, and leaves them unchanged, so that repeating the call gives the same result.", "quantifier": "all boundary conditions of a cell or passed by the caller, any number of calls", "why_tests_cant": "Histories of calls on a shared mutable object.", "anchors": ["vayesta/core/symmetry/tsymmetry.py: reorder_atoms, reorder_aos, get_tsymmetry_op"]}
{"id": "C64", "title": "Fragments related by symmetry do not overlap", "statement": "When symmetry images of fragments are created without an exception, no two of the fragments and images overlap; each fragment gets all images other than itself exactly once; an image overlapping with its fragment, or a mean-field that is not symmetric, raises RuntimeError.", "quantifier": "all numbers of fragments, all rotation orders and numbers of translations, all operations keeping overlaps", "why_tests_cant": "Pairs of images of any order.", "anchors": ["vayesta/core/qemb/qemb.py: create_symmetric_fragments"]}
{"id": "C65", "title": "Meshes of translation vectors fit the lattice", "statement": "A mesh given as three numbers yields translation vectors whose multiples are the lattice vectors; given three translation vectors, the mesh counts how often they fit into the lattice vectors and vectors that do not fit are rejected; the loop over the mesh visits every cell exactly once with its translation vector.", "quantifier": "all lattice and translation vectors, all meshes", "why_tests_cant": "Continuum of vectors; all mesh sizes.", "anchors": ["vayesta/core/symmetry/tsymmetry.py: get_mesh_tvecs, loop_tvecs"]}
{"id": "C66", "title": "Translationally equivalent atoms get the lowest index", "statement": "tsymmetric_atoms returns for each atom the lowest index of an atom with the same element and basis (as far as requested) at the same position up to a lattice vector, independent of the iteration order of sets.", "quantifier": "all cells, all set iteration orders, all tolerances up to one half for which equivalence is transitive", "why_tests_cant": "Unbounded numbers of atoms; iteration order of sets.", "anchors": ["vayesta/core/symmetry/tsymmetry.py: tsymmetric_atoms"]}
{"id": "C54", "title": "The active space of a coupled-cluster solver contains exactly the requested orbitals", "statement": "If active occupied and virtual orbitals are given to the ebcc solver, the orbitals it works with are orthonormal, span the cluster space, keep occupied and virtual orbitals apart, and exactly the given orbitals are marked active and exactly the requested ones frozen. Active orbitals outside the cluster or overlapping with frozen ones, and active orbitals on one side only, raise ValueError.", "quantifier": "all orthonormal cluster orbitals, active orbitals and frozen indices, in any number", "why_tests_cant": "Continuum of orbitals; the case of no active orbital on one side is a boundary case of array slicing.", "anchors": ["vayesta/solver/ebcc.py: gen_space"]}
{"id": "C47", "title": "Every bath type splits the environment, and cluster orbitals form an orthonormal basis", "statement": "For every bath type and all its options, separately for occupied and virtual orbitals: bath plus frozen orbitals are an orthonormal basis of the environment. A successfully made cluster contains the DMET cluster; its active and frozen orbitals are orthonormal and span the occupied and virtual space, with occupations two and zero; for a mean-field with occupied and virtual orbitals the occupation check never fails. Energy-weighted baths up to an order contain exactly the orbitals coupled to the fragment through that many steps with couplings above the threshold; distance baths contain exactly the orbitals within the cutoff, in the unit given, and are refused for fragments of several atoms; MP2 and RPA baths consist of natural orbitals in descending order of their occupation. Unknown bath types raise ValueError; an option for one orbital type takes precedence over the general one.", "quantifier": "all orbitals, numbers of orbitals, Fock and density matrices, bath types, options per orbital type, thresholds, orders and cutoffs", "why_tests_cant": "Continuum of orbitals; product of option values.", "anchors": ["vayesta/core/qemb/fragment.py: make_bath, make_cluster, check_occup", "vayesta/core/bath/ewdmet.py: EwDMET_Bath_RHF", "vayesta/core/bath/r2bath.py: R2_Bath_RHF", "vayesta/core/linalg.py: recursive_block_svd", "vayesta/core/bath/bno.py: truncate_bno, make_bno_coeff"]}
{"id": "C60", "title": "The polaritonic shift changes variables, not the Hamiltonian", "statement": "With the polaritonic shift of an unrestricted electron-boson cluster Hamiltonian, the effective one-body part and the couplings that are read define the same Hamiltonian as the original ones in displaced bosons, up to a known constant, for all states with the electron number of the cluster. The shifted couplings do not couple any boson to the mean-field density; the shift is the displacement of lowest mean-field energy and the reported energy change is this energy; the electron-boson density matrix returned belongs to the original bosons. Without the option nothing is shifted.", "quantifier": "all couplings, frequencies, one-body parts, numbers of orbitals, bosons and electrons, all operator algebras, all access histories", "why_tests_cant": "An operator identity on an infinite-dimensional space; continuum of couplings.", "anchors": ["vayesta/solver/hamiltonian.py: EB_UClusterHamiltonian, EB_RClusterHamiltonian.set_polaritonic_shift, get_polaritonic_fock_shift, get_polaritonic_shifted_couplings, get_eb_dm_polaritonic_shift", "vayesta/solver/ebfci.py: EB_EBFCI_Solver.kernel"]}
{"id": "C69", "title": "Restricted electron-boson Hamiltonians do not ignore spin-dependent couplings", "statement": "A restricted electron-boson cluster Hamiltonian, which has one set of couplings for both spins, represents the same Hamiltonian as the couplings of both spins, or raises RuntimeError if these differ.", "quantifier": "all couplings, frequencies and one-body parts, with and without polaritonic shift", "why_tests_cant": "Continuum of couplings.", "anchors": ["vayesta/solver/hamiltonian.py: EB_RClusterHamiltonian.couplings, get_polaritonic_shifted_couplings, get_heff, get_eb_dm_polaritonic_shift"]}
{"id": "C70", "title": "Bosonic attributes of a cluster Hamiltonian can be read in any order", "statement": "Frequencies, couplings, effective one-body part and shift of an electron-boson cluster Hamiltonian can be read in any order and any number of times, with the same values.", "quantifier": "all histories of accesses, all couplings and frequencies, bosons from the fragment or generated on first use", "why_tests_cant": "Unbounded histories.", "anchors": ["vayesta/solver/hamiltonian.py: EB_RClusterHamiltonian.couplings, polaritonic_shift, bos_freqs, unshifted_couplings, initialise_bosons, get_heff"]}
{"id": "C67", "title": "Tailoring adds exactly the projected differences to the other fragments", "statement": "Tailoring CCSD amplitudes with other fragments adds, for every fragment whose cluster overlaps with the current one, the difference between its amplitudes and the current ones in its cluster, with no, one (averaged over the electrons in T2) or two occupied indices projected onto the fragment, brought back to the current cluster. The result does not depend on the order of fragments or on the orbitals chosen to represent their clusters, leaves amplitudes alone that agree with all fragments, keeps exchange symmetry, and for full clusters gives each fragment's part from this fragment. Other numbers of projectors and clusters without occupied or virtual orbitals raise ValueError; corrections of different kinds or with different numbers of projectors cannot be combined.", "quantifier": "all clusters, numbers of orbitals and fragments, amplitudes, tolerances and overlap matrices, restricted and unrestricted", "why_tests_cant": "Continuum of orbitals and amplitudes; the claims are about all rotations, all orders and all numbers of fragments.", "anchors": ["vayesta/solver/coupling.py: tailor_with_fragments, transform_amplitude, project_t2", "vayesta/solver/ext_ccsd.py: get_callback"]}
{"id": "C71", "title": "External corrections are the sum of the corrections of all fragments", "statement": "The external correction added to the amplitudes is the sum over all fragments of their projected corrections in the current cluster, residuals divided by energy denominators and amplitude differences (delta-tailoring) not divided, independent of the order.", "quantifier": "all lists of corrections, amplitudes, numbers of projectors and orbital energies", "why_tests_cant": "Unbounded lists; all combinations and orders of types.", "anchors": ["vayesta/solver/coupling.py: externally_correct, project_t2, transform_amplitude"]}
{"id": "C68", "title": "Integrals of a folded k-point mean-field are those of the supercell", "statement": "For a uniform k-point mesh containing the gamma point, in any order and with every k-point taken in any unit cell of the reciprocal lattice, overlap, core Hamiltonian and effective potential of the folded mean-field are the gamma-point integrals of the supercell: the sum over all lattice vectors that connect the two cells up to supercell lattice vectors. They are invariant under translations, unfolding gives back the k-point integrals, and folding what was unfolded gives back every translationally invariant matrix. Products, traces, Hermiticity and expectation values agree with the k-point ones, so that the energy of the supercell is the number of cells times the energy per cell. They are real exactly if the k-point integrals have time-reversal symmetry; ImaginaryPartError is raised exactly if some imaginary part is above the tolerance.", "quantifier": "all lattices, meshes of up to 10^8 points in each direction, orders of k-points, numbers of orbitals, integrals", "why_tests_cant": "Continuum of integrals and lattices; all sizes of meshes.", "anchors": ["vayesta/core/foldscf.py: FoldedSCF, kpts_to_kmesh, translation_vectors_for_kmesh, get_phase, k2bvk_2d, bvk2k_2d"]}
{"id": "C72", "title": "Folded orbitals are real canonical orbitals with the density of the k-point calculation", "statement": "If the folded overlap and Fock matrices are real, the orbitals of the folded mean-field are real, orthonormal eigenvectors of the supercell Fock matrix, with the orbital energies of all k-points in ascending order; orbitals that are already real are not changed; no error is raised; and with the occupations of the k-points they give the folded density matrix, provided that orbitals of equal energy are equally occupied.", "quantifier": "all overlap and Fock matrices, meshes, numbers of orbitals, energies (degenerate or not), occupations and eigenvectors chosen by the eigensolver", "why_tests_cant": "Continuum of matrices; the eigensolver may choose any vectors in degenerate spaces.", "anchors": ["vayesta/core/foldscf.py: FoldedRHF, FoldedUHF, fold_mos, make_mo_coeff_real"]}
{"id": "C73", "title": "RPA frequencies, amplitudes and moments solve the RPA equations", "statement": "If an RPA calculation (restricted or unrestricted, direct, with an xc-kernel or with exchange) returns, its frequencies are positive and its amplitudes X, Y satisfy the RPA equations AX + BY = X omega, BX + AY = -Y omega, are normalised and complete, for the A and B defined by orbital energies, interaction strength, interaction and kernel. The moments of the density-density response are those of every solution, whatever eigenvectors were chosen; the zeroth one is the only positive definite solution of eta (A+B) eta = A-B, the first is A-B and higher ones follow by a recursion. Restricted to a subspace of excitations, A and B are the projected ones. Negative or zero energy differences and unstable references raise AssertionError; repulsive interactions with a gap always give a result. The unrestricted class gives the same interaction as the restricted one for equal spins.", "quantifier": "all numbers of orbitals, orbital energies, interactions, kernels given as arrays, strengths, subspaces of excitations and choices of eigenvectors", "why_tests_cant": "Continuum of interactions; the eigensolver may choose any eigenvectors.", "anchors": ["vayesta/rpa/ssrpa.py: ssRPA.kernel, _gen_eps, _gen_arrays, get_k, get_xc_contribs, gen_moms", "vayesta/rpa/ssurpa.py: ssURPA", "vayesta/rpa/rpa.py: RPA.kernel"]}
{"id": "C74", "title": "RPA correlation energies agree with each other and with the adiabatic connection", "statement": "With the full interaction and all excitations, the direct RPA correlation energy is half the difference between the RPA frequencies and the trace of A, equals minus the sum of frequencies times squared de-excitation amplitudes, is never positive and vanishes only without interaction, and equals the integral of the interaction energy over the coupling strength. With an xc-kernel, the two expressions of the energy as adiabatic connection agree for exact integration; the linear approximations are these expressions with the trapezoidal rule. Unknown versions and calculations without kernel raise ValueError.", "quantifier": "all numbers of orbitals, orbital energies, interactions, kernels and eigenvectors for which RPA succeeds for strengths between 0 and 1", "why_tests_cant": "Continuum of interactions; an identity between an integral over infinitely many RPA calculations and one of them.", "anchors": ["vayesta/rpa/ssrpa.py: ssRPA.kernel, calc_energy_correction"]}
{"id": "C75", "title": "RPA with exchange gives the spin-adapted RPAX energy", "statement": "The RPA class with exchange returns a quarter of the sum over singlets and three triplets of the differences between RPA frequencies and the trace of A, as computed in the spin-adapted basis, and without exchange the energy of direct RPA. The name of the kernel can be given in any case, and a tuple of four arrays is accepted.", "quantifier": "all orbital energies and integrals for which singlets and triplets are stable, all names", "why_tests_cant": "Continuum of integrals; all strings.", "anchors": ["vayesta/rpa/rpa.py: RPA.kernel, get_interaction_kernel, _build_arrays, e_corr"]}
{"id": "C76", "title": "A factorised xc-kernel gives the same RPA problem as its arrays", "statement": "An xc-kernel given by left and right factors per spin enters RPA as the arrays that are the products of these factors: aa, ab (left alpha, right beta) and bb.", "quantifier": "all factors, numbers of auxiliary functions and orbitals", "why_tests_cant": "Continuum of factors.", "anchors": ["vayesta/rpa/ssrpa.py: ssRPA.get_xc_contribs", "vayesta/edmet/fragment.py"]}
{"id": "C77", "title": "Moment-conserving screened interactions reproduce the RPA response of the cluster", "statement": "The screened interaction built for a cluster (screening=\"mrpa\") is the one for which direct RPA within the cluster, with the orbital energy differences projected to it, has the zeroth moment of the density-density response of the RPA of the system, projected to the excitations of the cluster; no other symmetric interaction has it. It is the bare interaction if the cluster has all orbitals, zero screening is found without interaction, and it follows every rotation of the cluster orbitals. Inserted into the integrals it changes exactly those with two occupied-virtual pairs, keeps their permutational symmetry, and can be removed again from CCSD integrals. Without density fitting, without fragments with this screening, or for clusters without excitations an error is raised.", "quantifier": "all systems, clusters, numbers of orbitals, interactions, stable RPA solutions, choices of eigenvectors, restricted and unrestricted", "why_tests_cant": "Continuum of interactions and orbitals; uniqueness is a statement about all possible interactions.", "anchors": ["vayesta/core/screening/screening_moment.py: build_screened_eris, calc_moms_RIRPA, calc_moms_RPA, get_screened_eris_full, get_screened_eris_ccsd, _get_target_rot", "vayesta/solver/hamiltonian.py: RClusterHamiltonian._add_screening"]}
{"id": "C78", "title": "Static constrained RPA interactions reproduce the static response of the system", "statement": "With screening=\"crpa\" and \"pcoupled\", or if orbital energies do not couple the cluster to other excitations, direct RPA in the cluster with the screened interaction has the static response of the RPA of the system, projected to the cluster, also after averaging over spins in restricted Hamiltonians. Screening lowers the interaction energy of every density of electrons with itself, keeps the symmetry of the integrals on exchange of electrons, and without \"pcoupled\" all symmetries of real integrals. With \"ov\" only integrals with two occupied-virtual pairs are screened, and these as without it. If a cluster has all excitations nothing is screened, and a result is found for all references with a gap. Words in the option have these effects wherever they occur; other options raise ValueError.", "quantifier": "all systems, clusters, numbers of orbitals, three-index integrals, orbital energies, bases of the excitations outside of the cluster, eigenvectors and option strings", "why_tests_cant": "Continuum of integrals; all strings.", "anchors": ["vayesta/core/screening/screening_crpa.py: get_frag_deltaW, set_up_W_crpa, get_crpa, ao2mo", "vayesta/solver/hamiltonian.py: RClusterHamiltonian.add_screening, _add_screening"]}
{"id": "C79", "title": "The external RPA correction adds nothing that the clusters already contain", "statement": "With ext_rpa_correction=\"erpa\" or \"cumulant\", if fragments together contain all occupied orbitals and clusters have all orbitals, the local RPA (cumulant) energies add up to the RPA correlation energy (cumulant energy) of the system, so that the correction is zero, also if only the parents of symmetry-related fragments are calculated and weighted by their symmetry factor. Local energies do not depend on the orbitals that represent a cluster. Unrestricted systems and fragments with other screening raise NotImplementedError, unknown options ValueError; without the option nothing is added.", "quantifier": "all systems, fragmentations, cluster orbitals, symmetries, numbers of unit cells, orbital energies and interactions (also with negative three-index integrals)", "why_tests_cant": "Continuum of interactions and orbitals; all numbers of fragments and symmetries.", "anchors": ["vayesta/solver/hamiltonian.py: RClusterHamiltonian.calc_loc_erpa", "vayesta/core/qemb/qemb.py: Embedding.e_nonlocal, build_screened_eris", "vayesta/core/qemb/uqemb.py: UEmbedding.build_screened_eris", "vayesta/core/qemb/fragment.py: Fragment.get_local_rpa_correction"]}
{"id": "C80", "title": "A self-consistent mean-field calculation is a series of one-shot calculations that stops when it should", "statement": "With a self-consistent mean-field attached, kernel() runs one-shot calculations with an update of the mean-field after each. It stops after the first calculation that breaks the symmetry between fragments, or whose energy and density matrix differ from the previous ones by less than the tolerances, or after maxiter calculations; the result is the one of the last calculation, and all energies are recorded, the first being the one-shot energy. Of a new object, converged is true if and only if the last two calculations agree within the tolerances and symmetry is obeyed. A mean-field that is already self-consistent is recognised by the second calculation, and a series that converges to a limit is stopped given enough iterations. Exceptions are passed on. For a single cell the recorded energies are the ones of the embedding.", "quantifier": "all embedding methods, updates, extrapolations, tolerances (or none), iteration limits, histories of earlier calls", "why_tests_cant": "All sequences of energies and density matrices of any length; a limit statement.", "anchors": ["vayesta/core/scmf/scmf.py: SCMF.kernel, check_convergence, e_tot, e_tot_oneshot", "vayesta/core/qemb/qemb.py: Embedding.with_scmf"]}
{"id": "C81", "title": "The p-DMET update finds the determinant closest to the correlated density matrix", "statement": "If the natural occupations at the Fermi level differ by at least 1e-8, the new occupied orbitals are those of the determinant whose density matrix is closest to the correlated density matrix, and of no other one; this does not depend on the original orbitals. The new orbitals are always orthonormal and span the same space. If the correlated density matrix is the one of the mean-field, nothing changes. Both spins are updated independently, the density matrix is the one selected by the option. Degenerate occupations raise RuntimeError, and systems without virtual orbitals, or without electrons of one spin, are refused.", "quantifier": "all density matrices, overlap matrices, orbitals, numbers of orbitals and electrons, eigenvectors, extrapolations", "why_tests_cant": "Minimisation over the continuum of all determinants.", "anchors": ["vayesta/core/scmf/pdmet.py: PDMET_RHF.update_mo_coeff, get_rdm1, PDMET_UHF.update_mo_coeff"]}
{"id": "C82", "title": "The Brueckner update rotates orbitals by the single amplitudes until these vanish", "statement": "If there are occupied orbitals, the update never fails and gives orthonormal orbitals that span the same space, with or without damping and extrapolation. Without extrapolation the new occupied space is the one of the occupied orbitals plus (1 - damping) times the virtual orbitals weighted by the single amplitudes. The determinant is unchanged if and only if single amplitudes vanish (or damping is complete). Systems without electrons of one spin raise an exception.", "quantifier": "all amplitudes, overlap matrices, orbitals, numbers of orbitals and electrons, eigenvectors, damping factors, extrapolations", "why_tests_cant": "Continuum of amplitudes and orbitals.", "anchors": ["vayesta/core/scmf/brueckner.py: Brueckner_RHF.update_mo_coeff, Brueckner_UHF.update_mo_coeff"]}
{"id": "C83", "title": "The projected energy is the energy of the assembled wave function, and exact for exact clusters", "statement": "The projected correlation energy of a calculation is the correlation energy expression of one set of singles and doubles coefficients: the sum of the fragment-projected coefficients of all contributing fragments with their weights. It does not matter whether fragment energies were stored during the calculation, which orbitals represent a cluster, whether the projected coefficients are transformed back to the cluster and symmetrised, or whether symmetry-equivalent fragments are calculated or only weighted. If all clusters span the whole space and hold the exact coefficients and the fragments partition the occupied space, the result is the exact correlation energy per cell, for restricted and unrestricted orbitals (MP2, CCSD, CISD or FCI). For CCSD it is the same as the energy from global amplitudes (get_ccsd_corr_energy, both variants). The unrestricted code gives the restricted energy for closed shells.", "quantifier": "all systems, fragmentations, clusters, amplitudes, integrals, symmetry operations, weights, numbers of orbitals and cells", "why_tests_cant": "Continuum of amplitudes, integrals and orbitals; any number of fragments and symmetry images.", "anchors": ["vayesta/ewf/fragment.py: Fragment.kernel, get_fragment_energy", "vayesta/ewf/ufragment.py: Fragment.get_fragment_energy", "vayesta/ewf/ewf.py: EWF.get_wf_corr_energy, get_ccsd_corr_energy", "vayesta/core/types/wf: as_cisd, project"]}
{"id": "C84", "title": "One-body density matrices of embedded coupled-cluster calculations conserve electrons and are exact for exact clusters", "statement": "The density matrix of the global wave function is the coupled-cluster density matrix of the assembled amplitudes: the fast algorithm (over pairs of fragments, with compression by singular values, screening of pairs, early or late symmetrisation of amplitudes, with or without use of symmetry) agrees with the slow one if nothing is truncated. If every operation maps the fragments to themselves the use of symmetry changes nothing. For clusters that span the whole space and fragments that partition the occupied space, this density matrix, the sum of fragment contributions and the one of projected lambda amplitudes are the one of the exact amplitudes of the system, with lambda or with t amplitudes in their place. All are symmetric, and all have as many electrons as the mean-field, for any amplitudes (the fast algorithm with early symmetrisation also for any truncation). Missing lambda amplitudes raise an exception.", "quantifier": "all systems, fragmentations, cluster orbitals, amplitudes, symmetry operations, options, decompositions and screening criteria, numbers of orbitals", "why_tests_cant": "Continuum of amplitudes and orbitals; any number of fragments and symmetry images.", "anchors": ["vayesta/ewf/rdm.py: make_rdm1_ccsd, make_rdm1_ccsd_global_wf, make_rdm1_ccsd_proj_lambda", "vayesta/ewf/ewf.py: EWF._make_rdm1_ccsd, _make_rdm1_ccsd_global_wf, _make_rdm1_ccsd_proj_lambda", "vayesta/ewf/fragment.py: Fragment.make_fragment_dm1", "vayesta/core/vpyscf/ccsd_rdm.py: _gamma1_intermediates, _make_rdm1"]}
{"id": "C85", "title": "Perturbative triples energies of fragments add up to the exact one for exact clusters", "statement": "For any cluster, the triples energies of any set of projectors that adds up to the occupied space add up to the (T) energy expression of Rendell et al., whichever of the two arrays is projected. A fragment's energy does not depend on the choice of canonical orbitals. If all clusters span the whole space with the exact amplitudes, get_ccsd_t_corr_energy gives the exact (T) energy per cell, with the singles of the clusters or of the global wave function, and with symmetry-equivalent fragments calculated or only weighted. The option to calculate the energy of a fragment in its kernel, passing doubles amplitudes, and any other projection raise exceptions.", "quantifier": "all clusters, numbers of orbitals, amplitudes, integrals, orbital energies, projectors, rotations of degenerate orbitals, fragmentations, symmetry operations", "why_tests_cant": "Continuum of amplitudes, integrals and orbitals; a sum of 36 permutations over a triangular loop for any number of orbitals.", "anchors": ["vayesta/ewf/ccsd_t.py: calc_fragment_ccsd_t_energy, calc_fragment_rccsd_t_energy", "vayesta/ewf/ewf.py: EWF.get_ccsd_t_corr_energy", "vayesta/ewf/fragment.py: Fragment.kernel"]}
{"id": "C86", "title": "Unrestricted perturbative triples energies of fragments add up to the exact one for exact clusters", "statement": "For any unrestricted cluster, the triples energies of any set of pairs of projectors that adds up to the occupied space of both spins add up to the spin-orbital (T) energy 1/36 sum W (W + V) / D, whichever of the two arrays is projected; in a closed-shell system this is the energy of a restricted calculation. A fragment's energy does not depend on the choice of canonical orbitals of either spin. If all clusters span the whole space with the exact amplitudes, get_ccsd_t_corr_energy gives the exact (T) energy per cell, with symmetry-equivalent fragments calculated or only weighted. Passing integrals and any other projection raise exceptions.", "quantifier": "all clusters, numbers of orbitals of either spin, amplitudes, integrals, orbital energies, projectors, rotations of degenerate orbitals, fragmentations, symmetry operations", "why_tests_cant": "Continuum of amplitudes, integrals and orbitals; four spin cases with different permutation operators for any number of orbitals.", "anchors": ["vayesta/ewf/ccsd_t.py: calc_fragment_ccsd_t_energy, calc_fragment_uccsd_t_energy", "vayesta/ewf/ewf.py: EWF.get_ccsd_t_corr_energy"]}
{"id": "C87", "title": "The electron-boson FCI solver diagonalises the coupled Hamiltonian, and its density matrices are those of the vector", "statement": "The action of the Hamiltonian on a vector is the one of the operator h p\u2020q + 1/2 (pq|rs) p\u2020r\u2020sq + V (b\u2020 p\u2020q + b q\u2020p) + w b\u2020b in the space of all determinants and all boson occupations up to the limit, for restricted and unrestricted integrals; for the same integrals of both spins these agree. Without bosons only the electronic part acts. The operator is symmetric. The one- and two-body density matrices and the electron-boson density matrix are the expectation values of p\u2020q, p\u2020r\u2020sq and b\u2020p\u2020q; they contain the right number of electrons, and the energy of an eigenvector follows from them and the integrals. A boson number operator counts the bosons.", "quantifier": "all integrals, couplings, numbers of orbitals, electrons, boson modes, occupation limits, and vectors", "why_tests_cant": "Continuum of vectors and integrals; operator identities for any number of orbitals and bosons.", "anchors": ["vayesta/solver/eb_fci/ebfci_slow.py: contract_all, contract_2e, contract_ep, contract_pp, contract_pp_for_future, kernel, make_rdm1, make_rdm12, make_eb_rdm", "vayesta/solver/eb_fci/uebfci_slow.py: contract_all, contract_2e, contract_ep, contract_pp, kernel, make_rdm1, make_rdm12s, make_eb_rdm"]}
{"id": "C88", "title": "Moments of the density response of electron-boson FCI are those of the excitation spectrum", "statement": "For a normalised eigenvector and its spin density matrices, the moments of order 0 to any maximum are <0|(p\u2020q - <p\u2020q>) (H - E0)^k (r\u2020s - <r\u2020s>)|0> for all pairs of spins, in the original or in any other orbitals, and also if only their diagonals are asked for. If one density matrix is given for both spins the result is right only if both spins have the same density.", "quantifier": "all eigenvectors, integrals, numbers of orbitals and bosons, transformations, maximum orders", "why_tests_cant": "Unbounded order; continuum of integrals and transformations.", "anchors": ["vayesta/solver/eb_fci/ebfci_slow.py: calc_dd_resp_mom", "vayesta/solver/eb_fci/uebfci_slow.py: calc_dd_resp_mom"]}
{"id": "C89", "title": "The self-energy assembled with one projector is the democratically partitioned one, and exact for exact clusters", "statement": "The moments are the sum over all clusters of the symmetrised product of the fragment projector and the moments of the cluster. If all clusters span the whole space with the exact self-energy, and fragments are a partition of it, moments, poles, static self-energy and static potential are those of the whole system, with singular vectors or with eigenvectors. If no energies or eigenvalues are near the thresholds, the poles that are returned have the moments of the moments function for all orders if and only if all residues are positive semidefinite; the result is always causal, and what is not causal is lost whatever the option drop_non_causal. Using symmetry gives the same as not using it for all images. At most two vectors belong to a pole, so that the assertion never fails. Energies closer than the tolerance are averaged in consecutive slices, which keeps their sum.", "quantifier": "all mean-fields, fragments, clusters, couplings and energies, thresholds, symmetry operations, options, singular value and eigenvalue decompositions", "why_tests_cant": "Continuum of couplings and energies; any number of poles and fragments; statements about any decomposition which is right.", "anchors": ["vayesta/core/qemb/self_energy.py: make_self_energy_moments, make_self_energy_1proj, remove_se_degeneracy, get_unique"]}
{"id": "C90", "title": "The self-energy assembled with two projectors is the part of the exact one within fragments", "statement": "With exact clusters the poles, the static self-energy and the static potential are the parts within each fragment of those of the whole system. If couplings of all clusters are arrays, it is causal. Using symmetry gives the same as not using it for all images. The moments agree with those of the poles. Any other number of projectors raises an exception.", "quantifier": "all mean-fields, fragments, clusters, couplings and energies, symmetry operations", "why_tests_cant": "Continuum of couplings and energies; any number of poles and fragments.", "anchors": ["vayesta/core/qemb/self_energy.py: make_self_energy_moments, make_self_energy_2proj"]}
{"id": "C91", "title": "Quasi-particle self-consistent embedding iterates the quasi-particle Hamiltonian, and is converged when the static potential is", "statement": "Each update makes, in molecular orbitals, the sum of the Fock matrix, the static self-energy and the static potential; for exact clusters with one projector this is the sum of the first spectral moment and the static potential of the whole system, whether the potential is made from the self-energy of the whole system or from those of the clusters. All matrices are symmetric. Without a self-consistent field the new orbitals diagonalise it (damped by mixing in the old Fock matrix); with one they are those of a mean-field with the potential added to the one-electron Hamiltonian, and damping changes nothing in the whole calculation. The calculation ends after the first iteration in which the potential changes by less than the tolerance in sum over all elements, or the symmetry of fragments is lost, or after the maximum number; energies and density matrices do not matter, all energies are recorded. A self-consistent potential is found in the second iteration, or in the first of a second call. Invalid options raise exceptions.", "quantifier": "all systems, clusters, self-energies, options, numerical routines, extrapolations, numbers of iterations", "why_tests_cant": "Unbounded number of iterations; continuum of mean-fields and self-energies.", "anchors": ["vayesta/core/scmf/qpewdmet.py: QPEWDMET_RHF.update_mo_coeff, fock_scf, check_convergence, __init__", "vayesta/core/scmf/scmf.py: SCMF.kernel", "vayesta/core/qemb/qemb.py: Embedding.update_mf"]}
{"id": "C92", "title": "The intercluster MP2 energy is the MP2 energy of all pairs of fragments, without what is within the clusters", "statement": "If the spaces for the amplitudes are exact, the energy of each pair of fragments is the part of the MP2 energy of the whole system with one orbital in each of them, projected as asked for, and the result is the sum over all pairs per cell, as if there was no symmetry. Without projection and for fragments that make up the occupied space, it is the MP2 energy of the whole system per cell. If fragments are either within a cluster or apart from it, projection of occupied orbitals leaves out pairs within a cluster and keeps the others, so that together with the energies within clusters it is the MP2 energy. Whatever the spaces, nothing is left if the clusters contain all the orbitals that are projected out. Energies for diagonal and other pairs, direct and exchange terms, and disjoint sets of fragments add up. In unrestricted calculations the energy is the sum over pairs of the direct terms of all pairs of spins and the exchange terms of equal spins, and for a closed shell the same as in restricted ones. Invalid arguments raise exceptions.", "quantifier": "all mean-fields, integrals, fragments, clusters, orbital spaces, symmetry operations, arguments", "why_tests_cant": "Continuum of integrals and orbitals, any number of fragments and symmetry operations.", "anchors": ["vayesta/ewf/icmp2.py: get_intercluster_mp2_energy_rhf, get_intercluster_mp2_energy_uhf, ClusterRHF, ClusterUHF, _get_icmp2_fragments"]}
{"id": "C93", "title": "One-body density matrices of unrestricted embedded coupled-cluster calculations conserve electrons of each spin and are exact for exact clusters", "statement": "In unrestricted calculations the density matrix of the global wave function is the coupled-cluster density matrix of the amplitudes assembled from the fragments, for both spins: the fast algorithm (over pairs of fragments, with compression, screening, early or late symmetrisation, with or without use of symmetry) agrees with the slow one if nothing is truncated. If every operation maps the fragments to themselves the use of symmetry changes nothing. For clusters that span the whole space and fragments that partition the occupied space of each spin, this density matrix and the sum of fragment contributions are those of the exact amplitudes of the system, with lambda amplitudes or t amplitudes in their place, and with the ones of second-order perturbation theory. All are symmetric and have as many electrons of each spin as the mean-field, for any amplitudes (the fast algorithm with early symmetrisation also for any truncation). For a closed shell each spin has half of the restricted one. Missing lambda amplitudes raise an exception.", "quantifier": "all unrestricted systems, fragmentations, cluster orbitals, amplitudes, symmetry operations, options, decompositions and screening criteria, numbers of orbitals of each spin", "why_tests_cant": "Continuum of amplitudes and orbitals of both spins; any number of fragments and symmetry images.", "anchors": ["vayesta/ewf/amplitudes.py: get_global_t1_uhf, get_global_t2_uhf", "vayesta/ewf/urdm.py: make_rdm1_ccsd, make_rdm1_ccsd_global_wf", "vayesta/ewf/uewf.py: UEWF._make_rdm1_ccsd, UEWF._make_rdm1_mp2, UEWF._make_rdm1_ccsd_global_wf", "vayesta/core/vpyscf/uccsd_rdm.py: _gamma1_intermediates, _make_rdm1"]}
{"id": "C94", "title": "The coupled-cluster two-body density matrix is consistent with the one-body density matrix, a singlet, and exact for two electrons", "statement": "For all amplitudes and multipliers of restricted coupled cluster (with doubles that are symmetric under exchange of the excitations, which is needed) the two-body density matrix summed over either electron is the one-body density matrix times the number of other electrons, and its full trace is the number of ordered pairs. Its exchange trace is that of a singlet. It is symmetric under exchange of electrons and of bra and ket, with or without the one-body part. Both density matrices are affine in the multipliers, and with vanishing multipliers give the projected energy. With two electrons both density matrices are exactly those of the wave functions exp(T)|0> and <0|(1+L)exp(-T).", "quantifier": "all amplitudes and multipliers over any field of characteristic zero, all numbers of occupied and virtual orbitals, all entries, with and without one-body part", "why_tests_cant": "Identities between polynomials in tensors of unbounded size; a test evaluates them at single random tensors with a tolerance.", "anchors": ["vayesta/core/vpyscf/ccsd_rdm.py: _gamma1_intermediates, _gamma2_outcore, _gamma2_intermediates, _make_rdm1, _make_rdm2, make_rdm1, make_rdm2"]}
{"id": "C95", "title": "The two-body density matrix assembled from fragments is that of the wave function for complete clusters, and obeys the sum rule for any clusters", "statement": "If every cluster is the whole system and the projectors of the fragments add up to the identity, the two-body density matrix assembled from the cumulants of the fragments is the coupled-cluster density matrix of the wave function: without the one-body part, with it for the approximate cumulant (with multipliers, or amplitudes in their place), and with it for the exact cumulant if multipliers are used; it agrees with the one built from the global wave function. With amplitudes in place of multipliers the exact cumulant is wrong even then, since the product taken off uses the multipliers. With MP2 the fragments add up to first-order amplitudes in the blocks of pair excitations. For clusters of any size, together with the one-body density matrix assembled from the same fragments, it contracts to that density matrix times the number of other electrons. The order of fragments does not matter. Combinations of options which are not supported raise exceptions, all others give a result.", "quantifier": "all amplitudes and multipliers, numbers of orbitals, projections onto any number of fragments, clusters, options and their combinations", "why_tests_cant": "Continuum of amplitudes and projectors, any number of fragments; agreement at one molecule does not show that terms without multipliers are counted once for any partition.", "anchors": ["vayesta/ewf/rdm.py: make_rdm2_ccsd_global_wf, make_rdm2_ccsd_proj_lambda, make_rdm1_ccsd_proj_lambda", "vayesta/ewf/fragment.py: _ccsd_amplitudes_for_dm, _get_projected_gamma1_intermediates, _get_projected_gamma2_intermediates, make_fragment_dm1, make_fragment_dm2cumulant", "vayesta/ewf/ewf.py: make_rdm2"]}
{"id": "C96", "title": "The unrestricted coupled-cluster density matrices obey the sum rules of each spin, and for a closed shell are the restricted ones resolved by spin", "statement": "For all amplitudes and multipliers of any open shell (those of equal spins antisymmetric) the traces of the one-body density matrices are the numbers of electrons of either spin; summing a two-body density matrix over an electron gives the one-body density matrix times the number of other electrons of that spin; those of equal spins change sign when two indices of the same kind are exchanged. With one electron of either spin they are exactly those of the wave functions exp(T)|0> and <0|(1+L)exp(-T). Given the amplitudes and multipliers of a closed shell, the unrestricted one-body density matrices are both half of the restricted one. The unrestricted two-body density matrices of equal spins and of both orders of opposite spins add up to the restricted one, which other formulas compute, with and without the one-body part; those of equal spins are the antisymmetrised one of opposite spins and vanish for two electrons.", "quantifier": "all amplitudes and multipliers over any field of characteristic zero, all numbers of occupied and virtual orbitals, all entries, with and without one-body part", "why_tests_cant": "Identities between polynomials in tensors of unbounded size; a test evaluates them at single tensors with a tolerance.", "anchors": ["vayesta/core/vpyscf/uccsd_rdm.py: _gamma1_intermediates, _gamma2_outcore, _gamma2_intermediates, _make_rdm1, _make_rdm2, make_rdm1, make_rdm2"]}

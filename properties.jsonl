{"id": "C01", "title": "Finite element function numbering is gap-free and overlaps exactly", "statement": "After construction, get_idx(iel) gives for each element a contiguous range of global function numbers; the ranges start at 0, end at get_nbf()-1, jointly cover every number in between, two neighbouring elements share exactly get_noverlap() functions, and two non-neighbouring elements share none. get_nbf() equals the closed formula nelem*(nprim-noverlap)+noverlap minus the functions removed by the boundary conditions.", "quantifier": "every polynomial family, node count >= 2, number of elements >= 1 and every combination of the four boundary-condition flags", "why_tests_cant": "the claim ranges over all element counts and node counts; tests run a handful of small bases", "anchors": ["libhelfem/src/FiniteElementBasis.cpp: update_bf_list, get_idx, get_nbf, basis_indices, get_basis", "libhelfem/include/LIPBasis.h", "libhelfem/include/HIPBasis.h", "libhelfem/include/HIP2Basis.h", "libhelfem/include/HIP3Basis.h", "libhelfem/include/LegendreBasis.h"]}
{"id": "C02", "title": "Boundary conditions remove exactly the requested shape functions", "statement": "Asking for a vanishing function and/or vanishing derivatives at the left/right edge removes from the edge element exactly the value and/or derivative interpolants of that edge node and keeps every other shape function in ascending order; asking for nothing removes nothing.", "quantifier": "every family, node count >= 2, both edges, all flag combinations, including single-element bases where both edges act on the same element", "why_tests_cant": "flag combinations multiply with families and sizes; an unused combination is exactly where a wrong branch hides", "anchors": ["libhelfem/include/LIPBasis.h: drop_first, drop_last", "libhelfem/include/HIPBasis.h: drop_first, drop_last", "libhelfem/include/HIP2Basis.h: drop_first, drop_last", "libhelfem/include/HIP3Basis.h: drop_first, drop_last", "libhelfem/include/LegendreBasis.h: drop_first, drop_last"]}
{"id": "C03", "title": "find_element terminates and returns an element that contains the point", "statement": "For every grid and every ordered (non-NaN) coordinate, find_element returns after at most get_nelem() bisection steps; the returned element contains the coordinate when it lies inside the grid, and is the first/last element when it lies below/above it.", "quantifier": "every grid with at least one element and every coordinate, including shared boundaries and NaN", "why_tests_cant": "termination of a while(true) loop for every grid and point cannot be observed by finite runs", "anchors": ["libhelfem/src/FiniteElementBasis.cpp: find_element, element_begin, element_end"]}
{"id": "C04", "title": "Element coordinate maps are mutually inverse and glue at shared boundaries", "statement": "eval_prim(eval_coord(x)) = x and eval_coord(eval_prim(r)) = r inside an element, eval_coord maps [-1,1] onto the element with the ends going to the ends, neighbouring elements agree at the shared boundary, eval_prim rejects a batch exactly when some coordinate lies outside the element, and the weights returned by eval_weights over all elements integrate a constant to the length of the grid.", "quantifier": "every strictly increasing grid, every element and every batch of coordinates", "why_tests_cant": "quantifies over all real grids and points", "anchors": ["libhelfem/src/FiniteElementBasis.cpp: eval_coord, eval_prim, eval_weights, scaling_factor, element_midpoint, element_length"]}
{"id": "C05", "title": "Adding element boundaries is idempotent, order independent and keeps the grid sorted", "statement": "add_boundary(r) leaves a grid that already contains r unchanged, otherwise inserts r exactly once; the grid stays sorted and duplicate free; the grid after any sequence of insertions depends only on the set of inserted points; the function numbering is rebuilt consistently.", "quantifier": "every sorted grid and every finite sequence of boundaries in any order", "why_tests_cant": "order independence ranges over all permutations of all insertion histories", "anchors": ["libhelfem/src/FiniteElementBasis.cpp: add_boundary, update_bf_list"]}
{"id": "C06", "title": "Element grids start at zero, end at rmax and increase strictly", "statement": "get_grid returns num_el+1 points, first exactly 0, last exactly rmax, strictly increasing for every supported grid type, and throws for an unknown grid type or an inadmissible grid parameter.", "quantifier": "every rmax > 0, number of elements, grid type and admissible grid exponent", "why_tests_cant": "continuous parameters; monotonicity for all exponents is an analytic fact", "anchors": ["libhelfem/include/grid.h: get_grid"]}
{"id": "C07", "title": "The radial grids assembled for finite and off-centre nuclei are valid element grids", "statement": "The grid built for an atom (plain, finite-nucleus, or with one or two off-centre nuclei) is strictly increasing, starts at 0, contains the nuclear radius / nuclear positions as element boundaries, has the requested total number of elements, and ends at rmax.", "quantifier": "every admissible combination of nuclear charges, radii, element counts and grid parameters", "why_tests_cant": "composition of several real-parameter grids over all branches", "anchors": ["src/atomic/basis.cpp: concatenate_grid, normal_grid, finite_nuclear_grid, offcenter_nuclear_grid, form_grid"]}
{"id": "C08", "title": "The polynomial basis factory accepts exactly the documented families", "statement": "get_basis(primbas, Nnodes) rejects fewer than two nodes and every unknown or retired identifier with an exception, and for every accepted identifier returns a basis with the advertised overlap and number of primitives, whose reported identifier passed back to the factory rebuilds an equivalent basis.", "quantifier": "every integer identifier and every integer node count", "why_tests_cant": "the identifiers and node counts range over all integers", "anchors": ["libhelfem/src/PolynomialBasis.cpp: get_basis"]}
{"id": "C09", "title": "Lagrange shape function derivatives are the true derivatives", "statement": "For every supported derivative order n, the evaluator of Lagrange interpolating polynomials returns the n-th derivative of the interpolating polynomial at every point, for every node set.", "quantifier": "every set of nodes, every shape function, every point and every supported order", "why_tests_cant": "identity between hand-expanded nested loops and n-th derivatives for arbitrary node counts", "anchors": ["libhelfem/include/LIPBasis_eval.h: eval_lip_prim_dnf"]}
{"id": "C10", "title": "Lagrange shape functions are cardinal and reproduce polynomials", "statement": "The Lagrange shape functions equal 1 at their own node and 0 at the others, and the expansion with nodal values reproduces every polynomial of degree below the number of nodes exactly everywhere; in particular the shape functions sum to one.", "quantifier": "all node sets with distinct nodes, all polynomials of the given degree, all points", "why_tests_cant": "universal statement over polynomials and node sets", "anchors": ["libhelfem/include/LIPBasis_eval.h", "libhelfem/include/LIPBasis.h"]}
{"id": "C11", "title": "Hermite shape functions interpolate value and derivative", "statement": "The first-order Hermite basis has, at every node, value functions with unit value and zero slope and derivative functions with zero value and a slope of the element scale at their own node, and vanishing value and slope at all other nodes; the evaluated derivatives of each order are the true derivatives.", "quantifier": "all distinct node sets, all nodes, all points, all element lengths, all supported derivative orders", "why_tests_cant": "universal over node sets and points; hand-expanded derivative formulas", "anchors": ["libhelfem/include/HIPBasis_eval.h: eval_hip_prim_dnf", "libhelfem/include/HIPBasis.h"]}
{"id": "C12", "title": "Second and third order Hermite shape functions interpolate all advertised derivatives", "statement": "The second (third) order Hermite bases have at every node exactly one function for the value and one for each of the first two (three) derivatives, with all the other interpolated data vanishing at all nodes.", "quantifier": "all distinct node sets, all nodes and all element lengths", "why_tests_cant": "universal over node sets; coefficient formulas were derived by hand", "anchors": ["libhelfem/include/HIP2Basis.h", "libhelfem/include/HIP2Basis_eval.h", "libhelfem/include/HIP3Basis.h", "libhelfem/include/HIP3Basis_eval.h"]}
{"id": "C13", "title": "Legendre shape functions join elements only through the two end functions", "statement": "In the Legendre family the first function is 1 at the left end and 0 at the right end, the last is 0 and 1, and every bubble function vanishes at both ends, so that the assembled functions are continuous.", "quantifier": "every polynomial order", "why_tests_cant": "induction over polynomial order", "anchors": ["libhelfem/include/LegendreBasis.h", "libhelfem/include/legendre_poly.h"]}
{"id": "C14", "title": "B(r)/r on the first element is exact, also at the origin", "statement": "On the first element, eval_over_r returns values that multiplied by r give back the shape function, and stay finite at r = 0 where they equal the derivative of the shape function; the call is rejected if a function that does not vanish at the origin is present.", "quantifier": "all node sets, all surviving functions, all points including the origin, all element lengths", "why_tests_cant": "the removable singularity sits at a single point and must hold for all node sets", "anchors": ["libhelfem/include/LIPBasis.h: eval_over_r", "libhelfem/include/HIPBasis_over_r.h", "libhelfem/include/LegendreBasis.h: eval_over_r", "libhelfem/src/FiniteElementBasis.cpp: eval_over_r"]}
{"id": "C15", "title": "Global operator matrices are the sum of their element contributions, symmetric, and independent of the thread schedule", "statement": "The whole-basis matrix of an operator has at (i,j) the sum over exactly those elements that contain both functions of the element contributions; it is symmetric whenever the element matrices are; computing the element blocks in any order by any number of threads gives the same matrix.", "quantifier": "every basis, every operator weight, every assignment and interleaving of elements to threads", "why_tests_cant": "schedules cannot be enumerated by tests", "anchors": ["libhelfem/src/FiniteElementBasis.cpp: matrix_element", "libhelfem/src/RadialBasis.cpp: radial_integral, matrix_element"]}
{"id": "C16", "title": "Self-converging quadrature terminates, respects its order cap and never re-reports an unconverged value as converged early", "statement": "The adaptive element quadrature doubles its order from its (clamped) starting order, evaluates only at orders between the start and the cap, stops after finitely many evaluations, and returns either a value that agrees with its predecessor within the tolerance or the value at the cap.", "quantifier": "every start order, cap, tolerance and integrand", "why_tests_cant": "termination for arbitrary, even noisy, integrands", "anchors": ["libhelfem/src/FiniteElementBasis.cpp: converge_panel, matrix_element_auto", "libhelfem/src/RadialBasis.cpp: converge_rule"]}
{"id": "C17", "title": "Breakpoint splitting partitions the element", "statement": "Splitting an element at breakpoints produces consecutive panels that start at the element's beginning, end at its end, do not overlap and have every breakpoint strictly inside the element as a panel edge; breakpoints outside have no effect, and neither do order and duplicates of breakpoints.", "quantifier": "every element and every finite list of breakpoints", "why_tests_cant": "all lists of reals in all orders", "anchors": ["libhelfem/src/FiniteElementBasis.cpp: matrix_element_auto"]}
{"id": "C18", "title": "The exchange reordering of two-electron integrals is exact and invertible", "statement": "exchange_tei returns, for every quadruple of indices, the same integral at the exchanged position, applying it three times with the dimensions permuted accordingly restores the original, and it throws exactly when the stated dimensions do not match the matrix.", "quantifier": "all dimensions and all index quadruples", "why_tests_cant": "index arithmetic must hold for all dimensions, including rectangular ones", "anchors": ["libhelfem/src/utils.cpp: exchange_tei"]}
{"id": "C19", "title": "In-element two-electron integrals are symmetric in the electron pairs", "statement": "The in-element two-electron matrix is symmetric under exchange of the two electrons' function pairs, and the running inner integral used to compute it equals the direct cumulative integral at every quadrature point.", "quantifier": "all function counts, quadrature orders and multipoles", "why_tests_cant": "the running rescaling recursion is over an arbitrary number of subintervals", "anchors": ["libhelfem/src/quadrature.cpp: twoe_inner_integral, twoe_integral"]}
{"id": "C20", "title": "Coulomb matrix assembly equals the full four-index contraction", "statement": "The elementwise Coulomb assembly, which treats same-element pairs by stored two-electron integrals and different-element pairs by factorised radial moments, returns exactly the contraction of the full two-electron tensor with the density.", "quantifier": "all numbers of elements, all densities and all multipoles", "why_tests_cant": "universal over densities and element counts; a missed pair or double counting only shows for some layouts", "anchors": ["libhelfemqc/include/CoulombExchangeFE.h: assemble_J", "libhelfemqc/include/CoulombExchangeFE.h: compute_disjoint_radial_integrals"]}
{"id": "C21", "title": "Exchange matrix assembly equals the full four-index contraction", "statement": "The elementwise exchange assembly returns exactly the exchange contraction of the full two-electron tensor with the density, with the same-element and disjoint-element branches covering each element pair once.", "quantifier": "all numbers of elements, all densities and all multipoles", "why_tests_cant": "as above", "anchors": ["libhelfemqc/include/CoulombExchangeFE.h: assemble_K", "libhelfemqc/include/CoulombExchangeFE.h: ktei_from_tei"]}
{"id": "C22", "title": "Factorised (Cholesky) Coulomb and exchange agree with the dense ones", "statement": "Whenever the stored factor reproduces the in-element integral block, the factorised Coulomb and exchange assemblies return the same matrices as the dense assemblies, for every density.", "quantifier": "all factors, element counts and densities", "why_tests_cant": "universal over factors and densities", "anchors": ["libhelfemqc/include/CoulombExchangeFE.h: assemble_J chol, assemble_K chol"]}
{"id": "C23", "title": "Pivoted Cholesky leaves a small residual and terminates", "statement": "For a symmetric positive semidefinite block the pivoted Cholesky factorisation performs at most n steps and every entry of the residual is bounded by the threshold (absolute in the atomic code, relative to the largest initial diagonal element in the diatomic code).", "quantifier": "all sizes, all positive semidefinite matrices and thresholds", "why_tests_cant": "pivot orders depend on the matrix; worst case over all matrices", "anchors": ["libhelfem/src/RadialBasis.cpp: pivoted_cholesky_", "src/diatomic/basis.cpp: compute_tei"]}
{"id": "C24", "title": "The erfc kernel expansion treats its two radii symmetrically and uses correct series coefficients", "statement": "Phi(n,Xi,xi) = Phi(n,xi,Xi) for all arguments, never reaches the internal argument-order error, and the generalised binomial coefficients of the short-range series equal the true binomial coefficients for every argument the series uses.", "quantifier": "all orders and all nonnegative arguments", "why_tests_cant": "the wrong coefficients only enter at high series order where tests compare at loose tolerance", "anchors": ["libhelfem/src/erfc_expn.cpp: Phi, Phi_general, Phi_short, Dnk, choose"]}
{"id": "C25", "title": "Gaunt table lookups equal direct coefficients", "statement": "For every in-window request the tabulated Gaunt coefficient equals the directly computed one under the permutation and sign symmetries, forbidden combinations give zero, requests outside the m-window raise an error instead of a silent zero, and no lookup reads outside the table.", "quantifier": "all table sizes and m-caps and all index triples", "why_tests_cant": "packed-index arithmetic for all sizes", "anchors": ["src/general/gaunt.cpp: GauntT, coeff, slot, m2_count"]}
{"id": "C26", "title": "Angular basis enumeration is exact", "statement": "angular_basis(lmax,mmax) lists each (l,m) with |m| <= mmax and |m| <= l <= lmax exactly once, and the reported size is its length.", "quantifier": "all lmax, all mmax >= 0 and all lists of largest l per |m|", "why_tests_cant": "all sizes", "anchors": ["src/atomic/basis.cpp: angular_basis"]}
{"id": "C27", "title": "Symmetry blocks partition the basis", "statement": "For every supported symmetry level the symmetry blocks list every basis function exactly once, functions in a block share the symmetry label, and different blocks have different labels; unsupported levels throw.", "quantifier": "all angular lists and radial sizes and all symmetry levels, atomic and diatomic", "why_tests_cant": "all basis layouts", "anchors": ["src/atomic/TwoDBasis.cpp: get_sym_idx, m_indices, lm_indices", "src/diatomic/basis.cpp: get_sym_idx, get_sym_mirror_idx", "src/general/angular_index_helpers.h: collect_shell_indices"]}
{"id": "C28", "title": "Blockwise half-inverse overlap orthonormalises the basis", "statement": "The half-inverse overlap matrix X satisfies X^T S X = 1 (Cholesky or symmetric), and the block-diagonal one assembled from symmetry blocks orthonormalises the full overlap when blocks do not couple.", "quantifier": "all symmetric positive definite overlaps and all block layouts", "why_tests_cant": "all matrices", "anchors": ["libhelfem/src/utils.cpp: invh", "src/atomic/TwoDBasis.cpp: Sinvh", "src/general/scf_driver_common.h: build_per_block_Sinvh"]}
{"id": "C29", "title": "Numerical atomic orbital transforms are consistent and reject foreign bases", "statement": "Every NAO operator matrix is C^T M C of the finite element one, combining orbitals further transforms these matrices like any change of basis, Coulomb and exchange matrices equal the contractions of the orbital density with the transformed two-electron integrals, evaluating NAOs equals evaluating the primitives times C, and an operation mixing two NAO sets defined over different finite element bases, or a density of the wrong shape, throws.", "quantifier": "all coefficient matrices and bases", "why_tests_cant": "all matrices", "anchors": ["libhelfemqc/include/NAORadialBasis.h"]}
{"id": "C30", "title": "Checkpoint entries read back what was last written", "statement": "Reading an entry from a checkpoint returns the last value written under that name with that type, writes to other names do not disturb it, and matrices keep their shape and element order.", "quantifier": "all histories of writes, overwrites, removals and reopenings, all names, shapes and values", "why_tests_cant": "all operation histories", "anchors": ["src/general/checkpoint.cpp: write, read, remove, exist"]}
{"id": "C31", "title": "Checkpoint operations restore the file's open/closed state", "statement": "Every checkpoint operation leaves an open file open and a closed file closed, also when it fails because the entry is missing or has the wrong type.", "quantifier": "all operations, states and failure points", "why_tests_cant": "all failure points in all histories", "anchors": ["src/general/checkpoint.cpp", "src/general/checkpoint.h:80-84"]}
{"id": "C32", "title": "A read-only checkpoint is never modified", "statement": "On a checkpoint opened without write permission every modifying operation throws and leaves the stored contents unchanged.", "quantifier": "all histories of operations", "why_tests_cant": "all histories", "anchors": ["src/general/checkpoint.cpp: Checkpoint, open, write, remove"]}
{"id": "C33", "title": "A saved basis reloads as the same basis", "statement": "Writing an atomic or diatomic basis and reading it back reconstructs an identical parameter set, and reading the other kind of checkpoint throws.", "quantifier": "all basis parameter sets", "why_tests_cant": "all parameter sets, including the alternative node families", "anchors": ["src/general/checkpoint.cpp: write(basis), read(basis)", "libhelfem/src/PolynomialBasis.cpp"]}
{"id": "C34", "title": "Electron counts derived from charge and multiplicity are consistent", "statement": "Whenever the electron-count parser succeeds, the alpha and beta counts are nonnegative, add up to the nuclear charge minus the net charge and match the requested multiplicity; contradictory requests throw.", "quantifier": "all integer charges, multiplicities and explicit counts", "why_tests_cant": "all integers", "anchors": ["src/general/scf_helpers.cpp: parse_nela_nelb", "src/general/scf_driver_common.h: derive_nela_nelb_restricted"]}
{"id": "C35", "title": "Loaded and saved densities conserve electrons", "statement": "Rebuilding block occupations from a stored density yields occupations between zero and the block capacity in nonincreasing order; the final density assembled from blocks has trace equal to the occupation sum, restricted runs split it evenly between spins, and mirrored blocks share their occupation half and half.", "quantifier": "all block layouts, occupations and orthonormal orbitals", "why_tests_cant": "all block layouts", "anchors": ["src/general/scf_driver_common.h: fill_block_from_density, assemble_final_density, accumulate_density_block, build_ooo_block_metadata"]}
{"id": "C36", "title": "Free-atom enclosed charge decomposes the total charge", "statement": "The charge enclosed within r computed from the stored prefix sums and a partial element equals the integral of the radial density up to r: 0 at the origin, nondecreasing, and the total at and beyond the outer radius; the Hartree screening splits the total charge into inside and outside parts.", "quantifier": "all element grids, densities and radii", "why_tests_cant": "all densities and radii", "anchors": ["src/general/atomdb.cpp: Atom, locate, partial_integral, enclosed_charge, hartree_screening"]}
{"id": "C37", "title": "Associated Legendre tables satisfy their recurrences and bounds", "statement": "The tables of first and second kind functions are indexed without collisions or out-of-range access, start from the closed-form seeds and satisfy the three-term recurrence in l for all entries; arguments at the singular points and negative orders are rejected; all evaluation paths of the second kind agree in exact arithmetic.", "quantifier": "all lmax, mmax and arguments in each domain", "why_tests_cant": "induction over order for all arguments", "anchors": ["src/legendre/Legendre.h: compute_plm, compute_qlm_upward, compute_qlm_christoffel, plm, qlm"]}
{"id": "C38", "title": "Diatomic boundary removal and expansion are mutually inverse on the physical space", "statement": "Expanding a matrix over physical functions to the padded index space and removing the boundary functions returns the original; the padded entries are zero; wrongly sized input throws; the map from padded to physical indices is a bijection onto the physical functions.", "quantifier": "all shell lists, radial sizes and matrices", "why_tests_cant": "all layouts", "anchors": ["src/diatomic/basis.cpp: pure_indices, remove_boundaries, expand_boundaries, dummy_idx_to_real_idx, Nbf, Ndummy"]}
{"id": "C39", "title": "Diatomic multipole lookup finds every multipole the two-electron loops ask for", "statement": "The sorted multipole table contains each (L,M) once, the lookup returns its position, and every (L,M) that can couple two angular functions of the basis is present, so that the two-electron builders never hit the lookup error.", "quantifier": "all angular lists", "why_tests_cant": "all angular lists and coupling pairs", "anchors": ["src/diatomic/basis.cpp: TwoDBasis, lmind, LMind, coulomb, exchange"]}
{"id": "C40", "title": "Finite-nucleus potentials are continuous and agree with the point nucleus outside", "statement": "The uniformly charged sphere and hollow sphere potentials are continuous at the nuclear radius, equal the point-charge potential outside, and never drop below it; the declared breakpoints are exactly the radii where the potential is not smooth. Ball and Gaussian are the electrostatic potentials of distributions with the requested root mean square radius.", "quantifier": "all charges, radii and distances", "why_tests_cant": "all reals", "anchors": ["libhelfemqc/src/SphericalNucleus.cpp", "libhelfemqc/src/HollowNucleus.cpp", "libhelfemqc/src/PointNucleus.cpp"]}
{"id": "C41", "title": "van der Waals radius search returns a density threshold crossing", "statement": "The van der Waals radius returned is a point where the electron density falls to the requested threshold.", "quantifier": "all densities and thresholds", "why_tests_cant": "all densities", "anchors": ["src/sadatom/basis.cpp: vdw_radius"]}
{"id": "C42", "title": "Electron count radius encloses the requested number of electrons", "statement": "electron_count_radius returns a radius outside which at most the requested number of electrons lies, for every requested number between zero and the total, and never reads outside the element list.", "quantifier": "all densities, element counts and requested numbers", "why_tests_cant": "all densities and requests", "anchors": ["src/sadatom/basis.cpp: electron_count_radius"]}
{"id": "C43", "title": "Assembled basis functions are continuous and the constructor accepts every valid grid", "statement": "At every interface between neighbouring elements each global basis function has the same value from both sides, and so have its radial derivatives up to the smoothness order of the primitive family minus one; the built-in continuity check of the constructor therefore never rejects an increasing list of element boundaries.", "quantifier": "all primitive families, node sets with end nodes -1 and 1, increasing boundary lists, boundary-condition flags, interfaces and derivative orders", "why_tests_cant": "ranges over all grids, families and interfaces", "anchors": ["libhelfem/src/FiniteElementBasis.cpp: FiniteElementBasis, check_bf_continuity, eval_dnf, update_bf_list"]}
{"id": "C44", "title": "Requested boundary conditions hold for the function values", "statement": "If the function value was requested to vanish at an end of the grid, every basis function evaluates to zero there; if derivatives were requested to vanish, all derivatives up to the smoothness order minus one evaluate to zero there.", "quantifier": "all primitive families, node sets, increasing boundary lists, flag combinations and derivative orders", "why_tests_cant": "all families, grids and flags", "anchors": ["libhelfem/src/FiniteElementBasis.cpp: get_basis, eval_dnf", "libhelfem/include/LIPBasis.h: drop_first, drop_last", "libhelfem/include/HIPBasis.h", "libhelfem/include/HIP2Basis.h", "libhelfem/include/HIP3Basis.h", "libhelfem/include/LegendreBasis.h"]}
{"id": "C45", "title": "Gauss-Lobatto rule: exact end nodes, symmetry, convergence and degree of exactness", "statement": "lobatto_compute(n) rejects n < 2; whenever it returns, the outermost nodes are exactly -1 and 1, nodes are symmetric about zero and each is within tolerance of a near-root of (1-x^2) P'_{n-1}; once converged exactly, the rule integrates all polynomials of degree up to 2n-3 exactly.", "quantifier": "every node count, every number of Newton iterations, every polynomial of the stated degree", "why_tests_cant": "unbounded node counts and all polynomials", "anchors": ["libhelfem/include/lobatto.h: lobatto_compute"]}
{"id": "C46", "title": "Gauss-Chebyshev rules have increasing interior nodes, positive symmetric weights and the right total weight", "statement": "For every n the modified Gauss-Chebyshev rule has n strictly increasing nodes strictly inside (-1,1), positive weights symmetric about zero that sum to 2, and is the trapezoidal rule after one fixed substitution; the radial rule has positive increasing radii and weights given by the derivative of its mapping.", "quantifier": "every number of points", "why_tests_cant": "unbounded point counts", "anchors": ["libhelfem/include/chebyshev.h: chebyshev, radial_chebyshev"]}
{"id": "C47", "title": "The angular grid integrates spherical functions exactly", "statement": "The compound angular grid factorises into the polar rule and an equally spaced azimuthal sum; n azimuthal points integrate cos(m phi) and sin(m phi) exactly for m < n; with a Lobatto polar rule products of polynomials of cos(theta) up to degree 2n-3 and such functions are exact; the total weight is 4 pi.", "quantifier": "all polar and azimuthal point counts, all orders m and all polynomials of the stated degree", "why_tests_cant": "unbounded point counts and orders", "anchors": ["src/general/angular.cpp: compound_rule, angular_lobatto, angular_chebyshev"]}
{"id": "C48", "title": "Operator matrices are the integrals of products of basis-function derivatives", "statement": "Each global basis function is, on every element, a polynomial in r, and the evaluated derivatives are its derivatives in r; with a quadrature rule exact for the degrees that occur, the assembled matrix for derivative orders (d,d') and a polynomial weight holds the integrals of phi_i^(d) phi_j^(d') weight over the whole grid.", "quantifier": "all primitive families, node sets, increasing boundary lists, flag combinations, supported derivative orders, polynomial weights, exact rules and thread schedules", "why_tests_cant": "ranges over all bases, grids, weights and schedules", "anchors": ["libhelfem/src/FiniteElementBasis.cpp: matrix_element, eval_dnf, get_basis"]}
{"id": "C49", "title": "The overlap matrix is positive definite", "statement": "For every constructed basis with at least one function, the assembled overlap matrix is symmetric and positive definite, and the matrix of products of first (or second) derivatives, such as the kinetic energy, is symmetric positive semidefinite. In particular no basis function is redundant.", "quantifier": "all primitive families, node sets, increasing boundary lists, flag combinations, coefficient vectors", "why_tests_cant": "ranges over all bases and all coefficient vectors", "anchors": ["libhelfem/src/FiniteElementBasis.cpp: matrix_element", "libhelfem/src/RadialBasis.cpp: overlap, kinetic"]}
{"id": "C50", "title": "Self-converging quadrature is exact for polynomial weights and independent of breakpoints", "statement": "When the weight is a polynomial of at most the declared degree, and the total degree is within reach of the largest rule, the self-converging matrix elements equal the exact integrals, whatever breakpoints are passed and whatever the tolerance.", "quantifier": "all bases, polynomial weights, breakpoint lists, positive tolerances and thread schedules", "why_tests_cant": "ranges over all breakpoint lists and weights", "anchors": ["libhelfem/src/FiniteElementBasis.cpp: matrix_element_auto, converge_panel"]}
{"id": "C51", "title": "Diagonalised orbitals are orthonormal and solve the generalised eigenproblem", "statement": "Given X with X^T S X = 1 and a symmetric Fock matrix F, the orbitals C and energies E returned satisfy C^T S C = 1 and C^T F C = diag(E); if X spans the whole basis, F C = S C diag(E).", "quantifier": "all basis sizes, symmetric F, overlaps S and half-inverses X (square or with fewer columns)", "why_tests_cant": "ranges over all matrices", "anchors": ["src/general/scf_helpers.cpp: eig_gsym"]}
{"id": "C52", "title": "Orbital sets extracted per angular momentum can be combined", "statement": "The per-l orbital extraction keeps the leading orbitals of each l, in order, over one finite element basis, and operators between the sets of different l can be formed.", "quantifier": "all orbital coefficient stacks, counts and pairs of l", "why_tests_cant": "ranges over all coefficient stacks and l pairs", "anchors": ["src/sadatom/basis.cpp: extract_naos_per_l", "libhelfemqc/include/NAORadialBasis.h"]}
{"id": "C53", "title": "An interrupted checkpoint overwrite leaves a readable file", "statement": "If the process dies anywhere inside an overwrite of a checkpoint entry, all other entries are intact, and the entry itself reads back as the old or the new value.", "quantifier": "all contents, entries, values and crash points between HDF5 calls", "why_tests_cant": "all crash points and contents", "anchors": ["src/general/checkpoint.cpp: write, remove"]}
{"id": "C54", "title": "Loading a saved density into the same basis reproduces it", "statement": "Restarting from a checkpoint in the same basis starts from the stored density: projecting it changes nothing, and the block orbitals and occupations handed to the solver rebuild the stored density. In another basis the projected density holds the requested number of electrons.", "quantifier": "all bases, block layouts, orthonormal orbitals, occupations within capacity and eigensolvers", "why_tests_cant": "ranges over all overlaps and densities", "anchors": ["src/general/scf_driver_common.h: fill_block_from_density", "src/atomic/main.cpp: --load", "src/diatomic/main.cpp: --load"]}
{"id": "C55", "title": "The saved density is the density of the calculation", "statement": "The density matrices written to a checkpoint are those the Fock builder formed from the same orbitals and occupations, in restricted and unrestricted mode and for every symmetry level.", "quantifier": "all block layouts, mirror blocks, orbitals and occupations", "why_tests_cant": "ranges over all block layouts and orbitals", "anchors": ["src/general/scf_driver_common.h: assemble_final_density, accumulate_density_block", "src/diatomic/main.cpp: --save"]}
{"id": "C56", "title": "Fock assembly is consistent between the core guess, restricted and unrestricted modes", "statement": "The core-Hamiltonian guess equals the Fock matrices of the builder without electrons, including the spin splitting; for closed shells without a field the unrestricted Fock blocks are the restricted one and exchange energies agree; a magnetic field splits the spins by exactly Bz times the overlap.", "quantifier": "all ingredients, blocks, fields and exchange routines", "why_tests_cant": "ranges over all matrices and routines", "anchors": ["src/general/scf_driver_common.h: build_coreH_from_H0, assemble_fock_blocks, assemble_hf_exchange, orthonormalize_fock_block"]}
{"id": "C57", "title": "Free-atom density, gradient and Laplacian belong to one function", "statement": "At every radius the density of a tabulated atom is the radial density over 4 pi r^2, the gradient is its derivative and the Laplacian its radial Laplacian; the value at the nucleus is the limit of the values nearby.", "quantifier": "all grids, orbitals, occupations and radii", "why_tests_cant": "all radii and densities; a test sees finitely many points", "anchors": ["src/general/atomdb.cpp: density, density_gradient, density_laplacian", "libhelfem/src/RadialBasis.cpp: get_bf, get_df, get_lf"]}
{"id": "C58", "title": "The regularized nucleus has the exact ground state of the point nucleus", "statement": "With the regularized nucleus of charge Z the lowest s state is the regularized exponential orbital with energy -Z^2/2; the potential is finite at the nucleus, its series there agrees with the closed form to eighth order, and far away it is the potential of charge Z.", "quantifier": "all charges, regularization parameters and radii", "why_tests_cant": "all reals; a test sees finitely many points", "anchors": ["libhelfemqc/src/RegularizedNucleus.cpp: V, V_analytic, V_taylor, phi", "src/general/model_potential.cpp: get_nuclear_model"]}
{"id": "C59", "title": "The density-maximum radius is a radius of maximal density", "statement": "electron_density_maximum_radius returns a radius where the density is at least the largest density at the quadrature points up to a hundred machine epsilons, or reports an error; for a density with a single maximum it is within the tolerance of that maximum; the search ends for every positive tolerance.", "quantifier": "all bases, density matrices, tolerances, weighted or not", "why_tests_cant": "all densities; termination of an unbounded loop", "anchors": ["src/sadatom/basis.cpp: electron_density_maximum_radius, electron_density"]}
{"id": "C60", "title": "Coulomb and exchange matrices of the atomic basis are contractions of the electron repulsion integrals", "statement": "After compute_tei the Coulomb matrix of any density is sum_kl (ij|kl) P_kl and the exchange matrix -sum_il (ij|kl) P_il, with one set of integrals summed over all multipoles; only density blocks below the documented norm are left out of the exchange. The in-element radial integrals are within the factorisation threshold of the exact ones. Symmetric densities give symmetric matrices. The results do not depend on thread schedules, and asking before compute_tei is a logic error.", "quantifier": "all angular bases, radial bases, integrals, densities, thresholds and thread schedules", "why_tests_cant": "all basis sizes, densities and schedules", "anchors": ["src/atomic/TwoDBasis.cpp: compute_tei, coulomb, exchange", "libhelfemqc/include/CoulombExchangeFE.h"]}
{"id": "C61", "title": "One electron does not interact with itself", "statement": "For the density of a single orbital the Coulomb and the Hartree-Fock exchange energy of the atomic basis cancel exactly, for every factorisation threshold.", "quantifier": "all bases, orbitals without screened blocks, thresholds and schedules", "why_tests_cant": "all orbitals and thresholds; a test sees a cancellation up to rounding for a few", "anchors": ["src/atomic/TwoDBasis.cpp: coulomb, exchange"]}
{"id": "C62", "title": "Range-separated exchange uses the requested kernel", "statement": "After compute_yukawa(lambda) or compute_erfc(mu) the screened exchange matrix is -sum_il (ij|kl) P_il with the multipole expansion of that kernel and parameter.", "quantifier": "all angular bases, radial bases, parameters, integrals, densities and thread schedules", "why_tests_cant": "all basis sizes, densities and schedules", "anchors": ["src/atomic/TwoDBasis.cpp: compute_yukawa, compute_erfc, rs_exchange"]}
{"id": "C63", "title": "Cached integrals have no memory", "statement": "Coulomb and exchange matrices depend on the last compute_tei only and the screened exchange on the last compute_yukawa or compute_erfc only, whatever calls were made before and whichever of the other kind after.", "quantifier": "all sequences of compute calls and parameters", "why_tests_cant": "all histories", "anchors": ["src/atomic/TwoDBasis.cpp: compute_tei, compute_yukawa, compute_erfc, coulomb, exchange, rs_exchange"]}
{"id": "C64", "title": "Spherically averaged exchange is the average of the full exchange", "statement": "For one radial density per angular momentum, shared by all m, the exchange matrix returned for l is the average over m of the exchange matrix of the full atom; the Coulomb matrix is the monopole term. Wrong numbers or sizes of densities are logic errors.", "quantifier": "all l, radial bases, integrals, densities and thread schedules", "why_tests_cant": "all basis sizes and densities", "anchors": ["src/sadatom/basis.cpp: coulomb, exchange, rs_exchange"]}
{"id": "C65", "title": "The exchange-correlation matrix is the derivative of the exchange-correlation energy", "statement": "For every functional of the density, its gradient, the kinetic energy density and the Laplacian whose derivatives are those of its energy, eval_Fxc returns the quadrature sum of the energy, the number of electrons and the kinetic energy of the density matrix it is given, and a symmetric matrix (one per spin) that is the derivative of that energy: along every symmetric change D of the density matrix dE/dt = sum_ij H_ij D_ij. Without the beta flag the beta matrix is zero. The result does not depend on the order in which threads work through the elements, and elements of the same parallel loop never write to the same entry. Unsupported functionals are refused.", "quantifier": "all functionals, grids, basis function values, density matrices, directions and thread schedules", "why_tests_cant": "all densities and functionals; a test compares a finite difference for a few of each", "anchors": ["src/atomic/dftgrid.cpp: DFTGrid::eval_Fxc, DFTGridWorker", "src/diatomic/dftgrid.cpp: DFTGrid::eval_Fxc, DFTGridWorker", "src/general/dftgrid_common.cpp: compute_xc, eval_Exc, check_grad_tau_lapl", "src/general/dftgrid_common.h"]}
{"id": "C66", "title": "Exchange-correlation matrices of the spherically averaged atom are the derivative of the energy", "statement": "For density matrices per angular momentum the spherically averaged grid returns the quadrature sum of the exchange-correlation energy of the spherical density with its radial gradient, Laplacian and kinetic energy density (including the centrifugal part), the number of electrons, and one symmetric matrix per angular momentum (and spin) that is the derivative of that energy in the density matrix of the same angular momentum. Without the beta flag the beta matrices are zero and the alpha matrices unchanged. The order in which elements are worked on does not matter.", "quantifier": "all functionals, radial grids, radial functions, numbers of shells, positive semidefinite density matrices, directions and thread schedules", "why_tests_cant": "all densities and functionals; a test compares a finite difference for a few of each", "anchors": ["src/sadatom/dftgrid.cpp: DFTGrid::eval_Fxc, DFTGridWorker", "src/general/dftgrid_common.cpp: compute_xc, eval_Exc, check_grad_tau_lapl"]}
{"id": "C67", "title": "The diatomic grid without azimuthal quadrature integrates the full density", "statement": "For density matrices that do not mix m, the per-m grid returns the energy, electron number and kinetic energy of the density of the full functions R(mu) Y_l^m(nu,phi), whose density, gradient, Laplacian and kinetic energy density are the same at every azimuth, and Fock matrices that do not mix m, are symmetric and are the derivative of the energy along every such change of the density. Treating only m >= 0 when the density does not change with the sign of m gives the same results. All functionals are supported.", "quantifier": "all functionals, diatomic bases, radial functions, grids off the axis, density matrices without elements between different m and directions", "why_tests_cant": "all densities and functionals; a test compares a few of each with the full grid", "anchors": ["src/diatomic/dftgrid_purem.cpp: PureMDFTGrid::eval_Fxc, PureMDFTGridWorker"]}
{"id": "C68", "title": "Evaluated basis functions, derivatives and Laplacians belong together", "statement": "spherical_harmonics(l,m) returns the orthonormal complex spherical harmonics with the Condon-Shortley phase. eval_df returns the derivatives of the functions eval_bf returns, and eval_lf their Laplacian, at every point where these exist, in the atomic basis and for every m of the diatomic basis.", "quantifier": "all l and m, basis lists, radial functions, points and angles", "why_tests_cant": "all orders and angles; tests sample a few", "anchors": ["src/general/spherical_harmonics.cpp: spherical_harmonics", "src/atomic/TwoDBasis.cpp: eval_bf, eval_df, eval_lf", "src/diatomic/basis.cpp: eval_bf, eval_df, eval_lf"]}
{"id": "C69", "title": "Angular couplings are integrals over the sphere", "statement": "A Gaunt table returns the integral of conj(Y_L^M) Y_l^m Y_l'^{M-m} for every entry inside its declared ranges, and these coefficients expand every product of two spherical harmonics exactly. The couplings through the first to fifth power of the cosine, the square of the sine, their product and the modified coefficient (cosine squared) are the matrix elements of these functions between spherical harmonics.", "quantifier": "all angular momenta and projections, table sizes, windows of m and fill schedules", "why_tests_cant": "all l and m; a test samples a few", "anchors": ["src/general/gaunt.cpp: GauntT::coeff, mod_coeff, cosine_coupling, cosine2_coupling, cosine3_coupling, cosine4_coupling, cosine5_coupling, sine2_coupling, cosine2_sine2_coupling"]}
{"id": "C70", "title": "One-electron matrices are matrix elements of their operators", "statement": "For the functions B_a(r)/r Y_l^m of the atomic program, overlap(), kinetic(), nuclear() (central charge and charges on the axis at an element boundary), model_potential(), dipole_z(), quadrupole_zz() and Bz_field(B) return the matrices of 1, -1/2 Laplacian (as half the integral of the product of gradients), the Coulomb attraction by all charges, the given radial potential, z, (3z^2-r^2)/2 and B^2/8 (x^2+y^2) - B/2 L_z, and the cross overlap of two bases is the radial overlap times the overlap of the spherical harmonics. An off-centre charge inside an element is refused.", "quantifier": "all radial finite element bases, lists of distinct (l,m), charges, positions, fields, fill orders and thread schedules", "why_tests_cant": "all bases and charges; tests compare a few energies", "anchors": ["src/atomic/TwoDBasis.cpp: TwoDBasis::overlap, kinetic, nuclear, model_potential, dipole_z, quadrupole_zz, Bz_field", "libhelfem/src/RadialBasis.cpp: radial_integral, kinetic, kinetic_l, nuclear, nuclear_offcenter, model_potential"]}
{"id": "C71", "title": "Confinement potentials and the radial matrices of the spherically averaged atom", "statement": "confinement(N, R, iconf, V, shift) returns, in the atomic and in the spherically averaged program, the matrix of the confinement potential, which vanishes for r < shift and is beyond it +-((r-shift)/|R|)^N (1), N! times the exponential series of (r-shift)/|R| from order N (2), V (3) or V exp(-(rc-shift)/(r-shift))/(rc-r)^N with rc the outermost radius (4); other arguments raise an error. The potential is not attractive for positive R. The radial overlap, kinetic, nuclear, model potential and moment matrices of the spherically averaged program are the matrix elements in every shell (l,m).", "quantifier": "all radial bases, potentials and their parameters, shells l and m", "why_tests_cant": "all bases and parameters; tests compare a few energies", "anchors": ["libhelfem/src/RadialBasis.cpp: confinement_potential, polynomial_confinement, exponential_confinement, barrier_confinement, junq_confinement", "src/atomic/TwoDBasis.cpp: TwoDBasis::confinement", "src/sadatom/basis.cpp: overlap, kinetic, kinetic_l, nuclear, confinement, model_potential, Rmatrices"]}
{"id": "C72", "title": "One-electron matrices of the diatomic program are matrix elements", "statement": "For a diatomic basis with exact radial integrals, overlap, kinetic, nuclear, dipole_z, quadrupole_zz and Bz_field(B) return matrices whose entries are the integrals over space of 1, the kinetic energy (half the product of gradients), the attraction by the two nuclei, z, (3z^2-r^2)/2 and B^2/8 (x^2+y^2) - B/2 L_z between the basis functions; the functions are all products of radial and angular functions, without the first radial function when m is not zero. overlap(other) has the overlaps with the functions of another basis. The constructor succeeds for every nonempty list of (l,m).", "quantifier": "all radial bases, lists of distinct (l,m), charges, bond lengths, field strengths and orders in which the Gaunt table is filled", "why_tests_cant": "all bases, charges and distances; tests compare a few energies", "anchors": ["src/diatomic/basis.cpp: TwoDBasis::TwoDBasis, overlap, kinetic, nuclear, dipole_z, quadrupole_zz, Bz_field, set_sub, add_sub, remove_boundaries, pure_indices"]}
{"id": "C73", "title": "Coulomb and exchange matrices of the diatomic program", "statement": "After compute_tei, coulomb(P) returns sum_kl (ij|kl) P_kl and exchange(P) returns -sum_il (ij|kl) P_il with the density blocks below the screening threshold removed, for every density matrix, with one and the same set of electron repulsion integrals: the Neumann expansion in prolate spheroidal coordinates with all multipoles that couple basis functions, its factorial prefactors, the angular integrals over the sphere and the radial integrals; the in-element radial integrals are reproduced to the given threshold. When exchange is computed only for m >= 0 and copied to m < 0, the result is the same for densities that are diagonal in m and equal for m and -m. Neither matrix depends on the order of the parallel loops. Before compute_tei, or for a density of the wrong size, both raise an error.", "quantifier": "all lists of angular functions, radial layouts, radial integrals, densities, thresholds and schedules of the parallel loops", "why_tests_cant": "every density, basis and schedule; tests compare a few energies", "anchors": ["src/diatomic/basis.cpp: TwoDBasis::compute_tei, build_LMfac_abs, coulomb, exchange, expand_boundaries, remove_boundaries"]}
{"id": "C74", "title": "Radial two-electron quadrature of the diatomic program", "statement": "As the order of the Gauss-Chebyshev rule grows, the in-element radial two-electron integrals converge to the double integrals of products of basis functions with P_L^M(cosh mu_<) Q_L^M(cosh mu_>) over the element, also on the element at mu = 0 where Q_L^M is singular; products of the integrals over two different elements converge to the double integrals over the pair. The cached and the direct evaluation give the same numbers. The refinement of the order always ends, at an order within the documented limits, and returns the settled block or the documented fallback. The Legendre cache answers the same number whatever was asked before.", "quantifier": "all elements, continuous basis functions, multipoles, powers of cosh, quadrature rules and request histories", "why_tests_cant": "limits over all orders and all histories; singular integrands for all multipoles", "anchors": ["src/diatomic/quadrature.cpp: twoe_integral, twoe_element", "src/diatomic/quadrature.h: MLegendreCache", "src/diatomic/basis.cpp: converge_block, RadialBasis::Plm_integral, Qlm_integral, TwoDBasis::converged_twoe_order"]}
{"id": "C75", "title": "Energy and Fock matrices of the spherically averaged atom", "statement": "For orbitals with non-negative occupations the Fock builder of the spherically averaged atom returns the energy of their density: kinetic, nuclear, confinement, Coulomb, exchange of the full and the screened kernel with their fractions, and exchange-correlation, in restricted and unrestricted mode, independently of the order in which parallel loops run and whether built alone or in a batch. The Fock blocks are symmetric and are the derivative of that energy: along any motion of orbitals or occupations the energy changes at the rate given by the trace of the Fock blocks with the change of the density. Hence the derivative with respect to an occupation is the orbital's energy, and orbitals that are eigenvectors of their own Fock blocks are stationary under every normalised motion.", "quantifier": "all bases, functionals consistent with their derivatives, exchange fractions and kernels, orbitals, occupations, motions and schedules", "why_tests_cant": "a derivative and a statement about all densities; tests compare a few energies", "anchors": ["src/sadatom/scf.cpp: run_atomic_scf (build_fock, batched_fock_builder)"]}
{"id": "C76", "title": "Energy and Fock matrices of the atomic and the diatomic driver", "statement": "In a run of the atomic or diatomic program the energy handed to the solver is the energy of the density matrices of the orbitals: kinetic, nuclear, electric field and field gradient, magnetic field with orbital and spin part, confinement, Coulomb, full and short-range exchange with their fractions, exchange-correlation by quadrature, and the nuclei among themselves and in the field. The density of normalised orbitals has as many electrons as the orbitals hold, also where a block stands for its mirror image. The Fock blocks are symmetric, and are the derivative of the energy with respect to the block densities, for any motion of orbitals and occupations; so the derivative by an occupation is the orbital energy, and orbitals that diagonalise their own Fock blocks are stationary.", "quantifier": "all bases, symmetry blocks, fields, functionals consistent with their derivatives, exchange fractions and kernels, orbitals, occupations and motions", "why_tests_cant": "a derivative and a statement about all densities; tests compare a few energies, and most of them without fields", "anchors": ["src/atomic/main.cpp: fock_builder", "src/diatomic/main.cpp: fock_builder", "src/general/scf_driver_common.h: make_density_accumulator, assemble_hf_exchange, assemble_fock_blocks"]}
{"id": "C77", "title": "Exchange-correlation screening of atoms is r times the functional derivative", "statement": "xc_screening of the spherically averaged atom returns, per grid radius and spin, r times the functional derivative of the exchange-correlation energy at the atom's density: the derivative of the energy density by the density, less the divergence of its derivatives by the gradients. The spin-restricted call returns the mean of the two spins at half the density each. xc_screening(r) of a database atom returns the same function at any radius, zero without functionals, at r <= 0 and where there is no density. Meta-GGAs are refused, and the entry of the nucleus is zero.", "quantifier": "all finite element bases that start at the nucleus, symmetric density matrices, functionals with consistent derivatives, and radii", "why_tests_cant": "all functionals and densities; a wrong term in the gradient correction changes potentials smoothly and is seen only against an independent derivative", "anchors": ["src/sadatom/basis.cpp: TwoDBasis::xc_screening", "src/general/atomdb.cpp: Atom::xc_screening, XCFunctionals, Atom::effective_charge"]}
{"id": "C78", "title": "Densities, gradients and Laplacians on the atomic grid", "statement": "The arrays electron_density, electron_density_gradient and electron_density_laplacian hold, in the order of radii() (the nucleus, then the quadrature points of the elements), 4 pi times the density of the density matrix, its radial derivative and its Laplacian. nuclear_density and nuclear_density_gradient return the limits of the density and of its derivative at the nucleus. A density matrix of the wrong size is refused there.", "quantifier": "all finite element bases that start at the nucleus, symmetric density matrices and quadrature rules with inner points", "why_tests_cant": "identities of functions for all bases and matrices, with a limit at the nucleus", "anchors": ["src/sadatom/basis.cpp: TwoDBasis::electron_density, electron_density_gradient, electron_density_laplacian, radii, nuclear_density, nuclear_density_gradient", "libhelfem/src/RadialBasis.cpp: FEMRadialBasis::nuclear_density, nuclear_density_gradient"]}
{"id": "C79", "title": "Screened nuclear charges of the initial guesses", "statement": "The model potentials used for initial guesses are -q(r)/r. For the Green-Sellin-Zachor and Thomas-Fermi atoms q starts at Z at the nucleus, never rises and goes to 1 and 0 at large r; parameters exist for every Z the range check accepts, and a centre without charge has no potential. The tabulated SAP charge is read from the table by straight lines between neighbouring radii, with the first and last entry outside, for every element and radius; it is continuous, lies between the entries and never rises if they do not. It is zero for charges outside the table. The potential from the tabulated wave functions is zero for a centre without charge, and its breakpoints are the element boundaries strictly inside the interval asked for.", "quantifier": "all nuclear charges, radii and tables", "why_tests_cant": "all radii and charges; the search and the range checks go wrong at single values, and monotonicity and limits are statements about all radii", "anchors": ["src/general/gsz.cpp: GSZ_parameters, Z_GSZ, Z_thomasfermi", "src/general/sap.cpp: sap_effective_charge", "src/general/model_potential.cpp: TFAtom, GSZAtom, SAPAtom, SAPFEAtom"]}
{"id": "C80", "title": "Trial orbitals are normalised and their profiles are norms of projections", "statement": "radial_GTO and radial_STO are normalised for every angular momentum and exponent. The completeness profile is the norm of the projection of the trial orbital on the basis, between 0 and the norm of the trial orbital, and equal to it for orbitals in the span of the basis. The importance profile is the norm of the projection on the occupied orbitals and never exceeds the completeness.", "quantifier": "all angular momenta, exponents, radial bases, quadratures with nonnegative weights and occupations", "why_tests_cant": "improper integrals for a continuum of exponents; inequalities for all bases", "anchors": ["src/general/lcao.cpp: radial_GTO, radial_STO", "src/sadatom/main.cpp: ao_completeness_profile, ao_importance_profile"]}
{"id": "C81", "title": "Coulomb screening charge and effective charge of the spherically averaged atom", "statement": "coulomb_screening lists the nucleus with 0 and then, for every quadrature point r of every element, the electrons inside r plus r times the integral of the radial distribution divided by the radius outside r. The whole elements inside and outside enter by their integrals; the element of the point is cut at its own quadrature points, and the only error is what the rule misses on these pieces, which vanishes on the innermost element for an exact rule. The values are not negative for densities that are not negative and rules with weights that are not negative. The effective charge of the table is the nuclear charge less the Coulomb and exchange-correlation screening charges.", "quantifier": "all element grids, radial bases, density matrices, quadrature rules with points inside the element", "why_tests_cant": "the sums over elements and segments meet at every element boundary and end; a continuum of densities, and every number of elements and points", "anchors": ["src/sadatom/basis.cpp: TwoDBasis::coulomb_screening", "libhelfem/src/quadrature.cpp: spherical_potential", "src/sadatom/main.cpp: effective_potential_table"]}
{"id": "C82", "title": "Orbitals, weights and kinetic energy density on the atomic grid", "statement": "orbitals, orbitals_derivative and orbitals_second_derivative hold the radial orbitals u/r and their first and second derivatives at the points listed by radii; the row of the nucleus in orbitals is the limit of the orbital there. quadrature_weights with radii is the composite quadrature over the elements, with weight zero at the nucleus. kinetic_energy_density is half the occupation-weighted sum of R'^2 + l(l+1) R^2/r^2 over the shells, the cut at zero changing nothing. The charge printed for the effective potential table is the composite rule applied to the radial distribution, and the number of electrons for a rule exact for products of two basis functions; the Coulomb energy is half the rule applied to the distribution times the screening charge of C81 over the radius.", "quantifier": "all element grids, radial bases, orbital coefficients, occupations and quadrature rules with points inside the element", "why_tests_cant": "identities of functions at every point for every coefficient matrix; a wrong factor in one derivative order or in one angular momentum shows only for some of them", "anchors": ["src/sadatom/basis.cpp: TwoDBasis::orbitals, orbitals_derivative, orbitals_second_derivative, quadrature_weights, kinetic_energy_density", "libhelfem/src/RadialBasis.cpp: nuclear_orbital, get_wrad", "src/sadatom/main.cpp: effective_potential_table"]}
{"id": "C83", "title": "Fixed occupations of the spherically averaged atom", "statement": "--occs with auto fixes nothing. A restricted run takes exactly one number per angular momentum and fixes it; an unrestricted run takes two per angular momentum, alpha first, or one whole number per angular momentum which is split into shells of 2(2l+1) by Hund's rule: the two spins add up to the total, alpha is not below beta, and their difference is the number of unpaired electrons of the last shell. Any other number of values, and a total further than 1e-10 from a whole number, is refused. What is not as the comments say: words after the first non-number are ignored, a negative total counts as zero, the fixed numbers are not compared with the electrons of the run, giving alpha alone pins beta to zero, and the atomic runs of the completeness tool announce Z-1 electrons for odd Z while fixing Z.", "quantifier": "all lmax, all words of the option, restricted and unrestricted, all nuclear charges", "why_tests_cant": "the option accepts lists of any length of any numbers and the shell loop runs any number of times", "anchors": ["src/sadatom/main.cpp:364-421", "src/sadatom/scf.cpp:388-407", "src/diatomic/twodquadrature.cpp: pbe_ground_states, run_side"]}
{"id": "C84", "title": "Start, result, checkpoint and restart of the spherically averaged atom", "statement": "The first Fock matrix of each angular momentum is the kinetic energy, the centrifugal term, the confinement and the potential of the guess in the orthonormal basis, the same for both spins; an unknown guess is refused. The returned densities, orbitals and counts are those of the solver's answer: the total density holds as many electrons as the occupations add up to, and is the density from which the Fock builder formed its matrices. The checkpoint leaves out empty orbitals only. Restarting gives orthonormal orbitals with occupations between zero and the capacity of the shell, empty for shells the checkpoint does not hold; in the same orthonormal basis with whole numbers of electrons per shell and occupations within the capacity the restart has the saved density. It does not in general: the overlap matrix is missing from the back transformation, fractional totals are rounded, and a restart with the other spin treatment loses electrons.", "quantifier": "all bases, angular momenta, orbitals, occupations and checkpoints; the eigensolver is any sound one", "why_tests_cant": "identities for every density matrix and every basis; a missing overlap matrix is invisible in an orthonormal basis", "anchors": ["src/sadatom/scf.cpp: run_atomic_scf, :30-48, 354-670", "src/sadatom/scf.h: AtomicSCFResult"]}
{"id": "C85", "title": "Background and grid of an atom in jellium", "statement": "The positive background of an atom in jellium holds exactly one unit of charge per jellium electron, as a ball or, with a vacancy, as a shell around a hole that would hold the atom's own electrons at the same density. The potential an electron feels is the electrostatic one of this charge, -n/r outside it; it is continuous, and the breakpoints handed to the quadrature are exactly the points where it is not smooth. The constant energies are the energy of the background in its own field and that of the nucleus in the field of the background. The element boundaries increase strictly from zero to the requested distance beyond the background, contain the edges of the background, and no element is longer than the period of the Friedel oscillations over the requested resolution. The largest angular momentum is the one of the table of closed shells; counts beyond the table are refused. Without jellium electrons all of this is the free atom.", "quantifier": "all nuclear charges, charges, jellium counts, density parameters, grid types and sizes", "why_tests_cant": "the identities are between closed formulas and integrals over every shell; the grid has to be valid for every combination of sizes", "anchors": ["src/sadatom/aij.cpp: consistent_lmax, main (:161-314)"]}
{"id": "C86", "title": "Fock builders and restart of an atom in jellium", "statement": "The energy handed to the solver is the energy of the electrons in the field of the nucleus, the background and each other, plus the two constants of the background, in both spin modes and in any order of the parallel loops; the Fock blocks are symmetric and are its derivative along any motion of orbitals or occupations. Without electrons the builder returns the constants and the core blocks the solver starts from. Fock matrices written to a file come back unchanged; files that are too short or of the wrong number of matrices are refused. The saved density is the density of the electrons per unit of solid angle.", "quantifier": "all one- and two-electron matrices, functionals, orbitals with non-negative occupations, schedules, motions, lists of Fock matrices and files", "why_tests_cant": "the derivative is a statement about every motion; the round trip and the rejections are about every file", "anchors": ["src/sadatom/aij.cpp: restricted_builder, unrestricted_builder, radial_density_matrix, save_density, save_fock, load_fock, main (:809-823, 881-900)"]}
{"id": "C87", "title": "What a command line does to the options of a program", "statement": "A command line of --name=value is accepted exactly if every name is that of an option with a value, every value can be read and every required option has been given; then each option has the last value given for it, or its default. --name value, -c value and -abc mean the same as their long forms whatever follows; a flag sets itself only; other arguments are kept in order. Unknown names, missing values and unreadable values are reported, and never change another option. Parsing the same arguments twice changes nothing. get returns a value of the type the option was added with or throws. A program goes on after the check only with no errors and every required option set. Arguments quoted into one text come back. Integers are read exactly as their decimal notation, within the range of int; truth values are 0 or 1.", "quantifier": "all sets of options, all sequences of add and parse, all argument lists and texts", "why_tests_cant": "the arguments are arbitrary texts in arbitrary number and order, and the parser keeps state between parses", "anchors": ["src/general/cmdline.h: parser::add, exist, get, rest, parse, parse_check, check, set_option, default_reader, lexical_cast"]}
{"id": "C88", "title": "The functionals a method name stands for, and the exact exchange they bring", "statement": "A method is one name or number, or two with a dash between; the keywords of two functionals joined by a dash are read as these functionals. Names none and HF are read whatever the case, unknown names, unknown numbers and kinetic energy functionals are refused. Every program that accepts a method knows how to treat its exchange: the fraction of full and of short range exact exchange and the range are those libxc gives for the functional, the integrals of the screened kernel are computed exactly if there is short range exchange and with the kernel of the functional, the diatomic program refuses short range exchange. The exact exchange used is that of the whole method.", "quantifier": "all method texts and all libraries of functionals", "why_tests_cant": "libxc has hundreds of functionals, two may be combined freely, and a wrong fraction changes energies silently", "anchors": ["src/general/dftfuncs.cpp: get_keyword, find_func, parse_xc_func, is_exchange, is_correlation, is_kinetic, exact_exchange, is_supported, is_range_separated, range_separation, needs_VV10", "src/atomic/main.cpp", "src/diatomic/main.cpp", "src/sadatom/main.cpp", "src/sadatom/scf.cpp", "src/sadatom/aij.cpp"]}
{"id": "C89", "title": "A basis set reported by the diatomic search is converged", "statement": "Every basis set the search reports for a threshold is converged: adding partial waves or elements lowers the energy of no symmetry by the threshold. A finished run reports one basis set for each threshold from 1 down, in order. Keeping the eigenvalues of bases already made changes no result and no basis is made twice. The search reads no partial wave that was not set, and ends if the energies are bounded from below and do not rise with more elements. The orbitals it converges are those of the occupied shells of the two atoms.", "quantifier": "all energies as functions of the basis, all increments and thresholds, all pairs of elements", "why_tests_cant": "the path of the search depends on the energies of all bases it tries; each test is one path", "anchors": ["src/diatomic/corebasis.cpp: eval, main", "src/general/elements.cpp: num_orbs"]}
{"id": "C90", "title": "Model potentials and probe orbitals of a molecule are integrated at the right points", "statement": "The matrix of a model potential of a diatomic molecule is the quadrature, in prolate spheroidal coordinates with their volume element, of the two potentials at the distances from their nuclei times two basis functions; it is symmetric and joins only functions of the same m, and points where a potential is not a normal number contribute nothing from it. Projections of Gaussian, Slater and atomic orbitals at a nucleus or the bond centre are the quadratures of the orbital with the basis functions of its m; overlaps of probe orbitals are Gram matrices and equal at the two nuclei. Atomic orbitals are projected as many as hold the electrons of their shell. No projection fails on a valid grid.", "quantifier": "all bases, radial points, angular rules, potentials, exponents, shells and probes", "why_tests_cant": "the formulas must hold at every grid point and for every angular momentum, and a wrong polar angle still gives smooth plausible profiles", "anchors": ["src/diatomic/twodquadrature.cpp: TwoDGridWorker, TwoDGrid::model_potential, TwoDGrid::gto_projection, TwoDGrid::sto_projection, TwoDGrid::gto_overlap, TwoDGrid::sto_overlap, TwoDGrid::atomic_projection"]}
{"id": "C91", "title": "Matrix elements between two different radial bases miss and double nothing", "statement": "The overlap of two radial finite element bases, used to carry orbitals from one basis to another, is the matrix of integrals over the whole line of a function of one basis times a function of the other (and the volume element sinh cosh^n in the diatomic program), whatever the two grids: the element pairs gone through tile the range the bases have in common. The result does not depend on clamping of the points, exchanging the bases transposes it, bases without common range give zero, and a basis with itself gives its own radial integrals. The same holds for every weight that leaves the integrals finite, with derivatives where asked for; functions divided by r are refused.", "quantifier": "all pairs of constructed bases, grids, boundary conditions, weights, quadrature rules and thread schedules", "why_tests_cant": "tests try a few pairs of grids; a missed or doubled pair appears only for particular relative positions of the boundaries", "anchors": ["libhelfem/src/RadialBasis.cpp: eval_B_at, FEMRadialBasisT::matrix_element, radial_integral, model_potential, overlap", "src/diatomic/basis.cpp: RadialBasis::radial_integral, RadialBasis::overlap"]}
{"id": "C92", "title": "Completeness and importance profiles measure what they are said to measure", "statement": "A completeness scan of a diatomic calculation goes through every shell with |m| <= l <= lmax at both atoms and the bond centre once, writes each profile to a file of its own, and has one column for each of the exponents, which form a geometric progression between the limits asked for. The completeness is the squared length of the part of the scanning function within the basis: between zero and its squared norm, equal to it exactly for functions in the basis, and independent of how the basis was orthonormalised. The importance without minimal basis is the squared length of the part within the occupied orbitals and never exceeds the completeness; with a minimal basis it is the gain in the projection of the occupied orbitals when the function joins the minimal basis, so it is never negative.", "quantifier": "all bases, checkpoints, minimal bases, scanning functions, numbers of exponents and orders of the threads", "why_tests_cant": "profiles are drawn from hundreds of exponents, of which the batches cut an arbitrary number; a negative importance appears only for nearly dependent functions", "anchors": ["src/diatomic/completeness.cpp: main"]}
{"id": "C93", "title": "The self-check of the factorised two-electron integrals can be trusted", "statement": "For every element and multipole of a diatomic basis the check compares the integrals with the factors stored for that element and multipole. The first number it reports is the distance of the two relative to the size of the integrals; it is zero only if the factors reproduce every integral. The second is the relative error of an exchange matrix, and it is bounded by the first, for the blocks of the check and all others, so factors that pass give exchange matrices that are as good. Factors computed at a threshold from a kernel without negative eigenvalues pass to within it. The concatenated exchange tensor gives the same exchange matrix. A multipole that couples no two channels is an error.", "quantifier": "all integrals symmetric under exchange of the electrons, factors, signs, numbers of functions, elements, tables of multipoles and blocks of the density matrix", "why_tests_cant": "the check tries a single set of blocks; whether passing says something about all density matrices is a statement about all of them", "anchors": ["src/diatomic/basis.cpp: TwoDBasis::in_element_kernel, TwoDBasis::in_element_kernel_exchange, TwoDBasis::check_cd"]}

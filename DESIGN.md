# Formal model of HelFEM in Lean 4: design

This file is written before the proofs and kept current. It says, per property, what is modelled
and how the property is proved.

## Layout

* `lean/Verif/Model/*.lean`: the model. Total functions, one per C++ function, each with a comment
  citing the file and lines in `/repo` it follows and saying where it simplifies.
* `lean/Verif/Spec/*.lean`: small specifications that do not mention the model.
* `lean/Verif/Lemmas/*.lean`: helper lemmas.
* `lean/Verif/Props/*.lean`: the property theorems, each with an `example` showing that its hypotheses
  are met by a concrete, non-trivial case.
* `MANIFEST.json` maps properties to theorem names; `seeded/LOG.jsonl` records the mutation tests.

## Conventions

* C++ exceptions and undefined behaviour are explicit outcomes: `Res α = ok a | throw e | ub`
  (`Verif/Model/Basic.lean`). An out-of-range Eigen/vector access, a wrap-around that is then used as an
  index or a size, or reading past a container is `ub`.
* Real arithmetic replaces floating point: models are over `ℝ`, `ℚ` or an arbitrary (ordered) field.
  Rounding is not modelled. Where NaN decides control flow it is modelled as a separate value.
* `size_t`/`Eigen::Index` arithmetic is modelled by `Nat`/`Int`; places where the C++ wraps are modelled
  as `ub` or as an explicit modular value.
* Loops are structural recursion, folds, or recursion with fuel where termination is the property.

## Plan per property

| id | model | proof |
|----|-------|-------|
| C01 | enabled lists of each family, `update_bf_list` loop | induction over elements; closed form of first/last |
| C02 | `drop_first`/`drop_last` of each family as list functions | filter specification, case analysis; negation for the HIP no-flags case |
| C03 | bisection loop with fuel, generic comparison so NaN can be an instance | interval-halving invariant; NaN: induction on fuel that no result is produced |
| C04 | affine maps, batch check | field algebra, telescoping sum |
| C05 | append + sort with the membership guard | sorted-list uniqueness from permutation |
| C06 | the five grid formulas over ℝ, endpoint snapping, throws | monotonicity of powers/exponentials |
| C07 | grid concatenation and the branch structure of form_grid | composition of C06 results; negation for the finite nucleus outer radius |
| C08 | the factory switch | case analysis over all integers; negation for the Chebyshev ids |
| C09 | nested loops as in the source per order; | polynomial derivative as sum over removed factors |
| C10 | order-0 evaluator | Mathlib Lagrange interpolation |
| C11, C12 | evaluators as polynomial expressions | product-rule algebra at nodes |
| C13 | transformation matrix rows, three-term recurrence | induction on order |
| C14 | deflated-node evaluator | algebra; limit at the origin by derivative |
| C15 | block accumulation; task interleavings as permutations of element writes | sums over elements, permutation invariance |
| C16 | doubling loop | well-founded recursion, invariants |
| C17 | filter, sort, fold to panels | induction over sorted list |
| C18 | flat index arithmetic | div/mod algebra |
| C19 | inner integral recursion, `ints + intsᵀ` | induction over subintervals |
| C20, C21, C22 | element loops accumulating into the global matrix | finite sums, case split on element order |
| C23 | pivot loop | invariant: residual stays PSD, Schur complement |
| C24 | swap logic, `choose` | case analysis; negation for negative binomials |
| C25 | packed table and lookup | index injectivity and range by induction; symmetries of an abstract Gaunt function |
| C26, C27 | list enumeration, partitions | list induction |
| C28 | matrix algebra | spectral/diagonal algebra |
| C29 | matrix algebra and identity guard | algebra, decision logic |
| C30-C33 | checkpoint state machine with a key-value store | invariant/refinement over operation lists; negation for failed reads |
| C34 | integer decision procedure | omega; negation for explicit negative counts |
| C35 | list/matrix models of the block helpers | induction, trace algebra |
| C36 | `Atom` constructor, prefix/suffix sums, partial element quadrature | element polynomials, adjacent interval integrals; geometric series for the error of the 1/r moment |
| C37 | associated Legendre tables `plm`, `qlm`: seeds, upward and downward recurrences, Christoffel form near the cut, Lentz continued fraction with Miller recurrence | derivative recurrences of Legendre functions carried as jets, loop invariants over the table; Neumann's integral and Pincherle's argument for the continued fraction, for every real argument off the cut |
| C38 | `pure_indices`, boundary removal and expansion, padded-to-physical map | list lemmas, fold invariants, sum over the image of an injection |
| C39 | multipole tables with the `lower_bound` loop, lookups, Gaunt table sizes, integral task runs | binary search and sorted insertion invariants; C25 for the couplings |
| C40 | nucleus factory, `V`, `breakpoints` of point, ball, shell and Gaussian nucleus | one-sided derivatives; electrostatic integrals of the charge distributions; alternating bounds of the error function |
| C41, C42, C59 | density on an element, element search, bisection, golden section search, element matrices of the overlap and of `r²` | loop invariants with the intermediate value theorem; exact quadrature; negation for the wrong threshold and for the out-of-range element |
| C43, C44 | `eval_dnf` of the assembled basis, `check_bf_continuity` | edge values of each family |
| C45-C47 | quadrature rules | orthogonality of Legendre polynomials, trigonometric sums |
| C48-C50 | `matrix_element` overloads | pieces as polynomials; interval integrals; linear independence |
| C51 | `eig_gsym` over the eigensolver contract | matrix algebra |
| C52 | `extract_naos_per_l` with object identity of the basis pointers | direct; negation for different l |
| C53 | the HDF5 calls of an overwrite as a list of store changes, a crash keeps a prefix | case analysis over prefixes; negations |
| C54 | projection and `fill_block_from_density` over the eigensolver contract | spectral algebra; negation for a non-orthonormal block |
| C55 | both density assemblies | induction over blocks; negation for mirrored blocks |
| C56 | Fock assembly | matrix algebra |
| C58 | closed form and series of the regularized nucleus | differentiation; explicit remainder polynomial and compactness |
| C57 | `density`, `density_gradient`, `density_laplacian` | derivatives of the element polynomials; limit at the nucleus as a negation |
| C60, C61 | caches filled by `compute_tei`, Gaunt table, ket/integral/bra loops of `coulomb`, screened block loop of `exchange` | fold invariants over the auxiliary matrices; multipole sums collapse by selection rules; C22 for the radial part, C23 (equal rows stay equal) for the pair symmetry of the factor |
| C62, C63 | screened caches and `rs_exchange`; sequences of compute calls | as C60; frame lemmas over call lists |
| C64 | averaged couplings and exchange of `sadatom` | as C60, average over `m` written out |
| C65 | libxc as a table of functionals; buffers of values, gradients and Laplacians; density, accumulation of functionals, matrix increments and element loops of the atomic and diatomic grids, both spin modes | linearity of the density in the matrix, chain rule at every point, sums over points; fold over elements with an additive invariant, permutation invariance; C01 for disjoint elements; negations by a one-function instance |
| C66 | gathered and `l(l+1)`-weighted sums of the shell matrices, radial density quantities, increments, scatter into all shells, both spin modes | as C65; transposition invariance for symmetry; positive semidefiniteness makes the clipped centrifugal term exact |
| C67 | scale factors, per-m values, derivatives and Laplacians, block sums with mirror images, increments, scatter into both images, both spin modes | the block sums are the sums over all functions at azimuth zero; the phases cancel for matrices that do not mix m; then as C65 |
| C68 | `sph_legendre` as in the C++ standard, `spherical_harmonics`, `eval_bf`, `eval_df`, `eval_lf` | Legendre's equation and ladder relations from the derivatives of the Legendre polynomials; orthogonality from C46's integrals; Laplacians as iterated derivatives; negation on the axis |
| C69 | `cosine_coupling` to `cosine2_sine2_coupling`, `mod_coeff`, the table of C25 filled with true integrals | orthogonality of derivatives of Legendre polynomials to lower degrees; finite expansions in harmonics by induction on the degree |
| C70 | the one-electron matrices of `atomic/TwoDBasis.cpp` over exact element integrals | separation into radial and angular integrals; multipole expansion of the attraction by charges on the axis from Legendre's generating function; integration by parts on the sphere and per element for the kinetic energy; negation for a finite nucleus with other charges |
| C71 | `confinement_potential` and its four kernels, `confinement`, the radial matrices of `sadatom/basis.cpp` | as C70; the loop for the exponential by induction and the series of the exponential; negation for the shifted polynomial |
| C72 | the one-electron matrices and the constructor of `diatomic/basis.cpp`, over `ℝ`, with exact radial matrices as parameters | the block loops as updates of one block; couplings from C69; integrals in prolate spheroidal coordinates separated into radial and angular parts; angular part of the kinetic energy as in C70 |
| C73 | `compute_tei`, `build_LMfac_abs`, `coulomb`, `exchange` of `diatomic/basis.cpp`, over `ℝ`, with the radial integrals as parameters that see the Legendre cache they are given | stored tables as invariants of the loops in any order; couplings from C69; contraction with the factor as contraction with its product (C23); sums over buckets and tables regrouped into the Neumann sum; mirror blocks from the symmetry of the integrals under `m → -m` |
| C74 | `twoe_integral` (direct and cached), `MLegendreCache`, `converge_block`, `Plm_integral`, `Qlm_integral`, `converged_twoe_order` over `ℝ`, basis functions by their values | convergence of the rule for continuous functions by the substitution of C46 and oscillation on short pieces; nested sums against nested integrals with a bound `1/G` on the singularity; bounds on `Q_L^M` near 1 by the recurrences of C37; exchange of the order of integration by parts; refinement loop and cache by induction |
| C75 | `build_fock` and the batched builder of `sadatom/scf.cpp:50-359` over `ℝ`, on top of the models of the Coulomb, exchange and quadrature routines (C60-C66); the specification writes the energy as a functional of the shell density matrices, without Fock matrices | the builder's matrices are contractions with the kernels of C64 and the pairings of C66; the derivative of each quadratic form by symmetry of its kernel, of the exchange-correlation energy along a curve by the chain rule; occupations and rotations as special curves |
| C76 | the Fock callbacks of both drivers as one definition (they differ by three terms) over `ℝ`, on top of the models of density assembly, Coulomb, exchange and quadrature; the specification is the energy as a functional of the density matrices of the whole basis, and `Represents` says which integrals and grid the routines compute with | the density is the spread of the block densities; a matrix alike in a block and its mirror image pairs with it as the trace of the orthonormalised block; derivatives as in C75; any symmetry closed under sums and multiples is inherited by the Fock matrix, applied to mirror images and to transposition; `Represents` for the atomic routines from C60, C62, C65 |
| C77 | `xc_screening` of `sadatom/basis.cpp` and of `atomdb.cpp` over one formula per point, libxc as a table with second derivatives | densities and derivatives from C78 and C57; chain rule with the second derivatives as a Fréchet derivative at the point; the divergence as a derivative of `r² A`; the difference from the functional derivative in closed form, negation by the functional `\|∇ρ\|²` |
| C78 | arrays over the grid, `nuclear_density`, `nuclear_density_gradient` | as C57 for a general symmetric matrix; the density at the nucleus by dividing the basis functions by `r` |
| C79 | `gsz.cpp`, the lookup of `sap.cpp`, the model potentials of `model_potential.cpp`; NaN as a value, the SAP table a parameter | elementary inequalities and limits; the Thomas-Fermi function by the sign of its derivative; the search by an invariant, the interpolant in closed form as a sum of ramps |
| C80 | `lcao.cpp`, the profiles of `sadatom/main.cpp:107-177` over element data as in C66 | Gamma integrals; sums over elements regrouped into one quadrature; Bessel's inequality |
| C81 | `coulomb_screening`, `spherical_potential` and its segments over `Option ℝ` (undefined values), element integrals as parameters | running sums as sums over elements; segments of an element as adjacent intervals; error as the sum of what the rule misses on them |
| C82 | the arrays of `sadatom/basis.cpp:486-499, 600-682, 970-1015`, the sums of `sadatom/main.cpp:86-102` | as C78; squares for the kinetic energy density; regrouping of sums over the grid |
| C83 | the option parser of `sadatom/main.cpp:364-421` on words, the vector of fixed numbers of `sadatom/scf.cpp:388-407`, the table of `twodquadrature.cpp:26-145` and `run_side` | induction on the electrons left for the shell loop; the table by evaluation |
| C84 | the first Fock matrices, result, checkpoint and restart of `sadatom/scf.cpp:30-48, 354-381, 408-670`; the solver's answer is given, the eigensolver is any sound one; the specification counts electrons as the trace with the overlap | density algebra with `XᵀSX = 1`; spectral decomposition of the loaded density, clipped occupations; the findings on one function |
| C85 | radii, potential, constant energies, grid and table of `sadatom/aij.cpp:36-47, 161-314`; the specification is the charge per unit radius of a shell and the electrostatic potential of C40 | the shell as the difference of two balls; cube roots by injectivity of cubes; a covering of the radii by boundaries for the resolution; the table by evaluation |
| C86 | both builders, the saved density, the file of Fock matrices and the start of `sadatom/aij.cpp:364-618, 787-910`; the specification is the energy of C75 with the background as confinement, no exact exchange and two constants | the builders are shown equal to those of C75 up to the constants, with the beta orbitals the code looks at; the file by an index lemma for blocks of one size |
| C87 | parser as options in map order, the list of errors and the other arguments; texts as lists of characters; readers of int, bool and string; the double reader is a parameter | the loop over the arguments carries out events that depend only on names and kinds; each event sets or keeps an option, which gives the values, the errors and idempotence; the texts by induction; integers against Nat.ofDigits |
| C88 | texts as lists of characters, libxc as any table of descriptions, names and numbers, versions before and from 8; the programs as what they do with `--method` and `--pot` | cases of the description; parsing by splitting at the first dash; numbers against Nat.ofDigits; witnesses in a small library |
| C89 | the search as nested loops with fuel over any evaluation with a state; the evaluation with and without a memory; energies any function of the basis | simulation of the run with the memory by the run without; postconditions of each loop; the sum of the energies as a bound on the number of passes; tables of shells against the Madelung rule |
| C90 | the worker at one radial point and the loops of the grid over lists of points and angles; potentials as functions of the distance with an option for values that are not normal | geometry of the two centres in Cartesian coordinates, Jacobian by derivatives, induction over points, the functions of an element by C38, parity of Legendre functions; a single grid point as a witness |
| C91 | table of element pairs, the projection at one order with points, clamping and blocks, the refinement loops of C16 and C74; a basis is the object of C01 with its evaluator | independent description of a finite element basis on the line; positions of sorted grids, induction over the pairs, the integral as a sum over pairs, exactness by composition of polynomials with linear maps; two grids with non-matching boundaries as a case |
| C92 | exponents, batches with threads in any order, the inverse overlap matrices with threshold, one column of the profiles; loops over shells and names of files | orthogonal projections in an inner product space as specification; eigenvectors of a Gram matrix give an orthogonal family, the trace is a sum of squared projections, monotone in the subspace; induction over batches; parsing of names |
| C93 | kernel, its reconstruction from the stored factors, exact and factorised exchange, norms and quotients; lookup in the table; concatenated exchange tensor | integrals as functions of terms and pairs as specification; sums over blocks, Cauchy-Schwarz for the bound, C23 for the threshold, C39 for the lookup |

Properties outside any executable model: numerical accuracy of floating point, wall-clock performance,
HDF5/libxc/Eigen internals. They are not listed.

## Trusted base

* Lean 4.33.0's kernel. Every module is checked by it; nothing uses `sorry`, `admit`, `native_decide`, `bv_decide` or an axiom of its own.
* The axioms of each theorem are listed in `AXIOMS.md`: at most `propext`, `Classical.choice` and `Quot.sound`.
* The models follow the source. This is argued by the citation beside each definition and tested by seeded errors (`seeded/LOG.jsonl`),
  not proved: the C++ has no formal semantics here.
* The specifications in `Verif/Spec` and the statements in `Verif/Props` say what the English properties say.

### Parameters with contracts

The following are not modelled but appear as parameters of the model. Where a theorem assumes something about them, the assumption is a
hypothesis of the theorem and an `example` or a separate theorem shows that it can be met.

| outside code | used by | assumption |
|---|---|---|
| Eigen's self-adjoint eigensolver and LLT | C28, C35, C51, C54 | documented contract (`Orth.Solvers`); `solvers_exist`, `ascending_exist` |
| HDF5 | C30-C33, C53 | key-value store, class and shape checks, integer clipping, float conversion (`Ckpt.Env`) |
| Wigner 3j library behind `gaunt_coefficient` | C25, C39, C60-C64 | symmetries and selection rules of the integral of three spherical harmonics; C69 proves them for that integral |
| Gauss-Lobatto nodes as found by Newton iteration | C19, C36, C42, C48-C50 | polynomial exactness, which C45 proves for converged nodes |
| radial two-electron integrals | C60-C64 | symmetry and positive semidefiniteness; C19, C48 give them for the quadrature |
| `std::erf`, `std::exp`, `std::sqrt`, `std::pow`, `std::log` | C06, C24, C37, C40, C58 | the mathematical functions |
| libxc | C65-C67, C77 | a table of descriptions and pointwise functionals; for the derivative, that returned derivatives are those of the energy; `toy` is an instance. C77: the second derivatives are those of the first (`Consistent`; `exampleLib`) |
| values of basis functions on the grids | C65, C66 | arbitrary (C67: the functions and derivatives of C68) |
| `std::sph_legendre` | C68 | its definition in the C++ standard |
| element integrals of the radial basis | C70, C81, C82 | exact; C48 and C50 prove it for polynomial integrands |
| element data tables | C36, C57 | arbitrary coefficients |
| SAP table | C79 | rows of equal length, radii increasing from 0 |

### Simplifications that hold everywhere

* Exact arithmetic instead of floating point (C45 and C37 state convergence of iterations exactly; C03 and C48 model NaN and infinity as values).
* Machine epsilon and its roots are positive parameters.
* Fixed-width integers are unbounded except where a wrap-around is reachable; there it is `ub` or modular.
* Threads: an OpenMP loop is a list of iterations in an arbitrary order. Every modelled loop writes disjoint slots (C15) or disjoint blocks
  (C60), so an order is enough. An exception that leaves a parallel region terminates the program; the model reports it as the exception.
* Output to the terminal, timing and memory exhaustion are not modelled.

### Modelled code

* `libhelfem`: `FiniteElementBasis.cpp` (all), the polynomial bases with values, derivatives and `_over_r` variants (`LIPBasis*`, `HIPBasis*`,
  `HIP2Basis*`, `HIP3Basis*`, `LegendreBasis.h`, `PolynomialBasis.cpp`), `grid.cpp`, `lobatto.h`, `chebyshev.h`, `legendre_poly.h`, `erfc_expn.cpp`,
  `quadrature.cpp:37-161, 251-299`, `utils.cpp`, `RadialBasis.cpp:115-162, 246-257, 311-318, 332-453, 480-641, 670-724, 813-821, 846-936, 953-1005`.
* `libhelfemqc`: `CoulombExchangeFE.h`, `NAORadialBasis.h`, the nucleus models (without `find_b`).
* `src/general`: `cmdline.h` (without `usage`, `range`, `oneof` and the reader of `double`), `angular.cpp`, `angular_index_helpers.h`, `atomdb.cpp:36-427`, `checkpoint.cpp`, `elements.cpp`, `gaunt.cpp:77-332`, `model_potential.cpp`, `gsz.cpp`, `sap.cpp` (lookup), `lcao.cpp`,
  `scf_helpers.cpp` (orthogonalisation, eigenproblems, electron counts), `scf_driver_common.h:176-520`.
* `src/legendre/Legendre.h` (without the float128 bridge).
* `src/atomic`: `basis.cpp`, `TwoDBasis.cpp:166-583, 709-1131`, the load path of `main.cpp`; the Fock builders `atomic/main.cpp:370-470`, `diatomic/main.cpp:369-475` with what they capture.
* `src/sadatom/basis.cpp:67-429, 479-578, 600-1214`, `src/sadatom/scf.cpp:30-670`, `src/sadatom/main.cpp:48-177, 364-421`, `src/sadatom/aij.cpp:36-47, 161-314, 364-618, 787-910`, `src/diatomic/twodquadrature.cpp`, `src/diatomic/completeness.cpp` (without reading the checkpoint and printing).
* Exchange-correlation: `dftgrid_common.h/.cpp`, `dftfuncs.cpp` (without the printing of `print_info` and `list`), `atomic/dftgrid.cpp`, `diatomic/dftgrid.cpp`, `sadatom/dftgrid.cpp`, `diatomic/dftgrid_purem.cpp`, `atomic/TwoDBasis.cpp:1133-1255`,
  `diatomic/basis.cpp:2120-2164, 2202-2322`, `general/spherical_harmonics.cpp`.
* `src/diatomic/basis.cpp`: constructor, one-electron matrices (`1022-1299`), indices, symmetry blocks, lookups, `Sinvh`, radial two-electron integrals and their adaptive orders (`97-200, 258-394, 410-440, 1334-1380`, self-check of the factors (`739-853`)),
  `compute_tei`, Coulomb and exchange (`1382-1560, 1627-2089`); `src/diatomic/quadrature.h`, `quadrature.cpp`; `src/diatomic/corebasis.cpp` (without making a basis, parameter in C89).

### Code not modelled

* libxc.
* The self-consistent field iterations and their drivers (`*/main.cpp` and `sadatom/aij.cpp` outside load, save and the Fock builders, the solver called by `sadatom/scf.cpp` and `sadatom/aij.cpp`).
* Diatomic `diatomic/basis.cpp:202-257` (constructor and accessors of the radial basis).
* The Bessel functions of the Yukawa kernel (parameters in C62), `find_b` of the regularized nucleus.
* Test programs, examples, Python bindings, `harmonic/`, reference data.

## Where the code does not do what the property says

Each is proved about the model with a concrete input; the property keeps its full statement and the theorem for the rest is named `_partial`
or restricted by hypotheses.

| property | finding |
|---|---|
| C02 | `HIPBasis::drop_last(false, false)` removes the last value function although nothing is to be removed |
| C03 | `find_element` never returns for a NaN coordinate |
| C06 | a negative exponent of grid type 3 is accepted and the grid is not increasing |
| C07 | the finite-nucleus grid ends at `Rmax + rnuc` |
| C08, C33 | identifiers 100 and 101 report 4 and 5, so a saved Chebyshev basis reloads with other nodes |
| C23 | the sign-aware Cholesky pivots on the diagonal and drops an indefinite block with zero diagonal |
| C24 | `choose(n, k)` is wrong for `n < -1`, `k > 1`; the Taylor series of the erfc kernel has wrong coefficients from the fourth on |
| C26 | a negative `mmax` with nonnegative `lmax` wraps the size of the table |
| C30 | strings are cut at an embedded zero byte; writing an empty `std::vector` is undefined |
| C31 | a failing read of a closed file leaves it open |
| C34 | negative explicit electron counts are accepted |
| C37 | second-kind entries with `m > l` are not zero, contrary to the header |
| C41 | `vdw_radius` compares the density with the tolerance, not the threshold |
| C42 | `electron_count_radius` reads out of range for a request above the number of electrons |
| C46, C47 | the one-point Gauss-Chebyshev rule has weight 8/3 |
| C52 | operators between orbital sets extracted for different `l` always throw |
| C53 | a crash during an overwrite can lose the entry or leave zeros |
| C54 | `fill_block_from_density` transforms the density with `XᵀPX`, right only for orthonormal functions |
| C55 | under |m| symmetry the mirrored half of the density is not saved |
| C57 | the density at the nucleus is returned as 0 |
| C65 | with two spins the atomic grid drops the kinetic part of the Laplacian term of functionals of the Laplacian alone, and adds to an empty matrix when the beta matrix is not requested; `compute_xc` with `pot = false` reads an empty buffer (no caller does) |
| C68 | on the axis `eval_df` gives 0 for the polar derivative of functions with `m = 1` and twice the derivative for `m = -1`; the comment calls 0 the right value |
| C70 | with a finite nuclear model `nuclear()` returns the potential of the central nucleus alone; the charges on the axis are left out although the program counts their repulsion |
| C71 | polynomial confinement with a shift `s` integrates `(r-s)^(N+2)/r²` instead of `(r-s)^N`: the weight for functions divided by `r` was shifted as a whole |
| C72 | (harmless) `kinetic()` always evaluates `radial_integral(-1, 0)`; its entry `(0, 0)`, which is never used, is a divergent integral, so the adaptive quadrature runs to its largest order and prints a warning |
| C73 | (precision) the factorisation threshold is relative to the largest diagonal integral of the element and entry, including pairs with the first radial function, which is removed when `m ≠ 0`; for `\|M\| ≥ 2` in the innermost element that integral diverges with the quadrature order, so the threshold for the remaining pairs is looser than `cd_thresh` times their own size |
| C76 | `--symmetry=3` of the diatomic program is not relaxed in a magnetic field: `m` and `-m` are solved as one block although the field splits them, and the matrix handed to the solver is not the derivative of the energy |
| C76 | the atomic program leaves out the energy of off-centre charges in an electric field, which the diatomic program counts |
| C76 | a default run (no multiplicity, no electron numbers) with an odd number of electrons is spin-restricted but counts one unpaired electron in the magnetic field: the energy is off by `-Bz/2`. The comment says the term vanishes in restricted mode |
| C77 | both `xc_screening` routines subtract too much for GGAs: the Laplacian `ρ'' + 2ρ'/r` is used as `ρ''` next to an explicit `2/r` term, and the change of `σ_ab` is counted twice |
| C78 | the gradient and Laplacian arrays hold 0 at the nucleus (a to-do in the source) although `nuclear_density_gradient` exists; `electron_density` with `rsqweight` does not weight the entry of the nucleus |
| C79 | `GSZ_parameters` indexes its table of 103 numbers by `Z` behind the check `Z > 103`: `Z = 103` reads out of range, and every element gets the number after the one its position suggests (the check fits an index `Z - 1`); `Z = 0` gives NaN, so a centre without charge spoils the GSZ guess |
| C79 | `sap_effective_charge` never returns for a NaN radius |
| C80 | in unrestricted calculations the importance profile counts alpha orbitals as if they held two electrons and leaves out about half of the occupied ones |
| C81 | a quadrature rule with a point at -1 makes all values on the innermost element undefined, since `spherical_potential` has no guard for an empty segment (a hazard: the rule in use has no such point) |
| C83 | `--occs`: words after the first non-number are ignored, a negative total counts as zero electrons, the fixed numbers are not compared with the electrons of the run; fixing alpha alone pins beta to zero although `scf.h` says an empty vector leaves it free |
| C83 | `twodquadrature.cpp:541-565`: for odd Z the atomic solver is told of Z-1 electrons while Z are fixed, the comment claiming even totals; Z above 118 reads behind the table |
| C84 | `sadatom/scf.cpp:477-506`: the loaded density is taken to the orthonormal basis as `XᵀPX` instead of `XᵀSPSX`, so that occupations come back wrong in every basis whose functions are not orthonormal; per-shell totals are rounded to whole electrons; a restart of a restricted run as unrestricted, or the reverse, loses electrons |
| C85 | `aij.cpp:249-255`: with `--vacancy` and `Z = Q` (plain jellium) or no jellium electrons, the edge of the hole is inserted although it is a boundary: a zero-length element |
| C85 | `aij.cpp:185, 220`: a negative `--njellium` asks for a grid of a negative number of elements before the check that there is something to calculate |
| C86 | `aij.cpp:478`: the unrestricted builder skips a shell without alpha electrons together with its beta electrons: density, Fock matrix and energy lack them |
| C86 | `aij.cpp:555-582`: the density written to the file of radial densities is that of the alpha electrons only in unrestricted runs |
| C86 | `aij.cpp:364-553`: hybrid functionals are accepted, but exact exchange is never computed |
| C86 | `aij.cpp:599-614, 881-900`: an empty file of Fock matrices leaves the dimensions without a value; sizes are not compared with the basis; the unrestricted start reads the first matrix before it checks that there is one |
| C87 | `cmdline.h:734-737`: `has` is never reset, so required options given to one `parse` need not be given to the next (C87_persist). |
| C87 | `cmdline.h:590`: a missing required option with no arguments at all ends the program with exit code 0 (C87_check). |
| C87 | `cmdline.h:416-424`: `parse("")` takes the address of the first element of an empty vector; consecutive spaces give empty arguments; a quote left open keeps the errors of the parse before (C87_line_faults). |
| C88 | `dftfuncs.cpp:64-70`: characters after the digits of a number are ignored, `1abc` is functional 1 (C88_trailing). |
| C88 | `atomic/main.cpp:227-243`, `sadatom/scf.cpp:61-67`: the exact exchange is asked for the first functional only, so a hybrid in the second place runs without its exact exchange (C88_lost). |
| C88 | `aij.cpp:152-158`: accepts Hartree-Fock and hybrids and computes no exact exchange (C88_aij). |
| C88 | `sadatom/main.cpp:490-516`: `--pot=HF` writes nothing and says nothing, `--pot=HF-7` writes the correlation potential alone (C88_hf_ignored). |
| C88 | `needs_VV10` is never called: functionals with nonlocal correlation run without it (C88_lost). |
| C89 | `corebasis.cpp:233-237, 297`: for pi, delta and phi the energy sums as many levels as there are shells, but each level occurs for m and -m, so only half of the shells are converged (C89_both_signs, C89_half). |
| C89 | `corebasis.cpp:331, 351`: with `--nadd=0` the smallest basis set is reported as converged to every threshold (C89_nothing_added). |
| C89 | `corebasis.cpp:83, 167`: with fewer functions than orbitals the sum has fewer terms, and a basis is reported as converged although a larger one lowers its orbital (C89_few). |
| C90 | `twodquadrature.cpp:278`: at the bond centre the polar angle is taken to be the coordinate `cth`; the projections of `diatomic_cpl` for the middle probe with l > 0 are those of other functions (C90_middle, C90_middle_wrong). |
| C91 | `RadialBasis.cpp:411-414`: the projection between two bases has no guard against weights that are not finite (the one within a basis has, `FiniteElementBasis.cpp:449-464`); `radial_integral(rh, n)` with n < 0 and two bases starting at the origin is not finite, although all integrals exist (C91_singular). |
| C92 | `completeness.cpp:137-148, 255-263`: eigenvalues of the padded overlap matrix below 1e-6 are dropped with their eigenvectors, which also takes away a part of the minimal basis; the importance is then negative, even if the occupied orbital is a function of the minimal basis (C92_negative). |

# Design of the formal model of fenics_ii

The model is written in Lean 4 under `lean/Verif/`.  It is a *shallow* model:
each Python function becomes a Lean function with the same branches, exceptions
become values (`Except`/`Option`), unbounded recursion takes a fuel argument.
Every definition cites the file and lines of `/repo` it models.

## Layout

* `Verif/Model/*.lean` - transcription of the code.
* `Verif/Spec/*.lean`  - small specifications that do not mention the model.
* `Verif/Lemmas/*.lean` - helper lemmas.
* `Verif/Props/*.lean` - the property theorems and, next to each of them, an
  `example` which meets the hypotheses.

## Trusted base

* Lean 4 kernel and the axioms `propext`, `Classical.choice`, `Quot.sound`.  `AXIOMS.txt` lists the axioms of every theorem in
  the manifest (written by `tools/axioms.py` from `#print axioms`).
* Faithfulness of the transcription.  The code is not executed.
* External libraries are not modelled line by line. Their assumed behaviour:
  * PETSc / dolfin matrices are exact matrices over a field; `matMult`, `axpy`,
    `scale`, `transpose`, `zeroRows`, `zeroRowsColumns`, `setValues` do what the
    PETSc manual says.  Floating point rounding is not modelled.
  * numpy/scipy: `hstack`, `bmat`, `csr_matrix` (duplicates are summed),
    `argmin` (first minimum), `np.where`, `np.unique`.
  * cbc.block: `A*B`, `A+B`, `A-B`, `A.T` build `block_mul` (flattening chains),
    `block_add`, `block_sub`, `block_transpose`.
  * UFL: expression trees with terminals compared by `==`.
  * networkx `DiGraph`: a node set and an edge dictionary; `dfs_edges` lists edges to new vertices until there are none
    (`Tangent.IsDfs`).
  * dolfin meshes: finite lists of entities with vertex lists.  `MeshEditor` and `make_mesh` keep the vertices and the order
    of the cells and may permute the vertices of a cell.
  * gmsh: the arrays returned by its API are the input of the model.
  * sympy: `Matrix.values()` are the entries without those whose `is_zero` is true; `Matrix` of a list is a column.
* MPI parallelism, memory and performance are out of scope (the package states
  it is serial only).

## What is modelled

Every file of `xii/` except those named below; a definition of the model cites the lines it transcribes.

| part of the package | model |
|----|----|
| assembler/xii_assembly, reduced_assembler, *_assembly | `ListUtils`, `Reduced`, `Dispatch`, `Program`, `TimeDep` |
| assembler/*_form, ufl_utils, block_form | `Annotate`, `Accept`, `Elements`, `Ufl`, `BlockForm`, `TraceForm`, `TransposeTrace` |
| assembler/trace_matrix, interpolation_matrix, injection_matrix, restriction_matrix, nonconforming_trace_matrix, fem_eval | `Trace`, `DofMat`, `Embedding`, `TraceForm` |
| assembler/average_matrix, flux_average_matrix, average_shape, disk_quadrature | `Average`, `PointTrace`, `Shape`, `DiskQuad` |
| assembler/point_trace_matrix, gradient_point_trace_matrix, mean_matrix, surface_mean_matrix, patch_average_matrix, extension_matrix, transpose_trace_matrix | `PointTrace`, `Mean`, `SurfaceMean`, `Patch`, `Extension`, `Harmonic`, `TransposeTrace` |
| caches of the matrices, attributes kept in meshes | `Memo`, `Registry` |
| linalg/convert, collapse_iter, matrix_utils, nest, fe_space_op | `Collapse`, `Convert`, `CollapseIter`, `Mat`, `Nest`, `MatFree`, `Reshape` |
| linalg/bc_apply, block_nullspace, sherman_morrison, block_utils, function, list_utils, krylov_api, hsmg_utils | `ApplyBc`, `AsBlock`, `Nullspace`, `L20`, `BlockOps`, `PetscWrap`, `IIFunction`, `IIFunctionMore`, `ListUtils`, `Krylov`, `KrylovSolve`, `Hsmg` |
| nonlin/jacobian | `Jacobian` |
| meshing/* | `Embedded`, `Embedding`, `Mortar`, `Continuous`, `Union`, `Branch`, `Contour`, `Tangent`, `Normal`, `Center`, `CenterVec`, `Dual`, `Refine`, `Circum`, `CircumIn`, `Skeleton`, `Collide`, `Gmsh` |
| the programs of demo/ and demo/time_dep.py | `Workflow`, `Program`, `TimeDep` |
| demo/common.py, `run` of demo/test_demos.py | `ConvLog` |
| `immersed_geometry` of demo/utils.py, `get_geometry` of demo/twoDoneDoneD.py, normals of demo/dq_darcy_stokes.py and demo/emi_primal.py | `Immersed` |
| Newton's method in sandbox/babuska_hand_newton.py, mortar_lin_couple.py, mortar_nlin_couple.py | `Newton` |
| curves of apps/enumath/meshing.py and apps/d123/meshing.py | `RandomCurve` |
| block systems of apps/enumath/has_multiplier.py, apps/enumath/not_has_multiplier.py, apps/d123/solving.py | `Apps` |
| sandbox/line_distance.py, the circle and disk of transforms.py, cross_grid_refine.py, `injection_matrix` of injection_mat.py, calculus.py | `Segment`, `ProjCircle`, `CrossGrid`, `Reproduce`, `Calculus` |

Examples which show that hypotheses can be met are beside the theorems; longer ones, where theorems are applied to concrete
cases, are in `lean/Verif/Examples`.

Not modelled:
* meshing/tikz.py: output for people. meshing/generation.py is a copy of line_mesh.py (C49).
* meshing/cut_surface_mesh.py, which is not Python (lines of Julia); meshing/make_mesh_cpp.py, which is C++ (by its contract above).
* linalg/matrix_utils.py:25-43, 123-174 (`as_petsc`, `transpose_matrix`, `petsc_serial_matrix`) and linalg/convert.py:378-400
  (`set_lg_map`): handles and local to global maps of PETSc, which change no entries.
* linalg/convert.py:265-291 `block_mat_to_petsc`, which is not called and calls a function which does not exist.  `bmat_sizes`
  (convert.py:359-375) is a parameter: the sizes of the vectors cbc.block creates.
* linalg/krylov_api.py:104-127 `cbc_solve` (a call of cbc.block), linalg/block_utils.py:418-433 `BlockPC` (a call of PETSc),
  linalg/hsmg_utils.py:101-111, linalg/collapse_iter.py:91-96 (unused), meshing/dual_mesh.py:63-84 (a choice by dimension; lines and tetrahedra raise
  `NotImplementedError`).
* `__len__`, `__iter__`, constructors which only store their arguments, `render` options, `test/`, and what is not named above of `apps/`, `sandbox/`.

## Plan per property

| id | model | proof |
|----|-------|-------|
| C01-C03 | nested lists, `shape_list`, `flatten_list`, `reshape_list`, `package` with fuel | induction on nesting / shape |
| C04, C05, C07, C52 | block expressions, `collapse*` with fuel, `get_dims` | induction on fuel against the vector action of the expression; divergence by induction on fuel; the expressions which are converted characterised exactly (`collapse_returns_iff`) |
| C06 | graph rewriting loop with abstract node names | invariant: value of the graph at the root never changes |
| C08, C09 | block matrices/vectors as lists with sizes | index arithmetic of concatenation |
| C10-C14 | `apply_bc` on block systems | linear algebra over a field |
| C15-C17 | `BlockNullspace` state machine over a real inner product space | invariant over histories |
| C18, C19 | `Projector`, `L20_*` over inner products | algebra of orthonormal families |
| C20-C23 | block operators on lists of vectors | list induction |
| C24, C25 | column-by-column conversion, scatter/gather | linearity, list induction |
| C26 | `collect` on operator expressions | structural induction |
| C27-C29 | block forms as lists of integrals | induction over add histories, permutations |
| C30 | UFL trees, `replace`, `contains`, `matches` | structural induction |
| C31 | integrals with annotated arguments and linear reductions | induction on the number of reductions |
| C32 | memo table as a state machine, one instance per cache key in the code | invariant over histories; counterexamples for incomplete keys |
| C33, C34 | row filling loops over cells | invariant over the visited cells |
| C35-C38 | quadrature loops and maps over the reals | algebra, finite tables lifted to all monomials |
| C39 | patch loops | sums over cells |
| C40-C44 | mesh entities as lists of vertex lists | list induction |
| C45-C47 | line graphs | induction over paths |
| C48-C51 | geometry over ordered fields | algebra |
| C53 | forms as polynomials in the unknowns with formal derivative | algebra |
| C54 | heap of annotated terminals | case analysis |
| C55 | eigenpairs and powers of matrices (`Hsmg`) | algebra of simultaneous diagonalisation |
| C56 | element blocks, renumbering of nodes, loop over entity tags (`Gmsh`) | invariants of the loops |
| C57 | vertex and cell lists, loop over refinements (`Dual`) | barycentric coordinates, invariant of the loop |
| C58 | collision, basis values, triples of the sparse matrix (`PointTrace`) | action of one row; the signature of evaluate_basis_all is a parameter |
| C59 | normal components as a scalar space with points paired with normals (`PointTrace`) | reduction to C35, geometry of C36 |
| C60 | the eleven classes as instances of the abstract assembler, in their order (`Dispatch`) | instance of C31; case analysis on the classes |
| C61 | elements as trees, cells, a partial function per reduction (`Elements`) | induction on elements |
| C62 | facets with their cells, centers by the functions of `Center` (`CenterVec`) | facet by facet; circumcentres of two cells differ by a normal of the common facet |
| C63 | surfaces with normals, midpoints and dof numbers, orientations as cases (`Normal`) | cell by cell; supporting hyperplanes |
| C64 | curves as lists of points and cells, the search of networkx by its contract (`Tangent`) | counting edges of a tree; the vertex with the largest number of a loop |
| C65 | polygons as lists of points, the sum over their edges (`Tangent`) | induction on the polygon |
| C66 | points as real vectors, `np.linalg.solve` by its contract (`Collide`) | uniqueness of the coefficients of a common point |
| C67 | spaces by their nodes, the matrix by the columns of its ones (`Extension`) | argmin is a nearest node; induction on the list of nodes |
| C68 | nested matrices by their action, options of solvers as data with an interpretation (`Nest`) | sums over blocks; induction on offsets |
| C69 | block matrices as lists of rows, sparse matrices by their arrays (`Reshape`) | slices of lists; induction on offsets, nested spaces |
| C70 | the graph rewriting of C06 | invariant: the graph is a tree with all edges of its operators; every round removes an edge |
| C71 | `injection_matrix` over the spaces of C33, the transfer matrix of dolfin is a parameter (`DofMat`) | case analysis; counterexamples |
| C72 | `ii_Function` over a heap of coefficient vectors; interpolation is a parameter (`IIFunction`) | induction on components; counterexamples for sharing |
| C73 | the methods called by PETSc, products are parameters; the null space as a subspace (`PetscWrap`) | induction on blocks; spans |
| C74 | `is_continuous`, the count of components of networkx as reachability (`Continuous`) | paths of cells and paths of vertices are dual; counterexample for surfaces |
| C75 | `surface_mean_mat` with the models of the trace and of convert (`SurfaceMean`); assembly of the mean by dolfin and integrals over cells are contracts | exchange of sums over cells, local dofs and dofs |
| C76 | `TransposeTrace`, `transpose_trace_mat` and the wiring of the assembler, with the embedding maps of the trace mesh as state (`TransposeTrace`) | adjointness by exchange of sums; invariant of the state: the trace mesh is never mapped into itself |
| C77 | `harmonic_extension_operator` over the matrices of its forms, collapsed by the model of `FESpaceOperator` (`Harmonic`); the linear solver is a contract | composition of inverses is linear; counterexample by a 2 x 2 system |
| C78 | `pyamg_solve`, `scipy_solve` with preconditioner, status and the state of `x0` (`KrylovSolve`); the Krylov method is a contract | the loop over `x0` is the fill of C25 |
| C79 | the callback of `scipy_solve`, called with the iterates as scipy documents it for cg, bicgstab and minres | counterexample |
| C80 | the model of C57 (`Dual`), meshes as geometric complexes (`Spec/DualConform`) | barycentric coordinates in a part are determined by those in the parent, induction over refinements |
| C81 | the model of C48 (`Refine`), meshes as geometric complexes (`Spec/RefineConform`) | barycentric coordinates in a child are determined by those in the parent; areas of children are 1/n of the parent; induction over refinements |
| C82 | `Trace`, `reduction_matrix_data`, `trace_mat` with the state of the trace mesh (`TraceForm`), on top of the models of C33, C42, C43 | composition: soundness and completeness of embedding maps, invariant of the trace mesh over histories, rows of the trace matrix |
| C83 | attributes of a mesh and the calls which change them (`Registry`) | invariants over histories; counterexamples for `Injection` |
| C84 | the programs of the demos (`Workflow`: `run`, `timeDep`) over the models of C08-C13 and C72, coefficient vectors in a heap, the solver as a parameter | composition of `applyBc_solutions`, `convert_acts_partial` and `updater_agrees_partial`; induction over time steps |
| C85 | composition of the models of C31 (recursive assembly), C60 (assembler classes) and C82 (matrix of a trace); integration is over functions of points on cells of the trace mesh | `trace_restricts`: the matrix gives the degrees of freedom of the restriction, which is in the span of the nodal basis; then `assemble_represents_partial` |
| C86 | composition of C01 (lists of forms), C31 (assembly of a form), C13 (boundary conditions), C06 (conversion) and C84 (program) | `assemble_shaped` gives the sizes of assembled tensors; `discrete_iff`: a block vector solves the constrained system iff it solves the discrete problem (converse by unit test vectors) |
| C87 | composition of C02 (block_form.add) and C86; the variational problem is stated for the sum of the forms added, without blocks | `sum_blocks2`: sums over blocks of sums over the integrals in a block are the sum over all integrals; converse with test functions in one space |
| C88 | conversion of C08 with numbers in any block | numbers replaced by `kept` ones before conversion; unit vectors for the converse |
| C89 | model of C13 | components of both right-hand sides computed |
| C90, C91 | models of C20-C22 | last write wins; converse with unit vectors |
| C92 | model of C25 | case analysis of the assertions |
| C93 | model of C28 | an ordering with distinct entries in range is a permutation |
| C94 | model of C35 | weights split into points inside and outside |
| C95 | model of C66 | solver contract: solution if the matrix is regular |
| C96 | model of C47 | induction on the refinements, first step separate |
| C97 | model of C24 with arbitrary work vector | induction on the columns |
| C98 | model of C16 | induction on the basis; remainder after the first i vectors |
| C99 | model of C37 | corners of the rim for a corner off the plane: three are those of the square, the fourth is moved by twice the distance; tuples and lists as corners |
| C100 | composition of C35 (average matrices), C31 (recursive assembly), C60 (assembler classes) and C87; averages are functions on the line given by their values at the points of dofs | `forms_standing`: C87 for any description of the reductions; the matrix of averages acts on coefficients as the mean |
| C101 | `mean_mat` with measures as lists of integrals over cells or facets (`Mean`); assembly of vectors by dolfin is a contract | exchange of sums over cells, local dofs and dofs |
| C102 | the program of demo/time_dep.py:28-61 from forms on (`TimeDep`): forms with time dependent expressions, `u0` as a function in the forms, `apply_b`, solve and assign; the number of passes is a parameter (the float comparison `t < 1` is not modelled) | induction on passes over `Program.system_represents` with the values at each time |
| C103 | the assembly (`Reduced`, `Dispatch`) with the matrices of the modules for all kinds but transpose trace and injection, on points of all meshes (`Spec/Mixed`) | the meaning of each kind follows from the theorem about its matrix; `Reduced.assemble_represents_partial` puts these meanings into the integrals |
| C104 | the same assembly; conditions on integrals in `Spec/Assembly` | induction on the number of annotations: some module selects the integral, the terminal which it picks is compatible, the new integral again fulfils the conditions |
| C105 | the assertions of the twelve annotating functions and the elements found by `reduced_space` (`Model/Accept`) | acceptance is compared with a separate description in `Spec/Accept`; for each kind the exact condition for a reduced space, by induction on elements; counterexamples for the second part |
| C106 | the model of C48 with the circumcentres of C51 (`Circum`) | weights of the circumcentre are products of corners and squares of sides; among three points on a circle around a point between them two are seen under 120 degrees, so the second refinement meets an obtuse triangle |
| C107 | marking of facets by the number of their cells, then the model of C40 (`Skeleton`); `DomainBoundary().mark` by the definition of dolfin | composition |
| C108 | the loop of sandbox/babuska_hand_newton.py over the models of block_jacobian (C53), conversion (C04) and ii_Function (C23), `Newton`; assembly of a form with the coefficients of the moment, with the expansion of derivatives, and the solver are parameters | the blocks are partial derivatives of differentiable residuals, so the system is the linearised problem; mean value inequality for the residual after a step; induction over passes |
| C109 | the model of C48 with the circumcentres of C51 and `simplex_area` in all dimensions (`CircumIn`) | weights of the circumcentre decide the check; for the vertex with the least weight the circumcentre of the child opposite to it has weight at most -1 at the new vertex (Cauchy-Schwarz), so the second refinement meets a cell without its circumcentre; on intervals circumcentres are centroids |
| C110 | the model of C72 with slices as python reads them, labels of objects, a parameter for random numbers and a heap of lists (`IIFunctionMore`) | arithmetic of slices; induction on components |
| C111 | the model of C64 with the integral over (0, 1) as the rule (`Tangent`) | the integrand is the derivative of the argument; arguments of vertices cancel around the loop |
| C112 | rings, indices of quads and lines, order by angles (`Plot`); eigh and argsort are parameters with a specification | indices: induction over tubes with the points before them; order: three points of a circle seen in order from inside make a left turn |
| C113 | as C55, without the assumption that the matrices agree (`Hsmg`) | the chosen eigenpairs diagonalise the combination of powers of one pair; inverses of matrices are unique |
| C114 | as C39, without assumptions about the groups (`Patch`) | the indicator of a group after the loop over its colours; sums over cells and dofs are exchanged |
| C115 | as C49, without assumptions about the ends (`Contour`) | induction over the branches with the list of ends; the next free number is their number |
| C116 | edges as sorted pairs, marks, random choices as a list, `nx.shortest_path` by its contract (`RandomCurve`) | invariant of the loop: one boundary vertex, all vertices of the curve are joined to the last one |
| C117 | three branches, nan as `none` (`Segment`) | the squared distance is a parabola along the segment |
| C118 | projection and scaling, nan as `none` (`ProjCircle`) | algebra; the preimage is found by projecting along the normal |
| C119 | `RMesh` of C48 (`CrossGrid`) | it is one step of C48 with a trivial area |
| C120 | histories as lists, `add` returns the log and the exception, dictionaries as partial functions (`ConvLog`) | invariant of the two loops over all sequences of calls; logarithms of powers |
| C121 | marking and `SubMesh` as filters of cells, the norm of a list of cells is a parameter (`ConvLog`) | induction on tags and cells |
| C122 | exit codes and output as characters (`ConvLog`) | cases |
| C123 | the grid of `UnitSquareMesh` with integer coordinates, marking by conditions on rational coordinates with a tolerance (`Immersed`) | conditions up to the tolerance are conditions on integers; cases of horizontal, vertical and diagonal facets |
| C124 | `injection_matrix` of the sandbox over the spaces and loops of C33 (`Reproduce`) | linearity of the degrees of freedom on top of the theorems of C33 |
| C125 | `Grad`, `Div`, `asExpr` over any ring of expressions with `diff` and a test for zero (`Calculus`) | induction over the components; exact conditions; witnesses |
| C126 | data of `setup_mms` and rows of the block forms of `setup_problem` of 20 demos (`Mms`, `MmsData`), over a ring of functions with two commuting derivations and functionals satisfying the divergence theorem (`Spec/Mms`); instance: smooth functions on the plane with integrals over squares and edges (`Lemmas/MmsSmooth`, the divergence theorem there is proved) | integration by parts in the ring; the functions of the demos evaluated at the ends of the multiplier's domain |
| C127 | block rows of `setup_problem` of optim_control_L2, layer_2d, poisson_babuska and time_dep (`Minimise`), over functions with derivatives and integrals, squares having integrals which are not negative | expansion of the energy around the solution, cross terms vanish by the rows; multipliers from the annihilator of the kernel of the constraints |
| C128 | block rows of `setup_problem` of apps/enumath/has_multiplier.py and not_has_multiplier.py (`Apps`); integrals are bilinear forms on real vector spaces, averaging is a linear map | elimination of the multiplier, which the third row defines as a projection; a two dimensional witness where the averages are not in its space |
| C129 | block rows of `main` of apps/d123/solving.py (`Apps`, structure `Nested`) | expansion of the energy around the solution; multipliers from the annihilator of the kernel of the constraints; adding a constant to the three functions |
| C130 | all rows of 19 block systems as forms (`Symmetric`), from the rows of `Mms`, `Minimise` and `Apps` and those missing there | the integrands agree in the ring of functions |
| C131 | block systems tested with all functions of the spaces (`Solvable`), rows from `Minimise` and `Apps` | a form without kernel on a space of finite dimension is onto the dual; the kernel is trivial by testing with the solution and the negative multiplier |
| C132 | the block forms of `Symmetric` on products of subspaces of finite dimension (`Nonsingular`) | as C131: the kernel is trivial by testing with the solution and the negative multipliers; elements without energy are orthogonal to all others; a penalty block is a second energy |

Where the code violates a property the negation is proved with a concrete
witness and the provable part is kept as `..._partial`; see "Findings". Names recorded in seeded/LOG.jsonl are those at the time of the attempt, some without this suffix.

## Testing the theorems against wrong programs

`tools/mutate.py` edits the model in a scratch copy, rebuilds it and appends one line per attempt to
`seeded/LOG.jsonl`, including edits which survive and edits which do not compile.

`tools/automutate.py` makes random small edits (operators, constants, swapped arguments, dropped assertions, misspelt strings) of
the definitions edited least so far; its entries begin with `random:`.  Of the edits of this kind which survived, most change only
which exception is raised by an external library, or a branch no caller reaches; the others led to new or stronger theorems, named
in `tightened`.

How to read the log: that a proof no longer checks after an edit does not show that the statement became false.
Edits which change no result break proofs as well (example: emptying a cache after an exception breaks the proof of
`Memo.run_transparent_of`, which stays true).  If a helper lemma breaks, the properties above it are not rebuilt, so
nothing is known about them.  Only entries with `refuted` set have a Lean proof that the statement fails for the edited
program (`tools/refute.py` copies the statement, proves its negation on the edited model, and checks as a control that the
same proof fails on the model itself); the number of broken proofs is not a measure of the strength of the theorems.

## Findings

Nothing here was observed by running the package: it was not executed.  **[T]** marks statements which are theorems about
the model (so they hold of the code as far as the transcription is faithful), **[R]** marks statements found by reading
the source which no theorem backs.  They have not been reported to or confirmed by the authors.

Block operators and caches
* [T `ListUtils.reshape_negative_diverges`] `reshape_list` with negative extents never returns.
* [T `BlockOps.subSelectT_repeated_not_adjoint`] the transpose of `SubSelectOperator` is wrong for repeated indices.
* [T `BlockOps.reduction_zero_offset_fails`, `regroup_single_fails`, `vectorized_list_fails`] offsets starting with 0, offsets
  `[1]`, and a list of spaces make the operators raise.
* [T `Memo.trace_cache_not_transparent`, `gradient_point_trace_cache_not_transparent`, `injection_cache_not_transparent`,
  `patch_cache_transparent_iff`] cache keys omit the marking function, the tangent, the method, the colouring.

Conversion
* [T `Collapse.collapse_transpose_diverges`, `collapse_add_number_diverges`, `collapse_sub_number_diverges`] transposes of
  composites, and matrix plus or minus a number, recurse for ever (convert.py:149, 169, 185).
* [T `Collapse.collapse_drops_tiny`, `convert_drops_offdiagonal`] small numbers in sums and nonzero numbers off the diagonal
  are dropped (convert.py:52-54).
* [T `Collapse.get_dims_wrong`] wrong sizes of scaled products (convert.py:314-317).
* [T `CollapseIter.shared_raises`, `same_object_raises`, `names_collide`, `algorithms_disagree`, `other_raises`, `other_diverges`] collapse_iter: shared
  operator objects raise; equal names give a wrong matrix; other objects raise or loop.

Boundary conditions, nullspaces, preconditioners
* [T `ApplyBc.updater_ignores_diag`, `updater_fails_dict`] apply_b ignores diag_val and raises for dictionaries.
* [T `ApplyBc.return_apply_b_unbound`, `return_apply_b_plain_ignored`, `return_apply_b_empty_ignored`, `empty_dict_changes_kind`,
  `applyBc_no_dofs`] the return contract of apply_bc is broken in these cases.
* [R] a dictionary of block-level conditions crashes (apply_bc.py:79-85).
* [T `Nullspace.independent_rejected`, `constants_not_accepted`] vectors nearly dependent are rejected, constants raise.
* [R] a zero vector given to the nullspace divides by zero.
* [T `L20.projector_orthonormal_refused`] Projector refuses every M-orthonormal basis of two or more vectors (equal eigenvalues of the Gram
  matrix), and with no vectors it raises StopIteration when applied.
* [T `L20.riesz_single_raises`, `riesz_returns_argument`] L20_riesz_map raises for one vector, else returns M u.
* [T `MatFree.femCollapse_needs_zero`] collapse relies on create_vec returning a zero vector.
* [T `Krylov.matvec_rectangular_fails`] rectangular operators always raise (krylov_api.py:18).
* [T `Hsmg.collect_only`, `inverse_mixed_wrong`] scaled sums are refused; mixed pairs of matrices give a wrong inverse.

Forms
* [T `Ufl.replace_ignores_unlisted`, `replace_composite_wrong`] replace ignores annotations (ufl_utils.py:73-74).
* [T `Ufl.adjoint_same_space_wrong`, `adjoint_drops_annotations`, `BlockForm.makeSelfadjoint_diagonal_wrong`] form_adjoint and
  make_selfadjoint.
* [T `BlockForm.add_not_atomic`, `permute_single_fails`] a failing add keeps part of the form; one-block permute raises.
* [T `Reduced.assemble_ignores_unrecognised`, `equal_integrals_rejected`] reduced assembly.
* [R] nested annotations lose the inner one.
* [T `Dispatch.average_and_flux_raise`, `restriction_and_injection_raise`] these pairs in one integral always raise.
* [T `Dispatch.forgotten_trace_raises`] surface_mean selects without an attribute check (surface_mean_form.py:48-57), so a
  forgotten trace raises there. [T `Dispatch.facet_integrals_ignored`] traces and restrictions in integrals which are not over
  cells are ignored.
* [T `Elements.trace_tensor_wrong`, `average_vector_wrong`, `transpose_vector_wrong`, `extension_vector_wrong`] reduced tensors
  and vectors whose sizes are not the number of coordinates get another shape. [T `Elements.point_element_none`]
  point_trace_space returns None for three or more axes.
* [T `Jacobian.derivative_expression`, `derivative_mean_wrong`] Expressions raise; other annotations give a wrong derivative.
* [T `Annotate.point_trace_changes_argument`, `point_traces_collide`] PointTrace annotates its argument.

Matrices
* [T `DofMat.injection_fallback_raises`, `fineToCoarse_wrong`] injection_matrix.py:88 and 48.
* [T `Trace.trace_mat_two_sided_raises`, `jump_is_reversed`, `jump_not_plus_minus_minus`, `no_restrict_map_error`] 'avg' and 'jump'
  always raise; the sides are opposite; one get_entity_map call is outside `try` (trace_matrix.py:92).
* [R] two_restrict mixes INSERT and ADD without a flush; the dofs of the DG0 normal are assumed numbered by cells.
* [T `Average.average_of_constant_wrong_outside`] points outside the mesh count in the measure only.
* [T `Shape.circle_not_in_plane`] nearly vertical normals. [R] a normal -ez is not followed; a SquareRim with a corner
  off the plane within the tolerance is not planar.
* [T `Shape.rim_sequence_raises`] SquareRim accepts a tuple or list as its corner (average_shape.py:91) and then raises
  TypeError in each quadrature, since line 121 multiplies it by a float; Square works with it.
* [T `DiskQuad.degree_11_is_wrong`] degrees 10 and 11 are wrong. [R] the cause is taken to be the entry
  10.081713912649978. See `DiskQuad.disk_quadrature_total`, `nodes_in_disk`, `weights_positive` for the other tables.
* [T `Patch.coloring_shared_patch_wrong`, `coloring_neighbours_wrong`] patch colouring.
* [T `PointTrace.one_kind_always_raises`] evaluate_basis_all is called with 4 arguments in point_trace_matrix.py:137 and with 3
  in line 96; one of the two raises. [T `PointTrace.cg_vector_wrong`] with the signature of line 137 vector valued spaces
  get wrong values. [T `PointTrace.gradient_constants_refused`] piecewise constants are refused.

Meshes
* [T `Embedded.embedded_mesh_repeated_marker`] repeated markers repeat cells.
* [T `Embedding.embedding_map_one_cell`, `embedding_map_needs_subdomains`, `overlap_wrong`, `entity_map_not_mapped`,
  `entity_map_two_meshes`] embedding maps and get_entity_map (trace_matrix.py:530-536, subdomain_mesh.py:80-83).
* [T `Mortar.mortar_local_cell`, `mortar_raises`, `mortar_not_found`, `mortar_no_interface`] mortar_mesh.py:83-90.
* [R] is_continuous assigns `tdim = ... == 2`.
* [T `Branch.color_branches_two_loops`, `color_branches_loop_uncoloured`] separate closed curves. [R] walk_vertices fails for a
  Mesh argument.
* [T `Contour.refine_open`, `line_mesh_segment`, `straight_line_one`, `line_mesh_closed`] open contours, two-point branches.
* [T `Refine.point_outside_accepted`] points slightly outside are accepted. [R] nrefs <= 0 refines once.
* [T `Union.union_many`, `union_closed`, `union_gap`, `union_changes_leafs`] union_mesh.
* [T `Center.circumcenter_intervals`] intervals on the line and in the space. [T `CenterVec.centroid_distance2_wrong`]
  CentroidDistance2 calls _CenterDistance (cell_centers.py:457-459).
* [T `CenterVec.delaunay_plane_always`, `not_delaunay_accepted`] is_delaunay returns zeros for every mesh of triangles, since
  two circumcentres always differ by a normal of the common edge. [T `CenterVec.delaunay_not_a_number`] it is not a number if two
  neighbours have the same circumcentre; [T `CenterVec.delaunay_refused`] for tetrahedra the exterior value of Delaunay meshes is
  not zero. [T `CenterVec.distance2_origin`] CircumDistance2 fails if all centers are the origin.
* [T `Normal.mesh_oriented`] OuterNormal oriented by a mesh is zero on its interior facets. [T `Normal.marker_equal_arbitrary`,
  `default_straight`] the sign is arbitrary between equal markers and for straight surfaces. [T `Normal.numbering_matters`] the
  dofs of DG0 vectors are assumed to be numbered by cells.
* [T `Gmsh.tetrahedra_refused`, `gaps_refused`, `model_nodes_false`] the import refuses tetrahedra and nodes which no cell
  has; gaps in the node tags shift the elements.
* [T `Dual.dual_circumcenter_false`] dual meshes with circumcenters overlap for obtuse triangles.
  [T `Dual.dual_once_partial`] nrefs = 0 refines once.
* [T `Tangent.tangent_loop`] on loops TangentCurve follows the numbers of the vertices: at the vertex with the largest number two tangents
  meet. Hence [T `Tangent.encloses_wrong`] wind_number and encloses_points, which only accept loops, miss points inside and
  [T `Tangent.normal_wrong`] NormalCurve is outward on some cells and inward on others. [R] the message about unvisited edges is printed if some
  edge was visited (embedded_mesh.py:577); the docstring of encloses_points says the opposite of its code.
* [T `Tangent.outside_accepted`, `inside_missed`] is_inside_contour uses the midpoint rule on unrefined edges.
* [T `Collide.segments_never`, `triangle_never`, `overlap_missed`, `space_missed`, `plane_missed`] line_collision.intersects answers no whenever
  the linear system is singular or not square: for parallel and overlapping segments, for all segments in space and for all triangles in the plane.
  [T `Collide.box_collides_raises`] box_collides always raises NameError. [R] the box in collides_cell is not used.
* [T `Extension.intersecting_accepted`, `uniform_refused`] uniform_extension_matrix (line 82) refuses only if all nodes coincide, not if the domains
  intersect. [T `Extension.extension_other`] other types of extension give None. [T `Extension.components_wrong`] vectors with different numbers
  of components are accepted, with values of wrong components. [R] harmonic_extension_operator does not set boundary conditions (commented out).
* [T `Nest.nest_number_wrong`] nest turns blocks which are numbers into zero, on the diagonal as well. [T `Nest.nest_precond_none`] it returns None
  if any block is a preconditioner. [T `Nest.pc_nest_overlap`] pc_nest with offsets which start with 0 (ReductionOperator accepts them) sets up fields which
  overlap. [T `Nest.pc_nest_single_refused`] a regrouped preconditioner with one index set raises TypeError. [R] the type of the field split is not set;
  the default of PETSc is multiplicative, so the preconditioner is then not the block diagonal one.
* [T `Reshape.reshape_mixed_refused`] block_reshape with groups of one next to groups of several makes blocks which do not fit the grouped vectors
  (a 1 x k block matrix next to a plain matrix in a row). [T `Reshape.reshape_drops`] offsets which end too early drop blocks without an error.
  [T `Reshape.zero_no_columns`] zero_matrix with rows and no columns is refused.
* [T `CollapseIter.numbers_last_raise`] The iterative collapse multiplies from the right, so `A*2*3` raises ValueError while `2*3*A` does not.
* [T `IIFunction.wrong_space_accepted`] function.py:28 asserts a list, so functions in other spaces are accepted. [T `IIFunction.no_components_raise`] `ii_Function([], [])` raises StopIteration.
* [T `IIFunction.interpolate_exchange_loses`, `interpolate_not_atomic`, `shared_components`] `u.interpolate([u[1], u[0]])` loses a component (function.py:84 assigns one after another), an interpolation which raises leaves the ones before it assigned, and the same vector may be given for two components.
* [T `PetscWrap.nullspace_correct_iff`, `nullspace_wrong`] block_utils.py:103 always declares constants to be in the null space, so it is right only for operators which annihilate them.
* [T `Continuous.surface_touching_accepted`] mortar_mesh.py:145 sets `tdim` to the truth value of a comparison, so for surfaces the graph joins edges with a common vertex: two triangles which touch in a vertex are called continuous.
* [T `TransposeTrace.transpose_trace_assembly_raises`] transpose_trace_matrix.py:24 computes the trace from the first space to the second one, but transpose_trace_assembly.py:39 passes the space on the trace mesh first. build_embedding_map then refuses to embed the trace mesh into itself (embedded_mesh.py:390), so every form with TransposeTrace of an argument on the trace mesh raises AssertionError.
* [T `Harmonic.harmonic_not_documented`, `Harmonic.harmonic_ignores_marks`] extension_matrix.py:141 adds `inner(u, v)*dx` to the Laplacian and the boundary conditions are commented out (146-147): the harmonic extension solves u - Delta u = delta f with natural conditions, and the marking of the facets is not used.
* [T `Krylov.scipy_residuals_are_not`] krylov_api.py:85 appends the norm of what scipy hands to `callback`; this is the iterate for cg, bicg, bicgstab and minres, so the numbers returned (and printed) as residuals are norms of the iterates. They do not tend to zero.
- C83: `Injection(v, mesh)` (injection_form.py:42-48) replaces the whole `parent_entity_map` of a refined mesh when there is no map for the mesh of `v`. Maps found by earlier traces are lost (`injection_drops`); afterwards 3d-1d traces raise `KeyError` instead of searching (`injection_breaks_average`), the first trace raises `AssertionError` since `tagged_cells` is missing (`injection_breaks_trace`), and traces with tags can miss cells (`injection_breaks_tags`). The mesh of `v` is taken to be the parent even if it is not (`injection_wrong_parent`).
* [T `Mean.mean_iff_unit_volume`, `mean_of_constant_wrong`] Mean does not divide by the volume, contrary to its documentation
  (mean_form.py:32, mean_matrix.py:43).
* [T `Accept.point_lagrange_raises`] PointTrace demands an integer (point_trace_form.py:37) but for Lagrange functions the matrix takes
  `len` of it (point_trace_matrix.py:46), so accepted point values of Lagrange functions always raise; `Means.point` of C103 is
  reached only with an annotation set by hand. demo/dirac_2d.py:20 calls PointTrace without the cell, which Python refuses.
* [T `Accept.gradient_lagrange_raises`] GradientPointTrace accepts Lagrange functions, its matrix never does.
* [T `Accept.extension_ignored`] extension_assembly is commented out of the tuple in xii_assembly.py:34: Extension is accepted and
  then ignored; the form goes to dolfin with the functions on the line.
* [T `Accept.accepted_without_space`] SurfaceMean of vectors, FluxAverage of scalars, GradientPointTrace of vectors, TransposeTrace of
  discontinuous functions and Trace, Average, PointTrace of functions of too high rank are accepted and raise in assembly.
* [T `Refine.circumcenter_refused`, `circumcenter_twice_refused`] circumcenter_refine raises for meshes with right angles (such as
  UnitSquareMesh) and, up to tolerances, for every mesh if nrefs is 2 or more: the mesh refined once has an angle of 120 degrees.  [T `Refine.circumcenter_never_twice`] The
  same holds for triangles in space and tetrahedra; [T `circumcenter_not_inside`] tetrahedra at a corner of a cube are refused.
* [R] test/test_refine.py:77, 86 calls `circumcenter_refine(mesh, 2)` for two refinements; the second argument is `strict`.
* [T `Refine.circumcenter_unchecked`] with strict=0 an obtuse triangle is replaced by cells which leave it.
* [T `IIFunction.caller_list`] function.py:29 keeps the caller's list of functions: appending to it or removing from it changes the ii_Function, whose length then differs from that of its spaces. [T `IIFunction.rename_labels`] function.py:40 renames only as many functions as there are names, without notice.
* [R] convert.py:362 `bmat_sizes` of a block_vec reads `block_vec.blocks` of the class, which raises AttributeError; no caller passes a block_vec.
* [T `Tangent.encloses_right`, `encloses_outside`] embedded_mesh.py:511-513: `encloses_points` compares the number and not its absolute value with `tol`, so no point inside a loop numbered clockwise is found; and since cells of a mesh are ordered, the last cell of a loop numbered along has the wrong tangent, so that points outside which are behind the last cell are reported as enclosed.
* [T `Plot.radial_order_off_centre`, `radial_order_outline`] io/plot.py:131: `radial_order_points` takes the angles of the points and not of their differences to the mean `com`, so for circles which the axis through the origin misses the points are in the wrong order, and `vtk_plot_data` draws diagonals.
* [T `Plot.rim_ring_not_outline`] average_shape.py:138, io/plot.py:44-47: the points of `SquareRim` go around the square once for each node, so with two or more nodes the tube of `vtk_tube` is not the surface of the prism.
* [T `RandomCurve.inner_start_disconnected`, `curve_never_found`] apps/enumath/meshing.py:119-155: if the vertex nearest to the corner is not on the boundary, the curve can consist of several pieces, which `load` does not notice. With a single inner vertex, or a negative number of points, the loop of `fun` never ends.
* [T `ProjCircle.circle_map_collapses`, `circle_quad_wrong`, `circle_height_integral`, `disk_center_nan`] sandbox/transforms.py:15-16, 32-33: C118 is false if the normal is in the plane z = 0: only two points of the circle are reached, so that integrals by `circle_quad` are wrong; points parallel to the normal, and the centre of every disk, are mapped to nan. The shapes of xii/assembler/average_shape.py rotate instead (C36).
* [T `ConvLog.missing_key_half_added`, `ConvLog.zero_error_out_of_step`, `ConvLog.extra_values_dropped`] demo/common.py:70-88, 127-132: C120 is false for calls which fail: a missing key raises after the values have been added, and an error of exactly zero after another error raises `ValueError` (the logarithm of zero is not caught) when the error has been added and the rate has not, so that the histories are out of step from then on. More values than variables are dropped without a word.
* [T `ConvLog.broken_norm_zero_tag`] demo/common.py:23-26: C121 is false for the tag 0: all cells have it, so the error of its function is taken over the whole mesh.
* [T `ConvLog.crash_reported_passed`] demo/test_demos.py:11-14: C122 is false: demos exit with 1 if they pass, as Python does after an exception, and crashes are told by the word `Error` in the output only. A demo which ends with an exception of another name, such as `UFLException`, is reported as passed.
* [T `Calculus.grad_vector_iff`, `div_vector_wrong`, `asExpr_returns_iff`] sandbox/calculus.py:21, 27, 42: `values()` of a matrix of sympy leaves out zeros. The gradient of a vector with a zero component lacks rows, Div of (0, g) is the derivative of g by the first variable, and asExpr raises if an entry is zero.
* [T `Calculus.div_tensor_ignores`, `div_tensor_other_variables`] sandbox/calculus.py:30: the rows of a tensor are passed to Div without the variables, so the divergence of a tensor is always in x[0], x[1]; it is zero for expressions in other symbols.
* [T `Mms.twoD_multiplier_ends`] demo/twoDoneDoneD.py:136: the multiplier is set to zero at both ends of the segment, but the multiplier of the manufactured solution is -2*kappa*pi at the upper end.
* [T `Mms.free_slip_multiplier_ends`] demo/free_slip_stokes_iter.py:205: the multiplier is set to zero at both ends of the left edge, but the multiplier of the manufactured solution is 1 and -1 there. In demo/bertoluzza_stokes.py:183 the same condition agrees with the manufactured solution (`Mms.bertoluzza_multiplier_ends`).
* [T `Mms.heat_multiplier_end`] demo/time_dep.py:40: the multiplier is set to zero at the ends of the three edges, but the multiplier of the exact solution is pi*t at the upper end of the left edge.
* [T `Mms.daq_drops`] demo/daq_3d1d.py:49,54: the form `a11` (diffusion and reaction on the curve) is set up but the block form has 0 in its place, so the second equation is not the one in the header.
* demo/dq_darcy_stokes.py:18: the sign of the tangential interface datum in the header is the opposite of the one in the code (lines 62 and 160), which is the consistent one (`Mms.dq_consistent`).
* demo/free_slip_stokes_iter.py:169-172: the two branches computing `nGamma` for flat and curved boundaries are swapped; the value is not used.
* demo/dirac_2d.py: `setup_preconditioner` returns three diagonal blocks although the problem has two spaces.
* [T `Minimise.optim_header_wrong`] demo/optim_control_L2.py:1: the objective in the header lacks a factor 1/2 in its first term: with it the solution of the block system is not the minimiser. The system is that of |u - f|^2/2 + eps/2*|p|^2 (`Minimise.optim_minimises`); the f of the state equation in line 5 is the control p.
* [T `Apps.multiplier_changes_solution`] apps/enumath/has_multiplier.py and not_has_multiplier.py: averages are discontinuous and piecewise linear (`average_space`), the multiplier is continuous (line 30), so the third row projects the average and the two programs have different solutions. They have the same ones if the averages are in the space of the multiplier (`Apps.multiplier_eliminated_partial`); in general the first program is the second one with the projected average of the unknown (`Apps.has_multiplier_iff`).
* [T `Apps.nested_not_unique`] apps/d123/solving.py: nothing is prescribed on a boundary and the energy has only gradients, so the block system is singular: a constant can be added to the three functions. The header has cubes of norms; the system is that of squares (`Apps.nested_minimises`).
* apps/enumath/has_multiplier.py:19, not_has_multiplier.py:19: in the code for `f` the terms `(x[1]-0.5, 2)` and `(x[2]-0.5, 2)` lack `pow`; the comma operator of C++ makes each of them 2. The force `g` of the end of the curve is integrated over the whole curve (line 56 and 52), and the Robin term `inner(u, v)*ds` of the curve lacks `kbdry` (line 43 and 45).
* demo/twoDoneDoneD_iter.py:49-54 and demo/layton_darcy_stokes_iter.py:66-71: `--hs mg` is offered but has no branch, so `BQ` and `BM` are unbound.


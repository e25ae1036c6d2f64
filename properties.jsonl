{"id": "C01", "title": "Assembly keeps the block layout", "statement": "For every rectangular nested list of forms, ii_assemble returns a block object of the same shape whose entry at every index is the assembled form found at that index of the input.", "quantifier": "all nesting depths, all extents >= 1, all forms", "why_tests_cant": "finitely many shapes can be tried; layout must be right for all of them", "anchors": ["xii/assembler/xii_assembly.py:assemble", "xii/linalg/list_utils.py:shape_list,flatten_list,reshape_list,package"]}
{"id": "C02", "title": "reshape_list is numpy row-major reshape", "statement": "reshape_list(lst, shape) equals numpy array.reshape: the entry at a multi-index is the entry of the flattened list at the row-major position; flattening the result gives back the flattened input.", "quantifier": "all rectangular lists, all target shapes with positive extents and equal product", "why_tests_cant": "indices and shapes are unbounded", "anchors": ["xii/linalg/list_utils.py:reshape_list,flatten_list,package"]}
{"id": "C03", "title": "List reshaping rejects bad shapes and always returns", "statement": "shape_list rejects every ragged list, reshape_list rejects every target shape whose number of entries differs, and both return for every input.", "quantifier": "all nested lists and all target shapes, including empty lists and zero extents", "why_tests_cant": "termination and rejection are claims about all inputs", "anchors": ["xii/linalg/list_utils.py:shape_list,reshape_list,package"]}
{"id": "C04", "title": "ii_convert of a composite is the operator it denotes", "statement": "Whenever ii_convert returns for an expression made of matrices, numbers, products, sums, differences and transposes, the result acts on every vector exactly as the expression does, provided the numbers in it and their products are zero or at least 1e-14 in absolute value (smaller ones count as zero in a sum).", "quantifier": "all expressions of any depth, all matrix sizes and entries, all vectors", "why_tests_cant": "expression trees are unbounded", "anchors": ["xii/linalg/convert.py:collapse,collapse_add,collapse_sub,collapse_mul,collapse_tr"]}
{"id": "C05", "title": "ii_convert terminates", "statement": "ii_convert returns a matrix, without unbounded recursion, for every conforming composite expression of matrices, numbers, products, sums, differences and transposes.", "quantifier": "all expressions", "why_tests_cant": "non-termination is only visible as a hang; which expressions hang is a claim about all of them", "anchors": ["xii/linalg/convert.py:collapse,collapse_tr,collapse_add,collapse_sub"]}
{"id": "C06", "title": "Iterative collapse is the operator the expression denotes", "statement": "Whenever the non-recursive collapse/monolithic returns for an expression, the result acts as the expression does.", "quantifier": "all expression trees and all rewriting schedules of the graph", "why_tests_cant": "the number of trees and orders in which subtrees are collapsed is unbounded", "anchors": ["xii/linalg/collapse_iter.py:collapse,expr2graph,collapsable_trees,replace_tree,collapse_tree"]}
{"id": "C07", "title": "The two collapse algorithms agree", "statement": "When both ii_convert and the iterative collapse return a matrix for the same expression, the matrices are equal.", "quantifier": "all expressions", "why_tests_cant": "as C06", "anchors": ["xii/linalg/convert.py:collapse", "xii/linalg/collapse_iter.py:collapse"]}
{"id": "C08", "title": "Monolithic matrix acts like the block matrix", "statement": "ii_convert(A)*ii_convert(x) == ii_convert(A*x) for every block matrix A whose blocks are matrices, composites or numbers and every conforming block vector x.", "quantifier": "all block shapes, block sizes, entries and numbers", "why_tests_cant": "unbounded number of block layouts", "anchors": ["xii/linalg/convert.py:convert,block_mat_to_numpy,block_vec_to_numpy,bmat_sizes"]}
{"id": "C09", "title": "Splitting and merging are inverse", "statement": "as_block(ii_convert(x), sizes) == x and ii_convert(as_block(v, sizes)) == v, for block vectors and block matrices.", "quantifier": "all block sizes, all entries", "why_tests_cant": "all partitions of all lengths", "anchors": ["xii/linalg/bc_apply.py:as_block", "xii/linalg/convert.py:convert"]}
{"id": "C10", "title": "Boundary values are imposed", "statement": "Every solution of the system returned by apply_bc takes the prescribed value on every constrained dof; the constrained dof of block k is the k-th block dof with that local number.", "quantifier": "all block systems, all boundary data, nonzero diagonal values, both modes", "why_tests_cant": "all systems and all solutions", "anchors": ["xii/linalg/bc_apply.py:apply_bc"]}
{"id": "C11", "title": "Symmetric and nonsymmetric elimination have the same solutions", "statement": "The systems returned by apply_bc with symmetric=True and symmetric=False have the same solutions, which are exactly the vectors with the prescribed values satisfying all unconstrained equations.", "quantifier": "all systems, boundary data, nonzero diagonal values", "why_tests_cant": "quantifies over all solutions of all systems", "anchors": ["xii/linalg/bc_apply.py:apply_bc"]}
{"id": "C12", "title": "Symmetric elimination keeps symmetry and definiteness", "statement": "If A is symmetric so is the matrix returned by apply_bc(symmetric=True); if A is positive definite and diag_val>0 the result is positive definite.", "quantifier": "all symmetric block systems", "why_tests_cant": "all matrices and all vectors in the quadratic form", "anchors": ["xii/linalg/bc_apply.py:apply_bc"]}
{"id": "C13", "title": "The rhs updater agrees with apply_bc", "statement": "The function returned by apply_bc(return_apply_b=True) maps any right-hand side to the one apply_bc would produce with the current boundary values.", "quantifier": "all systems, right-hand sides, value updates, diagonal values", "why_tests_cant": "all updates of the boundary data over time", "anchors": ["xii/linalg/bc_apply.py:apply_bc"]}
{"id": "C14", "title": "apply_bc return contract", "statement": "apply_bc returns a pair, or a triple when return_apply_b is set, of the same kind (plain or block) as its inputs; empty boundary conditions leave the system unchanged.", "quantifier": "all kinds of bcs arguments and flags", "why_tests_cant": "combination of input kinds", "anchors": ["xii/linalg/bc_apply.py:apply_bc"]}
{"id": "C15", "title": "Nullspace basis stays orthonormal", "statement": "After any sequence of accepted additions the basis of a BlockNullspace is orthonormal and spans exactly the added vectors.", "quantifier": "all histories of additions", "why_tests_cant": "histories are unbounded", "anchors": ["xii/linalg/block_nullspace.py:BlockNullspace"]}
{"id": "C16", "title": "Nullspace rejects exactly dependent vectors", "statement": "Adding a vector is rejected if and only if it lies in the span of the vectors added before.", "quantifier": "all histories, all vectors", "why_tests_cant": "exact characterisation over all histories", "anchors": ["xii/linalg/block_nullspace.py:BlockNullspace.add_vector"]}
{"id": "C17", "title": "Orthogonalisation against the nullspace is a projection", "statement": "orthogonalize returns a vector orthogonal to every basis vector, changes the input by an element of the span, and is idempotent.", "quantifier": "all bases, all vectors", "why_tests_cant": "all vectors", "anchors": ["xii/linalg/block_nullspace.py:BlockNullspace.orthogonalize"]}
{"id": "C18", "title": "L20 projector and inner product", "statement": "With an M-orthonormal basis Z the Projector P is idempotent, kills every element of Z, is M-selfadjoint, and L20_inner_product satisfies <v, L20 u> = (Pu, Pv)_M.", "quantifier": "all bases, all vectors, all spd M", "why_tests_cant": "all vectors and all basis sizes", "anchors": ["xii/linalg/sherman_morrison.py:Projector,L20_inner_product,orthonormalize"]}
{"id": "C19", "title": "L20 Riesz map inverts the L20 inner product", "statement": "Applying L20_riesz_map after L20_inner_product is the identity on the orthogonal complement of the basis.", "quantifier": "all bases, all vectors", "why_tests_cant": "all vectors", "anchors": ["xii/linalg/sherman_morrison.py:L20_riesz_map"]}
{"id": "C20", "title": "SubSelectOperator", "statement": "R=SubSelectOperator(indices, W): R x are the selected blocks in the given order, R R^T y = y, and <R x, y> = <x, R^T y>.", "quantifier": "all block vectors, all index tuples", "why_tests_cant": "all index tuples", "anchors": ["xii/linalg/block_utils.py:SubSelectOperator"]}
{"id": "C21", "title": "ReductionOperator and RearangeOperator", "statement": "R merges consecutive (or listed) blocks; R^T R x = x and R R^T y = y, inner products are preserved, and no entry is lost or duplicated.", "quantifier": "all block sizes, all offsets / all mappings that partition the blocks", "why_tests_cant": "all offset sequences", "anchors": ["xii/linalg/block_utils.py:RearangeOperator,ReductionOperator,is_increasing"]}
{"id": "C22", "title": "RegroupOperator", "statement": "R^T(R x) = x for every block vector x and accepted offsets; R x has the groups given by offsets.", "quantifier": "all offsets, all block vectors", "why_tests_cant": "all offset sequences", "anchors": ["xii/linalg/block_utils.py:RegroupOperator"]}
{"id": "C23", "title": "VectorizedOperator acts component-wise", "statement": "VectorizedOperator(A, W) applied to x has as its j-th component A applied to the j-th component of x.", "quantifier": "all dof partitions, all operators, all vectors", "why_tests_cant": "all dof numberings", "anchors": ["xii/linalg/block_utils.py:VectorizedOperator"]}
{"id": "C24", "title": "Matrix-free operators convert to their matrix", "statement": "FESpaceOperator.collapse and the column-by-column branch of ii_convert return the matrix whose action is the operator, whenever the operator is linear; repeated calls return the same matrix.", "quantifier": "all linear operators, all vectors, all call histories", "why_tests_cant": "all vectors", "anchors": ["xii/linalg/fe_space_op.py:FESpaceOperator.collapse", "xii/linalg/convert.py:collapse,Rn_basis"]}
{"id": "C25", "title": "Krylov wrapper is the flattened block operator", "statement": "ScipyLinOp(A).matvec(flat x) is the concatenation of the blocks of A*x.", "quantifier": "all block shapes, all vectors", "why_tests_cant": "all block sizes", "anchors": ["xii/linalg/krylov_api.py:ScipyLinOp"]}
{"id": "C26", "title": "Fractional-preconditioner parsing", "statement": "collect returns, for a linear combination of interpolation-space matrices, a list of scaled terms whose sum is the combination.", "quantifier": "all expressions", "why_tests_cant": "all expression trees", "anchors": ["xii/linalg/hsmg_utils.py:collect"]}
{"id": "C27", "title": "block_form.add puts integrals in the right block", "statement": "After any sequence of adds, block (i,j) is the sum of the added integrals with test function in W[i] and trial function in W[j]; nothing is lost.", "quantifier": "all space lists, all add histories", "why_tests_cant": "histories are unbounded", "anchors": ["xii/assembler/block_form.py:_block_form.add,block_form"]}
{"id": "C28", "title": "Block form addition and permutation", "statement": "Block forms add entrywise; permute(form, p)[i][j] is form[p[i]][p[j]] with spaces permuted alike; permuting back is the identity; non-permutations are rejected.", "quantifier": "all block forms, all orderings", "why_tests_cant": "all orderings of all lengths", "anchors": ["xii/assembler/block_form.py:_block_form.__add__,permute"]}
{"id": "C29", "title": "make_selfadjoint", "statement": "For a triangular block form over distinct spaces the result is self-adjoint, keeps the given triangle, and non-triangular forms are rejected.", "quantifier": "all triangular block forms", "why_tests_cant": "all forms", "anchors": ["xii/assembler/block_form.py:make_selfadjoint,form_adjoint,is_upper_triangular,is_lower_triangular"]}
{"id": "C30", "title": "Expression substitution", "statement": "replace(expr, arg, repl, attrs) substitutes repl for exactly the terminals equal to arg (including reduction attributes) and leaves everything else unchanged.", "quantifier": "all expression trees", "why_tests_cant": "trees are unbounded", "anchors": ["xii/assembler/ufl_utils.py:replace,contains,matches,is_equal_terminal"]}
{"id": "C31", "title": "Reduced assembly represents the reduced integrals", "statement": "The tensor assembled from a form is the sum over its integrals of the integral evaluated with every annotated argument replaced by its reduction: v^T A u = sum I(R_v v, R_u u).", "quantifier": "all forms (any number and kind of integrals and annotated arguments), all coefficient vectors", "why_tests_cant": "forms and vectors are unbounded", "anchors": ["xii/assembler/reduced_assembler.py:ReducedFormAssembler.assemble", "xii/assembler/xii_assembly.py:assemble"]}
{"id": "C32", "title": "Operator caches are transparent", "statement": "For every history of requests the memoised reduction matrices equal the ones that would be computed afresh.", "quantifier": "all call histories, all argument values", "why_tests_cant": "histories are unbounded; staleness needs a particular earlier call", "anchors": ["xii/assembler/trace_matrix.py:memoize_trace", "xii/assembler/injection_matrix.py:memoize_inj", "xii/assembler/point_trace_matrix.py:memoize_point_trace", "xii/assembler/gradient_point_trace_matrix.py", "xii/assembler/patch_average_matrix.py:memoize_average"]}
{"id": "C33", "title": "Trace/restriction/interpolation matrices evaluate dofs", "statement": "For every coefficient vector u, row d of the matrix applied to u is the d-th degree of freedom of the target space applied to the function u on the chosen cell; rows of untouched dofs are zero.", "quantifier": "all meshes, dof maps, elements, tags, vectors", "why_tests_cant": "all meshes and vectors", "anchors": ["xii/assembler/trace_matrix.py:trace_mat_no_restrict", "xii/assembler/restriction_matrix.py:restriction_matrix", "xii/assembler/interpolation_matrix.py:interpolation_mat", "xii/assembler/nonconforming_trace_matrix.py"]}
{"id": "C34", "title": "One- and two-sided traces", "statement": "The '+' and '-' traces use the two different cells sharing the facet, the same sides as used by 'avg' and 'jump', with jump = plus - minus and avg = (plus+minus)/2.", "quantifier": "all facets, all geometries, all vectors", "why_tests_cant": "all geometries", "anchors": ["xii/assembler/trace_matrix.py:trace_mat_one_restrict,trace_mat_two_restrict,trace_mat"]}
{"id": "C35", "title": "Averaging operator is the quadrature mean", "statement": "Row of Average applied to u is the weighted mean of u at the quadrature points of the shape; constants are reproduced.", "quantifier": "all meshes, all shapes, all vectors", "why_tests_cant": "all point locations including points outside of the mesh", "anchors": ["xii/assembler/average_matrix.py:scalar_average_matrix,average_matrix"]}
{"id": "C36", "title": "Circle and disk quadrature geometry", "statement": "All Circle points lie at distance R from x0 in the plane through x0 normal to n and weights sum to 2 pi R; Disk points lie in that plane with weights summing to area.", "quantifier": "all centres, normals, radii, quadrature degrees", "why_tests_cant": "all real parameters", "anchors": ["xii/assembler/average_shape.py:Circle,Disk"]}
{"id": "C37", "title": "Square quadrature geometry", "statement": "Square and SquareRim points lie in the square/its boundary with centre x0 and corner P and weights sum to the area/perimeter.", "quantifier": "all centres, normals, corners, degrees", "why_tests_cant": "all real parameters", "anchors": ["xii/assembler/average_shape.py:Square,SquareRim"]}
{"id": "C38", "title": "Disk quadrature tables", "statement": "disk_quadrature(degree) returns nodes in the unit disk, symmetric weights, integrates odd monomials exactly and constants to pi, for every degree.", "quantifier": "all degrees, all odd monomials", "why_tests_cant": "all degrees; monomials of any order", "anchors": ["xii/assembler/disk_quadrature.py:disk_quadrature"]}
{"id": "C39", "title": "Patch averages", "statement": "Row of CellPatchAverage for a coloured dof applied to u is the mean of u over the patch with that colour, with and without patch colouring.", "quantifier": "all meshes, patches, colourings, vectors", "why_tests_cant": "all colourings", "anchors": ["xii/assembler/patch_average_matrix.py:patch_avg_mat,patch_avg_mat_coloring"]}
{"id": "C40", "title": "EmbeddedMesh cell and vertex maps", "statement": "The child mesh has one cell per marked parent entity, cell and vertex maps are injective, child cell vertices map onto the vertices of the parent entity, and each child cell carries the marker of its parent.", "quantifier": "all meshes, marker functions and marker lists", "why_tests_cant": "all meshes", "anchors": ["xii/meshing/embedded_mesh.py:EmbeddedMesh.__init__"]}
{"id": "C41", "title": "Marker translation", "statement": "translate_markers / transfer_markers give a child entity the marker of the parent entity with the same vertices and zero otherwise.", "quantifier": "all meshes and marker functions", "why_tests_cant": "all meshes", "anchors": ["xii/meshing/embedded_mesh.py:EmbeddedMesh.translate_markers", "xii/meshing/transfer_markers.py:transfer_markers"]}
{"id": "C42", "title": "Embedding maps are sound", "statement": "Every entry of the map built by build_embedding_map sends a child cell to a parent entity with the same vertex coordinates; when a child cell has no such parent the call fails.", "quantifier": "all pairs of meshes, all tags", "why_tests_cant": "all meshes", "anchors": ["xii/meshing/embedded_mesh.py:build_embedding_map", "xii/meshing/subdomain_mesh.py:OverlapMesh"]}
{"id": "C43", "title": "Entity map caching", "statement": "After get_entity_map(mesh, trace_mesh, subdomains, tags) every trace cell with one of the tags is mapped, for every history of requests.", "quantifier": "all histories of requests with different tags", "why_tests_cant": "histories are unbounded", "anchors": ["xii/assembler/trace_matrix.py:get_entity_map"]}
{"id": "C44", "title": "Mortar interface extraction", "statement": "mortar_meshes puts into the interface exactly the facets shared by cells with two different tags, coloured by the tag pair, with the first recorded cell on the smaller tag; the maps to the subdomains point to the adjacent subdomain cells.", "quantifier": "all meshes and markers", "why_tests_cant": "all meshes", "anchors": ["xii/meshing/mortar_mesh.py:mortar_meshes"]}
{"id": "C45", "title": "Branch colouring", "statement": "color_branches gives two edges the same colour iff they are joined by a path not passing through a branching vertex, and colours every edge.", "quantifier": "all line graphs", "why_tests_cant": "all graphs", "anchors": ["xii/meshing/branching.py:color_branches"]}
{"id": "C46", "title": "Walking a branch", "statement": "walk_cells / walk_vertices of a branch visit every cell exactly once, consecutive ones share a vertex, oriented tip to tail.", "quantifier": "all branches", "why_tests_cant": "all lengths", "anchors": ["xii/meshing/branching.py:walk_cells,walk_vertices"]}
{"id": "C47", "title": "Contour refinement", "statement": "refine_contour keeps the original points and inserts the requested number of equidistant points in every segment.", "quantifier": "all contours, all parameters", "why_tests_cant": "all lengths", "anchors": ["xii/meshing/branching.py:refine_contour"]}
{"id": "C48", "title": "Inner point refinement", "statement": "Each cell is replaced by its children which tile it; parent maps compose over several refinements.", "quantifier": "all meshes, all numbers of refinements", "why_tests_cant": "all meshes and levels", "anchors": ["xii/meshing/refinement.py:inner_point_refine"]}
{"id": "C49", "title": "Line meshes", "statement": "StraightLineMesh/LineMesh has the requested number of cells, joined tip to tail, with shared end points merged.", "quantifier": "all branch lists", "why_tests_cant": "all branch lists", "anchors": ["xii/meshing/line_mesh.py", "xii/meshing/generation.py"]}
{"id": "C50", "title": "Mesh union", "statement": "UnionMesh of meshes has all cells of its parts, with coinciding boundary vertices merged and child maps pointing to the parts.", "quantifier": "all lists of meshes", "why_tests_cant": "any number of meshes", "anchors": ["xii/meshing/union_mesh.py"]}
{"id": "C51", "title": "Circumcentres", "statement": "The circumcentre of every nondegenerate simplex is equidistant from its vertices.", "quantifier": "all nondegenerate simplices", "why_tests_cant": "all real coordinates", "anchors": ["xii/meshing/cell_centers.py"]}
{"id": "C52", "title": "Size inference", "statement": "get_dims of an expression is the size of the matrix it converts to.", "quantifier": "all expressions", "why_tests_cant": "all expressions", "anchors": ["xii/linalg/convert.py:get_dims"]}
{"id": "C53", "title": "Block Jacobian", "statement": "block_jacobian(F, u)[i][j] is the derivative of F[i] with respect to u[j].", "quantifier": "all block residuals", "why_tests_cant": "all forms", "anchors": ["xii/nonlin/jacobian.py:block_jacobian,ii_derivative"]}
{"id": "C54", "title": "Annotations do not change their argument", "statement": "Trace, Average, Restriction, PointTrace, ... return an annotated copy and leave the argument unannotated.", "quantifier": "all arguments and annotation sequences", "why_tests_cant": "histories", "anchors": ["xii/assembler/trace_form.py:Trace", "xii/assembler/point_trace_form.py:PointTrace", "xii/assembler/ufl_utils.py:reconstruct"]}
{"id": "C55", "title": "Inverse of fractional combinations", "statement": "inverse(e) for a linear combination e of interpolation-space matrices accepted by it returns the inverse matrix of e, whenever the combined eigenvalues do not vanish.", "quantifier": "all linear combinations, all sizes, all choices of eigenvectors", "why_tests_cant": "all expressions and matrices; eigenvectors are not unique", "anchors": ["xii/linalg/hsmg_utils.py:inverse,collect,crawl,extract_attributes,is_well_defined"]}
{"id": "C56", "title": "Import of gmsh models", "statement": "msh_gmsh_model followed by mesh_from_gmsh gives a mesh whose cells are, in order and at the same points, the elements of highest dimension of the physical groups, with a cell function holding the tags of the groups and an edge function holding the tag of the segment with the same ends.", "quantifier": "all node lists, all element blocks and tags, all numberings of entities by dolfin", "why_tests_cant": "all meshes and node numberings; a wrong renumbering shows only for special numbers", "anchors": ["xii/meshing/gmsh_interopt.py:msh_gmsh_model,mesh_from_gmsh,build_mesh"]}
{"id": "C57", "title": "Dual meshes are subdivisions", "statement": "dual_mesh(mesh, center, nrefs) returns a mesh of triangles in which the old vertices keep their number, each new cell lies in the cell given by the parent map, the new cells with one parent cover it, and for centroids all parts have the same area.", "quantifier": "all triangle meshes, all numbers of refinements, all positions", "why_tests_cant": "all meshes and numbers of refinements; depends on the position of the centers", "anchors": ["xii/meshing/dual_mesh.py:dual_mesh,dual_mesh_data,dual_mesh_triangle"]}
{"id": "C58", "title": "Point values evaluate at the point", "statement": "The matrix of a point trace maps the coefficients of a function to its value at the given point (for discontinuous functions: to its value there on the given cell), so that differences of two such values at a bifurcation are jumps; the gradient variant gives the derivative along the tangent. Points outside the mesh and cells which do not have the point are refused.", "quantifier": "all meshes, elements, dof maps, points, cells, tangents and coefficient vectors", "why_tests_cant": "all spaces and coefficient vectors; depends on the layout of evaluate_basis_all for vector valued elements", "anchors": ["xii/assembler/point_trace_matrix.py:point_trace_mat,point_trace_matrix_CG,point_trace_matrix_DG", "xii/assembler/gradient_point_trace_matrix.py:gradient_point_trace_mat,gradient_point_trace_matrix_DG"]}
{"id": "C59", "title": "Flux averages give the mean normal component", "statement": "The matrix of a flux average maps the coefficients of a vector valued function to the quadrature mean of its normal component over the shape at each dof of the curve. For circles: a radial field a(x - x0) gives a times the radius, and components along the curve do not contribute.", "quantifier": "all meshes, elements, dof maps, shapes, radii and coefficient vectors", "why_tests_cant": "all geometries and functions; normals must be paired with the right points", "anchors": ["xii/assembler/flux_average_matrix.py:flux_avg_mat,flux_average_matrix", "xii/assembler/average_shape.py:Circle.quadrature_normal"]}
{"id": "C60", "title": "Integrals go to the right assembler", "statement": "A form whose annotated functions are integrated over the meshes their reductions lead to is assembled, with the assemblers of the package in their fixed order, to the sum of its integrals with each annotated function reduced, whatever mixture of reductions it contains; or an exception is raised. A function whose reduction was forgotten is never assembled silently.", "quantifier": "all forms, all mixtures of the eleven reductions, all orders in which sets of terminals are visited", "why_tests_cant": "all combinations of reductions and all set orders", "anchors": ["xii/assembler/xii_assembly.py:assemble", "xii/assembler/reduced_assembler.py", "xii/assembler/*_assembly.py:restriction_filter,is_compatible", "xii/assembler/*_form.py:is_*_integral"]}
{"id": "C61", "title": "Reduced functions have the shape and degree of the original", "statement": "The space chosen for a trace, average, extension, transposed trace or point value has functions of the same value shape as the function reduced (scalars for fluxes and means), elements of the same polynomial degree except for real numbers, and cells of the mesh it lives on; functions of other shapes are refused. Traces, averages and fluxes are in discontinuous spaces, extensions are continuous only if the functions extended are, and means and point values are numbers.", "quantifier": "all elements, nested to any depth, and all cells", "why_tests_cant": "elements nest without bound and vector dimensions are arbitrary", "anchors": ["xii/assembler/trace_form.py:trace_cell,trace_element", "xii/assembler/average_form.py:average_cell,average_space", "xii/assembler/flux_average_form.py:flux_average_space", "xii/assembler/transpose_trace_form.py:transpose_trace_element", "xii/assembler/extension_form.py:extension_element", "xii/assembler/point_trace_form.py:point_trace_space", "xii/assembler/mean_form.py:mean_space", "xii/assembler/surface_mean_form.py:surface_mean_element"]}
{"id": "C62", "title": "Center vectors and the Delaunay check", "statement": "CircumVector and CentroidVector give at every facet the vector from the center of the '-' cell to the center of the '+' cell, and at exterior facets the vector from the facet's barycenter to the center of the cell; CircumDistance and CentroidDistance are their lengths; CircumDistance2 and CentroidDistance2 are the sums of the distances of the two centers to the barycenter of the facet; is_delaunay returns zeros exactly for Delaunay meshes.", "quantifier": "all meshes of triangles and tetrahedra", "why_tests_cant": "all meshes and shapes of cells, including degenerate positions of the centers", "anchors": ["xii/meshing/cell_centers.py:CircumVector,CentroidVector,CircumDistance,CentroidDistance,CircumDistance2,CentroidDistance2,is_delaunay"]}
{"id": "C63", "title": "Normals of embedded meshes are oriented as asked", "statement": "OuterNormal gives on each cell of an embedded mesh a unit vector normal to the cell; it points out of the inside point, out of the subdomain with the larger marker, out of the mesh, or along the expression given as orientation, and outwards for closed surfaces if nothing is given; InnerNormal is its opposite; orientations which do not fit the mesh are refused.", "quantifier": "all embedded meshes in any dimension and all orientations", "why_tests_cant": "all meshes, markers and numberings", "anchors": ["xii/meshing/embedded_mesh.py:OuterNormal,InnerNormal", "xii/meshing/dg_utils.py:pcws_constant,OrientedFacetNormal,orient_facet_normal"]}
{"id": "C64", "title": "Tangents and normals of curves", "statement": "TangentCurve gives on each cell of a curve a unit vector along the cell; from cell to cell it goes on in one direction, away from the root on curves with ends and around loops: where two cells meet one tangent enters the vertex and the other leaves it. NormalCurve gives unit normals of a loop which are all on the same side of it; wind_number refuses curves which are not loops, and encloses_points finds the points inside of a loop.", "quantifier": "all curves with any numbering of vertices and cells, all rules of integration", "why_tests_cant": "all numberings and all curves", "anchors": ["xii/meshing/embedded_mesh.py:TangentCurve,NormalCurve,wind_number,encloses_points", "xii/meshing/branching.py:is_loop"]}
{"id": "C65", "title": "Winding numbers of contours", "statement": "For a closed contour in the plane wind_number changes sign when the contour is reversed and does not depend on its first point or on translations; is_inside_contour does not depend on the direction of the contour and is true exactly for the points inside. Contours which are not closed are refused.", "quantifier": "all closed polygons and points", "why_tests_cant": "polygons with any number of vertices", "anchors": ["xii/meshing/branching.py:wind_number,is_inside_contour"]}
{"id": "C66", "title": "Collisions of segments with segments and triangles", "statement": "intersects tells for two segments, and for a segment and a triangle, whether they have a point in common, up to a tolerance at the ends and edges; the answer does not depend on the order of two segments. The bounding box of points contains them and is the smallest box to do so.", "quantifier": "all segments and triangles in the plane and in space, all tolerances", "why_tests_cant": "real coordinates, including degenerate positions", "anchors": ["xii/meshing/line_collision.py:bbox,box_collides,collides_cell,intersects"]}
{"id": "C67", "title": "Uniform extension from curves", "statement": "The extension matrix of type uniform gives each degree of freedom of the extended space the value of the function at the closest degree of freedom of the curve, component by component for vectors and tensors. Constants stay constant and values at common nodes are kept. Spaces with different elements, unknown types of extension and domains which intersect are refused.", "quantifier": "all spaces on curves and on extended meshes, all functions", "why_tests_cant": "any positions and numbers of nodes", "anchors": ["xii/assembler/extension_matrix.py:extension_mat,uniform_extension_matrix"]}
{"id": "C68", "title": "Nested PETSc matrices, vectors and preconditioners", "statement": "nest turns a block matrix into a PETSc nested matrix and a block vector into a nested vector with the same action and entries, up to a tolerance for blocks which are nearly zero. pc_nest sets up a field split with one field per diagonal block, the fields being the index sets of the blocks (or unions of consecutive ones when blocks are regrouped), each field solved by the block of the preconditioner. Preconditioners which are not block diagonal or of another shape are refused.", "quantifier": "all block matrices and preconditioners, any numbers and sizes of blocks, any offsets of the regrouping", "why_tests_cant": "arbitrary block structure and entries", "anchors": ["xii/linalg/nest.py:nest,pc_nest,pc_mat"]}
{"id": "C69", "title": "Grouped matrices, identities, diagonal matrices and matrices of rows", "statement": "block_reshape groups rows and columns of a block matrix by offsets without losing or moving blocks, and the grouped matrix acts on grouped vectors as the matrix does. block_diag_mat applies each block to its component, identity_matrix maps every vector of (nested) spaces to itself, row_matrix has the given vectors as its rows and zero_matrix is zero.", "quantifier": "all square block matrices and offsets, all nestings of spaces, all lists of rows, all sizes", "why_tests_cant": "any numbers and sizes of blocks and groups", "anchors": ["xii/linalg/matrix_utils.py:block_reshape,identity_matrix,row_matrix,zero_matrix", "xii/linalg/block_utils.py:block_diag_mat,RegroupOperator"]}
{"id": "C70", "title": "Iterative collapse ends with a matrix for every conforming expression", "statement": "The non-recursive collapse of any sum, difference, product and transpose of matrices of fitting sizes ends without an exception, whatever order the subtrees are rewritten in, and the result acts as the expression does.", "quantifier": "all conforming expression trees and all rewriting schedules of the graph", "why_tests_cant": "unboundedly many trees and orders; the loop has no bound of its own", "anchors": ["xii/linalg/collapse_iter.py:collapse,expr2graph,collapsable_trees,replace_tree,collapse_tree,get_tree_root"]}
{"id": "C71", "title": "Injection between nested meshes", "statement": "injection_matrix(Vc, Vf, fine_mesh, data), where fine_mesh is the mesh of Vf, maps coefficients of functions in Vc to coefficients in Vf: for data['not_nested_method'] 'interpolate' it is the transfer matrix of dolfin, for 'project' the request is refused, and for other values row d evaluates the d-th degree of freedom of Vf at the basis functions of Vc on the parent of the fine cell recorded in fine_mesh.parent_entity_map.", "quantifier": "all spaces, methods and orders of the items of the parent map", "why_tests_cant": "all meshes, spaces and orders of the parent map", "anchors": ["xii/assembler/injection_matrix.py:injection_matrix"]}
{"id": "C72", "title": "Functions in products of spaces", "statement": "ii_Function(W) has one function in each space of W, in order, with coefficients zero and sharing no vector. ii_Function(W, components) holds the given functions, or functions with the given vectors, and refuses a wrong number of components and components which do not fit the spaces. vector() is wired up with the components: a change of one is a change of the other and of nothing else. u[i] is the component at place i. u.interpolate(g) makes every component the interpolant of what g gives for it.", "quantifier": "all lists of spaces and components, all histories of writes, all g including ones made of components of u", "why_tests_cant": "all sharing patterns of coefficient vectors and all sizes", "anchors": ["xii/linalg/function.py:ii_Function", "xii/linalg/function.py:as_petsc_nest"]}
{"id": "C73", "title": "Operators handed to PETSc", "statement": "The matrix made by ii_PETScOperator(A, nullspace) overwrites y by A*x in mult and by the transpose of A times x in multTranspose, for block operators and others, whatever y held before, and so does the preconditioner made by ii_PETScPreconditioner; the null space attached to the matrix consists of the linear combinations of the given vectors.", "quantifier": "all operators, vectors, previous contents of y and null spaces", "why_tests_cant": "all operators and all stale contents of work vectors", "anchors": ["xii/linalg/block_utils.py:ii_PETScOperator", "xii/linalg/block_utils.py:ii_PETScPreconditioner"]}
{"id": "C74", "title": "Continuity of interfaces", "statement": "is_continuous(mesh), which mortar_meshes asserts of the interface when it is strict, is true exactly when every two cells of the mesh are the ends of a path of cells in which neighbours have a common facet (a vertex of curves, an edge of surfaces); meshes which are not embedded are refused.", "quantifier": "all meshes of curves and of triangles, of any size and any numbering", "why_tests_cant": "reachability in meshes of all sizes", "anchors": ["xii/meshing/mortar_mesh.py:is_continuous"]}
{"id": "C75", "title": "Means over surfaces", "statement": "For SurfaceMean(u, Gamma) with Gamma made of facets of the mesh of u, the reduction matrix has a single row, and the row applied to the coefficients of any function is the mean over Gamma of its trace (the integral divided by the area), in particular c for the constant c; a surface without area is refused.", "quantifier": "all scalar spaces whose traces have the integrals of their interpolants in the trace space, all surface meshes and markings, all coefficient vectors", "why_tests_cant": "all meshes, spaces and functions", "anchors": ["xii/assembler/surface_mean_matrix.py:surface_mean_mat,surface_mean_matrix", "xii/assembler/surface_mean_form.py:surface_mean_space"]}
{"id": "C76", "title": "Transposed traces", "statement": "Forms with TransposeTrace(p, Gamma) for p in a space on Gamma are assembled with the transpose of the trace from the space on the full mesh to the space on Gamma; TransposeTrace accepts terminals and meshes with a map into the full mesh.", "quantifier": "all trace meshes, spaces, coefficient vectors, and histories of requests for embedding maps", "why_tests_cant": "all meshes and histories", "anchors": ["xii/assembler/transpose_trace_form.py:TransposeTrace", "xii/assembler/transpose_trace_matrix.py:transpose_trace_mat", "xii/assembler/transpose_trace_assembly.py:TransposeTraceFormAssembler"]}
{"id": "C77", "title": "Harmonic extension", "statement": "The harmonic extension matrix maps f in V to the trace, on the mesh of EV, of the function u_h on the auxiliary mesh which solves -Delta u_h = delta_gamma*f with u_h = 0 on the facets marked by 1; meshes which are not in the plane and markings without 1 are refused.", "quantifier": "all auxiliary meshes and markings, all spaces, all f", "why_tests_cant": "all meshes and functions", "anchors": ["xii/assembler/extension_matrix.py:harmonic_extension_operator"]}
{"id": "C78", "title": "Krylov drivers solve the block system", "statement": "For block operators whose row and column blocks have the same sizes: when the Krylov method converges to a solution of the flattened system, pyamg_solve and scipy_solve return a block vector which solves the block system, and the blocks of the initial guess hold it after the call; when the method raises or reports a nonzero status the call raises and the initial guess is unchanged. A preconditioner acts on flat vectors as the block operator does on block vectors.", "quantifier": "all block shapes, methods, right hand sides, initial guesses, with or without preconditioner", "why_tests_cant": "all block sizes and all outcomes of the method", "anchors": ["xii/linalg/krylov_api.py:pyamg_solve", "xii/linalg/krylov_api.py:scipy_solve"]}
{"id": "C79", "title": "Residuals of scipy_solve", "statement": "The numbers which scipy_solve returns as residuals are the norms of the residuals of the iterates.", "quantifier": "all systems and methods", "why_tests_cant": "all systems", "anchors": ["xii/linalg/krylov_api.py:scipy_solve"]}
{"id": "C80", "title": "Dual meshes with centroids are conforming subdivisions", "statement": "dual_mesh(mesh, nrefs=n) of a conforming mesh of triangles (default centers: centroids) returns for every n >= 1 a conforming mesh: cells meet in nothing, a common vertex or a common edge. The old vertices keep their number, each new cell lies in the cell given by the parent map, the parts of a cell cover it, and in the plane all of them have 1/6^n of its area.", "quantifier": "all conforming triangle meshes, all numbers of refinements", "why_tests_cant": "all meshes and numbers of refinements", "anchors": ["xii/meshing/dual_mesh.py:dual_mesh,dual_mesh_data,dual_mesh_triangle"]}
{"id": "C81", "title": "Centroid refinement gives conforming subdivisions", "statement": "centroid_refine(mesh, nrefs) of a conforming mesh of intervals, triangles or tetrahedra succeeds whenever every cell has size above (tdim+1)^nrefs * 1E-15, and fails if some cell has size (tdim+1)*1E-15 or less. The result is conforming (two cells meet in the simplex spanned by their common vertices, if at all), old vertices keep their number, each new cell is in the cell given by the parent map and the children of a cell tile it.", "quantifier": "all conforming simplicial meshes, all numbers of refinements", "why_tests_cant": "all meshes, dimensions and numbers of refinements", "anchors": ["xii/meshing/refinement.py:centroid_refine,inner_point_refine,point_is_inside,simplex_area"]}
{"id": "C82", "title": "Traces localised by tags", "statement": "Trace(v, mesh, tag=T) of a function on a bulk mesh, with a mesh whose cells are facets of the bulk mesh, is represented by a matrix which evaluates the degrees of freedom of the trace on all cells marked by T and only there; without tag all cells are used. This holds whatever traces of functions on the bulk mesh were assembled before, with other tags, sides or failed calls. The normal is irrelevant for unrestricted traces, for one-sided ones it selects the side. Tags which mark no cell and unknown restrictions are refused without effects.", "quantifier": "all conforming pairs of meshes, markings, tags, spaces and histories of traces between the two meshes", "why_tests_cant": "all meshes and all histories of calls sharing the map kept in the trace mesh", "anchors": ["xii/assembler/trace_form.py:Trace", "xii/assembler/trace_assembly.py:TraceFormAssembler", "xii/assembler/trace_matrix.py:trace_mat,get_entity_map", "xii/meshing/embedded_mesh.py:build_embedding_map"]}
{"id": "C83", "title": "Maps between meshes are kept", "statement": "The maps from the cells of a mesh to entities of other meshes, which traces, embeddings and injections keep in the mesh, are never lost and always right: annotating or assembling something with the mesh does not break what could be computed before.", "quantifier": "all histories of traces, embeddings and injections with a mesh", "why_tests_cant": "all orders of calls sharing a mutable mesh", "anchors": ["xii/assembler/injection_form.py:Injection", "xii/assembler/trace_matrix.py:get_entity_map", "xii/meshing/embedded_mesh.py:EmbeddedMesh.compute_embedding", "xii/assembler/average_matrix.py:trace_3d1d_matrix", "xii/assembler/restriction_matrix.py:restriction_mat"]}
{"id": "C84", "title": "From assembled blocks to the solution", "statement": "The program ii_assemble, apply_bc, ii_convert, solve into ii_Function(W).vector() gives a function whose components have the prescribed values at the constrained degrees of freedom and satisfy the block equations at all others; nothing else changes, and the program returns when there is exactly one such function. In the time dependent version, with boundary conditions applied to the matrix once and the right-hand side updated in every step by the function returned by apply_bc, this holds in every step with the data of that step and the solution of the step before.", "quantifier": "all block systems of conforming expressions, boundary conditions, diagonal values and both kinds of elimination, all exact solvers; all numbers of time steps, right-hand sides and boundary values", "why_tests_cant": "all systems and all histories of time steps", "anchors": ["demo/poisson_babuska_bc.py", "demo/time_dep.py", "xii/linalg/bc_apply.py:apply_bc", "xii/linalg/convert.py:convert", "xii/linalg/function.py:ii_Function"]}
{"id": "C85", "title": "Coupled integrals are integrals of restrictions", "statement": "When a form with integrals over a trace mesh is assembled, in which functions on a bulk mesh occur under Trace, the tensor A represents the integrals in which each such function is replaced by its restriction to the trace mesh: v^T A u equals the sum of the integrals with the restrictions of v and u, for all coefficient vectors. This holds whatever traces onto the same mesh were assembled (or refused) before.", "quantifier": "all forms (sums of integrals, any number of traced test, trial and coefficient functions), all conforming pairs of meshes and spaces of continuous functions whose restrictions are in the trace space, all tags which mark the domain of integration, all histories of earlier traces", "why_tests_cant": "all forms, meshes, spaces, coefficients and histories", "anchors": ["xii/assembler/xii_assembly.py:assemble", "xii/assembler/reduced_assembler.py:ReducedFormAssembler", "xii/assembler/trace_form.py:Trace", "xii/assembler/trace_assembly.py", "xii/assembler/trace_matrix.py:trace_mat"]}
{"id": "C86", "title": "From block forms to the solution of the discrete problem", "statement": "A program which assembles block forms a and L with ii_assemble, applies boundary conditions, converts, solves and writes the solution to ii_Function(W) returns functions which have the prescribed values and satisfy, for every row k and every test function v vanishing where values are prescribed, sum_j a[k][j](v, x_j) = L[k](v), where functions under Trace, Average etc. stand for the functions they reduce to (for traces: the restrictions to the trace mesh). Other functions are not changed, and the program returns whenever the forms can be assembled and this discrete problem has just one solution.", "quantifier": "all numbers of blocks, spaces, block forms with forms or numbers as blocks, integrands, reductions, boundary conditions, values of diag_val, symmetric or not, exact solvers", "why_tests_cant": "all systems of forms, right-hand sides, boundary data and coefficients", "anchors": ["demo/poisson_babuska_bc.py", "xii/assembler/xii_assembly.py:assemble", "xii/assembler/block_form.py:block_form", "xii/linalg/bc_apply.py:apply_bc", "xii/linalg/convert.py:convert", "xii/linalg/function.py:ii_Function"]}
{"id": "C87", "title": "From forms added to block forms to the solution of the variational problem", "statement": "A program which starts from block_form(W, 2) and block_form(W, 1), adds bilinear forms a_1, a_2, ... and linear forms L_1, L_2, ..., assembles, applies boundary conditions, converts, solves and writes the solution to ii_Function(W) returns functions u which have the prescribed values and satisfy a_1(u, v) + a_2(u, v) + ... = L_1(v) + L_2(v) + ... for all test functions v = (v_1, ..., v_n) which vanish where values are prescribed, whatever the order of the forms and the blocks in which their integrals are; functions under Trace stand for their restrictions. No other functions are changed. If the spaces differ, the integrals have their test and trial functions in W, the blocks can be assembled and the variational problem has just one solution, the program returns.", "quantifier": "all numbers of spaces, lists of forms with any numbers of integrals, integrands, reductions, boundary conditions, values of diag_val, symmetric or not, exact solvers", "why_tests_cant": "all variational problems with several spaces, their forms, data and orders in which the forms are added", "anchors": ["xii/assembler/block_form.py:block_form", "xii/assembler/xii_assembly.py:assemble", "xii/linalg/bc_apply.py:apply_bc", "xii/linalg/convert.py:convert", "xii/linalg/function.py:ii_Function"]}
{"id": "C88", "title": "Conversion of block matrices with numbers, exactly", "statement": "A block matrix whose blocks are matrix expressions of the right sizes or numbers is always converted. The matrix acts as the block matrix in which a number in a square block on the diagonal is a multiple of the identity and every other number is zero. It therefore acts as the given block matrix if and only if all numbers in nonempty blocks other than the square blocks on the diagonal are zero.", "quantifier": "all numbers of blocks and sizes, expressions, numbers in any place, vectors", "why_tests_cant": "all placements of numbers, sizes and nestings of expressions", "anchors": ["xii/linalg/convert.py:convert"]}
{"id": "C89", "title": "Function returned by apply_bc, exactly", "statement": "For a block system with DirichletBCs, symmetric=True and return_apply_b=True: the function returned, called with a new right-hand side after the boundary values have changed, gives the new prescribed value v at each prescribed dof, where a new apply_bc gives diag_val*v; all other components are those of a new apply_bc. The two agree if and only if diag_val*v = v for each prescribed value. With symmetric=False the name returned is unbound.", "quantifier": "all block systems, boundary conditions which prescribe some dof, old and new boundary values, right-hand sides and values of diag_val", "why_tests_cant": "all values of diag_val, boundary values and right-hand sides", "anchors": ["xii/linalg/bc_apply.py:apply_bc"]}
{"id": "C90", "title": "SubSelectOperator with repeated indices, exactly", "statement": "For any list of indices, repeated or not, block i of the transpose of the operator applied to y is the block of y at the last occurrence of i and zero if i does not occur. For spaces with at least one dof each the transpose is the transpose if and only if no index is repeated.", "quantifier": "all lists of indices in range, sizes of spaces and block vectors", "why_tests_cant": "all lists of indices and sizes", "anchors": ["xii/linalg/block_utils.py:SubSelectOperator"]}
{"id": "C91", "title": "Offsets of ReductionOperator and RegroupOperator, exactly", "statement": "Offsets are accepted if and only if they increase strictly and end with the number of spaces. For accepted offsets, regrouping and the transpose give back each block vector if and only if the offsets are not [1], and ReductionOperator can be applied to block vectors of the spaces if and only if the first offset is not 0.", "quantifier": "all offsets, numbers of spaces and block vectors", "why_tests_cant": "all offsets and vectors", "anchors": ["xii/linalg/block_utils.py:ReductionOperator,RegroupOperator,is_increasing"]}
{"id": "C92", "title": "ScipyLinOp, exactly", "statement": "The wrapped operator gives the array r for the array a if and only if the sizes of rows and columns are equal, a is the blocks of a block vector x one after another and r is the blocks of A x one after another. It can be applied if and only if the sizes of rows and columns are equal and the length of the array is their sum.", "quantifier": "all block operators and arrays", "why_tests_cant": "all operators, sizes and arrays", "anchors": ["xii/linalg/krylov_api.py:ScipyLinOp"]}
{"id": "C93", "title": "Orderings which permute accepts, exactly", "statement": "A block form, linear or bilinear, can be permuted with an ordering if and only if it has two or more spaces and the ordering is a permutation of 0, ..., n-1. In particular forms on one space cannot be permuted.", "quantifier": "all block forms and lists of integers", "why_tests_cant": "all orderings of all lengths", "anchors": ["xii/assembler/block_form.py:permute"]}
{"id": "C94", "title": "Averages of constants, exactly", "statement": "The average of a function which has the constant value c at the quadrature points inside of the mesh is c times the weight of the points inside over the weight of all points. It is c if and only if c is zero or the points outside have total weight zero.", "quantifier": "all meshes, spaces, shapes with nonzero total weights, dofs, constants", "why_tests_cant": "all positions of shapes with respect to the mesh", "anchors": ["xii/assembler/average_matrix.py:average_matrix,scalar_average_matrix"]}
{"id": "C95", "title": "Collisions of cells with segments, exactly", "statement": "Two segments are reported to collide if and only if they are in the plane, not parallel and have a common point after both have been prolonged at each end by less than tol times their length. A triangle and a segment are reported to collide if and only if they are in space, the segment is not parallel to the plane of the triangle and the two have a common point after being prolonged likewise. Cells with other numbers of vertices are refused.", "quantifier": "all dimensions, cells, segments and tolerances", "why_tests_cant": "all positions of cells and segments, in particular tolerances at the ends", "anchors": ["xii/meshing/line_collision.py:collides_cell"]}
{"id": "C96", "title": "Refinement of any contour, exactly", "statement": "For every contour, n + 1 refinements give the polygon with the middle points of the segments added and the last point replaced by the first point, with every segment of it divided into 2^n equal parts. They divide each segment of the contour into 2^(n+1) equal parts if and only if the contour is closed.", "quantifier": "all contours, closed or not, and numbers of refinements", "why_tests_cant": "all contours and numbers of refinements", "anchors": ["xii/meshing/branching.py:refine_contour"]}
{"id": "C97", "title": "Matrices of operators for any work vector, exactly", "statement": "Let x0 be the contents of the vector which create_vec returns. Column i of the matrix made by FESpaceOperator.collapse is the operator applied to the vector which is zero before i, one at i and x0 after i. The matrix has the action of the operator if and only if x0_j times the image of the j-th unit vector is zero for all j except the first.", "quantifier": "all linear operators, sizes and contents of the vector", "why_tests_cant": "all operators and contents of memory", "anchors": ["xii/linalg/fe_space_op.py:FESpaceOperator.collapse"]}
{"id": "C98", "title": "Vectors which a nullspace accepts, exactly", "statement": "Given an orthonormal basis, a vector v is accepted if and only if it is not zero and, for each vector b of the basis, |(v, b)| < (1 - tol)|r| where r is what is left of v after its components along the vectors before b have been taken away. If it is accepted the basis is extended by the normalised part of v orthogonal to all vectors of the basis.", "quantifier": "all inner product spaces, orthonormal bases, vectors and tolerances not below 0", "why_tests_cant": "all vectors nearly in the span", "anchors": ["xii/linalg/block_nullspace.py:BlockNullspace.add_vector"]}
{"id": "C99", "title": "Squares and rims for every accepted corner", "statement": "A corner is accepted by Square and SquareRim if and only if the normal is not zero and the corner is closer than 1E-13 to the plane through x0. Then, with c the projection of x0 to the plane of the corner, which is closer than 1E-13 to x0, the points of Square are in the square with centre c and this corner and the weights sum to its area; the weights of SquareRim sum to the perimeter of this square and each of its points is within twice the distance of the corner from the plane of a point of its boundary.", "quantifier": "all corners, centres, normals and Gauss rules", "why_tests_cant": "all positions of corners within the tolerance, all normals and degrees", "anchors": ["xii/assembler/average_shape.py:Square,SquareRim"]}
{"id": "C100", "title": "Integrals and variational problems with averages", "statement": "If a form with functions under Average is assembled, v^T A u is the sum of the integrals over the line mesh in which each of these functions is replaced by its average: on every cell of the line the function of the line element whose values at the points of the dofs are the quadrature means over the shapes at these points, of the function extended by zero outside of the mesh. Where the mean is in the span of the nodal functions of the cell this is the mean itself. Programs which add such forms to block forms, assemble, apply boundary conditions, solve and write the solution return functions which solve the variational problem with these averages; if it has one solution they return.", "quantifier": "all integrands, meshes, elements, numbers of components, shapes and quadratures, coefficients, lists of forms, boundary conditions and exact solvers", "why_tests_cant": "all forms with averages, meshes, shapes and functions", "anchors": ["xii/assembler/xii_assembly.py:assemble", "xii/assembler/average_assembly.py:AverageFormAssembler", "xii/assembler/average_form.py:Average", "xii/assembler/average_matrix.py:avg_mat,average_matrix", "xii/assembler/block_form.py:block_form"]}
{"id": "C101", "title": "Means over domains", "statement": "Mean(v) stands for the mean |domain|^{-1} int_domain v dx of v over the domain where it is defined: the row of the reduction matrix applied to the coefficients of any function gives its mean over the mesh, or over the measure if one is given.", "quantifier": "all meshes, spaces, measures, weights and functions", "why_tests_cant": "all domains and functions; tests on the unit square cannot see a missing volume", "anchors": ["xii/assembler/mean_form.py:Mean", "xii/assembler/mean_matrix.py:mean_mat"]}
{"id": "C102", "title": "Time stepping from forms", "statement": "In a time loop which assembles and eliminates the boundary conditions from the matrix once, and in each pass updates the data, assembles the right hand side again, applies the function returned by apply_bc(..., return_apply_b=True), solves and assigns the first component to u0, every pass finds the solution of the variational problem with the data and the boundary values of its own time, in which u0 is the solution of the pass before; this holds for forms with traces as well.", "quantifier": "all numbers of passes, forms, spaces, meshes, time dependent data, boundary values, initial states and exact solvers, provided the forms of the matrix contain neither u0 nor data which change and the constrained dofs stay the same", "why_tests_cant": "all histories of data and solutions; a test runs a few steps of one problem", "anchors": ["demo/time_dep.py:heat", "xii/assembler/xii_assembly.py:assemble", "xii/linalg/bc_apply.py:apply_bc", "xii/linalg/function.py:ii_Function"]}
{"id": "C103", "title": "Forms with several kinds of reductions", "statement": "A form in which test, trial functions and coefficients carry reductions of any kinds (trace, restriction, average, flux average, patch average, mean, point value, value at a vertex, derivative at a vertex, surface mean), to any meshes, is assembled to the tensor of the integrals in which each of these functions is replaced by what the reduction means: the function restricted to the facets or to the submesh, its means over the shapes, its mean over the patch, its integral, its value, its derivative, its mean over the surface. A program which adds such forms to block forms, assembles, sets boundary values and solves returns the solution of the variational problem with these meanings.", "quantifier": "all forms, meshes, spaces, combinations of reductions, coefficient vectors, boundary values and exact solvers, provided the conditions of each reduction hold", "why_tests_cant": "combinations of ten kinds of reductions in one form with any functions; a test assembles one form with one kind", "anchors": ["xii/assembler/xii_assembly.py:assemble", "xii/assembler/reduced_assembler.py:ReducedFormAssembler", "xii/assembler/trace_matrix.py:trace_mat_no_restrict", "xii/assembler/average_matrix.py:avg_mat", "xii/assembler/mean_matrix.py:mean_mat", "xii/assembler/point_trace_matrix.py:point_trace_mat", "xii/assembler/surface_mean_matrix.py:surface_mean_mat"]}
{"id": "C104", "title": "Assembly and programs return", "statement": "Assembly of a form raises no exception and terminates, and the tensor has the dimensions of the test and trial space, if in each integral every function is either on the mesh of the integral without an annotation or has one annotation which leads to this mesh, the reductions themselves work, next to an average all functions from the bulk are averaged, and restrictions are not mixed with injections. A program which assembles such block forms, sets boundary values and solves a problem with one solution returns this solution, in new vectors.", "quantifier": "all such forms, numbers and nestings of reductions, orders in which terminals are visited, spaces, boundary values and exact solvers", "why_tests_cant": "termination and absence of exceptions over all forms and all orders of terminals", "anchors": ["xii/assembler/xii_assembly.py:assemble", "xii/assembler/reduced_assembler.py:ReducedFormAssembler", "xii/assembler/average_assembly.py:AverageFormAssembler", "xii/assembler/restriction_assembly.py:RestrictionFormAssembler"]}
{"id": "C105", "title": "Annotations accept what can be reduced", "statement": "Trace, Average, FluxAverage, CellPatchAverage, Mean, PointTrace, GradientPointTrace, SurfaceMean, Restriction, Injection, Extension and TransposeTrace accept exactly the terminals and meshes which they document (cells of the mesh with the right number of dimensions in the same space, known restriction, shape present, scalar where demanded, continuous for traces on embedded lines, integer point and cell, a mesh known to the embedding). A function which is accepted has a reduced space in an integral over the mesh of the annotation, and the reduction is taken by assembly.", "quantifier": "all elements (nested, mixed, any rank and family), cells and arguments of the twelve functions", "why_tests_cant": "which elements are accepted and which of these have a space ranges over all families, ranks and nestings; errors otherwise appear late, inside assembly", "anchors": ["xii/assembler/trace_form.py:Trace", "xii/assembler/average_form.py:Average", "xii/assembler/flux_average_form.py:FluxAverage", "xii/assembler/patch_average_form.py:CellPatchAverage", "xii/assembler/mean_form.py:Mean", "xii/assembler/point_trace_form.py:PointTrace", "xii/assembler/gradient_point_trace_form.py:GradientPointTrace", "xii/assembler/surface_mean_form.py:SurfaceMean", "xii/assembler/restriction_form.py:Restriction", "xii/assembler/injection_form.py:Injection", "xii/assembler/extension_form.py:Extension", "xii/assembler/transpose_trace_form.py:TransposeTrace", "xii/assembler/xii_assembly.py:assemble"]}
{"id": "C106", "title": "Refinement by circumcentres needs acute triangles", "statement": "circumcenter_refine of a mesh of triangles in the plane succeeds once if all triangles are acute (and their parts not below 1E-15): the children tile the triangles and have two equal sides. It is refused if some triangle has a right angle, or an obtuse angle (up to the tolerance of the check). Several refinements tile the mesh as well.", "quantifier": "all meshes of triangles, numbers of refinements and tolerances", "why_tests_cant": "the angles of all triangles after every refinement matter; the tests pass the number of refinements as the tolerance", "anchors": ["xii/meshing/refinement.py:circumcenter_refine,inner_point_refine,point_is_inside", "xii/meshing/cell_centers.py:CellCircumcenter"]}
{"id": "C107", "title": "Skeletons consist of the interior facets", "statement": "Skeleton(mesh) has one cell for each facet which two cells share, with the same vertices at the same points, no other cells and no other vertices; with include_boundary=True it has one cell for each facet. Meshes of lines are refused.", "quantifier": "all simplicial meshes of dimension at least two", "why_tests_cant": "all meshes; no test of the repository calls Skeleton", "anchors": ["xii/meshing/embedded_mesh.py:Skeleton,EmbeddedMesh"]}
{"id": "C108", "title": "A hand-written Newton loop with block_jacobian makes Newton steps", "statement": "With dF = block_jacobian(F, up) and dup = ii_Function(W), the loop which assembles and converts dF and F, solves for dup and subtracts dup from up makes one step of Newton's method per pass: the linearisation of all residuals at the old functions vanishes at the new functions, for all test functions, other functions stay as they are, and eps is the distance of the new coefficients from the old ones. The loop ends after at most maxiter passes, earlier only if eps <= tol. It returns if every linearised problem has one solution. Affine residuals vanish after one pass. With Lipschitz derivatives the residual is at most half the Lipschitz constant times tol squared when the loop ends by tol; if the linearised problems are stable as well, eps decreases quadratically and the loop ends by tol when maxiter is large enough.", "quantifier": "all residuals of functions and their traces, averages and restrictions, numbers of unknown functions, initial coefficients, tolerances and numbers of passes", "why_tests_cant": "convergence and the agreement of the assembled Jacobian with the derivative of the residuals concern all residuals and all histories of iterates; the loop is in scripts only", "anchors": ["sandbox/babuska_hand_newton.py:nonlinear_babuska", "sandbox/mortar_nlin_couple.py:mortar_lin_couple", "sandbox/mortar_lin_couple.py", "xii/nonlin/jacobian.py:block_jacobian", "xii/linalg/function.py:ii_Function"]}
{"id": "C109", "title": "Refinement by circumcentres of intervals, triangles and tetrahedra in any dimension", "statement": "circumcenter_refine of a mesh of triangles (in the plane or in space) or tetrahedra succeeds once if each cell is nondegenerate, contains its circumcentre in its interior and the parts are not below 1E-15; the children tile the cells and have the circumcentre of their parent in place of one vertex. It is refused if the circumcentre of some cell is on the boundary of the cell, or outside of it (unless the tolerance covers the part outside). It is always refused when two or more refinements are asked for (unless the tolerance covers some cell of the mesh refined once). Curves in the plane are refined as by centroid_refine, any number of times; intervals on the line raise KeyError and curves in space do not compile.", "quantifier": "all meshes of these cells, tolerances and numbers of refinements", "why_tests_cant": "the geometry of all cells matters, and of all cells after the first refinement", "anchors": ["xii/meshing/refinement.py:circumcenter_refine,inner_point_refine,point_is_inside,simplex_area", "xii/meshing/cell_centers.py:CellCircumcenter"]}
{"id": "C110", "title": "Slices, names and random coefficients of functions in products of spaces", "statement": "u[a:b:s] of u = ii_Function(W) are the components a, a+s, ... before b, as many as there are; u[:] are all, u[-j:] the last j and u[::-1] all backwards; slices raise only for step 0. u.rename(names) gives the names in order: functions beyond the names keep theirs, names beyond the functions are ignored, of names for the same function the last counts. u.randomize() overwrites exactly the vectors of the components, with as many numbers as they have entries. A u made of spaces or of vectors has a list of components of its own; a u made of a list of functions has the list of the caller, so that later changes of that list are changes of u.", "quantifier": "all functions, slices, lists of names, outcomes of the random generator and sharing patterns", "why_tests_cant": "all ends and steps of slices and all sharing patterns", "anchors": ["xii/linalg/function.py:ii_Function.__getitem__,rename,randomize,__init__"]}
{"id": "C111", "title": "Winding numbers of loops and the points they enclose", "statement": "With exact integrals, wind_number(mesh, points) of a loop is at each point off the loop the sum of the angles at which the cells are seen, each taken in the direction in which the cell is numbered. It is the winding number, an integer which is zero outside of the convex hull and not zero at points which have all cells on one side, up to the angles of those cells which are numbered against the others. So encloses_points(mesh, points) of a loop numbered along finds the points which have all cells on the left unless they see the last cell at nearly half a turn; it misses all points which have all cells on the right, and takes points outside to be enclosed which see the last cell from its right at more than tol half turns.", "quantifier": "all loops, numberings, points and tolerances", "why_tests_cant": "all numberings and all points of the plane", "anchors": ["xii/meshing/embedded_mesh.py:wind_number,encloses_points"]}
{"id": "C112", "title": "Drawings of averaging surfaces", "statement": "vtk_tube_render(tubes) returns iff the two rings of each tube have as many points, and its cells are exactly the quads which join neighbours of one ring with those of the other, closed around. For averages over circles vtk_tube(avg_op, path) draws for each cell as many pieces of the frustum around the cell as there are nodes, and the rings are boundaries of convex hulls. vtk_plot_data(surfaces) returns iff each surface has at least four points, the first three not on a line, all in one plane, and draws closed polygons through them; the polygon of points on a circle is the boundary of their convex hull if the line through the origin along the normal passes inside of the circle, but in general not otherwise, and neither is the ring of a SquareRim with two or more nodes.", "quantifier": "all rings, meshes of lines, radii, rules, and all results of eigh and argsort which satisfy their specification", "why_tests_cant": "all positions of the curve; pictures are not compared by tests", "anchors": ["xii/io/plot.py:vtk_tube,vtk_tube_render,vtk_plot_data,radial_order_points", "xii/assembler/average_shape.py:render_avg_surface,tube_render_avg_surface"]}
{"id": "C113", "title": "Inverse of combinations of powers of different matrices", "statement": "inverse(e) of a composed expression e returns a matrix iff e is built by sums and differences from interpolation matrices, each scaled by at most one number. The result is the inverse of the expression in which every power is taken of one and the same pair of matrices, the one of the eigenvalues which were computed first, or otherwise of the first matrix of e; so it is the inverse of e iff e is this matrix.", "quantifier": "all expressions, all sizes, all matrices A and M of the factors, all powers, all choices of eigenvectors", "why_tests_cant": "all expressions and matrices, and the history of which eigenvalues were computed before", "anchors": ["xii/linalg/hsmg_utils.py:inverse,collect,crawl,extract_attributes"]}
{"id": "C114", "title": "Patch averages with a colouring, for all groups", "statement": "With patch_coloring the matrix of CellPatchAverage is returned iff every coloured patch has cells. The row of the first dof with the patch p gives, times the number of dofs with this patch, the integral over all cells of the group of p of the part of the function carried by the dofs of p, over the volume of p; rows of the other dofs with this patch and of dofs without a coloured patch are zero. So if the patches of a group share no dofs, the first dof of a patch gets the mean times the number of its dofs.", "quantifier": "all meshes, scalar spaces, patch functions, colourings into groups, lists of patches of dofs with repetitions, and vectors", "why_tests_cant": "all colourings and vectors; tests use groups of patches which are apart", "anchors": ["xii/assembler/patch_average_matrix.py:patch_avg_mat_coloring"]}
{"id": "C115", "title": "Line meshes of any branches", "statement": "line_mesh(branches, tol) returns iff there is a branch and no branch is empty. Its vertices are ends of branches, then the interior points; the first two are the ends of the first branch, and another end gets a new vertex iff it is farther than tol from all ends before. Each branch with three points or more gives the cells between consecutive vertices at its points (ends up to tol), branches with one or two points give none, so the number of cells is the number of segments of the former. A closed first branch gets two vertices at its ends and is never closed in the mesh.", "quantifier": "all lists of branches, any distance and tolerance", "why_tests_cant": "all lists of branches and coincidences of their ends", "anchors": ["xii/meshing/line_mesh.py:line_mesh"]}
{"id": "C116", "title": "Random curves of the 3d-1d and 3d-2d-1d problems", "statement": "Whatever vertices are chosen at random, a curve of apps/enumath which starts on the boundary of the mesh is connected and has exactly one vertex on the boundary, the one which is returned, so the check in load never fails; curves with any number of pieces can be found if two inner vertices are joined inside. The random curve of apps/d123 consists of exactly the edges of the paths between the chosen pairs of vertices.", "quantifier": "all graphs, all sequences of random choices, all paths nx.shortest_path may return", "why_tests_cant": "all sequences of random choices", "anchors": ["apps/enumath/meshing.py:fun", "apps/enumath/meshing.py:load", "apps/d123/meshing.py:fun"]}
{"id": "C117", "title": "Distance to segments", "statement": "segment_distance(P, A, B) is the least distance from P to the points of the segment from A to B if A and B differ, and nan otherwise. The field computed from a list of segments is the least of 3 and of the distances to the points of all segments, and nan if one of them is a point.", "quantifier": "all points, all segments, all lists of segments", "why_tests_cant": "all points and segments", "anchors": ["sandbox/line_distance.py:segment_distance"]}
{"id": "C118", "title": "Circles and disks by projection", "statement": "C(x0, n, R) maps the points of the unit circle to all points of the circle with the centre x0, normal n and radius R, and D(x0, n, R) maps those of the unit disk to the disk, with distances from the centre multiplied by R.", "quantifier": "all centres, normals, radii and points", "why_tests_cant": "all normals and points", "anchors": ["sandbox/transforms.py:C", "sandbox/transforms.py:D"]}
{"id": "C119", "title": "Cross grid refinement", "statement": "cross_grid_refine returns for meshes of intervals, triangles and tetrahedra; the cells with the parent c in the parent_entity_map of the result tile the cell c, the new vertices are the centroids in the order of the cells, old vertices keep their numbers.", "quantifier": "all meshes", "why_tests_cant": "all meshes", "anchors": ["sandbox/cross_grid_refine.py:cross_grid_refine"]}
{"id": "C120", "title": "Logs of convergence studies", "statement": "After any sequence of calls of ConvergenceLog.add every history has one entry for each call, in order: values, errors, mesh sizes, dimensions and rates, where the rate is the order r with e1 = e0 (h1/h0)^r, and nan for the first entry, for equal mesh sizes and after a zero error. If the errors are C h^p all rates and the fitted rate are p. A call which raises leaves the log as it was.", "quantifier": "all sets of variables, all histories of calls with failing ones, all errors and mesh sizes", "why_tests_cant": "all histories of calls and failures", "anchors": ["demo/common.py:ConvergenceLog", "demo/common.py:VarApproximationHistory"]}
{"id": "C121", "title": "Norms over subdomains", "statement": "broken_norm(subdomains, norm_f)(u, uh) is the square root of the sum of the squared errors over the subdomains; if each cell is in exactly one of them and the functions u[tag] are the parts of one function it is the error on the whole mesh.", "quantifier": "all meshes, subdomains, tags and errors which are sums over cells", "why_tests_cant": "all meshes and subdomains", "anchors": ["demo/common.py:broken_norm"]}
{"id": "C122", "title": "The verdict about demos", "statement": "run in demo/test_demos.py reports a demo as passed if and only if it ran to its end and found its rates right.", "quantifier": "all outputs, endings and exceptions of demos", "why_tests_cant": "it is the test which is wrong; all outputs and exceptions", "anchors": ["demo/test_demos.py:run"]}
{"id": "C123", "title": "Meshes and tags of the demos with an immersed or a divided square", "statement": "On every refinement level immersed_geometry divides the unit square into the cells in [1/4, 3/4]^2 and the others. A facet of either domain is marked if and only if it is on the boundary of that domain, the normals which the demos keep for the tags point out of it, and the cells of the interface are exactly the facets between the domains, with the same tags in all three functions. get_geometry of the 2d-1d-1d demo marks exactly the facets on the line x = 1/2 and, by other tags, exactly those on the boundary, and the boundary values kept for a tag are those of the side it is on.", "quantifier": "all refinement levels with a mesh size of more than twice the tolerance, all cells and facets, all names", "why_tests_cant": "all refinement levels and facets", "anchors": ["demo/utils.py:immersed_geometry", "demo/dq_darcy_stokes.py:setup_mms", "demo/emi_primal.py:setup_mms", "demo/twoDoneDoneD.py:get_geometry"]}
{"id": "C124", "title": "Injection, restriction and interpolation keep functions which the target space contains", "statement": "If on every cell the target space contains the functions of the source space on the parent cell, and the degrees of freedom of u shared by cells do not depend on the cell, then the matrices of injection (by parent cells), restriction and interpolation map the coefficients of u to coefficients of the same function: the two functions agree at all points of every cell of the target mesh. Injection refuses meshes which are not parent and child.", "quantifier": "all pairs of spaces, meshes, parent maps and coefficient vectors", "why_tests_cant": "all spaces, meshes and coefficient vectors", "anchors": ["sandbox/injection_mat.py:injection_matrix", "xii/assembler/restriction_matrix.py:restriction_matrix", "xii/assembler/interpolation_matrix.py:interpolation_mat"]}
{"id": "C125", "title": "Gradients, divergences and code of symbolic expressions", "statement": "Grad of a scalar or vector is the matrix of its partial derivatives in the given variables, Div of a vector or tensor is its divergence (by rows) in the given variables, and asExpr produces the code of all entries with the shape of the argument.", "quantifier": "all expressions, vectors, tensors and lists of variables", "why_tests_cant": "all expressions and variables; the assertions in the file have no zero components", "anchors": ["sandbox/calculus.py:Grad", "sandbox/calculus.py:Div", "sandbox/calculus.py:asExpr"]}
{"id": "C126", "title": "The manufactured solutions of the demos solve the equations the demos set up", "statement": "For each demo with a manufactured solution, the functions returned by setup_mms (solution, multipliers, volume and boundary data) satisfy every row of the block form and right hand side built by setup_problem when put in place of the trial functions, for all admissible test functions, and have the boundary values which the demo prescribes; so the reported errors are those of the discretisation (in a time dependent demo, of the discretisation in space and time).", "quantifier": "all test functions (vanishing where values are prescribed), all material parameters, and, unless the demo relies on particular functions, all smooth functions in place of the sines and cosines of the demo", "why_tests_cant": "a convergence test runs a few meshes and one choice of parameters, and cannot tell a wrong sign in the data of a small term from a low order of convergence", "anchors": ["demo/poisson_babuska.py:setup_mms", "demo/poisson_babuska_bc.py:setup_mms", "demo/mixed_poisson_babuska.py:setup_mms", "demo/grad_div_babuska.py:setup_mms", "demo/curl_curl_babuska.py:setup_mms", "demo/sym_grad_babuska.py:setup_mms", "demo/bertoluzza_stokes.py:setup_mms", "demo/free_slip_stokes_iter.py:setup_mms", "demo/isoP2_stokes.py:setup_mms", "demo/emi_primal.py:setup_mms", "demo/emi_primal_mortar.py:setup_mms", "demo/dq_darcy_stokes.py:setup_mms", "demo/layton_darcy_stokes.py:setup_mms", "demo/twoDoneDoneD.py:setup_mms", "demo/isect_mortar_2d.py:setup_mms", "demo/elasticity_2d.py:setup_mms", "demo/elasticity_mixed_2d.py:setup_mms", "demo/daq_3d1d.py:setup_problem", "demo/dirac_2d.py:setup_mms", "demo/time_dep.py"]}
{"id": "C127", "title": "Solutions of the symmetric saddle point demos are constrained minimisers", "statement": "Whatever the finite element spaces, a solution of the block system of optim_control_L2 is the best control and state satisfying the discrete state equation; one of layer_2d minimises the energy among functions coupled over the overlap; one of poisson_babuska, and each step of time_dep, minimises the energy among functions with the prescribed boundary values. The distance of the energies of another admissible function and of the solution is half the square of the norm of their difference. Conversely, each such minimiser is part of a solution of the block system.", "quantifier": "all subspaces, data, nonnegative parameters, solutions and competitors", "why_tests_cant": "the competitors are a space of functions, for all meshes and elements", "anchors": ["demo/optim_control_L2.py:setup_problem", "demo/layer_2d.py:setup_problem", "demo/poisson_babuska.py:setup_problem", "demo/poisson_babuska_3d.py:setup_problem", "demo/time_dep.py:heat"]}
{"id": "C128", "title": "The 3d-1d programs with and without a multiplier solve the same problem", "statement": "apps/enumath/has_multiplier.py and apps/enumath/not_has_multiplier.py set up the same 3d-1d problem: a pair of functions on the volume and the curve is a solution of the one exactly if it is, with some multiplier, a solution of the other, and the multiplier is then the flux 2*pi*radius*kG times the difference of the function on the curve and the average of the one in the volume.", "quantifier": "all finite element spaces, data, positive radius and permeability, and all solutions", "why_tests_cant": "two programs are compared over all meshes and data; on a mesh on which the averages happen to be continuous they agree", "anchors": ["apps/enumath/has_multiplier.py:setup_problem", "apps/enumath/not_has_multiplier.py:setup_problem"]}
{"id": "C129", "title": "The 3d-2d-1d program computes the minimiser in its header", "statement": "The block system of apps/d123/solving.py has exactly one solution, and its functions on volume, surface and curve minimise the sum of the squares of the norms of the gradients among the triples which agree on the surface and differ by f on the curve. Conversely, each minimiser is part of a solution.", "quantifier": "all finite element spaces, data f, solutions and competitors", "why_tests_cant": "the competitors are a space of functions; a direct solver may return numbers for a singular matrix", "anchors": ["apps/d123/solving.py:main"]}
{"id": "C130", "title": "The block systems handed to MinRes are symmetric", "statement": "Exchanging trial and test functions does not change the value of the block forms which the demos solve with the minimal residual method (poisson_babuska_bc, mixed_poisson_babuska, free_slip_stokes, isoP2_stokes, layton_darcy_stokes, twoDoneDoneD) or whose symmetry a program asserts or prints (has_multiplier, not_has_multiplier, time_dep), nor that of the other saddle point systems; so the assembled matrices are symmetric for all meshes and elements.", "quantifier": "all trial and test functions, parameters and boundary condition setups", "why_tests_cant": "the assertion in the programs tries one vector on one mesh; MinRes does not notice a matrix which is not symmetric", "anchors": ["demo/poisson_babuska_bc_iter.py", "demo/mixed_poisson_babuska_iter.py", "demo/free_slip_stokes_iter.py:setup_problem", "demo/free_slip_stokes_iter_cylinder.py:setup_problem", "demo/isoP2_stokes.py:setup_problem", "demo/layton_darcy_stokes_iter.py", "demo/twoDoneDoneD_iter.py", "apps/enumath/has_multiplier.py", "apps/enumath/not_has_multiplier.py", "demo/time_dep.py"]}
{"id": "C131", "title": "The assembled systems have exactly one solution", "statement": "The block systems of has_multiplier and not_has_multiplier have exactly one discrete solution for all positive parameters, all finite element spaces in the volume and on the curve and all averages, and so has that of optim_control_L2 for every positive regularisation. Those of poisson_babuska, poisson_babuska_3d, each step of time_dep and layer_2d have exactly one if and only if zero is the only multiplier which is orthogonal to all traces (restrictions) of functions in the primal space.", "quantifier": "all finite element spaces, data, parameters and, in time_dep, steps", "why_tests_cant": "a test solves on a few meshes; which combinations of meshes and elements give a singular matrix is a statement about all of them", "anchors": ["apps/enumath/has_multiplier.py", "apps/enumath/not_has_multiplier.py", "demo/optim_control_L2.py:setup_problem", "demo/poisson_babuska.py:setup_problem", "demo/poisson_babuska_3d.py:setup_problem", "demo/time_dep.py", "demo/layer_2d.py:setup_problem"]}
{"id": "C132", "title": "Which coupled systems of the demos are nonsingular", "statement": "The block systems of mixed_poisson_babuska, free_slip_stokes_iter, free_slip_stokes_iter_cylinder and bertoluzza_stokes have exactly one discrete solution for every right hand side if and only if no pair of a pressure (potential) and a boundary multiplier but zero is orthogonal to the divergences and the normal (tangential) components of the velocities, given that only the zero velocity has no energy. That of isoP2_stokes has exactly one if and only if no pressure of mean zero but zero is orthogonal to the divergences, so its real multiplier removes the constant pressures and nothing else. That of emi_primal has exactly one for all positive conductivities if and only if only the zero pair of potentials has neither gradients nor a jump on the interface. Those of poisson_babuska_bc (in each setup), twoDoneDoneD, isect_mortar_2d and layton_darcy_stokes have exactly one if and only if no element without energy is orthogonal to all multipliers and no multiplier (with pressures) is orthogonal to all functions of the primal space. Those of emi_primal_mortar and elasticity_mixed_2d need no condition on the multipliers of the former and on the pressures of the latter, for all positive parameters. That of dq_darcy_stokes has exactly one if and only if no pair of a Stokes pressure and a Darcy pressure without gradient but zero is orthogonal to the divergences and the interface fluxes of the velocities.", "quantifier": "all finite element spaces, right hand sides, conductivities and penalization weights", "why_tests_cant": "a test factorises the matrix on a few meshes with one choice of elements", "anchors": ["demo/mixed_poisson_babuska.py:setup_problem", "demo/free_slip_stokes_iter.py:setup_problem", "demo/free_slip_stokes_iter_cylinder.py:setup_problem", "demo/bertoluzza_stokes.py:setup_problem", "demo/isoP2_stokes.py:setup_problem", "demo/emi_primal.py:setup_problem", "demo/poisson_babuska_bc.py:setup_problem", "demo/twoDoneDoneD.py:setup_problem", "demo/isect_mortar_2d.py", "demo/layton_darcy_stokes.py:setup_problem", "demo/emi_primal_mortar.py:setup_problem", "demo/elasticity_mixed_2d.py:setup_problem", "demo/dq_darcy_stokes.py:setup_problem"]}

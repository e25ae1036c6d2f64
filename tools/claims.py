P = 'Verif.ListUtils.'
c('C01', 'proved', P+'assemble_keeps_layout '+P+'assemble_fails_with_form')
c('C02', 'proved', P+'reshape_row_major')
c('C03', 'partial', ' '.join(P+x for x in 'shape_list_decides reshape_rejects reshape_rejects_zero reshape_returns_partial reshape_negative_diverges reshape_diverges reshape_returns_iff'.split()),
  'Rejection is proved in full. Termination holds exactly for other numbers of entries or nonnegative extents (reshape_returns_iff); it fails for negative extents.')
P = 'Verif.BlockOps.'
def names(p, s): return ' '.join(p+x for x in s.split())
c('C20', 'partial', names(P, 'subSelect_selects subSelectT_adjoint_partial subSelectT_repeated_not_adjoint'),
  'Extraction for all indices; the transpose laws for distinct indices. They are false for repeated indices (subSelectT_repeated_not_adjoint).')
c('C21', 'partial', names(P, "rearrange_merges_partial rearrangeT_splits rearrange_roundtrip rearrange_roundtrip' rearrange_isometry reduction_isPartition reduction_zero_offset_fails"),
  'All laws for mappings which partition the blocks into nonempty groups. Offsets starting with 0 are accepted by the constructor but every application fails (reduction_zero_offset_fails).')
c('C22', 'partial', names(P, 'regroup_roundtrip_partial regroup_single_fails'),
  'Holds for all accepted offsets except [1], for which it is false (regroup_single_fails).')
c('C23', 'partial', names(P, 'vectorized_componentwise_partial vectorized_checks vectorized_accepted vectorized_list_fails'),
  'Holds for a mixed space, every operator the constructor accepts and every history of applications; the constructor always raises for a list of spaces (vectorized_list_fails).')
P = 'Verif.Memo.'
c('C32', 'partial', names(P, 'cache_transparent_iff cache_transparent_on interpolation_cache_transparent mean_cache_transparent transpose_trace_cache_transparent average_cache_transparent_partial restriction_cache_transparent_partial trace_cache_transparent_partial trace_cache_not_transparent gradient_point_trace_cache_not_transparent point_trace_cache_transparent_partial injection_cache_not_transparent injection_cache_transparent_partial patch_cache_transparent_iff'),
  'Exact criterion for all histories (cache_transparent_iff). Transparent caches are proved so; trace (marking function), gradient point trace (tangent) and injection (method) are proved not to be.')
P = 'Verif.Collapse.'
c('C04', 'proved', names(P, 'collapse_acts collapse_acts_dropped collapse_drops_tiny'),
  'collapse_drops_tiny shows that the proviso on tiny numbers is needed; without it collapse_acts_dropped tells the action exactly.')
c('C05', 'partial', names(P, 'collapse_returns_iff collapse_number_iff collapse_returns_partial collapse_transpose_diverges collapse_add_number_diverges collapse_sub_number_diverges'),
  'Exact for all expressions cbc.block builds (collapse_returns_iff): converted if and only if sizes agree, transposes are of matrices and numbers are factors or tiny summands. As stated the property is false: three families of expressions are proved never to be converted.')
c('C08', 'partial', names(P, 'convert_acts_partial convert_drops_offdiagonal'),
  'Holds when numbers off the diagonal are zero; nonzero ones are silently dropped (convert_drops_offdiagonal).')
c('C52', 'partial', names(P, 'get_dims_partial get_dims_wrong'),
  'Holds when the numbers of a product come last or the product is number times operator; false otherwise (get_dims_wrong).')
c('C09', 'proved', names(P, 'asBlock_convert_vec convert_asBlock_vec convert_asBlock_mat asBlock_convert_mat'))
P = 'Verif.ApplyBc.'
c('C10', 'proved', names(P, 'applyBc_imposes applyBc_solutions applyBc_plain_solutions applyBc_rejects_sizes applyBc_plain_rejects_sizes applyBc_rejects_blocks applyBc_no_rhs'))
c('C11', 'proved', names(P, 'applyBc_solutions applyBc_plain_solutions'))
c('C12', 'proved', names(P, 'applyBc_symmetric applyBc_posDef'))
c('C13', 'partial', names(P, 'updater_agrees_partial updater_ignores_diag updater_fails_dict'),
  'Holds for diag_val=1 and DirichletBCs; false for other diagonal values (updater_ignores_diag) and for dictionaries (updater_fails_dict).')
c('C14', 'partial', names(P, 'applyBc_contract_partial applyBc_nothing return_apply_b_unbound return_apply_b_plain_ignored return_apply_b_empty_ignored empty_dict_changes_kind applyBc_no_dofs'),
  'Holds for block systems; the other theorems are the cases in which the contract is broken.')
P = 'Verif.Nullspace.'
c('C15', 'proved', names(P, 'nullspace_orthonormal construct_orthonormal'))
c('C16', 'partial', names(P, 'dependent_rejected rejected_near_span_partial rejected_iff_exact independent_rejected constants_not_accepted vectors_added'),
  'Dependent vectors are rejected, and every rejected vector is within the tolerance of the span; an independent vector close to the span is rejected too (independent_rejected), and constants always raise (constants_not_accepted).')
c('C17', 'proved', names(P, 'orthogonalize_projects'))
P = 'Verif.L20.'
c('C18', 'partial', names(P, 'projector_projects_partial projector_constructed l20_inner_product l20_collapse orthonormalize_orthonormal orthonormalize_returns exists_eigSpec projector_empty_raises projector_orthonormal_refused projector_dependent_refused'),
  'Proved for nonempty bases, and false for the empty one (projector_empty_raises). The constructor refuses two or more vectors which are orthonormal already. Eigenvectors of the Gram matrix are assumed to be returned normalised by numpy.')
c('C19', 'partial', names(P, 'riesz_single_raises riesz_returns_argument'),
  'The property is false; proved: with one vector the map always raises, with more it returns M*u instead of u.')
P = 'Verif.MatFree.'
c('C24', 'partial', names(P, 'columnConvert_acts femCollapse_acts_partial femCollapse_needs_zero'),
  'Proved for every linear operator and history when create_vec returns a zero vector; femCollapse_needs_zero shows that collapse is wrong if the vector pool hands out a used vector.')
P = 'Verif.Krylov.'
c('C25', 'partial', names(P, 'matvec_flattens_partial matvec_rectangular_fails solve_solves'),
  'Holds for operators with equal row and column sizes; for all others the wrapper raises for every vector (matvec_rectangular_fails).')
P = 'Verif.Hsmg.'
c('C26', 'partial', names(P, 'collect_sums_partial collect_accepts collect_only'),
  'The sum of the returned terms is the combination for every accepted expression. Not all linear combinations are accepted: scaled sums are refused (collect_only characterises the accepted ones).')
c('C55', 'partial', names(P, 'inverse_inverts_partial inverse_mixed_wrong power_unique'),
  'Holds for powers of the same pair of matrices; for different ones, which pass the checks, it is false (inverse_mixed_wrong).')

P = 'Verif.Ufl.'
c('C30', 'partial', names(P, 'replace_substitutes replace_composite_partial replace_ignores_unlisted replace_composite_wrong'),
  'Terminal targets: replace substitutes exactly for the terminals that are the same. Composite targets: false, shown by replace_composite_wrong (annotations ignored, extra operands not compared).')
P = 'Verif.BlockForm.'
c('C27', 'proved', names(P, 'add_history belongs_unique belongs_inside add_accepts add_history_linear add_accepts_linear add_not_atomic assign_accepts assign_accepts_linear blocks_fit'),
  'Histories of add calls including failing ones. add_not_atomic records that a failing add keeps the integrals in front of the misplaced one.')
c('C28', 'partial', names(P, 'addForms_entrywise addForms_entrywise_linear addForms_rejects permute_permutes_partial permute_permutes_linear permute_back permuteSpaces_orders permute_single_fails'),
  'Proved for forms over two or more spaces. For one space the code rejects even the identity (permute_single_fails).')
c('C29', 'partial', names(P, 'makeSelfadjoint_partial makeSelfadjoint_rejects makeSelfadjoint_diagonal_wrong') + ' ' + names('Verif.Ufl.', 'adjoint_swaps swap_swap adjoint_same_space_wrong adjoint_drops_annotations'),
  'Off-diagonal blocks: proved for distinct spaces and arguments annotated only by trace/restriction/average. Diagonal blocks are not made self-adjoint, other annotations are dropped, equal spaces give a wrong adjoint: shown by the counterexamples.')
P = 'Verif.Reduced.'
c('C31', 'partial', names(P, 'assemble_represents_partial assemble_terminates assemble_ignores_unrecognised equal_integrals_rejected'),
  'Proved for every form, order of terminals and list of assemblers whenever a tensor is returned and annotations are recognised. Annotations no assembler recognises are silently ignored (assemble_ignores_unrecognised); sums of integrals differing only in an annotation are refused (equal_integrals_rejected).')
P = 'Verif.DofMat.'
c('C33', 'proved', names(P, 'restriction_evaluates_dofs restriction_missing_parent restriction_mat_checks interpolation_evaluates_dofs interpolation_checks nonconforming_evaluates_dofs') + ' ' + names('Verif.Trace.', 'no_restrict_evaluates_dofs one_restrict_evaluates_dofs dlt_injects no_restrict_map_error one_restrict_fallback'),
  'For all meshes, dof maps and linear dofs. Assumed: cells of a Discontinuous Lagrange space share no dofs (contract of dolfin), and tags are distinct, which Trace ensures by making them a set (trace_form.py:114, 126) but a direct call of trace_mat_no_restrict with a list does not. The dofs and basis functions of an element, the collisions and the embedding map are parameters.')
P = 'Verif.Trace.'
c('C34', 'partial', names(P, 'one_restrict_sides one_restrict_sides_differ one_restrict_boundary two_restrict_evaluates_partial jump_is_reversed jump_not_plus_minus_minus trace_mat_two_sided_raises trace_mat_selects'),
  'The two sides use different cells, avg and jump (called directly) are the mean and difference. The rest is false: one-sided traces use the opposite sides so jump = minus - plus, and avg/jump always raise through Trace.')
P = 'Verif.Average.'
c('C35', 'partial', names(P, 'average_general average_is_mean_partial average_of_constant average_outside average_of_constant_wrong_outside trace3d1d_evaluates avg_mat_checks measure_function avg_mat_shape_partial avg_mat_curve avg_mat_midpoints avg_mat_curve_refused'),
  'Proved for all meshes, shapes and vectors when the quadrature points are in the mesh. Points outside are skipped but counted in the measure, so constants are not reproduced (average_of_constant_wrong_outside); average_general gives the exact value in all cases.')
P = 'Verif.Shape.'
c('C36', 'partial', names(P, 'radius_number_positive circle_quadrature_partial circle_points_on_circle circle_quadrature_parametrised circle_zero_normal circle_quadrature_normal disk_quadrature_at disk_points_in_disk circle_not_in_plane'),
  'Distances and weights exact for all parameters; the plane is exact unless the normal is within 1e-13 of vertical, in which case the distance from the plane is at most R*1e-13 (and not zero: circle_not_in_plane).')
c('C37', 'partial', names(P, 'square_quadrature square_quadrature_exact square_checks_plane rim_quadrature_partial'),
  'Proved for corners in the plane of the centre; corners off the plane by 1e-13 or more are refused. In between, the Square is proved to be the square around the projected centre, so not around x0 as stated; the SquareRim is then a square with one corner moved out of the plane (C99).')
P = 'Verif.DiskQuad.'
c('C38', 'partial', names(P, 'disk_quadrature_total disk_quadrature_symmetric disk_quadrature_odd disk_quadrature_exact_partial disk_quadrature_area degree_11_is_wrong nodes_in_disk weights_positive'),
  'Exactness for all polynomials against the Lebesgue integral over the disk, up to rounding, for degrees 0-9 and 12-15; degrees 16-19 only to 8e-7; degrees 10, 11 are wrong in the code (degree_11_is_wrong).')
P = 'Verif.Patch.'
c('C39', 'partial', names(P, 'patch_mat patch_mat_empty patch_mat_coloring_partial patch_mat_points patch_mat_refused coloring_agrees coloring_shared_patch_wrong coloring_neighbours_wrong'),
  'Without colouring: proved for all colours. With colouring: proved when patches of a group share no dofs and no two dofs have the same patch; otherwise the code is wrong (the two counterexample theorems).')
P = 'Verif.Embedded.'
c('C40', 'partial', names(P, 'embedded_mesh_represents_partial embedded_mesh_vertices embedded_mesh_raises embedded_mesh_repeated_marker sampleSubMesh_ok'),
  'All meshes and marker functions; repeated markers on facets give repeated cells (embedded_mesh_repeated_marker), so the property is false there. The contract of dolfin SubMesh is a hypothesis in the cell function case.')
c('C41', 'proved', names(P, 'Represents.isEmbedding translate_markers_correct transfer_markers_correct'),
  'All simplicial meshes, tags and initial values.')
P = 'Verif.Embedding.'
c('C42', 'partial', names(P, 'embedding_map_sound embedding_map_fails embedding_map_complete embedding_map_all_iff embedding_map_one_cell embedding_map_needs_subdomains overlap_sound_partial overlap_sound_intervals overlap_wrong compute_embedding_sound compute_embedding_twice'),
  'build_embedding_map and compute_embedding: soundness, and failure without a parent, for all meshes. OverlapMesh: false in general (overlap_wrong), proved when the first vertices share a cell, in particular for intervals.')
c('C43', 'partial', names(P, 'entity_map_first entity_map_stays entity_map_history_partial entity_map_not_mapped entity_map_two_meshes'),
  'All histories for one mesh from a plain trace mesh or the parent of an EmbeddedMesh; false in the other cases (counterexample theorems).')
P = 'Verif.Mortar.'
c('C44', 'partial', names(P, 'mortar_interface mortar_no_interface mortar_meshes_partial mortar_local_cell mortar_raises mortar_not_found'),
  'The interface mesh, its colours and the adjacent cells: proved for all meshes. The maps to the subdomains are wrong in the code (the cell number of the parent mesh is used in the submesh): exact behaviour in mortar_meshes_partial, counterexamples mortar_raises and mortar_not_found.')
P = 'Verif.Branch.'
c('C45', 'partial', names(P, 'color_branches_partial color_branches_all color_branches_closed color_branches_iff color_branches_two_loops color_branches_loop_uncoloured'),
  'All line meshes and all orders of set.pop: proved when every cell is on a branch with a tip or branching vertex, or the mesh is one closed curve. False for separate closed curves (the last two theorems).')
c('C46', 'partial', names(P, 'walk_cells_branch walk_cells_loop walk_vertices_follow_partial'),
  'All open and closed curves of marked cells, of any length and numbering. walk_vertices is only covered for mesh functions on more than one cell: the code asserts this, and fails for a Mesh argument.')
P = 'Verif.Contour.'
c('C47', 'partial', names(P, 'refine_contour_partial refine_contour_negative refine_open'),
  'All closed contours and numbers of refinements; false for open contours, whose last point is replaced by the first (refine_open).')
c('C49', 'partial', names(P, 'line_mesh_partial line_mesh_cells line_mesh_shared line_mesh_segment line_mesh_closed straight_line_partial straight_line_one'),
  'All lists of branches. False for branches of two points, whose cell is lost, and for a closed first branch, whose ends are not merged.')
P = 'Verif.Refine.'
c('C48', 'partial', names(P, 'refine_tiles centroid_refine_tiles point_is_inside_complete point_is_inside_sound_partial point_outside_accepted intArea_barycentric triArea_barycentric tetArea_barycentric'),
  'All meshes and numbers of refinements: proved for centroid_refine and whenever new points are inside their cells. The check of new points is exact only for tolerances up to 2E-15 (point_is_inside_sound_partial); a point slightly outside is accepted and the children do not tile (point_outside_accepted). C81 has more about centroids.')
P = 'Verif.Union.'
c('C50', 'partial', names(P, 'union_two_partial union_two_total union_leafs union_small union_many union_gap union_closed union_changes_leafs'),
  'Unions of one or two meshes and any nesting of them. union_mesh of three or more meshes always raises in Python 3 (union_many); meshes without boundary, and meshes whose whole boundary is shared, can raise (union_closed, union_gap); the leafs of the first mesh are changed (union_changes_leafs).')
P = 'Verif.Center.'
c('C51', 'partial', names(P, 'circumcenter_correct circumcenter_total_partial circumcenter_unique circumcenter_intervals solves_inv'),
  'All nondegenerate triangles and tetrahedra, and intervals in the plane; intervals on the line and in the space are refused by the code (circumcenter_intervals). Exact arithmetic; the linear solver of Eigen is assumed to solve regular systems.')

P = 'Verif.Jacobian.'
c('C53', 'partial', names(P, 'derivative_correct_partial block_jacobian_correct_partial block_jacobian_accepts derivative_expression derivative_mean_wrong'),
  'For supported residuals ii_derivative returns an entry whose value at the trial function w is the (Fréchet-type) '
  'derivative of eps -> F(u + eps w), for arbitrary differentiable integrands; block_jacobian has these entries. '
  'False in general: coefficients without a vector (Expression) raise, annotations other than trace, average and '
  'restriction are not carried over to the trial function (derivative_mean_wrong). The expansion of '
  'CoefficientDerivative by UFL is trusted.')
P = 'Verif.Annotate.'
c('C54', 'partial', names(P, 'annotation_copies_partial annotation_returns annotations_history annotations_history_arguments annotation_shares_vector point_trace_changes_argument point_traces_collide'),
  'All histories of the twelve annotations with nesting and failing calls. False for PointTrace and GradientPointTrace of '
  'functions, which annotate the function itself (point_trace_changes_argument); two point traces of one function are one object.')
P = 'Verif.CollapseIter.'
c('C06', 'partial', names(P, 'collapse_acts_partial orders_agree_partial collapse_acts_transposed_partial blocks_act_partial monolithic_acts_partial names_collide shared_raises same_object_raises other_raises other_diverges'),
  'All trees of distinct operator objects and all orders of rewriting, for names (str of a matrix) that tell matrices apart. '
  'False if names are the sizes (names_collide). An operator object occurring twice raises TypeError (shared_raises), objects '
  'other than sums, differences, products and transposes raise KeyError or loop for ever.')
c('C07', 'partial', names(P, 'algorithms_agree_partial algorithms_disagree'),
  'Equality of the two matrices, under the hypotheses of C04 and C06. Names (str of a matrix) which do not tell matrices apart make it false (algorithms_disagree).')
P = 'Verif.Gmsh.'
c('C56', 'partial', names(P, 'import_sound_partial import_accepts model_elements model_accepts model_nodes gmsh_cells tetrahedra_refused gaps_refused model_nodes_false'),
  'For data of segments and triangles. False for tetrahedra, which are always refused, for nodes without a cell (KeyError) and '
  'for node tags with gaps (model_nodes_false). The API of gmsh, MeshEditor and the entity numbering are parameters.')
P = 'Verif.Dual.'
c('C57', 'partial', names(P, 'dual_once_partial dual_refined dual_areas dual_dims dual_circumcenter_false dual_once_conforming dual_refined_conforming'),
  'All triangle meshes and refinements for centroids, one refinement for any centers inside of their cells. False for '
  'circumcenters of obtuse triangles; intervals and tetrahedra are refused.')
P = 'Verif.PointTrace.'
c('C58', 'partial', names(P, 'cg_scalar_value_partial cg_outside dg_value dg_jump dg_not_incident gradient_value accepted gradient_accepted '
  'one_kind_always_raises cg_vector_wrong gradient_constants_refused'),
  'Scalar spaces, each kind under the signature of evaluate_basis_all which it assumes. The kinds assume different ones, '
  'so one of them always raises; vector valued Lagrange spaces get wrong values; zero derivatives are refused.')
c('C59', 'partial', names(P, 'flux_is_mean_partial flux_of_constant flux_circle flux_accepts'),
  'All spaces and shapes whose rule has as many normals as points. Points outside of the mesh count in the measure only, as in '
  'C35. For circles the tangent is not nearly vertical (see C36).')
P = 'Verif.Dispatch.'
c('C60', 'partial', names(P, 'assemble_all_partial assemble_all_terminates trace_is_taken annotated_is_taken forgotten_trace_raises average_and_flux_raise '
  'restriction_and_injection_raise facet_integrals_ignored'),
  'All forms and mixtures, given the matrices of the reductions (treated in their own claims). False where the annotation does '
  'not go with the measure: traces in facet integrals are ignored. A forgotten reduction is refused for codimension one, '
  'in an integral without other reductions. Some mixtures always raise.')
P = 'Verif.Elements.'
c('C61', 'partial', names(P, 'trace_cell_ok trace_cell_iff transpose_cell_inverse average_cell_ok trace_element trace_shape_partial alike_shape trace_tensor_wrong '
  'average_element average_mesh_refused average_vector_shape average_vector_wrong flux_element transpose_element '
  'transpose_family_refused transpose_vector_wrong extension_element extension_vector_wrong point_element point_element_none '
  'mean_element mean_mesh_refused surface_mean_element gradient_point_element '
  'trace_discontinuous average_discontinuous extension_discontinuous values_real '
  'average_returns_iff average_shape_iff average_mixed trace_alike_iff extension_alike_iff transpose_alike_iff'),
  'The exact condition is proved for every kind and all nested elements: square tensors for traces, components given by the number of '
  'coordinates for the others (and continuous parts for transposed traces). False for other vectors and tensors, which get another shape.')
P = 'Verif.CenterVec.'
c('C62', 'partial', names(P, 'center_vector_partial circum_distance centroid_distance circum_distance2 delaunay_plane_always delaunay_interior_always '
  'delaunay_not_a_number distance2_origin not_delaunay_accepted centroid_distance2_wrong delaunay_refused'),
  'Vectors, lengths and CircumDistance2 on all meshes, unless all centers are the origin. False of CentroidDistance2 and of is_delaunay, '
  'which is zero on all meshes of triangles whose centers differ. The assembly over facets is taken facet by facet.')
P = 'Verif.Normal.'
c('C63', 'partial', names(P, 'expression_oriented point_oriented default_outward_partial marker_oriented marker_independent marker_equal_arbitrary '
  'mesh_oriented not_parent_refused inner_normal default_straight numbering_matters'),
  'All meshes and orientations. The default is outward for convex surfaces only; the mesh gives zero on interior facets; equal markers '
  'give an arbitrary sign; the dofs have to be numbered by cells.')
P = 'Verif.Tangent.'
c('C64', 'partial', names(P, 'tangent_unit tangent_tree_partial tangent_consistent root_refused tangent_loop wind_number_refuses normal_unit encloses_wrong normal_wrong'),
  'Unit tangents on all curves, one direction on all trees. False of every loop whose cells list their vertices in increasing order, and so of '
  'NormalCurve and encloses_points. dfs_edges of networkx is given by its contract.')
c('C65', 'partial', names(P, 'wind_open_refused wind_total wind_reverse inside_reverse_partial wind_start wind_translate outside_accepted inside_missed'),
  'Reversal, first point and translation for all polygons. False that points inside are told from points outside.')
P = 'Verif.Collide.'
c('C66', 'partial', names(P, 'segments_near segments_found segments_exact_partial segments_symmetric triangle_near triangle_found triangle_exact segments_never '
  'triangle_never overlap_missed space_missed plane_missed bbox_tight box_collides_raises'),
  'Exact for segments in the plane which are not parallel and for segments and triangles in space in general position. False of the other '
  'positions, where the answer is always no. np.linalg.solve is given by its contract, arithmetic is exact.')
P = 'Verif.Extension.'
c('C67', 'partial', names(P, 'uniform_nearest_partial uniform_components uniform_constant uniform_keeps uniform_refused extension_checks extension_other '
  'intersecting_accepted components_wrong'),
  'Nearest values for all scalar, vector and tensor spaces of matching shape. False that other types, intersecting domains and vectors of different '
  'shape are refused. The harmonic extension is C77.')
P = 'Verif.Nest.'
c('C68', 'partial', names(P, 'nest_close nest_exact_partial nest_diagonal nest_number_wrong nest_precond_none nest_vec pc_mat_action pc_mat_refused pc_nest_plain '
  'pc_nest_grouped pc_nest_offdiagonal pc_nest_shape pc_nest_different pc_nest_regrouped pc_nest_overlap pc_nest_single_refused'),
  'All block matrices of matrices and zeros, all diagonal preconditioners and all offsets which do not start with 0. False of numbers as blocks, of '
  'preconditioners as blocks of the matrix, of offsets which start with 0 and of regrouping one index set. PETSc solver types, index set unions and '
  'createNest are given by their contracts.')
P = 'Verif.Reshape.'
c('C69', 'partial', names(P, 'reshape_entries reshape_action_partial reshape_mixed_refused regroup_parts reshape_drops diag_action identity_action row_entries '
  'row_refused zero_entries zero_no_columns'),
  'Blocks for all square matrices and offsets, the action when all groups have one block or all have several; false for mixed groups and for offsets '
  'which end too early. The products of block matrices and the formats of scipy are given by their meaning.')
P = 'Verif.CollapseIter.'
c('C70', 'partial', names(P, 'collapse_returns_partial numbers_last_raise shared_raises same_object_raises other_raises other_diverges'),
  'All conforming trees of distinct operator objects, all orders of rewriting, with a bound on the rounds independent of the order, if str of a matrix '
  'is new in every step. False for two numbers after the last matrix of a product (numbers_last_raise), for operator objects which occur twice, '
  'for operands with the same str and for other objects.')
P = 'Verif.DofMat.'
c('C71', 'partial', names(P, 'injection_interpolate_partial injection_project injection_fallback_raises injection_returns_iff fineToCoarse_sorted fineToCoarse_wrong'),
  'Interpolation is the transfer matrix of dolfin, a parameter of the model, and projection is refused. False of other methods: the fallback uses mat before it is assigned (injection_fallback_raises). '
  'Its list of parents is right for items sorted by fine cell (fineToCoarse_sorted) and wrong for some other order (fineToCoarse_wrong). The cache in front of it is not part of this claim.')
P = 'Verif.IIFunction.'
c('C72', 'partial', names(P, 'new_functions from_vectors wrong_number_refused wrong_size_refused from_functions accepted_components wrong_space_accepted no_components_raise vector_entry set_vector_entry shared_components item last_item interpolate_partial interpolate_wrong_number interpolate_exchange_loses interpolate_not_atomic'),
  'False of functions in other spaces, which are accepted, of components which share a vector, and of interpolation from components of the same function '
  'which are assigned before. Slices, rename, randomize and the list of the caller are in C110. Assumed of dolfin: Function(V) '
  'has a new zero vector, Function(V, x) shares x, and a nested vector refers to its parts.')
P = 'Verif.PetscWrap.'
c('C73', 'partial', names(P, 'mult_block_partial multTranspose_block mult_plain multTranspose_plain mult_not_nested no_nullspace nullspace_correct_iff nullspace_wrong'),
  'mult, multTranspose, apply and applyTranspose for all operators and contents of y. False of the null space, which always has the constants (nullspace_wrong), '
  'if the arguments of PETSc.NullSpace mean what they are called. The products by the operator and its transpose are parameters, x and y are different vectors, '
  'and sums are exact.')
P = 'Verif.Continuous.'
c('C74', 'partial', names(P, 'continuous_curve continuous_surface_partial surface_touching_accepted continuous_refused'),
  'Proved for all meshes of curves. For surfaces the function decides whether neighbours have a common vertex (continuous_surface_partial), which is weaker '
  'than a common edge (surface_touching_accepted). number_connected_components of networkx is modelled by reachability.')
P = 'Verif.SurfaceMean.'
c('C75', 'proved', names(P, 'surface_mean_is_mean mean_of_constant surface_mean_no_area surface_mean_checks'),
  'The trace on a cell is taken from the first cell connected to the facet. Assembly of the row of integrals by dolfin is a contract; integrals over cells are '
  'linear functionals. Surfaces with an embedding map into the mesh.')
P = 'Verif.TransposeTrace.'
c('C76', 'partial', names(P, 'transpose_trace_pairs_partial transpose_trace_unmatched transpose_trace_assembly_raises transpose_trace_accepts'),
  'transpose_trace_mat called with the space on the full mesh first is the transpose of the trace (transpose_trace_pairs_partial). False of assembled forms: the assembler passes '
  'the spaces in the other order and always raises (transpose_trace_assembly_raises).')
P = 'Verif.Harmonic.'
c('C77', 'partial', names(P, 'harmonic_solves_screened_partial harmonic_not_documented harmonic_ignores_marks harmonic_refuses'),
  'Proved for the problem u - Delta u = delta f with natural boundary conditions, for regular systems and a create_vec which returns zeros (see C24). False of the documented problem '
  '(harmonic_not_documented); the marking is not used (harmonic_ignores_marks).')
P = 'Verif.Krylov.'
c('C78', 'proved', names(P, 'krylov_solve_solves krylov_solve_fails krylov_preconditioner'),
  'The Krylov method is a parameter: it returns an array and a status or raises.')
c('C79', 'partial', names(P, 'scipy_residuals_are_not'),
  'False: the callback of scipy gets the iterates, and their norms are recorded.')
P = 'Verif.Dual.'
c('C80', 'proved', names(P, 'dual_refined dual_refined_conforming dual_areas'),
  'The connectivity computed by dolfin is given by its contract: the facets of a cell are its edges, and cells with a common edge share the facet.')
P = 'Verif.Refine.'
c('C81', 'proved', names(P, 'centroid_refine_conforming refine_conforming centroid_refine_tiles refine_tiles centroid_refine_total centroid_refine_small intArea_barycentric triArea_barycentric tetArea_barycentric segArea_barycentric surfArea_barycentric'),
  'In exact arithmetic. Barycentric, the hypothesis on simplex_area, is proved for all its branches: segments in any dimension, triangles in the plane and in space, and tetrahedra.')
P = 'Verif.TraceForm.'
c('C82', 'proved', names(P, 'trace_localised trace_localised_side trace_tag_refused trace_restriction_refused'),
  'The trace mesh is new or was made as an EmbeddedMesh of the bulk mesh, and is used with this bulk mesh only (C43 has the counterexamples for several meshes). Which side is meant by + is the subject of C34; jump and avg always raise.')
P = 'Verif.Registry.'
c('C83', 'partial', names(P, 'maps_stay_partial maps_right_partial injection_drops injection_breaks_average injection_breaks_trace injection_breaks_tags injection_wrong_parent'),
  'False for injections from a mesh without a map into a refined mesh (counterexamples). Proved for all other histories.')
P = 'Verif.Workflow.'
c('C84', 'proved', names(P, 'program_solves program_returns time_stepping time_stepping_returns'),
  'Assembly is a parameter. The solver is exact. Boundary conditions of the time dependent program are DirichletBCs with dofs which do not change, as in the demo (C13 has the counterexamples for others).')
P = 'Verif.Coupling.'
c('C85', 'proved', names(P, 'coupled_integrals trace_restricts'),
  'Element routines are exact; functions in the bulk space are continuous across the facets and their restrictions are in the trace space. Operators of UFL and integration are parameters, linear in the arguments.')
P = 'Verif.Program.'
c('C86', 'proved', names(P, 'program_solves program_returns coupled_program'),
  'Integrals are linear in their arguments and arithmetic is exact; the solver is a parameter which returns solutions. Blocks of the matrix are forms or numbers, numbers other than zero on the diagonal; blocks of L are forms.')
P = 'Verif.Program.'
c('C87', 'proved', names(P, 'forms_solve forms_return coupled_forms'),
  'As in C86. The forms with which block_form(W, 1) starts are given by a parameter: integrals which vanish and have one test function without annotations.')
c('C88', 'proved', names('Verif.Collapse.', 'convert_numbers convert_numbers_iff'), 'Describes what convert does with numbers; the English property a user may expect (numbers off the diagonal count) is false, see C08.')
c('C89', 'proved', names('Verif.ApplyBc.', 'updater_entries updater_agrees_iff return_apply_b_unbound'), 'DirichletBC objects only, as the returned function calls them. At least one dof is prescribed; without boundary conditions apply_bc returns early.')
c('C90', 'proved', names('Verif.BlockOps.', 'subSelectT_last subSelect_adjoint_iff'), 'Exact behaviour with repeated indices.')
c('C91', 'proved', names('Verif.BlockOps.', 'offsets_accepted_iff regroup_roundtrip_iff reduction_applies_iff'), 'Exact conditions for C21 and C22.')
c('C92', 'proved', names('Verif.Krylov.', 'matvec_iff matvec_applies_iff'), 'Exact behaviour, also for operators with different row and column sizes.')
c('C93', 'proved', names('Verif.BlockForm.', 'permute_iff permute_linear_iff'), 'What is returned is described by permute_permutes_partial and permute_permutes_linear of C28.')
c('C94', 'proved', names('Verif.Average.', 'average_constant_exact'), 'Exact arithmetic; collision detection is a parameter.')
c('C95', 'proved', names('Verif.Collide.', 'segments_answer triangle_answer other_cells_refused'), 'Exact arithmetic; np.linalg.solve is a parameter which solves regular systems and raises for singular ones.')
c('C96', 'proved', names('Verif.Contour.', 'refine_any refine_divides_iff'), 'Exact arithmetic.')
c('C97', 'proved', names('Verif.MatFree.', 'femCollapse_any'), 'The contents of a new vector are a parameter, the model of C24.')
c('C98', 'proved', names('Verif.Nullspace.', 'accepted_iff'), 'Exact arithmetic over the reals.')
c('C99', 'partial', names('Verif.Shape.', 'square_accepted_iff square_quadrature rim_quadrature_any centre_close corner_kinds_partial rim_sequence_raises'), 'Proved for corners given as arrays or functions of the point. False of constant corners given as tuples or lists: Square takes them, SquareRim raises TypeError in every quadrature. Exact arithmetic; leggauss gives nodes in [-1, 1] and weights with sum 2.')
c('C100', 'proved', names('Verif.AverageForm.', 'averaged_integrals averaged_forms average_is_shapeMean'),
  'As in C87. Collision detection, dof coordinates and basis functions are parameters; quadratures which raise are excluded (then assemble raises).')
c('C101', 'partial', names('Verif.Mean.', 'mean_integrates mean_iff_unit_volume mean_weighted_partial mean_of_constant_wrong'),
  'False: the code does not divide by the volume, so without a weight the row gives the mean for all functions just if the volume is 1 (mean_iff_unit_volume). Proved: it gives the integral of the function times the weight over the measure, and the mean if the weight is the inverse of the volume.')
c('C102', 'proved', names('Verif.TimeDep.', 'time_forms time_forms_return time_run time_traces'),
  'Forms of the matrix must be steady, as the program assembles the matrix once. The number of passes is a parameter. Exactness of the solver is a hypothesis.')
c('C103', 'proved', names('Verif.Mixed.', 'mixed_integrals mixed_forms'),
  'The conditions of the single reductions (conforming facets, elements with nodal dofs, quadrature rules with matching lengths and so on) are in the inductive predicate Means. Transpose traces raise and injections are not among the kinds; the others are all there.')
c('C104', 'proved', names('Verif.', 'Assembly.assembly_returns Program.forms_run'),
  'Transpose traces are excluded because they raise. The identities of functions made during the assembly are odd numbers, those of users even ones. Exactness of the solver is a hypothesis.')
c('C105', 'partial', names('Verif.Accept.', 'accept_iff space_iff_partial space_kept trace_space_iff extension_space_iff transpose_space_iff accepted_without_space point_lagrange_raises gradient_lagrange_raises extension_ignored'),
  'The first part (what is accepted) is proved for all inputs. The second part is false for several kinds: the exact condition for a reduced space is proved for each kind, with counterexamples; point values and derivatives of Lagrange functions are never assembled and extensions are ignored.')
c('C106', 'partial', names('Verif.Refine.', 'circumcenter_acute_partial circumcenter_refused circumcenter_twice_refused circumcenter_unchecked'),
  'One refinement is covered. The last part is false: two or more refinements are always refused, up to the tolerance of the check. Triangles in the plane; C109 is about tetrahedra and triangles in space.')
c('C107', 'proved', names('Verif.Embedded.', 'skeleton_interior skeleton_refused'),
  'The incidences of facets and cells computed by dolfin are hypotheses (every facet has a cell, cells are listed once).')
c('C108', 'proved', names('Verif.Newton.', 'newton_iterates newton_stops newton_returns newton_affine newton_fixed newton_residual newton_converged newton_quadratic newton_terminates'),
  'Residuals for which block_jacobian is correct (C53): functions, plain or annotated once as trace, average or restriction. Assembled values, the expansion of derivatives in UFL and the exactness of the solver are hypotheses; real arithmetic.')
c('C109', 'proved', names('Verif.Refine.', 'circumcenter_inside circumcenter_not_inside circumcenter_never_twice circumcenter_intervals_centroid circumcenter_intervals_raise'),
  'Exact arithmetic; the solver of Eigen solves regular systems and norms are homogeneous. With the tolerance of the check the statements hold where it does not cover the cells in question.')
P = 'Verif.IIFunction.'
c('C110', 'proved', names(P, 'slice_up slice_plain slice_ends slice_raises rename_labels randomize_vectors own_list caller_list'),
  'Slices with negative ends and other steps than one are covered by slice_ends and slice_raises. The numbers drawn are a parameter, as many as asked for.')
P = 'Verif.Tangent.'
c('C111', 'proved', names(P, 'wind_number_angles wind_number_course winding_integer winding_outside winding_left winding_right wind_number_numbered encloses_outside encloses_left encloses_right'),
  'The integrals are exact here; the form compiler uses a quadrature, for which C64 has what holds of all rules. Loops with other numberings are covered by wind_number_course.')
P = 'Verif.Plot.'
c('C112', 'proved', names(P, 'tube_render_returns_iff tube_render_draws circle_ring_outline vtk_tube_circle rim_ring_not_outline radial_order_returns_iff radial_order_few radial_order_outline plot_data_draws plot_circles square_on_circle radial_order_off_centre'),
  'Exact real arithmetic; the containers and the writer of VTK are trusted, as are eigh and argsort. Segments must not be nearly vertical, see C99.')
P = 'Verif.Hsmg.'
c('C113', 'proved', names(P, 'inverse_returns_iff inverse_exact chosen_unique asIf_power'),
  'Exact version of C55. Exact real arithmetic; eigenvalues are meant to be positive (numpy gives nan or inf for powers of others), eigh is a parameter with a specification. A single matrix is inverted by hsmg itself.')
P = 'Verif.Patch.'
c('C114', 'proved', names(P, 'coloring_exact coloring_returns_iff groupMean_separated coloring_repeated'),
  'Exact version of the second half of C39. Exact arithmetic; the colours of the dofs are natural numbers.')
P = 'Verif.Contour.'
c('C115', 'proved', names(P, 'line_mesh_returns_iff line_mesh_exact line_mesh_count line_mesh_first_open'),
  'Exact version of C49. Exact arithmetic; make_mesh is trusted to make the mesh with the given vertices and cells.')
P = 'Verif.RandomCurve.'
c('C116', 'proved', names(P, 'curve_one_boundary_vertex curve_connected load_returns load_returns_iff curve_can_be_found curve_never_found inner_start_disconnected random_edges_exact'),
  'Edges are distinct sorted pairs; nx.shortest_path is trusted to return a path; bc_vertices and the check of load use the same test of vertices.')
c('C117', 'proved', names('Verif.Segment.', 'segment_distance_exact distance_field_exact distance_field_nan'), 'Exact real arithmetic.')
c('C118', 'partial', names('Verif.ProjCircle.', 'circle_map_exact circle_map_bijective circle_map_collapses circle_quad_value circle_quad_wrong circle_height_integral disk_map_exact disk_center_nan'),
  'False: for normals in the plane z = 0 only two points of the circle are reached, the centre of the disk and points parallel to the normal give nan. Proved: images are on the circle, all points of it are reached once if the normal is not in that plane. Exact real arithmetic.')
c('C119', 'proved', names('Verif.CrossGrid.', 'cross_grid_returns_iff cross_grid_tiles cross_grid_centers'), 'Exact arithmetic; make_mesh is trusted to make the mesh with the given vertices and cells.')
P = 'Verif.ConvLog.'
c('C120', 'partial', names(P, 'log_records_partial study_returns rate_of_power add_returns_iff missing_key_half_added zero_error_out_of_step extra_values_dropped fewer_values_refused'),
  'Proved for all sequences of successful calls, with the exact condition for a call to return; false for failing calls, which leave histories of different lengths. Real arithmetic, errors are Python floats, np.polyfit is given by its contract.')
c('C121', 'partial', names(P, 'broken_norm_exact broken_norm_partition_partial broken_norm_zero_tag'),
  'Proved for tags other than zero and errors whose squares are sums over cells; false for the tag zero. Interpolation to the space on the submesh is trusted to be the restriction.')
c('C122', 'partial', names(P, 'reported_partial crash_reported_passed'),
  'Proved for exceptions whose traceback has the word Error; false for others, which are reported as passed.')
P = 'Verif.Immersed.'
c('C123', 'proved', names(P, 'immersed_returns_iff immersed_cells immersed_outer immersed_inner immersed_interface gamma_cells gamma_facets'),
  'The coordinates k / 2^m are exact in floating point. UnitSquareMesh and SubDomain.mark of dolfin are modelled; EmbeddedMesh is C40.')
P = 'Verif.DofMat.'
c('C124', 'proved', names(P, 'sandbox_injection_evaluates_dofs sandbox_injection_checks sandbox_injection_same_function restriction_same_function interpolation_same_function'),
  'The function spaces and the array parent_cell of dolfin are parameters, as in C33. injection_matrix of the package is C71.')
P = 'Verif.Calculus.'
c('C125', 'partial', names(P, 'grad_scalar grad_vector_iff grad_refuses div_vector_partial div_vector_wrong div_tensor_partial div_tensor_ignores div_tensor_other_variables asExpr_returns_iff'),
  'Exact for Grad and asExpr: right if and only if no entry is known to be zero. Div is right if zeros come last; it is false for (0, g) (div_vector_wrong) and for tensors in other variables (div_tensor_ignores). Matrix.values, Matrix.row and diff of sympy are modelled by their contracts.')
P = 'Verif.Mms.'
c('C126', 'partial', names(P, 'poisson_consistent poisson_bc_consistent mixed_poisson_consistent grad_div_consistent curl_curl_consistent sym_grad_consistent bertoluzza_consistent free_slip_consistent isoP2_consistent mass_consistent emi_consistent emi_mortar_consistent dq_consistent layton_consistent twoD_consistent isect_consistent elasticity_consistent elasticity_mixed_consistent dirac_consistent heat_residual poisson_demo dirac_demo elasticity_demo isect_demo bertoluzza_multiplier_ends twoD_multiplier_ends free_slip_multiplier_ends heat_multiplier_end daq_drops'),
  'The weak equations hold for all demos with a manufactured solution in two dimensions, in time_dep up to the difference quotient in time (heat_residual). False are the values prescribed for the multiplier in twoDoneDoneD, free_slip_stokes_iter and time_dep (twoD_multiplier_ends, free_slip_multiplier_ends, heat_multiplier_end) and the second row of daq_3d1d (daq_drops). Not covered: rows which only restate a boundary value, curved boundaries, the demos in three dimensions with manufactured solutions. Derivatives and traces of UFL are exact, the finite element spaces are replaced by all smooth functions.')
P = 'Verif.Minimise.'
c('C127', 'proved', names(P, 'optim_minimises layer_minimises babuska_minimises heat_step_minimises optim_header_wrong') + ' ' + names('Verif.Multipliers.', 'babuska_minimises_iff heat_minimises_iff layer_minimises_iff optim_minimises_iff'),
  'For all subspaces; the converse (each minimiser has a multiplier) for multipliers of finite dimension. The forms are those of two dimensions. When there is exactly one solution is C131. Integration is modelled by linear functionals which are not negative on squares.')
P = 'Verif.Apps.'
c('C128', 'partial', names(P, 'has_multiplier_iff multiplier_eliminated_partial multiplier_changes_solution'),
  'False in general: the averages need not be in the space of the multiplier (multiplier_changes_solution, whose witness is an abstract pair of spaces, not a mesh). Proved if they are, and in general up to the projection of the average. Conductivities are numbers.')
c('C129', 'partial', names(P, 'nested_minimises nested_not_unique') + ' ' + names('Verif.Multipliers.', 'nested_minimises_iff nested_exists_iff nested_exists'),
  'The solutions are exactly the minimisers and there always is one, as the program takes the same space for functions and multipliers on the curve. It is not unique (nested_not_unique).')
P = 'Verif.Symmetric.'
c('C130', 'proved', names(P, 'poissonBc_symm mixedPoisson_symm freeSlip_symm bertoluzza_symm isoP2_symm layton_symm dq_symm emi_symm emiMortar_symm twoD_symm elasticityMixed_symm isect_symm optim_symm layer_symm babuska_symm heat_symm has_symm notHas_symm nested_symm'),
  'On the straight boundaries of the demos. Boundary conditions are applied afterwards; apply_bc keeps the symmetry (ApplyBc.applyBc_symmetric).')
P = 'Verif.Solvable.'
c('C131', 'proved', names(P, 'not_has_exists_unique has_exists_unique optim_exists_unique babuska_exists_unique_iff heat_exists_unique_iff layer_exists_unique_iff'),
  'In exact arithmetic. The condition on traces is the discrete one, the dependence of its constant on the mesh size is not modelled. has_multiplier needs that the functions on the curve are among the multipliers, as they are in the program (both are CG1 on the curve).')
P = 'Verif.Nonsingular.'
c('C132', 'proved', names(P, 'mixedPoisson_iff freeSlip_iff bertoluzza_iff isoP2_iff emi_iff twoD_iff emiMortar_iff elasticityMixed_iff isect_iff poissonBc_iff layton_iff dq_iff'),
  'In exact arithmetic. That only the zero velocity has no energy (the discrete Korn inequality) is a hypothesis on the spaces, as are boundary conditions, which restrict the spaces.')

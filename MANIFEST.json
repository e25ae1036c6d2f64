{
 "claims": [
  {
   "property": "C01",
   "status": "proved",
   "theorems": [
    "Verif.ListUtils.assemble_keeps_layout",
    "Verif.ListUtils.assemble_fails_with_form"
   ],
   "note": ""
  },
  {
   "property": "C02",
   "status": "proved",
   "theorems": [
    "Verif.ListUtils.reshape_row_major"
   ],
   "note": ""
  },
  {
   "property": "C03",
   "status": "partial",
   "theorems": [
    "Verif.ListUtils.shape_list_decides",
    "Verif.ListUtils.reshape_rejects",
    "Verif.ListUtils.reshape_rejects_zero",
    "Verif.ListUtils.reshape_returns_partial",
    "Verif.ListUtils.reshape_negative_diverges",
    "Verif.ListUtils.reshape_diverges",
    "Verif.ListUtils.reshape_returns_iff"
   ],
   "note": "Rejection is proved in full. Termination holds exactly for other numbers of entries or nonnegative extents (reshape_returns_iff); it fails for negative extents."
  },
  {
   "property": "C04",
   "status": "proved",
   "theorems": [
    "Verif.Collapse.collapse_acts",
    "Verif.Collapse.collapse_acts_dropped",
    "Verif.Collapse.collapse_drops_tiny"
   ],
   "note": "collapse_drops_tiny shows that the proviso on tiny numbers is needed; without it collapse_acts_dropped tells the action exactly."
  },
  {
   "property": "C05",
   "status": "partial",
   "theorems": [
    "Verif.Collapse.collapse_returns_iff",
    "Verif.Collapse.collapse_number_iff",
    "Verif.Collapse.collapse_returns_partial",
    "Verif.Collapse.collapse_transpose_diverges",
    "Verif.Collapse.collapse_add_number_diverges",
    "Verif.Collapse.collapse_sub_number_diverges"
   ],
   "note": "Exact for all expressions cbc.block builds (collapse_returns_iff): converted if and only if sizes agree, transposes are of matrices and numbers are factors or tiny summands. As stated the property is false: three families of expressions are proved never to be converted."
  },
  {
   "property": "C06",
   "status": "partial",
   "theorems": [
    "Verif.CollapseIter.collapse_acts_partial",
    "Verif.CollapseIter.orders_agree_partial",
    "Verif.CollapseIter.collapse_acts_transposed_partial",
    "Verif.CollapseIter.blocks_act_partial",
    "Verif.CollapseIter.monolithic_acts_partial",
    "Verif.CollapseIter.names_collide",
    "Verif.CollapseIter.shared_raises",
    "Verif.CollapseIter.same_object_raises",
    "Verif.CollapseIter.other_raises",
    "Verif.CollapseIter.other_diverges"
   ],
   "note": "All trees of distinct operator objects and all orders of rewriting, for names (str of a matrix) that tell matrices apart. False if names are the sizes (names_collide). An operator object occurring twice raises TypeError (shared_raises), objects other than sums, differences, products and transposes raise KeyError or loop for ever."
  },
  {
   "property": "C07",
   "status": "partial",
   "theorems": [
    "Verif.CollapseIter.algorithms_agree_partial",
    "Verif.CollapseIter.algorithms_disagree"
   ],
   "note": "Equality of the two matrices, under the hypotheses of C04 and C06. Names (str of a matrix) which do not tell matrices apart make it false (algorithms_disagree)."
  },
  {
   "property": "C08",
   "status": "partial",
   "theorems": [
    "Verif.Collapse.convert_acts_partial",
    "Verif.Collapse.convert_drops_offdiagonal"
   ],
   "note": "Holds when numbers off the diagonal are zero; nonzero ones are silently dropped (convert_drops_offdiagonal)."
  },
  {
   "property": "C09",
   "status": "proved",
   "theorems": [
    "Verif.Collapse.asBlock_convert_vec",
    "Verif.Collapse.convert_asBlock_vec",
    "Verif.Collapse.convert_asBlock_mat",
    "Verif.Collapse.asBlock_convert_mat"
   ],
   "note": ""
  },
  {
   "property": "C10",
   "status": "proved",
   "theorems": [
    "Verif.ApplyBc.applyBc_imposes",
    "Verif.ApplyBc.applyBc_solutions",
    "Verif.ApplyBc.applyBc_plain_solutions",
    "Verif.ApplyBc.applyBc_rejects_sizes",
    "Verif.ApplyBc.applyBc_plain_rejects_sizes",
    "Verif.ApplyBc.applyBc_rejects_blocks",
    "Verif.ApplyBc.applyBc_no_rhs"
   ],
   "note": ""
  },
  {
   "property": "C11",
   "status": "proved",
   "theorems": [
    "Verif.ApplyBc.applyBc_solutions",
    "Verif.ApplyBc.applyBc_plain_solutions"
   ],
   "note": ""
  },
  {
   "property": "C12",
   "status": "proved",
   "theorems": [
    "Verif.ApplyBc.applyBc_symmetric",
    "Verif.ApplyBc.applyBc_posDef"
   ],
   "note": ""
  },
  {
   "property": "C13",
   "status": "partial",
   "theorems": [
    "Verif.ApplyBc.updater_agrees_partial",
    "Verif.ApplyBc.updater_ignores_diag",
    "Verif.ApplyBc.updater_fails_dict"
   ],
   "note": "Holds for diag_val=1 and DirichletBCs; false for other diagonal values (updater_ignores_diag) and for dictionaries (updater_fails_dict)."
  },
  {
   "property": "C14",
   "status": "partial",
   "theorems": [
    "Verif.ApplyBc.applyBc_contract_partial",
    "Verif.ApplyBc.applyBc_nothing",
    "Verif.ApplyBc.return_apply_b_unbound",
    "Verif.ApplyBc.return_apply_b_plain_ignored",
    "Verif.ApplyBc.return_apply_b_empty_ignored",
    "Verif.ApplyBc.empty_dict_changes_kind",
    "Verif.ApplyBc.applyBc_no_dofs"
   ],
   "note": "Holds for block systems; the other theorems are the cases in which the contract is broken."
  },
  {
   "property": "C15",
   "status": "proved",
   "theorems": [
    "Verif.Nullspace.nullspace_orthonormal",
    "Verif.Nullspace.construct_orthonormal"
   ],
   "note": ""
  },
  {
   "property": "C16",
   "status": "partial",
   "theorems": [
    "Verif.Nullspace.dependent_rejected",
    "Verif.Nullspace.rejected_near_span_partial",
    "Verif.Nullspace.rejected_iff_exact",
    "Verif.Nullspace.independent_rejected",
    "Verif.Nullspace.constants_not_accepted",
    "Verif.Nullspace.vectors_added"
   ],
   "note": "Dependent vectors are rejected, and every rejected vector is within the tolerance of the span; an independent vector close to the span is rejected too (independent_rejected), and constants always raise (constants_not_accepted)."
  },
  {
   "property": "C17",
   "status": "proved",
   "theorems": [
    "Verif.Nullspace.orthogonalize_projects"
   ],
   "note": ""
  },
  {
   "property": "C18",
   "status": "partial",
   "theorems": [
    "Verif.L20.projector_projects_partial",
    "Verif.L20.projector_constructed",
    "Verif.L20.l20_inner_product",
    "Verif.L20.l20_collapse",
    "Verif.L20.orthonormalize_orthonormal",
    "Verif.L20.orthonormalize_returns",
    "Verif.L20.exists_eigSpec",
    "Verif.L20.projector_empty_raises",
    "Verif.L20.projector_orthonormal_refused",
    "Verif.L20.projector_dependent_refused"
   ],
   "note": "Proved for nonempty bases, and false for the empty one (projector_empty_raises). The constructor refuses two or more vectors which are orthonormal already. Eigenvectors of the Gram matrix are assumed to be returned normalised by numpy."
  },
  {
   "property": "C19",
   "status": "partial",
   "theorems": [
    "Verif.L20.riesz_single_raises",
    "Verif.L20.riesz_returns_argument"
   ],
   "note": "The property is false; proved: with one vector the map always raises, with more it returns M*u instead of u."
  },
  {
   "property": "C20",
   "status": "partial",
   "theorems": [
    "Verif.BlockOps.subSelect_selects",
    "Verif.BlockOps.subSelectT_adjoint_partial",
    "Verif.BlockOps.subSelectT_repeated_not_adjoint"
   ],
   "note": "Extraction for all indices; the transpose laws for distinct indices. They are false for repeated indices (subSelectT_repeated_not_adjoint)."
  },
  {
   "property": "C21",
   "status": "partial",
   "theorems": [
    "Verif.BlockOps.rearrange_merges_partial",
    "Verif.BlockOps.rearrangeT_splits",
    "Verif.BlockOps.rearrange_roundtrip",
    "Verif.BlockOps.rearrange_roundtrip'",
    "Verif.BlockOps.rearrange_isometry",
    "Verif.BlockOps.reduction_isPartition",
    "Verif.BlockOps.reduction_zero_offset_fails"
   ],
   "note": "All laws for mappings which partition the blocks into nonempty groups. Offsets starting with 0 are accepted by the constructor but every application fails (reduction_zero_offset_fails)."
  },
  {
   "property": "C22",
   "status": "partial",
   "theorems": [
    "Verif.BlockOps.regroup_roundtrip_partial",
    "Verif.BlockOps.regroup_single_fails"
   ],
   "note": "Holds for all accepted offsets except [1], for which it is false (regroup_single_fails)."
  },
  {
   "property": "C23",
   "status": "partial",
   "theorems": [
    "Verif.BlockOps.vectorized_componentwise_partial",
    "Verif.BlockOps.vectorized_checks",
    "Verif.BlockOps.vectorized_accepted",
    "Verif.BlockOps.vectorized_list_fails"
   ],
   "note": "Holds for a mixed space, every operator the constructor accepts and every history of applications; the constructor always raises for a list of spaces (vectorized_list_fails)."
  },
  {
   "property": "C24",
   "status": "partial",
   "theorems": [
    "Verif.MatFree.columnConvert_acts",
    "Verif.MatFree.femCollapse_acts_partial",
    "Verif.MatFree.femCollapse_needs_zero"
   ],
   "note": "Proved for every linear operator and history when create_vec returns a zero vector; femCollapse_needs_zero shows that collapse is wrong if the vector pool hands out a used vector."
  },
  {
   "property": "C25",
   "status": "partial",
   "theorems": [
    "Verif.Krylov.matvec_flattens_partial",
    "Verif.Krylov.matvec_rectangular_fails",
    "Verif.Krylov.solve_solves"
   ],
   "note": "Holds for operators with equal row and column sizes; for all others the wrapper raises for every vector (matvec_rectangular_fails)."
  },
  {
   "property": "C26",
   "status": "partial",
   "theorems": [
    "Verif.Hsmg.collect_sums_partial",
    "Verif.Hsmg.collect_accepts",
    "Verif.Hsmg.collect_only"
   ],
   "note": "The sum of the returned terms is the combination for every accepted expression. Not all linear combinations are accepted: scaled sums are refused (collect_only characterises the accepted ones)."
  },
  {
   "property": "C27",
   "status": "proved",
   "theorems": [
    "Verif.BlockForm.add_history",
    "Verif.BlockForm.belongs_unique",
    "Verif.BlockForm.belongs_inside",
    "Verif.BlockForm.add_accepts",
    "Verif.BlockForm.add_history_linear",
    "Verif.BlockForm.add_accepts_linear",
    "Verif.BlockForm.add_not_atomic",
    "Verif.BlockForm.assign_accepts",
    "Verif.BlockForm.assign_accepts_linear",
    "Verif.BlockForm.blocks_fit"
   ],
   "note": "Histories of add calls including failing ones. add_not_atomic records that a failing add keeps the integrals in front of the misplaced one."
  },
  {
   "property": "C28",
   "status": "partial",
   "theorems": [
    "Verif.BlockForm.addForms_entrywise",
    "Verif.BlockForm.addForms_entrywise_linear",
    "Verif.BlockForm.addForms_rejects",
    "Verif.BlockForm.permute_permutes_partial",
    "Verif.BlockForm.permute_permutes_linear",
    "Verif.BlockForm.permute_back",
    "Verif.BlockForm.permuteSpaces_orders",
    "Verif.BlockForm.permute_single_fails"
   ],
   "note": "Proved for forms over two or more spaces. For one space the code rejects even the identity (permute_single_fails)."
  },
  {
   "property": "C29",
   "status": "partial",
   "theorems": [
    "Verif.BlockForm.makeSelfadjoint_partial",
    "Verif.BlockForm.makeSelfadjoint_rejects",
    "Verif.BlockForm.makeSelfadjoint_diagonal_wrong",
    "Verif.Ufl.adjoint_swaps",
    "Verif.Ufl.swap_swap",
    "Verif.Ufl.adjoint_same_space_wrong",
    "Verif.Ufl.adjoint_drops_annotations"
   ],
   "note": "Off-diagonal blocks: proved for distinct spaces and arguments annotated only by trace/restriction/average. Diagonal blocks are not made self-adjoint, other annotations are dropped, equal spaces give a wrong adjoint: shown by the counterexamples."
  },
  {
   "property": "C30",
   "status": "partial",
   "theorems": [
    "Verif.Ufl.replace_substitutes",
    "Verif.Ufl.replace_composite_partial",
    "Verif.Ufl.replace_ignores_unlisted",
    "Verif.Ufl.replace_composite_wrong"
   ],
   "note": "Terminal targets: replace substitutes exactly for the terminals that are the same. Composite targets: false, shown by replace_composite_wrong (annotations ignored, extra operands not compared)."
  },
  {
   "property": "C31",
   "status": "partial",
   "theorems": [
    "Verif.Reduced.assemble_represents_partial",
    "Verif.Reduced.assemble_terminates",
    "Verif.Reduced.assemble_ignores_unrecognised",
    "Verif.Reduced.equal_integrals_rejected"
   ],
   "note": "Proved for every form, order of terminals and list of assemblers whenever a tensor is returned and annotations are recognised. Annotations no assembler recognises are silently ignored (assemble_ignores_unrecognised); sums of integrals differing only in an annotation are refused (equal_integrals_rejected)."
  },
  {
   "property": "C32",
   "status": "partial",
   "theorems": [
    "Verif.Memo.cache_transparent_iff",
    "Verif.Memo.cache_transparent_on",
    "Verif.Memo.interpolation_cache_transparent",
    "Verif.Memo.mean_cache_transparent",
    "Verif.Memo.transpose_trace_cache_transparent",
    "Verif.Memo.average_cache_transparent_partial",
    "Verif.Memo.restriction_cache_transparent_partial",
    "Verif.Memo.trace_cache_transparent_partial",
    "Verif.Memo.trace_cache_not_transparent",
    "Verif.Memo.gradient_point_trace_cache_not_transparent",
    "Verif.Memo.point_trace_cache_transparent_partial",
    "Verif.Memo.injection_cache_not_transparent",
    "Verif.Memo.injection_cache_transparent_partial",
    "Verif.Memo.patch_cache_transparent_iff"
   ],
   "note": "Exact criterion for all histories (cache_transparent_iff). Transparent caches are proved so; trace (marking function), gradient point trace (tangent) and injection (method) are proved not to be."
  },
  {
   "property": "C33",
   "status": "proved",
   "theorems": [
    "Verif.DofMat.restriction_evaluates_dofs",
    "Verif.DofMat.restriction_missing_parent",
    "Verif.DofMat.restriction_mat_checks",
    "Verif.DofMat.interpolation_evaluates_dofs",
    "Verif.DofMat.interpolation_checks",
    "Verif.DofMat.nonconforming_evaluates_dofs",
    "Verif.Trace.no_restrict_evaluates_dofs",
    "Verif.Trace.one_restrict_evaluates_dofs",
    "Verif.Trace.dlt_injects",
    "Verif.Trace.no_restrict_map_error",
    "Verif.Trace.one_restrict_fallback"
   ],
   "note": "For all meshes, dof maps and linear dofs. Assumed: cells of a Discontinuous Lagrange space share no dofs (contract of dolfin), and tags are distinct, which Trace ensures by making them a set (trace_form.py:114, 126) but a direct call of trace_mat_no_restrict with a list does not. The dofs and basis functions of an element, the collisions and the embedding map are parameters."
  },
  {
   "property": "C34",
   "status": "partial",
   "theorems": [
    "Verif.Trace.one_restrict_sides",
    "Verif.Trace.one_restrict_sides_differ",
    "Verif.Trace.one_restrict_boundary",
    "Verif.Trace.two_restrict_evaluates_partial",
    "Verif.Trace.jump_is_reversed",
    "Verif.Trace.jump_not_plus_minus_minus",
    "Verif.Trace.trace_mat_two_sided_raises",
    "Verif.Trace.trace_mat_selects"
   ],
   "note": "The two sides use different cells, avg and jump (called directly) are the mean and difference. The rest is false: one-sided traces use the opposite sides so jump = minus - plus, and avg/jump always raise through Trace."
  },
  {
   "property": "C35",
   "status": "partial",
   "theorems": [
    "Verif.Average.average_general",
    "Verif.Average.average_is_mean_partial",
    "Verif.Average.average_of_constant",
    "Verif.Average.average_outside",
    "Verif.Average.average_of_constant_wrong_outside",
    "Verif.Average.trace3d1d_evaluates",
    "Verif.Average.avg_mat_checks",
    "Verif.Average.measure_function",
    "Verif.Average.avg_mat_shape_partial",
    "Verif.Average.avg_mat_curve",
    "Verif.Average.avg_mat_midpoints",
    "Verif.Average.avg_mat_curve_refused"
   ],
   "note": "Proved for all meshes, shapes and vectors when the quadrature points are in the mesh. Points outside are skipped but counted in the measure, so constants are not reproduced (average_of_constant_wrong_outside); average_general gives the exact value in all cases."
  },
  {
   "property": "C36",
   "status": "partial",
   "theorems": [
    "Verif.Shape.radius_number_positive",
    "Verif.Shape.circle_quadrature_partial",
    "Verif.Shape.circle_points_on_circle",
    "Verif.Shape.circle_quadrature_parametrised",
    "Verif.Shape.circle_zero_normal",
    "Verif.Shape.circle_quadrature_normal",
    "Verif.Shape.disk_quadrature_at",
    "Verif.Shape.disk_points_in_disk",
    "Verif.Shape.circle_not_in_plane"
   ],
   "note": "Distances and weights exact for all parameters; the plane is exact unless the normal is within 1e-13 of vertical, in which case the distance from the plane is at most R*1e-13 (and not zero: circle_not_in_plane)."
  },
  {
   "property": "C37",
   "status": "partial",
   "theorems": [
    "Verif.Shape.square_quadrature",
    "Verif.Shape.square_quadrature_exact",
    "Verif.Shape.square_checks_plane",
    "Verif.Shape.rim_quadrature_partial"
   ],
   "note": "Proved for corners in the plane of the centre; corners off the plane by 1e-13 or more are refused. In between, the Square is proved to be the square around the projected centre, so not around x0 as stated; the SquareRim is then a square with one corner moved out of the plane (C99)."
  },
  {
   "property": "C38",
   "status": "partial",
   "theorems": [
    "Verif.DiskQuad.disk_quadrature_total",
    "Verif.DiskQuad.disk_quadrature_symmetric",
    "Verif.DiskQuad.disk_quadrature_odd",
    "Verif.DiskQuad.disk_quadrature_exact_partial",
    "Verif.DiskQuad.disk_quadrature_area",
    "Verif.DiskQuad.degree_11_is_wrong",
    "Verif.DiskQuad.nodes_in_disk",
    "Verif.DiskQuad.weights_positive"
   ],
   "note": "Exactness for all polynomials against the Lebesgue integral over the disk, up to rounding, for degrees 0-9 and 12-15; degrees 16-19 only to 8e-7; degrees 10, 11 are wrong in the code (degree_11_is_wrong)."
  },
  {
   "property": "C39",
   "status": "partial",
   "theorems": [
    "Verif.Patch.patch_mat",
    "Verif.Patch.patch_mat_empty",
    "Verif.Patch.patch_mat_coloring_partial",
    "Verif.Patch.patch_mat_points",
    "Verif.Patch.patch_mat_refused",
    "Verif.Patch.coloring_agrees",
    "Verif.Patch.coloring_shared_patch_wrong",
    "Verif.Patch.coloring_neighbours_wrong"
   ],
   "note": "Without colouring: proved for all colours. With colouring: proved when patches of a group share no dofs and no two dofs have the same patch; otherwise the code is wrong (the two counterexample theorems)."
  },
  {
   "property": "C40",
   "status": "partial",
   "theorems": [
    "Verif.Embedded.embedded_mesh_represents_partial",
    "Verif.Embedded.embedded_mesh_vertices",
    "Verif.Embedded.embedded_mesh_raises",
    "Verif.Embedded.embedded_mesh_repeated_marker",
    "Verif.Embedded.sampleSubMesh_ok"
   ],
   "note": "All meshes and marker functions; repeated markers on facets give repeated cells (embedded_mesh_repeated_marker), so the property is false there. The contract of dolfin SubMesh is a hypothesis in the cell function case."
  },
  {
   "property": "C41",
   "status": "proved",
   "theorems": [
    "Verif.Embedded.Represents.isEmbedding",
    "Verif.Embedded.translate_markers_correct",
    "Verif.Embedded.transfer_markers_correct"
   ],
   "note": "All simplicial meshes, tags and initial values."
  },
  {
   "property": "C42",
   "status": "partial",
   "theorems": [
    "Verif.Embedding.embedding_map_sound",
    "Verif.Embedding.embedding_map_fails",
    "Verif.Embedding.embedding_map_complete",
    "Verif.Embedding.embedding_map_all_iff",
    "Verif.Embedding.embedding_map_one_cell",
    "Verif.Embedding.embedding_map_needs_subdomains",
    "Verif.Embedding.overlap_sound_partial",
    "Verif.Embedding.overlap_sound_intervals",
    "Verif.Embedding.overlap_wrong",
    "Verif.Embedding.compute_embedding_sound",
    "Verif.Embedding.compute_embedding_twice"
   ],
   "note": "build_embedding_map and compute_embedding: soundness, and failure without a parent, for all meshes. OverlapMesh: false in general (overlap_wrong), proved when the first vertices share a cell, in particular for intervals."
  },
  {
   "property": "C43",
   "status": "partial",
   "theorems": [
    "Verif.Embedding.entity_map_first",
    "Verif.Embedding.entity_map_stays",
    "Verif.Embedding.entity_map_history_partial",
    "Verif.Embedding.entity_map_not_mapped",
    "Verif.Embedding.entity_map_two_meshes"
   ],
   "note": "All histories for one mesh from a plain trace mesh or the parent of an EmbeddedMesh; false in the other cases (counterexample theorems)."
  },
  {
   "property": "C44",
   "status": "partial",
   "theorems": [
    "Verif.Mortar.mortar_interface",
    "Verif.Mortar.mortar_no_interface",
    "Verif.Mortar.mortar_meshes_partial",
    "Verif.Mortar.mortar_local_cell",
    "Verif.Mortar.mortar_raises",
    "Verif.Mortar.mortar_not_found"
   ],
   "note": "The interface mesh, its colours and the adjacent cells: proved for all meshes. The maps to the subdomains are wrong in the code (the cell number of the parent mesh is used in the submesh): exact behaviour in mortar_meshes_partial, counterexamples mortar_raises and mortar_not_found."
  },
  {
   "property": "C45",
   "status": "partial",
   "theorems": [
    "Verif.Branch.color_branches_partial",
    "Verif.Branch.color_branches_all",
    "Verif.Branch.color_branches_closed",
    "Verif.Branch.color_branches_iff",
    "Verif.Branch.color_branches_two_loops",
    "Verif.Branch.color_branches_loop_uncoloured"
   ],
   "note": "All line meshes and all orders of set.pop: proved when every cell is on a branch with a tip or branching vertex, or the mesh is one closed curve. False for separate closed curves (the last two theorems)."
  },
  {
   "property": "C46",
   "status": "partial",
   "theorems": [
    "Verif.Branch.walk_cells_branch",
    "Verif.Branch.walk_cells_loop",
    "Verif.Branch.walk_vertices_follow_partial"
   ],
   "note": "All open and closed curves of marked cells, of any length and numbering. walk_vertices is only covered for mesh functions on more than one cell: the code asserts this, and fails for a Mesh argument."
  },
  {
   "property": "C47",
   "status": "partial",
   "theorems": [
    "Verif.Contour.refine_contour_partial",
    "Verif.Contour.refine_contour_negative",
    "Verif.Contour.refine_open"
   ],
   "note": "All closed contours and numbers of refinements; false for open contours, whose last point is replaced by the first (refine_open)."
  },
  {
   "property": "C48",
   "status": "partial",
   "theorems": [
    "Verif.Refine.refine_tiles",
    "Verif.Refine.centroid_refine_tiles",
    "Verif.Refine.point_is_inside_complete",
    "Verif.Refine.point_is_inside_sound_partial",
    "Verif.Refine.point_outside_accepted",
    "Verif.Refine.intArea_barycentric",
    "Verif.Refine.triArea_barycentric",
    "Verif.Refine.tetArea_barycentric"
   ],
   "note": "All meshes and numbers of refinements: proved for centroid_refine and whenever new points are inside their cells. The check of new points is exact only for tolerances up to 2E-15 (point_is_inside_sound_partial); a point slightly outside is accepted and the children do not tile (point_outside_accepted). C81 has more about centroids."
  },
  {
   "property": "C49",
   "status": "partial",
   "theorems": [
    "Verif.Contour.line_mesh_partial",
    "Verif.Contour.line_mesh_cells",
    "Verif.Contour.line_mesh_shared",
    "Verif.Contour.line_mesh_segment",
    "Verif.Contour.line_mesh_closed",
    "Verif.Contour.straight_line_partial",
    "Verif.Contour.straight_line_one"
   ],
   "note": "All lists of branches. False for branches of two points, whose cell is lost, and for a closed first branch, whose ends are not merged."
  },
  {
   "property": "C50",
   "status": "partial",
   "theorems": [
    "Verif.Union.union_two_partial",
    "Verif.Union.union_two_total",
    "Verif.Union.union_leafs",
    "Verif.Union.union_small",
    "Verif.Union.union_many",
    "Verif.Union.union_gap",
    "Verif.Union.union_closed",
    "Verif.Union.union_changes_leafs"
   ],
   "note": "Unions of one or two meshes and any nesting of them. union_mesh of three or more meshes always raises in Python 3 (union_many); meshes without boundary, and meshes whose whole boundary is shared, can raise (union_closed, union_gap); the leafs of the first mesh are changed (union_changes_leafs)."
  },
  {
   "property": "C51",
   "status": "partial",
   "theorems": [
    "Verif.Center.circumcenter_correct",
    "Verif.Center.circumcenter_total_partial",
    "Verif.Center.circumcenter_unique",
    "Verif.Center.circumcenter_intervals",
    "Verif.Center.solves_inv"
   ],
   "note": "All nondegenerate triangles and tetrahedra, and intervals in the plane; intervals on the line and in the space are refused by the code (circumcenter_intervals). Exact arithmetic; the linear solver of Eigen is assumed to solve regular systems."
  },
  {
   "property": "C52",
   "status": "partial",
   "theorems": [
    "Verif.Collapse.get_dims_partial",
    "Verif.Collapse.get_dims_wrong"
   ],
   "note": "Holds when the numbers of a product come last or the product is number times operator; false otherwise (get_dims_wrong)."
  },
  {
   "property": "C53",
   "status": "partial",
   "theorems": [
    "Verif.Jacobian.derivative_correct_partial",
    "Verif.Jacobian.block_jacobian_correct_partial",
    "Verif.Jacobian.block_jacobian_accepts",
    "Verif.Jacobian.derivative_expression",
    "Verif.Jacobian.derivative_mean_wrong"
   ],
   "note": "For supported residuals ii_derivative returns an entry whose value at the trial function w is the (Fr\u00e9chet-type) derivative of eps -> F(u + eps w), for arbitrary differentiable integrands; block_jacobian has these entries. False in general: coefficients without a vector (Expression) raise, annotations other than trace, average and restriction are not carried over to the trial function (derivative_mean_wrong). The expansion of CoefficientDerivative by UFL is trusted."
  },
  {
   "property": "C54",
   "status": "partial",
   "theorems": [
    "Verif.Annotate.annotation_copies_partial",
    "Verif.Annotate.annotation_returns",
    "Verif.Annotate.annotations_history",
    "Verif.Annotate.annotations_history_arguments",
    "Verif.Annotate.annotation_shares_vector",
    "Verif.Annotate.point_trace_changes_argument",
    "Verif.Annotate.point_traces_collide"
   ],
   "note": "All histories of the twelve annotations with nesting and failing calls. False for PointTrace and GradientPointTrace of functions, which annotate the function itself (point_trace_changes_argument); two point traces of one function are one object."
  },
  {
   "property": "C55",
   "status": "partial",
   "theorems": [
    "Verif.Hsmg.inverse_inverts_partial",
    "Verif.Hsmg.inverse_mixed_wrong",
    "Verif.Hsmg.power_unique"
   ],
   "note": "Holds for powers of the same pair of matrices; for different ones, which pass the checks, it is false (inverse_mixed_wrong)."
  },
  {
   "property": "C56",
   "status": "partial",
   "theorems": [
    "Verif.Gmsh.import_sound_partial",
    "Verif.Gmsh.import_accepts",
    "Verif.Gmsh.model_elements",
    "Verif.Gmsh.model_accepts",
    "Verif.Gmsh.model_nodes",
    "Verif.Gmsh.gmsh_cells",
    "Verif.Gmsh.tetrahedra_refused",
    "Verif.Gmsh.gaps_refused",
    "Verif.Gmsh.model_nodes_false"
   ],
   "note": "For data of segments and triangles. False for tetrahedra, which are always refused, for nodes without a cell (KeyError) and for node tags with gaps (model_nodes_false). The API of gmsh, MeshEditor and the entity numbering are parameters."
  },
  {
   "property": "C57",
   "status": "partial",
   "theorems": [
    "Verif.Dual.dual_once_partial",
    "Verif.Dual.dual_refined",
    "Verif.Dual.dual_areas",
    "Verif.Dual.dual_dims",
    "Verif.Dual.dual_circumcenter_false",
    "Verif.Dual.dual_once_conforming",
    "Verif.Dual.dual_refined_conforming"
   ],
   "note": "All triangle meshes and refinements for centroids, one refinement for any centers inside of their cells. False for circumcenters of obtuse triangles; intervals and tetrahedra are refused."
  },
  {
   "property": "C58",
   "status": "partial",
   "theorems": [
    "Verif.PointTrace.cg_scalar_value_partial",
    "Verif.PointTrace.cg_outside",
    "Verif.PointTrace.dg_value",
    "Verif.PointTrace.dg_jump",
    "Verif.PointTrace.dg_not_incident",
    "Verif.PointTrace.gradient_value",
    "Verif.PointTrace.accepted",
    "Verif.PointTrace.gradient_accepted",
    "Verif.PointTrace.one_kind_always_raises",
    "Verif.PointTrace.cg_vector_wrong",
    "Verif.PointTrace.gradient_constants_refused"
   ],
   "note": "Scalar spaces, each kind under the signature of evaluate_basis_all which it assumes. The kinds assume different ones, so one of them always raises; vector valued Lagrange spaces get wrong values; zero derivatives are refused."
  },
  {
   "property": "C59",
   "status": "partial",
   "theorems": [
    "Verif.PointTrace.flux_is_mean_partial",
    "Verif.PointTrace.flux_of_constant",
    "Verif.PointTrace.flux_circle",
    "Verif.PointTrace.flux_accepts"
   ],
   "note": "All spaces and shapes whose rule has as many normals as points. Points outside of the mesh count in the measure only, as in C35. For circles the tangent is not nearly vertical (see C36)."
  },
  {
   "property": "C60",
   "status": "partial",
   "theorems": [
    "Verif.Dispatch.assemble_all_partial",
    "Verif.Dispatch.assemble_all_terminates",
    "Verif.Dispatch.trace_is_taken",
    "Verif.Dispatch.annotated_is_taken",
    "Verif.Dispatch.forgotten_trace_raises",
    "Verif.Dispatch.average_and_flux_raise",
    "Verif.Dispatch.restriction_and_injection_raise",
    "Verif.Dispatch.facet_integrals_ignored"
   ],
   "note": "All forms and mixtures, given the matrices of the reductions (treated in their own claims). False where the annotation does not go with the measure: traces in facet integrals are ignored. A forgotten reduction is refused for codimension one, in an integral without other reductions. Some mixtures always raise."
  },
  {
   "property": "C61",
   "status": "partial",
   "theorems": [
    "Verif.Elements.trace_cell_ok",
    "Verif.Elements.trace_cell_iff",
    "Verif.Elements.transpose_cell_inverse",
    "Verif.Elements.average_cell_ok",
    "Verif.Elements.trace_element",
    "Verif.Elements.trace_shape_partial",
    "Verif.Elements.alike_shape",
    "Verif.Elements.trace_tensor_wrong",
    "Verif.Elements.average_element",
    "Verif.Elements.average_mesh_refused",
    "Verif.Elements.average_vector_shape",
    "Verif.Elements.average_vector_wrong",
    "Verif.Elements.flux_element",
    "Verif.Elements.transpose_element",
    "Verif.Elements.transpose_family_refused",
    "Verif.Elements.transpose_vector_wrong",
    "Verif.Elements.extension_element",
    "Verif.Elements.extension_vector_wrong",
    "Verif.Elements.point_element",
    "Verif.Elements.point_element_none",
    "Verif.Elements.mean_element",
    "Verif.Elements.mean_mesh_refused",
    "Verif.Elements.surface_mean_element",
    "Verif.Elements.gradient_point_element",
    "Verif.Elements.trace_discontinuous",
    "Verif.Elements.average_discontinuous",
    "Verif.Elements.extension_discontinuous",
    "Verif.Elements.values_real",
    "Verif.Elements.average_returns_iff",
    "Verif.Elements.average_shape_iff",
    "Verif.Elements.average_mixed",
    "Verif.Elements.trace_alike_iff",
    "Verif.Elements.extension_alike_iff",
    "Verif.Elements.transpose_alike_iff"
   ],
   "note": "The exact condition is proved for every kind and all nested elements: square tensors for traces, components given by the number of coordinates for the others (and continuous parts for transposed traces). False for other vectors and tensors, which get another shape."
  },
  {
   "property": "C62",
   "status": "partial",
   "theorems": [
    "Verif.CenterVec.center_vector_partial",
    "Verif.CenterVec.circum_distance",
    "Verif.CenterVec.centroid_distance",
    "Verif.CenterVec.circum_distance2",
    "Verif.CenterVec.delaunay_plane_always",
    "Verif.CenterVec.delaunay_interior_always",
    "Verif.CenterVec.delaunay_not_a_number",
    "Verif.CenterVec.distance2_origin",
    "Verif.CenterVec.not_delaunay_accepted",
    "Verif.CenterVec.centroid_distance2_wrong",
    "Verif.CenterVec.delaunay_refused"
   ],
   "note": "Vectors, lengths and CircumDistance2 on all meshes, unless all centers are the origin. False of CentroidDistance2 and of is_delaunay, which is zero on all meshes of triangles whose centers differ. The assembly over facets is taken facet by facet."
  },
  {
   "property": "C63",
   "status": "partial",
   "theorems": [
    "Verif.Normal.expression_oriented",
    "Verif.Normal.point_oriented",
    "Verif.Normal.default_outward_partial",
    "Verif.Normal.marker_oriented",
    "Verif.Normal.marker_independent",
    "Verif.Normal.marker_equal_arbitrary",
    "Verif.Normal.mesh_oriented",
    "Verif.Normal.not_parent_refused",
    "Verif.Normal.inner_normal",
    "Verif.Normal.default_straight",
    "Verif.Normal.numbering_matters"
   ],
   "note": "All meshes and orientations. The default is outward for convex surfaces only; the mesh gives zero on interior facets; equal markers give an arbitrary sign; the dofs have to be numbered by cells."
  },
  {
   "property": "C64",
   "status": "partial",
   "theorems": [
    "Verif.Tangent.tangent_unit",
    "Verif.Tangent.tangent_tree_partial",
    "Verif.Tangent.tangent_consistent",
    "Verif.Tangent.root_refused",
    "Verif.Tangent.tangent_loop",
    "Verif.Tangent.wind_number_refuses",
    "Verif.Tangent.normal_unit",
    "Verif.Tangent.encloses_wrong",
    "Verif.Tangent.normal_wrong"
   ],
   "note": "Unit tangents on all curves, one direction on all trees. False of every loop whose cells list their vertices in increasing order, and so of NormalCurve and encloses_points. dfs_edges of networkx is given by its contract."
  },
  {
   "property": "C65",
   "status": "partial",
   "theorems": [
    "Verif.Tangent.wind_open_refused",
    "Verif.Tangent.wind_total",
    "Verif.Tangent.wind_reverse",
    "Verif.Tangent.inside_reverse_partial",
    "Verif.Tangent.wind_start",
    "Verif.Tangent.wind_translate",
    "Verif.Tangent.outside_accepted",
    "Verif.Tangent.inside_missed"
   ],
   "note": "Reversal, first point and translation for all polygons. False that points inside are told from points outside."
  },
  {
   "property": "C66",
   "status": "partial",
   "theorems": [
    "Verif.Collide.segments_near",
    "Verif.Collide.segments_found",
    "Verif.Collide.segments_exact_partial",
    "Verif.Collide.segments_symmetric",
    "Verif.Collide.triangle_near",
    "Verif.Collide.triangle_found",
    "Verif.Collide.triangle_exact",
    "Verif.Collide.segments_never",
    "Verif.Collide.triangle_never",
    "Verif.Collide.overlap_missed",
    "Verif.Collide.space_missed",
    "Verif.Collide.plane_missed",
    "Verif.Collide.bbox_tight",
    "Verif.Collide.box_collides_raises"
   ],
   "note": "Exact for segments in the plane which are not parallel and for segments and triangles in space in general position. False of the other positions, where the answer is always no. np.linalg.solve is given by its contract, arithmetic is exact."
  },
  {
   "property": "C67",
   "status": "partial",
   "theorems": [
    "Verif.Extension.uniform_nearest_partial",
    "Verif.Extension.uniform_components",
    "Verif.Extension.uniform_constant",
    "Verif.Extension.uniform_keeps",
    "Verif.Extension.uniform_refused",
    "Verif.Extension.extension_checks",
    "Verif.Extension.extension_other",
    "Verif.Extension.intersecting_accepted",
    "Verif.Extension.components_wrong"
   ],
   "note": "Nearest values for all scalar, vector and tensor spaces of matching shape. False that other types, intersecting domains and vectors of different shape are refused. The harmonic extension is C77."
  },
  {
   "property": "C68",
   "status": "partial",
   "theorems": [
    "Verif.Nest.nest_close",
    "Verif.Nest.nest_exact_partial",
    "Verif.Nest.nest_diagonal",
    "Verif.Nest.nest_number_wrong",
    "Verif.Nest.nest_precond_none",
    "Verif.Nest.nest_vec",
    "Verif.Nest.pc_mat_action",
    "Verif.Nest.pc_mat_refused",
    "Verif.Nest.pc_nest_plain",
    "Verif.Nest.pc_nest_grouped",
    "Verif.Nest.pc_nest_offdiagonal",
    "Verif.Nest.pc_nest_shape",
    "Verif.Nest.pc_nest_different",
    "Verif.Nest.pc_nest_regrouped",
    "Verif.Nest.pc_nest_overlap",
    "Verif.Nest.pc_nest_single_refused"
   ],
   "note": "All block matrices of matrices and zeros, all diagonal preconditioners and all offsets which do not start with 0. False of numbers as blocks, of preconditioners as blocks of the matrix, of offsets which start with 0 and of regrouping one index set. PETSc solver types, index set unions and createNest are given by their contracts."
  },
  {
   "property": "C69",
   "status": "partial",
   "theorems": [
    "Verif.Reshape.reshape_entries",
    "Verif.Reshape.reshape_action_partial",
    "Verif.Reshape.reshape_mixed_refused",
    "Verif.Reshape.regroup_parts",
    "Verif.Reshape.reshape_drops",
    "Verif.Reshape.diag_action",
    "Verif.Reshape.identity_action",
    "Verif.Reshape.row_entries",
    "Verif.Reshape.row_refused",
    "Verif.Reshape.zero_entries",
    "Verif.Reshape.zero_no_columns"
   ],
   "note": "Blocks for all square matrices and offsets, the action when all groups have one block or all have several; false for mixed groups and for offsets which end too early. The products of block matrices and the formats of scipy are given by their meaning."
  },
  {
   "property": "C70",
   "status": "partial",
   "theorems": [
    "Verif.CollapseIter.collapse_returns_partial",
    "Verif.CollapseIter.numbers_last_raise",
    "Verif.CollapseIter.shared_raises",
    "Verif.CollapseIter.same_object_raises",
    "Verif.CollapseIter.other_raises",
    "Verif.CollapseIter.other_diverges"
   ],
   "note": "All conforming trees of distinct operator objects, all orders of rewriting, with a bound on the rounds independent of the order, if str of a matrix is new in every step. False for two numbers after the last matrix of a product (numbers_last_raise), for operator objects which occur twice, for operands with the same str and for other objects."
  },
  {
   "property": "C71",
   "status": "partial",
   "theorems": [
    "Verif.DofMat.injection_interpolate_partial",
    "Verif.DofMat.injection_project",
    "Verif.DofMat.injection_fallback_raises",
    "Verif.DofMat.injection_returns_iff",
    "Verif.DofMat.fineToCoarse_sorted",
    "Verif.DofMat.fineToCoarse_wrong"
   ],
   "note": "Interpolation is the transfer matrix of dolfin, a parameter of the model, and projection is refused. False of other methods: the fallback uses mat before it is assigned (injection_fallback_raises). Its list of parents is right for items sorted by fine cell (fineToCoarse_sorted) and wrong for some other order (fineToCoarse_wrong). The cache in front of it is not part of this claim."
  },
  {
   "property": "C72",
   "status": "partial",
   "theorems": [
    "Verif.IIFunction.new_functions",
    "Verif.IIFunction.from_vectors",
    "Verif.IIFunction.wrong_number_refused",
    "Verif.IIFunction.wrong_size_refused",
    "Verif.IIFunction.from_functions",
    "Verif.IIFunction.accepted_components",
    "Verif.IIFunction.wrong_space_accepted",
    "Verif.IIFunction.no_components_raise",
    "Verif.IIFunction.vector_entry",
    "Verif.IIFunction.set_vector_entry",
    "Verif.IIFunction.shared_components",
    "Verif.IIFunction.item",
    "Verif.IIFunction.last_item",
    "Verif.IIFunction.interpolate_partial",
    "Verif.IIFunction.interpolate_wrong_number",
    "Verif.IIFunction.interpolate_exchange_loses",
    "Verif.IIFunction.interpolate_not_atomic"
   ],
   "note": "False of functions in other spaces, which are accepted, of components which share a vector, and of interpolation from components of the same function which are assigned before. Slices, rename, randomize and the list of the caller are in C110. Assumed of dolfin: Function(V) has a new zero vector, Function(V, x) shares x, and a nested vector refers to its parts."
  },
  {
   "property": "C73",
   "status": "partial",
   "theorems": [
    "Verif.PetscWrap.mult_block_partial",
    "Verif.PetscWrap.multTranspose_block",
    "Verif.PetscWrap.mult_plain",
    "Verif.PetscWrap.multTranspose_plain",
    "Verif.PetscWrap.mult_not_nested",
    "Verif.PetscWrap.no_nullspace",
    "Verif.PetscWrap.nullspace_correct_iff",
    "Verif.PetscWrap.nullspace_wrong"
   ],
   "note": "mult, multTranspose, apply and applyTranspose for all operators and contents of y. False of the null space, which always has the constants (nullspace_wrong), if the arguments of PETSc.NullSpace mean what they are called. The products by the operator and its transpose are parameters, x and y are different vectors, and sums are exact."
  },
  {
   "property": "C74",
   "status": "partial",
   "theorems": [
    "Verif.Continuous.continuous_curve",
    "Verif.Continuous.continuous_surface_partial",
    "Verif.Continuous.surface_touching_accepted",
    "Verif.Continuous.continuous_refused"
   ],
   "note": "Proved for all meshes of curves. For surfaces the function decides whether neighbours have a common vertex (continuous_surface_partial), which is weaker than a common edge (surface_touching_accepted). number_connected_components of networkx is modelled by reachability."
  },
  {
   "property": "C75",
   "status": "proved",
   "theorems": [
    "Verif.SurfaceMean.surface_mean_is_mean",
    "Verif.SurfaceMean.mean_of_constant",
    "Verif.SurfaceMean.surface_mean_no_area",
    "Verif.SurfaceMean.surface_mean_checks"
   ],
   "note": "The trace on a cell is taken from the first cell connected to the facet. Assembly of the row of integrals by dolfin is a contract; integrals over cells are linear functionals. Surfaces with an embedding map into the mesh."
  },
  {
   "property": "C76",
   "status": "partial",
   "theorems": [
    "Verif.TransposeTrace.transpose_trace_pairs_partial",
    "Verif.TransposeTrace.transpose_trace_unmatched",
    "Verif.TransposeTrace.transpose_trace_assembly_raises",
    "Verif.TransposeTrace.transpose_trace_accepts"
   ],
   "note": "transpose_trace_mat called with the space on the full mesh first is the transpose of the trace (transpose_trace_pairs_partial). False of assembled forms: the assembler passes the spaces in the other order and always raises (transpose_trace_assembly_raises)."
  },
  {
   "property": "C77",
   "status": "partial",
   "theorems": [
    "Verif.Harmonic.harmonic_solves_screened_partial",
    "Verif.Harmonic.harmonic_not_documented",
    "Verif.Harmonic.harmonic_ignores_marks",
    "Verif.Harmonic.harmonic_refuses"
   ],
   "note": "Proved for the problem u - Delta u = delta f with natural boundary conditions, for regular systems and a create_vec which returns zeros (see C24). False of the documented problem (harmonic_not_documented); the marking is not used (harmonic_ignores_marks)."
  },
  {
   "property": "C78",
   "status": "proved",
   "theorems": [
    "Verif.Krylov.krylov_solve_solves",
    "Verif.Krylov.krylov_solve_fails",
    "Verif.Krylov.krylov_preconditioner"
   ],
   "note": "The Krylov method is a parameter: it returns an array and a status or raises."
  },
  {
   "property": "C79",
   "status": "partial",
   "theorems": [
    "Verif.Krylov.scipy_residuals_are_not"
   ],
   "note": "False: the callback of scipy gets the iterates, and their norms are recorded."
  },
  {
   "property": "C80",
   "status": "proved",
   "theorems": [
    "Verif.Dual.dual_refined",
    "Verif.Dual.dual_refined_conforming",
    "Verif.Dual.dual_areas"
   ],
   "note": "The connectivity computed by dolfin is given by its contract: the facets of a cell are its edges, and cells with a common edge share the facet."
  },
  {
   "property": "C81",
   "status": "proved",
   "theorems": [
    "Verif.Refine.centroid_refine_conforming",
    "Verif.Refine.refine_conforming",
    "Verif.Refine.centroid_refine_tiles",
    "Verif.Refine.refine_tiles",
    "Verif.Refine.centroid_refine_total",
    "Verif.Refine.centroid_refine_small",
    "Verif.Refine.intArea_barycentric",
    "Verif.Refine.triArea_barycentric",
    "Verif.Refine.tetArea_barycentric",
    "Verif.Refine.segArea_barycentric",
    "Verif.Refine.surfArea_barycentric"
   ],
   "note": "In exact arithmetic. Barycentric, the hypothesis on simplex_area, is proved for all its branches: segments in any dimension, triangles in the plane and in space, and tetrahedra."
  },
  {
   "property": "C82",
   "status": "proved",
   "theorems": [
    "Verif.TraceForm.trace_localised",
    "Verif.TraceForm.trace_localised_side",
    "Verif.TraceForm.trace_tag_refused",
    "Verif.TraceForm.trace_restriction_refused"
   ],
   "note": "The trace mesh is new or was made as an EmbeddedMesh of the bulk mesh, and is used with this bulk mesh only (C43 has the counterexamples for several meshes). Which side is meant by + is the subject of C34; jump and avg always raise."
  },
  {
   "property": "C83",
   "status": "partial",
   "theorems": [
    "Verif.Registry.maps_stay_partial",
    "Verif.Registry.maps_right_partial",
    "Verif.Registry.injection_drops",
    "Verif.Registry.injection_breaks_average",
    "Verif.Registry.injection_breaks_trace",
    "Verif.Registry.injection_breaks_tags",
    "Verif.Registry.injection_wrong_parent"
   ],
   "note": "False for injections from a mesh without a map into a refined mesh (counterexamples). Proved for all other histories."
  },
  {
   "property": "C84",
   "status": "proved",
   "theorems": [
    "Verif.Workflow.program_solves",
    "Verif.Workflow.program_returns",
    "Verif.Workflow.time_stepping",
    "Verif.Workflow.time_stepping_returns"
   ],
   "note": "Assembly is a parameter. The solver is exact. Boundary conditions of the time dependent program are DirichletBCs with dofs which do not change, as in the demo (C13 has the counterexamples for others)."
  },
  {
   "property": "C85",
   "status": "proved",
   "theorems": [
    "Verif.Coupling.coupled_integrals",
    "Verif.Coupling.trace_restricts"
   ],
   "note": "Element routines are exact; functions in the bulk space are continuous across the facets and their restrictions are in the trace space. Operators of UFL and integration are parameters, linear in the arguments."
  },
  {
   "property": "C86",
   "status": "proved",
   "theorems": [
    "Verif.Program.program_solves",
    "Verif.Program.program_returns",
    "Verif.Program.coupled_program"
   ],
   "note": "Integrals are linear in their arguments and arithmetic is exact; the solver is a parameter which returns solutions. Blocks of the matrix are forms or numbers, numbers other than zero on the diagonal; blocks of L are forms."
  },
  {
   "property": "C87",
   "status": "proved",
   "theorems": [
    "Verif.Program.forms_solve",
    "Verif.Program.forms_return",
    "Verif.Program.coupled_forms"
   ],
   "note": "As in C86. The forms with which block_form(W, 1) starts are given by a parameter: integrals which vanish and have one test function without annotations."
  },
  {
   "property": "C88",
   "status": "proved",
   "theorems": [
    "Verif.Collapse.convert_numbers",
    "Verif.Collapse.convert_numbers_iff"
   ],
   "note": "Describes what convert does with numbers; the English property a user may expect (numbers off the diagonal count) is false, see C08."
  },
  {
   "property": "C89",
   "status": "proved",
   "theorems": [
    "Verif.ApplyBc.updater_entries",
    "Verif.ApplyBc.updater_agrees_iff",
    "Verif.ApplyBc.return_apply_b_unbound"
   ],
   "note": "DirichletBC objects only, as the returned function calls them. At least one dof is prescribed; without boundary conditions apply_bc returns early."
  },
  {
   "property": "C90",
   "status": "proved",
   "theorems": [
    "Verif.BlockOps.subSelectT_last",
    "Verif.BlockOps.subSelect_adjoint_iff"
   ],
   "note": "Exact behaviour with repeated indices."
  },
  {
   "property": "C91",
   "status": "proved",
   "theorems": [
    "Verif.BlockOps.offsets_accepted_iff",
    "Verif.BlockOps.regroup_roundtrip_iff",
    "Verif.BlockOps.reduction_applies_iff"
   ],
   "note": "Exact conditions for C21 and C22."
  },
  {
   "property": "C92",
   "status": "proved",
   "theorems": [
    "Verif.Krylov.matvec_iff",
    "Verif.Krylov.matvec_applies_iff"
   ],
   "note": "Exact behaviour, also for operators with different row and column sizes."
  },
  {
   "property": "C93",
   "status": "proved",
   "theorems": [
    "Verif.BlockForm.permute_iff",
    "Verif.BlockForm.permute_linear_iff"
   ],
   "note": "What is returned is described by permute_permutes_partial and permute_permutes_linear of C28."
  },
  {
   "property": "C94",
   "status": "proved",
   "theorems": [
    "Verif.Average.average_constant_exact"
   ],
   "note": "Exact arithmetic; collision detection is a parameter."
  },
  {
   "property": "C95",
   "status": "proved",
   "theorems": [
    "Verif.Collide.segments_answer",
    "Verif.Collide.triangle_answer",
    "Verif.Collide.other_cells_refused"
   ],
   "note": "Exact arithmetic; np.linalg.solve is a parameter which solves regular systems and raises for singular ones."
  },
  {
   "property": "C96",
   "status": "proved",
   "theorems": [
    "Verif.Contour.refine_any",
    "Verif.Contour.refine_divides_iff"
   ],
   "note": "Exact arithmetic."
  },
  {
   "property": "C97",
   "status": "proved",
   "theorems": [
    "Verif.MatFree.femCollapse_any"
   ],
   "note": "The contents of a new vector are a parameter, the model of C24."
  },
  {
   "property": "C98",
   "status": "proved",
   "theorems": [
    "Verif.Nullspace.accepted_iff"
   ],
   "note": "Exact arithmetic over the reals."
  },
  {
   "property": "C99",
   "status": "partial",
   "theorems": [
    "Verif.Shape.square_accepted_iff",
    "Verif.Shape.square_quadrature",
    "Verif.Shape.rim_quadrature_any",
    "Verif.Shape.centre_close",
    "Verif.Shape.corner_kinds_partial",
    "Verif.Shape.rim_sequence_raises"
   ],
   "note": "Proved for corners given as arrays or functions of the point. False of constant corners given as tuples or lists: Square takes them, SquareRim raises TypeError in every quadrature. Exact arithmetic; leggauss gives nodes in [-1, 1] and weights with sum 2."
  },
  {
   "property": "C100",
   "status": "proved",
   "theorems": [
    "Verif.AverageForm.averaged_integrals",
    "Verif.AverageForm.averaged_forms",
    "Verif.AverageForm.average_is_shapeMean"
   ],
   "note": "As in C87. Collision detection, dof coordinates and basis functions are parameters; quadratures which raise are excluded (then assemble raises)."
  },
  {
   "property": "C101",
   "status": "partial",
   "theorems": [
    "Verif.Mean.mean_integrates",
    "Verif.Mean.mean_iff_unit_volume",
    "Verif.Mean.mean_weighted_partial",
    "Verif.Mean.mean_of_constant_wrong"
   ],
   "note": "False: the code does not divide by the volume, so without a weight the row gives the mean for all functions just if the volume is 1 (mean_iff_unit_volume). Proved: it gives the integral of the function times the weight over the measure, and the mean if the weight is the inverse of the volume."
  },
  {
   "property": "C102",
   "status": "proved",
   "theorems": [
    "Verif.TimeDep.time_forms",
    "Verif.TimeDep.time_forms_return",
    "Verif.TimeDep.time_run",
    "Verif.TimeDep.time_traces"
   ],
   "note": "Forms of the matrix must be steady, as the program assembles the matrix once. The number of passes is a parameter. Exactness of the solver is a hypothesis."
  },
  {
   "property": "C103",
   "status": "proved",
   "theorems": [
    "Verif.Mixed.mixed_integrals",
    "Verif.Mixed.mixed_forms"
   ],
   "note": "The conditions of the single reductions (conforming facets, elements with nodal dofs, quadrature rules with matching lengths and so on) are in the inductive predicate Means. Transpose traces raise and injections are not among the kinds; the others are all there."
  },
  {
   "property": "C104",
   "status": "proved",
   "theorems": [
    "Verif.Assembly.assembly_returns",
    "Verif.Program.forms_run"
   ],
   "note": "Transpose traces are excluded because they raise. The identities of functions made during the assembly are odd numbers, those of users even ones. Exactness of the solver is a hypothesis."
  },
  {
   "property": "C105",
   "status": "partial",
   "theorems": [
    "Verif.Accept.accept_iff",
    "Verif.Accept.space_iff_partial",
    "Verif.Accept.space_kept",
    "Verif.Accept.trace_space_iff",
    "Verif.Accept.extension_space_iff",
    "Verif.Accept.transpose_space_iff",
    "Verif.Accept.accepted_without_space",
    "Verif.Accept.point_lagrange_raises",
    "Verif.Accept.gradient_lagrange_raises",
    "Verif.Accept.extension_ignored"
   ],
   "note": "The first part (what is accepted) is proved for all inputs. The second part is false for several kinds: the exact condition for a reduced space is proved for each kind, with counterexamples; point values and derivatives of Lagrange functions are never assembled and extensions are ignored."
  },
  {
   "property": "C106",
   "status": "partial",
   "theorems": [
    "Verif.Refine.circumcenter_acute_partial",
    "Verif.Refine.circumcenter_refused",
    "Verif.Refine.circumcenter_twice_refused",
    "Verif.Refine.circumcenter_unchecked"
   ],
   "note": "One refinement is covered. The last part is false: two or more refinements are always refused, up to the tolerance of the check. Triangles in the plane; C109 is about tetrahedra and triangles in space."
  },
  {
   "property": "C107",
   "status": "proved",
   "theorems": [
    "Verif.Embedded.skeleton_interior",
    "Verif.Embedded.skeleton_refused"
   ],
   "note": "The incidences of facets and cells computed by dolfin are hypotheses (every facet has a cell, cells are listed once)."
  },
  {
   "property": "C108",
   "status": "proved",
   "theorems": [
    "Verif.Newton.newton_iterates",
    "Verif.Newton.newton_stops",
    "Verif.Newton.newton_returns",
    "Verif.Newton.newton_affine",
    "Verif.Newton.newton_fixed",
    "Verif.Newton.newton_residual",
    "Verif.Newton.newton_converged",
    "Verif.Newton.newton_quadratic",
    "Verif.Newton.newton_terminates"
   ],
   "note": "Residuals for which block_jacobian is correct (C53): functions, plain or annotated once as trace, average or restriction. Assembled values, the expansion of derivatives in UFL and the exactness of the solver are hypotheses; real arithmetic."
  },
  {
   "property": "C109",
   "status": "proved",
   "theorems": [
    "Verif.Refine.circumcenter_inside",
    "Verif.Refine.circumcenter_not_inside",
    "Verif.Refine.circumcenter_never_twice",
    "Verif.Refine.circumcenter_intervals_centroid",
    "Verif.Refine.circumcenter_intervals_raise"
   ],
   "note": "Exact arithmetic; the solver of Eigen solves regular systems and norms are homogeneous. With the tolerance of the check the statements hold where it does not cover the cells in question."
  },
  {
   "property": "C110",
   "status": "proved",
   "theorems": [
    "Verif.IIFunction.slice_up",
    "Verif.IIFunction.slice_plain",
    "Verif.IIFunction.slice_ends",
    "Verif.IIFunction.slice_raises",
    "Verif.IIFunction.rename_labels",
    "Verif.IIFunction.randomize_vectors",
    "Verif.IIFunction.own_list",
    "Verif.IIFunction.caller_list"
   ],
   "note": "Slices with negative ends and other steps than one are covered by slice_ends and slice_raises. The numbers drawn are a parameter, as many as asked for."
  },
  {
   "property": "C111",
   "status": "proved",
   "theorems": [
    "Verif.Tangent.wind_number_angles",
    "Verif.Tangent.wind_number_course",
    "Verif.Tangent.winding_integer",
    "Verif.Tangent.winding_outside",
    "Verif.Tangent.winding_left",
    "Verif.Tangent.winding_right",
    "Verif.Tangent.wind_number_numbered",
    "Verif.Tangent.encloses_outside",
    "Verif.Tangent.encloses_left",
    "Verif.Tangent.encloses_right"
   ],
   "note": "The integrals are exact here; the form compiler uses a quadrature, for which C64 has what holds of all rules. Loops with other numberings are covered by wind_number_course."
  },
  {
   "property": "C112",
   "status": "proved",
   "theorems": [
    "Verif.Plot.tube_render_returns_iff",
    "Verif.Plot.tube_render_draws",
    "Verif.Plot.circle_ring_outline",
    "Verif.Plot.vtk_tube_circle",
    "Verif.Plot.rim_ring_not_outline",
    "Verif.Plot.radial_order_returns_iff",
    "Verif.Plot.radial_order_few",
    "Verif.Plot.radial_order_outline",
    "Verif.Plot.plot_data_draws",
    "Verif.Plot.plot_circles",
    "Verif.Plot.square_on_circle",
    "Verif.Plot.radial_order_off_centre"
   ],
   "note": "Exact real arithmetic; the containers and the writer of VTK are trusted, as are eigh and argsort. Segments must not be nearly vertical, see C99."
  },
  {
   "property": "C113",
   "status": "proved",
   "theorems": [
    "Verif.Hsmg.inverse_returns_iff",
    "Verif.Hsmg.inverse_exact",
    "Verif.Hsmg.chosen_unique",
    "Verif.Hsmg.asIf_power"
   ],
   "note": "Exact version of C55. Exact real arithmetic; eigenvalues are meant to be positive (numpy gives nan or inf for powers of others), eigh is a parameter with a specification. A single matrix is inverted by hsmg itself."
  },
  {
   "property": "C114",
   "status": "proved",
   "theorems": [
    "Verif.Patch.coloring_exact",
    "Verif.Patch.coloring_returns_iff",
    "Verif.Patch.groupMean_separated",
    "Verif.Patch.coloring_repeated"
   ],
   "note": "Exact version of the second half of C39. Exact arithmetic; the colours of the dofs are natural numbers."
  },
  {
   "property": "C115",
   "status": "proved",
   "theorems": [
    "Verif.Contour.line_mesh_returns_iff",
    "Verif.Contour.line_mesh_exact",
    "Verif.Contour.line_mesh_count",
    "Verif.Contour.line_mesh_first_open"
   ],
   "note": "Exact version of C49. Exact arithmetic; make_mesh is trusted to make the mesh with the given vertices and cells."
  },
  {
   "property": "C116",
   "status": "proved",
   "theorems": [
    "Verif.RandomCurve.curve_one_boundary_vertex",
    "Verif.RandomCurve.curve_connected",
    "Verif.RandomCurve.load_returns",
    "Verif.RandomCurve.load_returns_iff",
    "Verif.RandomCurve.curve_can_be_found",
    "Verif.RandomCurve.curve_never_found",
    "Verif.RandomCurve.inner_start_disconnected",
    "Verif.RandomCurve.random_edges_exact"
   ],
   "note": "Edges are distinct sorted pairs; nx.shortest_path is trusted to return a path; bc_vertices and the check of load use the same test of vertices."
  },
  {
   "property": "C117",
   "status": "proved",
   "theorems": [
    "Verif.Segment.segment_distance_exact",
    "Verif.Segment.distance_field_exact",
    "Verif.Segment.distance_field_nan"
   ],
   "note": "Exact real arithmetic."
  },
  {
   "property": "C118",
   "status": "partial",
   "theorems": [
    "Verif.ProjCircle.circle_map_exact",
    "Verif.ProjCircle.circle_map_bijective",
    "Verif.ProjCircle.circle_map_collapses",
    "Verif.ProjCircle.circle_quad_value",
    "Verif.ProjCircle.circle_quad_wrong",
    "Verif.ProjCircle.circle_height_integral",
    "Verif.ProjCircle.disk_map_exact",
    "Verif.ProjCircle.disk_center_nan"
   ],
   "note": "False: for normals in the plane z = 0 only two points of the circle are reached, the centre of the disk and points parallel to the normal give nan. Proved: images are on the circle, all points of it are reached once if the normal is not in that plane. Exact real arithmetic."
  },
  {
   "property": "C119",
   "status": "proved",
   "theorems": [
    "Verif.CrossGrid.cross_grid_returns_iff",
    "Verif.CrossGrid.cross_grid_tiles",
    "Verif.CrossGrid.cross_grid_centers"
   ],
   "note": "Exact arithmetic; make_mesh is trusted to make the mesh with the given vertices and cells."
  },
  {
   "property": "C120",
   "status": "partial",
   "theorems": [
    "Verif.ConvLog.log_records_partial",
    "Verif.ConvLog.study_returns",
    "Verif.ConvLog.rate_of_power",
    "Verif.ConvLog.add_returns_iff",
    "Verif.ConvLog.missing_key_half_added",
    "Verif.ConvLog.zero_error_out_of_step",
    "Verif.ConvLog.extra_values_dropped",
    "Verif.ConvLog.fewer_values_refused"
   ],
   "note": "Proved for all sequences of successful calls, with the exact condition for a call to return; false for failing calls, which leave histories of different lengths. Real arithmetic, errors are Python floats, np.polyfit is given by its contract."
  },
  {
   "property": "C121",
   "status": "partial",
   "theorems": [
    "Verif.ConvLog.broken_norm_exact",
    "Verif.ConvLog.broken_norm_partition_partial",
    "Verif.ConvLog.broken_norm_zero_tag"
   ],
   "note": "Proved for tags other than zero and errors whose squares are sums over cells; false for the tag zero. Interpolation to the space on the submesh is trusted to be the restriction."
  },
  {
   "property": "C122",
   "status": "partial",
   "theorems": [
    "Verif.ConvLog.reported_partial",
    "Verif.ConvLog.crash_reported_passed"
   ],
   "note": "Proved for exceptions whose traceback has the word Error; false for others, which are reported as passed."
  },
  {
   "property": "C123",
   "status": "proved",
   "theorems": [
    "Verif.Immersed.immersed_returns_iff",
    "Verif.Immersed.immersed_cells",
    "Verif.Immersed.immersed_outer",
    "Verif.Immersed.immersed_inner",
    "Verif.Immersed.immersed_interface",
    "Verif.Immersed.gamma_cells",
    "Verif.Immersed.gamma_facets"
   ],
   "note": "The coordinates k / 2^m are exact in floating point. UnitSquareMesh and SubDomain.mark of dolfin are modelled; EmbeddedMesh is C40."
  },
  {
   "property": "C124",
   "status": "proved",
   "theorems": [
    "Verif.DofMat.sandbox_injection_evaluates_dofs",
    "Verif.DofMat.sandbox_injection_checks",
    "Verif.DofMat.sandbox_injection_same_function",
    "Verif.DofMat.restriction_same_function",
    "Verif.DofMat.interpolation_same_function"
   ],
   "note": "The function spaces and the array parent_cell of dolfin are parameters, as in C33. injection_matrix of the package is C71."
  },
  {
   "property": "C125",
   "status": "partial",
   "theorems": [
    "Verif.Calculus.grad_scalar",
    "Verif.Calculus.grad_vector_iff",
    "Verif.Calculus.grad_refuses",
    "Verif.Calculus.div_vector_partial",
    "Verif.Calculus.div_vector_wrong",
    "Verif.Calculus.div_tensor_partial",
    "Verif.Calculus.div_tensor_ignores",
    "Verif.Calculus.div_tensor_other_variables",
    "Verif.Calculus.asExpr_returns_iff"
   ],
   "note": "Exact for Grad and asExpr: right if and only if no entry is known to be zero. Div is right if zeros come last; it is false for (0, g) (div_vector_wrong) and for tensors in other variables (div_tensor_ignores). Matrix.values, Matrix.row and diff of sympy are modelled by their contracts."
  },
  {
   "property": "C126",
   "status": "partial",
   "theorems": [
    "Verif.Mms.poisson_consistent",
    "Verif.Mms.poisson_bc_consistent",
    "Verif.Mms.mixed_poisson_consistent",
    "Verif.Mms.grad_div_consistent",
    "Verif.Mms.curl_curl_consistent",
    "Verif.Mms.sym_grad_consistent",
    "Verif.Mms.bertoluzza_consistent",
    "Verif.Mms.free_slip_consistent",
    "Verif.Mms.isoP2_consistent",
    "Verif.Mms.mass_consistent",
    "Verif.Mms.emi_consistent",
    "Verif.Mms.emi_mortar_consistent",
    "Verif.Mms.dq_consistent",
    "Verif.Mms.layton_consistent",
    "Verif.Mms.twoD_consistent",
    "Verif.Mms.isect_consistent",
    "Verif.Mms.elasticity_consistent",
    "Verif.Mms.elasticity_mixed_consistent",
    "Verif.Mms.dirac_consistent",
    "Verif.Mms.heat_residual",
    "Verif.Mms.poisson_demo",
    "Verif.Mms.dirac_demo",
    "Verif.Mms.elasticity_demo",
    "Verif.Mms.isect_demo",
    "Verif.Mms.bertoluzza_multiplier_ends",
    "Verif.Mms.twoD_multiplier_ends",
    "Verif.Mms.free_slip_multiplier_ends",
    "Verif.Mms.heat_multiplier_end",
    "Verif.Mms.daq_drops"
   ],
   "note": "The weak equations hold for all demos with a manufactured solution in two dimensions, in time_dep up to the difference quotient in time (heat_residual). False are the values prescribed for the multiplier in twoDoneDoneD, free_slip_stokes_iter and time_dep (twoD_multiplier_ends, free_slip_multiplier_ends, heat_multiplier_end) and the second row of daq_3d1d (daq_drops). Not covered: rows which only restate a boundary value, curved boundaries, the demos in three dimensions with manufactured solutions. Derivatives and traces of UFL are exact, the finite element spaces are replaced by all smooth functions."
  },
  {
   "property": "C127",
   "status": "proved",
   "theorems": [
    "Verif.Minimise.optim_minimises",
    "Verif.Minimise.layer_minimises",
    "Verif.Minimise.babuska_minimises",
    "Verif.Minimise.heat_step_minimises",
    "Verif.Minimise.optim_header_wrong",
    "Verif.Multipliers.babuska_minimises_iff",
    "Verif.Multipliers.heat_minimises_iff",
    "Verif.Multipliers.layer_minimises_iff",
    "Verif.Multipliers.optim_minimises_iff"
   ],
   "note": "For all subspaces; the converse (each minimiser has a multiplier) for multipliers of finite dimension. The forms are those of two dimensions. When there is exactly one solution is C131. Integration is modelled by linear functionals which are not negative on squares."
  },
  {
   "property": "C128",
   "status": "partial",
   "theorems": [
    "Verif.Apps.has_multiplier_iff",
    "Verif.Apps.multiplier_eliminated_partial",
    "Verif.Apps.multiplier_changes_solution"
   ],
   "note": "False in general: the averages need not be in the space of the multiplier (multiplier_changes_solution, whose witness is an abstract pair of spaces, not a mesh). Proved if they are, and in general up to the projection of the average. Conductivities are numbers."
  },
  {
   "property": "C129",
   "status": "partial",
   "theorems": [
    "Verif.Apps.nested_minimises",
    "Verif.Apps.nested_not_unique",
    "Verif.Multipliers.nested_minimises_iff",
    "Verif.Multipliers.nested_exists_iff",
    "Verif.Multipliers.nested_exists"
   ],
   "note": "The solutions are exactly the minimisers and there always is one, as the program takes the same space for functions and multipliers on the curve. It is not unique (nested_not_unique)."
  },
  {
   "property": "C130",
   "status": "proved",
   "theorems": [
    "Verif.Symmetric.poissonBc_symm",
    "Verif.Symmetric.mixedPoisson_symm",
    "Verif.Symmetric.freeSlip_symm",
    "Verif.Symmetric.bertoluzza_symm",
    "Verif.Symmetric.isoP2_symm",
    "Verif.Symmetric.layton_symm",
    "Verif.Symmetric.dq_symm",
    "Verif.Symmetric.emi_symm",
    "Verif.Symmetric.emiMortar_symm",
    "Verif.Symmetric.twoD_symm",
    "Verif.Symmetric.elasticityMixed_symm",
    "Verif.Symmetric.isect_symm",
    "Verif.Symmetric.optim_symm",
    "Verif.Symmetric.layer_symm",
    "Verif.Symmetric.babuska_symm",
    "Verif.Symmetric.heat_symm",
    "Verif.Symmetric.has_symm",
    "Verif.Symmetric.notHas_symm",
    "Verif.Symmetric.nested_symm"
   ],
   "note": "On the straight boundaries of the demos. Boundary conditions are applied afterwards; apply_bc keeps the symmetry (ApplyBc.applyBc_symmetric)."
  },
  {
   "property": "C131",
   "status": "proved",
   "theorems": [
    "Verif.Solvable.not_has_exists_unique",
    "Verif.Solvable.has_exists_unique",
    "Verif.Solvable.optim_exists_unique",
    "Verif.Solvable.babuska_exists_unique_iff",
    "Verif.Solvable.heat_exists_unique_iff",
    "Verif.Solvable.layer_exists_unique_iff"
   ],
   "note": "In exact arithmetic. The condition on traces is the discrete one, the dependence of its constant on the mesh size is not modelled. has_multiplier needs that the functions on the curve are among the multipliers, as they are in the program (both are CG1 on the curve)."
  },
  {
   "property": "C132",
   "status": "proved",
   "theorems": [
    "Verif.Nonsingular.mixedPoisson_iff",
    "Verif.Nonsingular.freeSlip_iff",
    "Verif.Nonsingular.bertoluzza_iff",
    "Verif.Nonsingular.isoP2_iff",
    "Verif.Nonsingular.emi_iff",
    "Verif.Nonsingular.twoD_iff",
    "Verif.Nonsingular.emiMortar_iff",
    "Verif.Nonsingular.elasticityMixed_iff",
    "Verif.Nonsingular.isect_iff",
    "Verif.Nonsingular.poissonBc_iff",
    "Verif.Nonsingular.layton_iff",
    "Verif.Nonsingular.dq_iff"
   ],
   "note": "In exact arithmetic. That only the zero velocity has no energy (the discrete Korn inequality) is a hypothesis on the spaces, as are boundary conditions, which restrict the spaces."
  }
 ]
}
Verif.ListUtils.assemble_keeps_layout: propext Classical.choice Quot.sound
Verif.ListUtils.assemble_fails_with_form: propext Classical.choice Quot.sound
Verif.ListUtils.reshape_row_major: propext Classical.choice Quot.sound
Verif.ListUtils.shape_list_decides: propext Classical.choice Quot.sound
Verif.ListUtils.reshape_rejects: propext Classical.choice Quot.sound
Verif.ListUtils.reshape_rejects_zero: propext Classical.choice Quot.sound
Verif.ListUtils.reshape_returns_partial: propext Classical.choice Quot.sound
Verif.ListUtils.reshape_negative_diverges: propext Classical.choice Quot.sound
Verif.ListUtils.reshape_diverges: propext Classical.choice Quot.sound
Verif.ListUtils.reshape_returns_iff: propext Classical.choice Quot.sound
Verif.Collapse.collapse_acts: propext Classical.choice Quot.sound
Verif.Collapse.collapse_acts_dropped: propext Classical.choice Quot.sound
Verif.Collapse.collapse_drops_tiny: propext Classical.choice Quot.sound
Verif.Collapse.collapse_returns_iff: propext Classical.choice Quot.sound
Verif.Collapse.collapse_number_iff: propext Classical.choice Quot.sound
Verif.Collapse.collapse_returns_partial: propext Classical.choice Quot.sound
Verif.Collapse.collapse_transpose_diverges: propext Classical.choice Quot.sound
Verif.Collapse.collapse_add_number_diverges: propext Classical.choice Quot.sound
Verif.Collapse.collapse_sub_number_diverges: propext Classical.choice Quot.sound
Verif.CollapseIter.collapse_acts_partial: propext Classical.choice Quot.sound
Verif.CollapseIter.orders_agree_partial: propext Classical.choice Quot.sound
Verif.CollapseIter.collapse_acts_transposed_partial: propext Classical.choice Quot.sound
Verif.CollapseIter.blocks_act_partial: propext Classical.choice Quot.sound
Verif.CollapseIter.monolithic_acts_partial: propext Classical.choice Quot.sound
Verif.CollapseIter.names_collide: propext Classical.choice Quot.sound
Verif.CollapseIter.shared_raises: propext Classical.choice Quot.sound
Verif.CollapseIter.same_object_raises: propext Classical.choice Quot.sound
Verif.CollapseIter.other_raises: propext Classical.choice Quot.sound
Verif.CollapseIter.other_diverges: propext Classical.choice Quot.sound
Verif.CollapseIter.algorithms_agree_partial: propext Classical.choice Quot.sound
Verif.CollapseIter.algorithms_disagree: propext Classical.choice Quot.sound
Verif.Collapse.convert_acts_partial: propext Classical.choice Quot.sound
Verif.Collapse.convert_drops_offdiagonal: propext Classical.choice Quot.sound
Verif.Collapse.asBlock_convert_vec: propext Classical.choice Quot.sound
Verif.Collapse.convert_asBlock_vec: propext Classical.choice Quot.sound
Verif.Collapse.convert_asBlock_mat: propext Classical.choice Quot.sound
Verif.Collapse.asBlock_convert_mat: propext Classical.choice Quot.sound
Verif.ApplyBc.applyBc_imposes: propext Classical.choice Quot.sound
Verif.ApplyBc.applyBc_solutions: propext Classical.choice Quot.sound
Verif.ApplyBc.applyBc_plain_solutions: propext Classical.choice Quot.sound
Verif.ApplyBc.applyBc_rejects_sizes: propext Classical.choice Quot.sound
Verif.ApplyBc.applyBc_plain_rejects_sizes: propext Classical.choice Quot.sound
Verif.ApplyBc.applyBc_rejects_blocks: propext Classical.choice Quot.sound
Verif.ApplyBc.applyBc_no_rhs: propext Classical.choice Quot.sound
Verif.ApplyBc.applyBc_symmetric: propext Classical.choice Quot.sound
Verif.ApplyBc.applyBc_posDef: propext Classical.choice Quot.sound
Verif.ApplyBc.updater_agrees_partial: propext Classical.choice Quot.sound
Verif.ApplyBc.updater_ignores_diag: propext Classical.choice Quot.sound
Verif.ApplyBc.updater_fails_dict: propext Classical.choice Quot.sound
Verif.ApplyBc.applyBc_contract_partial: propext Classical.choice Quot.sound
Verif.ApplyBc.applyBc_nothing: propext Classical.choice Quot.sound
Verif.ApplyBc.return_apply_b_unbound: propext Classical.choice Quot.sound
Verif.ApplyBc.return_apply_b_plain_ignored: propext Classical.choice Quot.sound
Verif.ApplyBc.return_apply_b_empty_ignored: propext Classical.choice Quot.sound
Verif.ApplyBc.empty_dict_changes_kind: propext Classical.choice Quot.sound
Verif.ApplyBc.applyBc_no_dofs: propext Classical.choice Quot.sound
Verif.Nullspace.nullspace_orthonormal: propext Classical.choice Quot.sound
Verif.Nullspace.construct_orthonormal: propext Classical.choice Quot.sound
Verif.Nullspace.dependent_rejected: propext Classical.choice Quot.sound
Verif.Nullspace.rejected_near_span_partial: propext Classical.choice Quot.sound
Verif.Nullspace.rejected_iff_exact: propext Classical.choice Quot.sound
Verif.Nullspace.independent_rejected: propext Classical.choice Quot.sound
Verif.Nullspace.constants_not_accepted: propext Classical.choice Quot.sound
Verif.Nullspace.vectors_added: propext Classical.choice Quot.sound
Verif.Nullspace.orthogonalize_projects: propext Classical.choice Quot.sound
Verif.L20.projector_projects_partial: propext Classical.choice Quot.sound
Verif.L20.projector_constructed: propext Classical.choice Quot.sound
Verif.L20.l20_inner_product: propext Classical.choice Quot.sound
Verif.L20.l20_collapse: propext Classical.choice Quot.sound
Verif.L20.orthonormalize_orthonormal: propext Classical.choice Quot.sound
Verif.L20.orthonormalize_returns: propext Classical.choice Quot.sound
Verif.L20.exists_eigSpec: propext Classical.choice Quot.sound
Verif.L20.projector_empty_raises: propext Classical.choice Quot.sound
Verif.L20.projector_orthonormal_refused: propext Classical.choice Quot.sound
Verif.L20.projector_dependent_refused: propext Classical.choice Quot.sound
Verif.L20.riesz_single_raises: propext Classical.choice Quot.sound
Verif.L20.riesz_returns_argument: propext Classical.choice Quot.sound
Verif.BlockOps.subSelect_selects: propext Quot.sound
Verif.BlockOps.subSelectT_adjoint_partial: propext Classical.choice Quot.sound
Verif.BlockOps.subSelectT_repeated_not_adjoint: propext
Verif.BlockOps.rearrange_merges_partial: propext Classical.choice Quot.sound
Verif.BlockOps.rearrangeT_splits: propext Classical.choice Quot.sound
Verif.BlockOps.rearrange_roundtrip: propext Classical.choice Quot.sound
Verif.BlockOps.rearrange_roundtrip': propext Classical.choice Quot.sound
Verif.BlockOps.rearrange_isometry: propext Quot.sound
Verif.BlockOps.reduction_isPartition: propext Quot.sound
Verif.BlockOps.reduction_zero_offset_fails: propext Quot.sound
Verif.BlockOps.regroup_roundtrip_partial: propext Classical.choice Quot.sound
Verif.BlockOps.regroup_single_fails: propext
Verif.BlockOps.vectorized_componentwise_partial: propext Classical.choice Quot.sound
Verif.BlockOps.vectorized_checks: propext Classical.choice Quot.sound
Verif.BlockOps.vectorized_accepted: propext Classical.choice Quot.sound
Verif.BlockOps.vectorized_list_fails: propext
Verif.MatFree.columnConvert_acts: propext Classical.choice Quot.sound
Verif.MatFree.femCollapse_acts_partial: propext Classical.choice Quot.sound
Verif.MatFree.femCollapse_needs_zero: propext Classical.choice Quot.sound
Verif.Krylov.matvec_flattens_partial: propext
Verif.Krylov.matvec_rectangular_fails: propext Quot.sound
Verif.Krylov.solve_solves: propext Classical.choice Quot.sound
Verif.Hsmg.collect_sums_partial: propext Classical.choice Quot.sound
Verif.Hsmg.collect_accepts: propext Classical.choice Quot.sound
Verif.Hsmg.collect_only: propext Classical.choice Quot.sound
Verif.BlockForm.add_history: propext Classical.choice Quot.sound
Verif.BlockForm.belongs_unique: propext Classical.choice Quot.sound
Verif.BlockForm.belongs_inside: propext
Verif.BlockForm.add_accepts: propext Classical.choice Quot.sound
Verif.BlockForm.add_history_linear: propext Classical.choice Quot.sound
Verif.BlockForm.add_accepts_linear: propext Classical.choice Quot.sound
Verif.BlockForm.add_not_atomic: propext Classical.choice Quot.sound
Verif.BlockForm.assign_accepts: propext Classical.choice Quot.sound
Verif.BlockForm.assign_accepts_linear: propext Classical.choice Quot.sound
Verif.BlockForm.blocks_fit: propext Classical.choice Quot.sound
Verif.BlockForm.addForms_entrywise: propext Classical.choice Quot.sound
Verif.BlockForm.addForms_entrywise_linear: propext Classical.choice Quot.sound
Verif.BlockForm.addForms_rejects: propext Classical.choice Quot.sound
Verif.BlockForm.permute_permutes_partial: propext Classical.choice Quot.sound
Verif.BlockForm.permute_permutes_linear: propext Classical.choice Quot.sound
Verif.BlockForm.permute_back: propext Classical.choice Quot.sound
Verif.BlockForm.permuteSpaces_orders: propext Classical.choice Quot.sound
Verif.BlockForm.permute_single_fails: propext Quot.sound
Verif.BlockForm.makeSelfadjoint_partial: propext Classical.choice Quot.sound
Verif.BlockForm.makeSelfadjoint_rejects: propext Classical.choice Quot.sound
Verif.BlockForm.makeSelfadjoint_diagonal_wrong: propext Classical.choice Quot.sound
Verif.Ufl.adjoint_swaps: propext Classical.choice Quot.sound
Verif.Ufl.swap_swap: propext
Verif.Ufl.adjoint_same_space_wrong: propext Classical.choice Quot.sound
Verif.Ufl.adjoint_drops_annotations: propext Classical.choice Quot.sound
Verif.Ufl.replace_substitutes: propext Classical.choice Quot.sound
Verif.Ufl.replace_composite_partial: propext Classical.choice Quot.sound
Verif.Ufl.replace_ignores_unlisted: propext Classical.choice Quot.sound
Verif.Ufl.replace_composite_wrong: propext Classical.choice Quot.sound
Verif.Reduced.assemble_represents_partial: propext Classical.choice Quot.sound
Verif.Reduced.assemble_terminates: propext Classical.choice Quot.sound
Verif.Reduced.assemble_ignores_unrecognised: propext Classical.choice Quot.sound
Verif.Reduced.equal_integrals_rejected: propext Classical.choice Quot.sound
Verif.Memo.cache_transparent_iff: propext Quot.sound
Verif.Memo.cache_transparent_on: propext Quot.sound
Verif.Memo.interpolation_cache_transparent: propext Quot.sound
Verif.Memo.mean_cache_transparent: propext Quot.sound
Verif.Memo.transpose_trace_cache_transparent: propext Quot.sound
Verif.Memo.average_cache_transparent_partial: propext Quot.sound
Verif.Memo.restriction_cache_transparent_partial: propext Quot.sound
Verif.Memo.trace_cache_transparent_partial: propext Quot.sound
Verif.Memo.trace_cache_not_transparent: propext
Verif.Memo.gradient_point_trace_cache_not_transparent: propext Quot.sound
Verif.Memo.point_trace_cache_transparent_partial: propext Quot.sound
Verif.Memo.injection_cache_not_transparent: propext Quot.sound
Verif.Memo.injection_cache_transparent_partial: propext Quot.sound
Verif.Memo.patch_cache_transparent_iff: propext Quot.sound
Verif.DofMat.restriction_evaluates_dofs: propext Classical.choice Quot.sound
Verif.DofMat.restriction_missing_parent: propext Quot.sound
Verif.DofMat.restriction_mat_checks: propext Quot.sound
Verif.DofMat.interpolation_evaluates_dofs: propext Classical.choice Quot.sound
Verif.DofMat.interpolation_checks: propext Quot.sound
Verif.DofMat.nonconforming_evaluates_dofs: propext Classical.choice Quot.sound
Verif.Trace.no_restrict_evaluates_dofs: propext Classical.choice Quot.sound
Verif.Trace.one_restrict_evaluates_dofs: propext Classical.choice Quot.sound
Verif.Trace.dlt_injects: propext Classical.choice Quot.sound
Verif.Trace.no_restrict_map_error: propext Classical.choice Quot.sound
Verif.Trace.one_restrict_fallback: propext Classical.choice Quot.sound
Verif.Trace.one_restrict_sides: propext Classical.choice Quot.sound
Verif.Trace.one_restrict_sides_differ: propext Classical.choice Quot.sound
Verif.Trace.one_restrict_boundary: propext Classical.choice Quot.sound
Verif.Trace.two_restrict_evaluates_partial: propext Classical.choice Quot.sound
Verif.Trace.jump_is_reversed: propext Classical.choice Quot.sound
Verif.Trace.jump_not_plus_minus_minus: propext Classical.choice Quot.sound
Verif.Trace.trace_mat_two_sided_raises: propext Classical.choice Quot.sound
Verif.Trace.trace_mat_selects: propext Classical.choice Quot.sound
Verif.Average.average_general: propext Classical.choice Quot.sound
Verif.Average.average_is_mean_partial: propext Classical.choice Quot.sound
Verif.Average.average_of_constant: propext Classical.choice Quot.sound
Verif.Average.average_outside: propext Classical.choice Quot.sound
Verif.Average.average_of_constant_wrong_outside: propext Classical.choice Quot.sound
Verif.Average.trace3d1d_evaluates: propext Classical.choice Quot.sound
Verif.Average.avg_mat_checks: propext Quot.sound
Verif.Average.measure_function: propext Classical.choice Quot.sound
Verif.Average.avg_mat_shape_partial: propext Classical.choice Quot.sound
Verif.Average.avg_mat_curve: propext Classical.choice Quot.sound
Verif.Average.avg_mat_midpoints: propext Classical.choice Quot.sound
Verif.Average.avg_mat_curve_refused: propext Quot.sound
Verif.Shape.radius_number_positive: propext Classical.choice Quot.sound
Verif.Shape.circle_quadrature_partial: propext Classical.choice Quot.sound
Verif.Shape.circle_points_on_circle: propext Classical.choice Quot.sound
Verif.Shape.circle_quadrature_parametrised: propext Classical.choice Quot.sound
Verif.Shape.circle_zero_normal: propext Classical.choice Quot.sound
Verif.Shape.circle_quadrature_normal: propext Classical.choice Quot.sound
Verif.Shape.disk_quadrature_at: propext Classical.choice Quot.sound
Verif.Shape.disk_points_in_disk: propext Classical.choice Quot.sound
Verif.Shape.circle_not_in_plane: propext Classical.choice Quot.sound
Verif.Shape.square_quadrature: propext Classical.choice Quot.sound
Verif.Shape.square_quadrature_exact: propext Classical.choice Quot.sound
Verif.Shape.square_checks_plane: propext Classical.choice Quot.sound
Verif.Shape.rim_quadrature_partial: propext Classical.choice Quot.sound
Verif.DiskQuad.disk_quadrature_total: propext Classical.choice Quot.sound
Verif.DiskQuad.disk_quadrature_symmetric: propext Classical.choice Quot.sound
Verif.DiskQuad.disk_quadrature_odd: propext Classical.choice Quot.sound
Verif.DiskQuad.disk_quadrature_exact_partial: propext Classical.choice Quot.sound
Verif.DiskQuad.disk_quadrature_area: propext Classical.choice Quot.sound
Verif.DiskQuad.degree_11_is_wrong: propext Classical.choice Quot.sound
Verif.DiskQuad.nodes_in_disk: propext Classical.choice Quot.sound
Verif.DiskQuad.weights_positive: propext Classical.choice Quot.sound
Verif.Patch.patch_mat: propext Classical.choice Quot.sound
Verif.Patch.patch_mat_empty: propext Classical.choice Quot.sound
Verif.Patch.patch_mat_coloring_partial: propext Classical.choice Quot.sound
Verif.Patch.patch_mat_points: propext Classical.choice Quot.sound
Verif.Patch.patch_mat_refused: propext Quot.sound
Verif.Patch.coloring_agrees: propext Classical.choice Quot.sound
Verif.Patch.coloring_shared_patch_wrong: propext Classical.choice Quot.sound
Verif.Patch.coloring_neighbours_wrong: propext Classical.choice Quot.sound
Verif.Embedded.embedded_mesh_represents_partial: propext Classical.choice Quot.sound
Verif.Embedded.embedded_mesh_vertices: propext Classical.choice Quot.sound
Verif.Embedded.embedded_mesh_raises: propext Quot.sound
Verif.Embedded.embedded_mesh_repeated_marker: propext
Verif.Embedded.sampleSubMesh_ok: propext Classical.choice Quot.sound
Verif.Embedded.Represents.isEmbedding: propext Quot.sound
Verif.Embedded.translate_markers_correct: propext Classical.choice Quot.sound
Verif.Embedded.transfer_markers_correct: propext Classical.choice Quot.sound
Verif.Embedding.embedding_map_sound: propext Classical.choice Quot.sound
Verif.Embedding.embedding_map_fails: propext Classical.choice Quot.sound
Verif.Embedding.embedding_map_complete: propext Classical.choice Quot.sound
Verif.Embedding.embedding_map_all_iff: propext Classical.choice Quot.sound
Verif.Embedding.embedding_map_one_cell: propext Quot.sound
Verif.Embedding.embedding_map_needs_subdomains: propext Quot.sound
Verif.Embedding.overlap_sound_partial: propext Classical.choice Quot.sound
Verif.Embedding.overlap_sound_intervals: propext Classical.choice Quot.sound
Verif.Embedding.overlap_wrong: propext Classical.choice Quot.sound
Verif.Embedding.compute_embedding_sound: propext Classical.choice Quot.sound
Verif.Embedding.compute_embedding_twice: propext Quot.sound
Verif.Embedding.entity_map_first: propext Classical.choice Quot.sound
Verif.Embedding.entity_map_stays: propext Classical.choice Quot.sound
Verif.Embedding.entity_map_history_partial: propext Classical.choice Quot.sound
Verif.Embedding.entity_map_not_mapped: propext Quot.sound
Verif.Embedding.entity_map_two_meshes: propext Quot.sound
Verif.Mortar.mortar_interface: propext Classical.choice Quot.sound
Verif.Mortar.mortar_no_interface: propext Classical.choice Quot.sound
Verif.Mortar.mortar_meshes_partial: propext Classical.choice Quot.sound
Verif.Mortar.mortar_local_cell: propext Quot.sound
Verif.Mortar.mortar_raises: propext Quot.sound
Verif.Mortar.mortar_not_found: propext Quot.sound
Verif.Branch.color_branches_partial: propext Classical.choice Quot.sound
Verif.Branch.color_branches_all: propext Classical.choice Quot.sound
Verif.Branch.color_branches_closed: propext Quot.sound
Verif.Branch.color_branches_iff: propext Classical.choice Quot.sound
Verif.Branch.color_branches_two_loops: propext Classical.choice Quot.sound
Verif.Branch.color_branches_loop_uncoloured: propext Quot.sound
Verif.Branch.walk_cells_branch: propext Classical.choice Quot.sound
Verif.Branch.walk_cells_loop: propext Classical.choice Quot.sound
Verif.Branch.walk_vertices_follow_partial: propext Classical.choice Quot.sound
Verif.Contour.refine_contour_partial: propext Classical.choice Quot.sound
Verif.Contour.refine_contour_negative: propext Quot.sound
Verif.Contour.refine_open: propext Classical.choice Quot.sound
Verif.Refine.refine_tiles: propext Classical.choice Quot.sound
Verif.Refine.centroid_refine_tiles: propext Classical.choice Quot.sound
Verif.Refine.point_is_inside_complete: propext Classical.choice Quot.sound
Verif.Refine.point_is_inside_sound_partial: propext Classical.choice Quot.sound
Verif.Refine.point_outside_accepted: propext Classical.choice Quot.sound
Verif.Refine.intArea_barycentric: propext Classical.choice Quot.sound
Verif.Refine.triArea_barycentric: propext Classical.choice Quot.sound
Verif.Refine.tetArea_barycentric: propext Classical.choice Quot.sound
Verif.Contour.line_mesh_partial: propext Classical.choice Quot.sound
Verif.Contour.line_mesh_cells: propext Quot.sound
Verif.Contour.line_mesh_shared: propext Classical.choice Quot.sound
Verif.Contour.line_mesh_segment: propext
Verif.Contour.line_mesh_closed: propext Classical.choice Quot.sound
Verif.Contour.straight_line_partial: propext Classical.choice Quot.sound
Verif.Contour.straight_line_one: propext Quot.sound
Verif.Union.union_two_partial: propext Classical.choice Quot.sound
Verif.Union.union_two_total: propext Classical.choice Quot.sound
Verif.Union.union_leafs: propext Classical.choice Quot.sound
Verif.Union.union_small: propext Quot.sound
Verif.Union.union_many: propext Quot.sound
Verif.Union.union_gap: propext Classical.choice Quot.sound
Verif.Union.union_closed: propext Classical.choice Quot.sound
Verif.Union.union_changes_leafs: propext Classical.choice Quot.sound
Verif.Center.circumcenter_correct: propext Classical.choice Quot.sound
Verif.Center.circumcenter_total_partial: propext Classical.choice Quot.sound
Verif.Center.circumcenter_unique: propext Classical.choice Quot.sound
Verif.Center.circumcenter_intervals: propext Classical.choice Quot.sound
Verif.Center.solves_inv: propext Classical.choice Quot.sound
Verif.Collapse.get_dims_partial: propext Classical.choice Quot.sound
Verif.Collapse.get_dims_wrong: propext
Verif.Jacobian.derivative_correct_partial: propext Classical.choice Quot.sound
Verif.Jacobian.block_jacobian_correct_partial: propext Classical.choice Quot.sound
Verif.Jacobian.block_jacobian_accepts: propext Classical.choice Quot.sound
Verif.Jacobian.derivative_expression: propext Classical.choice Quot.sound
Verif.Jacobian.derivative_mean_wrong: propext Classical.choice Quot.sound
Verif.Annotate.annotation_copies_partial: propext Quot.sound
Verif.Annotate.annotation_returns: propext Quot.sound
Verif.Annotate.annotations_history: propext Quot.sound
Verif.Annotate.annotations_history_arguments: propext Quot.sound
Verif.Annotate.annotation_shares_vector: propext Quot.sound
Verif.Annotate.point_trace_changes_argument: propext Quot.sound
Verif.Annotate.point_traces_collide: propext
Verif.Hsmg.inverse_inverts_partial: propext Classical.choice Quot.sound
Verif.Hsmg.inverse_mixed_wrong: propext Classical.choice Quot.sound
Verif.Hsmg.power_unique: propext Classical.choice Quot.sound
Verif.Gmsh.import_sound_partial: propext Classical.choice Quot.sound
Verif.Gmsh.import_accepts: propext Classical.choice Quot.sound
Verif.Gmsh.model_elements: propext Classical.choice Quot.sound
Verif.Gmsh.model_accepts: propext Classical.choice Quot.sound
Verif.Gmsh.model_nodes: propext Classical.choice Quot.sound
Verif.Gmsh.gmsh_cells: propext Classical.choice Quot.sound
Verif.Gmsh.tetrahedra_refused: propext Classical.choice Quot.sound
Verif.Gmsh.gaps_refused: propext Classical.choice Quot.sound
Verif.Gmsh.model_nodes_false: propext Quot.sound
Verif.Dual.dual_once_partial: propext Classical.choice Quot.sound
Verif.Dual.dual_refined: propext Classical.choice Quot.sound
Verif.Dual.dual_areas: propext Classical.choice Quot.sound
Verif.Dual.dual_dims: propext Quot.sound
Verif.Dual.dual_circumcenter_false: propext Classical.choice Quot.sound
Verif.Dual.dual_once_conforming: propext Classical.choice Quot.sound
Verif.Dual.dual_refined_conforming: propext Classical.choice Quot.sound
Verif.PointTrace.cg_scalar_value_partial: propext Classical.choice Quot.sound
Verif.PointTrace.cg_outside: propext Quot.sound
Verif.PointTrace.dg_value: propext Classical.choice Quot.sound
Verif.PointTrace.dg_jump: propext Classical.choice Quot.sound
Verif.PointTrace.dg_not_incident: propext Quot.sound
Verif.PointTrace.gradient_value: propext Classical.choice Quot.sound
Verif.PointTrace.accepted: propext Quot.sound
Verif.PointTrace.gradient_accepted: propext Quot.sound
Verif.PointTrace.one_kind_always_raises: propext Quot.sound
Verif.PointTrace.cg_vector_wrong: propext Classical.choice Quot.sound
Verif.PointTrace.gradient_constants_refused: propext Quot.sound
Verif.PointTrace.flux_is_mean_partial: propext Classical.choice Quot.sound
Verif.PointTrace.flux_of_constant: propext Classical.choice Quot.sound
Verif.PointTrace.flux_circle: propext Classical.choice Quot.sound
Verif.PointTrace.flux_accepts: propext Quot.sound
Verif.Dispatch.assemble_all_partial: propext Classical.choice Quot.sound
Verif.Dispatch.assemble_all_terminates: propext Classical.choice Quot.sound
Verif.Dispatch.trace_is_taken: propext Classical.choice Quot.sound
Verif.Dispatch.annotated_is_taken: propext Classical.choice Quot.sound
Verif.Dispatch.forgotten_trace_raises: propext Classical.choice Quot.sound
Verif.Dispatch.average_and_flux_raise: propext Classical.choice Quot.sound
Verif.Dispatch.restriction_and_injection_raise: propext Classical.choice Quot.sound
Verif.Dispatch.facet_integrals_ignored: propext Classical.choice Quot.sound
Verif.Elements.trace_cell_ok: propext
Verif.Elements.trace_cell_iff: propext Quot.sound
Verif.Elements.transpose_cell_inverse: propext Classical.choice Quot.sound
Verif.Elements.average_cell_ok: propext
Verif.Elements.trace_element: propext Quot.sound
Verif.Elements.trace_shape_partial: propext Quot.sound
Verif.Elements.alike_shape: propext
Verif.Elements.trace_tensor_wrong: propext
Verif.Elements.average_element: propext Quot.sound
Verif.Elements.average_mesh_refused: propext
Verif.Elements.average_vector_shape: propext Quot.sound
Verif.Elements.average_vector_wrong: propext
Verif.Elements.flux_element: propext Quot.sound
Verif.Elements.transpose_element: propext Classical.choice Quot.sound
Verif.Elements.transpose_family_refused: propext
Verif.Elements.transpose_vector_wrong: propext
Verif.Elements.extension_element: propext Quot.sound
Verif.Elements.extension_vector_wrong: none
Verif.Elements.point_element: propext
Verif.Elements.point_element_none: propext Classical.choice Quot.sound
Verif.Elements.mean_element: propext Quot.sound
Verif.Elements.mean_mesh_refused: propext
Verif.Elements.surface_mean_element: propext Quot.sound
Verif.Elements.gradient_point_element: propext
Verif.Elements.trace_discontinuous: propext Quot.sound
Verif.Elements.average_discontinuous: propext Quot.sound
Verif.Elements.extension_discontinuous: propext Quot.sound
Verif.Elements.values_real: propext Quot.sound
Verif.Elements.average_returns_iff: propext Classical.choice Quot.sound
Verif.Elements.average_shape_iff: propext Quot.sound
Verif.Elements.average_mixed: propext Quot.sound
Verif.Elements.trace_alike_iff: propext Quot.sound
Verif.Elements.extension_alike_iff: propext Quot.sound
Verif.Elements.transpose_alike_iff: propext Classical.choice Quot.sound
Verif.CenterVec.center_vector_partial: propext Classical.choice Quot.sound
Verif.CenterVec.circum_distance: propext Classical.choice Quot.sound
Verif.CenterVec.centroid_distance: propext Classical.choice Quot.sound
Verif.CenterVec.circum_distance2: propext Classical.choice Quot.sound
Verif.CenterVec.delaunay_plane_always: propext Classical.choice Quot.sound
Verif.CenterVec.delaunay_interior_always: propext Classical.choice Quot.sound
Verif.CenterVec.delaunay_not_a_number: propext Classical.choice Quot.sound
Verif.CenterVec.distance2_origin: propext Classical.choice Quot.sound
Verif.CenterVec.not_delaunay_accepted: propext Classical.choice Quot.sound
Verif.CenterVec.centroid_distance2_wrong: propext Classical.choice Quot.sound
Verif.CenterVec.delaunay_refused: propext Classical.choice Quot.sound
Verif.Normal.expression_oriented: propext Classical.choice Quot.sound
Verif.Normal.point_oriented: propext Classical.choice Quot.sound
Verif.Normal.default_outward_partial: propext Classical.choice Quot.sound
Verif.Normal.marker_oriented: propext Classical.choice Quot.sound
Verif.Normal.marker_independent: propext Classical.choice Quot.sound
Verif.Normal.marker_equal_arbitrary: propext Classical.choice Quot.sound
Verif.Normal.mesh_oriented: propext Classical.choice Quot.sound
Verif.Normal.not_parent_refused: propext Classical.choice Quot.sound
Verif.Normal.inner_normal: propext Classical.choice Quot.sound
Verif.Normal.default_straight: propext Classical.choice Quot.sound
Verif.Normal.numbering_matters: propext Classical.choice Quot.sound
Verif.Tangent.tangent_unit: propext Classical.choice Quot.sound
Verif.Tangent.tangent_tree_partial: propext Classical.choice Quot.sound
Verif.Tangent.tangent_consistent: propext Classical.choice Quot.sound
Verif.Tangent.root_refused: propext Classical.choice Quot.sound
Verif.Tangent.tangent_loop: propext Classical.choice Quot.sound
Verif.Tangent.wind_number_refuses: propext Classical.choice Quot.sound
Verif.Tangent.normal_unit: propext Classical.choice Quot.sound
Verif.Tangent.encloses_wrong: propext Classical.choice Quot.sound
Verif.Tangent.normal_wrong: propext Classical.choice Quot.sound
Verif.Tangent.wind_open_refused: propext Classical.choice Quot.sound
Verif.Tangent.wind_total: propext Classical.choice Quot.sound
Verif.Tangent.wind_reverse: propext Classical.choice Quot.sound
Verif.Tangent.inside_reverse_partial: propext Classical.choice Quot.sound
Verif.Tangent.wind_start: propext Classical.choice Quot.sound
Verif.Tangent.wind_translate: propext Classical.choice Quot.sound
Verif.Tangent.outside_accepted: propext Classical.choice Quot.sound
Verif.Tangent.inside_missed: propext Classical.choice Quot.sound
Verif.Collide.segments_near: propext Classical.choice Quot.sound
Verif.Collide.segments_found: propext Classical.choice Quot.sound
Verif.Collide.segments_exact_partial: propext Classical.choice Quot.sound
Verif.Collide.segments_symmetric: propext Classical.choice Quot.sound
Verif.Collide.triangle_near: propext Classical.choice Quot.sound
Verif.Collide.triangle_found: propext Classical.choice Quot.sound
Verif.Collide.triangle_exact: propext Classical.choice Quot.sound
Verif.Collide.segments_never: propext Classical.choice Quot.sound
Verif.Collide.triangle_never: propext Classical.choice Quot.sound
Verif.Collide.overlap_missed: propext Classical.choice Quot.sound
Verif.Collide.space_missed: propext Classical.choice Quot.sound
Verif.Collide.plane_missed: propext Classical.choice Quot.sound
Verif.Collide.bbox_tight: propext Classical.choice Quot.sound
Verif.Collide.box_collides_raises: propext Classical.choice Quot.sound
Verif.Extension.uniform_nearest_partial: propext Classical.choice Quot.sound
Verif.Extension.uniform_components: propext Classical.choice Quot.sound
Verif.Extension.uniform_constant: propext Classical.choice Quot.sound
Verif.Extension.uniform_keeps: propext Classical.choice Quot.sound
Verif.Extension.uniform_refused: propext Classical.choice Quot.sound
Verif.Extension.extension_checks: propext Classical.choice Quot.sound
Verif.Extension.extension_other: propext Classical.choice Quot.sound
Verif.Extension.intersecting_accepted: propext Classical.choice Quot.sound
Verif.Extension.components_wrong: propext Classical.choice Quot.sound
Verif.Nest.nest_close: propext Classical.choice Quot.sound
Verif.Nest.nest_exact_partial: propext Classical.choice Quot.sound
Verif.Nest.nest_diagonal: propext Classical.choice Quot.sound
Verif.Nest.nest_number_wrong: propext Classical.choice Quot.sound
Verif.Nest.nest_precond_none: propext Classical.choice Quot.sound
Verif.Nest.nest_vec: propext Classical.choice Quot.sound
Verif.Nest.pc_mat_action: propext Quot.sound
Verif.Nest.pc_mat_refused: propext
Verif.Nest.pc_nest_plain: propext Quot.sound
Verif.Nest.pc_nest_grouped: propext Classical.choice Quot.sound
Verif.Nest.pc_nest_offdiagonal: propext Quot.sound
Verif.Nest.pc_nest_shape: propext Quot.sound
Verif.Nest.pc_nest_different: propext Quot.sound
Verif.Nest.pc_nest_regrouped: propext Quot.sound
Verif.Nest.pc_nest_overlap: propext Quot.sound
Verif.Nest.pc_nest_single_refused: propext Classical.choice Quot.sound
Verif.Reshape.reshape_entries: propext Classical.choice Quot.sound
Verif.Reshape.reshape_action_partial: propext Classical.choice Quot.sound
Verif.Reshape.reshape_mixed_refused: propext Classical.choice Quot.sound
Verif.Reshape.regroup_parts: propext Classical.choice Quot.sound
Verif.Reshape.reshape_drops: propext
Verif.Reshape.diag_action: propext Classical.choice Quot.sound
Verif.Reshape.identity_action: propext Classical.choice Quot.sound
Verif.Reshape.row_entries: propext Classical.choice Quot.sound
Verif.Reshape.row_refused: propext Classical.choice Quot.sound
Verif.Reshape.zero_entries: propext Quot.sound
Verif.Reshape.zero_no_columns: propext Quot.sound
Verif.CollapseIter.collapse_returns_partial: propext Classical.choice Quot.sound
Verif.CollapseIter.numbers_last_raise: propext Classical.choice Quot.sound
Verif.DofMat.injection_interpolate_partial: propext Quot.sound
Verif.DofMat.injection_project: propext Quot.sound
Verif.DofMat.injection_fallback_raises: propext Classical.choice Quot.sound
Verif.DofMat.injection_returns_iff: propext Classical.choice Quot.sound
Verif.DofMat.fineToCoarse_sorted: propext Classical.choice Quot.sound
Verif.DofMat.fineToCoarse_wrong: propext
Verif.IIFunction.new_functions: propext Quot.sound
Verif.IIFunction.from_vectors: propext Classical.choice Quot.sound
Verif.IIFunction.wrong_number_refused: propext Quot.sound
Verif.IIFunction.wrong_size_refused: propext Classical.choice Quot.sound
Verif.IIFunction.from_functions: propext Classical.choice Quot.sound
Verif.IIFunction.accepted_components: propext Quot.sound
Verif.IIFunction.wrong_space_accepted: propext Classical.choice Quot.sound
Verif.IIFunction.no_components_raise: none
Verif.IIFunction.vector_entry: propext Classical.choice Quot.sound
Verif.IIFunction.set_vector_entry: propext Classical.choice Quot.sound
Verif.IIFunction.shared_components: propext Classical.choice Quot.sound
Verif.IIFunction.item: propext Quot.sound
Verif.IIFunction.last_item: propext Classical.choice Quot.sound
Verif.IIFunction.interpolate_partial: propext Classical.choice Quot.sound
Verif.IIFunction.interpolate_wrong_number: none
Verif.IIFunction.interpolate_exchange_loses: propext Classical.choice Quot.sound
Verif.IIFunction.interpolate_not_atomic: propext Classical.choice Quot.sound
Verif.PetscWrap.mult_block_partial: propext Classical.choice Quot.sound
Verif.PetscWrap.multTranspose_block: propext Classical.choice Quot.sound
Verif.PetscWrap.mult_plain: propext Classical.choice Quot.sound
Verif.PetscWrap.multTranspose_plain: propext Classical.choice Quot.sound
Verif.PetscWrap.mult_not_nested: propext
Verif.PetscWrap.no_nullspace: propext Classical.choice Quot.sound
Verif.PetscWrap.nullspace_correct_iff: propext Classical.choice Quot.sound
Verif.PetscWrap.nullspace_wrong: propext Classical.choice Quot.sound
Verif.Continuous.continuous_curve: propext Classical.choice Quot.sound
Verif.Continuous.continuous_surface_partial: propext Classical.choice Quot.sound
Verif.Continuous.surface_touching_accepted: propext Classical.choice Quot.sound
Verif.Continuous.continuous_refused: propext Classical.choice Quot.sound
Verif.SurfaceMean.surface_mean_is_mean: propext Classical.choice Quot.sound
Verif.SurfaceMean.mean_of_constant: propext Classical.choice Quot.sound
Verif.SurfaceMean.surface_mean_no_area: propext Classical.choice Quot.sound
Verif.SurfaceMean.surface_mean_checks: propext Classical.choice Quot.sound
Verif.TransposeTrace.transpose_trace_pairs_partial: propext Classical.choice Quot.sound
Verif.TransposeTrace.transpose_trace_unmatched: propext Classical.choice Quot.sound
Verif.TransposeTrace.transpose_trace_assembly_raises: propext Classical.choice Quot.sound
Verif.TransposeTrace.transpose_trace_accepts: propext Quot.sound
Verif.Harmonic.harmonic_solves_screened_partial: propext Classical.choice Quot.sound
Verif.Harmonic.harmonic_not_documented: propext Classical.choice Quot.sound
Verif.Harmonic.harmonic_ignores_marks: propext Classical.choice Quot.sound
Verif.Harmonic.harmonic_refuses: propext Classical.choice Quot.sound
Verif.Krylov.krylov_solve_solves: propext Classical.choice Quot.sound
Verif.Krylov.krylov_solve_fails: propext
Verif.Krylov.krylov_preconditioner: propext
Verif.Krylov.scipy_residuals_are_not: propext Classical.choice Quot.sound
Verif.Refine.centroid_refine_conforming: propext Classical.choice Quot.sound
Verif.Refine.refine_conforming: propext Classical.choice Quot.sound
Verif.Refine.centroid_refine_total: propext Classical.choice Quot.sound
Verif.Refine.centroid_refine_small: propext Classical.choice Quot.sound
Verif.Refine.segArea_barycentric: propext Classical.choice Quot.sound
Verif.Refine.surfArea_barycentric: propext Classical.choice Quot.sound
Verif.TraceForm.trace_localised: propext Classical.choice Quot.sound
Verif.TraceForm.trace_localised_side: propext Classical.choice Quot.sound
Verif.TraceForm.trace_tag_refused: propext Classical.choice Quot.sound
Verif.TraceForm.trace_restriction_refused: propext Classical.choice Quot.sound
Verif.Registry.maps_stay_partial: propext Classical.choice Quot.sound
Verif.Registry.maps_right_partial: propext Classical.choice Quot.sound
Verif.Registry.injection_drops: propext Classical.choice Quot.sound
Verif.Registry.injection_breaks_average: propext Quot.sound
Verif.Registry.injection_breaks_trace: propext Quot.sound
Verif.Registry.injection_breaks_tags: propext Classical.choice Quot.sound
Verif.Registry.injection_wrong_parent: propext Quot.sound
Verif.Workflow.program_solves: propext Classical.choice Quot.sound
Verif.Workflow.program_returns: propext Classical.choice Quot.sound
Verif.Workflow.time_stepping: propext Classical.choice Quot.sound
Verif.Workflow.time_stepping_returns: propext Classical.choice Quot.sound
Verif.Coupling.coupled_integrals: propext Classical.choice Quot.sound
Verif.Coupling.trace_restricts: propext Classical.choice Quot.sound
Verif.Program.program_solves: propext Classical.choice Quot.sound
Verif.Program.program_returns: propext Classical.choice Quot.sound
Verif.Program.coupled_program: propext Classical.choice Quot.sound
Verif.Program.forms_solve: propext Classical.choice Quot.sound
Verif.Program.forms_return: propext Classical.choice Quot.sound
Verif.Program.coupled_forms: propext Classical.choice Quot.sound
Verif.Collapse.convert_numbers: propext Classical.choice Quot.sound
Verif.Collapse.convert_numbers_iff: propext Classical.choice Quot.sound
Verif.ApplyBc.updater_entries: propext Classical.choice Quot.sound
Verif.ApplyBc.updater_agrees_iff: propext Classical.choice Quot.sound
Verif.BlockOps.subSelectT_last: propext Classical.choice Quot.sound
Verif.BlockOps.subSelect_adjoint_iff: propext Classical.choice Quot.sound
Verif.BlockOps.offsets_accepted_iff: propext Classical.choice Quot.sound
Verif.BlockOps.regroup_roundtrip_iff: propext Classical.choice Quot.sound
Verif.BlockOps.reduction_applies_iff: propext Classical.choice Quot.sound
Verif.Krylov.matvec_iff: propext Classical.choice Quot.sound
Verif.Krylov.matvec_applies_iff: propext Classical.choice Quot.sound
Verif.BlockForm.permute_iff: propext Classical.choice Quot.sound
Verif.BlockForm.permute_linear_iff: propext Classical.choice Quot.sound
Verif.Average.average_constant_exact: propext Classical.choice Quot.sound
Verif.Collide.segments_answer: propext Classical.choice Quot.sound
Verif.Collide.triangle_answer: propext Classical.choice Quot.sound
Verif.Collide.other_cells_refused: propext Classical.choice Quot.sound
Verif.Contour.refine_any: propext Classical.choice Quot.sound
Verif.Contour.refine_divides_iff: propext Classical.choice Quot.sound
Verif.MatFree.femCollapse_any: propext Classical.choice Quot.sound
Verif.Nullspace.accepted_iff: propext Classical.choice Quot.sound
Verif.Shape.square_accepted_iff: propext Classical.choice Quot.sound
Verif.Shape.rim_quadrature_any: propext Classical.choice Quot.sound
Verif.Shape.centre_close: propext Classical.choice Quot.sound
Verif.Shape.corner_kinds_partial: propext Classical.choice Quot.sound
Verif.Shape.rim_sequence_raises: propext Classical.choice Quot.sound
Verif.AverageForm.averaged_integrals: propext Classical.choice Quot.sound
Verif.AverageForm.averaged_forms: propext Classical.choice Quot.sound
Verif.AverageForm.average_is_shapeMean: propext Classical.choice Quot.sound
Verif.Mean.mean_integrates: propext Classical.choice Quot.sound
Verif.Mean.mean_iff_unit_volume: propext Classical.choice Quot.sound
Verif.Mean.mean_weighted_partial: propext Classical.choice Quot.sound
Verif.Mean.mean_of_constant_wrong: propext Classical.choice Quot.sound
Verif.TimeDep.time_forms: propext Classical.choice Quot.sound
Verif.TimeDep.time_forms_return: propext Classical.choice Quot.sound
Verif.TimeDep.time_run: propext Classical.choice Quot.sound
Verif.TimeDep.time_traces: propext Classical.choice Quot.sound
Verif.Mixed.mixed_integrals: propext Classical.choice Quot.sound
Verif.Mixed.mixed_forms: propext Classical.choice Quot.sound
Verif.Assembly.assembly_returns: propext Classical.choice Quot.sound
Verif.Program.forms_run: propext Classical.choice Quot.sound
Verif.Accept.accept_iff: propext Classical.choice Quot.sound
Verif.Accept.space_iff_partial: propext Classical.choice Quot.sound
Verif.Accept.space_kept: propext Classical.choice Quot.sound
Verif.Accept.trace_space_iff: propext Classical.choice Quot.sound
Verif.Accept.extension_space_iff: propext Classical.choice Quot.sound
Verif.Accept.transpose_space_iff: propext Classical.choice Quot.sound
Verif.Accept.accepted_without_space: propext Classical.choice Quot.sound
Verif.Accept.point_lagrange_raises: propext Classical.choice Quot.sound
Verif.Accept.gradient_lagrange_raises: propext Classical.choice Quot.sound
Verif.Accept.extension_ignored: propext Classical.choice Quot.sound
Verif.Refine.circumcenter_acute_partial: propext Classical.choice Quot.sound
Verif.Refine.circumcenter_refused: propext Classical.choice Quot.sound
Verif.Refine.circumcenter_twice_refused: propext Classical.choice Quot.sound
Verif.Refine.circumcenter_unchecked: propext Classical.choice Quot.sound
Verif.Embedded.skeleton_interior: propext Classical.choice Quot.sound
Verif.Embedded.skeleton_refused: propext Quot.sound
Verif.Newton.newton_iterates: propext Classical.choice Quot.sound
Verif.Newton.newton_stops: propext Classical.choice Quot.sound
Verif.Newton.newton_returns: propext Classical.choice Quot.sound
Verif.Newton.newton_affine: propext Classical.choice Quot.sound
Verif.Newton.newton_fixed: propext Classical.choice Quot.sound
Verif.Newton.newton_residual: propext Classical.choice Quot.sound
Verif.Newton.newton_converged: propext Classical.choice Quot.sound
Verif.Newton.newton_quadratic: propext Classical.choice Quot.sound
Verif.Newton.newton_terminates: propext Classical.choice Quot.sound
Verif.Refine.circumcenter_inside: propext Classical.choice Quot.sound
Verif.Refine.circumcenter_not_inside: propext Classical.choice Quot.sound
Verif.Refine.circumcenter_never_twice: propext Classical.choice Quot.sound
Verif.Refine.circumcenter_intervals_centroid: propext Classical.choice Quot.sound
Verif.Refine.circumcenter_intervals_raise: propext Classical.choice Quot.sound
Verif.IIFunction.slice_up: propext Classical.choice Quot.sound
Verif.IIFunction.slice_plain: propext Classical.choice Quot.sound
Verif.IIFunction.slice_ends: propext Classical.choice Quot.sound
Verif.IIFunction.slice_raises: propext Classical.choice Quot.sound
Verif.IIFunction.rename_labels: propext Classical.choice Quot.sound
Verif.IIFunction.randomize_vectors: propext Quot.sound
Verif.IIFunction.own_list: propext Quot.sound
Verif.IIFunction.caller_list: propext Classical.choice Quot.sound
Verif.Tangent.wind_number_angles: propext Classical.choice Quot.sound
Verif.Tangent.wind_number_course: propext Classical.choice Quot.sound
Verif.Tangent.winding_integer: propext Classical.choice Quot.sound
Verif.Tangent.winding_outside: propext Classical.choice Quot.sound
Verif.Tangent.winding_left: propext Classical.choice Quot.sound
Verif.Tangent.winding_right: propext Classical.choice Quot.sound
Verif.Tangent.wind_number_numbered: propext Classical.choice Quot.sound
Verif.Tangent.encloses_outside: propext Classical.choice Quot.sound
Verif.Tangent.encloses_left: propext Classical.choice Quot.sound
Verif.Tangent.encloses_right: propext Classical.choice Quot.sound
Verif.Plot.tube_render_returns_iff: propext Classical.choice Quot.sound
Verif.Plot.tube_render_draws: propext Classical.choice Quot.sound
Verif.Plot.circle_ring_outline: propext Classical.choice Quot.sound
Verif.Plot.vtk_tube_circle: propext Classical.choice Quot.sound
Verif.Plot.rim_ring_not_outline: propext Classical.choice Quot.sound
Verif.Plot.radial_order_returns_iff: propext Classical.choice Quot.sound
Verif.Plot.radial_order_few: propext Classical.choice Quot.sound
Verif.Plot.radial_order_outline: propext Classical.choice Quot.sound
Verif.Plot.plot_data_draws: propext Classical.choice Quot.sound
Verif.Plot.plot_circles: propext Classical.choice Quot.sound
Verif.Plot.square_on_circle: propext Classical.choice Quot.sound
Verif.Plot.radial_order_off_centre: propext Classical.choice Quot.sound
Verif.Hsmg.inverse_returns_iff: propext Classical.choice Quot.sound
Verif.Hsmg.inverse_exact: propext Classical.choice Quot.sound
Verif.Hsmg.chosen_unique: propext Classical.choice Quot.sound
Verif.Hsmg.asIf_power: propext Classical.choice Quot.sound
Verif.Patch.coloring_exact: propext Classical.choice Quot.sound
Verif.Patch.coloring_returns_iff: propext Classical.choice Quot.sound
Verif.Patch.groupMean_separated: propext Quot.sound
Verif.Patch.coloring_repeated: propext Classical.choice Quot.sound
Verif.Contour.line_mesh_returns_iff: propext Classical.choice Quot.sound
Verif.Contour.line_mesh_exact: propext Classical.choice Quot.sound
Verif.Contour.line_mesh_count: propext Classical.choice Quot.sound
Verif.Contour.line_mesh_first_open: propext Classical.choice Quot.sound
Verif.RandomCurve.curve_one_boundary_vertex: propext Classical.choice Quot.sound
Verif.RandomCurve.curve_connected: propext Classical.choice Quot.sound
Verif.RandomCurve.load_returns: propext Classical.choice Quot.sound
Verif.RandomCurve.load_returns_iff: propext Classical.choice Quot.sound
Verif.RandomCurve.curve_can_be_found: propext Classical.choice Quot.sound
Verif.RandomCurve.curve_never_found: propext Quot.sound
Verif.RandomCurve.inner_start_disconnected: propext Quot.sound
Verif.RandomCurve.random_edges_exact: propext Classical.choice Quot.sound
Verif.Segment.segment_distance_exact: propext Classical.choice Quot.sound
Verif.Segment.distance_field_exact: propext Classical.choice Quot.sound
Verif.Segment.distance_field_nan: propext Classical.choice Quot.sound
Verif.ProjCircle.circle_map_exact: propext Classical.choice Quot.sound
Verif.ProjCircle.circle_map_bijective: propext Classical.choice Quot.sound
Verif.ProjCircle.circle_map_collapses: propext Classical.choice Quot.sound
Verif.ProjCircle.circle_quad_value: propext Classical.choice Quot.sound
Verif.ProjCircle.circle_quad_wrong: propext Classical.choice Quot.sound
Verif.ProjCircle.circle_height_integral: propext Classical.choice Quot.sound
Verif.ProjCircle.disk_map_exact: propext Classical.choice Quot.sound
Verif.ProjCircle.disk_center_nan: propext Classical.choice Quot.sound
Verif.CrossGrid.cross_grid_returns_iff: propext Quot.sound
Verif.CrossGrid.cross_grid_tiles: propext Classical.choice Quot.sound
Verif.CrossGrid.cross_grid_centers: propext Classical.choice Quot.sound
Verif.ConvLog.log_records_partial: propext Classical.choice Quot.sound
Verif.ConvLog.study_returns: propext Classical.choice Quot.sound
Verif.ConvLog.rate_of_power: propext Classical.choice Quot.sound
Verif.ConvLog.add_returns_iff: propext Classical.choice Quot.sound
Verif.ConvLog.missing_key_half_added: propext Classical.choice Quot.sound
Verif.ConvLog.zero_error_out_of_step: propext Classical.choice Quot.sound
Verif.ConvLog.extra_values_dropped: propext Classical.choice Quot.sound
Verif.ConvLog.fewer_values_refused: propext Classical.choice Quot.sound
Verif.ConvLog.broken_norm_exact: propext Classical.choice Quot.sound
Verif.ConvLog.broken_norm_partition_partial: propext Classical.choice Quot.sound
Verif.ConvLog.broken_norm_zero_tag: propext Classical.choice Quot.sound
Verif.ConvLog.reported_partial: propext Classical.choice Quot.sound
Verif.ConvLog.crash_reported_passed: propext Classical.choice Quot.sound
Verif.Immersed.immersed_returns_iff: propext Classical.choice Quot.sound
Verif.Immersed.immersed_cells: propext Classical.choice Quot.sound
Verif.Immersed.immersed_outer: propext Classical.choice Quot.sound
Verif.Immersed.immersed_inner: propext Classical.choice Quot.sound
Verif.Immersed.immersed_interface: propext Classical.choice Quot.sound
Verif.Immersed.gamma_cells: propext Classical.choice Quot.sound
Verif.Immersed.gamma_facets: propext Classical.choice Quot.sound
Verif.DofMat.sandbox_injection_evaluates_dofs: propext Classical.choice Quot.sound
Verif.DofMat.sandbox_injection_checks: propext Quot.sound
Verif.DofMat.sandbox_injection_same_function: propext Classical.choice Quot.sound
Verif.DofMat.restriction_same_function: propext Classical.choice Quot.sound
Verif.DofMat.interpolation_same_function: propext Classical.choice Quot.sound
Verif.Calculus.grad_scalar: propext
Verif.Calculus.grad_vector_iff: propext Quot.sound
Verif.Calculus.grad_refuses: propext
Verif.Calculus.div_vector_partial: propext Classical.choice Quot.sound
Verif.Calculus.div_vector_wrong: propext Classical.choice Quot.sound
Verif.Calculus.div_tensor_partial: propext Classical.choice Quot.sound
Verif.Calculus.div_tensor_ignores: propext
Verif.Calculus.div_tensor_other_variables: propext Quot.sound
Verif.Calculus.asExpr_returns_iff: propext Classical.choice Quot.sound
Verif.Mms.poisson_consistent: propext Classical.choice Quot.sound
Verif.Mms.poisson_bc_consistent: propext Classical.choice Quot.sound
Verif.Mms.mixed_poisson_consistent: propext Classical.choice Quot.sound
Verif.Mms.grad_div_consistent: propext Classical.choice Quot.sound
Verif.Mms.curl_curl_consistent: propext Classical.choice Quot.sound
Verif.Mms.sym_grad_consistent: propext Classical.choice Quot.sound
Verif.Mms.bertoluzza_consistent: propext Classical.choice Quot.sound
Verif.Mms.free_slip_consistent: propext Classical.choice Quot.sound
Verif.Mms.isoP2_consistent: propext Classical.choice Quot.sound
Verif.Mms.mass_consistent: propext Classical.choice Quot.sound
Verif.Mms.emi_consistent: propext Classical.choice Quot.sound
Verif.Mms.emi_mortar_consistent: propext Classical.choice Quot.sound
Verif.Mms.dq_consistent: propext Classical.choice Quot.sound
Verif.Mms.layton_consistent: propext Classical.choice Quot.sound
Verif.Mms.twoD_consistent: propext Classical.choice Quot.sound
Verif.Mms.isect_consistent: propext Classical.choice Quot.sound
Verif.Mms.elasticity_consistent: propext Classical.choice Quot.sound
Verif.Mms.elasticity_mixed_consistent: propext Classical.choice Quot.sound
Verif.Mms.dirac_consistent: propext Classical.choice Quot.sound
Verif.Mms.heat_residual: propext Classical.choice Quot.sound
Verif.Mms.poisson_demo: propext Classical.choice Quot.sound
Verif.Mms.dirac_demo: propext Classical.choice Quot.sound
Verif.Mms.elasticity_demo: propext Classical.choice Quot.sound
Verif.Mms.isect_demo: propext Classical.choice Quot.sound
Verif.Mms.bertoluzza_multiplier_ends: propext Classical.choice Quot.sound
Verif.Mms.twoD_multiplier_ends: propext Classical.choice Quot.sound
Verif.Mms.free_slip_multiplier_ends: propext Classical.choice Quot.sound
Verif.Mms.heat_multiplier_end: propext Classical.choice Quot.sound
Verif.Mms.daq_drops: propext Classical.choice Quot.sound
Verif.Minimise.optim_minimises: propext Classical.choice Quot.sound
Verif.Minimise.layer_minimises: propext Classical.choice Quot.sound
Verif.Minimise.babuska_minimises: propext Classical.choice Quot.sound
Verif.Minimise.heat_step_minimises: propext Classical.choice Quot.sound
Verif.Minimise.optim_header_wrong: propext Classical.choice Quot.sound
Verif.Multipliers.babuska_minimises_iff: propext Classical.choice Quot.sound
Verif.Multipliers.heat_minimises_iff: propext Classical.choice Quot.sound
Verif.Multipliers.layer_minimises_iff: propext Classical.choice Quot.sound
Verif.Multipliers.optim_minimises_iff: propext Classical.choice Quot.sound
Verif.Apps.has_multiplier_iff: propext Classical.choice Quot.sound
Verif.Apps.multiplier_eliminated_partial: propext Classical.choice Quot.sound
Verif.Apps.multiplier_changes_solution: propext Classical.choice Quot.sound
Verif.Apps.nested_minimises: propext Classical.choice Quot.sound
Verif.Apps.nested_not_unique: propext Classical.choice Quot.sound
Verif.Multipliers.nested_minimises_iff: propext Classical.choice Quot.sound
Verif.Multipliers.nested_exists_iff: propext Classical.choice Quot.sound
Verif.Multipliers.nested_exists: propext Classical.choice Quot.sound
Verif.Symmetric.poissonBc_symm: propext Classical.choice Quot.sound
Verif.Symmetric.mixedPoisson_symm: propext Classical.choice Quot.sound
Verif.Symmetric.freeSlip_symm: propext Classical.choice Quot.sound
Verif.Symmetric.bertoluzza_symm: propext Classical.choice Quot.sound
Verif.Symmetric.isoP2_symm: propext Classical.choice Quot.sound
Verif.Symmetric.layton_symm: propext Classical.choice Quot.sound
Verif.Symmetric.dq_symm: propext Classical.choice Quot.sound
Verif.Symmetric.emi_symm: propext Classical.choice Quot.sound
Verif.Symmetric.emiMortar_symm: propext Classical.choice Quot.sound
Verif.Symmetric.twoD_symm: propext Classical.choice Quot.sound
Verif.Symmetric.elasticityMixed_symm: propext Classical.choice Quot.sound
Verif.Symmetric.isect_symm: propext Classical.choice Quot.sound
Verif.Symmetric.optim_symm: propext Classical.choice Quot.sound
Verif.Symmetric.layer_symm: propext Classical.choice Quot.sound
Verif.Symmetric.babuska_symm: propext Classical.choice Quot.sound
Verif.Symmetric.heat_symm: propext Classical.choice Quot.sound
Verif.Symmetric.has_symm: propext Classical.choice Quot.sound
Verif.Symmetric.notHas_symm: propext Classical.choice Quot.sound
Verif.Symmetric.nested_symm: propext Classical.choice Quot.sound
Verif.Solvable.not_has_exists_unique: propext Classical.choice Quot.sound
Verif.Solvable.has_exists_unique: propext Classical.choice Quot.sound
Verif.Solvable.optim_exists_unique: propext Classical.choice Quot.sound
Verif.Solvable.babuska_exists_unique_iff: propext Classical.choice Quot.sound
Verif.Solvable.heat_exists_unique_iff: propext Classical.choice Quot.sound
Verif.Solvable.layer_exists_unique_iff: propext Classical.choice Quot.sound
Verif.Nonsingular.mixedPoisson_iff: propext Classical.choice Quot.sound
Verif.Nonsingular.freeSlip_iff: propext Classical.choice Quot.sound
Verif.Nonsingular.bertoluzza_iff: propext Classical.choice Quot.sound
Verif.Nonsingular.isoP2_iff: propext Classical.choice Quot.sound
Verif.Nonsingular.emi_iff: propext Classical.choice Quot.sound
Verif.Nonsingular.twoD_iff: propext Classical.choice Quot.sound
Verif.Nonsingular.emiMortar_iff: propext Classical.choice Quot.sound
Verif.Nonsingular.elasticityMixed_iff: propext Classical.choice Quot.sound
Verif.Nonsingular.isect_iff: propext Classical.choice Quot.sound
Verif.Nonsingular.poissonBc_iff: propext Classical.choice Quot.sound
Verif.Nonsingular.layton_iff: propext Classical.choice Quot.sound
Verif.Nonsingular.dq_iff: propext Classical.choice Quot.sound

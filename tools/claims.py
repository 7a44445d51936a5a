N = "PathPlanning."
def q(s): return " ".join(N + t for t in s.split())
c("C01", "proved", q("GridMap.history_refines GridMap.ctor_overflow_ub"),
  "refinement to an abstract cell->byte map for every history; for w*h >= 2^32 the boundary is proved to be real")
c("C02", "proved", q("GridMap.fresh_thresholds GridMap.fresh_free GridMap.classification_exactly_one GridMap.classification_exact GridMap.classification_total"))
c("C03", "proved", q("GridMap.point2cell_of_inCell GridMap.point2cell_cell2point GridMap.cell2point_injective GridMap.subPixel_roundtrip"),
  "exact arithmetic (any linearly ordered floor field)")
c("C04", "partial", q("GridMap.point2cell_true_iff GridMap.point2cell_iff_onRect_partial GridMap.point2cell_accepts_off_map GridMap.point2cell_ub_below"),
  "the full property is FALSE of the code: a one-cell strip below/left of the map is accepted, further below the unsigned cast is UB; exact characterisation and the part that holds are proved")
c("C05", "partial", q("GridMap.isInMapD_iff_onRect_partial GridMap.isInMapD_accepts_all_below"),
  "the full property is FALSE of the code: there is no lower bound test; the part for points not below the origin is proved, and the failure for every point below")
c("C08", "partial", q("MapArea.isAreaFree_iff MapArea.isAreaOccupied_iff MapArea.isAreaNoInformation_iff_none MapArea.isAreaNoInformation_wrong"),
  "isAreaFree/isAreaOccupied full; isAreaNoInformation is inverted in the code (true iff NO cell is unknown), proved exactly; iteration contract (Yields) is met by RobotArea but not by CircleArea/LineArea, see C09")
c("C09", "partial", q("circleArea_iteration_never_completes circleArea_iteration_ub lineArea_iteration_never_completes circleArea_functions_fail circleArea_visits_tail_partial circleArea_drain_iff lineArea_drain_iff circle_off_map circle_ctor_value"),
  "the property is FALSE of the code for every non-empty area: the first cell is skipped and getCell reads one past the end (UB)")
c("C10", "proved", q("circleCells_cover circleArea_init_degenerate circleArea_init circleArea_degenerate circleArea_ctor"))
c("C11", "partial", q("MapArea.setAreaValue_exact circleArea_functions_fail circleBuffer_init circleBuffer_save_fails robotArea_write robotArea_read MapArea.writeArea_const"),
  "setAreaValue full for any area meeting the iteration contract; saving/restoring through CircleBuffer inherits the UB of C09")
c("C12", "proved", q("robotArea_visits_all robotArea_needs_position"))
c("C13", "proved", q("Bres.line_correct Bres.line_off_map Bres.line_off_map_isFree_ub Bres.line_reads Bres.set_correct Bres.set_off_map"))
c("C14", "proved", q("Bres.line_accurate"))
c("C15", "partial", q("lineCells_eq lineArea_correct Bres.lineArea_off_map_partial Bres.lineArea_below_ub"), "holds for endpoints on the map and beyond its right or upper edge; FALSE of the code left of or below the map: undefined behaviour, proved")
c("C16", "partial", q("lineCheck_iff lineFree_iff_partial lineFreeOrUnknown_iff_partial lineFree_off_map_true lineFree_ignores_start"),
  "FALSE at two points, both proved: endpoints off the map give true without testing; the start cell is not tested")
c("C17", "proved", q("Bres.line_no_overflow Bres.line_overflow Bres.line_overflow_col Bres.nextC_iff"))
c("C25", "proved", q("search_terminates_valid grid_walk_free grid_search_short"),
  "for every graph, open list and cost type; grid_search_short proves the finding that the last step into the goal cell is not part of the returned path")
c("C26", "proved", q("path_cost_le_stored dist_never_increases"))
c("C27", "proved", q("search_optimal_general search_optimal_consistent search_optimal_admissible dijkstra_optimal grid_search_optimal grid_search_shortest dirs4_exact dirs8_exact dirs_nodup"))
c("C28", "proved", q("hZero_consistent hL2_consistent hLInf_consistent hL1_consistent_4 hL1_overestimates_8 hMax_consistent hMax_admissible euclid4 euclid8 hL2Over_straight gridHypot_spec"))
c("C29", "proved", q("search_terminates_valid processNeighbor_reaches expand_assert"), "also: the assert that a node is not its own neighbour never fails")
c("C30", "proved", q("search_complete search_empty_iff"))
c("C31", "partial", q("repeated_search_fails search_after_setMap_partial"),
  "the property is FALSE of the code: node labels are never reset, so a second search from the same free start fails (proved for every graph); after setMap the result is that of a fresh object; C80 says exactly which later searches succeed")
c("C32", "partial", q("documented_exceptions_never off_map_propagates occupied_gives_empty"),
  "the property is FALSE of the code: the documented exceptions are never thrown; what happens instead is proved")
c("C33", "proved", q("oversearch_exhaustive"))
c("C34", "proved", q("search_terminates_valid"), "the time limit is a nondeterministic abort at any expansion")
c("C35", "proved", q("queue_fifo stack_lifo isMarked_mark isMarked_unMark marks_independent marks_disjoint"))
c("C36", "proved", q("intermission_schedule intermission_zero"))
c("C56", "proved", q("expStep_spec expansion_first_calls expansion_gap_le expansion_period"))
c("C06", "proved", q("RMap.point2cell_of_inRotCell RMap.roundtrip RMap.cell2point_centre RMap.cell2point_injective"))
c("C07", "partial", q("RMap.getOrigin_roundtrip_iff RMap.isInMapD_true_iff RMap.isInMapD_ignores RMap.isInMapD_iff_onRotRect_partial RMap.isInMapD_rejects_map_points RMap.isInMapD_accepts_off_map"),
  "the property is FALSE of the code: getOrigin returns the rotated origin, isInMap(double,double) ignores origin and resolution; exact characterisation, the part that holds, and refutations are proved")
c("C51", "proved", q("rotate_dot rotate_length rotate_eucl rotate_rotate rotate_neg_rotate ortho_spec resize_spec normalize_length fromPolar_angle_length angle_fromPolar distTo_metric pos2map_map2pos tmpRound_nearest tmpRound_defined pose_arith sdiv_smul default_pose RMap.pos2map_ignores_rotation"),
  "findings beside it: pose arithmetic drops the orientation, pos2map/map2pos ignore the rotation of a rotated map")
c("C18", "partial", q("gmgr_setMap gmgr_lookup_exact gmgr_lookupD_eq gmgr_lookupRef_eq gmgr_lookupRef_off_map"),
  "full for lookup(int,int) and lookup(double,double); the overload for points is wrong left of / below the map (proved exactly)")
c("C19", "proved", q("ssManager_exact dsManager_exact"))
c("C20", "partial", q("angle2index_in_range angle2index_iff angle2index_last_unused angle2index_slotTheta angle2index_close_partial"),
  "range holds for every angle; consistency is FALSE of the code: the stored orientation of slot t>=1 is looked up as slot t-1, and the last slot is never used")
c("C21", "partial", q("DMgr.lookup_exact_partial DMgr.lookup_outside DMgr.lookup_minus32_throws DMgr.lookup_minus32_poisons DMgr.lookup_bottom_out_of_range"),
  "holds for every history and state off the padding lines x=-32, y=-32; on these lines (which contains() accepts) it is FALSE of the code, proved for every map")
c("C57", "partial", q("dynLine_iff_partial dynLine_near_edge dynLine_small_map dynSkips_spec dynLine_thick_obstacle pt_spec"),
  "FALSE of the code: only every (skips+1)-th cell is tested, and nothing at all if an endpoint is within 32 cells of the right/top edge; exact characterisation proved")
c("C58", "partial", q("DMgr.hasNode_shifted DMgr.hasNode_misses"),
  "FALSE of the code: the padding is not added, so the answer is that of the chunk 32 cells to the lower left; proved for every history")

c("C22", "proved", q("Legacy.planPath_valid"), "for every floating-point arithmetic (the numeric operations are arbitrary functions) and every history of the object")
c("C23", "proved", q("Legacy.planPath_complete"), "includes absence of undefined behaviour; finding beside it: resizing the map object in place and passing it to setNewMap again keeps the old node list (Legacy.setNewMap_same_object_stale, Legacy.resized_map_null_dereference)")
c("C24", "proved", q("Legacy.planPath_history_independent"), "also independent of the content of uninitialised memory")
c("C59", "proved", q("Legacy.planPath_length"))

c("C37", "proved", q("RS.parse_accepts_iff RS.parse_reject RS.parse_defined_iff RS.parse_total"), "findings beside it: the returned flag is inverted against the header comment; a pattern starting with (b) fails an assertion")
c("C38", "proved", q("RS.findPath_best RS.findPath_defined RS.check_rejects RS.check_ub RS.findPath_needs_maxArc"), "findings beside it: without set_max_curve_arc an uninitialised member is read; patterns of 3-4 elements beginning or ending with S fail an assertion")
c("C40", "proved", q("RS.drive_kinematics RS.computeArc_spec RS.computeArc_full_turn RS.computeArc_empty RS.computeArc_signed RS.drive_arc"))
c("C42", "proved", q("RS.externalTangent_join RS.internalTangent_join RS.commonTangent_join RS.tangentialCircle_join RS.tangentialDouble_join"))
c("C60", "proved", q("RS.findPath_motion"))

c("C39", "proved", q("RS.lineCheck_spec RS.lineList_digital RS.checkCircle_spec RS.ringCell_accurate RS.onSegment_iff RS.findPath_clear RS.findPath_motionClear RS.check_blocked RS.lineCheck_off_map RS.checkCircle_zero"),
  "findPath_motionClear: about the motion driven from the start; an accepted curve has every in-map cell of its straights free and every sampled ring cell on its arcs free; what fails in the code: a straight may leave the map without being rejected (RS.lineCheck_off_map), while a turn is rejected when any part of the whole circle leaves the map")
c("C41", "proved", q("RS.collect_all RS.collect_empty RS.reset_restarts RS.read_started RS.allPoses_waypoints RS.findPath_waypoints RS.straight_spacing RS.turn_overshoot"),
  "termination, order, start pose and exact positions are proved; the spacing claim is FALSE of the code: a straight is sampled with spacing >= the configured maximum, a turn may be sampled beyond its end")
c("C61", "proved", q("RS.findPath_free_space RS.findPath_free_space_map RS.findPath_csc_box RS.findPath_example"),
  "findPath_csc_box: turn-straight-turn motions on bounded maps, in any free rectangle that contains both turning circles")
c("C62", "proved", q("RS.findPath_history RS.findPath_histories RS.parse_fresh RS.findPath_history_example"))

c("C43", "proved", q("Shapes.foot_spec Shapes.project_eq_foot Shapes.nearest_spec"))
c("C44", "proved", q("Shapes.parallel_spec Shapes.signedDist_sign Shapes.relPos_spec Shapes.selectStart_accepts_far Shapes.select_spec Shapes.ofPose_spec"),
  "finding beside it: the sidedness tolerance is not scaled by the length of the line, so selectStartPoint accepts points arbitrarily far from a short line")
c("C46", "proved", q("Shapes.new_spec Shapes.setStart_spec Shapes.setEnd_spec Shapes.createFrom_spec Shapes.createTo_spec Shapes.angleOf_spec Shapes.selectStart_spec Shapes.selectEnd_spec Shapes.wrap_spec Shapes.wrap_loop Shapes.onArc_sound Shapes.onArc_complete Shapes.onArc_misses_own_end Shapes.arc_nearest_spec Shapes.new_zero"),
  "findings beside it: direction 0 divides by zero; isPointOnArc may deny the arc's own end point")
c("C47", "partial", q("Shapes.toPoints_spec Shapes.toPoses_spec Shapes.toPoses_last_garbage Shapes.arc_toPoses_spec Shapes.arc_toPoses_ends Shapes.arc_toPoints_spec Shapes.arc_toPoints_off"),
  "holds for Circle::toPoses and Line::toPoints; FALSE of the code for Line::toPoses with start pose (last pose never written) and Circle::toPoints (centre not added), both proved exactly")
c("C45", "proved", q("Shapes.intersectCC_sound Shapes.intersectCC_complete Shapes.intersectCC_stale Shapes.intersectCC_inner_missed Shapes.intersectLC_sound Shapes.intersectLC_complete Shapes.intersectArcs_sound Shapes.intersectArcs_complete"),
  "findings beside it: nearly concentric circles leave the output vector uncleared; the tolerance does not apply to circles touching from inside")
c("C63", "partial", q("Shapes.tangentCircles_spec Shapes.pathLineCircle_smooth Shapes.pathLineCircle_best Shapes.pathCircleLine_smooth Shapes.pathCircleCircle_smooth Shapes.tangentInnerCircles_spec Shapes.tangentInnerCircles_too_large Shapes.pathShapeCircle_line Shapes.tangentInnerArcs_smooth Shapes.pathCircleCircle_fromSmall Shapes.pathShapeCircle_arc_backward Shapes.pathCircleLine_best Shapes.pathCircleCircle_best Shapes.tangentInnerArcs_best Shapes.tangentInnerArcs_seam Shapes.TanEx.pathCircleCircle_example Shapes.TanEx.tangentInnerArcs_not_shortest"),
  "full for lines (both directions smooth, complete and shortest); between circles from large to small: smooth and shortest in general position for opposite turning directions; FALSE of the code (all proved): from the small circle nothing is ever returned, for equal turning directions the path has a cusp, and tangentInnerArcs ignores connecting arcs that cross the angle zero, so it can return an arc of more than half a turn although one of less than half a turn exists")

c("C50", "partial", q("footprint_exact footprint_sound footprint_corners footprint_defined footprint_misses_front CMap.areaIndex_spec CMap.orientation_wrong CMap.new_footprint CMap.isFreeRotated_iff CMap.isOccupiedRotated_iff CMap.isNoInformationRotated_iff CMap.isFreeRotated_front_missed CMap.isFreeTheta_ignores"),
  "termination, index range and exact behaviour of the tests are proved; the covering claim is FALSE of the code: the samples form a bow tie (front and back centre uncovered), the angle in radians is used as index (7 of 128 footprints used, never the nearest), and isFree(x,y,theta) ignores the footprint (all proved)")

c("C52", "proved", q("advance_steer_bounded advance_steer_rate advance_switch advance_forward_only advance_cost advance_cost_pos advance_drives advance_dist_le_cost advance_keep advance_dead_end trace_steer_bounded trace_steer_rate trace_drives trace_switch_before trace_switch_after expandAll_steer_bounded committed_node_turns switch_from_turned_wheels forward_only_custom_uninitialised dynAdvance_steer_bounded dynAdvance_switch dynAdvance_cost_pos dynAdvance_drives dynAdvance_dist_le_cost dynExpandAll_ok dyn_backward_only_stuck dyn_first_backward_step iterateFree_offers"),
  "also: each step is a motion of the bicycle model (ODE), Euclidean distance never exceeds the step cost. Findings beside it: a committed node still generates turning successors which are dead ends; the node at which the direction changes need not be straight; with moves=FORWARD the custom flag is uninitialised; with forward driving forbidden a forward start node has no successors")
c("C64", "proved", q("search_path_trace searchRun_treeOk noReopen_example reopened_node_breaks_path"),
  "search_path_trace: for every search without reopening; reopened_node_breaks_path: the claim fails when closed nodes are reopened (inconsistent heuristic)")
c("C65", "proved", q("nhAdvance_length nhAdvance_turn nhAdvance_along_heading nhAdvance_switch nhAdvance_cost_pos nhAdvance_turn_exact nhIsGoal_iff nh_committed_halfstep_turns"),
  "finding beside it: with half steps a node committed to straight driving may turn")
c("C66", "proved", q("wrapAngle_spec dynIsGoal_iff segDistance_attained segDistance_minimal steerIsGoal_sound steerIsGoal_near"))

c("C53", "proved", q("DTR.exact_rounds DT.loop_terminates DT.dt_exact DT.dt_unreached_iff DT.bestNb_spec DT.backtrack_terminates DT.backtrack_spec DT.dt_descend DT.dt_path DT.dt_complete DT.dt_unreachable_path DT.shape4 DT.shape8 DT.dt_four_neighbours_stuck"),
  "findings beside it: an unreachable start yields the one-pose path [start]; with a four-neighbourhood the descent can get stuck; border cells are never updated")
c("C54", "partial", q("DT.holoCompute_fin DT.holo_unset DT.holo_le_interior_walk_partial DT.holo_overestimates DT.holo_padding_shift DT.holo_exact_padded DT.holo_terminates"),
  "lower bound proved for walks in the interior of the map without padding; FALSE of the code in general: holo_overestimates (walks along the border), holo_padding_shift (padding not compensated); holo_unset: setMap is never called by any search so the heuristic is 0 there")

c("C48", "proved", q("Sampling.yields_unique Sampling.ring_yields Sampling.ring_spec Sampling.ring_new Sampling.ring_fields_kept Sampling.ring_wide_crosses_centre Sampling.centroid_yields Sampling.centroid_spec Sampling.centroid_single Sampling.facing_distance Sampling.centroid_gain_skewed Sampling.centroid_history Sampling.centroid_fields_kept Sampling.poseList_next Sampling.poseList_yields Sampling.poseList_null Sampling.poseList_new Sampling.centroid_new"),
  "findings beside it: a ring wider than twice its radius yields samples across the centre; the gain of the centroid region is skewed by one (the single sample has gain 3); the ring never writes the gain")
c("C49", "proved", q("Sampling.createPath_spec Sampling.createPath_off_map Sampling.attempts_eq_offers Sampling.createPath_best Sampling.createPath_defined Sampling.createPath_drives Sampling.createPath_example Sampling.start_below_accepted Sampling.expensive_discarded RS.Curve.isValid_iff"),
  "findings beside it: start poses left of/below the map are not rejected; valid curves of cost >= 999999 are discarded")

c("C55", "proved", q("MapGen.new_negative MapGen.hilbert_spec MapGen.hilbertRun_spec MapGen.hilbertRun_fixed MapGen.run_spec MapGen.run_example MapGen.wall_iff MapGen.room_open MapGen.picture_connected MapGen.maze_picture MapGen.hilbert_picture MapGen.start_beyond_ub MapGen.second_run_diverges MapGen.width_one_outside MapGen.single_room_untouched MapGen.pickCell_spec"),
  "findings beside it: the Hilbert curve always has level 8 and starts at room (1,1); a start beyond the last complete room writes out of bounds; run works only once per object; constructor argument 1 gives rooms outside the picture; a single room is not painted")

c("C67", "proved", q("RS.findPath_optimal RS.findPath_cost RS.findPath_cost_any RS.check_optimal RS.handleC3_best RS.handleC4_best RS.csc_unique RS.ccc_unique RS.cccc_unique RS.findPath_overlap RS.overlap_motion RS.uTurn_motion"),
  "findings beside it: turn-straight-turn curves with overlapping circles are never found although for equal sides a motion exists (overlap_motion); empty right-forward/left-backward turns are planned as full turns (computeArc_full_turn), hence positive turned angles in the statement")

c("C68", "proved", q("Table.angleIdx_range Table.compute_outside Table.compute_inside Table.compute_row_zero Table.init_keeps_layers Table.factor_unset Table.factor_set Table.findPath_near Table.precompute_never Table.main_refuses Table.main_pixels Table.layerSize_iff Table.main_accepts_too_fine"),
  "mostly findings: rows are mirrored and shifted by one, row 0 reads out of bounds, the last angle layer is never used, init appends instead of replacing, the program writing the table dereferences a null pointer at the cell next to the goal")

c("C69", "proved", q("RSExp.expand_sound RSExp.expand_defined RSExp.expand_history RSExp.expand_complete RSExp.expand_complete_box RSExp.findPath_csc_bounded RSExp.expand_unthrottled RSExp.expand_backward RSExp.expand_disabled RSExp.expand_example"),
  "findings beside it: the throttle survives the search (expand_unthrottled), so the start node of the next search may be expanded, which is undefined behaviour (expansion_at_start_ub); backward expansion never succeeds although it can be enabled")

c("C70", "proved", q("dyn_search_ends steer_search_ends kin_search_ends kin_search_total"),
  "kin_search_ends: for every map interface, neighbourhood, heuristic; dyn_/steer_search_ends: the instances on the chunk manager")

c("C71", "proved", q("dyn_path steer_path dyn_exact steer_exact kin_path kin_exact_without_heuristic kin_inexact_with_heuristic SteerEx.example_path"),
  "kin_inexact_with_heuristic refutes exactness when a heuristic is used (a node is given another pose after it was expanded)")

c("C72", "proved", q("dyn_complete steer_complete dyn_blocked pad_blocked kin_complete kin_complete_lattice"),
  "for SteeringNeighborhood the closedness speaks of steps that do not depend on predecessors; kin_complete_lattice: full completeness if cells never hold two poses")

c("C73", "partial", q("goal_heading_ignored SteerEx.example_path dyn_path"),
  "false of the code: goal_heading_ignored; what holds (dyn_path): the last pose passes the test against the goal or a reached pose of the goal cell with heading slot 15")

c("C74", "proved", q("DMgr.chunk_lookup_refines DMgr.ref_inj DMgr.lookup_left DMgr.lookup_bottom"),
  "justifies the lookup function used by the search model of C70 - C73")

c("C75", "proved", q("custom_search_valid custom_search_complete custom_result_unique customTest_without_candidate_empty"),
  "the goal test is an arbitrary function of the node and the state of the search; that a test which stops at a node it does not accept loses the path is also proved (customTest_without_candidate_empty)")
c("C76", "proved", q("region_search_shortest heuristic_goal_no_effect"),
  "exact arithmetic; the second theorem needs a goal test that depends on the node only and goal candidates switched off")
c("C77", "proved", q("custom_candidates_listed pose_candidates_listed"),
  "with reversed searches the candidates are not reversed (C78)")

c("C78", "proved", q("dyn_reversed_exact dyn_reversed_path steer_reversed_exact steer_forward_exact reversed_goal_test_ends_at_from"),
  "exact arithmetic; bicycle model as differential equations in Spec/Steering; the last theorem records that goal-test searches are turned round although they begin at from")

c("C79", "proved", q("hybrid_search hybrid_result pad_hybrid dyn_hybrid_ends dyn_hybrid dyn_hybrid_gives_up dyn_hybrid_steps steer_hybrid_ends steer_hybrid start_expansion_ub HybridEx.start_expansion_example HybridEx.toy_run HybridEx.toy_ends_expanded HybridRun.hybrid_run"),
  "hybrid_search: for every state space and every expansion; dyn_/steer_hybrid: the two steering neighbourhoods with ReedsSheppExpansion; start_expansion_ub and its concrete instance record the undefined behaviour of a first search whose start can be expanded")
c("C80", "proved", q("later_search_sound later_custom_sound later_search_complete later_search_iff used_dist later_candidates later_pose_candidates SearchEx.second_search"),
  "complements C31 (a repeated search from the same start fails): exactly which paths the stale labels hide. For searches whose nodes carry no pose (grid maps); the map does not change between the searches")

c("C81", "proved", q("bfs_fewest_moves bfs_complete gridDelta_spec bfsDirs_unit"))
c("C82", "proved", q("Render.renderCells_pixel Render.fillPixel_spec Render.squares_cover Render.fill_spec Render.grey_range Render.grey_antitone Render.cellColour_spec Render.findFocus_covers Render.findFocus_contrast"),
  "OpenCV drawing primitives are modelled by the pixels they cover; the one-metre raster drawn on top is not modelled; contrast for at least two pixels per cell")
c("C83", "partial", q("Render.maxDist_spec Render.stageColour_convex Render.visGrid_pixel Render.fillCell_pixel Render.stageColour_near_ub Render.visGrid_start_ub"),
  "the property is FALSE of the code: the colour of the start node (distance 0) reads the table at index -1, so drawing is undefined after every search; for nodes not nearer than 1/10000 of the largest distance it holds")
c("C84", "partial", q("Eval.clickCell_above Eval.clickCell_off_map Eval.dragAngle_spec Eval.obstacleCorner_spec Eval.drawObstacle_rect"),
  "the property is FALSE of the code for clicks: the cell above the one clicked is selected, off the map for the top row; heading and obstacles (outside the top pixel row of a cell) are proved")
c("C85", "partial", q("Eval.generateMap_spec Eval.invert_spec Eval.construct_restores Eval.construct_overwrites Eval.construct_throws"),
  "the property is FALSE of the code for restoring: an evaluator of another size or resolution overwrites the saved map; with the same size and resolution everything is restored")
c("C86", "partial", q("Eval.draws_spec Eval.video_run Eval.video_speed"),
  "the property is FALSE of the code: every max(1, skip)-th picture is recorded although the announced speed is skip + 1; the recorded frames are characterised exactly")
c("C87", "proved", q("grid_search_double_optimal grid_search_rounded_complete grid_search_rounded FreePath.cut_loops dijkstra_optimal_rounded search_beats_frontier Spec.binary_rounding"),
  "rounding to nearest with 53 binary digits and any tie rule; overflow and underflow not modelled, hypot taken as correctly rounded")
c("C88", "partial", q("GridMap.point2cellF_wellInside GridMap.point2cellF_double GridMap.point2cellF_cell2pointF GridMap.roundtrip_double GridMap.roundtrip_float_partial GridMap.roundtrip_float_fails GridMap.roundtrip_double_fails"),
  "the property is FALSE of the code for far origins: the float overload loses the cell for national grid coordinates (origin 4194304 m, 1/16 m cells), the double one for origins 2^54 cells away; proved up to 2^50 cells (double) and 2^21 cells (float)")
c("C89", "partial", q("Own.chunkCount_table Own.setMapDyn_slot Own.ownership_clean Own.ownership_no_leak Own.destroy_exact Own.others_untouched Own.copyCurve_deep Own.copyMap_deep Own.node_pointer_valid_iff Own.dyn_pointers_dangle Own.dyn_pointers_stable Own.memberwise_double_free Own.memberwise_leak Own.memberwise_parent Own.demo_objects Own.curve_assign_double_free"),
  "proved for every history without member-wise copies; the property is FALSE of the code for the assignment operator of Curve and CollisionGridMap2d and both copy operations of the node managers and AStar, which the classes leave to the compiler: double free and leak proved for every class and state")
c("C90", "partial", q("FourWs.update_moves FourWs.crab FourWs.circular FourWs.radius_ge FourWs.run_spec FourWs.allowed_range FourWs.steerAngle_allowed FourWs.steerAngle_onto FourWs.steering_held FourWs.steering_drawn FourWs.image_spec FourWs.pixel_meaning FourWs.reset_keeps_bots FourWs.setNumBots_spec FourWs.setSpeed_spec FourWs.no_slip FourWs.crab_direction FourWs.first_second"),
  "the property is FALSE of the code in one point: the angles are redrawn every 1.1 s (every eleventh step), not every second as configured; everything else proved for the first billion steps")
c("C91", "partial", q("castU_cell angle2index_sector dsLookupD_exact dsLookupI_exact dsLookupRef_exact dsLookupPose_eq dsLookupD_same_iff dsLookup_own_pose ssLookupD_exact ssLookupI_throws"),
  "the property is FALSE of the code in two points: lookup(point) accepts poses up to one cell left of or below the map (and is undefined for coordinates below -1), and the pose stored in a state finds the neighbouring heading slot; everything else proved for every real pose")
c("C92", "proved", q("later_kin_ends later_kin_path later_kin_frame later_kin_complete later_kin_repeat kFindOn_fresh padFindOn_fresh padUsed_spec laterStart_near later_pad_ends later_pad_path later_pad_occupied dyn_later_ends dyn_later_path steer_later_ends steer_later_path padUsed_steer padUsed_find padUsed_noGoal Spec.KUsed.find Spec.KUsed.test Spec.KUsed.thrown during_kFindOn during_kLoopT SteerEx.example_used"),
  "histories of searches left at any point; exact arithmetic; the position in the start cell and the steering angle a later search begins with are whatever an earlier search has left there (LaterStart); later_kin_repeat records that a repeated successful search returns nothing")
c("C93", "partial", q("default_path statics_params statics_after statics_initial dynAlgoS_eq undisturbed disturbed_step disturbed_angle disturbed_too_sharp disturbed_path stale_step nh_statics nh_disturbed_step Spec.DrivesTo.scale Spec.DrivesTo.chord StaticsEx.example_too_sharp StaticsEx.example_other_order StaticsEx.example_stale"),
  "the property is FALSE of the code: static members shared by all objects; the effect is characterised exactly (when undisturbed, which vehicle drives the steps otherwise, when the steering limit is exceeded, what a late change of distance_step affects), with concrete witnesses")
c("C94", "proved", q("kin_custom_ends kin_custom_unique kin_custom_path kin_custom_complete kin_custom_exact pad_custom_ends pad_custom_path pad_custom_exact pad_custom_complete dyn_custom_ends dyn_custom_path dyn_custom_exact dyn_custom_complete steer_custom_ends steer_custom_path steer_custom_exact steer_custom_complete straight_custom SteerEx.example_custom"),
  "simulation of the search with a goal test by the search without goals, invariants over the iterations; instantiated for both steering neighbourhoods; straight_custom and example_custom show that paths are found")
c("C95", "partial", q("config_eq_pose config_direction_ignored straight_custom SteerEx.example_custom"),
  "the property is FALSE of the code; proved: the search from a configuration is the search from its pose, whatever the other members; a configuration that drives backwards is given a path that drives forwards")

c("C96", "partial", q("DStar.dstar_ends DStar.dstar_path_partial DStar.dstar_unreachable_ub DStar.dstar_start_is_goal DStar.dstar_grid_path_partial DStar.dstar_grid_no_path_ub DStar.dstar_grid_occupied_start_ub DStar.dstar_second_search_ub DStar.dstar_twice_ub DStar.dstar_not_shortest DStar.dTotal_not_key_order DStar.dTotal_mono DStar.lessKeys_lex"),
  "the property is FALSE of the code (which moreover does not compile as it stands; the model reads start and goal as single nodes); proved: the search always ends, returns a valid path without repeated cells iff one exists, takes an element from the empty open list otherwise; counterexamples for optimality and for repeated searches")
c("C97", "proved", q("later_custom_ends later_custom_path later_custom_frame later_custom_complete later_custom_now kFindTestOn_fresh padFindTestOn_fresh padFindConfigOn_fresh padUsed_test padUsed_config later_pad_custom_ends later_pad_custom_path later_pad_config_ends later_pad_config_path dyn_later_custom_ends dyn_later_custom_path dyn_later_config_path steer_later_custom_ends steer_later_custom_path steer_later_config_path laterConfig_near SteerEx.example_later_custom"),
  "the position in the start cell and the steering angle a later search begins with are whatever an earlier search has left there (LaterStart, LaterConfig); exact arithmetic")
c("C98", "proved", q("kin_overlooks kin_cheapest_lattice kin_overlooks_happens dyn_overlooks steer_overlooks"),
  "kin_overlooks_happens: a drive can be overlooked altogether, although there is neither heuristic nor time limit; exact arithmetic for the steering neighbourhoods")
c("C99", "proved", q("search_counters custom_counters consistent_counters exhausted_counters consistent_steps grid_search_work later_all_multi touched_accumulates touched_monotone CountEx.twice CountEx.again"),
  "counters are natural numbers; exact cost arithmetic for the work bounds, any arithmetic for the balance; the container of the priority queue enters through its contract (Counts), which the reference implementation and the two shipped ones meet")
c("C100", "proved", q("RS.findPath_straight_near RS.findPath_turn_near RS.findPath_margin RS.findPath_margin_straight RS.elemClear_turn_near RS.elemClear_straight_near RS.csc_near RS.corner_cut RS.uturn_found RS.straight_ahead"),
  "cells are unit squares with integer corners; the last pi/(R-1) of turning at each end of a turn is not covered (a short turn may have no tested cell at all); conversions beyond 32 bits are not modelled")
c("C101", "proved", q("drive_near dyn_path_near dyn_path_safe steer_path_near steer_path_safe ClearEx.arc_hits_obstacle ClearEx.example_safe"),
  "drive_near: one step; *_path_near: every path, with or without heuristic; *_path_safe: map with a margin, no heuristic; arc_hits_obstacle: finding without margin; example_safe: the hypotheses are met by a search on a 100 x 100 map")
c("C102", "proved", q("kin_counters kin_work pad_counters dyn_work steer_work kFindPathStats_fst padFindPathStats_fst KCountEx.more_than_moves KCountEx.without"),
  "counters are natural numbers; *_fst: the search that is counted is the one of the other theorems; exact arithmetic for the steering neighbourhoods; more_than_moves: finding with a heuristic")
c("C103", "proved", q("dyn_hybrid_safe steer_hybrid_safe hybrid_safe lineOk_end RS.csc_near RS.findPath_motionClear HybridRun.hybrid_run HybridRun.inflated"),
  "csc_near: a tested motion turn-straight-turn between two poses near cells that are not occupied; *_hybrid_safe: searches; poses well inside the map means more than 32 cells from the right and upper border (C101)")
c("C104", "proved", q("hybrid_complete dyn_hybrid_complete dyn_hybrid_no_way steer_hybrid_complete steer_hybrid_no_way pad_hybrid_complete refuses_no_way HybridRun.way HybridRun.hybrid_run"),
  "hybrid_complete: every state space and every expansion; HybridRun.hybrid_run: a complete search with expansion on a 100 by 100 map, where the search without expansion gives up and the one with expansion must not, ends with a path as in C79 and C103; for SteeringNeighborhood, as in C72, with REVERSED = false")
c("C105", "proved", q("later_hybrid_ends later_hybrid later_pad_hybrid_ends later_pad_hybrid padUsed_findX dyn_later_hybrid steer_later_hybrid padFindXOn_fresh xFindOn_fresh later_expansion_stale SteerEx.example_later_hybrid"),
  "later_hybrid: every state space and every expansion; the history may contain searches with expansion because padUsed_findX / the KUsed conjunct of later_hybrid give back a used object; later_expansion_stale: the finding, a path that drives in a circle along poses of earlier searches before the expansion")
c("C106", "proved", q("angle2index_double angle2indexF_range angle2indexF_exact angle2indexF_slotTheta slotCoordF_err slotThetaF_err angle2index_double_pi clampedNear_of_spec"),
  "angle2indexF_*: any format with unit roundoff at most 1/64 and any number of slots; angle2index_double: the instance used by the library")
c("C107", "proved", q("dyn_later_safe dyn_later_hybrid_safe steer_later_safe steer_later_hybrid_safe later_hybrid_safe later_start_safe way_safe HybridRun.later_run"),
  "every pose of a state is represented by the pose of another visit (x' in SafeLaterPath), as in C92; later_run: a concrete search with expansion that meets the hypotheses")
c("C108", "proved", q("grid_search_clear legacy_clear dt_clear fits_clear king_path_clear straight_path_clear wide_path_clear steps4 steps8 stepsF corner_touches straight_touches wide_touches fits_zero GridClearEx.robot_fits GridClearEx.squeezes GridClearEx.legacy_fits GridClearEx.dt_fits"),
  "cells are unit squares, robot a disc, motion in straight lines between cell centres; the start cell of a generic search and the goal cell of the two others are not tested by the code, hence the hypothesis; corner_touches, straight_touches, wide_touches: the bounds are sharp; squeezes: finding")
c("C109", "proved", q("Drift.dyn_step_near Drift.steer_step_near Drift.dyn_drift Drift.steer_drift Drift.dyn_search_drift Drift.steer_search_drift Drift.dyn_search_steps Drift.steer_search_steps Drift.usable_bounds Drift.double_drift Drift.dyn_search_double Drift.dyn_same_step Drift.steer_same_step Drift.whole_delta DriftEx.search_example"),
  "rounding to nearest with unbounded exponents; sin/cos accurate to 2u absolutely, tan to 2u relatively, AngleClamp near-exact (ArithOk); unit roundoff at most 1/10000; max_steer between 0 and 60 degrees (beyond that tan is ill-conditioned); coordinates bounded (usable_bounds: by the map)")
c("C110", "proved", q("Drift.exec_near Drift.passes_near Drift.dyn_exec_safe Drift.steer_exec_safe Drift.dyn_double_safe ExecEx.example_exec"),
  "same arithmetic assumptions as C109; the vehicle itself moves exactly (bicycle model); poses keep away from the edge of the map (FarFromEdge), where the line test does not look")
c("C111", "proved", q("MapChange.grid_classes MapChange.getCost_range MapChange.legacy_classes MapChange.steer_classes RS.findPath_values MapChange.grid_freed MapChange.legacy_freed RS.findPath_freed MapChange.upTo_shortest MapChange.there_and_back"),
  "for curves 'removing obstacles' needs a maximum arc of more than four turns: otherwise the cheaper of two mirrored solutions that became free may exceed the maximum arc and is rejected although the other one would do")
c("C112", "proved", q("CurveRender.drawMap_pixel CurveRender.colours_differ CurveRender.drawMap_small CurveRender.point_pixel CurveRender.bottom_outside CurveRender.left_border CurveRender.draw_findPath CurveRender.ground_shapes CurveRender.draw_nothing CurveRender.arrow_corners CurveRender.arrow_thickness CurveRender.draw_zero_thickness"),
  "calls of OpenCV's drawing functions are recorded with their arguments; what OpenCV paints for them is not modelled")
c("C113", "proved", q("RS.findPath_weight RS.findPath_weight_ge RS.findPath_valid RS.findPath_free_of_charge RS.findPath_valid_example RS.findPath_mapWeight RS.price_mono RS.price_uniform RS.price_diagonal RS.findPath_map_example"),
  "")
c("C114", "proved", q("DrawThread.request_served DrawThread.no_lost_wakeup DrawThread.at_most_four DrawThread.request_reachable DrawThread.draw_exclusive DrawThread.call_returns DrawThread.drawn_requested DrawThread.interrupt_one_more DrawThread.request_lost DrawThread.draws_uninvited DrawThread.flag_race"),
  "boost's mutex, condition variable and interruption points by their documented meaning; memory accesses of draw() itself are not modelled; the statement that starts the thread is commented out in the constructor")
c("C115", "proved", q("Editor.history_consistent Editor.history_saved Editor.history_defined Editor.gesture_start Editor.gesture_goal Editor.gesture_obstacle Editor.gesture_focus Editor.gesture_maze Editor.gesture_curve Editor.maze_stale Editor.key_clear Editor.key_invert Editor.key_invert_twice Editor.key_modes Editor.key_text Editor.key_display Editor.key_idle Editor.mode_key_loses Editor.new_defined Editor.obstacle_example"),
  "OpenCV delivers the events one at a time; the map generators are arbitrary functions here (Model/MapGen models the existing ones); files are written atomically and images are stored without loss; drawing is C82-C84")
c("C116", "proved", q("During.grid_during During.grid_one_way During.ends During.sound During.complete During.cost_le During.constant During.moments During.frozen During.grid_moments During.Ex.stale During.Ex.missed"),
  "the callback changes which cells are free, nothing else (not size, labels or the search object); a second thread writing to the map is not modelled; grid searches (the general theorems cover every neighbourhood whose neighbours do not depend on the path)")
c("C117", "partial", q("RMap.point2cellF_rot RMap.point2cellF_rot_double RMap.roundtrip_rot RMap.roundtrip_rot_double RMap.cell2pointF_near RMap.cell2pointF_near_double RMap.roundtrip_rot_two RMap.roundtrip_rot_float_partial RMap.roundtrip_rot_float_fails P2.rotateF_err"),
  "partial because the float overload does not keep cells far from zero (roundtrip_rot_float_fails); overflow, underflow and special values are not modelled; accuracy of the C library's sine and cosine is a hypothesis")
c("C118", "proved", q("Symmetry.moved_same Symmetry.legacy_moved Symmetry.triangle Symmetry.zero_iff MapChange.there_and_back"),
  "exact arithmetic; the copy is described by its free cells, occupied cells may be missing; without time limit and analytic expansion")
c("C119", "proved", q("RSSym.frame_le RSSym.frame_same RSSym.back_le RSSym.back_same_cost RSSym.pose_driveAll RSSym.back_driveAll"),
  "exact arithmetic; curves with an end turn of exactly zero are excluded, there the clamped angle may be 0 or a full turn")
c("C120", "proved", q("KDur.moments KDur.frozen KDur.pad_moments KDur.dyn_moments Spec.TakenAt.length KDur.ends KDur.throws KDur.path KDur.complete KDur.complete_lattice KDur.unchanged KDur.fuel_unique KDur.pad_ends KDur.pad_path KDur.pad_complete KDur.dyn_ends KDur.dyn_path KDur.dyn_complete KDur.pad_unchanged KDur.outdated_step KDur.example_path KDur.exact_blocking KDur.pad_exact_blocking KDur.dyn_exact_blocking KDur.inexact_when_freed"),
  "the callback changes only the values of cells, not the size of the map, and does not call the search; exact arithmetic")
c("C121", "proved", q("XDur.hybrid XDur.result XDur.fuel_unique XDur.unchanged XDur.pad_hybrid_during XDur.dyn_hybrid_during XDur.pad_unchanged XDur.example_path XDurEx.run XDurEx.ends_expanded"),
  "the callback changes only the values of cells, not the size of the map, and does not call the search; exact arithmetic; what the search without expansion does on a changing map is C120")
c("C122", "proved", q("TDur.moments TDur.frozen TDur.pad_moments TDur.dyn_moments TDur.ends TDur.throws TDur.path TDur.complete TDur.exact_blocking TDur.unchanged TDur.fuel_unique TDur.pad_ends TDur.pad_path TDur.pad_complete TDur.pad_exact_blocking TDur.pad_unchanged TDur.dyn_ends TDur.dyn_path TDur.dyn_complete TDur.dyn_exact_blocking TDur.corridor SteerEx.example_corridor"),
  "the callback changes only the values of cells, not the size of the map, and does not call the search; exact arithmetic; the corridor theorem is for a vehicle that can only drive straight ahead")
c("C123", "proved", q("CDur.ends CDur.sound CDur.complete CDur.candidates_listed CDur.moments CDur.constant CDur.region_shortest CDur.grid CDur.grid_shortest"),
  "the callback changes only which neighbours a node has (the values of cells), not the size of the map, and does not call the search; exact arithmetic; one start node in the grid theorems")
c("C124", "proved", q("CB.same CB.same_custom CB.same_kin CB.calls CB.head CB.later CB.rate CB.silent CB.search CB.search_custom CB.search_kin CB.node_makes CB.custom_makes CB.kin_makes CB.program CB.program_zero CB.Ex.second_silent"),
  "searches of one thread; the callback is only counted here (what it may do to the map: C116, C120-C123); counters are integers without overflow")
c("C125", "proved", q("DTR.double_costs DTR.double_path DTR.double_heuristic DTR.round_ends DTR.round_costs DTR.round_path DTR.loop_real"),
  "unbounded exponents; the largest double plus a step is the largest double again (as in binary64); round_* state the same for every monotone rounding with a relative error; C53 and C54 are the same claims in exact arithmetic (loop_real: one model)")
c("C126", "proved", q("Maps.later_sound Maps.later_custom_sound Maps.later_candidates Maps.later_iff Maps.used_dist Maps.stuck_at_start Maps.replan_fails Maps.grid_later Maps.grid_replan_fails Maps.Ex.gap_not_found"),
  "nodes without poses (grid maps, general graphs); C80 is the case of one map (Used.on), C116 and C123 the first search")
c("C127", "proved", q("DT.Metric.zero_iff DT.Metric.symmetric DT.Metric.triangle DT.Metric.consistent DT.Metric.freed DT.Metric.moved DT.Metric.astar_le DT.Metric.astar_eq DT.Metric.heuristic_perfect"),
  "exact arithmetic; without an occupied border the value may exceed the length A* finds (C54: holo_overestimates)")
c("C128", "proved", q("TimeLimit.in_time TimeLimit.unhurried TimeLimit.more_time TimeLimit.path_stays TimeLimit.no_time TimeLimit.path_found TimeLimit.custom_path_found TimeLimit.nearer_end TimeLimit.candidates_stay TimeLimit.custom_better_end TimeLimit.steer_more_time TimeLimit.steer_path_stays TimeLimit.hybrid_more_time TimeLimit.hybrid_path_stays TimeLimit.steer_test_path_found"),
  "the limit is read once per round; when it strikes is an arbitrary predicate on the number of nodes expanded so far; goal tests and acceptance tests must not look at the clock; the map does not change during the runs; a steering search with a goal test is on a freshly initialised map and its longer run may also end in an exception, which is why its theorem assumes that it ends normally")
c("C129", "proved", q("Deadline.no_limit Deadline.kept Deadline.not_early Deadline.larger_limit Deadline.below_millisecond Deadline.usable Deadline.huge Deadline.steer_no_limit Deadline.steer_larger_limit Deadline.steer_kept Deadline.steer_not_early Deadline.steer_below_millisecond Deadline.overflow_exact Deadline.search_overflows Deadline.steer_search_overflows Deadline.hybrid_kept Deadline.hybrid_no_limit Deadline.hybrid_overflows Deadline.hybrid_below_millisecond Deadline.hybrid_larger_limit Deadline.hybrid_not_early Deadline.test_kept Deadline.test_no_limit Deadline.test_overflows Deadline.test_below_millisecond Deadline.test_larger_limit Deadline.Ex.row_found_in_time Deadline.Ex.row_not_found Deadline.steer_test_kept Deadline.steer_test_no_limit Deadline.steer_test_overflows Deadline.steer_test_below_millisecond KinEx.test_two_milliseconds KinEx.test_half_millisecond KinEx.hybrid_two_milliseconds KinEx.two_milliseconds KinEx.half_millisecond"),
  "the clock counts nanoseconds and is read once per round, before the round's expansion; limit * 1e3 exact; larger_limit and not_early without goal candidates (with candidates: C128), with a goal test: a path stays a path; a single round may of course take any time")
c("C130", "partial", q("Again.nothing_again Again.nothing_after_failure Again.steer_nothing_again Again.steer_nothing_after_failure KinEx.start_used KinEx.between_returns"),
  "the positive property is false of the code; proved is that it fails for every map: the stored distances of the first search block every move from the start. Without goal candidates in the first search; a path that consists of the start cell alone is excluded, and all start nodes must have been taken off the open list. The versions for poses (steer_...) are for the next search, the general ones for any searches in between, left at any point")

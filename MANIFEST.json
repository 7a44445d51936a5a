{
 "claims": [
  {
   "property": "C01",
   "status": "proved",
   "theorems": [
    "PathPlanning.GridMap.history_refines",
    "PathPlanning.GridMap.ctor_overflow_ub"
   ],
   "note": "refinement to an abstract cell->byte map for every history; for w*h >= 2^32 the boundary is proved to be real"
  },
  {
   "property": "C02",
   "status": "proved",
   "theorems": [
    "PathPlanning.GridMap.fresh_thresholds",
    "PathPlanning.GridMap.fresh_free",
    "PathPlanning.GridMap.classification_exactly_one",
    "PathPlanning.GridMap.classification_exact",
    "PathPlanning.GridMap.classification_total"
   ],
   "note": ""
  },
  {
   "property": "C03",
   "status": "proved",
   "theorems": [
    "PathPlanning.GridMap.point2cell_of_inCell",
    "PathPlanning.GridMap.point2cell_cell2point",
    "PathPlanning.GridMap.cell2point_injective",
    "PathPlanning.GridMap.subPixel_roundtrip"
   ],
   "note": "exact arithmetic (any linearly ordered floor field)"
  },
  {
   "property": "C04",
   "status": "partial",
   "theorems": [
    "PathPlanning.GridMap.point2cell_true_iff",
    "PathPlanning.GridMap.point2cell_iff_onRect_partial",
    "PathPlanning.GridMap.point2cell_accepts_off_map",
    "PathPlanning.GridMap.point2cell_ub_below"
   ],
   "note": "the full property is FALSE of the code: a one-cell strip below/left of the map is accepted, further below the unsigned cast is UB; exact characterisation and the part that holds are proved"
  },
  {
   "property": "C05",
   "status": "partial",
   "theorems": [
    "PathPlanning.GridMap.isInMapD_iff_onRect_partial",
    "PathPlanning.GridMap.isInMapD_accepts_all_below"
   ],
   "note": "the full property is FALSE of the code: there is no lower bound test; the part for points not below the origin is proved, and the failure for every point below"
  },
  {
   "property": "C08",
   "status": "partial",
   "theorems": [
    "PathPlanning.MapArea.isAreaFree_iff",
    "PathPlanning.MapArea.isAreaOccupied_iff",
    "PathPlanning.MapArea.isAreaNoInformation_iff_none",
    "PathPlanning.MapArea.isAreaNoInformation_wrong"
   ],
   "note": "isAreaFree/isAreaOccupied full; isAreaNoInformation is inverted in the code (true iff NO cell is unknown), proved exactly; iteration contract (Yields) is met by RobotArea but not by CircleArea/LineArea, see C09"
  },
  {
   "property": "C09",
   "status": "partial",
   "theorems": [
    "PathPlanning.circleArea_iteration_never_completes",
    "PathPlanning.circleArea_iteration_ub",
    "PathPlanning.lineArea_iteration_never_completes",
    "PathPlanning.circleArea_functions_fail",
    "PathPlanning.circleArea_visits_tail_partial",
    "PathPlanning.circleArea_drain_iff",
    "PathPlanning.lineArea_drain_iff",
    "PathPlanning.circle_off_map",
    "PathPlanning.circle_ctor_value"
   ],
   "note": "the property is FALSE of the code for every non-empty area: the first cell is skipped and getCell reads one past the end (UB)"
  },
  {
   "property": "C10",
   "status": "proved",
   "theorems": [
    "PathPlanning.circleCells_cover",
    "PathPlanning.circleArea_init_degenerate",
    "PathPlanning.circleArea_init",
    "PathPlanning.circleArea_degenerate",
    "PathPlanning.circleArea_ctor"
   ],
   "note": ""
  },
  {
   "property": "C11",
   "status": "partial",
   "theorems": [
    "PathPlanning.MapArea.setAreaValue_exact",
    "PathPlanning.circleArea_functions_fail",
    "PathPlanning.circleBuffer_init",
    "PathPlanning.circleBuffer_save_fails",
    "PathPlanning.robotArea_write",
    "PathPlanning.robotArea_read",
    "PathPlanning.MapArea.writeArea_const"
   ],
   "note": "setAreaValue full for any area meeting the iteration contract; saving/restoring through CircleBuffer inherits the UB of C09"
  },
  {
   "property": "C12",
   "status": "proved",
   "theorems": [
    "PathPlanning.robotArea_visits_all",
    "PathPlanning.robotArea_needs_position"
   ],
   "note": ""
  },
  {
   "property": "C13",
   "status": "proved",
   "theorems": [
    "PathPlanning.Bres.line_correct",
    "PathPlanning.Bres.line_off_map",
    "PathPlanning.Bres.line_off_map_isFree_ub",
    "PathPlanning.Bres.line_reads",
    "PathPlanning.Bres.set_correct",
    "PathPlanning.Bres.set_off_map"
   ],
   "note": ""
  },
  {
   "property": "C14",
   "status": "proved",
   "theorems": [
    "PathPlanning.Bres.line_accurate"
   ],
   "note": ""
  },
  {
   "property": "C15",
   "status": "partial",
   "theorems": [
    "PathPlanning.lineCells_eq",
    "PathPlanning.lineArea_correct",
    "PathPlanning.Bres.lineArea_off_map_partial",
    "PathPlanning.Bres.lineArea_below_ub"
   ],
   "note": "holds for endpoints on the map and beyond its right or upper edge; FALSE of the code left of or below the map: undefined behaviour, proved"
  },
  {
   "property": "C16",
   "status": "partial",
   "theorems": [
    "PathPlanning.lineCheck_iff",
    "PathPlanning.lineFree_iff_partial",
    "PathPlanning.lineFreeOrUnknown_iff_partial",
    "PathPlanning.lineFree_off_map_true",
    "PathPlanning.lineFree_ignores_start"
   ],
   "note": "FALSE at two points, both proved: endpoints off the map give true without testing; the start cell is not tested"
  },
  {
   "property": "C17",
   "status": "proved",
   "theorems": [
    "PathPlanning.Bres.line_no_overflow",
    "PathPlanning.Bres.line_overflow",
    "PathPlanning.Bres.line_overflow_col",
    "PathPlanning.Bres.nextC_iff"
   ],
   "note": ""
  },
  {
   "property": "C25",
   "status": "proved",
   "theorems": [
    "PathPlanning.search_terminates_valid",
    "PathPlanning.grid_walk_free",
    "PathPlanning.grid_search_short"
   ],
   "note": "for every graph, open list and cost type; grid_search_short proves the finding that the last step into the goal cell is not part of the returned path"
  },
  {
   "property": "C26",
   "status": "proved",
   "theorems": [
    "PathPlanning.path_cost_le_stored",
    "PathPlanning.dist_never_increases"
   ],
   "note": ""
  },
  {
   "property": "C27",
   "status": "proved",
   "theorems": [
    "PathPlanning.search_optimal_general",
    "PathPlanning.search_optimal_consistent",
    "PathPlanning.search_optimal_admissible",
    "PathPlanning.dijkstra_optimal",
    "PathPlanning.grid_search_optimal",
    "PathPlanning.grid_search_shortest",
    "PathPlanning.dirs4_exact",
    "PathPlanning.dirs8_exact",
    "PathPlanning.dirs_nodup"
   ],
   "note": ""
  },
  {
   "property": "C28",
   "status": "proved",
   "theorems": [
    "PathPlanning.hZero_consistent",
    "PathPlanning.hL2_consistent",
    "PathPlanning.hLInf_consistent",
    "PathPlanning.hL1_consistent_4",
    "PathPlanning.hL1_overestimates_8",
    "PathPlanning.hMax_consistent",
    "PathPlanning.hMax_admissible",
    "PathPlanning.euclid4",
    "PathPlanning.euclid8",
    "PathPlanning.hL2Over_straight",
    "PathPlanning.gridHypot_spec"
   ],
   "note": ""
  },
  {
   "property": "C29",
   "status": "proved",
   "theorems": [
    "PathPlanning.search_terminates_valid",
    "PathPlanning.processNeighbor_reaches",
    "PathPlanning.expand_assert"
   ],
   "note": "also: the assert that a node is not its own neighbour never fails"
  },
  {
   "property": "C30",
   "status": "proved",
   "theorems": [
    "PathPlanning.search_complete",
    "PathPlanning.search_empty_iff"
   ],
   "note": ""
  },
  {
   "property": "C31",
   "status": "partial",
   "theorems": [
    "PathPlanning.repeated_search_fails",
    "PathPlanning.search_after_setMap_partial"
   ],
   "note": "the property is FALSE of the code: node labels are never reset, so a second search from the same free start fails (proved for every graph); after setMap the result is that of a fresh object; C80 says exactly which later searches succeed"
  },
  {
   "property": "C32",
   "status": "partial",
   "theorems": [
    "PathPlanning.documented_exceptions_never",
    "PathPlanning.off_map_propagates",
    "PathPlanning.occupied_gives_empty"
   ],
   "note": "the property is FALSE of the code: the documented exceptions are never thrown; what happens instead is proved"
  },
  {
   "property": "C33",
   "status": "proved",
   "theorems": [
    "PathPlanning.oversearch_exhaustive"
   ],
   "note": ""
  },
  {
   "property": "C34",
   "status": "proved",
   "theorems": [
    "PathPlanning.search_terminates_valid"
   ],
   "note": "the time limit is a nondeterministic abort at any expansion"
  },
  {
   "property": "C35",
   "status": "proved",
   "theorems": [
    "PathPlanning.queue_fifo",
    "PathPlanning.stack_lifo",
    "PathPlanning.isMarked_mark",
    "PathPlanning.isMarked_unMark",
    "PathPlanning.marks_independent",
    "PathPlanning.marks_disjoint"
   ],
   "note": ""
  },
  {
   "property": "C36",
   "status": "proved",
   "theorems": [
    "PathPlanning.intermission_schedule",
    "PathPlanning.intermission_zero"
   ],
   "note": ""
  },
  {
   "property": "C56",
   "status": "proved",
   "theorems": [
    "PathPlanning.expStep_spec",
    "PathPlanning.expansion_first_calls",
    "PathPlanning.expansion_gap_le",
    "PathPlanning.expansion_period"
   ],
   "note": ""
  },
  {
   "property": "C06",
   "status": "proved",
   "theorems": [
    "PathPlanning.RMap.point2cell_of_inRotCell",
    "PathPlanning.RMap.roundtrip",
    "PathPlanning.RMap.cell2point_centre",
    "PathPlanning.RMap.cell2point_injective"
   ],
   "note": ""
  },
  {
   "property": "C07",
   "status": "partial",
   "theorems": [
    "PathPlanning.RMap.getOrigin_roundtrip_iff",
    "PathPlanning.RMap.isInMapD_true_iff",
    "PathPlanning.RMap.isInMapD_ignores",
    "PathPlanning.RMap.isInMapD_iff_onRotRect_partial",
    "PathPlanning.RMap.isInMapD_rejects_map_points",
    "PathPlanning.RMap.isInMapD_accepts_off_map"
   ],
   "note": "the property is FALSE of the code: getOrigin returns the rotated origin, isInMap(double,double) ignores origin and resolution; exact characterisation, the part that holds, and refutations are proved"
  },
  {
   "property": "C51",
   "status": "proved",
   "theorems": [
    "PathPlanning.rotate_dot",
    "PathPlanning.rotate_length",
    "PathPlanning.rotate_eucl",
    "PathPlanning.rotate_rotate",
    "PathPlanning.rotate_neg_rotate",
    "PathPlanning.ortho_spec",
    "PathPlanning.resize_spec",
    "PathPlanning.normalize_length",
    "PathPlanning.fromPolar_angle_length",
    "PathPlanning.angle_fromPolar",
    "PathPlanning.distTo_metric",
    "PathPlanning.pos2map_map2pos",
    "PathPlanning.tmpRound_nearest",
    "PathPlanning.tmpRound_defined",
    "PathPlanning.pose_arith",
    "PathPlanning.sdiv_smul",
    "PathPlanning.default_pose",
    "PathPlanning.RMap.pos2map_ignores_rotation"
   ],
   "note": "findings beside it: pose arithmetic drops the orientation, pos2map/map2pos ignore the rotation of a rotated map"
  },
  {
   "property": "C18",
   "status": "partial",
   "theorems": [
    "PathPlanning.gmgr_setMap",
    "PathPlanning.gmgr_lookup_exact",
    "PathPlanning.gmgr_lookupD_eq",
    "PathPlanning.gmgr_lookupRef_eq",
    "PathPlanning.gmgr_lookupRef_off_map"
   ],
   "note": "full for lookup(int,int) and lookup(double,double); the overload for points is wrong left of / below the map (proved exactly)"
  },
  {
   "property": "C19",
   "status": "proved",
   "theorems": [
    "PathPlanning.ssManager_exact",
    "PathPlanning.dsManager_exact"
   ],
   "note": ""
  },
  {
   "property": "C20",
   "status": "partial",
   "theorems": [
    "PathPlanning.angle2index_in_range",
    "PathPlanning.angle2index_iff",
    "PathPlanning.angle2index_last_unused",
    "PathPlanning.angle2index_slotTheta",
    "PathPlanning.angle2index_close_partial"
   ],
   "note": "range holds for every angle; consistency is FALSE of the code: the stored orientation of slot t>=1 is looked up as slot t-1, and the last slot is never used"
  },
  {
   "property": "C21",
   "status": "partial",
   "theorems": [
    "PathPlanning.DMgr.lookup_exact_partial",
    "PathPlanning.DMgr.lookup_outside",
    "PathPlanning.DMgr.lookup_minus32_throws",
    "PathPlanning.DMgr.lookup_minus32_poisons",
    "PathPlanning.DMgr.lookup_bottom_out_of_range"
   ],
   "note": "holds for every history and state off the padding lines x=-32, y=-32; on these lines (which contains() accepts) it is FALSE of the code, proved for every map"
  },
  {
   "property": "C57",
   "status": "partial",
   "theorems": [
    "PathPlanning.dynLine_iff_partial",
    "PathPlanning.dynLine_near_edge",
    "PathPlanning.dynLine_small_map",
    "PathPlanning.dynSkips_spec",
    "PathPlanning.dynLine_thick_obstacle",
    "PathPlanning.pt_spec"
   ],
   "note": "FALSE of the code: only every (skips+1)-th cell is tested, and nothing at all if an endpoint is within 32 cells of the right/top edge; exact characterisation proved"
  },
  {
   "property": "C58",
   "status": "partial",
   "theorems": [
    "PathPlanning.DMgr.hasNode_shifted",
    "PathPlanning.DMgr.hasNode_misses"
   ],
   "note": "FALSE of the code: the padding is not added, so the answer is that of the chunk 32 cells to the lower left; proved for every history"
  },
  {
   "property": "C22",
   "status": "proved",
   "theorems": [
    "PathPlanning.Legacy.planPath_valid"
   ],
   "note": "for every floating-point arithmetic (the numeric operations are arbitrary functions) and every history of the object"
  },
  {
   "property": "C23",
   "status": "proved",
   "theorems": [
    "PathPlanning.Legacy.planPath_complete"
   ],
   "note": "includes absence of undefined behaviour; finding beside it: resizing the map object in place and passing it to setNewMap again keeps the old node list (Legacy.setNewMap_same_object_stale, Legacy.resized_map_null_dereference)"
  },
  {
   "property": "C24",
   "status": "proved",
   "theorems": [
    "PathPlanning.Legacy.planPath_history_independent"
   ],
   "note": "also independent of the content of uninitialised memory"
  },
  {
   "property": "C59",
   "status": "proved",
   "theorems": [
    "PathPlanning.Legacy.planPath_length"
   ],
   "note": ""
  },
  {
   "property": "C37",
   "status": "proved",
   "theorems": [
    "PathPlanning.RS.parse_accepts_iff",
    "PathPlanning.RS.parse_reject",
    "PathPlanning.RS.parse_defined_iff",
    "PathPlanning.RS.parse_total"
   ],
   "note": "findings beside it: the returned flag is inverted against the header comment; a pattern starting with (b) fails an assertion"
  },
  {
   "property": "C38",
   "status": "proved",
   "theorems": [
    "PathPlanning.RS.findPath_best",
    "PathPlanning.RS.findPath_defined",
    "PathPlanning.RS.check_rejects",
    "PathPlanning.RS.check_ub",
    "PathPlanning.RS.findPath_needs_maxArc"
   ],
   "note": "findings beside it: without set_max_curve_arc an uninitialised member is read; patterns of 3-4 elements beginning or ending with S fail an assertion"
  },
  {
   "property": "C40",
   "status": "proved",
   "theorems": [
    "PathPlanning.RS.drive_kinematics",
    "PathPlanning.RS.computeArc_spec",
    "PathPlanning.RS.computeArc_full_turn",
    "PathPlanning.RS.computeArc_empty",
    "PathPlanning.RS.computeArc_signed",
    "PathPlanning.RS.drive_arc"
   ],
   "note": ""
  },
  {
   "property": "C42",
   "status": "proved",
   "theorems": [
    "PathPlanning.RS.externalTangent_join",
    "PathPlanning.RS.internalTangent_join",
    "PathPlanning.RS.commonTangent_join",
    "PathPlanning.RS.tangentialCircle_join",
    "PathPlanning.RS.tangentialDouble_join"
   ],
   "note": ""
  },
  {
   "property": "C60",
   "status": "proved",
   "theorems": [
    "PathPlanning.RS.findPath_motion"
   ],
   "note": ""
  },
  {
   "property": "C39",
   "status": "proved",
   "theorems": [
    "PathPlanning.RS.lineCheck_spec",
    "PathPlanning.RS.lineList_digital",
    "PathPlanning.RS.checkCircle_spec",
    "PathPlanning.RS.ringCell_accurate",
    "PathPlanning.RS.onSegment_iff",
    "PathPlanning.RS.findPath_clear",
    "PathPlanning.RS.findPath_motionClear",
    "PathPlanning.RS.check_blocked",
    "PathPlanning.RS.lineCheck_off_map",
    "PathPlanning.RS.checkCircle_zero"
   ],
   "note": "findPath_motionClear: about the motion driven from the start; an accepted curve has every in-map cell of its straights free and every sampled ring cell on its arcs free; what fails in the code: a straight may leave the map without being rejected (RS.lineCheck_off_map), while a turn is rejected when any part of the whole circle leaves the map"
  },
  {
   "property": "C41",
   "status": "proved",
   "theorems": [
    "PathPlanning.RS.collect_all",
    "PathPlanning.RS.collect_empty",
    "PathPlanning.RS.reset_restarts",
    "PathPlanning.RS.read_started",
    "PathPlanning.RS.allPoses_waypoints",
    "PathPlanning.RS.findPath_waypoints",
    "PathPlanning.RS.straight_spacing",
    "PathPlanning.RS.turn_overshoot"
   ],
   "note": "termination, order, start pose and exact positions are proved; the spacing claim is FALSE of the code: a straight is sampled with spacing >= the configured maximum, a turn may be sampled beyond its end"
  },
  {
   "property": "C61",
   "status": "proved",
   "theorems": [
    "PathPlanning.RS.findPath_free_space",
    "PathPlanning.RS.findPath_free_space_map",
    "PathPlanning.RS.findPath_csc_box",
    "PathPlanning.RS.findPath_example"
   ],
   "note": "findPath_csc_box: turn-straight-turn motions on bounded maps, in any free rectangle that contains both turning circles"
  },
  {
   "property": "C62",
   "status": "proved",
   "theorems": [
    "PathPlanning.RS.findPath_history",
    "PathPlanning.RS.findPath_histories",
    "PathPlanning.RS.parse_fresh",
    "PathPlanning.RS.findPath_history_example"
   ],
   "note": ""
  },
  {
   "property": "C43",
   "status": "proved",
   "theorems": [
    "PathPlanning.Shapes.foot_spec",
    "PathPlanning.Shapes.project_eq_foot",
    "PathPlanning.Shapes.nearest_spec"
   ],
   "note": ""
  },
  {
   "property": "C44",
   "status": "proved",
   "theorems": [
    "PathPlanning.Shapes.parallel_spec",
    "PathPlanning.Shapes.signedDist_sign",
    "PathPlanning.Shapes.relPos_spec",
    "PathPlanning.Shapes.selectStart_accepts_far",
    "PathPlanning.Shapes.select_spec",
    "PathPlanning.Shapes.ofPose_spec"
   ],
   "note": "finding beside it: the sidedness tolerance is not scaled by the length of the line, so selectStartPoint accepts points arbitrarily far from a short line"
  },
  {
   "property": "C46",
   "status": "proved",
   "theorems": [
    "PathPlanning.Shapes.new_spec",
    "PathPlanning.Shapes.setStart_spec",
    "PathPlanning.Shapes.setEnd_spec",
    "PathPlanning.Shapes.createFrom_spec",
    "PathPlanning.Shapes.createTo_spec",
    "PathPlanning.Shapes.angleOf_spec",
    "PathPlanning.Shapes.selectStart_spec",
    "PathPlanning.Shapes.selectEnd_spec",
    "PathPlanning.Shapes.wrap_spec",
    "PathPlanning.Shapes.wrap_loop",
    "PathPlanning.Shapes.onArc_sound",
    "PathPlanning.Shapes.onArc_complete",
    "PathPlanning.Shapes.onArc_misses_own_end",
    "PathPlanning.Shapes.arc_nearest_spec",
    "PathPlanning.Shapes.new_zero"
   ],
   "note": "findings beside it: direction 0 divides by zero; isPointOnArc may deny the arc's own end point"
  },
  {
   "property": "C47",
   "status": "partial",
   "theorems": [
    "PathPlanning.Shapes.toPoints_spec",
    "PathPlanning.Shapes.toPoses_spec",
    "PathPlanning.Shapes.toPoses_last_garbage",
    "PathPlanning.Shapes.arc_toPoses_spec",
    "PathPlanning.Shapes.arc_toPoses_ends",
    "PathPlanning.Shapes.arc_toPoints_spec",
    "PathPlanning.Shapes.arc_toPoints_off"
   ],
   "note": "holds for Circle::toPoses and Line::toPoints; FALSE of the code for Line::toPoses with start pose (last pose never written) and Circle::toPoints (centre not added), both proved exactly"
  },
  {
   "property": "C45",
   "status": "proved",
   "theorems": [
    "PathPlanning.Shapes.intersectCC_sound",
    "PathPlanning.Shapes.intersectCC_complete",
    "PathPlanning.Shapes.intersectCC_stale",
    "PathPlanning.Shapes.intersectCC_inner_missed",
    "PathPlanning.Shapes.intersectLC_sound",
    "PathPlanning.Shapes.intersectLC_complete",
    "PathPlanning.Shapes.intersectArcs_sound",
    "PathPlanning.Shapes.intersectArcs_complete"
   ],
   "note": "findings beside it: nearly concentric circles leave the output vector uncleared; the tolerance does not apply to circles touching from inside"
  },
  {
   "property": "C63",
   "status": "partial",
   "theorems": [
    "PathPlanning.Shapes.tangentCircles_spec",
    "PathPlanning.Shapes.pathLineCircle_smooth",
    "PathPlanning.Shapes.pathLineCircle_best",
    "PathPlanning.Shapes.pathCircleLine_smooth",
    "PathPlanning.Shapes.pathCircleCircle_smooth",
    "PathPlanning.Shapes.tangentInnerCircles_spec",
    "PathPlanning.Shapes.tangentInnerCircles_too_large",
    "PathPlanning.Shapes.pathShapeCircle_line",
    "PathPlanning.Shapes.tangentInnerArcs_smooth",
    "PathPlanning.Shapes.pathCircleCircle_fromSmall",
    "PathPlanning.Shapes.pathShapeCircle_arc_backward",
    "PathPlanning.Shapes.pathCircleLine_best",
    "PathPlanning.Shapes.pathCircleCircle_best",
    "PathPlanning.Shapes.tangentInnerArcs_best",
    "PathPlanning.Shapes.tangentInnerArcs_seam",
    "PathPlanning.Shapes.TanEx.pathCircleCircle_example",
    "PathPlanning.Shapes.TanEx.tangentInnerArcs_not_shortest"
   ],
   "note": "full for lines (both directions smooth, complete and shortest); between circles from large to small: smooth and shortest in general position for opposite turning directions; FALSE of the code (all proved): from the small circle nothing is ever returned, for equal turning directions the path has a cusp, and tangentInnerArcs ignores connecting arcs that cross the angle zero, so it can return an arc of more than half a turn although one of less than half a turn exists"
  },
  {
   "property": "C50",
   "status": "partial",
   "theorems": [
    "PathPlanning.footprint_exact",
    "PathPlanning.footprint_sound",
    "PathPlanning.footprint_corners",
    "PathPlanning.footprint_defined",
    "PathPlanning.footprint_misses_front",
    "PathPlanning.CMap.areaIndex_spec",
    "PathPlanning.CMap.orientation_wrong",
    "PathPlanning.CMap.new_footprint",
    "PathPlanning.CMap.isFreeRotated_iff",
    "PathPlanning.CMap.isOccupiedRotated_iff",
    "PathPlanning.CMap.isNoInformationRotated_iff",
    "PathPlanning.CMap.isFreeRotated_front_missed",
    "PathPlanning.CMap.isFreeTheta_ignores"
   ],
   "note": "termination, index range and exact behaviour of the tests are proved; the covering claim is FALSE of the code: the samples form a bow tie (front and back centre uncovered), the angle in radians is used as index (7 of 128 footprints used, never the nearest), and isFree(x,y,theta) ignores the footprint (all proved)"
  },
  {
   "property": "C52",
   "status": "proved",
   "theorems": [
    "PathPlanning.advance_steer_bounded",
    "PathPlanning.advance_steer_rate",
    "PathPlanning.advance_switch",
    "PathPlanning.advance_forward_only",
    "PathPlanning.advance_cost",
    "PathPlanning.advance_cost_pos",
    "PathPlanning.advance_drives",
    "PathPlanning.advance_dist_le_cost",
    "PathPlanning.advance_keep",
    "PathPlanning.advance_dead_end",
    "PathPlanning.trace_steer_bounded",
    "PathPlanning.trace_steer_rate",
    "PathPlanning.trace_drives",
    "PathPlanning.trace_switch_before",
    "PathPlanning.trace_switch_after",
    "PathPlanning.expandAll_steer_bounded",
    "PathPlanning.committed_node_turns",
    "PathPlanning.switch_from_turned_wheels",
    "PathPlanning.forward_only_custom_uninitialised",
    "PathPlanning.dynAdvance_steer_bounded",
    "PathPlanning.dynAdvance_switch",
    "PathPlanning.dynAdvance_cost_pos",
    "PathPlanning.dynAdvance_drives",
    "PathPlanning.dynAdvance_dist_le_cost",
    "PathPlanning.dynExpandAll_ok",
    "PathPlanning.dyn_backward_only_stuck",
    "PathPlanning.dyn_first_backward_step",
    "PathPlanning.iterateFree_offers"
   ],
   "note": "also: each step is a motion of the bicycle model (ODE), Euclidean distance never exceeds the step cost. Findings beside it: a committed node still generates turning successors which are dead ends; the node at which the direction changes need not be straight; with moves=FORWARD the custom flag is uninitialised; with forward driving forbidden a forward start node has no successors"
  },
  {
   "property": "C64",
   "status": "proved",
   "theorems": [
    "PathPlanning.search_path_trace",
    "PathPlanning.searchRun_treeOk",
    "PathPlanning.noReopen_example",
    "PathPlanning.reopened_node_breaks_path"
   ],
   "note": "search_path_trace: for every search without reopening; reopened_node_breaks_path: the claim fails when closed nodes are reopened (inconsistent heuristic)"
  },
  {
   "property": "C65",
   "status": "proved",
   "theorems": [
    "PathPlanning.nhAdvance_length",
    "PathPlanning.nhAdvance_turn",
    "PathPlanning.nhAdvance_along_heading",
    "PathPlanning.nhAdvance_switch",
    "PathPlanning.nhAdvance_cost_pos",
    "PathPlanning.nhAdvance_turn_exact",
    "PathPlanning.nhIsGoal_iff",
    "PathPlanning.nh_committed_halfstep_turns"
   ],
   "note": "finding beside it: with half steps a node committed to straight driving may turn"
  },
  {
   "property": "C66",
   "status": "proved",
   "theorems": [
    "PathPlanning.wrapAngle_spec",
    "PathPlanning.dynIsGoal_iff",
    "PathPlanning.segDistance_attained",
    "PathPlanning.segDistance_minimal",
    "PathPlanning.steerIsGoal_sound",
    "PathPlanning.steerIsGoal_near"
   ],
   "note": ""
  },
  {
   "property": "C53",
   "status": "proved",
   "theorems": [
    "PathPlanning.DTR.exact_rounds",
    "PathPlanning.DT.loop_terminates",
    "PathPlanning.DT.dt_exact",
    "PathPlanning.DT.dt_unreached_iff",
    "PathPlanning.DT.bestNb_spec",
    "PathPlanning.DT.backtrack_terminates",
    "PathPlanning.DT.backtrack_spec",
    "PathPlanning.DT.dt_descend",
    "PathPlanning.DT.dt_path",
    "PathPlanning.DT.dt_complete",
    "PathPlanning.DT.dt_unreachable_path",
    "PathPlanning.DT.shape4",
    "PathPlanning.DT.shape8",
    "PathPlanning.DT.dt_four_neighbours_stuck"
   ],
   "note": "findings beside it: an unreachable start yields the one-pose path [start]; with a four-neighbourhood the descent can get stuck; border cells are never updated"
  },
  {
   "property": "C54",
   "status": "partial",
   "theorems": [
    "PathPlanning.DT.holoCompute_fin",
    "PathPlanning.DT.holo_unset",
    "PathPlanning.DT.holo_le_interior_walk_partial",
    "PathPlanning.DT.holo_overestimates",
    "PathPlanning.DT.holo_padding_shift",
    "PathPlanning.DT.holo_exact_padded",
    "PathPlanning.DT.holo_terminates"
   ],
   "note": "lower bound proved for walks in the interior of the map without padding; FALSE of the code in general: holo_overestimates (walks along the border), holo_padding_shift (padding not compensated); holo_unset: setMap is never called by any search so the heuristic is 0 there"
  },
  {
   "property": "C48",
   "status": "proved",
   "theorems": [
    "PathPlanning.Sampling.yields_unique",
    "PathPlanning.Sampling.ring_yields",
    "PathPlanning.Sampling.ring_spec",
    "PathPlanning.Sampling.ring_new",
    "PathPlanning.Sampling.ring_fields_kept",
    "PathPlanning.Sampling.ring_wide_crosses_centre",
    "PathPlanning.Sampling.centroid_yields",
    "PathPlanning.Sampling.centroid_spec",
    "PathPlanning.Sampling.centroid_single",
    "PathPlanning.Sampling.facing_distance",
    "PathPlanning.Sampling.centroid_gain_skewed",
    "PathPlanning.Sampling.centroid_history",
    "PathPlanning.Sampling.centroid_fields_kept",
    "PathPlanning.Sampling.poseList_next",
    "PathPlanning.Sampling.poseList_yields",
    "PathPlanning.Sampling.poseList_null",
    "PathPlanning.Sampling.poseList_new",
    "PathPlanning.Sampling.centroid_new"
   ],
   "note": "findings beside it: a ring wider than twice its radius yields samples across the centre; the gain of the centroid region is skewed by one (the single sample has gain 3); the ring never writes the gain"
  },
  {
   "property": "C49",
   "status": "proved",
   "theorems": [
    "PathPlanning.Sampling.createPath_spec",
    "PathPlanning.Sampling.createPath_off_map",
    "PathPlanning.Sampling.attempts_eq_offers",
    "PathPlanning.Sampling.createPath_best",
    "PathPlanning.Sampling.createPath_defined",
    "PathPlanning.Sampling.createPath_drives",
    "PathPlanning.Sampling.createPath_example",
    "PathPlanning.Sampling.start_below_accepted",
    "PathPlanning.Sampling.expensive_discarded",
    "PathPlanning.RS.Curve.isValid_iff"
   ],
   "note": "findings beside it: start poses left of/below the map are not rejected; valid curves of cost >= 999999 are discarded"
  },
  {
   "property": "C55",
   "status": "proved",
   "theorems": [
    "PathPlanning.MapGen.new_negative",
    "PathPlanning.MapGen.hilbert_spec",
    "PathPlanning.MapGen.hilbertRun_spec",
    "PathPlanning.MapGen.hilbertRun_fixed",
    "PathPlanning.MapGen.run_spec",
    "PathPlanning.MapGen.run_example",
    "PathPlanning.MapGen.wall_iff",
    "PathPlanning.MapGen.room_open",
    "PathPlanning.MapGen.picture_connected",
    "PathPlanning.MapGen.maze_picture",
    "PathPlanning.MapGen.hilbert_picture",
    "PathPlanning.MapGen.start_beyond_ub",
    "PathPlanning.MapGen.second_run_diverges",
    "PathPlanning.MapGen.width_one_outside",
    "PathPlanning.MapGen.single_room_untouched",
    "PathPlanning.MapGen.pickCell_spec"
   ],
   "note": "findings beside it: the Hilbert curve always has level 8 and starts at room (1,1); a start beyond the last complete room writes out of bounds; run works only once per object; constructor argument 1 gives rooms outside the picture; a single room is not painted"
  },
  {
   "property": "C67",
   "status": "proved",
   "theorems": [
    "PathPlanning.RS.findPath_optimal",
    "PathPlanning.RS.findPath_cost",
    "PathPlanning.RS.findPath_cost_any",
    "PathPlanning.RS.check_optimal",
    "PathPlanning.RS.handleC3_best",
    "PathPlanning.RS.handleC4_best",
    "PathPlanning.RS.csc_unique",
    "PathPlanning.RS.ccc_unique",
    "PathPlanning.RS.cccc_unique",
    "PathPlanning.RS.findPath_overlap",
    "PathPlanning.RS.overlap_motion",
    "PathPlanning.RS.uTurn_motion"
   ],
   "note": "findings beside it: turn-straight-turn curves with overlapping circles are never found although for equal sides a motion exists (overlap_motion); empty right-forward/left-backward turns are planned as full turns (computeArc_full_turn), hence positive turned angles in the statement"
  },
  {
   "property": "C68",
   "status": "proved",
   "theorems": [
    "PathPlanning.Table.angleIdx_range",
    "PathPlanning.Table.compute_outside",
    "PathPlanning.Table.compute_inside",
    "PathPlanning.Table.compute_row_zero",
    "PathPlanning.Table.init_keeps_layers",
    "PathPlanning.Table.factor_unset",
    "PathPlanning.Table.factor_set",
    "PathPlanning.Table.findPath_near",
    "PathPlanning.Table.precompute_never",
    "PathPlanning.Table.main_refuses",
    "PathPlanning.Table.main_pixels",
    "PathPlanning.Table.layerSize_iff",
    "PathPlanning.Table.main_accepts_too_fine"
   ],
   "note": "mostly findings: rows are mirrored and shifted by one, row 0 reads out of bounds, the last angle layer is never used, init appends instead of replacing, the program writing the table dereferences a null pointer at the cell next to the goal"
  },
  {
   "property": "C69",
   "status": "proved",
   "theorems": [
    "PathPlanning.RSExp.expand_sound",
    "PathPlanning.RSExp.expand_defined",
    "PathPlanning.RSExp.expand_history",
    "PathPlanning.RSExp.expand_complete",
    "PathPlanning.RSExp.expand_complete_box",
    "PathPlanning.RSExp.findPath_csc_bounded",
    "PathPlanning.RSExp.expand_unthrottled",
    "PathPlanning.RSExp.expand_backward",
    "PathPlanning.RSExp.expand_disabled",
    "PathPlanning.RSExp.expand_example"
   ],
   "note": "findings beside it: the throttle survives the search (expand_unthrottled), so the start node of the next search may be expanded, which is undefined behaviour (expansion_at_start_ub); backward expansion never succeeds although it can be enabled"
  },
  {
   "property": "C70",
   "status": "proved",
   "theorems": [
    "PathPlanning.dyn_search_ends",
    "PathPlanning.steer_search_ends",
    "PathPlanning.kin_search_ends",
    "PathPlanning.kin_search_total"
   ],
   "note": "kin_search_ends: for every map interface, neighbourhood, heuristic; dyn_/steer_search_ends: the instances on the chunk manager"
  },
  {
   "property": "C71",
   "status": "proved",
   "theorems": [
    "PathPlanning.dyn_path",
    "PathPlanning.steer_path",
    "PathPlanning.dyn_exact",
    "PathPlanning.steer_exact",
    "PathPlanning.kin_path",
    "PathPlanning.kin_exact_without_heuristic",
    "PathPlanning.kin_inexact_with_heuristic",
    "PathPlanning.SteerEx.example_path"
   ],
   "note": "kin_inexact_with_heuristic refutes exactness when a heuristic is used (a node is given another pose after it was expanded)"
  },
  {
   "property": "C72",
   "status": "proved",
   "theorems": [
    "PathPlanning.dyn_complete",
    "PathPlanning.steer_complete",
    "PathPlanning.dyn_blocked",
    "PathPlanning.pad_blocked",
    "PathPlanning.kin_complete",
    "PathPlanning.kin_complete_lattice"
   ],
   "note": "for SteeringNeighborhood the closedness speaks of steps that do not depend on predecessors; kin_complete_lattice: full completeness if cells never hold two poses"
  },
  {
   "property": "C73",
   "status": "partial",
   "theorems": [
    "PathPlanning.goal_heading_ignored",
    "PathPlanning.SteerEx.example_path",
    "PathPlanning.dyn_path"
   ],
   "note": "false of the code: goal_heading_ignored; what holds (dyn_path): the last pose passes the test against the goal or a reached pose of the goal cell with heading slot 15"
  },
  {
   "property": "C74",
   "status": "proved",
   "theorems": [
    "PathPlanning.DMgr.chunk_lookup_refines",
    "PathPlanning.DMgr.ref_inj",
    "PathPlanning.DMgr.lookup_left",
    "PathPlanning.DMgr.lookup_bottom"
   ],
   "note": "justifies the lookup function used by the search model of C70 - C73"
  },
  {
   "property": "C75",
   "status": "proved",
   "theorems": [
    "PathPlanning.custom_search_valid",
    "PathPlanning.custom_search_complete",
    "PathPlanning.custom_result_unique",
    "PathPlanning.customTest_without_candidate_empty"
   ],
   "note": "the goal test is an arbitrary function of the node and the state of the search; that a test which stops at a node it does not accept loses the path is also proved (customTest_without_candidate_empty)"
  },
  {
   "property": "C76",
   "status": "proved",
   "theorems": [
    "PathPlanning.region_search_shortest",
    "PathPlanning.heuristic_goal_no_effect"
   ],
   "note": "exact arithmetic; the second theorem needs a goal test that depends on the node only and goal candidates switched off"
  },
  {
   "property": "C77",
   "status": "proved",
   "theorems": [
    "PathPlanning.custom_candidates_listed",
    "PathPlanning.pose_candidates_listed"
   ],
   "note": "with reversed searches the candidates are not reversed (C78)"
  },
  {
   "property": "C78",
   "status": "proved",
   "theorems": [
    "PathPlanning.dyn_reversed_exact",
    "PathPlanning.dyn_reversed_path",
    "PathPlanning.steer_reversed_exact",
    "PathPlanning.steer_forward_exact",
    "PathPlanning.reversed_goal_test_ends_at_from"
   ],
   "note": "exact arithmetic; bicycle model as differential equations in Spec/Steering; the last theorem records that goal-test searches are turned round although they begin at from"
  },
  {
   "property": "C79",
   "status": "proved",
   "theorems": [
    "PathPlanning.hybrid_search",
    "PathPlanning.hybrid_result",
    "PathPlanning.pad_hybrid",
    "PathPlanning.dyn_hybrid_ends",
    "PathPlanning.dyn_hybrid",
    "PathPlanning.dyn_hybrid_gives_up",
    "PathPlanning.dyn_hybrid_steps",
    "PathPlanning.steer_hybrid_ends",
    "PathPlanning.steer_hybrid",
    "PathPlanning.start_expansion_ub",
    "PathPlanning.HybridEx.start_expansion_example",
    "PathPlanning.HybridEx.toy_run",
    "PathPlanning.HybridEx.toy_ends_expanded",
    "PathPlanning.HybridRun.hybrid_run"
   ],
   "note": "hybrid_search: for every state space and every expansion; dyn_/steer_hybrid: the two steering neighbourhoods with ReedsSheppExpansion; start_expansion_ub and its concrete instance record the undefined behaviour of a first search whose start can be expanded"
  },
  {
   "property": "C80",
   "status": "proved",
   "theorems": [
    "PathPlanning.later_search_sound",
    "PathPlanning.later_custom_sound",
    "PathPlanning.later_search_complete",
    "PathPlanning.later_search_iff",
    "PathPlanning.used_dist",
    "PathPlanning.later_candidates",
    "PathPlanning.later_pose_candidates",
    "PathPlanning.SearchEx.second_search"
   ],
   "note": "complements C31 (a repeated search from the same start fails): exactly which paths the stale labels hide. For searches whose nodes carry no pose (grid maps); the map does not change between the searches"
  },
  {
   "property": "C81",
   "status": "proved",
   "theorems": [
    "PathPlanning.bfs_fewest_moves",
    "PathPlanning.bfs_complete",
    "PathPlanning.gridDelta_spec",
    "PathPlanning.bfsDirs_unit"
   ],
   "note": ""
  },
  {
   "property": "C82",
   "status": "proved",
   "theorems": [
    "PathPlanning.Render.renderCells_pixel",
    "PathPlanning.Render.fillPixel_spec",
    "PathPlanning.Render.squares_cover",
    "PathPlanning.Render.fill_spec",
    "PathPlanning.Render.grey_range",
    "PathPlanning.Render.grey_antitone",
    "PathPlanning.Render.cellColour_spec",
    "PathPlanning.Render.findFocus_covers",
    "PathPlanning.Render.findFocus_contrast"
   ],
   "note": "OpenCV drawing primitives are modelled by the pixels they cover; the one-metre raster drawn on top is not modelled; contrast for at least two pixels per cell"
  },
  {
   "property": "C83",
   "status": "partial",
   "theorems": [
    "PathPlanning.Render.maxDist_spec",
    "PathPlanning.Render.stageColour_convex",
    "PathPlanning.Render.visGrid_pixel",
    "PathPlanning.Render.fillCell_pixel",
    "PathPlanning.Render.stageColour_near_ub",
    "PathPlanning.Render.visGrid_start_ub"
   ],
   "note": "the property is FALSE of the code: the colour of the start node (distance 0) reads the table at index -1, so drawing is undefined after every search; for nodes not nearer than 1/10000 of the largest distance it holds"
  },
  {
   "property": "C84",
   "status": "partial",
   "theorems": [
    "PathPlanning.Eval.clickCell_above",
    "PathPlanning.Eval.clickCell_off_map",
    "PathPlanning.Eval.dragAngle_spec",
    "PathPlanning.Eval.obstacleCorner_spec",
    "PathPlanning.Eval.drawObstacle_rect"
   ],
   "note": "the property is FALSE of the code for clicks: the cell above the one clicked is selected, off the map for the top row; heading and obstacles (outside the top pixel row of a cell) are proved"
  },
  {
   "property": "C85",
   "status": "partial",
   "theorems": [
    "PathPlanning.Eval.generateMap_spec",
    "PathPlanning.Eval.invert_spec",
    "PathPlanning.Eval.construct_restores",
    "PathPlanning.Eval.construct_overwrites",
    "PathPlanning.Eval.construct_throws"
   ],
   "note": "the property is FALSE of the code for restoring: an evaluator of another size or resolution overwrites the saved map; with the same size and resolution everything is restored"
  },
  {
   "property": "C86",
   "status": "partial",
   "theorems": [
    "PathPlanning.Eval.draws_spec",
    "PathPlanning.Eval.video_run",
    "PathPlanning.Eval.video_speed"
   ],
   "note": "the property is FALSE of the code: every max(1, skip)-th picture is recorded although the announced speed is skip + 1; the recorded frames are characterised exactly"
  },
  {
   "property": "C87",
   "status": "proved",
   "theorems": [
    "PathPlanning.grid_search_double_optimal",
    "PathPlanning.grid_search_rounded_complete",
    "PathPlanning.grid_search_rounded",
    "PathPlanning.FreePath.cut_loops",
    "PathPlanning.dijkstra_optimal_rounded",
    "PathPlanning.search_beats_frontier",
    "PathPlanning.Spec.binary_rounding"
   ],
   "note": "rounding to nearest with 53 binary digits and any tie rule; overflow and underflow not modelled, hypot taken as correctly rounded"
  },
  {
   "property": "C88",
   "status": "partial",
   "theorems": [
    "PathPlanning.GridMap.point2cellF_wellInside",
    "PathPlanning.GridMap.point2cellF_double",
    "PathPlanning.GridMap.point2cellF_cell2pointF",
    "PathPlanning.GridMap.roundtrip_double",
    "PathPlanning.GridMap.roundtrip_float_partial",
    "PathPlanning.GridMap.roundtrip_float_fails",
    "PathPlanning.GridMap.roundtrip_double_fails"
   ],
   "note": "the property is FALSE of the code for far origins: the float overload loses the cell for national grid coordinates (origin 4194304 m, 1/16 m cells), the double one for origins 2^54 cells away; proved up to 2^50 cells (double) and 2^21 cells (float)"
  },
  {
   "property": "C89",
   "status": "partial",
   "theorems": [
    "PathPlanning.Own.chunkCount_table",
    "PathPlanning.Own.setMapDyn_slot",
    "PathPlanning.Own.ownership_clean",
    "PathPlanning.Own.ownership_no_leak",
    "PathPlanning.Own.destroy_exact",
    "PathPlanning.Own.others_untouched",
    "PathPlanning.Own.copyCurve_deep",
    "PathPlanning.Own.copyMap_deep",
    "PathPlanning.Own.node_pointer_valid_iff",
    "PathPlanning.Own.dyn_pointers_dangle",
    "PathPlanning.Own.dyn_pointers_stable",
    "PathPlanning.Own.memberwise_double_free",
    "PathPlanning.Own.memberwise_leak",
    "PathPlanning.Own.memberwise_parent",
    "PathPlanning.Own.demo_objects",
    "PathPlanning.Own.curve_assign_double_free"
   ],
   "note": "proved for every history without member-wise copies; the property is FALSE of the code for the assignment operator of Curve and CollisionGridMap2d and both copy operations of the node managers and AStar, which the classes leave to the compiler: double free and leak proved for every class and state"
  },
  {
   "property": "C90",
   "status": "partial",
   "theorems": [
    "PathPlanning.FourWs.update_moves",
    "PathPlanning.FourWs.crab",
    "PathPlanning.FourWs.circular",
    "PathPlanning.FourWs.radius_ge",
    "PathPlanning.FourWs.run_spec",
    "PathPlanning.FourWs.allowed_range",
    "PathPlanning.FourWs.steerAngle_allowed",
    "PathPlanning.FourWs.steerAngle_onto",
    "PathPlanning.FourWs.steering_held",
    "PathPlanning.FourWs.steering_drawn",
    "PathPlanning.FourWs.image_spec",
    "PathPlanning.FourWs.pixel_meaning",
    "PathPlanning.FourWs.reset_keeps_bots",
    "PathPlanning.FourWs.setNumBots_spec",
    "PathPlanning.FourWs.setSpeed_spec",
    "PathPlanning.FourWs.no_slip",
    "PathPlanning.FourWs.crab_direction",
    "PathPlanning.FourWs.first_second"
   ],
   "note": "the property is FALSE of the code in one point: the angles are redrawn every 1.1 s (every eleventh step), not every second as configured; everything else proved for the first billion steps"
  },
  {
   "property": "C91",
   "status": "partial",
   "theorems": [
    "PathPlanning.castU_cell",
    "PathPlanning.angle2index_sector",
    "PathPlanning.dsLookupD_exact",
    "PathPlanning.dsLookupI_exact",
    "PathPlanning.dsLookupRef_exact",
    "PathPlanning.dsLookupPose_eq",
    "PathPlanning.dsLookupD_same_iff",
    "PathPlanning.dsLookup_own_pose",
    "PathPlanning.ssLookupD_exact",
    "PathPlanning.ssLookupI_throws"
   ],
   "note": "the property is FALSE of the code in two points: lookup(point) accepts poses up to one cell left of or below the map (and is undefined for coordinates below -1), and the pose stored in a state finds the neighbouring heading slot; everything else proved for every real pose"
  },
  {
   "property": "C92",
   "status": "proved",
   "theorems": [
    "PathPlanning.later_kin_ends",
    "PathPlanning.later_kin_path",
    "PathPlanning.later_kin_frame",
    "PathPlanning.later_kin_complete",
    "PathPlanning.later_kin_repeat",
    "PathPlanning.kFindOn_fresh",
    "PathPlanning.padFindOn_fresh",
    "PathPlanning.padUsed_spec",
    "PathPlanning.laterStart_near",
    "PathPlanning.later_pad_ends",
    "PathPlanning.later_pad_path",
    "PathPlanning.later_pad_occupied",
    "PathPlanning.dyn_later_ends",
    "PathPlanning.dyn_later_path",
    "PathPlanning.steer_later_ends",
    "PathPlanning.steer_later_path",
    "PathPlanning.padUsed_steer",
    "PathPlanning.padUsed_find",
    "PathPlanning.padUsed_noGoal",
    "PathPlanning.Spec.KUsed.find",
    "PathPlanning.Spec.KUsed.test",
    "PathPlanning.Spec.KUsed.thrown",
    "PathPlanning.during_kFindOn",
    "PathPlanning.during_kLoopT",
    "PathPlanning.SteerEx.example_used"
   ],
   "note": "histories of searches left at any point; exact arithmetic; the position in the start cell and the steering angle a later search begins with are whatever an earlier search has left there (LaterStart); later_kin_repeat records that a repeated successful search returns nothing"
  },
  {
   "property": "C93",
   "status": "partial",
   "theorems": [
    "PathPlanning.default_path",
    "PathPlanning.statics_params",
    "PathPlanning.statics_after",
    "PathPlanning.statics_initial",
    "PathPlanning.dynAlgoS_eq",
    "PathPlanning.undisturbed",
    "PathPlanning.disturbed_step",
    "PathPlanning.disturbed_angle",
    "PathPlanning.disturbed_too_sharp",
    "PathPlanning.disturbed_path",
    "PathPlanning.stale_step",
    "PathPlanning.nh_statics",
    "PathPlanning.nh_disturbed_step",
    "PathPlanning.Spec.DrivesTo.scale",
    "PathPlanning.Spec.DrivesTo.chord",
    "PathPlanning.StaticsEx.example_too_sharp",
    "PathPlanning.StaticsEx.example_other_order",
    "PathPlanning.StaticsEx.example_stale"
   ],
   "note": "the property is FALSE of the code: static members shared by all objects; the effect is characterised exactly (when undisturbed, which vehicle drives the steps otherwise, when the steering limit is exceeded, what a late change of distance_step affects), with concrete witnesses"
  },
  {
   "property": "C94",
   "status": "proved",
   "theorems": [
    "PathPlanning.kin_custom_ends",
    "PathPlanning.kin_custom_unique",
    "PathPlanning.kin_custom_path",
    "PathPlanning.kin_custom_complete",
    "PathPlanning.kin_custom_exact",
    "PathPlanning.pad_custom_ends",
    "PathPlanning.pad_custom_path",
    "PathPlanning.pad_custom_exact",
    "PathPlanning.pad_custom_complete",
    "PathPlanning.dyn_custom_ends",
    "PathPlanning.dyn_custom_path",
    "PathPlanning.dyn_custom_exact",
    "PathPlanning.dyn_custom_complete",
    "PathPlanning.steer_custom_ends",
    "PathPlanning.steer_custom_path",
    "PathPlanning.steer_custom_exact",
    "PathPlanning.steer_custom_complete",
    "PathPlanning.straight_custom",
    "PathPlanning.SteerEx.example_custom"
   ],
   "note": "simulation of the search with a goal test by the search without goals, invariants over the iterations; instantiated for both steering neighbourhoods; straight_custom and example_custom show that paths are found"
  },
  {
   "property": "C95",
   "status": "partial",
   "theorems": [
    "PathPlanning.config_eq_pose",
    "PathPlanning.config_direction_ignored",
    "PathPlanning.straight_custom",
    "PathPlanning.SteerEx.example_custom"
   ],
   "note": "the property is FALSE of the code; proved: the search from a configuration is the search from its pose, whatever the other members; a configuration that drives backwards is given a path that drives forwards"
  },
  {
   "property": "C96",
   "status": "partial",
   "theorems": [
    "PathPlanning.DStar.dstar_ends",
    "PathPlanning.DStar.dstar_path_partial",
    "PathPlanning.DStar.dstar_unreachable_ub",
    "PathPlanning.DStar.dstar_start_is_goal",
    "PathPlanning.DStar.dstar_grid_path_partial",
    "PathPlanning.DStar.dstar_grid_no_path_ub",
    "PathPlanning.DStar.dstar_grid_occupied_start_ub",
    "PathPlanning.DStar.dstar_second_search_ub",
    "PathPlanning.DStar.dstar_twice_ub",
    "PathPlanning.DStar.dstar_not_shortest",
    "PathPlanning.DStar.dTotal_not_key_order",
    "PathPlanning.DStar.dTotal_mono",
    "PathPlanning.DStar.lessKeys_lex"
   ],
   "note": "the property is FALSE of the code (which moreover does not compile as it stands; the model reads start and goal as single nodes); proved: the search always ends, returns a valid path without repeated cells iff one exists, takes an element from the empty open list otherwise; counterexamples for optimality and for repeated searches"
  },
  {
   "property": "C97",
   "status": "proved",
   "theorems": [
    "PathPlanning.later_custom_ends",
    "PathPlanning.later_custom_path",
    "PathPlanning.later_custom_frame",
    "PathPlanning.later_custom_complete",
    "PathPlanning.later_custom_now",
    "PathPlanning.kFindTestOn_fresh",
    "PathPlanning.padFindTestOn_fresh",
    "PathPlanning.padFindConfigOn_fresh",
    "PathPlanning.padUsed_test",
    "PathPlanning.padUsed_config",
    "PathPlanning.later_pad_custom_ends",
    "PathPlanning.later_pad_custom_path",
    "PathPlanning.later_pad_config_ends",
    "PathPlanning.later_pad_config_path",
    "PathPlanning.dyn_later_custom_ends",
    "PathPlanning.dyn_later_custom_path",
    "PathPlanning.dyn_later_config_path",
    "PathPlanning.steer_later_custom_ends",
    "PathPlanning.steer_later_custom_path",
    "PathPlanning.steer_later_config_path",
    "PathPlanning.laterConfig_near",
    "PathPlanning.SteerEx.example_later_custom"
   ],
   "note": "the position in the start cell and the steering angle a later search begins with are whatever an earlier search has left there (LaterStart, LaterConfig); exact arithmetic"
  },
  {
   "property": "C98",
   "status": "proved",
   "theorems": [
    "PathPlanning.kin_overlooks",
    "PathPlanning.kin_cheapest_lattice",
    "PathPlanning.kin_overlooks_happens",
    "PathPlanning.dyn_overlooks",
    "PathPlanning.steer_overlooks"
   ],
   "note": "kin_overlooks_happens: a drive can be overlooked altogether, although there is neither heuristic nor time limit; exact arithmetic for the steering neighbourhoods"
  },
  {
   "property": "C99",
   "status": "proved",
   "theorems": [
    "PathPlanning.search_counters",
    "PathPlanning.custom_counters",
    "PathPlanning.consistent_counters",
    "PathPlanning.exhausted_counters",
    "PathPlanning.consistent_steps",
    "PathPlanning.grid_search_work",
    "PathPlanning.later_all_multi",
    "PathPlanning.touched_accumulates",
    "PathPlanning.touched_monotone",
    "PathPlanning.CountEx.twice",
    "PathPlanning.CountEx.again"
   ],
   "note": "counters are natural numbers; exact cost arithmetic for the work bounds, any arithmetic for the balance; the container of the priority queue enters through its contract (Counts), which the reference implementation and the two shipped ones meet"
  },
  {
   "property": "C100",
   "status": "proved",
   "theorems": [
    "PathPlanning.RS.findPath_straight_near",
    "PathPlanning.RS.findPath_turn_near",
    "PathPlanning.RS.findPath_margin",
    "PathPlanning.RS.findPath_margin_straight",
    "PathPlanning.RS.elemClear_turn_near",
    "PathPlanning.RS.elemClear_straight_near",
    "PathPlanning.RS.csc_near",
    "PathPlanning.RS.corner_cut",
    "PathPlanning.RS.uturn_found",
    "PathPlanning.RS.straight_ahead"
   ],
   "note": "cells are unit squares with integer corners; the last pi/(R-1) of turning at each end of a turn is not covered (a short turn may have no tested cell at all); conversions beyond 32 bits are not modelled"
  },
  {
   "property": "C101",
   "status": "proved",
   "theorems": [
    "PathPlanning.drive_near",
    "PathPlanning.dyn_path_near",
    "PathPlanning.dyn_path_safe",
    "PathPlanning.steer_path_near",
    "PathPlanning.steer_path_safe",
    "PathPlanning.ClearEx.arc_hits_obstacle",
    "PathPlanning.ClearEx.example_safe"
   ],
   "note": "drive_near: one step; *_path_near: every path, with or without heuristic; *_path_safe: map with a margin, no heuristic; arc_hits_obstacle: finding without margin; example_safe: the hypotheses are met by a search on a 100 x 100 map"
  },
  {
   "property": "C102",
   "status": "proved",
   "theorems": [
    "PathPlanning.kin_counters",
    "PathPlanning.kin_work",
    "PathPlanning.pad_counters",
    "PathPlanning.dyn_work",
    "PathPlanning.steer_work",
    "PathPlanning.kFindPathStats_fst",
    "PathPlanning.padFindPathStats_fst",
    "PathPlanning.KCountEx.more_than_moves",
    "PathPlanning.KCountEx.without"
   ],
   "note": "counters are natural numbers; *_fst: the search that is counted is the one of the other theorems; exact arithmetic for the steering neighbourhoods; more_than_moves: finding with a heuristic"
  },
  {
   "property": "C103",
   "status": "proved",
   "theorems": [
    "PathPlanning.dyn_hybrid_safe",
    "PathPlanning.steer_hybrid_safe",
    "PathPlanning.hybrid_safe",
    "PathPlanning.lineOk_end",
    "PathPlanning.RS.csc_near",
    "PathPlanning.RS.findPath_motionClear",
    "PathPlanning.HybridRun.hybrid_run",
    "PathPlanning.HybridRun.inflated"
   ],
   "note": "csc_near: a tested motion turn-straight-turn between two poses near cells that are not occupied; *_hybrid_safe: searches; poses well inside the map means more than 32 cells from the right and upper border (C101)"
  },
  {
   "property": "C104",
   "status": "proved",
   "theorems": [
    "PathPlanning.hybrid_complete",
    "PathPlanning.dyn_hybrid_complete",
    "PathPlanning.dyn_hybrid_no_way",
    "PathPlanning.steer_hybrid_complete",
    "PathPlanning.steer_hybrid_no_way",
    "PathPlanning.pad_hybrid_complete",
    "PathPlanning.refuses_no_way",
    "PathPlanning.HybridRun.way",
    "PathPlanning.HybridRun.hybrid_run"
   ],
   "note": "hybrid_complete: every state space and every expansion; HybridRun.hybrid_run: a complete search with expansion on a 100 by 100 map, where the search without expansion gives up and the one with expansion must not, ends with a path as in C79 and C103; for SteeringNeighborhood, as in C72, with REVERSED = false"
  },
  {
   "property": "C105",
   "status": "proved",
   "theorems": [
    "PathPlanning.later_hybrid_ends",
    "PathPlanning.later_hybrid",
    "PathPlanning.later_pad_hybrid_ends",
    "PathPlanning.later_pad_hybrid",
    "PathPlanning.padUsed_findX",
    "PathPlanning.dyn_later_hybrid",
    "PathPlanning.steer_later_hybrid",
    "PathPlanning.padFindXOn_fresh",
    "PathPlanning.xFindOn_fresh",
    "PathPlanning.later_expansion_stale",
    "PathPlanning.SteerEx.example_later_hybrid"
   ],
   "note": "later_hybrid: every state space and every expansion; the history may contain searches with expansion because padUsed_findX / the KUsed conjunct of later_hybrid give back a used object; later_expansion_stale: the finding, a path that drives in a circle along poses of earlier searches before the expansion"
  },
  {
   "property": "C106",
   "status": "proved",
   "theorems": [
    "PathPlanning.angle2index_double",
    "PathPlanning.angle2indexF_range",
    "PathPlanning.angle2indexF_exact",
    "PathPlanning.angle2indexF_slotTheta",
    "PathPlanning.slotCoordF_err",
    "PathPlanning.slotThetaF_err",
    "PathPlanning.angle2index_double_pi",
    "PathPlanning.clampedNear_of_spec"
   ],
   "note": "angle2indexF_*: any format with unit roundoff at most 1/64 and any number of slots; angle2index_double: the instance used by the library"
  },
  {
   "property": "C107",
   "status": "proved",
   "theorems": [
    "PathPlanning.dyn_later_safe",
    "PathPlanning.dyn_later_hybrid_safe",
    "PathPlanning.steer_later_safe",
    "PathPlanning.steer_later_hybrid_safe",
    "PathPlanning.later_hybrid_safe",
    "PathPlanning.later_start_safe",
    "PathPlanning.way_safe",
    "PathPlanning.HybridRun.later_run"
   ],
   "note": "every pose of a state is represented by the pose of another visit (x' in SafeLaterPath), as in C92; later_run: a concrete search with expansion that meets the hypotheses"
  },
  {
   "property": "C108",
   "status": "proved",
   "theorems": [
    "PathPlanning.grid_search_clear",
    "PathPlanning.legacy_clear",
    "PathPlanning.dt_clear",
    "PathPlanning.fits_clear",
    "PathPlanning.king_path_clear",
    "PathPlanning.straight_path_clear",
    "PathPlanning.wide_path_clear",
    "PathPlanning.steps4",
    "PathPlanning.steps8",
    "PathPlanning.stepsF",
    "PathPlanning.corner_touches",
    "PathPlanning.straight_touches",
    "PathPlanning.wide_touches",
    "PathPlanning.fits_zero",
    "PathPlanning.GridClearEx.robot_fits",
    "PathPlanning.GridClearEx.squeezes",
    "PathPlanning.GridClearEx.legacy_fits",
    "PathPlanning.GridClearEx.dt_fits"
   ],
   "note": "cells are unit squares, robot a disc, motion in straight lines between cell centres; the start cell of a generic search and the goal cell of the two others are not tested by the code, hence the hypothesis; corner_touches, straight_touches, wide_touches: the bounds are sharp; squeezes: finding"
  },
  {
   "property": "C109",
   "status": "proved",
   "theorems": [
    "PathPlanning.Drift.dyn_step_near",
    "PathPlanning.Drift.steer_step_near",
    "PathPlanning.Drift.dyn_drift",
    "PathPlanning.Drift.steer_drift",
    "PathPlanning.Drift.dyn_search_drift",
    "PathPlanning.Drift.steer_search_drift",
    "PathPlanning.Drift.dyn_search_steps",
    "PathPlanning.Drift.steer_search_steps",
    "PathPlanning.Drift.usable_bounds",
    "PathPlanning.Drift.double_drift",
    "PathPlanning.Drift.dyn_search_double",
    "PathPlanning.Drift.dyn_same_step",
    "PathPlanning.Drift.steer_same_step",
    "PathPlanning.Drift.whole_delta",
    "PathPlanning.DriftEx.search_example"
   ],
   "note": "rounding to nearest with unbounded exponents; sin/cos accurate to 2u absolutely, tan to 2u relatively, AngleClamp near-exact (ArithOk); unit roundoff at most 1/10000; max_steer between 0 and 60 degrees (beyond that tan is ill-conditioned); coordinates bounded (usable_bounds: by the map)"
  },
  {
   "property": "C110",
   "status": "proved",
   "theorems": [
    "PathPlanning.Drift.exec_near",
    "PathPlanning.Drift.passes_near",
    "PathPlanning.Drift.dyn_exec_safe",
    "PathPlanning.Drift.steer_exec_safe",
    "PathPlanning.Drift.dyn_double_safe",
    "PathPlanning.ExecEx.example_exec"
   ],
   "note": "same arithmetic assumptions as C109; the vehicle itself moves exactly (bicycle model); poses keep away from the edge of the map (FarFromEdge), where the line test does not look"
  },
  {
   "property": "C111",
   "status": "proved",
   "theorems": [
    "PathPlanning.MapChange.grid_classes",
    "PathPlanning.MapChange.getCost_range",
    "PathPlanning.MapChange.legacy_classes",
    "PathPlanning.MapChange.steer_classes",
    "PathPlanning.RS.findPath_values",
    "PathPlanning.MapChange.grid_freed",
    "PathPlanning.MapChange.legacy_freed",
    "PathPlanning.RS.findPath_freed",
    "PathPlanning.MapChange.upTo_shortest",
    "PathPlanning.MapChange.there_and_back"
   ],
   "note": "for curves 'removing obstacles' needs a maximum arc of more than four turns: otherwise the cheaper of two mirrored solutions that became free may exceed the maximum arc and is rejected although the other one would do"
  },
  {
   "property": "C112",
   "status": "proved",
   "theorems": [
    "PathPlanning.CurveRender.drawMap_pixel",
    "PathPlanning.CurveRender.colours_differ",
    "PathPlanning.CurveRender.drawMap_small",
    "PathPlanning.CurveRender.point_pixel",
    "PathPlanning.CurveRender.bottom_outside",
    "PathPlanning.CurveRender.left_border",
    "PathPlanning.CurveRender.draw_findPath",
    "PathPlanning.CurveRender.ground_shapes",
    "PathPlanning.CurveRender.draw_nothing",
    "PathPlanning.CurveRender.arrow_corners",
    "PathPlanning.CurveRender.arrow_thickness",
    "PathPlanning.CurveRender.draw_zero_thickness"
   ],
   "note": "calls of OpenCV's drawing functions are recorded with their arguments; what OpenCV paints for them is not modelled"
  },
  {
   "property": "C113",
   "status": "proved",
   "theorems": [
    "PathPlanning.RS.findPath_weight",
    "PathPlanning.RS.findPath_weight_ge",
    "PathPlanning.RS.findPath_valid",
    "PathPlanning.RS.findPath_free_of_charge",
    "PathPlanning.RS.findPath_valid_example",
    "PathPlanning.RS.findPath_mapWeight",
    "PathPlanning.RS.price_mono",
    "PathPlanning.RS.price_uniform",
    "PathPlanning.RS.price_diagonal",
    "PathPlanning.RS.findPath_map_example"
   ],
   "note": ""
  },
  {
   "property": "C114",
   "status": "proved",
   "theorems": [
    "PathPlanning.DrawThread.request_served",
    "PathPlanning.DrawThread.no_lost_wakeup",
    "PathPlanning.DrawThread.at_most_four",
    "PathPlanning.DrawThread.request_reachable",
    "PathPlanning.DrawThread.draw_exclusive",
    "PathPlanning.DrawThread.call_returns",
    "PathPlanning.DrawThread.drawn_requested",
    "PathPlanning.DrawThread.interrupt_one_more",
    "PathPlanning.DrawThread.request_lost",
    "PathPlanning.DrawThread.draws_uninvited",
    "PathPlanning.DrawThread.flag_race"
   ],
   "note": "boost's mutex, condition variable and interruption points by their documented meaning; memory accesses of draw() itself are not modelled; the statement that starts the thread is commented out in the constructor"
  },
  {
   "property": "C115",
   "status": "proved",
   "theorems": [
    "PathPlanning.Editor.history_consistent",
    "PathPlanning.Editor.history_saved",
    "PathPlanning.Editor.history_defined",
    "PathPlanning.Editor.gesture_start",
    "PathPlanning.Editor.gesture_goal",
    "PathPlanning.Editor.gesture_obstacle",
    "PathPlanning.Editor.gesture_focus",
    "PathPlanning.Editor.gesture_maze",
    "PathPlanning.Editor.gesture_curve",
    "PathPlanning.Editor.maze_stale",
    "PathPlanning.Editor.key_clear",
    "PathPlanning.Editor.key_invert",
    "PathPlanning.Editor.key_invert_twice",
    "PathPlanning.Editor.key_modes",
    "PathPlanning.Editor.key_text",
    "PathPlanning.Editor.key_display",
    "PathPlanning.Editor.key_idle",
    "PathPlanning.Editor.mode_key_loses",
    "PathPlanning.Editor.new_defined",
    "PathPlanning.Editor.obstacle_example"
   ],
   "note": "OpenCV delivers the events one at a time; the map generators are arbitrary functions here (Model/MapGen models the existing ones); files are written atomically and images are stored without loss; drawing is C82-C84"
  },
  {
   "property": "C116",
   "status": "proved",
   "theorems": [
    "PathPlanning.During.grid_during",
    "PathPlanning.During.grid_one_way",
    "PathPlanning.During.ends",
    "PathPlanning.During.sound",
    "PathPlanning.During.complete",
    "PathPlanning.During.cost_le",
    "PathPlanning.During.constant",
    "PathPlanning.During.moments",
    "PathPlanning.During.frozen",
    "PathPlanning.During.grid_moments",
    "PathPlanning.During.Ex.stale",
    "PathPlanning.During.Ex.missed"
   ],
   "note": "the callback changes which cells are free, nothing else (not size, labels or the search object); a second thread writing to the map is not modelled; grid searches (the general theorems cover every neighbourhood whose neighbours do not depend on the path)"
  },
  {
   "property": "C117",
   "status": "partial",
   "theorems": [
    "PathPlanning.RMap.point2cellF_rot",
    "PathPlanning.RMap.point2cellF_rot_double",
    "PathPlanning.RMap.roundtrip_rot",
    "PathPlanning.RMap.roundtrip_rot_double",
    "PathPlanning.RMap.cell2pointF_near",
    "PathPlanning.RMap.cell2pointF_near_double",
    "PathPlanning.RMap.roundtrip_rot_two",
    "PathPlanning.RMap.roundtrip_rot_float_partial",
    "PathPlanning.RMap.roundtrip_rot_float_fails",
    "PathPlanning.P2.rotateF_err"
   ],
   "note": "partial because the float overload does not keep cells far from zero (roundtrip_rot_float_fails); overflow, underflow and special values are not modelled; accuracy of the C library's sine and cosine is a hypothesis"
  },
  {
   "property": "C118",
   "status": "proved",
   "theorems": [
    "PathPlanning.Symmetry.moved_same",
    "PathPlanning.Symmetry.legacy_moved",
    "PathPlanning.Symmetry.triangle",
    "PathPlanning.Symmetry.zero_iff",
    "PathPlanning.MapChange.there_and_back"
   ],
   "note": "exact arithmetic; the copy is described by its free cells, occupied cells may be missing; without time limit and analytic expansion"
  },
  {
   "property": "C119",
   "status": "proved",
   "theorems": [
    "PathPlanning.RSSym.frame_le",
    "PathPlanning.RSSym.frame_same",
    "PathPlanning.RSSym.back_le",
    "PathPlanning.RSSym.back_same_cost",
    "PathPlanning.RSSym.pose_driveAll",
    "PathPlanning.RSSym.back_driveAll"
   ],
   "note": "exact arithmetic; curves with an end turn of exactly zero are excluded, there the clamped angle may be 0 or a full turn"
  },
  {
   "property": "C120",
   "status": "proved",
   "theorems": [
    "PathPlanning.KDur.moments",
    "PathPlanning.KDur.frozen",
    "PathPlanning.KDur.pad_moments",
    "PathPlanning.KDur.dyn_moments",
    "PathPlanning.Spec.TakenAt.length",
    "PathPlanning.KDur.ends",
    "PathPlanning.KDur.throws",
    "PathPlanning.KDur.path",
    "PathPlanning.KDur.complete",
    "PathPlanning.KDur.complete_lattice",
    "PathPlanning.KDur.unchanged",
    "PathPlanning.KDur.fuel_unique",
    "PathPlanning.KDur.pad_ends",
    "PathPlanning.KDur.pad_path",
    "PathPlanning.KDur.pad_complete",
    "PathPlanning.KDur.dyn_ends",
    "PathPlanning.KDur.dyn_path",
    "PathPlanning.KDur.dyn_complete",
    "PathPlanning.KDur.pad_unchanged",
    "PathPlanning.KDur.outdated_step",
    "PathPlanning.KDur.example_path",
    "PathPlanning.KDur.exact_blocking",
    "PathPlanning.KDur.pad_exact_blocking",
    "PathPlanning.KDur.dyn_exact_blocking",
    "PathPlanning.KDur.inexact_when_freed"
   ],
   "note": "the callback changes only the values of cells, not the size of the map, and does not call the search; exact arithmetic"
  },
  {
   "property": "C121",
   "status": "proved",
   "theorems": [
    "PathPlanning.XDur.hybrid",
    "PathPlanning.XDur.result",
    "PathPlanning.XDur.fuel_unique",
    "PathPlanning.XDur.unchanged",
    "PathPlanning.XDur.pad_hybrid_during",
    "PathPlanning.XDur.dyn_hybrid_during",
    "PathPlanning.XDur.pad_unchanged",
    "PathPlanning.XDur.example_path",
    "PathPlanning.XDurEx.run",
    "PathPlanning.XDurEx.ends_expanded"
   ],
   "note": "the callback changes only the values of cells, not the size of the map, and does not call the search; exact arithmetic; what the search without expansion does on a changing map is C120"
  },
  {
   "property": "C122",
   "status": "proved",
   "theorems": [
    "PathPlanning.TDur.moments",
    "PathPlanning.TDur.frozen",
    "PathPlanning.TDur.pad_moments",
    "PathPlanning.TDur.dyn_moments",
    "PathPlanning.TDur.ends",
    "PathPlanning.TDur.throws",
    "PathPlanning.TDur.path",
    "PathPlanning.TDur.complete",
    "PathPlanning.TDur.exact_blocking",
    "PathPlanning.TDur.unchanged",
    "PathPlanning.TDur.fuel_unique",
    "PathPlanning.TDur.pad_ends",
    "PathPlanning.TDur.pad_path",
    "PathPlanning.TDur.pad_complete",
    "PathPlanning.TDur.pad_exact_blocking",
    "PathPlanning.TDur.pad_unchanged",
    "PathPlanning.TDur.dyn_ends",
    "PathPlanning.TDur.dyn_path",
    "PathPlanning.TDur.dyn_complete",
    "PathPlanning.TDur.dyn_exact_blocking",
    "PathPlanning.TDur.corridor",
    "PathPlanning.SteerEx.example_corridor"
   ],
   "note": "the callback changes only the values of cells, not the size of the map, and does not call the search; exact arithmetic; the corridor theorem is for a vehicle that can only drive straight ahead"
  },
  {
   "property": "C123",
   "status": "proved",
   "theorems": [
    "PathPlanning.CDur.ends",
    "PathPlanning.CDur.sound",
    "PathPlanning.CDur.complete",
    "PathPlanning.CDur.candidates_listed",
    "PathPlanning.CDur.moments",
    "PathPlanning.CDur.constant",
    "PathPlanning.CDur.region_shortest",
    "PathPlanning.CDur.grid",
    "PathPlanning.CDur.grid_shortest"
   ],
   "note": "the callback changes only which neighbours a node has (the values of cells), not the size of the map, and does not call the search; exact arithmetic; one start node in the grid theorems"
  },
  {
   "property": "C124",
   "status": "proved",
   "theorems": [
    "PathPlanning.CB.same",
    "PathPlanning.CB.same_custom",
    "PathPlanning.CB.same_kin",
    "PathPlanning.CB.calls",
    "PathPlanning.CB.head",
    "PathPlanning.CB.later",
    "PathPlanning.CB.rate",
    "PathPlanning.CB.silent",
    "PathPlanning.CB.search",
    "PathPlanning.CB.search_custom",
    "PathPlanning.CB.search_kin",
    "PathPlanning.CB.node_makes",
    "PathPlanning.CB.custom_makes",
    "PathPlanning.CB.kin_makes",
    "PathPlanning.CB.program",
    "PathPlanning.CB.program_zero",
    "PathPlanning.CB.Ex.second_silent"
   ],
   "note": "searches of one thread; the callback is only counted here (what it may do to the map: C116, C120-C123); counters are integers without overflow"
  },
  {
   "property": "C125",
   "status": "proved",
   "theorems": [
    "PathPlanning.DTR.double_costs",
    "PathPlanning.DTR.double_path",
    "PathPlanning.DTR.double_heuristic",
    "PathPlanning.DTR.round_ends",
    "PathPlanning.DTR.round_costs",
    "PathPlanning.DTR.round_path",
    "PathPlanning.DTR.loop_real"
   ],
   "note": "unbounded exponents; the largest double plus a step is the largest double again (as in binary64); round_* state the same for every monotone rounding with a relative error; C53 and C54 are the same claims in exact arithmetic (loop_real: one model)"
  },
  {
   "property": "C126",
   "status": "proved",
   "theorems": [
    "PathPlanning.Maps.later_sound",
    "PathPlanning.Maps.later_custom_sound",
    "PathPlanning.Maps.later_candidates",
    "PathPlanning.Maps.later_iff",
    "PathPlanning.Maps.used_dist",
    "PathPlanning.Maps.stuck_at_start",
    "PathPlanning.Maps.replan_fails",
    "PathPlanning.Maps.grid_later",
    "PathPlanning.Maps.grid_replan_fails",
    "PathPlanning.Maps.Ex.gap_not_found"
   ],
   "note": "nodes without poses (grid maps, general graphs); C80 is the case of one map (Used.on), C116 and C123 the first search"
  },
  {
   "property": "C127",
   "status": "proved",
   "theorems": [
    "PathPlanning.DT.Metric.zero_iff",
    "PathPlanning.DT.Metric.symmetric",
    "PathPlanning.DT.Metric.triangle",
    "PathPlanning.DT.Metric.consistent",
    "PathPlanning.DT.Metric.freed",
    "PathPlanning.DT.Metric.moved",
    "PathPlanning.DT.Metric.astar_le",
    "PathPlanning.DT.Metric.astar_eq",
    "PathPlanning.DT.Metric.heuristic_perfect"
   ],
   "note": "exact arithmetic; without an occupied border the value may exceed the length A* finds (C54: holo_overestimates)"
  },
  {
   "property": "C128",
   "status": "proved",
   "theorems": [
    "PathPlanning.TimeLimit.in_time",
    "PathPlanning.TimeLimit.unhurried",
    "PathPlanning.TimeLimit.more_time",
    "PathPlanning.TimeLimit.path_stays",
    "PathPlanning.TimeLimit.no_time",
    "PathPlanning.TimeLimit.path_found",
    "PathPlanning.TimeLimit.custom_path_found",
    "PathPlanning.TimeLimit.nearer_end",
    "PathPlanning.TimeLimit.candidates_stay",
    "PathPlanning.TimeLimit.custom_better_end",
    "PathPlanning.TimeLimit.steer_more_time",
    "PathPlanning.TimeLimit.steer_path_stays",
    "PathPlanning.TimeLimit.hybrid_more_time",
    "PathPlanning.TimeLimit.hybrid_path_stays",
    "PathPlanning.TimeLimit.steer_test_path_found"
   ],
   "note": "the limit is read once per round; when it strikes is an arbitrary predicate on the number of nodes expanded so far; goal tests and acceptance tests must not look at the clock; the map does not change during the runs; a steering search with a goal test is on a freshly initialised map and its longer run may also end in an exception, which is why its theorem assumes that it ends normally"
  },
  {
   "property": "C129",
   "status": "proved",
   "theorems": [
    "PathPlanning.Deadline.no_limit",
    "PathPlanning.Deadline.kept",
    "PathPlanning.Deadline.not_early",
    "PathPlanning.Deadline.larger_limit",
    "PathPlanning.Deadline.below_millisecond",
    "PathPlanning.Deadline.usable",
    "PathPlanning.Deadline.huge",
    "PathPlanning.Deadline.steer_no_limit",
    "PathPlanning.Deadline.steer_larger_limit",
    "PathPlanning.Deadline.steer_kept",
    "PathPlanning.Deadline.steer_not_early",
    "PathPlanning.Deadline.steer_below_millisecond",
    "PathPlanning.Deadline.overflow_exact",
    "PathPlanning.Deadline.search_overflows",
    "PathPlanning.Deadline.steer_search_overflows",
    "PathPlanning.Deadline.hybrid_kept",
    "PathPlanning.Deadline.hybrid_no_limit",
    "PathPlanning.Deadline.hybrid_overflows",
    "PathPlanning.Deadline.hybrid_below_millisecond",
    "PathPlanning.Deadline.hybrid_larger_limit",
    "PathPlanning.Deadline.hybrid_not_early",
    "PathPlanning.Deadline.test_kept",
    "PathPlanning.Deadline.test_no_limit",
    "PathPlanning.Deadline.test_overflows",
    "PathPlanning.Deadline.test_below_millisecond",
    "PathPlanning.Deadline.test_larger_limit",
    "PathPlanning.Deadline.Ex.row_found_in_time",
    "PathPlanning.Deadline.Ex.row_not_found",
    "PathPlanning.Deadline.steer_test_kept",
    "PathPlanning.Deadline.steer_test_no_limit",
    "PathPlanning.Deadline.steer_test_overflows",
    "PathPlanning.Deadline.steer_test_below_millisecond",
    "PathPlanning.KinEx.test_two_milliseconds",
    "PathPlanning.KinEx.test_half_millisecond",
    "PathPlanning.KinEx.hybrid_two_milliseconds",
    "PathPlanning.KinEx.two_milliseconds",
    "PathPlanning.KinEx.half_millisecond"
   ],
   "note": "the clock counts nanoseconds and is read once per round, before the round's expansion; limit * 1e3 exact; larger_limit and not_early without goal candidates (with candidates: C128), with a goal test: a path stays a path; a single round may of course take any time"
  },
  {
   "property": "C130",
   "status": "partial",
   "theorems": [
    "PathPlanning.Again.nothing_again",
    "PathPlanning.Again.nothing_after_failure",
    "PathPlanning.Again.steer_nothing_again",
    "PathPlanning.Again.steer_nothing_after_failure",
    "PathPlanning.KinEx.start_used",
    "PathPlanning.KinEx.between_returns"
   ],
   "note": "the positive property is false of the code; proved is that it fails for every map: the stored distances of the first search block every move from the start. Without goal candidates in the first search; a path that consists of the start cell alone is excluded, and all start nodes must have been taken off the open list. The versions for poses (steer_...) are for the next search, the general ones for any searches in between, left at any point"
  }
 ]
}
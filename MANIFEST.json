{
 "claims": [
  {
   "property": "C01",
   "status": "proved",
   "theorems": [
    "Delynoi.C01_push_back_index"
   ],
   "note": "any history, any strict weak order on the used elements"
  },
  {
   "property": "C02",
   "status": "proved",
   "theorems": [
    "Delynoi.C02_history_refines_ordered_set",
    "Delynoi.C02_no_duplicates",
    "Delynoi.C02_pushes_represented"
   ],
   "note": "refinement of an insertion-ordered set"
  },
  {
   "property": "C03",
   "status": "proved",
   "theorems": [
    "Delynoi.C03_push_idempotent",
    "Delynoi.C03_indices_stable"
   ],
   "note": ""
  },
  {
   "property": "C04",
   "status": "proved",
   "theorems": [
    "Delynoi.C04_push_list_decodes"
   ],
   "note": ""
  },
  {
   "property": "C05",
   "status": "proved",
   "theorems": [
    "Delynoi.C05_contains_iff",
    "Delynoi.C05_hasCommonElement_iff"
   ],
   "note": ""
  },
  {
   "property": "C06",
   "status": "proved",
   "theorems": [
    "Delynoi.C06_delete_exact",
    "Delynoi.C06_delete_at_most_one",
    "Delynoi.C06_delete_reindexes"
   ],
   "note": ""
  },
  {
   "property": "C07",
   "status": "partial",
   "theorems": [
    "Delynoi.C07_pop_front_refuted",
    "Delynoi.C07_pop_front_off_by_one",
    "Delynoi.C07_pop_front_partial",
    "Delynoi.C07_force_push_back_appends"
   ],
   "note": "refuted as stated: pop_front does not shift the stored indices; proved that the returned index is always off by one and that the element list itself is right"
  },
  {
   "property": "C08",
   "status": "proved",
   "theorems": [
    "Delynoi.C08_eq_iff_close",
    "Delynoi.C08_eq_refl",
    "Delynoi.C08_eq_symm",
    "Delynoi.C08_trichotomy",
    "Delynoi.C08_lt_iff"
   ],
   "note": ""
  },
  {
   "property": "C09",
   "status": "proved",
   "theorems": [
    "Delynoi.C09_swo_of_separated",
    "Delynoi.C09_separated_of_gap",
    "Delynoi.C09_cycle_refuted",
    "Delynoi.C09_eq_not_transitive"
   ],
   "note": "holds on tolerance-separated sets; without the restriction a cycle exists for every tolerance"
  },
  {
   "property": "C10",
   "status": "proved",
   "theorems": [
    "Delynoi.C10_contains_convex_combination",
    "Delynoi.C10_contains_endpoints",
    "Delynoi.C10_contains_swap"
   ],
   "note": ""
  },
  {
   "property": "C11",
   "status": "proved",
   "theorems": [
    "Delynoi.C11_contains_iff",
    "Delynoi.C11_contains_near_line"
   ],
   "note": ""
  },
  {
   "property": "C12",
   "status": "proved",
   "theorems": [
    "Delynoi.C12_ieee_intersects",
    "Delynoi.C12_ieee_infinite",
    "Delynoi.C12_intersects_iff",
    "Delynoi.C12_parallel_none",
    "Delynoi.C12_complete",
    "Delynoi.C12_infinite_iff"
   ],
   "note": "exact arithmetic; the IEEE treatment of a zero denominator is in Verif.Props.Ieee"
  },
  {
   "property": "C13",
   "status": "proved",
   "theorems": [
    "Delynoi.C13_intersects_comm",
    "Delynoi.C13_intersects_reverse"
   ],
   "note": ""
  },
  {
   "property": "C14",
   "status": "proved",
   "theorems": [
    "Delynoi.C14_eq_iff",
    "Delynoi.C14_swap",
    "Delynoi.C14_equivalence",
    "Delynoi.C14_hash_always_consistent",
    "Delynoi.C14_equal_hash",
    "Delynoi.C14_key_consistent",
    "Delynoi.C14_lt_inconsistent_with_eq"
   ],
   "note": ""
  },
  {
   "property": "C15",
   "status": "partial",
   "theorems": [
    "Delynoi.C15_hash32_undefined_refuted",
    "Delynoi.C15_wrap_agrees_partial"
   ],
   "note": "refuted: signed overflow for every index below 2^28 except 61; proved that wrap-around evaluation agrees when defined"
  },
  {
   "property": "C16",
   "status": "proved",
   "theorems": [
    "Delynoi.C16_orderCCW",
    "Delynoi.C16_orderCCW_idempotent",
    "Delynoi.C16_collinear_refuted"
   ],
   "note": "idempotence needs non-collinearity (witness otherwise)"
  },
  {
   "property": "C17",
   "status": "proved",
   "theorems": [
    "Delynoi.C17_fan_eq_shoelace",
    "Delynoi.C17_area_reference",
    "Delynoi.C17_getArea_fresh"
   ],
   "note": ""
  },
  {
   "property": "C18",
   "status": "proved",
   "theorems": [
    "Delynoi.C18_rotate",
    "Delynoi.C18_reverse",
    "Delynoi.C18_translate"
   ],
   "note": ""
  },
  {
   "property": "C19",
   "status": "proved",
   "theorems": [
    "Delynoi.C19_isClockwise_iff",
    "Delynoi.C19_empty_ub"
   ],
   "note": "undefined for the empty polygon"
  },
  {
   "property": "C20",
   "status": "proved",
   "theorems": [
    "Delynoi.C20_fixCCW",
    "Delynoi.C20_reverse_same_edges"
   ],
   "note": ""
  },
  {
   "property": "C21",
   "status": "proved",
   "theorems": [
    "Delynoi.C21_area_never_stale",
    "Delynoi.C21_history_defined"
   ],
   "note": "any history; also proved that no such history is undefined"
  },
  {
   "property": "C22",
   "status": "partial",
   "theorems": [
    "Delynoi.C22_centroid_always_origin",
    "Delynoi.C22_centroid_refuted",
    "Delynoi.C22_other_branch"
   ],
   "note": "refuted: the accessor returns the origin for every polygon in every history"
  },
  {
   "property": "C23",
   "status": "proved",
   "theorems": [
    "Delynoi.C23_centroid_is_area_mean",
    "Delynoi.C23_translate",
    "Delynoi.C23_reverse_rotate",
    "Delynoi.C23_triangle",
    "Delynoi.C23_ieee_centroid"
   ],
   "note": "also identified with the area-weighted mean of triangle centroids"
  },
  {
   "property": "C24",
   "status": "proved",
   "theorems": [
    "Delynoi.C24_calculateDiameter",
    "Delynoi.C24_degenerate",
    "Delynoi.C24_getDiameter"
   ],
   "note": "two or more vertices, any history of the object; -1 for one vertex, undefined for none"
  },
  {
   "property": "C25",
   "status": "proved",
   "theorems": [
    "Delynoi.C25_hull",
    "Delynoi.C25_hull_nil"
   ],
   "note": ""
  },
  {
   "property": "C26",
   "status": "partial",
   "theorems": [
    "Delynoi.C26_getMaxDistance_partial",
    "Delynoi.C26_header_refuted"
   ],
   "note": "proved for non-empty polygons as longest edge; header promise (largest vertex distance) refuted; LLONG_MIN for the empty polygon"
  },
  {
   "property": "C27",
   "status": "partial",
   "theorems": [
    "Delynoi.C27_containsPoint_iff_partial",
    "Delynoi.C27_containsPoint_refuted",
    "Delynoi.C27_shared_points",
    "Delynoi.C27_ieee_containsPoint",
    "Delynoi.C27_ieee_nan"
   ],
   "note": "proved when neighbouring vertices that coincide within tolerance are equal, which holds for all polygons over the points of a mesh or region (C27_shared_points); refuted otherwise"
  },
  {
   "property": "C28",
   "status": "proved",
   "theorems": [
    "Delynoi.C28_inside_contained",
    "Delynoi.C28_outside_only_near_edge",
    "Delynoi.C28_edge_contained"
   ],
   "note": ""
  },
  {
   "property": "C29",
   "status": "partial",
   "theorems": [
    "Delynoi.C29_start_and_orientation_partial",
    "Delynoi.C29_shared_points",
    "Delynoi.C29_start_refuted"
   ],
   "note": "proved when neighbouring vertices that coincide within tolerance are equal, which holds for all polygons over the points of a mesh or region (C29_shared_points); refuted otherwise"
  },
  {
   "property": "C31",
   "status": "proved",
   "theorems": [
    "Delynoi.C31_containerEdge",
    "Delynoi.C31_inEdges_eq"
   ],
   "note": ""
  },
  {
   "property": "C30",
   "status": "proved",
   "theorems": [
    "Delynoi.C30_hole_containsPoint",
    "Delynoi.C30_hole_classes"
   ],
   "note": ""
  },
  {
   "property": "C32",
   "status": "proved",
   "theorems": [
    "Delynoi.C32_containsEdge_iff",
    "Delynoi.C32_getSegments_iff",
    "Delynoi.C32_repeated_vertex_misses_edge"
   ],
   "note": "distinct vertices, any size; a repeated vertex breaks it (witness)"
  },
  {
   "property": "C33",
   "status": "partial",
   "theorems": [
    "Delynoi.C33_isConvex_iff",
    "Delynoi.C33_accepts",
    "Delynoi.C33_accepts_convex",
    "Delynoi.C33_rejects_partial",
    "Delynoi.C33_rejects_refuted",
    "Delynoi.C33_star_accepted"
   ],
   "note": "acceptance proved; rejection proved when the first turn is not zero, refuted when it is"
  },
  {
   "property": "C34",
   "status": "partial",
   "theorems": [
    "Delynoi.C34_perm_equal_partial",
    "Delynoi.C34_refuted"
   ],
   "note": "same vertices in any order compare equal; converse refuted"
  },
  {
   "property": "C35",
   "status": "partial",
   "theorems": [
    "Delynoi.C35_isSelfIntersecting_iff",
    "Delynoi.C35_mutate_partial",
    "Delynoi.C35_constructors_accept_all",
    "Delynoi.C35_constructor_refuted"
   ],
   "note": "mutate proved exact; constructors refuted (accept everything)"
  },
  {
   "property": "C36",
   "status": "partial",
   "theorems": [
    "Delynoi.C36_rejected_partial",
    "Delynoi.C36_mutate_ok_partial",
    "Delynoi.C36_refuted"
   ],
   "note": "refuted for rejected input; successful mutate proved equal to fresh construction"
  },
  {
   "property": "C37",
   "status": "proved",
   "theorems": [
    "Delynoi.C37_ieee_circumcenter",
    "Delynoi.C37_defined_iff",
    "Delynoi.C37_circumcenter",
    "Delynoi.C37_order"
   ],
   "note": "defined exactly when the vertices are not collinear; then unique equidistant point; vertex order irrelevant"
  },
  {
   "property": "C38",
   "status": "proved",
   "theorems": [
    "Delynoi.C38_thirdPoint",
    "Delynoi.C38_symmetric",
    "Delynoi.C38_thirdPoint_missing"
   ],
   "note": "all triangles and edges"
  },
  {
   "property": "C39",
   "status": "proved",
   "theorems": [
    "Delynoi.C39_ear",
    "Delynoi.C39_area_conserved",
    "Delynoi.C39_small"
   ],
   "note": "number of triangles, index validity and exact area conservation for every successful run"
  },
  {
   "property": "C40",
   "status": "partial",
   "theorems": [
    "Delynoi.C40_convex_partial",
    "Delynoi.C40_refuted",
    "Delynoi.C40_small_refuted"
   ],
   "note": "convex outlines with sufficient margins proved; a dart and a tiny square refute the general claim"
  },
  {
   "property": "C41",
   "status": "proved",
   "theorems": [
    "Delynoi.C41_center",
    "Delynoi.C41_orientation",
    "Delynoi.C41_rejects"
   ],
   "note": "fan area, orientation; small inputs rejected"
  },
  {
   "property": "C42",
   "status": "proved",
   "theorems": [
    "Delynoi.C42_contains_iff",
    "Delynoi.C42_extents",
    "Delynoi.C42_corners",
    "Delynoi.C42_segments",
    "Delynoi.C42_boundary",
    "Delynoi.C42_eq_diagonal",
    "Delynoi.C42_eq_iff",
    "Delynoi.C42_eq_extents",
    "Delynoi.C42_eq_refuted"
   ],
   "note": "also: operator== does not recognise the same box given by its other diagonal"
  },
  {
   "property": "C43",
   "status": "proved",
   "theorems": [
    "Delynoi.C43_box_contains",
    "Delynoi.C43_box_tight",
    "Delynoi.C43_far_not_tight"
   ],
   "note": "Extents and tightness of the box of the outline. The code's search bound is also examined: a companion theorem shows the result for coordinates beyond it."
  },
  {
   "property": "C44",
   "status": "proved",
   "theorems": [
    "Delynoi.C44_addSeedPoints",
    "Delynoi.C44_appendSeeds",
    "Delynoi.C44_generateSeedPoints",
    "Delynoi.C44_all_good"
   ],
   "note": ""
  },
  {
   "property": "C45",
   "status": "partial",
   "theorems": [
    "Delynoi.C45_refuted",
    "Delynoi.C45_history_partial",
    "Delynoi.C45_wellformed"
   ],
   "note": "Refuted for histories that add a hole or change the outline after seeding; proved for every history whose operations after the last seeding do not do so. Well-formedness is proved for all histories."
  },
  {
   "property": "C46",
   "status": "partial",
   "theorems": [
    "Delynoi.C46_refuted",
    "Delynoi.C46_replaces_partial"
   ],
   "note": "Refuted: addSeedPoints replaces the earlier seeds. The partial theorem states that the result does not depend on them at all."
  },
  {
   "property": "C47",
   "status": "partial",
   "theorems": [
    "Delynoi.C47_refuted",
    "Delynoi.C47_copy_partial"
   ],
   "note": "Refuted: the copy constructor drops the seeds. Proved for everything else."
  },
  {
   "property": "C48",
   "status": "proved",
   "theorems": [
    "Delynoi.C48_segments_join",
    "Delynoi.C48_indices_valid"
   ],
   "note": ""
  },
  {
   "property": "C49",
   "status": "proved",
   "theorems": [
    "Delynoi.C49_crossing",
    "Delynoi.C49_otherwise",
    "Delynoi.C49_seeds_kept",
    "Delynoi.C49_defined_iff"
   ],
   "note": "The clipping library is an arbitrary function."
  },
  {
   "property": "C50",
   "status": "proved",
   "theorems": [
    "Delynoi.C50_toInt_iff",
    "Delynoi.C50_toInt_defined",
    "Delynoi.C50_toInt_not_exn",
    "Delynoi.C50_roundtrip",
    "Delynoi.C50_default_scale"
   ],
   "note": ""
  },
  {
   "property": "C51",
   "status": "partial",
   "theorems": [
    "Delynoi.C51_center_is_origin",
    "Delynoi.C51_refuted",
    "Delynoi.C51_addHole_rejects",
    "Delynoi.C51_origin_partial"
   ],
   "note": "Refuted: the center of a polygonal hole is always the origin. The partial theorem covers polygons that contain the origin."
  },
  {
   "property": "C52",
   "status": "proved",
   "theorems": [
    "Delynoi.C52_free_x_numbers",
    "Delynoi.C52_count",
    "Delynoi.C52_row_by_row",
    "Delynoi.C52_both",
    "Delynoi.C52_identity",
    "Delynoi.C52_in_box",
    "Delynoi.C52_free_x",
    "Delynoi.C52_free_y",
    "Delynoi.C52_both_needs_two"
   ],
   "note": "all generators for the count; all pairs of functors with separate state, all functors over one free variable"
  },
  {
   "property": "C53",
   "status": "partial",
   "theorems": [
    "Delynoi.C53_ieee_gridCoord",
    "Delynoi.C53_single_column_partial",
    "Delynoi.C53_adds_nothing",
    "Delynoi.C53_refuted"
   ],
   "note": "Refuted: with one row or column the coordinate is NaN and every point is dropped; the partial theorem covers the other coordinate. The NaN is derived in the IEEE model."
  },
  {
   "property": "C54",
   "status": "partial",
   "theorems": [
    "Delynoi.C54_exact",
    "Delynoi.C54_two_batches_partial",
    "Delynoi.C54_refuted",
    "Delynoi.C54_single",
    "Delynoi.C54_grid_refuted"
   ],
   "note": "Refuted for every batch size from the third batch on, with an exact closed form for all calls; the first two batches proved."
  },
  {
   "property": "C55",
   "status": "proved",
   "theorems": [
    "Delynoi.C55_displace"
   ],
   "note": ""
  },
  {
   "property": "C56",
   "status": "proved",
   "theorems": [
    "Delynoi.C56_doubleNoise",
    "Delynoi.C56_integerNoise",
    "Delynoi.C56_sign"
   ],
   "note": "the random engine is an arbitrary sequence of draws in the stated range"
  },
  {
   "property": "C57",
   "status": "partial",
   "theorems": [
    "Delynoi.C57_terminates_iff",
    "Delynoi.C57_points",
    "Delynoi.C57_deterministic",
    "Delynoi.C57_on_circle",
    "Delynoi.C57_count_partial",
    "Delynoi.C57_refuted"
   ],
   "note": "Refuted: the loop ends iff the grade is in 1..360, and the number of points is the grade iff the grade divides 360. Points on the circle proved in general."
  },
  {
   "property": "C58",
   "status": "proved",
   "theorems": [
    "Delynoi.C58_arc",
    "Delynoi.C58_degenerate"
   ],
   "note": "also: grades below 1"
  },
  {
   "property": "C78",
   "status": "partial",
   "theorems": [
    "Delynoi.C78_degrees",
    "Delynoi.C78_cartesianAngle",
    "Delynoi.C78_right",
    "Delynoi.C78_angle_partial",
    "Delynoi.C78_angle_equivalent",
    "Delynoi.C78_refuted",
    "Delynoi.C78_negative",
    "Delynoi.C78_cartesian_wrapped"
   ],
   "note": "Refuted for negative angles; proved for non-negative ones and for all results of cartesianAngle"
  },
  {
   "property": "C81",
   "status": "proved",
   "theorems": [
    "Delynoi.C81_sine",
    "Delynoi.C81_cosine",
    "Delynoi.C81_normalize"
   ],
   "note": ""
  },
  {
   "property": "C59",
   "status": "proved",
   "theorems": [
    "Delynoi.C59_history",
    "Delynoi.C59_neighbours",
    "Delynoi.C59_size",
    "Delynoi.C59_contains",
    "Delynoi.C59_needs_hash"
   ],
   "note": "keys are assumed to carry the hash their constructors compute (C14)"
  },
  {
   "property": "C60",
   "status": "partial",
   "theorems": [
    "Delynoi.C60_get_present_partial",
    "Delynoi.C60_get_absent_refuted"
   ],
   "note": "Refuted: get of an absent segment inserts a record with an uninitialised neighbour. Read-only for present segments."
  },
  {
   "property": "C61",
   "status": "proved",
   "theorems": [
    "Delynoi.C61_get",
    "Delynoi.C61_keys",
    "Delynoi.C61_get_absent_adds"
   ],
   "note": "also: the keys of the map are pairwise different points"
  },
  {
   "property": "C62",
   "status": "proved",
   "theorems": [
    "Delynoi.C62_called_once"
   ],
   "note": ""
  },
  {
   "property": "C63",
   "status": "partial",
   "theorems": [
    "Delynoi.C63_refuted",
    "Delynoi.C63_segments_refuted",
    "Delynoi.C63_dangling_refuted",
    "Delynoi.C63_same_kind_partial"
   ],
   "note": "Refuted: a request of another kind (or with other segments) returns the result of the first one, and getConformingDelaunayTriangulation always returns a dangling reference. Proved for requests of the same kind."
  },
  {
   "property": "C64",
   "status": "proved",
   "theorems": [
    "Delynoi.C64_input_consistent",
    "Delynoi.C64_no_duplicates"
   ],
   "note": ""
  },
  {
   "property": "C65",
   "status": "partial",
   "theorems": [
    "Delynoi.C65_refuted",
    "Delynoi.C65_known_endpoints_partial"
   ],
   "note": "Refuted: an endpoint not among the points is passed to Triangle as index -1. Proved for endpoints that are among the points."
  },
  {
   "property": "C66",
   "status": "proved",
   "theorems": [
    "Delynoi.C66_edge_records",
    "Delynoi.C66_only_edges"
   ],
   "note": "Triangle's output is assumed to be a valid triangulation description (ValidOut)"
  },
  {
   "property": "C67",
   "status": "proved",
   "theorems": [
    "Delynoi.C67_mesh"
   ],
   "note": ""
  },
  {
   "property": "C68",
   "status": "partial",
   "theorems": [
    "Delynoi.C68_refuted",
    "Delynoi.C68_vertices_partial",
    "Delynoi.C68_merged_triangle_throws"
   ],
   "note": "Refuted: output vertices closer than the tolerance are merged and a merged triangle throws. Proved for the vertex list."
  },
  {
   "property": "C69",
   "status": "proved",
   "theorems": [
    "Delynoi.C69_terminates"
   ],
   "note": ""
  },
  {
   "property": "C70",
   "status": "proved",
   "theorems": [
    "Delynoi.C70_cell"
   ],
   "note": "assumes the triangulator's boundary markers are right (MarkersOk)"
  },
  {
   "property": "C71",
   "status": "proved",
   "theorems": [
    "Delynoi.C71_mesh_consistent"
   ],
   "note": ""
  },
  {
   "property": "C72",
   "status": "partial",
   "theorems": [
    "Delynoi.C72_edges_read_as_polygons_refuted",
    "Delynoi.C72_not_recovered_refuted",
    "Delynoi.C72_points_partial"
   ],
   "note": "Refuted: printInFile writes the edges before the polygons and createFromStream reads the first section after the points as polygons. Proved: the points come back, to six significant digits."
  },
  {
   "property": "C73",
   "status": "proved",
   "theorems": [
    "Delynoi.C73_reader",
    "Delynoi.C73_missing_file",
    "Delynoi.C73_repeated_points_refuted"
   ],
   "note": "the mesh has exactly the points of the file if they are pairwise different to within the tolerance; with repeated points later indices are shifted (C73_repeated_points_refuted)"
  },
  {
   "property": "C74",
   "status": "partial",
   "theorems": [
    "Delynoi.C74_written_partial",
    "Delynoi.C74_readback_partial",
    "Delynoi.C74_large_refuted",
    "Delynoi.C74_getString_partial"
   ],
   "note": "Refuted from a million on: such an index is printed in scientific notation and read back as its first digit. Proved for indices below a million."
  },
  {
   "property": "C75",
   "status": "partial",
   "theorems": [
    "Delynoi.C75_precision_ignored_refuted",
    "Delynoi.C75_ten_decimals_refuted",
    "Delynoi.C75_six_digits_partial",
    "Delynoi.C75_toStringWithPrecision"
   ],
   "note": "Refuted: the precision is set on the stream but points are written as strings made by toString with six significant digits. Proved: the coordinates are right to six significant digits, and toStringWithPrecision honours its precision."
  },
  {
   "property": "C76",
   "status": "proved",
   "theorems": [
    "Delynoi.C76_words",
    "Delynoi.C76_unique",
    "Delynoi.C76_nonempty",
    "Delynoi.C76_join"
   ],
   "note": ""
  },
  {
   "property": "C77",
   "status": "proved",
   "theorems": [
    "Delynoi.C77_last_write_wins"
   ],
   "note": ""
  },
  {
   "property": "C79",
   "status": "proved",
   "theorems": [
    "Delynoi.C79_found",
    "Delynoi.C79_absent"
   ],
   "note": ""
  },
  {
   "property": "C80",
   "status": "proved",
   "theorems": [
    "Delynoi.C80_reads_points",
    "Delynoi.C80_no_points",
    "Delynoi.C80_short_file_undefined",
    "Delynoi.C80_short_file_repeats_refuted"
   ],
   "note": "also: outcome for missing, empty and short files"
  },
  {
   "property": "C82",
   "status": "proved",
   "theorems": [
    "Delynoi.C82_generator"
   ],
   "note": "the triangulator's answer is assumed valid (ValidOut) with tolerance-separated, pairwise different points"
  },
  {
   "property": "C83",
   "status": "proved",
   "theorems": [
    "Delynoi.C83_edges_sound",
    "Delynoi.C83_sides_recorded",
    "Delynoi.C83_dual"
   ],
   "note": "for cells whose path of circumcenters does not return to a point it left (NoReturn); duality for interior edges"
  },
  {
   "property": "C84",
   "status": "partial",
   "theorems": [
    "Delynoi.C84_points_partial",
    "Delynoi.C84_once_refuted"
   ],
   "note": "Refuted: cells are listed several times. Proved: exactly the cells with a vertex there are listed (tolerance-separated mesh points)."
  },
  {
   "property": "C85",
   "status": "partial",
   "theorems": [
    "Delynoi.C85_refuted",
    "Delynoi.C85_indices_partial"
   ],
   "note": "Refuted: the switch j makes Triangle drop and renumber unused points, and the indices are not translated back. Proved when the triangulator keeps the points."
  },
  {
   "property": "C86",
   "status": "partial",
   "theorems": [
    "Delynoi.C86_wild",
    "Delynoi.C86_refuted",
    "Delynoi.C86_step_partial",
    "Delynoi.C86_no_copy_partial",
    "Delynoi.C86_new",
    "Delynoi.C86_copy",
    "Delynoi.C86_read"
   ],
   "note": "Refuted: the copy constructor copies the pointers to the maps, so reading into a copy changes the edges of the original. Proved: points, polygons and point map are independent, and everything is in programs without copies."
  },
  {
   "property": "C87",
   "status": "proved",
   "theorems": [
    "Delynoi.C87_input_arrays",
    "Delynoi.C87_access",
    "Delynoi.C87_output_arrays"
   ],
   "note": ""
  },
  {
   "property": "C88",
   "status": "proved",
   "theorems": [
    "Delynoi.C88_segment_eq_iff",
    "Delynoi.C88_segment_eq_reverse",
    "Delynoi.C88_segment_eq_symm",
    "Delynoi.C88_middle",
    "Delynoi.C88_collinear_iff",
    "Delynoi.C88_collinear_perm",
    "Delynoi.C88_collinear_line",
    "Delynoi.C88_collinear_segments",
    "Delynoi.C88_average",
    "Delynoi.C88_isVertex"
   ],
   "note": ""
  },
  {
   "property": "C89",
   "status": "partial",
   "theorems": [
    "Delynoi.C89_rounding_nearest",
    "Delynoi.C89_rounding_ties",
    "Delynoi.C89_eq_sound",
    "Delynoi.C89_eq_symm_refl",
    "Delynoi.C89_lt_asymm",
    "Delynoi.C89_sharp",
    "Delynoi.C89_agrees_partial",
    "Delynoi.C89_agrees_refuted",
    "Delynoi.C89_uniqueList_partial"
   ],
   "note": "Refuted: a difference just below the tolerance can be rounded up to it, so close points may compare different. Proved: computed equality implies closeness; full agreement, also of all unique-list histories, for coordinates whose difference is a binary64 number or at least the tolerance."
  },
  {
   "property": "C90",
   "status": "partial",
   "theorems": [
    "Delynoi.C90_error",
    "Delynoi.C90_sign_partial",
    "Delynoi.C90_never_opposite_partial",
    "Delynoi.C90_zero_refuted",
    "Delynoi.C90_opposite_refuted",
    "Delynoi.C90_collinear_partial"
   ],
   "note": "Refuted: the sign can be lost or reversed. Proved: error bound, correct sign above it, never reversed when the differences are exact."
  },
  {
   "property": "C91",
   "status": "partial",
   "theorems": [
    "Delynoi.C91_area_error",
    "Delynoi.C91_area_sign_partial",
    "Delynoi.C91_isClockwise_partial",
    "Delynoi.C91_isClockwise_refuted"
   ],
   "note": "Refuted: a clockwise triangle taken for counter-clockwise. Proved: error bounds for any number of vertices, correct answers above them."
  },
  {
   "property": "C92",
   "status": "partial",
   "theorems": [
    "Delynoi.C92_middle_between",
    "Delynoi.C92_middle_symm",
    "Delynoi.C92_average_error",
    "Delynoi.C92_average_in_box_refuted"
   ],
   "note": "The statements on the middle point are proved. Refuted for the average, which can leave the bounding box; error bound proved."
  },
  {
   "property": "C93",
   "status": "partial",
   "theorems": [
    "Delynoi.C93_contains_ends",
    "Delynoi.C93_contains_vertices",
    "Delynoi.C93_middle_refuted"
   ],
   "note": "Ends and vertices proved. Refuted for the middle point."
  },
  {
   "property": "C94",
   "status": "partial",
   "theorems": [
    "Delynoi.C94_first",
    "Delynoi.C94_monotone",
    "Delynoi.C94_error",
    "Delynoi.C94_exact",
    "Delynoi.C94_last_line_refuted",
    "Delynoi.C94_seeds_lost_refuted",
    "Delynoi.C94_width"
   ],
   "note": "First line, order, error bound and exact case proved. Refuted: the last line can lie outside the box, and seeds of a grid over a rectangle are lost."
  },
  {
   "property": "C95",
   "status": "proved",
   "theorems": [
    "Delynoi.C95_rectangle_contains",
    "Delynoi.C95_rectangle_seeds"
   ],
   "note": "Exact arithmetic. C94 shows that rounding loses seeds of such a grid."
  },
  {
   "property": "C96",
   "status": "partial",
   "theorems": [
    "Delynoi.C96_same_mesh",
    "Delynoi.C96_flag_sound",
    "Delynoi.C96_complete_partial",
    "Delynoi.C96_complete_refuted",
    "Delynoi.C96_delaunay_flags",
    "Delynoi.C96_delaunay_merged"
   ],
   "note": "Flagged implies on the boundary, unflagged implies a circumcenter, same mesh, and the flags of the triangulation's mesh are proved. Refuted: a circumcenter on the boundary has no flag."
  },
  {
   "property": "C97",
   "status": "proved",
   "theorems": [
    "Delynoi.C97_accepted",
    "Delynoi.C97_rejects_iff",
    "Delynoi.C97_region"
   ],
   "note": ""
  },
  {
   "property": "C98",
   "status": "proved",
   "theorems": [
    "Delynoi.C98_cell_in_region",
    "Delynoi.C98_overlap",
    "Delynoi.C98_encroached"
   ],
   "note": "Delaunay and not encroached are hypotheses; C98_encroached shows that the second is needed."
  },
  {
   "property": "C99",
   "status": "proved",
   "theorems": [
    "Delynoi.C99_no_return",
    "Delynoi.C99_sides_recorded",
    "Delynoi.C99_cell_area",
    "Delynoi.C99_shares_exist",
    "Delynoi.C99_total_area"
   ],
   "note": "The triangulation's properties (counter-clockwise, no overlaps, Delaunay, not encroached) and that the tolerance merges nothing are hypotheses; they are checked on a hexagon."
  },
  {
   "property": "C100",
   "status": "proved",
   "theorems": [
    "Delynoi.C100_star",
    "Delynoi.C100_region",
    "Delynoi.C100_convex"
   ],
   "note": "The triangulation's properties and that the tolerance merges nothing are hypotheses, as in C99."
  },
  {
   "property": "C101",
   "status": "proved",
   "theorems": [
    "Delynoi.C101_file",
    "Delynoi.C101_same_segments",
    "Delynoi.C101_unambiguous",
    "Delynoi.C101_defined_iff"
   ],
   "note": "Rounding is to six significant digits; the file's consumer (triangle.c) is not modelled."
  },
  {
   "property": "C102",
   "status": "partial",
   "theorems": [
    "Delynoi.C102_file",
    "Delynoi.C102_read_back",
    "Delynoi.C102_reload_partial",
    "Delynoi.C102_corners_refuted"
   ],
   "note": "Refuted: the corners come back as seeds (C102_corners_refuted). C102_reload_partial says exactly what is restored."
  },
  {
   "property": "C103",
   "status": "proved",
   "theorems": [
    "Delynoi.C103_segments_defined_iff",
    "Delynoi.C103_segments",
    "Delynoi.C103_points",
    "Delynoi.C103_strings"
   ],
   "note": "Indices converted to double must be below a million (C74)."
  },
  {
   "property": "C104",
   "status": "partial",
   "theorems": [
    "Delynoi.C104_ear_partial",
    "Delynoi.C104_center_partial",
    "Delynoi.C104_star_refuted"
   ],
   "note": "Proved for convex polygons (with margins for ear clipping); a pentagram is accepted by center triangulation and gets overlapping triangles (C104_star_refuted)."
  },
  {
   "property": "C105",
   "status": "proved",
   "theorems": [
    "Delynoi.C105_region",
    "Delynoi.C105_overlap",
    "Delynoi.C105_cover",
    "Delynoi.C105_nearest"
   ],
   "note": "Under the hypotheses of C99 and MergesNoCorner; cells are read as stars around their points (C100_star)."
  },
  {
   "property": "C106",
   "status": "proved",
   "theorems": [
    "Delynoi.C106_ear",
    "Delynoi.C106_center",
    "Delynoi.C106_fill",
    "Delynoi.C106_containsPoint",
    "Delynoi.C106_contains_triangles"
   ],
   "note": "Points on sides of triangles may be counted or not, hence two inequalities."
  },
  {
   "property": "C107",
   "status": "partial",
   "theorems": [
    "Delynoi.C107_values_partial",
    "Delynoi.C107_surjective",
    "Delynoi.C107_range_refuted",
    "Delynoi.C107_undefined",
    "Delynoi.C107_noise_sign",
    "Delynoi.C107_noise_size",
    "Delynoi.C107_noise_overflow"
   ],
   "note": "Refuted as stated: fractional bounds are truncated, so random_integer(0.5,0.7) yields 0; noise with equal even bounds always subtracts, and can overflow at the least int."
  },
  {
   "property": "C108",
   "status": "partial",
   "theorems": [
    "Delynoi.C108_compare",
    "Delynoi.C108_of",
    "Delynoi.C108_neg",
    "Delynoi.C108_add_partial",
    "Delynoi.C108_add_refuted",
    "Delynoi.C108_sub_partial",
    "Delynoi.C108_mul",
    "Delynoi.C108_double_partial",
    "Delynoi.C108_double_refuted"
   ],
   "note": "Refuted as stated: adding two 128-bit numbers computes the high words with signed 64-bit addition before the carry and can overflow though the sum fits; conversion of negative numbers to double is off by one (-1 becomes 0)."
  },
  {
   "property": "C109",
   "status": "proved",
   "theorems": [
    "Delynoi.C109_rangeTest",
    "Delynoi.C109_rangeTests",
    "Delynoi.C109_slopes3",
    "Delynoi.C109_slopes4",
    "Delynoi.C109_slopesE",
    "Delynoi.C109_overflow"
   ],
   "note": "Overflow of the unchecked tests is shown to be possible beyond the range (C109_overflow)."
  },
  {
   "property": "C110",
   "status": "proved",
   "theorems": [
    "Delynoi.C110_area",
    "Delynoi.C110_short",
    "Delynoi.C110_binary64",
    "Delynoi.C110_rounding_flips",
    "Delynoi.C110_orientation",
    "Delynoi.C110_ring"
   ],
   "note": "Exact arithmetic and binary64 (fl); the bound for binary64 is shown to matter by C110_rounding_flips."
  },
  {
   "property": "C111",
   "status": "proved",
   "theorems": [
    "Delynoi.C111_boundary",
    "Delynoi.C111_inside",
    "Delynoi.C111_outside",
    "Delynoi.C111_iff",
    "Delynoi.C111_binary64",
    "Delynoi.C111_exact64",
    "Delynoi.C111_rounding_blurs",
    "Delynoi.C111_contains"
   ],
   "note": "Coordinates up to 2^62-1 in exact arithmetic; binary64 results for coordinates up to 2^51 and 2^25."
  },
  {
   "property": "C112",
   "status": "proved",
   "theorems": [
    "Delynoi.C112_convex",
    "Delynoi.C112_containsSeg",
    "Delynoi.C112_isContained",
    "Delynoi.C112_intersection",
    "Delynoi.C112_pair_order",
    "Delynoi.C112_pair_dot"
   ],
   "note": "Pair over an ordered field; Pair<int>::operator* (truncation) is not used in the project and not modelled."
  },
  {
   "property": "C113",
   "status": "proved",
   "theorems": [
    "Delynoi.C113_between",
    "Delynoi.C113_outcome",
    "Delynoi.C113_short",
    "Delynoi.C113_rejected",
    "Delynoi.C113_edges",
    "Delynoi.C113_clean"
   ],
   "note": "Stage 4 (local minima and bounds) is not modelled; Dx is not modelled; new[] is assumed to succeed."
  },
  {
   "property": "C114",
   "status": "proved",
   "theorems": [
    "Delynoi.C114_fixup",
    "Delynoi.C114_kept"
   ],
   "note": "The ring is any ring in range; that Clipper's sweep only builds such rings is not proved."
  },
  {
   "property": "C115",
   "status": "partial",
   "theorems": [
    "Delynoi.C115_crosses",
    "Delynoi.C115_containsPoint",
    "Delynoi.C115_contains_near",
    "Delynoi.C115_contains_sure",
    "Delynoi.C115_inside_partial",
    "Delynoi.C115_outside_partial",
    "Delynoi.C115_inside_refuted",
    "Delynoi.C115_outside_refuted"
   ],
   "note": "False without a distance between point and edges: C115_inside_refuted and C115_outside_refuted (integer coordinates below 2^28). Proved with that distance (ClearOf) for every polygon."
  },
  {
   "property": "C116",
   "status": "proved",
   "theorems": [
    "Delynoi.C116_eq_lt",
    "Delynoi.C116_orientation",
    "Delynoi.C116_contains",
    "Delynoi.C116_containsPoint"
   ],
   "note": "Covers OnGrid points; tolerance must be a binary64 number in (0,1] for containsPoint."
  },
  {
   "property": "C117",
   "status": "partial",
   "theorems": [
    "Delynoi.C117_isConvex_partial",
    "Delynoi.C117_grid",
    "Delynoi.C117_accepts_partial",
    "Delynoi.C117_rejected_refuted",
    "Delynoi.C117_accepted_refuted"
   ],
   "note": "False in general (C117_rejected_refuted, C117_accepted_refuted). Proved when every turn exceeds the rounding error, exactly on integers below 2^25, and acceptance of convex polygons whenever coordinate differences are exact."
  },
  {
   "property": "C118",
   "status": "proved",
   "theorems": [
    "Delynoi.C118_complete",
    "Delynoi.C118_sound",
    "Delynoi.C118_parallel",
    "Delynoi.C118_missed_refuted"
   ],
   "note": "Integer coordinates below 2^25 as stated; C118_missed_refuted shows that a common end point is missed with coordinates below 2^29."
  },
  {
   "property": "C119",
   "status": "proved",
   "theorems": [
    "Delynoi.C119_circumcenter",
    "Delynoi.C119_cocircular",
    "Delynoi.C119_split_refuted"
   ],
   "note": "Integer coordinates up to 2^16 as stated; C119_split_refuted shows that the two triangles of a unit cell get different circumcenters with coordinates near 10^8. std::pow(x,2) is taken to be correctly rounded."
  },
  {
   "property": "C120",
   "status": "proved",
   "theorems": [
    "Delynoi.C120_exactinit",
    "Delynoi.C120_two_sum",
    "Delynoi.C120_two_diff",
    "Delynoi.C120_fast_two_sum",
    "Delynoi.C120_fast_two_sum_order_needed",
    "Delynoi.C120_two_two_diff"
   ],
   "note": ""
  },
  {
   "property": "C121",
   "status": "partial",
   "theorems": [
    "Delynoi.C121_two_product_partial",
    "Delynoi.C121_two_product_refuted"
   ],
   "note": "Refuted for products that underflow; proved for factors that are multiples of 2^e and 2^f with e+f >= -970 (and e, f >= -1022). Overflow is not modelled."
  },
  {
   "property": "C122",
   "status": "partial",
   "theorems": [
    "Delynoi.C122_sign",
    "Delynoi.C122_returns_partial",
    "Delynoi.C122_grid",
    "Delynoi.C122_returns_refuted",
    "Delynoi.C122_underflow",
    "Delynoi.C122_noexact"
   ],
   "note": "Refuted in three ways (undefined behaviour in the last stage, underflow, -X). Proved: every value returned has the right sign for coordinates that are multiples of 2^-440, and a value is returned whenever the coordinate differences are binary64 numbers. Overflow is not modelled. On a machine with harmless over-reads the test is correct for all such points: C125."
  },
  {
   "property": "C123",
   "status": "partial",
   "theorems": [
    "Delynoi.C123_first_stage",
    "Delynoi.C123_given_adapt",
    "Delynoi.C123_sign",
    "Delynoi.C123_returns_refuted"
   ],
   "note": "Refuted: undefined behaviour in the last stage. Proved: every value returned has the right sign. Overflow is not modelled. On a machine with harmless over-reads the test decides for all such points: C153."
  },
  {
   "property": "C124",
   "status": "proved",
   "theorems": [
    "Delynoi.C124_value",
    "Delynoi.C124_over_read",
    "Delynoi.C124_no_over_read"
   ],
   "note": ""
  },
  {
   "property": "C125",
   "status": "proved",
   "theorems": [
    "Delynoi.C125_decides",
    "Delynoi.C125_antisymmetric"
   ],
   "note": "Stated for a machine on which the reads behind the arrays (C122, C124) are harmless. Overflow is not modelled."
  },
  {
   "property": "C126",
   "status": "partial",
   "theorems": [
    "Delynoi.C126_products",
    "Delynoi.C126_nonadjacent",
    "Delynoi.C126_sum",
    "Delynoi.C126_nonoverlapping",
    "Delynoi.C126_strong_refuted"
   ],
   "note": "The comment's claim is refuted; the form proved instead suffices for the sign of the result."
  },
  {
   "property": "C127",
   "status": "partial",
   "theorems": [
    "Delynoi.C127_range",
    "Delynoi.C127_zero",
    "Delynoi.C127_all_partial",
    "Delynoi.C127_all_refuted"
   ],
   "note": "That every choice can occur is refuted for 1000 choices and proved up to 845."
  },
  {
   "property": "C128",
   "status": "proved",
   "theorems": [
    "Delynoi.C128_safe",
    "Delynoi.C128_nan",
    "Delynoi.C128_sorted",
    "Delynoi.C128_empty"
   ],
   "note": "Sizes are not limited to the range of int."
  },
  {
   "property": "C129",
   "status": "proved",
   "theorems": [
    "Delynoi.C129_median",
    "Delynoi.C129_nan"
   ],
   "note": ""
  },
  {
   "property": "C130",
   "status": "proved",
   "theorems": [
    "Delynoi.C130_alternate"
   ],
   "note": ""
  },
  {
   "property": "C131",
   "status": "proved",
   "theorems": [
    "Delynoi.C131_prepare",
    "Delynoi.C131_distinct"
   ],
   "note": "For the switch settings used by Delynoi (no -l, -i, -F)."
  },
  {
   "property": "C132",
   "status": "partial",
   "theorems": [
    "Delynoi.C132_ends",
    "Delynoi.C132_ends_refuted"
   ],
   "note": "Refuted if all vertices have the same position, proved otherwise. Only the shape of the recursion is modelled, not the triangulations."
  },
  {
   "property": "C133",
   "status": "partial",
   "theorems": [
    "Delynoi.C133_flags",
    "Delynoi.C133_counts",
    "Delynoi.C133_dependent",
    "Delynoi.C133_angle",
    "Delynoi.C133_no_angle",
    "Delynoi.C133_area",
    "Delynoi.C133_no_area",
    "Delynoi.C133_steiner",
    "Delynoi.C133_no_steiner",
    "Delynoi.C133_safe_partial",
    "Delynoi.C133_safe_refuted",
    "Delynoi.C133_library"
   ],
   "note": "Freedom from undefined behaviour is refuted in general (C133_safe_refuted) and proved for strings without long numbers (C133_safe_partial); the rest is proved."
  },
  {
   "property": "C134",
   "status": "proved",
   "theorems": [
    "Delynoi.C134_write",
    "Delynoi.C134_library"
   ],
   "note": "That Triangle's mesh is consistent when it is written is a hypothesis (MeshOk); attributes and segments are not written in the model."
  },
  {
   "property": "C135",
   "status": "proved",
   "theorems": [
    "Delynoi.C135_linked",
    "Delynoi.C135_triangles",
    "Delynoi.C135_edges",
    "Delynoi.C135_segments",
    "Delynoi.C135_hull",
    "Delynoi.C135_unflip",
    "Delynoi.C135_flat",
    "Delynoi.C135_delaunay"
   ],
   "note": "The free diagonal (c and d not yet joined) is a hypothesis of the combinatorial statements, as the comment above flip demands of its callers; for flat triangulations and convex quadrilaterals it is proved."
  },
  {
   "property": "C136",
   "status": "proved",
   "theorems": [
    "Delynoi.C136_removed",
    "Delynoi.C136_linked",
    "Delynoi.C136_segments",
    "Delynoi.C136_freed",
    "Delynoi.C136_cut",
    "Delynoi.C136_marks",
    "Delynoi.C136_undead",
    "Delynoi.C136_hullsize",
    "Delynoi.C136_flat"
   ],
   "note": "Ready states what plague may assume: consistent links between triangles and with subsegments, different corners, and that the triangles around a vertex form one fan (true of any triangulation of a disk)."
  },
  {
   "property": "C137",
   "status": "partial",
   "theorems": [
    "Delynoi.C137_removed",
    "Delynoi.C137_protected",
    "Delynoi.C137_boundary",
    "Delynoi.C137_dummytri_partial",
    "Delynoi.C137_dummytri_refuted"
   ],
   "note": "Everything but the last sentence is proved; the link of dummytri may lead to a triangle given back (C137_dummytri_refuted), the partial theorem has the case that its triangle stays. The search for the triangle of a hole (locate) is a parameter assumed to end and to return a triangle of the mesh."
  },
  {
   "property": "C138",
   "status": "partial",
   "theorems": [
    "Delynoi.C138_answer",
    "Delynoi.C138_ends",
    "Delynoi.C138_inside",
    "Delynoi.C138_behind_refuted"
   ],
   "note": "Everything but the last sentence is proved; without the condition the answer may be wrong (C138_behind_refuted), as the comment in carveholes says."
  },
  {
   "property": "C139",
   "status": "partial",
   "theorems": [
    "Delynoi.C139_inside",
    "Delynoi.C139_answer_partial",
    "Delynoi.C139_holes",
    "Delynoi.C139_outside_refuted",
    "Delynoi.C139_hole_refuted"
   ],
   "note": "Proved for points that are not beyond any edge of the boundary. Otherwise locate may go on from dummytri and read its missing corners (C139_outside_refuted, C139_hole_refuted); C139_answer_partial has all other cases."
  },
  {
   "property": "C140",
   "status": "proved",
   "theorems": [
    "Delynoi.C140_insert",
    "Delynoi.C140_bothSides"
   ],
   "note": ""
  },
  {
   "property": "C141",
   "status": "partial",
   "theorems": [
    "Delynoi.C141_found",
    "Delynoi.C141_answer",
    "Delynoi.C141_concave_refuted"
   ],
   "note": "Everything but the last sentence is proved; an answer is found if the point is not beyond any edge of the boundary at the vertex (C141_found). At a concave vertex the search may turn the wrong way and give up (C141_concave_refuted)."
  },
  {
   "property": "C142",
   "status": "proved",
   "theorems": [
    "Delynoi.C142_scout",
    "Delynoi.C142_success"
   ],
   "note": "segmentintersection is a parameter."
  },
  {
   "property": "C143",
   "status": "proved",
   "theorems": [
    "Delynoi.C143_markhull",
    "Delynoi.C143_protected"
   ],
   "note": ""
  },
  {
   "property": "C144",
   "status": "proved",
   "theorems": [
    "Delynoi.C144_map",
    "Delynoi.C144_start"
   ],
   "note": ""
  },
  {
   "property": "C145",
   "status": "proved",
   "theorems": [
    "Delynoi.C145_split",
    "Delynoi.C145_segments"
   ],
   "note": "Exact arithmetic; attributes and area bounds are not modelled."
  },
  {
   "property": "C146",
   "status": "proved",
   "theorems": [
    "Delynoi.C146_inside"
   ],
   "note": "Exact arithmetic; the point location is C138/C139; queues of encroached subsegments and bad triangles are not modelled."
  },
  {
   "property": "C147",
   "status": "proved",
   "theorems": [
    "Delynoi.C147_edge",
    "Delynoi.C147_refused"
   ],
   "note": "As C146."
  },
  {
   "property": "C148",
   "status": "proved",
   "theorems": [
    "Delynoi.C148_inside",
    "Delynoi.C148_edge"
   ],
   "note": "Locally Delaunay everywhere; without subsegments."
  },
  {
   "property": "C149",
   "status": "proved",
   "theorems": [
    "Delynoi.C149_subsegment"
   ],
   "note": "As C146."
  },
  {
   "property": "C150",
   "status": "proved",
   "theorems": [
    "Delynoi.C150_cross",
    "Delynoi.C150_parallel"
   ],
   "note": "Exact arithmetic; attributes of vertices and vertex2tri are not modelled."
  },
  {
   "property": "C151",
   "status": "proved",
   "theorems": [
    "Delynoi.C151_scale",
    "Delynoi.C151_lengths"
   ],
   "note": ""
  },
  {
   "property": "C152",
   "status": "proved",
   "theorems": [
    "Delynoi.C152_estimate"
   ],
   "note": ""
  },
  {
   "property": "C153",
   "status": "proved",
   "theorems": [
    "Delynoi.C153_sign",
    "Delynoi.C153_decides",
    "Delynoi.C153_symmetric"
   ],
   "note": "Stated for a machine on which the reads behind the arrays (C123) are harmless. Overflow is not modelled."
  },
  {
   "property": "C154",
   "status": "proved",
   "theorems": [
    "Delynoi.C154_capacity",
    "Delynoi.C154_returns"
   ],
   "note": "Arrays which are only multiplied, never added, are covered by the bound in C151."
  },
  {
   "property": "C155",
   "status": "partial",
   "theorems": [
    "Delynoi.C155_isVertex",
    "Delynoi.C155_lt",
    "Delynoi.C155_lt_order",
    "Delynoi.C155_lt_eq_refuted",
    "Delynoi.C155_neighbours_eq",
    "Delynoi.C155_geometry",
    "Delynoi.C155_wild"
   ],
   "note": "Compatibility of operator< and operator== is refuted; the rest is proved."
  },
  {
   "property": "C156",
   "status": "proved",
   "theorems": [
    "Delynoi.C156_atoi",
    "Delynoi.C156_no_digit"
   ],
   "note": "atoi and atof are functions of the C library; their model is part of the trusted base."
  },
  {
   "property": "C157",
   "status": "partial",
   "theorems": [
    "Delynoi.C157_angleLt",
    "Delynoi.C157_order",
    "Delynoi.C157_weak_order_refuted"
   ],
   "note": "The strict weak order is refuted; the rest is proved."
  },
  {
   "property": "C158",
   "status": "proved",
   "theorems": [
    "Delynoi.C158_fixup",
    "Delynoi.C158_all",
    "Delynoi.C158_settled"
   ],
   "note": "The mesh has to be flat; constrainededge also calls it on meshes with folds."
  },
  {
   "property": "C159",
   "status": "partial",
   "theorems": [
    "Delynoi.C159_single_partial"
   ],
   "note": "Missing: segments that cross several edges, where the mesh has folds in between."
  },
  {
   "property": "C160",
   "status": "partial",
   "theorems": [
    "Delynoi.C160_edge",
    "Delynoi.C160_cross_partial",
    "Delynoi.C160_uninitialised_refuted"
   ],
   "note": "Missing: segments that cross several edges. The absence of undefined behaviour is refuted for endpoints that are corners of no triangle."
  },
  {
   "property": "C161",
   "status": "proved",
   "theorems": [
    "Delynoi.C161_inside",
    "Delynoi.C161_edge",
    "Delynoi.C161_subsegment"
   ],
   "note": "Exact arithmetic; the place of the vertex is given, as in C146, C147 and C149."
  },
  {
   "property": "C162",
   "status": "proved",
   "theorems": [
    "Delynoi.C162_check",
    "Delynoi.C162_boundary",
    "Delynoi.C162_obtuse"
   ],
   "note": "Exact arithmetic; subsegments at the boundary have no triangle on the other side (Bare), which insertions keep."
  },
  {
   "property": "C163",
   "status": "proved",
   "theorems": [
    "Delynoi.C163_ratio",
    "Delynoi.C163_ends",
    "Delynoi.C163_point",
    "Delynoi.C163_acute"
   ],
   "note": "The square root is any function that is positive on positive numbers. The comment in the code says 'exactly one endpoint', the code tests for at least one (DESIGN section 5)."
  },
  {
   "property": "C164",
   "status": "proved",
   "theorems": [
    "Delynoi.C164_enforce",
    "Delynoi.C164_delaunay"
   ],
   "note": "Exact arithmetic. That the loop ends is not part of the claim: for input angles below 60 degrees this depends on the concentric circles."
  },
  {
   "property": "C165",
   "status": "proved",
   "theorems": [
    "Delynoi.C165_insert",
    "Delynoi.C165_carved",
    "Delynoi.C165_phases"
   ],
   "note": "Exact arithmetic. The search for the triangle of a hole is a parameter that ends in a triangle of the mesh (C138, C139). That the loop of enforcequality ends is not part of the claim."
  },
  {
   "property": "C166",
   "status": "proved",
   "theorems": [
    "Delynoi.C166_two",
    "Delynoi.C166_line",
    "Delynoi.C166_triangle"
   ],
   "note": "Exact arithmetic. The vertices are different; that they are sorted is not needed."
  },
  {
   "property": "C167",
   "status": "partial",
   "theorems": [
    "Delynoi.C167_remove",
    "Delynoi.C167_marks_partial",
    "Delynoi.C167_line",
    "Delynoi.C167_three",
    "Delynoi.C167_line_marks_refuted"
   ],
   "note": "Refuted for the marks: if all vertices are on a line, one of them does not get a mark. The rest is proved. That the triangulation with bounding triangles is as described (Ghosted) is proved for two and three vertices (C166); for the merge step C168 has the links, but not that the bounding triangles are in one ring."
  },
  {
   "property": "C168",
   "status": "partial",
   "theorems": [
    "Delynoi.C168_closed",
    "Delynoi.C168_tangent",
    "Delynoi.C168_merge_partial",
    "Delynoi.C168_shift"
   ],
   "note": "Exact arithmetic. Not proved: that the loops end, that the result is Delaunay and convex, and that farleft and farright are still on the boundary (these need that the triangulations are Delaunay and separated by a line)."
  },
  {
   "property": "C169",
   "status": "proved",
   "theorems": [
    "Delynoi.C169_start",
    "Delynoi.C169_round",
    "Delynoi.C169_loop"
   ],
   "note": "Exact arithmetic. The circle is tested against the neighbour and the other candidate; that it is empty of all vertices would need that the triangulations are Delaunay and separated by a line, and is not claimed. Rounds in which the removal of edges does not end are not excluded."
  },
  {
   "property": "C170",
   "status": "proved",
   "theorems": [
    "Delynoi.C170_fresh",
    "Delynoi.C170_places",
    "Delynoi.C170_traverse",
    "Delynoi.C170_getvertex"
   ],
   "note": "Items are places in blocks; alignment, sizes in bytes and failing allocation are left out."
  },
  {
   "property": "C171",
   "status": "proved",
   "theorems": [
    "Delynoi.C171_transfer",
    "Delynoi.C171_few"
   ],
   "note": "xminextreme (used by another algorithm) is left out."
  },
  {
   "property": "C172",
   "status": "proved",
   "theorems": [
    "Delynoi.C172_skeleton",
    "Delynoi.C172_flat",
    "Delynoi.C172_delynoi",
    "Delynoi.C172_ignored"
   ],
   "note": "insertsegment, makevertexmap and markhull are parameters here."
  },
  {
   "property": "C173",
   "status": "proved",
   "theorems": [
    "Delynoi.C173_strict",
    "Delynoi.C173_equivalent",
    "Delynoi.C173_perm",
    "Delynoi.C173_total_refuted"
   ],
   "note": "C173_total_refuted: polygons with equal hashes are not comparable."
  },
  {
   "property": "C174",
   "status": "proved",
   "theorems": [
    "Delynoi.C174_area"
   ],
   "note": "Exact arithmetic."
  },
  {
   "property": "C175",
   "status": "proved",
   "theorems": [
    "Delynoi.C175_appends",
    "Delynoi.C175_collinear",
    "Delynoi.C175_shared_refuted"
   ],
   "note": "Exact arithmetic; a center with NaN or infinite coordinates is none. C175_shared_refuted: equal centers are stored twice. Delynoi itself calls the constructor with a UniqueList (TriangleDelaunayGenerator.cpp:106), not this one."
  }
 ]
}
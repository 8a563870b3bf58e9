{
 "claims": [
  {
   "property": "C01",
   "status": "proved",
   "theorems": [
    "Coral.C01_bbox_of_points",
    "Coral.C01_bbox_of_no_points",
    "Coral.C01_bbox_order_independent"
   ],
   "note": ""
  },
  {
   "property": "C02",
   "status": "partial",
   "theorems": [
    "Coral.C02_union_partial",
    "Coral.C02_union_exact_partial",
    "Coral.C02_union_laws_partial",
    "Coral.C02_union_violated"
   ],
   "note": "The code skips zero-area boxes, so the full claim is refuted by C02_union_violated; proved for boxes of positive area, and C02_union_exact_partial says for which pairs of boxes exactly it holds."
  },
  {
   "property": "C03",
   "status": "proved",
   "theorems": [
    "Coral.C03_intersection",
    "Coral.C03_in_is_half_open",
    "Coral.C03_disjoint_empty"
   ],
   "note": ""
  },
  {
   "property": "C04",
   "status": "proved",
   "theorems": [
    "Coral.C04_collide_comm",
    "Coral.C04_collide_iff_common_point",
    "Coral.C04_collide_iff_intersection"
   ],
   "note": ""
  },
  {
   "property": "C05",
   "status": "proved",
   "theorems": [
    "Coral.C05_box_in_box_iff",
    "Coral.C05_box_in_box_points",
    "Coral.C05_box_not_in_itself",
    "Coral.C05_box_in_box_trans",
    "Coral.C05_other_item"
   ],
   "note": ""
  },
  {
   "property": "C06",
   "status": "proved",
   "theorems": [
    "Coral.C06_add_sub",
    "Coral.C06_translate",
    "Coral.C06_scale",
    "Coral.C06_scale_compose",
    "Coral.C06_mul_div"
   ],
   "note": ""
  },
  {
   "property": "C07",
   "status": "partial",
   "theorems": [
    "Coral.C07_order_partial",
    "Coral.C07_exact_partial",
    "Coral.C07_order_violated"
   ],
   "note": "Strictness/transitivity of < and > by area proved; the equal-area behaviour of <= and >= contradicts the claim (C07_order_violated); C07_exact_partial says exactly when > and >= mirror < and <=."
  },
  {
   "property": "C08",
   "status": "partial",
   "theorems": [
    "Coral.C08_equality_violated",
    "Coral.C08_equality_partial"
   ],
   "note": "Equality goes through hash(); collisions refute the claim (C08_equality_violated), the partial theorem covers collision-free hashes."
  },
  {
   "property": "C09",
   "status": "proved",
   "theorems": [
    "Coral.C09_buffer_is_bounded_queue",
    "Coral.C09_buffer_error_keeps_state",
    "Coral.C09_buffer_capacity"
   ],
   "note": ""
  },
  {
   "property": "C10",
   "status": "proved",
   "theorems": [
    "Coral.C10_nearest_closest",
    "Coral.C10_nearest_ties_away",
    "Coral.C10_nearest_laws"
   ],
   "note": ""
  },
  {
   "property": "C11",
   "status": "proved",
   "theorems": [
    "Coral.C11_open_simplify_subsequence",
    "Coral.C11_open_simplify_short"
   ],
   "note": ""
  },
  {
   "property": "C12",
   "status": "partial",
   "theorems": [
    "Coral.C12_open_simplify_turns_partial",
    "Coral.C12_open_simplify_violated"
   ],
   "note": "False for paths with slits, i.e. the same corner twice in a row (C12_open_simplify_violated); proved for every other path and buffer capacity."
  },
  {
   "property": "C13",
   "status": "partial",
   "theorems": [
    "Coral.C13_closed_simplify_points_partial",
    "Coral.C13_closed_simplify_order_partial",
    "Coral.C13_closed_simplify_violated"
   ],
   "note": "The order is wrong for rings with more turns than the buffer holds (C13_closed_simplify_violated: ten turns, buffer of 8); which points are visited is proved for all rings, the order for rings of at most k turns without slits."
  },
  {
   "property": "C14",
   "status": "proved",
   "theorems": [
    "Coral.C14_collinear_iff_line",
    "Coral.C14_collinear_invariant"
   ],
   "note": ""
  },
  {
   "property": "C15",
   "status": "proved",
   "theorems": [
    "Coral.Sph.C15_terminates",
    "Coral.Sph.C15_value",
    "Coral.Sph.C15_unchanged"
   ],
   "note": "Over the reals; corangle is the pair of loops as a relation, proved total and single-valued."
  },
  {
   "property": "C16",
   "status": "proved",
   "theorems": [
    "Coral.Sph.C16_arc",
    "Coral.Sph.C16_symm",
    "Coral.Sph.C16_range",
    "Coral.Sph.C16_zero",
    "Coral.Sph.C16_triangle"
   ],
   "note": "Over the reals, against the angle between unit vectors in Euclidean space."
  },
  {
   "property": "C17",
   "status": "proved",
   "theorems": [
    "Coral.Sph.C17_inverse",
    "Coral.Sph.C17_exact"
   ],
   "note": "Over the reals, non-polar points, any R > 0."
  },
  {
   "property": "C18",
   "status": "proved",
   "theorems": [
    "Coral.Sph.C18_half",
    "Coral.Sph.C18_symm"
   ],
   "note": "Over the reals."
  },
  {
   "property": "C19",
   "status": "proved",
   "theorems": [
    "Coral.C19_cardinal_nearest_wind",
    "Coral.C19_hours",
    "Coral.C19_periodic"
   ],
   "note": ""
  },
  {
   "property": "C20",
   "status": "proved",
   "theorems": [
    "Coral.Proj.C20_back",
    "Coral.Proj.C20_forth",
    "Coral.Proj.C20_south"
   ],
   "note": "Over the reals; round trip in both directions."
  },
  {
   "property": "C21",
   "status": "proved",
   "theorems": [
    "Coral.Proj.C21_sphere",
    "Coral.Proj.C21_ellipsoid"
   ],
   "note": "Also proved for the ellipsoidal Mercator with its two radii of curvature."
  },
  {
   "property": "C22",
   "status": "proved",
   "theorems": [
    "Coral.Proj.C22_back",
    "Coral.Proj.C22_accepts"
   ],
   "note": "For latitudes strictly between the poles, where tan is defined; C22_accepts characterises the refused positions."
  },
  {
   "property": "C23",
   "status": "proved",
   "theorems": [
    "Coral.Proj.C23_back",
    "Coral.Proj.C23_default"
   ],
   "note": "Both signs of n. C23_default records that the default parallels always raise ZeroDivisionError."
  },
  {
   "property": "C24",
   "status": "partial",
   "theorems": [
    "Coral.Proj.C24_distance_partial",
    "Coral.Proj.C24_violated"
   ],
   "note": "Refuted for other coordinates of the centre's place (ZeroDivisionError, C24_violated); proved otherwise."
  },
  {
   "property": "C25",
   "status": "partial",
   "theorems": [
    "Coral.Proj.C25_near_partial",
    "Coral.Proj.C25_violated_far",
    "Coral.Proj.C25_violated_border",
    "Coral.Proj.C25_violated_centre"
   ],
   "note": "Refuted: atan instead of atan2 loses half the sphere, the border and the centre divide by zero; proved for the near half."
  },
  {
   "property": "C26",
   "status": "proved",
   "theorems": [
    "Coral.Proj.C26_exact"
   ],
   "note": "Over the reals; there the loop ends only on the equator or for e = 0 (C165_exact). For loops that end because of rounding see C165, for the convergence C108."
  },
  {
   "property": "C27",
   "status": "proved",
   "theorems": [
    "Coral.Proj.C27_exact",
    "Coral.Proj.C27_image"
   ],
   "note": "The exact image is specified by the equation of the literature, proved to have exactly one solution."
  },
  {
   "property": "C28",
   "status": "partial",
   "theorems": [
    "Coral.Proj.C28_near_partial",
    "Coral.Proj.C28_violated_far",
    "Coral.Proj.C28_violated_border"
   ],
   "note": "Refuted on the far half (C28_violated_far) and its border; proved for the near half."
  },
  {
   "property": "C29",
   "status": "partial",
   "theorems": [
    "Coral.Frame.C29_cache_partial",
    "Coral.Frame.C29_duplicates",
    "Coral.Frame.C29_violated"
   ],
   "note": "Proved for PF files without repeated names; C29_violated: the second of two entities of the same name is judged by the first one's polygons."
  },
  {
   "property": "C30",
   "status": "partial",
   "theorems": [
    "Coral.Frame.C30_sphere_partial",
    "Coral.Frame.C30_sphere_new_partial",
    "Coral.Frame.C30_violated_ellipsoid",
    "Coral.Frame.C30_violated_conic"
   ],
   "note": "Proved for all seven classes on the sphere, over the reals and with json taken as faithful. C30_violated_*: load() of an ellipsoid frame raises NameError, save() of a conic frame raises AttributeError."
  },
  {
   "property": "C31",
   "status": "proved",
   "theorems": [
    "Coral.Frame.C31_cell",
    "Coral.Frame.C31_raises"
   ],
   "note": ""
  },
  {
   "property": "C32",
   "status": "proved",
   "theorems": [
    "Coral.C32_fvar_error_bound",
    "Coral.C32_fvar_monotone",
    "Coral.C32_fvar_stable"
   ],
   "note": ""
  },
  {
   "property": "C33",
   "status": "partial",
   "theorems": [
    "Coral.C33_fvar_domain_partial",
    "Coral.C33_fvar_domain_violated",
    "Coral.C33_fvar_domain_exact"
   ],
   "note": "In a non-nullable column exactly the numbers within half a quantum of maxv raise struct.error (C33_fvar_domain_exact); in a nullable column None does (C33_fvar_domain_violated)."
  },
  {
   "property": "C34",
   "status": "proved",
   "theorems": [
    "Coral.C34_ivar_index_value",
    "Coral.C34_ivar_size_minimal"
   ],
   "note": ""
  },
  {
   "property": "C35",
   "status": "partial",
   "theorems": [
    "Coral.C35_ivar_codec_violated",
    "Coral.C35_ivar_codec_partial"
   ],
   "note": "encode and decode always raise AttributeError because fmt is never assigned. With fmt supplied every integer in range round-trips and None raises struct.error."
  },
  {
   "property": "C36",
   "status": "proved",
   "theorems": [
    "Coral.C36_svar_roundtrip",
    "Coral.C36_svar_none",
    "Coral.C36_svar_too_long"
   ],
   "note": ""
  },
  {
   "property": "C37",
   "status": "proved",
   "theorems": [
    "Coral.C37_row_roundtrip",
    "Coral.C37_row_encodes",
    "Coral.C37_row_missing"
   ],
   "note": ""
  },
  {
   "property": "C38",
   "status": "proved",
   "theorems": [
    "Coral.C38_vlv_roundtrip",
    "Coral.C38_vlv_top_bits",
    "Coral.C38_vlv_prefix_free",
    "Coral.C38_vlv_minimal",
    "Coral.C38_vlv_truncated"
   ],
   "note": ""
  },
  {
   "property": "C39",
   "status": "proved",
   "theorems": [
    "Coral.C39_svlv_roundtrip",
    "Coral.C39_svlv_prefix_free"
   ],
   "note": ""
  },
  {
   "property": "C40",
   "status": "proved",
   "theorems": [
    "Coral.C40_index_roundtrip",
    "Coral.C40_boxes"
   ],
   "note": ""
  },
  {
   "property": "C41",
   "status": "proved",
   "theorems": [
    "Coral.C41_read_back",
    "Coral.C41_write_succeeds"
   ],
   "note": ""
  },
  {
   "property": "C42",
   "status": "proved",
   "theorems": [
    "Coral.C42_get_first"
   ],
   "note": ""
  },
  {
   "property": "C43",
   "status": "partial",
   "theorems": [
    "Coral.C43_write_terminates_violated",
    "Coral.C43_write_terminates_partial",
    "Coral.C43_wrapping_partial"
   ],
   "note": "Refuted: a latitude above 90 loops forever; the partial theorems show this is the only cause."
  },
  {
   "property": "C44",
   "status": "partial",
   "theorems": [
    "Coral.C44_truncated_open_violated",
    "Coral.C44_truncated_open_partial"
   ],
   "note": "Refuted: a cut inside a name hangs; the partial theorem characterises every proper prefix."
  },
  {
   "property": "C45",
   "status": "proved",
   "theorems": [
    "Coral.C45_bw_history",
    "Coral.C45_bw_write"
   ],
   "note": ""
  },
  {
   "property": "C46",
   "status": "proved",
   "theorems": [
    "Coral.C46_gray_history",
    "Coral.C46_gray_opaque",
    "Coral.C46_colour_history",
    "Coral.C46_colour_opaque"
   ],
   "note": ""
  },
  {
   "property": "C47",
   "status": "proved",
   "theorems": [
    "Coral.C47_blend_between",
    "Coral.C47_blend_ends",
    "Coral.C47_blend_monotone"
   ],
   "note": ""
  },
  {
   "property": "C48",
   "status": "proved",
   "theorems": [
    "Coral.C48_line"
   ],
   "note": ""
  },
  {
   "property": "C49",
   "status": "proved",
   "theorems": [
    "Coral.C49_stroke_bw",
    "Coral.C49_stroke_gray",
    "Coral.C49_stroke_colour",
    "Coral.C49_reachable"
   ],
   "note": ""
  },
  {
   "property": "C50",
   "status": "partial",
   "theorems": [
    "Coral.C50_fill_convex_partial",
    "Coral.C50_fill_all_convex_partial",
    "Coral.C50_fill_violated",
    "Coral.C50_fill_partial",
    "Coral.C50_fill_rectangle_partial"
   ],
   "note": "False as stated: orientation matters, a polygon reaching the right border is not filled, and polygons sharing a vertical side interfere (C50_fill_violated). Proved for rows whose marks alternate starting upwards and end before the border, in particular for every convex polygon on the canvas with distinct vertices that are not all on one line, given clockwise (C50_fill_all_convex_partial), and every rectangle."
  },
  {
   "property": "C51",
   "status": "partial",
   "theorems": [
    "Coral.C51_background_violated",
    "Coral.C51_background_bw_partial",
    "Coral.C51_background_gray",
    "Coral.C51_background_colour"
   ],
   "note": "False for BWCanvas with bgcolor=1 (C51_background_violated); proved for backgrounds 0 and 255, and for gray and colour canvases."
  },
  {
   "property": "C52",
   "status": "proved",
   "theorems": [
    "Coral.C52_save_bw",
    "Coral.C52_save_gray",
    "Coral.C52_save_colour"
   ],
   "note": ""
  },
  {
   "property": "C53",
   "status": "proved",
   "theorems": [
    "Coral.C53_get_prescribed",
    "Coral.C53_lerp_between",
    "Coral.C53_get_unique"
   ],
   "note": ""
  },
  {
   "property": "C54",
   "status": "proved",
   "theorems": [
    "Coral.C54_get_hex"
   ],
   "note": ""
  },
  {
   "property": "C55",
   "status": "proved",
   "theorems": [
    "Coral.C55_damlev"
   ],
   "note": ""
  },
  {
   "property": "C56",
   "status": "proved",
   "theorems": [
    "Coral.C56_damlev"
   ],
   "note": ""
  },
  {
   "property": "C57",
   "status": "partial",
   "theorems": [
    "Coral.C57_triangle_violated",
    "Coral.C57_triangle_partial",
    "Coral.C57_chain_partial"
   ],
   "note": "False: ca -> ac -> abc (C57_triangle_violated). Proved: it holds with the factor 3/2, which that triple reaches, and damlev is at most 3/2 of the true Damerau-Levenshtein distance (edits one after the other)."
  },
  {
   "property": "C58",
   "status": "partial",
   "theorems": [
    "Coral.C58_jaro_violated",
    "Coral.C58_stars_violated",
    "Coral.C58_jaro_partial"
   ],
   "note": "jaro can exceed 1, e.g. jaro('aaaa','a') = 7/6 (C58_jaro_violated), by any amount (C58_stars_violated: the proved upper bound is reached); the partial theorem gives what holds."
  },
  {
   "property": "C59",
   "status": "proved",
   "theorems": [
    "Coral.C59_mapping"
   ],
   "note": ""
  },
  {
   "property": "C60",
   "status": "proved",
   "theorems": [
    "Coral.C60_ascii"
   ],
   "note": ""
  },
  {
   "property": "C61",
   "status": "partial",
   "theorems": [
    "Coral.C61_abbreviations_violated",
    "Coral.C61_abbreviations_partial",
    "Coral.C61_distinct_partial",
    "Coral.C61_violated_short",
    "Coral.C61_gives_up_partial",
    "Coral.C61_initials_partial"
   ],
   "note": "abbreviations uses a global name extras that is defined nowhere: every call with at least one name raises NameError (C61_abbreviations_violated). With such a list supplied as a parameter: an abbreviation has at most n letters, a longer name gets n of its letters in order, different from all earlier ones; names no longer than n are not compared, so two of them can get the same abbreviation (C61_violated_short)."
  },
  {
   "property": "C62",
   "status": "proved",
   "theorems": [
    "Coral.Stats.C62_extremes",
    "Coral.Stats.C62_transparent",
    "Coral.Stats.C62_info"
   ],
   "note": " C62_extremes pins what max and min give."
  },
  {
   "property": "C63",
   "status": "proved",
   "theorems": [
    "Coral.Stats.C63_var",
    "Coral.Stats.C63_covar"
   ],
   "note": ""
  },
  {
   "property": "C64",
   "status": "proved",
   "theorems": [
    "Coral.Stats.C64_corr"
   ],
   "note": ""
  },
  {
   "property": "C65",
   "status": "proved",
   "theorems": [
    "Coral.Stats.C65_gini",
    "Coral.Stats.C65_gini_short"
   ],
   "note": ""
  },
  {
   "property": "C66",
   "status": "proved",
   "theorems": [
    "Coral.Stats.C66_gini"
   ],
   "note": ""
  },
  {
   "property": "C67",
   "status": "partial",
   "theorems": [
    "Coral.Stats.C67_clear_violated",
    "Coral.Stats.C67_clear_partial"
   ],
   "note": "clear_cache forgets the caches of max and min (C67_clear_violated); proved for the others."
  },
  {
   "property": "C68",
   "status": "proved",
   "theorems": [
    "Coral.Table.C68_roundtrip",
    "Coral.Table.C68_empty_file"
   ],
   "note": ""
  },
  {
   "property": "C69",
   "status": "partial",
   "theorems": [
    "Coral.Table.C69_columns_violated",
    "Coral.Table.C69_columns_partial"
   ],
   "note": "Refuted when keys are given in another order than in the file (C69_columns_violated); proved for keys in file order."
  },
  {
   "property": "C70",
   "status": "proved",
   "theorems": [
    "Coral.Table.C70_join"
   ],
   "note": ""
  },
  {
   "property": "C71",
   "status": "proved",
   "theorems": [
    "Coral.Table.C71_get",
    "Coral.Table.C71_indexby"
   ],
   "note": ""
  },
  {
   "property": "C72",
   "status": "proved",
   "theorems": [
    "Coral.Table.C72_addkey",
    "Coral.Table.C72_delkeys",
    "Coral.Table.C72_undo"
   ],
   "note": ""
  },
  {
   "property": "C73",
   "status": "partial",
   "theorems": [
    "Coral.Vector.C73_inks_partial",
    "Coral.Vector.C73_violated_kinds",
    "Coral.Vector.C73_violated_same"
   ],
   "note": "Proved when every ink is of one kind (gray or rgb) and no shape has fill = stroke. Otherwise false: the state caches gray and colour separately, so switching kinds can leave the wrong ink (C73_violated_kinds); with fill = stroke the restored state differs from the cached one (C73_violated_same)."
  },
  {
   "property": "C74",
   "status": "partial",
   "theorems": [
    "Coral.Vector.C74_strokes_partial",
    "Coral.Vector.C74_pen",
    "Coral.Vector.C74_violated"
   ],
   "note": "Proved for histories in which the caller does not change a dash list after passing it. Otherwise false: the pattern is stored by reference, so a changed list passed again is taken as already set (C74_violated)."
  },
  {
   "property": "C75",
   "status": "partial",
   "theorems": [
    "Coral.Vector.C75_box_partial",
    "Coral.Vector.C75_violated"
   ],
   "note": "Proved for shapes of nonzero extent in both directions, with no text (which does not extend the box). Otherwise false: a box of zero area is dropped by BBox union, e.g. a horizontal line (C75_violated)."
  },
  {
   "property": "C76",
   "status": "proved",
   "theorems": [
    "Coral.Vector.C76_polygon",
    "Coral.Vector.C76_polyline",
    "Coral.Vector.C76_empty"
   ],
   "note": ""
  },
  {
   "property": "C77",
   "status": "proved",
   "theorems": [
    "Coral.Vector.C77_fit"
   ],
   "note": ""
  },
  {
   "property": "C78",
   "status": "proved",
   "theorems": [
    "Coral.Vector.C78_definitions"
   ],
   "note": ""
  },
  {
   "property": "C79",
   "status": "proved",
   "theorems": [
    "Coral.Vector.C79_image"
   ],
   "note": ""
  },
  {
   "property": "C80",
   "status": "proved",
   "theorems": [
    "Coral.Vector.C80_values"
   ],
   "note": ""
  },
  {
   "property": "C81",
   "status": "partial",
   "theorems": [
    "Coral.Tqdm.C81_items_partial",
    "Coral.Tqdm.C81_trange",
    "Coral.Tqdm.C81_violated_all",
    "Coral.Tqdm.C81_violated"
   ],
   "note": "Proved when total is given or the iterable has a length. Otherwise false: format_meter compares n > None, so the first next() raises TypeError (C81_violated_all)."
  },
  {
   "property": "C82",
   "status": "proved",
   "theorems": [
    "Coral.Tqdm.C82_status",
    "Coral.Tqdm.C82_tqdm"
   ],
   "note": ""
  },
  {
   "property": "C83",
   "status": "proved",
   "theorems": [
    "Coral.Tqdm.C83_interval",
    "Coral.Tqdm.C83_meter"
   ],
   "note": ""
  },
  {
   "property": "C84",
   "status": "proved",
   "theorems": [
    "Coral.Shapefile.C84_saved_shapes_read_back",
    "Coral.Shapefile.C84_saving_works",
    "Coral.Shapefile.C84_points_fit",
    "Coral.Shapefile.C84_polys_fit"
   ],
   "note": "For files of the types 1, 3, 5, 8, 11, 21, 23, 25; shapes created by point(), line() and poly() meet the conditions (C84_points_fit, C84_polys_fit) and saving works (C84_saving_works)."
  },
  {
   "property": "C85",
   "status": "proved",
   "theorems": [
    "Coral.Shapefile.C85_random_access"
   ],
   "note": ""
  },
  {
   "property": "C86",
   "status": "partial",
   "theorems": [
    "Coral.Shapefile.C86_index_after_saves_partial",
    "Coral.Shapefile.C86_violated_all"
   ],
   "note": "Proved for saves repeated without additions. Otherwise false: _offsets is never cleared, so the entry for the first added shape leads to the first record (C86_violated_all)."
  },
  {
   "property": "C87",
   "status": "partial",
   "theorems": [
    "Coral.Shapefile.C87_violated_elevations",
    "Coral.Shapefile.C87_multipatch_partial",
    "Coral.Shapefile.C87_length_matches_partial",
    "Coral.Shapefile.C87_violated"
   ],
   "note": "Proved for all types but 13, 15, 18, 28, and for 31 when z and partTypes are complete. For 13, 15, 18 and 28 the header is too short in every file with a shape (C87_violated, C87_violated_elevations)."
  },
  {
   "property": "C88",
   "status": "partial",
   "theorems": [
    "Coral.Dbf.C88_records_back_partial",
    "Coral.Dbf.C88_saving_works",
    "Coral.Dbf.C88_violated_empty",
    "Coral.Dbf.C88_violated_blank",
    "Coral.Dbf.C88_violated_unicode"
   ],
   "note": "Proved for non-blank ASCII text and integers in files with at least one record; saving works under FieldOk (C88_saving_works). False for blank text (bytes come back), text that is not ASCII (the size is counted in characters) and files without records (records() raises)."
  },
  {
   "property": "C89",
   "status": "partial",
   "theorems": [
    "Coral.Dbf.C89_pairs_partial",
    "Coral.Dbf.C89_violated"
   ],
   "note": "Proved when no record is deleted. False otherwise: records() leaves deleted records out while shapes() keeps all shapes (C89_violated)."
  },
  {
   "property": "C90",
   "status": "partial",
   "theorems": [
    "Coral.Dbf.C90_negative_record_partial",
    "Coral.Dbf.C90_violated_first_record",
    "Coral.Shapefile.C90_indices_partial",
    "Coral.Shapefile.C90_negative_shape_partial",
    "Coral.Shapefile.C90_violated_first",
    "Coral.Shapefile.C90_violated_empty"
   ],
   "note": "Proved for at least one record, except the index -n. False at -n (C90_violated_first) and without records (C90_violated_empty)."
  },
  {
   "property": "C91",
   "status": "proved",
   "theorems": [
    "Coral.Shapefile.C91_poly",
    "Coral.Shapefile.C91_poly_works",
    "Coral.Shapefile.C91_line"
   ],
   "note": ""
  },
  {
   "property": "C92",
   "status": "partial",
   "theorems": [
    "Coral.Geo.C92_lines",
    "Coral.Geo.C92_polygons_partial",
    "Coral.Geo.C92_polygons_work",
    "Coral.Geo.C92_violated_writer"
   ],
   "note": "Lines: proved. Polygons: proved for shapes with two coordinates per point, as read from files. A polygon with several parts made by Writer.poly has four coordinates per point and its interface raises ValueError (C92_violated_writer)."
  },
  {
   "property": "C93",
   "status": "proved",
   "theorems": [
    "Coral.Geo.C93_shoelace",
    "Coral.Geo.C93_reversed",
    "Coral.Geo.C93_translated",
    "Coral.Geo.C93_rotated"
   ],
   "note": ""
  },
  {
   "property": "C94",
   "status": "partial",
   "theorems": [
    "Coral.Shapefile.C94_delete_partial",
    "Coral.Shapefile.C94_violated"
   ],
   "note": "Proved for every index but 0; delete(0) does nothing (C94_violated)."
  },
  {
   "property": "C95",
   "status": "partial",
   "theorems": [
    "Coral.Shapefile.C95_violated",
    "Coral.Shapefile.C95_violated_no_fields",
    "Coral.Shapefile.C95_balanced_partial"
   ],
   "note": "False: record() without arguments adds no record, so the shapes run ahead (C95_violated); without fields IndexError (C95_violated_no_fields). Holds when there were one or two more records than shapes."
  },
  {
   "property": "C96",
   "status": "partial",
   "theorems": [
    "Coral.Shapefile.C96_measures_partial",
    "Coral.Shapefile.C96_violated"
   ],
   "note": "Proved when the file has measures below and above zero. Otherwise false: the header's range then contains 0.0, which the reader takes for no measures at all (C96_violated)."
  },
  {
   "property": "C97",
   "status": "partial",
   "theorems": [
    "Coral.Rg.C97_none",
    "Coral.Rg.C97_violated",
    "Coral.Rg.C97_violated_written",
    "Coral.Rg.C97_read_back_partial",
    "Coral.Rg.C97_new_works",
    "Coral.Rg.C97_write_works",
    "Coral.Rg.C97_close_works",
    "Coral.Rg.C97_violated_no_segments"
   ],
   "note": "False: rg.py uses collections without importing it, so no data set can be opened (C97_violated, C97_violated_written). With the import (parameter imported = true) it holds for ids without blanks and entities with segments; entities without segments make the index unreadable (C97_violated_no_segments). C97_none says what a missing value does in a column of each kind."
  },
  {
   "property": "C98",
   "status": "proved",
   "theorems": [
    "Coral.Rg.C98_return",
    "Coral.Rg.C98_count",
    "Coral.Rg.C98_index_back",
    "Coral.Rg.C98_no_segments",
    "Coral.Rg.C98_space"
   ],
   "note": " C98_return: an id with a carriage return makes the index unreadable. C98_count: so does a count that is not a number."
  },
  {
   "property": "C99",
   "status": "partial",
   "theorems": [
    "Coral.Rg.C99_reads_partial"
   ],
   "note": "Proved for a reader with the missing import supplied, for all histories of calls; without it no reader exists (C97_violated)."
  },
  {
   "property": "C100",
   "status": "partial",
   "theorems": [
    "Coral.Dbf.C100_fields_back_partial",
    "Coral.Dbf.C100_violated_long",
    "Coral.Dbf.C100_violated_deletion",
    "Coral.Dbf.C100_violated_space"
   ],
   "note": "Proved for names of at most 10 ASCII characters without spaces and NUL that do not start with white space or \"Deletion\". Longer names lose everything after the tenth character (C100_violated_long), spaces become underscores (C100_violated_space). A field whose name begins with Deletion is dropped when saving, and the values of the later fields move into the wrong ones (C100_violated_deletion)."
  },
  {
   "property": "C101",
   "status": "partial",
   "theorems": [
    "Coral.Rg.C101_failed_write_partial",
    "Coral.Rg.C101_violated"
   ],
   "note": "Holds when the first row fails; otherwise the rows before the failure stay in the file and later entities are read from the wrong place (C101_violated and example)."
  },
  {
   "property": "C102",
   "status": "proved",
   "theorems": [
    "Coral.Proj.C102_terminates",
    "Coral.Proj.C102_accurate"
   ],
   "note": "Newton iteration on a concave function, exact arithmetic."
  },
  {
   "property": "C103",
   "status": "proved",
   "theorems": [
    "Coral.Proj.C103_scale",
    "Coral.Proj.C103_standard"
   ],
   "note": ""
  },
  {
   "property": "C104",
   "status": "proved",
   "theorems": [
    "Coral.Frame.C104_open",
    "Coral.Frame.C104_closed",
    "Coral.Frame.C104_raises"
   ],
   "note": ""
  },
  {
   "property": "C105",
   "status": "proved",
   "theorems": [
    "Coral.Proj.C105_transverse",
    "Coral.Proj.C105_oblique"
   ],
   "note": ""
  },
  {
   "property": "C106",
   "status": "proved",
   "theorems": [
    "Coral.Proj.C106_conformal"
   ],
   "note": ""
  },
  {
   "property": "C107",
   "status": "proved",
   "theorems": [
    "Coral.Proj.C107_azimuthal",
    "Coral.Proj.C107_eckert"
   ],
   "note": ""
  },
  {
   "property": "C108",
   "status": "proved",
   "theorems": [
    "Coral.Proj.C108_converges",
    "Coral.Proj.C108_back"
   ],
   "note": "In exact arithmetic the loop compares two reals; the floating-point loop ends when two rounds agree to the last bit, which is not modelled. C108_converges bounds the error of every round."
  },
  {
   "property": "C109",
   "status": "partial",
   "theorems": [
    "Coral.C109_weights_partial",
    "Coral.C109_share_partial",
    "Coral.C109_alpha_partial",
    "Coral.C109_violated"
   ],
   "note": "Exact list of assignments for every slope; the weight of the right end column is the uncovered share (violated, with witness)."
  },
  {
   "property": "C110",
   "status": "proved",
   "theorems": [
    "Coral.C110_symmetric",
    "Coral.C110_raises",
    "Coral.C110_error"
   ],
   "note": "Any points, exact arithmetic."
  },
  {
   "property": "C111",
   "status": "partial",
   "theorems": [
    "Coral.C111_gray_partial",
    "Coral.C111_colour_partial",
    "Coral.C111_gray_violated",
    "Coral.C111_colour_violated",
    "Coral.C111_violated"
   ],
   "note": "Exact: proved for every line between two pixels of the canvas with no end in the last row (for lines higher than wide: no end at the last pixel of all); every other line raises, on every canvas and in every colour (C111_gray_violated, C111_colour_violated)."
  },
  {
   "property": "C112",
   "status": "partial",
   "theorems": [
    "Coral.C112_gray_partial",
    "Coral.C112_colour_partial",
    "Coral.C112_number_violated",
    "Coral.C112_closed_violated",
    "Coral.C112_fits_violated"
   ],
   "note": "Proved when every side fits (C111) and no vertex is repeated at once; tuple colours on gray canvases. Number colours, repeated vertices and sides that do not fit always raise (violated, for all inputs of this kind)."
  },
  {
   "property": "C113",
   "status": "partial",
   "theorems": [
    "Coral.C113_convert_partial",
    "Coral.C113_works_partial",
    "Coral.C113_null_violated"
   ],
   "note": "C113_null_violated: one null shape (or point shape) in the file makes the whole conversion raise AttributeError, because such shapes have no parts. Otherwise as claimed (C113_convert_partial, C113_works_partial). shapeRecords() itself is C88 and C89."
  },
  {
   "property": "C114",
   "status": "proved",
   "theorems": [
    "Coral.C114_errors",
    "Coral.C114_same",
    "Coral.C114_distance"
   ],
   "note": "Over the reals."
  },
  {
   "property": "C115",
   "status": "proved",
   "theorems": [
    "Coral.Sph.C115_radius",
    "Coral.Sph.C115_bounds",
    "Coral.Sph.C115_symmetric"
   ],
   "note": "Over the reals."
  },
  {
   "property": "C116",
   "status": "partial",
   "theorems": [
    "Coral.Geoc.C116_centroid_partial",
    "Coral.Geoc.C116_reached_violated",
    "Coral.Geoc.C116_rectangle_violated",
    "Coral.Geoc.C116_flat_violated",
    "Coral.Geoc.C116_start",
    "Coral.Geoc.C116_far_side_violated",
    "Coral.Geoc.C116_endless_violated"
   ],
   "note": "C116_reached_violated, C116_rectangle_violated: if the centroid is the centre tried, rect2geo divides by zero, e.g. for every rectangle around (0, 0). C116_flat_violated: one polygon without area makes it raise. C116_far_side_violated: across a pole the result can be a place a half turn away from the region. C116_endless_violated: it does not always end; for three polygons, two of them given in the other direction, and a certain box the search alternates between two places forever. Otherwise as claimed when it returns (C116_centroid_partial). Over the reals; numbers are not floats."
  },
  {
   "property": "C117",
   "status": "proved",
   "theorems": [
    "Coral.Table.C117_columns",
    "Coral.Table.C117_keys"
   ],
   "note": "Printed lines are modelled as strings; the length is the number of characters."
  },
  {
   "property": "C118",
   "status": "partial",
   "theorems": [
    "Coral.C118_above_partial",
    "Coral.C118_below_violated"
   ],
   "note": "C118_below_violated: for no gradient is a negative position refused; the index -1 wraps to the last stop and get returns a point of the line from the first to the last colour, get_hex '#xxx' or similar."
  },
  {
   "property": "C119",
   "status": "proved",
   "theorems": [
    "Coral.C119_gray",
    "Coral.C119_bwr",
    "Coral.C119_heat",
    "Coral.C119_height",
    "Coral.C119_hex"
   ],
   "note": "Stops in exact decimals, not floats."
  },
  {
   "property": "C120",
   "status": "partial",
   "theorems": [
    "Coral.Shapefile.C120_iter",
    "Coral.Shapefile.C120_lookup_partial",
    "Coral.Shapefile.C120_lookup_violated",
    "Coral.Shapefile.C120_last_violated"
   ],
   "note": "Proved for every file when the body does not use the geometry file, and when round n looks up shape n. Refuted otherwise: iterShapes shares the file position with shape(k), so a loop that looks up the same shape k in every round never ends unless k is the last, and stops after the first shape if k is the last."
  },
  {
   "property": "C121",
   "status": "partial",
   "theorems": [
    "Coral.Dbf.C121_iter",
    "Coral.Dbf.C121_lookup_partial",
    "Coral.Dbf.C121_lookup_violated"
   ],
   "note": "Proved for every file when the body does not use the attribute file, and when round n looks up record n. Refuted otherwise: looking up record k in every round gives the first record and then record k+1 again and again."
  },
  {
   "property": "C122",
   "status": "partial",
   "theorems": [
    "Coral.Shapefile.C122_shape_record_partial",
    "Coral.Shapefile.C122_violated_first",
    "Coral.Shapefile.C122_deleted"
   ],
   "note": "Proved for every index i with -n < i < n and for the IndexError outside; missing: i = -n raises IndexError instead of giving the first entry (restrictIndex compares abs(i) with n - 1); records come back in the sense of C88."
  },
  {
   "property": "C123",
   "status": "proved",
   "theorems": [
    "Coral.Shapefile.C123_point_elevations",
    "Coral.Shapefile.C123_point_measures",
    "Coral.Shapefile.C123_point"
   ],
   "note": "For all saved files of type 11 and 21."
  },
  {
   "property": "C124",
   "status": "partial",
   "theorems": [
    "Coral.Shapefile.C124_violated",
    "Coral.Shapefile.C124_elevations_partial"
   ],
   "note": "False: poly() never sets the attribute z, and saving reads it, so a file with such a shape can never be saved (AttributeError). Proved for shapes that were given z, one value per point, and one part type per part."
  },
  {
   "property": "C125",
   "status": "partial",
   "theorems": [
    "Coral.Shapefile.C125_violated_elevations",
    "Coral.Shapefile.C125_violated_measures"
   ],
   "note": "False for every file with a shape: neither the number of points nor the points are written; reading raises TypeError or gives shapes without points."
  },
  {
   "property": "C126",
   "status": "partial",
   "theorems": [
    "Coral.Shapefile.C126_part_types_partial",
    "Coral.Shapefile.C126_line",
    "Coral.Shapefile.C126_violated",
    "Coral.Shapefile.C126_violated_empty"
   ],
   "note": "False: the default argument is one list shared by all calls; every multipatch after the first gets the part types of the first. Proved for the first call, for line(), and when part types are given."
  },
  {
   "property": "C127",
   "status": "partial",
   "theorems": [
    "Coral.Vector.C127_displaced_partial",
    "Coral.Vector.C127_exact_partial",
    "Coral.Vector.C127_violated"
   ],
   "note": "False unless the box of the glyphs starts at the origin: every text is displaced by exactly the lower left corner of that box, e.g. letters with descenders are put too low. Proved: drawn once in the right size and font, displaced by exactly that corner for every anchor; exact iff the corner is zero."
  },
  {
   "property": "C128",
   "status": "partial",
   "theorems": [
    "Coral.Vector.C128_text_partial",
    "Coral.Vector.C128_line",
    "Coral.Vector.C128_violated"
   ],
   "note": "False: nothing is escaped. Proved as an iff: read as given exactly when the parentheses are balanced and there is no backslash and no carriage return."
  },
  {
   "property": "C129",
   "status": "partial",
   "theorems": [
    "Coral.Vector.C129_circle_partial",
    "Coral.Vector.C129_violated"
   ],
   "note": "False after a text, or a shape with neither fill nor stroke: a line leads from where that ended to the circle, since addcircle begins no new path. Proved exactly when it is the circle alone."
  },
  {
   "property": "C130",
   "status": "partial",
   "theorems": [
    "Coral.Vector.C130_operands_partial",
    "Coral.Vector.C130_empty_partial",
    "Coral.Vector.C130_violated"
   ],
   "note": "False for rounded polygons: arcto leaves four numbers per corner. Proved: exactly that many are left and none without rounded polygons."
  },
  {
   "property": "C131",
   "status": "partial",
   "theorems": [
    "Coral.Vector.C131_path_partial",
    "Coral.Vector.C131_violated"
   ],
   "note": "False for an apostrophe in the path. Proved as an iff."
  },
  {
   "property": "C132",
   "status": "partial",
   "theorems": [
    "Coral.Vector.C132_names_partial",
    "Coral.Vector.C132_violated"
   ],
   "note": "False for blanks and all characters that mean something to a shell, which Canvas.export can take. Proved as an iff."
  },
  {
   "property": "C133",
   "status": "partial",
   "theorems": [
    "Coral.Vector.C133_alone_partial",
    "Coral.Vector.C133_violated"
   ],
   "note": "False for exports at the same time: all share /tmp/tempeps.ps, so an image can show another canvas and an export can fail on removing the file. Proved for one export at a time, from any disk. Ghostscript is taken to draw its input on its output file."
  },
  {
   "property": "C134",
   "status": "partial",
   "theorems": [
    "Coral.Vector.C134_movie_partial",
    "Coral.Vector.C134_violated"
   ],
   "note": "False for names with blanks: nothing is written there. Proved for plain names, with convert taken to put its input images one after the other."
  },
  {
   "property": "C135",
   "status": "partial",
   "theorems": [
    "Coral.Vector.C135_rest_partial",
    "Coral.Vector.C135_violated"
   ],
   "note": "False always: every canvas with an extent has the common box afterwards, so a later save or export shows it smaller. Proved: nothing but the box changes."
  },
  {
   "property": "C136",
   "status": "partial",
   "theorems": [
    "Coral.Shapefile.C136_nulls_partial",
    "Coral.Shapefile.C136_violated",
    "Coral.Shapefile.C136_first_violated"
   ],
   "note": "False: a file with a shape without points can only be saved if its type is 0 (saving raises otherwise), and if the first shape is null and no type was given, all other shapes are saved as null shapes without any error. Proved: files of null shapes only come back."
  },
  {
   "property": "C137",
   "status": "proved",
   "theorems": [
    "Coral.Shapefile.C137_bbox",
    "Coral.Shapefile.C137_header_box"
   ],
   "note": ""
  },
  {
   "property": "C138",
   "status": "partial",
   "theorems": [
    "Coral.Shapefile.C138_zbox_partial",
    "Coral.Shapefile.C138_mbox_partial",
    "Coral.Shapefile.C138_mbox_violated",
    "Coral.Shapefile.C138_hidden_violated",
    "Coral.Shapefile.C138_editor_violated"
   ],
   "note": "False for measures: 0 is always counted in, so the range is right exactly if it contains 0. False in an Editor that opened a file: both ranges are [0, 0], since the points it holds have no third and fourth number. Proved: zbox of a Writer whose points all have elevations, and mbox up to the zero. A point without the coordinate hides the coordinates of the later points of its shape (C138_hidden_violated)."
  },
  {
   "property": "C139",
   "status": "partial",
   "theorems": [
    "Coral.Shapefile.C139_reopened_partial",
    "Coral.Shapefile.C139_violated",
    "Coral.Shapefile.C139_measures_violated"
   ],
   "note": "False for types with measures of several points (13, 15, 18, 23, 25, 28, 31): the file opens, but saving raises IndexError. Proved for types 1, 3, 5, 8, 11 and 21 (with at least one part where there are parts): the bytes of the records are the same."
  },
  {
   "property": "C140",
   "status": "partial",
   "theorems": [
    "Coral.Dbf.C140_reopened_partial",
    "Coral.Dbf.C140_violated"
   ],
   "note": "False for blank values: an empty text is read as a bytes object, of which str() is then written, so the value becomes the text b'. Proved for values and names that come back (C88, C100): the bytes of the file are the same."
  },
  {
   "property": "C141",
   "status": "partial",
   "theorems": [
    "Coral.Shapefile.C141_whole_shapes_partial",
    "Coral.Shapefile.C141_part_violated",
    "Coral.Shapefile.C141_point_violated"
   ],
   "note": "False: shapes cannot be indexed, so deleting a part, or a point of a part, raises TypeError for every shape that is there; delete(point=1) on points deletes half of the shapes. Proved: what is left is always a sublist of the shapes, unchanged, and records are never touched."
  },
  {
   "property": "C142",
   "status": "partial",
   "theorems": [
    "Coral.Shapefile.C142_part_violated",
    "Coral.Shapefile.C142_new_point_partial"
   ],
   "note": "False: with a shape that is there and a part, TypeError is raised, also with addr; with a shape alone the address is ignored and a new point is added. Proved: no shape that was there is changed. Numbers of shapes that are not there (for which [] is appended to the list of shapes) are not modelled."
  },
  {
   "property": "C143",
   "status": "partial",
   "theorems": [
    "Coral.Dbf.C143_values",
    "Coral.Dbf.C143_values_editor",
    "Coral.Dbf.C143_keywords_partial",
    "Coral.Dbf.C143_keywords_violated",
    "Coral.Dbf.C143_file_violated"
   ],
   "note": "Proved for positional values, in a Writer and in an Editor that opened a file, and for keywords for all fields. False for keywords that leave a field out: the values of the later fields move up, and records() of the saved file raises."
  },
  {
   "property": "C144",
   "status": "partial",
   "theorems": [
    "Coral.Shapefile.C144_opens",
    "Coral.Shapefile.C144_separate_partial",
    "Coral.Shapefile.C144_plain_names_partial",
    "Coral.Shapefile.C144_violated"
   ],
   "note": "Reader(target) opens what was saved, for all targets. Proved that targets with different roots (the name without its extension) do not interfere. False for names that differ only after their last dot: saving x.b overwrites x.a."
  },
  {
   "property": "C145",
   "status": "partial",
   "theorems": [
    "Coral.Shapefile.C145_no_type_partial",
    "Coral.Shapefile.C145_other_files_partial",
    "Coral.Shapefile.C145_attributes_violated",
    "Coral.Shapefile.C145_shapes_violated"
   ],
   "note": "False: if a record cannot be written, the new geometry is on disk with an attribute file that is cut off; if a shape cannot be written, the old .shp is gone while the old .shx and .dbf are still there. Proved: with no shape type and no shapes nothing is touched, and files of other names are never touched."
  },
  {
   "property": "C146",
   "status": "proved",
   "theorems": [
    "Coral.Tqdm.C146_spaced",
    "Coral.Tqdm.C146_every",
    "Coral.Tqdm.C146_at_most"
   ],
   "note": "Proved for every clock and every iterable."
  },
  {
   "property": "C147",
   "status": "partial",
   "theorems": [
    "Coral.Shapefile.C147_tuples_partial",
    "Coral.Shapefile.C147_lists_violated",
    "Coral.Shapefile.C147_rings_violated",
    "Coral.Shapefile.C147_lines_partial",
    "Coral.Shapefile.C147_same_shape_partial"
   ],
   "note": "False for points that are lists: they are padded in place to four numbers and are part of the shape, so a later change to the list changes the shape; rings that are not closed are closed in the list of the caller. Proved: with tuples for points no list of numbers is changed and the shape does not depend on any of them; shapes that are not polygons leave the lists of points alone. That two parts may be the same list is not modelled."
  },
  {
   "property": "C148",
   "status": "partial",
   "theorems": [
    "Coral.C148_unchanged_partial",
    "Coral.C148_gradient",
    "Coral.C148_violated"
   ],
   "note": "False: the list is sorted and stops at 0 and 1 are added to it. Proved: it stays as it was exactly if it is sorted and reaches from 0 to 1."
  },
  {
   "property": "C149",
   "status": "partial",
   "theorems": [
    "Coral.Shapefile.C149_shapes_over",
    "Coral.Shapefile.C149_index_over",
    "Coral.Shapefile.C149_same_file_partial",
    "Coral.Shapefile.C149_longer_violated",
    "Coral.Shapefile.C149_index_partial",
    "Coral.Dbf.C149_records_over",
    "Coral.Dbf.C149_records_partial"
   ],
   "note": "False: the files are not truncated. Proved: the result is the file saved by name over the older content, so it is the same file if the older content was not longer; older rests of .shx and .dbf are ignored by the reader, but after a longer .shp `shapes()` gives more shapes than were saved or raises."
  },
  {
   "property": "C150",
   "status": "partial",
   "theorems": [
    "Coral.Shapefile.C150_by_name_violated",
    "Coral.Shapefile.C150_objects_partial",
    "Coral.Shapefile.C150_without_index_partial",
    "Coral.Shapefile.C150_shapes_alone_violated"
   ],
   "note": "False for files opened by name: a missing .shx or .dbf raises at once. Proved for open files: what is there is read, without .shx `shape(i)` is the i-th of `shapes()`; but shapes alone cannot be counted from the end, and indices out of range raise TypeError."
  },
  {
   "property": "C151",
   "status": "partial",
   "theorems": [
    "Coral.Shapefile.C151_load_partial",
    "Coral.Shapefile.C151_shapes_partial",
    "Coral.Shapefile.C151_index_violated",
    "Coral.Dbf.C151_fields_violated"
   ],
   "note": "False: the offsets of the first index and the length of the first .dbf header are kept. Proved: `shape(i)` goes to the place the old index tells, loading a data set with at least as many fields always raises; `shapes()` is right, and everything is if no single shape was asked for and the numbers of records agree (geometry only)."
  },
  {
   "property": "C152",
   "status": "partial",
   "theorems": [
    "Coral.Flt.C152_nearest_double_partial",
    "Coral.Flt.C152_nearest_double_violated"
   ],
   "note": "Floats are modelled as the rationals m*2^e with |m| < 2^53, e >= -1074 and round-to-nearest-even (no overflow). Violated exactly at |x| = 0.49999999999999994 and at odd integers between 2^52 and 2^53 in absolute value: there x + 0.5 is rounded up and the result is one further from zero. The partial theorem covers every other finite float."
  },
  {
   "property": "C153",
   "status": "partial",
   "theorems": [
    "Coral.Flt.C153_blend_double_between",
    "Coral.Flt.C153_blend_double_exact",
    "Coral.Flt.C153_blend_double_ends",
    "Coral.Flt.C153_blend_double_monotone_partial",
    "Coral.Flt.C153_blend_double_monotone_violated"
   ],
   "note": "The range, the ends, the closeness (1/2 + 2^-40) and agreement with exact arithmetic away from halves are proved for all floats. Violated: monotonicity for neighbouring floats, e.g. background 167, foreground 198, two adjacent alphas near 0.4355 give 181 and then 180. Proved instead: an alpha larger by at least 2^-39 never gives less of the foreground."
  },
  {
   "property": "C154",
   "status": "partial",
   "theorems": [
    "Coral.Flt.C154_boxes_of_floats_partial",
    "Coral.Flt.C154_true_iff_area",
    "Coral.Flt.C154_sides_do_not_vanish",
    "Coral.Flt.C154_boxes_of_floats_violated"
   ],
   "note": "Violated: the area of a box with both sides 2^-600 underflows to 0, so the box is false, unions lose it and its intersection with itself is empty. Proved for all boxes whose sides are zero or at least 2^-537 long; the exact condition (product of the rounded sides above 2^-1075) is C154_true_iff_area. Overflow to infinity is not modelled."
  },
  {
   "property": "C155",
   "status": "partial",
   "theorems": [
    "Coral.Flt.C155_centre_in_box",
    "Coral.Flt.C155_moved_points",
    "Coral.Flt.C155_scaled",
    "Coral.Flt.C155_there_and_back_partial",
    "Coral.Flt.C155_there_and_back_exact",
    "Coral.Flt.C155_there_and_back_violated"
   ],
   "note": "Centre, order of corners and moved points are proved for all floats. Violated: there and back; a box between 0.25 and 0.375 moved by 2^52 and back has no extent. Proved instead: the distance is bounded by the rounding of the two additions, and it is exact when the moved corners are floats (C155_there_and_back_exact)."
  },
  {
   "property": "C156",
   "status": "partial",
   "theorems": [
    "Coral.Flt.C156_variance_not_negative",
    "Coral.Flt.C156_average_close",
    "Coral.Flt.C156_average_between_partial",
    "Coral.Flt.C156_average_between_violated"
   ],
   "note": "Violated in part: the average of three times 0.1 is above 0.1 (`C156_average_between_violated`). The partial theorem gives a sufficient condition. Overflow to infinity is not modelled."
  },
  {
   "property": "C157",
   "status": "partial",
   "theorems": [
    "Coral.Flt.C157_gradient_close",
    "Coral.Flt.C157_hex_digits",
    "Coral.Flt.C157_equal_stops_violated"
   ],
   "note": "Violated in part: between two white stops the colour can be #eee (`C157_equal_stops_violated`). The error bound, exactness at stops and the digits are proved for all gradients and all floats."
  },
  {
   "property": "C158",
   "status": "partial",
   "theorems": [
    "Coral.Flt.C158_index_in_range",
    "Coral.Flt.C158_monotone",
    "Coral.Flt.C158_error_bound",
    "Coral.Flt.C158_stable_partial",
    "Coral.Flt.C158_stable_violated"
   ],
   "note": "Violated in part: the last index can stand for a number above the maximum, which cannot be encoded again (`C158_stable_violated`). Range, monotonicity and error bound are proved in full; overflow to infinity is not modelled."
  },
  {
   "property": "C159",
   "status": "partial",
   "theorems": [
    "Coral.Flt.C159_bounds",
    "Coral.Flt.C159_coordinate_partial",
    "Coral.Flt.C159_points_partial",
    "Coral.Flt.C159_eight_bytes_violated",
    "Coral.Flt.C159_narrow_violated"
   ],
   "note": "Violated for 8 bytes (`C159_eight_bytes_violated`) and for boxes whose extent is lost by rounding (`C159_narrow_violated`); proved for 1, 2 and 4 bytes and boxes that do not collapse."
  },
  {
   "property": "C160",
   "status": "proved",
   "theorems": [
    "Coral.Flt.C160_longitude_ends",
    "Coral.Flt.C160_longitude_exact",
    "Coral.Flt.C160_latitude_ends"
   ],
   "note": "Exact characterisation of the floats for which the loops end."
  },
  {
   "property": "C161",
   "status": "proved",
   "theorems": [
    "Coral.C161_shapefile_to_pf",
    "Coral.C161_in_range",
    "Coral.C161_converts"
   ],
   "note": ""
  },
  {
   "property": "C162",
   "status": "proved",
   "theorems": [
    "Coral.Buffer.C162_shows"
   ],
   "note": ""
  },
  {
   "property": "C163",
   "status": "proved",
   "theorems": [
    "Coral.Flt.C163_hours",
    "Coral.Flt.C163_cardinal",
    "Coral.Flt.C163_cardinal_exact",
    "Coral.Flt.C163_whole_degrees"
   ],
   "note": ""
  },
  {
   "property": "C164",
   "status": "proved",
   "theorems": [
    "Coral.Flt.C164_ends",
    "Coral.Flt.C164_turns"
   ],
   "note": ""
  },
  {
   "property": "C165",
   "status": "partial",
   "theorems": [
    "Coral.Proj.C165_exact",
    "Coral.Proj.C165_image",
    "Coral.Proj.C165_rounded",
    "Coral.Proj.C165_ends",
    "Coral.Proj.C165_endless_violated"
   ],
   "note": "In exact arithmetic the loop ends on the equator (and on spheres) only (C165_exact), so that it ends is due to rounding: it does if rounding keeps the order of the computed latitudes (C165_ends), and need not otherwise, however exact the steps are (C165_endless_violated). The error bounds hold for every way of rounding; how large eta is for floats is not modelled (sin, atan, exp, pow of libm)."
  },
  {
   "property": "C166",
   "status": "proved",
   "theorems": [
    "Coral.Flt.C166_weights",
    "Coral.Flt.C166_gray"
   ],
   "note": ""
  },
  {
   "property": "C167",
   "status": "proved",
   "theorems": [
    "Coral.Flt.C167_cell",
    "Coral.Flt.C167_same_point",
    "Coral.Flt.C167_fit",
    "Coral.Flt.C167_fit_exact"
   ],
   "note": ""
  },
  {
   "property": "C168",
   "status": "partial",
   "theorems": [
    "Coral.Flt.C168_range_partial",
    "Coral.Flt.C168_self_partial",
    "Coral.Flt.C168_symmetric",
    "Coral.Flt.C168_mirrored",
    "Coral.Flt.C168_range_violated",
    "Coral.Flt.C168_constant_partial",
    "Coral.Flt.C168_constant_violated"
   ],
   "note": "Violated in part: corr of (0, 0, 1) with itself is 1 + 2^-52 (C168_range_violated), and of the constant column (0.1, 0.1, 0.1) with itself is 1 rather than ZeroDivisionError (C168_constant_violated). Proved: the excess over 1 and the error of the correlation with itself are at most (n + 9) * 2^-51 for floats that are zero or at least 2^-300 in size and n up to 2^40; symmetry and change of sign hold to the last bit. Overflow to infinity is not modelled."
  },
  {
   "property": "C169",
   "status": "partial",
   "theorems": [
    "Coral.Text.C169_bbox",
    "Coral.Text.C169_bbox_int",
    "Coral.Text.C169_bbox_unique",
    "Coral.Text.C169_buffer",
    "Coral.Text.C169_ivar_reads",
    "Coral.Text.C169_ivar_violated",
    "Coral.Text.C169_ivar_raises",
    "Coral.Text.C169_fvar_reads",
    "Coral.Text.C169_fvar_violated",
    "Coral.Text.C169_svar_violated",
    "Coral.Text.C169_named"
   ],
   "note": "Violated for variables: the texts of IVar, FVar and SVar lack the name, so every argument moves one place; evaluating raises AssertionError or makes another variable (C169_ivar_violated, C169_fvar_violated, C169_svar_violated). Proved for boxes (any kind of number whose text reads back; integers outright) and buffers. The evaluator in Verif/Spec/Repr.lean reads numbers, True, False, tuples and calls with positional arguments. str() of variables is C184."
  },
  {
   "property": "C170",
   "status": "partial",
   "theorems": [
    "Coral.Shapefile.C170_contents_partial",
    "Coral.Shapefile.C170_new",
    "Coral.Shapefile.C170_missing_violated",
    "Coral.Shapefile.C170_object_violated",
    "Coral.Shapefile.C170_emptied_violated",
    "Coral.Shapefile.C170_other_file_violated",
    "Coral.Shapefile.C170_saved_partial"
   ],
   "note": "Violated: for a name without a file, or something other than a string, the constructor returns an object on which every call raises AttributeError (C170_missing_violated, C170_object_violated); saveDbf(target) of it empties an existing .dbf before it raises (C170_emptied_violated); Editor('x.a.shp') holds the contents of x.shp because the extension is taken off twice (C170_other_file_violated). Proved: contents for names without more dots (C170_contents_partial), from saving to editing (C170_saved_partial), and an empty editor without a name (C170_new). Missing: Editor.point, which overrides Writer.point, is modelled separately (Model/EditorOps)."
  },
  {
   "property": "C171",
   "status": "partial",
   "theorems": [
    "Coral.Dbf.C171_terminator",
    "Coral.Dbf.C171_deleted",
    "Coral.Dbf.C171_width",
    "Coral.Dbf.C171_records_partial",
    "Coral.Dbf.C171_records_violated"
   ],
   "note": "Violated only for files without a field: records() then gives nothing (C171_records_violated). Proved for all other files with records and a header length other than zero: which records are deleted (C171_deleted), the list of rows (C171_records_partial), their width (C171_width), and the end of the field descriptors (C171_terminator)."
  },
  {
   "property": "C172",
   "status": "partial",
   "theorems": [
    "Coral.Flt.C172_close_partial",
    "Coral.Flt.C172_radius",
    "Coral.Flt.C172_returns_partial",
    "Coral.Flt.C172_same_point",
    "Coral.Flt.C172_antipodes_violated"
   ],
   "note": "Violated for antipodes: haversine(0, 8, 180, -8) raises ValueError with a correctly rounded library, as sin(x)**2 + cos(x)**2 is rounded to 1 + 2**-52 and math.sqrt gets a negative number (C172_antipodes_violated). Proved for positions at least 2**-20 radians (about 6 metres) from each other's antipodes: the call returns and the error is at most R * 2**-20 (C172_close_partial, C172_returns_partial). Assumed: sin, cos, atan2 and sqrt are correctly rounded; such a library is shown to exist. Overflow to infinity is not modelled."
  },
  {
   "property": "C173",
   "status": "partial",
   "theorems": [
    "Coral.Flt.C173_returns_partial",
    "Coral.Flt.C173_close_partial",
    "Coral.Flt.C173_centre",
    "Coral.Flt.C173_near_centre_violated",
    "Coral.Flt.C173_value_error_violated"
   ],
   "note": "Violated near the centre: other positions on the equator within 2**-27 radians of a centre on the equator raise ZeroDivisionError (C173_near_centre_violated), at latitude 8 they raise ValueError, and so does (-180, 8) for the centre (180, 8) (C173_value_error_violated). Proved: positions at least 2**-20 radians from the centre and from its antipode are projected (C173_returns_partial), in the near hemisphere with an error of at most r * 2**-19 (C173_close_partial). Assumed: a correctly rounded library."
  },
  {
   "property": "C174",
   "status": "partial",
   "theorems": [
    "Coral.Flt.C174_close",
    "Coral.Flt.C174_orientation_partial",
    "Coral.Flt.C174_exact",
    "Coral.Flt.C174_orientation_violated",
    "Coral.Flt.C174_interface_partial",
    "Coral.Flt.C174_interface_violated"
   ],
   "note": "Violated for rings that enclose next to nothing: the area of the counter-clockwise triangle (0.5, 0.3), (0.6, 0.2), (0, 0.8) is negative (C174_orientation_violated), and as a hole it becomes a polygon of its own (C174_interface_violated). Proved: the bound of the error (C174_close), the sign and the grouping for rings that enclose more than the bound (C174_orientation_partial, C174_interface_partial), exact areas on grids (C174_exact). Assumed: sum adds from left to right (Python before 3.12), no overflow."
  },
  {
   "property": "C175",
   "status": "partial",
   "theorems": [
    "Coral.Flt.C175_kakwani",
    "Coral.Flt.C175_deaton",
    "Coral.Flt.C175_kakwani_violated",
    "Coral.Flt.C175_deaton_violated"
   ],
   "note": "Violated: gini_kakwani([0.1, 0, 0, 0]) is 1 + 2**-52 (C175_kakwani_violated) and gini_deaton([0.1, 0.1]) is -2**-51 (C175_deaton_violated). Proved: closeness of both, and that gini_kakwani is not negative and zero exactly for equal incomes. Overflow is not modelled."
  },
  {
   "property": "C176",
   "status": "proved",
   "theorems": [
    "Coral.Flt.C176_mapping"
   ],
   "note": "Proved for names whose lengths together stay below 2**25; beyond that two different fractions may be rounded to the same float."
  },
  {
   "property": "C177",
   "status": "proved",
   "theorems": [
    "Coral.Flt.C177_jaro"
   ],
   "note": "Names of different lengths may exceed 1 already for exact numbers (see C58), so the upper bound is stated for equal lengths."
  },
  {
   "property": "C178",
   "status": "proved",
   "theorems": [
    "Coral.Flt.C178_south",
    "Coral.Flt.C178_close",
    "Coral.Flt.C178_back",
    "Coral.Flt.C178_returns"
   ],
   "note": "Assumed: a correctly rounded library for tan, log, sinh and atan (such a library exists: exists_mercator_rounds), no overflow."
  },
  {
   "property": "C179",
   "status": "partial",
   "theorems": [
    "Coral.Flt.C179_close_partial",
    "Coral.Flt.C179_violated"
   ],
   "note": "Violated at the poles: destination(0, 8, 0, math.radians(82), 1) raises ValueError, because the argument of asin is 1 + 2**-52 (C179_violated). Proved: the bounds for starts and destinations at least a degree from the poles (C179_close_partial), with R given. Assumed: a correctly rounded library (exists_rounds, exists_asin), no overflow."
  },
  {
   "property": "C180",
   "status": "proved",
   "theorems": [
    "Coral.Flt.C180_bearing"
   ],
   "note": "Assumed: a correctly rounded library, no overflow."
  },
  {
   "property": "C181",
   "status": "proved",
   "theorems": [
    "Coral.Flt.C181_returns",
    "Coral.Flt.C181_close"
   ],
   "note": "Assumed for the bounds: a correctly rounded library, no overflow."
  },
  {
   "property": "C182",
   "status": "proved",
   "theorems": [
    "Coral.Flt.C182_returns",
    "Coral.Flt.C182_refused",
    "Coral.Flt.C182_edge",
    "Coral.Flt.C182_close",
    "Coral.Flt.C182_back_returns",
    "Coral.Flt.C182_back_close"
   ],
   "note": "Assumed: a correctly rounded library (exists_transverse_rounds), no overflow (sinh and cosh of points beyond 710 radii)."
  },
  {
   "property": "C183",
   "status": "partial",
   "theorems": [
    "Coral.Flt.C183_stereographic_partial",
    "Coral.Flt.C183_equal_area_partial",
    "Coral.Flt.C183_antipode_violated",
    "Coral.Flt.C183_value_error_violated",
    "Coral.Flt.C183_mirrored_violated"
   ],
   "note": "Bound proved wherever 1 + cos(c) >= 2^-20. The claim fails near the antipode: from the centre (0, 0) the position (180 - 2^-22, 0), which is not the antipode, raises ZeroDivisionError in both projections (C183_antipode_violated); from the centre (0, 8) the position (180 - 2^-22, -8) makes AzimuthalEqualArea raise ValueError (C183_value_error_violated), and Stereographic put it on the wrong side of the centre (C183_mirrored_violated). Library functions are taken to be correctly rounded."
  },
  {
   "property": "C184",
   "status": "proved",
   "theorems": [
    "Coral.Describe.C184_integer",
    "Coral.Describe.C184_real",
    "Coral.Describe.C184_text",
    "Coral.Describe.C184_kinds",
    "Coral.Describe.C184_reads"
   ],
   "note": ""
  },
  {
   "property": "C185",
   "status": "proved",
   "theorems": [
    "Coral.Describe.C185_diameter",
    "Coral.Describe.C185_sides",
    "Coral.Describe.C185_scale"
   ],
   "note": ""
  },
  {
   "property": "C186",
   "status": "partial",
   "theorems": [
    "Coral.Flt.C186_close_partial",
    "Coral.Flt.C186_anywhere",
    "Coral.Flt.C186_pole_violated",
    "Coral.Flt.C186_scale_partial",
    "Coral.Flt.C186_back_violated",
    "Coral.Flt.C186_back_partial"
   ],
   "note": "The last sentence fails: with parallels 6 and 90 degrees geo2rect and scale raise ValueError at the pole, because the number under the root, zero on real numbers, is rounded to -2^-52 (C186_pole_violated); with both parallels at 6 degrees the pole has a point for which rect2geo raises ValueError, the argument of asin being 1 + 2^-51 (C186_back_violated). C186_close_partial, C186_scale_partial and C186_back_partial bound the errors where the number under the root is at least h squared; C186_anywhere covers all positions for parallels up to 75 degrees."
  },
  {
   "property": "C187",
   "status": "partial",
   "theorems": [
    "Coral.Flt.C187_close_partial",
    "Coral.Flt.C187_edge_violated",
    "Coral.Flt.C187_back_partial"
   ],
   "note": "The last sentence fails: with the origin at (0, 8) the position (-90 + 2^-22, 8) makes a = 1 + 2^-52, so atanh raises ValueError although the exact projection has a point (C187_edge_violated). C187_close_partial and C187_back_partial bound the errors elsewhere."
  },
  {
   "property": "C188",
   "status": "partial",
   "theorems": [
    "Coral.Flt.C188_transverse_partial",
    "Coral.Flt.C188_oblique_partial",
    "Coral.Flt.C188_oblique_edge_violated",
    "Coral.Flt.C188_transverse_edge_violated"
   ],
   "note": "The last sentence fails: at the position of C187_edge_violated the root of a negative number raises ValueError (C188_oblique_edge_violated), and TransMercator.scale raises ZeroDivisionError at (90 - 2^-22, 0) with central meridian 0 (C188_transverse_edge_violated). The bounds of the first sentence are C188_transverse_partial and C188_oblique_partial."
  },
  {
   "property": "C189",
   "status": "proved",
   "theorems": [
    "Coral.Flt.C189_ends",
    "Coral.Flt.C189_far",
    "Coral.Flt.C189_close"
   ],
   "note": "C189_ends and C189_far split the ordinates; C189_close compares with the exact projection. The exact iteration need not end; the rounded one does because every step is monotonic and there are finitely many floats."
  },
  {
   "property": "C190",
   "status": "proved",
   "theorems": [
    "Coral.Flt.C190_south",
    "Coral.Flt.C190_close",
    "Coral.Flt.C190_back"
   ],
   "note": "C190_close, C190_back, C190_south."
  },
  {
   "property": "C191",
   "status": "proved",
   "theorems": [
    "Coral.Flt.C191_sphere",
    "Coral.Flt.C191_ellipsoid",
    "Coral.Flt.C191_poles"
   ],
   "note": "C191_sphere, C191_ellipsoid, C191_poles."
  },
  {
   "property": "C192",
   "status": "proved",
   "theorems": [
    "Coral.Flt.Eckert.C192_ends"
   ],
   "note": "C192_ends."
  },
  {
   "property": "C193",
   "status": "proved",
   "theorems": [
    "Coral.Flt.Eckert.C193_returns",
    "Coral.Flt.Eckert.C193_back"
   ],
   "note": "C193_returns, C193_back."
  },
  {
   "property": "C194",
   "status": "proved",
   "theorems": [
    "Coral.PF.C194_from_end"
   ],
   "note": "C194_from_end."
  },
  {
   "property": "C195",
   "status": "proved",
   "theorems": [
    "Coral.C195_value",
    "Coral.C195_empty",
    "Coral.C195_exact"
   ],
   "note": "C195_exact is the value of jaro; C195_value alone leaves the transpositions open; C195_empty: empty names."
  },
  {
   "property": "C196",
   "status": "proved",
   "theorems": [
    "Coral.Stats.C196_deviation",
    "Coral.Stats.C196_undefined"
   ],
   "note": "C196_deviation, C196_undefined."
  },
  {
   "property": "C197",
   "status": "partial",
   "theorems": [
    "Coral.Dbf.C197_blank_violated",
    "Coral.Dbf.C197_zero_partial"
   ],
   "note": "The first sentence fails for blanks (C197_blank_violated); C197_zero_partial is the rest."
  },
  {
   "property": "C198",
   "status": "proved",
   "theorems": [
    "Coral.Shapefile.C198_first",
    "Coral.Shapefile.C198_anywhere",
    "Coral.Shapefile.C198_only_first"
   ],
   "note": "C198_first, C198_only_first, C198_anywhere."
  },
  {
   "property": "C199",
   "status": "proved",
   "theorems": [
    "Coral.Table.C199_readfile",
    "Coral.Table.C199_table",
    "Coral.Table.C199_missing",
    "Coral.Table.C199_addkey",
    "Coral.Table.C199_join"
   ],
   "note": "C199_readfile, C199_addkey, C199_join: bad names; C199_missing: names that the file lacks; C199_table: what is read otherwise."
  },
  {
   "property": "C200",
   "status": "partial",
   "theorems": [
    "Coral.Flt.C200_symmetric",
    "Coral.Flt.C200_grid_partial",
    "Coral.Flt.C200_line_partial",
    "Coral.Flt.C200_flat_partial",
    "Coral.Flt.C200_tiny_violated",
    "Coral.Flt.C200_line_violated"
   ],
   "note": "Violated: yes for a triangle with sides of 2^-600 (C200_tiny_violated), no for three points of the line y = 3 x with coordinates near 2^52 (C200_line_violated). Proved: symmetry (C200_symmetric), the right answer on grids (C200_grid_partial), never no for points of a line with exact differences (C200_line_partial), and yes only for triangles of next to no area (C200_flat_partial)."
  },
  {
   "property": "C201",
   "status": "partial",
   "theorems": [
    "Coral.Flt.C201_points",
    "Coral.Flt.C201_simplify_violated",
    "Coral.Flt.C201_monotone",
    "Coral.Flt.C201_grid",
    "Coral.Flt.C201_exact_partial",
    "Coral.Flt.C201_simplify_partial"
   ],
   "note": "Violated for 0.49999999999999994 steps, which are put on 1 instead of 0 (C201_simplify_violated). Proved: agreement with exact arithmetic if no coordinate x is within (|x/m| + 1) * 2^-53 steps of the middle between two grid lines (C201_exact_partial, C201_simplify_partial), and the second sentence in full (C201_points, C201_monotone, C201_grid). How far a node can be from its point is C167. Overflow to infinity is not modelled."
  },
  {
   "property": "C202",
   "status": "proved",
   "theorems": [
    "Coral.Dirs.C202_created",
    "Coral.Dirs.C202_blocked",
    "Coral.Dirs.C202_directory",
    "Coral.Dirs.C202_three"
   ],
   "note": "C202_created: one file; C202_three: the three files of save; C202_blocked, C202_directory: what raises. The names . and .., links and permissions are not modelled."
  },
  {
   "property": "C203",
   "status": "proved",
   "theorems": [
    "Coral.Dbf.C203_length",
    "Coral.Dbf.C203_records",
    "Coral.Dbf.C203_cut",
    "Coral.Dbf.C203_missing",
    "Coral.Dbf.C203_names"
   ],
   "note": "C203_records: all records; C203_length: no value is shifted; C203_names: names of fields; C203_cut, C203_missing: what is cut and what raises. The rest of the header is that of C88."
  },
  {
   "property": "C204",
   "status": "proved",
   "theorems": [
    "Coral.Flt.C204_sides",
    "Coral.Flt.C204_zero",
    "Coral.Flt.C204_monotone",
    "Coral.Flt.C204_close"
   ],
   "note": "math.hypot is a parameter that rounds the exact value correctly (RoundsHypot); overflow to infinity is not modelled."
  },
  {
   "property": "C205",
   "status": "partial",
   "theorems": [
    "Coral.Flt.C205_fit_violated",
    "Coral.Flt.C205_zero",
    "Coral.Flt.C205_close",
    "Coral.Flt.C205_fit_partial"
   ],
   "note": "Violated without an error term: a drawing of ten units on a page of size 1 ends beyond 1 (C205_fit_violated). C205_close bounds the distance from the exact place, C205_fit_partial the distance beyond the margins; C205_zero says when saving raises. The interpreter is taken to be exact; real ones round too."
  }
 ]
}
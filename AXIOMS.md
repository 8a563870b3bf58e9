# Axioms of each property theorem

Output of `#print axioms`, generated from `MANIFEST.json`. Nothing else is used.

## Classical.choice, Quot.sound, propext (533 theorems)

* `Coral.C02_union_partial`
* `Coral.C02_union_exact_partial`
* `Coral.C02_union_laws_partial`
* `Coral.C02_union_violated`
* `Coral.C03_intersection`
* `Coral.C03_disjoint_empty`
* `Coral.C04_collide_iff_intersection`
* `Coral.C06_translate`
* `Coral.C06_scale`
* `Coral.C06_scale_compose`
* `Coral.C06_mul_div`
* `Coral.C07_order_violated`
* `Coral.C09_buffer_is_bounded_queue`
* `Coral.C09_buffer_capacity`
* `Coral.C10_nearest_closest`
* `Coral.C10_nearest_ties_away`
* `Coral.C10_nearest_laws`
* `Coral.C11_open_simplify_subsequence`
* `Coral.C11_open_simplify_short`
* `Coral.C12_open_simplify_turns_partial`
* `Coral.C12_open_simplify_violated`
* `Coral.C13_closed_simplify_points_partial`
* `Coral.C13_closed_simplify_order_partial`
* `Coral.C13_closed_simplify_violated`
* `Coral.C14_collinear_iff_line`
* `Coral.C14_collinear_invariant`
* `Coral.Sph.C15_terminates`
* `Coral.Sph.C15_value`
* `Coral.Sph.C15_unchanged`
* `Coral.Sph.C16_arc`
* `Coral.Sph.C16_symm`
* `Coral.Sph.C16_range`
* `Coral.Sph.C16_zero`
* `Coral.Sph.C16_triangle`
* `Coral.Sph.C17_inverse`
* `Coral.Sph.C17_exact`
* `Coral.Sph.C18_half`
* `Coral.Sph.C18_symm`
* `Coral.C19_cardinal_nearest_wind`
* `Coral.C19_hours`
* `Coral.C19_periodic`
* `Coral.Proj.C20_back`
* `Coral.Proj.C20_forth`
* `Coral.Proj.C20_south`
* `Coral.Proj.C21_sphere`
* `Coral.Proj.C21_ellipsoid`
* `Coral.Proj.C22_back`
* `Coral.Proj.C22_accepts`
* `Coral.Proj.C23_back`
* `Coral.Proj.C23_default`
* `Coral.Proj.C24_distance_partial`
* `Coral.Proj.C24_violated`
* `Coral.Proj.C25_near_partial`
* `Coral.Proj.C25_violated_far`
* `Coral.Proj.C25_violated_border`
* `Coral.Proj.C25_violated_centre`
* `Coral.Proj.C26_exact`
* `Coral.Proj.C27_exact`
* `Coral.Proj.C27_image`
* `Coral.Proj.C28_near_partial`
* `Coral.Proj.C28_violated_far`
* `Coral.Proj.C28_violated_border`
* `Coral.Frame.C29_cache_partial`
* `Coral.Frame.C29_violated`
* `Coral.Frame.C30_sphere_partial`
* `Coral.Frame.C30_sphere_new_partial`
* `Coral.Frame.C30_violated_ellipsoid`
* `Coral.Frame.C30_violated_conic`
* `Coral.Frame.C31_cell`
* `Coral.C32_fvar_error_bound`
* `Coral.C32_fvar_monotone`
* `Coral.C32_fvar_stable`
* `Coral.C33_fvar_domain_partial`
* `Coral.C33_fvar_domain_violated`
* `Coral.C33_fvar_domain_exact`
* `Coral.C34_ivar_index_value`
* `Coral.C35_ivar_codec_partial`
* `Coral.C36_svar_roundtrip`
* `Coral.C37_row_roundtrip`
* `Coral.C37_row_encodes`
* `Coral.C38_vlv_top_bits`
* `Coral.C38_vlv_minimal`
* `Coral.C38_vlv_truncated`
* `Coral.C40_index_roundtrip`
* `Coral.C40_boxes`
* `Coral.C41_read_back`
* `Coral.C41_write_succeeds`
* `Coral.C42_get_first`
* `Coral.C43_write_terminates_violated`
* `Coral.C43_write_terminates_partial`
* `Coral.C43_wrapping_partial`
* `Coral.C44_truncated_open_violated`
* `Coral.C44_truncated_open_partial`
* `Coral.C45_bw_history`
* `Coral.C45_bw_write`
* `Coral.C46_gray_history`
* `Coral.C46_gray_opaque`
* `Coral.C46_colour_history`
* `Coral.C46_colour_opaque`
* `Coral.C47_blend_between`
* `Coral.C47_blend_ends`
* `Coral.C47_blend_monotone`
* `Coral.C48_line`
* `Coral.C49_stroke_bw`
* `Coral.C49_stroke_gray`
* `Coral.C49_stroke_colour`
* `Coral.C49_reachable`
* `Coral.C50_fill_convex_partial`
* `Coral.C50_fill_all_convex_partial`
* `Coral.C50_fill_violated`
* `Coral.C50_fill_partial`
* `Coral.C50_fill_rectangle_partial`
* `Coral.C51_background_bw_partial`
* `Coral.C51_background_gray`
* `Coral.C51_background_colour`
* `Coral.C52_save_bw`
* `Coral.C52_save_gray`
* `Coral.C52_save_colour`
* `Coral.C53_get_prescribed`
* `Coral.C53_lerp_between`
* `Coral.C53_get_unique`
* `Coral.C54_get_hex`
* `Coral.C55_damlev`
* `Coral.C56_damlev`
* `Coral.C57_triangle_violated`
* `Coral.C57_triangle_partial`
* `Coral.C57_chain_partial`
* `Coral.C58_jaro_violated`
* `Coral.C58_stars_violated`
* `Coral.C58_jaro_partial`
* `Coral.C59_mapping`
* `Coral.C60_ascii`
* `Coral.C61_abbreviations_violated`
* `Coral.C61_abbreviations_partial`
* `Coral.C61_distinct_partial`
* `Coral.C61_violated_short`
* `Coral.C61_gives_up_partial`
* `Coral.C61_initials_partial`
* `Coral.Stats.C62_extremes`
* `Coral.Stats.C62_transparent`
* `Coral.Stats.C62_info`
* `Coral.Stats.C63_var`
* `Coral.Stats.C63_covar`
* `Coral.Stats.C64_corr`
* `Coral.Stats.C65_gini`
* `Coral.Stats.C65_gini_short`
* `Coral.Stats.C66_gini`
* `Coral.Stats.C67_clear_violated`
* `Coral.Table.C68_roundtrip`
* `Coral.Table.C68_empty_file`
* `Coral.Table.C69_columns_violated`
* `Coral.Table.C69_columns_partial`
* `Coral.Table.C70_join`
* `Coral.Table.C71_get`
* `Coral.Table.C71_indexby`
* `Coral.Table.C72_addkey`
* `Coral.Table.C72_delkeys`
* `Coral.Table.C72_undo`
* `Coral.Vector.C73_inks_partial`
* `Coral.Vector.C73_violated_kinds`
* `Coral.Vector.C73_violated_same`
* `Coral.Vector.C74_strokes_partial`
* `Coral.Vector.C74_violated`
* `Coral.Vector.C75_box_partial`
* `Coral.Vector.C75_violated`
* `Coral.Vector.C76_polygon`
* `Coral.Vector.C76_polyline`
* `Coral.Vector.C77_fit`
* `Coral.Vector.C78_definitions`
* `Coral.Vector.C79_image`
* `Coral.Vector.C80_values`
* `Coral.Tqdm.C81_items_partial`
* `Coral.Tqdm.C81_trange`
* `Coral.Tqdm.C81_violated_all`
* `Coral.Tqdm.C81_violated`
* `Coral.Tqdm.C82_status`
* `Coral.Tqdm.C82_tqdm`
* `Coral.Tqdm.C83_interval`
* `Coral.Tqdm.C83_meter`
* `Coral.Shapefile.C84_saved_shapes_read_back`
* `Coral.Shapefile.C84_saving_works`
* `Coral.Shapefile.C84_polys_fit`
* `Coral.Shapefile.C85_random_access`
* `Coral.Shapefile.C86_index_after_saves_partial`
* `Coral.Shapefile.C86_violated_all`
* `Coral.Shapefile.C87_violated_elevations`
* `Coral.Shapefile.C87_multipatch_partial`
* `Coral.Shapefile.C87_length_matches_partial`
* `Coral.Shapefile.C87_violated`
* `Coral.Dbf.C88_records_back_partial`
* `Coral.Dbf.C88_violated_empty`
* `Coral.Dbf.C88_violated_blank`
* `Coral.Dbf.C89_pairs_partial`
* `Coral.Dbf.C89_violated`
* `Coral.Dbf.C90_negative_record_partial`
* `Coral.Dbf.C90_violated_first_record`
* `Coral.Shapefile.C90_indices_partial`
* `Coral.Shapefile.C90_negative_shape_partial`
* `Coral.Shapefile.C90_violated_first`
* `Coral.Shapefile.C91_poly`
* `Coral.Shapefile.C91_line`
* `Coral.Geo.C92_lines`
* `Coral.Geo.C92_polygons_partial`
* `Coral.Geo.C92_polygons_work`
* `Coral.Geo.C92_violated_writer`
* `Coral.Geo.C93_shoelace`
* `Coral.Geo.C93_reversed`
* `Coral.Geo.C93_translated`
* `Coral.Geo.C93_rotated`
* `Coral.Shapefile.C94_delete_partial`
* `Coral.Shapefile.C95_balanced_partial`
* `Coral.Shapefile.C96_measures_partial`
* `Coral.Shapefile.C96_violated`
* `Coral.Rg.C97_none`
* `Coral.Rg.C97_violated_written`
* `Coral.Rg.C97_read_back_partial`
* `Coral.Rg.C97_close_works`
* `Coral.Rg.C97_violated_no_segments`
* `Coral.Rg.C98_return`
* `Coral.Rg.C98_count`
* `Coral.Rg.C98_index_back`
* `Coral.Rg.C98_no_segments`
* `Coral.Rg.C98_space`
* `Coral.Rg.C99_reads_partial`
* `Coral.Dbf.C100_fields_back_partial`
* `Coral.Dbf.C100_violated_long`
* `Coral.Dbf.C100_violated_deletion`
* `Coral.Proj.C102_terminates`
* `Coral.Proj.C102_accurate`
* `Coral.Proj.C103_scale`
* `Coral.Proj.C103_standard`
* `Coral.Frame.C104_open`
* `Coral.Frame.C104_closed`
* `Coral.Frame.C104_raises`
* `Coral.Proj.C105_transverse`
* `Coral.Proj.C105_oblique`
* `Coral.Proj.C106_conformal`
* `Coral.Proj.C107_azimuthal`
* `Coral.Proj.C107_eckert`
* `Coral.Proj.C108_converges`
* `Coral.Proj.C108_back`
* `Coral.C109_weights_partial`
* `Coral.C109_share_partial`
* `Coral.C109_alpha_partial`
* `Coral.C109_violated`
* `Coral.C110_symmetric`
* `Coral.C110_raises`
* `Coral.C111_gray_partial`
* `Coral.C111_colour_partial`
* `Coral.C111_gray_violated`
* `Coral.C111_colour_violated`
* `Coral.C111_violated`
* `Coral.C112_gray_partial`
* `Coral.C112_colour_partial`
* `Coral.C112_closed_violated`
* `Coral.C112_fits_violated`
* `Coral.C113_convert_partial`
* `Coral.C113_works_partial`
* `Coral.C114_errors`
* `Coral.C114_same`
* `Coral.C114_distance`
* `Coral.Sph.C115_radius`
* `Coral.Sph.C115_bounds`
* `Coral.Sph.C115_symmetric`
* `Coral.Geoc.C116_centroid_partial`
* `Coral.Geoc.C116_reached_violated`
* `Coral.Geoc.C116_rectangle_violated`
* `Coral.Geoc.C116_flat_violated`
* `Coral.Geoc.C116_start`
* `Coral.Geoc.C116_far_side_violated`
* `Coral.Geoc.C116_endless_violated`
* `Coral.Table.C117_columns`
* `Coral.Table.C117_keys`
* `Coral.C118_above_partial`
* `Coral.C118_below_violated`
* `Coral.C119_gray`
* `Coral.C119_bwr`
* `Coral.C119_heat`
* `Coral.C119_height`
* `Coral.C119_hex`
* `Coral.Shapefile.C120_lookup_partial`
* `Coral.Shapefile.C120_lookup_violated`
* `Coral.Shapefile.C120_last_violated`
* `Coral.Dbf.C121_lookup_partial`
* `Coral.Dbf.C121_lookup_violated`
* `Coral.Shapefile.C122_shape_record_partial`
* `Coral.Shapefile.C122_violated_first`
* `Coral.Shapefile.C122_deleted`
* `Coral.Shapefile.C123_point_elevations`
* `Coral.Shapefile.C123_point_measures`
* `Coral.Shapefile.C124_violated`
* `Coral.Shapefile.C124_elevations_partial`
* `Coral.Shapefile.C125_violated_elevations`
* `Coral.Shapefile.C125_violated_measures`
* `Coral.Vector.C127_displaced_partial`
* `Coral.Vector.C127_exact_partial`
* `Coral.Vector.C127_violated`
* `Coral.Vector.C128_violated`
* `Coral.Vector.C129_circle_partial`
* `Coral.Vector.C129_violated`
* `Coral.Vector.C130_operands_partial`
* `Coral.Vector.C130_empty_partial`
* `Coral.Vector.C130_violated`
* `Coral.Vector.C131_path_partial`
* `Coral.Vector.C131_violated`
* `Coral.Vector.C132_names_partial`
* `Coral.Vector.C132_violated`
* `Coral.Vector.C133_alone_partial`
* `Coral.Vector.C133_violated`
* `Coral.Vector.C134_movie_partial`
* `Coral.Vector.C134_violated`
* `Coral.Vector.C135_rest_partial`
* `Coral.Vector.C135_violated`
* `Coral.Shapefile.C136_nulls_partial`
* `Coral.Shapefile.C136_violated`
* `Coral.Shapefile.C136_first_violated`
* `Coral.Shapefile.C137_bbox`
* `Coral.Shapefile.C137_header_box`
* `Coral.Shapefile.C139_reopened_partial`
* `Coral.Shapefile.C139_violated`
* `Coral.Shapefile.C139_measures_violated`
* `Coral.Dbf.C140_reopened_partial`
* `Coral.Dbf.C140_violated`
* `Coral.Shapefile.C141_part_violated`
* `Coral.Shapefile.C141_point_violated`
* `Coral.Shapefile.C142_part_violated`
* `Coral.Dbf.C143_values`
* `Coral.Dbf.C143_file_violated`
* `Coral.Tqdm.C146_spaced`
* `Coral.Tqdm.C146_every`
* `Coral.Tqdm.C146_at_most`
* `Coral.C148_unchanged_partial`
* `Coral.C148_violated`
* `Coral.Shapefile.C149_shapes_over`
* `Coral.Shapefile.C149_index_over`
* `Coral.Shapefile.C149_same_file_partial`
* `Coral.Shapefile.C149_longer_violated`
* `Coral.Shapefile.C150_without_index_partial`
* `Coral.Shapefile.C150_shapes_alone_violated`
* `Coral.Shapefile.C151_index_violated`
* `Coral.Dbf.C151_fields_violated`
* `Coral.Flt.C152_nearest_double_partial`
* `Coral.Flt.C152_nearest_double_violated`
* `Coral.Flt.C153_blend_double_between`
* `Coral.Flt.C153_blend_double_exact`
* `Coral.Flt.C153_blend_double_ends`
* `Coral.Flt.C153_blend_double_monotone_partial`
* `Coral.Flt.C153_blend_double_monotone_violated`
* `Coral.Flt.C154_boxes_of_floats_partial`
* `Coral.Flt.C154_true_iff_area`
* `Coral.Flt.C154_sides_do_not_vanish`
* `Coral.Flt.C154_boxes_of_floats_violated`
* `Coral.Flt.C155_centre_in_box`
* `Coral.Flt.C155_moved_points`
* `Coral.Flt.C155_scaled`
* `Coral.Flt.C155_there_and_back_partial`
* `Coral.Flt.C155_there_and_back_exact`
* `Coral.Flt.C155_there_and_back_violated`
* `Coral.Flt.C156_variance_not_negative`
* `Coral.Flt.C156_average_close`
* `Coral.Flt.C156_average_between_partial`
* `Coral.Flt.C156_average_between_violated`
* `Coral.Flt.C157_gradient_close`
* `Coral.Flt.C157_hex_digits`
* `Coral.Flt.C157_equal_stops_violated`
* `Coral.Flt.C158_index_in_range`
* `Coral.Flt.C158_monotone`
* `Coral.Flt.C158_error_bound`
* `Coral.Flt.C158_stable_partial`
* `Coral.Flt.C158_stable_violated`
* `Coral.Flt.C159_bounds`
* `Coral.Flt.C159_coordinate_partial`
* `Coral.Flt.C159_points_partial`
* `Coral.Flt.C159_eight_bytes_violated`
* `Coral.Flt.C159_narrow_violated`
* `Coral.Flt.C160_longitude_ends`
* `Coral.Flt.C160_longitude_exact`
* `Coral.Flt.C160_latitude_ends`
* `Coral.C161_shapefile_to_pf`
* `Coral.C161_in_range`
* `Coral.C161_converts`
* `Coral.Buffer.C162_shows`
* `Coral.Flt.C163_hours`
* `Coral.Flt.C163_cardinal`
* `Coral.Flt.C163_cardinal_exact`
* `Coral.Flt.C163_whole_degrees`
* `Coral.Flt.C164_ends`
* `Coral.Flt.C164_turns`
* `Coral.Proj.C165_exact`
* `Coral.Proj.C165_image`
* `Coral.Proj.C165_rounded`
* `Coral.Proj.C165_ends`
* `Coral.Proj.C165_endless_violated`
* `Coral.Flt.C166_weights`
* `Coral.Flt.C166_gray`
* `Coral.Flt.C167_cell`
* `Coral.Flt.C167_same_point`
* `Coral.Flt.C167_fit`
* `Coral.Flt.C167_fit_exact`
* `Coral.Flt.C168_range_partial`
* `Coral.Flt.C168_self_partial`
* `Coral.Flt.C168_symmetric`
* `Coral.Flt.C168_mirrored`
* `Coral.Flt.C168_range_violated`
* `Coral.Flt.C168_constant_partial`
* `Coral.Flt.C168_constant_violated`
* `Coral.Text.C169_bbox`
* `Coral.Text.C169_bbox_int`
* `Coral.Text.C169_bbox_unique`
* `Coral.Text.C169_buffer`
* `Coral.Text.C169_ivar_reads`
* `Coral.Text.C169_ivar_violated`
* `Coral.Text.C169_ivar_raises`
* `Coral.Text.C169_fvar_reads`
* `Coral.Text.C169_fvar_violated`
* `Coral.Text.C169_svar_violated`
* `Coral.Text.C169_named`
* `Coral.Shapefile.C170_saved_partial`
* `Coral.Dbf.C171_terminator`
* `Coral.Dbf.C171_deleted`
* `Coral.Dbf.C171_width`
* `Coral.Dbf.C171_records_partial`
* `Coral.Dbf.C171_records_violated`
* `Coral.Flt.C172_close_partial`
* `Coral.Flt.C172_radius`
* `Coral.Flt.C172_returns_partial`
* `Coral.Flt.C172_same_point`
* `Coral.Flt.C172_antipodes_violated`
* `Coral.Flt.C173_returns_partial`
* `Coral.Flt.C173_close_partial`
* `Coral.Flt.C173_centre`
* `Coral.Flt.C173_near_centre_violated`
* `Coral.Flt.C173_value_error_violated`
* `Coral.Flt.C174_close`
* `Coral.Flt.C174_orientation_partial`
* `Coral.Flt.C174_exact`
* `Coral.Flt.C174_orientation_violated`
* `Coral.Flt.C174_interface_partial`
* `Coral.Flt.C174_interface_violated`
* `Coral.Flt.C175_kakwani`
* `Coral.Flt.C175_deaton`
* `Coral.Flt.C175_kakwani_violated`
* `Coral.Flt.C175_deaton_violated`
* `Coral.Flt.C176_mapping`
* `Coral.Flt.C177_jaro`
* `Coral.Flt.C178_south`
* `Coral.Flt.C178_close`
* `Coral.Flt.C178_back`
* `Coral.Flt.C178_returns`
* `Coral.Flt.C179_close_partial`
* `Coral.Flt.C179_violated`
* `Coral.Flt.C180_bearing`
* `Coral.Flt.C181_returns`
* `Coral.Flt.C181_close`
* `Coral.Flt.C182_returns`
* `Coral.Flt.C182_refused`
* `Coral.Flt.C182_edge`
* `Coral.Flt.C182_close`
* `Coral.Flt.C182_back_returns`
* `Coral.Flt.C182_back_close`
* `Coral.Flt.C183_stereographic_partial`
* `Coral.Flt.C183_equal_area_partial`
* `Coral.Flt.C183_antipode_violated`
* `Coral.Flt.C183_value_error_violated`
* `Coral.Flt.C183_mirrored_violated`
* `Coral.Describe.C184_integer`
* `Coral.Describe.C184_real`
* `Coral.Describe.C184_text`
* `Coral.Describe.C184_kinds`
* `Coral.Describe.C184_reads`
* `Coral.Describe.C185_diameter`
* `Coral.Describe.C185_sides`
* `Coral.Describe.C185_scale`
* `Coral.Flt.C186_close_partial`
* `Coral.Flt.C186_anywhere`
* `Coral.Flt.C186_pole_violated`
* `Coral.Flt.C186_scale_partial`
* `Coral.Flt.C186_back_violated`
* `Coral.Flt.C186_back_partial`
* `Coral.Flt.C187_close_partial`
* `Coral.Flt.C187_edge_violated`
* `Coral.Flt.C187_back_partial`
* `Coral.Flt.C188_transverse_partial`
* `Coral.Flt.C188_oblique_partial`
* `Coral.Flt.C188_oblique_edge_violated`
* `Coral.Flt.C188_transverse_edge_violated`
* `Coral.Flt.C189_ends`
* `Coral.Flt.C189_far`
* `Coral.Flt.C189_close`
* `Coral.Flt.C190_south`
* `Coral.Flt.C190_close`
* `Coral.Flt.C190_back`
* `Coral.Flt.C191_sphere`
* `Coral.Flt.C191_ellipsoid`
* `Coral.Flt.C191_poles`
* `Coral.Flt.Eckert.C192_ends`
* `Coral.Flt.Eckert.C193_returns`
* `Coral.Flt.Eckert.C193_back`
* `Coral.C195_value`
* `Coral.C195_empty`
* `Coral.C195_exact`
* `Coral.Stats.C196_deviation`
* `Coral.Stats.C196_undefined`
* `Coral.Shapefile.C198_only_first`
* `Coral.Table.C199_readfile`
* `Coral.Table.C199_table`
* `Coral.Table.C199_missing`
* `Coral.Flt.C200_symmetric`
* `Coral.Flt.C200_grid_partial`
* `Coral.Flt.C200_line_partial`
* `Coral.Flt.C200_flat_partial`
* `Coral.Flt.C200_tiny_violated`
* `Coral.Flt.C200_line_violated`
* `Coral.Flt.C201_points`
* `Coral.Flt.C201_simplify_violated`
* `Coral.Flt.C201_monotone`
* `Coral.Flt.C201_grid`
* `Coral.Flt.C201_exact_partial`
* `Coral.Flt.C201_simplify_partial`
* `Coral.Dirs.C202_created`
* `Coral.Dirs.C202_blocked`
* `Coral.Dirs.C202_directory`
* `Coral.Dirs.C202_three`
* `Coral.Dbf.C203_records`
* `Coral.Dbf.C203_names`
* `Coral.Flt.C204_sides`
* `Coral.Flt.C204_zero`
* `Coral.Flt.C204_monotone`
* `Coral.Flt.C204_close`
* `Coral.Flt.C205_fit_violated`
* `Coral.Flt.C205_zero`
* `Coral.Flt.C205_close`
* `Coral.Flt.C205_fit_partial`

## Quot.sound, propext (95 theorems)

* `Coral.C01_bbox_of_points`
* `Coral.C01_bbox_order_independent`
* `Coral.C03_in_is_half_open`
* `Coral.C04_collide_comm`
* `Coral.C04_collide_iff_common_point`
* `Coral.C05_box_in_box_iff`
* `Coral.C05_box_in_box_points`
* `Coral.C05_box_not_in_itself`
* `Coral.C05_box_in_box_trans`
* `Coral.C05_other_item`
* `Coral.C06_add_sub`
* `Coral.C07_order_partial`
* `Coral.C07_exact_partial`
* `Coral.C08_equality_partial`
* `Coral.Frame.C29_duplicates`
* `Coral.Frame.C31_raises`
* `Coral.C34_ivar_size_minimal`
* `Coral.C35_ivar_codec_violated`
* `Coral.C36_svar_none`
* `Coral.C36_svar_too_long`
* `Coral.C37_row_missing`
* `Coral.C38_vlv_roundtrip`
* `Coral.C38_vlv_prefix_free`
* `Coral.C39_svlv_roundtrip`
* `Coral.C39_svlv_prefix_free`
* `Coral.Stats.C67_clear_partial`
* `Coral.Vector.C74_pen`
* `Coral.Vector.C76_empty`
* `Coral.Shapefile.C84_points_fit`
* `Coral.Dbf.C88_saving_works`
* `Coral.Dbf.C88_violated_unicode`
* `Coral.Shapefile.C91_poly_works`
* `Coral.Shapefile.C95_violated`
* `Coral.Shapefile.C95_violated_no_fields`
* `Coral.Rg.C97_violated`
* `Coral.Rg.C97_new_works`
* `Coral.Rg.C97_write_works`
* `Coral.Dbf.C100_violated_space`
* `Coral.Rg.C101_failed_write_partial`
* `Coral.Rg.C101_violated`
* `Coral.C110_error`
* `Coral.C112_number_violated`
* `Coral.C113_null_violated`
* `Coral.Shapefile.C120_iter`
* `Coral.Dbf.C121_iter`
* `Coral.Shapefile.C126_part_types_partial`
* `Coral.Shapefile.C126_line`
* `Coral.Shapefile.C126_violated`
* `Coral.Shapefile.C126_violated_empty`
* `Coral.Vector.C128_text_partial`
* `Coral.Vector.C128_line`
* `Coral.Shapefile.C138_zbox_partial`
* `Coral.Shapefile.C138_mbox_partial`
* `Coral.Shapefile.C138_mbox_violated`
* `Coral.Shapefile.C138_hidden_violated`
* `Coral.Shapefile.C138_editor_violated`
* `Coral.Shapefile.C141_whole_shapes_partial`
* `Coral.Shapefile.C142_new_point_partial`
* `Coral.Dbf.C143_values_editor`
* `Coral.Dbf.C143_keywords_violated`
* `Coral.Shapefile.C144_opens`
* `Coral.Shapefile.C144_separate_partial`
* `Coral.Shapefile.C144_plain_names_partial`
* `Coral.Shapefile.C144_violated`
* `Coral.Shapefile.C145_no_type_partial`
* `Coral.Shapefile.C145_other_files_partial`
* `Coral.Shapefile.C145_attributes_violated`
* `Coral.Shapefile.C145_shapes_violated`
* `Coral.Shapefile.C147_tuples_partial`
* `Coral.Shapefile.C147_lists_violated`
* `Coral.Shapefile.C147_rings_violated`
* `Coral.Shapefile.C147_lines_partial`
* `Coral.Shapefile.C147_same_shape_partial`
* `Coral.C148_gradient`
* `Coral.Shapefile.C149_index_partial`
* `Coral.Dbf.C149_records_over`
* `Coral.Dbf.C149_records_partial`
* `Coral.Shapefile.C150_objects_partial`
* `Coral.Shapefile.C151_load_partial`
* `Coral.Shapefile.C151_shapes_partial`
* `Coral.Shapefile.C170_contents_partial`
* `Coral.Shapefile.C170_new`
* `Coral.Shapefile.C170_missing_violated`
* `Coral.Shapefile.C170_object_violated`
* `Coral.Shapefile.C170_emptied_violated`
* `Coral.Shapefile.C170_other_file_violated`
* `Coral.PF.C194_from_end`
* `Coral.Dbf.C197_zero_partial`
* `Coral.Shapefile.C198_first`
* `Coral.Shapefile.C198_anywhere`
* `Coral.Table.C199_addkey`
* `Coral.Table.C199_join`
* `Coral.Dbf.C203_length`
* `Coral.Dbf.C203_cut`
* `Coral.Dbf.C203_missing`

## propext (10 theorems)

* `Coral.C01_bbox_of_no_points`
* `Coral.C08_equality_violated`
* `Coral.C09_buffer_error_keeps_state`
* `Coral.C51_background_violated`
* `Coral.Shapefile.C90_violated_empty`
* `Coral.Shapefile.C94_violated`
* `Coral.Shapefile.C123_point`
* `Coral.Dbf.C143_keywords_partial`
* `Coral.Shapefile.C150_by_name_violated`
* `Coral.Dbf.C197_blank_violated`


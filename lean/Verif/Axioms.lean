import Verif.Props.AALine
import Verif.Props.Abbrev
import Verif.Props.Aliasing
import Verif.Props.BBox
import Verif.Props.BufferStr
import Verif.Props.Centroid
import Verif.Props.CentroidLoop
import Verif.Props.Columns
import Verif.Props.Convert
import Verif.Props.ConvertFiles
import Verif.Props.Convex
import Verif.Props.Coord
import Verif.Props.Corners
import Verif.Props.Dbf
import Verif.Props.DbfEncoded
import Verif.Props.DbfForeign
import Verif.Props.Describe
import Verif.Props.Directories
import Verif.Props.Drawing
import Verif.Props.EditDbf
import Verif.Props.Editing
import Verif.Props.EditorOpen
import Verif.Props.EditorOps
import Verif.Props.Export
import Verif.Props.Floats
import Verif.Props.FloatsB
import Verif.Props.FloatsC
import Verif.Props.FloatsD
import Verif.Props.FloatsE
import Verif.Props.FloatsF
import Verif.Props.FloatsG
import Verif.Props.FloatsH
import Verif.Props.FloatsHypot
import Verif.Props.FloatsI
import Verif.Props.FloatsJ
import Verif.Props.FloatsK
import Verif.Props.FloatsM
import Verif.Props.FloatsN
import Verif.Props.FloatsO
import Verif.Props.FloatsP
import Verif.Props.FloatsPage
import Verif.Props.FloatsQ
import Verif.Props.FloatsR
import Verif.Props.FloatsS
import Verif.Props.FloatsT
import Verif.Props.FloatsU
import Verif.Props.FloatsV
import Verif.Props.FloatsW
import Verif.Props.FloatsX
import Verif.Props.FloatsY
import Verif.Props.FloatsZ
import Verif.Props.Frame
import Verif.Props.Geo
import Verif.Props.Gradient
import Verif.Props.GradientOut
import Verif.Props.Grid
import Verif.Props.Iter
import Verif.Props.Names
import Verif.Props.PF
import Verif.Props.PartTypes
import Verif.Props.Pprint
import Verif.Props.Proj
import Verif.Props.ProjLocal
import Verif.Props.ProjLoop
import Verif.Props.Raster
import Verif.Props.Record
import Verif.Props.Repr
import Verif.Props.Rg
import Verif.Props.SaveTo
import Verif.Props.ShapeZ
import Verif.Props.Shapefile
import Verif.Props.Sphere
import Verif.Props.Stats
import Verif.Props.Streams
import Verif.Props.Table
import Verif.Props.Throttle
import Verif.Props.Tqdm
import Verif.Props.Transpositions
import Verif.Props.Vector
import Verif.Props.Vlv
import Lean.Util.CollectAxioms
import Lean.Elab.Command

/-!
# Axiom audit

The build fails if any declaration of this development depends on an axiom other than `propext`,
`Classical.choice` and `Quot.sound`, or if a theorem named in `MANIFEST.json` does not exist.
-/
open Lean Elab Command

/-- Depth-first walk over every constant reachable from `c`; returns the axioms met. -/
partial def Coral.walk (env : Environment) (c : Name) : StateM (NameSet × NameSet) Unit := do
  if (← get).1.contains c then return
  modify fun s => (s.1.insert c, s.2)
  let expr (e : Expr) : StateM (NameSet × NameSet) Unit := e.getUsedConstants.forM (Coral.walk env)
  match env.find? c with
  | some (.axiomInfo v) => modify (fun s => (s.1, s.2.insert c)); expr v.type
  | some (.defnInfo v) => expr v.type; expr v.value
  | some (.thmInfo v) => expr v.type; expr v.value
  | some (.opaqueInfo v) => expr v.type; expr v.value
  | some (.quotInfo _) => pure ()
  | some (.ctorInfo v) => expr v.type
  | some (.recInfo v) => expr v.type
  | some (.inductInfo v) => expr v.type; v.ctors.forM (Coral.walk env)
  | none => pure ()

/-- Walk from every declaration made in a `Verif.*` module. -/
def Coral.auditAxioms : CommandElabM Unit := do
  let env ← getEnv
  let names := env.header.moduleNames.zip env.header.moduleData |>.foldl (init := #[]) fun acc (m, d) =>
    if (`Verif).isPrefixOf m then acc ++ d.constNames else acc
  let (_, _, axs) := (names.forM (Coral.walk env)).run ({}, {})
  let bad := axs.toList.filter fun a => !(a == ``propext || a == ``Classical.choice || a == ``Quot.sound)
  unless bad.isEmpty do
    throwError "unexpected axioms: {bad}"
  logInfo m!"{names.size} declarations audited; axioms used: {axs.toList}"

run_cmd Coral.auditAxioms

example := @Coral.C01_bbox_of_points
example := @Coral.C01_bbox_of_no_points
example := @Coral.C01_bbox_order_independent
example := @Coral.C02_union_partial
example := @Coral.C02_union_exact_partial
example := @Coral.C02_union_laws_partial
example := @Coral.C02_union_violated
example := @Coral.C03_intersection
example := @Coral.C03_in_is_half_open
example := @Coral.C03_disjoint_empty
example := @Coral.C04_collide_comm
example := @Coral.C04_collide_iff_common_point
example := @Coral.C04_collide_iff_intersection
example := @Coral.C05_box_in_box_iff
example := @Coral.C05_box_in_box_points
example := @Coral.C05_box_not_in_itself
example := @Coral.C05_box_in_box_trans
example := @Coral.C05_other_item
example := @Coral.C06_add_sub
example := @Coral.C06_translate
example := @Coral.C06_scale
example := @Coral.C06_scale_compose
example := @Coral.C06_mul_div
example := @Coral.C07_order_partial
example := @Coral.C07_exact_partial
example := @Coral.C07_order_violated
example := @Coral.C08_equality_violated
example := @Coral.C08_equality_partial
example := @Coral.C09_buffer_is_bounded_queue
example := @Coral.C09_buffer_error_keeps_state
example := @Coral.C09_buffer_capacity
example := @Coral.C10_nearest_closest
example := @Coral.C10_nearest_ties_away
example := @Coral.C10_nearest_laws
example := @Coral.C11_open_simplify_subsequence
example := @Coral.C11_open_simplify_short
example := @Coral.C12_open_simplify_turns_partial
example := @Coral.C12_open_simplify_violated
example := @Coral.C13_closed_simplify_points_partial
example := @Coral.C13_closed_simplify_order_partial
example := @Coral.C13_closed_simplify_violated
example := @Coral.C14_collinear_iff_line
example := @Coral.C14_collinear_invariant
example := @Coral.Sph.C15_terminates
example := @Coral.Sph.C15_value
example := @Coral.Sph.C15_unchanged
example := @Coral.Sph.C16_arc
example := @Coral.Sph.C16_symm
example := @Coral.Sph.C16_range
example := @Coral.Sph.C16_zero
example := @Coral.Sph.C16_triangle
example := @Coral.Sph.C17_inverse
example := @Coral.Sph.C17_exact
example := @Coral.Sph.C18_half
example := @Coral.Sph.C18_symm
example := @Coral.C19_cardinal_nearest_wind
example := @Coral.C19_hours
example := @Coral.C19_periodic
example := @Coral.Proj.C20_back
example := @Coral.Proj.C20_forth
example := @Coral.Proj.C20_south
example := @Coral.Proj.C21_sphere
example := @Coral.Proj.C21_ellipsoid
example := @Coral.Proj.C22_back
example := @Coral.Proj.C22_accepts
example := @Coral.Proj.C23_back
example := @Coral.Proj.C23_default
example := @Coral.Proj.C24_distance_partial
example := @Coral.Proj.C24_violated
example := @Coral.Proj.C25_near_partial
example := @Coral.Proj.C25_violated_far
example := @Coral.Proj.C25_violated_border
example := @Coral.Proj.C25_violated_centre
example := @Coral.Proj.C26_exact
example := @Coral.Proj.C27_exact
example := @Coral.Proj.C27_image
example := @Coral.Proj.C28_near_partial
example := @Coral.Proj.C28_violated_far
example := @Coral.Proj.C28_violated_border
example := @Coral.Frame.C29_cache_partial
example := @Coral.Frame.C29_duplicates
example := @Coral.Frame.C29_violated
example := @Coral.Frame.C30_sphere_partial
example := @Coral.Frame.C30_sphere_new_partial
example := @Coral.Frame.C30_violated_ellipsoid
example := @Coral.Frame.C30_violated_conic
example := @Coral.Frame.C31_cell
example := @Coral.Frame.C31_raises
example := @Coral.C32_fvar_error_bound
example := @Coral.C32_fvar_monotone
example := @Coral.C32_fvar_stable
example := @Coral.C33_fvar_domain_partial
example := @Coral.C33_fvar_domain_violated
example := @Coral.C33_fvar_domain_exact
example := @Coral.C34_ivar_index_value
example := @Coral.C34_ivar_size_minimal
example := @Coral.C35_ivar_codec_violated
example := @Coral.C35_ivar_codec_partial
example := @Coral.C36_svar_roundtrip
example := @Coral.C36_svar_none
example := @Coral.C36_svar_too_long
example := @Coral.C37_row_roundtrip
example := @Coral.C37_row_encodes
example := @Coral.C37_row_missing
example := @Coral.C38_vlv_roundtrip
example := @Coral.C38_vlv_top_bits
example := @Coral.C38_vlv_prefix_free
example := @Coral.C38_vlv_minimal
example := @Coral.C38_vlv_truncated
example := @Coral.C39_svlv_roundtrip
example := @Coral.C39_svlv_prefix_free
example := @Coral.C40_index_roundtrip
example := @Coral.C40_boxes
example := @Coral.C41_read_back
example := @Coral.C41_write_succeeds
example := @Coral.C42_get_first
example := @Coral.C43_write_terminates_violated
example := @Coral.C43_write_terminates_partial
example := @Coral.C43_wrapping_partial
example := @Coral.C44_truncated_open_violated
example := @Coral.C44_truncated_open_partial
example := @Coral.C45_bw_history
example := @Coral.C45_bw_write
example := @Coral.C46_gray_history
example := @Coral.C46_gray_opaque
example := @Coral.C46_colour_history
example := @Coral.C46_colour_opaque
example := @Coral.C47_blend_between
example := @Coral.C47_blend_ends
example := @Coral.C47_blend_monotone
example := @Coral.C48_line
example := @Coral.C49_stroke_bw
example := @Coral.C49_stroke_gray
example := @Coral.C49_stroke_colour
example := @Coral.C49_reachable
example := @Coral.C50_fill_convex_partial
example := @Coral.C50_fill_all_convex_partial
example := @Coral.C50_fill_violated
example := @Coral.C50_fill_partial
example := @Coral.C50_fill_rectangle_partial
example := @Coral.C51_background_violated
example := @Coral.C51_background_bw_partial
example := @Coral.C51_background_gray
example := @Coral.C51_background_colour
example := @Coral.C52_save_bw
example := @Coral.C52_save_gray
example := @Coral.C52_save_colour
example := @Coral.C53_get_prescribed
example := @Coral.C53_lerp_between
example := @Coral.C53_get_unique
example := @Coral.C54_get_hex
example := @Coral.C55_damlev
example := @Coral.C56_damlev
example := @Coral.C57_triangle_violated
example := @Coral.C57_triangle_partial
example := @Coral.C57_chain_partial
example := @Coral.C58_jaro_violated
example := @Coral.C58_stars_violated
example := @Coral.C58_jaro_partial
example := @Coral.C59_mapping
example := @Coral.C60_ascii
example := @Coral.C61_abbreviations_violated
example := @Coral.C61_abbreviations_partial
example := @Coral.C61_distinct_partial
example := @Coral.C61_violated_short
example := @Coral.C61_gives_up_partial
example := @Coral.C61_initials_partial
example := @Coral.Stats.C62_extremes
example := @Coral.Stats.C62_transparent
example := @Coral.Stats.C62_info
example := @Coral.Stats.C63_var
example := @Coral.Stats.C63_covar
example := @Coral.Stats.C64_corr
example := @Coral.Stats.C65_gini
example := @Coral.Stats.C65_gini_short
example := @Coral.Stats.C66_gini
example := @Coral.Stats.C67_clear_violated
example := @Coral.Stats.C67_clear_partial
example := @Coral.Table.C68_roundtrip
example := @Coral.Table.C68_empty_file
example := @Coral.Table.C69_columns_violated
example := @Coral.Table.C69_columns_partial
example := @Coral.Table.C70_join
example := @Coral.Table.C71_get
example := @Coral.Table.C71_indexby
example := @Coral.Table.C72_addkey
example := @Coral.Table.C72_delkeys
example := @Coral.Table.C72_undo
example := @Coral.Vector.C73_inks_partial
example := @Coral.Vector.C73_violated_kinds
example := @Coral.Vector.C73_violated_same
example := @Coral.Vector.C74_strokes_partial
example := @Coral.Vector.C74_pen
example := @Coral.Vector.C74_violated
example := @Coral.Vector.C75_box_partial
example := @Coral.Vector.C75_violated
example := @Coral.Vector.C76_polygon
example := @Coral.Vector.C76_polyline
example := @Coral.Vector.C76_empty
example := @Coral.Vector.C77_fit
example := @Coral.Vector.C78_definitions
example := @Coral.Vector.C79_image
example := @Coral.Vector.C80_values
example := @Coral.Tqdm.C81_items_partial
example := @Coral.Tqdm.C81_trange
example := @Coral.Tqdm.C81_violated_all
example := @Coral.Tqdm.C81_violated
example := @Coral.Tqdm.C82_status
example := @Coral.Tqdm.C82_tqdm
example := @Coral.Tqdm.C83_interval
example := @Coral.Tqdm.C83_meter
example := @Coral.Shapefile.C84_saved_shapes_read_back
example := @Coral.Shapefile.C84_saving_works
example := @Coral.Shapefile.C84_points_fit
example := @Coral.Shapefile.C84_polys_fit
example := @Coral.Shapefile.C85_random_access
example := @Coral.Shapefile.C86_index_after_saves_partial
example := @Coral.Shapefile.C86_violated_all
example := @Coral.Shapefile.C87_violated_elevations
example := @Coral.Shapefile.C87_multipatch_partial
example := @Coral.Shapefile.C87_length_matches_partial
example := @Coral.Shapefile.C87_violated
example := @Coral.Dbf.C88_records_back_partial
example := @Coral.Dbf.C88_saving_works
example := @Coral.Dbf.C88_violated_empty
example := @Coral.Dbf.C88_violated_blank
example := @Coral.Dbf.C88_violated_unicode
example := @Coral.Dbf.C89_pairs_partial
example := @Coral.Dbf.C89_violated
example := @Coral.Dbf.C90_negative_record_partial
example := @Coral.Dbf.C90_violated_first_record
example := @Coral.Shapefile.C90_indices_partial
example := @Coral.Shapefile.C90_negative_shape_partial
example := @Coral.Shapefile.C90_violated_first
example := @Coral.Shapefile.C90_violated_empty
example := @Coral.Shapefile.C91_poly
example := @Coral.Shapefile.C91_poly_works
example := @Coral.Shapefile.C91_line
example := @Coral.Geo.C92_lines
example := @Coral.Geo.C92_polygons_partial
example := @Coral.Geo.C92_polygons_work
example := @Coral.Geo.C92_violated_writer
example := @Coral.Geo.C93_shoelace
example := @Coral.Geo.C93_reversed
example := @Coral.Geo.C93_translated
example := @Coral.Geo.C93_rotated
example := @Coral.Shapefile.C94_delete_partial
example := @Coral.Shapefile.C94_violated
example := @Coral.Shapefile.C95_violated
example := @Coral.Shapefile.C95_violated_no_fields
example := @Coral.Shapefile.C95_balanced_partial
example := @Coral.Shapefile.C96_measures_partial
example := @Coral.Shapefile.C96_violated
example := @Coral.Rg.C97_none
example := @Coral.Rg.C97_violated
example := @Coral.Rg.C97_violated_written
example := @Coral.Rg.C97_read_back_partial
example := @Coral.Rg.C97_new_works
example := @Coral.Rg.C97_write_works
example := @Coral.Rg.C97_close_works
example := @Coral.Rg.C97_violated_no_segments
example := @Coral.Rg.C98_return
example := @Coral.Rg.C98_count
example := @Coral.Rg.C98_index_back
example := @Coral.Rg.C98_no_segments
example := @Coral.Rg.C98_space
example := @Coral.Rg.C99_reads_partial
example := @Coral.Dbf.C100_fields_back_partial
example := @Coral.Dbf.C100_violated_long
example := @Coral.Dbf.C100_violated_deletion
example := @Coral.Dbf.C100_violated_space
example := @Coral.Rg.C101_failed_write_partial
example := @Coral.Rg.C101_violated
example := @Coral.Proj.C102_terminates
example := @Coral.Proj.C102_accurate
example := @Coral.Proj.C103_scale
example := @Coral.Proj.C103_standard
example := @Coral.Frame.C104_open
example := @Coral.Frame.C104_closed
example := @Coral.Frame.C104_raises
example := @Coral.Proj.C105_transverse
example := @Coral.Proj.C105_oblique
example := @Coral.Proj.C106_conformal
example := @Coral.Proj.C107_azimuthal
example := @Coral.Proj.C107_eckert
example := @Coral.Proj.C108_converges
example := @Coral.Proj.C108_back
example := @Coral.C109_weights_partial
example := @Coral.C109_share_partial
example := @Coral.C109_alpha_partial
example := @Coral.C109_violated
example := @Coral.C110_symmetric
example := @Coral.C110_raises
example := @Coral.C110_error
example := @Coral.C111_gray_partial
example := @Coral.C111_colour_partial
example := @Coral.C111_gray_violated
example := @Coral.C111_colour_violated
example := @Coral.C111_violated
example := @Coral.C112_gray_partial
example := @Coral.C112_colour_partial
example := @Coral.C112_number_violated
example := @Coral.C112_closed_violated
example := @Coral.C112_fits_violated
example := @Coral.C113_convert_partial
example := @Coral.C113_works_partial
example := @Coral.C113_null_violated
example := @Coral.C114_errors
example := @Coral.C114_same
example := @Coral.C114_distance
example := @Coral.Sph.C115_radius
example := @Coral.Sph.C115_bounds
example := @Coral.Sph.C115_symmetric
example := @Coral.Geoc.C116_centroid_partial
example := @Coral.Geoc.C116_reached_violated
example := @Coral.Geoc.C116_rectangle_violated
example := @Coral.Geoc.C116_flat_violated
example := @Coral.Geoc.C116_start
example := @Coral.Geoc.C116_far_side_violated
example := @Coral.Geoc.C116_endless_violated
example := @Coral.Table.C117_columns
example := @Coral.Table.C117_keys
example := @Coral.C118_above_partial
example := @Coral.C118_below_violated
example := @Coral.C119_gray
example := @Coral.C119_bwr
example := @Coral.C119_heat
example := @Coral.C119_height
example := @Coral.C119_hex
example := @Coral.Shapefile.C120_iter
example := @Coral.Shapefile.C120_lookup_partial
example := @Coral.Shapefile.C120_lookup_violated
example := @Coral.Shapefile.C120_last_violated
example := @Coral.Dbf.C121_iter
example := @Coral.Dbf.C121_lookup_partial
example := @Coral.Dbf.C121_lookup_violated
example := @Coral.Shapefile.C122_shape_record_partial
example := @Coral.Shapefile.C122_violated_first
example := @Coral.Shapefile.C122_deleted
example := @Coral.Shapefile.C123_point_elevations
example := @Coral.Shapefile.C123_point_measures
example := @Coral.Shapefile.C123_point
example := @Coral.Shapefile.C124_violated
example := @Coral.Shapefile.C124_elevations_partial
example := @Coral.Shapefile.C125_violated_elevations
example := @Coral.Shapefile.C125_violated_measures
example := @Coral.Shapefile.C126_part_types_partial
example := @Coral.Shapefile.C126_line
example := @Coral.Shapefile.C126_violated
example := @Coral.Shapefile.C126_violated_empty
example := @Coral.Vector.C127_displaced_partial
example := @Coral.Vector.C127_exact_partial
example := @Coral.Vector.C127_violated
example := @Coral.Vector.C128_text_partial
example := @Coral.Vector.C128_line
example := @Coral.Vector.C128_violated
example := @Coral.Vector.C129_circle_partial
example := @Coral.Vector.C129_violated
example := @Coral.Vector.C130_operands_partial
example := @Coral.Vector.C130_empty_partial
example := @Coral.Vector.C130_violated
example := @Coral.Vector.C131_path_partial
example := @Coral.Vector.C131_violated
example := @Coral.Vector.C132_names_partial
example := @Coral.Vector.C132_violated
example := @Coral.Vector.C133_alone_partial
example := @Coral.Vector.C133_violated
example := @Coral.Vector.C134_movie_partial
example := @Coral.Vector.C134_violated
example := @Coral.Vector.C135_rest_partial
example := @Coral.Vector.C135_violated
example := @Coral.Shapefile.C136_nulls_partial
example := @Coral.Shapefile.C136_violated
example := @Coral.Shapefile.C136_first_violated
example := @Coral.Shapefile.C137_bbox
example := @Coral.Shapefile.C137_header_box
example := @Coral.Shapefile.C138_zbox_partial
example := @Coral.Shapefile.C138_mbox_partial
example := @Coral.Shapefile.C138_mbox_violated
example := @Coral.Shapefile.C138_hidden_violated
example := @Coral.Shapefile.C138_editor_violated
example := @Coral.Shapefile.C139_reopened_partial
example := @Coral.Shapefile.C139_violated
example := @Coral.Shapefile.C139_measures_violated
example := @Coral.Dbf.C140_reopened_partial
example := @Coral.Dbf.C140_violated
example := @Coral.Shapefile.C141_whole_shapes_partial
example := @Coral.Shapefile.C141_part_violated
example := @Coral.Shapefile.C141_point_violated
example := @Coral.Shapefile.C142_part_violated
example := @Coral.Shapefile.C142_new_point_partial
example := @Coral.Dbf.C143_values
example := @Coral.Dbf.C143_values_editor
example := @Coral.Dbf.C143_keywords_partial
example := @Coral.Dbf.C143_keywords_violated
example := @Coral.Dbf.C143_file_violated
example := @Coral.Shapefile.C144_opens
example := @Coral.Shapefile.C144_separate_partial
example := @Coral.Shapefile.C144_plain_names_partial
example := @Coral.Shapefile.C144_violated
example := @Coral.Shapefile.C145_no_type_partial
example := @Coral.Shapefile.C145_other_files_partial
example := @Coral.Shapefile.C145_attributes_violated
example := @Coral.Shapefile.C145_shapes_violated
example := @Coral.Tqdm.C146_spaced
example := @Coral.Tqdm.C146_every
example := @Coral.Tqdm.C146_at_most
example := @Coral.Shapefile.C147_tuples_partial
example := @Coral.Shapefile.C147_lists_violated
example := @Coral.Shapefile.C147_rings_violated
example := @Coral.Shapefile.C147_lines_partial
example := @Coral.Shapefile.C147_same_shape_partial
example := @Coral.C148_unchanged_partial
example := @Coral.C148_gradient
example := @Coral.C148_violated
example := @Coral.Shapefile.C149_shapes_over
example := @Coral.Shapefile.C149_index_over
example := @Coral.Shapefile.C149_same_file_partial
example := @Coral.Shapefile.C149_longer_violated
example := @Coral.Shapefile.C149_index_partial
example := @Coral.Dbf.C149_records_over
example := @Coral.Dbf.C149_records_partial
example := @Coral.Shapefile.C150_by_name_violated
example := @Coral.Shapefile.C150_objects_partial
example := @Coral.Shapefile.C150_without_index_partial
example := @Coral.Shapefile.C150_shapes_alone_violated
example := @Coral.Shapefile.C151_load_partial
example := @Coral.Shapefile.C151_shapes_partial
example := @Coral.Shapefile.C151_index_violated
example := @Coral.Dbf.C151_fields_violated
example := @Coral.Flt.C152_nearest_double_partial
example := @Coral.Flt.C152_nearest_double_violated
example := @Coral.Flt.C153_blend_double_between
example := @Coral.Flt.C153_blend_double_exact
example := @Coral.Flt.C153_blend_double_ends
example := @Coral.Flt.C153_blend_double_monotone_partial
example := @Coral.Flt.C153_blend_double_monotone_violated
example := @Coral.Flt.C154_boxes_of_floats_partial
example := @Coral.Flt.C154_true_iff_area
example := @Coral.Flt.C154_sides_do_not_vanish
example := @Coral.Flt.C154_boxes_of_floats_violated
example := @Coral.Flt.C155_centre_in_box
example := @Coral.Flt.C155_moved_points
example := @Coral.Flt.C155_scaled
example := @Coral.Flt.C155_there_and_back_partial
example := @Coral.Flt.C155_there_and_back_exact
example := @Coral.Flt.C155_there_and_back_violated
example := @Coral.Flt.C156_variance_not_negative
example := @Coral.Flt.C156_average_close
example := @Coral.Flt.C156_average_between_partial
example := @Coral.Flt.C156_average_between_violated
example := @Coral.Flt.C157_gradient_close
example := @Coral.Flt.C157_hex_digits
example := @Coral.Flt.C157_equal_stops_violated
example := @Coral.Flt.C158_index_in_range
example := @Coral.Flt.C158_monotone
example := @Coral.Flt.C158_error_bound
example := @Coral.Flt.C158_stable_partial
example := @Coral.Flt.C158_stable_violated
example := @Coral.Flt.C159_bounds
example := @Coral.Flt.C159_coordinate_partial
example := @Coral.Flt.C159_points_partial
example := @Coral.Flt.C159_eight_bytes_violated
example := @Coral.Flt.C159_narrow_violated
example := @Coral.Flt.C160_longitude_ends
example := @Coral.Flt.C160_longitude_exact
example := @Coral.Flt.C160_latitude_ends
example := @Coral.C161_shapefile_to_pf
example := @Coral.C161_in_range
example := @Coral.C161_converts
example := @Coral.Buffer.C162_shows
example := @Coral.Flt.C163_hours
example := @Coral.Flt.C163_cardinal
example := @Coral.Flt.C163_cardinal_exact
example := @Coral.Flt.C163_whole_degrees
example := @Coral.Flt.C164_ends
example := @Coral.Flt.C164_turns
example := @Coral.Proj.C165_exact
example := @Coral.Proj.C165_image
example := @Coral.Proj.C165_rounded
example := @Coral.Proj.C165_ends
example := @Coral.Proj.C165_endless_violated
example := @Coral.Flt.C166_weights
example := @Coral.Flt.C166_gray
example := @Coral.Flt.C167_cell
example := @Coral.Flt.C167_same_point
example := @Coral.Flt.C167_fit
example := @Coral.Flt.C167_fit_exact
example := @Coral.Flt.C168_range_partial
example := @Coral.Flt.C168_self_partial
example := @Coral.Flt.C168_symmetric
example := @Coral.Flt.C168_mirrored
example := @Coral.Flt.C168_range_violated
example := @Coral.Flt.C168_constant_partial
example := @Coral.Flt.C168_constant_violated
example := @Coral.Text.C169_bbox
example := @Coral.Text.C169_bbox_int
example := @Coral.Text.C169_bbox_unique
example := @Coral.Text.C169_buffer
example := @Coral.Text.C169_ivar_reads
example := @Coral.Text.C169_ivar_violated
example := @Coral.Text.C169_ivar_raises
example := @Coral.Text.C169_fvar_reads
example := @Coral.Text.C169_fvar_violated
example := @Coral.Text.C169_svar_violated
example := @Coral.Text.C169_named
example := @Coral.Shapefile.C170_contents_partial
example := @Coral.Shapefile.C170_new
example := @Coral.Shapefile.C170_missing_violated
example := @Coral.Shapefile.C170_object_violated
example := @Coral.Shapefile.C170_emptied_violated
example := @Coral.Shapefile.C170_other_file_violated
example := @Coral.Shapefile.C170_saved_partial
example := @Coral.Dbf.C171_terminator
example := @Coral.Dbf.C171_deleted
example := @Coral.Dbf.C171_width
example := @Coral.Dbf.C171_records_partial
example := @Coral.Dbf.C171_records_violated
example := @Coral.Flt.C172_close_partial
example := @Coral.Flt.C172_radius
example := @Coral.Flt.C172_returns_partial
example := @Coral.Flt.C172_same_point
example := @Coral.Flt.C172_antipodes_violated
example := @Coral.Flt.C173_returns_partial
example := @Coral.Flt.C173_close_partial
example := @Coral.Flt.C173_centre
example := @Coral.Flt.C173_near_centre_violated
example := @Coral.Flt.C173_value_error_violated
example := @Coral.Flt.C174_close
example := @Coral.Flt.C174_orientation_partial
example := @Coral.Flt.C174_exact
example := @Coral.Flt.C174_orientation_violated
example := @Coral.Flt.C174_interface_partial
example := @Coral.Flt.C174_interface_violated
example := @Coral.Flt.C175_kakwani
example := @Coral.Flt.C175_deaton
example := @Coral.Flt.C175_kakwani_violated
example := @Coral.Flt.C175_deaton_violated
example := @Coral.Flt.C176_mapping
example := @Coral.Flt.C177_jaro
example := @Coral.Flt.C178_south
example := @Coral.Flt.C178_close
example := @Coral.Flt.C178_back
example := @Coral.Flt.C178_returns
example := @Coral.Flt.C179_close_partial
example := @Coral.Flt.C179_violated
example := @Coral.Flt.C180_bearing
example := @Coral.Flt.C181_returns
example := @Coral.Flt.C181_close
example := @Coral.Flt.C182_returns
example := @Coral.Flt.C182_refused
example := @Coral.Flt.C182_edge
example := @Coral.Flt.C182_close
example := @Coral.Flt.C182_back_returns
example := @Coral.Flt.C182_back_close
example := @Coral.Flt.C183_stereographic_partial
example := @Coral.Flt.C183_equal_area_partial
example := @Coral.Flt.C183_antipode_violated
example := @Coral.Flt.C183_value_error_violated
example := @Coral.Flt.C183_mirrored_violated
example := @Coral.Describe.C184_integer
example := @Coral.Describe.C184_real
example := @Coral.Describe.C184_text
example := @Coral.Describe.C184_kinds
example := @Coral.Describe.C184_reads
example := @Coral.Describe.C185_diameter
example := @Coral.Describe.C185_sides
example := @Coral.Describe.C185_scale
example := @Coral.Flt.C186_close_partial
example := @Coral.Flt.C186_anywhere
example := @Coral.Flt.C186_pole_violated
example := @Coral.Flt.C186_scale_partial
example := @Coral.Flt.C186_back_violated
example := @Coral.Flt.C186_back_partial
example := @Coral.Flt.C187_close_partial
example := @Coral.Flt.C187_edge_violated
example := @Coral.Flt.C187_back_partial
example := @Coral.Flt.C188_transverse_partial
example := @Coral.Flt.C188_oblique_partial
example := @Coral.Flt.C188_oblique_edge_violated
example := @Coral.Flt.C188_transverse_edge_violated
example := @Coral.Flt.C189_ends
example := @Coral.Flt.C189_far
example := @Coral.Flt.C189_close
example := @Coral.Flt.C190_south
example := @Coral.Flt.C190_close
example := @Coral.Flt.C190_back
example := @Coral.Flt.C191_sphere
example := @Coral.Flt.C191_ellipsoid
example := @Coral.Flt.C191_poles
example := @Coral.Flt.Eckert.C192_ends
example := @Coral.Flt.Eckert.C193_returns
example := @Coral.Flt.Eckert.C193_back
example := @Coral.PF.C194_from_end
example := @Coral.C195_value
example := @Coral.C195_empty
example := @Coral.C195_exact
example := @Coral.Stats.C196_deviation
example := @Coral.Stats.C196_undefined
example := @Coral.Dbf.C197_blank_violated
example := @Coral.Dbf.C197_zero_partial
example := @Coral.Shapefile.C198_first
example := @Coral.Shapefile.C198_anywhere
example := @Coral.Shapefile.C198_only_first
example := @Coral.Table.C199_readfile
example := @Coral.Table.C199_table
example := @Coral.Table.C199_missing
example := @Coral.Table.C199_addkey
example := @Coral.Table.C199_join
example := @Coral.Flt.C200_symmetric
example := @Coral.Flt.C200_grid_partial
example := @Coral.Flt.C200_line_partial
example := @Coral.Flt.C200_flat_partial
example := @Coral.Flt.C200_tiny_violated
example := @Coral.Flt.C200_line_violated
example := @Coral.Flt.C201_points
example := @Coral.Flt.C201_simplify_violated
example := @Coral.Flt.C201_monotone
example := @Coral.Flt.C201_grid
example := @Coral.Flt.C201_exact_partial
example := @Coral.Flt.C201_simplify_partial
example := @Coral.Dirs.C202_created
example := @Coral.Dirs.C202_blocked
example := @Coral.Dirs.C202_directory
example := @Coral.Dirs.C202_three
example := @Coral.Dbf.C203_length
example := @Coral.Dbf.C203_records
example := @Coral.Dbf.C203_cut
example := @Coral.Dbf.C203_missing
example := @Coral.Dbf.C203_names
example := @Coral.Flt.C204_sides
example := @Coral.Flt.C204_zero
example := @Coral.Flt.C204_monotone
example := @Coral.Flt.C204_close
example := @Coral.Flt.C205_fit_violated
example := @Coral.Flt.C205_zero
example := @Coral.Flt.C205_close
example := @Coral.Flt.C205_fit_partial

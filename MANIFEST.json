{
 "claims": [
  {
   "property": "C01",
   "status": "proved",
   "theorems": [
    "Verif.Tid.C01_quadkey_roundtrip",
    "Verif.Tid.C01_quadkey_string_roundtrip",
    "Verif.Tid.C01_zoom0_exception",
    "Verif.Tid.C01_64_digits_fail"
   ],
   "note": "both directions; zoom-0 exception and the 64-digit limit are theorems too"
  },
  {
   "property": "C02",
   "status": "proved",
   "theorems": [
    "Verif.Tid.C02_quadkey_shape",
    "Verif.Tid.C02_children_keys",
    "Verif.Tid.C02_quadkey_injective",
    "Verif.Tid.C02_descendant_iff_prefix"
   ],
   "note": ""
  },
  {
   "property": "C03",
   "status": "proved",
   "theorems": [
    "Verif.Tid.C03_children_distinct_in_grid",
    "Verif.Tid.C03_unique_parent",
    "Verif.Tid.C03_children_disjoint"
   ],
   "note": ""
  },
  {
   "property": "C04",
   "status": "proved",
   "theorems": [
    "Verif.Tid.C04_positive_size",
    "Verif.Tid.C04_children_edges",
    "Verif.Tid.C04_children_partition_box"
   ],
   "note": "exact arithmetic over the reals"
  },
  {
   "property": "C05",
   "status": "proved",
   "theorems": [
    "Verif.Tid.C05_tile_iff_in_bounds",
    "Verif.Tid.C05_square_in_grid",
    "Verif.Tid.C05_polygonTile_corners"
   ],
   "note": "exact arithmetic over the reals"
  },
  {
   "property": "C06",
   "status": "proved",
   "theorems": [
    "Verif.Tid.C06_center",
    "Verif.Tid.C06_parent_of_child",
    "Verif.Tid.C06_child_of_parent",
    "Verif.Tid.C06_world_parent_zoom"
   ],
   "note": "exact arithmetic over the reals"
  },
  {
   "property": "C07",
   "status": "proved",
   "theorems": [
    "Verif.Tid.C07_strtile_tilestr",
    "Verif.Tid.C07_tileFromString_tilestr",
    "Verif.Tid.C07_tileFromString_tilestrFile",
    "Verif.Tid.C07_tileFromString_negative_misread",
    "Verif.Tid.C07_toString_fields",
    "Verif.Tid.C07_toString_injective"
   ],
   "note": "the misreading of negative coordinates is proved as C07_tileFromString_negative_misread"
  },
  {
   "property": "C08",
   "status": "proved",
   "theorems": [
    "Verif.Tid.C08_isEqual_iff"
   ],
   "note": ""
  },
  {
   "property": "C09",
   "status": "proved",
   "theorems": [
    "Verif.Cover.C09_nodup_zoom_vertices",
    "Verif.Cover.C09_order_free",
    "Verif.Cover.C09_empty_panics",
    "Verif.Cover.C09_sound",
    "Verif.Cover.C09_row_complete",
    "Verif.Cover.C09_row_example",
    "Verif.Cover.C09_column_complete",
    "Verif.Cover.C09_misses_corner",
    "Verif.Cover.C09_polar_gap",
    "Verif.Cover.C09_long_complete",
    "Verif.Cover.C09_long_example"
   ],
   "note": "exact arithmetic over the reals, all map orders; full coverage of the segment is proved along rows (and columns under a proviso) and is false in general (C09_misses_corner, C09_polar_gap)"
  },
  {
   "property": "C10",
   "status": "proved",
   "theorems": [
    "Verif.Cover.C10_closed",
    "Verif.Cover.C10_open_false"
   ],
   "note": "closed rings; C10_open_false shows open lists fail"
  },
  {
   "property": "C11",
   "status": "proved",
   "theorems": [
    "Verif.Cover.C11_panics_iff",
    "Verif.Cover.C11_closed_or_open",
    "Verif.Cover.C11_rotation",
    "Verif.Cover.C11_reversal",
    "Verif.Cover.C11_ring_order",
    "Verif.Cover.C11_outside_box",
    "Verif.Cover.C11_rectangle",
    "Verif.Cover.C11_chord",
    "Verif.Cover.C11_triangle",
    "Verif.Cover.C11_fan",
    "Verif.Cover.C11_example"
   ],
   "note": "exact arithmetic over the reals"
  },
  {
   "property": "C12",
   "status": "proved",
   "theorems": [
    "Verif.Cover.C12_exact",
    "Verif.Cover.C12_vertices",
    "Verif.Cover.C12_in_vertex_range",
    "Verif.Cover.C12_no_rings",
    "Verif.Cover.C12_misses_tile"
   ],
   "note": "exact arithmetic over the reals; C12_misses_tile shows what a user would expect beyond it is false"
  },
  {
   "property": "C13",
   "status": "proved",
   "theorems": [
    "Verif.Cover.C13_multi_line",
    "Verif.Cover.C13_multi_polygon",
    "Verif.Cover.C13_multi_panics",
    "Verif.Cover.C13_single",
    "Verif.Cover.C13_multiPoint_panics",
    "Verif.Cover.C13_example"
   ],
   "note": "the MultiPoint defect is proved (C13_multiPoint_panics)"
  },
  {
   "property": "C14",
   "status": "proved",
   "theorems": [
    "Verif.Sprite.C14_fit_disjoint"
   ],
   "note": ""
  },
  {
   "property": "C15",
   "status": "proved",
   "theorems": [
    "Verif.Sprite.C15_generateSprite",
    "Verif.Sprite.C15_blocks_collected",
    "Verif.Sprite.C15_scaleTo_nonneg",
    "Verif.Sprite.C15_duplicate_names_break"
   ],
   "note": ""
  },
  {
   "property": "C16",
   "status": "proved",
   "theorems": [
    "Verif.StyleFile.C16_styleFile_roundtrip",
    "Verif.StyleFile.C16_ratio_zero_lost",
    "Verif.StyleFile.C16_at_sign_cut",
    "Verif.StyleFile.C16_refused",
    "Verif.StyleFile.C16_accepted",
    "Verif.StyleFile.C16_normal",
    "Verif.StyleFile.C16_text",
    "Verif.StyleFile.C16_parse_example"
   ],
   "note": ""
  },
  {
   "property": "C17",
   "status": "proved",
   "theorems": [
    "Verif.Font.C17_count",
    "Verif.Font.C17_first_font",
    "Verif.Font.C17_order",
    "Verif.Font.C17_mono"
   ],
   "note": ""
  },
  {
   "property": "C18",
   "status": "proved",
   "theorems": [
    "Verif.Font.C18_edt1d",
    "Verif.Font.C18_edt",
    "Verif.Font.C18_sdf",
    "Verif.Font.C18_edge",
    "Verif.Font.C18_binary",
    "Verif.Font.C18_tiny_images_panic"
   ],
   "note": "exact real arithmetic, sides from 2 to 10^10 (10^9 for the black-and-white form); smaller images panic (C18_tiny_images_panic)"
  },
  {
   "property": "C19",
   "status": "proved",
   "theorems": [
    "Verif.Font.C19_glyph",
    "Verif.Font.C19_bitmap",
    "Verif.Font.C19_edge",
    "Verif.Font.C19_glyphs",
    "Verif.Font.C19_ids"
   ],
   "note": "buffer at least 1, range within int32, drawings up to 10^8 pixels a side"
  },
  {
   "property": "C20",
   "status": "proved",
   "theorems": [
    "Verif.Raster.C20_border_clamps",
    "Verif.Raster.C20_inside_unchanged",
    "Verif.Raster.C20_odd_is_nil",
    "Verif.Raster.C20_never_panics",
    "Verif.Raster.C20_get",
    "Verif.Raster.C20_getData_columns",
    "Verif.Raster.C20_encodings"
   ],
   "note": "odd pixel counts are refused with nil (proved); GetData is the transpose of the input (proved)"
  },
  {
   "property": "C21",
   "status": "proved",
   "theorems": [
    "Verif.Raster.C21_precision",
    "Verif.Raster.C21_largest_code",
    "Verif.Raster.C21_pixel_roundtrip",
    "Verif.Raster.C21_float_pixel_roundtrip_false",
    "Verif.Raster.C21_float_precision_false",
    "Verif.Raster.C21_float_precision",
    "Verif.Raster.C21_float_pixel_within_one"
   ],
   "note": "exact arithmetic and float64, both as stated"
  },
  {
   "property": "C22",
   "status": "proved",
   "theorems": [
    "Verif.Raster.C22_within_one_metre",
    "Verif.Raster.C22_precise_iff",
    "Verif.Raster.C22_false",
    "Verif.Raster.C22_false_whole_metre",
    "Verif.Raster.C22_float_within_one_metre",
    "Verif.Raster.C22_float_wraps_at_top"
   ],
   "note": "exact arithmetic and float64; the user's expectation is refuted by C22_false, C22_false_whole_metre"
  },
  {
   "property": "C23",
   "status": "proved",
   "theorems": [
    "Verif.Raster.C23_same_size_ignored",
    "Verif.Raster.C23_false",
    "Verif.Raster.C23_inside_unchanged",
    "Verif.Raster.C23_loop_copies"
   ],
   "note": "the user's expectation is refuted by C23_same_size_ignored, C23_false"
  },
  {
   "property": "C24",
   "status": "proved",
   "theorems": [
    "Verif.Mvt.C24_zigzag_roundtrip",
    "Verif.Mvt.C24_zigzag_word",
    "Verif.Mvt.C24_zigzag_bijective",
    "Verif.Mvt.C24_command",
    "Verif.Mvt.C24_command_limit"
   ],
   "note": ""
  },
  {
   "property": "C25",
   "status": "proved",
   "theorems": [
    "Verif.Mvt.C25_any_int32",
    "Verif.Mvt.C25_roundtrip_iff",
    "Verif.Mvt.C25_lines_roundtrip",
    "Verif.Mvt.C25_line_roundtrip",
    "Verif.Mvt.C25_line_exact",
    "Verif.Mvt.C25_empty_line_panics"
   ],
   "note": ""
  },
  {
   "property": "C26",
   "status": "proved",
   "theorems": [
    "Verif.Mvt.C26_point_roundtrip",
    "Verif.Mvt.C26_corner_point_lost",
    "Verif.Mvt.C26_multipoint_not_read",
    "Verif.Mvt.C26_multipoint_never_roundtrips",
    "Verif.Mvt.C26_roundtrip_iff",
    "Verif.Mvt.C26_standard_multipoint_is_error"
   ],
   "note": "the expectation that every point list round-trips is refuted; C26_roundtrip_iff is the exact condition"
  },
  {
   "property": "C27",
   "status": "proved",
   "theorems": [
    "Verif.Mvt.C27_polygon_general",
    "Verif.Mvt.C27_polygon_oriented",
    "Verif.Mvt.C27_polygon_inside",
    "Verif.Mvt.C27_overflow",
    "Verif.Mvt.C27_polygon_roundtrip",
    "Verif.Mvt.C27_flat_outer_ring_merges"
   ],
   "note": ""
  },
  {
   "property": "C28",
   "status": "proved",
   "theorems": [
    "Verif.Mvt.C28_writers_opposite",
    "Verif.Mvt.C28_holes_become_polygons",
    "Verif.Mvt.C28_multipolygon_regrouped",
    "Verif.Mvt.C28_two_polygons_merge",
    "Verif.Mvt.C28_simple_polygon"
   ],
   "note": "the expectation of one orientation is refuted by C28_writers_opposite; the consequences are proved in general"
  },
  {
   "property": "C29",
   "status": "proved",
   "theorems": [
    "Verif.Mvt.C29_tags_resolve",
    "Verif.Mvt.C29_shared_value_same",
    "Verif.Mvt.C29_tables_shared",
    "Verif.Mvt.C29_panics_iff_unhashable"
   ],
   "note": ""
  },
  {
   "property": "C30",
   "status": "proved",
   "theorems": [
    "Verif.Mvt.C30_tile_roundtrip",
    "Verif.Mvt.C30_layerMap",
    "Verif.Mvt.C30_layer_roundtrip",
    "Verif.Mvt.C30_no_geometry_reads_tile_start"
   ],
   "note": "any number of layers, AddFeature with any geometry type or none; features without geometry read the start of the tile (C30_no_geometry_reads_tile_start is an example). go-pbf behaviour is assumed (Model/Pbf.lean)"
  },
  {
   "property": "C31",
   "status": "proved",
   "theorems": [
    "Verif.Mvt.C31_readTile_matches_lazy",
    "Verif.Mvt.C31_written_tiles",
    "Verif.Mvt.C31_leaks_id",
    "Verif.Mvt.C31_readTile_any_writer",
    "Verif.Mvt.C31_readRawTile_any_writer",
    "Verif.Mvt.C31_raw_needs_geometry_last",
    "Verif.Mvt.C31_complete_feature_inherits_nothing"
   ],
   "note": "exact for tiles of any writer with closed layers (ReadRawTile: geometry last, with a witness why); C31_leaks_id is the witness of the inherited id"
  },
  {
   "property": "C32",
   "status": "proved",
   "theorems": [
    "Verif.Mvt.C32_layer_results_independent",
    "Verif.Mvt.C32_geometry_results_independent",
    "Verif.Mvt.C32_iteration_visits_each_once"
   ],
   "note": ""
  },
  {
   "property": "C33",
   "status": "proved",
   "theorems": [
    "Verif.Mvt.C33_render_roundtrip",
    "Verif.Mvt.C33_lk_loses_layers",
    "Verif.Mvt.C33_render_any_tile"
   ],
   "note": "closed layers (C66 shows why); false for LK (proved)"
  },
  {
   "property": "C34",
   "status": "proved",
   "theorems": [
    "Verif.Mvt.C34_layer_hangs_iff",
    "Verif.Mvt.C34_newTile_hangs_iff",
    "Verif.Mvt.C34_readTile_hangs_iff",
    "Verif.Mvt.C34_feature_hangs_iff",
    "Verif.Mvt.C34_feature_returns",
    "Verif.Mvt.C34_truncated_hangs",
    "Verif.Mvt.C34_readTile_unknown_field_hangs",
    "Verif.Mvt.C34_feature_past_end_hangs",
    "Verif.Mvt.C34_unknown_field_hangs",
    "Verif.Mvt.C34_negative_length_hangs",
    "Verif.Mvt.C34_packed_terminates",
    "Verif.Mvt.C34_loadGeometry_terminates"
   ],
   "note": "hang characterised exactly when no length on the way is negative; witnesses for unknown fields, truncated tiles, negative lengths"
  },
  {
   "property": "C35",
   "status": "proved",
   "theorems": [
    "Verif.Library.C35_default",
    "Verif.MvtProj.C35_nearest",
    "Verif.MvtProj.C35_inside",
    "Verif.MvtProj.C35_clamped",
    "Verif.MvtProj.C35_clamp_exact",
    "Verif.MvtProj.C35_roundtrip",
    "Verif.MvtProj.C35_roundtrip_inside",
    "Verif.MvtProj.C35_back",
    "Verif.MvtProj.C35_off_map",
    "Verif.MvtProj.C35_example",
    "Verif.MvtProj.C35_mercator"
   ],
   "note": "exact arithmetic over the reals; out-of-range int32 conversions are left open"
  },
  {
   "property": "C36",
   "status": "proved",
   "theorems": [
    "Verif.Clip.C36_in_slab",
    "Verif.Clip.C36_clip_in_slab",
    "Verif.Clip.C36_clipTile_in_box"
   ],
   "note": "one axis for any arithmetic; both axes over exact arithmetic (an ordered field)"
  },
  {
   "property": "C37",
   "status": "proved",
   "theorems": [
    "Verif.Clip.C37_line_exact",
    "Verif.Clip.C37_lines_exact"
   ],
   "note": "exact arithmetic over any ordered field"
  },
  {
   "property": "C38",
   "status": "proved",
   "theorems": [
    "Verif.Clip.C38_one_closed_ring",
    "Verif.Clip.C38_outside_disappears",
    "Verif.Clip.C38_ring_exact",
    "Verif.Clip.C38_inside_unchanged"
   ],
   "note": "closedness and disappearance for any arithmetic; exactness inside the slab over an ordered field"
  },
  {
   "property": "C39",
   "status": "proved",
   "theorems": [
    "Verif.Clip.C39_multiline_dropped",
    "Verif.Clip.C39_polygon_outside_panics",
    "Verif.Clip.C39_line_exact_or_dropped",
    "Verif.Clip.C39_line_in_range_exact",
    "Verif.Clip.C39_line_reentry_dropped",
    "Verif.Clip.C39_empty_features_for_missed_tiles"
   ],
   "note": "lines exactly (kept or dropped); multi-lines dropped, outside polygons panic, missed tiles get empty features"
  },
  {
   "property": "C40",
   "status": "proved",
   "theorems": [
    "Verif.Clip.C40_points_by_tile",
    "Verif.Clip.C40_no_point_lost",
    "Verif.Clip.C40_label_wrong",
    "Verif.Clip.C40_label_right",
    "Verif.Clip.C40_about_tile",
    "Verif.Clip.C40_point_about_tile"
   ],
   "note": "distribution for every tile function and map order; labels right for one tile, wrong for several"
  },
  {
   "property": "C41",
   "status": "proved",
   "theorems": [
    "Verif.Reduce.C41_simplify",
    "Verif.Reduce.C41_distance_exact"
   ],
   "note": ""
  },
  {
   "property": "C42",
   "status": "proved",
   "theorems": [
    "Verif.Reduce.C42_first_of_each_cell",
    "Verif.Reduce.C42_at_most_one_per_cell",
    "Verif.Reduce.C42_disabled",
    "Verif.Reduce.C42_kept_feature",
    "Verif.Reduce.C42_mean"
   ],
   "note": ""
  },
  {
   "property": "C43",
   "status": "proved",
   "theorems": [
    "Verif.Mbtiles.C43_read_last_store",
    "Verif.Mbtiles.C43_read_absent",
    "Verif.Mbtiles.C43_unique_rows",
    "Verif.Mbtiles.C43_store_result",
    "Verif.Mbtiles.C43_nil_tile_reads_as_absent"
   ],
   "note": "SQLite and database/sql behaviour assumed as stated in Model/Mbtiles.lean"
  },
  {
   "property": "C44",
   "status": "proved",
   "theorems": [
    "Verif.Mbtiles.C44_roundtrip",
    "Verif.Mbtiles.C44_coordinate_error",
    "Verif.Mbtiles.C44_second_roundtrip_stable",
    "Verif.Mbtiles.C44_zoom_fallback",
    "Verif.Mbtiles.C44_bad_component_masked",
    "Verif.Mbtiles.C44_five_components_panic"
   ],
   "note": "every row order; version and attribution are lost (part of the theorem); the JSON of layer data is a parameter here and the real one in C95_metadata_table"
  },
  {
   "property": "C45",
   "status": "proved",
   "theorems": [
    "Verif.Mbtiles.C45_crash_states",
    "Verif.Mbtiles.C45_false",
    "Verif.Mbtiles.C45_complete_run",
    "Verif.Mbtiles.C45_success_without_commit",
    "Verif.Mbtiles.C45_reports",
    "Verif.Mbtiles.C45_error_states",
    "Verif.Mbtiles.C45_unknown_format",
    "Verif.Mbtiles.C45_update_entries"
   ],
   "note": "atomicity is refuted by C45_false"
  },
  {
   "property": "C46",
   "status": "proved",
   "theorems": [
    "Verif.Mbtiles.C46_order_independent",
    "Verif.Mbtiles.C46_exact_prefixes",
    "Verif.Mbtiles.C46_terrain",
    "Verif.Mbtiles.C46_webp_only_192",
    "Verif.Mbtiles.C46_mesh_misread",
    "Verif.Mbtiles.C46_open_empty_fails",
    "Verif.Mbtiles.C46_terrain_numbers"
   ],
   "note": "every map order and byte string"
  },
  {
   "property": "C47",
   "status": "proved",
   "theorems": [
    "Verif.Mbtiles.C47_format_roundtrip",
    "Verif.Mbtiles.C47_unknown_names",
    "Verif.Mbtiles.C47_bad_format_panics",
    "Verif.Mbtiles.C47_layer_type",
    "Verif.Mbtiles.C47_names_disagree",
    "Verif.Mbtiles.C47_wrong_names",
    "Verif.Mbtiles.C47_foreign_names_misread",
    "Verif.Mbtiles.C47_content_type",
    "Verif.Mbtiles.C47_layer_type_json",
    "Verif.Mbtiles.C47_overlay",
    "Verif.Mbtiles.C47_names",
    "Verif.Mbtiles.C47_media_types"
   ],
   "note": "agreement of the two name tables is refuted; exact set proved"
  },
  {
   "property": "C48",
   "status": "proved",
   "theorems": [
    "Verif.Client.C48_all_pages",
    "Verif.Client.C48_only_pages",
    "Verif.Client.C48_error",
    "Verif.Client.C48_authentication",
    "Verif.Client.C48_token",
    "Verif.Client.C48_endless"
   ],
   "note": "the transport and url.Parse are parameters (url.Parse: C102); net/url's query codec is modelled"
  },
  {
   "property": "C49",
   "status": "proved",
   "theorems": [
    "Verif.Client.C49_next",
    "Verif.Client.C49_no_next",
    "Verif.Client.C49_panic",
    "Verif.Client.C49_examples"
   ],
   "note": ""
  },
  {
   "property": "C50",
   "status": "proved",
   "theorems": [
    "Verif.Style.C50_float64_applies",
    "Verif.Style.C50_below_first",
    "Verif.Style.C50_at_stop",
    "Verif.Style.C50_beyond_last",
    "Verif.Style.C50_between",
    "Verif.Style.C50_within",
    "Verif.Style.C50_monotone",
    "Verif.Style.C50_monotone_segment",
    "Verif.Style.C50_decreasing_wrong",
    "Verif.Style.C50_degenerate"
   ],
   "note": "proved for every rounding that is monotone and exact on small values (covers float64); decreasing values: witness proved"
  },
  {
   "property": "C51",
   "status": "proved",
   "theorems": [
    "Verif.Style.C51_below_first",
    "Verif.Style.C51_beyond_last",
    "Verif.Style.C51_between",
    "Verif.Style.C51_between_value",
    "Verif.Style.C51_at_stop",
    "Verif.Style.C51_hsl_panics"
   ],
   "note": "any rounding satisfying Arith.Ok; hsl stops panic (proved)"
  },
  {
   "property": "C52",
   "status": "proved",
   "theorems": [
    "Verif.Library.C52_utf8",
    "Verif.Style.C52_hex6",
    "Verif.Style.C52_hex3",
    "Verif.Style.C52_other_error",
    "Verif.Style.C52_all_bytes"
   ],
   "note": ""
  },
  {
   "property": "C53",
   "status": "proved",
   "theorems": [
    "Verif.Style.C53_rgb",
    "Verif.Style.C53_rgba",
    "Verif.Style.C53_alpha_missing",
    "Verif.Style.C53_alpha",
    "Verif.Style.C53_alpha_ends",
    "Verif.Style.C53_otherwise_error",
    "Verif.Style.C53_no_panic"
   ],
   "note": ""
  },
  {
   "property": "C54",
   "status": "proved",
   "theorems": [
    "Verif.Style.C54_validate",
    "Verif.Style.C54_absent_panics"
   ],
   "note": "complete case analysis"
  },
  {
   "property": "C55",
   "status": "proved",
   "theorems": [
    "Verif.Style.C55_new",
    "Verif.Style.C55_lookup"
   ],
   "note": ""
  },
  {
   "property": "C56",
   "status": "proved",
   "theorems": [
    "Verif.Style.C56_parse",
    "Verif.Style.C56_nonstring_operand",
    "Verif.Style.C56_operands_dropped",
    "Verif.Style.C56_panics",
    "Verif.Style.C56_out_of_range",
    "Verif.Style.C56_container",
    "Verif.Style.C56_operator_kind",
    "Verif.Style.C56_into",
    "Verif.Style.C56_into_example"
   ],
   "note": "exact characterisation of successful parses; dropped operands and panics proved"
  },
  {
   "property": "C57",
   "status": "proved",
   "theorems": [
    "Verif.Style.C57_exact_applies",
    "Verif.Style.C57_float64_applies",
    "Verif.Style.C57_hue_defined",
    "Verif.Style.C57_hsl_range",
    "Verif.Style.C57_hsv_range",
    "Verif.Style.C57_rgba_range",
    "Verif.Style.C57_back_defined",
    "Verif.Style.C57_grey_roundtrip",
    "Verif.Style.C57_pure_hue_roundtrip",
    "Verif.Style.C57_roundtrip_false",
    "Verif.Style.C57_new",
    "Verif.Style.C57_new_of_rgb"
   ],
   "note": "ranges for exact and float64 arithmetic; greys for any rounding, pure hues exact; refutation for other colours by witness"
  },
  {
   "property": "C58",
   "status": "proved",
   "theorems": [
    "Verif.TileJson.C58_types",
    "Verif.TileJson.C58_fields",
    "Verif.TileJson.C58_properties",
    "Verif.TileJson.C58_unexported_panics",
    "Verif.TileJson.C58_names",
    "Verif.TileJson.C58_pointers",
    "Verif.TileJson.C58_example"
   ],
   "note": "reflect is modelled by kinds, tags and exportedness; reflectx follows all pointers (assumed)"
  },
  {
   "property": "C59",
   "status": "proved",
   "theorems": [
    "Verif.Sprite.C59_sheet_pixels"
   ],
   "note": ""
  },
  {
   "property": "C60",
   "status": "proved",
   "theorems": [
    "Verif.Clip.C60_result_in_tile"
   ],
   "note": "exact arithmetic over the reals; end zoom up to 60"
  },
  {
   "property": "C61",
   "status": "proved",
   "theorems": [
    "Verif.Clip.C61_first_zoom",
    "Verif.Clip.C61_tiny_feature_wrong_tile",
    "Verif.Clip.C61_world_example"
   ],
   "note": "exact characterisation; wrong tile for tiny features proved"
  },
  {
   "property": "C62",
   "status": "proved",
   "theorems": [
    "Verif.Style.C62_hsl",
    "Verif.Style.C62_hsla"
   ],
   "note": "float64 rounding of the percentages and of alpha"
  },
  {
   "property": "C63",
   "status": "proved",
   "theorems": [
    "Verif.Style.C63_background",
    "Verif.Style.C63_background_layer",
    "Verif.Style.C63_version"
   ],
   "note": "background layer without paint: panic proved"
  },
  {
   "property": "C64",
   "status": "proved",
   "theorems": [
    "Verif.Font.C64_draw",
    "Verif.Font.C64_small_buffer_panics",
    "Verif.Font.C64_smooth"
   ],
   "note": "smooth step in exact arithmetic"
  },
  {
   "property": "C65",
   "status": "proved",
   "theorems": [
    "Verif.Client.C65_paths",
    "Verif.Client.C65_tilejson",
    "Verif.Client.C65_id_not_confined",
    "Verif.Client.C65_styles_query",
    "Verif.Client.C65_tilesets_query",
    "Verif.Library.C65_unreserved",
    "Verif.Library.C65_unhex"
   ],
   "note": "path.Join and the query codec are modelled from the Go library"
  },
  {
   "property": "C66",
   "status": "proved",
   "theorems": [
    "Verif.Mvt.C66_newTile_reads_any_writer",
    "Verif.Mvt.C66_layerMap",
    "Verif.Mvt.C66_trailing_feature_adds_garbage",
    "Verif.Mvt.C66_sint_misread"
   ],
   "note": ""
  },
  {
   "property": "C67",
   "status": "proved",
   "theorems": [
    "Verif.Raster.C67_encode",
    "Verif.Raster.C67_encode_load",
    "Verif.Raster.C67_mapbox_heights",
    "Verif.Raster.C67_terrarium_heights",
    "Verif.Raster.C67_terrarium_heights_float",
    "Verif.Raster.C67_save_load",
    "Verif.Raster.C67_load",
    "Verif.Raster.C67_transparent_height_lost",
    "Verif.Raster.C67_offset_raster_lost",
    "Verif.Raster.C67_load_pixels"
   ],
   "note": ""
  },
  {
   "property": "C68",
   "status": "proved",
   "theorems": [
    "Verif.Clip.C68_ring",
    "Verif.Clip.C68_tile",
    "Verif.Clip.C68_tile_covered",
    "Verif.Clip.C68_open_ring",
    "Verif.Clip.C68_children",
    "Verif.Clip.C68_children_tile",
    "Verif.Clip.C68_triangle_becomes_square",
    "Verif.Clip.C68_feature",
    "Verif.Clip.C68_feature_example",
    "Verif.Clip.C68_feature_on_map"
   ],
   "note": ""
  },
  {
   "property": "C69",
   "status": "proved",
   "theorems": [
    "Verif.Style.C69_accepts",
    "Verif.Style.C69_meaning",
    "Verif.Style.C69_number_value",
    "Verif.Style.C69_colour_value",
    "Verif.Style.C69_rejects",
    "Verif.Style.C69_light_colour",
    "Verif.Style.C69_repeated",
    "Verif.Style.C69_repeated_paint",
    "Verif.Style.C69_repeated_layers",
    "Verif.Style.C69_parse",
    "Verif.Style.C69_background"
   ],
   "note": ""
  },
  {
   "property": "C70",
   "status": "proved",
   "theorems": [
    "Verif.Mbtiles.C70_absent",
    "Verif.Mbtiles.C70_no_keys",
    "Verif.Mbtiles.C70_merge",
    "Verif.Mbtiles.C70_failures",
    "Verif.Mbtiles.C70_detect"
   ],
   "note": ""
  },
  {
   "property": "C71",
   "status": "proved",
   "theorems": [
    "Verif.Mbtiles.C71_read_last_store",
    "Verif.Mbtiles.C71_read_absent",
    "Verif.Mbtiles.C71_create_once",
    "Verif.Mbtiles.C71_unused_file_is_dead",
    "Verif.Mbtiles.C71_interrupted_creation_ruins_file",
    "Verif.Mbtiles.C71_missing_table",
    "Verif.Mbtiles.C71_create",
    "Verif.Mbtiles.C71_create_metadata",
    "Verif.Mbtiles.C71_reopen",
    "Verif.Mbtiles.C71_format_not_kept",
    "Verif.Mbtiles.C71_foreign_file_overwrite_lost",
    "Verif.Mbtiles.C71_store_result",
    "Verif.Mbtiles.C71_update_no_table"
   ],
   "note": ""
  },
  {
   "property": "C72",
   "status": "proved",
   "theorems": [
    "Verif.MvtLL.C72_readTile",
    "Verif.MvtLL.C72_readRawTile",
    "Verif.MvtLL.C72_bulk_example",
    "Verif.MvtLL.C72_position",
    "Verif.MvtLL.C72_near",
    "Verif.MvtLL.C72_inside",
    "Verif.MvtLL.C72_writes",
    "Verif.MvtLL.C72_tile_roundtrip",
    "Verif.MvtLL.C72_any_position",
    "Verif.MvtLL.C72_clamped_cells",
    "Verif.MvtLL.C72_clamped_good",
    "Verif.MvtLL.C72_first_cell",
    "Verif.MvtLL.C72_first_cell_lost",
    "Verif.MvtLL.C72_multipoint_lost",
    "Verif.MvtLL.C72_empty_panics",
    "Verif.MvtLL.C72_example",
    "Verif.MvtLL.C72_default"
   ],
   "note": "exact arithmetic over the reals; out-of-range int32 conversions are left open; the lost geometries are proved as theorems of their own"
  },
  {
   "property": "C73",
   "status": "proved",
   "theorems": [
    "Verif.MvtLL.C73_convert",
    "Verif.MvtLL.C73_load_scaled"
   ],
   "note": "pbf.Round of the external package go-pbf is a parameter"
  },
  {
   "property": "C74",
   "status": "proved",
   "theorems": [
    "Verif.Cover.C74_great_circle",
    "Verif.Cover.C74_metric",
    "Verif.Cover.C74_meridian",
    "Verif.Cover.C74_createMap",
    "Verif.Tid.C74_geohash",
    "Verif.Tid.C74_geohash_iff"
   ],
   "note": "exact arithmetic over the reals; EarthRadius at its initial value"
  },
  {
   "property": "C75",
   "status": "proved",
   "theorems": [
    "Verif.Tid.Float.C75_tile",
    "Verif.Tid.Float.C75_bounds",
    "Verif.Tid.Float.C75_tile_center",
    "Verif.Tid.Float.C75_parent_of_child",
    "Verif.Tid.Float.C75_shared_edges",
    "Verif.Tid.Float.C75_neighbours",
    "Verif.Tid.Float.C75_positive_size",
    "Verif.Tid.Float.C75_accurate_exists",
    "Verif.Tid.Float.C75_geohash",
    "Verif.Tid.Float.C75_polygon",
    "Verif.Tid.Float.C75_polygon_rectangle",
    "Verif.Tid.Float.C75_polygon_neighbours"
   ],
   "note": "float64 rounding of every operation (no fused multiply-add, no subnormals); the accuracy of package math is a hypothesis (Spec/TileFloat), shown satisfiable"
  },
  {
   "property": "C76",
   "status": "proved",
   "theorems": [
    "Verif.MvtProj.Float.C76_near",
    "Verif.MvtProj.Float.C76_clamped",
    "Verif.MvtProj.Float.C76_inside",
    "Verif.MvtProj.Float.C76_read",
    "Verif.MvtProj.Float.C76_roundtrip",
    "Verif.MvtProj.Float.C76_back",
    "Verif.MvtProj.Float.C76_accurate_exists",
    "Verif.MvtProj.Float.C76_mercator"
   ],
   "note": "float64 rounding of every operation (no fused multiply-add, no subnormals); the accuracy of package math is a hypothesis (Spec/MvtFloat), shown satisfiable; latitudes beyond 85.5 degrees not covered"
  },
  {
   "property": "C77",
   "status": "proved",
   "theorems": [
    "Verif.MvtDef.C77_features",
    "Verif.MvtDef.C77_tileid",
    "Verif.MvtDef.C77_feature",
    "Verif.MvtDef.C77_overwrites",
    "Verif.MvtDef.C77_proto",
    "Verif.MvtDef.C77_closed"
   ],
   "note": "Go maps as entry lists in iteration order; NewFeatureFromGeometryData of go-geom taken to wrap its argument"
  },
  {
   "property": "C78",
   "status": "proved",
   "theorems": [
    "Verif.MvtDef.C78_points",
    "Verif.MvtDef.C78_count",
    "Verif.MvtDef.C78_shapes"
   ],
   "note": "exact real arithmetic; bounding boxes from go-geom are inputs"
  },
  {
   "property": "C79",
   "status": "proved",
   "theorems": [
    "Verif.Font.C79_options",
    "Verif.Font.C79_default_draws",
    "Verif.Font.C79_border",
    "Verif.Font.C79_bitmap",
    "Verif.Font.C79_baseline",
    "Verif.Font.C79_coverage",
    "Verif.Library.C79_half"
   ],
   "note": "truetype (parsing, metrics, drawing) is a parameter; sizes are rationals"
  },
  {
   "property": "C80",
   "status": "proved",
   "theorems": [
    "Verif.MvtLL.C80_readTile",
    "Verif.MvtLL.C80_readRawTile",
    "Verif.MvtLL.C80_bulk_example",
    "Verif.MvtLL.C80_writes",
    "Verif.MvtLL.C80_tile_roundtrip",
    "Verif.MvtLL.C80_position",
    "Verif.MvtLL.C80_clamped_cells",
    "Verif.MvtLL.C80_clamped_good",
    "Verif.MvtLL.C80_default_good",
    "Verif.MvtLL.C80_near_tile",
    "Verif.MvtLL.C80_example",
    "Verif.MvtLL.C80_example_near"
   ],
   "note": "positions within one tile of the tile for the error bound; same exceptions for geometries as C72"
  },
  {
   "property": "C81",
   "status": "proved",
   "theorems": [
    "Verif.Num.C81_literal",
    "Verif.Num.C81_other",
    "Verif.Num.C81_strtile",
    "Verif.Num.C81_tileFromString",
    "Verif.Num.C81_panics",
    "Verif.Num.C81_zero_padded",
    "Verif.Num.C81_example"
   ],
   "note": "strconv.ParseInt is modelled (Model/GoBase); the literals are specified separately (Spec/Numeral)"
  },
  {
   "property": "C82",
   "status": "proved",
   "theorems": [
    "Verif.Mbtiles.C82_malformed_coordinates",
    "Verif.Mbtiles.C82_malformed_res_factor",
    "Verif.Mbtiles.C82_malformed_tile_size",
    "Verif.Mbtiles.C82_malformed_example",
    "Verif.Mbtiles.C82_texts",
    "Verif.Mbtiles.C82_type",
    "Verif.Mbtiles.C82_zooms",
    "Verif.Mbtiles.C82_coordinates",
    "Verif.Mbtiles.C82_json_rows",
    "Verif.Mbtiles.C82_rest",
    "Verif.Mbtiles.C82_accepts",
    "Verif.Mbtiles.C82_rejects",
    "Verif.Mbtiles.C82_example",
    "Verif.Mbtiles.C82_null"
   ],
   "note": "strconv and strings are modelled (decimal floats, no inf/nan/hex); layer data codec is a parameter (the real one: C95_json_row); several json rows are decoded one over the other (C82_json_rows); NULL names and values: C82_null"
  },
  {
   "property": "C83",
   "status": "proved",
   "theorems": [
    "Verif.Mvt.C83_newTile_ok",
    "Verif.Mvt.C83_newTile_error",
    "Verif.Mvt.C83_readTile_ok",
    "Verif.Mvt.C83_readTile_error",
    "Verif.Mvt.C83_newTile_keeps_good_layers",
    "Verif.Mvt.C83_readTile_keeps_good_features",
    "Verif.Mvt.C83_readTile_good",
    "Verif.Mvt.C83_readRawTile_silent",
    "Verif.Mvt.C83_readRawTile_ok",
    "Verif.Mvt.C83_readRawTile_error",
    "Verif.Mvt.C83_readRawTile_corners",
    "Verif.Mvt.C83_example",
    "Verif.Mvt.C83_newTile_keeps_layers_any_writer",
    "Verif.Mvt.C83_any_writer_example",
    "Verif.Mvt.C83_bytes_behind_layer_read_as_version",
    "Verif.Mvt.C83_readTile_keeps_features_any_writer",
    "Verif.Mvt.C83_readTile_any_writer_example",
    "Verif.Mvt.C83_newTile_lists_name_of_broken_layer",
    "Verif.Mvt.C83_broken_name_example"
   ],
   "note": "corners in exact arithmetic"
  },
  {
   "property": "C84",
   "status": "proved",
   "theorems": [
    "Verif.Clip.C84_lines",
    "Verif.Clip.C84_shallow",
    "Verif.Clip.C84_lost",
    "Verif.Clip.C84_multiline_lost",
    "Verif.Clip.C84_example"
   ],
   "note": "exact arithmetic; features found below zoom 30 (tiny ones are C61); the loss of parts is proved as a negative result"
  },
  {
   "property": "C85",
   "status": "proved",
   "theorems": [
    "Verif.Sprite.C85_size",
    "Verif.Sprite.C85_exact",
    "Verif.Sprite.C85_monotone",
    "Verif.Sprite.C85_same_ratio",
    "Verif.Sprite.C85_generateSprite",
    "Verif.Sprite.C85_example"
   ],
   "note": "own pixel ratio 0 divides by zero and is not modelled"
  },
  {
   "property": "C86",
   "status": "proved",
   "theorems": [
    "Verif.Clip.C86_same_shape",
    "Verif.Clip.C86_line",
    "Verif.Clip.C86_tile_line",
    "Verif.Clip.C86_tile_box",
    "Verif.Clip.C86_children",
    "Verif.Clip.C86_overshoot"
   ],
   "note": "underflow, overflow, NaN and fused multiply-add are not modelled; which edges of a ring are closed in float64 is covered only by the box theorem"
  },
  {
   "property": "C87",
   "status": "proved",
   "theorems": [
    "Verif.Alias.C87_lint",
    "Verif.Alias.C87_trim",
    "Verif.Alias.C87_lint_multi",
    "Verif.Alias.C87_trim_multi",
    "Verif.Alias.C87_again",
    "Verif.Alias.C87_again_multi",
    "Verif.Alias.C87_unchanged_iff",
    "Verif.Alias.C87_next_ring_damaged"
   ],
   "note": "points are values (no code writes a coordinate); memory left by a call that panics half way is not described"
  },
  {
   "property": "C88",
   "status": "proved",
   "theorems": [
    "Verif.Font.C88_edt",
    "Verif.Font.C88_exact",
    "Verif.Font.C88_bytes",
    "Verif.Font.C88_edge",
    "Verif.Font.C88_root_exists"
   ],
   "note": "math.Sqrt is any function with relative error 2^-53; fused multiply-add (arm64, ppc64, s390x) is not modelled"
  },
  {
   "property": "C89",
   "status": "proved",
   "theorems": [
    "Verif.CoverF.C89_panics_iff",
    "Verif.CoverF.C89_closed_or_open",
    "Verif.CoverF.C89_rotation",
    "Verif.CoverF.C89_ring_order",
    "Verif.CoverF.C89_reversal_false",
    "Verif.CoverF.C89_west_false",
    "Verif.CoverF.C89_agrees",
    "Verif.CoverF.C89_rectilinear",
    "Verif.CoverF.C89_rectangle",
    "Verif.CoverF.C89_outside_box",
    "Verif.CoverF.C89_triangle",
    "Verif.CoverF.C89_triangle_example"
   ],
   "note": "lists of points (memory is C92); no NaN, infinities or subnormals"
  },
  {
   "property": "C90",
   "status": "proved",
   "theorems": [
    "Verif.CoverF.C90_multi_line",
    "Verif.CoverF.C90_multi_polygon",
    "Verif.CoverF.C90_simple",
    "Verif.CoverF.C90_multi_example",
    "Verif.CoverF.C90_box",
    "Verif.CoverF.C90_polygon",
    "Verif.CoverF.C90_polygon_vertices",
    "Verif.CoverF.C90_polygon_sound",
    "Verif.CoverF.C90_polygon_corner",
    "Verif.CoverF.C90_line",
    "Verif.CoverF.C90_order_free",
    "Verif.CoverF.C90_flat_complete",
    "Verif.CoverF.C90_flat_example",
    "Verif.CoverF.C90_meridian_complete",
    "Verif.CoverF.C90_meridian_example",
    "Verif.CoverF.C90_polygon_example",
    "Verif.CoverF.C90_line_sound",
    "Verif.CoverF.C90_line_sound_example"
   ],
   "note": "fused multiply-add in Interpolate is not modelled; no NaN, infinities or subnormals; slanted segments in float64: no completeness claim (see C09 for exact arithmetic)"
  },
  {
   "property": "C91",
   "status": "proved",
   "theorems": [
    "Verif.Reduce.C91_distance",
    "Verif.Reduce.C91_simplify",
    "Verif.Reduce.C91_mean",
    "Verif.Reduce.C91_example",
    "Verif.Reduce.C91_mean_example"
   ],
   "note": "no underflow, overflow, NaN; no fused multiply-add"
  },
  {
   "property": "C92",
   "status": "proved",
   "theorems": [
    "Verif.CoverH.C92_pip",
    "Verif.CoverH.C92_pip_float",
    "Verif.CoverH.C92_cover",
    "Verif.CoverH.C92_closed",
    "Verif.CoverH.C92_no_room",
    "Verif.CoverH.C92_next_ring_damaged",
    "Verif.CoverH.C92_wrong_answer"
   ],
   "note": "points are values; single goroutine; memory left by a call that panics half way is not described"
  },
  {
   "property": "C93",
   "status": "proved",
   "theorems": [
    "Verif.FontPbf.C93_required",
    "Verif.FontPbf.C93_roundtrip",
    "Verif.FontPbf.C93_rewrite",
    "Verif.FontPbf.C93_concat",
    "Verif.FontPbf.C93_any_writer",
    "Verif.FontPbf.C93_format",
    "Verif.FontPbf.C93_getters",
    "Verif.FontPbf.C93_builder",
    "Verif.FontPbf.C93_font_file",
    "Verif.FontPbf.C93_truncated",
    "Verif.FontPbf.C93_empty",
    "Verif.FontPbf.C93_wrong_fields"
   ],
   "note": "proto.Marshal/Unmarshal are modelled from the library (golang/protobuf 1.5.2 on google.golang.org/protobuf) for the three messages of glyph.pb.go; groups and nil list elements are not modelled."
  },
  {
   "property": "C94",
   "status": "proved",
   "theorems": [
    "Verif.Doc.C94_tilejson",
    "Verif.Doc.C94_tilesets",
    "Verif.Doc.C94_styles",
    "Verif.Doc.C94_recipe",
    "Verif.Doc.C94_languages",
    "Verif.Doc.C94_coverage",
    "Verif.Doc.C94_layer_data",
    "Verif.Doc.C94_metadata",
    "Verif.Doc.C94_time",
    "Verif.Doc.C94_time_day",
    "Verif.Doc.C94_tilejson_form",
    "Verif.Doc.C94_recipe_form",
    "Verif.Doc.C94_lenient",
    "Verif.Doc.C94_type_errors",
    "Verif.Doc.C94_null",
    "Verif.Doc.C94_fields",
    "Verif.Doc.C94_metadata_by_value",
    "Verif.Doc.C94_integers",
    "Verif.Doc.C94_style_form",
    "Verif.Doc.C94_tileset_form",
    "Verif.Doc.C94_language_form",
    "Verif.Doc.C94_coverage_form",
    "Verif.Doc.C94_layer_data_form",
    "Verif.Doc.C94_metadata_form",
    "Verif.Doc.C94_times_error",
    "Verif.Doc.C94_metadata_error"
   ],
   "note": "encoding/json is modelled by combinators, one per kind of Go type, from its documentation and source: null, type errors that do not stop decoding, omitempty, case folding of names, decoding into existing values. JSON texts are modelled by their parsed form (numbers keep their spelling). The shortest decimal of a float64 is a parameter with strconv's promise that it reads back; printing all decimals is shown to keep it. time.Time: whole-minute offsets; dates are read as leniently as Go 1.20 and later do (one-digit hours, a comma before the fraction, offsets up to 24:60), and C94_time says exactly which texts are dates; escapes inside the text of a date are not modelled."
  },
  {
   "property": "C95",
   "status": "proved",
   "theorems": [
    "Verif.DocRead.C95_json_row_again",
    "Verif.DocRead.C95_json_rows_merged",
    "Verif.JText.C95_reads",
    "Verif.JText.C95_first",
    "Verif.JText.C95_unambiguous",
    "Verif.JText.C95_cut_short",
    "Verif.JText.C95_writes",
    "Verif.JText.C95_roundtrip",
    "Verif.JText.C95_safe",
    "Verif.JText.C95_tilejson",
    "Verif.JText.C95_pages",
    "Verif.JText.C95_recipe",
    "Verif.JText.C95_languages",
    "Verif.JText.C95_layer_data",
    "Verif.JText.C95_metadata",
    "Verif.JText.C95_metadata_table",
    "Verif.JText.C95_json_row"
   ],
   "note": "encoding/json's scanner, decoder, unquote and encoder are modelled on lists of characters (so bytes that are not UTF-8 are outside); nesting over 10000 is written but refused by the reader (C95_reads, the reason for the Shallow hypothesis). Number printing is a parameter that must print a JSON number which reads back (Prints); printing all decimals is shown to meet it."
  },
  {
   "property": "C96",
   "status": "proved",
   "theorems": [
    "Verif.DocRead.C96_tilejson",
    "Verif.DocRead.C96_documents",
    "Verif.DocRead.C96_values",
    "Verif.DocRead.C96_fields",
    "Verif.DocRead.C96_null",
    "Verif.DocRead.C96_texts"
   ],
   "note": "Shapes are defined in Spec/DocRead without the codecs. Numbers in accepted documents are those of the JSON grammar (Spelled, which every text that is read guarantees: C96_texts has no such hypothesis). Date strings containing escapes and NaN are outside. Values of vector_layers and tilestats members are covered by C94's round trips only."
  },
  {
   "property": "C97",
   "status": "proved",
   "theorems": [
    "Verif.Style.C97_value",
    "Verif.Style.C97_parse",
    "Verif.Style.C97_meaning",
    "Verif.Style.C97_refused",
    "Verif.Style.C97_cut_short",
    "Verif.Style.C97_too_deep",
    "Verif.Style.C97_int"
   ],
   "note": "Texts are lists of characters (bytes that are not UTF-8 are not modelled); numbers are in the range of float64."
  },
  {
   "property": "C98",
   "status": "proved",
   "theorems": [
    "Verif.JBytes.C98_utf8",
    "Verif.JBytes.C98_reads",
    "Verif.JBytes.C98_cut_short",
    "Verif.JBytes.C98_documents",
    "Verif.JBytes.C98_style",
    "Verif.JBytes.C98_alike",
    "Verif.JBytes.C98_grid"
   ],
   "note": "bytes are natural numbers; those above 255 count as ill-formed. Numbers beyond the range of float64 are not modelled. zlib and gzip are abstract (what was compressed decompresses to itself). The spelling of float64 is abstract (Prints: reads back, is a JSON number)."
  },
  {
   "property": "C99",
   "status": "proved",
   "theorems": [
    "Verif.Client.C99_requests",
    "Verif.Client.C99_parameters",
    "Verif.Client.C99_status",
    "Verif.Client.C99_error_pages",
    "Verif.Client.C99_tilejson",
    "Verif.Client.C99_tilejson_accepts",
    "Verif.Client.C99_failures",
    "Verif.Client.C99_lists",
    "Verif.Client.C99_style"
   ],
   "note": "url.Parse of next pages (the real one: C102) and the network are parameters"
  },
  {
   "property": "C100",
   "status": "proved",
   "theorems": [
    "Verif.Sprite.C100_entry",
    "Verif.Sprite.C100_roundtrip",
    "Verif.Sprite.C100_index",
    "Verif.Sprite.C100_unknown"
   ],
   "note": "names are sequences of Unicode characters; the images are in C59, C65"
  },
  {
   "property": "C101",
   "status": "proved",
   "theorems": [
    "Verif.FontPbf.C101_ramp",
    "Verif.FontPbf.C101_ramp_shape",
    "Verif.FontPbf.C101_draws",
    "Verif.FontPbf.C101_font_file",
    "Verif.FontPbf.C101_panics"
   ],
   "note": "memory exhaustion for large images and SavePNG's PNG codec are not modelled"
  },
  {
   "property": "C102",
   "status": "proved",
   "theorems": [
    "Verif.Client.C102_parse",
    "Verif.Client.C102_next",
    "Verif.Client.C102_lists",
    "Verif.Client.C102_sent",
    "Verif.Client.C102_token",
    "Verif.Client.C102_refused",
    "Verif.Client.C102_silent_loss",
    "Verif.Client.C102_relative",
    "Verif.Client.C102_two_links"
   ],
   "note": "authorities with user information, brackets or percent signs are a parameter; fragments are not kept (they are not sent)"
  },
  {
   "property": "C103",
   "status": "proved",
   "theorems": [
    "Verif.Clip.C103_point_tile",
    "Verif.Clip.C103_multi_tile",
    "Verif.Clip.C103_relabels",
    "Verif.Clip.C103_multi_zoom",
    "Verif.Clip.C103_point_zoom",
    "Verif.Clip.C103_shape_tile",
    "Verif.Clip.C103_shape_zoom",
    "Verif.Clip.C103_shape_zoom_entries"
   ],
   "note": "a heap of property maps; geometries as in C36-C40, C60, C68, C84; bounding boxes of features are not modelled"
  },
  {
   "property": "C104",
   "status": "proved",
   "theorems": [
    "Verif.CoverF.Dist.C104_symmetric",
    "Verif.CoverF.Dist.C104_same_point",
    "Verif.CoverF.Dist.C104_defined",
    "Verif.CoverF.Dist.C104_accurate",
    "Verif.CoverF.Dist.C104_nan",
    "Verif.CoverF.Dist.C104_detour",
    "Verif.CoverF.Dist.C104_accurate_exists"
   ],
   "note": "Every operation is rounded (no fused multiply-add, no overflow, subnormals). package math is a parameter: absolute error 2^-50 for sine and cosine, relative 2^-50 for square roots, absolute 2^-49 for Atan2 in the first quadrant; C104_nan shows such a library (with the correctly rounded values at 45 degrees) for which 45N 0E to 45S 180E is NaN. Symmetry assumes an odd sine, the zero distance sin 0 = sqrt 0 = Atan2(0, x) = 0. C74 is the exact version."
  }
 ]
}
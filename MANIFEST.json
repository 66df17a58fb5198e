{
 "claims": [
  {
   "property": "C01",
   "status": "proved",
   "theorems": [
    "Tg.C01_wkb_roundtrip",
    "Tg.C01_nan_point_not_roundtrip"
   ],
   "note": "Full round trip for every geometry meeting the parser's validation rules; witness that the rules are needed."
  },
  {
   "property": "C02",
   "status": "proved",
   "theorems": [
    "Tg.C02_wkb_writer",
    "Tg.C02_wkb_is_wkb",
    "Tg.C02_geobin_writer"
   ],
   "note": "Both writers, every buffer size."
  },
  {
   "property": "C03",
   "status": "partial",
   "theorems": [
    "Tg.C03_wkb_parser_safe_partial",
    "Tg.C03_small_bytes_safe",
    "Tg.C03_wkb_overread"
   ],
   "note": "The full statement is false of the code: nine bytes make the parser read out of bounds (C03_wkb_overread). Proved for all other inputs."
  },
  {
   "property": "C04",
   "status": "proved",
   "theorems": [
    "Tg.C04_wkb_byte_order"
   ],
   "note": "Any assignment of byte orders and SRIDs to nested objects."
  },
  {
   "property": "C05",
   "status": "proved",
   "theorems": [
    "Tg.C05_wkb_nesting",
    "Tg.C05_wkb_too_deep",
    "Tg.C05_wkb_nonvacuous",
    "Tg.C05_geobin_nesting",
    "Tg.C05_geobin_too_deep",
    "Tg.C05_geobin_nonvacuous"
   ],
   "note": "Both parsers."
  },
  {
   "property": "C06",
   "status": "proved",
   "theorems": [
    "Tg.C06_hex_writer"
   ],
   "note": "Every buffer size, in-place conversion included."
  },
  {
   "property": "C07",
   "status": "proved",
   "theorems": [
    "Tg.C07_hex_parser",
    "Tg.C07_hex_invalid",
    "Tg.C07_hex_complete",
    "Tg.C07_hex_roundtrip"
   ],
   "note": ""
  },
  {
   "property": "C08",
   "status": "partial",
   "theorems": [
    "Tg.C08_geobin_roundtrip_partial",
    "Tg.C08_geobin_parse",
    "Tg.C08_member_json_lost"
   ],
   "note": "The full statement is false of the code for members of a plain GeometryCollection, which lose their extra JSON (C08_member_json_lost). Proved for everything else."
  },
  {
   "property": "C09",
   "status": "partial",
   "theorems": [
    "Tg.C09_geobin_header_partial",
    "Tg.C09_empty_point"
   ],
   "note": "False of the code for an empty point (C09_empty_point); proved for everything else."
  },
  {
   "property": "C10",
   "status": "partial",
   "theorems": [
    "Tg.C10_geobin_fullrect_safe_partial",
    "Tg.C10_fullrect_overflow",
    "Tg.C10_geobin_rect_safe"
   ],
   "note": "False of the code when the dimension byte exceeds 4 (C10_fullrect_overflow); proved for everything else."
  },
  {
   "property": "C11",
   "status": "partial",
   "theorems": [
    "Tg.C11_geobin_safe_partial",
    "Tg.C11_geobin_no_error_partial",
    "Tg.C11_error_as_feature",
    "Tg.C11_geobin_overread"
   ],
   "note": "Both halves are false of the code (C11_geobin_overread, C11_error_as_feature); proved outside the input classes of the witnesses."
  },
  {
   "property": "C16",
   "status": "partial",
   "theorems": [
    "Tg.C16_json_exact",
    "Tg.C16_json_complete",
    "Tg.C16_json_sound_partial",
    "Tg.C16_bad_escape_accepted",
    "Tg.C16_overlong_accepted",
    "Tg.C16_max_codepoint_rejected"
   ],
   "note": "The exact language is characterised. The full claim is false of the code: a bad escape ends a string, over-long UTF-8 is accepted, U+10FFFF is rejected."
  },
  {
   "property": "C17",
   "status": "proved",
   "theorems": [
    "Tg.C17_json_safe",
    "Tg.C17_json_end",
    "Tg.C17_json_depth",
    "Tg.C17_json_depth_reached"
   ],
   "note": ""
  },
  {
   "property": "C19",
   "status": "proved",
   "theorems": [
    "Tg.C19_rect_exact"
   ],
   "note": "Any linear order of coordinates, any lawful rounding to index coordinates, every index option."
  },
  {
   "property": "C20",
   "status": "proved",
   "theorems": [
    "Tg.C20_intersects",
    "Tg.C20_covers",
    "Tg.C20_covers_point",
    "Tg.C20_expand",
    "Tg.C20_expand_point",
    "Tg.C20_inside_out"
   ],
   "note": "Rectangles with min <= max; the witness shows what happens otherwise."
  },
  {
   "property": "C21",
   "status": "proved",
   "theorems": [
    "Tg.C21_index"
   ],
   "note": ""
  },
  {
   "property": "C22",
   "status": "partial",
   "theorems": [
    "Tg.C22_search_partial",
    "Tg.C22_open_ring_missed"
   ],
   "note": "False of the code for indexed rings that are not closed by their last point (C22_open_ring_missed); proved for everything else."
  },
  {
   "property": "C23",
   "status": "partial",
   "theorems": [
    "Tg.C23_pairs_partial",
    "Tg.C23_pairs_any_partial",
    "Tg.C23_exact_partial",
    "Tg.C23_order_ieee",
    "Tg.C23_index_changes_answer"
   ],
   "note": "As C22. If the segment test is symmetric, as it is without rounding (C23_exact_partial) and with fixed-point coordinates (C66), the pairs do not depend on the index. With doubles of 29 bits the test is not symmetric, and the index and the order of the arguments change the answer of tg_line_intersects_line (C23_index_changes_answer). C23_pairs_any_partial says which pairs are found for any arithmetic."
  },
  {
   "property": "C24",
   "status": "partial",
   "theorems": [
    "Tg.C24_index_independent_partial",
    "Tg.C24_exact_partial",
    "Tg.C24_built",
    "Tg.C24_open_ring_missed",
    "Tg.C24_top_edge_missed",
    "Tg.C24_flat_ring_undefined"
   ],
   "note": "False of the code in three cases, each with a witness; proved for everything else."
  },
  {
   "property": "C25",
   "status": "proved",
   "theorems": [
    "Tg.C25_rotate",
    "Tg.C25_reverse",
    "Tg.C25_exact_rotate",
    "Tg.C25_exact_reverse"
   ],
   "note": "Rings closed by their last point. With rounding, Y-stripes need the same number of stripes; without rounding they do not."
  },
  {
   "property": "C26",
   "status": "proved",
   "theorems": [
    "Tg.C26_on",
    "Tg.C26_in",
    "Tg.C26_point_in_ring",
    "Tg.C26_large_step"
   ],
   "note": "Exact arithmetic; the step to the next double is a small positive number. C26_point_in_ring extends the result to whole rings outside the defects of C24."
  },
  {
   "property": "C27",
   "status": "proved",
   "theorems": [
    "Tg.C27_intersects",
    "Tg.C27_symm",
    "Tg.C27_direction"
   ],
   "note": "Exact arithmetic."
  },
  {
   "property": "C28",
   "status": "proved",
   "theorems": [
    "Tg.C28_covers_point",
    "Tg.C28_covers_segment"
   ],
   "note": "Exact arithmetic."
  },
  {
   "property": "C35",
   "status": "proved",
   "theorems": [
    "Tg.C35_index_options",
    "Tg.C35_env",
    "Tg.C35_what_is_built"
   ],
   "note": ""
  },
  {
   "property": "C41",
   "status": "proved",
   "theorems": [
    "Tg.C41_area",
    "Tg.C41_clockwise",
    "Tg.C41_close",
    "Tg.C41_reverse",
    "Tg.C41_rotate",
    "Tg.C41_translate"
   ],
   "note": "Exact arithmetic. The orientation flips on reversal if there is any area."
  },
  {
   "property": "C42",
   "status": "partial",
   "theorems": [
    "Tg.C42_open_partial",
    "Tg.C42_closed_partial",
    "Tg.C42_what",
    "Tg.C42_start_vertex",
    "Tg.C42_first_straight"
   ],
   "note": "False of the code in two cases, each with a witness (reflex start vertex of a closed ring, straight first turn); proved for everything else. C42_what says exactly what is computed."
  },
  {
   "property": "C29",
   "status": "partial",
   "theorems": [
    "Tg.C29_every_segment",
    "Tg.C29_order_partial",
    "Tg.C29_out_of_memory",
    "Tg.C29_open_ring_order"
   ],
   "note": "Every segment exactly once, for every ring and index; order by distance except for indexed rings that are not closed by their last point, where it fails (witness)."
  },
  {
   "property": "C30",
   "status": "proved",
   "theorems": [
    "Tg.C30_queue",
    "Tg.C30_out_of_memory",
    "Tg.C30_pops_sorted"
   ],
   "note": "Every history, including failing allocations."
  },
  {
   "property": "C31",
   "status": "proved",
   "theorems": [
    "Tg.C31_no_fault",
    "Tg.C31_live",
    "Tg.C31_no_leak",
    "Tg.C31_all_released",
    "Tg.C31_values",
    "Tg.C31_index"
   ],
   "note": "Every history of calls of 17 kinds (constructors, clone, copies, frees), every pattern of allocation failures. The pointers inside an index stay in their own block as long as no indexed object is copied (see C34)."
  },
  {
   "property": "C33",
   "status": "proved",
   "theorems": [
    "Tg.C33_unchanged",
    "Tg.C33_null",
    "Tg.C33_success"
   ],
   "note": "After a failure the memory is the same as before the call, block by block."
  },
  {
   "property": "C34",
   "status": "partial",
   "theorems": [
    "Tg.C34_copy_partial",
    "Tg.C34_null_partial",
    "Tg.C34_free",
    "Tg.C34_index_witness",
    "Tg.C34_empty_witness"
   ],
   "note": "The full statement is false of the code: a copy of an indexed ring keeps a pointer into the original (C34_index_witness), and a geometry with an empty line has no copy (C34_empty_witness). Proved for objects without an index, respectively without NULLs inside."
  },
  {
   "property": "C32",
   "status": "proved",
   "theorems": [
    "Tg.C32_no_fault",
    "Tg.C32_alive",
    "Tg.C32_once",
    "Tg.C32_all_released",
    "Tg.C32_last",
    "Tg.C32_release_alone",
    "Tg.C32_finishes"
   ],
   "note": "Any number of threads and objects, any sharing, every interleaving of the atomic operations; no_fault includes that every access happens before the release (release/acquire orders are modelled by views)."
  },
  {
   "property": "C44",
   "status": "proved",
   "theorems": [
    "Tg.C44_bijective",
    "Tg.C44_neighbours",
    "Tg.C44_ends"
   ],
   "note": "All 2^32 pairs, by the prefix-scan semantics of the bit operations; also that consecutive keys are neighbouring cells."
  },
  {
   "property": "C45",
   "status": "proved",
   "theorems": [
    "Tg.C45_built"
   ],
   "note": "All constructors of C31, any history and any failing allocations."
  },
  {
   "property": "C36",
   "status": "partial",
   "theorems": [
    "Tg.C36_num",
    "Tg.C36_at_partial",
    "Tg.C36_past_end",
    "Tg.C36_point_at_partial",
    "Tg.C36_holes",
    "Tg.C36_exterior",
    "Tg.C36_point_of_series",
    "Tg.C36_segment_of_series"
   ],
   "note": "Every geometry of every history and every int, except the index equal to the count, where the code reads past the array (C36_past_end, for every collection). Holes, points and segments of series: every int."
  },
  {
   "property": "C39",
   "status": "proved",
   "theorems": [
    "Tg.C39_search",
    "Tg.C39_found",
    "Tg.C39_order",
    "Tg.C39_made",
    "Tg.C39_made_exact",
    "Tg.C39_flat_undefined"
   ],
   "note": "Every collection that is made, every rectangle of it that the conversion to index coordinates encloses (a hypothesis on the conversion), any qsort that meets its contract. Not made: 64 or more children on one vertical line, where the code converts a NaN to an integer (C39_flat_undefined)."
  },
  {
   "property": "C40",
   "status": "partial",
   "theorems": [
    "Tg.C40_rect",
    "Tg.C40_rect_partial",
    "Tg.C40_empty_part"
   ],
   "note": "What the rectangle is in all cases (C40_rect); it is the least one unless a part is empty, where the origin is included (C40_empty_part)."
  },
  {
   "property": "C43",
   "status": "proved",
   "theorems": [
    "Tg.C43_vectors",
    "Tg.C43_failure",
    "Tg.C43_success",
    "Tg.C43_buffers"
   ],
   "note": "every history of appends (and truncations), every pattern of allocation failures; blocks below 2^50 bytes"
  },
  {
   "property": "C37",
   "status": "partial",
   "theorems": [
    "Tg.C37_first",
    "Tg.C37_segment_partial",
    "Tg.C37_hangs",
    "Tg.C37_wrong"
   ],
   "note": "A second line of one segment is judged correctly, and true always means that the first segment is covered. Otherwise the property is false: the loop does not end for every line that leaves the first one at an inner vertex (C37_hangs), and there are wrong answers (C37_wrong)."
  },
  {
   "property": "C46",
   "status": "proved",
   "theorems": [
    "Tg.C46_line_covers_point"
   ],
   "note": "exact arithmetic, every index option"
  },
  {
   "property": "C47",
   "status": "proved",
   "theorems": [
    "Tg.C47_ring_intersects_segment",
    "Tg.C47_no_edges_wrong"
   ],
   "note": "Exact arithmetic, every closed ring with or without an index that finds all its segments. With edges not allowed the function is no test for a point inside (witness)."
  },
  {
   "property": "C48",
   "status": "partial",
   "theorems": [
    "Tg.C48_contains_segment_partial",
    "Tg.C48_convex_partial",
    "Tg.C48_edges_partial",
    "Tg.C48_corner_wrong",
    "Tg.C48_vertex_wrong",
    "Tg.C48_convex_wrong",
    "Tg.C48_touch_wrong"
   ],
   "note": "False of the code in four ways, each with a witness. Proved: exact for edges not allowed unless the ring is flagged convex; exact for rings that are convex; with edges allowed both directions outside the witnessed cases."
  },
  {
   "property": "C49",
   "status": "proved",
   "theorems": [
    "Tg.C49_ring_intersects_line",
    "Tg.C49_ring_intersects_ring"
   ],
   "note": "Exact arithmetic, every pair of rings (also self-intersecting ones), every line."
  },
  {
   "property": "C12",
   "status": "proved",
   "theorems": [
    "Tg.C12_wkt",
    "Tg.C12_geojson",
    "Tg.C12_wkt_text",
    "Tg.C12_null_child_undefined"
   ],
   "note": "Every geometry without NULL lines or polygons (witness), every buffer size. Of Ryu's output only the shape is assumed."
  },
  {
   "property": "C18",
   "status": "partial",
   "theorems": [
    "Tg.C18_geojson_valid_partial",
    "Tg.C18_unlocated_extra_invalid"
   ],
   "note": "Proved for every geometry whose extra JSON is JSON (RFC 8259). Extra JSON that is not JSON but passes the validator (C16) is copied. Witness for a Feature without geometry that has members for it."
  },
  {
   "property": "C50",
   "status": "proved",
   "theorems": [
    "Tg.C50_number_text",
    "Tg.C50_subnormal_zero"
   ],
   "note": "Ryu's conversion is a parameter; its output has the shape of scientific notation."
  },
  {
   "property": "C51",
   "status": "proved",
   "theorems": [
    "Tg.C12_wkt_text",
    "Tg.C51_geojson_text"
   ],
   "note": "For GeoJSON: geometries without Features and extra members."
  },
  {
   "property": "C14",
   "status": "partial",
   "theorems": [
    "Tg.C14_wkt_round_trip_partial",
    "Tg.C14_many_groups_lost",
    "Tg.C14_flat_lost_case"
   ],
   "note": "At most 1024 lists in parentheses; with more the text is always rejected (C14_many_groups_lost). strtod and Ryu are parameters: strtod rounds a decimal number with rnd, and rnd of Ryu's digits gives the double back."
  },
  {
   "property": "C15",
   "status": "proved",
   "theorems": [
    "Tg.C15_wkt_safe",
    "Tg.C15_wkt_depth"
   ],
   "note": "Every byte string and every strtod. A number conversion is defined when a ) follows in the slice."
  },
  {
   "property": "C52",
   "status": "proved",
   "theorems": [
    "Tg.C52_wkt_accepted",
    "Tg.C52_many_groups_rejected",
    "Tg.C52_empty_list_gets_zm",
    "Tg.C52_after_empty_ignored",
    "Tg.C52_leading_point",
    "Tg.C52_nul_in_name"
   ],
   "note": "strtod is a parameter that rounds decimal numbers before a delimiter. Witnesses for texts that are judged wrongly."
  },
  {
   "property": "C13",
   "status": "proved",
   "theorems": [
    "Tg.C13_formats",
    "Tg.C13_dispatch",
    "Tg.C13_geojson_writer",
    "Tg.C13_wkt_writer",
    "Tg.C13_wkb_writer",
    "Tg.C13_hex_writer",
    "Tg.C13_geobin_writer",
    "Tg.C13_high_byte_undefined",
    "Tg.C13_space_before_hex"
   ],
   "note": "Every writer, and every text or byte string of each format. The GeoJSON parser is a parameter. Witness: a first byte from 0x80 on is given to isspace as a negative number."
  },
  {
   "property": "C38",
   "status": "partial",
   "theorems": [
    "Tg.C38_equals",
    "Tg.C38_dual",
    "Tg.C38_equals_symm",
    "Tg.C38_empty",
    "Tg.C38_empty_touches_partial",
    "Tg.C38_touches_point_wrong",
    "Tg.C38_touches_hole_wrong",
    "Tg.C38_nested_not_covered",
    "Tg.C38_empty_member",
    "Tg.C38_equals_hangs"
   ],
   "note": "Dualities and the answers for empty input are proved for all geometries, touches without one-point linestrings and polygons with holes but no exterior, where it is wrong (witnesses). equals is symmetric when it ends for both orders; witness that it can end for one only."
  },
  {
   "property": "C53",
   "status": "proved",
   "theorems": [
    "Tg.C53_intersects",
    "Tg.C53_disjoint",
    "Tg.C53_symm",
    "Tg.C53_hole_sticks_out"
   ],
   "note": "Exact arithmetic. Polygons: the boundaries of holes belong to the polygon (witness for a hole that sticks out), a hole flagged convex is convex, the outside of a hole is connected. Rings: not those with the wrong searches of C22 and C26."
  },
  {
   "property": "C54",
   "status": "proved",
   "theorems": [
    "Tg.C54_geojson_safe",
    "Tg.C54_geojson_calls",
    "Tg.C54_geojson_depth",
    "Tg.C54_depth_unbounded"
   ],
   "note": "Every byte string and every strtod; the bound of the depth for standard JSON. Witness: on texts that the validator accepts wrongly the depth is unbounded, so that the stack can overflow."
  },
  {
   "property": "C55",
   "status": "proved",
   "theorems": [
    "Tg.C55_geojson_accepted",
    "Tg.C55_long_number_zero"
   ],
   "note": "strtod is a parameter that rounds decimal numbers. Numbers of fewer than 512 bytes (longer ones are read as 0), no U+10FFFF (C16), every name once."
  },
  {
   "property": "C56",
   "status": "proved",
   "theorems": [
    "Tg.C56_geojson_round_trip",
    "Tg.C56_deep_lost"
   ],
   "note": "Ryu's digits are assumed to be at most 17 with an exponent from -324 to 324 (SciShort), and strtod to read decimal numbers. Coordinates that are neither normal nor +0 are excluded (they are written as 0, C50). Geojson.levels is exact: text_least."
  },
  {
   "property": "C57",
   "status": "proved",
   "theorems": [
    "Tg.C57_feature_accepted",
    "Tg.C57_collection_accepted"
   ],
   "note": "Same hypotheses as C55. properties and id occur at most once and have the types of RFC 7946. Properties that are null or {} are not stored; a flag says null."
  },
  {
   "property": "C58",
   "status": "partial",
   "theorems": [
    "Tg.C58_wkt_sound",
    "Tg.C58_geojson_sound",
    "Tg.C58_text_written",
    "Tg.C58_wkb_sound_partial",
    "Tg.C58_geobin_sound_partial",
    "Tg.C58_hex_sound_partial",
    "Tg.C58_wkb_null_line",
    "Tg.C58_wkb_null_polygon",
    "Tg.C58_wkb_empty_ring",
    "Tg.C58_wkb_empty_point_is_origin"
   ],
   "note": "Full for WKT and GeoJSON. For WKB, GeoBIN and hex it is false of the code: an empty child of a MultiLineString or MultiPolygon becomes a NULL pointer that the text writers follow, and rings without points are accepted (witnesses). There it is proved for all results without these (and, for GeoBIN, without an error stored as a feature, C11)."
  },
  {
   "property": "C59",
   "status": "proved",
   "theorems": [
    "Tg.C59_members_round_trip",
    "Tg.C59_feature_round_trip",
    "Tg.C59_collection_round_trip",
    "Tg.C59_escaped_id_twice",
    "Tg.C59_escaped_properties_twice"
   ],
   "note": "names spelled with escapes are written twice; the witnesses show it"
  },
  {
   "property": "C60",
   "status": "proved",
   "theorems": [
    "Tg.C60_geometry_stable",
    "Tg.C60_feature_stable",
    "Tg.C60_collection_stable"
   ],
   "note": "strtod and Ryu are parameters as in C56. The names id and properties of a Feature are spelled without escapes (C59). The limits of levels and characters are proved for the text that is written."
  },
  {
   "property": "C61",
   "status": "proved",
   "theorems": [
    "Tg.C61_covers_point",
    "Tg.C61_contains_point",
    "Tg.C61_touches_point",
    "Tg.C61_point_touches",
    "Tg.C61_point_covers",
    "Tg.C61_point_contains",
    "Tg.C61_polygon_touches_points",
    "Tg.C61_collection_touches",
    "Tg.C61_order_matters",
    "Tg.C61_closed_line",
    "Tg.C61_same_point"
   ],
   "note": "Exact arithmetic and small tolerances as in C53. Polygons: the boundaries of all rings belong to it. within and coveredby are these functions with the arguments swapped (C38_dual)."
  },
  {
   "property": "C62",
   "status": "proved",
   "theorems": [
    "Tg.C62_covers",
    "Tg.C62_covers_any",
    "Tg.C62_touches",
    "Tg.C62_touches_needs_general",
    "Tg.C62_line_touches_needs_general",
    "Tg.C62_covers_needs_general",
    "Tg.C62_contains_needs_general"
   ],
   "note": "Exact arithmetic and small tolerances as in C53. Polygons on the left: the inside of the exterior escapes and is convex if the flag says so; on the right: the boundaries of all rings belong to it."
  },
  {
   "property": "C63",
   "status": "proved",
   "theorems": [
    "Tg.C63_exact",
    "Tg.C63_sound",
    "Tg.C63_needs_no_overlap",
    "Tg.C63_needs_ends_once",
    "Tg.C63_needs_no_repeat"
   ],
   "note": "Exact arithmetic. The boundary of a line is its two ends, also if it is closed, as in the code."
  },
  {
   "property": "C64",
   "status": "proved",
   "theorems": [
    "Tg.C64_geometry",
    "Tg.C64_feature",
    "Tg.C64_collection",
    "Tg.C64_others",
    "Tg.C64_odd_accepted"
   ],
   "note": "Both directions. For standard JSON texts; strtod is assumed to be right for decimal numbers of fewer than 512 bytes. Which foreign members are kept is C55 and C57."
  },
  {
   "property": "C65",
   "status": "proved",
   "theorems": [
    "Tg.C65_safe",
    "Tg.C65_special",
    "Tg.C65_reads_back",
    "Tg.C65_shortest",
    "Tg.C65_shape",
    "Tg.C65_readable",
    "Tg.C65_wkt_round_trip",
    "Tg.C65_geojson_round_trip"
   ],
   "note": "All doubles. The tables of powers of five are copied from the source and checked in the kernel for every exponent. The round trips assume that strtod rounds to the nearest double; the limits of C14 and C56 apply."
  },
  {
   "property": "C66",
   "status": "proved",
   "theorems": [
    "Tg.C66_collinear",
    "Tg.C66_ray_on",
    "Tg.C66_ray_in",
    "Tg.C66_intersects",
    "Tg.C66_covers_point",
    "Tg.C66_covers_segment",
    "Tg.C66_bits_needed",
    "Tg.C66_next",
    "Tg.C66_middle_missed",
    "Tg.C66_nudge_wrong"
   ],
   "note": "For any rounding to the nearest double, ties to even. Coordinates have at most 24 bits; C66_nudge_wrong and C66_middle_missed show that the statement fails for 28 bits (a point next to a segment is found on it) and 29 bits (the middle of a segment is not found)."
  },
  {
   "property": "C67",
   "status": "proved",
   "theorems": [
    "Tg.C67_intersects",
    "Tg.C67_disjoint",
    "Tg.C67_point",
    "Tg.C67_touches_point",
    "Tg.C67_covers",
    "Tg.C67_covers_any",
    "Tg.C67_touches",
    "Tg.C67_lines_touch"
   ],
   "note": "For any rounding to the nearest double, ties to even, and coordinates of at most 24 bits. Covers, contains and touches of other than points need general position, as in C62."
  },
  {
   "property": "C68",
   "status": "proved",
   "theorems": [
    "Tg.C68_lawful",
    "Tg.C68_encloses",
    "Tg.C68_fits",
    "Tg.C68_intersects",
    "Tg.C68_tiny",
    "Tg.C68_huge",
    "Tg.C68_huge_missed"
   ],
   "note": "Rounding to the nearest float with any choice of ties. C68_tiny, C68_huge and C68_huge_missed show that the range is needed."
  },
  {
   "property": "C69",
   "status": "proved",
   "theorems": [
    "Tg.C69_point_point",
    "Tg.C69_point_segment",
    "Tg.C69_rect_rect",
    "Tg.C69_point_rect",
    "Tg.C69_nearest",
    "Tg.C69_ieee_nearest"
   ],
   "note": "The order excepts indexed rings that are not closed by their last point, as in C29."
  },
  {
   "property": "C70",
   "status": "proved",
   "theorems": [
    "Tg.C70_circle",
    "Tg.C70_overflow"
   ],
   "note": "Up to 2^25 steps. C70_overflow shows that a bound is needed: with 754974677 steps (12 GB) there is a write out of bounds."
  },
  {
   "property": "C71",
   "status": "proved",
   "theorems": [
    "Tg.C71_segment",
    "Tg.C71_beside",
    "Tg.C71_shared",
    "Tg.C71_covers_vertex"
   ],
   "note": "For doubles of any grid. Exceptions: top of a ring with Y-stripes (Below), holes whose rectangle contains the other geometry."
  },
  {
   "property": "C72",
   "status": "proved",
   "theorems": [
    "Tg.C72_intersects_rect",
    "Tg.C72_xy",
    "Tg.C72_intersects_rect_ieee"
   ],
   "note": "Same hypotheses on the geometry as C53 and C68."
  },
  {
   "property": "C73",
   "status": "proved",
   "theorems": [
    "Tg.C73_perimeter",
    "Tg.C73_score",
    "Tg.C73_ring_less_than_one",
    "Tg.C73_line_less_than_two",
    "Tg.C73_line_above_one"
   ],
   "note": "Exact arithmetic, real coordinates. The score of a line can be above 1 (C73_line_above_one), against the comment in tg.c:14622, which speaks of the ring or line."
  },
  {
   "property": "C74",
   "status": "partial",
   "theorems": [
    "Tg.C74_align",
    "Tg.C74_ring_block",
    "Tg.C74_index_aligned",
    "Tg.C74_stripes_block_partial",
    "Tg.C74_ring_memsize",
    "Tg.C74_poly_memsize",
    "Tg.C74_poly_memsize_wrong",
    "Tg.C74_num_keys",
    "Tg.C74_nmap_zigzag",
    "Tg.C74_nmap_overflow"
   ],
   "note": "False of the code for stripes with 2^31 entries or more: nmap is an int and overflows for a zigzag ring of 2^26 points (C74_nmap_overflow); C74_stripes_block_partial is about the counts without overflow. tg_poly_memsize reports sizeof(struct tg_ring) per hole instead of a pointer (C74_poly_memsize_wrong)."
  },
  {
   "property": "C75",
   "status": "proved",
   "theorems": [
    "Tg.C75_polygon",
    "Tg.C75_on_circle",
    "Tg.C75_measure",
    "Tg.C75_convex",
    "Tg.C75_score",
    "Tg.C75_limit"
   ],
   "note": "Exact real arithmetic. The array and the loop with doubles are C70."
  },
  {
   "property": "C76",
   "status": "proved",
   "theorems": [
    "Tg.C76_made",
    "Tg.C76_rect",
    "Tg.C76_index",
    "Tg.C76_exists",
    "Tg.C76_same",
    "Tg.C76_segment",
    "Tg.C76_measures",
    "Tg.C76_perimeter",
    "Tg.C76_intersects",
    "Tg.C76_rect_ieee",
    "Tg.C76_ieee",
    "Tg.C76_rounding",
    "Tg.C76_index_lost"
   ],
   "note": "The move keeps the kind of the index, but not its spread (C76_index_lost)."
  },
  {
   "property": "C77",
   "status": "proved",
   "theorems": [
    "Tg.C77_line_sound",
    "Tg.C77_line",
    "Tg.C77_poly_sound",
    "Tg.C77_self",
    "Tg.C77_start_matters",
    "Tg.C77_through",
    "Tg.C77_both_ends"
   ],
   "note": "Holes are covered by C77_line_sound only."
  },
  {
   "property": "C78",
   "status": "proved",
   "theorems": [
    "Tg.C78_chain",
    "Tg.C78_search",
    "Tg.C78_point_covers",
    "Tg.C78_covers_line",
    "Tg.C78_covers_ring",
    "Tg.C78_covers_line_set",
    "Tg.C78_covers_poly_set",
    "Tg.C78_segment_covers",
    "Tg.C78_diagonal_wrong",
    "Tg.C78_line_covers_proper",
    "Tg.C78_line_covers_flat",
    "Tg.C78_vertical_wrong",
    "Tg.C78_intersects_line",
    "Tg.C78_intersects_poly",
    "Tg.C78_poly_covers"
   ],
   "note": "Two functions give wrong answers outside of the stated cases."
  },
  {
   "property": "C79",
   "status": "proved",
   "theorems": [
    "Tg.C79_has",
    "Tg.C79_wkt_has",
    "Tg.C79_geojson_has",
    "Tg.C79_wkb_has",
    "Tg.C79_intersects",
    "Tg.C79_rect",
    "Tg.C79_covers_point",
    "Tg.C79_texts",
    "Tg.C79_format",
    "Tg.C79_made"
   ],
   "note": "For fixed-point coordinates and polygons that meet the conditions of C53."
  },
  {
   "property": "C80",
   "status": "proved",
   "theorems": [
    "Tg.C80_bounds",
    "Tg.C80_ring",
    "Tg.C80_segments",
    "Tg.C80_multi",
    "Tg.C80_children",
    "Tg.C80_others",
    "Tg.C80_open_ring_missed"
   ],
   "note": "For rings that are not closed only the numbers and the nesting of the rectangles; the witness shows that the last segment may be outside."
  },
  {
   "property": "C81",
   "status": "proved",
   "theorems": [
    "Tg.C81_ray",
    "Tg.C81_covers_point",
    "Tg.C81_intersects",
    "Tg.C81_point_in_ring",
    "Tg.C81_lines",
    "Tg.C81_covers",
    "Tg.C81_contains",
    "Tg.C81_point_intersects",
    "Tg.C81_needed"
   ],
   "note": "For points farther than M / 2^46 from the lines of the segments; the witness shows that nearer points may get a wrong answer."
  },
  {
   "property": "C82",
   "status": "proved",
   "theorems": [
    "Tg.C82_ray",
    "Tg.C82_intersects",
    "Tg.C82_lines",
    "Tg.C82_point_in_ring",
    "Tg.C82_point",
    "Tg.C82_objects",
    "Tg.C82_texts",
    "Tg.C82_needed"
   ],
   "note": "For points away from the lines of the segments; the witness shows that points on slanted segments are lost in the rounding."
  },
  {
   "property": "C83",
   "status": "proved",
   "theorems": [
    "Tg.C83_read",
    "Tg.C83_parsed",
    "Tg.C83_wkb",
    "Tg.C83_wkt",
    "Tg.C83_geojson",
    "Tg.C83_type",
    "Tg.C83_empty",
    "Tg.C83_dims",
    "Tg.C83_needed"
   ],
   "note": "For objects whose empty flag says the truth, which all parsed objects do."
  },
  {
   "property": "C84",
   "status": "partial",
   "theorems": [
    "Tg.C84_stops",
    "Tg.C84_foreach_partial",
    "Tg.C84_not_flat"
   ],
   "note": "False of the code for nested collections, empty members and homogeneous collections with Z or M (witnesses); proved for all others. Order and stop are proved for all."
  },
  {
   "property": "C85",
   "status": "proved",
   "theorems": [
    "Tg.C85_convex",
    "Tg.C85_intersects",
    "Tg.C85_disjoint",
    "Tg.C85_symm"
   ],
   "note": "For geometries farther than M / 2^46 from each other's lines, polygons as in C53."
  },
  {
   "property": "C86",
   "status": "proved",
   "theorems": [
    "Tg.C86_covers",
    "Tg.C86_within"
   ],
   "note": "For a polygon and a geometry whose vertices are farther than M / 2^46 from each other's sides, polygons as in C62."
  },
  {
   "property": "C87",
   "status": "proved",
   "theorems": [
    "Tg.C87_touches_point",
    "Tg.C87_point_touches",
    "Tg.C87_touches"
   ],
   "note": "For points clear of the segments, and for two geometries clear of each other in general position."
  },
  {
   "property": "C88",
   "status": "proved",
   "theorems": [
    "Tg.C88_covers",
    "Tg.C88_within",
    "Tg.C88_thin",
    "Tg.C88_union_missed"
   ],
   "note": "For two geometries clear of each other in general position. True is never wrong; it is given whenever one part is enough."
  },
  {
   "property": "C89",
   "status": "proved",
   "theorems": [
    "Tg.C89_memsize",
    "Tg.C89_exact",
    "Tg.C89_lp64",
    "Tg.C89_index_block"
   ],
   "note": "What is reported in all cases; polygons with holes are reported too large (C74_poly_memsize_wrong)."
  },
  {
   "property": "C90",
   "status": "proved",
   "theorems": [
    "Tg.C90_one",
    "Tg.C90_multi",
    "Tg.C90_within"
   ],
   "note": "An equivalence. For two geometries clear of each other in general position; the second has no collection inside a collection."
  },
  {
   "property": "C91",
   "status": "proved",
   "theorems": [
    "Tg.C91_escape",
    "Tg.C91_max_replaced"
   ],
   "note": "For all bytes and buffers. That the last character of Unicode is lost is part of the statement."
  },
  {
   "property": "C92",
   "status": "proved",
   "theorems": [
    "Tg.C92_copy",
    "Tg.C92_round_trip",
    "Tg.C92_parser"
   ],
   "note": "For all values and blocks. The round trip is for ASCII and UTF-8 without U+10FFFF, which json_escapen replaces (C91)."
  },
  {
   "property": "C93",
   "status": "proved",
   "theorems": [
    "Tg.C93_comparen",
    "Tg.C93_compare",
    "Tg.C93_equal",
    "Tg.C93_length_ignored"
   ],
   "note": "For all values and all C strings. C93_length_ignored shows that for strings with escapes the length given is not used, so that json_getn misses escaped keys inside a path."
  },
  {
   "property": "C94",
   "status": "proved",
   "theorems": [
    "Tg.C94_integer",
    "Tg.C94_fraction",
    "Tg.C94_infinite",
    "Tg.C94_undefined",
    "Tg.C94_nan",
    "Tg.C94_long",
    "Tg.C94_space"
   ],
   "note": "For all texts and every strtod. The cases where the behavior is not defined are told exactly for finite doubles."
  },
  {
   "property": "C95",
   "status": "proved",
   "theorems": [
    "Tg.C95_string",
    "Tg.C95_number",
    "Tg.C95_other"
   ],
   "note": "For all values and every strtod."
  }
 ]
}

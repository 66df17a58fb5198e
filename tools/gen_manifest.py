#!/usr/bin/env python3
"""Writes MANIFEST.json from the table below."""
import json, os
C = []
def claim(prop, status, theorems, note):
    C.append({"property": prop, "status": status, "theorems": ["Tg." + t for t in theorems], "note": note})

claim("C01", "proved", ["C01_wkb_roundtrip", "C01_nan_point_not_roundtrip"],
  "Full round trip for every geometry meeting the parser's validation rules; witness that the rules are needed.")
claim("C02", "proved", ["C02_wkb_writer", "C02_wkb_is_wkb", "C02_geobin_writer"], "Both writers, every buffer size.")
claim("C03", "partial", ["C03_wkb_parser_safe_partial", "C03_small_bytes_safe", "C03_wkb_overread"],
  "The full statement is false of the code: nine bytes make the parser read out of bounds (C03_wkb_overread). Proved for all other inputs.")
claim("C04", "proved", ["C04_wkb_byte_order"], "Any assignment of byte orders and SRIDs to nested objects.")
claim("C05", "proved", ["C05_wkb_nesting", "C05_wkb_too_deep", "C05_wkb_nonvacuous", "C05_geobin_nesting", "C05_geobin_too_deep",
  "C05_geobin_nonvacuous"], "Both parsers.")
claim("C06", "proved", ["C06_hex_writer"], "Every buffer size, in-place conversion included.")
claim("C07", "proved", ["C07_hex_parser", "C07_hex_invalid", "C07_hex_complete", "C07_hex_roundtrip"], "")
claim("C08", "partial", ["C08_geobin_roundtrip_partial", "C08_geobin_parse", "C08_member_json_lost"],
  "The full statement is false of the code for members of a plain GeometryCollection, which lose their extra JSON (C08_member_json_lost). Proved for everything else.")
claim("C09", "partial", ["C09_geobin_header_partial", "C09_empty_point"],
  "False of the code for an empty point (C09_empty_point); proved for everything else.")
claim("C10", "partial", ["C10_geobin_fullrect_safe_partial", "C10_fullrect_overflow", "C10_geobin_rect_safe"],
  "False of the code when the dimension byte exceeds 4 (C10_fullrect_overflow); proved for everything else.")
claim("C11", "partial", ["C11_geobin_safe_partial", "C11_geobin_no_error_partial", "C11_error_as_feature", "C11_geobin_overread"],
  "Both halves are false of the code (C11_geobin_overread, C11_error_as_feature); proved outside the input classes of the witnesses.")
claim("C16", "partial", ["C16_json_exact", "C16_json_complete", "C16_json_sound_partial", "C16_bad_escape_accepted",
  "C16_overlong_accepted", "C16_max_codepoint_rejected"],
  "The exact language is characterised. The full claim is false of the code: a bad escape ends a string, over-long UTF-8 is accepted, U+10FFFF is rejected.")
claim("C17", "proved", ["C17_json_safe", "C17_json_end", "C17_json_depth", "C17_json_depth_reached"], "")
claim("C19", "proved", ["C19_rect_exact"], "Any linear order of coordinates, any lawful rounding to index coordinates, every index option.")
claim("C20", "proved", ["C20_intersects", "C20_covers", "C20_covers_point", "C20_expand", "C20_expand_point", "C20_inside_out"],
  "Rectangles with min <= max; the witness shows what happens otherwise.")
claim("C21", "proved", ["C21_index"], "")
claim("C22", "partial", ["C22_search_partial", "C22_open_ring_missed"],
  "False of the code for indexed rings that are not closed by their last point (C22_open_ring_missed); proved for everything else.")
claim("C23", "partial", ["C23_pairs_partial", "C23_pairs_any_partial", "C23_exact_partial", "C23_order_ieee", "C23_index_changes_answer"],
  "As C22. If the segment test is symmetric, as it is without rounding (C23_exact_partial) and with fixed-point coordinates (C66), the pairs do not depend on the index. With doubles of 29 bits the test is not symmetric, and the index and the order of the arguments change the answer of tg_line_intersects_line (C23_index_changes_answer). C23_pairs_any_partial says which pairs are found for any arithmetic.")
claim("C24", "partial", ["C24_index_independent_partial", "C24_exact_partial", "C24_built", "C24_open_ring_missed", "C24_top_edge_missed", "C24_flat_ring_undefined"],
  "False of the code in three cases, each with a witness; proved for everything else.")
claim("C25", "proved", ["C25_rotate", "C25_reverse", "C25_exact_rotate", "C25_exact_reverse"],
  "Rings closed by their last point. With rounding, Y-stripes need the same number of stripes; without rounding they do not.")
claim("C26", "proved", ["C26_on", "C26_in", "C26_point_in_ring", "C26_large_step"],
  "Exact arithmetic; the step to the next double is a small positive number. C26_point_in_ring extends the result to whole rings outside the defects of C24.")
claim("C27", "proved", ["C27_intersects", "C27_symm", "C27_direction"], "Exact arithmetic.")
claim("C28", "proved", ["C28_covers_point", "C28_covers_segment"], "Exact arithmetic.")
claim("C35", "proved", ["C35_index_options", "C35_env", "C35_what_is_built"], "")
claim("C41", "proved", ["C41_area", "C41_clockwise", "C41_close", "C41_reverse", "C41_rotate", "C41_translate"],
  "Exact arithmetic. The orientation flips on reversal if there is any area.")
claim("C42", "partial", ["C42_open_partial", "C42_closed_partial", "C42_what", "C42_start_vertex", "C42_first_straight"],
  "False of the code in two cases, each with a witness (reflex start vertex of a closed ring, straight first turn); proved for everything else. C42_what says exactly what is computed.")
claim("C29", "partial", ["C29_every_segment", "C29_order_partial", "C29_out_of_memory", "C29_open_ring_order"],
  "Every segment exactly once, for every ring and index; order by distance except for indexed rings that are not closed by their last point, where it fails (witness).")
claim("C30", "proved", ["C30_queue", "C30_out_of_memory", "C30_pops_sorted"],
  "Every history, including failing allocations.")

claim("C31", "proved", ["C31_no_fault", "C31_live", "C31_no_leak", "C31_all_released", "C31_values", "C31_index"],
  "Every history of calls of 17 kinds (constructors, clone, copies, frees), every pattern of allocation failures. The pointers inside an index stay in their own block as long as no indexed object is copied (see C34).")
claim("C33", "proved", ["C33_unchanged", "C33_null", "C33_success"],
  "After a failure the memory is the same as before the call, block by block.")
claim("C34", "partial", ["C34_copy_partial", "C34_null_partial", "C34_free", "C34_index_witness", "C34_empty_witness"],
  "The full statement is false of the code: a copy of an indexed ring keeps a pointer into the original (C34_index_witness), and a geometry with an empty line has no copy (C34_empty_witness). Proved for objects without an index, respectively without NULLs inside.")
claim("C32", "proved", ["C32_no_fault", "C32_alive", "C32_once", "C32_all_released", "C32_last", "C32_release_alone", "C32_finishes"],
  "Any number of threads and objects, any sharing, every interleaving of the atomic operations; no_fault includes that every access happens before the release (release/acquire orders are modelled by views).")
claim("C44", "proved", ["C44_bijective", "C44_neighbours", "C44_ends"],
  "All 2^32 pairs, by the prefix-scan semantics of the bit operations; also that consecutive keys are neighbouring cells.")
claim("C45", "proved", ["C45_built"],
  "All constructors of C31, any history and any failing allocations.")
claim("C36", "partial", ["C36_num", "C36_at_partial", "C36_past_end", "C36_point_at_partial", "C36_holes", "C36_exterior", "C36_point_of_series", "C36_segment_of_series"],
  "Every geometry of every history and every int, except the index equal to the count, where the code reads past the array (C36_past_end, for every collection). Holes, points and segments of series: every int.")
claim("C39", "proved", ["C39_search", "C39_found", "C39_order", "C39_made", "C39_made_exact", "C39_flat_undefined"],
  "Every collection that is made, every rectangle of it that the conversion to index coordinates encloses (a hypothesis on the conversion), any qsort that meets its contract. Not made: 64 or more children on one vertical line, where the code converts a NaN to an integer (C39_flat_undefined).")
claim("C40", "partial", ["C40_rect", "C40_rect_partial", "C40_empty_part"],
  "What the rectangle is in all cases (C40_rect); it is the least one unless a part is empty, where the origin is included (C40_empty_part).")
claim("C43", "proved", ["C43_vectors", "C43_failure", "C43_success", "C43_buffers"], "every history of appends (and truncations), every pattern of allocation failures; blocks below 2^50 bytes")
claim("C37", "partial", ["C37_first", "C37_segment_partial", "C37_hangs", "C37_wrong"],
  "A second line of one segment is judged correctly, and true always means that the first segment is covered. Otherwise the property is false: the loop does not end for every line that leaves the first one at an inner vertex (C37_hangs), and there are wrong answers (C37_wrong).")
claim("C46", "proved", ["C46_line_covers_point"], "exact arithmetic, every index option")
claim("C47", "proved", ["C47_ring_intersects_segment", "C47_no_edges_wrong"],
  "Exact arithmetic, every closed ring with or without an index that finds all its segments. With edges not allowed the function is no test for a point inside (witness).")
claim("C48", "partial", ["C48_contains_segment_partial", "C48_convex_partial", "C48_edges_partial", "C48_corner_wrong", "C48_vertex_wrong", "C48_convex_wrong", "C48_touch_wrong"],
  "False of the code in four ways, each with a witness. Proved: exact for edges not allowed unless the ring is flagged convex; exact for rings that are convex; with edges allowed both directions outside the witnessed cases.")
claim("C49", "proved", ["C49_ring_intersects_line", "C49_ring_intersects_ring"],
  "Exact arithmetic, every pair of rings (also self-intersecting ones), every line.")
claim("C12", "proved", ["C12_wkt", "C12_geojson", "C12_wkt_text", "C12_null_child_undefined"],
  "Every geometry without NULL lines or polygons (witness), every buffer size. Of Ryu's output only the shape is assumed.")
claim("C18", "partial", ["C18_geojson_valid_partial", "C18_unlocated_extra_invalid"],
  "Proved for every geometry whose extra JSON is JSON (RFC 8259). Extra JSON that is not JSON but passes the validator (C16) is copied. Witness for a Feature without geometry that has members for it.")
claim("C50", "proved", ["C50_number_text", "C50_subnormal_zero"], "Ryu's conversion is a parameter; its output has the shape of scientific notation.")
claim("C51", "proved", ["C12_wkt_text", "C51_geojson_text"], "For GeoJSON: geometries without Features and extra members.")
claim("C14", "partial", ["C14_wkt_round_trip_partial", "C14_many_groups_lost", "C14_flat_lost_case"],
  "At most 1024 lists in parentheses; with more the text is always rejected (C14_many_groups_lost). strtod and Ryu are parameters: strtod rounds a decimal number with rnd, and rnd of Ryu's digits gives the double back.")
claim("C15", "proved", ["C15_wkt_safe", "C15_wkt_depth"],
  "Every byte string and every strtod. A number conversion is defined when a ) follows in the slice.")
claim("C52", "proved", ["C52_wkt_accepted", "C52_many_groups_rejected", "C52_empty_list_gets_zm", "C52_after_empty_ignored", "C52_leading_point", "C52_nul_in_name"],
  "strtod is a parameter that rounds decimal numbers before a delimiter. Witnesses for texts that are judged wrongly.")
claim("C13", "proved", ["C13_formats", "C13_dispatch", "C13_geojson_writer", "C13_wkt_writer", "C13_wkb_writer", "C13_hex_writer", "C13_geobin_writer", "C13_high_byte_undefined", "C13_space_before_hex"],
  "Every writer, and every text or byte string of each format. The GeoJSON parser is a parameter. Witness: a first byte from 0x80 on is given to isspace as a negative number.")
claim("C38", "partial", ["C38_equals", "C38_dual", "C38_equals_symm", "C38_empty", "C38_empty_touches_partial", "C38_touches_point_wrong", "C38_touches_hole_wrong",
  "C38_nested_not_covered", "C38_empty_member", "C38_equals_hangs"],
  "Dualities and the answers for empty input are proved for all geometries, touches without one-point linestrings and polygons with holes but no exterior, where it is wrong (witnesses). equals is symmetric when it ends for both orders; witness that it can end for one only.")
claim("C53", "proved", ["C53_intersects", "C53_disjoint", "C53_symm", "C53_hole_sticks_out"],
  "Exact arithmetic. Polygons: the boundaries of holes belong to the polygon (witness for a hole that sticks out), a hole flagged convex is convex, the outside of a hole is connected. Rings: not those with the wrong searches of C22 and C26.")
claim("C54", "proved", ["C54_geojson_safe", "C54_geojson_calls", "C54_geojson_depth", "C54_depth_unbounded"],
  "Every byte string and every strtod; the bound of the depth for standard JSON. Witness: on texts that the validator accepts wrongly the depth is unbounded, so that the stack can overflow.")
claim("C55", "proved", ["C55_geojson_accepted", "C55_long_number_zero"],
  "strtod is a parameter that rounds decimal numbers. Numbers of fewer than 512 bytes (longer ones are read as 0), no U+10FFFF (C16), every name once.")
claim("C56", "proved", ["C56_geojson_round_trip", "C56_deep_lost"],
      "Ryu's digits are assumed to be at most 17 with an exponent from -324 to 324 (SciShort), and strtod to read decimal numbers. Coordinates that are neither normal nor +0 are excluded (they are written as 0, C50). Geojson.levels is exact: text_least.")
claim("C57", "proved", ["C57_feature_accepted", "C57_collection_accepted"],
      "Same hypotheses as C55. properties and id occur at most once and have the types of RFC 7946. Properties that are null or {} are not stored; a flag says null.")
claim("C58", "partial", ["C58_wkt_sound", "C58_geojson_sound", "C58_text_written", "C58_wkb_sound_partial", "C58_geobin_sound_partial", "C58_hex_sound_partial",
      "C58_wkb_null_line", "C58_wkb_null_polygon", "C58_wkb_empty_ring", "C58_wkb_empty_point_is_origin"],
      "Full for WKT and GeoJSON. For WKB, GeoBIN and hex it is false of the code: an empty child of a MultiLineString or MultiPolygon becomes a NULL pointer that the text writers follow, and rings without points are accepted (witnesses). There it is proved for all results without these (and, for GeoBIN, without an error stored as a feature, C11).")
claim("C59", "proved", ["C59_members_round_trip", "C59_feature_round_trip", "C59_collection_round_trip", "C59_escaped_id_twice", "C59_escaped_properties_twice"],
      "names spelled with escapes are written twice; the witnesses show it")
claim("C60", "proved", ["C60_geometry_stable", "C60_feature_stable", "C60_collection_stable"],
      "strtod and Ryu are parameters as in C56. The names id and properties of a Feature are spelled without escapes (C59). The limits of levels and characters are proved for the text that is written.")
claim("C61", "proved", ["C61_covers_point", "C61_contains_point", "C61_touches_point", "C61_point_touches", "C61_point_covers", "C61_point_contains",
                       "C61_polygon_touches_points", "C61_collection_touches", "C61_order_matters", "C61_closed_line", "C61_same_point"],
      "Exact arithmetic and small tolerances as in C53. Polygons: the boundaries of all rings belong to it. within and coveredby are these functions with the arguments swapped (C38_dual).")

claim("C62", "proved", ["C62_covers", "C62_covers_any", "C62_touches", "C62_touches_needs_general", "C62_line_touches_needs_general", "C62_covers_needs_general",
                       "C62_contains_needs_general"],
      "Exact arithmetic and small tolerances as in C53. Polygons on the left: the inside of the exterior escapes and is convex if the flag says so; on the right: the boundaries of all rings belong to it.")

claim("C63", "proved", ["C63_exact", "C63_sound", "C63_needs_no_overlap", "C63_needs_ends_once", "C63_needs_no_repeat"],
      "Exact arithmetic. The boundary of a line is its two ends, also if it is closed, as in the code.")

claim("C64", "proved", ["C64_geometry", "C64_feature", "C64_collection", "C64_others", "C64_odd_accepted"],
      "Both directions. For standard JSON texts; strtod is assumed to be right for decimal numbers of fewer than 512 bytes. Which foreign members are kept is C55 and C57.")

claim("C65", "proved", ["C65_safe", "C65_special", "C65_reads_back", "C65_shortest", "C65_shape", "C65_readable", "C65_wkt_round_trip", "C65_geojson_round_trip"],
      "All doubles. The tables of powers of five are copied from the source and checked in the kernel for every exponent. The round trips assume that strtod rounds to the nearest double; the limits of C14 and C56 apply.")

claim("C66", "proved", ["C66_collinear", "C66_ray_on", "C66_ray_in", "C66_intersects", "C66_covers_point", "C66_covers_segment", "C66_bits_needed", "C66_next", "C66_middle_missed", "C66_nudge_wrong"],
      "For any rounding to the nearest double, ties to even. Coordinates have at most 24 bits; C66_nudge_wrong and C66_middle_missed show that the statement fails for 28 bits (a point next to a segment is found on it) and 29 bits (the middle of a segment is not found).")

claim("C67", "proved", ["C67_intersects", "C67_disjoint", "C67_point", "C67_touches_point", "C67_covers", "C67_covers_any", "C67_touches", "C67_lines_touch"],
      "For any rounding to the nearest double, ties to even, and coordinates of at most 24 bits. Covers, contains and touches of other than points need general position, as in C62.")

claim("C68", "proved", ["C68_lawful", "C68_encloses", "C68_fits", "C68_intersects", "C68_tiny", "C68_huge", "C68_huge_missed"],
      "Rounding to the nearest float with any choice of ties. C68_tiny, C68_huge and C68_huge_missed show that the range is needed.")

claim("C69", "proved", ["C69_point_point", "C69_point_segment", "C69_rect_rect", "C69_point_rect", "C69_nearest", "C69_ieee_nearest"],
      "The order excepts indexed rings that are not closed by their last point, as in C29.")

claim("C70", "proved", ["C70_circle", "C70_overflow"],
      "Up to 2^25 steps. C70_overflow shows that a bound is needed: with 754974677 steps (12 GB) there is a write out of bounds.")

claim("C71", "proved", ["C71_segment", "C71_beside", "C71_shared", "C71_covers_vertex"],
      "For doubles of any grid. Exceptions: top of a ring with Y-stripes (Below), holes whose rectangle contains the other geometry.")

claim("C72", "proved", ["C72_intersects_rect", "C72_xy", "C72_intersects_rect_ieee"],
      "Same hypotheses on the geometry as C53 and C68.")

claim("C73", "proved", ["C73_perimeter", "C73_score", "C73_ring_less_than_one", "C73_line_less_than_two", "C73_line_above_one"],
      "Exact arithmetic, real coordinates. The score of a line can be above 1 (C73_line_above_one), against the comment in tg.c:14622, which speaks of the ring or line.")

claim("C74", "partial", ["C74_align", "C74_ring_block", "C74_index_aligned", "C74_stripes_block_partial", "C74_ring_memsize", "C74_poly_memsize", "C74_poly_memsize_wrong", "C74_num_keys", "C74_nmap_zigzag", "C74_nmap_overflow"],
      "False of the code for stripes with 2^31 entries or more: nmap is an int and overflows for a zigzag ring of 2^26 points (C74_nmap_overflow); C74_stripes_block_partial is about the counts without overflow. tg_poly_memsize reports sizeof(struct tg_ring) per hole instead of a pointer (C74_poly_memsize_wrong).")

claim("C75", "proved", ["C75_polygon", "C75_on_circle", "C75_measure", "C75_convex", "C75_score", "C75_limit"],
      "Exact real arithmetic. The array and the loop with doubles are C70.")

claim("C76", "proved", ["C76_made", "C76_rect", "C76_index", "C76_exists", "C76_same", "C76_segment", "C76_measures", "C76_perimeter", "C76_intersects", "C76_rect_ieee", "C76_ieee", "C76_rounding",
       "C76_index_lost"], "The move keeps the kind of the index, but not its spread (C76_index_lost).")

claim("C77", "proved", ["C77_line_sound", "C77_line", "C77_poly_sound", "C77_self", "C77_start_matters", "C77_through", "C77_both_ends"],
      "Holes are covered by C77_line_sound only.")

claim("C78", "proved", ["C78_chain", "C78_search", "C78_point_covers", "C78_covers_line", "C78_covers_ring", "C78_covers_line_set", "C78_covers_poly_set",
      "C78_segment_covers", "C78_diagonal_wrong", "C78_line_covers_proper", "C78_line_covers_flat", "C78_vertical_wrong", "C78_intersects_line",
      "C78_intersects_poly", "C78_poly_covers"], "Two functions give wrong answers outside of the stated cases.")

claim("C79", "proved", ["C79_has", "C79_wkt_has", "C79_geojson_has", "C79_wkb_has", "C79_intersects", "C79_rect", "C79_covers_point", "C79_texts", "C79_format",
      "C79_made"], "For fixed-point coordinates and polygons that meet the conditions of C53.")

claim("C80", "proved", ["C80_bounds", "C80_ring", "C80_segments", "C80_multi", "C80_children", "C80_others", "C80_open_ring_missed"],
      "For rings that are not closed only the numbers and the nesting of the rectangles; the witness shows that the last segment may be outside.")

claim("C81", "proved", ["C81_ray", "C81_covers_point", "C81_intersects", "C81_point_in_ring", "C81_lines", "C81_covers", "C81_contains", "C81_point_intersects", "C81_needed"],
      "For points farther than M / 2^46 from the lines of the segments; the witness shows that nearer points may get a wrong answer.")

claim("C82", "proved", ["C82_ray", "C82_intersects", "C82_lines", "C82_point_in_ring", "C82_point", "C82_objects", "C82_texts", "C82_needed"],
      "For points away from the lines of the segments; the witness shows that points on slanted segments are lost in the rounding.")

claim("C83", "proved", ["C83_read", "C83_parsed", "C83_wkb", "C83_wkt", "C83_geojson", "C83_type", "C83_empty", "C83_dims", "C83_needed"],
      "For objects whose empty flag says the truth, which all parsed objects do.")

claim("C84", "partial", ["C84_stops", "C84_foreach_partial", "C84_not_flat"],
      "False of the code for nested collections, empty members and homogeneous collections with Z or M (witnesses); proved for all others. Order and stop are proved for all.")

claim("C85", "proved", ["C85_convex", "C85_intersects", "C85_disjoint", "C85_symm"],
      "For geometries farther than M / 2^46 from each other's lines, polygons as in C53.")

claim("C86", "proved", ["C86_covers", "C86_within"],
      "For a polygon and a geometry whose vertices are farther than M / 2^46 from each other's sides, polygons as in C62.")

claim("C87", "proved", ["C87_touches_point", "C87_point_touches", "C87_touches"],
      "For points clear of the segments, and for two geometries clear of each other in general position.")

claim("C88", "proved", ["C88_covers", "C88_within", "C88_thin", "C88_union_missed"],
      "For two geometries clear of each other in general position. True is never wrong; it is given whenever one part is enough.")

claim("C89", "proved", ["C89_memsize", "C89_exact", "C89_lp64", "C89_index_block"],
      "What is reported in all cases; polygons with holes are reported too large (C74_poly_memsize_wrong).")

claim("C90", "proved", ["C90_one", "C90_multi", "C90_within"],
      "An equivalence. For two geometries clear of each other in general position; the second has no collection inside a collection.")

claim("C91", "proved", ["C91_escape", "C91_max_replaced"],
      "For all bytes and buffers. That the last character of Unicode is lost is part of the statement.")

claim("C92", "proved", ["C92_copy", "C92_round_trip", "C92_parser"],
      "For all values and blocks. The round trip is for ASCII and UTF-8 without U+10FFFF, which json_escapen replaces (C91).")

claim("C93", "proved", ["C93_comparen", "C93_compare", "C93_equal", "C93_length_ignored"],
      "For all values and all C strings. C93_length_ignored shows that for strings with escapes the length given is not used, so that json_getn misses escaped keys inside a path.")

claim("C94", "proved", ["C94_integer", "C94_fraction", "C94_infinite", "C94_undefined", "C94_nan", "C94_long", "C94_space"],
      "For all texts and every strtod. The cases where the behavior is not defined are told exactly for finite doubles.")

claim("C95", "proved", ["C95_string", "C95_number", "C95_other"],
      "For all values and every strtod.")


here = os.path.dirname(os.path.abspath(__file__))
with open(os.path.join(here, "..", "MANIFEST.json"), "w") as f:
    json.dump({"claims": C}, f, indent=1)
    f.write("\n")

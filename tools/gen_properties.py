#!/usr/bin/env python3
"""Writes ../properties.jsonl from the list below (one property per entry)."""
import json, os
P = []
def p(title, statement, quantifier, why, anchors):
    P.append(dict(id="C%02d" % (len(P)+1), title=title, statement=statement,
                  quantifier=quantifier, why_tests_cant=why, anchors=anchors))

p("WKB round trip",
  "Parsing the bytes written by tg_geom_wkb gives back a geometry with the same type, the same Z/M flags and bit-for-bit the same coordinates, for every geometry that meets the validation rules the parser enforces (line of at least 2 positions, closed rings of at least 3, no empty members of multi geometries, a point not all NaN) and whose nesting is within the parser's limit.",
  "every geometry: any type, any nesting of collections, any number of points, rings, holes and children, any 64-bit coordinate patterns",
  "the space of geometries is unbounded in size and depth and every coordinate is an arbitrary 64-bit pattern (NaN, -0, infinities)",
  ["tg.c:tg_geom_wkb", "tg.c:tg_parse_wkb", "tg.c:parse_wkb", "tg.c:write_geom_wkb"])
p("Binary writers never write past the buffer and report the full length",
  "For tg_geom_wkb and tg_geom_geobin and every buffer size n: the return value is the length of the complete encoding and does not depend on n; the first min(n, length) bytes of the buffer are the first bytes of the complete encoding; no byte at index >= n or >= length is modified.",
  "every geometry and every buffer size n, including 0 and every n that cuts inside a number",
  "the writer has several fast paths whose guards compare count+k with n, so every n relative to every field boundary is a different path",
  ["tg.c:struct writer", "tg.c:write_byte", "tg.c:write_posn_wkb", "tg.c:write_ring_points_wkb", "tg.c:tg_geom_wkb", "tg.c:tg_geom_geobin"])
p("WKB parser is memory safe on arbitrary bytes",
  "tg_parse_wkb(data, len) never reads a byte outside data[0..len) whatever the bytes are, and always ends with a geometry or an error.",
  "every byte string of every length",
  "adversarial inputs: counts, types and nesting are all attacker controlled 32-bit values",
  ["tg.c:parse_wkb", "tg.c:parse_wkb_posns", "tg.c:read_uint32"])
p("WKB byte order independence",
  "A geometry encoded in big-endian WKB parses to the same result as the same geometry encoded in little-endian WKB, and the byte order may differ from one nested object to the next.",
  "every geometry and every assignment of byte orders to its nested objects",
  "mixed byte orders give exponentially many encodings; little-endian 2D uses a different code path (no copy) from the others",
  ["tg.c:parse_wkb", "tg.c:parse_wkb_posns", "tg.c:read_uint64"])
p("Nesting depth limit of the binary parsers",
  "For every input the parser's recursion depth is bounded by 1025 levels; collections nested deeper are rejected with an error instead of recursing.",
  "every byte string",
  "stack exhaustion needs adversarial nesting; no finite set of inputs bounds all inputs",
  ["tg.c:parse_wkb", "tg.c:parse_geobin", "tg.c:MAXDEPTH"])
p("Hex writer",
  "tg_geom_hex returns twice the WKB length and fills the buffer with the upper-case hex digits of the WKB, truncated to n-1 characters and null terminated for every n > 0, although it converts in place inside the caller's buffer.",
  "every geometry and every n",
  "the in-place backwards rewrite overlaps source and destination differently for every length and every truncation point",
  ["tg.c:tg_geom_hex"])
p("Hex parser",
  "tg_parse_hex of the hex digits (either case) of any byte string behaves exactly like the binary parser on those bytes, and any string of odd length or containing a non-hex character is an error.",
  "every byte string and every character string",
  "256-entry table and stack/heap buffer split at 128 bytes: exhaustive testing over strings is impossible",
  ["tg.c:parse_hex", "tg.c:tg_parse_hexn_ix"])
p("GeoBIN round trip",
  "Parsing the bytes written by tg_geom_geobin gives back a geometry with the same type, coordinates, Feature/FeatureCollection marks and extra JSON.",
  "every geometry incl. features with any valid extra JSON and feature collections of any size and nesting",
  "unbounded nesting of collections and arbitrary JSON payloads",
  ["tg.c:tg_geom_geobin", "tg.c:parse_geobin", "tg.c:write_base_geom_geobin", "docs/GEOBIN.md"])
p("GeoBIN header queries agree with the geometry",
  "tg_geobin_rect and tg_geobin_fullrect applied to the output of tg_geom_geobin return exactly tg_geom_rect / tg_geom_fullrect of the geometry that was written.",
  "every geometry",
  "must hold for each type, dimension and nesting, at bit precision",
  ["tg.c:tg_geobin_rect", "tg.c:tg_geobin_fullrect", "tg.c:tg_geom_fullrect"])
p("GeoBIN header queries stay inside their buffers",
  "tg_geobin_fullrect(data, len, min, max) reads only data[0..len) and writes only min[0..4) and max[0..4).",
  "every byte string",
  "the dimension byte is attacker controlled",
  ["tg.c:tg_geobin_fullrect"])
p("GeoBIN parser on arbitrary bytes",
  "tg_parse_geobin never reads outside its input, and when it reports success no geometry inside the result is an error value.",
  "every byte string",
  "adversarial headers, counts, extra JSON and nested WKB",
  ["tg.c:parse_geobin", "tg.c:tg_parse_geobin_ix"])
p("Text writers: truncation and null termination",
  "For tg_geom_wkt and tg_geom_geojson and every n: the return value is the full text length independent of n, the buffer holds the longest prefix of at most n-1 characters followed by a null byte when n > 0, and nothing past n is written.",
  "every geometry, number formatting and n",
  "each number is formatted directly into the remaining space, so every cut point is a distinct state",
  ["tg.c:write_nullterm", "tg.c:write_char", "tg.c:write_string_double", "tg.c:tg_geom_wkt", "tg.c:tg_geom_geojson"])
p("Format auto-detection",
  "tg_parse on the output of any of the writers (GeoJSON, WKT, WKB, hex, GeoBIN) dispatches to the matching parser.",
  "every geometry and every writer",
  "depends on the first bytes of every possible output",
  ["tg.c:tg_parse_ix"])
p("WKT round trip",
  "Parsing the text written by tg_geom_wkt gives back a geometry with the same type, dimensions and coordinates.",
  "every geometry with finite normal coordinates, any nesting and number of parts",
  "unbounded recursion over the grammar; depends on the parser agreeing with the writer for every arrangement",
  ["tg.c:tg_geom_wkt", "tg.c:parse_wkt", "tg.c:wkt_balance_coords", "tg.c:wkt2type"])
p("WKT parser is memory safe on arbitrary bytes",
  "tg_parse_wktn(data, len) never reads data at an index >= len or < 0 (other than the number conversion, which stops at the closing parenthesis), and always ends.",
  "every byte string",
  "adversarial text: unbalanced parentheses, truncated numbers, missing groups",
  ["tg.c:parse_wkt", "tg.c:wkt_vnumber", "tg.c:wkt_balance_coords", "tg.c:parse_wkt_geometrycollection"])
p("JSON validator accepts exactly JSON",
  "json_validn (used by tg_parse_geojson and by the GeoBIN parser) accepts a byte string exactly when it is one JSON value with nesting at most 1024, surrounded by optional white space.",
  "every byte string",
  "language equality cannot be established by samples",
  ["tg.c:json_validn_ex", "tg.c:vany", "tg.c:vstring", "tg.c:vnumber", "tg.c:varray", "tg.c:vobject"])
p("JSON validator stays inside its input",
  "Validation reads only data[0..len), ends for every input and recurses at most 1024 levels.",
  "every byte string",
  "adversarial input",
  ["tg.c:json_validn_ex", "tg.c:vutf8", "tg.c:vesc"])
p("GeoJSON writer always produces valid JSON",
  "The text written by tg_geom_geojson is one valid JSON value for every geometry.",
  "every geometry, feature, collection and extra JSON",
  "must hold for all nestings, dimension mixes and member combinations",
  ["tg.c:tg_geom_geojson", "tg.c:write_base_geom_geojson"])
p("Minimum bounding rectangle is exact",
  "tg_ring_rect / tg_line_rect return the smallest rectangle containing every vertex, whichever index option was used to build the ring.",
  "every point series with two or more points and every index option",
  "the rectangle is accumulated in four different loops (indexed or not, concave or not) for series of any length",
  ["tg.c:process_points", "tg.c:series_new", "tg.c:rect_inflate"])
p("Rectangle predicates",
  "tg_rect_intersects_rect holds exactly when the two closed boxes share a point, tg_rect_covers_rect exactly when one contains the other, and tg_rect_expand is the least box covering both.",
  "all rectangles over all doubles except NaN",
  "universally quantified over points of the plane",
  ["tg.c:tg_rect_intersects_rect", "tg.c:rect_covers_rect", "tg.c:tg_rect_expand"])
p("Index rectangles cover what is below them",
  "In the index of a line or of a closed ring every leaf rectangle covers the (rounded) extent of its segments, every upper rectangle covers its children, and each level has exactly ceil(n / spread^k) rectangles with at most spread at the root.",
  "every point series, every spread, all levels",
  "number of levels grows with the input; off-by-one errors appear only at particular remainders of npoints mod spread",
  ["tg.c:process_points", "tg.c:fill_in_upper_index_levels", "tg.c:calc_num_levels", "tg.c:fill_index_struct"])
p("Segment search returns exactly the intersecting segments",
  "tg_ring_search / tg_line_search call back with exactly the segments whose bounding box intersects the query, each once, in order, with or without an index, and stop at the first callback that returns false.",
  "every point series, query rectangle, index option, spread and callback behaviour",
  "pruning soundness depends on every coordinate being rounded to float in the safe direction",
  ["tg.c:index_search", "tg.c:tg_ring_search", "tg.c:tg_line_search"])
p("Ring against ring search is independent of the index",
  "tg_ring_ring_search reports the same set of segment pairs with both, one or no index.",
  "every pair of point series and index options",
  "dual tree traversal with unequal heights",
  ["tg.c:tg_ring_ring_search", "tg.c:ring_ring_ix"])
p("Point in ring is independent of the index",
  "Testing a point against a ring gives the same answer with no index, the natural index and the Y-stripes index.",
  "every ring, point, spread and index option",
  "the three evaluation paths share almost no code; equality must hold for every point incl. those on stripe and node borders",
  ["tg.c:tg_ring_contains_point", "tg.c:standard_pip", "tg.c:index_pip", "tg.c:ystripes_pip", "tg.c:process_ystripes"])
p("Point in ring does not depend on start vertex or direction",
  "Rotating the vertex list of a closed ring or reversing it does not change the result of the point test.",
  "every ring, rotation and point",
  "universal over rings of any length",
  ["tg.c:tg_ring_contains_point", "tg.c:raycast"])
p("Ray cast classification",
  "The per-segment ray test reports ON exactly when the point lies on the closed segment and IN exactly when the horizontal ray to the right crosses the half-open segment.",
  "every segment and point, exact arithmetic",
  "all relative positions including degenerate segments and shared ordinates",
  ["tg.c:raycast", "tg.c:collinear"])
p("Segment intersection test",
  "tg_segment_intersects_segment is symmetric, does not depend on the direction of either segment and holds exactly when the closed segments share a point.",
  "every pair of segments, exact arithmetic",
  "infinitely many relative positions, including collinear overlap and degenerate segments",
  ["tg.c:tg_segment_intersects_segment"])
p("Segment covering and point on segment",
  "tg_segment_covers_point holds exactly for points of the closed segment, and tg_segment_covers_segment exactly when the second segment is a subset of the first.",
  "every segment and point, exact arithmetic",
  "universal over the plane",
  ["tg.c:tg_segment_covers_point", "tg.c:tg_segment_covers_segment", "tg.c:point_on_segment", "tg.c:collinear"])
p("Nearest segment iteration",
  "tg_ring_nearest_segment delivers every segment exactly once and in non-decreasing distance order, with or without index, whenever the caller's rectangle distance is a lower bound for what lies inside the rectangle, and stops when the callback returns false.",
  "every ring, distance function, index option and stopping point",
  "interleaving of rectangle and segment entries in the queue depends on the data",
  ["tg.c:tg_ring_nearest_segment", "tg.c:nqueue_push", "tg.c:nqueue_pop"])
p("Priority queue",
  "Popping always yields a least-distance entry and pushes and pops never lose or duplicate entries.",
  "every history of pushes and pops",
  "history dependent heap shape",
  ["tg.c:nqueue_push", "tg.c:nqueue_pop"])
p("Reference counting",
  "For every history of creating, cloning, composing and freeing rings, lines, polygons and geometries in which the caller frees each reference it owns once, no object is used after it is released, none is released twice, and when the caller owns nothing everything is released.",
  "every history of API calls and every sharing graph",
  "depends on the whole history and on the sharing of rings between polygons, geometries and collections",
  ["tg.c:rc_retain", "tg.c:rc_release", "tg.c:tg_geom_free", "tg.c:tg_poly_free", "tg.c:tg_ring_free", "tg.c:tg_geom_clone"])
p("Concurrent clone and free",
  "When threads clone and free references to a shared geometry concurrently, under every interleaving of the atomic operations the object is released exactly once, by the thread that drops the last reference, and never while another thread still owns one.",
  "every number of threads and every schedule",
  "schedules cannot be enumerated by tests",
  ["tg.c:rc_retain", "tg.c:rc_release"])
p("Allocation failure",
  "Polygon, multi-geometry constructors and tg_geom_copy leave no leaked or doubly released memory when any allocation fails; they return NULL and the arguments still belong to the caller.",
  "every input and every pattern of allocation failures",
  "failure points multiply with the size of the input",
  ["tg.c:tg_poly_new", "tg.c:geom_new_multi", "tg.c:tg_geom_copy", "tg.c:tg_poly_copy"])
p("Deep copy",
  "tg_geom_copy returns a geometry equal to the original that shares no storage with it, so that freeing either leaves the other intact.",
  "every geometry",
  "any nesting and sharing",
  ["tg.c:tg_geom_copy", "tg.c:geom_copy", "tg.c:tg_poly_copy", "tg.c:tg_ring_copy"])
p("Index option encoding",
  "tg_index_with_spread followed by extraction gives back the index kind and the spread clamped to [2,4096]; the environment default applies when none is given.",
  "every index kind and every integer spread",
  "all integers",
  ["tg.c:tg_index_with_spread", "tg.c:tg_index_extract_spread", "tg.c:tg_env_set_index_spread"])
p("Accessors are safe for every index",
  "tg_geom_point_at, tg_geom_line_at, tg_geom_poly_at and tg_geom_geometry_at return the documented empty value for every index outside [0, count).",
  "every geometry and every int index",
  "all ints",
  ["tg.c:tg_geom_point_at", "tg.c:tg_geom_line_at", "tg.c:tg_geom_poly_at", "tg.c:tg_geom_geometry_at"])
p("Line covers line",
  "tg_line_covers_line terminates and returns true only if every point of the second line lies on the first.",
  "every pair of lines",
  "the walk over the first line is driven by data and can move both ways",
  ["tg.c:tg_line_covers_line"])
p("Predicate dualities",
  "within, coveredby, disjoint and equals agree with contains, covers, intersects and mutual containment for every pair; equals is symmetric; every predicate is false on empty or NULL input except disjoint.",
  "every pair of geometries",
  "quantifies over pairs of arbitrary nested geometries",
  ["tg.c:tg_geom_within", "tg.c:tg_geom_coveredby", "tg.c:tg_geom_disjoint", "tg.c:tg_geom_equals"])
p("Collection search",
  "tg_geom_search reports exactly the children whose rectangle intersects the query, each once, whether or not the collection is indexed.",
  "every collection size and query",
  "the Hilbert-sorted index only exists for 64 or more children and permutes them",
  ["tg.c:tg_geom_search", "tg.c:multi_index_search", "tg.c:multi_geom_inflate_index"])
p("Collection bounding rectangle",
  "tg_geom_rect of a collection is the smallest rectangle covering the rectangles of all its non-empty parts.",
  "every collection",
  "any nesting, including empty members",
  ["tg.c:multi_geom_inflate_rect", "tg.c:tg_geom_rect"])
p("Signed area, orientation",
  "Reversing a closed ring flips the orientation flag and keeps the area; rotating its start vertex and translating it keep both (exact arithmetic); the area is the shoelace area.",
  "every closed ring",
  "universal over vertex lists",
  ["tg.c:process_points", "tg.c:tg_ring_area", "tg.c:tg_ring_clockwise"])
p("Convexity flag",
  "tg_ring_convex is true exactly when all turns of the ring have the same direction.",
  "every closed ring",
  "universal over vertex lists",
  ["tg.c:process_points", "tg.c:tg_ring_convex"])
p("Growable buffers",
  "The vectors used by the parsers keep exactly the appended elements in order, never write past their capacity, and on allocation failure keep their previous content.",
  "every sequence of appends and every failure pattern",
  "history dependent capacity growth",
  ["tg.c:def_vec", "tg.c:grow_cap", "tg.c:tg_buf_append"])
p("Hilbert order is a bijection",
  "The Hilbert key used to order the children of a collection maps distinct 16-bit grid cells to distinct 32-bit keys.",
  "all pairs of 16-bit coordinates",
  "2^32 inputs, pairwise",
  ["tg.c:hilbert_xy_to_index", "tg.c:tg_point_hilbert"])

out = os.path.join(os.path.dirname(os.path.abspath(__file__)), "..", "properties.jsonl")
with open(out, "w") as f:
    for e in P: f.write(json.dumps(e) + "\n")
print(len(P))

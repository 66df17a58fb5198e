{"id": "C01", "title": "WKB round trip", "statement": "Parsing the bytes written by tg_geom_wkb gives back a geometry with the same type, the same Z/M flags and bit-for-bit the same coordinates, for every geometry that meets the validation rules the parser enforces (line of at least 2 positions, closed rings of at least 3, no empty members of multi geometries, a point not all NaN) and whose nesting is within the parser's limit.", "quantifier": "every geometry: any type, any nesting of collections, any number of points, rings, holes and children, any 64-bit coordinate patterns", "why_tests_cant": "the space of geometries is unbounded in size and depth and every coordinate is an arbitrary 64-bit pattern (NaN, -0, infinities)", "anchors": ["tg.c:tg_geom_wkb", "tg.c:tg_parse_wkb", "tg.c:parse_wkb", "tg.c:write_geom_wkb"]}
{"id": "C02", "title": "Binary writers never write past the buffer and report the full length", "statement": "For tg_geom_wkb and tg_geom_geobin and every buffer size n: the return value is the length of the complete encoding and does not depend on n; the first min(n, length) bytes of the buffer are the first bytes of the complete encoding; no byte at index >= n or >= length is modified.", "quantifier": "every geometry and every buffer size n, including 0 and every n that cuts inside a number", "why_tests_cant": "the writer has several fast paths whose guards compare count+k with n, so every n relative to every field boundary is a different path", "anchors": ["tg.c:struct writer", "tg.c:write_byte", "tg.c:write_posn_wkb", "tg.c:write_ring_points_wkb", "tg.c:tg_geom_wkb", "tg.c:tg_geom_geobin"]}
{"id": "C03", "title": "WKB parser is memory safe on arbitrary bytes", "statement": "tg_parse_wkb(data, len) never reads a byte outside data[0..len) whatever the bytes are, and always ends with a geometry or an error.", "quantifier": "every byte string of every length", "why_tests_cant": "adversarial inputs: counts, types and nesting are all attacker controlled 32-bit values", "anchors": ["tg.c:parse_wkb", "tg.c:parse_wkb_posns", "tg.c:read_uint32"]}
{"id": "C04", "title": "WKB byte order independence", "statement": "A geometry encoded in big-endian WKB parses to the same result as the same geometry encoded in little-endian WKB, and the byte order may differ from one nested object to the next.", "quantifier": "every geometry and every assignment of byte orders to its nested objects", "why_tests_cant": "mixed byte orders give exponentially many encodings; little-endian 2D uses a different code path (no copy) from the others", "anchors": ["tg.c:parse_wkb", "tg.c:parse_wkb_posns", "tg.c:read_uint64"]}
{"id": "C05", "title": "Nesting depth limit of the binary parsers", "statement": "For every input the parser's recursion depth is bounded by 1025 levels; collections nested deeper are rejected with an error instead of recursing.", "quantifier": "every byte string", "why_tests_cant": "stack exhaustion needs adversarial nesting; no finite set of inputs bounds all inputs", "anchors": ["tg.c:parse_wkb", "tg.c:parse_geobin", "tg.c:MAXDEPTH"]}
{"id": "C06", "title": "Hex writer", "statement": "tg_geom_hex returns twice the WKB length and fills the buffer with the upper-case hex digits of the WKB, truncated to n-1 characters and null terminated for every n > 0, although it converts in place inside the caller's buffer.", "quantifier": "every geometry and every n", "why_tests_cant": "the in-place backwards rewrite overlaps source and destination differently for every length and every truncation point", "anchors": ["tg.c:tg_geom_hex"]}
{"id": "C07", "title": "Hex parser", "statement": "tg_parse_hex of the hex digits (either case) of any byte string behaves exactly like the binary parser on those bytes, and any string of odd length or containing a non-hex character is an error.", "quantifier": "every byte string and every character string", "why_tests_cant": "256-entry table and stack/heap buffer split at 128 bytes: exhaustive testing over strings is impossible", "anchors": ["tg.c:parse_hex", "tg.c:tg_parse_hexn_ix"]}
{"id": "C08", "title": "GeoBIN round trip", "statement": "Parsing the bytes written by tg_geom_geobin gives back a geometry with the same type, coordinates, Feature/FeatureCollection marks and extra JSON.", "quantifier": "every geometry incl. features with any valid extra JSON and feature collections of any size and nesting", "why_tests_cant": "unbounded nesting of collections and arbitrary JSON payloads", "anchors": ["tg.c:tg_geom_geobin", "tg.c:parse_geobin", "tg.c:write_base_geom_geobin", "docs/GEOBIN.md"]}
{"id": "C09", "title": "GeoBIN header queries agree with the geometry", "statement": "tg_geobin_rect and tg_geobin_fullrect applied to the output of tg_geom_geobin return exactly tg_geom_rect / tg_geom_fullrect of the geometry that was written.", "quantifier": "every geometry", "why_tests_cant": "must hold for each type, dimension and nesting, at bit precision", "anchors": ["tg.c:tg_geobin_rect", "tg.c:tg_geobin_fullrect", "tg.c:tg_geom_fullrect"]}
{"id": "C10", "title": "GeoBIN header queries stay inside their buffers", "statement": "tg_geobin_fullrect(data, len, min, max) reads only data[0..len) and writes only min[0..4) and max[0..4).", "quantifier": "every byte string", "why_tests_cant": "the dimension byte is attacker controlled", "anchors": ["tg.c:tg_geobin_fullrect"]}
{"id": "C11", "title": "GeoBIN parser on arbitrary bytes", "statement": "tg_parse_geobin never reads outside its input, and when it reports success no geometry inside the result is an error value.", "quantifier": "every byte string", "why_tests_cant": "adversarial headers, counts, extra JSON and nested WKB", "anchors": ["tg.c:parse_geobin", "tg.c:tg_parse_geobin_ix"]}
{"id": "C12", "title": "Text writers: truncation and null termination", "statement": "For tg_geom_wkt and tg_geom_geojson and every n: the return value is the full text length independent of n, the buffer holds the longest prefix of at most n-1 characters followed by a null byte when n > 0, and nothing past n is written.", "quantifier": "every geometry, number formatting and n", "why_tests_cant": "each number is formatted directly into the remaining space, so every cut point is a distinct state", "anchors": ["tg.c:write_nullterm", "tg.c:write_char", "tg.c:write_string_double", "tg.c:tg_geom_wkt", "tg.c:tg_geom_geojson"]}
{"id": "C13", "title": "Format auto-detection", "statement": "tg_parse on the output of any of the writers (GeoJSON, WKT, WKB, hex, GeoBIN) dispatches to the matching parser.", "quantifier": "every geometry and every writer", "why_tests_cant": "depends on the first bytes of every possible output", "anchors": ["tg.c:tg_parse_ix"]}
{"id": "C14", "title": "WKT round trip", "statement": "Parsing the text written by tg_geom_wkt gives back a geometry with the same type, dimensions and coordinates.", "quantifier": "every geometry with finite normal coordinates, any nesting and number of parts", "why_tests_cant": "unbounded recursion over the grammar; depends on the parser agreeing with the writer for every arrangement", "anchors": ["tg.c:tg_geom_wkt", "tg.c:parse_wkt", "tg.c:wkt_balance_coords", "tg.c:wkt2type"]}
{"id": "C15", "title": "WKT parser is memory safe on arbitrary bytes", "statement": "tg_parse_wktn(data, len) never reads data at an index >= len or < 0 (other than the number conversion, which stops at the closing parenthesis), and always ends.", "quantifier": "every byte string", "why_tests_cant": "adversarial text: unbalanced parentheses, truncated numbers, missing groups", "anchors": ["tg.c:parse_wkt", "tg.c:wkt_vnumber", "tg.c:wkt_balance_coords", "tg.c:parse_wkt_geometrycollection"]}
{"id": "C16", "title": "JSON validator accepts exactly JSON", "statement": "json_validn (used by tg_parse_geojson and by the GeoBIN parser) accepts a byte string exactly when it is one JSON value with nesting at most 1024, surrounded by optional white space.", "quantifier": "every byte string", "why_tests_cant": "language equality cannot be established by samples", "anchors": ["tg.c:json_validn_ex", "tg.c:vany", "tg.c:vstring", "tg.c:vnumber", "tg.c:varray", "tg.c:vobject"]}
{"id": "C17", "title": "JSON validator stays inside its input", "statement": "Validation reads only data[0..len), ends for every input and recurses at most 1024 levels.", "quantifier": "every byte string", "why_tests_cant": "adversarial input", "anchors": ["tg.c:json_validn_ex", "tg.c:vutf8", "tg.c:vesc"]}
{"id": "C18", "title": "GeoJSON writer always produces valid JSON", "statement": "The text written by tg_geom_geojson is one valid JSON value for every geometry.", "quantifier": "every geometry, feature, collection and extra JSON", "why_tests_cant": "must hold for all nestings, dimension mixes and member combinations", "anchors": ["tg.c:tg_geom_geojson", "tg.c:write_base_geom_geojson"]}
{"id": "C19", "title": "Minimum bounding rectangle is exact", "statement": "tg_ring_rect / tg_line_rect return the smallest rectangle containing every vertex, whichever index option was used to build the ring.", "quantifier": "every point series with two or more points and every index option", "why_tests_cant": "the rectangle is accumulated in four different loops (indexed or not, concave or not) for series of any length", "anchors": ["tg.c:process_points", "tg.c:series_new", "tg.c:rect_inflate"]}
{"id": "C20", "title": "Rectangle predicates", "statement": "tg_rect_intersects_rect holds exactly when the two closed boxes share a point, tg_rect_covers_rect exactly when one contains the other, and tg_rect_expand is the least box covering both.", "quantifier": "all rectangles over all doubles except NaN", "why_tests_cant": "universally quantified over points of the plane", "anchors": ["tg.c:tg_rect_intersects_rect", "tg.c:rect_covers_rect", "tg.c:tg_rect_expand"]}
{"id": "C21", "title": "Index rectangles cover what is below them", "statement": "In the index of a line or of a closed ring every leaf rectangle covers the (rounded) extent of its segments, every upper rectangle covers its children, and each level has exactly ceil(n / spread^k) rectangles with at most spread at the root.", "quantifier": "every point series, every spread, all levels", "why_tests_cant": "number of levels grows with the input; off-by-one errors appear only at particular remainders of npoints mod spread", "anchors": ["tg.c:process_points", "tg.c:fill_in_upper_index_levels", "tg.c:calc_num_levels", "tg.c:fill_index_struct"]}
{"id": "C22", "title": "Segment search returns exactly the intersecting segments", "statement": "tg_ring_search / tg_line_search call back with exactly the segments whose bounding box intersects the query, each once, in order, with or without an index, and stop at the first callback that returns false.", "quantifier": "every point series, query rectangle, index option, spread and callback behaviour", "why_tests_cant": "pruning soundness depends on every coordinate being rounded to float in the safe direction", "anchors": ["tg.c:index_search", "tg.c:tg_ring_search", "tg.c:tg_line_search"]}
{"id": "C23", "title": "Ring against ring search is independent of the index", "statement": "tg_ring_ring_search reports the same set of segment pairs with both, one or no index.", "quantifier": "every pair of point series and index options", "why_tests_cant": "dual tree traversal with unequal heights", "anchors": ["tg.c:tg_ring_ring_search", "tg.c:ring_ring_ix"]}
{"id": "C24", "title": "Point in ring is independent of the index", "statement": "Testing a point against a ring gives the same answer with no index, the natural index and the Y-stripes index.", "quantifier": "every ring, point, spread and index option", "why_tests_cant": "the three evaluation paths share almost no code; equality must hold for every point incl. those on stripe and node borders", "anchors": ["tg.c:tg_ring_contains_point", "tg.c:standard_pip", "tg.c:index_pip", "tg.c:ystripes_pip", "tg.c:process_ystripes"]}
{"id": "C25", "title": "Point in ring does not depend on start vertex or direction", "statement": "Rotating the vertex list of a closed ring or reversing it does not change the result of the point test.", "quantifier": "every ring, rotation and point", "why_tests_cant": "universal over rings of any length", "anchors": ["tg.c:tg_ring_contains_point", "tg.c:raycast"]}
{"id": "C26", "title": "Ray cast classification", "statement": "The per-segment ray test reports ON exactly when the point lies on the closed segment and IN exactly when the horizontal ray to the right crosses the half-open segment.", "quantifier": "every segment and point, exact arithmetic", "why_tests_cant": "all relative positions including degenerate segments and shared ordinates", "anchors": ["tg.c:raycast", "tg.c:collinear"]}
{"id": "C27", "title": "Segment intersection test", "statement": "tg_segment_intersects_segment is symmetric, does not depend on the direction of either segment and holds exactly when the closed segments share a point.", "quantifier": "every pair of segments, exact arithmetic", "why_tests_cant": "infinitely many relative positions, including collinear overlap and degenerate segments", "anchors": ["tg.c:tg_segment_intersects_segment"]}
{"id": "C28", "title": "Segment covering and point on segment", "statement": "tg_segment_covers_point holds exactly for points of the closed segment, and tg_segment_covers_segment exactly when the second segment is a subset of the first.", "quantifier": "every segment and point, exact arithmetic", "why_tests_cant": "universal over the plane", "anchors": ["tg.c:tg_segment_covers_point", "tg.c:tg_segment_covers_segment", "tg.c:point_on_segment", "tg.c:collinear"]}
{"id": "C29", "title": "Nearest segment iteration", "statement": "tg_ring_nearest_segment delivers every segment exactly once and in non-decreasing distance order, with or without index, whenever the caller's rectangle distance is a lower bound for what lies inside the rectangle, and stops when the callback returns false.", "quantifier": "every ring, distance function, index option and stopping point", "why_tests_cant": "interleaving of rectangle and segment entries in the queue depends on the data", "anchors": ["tg.c:tg_ring_nearest_segment", "tg.c:nqueue_push", "tg.c:nqueue_pop"]}
{"id": "C30", "title": "Priority queue", "statement": "Popping always yields a least-distance entry and pushes and pops never lose or duplicate entries.", "quantifier": "every history of pushes and pops", "why_tests_cant": "history dependent heap shape", "anchors": ["tg.c:nqueue_push", "tg.c:nqueue_pop"]}
{"id": "C31", "title": "Reference counting", "statement": "For every history of creating, cloning, composing and freeing rings, lines, polygons and geometries in which the caller frees each reference it owns once, no object is used after it is released, none is released twice, and when the caller owns nothing everything is released.", "quantifier": "every history of API calls and every sharing graph", "why_tests_cant": "depends on the whole history and on the sharing of rings between polygons, geometries and collections", "anchors": ["tg.c:rc_retain", "tg.c:rc_release", "tg.c:tg_geom_free", "tg.c:tg_poly_free", "tg.c:tg_ring_free", "tg.c:tg_geom_clone"]}
{"id": "C32", "title": "Concurrent clone and free", "statement": "When threads clone and free references to a shared geometry concurrently, under every interleaving of the atomic operations the object is released exactly once, by the thread that drops the last reference, and never while another thread still owns one.", "quantifier": "every number of threads and every schedule", "why_tests_cant": "schedules cannot be enumerated by tests", "anchors": ["tg.c:rc_retain", "tg.c:rc_release"]}
{"id": "C33", "title": "Allocation failure", "statement": "Polygon, multi-geometry constructors and tg_geom_copy leave no leaked or doubly released memory when any allocation fails; they return NULL and the arguments still belong to the caller.", "quantifier": "every input and every pattern of allocation failures", "why_tests_cant": "failure points multiply with the size of the input", "anchors": ["tg.c:tg_poly_new", "tg.c:geom_new_multi", "tg.c:tg_geom_copy", "tg.c:tg_poly_copy"]}
{"id": "C34", "title": "Deep copy", "statement": "tg_geom_copy returns a geometry equal to the original that shares no storage with it, so that freeing either leaves the other intact.", "quantifier": "every geometry", "why_tests_cant": "any nesting and sharing", "anchors": ["tg.c:tg_geom_copy", "tg.c:geom_copy", "tg.c:tg_poly_copy", "tg.c:tg_ring_copy"]}
{"id": "C35", "title": "Index option encoding", "statement": "tg_index_with_spread followed by extraction gives back the index kind and the spread clamped to [2,4096]; the environment default applies when none is given.", "quantifier": "every index kind and every integer spread", "why_tests_cant": "all integers", "anchors": ["tg.c:tg_index_with_spread", "tg.c:tg_index_extract_spread", "tg.c:tg_env_set_index_spread"]}
{"id": "C36", "title": "Accessors are safe for every index", "statement": "tg_geom_point_at, tg_geom_line_at, tg_geom_poly_at and tg_geom_geometry_at return the documented empty value for every index outside [0, count).", "quantifier": "every geometry and every int index", "why_tests_cant": "all ints", "anchors": ["tg.c:tg_geom_point_at", "tg.c:tg_geom_line_at", "tg.c:tg_geom_poly_at", "tg.c:tg_geom_geometry_at"]}
{"id": "C37", "title": "Line covers line", "statement": "tg_line_covers_line terminates and returns true only if every point of the second line lies on the first.", "quantifier": "every pair of lines", "why_tests_cant": "the walk over the first line is driven by data and can move both ways", "anchors": ["tg.c:tg_line_covers_line"]}
{"id": "C38", "title": "Predicate dualities", "statement": "within, coveredby, disjoint and equals agree with contains, covers, intersects and mutual containment for every pair; equals is symmetric; every predicate is false on empty or NULL input except disjoint.", "quantifier": "every pair of geometries", "why_tests_cant": "quantifies over pairs of arbitrary nested geometries", "anchors": ["tg.c:tg_geom_within", "tg.c:tg_geom_coveredby", "tg.c:tg_geom_disjoint", "tg.c:tg_geom_equals"]}
{"id": "C39", "title": "Collection search", "statement": "tg_geom_search reports exactly the children whose rectangle intersects the query, each once, whether or not the collection is indexed.", "quantifier": "every collection size and query", "why_tests_cant": "the Hilbert-sorted index only exists for 64 or more children and permutes them", "anchors": ["tg.c:tg_geom_search", "tg.c:multi_index_search", "tg.c:multi_geom_inflate_index"]}
{"id": "C40", "title": "Collection bounding rectangle", "statement": "tg_geom_rect of a collection is the smallest rectangle covering the rectangles of all its non-empty parts.", "quantifier": "every collection", "why_tests_cant": "any nesting, including empty members", "anchors": ["tg.c:multi_geom_inflate_rect", "tg.c:tg_geom_rect"]}
{"id": "C41", "title": "Signed area, orientation", "statement": "Reversing a closed ring flips the orientation flag and keeps the area; rotating its start vertex and translating it keep both (exact arithmetic); the area is the shoelace area.", "quantifier": "every closed ring", "why_tests_cant": "universal over vertex lists", "anchors": ["tg.c:process_points", "tg.c:tg_ring_area", "tg.c:tg_ring_clockwise"]}
{"id": "C42", "title": "Convexity flag", "statement": "tg_ring_convex is true exactly when all turns of the ring have the same direction.", "quantifier": "every closed ring", "why_tests_cant": "universal over vertex lists", "anchors": ["tg.c:process_points", "tg.c:tg_ring_convex"]}
{"id": "C43", "title": "Growable buffers", "statement": "The vectors used by the parsers keep exactly the appended elements in order, never write past their capacity, and on allocation failure keep their previous content.", "quantifier": "every sequence of appends and every failure pattern", "why_tests_cant": "history dependent capacity growth", "anchors": ["tg.c:def_vec", "tg.c:grow_cap", "tg.c:tg_buf_append"]}
{"id": "C44", "title": "Hilbert order is a bijection", "statement": "The Hilbert key used to order the children of a collection maps distinct 16-bit grid cells to distinct 32-bit keys.", "quantifier": "all pairs of 16-bit coordinates", "why_tests_cant": "2^32 inputs, pairwise", "anchors": ["tg.c:hilbert_xy_to_index", "tg.c:tg_point_hilbert"]}
{"id": "C45", "title": "Constructors build what they are given", "statement": "A constructor that does not return NULL returns an object with exactly the given type, points in order, holes and children in order, flags and extra coordinates; children are shared, not copied.", "quantifier": "every constructor call after every history of calls, any allocation failures", "why_tests_cant": "arbitrary numbers of points and children, and every earlier state of the heap", "anchors": ["tg.c:series_new", "tg.c:tg_poly_new", "tg.c:geom_new_multi", "tg.c:fill_extra_coords", "tg.c:tg_geom_new_multipoint"]}
{"id": "C46", "title": "Line and point", "statement": "tg_line_covers_point (and tg_line_intersects_point) holds exactly for the points that lie on a segment of the line, whichever index the line has.", "quantifier": "every line, index option and point; exact arithmetic", "why_tests_cant": "for all real-valued points and lines of any length", "anchors": ["tg.c:tg_line_covers_point", "tg.c:tg_line_search"]}
{"id": "C47", "title": "Ring intersects segment", "statement": "With edges allowed, tg_ring_intersects_segment holds exactly if the segment has a point in the closed region of the ring (on its boundary, or with an odd number of crossings to the right).", "quantifier": "every closed ring, also self-intersecting, and every segment; exact arithmetic", "why_tests_cant": "the code looks at the two ends and counts crossed edges; that this is enough is a statement about all points of the segment (a Jordan curve argument)", "anchors": ["tg.c:tg_ring_intersects_segment", "tg.c:intersegiter"]}
{"id": "C48", "title": "Ring contains segment", "statement": "tg_ring_contains_segment holds exactly if every point of the segment is in the region of the ring (in its interior if edges are not allowed).", "quantifier": "every closed ring and segment; exact arithmetic", "why_tests_cant": "a statement about all points of the segment; special cases for ends on the boundary", "anchors": ["tg.c:tg_ring_contains_segment"]}
{"id": "C49", "title": "Ring intersects ring and line", "statement": "With edges allowed, tg_ring_intersects_ring and tg_ring_intersects_line hold exactly if the closed regions (the region and the line) have a point in common.", "quantifier": "every pair; exact arithmetic", "why_tests_cant": "only boundaries are compared, after choosing the larger ring by the area of its rectangle", "anchors": ["tg.c:tg_ring_intersects_ring", "tg.c:tg_ring_intersects_line"]}
{"id": "C50", "title": "Printing a number keeps its value", "statement": "fp_utoa rewrites Ryu's scientific notation in the fixed or the short format without changing the decimal value, writes a JSON number, and does so for every size of the buffer; a double that is not normal is written as 0.", "quantifier": "every scientific notation that Ryu can produce, both formats, every buffer size", "why_tests_cant": "moves the decimal point over any exponent and rewinds in a buffer that may be cut off anywhere", "anchors": ["tg.c:fp_utoa", "tg.c:write_string_double", "tg.c:fp_writer"]}
{"id": "C51", "title": "Text writers write the geometry", "statement": "tg_geom_wkt and tg_geom_geojson write the Well-Known Text and the GeoJSON geometry object of the type, dimensions and coordinates a user sees.", "quantifier": "every geometry without NULL parts; for GeoJSON without Features and extra members", "why_tests_cant": "every arrangement of parts, dimensions and missing coordinates", "anchors": ["tg.c:write_geom_wkt", "tg.c:write_geom_geojson"]}
{"id": "C52", "title": "WKT parser accepts Well-Known Text", "statement": "Every Well-Known Text of a well-formed geometry, in any case and with any white space, with at most 1024 opening parentheses, is parsed to a geometry with that type, those dimensions and those coordinates; with more it is rejected.", "quantifier": "every geometry, every text of it, every strtod that rounds decimal numbers", "why_tests_cant": "unbounded grammar with optional white space at every place, unbounded nesting and numbers", "anchors": ["tg.c:parse_wkt", "tg.c:wkt2type", "tg.c:wkt_vnumber", "tg.c:wkt_balance_coords"]}
{"id": "C53", "title": "tg_geom_intersects is exact", "statement": "tg_geom_intersects answers whether the two geometries have a point in common, where a polygon is the closed region of its exterior without the insides of its holes, and a collection is the union of its members; tg_geom_disjoint answers the opposite, and the order of the arguments does not matter.", "quantifier": "all pairs of geometries of any kind and nesting whose polygons are valid, every index option and environment, exact arithmetic with all small tolerances", "why_tests_cant": "unbounded polygons, holes and nesting; the polygon tests compare boundaries only, so that correctness for the interiors is a theorem on the plane", "anchors": ["tg.c:tg_geom_intersects", "tg.c:tg_poly_intersects_poly", "tg.c:tg_poly_intersects_line", "tg.c:tg_line_intersects_line", "tg.c:tg_poly_covers_point"]}
{"id": "C54", "title": "GeoJSON parser is safe on arbitrary bytes", "statement": "tg_parse_geojson never reads outside its input, stores extra members and flags only in objects that have room for them, and ends; on standard JSON no more than 1024 calls of parse_geojson are open and the result is at most 512 collections deep.", "quantifier": "every byte string, every strtod; every standard JSON text for the depth", "why_tests_cant": "arbitrary bytes and nesting; the navigator trusts the validator, whose notion of a string differs from its own", "anchors": ["tg.c:parse_geojson", "tg.c:take_basic_geojson", "tg.c:parse_geojson_feature", "tg.c:tg_parse_geojsonn_ix"]}
{"id": "C55", "title": "GeoJSON parser accepts GeoJSON", "statement": "Every RFC 7946 geometry object of a well-formed geometry, with its members in any order and spelling, foreign members and white space, is parsed to a geometry of that type with those dimensions and coordinates, and every foreign member is kept with the geometry it belongs to.", "quantifier": "every geometry in any nesting, every text of it of at most 1024 levels, every strtod that rounds decimal numbers", "why_tests_cant": "unbounded grammar with optional white space, escapes and foreign members at every place", "anchors": ["tg.c:parse_geojson", "tg.c:take_basic_geojson", "tg.c:parse_geojson_point", "tg.c:parse_geojson_polygon", "tg.c:parse_geojson_geometrycollection", "tg.c:json_object_get"]}
{"id": "C56", "title": "GeoJSON round trip", "statement": "What tg_geom_geojson writes of a geometry is parsed by tg_parse_geojson to a geometry of the same type and coordinates, with an M that has no Z read as Z; with more than 1024 levels of JSON it is rejected.", "quantifier": "every well-formed geometry without Features and foreign members, in any nesting, with coordinates whose digits round back; every buffer that is large enough; every strtod that rounds decimal numbers", "why_tests_cant": "all geometries, all doubles and all nestings; needs the writer, the number printer, the validator and the parser to agree", "anchors": ["tg.c:tg_geom_geojson", "tg.c:tg_parse_geojsonn_ix", "tg.c:write_geom_geojson", "tg.c:parse_geojson"]}
{"id": "C57", "title": "The GeoJSON parser accepts Features and FeatureCollections", "statement": "Every Feature and every FeatureCollection of RFC 7946 is parsed. The result shows the geometries (an empty point for null), is flagged as what it is, and keeps the id, the properties and the foreign members of the Feature and of its geometry as they were written.", "quantifier": "every Feature and FeatureCollection text with members in any order and spelling and any white space, of at most 1024 levels; every strtod that reads decimal numbers", "why_tests_cant": "all member orders, spellings, foreign members and nestings; the merging of the members of the Feature and the geometry depends on both", "anchors": ["tg.c:parse_geojson_feature", "tg.c:parse_geojson_featurecollection", "tg.c:take_basic_geojson", "tg.c:tg_parse_geojsonn_ix"]}
{"id": "C58", "title": "What a parser returns is a geometry", "statement": "Whatever the input, an object that tg_parse_wkt, tg_parse_geojson, tg_parse_wkb, tg_parse_geobin or tg_parse_hex returns without an error shows a well-formed geometry: every position has the dimensions of the whole, lines have two or more positions, rings are closed and have three or more, polygons in a MultiPolygon have an exterior; and no pointer that the writers follow is NULL.", "quantifier": "all input bytes; all behaviours of strtod", "why_tests_cant": "every accepted input, including malformed ones that happen to be accepted; a fuzzer only sees the crash, not the wrong object", "anchors": ["tg.c:parse_wkt", "tg.c:parse_geojson", "tg.c:parse_wkb", "tg.c:parse_geobin", "tg.c:parse_hex", "tg.c:check_parse_posns", "tg.c:tg_geom_wkt", "tg.c:tg_geom_geojson"]}
{"id": "C59", "title": "Features and foreign members go through GeoJSON", "statement": "A geometry with foreign members on any level, a Feature and a FeatureCollection that tg_geom_geojson writes into a buffer that is large enough are read by tg_parse_geojson as the same geometry with the same foreign members, properties, id and null geometry; only the id becomes the first member of the Feature. The names id and properties must be spelled without escapes.", "quantifier": "all geometries, Features and FeatureCollections; all members that are JSON; all number formats", "why_tests_cant": "any JSON can be a member, and the writer splices stored text into its output", "anchors": ["tg.c:write_base_geom_geojson", "tg.c:tg_geom_geojson", "tg.c:take_basic_geojson", "tg.c:parse_geojson_feature", "tg.c:json_object_get"]}
{"id": "C60", "title": "Reading and writing GeoJSON is stable", "statement": "A GeoJSON geometry, Feature or FeatureCollection (RFC 7946, any white space, order, foreign members, at most 1024 levels, no U+10FFFF) is read; what tg_geom_geojson writes of it is again within these limits, is read as the same geometry with the same members (the id first), and what is written of that is the same text, byte for byte.", "quantifier": "all GeoJSON texts whose coordinates are normal doubles or zero; all buffers; all number formats", "why_tests_cant": "the texts, their nesting and their foreign members are unbounded", "anchors": ["tg.c:tg_parse_geojsonn", "tg.c:tg_geom_geojson", "tg.c:write_base_geom_geojson", "tg.c:parse_geojson_feature", "tg.c:take_basic_geojson"]}
{"id": "C61", "title": "The predicates are exact if one geometry is a point", "statement": "tg_geom_covers, contains and touches of a geometry and a point, in both orders, answer by the set of points of the geometry: it covers the points that belong to it, contains those in the interior of a part (of a line all but its two ends, of a polygon what is inside of the exterior and not in or on a hole), and touches those that belong to it and are in no interior; a point covers a geometry if it is the only point and no part is empty, contains it if moreover there is no polygon in it, and touches it if it is on the boundary of a part. A polygon touches points if one is on the boundary and none in the interior; a collection touches a geometry if a member does and so does each member that has a point in common with it.", "quantifier": "all geometries of any kind and nesting with valid polygons, all points, all index options", "why_tests_cant": "geometries and indexes are unbounded, and the points of interest are on edges, at ends and in holes", "anchors": ["tg.c:tg_geom_covers", "tg.c:tg_geom_contains", "tg.c:tg_geom_touches", "tg.c:tg_line_contains_point", "tg.c:tg_point_touches_line", "tg.c:tg_point_touches_poly", "tg.c:poly_contains_point", "tg.c:tg_point_covers_rect"]}
{"id": "C62", "title": "The predicates on geometries in general position", "statement": "If no vertex of one geometry is on a segment of the other, then a point, line or polygon covers a geometry of any kind and nesting if and only if no part of that geometry is empty and all of its points are in the interior of the first, holes and holes within holes included; contains gives the same answer. For collections on the left the two answers agree too, and true means that each point of the second geometry is in the interior of a part of the first. tg_geom_touches answers false. tg_line_covers_line ends in this case.", "quantifier": "all pairs of geometries in general position with valid polygons, all nestings, all index options", "why_tests_cant": "polygons with any number of vertices and holes; the claim is about all points of the plane", "anchors": ["tg.c:tg_geom_covers", "tg.c:tg_geom_contains", "tg.c:tg_geom_touches", "tg.c:tg_poly_covers_poly", "tg.c:tg_poly_covers_line", "tg.c:tg_poly_contains_line", "tg.c:tg_line_covers_poly", "tg.c:tg_poly_touches_poly", "tg.c:tg_poly_touches_line", "tg.c:tg_line_touches_line"]}
{"id": "C63", "title": "touches of two lines", "statement": "For two lines without repeated neighbouring points, no two segments of which overlap, and each of which passes through its own ends only at its ends, tg_geom_touches answers true if and only if the lines have a point in common and no point is in the interior of both. For any two lines, true implies that a common point is the start or the end of one of them.", "quantifier": "all pairs of lines of any length, all index options", "why_tests_cant": "lines with any number of segments; the claim is about all points of the plane", "anchors": ["tg.c:tg_line_touches_line", "tg.c:line_intersects_line", "tg.c:any_touching", "tg.c:segment_touches0"]}
{"id": "C64", "title": "What the GeoJSON parser accepts", "statement": "A JSON text of at most 1024 levels without U+10FFFF is parsed as a geometry, a Feature or a FeatureCollection, with the view u, if and only if it is an object of this form: the first member `type` names the type (what follows a \\u0000 in the name is ignored), the last member `coordinates`, `geometries`, `geometry` or `features` has the value that RFC 7946 asks for, the first `properties` of a Feature is an object or null and its first `id` a string or a number, lines have two positions, rings three and are closed, all positions of a geometry have as many coordinates, from two to four. Every other JSON text gives an error.", "quantifier": "all JSON texts, all results of strtod that are right for decimal numbers", "why_tests_cant": "both directions quantify over all texts: a test shows single texts that are accepted or rejected", "anchors": ["tg.c:parse_geojson", "tg.c:take_basic_geojson", "tg.c:parse_geojson_posns", "tg.c:parse_geojson_feature", "tg.c:parse_geojson_featurecollection"]}
{"id": "C65", "title": "Printing a double is safe, shortest and can be read back", "statement": "d2s_buffered never violates an assertion, never leaves its tables or its buffer of 25 bytes, and terminates. For every finite double other than zero it prints at most 17 digits with an exponent from -324 to 324; rounding that decimal to the nearest double (ties to even) gives the double and no other; no decimal with fewer digits is rounded to the double; and of the decimals with the same last place that are, it is the closest. NaN, the infinities and zero have fixed texts. Hence WKT and GeoJSON round trips keep every coordinate that is normal or +0, if strtod rounds to the nearest.", "quantifier": "all 2^64 doubles, all previous contents of the buffer", "why_tests_cant": "there are 2^64 doubles and the cases that go wrong (multiples of large powers of 5 and 2, ties, the tables' last bits) are rare; shortest and closest quantify over all other decimals", "anchors": ["tg.c:d2s_buffered", "tg.c:d2s_buffered_n", "tg.c:d2d", "tg.c:d2d_small_int", "tg.c:to_chars64", "tg.c:mulShiftAll64", "tg.c:multipleOfPowerOf5"]}
{"id": "C66", "title": "With IEEE doubles the segment predicates are exact on fixed-point coordinates", "statement": "If every operation is rounded to the nearest double and all coordinates are multiples of one power of two (2^-400 to 2^400) by integers of at most 24 bits, then collinear, tg_raycast, tg_segment_intersects_segment, tg_segment_covers_point and tg_segment_covers_segment give the answers of exact geometry, although the slopes, the reciprocal and the quotients in them are rounded. With 54 bits collinear answers true for three points that are not on a line.", "quantifier": "all powers of two, all points and segments on the grid, all behaviours of operations that overflow or divide by zero", "why_tests_cant": "there are 2^48 points on each grid; that no rounding of a slope, of 1/rxs or of nexttoward changes an answer is a statement about all of them", "anchors": ["tg.c:collinear", "tg.c:raycast", "tg.c:tg_segment_intersects_segment", "tg.c:tg_segment_covers_point", "tg.c:tg_segment_covers_segment"]}
{"id": "C67", "title": "With IEEE doubles the predicates on geometries are exact on fixed-point coordinates", "statement": "If every operation is rounded to the nearest double and all coordinates are multiples of one power of two (2^-400 to 2^400) by integers of at most 24 bits, then geometries made by the constructors (indexes, stripes, convex and clockwise flags and rectangles computed with rounding) get the answers of exact geometry: tg_geom_intersects and tg_geom_disjoint say whether there is a common point, covers and contains of a point say whether it belongs to the geometry or to an interior, and in general position covers, contains and touches are exact too.", "quantifier": "all geometries of any kind and nesting, all powers of two, all numbers of stripes below 2^31, all conversions of index coordinates that round outwards", "why_tests_cant": "the statement is about all geometries on a grid of 2^48 points and any number of vertices; each of the roundings in each branch could change an answer", "anchors": ["tg.c:process_points", "tg.c:tg_ring_new_ix", "tg.c:tg_geom_intersects", "tg.c:tg_geom_covers", "tg.c:tg_geom_contains", "tg.c:tg_geom_touches", "tg.c:process_ystripes"]}
{"id": "C68", "title": "The rectangles of indexes, converted to 32-bit floats, enclose the items for coordinates in the range of floats", "statement": "fdown and fup followed by the conversion to float round outwards for zero and for all numbers from 2^-125 to 2^126 in absolute value, and are monotone everywhere, so that with float indexes tg_geom_intersects is exact for fixed-point coordinates. Outside the range this fails: fdown of a subnormal can go up, fdown of 2^200 is infinite, and a search in an indexed collection of points beyond the range of floats finds none of them: tg_geom_intersects of the collection with one of its points answers false.", "quantifier": "all doubles in the range, all geometries with fixed-point coordinates, all choices of ties when rounding to float", "why_tests_cant": "the statement is about all 2^64 doubles and all roundings; tests use coordinates of degrees, which are all in the range", "anchors": ["tg.c:fnext0", "tg.c:fdown", "tg.c:fup", "tg.c:tg_rect_to_ixrect", "tg.c:ixrect_to_tg_rect", "tg.c:multi_index_search"]}
{"id": "C69", "title": "Distances, and nearest segments by distance", "statement": "In exact arithmetic tg_point_distance_point is the Euclidean distance, tg_point_distance_segment the least distance to a point of the segment, tg_rect_distance_rect the least distance between points of two rectangles and tg_point_distance_rect that to a point of the rectangle; so tg_ring_nearest_segment with these as callbacks delivers the segments by their true distance. With doubles and float indexes, for fixed-point coordinates, it delivers them in the order of the computed distances, whatever the roundings are.", "quantifier": "all points, segments, rectangles, rings, lines and index options", "why_tests_cant": "least distance over all points of a segment; that a rounded rectangle distance never exceeds a rounded segment distance is a statement about all roundings", "anchors": ["tg.c:tg_point_distance_segment", "tg.c:tg_rect_distance_rect", "tg.c:tg_point_distance_rect", "tg.c:tg_point_distance_point", "tg.c:tg_ring_nearest_segment"]}
{"id": "C70", "title": "The points of a circle fill their array", "statement": "tg_circle_new_ix with at most 2^25 steps writes each element of its array and nothing behind it, although the loop is ended by comparing a sum of rounded doubles with 360; the last point is the first, and the angle of point i differs from i*360/n by at most i/2^43. With 754974677 steps the loop writes behind the end of the array.", "quantifier": "all numbers of steps up to 2^25 (also negative ones), centers, radii, all roundings to nearest and all functions sin and cos", "why_tests_cant": "whether the accumulated rounding error makes one turn more or less depends on the number of steps; each of 2^25 would have to be tried", "anchors": ["tg.c:tg_circle_new_ix"]}
{"id": "C71", "title": "Shared vertices are found whatever the rounding", "statement": "A segment covers its ends, a ray from an end is on it, and segments with a common end intersect, whatever the arithmetic. With doubles, and indexes in floats, two points, lines or polygons whose coordinates are any doubles of the range of normal floats and that have a vertex in common intersect (tg_geom_intersects true, tg_geom_disjoint false), and each covers its vertices, for every index option; excepted are vertices at the very top of a ring with Y-stripes, and polygons with holes whose rectangle contains the other geometry. Geometries on different sides of a horizontal or vertical line never intersect.", "quantifier": "all segments and arithmetics; all coordinates, geometries, index options and roundings to nearest", "why_tests_cant": "for coordinates without a common grid the predicates are not exact; that rounding never loses a shared vertex is a statement about all doubles and all paths of the indexes", "anchors": ["tg.c:tg_segment_intersects_segment", "tg.c:collinear", "tg.c:tg_raycast", "tg.c:tg_ring_contains_point", "tg.c:tg_ring_intersects_segment", "tg.c:tg_poly_intersects_poly", "tg.c:process_ystripes"]}
{"id": "C72", "title": "Queries with a rectangle or a point are exact", "statement": "tg_geom_intersects_rect of a geometry of any kind and nesting and a rectangle (which may be a segment or a point) answers whether the geometry has a point in the rectangle; tg_geom_intersects_xy and tg_geom_covers_xy answer whether the geometry has the point. The first also with doubles and indexes in floats, for fixed-point coordinates. The ring that tg_geom_intersects_rect builds on the stack is never read behind its five points.", "quantifier": "all geometries, rectangles, points, index options, roundings to nearest", "why_tests_cant": "the ring on the stack is not built by the constructor and its array is shorter by one point; that no function reads that point has to hold on all paths", "anchors": ["tg.c:tg_geom_intersects_rect", "tg.c:rect_to_ring", "tg.c:stack_ring", "tg.c:tg_geom_covers_xy", "tg.c:tg_geom_intersects_xy"]}
{"id": "C73", "title": "Perimeter and Polsby-Popper score", "statement": "tg_ring_perimeter and tg_line_length are the sum of the lengths of the segments and read nothing behind the points. The Polsby-Popper score of every ring, also one that meets itself, is at least 0 and less than 1, as the comment in the code says; that of a line is less than 2 and can be above 1, because the closing segment counts for its area but not for its length. In exact arithmetic.", "quantifier": "all rings and lines with real coordinates, all index options", "why_tests_cant": "that no shape has a score of 1 or more is the isoperimetric inequality, over all polygons with any number of vertices", "anchors": ["tg.c:length", "tg.c:tg_ring_area", "tg.c:tg_ring_perimeter", "tg.c:tg_ring_polsby_popper_score", "tg.c:tg_line_polsby_popper_score", "tg.c:tg_line_length"]}
{"id": "C74", "title": "The blocks of memory of rings are large enough, and their reported sizes", "statement": "The block that series_new allocates for a ring or line holds the structure, the points with the extra closing point, the index, its table of levels and the rectangles of every level, without overlap and aligned; the levels that fill_index_struct places have the sizes of the levels that process_points writes. The block of process_ystripes holds all entries: its first pass counts for each stripe what its second pass writes. tg_ring_memsize is the sum of the blocks. calc_num_keys, computed with doubles, is exact.", "quantifier": "all points, index options and sizes of the C types; calc_num_keys for all counts below 2^31 and spreads up to 4096", "why_tests_cant": "an overrun by one rectangle depends on the number of levels and the rounding of ceil(count / pow(spread, level)), and the overflow of the counter of the stripes needs rings of 2^26 points", "anchors": ["tg.c:calc_num_keys", "tg.c:aligned_size", "tg.c:calc_index_size", "tg.c:calc_series_size", "tg.c:fill_index_struct", "tg.c:series_new", "tg.c:process_ystripes", "tg.c:ring_alloc_size", "tg.c:tg_ring_memsize", "tg.c:tg_poly_memsize"]}
{"id": "C75", "title": "A circle is a regular polygon", "statement": "In exact arithmetic tg_circle_new makes the regular polygon with steps - 1 corners (at least 3) on the circle with the given center and radius, counterclockwise from the right and closed. Its perimeter is 2 n r sin(pi/n), its area n r^2 sin(2 pi/n) / 2, it counts as convex, and its score of Polsby and Popper is (pi/n) / tan(pi/n). Perimeter and area tend to those of the circle.", "quantifier": "all centers, radii and numbers of steps above INT_MIN", "why_tests_cant": "the number of turns of the loop, which ends by an angle and not by a count, has to be right for every number of steps", "anchors": ["tg.c:tg_circle_new_ix", "tg.c:tg_circle_new", "tg.c:tg_ring_perimeter", "tg.c:tg_ring_area", "tg.c:tg_ring_clockwise", "tg.c:tg_ring_convex", "tg.c:tg_ring_polsby_popper_score"]}
{"id": "C76", "title": "Moving", "statement": "A moved point, line, ring or polygon is made of the moved points in the same order, whatever the arithmetic; if addition is monotone on the coordinates, its rectangle is the moved rectangle. It has an index if and only if it had one and has twice as many points as the spread of the environment. In exact arithmetic it consists of the moved points of the plane, has the same area, length, direction and convexity, and moving two of them by the same vector does not change whether they intersect; with doubles the latter holds if the coordinates are fixed-point numbers before and after.", "quantifier": "all points, lines and polygons, options, environments and vectors", "why_tests_cant": "the equality of the answers is over all pairs of shapes and all vectors, and depends on the index and stripes that both copies have", "anchors": ["tg.c:tg_point_move", "tg.c:tg_segment_move", "tg.c:tg_rect_move", "tg.c:series_move", "tg.c:tg_line_move", "tg.c:tg_ring_move", "tg.c:tg_poly_move"]}
{"id": "C77", "title": "Touching polygons", "statement": "If a line touches a polygon by the answer, then a vertex of the line is on the boundary of the polygon, and none is in its interior. Against a polygon without holes whose segments meet in vertices only, if none of its vertices is on the line and no segment of the line has both ends on the boundary, the answer is true if and only if they have a point in common and no point of the line is in the interior. If two polygons without holes touch by the answer, then they have a point in common, no vertex of one is inside of the other, and a segment of one of them does not meet the other; a polygon does not touch itself or one with the same boundary.", "quantifier": "all lines and polygons, options and environments", "why_tests_cant": "the exactness is over all lines and all simple polygons, and depends on the number of edges that a segment meets", "anchors": ["tg.c:tg_poly_touches_line", "tg.c:tg_poly_touches_poly", "tg.c:tg_ring_intersects_segment", "tg.c:intersegiter"]}
{"id": "C78", "title": "Rectangles", "statement": "The points and segments of a rectangle are the closed chain of its corners, and the search visits the sides whose boxes meet the target. A rectangle covers a line or polygon if and only if that is not empty and all its points are in the rectangle. A rectangle intersects a line or polygon if and only if they have a point in common. A polygon in general position covers a rectangle if and only if all points of the rectangle are in its interior. A segment covers a flat rectangle if and only if all its points are on the segment. A line covers no rectangle with width and height, and a horizontal one if and only if one of its segments does.", "quantifier": "all rectangles, lines and polygons, options and environments", "why_tests_cant": "the sets of points are infinite, and the claims are for all rings and index options", "anchors": ["tg.c:rect_to_ring", "tg.c:tg_rect_search", "tg.c:tg_rect_covers_line", "tg.c:tg_rect_covers_poly", "tg.c:tg_rect_intersects_line", "tg.c:tg_poly_intersects_rect", "tg.c:tg_poly_covers_rect", "tg.c:tg_line_covers_rect", "tg.c:tg_segment_covers_rect"]}
{"id": "C79", "title": "From texts to answers", "statement": "The object parsed from a WKT text, a GeoJSON text or a WKB has exactly the points of the geometry of the text, whatever the environment and the index option. Of a WKT text and a GeoJSON text with fixed-point coordinates, tg_geom_intersects with doubles and with indexes in floats answers whether the two geometries have a point in common. The same holds for tg_geom_intersects_rect and for tg_geom_covers of a point. The answer does not depend on the format. The constructors succeed.", "quantifier": "all geometries, all their texts, all environments and index options, all nestings of collections", "why_tests_cant": "the claim joins the parsers with the predicates for all texts; the number of texts and geometries is not bounded", "anchors": ["tg.c:tg_parse_wktn_ix", "tg.c:tg_parse_geojsonn_ix", "tg.c:tg_parse_wkb_ix", "tg.c:tg_geom_intersects", "tg.c:tg_geom_intersects_rect", "tg.c:tg_geom_covers"]}
{"id": "C80", "title": "The functions that show an index", "statement": "For all integers the functions that show the index of a line, ring or collection read inside of it, and give zeros for levels and rectangles that are not there. What they show of an index is a tree: a rectangle is there if and only if there are items for it, there are between two and spread rectangles at the root, each rectangle encloses those below it, and in each level each segment of a line or closed ring and each child of a collection lies in one of the rectangles. A collection has an index if and only if it has at least 64 children.", "quantifier": "all point lists, environments, index options, levels and rectangle numbers, all collections", "why_tests_cant": "the numbers of levels and rectangles depend on the number of points and on the spread, both unbounded", "anchors": ["tg.c:index_spread", "tg.c:index_num_levels", "tg.c:index_level_num_rects", "tg.c:index_level_rect", "tg.c:tg_ring_index_level_rect", "tg.c:tg_line_index_level_rect", "tg.c:tg_geom_multi_index_level_rect"]}
{"id": "C81", "title": "The answers for doubles with all their bits, away from the boundary", "statement": "Let the coordinates be any doubles of absolute value at most M (M at most 2^100), zero or at least 2^-100. For every segment and every point farther than M / 2^46 from its line (or an end of it, or told apart by comparisons alone), raycast and tg_segment_covers_point answer as the plane does, and tg_segment_intersects_segment is right for segments whose ends are that far from each other's line. So the point test of a ring follows the even-odd rule with any index, two lines intersect exactly if they share a point, and every geometry of any kind and nesting covers a point exactly if it has the point, contains it exactly if the point is in the interior of a part, and is intersected by it exactly if it has the point.", "quantifier": "all doubles of usual size with 53 significant bits, all roundings to nearest, all point lists, indexes, and nested geometries", "why_tests_cant": "there are 2^128 pairs of doubles for a point, and the error of each step depends on all of them", "anchors": ["tg.c:tg_raycast", "tg.c:collinear", "tg.c:tg_segment_covers_point", "tg.c:tg_segment_intersects_segment", "tg.c:tg_ring_contains_point", "tg.c:pip_eval_point", "tg.c:tg_geom_covers", "tg.c:tg_geom_contains", "tg.c:tg_geom_intersects"]}
{"id": "C82", "title": "The answers for the decimals as written", "statement": "Let the coordinates be decimals of at most 15 digits, k at most 20 of them after the point, of absolute value at most M (M at most 10^15), and let the library get them rounded to doubles. For every segment and every point away from its line, or told apart by comparisons, raycast of the rounded coordinates tells where the decimal point is to the decimal segment, and segments with ends away from each other's line intersect exactly if the decimal segments share a point. So for every geometry of any kind and nesting, and also for the objects parsed from a WKT text and from the GeoJSON text of a point: covers and intersects hold exactly if the geometry as written has the point as written, and contains holds exactly if the point is in the interior of a part of the geometry as written; and two lines intersect exactly if the lines as written share a point.", "quantifier": "all decimals of at most 15 digits, all roundings to nearest, all point lists, indexes, nested geometries and texts of them", "why_tests_cant": "the rounding of each coordinate moves the geometry; there are 10^15 decimals for each of them", "anchors": ["tg.c:tg_parse_wkt", "tg.c:tg_parse_geojson", "tg.c:tg_raycast", "tg.c:collinear", "tg.c:tg_segment_intersects_segment", "tg.c:tg_ring_contains_point", "tg.c:tg_geom_covers", "tg.c:tg_geom_contains", "tg.c:tg_geom_intersects"]}
{"id": "C83", "title": "The accessors tell what the geometry is", "statement": "A program that can only call the accessor functions (tg_geom_typeof, tg_geom_is_empty, tg_geom_has_z, tg_geom_has_m, tg_geom_z, tg_geom_m, tg_geom_point, tg_geom_line, tg_geom_poly, tg_geom_extra_coords, tg_geom_num_..., tg_geom_..._at for indices below the count, tg_line_..., tg_ring_..., tg_poly_...) finds out the geometry completely: its type, Z and M, every position and every member, nested ones included, and no call reads outside of an array. So for a WKB encoding, a WKT text or a GeoJSON text of a geometry the accessors of the parsed object tell that geometry. tg_geom_is_empty tells whether there is nothing but empty parts, tg_geom_de9im_dims the largest dimension in it, tg_geom_type_string and tg_geom_dims the type's name and the number of coordinates.", "quantifier": "all geometries of any type and nesting, all parsed bytes and texts", "why_tests_cant": "the geometries are nested without bound", "anchors": ["tg.c:tg_geom_typeof", "tg.c:tg_geom_is_empty", "tg.c:tg_geom_dims", "tg.c:tg_geom_point", "tg.c:tg_geom_line", "tg.c:tg_geom_poly", "tg.c:tg_geom_num_points", "tg.c:tg_geom_geometry_at", "tg.c:tg_geom_extra_coords", "tg.c:tg_geom_de9im_dims", "tg.c:tg_geom_type_string", "tg.c:tg_poly_hole_at"]}
{"id": "C84", "title": "tg_geom_foreach visits the simple geometries", "statement": "tg_geom_foreach hands to the callback every simple geometry of the geometry that is not empty, those of nested collections included, in order, until the callback says stop.", "quantifier": "all geometries of any type and nesting, all callbacks", "why_tests_cant": "the geometries are nested without bound", "anchors": ["tg.c:geom_foreach", "tg.c:tg_geom_foreach"]}
{"id": "C85", "title": "Two geometries of any kind, for doubles with all their bits", "statement": "Let the coordinates be any doubles of absolute value at most M (M at most 2^100), zero or at least 2^-100. For two geometries of any kind and nesting, polygons with holes and collections included, whose vertices and segments are farther than about M / 2^46 from each other (or told apart by comparisons alone), tg_geom_intersects answers whether they have a point in common, tg_geom_disjoint whether they have none, and the order of the two does not matter. The segments may cross anywhere. The flag convex of a ring is that of the exact computation if no turn is too slight.", "quantifier": "all pairs of geometries of any type and nesting, all doubles of usual size with 53 significant bits, all roundings to nearest, all indexes", "why_tests_cant": "there are unboundedly many vertices, and each has 2^128 values", "anchors": ["tg.c:tg_geom_intersects", "tg.c:tg_geom_disjoint", "tg.c:tg_ring_intersects_ring", "tg.c:tg_ring_contains_ring", "tg.c:tg_poly_intersects_poly", "tg.c:tg_poly_intersects_line", "tg.c:process_points", "tg.c:rect_area"]}
{"id": "C86", "title": "A polygon and a geometry of any kind: covers and contains for doubles with all their bits", "statement": "Let the coordinates be any doubles of absolute value at most M (M at most 2^100), zero or at least 2^-100. For a polygon with holes and a geometry of any kind and nesting, collections included, such that the vertices of each are farther than about M / 2^46 from the sides of the other (or told apart by comparisons alone), tg_geom_covers and tg_geom_contains answer whether no part of the geometry is empty and all of its points are in the interior of the polygon. tg_geom_within and tg_geom_coveredby give the same answer with the two exchanged. The sides may cross anywhere.", "quantifier": "all polygons, all geometries of any type and nesting, all doubles of usual size with 53 significant bits, all roundings to nearest, all indexes", "why_tests_cant": "there are unboundedly many vertices, and each has 2^128 values", "anchors": ["tg.c:tg_geom_covers", "tg.c:tg_geom_contains", "tg.c:tg_geom_within", "tg.c:tg_geom_coveredby", "tg.c:tg_poly_covers_line", "tg.c:tg_poly_contains_line", "tg.c:tg_poly_covers_poly", "tg.c:tg_poly_contains_poly", "tg.c:tg_ring_contains_ring", "tg.c:tg_ring_contains_line", "tg.c:tg_ring_contains_segment"]}
{"id": "C87", "title": "tg_geom_touches for doubles with all their bits", "statement": "Let the coordinates be any doubles of absolute value at most M (M at most 2^100), zero or at least 2^-100. For a geometry of any kind and nesting, and a point that is farther than about M / 2^46 from the lines of its segments or told apart by comparisons alone (for instance a vertex, or on a side parallel to an axis), tg_geom_touches of the geometry and the point answers whether the point belongs to it and is in the interior of none of its parts; with the two exchanged it answers whether the point is on the boundary of one of the parts. For two geometries of any kind and nesting, if the vertices of each are clear of the segments of the other and not on them, the answer is false, though the segments may cross anywhere: rounding never makes them touch.", "quantifier": "all geometries of any type and nesting, all points, all doubles of usual size with 53 significant bits, all roundings to nearest, all indexes", "why_tests_cant": "there are unboundedly many vertices, and each has 2^128 values", "anchors": ["tg.c:tg_geom_touches", "tg.c:tg_point_touches_line", "tg.c:tg_point_touches_poly", "tg.c:tg_line_touches_line", "tg.c:tg_poly_touches_line", "tg.c:tg_poly_touches_poly"]}
{"id": "C88", "title": "tg_geom_covers, contains, within and coveredby of geometries of any kind for doubles with all their bits", "statement": "Let the coordinates be any doubles of absolute value at most M (M at most 2^100), zero or at least 2^-100. For two geometries of any kind and nesting whose vertices are clear of the segments of the other and not on them, tg_geom_covers and tg_geom_contains give the same answer, and so do tg_geom_within and tg_geom_coveredby with the two exchanged. If the answer is true, each point of the second geometry is in the interior of a part of the first. If no part of the second is empty and all of it is in the interior of one part of the first, the answer is true. If the first has only points and lines and the answer is true, each part of the second that is not empty has a vertex equal to a point of the first. A geometry covered only by several parts together can be missed: two overlapping squares and a line through both give false.", "quantifier": "all pairs of geometries of any type and nesting, all doubles of usual size with 53 significant bits, all roundings to nearest, all indexes", "why_tests_cant": "there are unboundedly many vertices and parts, and each vertex has 2^128 values", "anchors": ["tg.c:tg_geom_covers", "tg.c:tg_geom_contains", "tg.c:tg_geom_within", "tg.c:tg_geom_coveredby", "tg.c:tg_line_covers_line", "tg.c:tg_line_covers_poly", "tg.c:tg_point_covers_line", "tg.c:tg_point_covers_poly", "tg.c:geom_foreach"]}
{"id": "C89", "title": "tg_geom_memsize and the memory of collections", "statement": "For every geometry, of any nesting, tg_geom_memsize reports the sum of the bytes of all blocks that it reaches (a shared block as often as it is reached), except for two things: for each hole of a polygon sizeof(struct tg_ring) is counted where the array has a pointer, and the bytes of the block of a text (extra JSON or error) behind its final zero are not counted. So it is exact without holes and unused bytes; with 64-bit pointers it is 72 bytes too large for each hole. The block of the index of a collection has room for its header, its table of levels and the rectangles of its levels, without overlap, and the levels have exactly the sizes that multi_geom_inflate_index writes; ixgeoms has an entry for each child.", "quantifier": "all geometries of any type, nesting and size, all indexes, all sizes of the C types, all qsorts", "why_tests_cant": "the sizes of the blocks depend on unboundedly many numbers of points, children and levels", "anchors": ["tg.c:tg_geom_memsize", "tg.c:geom_memsize", "tg.c:tg_poly_memsize", "tg.c:geom_new_multi", "tg.c:fill_index_struct", "tg.c:fill_extra_coords"]}
{"id": "C90", "title": "the exact answer of tg_geom_covers for points, lines, polygons and collections of them, for doubles with all their bits", "statement": "Let the coordinates be any doubles of absolute value at most M (M at most 2^100), zero or at least 2^-100, the vertices of each of the two geometries clear of the segments of the other and not on them. If the second geometry is a point, line or polygon, or a collection of them that are not empty (as MultiPoint, MultiLineString and MultiPolygon are), tg_geom_covers and tg_geom_contains are true exactly when each member of the second is wholly in the interior of some part of the first, which may be of any kind and nesting. Different members may be in different parts. tg_geom_within and tg_geom_coveredby give the same answer with the two exchanged.", "quantifier": "all first geometries of any type and nesting, all second geometries without nested collections, all doubles of usual size with 53 significant bits, all roundings to nearest, all indexes", "why_tests_cant": "there are unboundedly many vertices and parts, and each vertex has 2^128 values", "anchors": ["tg.c:tg_geom_covers", "tg.c:tg_geom_contains", "tg.c:tg_geom_within", "tg.c:tg_geom_coveredby", "tg.c:geom_foreach", "tg.c:base_geom_covers_geom"]}
{"id": "C91", "title": "json_escapen writes a JSON string for any bytes and stays within its buffer", "statement": "For every sequence of bytes there is one token such that json_escapen, for a buffer of any size, returns the length of the token, stores as many of its bytes as fit before a final zero, and changes no other byte. The token is a string of RFC 8259 also if the bytes are not UTF-8, and has no control characters and none of <, > and &. It spells the bytes with each UTF-8 sequence in its shortest form and each byte that is in none replaced by U+FFFD. If the bytes are ASCII and UTF-8, U+10FFFF excepted, the token spells them. U+10FFFF is replaced by four times U+FFFD.", "quantifier": "every sequence of bytes, every size and content of the buffer", "why_tests_cant": "unboundedly many texts, truncated at any place, with any malformed UTF-8", "anchors": ["tg.c:json_escapen", "tg.c:jesc_append", "tg.c:jesc_append_ux", "tg.c:vutf8", "tg.c:encode_codepoint"]}
{"id": "C92", "title": "json_string_copy stays within its block and the string, and undoes json_escapen", "statement": "For every JSON value there is one text such that json_string_copy into a block of any size returns the length of the text, stores as much of it as fits before a final zero and changes no other byte. The loop for_each_utf8 reads no byte outside of the string, also if escapes are cut off or malformed. json_string_length is the length of that text. The text of a string token is what the token spells. If json_escapen is given ASCII and UTF-8 without U+10FFFF, json_string_copy of its token gives the same bytes back. The C string that is left in the block is the one that the model of the GeoJSON parser uses.", "quantifier": "every value, every content of the string, every size and content of the block", "why_tests_cant": "unboundedly many strings with escapes that may be cut off at any place, and blocks of any size", "anchors": ["tg.c:json_string_copy", "tg.c:json_string_length", "tg.c:for_each_utf8", "tg.c:decode_hex", "tg.c:json_escapen"]}
{"id": "C93", "title": "json_string_compare orders values by the text that json_string_copy copies", "statement": "For every JSON value and every C string, the sign of json_string_compare tells how the text that json_string_copy copies compares to the C string, byte by byte with bytes from 0 to 255 and a proper prefix first: it is zero exactly if the two are equal, negative exactly if the text is before and positive exactly if it is after the C string. This holds for strings with and without escapes and for values that are no strings, also if the text has zero bytes. No byte outside of the value or the C string is read. The test for equality that the models of the GeoJSON parser and writer use is this comparison with zero. json_string_comparen compares to the given number of bytes of the C string, but for strings with escapes it compares to all of it, so that json_getn misses escaped keys inside a path.", "quantifier": "every value, every content of the string, every C string", "why_tests_cant": "unboundedly many pairs of texts, with escapes that may be cut off at any place and three code paths that must agree", "anchors": ["tg.c:json_string_comparen", "tg.c:json_string_compare", "tg.c:json_raw_comparen", "tg.c:strcmpn", "tg.c:for_each_utf8", "tg.c:json_getn"]}
{"id": "C94", "title": "json_int64, json_int and json_uint64 return the number without its fraction, cut to the range of the type, except just above the range", "statement": "A JSON integer spelled with at most 20 bytes is read exactly and cut to the range of the type. A number of at most 511 bytes with a point, an exponent or more than 20 bytes becomes the double that strtod reads, without its fraction and cut to the range. The one exception among finite doubles is 2^63 for the signed functions and 2^64 for the unsigned one: the guard compares with INT64_MAX or UINT64_MAX rounded up to a double, so that the double is converted to a type that cannot hold it. This happens for 9223372036854775808.0, and NaN is converted too for the string \"nan\". A number of 512 bytes or more is read as 0. The string \" -5\" is read by json_uint64 as 2^64-5.", "quantifier": "every text of a number, every behavior of strtod", "why_tests_cant": "unboundedly many texts, and the exception is one double of about 2^64", "anchors": ["tg.c:parse_int64", "tg.c:parse_uint64", "tg.c:json_int64", "tg.c:json_int", "tg.c:json_uint64"]}
{"id": "C95", "title": "json_bool is true exactly for true, nonzero numbers and six texts", "statement": "json_bool of a string is true exactly if the text that json_string_copy copies is 1, t, T, true, TRUE or True, however it is escaped; no byte outside of the string is read. json_bool of a number is true exactly if it has less than 512 bytes, strtod reads all of it, and the double is neither zero nor negative zero. true is true; objects, arrays, false, null and what does not exist are false.", "quantifier": "every value, every behavior of strtod", "why_tests_cant": "unboundedly many spellings of each text with escapes", "anchors": ["tg.c:json_bool", "tg.c:json_double", "tg.c:json_string_compare"]}

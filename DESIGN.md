# Formal model of tg in Lean 4: design

The subject is `/repo/tg.c` (one C file). It is read as text only; it is never
built or run. Everything below is a model written by hand from that text. Each
definition in `lean/Verif/Model/*` cites the lines of `/repo/tg.c` it models.

## Layout

* `lean/Verif/Model/*`  definitions that transcribe the C code, function by function.
* `lean/Verif/Spec/*`   small specifications that do not mention the model's helpers.
* `lean/Verif/Lemmas/*` helper lemmas.
* `lean/Verif/Props/*`  the property theorems (names start with the property id,
  e.g. `C01_wkb_roundtrip`), each with an `example` showing that a non-trivial
  case meets its hypotheses.

## Trusted base

* Lean 4.33.0's kernel, and the axioms `propext`, `Classical.choice`,
  `Quot.sound` (nothing else; `#print axioms` is checked).
* The reading of `/repo/tg.c` that the model files state in their comments.
* C semantics used by the model: `int` is 32-bit two's complement, `unsigned`
  arithmetic wraps, `size_t` is 64-bit, little-endian host, IEEE binary64/32.
  Reads outside an object, null dereference, signed overflow in a modelled
  expression are a distinct outcome (`ub`) of the model, not assumed away.

## How floating point is treated

* Codecs: a double is its 64-bit pattern (`BitVec 64`). Nothing is rounded, so
  round trips are bit exact. `==` and `isnan` are defined on the patterns.
* Order-only code (rectangles, index pruning, stripes, queue): a coordinate is
  an element of an arbitrary linear order; rounding functions are parameters
  with the law that is used (monotone; `down x <= x`). NaN is excluded, as the
  order does not contain it.
* Exact geometry (ray cast, segment intersection, area): coordinates are in an
  arbitrary linearly ordered field. This says what the algorithm computes when
  arithmetic does not round; each such theorem says so. Rounding errors of the
  double arithmetic are not modelled there.
* Double arithmetic (`Model/Ieee.lean`, C66): every operation is rounded to the
  nearest double, in the order of the code. For fixed-point coordinates the
  answers are shown to be those of exact geometry.

## Plan per property

| id | what is modelled | how it is proved |
|----|------------------|------------------|
| C01 | the WKB writer and parser as functions on byte lists; geometries as the C structs (base kind, type, flags, payload) | induction over geometries: parse of `write g ++ rest` returns the canonical geometry and `rest` |
| C02 | `struct writer` with its destination buffer, all fast paths | every writer is shown to emit a byte list independent of `n` (refinement) |
| C03 | parser over a byte array with every read checked; out-of-range read is `ub` | case analysis on the parser; the 32-bit product `count*2*8` wraps, so the full claim is false: witness + partial theorem |
| C04 | the parser's `swap` path | induction as in C01 for an encoder with a byte order per object |
| C05 | depth parameter of the parser | the parser is structurally recursive in the remaining depth; over-deep input gives an error |
| C06 | the in-place loop of `tg_geom_hex` on a buffer | loop invariant from the back |
| C07 | hex table and loop | table lookup lemma over all 256 bytes, induction |
| C08 | GeoBIN writer and parser | as C01, with JSON validity as the real validator model |
| C09 | the header readers, `tg_geom_fullrect` | direct computation on the written prefix |
| C10 | header readers with bounds | false for dims > 4: witness; partial theorem for dims <= 4 |
| C11 | GeoBIN parser with checked reads | witness of an error child; partial |
| C12 | text writers on `struct writer` | refinement as C02 |
| C13 | `tg_parse_ix` dispatch | first byte of each writer's output |
| C14 | WKT writer and parser, number formatting as a parameter with its laws | induction; the `(` counter makes the full claim false: witness + partial |
| C15 | WKT parser with checked reads | invariants on positions; balance lemma |
| C16, C17 | the validator functions `vany`, `vstring`, ... | equivalence with an inductive JSON grammar; position invariants |
| C18 | GeoJSON writer | grammar membership by induction |
| C19, C21 | `process_points`, index levels | loop invariants over a linear order |
| C20 | rectangle predicates | order lemmas |
| C22, C23, C39 | search functions over the index | pruning soundness by induction on levels |
| C24 | the three point-in-ring paths | equality to the plain fold over segments |
| C25, C26, C27, C28 | exact geometry | ordered field algebra |
| C29, C30 | the binary heap on an array; search loop | heap invariant, permutation, queue-loop invariant |
| C31 | heap of reference counted objects, operations as transitions | counting invariant by induction over histories |
| C32 | threads with atomic add/sub steps | invariant over all schedules |
| C33, C34 | constructors and copy with an allocation oracle | induction, ownership accounting |
| C35, C36 | integer code | case analysis; C36 is false (index == count): witness + partial |
| C37 | the `tg_line_covers_line` loop as a step function | non-termination witness: a cycle in the step function; wrong-answer witness; partial soundness |
| C38 | dispatch of the derived predicates | definitional plus case analysis for empty/NULL |
| C40 | `multi_geom_inflate_rect` | witness for empty child; partial |
| C41, C42 | `process_points` over an ordered field | algebra over lists; C42 false in general: witness |
| C43 | `def_vec`, `grow_cap` | invariant over append histories |
| C46-C49 | line and ring predicates over an ordered field | parity of crossings is constant along a segment that avoids the boundary |
| C53 | `tg_geom_intersects` over an ordered field | boundaries that avoid each other: a region is in the other or apart; induction over nesting |
| C54 | `parse_geojson` over the byte-level JSON navigator | sizes of the rest of the text; levels of the JSON grammar |
| C55 | the same, `strtod` a parameter | grammar of GeoJSON objects; walks of the navigator over arrays and members; induction over nesting |
| C56 | writer, validator and parser together | the writer's text is in the grammar of C55; its levels are counted exactly |
| C57 | the GeoJSON parser of C54 | the loop over the members with its flags; the geometry by C55; a list of Features by induction |
| C58 | the parsers of C03, C10, C14, C54 | by induction on the calls, what is accepted was checked by `check_parse_posns`; Spec/Parsed.lean says what a sound object is |
| C59 | the writer of C18, the parser of C54 | the text that is written is an object whose members are known, so C55 and C57 apply; an object text has only one list of members, so what is read is what was stored (Spec/GeojsonStore.lean) |
| C60 | the same | what is parsed satisfies `Dressed`/`Stored` of C59 (flags and members, by induction over the parser), the text depends only on the view and the stored members, and it has no more levels than the text that was read (`Good`) |
| C61 | `Model/Predicates.lean`, exact arithmetic | C46 and C24 give the answers for simple shapes; induction over the children for the rest; `Spec/Interior.lean` has interior and boundary |
| C62 | `Model/Predicates.lean`, exact arithmetic | in general position the edge flags do not change any answer, so C48's answers for `Inside` hold for all calls; holes by connectedness of rings; induction over the children |
| C63 | `Model/Predicates.lean`, exact arithmetic | the search visits each pair of segments with a common point (C23); with one common point `segment_touches0` asks if the end is on the other segment |
| C64 | `Model/GeojsonParse.lean`, `Spec/GeojsonLoose.lean` | the loops are inverted, induction on the depth of the calls; the other direction as for C55 and C57 |
| C65 | `Model/Ryu.lean`, `Model/RyuTables.lean`, `Spec/Double.lean` | all exponents of the tables are checked by the kernel (`pos_facts`, `neg_facts`), with bounds of continued fractions for all significands; loops by induction; rounding by the order of the doubles |
| C66 | `Model/Ieee.lean`, `Spec/Grid.lean`, `Spec/Double.lean` | differences and products of grid points are exact; relative error of a quotient; different slopes differ by more than the error; the next double is closer than any other grid line |
| C67 | `Model/IeeeOrient.lean`, `Spec/MadeBy.lean`, `Spec/Grid.lean` | a geometry made with doubles has a twin made with exact arithmetic (same points, same flags, indexes that enclose the same items); predicates on twins agree; then C53, C61-C63 |
| C68 | `Model/IeeeIndex.lean`, `Spec/Float32.lean` | (1 - 2^-23) x is below x by more than half a float step; monotone rounding; instantiates C67; outside the range a witness with 64 points |
| C69 | `Model/Distance.lean`, `Spec/Distance.lean` | the clamped parameter minimises a quadratic; gaps of intervals; monotone rounding keeps rectangle distances lower bounds; instantiates C29 |
| C70 | `Model/Circle.lean` | accumulated error of the sum is below one step; for the witness: from 256 on each addition loses almost half an ulp |
| C71 | `Spec/Shared.lean` (`Plain`, `Below`, `Beside`, `Vertex`) | end points are compared before any arithmetic; the index and the stripes deliver a segment at the vertex, as stripe numbers are monotone for all doubles |
| C72 | `Spec/Shape.lean`, `Model/Query.lean` | the ring on the stack has the same segments and answers as the ring that the constructor makes of the corners (`Like`); then C53, C61, C68 |
| C73 | `Spec/Measure.lean`, `Model/Measure.lean` | a proof of the isoperimetric inequality for polygons after Lax: the chain is cut in two halves of equal length; along each half `y² cot` bounds the area, segment by segment |
| C74 | `Spec/Layout.lean`, `Model/Layout.lean` | the loops of `calc_index_size` and `fill_index_struct` advance together; the counts of the first pass over the stripes are the lengths after the second, by induction over the segments; with doubles `fl(count / P)` is on the same side of every integer as `count / P`, by the relative error |
| C75 | `Spec/Circle.lean`, `Model/Circle.lean` | the loop lemma of C70 for any arithmetic, with the exact angles; then trigonometric identities for a side, a cross product and a turn, the same for every corner |
| C76 | `Spec/Move.lean`, `Model/Move.lean` | the constructors on mapped points; crossings, boundaries, turns and escapes under a translation; C53 and C67 for both copies |
| C77 | `Spec/Touch.lean` | a segment with no vertex of a simple ring on it has a point inside if and only if it meets two edges: induction over the number of edges met, with the parity of C26; the callback without edges counts as the one with edges |
| C78 | none beyond `Spec/Shape.lean`, `Spec/Region.lean` | the ring on the stack is like a made ring (C72), then C72 and C62; the bounding boxes are least; finitely many segments do not cover a box, as a vertical line between their ends meets each at most once |
| C79 | `Spec/Parts.lean`: the points, lines and polygons of a geometry as a user sees it | the parts of an object and of its view are the same but for lines without points; then C52, C55, C01 give the view and C68, C72, C67 the answer |
| C80 | `Shows` in `Props/IndexGet.lean`: the tree in terms of what the functions return | the levels are those of `Levels` (C19, C26); induction over the levels from the leaves to the root |
| C81 | `Spec/Margin.lean`, `Spec/MarginShape.lean`: what it means that a point is away from a segment, in exact arithmetic | bounds on the errors of each rounded step of `raycast` and `segX`: the sign that decides is the exact one if the point is farther from the line than the errors add up to; then the stripes and trees visit the same segments |
| C82 | `Spec/Decimal.lean`: decimals, and what it means that a point is away from a segment of decimals | rounding keeps all comparisons of such decimals, and the sign of the cross product if the point is away from the line; then C81 |
| C83 | `Spec/Accessors.lean`: a user's program over an interface of accessors; empty; largest dimension | recursion over the object; the parsers keep the empty flag truthful (`Straight`) |
| C84 | `leaves` in `Spec/Accessors.lean`: the simple geometries that are not empty | the loop over the slots; induction over the members |
| C85 | `Spec/MarginMeet.lean`: shapes whose vertices are clear and whose segments are apart | the tests of doubles agree with the exact ones on each segment, so each loop gives the same answer as for exact numbers (C53); sign of the turn by error bounds |
| C86 | `Spec/MarginCovers.lean`: a polygon and a shape away from each other | each loop over the segments gives the answer of the exact arithmetic, for which C62 tells it; the search along a segment for intersections is never entered, for no vertex is on the other boundary |
| C87 | `Spec/MarginCovers.lean`: shapes clear of each other and in general position | each test of a vertex against a side answers as the exact one does, so the loops find no vertex on a side; the loops of collections are those of C61 |
| C88 | `Spec/MarginCovers.lean`: each part has its vertices of usual size | each pair of parts answers as the exact tests do; induction on the nesting carries it through the loops of collections |
| C89 | `Spec/LayoutGeom.lean`: holes and unused bytes of a geometry | induction on the nesting, with C74 at the rings; the levels of the index are those of C39 |
| C90 | `Spec/MarginCovers.lean`: interiors and members by the exact plane | the loop over the second collection asks each member of the first; each pair answers as the exact tests do |
| C91 | `Model/JsonEscape.lean`: the loop of `json_escapen` with `struct jesc_buf` and its block | invariant of the block after each append; each piece appended is a character of the grammar of C16 |
| C92 | `Model/JsonCopy.lean`: `for_each_utf8` over places in the string with checked reads, `json_string_copy` with checked stores | the loop over places is the recursion on the rest of the string (`unescape`); invariant of the block after each store |
| C93 | `Model/JsonCompare.lean`: `strncmp` with checked reads, `strcmpn`, the loop of `json_string_comparen` over the bytes of `for_each_utf8` | induction on both texts at once |
| C94 | `Model/JsonInt.lean`: `strtoll`, `strtoull`, the guards and the conversion of doubles, with `none` for a conversion that is not defined | digits as `Nat.ofDigits`, case analysis on the value of the double |
| C95 | `Model/JsonBool.lean`: `json_double` and `json_bool` | C93 for each of the six texts; the bits of a double that is equal to zero |
| C50, C51 | `fp_utoa`; the writers | decimal values of digit lists; structural induction |
| C44 | `hilbert_xy_to_index` on 32-bit words | bitwise decomposition |

## Deviations of the code from the expected property

(each has a Lean witness)

* C01: the constructors do not validate, the parser does. The round trip is stated for valid
  geometries; a point with all-NaN coordinates is the encoding of POINT EMPTY
  (`C01_nan_point_not_roundtrip`).
* C03: `count*2*8` in `parse_wkb_posns` is a 32-bit product. The nine bytes
  `01 02000000 00000010` lead to an out-of-bounds read (`C03_wkb_overread`).

* C16: when `vesc` fails, `vstring` negates its failure code again and returns a position, so a bad
  escape ends the string: the two bytes `"\` are "valid JSON" (`C16_bad_escape_accepted`). Over-long
  UTF-8 is accepted (`C16_overlong_accepted`) and U+10FFFF is rejected (`C16_max_codepoint_rejected`).
* C08: the writer writes members of a plain GeometryCollection as WKB, so their extra JSON and
  Feature marks are lost (`C08_member_json_lost`).
* C09: an empty point is written as a point of NaNs, so `tg_geobin_rect` gives NaN where `tg_geom_rect`
  gives zeros (`C09_empty_point`).
* C10: `tg_geobin_fullrect` does not check the dimension byte against 4 (`C10_fullrect_overflow`).
* C11: the GeoBIN parser inherits the over-read of C03 (`C11_geobin_overread`), and an error with a
  position becomes a feature of a FeatureCollection (`C11_error_as_feature`).
* C20: "rectangle" means `min <= max` on both axes. On rectangles that are inside out the predicates only compare
  bounds (`C20_inside_out`).
* C23: `tg_segment_intersects_segment` is not symmetric with doubles (29 bits, C23_order_ieee): one order asks `collinear`, the other computes the
  parameter of the common point. The search exchanges the segments if only the second side has an index, so that an index changes the answer.
* C22, C23, C24: in an indexed ring that is not closed by its last point, the last leaf rectangle does not cover the closing
  segment unless the number of points is a multiple of the spread. Searches miss it (`C22_open_ring_missed`) and the point test
  takes its points for interior ones (`C24_open_ring_missed`).
* C24: `process_ystripes` limits the last stripe of a segment to `nstripes - 1` but not the first one, so segments that
  lie at the very top of the ring are in no stripe: points on a horizontal top edge are reported as outside
  (`C24_top_edge_missed`). A ring of height zero converts a NaN to `int` (`C24_flat_ring_undefined`).
* C25: stated for rings closed by their last point; for others the missed closing segment of C22 moves with the start vertex.
* C26: `raycast` moves a point at the height of an end by one double. In the exact model the step is `ε`, and the theorem holds for all
  small `ε`; `C26_large_step` shows that it cannot hold for every `ε`.
* C42: in a ring closed by its last point the code never looks at the turn at the start vertex, so a ring that is reflex only there is
  flagged convex (`C42_start_vertex`); `tg_ring_contains_segment` and `tg_ring_contains_ring` rely on the flag. A straight first turn counts as
  left, so a clockwise convex ring that starts with a straight turn is flagged concave (`C42_first_straight`).
* C37: `tg_line_covers_line` never ends for a second line that follows the first one to an inner vertex and leaves it there (`C37_hangs`),
  and answers true for lines that leave it elsewhere (`C37_wrong`).
* C47: with edges not allowed `tg_ring_intersects_segment` answers true for segments without a point inside (`C47_no_edges_wrong`).
* C48: `tg_ring_contains_segment` is wrong between two corners of the ring (`C48_corner_wrong`), for segments through vertices
  (`C48_vertex_wrong`), for rings wrongly flagged convex (`C48_convex_wrong`), and for segments along an edge (`C48_touch_wrong`).
* C29: with the closing segment missing from the index (C22), segments can come out of order (`C29_open_ring_order`).
* C34: `tg_ring_copy` and `geom_copy` copy an index with `memcpy`. Its inner pointers still lead into the block of the original,
  so searching the copy after the original is freed reads released memory (`C34_index_witness`). A geometry made from a NULL
  line or polygon (an empty one) has no copy: `geom_copy` takes the NULL for a failed allocation (`C34_empty_witness`).
* C36: the four accessors of collections test `index <= ngeoms`. For every collection the index that equals the number of
  children reads past the array (`C36_past_end`).
* C39: 64 or more children whose rectangles lie on one vertical or horizontal line: `tg_point_hilbert` divides zero by zero and converts the
  NaN to `uint32_t`, which C leaves undefined (`C39_flat_undefined`).
* C40: an empty part of a collection has the rectangle (0, 0)-(0, 0), which is included in that of the collection (`C40_empty_part`).
* C31: with `TG_NOATOMICS` the counters do not work (`*rc++` moves the local pointer, so retaining does nothing). The model is of the build
  with atomics, the default.

* C12: a NULL line or polygon inside a collection is dereferenced (`C12_null_child_undefined`).
* C18: for a Feature without a geometry whose extra JSON has members for the geometry, the step back over `}` removes the last letter of
  `null` (`C18_unlocated_extra_invalid`). The parser does not make such an object. Extra JSON is copied, so it has to be JSON.
* C50: subnormal doubles are printed as `0` (`C50_subnormal_zero`).
* C14, C52: `wkt_balance_coords` counts all opening parentheses of a group instead of those that are open, and rejects more than 1024. A
  MultiLineString of 1024 lines that `tg_geom_wkt` wrote is not parsed (`C14_many_groups_lost`, `C14_flat_lost_case`).
* C52: `MULTIPOINT()` gets Z and M (`C52_empty_list_gets_zm`). After `EMPTY` what starts with `(` is ignored (`C52_after_empty_ignored`). `.5` is a
  number in a Point and not in a LineString (`C52_leading_point`). A null byte ends the name of the type (`C52_nul_in_name`).
* C13: bytes are given to `isspace`, `isalpha` and `isxdigit` as `char`; from 0x80 on the argument is negative, which C leaves undefined
  (`C13_high_byte_undefined`). No writer writes such a first byte.
* C38: `tg_geom_equals` ends for one order of some lines only (`C38_equals_hangs`, from C37). A linestring with one point is empty but touches a
  polygon (`C38_touches_point_wrong`), as does a polygon that has holes in an exterior of two points (`C38_touches_hole_wrong`).
  `tg_geom_foreach` does not enter nested collections, so no member of a collection covers the collection in a collection (`C38_nested_not_covered`).
  A polygon does not cover a collection with an empty member, a collection of that polygon does (`C38_empty_member`).
* C53: for a polygon with a hole that sticks out of its exterior the answer can be wrong (`C53_hole_sticks_out`); the theorem asks that the boundaries of
  all rings belong to the polygon.
* C54: the limit of 1024 levels is that of the validator, which ends a string at a bad escape. The parser does not, so that in a flat object of strings it can
  see collections nested as deep as one likes, and recurses as deep (`C54_depth_unbounded`; the text is shown there). With a small stack this is a crash.
* C55: numbers of 512 bytes and more are read as 0 (`C55_long_number_zero`). An empty MultiPoint, MultiLineString or MultiPolygon gets Z and M. M without Z
  is written as the third number and read as Z.
* C58: `parse_wkb` (tg.c:13655-13700) keeps the line or polygon of each child of a MultiLineString or MultiPolygon. An empty child has none, so NULL is stored, and
  `tg_geom_wkt` and `tg_geom_geojson` follow it (`C58_wkb_null_line`, `C58_wkb_null_polygon`). The bytes are valid WKB. An empty point in a MultiPoint becomes (0, 0)
  (`C58_wkb_empty_point_is_origin`). A ring with the count 0 is accepted and gives a polygon with an empty exterior (`C58_wkb_empty_ring`). The text parsers do none of this.
* C59: a Feature keeps its members as text. The writer looks for the id with `json_object_get`, which understands escapes, but leaves out the id from the other members by comparing
  the raw key (tg.c:11696, 11752). A key `"i\u0064"` is written twice (`C59_escaped_id_twice`), and a key `"propert\u0069es"` is followed by `"properties":{}`
  (`C59_escaped_properties_twice`). So `Stored` asks that these two names are spelled without escapes.
* C60: the first text is read with Z for a third number, an empty MultiPoint, MultiLineString or MultiPolygon has Z and M (C55); both do not change the text that is written.
* C61: `touches` is not symmetric (`C61_order_matters`); a closed line has its start as boundary (`C61_closed_line`); a point covers but does not contain a polygon that is only this point (`C61_same_point`).
* C62: without general position `touches` misses squares with a partly common side and an apex on a side (`C62_touches_needs_general`, `C62_line_touches_needs_general`), a polygon covers the square that fills its hole (`C62_covers_needs_general`), and `contains` wants every segment of a line to meet the interior (`C62_contains_needs_general`).
* C63: without the hypotheses the answers are wrong: a line touches its own first half (`C63_needs_no_overlap`), a line that passes its own start does not touch there (`C63_needs_ends_once`), nor does a line with its first point twice (`C63_needs_no_repeat`).
* C64: the texts are JSON texts of the grammar, so what the validator lets through in addition (C16) is not covered. Duplicate members are accepted: the first `type` counts, but the last `coordinates`. A type `Point\u0000x` is a Point (`C64_odd_accepted`). A number of 512 bytes or more is 0.
* C65: the variant for compilers with `__uint128_t`. Modelled are the functions for `double`; those for `float` and the parsers `s2d`/`s2f` are not called by tg. Of two decimals that are equally close either may be printed. `strtod` remains a parameter; that it rounds to the nearest (`Rounding`) is an assumption about the C library, and such a function exists (`exists_rounding`).
* C66: coordinates are the values of finite doubles (rational numbers), so there is no negative zero, which no operation of these functions depends on. `FLT_EVAL_METHOD` 0 and no contraction of operations is assumed. What an overflow or a division by zero gives is arbitrary. With more bits the check for a loss of precision in `collinear` (tg.c:861-874) fails in both directions: it moves a product away from the exact value instead of towards it, so that a point next to a segment is found on it (`C66_nudge_wrong`, 28 bits), and it can move one of two equal products only, so that the middle of a segment is not found (`C66_middle_missed`, 29 bits).
* C67: as in C66 coordinates are the rational values of doubles. `Fit` is a hypothesis on the points of rings: it excludes the rings that C22 shows to be answered wrongly even with exact arithmetic. The number of stripes (`F.ns`) is arbitrary below 2^31. `SumOk` (the sum of the signed area cannot round) is only needed where the clockwise flag matters (touches, covers of polygons). The conversion of index coordinates is a parameter; C68 instantiates it.
* C68: an infinite float is represented by 2^1100. The conversion keeps doubles within 2^1000 so that the model has no infinite double; NaN is not modelled. In C68_huge_missed the Hilbert sort uses exact arithmetic and the sorting function is an insertion sort; neither matters, since all rectangles of the index are the same.
* C69: `Fp.Saturates` says that results out of range keep order and sign (as the infinities do); `sqrt` is any monotone function for doubles. That computed distances are close to the true ones is not claimed.
* C70: `sin`, `cos` and `M_PI / 180.0` are parameters; the allocation succeeds. `steps` = INT_MIN overflows at `steps--` and is excepted.
* C71: coordinates are finite doubles that are zero or of size 2^-125 to 2^126. A vertex is taken to be found in a ring with Y-stripes if one of its segments starts lower than the top of the ring by a millionth of its height; a segment that lies at the top is in no stripe.
* C72: the rectangle is given with `min` ≤ `max` in both coordinates.
* C73: exact arithmetic; `sqrt` and `M_PI` are the real ones. With doubles a score could be rounded to 1 or above.
* C74: sizes are natural numbers and the sizes of C types are parameters (`Abi`). `size_t` does not overflow and `npoints + 1` does not (it does for `INT_MAX` points). `pow` of the C library is a parameter, assumed exact on integers with results below `2 ^ 44`. For stripes `nmap` has no bound in the model; in the code it is an `int` and overflows for rings of `2 ^ 26` points (`C74_nmap_overflow`).
* C75: exact real arithmetic with the real sine, cosine and π; the doubles are C70.
* C76: the rings have to be closed by their last point or without index, and with stripes no point of the other shape may be on their top, unless no segment is along it; `C76_rounding` shows two points that a move with doubles unites, and `C76_index_lost` a ring that loses its index. Allocation failures in `series_move` and `tg_poly_move` are not modelled.
* C77: the exact statement is for polygons without holes and needs its hypotheses: `C77_start_matters` is a line along a side of a square for which the answer depends on the start of the ring, `C77_through` a line through the interior for which the answer is true, `C77_both_ends` a line between the arms of a U for which it is false. For two polygons the answer is not exact (`C62_touches_needs_general`).
* C78: `tg_segment_covers_rect` says that the diagonal of a rectangle covers it (`C78_diagonal_wrong`), for all rectangles with width and height. `tg_line_covers_rect` can say true for a vertical rectangle of which the line has one point (`C78_vertical_wrong`).
* C79: `Model/Bridge.lean` joins the two models of an object, that of the codecs (`Geom`, a value) and that of the predicates (`Geo`, with indexes). That the parsers call the constructors with these points is read off the parsers, it is not a theorem: the model of the parsers returns values.
* C79: the conditions on polygons and rings (`Sound`) are those of C53: holes inside of the exterior and apart, no search in the index of a ring that is not closed, no point on the top edge of a ring with Y-stripes. The coordinates are integers of at most 24 bits times a common power of two; this excludes infinities and NaNs.
* C80: that a rectangle of floats encloses the one it is made from (`Encloses`) is a hypothesis about the coordinates; C68 shows where it holds. For rings that are not closed the last segment may be outside: `C80_open_ring_missed`.
* C81: a point at the top of a ring (in the top millionth of its height) is only covered if no segment of the ring lies within that millionth (`NotTop`); the stripe of the point is computed by rounded arithmetic, and the last stripe might be missed. `C81_needed` shows an error for a point that is nearer to the line than the distance: `raycast` says on for a point that is not in the rectangle of the segment. Polygons or collections as the first argument of intersects with a point as the second are in C85, touches is in C87.
* C82: that the coordinates of the object are the rounded decimals is a hypothesis (`AShape.Maps (Pt.each F.fl)`); the parsers round the value of each number text (C52, C55). `C82_needed`: the point (0.1, 0.7) on the segment from (0, 0) to (1, 7) is not on it after rounding. A point in the top two millionths of the height of a ring is not covered (`NotTopDec`).
* C83: `Model/GeomGet.lean`. `tg_geom_point` is modelled on points only. Objects that are flagged as empty and have parts are excluded (`Straight`); the three parsers never return one (`C83_parsed`), and `C83_needed` shows that they would be shown in another way than they are written. For GeoJSON the depth that the program needs is that of the object.
* C84: the comment above `tg_geom_foreach` promises that nested collections are flattened and that empty geometries are left out. The code visits the direct members, empty ones included, and the members of a MultiPoint Z are points without Z (`C84_not_flat`).
* C85: the holes are as in C53 (`AShape.Ok`: in the exterior, not overlapping, convex if the flag says so). `BoxTells`: if the box of one exterior is within that of the other, then it is smaller by a part of 2^-48, so that the rounded areas tell which is the larger. The rings are closed and `NotTop` as in C81. The number of stripes is below 2^31.
* C86: the polygon is as in C62 (`AShape.Firm`). No vertex of one is on the boundary of the other (`General`); the boundaries may cross. `BoxTells` as in C85, for the polygon and its holes.
* C87: where the geometries are not in general position, that is a vertex of one is on a segment of the other, only a point as one of the two is treated.
* C88: a geometry that is covered only by several parts together is not always recognised by the code, so the answer is characterised exactly only when one part is enough (`C88_union_missed` shows a case).
* C89: that the result is too large for polygons with holes is part of the statement. The block of a text may be larger than the text; how large it is made is not modelled.
* C90: the second geometry has no collection inside a collection; for those C88 gives the two directions.
* C91: the functions are part of the json.c that is contained in tg.c; tg itself does not call `json_escapen`. The block has the size that the caller passes.
* C92: a `struct json` is given by its kind, its flag and its raw bytes. For `\u` escapes outside ASCII the text is what `unescape` computes; the theorem says what it is for tokens that spell a text by ASCII escapes. `memcpy` of no bytes from NULL is taken to do nothing.
* C93: the key is given as a C string and a length of at most the number of its bytes. `json_getn` passes the length of a part of a path, and the loop for strings with escapes compares to the rest of the path (`C93_length_ignored`); outside of the JSON library tg.c calls only `json_string_compare` and `json_object_get`, which pass the length of the C string. `strncmp` is modelled by the sign that the C standard gives. The jump out of the loop is modelled as no further effect: the bytes after it are decoded in the model but change nothing.
* C94: `parse_int64` and `parse_uint64` convert a double outside of the type for `2 ^ 63`, `2 ^ 64` (`C94_undefined`) and NaN (`C94_nan`); they read numbers of 512 bytes or more as 0 (`C94_long`) and white space before a minus sign turns a negative number into a large one (`C94_space`). tg.c does not call these functions itself. `strtod` is a parameter; `long long` has 64 bits and `int` 32.
* C95: `json_bool` of a number of 512 bytes or more is false, since `parse_double` reads it as 0. tg.c does not call `json_bool` itself.

## The text writers (C12, C18, C50, C51)

Ryu (`d2s`) is a parameter of the theorems; assumed of it is that it prints a normal double in scientific notation (`IsSci`). C65 proves this of the model of Ryu, and that the
digits are those of the double. `fp_utoa` is modelled with its rewinding and cut-off. The functions for WKT and GeoJSON that differ in characters only are
one definition with the characters as a parameter. The navigation in the extra JSON (`json_first`, `json_next`, `json_object_get`, ...) is modelled on the bytes.

## The WKT parser (C14, C15, C52)

`strtod` is a parameter, a function of the bytes from the number on. C15 holds for every such function. C14 and C52 assume that it rounds
the decimal number before a delimiter with a fixed function `rnd` and that a `-` before a zero gives `-0` (`Strtod`). C14 assumes `rnd` of Ryu's digits is the double they were made
of (`Readable`), which C65 proves. Allocation succeeds; counts are not truncated to `int`.

## The GeoJSON parser (C54, C55, C56, C57)

`Model/GeojsonParse.lean` has all of `parse_geojson` over the navigator of `Model/JsonNav.lean`, which works on bytes and does not see what the validator
saw. `strtod` is a parameter that gives the number and how much was read. The number of open calls is an argument (fuel). C55 assumes `StrtodAll`.
`Spec/Geojson.lean` has the grammar of GeoJSON objects, with names in any spelling, and says which members are foreign.
C56 uses the text of C51 and assumes that Ryu prints no more digits than a double needs (`SciShort`, proved in C65), as the parser reads a number of 512 bytes as 0.

## The predicates on geometries (C38)

`Model/Predicates.lean` has `tg_geom_intersects`, `covers`, `contains`, `touches` and the predicates made of them, for points, lines, polygons and collections
in any nesting, with the dispatch over types as four tables (`atomX`, `atomCovers`, `atomContains`, `atomTouches`). A MultiPoint is a collection of points;
the types of collections are not told apart, as the predicates do not. The flags `convex` and `clockwise` of a ring are fields of the model's ring.
Every result is an `Option`: `none` is an access out of bounds or, for `tg_line_covers_line`, more iterations than the given number.
`Geo.Made` says that a geometry is the result of the constructors.

C53 is about shapes (`Spec/Shape.lean`): the points, options and environments given to the constructors, and the set of points that they stand for.
`Shape.Is` says that a geometry is made of a shape. `AShape.Ok` has the conditions on polygons, `Fit` excludes the rings and points for which the searches are
wrong (C22, C26). `polyOk_nil`, `polyOk_boxes`, `fit_small` and `fit_closed` show that they are met.

## The heap model (C31, C33, C34)

* A heap maps addresses to blocks; addresses are never reused, so a pointer to a released block is always recognised. A block is one
  `malloc`: a ring or line with its points, a polygon, an array of rings or geometries, a geometry, the part for several children, an index,
  stripes, extra coordinates.
* `malloc` asks an oracle `fails : Nat -> Bool` indexed by the number of the allocation. Sizes are not modelled, `realloc` is not used there.
* Read or release of a block that is not allocated, or use as another type, has no result (`none`). The theorems say it does not happen.
* What an index contains is not modelled here (see C19-C24); only the pointer it has into its own block.
* `Allowed` states the rules for a caller: arguments are NULL or objects of the right type that can be reached from an owned reference;
  what is freed is owned. A point given to a constructor of a collection is a geometry too, as in the C code.

## The thread model (C32)

* One step per atomic operation, fence, read of the fields of a dying object, and release. Threads are interleaved in any order.
* Memory order: each thread, each counter has a view (vector clock). A counter is changed by read-modify-write operations only, which in C11
  read the latest value whatever their order; so interleaving them is faithful. The views follow the C11 rules for release sequences and fences.
* A `fault` is an access to a released object, a second release, or a release that some access does not happen before.
* Threads use what they reach from references they own. A reference may be given to another thread; the caller synchronises the two.

## The Hilbert key (C44)

`hilbert_xy_to_index` is modelled word for word on 32-bit vectors. The proof reads
the four rounds as a parallel prefix scan over two-by-two bit matrices, shows that
the two words left at the end hold, for every bit, the state of the usual
recursive description of the curve, and then decodes the key with that recursive
description. The conversion of a `double` pair to grid cells in `tg_point_hilbert`
is not modelled: it is a division, a multiplication and a C conversion, and for a
rectangle without width the quotient is NaN and the conversion undefined.

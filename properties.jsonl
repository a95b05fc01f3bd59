{"id": "C01", "title": "Valid polygons always triangulate", "statement": "For a valid polygon set (every polygon has at least three vertices, no two vertices coincide, two distinct edges meet only in a common end point; holes, islands and nesting allowed) and exact coordinates, `triangulate` with an infallible format terminates and returns Ok: no error value, no panic, no undefined behaviour, no endless loop. No loop of a run takes more than (n+3)^2 passes, n being the number of elements of the index iterator.", "quantifier": "every valid polygon set of any size over any ordered field, every segment shuffle order, every relocation schedule, debug or release", "why_tests_cant": "the library shuffles segments with thread_rng and relocates pending vertices on a floating point schedule; tests see a handful of inputs and one random order each", "anchors": ["src/trapezoidation.rs: build, add_polygon, add_vertex, add_segment, triangulate_inner", "src/monotone.rs: build_fans", "src/inputs/polygon_list.rs: PolygonList::triangulate"]}
{"id": "C02", "title": "Triangles cover the interior exactly once", "statement": "On success for a valid polygon set, every point that is not on an edge of an output triangle lies in exactly one output triangle if it is inside the polygons by the even-odd rule and in no output triangle otherwise. More than that, for every point whatever: no point is strictly inside two output triangles, a point on a polygon edge is strictly inside none, and a point on no polygon edge is inside the polygons exactly if it belongs to some output triangle of nonzero area, sides and corners included.", "quantifier": "every valid polygon set, every shuffle and schedule, every query point", "why_tests_cant": "coverage and non-overlap are statements about uncountably many points and all polygons", "anchors": ["src/trapezoidation.rs: triangulate_inner", "src/monotone.rs: build_fans"]}
{"id": "C03", "title": "Default winding is counterclockwise", "statement": "For a valid polygon set and a format with the default winding, every emitted triangle has non-negative signed area in the emitted vertex order (and positive area if its three vertices are not collinear).", "quantifier": "every valid polygon set, shuffle, schedule and every triangle emitted", "why_tests_cant": "winding depends on chain side, fan direction and deferral; tests check the total area, which hides single flipped triangles", "anchors": ["src/monotone.rs: build_fans, deferred_index, can_triangulate", "src/outputs/triangle_winding.rs"]}
{"id": "C04", "title": "Areas add up", "statement": "For a valid polygon set the signed areas of the output triangles sum to the signed area of the region (for one polygon: the absolute value of its shoelace sum).", "quantifier": "every valid polygon set, shuffle and schedule", "why_tests_cant": "tests compare areas only on random samples and up to a float tolerance", "anchors": ["src/trapezoidation.rs: triangulate_inner", "src/monotone.rs: build_fans"]}
{"id": "C05", "title": "A simple polygon with n vertices gives n-2 triangles", "statement": "For a valid input consisting of one polygon with n vertices the output has exactly n-2 triangles. For several polygons with n vertices altogether, k of them holes and m not, it has n - 2m + 2k triangles. Both hold for either winding.", "quantifier": "every valid polygon set, winding, shuffle and schedule", "why_tests_cant": "depends on how the polygon is cut into monotone mountains for every shape", "anchors": ["src/trapezoidation.rs: triangulate_inner", "src/monotone.rs: build, build_fans"]}
{"id": "C06", "title": "Output only names input vertices", "statement": "Every vertex index handed to a fan format was produced by the polygon list's index iterator.", "quantifier": "every polygon list whatsoever (also invalid, self-intersecting, NaN), every format, shuffle and schedule, success or failure", "why_tests_cant": "a stray index would be an out-of-bounds access in the caller's mesh for some rare input", "anchors": ["src/trapezoidation.rs: add_vertex, triangulate_inner", "src/nexus.rs: Nexus::vertex", "src/monotone.rs: build_fans"]}
{"id": "C07", "title": "No undefined behaviour from the unchecked indexing", "statement": "No call of `trapezoidize` or `triangulate` performs an out-of-range unchecked access, even for self-intersecting, duplicated, NaN or infinite input and arbitrary Vertex and index implementations.", "quantifier": "every input, every behaviour of comparison and arithmetic on coordinates, every shuffle and schedule", "why_tests_cant": "the crate uses get_unchecked on indices kept in its own graph; tests only sample, and undefined behaviour can pass silently", "anchors": ["src/idx.rs: impl Index<Idx<T>> for Vec<T>", "src/trapezoidation.rs: find_trapezoid_from_root"]}
{"id": "C08", "title": "Short polygons are rejected with their length", "statement": "A polygon group of one or two vertices makes `triangulate`/`trapezoidize` return NotEnoughVertices with that group's length (unless an earlier group already failed), and a group of three or more never does.", "quantifier": "every sequence of polygon elements and every vertex data", "why_tests_cant": "must hold for every position of the short group and every content of the other groups", "anchors": ["src/trapezoidation.rs: build", "src/errors.rs: TrapezoidationError"]}
{"id": "C09", "title": "Separators are idempotent and optional at both ends", "statement": "Repeating NewPolygon separators, or adding or removing them at the beginning or the end of the iteration, does not change any result.", "quantifier": "every element sequence, every place where a separator may be duplicated, every vertex data and format", "why_tests_cant": "documented contract over all iterators", "anchors": ["src/inputs/polygon_list.rs: PolygonList::iter_indices", "src/trapezoidation.rs: build"]}
{"id": "C10", "title": "No polygons means NoVertices", "statement": "A polygon list that yields no vertices makes `triangulate` return NoVertices, for every format, without starting the format.", "quantifier": "every vertex-free element sequence and every format", "why_tests_cant": "holds for every number of separators and every user format", "anchors": ["src/fan_builder_state.rs: complete", "src/trapezoidation.rs: top_trapezoid, triangulate_inner"]}
{"id": "C11", "title": "Formats cannot influence the triangulation", "statement": "The sequence of start/extend calls made on a format depends only on the polygons and the format's winding; a format that reports an error sees exactly a prefix of the sequence an error-free format would see, ending with the failing call, and its error is what the caller gets.", "quantifier": "every polygon list and every user-written format, including failing ones", "why_tests_cant": "user formats are arbitrary code; the claim compares all of them", "anchors": ["src/monotone.rs: build_fans", "src/fan_builder_state.rs: new_fan", "src/trapezoidation.rs: triangulate_inner"]}
{"id": "C12", "title": "Builder life cycle", "statement": "A format that was started successfully is finished exactly once: `build` if and only if the triangulation succeeded, otherwise `fail` with the very error that is returned; a format that was not started successfully is never built or failed; a builder that reported an error receives no further fan calls.", "quantifier": "every polygon list, every format, every failure point", "why_tests_cant": "all interleavings of builder errors and internal errors", "anchors": ["src/fan_builder_state.rs: new_fan, complete", "src/trapezoidation.rs: triangulate"]}
{"id": "C13", "title": "First triangle through initialize, then whole fans", "statement": "The first triangle reaches a format through `initialize`, every later fan through `new_fan`, and `extend_fan` is only called on a builder whose current fan exists.", "quantifier": "every polygon list, every format", "why_tests_cant": "protocol over all call histories", "anchors": ["src/fan_builder_state.rs: new_fan", "src/monotone.rs: build_fans"]}
{"id": "C14", "title": "Indexed fan output appends the emitted fans", "statement": "IndexedFanFormat over a Vec returns the caller's fans unchanged followed by exactly the emitted fans, in order.", "quantifier": "every call sequence, every pre-existing content", "why_tests_cant": "universally quantified over histories and prior content", "anchors": ["src/outputs/formats/generic_fans.rs", "src/outputs/formats/indexed_fan.rs"]}
{"id": "C15", "title": "A list format sees the triangles of the fans", "statement": "Through `into_fan_format` a list format receives exactly the triangles of the fan sequence, in order and with unchanged vertex order; for IndexedListFormat over vectors of triples or flat vectors the result is the prior content followed by them.", "quantifier": "every call sequence, every list format, every prior content", "why_tests_cant": "all fan lengths and sequences", "anchors": ["src/outputs/formats/fan_to_list.rs", "src/outputs/formats/generic_list.rs", "src/outputs/formats/indexed_list.rs", "src/outputs/list.rs"]}
{"id": "C16", "title": "Deindexed output is the indexed output with vertices looked up", "statement": "DeindexedFanFormat/DeindexedListFormat produce the indexed output with every index replaced by the vertex it names, and never panic in get_vertex.", "quantifier": "every polygon list, every run", "why_tests_cant": "relates two formats over all inputs", "anchors": ["src/outputs/formats/deindexed_fan.rs", "src/outputs/formats/deindexed_list.rs"]}
{"id": "C17", "title": "Delimited output can be split back into fans", "statement": "If DelimitedFanFormat succeeds, splitting the new part of the output at the delimiter gives back exactly the emitted fans; it reports IndexMatchesDelimiter exactly when an emitted index equals the delimiter.", "quantifier": "every call sequence, delimiter and prior content", "why_tests_cant": "round-trip for all sequences", "anchors": ["src/outputs/formats/delimited_fan.rs"]}
{"id": "C18", "title": "Failure leaves the caller's container as it was", "statement": "When triangulation fails, a lent container (`&mut Vec`) has the content it had before the call.", "quantifier": "every format of the crate, every prior content, every failure", "why_tests_cant": "must hold for every failure point; the code violates it in three situations (flat Vec whose length is not a multiple of three; DelimitedFanFormat and user list formats failing on the first triangle)", "anchors": ["src/outputs/list.rs: impl List<V> for Vec<V>", "src/outputs/formats/delimited_fan.rs: new", "src/outputs/formats/fan_to_list.rs: initialize", "src/fan_builder_state.rs"]}
{"id": "C19", "title": "Reversed winding mirrors every triangle", "statement": "With `reverse_winding` every emitted triangle is clockwise and the set of triangles is the same as without it.", "quantifier": "every valid polygon set and format", "why_tests_cant": "false in the current code (some fans are emitted counterclockwise or with a wrong root when WINDING is Clockwise); holds for deferred fans", "anchors": ["src/monotone.rs:113-117", "src/outputs/formats/reverse_fan.rs"]}
{"id": "C20", "title": "index_with only renames indices", "statement": "Triangulating through `index_with` with conversions that succeed and are inverse to each other gives the original result with every index converted; the geometry code is not affected.  For nested vectors the number of the polygon and the place in it are converted each in its place.", "quantifier": "every polygon list, every pair of inverse conversions, every format and run", "why_tests_cant": "relational property over two index types and all inputs", "anchors": ["src/inputs/polygon_list.rs: IndexWith, IndexWithIter", "src/mappable.rs"]}
{"id": "C21", "title": "index_with panics on failed conversions", "statement": "If some index yielded by the list cannot be converted and everything before it is accepted, triangulation through `index_with` panics; it never silently substitutes another index.", "quantifier": "every polygon list and partial conversion", "why_tests_cant": "all positions and contents", "anchors": ["src/inputs/polygon_list.rs: conversion_panic"]}
{"id": "C22", "title": "Nested vectors iterate as documented", "statement": "For a slice of polygons the iterator yields for polygon i the indices [i,0]..[i,len-1] followed by NewPolygon, in order, and then ends; each yielded index is accepted by get_vertex and names that vertex, and vertex_count is their number.", "quantifier": "every nested vector", "why_tests_cant": "all shapes including empty inner vectors", "anchors": ["src/inputs/polygon_list.rs: VecVecIter, impl PolygonList for D"]}
{"id": "C23", "title": "Size of the trapezoidation", "statement": "A successful trapezoidation has one vertex node per yielded vertex, one segment per yielded vertex and exactly 1 + vertices + segments trapezoids.", "quantifier": "every input for which trapezoidize succeeds (also invalid ones)", "why_tests_cant": "capacity planning and termination arguments rely on it for all inputs", "anchors": ["src/trapezoidation.rs: add_vertex, add_segment, new"]}
{"id": "C24", "title": "Point location agrees with geometry", "statement": "In the trapezoidation of a valid polygon set the query structure sends every point that is in general position to a trapezoid that contains it geometrically, and no other trapezoid contains it.", "quantifier": "every valid polygon set, shuffle, schedule, and every query point not on an edge or on a vertex's level", "why_tests_cant": "uncountably many points", "anchors": ["src/trapezoidation.rs: find_trapezoid_from_root, add_vertex, add_segment", "src/querynode.rs"]}
{"id": "C25", "title": "Consistency checks never fire on valid input", "statement": "For a valid polygon set the debug-build consistency checks never panic, and debug and release builds give the same result.", "quantifier": "every valid polygon set, shuffle and schedule", "why_tests_cant": "assertions quantify over every intermediate state", "anchors": ["src/trapezoidation.rs: check_consistency"]}
{"id": "C26", "title": "Vertex order and start do not matter", "statement": "Rotating or reversing the vertex order of polygons, or permuting the polygons, leaves validity, the covered region, the total area and the number of triangles unchanged.", "quantifier": "every valid polygon set and every such rearrangement", "why_tests_cant": "relational over all rearrangements", "anchors": ["src/inputs/polygon_list.rs: iter_indices documentation", "src/trapezoidation.rs: add_polygon"]}
{"id": "C27", "title": "The mesh is watertight", "statement": "On success for a valid polygon set, for any two distinct vertices u, v: the number of output triangles with directed side u->v minus the number with v->u is +1 if u->v is a polygon edge with the interior on its left, -1 if on its right, and 0 otherwise.", "quantifier": "every valid polygon set, shuffle, schedule, every vertex pair", "why_tests_cant": "combinatorial identity over all outputs", "anchors": ["src/trapezoidation.rs: triangulate_inner", "src/monotone.rs: build_fans"]}
{"id": "C28", "title": "Triangulation of a monotone chain is complete", "statement": "Whenever the triangulation of one monotone chain with k vertices ends without error it has emitted exactly k-2 triangles whose directed boundary is the chain's boundary, whatever the coordinate comparison answers.", "quantifier": "every chain length, every behaviour of the orientation predicate (rounding, NaN)", "why_tests_cant": "must hold for arbitrary floating point answers", "anchors": ["src/monotone.rs: build_fans, transfer_pending, reset_position"]}
{"id": "C29", "title": "Monotone triangulation terminates on real mountains", "statement": "For a chain whose inner vertices lie strictly on one side of the line through its end points the monotone triangulation terminates, with at most quadratically many passes; for other chains it can run forever.", "quantifier": "every chain length and coordinates over an ordered field", "why_tests_cant": "termination for all inputs; non-termination needs a proof that no step count suffices", "anchors": ["src/monotone.rs: build_fans, reset_position"]}
{"id": "C30", "title": "trapezoidize then triangulate equals triangulate", "statement": "`triangulate` gives what `trapezoidize` followed by `Trapezoidation::triangulate` gives, and triangulating the same trapezoidation again gives the same result.", "quantifier": "every polygon list, run and format", "why_tests_cant": "all inputs and formats", "anchors": ["src/inputs/polygon_list.rs: trapezoidize, triangulate", "src/trapezoidation.rs: Trapezoidation::triangulate"]}
{"id": "C31", "title": "The side test is the exact orientation test", "statement": "For exact coordinates and an edge with its lower and upper end in the library's order, the side test answers 'left' for a point between the ends' levels exactly when the point is strictly left of the edge; on the level of an end it compares the x coordinates.", "quantifier": "every edge and point over an ordered field", "why_tests_cant": "all coordinates", "anchors": ["src/math.rs: is_left_of_line"]}
{"id": "C32", "title": "The vertex order is a strict total order on distinct vertices", "statement": "The order used to sort vertices (y, then x) is, for comparable coordinates, irreflexive, transitive and total on distinct points, and undefined exactly when a needed coordinate comparison is.", "quantifier": "all coordinate triples, including NaN", "why_tests_cant": "all values", "anchors": ["src/inputs/vertex.rs: impl PartialOrd for Coords"]}
{"id": "C33", "title": "The relocation schedule is only an optimisation", "statement": "For a valid polygon set the result of `triangulate` does not depend on the relocation schedule: with the same segment order every schedule gives the same trapezoidation and the same output.", "quantifier": "every valid polygon set, order and pair of schedules", "why_tests_cant": "relational over all schedules; the schedule comes from floating point iterated logarithms", "anchors": ["src/trapezoidation.rs: add_polygon (relocation)", "src/math.rs: math_n"]}
{"id": "C34", "title": "Every vertex is used", "statement": "For a valid polygon set every input vertex occurs in at least one output triangle.", "quantifier": "every valid polygon set, shuffle and schedule, every vertex", "why_tests_cant": "all shapes", "anchors": ["src/trapezoidation.rs: triangulate_inner", "src/monotone.rs: build_fans"]}
{"id": "C35", "title": "Reversing the winding twice is the identity", "statement": "`reverse` on windings is an involution without fixed points and `reverse_winding` applied twice behaves as the original format on every input.", "quantifier": "every winding, format and input", "why_tests_cant": "all formats", "anchors": ["src/outputs/triangle_winding.rs", "src/outputs/formats/reverse_fan.rs"]}
{"id": "C36", "title": "Coordinates only matter through comparisons", "statement": "Two inputs with the same indices whose coordinates answer every comparison and side test alike (for example after translation or positive scaling in exact arithmetic) produce identical output.", "quantifier": "every polygon list and every coordinate change that preserves the predicates", "why_tests_cant": "relational over all pairs of inputs", "anchors": ["src/math.rs", "src/inputs/vertex.rs", "src/trapezoidation.rs", "src/monotone.rs"]}
{"id": "C37", "title": "Trapezoidation ends", "statement": "`trapezoidize` returns for every input: every loop makes at most 2n+3 passes, where n is the number of elements of the index iterator, and the outcome is a trapezoidation, an error value or a panic; it is a panic only in a build with debug assertions or if the index iterator or `get_vertex` panics.", "quantifier": "every polygon list (however invalid), every coordinate arithmetic (NaN, infinities and rounding included), every shuffle and schedule", "why_tests_cant": "termination for all inputs and all arithmetic", "anchors": ["src/trapezoidation.rs: build, add_polygon, relocation, add_vertex, add_segment"]}
{"id": "C38", "title": "Release builds do not panic", "statement": "Without debug assertions neither `trapezoidize` nor `triangulate` panics, provided `get_vertex` answers for every index the index iterator yields and the output format's own operations do not panic.", "quantifier": "every polygon list (however invalid), every coordinate arithmetic, shuffle, schedule and format", "why_tests_cant": "absence of panics for all inputs and all arithmetic", "anchors": ["src/trapezoidation.rs", "src/monotone.rs", "src/nexus.rs"]}
{"id": "C39", "title": "Only a chain can run forever", "statement": "A `triangulate` call either ends before the format is asked for anything, or it amounts to triangulating a finite list of chains of input vertices, the same for every format and winding, one after the other, followed by success or an error value; if the triangulation of each of these chains ends, the call returns.", "quantifier": "every polygon list (however invalid), every coordinate arithmetic, shuffle, schedule and format", "why_tests_cant": "termination and structure of all runs", "anchors": ["src/trapezoidation.rs: triangulate_inner", "src/monotone.rs: build_fans"]}
{"id": "C40", "title": "A closed ring can run forever", "statement": "A negative finding: `triangulate` does not return for every input. With exact arithmetic the triangle (0,1), (0,0), (2,2) written as a closed ring, with its first vertex repeated at the end, is never finished for eight of the 24 orders in which its edges may be inserted, in debug and release builds and for every output format.", "quantifier": "every output format, every number of steps, eight insertion orders, both kinds of builds", "why_tests_cant": "a test cannot observe that a run never ends", "anchors": ["src/monotone.rs: build_fans", "src/trapezoidation.rs: triangulate_inner"]}
{"id": "C41", "title": "Clear floating point input is treated exactly", "statement": "With f32 or f64 coordinates (finite, products of differences not overflowing): if every side test between three vertices is either computed without rounding or clear (the two products compared differ by more than four units in the last place of their magnitudes), the call has the same outcome, and leaves the same storage, as with exact arithmetic. This holds in particular if all coordinates are integers of few bits times one power of two.", "quantifier": "every polygon list with such coordinates, valid or not, every binary floating point format, shuffle, schedule, build and output format", "why_tests_cant": "a statement about all roundings of all coordinates", "anchors": ["src/math.rs: is_left_of_line", "src/inputs/vertex.rs"]}
{"id": "C42", "title": "Valid polygons on a floating point grid are triangulated", "statement": "Valid polygon sets whose coordinates are integers of at most 25 bits times 2^k, -537 <= k <= 484 (f64), or of at most 11 bits times 2^k, -74 <= k <= 50 (f32), are triangulated successfully with floating point coordinates; the triangles are those of exact arithmetic, they are counterclockwise, their areas add up and they cover every point as they should.", "quantifier": "every valid polygon set on such a grid, every shuffle, schedule, build and infallible format", "why_tests_cant": "a statement about all polygons on the grid and all points of the plane", "anchors": ["src/math.rs: is_left_of_line", "src/inputs/polygon_list.rs: triangulate"]}
{"id": "C43", "title": "Rounding can break valid input", "statement": "A negative finding: with f64 coordinates, and also with f32 coordinates, valid polygons are not always triangulated. For one simple quadrilateral the call never returns, for one triangle of positive area it returns an error, and for one simple quadrilateral it returns two triangles one of which is clockwise and reaches outside, for every insertion order and in both kinds of builds.", "quantifier": "every insertion order, both kinds of builds, every number of steps (and every output format for the first polygon)", "why_tests_cant": "a test cannot observe that a run never ends, nor try every insertion order of a randomised algorithm on purpose", "anchors": ["src/math.rs: is_left_of_line", "src/monotone.rs: build_fans, can_triangulate"]}
{"id": "C44", "title": "The result is determined by the geometry", "statement": "For valid polygons the result of `triangulate` does not depend on the random insertion order, on the relocation schedule or on the build: with every output format, also one whose operations fail, all runs end with the same output or error and the same state of the format. Two valid inputs of any kinds with the same edges (for example with polygons permuted, rotated or reversed) hand over the same fans in the same order, corner by corner, if corners are named by their positions. The first statement also holds with f64 and f32 coordinates on the grids of C42.", "quantifier": "every valid polygon set (or pair with the same edges), every pair of shuffles, schedules and builds, every output format and winding", "why_tests_cant": "relational over all n! insertion orders of a randomised algorithm, and over all representations of the input", "anchors": ["src/trapezoidation.rs: add_polygon (shuffle), triangulate_inner", "src/inputs/polygon_list.rs: triangulate"]}
{"id": "C45", "title": "Triangles have positive area", "statement": "The corners of every triangle are three different vertices of the input, at three different places. If no three vertices of the input lie on a line, every triangle has a positive area. (That areas are positive whenever no three consecutive vertices are on a line is false of the code: for a valid pentagon every insertion order gives a triangle of area zero, with a corner in the middle of a side of another triangle.)", "quantifier": "every valid polygon set, shuffle, schedule and build; for the negative part every insertion order", "why_tests_cant": "a statement about all polygons, and about all insertion orders of a randomised algorithm", "anchors": ["src/monotone.rs: can_triangulate, build_fans", "src/inputs/polygon_list.rs: triangulate"]}
{"id": "C46", "title": "The triangles fit together", "statement": "For valid polygons, no directed side of a triangle occurs twice; an edge of a polygon is a side of exactly one triangle, in the direction that has the interior on the left; any other pair of vertices is a side in both directions or in none; no two triangles have the same corners. No side of a triangle passes through the inside of a triangle, and two sides with a point in common that is not a vertex lie along each other. If no three vertices are on a line, two triangles have nothing, one corner or one whole side in common.", "quantifier": "every valid polygon set, shuffle, schedule and build, every point of the plane", "why_tests_cant": "ranges over all polygons and all points", "anchors": ["src/inputs/polygon_list.rs: triangulate", "src/monotone.rs: build_fans", "src/trapezoidation.rs: triangulate_inner"]}
{"id": "C47", "title": "On valid input only the output format can fail", "statement": "For valid polygons and any output format, also one whose operations fail, panic or never return: no loop of `triangulate` takes more than (n+3)^2 passes, where n is the number of elements of the index iterator; the outcome is a success or an error that the format itself reported (TriangulationError::FanBuilder); it is a panic, undefined behaviour or an endless loop only if one of the format's own operations can be.", "quantifier": "every valid polygon set over any ordered field, every output format with arbitrary behaviour, every shuffle, schedule and build", "why_tests_cant": "quantifies over all formats, all polygons and all insertion orders; the bound is for all sizes", "anchors": ["src/inputs/polygon_list.rs: triangulate", "src/trapezoidation.rs: build, triangulate_inner", "src/monotone.rs: build_fans", "src/fan_builder_state.rs: complete"]}
{"id": "C48", "title": "User code cannot break trapezoidation", "statement": "No safe implementation of the user's traits (PolygonList, Vertex, coordinates, indices), not even one whose answers change from call to call or that panics, can make trapezoidation read out of bounds; no loop takes more than 2n+3 passes, where n is the number of elements of the index iterator; in a release build it panics only if user code panics.", "quantifier": "every sequence of answers of user code (get_vertex, x, y, comparisons and arithmetic of coordinates, == and clone of indices, zero), every index iterator, shuffle, schedule and build", "why_tests_cant": "ranges over all behaviours of user code, including inconsistent and stateful ones; an out-of-bounds unchecked read need not be visible", "anchors": ["src/trapezoidation.rs: find_trapezoid_from_root, build, add_nth_segment, add_vertex, add_segment", "src/idx.rs: Index for Vec", "src/nexus.rs: get_down_trapezoid_in_direction, add_segment"]}
{"id": "C49", "title": "User code and formats cannot break triangulation", "statement": "No safe implementation of the user's traits and no safe output format, not even one whose answers change from call to call or that panics, can make a call of triangulate read out of bounds; in a release build it panics only if user code panics.", "quantifier": "every sequence of answers of user code (as in C48) and of the format (initialize, new_fan, extend_fan, build, fail), every index iterator, winding, shuffle, schedule and build", "why_tests_cant": "ranges over all behaviours of user code and of formats, including inconsistent and stateful ones; an out-of-bounds unchecked read need not be visible", "anchors": ["src/trapezoidation.rs: triangulate, triangulate_inner, top_trapezoid", "src/monotone.rs: MonotoneBuilder, Monotone::build_fans", "src/fan_builder_state.rs: FanBuilderState"]}
{"id": "C50", "title": "Expected cost of trapezoidation", "statement": "For a valid polygon with n vertices, the number of loop iterations and query nodes visited by trapezoidation, averaged over all orders of insertion, is at most 80 n (log* n + 1) when the schedule of relocations (math_n) is computed with errors of at most two percent in each log2 and division; with any schedule of R relocations it is at most n (8 + 24 H_n + 6 R) on average and at most n (4 + 8 n + R (4 + 2 n)) in the worst case. For every input, each single loop and search ends within the counted number of iterations, and the count is at least n; that the count is the sum over all loops is by its definition.", "quantifier": "every valid polygon with exact coordinates; average over all n! insertion orders; every schedule", "why_tests_cant": "an average over n! runs for every polygon of every size", "anchors": ["README.md: O(n log* n)", "src/trapezoidation.rs: build, add_nth_segment, find_trapezoid_from_root, add_segment", "src/math.rs: math_n"]}
{"id": "C51", "title": "Many polygons cost more than documented", "statement": "The documented O(n log* n) for each polygon with n vertices does not hold for sets of polygons: the trapezoidation of m triangles, each below the one before, takes at least m (m + 1) / 2 loop iterations and visits of query nodes; hence no bound on the cost of a polygon in terms of its number of vertices exists.", "quantifier": "every m, every shuffle (random outcome) and every schedule of relocations", "why_tests_cant": "an asymptotic lower bound for every run", "anchors": ["README.md: O(n log* n)", "src/lib.rs", "src/trapezoidation.rs: build, add_polygon, find_trapezoid_from_root"]}
{"id": "C52", "title": "Triangulating one polygon can take quadratic time", "statement": "The documented O(n log* n) does not hold for a single polygon: for every k there is a valid polygon with n = 2k + 2 vertices on which cutting the chain into triangles takes more than k^2 iterations of one loop in every run that succeeds, while (n + 3)^2 iterations per loop always suffice; hence no multiple of n log n bounds the running time.", "quantifier": "every k >= 1, every shuffle (random outcome), every schedule of relocations, every output format", "why_tests_cant": "an asymptotic lower bound for every run", "anchors": ["README.md: O(n log* n)", "src/monotone.rs: build_fans, reset_position, can_triangulate", "src/trapezoidation.rs: triangulate"]}
{"id": "C53", "title": "Size of the search structure", "statement": "A successful trapezoidation of an input with n vertices leaves at least 4n + 1 and at most n^2 + 4n + 1 query nodes, so the 4n reserved by the code are always exceeded; for one valid polygon, the average over all insertion orders is at most 8n + 1; for m valid polygons with n vertices together, the average over all insertion orders of all polygons is at most 8n + 1 + 2(m-1)n(log n + 1). The quadratic bound cannot be improved beyond a constant factor: for every n = 4k + 2 with k > 0 there is a valid polygon with n vertices and an insertion order that leaves at least n^2 / 4 query nodes, also with f64 coordinates for n up to 2^25 and with f32 coordinates for n up to 2^11. The size depends on the coordinates only through the answers to comparisons and side tests between vertices.", "quantifier": "every input, valid or not, every coordinate type, every insertion order, every schedule of relocations (bounds); every valid polygon set with exact coordinates and every schedule (average)", "why_tests_cant": "a bound for all sizes and an average over n! insertion orders", "anchors": ["src/trapezoidation.rs: TrapezoidationState::new, add_vertex, add_segment", "src/querynode.rs: branch_x, branch_y, merge_x"]}
{"id": "C54", "title": "Own containers receive exactly the fans", "statement": "Over any implementations of Fan, Fans and List, the crate's formats build the handed over fans with Fan::new and Fan::push and push them (or their triangles, or their delimited indices) in order onto the caller's container, and nothing else; after an error the container is restored if its truncate removes what was pushed since (for DelimitedFanFormat, if the delimiter is not in the first triangle).", "quantifier": "every polygon list, every run, every user-written container, every prior content", "why_tests_cant": "ranges over all user-written trait implementations and all runs", "anchors": ["src/outputs/fan.rs: Fan, Fans", "src/outputs/list.rs: List", "src/outputs/formats/generic_fans.rs", "src/outputs/formats/generic_list.rs", "src/outputs/formats/delimited_fan.rs"]}
{"id": "C55", "title": "Expected cost for several polygons", "statement": "For a valid set of m polygons with n vertices together, the number of steps of the loops of a trapezoidation (searches, walks along a side), averaged over all choices of an insertion order for each polygon, is at most 80 n (log* n + 1) + 31 (m - 1) n (log n + 1), for the relocation schedule of the code computed with errors of at most two percent in each log2 and division.", "quantifier": "every valid set of polygons with exact coordinates, all insertion orders (average), no bound on the number or size of the polygons", "why_tests_cant": "an average over the product of all n_j! insertion orders, for every polygon set", "anchors": ["README.md: O(n log* n)", "src/trapezoidation.rs: build, add_polygon, add_nth_segment, find_trapezoid_from_root, add_segment", "src/math.rs: math_n"]}
{"id": "C56", "title": "Crossing edges are not always reported", "statement": "The documentation expects an error for an invalid polygon set; there is a set of two triangles with crossing sides for which, in a release build, triangulate succeeds in every insertion order, with overlapping triangles that cover points outside by the even-odd rule (with debug assertions it panics in every insertion order).  Debug assertions do not help in general: a pentagon with crossing sides is accepted with them in some order.  If sides run back on themselves, a success may come with a triangle that names a vertex twice, or with too few triangles.", "quantifier": "one polygon set, every insertion order of both polygons, every number of steps allowed from 60 on; for the further witnesses one insertion order, both builds", "why_tests_cant": "ranges over all choices of the random shuffles", "anchors": ["README.md: These preconditions are not explicitly checked, but an invalid polygon set will likely yield InternalError", "src/trapezoidation.rs: add_segment", "src/trapezoidation.rs: triangulate"]}
{"id": "C57", "title": "The triangulation step is quadratic at worst", "statement": "After a trapezoidation of a valid set of polygons with n vertices together, the step that makes the triangles evaluates loop conditions and calls the output format at most 3 n^2 + 28 n times in total (n^2 + 14 n for a single polygon), and there are polygons with 2 k + 2 vertices on which every successful run takes more than k^2.", "quantifier": "every valid set of polygons with exact coordinates, every insertion order, every schedule, every output format (also one that fails)", "why_tests_cant": "a bound for every polygon, order, schedule and format", "anchors": ["README.md: O(n log* n)", "src/trapezoidation.rs: triangulate, triangulate_inner", "src/monotone.rs: build_fans", "src/trapezoidation.rs: top_trapezoid"]}
{"id": "C58", "title": "Trapezoidation is nearly quadratic at worst", "statement": "The loops of the trapezoidation of an input with n elements of the index iterator run at most n (6n + 10 + (log* n + 2)(2n + 4)) times in total before it ends with a result, an error or a panic, in every insertion order and for every input, valid or not; whatever numbers math_n computes, at most n (6n + 10 + n (2n + 4)) times. For every n = 4k + 2 with k > 0 there is a valid polygon with n vertices and an insertion order for which they run at least n^2 / 4 - 3n times, also with f64 coordinates for n up to 2^25 and with f32 coordinates for n up to 2^11.", "quantifier": "every input, valid or not, several polygons included, any coordinate type, every insertion order, every schedule (math_n with errors of at most two percent for the bound with log*)", "why_tests_cant": "a bound for every input, order and schedule", "anchors": ["README.md: O(n log* n)", "src/trapezoidation.rs: add_polygon, add_segment, find_trapezoid_from_root", "src/math.rs: math_n"]}
{"id": "C59", "title": "The cost is the same with clear floating point input", "statement": "The cost of a call depends on the coordinates only through the answers to comparisons and side tests between vertices. With f32 or f64 coordinates as in C41, trapezoidation and triangulation therefore take exactly as many steps as with exact arithmetic. In particular, for valid polygons with coordinates on a grid (25 bits in f64, 11 bits in f32), trapezoidation takes at most 80 n (log* n + 1) + 31 (m - 1) n (log n + 1) steps on average over the insertion orders, and the triangulation step at most 3 n^2 + 28 n in every order.", "quantifier": "every pair of inputs with the same answers; every input with such floating point coordinates, every insertion order (average for the first bound), schedule, build and output format", "why_tests_cant": "an average over the product of all n_j! insertion orders, for every polygon set on the grid, and an equality for all roundings", "anchors": ["README.md: O(n log* n)", "src/math.rs: is_left_of_line, math_n", "src/trapezoidation.rs: build, add_polygon, triangulate", "src/monotone.rs: build_fans"]}
{"id": "C60", "title": "The shuffle is fair and always gives a valid order", "statement": "Whatever numbers the random number generator draws, the shuffle puts the segments of each polygon in an order in which each occurs once; every order is the outcome of exactly one sequence of drawn numbers. Hence, if the numbers are independent and uniform, the expected number of steps of the trapezoidation of m valid polygons with n vertices together is at most 80 n (log* n + 1) + 31 (m - 1) n (log n + 1).", "quantifier": "every sequence of drawn numbers, every number of segments; every valid set of polygons with exact coordinates for the expected cost", "why_tests_cant": "a statement about all n! outcomes for every n; tests see a few random outcomes", "anchors": ["src/trapezoidation.rs: add_polygon (segment_order, shuffle)", "Cargo.toml: rand 0.8.3"]}
{"id": "C61", "title": "A vertex in the middle of an edge may be refused", "statement": "The documented conditions (no edge crosses another, vertices are distinct, three vertices per polygon) allow a vertex of one polygon in the middle of an edge of another. Such input is not always accepted: for a triangle with a triangular hole whose corner is in the middle of the right side, trapezoidize and triangulate return an internal error in every insertion order. For the mirror image the call succeeds in every insertion order. So C01 needs its stronger condition.", "quantifier": "the two inputs; every insertion order, both builds, every output format (for the refusal)", "why_tests_cant": "the insertion order is random, a test sees some of the 36 orders", "anchors": ["README.md: Preconditions", "src/lib.rs:51-54", "src/trapezoidation.rs: add_segment", "src/nexus.rs: add_segment, get_down_trapezoid_in_direction"]}
{"id": "C62", "title": "Only the side tests for edges have to be right", "statement": "If the coordinates (of any type, with any rounding) compare like the corners of a valid input, and the side test is right for every edge and every vertex, then the trapezoidation succeeds in every insertion order, and triangulate behaves alike for all insertion orders, schedules, builds and formats: it ends in the same result or error, or never ends. Nothing depends on the order of the polygons, their starts or their directions either. This holds for f32 and f64 coordinates when the tests for edges are clear, in particular whenever all edges are horizontal or vertical and no product of two differences underflows. For the hollow square of the README, with its f32 coordinates, all runs return the same four fans, which are those of exact arithmetic.", "quantifier": "every valid input, every coordinate type and rounding with these answers, every two insertion orders, schedules and builds, every format; the README example for every insertion order, schedule and build", "why_tests_cant": "the insertion order is random and the inputs are unbounded; rounding errors show for few inputs", "anchors": ["README.md:20-23", "src/math.rs: is_left_of_line", "src/trapezoidation.rs: add_polygon, add_segment, find_trapezoid_from_root, triangulate_inner"]}
{"id": "C63", "title": "Machine words and the limits of vectors can only cause panics", "statement": "On a machine with words of any length (at least 16 bits) and any limits for the lengths of vectors, triangulation of any polygon list, with any coordinates and any format, panics or ends exactly as it would with unbounded numbers and vectors: an overflow leads neither to undefined behaviour (the unchecked nonzero index is never zero, no unchecked access is out of range), nor to a wrong result, a wrong error or an endless loop, with or without debug assertions. Trapezoidation of n elements does not even panic for this reason if there is room for n nexuses, segments and vertex locations, 2n+1 trapezoids and n^2+4n+1 query nodes and vertex_count is at most n (in a build with debug assertions also words of 2n+1 bits, see C64); exactly, a trapezoidation succeeds on a machine if and only if it succeeds without limits and there is room for the vectors of its result, for the vertices of each polygon, for what vertex_count asks for, and with debug assertions for the number of visits of the last consistency check; nor does the whole triangulation of any input, valid or not, if there is also room for chains of 2n+2 vertices and stacks of 4n+2 branches and 2n+1 chains; a chain is cut into fans without any overflow. A vertex_count larger than the number of nexuses a vector can have always panics. Indices stored as words plus one keep equality, order, addition, subtraction and cyclic successors.", "quantifier": "every machine (word length and vector limits), polygon list (including vertex_count), coordinate arithmetic, insertion order, schedule, build and format", "why_tests_cant": "Overflow of 64 bit words and vectors of 2^56 elements cannot be reached in a test.", "anchors": ["src/idx.rs: Idx::new, next_wrapped, prev_wrapped, Add, Sub, Ord", "src/trapezoidation.rs: TrapezoidationState::new, build, add_vertex, add_segment, triangulate_inner", "src/monotone.rs: Monotone, MonotoneBuilder::add_vertex", "src/inputs/polygon_list.rs: vertex_count"]}
{"id": "C64", "title": "The consistency check of debug builds can take exponential time and overflow on valid polygons", "statement": "After every inserted vertex and side a build with debug assertions checks its search structure by walking along all paths. For every input with n elements this check of the finished structure ends, visits fewer than 2^(2n+1) nodes and is at most 2n+1 recursive calls deep. For m triangles below each other it is more than m calls deep in every insertion order, so it needs a stack that grows with the input. There are valid polygons with 4k+3 vertices and integer coordinates, for every k, and an insertion order that the shuffle can give, for which it visits at least 3^k nodes. The visits are counted in a machine word, so on a machine with words of w bits where 2^w <= 3^k a debug build panics for this valid polygon with every format, although with unbounded numbers it succeeds, and so does a build without debug assertions on a machine with enough room (167 vertices for 64 bits). The same with f64 coordinates for k with 4k+3 <= 2^25 and with f32 coordinates for 4k+3 <= 2^11.", "quantifier": "every input, schedule and insertion order (upper bound); every k, machine, schedule and format, and every configuration with the given insertion order (lower bound and panic)", "why_tests_cant": "The number of visits grows exponentially, so a test of the overflow does not end, and tests with small polygons or random orders do not show the growth.", "anchors": ["src/trapezoidation.rs: check_consistency, check_consistency_query_node, add_vertex, add_segment"]}
{"id": "C65", "title": "A call that does not return soon never returns, and asks for little on the way", "statement": "Let n be the number of elements of the index iterator. For every input, however invalid, and whatever the comparisons of coordinates answer (NaN, rounding), the outcome of a triangulation is the same for every number of passes from (6n+4)^2 on that each loop may take; if a loop has not ended by then, the call never returns. Even if the call never returns, the output format is asked for at most 6n+3 triangles and one operation besides. If the triangulation step ends, with a success, an error or a panic of the library or of the format, then it takes at most 72 n^2 + 124 n + 45 steps, and at most 36 n^2 + 76 n + 29 if it succeeds. There is a polygon with five different vertices and crossing edges for which the call never returns in a release build.", "quantifier": "every input, arithmetic, shuffled order, schedule, format and number of steps; one polygon for the last sentence", "why_tests_cant": "A test cannot tell a call that never returns from a slow one, and the bounds are for all inputs including those for which coordinates compare inconsistently.", "anchors": ["src/trapezoidation.rs: triangulate, triangulate_inner", "src/monotone.rs: MonotoneBuilder, Monotone::build_fans"]}
{"id": "C66", "title": "An index iterator that never ends gives no result, and errors are reported before its end", "statement": "A polygon list may have an index iterator that never ends. For every such iterator triangulate and trapezoidize never succeed, the format is never used, and nothing is undefined: either the call does not return, or it returns an error or panics because of a beginning of what the iterator yields, and then every list of elements with this beginning gives the same. If only separators follow after some polygons, the call returns exactly if these polygons alone give an error or a panic, and with the same. If the iterator ends, the results are those for the list of its elements; the library's own iterator for slices of polygons ends, after one element for each vertex and one for each polygon.", "quantifier": "all index iterators (any state machine whose calls may also panic), polygon lists, coordinate types with arbitrary comparisons, orders of insertion, formats", "why_tests_cant": "a test cannot wait for a call that does not return, nor can it try all endless iterators", "anchors": ["src/inputs/polygon_list.rs: PolygonList::iter_indices, VecVecIter", "src/trapezoidation.rs: Trapezoidation::build"]}
{"id": "C67", "title": "Edges may be touched from the right or, if horizontal, from above", "statement": "Let any two edges of the input meet at most in a common end, or let one lean on the other: its ends are strictly to the right of the other edge (strictly above it, if that is horizontal) or in the middle of it. So vertices may lie in the middle of edges, and edges may run along parts of others, as long as this is from the right or from above. Then triangulate ends and succeeds with every infallible format, in every insertion order and in both kinds of builds, and with other formats only the format can fail. The triangles have three different vertices of the input as corners, none is clockwise, and each point that is on no edge and no side of a triangle is in exactly one triangle if it is inside by the even-odd rule, and in none otherwise; no point is strictly inside two triangles, and a point on no edge is inside exactly if it is in a closed triangle of positive area. The areas of the triangles add up to those of the polygons, each with one sign, and for one polygon to its area. Every vertex is a corner of some triangle, unless it is on one vertical or horizontal line with the vertices before and after it; such a vertex may be left out. As for valid input, the shuffle, the order of the polygons, and the start and direction of each do not change the result, the schedule and the debug checks do not change the trapezoidation, the search for a point on no edge ends at the only trapezoid that contains it, the expected cost of the trapezoidation and the mean number of query nodes have the same bounds, the triangulation step is at most quadratic, and f64 and f32 coordinates on a grid give the exact result at the same cost. From below it is different: a triangle whose horizontal side is touched from below by the corner of a hole is refused with an internal error in every order. An edge that runs along another must not go beyond it: two triangles on either side of a vertical line, with edges on it that overlap in part, are refused in every order too.", "quantifier": "all polygon sets whose edges lean on others only in this way, all orders of insertion, relocation schedules, formats and builds; exact coordinates, and f64 and f32 on a grid", "why_tests_cant": "a test shows single contacts in single orders, but not that the side of the contact is all that matters", "anchors": ["README.md", "src/lib.rs", "src/trapezoidation.rs: Trapezoidation::add_segment, add_vertex", "src/segment.rs: Segment::is_on_left", "src/monotone.rs: MonotoneBuilder::build"]}

# Formal model of colinjneville/triangulate

The Lean project is `lean/`.  `Verif/Model` transcribes the Rust code, `Verif/Spec` holds the small
independent specifications the theorems are stated with, `Verif/Proof` holds lemmas, `Verif/Props`
holds the property theorems (one theorem or a small group per entry of `properties.jsonl`, each with
an `example` showing that its hypotheses are met by a concrete non-trivial case).  `MANIFEST.json`
maps properties to theorem names.

## Trusted base

* Lean 4.33 kernel; axioms used by the theorems: at most `propext`, `Classical.choice`,
  `Quot.sound`.  No own axioms, no `sorry`, no `native_decide`, no `bv_decide`.
* The transcription in `Verif/Model` (by hand, with file and line references at every definition).
* The places where counters are incremented in `Model/Cost.lean`, `CostFail.lean` and `CostTri.lean` (see the last section).
* The reading of Rust semantics: `?`, ownership (a moved value is not used again), `mem::replace`,
  slices and `Vec` as lists, `Result` as `Except`.
* The crates `zot` (`Zot`, `Ot`: zero/one/two and one/two values, `from_options` packs the present
  values, `last`, `ok_one_or_else`), `smallvec` (as `Vec`), `rand` (`shuffle` produces some
  permutation), `num_traits` (coordinate operations).
* The user's implementations of `Vertex`, `PolygonList`, `FanFormat`: `get_vertex`, `x`, `y` and the
  index iterator are functions of the polygon list (they do not change between calls), except in C48 and C49, where
  every call of user code has an arbitrary result; a format is an arbitrary state machine that may also panic.

## What is modelled

| Rust | Lean |
|---|---|
| `math.rs` `is_left_of_line`; `inputs/vertex.rs` order | `Model/Core.lean` |
| `segment.rs`, `trapezoid.rs`, `querynode.rs`, `nexus.rs` | `Model/Trap.lean` |
| `inputs/polygon_list.rs`, `mappable.rs` | `Model/Input.lean` |
| `trapezoidation.rs` 1-636 (state, `build`, `add_polygon`, relocation, `add_vertex`, `add_segment`, consistency checks) | `Model/Trapezoidation.lean` |
| `fan_builder_state.rs`, `monotone.rs` | `Model/Monotone.lean` |
| `trapezoidation.rs` 637-890 (`top_trapezoid`, `triangulate_inner`, `triangulate`) | `Model/Triangulate.lean` |
| `outputs/*` and `outputs/formats/*` | `Model/Outputs.lean` |
| `errors.rs` | error types in `Model/Core.lean` |
| `f32`, `f64` as coordinates: `-`, `*`, comparisons, infinities, NaN, subnormal numbers (IEEE 754, round to nearest even) | `Model/Float.lean` |
| `trapezoidation.rs` 1-636 again, with user code that answers anything at each call | `Model/Wild.lean` |
| `fan_builder_state.rs`, `monotone.rs`, `trapezoidation.rs` 637-890 again, with user code (and a format) that answers anything at each call | `Model/WildTri.lean` |
| `trapezoidation.rs` 1-636 again, with a count of loop iterations and query nodes visited | `Model/Cost.lean`, kept on errors in `Model/CostFail.lean` |
| `monotone.rs` and `trapezoidation.rs` 637-890 again, with a count of loop conditions evaluated and calls of the format | `Model/CostTri.lean` |
| `idx.rs`, and `trapezoidation.rs` 1-636 again, with machine words and vectors of limited length (for C63) | `Model/Words.lean` |
| `monotone.rs` and `trapezoidation.rs` 637-890 again, with machine words and vectors of limited length (for C63) | `Model/WordsTri.lean` |
| `trapezoidation.rs` 577-592, with the number it returns (for C64) | `Model/DebugCost.lean` |
| `inputs/polygon_list.rs` 155-156 and 221-256, `trapezoidation.rs` 257-287 again, with an iterator that is asked for one element at a time and need not end (for C66) | `Model/Stream.lean` |
| `math.rs` `math_n`, up to errors of two percent in each operation (for C50 and C55) | `Model/MathN.lean` |
| `trapezoidation.rs` 352-355, the shuffle of `rand` 0.8 (as documented, its source is not in `/repo`) with arbitrary drawn numbers (for C60) | `Model/Shuffle.lean` |

Conventions: a run can end with `Err` (`Fault.err`), a panic (`Fault.panic`), an out-of-range
`get_unchecked` (`Fault.ub`) or by exhausting the step budget given to the model (`Fault.timeout`,
meaning the loop is still running); "terminates" is "there is a budget from which on the result is
fixed and not `timeout`".  `rand`'s shuffle and `math_n` are parameters (`Cfg`): theorems quantify
over every permutation and every schedule function.  Coordinates are any type with the operations the
code uses (`Scalar`, no laws: covers floats) for structural theorems, and any linearly ordered field
(`ℚ`, `ℝ`, …: exact arithmetic) for geometric theorems.  The model of `f32`/`f64` is an instance of
`Scalar`; its two zeros are one value (the code only compares them, and they are equal).  It was compared
once, outside the build, with Lean's native doubles on 20000 random pairs, without difference.

## What is not modelled

* Floating point rounding in the geometric theorems C01-C05, C19, C24-C27, C29, C31, C33, C34, C40, C44-C47, C50-C52, C55-C57, the averages of C53 and the cost of C60, which
  are about exact coordinates; C41, C42, C59 and C67 carry them over to `f32`/`f64` where side tests are reliable, C62 needs this only for the edges, and C43
  shows what happens elsewhere.  Structural theorems (C06-C18, C20-C23, C28, C30, C32, C35-C39, the bounds of C53, C54, C58, C63, C65 except its polygon, C66) hold for
  arbitrary coordinate arithmetic, hence also for `f32`/`f64`.
* `usize` overflow and the limited length of vectors, other than in C63 (the vectors of the formats and the iterators of polygon lists are not limited there either);
  memory exhaustion (an abort of the process; so a call that never returns according to C66 is one that ends only in this way if the iterator keeps yielding vertices), the size of the stack (only the debug check is recursive, C64 bounds its depth), running time other than the counts of C50-C52, C55, C57-C59 and C65 (these are about builds without debug assertions, C64 is about the
  consistency check that others make; C37 and C47 bound
  the passes of each loop), memory other than the lengths of the vectors of a trapezoidation (C23, C53).
* The `unsafe` code other than `get_unchecked` and `NonZeroUsize::new_unchecked` (`idx.rs:25`, in C63): references to `repr(transparent)`
  newtypes (`inputs/vertex.rs:72`, `inputs/polygon_list.rs:98`).
* `debug/`, `tests/`, everything behind `feature = "_debugging"`, `Display`/`Debug` texts,
  backtraces in errors.
* The exact value of `math_n` with `f64` (any function is allowed instead; for the log* bounds of C50 and C55, any that results from errors
  of at most two percent in each `log2` and division) and the random number generator (C50, C53 and C55 average over all permutations, each counted
  once, and C60 over all numbers that can be drawn for the shuffle).
* Containers (`Fan`, `Fans`, `List`) whose operations panic or have effects outside of the container.
* `PolygonList`s whose answers change from call to call, other than in C48 and C49.

## Findings (properties that are false of the code)

1. `monotone.rs:113-117` swaps the first triangle on `!is_left_chain`, but when the builder's winding
   is clockwise the swap has to depend on `is_backtracking`.  With `reverse_winding()` some triangles
   come out counterclockwise (already for one triangle whose middle vertex is on the right), and fans
   of three or more triangles get the wrong root, so the triangles are wrong.  C19: negation proved
   with a witness, partial positive theorem.
2. `outputs/list.rs:25-31` rounds the length of a flat `Vec` down to a multiple of three when it rolls
   back: elements that were there before are lost.  C18: negation proved.
3. `DelimitedFanFormat` and `FanToListFormat` failing inside `initialize` leave the delimiter and
   partial data in the caller's container because `fail` is not called.  C18: negation proved.
4. `build_fans` can loop forever on chains that are not strict mountains (only reachable from invalid
   polygons with exact arithmetic).  C29: non-termination proved for a concrete chain.
   `triangulate` itself runs into this: a triangle written as a closed ring (first vertex repeated at
   the end) hangs for a third of the insertion orders, with exact arithmetic and in both kinds of
   builds.  C40: non-termination proved for every format.  It is not only repeated vertices: a polygon with five
   different vertices and crossing edges also hangs in release builds (C65, proved).
5. `is_left_of_line` says that the lower end of a horizontal edge is left of it, contrary to the
   comment at `trapezoidation.rs:37` (harmless for valid polygons).
6. `is_left_of_line` computes with rounding.  With `f64`, and with `f32`, there are valid polygons of three or four vertices for
   which `triangulate` never returns, returns an error, or returns wrong triangles, for every insertion order.
   C43: proved with witnesses (three vertices close to (1/2, 1/2) and one at (12, 12) or (24, 24)).
7. `can_triangulate` (`monotone.rs:228-235`) accepts three vertices on a line on one kind of chain, so that triangles of
   area zero are handed over, also for polygons without three consecutive vertices on a line.  A corner of such a
   triangle can be in the middle of a side of another triangle (a T-junction).  C45: negation proved with a pentagon.
8. The documentation says that the expected running time "for each polygon or hole with n vertices" is O(n log* n)
   (`README.md`, `lib.rs`).  For trapezoidation this holds for a single polygon (C50), but the first search for a vertex of a further polygon
   starts at the root of all that was inserted before.  The order of the polygons is not shuffled, so this
   search can take as many steps as there are polygons: m triangles below each other cost at least m (m + 1) / 2 steps in
   every run.  C51: proved for every m, shuffle and schedule.  What does hold for several polygons is C55.
9. The documented bound does not hold for a single polygon either, because of `build_fans` (`monotone.rs:87-176`).  After a
   fan that moves on, it does not look at the ear it may have made possible behind it, but goes on and starts again from
   the top of the chain (`reset_position`).  On the cusp r_0, …, r_k, v_k, …, v_0 with r_i = (4·16^i, (1/2)(1/4)^i) and
   v_i = (16^i, -(1/4)^i), a valid polygon with n = 2k + 2 vertices, every pass cuts off two vertices only, and more than
   k² iterations are needed for every shuffle, schedule and format.  C52: proved for every k.
10. "An invalid polygon set will likely yield `InternalError`" (`README.md`, `lib.rs`) is not a guarantee: for two triangles with
   crossing sides, `add_segment` follows a side as if it were not crossed, and a release build returns overlapping triangles
   in every insertion order; with debug assertions it panics in every order.  A pentagon with crossing sides is accepted even
   with debug assertions in some orders, and where sides run back on themselves a success may come with a triangle that
   names a vertex twice or with fewer than n - 2 triangles.  C56.
11. The documented conditions do not exclude a vertex in the middle of an edge.  If the vertex touches the edge from its left
    side, inserting the edge can end in an internal error, as it does in every insertion order for one triangle with a hole;
    its mirror image is triangulated in every order.  C61.  The same happens to a vertex that touches a horizontal edge from below.
    Contacts from the right, and from above with horizontal edges, do no harm at all, not even where edges run along others:
    proved for all such input.  Where each of two edges goes beyond the other along their common line, as with the walls of two
    rooms that are offset, the input is refused: proved for one pair of triangles in every order.  C67.
12. `vertex_count` of a user-defined `PolygonList` has no influence on results, but a value so large that a vector of that many
    nexuses cannot exist (more than `isize::MAX` bytes) makes every trapezoidation panic, in release builds too.  C63.
13. The consistency check that builds with debug assertions make after every inserted vertex and segment walks along every path of the
    search structure (`check_consistency_query_node`, `trapezoidation.rs:577-592`), although paths meet again after trapezoids were merged.  There are valid polygons with
    4k + 3 vertices, with integer coordinates, for which it visits at least 3^k nodes if the shuffle happens to insert every other side first.  The visits are
    counted in a `usize`, so that a debug build panics ("attempt to add with overflow") for a valid polygon with 47 vertices with 16 bits, 87 with 32
    bits and 167 with 64 bits, if one waits long enough.  The walk is recursive, and for m triangles below
    each other more than m calls deep in every order, so that debug builds run out of stack for large input.  C64: proved for every k, m and word length,
    and with `f64` and `f32` coordinates as far as the polygon's integers are on the grids of C42.

## How each property is proved

Geometry is done over a linearly ordered field with a symbolic shear: finitely many vertices are given
heights `h = y + ε·x` for a small ε so that no two have the same height; all predicates of the code
agree with the sheared picture (`Proof/Plane.lean`, `PlaneOf.lean`, `ValidPlane.lean`).

The chain of proof modules for valid input is: the invariant of the trapezoidation (`Whole`, `Link`,
`Query`, …), preserved by adding a vertex, by each step of adding a segment and by relocation
(`Walk`, `RunPoly`, `RunBuild`, `Schedule`, `Final`); rows of trapezoids seen from a sweep line
(`Sweep`, `Level`); the chains the descent has open (`Chains`, `Descend`, `Visit`, `Emit`); what is
handed over in total (`Boundary`, `Output`, `Placed`: the structure `MeshI`, which says all that is
used about the triangles of a run); crossing numbers (`Cover`, `Nearby`, `Filled`, `Path`); holes and
areas (`Nesting`); turning tangents and the number of triangles (`Turning`, `Turns`, `Count`,
`Triangles`); other orders of the same polygons (`Rearrange`); two
trapezoidations of the same edges are the same apart from the numbering (`Canon`, `CanonRun`, `CanonTop`).

| id | what is modelled, how it is proved |
|---|---|
| C01 | whole pipeline; invariant of the trapezoidation (rows around each vertex, strips bounded by edges, sinks), preservation by `add_vertex`, every step of `add_segment`, relocation; traversal invariant of `triangulate_inner`; termination of `build_fans` on strict mountains |
| C02, C04, C27 | boundary accounting: every antisymmetric function of directed edges has the same sum over the sides of the triangles as over the polygon edges, suitably directed; applied to crossing numbers, areas and indicator functions |
| C02, every point | nearby points in general position (`Everywhere.lean`) |
| C03 | emitted triangles are accepted by `can_triangulate`; orientation algebra |
| C05 | every monotone with k vertices gives k-2 triangles; vertices counted by the type of their turn; the turning tangents theorem for simple polygons, proved from scratch by moving a chord (`Turning.lean`) |
| C06 | invariant: all stored indices were yielded; traced through builders for an arbitrary `Scalar` |
| C07 | invariant: all stored positions are in range, for an arbitrary `Scalar` |
| C08-C10 | induction over the element sequence |
| C11-C13 | the generic code run in a call-recording monad; monad morphism to any format's state machine |
| C14-C17 | induction over call sequences |
| C18 | induction over call sequences; negations by evaluation of concrete runs |
| C19 | negation by evaluation; partial theorem pairing the fans of the two windings |
| C20, C21 | simulation between the runs on the two index types |
| C22 | induction over the iterator state |
| C23 | counting invariant for an arbitrary `Scalar` |
| C24 | location invariant with the query point as a ghost vertex |
| C25 | the invariant of C01 implies the checks |
| C26 | validity, even-odd interior, areas and holes are invariant under rearrangement, then C02/C04/C05 |
| C28 | stack/queue refinement of the array for an arbitrary predicate |
| C29 | progress measure; periodic orbit for the counterexample |
| C30 | unfolding with determinism of the model functions |
| C31, C32 | algebra over ordered fields; case analysis for partial comparisons |
| C33 | location is unique, hence independent of the cached query node |
| C34 | watertightness at the edges of the vertex |
| C35 | case analysis, equality of runs |
| C36 | simulation between the runs on the two coordinate types |
| C37, C38 | ranks: every nexus has a rank that decreases along trapezoids, and query nodes only refer to later ones, with at most one level for each vertex and each side, for an arbitrary `Scalar` (`Ranked*.lean`); more steps do not change a finished run (`Fuel.lean`) |
| C39 | the descent costs at most a sum of powers of four of ranks (`Settle.lean`); the chains are separated from the descent (`Traverse.lean`) |
| C40 | periodic orbit of the only chain of the run |
| C41 | error bounds of the rounding function; the side tests answer as with exact arithmetic, then C36. The model of the arithmetic is compared with IEEE 754: rounding picks a nearest number, an even one in a tie, infinities are limits, comparisons are those of nearby numbers (`FloatRound.lean`, `FloatSpecial.lean`) |
| C42 | C41 and C01-C04 |
| C43 | evaluation in the kernel for every order; periodic orbit of the only chain (`Hang.lean`); more steps do not change a finished run (`FuelRun.lean`) |
| C44 | going down with a sweep line, the rows of trapezoids of two trapezoidations of the same edges correspond (`Canon.lean`); simulation between the two descents (`CanonRun.lean`) |
| C45 | the three corners come from a strictly descending chain; negation by evaluation and C44 |
| C46 | triangles of positive area do not overlap (C02); those of area zero are counted along a line, by the lengths of their sides, with the boundary accounting of C27 (`Conform.lean`, `Manifold.lean`, `Backed.lean`) |
| C47 | the bounds of C37 on the trapezoidation bound the descent and the chains (`Emit.lean`); what is handed over does not depend on the format |
| C48 | computations as sets of outcomes; the invariants of C07 and C37 do not depend on any answer of user code; consistent code is a special case (`WildRefine.lean`) |
| C49 | the same for triangulation: every index that is read comes from a trapezoidation with the invariants of C48 (`WildTriSafe.lean`); consistent code is a special case (`WildTriRefine.lean`) |
| C50 | a vertex's search gets longer at a step only if its trapezoid changes (`Track.lean`), and by at most a constant; what a trapezoidation of some sides looks like around a vertex does not depend on the order of insertion (`CellCanon.lean`), so a side of the first `i` is the last one that changed it with probability at most 4/i (`CostMean.lean`, backward analysis); sums over phases of the schedule (`LogStar.lean`); no loop is left out of the count (`CostCovers.lean`) |
| C51 | below everything there is one trapezoid without sides; when it changes, the search for a point in it gets longer (`Track.lean`, `CostMany.lean`) |
| C52 | a polygon whose vertices go down on one side of its first edge is one chain (`OneChain.lean`, from the sum over chains behind C04), and `build_fans` on the chain of a cusp cuts off the two innermost vertices per pass (`Cusp.lean`) |
| C53 | every vertex adds two query nodes and every side two, and one more per vertex it passes (`Nodes.lean`); the number of trapezoids a side passes is bounded as in C37, and on average as in C50; for the polygons that need quadratically many, points on both sides of a new side that share a trapezoid before and not after make its sink a branch (`Comb.lean`); with floats by the same answers (`FloatWorst.lean`) |
| C54 | induction over the calls; `DelimitedFanFormat` over any container is simulated by its run over an empty vector (`Containers.lean`) |
| C55 | as C50, with the sides and vertices of earlier polygons in place (`CostRun.lean`, `CostMean.lean`); the search from the root for a vertex of a later polygon grows by 24/i in the mean at the i-th side of an earlier one, and the mean over choices for all polygons is taken one polygon at a time (`CostAll.lean`) |
| C56 | the runs of the 36 insertion orders evaluated by the kernel, extended to all larger step counts by `FuelRun.lean` |
| C57 | the counted step is compared with a recording of its events (`CostTri.lean`); `build_fans` takes at most three events per call beyond the vertices it walks over (`CostChain.lean`), the chains together have two vertices per triangle more (`CostValid.lean`), and the walk enters each trapezoid once (`CostWalk.lean`); the family is that of C52 |
| C58 | no loop makes more passes than C37 allows, also with a count (`CostWorst.lean`); a relocation visits each vertex once; the number of relocations as in C50; the same for a count that is kept on an error (`CostFail.lean`), which more steps do not lower and which no loop exceeds |
| C59 | the simulation of `Sim.lean` and `Sim2.lean` again, for the functions with counts (`CostSim.lean`, `CostSim2.lean`); then C41, C55 and C57 |
| C60 | the last position of the part still to be shuffled shows which number was drawn, so different draws give different orders, and there are as many (`Shuffle.lean`); then C55 |
| C61 | evaluation of the 36 insertion orders in both builds; no crossing because for each two edges the ends of one are on one side of the other (`Touching.lean`) |
| C62 | simulation between the trapezoidations of the same indices at two placements that needs only the answers for edges (`EdgeSim.lean`); it keeps the shape of the trapezoidation, so the correspondence of C44 holds for both placements (`Match.lean`, `EdgeTop.lean`); products with a factor zero are reliable (`EdgeFloat.lean`); one evaluated run for the README example |
| C63 | a run with limits panics or is the run without them, by induction over both, with the invariant that no vector is longer than allowed (`Words.lean`, `WordsTri.lean`); C53 bounds the vectors, and the depth of C47 the visits of the debug check (`WordsRoom.lean`); for the exact condition, vectors only get longer and branches stay what they are, so that nothing on the way needs more than the result (`WordsExact.lean`); and for valid input the number of trapezoids bounds the steps of the descent and with them chains and stacks (`WordsTriRoom.lean`); `Idx` as a bit vector (`Idx.lean`) |
| C64 | every path to a sink is counted (`DebugCost.lean`); the zigzag is inserted stroke by stroke, each stroke merges the three trapezoids to its right, and the paths to them add up (`Ways.lean`, `FarPoints.lean`, `Zigzag.lean`); the depth of C47 bounds the number from above; with floats by the same answers (`FloatWorst.lean`) |
| C65 | apart from dead ends every trapezoid hangs from one or two others (`Fork.lean`), so the traversal meets each at most once and the chains have at most three vertices for each (`Once.lean`); the state of a round of `build_fans` that removes nothing comes back after a tour of the chain (`Rounds.lean`, `Quick.lean`); the cost of steps that fail in `QuickFail.lean` |
| C66 | until the iterator ends `build` folds over the elements so far, and the budget of C37 is enough for each beginning (`Stream.lean`); separators after the last polygon add nothing (C09) |
| C67 | an edge that others lean on is bent a little to the left in the middle, or down if it is horizontal, which gives a `Plane` (`TouchPlane.lean`), so that the theorems about runs apply; only the chains may now lie on one line, and those `MonotoneBuilder` leaves out are vertical or horizontal and contribute nothing to the sums that decide how often a point is covered (`TouchEmit.lean`, `TouchRun.lean`); the topmost corner of the input makes the output nonempty; every other corner is used by the same argument, and a vertex of a hole in the middle of a side along a wall shows that one on a vertical line need not be; areas add up because a side comes in and one goes out at each vertex, so that the sides of a polygon have one direction; points on sides, the shuffle and the cost as for valid input, since only the `Plane` is needed (`TouchEvery.lean`, `TouchTwin.lean`, `TouchCost.lean`); for the triangulation step the chains are counted by their inner vertices, of which there are at most `3 n + 2`, because some make no triangles; point location too, because a trapezoid between two levels is beside its sides, where the bent edge and the edge have a point that is on neither on the same side (`TouchLocate.lean`) |

## How far the log of wrong programs goes

`seeded/LOG.jsonl` has 132 edits of the model.  In 94 of them the theorems that failed are helper lemmas only; the property theorems
that use them did not compile for that reason and are listed as blocked.  A blocked theorem is not a refuted one: its statement may
still be true of the edited model.  Where the edited model was evaluated or compared with the statement, the note says what came out.
40 of the 94 have no note, and for these it was not checked separately that the property theorem itself is false of the edit.

One weakness came out of this.  The counts of C50-C52, C55, C57-C60, C65 and C67 are kept by versions of the functions with counters
(`Model/Cost.lean`, `CostFail.lean`, `CostTri.lean`).  It is proved that they compute what the code does, and that no single loop or search
runs longer than the count (`C50_covers_every_loop`, `C57_count_covers_loops`, `C58_covers_every_loop`).  It is not proved from an
independent definition that the count is the sum over all loops.  A counter that took the larger of two searches instead of their sum
(m76) appears to satisfy these theorems and the upper bounds.  So the places where the counters are incremented belong to the trusted
base and have to be read.  "Nothing is left out" in the comments of C50 and C58 means the longest loop only.

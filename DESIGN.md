# Delynoi in Lean 4: design of the formal model

## 1. What is modelled, and how

The C++ source in /repo is read as text. Each modelled function is transcribed
into a Lean definition with a comment citing file and lines.

| Concern | Modelling decision |
|---|---|
| `double` | an arbitrary linearly ordered field `K` (`[Field K] [LinearOrder K] [IsStrictOrderedRing K]`); theorems hold for all of them, witnesses are given over `ℚ`, functions needing `sqrt`, `cos`, `sin`, `atan2` use `ℝ`. Rounding is modelled separately for the elementary geometric functions (`Verif/Model/Double.lean`, C89-C94). Division by zero is never left to Lean's `x / 0 = 0`: a guard is written where the IEEE result (NaN or infinity) makes the C++ comparison fail, and `Verif/Model/Ieee.lean` transcribes those functions over numbers extended with NaN and infinities so that the guard is a theorem, not an assumption. |
| `int`, `size_t` | `Int`/`Nat` for indices; `hash32` and hash sums are modelled bit-exactly with `BitVec 32/64`, and there is a second version that reports signed overflow as undefined behaviour. |
| exceptions, undefined behaviour | `Outcome α = ok a \| exn \| ub`. Out-of-range vector access, signed overflow, reading an uninitialised field and endless loops are never `ok`. |
| loops | structural recursion over lists; loops without a structural bound are written with fuel, and termination is the statement that some fuel suffices. |
| `std::map` | association list sorted by the comparator with the standard's definitions of `upper_bound`, `find`, `insert`, `erase`. With a comparator that is not a strict weak order on the keys in use, the standard makes the behaviour undefined, so theorems carry a strict-weak-order hypothesis on the used elements (shown satisfiable, and shown violated in general: C09). |
| `std::unordered_map` | association list; `find` compares hash and then `==` as the standard containers do. |
| global configuration | passed explicitly (`tol`, `scale`, `grade`, `precision`). |
| Triangle (`triangle.c`), Clipper (`clipper.cpp`) | parameters of the model of Delynoi. (Parts of Clipper are modelled on their own, see below: C108-C111.) Where a property needs something of their result, it is an explicit hypothesis (a `Valid…` predicate), with an example satisfying it. |
| random numbers | the random stream is an arbitrary parameter in the documented range. |
| files/streams | text as `List Char`; `getline` with its end-of-file behaviour, `atoi`, `atof` (exact rational value; `inf`, `nan`, hexadecimal numbers not recognised), the `%f`/`%g`/`%e` formats with correct rounding. Coordinates are rationals there (every finite `double` is one). Negative zero is not modelled. The order in which a hash table is traversed is a parameter. |

## 2. Trusted base

* Lean 4.33.0 kernel and the Mathlib definitions that occur in statements.
* Axioms: only `propext`, `Classical.choice`, `Quot.sound` (checked with `#print axioms` for every
  theorem named in MANIFEST.json). No added axioms, no `sorry`, no `native_decide`, no `bv_decide`.
* The transcription C++ -> Lean by hand (definitions in `Verif/Model`).
* Exact arithmetic instead of IEEE double arithmetic (see above), except in C89-C94, C115-C126 and C151-C154, which
  use a bit-exact model of binary64 rounding without overflow, fused operations or excess precision.
* Semantics of the standard containers as described above.
* Triangle and Clipper contracts, where used as hypotheses: `ValidOut` and `MarkersOk`
  (Spec/Triangulation, Spec/Voronoi) for Triangle; nothing is assumed of Clipper.
* Memory allocation never fails, vectors have fewer than 2^31 elements.

### Modelled code

| Module | Source |
|---|---|
| Model/UniqueList | lib/utilities UniqueList.h, `indexOf` |
| Model/Point, Segment, IndexSegment | models/basic/*.cpp, geometryFunctions.cpp, mapdata.h, `hash32` |
| Model/Polygon, Hull | models/polygon/Polygon.cpp, convexHull.cpp |
| Model/Triangle | Triangle.cpp, EdgeData.cpp, triangulation/Ear*, Center* |
| Model/BoundingBox, Hole, Region | BoundingBox.cpp, hole/*.cpp, Hole.h, Region.cpp, ClipperWrapper.cpp |
| Model/Generator, RandomInt, Trig | generator/**, Circle.cpp, Angle.h, `generateArcPoints`, angle utilities |
| Model/Neighbours | neighbourhood/*.cpp |
| Model/Delaunay | TriangleDelaunayGenerator.*, DelaunayToVoronoi.cpp, PointData.h, DelaunayInfo.h |
| Model/Flags | the flag `isBoundaryPoint`: DelaunayToVoronoi.cpp and TriangleDelaunayGenerator.* again, with a flag for each stored point |
| Model/Pipeline | TriangleVoronoiGenerator.cpp, DelaunayTriangulationGenerator.cpp |
| Model/Arrays | the C arrays of TriangleDelaunayGenerator.cpp:25-116 |
| Model/MeshObj | Mesh.h constructors and copy constructor with the maps behind pointers |
| Model/Text | utilities.cpp text functions, `getString`s, Mesh.h readers and printers, Region file functions |
| Model/Files | `writeTriangleInputFile`, `printInFile` of the maps, remaining `getString`s |
| Model/Config | DelynoiConfig.cpp, Precision.h |
| Model/Double | point comparison, orientation, areas, `isClockwise`, `middlePoint`, `getAverage`, `contains`, `containsPoint`, grid lines with every operation rounded to binary64 |
| Model/ClipperInt | clipper.cpp:245-380 `Int128`, 540-577 `SlopesEqual`, 896-913 `RangeTest` |
| Model/ClipperGeom | clipper.cpp:385-538 `Orientation`, `Area`, `PointIsVertex`, `PointInPolygon`, `Poly2ContainsPoly1` |
| Model/Members | Pair.h; IndexSegment.cpp `contains(p,s)`, `isContained`, `intersection` with a point segment |
| Model/ClipperPath | clipper.cpp:729-753, 860-869, 1045-1151 `AddPath` up to `InitEdge2` (closed paths), 3136-3174 `FixupOutPolygon`; rings are lists of numbered nodes |
| Model/Double (isConvex) | Polygon.cpp:195-209 with rounding |
| Model/Double (intersects, intersectionInfinite, circumcenter) | Segment.cpp:48-96, Triangle.cpp:29-40, Point.cpp:32-34 with rounding |
| Model/Exact | delynoi/include/delynoi/voronoi/lib/triangle.c 4763-4809, 4841-4851, 4881-5031, 5105-5280, 5881-5938: the exact arithmetic macros, `exactinit`, `fast_expansion_sum_zeroelim`, `estimate`, `counterclockwise(adapt)` and `incircle`, in binary64 arithmetic |
| Model/TriSort | delynoi/include/delynoi/voronoi/lib/triangle.c 6665-6674, 9197-9375, 9740-9901 (shape of the recursion only), 9984-10019: random numbers, `vertexsort`, `vertexmedian`, `alternateaxes`, removal of duplicates |
| Model/TriSwitch | delynoi/include/delynoi/voronoi/lib/triangle.c: parsecommandline (3276-3554, as compiled with TRILIBRARY) |
| Model/TriWrite | delynoi/include/delynoi/voronoi/lib/triangle.c: writenodes, writeelements, writeedges and the counters at the end of triangulate (14316-14446, 14488-14621, 14775-14912, 15843-15955) |
| Model/TriMesh | delynoi/include/delynoi/voronoi/lib/triangle.c: handles, bond, tsbond, tsdissolve, flip, unflip (484-528, 918-1300, 7907-8140) |
| Model/TriCarve | delynoi/include/delynoi/voronoi/lib/triangle.c: infecthull, plague, carveholes without regions (12571-12845, 12976-13132), infection marks and deallocation (990-1007, 1089-1118, 1294-1300, 4372-4439) |
| Model/TriLocate | delynoi/include/delynoi/voronoi/lib/triangle.c: `preciselocate`, `locate` (which triangles are sampled is a parameter), its use in `carveholes` |
| Model/TriSegment | delynoi/include/delynoi/voronoi/lib/triangle.c: `makesubseg`, `insertsubseg`, `finddirection`, `scoutsegment` (`segmentintersection` is a parameter, see Model/TriCross), `makevertexmap`, the start of `insertsegment`, `markhull` |
| Model/TriInsert | delynoi/include/delynoi/voronoi/lib/triangle.c: maketriangle (4654-4690), insertvertex (8191-8767) |
| Model/TriCross | delynoi/include/delynoi/voronoi/lib/triangle.c: segmentintersection (11683-11783) |
| `Model/Incircle` | triangle.c:4814-4866, 5035-5094, 5302-5878 (`scale_expansion_zeroelim`, `incircleadapt` and their macros), without overflow and negative zero |
| Model/TriFixup | triangle.c 12024-12089, 12144-12237, 12246-12345: delaunayfixup, constrainededge, insertsegment (exact arithmetic; no splitseg, no recenttri; point location and segmentintersection are parameters) |
| Model/TriEncroach | triangle.c: checkseg4encroach, tallyencs, splitencsegs, enforcequality (for the switches of Delynoi) |
| Model/TriPipeline | triangle.c:15801-15826: carveholes followed by enforcequality |
| Model/TriGhost | triangle.c:9740-9885 (base cases of divconqrecurse), 9904-9954 removeghosts |
| Model/TriMerge | triangle.c:9413-9720 mergehulls (without farleft, farright: 9530-9538, 9571-9595) |
| Model/TriPool | triangle.c:3882-4154 memory pools, 4573-4605 getvertex |
| Model/TriInput | triangle.c:14080-14151 transfernodes, 12404-12552 formskeleton (insertsegment is a parameter) |
| Model/Leftover | Polygon.cpp:287-289 operator<, geometryFunctions.cpp:41-50 area(points), Triangle.cpp:15-19 constructor with a vector |
| Model/Ieee | the divisions of Segment.cpp, Polygon.cpp, PointGenerator.cpp over numbers with NaN and infinities |

### Not modelled

* triangle.c, except its predicates (Model/Exact, Incircle), sorting functions (Model/TriSort), switches
  (Model/TriSwitch), output (Model/TriWrite), edge flips (Model/TriMesh), hole carving (Model/TriCarve), point location (Model/TriLocate), parts of
  the insertion of segments (Model/TriSegment, TriCross, TriFixup), the insertion of vertices
  (Model/TriInsert), the splitting of encroached subsegments (Model/TriEncroach), the triangulations of
  two and three vertices and the removal of the bounding triangles (Model/TriGhost), the merge of two
  triangulations (Model/TriMerge), memory pools (Model/TriPool), the input (Model/TriInput), and the sweep
  of clipper.cpp: arbitrary functions.
* Rounding of `double` operations outside Model/Double; overflow.
* A degenerate triangle in Triangle's output makes the circumcenter NaN or infinite, which would go
  into an ordered map: marked undefined (`ub`).
* `thisEdges` in DelaunayToVoronoi.cpp (filled, never read).
* `getPath`, which directory a file is in, and file-system errors other than a missing input file.
* Test programs.

## 3. Layout

* `lean/Verif/Model/*`   transcription of the code, with line references.
* `lean/Verif/Spec/*`    specification vocabulary that does not use the model's helpers.
* `lean/Verif/Proofs/*`  helper lemmas.
* `lean/Verif/Props/*`   the property theorems `Cnn_…`, each with an `example`.
* `seeded/LOG.jsonl`     mutation log.

Theorem name suffixes: `_partial` - weaker than the property (the comment says
what is missing); `_refuted` - the code violates the property as stated in
properties.jsonl, proved with a concrete witness.

## 4. Properties

(Plan per property; "refuted" means the code does not satisfy it and the negation is
proved, together with the strongest part that does hold.)

| Id | Modelled | Proof |
|---|---|---|
| C01-C06 | `UniqueList` over sorted-map model | invariant relating map and vector, induction over histories, refinement to an insertion-ordered set |
| C07 | `pop_front` | refuted: map indices are not shifted; partial: no later push |
| C08, C09 | `Point ==`, `<` | order reasoning; explicit cycle for arbitrary tolerance |
| C10-C13 | `Segment` | algebra over ordered fields |
| C14, C15 | `IndexSegment`, `Key`, `hash32` | bit-vector model; C15 refuted |
| C16 | `orderCCW` | algebra |
| C17-C23 | areas, orientation, centroid | induction over vertex lists; C22 refuted (always the origin) |
| C24, C25 | hull, calipers | stack invariants; merge of slope-sorted chains |
| C26 | `getMaxDistance` | fold characterisation; header's claim refuted |
| C27-C31 | `containsPoint` etc. | parity fold; convex case by unique up/down crossing |
| C32-C36 | edge/convexity/equality/self-intersection | list lemmas; several refutations |
| C37, C38 | triangle functions | algebra, case analysis |
| C39-C41 | triangulations | induction, area telescoping |
| C42-C51 | box, region, holes | fold invariants, history invariants; refutations for C45-C47, C51 |
| C52-C58 | generators, circles | induction on grid loops; call-history invariants |
| C59-C61 | maps | assoc-list refinement |
| C62-C71 | generator and Voronoi walk | state machine; injectivity of the flag step gives termination |
| C72-C76, C80 | text I/O | string induction |
| C77-C79 | config, angles, indexOf | direct |
| C81 | trigonometric functors | over the reals |
| C82, C85 | users of the Delaunay generator | composition of C64, C67, C69 |
| C83, C84 | maps of the Voronoi mesh | the maps as logs of insertions, paths of cells |
| C86 | mesh copies | heap with pointers, history invariant |
| C87 | arrays for Triangle | induction over the filling and reading loops |
| C88 | elementary segment and polygon functions | algebra |
| C89-C94 | the same functions rounded to binary64 | `fl` proved to be round-to-nearest; calculus of relative and absolute errors; monotonicity; congruence of the unique list in its comparator |
| C95 | seeding a rectangle | C28, C44 and C52 applied to a rectangle |
| C96 | boundary flags | the flagged construction is the other one plus a list of flags; invariant of the walk |
| C97 | accepted `mutate` | direct |
| C98 | cells inside Voronoi regions | `CellIdx` (C70) + linear inequality on convex combinations; `C98_encroached` shows that the condition on boundary edges is needed |
| C99 | areas of the cells | relative to a point, neighbouring circumcenters turn one way (`GFan`: circles through a common point and empty of each other's points); telescoping sums give the area of a cell as its parts in the triangles, and the three parts of a triangle add up to it |
| C100 | shapes of the cells | a closed path that turns one way around a point meets every direction (`Turning.cover`); a point of the plane is then in a wedge between two vertices, where linear conditions are inherited |
| C104 | triangulations as partitions | ear clipping of a convex polygon is a fan; the diagonal separates the clipped ear; around the mean, wedges are compared by a linear identity |
| C105 | the cells tile the domain | the signed number of crossings of a ray with a segment is additive along lines, so that counts of stars telescope like areas and both sides count every point equally often; closed points are limits of inner points |
| C106 | triangulations and winding numbers | clipping an ear removes the three edge terms of its triangle from any sum of an antisymmetric function of edges; used with areas (C39) and with signed ray crossings |
| C107 | random integers | case analysis of truncation |
| C108, C109 | Clipper's integers | `omega` on words; schoolbook multiplication in base 2^32 |
| C110 | Clipper's areas | the sum is a rotation of the shoelace sum plus a telescoping one; integers below 2^53 are not rounded |
| C111 | PointInPolygon | case analysis of one step against a signed crossing with upper ends included; both crossing conventions differ by a telescoping sum off the outline; rounding is monotone |
| C112 | small members | what a segment accepts is convex |
| C113, C114 | Clipper's vertex cleaning | every removal keeps all edge sums that do not see flat triangles (area, winding numbers); invariants for the moving stop node |
| C115 | point-in-polygon in binary64 | quotient rule for the error calculus (`1/(1-u) ≤ (1+u)^2`); induction over the crossing loop |
| C116 | integer coordinates | all products are integers below 2^53; the crossing differs from the point by at least 1/2^24, the error is below 22·2^-30 |
| C117 | convexity in binary64 | signs of the computed turns; products do not underflow above 2^-1074 |
| C118 | intersections in binary64 | numerators and denominator are exact integers, the quotients are rounded once, rounding is monotone |
| C119 | circumcenters in binary64 | all sums are integers below 2^53 |
| C120-C121 | Proofs/Exact, ExactMul | multiples of powers of two (`MultOf`) are kept by rounding; the error of a sum is a multiple of the smaller last place and not larger than either summand, so it is a binary64 number; products are expanded into integer halves of 26 bits |
| C122 | Proofs/ExactSign, ExactCcw, ExactCcw2 | one error bound per stage: the difference to the exact determinant is smaller than the computed value whenever the filter lets it pass |
| C123 | Proofs/ExactIncircle | the same for the in-circle determinant; the bound 10 + 96 epsilon has a margin of 0.3 epsilon here |
| C124 | Proofs/ExactSum | invariant of the merge: output + Q + rest = sum of the arguments |
| C125 | Proofs/ExactExp3 | C122's stages, then the value of the expansions of the last stage and the sign of their last component |
| C126 | Proofs/ExactExp, ExactExp2, ExactExp3 | invariant `St` of the merge: the sum of all roundoffs so far stays below the last bit of everything to come; ties to even make room for the next roundoff |
| C127-C132 | Proofs/TriSort, TriSort2, TriSort3, TriSort4 | invariant of the splitting loop: the pivot or the vertex swapped last stops the scans; induction over the size; order of pieces by comparison with the pivot |
| C133 | Proofs/TriSwitch, Proofs/TriSwitch2 | Induction over the string, one lemma per field of `struct behavior` |
| C134 | Proofs/TriWrite, TriWrite2, TriWrite3 | Loop invariants; the edges between triangles are counted from both sides; numbers of used vertices are injective |
| C135 | Proofs/TriMesh, TriMesh2, TriMesh3, TriMesh4, TriMesh5 | The new links are the old ones with the four outer handles rotated; angles at a vertex; weighted power of a point |
| C136 | Proofs/TriCarve, TriCarve2, TriCarve3, TriCarve4 | Invariant of the spreading infection; walks around a vertex as chains; invariant of the deletion over tested vertices and cut edges |
| C137 | Proofs/TriCarve5, TriCarve6 | The boundary as a chain of turns around vertices; invariant of the infection; C136 |
| C138 | Proofs/TriLocate, TriLocate2 | The distance between the point and the edge by which a triangle is entered never grows; while it stays the same the walk turns about the closest endpoint, and the vertices before it get fewer |
| C139 | Proofs/TriLocate3, TriLocate4 | Cases of the starting edge; C138; C137 |
| C140 | Proofs/TriSegment2 | Cases of the subsegment of the edge |
| C141 | Proofs/TriSegment | While the search turns one way the neighbours of the vertex on the other side of the line get fewer |
| C142 | Proofs/TriSegment3 | C140, C141; the vertices nearer to the end get fewer |
| C143, C144 | Proofs/TriSegment4 | C140 and the walk around the boundary of C137; induction over the triangles |
| C145-C149 | Proofs/TriInsert, TriInsert2, ..., TriInsert11 | a general lemma says how links follow from a description of the edges (Starred); splits are flat by cone arguments; the loop keeps a list of the triangles around the new vertex (Ring) and ends because every flip adds one; a flipped edge is inside a convex quadrilateral; spokes are Delaunay because a circle through the new vertex and the other end has no vertex inside |
| C150 | Proofs/TriCross | the parameters of the crossing point are quotients of turns; the new vertex and the apex are adjacent after the flips (Legalized.star) and no boundary edge is in the way (Legalized.lone), so C141 finds the edge |
| C151 | Proofs/ScaleExp, ScaleExp2, ExpGrid | invariant `Sc` of the loop: the sum of all roundoffs so far lies below the last bit of the carry |
| C152 | Proofs/ExpEstimate | relative error of the partial sums, which the last component dominates |
| C153 | Proofs/ExpSquare, ExpLast, ErCalc, AdaptErr, Adapt | stage B: `iccerrboundB` covers the tails; stage C: first-order terms, second-order remainder; stage D: value of every expansion |
| C154, C123 | Proofs/AdaptMono | lengths of all expansions; two machines compared step by step |
| C155-C157 | Props/Elementary2 | direct |
| C158-C160 | Props/TriFixup | Proofs/TriFixup, TriFixup2-4: each flip gives the vertex one more triangle; two calls of C142 and one flip |
| C161 | Props/TriCdt | Proofs/TriCdt, TriCdt2: every spoke has a circle through its end with the new vertex inside and the neighbours outside; flips keep this |
| C162-C164 | Props/TriEncroach | Proofs/TriEncroach, TriEncroach2, 3, 4, 5: invariant of the loop: constrained Delaunay, and every encroached subsegment has a current entry in the pool |
| C165 | Props/TriPipeline | Proofs/TriPipeline: what plague and insertsubseg do to the links of subsegments, and that this keeps the hypotheses of the next phase |
| C166, C167 | Props/TriGhost | Proofs/TriGhost, TriGhost2, TriGhost3: tables of the links for arbitrary addresses; induction over the ring of bounding triangles |
| C168 | Props/TriMerge | Proofs/TriMerge..TriMerge6: a mesh with three open edges around the gap (Gap); each step closes and opens edges; a point in the circle beyond an edge is left of the base |
| C169 | Props/TriMerge | Proofs/TriMerge4, TriMerge5: the removal of edges stops at an edge that passes the test, and the other side does not touch it (Gap.round) |
| C170 | Props/TriInput | Proofs/TriPool: the position after j items (At), the items in use and the dead ones are the first places |
| C171, C172 | Props/TriInput | Proofs/TriInput: induction over the points and the segments; C87 for the arrays of Delynoi |
| C173-C175 | Props/Leftover | C34 and C37; Proofs/Leftover: the terms with the first vertex cancel around the polygon |
| C101-C103 | other files | line structure of the output; numerals (with exponents) specify printed numbers |

## 5. Where the code and the properties disagree

Each line is a machine-checked refutation (theorem with suffix `_refuted`) of a property of
properties.jsonl; the manifest names the theorem that remains true (`_partial`).

* C07 `pop_front` does not shift the indices stored in the map.
* C15 `hash32` overflows a signed `int` for every index below 2^28 except 61.
* C22 `getCentroid` always returns the origin (`isValid` returns `isEmpty`).
* C26 `getMaxDistance` is the longest side, not the largest distance its comment promises.
* C27, C29 two neighbouring vertices equal to within the tolerance change the crossing parity.
* C33 `isConvex` accepts non-convex polygons whose first three vertices are collinear.
* C34 polygon equality compares hashes only.
* C35 constructors accept self-intersecting polygons (the test runs on an empty vertex list).
* C36 a rejected `mutate` leaves new indices with old caches and hash.
* C40 ear clipping stops early on a dart, and on polygons of about the size of the tolerance.
* C45 adding a hole or changing the outline does not remove seeds.
* C46 `addSeedPoints` replaces the seeds.
* C47 copying a region drops the seeds.
* C51 the center of a polygonal hole is always the origin (consequence of C22).
* C53 one row or one column gives NaN coordinates, no seeds.
* C54 the alternating functor goes out of step from the third row on.
* C57 `discretizeCircle` ends only for grades 1..360; the number of points is wrong unless the grade
  divides 360.
* C60 asking for the neighbours of an unknown segment inserts an uninitialised record.
* C63 a second request of another kind returns the first result; one function returns a dangling
  reference.
* C65 a restricted segment with an unknown end point is passed as index -1.
* C68 vertices of Triangle's output closer than the tolerance are merged; a triangle that collapses
  throws.
* C72 a printed mesh cannot be read back: the reader does not expect the edge section.
* C74 indices from a million on are printed in scientific notation.
* C75 the precision setting has no effect on printed coordinates.
* C78 negative angles are not normalised.
* C84 the point map of the Voronoi mesh lists a cell several times at a vertex.
* C85 the triangles returned for a polygon use Triangle's numbering, not that of the given points.
* C86 a copy of a mesh shares the neighbourhood maps with the original.
* C89 in binary64, points just within the tolerance can compare different.
* C90, C91 in binary64, the orientation test can return zero or the wrong sign for thin triangles
  (integer coordinates below 2^29), and a triangle with sides of 10^5 at distance 10^12 gets the
  wrong orientation.
* C92 in binary64, `getAverage` can leave the bounding box.
* C93 in binary64, the middle point of a segment with coordinates of about 10^8 is not accepted.
* C94 in binary64, the last grid line can lie outside the box; on a square of side 10^6 an 8 x 8 grid
  loses 12 of its 64 seeds.
* C96 a circumcenter on the boundary (right triangle with its longest side on the boundary) is not
  flagged as a boundary point.
* C104 center triangulation accepts a pentagram and returns overlapping triangles.
* C102 reading a region's own file turns its corners into seeds.
* C107 `random_integer` truncates its bounds (0.5 and 0.7 give 0); integer noise with equal even bounds
  is never added, only subtracted.  (Also, `noise.h` declares `random_integer_noise` with `double`
  bounds but only a version with `int` bounds is defined, so a caller does not link.)
* C108 `Int128` addition adds the high words as signed 64-bit numbers before the carry and can overflow
  (undefined behaviour) though the sum fits 128 bits; the conversion of negative numbers to `double` is
  off by one (-1 becomes 0).
* C110, C111 (not refutations of the properties as stated, but consequences of rounding for 32-bit
  coordinates): `C110_rounding_flips`, `C111_rounding_blurs`.
- C115: with integer coordinates below 2^28 `containsPoint` rejects points strictly inside a triangle and accepts points strictly outside (the exact test does neither).
- C117: `isConvex` rejects a strictly convex quadrilateral with coordinates of one decimal digit or so, and accepts a quadrilateral with a reflex corner and integer coordinates.
- C118: two segments with a common end are computed to be parallel for integer coordinates below 2^29.
- C119: near (8.4e7, 6.6e7) the two triangles of a unit grid cell get circumcenters at distance sqrt 2, so the Voronoi cell gets a spurious edge.
- C122, C124 (triangle.c): `fast_expansion_sum_zeroelim` executes `enow = e[++eindex]` also after the
  last component, so it reads `e[elen]` and `f[flen]`.  `counterclockwiseadapt` passes the arrays
  `B[4]` and `u[4]` with four components: undefined behaviour whenever the last stage is reached,
  for example for the collinear points (1,1), (2,2), (2⁻⁶⁰,2⁻⁶⁰).  The value read is not used.
- C122: coordinates around 2⁻⁶⁰⁰ make the products underflow and a left turn is reported as
  collinear; the same happens with `-X` for integer coordinates around 2²⁷.
- C126 (triangle.c:4946-4951): the comment says that `fast_expansion_sum_zeroelim` with ties to even
  keeps expansions strongly nonoverlapping.  It computes ½ + 2⁵² - (2⁵² + 3) as ½ - 3, whose components
  are adjacent although 3 is not a power of two.  The orientation test is correct nevertheless: the
  weaker form `Expansion` is kept and determines the sign.
* triangle.c:6668-6674 `randomnation` promises a number between 0 and choices - 1, but for more than 845 choices the
  largest ones may never occur (C127_all_refuted: 999 of 1000).  Only the choice of pivots is affected.
* triangle.c:9740 `divconqrecurse` recurses for ever if all vertices have the same position (C132_ends_refuted): the
  check for three vertices (14107) counts duplicates.  Delynoi removes duplicates before it calls Triangle.
* `parsecommandline` copies the number after `q` or `a` into `workstring[2048]` without a bound
  (triangle.c:3337-3343, 3353-3360): `C133_safe_refuted`.
- C137: after carving, the link of `dummytri` is not updated (triangle.c:12825-12837 only changes the links of neighbours), so it leads to a deleted triangle if a hole or concavity eats the triangle it led to.
- C138: `preciselocate` may report a point behind the starting edge to be inside its triangle.
- C139: `locate` may turn to `dummytri` (triangle.c:7768-7771) if the point is outside of the mesh and a sampled or recent triangle has an edge on the boundary facing it; `preciselocate` then reads the coordinates of NULL corners. A hole outside of the hull but inside of its box leads there.
- C141: at a vertex on a concave part of the boundary `finddirection` may turn left into the boundary and call `internalerror`, although turning right would have led to the triangle (triangle.c:11614-11640). Triangle inserts segments before it carves holes, when the mesh is convex.
- C123 (triangle.c:5588-5600): in the last stage of `incircleadapt` the arrays `u[4]` and `v[4]` are full, and
  `fast_expansion_sum_zeroelim` reads `u[4]`, `v[4]` as in C122: undefined behaviour for cocircular points whose
  differences are not binary64 numbers.
- C155 (IndexSegment.cpp:59-70): `operator==` ignores the direction of a segment, `operator<` does not: equal
  segments are ordered.
- C157 (Angle.h:33-41): angles closer than the tolerance count as equal, which is not transitive.
- C160 (triangle.c:12270, 12303): `insertsegment` reads the field `vertex2tri` of a vertex; `makevertexmap` writes it
  for corners of triangles only, so for a duplicate vertex it has not been initialised.
* C163: triangle.c:13341 says that concentric circles are used "if exactly one endpoint is shared"; line 13343 tests for
  at least one. If both are shared, the distance is measured from the destination.
* triangle.c:9935-9944: the comment says that the markers of all vertices on the convex hull are set, and
  that the case of collinear vertices is taken care of. With collinear vertices one end gets no marker
  (`C167_line_marks_refuted`).

## 6. Mutation tests

`seeded/LOG.jsonl` has one line per attempt: the model definition edited in a scratch copy, the
edit, the claim it breaks, the property theorems whose proof no longer goes through (a theorem
counts as failed if it or a lemma it depends on is rejected), and what was tightened.

How to read the log:

* `declarations_with_errors` is what Lean rejected. `theorems_failed` is derived from it through the
  dependencies of the theorems, as they were when the attempt was logged. A theorem in the list was therefore not always
  checked itself. A rejected proof also does not by itself show that the claim is false.
* For the records with id `auto` (edits made mechanically) only the first theorem that failed is given. 184
  further mechanical edits gave models that do not compile; they are not in the log.
* Earlier versions of the log in the history recomputed `theorems_failed` of 87 old records with later
  dependencies, which added theorems that did not exist at the time of the attempt. These lists are back
  to their first committed values. No record was removed and no result changed. The log is now only appended to.

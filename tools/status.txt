C01|proved|any history, any strict weak order on the used elements
C02|proved|refinement of an insertion-ordered set
C03|proved|
C04|proved|
C05|proved|
C06|proved|
C07|partial|refuted as stated: pop_front does not shift the stored indices; proved that the returned index is always off by one and that the element list itself is right
C08|proved|
C09|proved|holds on tolerance-separated sets; without the restriction a cycle exists for every tolerance
C10|proved|
C11|proved|
C12|proved|exact arithmetic; the IEEE treatment of a zero denominator is in Verif.Props.Ieee
C13|proved|
C14|proved|
C15|partial|refuted: signed overflow for every index below 2^28 except 61; proved that wrap-around evaluation agrees when defined
C16|proved|idempotence needs non-collinearity (witness otherwise)
C17|proved|
C18|proved|
C19|proved|undefined for the empty polygon
C20|proved|
C21|proved|any history; also proved that no such history is undefined
C22|partial|refuted: the accessor returns the origin for every polygon in every history
C23|proved|also identified with the area-weighted mean of triangle centroids
C24|proved|two or more vertices, any history of the object; -1 for one vertex, undefined for none
C25|proved|
C26|partial|proved for non-empty polygons as longest edge; header promise (largest vertex distance) refuted; LLONG_MIN for the empty polygon
C27|partial|proved when neighbouring vertices that coincide within tolerance are equal, which holds for all polygons over the points of a mesh or region (C27_shared_points); refuted otherwise
C28|proved|
C29|partial|proved when neighbouring vertices that coincide within tolerance are equal, which holds for all polygons over the points of a mesh or region (C29_shared_points); refuted otherwise
C31|proved|
C30|proved|
C32|proved|distinct vertices, any size; a repeated vertex breaks it (witness)
C33|partial|acceptance proved; rejection proved when the first turn is not zero, refuted when it is
C34|partial|same vertices in any order compare equal; converse refuted
C35|partial|mutate proved exact; constructors refuted (accept everything)
C36|partial|refuted for rejected input; successful mutate proved equal to fresh construction
C37|proved|defined exactly when the vertices are not collinear; then unique equidistant point; vertex order irrelevant
C38|proved|all triangles and edges
C39|proved|number of triangles, index validity and exact area conservation for every successful run
C40|partial|convex outlines with sufficient margins proved; a dart and a tiny square refute the general claim
C41|proved|fan area, orientation; small inputs rejected
C42|proved|also: operator== does not recognise the same box given by its other diagonal
C43|proved|Extents and tightness of the box of the outline. The code's search bound is also examined: a companion theorem shows the result for coordinates beyond it.
C44|proved|
C45|partial|Refuted for histories that add a hole or change the outline after seeding; proved for every history whose operations after the last seeding do not do so. Well-formedness is proved for all histories.
C46|partial|Refuted: addSeedPoints replaces the earlier seeds. The partial theorem states that the result does not depend on them at all.
C47|partial|Refuted: the copy constructor drops the seeds. Proved for everything else.
C48|proved|
C49|proved|The clipping library is an arbitrary function.
C50|proved|
C51|partial|Refuted: the center of a polygonal hole is always the origin. The partial theorem covers polygons that contain the origin.
C52|proved|all generators for the count; all pairs of functors with separate state, all functors over one free variable
C53|partial|Refuted: with one row or column the coordinate is NaN and every point is dropped; the partial theorem covers the other coordinate. The NaN is derived in the IEEE model.
C54|partial|Refuted for every batch size from the third batch on, with an exact closed form for all calls; the first two batches proved.
C55|proved|
C56|proved|the random engine is an arbitrary sequence of draws in the stated range
C57|partial|Refuted: the loop ends iff the grade is in 1..360, and the number of points is the grade iff the grade divides 360. Points on the circle proved in general.
C58|proved|also: grades below 1
C78|partial|Refuted for negative angles; proved for non-negative ones and for all results of cartesianAngle
C81|proved|
C59|proved|keys are assumed to carry the hash their constructors compute (C14)
C60|partial|Refuted: get of an absent segment inserts a record with an uninitialised neighbour. Read-only for present segments.
C61|proved|also: the keys of the map are pairwise different points
C62|proved|
C63|partial|Refuted: a request of another kind (or with other segments) returns the result of the first one, and getConformingDelaunayTriangulation always returns a dangling reference. Proved for requests of the same kind.
C64|proved|
C65|partial|Refuted: an endpoint not among the points is passed to Triangle as index -1. Proved for endpoints that are among the points.
C66|proved|Triangle's output is assumed to be a valid triangulation description (ValidOut)
C67|proved|
C68|partial|Refuted: output vertices closer than the tolerance are merged and a merged triangle throws. Proved for the vertex list.
C69|proved|
C70|proved|assumes the triangulator's boundary markers are right (MarkersOk)
C71|proved|
C72|partial|Refuted: printInFile writes the edges before the polygons and createFromStream reads the first section after the points as polygons. Proved: the points come back, to six significant digits.
C73|proved|the mesh has exactly the points of the file if they are pairwise different to within the tolerance; with repeated points later indices are shifted (C73_repeated_points_refuted)
C74|partial|Refuted from a million on: such an index is printed in scientific notation and read back as its first digit. Proved for indices below a million.
C75|partial|Refuted: the precision is set on the stream but points are written as strings made by toString with six significant digits. Proved: the coordinates are right to six significant digits, and toStringWithPrecision honours its precision.
C76|proved|
C77|proved|
C79|proved|
C80|proved|also: outcome for missing, empty and short files
C82|proved|the triangulator's answer is assumed valid (ValidOut) with tolerance-separated, pairwise different points
C83|proved|for cells whose path of circumcenters does not return to a point it left (NoReturn); duality for interior edges
C84|partial|Refuted: cells are listed several times. Proved: exactly the cells with a vertex there are listed (tolerance-separated mesh points).
C85|partial|Refuted: the switch j makes Triangle drop and renumber unused points, and the indices are not translated back. Proved when the triangulator keeps the points.
C86|partial|Refuted: the copy constructor copies the pointers to the maps, so reading into a copy changes the edges of the original. Proved: points, polygons and point map are independent, and everything is in programs without copies.
C87|proved|
C88|proved|
C89|partial|Refuted: a difference just below the tolerance can be rounded up to it, so close points may compare different. Proved: computed equality implies closeness; full agreement, also of all unique-list histories, for coordinates whose difference is a binary64 number or at least the tolerance.
C90|partial|Refuted: the sign can be lost or reversed. Proved: error bound, correct sign above it, never reversed when the differences are exact.
C91|partial|Refuted: a clockwise triangle taken for counter-clockwise. Proved: error bounds for any number of vertices, correct answers above them.
C92|partial|The statements on the middle point are proved. Refuted for the average, which can leave the bounding box; error bound proved.
C93|partial|Ends and vertices proved. Refuted for the middle point.
C94|partial|First line, order, error bound and exact case proved. Refuted: the last line can lie outside the box, and seeds of a grid over a rectangle are lost.
C95|proved|Exact arithmetic. C94 shows that rounding loses seeds of such a grid.
C96|partial|Flagged implies on the boundary, unflagged implies a circumcenter, same mesh, and the flags of the triangulation's mesh are proved. Refuted: a circumcenter on the boundary has no flag.
C97|proved|
C98|proved|Delaunay and not encroached are hypotheses; C98_encroached shows that the second is needed.
C99|proved|The triangulation's properties (counter-clockwise, no overlaps, Delaunay, not encroached) and that the tolerance merges nothing are hypotheses; they are checked on a hexagon.
C100|proved|The triangulation's properties and that the tolerance merges nothing are hypotheses, as in C99.
C101|proved|Rounding is to six significant digits; the file's consumer (triangle.c) is not modelled.
C102|partial|Refuted: the corners come back as seeds (C102_corners_refuted). C102_reload_partial says exactly what is restored.
C103|proved|Indices converted to double must be below a million (C74).
C104|partial|Proved for convex polygons (with margins for ear clipping); a pentagram is accepted by center triangulation and gets overlapping triangles (C104_star_refuted).
C105|proved|Under the hypotheses of C99 and MergesNoCorner; cells are read as stars around their points (C100_star).
C106|proved|Points on sides of triangles may be counted or not, hence two inequalities.
C107|partial|Refuted as stated: fractional bounds are truncated, so random_integer(0.5,0.7) yields 0; noise with equal even bounds always subtracts, and can overflow at the least int.
C108|partial|Refuted as stated: adding two 128-bit numbers computes the high words with signed 64-bit addition before the carry and can overflow though the sum fits; conversion of negative numbers to double is off by one (-1 becomes 0).
C109|proved|Overflow of the unchecked tests is shown to be possible beyond the range (C109_overflow).
C110|proved|Exact arithmetic and binary64 (fl); the bound for binary64 is shown to matter by C110_rounding_flips.
C111|proved|Coordinates up to 2^62-1 in exact arithmetic; binary64 results for coordinates up to 2^51 and 2^25.
C112|proved|Pair over an ordered field; Pair<int>::operator* (truncation) is not used in the project and not modelled.
C113|proved|Stage 4 (local minima and bounds) is not modelled; Dx is not modelled; new[] is assumed to succeed.
C114|proved|The ring is any ring in range; that Clipper's sweep only builds such rings is not proved.
C115|partial|False without a distance between point and edges: C115_inside_refuted and C115_outside_refuted (integer coordinates below 2^28). Proved with that distance (ClearOf) for every polygon.
C116|proved|Covers OnGrid points; tolerance must be a binary64 number in (0,1] for containsPoint.
C117|partial|False in general (C117_rejected_refuted, C117_accepted_refuted). Proved when every turn exceeds the rounding error, exactly on integers below 2^25, and acceptance of convex polygons whenever coordinate differences are exact.
C118|proved|Integer coordinates below 2^25 as stated; C118_missed_refuted shows that a common end point is missed with coordinates below 2^29.
C119|proved|Integer coordinates up to 2^16 as stated; C119_split_refuted shows that the two triangles of a unit cell get different circumcenters with coordinates near 10^8. std::pow(x,2) is taken to be correctly rounded.
C120|proved|
C121|partial|Refuted for products that underflow; proved for factors that are multiples of 2^e and 2^f with e+f >= -970 (and e, f >= -1022). Overflow is not modelled.
C122|partial|Refuted in three ways (undefined behaviour in the last stage, underflow, -X). Proved: every value returned has the right sign for coordinates that are multiples of 2^-440, and a value is returned whenever the coordinate differences are binary64 numbers. Overflow is not modelled. On a machine with harmless over-reads the test is correct for all such points: C125.
C123|partial|Refuted: undefined behaviour in the last stage. Proved: every value returned has the right sign. Overflow is not modelled. On a machine with harmless over-reads the test decides for all such points: C153.
C124|proved|
C125|proved|Stated for a machine on which the reads behind the arrays (C122, C124) are harmless. Overflow is not modelled.
C126|partial|The comment's claim is refuted; the form proved instead suffices for the sign of the result.
C127|partial|That every choice can occur is refuted for 1000 choices and proved up to 845.
C128|proved|Sizes are not limited to the range of int.
C129|proved|
C130|proved|
C131|proved|For the switch settings used by Delynoi (no -l, -i, -F).
C132|partial|Refuted if all vertices have the same position, proved otherwise. Only the shape of the recursion is modelled, not the triangulations.
C133|partial|Freedom from undefined behaviour is refuted in general (C133_safe_refuted) and proved for strings without long numbers (C133_safe_partial); the rest is proved.
C134|proved|That Triangle's mesh is consistent when it is written is a hypothesis (MeshOk); attributes and segments are not written in the model.
C135|proved|The free diagonal (c and d not yet joined) is a hypothesis of the combinatorial statements, as the comment above flip demands of its callers; for flat triangulations and convex quadrilaterals it is proved.
C136|proved|Ready states what plague may assume: consistent links between triangles and with subsegments, different corners, and that the triangles around a vertex form one fan (true of any triangulation of a disk).
C137|partial|Everything but the last sentence is proved; the link of dummytri may lead to a triangle given back (C137_dummytri_refuted), the partial theorem has the case that its triangle stays. The search for the triangle of a hole (locate) is a parameter assumed to end and to return a triangle of the mesh.
C138|partial|Everything but the last sentence is proved; without the condition the answer may be wrong (C138_behind_refuted), as the comment in carveholes says.
C139|partial|Proved for points that are not beyond any edge of the boundary. Otherwise locate may go on from dummytri and read its missing corners (C139_outside_refuted, C139_hole_refuted); C139_answer_partial has all other cases.
C140|proved|
C141|partial|Everything but the last sentence is proved; an answer is found if the point is not beyond any edge of the boundary at the vertex (C141_found). At a concave vertex the search may turn the wrong way and give up (C141_concave_refuted).
C142|proved|segmentintersection is a parameter.
C143|proved|
C144|proved|
C145|proved|Exact arithmetic; attributes and area bounds are not modelled.
C146|proved|Exact arithmetic; the point location is C138/C139; queues of encroached subsegments and bad triangles are not modelled.
C147|proved|As C146.
C148|proved|Locally Delaunay everywhere; without subsegments.
C149|proved|As C146.
C150|proved|Exact arithmetic; attributes of vertices and vertex2tri are not modelled.
C151|proved|
C152|proved|
C153|proved|Stated for a machine on which the reads behind the arrays (C123) are harmless. Overflow is not modelled.
C154|proved|Arrays which are only multiplied, never added, are covered by the bound in C151.
C155|partial|Compatibility of operator< and operator== is refuted; the rest is proved.
C156|proved|atoi and atof are functions of the C library; their model is part of the trusted base.
C157|partial|The strict weak order is refuted; the rest is proved.
C158|proved|The mesh has to be flat; constrainededge also calls it on meshes with folds.
C159|partial|Missing: segments that cross several edges, where the mesh has folds in between.
C160|partial|Missing: segments that cross several edges. The absence of undefined behaviour is refuted for endpoints that are corners of no triangle.
C161|proved|Exact arithmetic; the place of the vertex is given, as in C146, C147 and C149.
C162|proved|Exact arithmetic; subsegments at the boundary have no triangle on the other side (Bare), which insertions keep.
C163|proved|The square root is any function that is positive on positive numbers. The comment in the code says 'exactly one endpoint', the code tests for at least one (DESIGN section 5).
C164|proved|Exact arithmetic. That the loop ends is not part of the claim: for input angles below 60 degrees this depends on the concentric circles.
C165|proved|Exact arithmetic. The search for the triangle of a hole is a parameter that ends in a triangle of the mesh (C138, C139). That the loop of enforcequality ends is not part of the claim.
C166|proved|Exact arithmetic. The vertices are different; that they are sorted is not needed.
C167|partial|Refuted for the marks: if all vertices are on a line, one of them does not get a mark. The rest is proved. That the triangulation with bounding triangles is as described (Ghosted) is proved for two and three vertices (C166); for the merge step C168 has the links, but not that the bounding triangles are in one ring.
C168|partial|Exact arithmetic. Not proved: that the loops end, that the result is Delaunay and convex, and that farleft and farright are still on the boundary (these need that the triangulations are Delaunay and separated by a line).
C169|proved|Exact arithmetic. The circle is tested against the neighbour and the other candidate; that it is empty of all vertices would need that the triangulations are Delaunay and separated by a line, and is not claimed. Rounds in which the removal of edges does not end are not excluded.
C170|proved|Items are places in blocks; alignment, sizes in bytes and failing allocation are left out.
C171|proved|xminextreme (used by another algorithm) is left out.
C172|proved|insertsegment, makevertexmap and markhull are parameters here.
C173|proved|C173_total_refuted: polygons with equal hashes are not comparable.
C174|proved|Exact arithmetic.
C175|proved|Exact arithmetic; a center with NaN or infinite coordinates is none. C175_shared_refuted: equal centers are stored twice. Delynoi itself calls the constructor with a UniqueList (TriangleDelaunayGenerator.cpp:106), not this one.

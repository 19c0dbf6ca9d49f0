{"id": "C01", "title": "Point list: returned index denotes the pushed element", "statement": "After UniqueList::push_back(x) the returned integer i is a valid index, the element stored at i is equivalent to x under operator<, and every element that was stored before keeps its index and value.", "quantifier": "every list reachable by any history of push_back/push_list/delete_element/clear over elements on which operator< is a strict weak order, and every x", "why_tests_cant": "the contract must hold after every history of insertions and for every element; tests only sample a few lists", "anchors": ["lib/utilities/include/utilities/UniqueList.h: UniqueList::push_back"]}
{"id": "C02", "title": "Point list: no duplicates after any history", "statement": "After any history of push_back, push_list, delete_element and clear, the list returned by getList has no two equivalent elements, and its set of elements is exactly the set of pushed, not-deleted ones, in order of first insertion.", "quantifier": "all finite operation histories, all element types with a strict weak order", "why_tests_cant": "unbounded histories", "anchors": ["lib/utilities/include/utilities/UniqueList.h: push_back, push_list, delete_element, clear, getList"]}
{"id": "C03", "title": "Point list: indices are stable and pushing is idempotent", "statement": "Pushing an element equivalent to one already present returns the index of the one present and does not change the list; an index returned once keeps denoting the same element after any later pushes.", "quantifier": "all lists, all later push histories", "why_tests_cant": "needs all later histories", "anchors": ["lib/utilities/include/utilities/UniqueList.h: push_back, push_list"]}
{"id": "C04", "title": "Point list: bulk push yields a decoding table", "statement": "push_list(v) returns one index per input element, each in range, and the element stored at the k-th returned index is equivalent to v[k].", "quantifier": "every list state and every input vector, with repetitions", "why_tests_cant": "ranges over all vectors incl. all repetition patterns", "anchors": ["lib/utilities/include/utilities/UniqueList.h: push_list"]}
{"id": "C05", "title": "Point list: contains / hasCommonElement agree with the content", "statement": "contains(x) is true exactly when an equivalent element is in the list; hasCommonElement(o) exactly when some element of o is.", "quantifier": "all histories of push_back/push_list/delete_element/clear, all x", "why_tests_cant": "all histories", "anchors": ["lib/utilities/include/utilities/UniqueList.h: contains, hasCommonElement"]}
{"id": "C06", "title": "Point list: delete_element removes exactly one element and re-indexes", "statement": "delete_element(x) removes the element equivalent to x (if any), keeps the order of all others, and later pushes of surviving elements return their new positions.", "quantifier": "all reachable lists, all x", "why_tests_cant": "all histories", "anchors": ["lib/utilities/include/utilities/UniqueList.h: delete_element"]}
{"id": "C07", "title": "Point list: pop_front keeps indices correct", "statement": "After pop_front, push_back of an element still present returns its current index.", "quantifier": "all reachable non-empty lists", "why_tests_cant": "a single test on a one-element list passes; the defect needs a later push", "anchors": ["lib/utilities/include/utilities/UniqueList.h: pop_front"]}
{"id": "C08", "title": "Tolerance equality of points", "statement": "Point == is reflexive (positive tolerance) and symmetric, and for any two points exactly one of a<b, b<a, a==b holds.", "quantifier": "all pairs of points, all tolerances", "why_tests_cant": "all coordinates, including pairs at the tolerance boundary", "anchors": ["delynoi/src/models/basic/Point.cpp: operator==, operator<"]}
{"id": "C09", "title": "Point ordering is a valid std::map ordering on tolerance-separated sets", "statement": "On any set of points where closeness (|dx|<tol, |dy|<tol) is transitive coordinate-wise, operator< is a strict weak ordering, as std::map/UniqueList require; without that restriction it is not.", "quantifier": "all point sets, all tolerances", "why_tests_cant": "needs all triples; the failing triples are thin", "anchors": ["delynoi/src/models/basic/Point.cpp: operator<", "lib/utilities/include/utilities/UniqueList.h: map"]}
{"id": "C10", "title": "Segment containment accepts every exact point", "statement": "A segment contains each of its endpoints and every convex combination of them, for any positive tolerance, and containment does not depend on the orientation of the segment.", "quantifier": "all segments, all parameters t in [0,1], all positive tolerances", "why_tests_cant": "continuum of points", "anchors": ["delynoi/src/models/basic/Segment.cpp: Segment::contains", "delynoi/src/models/basic/PointSegment.cpp: contains", "delynoi/src/models/basic/IndexSegment.cpp: contains"]}
{"id": "C11", "title": "Segment containment only accepts near points", "statement": "If a segment contains a point, the point lies in the segment's bounding box enlarged by the tolerance and twice the area of the triangle point/endpoints is below the tolerance.", "quantifier": "all segments and points", "why_tests_cant": "continuum", "anchors": ["delynoi/src/models/basic/Segment.cpp: Segment::contains"]}
{"id": "C12", "title": "Segment intersection is sound and complete up to the tolerance", "statement": "intersection returns true exactly when the supporting lines are not parallel and meet at parameters within [-tol,1+tol] on both segments, and the reported point lies on both supporting lines; parallel segments never report an intersection.", "quantifier": "all quadruples of points", "why_tests_cant": "continuum, degenerate cases", "anchors": ["delynoi/src/models/basic/Segment.cpp: Segment::intersects", "delynoi/src/models/basic/IndexSegment.cpp: intersection"]}
{"id": "C13", "title": "Segment intersection is symmetric", "statement": "Whether two segments intersect does not depend on which is the receiver, and the reported point is the same.", "quantifier": "all pairs of segments", "why_tests_cant": "continuum", "anchors": ["delynoi/src/models/basic/Segment.cpp: Segment::intersects"]}
{"id": "C14", "title": "Index segments are orientation independent keys", "statement": "IndexSegment(a,b)==IndexSegment(b,a), both have the same hash, == is an equivalence relation, and the hash field always agrees with the endpoints after construction, copy, add and orderCCW.", "quantifier": "all ints a,b and all histories of copy/add/orderCCW", "why_tests_cant": "2^64 pairs and all histories", "anchors": ["delynoi/src/models/basic/IndexSegment.cpp: IndexSegment, operator==, orderCCW, add", "delynoi/include/delynoi/voronoi/structures/mapdata.h: Key, SegmentHasher"]}
{"id": "C15", "title": "Index hashing has defined behaviour", "statement": "hash32 evaluates without signed overflow or other undefined behaviour for every point index.", "quantifier": "all 32-bit ints", "why_tests_cant": "2^32 values and UB is invisible to tests", "anchors": ["lib/utilities/src/utilities.cpp: hash32"]}
{"id": "C16", "title": "orderCCW orients a segment around a reference point", "statement": "After orderCCW(points,center) isCCW(points,center) holds unless the three points are collinear, the unordered endpoints are unchanged and a second call changes nothing.", "quantifier": "all segments, points, centers", "why_tests_cant": "continuum", "anchors": ["delynoi/src/models/basic/IndexSegment.cpp: orderCCW, isCCW"]}
{"id": "C17", "title": "The two area computations agree", "statement": "Polygon::getArea on a fresh polygon (fan triangulation) equals signedArea (shoelace) for every vertex list, convex or not.", "quantifier": "all polygons with in-range indices, any number of vertices", "why_tests_cant": "all polygons", "anchors": ["delynoi/src/models/polygon/Polygon.cpp: calculateArea, signedArea", "delynoi/src/utilities/geometryFunctions.cpp: area"]}
{"id": "C18", "title": "Signed area transforms correctly", "statement": "signedArea is invariant under cyclic rotation of the vertices and under translation of the points, and changes sign when the vertex order is reversed.", "quantifier": "all polygons", "why_tests_cant": "all polygons", "anchors": ["delynoi/src/models/polygon/Polygon.cpp: signedArea"]}
{"id": "C19", "title": "Clockwise test agrees with the signed area", "statement": "isClockwise is true exactly when signedArea is negative.", "quantifier": "all non-empty polygons", "why_tests_cant": "all polygons", "anchors": ["delynoi/src/models/polygon/Polygon.cpp: isClockwise"]}
{"id": "C20", "title": "fixCCW normalises orientation", "statement": "After fixCCW the signed area is non-negative, the absolute area, vertex multiset and cyclic adjacency are preserved, the equality hash is unchanged, and a second call is a no-op.", "quantifier": "all polygons", "why_tests_cant": "all polygons", "anchors": ["delynoi/src/models/polygon/Polygon.cpp: fixCCW"]}
{"id": "C21", "title": "Cached area is never stale for fixed points", "statement": "In any history of getArea, getDiameter, fixCCW and copies with the same mesh points, getArea returns the signed area of the current vertex order.", "quantifier": "all histories", "why_tests_cant": "all histories", "anchors": ["delynoi/src/models/polygon/Polygon.cpp: getArea, fixCCW"]}
{"id": "C22", "title": "Centroid accessor", "statement": "getCentroid returns the area centroid of the polygon.", "quantifier": "all non-degenerate polygons", "why_tests_cant": "all polygons", "anchors": ["delynoi/src/models/polygon/Polygon.cpp: getCentroid, calculateCentroid", "delynoi/src/models/basic/Point.cpp: isValid"]}
{"id": "C23", "title": "Centroid formula", "statement": "The centroid formula used by the library is translation-equivariant, orientation independent, and for triangles equals the vertex mean.", "quantifier": "all polygons of non-zero area", "why_tests_cant": "all polygons", "anchors": ["delynoi/src/models/polygon/Polygon.cpp: calculateCentroid"]}
{"id": "C24", "title": "Diameter is the largest vertex distance", "statement": "getDiameter returns the maximum distance between two vertices of the polygon.", "quantifier": "all polygons with at least two vertices", "why_tests_cant": "rotating calipers has many degenerate configurations", "anchors": ["delynoi/src/models/polygon/Polygon.cpp: calculateDiameter", "delynoi/src/utilities/convexHull.cpp: rotatingCalipers"]}
{"id": "C25", "title": "Convex hull chains bound the input", "statement": "The upper and lower chains consist of input points, start at the leftmost-lowest and end at the rightmost-highest point, turn strictly, and every input point lies on or below the upper and on or above the lower chain.", "quantifier": "all non-empty point lists", "why_tests_cant": "degenerate configurations", "anchors": ["delynoi/src/utilities/convexHull.cpp: convexHull"]}
{"id": "C26", "title": "getMaxDistance", "statement": "getMaxDistance returns the longest edge length of the polygon, which is at most the diameter (the header promises the largest distance between any two vertices).", "quantifier": "all polygons", "why_tests_cant": "all polygons", "anchors": ["delynoi/src/models/polygon/Polygon.cpp: getMaxDistance"]}
{"id": "C27", "title": "Point-in-polygon decides crossing parity", "statement": "containsPoint returns true exactly when the number of polygon edges crossed by the leftward horizontal ray is odd, or the point is on an edge up to the tolerance.", "quantifier": "all polygons without adjacent coincident vertices, all points", "why_tests_cant": "continuum", "anchors": ["delynoi/src/models/polygon/Polygon.cpp: containsPoint, inEdges"]}
{"id": "C28", "title": "Point-in-polygon is right for convex polygons", "statement": "For a strictly convex counter-clockwise polygon every interior point is contained, and a point strictly outside is contained only if it is within tolerance of an edge.", "quantifier": "all strictly convex polygons of any size, all points", "why_tests_cant": "continuum", "anchors": ["delynoi/src/models/polygon/Polygon.cpp: containsPoint"]}
{"id": "C29", "title": "Point-in-polygon does not depend on the start vertex or orientation", "statement": "Rotating or reversing the vertex list does not change containsPoint.", "quantifier": "all polygons without coincident adjacent vertices", "why_tests_cant": "all polygons", "anchors": ["delynoi/src/models/polygon/Polygon.cpp: containsPoint"]}
{"id": "C30", "title": "Holes and polygons agree on containment", "statement": "Hole::containsPoint on a polygonal or circular hole gives the same answer as Polygon::containsPoint on the polygon with the same points.", "quantifier": "all holes, all points", "why_tests_cant": "continuum", "anchors": ["delynoi/include/delynoi/models/hole/Hole.h: containsPoint", "delynoi/src/models/polygon/Polygon.cpp: containsPoint"]}
{"id": "C31", "title": "Edge lookup", "statement": "containerEdge returns the first polygon edge containing the point or (-1,-1) if there is none; inEdges is true exactly when some edge contains the point.", "quantifier": "all polygons with non-negative indices, all points", "why_tests_cant": "continuum", "anchors": ["delynoi/src/models/polygon/Polygon.cpp: containerEdge, inEdges"]}
{"id": "C32", "title": "containsEdge recognises exactly the polygon's edges", "statement": "For a polygon with pairwise distinct vertices and at least two of them, containsEdge(s) is true exactly when s equals (unordered) one of the segments returned by getSegments.", "quantifier": "all polygons with distinct vertices", "why_tests_cant": "all polygons", "anchors": ["delynoi/src/models/polygon/Polygon.cpp: containsEdge, getSegments"]}
{"id": "C33", "title": "Convexity test", "statement": "isConvex accepts every convex polygon and rejects every polygon with two turns of opposite sign.", "quantifier": "all polygons with at least three vertices", "why_tests_cant": "all polygons", "anchors": ["delynoi/src/models/polygon/Polygon.cpp: isConvex"]}
{"id": "C34", "title": "Polygon equality", "statement": "Polygons with the same vertices in any order compare equal; polygons that compare equal have the same vertices.", "quantifier": "all pairs of polygons", "why_tests_cant": "hash collisions", "anchors": ["delynoi/src/models/polygon/Polygon.cpp: operator==, calculateHash"]}
{"id": "C35", "title": "Self-intersecting input is rejected", "statement": "Constructing a polygon, or mutating one, from a self-intersecting vertex list raises invalid_argument.", "quantifier": "all vertex lists", "why_tests_cant": "all inputs", "anchors": ["delynoi/src/models/polygon/Polygon.cpp: Polygon(...), mutate, isSelfIntersecting"]}
{"id": "C36", "title": "Failed mutate leaves a consistent polygon", "statement": "If mutate throws, the polygon (vertex list, hash, cached area) is unchanged or at least mutually consistent.", "quantifier": "all polygons and all rejected inputs", "why_tests_cant": "exception paths", "anchors": ["delynoi/src/models/polygon/Polygon.cpp: mutate", "delynoi/src/models/Region.cpp: mutate"]}
{"id": "C37", "title": "Circumcenter", "statement": "The circumcenter of a non-degenerate triangle is equidistant from its three vertices, is the only such point, and does not depend on the vertex order.", "quantifier": "all non-collinear vertex triples", "why_tests_cant": "continuum", "anchors": ["delynoi/src/models/polygon/Triangle.cpp: calculateCircumcenter"]}
{"id": "C38", "title": "Third point", "statement": "For a triangle with distinct vertices and any of its edges in either orientation, thirdPoint returns the vertex not on the edge.", "quantifier": "all triangles and edges", "why_tests_cant": "all index values", "anchors": ["delynoi/src/models/polygon/Triangle.cpp: thirdPoint"]}
{"id": "C39", "title": "Ear triangulation terminates and conserves area", "statement": "EarTriangulationGenerator::triangulate terminates, every triangle uses only vertices of the polygon, at most n-2 triangles are produced and, when n-2 are produced, their signed areas sum to the polygon's signed area.", "quantifier": "all polygons", "why_tests_cant": "all polygons", "anchors": ["delynoi/src/triangulation/EarTriangulationGenerator.cpp: triangulate, getEar"]}
{"id": "C40", "title": "Ear triangulation covers the polygon with positively oriented triangles", "statement": "For every simple counter-clockwise polygon the result is n-2 counter-clockwise triangles.", "quantifier": "all simple counter-clockwise polygons", "why_tests_cant": "needs all non-convex polygons", "anchors": ["delynoi/src/triangulation/EarTriangulationGenerator.cpp: getEar"]}
{"id": "C41", "title": "Center triangulation", "statement": "On a convex polygon center triangulation appends exactly one point (the vertex average), returns one triangle per edge, each made of that edge and the new point, each non-negatively oriented, with areas summing to the polygon area; on a polygon failing the convexity test it throws and changes nothing.", "quantifier": "all polygons", "why_tests_cant": "all polygons", "anchors": ["delynoi/src/triangulation/CenterTriangulationGenerator.cpp: triangulate"]}
{"id": "C42", "title": "Bounding box accessors", "statement": "For any two corners, xMin<=xMax, width=xMax-xMin, height=yMax-yMin, contains(p) is membership in the closed rectangle, all four corners are contained and the four segments form a closed chain of the corners.", "quantifier": "all pairs of corners", "why_tests_cant": "continuum", "anchors": ["delynoi/src/models/polygon/BoundingBox.cpp"]}
{"id": "C43", "title": "Region box is the tight box", "statement": "Region::getBox contains every region vertex and each side touches a vertex, for vertices within the representable range.", "quantifier": "all non-empty regions", "why_tests_cant": "all regions; range limits", "anchors": ["delynoi/src/models/Region.cpp: getBox"]}
{"id": "C44", "title": "Seeds are inside the region and outside holes", "statement": "After generateSeedPoints, addSeedPoints or addSeedsFromFile every seed returned by getSeedPoints is contained in the region and in no hole, and no seed satisfying this was dropped; order is kept.", "quantifier": "all regions, hole sets, generators, seed lists", "why_tests_cant": "all inputs", "anchors": ["delynoi/src/models/Region.cpp: clean, generateSeedPoints, addSeedPoints, addSeedsFromFile"]}
{"id": "C45", "title": "Seeds stay valid over the life of a region", "statement": "At every point of any history of region operations every stored seed is inside the region and outside all holes.", "quantifier": "all operation histories", "why_tests_cant": "histories mixing addHole/mutate with seeding", "anchors": ["delynoi/src/models/Region.cpp: addHole, mutate, clean"]}
{"id": "C46", "title": "addSeedPoints accumulates", "statement": "addSeedPoints adds the given points to the seeds already present.", "quantifier": "all regions with seeds", "why_tests_cant": "stateful", "anchors": ["delynoi/src/models/Region.cpp: addSeedPoints"]}
{"id": "C47", "title": "Copying a region preserves it", "statement": "A copy of a region has the same vertices, holes and seed points.", "quantifier": "all regions", "why_tests_cant": "stateful", "anchors": ["delynoi/src/models/Region.cpp: Region(const Region&)"]}
{"id": "C48", "title": "Region segments index region points", "statement": "Every index in getSegments is a valid index into getRegionPoints, and each segment of the boundary or of the k-th hole joins the points it joined in that boundary or hole.", "quantifier": "all regions with any number of holes of any size", "why_tests_cant": "unbounded number of holes", "anchors": ["delynoi/src/models/Region.cpp: getSegments, getRegionPoints", "delynoi/include/delynoi/models/hole/Hole.h: getSegments"]}
{"id": "C49", "title": "addHole decision", "statement": "A hole crossing the boundary replaces the region vertices by the clipped outline; otherwise the hole is stored if its center is in the region, else invalid_argument is thrown and the region is unchanged; no case adds the hole twice or alters the seeds.", "quantifier": "all regions and holes, any clipping library result", "why_tests_cant": "depends on all clipper results", "anchors": ["delynoi/src/models/Region.cpp: addHole"]}
{"id": "C50", "title": "Clipper scaling error is bounded", "statement": "Converting a coordinate to Clipper's integer grid and back changes it by less than 1/scale and never away from zero, and is defined exactly when the scaled value fits an int.", "quantifier": "all coordinates and scales", "why_tests_cant": "continuum, overflow", "anchors": ["delynoi/src/models/Region.cpp: addHole", "delynoi/src/models/hole/clipper/ClipperWrapper.cpp: scalePoint"]}
{"id": "C51", "title": "Polygonal holes are located by their centroid", "statement": "The center of a PolygonalHole is inside the hole (its centroid).", "quantifier": "all polygonal holes", "why_tests_cant": "all polygons", "anchors": ["delynoi/src/models/hole/PolygonalHole.cpp", "delynoi/src/models/polygon/Polygon.cpp: getCentroid"]}
{"id": "C52", "title": "Grid generation", "statement": "generate(box,nX,nY) appends exactly nX*nY points, row by row; with identity functors and nX,nY>=2 they all lie in the box, the extreme ones on its sides, equally spaced.", "quantifier": "all boxes, all nX,nY", "why_tests_cant": "all sizes", "anchors": ["delynoi/src/models/generator/PointGenerator.cpp: generate"]}
{"id": "C53", "title": "Generation with a single row or column", "statement": "generateSeedPoints with constant() functors and nX=1 or nY=1 produces the points of that single row or column.", "quantifier": "all boxes, nX=1 or nY=1", "why_tests_cant": "division by zero produces NaN", "anchors": ["delynoi/src/models/generator/PointGenerator.cpp: generate", "delynoi/src/models/Region.cpp: generateSeedPoints"]}
{"id": "C54", "title": "Alternating generator", "statement": "constantAlternating leaves the first batch unchanged, displaces the whole second batch by half the spacing, and so on alternating for every further batch.", "quantifier": "all batch counts and sizes", "why_tests_cant": "defect appears in the third row only", "anchors": ["delynoi/src/models/generator/functions/FunctorClasses.cpp: ConstantAlternating"]}
{"id": "C55", "title": "Displacing generator", "statement": "displace_points(delta) displaces exactly the odd-numbered calls by delta/2 and leaves the others unchanged.", "quantifier": "all call histories", "why_tests_cant": "all histories", "anchors": ["delynoi/src/models/generator/functions/FunctorClasses.cpp: DisplaceDelta"]}
{"id": "C56", "title": "Noise is bounded", "statement": "random_double_noise(f,min,max) changes f by an amount of absolute value in [min,max] (0<=min<=max), for every random sequence; functor composition preserves f's own state sequence.", "quantifier": "all random sequences, all inner functors", "why_tests_cant": "all random outcomes", "anchors": ["delynoi/src/models/generator/noise/RandomDoubleNoise.cpp", "delynoi/src/models/generator/noise/RandomIntegerNoise.cpp"]}
{"id": "C57", "title": "Circle discretization terminates with points on the circle", "statement": "discretizeCircle terminates, yields one point per degree step, all on the circle; the number of points equals the configured grade.", "quantifier": "all grades, radii and centers", "why_tests_cant": "all grades; non-termination", "anchors": ["delynoi/src/models/polygon/Circle.cpp: discretizeCircle"]}
{"id": "C58", "title": "Arc generation", "statement": "generateArcPoints returns grade+1 points, all at distance radius from the center, the first at initAngle and the last at endAngle.", "quantifier": "all arcs and grades", "why_tests_cant": "continuum", "anchors": ["delynoi/src/utilities/delynoi_utilities.cpp: generateArcPoints"]}
{"id": "C59", "title": "Segment map is a map on unordered index pairs", "statement": "After any history of insertions, looking up (a,b) or (b,a) gives the same neighbours: the first inserted polygon and the last other inserted one (or -1); size counts distinct unordered pairs; lookups of different pairs do not interfere.", "quantifier": "all insertion histories", "why_tests_cant": "all histories, hash collisions", "anchors": ["delynoi/src/models/neighbourhood/SegmentMap.cpp"]}
{"id": "C60", "title": "Querying neighbours is read-only", "statement": "Mesh::getNeighbours / SegmentMap::get of a segment that is not in the mesh reports that there is none and leaves the mesh unchanged.", "quantifier": "all meshes and segments", "why_tests_cant": "default insertion of an uninitialised record", "anchors": ["delynoi/src/models/neighbourhood/SegmentMap.cpp: get", "delynoi/include/delynoi/models/Mesh.h: getNeighbours"]}
{"id": "C61", "title": "Point map collects all polygons of a point in order", "statement": "After any history of insertions over tolerance-separated points, get(p) lists exactly the polygon indices inserted for points equal to p, in insertion order.", "quantifier": "all insertion histories", "why_tests_cant": "all histories", "anchors": ["delynoi/src/models/neighbourhood/PointMap.cpp"]}
{"id": "C62", "title": "Triangulation is computed once per generator", "statement": "Over any sequence of calls on one TriangleDelaunayGenerator the external triangulator runs at most once.", "quantifier": "all call sequences", "why_tests_cant": "all sequences", "anchors": ["delynoi/src/voronoi/TriangleDelaunayGenerator.cpp: getConstrainedDelaunayTriangulation, getConformingDelaunay"]}
{"id": "C63", "title": "Each request gets the kind of triangulation asked for", "statement": "Each call returns the triangulation for its own switches and restricted segments regardless of earlier calls.", "quantifier": "all call sequences", "why_tests_cant": "order dependence", "anchors": ["delynoi/src/voronoi/TriangleDelaunayGenerator.cpp: getConformingDelaunay, getConstrainedDelaunayTriangulation"]}
{"id": "C64", "title": "Triangulator input is index-consistent", "statement": "Every segment index passed to the triangulator is a valid point index, and denotes a point equal to the region vertex it stands for; the point list has no duplicates.", "quantifier": "all seeds and regions on tolerance-separated coordinates", "why_tests_cant": "all inputs", "anchors": ["delynoi/src/voronoi/TriangleDelaunayGenerator.cpp: callTriangle"]}
{"id": "C65", "title": "Restricted segments are passed correctly", "statement": "Every restricted segment given to getConstrainedDelaunayTriangulation is passed to the triangulator as valid point indices of its endpoints.", "quantifier": "all restricted segment lists", "why_tests_cant": "depends on data", "anchors": ["delynoi/src/voronoi/TriangleDelaunayGenerator.cpp: callTriangle"]}
{"id": "C66", "title": "Edge records list the incident triangles", "statement": "For every valid triangulator output, after import each edge record names exactly the triangles containing that edge (one or two), and the reported Delaunay neighbours are those.", "quantifier": "all valid triangulations of any size", "why_tests_cant": "all triangulations", "anchors": ["delynoi/src/voronoi/TriangleDelaunayGenerator.cpp: callTriangle", "delynoi/src/models/neighbourhood/EdgeData.cpp"]}
{"id": "C67", "title": "Delaunay mesh indices are valid", "statement": "In the mesh returned for a triangulation with pairwise different points, every triangle refers to the points the triangulator put there, and the point map lists for each point exactly the triangles using it.", "quantifier": "all valid triangulations", "why_tests_cant": "all triangulations", "anchors": ["delynoi/include/delynoi/voronoi/TriangleDelaunayGenerator.h: initializeMesh"]}
{"id": "C68", "title": "Delaunay mesh survives coincident points", "statement": "If the triangulator returns points equal up to tolerance, the merged mesh still refers to the right coordinates.", "quantifier": "all triangulations with coincident points", "why_tests_cant": "rare data", "anchors": ["delynoi/include/delynoi/voronoi/TriangleDelaunayGenerator.h: initializeMesh"]}
{"id": "C69", "title": "Voronoi construction terminates", "statement": "For every valid triangulation the walk around each point terminates and never reads out of range.", "quantifier": "all valid triangulations of any size", "why_tests_cant": "non-termination over all inputs", "anchors": ["delynoi/src/voronoi/DelaunayToVoronoi.cpp: DelaunayToVoronoi", "delynoi/src/models/polygon/Triangle.cpp: nextEdge, thirdPoint"]}
{"id": "C70", "title": "Each Voronoi cell collects the triangles around its point", "statement": "The walk around a point visits each triangle at most once, visits only triangles incident to the point, and visits all of them when they form one fan; the cell consists of their circumcenters (plus edge midpoints and possibly the point itself on the boundary).", "quantifier": "all valid triangulations", "why_tests_cant": "all inputs", "anchors": ["delynoi/src/voronoi/DelaunayToVoronoi.cpp: DelaunayToVoronoi"]}
{"id": "C71", "title": "Voronoi mesh is index-consistent", "statement": "There is one cell per used point, cell vertex lists have no repeated index, and all indices in cells and in the edge map are valid indices of the mesh's point list.", "quantifier": "all valid triangulations", "why_tests_cant": "all inputs", "anchors": ["delynoi/src/voronoi/DelaunayToVoronoi.cpp: DelaunayToVoronoi"]}
{"id": "C72", "title": "Mesh file round trip", "statement": "A mesh written with printInFile and read back with createFromFile has the same points and polygons.", "quantifier": "all meshes", "why_tests_cant": "all meshes", "anchors": ["delynoi/include/delynoi/models/Mesh.h: printInStream, createFromStream"]}
{"id": "C73", "title": "Mesh reader", "statement": "createFromStream on a file consisting of a point section and a polygon section (indices offset by startIndex) yields exactly those polygons and registers each polygon edge with the polygon's index.", "quantifier": "all well-formed files, all start indices", "why_tests_cant": "all files", "anchors": ["delynoi/include/delynoi/models/Mesh.h: createFromStream"]}
{"id": "C74", "title": "Printed indices are readable", "statement": "An index written by getString is read back by atoi as the same number.", "quantifier": "all indices", "why_tests_cant": "needs indices above 999999", "anchors": ["lib/utilities/include/utilities/utilities.h: toString", "delynoi/src/models/polygon/Polygon.cpp: getString", "delynoi/src/models/basic/IndexSegment.cpp: getString"]}
{"id": "C75", "title": "Output precision setting takes effect", "statement": "DelynoiConfig::setPrecision controls the number of decimals written by printInFile.", "quantifier": "all meshes, all precisions", "why_tests_cant": "all", "anchors": ["delynoi/include/delynoi/models/Mesh.h: printInFile", "delynoi/src/models/basic/Point.cpp: getString"]}
{"id": "C76", "title": "Token splitting", "statement": "splitBySpaces returns the maximal runs of non-space characters in order, none of them empty; splitting the space-joined list of such tokens gives the list back.", "quantifier": "all strings", "why_tests_cant": "all strings", "anchors": ["lib/utilities/src/utilities.cpp: split, splitBySpaces"]}
{"id": "C77", "title": "Configuration is last-write-wins and independent", "statement": "Each getter returns the last value set (or the documented default) and is unaffected by other setters.", "quantifier": "all setter histories", "why_tests_cant": "all histories", "anchors": ["delynoi/src/config/DelynoiConfig.cpp"]}
{"id": "C78", "title": "Cartesian angles are normalised", "statement": "The Angle wrapper maps every angle to an equivalent one (modulo 180) in [0,180); cartesianAngle lies in (0,360].", "quantifier": "all angles", "why_tests_cant": "continuum", "anchors": ["delynoi/include/delynoi/models/basic/Angle.h", "lib/utilities/src/utilities.cpp: degrees"]}
{"id": "C79", "title": "indexOf", "statement": "indexOf returns the position of the first equal element, or -1 if none.", "quantifier": "all vectors and elements", "why_tests_cant": "all vectors", "anchors": ["lib/utilities/include/utilities/utilities.h: indexOf"]}
{"id": "C80", "title": "Reading seeds from a file", "statement": "addSeedsFromFile on a file with a count line followed by that many coordinate lines appends exactly those points, in order, before filtering.", "quantifier": "all well-formed files", "why_tests_cant": "all files", "anchors": ["delynoi/src/models/Region.cpp: addSeedsFromFile"]}
{"id": "C81", "title": "Trigonometric functors", "statement": "sine(a,f,p) is bounded by |a|, has period 2/f and value a*sin(p degrees) at 0; cosine(a,f,p) equals sine(a,f,p+90); normalize returns the unit vector of the same direction for every non-zero vector.", "quantifier": "all amplitudes, frequencies, phases and arguments", "why_tests_cant": "continuum", "anchors": ["delynoi/src/models/generator/functions/FunctorClasses.cpp: Sine, Cosine", "lib/utilities/src/utilities.cpp: radian, normalize"]}
{"id": "C82", "title": "Voronoi generator", "statement": "TriangleVoronoiGenerator succeeds for every well-formed region and every valid answer of the triangulator: it calls the triangulator once, with the conforming switches and the region's input; getTriangulation has the triangulator's points and triangles in order, and its point map lists for each point exactly the triangles that use it; getMesh is the Voronoi mesh of that triangulation.", "quantifier": "all regions, seed lists and valid triangulations", "why_tests_cant": "the triangulator's answers and the regions are unbounded", "anchors": ["delynoi/src/voronoi/TriangleVoronoiGenerator.cpp: TriangleVoronoiGenerator, getMesh, getTriangulation", "delynoi/include/delynoi/voronoi/TriangleDelaunayGenerator.h: initializeMesh"]}
{"id": "C83", "title": "Voronoi edge map", "statement": "The edge map of the Voronoi mesh records the sides of the cells: every recorded edge joins two vertices of the cells it names; for a cell whose path of circumcenters does not come back to a point it left, the edges naming it are sides of it and every side of it is recorded with it; and the two cells recorded for the edge between the circumcenters of two adjacent triangles are those of the ends of the Delaunay edge they share.", "quantifier": "all valid triangulations and all cells", "why_tests_cant": "all triangulations; a test sees a few edges of a few meshes", "anchors": ["delynoi/src/voronoi/DelaunayToVoronoi.cpp: DelaunayToVoronoi", "delynoi/src/models/neighbourhood/SegmentMap.cpp: insert"]}
{"id": "C84", "title": "Voronoi point map", "statement": "The point map of the Voronoi mesh lists for each mesh point exactly the cells that have a vertex there, each once.", "quantifier": "all valid triangulations and all mesh points", "why_tests_cant": "all triangulations", "anchors": ["delynoi/src/voronoi/DelaunayToVoronoi.cpp: DelaunayToVoronoi", "delynoi/src/models/neighbourhood/PointMap.cpp: insert, get"]}
{"id": "C85", "title": "Delaunay triangulation of a polygon", "statement": "DelaunayTriangulationGenerator::triangulate returns triangles whose indices refer to the given point list: each triangle has the coordinates the triangulator gave it.", "quantifier": "all polygons, point lists and triangulator answers", "why_tests_cant": "depends on the numbering of the triangulator for unused or additional points", "anchors": ["delynoi/src/triangulation/DelaunayTriangulationGenerator.cpp: triangulate"]}
{"id": "C86", "title": "Copies of meshes", "statement": "A copy of a mesh is independent of the original: no operation on one changes what is seen through the other.", "quantifier": "all programs that declare, copy and read meshes", "why_tests_cant": "aliasing shows up only for particular operation sequences", "anchors": ["delynoi/include/delynoi/models/Mesh.h: Mesh, createFromStream"]}
{"id": "C87", "title": "Arrays for the triangulator", "statement": "Filling the C arrays for the triangulator and reading its arrays never leaves their bounds; every element is initialised, the announced counts are the array sizes, and the contents are the points, segments and hole centers (read: points, edges, triangles) in order.", "quantifier": "all regions with any holes, all seed lists, restricted segments and answers", "why_tests_cant": "memory errors need not show in a test", "anchors": ["delynoi/src/voronoi/TriangleDelaunayGenerator.cpp: callTriangle"]}
{"id": "C88", "title": "Segment equality, middle point, collinearity, average and vertex test mean what they say", "statement": "Two point segments are equal exactly when their ends are pairwise within the tolerance in one of the two orders (so direction does not matter, and the relation is symmetric and reflexive); the middle point is equally far from both ends and on the segment; collinearity is the bound on the doubled area and independent of the order of the points; getAverage is the point with zero total displacement to the vertices; isVertex is membership.", "quantifier": "all segments, points, polygons", "why_tests_cant": "continuum of inputs, symmetric variants", "anchors": ["delynoi/src/models/basic/PointSegment.cpp: operator==", "delynoi/src/models/basic/IndexSegment.cpp: middlePoint", "delynoi/src/utilities/geometryFunctions.cpp: collinear", "delynoi/src/models/polygon/Polygon.cpp: getAverage, isVertex"]}
{"id": "C89", "title": "Point comparison in binary64 arithmetic", "statement": "With every operation rounded to IEEE binary64, == and < on points give the same answers as in exact arithmetic (points compare equal exactly when both coordinates differ by less than the tolerance), so that a UniqueList of points goes through the same states under every history.", "quantifier": "all points with binary64 coordinates, all histories of operations", "why_tests_cant": "2^128 pairs; the failing ones are a hair's breadth from the tolerance", "anchors": ["delynoi/src/models/basic/Point.cpp: operator==, operator<", "lib/utilities/include/utilities/UniqueList.h"]}
{"id": "C90", "title": "Sign of the orientation test in binary64 arithmetic", "statement": "orientation/area2 computed with rounding have the sign of the exact value (hence isCCW and collinear decide correctly), with an explicit error bound.", "quantifier": "all triples of points with binary64 coordinates", "why_tests_cant": "errors occur only for nearly collinear triples", "anchors": ["delynoi/src/utilities/delynoi_utilities.cpp: orientation, crossProduct", "delynoi/src/utilities/geometryFunctions.cpp: area2, collinear"]}
{"id": "C91", "title": "Area and orientation of polygons in binary64 arithmetic", "statement": "The computed polygon area is within an explicit error bound of the exact area, and isClockwise, hence fixCCW, recognises the orientation of every polygon with non-zero area.", "quantifier": "all polygons with binary64 coordinates, any number of vertices", "why_tests_cant": "rounding errors grow with the number of vertices and the distance from the origin", "anchors": ["delynoi/src/utilities/geometryFunctions.cpp: area", "delynoi/src/models/polygon/Polygon.cpp: isClockwise, fixCCW"]}
{"id": "C92", "title": "Middle point and average in binary64 arithmetic", "statement": "The computed middle point lies in the bounding box of the ends, does not depend on the direction and is the point itself for a degenerate segment; the computed average lies in the bounding box of the vertices, with an explicit error bound.", "quantifier": "all segments and polygons with binary64 coordinates", "why_tests_cant": "failures differ from the correct value by one unit in the last place", "anchors": ["delynoi/src/models/basic/IndexSegment.cpp: middlePoint", "delynoi/src/models/polygon/Polygon.cpp: getAverage"]}
{"id": "C93", "title": "Segments contain their ends and middle in binary64 arithmetic", "statement": "Segment::contains, computed with rounding, accepts both ends and the middle point of the segment, and containsPoint accepts every vertex of the polygon.", "quantifier": "all segments and polygons, any positive tolerance", "why_tests_cant": "depends on cancellation of rounding errors", "anchors": ["delynoi/src/models/basic/Segment.cpp: contains", "delynoi/src/models/polygon/Polygon.cpp: containsPoint"]}
{"id": "C94", "title": "Grid lines in binary64 arithmetic", "statement": "The grid lines of PointGenerator computed with rounding start at the lower bound, are in order, stay within the box and are within an explicit bound of the exact lines; no seed of a grid over a rectangle is rejected by the rectangle.", "quantifier": "all boxes with binary64 bounds, all numbers of grid lines", "why_tests_cant": "only particular sizes and counts overshoot", "anchors": ["delynoi/src/models/generator/PointGenerator.cpp: generate", "delynoi/src/models/polygon/BoundingBox.cpp: getWidth"]}
{"id": "C95", "title": "Seeding a rectangle keeps the whole grid", "statement": "In exact arithmetic, a rectangular region seeded with an nX by nY grid by constant() functors stores exactly the nX*nY grid points, row by row, pairwise different; containsPoint accepts every point of the closed rectangle.", "quantifier": "all rectangles at least the tolerance wide and high with coordinates within 2^63, all nX, nY >= 2, both evaluation orders", "why_tests_cant": "the outermost rows and columns lie exactly on the sides for every rectangle and grid size", "anchors": ["delynoi/src/models/Region.cpp: generateSeedPoints", "delynoi/src/models/Region.cpp: clean", "delynoi/src/models/generator/PointGenerator.cpp: generate", "delynoi/src/models/polygon/Polygon.cpp: containsPoint"]}
{"id": "C96", "title": "Boundary flags of mesh points", "statement": "In a Voronoi mesh a point reports isInBoundary exactly if it lies on the boundary of the triangulated domain: flagged points are middles or ends of boundary edges, unflagged points are circumcenters inside; computing the flags never changes the mesh. In the triangulation's own mesh the flags are the markers reported by Triangle.", "quantifier": "all valid triangulations, all positive tolerances", "why_tests_cant": "a circumcenter on the boundary merges with the middle of an edge and keeps its own flag only for particular triangles", "anchors": ["delynoi/src/voronoi/DelaunayToVoronoi.cpp: getCircumcenter", "delynoi/src/voronoi/DelaunayToVoronoi.cpp: getMesh", "delynoi/src/voronoi/TriangleDelaunayGenerator.cpp: callTriangle", "delynoi/src/models/basic/Point.cpp: isInBoundary"]}
{"id": "C97", "title": "An accepted mutate leaves nothing stale", "statement": "When mutate accepts the new points, the polygon's vertices, area, diameter and hash are those of the new points, whatever was cached before; mutate throws exactly for self-intersecting points; a region keeps its holes and seeds and answers containment for the new outline.", "quantifier": "all polygons with arbitrary caches, all new point lists", "why_tests_cant": "stale caches show only for particular histories", "anchors": ["delynoi/src/models/polygon/Polygon.cpp: mutate", "delynoi/src/models/Region.cpp: mutate"]}
{"id": "C98", "title": "Cells lie in the Voronoi regions of their points", "statement": "If the triangulation is Delaunay (empty circumcircles) and no boundary edge at a point is encroached (the circle on it as diameter is empty), every point of the convex hull of the cell's vertices is at least as near to the cell's own point as to any other point, up to the coordinate tolerance; two cells overlap at most in a strip around the bisector of their points. Without the condition on boundary edges a cell leaves its region.", "quantifier": "all valid Delaunay triangulations, all cells, all points of a cell, all positive tolerances", "why_tests_cant": "being nearest is a statement about all points of the plane and all sites", "anchors": ["delynoi/src/voronoi/DelaunayToVoronoi.cpp: getMesh", "delynoi/src/voronoi/DelaunayToVoronoi.cpp: getCircumcenter"]}
{"id": "C99", "title": "The cells of a Voronoi mesh have the area of the domain", "statement": "For a conforming Delaunay triangulation without overlaps and a tolerance that merges nothing: the path around a point never returns to a vertex it left, so the mesh's edge map records exactly the sides of the cells; the area of a cell is the sum of its parts in the triangles around its point; the areas of all cells add up to the area of all triangles. Boundary cells that are closed by a straight segment although the boundary bends by less than the tolerance may be off by half the tolerance each.", "quantifier": "all valid conforming Delaunay triangulations, all cells, all positive tolerances", "why_tests_cant": "a wrong vertex order or a lost piece shows only for particular configurations, and the total area is a statement about arbitrarily many cells", "anchors": ["delynoi/src/voronoi/DelaunayToVoronoi.cpp: getMesh", "delynoi/src/voronoi/DelaunayToVoronoi.cpp: getCircumcenter"]}
{"id": "C100", "title": "Cells are star-shaped, inner cells are the Voronoi regions", "statement": "For a conforming Delaunay triangulation without overlaps and a tolerance that merges nothing: the sides of every cell run counter-clockwise around its point; the cell of a point that is not on the boundary is convex and is exactly the set of points of the plane that are at least as near to it as to every other point.", "quantifier": "all valid conforming Delaunay triangulations, all cells, all points of the plane, all positive tolerances", "why_tests_cant": "equality of the polygon with the Voronoi region is a statement about all points of the plane", "anchors": ["delynoi/src/voronoi/DelaunayToVoronoi.cpp: getMesh", "delynoi/src/voronoi/DelaunayToVoronoi.cpp: getCircumcenter", "delynoi/src/models/polygon/Polygon.cpp: fixCCW"]}
{"id": "C101", "title": "The input file for Triangle describes the points and the region", "statement": "writeTriangleInputFile is undefined exactly when an end of a region segment is not an index of regionIndex, and otherwise writes a text with exactly one meaning as a .poly file: its vertices are the given points and its holes the hole centers, both rounded to six significant digits, numbered from 0, and its segments are those of the region translated by regionIndex, so that they join the same points when regionIndex says where the points of the region are.", "quantifier": "all point lists, regions and index lists", "why_tests_cant": "the text depends on all coordinates and indices; that it has one meaning is a statement about all texts", "anchors": ["delynoi/src/voronoi/TriangleDelaunayGenerator.cpp: writeTriangleInputFile", "delynoi/src/models/Region.cpp: getSegments"]}
{"id": "C102", "title": "A region file lists points, seeds and segments, and gives back the seeds", "statement": "Region::printInFile writes the number of points, the points of the outline and of the holes and the seeds (six significant digits), and the segments; reading that file into the region without its seeds with addSeedsFromFile restores exactly the seeds.", "quantifier": "all regions", "why_tests_cant": "a round trip over all coordinates", "anchors": ["delynoi/src/models/Region.cpp: printInFile", "delynoi/src/models/Region.cpp: addSeedsFromFile"]}
{"id": "C103", "title": "Printed neighbourhood maps list every entry", "statement": "SegmentMap::printInFile writes one line per entry with the four indices, in any traversal order, and is undefined exactly when an entry has an uninitialised neighbour; PointMap::printInFile writes one line per point with the point to six significant digits and all its neighbours; the strings of edges and point segments are those of their ends.", "quantifier": "all maps, all traversal orders, indices below a million where they are converted to double", "why_tests_cant": "hash order and content are arbitrary", "anchors": ["delynoi/src/models/neighbourhood/SegmentMap.cpp: printInFile", "delynoi/src/models/neighbourhood/PointMap.cpp: printInFile", "delynoi/src/models/neighbourhood/NeighboursBySegment.cpp: getString", "delynoi/src/models/neighbourhood/EdgeData.cpp: getString"]}
{"id": "C104", "title": "Triangulations fill the polygon exactly", "statement": "Whenever ear clipping or center triangulation returns, the triangles are counter-clockwise, their union is the polygon and no two of them share an inner point.", "quantifier": "all polygons", "why_tests_cant": "a statement about all points of the plane for all polygons", "anchors": ["delynoi/src/triangulation/EarTriangulationGenerator.cpp: triangulate", "delynoi/src/triangulation/CenterTriangulationGenerator.cpp: triangulate"]}
{"id": "C105", "title": "The Voronoi cells tile the domain", "statement": "For a conforming Delaunay triangulation, the cells of the computed Voronoi mesh cover exactly the union of the triangles; points of two cells are equally far from both sites and inner points belong to one cell only; every point of the domain that is strictly nearest to one site is in the cell of that site.", "quantifier": "all triangulations that are conforming and Delaunay with a tolerance that merges nothing, all points of the plane", "why_tests_cant": "a statement about every point of the plane for every triangulation", "anchors": ["delynoi/src/voronoi/DelaunayToVoronoi.cpp: getMesh", "delynoi/src/voronoi/DelaunayToVoronoi.cpp: getCircumcenter", "delynoi/src/models/polygon/Polygon.cpp: fixCCW"]}
{"id": "C106", "title": "Triangulations cover a point as often as the outline goes around it", "statement": "For every polygon, the triangles returned by ear clipping (plus the unclipped remainder) and by center triangulation cover every point as often as the outline winds around it, clockwise triangles counting negatively; counter-clockwise ones therefore fill an outline that winds at most once without overlaps, and containsPoint accepts a point exactly if an odd number of them contains it.", "quantifier": "all polygons, all points of the plane, no convexity assumed", "why_tests_cant": "every point of the plane for every polygon", "anchors": ["delynoi/src/triangulation/EarTriangulationGenerator.cpp: triangulate", "delynoi/src/triangulation/CenterTriangulationGenerator.cpp: triangulate", "delynoi/src/models/polygon/Polygon.cpp: containsPoint"]}
{"id": "C107", "title": "Random integers keep to their bounds", "statement": "random_integer(min,max) yields integers in [min,max], each of them possible; random_integer_noise(f,min,max) adds or subtracts such an integer.", "quantifier": "all bounds, all engines, all inner functors", "why_tests_cant": "random sequences and real bounds are unbounded", "anchors": ["delynoi/src/models/generator/functions/RandomInteger.cpp: Random_Integer, apply", "delynoi/src/models/generator/noise/RandomIntegerNoise.cpp: RandomIntegerNoise, apply"]}
{"id": "C108", "title": "128-bit integers compute like integers", "statement": "Clipper's Int128 compares, negates, adds, subtracts, multiplies and converts exactly, as long as the result fits 128 bits.", "quantifier": "all pairs of high and low words; all 64-bit factors", "why_tests_cant": "2^128 values per operand", "anchors": ["delynoi/src/models/hole/clipper/lib/clipper.cpp: class Int128, Int128Mul"]}
{"id": "C109", "title": "Slopes and ranges are decided exactly", "statement": "RangeTest accepts exactly the coordinates within the low range, switches to the full range exactly when needed and throws otherwise; after it, SlopesEqual decides parallelism exactly without overflow, while beyond the tested range overflow occurs.", "quantifier": "all paths of 64-bit points", "why_tests_cant": "all 64-bit coordinates", "anchors": ["delynoi/src/models/hole/clipper/lib/clipper.cpp: RangeTest, SlopesEqual"]}
{"id": "C110", "title": "Area and Orientation of integer paths", "statement": "Area of a path is half the shoelace sum and Orientation its sign; the area of a ring of output points has the opposite sign. In double arithmetic the area is exact if 4 n M^2 < 2^53 for n points with coordinates up to M; for 32-bit coordinates rounding can turn a clockwise triangle into a counter-clockwise one.", "quantifier": "all integer paths", "why_tests_cant": "all lengths and coordinates", "anchors": ["delynoi/src/models/hole/clipper/lib/clipper.cpp: Area, Orientation"]}
{"id": "C111", "title": "PointInPolygon decides by winding parity", "statement": "PointInPolygon returns -1 exactly on the outline, otherwise 1 exactly if the path goes around the point an odd number of times, else 0. In double arithmetic (coordinates up to 2^51) inside and outside are never confused, and below 2^25 the answer is exact; for 32-bit coordinates a point off the outline can be reported as on it. Poly2ContainsPoly1 goes by the first vertex that is off the other outline.", "quantifier": "all paths, including self-intersecting ones, and all points", "why_tests_cant": "all paths and points; rounding", "anchors": ["delynoi/src/models/hole/clipper/lib/clipper.cpp: PointInPolygon, Poly2ContainsPoly1, PointIsVertex"]}
{"id": "C112", "title": "Segments inside segments, and pairs", "statement": "contains(p,s) and isContained accept a segment exactly if they accept every point of it; intersection with a point segment follows C12; Pair orders lexicographically, consistent with ==, and dot is a positive symmetric bilinear form.", "quantifier": "all segments, points, tolerances > 0, pairs", "why_tests_cant": "every point of every segment", "anchors": ["delynoi/src/models/basic/IndexSegment.cpp: contains, isContained, intersection", "lib/utilities/include/utilities/Pair.h"]}
{"id": "C113", "title": "Clipper's AddPath only drops redundant vertices", "statement": "ClipperBase::AddPath (stages 0 to 3, closed paths) terminates on every path; for 64-bit coordinates it throws exactly if a coordinate of a path with three or more vertices is beyond 2^62-1; a rejected path has area zero and goes around no point of the plane; otherwise the edges it builds start at a subsequence of the given vertices, at least three, without equal neighbours and without collinear consecutive triples (with PreserveCollinear: only strictly-between ones remain), with the same signed area and the same winding number at every point of the plane; each edge has consecutive vertices as ends and Bot not above Top; a path that is already clean is taken unchanged; Pt2IsBetweenPt1AndPt3 decides strict betweenness of collinear points; a path that survives is never horizontal.", "quantifier": "all closed paths of 64-bit points, both values of PreserveCollinear and of the range flag", "why_tests_cant": "The loop walks around a linked ring while deleting from it, restarting at moving stop nodes; termination and the invariance of the winding number at every point depend on all orders in which vertices get removed.", "anchors": ["delynoi/src/models/hole/clipper/lib/clipper.cpp:1045-1151", "delynoi/src/models/hole/clipper/lib/clipper.cpp:860-869", "delynoi/src/models/hole/clipper/lib/clipper.cpp:729-753"]}
{"id": "C114", "title": "Clipper's FixupOutPolygon keeps the region of an output polygon", "statement": "Clipper::FixupOutPolygon terminates on every non-empty ring with coordinates in the range of the flag; it deletes the ring only if the ring has area zero and goes around no point of the plane; otherwise what is left has at least three vertices, is a subsequence of the ring up to rotation, has no equal neighbours and no removable collinear vertex, and has the same signed area and the same winding number at every point.", "quantifier": "all rings, both values of PreserveCollinear/StrictlySimple and of the range flag", "why_tests_cant": "Invariance of the winding number quantifies over all points of the plane and all rings, including self-intersecting ones.", "anchors": ["delynoi/src/models/hole/clipper/lib/clipper.cpp:3136-3174"]}
{"id": "C115", "title": "Point-in-polygon test in binary64 arithmetic", "statement": "Computed in binary64 arithmetic, Polygon::containsPoint accepts a point exactly if the crossing parity is odd or an edge is computed to contain the point, provided the point is farther from each crossing than the rounding error of the crossing coordinate; an edge is computed to contain only points within the tolerance of its box and within tolerance plus rounding error of its line.", "quantifier": "all polygons and points with binary64 coordinates", "why_tests_cant": "Wrong answers need points within a few units in the last place of an edge; random points never get there, and exact expected answers are not available to a test computed in the same arithmetic.", "anchors": ["delynoi/src/models/polygon/Polygon.cpp:147-174", "delynoi/src/models/basic/Segment.cpp:23-33"]}
{"id": "C116", "title": "Geometric tests are exact on integer coordinates", "statement": "For integer coordinates up to 2^23 the binary64 results of point comparison, orientation, collinearity, Segment::contains and Polygon::containsPoint are those of exact arithmetic (up to 2^25 for all but the last).", "quantifier": "all polygons and points with such coordinates, all tolerances in (0, 1]", "why_tests_cant": "There are 2^48 grid points for every vertex; the division in the crossing test is not exact, so only an error analysis excludes a wrong answer next to some edge.", "anchors": ["delynoi/src/models/polygon/Polygon.cpp:147-174", "delynoi/src/models/basic/Segment.cpp:23-33", "delynoi/src/utilities/delynoi_utilities.cpp:28-30"]}
{"id": "C117", "title": "Convexity test in binary64 arithmetic", "statement": "Polygon::isConvex computed in binary64 arithmetic answers as in exact arithmetic.", "quantifier": "all polygons with binary64 coordinates", "why_tests_cant": "The answer is wrong only for corners within rounding of straight, and the product of two tiny determinants can underflow.", "anchors": ["delynoi/src/models/polygon/Polygon.cpp:195-209"]}
{"id": "C118", "title": "Intersection of segments in binary64 arithmetic", "statement": "For integer coordinates below 2^25, Segment::intersects computed in binary64 arithmetic finds every intersection the exact test finds, reports none that the exact test with a tolerance larger by 2^-50 would not find, never reports parallel segments, and returns the intersection point up to a stated rounding error.", "quantifier": "all segments with integer coordinates below 2^25, all tolerances in [0,1] (completeness: all tolerances)", "why_tests_cant": "The comparisons at the ends of the segments are decided in the last place; tests sample neither those nor all nearly parallel segments.", "anchors": ["delynoi/src/models/basic/Segment.cpp:48-71"]}
{"id": "C119", "title": "Circumcenters in binary64 arithmetic", "statement": "For integer coordinates up to 2^16 Triangle::calculateCircumcenter returns the exact circumcenter rounded once, so that all triangles inscribed in one circle get the identical point (and Voronoi vertices of grids are merged).", "quantifier": "all triangles with integer coordinates up to 2^16", "why_tests_cant": "Equality of two independently rounded quotients has to hold for all cocircular triples.", "anchors": ["delynoi/src/models/polygon/Triangle.cpp:29-40", "delynoi/src/models/basic/Point.cpp:32-34"]}
{"id": "C120", "title": "Triangle's exact sums and its machine constants", "statement": "In binary64 arithmetic with round-to-nearest-even (no overflow) exactinit stops and sets epsilon to 2^-53, splitter to 2^27+1 and all error bounds to the exact values of the error analysis; Two_Sum, Two_Diff and Two_Two_Diff return the rounded result together with its exact error for all binary64 arguments; Fast_Two_Sum does if its first argument is zero or not smaller than the second in absolute value, and fails for some other arguments.", "quantifier": "all binary64 numbers, including subnormal ones", "why_tests_cant": "The pairs of 64-bit numbers cannot be enumerated; errors show only for particular alignments and ties.", "anchors": ["delynoi/include/delynoi/voronoi/lib/triangle.c:4763-4791", "delynoi/include/delynoi/voronoi/lib/triangle.c:4841-4851", "delynoi/include/delynoi/voronoi/lib/triangle.c:4881-4938"]}
{"id": "C121", "title": "Triangle's exact products", "statement": "With the splitter of exactinit, Two_Product returns the rounded product and its exact error. (False for products that underflow; true when the factors are multiples of 2^e and 2^f with e+f >= -970.)", "quantifier": "all binary64 numbers that are multiples of the given powers of two", "why_tests_cant": "The splitting of a significand into halves has to be exact for all 2^53 significands, the products for all pairs.", "anchors": ["delynoi/include/delynoi/voronoi/lib/triangle.c:4793-4809"]}
{"id": "C122", "title": "Sign of the orientation test of Triangle", "statement": "counterclockwise returns a number with the sign of the exact orientation determinant. (As the C standard defines it the program has undefined behaviour when the last stage is reached: fast_expansion_sum_zeroelim reads B[4] of an array of four. In all other cases the sign is right if the coordinates are multiples of 2^-440; on grids of 52 bits the last stage is never reached. With tiny coordinates, or with -X, the sign can be wrong.)", "quantifier": "all triples of binary64 points whose coordinates are multiples of 2^-440", "why_tests_cant": "Nearly collinear triples are rare and the three stages of the adaptive test each have their own error bound; no sample shows that the bounds suffice.", "anchors": ["delynoi/include/delynoi/voronoi/lib/triangle.c:5144-5230", "delynoi/include/delynoi/voronoi/lib/triangle.c:5233-5280"]}
{"id": "C123", "title": "Sign of the in-circle test of Triangle", "statement": "incircle returns a number whose sign is that of turn(a,b,c) times the power of d with respect to the circle through a, b and c. (As the C standard defines it the program has undefined behaviour when the last stage is reached, as in C122; whatever it returns has the right sign.)", "quantifier": "all quadruples of binary64 points whose coordinates are multiples of 2^-240", "why_tests_cant": "The error bound (10 + 96 epsilon) epsilon has to cover every combination of some thirty rounding errors.", "anchors": ["delynoi/include/delynoi/voronoi/lib/triangle.c:5881-5938", "delynoi/include/delynoi/voronoi/lib/triangle.c:5302-5878"]}
{"id": "C124", "title": "Sums of expansions", "statement": "fast_expansion_sum_zeroelim returns binary64 components with exactly the sum of its arguments' values, provided the second component of each argument is zero or not smaller than the first; it reads one element behind each argument, which is outside the array when the argument fills it.", "quantifier": "all lists of binary64 components of any length", "why_tests_cant": "The merge order depends on all components; the over-read has no visible effect in tests.", "anchors": ["delynoi/include/delynoi/voronoi/lib/triangle.c:4955-5031"]}
{"id": "C125", "title": "The orientation test of Triangle decides", "statement": "If reading one element behind an array does no harm, counterclockwise returns a number with the sign of the exact orientation of the three points, through all four stages of the adaptive algorithm; so the answers for permuted points agree.", "quantifier": "all triples of binary64 points whose coordinates are multiples of 2^-440 (no upper bound)", "why_tests_cant": "The last stage is reached only by points which are collinear to within about 2^-100; the merge of up to 16 components depends on the bits of all of them.", "anchors": ["delynoi/include/delynoi/voronoi/lib/triangle.c:5144-5280", "delynoi/include/delynoi/voronoi/lib/triangle.c:4955-5031"]}
{"id": "C126", "title": "The form of expansions", "statement": "The arrays for a*b-c*d are nonadjacent expansions with the exact value. Sums of expansions whose components lie below the bits of the later ones (with prefix sums below three quarters of the last bit) have the same form, no zero components, and a last component with the sign of the value. The comment's stronger claim, that strongly nonoverlapping expansions stay strongly nonoverlapping, is false.", "quantifier": "all expansions of any length", "why_tests_cant": "The form is an invariant of a merge over lists of any length with rounding; the counterexample to the comment needs a tie in the first addition and cancellation in the second.", "anchors": ["delynoi/include/delynoi/voronoi/lib/triangle.c:4942-5031", "delynoi/include/delynoi/voronoi/lib/triangle.c:5181-5185"]}
{"id": "C127", "title": "Random numbers of Triangle", "statement": "randomnation(choices) returns a number below choices for every seed, divides by zero for no choices, and every choice can occur. (The last part is false for 1000 choices: the number 999 is never drawn; it holds up to 845 choices.)", "quantifier": "all seeds and numbers of choices", "why_tests_cant": "The range holds because of an integer division that rounds down plus one; a value which is never drawn cannot be noticed by drawing.", "anchors": ["delynoi/include/delynoi/voronoi/lib/triangle.c:6665-6674"]}
{"id": "C128", "title": "Triangle's quicksort", "statement": "vertexsort ends with at most as many nested calls as there are vertices, reads and writes only inside its array, and permutes it, even if coordinates are NaN; for other coordinates the result is sorted by x, then y.", "quantifier": "all non-empty arrays, seeds and coordinates", "why_tests_cant": "The scans have no bound of their own: they stay inside the array because of the pivot and the previous swap. Pivots are random.", "anchors": ["delynoi/include/delynoi/voronoi/lib/triangle.c:9197-9256"]}
{"id": "C129", "title": "Triangle's order statistic", "statement": "vertexmedian ends, stays inside its array, permutes it, and afterwards the first median vertices do not come after the others along the axis.", "quantifier": "all non-empty arrays, axes, seeds and medians up to the size", "why_tests_cant": "Depends on the random pivots and on ties between coordinates.", "anchors": ["delynoi/include/delynoi/voronoi/lib/triangle.c:9271-9335"]}
{"id": "C130", "title": "Alternating cuts", "statement": "alternateaxes ends, permutes the array, and makes it ready for cuts through the middle that alternate between the axes down to groups of at most three vertices sorted by x.", "quantifier": "all arrays of at least two vertices, axes and seeds", "why_tests_cant": "The recursion over halves of all sizes must match the recursion of divconqrecurse exactly.", "anchors": ["delynoi/include/delynoi/voronoi/lib/triangle.c:9349-9375"]}
{"id": "C131", "title": "Vertices handed to the triangulation", "statement": "Before the recursion, divconqdelaunay hands on or discards every vertex exactly once; the vertices handed on have different positions, occupy every position of the input and are ready for alternating cuts starting with x. Vertices of an input with different positions are all handed on.", "quantifier": "all non-empty lists of vertices and seeds", "why_tests_cant": "Duplicates are removed in place from a sorted array, with ties in any order.", "anchors": ["delynoi/include/delynoi/voronoi/lib/triangle.c:9984-10019"]}
{"id": "C132", "title": "The recursion of Triangle ends", "statement": "For every accepted input, divconqrecurse ends and cuts the vertices into groups of two or three sorted by x. (False if all positions are equal: then one vertex is handed on and the recursion never ends; true if two positions differ.)", "quantifier": "all non-empty lists of vertices and seeds", "why_tests_cant": "Inputs of all sizes; the failing inputs pass the test for three vertices.", "anchors": ["delynoi/include/delynoi/voronoi/lib/triangle.c:9740-9901", "delynoi/include/delynoi/voronoi/lib/triangle.c:14106-14109"]}
{"id": "C133", "title": "Triangle's switches", "statement": "For every string of switches that parsecommandline accepts: a flag is on exactly if its letter occurs; numbering starts at 0 exactly with z; the angle bound, the area bound and the number of Steiner points are those of the last such switch with a number; dependent flags are as documented. The two strings of the library switch on exactly the intended options. Every string is read without undefined behaviour. (The last part is false: a number of 2048 characters overflows a buffer; it holds for strings of fewer than 2048 characters and small Steiner numbers.)", "quantifier": "all strings of switches", "why_tests_cant": "Letters and numbers occur in any order and number; the overflow needs a number of more than two thousand digits.", "anchors": ["delynoi/include/delynoi/voronoi/lib/triangle.c:3276-3554", "delynoi/include/delynoi/voronoi/lib/CMakeLists.txt:6", "delynoi/src/voronoi/TriangleDelaunayGenerator.cpp:146", "delynoi/src/voronoi/TriangleDelaunayGenerator.cpp:207"]}
{"id": "C134", "title": "What Triangle hands back", "statement": "If the records of Triangle's mesh fit together, then with the switches of the library writenodes, writeelements and writeedges fill their arrays exactly; read back, these are the vertices in use in order, the triangles counter-clockwise with the new numbers of their corners and every edge once with the marker of its subsegment: a valid triangulation, with the boundary marked if the subsegments mark the hull.", "quantifier": "all consistent meshes, all addresses of the triangles in memory", "why_tests_cant": "Which triangle writes an edge depends on addresses in memory; the arrays have sizes from counters (3T + hull edges)/2 that must match the loops exactly.", "anchors": ["delynoi/include/delynoi/voronoi/lib/triangle.c:14316-14446", "delynoi/include/delynoi/voronoi/lib/triangle.c:14488-14621", "delynoi/include/delynoi/voronoi/lib/triangle.c:14775-14912", "delynoi/include/delynoi/voronoi/lib/triangle.c:15843-15955"]}
{"id": "C135", "title": "Edge flips keep Triangle's mesh a triangulation", "statement": "flip replaces the triangles abc and bad by dca and cdb in the same two blocks: all links between triangles stay consistent, the edge ab becomes cd and no other edge changes, every subsegment stays on its edge, the hull stays reachable from dummytri, and unflip restores the mesh exactly. If the quadrilateral is strictly convex, a flat triangulation (counter-clockwise, without overlaps at vertices) stays flat; this is the case whenever d lies in the circle through abc, and then the new edge is locally Delaunay.", "quantifier": "all meshes with consistent links, all edges with two triangles", "why_tests_cant": "A wrong bond of one of the four outer sides corrupts the mesh only for later operations on that side; hull edges, subsegments and both orientations of each neighbour multiply the cases.", "anchors": ["delynoi/include/delynoi/voronoi/lib/triangle.c:7907-8004", "delynoi/include/delynoi/voronoi/lib/triangle.c:8042-8140", "delynoi/include/delynoi/voronoi/lib/triangle.c:918-1300"]}
{"id": "C136", "title": "Triangle removes exactly the triangles the infection reaches", "statement": "plague gives back exactly the triangles that can be reached from the infected ones without crossing a subsegment, each once, and never touches a block it has given back. The other triangles keep their corners, their subsegments and their links among each other; their links to removed triangles lead to the outside. Exactly the subsegments without a remaining triangle are given back, each once; a subsegment between a remaining and a removed triangle forgets the removed one, and it and its endpoints get nonzero markers. Exactly the vertices without a remaining triangle become UNDEADVERTEX, each once. hullsize is the number of boundary edges afterwards. A flat triangulation stays flat.", "quantifier": "all meshes with consistent links whose triangles around each vertex are connected, all sets of infected triangles", "why_tests_cant": "The infection mark shares a word with a subsegment link, subsegments are freed from either side, corners are erased while other corners are still walked around: errors need particular orders of deletion in particular shapes.", "anchors": ["delynoi/include/delynoi/voronoi/lib/triangle.c:12653-12845", "delynoi/include/delynoi/voronoi/lib/triangle.c:1089-1118", "delynoi/include/delynoi/voronoi/lib/triangle.c:4372-4439"]}
{"id": "C137", "title": "Triangle carves holes and concavities", "statement": "carveholes (without regions) ends and removes exactly the triangles that can be reached, without crossing a subsegment, from a triangle in which a hole is found (unless -O) or from a triangle with an unprotected edge on the boundary (unless -c). What stays has consistent links and subsegments, and hullsize counts its boundary edges. An area whose border consists of subsegments and in which no hole is found stays completely. Without -c the boundary of what stays consists of subsegments with nonzero markers, and the endpoints have nonzero markers where the boundary is new or the subsegment had no marker. The link of dummytri still leads to a triangle of the boundary.", "quantifier": "all meshes with consistent links whose boundary is one closed line, all holes, all settings of -c and -O", "why_tests_cant": "The loop around the hull, the spread of the infection and the deletion interact over the whole mesh; a missed edge or a wrong marker shows only for particular shapes of the segments.", "anchors": ["delynoi/include/delynoi/voronoi/lib/triangle.c:12571-12633", "delynoi/include/delynoi/voronoi/lib/triangle.c:12976-13132"]}
{"id": "C138", "title": "Triangle's walk to a point ends and its answer is right", "statement": "preciselocate, called with the point to the left of the starting edge (or on its line outside of it), ends after at most 3n+1 rounds in every mesh of n counter-clockwise triangles with consistent links, whether Delaunay or not, convex or not; it never reads a missing corner. ONVERTEX comes with an edge whose origin is the point, ONEDGE with an edge that has the point strictly between its endpoints, INTRIANGLE with a triangle that has it strictly inside, OUTSIDE with an edge that has it strictly to its right and no triangle behind it (or a subsegment, if the search stops there). If the point is not beyond any edge of the boundary, the answer is not OUTSIDE. The answer is also right without the condition on the starting edge.", "quantifier": "all meshes, all points, all starting edges, exact arithmetic", "why_tests_cant": "A walk that goes in circles shows only in special triangulations; that the rule for choosing the next edge excludes this for all meshes needs a proof.", "anchors": ["delynoi/include/delynoi/voronoi/lib/triangle.c:7488-7611"]}
{"id": "C139", "title": "Triangle finds the triangle of a point", "statement": "locate ends and its answer is right, whatever triangles are sampled and whatever the recent triangle is; it never reads a missing corner. With it, carveholes removes a triangle with the hole inside or on its border for each hole in the box of the mesh that is not on the line of the edge where searches start, and every triangle removed is reached from such a triangle or an unprotected one without crossing a subsegment.", "quantifier": "all meshes with consistent links and counter-clockwise triangles, all points, samples and recent triangles; exact arithmetic", "why_tests_cant": "The samples are random and the starting edge depends on the history of calls; the failure needs a point outside of the hull and a sample on the boundary next to it.", "anchors": ["delynoi/include/delynoi/voronoi/lib/triangle.c:7632-7777", "delynoi/include/delynoi/voronoi/lib/triangle.c:13026-13053"]}
{"id": "C140", "title": "A subsegment is put on exactly one edge", "statement": "insertsubseg on an edge of a consistent mesh never fails. Afterwards the edge has a subsegment whose endpoints are those of the edge, the triangles on both sides have the same subsegment seen from opposite directions, and it leads back to them. An edge that had a subsegment keeps it. The mark is given to the subsegment and the two endpoints only where there was none. Nothing else changes, and the mesh is still consistent.", "quantifier": "all meshes with consistent links and subsegments, all edges, all marks", "why_tests_cant": "Links between subsegments and triangles that are wrong on one side show only when a later operation comes from that side.", "anchors": ["delynoi/include/delynoi/voronoi/lib/triangle.c:4699-4724", "delynoi/include/delynoi/voronoi/lib/triangle.c:7803-7856"]}
{"id": "C141", "title": "The direction of a segment is found", "statement": "finddirection, called with a triangle whose origin is a vertex of a mesh of counter-clockwise triangles with consistent links, ends after at most 3n rounds and never reads a missing corner. WITHIN comes with a triangle at the vertex whose edges there have the way to the point strictly between them, LEFTCOLLINEAR and RIGHTCOLLINEAR with one whose left or right edge points to it. It finds an answer whenever the way starts inside of the mesh.", "quantifier": "all meshes, all vertices, all points other than the vertex, exact arithmetic", "why_tests_cant": "The failing case needs a vertex on a concave part of the boundary, a starting triangle on the other side of it and a point straight behind that triangle.", "anchors": ["delynoi/include/delynoi/voronoi/lib/triangle.c:11588-11663"]}
{"id": "C142", "title": "scoutsegment puts subsegments along the segment and nowhere else", "statement": "Let the end of the segment be in the mesh, not beyond any edge of the boundary, and only at corners of triangles. scoutsegment walks along vertices on the segment, each nearer to the end, with edges between them; these edges get subsegments, and no other edge does, and no subsegment is lost. It stops at the end of the segment (result 1), or at a vertex from which the segment crosses the opposite edge of a triangle: with result 0 if that edge has no subsegment, else it has the subsegment split and goes on. It takes at most one round per vertex before that.", "quantifier": "all consistent meshes of counter-clockwise triangles, all segments, all marks, all ways in which subsegments may be split; exact arithmetic", "why_tests_cant": "The recursion over collinear vertices may be of any length and mixes both collinear cases.", "anchors": ["delynoi/include/delynoi/voronoi/lib/triangle.c:11810-11869"]}
{"id": "C143", "title": "markhull protects the whole boundary", "statement": "markhull ends. Afterwards every edge of the boundary has a subsegment; new ones have mark 1, old ones with mark 0 get mark 1, and so do the endpoints of the edges. All other edges, subsegments and marks are as before. Hence no triangle has an unprotected edge for carveholes to start from.", "quantifier": "all consistent meshes whose boundary is one closed line", "why_tests_cant": "The walk around the boundary turns about vertices with any number of triangles; stopping early or going on forever depends on the mesh.", "anchors": ["delynoi/include/delynoi/voronoi/lib/triangle.c:12358-12389"]}
{"id": "C144", "title": "Every vertex of the mesh knows a triangle", "statement": "After makevertexmap every vertex that is a corner of a triangle refers to a triangle with that vertex as origin, so that insertsegment starts there without point location; vertices that are no corners keep what they had.", "quantifier": "all meshes, all vertices", "why_tests_cant": "The map depends on the order of the triangles and on all three orientations.", "anchors": ["delynoi/include/delynoi/voronoi/lib/triangle.c:7393-7418", "delynoi/include/delynoi/voronoi/lib/triangle.c:12268-12275"]}
{"id": "C145", "title": "A vertex in a triangle splits it into three", "statement": "Splitting the triangle b, r, l at a new vertex strictly inside (the first part of insertvertex) gives a mesh with consistent links that lies flat in the plane; its triangles are the old ones except b, r, l, and the three triangles of the new vertex with the edges of b, r, l. Every subsegment stays at its edge, its links lead back, and the new edges have none.", "quantifier": "all flat meshes with consistent links, all triangles, all new vertices inside, all unused triangle records; exact arithmetic", "why_tests_cant": "Nine links, nine corners and up to three subsegments are rewritten; a wrong one shows only when a later operation passes it.", "anchors": ["delynoi/include/delynoi/voronoi/lib/triangle.c:8467-8523"]}
{"id": "C146", "title": "Inserting a vertex in a triangle repairs the mesh around it", "statement": "insertvertex for a vertex strictly inside a triangle always ends and never reads a missing corner. The result is a flat mesh with consistent links and the new vertex, searchtri is an edge from it, and every edge opposite to it is a subsegment, at the boundary or locally Delaunay. Triangles and edges that do not touch the new vertex were there before, no vertex is lost, subsegments are neither lost nor moved nor made, and the new vertex is connected to the three corners of the triangle. At most 2n rounds of the loop are needed for n triangles. The boundary of the mesh is the same.", "quantifier": "all flat meshes with consistent links, with or without subsegments, all triangles and vertices inside; exact arithmetic", "why_tests_cant": "The number and order of the flips depend on the mesh; that no flip turns a triangle over and that the loop comes back to its start is a geometrical fact about all of them.", "anchors": ["delynoi/include/delynoi/voronoi/lib/triangle.c:8191-8767"]}
{"id": "C147", "title": "Inserting a vertex on an edge repairs the mesh around it", "statement": "insertvertex for a vertex on an edge without subsegment, inside the mesh or at its boundary, has the same result as in a triangle (C146): two new triangles, or one at the boundary; the new vertex is connected to the ends of the edge and to the opposite corners. The boundary is the same, except that a boundary edge is replaced by its two parts. On a vertex or a subsegment nothing is inserted.", "quantifier": "all flat meshes with consistent links, with or without subsegments, all edges and vertices between their ends; exact arithmetic", "why_tests_cant": "The boundary case and the inner case share code with a flag; at the boundary the loop ends at the boundary instead of its start.", "anchors": ["delynoi/include/delynoi/voronoi/lib/triangle.c:8264-8386", "delynoi/include/delynoi/voronoi/lib/triangle.c:8560-8767"]}
{"id": "C148", "title": "Inserting a vertex keeps a Delaunay triangulation Delaunay", "statement": "If no vertex of a flat mesh is inside the circle of any of its triangles, then after inserting a vertex in a triangle or on an edge (without subsegments) every edge is locally Delaunay, also the edges at the new vertex, which the loop does not look at.", "quantifier": "all flat meshes with empty circles, all vertices in a triangle or on an edge; exact arithmetic", "why_tests_cant": "The loop tests only the edges opposite to the new vertex; that the others are right follows from a property of all circles before.", "anchors": ["delynoi/include/delynoi/voronoi/lib/triangle.c:8560-8767"]}
{"id": "C149", "title": "Inserting a vertex on a subsegment splits exactly that subsegment", "statement": "insertvertex with a subsegment to split (as called by segmentintersection and splitencsegs) never fails for a vertex between its ends. The part from the new vertex to the destination of the edge keeps the old subsegment, the other part has a new one, with the same mark and the same ends of the whole segment; both have the right endpoints. All other subsegments stay at their edges with their marks, and there are no others. The new vertex takes over the mark if it has none. The mesh is as in C147. The new subsegment is linked with the old one and with the one that was linked with it.", "quantifier": "all consistent flat meshes with subsegments, all their subsegments and vertices between their ends, inside or at the boundary; exact arithmetic", "why_tests_cant": "The new subsegment is linked to up to two triangles, which may both be flipped afterwards.", "anchors": ["delynoi/include/delynoi/voronoi/lib/triangle.c:8388-8408", "delynoi/include/delynoi/voronoi/lib/triangle.c:8191-8767"]}
{"id": "C150", "title": "A segment that crosses a subsegment gets a vertex on both", "statement": "Where the way from the apex of a triangle to the end of a segment leaves the triangle through an edge with a subsegment, segmentintersection never reports an error. The new vertex is strictly inside both segments; the subsegment is cut there into two that keep its mark and are segments of their own (the ends of segments are corrected, and the parts are not linked); the new vertex takes over the mark. The mesh is as after insertvertex (C147), and the edge returned runs from the new vertex to the apex, although the flips may have moved it. If the segments are parallel an internal error is reported.", "quantifier": "all consistent flat meshes with subsegments, all triangles and all ends of segments beyond an edge with a subsegment that is not linked with others (as in formskeleton); exact arithmetic", "why_tests_cant": "After the insertion the edge to the apex has to be found again among any number of flipped edges, and the search may run into the boundary.", "anchors": ["delynoi/include/delynoi/voronoi/lib/triangle.c:11683-11783"]}
{"id": "C151", "title": "Products of expansions", "statement": "scale_expansion_zeroelim multiplies an expansion by a number without error: the components of the result are an expansion with the exact product as value, without zero components, with a last component of the sign of the product, and at most twice as many as those of the argument; sums of expansions have at most as many components as both arguments.", "quantifier": "all expansions of any length and factors whose grids multiply to a grid not below 2^-970", "why_tests_cant": "Each component passes two roundings whose errors must stay below the bits of everything that follows; this is an invariant over lists of any length.", "anchors": ["delynoi/include/delynoi/voronoi/lib/triangle.c:5035-5094", "delynoi/include/delynoi/voronoi/lib/triangle.c:4814-4820"]}
{"id": "C152", "title": "The estimate of an expansion", "statement": "estimate returns the value of an expansion with a relative error of at most 2.5 epsilon, so it has the sign of the exact value.", "quantifier": "all expansions of any length", "why_tests_cant": "The error must not grow with the number of components, which needs the form of the expansion.", "anchors": ["delynoi/include/delynoi/voronoi/lib/triangle.c:5096-5121"]}
{"id": "C153", "title": "The in-circle test of Triangle decides", "statement": "If reading one element behind an array does no harm, incircle returns, through all four stages of the adaptive algorithm, a number which is positive, zero or negative as the fourth point lies inside, on or outside the circle through a counterclockwise triangle; and the answers for permuted points agree.", "quantifier": "all quadruples of binary64 points whose coordinates are multiples of 2^-240 (no upper bound)", "why_tests_cant": "The later stages are reached only by points which are cocircular to within 2^-50 and 2^-100; the last stage adds up to 1152 components and has some thirty formulas for the terms with tails.", "anchors": ["delynoi/include/delynoi/voronoi/lib/triangle.c:5302-5878", "delynoi/include/delynoi/voronoi/lib/triangle.c:5881-5938"]}
{"id": "C154", "title": "The arrays of the in-circle test", "statement": "No sum of expansions in incircleadapt has more components than its array has elements: the temporaries of 8 to 64 and the accumulators fin1 and fin2 of 1152 elements are large enough.", "quantifier": "all quadruples of points, no matter whether their coordinates are on a grid", "why_tests_cant": "The zero elimination keeps the arrays far from full in practice; 1152 is exactly the sum of all bounds.", "anchors": ["delynoi/include/delynoi/voronoi/lib/triangle.c:5318-5362", "delynoi/include/delynoi/voronoi/lib/triangle.c:5445-5877"]}
{"id": "C155", "title": "Index segments and neighbour pairs", "statement": "isVertex, operator< and operator== of index segments and neighbour pairs have the meaning of their names: membership, lexicographic order, equality of unordered pairs; contains, middlePoint and intersection are those of the segment between the named points. Reading a neighbour pair that was never set, or an index outside the list, is undefined behaviour. operator< and operator== of index segments contradict each other on reversed segments.", "quantifier": "all index segments, neighbour pairs and lists of points", "why_tests_cant": "Mixed-up members give right answers for many symmetric pairs.", "anchors": ["delynoi/src/models/basic/IndexSegment.cpp:16-82", "delynoi/src/models/neighbourhood/NeighboursBySegment.cpp:3-46", "delynoi/include/delynoi/models/basic/Segment.h"]}
{"id": "C156", "title": "Reading numbers", "statement": "atoi as used by the file readers gives the value of a numeral with optional spaces, sign and trailing text, undefined behaviour for numbers that are no int, and 0 without a digit; so does atof for texts without a digit: unreadable files are read as zeros.", "quantifier": "all texts of the given form, of any length", "why_tests_cant": "The limits of int and malformed texts are rarely in test files.", "anchors": ["delynoi/include/delynoi/models/Mesh.h:167-201", "delynoi/src/models/Region.cpp"]}
{"id": "C157", "title": "The order of angles", "statement": "Angle::operator< holds exactly if the first angle is smaller by at least the tolerance; it is irreflexive, asymmetric and transitive. Being incomparable is not transitive, so it is no strict weak order.", "quantifier": "all angles and positive tolerances", "why_tests_cant": "Angles within a tolerance of each other are rare.", "anchors": ["delynoi/include/delynoi/models/basic/Angle.h:33-41"]}
{"id": "C158", "title": "delaunayfixup restores the Delaunay property at a vertex", "statement": "On a mesh without folds delaunayfixup ends for either side of the segment, keeps vertices, boundary and subsegments, adds only edges at the origin of its handle, touches no other triangle at that vertex, and leaves each edge opposite to the vertex settled (subsegment, boundary or locally Delaunay) unless it was not before and is not the edge it was called for. At a settled edge nothing changes.", "quantifier": "all linked, flat meshes with subsegments, of any size, and all handles", "why_tests_cant": "The recursion flips an unbounded number of triangles and which ones depends on the geometry.", "anchors": ["delynoi/include/delynoi/voronoi/lib/triangle.c:12024-12089"]}
{"id": "C159", "title": "constrainededge forces an edge into the mesh", "statement": "For a segment that crosses one edge without a subsegment, constrainededge replaces exactly that edge by the segment, gives it a new subsegment with the mark, marks unmarked endpoints, keeps all other edges, subsegments and marks, and the mesh is constrained Delaunay afterwards if it was before.", "quantifier": "all meshes, segments and marks of this kind", "why_tests_cant": "Whether the two recursive repairs are needed depends on the circles around the quadrilateral.", "anchors": ["delynoi/include/delynoi/voronoi/lib/triangle.c:12144-12237"]}
{"id": "C160", "title": "insertsegment puts a segment in the mesh", "statement": "If the endpoints have an edge, insertsegment puts a subsegment there and changes nothing else; if the way between them crosses one edge, that edge is replaced by the segment and the mesh stays constrained Delaunay. An endpoint that is a corner of no triangle makes insertsegment read a field that was never written.", "quantifier": "all meshes and segments of this kind", "why_tests_cant": "The uninitialised field is read only for duplicate vertices, and often has a harmless value.", "anchors": ["delynoi/include/delynoi/voronoi/lib/triangle.c:12246-12345", "delynoi/include/delynoi/voronoi/lib/triangle.c:7380-7419"]}
{"id": "C161", "title": "Inserting a vertex keeps a constrained Delaunay triangulation", "statement": "If every inner edge without a subsegment is locally Delaunay before a vertex is inserted in a triangle, on an edge or on a subsegment, then every inner edge without a subsegment is locally Delaunay afterwards: also the edges at the new vertex and the edges far from it, which the loop does not test. The subsegment that is split need not be locally Delaunay.", "quantifier": "all linked, flat meshes of any size with any subsegments, and all positions of the vertex", "why_tests_cant": "That it is enough to test the edges opposite to the new vertex is a geometric fact about all sequences of flips; a test sees some of them.", "anchors": ["delynoi/include/delynoi/voronoi/lib/triangle.c:8167-8767"]}
{"id": "C162", "title": "checkseg4encroach finds exactly the encroached subsegments", "statement": "For a subsegment of the mesh the function returns 1 if the apex of the triangle on this side is strictly inside the circle whose diameter is the subsegment, plus 2 if the apex on the other side is; a side without triangle does not count. The pool gets one entry, with the ends of the subsegment seen from a side from which it is encroached, if the result is not 0, and is left alone otherwise.", "quantifier": "all meshes with any subsegments, both sides of any subsegment, all positions", "why_tests_cant": "Which of the two sides is recorded, and with which ends, matters only later, for some meshes.", "anchors": ["delynoi/include/delynoi/voronoi/lib/triangle.c:7094-7190"]}
{"id": "C163", "title": "Where an encroached subsegment is split", "statement": "If no edge of the two triangles at the subsegment that ends at one of its ends has a subsegment, it is split in the middle; else at a distance from the shared end that is a power of two times the unit (from the destination, if both are shared). Each part has at least a third of the length. The two loops that find the power end. In exact arithmetic the refinement step does not move the vertex.", "quantifier": "all subsegments of positive length, any positive square root function, any Archimedean field for termination", "why_tests_cant": "The loops run for all lengths, large and small; tests see a few.", "anchors": ["delynoi/include/delynoi/voronoi/lib/triangle.c:13285-13392"]}
{"id": "C164", "title": "Splitting encroached subsegments does not fail and ends in a Delaunay triangulation", "statement": "Started on a constrained Delaunay triangulation, enforcequality never reads a missing vertex or triangle and never creates a vertex on an end of a subsegment; when it ends, no subsegment is encroached, every edge is locally Delaunay whether it has a subsegment or not, the links are correct, the vertices are where they were, every old subsegment is there or divided, and all new vertices and subsegments lie on old subsegments.", "quantifier": "all meshes of any size with any subsegments, any order in which the pool is traversed, any number of steps", "why_tests_cant": "The claim needs that every encroached subsegment is in the pool at all times, across all flips.", "anchors": ["delynoi/include/delynoi/voronoi/lib/triangle.c:8167-8767", "delynoi/include/delynoi/voronoi/lib/triangle.c:13170-13192", "delynoi/include/delynoi/voronoi/lib/triangle.c:13231-13430", "delynoi/include/delynoi/voronoi/lib/triangle.c:13608-13631"]}
{"id": "C165", "title": "Inserting subsegments, carving holes and splitting subsegments fit together", "statement": "Inserting a subsegment on an edge keeps a constrained Delaunay triangulation with the order among subsegments that the later phases need; carving holes and concavities keeps them as well; and when carving is followed by the splitting of encroached subsegments, as in triangulate(), exactly the unprotected triangles and the holes are removed and the mesh at the end, if the loop ends, is a Delaunay triangulation of what is left, with no failure on the way.", "quantifier": "all meshes of any size with any subsegments, any list of holes, any order in which the pool is traversed, any number of steps", "why_tests_cant": "The claim is about the hand-over between phases: what one leaves behind (links to removed triangles, freed subsegments) is what the next one reads.", "anchors": ["delynoi/include/delynoi/voronoi/lib/triangle.c:15801-15826", "delynoi/include/delynoi/voronoi/lib/triangle.c:12976-13132", "delynoi/include/delynoi/voronoi/lib/triangle.c:13608-13631"]}
{"id": "C166", "title": "The triangulations of two and three vertices are right", "statement": "divconqrecurse for two or three vertices yields a mesh in which every edge, also of the bounding triangles, is linked to the same edge in the opposite direction, with the bounding triangles in one ring; for three vertices that are not on a line it has one counter-clockwise triangle, whatever the order of the vertices; farleft starts at the first vertex and farright ends at the last one; other triangles are untouched.", "quantifier": "all vertices and positions, all addresses of the new triangles, all contents of the memory before", "why_tests_cant": "A wrong bond is only noticed when a later merge follows it.", "anchors": ["delynoi/include/delynoi/voronoi/lib/triangle.c:9740-9885"]}
{"id": "C167", "title": "Removing the bounding triangles leaves a mesh with correct links", "statement": "removeghosts ends, gives back exactly the bounding triangles, each once, and uses none of them afterwards; it returns their number, which is that of the edges on the boundary; the triangles that stay are linked as before, their boundary is one closed line, and dummytri leads to one of its edges (to itself if there are no triangles); without the switch p all vertices on the boundary get a mark.", "quantifier": "all meshes of any size with bounding triangles in a ring", "why_tests_cant": "Use of freed memory and wrong links do not show in most runs; the ring has any length.", "anchors": ["delynoi/include/delynoi/voronoi/lib/triangle.c:9904-9954"]}
{"id": "C168", "title": "Merging two triangulations keeps the mesh closed and its triangles counter-clockwise", "statement": "If two disjoint triangulations have no open edges and counter-clockwise triangles, then mergehulls never reads the coordinates of NULL; when it ends, every edge of the triangles of both and of the two new bounding triangles is linked to the same edge in the opposite direction, no triangle has a corner twice, all triangles without a NULL corner are counter-clockwise, the vertices are those of both, and other triangles are untouched. The line it starts from is a tangent to the neighbouring vertices. The shifts for horizontal cuts stay on the boundary.", "quantifier": "all pairs of disjoint closed meshes of any size, all positions of the vertices, all starting edges on the boundaries, any number of rounds", "why_tests_cant": "Each edge that is removed rewires two triangles and six links; a wrong link shows only later and only in configurations where the edge is removed.", "anchors": ["delynoi/include/delynoi/voronoi/lib/triangle.c:9413-9720"]}
{"id": "C169", "title": "Each triangle the merge makes passes the circle tests", "statement": "In each round of mergehulls below the top, whatever edges are removed first, the triangle made on the base edge is counter-clockwise, its third corner is the candidate of one side, its circle does not contain the vertex beyond the edge of that side on which it was built, and does not contain the candidate of the other side if that side is not finished. The round keeps the gap between the triangulations properly linked.", "quantifier": "all meshes with an open gap and counter-clockwise triangles, all positions of the vertices, any number of removed edges", "why_tests_cant": "A flipped or missing test still leaves a valid triangulation on most inputs; only the shapes of the triangles differ.", "anchors": ["delynoi/include/delynoi/voronoi/lib/triangle.c:9598-9714"]}
{"id": "C170", "title": "Memory pools hand out unused items and traversals find all of them", "statement": "After any sequence of poolalloc and pooldealloc calls that gives back only items in use, poolalloc returns an item not in use, the pool counts the items in use, every item in use lies within a block that exists, a traversal ends after visiting each place handed out so far exactly once (hence all items in use), and getvertex finds the vertex at the given position of the traversal.", "quantifier": "all histories of allocations and deallocations, all block sizes", "why_tests_cant": "Blocks have 4092 items; errors at the border of blocks and in reuse appear only in large meshes and particular histories.", "anchors": ["delynoi/include/delynoi/voronoi/lib/triangle.c:3882-4154", "delynoi/include/delynoi/voronoi/lib/triangle.c:4573-4605"]}
{"id": "C171", "title": "Triangle reads exactly the points it is given", "statement": "With at least three points transfernodes reads only initialised elements of its arrays; getvertex then finds, for each number, a vertex with the coordinates, attributes and marker given for it (zero without markers), and the bounding box is the smallest one around the points. With fewer points the program ends.", "quantifier": "all lists of points of any length, any number of attributes, with and without markers", "why_tests_cant": "Index arithmetic over three arrays for every size.", "anchors": ["delynoi/include/delynoi/voronoi/lib/triangle.c:14080-14151", "delynoi/include/delynoi/voronoi/lib/triangle.c:4290-4292"]}
{"id": "C172", "title": "Exactly the segments between different points are inserted", "statement": "formskeleton inserts the given segments whose ends are numbers of points with different coordinates, in the given order with the given markers, and no others. For the arrays that Delynoi fills these are the segments of the region and the restricted segments between points; a restricted segment with an end that is not one of the points is ignored.", "quantifier": "all lists of segments, all points, all behaviours of insertsegment", "why_tests_cant": "A segment that is dropped or inserted twice changes the triangulation only in some inputs.", "anchors": ["delynoi/include/delynoi/voronoi/lib/triangle.c:12404-12552", "delynoi/src/voronoi/TriangleDelaunayGenerator.cpp:25-66"]}
{"id": "C173", "title": "Order and equality of polygons agree", "statement": "operator< of polygons is a strict order, polygons are equal for operator== exactly if neither is less than the other, and the first vertex and the direction do not matter. Different polygons need not be comparable.", "quantifier": "all polygons", "why_tests_cant": "Containers rely on the order for every pair and triple of elements.", "anchors": ["delynoi/src/models/polygon/Polygon.cpp:242-244", "delynoi/src/models/polygon/Polygon.cpp:287-289"]}
{"id": "C174", "title": "area(points) is the signed area", "statement": "geometry_functions::area of a vector of points returns half of the sum of the cross products of consecutive points and reads no element out of range, also for an empty vector.", "quantifier": "all lists of points", "why_tests_cant": "Polygons of every number of vertices, also not convex or self-intersecting.", "anchors": ["delynoi/src/utilities/geometryFunctions.cpp:41-50"]}
{"id": "C175", "title": "A triangle appends its own circumcenter", "statement": "The constructor of Triangle with a vector of centers keeps the old centers, appends one equidistant from the corners if these are not collinear, and stores its place. Different triangles never share a place, even if their centers are equal.", "quantifier": "all points, indices in range and vectors", "why_tests_cant": "All positions of the corners, including degenerate ones.", "anchors": ["delynoi/src/models/polygon/Triangle.cpp:15-19"]}

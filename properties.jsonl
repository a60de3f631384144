{"id": "C01", "title": "Union-find answers connectivity", "statement": "After any sequence of union(x,y) and find(z) calls on UnionFind(n) with arguments in range(n), find(a) == find(b) holds exactly when a and b are linked by a chain of the united pairs; in particular interleaved find calls never change the answer.", "quantifier": "every n, every finite history of union/find calls, every pair a,b < n", "why_tests_cant": "the history is unbounded and path compression rewrites the parent array on every read; a test fixes one history", "anchors": ["mmcore/ds/union_find.py:UnionFind.find", "mmcore/ds/union_find.py:UnionFind.union"]}
{"id": "C02", "title": "Union-find never loops and its recursion stays logarithmic", "statement": "In every state reachable by union/find calls, find(x) terminates, returns a root inside range(n), and its recursion depth is at most log2(n)+1, so the recursive implementation cannot exhaust the interpreter stack.", "quantifier": "every n and every history", "why_tests_cant": "a cycle or a deep chain could appear only after a particular long history", "anchors": ["mmcore/ds/union_find.py:UnionFind.find", "mmcore/ds/union_find.py:UnionFind.union"]}
{"id": "C03", "title": "group_tuples returns the connected components of the share-a-digit relation", "statement": "group_tuples(L) partitions L: concatenating the groups gives a permutation of L, no group is empty, and two tuples land in the same group exactly when they are linked by a chain of tuples in which neighbours share a digit.", "quantifier": "every list of tuples", "why_tests_cant": "the relation is a transitive closure over an arbitrary list", "anchors": ["mmcore/ds/union_find.py:group_tuples"]}
{"id": "C04", "title": "AVL tree holds exactly the inserted-and-not-deleted keys, in order", "statement": "After any sequence of insert(k,v) and delete(k) on an empty tree, search(k) succeeds exactly for keys inserted after their last delete, and the in-order listing is strictly increasing and lists exactly those keys.", "quantifier": "every finite history of inserts and deletes over a totally ordered key type", "why_tests_cant": "rotations and the successor copy in delete interact over unbounded histories", "anchors": ["mmcore/ds/tree/avl.py:AVL.insert", "mmcore/ds/tree/avl.py:AVL.delete", "mmcore/ds/tree/avl.py:AVL.rebalance", "mmcore/ds/tree/avl.py:AVL.search"]}
{"id": "C05", "title": "AVL tree stays balanced", "statement": "After any such history every node's two subtrees differ in height by at most one, so a tree with n keys has height at most 2*log2(n+1) and lookups are logarithmic.", "quantifier": "every finite history", "why_tests_cant": "the balance must survive every rotation case in every history", "anchors": ["mmcore/ds/tree/avl.py:AVL.rebalance", "mmcore/ds/tree/avl.py:AVL.rotate_left", "mmcore/ds/tree/avl.py:AVL.rotate_right"]}
{"id": "C06", "title": "AVL tree used as a mapping returns the last value stored", "statement": "After any sequence of t[k]=v, del t[k] and t.append(v), t[k] is the value most recently stored under k (and appended values are all kept).", "quantifier": "every finite history of assignments, deletions and appends", "why_tests_cant": "the failing histories are specific: overwrite, delete of a two-child node, fourth append", "anchors": ["mmcore/ds/tree/avl.py:AVL.__setitem__", "mmcore/ds/tree/avl.py:AVL.delete", "mmcore/ds/tree/avl.py:AVL.append"]}
{"id": "C07", "title": "Circular doubly linked list behaves as a sequence", "statement": "Iterating a CDLL after any sequence of append/insert/remove/remove_by_index/replace gives the list obtained by applying the same operations to a Python list; an index outside the list or a missing item raises and changes nothing.", "quantifier": "every finite history of list operations", "why_tests_cant": "pointer surgery has a different shape at the head, the tail, on one element and on the empty list", "anchors": ["mmcore/ds/cdll/cdll.py:CDLL.append", "mmcore/ds/cdll/cdll.py:CDLL.insert", "mmcore/ds/cdll/cdll.py:CDLL.remove", "mmcore/ds/cdll/cdll.py:CDLL.__iter__"]}
{"id": "C08", "title": "k-d tree nearest neighbour is the true nearest stored point", "statement": "For a tree made by the constructor and any sequence of insert calls, nearest_neighbor(q) returns a stored point with minimal Euclidean distance to q.", "quantifier": "every dimension, every list of points, every insertion history, every query", "why_tests_cant": "the pruning test must be safe for every split, including ties on the splitting plane", "anchors": ["mmcore/ds/bkdtree.py:BalancedKDTree.nearest_neighbor", "mmcore/ds/bkdtree.py:BalancedKDTree.insert", "mmcore/ds/bkdtree.py:_build_balanced"]}
{"id": "C09", "title": "k-d tree keeps its contents under insert, rebuild and delete", "statement": "The stored multiset after any history of insert and delete equals the multiset obtained by adding and removing one copy of the same points; delete of a stored point removes it.", "quantifier": "every history", "why_tests_cant": "rebuilds are triggered by size ratios deep inside a history", "anchors": ["mmcore/ds/bkdtree.py:BalancedKDTree.insert", "mmcore/ds/bkdtree.py:BalancedKDTree.delete"]}
{"id": "C10", "title": "k-nearest-neighbour query returns the k nearest points", "statement": "k_nearest_neighbors(q,k) returns min(k,n) stored points, sorted by distance, such that no stored point left out is strictly nearer than a returned one.", "quantifier": "every tree, query and k", "why_tests_cant": "the bound used for pruning is wrong only while fewer than k candidates are known", "anchors": ["mmcore/ds/bkdtree.py:BalancedKDTree.k_nearest_neighbors"]}
{"id": "C11", "title": "R*-tree range search returns every stored rectangle meeting the query", "statement": "After any sequence of insert calls, search(q) returns each stored entry whose rectangle meets q and nothing else.", "quantifier": "every insertion history and query rectangle", "why_tests_cant": "bounding boxes go stale only after splits at depth three", "anchors": ["mmcore/ds/tree/rtree.py:RStarTree.insert", "mmcore/ds/tree/rtree.py:RStarTree.search"]}
{"id": "C12", "title": "Quicksort returns the sorted permutation", "statement": "quicksort sorts the array in place: the result is a nondecreasing permutation of the input; arguments outside the sorted range are untouched.", "quantifier": "every array of every length over a total order", "why_tests_cant": "all permutations and tie patterns of all lengths", "anchors": ["mmcore/numeric/algorithms/_quicksort.c:quickSort", "mmcore/numeric/algorithms/_quicksort.c:partition"]}
{"id": "C13", "title": "argsort returns a permutation of indices that sorts the input", "statement": "argsort returns a permutation of range(n) such that reading the input through it is nondecreasing, and it leaves the input unchanged.", "quantifier": "every array", "why_tests_cant": "all permutations and tie patterns", "anchors": ["mmcore/numeric/algorithms/_quicksort.c:argSort", "mmcore/numeric/algorithms/quicksort.pyx:argsort"]}
{"id": "C14", "title": "unique returns each distinct value exactly once", "statement": "For sorted input, unique returns the strictly increasing list of the distinct input values; the tolerance variant drops an element exactly when it is within eps of its predecessor.", "quantifier": "every sorted array and tolerance", "why_tests_cant": "all run patterns of all lengths", "anchors": ["mmcore/numeric/algorithms/_unique.c:uniqueSorted", "mmcore/numeric/algorithms/_unique.c:uniqueSortedEps"]}
{"id": "C15", "title": "Interval arithmetic encloses the pointwise results", "statement": "For intervals a,b and every x in a, y in b: x+y lies in a+b, x-y in a-b, x*y in a*b, x/y in a/b (when 0 is not in b), x**n in a**n.", "quantifier": "all intervals, all points in them, all exponents", "why_tests_cant": "an enclosure is a universally quantified statement over a continuum", "anchors": ["mmcore/numeric/interval/_interval.py:Interval"]}
{"id": "C16", "title": "Interval subdivision and set operations", "statement": "subdivide pieces cover the interval exactly and only touch at endpoints; merge/or is the smallest interval holding both; and is exactly the common part when there is one.", "quantifier": "all intervals and all points", "why_tests_cant": "continuum of points", "anchors": ["mmcore/numeric/interval/_interval.py:Interval.subdivide", "mmcore/numeric/interval/_interval.py:Interval.__and__", "mmcore/numeric/interval/_interval.py:Interval.__or__"]}
{"id": "C17", "title": "aabb is the smallest box containing the points", "statement": "aabb(points) contains every point and is contained in every box that contains every point.", "quantifier": "every non-empty point list", "why_tests_cant": "all point sets of all sizes", "anchors": ["mmcore/numeric/_aabb.pyx:aabb", "mmcore/numeric/_aabb.pyx:caabb"]}
{"id": "C18", "title": "Box-overlap tests answer whether the boxes share a point", "statement": "aabb_intersect(a,b) is true exactly when some point lies in both boxes; it is symmetric; the reported intersection box is exactly the set of common points.", "quantifier": "every pair of well-formed boxes", "why_tests_cant": "continuum of boxes, touching cases", "anchors": ["mmcore/numeric/_aabb.pyx:aabb_intersect_fast_3d", "mmcore/numeric/_aabb.pyx:caabb_intersection_3d", "mmcore/numeric/_aabb.pyx:aabb_overlap"]}
{"id": "C19", "title": "Ray/box and segment/box clipping report exactly the part inside the box", "statement": "segment_aabb_clip returns the part of the segment inside the box and nothing when there is none; ray_aabb_intersect returns parameters tmin<=tmax of points in the box lying on the queried piece.", "quantifier": "every box and segment/ray", "why_tests_cant": "slab tests fail on particular orderings of entry and exit parameters", "anchors": ["mmcore/numeric/_aabb.pyx:_ray_aabb_intersect", "mmcore/numeric/_aabb.pyx:_segment_aabb_intersect", "mmcore/numeric/_aabb.pyx:segment_aabb_clip"]}
{"id": "C20", "title": "Point-in-polygon through the BVH agrees with plain ray casting", "statement": "is_point_in_polygon_bvh(polygon_build_bvh(segments(P)), q) equals is_point_in_polygon(P, q).", "quantifier": "every non-empty polygon and every query point", "why_tests_cant": "pruning at every tree node must be safe for every polygon", "anchors": ["mmcore/geom/polygon.py:is_point_in_polygon", "mmcore/geom/polygon.py:is_point_in_polygon_bvh", "mmcore/geom/polygon.py:polygon_build_bvh"]}
{"id": "C21", "title": "Polygon area does not depend on start vertex, direction or position", "statement": "polygon_area is non-negative, unchanged by rotating the vertex list, reversing it, or translating the polygon, scales with the square of a dilation, and is additive under cutting along a chord (signed version).", "quantifier": "every closed vertex list", "why_tests_cant": "all polygons", "anchors": ["mmcore/geom/polygon.py:polygon_area"]}
{"id": "C22", "title": "Segment intersection returns the common point", "statement": "intersect(s,c) returns a point only if it lies strictly inside both segments, together with the parameters that reproduce it; and non-parallel segments that cross strictly inside always get a result.", "quantifier": "all pairs of segments", "why_tests_cant": "continuum of configurations", "anchors": ["mmcore/geom/polygon.py:Polygon.intersect", "mmcore/geom/polygon.py:Polygon.clip"]}
{"id": "C23", "title": "Sutherland-Hodgman clip stays inside the clip polygon", "statement": "Every vertex returned by clip(subject, clipPolygon) for a convex clockwise/counter-clockwise clip polygon lies inside every half-plane of the clip polygon, and a subject entirely inside is returned unchanged up to rotation.", "quantifier": "every subject polygon and every convex clip polygon", "why_tests_cant": "induction over clip edges with arbitrary intermediate polygons", "anchors": ["mmcore/geom/polygon.py:clip"]}
{"id": "C24", "title": "Convex hull encloses the input with vertices taken from the input", "statement": "convex_hull2d returns points of the input only, as a strictly convex counter-clockwise polygon that starts at the lowest (then leftmost) input point, and every input point lies in the convex hull of the result.", "quantifier": "every point list", "why_tests_cant": "all point sets", "anchors": ["mmcore/geom/polygon.py:convex_hull2d", "mmcore/geom/polygon.py:orientation"]}
{"id": "C25", "title": "BVH contains every object exactly once, each inside its ancestors' boxes", "statement": "The leaves of build_bvh(objs) are a permutation of objs and every node's box contains the boxes of all objects below it.", "quantifier": "every non-empty list of boxed objects", "why_tests_cant": "recursion over all lists", "anchors": ["mmcore/geom/bvh/__init__.py:build_bvh", "mmcore/geom/bvh/__init__.py:split_objects"]}
{"id": "C26", "title": "BVH queries lose nothing", "statement": "traverse_bvh returns exactly the stored objects whose box meets the query box; intersect_bvh_objects returns exactly the pairs of objects whose boxes meet, each once.", "quantifier": "every pair of BVHs built from object lists and every query box", "why_tests_cant": "pruning correctness for all trees", "anchors": ["mmcore/geom/bvh/__init__.py:traverse_bvh", "mmcore/geom/bvh/__init__.py:intersect_bvh_objects"]}
{"id": "C27", "title": "BVH closest-object search returns a closest object", "statement": "The breadth search for the leaf closest to a point returns a leaf whose box distance is minimal.", "quantifier": "every BVH and point", "why_tests_cant": "greedy descent fails only on special layouts", "anchors": ["mmcore/geom/bvh/__init__.py:_find_closest_breadth"]}
{"id": "C28", "title": "Bounding-box mutators keep every query consistent", "statement": "After split/expand on a bvh BoundingBox the pieces tile the box and later intersect/contains queries use the new bounds.", "quantifier": "every box, parameter and query", "why_tests_cant": "depends on cached fields across a history of calls", "anchors": ["mmcore/geom/bvh/__init__.py:BoundingBox.split", "mmcore/geom/bvh/__init__.py:BoundingBox.expand", "mmcore/geom/bvh/__init__.py:BoundingBox.intersect"]}
{"id": "C29", "title": "Quadtree/octree leaves tile the domain", "statement": "build_tree2d/build_tree3d at depth i gives 4^i / 8^i leaves whose boxes cover the domain, have pairwise disjoint interiors and measure summing to the domain's measure.", "quantifier": "every domain box and every depth", "why_tests_cant": "all depths", "anchors": ["mmcore/geom/implicit/tree/collapse2d.py:build_tree2d", "mmcore/geom/implicit/tree/cbuild_tree3d.pyx:build_tree3d"]}
{"id": "C30", "title": "Collapse classifies cells consistently", "statement": "collapse2d turns a cell into Full/Empty only if every leaf below it has all corners inside/outside, and keeps exactly the leaves with mixed corners.", "quantifier": "every implicit function and tree", "why_tests_cant": "all functions and all trees", "anchors": ["mmcore/geom/implicit/tree/collapse2d.py:collapse2d"]}
{"id": "C31", "title": "Divide-and-conquer minimisation brackets the minimiser", "statement": "For a function strictly unimodal on [a,b], the search interval always contains the minimiser and the returned argument is within tol of it; the result always lies in [a,b].", "quantifier": "every unimodal function, range and tolerance", "why_tests_cant": "functions are infinite objects", "anchors": ["mmcore/numeric/divide_and_conquer.py:recursive_divide_and_conquer_min", "mmcore/numeric/divide_and_conquer.py:iterative_divide_and_conquer_min"]}
{"id": "C32", "title": "Divide-and-conquer root finder finds the root", "statement": "For a function with a root inside the range, recursive_divide_and_conquer_roots returns an argument within tol of a root.", "quantifier": "every function and range", "why_tests_cant": "depends on the function's shape", "anchors": ["mmcore/numeric/divide_and_conquer.py:recursive_divide_and_conquer_roots"]}
{"id": "C33", "title": "find_span returns the knot span containing the parameter", "statement": "For a clamped nondecreasing knot vector and a parameter in the domain, find_span returns i with U[i] <= u < U[i+1] (the last non-empty span at the right end), for every multiplicity pattern.", "quantifier": "every knot vector, degree and parameter", "why_tests_cant": "binary search over arbitrary repeated knots, including termination", "anchors": ["mmcore/geom/nurbs.pxd:find_span_inline", "mmcore/geom/nurbs.pyx:find_span", "mmcore/geom/curves/knot.py:find_span_linear"]}
{"id": "C34", "title": "B-spline basis functions are the Cox-de Boor functions", "statement": "basis_funs returns the p+1 non-zero Cox-de Boor basis values at u; they are non-negative and sum to one.", "quantifier": "every degree, knot vector and parameter in the span", "why_tests_cant": "all degrees and knot vectors", "anchors": ["mmcore/geom/nurbs.pxd:basis_funs"]}
{"id": "C35", "title": "A B-spline curve stays in the convex hull of its active control points", "statement": "Every evaluated point of a curve with positive weights is a convex combination of the degree+1 control points of its span; hence the control-point bounding box contains the curve.", "quantifier": "every curve, every parameter", "why_tests_cant": "continuum of parameters", "anchors": ["mmcore/geom/nurbs.pxd:curve_point", "mmcore/geom/nurbs.pyx:NURBSCurve.bbox"]}
{"id": "C36", "title": "Knot insertion does not change the curve", "statement": "Inserting a knot gives a curve with one more control point and knot, same degree, whose value is unchanged at every parameter.", "quantifier": "every curve, knot and parameter", "why_tests_cant": "functional equality over a continuum for all degrees", "anchors": ["mmcore/geom/nurbs.pyx:knot_insertion", "mmcore/geom/nurbs.pyx:NURBSCurve.insert_knot"]}
{"id": "C37", "title": "Cached evaluation always equals evaluation of the current data", "statement": "For any sequence of edits (control points, weights, knots, degree, insert_knot, copy) and evaluate calls, evaluate(t) returns the value computed from the object's current data.", "quantifier": "every history of edits and evaluations, every copy", "why_tests_cant": "staleness appears only for particular edit/evaluate interleavings", "anchors": ["mmcore/geom/nurbs.pyx:NURBSCurve.evaluate", "mmcore/geom/nurbs.pyx:NURBSCurve.copy", "mmcore/geom/nurbs.pyx:NURBSCurve.degree"]}
{"id": "C38", "title": "Curve serialisation round-trips", "statement": "deserialize(serialize(c)) gives a curve with the same degree, periodicity, control points and knots; any other magic or version is rejected.", "quantifier": "every curve", "why_tests_cant": "all sizes and values", "anchors": ["mmcore/geom/nurbs.pyx:NURBSCurve.cserialize", "mmcore/geom/nurbs.pyx:NURBSCurve.cdeserialize"]}
{"id": "C39", "title": "Reversing a curve reverses its parametrisation", "statement": "reverse_curve gives a curve on the same domain with C'(a+b-t) = C(t); reversing twice gives back the original data.", "quantifier": "every curve and parameter", "why_tests_cant": "continuum of parameters", "anchors": ["mmcore/geom/nurbs.pyx:reverse_curve"]}
{"id": "C40", "title": "Bezier/monomial conversions are inverse and preserve the polynomial", "statement": "monomial_to_bezier inverts bezier_to_monomial, and both forms evaluate to the same value at every parameter.", "quantifier": "every degree and coefficient list", "why_tests_cant": "all degrees", "anchors": ["mmcore/numeric/monomial.py:bezier_to_monomial", "mmcore/numeric/monomial.py:monomial_to_bezier"]}
{"id": "C41", "title": "Degree elevation does not change a Bezier curve", "statement": "degree_elevation_bez gives degree+1 control points' curve equal to the original at every parameter.", "quantifier": "every degree, control polygon, parameter", "why_tests_cant": "all degrees", "anchors": ["mmcore/geom/curves/knot.py:degree_elevation_bez"]}
{"id": "C42", "title": "2x2 solvers return the solution or report singularity", "statement": "solve2x2 returns failure exactly when the determinant is zero and otherwise the unique solution; cinvert_jacobian returns the inverse.", "quantifier": "all matrices and right-hand sides", "why_tests_cant": "continuum", "anchors": ["mmcore/numeric/vectors.pyx:solve2x2", "mmcore/numeric/vectors.pyx:cinvert_jacobian", "mmcore/numeric/calgorithms.pxd:solve2x2"]}
{"id": "C43", "title": "Plane intersection returns a point on all planes", "statement": "plane_plane_plane_intersect of planes with linearly independent normals returns the common point; plane_plane_intersect of non-parallel planes returns a point on both and their common direction.", "quantifier": "all planes in general position", "why_tests_cant": "pivoting fails only for particular zero patterns", "anchors": ["mmcore/numeric/plane/cplane.pyx:cplane_plane_plane_intersect", "mmcore/numeric/plane/cplane.pyx:cplane_plane_intersect", "mmcore/numeric/plane/cplane.pyx:find_max_row_3x3"]}
{"id": "C44", "title": "Plane local/world coordinate maps are inverse", "statement": "For an orthonormal frame, inverse_evaluate_plane(pln, evaluate_plane(pln,p)) = p and conversely.", "quantifier": "every orthonormal plane and point", "why_tests_cant": "continuum", "anchors": ["mmcore/numeric/plane/cplane.pyx:cevaluate_plane", "mmcore/numeric/plane/cplane.pyx:cinverse_evaluate_plane"]}
{"id": "C45", "title": "Ray/plane and triangle/segment intersections are sound and complete", "statement": "A reported hit lies on the plane/triangle and on the ray/segment at the reported parameters; a non-parallel crossing (away from the tolerance band) is always reported.", "quantifier": "all rays, planes, triangles, segments", "why_tests_cant": "continuum", "anchors": ["mmcore/numeric/plane/cplane.pyx:_ray_plane_intersect", "mmcore/numeric/plane/cplane.pyx:_ray_param_plane_intersect", "mmcore/numeric/algorithms/moller.pyx:_intersect_triangle_segment"]}
{"id": "C46", "title": "Implicit booleans are set operations", "statement": "A point is inside Union2D/3D(a,b) iff inside a or b, Intersection iff inside both, Sub2D/3D(a,b) iff inside a and outside b; the reported bounds contain the resulting set.", "quantifier": "all implicit shapes and points", "why_tests_cant": "continuum", "anchors": ["mmcore/geom/implicit/implicit.py:Union2D", "mmcore/geom/implicit/implicit.py:Intersection2D", "mmcore/geom/implicit/implicit.py:Sub2D", "mmcore/geom/implicit/implicit.py:op_subtraction"]}
{"id": "C47", "title": "STEP writer ids are unique and references point backwards", "statement": "Any sequence of add_* calls on a StepWriter produces entity numbers that are unique and increasing, and every #n reference emitted by a call refers to an entity already emitted.", "quantifier": "every history of writer calls", "why_tests_cant": "unbounded histories with memoised contexts", "anchors": ["mmcore/compat/step/step_writer.py:StepWriter.add_entity", "mmcore/compat/step/step_writer.py:StepWriter.next_ref"]}
{"id": "C48", "title": "Knot multiplicities round-trip", "statement": "get_knot_multiplicities returns values and multiplicities with multiplicities summing to the number of knots, and expanding them restores the knot vector up to the tolerance.", "quantifier": "every knot vector", "why_tests_cant": "all run patterns", "anchors": ["mmcore/compat/step/step_writer.py:get_knot_multiplicities"]}
{"id": "C49", "title": "BRep registries deduplicate and index consistently", "statement": "After any sequence of add_vertex/add_edge/add_curve calls with checking on, equal geometry gets one index, item i reports index i, and the vertex adjacency table is symmetric.", "quantifier": "every history of add calls", "why_tests_cant": "unbounded histories", "anchors": ["mmcore/topo/brep/__init__.py:BRepGeometry.add", "mmcore/topo/brep/__init__.py:Sparce", "mmcore/topo/brep/__init__.py:BRep.add_edge"]}
{"id": "C50", "title": "api bounding boxes: copy, contains, combine and intersects", "statement": "copy() of a box equals the box; contains(p) holds exactly when min<=p<=max on every axis; combine is the smallest enclosing box; intersects iff a point is shared.", "quantifier": "all boxes and points", "why_tests_cant": "continuum", "anchors": ["mmcore/api/bbox.py:BaseBoundingBox.copy", "mmcore/api/bbox.py:BoundingBox3D.contains", "mmcore/api/bbox.py:BaseBoundingBox.combine"]}
{"id": "C51", "title": "k-d tree nearest neighbour stays right after deletes", "statement": "After any history of insert and delete, nearest_neighbor(q) returns a stored point with minimal distance to q.", "quantifier": "every history of inserts and deletes, every query", "why_tests_cant": "a wrong split invariant only shows for particular deletion orders followed by particular queries", "anchors": ["mmcore/ds/bkdtree.py:BalancedKDTree._delete_rec", "mmcore/ds/bkdtree.py:BalancedKDTree.nearest_neighbor"]}
{"id": "C52", "title": "Tolerance unique keeps a representative near every input", "statement": "Every value given to uniqueSortedEps is within eps of a value in its output.", "quantifier": "every array and eps >= 0", "why_tests_cant": "chains of close values of any length", "anchors": ["mmcore/numeric/algorithms/_unique.c:uniqueSortedEps"]}
{"id": "C53", "title": "Interval comparisons are definite", "statement": "a < b (a > b) on intervals is reported exactly when every point of a is below (above) every point of b, and likewise against a plain number.", "quantifier": "all intervals, all points", "why_tests_cant": "continuum of points", "anchors": ["mmcore/numeric/interval/_interval.py:Interval.compare"]}
{"id": "C54", "title": "Evaluating a curve terminates at every parameter of its interval", "statement": "For every curve with nondecreasing knots, evaluate(t) returns for every t in interval(); the knot span search never runs forever.", "quantifier": "every knot vector, degree, parameter", "why_tests_cant": "non-termination cannot be observed by a test and depends on the knot vector shape", "anchors": ["mmcore/geom/nurbs.pxd:find_span_inline", "mmcore/geom/nurbs.pyx:NURBSCurve.evaluate"]}
{"id": "C55", "title": "A periodic curve is evaluated periodically", "statement": "For a curve flagged periodic, evaluate(t + k*period) = evaluate(t) for every integer k, and inside the domain the flag does not change values.", "quantifier": "every periodic curve, parameter and number of periods", "why_tests_cant": "continuum of parameters and all periods", "anchors": ["mmcore/geom/nurbs.pxd:find_span_inline", "mmcore/geom/nurbs.pxd:curve_point"]}
{"id": "C56", "title": "Splitting a curve gives its two halves", "statement": "split_curve(c, t) for t strictly inside the domain returns two well-formed curves on [a,t] and [t,b] that take the values of c there, both ends included.", "quantifier": "every curve, split parameter and evaluation parameter", "why_tests_cant": "functional equality over a continuum for all degrees, multiplicities and weights", "anchors": ["mmcore/geom/nurbs.pyx:split_curve", "mmcore/geom/nurbs.pyx:split_curve2"]}
{"id": "C57", "title": "Splitting at many parameters and decomposing at the knots gives consecutive pieces", "statement": "split_curve_multiple(c, ts) for increasing ts (and decompose_curve) returns one well-formed curve per interval, in order, each equal to c on its interval.", "quantifier": "every curve and increasing parameter list", "why_tests_cant": "list length and parameters unbounded", "anchors": ["mmcore/geom/nurbs.pyx:split_curve_multiple", "mmcore/geom/nurbs.pyx:decompose_curve"]}
{"id": "C58", "title": "flip returns the reversed curve", "statement": "NURBSCurve.flip() returns a well-formed curve (nondecreasing knots) with C'(a+b-t) = C(t).", "quantifier": "every curve and parameter", "why_tests_cant": "continuum of parameters", "anchors": ["mmcore/geom/nurbs.pyx:NURBSCurve.flip"]}
{"id": "C59", "title": "trim returns the well-formed part of the curve", "statement": "trim(t1, t2) inside the domain returns a curve whose knot count is control points + degree + 1 and which starts at C(t1) and ends at C(t2).", "quantifier": "every curve and pair of parameters", "why_tests_cant": "all shapes of knot vectors; depends on memory after the knot buffer", "anchors": ["mmcore/geom/nurbs.pyx:NURBSCurve.trim"]}
{"id": "C60", "title": "Greville abscissae are ordered and lie in the domain", "statement": "greville_abscissae(knots, p)[i] lies between knots[i+1] and knots[i+p], and the sequence is nondecreasing.", "quantifier": "every nondecreasing knot vector and degree", "why_tests_cant": "all degrees and knot vectors", "anchors": ["mmcore/geom/nurbs.pyx:greville_abscissae"]}
{"id": "C61", "title": "Surface evaluation is the tensor-product rational spline", "statement": "For every well-formed surface and every (u,v) in the domain, evaluate_v2/evaluate returns the quotient of Σ N_i(u) N_j(v) P_ij and Σ N_i(u) N_j(v) w_ij over the homogeneous control points, with the textbook Cox-de Boor basis functions.", "quantifier": "every surface, degree, knot vectors, weights, parameter pair", "why_tests_cant": "continuum of parameters and arbitrary knot vectors", "anchors": ["mmcore/geom/nurbs.pyx:surface_point", "mmcore/geom/nurbs.pyx:NURBSSurface.cevaluate"]}
{"id": "C62", "title": "Surface knot insertion does not change the surface", "statement": "insert_knot in u or in v, with the resulting multiplicity at most the degree, returns a well-formed surface that evaluates to the same point everywhere; holds for arbitrary weights.", "quantifier": "every surface, insertion parameter and count, evaluation parameter", "why_tests_cant": "continuum of parameters", "anchors": ["mmcore/geom/nurbs.pyx:NURBSSurface.insert_knot"]}
{"id": "C63", "title": "Splitting a surface in u or v gives exactly its two parts", "statement": "split_surface_u(s,t) and split_surface_v(s,t) at an inner parameter return two well-formed surfaces that agree with s on the two sides of t and together cover the domain.", "quantifier": "every surface, parameter of split, evaluation parameter", "why_tests_cant": "continuum of parameters", "anchors": ["mmcore/geom/nurbs.pyx:split_surface_u", "mmcore/geom/nurbs.pyx:split_surface_v"]}
{"id": "C64", "title": "Surface bounding box contains the surface", "statement": "With positive weights, bbox() contains every point of the surface.", "quantifier": "every surface with positive weights, every parameter pair", "why_tests_cant": "continuum of parameters", "anchors": ["mmcore/geom/nurbs.pyx:NURBSSurface.bbox"]}
{"id": "C65", "title": "subdivide and decompose cover the surface without gaps", "statement": "subdivide_surface(s,u,v) returns four surfaces equal to s on the four rectangles; decompose_surface returns one surface per cell of the grid of inner knots, each equal to s on its cell.", "quantifier": "every surface and split parameter", "why_tests_cant": "arbitrary number of inner knots; continuum of parameters", "anchors": ["mmcore/geom/nurbs.pyx:subdivide_surface", "mmcore/geom/nurbs.pyx:decompose_surface"]}
{"id": "C66", "title": "normalize_knots only reparametrises", "statement": "After normalize_knots both knot vectors run from 0 to 1 and the surface (curve) at the affinely mapped parameter equals the old surface (curve) at the old parameter.", "quantifier": "every surface, every curve, every parameter", "why_tests_cant": "continuum of parameters", "anchors": ["mmcore/geom/nurbs.pyx:NURBSSurface.normalize_knots", "mmcore/geom/nurbs.pyx:NURBSCurve.normalize_knots"]}
{"id": "C67", "title": "Default knot vectors are well formed", "statement": "A surface or curve built without knots has nondecreasing clamped knots of the right length with simple inner knots and domain [0, n-p].", "quantifier": "every degree and number of control points", "why_tests_cant": "unbounded sizes", "anchors": ["mmcore/geom/nurbs.pyx:NURBSSurface.generate_knots_u", "mmcore/geom/nurbs.pyx:NURBSSurface.generate_knots_v", "mmcore/geom/nurbs.pyx:NURBSCurve.generate_knots"]}
{"id": "C68", "title": "make_periodic closes the curve", "statement": "make_periodic() keeps the control points, continues them with the first degree points, and the resulting curve is closed: same point at both ends of its domain, and is_closed() returns True.", "quantifier": "every curve", "why_tests_cant": "all degrees and control polygons", "anchors": ["mmcore/geom/nurbs.pyx:NURBSCurve.make_periodic", "mmcore/geom/nurbs.pyx:NURBSCurve.is_periodic", "mmcore/geom/parametric.pyx:ParametricCurve.is_closed"]}
{"id": "C69", "title": "is_periodic is exact and make_open leaves open curves alone", "statement": "is_periodic() is True exactly when the last degree control points repeat the first ones; make_open() on an open curve returns it unchanged.", "quantifier": "every curve", "why_tests_cant": "all degrees and control polygons", "anchors": ["mmcore/geom/nurbs.pyx:NURBSCurve.is_periodic", "mmcore/geom/nurbs.pyx:NURBSCurve.make_open"]}
{"id": "C70", "title": "BVH segment query is exact", "statement": "bvh_segment_intersection on a tree built from a list of objects returns exactly the objects whose box the segment passes through, each once, and the loop ends.", "quantifier": "every non-empty list of boxed objects and every segment whose direction components are zero or above the slab tolerance", "why_tests_cant": "stack order and pruning over all trees and segments", "anchors": ["mmcore/geom/bvh/__init__.py:bvh_segment_intersection", "mmcore/numeric/_aabb.pyx:segment_aabb_clip"]}
{"id": "C71", "title": "build_bvh does not disturb the list it is given", "statement": "After build_bvh(objects) the caller's list holds the same objects in the same order.", "quantifier": "every list and leaf size", "why_tests_cant": "a side effect on an argument for all lists", "anchors": ["mmcore/geom/bvh/__init__.py:split_objects", "mmcore/geom/bvh/__init__.py:build_bvh"]}
{"id": "C72", "title": "traverse_bvh_point keeps every candidate", "statement": "traverse_bvh_point returns None exactly outside the root box, and otherwise a subtree that holds every leaf whose box contains the point.", "quantifier": "every tree built by build_bvh and every point", "why_tests_cant": "merging of the two recursive answers over all trees", "anchors": ["mmcore/geom/bvh/__init__.py:traverse_bvh_point"]}
{"id": "C73", "title": "reduce undoes collapse", "statement": "collapse2d(shape, tree).reduce() gives back the tree that was collapsed, so collapsing again for another shape behaves as on the original tree.", "quantifier": "every shape function and every tree of leaves and roots", "why_tests_cant": "all shapes and all trees", "anchors": ["mmcore/geom/implicit/tree/collapse2d.py:collapse2d", "mmcore/geom/implicit/tree/collapse2d.py:Root"]}
{"id": "C74", "title": "Implicit tree lists partition the domain", "statement": "After ImplicitTree2D/3D.build, full, empty and border cells together tile the bounds; border cells are exactly the leaf cells with corners on both sides; full (empty) cells consist of leaf cells with all corners inside (outside) and contain all of those; rebuilding gives the same lists whatever the object did before.", "quantifier": "every shape, bounds, depth and previous state", "why_tests_cant": "all shapes, depths and histories", "anchors": ["mmcore/geom/implicit/tree/tree2d.py:ImplicitTree2D", "mmcore/geom/implicit/tree/tree3d.py:ImplicitTree3D"]}
{"id": "C75", "title": "Adaptive octree leaves tile the root and fit the target", "statement": "create_octree terminates for targets above the rounding of the dimensions; its leaves tile the root box and every leaf is within the target on every axis; calling it again keeps that.", "quantifier": "every box, target and rounding within the stated error", "why_tests_cant": "all boxes and targets, unbounded recursion", "anchors": ["mmcore/geom/implicit/tree/octree.py:create_octree", "mmcore/geom/implicit/tree/utils.py:find_division_option"]}
{"id": "C76", "title": "closest_node finds the leaf containing the point", "statement": "On an octree from create_octree, closest_node returns a leaf containing the point when the point is in the root box, and None otherwise.", "quantifier": "every octree and every point", "why_tests_cant": "all octrees and points", "anchors": ["mmcore/geom/implicit/tree/octree.py:closest_node"]}
{"id": "C77", "title": "traverse refines every leaf", "statement": "Each call of traverse after create_octree splits every leaf in eight; the leaves keep tiling the root box and closest_node keeps working, for any number of calls.", "quantifier": "every octree and number of calls", "why_tests_cant": "unbounded histories", "anchors": ["mmcore/geom/implicit/tree/octree.py:traverse", "mmcore/geom/implicit/tree/octree.py:OCNode.create_children"]}
{"id": "C78", "title": "OCNode box predicates", "statement": "contains_point, in_bbox, contains_bbox and overlap decide membership, inclusion (both ways) and having a common point.", "quantifier": "all valid boxes and points", "why_tests_cant": "all real boxes", "anchors": ["mmcore/geom/implicit/tree/octree.py:OCNode"]}
{"id": "C79", "title": "Planar division tiles the cell", "statement": "find_division_option_2d returns pieces tiling the cell, dividing only the dimensions above the target, and raises exactly when no dimension is above.", "quantifier": "every cell, division point, dimensions and target", "why_tests_cant": "all reals", "anchors": ["mmcore/geom/implicit/tree/utils.py:find_division_option_2d", "mmcore/geom/implicit/tree/utils.py:divide_2d"]}
{"id": "C80", "title": "power_of_two", "statement": "power_of_two(x) is the least power of two not below x (its comment says the closest).", "quantifier": "every positive integer", "why_tests_cant": "infinitely many integers", "anchors": ["mmcore/geom/implicit/tree/utils.py:power_of_two"]}
{"id": "C81", "title": "Two dimensional divide and conquer search", "statement": "divide_and_conquer_min_2d returns, for every positive tolerance, a point of the range, after shrinking its box below the tolerance in both directions while keeping the best point sampled; the point is the minimum to within the tolerance.", "quantifier": "every function, range and positive tolerance", "why_tests_cant": "all functions on the plane, unbounded number of rounds", "anchors": ["mmcore/numeric/divide_and_conquer.py:divide_and_conquer_min_2d"]}
{"id": "C82", "title": "Vectorised search agrees with the scalar search", "statement": "divide_and_conquer_min_2d_vectorized gives in each column what the scalar search gives for that column (at half the tolerance).", "quantifier": "every list of columns", "why_tests_cant": "all functions and column counts", "anchors": ["mmcore/numeric/divide_and_conquer.py:divide_and_conquer_min_2d_vectorized"]}
{"id": "C83", "title": "n-dimensional divide and conquer search", "statement": "divide_and_conquer_min_nd with two variables returns a point of the range which is the minimum to within the tolerance.", "quantifier": "every function, range and tolerance", "why_tests_cant": "all functions", "anchors": ["mmcore/numeric/divide_and_conquer.py:divide_and_conquer_min_nd"]}
{"id": "C84", "title": "bisection1d scan", "statement": "bisection1d ends for every positive step, reports the least value on its grid, every grid zero and every sign change exactly once and nothing else.", "quantifier": "every function, start, stop and positive step", "why_tests_cant": "all functions, unbounded grids", "anchors": ["mmcore/numeric/bisection.py:bisection1d"]}
{"id": "C85", "title": "bisection_2d finds a root", "statement": "bisection_2d returns None exactly when the two diagonal corners have values of the same sign; otherwise it ends and returns a point within the tolerance, in each coordinate, of a root in the range.", "quantifier": "every continuous function, range and positive tolerance", "why_tests_cant": "all continuous functions", "anchors": ["mmcore/numeric/bisection.py:bisection_2d"]}
{"id": "C86", "title": "scalar_min_1d finds the minimum", "statement": "scalar_min_1d returns a point within the step of the minimiser of a unimodal function.", "quantifier": "every unimodal function, range, step and number of divisions", "why_tests_cant": "all unimodal functions, unbounded recursion", "anchors": ["mmcore/numeric/bisection.py:scalar_min_1d"]}
{"id": "C87", "title": "decompose_vector", "statement": "decompose_vector writes the coefficients of the orthogonal projection of a vector on the span of two vectors (the exact coefficients when it lies in the span), and reports dependent vectors.", "quantifier": "all vectors", "why_tests_cant": "continuum; uninitialised output on the failing branch", "anchors": ["mmcore/numeric/vectors.pyx:decompose_vector"]}
{"id": "C88", "title": "Vector projection and closest point on a line", "statement": "vector_projection(a,b) is the closest multiple of b to a with orthogonal residual; closest_point_on_line returns the point of the line closest to the given point.", "quantifier": "all vectors, lines and points", "why_tests_cant": "continuum", "anchors": ["mmcore/numeric/vectors.pyx:vector_projection", "mmcore/numeric/vectors.pyx:closest_point_on_line", "mmcore/numeric/vectors.pyx:closest_point_on_ray"]}
{"id": "C89", "title": "Gram-Schmidt", "statement": "Every Gram-Schmidt variant gives a vector orthogonal to the (unit) first vector and in the span of both, also when writing over its argument.", "quantifier": "all vectors", "why_tests_cant": "continuum; aliasing", "anchors": ["mmcore/numeric/vectors.pyx:gram_schmidt", "mmcore/numeric/vectors.pyx:scalar_gram_schmidt", "mmcore/numeric/vectors.pyx:gram_schmidt_emplace"]}
{"id": "C90", "title": "Row products", "statement": "dot, dot_array_x_array, dot_vec_x_array, dot_array_x_vec and matmul return the sums of products, whatever the memory held before.", "quantifier": "all matrices and all initial memory contents", "why_tests_cant": "depends on uninitialised memory", "anchors": ["mmcore/numeric/vectors.pyx:dot", "mmcore/numeric/vectors.pyx:dot_array_x_array", "mmcore/numeric/vectors.pyx:dot_vec_x_array", "mmcore/numeric/vectors.pyx:dot_array_x_vec", "mmcore/numeric/vectors.pyx:matmul"]}
{"id": "C91", "title": "Plane constructors give right-handed orthonormal frames", "statement": "plane_from_normal2, plane_from_normal_origin and plane_from_3pt give a right-handed orthonormal frame with the requested origin and normal for every admissible input.", "quantifier": "all origins and normals, all non-collinear points", "why_tests_cant": "continuum", "anchors": ["mmcore/numeric/plane/__init__.py:plane_from_normal2", "mmcore/numeric/plane/__init__.py:plane_from_normal_origin", "mmcore/numeric/plane/__init__.py:plane_from_3pt", "mmcore/numeric/plane/__init__.py:perp_to_vector"]}
{"id": "C92", "title": "Plane equations", "statement": "plane_eq_from_pts vanishes exactly on the plane of the points and plane_signed_distance is the signed distance to it; plane_from_eq returns a point of the plane and its unit normal.", "quantifier": "all points and equations", "why_tests_cant": "continuum", "anchors": ["mmcore/numeric/plane/__init__.py:plane_eq_from_pts", "mmcore/numeric/plane/__init__.py:plane_signed_distance", "mmcore/numeric/plane/__init__.py:plane_from_eq"]}
{"id": "C93", "title": "Projection on a plane and distance to it", "statement": "project returns the closest point of the plane and leaves points of the plane alone; distance is the length of the difference.", "quantifier": "all planes with unit normal and points", "why_tests_cant": "continuum", "anchors": ["mmcore/numeric/plane/__init__.py:project", "mmcore/numeric/plane/__init__.py:project_point_by_normal", "mmcore/numeric/plane/__init__.py:distance"]}
{"id": "C94", "title": "plane_line_intersection", "statement": "The returned point is the only common point of plane and line, at the returned parameter; None is returned exactly when the line is parallel to within the tolerance.", "quantifier": "all planes, lines and positive tolerances", "why_tests_cant": "continuum", "anchors": ["mmcore/numeric/plane/__init__.py:plane_line_intersection"]}
{"id": "C95", "title": "Parallel triangle/segment test", "statement": "intersect_triangles_segment_parallel writes, under every interleaving of its iterations, what the sequential function writes.", "quantifier": "every interleaving of the iterations", "why_tests_cant": "all schedules", "anchors": ["mmcore/numeric/algorithms/moller.pyx:intersect_triangles_segment_parallel", "mmcore/numeric/algorithms/moller.pyx:intersect_triangles_segment"]}
{"id": "C96", "title": "Classification of triangle hits", "statement": "A hit at a vertex (within the tolerance) is classified as vertex and only then; a hit on an edge is classified as edge; interior hits as interior.", "quantifier": "all triangles and points", "why_tests_cant": "continuum", "anchors": ["mmcore/numeric/algorithms/moller.pyx:_classify_intersection", "mmcore/numeric/algorithms/moller.pyx:_point_on_edge"]}
{"id": "C97", "title": "Pivot search", "statement": "find_max_row returns the row with the entry of largest absolute value at or below the given row.", "quantifier": "all matrices and rows", "why_tests_cant": "peak search is right on unimodal columns only", "anchors": ["mmcore/numeric/plane/cplane.pyx:find_max_row_3x3"]}
{"id": "C98", "title": "support_vector", "statement": "support_vector returns a vertex with the largest inner product with the direction.", "quantifier": "all vertex lists and directions", "why_tests_cant": "unbounded lists", "anchors": ["mmcore/numeric/vectors.pyx:support_vector"]}
{"id": "C99", "title": "points_order", "statement": "points_order of a polygon is 1 for counterclockwise, 0 for clockwise and -1 for degenerate polygons, wherever the polygon is.", "quantifier": "all polygons and translations", "why_tests_cant": "unbounded lists", "anchors": ["mmcore/numeric/vectors.pyx:points_order", "mmcore/numeric/vectors.pyx:cdet"]}
{"id": "C100", "title": "Intersection of API boxes", "statement": "intersection of two boxes is None exactly when they share no point and otherwise the box of the common points.", "quantifier": "all valid boxes", "why_tests_cant": "continuum; relative positions", "anchors": ["mmcore/api/bbox.py:BoundingBox3D.intersection", "mmcore/api/bbox.py:BoundingBox2D.intersection"]}
{"id": "C101", "title": "API box operations change only their own box", "statement": "After every history of create, copy, intersection, expand, combine and corner assignment a call changes only the box it is made on, and that one to the documented value.", "quantifier": "every history of box calls", "why_tests_cant": "aliasing shows only for particular histories", "anchors": ["mmcore/api/bbox.py:BoundingBox3D.expand", "mmcore/api/bbox.py:BaseBoundingBox.copy", "mmcore/api/bbox.py:BaseBoundingBox.min_point"]}
{"id": "C102", "title": "Normals of implicit functions and projection", "statement": "normal_from_function2d/3d returns the unit normal of a (quadratic) function, and point_on_curve returns a point of the zero set of an affine function.", "quantifier": "all such functions, points and steps", "why_tests_cant": "continuum", "anchors": ["mmcore/geom/implicit/implicit.py:normal_from_function2d", "mmcore/geom/implicit/implicit.py:normal_from_function3d", "mmcore/geom/implicit/implicit.py:Implicit.point_on_curve"]}
{"id": "C103", "title": "NpCache is transparent", "statement": "In every history of calls and clears every call of an NpCache returns what the wrapped function returns.", "quantifier": "every history of calls and clears, every function", "why_tests_cant": "collisions of representations depend on the history", "anchors": ["mmcore/geom/implicit/implicit.py:NpCache"]}
{"id": "C104", "title": "STEP references have the right entity type", "statement": "After every history of writer calls the ends of every written edge are VERTEX_POINTs, the point of every vertex is a CARTESIAN_POINT, and the members of every edge loop are ORIENTED_EDGEs.", "quantifier": "every history of writer calls", "why_tests_cant": "unbounded histories", "anchors": ["mmcore/compat/step/step_writer.py:StepWriter.add_edge_curve", "mmcore/compat/step/step_writer.py:StepWriter.add_vertex_point"]}
{"id": "C105", "title": "A plane written to STEP is the plane", "statement": "The placement written by add_plane, read by the STEP rule (second argument z direction, third x direction), has the origin, normal and x axis of the plane.", "quantifier": "all planes and writer states", "why_tests_cant": "convention errors show only on reading back; continuum", "anchors": ["mmcore/compat/step/step_writer.py:StepWriter.add_plane", "mmcore/compat/step/step_writer.py:StepWriter.add_axis2_placement_3d"]}
{"id": "C106", "title": "A NURBS curve written to STEP can be read back", "statement": "From the file the degree, control points, weights and knots of every written curve can be restored.", "quantifier": "all curves and writer states", "why_tests_cant": "continuum; combination of entities", "anchors": ["mmcore/compat/step/step_writer.py:StepWriter.add_b_spline_curve_with_knots"]}
{"id": "C107", "title": "Edge loops written for surfaces are closed", "statement": "In the edge loop written for a surface every edge starts at the vertex (same instance) where the previous one ends.", "quantifier": "all surfaces and writer states", "why_tests_cant": "only visible on the graph of references", "anchors": ["mmcore/compat/step/step_writer.py:StepWriter.add_nurbs_surface"]}
{"id": "C108", "title": "STEP argument lists are parsed back", "statement": "parse_arguments returns for the text of every list of arguments (tokens, strings, nested lists, typed parameters, omitted arguments) the arguments in order.", "quantifier": "all argument trees of any depth", "why_tests_cant": "unbounded nesting", "anchors": ["mmcore/compat/step/step_writer.py:parse_arguments", "mmcore/compat/step/step_writer.py:process_token"]}
{"id": "C109", "title": "STEP instance lines are parsed back", "statement": "parse_assignment returns keyword and arguments for every instance line, in particular for the ones the writer writes.", "quantifier": "all instance lines", "why_tests_cant": "unbounded", "anchors": ["mmcore/compat/step/step_writer.py:parse_assignment"]}
{"id": "C110", "title": "BRep edges and faces are the ones asked for", "statement": "add_edge and add_face return an edge with the given curve and ends, a face with the given surface and loops, and asking again returns the same object.", "quantifier": "every history of calls, every request", "why_tests_cant": "wrong matches need particular histories (closed edges, holes)", "anchors": ["mmcore/topo/brep/__init__.py:BRep.add_edge", "mmcore/topo/brep/__init__.py:BRep.add_face"]}
{"id": "C111", "title": "nurbs_surf_to_brep makes a closed loop with shared vertices", "statement": "The face made of a surface has one edge per boundary with vertices at its ends, vertices of coincident ends shared, and the edges of its loop form a chain.", "quantifier": "all surfaces, including degenerate ones", "why_tests_cant": "continuum; coincidences of corners", "anchors": ["mmcore/topo/brep/__init__.py:nurbs_surf_to_brep"]}
{"id": "C112", "title": "Pickling a curve gives the same curve", "statement": "pickle.loads(pickle.dumps(c)) has the degree, control points, knots and periodicity of c.", "quantifier": "every curve, after every edit", "why_tests_cant": "depends on the rows that happen to be equal in periodic curves", "anchors": ["mmcore/geom/nurbs.pyx:NURBSCurve.__reduce__", "mmcore/geom/nurbs.pyx:NURBSCurve.__init__", "mmcore/geom/nurbs.pyx:NURBSCurve.is_periodic"]}
{"id": "C113", "title": "binomial_coefficient_py returns binomial coefficients", "statement": "binomial_coefficient_py(n, k) is n choose k.", "quantifier": "all n and k", "why_tests_cant": "a table of 961 numbers; indices beyond it read other memory without an error", "anchors": ["mmcore/numeric/binom.pyx:binomial_coefficient_py"]}
{"id": "C114", "title": "Products, derivatives and normals of monomial surfaces", "statement": "cross_product_monomial evaluates to the cross product of the values, monomial_partial_derivatives to the partial derivatives, and normal_vector_monomial to a vector orthogonal to both.", "quantifier": "all degrees, coefficients and parameters", "why_tests_cant": "identities of polynomials of every degree", "anchors": ["mmcore/numeric/monomial.py:cross_product_monomial", "mmcore/numeric/monomial.py:monomial_partial_derivatives", "mmcore/numeric/monomial.py:normal_vector_monomial"]}
{"id": "C115", "title": "Rational patches from homogeneous coefficients", "statement": "The patch made by homogeneous_monomial_to_rational_bezier evaluates to the projection of the homogeneous polynomial.", "quantifier": "all degrees, coefficients, parameters", "why_tests_cant": "identity of rational functions of every degree", "anchors": ["mmcore/numeric/monomial.py:homogeneous_monomial_to_rational_bezier", "mmcore/numeric/monomial.py:evaluate_rational_bezier_patch"]}
{"id": "C116", "title": "Coordinate systems of API matrices", "statement": "After matrix.set_with_coordinate_system(origin, axes), get_as_coordinate_system returns the same origin and axes and matrix @ p is origin + the sum of p_k * axis_k; set_to_align_coordinate_systems gives the matrix that maps one system to the other.", "quantifier": "for all origins and axes, in dimension 2 and 3 (model: any dimension)", "why_tests_cant": "Tests with an origin at zero and symmetric axes pass; the round trip holds exactly on that null set.", "anchors": ["mmcore/api/vectors.py:Matrix3D.set_with_coordinate_system", "mmcore/api/vectors.py:Matrix3D.get_as_coordinate_system", "mmcore/api/vectors.py:Matrix2D.set_to_align_coordinate_systems"]}
{"id": "C117", "title": "Rotation about a point", "statement": "Matrix2D.set_to_rotation(angle, origin) and Matrix3D.set_to_rotation(angle, axis, origin) give isometries that leave the given origin in place.", "quantifier": "for all angles, axes, origins and previous values of the matrix", "why_tests_cant": "Whether the centre is fixed depends on all of angle and centre; usual tests rotate about zero.", "anchors": ["mmcore/api/vectors.py:Matrix2D.set_to_rotation", "mmcore/api/vectors.py:Matrix3D.set_to_rotation"]}
{"id": "C118", "title": "Rotation of one vector to another", "statement": "After matrix.set_to_rotate_to(a, b) the image of a is a positive multiple of b.", "quantifier": "for all non-zero vectors a, b (and all previous values of the matrix)", "why_tests_cant": "Holds for a continuum of pairs of vectors; samples cannot show it, and the failing class in 3D is everything but parallel vectors.", "anchors": ["mmcore/api/vectors.py:Matrix2D.set_to_rotate_to", "mmcore/api/vectors.py:Matrix3D.set_to_rotate_to"]}
{"id": "C119", "title": "Composition, inverse and translation", "statement": "(A @ B) @ v = A @ (B @ v); after A.invert() the matrix undoes A on both sides; v.to_translation() @ p = p + v and translations add up.", "quantifier": "for all affine matrices, vectors and dimensions", "why_tests_cant": "Algebraic laws over all matrices.", "anchors": ["mmcore/api/_base_vectors.py:BaseMatrix.__matmul__", "mmcore/api/_base_vectors.py:BaseMatrix.invert", "mmcore/api/_base_vectors.py:BaseMatrix.transform", "mmcore/api/vectors.py:Vector3D.to_translation"]}
{"id": "C120", "title": "In-place operators", "statement": "x += y (and -=, *=) changes the vector x, no other one, and x still names that vector.", "quantifier": "for all vectors, variables and operators", "why_tests_cant": "The state of all other variables and vectors is involved.", "anchors": ["mmcore/api/_base_vectors.py:BaseVector.__iadd__", "mmcore/api/_base_vectors.py:BaseVector.__isub__", "mmcore/api/_base_vectors.py:BaseVector.__imul__", "mmcore/api/_base_vectors.py:BaseVector.subtract"]}
{"id": "C121", "title": "Predicates and measures of API vectors", "statement": "is_parallel, is_perpendicular and angle_to depend on the directions only and is_parallel is true exactly for parallel vectors; length is the norm and transform(matrix) succeeds for every matrix of the same dimension.", "quantifier": "for all vectors and tolerances", "why_tests_cant": "Unit vectors pass; the failing sets are of full measure and depend on lengths.", "anchors": ["mmcore/api/_base_vectors.py:BaseVector.is_parallel", "mmcore/api/vectors.py:Vector2D.is_parallel", "mmcore/api/_base_vectors.py:BaseVector.angle_to", "mmcore/api/vectors.py:Vector3D.length", "mmcore/api/vectors.py:Vector2D.transform"]}
{"id": "C122", "title": "Casts and constructors of the API", "statement": "Vector2D.cast and Vector3D.cast of a sequence keep its entries, cut or padded with zeros to the dimension; Matrix2D(cells) has the given cells.", "quantifier": "for all sequences of any length and all cells", "why_tests_cant": "Non-termination of cast for short sequences and the loss of all cells are statements about every input.", "anchors": ["mmcore/api/vectors.py:Vector2D.cast", "mmcore/api/vectors.py:Vector3D.cast", "mmcore/api/vectors.py:Matrix2D.__init__", "mmcore/api/vectors.py:Matrix3D.__init__"]}
{"id": "C123", "title": "Basis functions of all degrees", "statement": "all_basis_funs(span, u, p, U) returns in column j the values at u of all B-spline basis functions of degree j that can be non-zero on the span, for all j up to p.", "quantifier": "for all non-decreasing knot vectors, degrees, parameters of the domain", "why_tests_cant": "All degrees and knot vectors, including repeated knots and parameters at knots.", "anchors": ["mmcore/geom/nurbs.pyx:all_basis_funs", "mmcore/geom/nurbs.pyx:find_span"]}
{"id": "C124", "title": "Derivatives of basis functions", "statement": "ders_basis_funs(i, u, p, n, U, ders) stores in ders[k][j] the k-th derivative at u of the j-th basis function of the span and leaves the rest of the buffer alone; derivatives of all functions add up to zero.", "quantifier": "for all non-decreasing knot vectors, degrees p, orders k <= n <= p, parameters of the domain", "why_tests_cant": "The recurrence alternates two rows of a work array for every order; tests see a few degrees.", "anchors": ["mmcore/geom/nurbs.pyx:ders_basis_funs"]}
{"id": "C125", "title": "Derivatives of curves", "statement": "derivatives1, derivatives2, derivative and second_derivative of a NURBS curve return the derivatives of evaluate with respect to the parameter, and the two algorithms agree.", "quantifier": "for all curves (weights included), parameters and orders", "why_tests_cant": "A limit statement at every parameter; finite differences only approximate it.", "anchors": ["mmcore/geom/nurbs.pyx:NURBSCurve.derivative", "mmcore/geom/nurbs.pyx:NURBSCurve.derivatives1", "mmcore/geom/nurbs.pyx:NURBSCurve.derivatives2", "mmcore/geom/nurbs.pyx:NURBSCurve.second_derivative", "mmcore/geom/nurbs.pyx:curve_derivs_alg1", "mmcore/geom/nurbs.pyx:curve_derivs_alg2"]}
{"id": "C126", "title": "Control points of the derivative", "statement": "derivative_control_points(t, d) returns in row k the control points that represent the k-th derivative on the span of t over the basis functions of degree p - k.", "quantifier": "for all curves, parameters and orders", "why_tests_cant": "A statement about functions on a whole span, and about every call raising.", "anchors": ["mmcore/geom/nurbs.pyx:NURBSCurve.derivative_control_points", "mmcore/geom/nurbs.pyx:curve_deriv_cpts"]}
{"id": "C127", "title": "Derivatives of the homogeneous surface", "statement": "surface_derivatives_py(degree, U, V, points, size, u, v, order) returns in [k][l] the mixed derivative of order (k, l) of the tensor product spline over the homogeneous control points, for all k, l <= order and all (u, v) of the domain.", "quantifier": "for all surfaces, parameters of the domain (ends included) and orders", "why_tests_cant": "Mixed limits at every parameter; the failing set (right ends) has measure zero.", "anchors": ["mmcore/geom/nurbs.pyx:surface_derivatives", "mmcore/geom/nurbs.pyx:surface_derivatives_py"]}
{"id": "C128", "title": "Derivatives of rational surfaces", "statement": "rat_surface_derivs_py applied to the homogeneous derivatives returns in [k][l] the mixed derivative of order (k, l) of NURBSSurface.evaluate.", "quantifier": "for all surfaces with any weights, parameters and orders", "why_tests_cant": "The quotient rule for all orders at once; finite differences cannot settle high mixed orders.", "anchors": ["mmcore/geom/nurbs.pxd:rat_surface_derivs", "mmcore/geom/nurbs.pyx:rat_surface_derivs_py"]}
{"id": "C129", "title": "Control points of derivatives of surfaces", "statement": "surface_deriv_cpts fills PKL[k][l] with the control points of the mixed derivative of order (k, l) for all k + l <= deriv_order.", "quantifier": "for all surfaces, windows and orders", "why_tests_cant": "Identity of functions on a patch for all degrees; one order is left out only when the order exceeds a degree.", "anchors": ["mmcore/geom/nurbs.pyx:surface_deriv_cpts"]}
{"id": "C130", "title": "The sorted sequence is a sorted dictionary", "statement": "After any sequence of s[k] = v, s.insert(k, v) and s.delItem(s.lookup(k)), whatever levels the random numbers give, iteration yields exactly the current pairs in ascending order of the keys, len is their number, s[k] is the last value or None, lookup finds exactly the keys that are there and min is the first node.", "quantifier": "for all key types with a total order, all sequences of calls and all random levels", "why_tests_cant": "The structure depends on random numbers; a broken link on a high level shows only for special interleavings of heights.", "anchors": ["mmcore/numeric/algorithms/sweep_line/skiplist.py:SkipList", "mmcore/numeric/algorithms/sweep_line/sortseq.py:SortSeq"]}
{"id": "C131", "title": "Deletion by key", "statement": "del s[k] and s.delete(k) remove the key k and nothing else.", "quantifier": "for all reachable sequences and all keys", "why_tests_cant": "Deletion of the smallest key looks right in the iteration; only other keys and the predecessor links show the loss.", "anchors": ["mmcore/numeric/algorithms/sweep_line/skiplist.py:SkipList._remove", "mmcore/numeric/algorithms/sweep_line/sortseq.py:SortSeq.delete"]}
{"id": "C132", "title": "locate finds the first key that is not smaller", "statement": "s.locate(k) returns the node with the smallest key that is at least k, and None when there is none.", "quantifier": "for all reachable sequences and keys, present or absent", "why_tests_cant": "Absent keys work, so tests with absent keys pass; the claim is about every key.", "anchors": ["mmcore/numeric/algorithms/sweep_line/sortseq.py:SortSeq.locate"]}
{"id": "C133", "title": "Node operations keep the order of the sequence", "statement": "succ and pred are the neighbours in the order of iteration; delItem removes exactly its node; insertAt puts the new pair next to the node on the side its key belongs to; reverseItems(a, b) reverses exactly the part from a to b; inserting at the located node is the same as s[k] = v.", "quantifier": "for all states reachable by any mix of these calls", "why_tests_cant": "The links of several levels must agree after each call for all level heights; the sweep mixes reversal, insertion and removal in arbitrary orders.", "anchors": ["mmcore/numeric/algorithms/sweep_line/sortseq.py:SortSeq.insertAt", "mmcore/numeric/algorithms/sweep_line/sortseq.py:SortSeq.delItem", "mmcore/numeric/algorithms/sweep_line/sortseq.py:SortSeq.reverseItems", "mmcore/numeric/algorithms/sweep_line/sortseq.py:SortSeq.succ", "mmcore/numeric/algorithms/sweep_line/sortseq.py:SortSeq.pred"]}
{"id": "C134", "title": "inv computes the matrix inverse", "statement": "For every square contiguous array with non-zero determinant inv(arr) returns X with arr X = X arr = 1 (exact arithmetic), whatever row exchanges are needed and whatever the fresh buffers contain; a singular array never yields finite numbers; all multipliers are at most one in absolute value.", "quantifier": "for all sizes, all matrices and all contents of uninitialised memory", "why_tests_cant": "Every size and every pattern of pivots; tests sample matrices.", "anchors": ["mmcore/numeric/matrix/__init__.pyx:inv", "mmcore/numeric/matrix/cmatrix.h:LU_decomposition", "mmcore/numeric/matrix/cmatrix.h:LU_solve", "mmcore/numeric/matrix/cmatrix.h:invert_matrix"]}
{"id": "C135", "title": "inv reads its argument like NumPy and leaves it alone", "statement": "inv(arr) does not change arr, and for every strided view (transposes, slices) it returns the inverse of the matrix that the view shows.", "quantifier": "for all matrices and strides", "why_tests_cant": "Tests use fresh contiguous arrays once; symmetric matrices hide ignored strides.", "anchors": ["mmcore/numeric/matrix/__init__.pyx:inv", "mmcore/numeric/matrix/cmatrix.h:LU_decomposition"]}
{"id": "C136", "title": "romberg1d integrates polynomials exactly", "statement": "romberg1d(f, a, b, n, acc) with n >= 3 gives the exact integral of every polynomial of degree at most 5 whatever acc is, and of degree at most 2n-1 when all n rows are used; for every f the result is a diagonal entry of the Romberg table over the trapezoidal sums with 1, 2, 4, ... cells, at the first row from the third on that changes the diagonal by less than acc.", "quantifier": "for all polynomials, intervals, accuracies and row counts; for all functions", "why_tests_cant": "Needs every polynomial and every number of rows; tests compare single integrals with a tolerance.", "anchors": ["mmcore/numeric/integrate/romberg.pyx:romberg1d"]}
{"id": "C137", "title": "The accuracy given to romberg1d bounds the error", "statement": "|romberg1d(f, a, b, n, acc) - integral of f| <= acc for every continuous f.", "quantifier": "for all continuous functions", "why_tests_cant": "Tests take smooth functions; an integrand that vanishes at the first points defeats the stopping rule.", "anchors": ["mmcore/numeric/integrate/romberg.pyx:romberg1d"]}
{"id": "C138", "title": "One step of rk45_vector has the order it claims", "statement": "For every linear system and step the two values of a step agree with the Taylor expansion of the solution to order 4 and 5; pure quadratures are exact up to degree 3 and 4.", "quantifier": "for all vector spaces, linear maps, right-hand sides polynomial in t, times and steps", "why_tests_cant": "A wrong coefficient keeps the result plausible; a test with tolerance only sees a slower convergence.", "anchors": ["mmcore/numeric/integrate/rk45.pyx:rk45_vector"]}
{"id": "C139", "title": "rk45_vector returns a solution that ends at t1", "statement": "For every right-hand side rk45_vector terminates and returns strictly increasing times in steps of at most hmax, ending exactly at t1, each value following from the one before by a step whose error estimate is at most tol.", "quantifier": "for all right-hand sides, spans, tolerances, hmax, hmin", "why_tests_cant": "Termination over all right-hand sides; a hanging loop is not a failing assertion.", "anchors": ["mmcore/numeric/integrate/rk45.pyx:rk45_vector"]}
{"id": "C140", "title": "parametric_arc_length is the length of the sampled polygon", "statement": "parametric_arc_length(f, t0, t1, dt) equals the sum of the lengths of the chords between the sampled points of the curve.", "quantifier": "for all curves, spans and steps", "why_tests_cant": "With the default step of 0.001 the missing half chords are below the tolerance of a test.", "anchors": ["mmcore/numeric/arc_length.py:parametric_arc_length"]}
{"id": "C141", "title": "Step from tolerance and arc height are inverse", "statement": "arc_height(curvature_based_step(tol, r), r) = tol and curvature_based_step(arc_height(c, r), r) = c on a circle of radius r; step gives the same length for curvature 1/r.", "quantifier": "for all radii, tolerances and chords up to the diameter", "why_tests_cant": "Real-valued identity over all inputs.", "anchors": ["mmcore/numeric/arc_length.py:curvature_based_step", "mmcore/numeric/arc_length.py:arc_height", "mmcore/numeric/arc_length.py:step"]}
{"id": "C142", "title": "gradient and hessian are exact on low degrees", "statement": "Central differences give the exact gradient of every polynomial of degree at most 2 and, in the mixed and diagonal entries of hessian, the exact second derivatives up to degree 3, for every step; hessian is symmetric for every function; the gradient error of a cubic is exactly its third derivative times h^2/6.", "quantifier": "for all functions of the stated degree, points, steps and dimensions", "why_tests_cant": "Tests compare a few values with tolerance; a wrong stencil is only seen for other points or degrees.", "anchors": ["mmcore/numeric/fdm.py:gradient", "mmcore/numeric/fdm.py:hessian", "mmcore/numeric/fdm.py:Grad"]}
{"id": "C143", "title": "gradient and hessian leave their argument unchanged for every array", "statement": "gradient(f, point) and hessian(f, point) return the derivatives and restore the array point, whether its entries are floats or integers.", "quantifier": "for all functions, points and steps", "why_tests_cant": "Tests pass float arrays.", "anchors": ["mmcore/numeric/fdm.py:gradient", "mmcore/numeric/fdm.py:hessian"]}
{"id": "C144", "title": "newtons_method returns a zero or None", "statement": "Whenever newtons_method returns a point, the function vanishes there up to the tolerance.", "quantifier": "for all functions and starting points", "why_tests_cant": "The sampled functions have their zero at the critical point.", "anchors": ["mmcore/numeric/fdm.py:newtons_method"]}
{"id": "C145", "title": "classify_critical_point_2d decides the kind of a critical point", "statement": "The answer for a symmetric 2x2 Hessian is exactly one of the four kinds, and is right for the quadratic form: minimum iff positive definite, maximum iff negative definite, saddle iff indefinite.", "quantifier": "for all symmetric Hessians", "why_tests_cant": "A sign case for every matrix.", "anchors": ["mmcore/numeric/fdm.py:classify_critical_point_2d"]}
{"id": "C146", "title": "bounded_fdm evaluates only inside the bounds", "statement": "bounded_fdm(f, bounds) evaluates f only at points inside bounds.", "quantifier": "for all bounds, points and steps", "why_tests_cant": "A test uses bounds much wider than the step.", "anchors": ["mmcore/numeric/fdm.py:bounded_fdm"]}
{"id": "C147", "title": "jac is the Jacobian and FDM.dzdx is a derivative of z with respect to x", "statement": "jac(f, x)[i][j] is the derivative of component i with respect to variable j; FDM.dzdx gives dz/dx.", "quantifier": "for all functions", "why_tests_cant": "Square symmetric cases agree with the transposed matrix.", "anchors": ["mmcore/numeric/fdm.py:jac", "mmcore/numeric/fdm.py:FDM"]}
{"id": "C148", "title": "bisection1d lists exactly the sampled sign changes", "statement": "bisection1d(f, step, start, stop) returns the sampled points at which f is zero or changes sign from the previous sample, each once, and the least sampled value.", "quantifier": "for all functions, ranges and steps", "why_tests_cant": "Any number of samples and roots.", "anchors": ["mmcore/numeric/bisection.py:bisection1d"]}
{"id": "C149", "title": "bisection_2d returns a point near a root", "statement": "For continuous f with different signs at two opposite corners bisection_2d ends, stays in the rectangle, and a root lies within tol of the result in each coordinate.", "quantifier": "for all continuous functions, rectangles and positive tolerances", "why_tests_cant": "Needs every continuous function; a midpoint that is itself a root sends the search elsewhere.", "anchors": ["mmcore/numeric/bisection.py:bisection_2d"]}
{"id": "C150", "title": "scalar_min_1d finds the minimum of a unimodal function", "statement": "For a function with one valley on [start, end], scalar_min_1d ends and returns a point within step of the minimiser.", "quantifier": "for all unimodal functions, intervals, steps and divs", "why_tests_cant": "Tests put the minimum well inside of the interval.", "anchors": ["mmcore/numeric/bisection.py:scalar_min_1d"]}
{"id": "C151", "title": "solve solves regular systems and refuses singular ones", "statement": "solve(A, b, result) returns False exactly if det A = 0; else it fills result with the solution of A x = b, whatever result held before.", "quantifier": "for all square systems of any size", "why_tests_cant": "The right permutation of every size of system, exact singularity.", "anchors": ["mmcore/numeric/newton/cnewton.pyx:solve"]}
{"id": "C152", "title": "cnewton.newtons_method returns a root or None", "statement": "Whenever newtons_method returns a point, f vanishes there; on quadratic polynomials two rounds suffice.", "quantifier": "for all functions, starts, tolerances", "why_tests_cant": "The sampled functions have their zero at the critical point.", "anchors": ["mmcore/numeric/newton/cnewton.pyx:newtons_method", "mmcore/numeric/newton/cnewton.pyx:gradient", "mmcore/numeric/newton/cnewton.pyx:hessian"]}
{"id": "C153", "title": "invert_matrix gives the inverse, solve_linear_system the solution", "statement": "For every regular matrix the result of invert_matrix is its inverse and solve_linear_system leaves the solution in b; for singular matrices they return 1.", "quantifier": "for all square matrices of any size", "why_tests_cant": "Depends on whether the elimination exchanges rows.", "anchors": ["mmcore/numeric/newton/cnewton.pyx:invert_matrix", "mmcore/numeric/newton/cnewton.pyx:solve_linear_system", "mmcore/numeric/newton/cnewton.pyx:lu_factorize", "mmcore/numeric/newton/cnewton.pyx:lu_solve"]}
{"id": "C154", "title": "newton_method2 solves affine systems", "statement": "On a regular affine system with its Jacobian newton_method2 returns the solution in two rounds, from every start.", "quantifier": "for all regular affine systems, starts and tolerances", "why_tests_cant": "A test with a diagonal Jacobian converges; others diverge.", "anchors": ["mmcore/numeric/newton/cnewton.pyx:newton_method2"]}
{"id": "C155", "title": "newtons_method_with_constraints imposes its constraint", "statement": "The point returned by newtons_method_with_constraints(f, g, x) satisfies g = 0 up to the tolerance.", "quantifier": "for all functions, constraints and starts", "why_tests_cant": "Tests start on the constraint.", "anchors": ["mmcore/numeric/newton/__init__.py:newtons_method_with_constraints"]}
{"id": "C156", "title": "Line searches report success only for strong Wolfe points", "statement": "If line_search or line_search_strong_wolfe reports success, the step is positive and the returned point satisfies the Armijo and the strong curvature condition, so f has decreased; ascent directions are refused; a full step that satisfies the conditions is taken.", "quantifier": "for all functions, gradients, points, directions, bounds and constants", "why_tests_cant": "Every path of bracketing and zooming.", "anchors": ["mmcore/numeric/newton/bounded.py:line_search", "mmcore/numeric/newton/bounded.py:line_search_strong_wolfe", "mmcore/numeric/newton/bounded.py:_line_search_zoom", "mmcore/numeric/newton/bounded.py:_line_search_zoom_wolfe"]}
{"id": "C157", "title": "bounded_newtons_method stays in the bounds and never increases f", "statement": "Every point returned lies in the bounds and either is the start moved into the bounds or has a smaller value of f.", "quantifier": "for all functions, derivatives, bounds and starts", "why_tests_cant": "Every sequence of Newton and fall-back steps.", "anchors": ["mmcore/numeric/newton/bounded.py:bounded_newtons_method", "mmcore/numeric/newton/bounded.py:project_to_bounds"]}
{"id": "C158", "title": "bounded_newtons_method minimises over the box using only its values there", "statement": "For convex quadratic f the result is a minimiser over the box; it depends only on the values of f inside of the bounds.", "quantifier": "for all convex quadratic functions, boxes and starts", "why_tests_cant": "Tests have the minimum inside of the box.", "anchors": ["mmcore/numeric/newton/bounded.py:bounded_newtons_method", "mmcore/numeric/newton/bounded.py:line_search"]}
{"id": "C159", "title": "supportVector finds the vertex that reaches furthest", "statement": "For every non-empty vertex set and direction the support index is valid, its vertex reaches furthest and is the first that does; the support point of two sets is a difference of vertices and no difference reaches further.", "quantifier": "for all vertex sets and directions", "why_tests_cant": "Every order of vertices, ties and directions.", "anchors": ["mmcore/numeric/algorithms/_gjk.cpp:supportVector"]}
{"id": "C160", "title": "A collision test that ends at a support point has found a separating plane", "statement": "If gjk answers False because the new point does not pass the origin, some plane has all vertices of the first set strictly on one side and all of the second on the other, and the convex hulls are disjoint.", "quantifier": "for all vertex sets, tolerances and numbers of rounds", "why_tests_cant": "A statement about all points of two hulls.", "anchors": ["mmcore/numeric/algorithms/_gjk.cpp:gjk_collision_detection", "mmcore/numeric/algorithms/cygjk.pyx:gjk"]}
{"id": "C161", "title": "gjk answers True only for hulls that meet", "statement": "If gjk answers True the convex hulls of the two vertex sets have a common point.", "quantifier": "for all vertex sets, tolerances and numbers of rounds", "why_tests_cant": "Depends on the orientation of every simplex visited.", "anchors": ["mmcore/numeric/algorithms/_gjk.cpp:gjk_collision_detection", "mmcore/numeric/algorithms/_gjk.cpp:handleSimplex", "mmcore/numeric/algorithms/cygjk.pyx:gjk"]}
{"id": "C162", "title": "gjk answers True for hulls that meet", "statement": "If the convex hulls of two vertex sets have a common point, gjk answers True.", "quantifier": "for all vertex sets, tolerances and numbers of rounds", "why_tests_cant": "A search that cycles or a shape small against the tolerance is not in the tests.", "anchors": ["mmcore/numeric/algorithms/_gjk.cpp:gjk_collision_detection", "mmcore/numeric/algorithms/_gjk.cpp:handleSimplex", "mmcore/numeric/algorithms/cygjk.pyx:gjk"]}
{"id": "C163", "title": "The memory of visited vertex pairs never ends the search", "statement": "For non-empty vertex sets the search ends with a collision, with a separating direction or with the last round; an empty set raises an exception.", "quantifier": "for all vertex sets, tolerances >= 0, numbers of rounds", "why_tests_cant": "The state of the memory after any sequence of rounds.", "anchors": ["mmcore/numeric/algorithms/_gjk.cpp:gjk_collision_detection"]}
{"id": "C164", "title": "gjk does not depend on position and unit of length", "statement": "Moving both sets by the same vector does not change the answer; with tolerance 0 neither does a change of the unit; on lattices of spacing at least 1 every tolerance below 1 acts like 0.", "quantifier": "for all vertex sets, vectors, units, numbers of rounds", "why_tests_cant": "Compares two whole runs.", "anchors": ["mmcore/numeric/algorithms/_gjk.cpp:gjk_collision_detection"]}
{"id": "C165", "title": "spatial_separability answers True exactly for point sets with disjoint hulls", "statement": "spatial_separability(p, q) is True if and only if the convex hulls of p and q are disjoint.", "quantifier": "for all point sets", "why_tests_cant": "Needs all pairs of hulls.", "anchors": ["mmcore/numeric/intersection/separability/spatial.py:spatial_separability"]}
{"id": "C166", "title": "The bounding plane test accepts only sets without a common point", "statement": "If bounding_plane_test accepts, the convex hulls of the two point sets are disjoint; _plane_separates accepts if and only if the first set is flat and the second does not rise above its plane.", "quantifier": "for all normals and point sets", "why_tests_cant": "A statement about all points; the tests use patches far apart.", "anchors": ["mmcore/numeric/intersection/separability/spatial.py:SpatialSeparabilityTest._plane_separates", "mmcore/numeric/intersection/separability/spatial.py:SpatialSeparabilityTest.bounding_plane_test"]}
{"id": "C167", "title": "udTriangle is the distance from a point to a triangle", "statement": "For pairwise different corners udTriangle(p, a, b, c) is the least distance from p to a point of the triangle, also for flat triangles.", "quantifier": "for all points and triangles", "why_tests_cant": "Minimum over all points of the triangle.", "anchors": ["mmcore/numeric/algorithms/gjk.py:udTriangle"]}
{"id": "C168", "title": "Sphere.implicit is the signed distance and Sphere.gradient its direction", "statement": "For a radius that is not negative |implicit(p)| is the least distance from p to the zero set, the sign tells inside from outside; the gradient is a unit vector, moving t along it changes the value by t; it is NaN exactly at the centre.", "quantifier": "for all spheres, points and lengths t", "why_tests_cant": "Least distance over all points of the surface.", "anchors": ["mmcore/geom/primitives.pyx:Sphere.cimplicit", "mmcore/geom/primitives.pyx:Sphere.cgradient"]}
{"id": "C169", "title": "Sphere.bounds is the smallest box after any assignments", "statement": "After any sequence of assignments to radius and origin, bounds() is the smallest axis-aligned box that holds the ball, and that holds the surface, of the values assigned last.", "quantifier": "for all spheres and sequences of assignments", "why_tests_cant": "Every sequence of setters; minimality over all boxes.", "anchors": ["mmcore/geom/primitives.pyx:Sphere._calculate_bounds", "mmcore/geom/primitives.pyx:Sphere.radius", "mmcore/geom/primitives.pyx:Sphere.origin", "mmcore/geom/primitives.pyx:Sphere.bounds"]}
{"id": "C170", "title": "ImplicitCylinder measures the distance to its axis", "statement": "After any assignments to start, end and radius, implicit(p) is the least distance from p to the line through the ends less the radius (NaN for equal ends); off the axis the gradient is a unit vector across the axis and moving t along it changes the value by t.", "quantifier": "for all cylinders, sequences of assignments, points and lengths", "why_tests_cant": "Least distance over all points of the line, every sequence of setters.", "anchors": ["mmcore/geom/primitives.pyx:ImplicitCylinder.cimplicit", "mmcore/geom/primitives.pyx:ImplicitCylinder.cgradient", "mmcore/geom/primitives.pyx:ImplicitCylinder.start", "mmcore/geom/primitives.pyx:ImplicitCylinder.end", "mmcore/geom/primitives.pyx:ImplicitCylinder.radius"]}
{"id": "C171", "title": "ImplicitCylinder.bounds holds the solid", "statement": "bounds() is the smallest axis-aligned box that holds all points with implicit(p) <= 0.", "quantifier": "for all cylinders with different ends, sequences of assignments", "why_tests_cant": "All points of a slanted solid, minimality over all boxes.", "anchors": ["mmcore/geom/primitives.pyx:cylinder_aabb", "mmcore/geom/primitives.pyx:ImplicitCylinder._calculate_bounds", "mmcore/geom/primitives.pyx:ImplicitCylinder.bounds"]}
{"id": "C172", "title": "Tube is the wall between two cylinders", "statement": "implicit(p) is | distance to the axis - radius | - thickness/2; the gradient is its vector of central differences and of length 1; bounds() is the smallest box of the wall.", "quantifier": "for all tubes, sequences of assignments, points", "why_tests_cant": "Generated code with 45 intermediate values must agree with the formula everywhere.", "anchors": ["mmcore/geom/primitives.pyx:Tube.cimplicit", "mmcore/geom/primitives.pyx:Tube.cgradient", "mmcore/geom/primitives.pyx:Tube._calculate_bounds"]}
{"id": "C173", "title": "The parametric cylinder is the implicit cylinder", "statement": "For every Cylinder evaluate(u, v) is on the zero set of implicit, for v in the interval also between the ends and in bounds(); every point of the zero set is evaluated at some parameters.", "quantifier": "for all cylinders, parameters and points", "why_tests_cant": "All directions of the axis and all parameters.", "anchors": ["mmcore/geom/primitives.pyx:Cylinder.cevaluate", "mmcore/geom/primitives.pyx:Cylinder.__init__", "mmcore/geom/primitives.pyx:Cylinder.implicit", "mmcore/geom/primitives.pyx:Cylinder.bounds"]}
{"id": "C174", "title": "A Cylinder with different ends consists of numbers and stays consistent", "statement": "Cylinder(start, end, r) has no NaN when the ends differ, and after assigning its radius evaluate and implicit still describe the same surface.", "quantifier": "for all ends, radii and parameters", "why_tests_cant": "One exact direction fails; the tests use another.", "anchors": ["mmcore/geom/primitives.pyx:Cylinder.__init__", "mmcore/geom/primitives.pyx:Cylinder.radius"]}
{"id": "C175", "title": "The default gradient is a unit normal", "statement": "Implicit3D.gradient has length 1 or is the zero vector, and for an affine implicit function it is the unit normal.", "quantifier": "for all implicit functions and points", "why_tests_cant": "Quantifies over all functions.", "anchors": ["mmcore/geom/primitives.pyx:Implicit3D.cgradient"]}
{"id": "C176", "title": "evaluate_curvature gives the curvature vector of the curve, whatever its parameter", "statement": "At a regular point the tangent is the unit vector of the first derivative, the curvature vector is the only vector perpendicular to it that makes up the second derivative; under a change of parameter the curvature vector stays the same and the tangent changes its sign with the direction.", "quantifier": "for all first and second derivatives with D1 != 0 and all changes of parameter", "why_tests_cant": "Quantifies over all reparametrisations.", "anchors": ["mmcore/numeric/numeric.py:evaluate_curvature"]}
{"id": "C177", "title": "circle_of_curvature finds the circle", "statement": "For any regular motion along any circle in space the circle of curvature has the centre, the radius and the plane of that circle.", "quantifier": "for all circles, points on them, speeds and tangential accelerations", "why_tests_cant": "All circles and all motions.", "anchors": ["mmcore/numeric/numeric.py:circle_of_curvature"]}
{"id": "C178", "title": "The Frenet frame is a right-handed orthonormal frame", "statement": "frenet_serret_frame returns unit vectors T, N, B, perpendicular, with B = T x N, T the tangent, N along the curvature vector; NaN exactly where the derivatives are parallel; the plane formula gives the length of the curvature vector.", "quantifier": "for all derivatives", "why_tests_cant": "Quantifies over all pairs of derivatives.", "anchors": ["mmcore/numeric/algorithms/tnb.py:frenet_serret_frame", "mmcore/numeric/numeric.py:calculate_curvature2d"]}
{"id": "C179", "title": "The compiled curvature agrees with the Python one", "statement": "calgorithms.evaluate_curvature leaves the same tangent, curvature vector and flag as numeric.evaluate_curvature; evaluate_tangent gives a unit vector or reports failure.", "quantifier": "for all derivatives and all previous contents of the arrays", "why_tests_cant": "What the array held before matters only at singular points.", "anchors": ["mmcore/numeric/calgorithms.pyx:evaluate_curvature", "mmcore/numeric/numeric.py:evaluate_tangent"]}
{"id": "C180", "title": "Principal curvatures are the extreme normal curvatures", "statement": "For a positive first form principal_curvatures returns real numbers k1 >= k2 with product gaussian_curvature and mean mean_curvature; all normal curvatures lie between them and both are attained.", "quantifier": "for all coefficients E F G L M N with E > 0 and EG - F^2 > 0, all directions", "why_tests_cant": "Extremum over all directions.", "anchors": ["mmcore/geom/surfaces/fundamental_forms.py:principal_curvatures", "mmcore/geom/surfaces/fundamental_forms.py:gaussian_curvature", "mmcore/geom/surfaces/fundamental_forms.py:mean_curvature", "mmcore/geom/surfaces/fundamental_forms.py:normal_curvature"]}
{"id": "C181", "title": "principal_directions attain the principal curvatures", "statement": "The two directions are unit vectors in the parameter plane, their normal curvatures are k1 and k2, and they are perpendicular on the surface.", "quantifier": "for all coefficients of a regular surface", "why_tests_cant": "Fails exactly for the parametrisations used most.", "anchors": ["mmcore/geom/surfaces/fundamental_forms.py:principal_directions"]}
{"id": "C182", "title": "Gaussian and mean curvature belong to the surface", "statement": "The coefficients computed from the derivatives are NaN only when these are parallel; the Gaussian curvature is the same for all parametrisations, the mean curvature up to the orientation; on a sphere of radius R they are 1/R^2 and +-1/R.", "quantifier": "for all regular derivatives and all changes of parameters; for all parametrisations of all spheres", "why_tests_cant": "Quantifies over all reparametrisations.", "anchors": ["mmcore/geom/surfaces/fundamental_forms.py:fundamental_forms_from_surface", "mmcore/geom/surfaces/fundamental_forms.py:first_fundamental_form", "mmcore/geom/surfaces/fundamental_forms.py:second_fundamental_form"]}
{"id": "C183", "title": "Points are classified by the sign of the curvature", "statement": "classify_point, classify_point_dupin and classify_point_on_surface call a point elliptic, hyperbolic, parabolic or flat by its principal curvatures.", "quantifier": "for all curvatures and all surfaces", "why_tests_cant": "The wrong argument order gives right answers on saddles.", "anchors": ["mmcore/geom/surfaces/fundamental_forms.py:classify_point", "mmcore/geom/surfaces/fundamental_forms.py:classify_point_dupin", "mmcore/geom/surfaces/fundamental_forms.py:classify_point_on_surface", "mmcore/geom/surfaces/fundamental_forms.py:dupin_indicatrix_on_surface"]}
{"id": "C184", "title": "The indicatrix satisfies its equation", "statement": "Every point (x, y) of the curve returned by dupin_indicatrix satisfies k1 x^2 + k2 y^2 = +-1.", "quantifier": "for all curvatures and parameters", "why_tests_cant": "All points of a curve.", "anchors": ["mmcore/geom/surfaces/fundamental_forms.py:dupin_indicatrix"]}
{"id": "C185", "title": "surface_distance and predict_point measure lengths on the surface", "statement": "surface_distance is the length of the image of the segment between the parameters; predict_point ends at the distance asked for.", "quantifier": "for all first forms, end points, numbers of steps, distances and step sizes", "why_tests_cant": "A length over all step counts.", "anchors": ["mmcore/geom/surfaces/fundamental_forms.py:surface_distance", "mmcore/geom/surfaces/fundamental_forms.py:predict_point", "mmcore/geom/surfaces/fundamental_forms.py:infinitesimal_arc_length"]}
{"id": "C186", "title": "Euler's formula", "statement": "euler_curvature(k1, k2, theta) is the normal curvature in the direction at the angle theta from the first principal direction.", "quantifier": "for all regular coefficients, orthonormal pairs of directions and angles", "why_tests_cant": "All surfaces and all angles.", "anchors": ["mmcore/geom/surfaces/fundamental_forms.py:euler_curvature", "mmcore/geom/surfaces/fundamental_forms.py:normal_curvature"]}
{"id": "C187", "title": "solve3x2 solves the system", "statement": "With lists the code returned is the rank of the columns; with rank two the pivot ratio is in (0, 1] and x col0 + y col1 + err (col0 x col1)/|col0 x col1| = d.", "quantifier": "for all columns and right-hand sides", "why_tests_cant": "Depends on which column holds the largest entry.", "anchors": ["mmcore/numeric/numeric.py:solve3x2"]}
{"id": "C188", "title": "solve3x2 solves the system given as arrays", "statement": "With numpy arrays the code is the rank and x, y are the coefficients of a combination.", "quantifier": "for all columns and right-hand sides", "why_tests_cant": "Adding arrays is not joining lists; only special places of zeros show it.", "anchors": ["mmcore/numeric/numeric.py:solve3x2"]}
{"id": "C189", "title": "evaluate_sectional_curvature gives the curvature of the section", "statement": "The vector is perpendicular to the tangent of the section, lies in the plane and has the normal component that the second derivatives give.", "quantifier": "for all derivatives and planes", "why_tests_cant": "Arrays changed by a callee; right when the first derivative is a unit vector along an axis, as in examples.", "anchors": ["mmcore/numeric/numeric.py:evaluate_sectional_curvature"]}
{"id": "C190", "title": "evaluate_normal gives a normal also at singular points", "statement": "When the Jacobian test succeeds the result is perpendicular to both derivatives and its length is the area; at a point with parallel derivatives it is the unit vector in which the cross product leaves zero towards the quadrant asked for, and NaN exactly when that derivative is zero.", "quantifier": "for all derivatives and quadrants", "why_tests_cant": "Limit behaviour at all singular points.", "anchors": ["mmcore/numeric/numeric.py:evaluate_normal", "mmcore/numeric/numeric.py:evaluate_normal2", "mmcore/numeric/numeric.py:evaluate_jacobian"]}
{"id": "C191", "title": "The basis functions of deboor add up to one", "statement": "For a non-decreasing knot vector deboor(knots, t, i, degree) is never negative, is zero outside [knots[i], knots[i+degree+1]], and the sum over all i is one at every t of the domain.", "quantifier": "for all knot vectors, degrees and parameters of the domain", "why_tests_cant": "The sum is one at all parameters but finitely many, which random parameters never hit.", "anchors": ["mmcore/geom/curves/deboor.pyx:deboor", "mmcore/geom/curves/deboor.pyx:cdeboor"]}
{"id": "C192", "title": "evaluate_nurbs returns the point of the rational curve", "statement": "On a clamped knot vector with inner knots of multiplicity at most the degree, evaluate_nurbs is the quotient of the weighted Cox-de Boor sums of the span, at both ends of the span too; the ends of the domain give the first and the last control point.", "quantifier": "for all degrees, knots, weights, control points and parameters", "why_tests_cant": "All knot vectors and the parameters where two spans meet.", "anchors": ["mmcore/geom/curves/deboor.pyx:evaluate_nurbs", "mmcore/geom/curves/deboor.pyx:cevaluate_nurbs"]}
{"id": "C193", "title": "evaluate_nurbs stays in the convex hull", "statement": "With positive weights the returned point lies in every half space that contains the control points.", "quantifier": "for all clamped knot vectors, positive weights, control points, parameters and half spaces", "why_tests_cant": "Quantifies over all half spaces.", "anchors": ["mmcore/geom/curves/deboor.pyx:evaluate_nurbs"]}
{"id": "C194", "title": "evaluate_nurbs_multi evaluates each parameter as evaluate_nurbs does", "statement": "Row j of evaluate_nurbs_multi(ts, ...) is evaluate_nurbs(ts[j], ...).", "quantifier": "for all lists of parameters", "why_tests_cant": "A state left over from the previous parameter; a list with one parameter does not show it.", "anchors": ["mmcore/geom/curves/deboor.pyx:evaluate_nurbs_multi", "mmcore/geom/curves/deboor.pyx:cevaluate_nurbs_multi"]}
{"id": "C195", "title": "A circle's parametric and implicit forms describe the same set", "statement": "Circle2D.evaluate runs through exactly the points at distance r from the origin, once per interval, and Circle2D.implicit is the signed distance to that set.", "quantifier": "for all circles, parameters and points", "why_tests_cant": "Equality of two infinite sets and a minimum over infinitely many points.", "anchors": ["mmcore/geom/circle.py:Circle2D.evaluate", "mmcore/geom/circle.py:Circle2D.implicit"]}
{"id": "C196", "title": "The closest point of a circle and its parameter agree", "statement": "point_on_curve returns the closest point of the circle and a parameter at which evaluate gives that point; closest_point_on_circle_2d returns such a parameter.", "quantifier": "for all circles and points", "why_tests_cant": "The parameter is right on half of the plane or on one ray; a chosen point can lie there.", "anchors": ["mmcore/geom/circle.py:Circle2D.point_on_curve", "mmcore/geom/circle.py:closest_point_on_circle_2d"]}
{"id": "C197", "title": "circle_intersection2d returns all common points of two circles", "statement": "The function raises exactly when the circles have no common point and otherwise returns exactly the common points, at the height of the circles.", "quantifier": "for all pairs of circles", "why_tests_cant": "Completeness over infinitely many points; concentric circles are a null set.", "anchors": ["mmcore/geom/circle.py:circle_intersection2d"]}
{"id": "C198", "title": "tangents_lines returns the points of contact", "statement": "For a point outside the circle both returned points lie on the circle and the lines from the point to them are tangent.", "quantifier": "for all circles and outer points", "why_tests_cant": "The result is right on a diagonal through the centre.", "anchors": ["mmcore/geom/circle.py:tangents_lines"]}
{"id": "C199", "title": "create_circle makes the circle with the given origin, radius and plane", "statement": "The curve returned by NURBSpline.create_circle lies on the circle of that radius around the point of the plane with the given local origin, in the plane.", "quantifier": "for all planes with an orthonormal frame, origins, radii and parameters", "why_tests_cant": "All parameters of the curve, not sampled ones; the default origin hides the error.", "anchors": ["mmcore/geom/curves/bspline.py:NURBSpline.create_circle"]}
{"id": "C200", "title": "intersects_segments tells whether two segments have a common point", "statement": "The function returns true exactly when the segments have a common point; the box test before it never changes the result.", "quantifier": "for all pairs of segments", "why_tests_cant": "Touching and collinear positions are a null set; the agreement of two tests is for all inputs.", "anchors": ["mmcore/geom/polygon.py:intersects_segments", "mmcore/geom/features.py:intersects_segments"]}
{"id": "C201", "title": "point_in_polygon classifies the points of a convex polygon", "statement": "For a strictly convex polygon of either orientation, closed or not, points strictly inside give true and points strictly outside give false.", "quantifier": "for all strictly convex polygons with any number of vertices, and all points off the boundary", "why_tests_cant": "All polygons; rays through vertices are a null set.", "anchors": ["mmcore/geom/polygon.py:point_in_polygon"]}
{"id": "C202", "title": "The default derivatives of a curve approximate its derivatives", "statement": "ParametricCurve.derivative and second_derivative return, for a curve class which defines only evaluate, the first and second derivative up to the error of a difference quotient.", "quantifier": "for all differentiable curves and parameters", "why_tests_cant": "All curves and parameters; an error bound is a limit statement. The wrong scale cancels in the quantities most tests look at (tangent, curvature).", "anchors": ["mmcore/geom/parametric.pyx:ParametricCurve.cderivative", "mmcore/geom/parametric.pyx:ParametricCurve.csecond_derivative"]}
{"id": "C203", "title": "Tangent, curvature and plane of a curve are those of the curve", "statement": "With the default derivatives curvature is the curvature vector, tangent the unit tangent and plane_at the Frenet frame of the difference quotients, hence of the curve where these are exact.", "quantifier": "for all curves, step sizes and parameters", "why_tests_cant": "Independence from the scale of the derivatives is for all curves; slow curves cross a threshold no chosen example crosses.", "anchors": ["mmcore/geom/parametric.pyx:ParametricCurve.tangent", "mmcore/geom/parametric.pyx:ParametricCurve.ccurvature", "mmcore/geom/parametric.pyx:ParametricCurve.plane_at", "mmcore/geom/parametric.pyx:ParametricCurve.normal"]}
{"id": "C204", "title": "A reparametrized curve runs through the points of the curve", "statement": "ReparametrizedCurve.evaluate gives the point of the underlying curve at the corresponding parameter.", "quantifier": "for all curves, intervals and parameters", "why_tests_cant": "All changes of parameter; a curve at the origin hides the error.", "anchors": ["mmcore/geom/parametric.pyx:ReparametrizedCurve"]}
{"id": "C205", "title": "The default first derivatives of a surface approximate the partial derivatives without leaving the domain", "statement": "On the domain [0,1]x[0,1] derivative_u and derivative_v equal the partial derivative at a parameter of the domain less than h away, and no derivative evaluates the surface outside its interval.", "quantifier": "for all surfaces, step sizes and parameters", "why_tests_cant": "Error bounds for all surfaces; evaluation outside the domain shows only for surfaces undefined there.", "anchors": ["mmcore/geom/parametric.pyx:ParametricSurface.cderivative_u", "mmcore/geom/parametric.pyx:ParametricSurface.cderivative_v"]}
{"id": "C206", "title": "The default second derivatives of a surface approximate the second partial derivatives", "statement": "second_derivative_uu, vv and uv equal the second partial derivatives at parameters near by, everywhere in the domain.", "quantifier": "for all surfaces and all parameters of the domain", "why_tests_cant": "Wrong in a strip of width 2h along the boundary which sampled parameters miss.", "anchors": ["mmcore/geom/parametric.pyx:ParametricSurface.csecond_derivative_uu", "mmcore/geom/parametric.pyx:ParametricSurface.csecond_derivative_vv", "mmcore/geom/parametric.pyx:ParametricSurface.csecond_derivative_uv"]}
{"id": "C207", "title": "plane_at of a surface is a right-handed orthonormal tangent frame", "statement": "The origin is the point, the first axis points along derivative_u, the third is the unit normal on the side of du x dv, and the frame is orthonormal and right-handed; it is undefined exactly where the derivatives are parallel.", "quantifier": "for all surfaces and parameters", "why_tests_cant": "All pairs of derivative vectors, including the degenerate ones.", "anchors": ["mmcore/geom/parametric.pyx:ParametricSurface.plane_at"]}
{"id": "C208", "title": "surface_evaluator returns the derivatives in the documented rows", "statement": "second_derivatives returns the point and the derivatives u, v, uu, vv, uv, each equal to the partial derivative at a parameter less than h away; derivatives_normal returns a unit normal of the two first derivatives.", "quantifier": "for all twice differentiable surfaces, step sizes and parameters", "why_tests_cant": "Error bounds for all surfaces.", "anchors": ["mmcore/geom/evaluator/surface_evaluator.pyx:second_derivatives", "mmcore/geom/evaluator/surface_evaluator.pyx:derivatives_normal"]}
{"id": "C209", "title": "A ruled surface joins its two curves, and its derivatives are its derivatives", "statement": "At v = 0 and v = 1 the surface is the two curves run through in proportion, between them it is straight, and derivative_u, derivative_v and second_derivative_uu are the partial derivatives of evaluate.", "quantifier": "for all pairs of curves and all parameters", "why_tests_cant": "Curves over [0,1] hide a missing factor; the statement is about all curves and intervals.", "anchors": ["mmcore/geom/parametric.pyx:Ruled.cevaluate", "mmcore/geom/parametric.pyx:Ruled.cderivative_u", "mmcore/geom/parametric.pyx:Ruled.cderivative_v", "mmcore/geom/parametric.pyx:Ruled.csecond_derivative_uu"]}
{"id": "C210", "title": "A bilinear patch interpolates its corners and its derivatives are exact", "statement": "evaluate gives the four points at the corners and straight lines along each parameter; the derivatives up to order two are the exact partial derivatives.", "quantifier": "for all corner points and parameters", "why_tests_cant": "Exactness of a derivative is a limit statement for all inputs.", "anchors": ["mmcore/geom/parametric.pyx:BiLinear"]}
{"id": "C211", "title": "A cubic spline segment is the Bezier curve of its points with exact derivatives", "statement": "CubicSpline.evaluate equals de Casteljau's construction, starts and ends in the end points, derivative and second_derivative are the exact derivatives, and the end tangents are three times the legs of the control polygon.", "quantifier": "for all control points and parameters", "why_tests_cant": "Exactness of a derivative is a limit statement for all inputs.", "anchors": ["mmcore/geom/curves/_cubic.pyx:CubicSpline"]}
{"id": "C212", "title": "intersect_triangle_segment finds the common point of a triangle and a segment", "statement": "A reported point lies on the segment and in the triangle up to the tolerance; if the two have a common point and are not parallel, it is reported.", "quantifier": "for all triangles, segments and tolerances", "why_tests_cant": "Completeness over all positions; the loss of crossings of small figures depends on scale.", "anchors": ["mmcore/numeric/algorithms/moller.pyx:intersect_triangle_segment", "mmcore/numeric/algorithms/moller.pyx:_intersect_triangle_segment"]}
{"id": "C213", "title": "The class of an intersection point is right", "statement": "Flag 2 is given to points at a vertex, 3 to points on an edge, 1 to points inside.", "quantifier": "for all triangles, points and tolerances", "why_tests_cant": "All points of all triangles; boundaries are null sets.", "anchors": ["mmcore/numeric/algorithms/moller.pyx:_classify_intersection"]}
{"id": "C214", "title": "intersect_triangles_segment gives every triangle its own result", "statement": "Each triangle gets its flag and point, rows without a hit stay as they were, and intersect_triangles_segment_one returns the first triangle hit with its documented flag.", "quantifier": "for all lists of triangles, segments and contents of the output arrays", "why_tests_cant": "Any number of triangles; stale data in the outputs.", "anchors": ["mmcore/numeric/algorithms/moller.pyx:intersect_triangles_segment", "mmcore/numeric/algorithms/moller.pyx:intersect_triangles_segment_one"]}
{"id": "C215", "title": "The parallel function returns what the serial one returns", "statement": "Every execution of intersect_triangles_segment_parallel ends with the arrays of intersect_triangles_segment.", "quantifier": "for all numbers of threads and all interleavings", "why_tests_cant": "A data race shows only in some interleavings; tests run a few.", "anchors": ["mmcore/numeric/algorithms/moller.pyx:intersect_triangles_segment_parallel"]}
{"id": "C216", "title": "unique_with_tolerance merges equal values", "statement": "The values returned are in order and more than the tolerance apart, do not depend on the order of the input, a second call changes nothing, and every input value is within the tolerance of a returned one.", "quantifier": "for all arrays and tolerances", "why_tests_cant": "All arrays; chains of close values of any length.", "anchors": ["mmcore/geom/curves/curve_bool.py:unique_with_tolerance"]}
{"id": "C217", "title": "curve_boolean_operation keeps the right segments", "statement": "The result of a union, intersection or difference is the list of segments of both curves which are outside or inside the other as the operation asks, each exactly once.", "quantifier": "for all pairs of closed curves, operations and results of the intersector", "why_tests_cant": "All pairs of curves, including those without a common point.", "anchors": ["mmcore/geom/curves/curve_bool.py:curve_boolean_operation"]}
{"id": "C218", "title": "The ray test tells whether a segment is inside the other curve", "statement": "With an exact intersector a segment is classified as inside exactly when its middle is in the region bounded by the other curve.", "quantifier": "for all curves, planes and positions of the middle", "why_tests_cant": "Wrong for positions in a region depending on the size of the other curve, for tangent rays (a null set) and for planes across the x axis.", "anchors": ["mmcore/geom/curves/curve_bool.py:curve_boolean_operation"]}
{"id": "C219", "title": "curve_point and surface_point return a point on the curve or surface", "statement": "The loop ends, and the value of the function at the returned point is zero up to an error quadratic in the tolerance.", "quantifier": "for all functions, gradients, starts and tolerances", "why_tests_cant": "All functions and starts; a loop without limit can only be shown to end by proof.", "anchors": ["mmcore/numeric/algorithms/implicit_point.py:curve_point", "mmcore/numeric/algorithms/implicit_point.py:surface_point"]}
{"id": "C220", "title": "intersection_curve_point returns a point on both surfaces", "statement": "A point returned with success is on both surfaces up to an error quadratic in the tolerance; values and gradients returned with it belong to it; failure is reported as asked for.", "quantifier": "for all pairs of functions, gradients, starts, tolerances and limits", "why_tests_cant": "All pairs of surfaces; parallel gradients are a null set for most.", "anchors": ["mmcore/numeric/algorithms/implicit_point.py:intersection_curve_point"]}
{"id": "C221", "title": "marching_intersection_curve_points follows the intersection curve", "statement": "All points are solutions within the bounds, at most max_points of them; the march ends at the end point or when it is back at the start, having gone around once.", "quantifier": "for all surfaces, starts, steps, bounds and limits", "why_tests_cant": "Unbounded number of steps; termination.", "anchors": ["mmcore/numeric/marching.py:marching_intersection_curve_points"]}
{"id": "C222", "title": "marching_implicit_curve_points follows the curve from v0 to v1", "statement": "The list consists of curve points, starts at the curve point of v0, ends at that of v1, has at most max_points members and ends where the curve passes the end point.", "quantifier": "for all curves, end points, steps and limits", "why_tests_cant": "Unbounded number of steps; termination.", "anchors": ["mmcore/numeric/marching.py:marching_implicit_curve_points"]}
{"id": "C223", "title": "Iterating over an intersection returns each curve once", "statement": "The loop ends, every sampled point is on a returned curve, curves start at samples away from earlier curves, and no curve is returned twice.", "quantifier": "for all samples, steps and curves", "why_tests_cant": "Any number of samples and curves; an invariant of the iterator's state.", "anchors": ["mmcore/numeric/intersection/implicit_implicit.py:ImplicitIntersectionCurveIterator"]}
{"id": "C224", "title": "min_distance returns a closest pair of points", "statement": "For at least two points the indices of two different points and their distance are returned and no two points are closer; for fewer points infinity and (-1, -1).", "quantifier": "for all lists of points in the plane, with repetitions", "why_tests_cant": "All lists of points; the strip argument of the divide and conquer must hold for every arrangement, including equal coordinates.", "anchors": ["mmcore/numeric/closest_point.py:min_distance", "mmcore/numeric/closest_point.py:closest_util", "mmcore/numeric/closest_point.py:strip_closest"]}
{"id": "C225", "title": "closest_point_on_curve returns the closest point of the curve", "statement": "The search ends; the distance belongs to the parameter; the parameter is in the interval of the curve; no point of the curve is closer by more than the tolerance allows.", "quantifier": "for all curves, points, intervals and tolerances", "why_tests_cant": "All curves and points; the interval need not be a multiple of the step of the search.", "anchors": ["mmcore/numeric/closest_point.py:closest_point_on_curve_single", "mmcore/numeric/routines/__init__.py:divide_interval"]}
{"id": "C226", "title": "curve_ppx returns pairs of parameters of points within the tolerance", "statement": "Each returned pair has parameters in the intervals of the two curves and points at most tol apart; the pairs are sorted and no two are the same to the rounding of the tolerance.", "quantifier": "for all curves, intervals and tolerances", "why_tests_cant": "All curves; the merging of near pairs and the division of long intervals act only for particular curves and lengths.", "anchors": ["mmcore/numeric/intersection/ccx/ccx.py:curve_ppx", "mmcore/numeric/intersection/ccx/ccx.py:recursive_intersect", "mmcore/numeric/aabb.py:curve_aabb_eager"]}
{"id": "C227", "title": "curve_ppx finds the intersections of two curves", "statement": "With a positive tolerance the call returns; curves which meet have a nonempty result; each intersection has a returned pair near it.", "quantifier": "for all curves of bounded speed, intervals and tolerances", "why_tests_cant": "All curves; samples of the curve decide which parts are discarded, so a test shows only that chosen curves work.", "anchors": ["mmcore/numeric/intersection/ccx/ccx.py:curve_ppx", "mmcore/numeric/aabb.py:curve_aabb_eager", "mmcore/numeric/aabb.py:aabb_overlap"]}
{"id": "C228", "title": "curve_pix finds the parameters at which a curve meets an implicit form", "statement": "With positive step and tolerance the call returns; different values belong to different roots in the interval; each root of odd order is found.", "quantifier": "for all functions, intervals, steps and tolerances", "why_tests_cant": "All functions and positions of roots relative to the pieces of the interval.", "anchors": ["mmcore/numeric/intersection/ccx/ccx.py:curve_pix", "mmcore/numeric/divide_and_conquer.py:test_all_roots", "mmcore/numeric/routines/__init__.py:divide_interval"]}
{"id": "C229", "title": "ccx chooses the method fitting the forms of the curves", "statement": "A parametric and an implicit curve use curve_pix, two parametric curves curve_ppx, two implicit curves curve_iix; other objects raise ValueError; exchanging the curves exchanges the roles.", "quantifier": "for all combinations of forms", "why_tests_cant": "The combination of two implicit curves has no test, and objects with both forms take the first branch which fits.", "anchors": ["mmcore/numeric/intersection/ccx/ccx.py:ccx"]}
{"id": "C230", "title": "compute_gauss_map gives the normals of a Bezier patch", "statement": "The Bezier surface with the control points of compute_gauss_map has, at all parameters, the cross product of the partial derivatives of the patch as its value; it is orthogonal to both derivatives.", "quantifier": "for all patches and parameters", "why_tests_cant": "All control points and all parameters; samples of a few patches cannot show an identity of polynomials.", "anchors": ["mmcore/numeric/gauss_map.py:compute_gauss_map", "mmcore/numeric/gauss_map.py:compute_partial_derivative", "mmcore/numeric/gauss_map.py:cross_product"]}
{"id": "C231", "title": "The vectors of a GaussMap bound the normals of the patch", "statement": "Every normal of the patch is in the cone of the control vectors of its GaussMap, also for the children of subdivide; patches with separated control vectors have no parallel normals.", "quantifier": "for all patches, subdivisions and directions", "why_tests_cant": "All patches; a missed normal direction shows only for particular curvature.", "anchors": ["mmcore/numeric/gauss_map.py:GaussMap.from_surf", "mmcore/numeric/gauss_map.py:GaussMap.subdivide", "mmcore/numeric/gauss_map.py:GaussMap.bounds"]}
{"id": "C232", "title": "separate_gauss_maps finds separating vectors", "statement": "If there are vectors P1 with positive products with the first and negative with the second hull, and P2 with positive products with both, the function returns such vectors; otherwise (None, None).", "quantifier": "for all pairs of hulls", "why_tests_cant": "All finite sets of vectors; the negative answer is also correct for many inputs.", "anchors": ["mmcore/numeric/gauss_map.py:separate_gauss_maps", "mmcore/numeric/gauss_map.py:find_separating_vector", "mmcore/numeric/gauss_map.py:find_common_side_vector", "mmcore/numeric/gauss_map.py:linear_program_solver"]}
{"id": "C233", "title": "_detect_intersections_deep keeps all intersections", "statement": "The procedure ends; the returned pairs are parts of the two surfaces with overlapping boxes; each common point of the surfaces is in a returned pair.", "quantifier": "for all surfaces, subdivisions and tolerances", "why_tests_cant": "All pairs of surfaces and all depths of subdivision.", "anchors": ["mmcore/numeric/gauss_map.py:_detect_intersections_deep", "mmcore/numeric/_aabb.pyx:aabb_intersect", "mmcore/numeric/_aabb.pyx:aabb_intersection"]}
{"id": "C234", "title": "compute_gauss_mapw gives the normals of a rational patch", "statement": "With weights the result is the map of the normals of the rational patch; with equal weights the same directions as compute_gauss_map.", "quantifier": "for all patches and weights", "why_tests_cant": "All patches and weights.", "anchors": ["mmcore/numeric/gauss_map.py:compute_gauss_mapw"]}
{"id": "C235", "title": "is_flat accepts the patches near a plane and no others", "statement": "is_flat is true exactly when all points of the patch are within the tolerance of a plane through its corners.", "quantifier": "for all surfaces and tolerances", "why_tests_cant": "All surfaces; the points which are compared decide which curved surfaces pass.", "anchors": ["mmcore/numeric/gauss_map.py:is_flat"]}
{"id": "C236", "title": "SortSeq is a sorted map", "statement": "After any sequence of insert(key, inf) and delItem(lookup(key)) on an empty SortSeq nothing was raised, iteritems gives the pairs of the described map in increasing order of keys, indexing and len agree with it; the random heights of the nodes do not matter.", "quantifier": "for all operation sequences, keys, values and node heights", "why_tests_cant": "All histories and all outcomes of the random heights; a broken link at an upper level shows only for particular heights.", "anchors": ["mmcore/numeric/algorithms/sweep_line/skiplist.py:SkipList._scan", "mmcore/numeric/algorithms/sweep_line/skiplist.py:SkipList._insert", "mmcore/numeric/algorithms/sweep_line/skiplist.py:SkipList.iteritems", "mmcore/numeric/algorithms/sweep_line/sortseq.py:SortSeq.insert", "mmcore/numeric/algorithms/sweep_line/sortseq.py:SortSeq.delItem", "mmcore/numeric/algorithms/sweep_line/sortseq.py:SortSeq.lookup"]}
{"id": "C237", "title": "delete(key) removes exactly the pair with the key", "statement": "SortSeq.delete and del of a SkipList remove the pair with the key and keep all others; a key which is not there changes nothing; succ and pred stay inverse.", "quantifier": "for all reachable states and keys", "why_tests_cant": "All histories, keys and node heights.", "anchors": ["mmcore/numeric/algorithms/sweep_line/skiplist.py:SkipList._remove", "mmcore/numeric/algorithms/sweep_line/skiplist.py:SkipList.__delitem__", "mmcore/numeric/algorithms/sweep_line/sortseq.py:SortSeq.delete"]}
{"id": "C238", "title": "succ, pred, min, lookup and locate navigate in the order of keys", "statement": "succ and pred give the neighbours, min the first node, lookup the node of the key; locate gives the node with the smallest key not below the argument, None if there is none.", "quantifier": "for all reachable states, nodes and keys", "why_tests_cant": "All histories and all positions of the key among the keys.", "anchors": ["mmcore/numeric/algorithms/sweep_line/sortseq.py:SortSeq.succ", "mmcore/numeric/algorithms/sweep_line/sortseq.py:SortSeq.pred", "mmcore/numeric/algorithms/sweep_line/sortseq.py:SortSeq.min", "mmcore/numeric/algorithms/sweep_line/sortseq.py:SortSeq.lookup", "mmcore/numeric/algorithms/sweep_line/sortseq.py:SortSeq.locate"]}
{"id": "C239", "title": "insertAt, delItem and reverseItems act on the sequence as their names say", "statement": "insertAt puts the pair next to the given node on the side of its key; delItem removes the node; reverseItems(a, b) reverses the part from a to b; all other items keep their order; len is the number of items; nothing is raised.", "quantifier": "for all sequences of these operations on reachable states", "why_tests_cant": "All histories; the links are rebuilt level by level, with heights which depend on the neighbours.", "anchors": ["mmcore/numeric/algorithms/sweep_line/sortseq.py:SortSeq.insertAt", "mmcore/numeric/algorithms/sweep_line/sortseq.py:SortSeq.delItem", "mmcore/numeric/algorithms/sweep_line/sortseq.py:SortSeq.reverseItems"]}
{"id": "C240", "title": "is_closed is true exactly for curves whose ends meet", "statement": "Curves with equal ends, or ends at most the tolerance apart, are closed; the ends of a closed curve are at most the square root of three times the tolerance apart.", "quantifier": "for all curves and intervals", "why_tests_cant": "All curves; one coordinate may be ignored without a test in a plane noticing.", "anchors": ["mmcore/geom/parametric.pyx:ParametricCurve.is_closed"]}
{"id": "C241", "title": "The default normal of a surface is the cross product of its derivatives", "statement": "normal(u, v) is the cross product of the derivatives along u and along v, in this order; exact where the parameter lines are parabolas, otherwise of mean values of the derivatives within the step.", "quantifier": "for all surfaces and parameters", "why_tests_cant": "All surfaces.", "anchors": ["mmcore/geom/parametric.pyx:ParametricSurface.normal", "mmcore/geom/parametric.pyx:ParametricSurface.derivatives"]}
{"id": "C242", "title": "Composing curves whose knot vectors continue each other keeps every piece", "statement": "_compose_curves_no_knots_updates of clamped curves of one degree, each beginning at the last knot and the last control point (with its weight) of the previous one, gives a clamped curve that coincides with each of them on its own domain.", "quantifier": "for all degrees, numbers of curves, knot vectors, control points, weights and parameters", "why_tests_cant": "Any number of curves and any knots; the joint and the span before it are easy to get off by one.", "anchors": ["mmcore/geom/curves/knot.py:_compose_curves_no_knots_updates"]}
{"id": "C243", "title": "compose_curves runs through the curves one after the other in unit parameter intervals", "statement": "For curves of one degree that meet end to start, compose_curves gives a curve on [0, number of curves] that on [i, i+1] is curve i with its domain mapped linearly.", "quantifier": "for all lists of meeting clamped curves and all parameters", "why_tests_cant": "Arbitrary domains and numbers of curves.", "anchors": ["mmcore/geom/curves/knot.py:compose_curves"]}
{"id": "C244", "title": "Elevating the degree of a curve does not change the curve", "statement": "degree_elevate_curve(curve, num) has degree + num, the same domain and the same point at every parameter.", "quantifier": "for all clamped curves, all num and all parameters", "why_tests_cant": "All curves and parameters; tests usually use weights 1.", "anchors": ["mmcore/geom/curves/knot.py:degree_elevate_curve"]}
{"id": "C245", "title": "Merging two knot vectors keeps each knot with the larger multiplicity", "statement": "merge_knot_vectors returns the sorted vector in which every knot of either vector occurs as often as in the one where it occurs more often.", "quantifier": "for all pairs of knot vectors", "why_tests_cant": "All vectors, including nearly equal knots.", "anchors": ["mmcore/geom/curves/knot.py:merge_knot_vectors", "mmcore/construction/ruled.py:merge_knot_vectors"]}
{"id": "C246", "title": "Refining a curve inserts the knots and does not change the curve", "statement": "After refine_curve(curve, knots) the curve has the knots asked for and the same degree, domain and points.", "quantifier": "for all curves, knots to insert and parameters", "why_tests_cant": "All curves and knots.", "anchors": ["mmcore/geom/curves/knot.py:refine_curve"]}
{"id": "C247", "title": "A ruled surface interpolates linearly between its two curves", "statement": "The point of ruled(c1, c2) at (u, v) is (1 - v) c1(u) + v c2(u), with u scaled to the domain of each curve, for any degrees and knots of the two curves.", "quantifier": "for all pairs of clamped curves and all parameters", "why_tests_cant": "All pairs of curves; the code goes through degree elevation, knot merging and refinement.", "anchors": ["mmcore/construction/ruled.py:ruled", "mmcore/construction/ruled.py:make_curves_compatible"]}
{"id": "C248", "title": "generate_knot gives a usable knot vector", "statement": "For degree p >= 1 and n control points generate_knot(p, n) has n + p + 1 non-decreasing knots with which every set of n control points is a clamped curve, and normalize_knot maps a knot vector to [0, 1] keeping order and ratios.", "quantifier": "for all degrees and numbers of control points, clamped or not, all knot vectors", "why_tests_cant": "All degrees and counts; the code builds the vector from several pieces with off-by-one lengths.", "anchors": ["mmcore/geom/curves/knot.py:generate_knot", "mmcore/geom/curves/knot.py:normalize_knot"]}
{"id": "C249", "title": "The two span searches of knot.py find the span of the parameter", "statement": "find_knot_span and find_span_binsearch return the index i with U[i] <= u < U[i+1], and the last span at the end of the domain.", "quantifier": "for all knot vectors and parameters of the domain", "why_tests_cant": "All knot vectors, multiplicities and parameters; termination of the loops.", "anchors": ["mmcore/geom/curves/knot.py:find_knot_span", "mmcore/geom/curves/knot.py:find_span_binsearch"]}
{"id": "C250", "title": "Removing adjacent duplicates leaves no close neighbours and loses no point", "statement": "_remove_adjacent_duplicates returns a subsequence with the same first point in which neighbours are further apart than the tolerance, and every point removed is within the tolerance of a kept one.", "quantifier": "for all point sequences and tolerances", "why_tests_cant": "Chains of small steps of any length.", "anchors": ["mmcore/geom/curves/knot.py:_remove_adjacent_duplicates"]}
{"id": "C251", "title": "interpolate_curve passes through every point", "statement": "For at least degree + 1 points, any two that follow each other different, the knots of compute_knot_vector satisfy the condition of Schoenberg and Whitney, the coefficient matrix is regular, and the curve returned passes through point i at parameter i, the parameters increasing from 0 to 1; with fewer points the call raises.", "quantifier": "for all numbers of points, degrees >= 1 and points", "why_tests_cant": "The matrix is regular for every choice of points only by a theorem on splines; tests try some points.", "anchors": ["mmcore/geom/curves/knot.py:interpolate_curve", "mmcore/geom/curves/knot.py:compute_params_curve", "mmcore/geom/curves/knot.py:compute_knot_vector", "mmcore/geom/curves/knot.py:build_coefficient_matrix"]}
{"id": "C252", "title": "Joining two curves that meet gives a curve running through both", "statement": "join_two_curves of two curves with a common end gives a curve that is the first one on the first part of its domain and the second on the rest.", "quantifier": "for all pairs of curves", "why_tests_cant": "All pairs of curves, degrees, knots and weights.", "anchors": ["mmcore/geom/curves/knot.py:join_two_curves"]}
{"id": "C253", "title": "Whatever nurbs_csx reports is an intersection, and no point is reported twice", "statement": "Every entry of nurbs_csx(curve, surface, tol, ptol) has parameters in the domains of the curve and the surface, its point is the point of the whole curve at t, within tol of the point of the whole surface at (u, v), and two entries differ by at least tol in some coordinate.", "quantifier": "for all NURBS curves and surfaces with equal weights, all tolerances, all answers of the separation tests and of Newton's method", "why_tests_cant": "The search works on pieces of pieces; that parameters and points refer to the original objects is a statement about all recursion trees.", "anchors": ["mmcore/numeric/intersection/csx/_ncsx.py:nurbs_csx", "mmcore/numeric/intersection/csx/_ncsx.py:NURBSCurveSurfaceIntersector"]}
{"id": "C254", "title": "nurbs_csx ends", "statement": "For a bounded curve and tolerances greater than 0 the recursion of nurbs_csx ends, whatever Newton's method and the separation tests answer; the depth is bounded by the number of cells of side tol in a cube around the curve and the logarithm of the size of the patch.", "quantifier": "for all curves, surfaces and tolerances greater than 0", "why_tests_cant": "Termination is about all inputs and all answers of the numerical solvers.", "anchors": ["mmcore/numeric/intersection/csx/_ncsx.py:NURBSCurveSurfaceIntersector"]}
{"id": "C255", "title": "nurbs_csx finds every intersection", "statement": "Every common point of the curve and the surface is within the tolerance of an entry of the result.", "quantifier": "for all curves and surfaces", "why_tests_cant": "A missed intersection is invisible in the result; completeness is about all configurations.", "anchors": ["mmcore/numeric/intersection/csx/_ncsx.py:NURBSCurveSurfaceIntersector"]}
{"id": "C256", "title": "csx returns the intersections sorted by the curve parameter, empty if there are none", "statement": "csx(curve, surface) returns the parameters of the intersections in the order of t, an empty result if there are none, and for other surfaces only converged solutions within the bounds.", "quantifier": "for all curves and surfaces", "why_tests_cant": "All configurations, among them the empty one, and all starts of Newton's method.", "anchors": ["mmcore/numeric/intersection/csx/__init__.py:csx", "mmcore/numeric/intersection/csx/__init__.py:newton_raphson", "mmcore/numeric/intersection/csx/__init__.py:find_intersections_bvh", "mmcore/numeric/intersection/csx/__init__.py:curve_surface_intersection"]}
{"id": "C257", "title": "extract_isocurve returns the curve of the surface at the parameter", "statement": "extract_isocurve(S, u, 'u') is a curve c with c(v) = S(u, v) for all v of the domain, likewise in the other direction, and raises ValueError outside the domain.", "quantifier": "for all surfaces and parameters", "why_tests_cant": "Equality of two functions on an interval for every surface, parameter and weight.", "anchors": ["mmcore/numeric/intersection/ssx/boundary_intersection.py:extract_isocurve"]}
{"id": "C258", "title": "find_boundary_intersections keeps every boundary point once with its parameters on both surfaces", "statement": "Every point found on a boundary of either surface is within tol of a point returned, the points returned are at least tol apart, and the parameters stored with a point are those of the point on both surfaces, on the boundary it was found on.", "quantifier": "for all surfaces, boundaries and sets of hits", "why_tests_cant": "All numbers of hits, boundaries and orders; the removal of duplicates depends on the order.", "anchors": ["mmcore/numeric/intersection/ssx/boundary_intersection.py:find_boundary_intersections", "mmcore/numeric/intersection/ssx/boundary_intersection.py:IntersectionPoint"]}
{"id": "C259", "title": "sort_boundary_intersections pairs the ends of intersection curves", "statement": "Every point is in exactly one sequence, every sequence is a pair except possibly the last, and a pair consists of the two ends of one intersection curve.", "quantifier": "for all sets of points and all orders of set.pop", "why_tests_cant": "All numbers of points and all orders in which a set gives its elements.", "anchors": ["mmcore/numeric/intersection/ssx/boundary_intersection.py:sort_boundary_intersections"]}
{"id": "C260", "title": "spherical_separability tells directions apart", "statement": "spherical_separability returns True only if the directions of the two sets as seen from the point are separated, and the separating circles test decides whether a separating plane exists.", "quantifier": "for all sets of points", "why_tests_cant": "All positions of the largest gap relative to the cut of arctan2; the answer of a linear program for all inputs.", "anchors": ["mmcore/numeric/intersection/separability/spherical.py:spherical_separability", "mmcore/numeric/intersection/separability/spherical.py:find_smallest_wedge", "mmcore/numeric/intersection/separability/spherical.py:spherical_bounding_box_test", "mmcore/numeric/intersection/separability/spherical.py:separating_circles_test"]}
{"id": "C261", "title": "point_inversion_curve returns the parameter of the point", "statement": "If P = C(u*) and the iteration converges, point_inversion_curve(C, P, u0, tol1, tol2) returns a parameter whose point is within tol1 of P; the answer is the last iterate.", "quantifier": "for all curves, points and initial guesses", "why_tests_cant": "Which iterate is returned depends on the criterion that fires, for all curves, guesses and tolerances.", "anchors": ["mmcore/numeric/algorithms/point_inversion.py:point_inversion_curve"]}
{"id": "C262", "title": "point_inversion_surface returns the parameters of the point", "statement": "If P = S(u*, v*) and the iteration converges, point_inversion_surface returns parameters whose point is within tol1 of P; ValueError exactly when the derivatives are dependent at an iterate.", "quantifier": "for all surfaces, points and initial guesses", "why_tests_cant": "Which iterate is returned depends on the criterion that fires, for all surfaces, guesses and tolerances.", "anchors": ["mmcore/numeric/algorithms/point_inversion.py:point_inversion_surface"]}
{"id": "C263", "title": "points_inversion_surface returns for each point what the single version finds", "statement": "points_inversion_surface returns for every point the last iterate of the single iteration for this point, also when others converge earlier.", "quantifier": "for all surfaces, lists of points and initial guesses", "why_tests_cant": "Masks and index arrays over rounds for all numbers of points and orders of convergence.", "anchors": ["mmcore/numeric/algorithms/point_inversion.py:points_inversion_surface"]}
{"id": "C264", "title": "improve_uv turns a displacement in space into one of the parameters", "statement": "For independent derivatives improve_uv succeeds and the result reproduces the displacement if it is tangent; improve_uv_robust on a plane returns the parameters of every point of it.", "quantifier": "for all derivatives, points and surfaces", "why_tests_cant": "The answer depends on the signs of three minors, for all pairs of vectors; the fallback is an iteration.", "anchors": ["mmcore/numeric/intersection/ssx/_ssi.pyx:improve_uv", "mmcore/numeric/intersection/ssx/surface_surface.py:improve_uv", "mmcore/numeric/intersection/ssx/surface_surface.py:improve_uv_robust"]}
{"id": "C265", "title": "Terminator is a set of boundary points with nearest neighbour query and removal", "statement": "get_closest returns the point nearest to the query among those not removed; del, remove and pop take one point away; len is the number of points left.", "quantifier": "for all sets of points, queries and sequences of removals", "why_tests_cant": "All sequences of operations; a removed point that is still returned shows only in certain orders.", "anchors": ["mmcore/numeric/intersection/ssx/_terminator.py:Terminator"]}
{"id": "C266", "title": "A step of marching stays within the tolerance of the intersection curve", "statement": "MarchingMethod.step returns a point within tol of the intersection curve, the step being the chord with sagitta tol for the curvature of the curve, for all transversal intersections, among them straight ones.", "quantifier": "for all surfaces, parameters and tolerances", "why_tests_cant": "A bound on a distance for all curvatures; degenerate curvature.", "anchors": ["mmcore/numeric/intersection/ssx/surface_surface.py:MarchingMethod", "mmcore/numeric/intersection/ssx/surface_surface.py:SSXMethod"]}
{"id": "C267", "title": "MarchingMethod.solve returns a chain of points with their parameters", "statement": "The result of solve consists of consecutive steps, at most max_iter + 1, points and parameters have the same length and belong together, and a closed curve ends in the point it started from.", "quantifier": "for all surfaces, starts and numbers of iterations", "why_tests_cant": "All numbers of steps and all ways to end.", "anchors": ["mmcore/numeric/intersection/ssx/surface_surface.py:MarchingMethod"]}
{"id": "C268", "title": "surface_ppi uses every start point and returns every curve they lie on once", "statement": "The loop ends with every start point used, the arrays of points and parameters stay aligned, and for every start point the curve through it is among the results.", "quantifier": "for all sets of start points and all results of marching", "why_tests_cant": "Removal of index sets from three arrays over all rounds; a lost curve does not show in the result.", "anchors": ["mmcore/numeric/intersection/ssx/surface_surface.py:surface_ppi"]}
{"id": "C269", "title": "FreeFormMethod.solve returns a common point with its parameters", "statement": "If solve returns a point with parameters, the points of both surfaces at those parameters are within tol of the point, and the parameters are in the domains.", "quantifier": "for all surfaces, starts and tolerances", "why_tests_cant": "The answer is one iteration ahead of the test; all surfaces.", "anchors": ["mmcore/numeric/intersection/ssx/surface_surface.py:FreeFormMethod"]}
{"id": "C270", "title": "The terminators of two NURBS surfaces represent every boundary point", "statement": "Every point that find_boundary_intersections finds is within 2 tol of one kept in the Terminator, and those kept differ in the point and in both pairs of parameters.", "quantifier": "for all surfaces and sets of boundary points", "why_tests_cant": "All orders and coincidences of points and parameters.", "anchors": ["mmcore/numeric/intersection/ssx/_terminator.py:surface_surface_boundary_intersection"]}
{"id": "C271", "title": "The Python and the compiled bilinear patch are one surface through four corners", "statement": "BiLinear, evaluate_bilinear and the compiled BiLinear give the same points; the surface is the only one affine in each parameter through the corners; blossom is symmetric, affine in each argument and on the diagonal the quadratic curve.", "quantifier": "for all corners, control points and parameters", "why_tests_cant": "Identity of functions for all inputs; uniqueness.", "anchors": ["mmcore/geom/surfaces/__init__.py:BiLinear", "mmcore/geom/surfaces/__init__.py:evaluate_bilinear", "mmcore/geom/surfaces/__init__.py:blossom", "mmcore/geom/parametric.pyx:BiLinear"]}
{"id": "C272", "title": "A ruled surface of Python curves joins the curves and has exact derivatives", "statement": "At v = 0 and v = 1 the surface runs along its two curves from end to end, for every interval of the curves, and derivative_u, derivative_v and second_derivative_uu are partial derivatives of evaluate.", "quantifier": "for all curves, intervals and parameters", "why_tests_cant": "All intervals; the usual test has intervals [0, 1].", "anchors": ["mmcore/geom/surfaces/__init__.py:Ruled"]}
{"id": "C273", "title": "A Coons patch runs along its four boundary curves", "statement": "For four curves that meet at the corners, evaluate at the sides of the domain gives the curves; four straight sides give the bilinear patch; the corners have to meet.", "quantifier": "for all curves, intervals and parameters", "why_tests_cant": "All curves and intervals, both directions.", "anchors": ["mmcore/geom/surfaces/__init__.py:Coons"]}
{"id": "C274", "title": "Curves of constant parameter run where they are asked to", "statement": "isocurve runs straight from (u0, v0) to (u1, v1), with the ends of the domain where arguments are left out; isoline_u, isoline_v, isocurve_u and isocurve_v cover the domain of the surface.", "quantifier": "for all domains and arguments", "why_tests_cant": "The order of the entries shows only where the two intervals differ.", "anchors": ["mmcore/geom/surfaces/__init__.py:Surface.isocurve", "mmcore/geom/surfaces/__init__.py:Surface.isoline_u", "mmcore/geom/surfaces/__init__.py:Surface.isocurve_u"]}
{"id": "C275", "title": "The quads of a surface tree cover the domain", "statement": "surface_bvh builds (u_count - 1)(v_count - 1) quads, each a rectangle of the domain with corners in turn, and every parameter pair lies in one of them.", "quantifier": "for all domains, counts of at least two and parameters", "why_tests_cant": "All counts and parameters.", "anchors": ["mmcore/geom/surfaces/__init__.py:surface_bvh"]}
{"id": "C276", "title": "plane_at returns an orthonormal frame", "statement": "The axes returned by Surface.plane_at are orthogonal, of length one, the first along derivative_u and the last along the normal.", "quantifier": "for all surfaces with independent derivatives", "why_tests_cant": "Lengths for all angles between the derivatives; a test with orthogonal parameters cannot see it.", "anchors": ["mmcore/geom/surfaces/__init__.py:Surface.plane_at"]}
{"id": "C277", "title": "compute_intersection_curvature returns the curvature vector of the intersection", "statement": "The vector returned is orthogonal to the tangent and has on each surface the normal curvature in the direction of the tangent, for any parametrisation and any angle between the surfaces.", "quantifier": "for all pairs of surfaces that meet transversally", "why_tests_cant": "A formula for all angles and parametrisations.", "anchors": ["mmcore/geom/surfaces/__init__.py:compute_intersection_curvature"]}
{"id": "C278", "title": "TwoPointForm describes the line through two points; LinearMap maps source to target", "statement": "Calling a TwoPointForm gives zero exactly on the line, x and y give its points; a LinearMap takes the ends of source to those of target and inv undoes it.", "quantifier": "for all points and intervals", "why_tests_cant": "All numbers, both directions.", "anchors": ["mmcore/geom/surfaces/__init__.py:TwoPointForm", "mmcore/geom/surfaces/__init__.py:LinearMap"]}
{"id": "C279", "title": "Curve.derivative is a difference quotient within the interval, of second order away from the ends", "statement": "derivative is exact on lines; on quadratic curves it is exact away from the ends of the interval; the curve is never evaluated outside of its interval.", "quantifier": "for all curves, intervals, steps and parameters", "why_tests_cant": "All intervals; tests use [0, 1].", "anchors": ["mmcore/geom/curves/curve.py:Curve.derivative"]}
{"id": "C280", "title": "Curve.second_derivative is exact on quadratic curves", "statement": "For every quadratic curve and every parameter of its interval second_derivative is twice the leading coefficient, up to rounding.", "quantifier": "for all quadratic curves, steps and parameters", "why_tests_cant": "An error that does not shrink with the step, at the ends only.", "anchors": ["mmcore/geom/curves/curve.py:Curve.second_derivative", "mmcore/geom/curves/curve.py:Curve.add_derivative"]}
{"id": "C281", "title": "split gives two curves that together are the curve; the ends of a TrimmedCurve can be read and set", "statement": "The pieces have the points and derivatives of the curve and their intervals make up its interval; start and end of a TrimmedCurve return and set the trim.", "quantifier": "for all curves, parameters and sequences of operations", "why_tests_cant": "All curves and parameters; recursion for every depth.", "anchors": ["mmcore/geom/curves/curve.py:Curve.split", "mmcore/geom/curves/curve.py:TrimmedCurve"]}
{"id": "C282", "title": "Operators on curves act pointwise on the common interval", "statement": "c + d, c - d, c * d, c / d evaluate to the operator on the points, over the parameters where both are defined; derivatives of sums are sums of derivatives.", "quantifier": "for all curves, operands, operators and parameters", "why_tests_cant": "All pairs of intervals, among them disjoint ones.", "anchors": ["mmcore/geom/curves/curve.py:Curve.apply_operator", "mmcore/geom/curves/curve.py:CurveCurveNode", "mmcore/geom/curves/curve.py:CurveValueNode", "mmcore/geom/curves/curve.py:CurveCallableNode"]}
{"id": "C283", "title": "normalize_param and remap_param are inverse to each other and stay in range", "statement": "On the interval and on [0, 1] they are inverse affine maps; outside they give the nearer end.", "quantifier": "for all intervals and parameters", "why_tests_cant": "Both directions for all numbers.", "anchors": ["mmcore/geom/curves/curve.py:Curve.normalize_param", "mmcore/geom/curves/curve.py:Curve.remap_param"]}
{"id": "C284", "title": "evaluate_length is the integral of the speed between the bounds", "statement": "For all bounds, in either order, the result is the integral of the speed from the first to the second, up to the tolerance times the number of pieces.", "quantifier": "for all curves and bounds", "why_tests_cant": "The decomposition at integers for all bounds.", "anchors": ["mmcore/geom/curves/curve.py:Curve._evaluate_length"]}
{"id": "C285", "title": "evaluate_parameter_at_length inverts the length", "statement": "For every length up to that of the curve the result is within one sample step of the parameter at which the curve, from t0 or its current start, has that length; other lengths raise an error.", "quantifier": "for all curves, lengths and histories of calls", "why_tests_cant": "An evaluator kept from earlier calls: all histories.", "anchors": ["mmcore/geom/curves/curve.py:Curve.evaluate_parameter_at_length", "mmcore/geom/curves/curve.py:length_evaluator", "mmcore/geom/curves/curve.py:Curve.extend"]}
{"id": "C286", "title": "arc_length_reparameterization gives equal lengths for equal steps", "statement": "For every s in [0, 1] there is a parameter; at the equally spaced s it is within one sample step of the one with that share of the length; for constant speed it is exact.", "quantifier": "for all curves of positive speed", "why_tests_cant": "An error bound for all curves.", "anchors": ["mmcore/geom/curves/curve.py:arc_length_reparameterization", "mmcore/geom/curves/curve.py:ArcLengthParameterization"]}
{"id": "C287", "title": "The segments of curve_bvh cover the curve", "statement": "There are count segments, in order, each joining the curve's points at the ends of its piece, the first starting at the start and the last ending at the end, and every parameter lies in one.", "quantifier": "for all curves, intervals and counts", "why_tests_cant": "All counts and parameters.", "anchors": ["mmcore/geom/curves/curve.py:curve_bvh"]}
{"id": "C288", "title": "A ReparametrizedCurve has the derivatives of the composed curve", "statement": "evaluate is the composition; derivative is its derivative; tangent its direction; circle_of_curvature returns the circle.", "quantifier": "for all curves and parametrisations", "why_tests_cant": "Chain rule for all parametrisations; recursion for every depth.", "anchors": ["mmcore/geom/curves/curve.py:ReparametrizedCurve"]}
{"id": "C289", "title": "Event points of the line sweep are totally ordered", "statement": "Point.compare is antisymmetric, transitive and the lexicographic order up to the tolerance; equality of points is transitive.", "quantifier": "for all points and tolerances", "why_tests_cant": "Transitivity over all triples; the order is what the queue and the skip list rely on.", "anchors": ["mmcore/numeric/algorithms/sweep_line/point.py:Point.compare", "mmcore/numeric/algorithms/sweep_line/point.py:Point.__eq__"]}
{"id": "C290", "title": "Segment.orientation tells on which side of a segment a point is", "statement": "For a segment from left to right the result is positive above, negative below and zero on its line; for an upward vertical one positive to the left.", "quantifier": "for all segments and points", "why_tests_cant": "All positions.", "anchors": ["mmcore/numeric/algorithms/sweep_line/segment.py:Segment.orientation"]}
{"id": "C291", "title": "Segments are ordered at the sweep point by their heights", "statement": "Segment.compare raises only if neither segment starts in the sweep point; otherwise it orders by height, then by the heights just right of the sweep point, then by number, and swapping changes the sign.", "quantifier": "for all pairs of segments and sweep points", "why_tests_cant": "All pairs, among them touching and collinear ones.", "anchors": ["mmcore/numeric/algorithms/sweep_line/segment.py:Segment.compare"]}
{"id": "C292", "title": "intersectionOfLines returns a point of both lines, None for parallel ones", "statement": "None exactly for parallel segments; the point returned lies on the lines of both.", "quantifier": "for all pairs of segments and tolerances", "why_tests_cant": "For every tolerance, close to the tolerance.", "anchors": ["mmcore/numeric/algorithms/sweep_line/segment.py:Segment.intersectionOfLines"]}
{"id": "C293", "title": "computeIntersection finds a crossing of neighbours exactly when there is one ahead", "statement": "For two non-vertical neighbours the test is passed exactly when they meet to the right of the sweep line before either ends, and the event inserted is that point.", "quantifier": "for all pairs of neighbours and sweep positions", "why_tests_cant": "Equivalence over all pairs.", "anchors": ["mmcore/numeric/algorithms/sweep_line/sweep_intersector.py:SweepIntersector.computeIntersection"]}
{"id": "C294", "title": "The list reported for a segment has its intersections in order, once each, for every copy of it", "statement": "The list begins with the start, ends with the end, holds every intersection once, ordered along the segment; a segment given twice keeps the points of both.", "quantifier": "for all segments and lists of points", "why_tests_cant": "All directions and multiplicities.", "anchors": ["mmcore/numeric/algorithms/sweep_line/sweep_intersector.py:SweepIntersector.inorderExtend", "mmcore/numeric/algorithms/sweep_line/sweep_intersector.py:SweepIntersector.collectAndSortResult", "mmcore/numeric/algorithms/sweep_line/sweep_intersector.py:find_intersection"]}
{"id": "C295", "title": "The sentinels enclose all segments", "statement": "The bound found is a power of two, all end points lie strictly between the two sentinels and left of the stopper, and the search for it ends.", "quantifier": "for all lists of segments", "why_tests_cant": "Termination and all magnitudes.", "anchors": ["mmcore/numeric/algorithms/sweep_line/sweep_intersector.py:SweepIntersector.initializeStructures"]}
{"id": "C296", "title": "polygon_segments is a closed ring of edges", "statement": "There is one edge per vertex; each edge ends where the next begins and the last where the first begins.", "quantifier": "for all polygons", "why_tests_cant": "All lengths.", "anchors": ["mmcore/numeric/algorithms/sweep_line/sweep_intersector.py:polygon_segments"]}
{"id": "C297", "title": "nd_min, nd_max and find_similar give the extrema and leave their arguments", "statement": "The results are the elementwise minimum and maximum and the indices of the nearest values; arguments are not changed.", "quantifier": "for all arrays", "why_tests_cant": "Whether arguments are overwritten depends on the data.", "anchors": ["mmcore/numeric/routines/__init__.py:nd_min", "mmcore/numeric/routines/__init__.py:nd_max", "mmcore/numeric/routines/__init__.py:find_similar"]}
{"id": "C298", "title": "cartesian_product and box_from_intervals list all combinations once", "statement": "The rows are all tuples, last array fastest; the rows of box_from_intervals are exactly the corners.", "quantifier": "for all numbers and lengths of arrays", "why_tests_cant": "All dimensions.", "anchors": ["mmcore/numeric/routines/__init__.py:cartesian_product", "mmcore/numeric/aabb.py:box_from_intervals"]}
{"id": "C299", "title": "uvs fills the whole grid of parameters", "statement": "Row i * v_count + j is (u_i, v_j) whatever the memory held; linspace goes from one end to the other in equal steps.", "quantifier": "for all counts, values and contents of memory", "why_tests_cant": "Uninitialised memory.", "anchors": ["mmcore/numeric/routines/_routines.pyx:uvs"]}
{"id": "C300", "title": "split_dim, remove_dim and add_dim change the shape only", "statement": "Splitting works exactly when the size divides the dimension, keeps the order of elements, and is undone by remove_dim; negative dimensions count from the end.", "quantifier": "for all shapes", "why_tests_cant": "All shapes and dimensions.", "anchors": ["mmcore/numeric/routines/__init__.py:split_dim", "mmcore/numeric/routines/__init__.py:remove_dim", "mmcore/numeric/routines/__init__.py:add_dim"]}
{"id": "C301", "title": "split_by_parts gives pieces of the sizes asked for", "statement": "The pieces put together are the array; there is one piece per size, of that size.", "quantifier": "for all arrays and lists of sizes", "why_tests_cant": "All lists of sizes.", "anchors": ["mmcore/numeric/routines/__init__.py:split_by_parts"]}
{"id": "C302", "title": "column_concat appends columns", "statement": "A matrix is put beside the first; a vector is appended to every row.", "quantifier": "for all matrices and vectors", "why_tests_cant": "Depends on a coincidence of lengths.", "anchors": ["mmcore/numeric/routines/__init__.py:column_concat"]}
{"id": "C303", "title": "The circle through three points passes through them and is the only one", "statement": "Circle2D.create_by_three_points gives nothing exactly for points on a line; otherwise the circle passes through all three points in any order, and no other circle does.", "quantifier": "for all triples of points", "why_tests_cant": "All triples, both orientations; uniqueness.", "anchors": ["mmcore/api/curves.py:circle2d_from_3pt", "mmcore/api/curves.py:Circle2D"]}
{"id": "C304", "title": "The points of a Circle3D follow its center", "statement": "After any history of changes of the center, in place or by assignment, the points are at the radius from the center the circle shows; circles do not influence each other, copies stay connected with their center, arguments are not changed.", "quantifier": "for all histories and all heaps", "why_tests_cant": "Aliasing between objects over arbitrary histories.", "anchors": ["mmcore/api/curves.py:Circle3D"]}
{"id": "C305", "title": "The normal and the arguments of create_by_center determine the circle", "statement": "After setting the normal the points lie in the plane perpendicular to it; create_by_center gives the circle asked for.", "quantifier": "for all circles, normals, centers and radii", "why_tests_cant": "All arguments.", "anchors": ["mmcore/api/curves.py:Circle3D"]}
{"id": "C306", "title": "The points of a Circle2D are at its radius from its center", "statement": "evaluate gives points at the distance radius from center.", "quantifier": "for all circles and parameters", "why_tests_cant": "All centers.", "anchors": ["mmcore/api/curves.py:Circle2D"]}
{"id": "C307", "title": "Offsetting an offset curve adds the distances", "statement": "A chain of offsets is one offset of the first curve by the sum of the distances, at that distance from it.", "quantifier": "for all curves and chains of offsets", "why_tests_cant": "Chains of any length.", "anchors": ["mmcore/api/curves.py:OffsetCurve"]}
{"id": "C308", "title": "Lines can be created and intersected", "statement": "The line classes can be instantiated; line_line_tsz gives the parameters of the lines where they meet, in the order of the lines, and a third value that is zero when they meet.", "quantifier": "for all lines and subclasses", "why_tests_cant": "All pairs of lines.", "anchors": ["mmcore/api/curves.py:Line3D", "mmcore/api/curves.py:InfiniteLine3D", "mmcore/api/curves.py:Line2D", "mmcore/api/curves.py:line_line_tsz", "mmcore/api/base.py:BaseCurve"]}
{"id": "C309", "title": "orthonormalize gives a frame and leaves its arguments", "statement": "The result is orthonormal and on the sides of the arguments; arguments are not changed, also when an error is raised.", "quantifier": "for all triples of vectors and tolerances", "why_tests_cant": "All triples; writes to arguments.", "anchors": ["mmcore/geom/vec/__init__.py:orthonormalize"]}
{"id": "C310", "title": "Scalar product and angle in geom.vec", "statement": "dot, projection_length and gram_schmidt have values; angle of unit vectors is the arc cosine of their scalar product.", "quantifier": "for all vectors", "why_tests_cant": "A name that is missing in one branch for all arguments.", "anchors": ["mmcore/geom/vec/__init__.py:dot", "mmcore/geom/vec/__init__.py:projection_length", "mmcore/geom/vec/__init__.py:gram_schmidt", "mmcore/geom/vec/__init__.py:angle"]}
{"id": "C311", "title": "The evaluator of a curve gives derivatives and strokes", "statement": "First and second derivatives of straight curves are exact; the strokes are the points at equally spaced parameters.", "quantifier": "for all curves, steps and numbers of strokes", "why_tests_cant": "All curves.", "anchors": ["mmcore/api/base.py:CurveEvaluator3D"]}
{"id": "C312", "title": "The segments of a loop form one ring", "statement": "segments_by_loop connects every point of a loop with the next and the last with the first, so every point has exactly two segments.", "quantifier": "for all loops", "why_tests_cant": "Loops of any length.", "anchors": ["mmcore/topo/mesh/triangle/tri.py:segments_by_loop"]}
{"id": "C313", "title": "prepare_args joins each loop to a ring and marks a point inside each hole", "statement": "The edges of every boundary and hole are the rings of its distinct points with the right indices; the point for a hole lies inside it.", "quantifier": "for all boundaries and lists of holes, closed or not", "why_tests_cant": "Any number of loops, closed or not; all shapes of holes.", "anchors": ["mmcore/topo/mesh/triangle/tri.py:prepare_args"]}
{"id": "C314", "title": "tessellate_surface uses the numbers of segments asked for", "statement": "The counts used are those given; a single count given is used for both directions, and without counts there is a default.", "quantifier": "for all counts", "why_tests_cant": "All combinations of given and missing counts.", "anchors": ["mmcore/topo/mesh/tess.py:tessellate_surface"]}
{"id": "C315", "title": "tessellate_surface hands valid vertices and segments to the triangulation", "statement": "Vertices lie in the domain of the surface, segments join distinct neighbouring vertices, and the surface comes with its boundary and trims.", "quantifier": "for all surfaces, counts and boundaries", "why_tests_cant": "All counts, all domains.", "anchors": ["mmcore/topo/mesh/tess.py:tessellate_surface", "mmcore/topo/mesh/tess.py:_process_trim"]}
{"id": "C316", "title": "tessellate_curve_on_surface covers the domain of the surface", "statement": "The vertices are the points of the curve followed by a grid on the parameter domain.", "quantifier": "for all curves, surfaces and counts", "why_tests_cant": "All domains.", "anchors": ["mmcore/topo/mesh/tess.py:tessellate_curve_on_surface"]}
{"id": "C317", "title": "point_in_curve tells points inside from points outside", "statement": "A point is reported inside exactly when it is inside the closed curve; for implicit curves exactly when the value is not positive up to the tolerance.", "quantifier": "for all curves and points", "why_tests_cant": "All closed curves.", "anchors": ["mmcore/numeric/algorithms/point_in_curve.py:point_in_parametric_curve", "mmcore/numeric/algorithms/point_in_curve.py:point_in_implicit_curve", "mmcore/numeric/intersection/ccx/ccx.py:curve_x_ray"]}
{"id": "C318", "title": "sqp_method keeps linear constraints and finds the minimum of convex quadratics", "statement": "After a step linear constraints hold, for quadratics the result is stationary and for positive ones the minimum on the constraint set; dependent constraints are handled.", "quantifier": "for all quadratic objectives and linear constraints", "why_tests_cant": "Any dimension.", "anchors": ["mmcore/numeric/newton/constrained.py:sqp_method"]}
{"id": "C319", "title": "newtons_method22 solves affine systems in a step", "statement": "Every step solves the linearised system; for affine systems the result is the solution.", "quantifier": "for all systems and start points", "why_tests_cant": "All systems, singular ones included.", "anchors": ["mmcore/numeric/newton/constrained.py:newtons_method22"]}
{"id": "C320", "title": "The system of opt1 describes common points on a plane", "statement": "The constraint of opt1 is fulfilled exactly by pairs of points that both lie on the plane; common points of the surfaces on the plane are zeros of its system, and the gradients used are those of the constraint.", "quantifier": "for all points, planes and derivatives", "why_tests_cant": "All functions.", "anchors": ["mmcore/numeric/newton/constrained.py:opt1"]}
{"id": "C321", "title": "OffsetCurve has an offset", "statement": "Reading and setting the offset of an OffsetCurve of geom.curves.offset works.", "quantifier": "for all curves and offsets", "why_tests_cant": "Endless recursion.", "anchors": ["mmcore/geom/curves/offset.py:OffsetCurve"]}
{"id": "C322", "title": "improve_uv takes the parameters of the displacement", "statement": "For a displacement in the tangent plane the exact change of the parameters is returned.", "quantifier": "for all derivatives and displacements", "why_tests_cant": "All configurations of the tangent plane.", "anchors": ["mmcore/geom/curves/offset.py:_improve_uv", "mmcore/numeric/intersection/ssx/sectioal_tangent.py:improve_uv", "mmcore/numeric/vectors.pyx:det"]}
{"id": "C323", "title": "sectional_tangent is tangent to both surfaces", "statement": "The direction returned is perpendicular to the normals of both surfaces.", "quantifier": "for all surfaces and parameters", "why_tests_cant": "All surfaces.", "anchors": ["mmcore/numeric/intersection/ssx/sectioal_tangent.py:sectional_tangent", "mmcore/numeric/intersection/ssx/sectioal_tangent.py:sectional_tangent_uv"]}
{"id": "C324", "title": "control_points_grid_shape fits knots, degrees and points", "statement": "The shape is the number of control points in each direction; impossible combinations are rejected.", "quantifier": "for all numbers of knots and degrees", "why_tests_cant": "All numbers.", "anchors": ["mmcore/geom/utils.py:control_points_grid_shape"]}
{"id": "C325", "title": "Prime integrates back to the function", "statement": "Prime gives the integral of the function from the start, shifted, for a number and for each entry of an array of parameters.", "quantifier": "for all functions and parameters", "why_tests_cant": "All arrays of parameters.", "anchors": ["mmcore/numeric/prime.py:Prime"]}
{"id": "C326", "title": "surface_rect_area is the area of the spanned parallelogram", "statement": "The value is the area of the parallelogram of the derivatives times the parameter rectangle; for perpendicular derivatives the product of the side lengths.", "quantifier": "for all derivatives and rectangles", "why_tests_cant": "All derivatives.", "anchors": ["mmcore/numeric/algorithms/surface_area.py:surface_rect_area"]}
{"id": "C327", "title": "The line of two planes lies in both", "statement": "For planes that are not parallel the point and the direction give a line in both planes, through the point nearest to the first origin.", "quantifier": "for all pairs of planes", "why_tests_cant": "All pairs of planes, all origins of coordinates.", "anchors": ["mmcore/numeric/intersection/pp.py:_plane_plane_intersect"]}
{"id": "C328", "title": "Lines and planes meet in the point returned", "statement": "A line meets a plane in the point returned, and nothing is returned exactly for parallel ones; the point of three planes lies on all of them and exists for independent normals.", "quantifier": "for all lines and planes", "why_tests_cant": "All configurations.", "anchors": ["mmcore/numeric/intersection/pp.py:_plane_line_intersect", "mmcore/numeric/intersection/pp.py:_plane_plane_plane_intersect"]}
{"id": "C329", "title": "The closest point on a line lies on the line", "statement": "_closest_point_on_line returns the foot of the perpendicular.", "quantifier": "for all lines and points", "why_tests_cant": "All directions.", "anchors": ["mmcore/numeric/intersection/pp.py:_closest_point_on_line", "mmcore/numeric/intersection/pp.py:_vector_projection"]}
{"id": "C330", "title": "improve_uv of pp.py gives the parameters of the foot point", "statement": "For independent derivatives a displacement gives the parameters of its part in the tangent plane.", "quantifier": "for all displacements", "why_tests_cant": "All displacements.", "anchors": ["mmcore/numeric/intersection/pp.py:improve_uv"]}
{"id": "C331", "title": "The steps along an intersection return points that are close", "statement": "freeform_step and marching_step return a pair of points closer than the tolerance, or None.", "quantifier": "for all surfaces and start parameters", "why_tests_cant": "All numbers of corrections, endless ones included.", "anchors": ["mmcore/numeric/intersection/pp.py:freeform_step", "mmcore/numeric/intersection/pp.py:marching_step"]}
{"id": "C332", "title": "check_surface_edge respects the domain of the surface", "statement": "The test holds exactly for parameters that are not inside the given intervals.", "quantifier": "for all parameters and intervals", "why_tests_cant": "All intervals.", "anchors": ["mmcore/numeric/intersection/pp.py:check_surface_edge"]}
{"id": "C333", "title": "The marching step follows the curvature of the intersection", "statement": "The step is the chord of the given height in the circle of curvature of the intersection curve.", "quantifier": "for all surfaces, normals and tolerances", "why_tests_cant": "All normals.", "anchors": ["mmcore/numeric/intersection/pp.py:solve_marching", "mmcore/numeric/intersection/pp.py:_evaluate_curvature"]}
{"id": "C334", "title": "Control points on a line at the Greville abscissae reproduce the line", "statement": "If the control points of a curve with equal weights are an affine function of its Greville abscissae, evaluate returns that affine function of the parameter.", "quantifier": "for all degrees from one, knot vectors and parameters", "why_tests_cant": "All knot vectors, multiple knots included.", "anchors": ["mmcore/geom/nurbs.pyx:greville_abscissae", "mmcore/geom/nurbs.pyx:NURBSCurve", "mmcore/geom/nurbs.pxd:curve_point"]}
{"id": "C335", "title": "A control point acts only on its own spans", "statement": "Changing control point j and its weight does not change evaluate outside [U[j], U[j+p+1]).", "quantifier": "for all curves, control points and parameters", "why_tests_cant": "All knot vectors and parameters.", "anchors": ["mmcore/geom/nurbs.pyx:NURBSCurve", "mmcore/geom/nurbs.pxd:curve_point"]}
{"id": "C336", "title": "Curves follow affine maps of their control points", "statement": "Mapping the control points by an affine map maps every point of the curve by it; scaling all weights by one number changes nothing.", "quantifier": "for all curves with positive weights, affine maps and parameters", "why_tests_cant": "All maps and curves.", "anchors": ["mmcore/geom/nurbs.pyx:NURBSCurve", "mmcore/geom/nurbs.pxd:curve_point"]}
{"id": "C337", "title": "Curves are continuous", "statement": "evaluate is a continuous function of the parameter on the whole domain if no inner knot occurs more often than the degree; where one does, the curve jumps between the two control points there.", "quantifier": "for all curves with positive weights", "why_tests_cant": "A limit statement at every parameter.", "anchors": ["mmcore/geom/nurbs.pyx:NURBSCurve", "mmcore/geom/nurbs.pxd:curve_point", "mmcore/geom/nurbs.pxd:find_span"]}
{"id": "C338", "title": "Derivatives are smooth across knots", "statement": "Order k of derivatives2 is continuous on the whole domain if no inner knot occurs more than p-k times, and is the derivative of order k-1 at every inner parameter, knots included; for the curve itself too.", "quantifier": "for all curves, orders and parameters", "why_tests_cant": "Limits at every knot.", "anchors": ["mmcore/geom/nurbs.pyx:NURBSCurve", "mmcore/geom/nurbs.pxd:curve_derivs_alg2"]}
{"id": "C339", "title": "Curves pass through the control points of full knots", "statement": "At a knot of multiplicity at least the degree, in particular at both ends of a clamped curve, evaluate returns the control point belonging to it.", "quantifier": "for all curves and knots of that multiplicity", "why_tests_cant": "All knot vectors.", "anchors": ["mmcore/geom/nurbs.pyx:NURBSCurve", "mmcore/geom/nurbs.pxd:curve_point", "mmcore/geom/nurbs.pxd:find_span"]}
{"id": "C340", "title": "Combined shapes are set operations", "statement": "A point is inside (negative) the union, intersection, difference, complement and exclusive or of two shapes exactly according to set membership, and inside rectangle exactly if it lies strictly within the bounds.", "quantifier": "for all shapes and points", "why_tests_cant": "All shapes and points.", "anchors": ["mmcore/geom/implicit/dc/__init__.py:union", "mmcore/geom/implicit/dc/__init__.py:intersection", "mmcore/geom/implicit/dc/__init__.py:substract", "mmcore/geom/implicit/dc/__init__.py:inv", "mmcore/geom/implicit/dc/__init__.py:opXor", "mmcore/geom/implicit/dc/__init__.py:rectangle"]}
{"id": "C341", "title": "circle describes a disk for every kind of argument", "statement": "circle(c, r) is negative exactly for the points of the open disk and zero exactly on the circle, for tuples and for arrays of points.", "quantifier": "for all centres, radii and points", "why_tests_cant": "All points, arbitrarily far away.", "anchors": ["mmcore/geom/implicit/dc/__init__.py:circle"]}
{"id": "C342", "title": "Entrywise maximum by absolute value leaves its arguments alone", "statement": "nd_max returns per entry the one of larger absolute value, for arrays and numbers, and does not change its arguments.", "quantifier": "for all arrays and numbers", "why_tests_cant": "All entries.", "anchors": ["mmcore/geom/implicit/dc/__init__.py:nd_max"]}
{"id": "C343", "title": "zero finds the change of sign on a segment", "statement": "For end points of different sign, zero returns a point of the segment within 1/2048 of its length from a change of sign, hence (for continuous shapes) from a true root; it returns for all end points.", "quantifier": "for all shapes and segments", "why_tests_cant": "All continuous functions.", "anchors": ["mmcore/geom/implicit/dc/__init__.py:zero"]}
{"id": "C344", "title": "The segments of a cell separate its corners", "statement": "Every side of a cell with a change of sign is the end of exactly one segment, the other sides of none; each segment has the inner ends of its two sides on its left and the outer ends on its right.", "quantifier": "for all shapes, cells and positions of the points on the sides", "why_tests_cant": "All positions of the crossing points.", "anchors": ["mmcore/geom/implicit/dc/__init__.py:edges", "mmcore/geom/implicit/dc/__init__.py:index", "mmcore/geom/implicit/dc/__init__.py:lut"]}
{"id": "C345", "title": "Contours of a uniform grid are closed", "statement": "If the shape is nowhere inside on the boundary of the domain, every point is as often start as end of a segment of contours over all cells.", "quantifier": "for all shapes and depths", "why_tests_cant": "All depths and shapes.", "anchors": ["mmcore/geom/implicit/dc/__init__.py:contours", "mmcore/geom/implicit/dc/__init__.py:pt", "mmcore/geom/implicit/dc/__init__.py:edges", "mmcore/geom/implicit/tree/collapse2d.py:build_tree"]}
{"id": "C346", "title": "Merging keeps the tiling and bounds the error", "statement": "The cells after merge tile the domain; each is an old cell or differs from its bilinear interpolation by less than 0.001 at its centre and the middles of its sides; interpolate is exact at the corners and for bilinear shapes, which merge to a single cell.", "quantifier": "for all shapes, depths and domains", "why_tests_cant": "All trees and shapes.", "anchors": ["mmcore/geom/implicit/dc/__init__.py:merge", "mmcore/geom/implicit/dc/__init__.py:interpolate", "mmcore/geom/implicit/dc/__init__.py:score"]}
{"id": "C347", "title": "deriv is a unit vector along the gradient", "statement": "deriv returns a vector of length one along the differences, the exact unit gradient for affine shapes, and fails only where both differences vanish.", "quantifier": "for all shapes and points", "why_tests_cant": "All shapes and points.", "anchors": ["mmcore/geom/implicit/dc/__init__.py:deriv"]}
{"id": "C348", "title": "feature finds corners and stays in its cell", "statement": "If the tangent lines at the crossing points meet in one point and are not parallel, feature is that point; if they all pass through the middle, it is the middle; without crossing it is None; it lies in the cell.", "quantifier": "for all shapes and cells", "why_tests_cant": "All shapes with corners.", "anchors": ["mmcore/geom/implicit/dc/__init__.py:feature"]}
{"id": "C349", "title": "dc joins the features of neighbouring cells across a changed side", "statement": "The edges of dc join exactly the leaves that share a piece of a side on which the shape changes its sign.", "quantifier": "for all trees, also after merge and collapse", "why_tests_cant": "All shapes of trees.", "anchors": ["mmcore/geom/implicit/dc/__init__.py:dc", "mmcore/geom/implicit/dc/__init__.py:faceProc", "mmcore/geom/implicit/dc/__init__.py:edgeProcH", "mmcore/geom/implicit/dc/__init__.py:edgeProcV"]}
{"id": "C350", "title": "Folding and walking cover every cell once", "statement": "foldTree of an additive quantity adds up to the whole; trav hands every leaf once with its parent to the callback, and with a filter only nodes that pass it.", "quantifier": "for all trees, quantities and filters", "why_tests_cant": "All trees.", "anchors": ["mmcore/geom/implicit/dc/__init__.py:foldTree", "mmcore/geom/implicit/dc/__init__.py:trav"]}
{"id": "C351", "title": "Geodesic paths run with constant speed", "statement": "A path that solves geodesic_equations exactly runs over the surface with constant speed.", "quantifier": "for all surfaces and all solutions", "why_tests_cant": "All differentiable surfaces and continuous paths.", "anchors": ["mmcore/geom/surfaces/geodesic.py:geodesic_equations", "mmcore/geom/surfaces/geodesic.py:compute_christoffel_symbols"]}
{"id": "C352", "title": "Geodesic paths are geodesics", "statement": "The acceleration in space of a path that solves geodesic_equations is normal to the surface at every point.", "quantifier": "for all surfaces, points and velocities", "why_tests_cant": "All surfaces; a test sees one.", "anchors": ["mmcore/geom/surfaces/geodesic.py:geodesic_equations", "mmcore/geom/surfaces/geodesic.py:compute_christoffel_symbols"]}
{"id": "C353", "title": "Metric derivatives are the derivatives of the metric", "statement": "compute_metric_derivatives returns the partial derivatives in u and v of E, F and G of compute_metric.", "quantifier": "for all surfaces and points", "why_tests_cant": "A statement on limits at all points.", "anchors": ["mmcore/geom/surfaces/geodesic.py:compute_metric_derivatives", "mmcore/geom/surfaces/geodesic.py:compute_metric"]}
{"id": "C354", "title": "The geodesic equations are defined where the surface is regular", "statement": "geodesic_equations has a finite value exactly where the two partial derivatives are linearly independent, whatever the velocity.", "quantifier": "for all surfaces, points and velocities", "why_tests_cant": "All surfaces and points.", "anchors": ["mmcore/geom/surfaces/geodesic.py:geodesic_equations", "mmcore/geom/surfaces/geodesic.py:compute_christoffel_symbols"]}
{"id": "C355", "title": "The Python find_span returns the span", "statement": "find_span of bspline_utils ends for every parameter and returns the span that contains it, the first or last one outside of the domain.", "quantifier": "for all knot vectors and parameters", "why_tests_cant": "All knot vectors with arbitrary multiplicities.", "anchors": ["mmcore/geom/curves/bspline_utils.py:find_span", "mmcore/geom/curves/curve_utils.py:find_span"]}
{"id": "C356", "title": "The Python basis functions are the B-spline basis", "statement": "calc_basis_functions returns the values of the p + 1 basis functions of the span and calc_b_spline_point the weighted sum of the control points.", "quantifier": "for all degrees, knots and parameters", "why_tests_cant": "All degrees and knot vectors.", "anchors": ["mmcore/geom/curves/bspline_utils.py:calc_basis_functions", "mmcore/geom/curves/bspline_utils.py:calc_b_spline_point", "mmcore/geom/curves/curve_utils.py:calc_basis_functions", "mmcore/geom/curves/curve_utils.py:calc_b_spline_point"]}
{"id": "C357", "title": "The Python B-spline derivatives are the derivatives", "statement": "Entry k of calc_bspline_derivatives is the k-th derivative of the homogeneous curve, for every order asked for.", "quantifier": "for all degrees, knots, control points, weights and orders", "why_tests_cant": "All orders and degrees; derivatives are limits.", "anchors": ["mmcore/geom/curves/bspline_utils.py:calc_bspline_derivatives", "mmcore/geom/curves/bspline_utils.py:calc_basis_function_derivatives", "mmcore/geom/curves/curve_utils.py:calc_bspline_derivatives"]}
{"id": "C358", "title": "The Python NURBS derivatives are those of the quotient", "statement": "calcNURBSDerivatives returns the derivatives of the rational curve; calc_rational_curve_derivatives returns the derivatives of the quotient of its arguments, calcKoverI the binomial coefficients.", "quantifier": "for all curves and orders", "why_tests_cant": "All orders.", "anchors": ["mmcore/geom/curves/bspline_utils.py:calcNURBSDerivatives", "mmcore/geom/curves/bspline_utils.py:calc_rational_curve_derivatives", "mmcore/geom/curves/bspline_utils.py:calcKoverI"]}
{"id": "C359", "title": "The Python surface points are points of the surface", "statement": "calcSurfacePoint and calc_surface_point return the point of the rational surface.", "quantifier": "for all surfaces and parameters", "why_tests_cant": "All surfaces.", "anchors": ["mmcore/geom/curves/bspline_utils.py:calcSurfacePoint", "mmcore/geom/curves/bspline_utils.py:calc_surface_point"]}
{"id": "C360", "title": "The first NURBS curve class evaluates the spline", "statement": "evaluate of bspline_first.NURBSCurve returns the weighted sum of the control points by the B-spline basis; find_span returns the span and raises for no parameter of the knot range.", "quantifier": "for all degrees, knots, control points and parameters", "why_tests_cant": "All knot vectors.", "anchors": ["mmcore/geom/curves/bspline_first.py:find_span", "mmcore/geom/curves/bspline_first.py:basis_funs", "mmcore/geom/curves/bspline_first.py:curve_point", "mmcore/geom/curves/bspline_first.py:NURBSCurve"]}
{"id": "C361", "title": "Comments are removed and nothing else", "statement": "Reading a file of Triangle, every comment from # to the end of its line is removed and nothing else is.", "quantifier": "for all texts", "why_tests_cant": "All texts; the last line is the one tests forget.", "anchors": ["mmcore/topo/mesh/triangle/data.py:loads"]}
{"id": "C362", "title": "Node files are read as written", "statement": "loads returns the vertices, attributes and markers that the node file spells, row by row, whatever blanks and comments stand between them.", "quantifier": "for all tables, layouts and texts", "why_tests_cant": "All texts and tables.", "anchors": ["mmcore/topo/mesh/triangle/data.py:loads"]}
{"id": "C363", "title": "Triangles are numbered from 0", "statement": "loads returns triangles whose numbers are positions in the array of vertices, whether the files count from 0 or from 1.", "quantifier": "for all tables of triangles", "why_tests_cant": "All tables, with and without the node file.", "anchors": ["mmcore/topo/mesh/triangle/data.py:loads"]}
{"id": "C364", "title": "Poly files are read as written", "statement": "loads returns the vertices, segments, holes and regions that the poly file spells; trailing comments do not matter.", "quantifier": "for all tables and texts", "why_tests_cant": "All texts.", "anchors": ["mmcore/topo/mesh/triangle/data.py:loads"]}
{"id": "C365", "title": "Neighbours are numbered from 0 with -1 for none", "statement": "loads returns neighbours as positions in the array of triangles, with -1 where there is none.", "quantifier": "for all tables of neighbours", "why_tests_cant": "Both conventions of the files and all tables.", "anchors": ["mmcore/topo/mesh/triangle/data.py:loads"]}
{"id": "C366", "title": "Truncated files are refused", "statement": "A file with fewer rows than its header announces is not read as a complete one.", "quantifier": "for all truncated files", "why_tests_cant": "All places where a file can be cut.", "anchors": ["mmcore/topo/mesh/triangle/data.py:loads"]}
{"id": "C367", "title": "Edge files are read as written", "statement": "loads returns the edges and rays that the edge file spells, with or without rays, whatever comments stand between them.", "quantifier": "for all tables of edges and rays", "why_tests_cant": "All texts.", "anchors": ["mmcore/topo/mesh/triangle/data.py:loads"]}
{"id": "C368", "title": "The library is told the shapes of the arrays", "statement": "After the arrays are handed to the library, every counter of the struct is the number of rows or columns of all arrays that use it.", "quantifier": "for all dictionaries of arrays", "why_tests_cant": "All combinations of arrays and shapes; a wrong counter reads beyond the memory.", "anchors": ["mmcore/topo/mesh/triangle/core.pyx:_wrap", "mmcore/topo/mesh/triangle/core.pyx:fin", "mmcore/topo/mesh/triangle/tri.py:triangulate"]}
{"id": "C369", "title": "Results can be handed in again", "statement": "Renaming the keys to those of the library and back gives the dictionary back, and a result of triangulate is accepted as input.", "quantifier": "for all dictionaries", "why_tests_cant": "All combinations of keys.", "anchors": ["mmcore/topo/mesh/triangle/tri.py:triangulate", "mmcore/topo/mesh/triangle/core.pyx:fin"]}
{"id": "C370", "title": "Colours are written and read without loss", "statement": "from_hex(str(c)) and from_hex(c.hex()) are c and int(c) is 65536 r + 256 g + b, for every colour that can be made of integers.", "quantifier": "for all colours", "why_tests_cant": "All triples and texts.", "anchors": ["mmcore/geom/materials/__init__.py:ColorRGB"]}
{"id": "C371", "title": "Colours are made of unit components or of bytes", "statement": "Making a colour of its components rgb_0to1 or rgb_0to255 gives the colour back; floats are stored to the nearest step of 1/255; the meaning of a number does not depend on its type.", "quantifier": "for all colours and components", "why_tests_cant": "All rationals and integers.", "anchors": ["mmcore/geom/materials/__init__.py:ColorRGB"]}
{"id": "C372", "title": "Equal colours have equal hashes", "statement": "Whatever a colour is equal to has the same hash.", "quantifier": "for all colours and hash functions", "why_tests_cant": "All hash functions.", "anchors": ["mmcore/geom/materials/__init__.py:ColorRGB"]}
{"id": "C373", "title": "Opacity is part of a colour", "statement": "ColorRGBA keeps its components and opacity, and colours that differ in opacity are different.", "quantifier": "for all components and opacities", "why_tests_cant": "All components.", "anchors": ["mmcore/geom/materials/__init__.py:ColorRGBA"]}
{"id": "C374", "title": "Edges and corners of a clamped surface are those of the control net", "statement": "The four edges of a NURBSSurface with clamped knots are the NURBS curves of the border rows of control points with their weights, its corners are the corner control points.", "quantifier": "for all surfaces with clamped knots and weights other than zero", "why_tests_cant": "All degrees, sizes and knots.", "anchors": ["mmcore/geom/nurbs.pyx:NURBSSurface", "mmcore/geom/nurbs.pxd:surface_point"]}
{"id": "C375", "title": "A control point of a surface moves only its part of the surface", "statement": "Changing one control point and its weight leaves the surface unchanged outside of the rectangle of knots of that point.", "quantifier": "for all surfaces, control points and parameters", "why_tests_cant": "All parameters of the domain.", "anchors": ["mmcore/geom/nurbs.pyx:NURBSSurface"]}
{"id": "C376", "title": "Surfaces move with their control points", "statement": "Moving the control points by an affine map moves every point of the surface by the same map.", "quantifier": "for all surfaces with positive weights and all affine maps", "why_tests_cant": "All maps and parameters.", "anchors": ["mmcore/geom/nurbs.pyx:NURBSSurface"]}
{"id": "C377", "title": "Surfaces reproduce planes", "statement": "With equal weights and control points that are an affine function of the Greville abscissae, the surface is that function of the parameters.", "quantifier": "for all degrees and knots", "why_tests_cant": "All degrees, knots and parameters.", "anchors": ["mmcore/geom/nurbs.pyx:NURBSSurface", "mmcore/geom/nurbs.pyx:greville_abscissae"]}
{"id": "C378", "title": "Surfaces are continuous", "statement": "evaluate is continuous in both parameters together on the whole domain, if no inner knot occurs more often than the degree.", "quantifier": "for all surfaces with positive weights", "why_tests_cant": "A statement on limits.", "anchors": ["mmcore/geom/nurbs.pyx:NURBSSurface"]}
{"id": "C379", "title": "Derivatives of surfaces hold at the knots", "statement": "Each entry of surface_derivatives is the derivative of the entry before along u or v, also at knots, if they occur not more often than the degree minus the order.", "quantifier": "for all surfaces, orders and parameters inside the domain", "why_tests_cant": "A statement on limits at the knots.", "anchors": ["mmcore/geom/nurbs.pyx:surface_derivatives", "mmcore/geom/nurbs.pyx:surface_derivatives_py"]}
{"id": "C380", "title": "Knot refinement keeps the curve", "statement": "knot_refinement returns control points and knots of the same curve: every knot of the list has multiplicity degree afterwards, the knots are in order, the domain stays, evaluate gives the same point everywhere and the new control points stay within the bounds of the old ones.", "quantifier": "for all curves, lists of knots and parameters", "why_tests_cant": "All degrees, knots, lists and parameters at once.", "anchors": ["mmcore/geom/nurbs.pyx:knot_refinement"]}
{"id": "C381", "title": "The knots to refine are the inner knots with their middles", "statement": "Without a list knot_refinement refines the knots inside the domain; add_knot_list adds to them; each step of density puts the middle of every interval in.", "quantifier": "for all curves, lists and densities", "why_tests_cant": "All lists and densities.", "anchors": ["mmcore/geom/nurbs.pyx:knot_refinement", "mmcore/numeric/algorithms/_unique.c:uniqueSorted"]}
{"id": "C382", "title": "knot_removal undoes insertion and respects the tolerance", "statement": "knot_removal removes a knot only if the curve stays within the tolerance; inserting a knot and removing it gives the control points back.", "quantifier": "for all curves, knots and tolerances", "why_tests_cant": "All degrees and multiplicities.", "anchors": ["mmcore/geom/nurbs.pyx:knot_removal", "mmcore/geom/nurbs.pyx:point_distance"]}
{"id": "C383", "title": "knot_refinement1 keeps the curve", "statement": "The Python version of knot refinement returns the old and the new knots in order and control points of the same curve.", "quantifier": "for all curves and lists of new knots", "why_tests_cant": "All degrees, knots and lists.", "anchors": ["mmcore/geom/curves/knot.py:knot_refinement1"]}
{"id": "C384", "title": "knot_refinement2 returns a knot vector in order", "statement": "The knots returned by knot_refinement2 are the old and the new ones in order.", "quantifier": "for all curves and new knots", "why_tests_cant": "All degrees, knots and lists.", "anchors": ["mmcore/geom/curves/knot.py:knot_refinement2"]}
{"id": "C385", "title": "NURBSpline.split splits the curve at any parameter", "statement": "split(t) inserts t up to multiplicity degree and cuts the control points there.", "quantifier": "for all curves and parameters", "why_tests_cant": "All curves and parameters.", "anchors": ["mmcore/geom/curves/bspline.py:NURBSpline.split", "mmcore/geom/curves/knot.py:nurbs_split", "mmcore/geom/curves/knot.py:knot_insertion"]}
{"id": "C386", "title": "Curves can be extrapolated", "statement": "Before the start and after the end of its domain a curve with clamped knots continues its first and last polynomial (rational) piece, as scipy.interpolate.BSpline does.", "quantifier": "for all curves with clamped knots and all parameters", "why_tests_cant": "All parameters outside of the domain.", "anchors": ["mmcore/geom/curves/bspline.py:NURBSpline", "mmcore/geom/nurbs.pyx:NURBSCurve.evaluate"]}
{"id": "C387", "title": "Spherical coordinates", "statement": "cartesian_to_spherical followed by spherical_to_cartesian gives every point back; the other way round gives the coordinates back for positive radius, polar angle strictly between 0 and pi and azimuth in (-pi, pi].", "quantifier": "for all points and all coordinates in the ranges", "why_tests_cant": "All points of space, the poles and the origin included.", "anchors": ["mmcore/numeric/vectors.pyx:spherical_to_cartesian", "mmcore/numeric/vectors.pyx:cartesian_to_spherical"]}
{"id": "C388", "title": "Cylindrical coordinates", "statement": "courtesan_to_cylindrical followed by cylindrical_to_xyz gives the point back, and the radius is the distance from the axis.", "quantifier": "for all points", "why_tests_cant": "All points of space.", "anchors": ["mmcore/numeric/vectors.pyx:cylindrical_to_xyz", "mmcore/numeric/vectors.pyx:courtesan_to_cylindrical"]}
{"id": "C389", "title": "Intersections of stacks of planes", "statement": "plane_plane_intersection and planes_planes_intersect applied to stacks give, for every plane of the stack in order, the same line as for the pair of planes.", "quantifier": "for all stacks of planes", "why_tests_cant": "All stacks and shapes of the arguments.", "anchors": ["mmcore/numeric/plane/cplane.pyx:plane_plane_intersection", "mmcore/numeric/plane/cplane.pyx:planes_planes_intersect"]}
{"id": "C390", "title": "arbitrary runs around the origin of the plane", "statement": "The points arbitrary(t, normal, origin) for all t are exactly the points of the plane at distance 1 from the origin.", "quantifier": "for all normals that are not zero and all origins", "why_tests_cant": "All normals, all angles.", "anchors": ["mmcore/numeric/plane/__init__.py:arbitrary"]}
{"id": "C391", "title": "Changing between planes", "statement": "local_to_world and world_to_local are inverse for orthonormal planes; orient_matrix(p1, p2) takes the points of p1 to the points of p2 with the same local coordinates.", "quantifier": "for all pairs of orthonormal planes and all points", "why_tests_cant": "All pairs of frames; the tests could only use a few.", "anchors": ["mmcore/numeric/plane/__init__.py:orient_matrix", "mmcore/numeric/plane/__init__.py:local_to_world", "mmcore/numeric/plane/__init__.py:world_to_local"]}
{"id": "C392", "title": "plane_ray_intersection takes an origin and a normal", "statement": "For a plane represented by an origin and a normal, plane_ray_intersection gives the point of the ray on the plane.", "quantifier": "for all planes and rays", "why_tests_cant": "All planes and rays.", "anchors": ["mmcore/numeric/plane/__init__.py:plane_ray_intersection"]}
{"id": "C393", "title": "Several directions and several matrices at once", "statement": "multi_support_vector gives for every direction a vertex furthest in it; invert_jacobian of a stack inverts every matrix of it.", "quantifier": "for all nonempty lists of vertices, all lists of directions, all stacks", "why_tests_cant": "All stacks.", "anchors": ["mmcore/numeric/vectors.pyx:multi_support_vector", "mmcore/numeric/vectors.pyx:invert_jacobian"]}
{"id": "C394", "title": "rotate_matrix is a rotation", "statement": "rotate_matrix(a) is orthogonal with determinant 1, turns columns counterclockwise by a in the plane, and sums of angles go to products.", "quantifier": "for all angles", "why_tests_cant": "All real angles.", "anchors": ["mmcore/geom/vec/__init__.py:rotate_matrix"]}
{"id": "C395", "title": "The Python collision test always answers", "statement": "gjk_collision_detection of numeric/algorithms/gjk.py returns True or False for all lists of at least one vertex (the ValueError for a simplex of more than four points is never raised, the bookkeeping of visited pairs never ends the search), raises for an empty list, and for vertices on a lattice the answer does not depend on the tolerance.", "quantifier": "for all nonempty lists of vertices, all tolerances that are not negative, all numbers of rounds", "why_tests_cant": "All shapes, tolerances and round counts.", "anchors": ["mmcore/numeric/algorithms/gjk.py:gjk_collision_detection", "mmcore/numeric/algorithms/gjk.py:handle_simplex"]}
{"id": "C396", "title": "The Python collision test decides whether the hulls meet", "statement": "gjk_collision_detection of numeric/algorithms/gjk.py returns True exactly if the convex hulls of the two lists of vertices have a common point.", "quantifier": "for all nonempty lists of vertices", "why_tests_cant": "All pairs of shapes.", "anchors": ["mmcore/numeric/algorithms/gjk.py:gjk_collision_detection", "mmcore/numeric/algorithms/gjk.py:handle_simplex", "mmcore/numeric/algorithms/gjk.py:support_vector"]}
{"id": "C397", "title": "The clipping operations end", "statement": "union, intersection and difference of Polygon end without an exception and return at least one polygon, for any two polygons with at least one vertex each (convex or not, simple or not, degenerate or not); with an empty polygon they raise.", "quantifier": "for all pairs of lists of vertices", "why_tests_cant": "All polygons, all numbers of crossings.", "anchors": ["mmcore/geom/polygon.py:Polygon.clip", "mmcore/geom/polygon.py:Polygon.union", "mmcore/geom/polygon.py:Polygon.intersection", "mmcore/geom/polygon.py:Polygon.difference"]}
{"id": "C398", "title": "Clipped outlines follow the operands", "statement": "If outlines cross, each polygon returned is a closed outline of at least two vertices: consecutive vertices, and the last and the first, lie on one edge of an operand; each vertex is a vertex of an operand or a crossing of two edges; each crossing is a vertex of a result.", "quantifier": "for all pairs of polygons", "why_tests_cant": "All polygons.", "anchors": ["mmcore/geom/polygon.py:Polygon.clip"]}
{"id": "C399", "title": "Crossings are inserted in their order", "statement": "A new polygon lists the vertices given in that order. After an operation it lists the old vertices in the old order and after each one exactly the crossings of its edge, sorted along the edge.", "quantifier": "for all pairs of polygons", "why_tests_cant": "All polygons, all numbers of crossings per edge.", "anchors": ["mmcore/geom/polygon.py:Polygon.insert", "mmcore/geom/polygon.py:Polygon.add", "mmcore/geom/polygon.py:Polygon.clip", "mmcore/geom/polygon.py:Polygon.handle_intersection"]}
{"id": "C400", "title": "Clipping polygons whose outlines do not cross", "statement": "For polygons whose outlines do not cross, the intersection is empty or the inner polygon, the union holds both, the difference is the first polygon, with a hole if the other is inside.", "quantifier": "for all pairs of polygons without crossing edges", "why_tests_cant": "All such polygons.", "anchors": ["mmcore/geom/polygon.py:Polygon.clip", "mmcore/geom/polygon.py:Polygon.intersection", "mmcore/geom/polygon.py:Polygon.union", "mmcore/geom/polygon.py:Polygon.difference"]}
{"id": "C401", "title": "Clipping in a horizontal plane stays in the plane", "statement": "If all vertices of both polygons have the height z, all vertices of the results have the height z.", "quantifier": "for all pairs of polygons at one height", "why_tests_cant": "All heights.", "anchors": ["mmcore/geom/polygon.py:Polygon.handle_intersection", "mmcore/geom/polygon.py:Polygon.clip"]}
{"id": "C402", "title": "The inside test of clipping", "statement": "Clipping decides by a ray whether the first vertex is inside the other polygon; the result of intersection lies in both operands and moves along with the operands.", "quantifier": "for all pairs of polygons, all translations", "why_tests_cant": "All polygons and translations.", "anchors": ["mmcore/geom/polygon.py:Vertex.isInside", "mmcore/geom/polygon.py:Polygon.clip"]}
{"id": "C403", "title": "Clipping twice", "statement": "Repeating union, intersection or difference on the same two Polygon objects gives the same answer.", "quantifier": "for all pairs of polygons", "why_tests_cant": "All call sequences.", "anchors": ["mmcore/geom/polygon.py:Polygon.clip", "mmcore/geom/polygon.py:Polygon.intersection"]}
{"id": "C404", "title": "The priority queue of the sweep line", "statement": "After any sequence of insert and delMin calls, min and delMin return a node of least key among the nodes not yet taken out and fail only on the empty queue; no node is lost or doubled; emptying the queue gives the nodes sorted by key, and nodes of equal key in the order they were inserted.", "quantifier": "for all sequences of calls, all keys of a linear order", "why_tests_cant": "All call sequences and heap shapes.", "anchors": ["mmcore/numeric/algorithms/sweep_line/priority_queue.py:PriorityQueue.insert", "mmcore/numeric/algorithms/sweep_line/priority_queue.py:PriorityQueue.min", "mmcore/numeric/algorithms/sweep_line/priority_queue.py:PriorityQueue.delMin"]}
{"id": "C405", "title": "The queue of segments starts with the leftmost point", "statement": "With Point objects as keys, min returns the leftmost point of the queue, the lowest one among these.", "quantifier": "for all sequences of calls with points as keys", "why_tests_cant": "All point sets and tolerances.", "anchors": ["mmcore/numeric/algorithms/sweep_line/priority_queue.py:PriorityQueue.min", "mmcore/numeric/algorithms/sweep_line/point.py:Point.compare"]}
{"id": "C406", "title": "Derivatives of many points agree with those of one", "statement": "For a vectorised function, row k of gradient_multi and layer k of hessian_multi are the gradient and the Hessian that gradient and hessian give for row k alone.", "quantifier": "for all functions that act row by row, all arrays of floats, all steps", "why_tests_cant": "All functions, dimensions and numbers of rows.", "anchors": ["mmcore/numeric/fdm.py:gradient_multi", "mmcore/numeric/fdm.py:hessian_multi"]}
{"id": "C407", "title": "Newton's method for many points", "statement": "multi_newtons_method answers, row by row, what Newton's method answers for that row alone: the point where it stops, which is a root or a critical point up to the tolerance, whatever the other rows are.", "quantifier": "for all functions that act row by row, all arrays of floats", "why_tests_cant": "All functions, starting points and numbers of rounds.", "anchors": ["mmcore/numeric/fdm.py:multi_newtons_method"]}
{"id": "C408", "title": "Polygon.refine removes flat vertices", "statement": "refine ends and leaves the other vertices in their order and the area as it is; afterwards no vertex lies on the line of its neighbours; the outline as a set of points is not changed.", "quantifier": "for all polygons with a vertex", "why_tests_cant": "All polygons.", "anchors": ["mmcore/geom/polygon.py:Polygon.refine"]}
{"id": "C409", "title": "Unions of a collection of polygons", "statement": "PolygonCollection._union unites polygons until no two of those left make one polygon.", "quantifier": "for all collections", "why_tests_cant": "All collections and all orders of the polygons.", "anchors": ["mmcore/geom/polygon.py:PolygonCollection._union"]}
{"id": "C410", "title": "Interval and Greville abscissae of a curve follow its knots", "statement": "After any sequence of calls on NURBSCurve objects, interval() of each curve is its first and last knot and greville_abscissae are those of its knots and degree.", "quantifier": "for all histories of constructors, setters, insert_knot, normalize_knots, make_periodic, copies and reloads", "why_tests_cant": "All call orders, also with arrays shared between curves.", "anchors": ["mmcore/geom/nurbs.pyx:NURBSCurve.insert_knot", "mmcore/geom/nurbs.pyx:NURBSCurve.set", "mmcore/geom/nurbs.pyx:NURBSCurve.set_degree", "mmcore/geom/nurbs.pyx:NURBSCurve.normalize_knots", "mmcore/geom/nurbs.pyx:NURBSCurve.knots_update_hook"]}
{"id": "C411", "title": "Equality of curves", "statement": "Two NURBSCurve objects are == exactly if they have the same degree, knots, control points and periodicity; == is an equivalence, and a curve is == to nothing but curves.", "quantifier": "for all curves and all states reached by calls", "why_tests_cant": "All pairs of curves; hash values.", "anchors": ["mmcore/geom/nurbs.pyx:NURBSCurve.__eq__", "mmcore/geom/nurbs.pyx:NURBSCurve.__hash__", "mmcore/geom/nurbs.pyx:NURBSCurve.geometry_hash"]}
{"id": "C412", "title": "The interval of a surface follows its knots", "statement": "After any sequence of calls on NURBSSurface objects, interval() of each surface is given by the first and last knots of both directions.", "quantifier": "for all histories of constructors, setters, knot insertions, normalize_knots and copies", "why_tests_cant": "All call orders, also with arrays shared between surfaces.", "anchors": ["mmcore/geom/nurbs.pyx:NURBSSurface.degree", "mmcore/geom/nurbs.pyx:NURBSSurface.knots_u", "mmcore/geom/nurbs.pyx:NURBSSurface.insert_knot_u", "mmcore/geom/nurbs.pyx:NURBSSurface.normalize_knots", "mmcore/geom/nurbs.pyx:NURBSSurface._update_interval"]}
{"id": "C413", "title": "Surfaces can be compared and hashed", "statement": "hash(surface) is a number and == of two surfaces is a truth value.", "quantifier": "for all surfaces", "why_tests_cant": "A statement on all surfaces.", "anchors": ["mmcore/geom/nurbs.pyx:NURBSSurface.__eq__", "mmcore/geom/nurbs.pyx:NURBSSurface.__hash__", "mmcore/geom/nurbs.pyx:NURBSSurface.geometry_hash"]}
{"id": "C414", "title": "Views of control points of a surface stay valid", "statement": "An array handed out by control_points, control_points_flat, control_points_w or control_points_flat_w points to allocated memory as long as the caller holds it.", "quantifier": "for all histories of surfaces, views, insertions and collections", "why_tests_cant": "Use of released memory often goes unnoticed.", "anchors": ["mmcore/geom/nurbs.pyx:NURBSSurface.control_points_w", "mmcore/geom/nurbs.pyx:NURBSSurface.control_points_flat_w", "mmcore/geom/nurbs.pyx:NURBSSurface.insert_knot_u", "mmcore/geom/nurbs.pyx:NURBSSurface.__dealloc__"]}
{"id": "C415", "title": "The bounding box of a curve by curve_aabb", "statement": "curve_aabb returns a box that contains the curve up to the tolerance and that no smaller box replaces: every face is touched by the curve.", "quantifier": "for all curves, intervals and positive tolerances", "why_tests_cant": "All curves; the search only sees finitely many points of each.", "anchors": ["mmcore/numeric/aabb.py:curve_aabb", "mmcore/numeric/numeric.py:curve_bound_points"]}
{"id": "C416", "title": "The bounding box of a curve by curve_aabb2", "statement": "curve_aabb2 returns a box that contains the curve up to the tolerance, its ends included, also with the default bounds.", "quantifier": "for all curves and intervals", "why_tests_cant": "All curves.", "anchors": ["mmcore/numeric/aabb.py:curve_aabb2", "mmcore/numeric/numeric.py:curve_bound_points2"]}
{"id": "C417", "title": "The bounding box of a curve by sampling", "statement": "curve_aabb_eager returns a box that contains the curve; for curves of bounded speed the excess is bounded by the step between samples.", "quantifier": "for all curves, intervals and numbers of samples", "why_tests_cant": "All curves.", "anchors": ["mmcore/numeric/aabb.py:curve_aabb_eager"]}
{"id": "C418", "title": "The search for a minimum in a box", "statement": "divide_and_conquer_min_3d returns, for every positive tolerance, a point of the range near a minimum.", "quantifier": "for all functions of three variables, ranges and positive tolerances", "why_tests_cant": "All functions; termination for all tolerances.", "anchors": ["mmcore/numeric/divide_and_conquer.py:divide_and_conquer_min_3d"]}
{"id": "C419", "title": "All minima of a function of two variables", "statement": "find_all_minima returns the local minima in the range, each once, with their values.", "quantifier": "for all functions, ranges, grids and tolerances", "why_tests_cant": "All functions and all outcomes of Newton's method.", "anchors": ["mmcore/numeric/divide_and_conquer.py:find_all_minima"]}
{"id": "C420", "title": "The parameter at a given length", "statement": "evaluate_parameter_from_length returns a parameter between t0 and the limit at which the length from t0 is l.", "quantifier": "for all speeds, lengths, limits and tolerances", "why_tests_cant": "All lengths; the interplay of differences and Newton steps.", "anchors": ["mmcore/numeric/numeric.py:evaluate_parameter_from_length", "mmcore/numeric/fdm.py:fdm"]}
{"id": "C421", "title": "Curvature of an intersection curve", "statement": "compute_intersection_curvature returns the curvature vector of the intersection of two surfaces and its unit tangent, whatever the parametrisations of the surfaces.", "quantifier": "for all derivatives of two surfaces with different tangent planes", "why_tests_cant": "All surfaces, angles and parametrisations; a curve is involved that the function never sees.", "anchors": ["mmcore/geom/surfaces/__init__.py:compute_intersection_curvature"]}
{"id": "C422", "title": "Polygon of a trimming curve", "statement": "The polygon build_uv_bvh makes for a closed curve of degree one has the vertices of the curve.", "quantifier": "for all curves and intervals", "why_tests_cant": "All intervals and spacings of vertices.", "anchors": ["mmcore/geom/surfaces/__init__.py:CurveOnSurface.build_uv_bvh"]}
{"id": "C423", "title": "What the sweep reports", "statement": "findIntersections reports for each input segment exactly the points, other than its ends, where it meets another input segment.", "quantifier": "for all lists of segments", "why_tests_cant": "All lists of segments, all orders of events, overlaps and touching segments included.", "anchors": ["mmcore/numeric/algorithms/sweep_line/sweep_intersector.py:SweepIntersector.findIntersections", "mmcore/numeric/algorithms/sweep_line/sweep_intersector.py:SweepIntersector.computeIntersection", "mmcore/numeric/algorithms/sweep_line/sweep_intersector.py:SweepIntersector.initializeStructures"]}
{"id": "C424", "title": "When two flat hulls are said to be separable", "statement": "ch2d_sep says True exactly if a line separates the two convex hulls in the plane.", "quantifier": "for all pairs of lists of hull vertices", "why_tests_cant": "All pairs of hulls, one-point hulls and repeated vertices included; a test sees a few pairs.", "anchors": ["mmcore/numeric/intersection/separability/spherical.py:ch2d_sep", "mmcore/numeric/intersection/separability/spherical.py:hull_sides"]}
{"id": "C425", "title": "Only pieces that cannot meet again are dropped", "statement": "sph_sep drops a pair of pieces that share a point only if they have no second common point; the projection of directions to the plane keeps separability.", "quantifier": "for all pieces and all norms, angles and tolerances", "why_tests_cant": "All shapes of the two pieces; a test sees a few.", "anchors": ["mmcore/numeric/intersection/separability/spherical.py:sph_sep", "mmcore/numeric/intersection/separability/spherical.py:center_projection_to_xy"]}
{"id": "C426", "title": "The parameters of two lines at their common point", "statement": "line_line_intersection returns (True, s1, s2) exactly if the lines meet, with their parameters at the common point, and (False, nan, nan) if they are parallel or skew.", "quantifier": "for all pairs of lines and all tolerances", "why_tests_cant": "All positions and lengths of two lines; a test sees a few pairs.", "anchors": ["mmcore/api/curves.py:line_line_intersection"]}
{"id": "C427", "title": "The sense of rotation of points", "statement": "points_order says CCW, CW or COLLINEAR by the sign of the area the points enclose, and the answer does not change if all points are moved.", "quantifier": "for all lists of three points or more", "why_tests_cant": "All lists of points of any length and all translations.", "anchors": ["mmcore/geom/features.py:points_order"]}
{"id": "C428", "title": "The kind of a critical point", "statement": "classify_critical_point_2d says LOCAL_MINIMUM exactly if the second derivative is positive in all directions, LOCAL_MAXIMUM exactly if it is negative in all, SADDLE_POINT exactly if it takes both signs, and it always returns a value.", "quantifier": "for all symmetric matrices", "why_tests_cant": "All matrices and all directions.", "anchors": ["mmcore/numeric/fdm.py:classify_critical_point_2d"]}
{"id": "C429", "title": "Pieces of growing length fill the total length", "statement": "The pieces returned by generate_array add up to the total length, read the same from both ends, and those in the middle are near the constant length.", "quantifier": "for all lengths, all growing pieces and all roundings to a nearest integer", "why_tests_cant": "All lengths; a test sees a few.", "anchors": ["mmcore/geom/implicit/tree/utils.py:generate_array"]}
{"id": "C430", "title": "A NURBSpline is evaluated on its interval", "statement": "At every parameter between the ends of interval() the method evaluate of a NURBSpline, periodic or not, returns the rational combination of the control points by the basis functions.", "quantifier": "for all splines with increasing knots and all parameters of the interval", "why_tests_cant": "All degrees, knots, weights and parameters.", "anchors": ["mmcore/geom/curves/_nurbs.pyx:NURBSpline.evaluate", "mmcore/geom/curves/_nurbs.pyx:NURBSpline._update_interval"]}
{"id": "C431", "title": "make_open opens periodic splines and leaves open ones alone", "statement": "After make_periodic, make_open gives a spline that is not periodic; a spline that is open already keeps its control points.", "quantifier": "for all splines", "why_tests_cant": "All splines; the two cases of the test of make_open.", "anchors": ["mmcore/geom/curves/_nurbs.pyx:NURBSpline.make_open", "mmcore/geom/parametric.pyx:ParametricCurve.is_open"]}
{"id": "C432", "title": "A deep copy of a spline is the same spline", "statement": "copy.deepcopy of a NURBSpline has the values of the original at all parameters where the original is defined, and is periodic if the original is.", "quantifier": "for all splines and all parameters", "why_tests_cant": "All splines and parameters.", "anchors": ["mmcore/geom/curves/_nurbs.pyx:NURBSpline.__deepcopy__"]}
{"id": "C433", "title": "Setting the control points of a spline", "statement": "After s.control_points = p the spline is the one with the points p and its knots; setting the points it has changes nothing; a number of points that does not fit the knots is refused.", "quantifier": "for all splines and all arrays", "why_tests_cant": "All splines and arrays of points.", "anchors": ["mmcore/geom/curves/_nurbs.pyx:NURBSpline.control_points"]}
{"id": "C434", "title": "The normal of a curve", "statement": "normal(t) of a NURBSCurve or NURBSpline returns the unit vector at a right angle to the tangent in the osculating plane, and writes nothing outside of its own arrays.", "quantifier": "for all curves and parameters with independent first and second derivatives", "why_tests_cant": "All curves; a write behind an array is rarely seen by a test.", "anchors": ["mmcore/geom/nurbs.pyx:NURBSCurve.cnormal", "mmcore/geom/curves/_nurbs.pyx:NURBSpline.cnormal"]}
{"id": "C435", "title": "The nearest point of a NURBS curve", "statement": "closest_point_on_nurbs_curve returns the parameter of the nearest point and its distance; with on_curve=True the flag is True exactly if the point is on the curve.", "quantifier": "for all curves (lists of Bezier pieces with boxes), points and results of the local solvers", "why_tests_cant": "All curves and points; a test sees a few.", "anchors": ["mmcore/numeric/closest_point.py:closest_point_on_nurbs_curve"]}
{"id": "C436", "title": "The parameters of the ends of an edge", "statement": "Edge.get_ends_parameters returns the parameters of both vertices on the curve of the edge; with check=True it raises exactly if a vertex is not on the curve, with the distance in the message.", "quantifier": "for all edges", "why_tests_cant": "All edges, curves and vertices.", "anchors": ["mmcore/topo/brep/__init__.py:get_edge_ends_parameters", "mmcore/topo/brep/__init__.py:_EdgeCurveParametersResult.check"]}
{"id": "C437", "title": "The nearest point of a surface", "statement": "closest_point_on_nurbs_surface and closest_point_on_surface return the parameters of the nearest point, inside of the bounds that are given.", "quantifier": "for all surfaces, points, bounds and results of the local solvers", "why_tests_cant": "All surfaces and points.", "anchors": ["mmcore/numeric/closest_point.py:closest_point_on_nurbs_surface", "mmcore/numeric/closest_point.py:closest_point_on_surface"]}
{"id": "C438", "title": "Common points of two implicit curves", "statement": "curve_iix / implicit_find_features return the common zeros of the two curves in the cells of the tree: every returned point is a common zero up to the tolerance, every cell with a common zero contributes one, none is returned twice, and rtol and atol are the tolerances of the comparison.", "quantifier": "for all functions, lists of cells, results of the local search and tolerances", "why_tests_cant": "All functions and cells; a test sees a few curves.", "anchors": ["mmcore/geom/implicit/tree/tree2d.py:_find_feature", "mmcore/geom/implicit/tree/tree2d.py:implicit_find_features", "mmcore/numeric/intersection/ccx/ccx.py:curve_iix"]}
{"id": "C439", "title": "Guesses of the grid of a curve and a surface", "statement": "Each guess (t, u, v) of gs2 pairs the parameter of a point of the curve with the nearest sample of the surface to that point, and every point nearer than the threshold is joined to a guess by near pairs.", "quantifier": "for all samples, distances, thresholds and tolerances", "why_tests_cant": "All samples, in particular distances equal to the threshold.", "anchors": ["mmcore/numeric/intersection/csx/__init__.py:gs2", "mmcore/numeric/intersection/csx/__init__.py:find_intersections_grid"]}
{"id": "C440", "title": "Normals and planes of the Python curves", "statement": "Curve.normal(t), Curve.plane_at(t) and Curve.planes_at(ts) return the unit normal at right angles to the tangent and the orthonormal frame of the curve.", "quantifier": "for all curves and parameters", "why_tests_cant": "All curves; the claim is about every point.", "anchors": ["mmcore/geom/curves/curve.py:Curve.plane_at", "mmcore/numeric/numeric.py:plane_on_curve", "mmcore/numeric/numeric.py:normal_at", "mmcore/numeric/numeric.py:swap_z_to_first_der"]}
{"id": "C441", "title": "The step for a tolerance", "statement": "Curve.step(t, tol) returns the length of a chord of the circle of curvature whose arc is tol away from it.", "quantifier": "for all curvature vectors and tolerances", "why_tests_cant": "All curvatures and tolerances, in particular straight points.", "anchors": ["mmcore/geom/curves/curve.py:Curve.step"]}
{"id": "C442", "title": "The distance function of a parametric curve", "statement": "implicitly(curve)(p) returns the shortest distance from p to the curve, the vector from p to the nearest point and its parameter.", "quantifier": "for all curves, samples and points", "why_tests_cant": "All curves and points; a test sees a few.", "anchors": ["mmcore/geom/curves/implicitly.py:ImplicitlyCurve", "mmcore/geom/curves/implicitly.py:implicitly"]}
{"id": "C443", "title": "The nearest points of two curves", "statement": "proximity_points_curve_curve(c1, c2) returns parameters at which the two curves are nearest to each other, and their distance; ccd returns all local minima of the distance.", "quantifier": "for all pairs of curves", "why_tests_cant": "All pairs of curves, in particular parallel lines.", "anchors": ["mmcore/numeric/intersection/ccx/ccd.py:ccd", "mmcore/numeric/intersection/ccx/ccd.py:proximity_points_curve_curve"]}
{"id": "C444", "title": "The three curves of an intersection of surfaces", "statement": "ssx(s1, s2) returns for each intersection curve a curve in space and the curves on both surfaces with the same ends, closed if the intersection is a loop, and an empty list if there is no intersection.", "quantifier": "for all results of the marching", "why_tests_cant": "All branches; loops and branches without terminators are rarely tested.", "anchors": ["mmcore/numeric/intersection/ssx/surface_surface.py:ssx"]}
{"id": "C445", "title": "The starts of the marching", "statement": "find_closest_points returns the starts found by the solver within the parameter intervals of the surfaces, None if there are none.", "quantifier": "for all solvers, pairs of leaves and intervals", "why_tests_cant": "All outcomes of the solver, in particular no solution.", "anchors": ["mmcore/numeric/intersection/ssx/surface_surface.py:find_closest_points"]}
{"id": "C446", "title": "The raster algorithm finds the points of an implicit curve", "statement": "raster_algorithm_2d(f, x_min, x_max, y_min, y_max, nx, ny) returns points of the curve f = 0 such that no part of the curve in the rectangle is missed, with or without a gradient.", "quantifier": "for all functions, rectangles and grids", "why_tests_cant": "All curves and grids; the missed curves lie between the rows of the grid.", "anchors": ["mmcore/numeric/marching.py:raster_algorithm_2d"]}
{"id": "C447", "title": "Pulling a curve to a surface", "statement": "pull_curve(surf, curve) returns the curve on the surface that begins at the inversion of the start of the curve and follows the curve to the end of its interval.", "quantifier": "for all surfaces and curves", "why_tests_cant": "All intervals; a test with an interval ending at 5 hides it.", "anchors": ["mmcore/numeric/algorithms/pull_curve.py:pull_curve"]}
{"id": "C448", "title": "Corners, edges and faces of a box", "statement": "BoundingBox.get_corners, get_edges and get_faces return the eight corners, the twelve edges and the six faces of the box, each face with its corners in the order around it.", "quantifier": "for all boxes with min <= max", "why_tests_cant": "All boxes; the tables of indices must fit together with the order of the corners.", "anchors": ["mmcore/geom/bvh/__init__.py:BoundingBox.get_corners", "mmcore/geom/bvh/__init__.py:BoundingBox.get_edges", "mmcore/geom/bvh/__init__.py:BoundingBox.get_faces", "mmcore/geom/bvh/__init__.py:get_aabb_corners_numpy"]}
{"id": "C449", "title": "Size, points and open overlap of a box", "statement": "size_metric grows with the box and follows expand; evaluate(uvh) is the point at these parameters between the corners; intersect_disjoint says whether the interiors meet.", "quantifier": "for all boxes and parameters", "why_tests_cant": "All boxes, in particular degenerate ones and boxes away from the origin.", "anchors": ["mmcore/geom/bvh/__init__.py:BoundingBox.size_metric", "mmcore/geom/bvh/__init__.py:BoundingBox.evaluate", "mmcore/geom/bvh/__init__.py:BoundingBox.intersect_disjoint"]}
{"id": "C450", "title": "Partial derivatives by the class PDE", "statement": "PDE(f, dim)(t) is the gradient of f, dx, dy, dz are the partial derivatives, dxy, dyz, dzx the mixed ones, with and without bounds, also after dim is set.", "quantifier": "for all functions, dimensions, points and bounds", "why_tests_cant": "All functions; for the gradient of a quadratic function the result is exact, so one test tells nothing about the other methods.", "anchors": ["mmcore/numeric/fdm.py:PDE", "mmcore/numeric/fdm.py:PDE.dxy", "mmcore/numeric/fdm.py:PDE.dim"]}
{"id": "C451", "title": "Parameters of a point on a Python surface", "statement": "Surface.inversion(pt) returns parameters inside the interval of the surface at which the surface is nearest to pt; for a point of the surface they give the point back.", "quantifier": "for all surfaces, points and trees", "why_tests_cant": "All surfaces and points; whether a box of the tree holds the point decides which of two searches answers, and both work on the usual sample.", "anchors": ["mmcore/geom/surfaces/__init__.py:Surface.inversion", "mmcore/geom/surfaces/__init__.py:surface_bvh"]}
{"id": "C452", "title": "Distance function and gradient of a Python surface", "statement": "Surface.implicit(pt) is zero on the surface and has different signs on its two sides; Surface.gradient(pt) is the gradient of implicit.", "quantifier": "for all surfaces and points", "why_tests_cant": "All points of all surfaces; the gradient is a statement about limits.", "anchors": ["mmcore/geom/surfaces/__init__.py:Surface.implicit", "mmcore/geom/surfaces/__init__.py:Surface.gradient"]}
{"id": "C453", "title": "Frames of curves on surfaces", "statement": "CurveOnSurface.plane_at(t) is an orthonormal right-handed frame along the tangent and the normal of the surface; normal(t) is the vector orthogonal to both.", "quantifier": "for all surfaces, curves and parameters", "why_tests_cant": "All curves and surfaces, and a rounding free statement of orthogonality.", "anchors": ["mmcore/geom/surfaces/__init__.py:CurveOnSurface.plane_at", "mmcore/geom/surfaces/__init__.py:CurveOnSurface.normal"]}
{"id": "C454", "title": "Candidates of the intersection of two surfaces are complete", "statement": "find_intersections(surface1, ..., surface2, ...) of dqr.py reports a candidate for every place where the two surfaces cross; two cells are followed whenever their boxes have a common point.", "quantifier": "for all surfaces, ranges and tolerances", "why_tests_cant": "All pairs of surfaces; a test sees some crossings, not the pairs of cells that are skipped.", "anchors": ["mmcore/numeric/intersection/ssx/dqr.py:find_intersections", "mmcore/numeric/intersection/ssx/dqr.py:bounding_boxes_intersection", "mmcore/numeric/intersection/ssx/dqr.py:bounding_boxes_intersect"]}
{"id": "C455", "title": "Cells of the second surface", "statement": "In every step of find_intersections (dqr.py) the four cells of each surface make up its current range.", "quantifier": "for all ranges of the two surfaces", "why_tests_cant": "All ranges; with equal ranges, as in the examples of the file, the first step is correct.", "anchors": ["mmcore/numeric/intersection/ssx/dqr.py:find_intersections"]}
{"id": "C456", "title": "Reported pairs of parameters", "statement": "find_intersections (dqr.py) returns for positive tolerances; every reported pair of parameters lies in the ranges given and is near an intersection.", "quantifier": "for all surfaces, ranges and tolerances", "why_tests_cant": "Termination and ranges for all surfaces; a test checks some results by eye.", "anchors": ["mmcore/numeric/intersection/ssx/dqr.py:find_intersections", "mmcore/numeric/intersection/ssx/dqr.py:bbox"]}
{"id": "C457", "title": "Typed collections", "statement": "ObjectCollection[T] is a collection class whose item_type is T, and the same expression always gives the same class.", "quantifier": "for all sequences of uses of ObjectCollection[...] in a program", "why_tests_cant": "All histories: the answer depends on every class used before in the process.", "anchors": ["mmcore/api/_base.py:ObjectCollection.__class_getitem__"]}
{"id": "C458", "title": "Collections hold what was added", "statement": "After ObjectCollection.add(item) the item is contained, count is one more, indexing returns it and find its place (-1 if absent); remove, del and clear undo this.", "quantifier": "for all collections, items and sequences of calls", "why_tests_cant": "All sequences of calls.", "anchors": ["mmcore/api/_base.py:ObjectCollection.add", "mmcore/api/_base.py:ObjectCollection.remove", "mmcore/api/_base.py:ObjectCollection.find", "mmcore/api/_base.py:ObjectCollection.count", "mmcore/api/_base.py:ObjectCollection.cast"]}
{"id": "C459", "title": "Objects from data", "statement": "Base.from_data(data) calls create with the values of data: each parameter gets the value of its key, or its default when the key is missing; unknown keys are ignored; a subclass behaves like its base.", "quantifier": "for all classes and mappings", "why_tests_cant": "All classes of the hierarchy, including those written by users, and all mappings.", "anchors": ["mmcore/api/_base.py:Base.from_data", "mmcore/api/_base.py:BaseType.__new__"]}
{"id": "C460", "title": "Solution by row reduction", "statement": "After _Matrix.row_reduce, back_solve(rhs) is the solution of the linear system with the original matrix; form_reduced_hessian keeps the rows and columns that are not fixed.", "quantifier": "for all square matrices and right sides", "why_tests_cant": "All sizes and all entries; for diagonal matrices, the usual example, the result is right.", "anchors": ["mmcore/numeric/newton/bounded.py:_Matrix.row_reduce", "mmcore/numeric/newton/bounded.py:_Matrix.back_solve", "mmcore/numeric/newton/bounded.py:_Matrix.form_reduced_hessian"]}
{"id": "C461", "title": "Candidate patches of two surfaces", "statement": "detect_intersections(surf1, surf2, tol) returns pairs of subpatches, first of surf1 and second of surf2, and every common point of the surfaces is in a returned pair; it ends.", "quantifier": "for all surfaces, tolerances and numbers of subdivisions", "why_tests_cant": "All surfaces and all depths of the subdivision.", "anchors": ["mmcore/numeric/gauss_map.py:detect_intersections"]}
{"id": "C462", "title": "Removing points from a terminator", "statement": "Terminator.remove(xyz) removes the stored point with these coordinates, raises ValueError when there is none, and each point can be removed exactly once.", "quantifier": "for all lists of points and all sequences of calls", "why_tests_cant": "All sequences of calls; one call on a new terminator looks right.", "anchors": ["mmcore/numeric/intersection/ssx/_terminator.py:Terminator.remove"]}
{"id": "C463", "title": "Support vertex", "statement": "support_vector(vertices, direction) returns a vertex, and no vertex is farther in the direction.", "quantifier": "for all lists of vertices and directions", "why_tests_cant": "All lists of vertices and all magnitudes.", "anchors": ["mmcore/geom/vec/svm.py:support_vector"]}
{"id": "C464", "title": "Two-dimensional circle", "statement": "All points of evaluate(t) meet implict = 0; fx(x) and fy(y) are exactly the other coordinates; the curve on its interval is the whole circle.", "quantifier": "for all radii, origins and parameters", "why_tests_cant": "All radii and real parameters.", "anchors": ["mmcore/geom/curves/__init__.py:Circle"]}
{"id": "C465", "title": "Trim polygons on the rectangle", "statement": "match_edge_cases returns a polygon for every trim curve whose ends are on the boundary of the parameter rectangle: closed trims and trims with both ends on one side unchanged.", "quantifier": "for all polygons, rectangles and tolerances", "why_tests_cant": "All polygons and positions of the ends.", "anchors": ["mmcore/topo/mesh/tess.py:match_edge_cases"]}
{"id": "C466", "title": "Sides of a polygon and points in it", "statement": "polyline_to_lines returns the sides of the closed polyline in order; point_in_polygon of features tells whether the point is inside.", "quantifier": "for all polygons and points", "why_tests_cant": "All polygons and points.", "anchors": ["mmcore/geom/features.py:polyline_to_lines", "mmcore/geom/features.py:point_in_polygon"]}
{"id": "C467", "title": "Point on two implicit surfaces, compiled", "statement": "intersection_curve_point(surf1, surf2, q0, result, tol, max_iter) of calgorithms returns true exactly when it wrote to result a point that lies on both surfaces up to the tolerance.", "quantifier": "for all surfaces, starts, tolerances and limits", "why_tests_cant": "All surfaces, in particular those whose gradients become parallel on the way.", "anchors": ["mmcore/numeric/calgorithms.pxd:cintersection_curve_point", "mmcore/numeric/calgorithms.pyx:intersection_curve_point"]}
{"id": "C468", "title": "Points on implicit curves in the plane, second version", "statement": "_curve_point2(func, x0, tol, grad) returns a point where the function is zero; surface_plane(fun, p, grad, tol) returns a point of the surface with a frame.", "quantifier": "for all functions, starts and tolerances", "why_tests_cant": "All functions and starts.", "anchors": ["mmcore/numeric/algorithms/implicit_point.py:_curve_point2", "mmcore/numeric/algorithms/implicit_point.py:surface_plane"]}
{"id": "C469", "title": "Backtracking", "statement": "line_search_backtrack returns the first point x + alpha/2^k*dx that meets the condition of sufficient decrease with True, and (x, False) when none of max_iter points does; along a direction of descent the objective does not grow.", "quantifier": "for all objectives, points, directions, start steps and limits", "why_tests_cant": "All objectives and numbers of halvings.", "anchors": ["mmcore/numeric/newton/bounded.py:line_search_backtrack"]}
{"id": "C470", "title": "Sample grid and frame of an implicit intersection curve", "statement": "mgrid3d returns the points of the box grid with x slowest and z fastest, all in the box and with its corners; ImplicitIntersectionCurve.plane is a right-handed orthonormal frame with the tangent of the curve first.", "quantifier": "for all boxes, counts and pairs of gradients that are independent", "why_tests_cant": "All counts and all gradients.", "anchors": ["mmcore/numeric/intersection/implicit_implicit.py:mgrid3d", "mmcore/numeric/intersection/implicit_implicit.py:ImplicitIntersectionCurve.plane"]}
{"id": "C471", "title": "Newton's method for a curve and a surface", "statement": "newton_raphson of the module csx, used by curve_surface_ppi and curve_surface_intersection, returns parameters of a common point of the curve and the surface: for a line and a plane from every guess, and where there is no common point nothing is reported and nothing raised.", "quantifier": "for all curves, surfaces, guesses, tolerances and limits of iterations", "why_tests_cant": "All curves, surfaces and guesses; an iterate that never meets a singular matrix cannot be found by sampling.", "anchors": ["mmcore/numeric/intersection/csx/__init__.py:newton_raphson", "mmcore/numeric/intersection/csx/__init__.py:jacobian", "mmcore/numeric/intersection/csx/__init__.py:_jac_cls", "mmcore/numeric/intersection/csx/__init__.py:find_intersections_bvh"]}
{"id": "C472", "title": "A ray and a plane given as arrays", "statement": "ray_plane_intersection(plane, ray) and ray_plane_parametric_intersection(plane, ray) return the point where the ray meets the plane, the second one with its parameters, and None exactly when the ray does not meet it.", "quantifier": "for all planes and rays as arrays of rows", "why_tests_cant": "All planes, rays and numbers of rows.", "anchors": ["mmcore/numeric/plane/cplane.pyx:ray_plane_intersection", "mmcore/numeric/plane/cplane.pyx:ray_plane_parametric_intersection"]}
{"id": "C473", "title": "Offset of a curve on a surface", "statement": "OffsetOnSurface(curve, offset).evaluate(t) is the point of the surface at the length offset along the image of the normal of the curve of parameters; geodesic_length inverts the length for every length inside of the line.", "quantifier": "for all surfaces through the length of the line, all offsets and normals", "why_tests_cant": "All lengths that grow strictly, all offsets and numbers of nodes.", "anchors": ["mmcore/geom/curves/offset.py:geodesic_length", "mmcore/geom/curves/offset.py:OffsetOnSurface.evaluate"]}
{"id": "C474", "title": "Points inside implicit solids, gradients and calls", "statement": "point_inside of a combination of implicit solids is the combination of the tests of its parts; the gradient in space has length one and the tangent in the plane is perpendicular to the gradient; calling an implicit object with an array of points gives the values at the points.", "quantifier": "for all trees of solids, points, functions and steps", "why_tests_cant": "All trees and functions.", "anchors": ["mmcore/geom/implicit/implicit.py:Implicit2D.point_inside", "mmcore/geom/implicit/implicit.py:Implicit3D.gradient", "mmcore/geom/implicit/implicit.py:Implicit2D.tangent", "mmcore/geom/implicit/implicit.py:Implicit.__call__"]}
{"id": "C475", "title": "Segments, rays and tests of boxes", "statement": "Segment.subdivide(t) gives two segments that join at evaluate(t) and have together exactly the points of the segment, with shares t and 1 - t of its length; the box of a segment is the smallest that contains it; clip(box) is the part in the box; a Ray has the points of a half line and evaluate(t) is the point at distance t; halving ends with is_zero; is_valid holds for the boxes of objects; contains_points gives the answers of contains_point.", "quantifier": "for all segments, boxes, directions, parameters from 0 to 1 and thresholds", "why_tests_cant": "All segments and boxes, also after expand.", "anchors": ["mmcore/geom/bvh/__init__.py:Segment.subdivide", "mmcore/geom/bvh/__init__.py:Segment.clip", "mmcore/geom/bvh/__init__.py:Ray", "mmcore/geom/bvh/__init__.py:BoundingBox.is_valid", "mmcore/geom/bvh/__init__.py:BoundingBox.contains_points"]}
{"id": "C476", "title": "Nearest points of a surface for many points", "statement": "closest_points_on_surface(surface, pts) returns for each point, in order, the parameters of a nearest point of the surface, inside of its interval and whatever the other points are; closest_point_on_surface_batched returns the same within the tolerance.", "quantifier": "for all surfaces, ranges, tolerances above zero and lists of points", "why_tests_cant": "All surfaces and all points, near and far.", "anchors": ["mmcore/numeric/closest_point.py:closest_points_on_surface", "mmcore/numeric/closest_point.py:closest_point_on_surface_batched"]}
{"id": "C477", "title": "Control points of derivatives in Python", "statement": "curve_deriv_cpts of knot.py returns in row k the control points of the k-th derivative of the curve, the same as the compiled function, for every order asked for; find_spans returns one span for each parameter, in order.", "quantifier": "for all degrees, knot vectors, control points, ranges and orders", "why_tests_cant": "All degrees, knots and orders, also above the degree.", "anchors": ["mmcore/geom/curves/knot.py:curve_deriv_cpts", "mmcore/geom/curves/knot.py:find_spans"]}
{"id": "C478", "title": "Tangent and curvature along an intersection of surfaces", "statement": "sectional_tangent_local moves the parameters of both surfaces along the previous tangent and returns the unit tangent at the new parameters; on planes the points of both surfaces move by exactly the step. sectional_tangent_der and sectional_curvature_vector return the tangent and its derivative along the curve: zero for a straight intersection, for a circle a vector to the centre of length one over the radius.", "quantifier": "for all surfaces, planes, steps, points, radii and differences", "why_tests_cant": "All planes and steps, also those along the axes, and all sizes of the difference.", "anchors": ["mmcore/numeric/intersection/ssx/sectioal_tangent.py:sectional_tangent_local", "mmcore/numeric/intersection/ssx/sectioal_tangent.py:sectional_tangent_der", "mmcore/numeric/intersection/ssx/sectioal_tangent.py:sectional_tangent_der_local", "mmcore/numeric/intersection/ssx/sectioal_tangent.py:sectional_curvature_vector"]}
{"id": "C479", "title": "Boxes, grids and turned vectors", "statement": "clamp returns the nearest point of a box; expand returns the least range with both ranges in it; perp2d turns a vector by a right angle to the left; point_grid_2d returns count_u by count_v different, evenly spaced points of a rectangle with the corners among them.", "quantifier": "for all points, boxes, ranges, vectors and counts", "why_tests_cant": "All positions of a point relative to a box, all counts and dimensions.", "anchors": ["mmcore/geom/vec/__init__.py:clamp", "mmcore/geom/vec/__init__.py:expand", "mmcore/geom/vec/__init__.py:perp2d", "mmcore/numeric/routines/__init__.py:point_grid_2d"]}
{"id": "C480", "title": "Equality of API vectors", "statement": "v == w and v.is_equal(w) of Vector2D, Vector3D and points is an equivalence relation: reflexive, symmetric and transitive, so that equal vectors can stand for each other.", "quantifier": "for all vectors, dimensions and tolerances", "why_tests_cant": "Relations between all pairs and triples of vectors; a test compares some.", "anchors": ["mmcore/api/_base_vectors.py:BaseVector.__eq__", "mmcore/api/_base_vectors.py:BaseVector.is_equal"]}
{"id": "C481", "title": "Guesses for curve and surface intersections from a grid", "statement": "_grid_search returns only parameters in the ranges whose points are within the threshold, and has a guess near every intersection; count_from_length_brute_force chooses counts for which neighbouring samples are at most the threshold apart.", "quantifier": "for all curves, surfaces, ranges, steps and thresholds", "why_tests_cant": "All curves and surfaces of bounded speed and all positions of intersections between samples.", "anchors": ["mmcore/numeric/intersection/csx/__init__.py:_grid_search", "mmcore/numeric/intersection/csx/__init__.py:count_from_length_brute_force"]}
{"id": "C482", "title": "Marching along the intersection of two surfaces", "statement": "marching_method returns at most max_iter + 1 pairs of points, each the correction of the one before with no negative parameter; it stops when the curve closes or leaves the surfaces, and the points of each pair are close.", "quantifier": "for all surfaces, start states and numbers of iterations", "why_tests_cant": "All surfaces, all lengths of closed curves and all numbers of iterations.", "anchors": ["mmcore/numeric/intersection/pp.py:marching_method", "mmcore/numeric/intersection/pp.py:stop_check", "mmcore/numeric/intersection/pp.py:check_wrap_back"]}
{"id": "C483", "title": "Ovals of Cassini", "statement": "cassini is zero, negative or positive as the product of the distances from the two foci is equal to, less or greater than a squared; the region is bounded; it is in one part for a > c and in two for a < c.", "quantifier": "for all points and parameters", "why_tests_cant": "All points and parameters, a statement about the shape of a region.", "anchors": ["mmcore/geom/implicit/cassini.py:cassini"]}
{"id": "C484", "title": "The surface of genus two", "statement": "genus2 is a signed distance, as documented, of a bounded surface with the symmetries of a triangle and of the reflection in z = 0.", "quantifier": "for all points", "why_tests_cant": "All points, among them those far away.", "anchors": ["mmcore/geom/implicit/genus2.py:genus2"]}
{"id": "C485", "title": "Points of an ellipsoid", "statement": "ellipsoid gives exactly the points of the ellipsoid with the given half axes and centre, all of them with u in [0, pi] and v in (-pi, pi].", "quantifier": "for all half axes not zero, centres and points", "why_tests_cant": "All parameters and points; that every point is reached.", "anchors": ["mmcore/geom/surfaces/ellipsoid.pyx:ellipsoid"]}
{"id": "C486", "title": "Boxes of a spline", "statement": "spline_curve_bvh cuts the interval into consecutive segments from start to end, and their boxes hold the whole curve; by default there are enough segments for the spans of the curve.", "quantifier": "for all curves, intervals and counts", "why_tests_cant": "All curves and counts, and all points of a curve between the samples.", "anchors": ["mmcore/geom/curves/spline.py:spline_curve_bvh", "mmcore/geom/bvh/__init__.py:PSegment"]}

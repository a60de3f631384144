# Formal model of mmcore: design and trusted base

Source under study: `/repo` (package `mmcore`), read as text, never executed.
Lean project: `/verif/lean` (Lean 4.33.0, Mathlib).  One directory per area under `lean/Verif/`:
`Model.lean` mirrors the code function by function with file/line citations,
`Lemmas.lean` holds helper facts, `Props.lean` holds the property theorems together with the
small specification they are stated against and a concrete `example` that meets the hypotheses.

## Conventions of the model

* **Numbers.** `double`/`float` is modelled by an exact linearly ordered field (a generic `K`, or `ℚ`/`ℝ`).
  Rounding, NaN, infinities and overflow are outside the model unless a property says otherwise
  (division by zero is modelled as failure where the code would produce NaN/inf).
* **Exceptions** are values (`Except`/`Option`); out-of-bounds C accesses are `none`.
* **Mutation** is state passing; aliasing is modelled only where it matters (CDLL heap, evaluation caches).
* **Loops/recursion** are structural, or carry fuel with a theorem saying the fuel suffices.
* When the code violates a property the user relies on, the file proves the *negation* on a concrete witness
  (theorem name ends in `_refuted`) and keeps a `_partial` theorem for the part that holds.

## Trusted base

* Lean kernel, and the axioms `propext`, `Classical.choice`, `Quot.sound`.  `AXIOMS.md` lists for every theorem of MANIFEST.json the axioms
  `#print axioms` reports.  No theorem uses `sorryAx`, a compiler axiom (`Lean.ofReduceBool`) or an axiom of this project.
* The hand translation of Python/Cython/C into Lean definitions (each cites its source lines).
* The conventions above.  Library routines that occur as parameters of the model (NumPy and SciPy calls, `sqrt`, trigonometric functions, linear
  programs, singular values, spatial trees of SciPy) are assumed only to meet the specification that the theorem states as a hypothesis.

## What is not modelled

The table below says for each property which code is modelled and with which simplifications.  Code without a model:

* Display and files: `renderer/*`, `topo/mesh/triangle/plot.py`, `data.py`, schema generation (`api/utils.py`), `__repr__` methods, notebooks.
* Wrappers and stubs: the property setters and getters of `api/curves.py`, `api/surface.py`, `api/plane.py`, `api/base.py` whose bodies return an
  empty value or forward to code that is modelled; the `.pxd` headers where the `.pyx` file is modelled.
* Foreign code: the C library behind `topo/mesh/triangle` (only the wrapper is modelled), Qhull, earcut, SciPy's optimisers.
* Code that cannot be imported or is not compiled: `ssx/dqr4.py`, `ssx/cydqr.pyx`, `api/plane.py` (it imports `curve_x_plane` from `ccx`, which
  does not define it).
* Duplicates: `geom/curves/_nurbs.pyx` repeats the algorithms of `geom/nurbs.pyx` and `bspline_utils.py`; those are modelled, the copy is not.
* Effects outside the numbers: NumPy broadcasting and dtypes, the Cython memory model beyond index checks, rounding, real threads (schedules are
  modelled where several workers write the same data), pickling beyond the state dictionaries.

Properties C148–C150 (`Bisect`) are stronger versions of C84–C86 for the same functions; both are kept.

## Plan per property

| id | model | proof idea |
|----|-------|-----------|
| C01 | parent/rank arrays as functions on `Nat`, `find` with fuel and path compression, `union` | invariant: every pointer goes to strictly higher rank; partition induced by roots refines `EqvGen` of united pairs; induction over histories |
| C02 | same | rank-size invariant `2^rank(root) ≤ size(class)`, chain length ≤ rank |
| C03 | digit map as association list, group accumulation | uses C01 with the pairs generated by the map |
| C04 | inductive AVL with stored height/balance, insert/delete/rebalance loop with fuel | ordered-keys invariant, loop ends after one turn |
| C05 | same | AVL height invariant and exponential size bound |
| C06 | same with data | refuted on three witnesses; partial: histories of fresh inserts |
| C07 | heap of nodes with `next/previous/data`, head, count | ring invariant; append/insert(i≥1)/remove_by_index/index/get refine list operations; insert(0), remove, empty iteration refuted |
| C08 | k-d tree with sizes, build, insert with scapegoat rebuild | split invariant; branch and bound soundness |
| C09 | same with delete | refuted on witness; partial: inserts |
| C10 | heap of k best as sorted list | refuted; partial for k = 1 or when the heap is full |
| C11 | R*-tree with leaf split | contents, soundness for all histories; completeness refuted on a witness, proved below m(M+1) inserts |
| C12,C13 | Lomuto partition on `List`/functions, index by index | loop invariants; permutation |
| C14 | scan loops | induction |
| C15 | `Interval` structure and operators | add, mul proved; sub, pow, div refuted with partial versions |
| C16 | subdivide/and/or | case analysis |
| C17,C18 | loops of `caabb`, comparison chains | induction / order reasoning |
| C19 | slab loop | invariant "interval of parameters inside the slabs so far"; ray version refuted |
| C20 | edges list, BVH build by mid split, recursive parity | pruning lemma: an edge hit implies every ancestor box is hit |
| C21 | closed shoelace sum | algebra by induction on lists |
| C22 | the linear solve | field arithmetic |
| C23 | the clip fold | invariant per clip edge; refuted: IndexError when an intermediate polygon is empty |
| C24 | Graham scan stack; polar angle a parameter (proved for arctan2 over ℝ) | stack invariant: hull never shrinks; all triples of the stack turn left; refuted: absolute tolerance drops corners of small polygons |
| C25,C26 | BVH build/traverse | structural induction, pruning lemma |
| C27 | greedy search, vicinity search | vicinity search exact inside some box (sign of the box distance); breadth search refuted on witness |
| C28 | box object with cached array | refuted on witness, partial for parameter 1/2 |
| C29,C30 | quadtree/octree | induction on depth |
| C31,C32 | search loop | bracket invariant; root finder refuted |
| C33 | binary search | loop invariant with fuel |
| C34 | triangular recurrence | equality with Cox–de Boor recursion, partition of unity, nonnegativity |
| C35 | curve_point | convex combination |
| C36 | Boehm insertion | basis-function refinement identity |
| C37 | curve object with cache | state machine; refuted for degree setter and copy; partial for the other edits |
| C38 | byte-level encoder/decoder | round-trip |
| C39 | reversal | Cox–de Boor symmetry |
| C40,C41 | Bernstein sums | binomial identities |
| C42–C45 | direct formulas and Gaussian elimination with the code's pivot search | field arithmetic; pivot search refuted on coordinate planes |
| C46 | SDF operators on values | order reasoning; Sub refuted |
| C47–C49 | writer/registry state machines | invariants by induction over histories |
| C50 | box class | refuted (copy, contains); partial |
| C51 | k-d tree with delete | refuted on a witness |
| C52 | tolerance unique | refuted on a chain; weaker bound by induction |
| C53 | interval comparison | order reasoning; number version refuted |
| C54 | span search loop | refuted: below `U[p]` the loop keeps `low` fixed; partial for clamped vectors |
| C55 | periodic wrap | refuted on witness; partial inside the domain |
| C56,C57 | insertion to full multiplicity, slices | value at a knot of multiplicity = degree from both sides; induction over parameters; refuted for rational curves |
| C58 | flip | refuted; knots decrease on every curve |
| C59 | trim | refuted on a witness |
| C60 | averages | sums of ordered knots |
| C61–C65 | surface evaluation, insertion, splitting, decomposition | a surface is a curve of columns in each direction; curve lemmas applied to every column; homogeneous storage makes rational surfaces exact |
| C66,C67 | normalize_knots, default knots | affine invariance of the Cox–de Boor recursion |
| C68,C69 | make_periodic, is_periodic, make_open | shift invariance of uniform knots and continuity at a simple knot; refuted: is_closed, is_periodic, make_open |
| C70,C72 | segment query, point descent | pruning lemma with C19 for the slab test |
| C71 | in-place sort of the argument | refuted on witness, permutation kept |
| C29,C30,C73 | quadtree/octree, collapse, reduce | generic tree with `n` children; tilings compose; induction over the tree |
| C74 | implicit tree lists | cells of the collapsed tree tile the domain; 2D refuted when bounds are passed |
| C75–C77 | adaptive octree | induction on fuel; termination by an Archimedean bound under a rounding specification; second call refuted |
| C78–C80 | OCNode predicates, planar division, power_of_two | order reasoning |
| C81–C83 | planar and n-dimensional divide and conquer | box invariant, halving, Archimedean termination; minimality refuted |
| C84 | bisection1d | grid induction; exactly-once refuted |
| C85 | bisection_2d | opposite-sign diagonal invariant plus the intermediate value theorem; zero midpoint refuted |
| C86 | scalar_min_1d | induction on fuel with unimodality; boundary minima refuted |
| C42–C44 | 2×2 solves, Gaussian elimination with the code's pivot search, local/world maps | field identities; elimination invariant; refuted by zero pivots |
| C45, C94 | ray/plane, line/plane, Möller–Trumbore | vector identities over an ordered field |
| C87–C90 | decomposition, projections, Gram–Schmidt, row products | field identities; uninitialised memory as a parameter, aliasing modelled |
| C91–C93 | plane constructors, equations, projection, distance | length as a parameter with `NormSpec`, shown for the real square root |
| C95 | `prange` triangle test | interleaving semantics of three-step iterations with shared arrays |
| C96–C99 | hit classification, pivot search, support vector, orientation | induction on lists, order reasoning |
| C50, C100, C101 | ApiBox: pure functions on corner values over any linear order; heap of point objects | order reasoning; separation invariant over histories; copy, 3D contains, planar intersection and corner setter refuted |
| C46, C102, C103 | Implicit: trees of operations over arbitrary primitives; central differences; cache state machine | structural induction; cache invariant; Sub (b without a, bounds of a), Intersection2D and unit normals refuted |
| C47, C48, C104–C107 | `Step/Model.lean`: step_writer.py, the writer as a state (entities, counter, cached contexts) with exceptions that keep the state | a Hoare triple per method: facts about the returned reference, invariant (numbers, references, types) and extension of the file; readers written independently recover knots, placements and loops |
| C108, C109 | `Step/Parse.lean`: parse_arguments, process_token, parse_assignment on lists of characters, white space and number conversion as parameters | mutual induction over argument trees; balanced texts; fuel suffices |
| C49, C110, C111 | `Brep/Model.lean`: topo/brep/__init__.py registries as a state machine over an arbitrary hash, `Sparce` as two association lists, `nurbs_surf_to_brep` on end points | calls only append, first match stays first; invariant by cases on calls; pigeonhole for collisions |
| C37 | `NCache/Model.lean`: NURBSCurve objects with references to arrays, an `lru_cache` per object and the object whose method it wraps | invariant "cached result = value of current data, no shared arrays" over all quiet histories; every excluded kind of call refuted in every state |
| C38, C112 | `Serial/Model.lean`: bytes, strided memory views, uninitialised tail as a parameter; `__reduce__` and the constructor | induction over arrays; reads outside the data are an error value |
| C40, C41, C113–C115 | `Bez/Model.lean`: binom.pyx (the table itself, memory behind it as a parameter), monomial.py, `degree_elevation_bez` | Pascal's rule checked on the table and induction; binomial theorem and orthogonality of binomial coefficients; `np.linalg.inv` by its specification, the inverse exhibited |
| C116–C122 | `ApiMat/Model.lean`: api/_base_vectors.py and api/vectors.py over a field; matrices as functions of indices in any dimension; variables and objects for the in-place operators; `np.linalg.inv`, `arctan2`, scipy rotations by specification; not modelled: `Vector3D.transform` (reads an attribute that does not exist), `__eq__`, `get_cell`/`set_cell`, point subclasses | sums over indices; exact characterisations (iff) of when the round trip and the fixed centre hold |
| C123–C126 | `NDer/Model.lean`: nurbs.pyx 183-459 and 1563-1714 (`all_basis_funs`, `ders_basis_funs`, `curve_derivs_alg1/2`, `curve_deriv_cpts`, the methods); one column at a time; not modelled: `cplane`, `cnormal`, C `int` overflow of the factorial factor | the pieces of basis functions as polynomials (`Pieces.lean`), invariants of the nested loops (`Loops.lean`), derivative of polynomials over any ordered field, then limits over the reals |
| C127–C129 | `NSDer/Model.lean`: `surface_derivatives` (893-1016), `rat_surface_derivs` (nurbs.pxd 350-431), `surface_deriv_cpts` (773-871); one column at a time; division zero by zero and accesses outside arrays are `none` | pieces as polynomials in each direction; Leibniz' rule in two indices and its unique solution (`Rat.lean`), differentiated by induction over the order (`Quot.lean`) |
| C130–C133 | `Sweep/Model.lean`: sweep_line/skiplist.py and sortseq.py, node by node with the lists of both directions; random levels are arguments; keys from any linear order (the sweep itself uses keys whose comparison depends on the sweep position: not modelled) | structure invariant over the list of nodes (`Link.lean`), splicing and cutting on all levels (`Splice.lean`, `Cut.lean`), search (`Scan.lean`), refinement to a dictionary; inductive set of reachable states for the calls with nodes |
| C134–C135 | `Lu/Model.lean`: numeric/matrix/cmatrix.h (LU with partial pivoting, solver, inverse) and `inv` of `__init__.pyx`; memory as a function of addresses, strided views; division by zero is `none`; not modelled: arrays that are not square, the class `Matrix`, allocation failures | invariant of the decomposition after each round (`Dec.lean`), substitution lemmas, dependent columns from a zero pivot |
| C136–C141 | `Integ/Model.lean`: numeric/integrate/romberg.pyx, rk45.pyx (`rk45_vector`), numeric/arc_length.py; roots, norms and the power 1/4 are arguments; not modelled: the example that rk45.pyx runs on import, `max_steps < 1` (writes outside its array: `none`) | Euler-Maclaurin without remainder for polynomials by antiderivative uniqueness (`Even.lean`), elimination of even powers by the table (`Rom.lean`), loop invariants; a bump function vanishing at the first nodes for the refutation |
| C142–C147 | `Fdm/Model.lean`: numeric/fdm.py (`gradient`, `Grad`, `hessian`, `jac`, `newtons_method`, `classify_critical_point_2d`, `bounded_fdm`, `FDM`); the inverse in `newtons_method` is an argument with a spec; not modelled: the `_multi` variants, `Memo` | loops as folds with a lemma for the entry written in each round (`Loops.lean`), polynomial identities |
| C148–C150 | `Bisect/Model.lean`: numeric/bisection.py; `np.isclose` is taken with tolerances 0 in the theorems | invariants over halvings; intermediate value theorem; a valley stays bracketed from level to level |
| C151–C158 | `Newt/Model.lean`, `Newt/Model2.lean`: numeric/newton (`cnewton.pyx`, `__init__.py`, `bounded.py`); `np.linalg.inv` is an argument with a spec, norms are compared squared; not modelled: `full_return`, warnings, `_Matrix`, `line_search_backtrack`, constrained.py (a script) | elimination with an indirect permutation refined to the one of `Lu`; column dominance is kept by elimination; invariants of bracketing |
| C159–C167 | `Gjk/Model.lean`, `Gjk/Model2.lean`: `_gjk.cpp` with `cygjk.pyx`, `spatial_separability`, the plane test of `SpatialSeparabilityTest`, `udTriangle`; not modelled: the linear programme `separating_plane_test`, `ConvexHull`, the Python version of the search in gjk.py, negative `max_iter` | invariant of the simplex while the origin is out of reach; Mathlib's `convexHull`; simulation between integers and a scaled copy |
| C168–C175 | `Prim/Model.lean`: all classes of `geom/primitives.pyx` over the reals (NaN as `none`, cos and sin of a parameter as a pair with square sum 1); not modelled: `astuple` (passes C doubles to `PyTuple_Pack`), the aliasing of the returned `bounds()` array, `solve2x2`, the unused `*3d` helpers | foot of the perpendicular, Cauchy–Schwarz, orthonormal frames |
| C176–C190 | `Dg/Model.lean`, `Dg/Solve.lean`: curvature of curves (`numeric.py` 153-331, 392-509, 650-663, `calgorithms.pyx` 81-137, `algorithms/tnb.py`), `geom/surfaces/fundamental_forms.py`, over the reals with NaN as `none`, derivatives as inputs; `surface_distance` and `predict_point` only on surfaces with a constant first form; not modelled: `line_of_curvature` (ODE solver), the numerical derivatives (`surface_evaluator.pyx`), the other functions of `calgorithms.pyx` | quadratic forms, Lagrange identity, elimination on three rows |
| C191–C194 | `Deb/Model.lean`: `geom/curves/deboor.pyx` (all functions) over an ordered field; division by a zero weight sum is outside the theorems | the recursion as `cox` (area `Nurbs`) started from every span whose closed interval holds the parameter; linearity in the degree-0 values |
| C195–C199 | `Circ/Model.lean`: `geom/circle.py` over the reals, `arctan2` as the argument of a complex number; `Circ/Create.lean`: `NURBSpline.create_circle` (bspline.py:325-349) on top of areas `Deb` and `Vec`; not modelled: the caches and `Curve` base class | polar form, law of cosines, the rational quadratic arcs one span at a time |
| C200–C201 | `Pip/Model.lean`: `intersects_segments` (two versions), `point_in_polygon` of `geom/polygon.py` 626-663 over an ordered field; the optional precomputed arguments are `None` | crossings of a segment with a convex polygon: at most one edge upwards and one downwards, order of the crossings along the line, Plücker identity at an extreme vertex |
| C202–C211 | `Par/Model.lean`: the base classes `ParametricCurve`, `ReparametrizedCurve`, `ParametricSurface`, `Ruled`, `BiLinear` of `geom/parametric.pyx`, `geom/evaluator/surface_evaluator.pyx` (scalar functions) and `geom/curves/_cubic.pyx` over the reals; the class's own `evaluate` is an arbitrary function; not modelled: array versions (loops over the scalar ones), intersection with other objects, `RationalRuled` | mean value theorem once, twice (`mvt2`) and nested; cross product identities |
| C212–C215 | `Mol/Model.lean`: all of `numeric/algorithms/moller.pyx` over an ordered field; the `prange` loop as threads with shared memory, four atomic steps per triangle, any schedule (trusted: Cython privatises assigned names, not elements of C arrays) | Cramer's rule; classification by cross products; invariants over schedules, existence of a finishing schedule |
| C216–C218 | `Boo/Model.lean`, `Boo/Ray.lean`: `geom/curves/curve_bool.py`; `ccx` and `split_curve_multiple` are parameters (the latter is C36), for C218 `ccx` is exact and the other curve a circle or any curve in a plane | grouping specification independent of the loop, means of groups; number of solutions of a quadratic in [0,1] |
| C219–C223 | `March/Model.lean`, `March/Model2.lean`: `curve_point`, `surface_point`, `intersection_curve_point` of `numeric/algorithms/implicit_point.py`, the two marching functions of `numeric/marching.py`, the iterator of `numeric/intersection/implicit_implicit.py`. Points are in any real inner product space; functions and gradients are parameters. Not modelled: `_curve_point2`, `surface_plane` (raises: it unpacks a point), `raster_algorithm_2d`, the building of the samples (C29, C74) | first-order remainder, Heron's iteration, Gram determinant, loop invariants for every solver, explicit runs on lines and circles, counting of angles |
| C224–C225 | `Cp/Model.lean`: `min_distance` with `closest_util` and `strip_closest`, `closest_point_on_curve_single` with `divide_interval`. The distance of the pair search is a parameter, instantiated with the Euclidean one; sorting is stable insertion sort (the result does not depend on the order of equal keys); the distance function of the curve is a parameter; the search is that of C31. Not modelled: `foot_point`, `closest_point_on_nurbs_surface` (always returns `None`), the versions with worker processes | invariant of the recursion for points in both lists, strip argument, loop invariants, coverage of the interval by the pieces |
| C226–C229 | `Ccx/Model.lean`: `curve_ppx` (`eager=True`) with `recursive_intersect`, `curve_aabb_eager`, `aabb_overlap`, the grouping by rounded parameters; `curve_pix` with `test_all_roots`; the choice of the method in `ccx`. Rounding is a key function; `scipy.optimize.bisect` is a parameter with a specification; `-0.0` is not modelled. Groups are kept in the order of their last first members (the result is sorted afterwards; pairs with equal first parameter may be ordered otherwise). Not modelled: `curve_iix`, `curve_aabb` (the boxes of `eager=False`), `ccd` | induction on the recursion depth, enclosure of the curve by the boxes, invariants of groups, brackets of sign changes |
| C230–C235 | `Gm/Model.lean`: `compute_gauss_map`, `compute_gauss_mapw`, `compute_partial_derivative`, `cross_product`, the unit vectors of `GaussMap.from_surf`, one direction of `subdivide` (halving a row of control vectors), `separate_gauss_maps`, `_detect_intersections_deep`, `is_flat` of `numeric/gauss_map.py`. `linprog` is a parameter whose solutions meet the equation or the inequalities; the GaussMap objects of the recursion are an arbitrary type with boxes, hulls, children and `gjk`. Not modelled: `convex_hull` (scipy), the outer loop of `detect_intersections`, `normalize_polynomial`; `is_bezier` (it takes `.shape` of an integer and always raises AttributeError) | polynomial identities, uniqueness of Bezier coefficients, Bernstein positivity, induction on the recursion depth |
| C236–C239 | `Skip/Model.lean`: `SkipNode`, `SkipList` (`_scan`, `_insert`, `_remove`, `_level`, `__getitem__`, `iteritems`, `__len__`) and `SortSeq` (`insert`, `succ`, `pred`, `lookup`, `locate`, `min`, `insertAt`, `delItem`, `reverseItems`) of `numeric/algorithms/sweep_line`. The objects are a heap of nodes with forward and backward links per level and the lengths of the link lists; an index beyond a list is an exception. The random heights are parameters of the operations. Keys are any linear order. Not modelled: the thin `heapq` wrapper `priority_queue.py` | invariant of the links of every level, refinement to a sorted list of pairs and to a map, induction on histories |
| C240–C241 | `Par/Model.lean`: `is_closed`, `normal` of `geom/parametric.pyx` (see C202–C211) | estimates of the norm, mean value theorem |
| C242–C247 | `Knot/Model.lean`, `Knot/Compose.lean`, `Knot/Elevate.lean`, `Knot/Refine.lean`: composition, degree elevation, knot merging and refinement of `geom/curves/knot.py`, `ruled` of `construction/ruled.py`, on top of the curve and surface model of `Nurbs` (C67–C74) | locality of the basis functions across a full multiplicity knot; Bezier pieces from the decomposition of `Nurbs`, elevation by the binomial identities of `Bez`; induction over the inserted knots |
| C248–C252 | `Knot/Model.lean`, `Knot/Whitney.lean`: knot generation, span searches, removal of duplicates, interpolation and `join_two_curves` of `geom/curves/knot.py` | explicit form of the knots; loop invariants; the theorem of Schoenberg and Whitney by knot insertion and sign changes (`Whitney.lean`) for the regularity of the interpolation matrix |
| C253–C260 | `Csx/Model.lean`, `Csx/NurbsEnv.lean`: `NURBSCurveSurfaceIntersector`, `csx`, `newton_raphson` and the loops around it (`numeric/intersection/csx`), `extract_isocurve`, `find_boundary_intersections`, `sort_boundary_intersections` (`ssx/boundary_intersection.py`), `spherical_separability` on the angles of the points. The recursion is over an abstract environment (evaluation, splitting, separation tests, Newton's method); `NurbsEnv.lean` instantiates it with the curves and surfaces of `Nurbs`. Not modelled: `gs2`, `_grid_search`, `curve_surface_ppi`, the `arctan2` and the projection before the wedges, the solvers | invariant of the list of hits over the recursion tree; packing argument for termination; basis functions for iso-curves; sorted lists for the wedges |
| C261–C263 | `Pinv/Model.lean`: `point_inversion_curve`, `point_inversion_surface`, `points_inversion_surface`, with the evaluation and derivatives of the curve or surface and the norms as parameters. `solve2x2` is the model of `Vec` (C42). Not modelled: the defaults of the tolerances, the clipping to the domain which the code has commented out | one step on a plane is exact (normal equations); induction over the iterations and over the list of active points |
| C264–C270 | `Ssx/Model.lean`: `improve_uv` (both versions), `improve_uv_robust`, `SSXMethod`, `FreeFormMethod.solve` (without `return_edges`), `MarchingMethod`, `surface_ppi` after the start points, `Terminator`, the filter of `surface_surface_boundary_intersection` for NURBS. Surfaces are functions with two derivatives; the loops are over abstract steps. Not modelled: `find_closest_points`, `find_start_points_nurbs`, the interpolation in `ssx`, surfaces that are not NURBS in `_terminator.py` | minors and Cramer's rule; invariant of the loop (trace of steps); accounting of start points by induction over the rounds |
| C271–C278 | `Srf/Model.lean`: `BiLinear`, `evaluate_bilinear`, `blossom`, `PyRuled`, `Coons` (with the compiled `Ruled` and `BiLinear`), `isocurve`, `isocurve_u/v`, `isoline_u/v`, the quads of `surface_bvh`, `plane_at` and `compute_intersection_curvature` from given derivatives, `TwoPointForm`, `LinearMap`. Points come from a module over a field. Not modelled: `inversion`, `implicit`, `geodesic_length`, caches, `CurveOnSurface.plane_at` | linear algebra in a module; uniqueness of bi-affine maps; derivatives in a normed space for the ruled surfaces; Meusnier's theorem as the specification of curvature |
| C279–C288 | `Crv/Model.lean`: `Curve.derivative`, `second_derivative`, `split`, `extend`, `apply_operator` and the nodes, `normalize_param`, `remap_param`, `_evaluate_length`, `evaluate_parameter_at_length`, `length_evaluator`, `arc_length_reparameterization`, `TrimmedCurve`, `curve_bvh` (segments), `ReparametrizedCurve`. The integral of the speed is an additive function of its bounds; `interp1d` and `np.interp` are modelled from their documentation; an endless recursion is a function that has no value for any depth. Not modelled: `curvature_points`, `step`, the cache of lengths | identities of difference quotients in a module; telescoping sums; a search for the cell of the interpolation and monotonicity; invariants over histories of calls; uniqueness of derivatives |
| C289–C296 | `Swl/Model.lean`: `Point.compare`, `Segment.orientation`, `compare`, `intersectionOfLines` and of `SweepIntersector` the test and insertion of `computeIntersection`, `inorderExtend`, `collectAndSortResult`, the bound and sentinels of `initializeStructures`, `polygon_segments` (`numeric/algorithms/sweep_line`). Object identity is a number; the slope of a vertical segment is `none`. Not modelled: the main loop, the queue (`heapq`); the skip list is `Skip` | sign analysis of determinants; affine heights; folds that keep a list sorted; explicit families for the refutations, one for every tolerance |
| C297–C302 | `Rtn/Model.lean`: `nd_min`, `nd_max`, `find_similar`, `cartesian_product`, `split_dim`, `remove_dim`, `add_dim`, `split_by_parts`, `column_concat` (`numeric/routines/__init__.py`), `uvs` (`_routines.pyx`), `box_from_intervals` (`aabb.py`). Arrays are shapes with a list of elements; a function that writes to its argument returns the argument too; `np.empty` is a parameter | mixed-radix numbers; invariants of the filling loops; products of shapes |
| C303–C311 | `Apc/Model.lean`: `circle2d_from_3pt`, `Circle2D`, `Circle3D` (constructor, center, normal, copy, `create_by_center`), `OffsetCurve`, the abstract base classes of the lines, `line_line_tsz` (`api/curves.py`), `CurveEvaluator3D` (`api/base.py`), `orthonormalize`, `dot`, `projection_length`, `gram_schmidt`, `angle` (`geom/vec/__init__.py`). Objects refer to addresses, addresses hold rows; cosine and sine are parameters. Not modelled: stubs of arcs and ellipses, the NURBS classes of the API, `Circle3D.create_by_three_points` | heap invariants over histories; polynomial identities; Gram–Schmidt |
| C312–C316 | `Tes/Model.lean`: `segments_by_loop`, `prepare_args` (`topo/mesh/triangle/tri.py`), `tessellate_surface`, `_process_trim`, `tessellate_curve_on_surface` (`topo/mesh/tess.py`). Not modelled: the Triangle library and its wrapper `core.pyx`, `match_edge_cases`, `calculate_uv_ratio`, `as_bvh` | induction over the loops; index arithmetic |
| C317–C326 | `Opt/Model.lean`: `point_in_parametric_curve`, `point_in_implicit_curve`, `curve_x_ray`, `sqp_method`, `newtons_method22`, `opt1`, `OffsetCurve.offset` (`geom/curves/offset.py`), `improve_uv` with `det`, `sectional_tangent`, `control_points_grid_shape`, `Prime`, `surface_rect_area`. Linear solvers, quadratures and the intersection routine are parameters | block matrices; parity of sign changes; polynomial identities |
| C327–C333 | `Ppx/Model.lean`: the planes, lines and steps of `numeric/intersection/pp.py`. `solve` and `lstsq` are parameters with their law; the surfaces enter the steps through what is computed from them. Not modelled: `marching_method`, plotting | linear algebra; induction over the recursion |
| C334–C339 | `Spl/Join.lean`, `Spl/Props.lean`, `Spl/Props2.lean`: shape properties of curves over the models `Nurbs/Model.lean` and `NDer/Model.lean` (no new definitions of the program); C337 and C338 over the reals | induction over the degree of the Cox–de Boor recursion; neighbouring polynomial pieces glued at the knots |
| C340–C350 | `Dc/Model.lean`: dual contouring (geom/implicit/dc/__init__.py): shapes, the entrywise maximum, zero, edges and contours, merge, deriv, feature, dc, foldTree, trav; the trees are those of `ImplTree/Model.lean`. Square root and `np.linalg.lstsq` are parameters with their laws (`IsSqrt`, `LeastSq`, the latter shown to hold for an explicit solver). Not modelled: the demos hi and test1–test4 and the print in index | sign tables by cases; closed contours by a balance per side, added up by induction over the tree; exact description of the joined pairs by induction over both trees |
| C351–C354 | `Geo/Model.lean`: geom/surfaces/geodesic.py: the metric, its derivatives, the Christoffel symbols and the equations, over the jet (partial derivatives to order two) of a surface. The module cannot be imported as it stands (the annotation `NURBSSurface` in line 12 is undefined). Not modelled: `geodesic_path` (`solve_ivp` and `minimize` of scipy), pull_curve.py (its call of `improve_uv` lacks an argument and raises for all inputs) | linear algebra of the Gram matrix; product rule; a function with zero derivative is constant |
| C355–C360 | `Bsu/Model.lean`: geom/curves/bspline_utils.py, its copy curve_utils.py, and bspline_first.py (find_span, basis_funs, curve_point, evaluate, generate_knots). numpy arrays carry a flag integer/float, since adding floats in place to integers raises. Not modelled: `derivatives` of bspline_first (passes seven arguments to a function with six and raises for all inputs); its ders_basis_funs, curve_derivs_alg1/2 are those of `NDer/Model.lean` | reduction of the Python loops to those of `NDer`; strong induction with the Leibniz rule of Mathlib for the quotient; unwinding of the raising additions |
| C361–C369 | `Tri/Model.lean`: topo/mesh/triangle: `loads` of data.py (comments, tokens, lines, all six kinds of files), the renaming of tri.py and the hand-over of shapes of core.pyx (`ii`/`_set`/`fin`). The reading of floats is a parameter; blanks are those of ASCII; negative counts in headers are exceptions. Not modelled: load/get_data/show_data (file access), plot.py, the C library, `fout` | induction over texts; tables as flattened rows; the fields by case analysis of the fixed list |
| C370–C373 | `Col/Model.lean`: geom/materials/__init__.py: ColorRGB (construction, hex, decimal, from_hex, arrays, hash, equality) and ColorRGBA. Floats are rationals. Not modelled: random, ToJSON; `ColorRGBA.todict` (always raises), `index` (its default arguments always raise) | digits of a byte by exhaustion of the 256 bytes; the rest by algebra |
| C374–C379 | `Spl/Props3.lean`, `Spl/Props4.lean`: shape properties of surfaces over the models `Nurbs/SurfModel.lean` and `NSDer/Model.lean` (no new definitions of the program); C378 and C379 over the reals | tensor products of the facts on basis functions behind C334–C339 |
| C380–C385 | `Rfn/Model.lean`: `knot_refinement`, `knot_removal`, `point_distance` of nurbs.pyx, `uniqueSorted`, `knot_refinement1`, `knot_refinement2` (knots only), `knot_insertion` and the insertion part of `nurbs_split` of curves/knot.py; not modelled: the cutting of the split, the in-place sorting of the caller's knot list | loop invariant of algorithm A5.4: after each turn the arrays, completed by the old ones, are a single Boehm insertion further (`Lemmas.lean`); refutations for whole classes of curves |
| C386 | `Spl/Props5.lean`: extrapolation over `Nurbs/Model.lean` (no new definitions of the program) | the span returned outside of the domain, and the polynomial of that span |
| C387–C394 | `Crd/Model.lean`: coordinate changes of `numeric/vectors.pyx`, functions on stacks of `cplane.pyx`, `arbitrary`, `orient_matrix`, `local_to_world`, `world_to_local`, `plane_ray_intersection` of `plane/__init__.py`, `rotate_matrix` of `geom/vec` | real sin, cos, sqrt and argument for the C functions; one row at a time for arrays; a matrix with last column (0,0,0,1) as a 3×3 block and a row; reading out of bounds is `none`; the argument `result` of `plane_plane_intersection` and the final reshape are left out |
| C395–C396 | `Gjk/Model3.lean`: `gjk_collision_detection`, `handle_simplex`, `support_vector` of `numeric/algorithms/gjk.py` | ordered ring for floats; vectors of three components; the default tolerance of the nested calls is a separate parameter; the sizes of float `-sys.float_info.max` are left out; `visited` and `visited_pts` are one partial map |
| C397–C403 | `Clp/Model.lean`: `Vertex.isInside`, `Polygon.add/insert/next/first_intersect/points/unprocessed/union/intersection/difference/clip/handle_intersection` and `clip_polygon` of `geom/polygon.py` | ordered field for floats; vertices are cells of a heap with next, previous and neighbour references and flags; fuel for the loops (enough fuel exists, C397); a vertex is a pair of coordinates and a height. Not modelled: `refine`, `dots`, `angles`, `PolygonCollection`, conversion to numpy arrays |
| C404–C405 | `Pq/Model.lean`: `PriorityQueue` of `sweep_line/priority_queue.py` with `heappush` and `heappop` of Python's `heapq` (after `Lib/heapq.py`) | the comparison of nodes is a parameter; C404 takes keys of a linear order, C405 the points of `Swl/Model.lean` with their tolerance |
| C406–C407 | `Fdm/Model2.lean`: `gradient_multi`, `hessian_multi`, `multi_newtons_method` of `numeric/fdm.py` | exact field for floats; `np.linalg.inv` and the norm are parameters; `full_return` is left out |
| C408–C409 | `Poly/Model2.lean`: `Polygon.refine`, `PolygonCollection._union` of `geom/polygon.py` | the ring of vertices is a list from the head on; the test of `refine` without tolerance where the area is concerned; `Polygon.union` is a parameter |
| C410–C414 | `Nst/Model.lean`: derived data, `__eq__`, `__hash__` of `NURBSCurve` and `NURBSSurface`, and the buffer of control points of a surface (`geom/nurbs.pyx`) | knot arrays live on a heap; control points have any type; `is_periodic`, the span and the new control points of an insertion are parameters; `hash` of tuples is a parameter; `realloc` always gives a new block (the old pointer must not be used by the C standard); attribute names are listed from the class declarations |
| C415–C417 | `Cbb/Model.lean`: `curve_aabb`, `curve_aabb2`, `curve_aabb_eager` (`numeric/aabb.py`), `curve_bound_points`, `curve_bound_points2` (`numeric/numeric.py`) | a curve is any function from parameters to points with three coordinates; evaluation of an array is evaluation of its entries; `np.unique` is insertion into a sorted list |
| C418–C419 | `Mnm/Model.lean`: `divide_and_conquer_min_3d`, `find_all_minima` (`numeric/divide_and_conquer.py`), `classify_critical_point_2d` (`numeric/fdm.py`) | functions are arbitrary; Newton's method is a parameter, its argument is a list or an array, and the Cython routine fails on a list; the distance is a parameter; the loop over the grid collects all runs before removing near points (same order, same result) |
| C420 | `Epl/Model.lean`: `evaluate_parameter_from_length` (`numeric/numeric.py`), `fdm` (`numeric/fdm.py`), the branch of `scipy.optimize.newton` with two derivatives | the length is a parameter (computed without error); exact arithmetic; the square root of the tolerance is a parameter |
| C421–C422 | `Sic/Model.lean`: `compute_intersection_curvature`, the polygon and edges of `CurveOnSurface.build_uv_bvh` for curves of degree one (`geom/surfaces/__init__.py`) | the norm is a parameter with the Euclidean norm as specification; the tolerance of `np.isclose` is a parameter; the other branches of `build_uv_bvh` and the tree over the edges are not modelled here |
| C423 | `Swl/Model2.lean`: `findIntersections`, `computeIntersection`, `initializeStructures` (`sweep_intersector.py`), with `locate`, `insert`, `insertAt`, `succ`, `pred`, `delItem`, `reverseItems` of `sortseq.py` | the skip lists have one level (the run in which all random heights are one); `segQueue` is the heap of `Pq/Model.lean`; the loops have a bound on the rounds; coordinates in an ordered field; `lastNode` and `assoc` are kept only where a lookup raises |
| C424–C425 | `Sph/Model.lean`: `center_projection_to_xy`, `hull_sides`, `projection_param_t`, `ch2d_sep` and the decision of `sph_sep` for one pair of pieces (`numeric/intersection/separability/spherical.py`) | norms and the angle used for sorting are parameters with the Euclidean norm as specification; division of zero by zero gives "no number" (comparisons with it are false); the subdivision around the decision is not modelled |
| C426–C429 | `Sml/Model.lean`: `line_line_intersection` (`api/curves.py`), `points_order` (`geom/features.py`), `classify_critical_point_2d` (`numeric/fdm.py`), `generate_array` (`geom/implicit/tree/utils.py`) | exact arithmetic; the tolerance of `np.allclose`, the result of `np.geomspace` and the rounding are parameters; lines in space only |
| C430–C434 | `Nsp/Model.lean`: `NURBSpline` (`geom/curves/_nurbs.pyx`): `_update_interval`, `make_open`, `__deepcopy__`, the setter of `control_points`; `cplane` and `cnormal` of both classes | the other functions of `_nurbs.pyx` (`find_span`, `basis_funcs`, the derivatives, `make_periodic`, `evaluate`, ...) have the same text as those of `geom/nurbs.pyx`, compared mechanically, so C33–C37, C60, C67, C68 and C123–C126 speak about them too; the norm is a parameter with its specification; memory behind an array is a function of the cell |
| C435–C437 | `Edg/Model.lean`: `closest_point_on_nurbs_curve`, `closest_point_on_nurbs_surface`, `closest_point_on_surface` (`numeric/closest_point.py`), `get_edge_ends_parameters`, `check` (`topo/brep/__init__.py`) | the tree of boxes is that of `Bvh`; the pieces of the curve, the local solvers and the norm are parameters; `_find_cls` is not called anywhere and not modelled |
| C438–C439 | `Fea/Model.lean`: `_find_feature`, `implicit_find_features` (`geom/implicit/tree/tree2d.py`), `gs2` (`numeric/intersection/csx/__init__.py`) | the norm, `minimize` (point of the cell with its value) and the nearest samples are parameters; the loop of `find_intersections_grid` is that of `find_intersections_bvh` (`Csx`); unset ranges of `gs2` are not modelled |
| C440–C442 | `Frm/Model.lean`: `plane_on_curve`, `normal_at`, `swap_z_to_first_der` (`numeric/numeric.py`), `Curve.normal`, `plane_at`, `planes_at`, `step` (`geom/curves/curve.py`), `ImplicitlyCurve` (`geom/curves/implicitly.py`) | arrays are a vector or rows; the norm and the root are parameters; the inversion is a parameter, in the counterexample the model of `Pinv`; `evaluate_normal2` has the text of `evaluate_normal` (`Dg/Solve.lean`) |
| C443–C445 | `Ssr/Model.lean`: `ccd`, `proximity_points_curve_curve` (`numeric/intersection/ccx/ccd.py`), `ssx`, `find_closest_points`, `handle_inside` (`numeric/intersection/ssx/surface_surface.py`) | exact field; `find_all_minima` is that of `Mnm/Model.lean`; `surface_ppi`, the interpolation (its ends are the first and last point), the pairs of leaves and the solver are parameters; the k-d tree other than its failure on no points is not modelled |
| C446–C447 | `Ras/Model.lean`: `raster_algorithm_2d` (`numeric/marching.py`), `pull_curve` (`numeric/algorithms/pull_curve.py`) | exact field; functions are called with lists of arguments and may raise; the length of a vector, `curve_point` and `solve_ivp` are parameters |
| C448–C449 | `Bvh/Model2.lean`: `get_aabb_corners_numpy`, `BoundingBox.get_corners`, `get_edges`, `get_faces`, `size_metric`, `evaluate`, `intersect_disjoint`, `split4`, `split8` (`geom/bvh/__init__.py`) | exact field, three dimensions; the tolerance of `np.isclose` is a parameter |
| C450 | `Fdm/Model3.lean`: the class `PDE` (`numeric/fdm.py`) | exact field; a function of a matrix is applied to its rows; values are numbers |
| C451, C452, C453 | `Sinv/Model.lean`: `Surface.inversion`, `implicit`, `gradient`, `surface_bvh`, `CurveOnSurface.plane_at`, `normal` (`geom/surfaces/__init__.py`) | exact field; norm a parameter; tree, Newton's method and the search by halving are those of `Bvh`, `Newt`, `DnC`; derivatives are given |
| C454, C455, C456 | `Dqr/Model.lean`: `find_intersections`, `bbox`, `bounding_boxes_intersect`, `bounding_boxes_intersection` (`ssx/dqr.py`) | exact field; the recursion has a depth; storing a pair of points in a boolean array is taken to store `True`. Not modelled: `dqr4.py` (its import of `mmcore.collision` fails, the package does not exist) and `cydqr.pyx` (not compiled) |
| C457, C458, C459, C460 | `Acl/Model.lean`: `BaseType`, `Base.from_data`, `ObjectCollection` (`api/_base.py`), `_Matrix` (`newton/bounded.py`) | classes are names with identities, `__collection_classes__` is the state; `create` methods without keyword-only parameters; matrix entries in an exact field |
| C461 | `Gm/Model2.lean`: `detect_intersections` (`gauss_map.py:504-640`) | the pairs of boxes that meet are a parameter with the specification of the tree (C26); `gjk`, boxes and subdivision as in C230–C235 |
| C462, C463, C464, C465, C466 | `Msc/Model.lean`: `Terminator.remove`, `support_vector`, 2-D `Circle`, `match_edge_cases`, `polyline_to_lines`, `point_in_polygon` (`geom/features.py`) | coordinates in an exact field; `np.allclose`, `sqrt`, `cos` and `sin` are parameters with a specification (real functions in `C464_interval_refuted`) |
| C467, C468, C469, C470 | `Icp/Model.lean`: `cintersection_curve_point` (`calgorithms.pxd`), `_curve_point2`, `surface_plane` (`implicit_point.py`), `line_search_backtrack` (`newton/bounded.py`), `mgrid3d`, `ImplicitIntersectionCurve.plane` | exact field; the norm is a parameter with a specification; `n` of the line search is the number of coordinates; the closest point of the frame is an argument (C220) |
| C471, C472 | `Cnr/Model.lean`: `difference`, `jacobian`, `_jac_cls` with `newton_raphson` and `find_intersections_bvh` of `Csx` (`csx/__init__.py`); `ray_plane_intersection`, `ray_plane_parametric_intersection` (`cplane.pyx`) | exact field; `np.linalg.solve` is Cramer's rule and raises for a singular matrix; `h`, the tolerance and `allclose` are parameters; the guesses are an argument |
| C473 | `Ofs/Model.lean`: `geodesic_length`, `OffsetOnSurface.evaluate` (`curves/offset.py`) | exact field; the length of the line is a function that grows strictly; linear `interp1d`; the plane of the curve is an argument; offsets above zero |
| C474 | `Implicit/Model2.lean`: `point_inside`, `Implicit3D.gradient`, `tangent`, `__call__` (`implicit.py`) | exact field; the norm is a parameter with a specification; NaN is `none` |
| C475 | `Bvh/Model3.lean`: `Segment`, `Ray`, `is_valid`, `contains_points` (`bvh/__init__.py`) | exact field without overflow; `np.isfinite` and `scalar_unit` are parameters; `MAX_FLOAT64` is a number above zero |
| C476 | `Sinv/Model2.lean`: `closest_points_on_surface`, `closest_point_on_surface_batched` (`closest_point.py`) | exact field; tree of `Bvh`, searches of `DnC` with a bound on the rounds; that the call replaces the tree of the surface is not modelled |
| C477 | `Kdc/Model.lean`: `curve_deriv_cpts`, `find_spans` (`knot.py`) | exact field, one column; a division by zero is `none`; entries never written are left out of the rows; indices are in range |
| C478 | `Opt/Model2.lean`: `sectional_tangent_local`, `sectional_tangent_der`, `sectional_tangent_der_local`, `sectional_curvature_vector` (`sectioal_tangent.py`) | exact field; the norm and the tangent at a point (nearest points, guesses `uv1`/`uv2`) are parameters; a division by a norm of zero is `none` |
| C479 | `Clm/Model.lean`: `clamp`, `expand`, `perp2d` (`vec/__init__.py`), `point_grid_2d` (`routines/__init__.py`) | exact ordered field; arrays of one axis are lists; `np.linspace` by its formula with the stop as the last value |
| C480 | `ApiMat/Model2.lean`: `BaseVector.__eq__`, `is_equal` (`_base_vectors.py`) | exact ordered field; `np.allclose` by its formula with both tolerances as parameters; vectors of the same dimension |
| C481 | `Fea/Model2.lean`: `_grid_search`, `count_from_length_brute_force` (`csx/__init__.py`) | exact ordered field; the distance and the length of a curve are parameters; the samples of `query_ball_point` in the order of the grid |
| C482 | `Ppx/Model2.lean`: `marching_method`, `stop_check`, `check_wrap_back` (`pp.py`) | the correction of `marching_step` is a parameter; the march starts from the state after `freeform_step`; a depth of recursion that is exceeded is an exception |
| C483–C485 | `Imf/Model.lean`: `cassini`, `genus2`, `ellipsoid` | exact numbers; real sine and cosine |
| C486 | `Sbv/Model.lean`: `spline_curve_bvh`, `PSegment` | exact ordered field; the curve is a function; the tree itself is that of `Bvh` |

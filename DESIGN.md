# Formal model of VecGeom: design

The subject is the C++ source in `/repo` (amadio/vecgeom at the pinned commit).
The model is written in Lean 4 (with Mathlib) under `lean/Verif/`.  This file says what is modelled,
how each property of `properties.jsonl` is proved, and what has to be trusted.

## Trusted base

* The Lean 4 kernel (4.33.0) and Mathlib as installed.
* Axioms: every property theorem depends at most on `propext`, `Classical.choice` and `Quot.sound`
  (checked with `#print axioms`).  There are no axioms of our own, no `sorry`, no `native_decide`, no `bv_decide`.
* The translation from C++ to Lean, done by hand, function by function.  Each definition cites the file and lines
  it models and says where it simplifies.
* Numbers.  `Precision` (double/float) is modelled by the real numbers.  Rounding, NaN, overflow to
  infinity and signed zeros are outside the model.  `kInfLength` is a real constant larger than any value that occurs, stated
  as a hypothesis where it matters.  Functions that only compare, take minima and maxima or copy values (bounding volume
  traversal, candidate search, sorting) are not affected by this choice.
* Fixed width integers are modelled by `Nat`/`Int`, with explicit range hypotheses or explicit
  overflow outcomes where the code can leave the range, or by `BitVec` where bits matter.
* Undefined behaviour (out of bounds access, null dereference, use after free, non termination) is a separate outcome
  (`none`/`Except.error`), never silently totalised.

Not modelled: CUDA/device code, SIMD back ends (lanes are modelled as lists where the packing matters), GDML parsing and
XML I/O, printing, benchmarking, visualisation, memory allocator internals, virtual dispatch.

## Layout

* `Verif/<Area>/Model.lean`    — definitions that mirror the C++ code, each with its citation;
* `Verif/<Area>/Spec.lean`     — small independent specifications (may be part of Props when tiny);
* `Verif/<Area>/Lemmas.lean`   — helper lemmas;
* `Verif/<Area>/Props.lean`    — the property theorems and non-vacuity examples only.

## Plan per property

| id | model | proof |
|----|-------|-------|
| C01 | `NavIndex`: geometry as an inductive tree of placements, the visitor with its two passes, table as a finite map with allocation bound | induction over the tree: size of a record as function of start parity; both passes use the same layout |
| C02 | `NavStateIndex` accessors as reads of the table | "table represents tree" invariant proved for the fill pass, then each accessor by the invariant; histories by induction on the operation list |
| C03 | same | indices of distinct nodes are disjoint intervals |
| C04 | same, transformation records as part of the table | induction on path length: walking up to the nearest cached ancestor and multiplying gives the full product |
| C05 | list functions of NavStateIndex.cpp | induction on the path |
| C06 | `NavStatePath` record: array of slots plus current level | refinement to a list stack, invariant over operation sequences |
| C07 | list functions of NavStatePath.cpp | induction on the path; needs "child id = position", which PlaceDaughter establishes |
| C08 | both Distance functions | equality with a common-prefix specification; metric laws of the specification |
| C09 | TopMatrix and GlobalToLocal as loops over the path | shows the exact condition (identity world placement); counterexample otherwise |
| C10-C15 | `BitSet` as list of bytes (`BitVec 8`) with logical size | per-byte lemmas settled over all 256 bytes by the kernel and lifted; position arithmetic by induction |
| C16 | `Vector` as buffer with initialised cells, size, capacity | refinement to `List`, invariant over operation sequences |
| C17-C18 | grid arithmetic of FlatVoxelHashMap | `Nat` division/modulus, floor on reals |
| C19 | map + property vector as history state machine | invariant by induction over the insertion history |
| C20 | visitors as the recursive functions of GeoManager | structural induction, against an inductive definition of "path" |
| C21-C22 | registries as finite maps, compaction as slot assignment | invariants over histories; counterexample for a deregistered id |
| C23-C27 | 3x3 matrices and vectors over the reals, flags included | ring identities, case analysis over codes |
| C28-C29 | corner loops | affine functions on a box are bounded by their corner values |
| C30-C31 | AABB methods, with the `NonZero` perturbation kept | linear arithmetic per axis |
| C32 | ComputeNodes with an abstract splitter (any permutation and cut), then the concrete splitters | induction on depth; interval partition |
| C33-C36 | traversal loops with explicit stack, UB when the stack is exceeded | loop invariant: result = best over visited leaves, pending nodes on the stack; pruning lemma |
| C37-C38 | greedy clustering as a loop with arbitrary selection, lane packing as lists | induction over the loop |
| C39 | insertion sort and the looper | sortedness + early exit lemma |
| C40-C42 | locator loops on the geometry tree, PrepareOutState | structural induction, decision logic |
| C43-C44, C50 | shape kernels over the reals | real arithmetic; for the tetrahedron barycentric coordinates |
| C45-C47 | boolean kernels over abstract constituents | case analysis; metric lemmas on sets |
| C48 | boolean trees, Flatten with mutation | structural induction |
| C49 | Scale3D and the scaled kernels | real arithmetic |
| C51 | RelativePath of both state classes as token lists | interpretation of the tokens gives the other path |
| C52-C53 | BitSet exchange with integer arrays, copies with their allocation | per-byte lemmas lifted; refinement to sets of positions |
| C54-C56 | voxel filling tasks, lookup, voxel level locator | interleavings of tasks as a relation; invariant over the merged insertions |
| C57 | index/pointer conversion of the registry | invariant over histories; counterexamples after closing |
| C58 | setters of box and orb with the cached bounding box | histories of operations; counterexamples |
| C59 | capacity of box, orb and tetrahedron | Lebesgue measure of the set of contained points |
| C60-C61 | hybrid and flat safety estimators, flat level locator | candidate filter + early exit lemma; first hit of a scan |
| C62 | default safety estimator | fold of minima |
| C63 | boolean distance kernels over constituents given as regions; loops with a bound on rounds that does not enter the claim | loop invariants over the covered part of the ray |
| C64 | normal kernel, extent, sampling and mesh of the tetrahedron | real arithmetic; edge lists of the two possible meshes |
| C65 | `NormalKernel` of the three operations over arbitrary constituents; trees of any depth | case analysis of the decision logic; induction over trees; counterexample for a union with an empty constituent |
| C66 | the kernels over ℝ, the constructors and setters | invariant of the setters; oblique coordinates reduce membership and rays to the box, safeties to slabs between parallel planes |
| C67 | caches, `NormalKernel`, `Extent`, `SamplePointOnSurface`, the vertices of `CreateMesh3D` | invariants over histories of setters; linear independence of the normals; counterexamples for stale areas, stale boxes, normals at edges and the mesh |
| C68 | the kernels over ℝ for both specialisations, the struct with its caches, the setters | planes of the faces; the code's cross products are multiples of the heights above the planes; counterexamples for the tolerance along y and for a y setter on the specialisation without y |
| C69 | `DistanceToIn`, `DistanceToOut` and their face intersections | case analysis of the faces hit; convexity; counterexamples for small negative distances and for rays through edges |
| C70 | caches, `NormalKernel`, `SurfaceArea`, `SamplePointOnSurface`, `Extent`, `CreateMesh3D`, the factory | invariant of the setters; heights above planes; counterexamples for the area and the stale bounding box |
| C71 | memory as a map from block numbers to blocks with unwritten cells, allocation never reuses a number, every invalid access is the outcome `none`; programs are lists of operations on named objects | a specification in which containers are lists or views; an invariant (every block beyond the arrays has exactly one owner) kept by each operation; induction over the program; counterexamples for self-assignment and for assignment from an empty container with memory |
| C72 | as C71, with the array of structures | as C71; counterexample for self-assignment |
| C73 | the file as two numbers and a list of values, reads that fail when the file ends | list lemmas; counterexample for a reader of smaller capacity |
| C74 | the table with bytes, slots that know whether they hold an object, both error kinds as outcomes; all operations as the header has them, for an arbitrary hash `K → BitVec 64` | the robin-hood invariant (bytes are distances from the home slot plus hash bits, sorted along each run), kept by each operation; refinement to partial functions; induction over the program |
| C75 | as C74 | distances along a run are less than the number of entries, so that 126 entries never exhaust the halvings of the distance unit before the table grows; induction over the program |
| C76 | both wedge classes, scalar, over the reals | polar coordinates from `Complex.arg`, rotation to the start angle, sign of the sine on the half circles; unit normals for the safeties |
| C77 | `TubeImplementation` scalar, every type, over the reals | sector tests by C76, squares of radii, tolerance bands |
| C78 | both safeties, `PhiPlaneSafety` for every type | radius is 1-Lipschitz, plane functions are 1-Lipschitz, C76 for the sector |
| C79 | `DistanceToOut` of every type with its guarded divisions | roots of the guarded quadratic, convexity of cylinder and sector, first plane crossing |
| C80 | `DistanceToIn` with the initial move | case split over the accepted candidates; for completeness the intermediate value theorem on the radius between guarded and true planes |
| C81 | `Extent`, `SamplePointOnSurface` with `ChooseSurface` as a loop, `DetectConvexity` | maximum of the cosine over an interval; case split over the chosen surface; witnesses for non-convexity |
| C82 | `Capacity` | slices, polar coordinates and Fubini (Base/Annulus, Base/Slices) |
| C83 | all setters with the caches they update | equality with the constructor; the angle setters by a counterexample |
| C84 | `NormalKernel` with all its branches | one counted face, unit length of each |
| C85 | `CheckParameters`, `Contains`, `Inside` with the cached scales | scaling to a circle is 1-Lipschitz; monotone approximation of the distance |
| C86 | `SafetyToIn`, `SafetyToOut` | same scaling |
| C87 | `DistanceToOut` | roots of the quadratic; near-parallel directions by counterexamples |
| C88 | `DistanceToIn` with the move of far points, the test for leaving rays, the cut on the discriminant | roots of the quadratic, slabs |
| C89 | `CheckParameters`, setters, `Extent`, `Capacity`, sampling as functions of the draws | slices and a linear map of the disc; counterexample for the half length |
| C90 | `NormalKernel` | supporting lines of an ellipse by Cauchy-Schwarz |
| C91 | `comp_ellint_2` as a loop with fuel, `EllipsePerimeter` | the difference halves each round; Landen transformation of the arc length for the accuracy |
| C92 | `Init`, `Contains` scalar and in chunks | parity of crossings with a correction at vertices: locally constant off the boundary, flips at an edge |
| C93 | `Init`, `Area` with the 64-bit wrapping index | sums over cyclic shifts, folds |
| C94 | `SafetySqr` with padding | projection on a segment; invariant of the loop over chunks |
| C95 | `CalcConvexity`, `ContainsConvex`, `InsideConvex`, `SafetyConvex` (scalar specialisations) | sides of lines; counterexamples for stars and for chopped coefficients |
| C96 | `Contains`, `Inside` | parity of the polygon, lines of convex polygons |
| C97 | `SafetyToIn`, `SafetyToOut` | a segment from inside to outside crosses the surface |
| C98 | `DistanceToOut` with the loops of the shell | invariants of the loops; convexity; moved points of an edge pass `OnSegment` |
| C99 | `DistanceToIn` with the loops of the shell | as C98; counterexamples for nearly parallel directions |
| C100 | `Extent`, `Capacity`, `SurfaceArea` | folds; root of a sum of squares |
| C101 | `NormalKernel` | gradient of the depth below the line of an edge |
| C102 | `Contains`, `Inside` | scaling to a ball; comparison of the quadratic approximation with the radius |
| C103 | `SafetyToIn`, `SafetyToOut` | the scaling does not lengthen; extent |
| C104 | `DistanceToOut` | roots of the quadratic, exit from the slab |
| C105 | `DistanceToIn` with the move of far points | as C104; lower bound of the discriminant; counterexample of a large ball |
| C106 | `CheckParameters`, `Extent`, `SamplePointOnSurface`, `CreateMesh3D`, setters | integral over the slices; induction over the rounds of the rejection loop |
| C107 | `NormalKernel` | supporting planes; counterexample of a cap |
| C108 | `AddNode`, `Close` with the packed neighbour lists | invariant over the two loops |
| C109 | `Contains`, `Inside`, `InsideComponent` with the hybrid structure | completeness of the candidates (C38) and induction over the candidates |
| C110 | `SafetyToIn`, `GetSafetyCandidates2_v` with decreasing limit, sorted loop | invariant: what is left out is behind the far corner of a candidate; counterexample of a component with safety zero |
| C111 | `SafetyToOut`, `NormalKernel` | fold over the neighbours |
| C112 | `DistanceToIn` | completeness of the hits (C39, C61), sorted order |
| C113 | `DistanceToOut`, `InsideCluster` | invariant of the walk; every round advances by ten tolerances in a bounded set; counterexample of a common face |
| C114 | `AddNode`, `Extent`, `ApproachSolid` | fold over the components; counterexample for every union |
| C115 | the constructor, `operator[]`, the sizes | arithmetic; induction over the loop |
| C116 | `ToFile`, `FromFile` on lists of bytes | case analysis; counterexamples of another depth and of a short file |
| C117 | `Array` with a memory of blocks | invariant of ownership over all steps; counterexample of self-assignment |
| C118 | construction of the candidate lists and the estimator; the sampled points are an argument | sorted keys and candidate lists by induction, loop bounds; counterexample geometry with all 601 surface points |
| C119 | planes, cut planes, the tube inside, constructor, `Contains`, `Inside` | set equality over the tube theorems; counterexamples for flat and crossing planes |
| C120 | both safeties | distance to planes is 1-Lipschitz, over the tube theorems |
| C121 | `DistanceToOut` | minimum of planes and tube; exit equation of the smallest |
| C122 | `DistanceToIn` with the far move and the three steps | soundness and completeness apart from the thin layer below the planes; counterexamples for the far move and the layer |
| C123 | `Capacity`, areas | Lebesgue measure in cylindrical coordinates (`Base/Ring`) |
| C124 | `Extent` | extremum of linear functions over a ring sector |
| C125 | sampling, flag, normal, setters, mesh | case analysis over the chosen surface; convexity from the tube; counterexamples |
| C126 | the factory as a state of volumes, daughters and the two maps; recursion with a bound that is shown never to be met; content of a volume by recursion on a path | invariant over all steps with a set of volumes in progress, content by induction on the path; counterexamples for late daughters, a second mirror, scales that are no reflection |
| C127 | the scalar kernels over a list of planes and two planes across z | decision logic over the list by induction |
| C128 | the kernels as folds over the planes | folds are a maximum and a minimum; heights are 1-Lipschitz |
| C129 | loops with early return, `NonZero` exact | loop specification by induction on the planes; excluded: rays along a side closer than half the tolerance (counterexample) |
| C130 | constructors, setters, corners, `MakeAPlane` with normalisation | heights of a point in trilinear coordinates in closed form; the set below the planes solved for the coordinates; counterexamples for setters, twisted faces and the planarity report |
| C131 | `GetSpecialized` and both `MakeInstance` | each case against the point set of the box, trapezoid and parallelepiped specifications; `tan ∘ arctan` and polar form |
| C132 | the formulas as written | slices in z and y; cross products of edges |
| C133 | `fromPlanesToCorners`, `Extent`, sampling as functions of the random numbers | corner heights vanish; trilinear coordinates between the corners; convex combinations on a face |
| C134 | `NormalKernel` with its tolerance band | fold over the planes; counterexamples for the z faces and for sharp edges |
| C135 | `Contains` and `Inside` with their tolerance in the squared radius | decision logic, then the distance to the solid; counterexample: near the tip the tolerance is ten thousand times wider |
| C136 | both safeties with all early returns | tangent and chord of the parabola; counterexamples: negative safety from outside, wrong answer if rlo > rhi |
| C137 | `DistanceToIn` with the shift of far points | first root of the quadratic equation and the guarded divisions bounded explicitly; margins stated; counterexample: zero on the continuation of the side beyond a lid |
| C138 | `DistanceToOut` | the second root; counterexample: a huge negative distance along a lid |
| C139 | `NormalKernel` | partial: lids away from the bottom rim; on the side the code returns the inner direction (a shadowed variable), on the bottom rim it normalises zero |
| C140 | `CalcCapacity`, `CalcSurfaceArea` | slices; fundamental theorem of calculus |
| C141 | `Extent`, `SamplePointOnSurface`, setters | attained bounds; every branch; induction over the calls |
| C142 | `Contains`, `Inside` and the factory with its tube products | decision logic against cylindrical coordinates; counterexample: a point of the cone at the tip of the bore is reported outside |
| C143 | both safeties with all early returns | the walls are Lipschitz in the half plane; C76 for the sector; counterexample at the tip of the bore |
| C144 | `Capacity`, `SurfaceArea` | slices that are rings; partial: walls and lids only, the two phi faces are not counted (counterexample) |
| C145 | `Extent`, `SamplePointOnSurface`, `DetectConvexity`, setters | attained bounds; every branch; partial: the setters leave the extent and the wedge as they were (counterexamples) |
| C146 | `DistanceToOut` with the guarded quadratics and their apex caches | the quadratic is the difference of the squared radii along the ray, its guarded root comes before the wall is crossed; counterexample: tangents on the wall |
| C147 | `Init`, section search, kernel, `Contains`, factory, `ReconstructSectionArrays`, `Reset` | induction over the planes, then C142 for the section; counterexamples: two planes lose their offset, reset doubles the sections, planes closer than the tolerance, repeated first planes |
| C148 | `Inside` with its two-section case | partial: away from inner planes; counterexamples on and near inner planes |
| C149 | both safeties with their loops over the sections | invariants of the loops and C143; partial: `SafetyToIn` for the sections it looks at; counterexamples beyond the ends and in the walk downwards |
| C150 | `Capacity`, `SurfaceArea` | the parts overlap in null sets only, translation invariance, C144; partial: counterexamples for sectors and steps |
| C151 | `Extent`, `DetectConvexity` with the checks of radii and slopes | attained bounds; the outer wall is below the lines of all sections; counterexample with two planes on one height |
| C152 | `SetParameters`, kernels of `Contains` and `Inside` | the cached squares are the spec's; counterexample: tolerances are for squared radii, so at a thin waist a point far inside the wall counts as surface |
| C153 | both safeties with the chord and tangent approximations | a chord of a convex curve, planar distance; partial: `SafetyToIn` where the hole does not matter; counterexamples: above the hole, NaN, waist plane |
| C154 | `CalcCapacity`, `CalcSurfaceArea` | slices and integral of the wall; partial: the area is never too small and exact only for cylinders; NaN counterexample |
| C155 | `Extent`, `IsConvex`, setters, `Clone`, factory, the tube it makes | partial with counterexamples for the box, the clone, negative angles and the tube |
| C156 | `SamplePointOnSurface` | each branch is on the surface; weights; counterexample for a closed waist |
| C157 | `Normal` | derivative along the ray; counterexample at the centre of a lid |
| C158 | `DistanceToOut` | signs of the quadratic form along the ray; partial: rays not tangent to the wall; counterexample 10^30 |
| C159 | `DistanceToIn` | the quadratic form changes sign at the root that is chosen; partial: away from edges and the squared tolerance; counterexamples on the extended wall and for a thin solid |
| C160 | `SetParameters`, `Inside` and `Contains` | the cached scales give the distance to the lateral surface of a cone with the smaller semi-axis; spec with the elliptic radius |
| C161 | both safeties | the elliptic radius is Lipschitz with the reciprocal of the smaller semi-axis |
| C162 | `Capacity`, `EllipticalConeLateralArea` | slices; the lateral area as an integral over the angle, by C91's bound for the perimeter |
| C163 | `Extent`, `IsConvex`, `SetParameters` | extremal points; triangle inequality; counterexample: box of the old solid |
| C164 | `SamplePointOnSurface` with its rejection loop | each branch is on the surface, weights are the areas, distribution of the height |
| C165 | `NormalKernel` | gradient; counterexample on the axis |
| C166 | `DistanceToOut` | roots of the quadratic form along the ray and the sign of the height; partial: directions that are not nearly parallel to the wall; counterexample |
| C167 | `DistanceToIn` with its early exits and the move of far points | intervals in which the ray is between the bases and in the cone; partial: chords that are too short for the discriminant's tolerance |
| C168 | `InsideKernel` with the wedge and the theta cone | the cone through the tangents of its angles, as a bound for the offset from a ray of the meridian; partial for the near-axis case |
| C169 | both safeties | distance from the rays of the meridian; the triangle inequality |
| C170 | `CalcCapacity` | volume of a solid of revolution over a sector (`Base/Revolve`) and polar coordinates of the meridian |
| C171 | `CalcSurfaceArea` | closed form for balls and hemispheres; derivative of the volume; counterexample for cones |
| C172 | constructor, `Check…` functions, setters and factory | equality of the states; counterexamples |
| C173 | `Extent`, `IsConvex` | extremal points of the sector, with the largest distance from the axis; convexity from that of balls and half spaces |
| C174 | `SamplePointOnSurface` | each branch is on the surface; weights compared to the areas; counterexamples |
| C175 | `DistanceToIn`, `DistanceToOut` for full shells | equality with the distances of balls (C44) |
| C176 | `GenericKernelForContainsAndInside` | distance from the central circle; counterexamples for sectors and for the central circle |
| C177 | both safeties | the distance from the central circle is 1-Lipschitz; points that realise it; C76 for the sector |
| C178 | `Capacity` | polar coordinates of the plane, then the area of the disc weighted with the radius (Pappus) |
| C179 | `SurfaceArea` | integral of the norm of the cross product of the partial derivatives of the parametrisation |
| C180 | `Extent`, `DetectConvexity`, setters | the bounding tube (C81); counterexample for setters |
| C181 | `SamplePointOnSurface` | each branch is on the surface; counterexamples |
| C182 | `SolveCubic`, `SolveQuartic`, `Sort4` | Cardano and de Moivre; resolvent by the intermediate value theorem; sorted permutations are unique |
| C183 | `ToBoundary` (coefficients) | identity of polynomials, roots of radicals |
| C184 | `DistanceToOut`, `ToBoundary`, the refinement | solutions of the quartic (C182); the derivative is the normal times the direction; the first sign change is the exit; counterexample for rays that touch the inner tube |
| C185 | `DistanceToIn`, `ToBoundary`, the refinement | as C184; counterexample for sectors |
| C186 | `IntersectionExist` (both) | separating plane (Hahn-Banach), then a walk along a piecewise linear function to one of the fifteen axes; counterexample for boxes that are not centred |
| C187 | `Contains`, `Inside`, `SafetyToIn`, `SafetyToOut` | induction over the cones, with C142 and C143; counterexample where cones touch |
| C188 | `Capacity`, `SurfaceArea`, `Extent`, `DistanceToIn`, `DistanceToOut` | measure of the union of cones, C144 and C146; counterexamples |
| C189 | `Contains`, `Extent`, `PlaceDaughter` on a heap of assemblies | invariant over histories (corners are the extent), induction over the nesting; counterexample for late daughters |
| C190 | `SafetyToIn`, `DistanceToIn` of assemblies | induction over the nesting, invariant of the loops; a line with a point in the box passes the box test |
| C191 | `Set`, `GetSectionIndex`, the kernels of sections and the safeties | cases over the index of the section; each section is a set of coaxial cones (C187) |
| C192 | `DistanceToOut` with a bound for the rounds of its loop | the case of one section; counterexamples for zero, for −1 and for a loop that does not end |
| C193 | `Planes` as a list with a flag | induction over the list; counterexamples for sets that are not convex and for assignment |
| C194 | the loops of `Distance` | the least accepted value of a list; counterexample for points inside |
| C195 | the loop of `DistanceToOut` | the least accepted value of a list |
| C196 | `Set`, `RayHitsQuadrilateral`, `ScalarDistanceSquared`, the distance to a segment | means of the corners are the points on the inner side of all sides; the way from a point of the quadrilateral to the projection crosses a side that is checked |
| C197 | the loop of `DistanceToIn` with the small number added to the projection | induction over the list; the small number shifts the place by less than the tolerance; counterexample for the nearest |
| C198 | `GetTriangleArea`, `GetQuadrilateralArea`, `GetPointOnTriangle`, `GetPointOnFace` with the random numbers as arguments | cross products in a plane; the two triangles of a diagonal cover a convex face; counterexamples for faces that are not convex and for uniformity |
| C199 | `Phd`: planes of heights, segments with sets of planes; bounding tube as a function | induction over the planes; the containment of sets of planes (C193) |
| C200 | `ScalarInsideKernel`, `ScalarInsideSegBorder` | the answers of sets of planes (C193); counterexample for cutouts below 180 degrees |
| C201 | `Phd/Shape`: the corners that `Initialize` makes, `Capacity` | areas of triangles by the direction in the middle of the side, integral of a square of a linear function |
| C202 | `SurfaceArea`; `none` where corners of an empty set are read | areas of trapezoids as square roots of polynomials in the half angle |
| C203 | `Extent` as a fold over the corners | the box holds all corners, coordinates of points of a side are means of those of eight corners; the corners are points of the body |
| C204 | `DistanceSquarePointToSegment`, `InsideTriangle` | counterexamples; right only across the first end |
| C205 | the branch of `SamplePointOnSurface` for the ends, with the random numbers as arguments | points of triangles as means of corners; the areas of the ends (C202); counterexample for the shares |
| C206 | the radii, length and offset of the bounding tube in `Initialize` | distance of the points of a side from the axis, between that of the side and that of its corners; folds over the planes |
| C207 | the description by sides (C201, C203) and that by walls (C199) | odd multiples of half the angle of a side; every direction is on a side |

## Code modelled

| module | source |
|--------|--------|
| `Transform` | `VecGeom/base/Transformation3D.h`, `source/Transformation3D.cpp`: construction, flags, point and direction transforms (generic and specialised by code), inverse, composition, generated codes |
| `NavPath` | `VecGeom/navigation/NavStatePath.h`, `source/NavStatePath.cpp` |
| `NavIndex` | `VecGeom/navigation/NavStateIndex.h`, `source/NavStateIndex.cpp`, `VecGeom/management/NavIndexTable.h` |
| `BitSet` | `VecGeom/base/BitSet.h` |
| `Vector` | `VecGeom/base/Vector.h` |
| `Voxel` | `VecGeom/base/FlatVoxelHashMap.h`, `VecGeom/management/FlatVoxelManager.h`, `source/FlatVoxelManager.cpp`, `VecGeom/navigation/VoxelLevelLocator.h` |
| `Visit` | visitors of `VecGeom/management/GeoManager.h` |
| `Registry` | `source/GeoManager.cpp` (registries, compaction), id handling of `source/PlacedVolume.cpp`, `source/LogicalVolume.cpp` |
| `AABB` | `VecGeom/base/AABB.h`, `VecGeom/management/ABBoxManager.h` (ComputeABBox) |
| `BVH` | `VecGeom/base/BVH.h`, `source/BVH.cpp`, BVH navigator, locator and safety estimator loops |
| `Hybrid` | `VecGeom/management/HybridManager2.h`, `source/HybridManager2.cpp`, hybrid and flat bounding-box navigators, safety estimators and level locator |
| `Nav` | `VecGeom/navigation/GlobalLocator.h`, `SimpleLevelLocator.h`, `VNavigator.h`, `NewSimpleNavigator.h`, `SimpleSafetyEstimator.h` |
| `BoxSolid` | `VecGeom/volumes/kernel/BoxImplementation.h`, `UnplacedBox.h` |
| `Orb` | `VecGeom/volumes/kernel/OrbImplementation.h`, `UnplacedOrb.h` |
| `Boolean` | `VecGeom/volumes/kernel/BooleanUnionImplementation.h`, `BooleanIntersectionImplementation.h`, `BooleanImplementation.h`, `source/UnplacedBooleanVolume.cpp` (Extent, TransformedExtent, CountBooleanNodes, Flatten) |
| `Scaled` | `VecGeom/base/Scale3D.h`, `VecGeom/volumes/kernel/ScaledShapeImplementation.h`, `VecGeom/volumes/UnplacedScaledShape.h`, `source/UnplacedScaledShape.cpp` (Normal, Extent, Volume) |
| `Tet` | `VecGeom/volumes/TetStruct.h`, `VecGeom/volumes/kernel/TetImplementation.h`, `source/UnplacedTet.cpp` (Extent, SamplePointOnSurface, CreateMesh3D), constructors in `VecGeom/volumes/UnplacedTet.h`; `Vector3D::Cross`, `Unit` (in `Base/Halfspace.lean`) |
| `Capacity` | `Capacity`, setters and cached bounding box of `UnplacedBox`, `UnplacedOrb` |
| `Para` | VecGeom/volumes/ParallelepipedStruct.h, VecGeom/volumes/kernel/ParallelepipedImplementation.h, VecGeom/volumes/UnplacedParallelepiped.h, source/UnplacedParallelepiped.cpp |
| `Trd` | VecGeom/volumes/TrdStruct.h, VecGeom/volumes/kernel/TrdImplementation.h, VecGeom/volumes/kernel/shapetypes/TrdTypes.h, VecGeom/volumes/UnplacedTrd.h, source/UnplacedTrd.cpp |
| `Container` | VecGeom/base/SOA3D.h, VecGeom/base/AOS3D.h (host code; not the raw pointers handed out, not the copies to a GPU) |
| `RobinHood` | VecGeom/base/robin_hood.h: the flat/node map with all operations above (not `NodeAllocator`'s pools, not the hash functions themselves) |
| `Wedge` | VecGeom/volumes/Wedge.h, Wedge_Evolution.h, source/Wedge.cpp, Wedge_Evolution.cpp |
| `Tube` | VecGeom/volumes/TubeStruct.h, UnplacedTube.h, kernel/TubeImplementation.h, shapetypes/TubeTypes.h, source/UnplacedTube.cpp |
| `EllTube` | kernel/EllipticalTubeImplementation.h, EllipticalTubeStruct.h, UnplacedEllipticalTube.h, source/UnplacedEllipticalTube.cpp, EllipticUtilities.h (perimeter, random points); scalar instantiation, `Precision` = ℝ, the loop of the perimeter with a number of rounds |
| `Polygon` | PlanarPolygon.h; `Precision` = ℝ; scalar specialisations of `Contains`, `ContainsConvex`, `InsideConvex`, `SafetyConvex`, the loops in chunks of `Contains` and `SafetySqr` for any vector width; not modelled: the generic templates of the convex tests, `OnSegment` (see `SExtru`) |
| `SExtru` | PolygonalShell.h, kernel/SExtruImplementation.h, UnplacedSExtruVolume.h, PlanarPolygon.h: `OnSegment`; `Precision` = ℝ, scalar arguments; not modelled: vector arguments (whose `DistanceToInConcave` lacks some masks), `SamplePointOnSurface`, meshes |
| `Ellipsoid` | EllipsoidStruct.h, kernel/EllipsoidImplementation.h, UnplacedEllipsoid.h, UnplacedEllipsoid.cpp; `Precision` = ℝ, scalar arguments; not modelled: the surface area (a numerical approximation), the polygons of the mesh |
| `MultiUnion` | MultiUnionStruct.h, kernel/MultiUnionImplementation.h, HybridSafetyEstimator.h:95-170, HybridNavigator2.h:150-190; `Precision` = ℝ; components are any solids with the interface of `Boolean`; not modelled: capacity and sampling (random), flattening of nested unions |
| `Pool` | NavStatePool.h, the sizes of VariableSizeObj.h and NavStatePath.h; bytes of the states are opaque; no CUDA |
| `Arr` | Array.h (host code); trivially copyable elements |
| `VoxSafety` | FlatVoxelManager.cpp `BuildSafetyVoxels`, VoxelSafetyEstimator.h, VolumeUtilities.h `GenerateRegularSurfacePointsOnBox`; vector lanes and `float` rounding left out |
| `CutTube` | Plane.h `Set`, `DistPlane`, `DistanceToIn/Out`, CutPlanes.h, CutTubeStruct.h, CutTubeImplementation.h, UnplacedCutTube.h/.cpp; scalar code, `Precision` is ℝ, mesh polygons, `Print`, GPU copies left out |
| `Refl` | ReflFactory.h/.cpp (all but messages and the name extension); volumes are named by an index, a failing `assert` in `CreateReflectedLV` is the outcome `none`, daughters are added only through the factory |
| `Trapezoid` | PlaneShell.h (N planes as a list), TrapezoidStruct.h, TrapezoidImplementation.h (scalar, default build), UnplacedTrapezoid.h/.cpp; not the build with VECGEOM_PLANESHELL_DISABLE, the mesh, the printing; the bounding box member is not part of the state |
| `Paraboloid` | `VecGeom/volumes/kernel/ParaboloidImplementation.h`, `VecGeom/volumes/ParaboloidStruct.h`, `VecGeom/volumes/UnplacedParaboloid.h`, `source/UnplacedParaboloid.cpp` |
| `Cone` | `VecGeom/volumes/ConeStruct.h`, `VecGeom/volumes/ConeUtilities.h`, `VecGeom/volumes/kernel/ConeImplementation.h`, `VecGeom/volumes/kernel/shapetypes/ConeTypes.h`, `VecGeom/volumes/UnplacedCone.h`, `source/UnplacedCone.cpp`; `DistanceToIn` is modelled but nothing is proved about it; normals are not modelled |
| `Polycone` | `VecGeom/volumes/PolyconeStruct.h`, `VecGeom/volumes/PolyconeSection.h`, `VecGeom/volumes/kernel/PolyconeImplementation.h`, `VecGeom/volumes/UnplacedPolycone.h`, `source/UnplacedPolycone.cpp`; `DistanceToIn` is modelled but nothing is proved about it; `DistanceToOut`, normals, sampling and the constructor from an outline are not modelled |
| `Hype` | `VecGeom/volumes/HypeStruct.h`, `VecGeom/volumes/HypeUtilities.h`, `VecGeom/volumes/kernel/HypeImplementation.h`, `VecGeom/volumes/kernel/shapetypes/HypeTypes.h`, `VecGeom/volumes/UnplacedHype.h`, `source/UnplacedHype.cpp` |
| `EllCone` | `VecGeom/volumes/EllipticalConeStruct.h`, `VecGeom/volumes/kernel/EllipticalConeImplementation.h`, `VecGeom/volumes/UnplacedEllipticalCone.h`, `source/UnplacedEllipticalCone.cpp`, `VecGeom/volumes/EllipticUtilities.h` |
| `Sphere` | `VecGeom/volumes/SphereStruct.h`, `VecGeom/volumes/ThetaCone_Evolution.h`, `VecGeom/volumes/SphereUtilities.h`, `VecGeom/volumes/kernel/SphereImplementation.h` (distances for full shells only, normals not), `VecGeom/volumes/UnplacedSphere.h`, `source/UnplacedSphere.cpp` |
| `Torus` | `VecGeom/volumes/TorusStruct2.h`, `VecGeom/volumes/kernel/TorusImplementation2.h` (solvers, containment and safeties), `VecGeom/volumes/UnplacedTorus2.h`, `source/UnplacedTorus2.cpp` (not the normal) |
| `OBB` | `VecGeom/volumes/utilities/VolumeUtilities.h` (`IntersectionExist` with transformations) |
| `Coax` | `VecGeom/volumes/CoaxialConesStruct.h`, `VecGeom/volumes/kernel/CoaxialConesImplementation.h`, `VecGeom/volumes/UnplacedCoaxialCones.h`, `source/UnplacedCoaxialCones.cpp` (without normals) |
| `Assembly` | `VecGeom/volumes/UnplacedAssembly.h`, `source/UnplacedAssembly.cpp`, `VecGeom/volumes/PlacedAssembly.h`, `LogicalVolume::PlaceDaughter`, `BoxImplementation::Intersect` (without sampling and navigation states) |
| `GPoly` | `VecGeom/volumes/kernel/GenericPolyconeImplementation.h` (Contains, Inside, SafetyToIn, SafetyToOut, DistanceToOut), `VecGeom/volumes/GenericPolyconeStruct.h`; not `ReducedPolycone`, `DistanceToIn`, `Normal`, sampling and areas |
| `Quad` | `VecGeom/volumes/Planes.h`, `source/Planes.cpp`, `VecGeom/volumes/Quadrilaterals.h` (without the Vc loops), `source/Quadrilaterals.cpp`, `DistanceToLineSegmentSquared1` |
| `Phd` | `VecGeom/volumes/kernel/PolyhedronImplementation.h`: FindZSegment, FindPhiSegment, ScalarContainsKernel, ScalarInsideKernel, ScalarInsideSegBorder (generic template arguments); not: construction, distances, safeties, normals; the bounding tube and the phi wedge are functions |
| `Phd/Bounds` | `VecGeom/volumes/PolyhedronStruct.h`: radii, length and offset of the bounding tube; not: its angles |
| `Phd/Sample` | `source/UnplacedPolyhedron.cpp`: GetPointOnTriangle and the branch of SamplePointOnSurface for the ends; points on the walls are those of `Quadrilaterals` (C198) |
| `Phd/Shape` | `VecGeom/volumes/PolyhedronStruct.h`: the corners of `Initialize`; `source/UnplacedPolyhedron.cpp`: Capacity, SurfaceArea, Extent, DistanceSquarePointToSegment, InsideTriangle; not: normals, sampling, the caching of the capacity and of the areas |
| `Torus` (distances) | `VecGeom/volumes/kernel/TorusImplementation2.h` (`ToBoundary`, `DistanceToOut`, `DistanceToIn`) |

The comment of every definition gives the lines.  Everything else in `/repo` is not modelled.

## Findings

Places where the code violates a stated property.  Those with a theorem name are proved on the model (a concrete input, or for all
inputs of a kind); the `_partial` theorems or hypotheses state what does hold.

Proved:

* `NavStatePath::CopyTo` from a full state copies one slot past the end (`C06_copyTo_full_counterexample`), and copies the recorded size
  (`C06_copyTo_maxLevel_counterexample`); `GetLastExited` is null at the two deepest levels (`C06_lastExited_counterexample`).
* `GlobalToLocal` applies the transformation of the world, `TopMatrix` does not (`C09_world_counterexample`).
* `BitSet`: `CountBits(start)` is wrong inside a byte (`C11_counterexample`); `<<=` stores bits past the logical size
  (`C13_hidden_bits`, `C14_hidden_bits`, `C12_first_counterexample`); `LastSetBit` of an empty set is undefined (`C12_last_empty`);
  `ResetAllBits(true)` sets every eighth bit (`C15_reset_true_counterexample`); compact copies overflow (`C53_compact_overflow`).
* `Vector`: assignment appends (`C16_assign_counterexample`), capacity zero does not grow (`C16_capacity_zero`), construction from an
  initializer list writes to unowned memory (`C16_initializer_list`).
* `FlatVoxelHashMap`: `int` overflow (`C17_overflow`), wrong mid points (`C18_position_counterexample`), points on an upper face
  (`C18_upper_face`), `clear` keeps the last key (`C19_clear_counterexample`, `C19_scalar_clear_counterexample`).
* `GeoManager`: `Clear` restarts ids (`C21_clear_counterexample`), a gap in the ids makes the compaction write outside its buffer
  (`C22_gap_counterexample`), conversions after closing (`C57_compacted_index_zero`, `C57_counterexample`).
* `Transformation3D`: the specialised code 0x046 and the mixed-up branch of 0x16A (`C26_counterexample`, `C26_code046_counterexample`).
* Bounding boxes: `ComputeABBox` for off-centre extents (`C29_off_centre_counterexample`), placed extents with stale flags
  (`C28_placed_extent_flag_counterexample`).
* `BVH`: depths 30 to 32 are accepted but undefined (`C32_depth_limit_counterexample`); the traversal needs depth+1 stack entries
  (`C36_depth_entries_counterexample`).
* Hybrid structure: more than 2000 candidates overflow stack arrays (`C38_overflow_counterexample`, `C60_overflow_counterexample`);
  the flat navigator misses boxes for axis-parallel rays (`C39_flat_parallel_counterexample`).
* `GlobalLocator`: without level locators only one level is searched (`C40_no_locator_counterexample`); relocation that must leave
  a volume excludes it in every other placement of its mother too (`C41_shared_placement_counterexample`).
* `VNavigator`: an infinite distance with only the world in the state dereferences null (`C42_escape_world_counterexample`) and
  otherwise ignores a limit below the tolerance (`C42_escape_limit_counterexample`); `ComputeStepAndSafety` can return a negative step
  (`C42_safety_negative_counterexample`).
* `Box`: `DistanceToOut` of a surface point parallel to a face is hugely negative (`C43_distance_out_negative_counterexample`); the
  normal is called valid far from the solid (`C43_normal_far_counterexample`).  `Orb`: tangential rays
  (`C44_distance_in_tangent_counterexample`, `C44_distance_out_tangent_counterexample`), radii below the tolerance
  (`C44_tiny_radius_counterexample`).  Setters leave cached values stale (`C58_box_counterexample`, `C58_orb_counterexample`).
* Boolean volumes: extents apply the placements of the constituents twice (`C46_counterexample`); `SafetyToOut` of all three operations
  and `DistanceToOut` of the intersection take the left constituent as not moved (`C47_left_moved_counterexample`,
  `C63_left_moved_counterexample`); points on an edge where two volumes touch are called inside, points of a common face outside
  (`C45_union_edge_counterexample`, `C45_subtraction_face_counterexample`); the distance to enter a difference is too long by the push
  (`C63_subtraction_in_offset`, `C63_subtraction_in_counterexample`); `Flatten` with threshold zero dereferences null
  (`C48_zero_counterexample`).
* Scaled shapes: for scales with an odd number of negative factors the extent is inside out (`C49_extent_counterexample`) and the capacity
  is negative (`C49_capacity_counterexample`), and the normal points inwards; the normal is always reported as not valid
  (`C49_normal_invalid`); leaving and the normal ignore the placement of the scaled volume (`C49_moved_counterexample`).
* Tetrahedron: the result of the degeneracy check is not used; four equal corners give a solid that contains every point
  (`C50_degenerate_counterexample`).  On edges where faces meet under less than sixty degrees the normal reported as valid is not
  a unit vector (`C64_normal_counterexample`).  The constructor from arrays does not compute the bounding box
  (`C64_bbox_counterexample`).  From a point just outside, within the tolerance, the distance to leave can be very negative
  (`C50_exit_negative_counterexample`).  The surface test of `DistanceToIn` compares with `-kHalfTolerance` and never fires
  (`C50_surface_test_dead`).
* C65: `Normal` of a union or an intersection chooses the constituent by comparing safeties. If one constituent reports
  safety zero without being near (an empty intersection does), its normal is reported as valid although the point is on the
  surface of the other one (`C65_counterexample`).
* C67: `UnplacedParallelepiped::SetDimensions` does not recompute the areas of the faces, so `SurfaceArea` and the facet
  selection of `SamplePointOnSurface` keep the old values (`C67_area_counterexample`); no setter recomputes the bounding box
  (`C67_bbox_counterexample`).
* C67: `CreateMesh3D` takes the angles for the angles between the edges: with `cos α ≠ 0` no vertex of the mesh is on the
  top or bottom face (`C67_mesh_counterexample`), and for upright boxes it divides by zero or takes the root of a negative
  number (`C67_mesh_box_counterexample`).
* C67: `Normal` of the parallelepiped normalises the sum of face normals only if it is longer than one; at edges with an
  obtuse angle between the normals the vector is much shorter than one (`C67_normal_unit_counterexample`). The flag is also
  set arbitrarily far from the solid, in the planes of its faces (`C67_normal_far_counterexample`).
* C68: `TrdStruct::CalculateCached` computes `fToleranceY` from the half lengths along x, so the tolerance band of the faces
  along y has the wrong width (`C68_classify_counterexample`).
* C68: setters of the half lengths along y, and `SetAllParameters`, may be called on the specialisation `Trd1`, whose kernels
  go on with the first half length along y (`C68_setter_counterexample`). No setter recomputes the bounding box
  (`C70_bbox_counterexample`).
* C69: `DistanceToIn` is slightly negative for some points just outside a base, `DistanceToOut` for points in the tolerance
  band (`C69_in_negative_counterexample`, `C69_out_negative_counterexample`).
* C69: rays that meet the surface exactly in an edge are missed because `kTiny` is added to their direction: a ray through
  the centre of the solid gets infinity as distance to enter (`C69_in_edge_counterexample`), and a point inside gets zero
  as distance to leave (`C69_out_edge_counterexample`).
* C70: `UnplacedTrd::SurfaceArea` uses the slant height of the faces along x also for those along y; it is right only if the
  bases differ as much along y as along x, or in a degenerate case (`C70_area_partial`, `C70_area_counterexample`).
* C71: `SOA3D::operator=` frees the memory before it looks whether both sides are the same object (`C71_self_counterexample`);
  from a container that has memory but no elements it copies the pointers instead of allocating, so that two containers share
  memory that one of them frees (`C71_empty_counterexample`).
* C72: `AOS3D::operator=` with the same object on both sides empties it (`C72_self_counterexample`).
* C73: `SOA3D::FromFile` reads size and capacity of the file and ignores both: it reads as many values as its own capacity, so
  a smaller reader reports success with mixed columns, and the size of the container is not set
  (`C73_smaller_counterexample`).
* C74: erasing through iterators (`it = map.erase(it)`) can see an entry twice: an entry stored at the begin of the table because of
  wrapping around moves to the end of the table, where the loop meets it again (`C74_sweep_twice_counterexample`).
* C74: `clear` keeps the reduced limit that a full byte has left (`mMaxNumElementsAllowed = 0`), so that the next insertion into the empty
  map rehashes at once; harmless for the results.
* C75: an exception in the middle of a rehash leaves a partly filled table with the other entries lost; the theorems say when there is none.
* C76: `SetStartPhi`, `SetDeltaPhi` and `Set` of the wedge change the angles but not the planes: a quarter enlarged to three
  quarters does not contain the points of the added range (`C76_setters_counterexample`).
* C77: with a bore thinner than the tolerance, `rmin^2 - kTolerance*rmin` type tolerances are wrong: a point of the tube is called
  outside by `Inside` while `Contains` says it is in (`C77_thin_bore_counterexample`).
* C79: for tubes of opening exactly pi, `DistanceToOut` passes the x component of the normal twice, so the flat face is missed
  (`C79_pi_counterexample`) or a distance below -1 is returned in the middle of the solid (`C79_pi_negative_counterexample`).
  A surface point slightly above the lid gets distances below -100 (`C79_lid_counterexample`), and for openings above pi so does a
  point deep inside that is within the tolerance behind the continuation of a face (`C79_behind_plane_counterexample`).
* C80: surface points are lost: a point slightly below the lid moving inwards at an angle (`C80_lid_counterexample`) and a point
  slightly off the bore moving along its wall (`C80_bore_counterexample`) get an infinite distance.  A ray into a solid sector
  through its edge misses it (`C80_axis_counterexample`), and a point slightly inside a face gets distances below -100
  (`C80_face_counterexample`).
* C83: `SetSPhi` and `SetDPhi` of a tube leave the phi wedge as it was, so `Contains` goes on answering for the old sector
  (`C83_setters_counterexample`).
* C84: on the axis of a half tube the flat face is counted twice, and the "normal" that is reported as valid has length √2
  (`C84_normal_counterexample`).
* C87, C88: directions whose scaled transverse square is below `kEpsilon` are treated as parallel to the axis. A ray leaving a rod of length 200
  at an inclination of 1e-8 gets a distance that ends 2e-6 outside (`C87_distance_out_counterexample`); from the centre of a tube with semi-axes
  1e8 and 1 the distance along the long axis is infinite (`C87_flat_counterexample`); rays that enter the rod laterally miss it and rays that pass
  beside it hit it (`C88_distance_in_counterexample`).
* C89: `CheckParameters` checks the half length in y twice and never the one in z: a negative one is accepted and gives a negative capacity
  (`C89_parameters_counterexample`).
* C95: `CalcConvexity` counts turns only, so a star that crosses itself (pentagram) is reported as convex; `ContainsConvex` and `Contains` then
  disagree at its centre (`C95_flag_counterexample`).
* C95: coefficients of an edge's line below 1e-9 are set to 0 after the offset has been computed. For a triangle of length 1e6 a point 1e-5 deep
  inside is not contained according to `ContainsConvex` (`C95_lines_counterexample`).
* C96: `SExtruImplementation::Inside` for convex polygons compares `|z - plane| < tol` but rejects only beyond the tolerance: a point exactly the
  tolerance below the solid is classified as inside (`C96_inside_counterexample`).
* C97: for polygons that are not convex `SafetyToIn` is positive in the middle of the solid (`C97_sign_counterexample`).
* C98: `DistanceToOutConvex` uses `point.z()` instead of the coordinate relative to the middle: from the centre of a cube between z = 1 and z = 2,
  upwards, `DistanceToOut` is negative (`C98_out_convex_counterexample`). The theorem for convex polygons needs planes at -h and h.
* C99: `DistanceToInConvex` takes a face to which the ray moves away inwards at a rate below 1e-9 as an exit at a negative distance: a ray through
  the middle of the unit cube is reported to miss it (`C99_in_convex_counterexample`).
* C99: `DistanceToIn` for polygons that are not convex takes a plane as ahead of the ray up to the tolerance behind it: for a ray that moves away,
  at a small angle to the plane, the distance is less than -4 (`C99_in_concave_counterexample`).
* C98: `DistanceToOut` for polygons that are not convex divides by `dir.z()` if no edge is hit; the model returns `none` if that is 0.
* C100: `PolygonalShell::SurfaceArea` takes the root of the sum of the squared lengths: the surface area is too small for every polygon
  (`C100_surface_area_counterexample`); 4 instead of 6 for the unit cube.
* C101: `NormalKernel` reads the arrays at index -1 for points 1e15 or more away from the polygon.
* C102: the layer that counts as surface is half a tolerance thick after scaling to a ball: along the longer axes it is thicker in the ratio of
  the semi-axes (`C102_tolerance_counterexample`).
* C105: the guard of the discriminant in `EllipsoidImplementation::DistanceToIn` is relative to the squared distance of the start point: a ray that
  reaches a depth of ten tolerances in a ball of radius 1e5 misses it (`C105_hit_counterexample`).
* C106: `CheckParameters` checks the semi-axis in y twice and the one in z never: a negative one is accepted (`C106_axis_counterexample`).
* C106: an ellipsoid without cuts stores its poles as cuts, so `SetSemiAxes` with a longer axis in z silently cuts the ellipsoid
  (`C106_setSemiAxes_counterexample`). A pair of cuts at 0 and 0, or an empty range of cuts, means no cuts.
* C106: `CreateMesh3D` takes the polar angle in proportion to the height of the cut: for every cut above the middle the first ring of the mesh lies
  above the cut (`C106_mesh_counterexample`).
* C107: `NormalKernel` normalises the sum of the two normals of an edge only if it is longer than 1: on the edge of a cap the squared length of a
  valid normal is less than one half (`C107_length_counterexample`).
* C108: closing a union without components leaves no search structure and every query dereferences null (`C108_empty_counterexample`).
* C109: `Inside` of a multi-union has no treatment of common faces: the middle of the common face of two cubes is surface
  (`C109_common_face_counterexample`).
* C110: the safety loop ignores components whose SafetyToIn is not positive; a component that answers the valid lower bound 0 is skipped and the safety
  of the union becomes the largest number (`C110_zero_safety_counterexample`).
* C113: the walk out of the union stops as soon as one step is not longer than the tolerance: from a point on a common face the distance across it is 0 for
  one of the two directions, depending on the order of the components in the search structure (`C113_early_end_counterexample`).
* C114: `AddNode` updates the extent of the structure but not the bounding box of the unplaced volume, which stays the inverted infinite box: `ApproachSolid`
  reports a miss for every ray (`C114_approach_counterexample`), so `BVH::ApproachNextDaughter` never sees a multi-union.
* C116: `NavStatePool::FromFile` only warns about another capacity or depth and then reads the states to wrong places, with success
  (`C116_depth_counterexample`; NavigationSpecializer reads with the depth of the geometry). A file that is too short leaves the pool half overwritten
  (`C116_short_counterexample`).
* C117: assigning an `Array` to itself empties it (`C117_self_counterexample`).
* C118: `BuildSafetyVoxels` looks for further candidates only at 601 points on the surface of a voxel: a small daughter just outside a voxel, in front of a
  wall, is missed and the safety exceeds the distance to it (`C118_missed_daughter_counterexample`). `npointstotal` overflows `int` with 4225 daughters
  (`C118_overflow_counterexample`). `ComputeSafetyToDaughtersForLocalPoint` of the voxel estimator always throws.
* C119: the constructor accepts planes that meet in the tube; `Inside` then calls points far from the solid surface (`C119_crossed_counterexample`). A normal
  with a small positive `z` is accepted and `FixZeroes` makes it zero: the plane contains the axis and the heights of the lids divide by zero (`C119_flat_counterexample`).
* C122: the move to 100 times the larger of radius and half length skips solid with steep planes (`C122_far_counterexample`); from a point less than the
  tolerance below a plane, moving nearly along it, the answer is at most -100 (`C122_layer_counterexample`).
* C123: for planes that meet in the tube the capacity is not the volume and can be negative (`C123_crossed_counterexample`).
* C125: the normal is chosen by the sign of `z`, so with tilted planes the normal of the wrong plane is returned as valid (`C125_normal_counterexample`);
  `SetDz` changes only the tube inside (`C125_dz_counterexample`); `SetSPhi` leaves the sines and cosines for the capacity (`C125_sphi_counterexample`);
  mesh vertices are off every tilted plane (`C125_mesh`).
* C126: a daughter placed without a mirror into a volume that was reflected before is put unmirrored into the reflection, since `Place` passes the scale of the
  daughter on in place of that of the mother (`C126_late_daughter_counterexample`); the reflected copy made with this scale is also remembered.
* C126: the reflection of a volume is remembered without its scale, so a second placement with another mirror shows the first mirror image
  (`C126_second_mirror_counterexample`).
* C126: a scale with positive product, such as (-1, -1, 1), is ignored (`C126_half_turn_counterexample`).
* C129: a ray along a side plane, inside by less than half the tolerance, gets `kInfLength` from `DistanceToIn`, since `NonZero(0)` puts the crossing far beyond
  the solid (`C129_glide_counterexample`).
* C130: `SetDz`, `SetDy1`, ..., `SetTanAlpha2` change the parameter only; the planes stay (`C130_setters_counterexample`).
* C130: parameters whose X faces are twisted are accepted, the solid then leaves out at least one of its own corners (`C130_twisted`); the report of `MakePlanes` covers
  only the +X face, since `good` is overwritten (`C130_coplanarity_counterexample`).
* C134: a point between half a tolerance and a thousand tolerances below a z face gets the normal of some side face, however far, and the answer is called valid
  (`C134_normal_counterexample`).
* C134: on an edge with an inner angle below 60 degrees the sum of the normals is shorter than one and is not normalised (`C134_length_counterexample`).
* `GetPointOnPlane` draws the second coordinate uniformly below the first, so points crowd near the first corner of each triangle (no theorem).
* Paraboloid: `NormalKernel` computes the normal of the side into a second variable `normParabolic` that shadows the first and is thrown away. At every point of the side away from the lids the result is the valid normal `(0, 0, 1)`, which points into the solid (`C139_side_counterexample`). On the rim of the bottom lid the two contributions cancel and a zero vector is normalised (`C139_rim_counterexample`).
* Paraboloid: `DistanceToIn` tests the tolerance of the side without the lids, so a point on the continuation of the side beyond the lid that moves inwards gets 0 although the solid is far away (`C137_extension_counterexample`).
* Paraboloid: for a point that counts as on the surface but is above the top lid, `DistanceToOut` along the lid divides a negative number by 1e-30 and returns less than -1e20 (`C138_glide_counterexample`).
* Paraboloid: `SafetyToIn` can be negative for a point that `Inside` reports outside (`C136_in_counterexample`), and 0 everywhere on the plane of the bottom lid between the two radii.
* Paraboloid: the tolerance is applied to squared radii, so close to the tip it is far wider than `kTolerance` (`C135_tip_counterexample`).
* Paraboloid: the constructor accepts `rlo > rhi`; then the safety from inside is -1 for the centre (`C136_inverted_counterexample`). The setters leave the cached bounding box `fBBox` as it was.
* Cone: near the tip of a conical bore the tolerant square of the inner radius is `|r (r - 2 tol)|`, which grows again for `r < 2 tol`: points of the cone are reported outside there (`C142_tip_counterexample`) and `SafetyToOut` is -1 (`C143_tip_counterexample`).
* Cone: `SurfaceArea` leaves out the two flat faces of a sector (`C144_area_counterexample`).
* Cone: outer radii that agree with the inner ones are enlarged by 1e-7, but `Extent` uses the radii as given, so the box does not hold the points that `Contains` accepts (`C145_extent_counterexample`).
* Cone: the radius setters do not touch the radii `Extent` reads (`_frmax1` and so on) nor the convexity flag, so a box that is asked for later is that of the old cone (`C145_stale_extent_counterexample`); the angle setters leave the vectors of the wedge as they were, so containment does not follow (`C145_angle_setters_counterexample`).
* Cone: on a wall, moving along a tangent, `DistanceToOut` finds no wall at all and returns infinity if the line does not meet a lid (`C146_tangent_counterexample`). Lines in the plane of a lid ignore the bore (the root is only taken strictly between the lids).
* Cone: for points on a lid that leave through it `DistanceToOut` returns `|z| - dz`, which can be negative. The sector is looked at only under `!MaskEmpty(outside)`, which for scalars means it is never looked at.
* Cone: the factory cuts an opening above 2 pi for cones without bore only. `SamplePointOnSurface` with the largest random number selects a surface that does not exist and returns the centre.
* Polycone: with two planes the factory makes a cone around the origin, so a polycone from z = 1 to z = 3 comes back as one from -1 to 1 (`C147_two_counterexample`).
* Polycone: `Reset` adds the sections to those there are, so capacity doubles (`C147_reset_counterexample`).
* Polycone: planes closer than the tolerance are skipped, but the next section starts at the skipped plane with its centre taken from the one before (`C147_thin_counterexample`); two planes on the first height read past the end of an empty vector (`C147_repeated_counterexample`).
* Polycone: `Inside` reports points of the side at the height of an inner plane as inside (`C148_plane_counterexample`) and points on the axis near an inner plane as surface (`C148_near_plane_counterexample`).
* Polycone: `SafetyToIn` beyond an end looks at the section at that end only (`C149_end_counterexample`), and the walk downwards takes the way to a section to its far end and stops too early (`C149_walk_counterexample`). Both overestimate the distance.
* Polycone: `SurfaceArea` takes the rings at both ends around the whole axis also for a sector (`C150_area_sector_counterexample`), and leaves out the rings of steps (`C150_area_step_counterexample`).
* Polycone: `CheckContinuity` pairs planes by position; two planes on one height with one outer radius shift the pairing, and the section above is not looked at: a polycone with a bore is flagged as convex (`C151_convex_counterexample`).
* Polycone (read, not modelled): the constructor from an outline leaves the flags uninitialised and stores start plus opening as opening; the error check for planes that go up and down is dead code; sampling weights of `SamplePointOnSurface` are shifted by one and the first phi face of a tube section is never sampled.
* Hype: tolerances are compared with squared radii, so near a thin waist points that are far away compared to the tolerance count as surface (`C152_waist_counterexample`).
* Hype: `SafetyToIn` above the hole is larger than the distance (`C153_hole_counterexample`), NaN for a cylinder outside a hyperbolic bore (`C153_nan_counterexample`) and 0 in the plane of the waist for points away from the solid (`C153_waist_counterexample`).
* Hype: `SurfaceArea` uses T|T| for T√(1+T²) and is too large for every angle but zero (`C154_area_partial`); it is NaN for a closed waist with an inner angle (`C154_area_nan_counterexample`).
* Hype: `SetParameters` leaves the box of the old solid (`C155_bbox_counterexample`); `Clone` passes the outer radius and inner angle in the wrong order (`C155_clone_counterexample`); the factory drops a negative inner angle (`C155_angle_counterexample`); the tube it makes reports capacity and area of the wrong solid (`C155_tube_counterexample`).
* Hype: with a closed waist and an inner angle the bottom lid is always sampled (`C156_closed_hole_counterexample`).
* Hype: the normal at the centre of a lid of a full solid is zero (`C157_centre_counterexample`).
* Hype: `DistanceToOut` is 10^30 for rays tangent to the wall (`C158_tangent_counterexample`); `DistanceToIn` is 0 above the solid on the surface that continues its wall (`C159_extension_counterexample`) and infinite next to a thin solid (`C159_needle_counterexample`).
* EllipticalCone: `SetParameters` leaves the box of the old solid (`C163_box_counterexample`).
* EllipticalCone: a point on the axis below the apex, deep in the solid, has a normal that is declared valid (`C165_axis_counterexample`).
* EllipticalCone: `DistanceToOut` is negative for a point of the solid when the direction is nearly parallel to a line of the wall (`C166_grazing_counterexample`).
* EllipticalCone: `DistanceToIn` drops rays whose discriminant is small compared to the square of the half coefficient; `C167_found_partial` needs the hypothesis `¬ Scratching`.
* Sphere: points on the axis of a sphere whose polar range has one pole and reaches across the equator, and of lower hemispheres, are reported on the surface although deep inside (`C168_axis_counterexample`).
* Sphere: the slack of the polar cones is 2·10⁻⁸, not the tolerance; the tangent of the rounded right angle is finite, so hemispheres of radius beyond 8·10⁶ would be misclassified (outside the real model: the theorem needs polar angles that are π/2 or differ from it by more than the tolerance).
* Sphere: the area of the cones is computed as that of discs (`C171_cone_counterexample`).
* Sphere: setters of angles leave the sectors of the old solid (`C172_setter_counterexample`); the constructor clips the polar range but the sector keeps the given one (`C172_clip_counterexample`); the factory ignores the start of the polar range (`C172_factory_counterexample`).
* Sphere: the sampling weights are twice the area for cones and ignore the azimuth range for flat sides (`C174_weights`, `C174_flat_counterexample`); heights on cones and cosines on faces are uniform, which is not uniform in area.
* Sphere: `DistanceToIn` from a point in a full shell at the start azimuth is infinite instead of -1 (`C175_in_wrong_side_counterexample`).
* Torus: `Contains` ignores the azimuth range (`C176_contains_counterexample`); points of the central circle of a solid torus are reported on the surface (`C176_centre_counterexample`).
* Torus: the capacity is wrong for tori that meet their axis (`C178_counterexample`).
* Torus: setters leave the sector, the bounding tube and the cached values of the old solid (`C180_setters_counterexample`).
* Torus: a full torus whose start angle is not 0 yields sampled points in its interior (`C181_full_counterexample`); the points on the tubes are not uniform in area (`C181_uniform_counterexample`).
* Torus: `SolveQuartic` drops a linear coefficient below 10⁻⁶, by which a solution 10⁻³ away is lost (`C182_threshold_counterexample`).
* Torus: for a ray that touches the inner tube at a double solution the refinement divides 0 by 0 and `DistanceToOut` is not a number (`C184_touch_counterexample`).
* Torus: `DistanceToIn` resets the distance to the faces of a sector, so a ray that enters through a face is reported to miss the solid (`C185_face_counterexample`).
* Torus: `DistanceToOut` squares `rtor - rmax - kHalfTolerance`; for tori that (nearly) meet their axis the square excludes points of the solid (hypothesis of `C184_out_partial`).
* `IntersectionExist` for oriented boxes only uses the lengths of the boxes that are passed: for a box that is not centred at its origin the answer is wrong (`C186_centre_counterexample`).
* `UnplacedCoaxialCones::Capacity` and `SurfaceArea` return members that are never set, and `Extent` sets nothing (`C188_unset_counterexample`).
* `CoaxialConesStruct::SurfaceAreaOfZPlanes` assigns instead of adding: only the lids of the last cone count (`C188_area_counterexample`).
* Where coaxial cones touch, `Inside` puts points in the interior on the surface (`C187_touching_counterexample`), and `DistanceToOut` ends at the wall between them (`C188_touching_counterexample`).
* When an assembly gets a daughter after it has been placed in another assembly, the box of the other one is not updated: the new daughter is not found there by `Contains` (`C189_late_counterexample`).
* `Inside`, `DistanceToOut` and `SafetyToOut` of assemblies throw; they are not modelled.
* `SafetyToIn` of a generic polycone can exceed the distance to the solid: the walk downwards measures the way to the far end of a section (`C191_walk_counterexample`, as in polycones).
* `DistanceToOut` of a generic polycone with two sections is 0 for a point on the bottom and a ray upwards (`C192_bottom_counterexample`), never ends for a point on the top and a ray downwards (`C192_top_counterexample`), and is −1 for a point on the bottom and a ray downwards because the point is not moved to the section (`C192_shift_counterexample`).
* `Planes::Contains` is true for every point if the set is not convex: the result of the loop starts with true (`C193_contains_counterexample`).
* `Planes::operator=` does not assign the flag for convex sets (`C193_assign_counterexample`).
* `Planes::Distance<true>(point)` takes the sign of points outside: for a point inside it finds no plane (`C194_safety_counterexample`).
* `FixZeroes` sets small components of normals to zero after they have been normalised: `C196` needs normals without components that are small and not zero.
* `Quadrilaterals::DistanceToIn` stops at the first quadrilateral of the list that is hit: the result depends on the order (`C197_order_counterexample`; the comment in the code says so).
* `GetPointOnFace` chooses the two triangles of a face with equal chances, whatever their areas: points are not uniform (`C198_uniform_counterexample`).
* `GetQuadrilateralArea` depends on the first corner if the quadrilateral is not convex (`C198_area_counterexample`).
* `Contains` of polyhedra with a cutout below 180 degrees does not look at the phi planes (`C199_phi_counterexample`, because of `C193_contains_counterexample`): points that the bounding tube lets pass (its angles are larger by 1e-7) are contained although they are in the cutout and `Inside` is outside for them (`C200_agree_counterexample`).
* `FindZSegment` puts points within the tolerance below a plane into the segment above it, at the last plane into none: points within the tolerance below the top are not contained.
* `DistanceSquarePointToSegment` of polyhedra projects with the wrong sign: for points of a segment it answers the square of the distance to the first end, for points beyond the first end it may answer zero (`C204_segment_counterexample`). `InsideTriangle` answers yes for points far away and no for points inside (`C204_triangle_counterexample`). Nothing in the library calls them.
* `SurfaceArea` of polyhedra reads corners of an empty set of quadrilaterals if the first two planes (or the last two) have the same height and outer radius (`C202_first_counterexample`).
* `Capacity` of polyhedra does not neglect the cut in phi, as a remark in the code fears: `C201_capacity` covers sectors.
* `SamplePointOnSurface` of polyhedra mixes up the ends: `top_area` is the area of the end at the first plane, but points chosen by it are put at the last plane, and the other way round (`C205_ends`, `C205_share_counterexample`: an end of area 60 gets the share of the other end, of area 12). Within an end with a bore, the two triangles of a side get the same share although their areas differ.

Noticed while reading, not modelled: `HybridSafetyEstimator` allocates 2000 entries and asserts against 20000; `insertionsort` indexes with
`short`; `ABBoxManager::RemoveABBoxes` leaves dangling pointers; `UnplacedAssembly::DistanceToIn` passes an uninitialised pointer;
`BoxImplementation::IntersectMultiple` never assigns two of its bounds; `NavIndexTable::ValidateState` constructs an exception without
throwing it; `UnplacedBox::SetX/Y/Z` and other setters leave the bounding box stale; `(int)log2(0)` for a single daughter in `BVH`.

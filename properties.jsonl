{"id": "C01", "title": "Building the navigation table never writes outside the allocated buffer", "statement": "For every geometry tree whose node count, depth and daughter counts fit the record format, and for every caching depth, the counting pass of the navigation table reports exactly the number of 32-bit slots that the filling pass then uses; the filling pass writes no slot outside the allocated table and no slot twice with different meaning.", "quantifier": "all geometry trees (any shape, depth, fan-out within the record format), all caching depths", "why_tests_cant": "the two passes compute sizes and padding differently (one from a byte count, one from a slot index); agreement has to hold for every tree and every cache depth, not for the handful of setups in the tests", "anchors": ["source/NavIndexTable.cpp: BuildNavIndexVisitor::apply", "VecGeom/management/NavIndexTable.h: CreateTable, AllocateTable, visitAllPlacedVolumesNavIndex"]}
{"id": "C02", "title": "Index navigation states follow the geometry path exactly", "statement": "After any sequence of Push(child) and Pop calls starting from the outside state, an index-based navigation state answers Top, IsOutside, At(level) and ValueAt(level), and when it is inside the world also GetLevel and the number of daughters, as the sequence of placed volumes on the current path prescribes; levels the path does not have are answered by null (At) and 0 (ValueAt).", "quantifier": "all geometry trees, all finite sequences of valid Push/Pop operations", "why_tests_cant": "the states are indices into a packed table; a single wrong offset shows up only for particular trees and paths, and tests visit finitely many of either", "anchors": ["VecGeom/navigation/NavStateIndex.h: PushImpl, PopImpl, TopImpl, GetLevelImpl, GetNdaughtersImpl, GetNavIndexImpl", "source/NavIndexTable.cpp: BuildNavIndexVisitor::apply"]}
{"id": "C03", "title": "Different places in the geometry have different navigation indices", "statement": "Two navigation states over the same closed geometry compare equal (same navigation index) if and only if they denote the same path of placements.", "quantifier": "all geometry trees, all pairs of paths", "why_tests_cant": "uniqueness is a statement about all pairs of paths of all trees", "anchors": ["source/NavIndexTable.cpp: BuildNavIndexVisitor::apply", "VecGeom/navigation/NavStateIndex.h: HasSamePathAsOther, GetNavIndex"]}
{"id": "C04", "title": "Cached global matrices never change the answer", "statement": "The global transformation reported by an index navigation state equals the product, from the daughter of the world downwards, of the placement transformations on the path, whatever caching depth was used when the table was built, and is the same as the one reported by a path navigation state.", "quantifier": "all geometry trees, all paths, all caching depths, all transformations", "why_tests_cant": "the result is assembled either from a table record or by walking up to the nearest cached ancestor; equivalence must hold for each combination of path length and cache depth", "anchors": ["VecGeom/navigation/NavStateIndex.h: TopMatrixImpl", "source/NavIndexTable.cpp: BuildNavIndexVisitor::apply"]}
{"id": "C05", "title": "Saving and restoring an index state by child numbers is lossless", "statement": "Writing the list of child numbers of an index navigation state and resetting a state from that list gives back the same state; resetting from any valid list and writing again gives back that list.", "quantifier": "all geometry trees, all states, all valid child-number lists", "why_tests_cant": "round-trip over unboundedly many paths", "anchors": ["source/NavStateIndex.cpp: GetPathAsListOfIndices, ResetPathFromListOfIndices"]}
{"id": "C06", "title": "Path navigation state behaves as a stack of placements", "statement": "Push, Pop, Clear, Top, At, GetLevel, IsOutside and CopyTo on the path-based navigation state behave as on an abstract stack of placements, for every sequence of operations that respects the declared maximum depth; entries above the current top never influence the observable result except through the documented last-exited query.", "quantifier": "all operation sequences within the declared maximum depth", "why_tests_cant": "Pop leaves old entries behind, so wrong results would appear only after particular histories", "anchors": ["VecGeom/navigation/NavStatePath.h: Push, Pop, Clear, Top, At, GetLevel, IsOutside, CopyTo, HasSamePathAsOther"]}
{"id": "C07", "title": "Saving and restoring a path state by child numbers is lossless", "statement": "Writing the list of child numbers of a path navigation state and resetting a state from this list gives a state with the same path, for every geometry in which each placement carries its own position among its siblings.", "quantifier": "all geometry trees, all paths", "why_tests_cant": "round-trip over unboundedly many paths", "anchors": ["source/NavStatePath.cpp: GetPathAsListOfIndices, ResetPathFromListOfIndices", "VecGeom/volumes/LogicalVolume.h: PlaceDaughter"]}
{"id": "C08", "title": "Distance between two navigation states counts boundary crossings", "statement": "The distance between two non-outside states is the number of placements that have to be left and entered to go from one to the other: the sum of the two path lengths minus twice the length of the common prefix. It is zero exactly for equal paths, symmetric and satisfies the triangle inequality.", "quantifier": "all pairs (and triples) of paths", "why_tests_cant": "metric laws quantify over all triples of paths", "anchors": ["VecGeom/navigation/NavStatePath.h: Distance", "source/NavStateIndex.cpp: Distance"]}
{"id": "C09", "title": "Local coordinates do not depend on which query is used", "statement": "For a path state, converting a global point with GlobalToLocal and converting it with the transformation reported by TopMatrix give the same local point.", "quantifier": "all paths, all rigid placements, all points", "why_tests_cant": "needs algebra over all transformations and all depths", "anchors": ["VecGeom/navigation/NavStatePath.h: TopMatrix", "source/NavStatePath.cpp: GlobalToLocal"]}
{"id": "C10", "title": "Bit set: set and test are exact", "statement": "SetBitNumber(i,v) makes TestBitNumber(i) return v, leaves every other already valid bit unchanged, and reports false without touching anything exactly when i lies beyond the allocated bytes.", "quantifier": "all bit sets, all bit positions, both values", "why_tests_cant": "bit arithmetic has position-dependent corner cases at byte edges and at the logical end", "anchors": ["VecGeom/base/BitSet.h: SetBitNumber, TestBitNumber, operator[]"]}
{"id": "C11", "title": "Bit set: counting is exact", "statement": "CountBits(start) returns the number of set bits at positions start and above.", "quantifier": "all bit sets, all start positions", "why_tests_cant": "table look-ups and partial byte handling depend on the start position modulo 8", "anchors": ["VecGeom/base/BitSet.h: CountBits"]}
{"id": "C12", "title": "Bit set: first and last searches return the extremal position", "statement": "FirstSetBit(s)/FirstNullBit(s) return the least position at or above s whose bit is set/clear (and the logical size when there is none); LastSetBit(s)/LastNullBit(s) return the greatest such position at or below s.", "quantifier": "all bit sets, all start positions", "why_tests_cant": "four 256-entry tables and three code paths; errors show for single byte patterns only", "anchors": ["VecGeom/base/BitSet.h: FirstSetBit, FirstNullBit, LastSetBit, LastNullBit"]}
{"id": "C13", "title": "Bit set: and, or, xor and shifts act bitwise", "statement": "On the stored bits (the allocated bytes, of which the logical size is a prefix) the and/or/xor operators produce, position by position, the logical operation on the operands, with missing right-hand bits counting as zero; left and right shift move each stored bit by the given amount, filling with zeros. On the visible bits the same holds whenever no bit is stored past the logical size.", "quantifier": "all bit sets, all shift amounts", "why_tests_cant": "shifts combine byte moves and intra-byte moves; the cases depend on amount and length", "anchors": ["VecGeom/base/BitSet.h: DoAndEqual, DoOrEqual, DoXorEqual, DoLeftShift, DoRightShift"]}
{"id": "C14", "title": "Bit set: equality is equality of contents", "statement": "Two bit sets compare equal exactly when they have the same bits at all positions, bits past the end of the shorter counting as zero; the comparison is an equivalence relation.", "quantifier": "all pairs of bit sets", "why_tests_cant": "quantifies over all pairs", "anchors": ["VecGeom/base/BitSet.h: operator=="]}
{"id": "C15", "title": "Bit set: resetting sets every bit to the requested value", "statement": "ResetAllBits(v) makes every valid bit read v; Clear makes every bit read 0.", "quantifier": "all bit sets", "why_tests_cant": "must hold for each position of each size", "anchors": ["VecGeom/base/BitSet.h: ResetAllBits, Clear"]}
{"id": "C16", "title": "Dynamic array behaves as a list", "statement": "Every sequence of push_back, element writes, clear, resize, reserve and erase on the dynamic array leaves it with the contents, size and order of the same operations on an abstract list, without accessing memory outside the owned buffer; copy construction gives an equal list and assignment replaces the contents.", "quantifier": "all operation sequences, all element types with value semantics", "why_tests_cant": "memory safety and content equality must hold for all histories including the regrow points", "anchors": ["VecGeom/base/Vector.h: VectorBase"]}
{"id": "C17", "title": "Voxel keys and cells correspond one to one", "statement": "Within a voxel grid, cell coordinates to key and key to cell coordinates are inverse to each other, distinct cells get distinct keys and every key in range belongs to a cell.", "quantifier": "all grid sizes, all cells, all keys", "why_tests_cant": "bijection over unboundedly many grids", "anchors": ["VecGeom/base/FlatVoxelHashMap.h: getKeyFromCells, keyToCell"]}
{"id": "C18", "title": "A point is assigned to the voxel that contains it", "statement": "For each point inside the voxelised region the voxel chosen for the point has an extent that contains the point; different voxels have non overlapping interiors; the position reported for a voxel lies inside that voxel.", "quantifier": "all points in the region, all grids", "why_tests_cant": "quantifies over a continuum of points", "anchors": ["VecGeom/base/FlatVoxelHashMap.h: getVoxelKey, getVoxelCoordinates, Extent, keyToPos"]}
{"id": "C19", "title": "Voxel map returns precisely what was stored", "statement": "After any sequence of insertions in which equal keys are inserted consecutively, looking up a key returns exactly the properties inserted for that key, in order, with the right count, and a key is reported occupied exactly if something was inserted for it; this also holds for sequences that follow a clear.", "quantifier": "all insertion sequences, all keys, any number of clears", "why_tests_cant": "depends on the entire history of insertions", "anchors": ["VecGeom/base/FlatVoxelHashMap.h: addPropertyForKey, getPropertiesImpl, isOccupied, clear"]}
{"id": "C20", "title": "Geometry visitors see each placement path exactly once", "statement": "Visiting all placed volumes calls the visitor once for each placement path reachable from the world, parents before children, with the correct depth; the total node count equals the number of such paths, the maximum depth equals the length of the longest path, and collecting paths for a logical volume finds exactly the paths ending in it.", "quantifier": "all geometry trees", "why_tests_cant": "counts and completeness for trees of arbitrary shape", "anchors": ["VecGeom/management/GeoManager.h: visitAllPlacedVolumes, GetTotalNodeCountVisitor, GetMaxDepthVisitor, getAllPathForLogicalVolume", "source/GeoManager.cpp: visitAllPlacedVolumes"]}
{"id": "C21", "title": "Volume registry lookups agree with what was registered", "statement": "After any sequence of registrations and deregistrations the registry finds a volume by its id exactly if it is registered, and looking up by label returns a registered volume with this label if one exists.", "quantifier": "all histories of register/deregister", "why_tests_cant": "history property", "anchors": ["source/GeoManager.cpp: RegisterLogicalVolume, RegisterPlacedVolume, DeregisterLogicalVolume, DeregisterPlacedVolume, FindLogicalVolume, FindPlacedVolume"]}
{"id": "C22", "title": "Closing the geometry keeps every placement reachable at its id", "statement": "Memory compaction at geometry close stores each placed volume in the contiguous buffer at the slot given by its id, inside the buffer, and no two volumes share a slot.", "quantifier": "all registration histories before closing", "why_tests_cant": "depends on which ids are live when the geometry is closed", "anchors": ["source/GeoManager.cpp: CompactifyMemory, CloseGeometry"]}
{"id": "C23", "title": "Transforming to local and back is the identity", "statement": "For each transformation with an orthonormal rotation part, InverseTransform(Transform(p)) = p and Transform(InverseTransform(q)) = q, likewise for directions; directions keep their length.", "quantifier": "all orthonormal transformations, all points and directions", "why_tests_cant": "algebraic law over a continuum", "anchors": ["VecGeom/base/Transformation3D.h: Transform, InverseTransform, TransformDirection, InverseTransformDirection"]}
{"id": "C24", "title": "Composition of placements", "statement": "For transformations whose stored flags agree with their entries, and a rigid A, the product A*B converts coordinates as converting first with A and then with B; composition is associative and the identity is neutral.", "quantifier": "all transformations with consistent flags, all points", "why_tests_cant": "algebraic law over a continuum, with flag-dependent shortcuts", "anchors": ["VecGeom/base/Transformation3D.h: MultiplyFromRight, operator*, operator*="]}
{"id": "C25", "title": "Inverse transformation undoes the transformation", "statement": "For a nonsingular transformation, Inverse produces a transformation whose InverseTransform undoes the original InverseTransform on both sides; for an orthonormal rotation, Transform of the inverse undoes Transform.", "quantifier": "all nonsingular transformations, all points", "why_tests_cant": "algebraic law over a continuum", "anchors": ["VecGeom/base/Transformation3D.h: Inverse, Determinant"]}
{"id": "C26", "title": "Specialised rotation kernels agree with the generic one", "statement": "For each rotation code, the specialised coordinate rotation gives the same result as the generic rotation for every matrix with the zero pattern (and unit entries) that leads to this code.", "quantifier": "all rotation codes, all matrices with the matching pattern, all points", "why_tests_cant": "one code path per zero pattern; equality must hold for all entries", "anchors": ["VecGeom/base/Transformation3D.h: DoRotation", "source/Transformation3D.cpp: GenerateRotationCode"]}
{"id": "C27", "title": "Rotation from angles is a proper rotation", "statement": "The matrix set from three Euler angles is orthonormal with determinant one, for every choice of angles.", "quantifier": "all real angle triples", "why_tests_cant": "continuum", "anchors": ["source/Transformation3D.cpp: SetRotation(phi, theta, psi)"]}
{"id": "C28", "title": "Placed bounding box contains the placed shape", "statement": "The aligned box computed for a placed volume contains, with the stated margin on each side, the image of every point of the extent of the unplaced shape.", "quantifier": "all extents, all affine placements, all points of the extent", "why_tests_cant": "the box is derived from eight corners only; containment of the full continuum needs a proof", "anchors": ["source/ABBoxManager.cpp: ComputeABBox", "source/PlacedVolume.cpp: Extent", "source/UnplacedBooleanVolume.cpp: TransformedExtent"]}
{"id": "C29", "title": "Sliced bounding boxes cover the shape", "statement": "The slices computed for a placed volume together contain the image of every point of the extent.", "quantifier": "all extents, placements, slice counts", "why_tests_cant": "cover of a continuum for every slice count", "anchors": ["source/ABBoxManager.cpp: ComputeSplittedABBox"]}
{"id": "C30", "title": "Ray against aligned box never misses a hit", "statement": "If a ray reaches the (margin-reduced) box at a distance below the step, then the box intersection test accepts; if the test accepts, the ray used by the test meets the (slightly stretched) box.", "quantifier": "all boxes, points, directions (also with zero components), steps", "why_tests_cant": "continuum with special cases for zero direction components", "anchors": ["VecGeom/base/AABB.h: ComputeIntersectionInvDir, IntersectInvDir, Intersect"]}
{"id": "C31", "title": "Box safety is a lower bound of the distance", "statement": "The safety of a point with respect to an aligned box never exceeds the Euclidean distance from the point to any point of the box; it is not positive exactly if the point is in the box.", "quantifier": "all boxes and points", "why_tests_cant": "continuum", "anchors": ["VecGeom/base/AABB.h: Safety", "VecGeom/volumes/kernel/BoxImplementation.h: ABBoxSafetySqr"]}
{"id": "C32", "title": "Bounding volume hierarchy holds each daughter in exactly one leaf", "statement": "For every set of daughters, tree depth and split heuristic that only permutes the daughters and chooses a cut, each daughter index occurs in exactly one leaf, the box of every visited node contains the boxes of all daughters below it, and the internal/leaf marking is such that a traversal from the root reaches all leaves.", "quantifier": "all nonempty daughter lists, all depths, all split heuristics", "why_tests_cant": "partition property for arbitrary inputs and heuristics", "anchors": ["source/BVH.cpp: BVH::BVH, ComputeNodes, splitAlongLongestAxis, largestDistanceAlongAxis, surfaceAreaHeuristic"]}
{"id": "C33", "title": "Accelerated hit search equals exhaustive search", "statement": "Searching for the next daughter along a ray with the bounding volume hierarchy gives the same step, and a daughter at this step, as testing all daughters one after the other, if each daughter lies in its box.", "quantifier": "all daughter sets, all rays, all step limits, all last-exited volumes", "why_tests_cant": "pruning must not lose the nearest daughter for any configuration", "anchors": ["VecGeom/base/BVH.h: CheckDaughterIntersections", "VecGeom/navigation/BVHNavigator.h: CheckDaughterIntersections", "VecGeom/navigation/NewSimpleNavigator.h: CheckDaughterIntersections"]}
{"id": "C34", "title": "Accelerated safety equals exhaustive safety", "statement": "The safety computed with the bounding volume hierarchy equals the minimum of the initial safety and the safeties to all daughters, if each daughter's safety is at least the safety to its box.", "quantifier": "all daughter sets, all points", "why_tests_cant": "pruning must not lose the closest daughter", "anchors": ["VecGeom/base/BVH.h: ComputeSafety"]}
{"id": "C35", "title": "Accelerated point location finds a daughter iff one contains the point", "statement": "Level location with the bounding volume hierarchy succeeds exactly if some non-excluded daughter contains the point, and the returned daughter contains the point and the returned local point is the point in the frame of this daughter.", "quantifier": "all daughter sets, all points, all excluded volumes", "why_tests_cant": "pruning must not lose a containing daughter", "anchors": ["VecGeom/base/BVH.h: LevelLocate"]}
{"id": "C36", "title": "Traversals of the hierarchy terminate within their fixed stack", "statement": "No traversal of a hierarchy ever needs more stack entries than the fixed stack provides, takes more steps than the tree has nodes, or reads outside the arrays.", "quantifier": "all hierarchies of admissible depth, all queries", "why_tests_cant": "stack growth depends on the query and tree", "anchors": ["VecGeom/base/BVH.h: CheckDaughterIntersections, ComputeSafety, LevelLocate", "source/BVH.cpp: ApproachNextDaughter"]}
{"id": "C37", "title": "Hybrid clusters partition the daughters", "statement": "The clusters of the hybrid acceleration structure contain every daughter exactly once and no cluster has more members than there are vector lanes.", "quantifier": "all daughter sets, all vector widths", "why_tests_cant": "greedy clustering on real data; partition for every input", "anchors": ["source/HybridManager2.cpp: InitClustersWithKMeans, BuildStructure"]}
{"id": "C38", "title": "Hybrid candidate lists are complete", "statement": "Every daughter whose box contains the query point occurs in the candidate list of the hybrid structure, and only such daughters occur.", "quantifier": "all daughter boxes, all points, all vector widths", "why_tests_cant": "two-level lane packing with padding; must not lose a daughter at any remainder", "anchors": ["VecGeom/navigation/HybridNavigator2.h: GetContainingCandidates_v", "source/HybridManager2.cpp: BuildStructure"]}
{"id": "C39", "title": "Sorted early-exit hit search equals exhaustive search", "statement": "Processing hit boxes in order of box distance and stopping at the first box farther than the current step gives the same step as testing all daughters.", "quantifier": "all candidate lists, all distances consistent with the boxes", "why_tests_cant": "early exit must be sound for every order", "anchors": ["VecGeom/navigation/HybridNavigator2.h: BVHSortedIntersectionsLooper, insertionsort, CheckDaughterIntersections"]}
{"id": "C40", "title": "Locating a point descends to the deepest containing placement", "statement": "Locating a global point returns a path of placements each of which contains the point in its parent frame, and the last volume on the path has no daughter containing the point.", "quantifier": "all geometry trees, all points", "why_tests_cant": "recursion over trees of arbitrary depth", "anchors": ["VecGeom/navigation/GlobalLocator.h: LocateGlobalPoint", "VecGeom/navigation/SimpleLevelLocator.h: LevelLocateKernel"]}
{"id": "C41", "title": "Relocation from a stale path agrees with locating from the top", "statement": "For a geometry in which daughters lie within their mother and do not overlap, relocating a point starting from any stale path gives the same path as locating this point from the world.", "quantifier": "all geometry trees satisfying containment, all points, all stale paths", "why_tests_cant": "all combinations of old and new position", "anchors": ["VecGeom/navigation/GlobalLocator.h: RelocatePointFromPath, HasSamePath"]}
{"id": "C42", "title": "A navigation step never exceeds the step limit and reports boundaries correctly", "statement": "The step returned by the navigator lies between zero and the step limit; the outgoing state is marked on-boundary exactly if the geometry limited the step; a physics limited step leaves the path unchanged.", "quantifier": "all geometric distances, all step limits, all states", "why_tests_cant": "decision logic over all real inputs", "anchors": ["VecGeom/navigation/VNavigator.h: PrepareOutState, ComputeStepAndPropagatedState, TreatDistanceToMother"]}
{"id": "C43", "title": "Box: distances, safeties and membership are mutually consistent", "statement": "For a box: a point classified inside is contained; the distance to enter is the parameter at which the ray first meets the box; the distance to leave is where it last is in the box; safeties are lower bounds of the Euclidean distance to the surface.", "quantifier": "all box sizes, points, directions", "why_tests_cant": "continuum including edges and axis-parallel rays", "anchors": ["VecGeom/volumes/kernel/BoxImplementation.h: Contains, Inside, DistanceToIn, DistanceToOut, SafetyToIn, SafetyToOut"]}
{"id": "C44", "title": "Sphere: distances, safeties and membership are mutually consistent", "statement": "For an orb: the distance to enter brings an outside point onto the sphere and no earlier point of the ray is inside; the distance to leave brings an inside point onto the sphere and all earlier points are inside; safeties are exact outside the tolerance band.", "quantifier": "all radii, points, unit directions", "why_tests_cant": "continuum", "anchors": ["VecGeom/volumes/kernel/OrbImplementation.h"]}
{"id": "C45", "title": "Boolean solids: membership follows set algebra", "statement": "A point is contained in the union, intersection or difference of two placed volumes exactly if it is contained in one, both, or the first but not the second; the three-way Inside classification agrees with the classification of the constituents away from common surfaces.", "quantifier": "all constituent solids, all placements, all points", "why_tests_cant": "must hold for each pair of constituents", "anchors": ["VecGeom/volumes/kernel/BooleanImplementation.h", "VecGeom/volumes/kernel/BooleanUnionImplementation.h", "VecGeom/volumes/kernel/BooleanIntersectionImplementation.h"]}
{"id": "C46", "title": "Boolean solids: the extent contains the solid", "statement": "The extent reported for a union, intersection or difference contains every contained point, if the extents of the constituents do.", "quantifier": "all constituents, all placements", "why_tests_cant": "continuum", "anchors": ["source/UnplacedBooleanVolume.cpp: Extent, TransformedExtent"]}
{"id": "C47", "title": "Boolean solids: safeties are safe", "statement": "The safeties reported by union, intersection and difference never exceed the true distance to the surface of the solid, if those of the constituents do not.", "quantifier": "all constituents, all points", "why_tests_cant": "case analysis over positions relative to both constituents", "anchors": ["VecGeom/volumes/kernel/Boolean*Implementation.h: SafetyToIn, SafetyToOut"]}
{"id": "C48", "title": "Flattening a boolean tree keeps the solid", "statement": "Flattening a tree of boolean volumes into multi-unions changes neither the set of contained points nor the transformations with which constituents are placed, for every tree and threshold.", "quantifier": "all boolean trees, all thresholds, all points", "why_tests_cant": "structural recursion over arbitrary trees with in-place mutation", "anchors": ["source/UnplacedBooleanVolume.cpp: BooleanHelper::Flatten, CountBooleanNodes"]}
{"id": "C49", "title": "Scaled shapes: membership and distances scale correctly", "statement": "Scaling a shape maps its contained set by the scale; the distance to enter or leave measured in the scaled frame is the distance of the unscaled shape converted along the ray; safeties remain lower bounds; also for reflections.", "quantifier": "all nonzero scales, points, directions, underlying shapes", "why_tests_cant": "continuum", "anchors": ["VecGeom/base/Scale3D.h", "VecGeom/volumes/kernel/ScaledShapeImplementation.h"]}
{"id": "C50", "title": "Tetrahedron: half-space kernel is exact", "statement": "The tetrahedron built from four corners: a point is contained if it is in the convex hull of the corners, and only if it is at most half the tolerance above every face plane; points classed outside are farther than half the tolerance, points classed inside deeper; the distance to enter or leave is the first or last parameter of the ray in the solid; the safeties never exceed the distance to the surface.", "quantifier": "all corners not in a plane (kernels: all lists of planes), all points, all directions", "why_tests_cant": "continuum", "anchors": ["VecGeom/volumes/TetStruct.h: CalculateCached", "VecGeom/volumes/kernel/TetImplementation.h: Contains, Inside, DistanceToIn, DistanceToOut, SafetyToIn, SafetyToOut"]}
{"id": "C51", "title": "The relative path between two states leads from one to the other", "statement": "Following the pieces of the relative path of two path navigation states (levels up, then a sideways move by a difference of placement numbers, then placement numbers down) from the first state leads to the second one.", "quantifier": "all pairs of paths (inside or outside), all placements identified by their numbers", "why_tests_cant": "the string is assembled in four different cases depending on where the two paths split; it must be right for every pair of paths", "anchors": ["source/NavStatePath.cpp: NavStatePath::RelativePath"]}
{"id": "C52", "title": "Bit set: exchanging contents with arrays of integers", "statement": "Set(nbits, array) either reports false and changes nothing (exactly when the rounded-up words do not fit) or makes the logical size nbits and the bits equal to those of the array; Get of the same word type afterwards returns the same bits and leaves the rest of the target array alone.", "quantifier": "all bit sets, all bit counts, all array contents, word sizes 1, 2, 4 and 8 bytes", "why_tests_cant": "array contents, sizes and word widths are unbounded; tail bytes inside the last word are easy to get wrong", "anchors": ["VecGeom/base/BitSet.h: BitSet::Set, BitSet::Get"]}
{"id": "C53", "title": "Bit set: copies show the same bits", "statement": "Copying, assigning to a set with at least as much storage, and making a compact copy all give a set whose TestBitNumber answers agree with the original at every position.", "quantifier": "all bit sets and all positions", "why_tests_cant": "depends on the relative sizes of source and target and on where the last set bit lies", "anchors": ["VecGeom/base/BitSet.h: BitSet::operator=, BitSet::MakeCompactCopy, BitSet(size_t, const BitSet&)", "VecGeom/base/VariableSizeObj.h: operator=, MakeCopy"]}
{"id": "C54", "title": "Marking bounding boxes in the voxel map is complete and exact", "statement": "After filling a voxel map from the bounding boxes of the daughters of a volume, every point of the voxelised region that lies in the box of a daughter finds this daughter among the properties of its voxel and sees the voxel as occupied; no daughter is listed twice for a voxel, and (for boxes reaching into the region) a voxel lists only boxes that meet it.", "quantifier": "all grids, all lists of boxes, all points, all orders an unstable sort may choose", "why_tests_cant": "continuum of points and boxes, and an unspecified sort order", "anchors": ["VecGeom/base/FlatVoxelHashMap.h: markFromBoundingBoxes"]}
{"id": "C55", "title": "Parallel construction of voxel candidate lists does not depend on the schedule", "statement": "When the candidate lists of the voxels are built by several concurrent tasks, each voxel is handled by exactly one task, no task leaves the range of voxels, and for every interleaving of the tasks and every number of tasks each voxel ends up with precisely the boxes intersecting it, in increasing order.", "quantifier": "all numbers of tasks and keys, all interleavings", "why_tests_cant": "all schedules", "anchors": ["source/FlatVoxelManager.cpp: BuildLocateVoxels, BuildSafetyVoxels"]}
{"id": "C56", "title": "Voxel based point location agrees with exhaustive search", "statement": "For every point inside the extent of the mother volume the voxel based locator returns the first daughter in placement order (other than the excluded one) that contains the point, and reports none exactly if there is none, given that the daughters lie inside their bounding boxes.", "quantifier": "all daughters, boxes, points, excluded volumes, construction schedules", "why_tests_cant": "continuum of points; depends on the whole construction history", "anchors": ["VecGeom/navigation/VoxelLevelLocator.h: LevelLocateKernel", "source/FlatVoxelManager.cpp: BuildLocateVoxels"]}
{"id": "C57", "title": "Volume and index conversions of the geometry manager are inverse", "statement": "After closing the geometry, converting the id of a registered placed volume gives that volume without changing the manager, and converting the volume back gives its id.", "quantifier": "all histories of geometry construction ended by closing, all registered volumes", "why_tests_cant": "depends on the order of index map creation and memory compaction and on all registered ids", "anchors": ["VecGeom/management/GeoManager.h: Convert", "source/GeoManager.cpp: CloseGeometry, CompactifyMemory"]}
{"id": "C58", "title": "Cached bounding box follows the shape", "statement": "After any sequence of constructions and parameter changes the bounding box stored with an unplaced box or orb equals the extent of the current shape.", "quantifier": "all histories of setter calls", "why_tests_cant": "all histories; a stale cache only shows in an accelerated query", "anchors": ["VecGeom/volumes/UnplacedVolume.h: ComputeBBox, GetBBox", "VecGeom/volumes/UnplacedBox.h: SetX, SetY, SetZ", "source/UnplacedOrb.cpp: SetRadius"]}
{"id": "C59", "title": "Capacity is the volume of the point set", "statement": "The capacity reported for a box, an orb, a tetrahedron, a parallelepiped or a trapezoid with rectangular bases is the Lebesgue measure of its set of points.", "quantifier": "all dimensions, all corners", "why_tests_cant": "measure of a continuum", "anchors": ["VecGeom/volumes/UnplacedBox.h: Capacity", "source/UnplacedOrb.cpp: UnplacedOrb", "VecGeom/volumes/TetStruct.h: CalcCapacity", "VecGeom/volumes/UnplacedParallelepiped.h: Capacity", "source/UnplacedTrd.cpp: Capacity"]}
{"id": "C60", "title": "Box-list safety estimators are lower bounds", "statement": "The safety returned by the hybrid and by the flat bounding-box safety estimators never exceeds the mother's safety to its own boundary nor the distance from the point to any point of any daughter, and it is always one of the safeties reported by the solids.", "quantifier": "all daughter sets of at most 2000 daughters, all vector widths, all points in range, all solid safeties that are themselves lower bounds", "why_tests_cant": "lower bound over a continuum of points and over all arrangements; padding lanes and shrinking limits", "anchors": ["VecGeom/navigation/HybridSafetyEstimator.h: TreatSafetyToIn, ComputeSafetyForLocalPoint, GetSafetyCandidates_v", "VecGeom/navigation/SimpleABBoxSafetyEstimator.h: TreatSafetyToIn, GetSafetyCandidates_v"]}
{"id": "C61", "title": "Bounding-box level locator agrees with a linear search", "statement": "The level locator working on the flat list of bounding boxes returns the first daughter, in storage order, that is not the excluded volume and contains the point, and reports no daughter exactly if there is none.", "quantifier": "all daughter sets, all vector widths, all points, all exclusions", "why_tests_cant": "lane packing and padding must not lose or invent a daughter for any remainder", "anchors": ["VecGeom/navigation/SimpleABBoxLevelLocator.h: LevelLocate", "source/ABBoxManager.cpp: InitABBoxes"]}
{"id": "C62", "title": "The default safety is the smallest of all safeties and is safe", "statement": "The default safety estimator returns the smallest of the mother's safety to its own boundary and the safeties to all daughters; if these are safe, every point closer than the returned value lies in the mother and in none of its daughters.", "quantifier": "all lists of daughters, all safeties, all points", "why_tests_cant": "statement about every point of a ball and every list of daughters", "anchors": ["VecGeom/navigation/SimpleSafetyEstimator.h: ComputeSafetyForLocalPoint, ComputeSafetyToDaughtersForLocalPoint"]}
{"id": "C63", "title": "Boolean solids: distances do not jump over the boundary", "statement": "The distance to enter a union, intersection or difference does not pass over points of the solid (up to slivers of a few tolerances for the intersection and the difference), and all points before the distance to leave belong to the solid (up to the push of the kernel for the union), if the distances of the constituents have these properties.", "quantifier": "all constituents given by their regions, all placements, all points, directions and step limits, any number of rounds of the loops", "why_tests_cant": "loops over an unknown number of crossings of arbitrary constituents; statement about every point on a ray", "anchors": ["VecGeom/volumes/kernel/BooleanUnionImplementation.h: DistanceToIn, DistanceToOut", "VecGeom/volumes/kernel/BooleanIntersectionImplementation.h: DistanceToIn, DistanceToOut", "VecGeom/volumes/kernel/BooleanImplementation.h: DistanceToIn, DistanceToOut"]}
{"id": "C64", "title": "Tetrahedron: normals, extent, sampling, mesh", "statement": "A normal reported as valid is a unit vector, near one face it is that of the face; the extent and the bounding box contain the solid and touch a corner on each side; every sampled point lies on one of the four faces whatever the random numbers are; the mesh is closed and its faces are oriented outwards; the surface area is the sum of the areas of the faces.", "quantifier": "all corners, all points, all outcomes of the random generator, all transformations of the mesh", "why_tests_cant": "continuum of corners, points and random numbers; edges and sharp angles are hit with probability zero", "anchors": ["VecGeom/volumes/kernel/TetImplementation.h: NormalKernel", "source/UnplacedTet.cpp: Extent, SamplePointOnSurface, CreateMesh3D", "VecGeom/volumes/UnplacedTet.h: UnplacedTet"]}
{"id": "C65", "title": "Normals of boolean solids", "statement": "The normal of a boolean solid is at every point the normal of one of its constituents, reversed for the subtracted one and turned into the frame of the boolean solid; it is a unit vector if those of all leaves are; at a point of the surface it belongs to the constituent whose surface the point is on and points out of the boolean solid.", "quantifier": "all trees of boolean operations of any depth, all rigid placements, all points", "why_tests_cant": "arbitrary constituents, placements and nesting; the wrong constituent is chosen only in particular geometric situations", "anchors": ["VecGeom/volumes/kernel/BooleanUnionImplementation.h: NormalKernel", "VecGeom/volumes/kernel/BooleanIntersectionImplementation.h: NormalKernel", "VecGeom/volumes/kernel/BooleanImplementation.h: NormalKernel"]}
{"id": "C66", "title": "Parallelepiped: membership, safeties and distances", "statement": "After any sequence of changes of the parameters, the parallelepiped contains exactly the points of the figure described by half lengths and angles; points are never classified inside or outside on the wrong side; safeties are the largest safe values up to the tolerance and never larger than the true distance to the boundary; distances end on the boundary, nothing of the solid is passed over when entering and nothing outside when leaving, rays that reach the inside are not missed.", "quantifier": "all half lengths and angles, all histories of setters, all points, all directions", "why_tests_cant": "continuum of shapes, points and directions; every point of a ball or a ray", "anchors": ["VecGeom/volumes/kernel/ParallelepipedImplementation.h: Contains, Inside, SafetyToIn, SafetyToOut, DistanceToIn, DistanceToOut", "VecGeom/volumes/ParallelepipedStruct.h: SetAlpha, SetThetaAndPhi, ComputeNormals", "VecGeom/volumes/UnplacedParallelepiped.h: SetDimensions, SetAlpha, SetTheta, SetPhi"]}
{"id": "C67", "title": "Parallelepiped: caches, normals, extent, sampling, mesh", "statement": "Cached normals and areas belong to the current parameters after any change; the normal reported as valid is an outward unit normal at a point of the surface; extent and bounding box contain the solid and are tight; every sampled point lies on the surface whatever the random numbers are; the mesh has the corners of the solid.", "quantifier": "all half lengths and angles, all histories of setters, all points, all outcomes of the random generator", "why_tests_cant": "continuum of parameters and points; caches are wrong only after particular sequences of calls", "anchors": ["VecGeom/volumes/ParallelepipedStruct.h: ComputeNormals", "VecGeom/volumes/kernel/ParallelepipedImplementation.h: NormalKernel", "source/UnplacedParallelepiped.cpp: Extent, SamplePointOnSurface, CreateMesh3D", "VecGeom/volumes/UnplacedParallelepiped.h: SurfaceArea, SetDimensions, SetAlpha, SetTheta, SetPhi"]}
{"id": "C68", "title": "Trapezoid with rectangular bases: membership and safeties", "statement": "After any sequence of changes of the half lengths, the trapezoid contains exactly the points of the figure between its two rectangular bases; points are never classified inside or outside on the wrong side, and points further from the surface than the tolerance are never classified as surface; safeties are never larger than the true distance to the boundary, and their sign tells on which side the point is.", "quantifier": "all half lengths, both specialisations (fixed and varying y), all histories of setters, all points", "why_tests_cant": "continuum of shapes and points; every point of a ball; wrong values show only after particular sequences of calls", "anchors": ["VecGeom/volumes/kernel/TrdImplementation.h: Contains, Inside, SafetyToIn, SafetyToOut", "VecGeom/volumes/TrdStruct.h: CalculateCached", "VecGeom/volumes/UnplacedTrd.h: SetAllParameters, SetXHalfLength1, SetYHalfLength1"]}
{"id": "C69", "title": "Trapezoid with rectangular bases: distances", "statement": "The distance to enter ends on the boundary up to the tolerance, no point of the solid is passed over, rays that reach the inside are not missed, and points of the solid are reported; the distance to leave ends on the boundary, everything before it is in the solid and everything after it outside; distances are never negative except as the documented answer for points on the wrong side.", "quantifier": "all half lengths, both specialisations, all points, all directions", "why_tests_cant": "continuum of shapes, points and directions; the exceptional rays through edges are a set that random tests do not hit", "anchors": ["VecGeom/volumes/kernel/TrdImplementation.h: DistanceToIn, DistanceToOut", "VecGeom/volumes/kernel/TrdImplementation.h: TrdUtilities::FaceTrajectoryIntersection"]}
{"id": "C70", "title": "Trapezoid with rectangular bases: caches, normals, areas, sampling, extent, mesh, factory", "statement": "Cached values belong to the half lengths last set; the normal is valid exactly near the plane of a face, is the outward unit normal of the nearest face, and at edges a combination of outward normals; the reported area is that of the surface; every sampled point is on the surface and every triangle is chosen according to its area; the extent is tight; the mesh is closed and oriented outward; the factory makes a solid of the requested size.", "quantifier": "all half lengths, all histories of setters, all points, all outcomes of the random generator", "why_tests_cant": "continuum of parameters and points; caches are wrong only after particular sequences of calls", "anchors": ["VecGeom/volumes/kernel/TrdImplementation.h: NormalKernel", "source/UnplacedTrd.cpp: SurfaceArea, Capacity, SamplePointOnSurface, ChooseSurface, GetPointOnTriangle, Extent, CreateMesh3D, Make", "VecGeom/volumes/UnplacedTrd.h: SetAllParameters"]}
{"id": "C71", "title": "Container of vectors as structure of arrays behaves like a list", "statement": "Any program that respects the documented bounds and uses containers of type SOA3D (constructed empty, with a size, or over arrays of the program; copied, assigned, resized, reserved, cleared, written, appended to, read, destroyed in any order) runs without undefined behaviour; a container with own memory shows exactly the elements written to it, whatever is done to other containers; a container over arrays shows and changes exactly these arrays; sizes and capacities are as asked for; no memory is left over or freed twice.", "quantifier": "all programs (sequences of operations of any length on any number of containers), all element types, all arrays of the program", "why_tests_cant": "aliasing and freed memory show only after particular sequences of copies, assignments and destructions", "anchors": ["VecGeom/base/SOA3D.h: SOA3D, operator=, resize, reserve, clear, Allocate, Deallocate, operator[], set, push_back"]}
{"id": "C72", "title": "Container of vectors as array of structures behaves like a list", "statement": "As C71, for containers of type AOS3D.", "quantifier": "all programs (sequences of operations of any length on any number of containers), all element types, all arrays of the program", "why_tests_cant": "aliasing and freed memory show only after particular sequences of copies, assignments and destructions", "anchors": ["VecGeom/base/AOS3D.h: AOS3D, operator=, resize, reserve, clear, Deallocate, operator[], set, push_back"]}
{"id": "C73", "title": "Containers of vectors survive a file", "statement": "What SOA3D::ToFile has written, SOA3D::FromFile reads back: a container of the same capacity gets all three columns, and reports the number of elements; a container whose capacity does not fit is told so by a negative result.", "quantifier": "all contents, sizes and capacities of writer and reader", "why_tests_cant": "tests use one size; the layout of the file depends on the capacity", "anchors": ["VecGeom/base/SOA3D.h: ToFile, FromFile"]}
{"id": "C74", "title": "Hash map behaves like a partial function for every hash", "statement": "Any program that uses maps of type robin_hood::unordered_map (insert, operator[], erase, find, size, clear, reserve, iteration, erasing through iterators, comparison, copy and move construction and assignment, in any order, on any number of maps) either ends with an exception or runs without undefined behaviour and without endless loops, and every result is the one of a partial function from keys to values: a key is found iff it was inserted and not erased since, with the value last assigned; sizes count the keys; iteration lists every entry once; copies are independent.", "quantifier": "all hash functions, all key and value types, all programs (sequences of operations of any length)", "why_tests_cant": "the table depends on every collision in the history; the byte per slot overflows, the table wraps around and grows only for particular sets of hashes", "anchors": ["VecGeom/base/robin_hood.h: Table, insertKeyPrepareEmptySpot, insert_move, shiftUp, shiftDown, erase, find, rehashPowerOfTwo, try_increase_info, reserve, clear, operator=, operator=="]}
{"id": "C75", "title": "Hash map does not throw while it is small", "statement": "As long as no map has more than 126 entries at a time and no reservation asks for more than 2^56 entries, no operation of the hash map throws, however bad the hash function is (for example a constant one).", "quantifier": "all hash functions, all programs with at most 126 entries per map at a time", "why_tests_cant": "overflow of the distance counter needs an adversarial set of hashes at an unlucky table size", "anchors": ["VecGeom/base/robin_hood.h: increase_size, try_increase_info, throwOverflowError, reserve"]}
{"id": "C76", "title": "Phi sectors are exactly the points with an azimuth in range", "statement": "For every start angle and every opening in (0, 2 pi], the phi sector used by tubes, cones and polycones contains a point exactly if the azimuth of the point is in [start, start + opening] (the axis has every azimuth). The classification says surface exactly for points less than the tolerance above or below one of the two bounding half-planes and otherwise tells the sector from its complement. The safeties are lower bounds of the distance to every point of the other side and have the right sign, and the distances to the two planes are the parameters at which the ray crosses them in the right direction.", "quantifier": "all start angles, openings in (0, 2 pi], points, directions", "why_tests_cant": "the test by cross products changes from 'and' to 'or' at pi and wraps at multiples of 2 pi; a sample of angles cannot show that no combination of start, opening and azimuth is wrong", "anchors": ["VecGeom/volumes/Wedge_Evolution.h: Wedge::Contains, Inside, SafetyToIn, SafetyToOut, DistanceToIn, DistanceToOut", "VecGeom/volumes/Wedge.h: Wedge", "source/Wedge.cpp: Wedge::Wedge"]}
{"id": "C77", "title": "A point is in a tube exactly by its height, radius and azimuth", "statement": "For every inner and outer radius, half length, start angle and opening, and for whichever specialised tube type the factory picks, Contains answers true exactly if the height of the point is within the half length, its radius is above the inner and at most the outer radius and its azimuth is in the sector. Inside never calls a point of the tube outside nor a point outside the tube inside, calls every point of the surface surface, and calls surface only points within twice the tolerance of a bounding surface (radii above the tolerance).", "quantifier": "all tube parameters, all types the factory can pick, all points", "why_tests_cant": "the nine specialised types take different paths for the bore and for the sector, and they must all agree with the parameters at every point, including axis and seams", "anchors": ["VecGeom/volumes/kernel/TubeImplementation.h: Contains, Inside, GenericKernelForContainsAndInside", "source/UnplacedTube.cpp: Maker<UnplacedTube>::MakeInstance", "VecGeom/volumes/TubeStruct.h"]}
{"id": "C78", "title": "Tube safeties are lower bounds with the right sign", "statement": "For every tube and point, SafetyToIn is at most the distance to every point of the tube and at least the distance beyond each lid and wall (and, clear of the phi planes by half the tolerance, the depth behind them); SafetyToOut is at most the distance to every point outside, not negative in the tube, and at least the smallest of the distances to the bounding surfaces.", "quantifier": "all tube parameters, all types the factory can pick, all points", "why_tests_cant": "a safety that is too large lets a particle skip a boundary; one bad combination of sector, bore and point is enough and there are infinitely many", "anchors": ["VecGeom/volumes/kernel/TubeImplementation.h: SafetyToIn, SafetyToOut, PhiPlaneSafety"]}
{"id": "C79", "title": "The distance out of a tube ends at its boundary and never before a wall", "statement": "For every tube, every point of the tube and every unit direction, DistanceToOut is finite (at most three times the larger of outer radius and half length), not below minus twice the tolerance, ends on a lid, a wall or a face of the sector that the direction leaves, and every point of the path up to it is in the tube, up to the guard of the divisions. Points outside beyond the tolerance get -1.", "quantifier": "all tube parameters, all types the factory can pick, all points of the tube, all unit directions", "why_tests_cant": "one crossing surface that is overlooked for one direction makes a particle leave the solid unseen; directions and sectors are a continuum", "anchors": ["VecGeom/volumes/kernel/TubeImplementation.h: DistanceToOut, CircleTrajectoryIntersection, PhiPlaneTrajectoryIntersection"]}
{"id": "C80", "title": "The distance into a tube leads to its surface and no entry is overlooked", "statement": "For every tube, every point and every unit direction, a finite DistanceToIn leads to a point of the surface up to the tolerance; a point in the tube deeper than half the tolerance gets -1; and if the ray reaches a point well inside the tube at distance T then DistanceToIn is at most T.", "quantifier": "all tube parameters, all types the factory can pick, all points, all unit directions", "why_tests_cant": "a ray that misses an entry is lost for tracking; entries through lid, outer wall, bore and faces interact and far points are moved first", "anchors": ["VecGeom/volumes/kernel/TubeImplementation.h: DistanceToIn, DistanceToInKernel, IsMovingInsideTubeSurface"]}
{"id": "C81", "title": "Extent, surface sampling and convexity flag of a tube are exact", "statement": "For every tube, each side of the box returned by Extent is the extreme coordinate of some point of the tube; whatever random numbers are drawn, SamplePointOnSurface terminates, reads only initialised areas and returns a point of the surface; and the global convexity flag is set exactly if the tube is convex.", "quantifier": "all inner and outer radii, lengths, start angles and openings; all random draws; all pairs of points of the tube", "why_tests_cant": "a box that is too small loses particles only for the few directions in which the extreme point lies; the sector's position relative to the axes is a continuum", "anchors": ["VecGeom/volumes/UnplacedTube.h: Capacity, DetectConvexity", "source/UnplacedTube.cpp: Extent, SamplePointOnSurface, ChooseSurface"]}
{"id": "C82", "title": "The capacity of a tube is its volume", "statement": "Capacity() of a tube equals the Lebesgue measure of the set of points of the tube.", "quantifier": "all inner and outer radii, lengths, start angles and openings up to a full turn", "why_tests_cant": "a Monte Carlo comparison only estimates the volume of a sampled tube; the claim is an identity between a formula and a measure for a continuum of tubes", "anchors": ["VecGeom/volumes/UnplacedTube.h: Capacity, volume"]}
{"id": "C83", "title": "The setters of a tube leave it as if newly constructed", "statement": "After SetRMin, SetRMax, SetDz, SetSPhi or SetDPhi a tube equals the tube constructed from the new parameters, cached values included.", "quantifier": "all tubes, all new values", "why_tests_cant": "a cache that is left stale only shows for points between the old and the new shape", "anchors": ["VecGeom/volumes/TubeStruct.h: SetRMin, SetRMax, SetDz, SetDPhi, SetAndCheckDPhiAngle", "VecGeom/volumes/UnplacedTube.h: setters"]}
{"id": "C84", "title": "The normal of a tube is the outward unit normal of the face", "statement": "At every point of the surface of a tube that is on exactly one of the bounding surfaces and more than the tolerance away from the others, Normal reports the outward unit normal of that surface as valid, whatever was in the output variable before; at every other point the vector it reports as valid has length one.", "quantifier": "all tubes with radii above twice the tolerance, all surface points", "why_tests_cant": "the choice among six faces with tolerances is made for a continuum of points; only few have a wrong sign", "anchors": ["VecGeom/volumes/kernel/TubeImplementation.h: NormalKernel"]}
{"id": "C85", "title": "Containment and classification of an elliptical tube agree with its geometry", "statement": "For every elliptical tube, Contains is true exactly for the points not classified as outside; a point classified as outside is further than half a tolerance from every point of the tube, a point classified as inside is in the tube and further than half a tolerance from every point outside it, and every point of the tube is contained.", "quantifier": "all semi-axes of at least twice the tolerance, all positive half lengths, all points", "why_tests_cant": "the classification is made by an approximate distance in scaled coordinates; whether the approximation errs by more than the tolerance depends on the axes and the point", "anchors": ["VecGeom/volumes/kernel/EllipticalTubeImplementation.h: Contains, Inside, GenericKernelForContainsAndInside", "source/UnplacedEllipticalTube.cpp: CheckParameters"]}
{"id": "C86", "title": "The safeties of an elliptical tube never exceed the true distance", "statement": "SafetyToIn is never larger than the distance to any point of the tube and positive exactly for points outside; SafetyToOut is never larger than the distance to any point outside and positive exactly for points inside.", "quantifier": "all elliptical tubes, all points", "why_tests_cant": "a safety that is too large for one point lets a particle jump over a boundary; the bound is over a continuum of points and tubes", "anchors": ["VecGeom/volumes/kernel/EllipticalTubeImplementation.h: SafetyToIn, SafetyToOut"]}
{"id": "C87", "title": "The distance out of an elliptical tube is the length of the ray within it", "statement": "From every point of an elliptical tube and in every direction, the ray stays in the tube up to DistanceToOut and is on its surface there; from a point classified as outside the result is -1.", "quantifier": "all elliptical tubes, all points of them, all unit directions", "why_tests_cant": "fails only for directions inclined by less than 1.5e-8 or for very flat ellipses", "anchors": ["VecGeom/volumes/kernel/EllipticalTubeImplementation.h: DistanceToOut"]}
{"id": "C88", "title": "The distance into an elliptical tube ends on its surface, and rays that go through the tube hit it", "statement": "A finite DistanceToIn ends on the surface of the tube and is not negative for start points that are not in its interior; if a ray reaches a point further than half a tolerance within the tube, the distance is finite and comes before that point.", "quantifier": "all elliptical tubes, all start points near and far, all unit directions", "why_tests_cant": "needs all rays: the move of far start points, the cut on the discriminant and the test for parallel directions each act on a small set", "anchors": ["VecGeom/volumes/kernel/EllipticalTubeImplementation.h: DistanceToIn"]}
{"id": "C89", "title": "Capacity, extent, parameters and samples of an elliptical tube are exact", "statement": "Capacity is the Lebesgue measure of the tube, Extent is its tightest box, each setter leaves the tube that the constructor makes of the new lengths, lengths that are too small are replaced, and every sampled point lies on the surface for all outcomes of the random numbers.", "quantifier": "all elliptical tubes, all new lengths, all random draws", "why_tests_cant": "an identity between a formula and a measure, and bounds over a continuum of points and draws", "anchors": ["source/UnplacedEllipticalTube.cpp: CheckParameters, Extent, SamplePointOnSurface", "VecGeom/volumes/UnplacedEllipticalTube.h: SetDx, SetDy, SetDz, SetParameters, Capacity", "VecGeom/volumes/EllipticUtilities.h: RandomPointInEllipse, RandomPointOnEllipse"]}
{"id": "C90", "title": "The normal of an elliptical tube points out of it", "statement": "At every point classified as on the surface, Normal is reported as valid, has length one, and no point of the tube lies further along it than the point itself, up to the tolerance.", "quantifier": "all elliptical tubes, all points within tolerance of the surface, all points of the tube", "why_tests_cant": "a supporting-plane condition quantifies over all pairs of points", "anchors": ["VecGeom/volumes/kernel/EllipticalTubeImplementation.h: Normal, NormalKernel"]}
{"id": "C91", "title": "The computation of the perimeter of an ellipse ends, is accurate and respects its symmetries", "statement": "EllipsePerimeter terminates for all semi-axes that are not both 0, within 28+m rounds if the ratio of the semi-axes is at most 2^m and within k+5 tests if it is at most 2^(2^k); the result is independent of order and signs of the semi-axes, scales with the ellipse, and is exact for circles and segments. It differs from the arc length of the ellipse by a relative error of at most 2^k/2^50, where the ratio of the semi-axes is at most 2^(2^k).", "quantifier": "all pairs of semi-axes", "why_tests_cant": "termination and accuracy of a loop with a stopping criterion over a continuum of starting values", "anchors": ["VecGeom/volumes/EllipticUtilities.h: comp_ellint_2, EllipsePerimeter", "source/UnplacedEllipticalTube.cpp: SurfaceArea"]}
{"id": "C92", "title": "The point in polygon test decides the inside of every polygon", "statement": "Contains does not change along any path that stays clear of the boundary, changes whenever the boundary is crossed once at an interior point of an edge, and is false outside the bounding rectangle of the vertices. Hence it is the even-odd inside of the polygon, for convex, concave and self-crossing vertex lists in both orientations. The vectorised loop gives the same answer as the scalar one.", "quantifier": "all vertex lists of fewer than 2^31 vertices, all points not within 1e-30 straight above or below the boundary, all vector widths", "why_tests_cant": "a Jordan-curve statement over all polygons and points; errors show up only where the ray passes through vertices or along edges", "anchors": ["VecGeom/volumes/PlanarPolygon.h: Contains, Init"]}
{"id": "C93", "title": "Setting up a polygon keeps its vertices, orientation, area and extent", "statement": "Init never throws and never reads outside of the arrays; the vertices are kept in order if given clockwise and reversed otherwise; Area is half the absolute value of the shoelace sum; the extent is the tightest rectangle of the vertices.", "quantifier": "all non-empty vertex lists of fewer than 2^31 vertices, all vector widths", "why_tests_cant": "the reversal steps through the input with an unsigned index that wraps; the identity of the area is over all vertex lists", "anchors": ["VecGeom/volumes/PlanarPolygon.h: Init, Area, GetMinX, GetMaxX, GetMinY, GetMaxY"]}
{"id": "C94", "title": "The distance from a point to a polygon is exact", "statement": "SafetySqr reads only within the padded arrays, and returns the squared distance to the nearest edge together with an edge that attains it; distances below the tolerance are reported as 0 and those beyond 1e15 as 1e15 with no edge.", "quantifier": "all polygons without repeated neighbouring vertices, all points, all vector widths", "why_tests_cant": "a minimum over all points of all edges; padding of the last chunk depends on the number of vertices modulo the vector width", "anchors": ["VecGeom/volumes/PlanarPolygon.h: SafetySqr, Init"]}
{"id": "C95", "title": "The tests for convex polygons agree with the general ones", "statement": "If a polygon is reported as convex, ContainsConvex, InsideConvex and SafetyConvex agree with its geometry: contained points are those on the inner side of all edges, safeties do not exceed the distance to the boundary, and the general test Contains gives the same answer.", "quantifier": "all polygons reported as convex, all points", "why_tests_cant": "agreement of two algorithms over all convex polygons and points", "anchors": ["VecGeom/volumes/PlanarPolygon.h: IsConvex, CalcConvexity, ContainsConvex, InsideConvex, SafetyConvex, Init"]}
{"id": "C96", "title": "Containment and classification of extruded polygons", "statement": "Contains holds exactly for the points between the planes whose projection is in the polygon; Inside reports surface for points of the solid within the tolerance of the surface, inside for points deeper than that and outside for the others.", "quantifier": "all extruded polygons with neighbouring vertices that differ, in both orientations, all points, all vector widths", "why_tests_cant": "agreement of two classification algorithms with the geometry, over all polygons and points", "anchors": ["VecGeom/volumes/kernel/SExtruImplementation.h: Contains, Inside", "VecGeom/volumes/PolygonalShell.h: PolygonalShell"]}
{"id": "C97", "title": "Safeties of extruded polygons are never too large", "statement": "SafetyToIn is at most the distance from an outside point to any point of the solid, SafetyToOut at most the distance from an inside point to any point that is not in the solid.", "quantifier": "all extruded polygons with neighbouring vertices that differ, in both orientations, all points", "why_tests_cant": "a lower bound over all points of the solid or its complement", "anchors": ["VecGeom/volumes/kernel/SExtruImplementation.h: SafetyToIn, SafetyToOut"]}
{"id": "C98", "title": "Distances out of extruded polygons", "statement": "From a point of the solid, DistanceToOut ends on the surface: on the plane ahead or near an edge between the planes; the ray does not leave the solid earlier, and no edge through which it leaves is missed.", "quantifier": "all extruded polygons with neighbouring vertices that differ, in both orientations, all points and directions", "why_tests_cant": "the ray must stay in the solid at every intermediate point; depends on the position of the planes relative to 0", "anchors": ["VecGeom/volumes/kernel/SExtruImplementation.h: DistanceToOut", "VecGeom/volumes/PolygonalShell.h: DistanceToOutConvex, DistanceToOutConcave", "VecGeom/volumes/PlanarPolygon.h: OnSegment"]}
{"id": "C99", "title": "Distances into extruded polygons", "statement": "From a point outside, a finite DistanceToIn is not negative and ends on the surface of the solid; a ray that enters the solid is reported to do so, no later than it does.", "quantifier": "all extruded polygons with neighbouring vertices that differ, in both orientations, all points and directions", "why_tests_cant": "misses show up only for directions nearly parallel to a face or a plane", "anchors": ["VecGeom/volumes/kernel/SExtruImplementation.h: DistanceToIn", "VecGeom/volumes/PolygonalShell.h: DistanceToInConvex, DistanceToInConcave", "VecGeom/volumes/PlanarPolygon.h: OnSegment"]}
{"id": "C100", "title": "Extent, capacity and surface area of extruded polygons", "statement": "Extent is the tightest box around the solid; Capacity is the area of the polygon times the height; SurfaceArea is twice the area of the polygon plus its circumference times the height.", "quantifier": "all extruded polygons with neighbouring vertices that differ, in both orientations, all heights", "why_tests_cant": "identities over all polygons", "anchors": ["VecGeom/volumes/UnplacedSExtruVolume.h: Capacity, SurfaceArea, Extent", "VecGeom/volumes/PolygonalShell.h: SurfaceArea, Extent"]}
{"id": "C101", "title": "Normals of extruded polygons", "statement": "Near a plane and over the polygon, Normal returns the normal of that plane; elsewhere between the planes it returns the outward unit normal of an edge nearest to the point, and calls it valid exactly if the point is within the tolerance of the boundary.", "quantifier": "all extruded polygons with neighbouring vertices that differ, in both orientations, all points", "why_tests_cant": "the nearest edge over all polygons and points; the name of the edge may be that of a padding copy", "anchors": ["VecGeom/volumes/kernel/SExtruImplementation.h: NormalKernel"]}
{"id": "C102", "title": "Containment and classification of cut ellipsoids", "statement": "Contains holds exactly for the points that Inside does not put outside; points of the solid are contained; points at most half a tolerance from the surface are put on the surface, and points that are put on the surface are close to it.", "quantifier": "all ellipsoids with semi-axes of at least two tolerances and cuts within the ellipsoid, all points", "why_tests_cant": "the thickness of the surface layer over all shapes and points", "anchors": ["VecGeom/volumes/kernel/EllipsoidImplementation.h: Contains, Inside, GenericKernelForContainsAndInside"]}
{"id": "C103", "title": "Safeties of cut ellipsoids are never too large", "statement": "SafetyToIn is at most the distance from the point to any point of the solid, and positive exactly for points that Inside puts outside; SafetyToOut is at most the distance to any point that is not in the solid, and not negative in the solid.", "quantifier": "all ellipsoids with semi-axes of at least two tolerances and cuts within the ellipsoid, all points", "why_tests_cant": "a lower bound over all points of the solid or its complement", "anchors": ["VecGeom/volumes/kernel/EllipsoidImplementation.h: SafetyToIn, SafetyToOut"]}
{"id": "C104", "title": "Distances out of cut ellipsoids", "statement": "From a point of the solid DistanceToOut is not negative and ends on the surface, and the ray stays in the solid until then; it is -1 for points that Inside puts outside.", "quantifier": "all ellipsoids with semi-axes of at least two tolerances and cuts within the ellipsoid, all points and unit directions", "why_tests_cant": "the ray must stay in the solid at every intermediate point", "anchors": ["VecGeom/volumes/kernel/EllipsoidImplementation.h: DistanceToOut"]}
{"id": "C105", "title": "Distances into cut ellipsoids", "statement": "A finite DistanceToIn ends on the surface of the solid and is not negative for start points that are not inside; a ray that reaches a point well within the solid gets a distance to a point before it.", "quantifier": "all ellipsoids with semi-axes of at least two tolerances and cuts within the ellipsoid, all points and unit directions, also far away from the solid", "why_tests_cant": "misses depend on the size of the solid and on the distance from it", "anchors": ["VecGeom/volumes/kernel/EllipsoidImplementation.h: DistanceToIn"]}
{"id": "C106", "title": "Capacity, extent, parameters, sampling and mesh of cut ellipsoids", "statement": "Capacity is the volume of the set of points of the solid; Extent is its tightest box; the constructor and the setters make the solid with the given axes and cuts; SamplePointOnSurface returns points of the surface; the vertices of the mesh lie on the surface.", "quantifier": "all ellipsoids with semi-axes of at least two tolerances and cuts within the ellipsoid, all outcomes of the random numbers, all numbers of segments", "why_tests_cant": "a volume and an extremum over all shapes; all random outcomes", "anchors": ["source/UnplacedEllipsoid.cpp: CheckParameters, Extent, SamplePointOnSurface, CreateMesh3D", "VecGeom/volumes/UnplacedEllipsoid.h: Capacity, SetSemiAxes, SetZCuts"]}
{"id": "C107", "title": "Normals of cut ellipsoids", "statement": "For points on the surface Normal returns a valid unit vector that points out of the solid: the normal of the cut away from the lateral surface, the direction of the gradient away from the cuts.", "quantifier": "all ellipsoids with semi-axes of at least two tolerances and cuts within the ellipsoid, all points within tolerance of the surface", "why_tests_cant": "the direction is compared with all points of the solid; the length on the edges depends on the cuts", "anchors": ["VecGeom/volumes/kernel/EllipsoidImplementation.h: NormalKernel"]}
{"id": "C108", "title": "Closing a union of many solids", "statement": "Close succeeds after any sequence of AddNode. Then the neighbours of a component are, without repetition and in increasing order, the other components whose bounding boxes come within the tolerance of its box; being neighbours is mutual.", "quantifier": "all sequences of AddNode followed by Close", "why_tests_cant": "the bookkeeping of the packed neighbour lists must hold for every number of components and every pattern of overlaps", "anchors": ["VecGeom/volumes/MultiUnionStruct.h: Close, AddNode, ABBoxOverlap"]}
{"id": "C109", "title": "Containment in a union of many solids", "statement": "Contains is true exactly if a component contains the point; Inside answers inside exactly if the point is inside a component and outside exactly if it is outside all of them; if the components can be trusted, so can the union.", "quantifier": "all closed unions of one to 20000 rigidly placed components with any sizes and any placements, all points", "why_tests_cant": "the acceleration structure must not lose a component for any arrangement", "anchors": ["VecGeom/volumes/kernel/MultiUnionImplementation.h: Contains, Inside, ContainsOp, InsideOp"]}
{"id": "C110", "title": "SafetyToIn of a union of many solids is never too large", "statement": "For a point outside, SafetyToIn is positive and at most the distance to any point of the union; for a point in or on a component it is -1.", "quantifier": "all closed unions of one to 20000 rigidly placed components with any sizes and any placements, all points", "why_tests_cant": "the candidates are cut down by a limit that decreases during the search; nothing near may be dropped", "anchors": ["VecGeom/volumes/kernel/MultiUnionImplementation.h: SafetyToIn, SafetyToInComp", "VecGeom/navigation/HybridSafetyEstimator.h: GetSafetyCandidates2_v, BVHSortedSafetyLooper"]}
{"id": "C111", "title": "SafetyToOut and normals of a union of many solids", "statement": "For a point in or on a component, SafetyToOut is at most the distance to any point outside the union; otherwise it is -1. The normal at a point of the surface is the normal of a component on whose surface the point is, in the frame of the union.", "quantifier": "all closed unions of one to 20000 rigidly placed components with any sizes and any placements, all points", "why_tests_cant": "a lower bound over all points outside the union", "anchors": ["VecGeom/volumes/kernel/MultiUnionImplementation.h: SafetyToOut, NormalKernel, InsideComponent"]}
{"id": "C112", "title": "Distances into a union of many solids", "statement": "No point of the union lies on the ray before the distance returned by DistanceToIn, up to the step limit; a distance shorter than the limit is the distance to a component.", "quantifier": "all closed unions of one to 20000 rigidly placed components with any sizes and any placements, all points, unit directions and step limits", "why_tests_cant": "the boxes are visited in the order of the distance and the search stops early; no component may be missed", "anchors": ["VecGeom/volumes/kernel/MultiUnionImplementation.h: DistanceToIn", "VecGeom/navigation/HybridNavigator2.h: BVHSortedIntersectionsLooper"]}
{"id": "C113", "title": "Distances out of a union of many solids", "statement": "DistanceToOut ends after finitely many steps from component to component; the ray stays in the union (up to gaps of ten tolerances) until the reported distance, and behind it the ray is in no neighbour of the last component. Outside it is -1.", "quantifier": "all closed unions of one to 20000 rigidly placed components with any sizes and any placements, all points and unit directions", "why_tests_cant": "the number of steps is not bounded by the number of components known in advance; termination and the path between steps need an argument", "anchors": ["VecGeom/volumes/kernel/MultiUnionImplementation.h: DistanceToOut, InsideCluster"]}
{"id": "C114", "title": "Extents of a union of many solids", "statement": "Extent contains every point of the union. ApproachSolid does not report a miss for a ray that meets the extent.", "quantifier": "all sequences of AddNode, all rays", "why_tests_cant": "must hold for every set of components", "anchors": ["VecGeom/volumes/MultiUnionStruct.h: AddNode", "VecGeom/volumes/UnplacedMultiUnion.h: Extent, AddNode", "VecGeom/volumes/UnplacedVolume.h: ApproachSolid"]}
{"id": "C115", "title": "The states of a navigation state pool are independent", "statement": "The constructor of a pool makes the given number of new states at aligned addresses within its memory, in the smallest possible distance; each can be read and written in full without touching another one.", "quantifier": "all capacities, depths, sizes and alignments of states, all contents of the memory", "why_tests_cant": "address arithmetic with padding for every size and alignment", "anchors": ["VecGeom/navigation/NavStatePool.h: NavStatePool, operator[], GetNavigationState", "VecGeom/base/VariableSizeObj.h: SizeOfAlignAware, SizeOf", "VecGeom/navigation/NavStatePath.h: SizeOfInstanceAlignAware"]}
{"id": "C116", "title": "Navigation state pools and files", "statement": "Reading the file written by ToFile into a pool of the same capacity and depth restores all states and returns the capacity; FromFile reports for every file whether it could be opened, had a header and enough data, and does not change the pool on failure; states are only accepted from pools of the same depth.", "quantifier": "all pools, all files", "why_tests_cant": "all file contents and lengths, including truncated files at every byte", "anchors": ["VecGeom/navigation/NavStatePool.h: ToFile, FromFile, ReadDepthAndCapacityFromFile"]}
{"id": "C117", "title": "Arrays free their own memory exactly once", "statement": "In every program of constructions, views of foreign memory, copies, assignments, allocations, element writes and destructions of arrays, no memory is freed twice, used after being freed, leaked, or taken from the user; a copy or an assignment has the elements of its source in memory of its own and leaves other arrays alone.", "quantifier": "all programs over any number of arrays", "why_tests_cant": "ownership must hold for every history of operations", "anchors": ["VecGeom/base/Array.h: Array, operator=, Allocate, Deallocate, ~Array"]}
{"id": "C118", "title": "Voxel based safety never exceeds the distance to anything", "statement": "The safety from the voxel structure is defined at every point of the mother volume, is not negative, and exceeds neither the mother's own safety nor the distance to any daughter; where the sampling missed the voxel of the point the answer is zero.", "quantifier": "all mothers and daughters with right answers, all outcomes of the random sampling, all points of the mother", "why_tests_cant": "lower bound over a continuum of points, for every arrangement of daughters and every outcome of a random sampling", "anchors": ["VecGeom/navigation/VoxelSafetyEstimator.h: ComputeSafetyForLocalPoint", "source/FlatVoxelManager.cpp: BuildSafetyVoxels", "VecGeom/volumes/utilities/VolumeUtilities.h: GenerateRegularSurfacePointsOnBox, IntersectionExist"]}
{"id": "C119", "title": "Cut tubes contain what is in the tube and below both planes", "statement": "The constructor throws exactly for normals that do not point down (bottom) and up (top); otherwise Contains is true exactly for the points of the tube sector strictly below both cut planes through (0,0,-z) and (0,0,z), and Inside classifies points as inside, outside or surface correctly up to the tolerance.", "quantifier": "all radii, lengths, angles, plane normals and points", "why_tests_cant": "equality of sets over a continuum of points and parameters", "anchors": ["VecGeom/volumes/kernel/CutTubeImplementation.h: Contains, Inside", "VecGeom/volumes/CutPlanes.h: Contains, Inside", "VecGeom/volumes/Plane.h: Set, DistPlane", "VecGeom/volumes/UnplacedCutTube.h: UnplacedCutTube"]}
{"id": "C120", "title": "Safeties of cut tubes are lower bounds", "statement": "SafetyToIn never exceeds the distance to any point of the solid and SafetyToOut never the distance to any point outside; each is at least the distance to the bounding surface it is meant to measure.", "quantifier": "all cut tubes, all points", "why_tests_cant": "lower bound over a continuum of points", "anchors": ["VecGeom/volumes/kernel/CutTubeImplementation.h: SafetyToIn, SafetyToOut", "VecGeom/volumes/CutPlanes.h: SafetyToIn, SafetyToOut"]}
{"id": "C121", "title": "The distance to leave a cut tube ends on its surface", "statement": "From a point of the solid along a unit direction DistanceToOut is finite, the ray up to it stays in the solid and ends on a bounding surface it crosses outwards; points outside by more than the tolerance get a negative answer.", "quantifier": "all cut tubes, all points, all unit directions", "why_tests_cant": "for every ray of a continuum, every point of the segment", "anchors": ["VecGeom/volumes/kernel/CutTubeImplementation.h: DistanceToOut", "VecGeom/volumes/CutPlanes.h: DistanceToOut", "VecGeom/volumes/Plane.h: DistanceToOut"]}
{"id": "C122", "title": "The distance to enter a cut tube is the first entry", "statement": "A finite answer of DistanceToIn is the distance to a point of the solid up to the tolerance, and a ray that meets the solid gets an answer that is not beyond the meeting point.", "quantifier": "all cut tubes, all points outside, all unit directions, all step limits", "why_tests_cant": "for every ray of a continuum, all points before the entry", "anchors": ["VecGeom/volumes/kernel/CutTubeImplementation.h: DistanceToIn, DistanceToInKernel", "VecGeom/volumes/CutPlanes.h: DistanceToIn", "VecGeom/volumes/Plane.h: DistanceToIn"]}
{"id": "C123", "title": "Capacity and surface area of cut tubes", "statement": "Capacity is the volume of the set of points of the solid, and SurfaceArea is the sum of the areas of the two walls, the two planes and the two faces, each the integral over the surface.", "quantifier": "all radii, lengths, angles and planes that do not cross in the tube", "why_tests_cant": "equality of a formula with a Lebesgue measure for all real parameters", "anchors": ["source/UnplacedCutTube.cpp: volume", "VecGeom/volumes/UnplacedCutTube.h: GetLateralArea, GetTopArea, GetBottomArea, GetLateralPhi1Area, GetLateralPhi2Area, SurfaceArea"]}
{"id": "C124", "title": "The box of a cut tube is the smallest one", "statement": "Extent returns a box that contains every point of the solid, and every side of it touches the solid.", "quantifier": "all cut tubes, all of their points", "why_tests_cant": "extremum over a continuum of points for all real parameters", "anchors": ["source/UnplacedCutTube.cpp: Extent", "VecGeom/volumes/UnplacedCutTube.h: ZlimitBottom, ZlimitTop"]}
{"id": "C125", "title": "Sampled points, convexity, normals, setters and mesh of cut tubes", "statement": "Sampled points are on the surface; the convexity flag is set exactly for convex solids; the normal on a surface is its outward unit normal; setters leave the solid that the constructor makes from the new values; mesh vertices are on the planes.", "quantifier": "all cut tubes, all random numbers, all points of the surface, all setter arguments", "why_tests_cant": "for all random draws and all points of a surface", "anchors": ["source/UnplacedCutTube.cpp: SamplePointOnSurface, DetectConvexity, Normal, CreateMesh3D", "VecGeom/volumes/kernel/CutTubeImplementation.h: NormalKernel", "VecGeom/volumes/UnplacedCutTube.h: SetRMin, SetRMax, SetDz, SetSPhi"]}
{"id": "C126", "title": "Reflected volumes are mirror images at every depth", "statement": "After any sequence of placements through the reflection factory with one mirror, a reflected volume shows, for every path of daughters below it, exactly the mirror image of what its constituent shows along the same path, with the same copy numbers; GetReflectedLV and GetConstituentLV are inverse to each other; Place with a mirror adds one daughter that shows the mirror image of the given volume, changes only the mother and its reflection, and always ends.", "quantifier": "all histories of volume creations and placements, all geometries (also deep or cyclic ones), all paths, all points, all transformations", "why_tests_cant": "ranges over all histories, unbounded nesting and all points", "anchors": ["source/ReflFactory.cpp: Place, ReflectLV, CreateReflectedLV, ReflectDaughters, ReflectPlacedVolume, ConvertScaledToPureTransformation, GetConstituentLV, GetReflectedLV", "VecGeom/management/ReflFactory.h: IsReflection"]}
{"id": "C127", "title": "Containment in a general trapezoid", "statement": "Contains is true exactly for the points on or below all six planes of the solid; Inside answers outside exactly for points above one of them by more than half the tolerance and inside exactly for points below all of them by more than half the tolerance.", "quantifier": "all side planes, all heights, all points", "why_tests_cant": "for all real points and planes", "anchors": ["VecGeom/volumes/kernel/TrapezoidImplementation.h: Contains, Inside, GenericKernelForContainsAndInside", "VecGeom/base/PlaneShell.h: GenericKernelForContainsAndInside"]}
{"id": "C128", "title": "Safeties of a general trapezoid", "statement": "SafetyToIn is the largest of the heights above the six planes and SafetyToOut its opposite; SafetyToIn is never larger than the distance to a point of the solid, SafetyToOut never larger than the distance to a point outside; their signs tell whether the point is contained.", "quantifier": "all trapezoids, all pairs of points", "why_tests_cant": "a bound over a continuum of points", "anchors": ["VecGeom/volumes/kernel/TrapezoidImplementation.h: SafetyToIn, SafetyToOut", "VecGeom/base/PlaneShell.h: SafetyToIn, SafetyToOut"]}
{"id": "C129", "title": "Distances of a general trapezoid", "statement": "DistanceToIn is not larger than any parameter at which the ray is in the solid, is at most u if the ray is deeper than half the tolerance at u, and where it is finite the ray is on a plane and in the solid within half the tolerance; from a point of the solid the ray stays in the solid up to DistanceToOut and reaches there a plane that it comes towards; DistanceToOut is at most -1 for points outside.", "quantifier": "all trapezoids, all points and directions", "why_tests_cant": "for all real rays", "anchors": ["VecGeom/volumes/kernel/TrapezoidImplementation.h: DistanceToIn, DistanceToOut", "VecGeom/base/PlaneShell.h: DistanceToIn, DistanceToOut"]}
{"id": "C130", "title": "Parameters, corners and planes of a trapezoid agree", "statement": "After every constructor, the planes are those of the parameters: for flat faces the points contained are those of the trapezoid with these parameters, the normals have length one; parameters and corners determine each other, and the angles found from corners are those of the axis; setting an angle leaves the solid that the constructor would make.", "quantifier": "all parameters with positive lengths, all regular corners, all points", "why_tests_cant": "equality of point sets for all real parameters", "anchors": ["source/UnplacedTrapezoid.cpp: UnplacedTrapezoid, FromParametersToCorners, fromCornersToParameters, MakePlanes, MakeAPlane", "VecGeom/volumes/UnplacedTrapezoid.h: SetTheta, SetPhi, SetDx1", "VecGeom/volumes/TrapezoidStruct.h: CalculateCached"]}
{"id": "C131", "title": "The factory chooses a simpler solid with the same points", "statement": "MakeInstance for a trapezoid, whichever of box, trapezoid with rectangular bases, parallelepiped or general trapezoid it chooses, gives a solid with the points of the trapezoid asked for, whose own parameters describe the same shape; made from corners it has these corners.", "quantifier": "all parameters with positive lengths, all regular corners, all points", "why_tests_cant": "equality of point sets for all real parameters", "anchors": ["source/UnplacedTrapezoid.cpp: MakeInstance, GetSpecialized", "VecGeom/volumes/UnplacedImplAs.h: SUnplacedImplAs"]}
{"id": "C132", "title": "Capacity and surface area of a trapezoid", "statement": "Capacity is the volume of the solid, SurfaceArea the sum of the areas of its six faces.", "quantifier": "all parameters with positive lengths (area: flat faces)", "why_tests_cant": "an identity between a formula and a measure for all real parameters", "anchors": ["source/UnplacedTrapezoid.cpp: Capacity, SurfaceArea"]}
{"id": "C133", "title": "Extent of a trapezoid and points sampled on it", "statement": "The corners found from the planes are those of the parameters; the extent holds the solid and each of its sides touches it; sampled points are on the surface whatever the random numbers.", "quantifier": "all parameters with positive lengths and flat faces, all points, all random numbers", "why_tests_cant": "extremum over a continuum of points; all random draws", "anchors": ["source/UnplacedTrapezoid.cpp: fromPlanesToCorners, Extent, SamplePointOnSurface, GetPointOnPlane"]}
{"id": "C134", "title": "Normals of a trapezoid", "statement": "At a point on the surface where one face is higher than all others the normal is the outward unit normal of this face, and it is called valid exactly near the surface.", "quantifier": "all trapezoids, all points of the surface", "why_tests_cant": "for all points of a surface", "anchors": ["VecGeom/volumes/kernel/TrapezoidImplementation.h: NormalKernel", "VecGeom/base/PlaneShell.h: NormalKernel"]}
{"id": "C135", "title": "Containment in a paraboloid", "statement": "Every point of the solid is contained; a point reported inside is a point of the solid off its surface; a point is reported outside exactly if it is beyond a lid by more than the tolerance or its squared radius exceeds that of the side by more than the tolerance; a contained point is close to the solid.", "quantifier": "all radii 0 <= rlo < rhi, all heights, all points", "why_tests_cant": "for all real points and parameters", "anchors": ["VecGeom/volumes/kernel/ParaboloidImplementation.h: Contains, Inside, GenericKernelForContainsAndInside"]}
{"id": "C136", "title": "Safeties of a paraboloid", "statement": "SafetyToIn is never larger than the distance to a point of the solid, SafetyToOut never larger than the distance to a point outside; from inside the safety is not negative and, up to a factor of the square root of two and the width in which a point counts as on the surface, it is the distance to the surface.", "quantifier": "all paraboloids, all pairs of points", "why_tests_cant": "a bound over a continuum of points", "anchors": ["VecGeom/volumes/kernel/ParaboloidImplementation.h: SafetyToIn, SafetyToOut"]}
{"id": "C137", "title": "Distance to a paraboloid", "statement": "A reported DistanceToIn is never larger than the distance along the ray to a point of the solid; rays that enter through a lid away from its rim or through the side away from the lids are found; a positive reported distance leads to a point of the surface up to the error of the guarded divisions.", "quantifier": "all paraboloids, all points and unit directions", "why_tests_cant": "for all real rays", "anchors": ["VecGeom/volumes/kernel/ParaboloidImplementation.h: DistanceToIn"]}
{"id": "C138", "title": "Distance out of a paraboloid", "statement": "From a point of the solid DistanceToOut is not negative, everything up to it belongs to the solid, and it leads to the surface up to the error of the guarded divisions; a point outside by more than the tolerance gets -1.", "quantifier": "all paraboloids, all points and unit directions", "why_tests_cant": "for all real rays", "anchors": ["VecGeom/volumes/kernel/ParaboloidImplementation.h: DistanceToOut"]}
{"id": "C139", "title": "Normals of a paraboloid", "statement": "At every point of the surface Normal returns a valid vector of length one that points out of the solid.", "quantifier": "all paraboloids, all points of the surface", "why_tests_cant": "for all points of a continuum", "anchors": ["VecGeom/volumes/kernel/ParaboloidImplementation.h: NormalKernel"]}
{"id": "C140", "title": "Capacity and surface area of a paraboloid", "statement": "Capacity is the Lebesgue measure of the solid and SurfaceArea the area of the two lids plus the area of the surface of revolution.", "quantifier": "all radii 0 <= rlo < rhi, all heights", "why_tests_cant": "an integral for all real parameters", "anchors": ["source/UnplacedParaboloid.cpp: CalcCapacity, CalcSurfaceArea"]}
{"id": "C141", "title": "Extent, sampling and setters of a paraboloid", "statement": "Extent is the tightest box around the solid; every sampled point lies on the surface; after any sequence of setter calls the solid is the one the constructor makes from the last parameters that were allowed, and a call with parameters that are not allowed changes nothing.", "quantifier": "all paraboloids, all random numbers, all sequences of setter calls", "why_tests_cant": "for all histories of calls and all random numbers", "anchors": ["source/UnplacedParaboloid.cpp: Extent, SamplePointOnSurface", "VecGeom/volumes/UnplacedParaboloid.h: SetRloAndRhiAndDz, SetRlo, SetRhi, SetDz", "VecGeom/volumes/ParaboloidStruct.h: SetRloAndRhiAndDz, CalculateCached"]}
{"id": "C142", "title": "Containment in a cone", "statement": "Contains answers membership in the cone (surface included, wall of the bore not) whatever factory product is asked; Inside reports inside only for points of the cone, outside only for points that are not in it, and reports the points that are further than the tolerance from the surface as inside or outside.", "quantifier": "all radii, heights and sectors, all points, all factory products", "why_tests_cant": "for all real points and parameters", "anchors": ["VecGeom/volumes/kernel/ConeImplementation.h: Contains, Inside", "VecGeom/volumes/ConeUtilities.h: GenericKernelForContainsAndInside, GetRadiusOfConeAtPoint", "source/UnplacedCone.cpp: Maker<UnplacedCone>::MakeInstance"]}
{"id": "C143", "title": "Safeties of a cone", "statement": "SafetyToIn is never larger than the distance to a point of the cone and SafetyToOut never larger than the distance to a point outside; outside points get a SafetyToIn that is not negative, points of the cone a SafetyToOut that is not negative.", "quantifier": "all cones, all pairs of points", "why_tests_cant": "a bound over a continuum of pairs of points", "anchors": ["VecGeom/volumes/kernel/ConeImplementation.h: SafetyToIn, SafetyToOut, SafeDistanceToConicalSurface"]}
{"id": "C144", "title": "Capacity and surface area of a cone", "statement": "Capacity is the Lebesgue measure of the cone and SurfaceArea the area of its whole surface.", "quantifier": "all cones", "why_tests_cant": "an integral for all real parameters", "anchors": ["VecGeom/volumes/ConeStruct.h: Capacity", "VecGeom/volumes/UnplacedCone.h: SurfaceArea, Capacity"]}
{"id": "C145", "title": "Extent, sampling, convexity and setters of a cone", "statement": "Extent is the tightest box around the cone; sampled points lie on the surface; a cone that is reported convex is convex; after a setter call the object is the one the constructor makes from the new parameters.", "quantifier": "all cones, all random numbers, all new parameter values", "why_tests_cant": "for all parameters and all random numbers", "anchors": ["source/UnplacedCone.cpp: Extent, SamplePointOnSurface, DetectConvexity", "VecGeom/volumes/UnplacedCone.h: SetRmin1, SetRmax1, SetRmin2, SetRmax2, SetDz, SetSPhi, SetDPhi", "VecGeom/volumes/ConeStruct.h: CalculateCached, SetAndCheckSPhiAngle, SetAndCheckDPhiAngle"]}
{"id": "C146", "title": "Distance out of a cone", "statement": "From a point of the cone, everything along the ray up to DistanceToOut belongs to the cone, and a finite positive DistanceToOut leads to a lid, a wall or a phi plane, up to the error of the guarded divisions.", "quantifier": "all cones, all points of the cone, all directions", "why_tests_cant": "for all real rays", "anchors": ["VecGeom/volumes/kernel/ConeImplementation.h: DistanceToOut", "VecGeom/volumes/ConeUtilities.h: DetectIntersectionAndCalculateDistanceToConicalSurface, PhiPlaneTrajectoryIntersection, IsOnConicalSurface, GetNormal", "VecGeom/volumes/ConeStruct.h: CalculateCached"]}
{"id": "C147", "title": "Construction of a polycone and containment", "statement": "Contains answers membership in the union of the truncated cones between planes next to each other; planes given in downward order describe the same polycone; the factory product has the same points; the planes that are handed back describe the same polycone; a reset keeps it.", "quantifier": "all lists of planes (with steps), all sectors, all points", "why_tests_cant": "for every number of planes and all real points", "anchors": ["VecGeom/volumes/PolyconeStruct.h: Init, GetSectionIndex", "VecGeom/volumes/kernel/PolyconeImplementation.h: GenericKernelForASection, GenericKernelForContainsAndInside, Contains", "VecGeom/volumes/UnplacedPolycone.h: ReconstructSectionArrays", "source/UnplacedPolycone.cpp: Reset, Maker<UnplacedPolycone>::MakeInstance"]}
{"id": "C148", "title": "Inside of a polycone", "statement": "Inside reports inside only for points of the polycone and outside only for points that are not in it; points of the surface are not reported inside.", "quantifier": "all polycones, all points", "why_tests_cant": "for all real points", "anchors": ["VecGeom/volumes/kernel/PolyconeImplementation.h: Inside, GenericKernelForContainsAndInside"]}
{"id": "C149", "title": "Safeties of a polycone", "statement": "SafetyToIn is never larger than the distance to a point of the polycone and SafetyToOut never larger than the distance to a point outside; outside points get a SafetyToIn, points of the polycone a SafetyToOut that is not negative.", "quantifier": "all polycones, all pairs of points", "why_tests_cant": "a bound over a continuum of pairs of points", "anchors": ["VecGeom/volumes/kernel/PolyconeImplementation.h: SafetyToIn, SafetyToOut"]}
{"id": "C150", "title": "Capacity and surface area of a polycone", "statement": "Capacity is the Lebesgue measure of the polycone and SurfaceArea the area of its whole surface.", "quantifier": "all polycones with any number of planes", "why_tests_cant": "an integral for all real parameters", "anchors": ["VecGeom/volumes/UnplacedPolycone.h: Capacity", "source/UnplacedPolycone.cpp: SurfaceArea"]}
{"id": "C151", "title": "Extent and convexity of a polycone", "statement": "Extent is the tightest box around the polycone; a polycone that is reported convex is convex.", "quantifier": "all polycones with any number of planes", "why_tests_cant": "for all lists of planes and all pairs of points", "anchors": ["source/UnplacedPolycone.cpp: Extent, DetectConvexity", "VecGeom/volumes/PolyconeStruct.h: CheckContinuity, CheckContinuityInRmax, CheckContinuityInSlope"]}
{"id": "C152", "title": "Containment of a hyperboloid", "statement": "Contains and Inside compare the squared distance from the axis with the squared radii of the two walls; a point reported inside is in the solid, a point reported outside is not, and a point reported on the surface is near it.", "quantifier": "all valid hyperboloids, all points", "why_tests_cant": "for all real parameters and points", "anchors": ["VecGeom/volumes/kernel/HypeImplementation.h: Contains, Inside, GenericKernelForContainsAndInside", "VecGeom/volumes/HypeStruct.h: SetParameters"]}
{"id": "C153", "title": "Safeties of a hyperboloid", "statement": "SafetyToIn is never larger than the distance to a point of the solid and SafetyToOut never larger than the distance to a point outside; the signs tell on which side the point is.", "quantifier": "all valid hyperboloids, all pairs of points", "why_tests_cant": "a bound over a continuum of pairs of points", "anchors": ["VecGeom/volumes/kernel/HypeImplementation.h: SafetyToIn, SafetyToOut", "VecGeom/volumes/HypeUtilities.h: ApproxDistOutside, ApproxDistInside"]}
{"id": "C154", "title": "Capacity and surface area of a hyperboloid", "statement": "Capacity is the Lebesgue measure of the solid and SurfaceArea the area of its walls and lids.", "quantifier": "all valid hyperboloids", "why_tests_cant": "an integral for all real parameters", "anchors": ["VecGeom/volumes/HypeStruct.h: CalcCapacity, CalcSurfaceArea, Volume, Area, AreaEndCaps", "VecGeom/volumes/UnplacedHype.h: Capacity, SurfaceArea"]}
{"id": "C155", "title": "Extent, convexity, setters, clone and factory of a hyperboloid", "statement": "Extent is the tightest box; a solid reported convex is convex; a solid with new parameters behaves like a newly made one; a clone is the same solid; the factory makes the solid that was asked for.", "quantifier": "all valid hyperboloids and parameters", "why_tests_cant": "for all real parameters and pairs of points", "anchors": ["source/UnplacedHype.cpp: Extent, Clone, Maker<UnplacedHype>::MakeInstance", "VecGeom/volumes/UnplacedHype.h: SetParameters"]}
{"id": "C156", "title": "Sampling of a hyperboloid", "statement": "SamplePointOnSurface gives points of the surface, and each part is chosen in proportion to its area.", "quantifier": "all valid hyperboloids, all random numbers", "why_tests_cant": "for all values of the random numbers", "anchors": ["source/UnplacedHype.cpp: SamplePointOnSurface"]}
{"id": "C157", "title": "Normals of a hyperboloid", "statement": "On the lids and walls the normal points out of the solid.", "quantifier": "all valid hyperboloids, all points of the surface", "why_tests_cant": "for all real surface points", "anchors": ["VecGeom/volumes/UnplacedHype.h: Normal"]}
{"id": "C158", "title": "DistanceToOut of a hyperboloid", "statement": "From a point of the solid the distance is not negative, the ray stays in the solid up to it, and there it meets the surface.", "quantifier": "all valid hyperboloids, all points of the solid, all directions", "why_tests_cant": "for all real points and directions", "anchors": ["VecGeom/volumes/kernel/HypeImplementation.h: DistanceToOut"]}
{"id": "C159", "title": "DistanceToIn of a hyperboloid", "statement": "A ray that comes into the solid gets a distance not larger than that of any point of the solid on it, and a positive finite distance ends on the surface.", "quantifier": "all valid hyperboloids, all points outside, all directions", "why_tests_cant": "for all real points and directions", "anchors": ["VecGeom/volumes/kernel/HypeImplementation.h: DistanceToIn"]}
{"id": "C160", "title": "Containment in an elliptical cone", "statement": "Contains and Inside tell a point deep in the solid from one far from it: a point reported inside is in the solid, a point reported outside is not, a point not reported outside is within a stated distance of the solid, and a point not reported inside within a stated distance of its complement. Height cuts above the apex are reduced to it.", "quantifier": "all valid elliptical cones, all points", "why_tests_cant": "for all real parameters and points", "anchors": ["VecGeom/volumes/kernel/EllipticalConeImplementation.h: Contains, Inside, GenericKernelForContainsAndInside", "VecGeom/volumes/EllipticalConeStruct.h: SetParameters", "VecGeom/volumes/UnplacedEllipticalCone.h: CheckParameters"]}
{"id": "C161", "title": "Safeties of an elliptical cone", "statement": "SafetyToIn is never larger than the distance to a point of the solid and SafetyToOut never larger than the distance to a point that is not in it.", "quantifier": "all valid elliptical cones, all pairs of points", "why_tests_cant": "a bound over a continuum of pairs of points", "anchors": ["VecGeom/volumes/kernel/EllipticalConeImplementation.h: SafetyToIn, SafetyToOut"]}
{"id": "C162", "title": "Capacity and surface area of an elliptical cone", "statement": "Capacity is the Lebesgue measure of the solid; SurfaceArea is the area of its two bases and its lateral surface up to the stated relative error of the ellipse perimeter.", "quantifier": "all valid elliptical cones", "why_tests_cant": "integrals for all real parameters", "anchors": ["VecGeom/volumes/UnplacedEllipticalCone.h: Capacity, SurfaceArea", "source/UnplacedEllipticalCone.cpp: CheckParameters", "VecGeom/volumes/EllipticUtilities.h: EllipticalConeLateralArea, EllipsePerimeter"]}
{"id": "C163", "title": "Extent, convexity and setters of an elliptical cone", "statement": "Extent is the tightest box; the solid is convex, as IsConvex says; a solid with new parameters behaves like a newly made one.", "quantifier": "all valid elliptical cones and parameters, all pairs of points", "why_tests_cant": "for all real parameters and pairs of points", "anchors": ["VecGeom/volumes/UnplacedEllipticalCone.h: Extent, IsConvex, SetParameters", "source/UnplacedEllipticalCone.cpp: Extent"]}
{"id": "C164", "title": "Sampling of an elliptical cone", "statement": "SamplePointOnSurface gives points of the surface; each part is chosen in proportion to its area; the ellipse on the lateral surface and the height have the density of the area.", "quantifier": "all valid elliptical cones, all random numbers", "why_tests_cant": "for all values of the random numbers", "anchors": ["source/UnplacedEllipticalCone.cpp: SamplePointOnSurface", "VecGeom/volumes/EllipticUtilities.h: RandomPointInEllipse, RandomPointOnEllipse"]}
{"id": "C165", "title": "Normals of an elliptical cone", "statement": "Normal reports whether the point is on the surface; on the bases and the lateral surface the normal has length one and points out of the solid.", "quantifier": "all valid elliptical cones, all points", "why_tests_cant": "for all real surface points", "anchors": ["VecGeom/volumes/kernel/EllipticalConeImplementation.h: NormalKernel"]}
{"id": "C166", "title": "DistanceToOut of an elliptical cone", "statement": "From a point of the solid the distance is the length of the part of the ray that is in the solid; from a point outside it is -1.", "quantifier": "all valid elliptical cones, all points, all directions", "why_tests_cant": "for all real points and directions", "anchors": ["VecGeom/volumes/kernel/EllipticalConeImplementation.h: DistanceToOut"]}
{"id": "C167", "title": "DistanceToIn of an elliptical cone", "statement": "A ray that comes into the solid gets a distance not larger than that of any point deep in the solid on it, and a finite distance ends at a point of the solid.", "quantifier": "all valid elliptical cones, all points, all directions", "why_tests_cant": "for all real points and directions", "anchors": ["VecGeom/volumes/kernel/EllipticalConeImplementation.h: DistanceToIn"]}
{"id": "C168", "title": "Containment in a sphere", "statement": "Contains and Inside agree with the solid between two radii, two azimuths and two polar angles: a point reported outside is not in the solid, a point reported inside is in it, and a point reported on the surface is within a stated distance of the boundary.", "quantifier": "all valid spheres (with inner radius, azimuth range and polar range), all points", "why_tests_cant": "for all real parameters and points", "anchors": ["VecGeom/volumes/kernel/SphereImplementation.h: ContainsKernel, InsideKernel, GenericKernelForContainsAndInside", "VecGeom/volumes/ThetaCone_Evolution.h: IsCompletelyInside, IsCompletelyOutside, IsPointInside", "VecGeom/volumes/Wedge_Evolution.h: IsCompletelyInside, IsCompletelyOutside"]}
{"id": "C169", "title": "Safeties of a sphere", "statement": "SafetyToIn is never larger than the distance to a point of the solid and SafetyToOut never larger than the distance to a point that is not in it.", "quantifier": "all valid spheres, all pairs of points", "why_tests_cant": "a bound over a continuum of pairs of points", "anchors": ["VecGeom/volumes/kernel/SphereImplementation.h: SafetyToIn, SafetyToOut", "VecGeom/volumes/ThetaCone_Evolution.h: SafetyToIn, SafetyToOut"]}
{"id": "C170", "title": "Capacity of a sphere", "statement": "Capacity is the Lebesgue measure of the solid.", "quantifier": "all valid spheres", "why_tests_cant": "an integral for all real parameters", "anchors": ["VecGeom/volumes/SphereStruct.h: CalcCapacity", "VecGeom/volumes/UnplacedSphere.h: Capacity"]}
{"id": "C171", "title": "Surface area of a sphere", "statement": "SurfaceArea is the sum of the areas of the two shells, the two plane faces and the two cones.", "quantifier": "all valid spheres", "why_tests_cant": "a formula for all real parameters", "anchors": ["VecGeom/volumes/SphereStruct.h: CalcSurfaceArea", "VecGeom/volumes/UnplacedSphere.h: SurfaceArea"]}
{"id": "C172", "title": "Construction and setters of a sphere", "statement": "A sphere made with given parameters has them; a setter yields the solid that would have been made with the new parameter; the factory makes a ball without sectors exactly if the given solid is a ball.", "quantifier": "all parameters, all points", "why_tests_cant": "for all real parameters and points", "anchors": ["VecGeom/volumes/SphereStruct.h: SphereStruct, CheckThetaAngles, CheckPhiAngles, CheckSPhiAngle, CheckDPhiAngle", "VecGeom/volumes/UnplacedSphere.h: SetInsideRadius, SetInnerRadius, SetOuterRadius, SetStartPhiAngle, SetDeltaPhiAngle, SetStartThetaAngle, SetDeltaThetaAngle", "source/UnplacedSphere.cpp: Maker::MakeInstance"]}
{"id": "C173", "title": "Extent and convexity of a sphere", "statement": "Extent is the tightest box of the solid; a sphere that is declared convex is convex.", "quantifier": "all valid spheres, all pairs of points of them", "why_tests_cant": "for all real parameters and pairs of points", "anchors": ["source/UnplacedSphere.cpp: Extent", "VecGeom/volumes/SphereStruct.h: IsConvex", "VecGeom/volumes/UnplacedSphere.h: IsConvex"]}
{"id": "C174", "title": "Sampling of a sphere", "statement": "SamplePointOnSurface gives points of the surface; each part is chosen in proportion to its area.", "quantifier": "all valid spheres, all random numbers", "why_tests_cant": "for all values of the random numbers", "anchors": ["source/UnplacedSphere.cpp: SamplePointOnSurface"]}
{"id": "C175", "title": "Distances of full shells", "statement": "From outside or from the hole, DistanceToIn leads to the first point of the solid on the ray, or is infinite if there is none; from within, DistanceToOut leads to the first point of a shell with all points before in the solid; from the wrong side the distance is -1.", "quantifier": "all shells with all azimuths and polar angles, all points, all directions of length one", "why_tests_cant": "for all real points and directions", "anchors": ["VecGeom/volumes/kernel/SphereImplementation.h: DistanceToIn, DistanceToOut", "VecGeom/volumes/SphereUtilities.h: IsCompletelyInside, IsCompletelyOutside, IsPointOnSurfaceAndMovingOut"]}
{"id": "C176", "title": "Containment in a torus", "statement": "Contains and Inside agree with the solid: a point reported outside is not in the solid, a point reported inside is in it, and a point reported on the surface is within a stated distance of the boundary.", "quantifier": "all valid tori (with inner radius and azimuth range), all points", "why_tests_cant": "for all real parameters and points", "anchors": ["VecGeom/volumes/kernel/TorusImplementation2.h: Contains, Inside, ContainsKernel, InsideKernel, GenericKernelForContainsAndInside"]}
{"id": "C177", "title": "Safeties of a torus", "statement": "SafetyToIn is never larger than the distance to a point of the solid and SafetyToOut never larger than the distance to a point that is not in it; for a full torus they are these distances.", "quantifier": "all valid tori, all pairs of points", "why_tests_cant": "a bound over a continuum of pairs of points", "anchors": ["VecGeom/volumes/kernel/TorusImplementation2.h: SafetyToIn, SafetyToOut"]}
{"id": "C178", "title": "Capacity of a torus", "statement": "Capacity is the Lebesgue measure of the solid.", "quantifier": "all valid tori", "why_tests_cant": "an integral for all real parameters", "anchors": ["VecGeom/volumes/UnplacedTorus2.h: Capacity, CalculateCached"]}
{"id": "C179", "title": "Surface area of a torus", "statement": "SurfaceArea is the sum of the areas of the two tubes and the two faces.", "quantifier": "all valid ring tori", "why_tests_cant": "an integral for all real parameters", "anchors": ["VecGeom/volumes/UnplacedTorus2.h: SurfaceArea, CalculateCached"]}
{"id": "C180", "title": "Extent, convexity and setters of a torus", "statement": "Extent holds the solid and is tight; a torus that is declared convex is convex; a setter yields the solid that would have been made with the new parameter.", "quantifier": "all valid tori, all points", "why_tests_cant": "for all real parameters and points", "anchors": ["source/UnplacedTorus2.cpp: Extent, DetectConvexity", "VecGeom/volumes/UnplacedTorus2.h: SetRMin, SetRMax, SetRTor, SetSPhi, SetDPhi"]}
{"id": "C181", "title": "Sampling of a torus", "statement": "SamplePointOnSurface gives points of the surface, uniformly.", "quantifier": "all valid tori, all random numbers", "why_tests_cant": "for all values of the random numbers", "anchors": ["source/UnplacedTorus2.cpp: SamplePointOnSurface"]}
{"id": "C182", "title": "Solutions of cubic and quartic equations", "statement": "The solvers that the torus uses return the real solutions, all of them and nothing else, those of a quartic in increasing order; the sorting network sorts.", "quantifier": "all coefficients", "why_tests_cant": "for all real coefficients", "anchors": ["VecGeom/volumes/kernel/TorusImplementation2.h: SolveCubic, SolveQuartic, Sort4, SignedCbrt"]}
{"id": "C183", "title": "Equation of a ray and a torus", "statement": "The equation that is solved for a ray and a tube has as its solutions exactly the distances at which the ray is at the surface of the tube.", "quantifier": "all tubes, all points, all unit directions, all real distances", "why_tests_cant": "for all real parameters", "anchors": ["VecGeom/volumes/kernel/TorusImplementation2.h: ToBoundary"]}
{"id": "C184", "title": "DistanceToOut of a torus", "statement": "For a point of the solid, DistanceToOut is the distance at which the ray leaves the solid: until then it stays inside, and it leaves there; the result is a number.", "quantifier": "all valid tori, all points of the solid, all unit directions", "why_tests_cant": "for all rays, all points of each", "anchors": ["VecGeom/volumes/kernel/TorusImplementation2.h: DistanceToOut, ToBoundary"]}
{"id": "C185", "title": "DistanceToIn of a torus", "statement": "For a point outside, DistanceToIn is the distance at which the ray first meets the solid, and it is infinite if the ray misses it.", "quantifier": "all valid tori, all points outside, all unit directions", "why_tests_cant": "for all rays, all points of each", "anchors": ["VecGeom/volumes/kernel/TorusImplementation2.h: DistanceToIn, ToBoundary"]}
{"id": "C186", "title": "Intersection of boxes", "statement": "IntersectionExist is true exactly if the two boxes have a point in common, both for aligned boxes and for boxes with any position and orientation, and it does not depend on their order.", "quantifier": "all aligned boxes; all pairs of boxes, all rotations (and reflections) and translations", "why_tests_cant": "for all orientations; an intersection has to be found or ruled out among infinitely many points", "anchors": ["VecGeom/volumes/utilities/VolumeUtilities.h: IntersectionExist"]}
{"id": "C187", "title": "Containment and safeties of coaxial cones", "statement": "Contains of coaxial cones is true exactly for the points of the union of the cones; Inside puts no point inside that is not in the union, no point outside that is in it, and only points near its surface on the surface; SafetyToIn is not more than the distance to any point of the solid and SafetyToOut not more than the distance to any point that is not in it.", "quantifier": "all numbers of cones, all radii, heights and ranges of azimuth that make sense, all points", "why_tests_cant": "for any number of cones and all points", "anchors": ["VecGeom/volumes/kernel/CoaxialConesImplementation.h: Contains", "VecGeom/volumes/kernel/CoaxialConesImplementation.h: Inside", "VecGeom/volumes/kernel/CoaxialConesImplementation.h: GenericKernelForContainsAndInside", "VecGeom/volumes/kernel/CoaxialConesImplementation.h: SafetyToIn", "VecGeom/volumes/kernel/CoaxialConesImplementation.h: SafetyToOut"]}
{"id": "C188", "title": "Capacity, area, extent and distances of coaxial cones", "statement": "Capacity of coaxial cones is the volume of the union, SurfaceArea its area, Extent a box around it; DistanceToIn is the distance at which a ray enters the first of the cones, and a ray does not leave the solid before DistanceToOut and leaves it there.", "quantifier": "all numbers of cones, all radii, heights and ranges of azimuth that make sense, all points and directions", "why_tests_cant": "volumes are integrals, and distances range over all rays", "anchors": ["VecGeom/volumes/CoaxialConesStruct.h: Capacity", "VecGeom/volumes/CoaxialConesStruct.h: SurfaceArea", "VecGeom/volumes/CoaxialConesStruct.h: SurfaceAreaOfZPlanes", "VecGeom/volumes/UnplacedCoaxialCones.h: Capacity", "VecGeom/volumes/UnplacedCoaxialCones.h: SurfaceArea", "VecGeom/volumes/UnplacedCoaxialCones.h: Extent", "VecGeom/volumes/kernel/CoaxialConesImplementation.h: DistanceToIn", "VecGeom/volumes/kernel/CoaxialConesImplementation.h: DistanceToOut"]}
{"id": "C189", "title": "Containment and extent of assemblies", "statement": "Every point of an assembly lies in the box given by Extent; Contains of an assembly is true exactly for the points that are in one of its daughters, whatever the assemblies placed in it, and it ends.", "quantifier": "all histories of creating assemblies and placing daughters, all depths of nesting, all placements, all points", "why_tests_cant": "holds for any history and depth", "anchors": ["VecGeom/volumes/UnplacedAssembly.h: Contains", "VecGeom/volumes/UnplacedAssembly.h: AddVolume", "source/UnplacedAssembly.cpp: Extent", "source/LogicalVolume.cpp: PlaceDaughter"]}
{"id": "C190", "title": "Safety and distance to assemblies", "statement": "SafetyToIn of an assembly is not more than the distance to any point of a daughter at any depth, and a ray meets no point of a daughter before DistanceToIn.", "quantifier": "all histories, depths of nesting, placements, points and directions", "why_tests_cant": "holds for any history and depth and for all rays", "anchors": ["VecGeom/volumes/UnplacedAssembly.h: SafetyToIn", "VecGeom/volumes/UnplacedAssembly.h: DistanceToIn", "VecGeom/volumes/kernel/BoxImplementation.h: Intersect", "VecGeom/navigation/SimpleSafetyEstimator.h: ComputeSafetyToDaughtersForLocalPoint"]}
{"id": "C191", "title": "Containment, safeties and capacity of generic polycones", "statement": "For a solid built from sections of coaxial cones: Contains is true exactly for the points of the solid, Inside reports outside only for points not in the solid, SafetyToIn is not more than the distance to any point of the solid, SafetyToOut is not more than the distance to any point outside; Capacity is the volume of the solid.", "quantifier": "all lists of sections, all radii and angles, all points", "why_tests_cant": "holds for any number of sections and cones and for all points", "anchors": ["VecGeom/volumes/kernel/GenericPolyconeImplementation.h: GenericKernelForContainsAndInside", "VecGeom/volumes/kernel/GenericPolyconeImplementation.h: Contains", "VecGeom/volumes/kernel/GenericPolyconeImplementation.h: Inside", "VecGeom/volumes/kernel/GenericPolyconeImplementation.h: SafetyToIn", "VecGeom/volumes/kernel/GenericPolyconeImplementation.h: SafetyToOut", "VecGeom/volumes/GenericPolyconeStruct.h: Set", "VecGeom/volumes/GenericPolyconeStruct.h: GetSectionIndex", "VecGeom/volumes/GenericPolyconeStruct.h: Capacity"]}
{"id": "C192", "title": "DistanceToOut of generic polycones", "statement": "DistanceToOut of a generic polycone ends, and for a point of the solid it is the distance along the ray to the point where the ray leaves the solid.", "quantifier": "all lists of sections, all points of the solid, all directions", "why_tests_cant": "holds for any number of sections and for all rays; termination is not seen in finite tests", "anchors": ["VecGeom/volumes/kernel/GenericPolyconeImplementation.h: DistanceToOut"]}
{"id": "C193", "title": "Containment in sets of planes", "statement": "Contains of a set of planes is true exactly for the points below all planes if the set is convex, and below one of them if it is not; Inside answers accordingly with the tolerance; a set that was assigned from another behaves like it.", "quantifier": "all lists of planes, both kinds of sets, all points", "why_tests_cant": "holds for any number of planes and all points", "anchors": ["VecGeom/volumes/Planes.h: Contains", "VecGeom/volumes/Planes.h: Inside", "source/Planes.cpp: operator="]}
{"id": "C194", "title": "Distances to sets of planes", "statement": "Distance along a ray is where the first plane is crossed; Distance of a point inside or outside is not more than the distance to any plane.", "quantifier": "all lists of planes, all points and directions", "why_tests_cant": "holds for any number of planes and all rays", "anchors": ["VecGeom/volumes/Planes.h: Distance"]}
{"id": "C195", "title": "DistanceToOut of sets of quadrilaterals", "statement": "From a point below all planes of a set of quadrilaterals the ray stays below them up to DistanceToOut, as long as its height is between the limits; where DistanceToOut is finite, a plane is crossed there within the limits.", "quantifier": "all lists of quadrilaterals, all points, directions and limits of the height", "why_tests_cant": "holds for any number of quadrilaterals and all rays", "anchors": ["VecGeom/volumes/Quadrilaterals.h: DistanceToOut"]}
{"id": "C196", "title": "Exact distance to a quadrilateral", "statement": "Set computes the plane of a flat convex quadrilateral and the planes of its sides; the test of hits accepts all points of the quadrilateral and only points at most the tolerance beyond a side; ScalarDistanceSquared is the square of the distance to the nearest point of the quadrilateral.", "quantifier": "all flat convex quadrilaterals, all points", "why_tests_cant": "holds for all corners and all points", "anchors": ["VecGeom/volumes/Quadrilaterals.h: ScalarDistanceSquared", "VecGeom/volumes/Quadrilaterals.h: RayHitsQuadrilateral", "source/Quadrilaterals.cpp: Set", "VecGeom/volumes/kernel/GenericKernels.h: DistanceToLineSegmentSquared1"]}
{"id": "C197", "title": "DistanceToIn of sets of quadrilaterals", "statement": "DistanceToIn is finite exactly if the ray comes from the asked side to one of the quadrilaterals and passes it within its sides, up to the tolerance; it is then where the ray passes the first such quadrilateral of the list, or zero if the start is nearer to its plane than the tolerance; a ray that meets a flat convex quadrilateral at a point is answered with the distance of this point up to the tolerance.", "quantifier": "all lists of quadrilaterals, both sides, all points and directions", "why_tests_cant": "holds for any number of quadrilaterals and all rays", "anchors": ["VecGeom/volumes/Quadrilaterals.h: DistanceToIn"]}
{"id": "C198", "title": "Area of quadrilaterals and points on them", "statement": "The area of a flat convex quadrilateral is that of the formula of Gauss, whichever corner is first; every point that is sampled on a face belongs to it, also for degenerate faces, and every point of a convex face can be sampled; the points are uniform.", "quantifier": "all quadrilaterals, all random numbers from 0 to 1", "why_tests_cant": "holds for all corners and all random numbers", "anchors": ["VecGeom/volumes/Quadrilaterals.h: GetQuadrilateralArea", "VecGeom/volumes/Quadrilaterals.h: GetPointOnFace", "VecGeom/volumes/Quadrilaterals.h: GetPointOnTriangle"]}
{"id": "C199", "title": "Containment in polyhedra", "statement": "The search of the segment of a height finds the segment between whose planes the height is, at planes within the tolerance the first one that starts there; the search of the phi section finds the first section that holds the point. Contains of a polyhedron is true exactly for the points of the bounds that are, in the segment of their height, below all outer planes, not below all inner planes and within the phi planes; at two planes of the same height for the points in the ring of one of them.", "quantifier": "all numbers of segments and sides, all planes, all points", "why_tests_cant": "holds for any number of segments and all points", "anchors": ["VecGeom/volumes/kernel/PolyhedronImplementation.h: FindZSegment", "VecGeom/volumes/kernel/PolyhedronImplementation.h: FindPhiSegment", "VecGeom/volumes/kernel/PolyhedronImplementation.h: ScalarContainsKernel"]}
{"id": "C200", "title": "Inside of polyhedra", "statement": "Inside answers inside exactly for the points at least the tolerance away from the end planes, outer, inner and phi planes; points that are inside are contained, and contained points are not outside; at two planes of the same height the answer follows from the rings of both.", "quantifier": "all numbers of segments and sides, all planes, all points", "why_tests_cant": "holds for any number of segments and all points", "anchors": ["VecGeom/volumes/kernel/PolyhedronImplementation.h: ScalarInsideKernel", "VecGeom/volumes/kernel/PolyhedronImplementation.h: ScalarInsideSegBorder"]}
{"id": "C201", "title": "Capacity of polyhedra", "statement": "The capacity of a polyhedron is the integral of the areas of its sections: at every height, the sides between the inner and the outer radius, as many as the polyhedron has, each of area r^2 tan(half the angle of a side); with and without a cut in phi, also where radii jump at a height.", "quantifier": "all numbers of planes and sides, all heights in order, all radii in order, all angles with sides below half a turn", "why_tests_cant": "equality of a sum over any number of segments with an integral, for all real arguments", "anchors": ["source/UnplacedPolyhedron.cpp: UnplacedPolyhedron::Capacity", "VecGeom/volumes/PolyhedronStruct.h: PolyhedronStruct::Initialize"]}
{"id": "C202", "title": "Surface area of polyhedra", "statement": "The surface area of a polyhedron is the sum of the areas of the trapezoids of its outer and inner walls, of its two cuts if it is a sector, and of its two ends.", "quantifier": "all numbers of planes and sides, all heights in order, all radii in order, all angles with sides below half a turn", "why_tests_cant": "holds for any number of segments and all real arguments", "anchors": ["source/UnplacedPolyhedron.cpp: UnplacedPolyhedron::SurfaceArea"]}
{"id": "C203", "title": "Extent of polyhedra", "statement": "The box that the extent of a polyhedron gives contains every point of the polyhedron, and it lies in every box that does.", "quantifier": "all numbers of planes and sides, all radii, all angles, all points", "why_tests_cant": "ranges over all points of the body and all boxes around it", "anchors": ["source/UnplacedPolyhedron.cpp: UnplacedPolyhedron::Extent"]}
{"id": "C204", "title": "Segment and triangle tests of polyhedra", "statement": "The squared distance of a point to a segment is the smallest one to a point of the segment; a point is in a triangle exactly if the test says so.", "quantifier": "all segments, triangles and points", "why_tests_cant": "ranges over all points in space", "anchors": ["source/UnplacedPolyhedron.cpp: UnplacedPolyhedron::DistanceSquarePointToSegment", "source/UnplacedPolyhedron.cpp: UnplacedPolyhedron::InsideTriangle"]}
{"id": "C205", "title": "Points sampled on the ends of polyhedra", "statement": "The points that are sampled on the ends of a polyhedron are points of the polyhedron at its first or last plane, and each end gets a share of them as large as its area.", "quantifier": "all numbers of planes and sides, all heights, radii and angles, all random numbers", "why_tests_cant": "ranges over all shapes and all random numbers; shares of random choices are not seen in single points", "anchors": ["source/UnplacedPolyhedron.cpp: UnplacedPolyhedron::SamplePointOnSurface", "source/UnplacedPolyhedron.cpp: UnplacedPolyhedron::GetPointOnTriangle"]}
{"id": "C206", "title": "Bounding tube of polyhedra", "statement": "The radii and the length of the bounding tube that a polyhedron is built with hold every point of the polyhedron strictly, so that no point of it is rejected early; they are at most the tolerance larger than they have to be.", "quantifier": "all numbers of planes and sides, all heights in order, all radii and angles, all points of the polyhedron", "why_tests_cant": "ranges over all points of all polyhedra", "anchors": ["VecGeom/volumes/PolyhedronStruct.h: PolyhedronStruct::Initialize"]}
{"id": "C207", "title": "Sides and walls of polyhedra", "statement": "The points of a polyhedron without a cut in phi (the union of its sides between the inner and the outer radius) are exactly the points at a height between two planes that are below all outer walls and not below all inner walls, which is what containment looks at.", "quantifier": "all numbers of planes and sides, all heights, radii and starting angles, all points", "why_tests_cant": "ranges over all points in space and all numbers of sides", "anchors": ["VecGeom/volumes/PolyhedronStruct.h: PolyhedronStruct::Initialize", "VecGeom/volumes/kernel/PolyhedronImplementation.h: ScalarContainsKernel"]}

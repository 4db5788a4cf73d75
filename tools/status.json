{
 "C09": {
  "status": "partial",
  "note": "holds when the world placement acts as the identity; C09_world_counterexample shows it fails otherwise"
 },
 "C26": {
  "status": "partial",
  "note": "the specialised kernels agree only for the codes listed in the theorem; counterexamples show the others"
 },
 "C11": {
  "status": "partial",
  "note": "exact for start positions at bit 0 or 7 of a byte; C11_actual gives the answer for every start, C11_counterexample shows it is wrong inside a byte"
 },
 "C12": {
  "status": "partial",
  "note": "upward searches need that no bit is stored past the logical size (C12_first_counterexample otherwise); downward searches need a non-empty set (C12_last_empty: undefined otherwise)"
 },
 "C14": {
  "status": "partial",
  "note": "holds for sets without bits stored past the logical size; C14_hidden_bits is a counterexample reachable with <<="
 },
 "C15": {
  "status": "partial",
  "note": "ResetAllBits(false) and Clear are exact; ResetAllBits(true) sets only every eighth bit (C15_reset_true_counterexample)"
 },
 "C53": {
  "status": "partial",
  "note": "compact copies that drop more than three bytes overflow the allocation (C53_compact_overflow); assignment to a smaller set leaves an unreadable tail (C53_assign_truncates)"
 },
 "C16": {
  "status": "partial",
  "note": "assignment appends to a non-empty target (C16_assign_counterexample), a capacity of zero cannot grow (C16_capacity_zero) and construction from an initializer list writes to unowned memory (C16_initializer_list); the histories of all other operations are exact"
 },
 "C17": {
  "status": "proved",
  "note": "for grids whose number of voxels fits an int; C17_overflow shows that larger grids overflow"
 },
 "C18": {
  "status": "partial",
  "note": "voxel choice and disjointness proved for the half open region; the reported mid point is wrong from the fourth cell on (C18_position_counterexample) and points on an upper face get a foreign voxel (C18_upper_face)"
 },
 "C19": {
  "status": "partial",
  "note": "fails when the first key after a clear equals the last key before it, and for the first key -1 (C19_clear_counterexample)"
 },
 "C21": {
  "status": "proved",
  "note": "exact while the geometry is open (C21_find_placed, C21_find_logical); lookups by label and soundness for every history. C21_clear_counterexample: Clear restarts the ids, so destroying an older volume afterwards removes a live one"
 },
 "C22": {
  "status": "partial",
  "note": "closing is safe exactly if the ids in use are 0..count-1 (C22_close_safe_iff); then every volume is in the slot of its id and the geometry is unchanged. Destroying a volume before closing makes it write outside the buffer (C22_gap_counterexample)"
 },
 "C57": {
  "status": "partial",
  "note": "holds for the original addresses only; the address a volume has after closing converts to index 0 (C57_compacted_index_zero), and converting an unknown index registers a null volume (C57_unknown_index)"
 },
 "C29": {
  "status": "partial",
  "note": "holds for extents centred at the local origin; C29_off_centre_counterexample shows it fails otherwise"
 },
 "C32": {
  "status": "proved",
  "note": "for depths 0 to 29 (single daughter with default depth: assumes a small result of the undefined conversion of -inf); C32_depth_limit_counterexample: depths 30 to 32, allowed by the documentation, overflow"
 },
 "C33": {
  "status": "proved",
  "note": "for the direction used by the box tests (components moved from zero by 1e-30); C33_hit_placed for the true ray with the margin of the boxes"
 },
 "C43": {
  "status": "proved",
  "note": "for the direction with components moved from zero by 1e-30 (C43_distance_in_true_ray for the true ray) and up to half the tolerance; C43_distance_out_negative_counterexample and C43_normal_far_counterexample show what fails in the tolerance band and for the valid flag"
 },
 "C44": {
  "status": "proved",
  "note": "for radii not below the tolerance; the tangential cases inside the tolerance band are wrong (counterexample theorems)"
 },
 "C58": {
  "status": "partial",
  "note": "the setters of box and orb leave the cached bounding box stale (counterexample theorems); right after construction, and exactly when the dimensions equal those of the construction"
 },
 "C38": {
  "status": "partial",
  "note": "complete for at most 20000 candidates; C38_overflow_counterexample: more candidates overflow the stack array"
 },
 "C39": {
  "status": "partial",
  "note": "hybrid search for up to 20000 daughters, flat search for up to 2000 daughters and directions without zero components (C39_flat_parallel_counterexample: division by zero otherwise)"
 },
 "C60": {
  "status": "partial",
  "note": "for at most 2000 daughters; C60_overflow_counterexample: the hybrid work space overflows beyond that"
 },
 "C40": {
  "status": "proved",
  "note": "for volumes with the default level locators (what every constructor sets); C40_no_locator_counterexample: without locators the search stops one level down"
 },
 "C41": {
  "status": "proved",
  "note": "RelocatePointFromPath proved outright. RelocatePointFromPathForceDifferent: exact result in C41_force_different, equal to locating from the top if the volume left contains the point nowhere (C41_force_same); C41_shared_placement_counterexample otherwise"
 },
 "C42": {
  "status": "partial",
  "note": "holds unless the geometry reports an infinite distance; then the step can exceed the limit (C42_escape_limit_counterexample) and a state holding only the world is a null dereference (C42_escape_world_counterexample). The variant returning the safety can return a negative step (C42_safety_negative_counterexample)"
 },
 "C45": {
  "status": "proved",
  "note": "membership exact for arbitrary trees; classification sound for trees of unions and exact away from common surfaces; C45_union_edge_counterexample and C45_subtraction_face_counterexample show what happens on common surfaces"
 },
 "C46": {
  "status": "partial",
  "note": "holds for constituents that are not moved; C46_moved_twice gives the extent computed in general, C46_counterexample shows for all three operations that it misses moved constituents"
 },
 "C47": {
  "status": "partial",
  "note": "safety to enter proved; safety to leave for left constituents that are not moved, C47_left_moved_counterexample otherwise"
 },
 "C48": {
  "status": "proved",
  "note": "for thresholds of at least one; C48_zero_counterexample: the threshold zero dereferences null for every volume. Shared unplaced volumes are modelled as copies"
 },
 "C63": {
  "status": "partial",
  "note": "DistanceToOut of the intersection only for left constituents that are not moved (C63_left_moved_counterexample); the distance to enter a difference is too long by the push (C63_subtraction_in_counterexample)"
 },
 "C49": {
  "status": "partial",
  "note": "membership, classification, distances and the safety to enter for all nonzero scales and placements; leaving only for a placed volume that is not moved (C49_moved_counterexample); extent and capacity only for positive scales (C49_extent_counterexample, C49_capacity_counterexample)"
 },
 "C50": {
  "status": "proved",
  "note": "from points within the tolerance outside a face the distance to leave may be negative (C50_exit_negative_counterexample); degenerate corners are accepted (C50_degenerate_counterexample)"
 },
 "C64": {
  "status": "partial",
  "note": "valid normals are not zero and not longer than one, but not always unit vectors (C64_normal_counterexample); the bounding box is not computed by the constructor from arrays (C64_bbox_counterexample); everything else holds"
 },
 "C65": {
  "status": "partial",
  "note": "choice and unit length proved for all trees; the right constituent and the outward direction proved for points on the surface of one constituent whose reported values hang together; counterexample for a union with an empty constituent"
 },
 "C66": {
  "status": "proved",
  "note": ""
 },
 "C67": {
  "status": "partial",
  "note": "normals and scale factors, extent, sampling, outward direction proved; the code violates the claim for areas after SetDimensions, bounding box after setters, length of the normal at edges, flag far from the solid, mesh: counterexamples proved"
 },
 "C68": {
  "status": "partial",
  "note": "membership, one-sided classification and safeties proved for all histories that fit the specialisation; width of the tolerance band proved for faces along x and z, with counterexample along y; counterexample for y setters on Trd1"
 },
 "C69": {
  "status": "partial",
  "note": "hit, no point passed over, completeness up to rays within kTiny of an edge proved; counterexamples for small negative distances and rays through edges"
 },
 "C70": {
  "status": "partial",
  "note": "parameters, normals, face areas, sampling, extent, mesh and factory proved; the code violates the claim for SurfaceArea and for the bounding box after setters: counterexamples proved"
 },
 "C71": {
  "status": "partial",
  "note": "proved for all programs without self-assignment and without assignment from an empty container with memory; both excluded cases have counterexamples"
 },
 "C72": {
  "status": "partial",
  "note": "proved for all programs without self-assignment, which has a counterexample"
 },
 "C73": {
  "status": "partial",
  "note": "same and larger capacities proved; counterexample for smaller capacities"
 },
 "C74": {
  "status": "proved",
  "note": "all hash functions and programs; exceptions end the program. Erasing through iterators sees every entry at least once (counterexample for exactly once)"
 },
 "C75": {
  "status": "proved",
  "note": "also as a corollary that only counts insertions"
 },
 "C76": {
  "status": "proved",
  "note": "for constructed sectors; the angle setters do not update the planes (counterexample)"
 },
 "C77": {
  "status": "proved",
  "note": "classification for radii above the tolerance; counterexample below it"
 },
 "C78": {
  "status": "proved",
  "note": ""
 },
 "C79": {
  "status": "partial",
  "note": "proved for every type but openings of exactly pi, where the code is wrong; the lower bound for openings above pi needs the point not to be within the tolerance behind the continuation of a face (counterexamples)"
 },
 "C80": {
  "status": "partial",
  "note": "soundness for all tubes; completeness for tubes without sector and points not in the open interior; it is false within the tolerance and for rays through the edge of a solid sector (counterexamples)"
 },
 "C81": {
  "status": "proved",
  "note": ""
 },
 "C82": {
  "status": "proved",
  "note": "real arithmetic"
 },
 "C83": {
  "status": "partial",
  "note": "proved for the radii and the half length; false for the angles, which leave the phi wedge stale (counterexample)"
 },
 "C84": {
  "status": "partial",
  "note": "proved on points of exactly one face; unit length fails on the axis of a half tube (counterexample)"
 },
 "C85": {
  "status": "proved",
  "note": "real arithmetic"
 },
 "C86": {
  "status": "proved",
  "note": "real arithmetic"
 },
 "C87": {
  "status": "partial",
  "note": "proved unless the direction is almost but not quite parallel to the axis (counterexamples)"
 },
 "C88": {
  "status": "partial",
  "note": "proved unless the direction is almost but not quite parallel to the axis (counterexample); hits for smaller semi-axes up to 10^6 and rays up to 10^20"
 },
 "C89": {
  "status": "partial",
  "note": "all parts proved except that the half length is not checked (counterexample)"
 },
 "C90": {
  "status": "proved",
  "note": "real arithmetic; slack for the lateral surface is scaled by the ratio of the semi-axes"
 },
 "C91": {
  "status": "proved",
  "note": "termination, symmetries and the bound for the difference from the arc length"
 },
 "C92": {
  "status": "proved",
  "note": "real arithmetic"
 },
 "C93": {
  "status": "proved",
  "note": "real arithmetic; extent for coordinates up to kInfLength"
 },
 "C94": {
  "status": "proved",
  "note": "real arithmetic"
 },
 "C95": {
  "status": "partial",
  "note": "exact if no coefficient is set to 0, within 1e-9(|x|+|y|+1) otherwise (counterexample); stars that cross themselves are reported as convex (counterexample)"
 },
 "C96": {
  "status": "partial",
  "note": "real arithmetic; not convex: off the boundary; convex: strictly, no coefficient set to 0, not exactly the tolerance beyond a plane (counterexample)"
 },
 "C97": {
  "status": "partial",
  "note": "convex: strictly and no coefficient set to 0; not convex: no statement on the sign (counterexample)"
 },
 "C98": {
  "status": "partial",
  "note": "convex: planes symmetric about 0 (counterexample otherwise); not convex: edges crossed at a rate of at least the tolerance, distances up to 1e11"
 },
 "C99": {
  "status": "partial",
  "note": "convex: no slow motion away from a face (counterexample); not convex: negative distances occur (counterexample)"
 },
 "C100": {
  "status": "partial",
  "note": "the surface area is wrong for every polygon (counterexample)"
 },
 "C101": {
  "status": "partial",
  "note": "no coefficient set to 0; points within 1e15"
 },
 "C102": {
  "status": "partial",
  "note": "real arithmetic; the layer is thicker than the tolerance along the longer axes (counterexample)"
 },
 "C103": {
  "status": "proved",
  "note": "real arithmetic"
 },
 "C104": {
  "status": "proved",
  "note": "real arithmetic"
 },
 "C105": {
  "status": "partial",
  "note": "hits only proved if the solid is not too large for the guard of the discriminant (counterexample) and up to a distance of 1e20"
 },
 "C106": {
  "status": "partial",
  "note": "semi-axis in z not checked, SetSemiAxes keeps old cuts, mesh beyond the cuts (counterexamples)"
 },
 "C107": {
  "status": "partial",
  "note": "unit length not on edges beyond the middle (counterexample); semi-axes up to 1e25"
 },
 "C108": {
  "status": "proved",
  "note": "a union without components cannot be queried (counterexample, no component exists there)"
 },
 "C109": {
  "status": "partial",
  "note": "points of common faces are surface although they are inner points of the union (counterexample); everything else proved"
 },
 "C110": {
  "status": "partial",
  "note": "needs positive safeties of the components (counterexample); real arithmetic"
 },
 "C111": {
  "status": "proved",
  "note": "normals for points in or on a component; real arithmetic"
 },
 "C112": {
  "status": "proved",
  "note": "real arithmetic; up to a distance of 1e27 and the range of the boxes"
 },
 "C113": {
  "status": "partial",
  "note": "early end after a short step (counterexample); real arithmetic"
 },
 "C114": {
  "status": "partial",
  "note": "Extent proved; ApproachSolid reports a miss for every ray (counterexample)"
 },
 "C115": {
  "status": "proved",
  "note": "for depths of at least 0"
 },
 "C116": {
  "status": "partial",
  "note": "other depths are accepted and a short file leaves the pool half overwritten (counterexamples)"
 },
 "C117": {
  "status": "partial",
  "note": "self-assignment loses the elements (counterexample); everything else proved"
 },
 "C118": {
  "status": "partial",
  "note": "proved for the mother, for daughters whose boxes reach the voxel and for daughters nearest at a surface point; others are missed (counterexample)"
 },
 "C119": {
  "status": "partial",
  "note": "Contains exact; Inside up to the tolerance, for planes that do not meet in the tube (counterexample otherwise)"
 },
 "C121": {
  "status": "partial",
  "note": "the terms from NonZero (1e-30) are in the statement; near the axis the sector is only claimed while the ray stays off it"
 },
 "C122": {
  "status": "partial",
  "note": "soundness and completeness (full turn) with the point after the far move not in the thin layer below a plane; counterexamples for the rest"
 },
 "C123": {
  "status": "proved",
  "note": "under the hypothesis that the planes do not cross in the tube; counterexample otherwise"
 },
 "C125": {
  "status": "partial",
  "note": "sampling, convexity, radii setters proved; normals partial; SetDz, SetSPhi and the mesh violate the property (counterexamples)"
 },
 "C126": {
  "status": "partial",
  "note": "for one mirror, and placements without a mirror only into volumes not reflected before; counterexamples for the rest"
 },
 "C129": {
  "status": "partial",
  "note": "DistanceToIn without rays that run along a side plane inside by less than half the tolerance; counterexample"
 },
 "C130": {
  "status": "partial",
  "note": "constructors and angle setters; the length setters leave stale planes and twisted faces are accepted: counterexamples"
 },
 "C134": {
  "status": "partial",
  "note": "one face higher than the others by half the tolerance, at points not inside by more than half the tolerance; counterexamples for the rest"
 },
 "C137": {
  "status": "partial",
  "note": "rays within the stated margins of a rim are left open; counterexample for zero on the continuation of the side beyond a lid"
 },
 "C138": {
  "status": "partial",
  "note": "sharpness without directions that are almost but not exactly parallel to the axis; counterexample for points on the surface but above the lid"
 },
 "C139": {
  "status": "partial",
  "note": "true on the lids without the bottom rim; refuted for the side and for the bottom rim"
 },
 "C135": {
  "status": "proved",
  "note": "the closeness bound is C135_near; near the tip it is weak, C135_tip_counterexample shows that this is the code's doing"
 },
 "C136": {
  "status": "proved",
  "note": "for rlo < rhi as documented; the counterexamples show a negative SafetyToIn just outside the side, and the failure for rlo > rhi, which the constructor accepts"
 },
 "C144": {
  "status": "partial",
  "note": "capacity proved; the area formula is proved to be that of walls and lids only, the faces of a sector are missing"
 },
 "C145": {
  "status": "partial",
  "note": "extent, sampling and convexity proved; setters proved up to the fields they forget, with counterexamples"
 },
 "C142": {
  "status": "partial",
  "note": "Contains and the factory are exact; Inside is proved away from the tip of a bore, where a counterexample is given"
 },
 "C143": {
  "status": "partial",
  "note": "both bounds proved for all points; the sign of SafetyToOut fails at the tip of a bore (counterexample)"
 },
 "C146": {
  "status": "partial",
  "note": "proved away from tangents on a wall (counterexample), from lines in a lid plane, and for sectors from lines through the axis"
 },
 "C147": {
  "status": "partial",
  "note": "exact for planes that are equal or further apart than the tolerance; factory product with two planes, reset and close planes fail (counterexamples)"
 },
 "C148": {
  "status": "partial",
  "note": "outside proved but for tips of bores; inside away from inner planes; counterexamples on and near inner planes"
 },
 "C149": {
  "status": "partial",
  "note": "SafetyToOut and both signs proved; SafetyToIn proved for the sections it looks at, with two counterexamples"
 },
 "C150": {
  "status": "partial",
  "note": "capacity proved; SurfaceArea is proved to be walls, faces and two full rings, which is the area only for full polycones without steps (counterexamples)"
 },
 "C151": {
  "status": "partial",
  "note": "extent proved; convexity for different heights, with a counterexample for repeated heights"
 },
 "C152": {
  "status": "partial",
  "note": "exact for Contains and sound for Inside; closeness of surface points holds for squared radii only (counterexample at a thin waist)"
 },
 "C153": {
  "status": "partial",
  "note": "SafetyToOut and both signs proved; SafetyToIn proved where the hole does not matter, with three counterexamples"
 },
 "C154": {
  "status": "partial",
  "note": "capacity proved; SurfaceArea is proved to be an overestimate, exact for cylinders only"
 },
 "C155": {
  "status": "partial",
  "note": "extent and convexity proved; setters without the box, factory without negative angles; counterexamples for box, clone, angles and tube"
 },
 "C156": {
  "status": "partial",
  "note": "points proved to be on the surface; weights with the code's areas; counterexample for a closed waist"
 },
 "C157": {
  "status": "partial",
  "note": "inner wall proved; lids away from the centre, outer wall away from edges"
 },
 "C158": {
  "status": "partial",
  "note": "sign and sharpness proved; staying inside for rays not tangent to the wall (counterexample)"
 },
 "C159": {
  "status": "partial",
  "note": "hit proved; finding the solid away from edges and the squared tolerance, with two counterexamples"
 },
 "C160": {
  "status": "proved",
  "note": ""
 },
 "C161": {
  "status": "proved",
  "note": ""
 },
 "C162": {
  "status": "proved",
  "note": "the area up to the relative error of the perimeter of C91"
 },
 "C163": {
  "status": "partial",
  "note": "extent and convexity proved; the setters leave the old box (counterexample)"
 },
 "C164": {
  "status": "proved",
  "note": ""
 },
 "C165": {
  "status": "partial",
  "note": "proved off the axis; counterexample on the axis"
 },
 "C166": {
  "status": "partial",
  "note": "exact for directions that are not nearly parallel to a line of the wall; counterexample for these"
 },
 "C167": {
  "status": "partial",
  "note": "hit proved; finding the solid for rays that neither graze nor scratch the wall and for points deeper than the tolerance"
 },
 "C168": {
  "status": "partial",
  "note": "all but: points near the axis of spheres with one pole that reach across the equator, or lower hemispheres, are reported on the surface (counterexample)"
 },
 "C169": {
  "status": "proved",
  "note": ""
 },
 "C170": {
  "status": "proved",
  "note": ""
 },
 "C171": {
  "status": "partial",
  "note": "balls and hemispheres with any azimuth range; counterexample for cones"
 },
 "C172": {
  "status": "partial",
  "note": "radii and getters proved; counterexamples for angles, clipping and factory"
 },
 "C173": {
  "status": "proved",
  "note": ""
 },
 "C174": {
  "status": "partial",
  "note": "points are on the surface; weights are wrong for cones and flat sides (proved)"
 },
 "C175": {
  "status": "partial",
  "note": "full shells only; wrong side of DistanceToIn fails at the start azimuth (counterexample); sectors are not modelled"
 },
 "C176": {
  "status": "partial",
  "note": "Inside proved; Contains for full tori, counterexample for sectors; central circle of a solid torus is reported as surface (counterexample)"
 },
 "C177": {
  "status": "proved",
  "note": ""
 },
 "C178": {
  "status": "partial",
  "note": "ring tori (outer radius at most the radius of the central circle); counterexample otherwise"
 },
 "C179": {
  "status": "proved",
  "note": ""
 },
 "C180": {
  "status": "partial",
  "note": "extent and convexity proved; counterexample for setters"
 },
 "C181": {
  "status": "partial",
  "note": "sectors, and full tori that start at 0; counterexamples otherwise and for uniformity"
 },
 "C182": {
  "status": "partial",
  "note": "sorting and cubic proved; quartic if no coefficient is just below a threshold (counterexample) and all solutions are below kInfLength"
 },
 "C183": {
  "status": "proved",
  "note": ""
 },
 "C184": {
  "status": "partial",
  "note": "full tori; rays that the thresholds of the solver do not alter and that do not take the approximation for level rays; counterexample for rays that touch the inner tube; sectors are not proved"
 },
 "C185": {
  "status": "partial",
  "note": "full tori; points in the bounding tube; rays as in C184; counterexample for sectors"
 },
 "C186": {
  "status": "partial",
  "note": "proved for boxes centred in their frames (as those of UnplacedBox) and for aligned boxes; counterexample for other corners"
 },
 "C187": {
  "status": "partial",
  "note": "containment and bounds of the safeties proved; Inside up to the tolerance and the tips of bores; counterexample: a point where two cones touch is put on the surface"
 },
 "C188": {
  "status": "partial",
  "note": "the sum of the struct is the volume if the cones do not overlap; a ray stays in the solid up to DistanceToOut; counterexamples: Capacity, SurfaceArea and Extent of the unplaced volume give nothing, the area misses lids, DistanceToOut ends where cones touch; DistanceToIn is proved to be the least of the distances to the cones, whose own correctness is not proved"
 },
 "C189": {
  "status": "partial",
  "note": "proved for histories in which no assembly gets daughters after it has been placed; counterexample for the others"
 },
 "C190": {
  "status": "partial",
  "note": "safety proved for all; distance for histories in which no assembly gets daughters after it has been placed and directions with no component zero (otherwise the box test divides by zero)"
 },
 "C191": {
  "status": "partial",
  "note": "containment, SafetyToOut and the outside answer proved for all; SafetyToIn for sections with no plane between them and a point above; counterexample for the others; capacity proved if the cones of no section overlap"
 },
 "C192": {
  "status": "partial",
  "note": "one section proved; counterexamples with two sections for points on the bottom and the top"
 },
 "C193": {
  "status": "partial",
  "note": "convex sets and Inside proved; counterexamples for Contains of sets that are not convex and for assignment"
 },
 "C194": {
  "status": "partial",
  "note": "rays proved; Distance of points proved with the flag inverted, counterexample as it is"
 },
 "C195": {
  "status": "proved",
  "note": "for zMin < zMax (the case zMin = zMax tests the hit instead)"
 },
 "C196": {
  "status": "proved",
  "note": "for corners in counterclockwise order, further apart than the tolerance, normals without small components that are not zero"
 },
 "C197": {
  "status": "proved",
  "note": "counterexample shows that the first of the list need not be the nearest; C197_reaches needs an angle of the ray to the plane that is not below t * 1e-20 / tolerance"
 },
 "C198": {
  "status": "partial",
  "note": "area, membership and reach proved; counterexample for uniformity"
 },
 "C199": {
  "status": "partial",
  "note": "planes further apart than twice the tolerance, or at the same height; phi planes of cutouts below 180 degrees are not looked at (counterexample)"
 },
 "C200": {
  "status": "partial",
  "note": "contained points are not outside without cutout below 180 degrees (counterexample); borders without cutout"
 },
 "C201": {
  "status": "proved",
  "note": "`Capacity` as computed on the first call; corners whose coordinates are not set to zero by `FixZeroes`; the section is given by the area of its sides"
 },
 "C202": {
  "status": "partial",
  "note": "first two and last two planes at different heights (counterexample otherwise)"
 },
 "C203": {
  "status": "proved",
  "note": ""
 },
 "C204": {
  "status": "partial",
  "note": "counterexamples; the distance is right only for points across the first end of the segment"
 },
 "C205": {
  "status": "partial",
  "note": "the points are points of the ends; the shares of the two ends are exchanged (counterexample); first two and last two planes at different heights"
 },
 "C206": {
  "status": "proved",
  "note": "radii and length; the angles of the tube of a sector are not modelled"
 },
 "C207": {
  "status": "partial",
  "note": "polyhedra without a cut in phi; the planes of the outer walls have the points below them that the walls have (planes through the corners with the normal away from the axis); planes of the inner walls are not linked"
 }
}
import Verif.AABB.Kernels

/-!
# Lane-packed bounding boxes: the hybrid structure and the flat box lists

Model of `source/HybridManager2.cpp`, `VecGeom/navigation/HybridNavigator2.h`, `HybridSafetyEstimator.h`,
`SimpleABBoxNavigator.h`, `SimpleABBoxSafetyEstimator.h`, `SimpleABBoxLevelLocator.h` and of the packing loop of
`source/ABBoxManager.cpp`.  `V` is the number of lanes `kVS`, `M` the largest float `InfinityLength<float>()`.
`Precision` and `float` are `ℝ` (the narrowing of corners, points and steps to `float` is not modelled).  A lane of a vector
array is addressed by a pair of an index and a lane number; accesses outside an array are `none`.
-/

namespace VecGeom
namespace Hybrid

open AABB

/-- `VECGEOM_MAXDAUGHTERS` (Global.h:104). -/
def maxDaughters : Nat := 2000
/-- `VECGEOM_MAXFACETS` (Global.h:105). -/
def maxFacets : Nat := 20000

/-- Rounding up a quotient (HybridManager2.cpp:62-64, ABBoxManager.cpp:181-182). -/
def ceilDiv (n V : Nat) : Nat := n / V + (if n % V = 0 then 0 else 1)

/-! ## Clustering -/

/-- The centre of a box (HybridManager2.cpp:197). -/
noncomputable def boxCenter (b : Box) : V3 := V3.smul (1 / 2) (b.lo + b.hi)

open Classical in
/-- `std::max_element` with `sortlambda(center)` over a range given as a list (HybridManager2.cpp:209-216): the first of the
largest. -/
noncomputable def maxElement (cen : Nat → V3) (c : V3) : List Nat → Option Nat
  | [] => none
  | a :: l => some (l.foldl (fun best x => if V3.mag2 (cen best - c) < V3.mag2 (cen x - c) then x else best) a)

open Classical in
/-- `std::min_element` with `sortlambda(center)` (HybridManager2.cpp:217): the first of the smallest. -/
noncomputable def minElement (cen : Nat → V3) (c : V3) : List Nat → Option Nat
  | [] => none
  | a :: l => some (l.foldl (fun best x => if V3.mag2 (cen x - c) < V3.mag2 (cen best - c) then x else best) a)

/-- The `while` loop filling one cluster (HybridManager2.cpp:207-226).  `need` counts down from `clustersize`; the set is a list
without repetitions in increasing order; the state is (set, cluster, `meanCenter`, `clusterMean`).  Dereferencing the end iterator of
an empty set is `none`. -/
noncomputable def fillCluster (cen : Nat → V3) : Nat → List Nat → List Nat → V3 → V3 → Option (List Nat × List Nat × V3)
  | 0, set, cl, mean, _ => some (set, cl, mean)
  | need + 1, set, cl, mean, cmean =>
    (if cl.length = 0 then maxElement cen mean set else minElement cen cmean set).bind fun a =>
      let set' := set.erase a
      let cl' := cl ++ [a]
      if set' = [] then some (set', cl', mean)
      else
        let n : ℝ := set'.length
        let k : ℝ := cl'.length
        fillCluster cen need set' cl' (V3.smul (1 / n) (V3.smul (n + 1) mean - cen a))
          (V3.smul (1 / k) (V3.smul (k - 1) cmean + cen a))

/-- The loop over the clusters (HybridManager2.cpp:205-227); clusters not reached stay empty. -/
noncomputable def clusterLoop (cen : Nat → V3) (clustersize : Nat) : Nat → List Nat → V3 → Option (List (List Nat))
  | 0, _, _ => some []
  | k + 1, set, mean =>
    if set = [] then some (List.replicate (k + 1) [])
    else (fillCluster cen clustersize set [] mean 0).bind fun r =>
      (clusterLoop cen clustersize k r.1 r.2.2).map (r.2.1 :: ·)

/-- `InitClustersWithKMeans` (HybridManager2.cpp:187-228) for `k` clusters; `none` for the division by zero clusters. -/
noncomputable def initClusters (boxes : Nat → Box) (n k : Nat) : Option (List (List Nat)) :=
  if k = 0 then none
  else
    let cen := fun i => boxCenter (boxes i)
    let mean := V3.smul (1 / (n : ℝ)) ((List.range n).foldl (fun m i => m + cen i) 0)
    clusterLoop cen ((n + k - 1) / k) k (List.range n) mean

/-! ## The two-level structure -/

/-- An array of `size` vectors of corners (`boxes_v`), by index and lane. -/
structure Store where
  size : Nat
  val : Nat → Nat → V3

/-- `AssignLane` for the three components of `boxes_v[i]` (HybridManager2.cpp:104-109, 121-126). -/
def Store.assign (V : Nat) (s : Store) (i lane : Nat) (v : V3) : Option Store :=
  if i < s.size ∧ lane < V then
    some ⟨s.size, fun i' l' => if i' = i ∧ l' = lane then v else s.val i' l'⟩
  else none

/-- The box stored in a lane of the corners `boxes_v[i], boxes_v[i + 1]`. -/
def Store.box (s : Store) (i lane : Nat) : Box := ⟨s.val i lane, s.val (i + 1) lane⟩

/-- `-InfinityLength<Float_v>()` in all components (HybridManager2.cpp:89). -/
def padV (M : ℝ) : V3 := ⟨-M, -M, -M⟩
/-- The box of a lane never assigned. -/
def padBox (M : ℝ) : Box := ⟨padV M, padV M⟩

/-- The initial corners of a first-level node (HybridManager2.cpp:97). -/
noncomputable def startBox : Box := ⟨⟨kInfLength, kInfLength, kInfLength⟩, ⟨-kInfLength, -kInfLength, -kInfLength⟩⟩

/-- The loop over the daughters of a cluster (HybridManager2.cpp:98-114), `d` the lane, `vi` the variable `vectorindex_v`;
the state is the array and the running corners of the node. -/
noncomputable def fillLeaf (V : Nat) (boxes : Nat → Box) (vi : Nat) : List Nat → Nat → Store → Box → Option (Store × Box)
  | [], _, s, nb => some (s, nb)
  | a :: rest, d, s, nb =>
    (s.assign V vi d (boxes a).lo).bind fun s =>
    (s.assign V (vi + 1) d (boxes a).hi).bind fun s =>
    fillLeaf V boxes vi rest (d + 1) s (nb.union (boxes a))

/-- The loop over the first-level nodes (HybridManager2.cpp:93-127). -/
noncomputable def fillNodes (V : Nat) (boxes : Nat → Box) : List (List Nat) → Nat → Nat → Store → Option Store
  | [], _, _, s => some s
  | c :: cs, i, vi, s =>
    let vi := if i % V = 0 then vi + 2 else vi
    (fillLeaf V boxes vi c 0 s startBox).bind fun r =>
    (r.1.assign V (2 * (V + 1) * (i / V)) (i % V) r.2.lo).bind fun s =>
    (s.assign V (2 * (V + 1) * (i / V) + 1) (i % V) r.2.hi).bind fun s =>
    fillNodes V boxes cs (i + 1) (vi + 2) s

/-- `HybridBoxAccelerationStructure` (HybridManager2.h): `fNumberOfOriginalBoxes`, `fABBoxes_v`, `fNodeToDaughters`. -/
structure Acc where
  n : Nat
  store : Store
  nodes : List (List Nat)

/-- The variable `size` of `GetABBoxes_v` (HybridManager2.h:100-103): the number of pairs of vectors. -/
def queryHalfSize (V n : Nat) : Nat :=
  let first := ceilDiv n V
  ceilDiv first V + first

/-- The variable `vectorsize`: the number of pairs of vectors allocated (HybridManager2.cpp:62-64). -/
def halfSize (V n : Nat) : Nat := ceilDiv (ceilDiv n V) V + ceilDiv n V

/-- `BuildStructure` (HybridManager2.cpp:56-131) for a positive number of daughters (`nullptr` and so `none` for zero). -/
noncomputable def buildStructure (V : Nat) (M : ℝ) (boxes : Nat → Box) (n : Nat) : Option Acc :=
  if n = 0 then none
  else
    (initClusters boxes n (ceilDiv n V)).bind fun clusters =>
    (fillNodes V boxes clusters 0 0 ⟨2 * halfSize V n, fun _ _ => padV M⟩).map fun s => ⟨n, s, clusters⟩

/-! ## Queries of the two-level structure -/

/-- A loop appending to an output array. -/
def collect {β : Type} (g : Nat → Option (List β)) : List Nat → Option (List β)
  | [] => some []
  | x :: xs => (g x).bind fun a => (collect g xs).map (a ++ ·)

/-- One round of the loop over the lanes of a leaf (HybridNavigator2.h:95-98, 137-142; HybridSafetyEstimator.h:80-85): lane `j` is
accepted with value `v` if `f` of its box is `some v`, and the entry is `(nodeToDaughters[node][j], v)`. -/
def leafLane {β : Type} (a : Acc) (f : Box → Option β) (i node j : Nat) : Option (List (Nat × β)) :=
  match f (a.store.box i j) with
  | none => some []
  | some v => (a.nodes[node]?.bind (·[j]?)).map fun d => [(d, v)]

/-- The loop over the lanes of a leaf (HybridNavigator2.h:94-99, 136-143; HybridSafetyEstimator.h:79-86). -/
def leafLanes {β : Type} (V : Nat) (a : Acc) (f : Box → Option β) (i node : Nat) : Option (List (Nat × β)) :=
  if i + 1 < a.store.size then collect (leafLane a f i node) (List.range V) else none

/-- One round of the loop over the lanes of a group of nodes (HybridNavigator2.h:88-101, 131-145; HybridSafetyEstimator.h:75-89). -/
def nodeLane {β : Type} (V : Nat) (a : Acc) (f : Box → Option β) (index nodeindex i : Nat) : Option (List (Nat × β)) :=
  match f (a.store.box index i) with
  | none => some []
  | some _ => leafLanes V a f (index + 2 * (i + 1)) (nodeindex + i)

/-- The loop over the groups of nodes (HybridNavigator2.h:80-104, 125-148; HybridSafetyEstimator.h:69-92).  The first argument bounds
the number of rounds. -/
def scanFrom {β : Type} (V : Nat) (a : Acc) (f : Box → Option β) : Nat → Nat → Nat → Option (List (Nat × β))
  | 0, _, _ => none
  | fuel + 1, index, nodeindex =>
    if index < queryHalfSize V a.n * 2 then
      if index + 1 < a.store.size then
        (collect (nodeLane V a f index nodeindex) (List.range V)).bind fun out =>
        (scanFrom V a f fuel (index + 2 * (V + 1)) (nodeindex + V)).map (out ++ ·)
      else none
    else some []

/-- A query over the structure, writing to an array with `cap` entries: writing more is undefined (the assertions on `count`
are not active in a release build). -/
def scan {β : Type} (V cap : Nat) (a : Acc) (f : Box → Option β) : Option (List (Nat × β)) :=
  (scanFrom V a f (queryHalfSize V a.n * 2 + 1) 0 0).bind fun out => if out.length ≤ cap then some out else none

/-- `GetContainingCandidates_v` (HybridNavigator2.h:70-106) with the array of `BVHContainsLooper` (L196). -/
noncomputable def containingCandidates (V : Nat) (a : Acc) (p : V3) : Option (List Nat) :=
  (scan V maxFacets a (fun b => if b.containsKernel p then some () else none)).map (·.map Prod.fst)

open Classical in
/-- The test of `GetHitCandidates_v` on one lane (HybridNavigator2.h:126-128 and 132-134). -/
noncomputable def hitTest (p d : V3) (maxstep : ℝ) (b : Box) : Option ℝ :=
  let dist := kernel2 b p d.nonZero 0 maxstep
  if dist < maxstep then some dist else none

/-- `GetHitCandidates_v` (HybridNavigator2.h:111-150) with the array of `BVHSortedIntersectionsLooper` (L173). -/
noncomputable def hitCandidates (V : Nat) (a : Acc) (p d : V3) (maxstep : ℝ) : Option (List (Nat × ℝ)) :=
  scan V maxFacets a (hitTest p d maxstep)

open Classical in
/-- The shifting loop of `insertionsort` (HybridNavigator2.h:60-63) on the sorted part, given from its last element down. -/
noncomputable def insertRev (v : Nat × ℝ) : List (Nat × ℝ) → List (Nat × ℝ)
  | [] => [v]
  | x :: xs => if v.2 < x.2 then x :: insertRev v xs else v :: x :: xs

/-- `insertionsort` (HybridNavigator2.h:54-65, SimpleABBoxNavigator.h:40-51).  The counter `hole` is a `short` assigned from
an `unsigned short`: indices above 32767 become negative, so longer arrays are `none`. -/
noncomputable def insertionSort (l : List (Nat × ℝ)) : Option (List (Nat × ℝ)) :=
  if l.length ≤ 32768 then some (l.foldl (fun sorted v => (insertRev v sorted.reverse).reverse) []) else none

open Classical in
/-- The loop over the sorted boxes with the hook of `CheckDaughterIntersections` (HybridNavigator2.h:183-189, 216-228 and
SimpleABBoxNavigator.h:115-150); `dist i s` is `DistanceToIn(localpoint, localdir, s)` of daughter `i`, `last` the volume exited last (or
the blocked volume, L235-290); an infinite distance is not below any step. -/
noncomputable def sortedLoop (n : Nat) (dist : Nat → ℝ → ℝ) (last : Option Nat) :
    List (Nat × ℝ) → ℝ → Option Nat → Option (ℝ × Option Nat)
  | [], step, hit => some (step, hit)
  | (i, box) :: rest, step, hit =>
    if ¬ (step < box) then
      if i < n then
        let d := dist i step
        if d < step ∧ ¬ (d ≤ 0 ∧ last = some i) then sortedLoop n dist last rest d (some i)
        else sortedLoop n dist last rest step hit
      else none
    else some (step, hit)

/-- `CheckDaughterIntersections` of the hybrid navigator (HybridNavigator2.h:206-230 and 233-291). -/
noncomputable def checkDaughterIntersections (V : Nat) (M : ℝ) (a : Acc) (p d : V3) (dist : Nat → ℝ → ℝ) (last : Option Nat)
    (step : ℝ) (hit : Option Nat) : Option (ℝ × Option Nat) :=
  (hitCandidates V a p d (min step M)).bind fun l =>
  (insertionSort l).bind fun l => sortedLoop a.n dist last l step hit

open Classical in
/-- The test of `GetSafetyCandidates_v` on one lane (HybridSafetyEstimator.h:70-72, 76-78; SimpleABBoxSafetyEstimator.h:48-51). -/
noncomputable def safetyTest (p : V3) (limit : ℝ) (b : Box) : Option ℝ :=
  let s := b.safetySqr p
  if s < limit then some s else none

open Classical in
/-- The loop over the candidates in `TreatSafetyToIn` (HybridSafetyEstimator.h:215-232, SimpleABBoxSafetyEstimator.h:88-106);
`safeties i` is `SafetyToIn(localpoint)` of daughter `i`.  The look-up of a daughter outside the list is `none` (the test of the index comes
after it). -/
noncomputable def treatLoop (n : Nat) (safeties : Nat → ℝ) : List (Nat × ℝ) → ℝ → Option ℝ
  | [], s => some s
  | (i, box) :: rest, s =>
    if box < s * s then
      if i < n then
        if safeties i < s then treatLoop n safeties rest (safeties i) else treatLoop n safeties rest s
      else none
    else treatLoop n safeties rest s

open Classical in
/-- `TreatSafetyToIn` of the hybrid estimator (HybridSafetyEstimator.h:196-235) for a volume with daughters; the candidates
are written to an array of `VECGEOM_MAXDAUGHTERS` entries. -/
noncomputable def treatSafetyToIn (V : Nat) (a : Acc) (p : V3) (safeties : Nat → ℝ) (outsafety : ℝ) : Option ℝ :=
  if outsafety > 0 then
    (scan V maxDaughters a (safetyTest p (outsafety * outsafety))).bind fun l => treatLoop a.n safeties l outsafety
  else some outsafety

open Classical in
/-- `ComputeSafetyForLocalPoint` of the hybrid estimator (HybridSafetyEstimator.h:240-250) for a volume with daughters;
`out` is `SafetyToOut` of the mother. -/
noncomputable def computeSafety (V : Nat) (a : Acc) (p : V3) (safeties : Nat → ℝ) (out : ℝ) : Option ℝ :=
  if out ≤ 0 then some 0 else treatSafetyToIn V a p safeties out

/-! ## The flat lists of boxes -/

/-- The inner loop of the packing (ABBoxManager.cpp:214-241): lane `k` of group `g`. -/
def packLane (V : Nat) (M : ℝ) (boxes : Nat → Box) (n g k : Nat) : Box :=
  if 2 * (g * V + k) < 2 * n then boxes (g * V + k) else padBox M

/-- The array built by `InitABBoxes` (ABBoxManager.cpp:181-241) as a list of groups of `V` boxes: the loop runs over
`i = g * V < n`. -/
def initABBoxes (V : Nat) (M : ℝ) (boxes : Nat → Box) (n : Nat) : List (List Box) :=
  ((List.range n).filter (fun i => i % V = 0)).map fun i => (List.range V).map (packLane V M boxes n (i / V))

/-- `GetABBoxes_v` (ABBoxManager.h): the number of groups. -/
def groupCount (V n : Nat) : Nat := ceilDiv n V

/-- One lane in the loops below: the entry is `(box * kVS + i, value)`. -/
def flatLane {β : Type} (V : Nat) (f : Box → Option β) (g k : Nat) (b : Box) : List (Nat × β) :=
  match f b with
  | none => []
  | some v => [(g * V + k, v)]

/-- The loop over groups and lanes of `GetHitCandidates_v` and `GetSafetyCandidates_v` (SimpleABBoxNavigator.h:68-87,
SimpleABBoxSafetyEstimator.h:47-64). -/
def flatScan {β : Type} (V cap : Nat) (groups : List (List Box)) (size : Nat) (f : Box → Option β) : Option (List (Nat × β)) :=
  (collect (fun g => groups[g]?.bind fun bs => collect (fun k => bs[k]?.map (flatLane V f g k)) (List.range V))
    (List.range size)).bind fun out =>
  if out.length ≤ cap then some out else none

open Classical in
/-- The test of `GetHitCandidates_v` of the flat navigator on one lane (SimpleABBoxNavigator.h:69-71): division by the direction
components without `NonZero`. -/
noncomputable def flatHitTest (p d : V3) (M : ℝ) (b : Box) : Option ℝ :=
  let dist := kernel2 b p d 0 M
  if dist < M then some dist else none

open Classical in
/-- `CheckDaughterIntersections` of the flat navigator (SimpleABBoxNavigator.h:93-152) for a volume with daughters.  A zero
direction component divides by zero: `none`. -/
noncomputable def flatCheckDaughterIntersections (V : Nat) (M : ℝ) (boxes : Nat → Box) (n : Nat) (p d : V3)
    (dist : Nat → ℝ → ℝ) (last : Option Nat) (step : ℝ) (hit : Option Nat) : Option (ℝ × Option Nat) :=
  if d.x = 0 ∨ d.y = 0 ∨ d.z = 0 then none
  else
    (flatScan V maxDaughters (initABBoxes V M boxes n) (groupCount V n) (flatHitTest p d M)).bind fun l =>
    (insertionSort l).bind fun l => sortedLoop n dist last l step hit

open Classical in
/-- `TreatSafetyToIn` of the flat estimator (SimpleABBoxSafetyEstimator.h:69-109) for a volume with daughters. -/
noncomputable def flatTreatSafetyToIn (V : Nat) (M : ℝ) (boxes : Nat → Box) (n : Nat) (p : V3) (safeties : Nat → ℝ)
    (outsafety : ℝ) : Option ℝ :=
  if outsafety > 0 then
    (flatScan V maxDaughters (initABBoxes V M boxes n) (groupCount V n) (safetyTest p (outsafety * outsafety))).bind
      fun l => treatLoop n safeties l outsafety
  else some outsafety

/-- The loop over the lanes of a group in `LevelLocateKernel` (SimpleABBoxLevelLocator.h:56-68): `check i` is the outcome of
`CheckCandidateVol` for daughter `i`. -/
noncomputable def locateLanes (n g V : Nat) (bs : List Box) (p : V3) (excl : Option Nat) (check : Nat → Bool) :
    List Nat → Option (Option Nat)
  | [] => some none
  | k :: ks =>
    bs[k]?.bind fun b =>
      if g * V + k < n ∧ b.containsKernel p = true then
        if excl = some (g * V + k) then locateLanes n g V bs p excl check ks
        else if check (g * V + k) then some (some (g * V + k))
        else locateLanes n g V bs p excl check ks
      else locateLanes n g V bs p excl check ks

/-- The loop over the groups in `LevelLocateKernel` (SimpleABBoxLevelLocator.h:48-71). -/
noncomputable def locateGroups (n V : Nat) (groups : List (List Box)) (p : V3) (excl : Option Nat) (check : Nat → Bool) :
    List Nat → Option (Option Nat)
  | [] => some none
  | g :: gs =>
    groups[g]?.bind fun bs => (locateLanes n g V bs p excl check (List.range V)).bind fun
      | some i => some (some i)
      | none => locateGroups n V groups p excl check gs

/-- `LevelLocateKernel` of the flat locator (SimpleABBoxLevelLocator.h:36-72): the index of the daughter, if any. -/
noncomputable def flatLocate (V : Nat) (M : ℝ) (boxes : Nat → Box) (n : Nat) (p : V3) (excl : Option Nat) (check : Nat → Bool) :
    Option (Option Nat) :=
  locateGroups n V (initABBoxes V M boxes n) p excl check (List.range (groupCount V n))

end Hybrid
end VecGeom

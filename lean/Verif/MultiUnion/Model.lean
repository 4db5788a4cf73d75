import Verif.Boolean.Model
import Verif.Hybrid.Model
import Verif.AABB.Kernels

/-!
# Unions of many solids

Model of `VecGeom/volumes/MultiUnionStruct.h`, `VecGeom/volumes/kernel/MultiUnionImplementation.h`, of the bounding box kept by
`VecGeom/volumes/UnplacedMultiUnion.h` and of the safety search with a decreasing limit of
`VecGeom/navigation/HybridSafetyEstimator.h`.  The components are placed volumes reached through their virtual interface, as for boolean
solids (`Boolean.Placed`).  The two-level structure of boxes is the one of `Verif/Hybrid`.  `Precision` and the single precision numbers
of the boxes are `ℝ`; `V` is the number of lanes of a vector and `M` the value written into unused lanes.
-/

namespace VecGeom
namespace MultiUnion

open AABB Hybrid
open Boolean (Placed Solid)

/-- The lists of neighbours: `fBuffer` with its size, the offsets `fNeighbours[i] - fBuffer` and `fNneighbours`
(MultiUnionStruct.h:37-40). -/
structure Neigh where
  size : Nat
  buf : Nat → Nat
  row : Nat → Nat
  cnt : Nat → Nat

/-- `MultiUnionStruct` (MultiUnionStruct.h:21-52) and the inherited corners `fBBox` (UnplacedVolume.h:44).  `fNavHelper` is a null
pointer (`none`) before `Close`.  `fLast` is not used by any of the kernels; the cached capacity and surface area are not modelled. -/
structure MU where
  vols : List Placed
  ext : Box
  nav : Option Acc
  nb : Neigh
  bbox : Box

/-- The constructor (MultiUnionStruct.h:42-50, UnplacedMultiUnion.h:31-37): `ComputeBBox` (UnplacedVolume.h:72-76) copies the extent of
that moment. -/
noncomputable def create : MU := ⟨[], startBox, none, ⟨0, fun _ => 0, fun _ => 0, fun _ => 0⟩, startBox⟩

/-- The box of a component, `ABBoxManager::ComputeABBox(volume, ...)`. -/
noncomputable def boxOf (v : Placed) : Box := computeABBox v.trans v.solid.extent

/-- `AddNode` (MultiUnionStruct.h:62-72). -/
noncomputable def addNode (m : MU) (v : Placed) : MU :=
  let b := boxOf v
  { m with
    ext := ⟨⟨min m.ext.lo.x b.lo.x, min m.ext.lo.y b.lo.y, min m.ext.lo.z b.lo.z⟩,
            ⟨max m.ext.hi.x b.hi.x, max m.ext.hi.y b.hi.y, max m.ext.hi.z b.hi.z⟩⟩
    vols := m.vols ++ [v] }

open Classical in
/-- `ABBoxOverlap` (MultiUnionStruct.h:76-82); `Min` is the smallest of the three components. -/
noncomputable def overlap (a b : Box) : Bool :=
  if min (min (a.hi.x - b.lo.x) (a.hi.y - b.lo.y)) (a.hi.z - b.lo.z) < -kTolerance ∨
     min (min (b.hi.x - a.lo.x) (b.hi.y - a.lo.y)) (b.hi.z - a.lo.z) < -kTolerance then false else true

/-! ## Close -/

/-- `fNeighbours[i][fNneighbours[i]++] = v` (MultiUnionStruct.h:106, 107); writing past the buffer is `none`. -/
def Neigh.push (s : Neigh) (i v : Nat) : Option Neigh :=
  if s.row i + s.cnt i < s.size then
    some { s with
      buf := fun k => if k = s.row i + s.cnt i then v else s.buf k
      cnt := fun k => if k = i then s.cnt i + 1 else s.cnt k }
  else none

/-- One round of the inner loop (MultiUnionStruct.h:105-109); the state is the lists and `newsize`. -/
noncomputable def pairStep (boxes : Nat → Box) (i : Nat) (s : Neigh × Nat) (j : Nat) : Option (Neigh × Nat) :=
  if overlap (boxes i) (boxes j) then
    (s.1.push i j).bind fun t => (t.push j i).map fun t => (t, s.2 + 2)
  else some s

/-- The two loops over the pairs (MultiUnionStruct.h:103-111).  Without any component the bound `nboxes - 1` of the outer loop wraps
round, and the loop makes 2^64 - 1 rounds with empty inner loops: here none. -/
noncomputable def pairLoop (boxes : Nat → Box) (n : Nat) (s : Neigh × Nat) : Option (Neigh × Nat) :=
  (List.range (n - 1)).foldlM (fun s i => (List.range' (i + 1) (n - (i + 1))).foldlM (pairStep boxes i) s) s

/-- One round of the compaction (MultiUnionStruct.h:115-119).  `src` are the lists before, the state is the new buffer with the
offsets and `nextloc - buffer`.  Reading or writing past a buffer is `none`. -/
def compactStep (src : Neigh) (s : Neigh × Nat) (i : Nat) : Option (Neigh × Nat) :=
  if src.row i + src.cnt i ≤ src.size ∧ s.2 + src.cnt i ≤ s.1.size then
    some ({ s.1 with
      buf := fun k => if s.2 ≤ k ∧ k < s.2 + src.cnt i then src.buf (src.row i + (k - s.2)) else s.1.buf k
      row := fun k => if k = i then s.2 else s.1.row k }, s.2 + src.cnt i)
  else none

/-- The lists of neighbours made by `Close` (MultiUnionStruct.h:95-121). -/
noncomputable def closeNeigh (boxes : Nat → Box) (n : Nat) : Option Neigh :=
  (pairLoop boxes n (⟨n * n, fun _ => 0, fun i => i * n, fun _ => 0⟩, 0)).bind fun r =>
  ((List.range n).foldlM (compactStep r.1) ({ r.1 with size := r.2, buf := fun _ => 0 }, 0)).map Prod.fst

/-- The boxes of the components, the array `boxcorners` (MultiUnionStruct.h:90-93). -/
noncomputable def boxesOf (l : List Placed) (i : Nat) : Box :=
  match l[i]? with
  | some v => boxOf v
  | none => startBox

/-- `Close` (MultiUnionStruct.h:84-122).  `BuildStructure` gives a null pointer for no boxes. -/
noncomputable def close (V : Nat) (M : ℝ) (m : MU) : Option MU :=
  (closeNeigh (boxesOf m.vols) m.vols.length).map fun nb =>
    { m with nav := buildStructure V M (boxesOf m.vols) m.vols.length, nb := nb }

/-- `fNeighbours[i]` as a list (MultiUnionImplementation.h:89-91, 219-220). -/
def Neigh.list (s : Neigh) (i : Nat) : List Nat := (List.range (s.cnt i)).map fun k => s.buf (s.row i + k)

/-! ## Containment -/

/-- A loop with a hook that can end it (HybridNavigator2.h:183-189, 198-202; HybridSafetyEstimator.h:186-192). -/
def loopHook {σ α : Type} (hook : σ → α → Option (σ × Bool)) : List α → σ → Option σ
  | [], s => some s
  | x :: xs, s => (hook s x).bind fun r => if r.2 then some r.1 else loopHook hook xs r.1

/-- `BVHContainsLooper` (HybridNavigator2.h:193-203); dereferencing `fNavHelper` before `Close` is `none`. -/
noncomputable def containsLooper {σ : Type} (V : Nat) (m : MU) (p : V3) (hook : σ → Nat → Option (σ × Bool)) (s : σ) : Option σ :=
  m.nav.bind fun a => (containingCandidates V a p).bind fun l => loopHook hook l s

/-- `Contains` (MultiUnionImplementation.h:33-44); the callers initialise the result with `false`
(UnplacedVolumeImplHelper.h:67, SpecializedPlacedVolImplHelper.h:92). -/
noncomputable def contains (V : Nat) (m : MU) (p : V3) : Option Bool :=
  containsLooper V m p (fun _ id => m.vols[id]?.map fun v => let inside := v.contains p; (inside, inside)) false

/-- `Inside` (MultiUnionImplementation.h:46-64). -/
noncomputable def inside (V : Nat) (m : MU) (p : V3) : Option Inside :=
  containsLooper V m p (fun inside id => m.vols[id]?.map fun v =>
    let crt := v.inside p
    if crt = .inside then (.inside, true)
    else if crt = .surface then (.surface, false) else (inside, false)) .outside

/-- `InsideComponent` (MultiUnionImplementation.h:66-83); the component `-1` is `none`. -/
noncomputable def insideComponent (V : Nat) (m : MU) (p : V3) : Option (Option Nat) :=
  containsLooper V m p (fun c id => m.vols[id]?.map fun v => if v.inside p ≠ .outside then (some id, true) else (c, false)) none

/-- `InsideCluster` (MultiUnionImplementation.h:85-98). -/
def insideCluster (m : MU) (p : V3) (component : Nat) : Option (Option Nat) :=
  loopHook (fun c id => m.vols[id]?.map fun v => if v.inside p = .inside then (some id, true) else (c, false))
    (m.nb.list component) none

/-! ## Distances -/

open Classical in
/-- The hook of `DistanceToIn` (MultiUnionImplementation.h:118-126). -/
noncomputable def inHook (m : MU) (p d : V3) (stepMax distance : ℝ) (hitbox : Nat × ℝ) : Option (ℝ × Bool) :=
  if hitbox.2 > min stepMax distance then some (distance, true)
  else m.vols[hitbox.1]?.bind fun v => (v.distanceToIn p d stepMax).map fun crt =>
    (if crt < distance then crt else distance, false)

open Classical in
/-- `DistanceToIn` (MultiUnionImplementation.h:100-131) with `BVHSortedIntersectionsLooper` (HybridNavigator2.h:166-190). -/
noncomputable def distanceToIn (V : Nat) (M : ℝ) (m : MU) (p d : V3) (stepMax : ℝ) : Option ℝ :=
  let distance := kernel2 m.ext p d.nonZero (-kTolerance) kInfLength
  if distance ≥ stepMax then some distance
  else m.nav.bind fun a => (hitCandidates V a p d (min stepMax M)).bind fun l => (insertionSort l).bind fun l =>
    loopHook (inHook m p d stepMax) l kInfLength

/-- `eps` of `DistanceToOut` (MultiUnionImplementation.h:139). -/
noncomputable def kEps : ℝ := 10 * kTolerance

open Classical in
/-- The loop of `DistanceToOut` (MultiUnionImplementation.h:150-164).  The first argument bounds the number of rounds.  The `assert` on
`dstep` is not modelled. -/
noncomputable def outLoop (m : MU) (d : V3) (stepMax : ℝ) : Nat → ℝ → ℝ → V3 → Option Nat → Option ℝ
  | 0, _, _, _, _ => none
  | fuel + 1, distance, dstep, pnew, comp =>
    if dstep > kTolerance then
      match comp with
      | none => some distance
      | some c => m.vols[c]?.bind fun v =>
        (v.distanceToOut (v.trans.transform pnew) (v.trans.transformDirection d) stepMax).bind fun dstep =>
        let distance := distance + (dstep + kEps)
        if m.nb.cnt c = 0 then some distance
        else
          let pnew := pnew + V3.smul (dstep + kEps) d
          (insideCluster m pnew c).bind fun comp => outLoop m d stepMax fuel distance dstep pnew comp
    else some distance

/-- `DistanceToOut` (MultiUnionImplementation.h:133-165). -/
noncomputable def distanceToOut (V fuel : Nat) (m : MU) (p d : V3) (stepMax : ℝ) : Option ℝ :=
  (insideComponent V m p).bind fun comp =>
    match comp with
    | none => some (-1)
    | some c => outLoop m d stepMax fuel (-kEps) 1 p (some c)

/-! ## Safeties -/

open Classical in
/-- One round of the loop over the lanes of a leaf in `GetSafetyCandidates2_v` (HybridSafetyEstimator.h:143-155).  The lanes are tested
against `limit1`, the limit before the loop (L141); the state is the list of candidates and the running limit. -/
noncomputable def rangeLeafLane (a : Acc) (p : V3) (i node : Nat) (limit1 : ℝ) (s : List (Nat × ℝ) × ℝ) (j : Nat) :
    Option (List (Nat × ℝ) × ℝ) :=
  let r := (a.store.box i j).safetyRangeSqr p
  if r.1 < limit1 then
    (a.nodes[node]?.bind (·[j]?)).map fun id => (s.1 ++ [(id, r.1)], if r.2 < s.2 then r.2 else s.2)
  else some s

open Classical in
/-- One round of the loop over the lanes of a group of nodes (HybridSafetyEstimator.h:136-158); the lanes are tested against `limit0`,
the limit after the far corners of the nodes of the group have been used (L134). -/
noncomputable def rangeNodeLane (V : Nat) (a : Acc) (p : V3) (index nodeindex : Nat) (limit0 : ℝ) (s : List (Nat × ℝ) × ℝ) (i : Nat) :
    Option (List (Nat × ℝ) × ℝ) :=
  if ((a.store.box index i).safetyRangeSqr p).1 < limit0 then
    if index + 2 * (i + 1) + 1 < a.store.size then
      (List.range V).foldlM (rangeLeafLane a p (index + 2 * (i + 1)) (nodeindex + i) s.2) s
    else none
  else some s

open Classical in
/-- The limit after the far corners of the nodes of a group (HybridSafetyEstimator.h:130-133). -/
noncomputable def groupLimit (V : Nat) (a : Acc) (p : V3) (index : Nat) (limit : ℝ) : ℝ :=
  (List.range V).foldl (fun limit i =>
    let far := ((a.store.box index i).safetyRangeSqr p).2
    if far < limit then far else limit) limit

/-- The loop over the groups of nodes (HybridSafetyEstimator.h:122-160).  The first argument bounds the number of rounds. -/
noncomputable def rangeScanFrom (V : Nat) (a : Acc) (p : V3) : Nat → Nat → Nat → List (Nat × ℝ) × ℝ → Option (List (Nat × ℝ) × ℝ)
  | 0, _, _, _ => none
  | fuel + 1, index, nodeindex, s =>
    if index < queryHalfSize V a.n * 2 then
      if index + 1 < a.store.size then
        let limit := groupLimit V a p index s.2
        ((List.range V).foldlM (rangeNodeLane V a p index nodeindex limit) (s.1, limit)).bind fun s =>
          rangeScanFrom V a p fuel (index + 2 * (V + 1)) (nodeindex + V) s
      else none
    else some s

/-- `GetSafetyCandidates2_v` (HybridSafetyEstimator.h:109-162) with the array of `BVHSortedSafetyLooper` (L172); more candidates than the
array holds are `none`. -/
noncomputable def rangeCandidates (V : Nat) (a : Acc) (p : V3) (limit : ℝ) : Option (List (Nat × ℝ)) :=
  (rangeScanFrom V a p (queryHalfSize V a.n * 2 + 1) 0 0 ([], limit)).bind fun s =>
    if s.1.length ≤ maxFacets then some s.1 else none

open Classical in
/-- The hook of `SafetyToInComp` (MultiUnionImplementation.h:174-185); the state is safety and component. -/
noncomputable def safetyHook (m : MU) (p : V3) (s : ℝ × Option Nat) (hitbox : Nat × ℝ) : Option ((ℝ × Option Nat) × Bool) :=
  if hitbox.2 > s.1 * s.1 then some (s, true)
  else m.vols[hitbox.1]?.map fun v =>
    let crt := v.safetyToIn p
    (if crt > 0 ∧ crt < s.1 then (crt, some hitbox.1) else s, false)

/-- `SafetyToInComp` (MultiUnionImplementation.h:167-190) with `BVHSortedSafetyLooper` (HybridSafetyEstimator.h:164-193). -/
noncomputable def safetyToInComp (V : Nat) (m : MU) (p : V3) : Option (ℝ × Option Nat) :=
  m.nav.bind fun a => (rangeCandidates V a p kInfLength).bind fun l => (insertionSort l).bind fun l =>
    loopHook (safetyHook m p) l (kInfLength, none)

/-- `SafetyToIn` (MultiUnionImplementation.h:192-204). -/
noncomputable def safetyToIn (V : Nat) (m : MU) (p : V3) : Option ℝ :=
  (insideComponent V m p).bind fun comp =>
    match comp with
    | some _ => some (-1)
    | none => (safetyToInComp V m p).map Prod.fst

open Classical in
/-- One round of the loop over the neighbours (MultiUnionImplementation.h:221-225). -/
noncomputable def outSafetyStep (m : MU) (p : V3) (safety : ℝ) (id : Nat) : Option ℝ :=
  m.vols[id]?.map fun v =>
    let crt := v.safetyToOut (v.trans.transform p)
    if crt > 0 ∧ crt < safety then crt else safety

/-- `SafetyToOut` (MultiUnionImplementation.h:206-227); the `assert` is not modelled. -/
noncomputable def safetyToOut (V : Nat) (m : MU) (p : V3) : Option ℝ :=
  (insideComponent V m p).bind fun comp =>
    match comp with
    | none => some (-1)
    | some c => m.vols[c]?.bind fun v => (m.nb.list c).foldlM (outSafetyStep m p) (v.safetyToOut (v.trans.transform p))

/-- `NormalKernel` (MultiUnionImplementation.h:229-251): the direction and `valid`.  A default constructed vector is zero. -/
noncomputable def normal (V : Nat) (m : MU) (p : V3) : Option (V3 × Bool) :=
  (insideComponent V m p).bind fun comp =>
  (match comp with
    | some c => some (some c)
    | none => (safetyToInComp V m p).map Prod.snd).bind fun comp =>
  match comp with
  | none => some (⟨0, 0, 0⟩, false)
  | some c => (m.vols[c]?).map fun (v : Placed) =>
    let r := v.normal (v.trans.transform p)
    (if r.2 then v.trans.inverseTransformDirection r.1 else ⟨0, 0, 0⟩, r.2)

/-- `ApproachSolid` (UnplacedVolume.h:171-178) on the inherited box. -/
noncomputable def approachSolid (m : MU) (p d : V3) : ℝ := m.bbox.approachSolid p d.inv

end MultiUnion
end VecGeom

import Verif.AABB.Model

/-!
# Bounding volume hierarchy

Model of `VecGeom/base/BVH.h` and `source/BVH.cpp`.  The arrays `fNChild`, `fOffset`, `fNodes` are functions of the node
id, every read in a traversal is guarded by the size of the array (outside: `none`).  `fPrimId` is a list that is
rearranged in place.  What the standard does not fix about `std::sort`, `std::partition`, the conversion to `float` and
the conversion of `-inf` to `int` is an argument (`Std`); the traversal stack holds `BVH_MAX_DEPTH` ids, a write past
its end is `none`.
-/

namespace VecGeom
namespace BVH

open AABB

/-- What is left open by the C++ standard: the order produced by an unstable sort and by a partition, the rounding of the
conversion to `float`, the value of the conversion of `-inf` to `int` (undefined behaviour). -/
structure Std where
  sort : (Nat → Nat → Bool) → List Nat → List Nat
  partition : (Nat → Bool) → List Nat → List Nat × List Nat
  toFloat : ℝ → ℝ
  castNegInf : Int

/-- `v[axis]` for a vector. -/
def comp (v : V3) (axis : Nat) : ℝ := if axis = 0 then v.x else if axis = 1 then v.y else v.z

/-- `BVH_MAX_DEPTH` (BVH.h:34). -/
def maxDepth : Nat := 32

/-! ## Choice of the split -/

open Classical in
/-- `ClosestAxis` (BVH.cpp:176-180). -/
noncomputable def closestAxis (v : V3) : Nat :=
  let w := v.vabs
  if w.x > w.z then (if w.x > w.y then 0 else 1) else (if w.y > w.z then 1 else 2)

open Classical in
/-- `splitAlongLongestAxis` (BVH.cpp:182-190); the product with a basis vector is the component. -/
noncomputable def splitAlongLongestAxis (S : Std) (boxes : Nat → Box) (l : List Nat) (node : Box) : List Nat × List Nat :=
  let p := node.center
  let axis := closestAxis node.size
  S.partition (fun i => decide (comp ((boxes i).center - p) axis < 0)) l

open Classical in
/-- `largestDistanceAlongAxis` (BVH.cpp:192-213).  `std::minmax_element` is used only for the values. -/
noncomputable def largestDistanceAlongAxis (S : Std) (boxes : Nat → Box) (l : List Nat) : List Nat × List Nat :=
  let ext (axis : Nat) : ℝ × ℝ :=
    match l with
    | [] => (0, 0)
    | i :: is =>
      (S.toFloat (is.foldl (fun m j => min m (comp (boxes j).lo axis)) (comp (boxes i).lo axis)),
       S.toFloat (is.foldl (fun m j => max m (comp (boxes j).lo axis)) (comp (boxes i).lo axis)))
  let width (axis : Nat) : ℝ := (ext axis).2 - (ext axis).1
  let a01 := if width 0 < width 1 then 1 else 0
  let splitAxis := if width a01 < width 2 then 2 else a01
  let middle := S.toFloat (((ext splitAxis).2 + (ext splitAxis).1) / 2)
  S.partition (fun i => decide (comp (boxes i).lo splitAxis < middle)) l

open Classical in
/-- `less3D` (BVH.cpp:221-229). -/
noncomputable def less3D (a b : V3) (axis : Nat) : Bool :=
  decide (comp a axis < comp b axis ∨
    (comp a axis = comp b axis ∧
      (comp a ((axis + 1) % 3) < comp b ((axis + 1) % 3) ∨
        (comp a ((axis + 1) % 3) = comp b ((axis + 1) % 3) ∧ comp a ((axis + 2) % 3) < comp b ((axis + 2) % 3)))))

/-- The argument of `less3D` in the comparison `sorter` (BVH.cpp:287-294). -/
noncomputable def sortKey (b : Box) : V3 := b.center + V3.smul (1 / 100) (b.center - b.lo)

/-- The comparison `sorter` (BVH.cpp:287-294). -/
noncomputable def sorter (boxes : Nat → Box) (axis : Nat) (a b : Nat) : Bool :=
  less3D (sortKey (boxes a)) (sortKey (boxes b)) axis

/-- First loop of `sweepSurfaceArea` (BVH.cpp:250-254): areas of the boxes left of each object after the first. -/
noncomputable def sweepLeft (boxes : Nat → Box) : Box → List Nat → List ℝ
  | _, [] => []
  | box, i :: is => box.surfaceArea :: sweepLeft boxes (box.union (boxes i)) is

/-- Second loop of `sweepSurfaceArea` (BVH.cpp:256-260), on the reversed list. -/
noncomputable def sweepRight (boxes : Nat → Box) : Box → List Nat → List ℝ
  | _, [] => []
  | box2, i :: is => (box2.union (boxes i)).surfaceArea :: sweepRight boxes (box2.union (boxes i)) is

/-- `sweepSurfaceArea` (BVH.cpp:245-263). -/
noncomputable def sweepSurfaceArea (boxes : Nat → Box) (l : List Nat) : List (ℝ × ℝ) :=
  match l, l.reverse with
  | i :: is, k :: ks => (0 :: sweepLeft boxes (boxes i) is).zip (sweepRight boxes (boxes k) (k :: ks)).reverse
  | _, _ => []

/-- `splitMetric` (BVH.cpp:311-314); the last term is computed with integer divisions. -/
noncomputable def splitMetric (left right : ℝ) (nObj k : Nat) : ℝ :=
  left * k + right * ((nObj : ℝ) - k) + (1 / 10) * |(((nObj / 2 : Nat) : Int) - ((k / nObj : Nat) : Int) : Int)|

/-- `bestTraversalMetric`, `bestSplitAxis` and `bestSplitObject` (BVH.cpp:282-284); `none` is axis `-1`. -/
structure Best where
  metric : ℝ
  choice : Option (Nat × Nat)

open Classical in
/-- The loop over `splitObject` (BVH.cpp:305-322), `k` is the distance from `begin`. -/
noncomputable def sweepLoop (axis nObj : Nat) (tot : ℝ) : List Nat → List (ℝ × ℝ) → Nat → Best → Best
  | obj :: objs, (l, r) :: areas, k, best =>
    let metric := splitMetric (l / tot) (r / tot) nObj k
    sweepLoop axis nObj tot objs areas (k + 1) (if metric < best.metric then ⟨metric, some (axis, obj)⟩ else best)
  | _, _, _, best => best

/-- One round of the loop over the axes (BVH.cpp:296-323): sort and sweep. -/
noncomputable def axisRound (S : Std) (boxes : Nat → Box) (axis : Nat) (s : List Nat × Best) : List Nat × Best :=
  let l := S.sort (sorter boxes axis) s.1
  let areas := sweepSurfaceArea boxes l
  let tot := match areas with
    | [] => 0
    | a :: _ => a.2
  (l, sweepLoop axis l.length tot l areas 0 s.2)

/-- `surfaceAreaHeuristic` (BVH.cpp:278-334). -/
noncomputable def surfaceAreaHeuristic (S : Std) (boxes : Nat → Box) (l : List Nat) : List Nat × List Nat :=
  let s := axisRound S boxes 2 (axisRound S boxes 1 (axisRound S boxes 0 (l, ⟨(l.length : ℝ), none⟩)))
  match s.2.choice with
  | none => (s.1, [])
  | some (axis, obj) => S.partition (fun i => sorter boxes axis i obj) s.1

/-- `ConstructionAlgorithm` (BVH.cpp:19-23). -/
inductive Algo where
  | splitLongestAxis
  | largestDistance
  | surfaceArea

/-- The table `splittingFunction` (BVH.cpp:340-346): the rearranged range, cut at the returned pivot. -/
noncomputable def split (S : Std) (algo : Algo) (boxes : Nat → Box) (l : List Nat) (node : Box) : List Nat × List Nat :=
  match algo with
  | .splitLongestAxis => splitAlongLongestAxis S boxes l node
  | .largestDistance => largestDistanceAlongAxis S boxes l
  | .surfaceArea => surfaceAreaHeuristic S boxes l

/-! ## Construction -/

/-- The arrays filled by the construction (BVH.h:371-374). -/
structure Arrays where
  prim : List Nat
  offset : Nat → Int
  nchild : Nat → Int
  node : Nat → Box

/-- The entries `first .. last` of `fPrimId`. -/
def seg (prim : List Nat) (first last : Nat) : List Nat := (prim.drop first).take (last - first)

/-- The node box (BVH.cpp:374-376). -/
noncomputable def unionAll (boxes : Nat → Box) : List Nat → Box
  | [] => ⟨0, 0⟩
  | i :: is => is.foldl (fun b j => b.union (boxes j)) (boxes i)

/-- `ComputeNodes` (BVH.cpp:363-389). -/
noncomputable def computeNodes (S : Std) (algo : Algo) (boxes : Nat → Box) (nodes : Nat) (a : Arrays) (id first last : Nat) :
    Arrays :=
  if id ≥ nodes then a
  else
    let a1 := { a with
      nchild := Function.update a.nchild id ((last : Int) - first), offset := Function.update a.offset id (first : Int) }
    if first = last then a1
    else
      let a2 := { a1 with node := Function.update a1.node id (unionAll boxes (seg a.prim first last)) }
      if first + 1 = last then a2
      else
        let lr := split S algo boxes (seg a.prim first last) (a2.node id)
        let a3 := { a2 with prim := a.prim.take first ++ (lr.1 ++ lr.2) ++ a.prim.drop last }
        let pivot := first + lr.1.length
        let a4 := computeNodes S algo boxes nodes a3 (2 * id + 1) first pivot
        computeNodes S algo boxes nodes a4 (2 * id + 2) pivot last
termination_by nodes - id

/-- One step of the marking loop (BVH.cpp:86-87). -/
def markOne (nchild : Nat → Int) (id : Nat) : Nat → Int :=
  if nchild id > 8 ∧ nchild id = nchild (2 * id + 1) + nchild (2 * id + 2) then Function.update nchild id (-1) else nchild

/-- The marking loop (BVH.cpp:85-87). -/
def mark (nchild : Nat → Int) (nodes : Nat) : Nat → Int := (List.range (nodes / 2)).foldl markOne nchild

/-- The object after construction (BVH.h:371-377); `n` daughters with boxes `aabb`. -/
structure Tree where
  n : Nat
  aabb : Nat → Box
  depth : Nat
  nodes : Nat
  arr : Arrays

/-- `fDepth` (BVH.cpp:72): the requested depth, or one chosen from the number of daughters, at most `BVH_MAX_DEPTH`.
`(int)log2(n / 2)` is the integer logarithm; for a single daughter the code converts `-inf` to `int`. -/
def chooseDepth (S : Std) (n : Nat) (depth : Int) : Int :=
  min (if depth ≠ 0 then depth else max 0 (if n / 2 = 0 then S.castNegInf else (Nat.log2 (n / 2) : Int))) maxDepth

/-- The constructor (BVH.cpp:49-88).  `none`: no daughters (exception), or the signed expression `(2 << fDepth) - 1`
(BVH.cpp:74) is undefined: negative shift, or a result that `int` cannot represent. -/
noncomputable def build (S : Std) (algo : Algo) (n : Nat) (boxes : Nat → Box) (depth : Int) : Option Tree :=
  if n = 0 then none
  else
    let d := chooseDepth S n depth
    if d < 0 ∨ d ≥ 30 then none
    else
      let nodes := 2 * 2 ^ d.toNat - 1
      let a := computeNodes S algo boxes nodes
        { prim := List.range n, offset := fun _ => -1, nchild := fun _ => 0, node := fun _ => ⟨0, 0⟩ } 0 0 n
      some { n := n, aabb := boxes, depth := d.toNat, nodes := nodes, arr := { a with nchild := mark a.nchild nodes } }

/-! ## Traversals

The four traversals have the same control flow: pop a node; for a leaf visit its daughters, for an inner node push the
selected children. -/

/-- The loop over the daughters of a leaf (e.g. BVH.h:110-119): `k` iterations from position `pos` of `fPrimId`.  The
visit of a daughter gives the new state and whether the function returns at once. -/
def leafLoop {σ : Type} (t : Tree) (visit : σ → Nat → σ × Bool) : (k : Nat) → (pos : Int) → σ → Option (σ × Bool)
  | 0, _, s => some (s, false)
  | k + 1, pos, s =>
    if pos < 0 then none
    else match t.arr.prim[pos.toNat]? with
      | none => none
      | some i =>
        if i ≥ t.n then none
        else
          let r := visit s i
          if r.2 then some r else leafLoop t visit k (pos + 1) r.1

/-- The loop over the stack (e.g. BVH.h:105-146): the stack is a list with the top first, `lim` its capacity, `push` the
list of children in the order of the writes `*ptr++ = …`.  `none`: read outside an array, write past the end of the
stack, or fuel used up. -/
def traverse {σ : Type} (t : Tree) (lim : Nat) (visit : σ → Nat → σ × Bool) (push : σ → Nat → List Nat) :
    (fuel : Nat) → σ → List Nat → Option σ
  | _, s, [] => some s
  | 0, _, _ :: _ => none
  | fuel + 1, s, id :: rest =>
    if id ≥ t.nodes then none
    else if t.arr.nchild id ≥ 0 then
      match leafLoop t visit (t.arr.nchild id).toNat (t.arr.offset id) s with
      | none => none
      | some (s', true) => some s'
      | some (s', false) => traverse t lim visit push fuel s' rest
    else if 2 * id + 2 ≥ t.nodes then none
    else
      let stack := (push s id).reverse ++ rest
      if stack.length > lim then none else traverse t lim visit push fuel s stack

/-- The number of iterations allowed to the model of a traversal: one for each node.  It is always enough. -/
def fuel (t : Tree) : Nat := t.nodes

/-- The closest child is pushed first if `rFirst` does not hold (BVH.h:137-143). -/
def pushOrder (rFirst travL travR : Bool) (id : Nat) : List Nat :=
  let l := if travL then [2 * id + 1] else []
  let r := if travR then [2 * id + 2] else []
  if rFirst then r ++ l else l ++ r

open Classical in
/-- Selection of children in `CheckDaughterIntersections` and `ApproachNextDaughter` (BVH.h:121-143, BVH.cpp:427-450). -/
noncomputable def rayPush (t : Tree) (p inv : V3) (step : ℝ) (id : Nat) : List Nat :=
  let tl := (t.arr.node (2 * id + 1)).computeIntersectionInvDir p inv
  let tr := (t.arr.node (2 * id + 2)).computeIntersectionInvDir p inv
  pushOrder (decide (tr.1 < tl.1)) (decide (tl.1 ≤ tl.2 ∧ tl.2 ≥ 0 ∧ tl.1 < step))
    (decide (tr.1 ≤ tr.2 ∧ tr.2 ≥ 0 ∧ tr.1 < step)) id

open Classical in
/-- The body of the loop over daughters in `CheckDaughterIntersections` (BVH.h:111-118) for `dist i step` the result of
`DistanceToIn(localpoint, localdir, step)` of daughter `i`; the state is `(step, hitcandidate)`. -/
noncomputable def hitVisit (t : Tree) (p inv : V3) (dist : Nat → ℝ → ℝ) (last : Option Nat) (s : ℝ × Option Nat) (i : Nat) :
    (ℝ × Option Nat) × Bool :=
  if (t.aabb i).intersectInvDirStep p inv s.1 then
    let d := dist i s.1
    if d < s.1 ∧ ¬ (d ≤ 0 ∧ last = some i) then ((d, some i), false) else (s, false)
  else (s, false)

/-- `CheckDaughterIntersections` (BVH.h:95-147). -/
noncomputable def checkDaughterIntersections (t : Tree) (p d : V3) (dist : Nat → ℝ → ℝ) (last : Option Nat)
    (step : ℝ) (hit : Option Nat) : Option (ℝ × Option Nat) :=
  let inv := d.nonZero.inv
  traverse t maxDepth (hitVisit t p inv dist last) (fun s id => rayPush t p inv s.1 id) (fuel t) (step, hit) [0]

open Classical in
/-- The body of the loop over daughters in `ApproachNextDaughter` (BVH.cpp:414-425), `approach i` the result of
`ApproachSolid` of daughter `i` for the local point and direction. -/
noncomputable def approachVisit (t : Tree) (p inv : V3) (approach : Nat → ℝ) (last : Option Nat) (s : ℝ) (i : Nat) : ℝ × Bool :=
  if (t.aabb i).intersectInvDirStep p inv s then
    let d := approach i
    if d < s ∧ ¬ (d ≤ 0 ∧ last = some i) then (d, false) else (s, false)
  else (s, false)

/-- `ApproachNextDaughter` (BVH.cpp:398-453). -/
noncomputable def approachNextDaughter (t : Tree) (p d : V3) (approach : Nat → ℝ) (last : Option Nat) (step : ℝ) : Option ℝ :=
  let inv := d.nonZero.inv
  traverse t maxDepth (approachVisit t p inv approach last) (fun s id => rayPush t p inv s id) (fuel t) step [0]

open Classical in
/-- The body of the loop over daughters in `ComputeSafety` (BVH.h:181-186), `safetyToIn i` the result of
`SafetyToIn(localpoint)` of daughter `i`. -/
noncomputable def safetyVisit (t : Tree) (p : V3) (safetyToIn : Nat → ℝ) (s : ℝ) (i : Nat) : ℝ × Bool :=
  if (t.aabb i).safety p < s then
    let d := safetyToIn i
    if d < s then (d, false) else (s, false)
  else (s, false)

open Classical in
/-- Selection of children in `ComputeSafety` (BVH.h:188-204). -/
noncomputable def safetyPush (t : Tree) (p : V3) (s : ℝ) (id : Nat) : List Nat :=
  let sl := (t.arr.node (2 * id + 1)).safety p
  let sr := (t.arr.node (2 * id + 2)).safety p
  pushOrder (decide (sr < sl)) (decide (sl < s)) (decide (sr < s)) id

/-- `ComputeSafety` (BVH.h:171-209). -/
noncomputable def computeSafety (t : Tree) (p : V3) (safetyToIn : Nat → ℝ) (safety : ℝ) : Option ℝ :=
  traverse t maxDepth (safetyVisit t p safetyToIn) (fun s id => safetyPush t p s id) (fuel t) safety [0]

open Classical in
/-- `BVHSafetyEstimator::ComputeSafetyForLocalPoint` (BVHSafetyEstimator.h:49-57); `none` as tree: no daughters. -/
noncomputable def safetyForLocalPoint (t : Option Tree) (p : V3) (safetyToOut : ℝ) (safetyToIn : Nat → ℝ) : Option ℝ :=
  match t with
  | none => some safetyToOut
  | some t => if safetyToOut > 0 then computeSafety t p safetyToIn safetyToOut else some safetyToOut

/-- The daughters as seen by the locate functions: transformation, membership of a local point, classification of a local
point and normal at a local point. -/
structure Shapes where
  trans : Nat → Trans3
  contains : Nat → V3 → Bool
  inside : Nat → V3 → Inside
  normal : Nat → V3 → V3

/-- The result variables of the locate functions: return value, `pvol`, `daughterlocalpoint`. -/
structure Located where
  found : Bool
  pvol : Option Nat
  point : V3

/-- The body of the loop in the first `LevelLocate` (BVH.h:262-269).  `Contains(point, local)` writes the local point
before it tests it (PlacedVolume), also if the test fails. -/
noncomputable def locateVisit (t : Tree) (sh : Shapes) (excl : Option Nat) (p : V3) (s : Located) (i : Nat) : Located × Bool :=
  if (t.aabb i).contains p then
    if excl = some i then (s, false)
    else
      let q := (sh.trans i).transform p
      if sh.contains i q then (⟨true, some i, q⟩, true) else ({ s with point := q }, false)
  else (s, false)

/-- Selection of children in `LevelLocate` (BVH.h:272-276, BVH.h:333-337). -/
noncomputable def locatePush (t : Tree) (p : V3) (id : Nat) : List Nat :=
  (if (t.arr.node (2 * id + 1)).contains p then [2 * id + 1] else []) ++
  (if (t.arr.node (2 * id + 2)).contains p then [2 * id + 2] else [])

/-- `LevelLocate(exclvol, localpoint, pvol, daughterlocalpoint)` (BVH.h:249-281); without excluded volume also the
overloads BVH.h:219-246. -/
noncomputable def levelLocate (t : Tree) (sh : Shapes) (excl : Option Nat) (p : V3) (pvol : Option Nat) (q : V3) : Option Located :=
  traverse t maxDepth (locateVisit t sh excl p) (fun _ id => locatePush t p id) (fuel t) ⟨false, pvol, q⟩ [0]

open Classical in
/-- The lambda `Entering` (BVH.h:314-319). -/
noncomputable def entering (sh : Shapes) (p d : V3) (i : Nat) : Bool :=
  decide (V3.dot (sh.normal i ((sh.trans i).transform p)) ((sh.trans i).transformDirection d) < 0)

/-- The body of the loop in the second `LevelLocate` (BVH.h:303-328). -/
noncomputable def locateDirVisit (t : Tree) (sh : Shapes) (excl : Option Nat) (p d : V3) (s : Located) (i : Nat) : Located × Bool :=
  if (t.aabb i).contains p then
    if excl = some i then (s, false)
    else
      let q := (sh.trans i).transform p
      let ins := sh.inside i q
      if ins = .inside ∨ (ins = .surface ∧ entering sh p d i = true) then (⟨true, some i, q⟩, true) else (s, false)
  else (s, false)

/-- `LevelLocate(exclvol, localpoint, localdirection, pvol, daughterlocalpoint)` (BVH.h:292-344). -/
noncomputable def levelLocateDir (t : Tree) (sh : Shapes) (excl : Option Nat) (p d : V3) (pvol : Option Nat) (q : V3) : Option Located :=
  traverse t maxDepth (locateDirVisit t sh excl p d) (fun _ id => locatePush t p id) (fuel t) ⟨false, pvol, q⟩ [0]

end BVH
end VecGeom

import Verif.Transform.Model
import Mathlib.Algebra.Order.Floor.Ring
import Mathlib.Algebra.Order.Round
import Mathlib.Data.List.Basic

/-!
# Voxel hash map

Model of `VecGeom/base/FlatVoxelHashMap.h`, of `BuildLocateVoxels` in `source/FlatVoxelManager.cpp` and of
`VecGeom/navigation/VoxelLevelLocator.h`.

`float`/`double` are modelled by `ℝ` (no rounding, no overflow in the conversion to `int`); `int` arithmetic on keys is
exact, with signed overflow as the undefined outcome `none`.  `robin_hood::unordered_map` is trusted to be a finite map
and is modelled by a function from keys to optional values.
-/

namespace VecGeom
namespace Voxel

/-- The result of an `int` operation: undefined when it does not fit 32 bits. -/
def int32 (x : Int) : Option Int := if -2 ^ 31 ≤ x ∧ x < 2 ^ 31 then some x else none

/-- Conversion `(int)x` of a floating point number: truncation towards zero. -/
noncomputable def trunc (x : ℝ) : Int := if 0 ≤ x then ⌊x⌋ else ⌈x⌉

/-- Data members `fN*`, `fLower*`, `fDelta*`, `fInvDelta*` (FlatVoxelHashMap.h:250-263). -/
structure Grid where
  nx : Int
  ny : Int
  nz : Int
  lower : V3
  delta : V3
  inv : V3

/-- Constructor (FlatVoxelHashMap.h:21-34). -/
noncomputable def Grid.make (lower length : V3) (nx ny nz : Int) : Grid :=
  let dx := length.x / nx
  let dy := length.y / ny
  let dz := length.z / nz
  ⟨nx, ny, nz, lower, ⟨dx, dy, dz⟩, ⟨1 / dx, 1 / dy, 1 / dz⟩⟩

namespace Grid

/-- `getKeyFromCells` (FlatVoxelHashMap.h:157): `kx + fNx * (ky + kz * fNy)` in `int` arithmetic. -/
def getKeyFromCells (g : Grid) (kx ky kz : Int) : Option Int :=
  (int32 (kz * g.ny)).bind fun a =>
  (int32 (ky + a)).bind fun b =>
  (int32 (g.nx * b)).bind fun c =>
  int32 (kx + c)

/-- `getVoxelCoordinates` (FlatVoxelHashMap.h:150-155). -/
noncomputable def getVoxelCoordinates (g : Grid) (p : V3) : Int × Int × Int :=
  (trunc ((p.x - g.lower.x) * g.inv.x),
   trunc ((p.y - g.lower.y) * g.inv.y),
   trunc ((p.z - g.lower.z) * g.inv.z))

/-- `getKey` and `getVoxelKey` (FlatVoxelHashMap.h:159-176). -/
noncomputable def getKey (g : Grid) (p : V3) : Option Int :=
  let k := g.getVoxelCoordinates p
  g.getKeyFromCells k.1 k.2.1 k.2.2

/-- `keyToCell` (FlatVoxelHashMap.h:189-195).  The product `fNx * fNy` is an `int`, the rest is done in `long`
(64 bit; overflow there is not modelled).  Integer division truncates. -/
def keyToCell (g : Grid) (key : Int) : Option (Int × Int × Int) :=
  (int32 (g.nx * g.ny)).bind fun nxy =>
  if nxy = 0 ∨ g.nx = 0 then none
  else
    let kz := key.tdiv nxy
    let ky := (key - kz * g.nx * g.ny).tdiv g.nx
    let kx := key - kz * g.nx * g.ny - ky * g.nx
    some (kx, ky, kz)

/-- `keyToPos` (FlatVoxelHashMap.h:198-204). -/
noncomputable def keyToPos (g : Grid) (key : Int) : Option V3 :=
  (g.keyToCell key).map fun c =>
    ⟨g.lower.x + c.1 * g.delta.x * 1.5, g.lower.y + c.2.1 * g.delta.y * 1.5, g.lower.z + c.2.2 * g.delta.z * 1.5⟩

/-- `Extent` (FlatVoxelHashMap.h:207-214). -/
noncomputable def extent (g : Grid) (key : Int) : Option (V3 × V3) :=
  (g.keyToCell key).map fun c =>
    let lo : V3 := ⟨g.lower.x + c.1 * g.delta.x, g.lower.y + c.2.1 * g.delta.y, g.lower.z + c.2.2 * g.delta.z⟩
    (lo, lo + g.delta)

end Grid

/-- The members `fVoxelMap`, `fProperties`, `fLastKey` for `ScalarProperties = false` (FlatVoxelHashMap.h:265, 331-334).
The `int` counters in the map are modelled without overflow. -/
structure VMap (P : Type) where
  map : Int → Option (Nat × Nat)
  props : List P
  lastKey : Int

namespace VMap
variable {P : Type}

/-- The state after construction. -/
def empty : VMap P := ⟨fun _ => none, [], -1⟩

/-- `fVoxelMap[key] = v`. -/
def setKey {V : Type} (m : Int → Option V) (key : Int) (v : V) : Int → Option V := fun k => if k = key then some v else m k

/-- `addPropertyForKey` (FlatVoxelHashMap.h:48-69) with `assign` (L280-284) and `append` (L297-301).  Appending to a key that
is not in the map dereferences the end iterator: undefined. -/
def addPropertyForKey (m : VMap P) (key : Int) (p : P) : Option (VMap P) :=
  if key = m.lastKey then
    match m.map key with
    | none => none
    | some (a, n) => some { m with map := setKey m.map key (a, n + 1), props := m.props ++ [p] }
  else some ⟨setKey m.map key (m.props.length, 1), m.props ++ [p], key⟩

/-- `clear` (FlatVoxelHashMap.h:239-243): `fLastKey` is not touched. -/
def clear (m : VMap P) : VMap P := { m with map := fun _ => none, props := [] }

/-- `isOccupied(key)` (FlatVoxelHashMap.h:126). -/
def isOccupied (m : VMap P) (key : Int) : Bool := (m.map key).isSome

/-- `getPropertiesGivenKey` (L185, implementation L305-315): index of the first property and the length; no pointer and
length zero if the key is absent. -/
def getProperties (m : VMap P) (key : Int) : Option Nat × Nat :=
  match m.map key with
  | some (a, n) => (some a, n)
  | none => (none, 0)

/-- What a caller sees that reads the `length` elements starting at the returned pointer; reading outside
`fProperties` is undefined. -/
def readProperties (m : VMap P) (key : Int) : Option (List P) :=
  match m.getProperties key with
  | (some a, n) => if a + n ≤ m.props.length then some ((m.props.drop a).take n) else none
  | (none, _) => some []

/-- A sequence of `addPropertyForKey` calls. -/
def addAll (m : VMap P) : List (Int × P) → Option (VMap P)
  | [] => some m
  | e :: l => (m.addPropertyForKey e.1 e.2).bind fun m' => m'.addAll l

end VMap

/-- The same members for `ScalarProperties = true`. -/
structure SMap (P : Type) where
  map : Int → Option P
  lastKey : Int

namespace SMap
variable {P : Type}

def empty : SMap P := ⟨fun _ => none, -1⟩

/-- `addPropertyForKey` (L48-69) with `assign` (L273-276) and `append` (L288-293, which only prints a message). -/
def addPropertyForKey (m : SMap P) (key : Int) (p : P) : SMap P :=
  if key = m.lastKey then m else ⟨VMap.setKey m.map key p, key⟩

/-- `clear` (L239-243). -/
def clear (m : SMap P) : SMap P := { m with map := fun _ => none }

/-- `getPropertiesGivenKey` (implementation L319-329): a single value. -/
def get (m : SMap P) (key : Int) : Option P := m.map key

end SMap

/-- An axis aligned box: lower and upper corner. -/
structure Box where
  lo : V3
  up : V3

/-- The `int` values visited by `for (int k = a; k <= b; ++k)`. -/
def intRange (a b : Int) : List Int := (List.range (b - a + 1).toNat).map fun i : Nat => a + (i : Int)

/-- The cells visited for one bounding box in `markFromBoundingBoxes` (FlatVoxelHashMap.h:88-106), in order. -/
noncomputable def cellsOf (g : Grid) (b : Box) : List (Int × Int × Int) :=
  let l := g.getVoxelCoordinates b.lo
  let u := g.getVoxelCoordinates b.up
  (intRange (max l.1 0) (min u.1 (g.nx - 1))).flatMap fun kx =>
  (intRange (max l.2.1 0) (min u.2.1 (g.ny - 1))).flatMap fun ky =>
  (intRange (max l.2.2 0) (min u.2.2 (g.nz - 1))).map fun kz => (kx, ky, kz)

/-- The list `keyToProp` built by `markFromBoundingBoxes` (L80-110) for the boxes numbered from `d` on. -/
noncomputable def keyToProp (g : Grid) : Nat → List Box → Option (List (Int × Nat))
  | _, [] => some []
  | d, b :: bs =>
    ((cellsOf g b).mapM fun c => g.getKeyFromCells c.1 c.2.1 c.2.2).bind fun ks =>
    (keyToProp g (d + 1) bs).map fun rest => ks.map (fun k => (k, d)) ++ rest

/-- `markFromBoundingBoxes` (L73-121).  `std::sort` by key is not stable, so any `sorted` that is a rearrangement of `keyToProp`
in which keys do not decrease is a possible outcome. -/
def MarkResult (g : Grid) (m : VMap Nat) (boxes : List Box) (r : Option (VMap Nat)) : Prop :=
  (keyToProp g 0 boxes = none ∧ r = none) ∨
  ∃ l sorted, keyToProp g 0 boxes = some l ∧ sorted.Perm l ∧ sorted.Pairwise (fun a b => a.1 ≤ b.1) ∧ r = m.addAll sorted

/-! ### Voxels for locating points -/

/-- `volumeUtilities::IntersectionExist` for aligned boxes (VolumeUtilities.h:1041-1067). -/
noncomputable def intersectionExist (a b : Box) : Bool :=
  if a.up.x < b.lo.x then false
  else if a.lo.x > b.up.x then false
  else if a.up.y < b.lo.y then false
  else if a.lo.y > b.up.y then false
  else if a.up.z < b.lo.z then false
  else if a.lo.z > b.up.z then false
  else true

/-- Boxes appended to `locatecandidates[i]` for a voxel with extent `v` (FlatVoxelManager.cpp, BuildLocateVoxels: loop over
`boxindex`). -/
noncomputable def candidatesOf (boxes : List Box) (v : Box) : List Nat :=
  (List.range boxes.length).filter fun j => match boxes[j]? with
    | some b => intersectionExist v b
    | none => false

/-- Index range `[startindex, endindex)` of task `t` out of `n` for `s` keys (BuildLocateVoxels; the same code is in
BuildSafetyVoxels). -/
def taskRange (s n t : Nat) : Nat × Nat :=
  let chunksize := s / n
  let remainder := s % n
  (t * chunksize, (t + 1) * chunksize + if t = n - 1 then remainder else 0)

/-- The appends to `locatecandidates` made by task `t`, in program order: pairs of slot and box number.  `ext` gives the extents of
the voxels. -/
noncomputable def taskEvents (ext : Nat → Box) (boxes : List Box) (s n t : Nat) : List (Nat × Nat) :=
  let r := taskRange s n t
  (List.range' r.1 (r.2 - r.1)).flatMap fun i => (candidatesOf boxes (ext i)).map fun b => (i, b)

/-- An execution of concurrent tasks: `Interleave ls r` — `r` is a sequence of the events in the lists `ls` that keeps the
order within each list. -/
inductive Interleave {ε : Type} : List (List ε) → List ε → Prop
  | done {ls : List (List ε)} : (∀ l ∈ ls, l = []) → Interleave ls []
  | step {pre post : List (List ε)} {e : ε} {l r : List ε} :
      Interleave (pre ++ l :: post) r → Interleave (pre ++ (e :: l) :: post) (e :: r)

/-- `locatecandidates[i]` after the events `r`: one `push_back` per event. -/
def slot (r : List (Nat × Nat)) (i : Nat) : List Nat := r.foldl (fun acc e => if e.1 = i then acc ++ [e.2] else acc) []

/-- The grid of `BuildLocateVoxels`: `FlatVoxelHashMap(lower, 1.005 * (upper - lower), 10, 10, 10)`. -/
noncomputable def locateGrid (lower upper : V3) : Grid := Grid.make lower (V3.smul 1.005 (upper - lower)) 10 10 10

/-- Extent of the voxel with key `i`, `0` box if undefined. -/
noncomputable def extentBox (g : Grid) (i : Nat) : Box :=
  match g.extent (i : Int) with
  | some e => ⟨e.1, e.2⟩
  | none => ⟨0, 0⟩

/-- The final registration loop (BuildLocateVoxels, last loop): keys `0 … numkeys-1` in order, each with its candidates. -/
def register (cands : Nat → List Nat) (numkeys : Nat) : Option (VMap Nat) :=
  VMap.empty.addAll ((List.range numkeys).flatMap fun i => (cands i).map fun b => ((i : Int), b))

/-- `BuildLocateVoxels` (FlatVoxelManager.cpp) with `numtasks` tasks whose appends happened in the order `r`. -/
noncomputable def buildLocateVoxels (r : List (Nat × Nat)) : Option (VMap Nat) := register (slot r) 1000

/-- `ABBoxContainsKernel` (BoxImplementation.h:420-436), for one box. -/
noncomputable def abboxContains (b : Box) (p : V3) : Bool :=
  decide (b.lo.x < p.x ∧ b.up.x > p.x ∧ b.lo.y < p.y ∧ b.up.y > p.y ∧ b.lo.z < p.z ∧ b.up.z > p.z)

/-- The candidate loop of `LevelLocateKernel` (VoxelLevelLocator.h:57-80).  `contains d p` is the answer of
`CheckCandidateVol` for daughter number `d`; the excluded volume is given by its number.  Reading a box that does not exist is
undefined. -/
noncomputable def locateLoop (boxes : List Box) (contains : Nat → V3 → Bool) (excl : Option Nat) (p : V3) :
    List Nat → Option (Option Nat)
  | [] => some none
  | d :: ds =>
    if excl = some d then locateLoop boxes contains excl p ds
    else match boxes[d]? with
      | none => none
      | some b =>
        if ¬ abboxContains b p then locateLoop boxes contains excl p ds
        else if contains d p then some (some d)
        else locateLoop boxes contains excl p ds

/-- `LevelLocateKernel` (VoxelLevelLocator.h:38-83). -/
noncomputable def levelLocate (g : Grid) (m : VMap Nat) (boxes : List Box) (contains : Nat → V3 → Bool)
    (excl : Option Nat) (p : V3) : Option (Option Nat) :=
  (g.getKey p).bind fun key => (m.readProperties key).bind fun cand => locateLoop boxes contains excl p cand

end Voxel
end VecGeom

import Verif.AABB.Model
import Verif.Voxel.Model
import Mathlib.Analysis.Real.Sqrt

/-!
# Voxel based safety

Model of `BuildSafetyVoxels` in `source/FlatVoxelManager.cpp` (the branch without `EXTREMELOOKUP`) and of
`VecGeom/navigation/VoxelSafetyEstimator.h`.

`float` and `double` are modelled by `ℝ`.  The random points of the sampling step are an argument: any points may come out.
Each slot of the candidate table is written by exactly one task (`Voxel.C55_tasks_partition`), so the table is modelled as a
function of the key.  The solids enter through their answers.
-/

namespace VecGeom
namespace VoxSafety

open Voxel

/-- What the code sees of a volume: its extent, its own answers, the boxes of the daughters and the daughters' answers
(`abboxcorners`, `vol->GetUnplacedVolume()`, `daughters[i]`). -/
structure Scene where
  lower : V3
  upper : V3
  contains : V3 → Bool
  safetyOut : V3 → ℝ
  boxes : List AABB.Box
  dContains : Nat → V3 → Bool
  dSafetyIn : Nat → V3 → ℝ

/-- `int Nx = std::max(4., 2 * std::sqrt(1. * ndaughters))` (FlatVoxelManager.cpp:175-177). -/
noncomputable def gridSide (n : Nat) : Int := trunc (max 4 (2 * √(1 * n)))

/-- The grid of `BuildSafetyVoxels` (FlatVoxelManager.cpp:183). -/
noncomputable def safetyGrid (S : Scene) : Grid :=
  let n := gridSide S.boxes.length
  Grid.make S.lower (V3.smul 1.005 (S.upper - S.lower)) n n n

/-- The corners of a daughter's box in the type used by the voxel code. -/
def vbox (b : AABB.Box) : Voxel.Box := ⟨b.lo, b.hi⟩

/-- `GenerateRegularSurfacePointsOnBox` (VolumeUtilities.h:1244-1284). -/
noncomputable def surfacePoints (lo up : V3) (n : Nat) : List V3 :=
  let len := up - lo
  let d : V3 := ⟨len.x / (1 * n), len.y / (1 * n), len.z / (1 * n)⟩
  ((List.range n).flatMap fun ny => (List.range n).flatMap fun nz =>
    [⟨lo.x, lo.y + d.y * ny, lo.z + d.z * nz⟩, ⟨up.x, lo.y + d.y * ny, lo.z + d.z * nz⟩]) ++
  ((List.range n).flatMap fun nx => (List.range n).flatMap fun nz =>
    [⟨lo.x + d.x * nx, lo.y, lo.z + d.z * nz⟩, ⟨lo.x + d.x * nx, up.y, lo.z + d.z * nz⟩]) ++
  ((List.range n).flatMap fun nx => (List.range n).flatMap fun ny =>
    [⟨lo.x + d.x * nx, lo.y + d.y * ny, lo.z⟩, ⟨lo.x + d.x * nx, lo.y + d.y * ny, up.z⟩]) ++
  [up]

/-- The loop over the boxes meeting the voxel that looks for a daughter holding the surface point
(FlatVoxelManager.cpp:330-349).  The numbers come from the list of boxes, so the lookup succeeds. -/
noncomputable def inAnyDaughter (S : Scene) (inter : List Nat) (sp : V3) : Bool :=
  inter.any fun j => match S.boxes[j]? with
    | some b => abboxContains (vbox b) sp && S.dContains j sp
    | none => false

/-- `GetSafetyCandidates_v` (SimpleABBoxSafetyEstimator.h:41-65) as used at FlatVoxelManager.cpp:373.  The vector lanes and the
padding of the last vector are left out here (see the `Hybrid` model). -/
noncomputable def safetyList (S : Scene) (sp : V3) (limit : ℝ) : List (Nat × ℝ) :=
  (List.range S.boxes.length).filterMap fun j => match S.boxes[j]? with
    | some b => if b.safetySqr sp < limit then some (j, b.safetySqr sp) else none
    | none => none

/-- One round of the loop over the candidates (FlatVoxelManager.cpp:379-407): state `bestcandidate`, `finalsafetysqr`. -/
noncomputable def pickStep (S : Scene) (sp : V3) (st : Int × ℝ) (c : Nat × ℝ) : Int × ℝ :=
  let candidatesafety := S.dSafetyIn c.1 sp
  let this := max (candidatesafety * candidatesafety) c.2
  if this ≤ st.2 then (c.1, this) else st

/-- The best candidate for a surface point (FlatVoxelManager.cpp:352-414); `-1` means the mother. -/
noncomputable def pick (S : Scene) (sp : V3) : Int :=
  let safetyout := S.safetyOut sp
  ((safetyList S sp (safetyout * safetyout)).foldl (pickStep S sp) (-1, safetyout * safetyout)).1

/-- The body of the loop over the surface points (FlatVoxelManager.cpp:314-416): the number inserted in
`othersafetycandidates`, if any. -/
noncomputable def candidateAt (S : Scene) (inter : List Nat) (sp : V3) : Option Int :=
  if !S.contains sp then some (-1)
  else if inAnyDaughter S inter sp then none
  else some (pick S sp)

/-- `push_back` unless found (FlatVoxelManager.cpp:420-423). -/
def pushNew (acc : List Int) (o : Int) : List Int := if o ∈ acc then acc else acc ++ [o]

/-- The candidates of the voxel `v` (FlatVoxelManager.cpp:276-439).  The detour over `std::set` only removes duplicates and
sorts, which `std::find` and the final `std::sort` do again. -/
noncomputable def safetyCandidates (S : Scene) (v : Voxel.Box) : List Int :=
  let inter := candidatesOf (S.boxes.map vbox) v
  let others := (surfacePoints v.lo v.up 10).filterMap (candidateAt S inter)
  (others.foldl pushNew (inter.map Int.ofNat)).mergeSort

/-- Removal of duplicates from the sorted keys (FlatVoxelManager.cpp:233-240). -/
def pushKey (acc : List Int) (k : Int) : List Int :=
  match acc.getLast? with
  | none => acc ++ [k]
  | some b => if k ≠ b then acc ++ [k] else acc

/-- `std::sort` and the removal of duplicates (FlatVoxelManager.cpp:230-240). -/
def uniqueKeys (l : List Int) : List Int := l.mergeSort.foldl pushKey []

/-- Extent of the voxel with the given key (FlatVoxelManager.cpp:277-279). -/
noncomputable def voxelOf (g : Grid) (key : Int) : Voxel.Box :=
  match g.extent key with
  | some e => ⟨e.1, e.2⟩
  | none => ⟨0, 0⟩

/-- `BuildSafetyVoxels` (FlatVoxelManager.cpp:166-453).  `samples` has one entry per task: the sampled points, or `none` when the
task found none.  Outer `none`: undefined (`npointstotal` overflows, or there is no task and `pointspertask` divides by zero);
`some none`: the null pointer. -/
noncomputable def build (S : Scene) (samples : List (Option (List V3))) : Option (Option (VMap Int)) :=
  let g := safetyGrid S
  (int32 (1000 * g.nx * g.ny * g.nz)).bind fun _ =>
  if samples.length = 0 then none
  else
    ((samples.filterMap id).flatten.mapM g.getKey).bind fun allkeys =>
    if allkeys.length ≤ 1 then some none
    else
      let sortedkeys := uniqueKeys allkeys
      if sortedkeys.length < 50 then some none
      else (VMap.empty.addAll (sortedkeys.flatMap fun k =>
        (safetyCandidates S (voxelOf g k)).map fun c => (k, c))).map some

/-- One round of the loop over the candidates in `ComputeSafetyForLocalPoint` (VoxelSafetyEstimator.h:122-140): state
`safetyToDaughters`, `bestSafetySqr`.  A number that is neither `-1` nor a daughter is an undefined access. -/
noncomputable def estimateStep (S : Scene) (p : V3) (st : ℝ × ℝ) (c : Int) : Option (ℝ × ℝ) :=
  if c = -1 then some st
  else if c < 0 then none
  else match S.boxes[c.toNat]? with
    | none => none
    | some b =>
      let ssqr := b.safetySqr p
      if ssqr > 0 then some (st.1, min st.2 ssqr)
      else
        let s := S.dSafetyIn c.toNat p
        let s := if s ≤ 0 then 0 else s
        some (min st.1 s, st.2)

/-- `ComputeSafetyForLocalPoint` (VoxelSafetyEstimator.h:89-173).  `structure` is the result of `GetStructure` with its member
`fVoxelToCandidate`; `none` is an undefined outcome. -/
noncomputable def computeSafety (S : Scene) (str : Option (Option (VMap Int))) (p : V3) : Option ℝ :=
  match str with
  | none => some 0
  | some none => some 0
  | some (some m) =>
    ((safetyGrid S).getKey p).bind fun key =>
    (m.readProperties key).bind fun cands =>
    if cands.length > 0 then
      let safetymother := S.safetyOut p
      (cands.foldlM (estimateStep S p) ((1e20 : ℝ), (1e20 : ℝ))).map fun st =>
        min (min st.1 (√st.2)) safetymother
    else some 0

end VoxSafety
end VecGeom

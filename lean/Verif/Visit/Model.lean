import Verif.Geo.Tree
import Verif.NavPath.Model

/-!
# Geometry visitors

Model of `GeoManager::visitAllPlacedVolumes`, `visitAllPlacedVolumesWithContext` and of the visitors of
`VecGeom/management/GeoVisitor.h` used with them.  Levels are unbounded integers (C++: `int`); a world pointer
that is null is not modelled (the functions then do nothing).
-/

namespace VecGeom
namespace Visit

mutual
/-- `GeoManager::visitAllPlacedVolumes(currentvolume, visitor, level)` (GeoManager.h:264-274); the visitor is
its `apply` function acting on the visitor's state. -/
def visitAll {σ : Type} (apply : σ → PVol → Int → σ) : PVol → Int → σ → σ
  | .mk id c l t r ds, level, s =>
    visitDaughters apply ds (level + 1) (apply s (.mk id c l t r ds) level)
/-- The loop over the daughters (GeoManager.h:269-272). -/
def visitDaughters {σ : Type} (apply : σ → PVol → Int → σ) : List PVol → Int → σ → σ
  | [], _, s => s
  | d :: ds, level, s => visitDaughters apply ds level (visitAll apply d level s)
end

/-- `SimpleLogicalVolumeVisitor::apply` (GeoVisitor.h:63-69); logical volumes are represented by their id. -/
def logicalApply (c : List Nat) (v : PVol) (_level : Int) : List Nat :=
  if c.contains v.lid then c else c ++ [v.lid]

/-- `SimplePlacedVolumeVisitor::apply` (GeoVisitor.h:77). -/
def placedApply (c : List PVol) (v : PVol) (_level : Int) : List PVol := c ++ [v]

/-- `GetMaxDepthVisitor::apply` (GeoVisitor.h:88). -/
def maxDepthApply (m : Int) (_v : PVol) (level : Int) : Int := if level > m then level else m

/-- `GetTotalNodeCountVisitor::apply` (GeoVisitor.h:99). -/
def countApply (n : Int) (_v : PVol) (_level : Int) : Int := n + 1

/-- `GeoManager::GetAllLogicalVolumes` (GeoManager.h:276-284); the default level is 0. -/
def getAllLogicalVolumes (world : PVol) : List Nat := visitAll logicalApply world 0 []

/-- `GeoManager::getAllPlacedVolumes` (GeoManager.h:286-294). -/
def getAllPlacedVolumes (world : PVol) : List PVol := visitAll placedApply world 0 []

/-- `fMaxDepth` as computed by `CloseGeometry` (GeoManager.cpp:200-202). -/
def maxDepth (world : PVol) : Int := visitAll maxDepthApply world 1 0

/-- `fTotalNodeCount` as computed by `CloseGeometry` (GeoManager.cpp:204-206). -/
def totalNodeCount (world : PVol) : Int := visitAll countApply world 1 0

mutual
/-- `GeoManager::visitAllPlacedVolumesWithContext` (GeoManager.cpp:422-435) on a path state. `none`: the state
overflowed. -/
def visitCtx {σ : Type} (apply : σ → NavPath PVol → Int → Option σ) :
    PVol → NavPath PVol → Int → σ → Option (NavPath PVol × σ)
  | .mk id c l t r ds, st, level, s =>
    match st.push (.mk id c l t r ds) with
    | none => none
    | some st1 => match apply s st1 level with
      | none => none
      | some s1 => match visitCtxDaughters apply ds st1 (level + 1) s1 with
        | none => none
        | some (st2, s2) => some (st2.pop, s2)
/-- The loop over the daughters (GeoManager.cpp:429-432). -/
def visitCtxDaughters {σ : Type} (apply : σ → NavPath PVol → Int → Option σ) :
    List PVol → NavPath PVol → Int → σ → Option (NavPath PVol × σ)
  | [], st, _, s => some (st, s)
  | d :: ds, st, level, s => match visitCtx apply d st level s with
    | none => none
    | some (st', s') => visitCtxDaughters apply ds st' level s'
end

/-- `GetPathsForLogicalVolumeVisitor::apply` (GeoManager.cpp:409-419).  `MakeCopy` duplicates the state.
A null top is dereferenced: undefined. -/
def pathsApply (lv : Nat) (c : List (NavPath PVol)) (st : NavPath PVol) (_level : Int) :
    Option (List (NavPath PVol)) :=
  match st.top with
  | some (some v) => some (if v.lid = lv then c ++ [st] else c)
  | _ => none

/-- `GeoManager::getAllPathForLogicalVolume` (GeoManager.cpp:437-450); `depth` is `getMaxDepth()`. -/
def getAllPathForLogicalVolume (world : PVol) (depth : Nat) (lv : Nat) : Option (List (NavPath PVol)) :=
  (visitCtx (pathsApply lv) world (NavPath.makeInstance depth).clear 0 []).map (·.2)

end Visit
end VecGeom

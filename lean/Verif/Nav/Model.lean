import Verif.NavPath.Spec
import Verif.Base.Num

/-!
# Locating points and propagating states

Model of `VecGeom/navigation/GlobalLocator.h`, of the level locator installed by default
(`SimpleAssemblyLevelLocator`, `SimpleLevelLocator.h` and LogicalVolume.cpp:57), of the assembly functions it calls
(`PlacedAssembly.h`, `UnplacedAssembly.h`), of `VNavigator.h`, `NewSimpleNavigator.h` and `SimpleSafetyEstimator.h`, on the path state
(`Verif/NavPath`).  Placed volumes are abstract handles `V`; what the code reads through a handle is given by `NavGeom`.
Recursive functions and loops take a bound on the number of rounds; `none` is undefined behaviour or running out of rounds.
-/

namespace VecGeom

/-- What navigation reads through a placed-volume handle: daughters and transformation, the solid (`contains`: its `Contains` in
local coordinates, for solids that are not assemblies), whether it is an assembly, the test of a local point against the cached bounding box
of an assembly (UnplacedAssembly.h:85-88, 113-116), and whether its logical volume has a level locator. -/
structure NavGeom (V : Type) extends Geom V where
  contains : V → V3 → Bool
  isAssembly : V → Bool
  box : V → V3 → Bool
  hasLocator : V → Bool

namespace Nav
variable {V : Type}

/-! ## Containment -/

/-- A loop over daughters that stops at the first `true`. -/
def anyM {α : Type} (f : α → Option Bool) : List α → Option Bool
  | [] => some false
  | x :: xs => (f x).bind fun b => if b then some true else anyM f xs

/-- `VPlacedVolume::UnplacedContains(p)`: for solids `contains`, for assemblies `UnplacedAssembly::Contains` (UnplacedAssembly.h:81-93),
which calls the level locator without modifying a state (SimpleLevelLocator.h:118-140 with `CheckCandidateVol` L45-53, not excluding
anything), which calls `Contains(point, localPoint)` of the daughters (PlacedAssembly.h:63-67, SpecializedPlacedVolImplHelper.h:100-110). -/
noncomputable def unplacedContains (g : NavGeom V) : Nat → V → V3 → Option Bool
  | 0, _, _ => none
  | fuel + 1, v, p =>
    if g.isAssembly v then
      if g.box v p then anyM (fun d => unplacedContains g fuel d ((g.trans d).transform p)) (g.daughters v)
      else some false
    else some (g.contains v p)

/-! ## The level locator -/

/-- The loop of `LevelLocateKernel` (SimpleLevelLocator.h:126-139): `check d s` is `CheckCandidateVol` on daughter `d` with state
`s`, returning the state and, if the point is in `d`, the local point. -/
def firstM (check : V → NavPath V → Option (NavPath V × Option V3)) : List V → NavPath V → Option (NavPath V × Option V3)
  | [], s => some (s, none)
  | d :: ds, s => (check d s).bind fun r =>
    match r.2 with
    | some q => some (r.1, some q)
    | none => firstM check ds r.1

/-- `CheckCandidateVol<true, true>` (SimpleLevelLocator.h:24-44) with `PlacedAssembly::Contains(p, lp, state)`
(PlacedAssembly.h:172-183) and `UnplacedAssembly::Contains(point, lp, state)` (UnplacedAssembly.h:108-120); `rec` is `LevelLocate` of the level
locator of the assembly. -/
noncomputable def checkCandidate (g : NavGeom V) (rec : V → V3 → NavPath V → Option (NavPath V × Option V3)) (p : V3) (d : V)
    (s : NavPath V) : Option (NavPath V × Option V3) :=
  let q := (g.trans d).transform p
  if g.isAssembly d then
    (s.push d).bind fun s =>
      if g.box d q then
        (rec d q s).map fun r =>
          match r.2 with
          | some lp => (r.1, some lp)
          | none => (r.1.pop, none)
      else some (s.pop, none)
  else if g.contains d q then (s.push d).map fun s => (s, some q)
  else some (s, none)

/-- `LevelLocate(lvol, point, state, daughterlocalpoint)` of the assembly-aware simple locator (SimpleLevelLocator.h:177-183). -/
noncomputable def levelLocate (g : NavGeom V) : Nat → V → V3 → NavPath V → Option (NavPath V × Option V3)
  | 0, _, _, _ => none
  | fuel + 1, v, p, s => firstM (checkCandidate g (levelLocate g fuel) p) (g.daughters v) s

/-- `VPlacedVolume::Contains(point, localPoint)` of the daughters, in the order of the list: the first daughter containing the
point, with the local point; used by the default branches of the locators (GlobalLocator.h:67-76, 117-129).  `skip` is the excluded
volume. -/
noncomputable def firstContaining [DecidableEq V] (g : NavGeom V) (fuel : Nat) (skip : Option V) (p : V3) :
    List V → Option (Option (V × V3))
  | [] => some none
  | d :: ds =>
    if some d = skip then firstContaining g fuel skip p ds
    else (unplacedContains g fuel d ((g.trans d).transform p)).bind fun b =>
      if b then some (some (d, (g.trans d).transform p)) else firstContaining g fuel skip p ds

/-! ## Global location -/

/-- The `while` loop of `LocateGlobalPoint` (GlobalLocator.h:48-79); `v` is `candvolume` (and `lvol`, `daughters` its logical volume and
daughters), `p` is `currentpoint`. -/
noncomputable def locateLoop [DecidableEq V] (g : NavGeom V) (depth : Nat) : Nat → V → V3 → NavPath V → Option (NavPath V)
  | 0, _, _, _ => none
  | fuel + 1, v, p, s =>
    if (g.daughters v).length > 0 then
      if g.hasLocator v then
        (levelLocate g depth v p s).bind fun r =>
          match r.2 with
          | none => some r.1
          | some q => r.1.top.bind fun t => t.bind fun u => locateLoop g depth fuel u q r.1
      else
        -- the default branch sets `godeeper` to false after the search
        (firstContaining g depth none p (g.daughters v)).bind fun r =>
          match r with
          | none => some s
          | some (d, _) => s.push d
    else some s

/-- `LocateGlobalPoint(vol, point, path, top)` (GlobalLocator.h:36-82): the new state and the returned volume. -/
noncomputable def locateGlobalPoint [DecidableEq V] (g : NavGeom V) (fuel : Nat) (vol : V) (p : V3) (s : NavPath V) (top : Bool) :
    Option (NavPath V × Option V) :=
  (if top then unplacedContains g fuel vol p else some true).bind fun ok =>
    if ok then
      (s.push vol).bind fun s => (locateLoop g fuel fuel vol p s).bind fun s => s.top.map fun t => (s, t)
    else some (s, none)

/-- The `while` loop of `LocateGlobalPointExclVolume` (GlobalLocator.h:100-131).  The locator branch calls `LevelLocateExclVol`
(SimpleLevelLocator.h:185-191), which finds the first daughter that is not the excluded volume and `Contains` the point, as does the
default branch.  The variable `lvol` is only updated in the locator branch: `lv` is the volume it belongs to. -/
noncomputable def locateExclLoop [DecidableEq V] (g : NavGeom V) (depth : Nat) (excl : Option V) :
    Nat → V → V → V3 → NavPath V → Option (NavPath V × V)
  | 0, _, _, _, _ => none
  | fuel + 1, lv, v, p, s =>
    if (g.daughters v).length > 0 then
      if g.hasLocator lv then
        (firstContaining g depth excl p (g.daughters lv)).bind fun r =>
          match r with
          | none => some (s, v)
          | some (d, q) => (s.push d).bind fun s => locateExclLoop g depth excl fuel d d q s
      else
        (firstContaining g depth excl p (g.daughters v)).bind fun r =>
          match r with
          | none => some (s, v)
          | some (d, q) => (s.push d).bind fun s => locateExclLoop g depth excl fuel lv d q s
    else some (s, v)

/-- `LocateGlobalPointExclVolume(vol, excludedvolume, point, path, top)` (GlobalLocator.h:88-134). -/
noncomputable def locateGlobalPointExcl [DecidableEq V] (g : NavGeom V) (fuel : Nat) (vol : V) (excl : Option V) (p : V3)
    (s : NavPath V) (top : Bool) : Option (NavPath V × Option V) :=
  (if top then unplacedContains g fuel vol p else some true).bind fun ok =>
    if ok then
      (s.push vol).bind fun s => (locateExclLoop g fuel excl fuel vol vol p s).map fun r => (r.1, some r.2)
    else some (s, none)

/-- The upward loop of the two relocation functions (GlobalLocator.h:148-158, 182-193); `leave` is the volume left in any case
(`entryvol`), if any.  The first argument bounds the number of rounds; the result is the state, the local point and `currentmother`. -/
noncomputable def upLoop [DecidableEq V] (g : NavGeom V) (depth : Nat) (leave : Option V) :
    Nat → V → V3 → NavPath V → Option (NavPath V × Option (V × V3))
  | 0, _, _, _ => none
  | fuel + 1, v, p, s =>
    (if some v = leave then some true
      else if g.isAssembly v then some true
      else (unplacedContains g depth v p).map (!·)).bind fun out =>
    if out then
      let s := s.pop
      let q := (g.trans v).inverseTransform p
      s.top.bind fun t =>
        match t with
        | some u => upLoop g depth leave fuel u q s
        | none => some (s, none)
    else some (s, some (v, p))

/-- `RelocatePointFromPath(localpoint, path)` (GlobalLocator.h:136-167). -/
noncomputable def relocatePointFromPath [DecidableEq V] (g : NavGeom V) (fuel : Nat) (p : V3) (s : NavPath V) :
    Option (NavPath V × Option V) :=
  s.top.bind fun t =>
    match t with
    | none => some (s, none)
    | some v => (upLoop g fuel none fuel v p s).bind fun r =>
      match r.2 with
      | none => some (r.1, none)
      | some (u, q) => locateGlobalPoint g fuel u q r.1.pop false

/-- `RelocatePointFromPathForceDifferent(localpoint, path)` (GlobalLocator.h:170-203). -/
noncomputable def relocateForceDifferent [DecidableEq V] (g : NavGeom V) (fuel : Nat) (p : V3) (s : NavPath V) :
    Option (NavPath V × Option V) :=
  s.top.bind fun t =>
    match t with
    | none => some (s, none)
    | some v => (upLoop g fuel (some v) fuel v p s).bind fun r =>
      match r.2 with
      | none => some (r.1, none)
      | some (u, q) => locateGlobalPointExcl g fuel u (some v) q r.1.pop false

/-! ## Steps -/

/-- The distances and safeties of the placed volumes seen by a navigator working on one volume: `toOut limit` is
`DistanceToOut(localpoint, localdir, limit)` of the mother, `toIn d s` is `DistanceToIn(localpoint, localdir, s)` of daughter `d`. -/
structure Distances (V : Type) where
  toOut : ℝ → ℝ
  toIn : V → ℝ → ℝ

open Classical in
/-- `TreatDistanceToMother` (VNavigator.h:205-215). -/
noncomputable def treatDistanceToMother (D : Distances V) (limit : ℝ) : ℝ :=
  let step := D.toOut limit
  if step < 0 then 0 else step

open Classical in
/-- The loop of `CheckDaughterIntersections` of the simple navigator (NewSimpleNavigator.h:36-76); `last` is
`in_state->GetLastExited()`.  An infinite distance (`IsInf`) is above every step. -/
noncomputable def checkDaughters [DecidableEq V] (D : Distances V) (last : Option V) : List V → ℝ × Option V → ℝ × Option V
  | [], r => r
  | d :: ds, (step, hit) =>
    let dist := D.toIn d step
    if dist < step ∧ ¬ (dist ≤ 0 ∧ last = some d) then checkDaughters D last ds (dist, some d)
    else checkDaughters D last ds (step, hit)

/-- The `do ... while` loop popping at least once and then out of assemblies (VNavigator.h:166-169); dereferencing the null top is
`none`. -/
noncomputable def popLoop (g : NavGeom V) : Nat → NavPath V → Option (NavPath V)
  | 0, _ => none
  | fuel + 1, s =>
    let s := s.pop
    s.top.bind fun t => t.bind fun v => if g.isAssembly v then popLoop g fuel s else some s

/-- The result of `PrepareOutState`: the state, the step and `doneafterthisstep`. -/
structure Prepared (V : Type) where
  state : NavPath V
  step : ℝ
  done : Bool

open Classical in
/-- `PrepareOutState` (VNavigator.h:147-198). -/
noncomputable def prepareOutState (g : NavGeom V) (inState outState : NavPath V) (geomStep limit : ℝ) (hit : Option V) :
    Option (Prepared V) :=
  (inState.copyTo outState).bind fun o =>
    if geomStep = kInfLength ∧ limit > 0 then
      (popLoop g (o.cur + 1) (o.setBoundaryState true)).map fun o => ⟨o, kTolerance, true⟩
    else if geomStep > limit then some ⟨o.setBoundaryState false, limit, false⟩
    else
      let o := o.setBoundaryState true
      (match hit with
        | some h => o.push h
        | none => some o).map fun o => ⟨o, if geomStep < 0 then 0 else geomStep, false⟩

/-- `MovePointAfterBoundary` (VNavigator.h:133-140). -/
noncomputable def movePointAfterBoundary (p d : V3) (step : ℝ) : V3 := p + V3.smul (step + 1 / 10 ^ 6) d

/-- `Relocate` (VNavigator.h:409-433). -/
noncomputable def relocate [DecidableEq V] (g : NavGeom V) (fuel : Nat) (p : V3) (inState outState : NavPath V) : Option (NavPath V) :=
  inState.top.bind fun ti => outState.top.bind fun tOut =>
    if tOut = ti then (relocateForceDifferent g fuel p outState).map (·.1)
    else tOut.bind fun next =>
      (locateGlobalPoint g fuel next ((g.trans next).transform p) outState.pop false).map (·.1)

/-- The loop popping assemblies at the end of a step (VNavigator.h:285-288); dereferencing the null top is `none`. -/
noncomputable def popAssemblies (g : NavGeom V) : Nat → NavPath V → Option (NavPath V)
  | 0, _ => none
  | fuel + 1, s => s.top.bind fun t => t.bind fun v => if g.isAssembly v then popAssemblies g fuel s.pop else some s

/-- The end of `ComputeStepAndPropagatedState` (VNavigator.h:284-291). -/
noncomputable def leaveAssemblies (g : NavGeom V) (step : ℝ) (s : NavPath V) : Option (NavPath V × ℝ) :=
  s.top.bind fun t =>
    match t with
    | none => some (s, step)
    | some _ => (popAssemblies g (s.cur + 1) s).map fun s => (s, step)

/-- `ComputeStepAndPropagatedState` (VNavigator.h:244-292) with the simple navigator, from the local point and direction on: the outgoing
state and the step. -/
noncomputable def computeStepAndPropagatedState [DecidableEq V] (g : NavGeom V) (fuel : Nat) (D : Distances V) (p d : V3)
    (limit : ℝ) (inState outState : NavPath V) : Option (NavPath V × ℝ) :=
  inState.top.bind fun t => t.bind fun pvol => inState.getLastExited.bind fun last =>
    let r := checkDaughters D last (g.daughters pvol) (treatDistanceToMother D limit, none)
    (prepareOutState g inState outState r.1 limit r.2).bind fun o =>
      if o.done then some (o.state, o.step)
      else if !o.state.onBoundary then some (o.state, o.step)
      else
        (relocate g fuel (movePointAfterBoundary p d o.step) inState o.state).bind (leaveAssemblies g o.step)

/-- `ComputeStepAndPropagatedState` (VNavigator.h:244-292) with `DoGlobalToLocalTransformation` (L222-231): the point and direction
are converted with the top matrix of the incoming state.  `D v p d` are the distances answered for mother `v` at local point `p`
along `d`. -/
noncomputable def computeStepFromGlobal [DecidableEq V] (g : NavGeom V) (fuel : Nat) (D : V → V3 → V3 → Distances V) (pg dg : V3)
    (limit : ℝ) (inState outState : NavPath V) : Option (NavPath V × ℝ) :=
  inState.top.bind fun t => t.bind fun pvol => (inState.topMatrix g.toGeom .identity).bind fun m =>
    let p := m.transform pg
    let d := m.transformDirection dg
    computeStepAndPropagatedState g fuel (D pvol p d) p d limit inState outState

open Classical in
/-- `ComputeStepAndSafety` (VNavigator.h:335-376): the step; `safety` is the value returned by the safety estimator, `none` if it was
not requested. -/
noncomputable def computeStepAndSafety [DecidableEq V] (g : NavGeom V) (D : Distances V) (limit : ℝ) (inState : NavPath V)
    (safety : Option ℝ) : Option (ℝ × Option V) :=
  inState.top.bind fun t => t.bind fun pvol => inState.getLastExited.bind fun last =>
    let r := match safety with
      | some sf => if sf ≥ limit then (limit, none)
        else checkDaughters D last (g.daughters pvol) (treatDistanceToMother D limit, none)
      | none => checkDaughters D last (g.daughters pvol) (treatDistanceToMother D limit, none)
    some (min r.1 limit, r.2)

/-- The loop of `ComputeSafetyForLocalPoint` of the simple estimator (SimpleSafetyEstimator.h:45-62), starting with the mother's
`SafetyToOut`, and of `ComputeSafetyToDaughtersForLocalPoint` (L25-41), starting with `kInfLength`; `saf d` is `SafetyToIn(localpoint)`. -/
noncomputable def simpleSafety (saf : V → ℝ) (daughters : List V) (start : ℝ) : ℝ :=
  daughters.foldl (fun s d => min s (saf d)) start

end Nav
end VecGeom

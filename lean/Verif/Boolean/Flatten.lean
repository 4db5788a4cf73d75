import Verif.Boolean.Spec

/-!
# Flattening of boolean trees

Model of `BooleanHelper::CountBooleanNodes` and `BooleanHelper::Flatten` (source/UnplacedBooleanVolume.cpp:191-259).
-/

namespace VecGeom
namespace Boolean

/-- Unplaced volumes as `Flatten` sees them: a boolean volume with its two placed constituents, a multi-union with its
placed nodes (`UnplacedMultiUnion::AddNode`, UnplacedMultiUnion.h:41-46), or any other solid.  A volume used at several
places of the tree is one object in the code; here every place has its own copy. -/
inductive Vol where
  | solid (s : Solid)
  | bool (op : Op) (tl : Trans3) (l : Vol) (tr : Trans3) (r : Vol)
  | multi (nodes : List (Trans3 × Vol))

mutual
/-- `Contains` of an unplaced volume: the boolean kernels as in `unionContains`, `interContains`, `subContains`; a
multi-union contains a point if one of its nodes does (MultiUnionImplementation.h, which visits candidate nodes only). -/
def Vol.contains : Vol → V3 → Bool
  | .solid s, p => s.contains p
  | .bool op tl l tr r, p =>
    match op with
    | .union => if l.contains (tl.transform p) then true else r.contains (tr.transform p)
    | .intersection => l.contains (tl.transform p) && r.contains (tr.transform p)
    | .subtraction => if !l.contains (tl.transform p) then false else !r.contains (tr.transform p)
  | .multi nodes, p => anyContains nodes p
def anyContains : List (Trans3 × Vol) → V3 → Bool
  | [], _ => false
  | (t, v) :: rest, p => v.contains (t.transform p) || anyContains rest p
end

/-- `CountBooleanNodes` (source/UnplacedBooleanVolume.cpp:191-204): the numbers of unions, intersections and
subtractions, started from the given numbers, and the returned sum. -/
def countBooleanNodes : Vol → Nat × Nat × Nat → (Nat × Nat × Nat) × Nat
  | .bool op _ l _ r, (nu, ni, ns) =>
    let c0 := (nu + (if op = .union then 1 else 0), ni + (if op = .intersection then 1 else 0),
      ns + (if op = .subtraction then 1 else 0))
    let c1 := (countBooleanNodes l c0).1
    let c2 := (countBooleanNodes r c1).1
    (c2, c2.1 + c2.2.1 + c2.2.2)
  | _, c => (c, 0)

/-- Outcome of `Flatten`: the volume after the changes made in place, the nodes of the multi-union of the caller, and the
nodes of the returned multi-union. -/
structure Flat where
  vol : Vol
  munion : Option (List (Trans3 × Vol))
  result : Option (List (Trans3 × Vol))

/-- `if (munion) munion->AddNode(unplaced, *trbase)` (lines 213 and 257); `none` if the pointer `trbase` is null. -/
def addNode (v : Vol) (trbase : Option Trans3) (munion : Option (List (Trans3 × Vol))) :
    Option (Option (List (Trans3 × Vol))) :=
  match munion with
  | none => some none
  | some ns =>
    match trbase with
    | none => none
    | some t => some (some (ns ++ [(t, v)]))

/-- The constituent of a subtraction or intersection after lines 241-256: replaced by the multi-union if one was made. -/
def Flat.replaced (f : Flat) : Vol :=
  match f.result with
  | some ns => .multi ns
  | none => f.vol

/-- `Flatten` (source/UnplacedBooleanVolume.cpp:206-259).  `none` is undefined behaviour: a null pointer is
dereferenced. -/
noncomputable def flatten (minUnions : Nat) : Vol → Option Trans3 → Option (List (Trans3 × Vol)) → Option Flat
  | .bool op tl l tr r, trbase, munion =>
    if (countBooleanNodes (.bool op tl l tr r) (0, 0, 0)).1.1 < minUnions then
      (addNode (.bool op tl l tr r) trbase munion).map fun m => ⟨.bool op tl l tr r, m, none⟩
    else if op = .union then
      let base := trbase.getD Trans3.identity
      (flatten minUnions l (some (base.mulRight tl)) (some (munion.getD []))).bind fun fl =>
      (flatten minUnions r (some (base.mulRight tr)) fl.munion).map fun fr =>
        if munion.isNone then ⟨.bool op tl fl.vol tr fr.vol, none, fr.munion⟩
        else ⟨.bool op tl fl.vol tr fr.vol, fr.munion, none⟩
    else
      (flatten minUnions l none none).bind fun fl =>
      (flatten minUnions r none none).bind fun fr =>
        let v := Vol.bool op tl fl.replaced tr fr.replaced
        (addNode v trbase munion).map fun m => ⟨v, m, none⟩
  | .solid s, trbase, munion =>
    if (countBooleanNodes (.solid s) (0, 0, 0)).1.1 < minUnions then
      (addNode (.solid s) trbase munion).map fun m => ⟨.solid s, m, none⟩
    else none
  | .multi ns, trbase, munion =>
    if (countBooleanNodes (.multi ns) (0, 0, 0)).1.1 < minUnions then
      (addNode (.multi ns) trbase munion).map fun m => ⟨.multi ns, m, none⟩
    else none

/-! ## Specification -/

/-- Number of unions in a tree of boolean operations, not looking into multi-unions. -/
def unions : Vol → Nat
  | .bool op _ l _ r => unions l + unions r + (if op = .union then 1 else 0)
  | _ => 0

/-- Number of boolean operations in a tree. -/
def operations : Vol → Nat
  | .bool _ _ l _ r => operations l + operations r + 1
  | _ => 0

mutual
/-- All placements are rigid and have right flags. -/
def Vol.Good : Vol → Prop
  | .solid _ => True
  | .bool _ tl l tr r => tl.Orthonormal ∧ tl.FlagsOk ∧ l.Good ∧ tr.Orthonormal ∧ tr.FlagsOk ∧ r.Good
  | .multi nodes => allGood nodes
def allGood : List (Trans3 × Vol) → Prop
  | [] => True
  | (t, v) :: rest => t.Orthonormal ∧ t.FlagsOk ∧ v.Good ∧ allGood rest
end

mutual
/-- The solids at the leaves from left to right, each with the map from the outermost frame into its own. -/
def Vol.leaves : Vol → List (Solid × (V3 → V3))
  | .solid s => [(s, id)]
  | .bool _ tl l tr r =>
    l.leaves.map (fun x => (x.1, x.2 ∘ tl.transform)) ++ r.leaves.map (fun x => (x.1, x.2 ∘ tr.transform))
  | .multi nodes => allLeaves nodes
def allLeaves : List (Trans3 × Vol) → List (Solid × (V3 → V3))
  | [] => []
  | (t, v) :: rest => v.leaves.map (fun x => (x.1, x.2 ∘ t.transform)) ++ allLeaves rest
end

end Boolean
end VecGeom

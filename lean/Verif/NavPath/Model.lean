import Verif.Transform.Model

/-!
# NavStatePath

Model of `VecGeom/navigation/NavStatePath.h` and `source/NavStatePath.cpp` (without `VECGEOM_CACHED_TRANS`,
which is off by default).  Placed volumes are abstract handles `V` (C++: pointers, or registry indices); what
the code reads through a handle is given by `Geom`.  A slot that holds the null handle is `none`.
Out of bounds accesses, dereferencing null and overrunning the fixed size array are `none` in the result type
`Option`.
-/

namespace VecGeom

/-- What the path state reads through a placed-volume handle: `GetDaughters()` and `GetTransformation()`. -/
structure Geom (V : Type) where
  daughters : V → List V
  trans : V → Trans3

/-- `NavStatePath` (NavStatePath.h:116-134).  `slots` is the memory really allocated behind `fPath`,
`fN` the size recorded in the object (`VariableSizeObj::fN`).  The two agree unless `CopyTo` changed `fN`.
`cur` is the `unsigned char fCurrentLevel`. -/
structure NavPath (V : Type) where
  slots : List (Option V)
  fN : Nat
  cur : Nat
  fCache : Int
  onBoundary : Bool

namespace NavPath
variable {V : Type}

/-- `NavStatePath::MakeInstance(maxlevel)` (NavStatePath.h:211-215, 492-496): `maxlevel + 1` zeroed slots. -/
def makeInstance (maxlevel : Nat) : NavPath V :=
  ⟨List.replicate (maxlevel + 1) none, maxlevel + 1, 0, -1, false⟩

/-- `GetMaxLevel` (NavStatePath.h:298): `fN - 1` as `unsigned char`. -/
def getMaxLevel (s : NavPath V) : Nat := (s.fN + 255) % 256

/-- `GetCurrentLevel` (NavStatePath.h:302). -/
def getCurrentLevel (s : NavPath V) : Nat := s.cur

/-- `GetLevel` (NavStatePath.h:440): `fCurrentLevel - 1` as `unsigned char`. -/
def getLevel (s : NavPath V) : Nat := (s.cur + 255) % 256

/-- `IsOutside` (NavStatePath.h:447). -/
def isOutside (s : NavPath V) : Bool := !(decide (s.cur > 0))

/-- `At(level)` (NavStatePath.h:336); outer `none`: out of bounds. -/
def at_ (s : NavPath V) (level : Nat) : Option (Option V) := s.slots[level]?

/-- `Top` (NavStatePath.h:567-570). -/
def top (s : NavPath V) : Option (Option V) := if s.cur > 0 then s.slots[s.cur - 1]? else some none

/-- `GetLastExited` (NavStatePath.h:306-309). -/
def getLastExited (s : NavPath V) : Option (Option V) :=
  if (s.cur : Int) < (s.getMaxLevel : Int) - 1 then s.slots[s.cur]? else some none

/-- `Push(v)` (NavStatePath.h:527-536).  `fCurrentLevel` is an `unsigned char`. -/
def push (s : NavPath V) (v : V) : Option (NavPath V) :=
  if s.cur < s.slots.length then
    some { s with slots := s.slots.set s.cur (some v), cur := (s.cur + 1) % 256 }
  else none

/-- `Push(unsigned short child)` (NavStatePath.h:540-552): null top or bad child number is undefined. -/
def pushChild (g : Geom V) (s : NavPath V) (child : Nat) : Option (NavPath V) :=
  if s.cur > 0 then
    match s.slots[s.cur - 1]? with
    | some (some t) => match (g.daughters t)[child]? with
      | some d => s.push d
      | none => none
    | _ => none
  else some s

/-- `Pop` (NavStatePath.h:502-513). -/
def pop (s : NavPath V) : NavPath V :=
  if s.cur > 0 then { s with cur := s.cur - 1, fCache := -1 } else s

/-- `Clear` (NavStatePath.h:516-524). -/
def clear (s : NavPath V) : NavPath V := { s with cur := 0, onBoundary := false, fCache := -1 }

/-- `SetBoundaryState` (NavStatePath.h:461). -/
def setBoundaryState (s : NavPath V) (b : Bool) : NavPath V := { s with onBoundary := b }

/-- `CopyTo(other)` (NavStatePath.h:260-275): a raw copy of the header (including `fN`) and of the slots
`0 .. fCurrentLevel`, one more than the filled ones.  Reading past this object's or writing past the other object's
allocation is undefined. -/
def copyTo (s other : NavPath V) : Option (NavPath V) :=
  if s.cur + 1 ≤ s.slots.length ∧ s.cur + 1 ≤ other.slots.length then
    some { s with slots := s.slots.take (s.cur + 1) ++ other.slots.drop (s.cur + 1) }
  else none

/-- `operator=` (NavStatePath.h:474-488) with `VariableSizeObj::operator=` (VariableSizeObj.h:60-76): copies
the common part, zeroes the rest of a longer left side, truncates if the left side is shorter.
(Model: allocation equal to the recorded size on both sides.) -/
def assign (s rhs : NavPath V) : NavPath V :=
  { rhs with
    slots := rhs.slots.take s.slots.length ++ List.replicate (s.slots.length - rhs.slots.length) none
    fN := s.fN }

/-- `HasSamePathAsOther` (NavStatePath.h:412-419): the loop over `i` from `n - 1` down to `0`. -/
def samePathLoop [DecidableEq V] (a b : NavPath V) : Nat → Option Bool
  | 0 => some true
  | n + 1 => match a.slots[n]?, b.slots[n]? with
    | some x, some y => if x ≠ y then some false else samePathLoop a b n
    | _, _ => none

/-- `HasSamePathAsOther` (NavStatePath.h:412-419). -/
def hasSamePathAsOther [DecidableEq V] (a b : NavPath V) : Option Bool :=
  if b.cur ≠ a.cur then some false else samePathLoop a b a.cur

/-- The loop of `Distance` (NavStatePath.h:653-659): `i` is the loop variable, `n` the number of
rounds left, `last` is `lastcommonlevel`. -/
def commonLoop [DecidableEq V] (a b : NavPath V) : (n i : Nat) → (last : Int) → Option Int
  | 0, _, last => some last
  | n + 1, i, last => match a.at_ i, b.at_ i with
    | some x, some y => if x = y then commonLoop a b n (i + 1) i else some last
    | _, _ => none

/-- `Distance` (NavStatePath.h:647-662). -/
def distance [DecidableEq V] (a b : NavPath V) : Option Int :=
  (commonLoop a b (min a.getCurrentLevel b.getCurrentLevel) 0 (-1)).map fun last =>
    ((a.getCurrentLevel : Int) - last) + ((b.getCurrentLevel : Int) - last) - 2

/-- The loop `for (i = from; i < to; ++i) m.MultiplyFromRight(trans(fPath[i]))`. -/
def matrixLoop (g : Geom V) (s : NavPath V) : (n i : Nat) → Trans3 → Option Trans3
  | 0, _, m => some m
  | n + 1, i, m => match s.at_ i with
    | some (some v) => matrixLoop g s n (i + 1) (m.mulRight (g.trans v))
    | _ => none

/-- `TopMatrix(global_matrix)` (NavStatePath.h:577-589): starts at level 1. -/
def topMatrix (g : Geom V) (s : NavPath V) (m : Trans3) : Option Trans3 :=
  matrixLoop g s (s.cur - 1) 1 m

/-- `TopMatrix(tolevel, global_matrix)` (NavStatePath.cpp:28-33). -/
def topMatrixTo (g : Geom V) (s : NavPath V) (tolevel : Nat) (m : Trans3) : Option Trans3 :=
  matrixLoop g s (tolevel - 1) 1 m

/-- The loop of `GlobalToLocal` (NavStatePath.cpp:19-23, 63-67): starts at level 0. -/
def toLocalLoop (g : Geom V) (s : NavPath V) : (n i : Nat) → V3 → Option V3
  | 0, _, p => some p
  | n + 1, i, p => match s.at_ i with
    | some (some v) => toLocalLoop g s n (i + 1) ((g.trans v).transform p)
    | _ => none

/-- `GlobalToLocal(point)` (NavStatePath.cpp:59-69). -/
def globalToLocal (g : Geom V) (s : NavPath V) (p : V3) : Option V3 := toLocalLoop g s s.cur 0 p

/-- `GlobalToLocal(point, tolevel)` (NavStatePath.cpp:15-25). -/
def globalToLocalTo (g : Geom V) (s : NavPath V) (p : V3) (tolevel : Nat) : Option V3 :=
  toLocalLoop g s tolevel 0 p

/-- `FindIndexWithinMother` (NavStatePath.cpp:71-78): first daughter equal to the given one; the "not found"
case (assertion, `-1`) is `none`. -/
def findIndexWithinMother [DecidableEq V] (g : Geom V) (mother daughter : V) : Option Nat :=
  (g.daughters mother).findIdx? (fun d => decide (d = daughter))

/-- The loop of `GetPathAsListOfIndices` (NavStatePath.cpp:91-93), `level` from the top downwards. -/
def indicesLoop [DecidableEq V] (g : Geom V) (s : NavPath V) : (level : Nat) → List Nat → Option (List Nat)
  | 0, acc => some acc
  | l + 1, acc => match s.at_ l, s.at_ (l + 1) with
    | some (some m), some (some d) => match findIndexWithinMother g m d with
      | some i => indicesLoop g s l (i :: acc)
      | none => none
    | _, _ => none

/-- `GetPathAsListOfIndices` (NavStatePath.cpp:87-95). -/
def getPathAsListOfIndices [DecidableEq V] (g : Geom V) (s : NavPath V) : Option (List Nat) :=
  if s.isOutside then some []
  else (indicesLoop g s (s.cur - 1) []).map (0 :: ·)

/-- `GetDaughterWithinMother` (NavStatePath.cpp:80-85): null if the index is too large. -/
def getDaughterWithinMother (g : Geom V) (mother : V) (i : Nat) : Option V := (g.daughters mother)[i]?

/-- The loop of `ResetPathFromListOfIndices` (NavStatePath.cpp:121-125) for `counter ≥ 1`.
Dereferencing a null mother and writing out of bounds are undefined; a null daughter (bad index) is stored as
null (pointer build). -/
def resetLoop (g : Geom V) : (l : List Nat) → (counter : Nat) → List (Option V) → Option (List (Option V))
  | [], _, sl => some sl
  | x :: l, c, sl => match sl[c - 1]? with
    | some (some m) =>
      if c < sl.length then resetLoop g l (c + 1) (sl.set c (getDaughterWithinMother g m x)) else none
    | _ => none

/-- `ResetPathFromListOfIndices` (NavStatePath.cpp:113-127); `fCurrentLevel` is an `unsigned char`. -/
def resetPathFromListOfIndices (g : Geom V) (s : NavPath V) (world : V) (indices : List Nat) :
    Option (NavPath V) :=
  match indices with
  | [] => some { s with cur := 0 }
  | _ :: l =>
    if 0 < s.slots.length then
      (resetLoop g l 1 (s.slots.set 0 (some world))).map fun sl =>
        { s with cur := indices.length % 256, slots := sl }
    else none

/-- `DeltaTransformation` (NavStatePath.cpp:39-51). -/
noncomputable def deltaTransformation (g : Geom V) (s other : NavPath V) : Option Trans3 := do
  let g2 ← other.topMatrix g .identity
  let g1 ← s.topMatrix g .identity
  let delta := g1.inverse
  let g2' := g2.setProperties
  let delta' := delta.setProperties.fixZeroes
  return (delta'.mulRight g2').fixZeroes

/-- The pieces of the string built by `RelativePath`. -/
inductive Token where
  | up
  | horiz (delta : Int)
  | down (value : Int)
  deriving DecidableEq, Repr

/-- `for (i = from; i < from + n; ++i) str << "/down/" << other.ValueAt(i)`. -/
def downLoop (val : V → Int) (other : NavPath V) : (n i : Nat) → Option (List Token)
  | 0, _ => some []
  | n + 1, i => match other.at_ i with
    | some (some v) => (downLoop val other n (i + 1)).map (Token.down (val v) :: ·)
    | _ => none

/-- `RelativePath` (NavStatePath.cpp:129-186).  The string is modelled as its list of pieces, and
`val` is the number `ValueAt` reports for a handle.  `lastcommonlevel` and the filled levels are signed. -/
def relativePath [DecidableEq V] (val : V → Int) (s other : NavPath V) : Option (List Token) :=
  match commonLoop s other (min s.getCurrentLevel other.getCurrentLevel) 0 (-1) with
  | none => none
  | some last =>
    let f1 : Int := (s.getCurrentLevel : Int) - 1
    let f2 : Int := (other.getCurrentLevel : Int) - 1
    if f1 = last ∧ f2 = last then some []
    else if f1 > last ∧ f2 = last then some (List.replicate (f1 - last).toNat .up)
    else if f1 = last ∧ f2 > last then downLoop val other (f2 - last).toNat (last + 1).toNat
    else if f1 > last ∧ f2 > last then
      match other.at_ (last + 1).toNat, s.at_ (last + 1).toNat with
      | some (some vo), some (some vs) =>
        let delta := val vo - val vs
        (downLoop val other (f2 - last - 1).toNat (last + 2).toNat).map fun downs =>
          List.replicate (f1 - last - 1).toNat .up ++ (if delta ≠ 0 then [.horiz delta] else []) ++ downs
      | _, _ => none
    else some []

end NavPath
end VecGeom

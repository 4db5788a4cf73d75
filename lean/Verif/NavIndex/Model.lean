import Verif.Geo.Tree
import Verif.NavPath.Model

/-!
# Navigation index table and index navigation state

Model of `VecGeom/management/NavIndexTable.h`, `source/NavIndexTable.cpp`,
`VecGeom/navigation/NavStateIndex.h` and `source/NavStateIndex.cpp`.

The table is an array of 32-bit words.  `w = sizeof(Precision) / sizeof(NavIndex_t)` is 1 or 2; a stored
`Precision` occupies `w` consecutive words, modelled by `w` tagged cells.  Reading a word from a cell that holds part of
a `Precision` (or vice versa) is undefined here, as are accesses outside the array.
-/

namespace VecGeom
namespace NavIndex

/-- A table word: either an integer or part `k` of a stored `Precision`. -/
inductive Cell where
  | word (n : Nat)
  | prec (x : ℝ) (part : Nat)

/-- The allocated array (`new NavIndex_t[nelem]`). -/
structure Tab where
  nelem : Nat
  mem : Nat → Cell

/-- `fNavInd[i] = c`; out of bounds is undefined. -/
def Tab.set (t : Tab) (i : Nat) (c : Cell) : Option Tab :=
  if i < t.nelem then some { t with mem := fun j => if j = i then c else t.mem j } else none

/-- A loop storing consecutive cells from index `i` on. -/
def Tab.setList (t : Tab) : Nat → List Cell → Option Tab
  | _, [] => some t
  | i, c :: cs => match t.set i c with
    | some t' => Tab.setList t' (i + 1) cs
    | none => none

/-- `fNavInd[i]` read as an integer. -/
def Tab.word (t : Tab) (i : Nat) : Option Nat :=
  if i < t.nelem then match t.mem i with | .word n => some n | .prec _ _ => none else none

open Classical in
/-- A `Precision` read at word index `i`: all its `w` parts have to be there. -/
noncomputable def Tab.prec (w : Nat) (t : Tab) (i : Nat) : Option ℝ :=
  match t.mem i with
  | .prec x _ => if ∀ k < w, i + k < t.nelem ∧ t.mem (i + k) = .prec x k then some x else none
  | .word _ => none

/-- The cells of one stored `Precision`. -/
def precCells (w : Nat) (x : ℝ) : List Cell := (List.range w).map (Cell.prec x)

/-- The 12 numbers stored for a matrix (NavIndexTable.cpp:87-92): translation, then rotation. -/
def matCells (w : Nat) (m : Trans3) : List Cell :=
  [m.t.x, m.t.y, m.t.z, m.r0, m.r1, m.r2, m.r3, m.r4, m.r5, m.r6, m.r7, m.r8].flatMap (precCells w)

/-- The third word of a record (NavIndexTable.cpp:60-72, little endian): byte 0 the level, byte 1 the
matrix flags, bytes 2 and 3 the number of daughters.  The byte stores of the code are merged into one word store. -/
def metaWord (level hasm nd : Nat) : Nat := level % 256 + 256 * (hasm % 256) + 65536 * (nd % 65536)

/-- The read-side of the path state: daughters and transformations of placements. -/
def geom : Geom PVol := ⟨PVol.daughters, PVol.trans⟩

/-- `daughterIndices` (NavIndexTable.cpp:28). -/
def daughterIndices (nd : Nat) : Nat := 3 + nd + ((nd + 1) &&& 1)

/-- `cacheTrans` (NavIndexTable.cpp:11, 18). -/
def cacheTrans (lim : Int) (level : Int) (v : PVol) : Bool :=
  !(decide (lim > 0) && decide (level > lim) && !v.reqCaching)

/-- `padTransformationData` (NavIndexTable.cpp:29-30) with `sizeof(NavIndex_t) = 4`, `sizeof(Precision) = 4 w`. -/
def padData (w before dI : Nat) : Bool := decide (((before + dI) * 4) % (4 * w) ≠ 0)

/-- `apply` in the counting pass (NavIndexTable.cpp:9-41): state is `fTableSize` in bytes. -/
def countApply (w : Nat) (lim : Int) (size : Nat) (st : NavPath PVol) (level : Int) (_mother : Nat)
    (_dind : Nat) : Option (Nat × Nat) :=
  match st.top with
  | some (some v) =>
    let nd := v.daughters.length % 65536
    let cache := cacheTrans lim level v
    let before := size / 4
    let dI := daughterIndices nd
    let pad := padData w before dI
    let current := (dI + pad.toNat) * 4 + cache.toNat * 12 * (4 * w)
    some (size + current, 0)
  | _ => none

/-- The node's index is entered in the mother's list of daughters (NavIndexTable.cpp:50). -/
def linkMother (t : Tab) (mother dind cur : Nat) : Option Tab :=
  if mother > 0 then t.set (mother + 3 + dind) (.word cur) else some t

/-- `apply` in the filling pass (NavIndexTable.cpp:9-99): state is the table and `fCurrent` (32 bits);
the result is `new_mother`. -/
noncomputable def fillApply (w : Nat) (lim : Int) (s : Tab × Nat) (st : NavPath PVol) (level : Int) (mother : Nat)
    (dind : Nat) : Option ((Tab × Nat) × Nat) := do
  let (t, cur) := s
  match st.top, st.at_ level.toNat with
  | some (some v), some (some vl) =>
    let nd := v.daughters.length % 65536
    let cache := cacheTrans lim level v
    let dI := daughterIndices nd
    let pad := padData w cur dI
    let t ← t.set cur (.word mother)
    let t ← linkMother t mother dind cur
    let t ← t.set (cur + 1) (.word vl.id)
    let t ← t.set (cur + 2) (.word (metaWord level.toNat 0 nd))
    let t ← t.setList (cur + 3) (List.replicate nd (.word 0))
    let cur1 := (cur + dI) % 2 ^ 32
    if !cache then return ((t, cur1), cur)
    let mat ← st.topMatrix geom .identity
    let t ← t.set (cur + 2)
      (.word (metaWord level.toNat (4 + 2 * mat.fHasTranslation.toNat + mat.fHasRotation.toNat) nd))
    let cur2 := if pad then (cur1 + 1) % 2 ^ 32 else cur1
    let t ← t.setList cur2 (matCells w mat)
    return ((t, (cur2 + 12 * w) % 2 ^ 32), cur)
  | _, _ => none

/- `visitAllPlacedVolumesNavIndex` (NavIndexTable.h:152-165), for any visitor `app`. -/
mutual
/-- Visit one placement: push, apply, daughters, pop. -/
def visit {S : Type} (app : S → NavPath PVol → Int → Nat → Nat → Option (S × Nat)) :
    PVol → S → NavPath PVol → Int → Nat → Nat → Option (S × NavPath PVol)
  | .mk i c l tr r ds, s, st, level, mother, dind =>
    match st.push (.mk i c l tr r ds) with
    | none => none
    | some st1 => match app s st1 level mother dind with
      | none => none
      | some (s1, newMother) => match visitL app ds s1 st1 (level + 1) newMother 0 with
        | none => none
        | some (s2, st2) => some (s2, st2.pop)
/-- The loop over the daughters. -/
def visitL {S : Type} (app : S → NavPath PVol → Int → Nat → Nat → Option (S × Nat)) :
    List PVol → S → NavPath PVol → Int → Nat → Nat → Option (S × NavPath PVol)
  | [], s, st, _, _, _ => some (s, st)
  | d :: ds, s, st, level, mother, i =>
    match visit app d s st level mother i with
    | none => none
    | some (s1, st1) => visitL app ds s1 st1 level mother (i + 1)
end

/-- `AllocateTable(bytes)` (NavIndexTable.h:85-101): `garbage` is what the fresh memory holds. -/
def allocate (garbage : Nat → Cell) (bytes : Nat) : Tab :=
  ⟨bytes / 4 + 1, fun j => if j = 0 then .word 0 else garbage j⟩

/-- `CreateTable(top, maxdepth, depth_limit)` (NavIndexTable.h:114-132): counting pass from `fTableSize = 4`,
allocation, filling pass from `fCurrent = 1`.  Returns the table and the final `fCurrent`. -/
noncomputable def createTable (w : Nat) (garbage : Nat → Cell) (top : PVol) (maxdepth : Nat) (lim : Int) :
    Option (Tab × Nat) :=
  match visit (countApply w lim) top 4 (NavPath.makeInstance maxdepth) 0 0 0 with
  | none => none
  | some (bytes, st) =>
    match visit (fillApply w lim) top (allocate garbage bytes, 1) st.clear 0 0 0 with
    | none => none
    | some (s, _) => some s

/-! ### NavStateIndex -/

/-- `GetNdaughtersImpl` (NavStateIndex.h:171-176). -/
def getNdaughters (t : Tab) (nav : Nat) : Option Nat := (t.word (nav + 2)).map fun x => x / 65536 % 65536

/-- `GetLevelImpl` (NavStateIndex.h:180-185). -/
def getLevel (t : Tab) (nav : Nat) : Option Nat := (t.word (nav + 2)).map fun x => x % 256

/-- The matrix flags byte (NavStateIndex.h:219, 224). -/
def getHasm (t : Tab) (nav : Nat) : Option Nat := (t.word (nav + 2)).map fun x => x / 256 % 256

/-- The loop `while (mother && up--) mother = NavInd(mother)`; `fuel` bounds the number of rounds. -/
def upLoop (t : Tab) : (fuel : Nat) → (mother : Nat) → (up : Int) → Option Nat
  | 0, _, _ => none
  | f + 1, mother, up =>
    if mother = 0 then some 0
    else if up = 0 then some mother
    else match t.word mother with
      | none => none
      | some m => upLoop t f m (up - 1)

/-- `GetNavIndexImpl` (NavStateIndex.h:189-196). -/
def getNavIndex (t : Tab) (fuel : Nat) (nav : Nat) (level : Int) : Option Nat :=
  match getLevel t nav with
  | none => none
  | some l => upLoop t fuel nav (l - level)

/-- `PopImpl` (NavStateIndex.h:200). -/
def popI (t : Tab) (nav : Nat) : Option Nat := if nav > 0 then t.word nav else some 0

/-- `PushImpl` (NavStateIndex.h:204-207). -/
def pushI (t : Tab) (nav : Nat) (v : PVol) : Option Nat :=
  if nav > 0 then
    (if (nav : Int) + 3 + v.childId < 0 then none else t.word ((nav : Int) + 3 + v.childId).toNat)
  else some 1

/-- `TopImpl` (NavStateIndex.h:211-214); the inner `none` is the null pointer. -/
def topI (lookup : Nat → Option PVol) (t : Tab) (nav : Nat) : Option (Option PVol) :=
  if nav > 0 then
    match t.word (nav + 1) with
    | none => none
    | some i => match lookup i with
      | none => none
      | some v => some (some v)
  else some none

/-- `At(level)` (NavStateIndex.h:319-323). -/
def atI (lookup : Nat → Option PVol) (t : Tab) (fuel nav : Nat) (level : Int) : Option (Option PVol) :=
  match getNavIndex t fuel nav level with
  | none => none
  | some parent => topI lookup t parent

/-- `ValueAt(level)` (NavStateIndex.h:330-334). -/
def valueAt (t : Tab) (fuel nav : Nat) (level : Int) : Option Nat :=
  match getNavIndex t fuel nav level with
  | none => none
  | some parent => if parent > 0 then t.word (parent + 1) else some 0

/-- Index of the transformation data (NavStateIndex.h:237-240). -/
def dataIndex (w nav nd : Nat) : Nat :=
  let i := nav + 3 + nd + ((nd + 1) &&& 1)
  if (i * 4) % (4 * w) ≠ 0 then i + 1 else i

/-- Reading the 12 stored numbers and `t.Set(...)` on an identity (NavStateIndex.h:242-246). -/
noncomputable def readMat (w : Nat) (t : Tab) (a : Nat) (has_trans has_rot : Bool) : Option Trans3 := do
  let tx ← t.prec w a
  let ty ← t.prec w (a + w)
  let tz ← t.prec w (a + w * 2)
  let r0 ← t.prec w (a + w * 3)
  let r1 ← t.prec w (a + w * 4)
  let r2 ← t.prec w (a + w * 5)
  let r3 ← t.prec w (a + w * 6)
  let r4 ← t.prec w (a + w * 7)
  let r5 ← t.prec w (a + w * 8)
  let r6 ← t.prec w (a + w * 9)
  let r7 ← t.prec w (a + w * 10)
  let r8 ← t.prec w (a + w * 11)
  return Trans3.identity.set ⟨tx, ty, tz⟩ r0 r1 r2 r3 r4 r5 r6 r7 r8 has_trans has_rot

/-- `TopMatrixImpl` (NavStateIndex.h:217-250); `fuel` bounds the number of rounds of `while (true)`. -/
noncomputable def topMatrixI (w : Nat) (lookup : Nat → Option PVol) (t : Tab) :
    (fuel : Nat) → (nav : Nat) → Trans3 → Option Trans3
  | 0, _, _ => none
  | f + 1, nav, tr =>
    if nav = 0 then some tr
    else match getHasm t nav with
      | none => none
      | some hasm =>
        if hasm &&& 4 > 0 then
          if hasm &&& 3 = 0 then some tr
          else match getNdaughters t nav with
            | none => none
            | some nd => match readMat w t (dataIndex w nav nd) (decide (hasm &&& 2 > 0)) (decide (hasm &&& 1 > 0)) with
              | none => none
              | some m => some (m.mulRight tr)
        else match topI lookup t nav, t.word nav with
          | some (some v), some mo => topMatrixI w lookup t f mo (v.trans.mulRight tr)
          | _, _ => none

/-- `GlobalToLocalImpl` (NavStateIndex.h:253-259). -/
noncomputable def globalToLocalI (w : Nat) (lookup : Nat → Option PVol) (t : Tab) (fuel nav : Nat) (p : V3) :
    Option V3 :=
  (topMatrixI w lookup t fuel nav .identity).map fun m => m.transform p

/-- The loop of `GetPathAsListOfIndices` (NavStateIndex.cpp:38-43). -/
def indicesLoopI (lookup : Nat → Option PVol) (t : Tab) : (fuel : Nat) → (nav : Nat) → List Int → Option (List Int)
  | 0, _, _ => none
  | f + 1, nav, acc =>
    if nav > 1 then
      match topI lookup t nav, popI t nav with
      | some (some v), some m => indicesLoopI lookup t f m (v.childId :: acc)
      | _, _ => none
    else some acc

/-- `GetPathAsListOfIndices` (NavStateIndex.cpp:33-46). -/
def getPathI (lookup : Nat → Option PVol) (t : Tab) (fuel nav : Nat) : Option (List Int) :=
  if nav = 0 then some [] else (indicesLoopI lookup t fuel nav []).map (0 :: ·)

/-- The loop of `ResetPathFromListOfIndices` (NavStateIndex.cpp:75-80) for `counter ≥ 1`. -/
def resetLoopI (t : Tab) : List Int → PVol → Nat → Option Nat
  | [], _, nav => some nav
  | i :: l, vol, nav =>
    if i < 0 then none
    else match vol.daughters[i.toNat]? with
      | none => none
      | some d => match pushI t nav d with
        | none => none
        | some nav' => resetLoopI t l d nav'

/-- `ResetPathFromListOfIndices` (NavStateIndex.cpp:70-81). -/
def resetPathI (t : Tab) (world : PVol) : List Int → Option Nat
  | [] => some 0
  | _ :: l => match pushI t 0 world with
    | none => none
    | some nav => resetLoopI t l world nav

/-- The loop of `Distance` (NavStateIndex.cpp:152-158). `At` results are compared as pointers, i.e. by id. -/
def commonLoopI (lookup : Nat → Option PVol) (t : Tab) (fuel a b : Nat) : (n i : Nat) → (last : Int) → Option Int
  | 0, _, last => some last
  | n + 1, i, last => match atI lookup t fuel a i, atI lookup t fuel b i with
    | some x, some y =>
      if x.map PVol.id = y.map PVol.id then commonLoopI lookup t fuel a b n (i + 1) i else some last
    | _, _ => none

/-- `Distance` (NavStateIndex.cpp:144-161). -/
def distanceI (lookup : Nat → Option PVol) (t : Tab) (fuel a b : Nat) : Option Int :=
  match getLevel t a, getLevel t b with
  | some la, some lb =>
    (commonLoopI lookup t fuel a b (min la lb + 1) 0 (-1)).map fun last =>
      ((la : Int) - last) + ((lb : Int) - last)
  | _, _ => none

end NavIndex
end VecGeom

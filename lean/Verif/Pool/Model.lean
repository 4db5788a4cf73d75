import Mathlib.Data.List.Basic
import Mathlib.Tactic.Linarith
import Mathlib.Tactic.Ring

/-!
# Pools of navigation states

Models `VecGeom/navigation/NavStatePool.h` and the sizes of `VecGeom/base/VariableSizeObj.h`.  Memory and files are lists of bytes.
The CUDA part is not modelled, nor is the variant that cannot be written to files (without `VECGEOM_USE_INDEXEDNAVSTATES`).
-/

namespace VecGeom
namespace Pool

/-- A byte. -/
abbrev Byte := BitVec 8

/-- The constants of the compiler for a navigation state: `sizeof(Cont)`, `sizeof(V)` and `alignof(Cont)`. -/
structure Layout where
  cont : Nat
  val : Nat
  al : Nat

/-- `SizeOf(nvalues)` (VariableSizeObj.h:187-190); `SizeOfExtra` is 0 (L194).  Only for `nvalues ≥ 1`: for 0 the C++ expression wraps. -/
def sizeOf (L : Layout) (nvalues : Nat) : Nat := L.cont + 0 + L.val * (nvalues - 1)

/-- `FillUp` (VariableSizeObj.h:203). -/
def fillUp (L : Layout) (nvalues : Nat) : Nat := L.al - sizeOf L nvalues % L.al

/-- `RealFillUp` (VariableSizeObj.h:206-209). -/
def realFillUp (L : Layout) (nvalues : Nat) : Nat := if fillUp L nvalues = L.al then 0 else fillUp L nvalues

/-- `SizeOfAlignAware` (VariableSizeObj.h:199). -/
def sizeOfAlignAware (L : Layout) (nvalues : Nat) : Nat := sizeOf L nvalues + realFillUp L nvalues

/-- `SizeOfInstance` (NavStatePath.h:227-231). -/
def sizeOfInstance (L : Layout) (depth : Nat) : Nat := sizeOf L (depth + 1)

/-- `SizeOfInstanceAlignAware` (NavStatePath.h:237-241). -/
def stride (L : Layout) (depth : Nat) : Nat := sizeOfAlignAware L (depth + 1)

/-- `NavStatePool` (NavStatePool.h:204-211).  Capacity and depth are `int`s, here not negative. -/
structure NavPool where
  cap : Nat
  depth : Nat
  buf : List Byte

/-- Writing bytes at an address; `none` past the end of the buffer. -/
def writeAt (buf : List Byte) (addr : Nat) (bytes : List Byte) : Option (List Byte) :=
  if addr + bytes.length ≤ buf.length then some (buf.take addr ++ bytes ++ buf.drop (addr + bytes.length)) else none

/-- Reading bytes at an address; `none` past the end of the buffer. -/
def readAt (buf : List Byte) (addr n : Nat) : Option (List Byte) :=
  if addr + n ≤ buf.length then some ((buf.drop addr).take n) else none

/-- The loop of the constructor (NavStatePool.h:96-98), from state `i` on: a new state is written at each place.  `fresh` are the bytes
of a new state. -/
def makeLoop (L : Layout) (depth : Nat) (fresh : List Byte) : Nat → Nat → List Byte → Option (List Byte)
  | 0, _, buf => some buf
  | n + 1, i, buf => (writeAt buf (stride L depth * i) fresh).bind (makeLoop L depth fresh n (i + 1))

/-- The constructor (NavStatePool.h:87-99); `junk` is the content of the new buffer. -/
def make (L : Layout) (cap depth : Nat) (fresh junk : List Byte) : Option NavPool :=
  (makeLoop L depth fresh cap 0 junk).map fun buf => ⟨cap, depth, buf⟩

/-- `operator[](i)` (NavStatePool.h:152-161) with `GetNavigationState` (L40-50): the address of state `i` in the buffer. -/
def addr (L : Layout) (p : NavPool) (i : Nat) : Nat := stride L p.depth * i

/-- Reading the whole of state `i`. -/
def getState (L : Layout) (p : NavPool) (i : Nat) : Option (List Byte) := readAt p.buf (addr L p i) (sizeOfInstance L p.depth)

/-- Writing state `i` through the pointer. -/
def setState (L : Layout) (p : NavPool) (i : Nat) (bytes : List Byte) : Option NavPool :=
  (writeAt p.buf (addr L p i) bytes).map fun buf => { p with buf := buf }

/-- The four bytes of an `int` (little endian). -/
def intBytes (n : Nat) : List Byte :=
  [BitVec.ofNat 8 n, BitVec.ofNat 8 (n / 256), BitVec.ofNat 8 (n / 65536), BitVec.ofNat 8 (n / 16777216)]

/-- The unsigned value of four bytes. -/
def bytesInt : List Byte → Nat
  | [a, b, c, d] => a.toNat + 256 * b.toNat + 65536 * c.toNat + 16777216 * d.toNat
  | _ => 0

/-- `ToFile` (NavStatePool.h:109-119). -/
def toFile (L : Layout) (p : NavPool) : List Byte := intBytes p.cap ++ intBytes p.depth ++ p.buf.take (p.cap * stride L p.depth)

/-- `ReadDepthAndCapacityFromFile` (NavStatePool.h:121-126) for a file that has the eight bytes. -/
def readDepthAndCapacity (file : List Byte) : Nat × Nat := (bytesInt (file.take 4), bytesInt ((file.drop 4).take 4))

/-- `FromFile` (NavStatePool.h:129-148).  `file = none` if it cannot be opened.  A short read stores what there is and fails.  The
warning is not modelled. -/
def fromFile (L : Layout) (p : NavPool) (file : Option (List Byte)) : Int × NavPool :=
  match file with
  | none => (-1, p)
  | some f =>
    if f.length < 4 then (-2, p)
    else if f.length < 8 then (-2, p)
    else
      let want := p.cap * stride L p.depth
      let got := (f.drop 8).take want
      let p' := { p with buf := got ++ p.buf.drop got.length }
      if got.length < want then (-3, p') else (p.cap, p')

end Pool
end VecGeom

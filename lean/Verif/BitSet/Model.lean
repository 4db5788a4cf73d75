import Verif.Base.Loop

/-!
# BitSet

Model of `VecGeom/base/BitSet.h`, with the storage of `VecGeom/base/VariableSizeObj.h`.
Bytes are `BitVec 8`.  `size_t` values are natural numbers; the only places where the code relies on wrap-around
are commented.  Accesses outside the `fN` stored bytes are undefined (`none`).
-/

namespace VecGeom

abbrev Byte := BitVec 8

/-- Data members (BitSet.h:52-53): `fNbits` and the `fData.fN` bytes of `fData`. -/
structure BitSet where
  nbits : Nat
  data : List Byte

namespace BitSet

/-- `GetNbytes(nbits)` (BitSet.h:63). -/
def nbytesFor (nbits : Nat) : Nat := ((if nbits ≠ 0 then nbits else 8) - 1) / 8 + 1

/-- `GetNbytes()` (BitSet.h:818): `fData.fN`. -/
def nbytes (s : BitSet) : Nat := s.data.length

/-- `MakeInstance(nbits)` (BitSet.h:252-256) with the constructor at L88-89; `fNbits` is an `unsigned int`. -/
def makeInstance (nbits : Nat) : BitSet := ⟨nbits % 2 ^ 32, List.replicate (nbytesFor nbits) 0⟩

/-- `fData[i] = f(fData[i])`. -/
def modifyAt (l : List Byte) (i : Nat) (f : Byte → Byte) : Option (List Byte) :=
  match l[i]? with
  | some b => some (l.set i (f b))
  | none => none

/-- `1 << bit` as an unsigned char. -/
def mask (bit : Nat) : Byte := 1#8 <<< bit

/-- Setting a bit of a byte: `|= (1 << bit)` or `&= (0xFF ^ (1 << bit))` (BitSet.h:317-320). -/
def putBit (bit : Nat) (value : Bool) (b : Byte) : Byte :=
  if value then b ||| mask bit else b &&& (0xFF#8 ^^^ mask bit)

/-- `ResetAllBits(value)` (BitSet.h:291-297): `memset(values, value ? 1 : 0, nbytes)`. -/
def resetAllBits (s : BitSet) (value : Bool) : BitSet :=
  { s with data := List.replicate s.nbytes (if value then 1#8 else 0#8) }

/-- `SetBitNumber(bitnumber, value)` (BitSet.h:303-322). -/
def setBitNumber (s : BitSet) (n : Nat) (value : Bool) : Option (Bool × BitSet) :=
  if n ≥ s.nbits ∧ n / 8 + 1 > s.nbytes then some (false, s)
  else
    let nb := if n ≥ s.nbits then (n + 1) % 2 ^ 32 else s.nbits
    match modifyAt s.data (n / 8) (putBit (n % 8) value) with
    | some d => some (true, ⟨nb, d⟩)
    | none => none

/-- `ResetBitNumber` (BitSet.h:300). -/
def resetBitNumber (s : BitSet) (n : Nat) : Option BitSet := (s.setBitNumber n false).map (·.2)

/-- `(value & (1 << bit)) != 0`. -/
def hasBit (b : Byte) (bit : Nat) : Bool := (b &&& mask bit) != 0#8

/-- `TestBitNumber(bitnumber)` (BitSet.h:325-336). -/
def testBitNumber (s : BitSet) (n : Nat) : Option Bool :=
  if n ≥ s.nbits then some false
  else match s.data[n / 8]? with
    | some b => some (hasBit b (n % 8))
    | none => none

/-- `b[n] = value` through `reference` (BitSet.h:204-213, 339-345): past the end the dummy reference
writes only into itself. -/
def refAssign (s : BitSet) (n : Nat) (value : Bool) : Option BitSet :=
  if n ≥ s.nbits then some s
  else (modifyAt s.data (n / 8) (putBit (n % 8) value)).map fun d => { s with data := d }

/-- The loop `for (i = 0; i < min; ++i) fData[i] = op(fData[i], rhs.fData[i])`. -/
def zipLoop (op : Byte → Byte → Byte) (rhs : List Byte) (n : Nat) (l : List Byte) : Option (List Byte) :=
  forUp (fun i l => match rhs[i]? with
    | some r => modifyAt l i (op · r)
    | none => none) n 0 l

/-- `memset(&fData[from], 0, n)`. -/
def zeroLoop (fr n : Nat) (l : List Byte) : Option (List Byte) :=
  forUp (fun i l => modifyAt l i fun _ => 0#8) n fr l

/-- `DoAndEqual` (BitSet.h:91-104). -/
def andEqual (s rhs : BitSet) : Option BitSet :=
  let m := if s.nbytes < rhs.nbytes then s.nbytes else rhs.nbytes
  match zipLoop (· &&& ·) rhs.data m s.data with
  | none => none
  | some d =>
    if s.nbytes > m then (zeroLoop m (s.nbytes - m) d).map fun d => { s with data := d }
    else some { s with data := d }

/-- `DoOrEqual` (BitSet.h:106-116). -/
def orEqual (s rhs : BitSet) : Option BitSet :=
  let m := if s.nbytes < rhs.nbytes then s.nbytes else rhs.nbytes
  (zipLoop (· ||| ·) rhs.data m s.data).map fun d => { s with data := d }

/-- `DoXorEqual` (BitSet.h:118-128). -/
def xorEqual (s rhs : BitSet) : Option BitSet :=
  let m := if s.nbytes < rhs.nbytes then s.nbytes else rhs.nbytes
  (zipLoop (· ^^^ ·) rhs.data m s.data).map fun d => { s with data := d }

/-- `(a << offset) | (b >> sub_offset)` (BitSet.h:142). -/
def joinLeft (off : Nat) (a b : Byte) : Byte := (a <<< off) ||| (b >>> (8 - off))

/-- `(a >> offset) | (b << sub_offset)` (BitSet.h:166). -/
def joinRight (off : Nat) (a b : Byte) : Byte := (a >>> off) ||| (b <<< (8 - off))

/-- `fData[n] = op(fData[j], fData[k])`. -/
def combineBytes (op : Byte → Byte → Byte) (n j k : Nat) (l : List Byte) : Option (List Byte) :=
  match l[j]?, l[k]? with
  | some a, some b => modifyAt l n fun _ => op a b
  | _, _ => none

/-- `fData[n] = op(fData[k])`. -/
def mapByte (op : Byte → Byte) (n k : Nat) (l : List Byte) : Option (List Byte) :=
  match l[k]? with
  | some a => modifyAt l n fun _ => op a
  | none => none

/-- `DoLeftShift(shift)` (BitSet.h:130-149).  In the first loop `wordshift ≥ 1`, so `n` does not wrap. -/
def leftShift (s : BitSet) (shift : Nat) : Option BitSet :=
  if shift = 0 then some s
  else
    let ws := shift / 8
    let off := shift % 8
    let moved :=
      if off = 0 then
        forDown (fun n l => mapByte id n (n - ws) l) (s.nbytes - ws) ws s.data
      else
        (forDown (fun n l => combineBytes (joinLeft off) n (n - ws) (n - ws - 1) l) (s.nbytes - 1 - ws) (ws + 1)
          s.data).bind (mapByte (· <<< off) ws 0)
    (moved.bind (zeroLoop 0 ws)).map fun d => { s with data := d }

/-- `DoRightShift(shift)` (BitSet.h:151-171).  `limit = nbytes - wordshift - 1` wraps around if
`wordshift ≥ nbytes`; the loops then run out of the array, so this case is undefined. -/
def rightShift (s : BitSet) (shift : Nat) : Option BitSet :=
  if shift = 0 then some s
  else
    let ws := shift / 8
    let off := shift % 8
    if ws ≥ s.nbytes then none
    else
      let limit := s.nbytes - ws - 1
      let moved :=
        if off = 0 then forUp (fun n l => mapByte id n (n + ws) l) (limit + 1) 0 s.data
        else
          (forUp (fun n l => combineBytes (joinRight off) n (n + ws) (n + ws + 1) l) limit 0 s.data).bind
            (mapByte (· >>> off) limit (s.nbytes - 1))
      (moved.bind (zeroLoop (limit + 1) (s.nbytes - limit - 1))).map fun d => { s with data := d }

/-- `Clear` (BitSet.h:574-578). -/
def clear (s : BitSet) : BitSet := ⟨0, List.replicate s.nbytes 0#8⟩

/-- `operator=` (BitSet.h:236-247) with `VariableSizeObj::operator=` (VariableSizeObj.h:60-77). -/
def assign (s rhs : BitSet) : BitSet :=
  ⟨rhs.nbits, rhs.data.take s.data.length ++ List.replicate (s.data.length - rhs.data.length) 0#8⟩

/-- Copy constructor / `MakeCopy(other)` (BitSet.h:66-70, VariableSizeObj.h:44-47). -/
def copy (s : BitSet) : BitSet := ⟨s.nbits, s.data⟩

/-- `MakeCopy(new_size, other)` (VariableSizeObj.h:131-143, 49-52; BitSet.h:73-86).  The allocation
(`SizeOf(new_size)`, VariableSizeObj.h:184-188) has room for `new_size` bytes plus the 3 bytes of tail padding of the
class; `memcpy` copies `other.fN` bytes into it regardless of `new_size`. -/
def resizedCopy (newSize : Nat) (s : BitSet) : Option BitSet :=
  if s.nbytes ≤ newSize + 3 then
    some ⟨if s.nbits * 8 > newSize then (8 * newSize) % 2 ^ 32 else s.nbits,
      s.data.take newSize ++ List.replicate (newSize - s.nbytes) 0#8⟩
  else none

/-- The loop of `MakeCompactCopy` (BitSet.h:275-277). -/
def neededLoop (l : List Byte) : (needed : Nat) → Option Nat
  | 0 => some 0
  | n + 1 => match l[n + 1]? with
    | some b => if b = 0#8 then neededLoop l n else some (n + 1)
    | none => none

/-- `MakeCompactCopy(other)` (BitSet.h:266-286). -/
def compactCopy (s : BitSet) : Option BitSet :=
  if s.nbytes ≤ 1 then some s
  else match neededLoop s.data (s.nbytes - 1) with
    | none => none
    | some k => if k + 1 ≠ s.nbytes then resizedCopy (k + 1) s else some s

/-- `nbits[256]` (BitSet.h:586-602). -/
def popTable : List Nat := [
  0,1,1,2,1,2,2,3,1,2,2,3,2,3,3,4,
  1,2,2,3,2,3,3,4,2,3,3,4,3,4,4,5,
  1,2,2,3,2,3,3,4,2,3,3,4,3,4,4,5,
  2,3,3,4,3,4,4,5,3,4,4,5,4,5,5,6,
  1,2,2,3,2,3,3,4,2,3,3,4,3,4,4,5,
  2,3,3,4,3,4,4,5,3,4,4,5,4,5,5,6,
  2,3,3,4,3,4,4,5,3,4,4,5,4,5,5,6,
  3,4,4,5,4,5,5,6,4,5,5,6,5,6,6,7,
  1,2,2,3,2,3,3,4,2,3,3,4,3,4,4,5,
  2,3,3,4,3,4,4,5,3,4,4,5,4,5,5,6,
  2,3,3,4,3,4,4,5,3,4,4,5,4,5,5,6,
  3,4,4,5,4,5,5,6,4,5,5,6,5,6,6,7,
  2,3,3,4,3,4,4,5,3,4,4,5,4,5,5,6,
  3,4,4,5,4,5,5,6,4,5,5,6,5,6,6,7,
  3,4,4,5,4,5,5,6,4,5,5,6,5,6,6,7,
  4,5,5,6,5,6,6,7,5,6,6,7,6,7,7,8]

/-- `count += nbits[fData[i]]`. -/
def countLoop (l : List Byte) (n fr count : Nat) : Option Nat :=
  forUp (fun i c => match l[i]? with
    | some b => some (c + popTable.getD b.toNat 0)
    | none => none) n fr count

/-- `CountBits(startBit)` (BitSet.h:580-625).  The loop over the bits of the first byte tests bit `ibit`
every time, as written (L615). -/
def countBits (s : BitSet) (startBit : Nat) : Option Nat :=
  if startBit = 0 then countLoop s.data s.nbytes 0 0
  else if startBit ≥ s.nbits then some 0
  else
    let startByte := startBit / 8
    let ibit := startBit % 8
    if ibit ≠ 0 then
      match s.data[startByte]? with
      | none => none
      | some b =>
        (forUp (fun _ c => some (if hasBit b ibit then c + 1 else c)) (8 - ibit) ibit 0).bind
          (countLoop s.data (s.nbytes - (startByte + 1)) (startByte + 1))
    else countLoop s.data (s.nbytes - startByte) startByte 0

/-- `bitsPattern[256]` of `FirstNullBit` (BitSet.h:634-650). -/
def firstNullTable : List Nat := [
  0,1,0,2,0,1,0,3,0,1,0,2,0,1,0,4,
  0,1,0,2,0,1,0,3,0,1,0,2,0,1,0,5,
  0,1,0,2,0,1,0,3,0,1,0,2,0,1,0,4,
  0,1,0,2,0,1,0,3,0,1,0,2,0,1,0,6,
  0,1,0,2,0,1,0,3,0,1,0,2,0,1,0,4,
  0,1,0,2,0,1,0,3,0,1,0,2,0,1,0,5,
  0,1,0,2,0,1,0,3,0,1,0,2,0,1,0,4,
  0,1,0,2,0,1,0,3,0,1,0,2,0,1,0,7,
  0,1,0,2,0,1,0,3,0,1,0,2,0,1,0,4,
  0,1,0,2,0,1,0,3,0,1,0,2,0,1,0,5,
  0,1,0,2,0,1,0,3,0,1,0,2,0,1,0,4,
  0,1,0,2,0,1,0,3,0,1,0,2,0,1,0,6,
  0,1,0,2,0,1,0,3,0,1,0,2,0,1,0,4,
  0,1,0,2,0,1,0,3,0,1,0,2,0,1,0,5,
  0,1,0,2,0,1,0,3,0,1,0,2,0,1,0,4,
  0,1,0,2,0,1,0,3,0,1,0,2,0,1,0,8]

/-- `bitsPattern[256]` of `FirstSetBit` (BitSet.h:683-699). -/
def firstSetTable : List Nat := [
  8,0,1,0,2,0,1,0,3,0,1,0,2,0,1,0,
  4,0,1,0,2,0,1,0,3,0,1,0,2,0,1,0,
  5,0,1,0,2,0,1,0,3,0,1,0,2,0,1,0,
  4,0,1,0,2,0,1,0,3,0,1,0,2,0,1,0,
  6,0,1,0,2,0,1,0,3,0,1,0,2,0,1,0,
  4,0,1,0,2,0,1,0,3,0,1,0,2,0,1,0,
  5,0,1,0,2,0,1,0,3,0,1,0,2,0,1,0,
  4,0,1,0,2,0,1,0,3,0,1,0,2,0,1,0,
  7,0,1,0,2,0,1,0,3,0,1,0,2,0,1,0,
  4,0,1,0,2,0,1,0,3,0,1,0,2,0,1,0,
  5,0,1,0,2,0,1,0,3,0,1,0,2,0,1,0,
  4,0,1,0,2,0,1,0,3,0,1,0,2,0,1,0,
  6,0,1,0,2,0,1,0,3,0,1,0,2,0,1,0,
  4,0,1,0,2,0,1,0,3,0,1,0,2,0,1,0,
  5,0,1,0,2,0,1,0,3,0,1,0,2,0,1,0,
  4,0,1,0,2,0,1,0,3,0,1,0,2,0,1,0]

/-- `bitsPattern[256]` of `LastNullBit` (BitSet.h:732-748). -/
def lastNullTable : List Nat := [
  7,7,7,7,7,7,7,7,7,7,7,7,7,7,7,7,
  7,7,7,7,7,7,7,7,7,7,7,7,7,7,7,7,
  7,7,7,7,7,7,7,7,7,7,7,7,7,7,7,7,
  7,7,7,7,7,7,7,7,7,7,7,7,7,7,7,7,
  7,7,7,7,7,7,7,7,7,7,7,7,7,7,7,7,
  7,7,7,7,7,7,7,7,7,7,7,7,7,7,7,7,
  7,7,7,7,7,7,7,7,7,7,7,7,7,7,7,7,
  7,7,7,7,7,7,7,7,7,7,7,7,7,7,7,7,
  6,6,6,6,6,6,6,6,6,6,6,6,6,6,6,6,
  6,6,6,6,6,6,6,6,6,6,6,6,6,6,6,6,
  6,6,6,6,6,6,6,6,6,6,6,6,6,6,6,6,
  6,6,6,6,6,6,6,6,6,6,6,6,6,6,6,6,
  5,5,5,5,5,5,5,5,5,5,5,5,5,5,5,5,
  5,5,5,5,5,5,5,5,5,5,5,5,5,5,5,5,
  4,4,4,4,4,4,4,4,4,4,4,4,4,4,4,4,
  3,3,3,3,3,3,3,3,2,2,2,2,1,1,0,8]

/-- `bitsPattern[256]` of `LastSetBit` (BitSet.h:776-792). -/
def lastSetTable : List Nat := [
  8,0,1,1,2,2,2,2,3,3,3,3,3,3,3,3,
  4,4,4,4,4,4,4,4,4,4,4,4,4,4,4,4,
  5,5,5,5,5,5,5,5,5,5,5,5,5,5,5,5,
  5,5,5,5,5,5,5,5,5,5,5,5,5,5,5,5,
  6,6,6,6,6,6,6,6,6,6,6,6,6,6,6,6,
  6,6,6,6,6,6,6,6,6,6,6,6,6,6,6,6,
  6,6,6,6,6,6,6,6,6,6,6,6,6,6,6,6,
  6,6,6,6,6,6,6,6,6,6,6,6,6,6,6,6,
  7,7,7,7,7,7,7,7,7,7,7,7,7,7,7,7,
  7,7,7,7,7,7,7,7,7,7,7,7,7,7,7,7,
  7,7,7,7,7,7,7,7,7,7,7,7,7,7,7,7,
  7,7,7,7,7,7,7,7,7,7,7,7,7,7,7,7,
  7,7,7,7,7,7,7,7,7,7,7,7,7,7,7,7,
  7,7,7,7,7,7,7,7,7,7,7,7,7,7,7,7,
  7,7,7,7,7,7,7,7,7,7,7,7,7,7,7,7,
  7,7,7,7,7,7,7,7,7,7,7,7,7,7,7,7]

/-- Bytes `i .. i + n - 1` upwards: the first byte different from `skip` decides. -/
def byteUp (l : List Byte) (skip : Byte) (table : List Nat) (dflt : Nat) : (n i : Nat) → Option Nat
  | 0, _ => some dflt
  | n + 1, i => match l[i]? with
    | none => none
    | some b => if b ≠ skip then some (8 * i + table.getD b.toNat 0) else byteUp l skip table dflt n (i + 1)

/-- Bits `i .. 7` of a byte upwards: the first bit equal to `want`. -/
def bitUp (b : Byte) (want : Bool) : (n i : Nat) → Option Nat
  | 0, _ => none
  | n + 1, i => if hasBit b i = want then some i else bitUp b want n (i + 1)

/-- `FirstNullBit(startBit)` (BitSet.h:628-673) and `FirstSetBit(startBit)` (BitSet.h:676-722) have the same
text up to the byte to skip, the table and the tested value. -/
def firstBit (want : Bool) (skip : Byte) (table : List Nat) (s : BitSet) (startBit : Nat) : Option Nat :=
  if startBit = 0 then byteUp s.data skip table s.nbits s.nbytes 0
  else if startBit ≥ s.nbits then some s.nbits
  else
    let startByte := startBit / 8
    let ibit := startBit % 8
    if ibit ≠ 0 then
      match s.data[startByte]? with
      | none => none
      | some b => match bitUp b want (8 - ibit) ibit with
        | some i => some (8 * startByte + i)
        | none => byteUp s.data skip table s.nbits (s.nbytes - (startByte + 1)) (startByte + 1)
    else byteUp s.data skip table s.nbits (s.nbytes - startByte) startByte

/-- `FirstNullBit` (BitSet.h:628-673). -/
def firstNullBit (s : BitSet) (startBit : Nat) : Option Nat := firstBit false 255#8 firstNullTable s startBit

/-- `FirstSetBit` (BitSet.h:676-722). -/
def firstSetBit (s : BitSet) (startBit : Nat) : Option Nat := firstBit true 0#8 firstSetTable s startBit

/-- Bytes `n - 1 .. 0` downwards. -/
def byteDown (l : List Byte) (skip : Byte) (table : List Nat) (dflt : Nat) : (n : Nat) → Option Nat
  | 0 => some dflt
  | n + 1 => match l[n]? with
    | none => none
    | some b => if b ≠ skip then some (8 * n + table.getD b.toNat 0) else byteDown l skip table dflt n

/-- Bits `n - 1 .. 0` of a byte downwards: the first bit equal to `want`. -/
def bitDown (b : Byte) (want : Bool) : (n : Nat) → Option Nat
  | 0 => none
  | n + 1 => if hasBit b n = want then some n else bitDown b want n

/-- `LastNullBit(startBit)` (BitSet.h:724-765) and `LastSetBit(startBit)` (BitSet.h:768-812).
`fNbits - 1` is computed in `unsigned int`.  In `startByte--; i = startByte + 1` the two steps cancel, also when
`startByte` wraps. -/
def lastBit (want : Bool) (skip : Byte) (table : List Nat) (s : BitSet) (start : Nat) : Option Nat :=
  let startBit := if start ≥ s.nbits then (s.nbits + 2 ^ 32 - 1) % 2 ^ 32 else start
  let startByte := startBit / 8
  let ibit := startBit % 8
  if ibit < 7 then
    match s.data[startByte]? with
    | none => none
    | some b => match bitDown b want (ibit + 1) with
      | some i => some (8 * startByte + i)
      | none => byteDown s.data skip table s.nbits startByte
  else byteDown s.data skip table s.nbits (startByte + 1)

/-- `LastNullBit` (BitSet.h:724-765). -/
def lastNullBit (s : BitSet) (startBit : Nat) : Option Nat := lastBit false 255#8 lastNullTable s startBit

/-- `LastSetBit` (BitSet.h:768-812). -/
def lastSetBit (s : BitSet) (startBit : Nat) : Option Nat := lastBit true 0#8 lastSetTable s startBit

/-- `!memcmp(a, b, n)`. -/
def memEq (a b : List Byte) : (n i : Nat) → Option Bool
  | 0, _ => some true
  | n + 1, i => match a[i]?, b[i]? with
    | some x, some y => if x = y then memEq a b n (i + 1) else some false
    | _, _ => none

/-- `operator==` (BitSet.h:820-833). -/
def equal (s o : BitSet) : Option Bool :=
  if s.nbits = o.nbits then memEq s.data o.data ((s.nbits + 7) / 8) 0
  else if s.nbits < o.nbits then
    match memEq s.data o.data ((s.nbits + 7) / 8) 0 with
    | some true => (o.firstSetBit s.nbits).map fun k => decide (k = o.nbits)
    | r => r
  else
    match memEq s.data o.data ((o.nbits + 7) / 8) 0 with
    | some true => (s.firstSetBit o.nbits).map fun k => decide (k = s.nbits)
    | r => r

/-- Position inside a byte array of byte `i` when the array holds words of `k` bytes, swapped
(BitSet.h:404-459, 497-556: `fData[i + j] = cArray[i + k - 1 - j]`). -/
def swapIx (k i : Nat) : Nat := i - i % k + (k - 1 - i % k)

/-- `Set(nbits, array)`: `k = 1` for bytes (BitSet.h:380-391); `k = 2, 4, 8` for words without `R__BYTESWAP`
(BitSet.h:404-459).  `nbytes` is rounded up to a multiple of `k`.  The array is a list of bytes; reading past its
end is undefined. -/
def setArray (k : Nat) (s : BitSet) (nbits : Nat) (arr : List Byte) : Option (Bool × BitSet) :=
  let nb := (nbits + (8 * k - 1)) / 8 / k * k
  if nb > s.nbytes then some (false, s)
  else
    (forUp (fun i l => match arr[swapIx k i]? with
      | some b => modifyAt l i fun _ => b
      | none => none) nb 0 s.data).map fun d => (true, ⟨nbits % 2 ^ 32, d⟩)

/-- `Get(array)` (BitSet.h:473-478 for bytes, 497-556 for words of `k` bytes): byte `i` of the set, for
`i < (fNbits + 7) / 8`, goes to position `swapIx k i` of the array. -/
def getArray (k : Nat) (s : BitSet) (arr : List Byte) : Option (List Byte) :=
  forUp (fun i a => match s.data[i]? with
    | some b => modifyAt a (swapIx k i) fun _ => b
    | none => none) ((s.nbits + 7) / 8) 0 arr

end BitSet
end VecGeom

import Verif.BitSet.Model

/-!
# BitSet: specification

A bit set is specified as an array of `cap` bits (all bits from `cap` on read as `false`) together with a logical size.
Bits between `size` and `cap` are stored but not visible: `TestBitNumber` answers `false` for them.
Nothing here refers to bytes.
-/

namespace VecGeom

/-- Specification state. -/
structure BitArr where
  size : Nat
  cap : Nat
  bit : Nat → Bool

namespace BitArr

/-- What a caller sees at position `i`. -/
def see (a : BitArr) (i : Nat) : Bool := decide (i < a.size) && a.bit i

/-- Smallest multiple of eight that is at least `n` and at least eight. -/
def roundUp (n : Nat) : Nat := max 8 ((n + 7) / 8 * 8)

def make (n : Nat) : BitArr := ⟨n, roundUp n, fun _ => false⟩

def put (a : BitArr) (i : Nat) (v : Bool) : BitArr :=
  if i < a.cap then { a with size := max a.size (i + 1), bit := fun j => if j = i then v else a.bit j } else a

def putVisible (a : BitArr) (i : Nat) (v : Bool) : BitArr :=
  if i < a.size then { a with bit := fun j => if j = i then v else a.bit j } else a

def clear (a : BitArr) : BitArr := { a with size := 0, bit := fun _ => false }

def zeroAll (a : BitArr) : BitArr := { a with bit := fun _ => false }

def conj (a b : BitArr) : BitArr := { a with bit := fun i => a.bit i && b.bit i }

def disj (a b : BitArr) : BitArr := { a with bit := fun i => a.bit i || (decide (i < a.cap) && b.bit i) }

def xor (a b : BitArr) : BitArr := { a with bit := fun i => Bool.xor (a.bit i) (decide (i < a.cap) && b.bit i) }

def shl (a : BitArr) (k : Nat) : BitArr :=
  { a with bit := fun i => decide (k ≤ i ∧ i < a.cap) && a.bit (i - k) }

def shr (a : BitArr) (k : Nat) : BitArr := { a with bit := fun i => a.bit (i + k) }

/-- Nothing is stored past the logical size. -/
def Clean (a : BitArr) : Prop := ∀ i, a.size ≤ i → a.bit i = false

end BitArr

namespace BitSet

/-- Bit `i` of a list of bytes. -/
def rawL (l : List Byte) (i : Nat) : Bool := (l[i / 8]?.getD 0#8).getLsbD (i % 8)

/-- The specification state that a bit set stands for. -/
def abs (s : BitSet) : BitArr := ⟨s.nbits, 8 * s.nbytes, rawL s.data⟩

/-- The object invariant: the logical size fits in the bytes and in the 32 bit member. -/
structure WF (s : BitSet) : Prop where
  pos : 0 < s.nbytes
  room : s.nbits ≤ 8 * s.nbytes
  small : 8 * s.nbytes < 2 ^ 32

end BitSet
end VecGeom

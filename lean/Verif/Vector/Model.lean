import Verif.Base.Loop

/-!
# Vector

Model of `VecGeom/base/Vector.h` (`VectorBase<Type>`).  The buffer `fData` is a list of cells; a cell is `none` when no
object lives in it (raw memory, or the object was destroyed).  Undefined behaviour is `none`: placement new outside the
allocation, reading or assigning a cell without object, destroying a cell without object.  A failed `assert` is `none`
too.  `size_t` values are natural numbers: sizes beyond 2^63 elements are outside the model.
-/

namespace VecGeom

/-- Data members (Vector.h:66-68): `fData`, `fSize`, `fMemorySize`, `fAllocated`. -/
structure Vec (α : Type) where
  buf : List (Option α)
  size : Nat
  mem : Nat
  allocated : Bool

namespace Vec
variable {α : Type}

/-- `new (&fData[i]) Type(item)`. -/
def construct (b : List (Option α)) (i : Nat) (x : α) : Option (List (Option α)) :=
  if i < b.length then some (b.set i (some x)) else none

/-- Reading `fData[i]`. -/
def read (b : List (Option α)) (i : Nat) : Option α :=
  match b[i]? with
  | some (some x) => some x
  | _ => none

/-- `fData[i] = x`, an assignment to a living object. -/
def store (b : List (Option α)) (i : Nat) (x : α) : Option (List (Option α)) :=
  match b[i]? with
  | some (some _) => some (b.set i (some x))
  | _ => none

/-- `AllocTrait::Destroy(fData[i])` (Vector.h:34-35). -/
def destroy (b : List (Option α)) (i : Nat) : Option (List (Option α)) :=
  match b[i]? with
  | some (some _) => some (b.set i none)
  | _ => none

/-- The loop over `Destroy` for cells `i .. i + n - 1` (Vector.h:37-42, 190-192). -/
def destroyLoop (n i : Nat) (b : List (Option α)) : Option (List (Option α)) := forUp (fun i b => destroy b i) n i b

/-- The copy loop `for (i = 0; i < fSize; ++i) new (&newdata[i]) Type(fData[i])` (Vector.h:91-92, 213-214). -/
def copyLoop (src : List (Option α)) (n : Nat) (dst : List (Option α)) : Option (List (Option α)) :=
  forUp (fun i d => match read src i with
    | some x => construct d i x
    | none => none) n 0 dst

/-- `reserve(newsize)` (Vector.h:207-224). -/
def reserve (v : Vec α) (newsize : Nat) : Option (Vec α) :=
  if newsize ≤ v.mem then some v
  else match copyLoop v.buf v.size (List.replicate newsize none) with
    | none => none
    | some d => (destroyLoop v.size 0 v.buf).map fun _ => ⟨d, v.size, newsize, true⟩

/-- `VectorBase(maxsize)` (Vector.h:76-77); the default constructor (L73-74) uses 5. -/
def make (maxsize : Nat) : Option (Vec α) := reserve ⟨[], 0, 0, true⟩ maxsize

/-- `VectorBase(vec, sz, maxsize)` (Vector.h:79-87): a view of memory owned by the caller, in which the first `sz` cells
hold objects. -/
def view (buf : List (Option α)) (sz maxsize : Nat) : Vec α := ⟨buf, sz, maxsize, false⟩

/-- `push_back(item)` (Vector.h:139-149). -/
def pushBack (v : Vec α) (x : α) : Option (Vec α) :=
  let grown := if v.size = v.mem then (if v.allocated then v.reserve (v.mem * 2) else none) else some v
  match grown with
  | none => none
  | some w => (construct w.buf w.size x).map fun b => { w with buf := b, size := w.size + 1 }

/-- The loop `for (auto x : xs) push_back(x)`. -/
def pushAll (v : Vec α) : List α → Option (Vec α)
  | [] => some v
  | x :: xs => (v.pushBack x).bind (pushAll · xs)

/-- `clear()` (Vector.h:124-128). -/
def clear (v : Vec α) : Option (Vec α) :=
  (destroyLoop v.size 0 v.buf).map fun b => { v with buf := b, size := 0 }

/-- `operator[]` used as a value (Vector.h:130-136). -/
def get (v : Vec α) (i : Nat) : Option α := read v.buf i

/-- `v[i] = x` (Vector.h:130-132). -/
def put (v : Vec α) (i : Nat) (x : α) : Option (Vec α) := (store v.buf i x).map fun b => { v with buf := b }

/-- `resize(newsize, value)` (Vector.h:186-204). -/
def resize (v : Vec α) (newsize : Nat) (x : α) : Option (Vec α) :=
  if newsize ≤ v.size then
    (destroyLoop (v.size - newsize) newsize v.buf).map fun b => { v with buf := b, size := newsize }
  else
    (if newsize > v.mem then v.reserve newsize else some v).bind fun w =>
      pushAll w (List.replicate (newsize - v.size) x)

/-- The loop of `erase`: `*c = *(c + 1)` (Vector.h:233-235). -/
def shiftLoop (n i : Nat) (b : List (Option α)) : Option (List (Option α)) :=
  forUp (fun c b => match read b (c + 1) with
    | some x => store b c x
    | none => none) n i b

/-- `erase(begin() + i)` (Vector.h:228-240).  Returns the vector and the position of the returned iterator. -/
def erase (v : Vec α) (i : Nat) : Option (Vec α × Nat) :=
  match (if i + 1 ≠ v.size then shiftLoop (v.size - 1 - i) i v.buf else some v.buf) with
  | none => none
  | some b =>
    if v.size - 1 ≠ 0 then (destroy b (v.size - 1)).map fun b => ({ v with buf := b, size := v.size - 1 }, i)
    else some ({ v with buf := b, size := v.size - 1 }, i)

/-- Copy constructor (Vector.h:88-94). -/
def copy (o : Vec α) : Option (Vec α) :=
  (copyLoop o.buf o.size (List.replicate o.mem none)).map fun b => ⟨b, o.size, o.mem, true⟩

/-- Reading the elements `0 .. n - 1`, as a loop over `other.fData[i]` does. -/
def readAll (b : List (Option α)) : Nat → Option (List α)
  | 0 => some []
  | n + 1 => match readAll b n, read b n with
    | some l, some x => some (l ++ [x])
    | _, _ => none

/-- `operator=` from another object (Vector.h:97-105). -/
def assign (v o : Vec α) : Option (Vec α) :=
  match v.reserve o.mem with
  | none => none
  | some w => match readAll o.buf o.size with
    | none => none
    | some l => pushAll w l

/-- Constructor from an initializer list (Vector.h:108-116): the size is set before the elements are pushed, and
`fMemorySize` is a number of bytes (`width` is `sizeof(Type)`). -/
def ofList (width : Nat) (l : List α) : Option (Vec α) :=
  pushAll ⟨List.replicate l.length none, l.length, l.length * width, true⟩ l

/-- Iterating `begin() .. end()` (Vector.h:154-166). -/
def iterate (v : Vec α) : Option (List α) := readAll v.buf v.size

end Vec
end VecGeom

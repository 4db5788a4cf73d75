import Verif.Base.Loop

/-!
# The containers of vectors `SOA3D` and `AOS3D`

Model of `VecGeom/base/SOA3D.h` and `VecGeom/base/AOS3D.h` (host code) over an explicit memory of blocks.  Access to a
block that is not alive or outside of its bounds, freeing a block twice, and failing assertions are the outcome `none`.
The allocator never fails and never hands out the same block twice.  The references and pointers returned by `x()`,
`x(index)`, `content()` and the copies to a GPU are not modelled.
-/

namespace VecGeom
namespace Container

/-- A block of memory: `none` is a cell that nobody has written. -/
abbrev Block (α : Type) := List (Option α)

/-- The memory: the blocks alive, and the number from which on no block has been used. -/
structure Heap (α : Type) where
  blocks : Nat → Option (Block α)
  next : Nat

variable {α : Type}

/-- `AlignedAllocate<T>(n)`. -/
def Heap.alloc (h : Heap α) (n : Nat) : Heap α × Option Nat :=
  (⟨fun b => if b = h.next then some (List.replicate n none) else h.blocks b, h.next + 1⟩, some h.next)

/-- `AlignedFree(p)`. -/
def Heap.free (h : Heap α) : Option Nat → Option (Heap α)
  | none => some h
  | some b => match h.blocks b with
    | none => none
    | some _ => some { h with blocks := fun c => if c = b then none else h.blocks c }

/-- `p[i]` as value. -/
def Heap.read (h : Heap α) (p : Option Nat) (i : Nat) : Option (Option α) :=
  p.bind fun b => (h.blocks b).bind fun l => l[i]?

/-- `p[i] = v`. -/
def Heap.write (h : Heap α) (p : Option Nat) (i : Nat) (v : α) : Option (Heap α) :=
  p.bind fun b => (h.blocks b).bind fun l =>
    if i < l.length then some { h with blocks := fun c => if c = b then some (l.set i (some v)) else h.blocks c } else none

/-- `copy(src, src + n, dst)`. -/
def Heap.copyN (h : Heap α) (src dst : Option Nat) (n : Nat) : Option (Heap α) :=
  if n = 0 then some h
  else
    src.bind fun a => dst.bind fun b => (h.blocks a).bind fun la => (h.blocks b).bind fun lb =>
      if n ≤ la.length ∧ n ≤ lb.length then
        some { h with blocks := fun c => if c = b then some (la.take n ++ lb.drop n) else h.blocks c }
      else none

/-! ## SOA3D -/

/-- `SOA3D<T>` (SOA3D.h:39-41); null pointers are `none`. -/
structure Soa where
  allocated : Bool := false
  size : Nat := 0
  capacity : Nat := 0
  x : Option Nat := none
  y : Option Nat := none
  z : Option Nat := none

namespace Soa

/-- `Allocate` (SOA3D.h:310-319). -/
def allocate (h : Heap α) (s : Soa) : Heap α × Soa :=
  if s.capacity = 0 then (h, s)
  else
    let a := h.alloc s.capacity
    let b := a.1.alloc s.capacity
    let c := b.1.alloc s.capacity
    (c.1, { s with x := a.2, y := b.2, z := c.2, allocated := true })

/-- `Deallocate` (SOA3D.h:321-331). -/
def deallocate (h : Heap α) (s : Soa) : Option (Heap α × Soa) :=
  if s.allocated then do
    let h ← h.free s.x
    let h ← h.free s.y
    let h ← h.free s.z
    some (h, { s with allocated := false })
  else some (h, { s with allocated := false })

/-- The constructor from arrays (SOA3D.h:180-185). -/
def ofArrays (x y z : Nat) (size : Nat) : Soa := ⟨false, size, size, some x, some y, some z⟩

/-- The constructor from a size (SOA3D.h:187-192). -/
def ofSize (h : Heap α) (size : Nat) : Heap α × Soa := allocate h { size := size, capacity := size }

/-- The copy constructor (SOA3D.h:194-209). -/
def copyOf (h : Heap α) (rhs : Soa) : Option (Heap α × Soa) :=
  let s : Soa := { size := rhs.size, capacity := rhs.capacity }
  if rhs.allocated then do
    let r := allocate h s
    let h ← r.1.copyN rhs.x r.2.x rhs.size
    let h ← h.copyN rhs.y r.2.y rhs.size
    let h ← h.copyN rhs.z r.2.z rhs.size
    some (h, r.2)
  else some (h, { s with x := rhs.x, y := rhs.y, z := rhs.z })

/-- The assignment (SOA3D.h:211-238), for two different objects. -/
def assign (h : Heap α) (s rhs : Soa) : Option (Heap α × Soa) := do
  let s := { s with size := rhs.size, capacity := rhs.capacity }
  let (h, s) ← deallocate h s
  if rhs.allocated ∧ rhs.size > 0 then
    let r := allocate h s
    let h ← r.1.copyN rhs.x r.2.x rhs.size
    let h ← h.copyN rhs.y r.2.y rhs.size
    let h ← h.copyN rhs.z r.2.z rhs.size
    some (h, r.2)
  else some (h, { s with x := rhs.x, y := rhs.y, z := rhs.z })

/-- The assignment (SOA3D.h:211-238) of an object to itself: `rhs` is the object whose memory has been freed. -/
def assignSelf (h : Heap α) (s : Soa) : Option (Heap α × Soa) := do
  let (h, s) ← deallocate h s
  some (h, s)

/-- The destructor (SOA3D.h:240-247). -/
def destroy (h : Heap α) (s : Soa) : Option (Heap α) := (deallocate h s).map (·.1)

/-- `resize` (SOA3D.h:263-269). -/
def resize (s : Soa) (n : Nat) : Option Soa := if n ≤ s.capacity then some { s with size := n } else none

/-- `reserve` (SOA3D.h:271-292). -/
def reserve (h : Heap α) (s : Soa) (n : Nat) : Option (Heap α × Soa) := do
  let s := { s with capacity := n }
  let a := h.alloc n
  let b := a.1.alloc n
  let c := b.1.alloc n
  let s := { s with size := if s.size > s.capacity then s.capacity else s.size }
  let h ← if s.x.isSome ∧ s.y.isSome ∧ s.z.isSome then do
      let h ← c.1.copyN s.x a.2 s.size
      let h ← h.copyN s.y b.2 s.size
      h.copyN s.z c.2 s.size
    else some c.1
  let (h, s) ← deallocate h s
  some (h, { s with x := a.2, y := b.2, z := c.2, allocated := true })

/-- `clear` (SOA3D.h:294-300). -/
def clear (h : Heap α) (s : Soa) : Option (Heap α × Soa) := do
  let (h, s) ← deallocate h s
  some (h, { s with size := 0, capacity := 0 })

/-- `operator[]` (SOA3D.h:333-338). -/
def get (h : Heap α) (s : Soa) (i : Nat) : Option (Option α × Option α × Option α) := do
  let x ← h.read s.x i
  let y ← h.read s.y i
  let z ← h.read s.z i
  some (x, y, z)

/-- `set` (SOA3D.h:424-453); the check is an assertion. -/
def set (h : Heap α) (s : Soa) (i : Nat) (v : α × α × α) : Option (Heap α) :=
  if i < s.capacity then do
    let h ← h.write s.x i v.1
    let h ← h.write s.y i v.2.1
    h.write s.z i v.2.2
  else none

/-- `push_back` (SOA3D.h:455-470). -/
def pushBack (h : Heap α) (s : Soa) (v : α × α × α) : Option (Heap α × Soa) := do
  let h ← h.write s.x s.size v.1
  let h ← h.write s.y s.size v.2.1
  let h ← h.write s.z s.size v.2.2
  some (h, { s with size := s.size + 1 })

end Soa

/-! ## AOS3D -/

/-- `AOS3D<T>` (AOS3D.h:27-29). -/
structure Aos where
  allocated : Bool := false
  size : Nat := 0
  capacity : Nat := 0
  content : Option Nat := none

namespace Aos

/-- `Deallocate` (AOS3D.h:228-234); it changes no member. -/
def deallocate (h : Heap (α × α × α)) (s : Aos) : Option (Heap (α × α × α)) :=
  if s.allocated then h.free s.content else some h

/-- The constructor from an array (AOS3D.h:130-135). -/
def ofArray (c : Nat) (size : Nat) : Aos := ⟨false, size, size, some c⟩

/-- `resize` (AOS3D.h:192-197). -/
def resize (s : Aos) (n : Nat) : Option Aos := if n ≤ s.capacity then some { s with size := n } else none

/-- `reserve` (AOS3D.h:199-212). -/
def reserve (h : Heap (α × α × α)) (s : Aos) (n : Nat) : Option (Heap (α × α × α) × Aos) := do
  let s := { s with capacity := n }
  let a := if n > 0 then h.alloc n else (h, none)
  let s := { s with size := if s.size > s.capacity then s.capacity else s.size }
  let h ← if s.content.isSome ∧ s.size > 0 then a.1.copyN s.content a.2 s.size else some a.1
  let h ← deallocate h s
  some (h, { s with content := a.2, allocated := a.2.isSome })

/-- `clear` (AOS3D.h:214-222). -/
def clear (h : Heap (α × α × α)) (s : Aos) : Option (Heap (α × α × α) × Aos) := do
  let h ← deallocate h s
  some (h, {})

/-- The constructor from a size (AOS3D.h:137-142). -/
def ofSize (h : Heap (α × α × α)) (size : Nat) : Option (Heap (α × α × α) × Aos) :=
  let s : Aos := { size := size, capacity := size }
  if size > 0 then reserve h s size else some (h, s)

/-- The assignment (AOS3D.h:151-172), for two different objects. -/
def assign (h : Heap (α × α × α)) (s rhs : Aos) : Option (Heap (α × α × α) × Aos) := do
  let (h, s) ← clear h s
  if rhs.allocated then
    let (h, s) ← reserve h s rhs.capacity
    let h ← h.copyN rhs.content s.content rhs.size
    some (h, { s with size := rhs.size })
  else some (h, { s with content := rhs.content, allocated := false, capacity := rhs.capacity, size := rhs.size })

/-- The assignment (AOS3D.h:151-172) of an object to itself: `clear` has reset `rhs` as well. -/
def assignSelf (h : Heap (α × α × α)) (s : Aos) : Option (Heap (α × α × α) × Aos) := clear h s

/-- The copy constructor (AOS3D.h:144-149). -/
def copyOf (h : Heap (α × α × α)) (rhs : Aos) : Option (Heap (α × α × α) × Aos) :=
  assign h { size := rhs.size, capacity := rhs.capacity } rhs

/-- The destructor (AOS3D.h:174-178). -/
def destroy (h : Heap (α × α × α)) (s : Aos) : Option (Heap (α × α × α)) := deallocate h s

/-- `operator[]` (AOS3D.h:236-241). -/
def get (h : Heap (α × α × α)) (s : Aos) (i : Nat) : Option (Option (α × α × α)) := h.read s.content i

/-- `set` (AOS3D.h:306-320).  The overload with three numbers writes the components one by one, which is simplified. -/
def set (h : Heap (α × α × α)) (s : Aos) (i : Nat) (v : α × α × α) : Option (Heap (α × α × α)) := h.write s.content i v

/-- `push_back` (AOS3D.h:322-338). -/
def pushBack (h : Heap (α × α × α)) (s : Aos) (v : α × α × α) : Option (Heap (α × α × α) × Aos) := do
  let h ← h.write s.content s.size v
  some (h, { s with size := s.size + 1 })

end Aos

/-! ## Programs -/

/-- What a program may do with containers; objects have names. -/
inductive Op (α : Type) where
  | new (o : Nat)
  | sized (o n : Nat)
  | view (o : Nat) (arrays : Nat × Nat × Nat) (n : Nat)
  | copy (o p : Nat)
  | assign (o p : Nat)
  | destroy (o : Nat)
  | resize (o n : Nat)
  | reserve (o n : Nat)
  | clear (o : Nat)
  | set (o i : Nat) (v : α × α × α)
  | push (o : Nat) (v : α × α × α)
  | get (o i : Nat)

/-- Memory and objects. -/
structure Machine (α σ : Type) where
  heap : Heap α
  objs : Nat → Option σ

/-- Change one object. -/
def upd {σ : Type} (f : Nat → Option σ) (o : Nat) (s : Option σ) : Nat → Option σ := fun p => if p = o then s else f p

/-- One step of a program with `SOA3D`; names that do not exist, or exist already, are errors of the program.  The second
component is the output of a read. -/
def stepSoa (m : Machine α Soa) : Op α → Option (Machine α Soa × Option (Option α × Option α × Option α))
  | .new o => if (m.objs o).isSome then none else some (⟨m.heap, upd m.objs o (some {})⟩, none)
  | .sized o n => if (m.objs o).isSome then none else
      let r := Soa.ofSize m.heap n
      some (⟨r.1, upd m.objs o (some r.2)⟩, none)
  | .view o a n => if (m.objs o).isSome then none else
      some (⟨m.heap, upd m.objs o (some (Soa.ofArrays a.1 a.2.1 a.2.2 n))⟩, none)
  | .copy o p => if (m.objs o).isSome then none else do
      let s ← m.objs p
      let r ← Soa.copyOf m.heap s
      some (⟨r.1, upd m.objs o (some r.2)⟩, none)
  | .assign o p => do
      let s ← m.objs o
      let t ← m.objs p
      let r ← if o = p then Soa.assignSelf m.heap s else Soa.assign m.heap s t
      some (⟨r.1, upd m.objs o (some r.2)⟩, none)
  | .destroy o => do
      let s ← m.objs o
      let h ← Soa.destroy m.heap s
      some (⟨h, upd m.objs o none⟩, none)
  | .resize o n => do
      let s ← m.objs o
      let s ← Soa.resize s n
      some (⟨m.heap, upd m.objs o (some s)⟩, none)
  | .reserve o n => do
      let s ← m.objs o
      let r ← Soa.reserve m.heap s n
      some (⟨r.1, upd m.objs o (some r.2)⟩, none)
  | .clear o => do
      let s ← m.objs o
      let r ← Soa.clear m.heap s
      some (⟨r.1, upd m.objs o (some r.2)⟩, none)
  | .set o i v => do
      let s ← m.objs o
      let h ← Soa.set m.heap s i v
      some (⟨h, m.objs⟩, none)
  | .push o v => do
      let s ← m.objs o
      let r ← Soa.pushBack m.heap s v
      some (⟨r.1, upd m.objs o (some r.2)⟩, none)
  | .get o i => do
      let s ← m.objs o
      let v ← Soa.get m.heap s i
      some (m, some v)

/-- One step of a program with `AOS3D`; a view uses the first of its arrays. -/
def stepAos (m : Machine (α × α × α) Aos) : Op α → Option (Machine (α × α × α) Aos × Option (Option (α × α × α)))
  | .new o => if (m.objs o).isSome then none else some (⟨m.heap, upd m.objs o (some {})⟩, none)
  | .sized o n => if (m.objs o).isSome then none else do
      let r ← Aos.ofSize m.heap n
      some (⟨r.1, upd m.objs o (some r.2)⟩, none)
  | .view o a n => if (m.objs o).isSome then none else
      some (⟨m.heap, upd m.objs o (some (Aos.ofArray a.1 n))⟩, none)
  | .copy o p => if (m.objs o).isSome then none else do
      let s ← m.objs p
      let r ← Aos.copyOf m.heap s
      some (⟨r.1, upd m.objs o (some r.2)⟩, none)
  | .assign o p => do
      let s ← m.objs o
      let t ← m.objs p
      let r ← if o = p then Aos.assignSelf m.heap s else Aos.assign m.heap s t
      some (⟨r.1, upd m.objs o (some r.2)⟩, none)
  | .destroy o => do
      let s ← m.objs o
      let h ← Aos.destroy m.heap s
      some (⟨h, upd m.objs o none⟩, none)
  | .resize o n => do
      let s ← m.objs o
      let s ← Aos.resize s n
      some (⟨m.heap, upd m.objs o (some s)⟩, none)
  | .reserve o n => do
      let s ← m.objs o
      let r ← Aos.reserve m.heap s n
      some (⟨r.1, upd m.objs o (some r.2)⟩, none)
  | .clear o => do
      let s ← m.objs o
      let r ← Aos.clear m.heap s
      some (⟨r.1, upd m.objs o (some r.2)⟩, none)
  | .set o i v => do
      let s ← m.objs o
      let h ← Aos.set m.heap s i v
      some (⟨h, m.objs⟩, none)
  | .push o v => do
      let s ← m.objs o
      let r ← Aos.pushBack m.heap s v
      some (⟨r.1, upd m.objs o (some r.2)⟩, none)
  | .get o i => do
      let s ← m.objs o
      let v ← Aos.get m.heap s i
      some (m, some v)

/-- The memory at the start: the arrays of the program, numbered from zero. -/
def Heap.start (arrays : List (Block α)) : Heap α := ⟨fun b => arrays[b]?, arrays.length⟩

/-- A run: the final state and the outputs. -/
def runWith {μ ο π : Type} (step : μ → π → Option (μ × Option ο)) : μ → List π → Option (μ × List ο)
  | m, [] => some (m, [])
  | m, op :: l => do
    let r ← step m op
    let q ← runWith step r.1 l
    some (q.1, r.2.toList ++ q.2)

/-! ## Files -/

/-- A file written by `ToFile`: two numbers followed by values. -/
structure File (α : Type) where
  size : Nat
  capacity : Nat
  values : List α

/-- `ToFile` (SOA3D.h:472-481), from the contents of the three blocks. -/
def toFile (size capacity : Nat) (x y z : List α) : File α :=
  ⟨size, capacity, x.take capacity ++ y.take capacity ++ z.take capacity⟩

/-- One `fin.read` of `n` values into a block: what the block holds afterwards, what is left of the file, and whether
the stream is still good. -/
def readBlock (values : List α) (n : Nat) (block : List α) : List α × List α × Bool :=
  (values.take n ++ block.drop (min n values.length), values.drop n, decide (n ≤ values.length))

/-- `FromFile` (SOA3D.h:483-509): the result and the new contents of the three blocks; the size is not changed. -/
def fromFile (capacity : Nat) (x y z : List α) (f : File α) : Int × List α × List α × List α :=
  let r := readBlock f.values capacity x
  if !r.2.2 then (-3, r.1, y, z)
  else
    let q := readBlock r.2.1 capacity y
    if !q.2.2 then (-4, r.1, q.1, z)
    else
      let p := readBlock q.2.1 capacity z
      if !p.2.2 then (-5, r.1, q.1, p.1) else ((capacity : Int), r.1, q.1, p.1)

end Container
end VecGeom

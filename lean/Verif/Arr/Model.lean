import Mathlib.Data.List.Basic
import Mathlib.Logic.Function.Basic

/-!
# Arrays with and without their own memory

Models `VecGeom/base/Array.h` (host code).  Memory is a partial map from block numbers to lists of elements; a block that is not in the
map is not allocated.  Elements are trivially copyable.
-/

namespace VecGeom
namespace Arr

variable {α : Type}

/-- The memory: the blocks, and the number of the next new block. -/
structure Heap (α : Type) where
  blk : Nat → Option (List α)
  next : Nat

/-- `AlignedAlloc` (Array.h:122): a new block with arbitrary contents `junk`. -/
def Heap.alloc (h : Heap α) (junk : List α) : Nat × Heap α := (h.next, ⟨Function.update h.blk h.next (some junk), h.next + 1⟩)

/-- `AlignedFree` (Array.h:111, 134): undefined unless the block is allocated. -/
def Heap.free (h : Heap α) (b : Nat) : Option (Heap α) := (h.blk b).map fun _ => { h with blk := Function.update h.blk b none }

/-- `Array` (Array.h:18-21).  `data = none` is a null pointer. -/
structure Arr where
  data : Option Nat
  size : Nat
  owned : Bool
deriving DecidableEq

/-- `Array()` (Array.h:24). -/
def empty : Arr := ⟨none, 0, false⟩

/-- `Deallocate` (Array.h:130-142). -/
def deallocate (h : Heap α) (a : Arr) : Option (Heap α × Arr) :=
  if a.owned then a.data.bind fun b => (h.free b).map fun h => (h, empty)
  else some (h, empty)

/-- `Allocate(size)` (Array.h:114-127); `junk` is the content of the new memory, as long as the size.  Sizes below `2^31`. -/
def allocate (h : Heap α) (a : Arr) (junk : List α) : Option (Heap α × Arr) :=
  (deallocate h a).map fun q =>
    if junk.length = 0 then (q.1, ⟨none, junk.length, false⟩)
    else ((q.1.alloc junk).2, ⟨some (q.1.alloc junk).1, junk.length, true⟩)

/-- The elements `0 .. size - 1` of an array; reading freed memory or past a block is undefined. -/
def elems (h : Heap α) (a : Arr) : Option (List α) :=
  if a.size = 0 then some []
  else a.data.bind fun b => (h.blk b).bind fun l => if a.size ≤ l.length then some (l.take a.size) else none

/-- `copy(first, last, fData)` (Array.h:97, 151): writes the elements to the front of the block. -/
def store (h : Heap α) (a : Arr) (l : List α) : Option (Heap α) :=
  if l.length = 0 then some h
  else a.data.bind fun b => (h.blk b).bind fun m =>
    if l.length ≤ m.length then some { h with blk := Function.update h.blk b (some (l ++ m.drop l.length)) } else none

/-- `Array(Array const &other)` (Array.h:93-98). -/
def copyCtor (h : Heap α) (other : Arr) (junk : List α) : Option (Heap α × Arr) :=
  (allocate h empty junk).bind fun q => (elems q.1 other).bind fun l => (store q.1 q.2 l).map fun h => (h, q.2)

/-- `Array(Type *data, int size)` (Array.h:100-105). -/
def view (b n : Nat) : Arr := ⟨some b, n, false⟩

/-- The destructor (Array.h:107-113). -/
def destroy (h : Heap α) (a : Arr) : Option (Heap α) := if a.owned then a.data.bind h.free else some h

/-- `operator=` (Array.h:144-159) for two different arrays. -/
def assign (h : Heap α) (a other : Arr) (junk : List α) : Option (Heap α × Arr) :=
  (deallocate h a).bind fun q => (allocate q.1 q.2 junk).bind fun q =>
    (elems q.1 other).bind fun l => (store q.1 q.2 l).map fun h => (h, q.2)

/-- `operator=` (Array.h:144-159) of an array to itself: `other` is the array that has just been deallocated, so the size asked for is 0
(L150) and after the allocation `other` is the new array. -/
def assignSelf (h : Heap α) (a : Arr) : Option (Heap α × Arr) :=
  (deallocate h a).bind fun q => (allocate q.1 q.2 []).bind fun q =>
    (elems q.1 q.2).bind fun l => (store q.1 q.2 l).map fun h => (h, q.2)

/-- `operator[]` for writing (Array.h:49). -/
def set (h : Heap α) (a : Arr) (i : Nat) (v : α) : Option (Heap α) :=
  a.data.bind fun b => (h.blk b).bind fun l =>
    if i < l.length then some { h with blk := Function.update h.blk b (some (l.set i v)) } else none

/-- `operator[]` for reading (Array.h:53). -/
def get (h : Heap α) (a : Arr) (i : Nat) : Option α := a.data.bind fun b => (h.blk b).bind fun l => l[i]?

/-! ## Programs -/

/-- The state of a program: the memory and its array variables. -/
structure State (α : Type) where
  heap : Heap α
  var : Nat → Option Arr

/-- The steps of a program.  `newView x b n` makes an array over a block of the user. -/
inductive Op (α : Type) where
  | newEmpty (x : Nat)
  | newSized (x : Nat) (junk : List α)
  | newView (x b n : Nat)
  | newCopy (x y : Nat) (junk : List α)
  | assign (x y : Nat) (junk : List α)
  | allocate (x : Nat) (junk : List α)
  | deallocate (x : Nat)
  | set (x i : Nat) (v : α)
  | delete (x : Nat)

/-- One step; `none` if the step is undefined.  Making a variable that exists, or using one that does not, is undefined. -/
def step (s : State α) : Op α → Option (State α)
  | .newEmpty x => if s.var x = none then some { s with var := Function.update s.var x (some empty) } else none
  | .newSized x junk => if s.var x = none then
      (Arr.allocate s.heap empty junk).map fun r => ⟨r.1, Function.update s.var x (some r.2)⟩ else none
  | .newView x b n => if s.var x = none then some { s with var := Function.update s.var x (some (view b n)) } else none
  | .newCopy x y junk => if s.var x = none then (s.var y).bind fun a => (copyCtor s.heap a junk).map fun r =>
      ⟨r.1, Function.update s.var x (some r.2)⟩ else none
  | .assign x y junk => (s.var x).bind fun a => (s.var y).bind fun o =>
      (if x = y then assignSelf s.heap a else Arr.assign s.heap a o junk).map fun r => ⟨r.1, Function.update s.var x (some r.2)⟩
  | .allocate x junk => (s.var x).bind fun a => (Arr.allocate s.heap a junk).map fun r => ⟨r.1, Function.update s.var x (some r.2)⟩
  | .deallocate x => (s.var x).bind fun a => (Arr.deallocate s.heap a).map fun r => ⟨r.1, Function.update s.var x (some r.2)⟩
  | .set x i v => (s.var x).bind fun a => (Arr.set s.heap a i v).map fun h => { s with heap := h }
  | .delete x => (s.var x).bind fun a => (destroy s.heap a).map fun h => ⟨h, Function.update s.var x none⟩

def run (s : State α) : List (Op α) → Option (State α)
  | [] => some s
  | o :: os => (step s o).bind fun s => run s os

end Arr
end VecGeom

import Verif.Container.Model

/-!
# What containers of vectors are to do

Containers with own memory are values: a capacity and a list of elements that nothing but operations on the container
changes.  Containers over arrays of the program are views of these arrays.
-/

namespace VecGeom
namespace Container

/-- A container: an own list, or a view of arrays. -/
inductive Value (E : Type) where
  | own (capacity : Nat) (elems : List E)
  | view (arrays : Nat × Nat × Nat) (size capacity : Nat)

/-- The state of the specification. -/
structure Abs (β E : Type) where
  arrays : List (Block β)
  objs : Nat → Option (Value E)

/-- How elements are related to arrays. -/
structure Layout (α β E : Type) where
  /-- an element of which nothing is known -/
  unknown : E
  /-- a vector as element -/
  elem : α × α × α → E
  /-- the arrays of a view are there and are long enough -/
  fits : List (Block β) → Nat × Nat × Nat → Nat → Prop
  /-- an element of a view -/
  read : List (Block β) → Nat × Nat × Nat → Nat → E
  /-- write an element of a view -/
  write : List (Block β) → Nat × Nat × Nat → Nat → α × α × α → List (Block β)

variable {α β E : Type}

def Value.size : Value E → Nat
  | .own _ l => l.length
  | .view _ n _ => n

def Value.capacity : Value E → Nat
  | .own c _ => c
  | .view _ _ c => c

open Classical in
/-- One step; `none` if the program breaks a precondition. -/
noncomputable def stepSpec (L : Layout α β E) (a : Abs β E) : Op α → Option (Abs β E × Option E)
  | .new o => if (a.objs o).isSome then none else some ({ a with objs := upd a.objs o (some (.own 0 [])) }, none)
  | .sized o n => if (a.objs o).isSome then none else
      some ({ a with objs := upd a.objs o (some (.own n (List.replicate n L.unknown))) }, none)
  | .view o w n => if (a.objs o).isSome ∨ ¬ L.fits a.arrays w n then none else
      some ({ a with objs := upd a.objs o (some (.view w n n)) }, none)
  | .copy o p => if (a.objs o).isSome then none else
      (a.objs p).map fun v => ({ a with objs := upd a.objs o (some v) }, none)
  | .assign o p => if (a.objs o).isNone then none else
      (a.objs p).map fun v => ({ a with objs := upd a.objs o (some v) }, none)
  | .destroy o => if (a.objs o).isNone then none else some ({ a with objs := upd a.objs o none }, none)
  | .resize o n => (a.objs o).bind fun v =>
      if v.capacity < n then none
      else match v with
        | .own c l => some ({ a with objs := upd a.objs o (some (.own c (l.take n ++ List.replicate (n - l.length) L.unknown))) }, none)
        | .view w _ c => some ({ a with objs := upd a.objs o (some (.view w n c)) }, none)
  | .reserve o n => (a.objs o).map fun v => match v with
      | .own _ l => ({ a with objs := upd a.objs o (some (.own n (l.take n))) }, none)
      | .view w s _ => ({ a with objs := upd a.objs o (some (.own n ((List.range (min s n)).map (L.read a.arrays w)))) }, none)
  | .clear o => (a.objs o).map fun _ => ({ a with objs := upd a.objs o (some (.own 0 [])) }, none)
  | .set o i e => (a.objs o).bind fun v =>
      if v.capacity ≤ i then none
      else match v with
        | .own c l => some ({ a with objs := upd a.objs o (some (.own c (l.set i (L.elem e)))) }, none)
        | .view w _ _ => some ({ a with arrays := L.write a.arrays w i e }, none)
  | .push o e => (a.objs o).bind fun v =>
      if v.capacity ≤ v.size then none
      else match v with
        | .own c l => some ({ a with objs := upd a.objs o (some (.own c (l ++ [L.elem e]))) }, none)
        | .view w s c => some (⟨L.write a.arrays w s e, upd a.objs o (some (.view w (s + 1) c))⟩, none)
  | .get o i => (a.objs o).bind fun v =>
      if v.size ≤ i then none
      else match v with
        | .own _ l => some (a, l[i]?)
        | .view w _ _ => some (a, some (L.read a.arrays w i))

/-- A cell of an array of the program. -/
def cell (arrays : List (Block β)) (b i : Nat) : Option β := ((arrays[b]?).bind (·[i]?)).join

/-- Write a cell of an array of the program. -/
def setCell (arrays : List (Block β)) (b i : Nat) (v : β) : List (Block β) :=
  match arrays[b]? with
  | none => arrays
  | some l => arrays.set b (l.set i (some v))

/-- An array of the program that is long enough. -/
def LongEnough (arrays : List (Block β)) (b n : Nat) : Prop := ∃ l, arrays[b]? = some l ∧ n ≤ l.length

/-- Structure of arrays: three arrays, elements with three components, each of which may be unknown. -/
def soaLayout (α : Type) : Layout α α (Option α × Option α × Option α) where
  unknown := (none, none, none)
  elem v := (some v.1, some v.2.1, some v.2.2)
  fits r w n := LongEnough r w.1 n ∧ LongEnough r w.2.1 n ∧ LongEnough r w.2.2 n
  read r w i := (cell r w.1 i, cell r w.2.1 i, cell r w.2.2 i)
  write r w i v := setCell (setCell (setCell r w.1 i v.1) w.2.1 i v.2.1) w.2.2 i v.2.2

/-- Array of structures: one array. -/
def aosLayout (α : Type) : Layout α (α × α × α) (Option (α × α × α)) where
  unknown := none
  elem v := some v
  fits r w n := LongEnough r w.1 n
  read r w i := cell r w.1 i
  write r w i v := setCell r w.1 i v

/-- What is known of a value agrees. -/
def Agrees (e c : Option α) : Prop := ∀ v, e = some v → c = some v

/-- What is known of an element agrees. -/
def Agrees3 (e c : Option α × Option α × Option α) : Prop := Agrees e.1 c.1 ∧ Agrees e.2.1 c.2.1 ∧ Agrees e.2.2 c.2.2

/-- The operations for which `SOA3D` keeps to the specification: not the assignment of a container to itself, and not the
assignment of a container that is empty but has own memory. -/
def SoaFine (a : Abs β E) : Op α → Prop
  | .assign o p => o ≠ p ∧ ∀ c, a.objs p = some (.own c []) → c = 0
  | _ => True

/-- The operations for which `AOS3D` keeps to the specification: not the assignment of a container to itself. -/
def AosFine (_ : Abs β E) : Op α → Prop
  | .assign o p => o ≠ p
  | _ => True

open Classical in
/-- A step that is fine. -/
noncomputable def stepFine (L : Layout α β E) (fine : Abs β E → Op α → Prop) (a : Abs β E) (op : Op α) : Option (Abs β E × Option E) :=
  if fine a op then stepSpec L a op else none

end Container
end VecGeom

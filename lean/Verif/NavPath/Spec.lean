import Verif.NavPath.Model

/-!
# Specification side of NavStatePath

The abstract object is a pair (stack of placements, boundary flag).  A stack is a list with the world first
and the deepest placement last.
-/

namespace VecGeom
namespace NavPath
variable {V : Type}

/-- The concrete state `s` stands for the stack `l`: the filled slots hold exactly `l`. -/
structure Repr (s : NavPath V) (l : List V) : Prop where
  cur : s.cur = l.length
  take : s.slots.take s.cur = l.map some
  byte : l.length < 256

/-- Abstract operations on two states, named `false` and `true`. -/
inductive Op (V : Type) where
  | push (i : Bool) (v : V)
  | pushChild (i : Bool) (child : Nat)
  | pop (i : Bool)
  | clear (i : Bool)
  | setBoundary (i : Bool) (b : Bool)
  /-- `state_i.CopyTo(state_{!i})` -/
  | copyTo (i : Bool)
  /-- `state_{!i} = state_i` -/
  | assign (i : Bool)

/-- Abstract state: a stack and a flag for each of the two names. -/
abbrev Abs (V : Type) := Bool → List V × Bool

/-- Update one of two registers. -/
def upd {α : Type} (f : Bool → α) (i : Bool) (a : α) : Bool → α := fun j => if j = i then a else f j

/-- What each operation means on stacks.  `none`: the caller broke the contract (stack deeper than the
declared maximum `n`, or a child number that does not exist). -/
def absStep (g : Geom V) (n : Nat) (st : Abs V) : Op V → Option (Abs V)
  | .push i v => if (st i).1.length < n then some (upd st i ((st i).1 ++ [v], (st i).2)) else none
  | .pushChild i c => match (st i).1.getLast? with
    | none => some st
    | some t => match (g.daughters t)[c]? with
      | some d => if (st i).1.length < n then some (upd st i ((st i).1 ++ [d], (st i).2)) else none
      | none => none
  | .pop i => some (upd st i ((st i).1.dropLast, (st i).2))
  | .clear i => some (upd st i ([], false))
  | .setBoundary i b => some (upd st i ((st i).1, b))
  | .copyTo i => some (upd st (!i) (st i))
  | .assign i => some (upd st (!i) (st i))

/-- A whole history. -/
def absRun (g : Geom V) (n : Nat) : Abs V → List (Op V) → Option (Abs V)
  | st, [] => some st
  | st, o :: os => (absStep g n st o).bind (absRun g n · os)

/-- The same history on the modelled code. -/
def step (g : Geom V) (st : Bool → NavPath V) : Op V → Option (Bool → NavPath V)
  | .push i v => ((st i).push v).map (upd st i)
  | .pushChild i c => ((st i).pushChild g c).map (upd st i)
  | .pop i => some (upd st i (st i).pop)
  | .clear i => some (upd st i (st i).clear)
  | .setBoundary i b => some (upd st i ((st i).setBoundaryState b))
  | .copyTo i => ((st i).copyTo (st !i)).map (upd st !i)
  | .assign i => some (upd st (!i) ((st !i).assign (st i)))

def run (g : Geom V) : (Bool → NavPath V) → List (Op V) → Option (Bool → NavPath V)
  | st, [] => some st
  | st, o :: os => (step g st o).bind (run g · os)

/-- Length of the longest common prefix. -/
def lcp [DecidableEq V] : List V → List V → Nat
  | a :: l, b :: m => if a = b then lcp l m + 1 else 0
  | _, _ => 0

/-- A path in the geometry: every placement is a daughter of the one before. -/
def IsPath (g : Geom V) : List V → Prop
  | [] => True
  | [_] => True
  | a :: b :: l => b ∈ g.daughters a ∧ IsPath g (b :: l)

/-- Meaning of the pieces of a relative path, acting on a stack; `find` looks up a value. -/
def interp (val : V → Int) (find : Int → Option V) : List Token → List V → Option (List V)
  | [], l => some l
  | .up :: ts, l => interp val find ts l.dropLast
  | .down x :: ts, l => match find x with
    | some v => interp val find ts (l ++ [v])
    | none => none
  | .horiz δ :: ts, l => match l.getLast? with
    | none => none
    | some u => match find (val u + δ) with
      | some v => interp val find ts (l.dropLast ++ [v])
      | none => none

end NavPath
end VecGeom

import Verif.RobinHood.Model
import Mathlib.Data.Finset.Card
import Mathlib.Data.Finset.Range

/-!
# What a map is

The specification of a map: a partial function from keys to values, with the number of its keys.
-/

namespace VecGeom
namespace RobinHood

variable {K V : Type}

/-- A map, seen from outside. -/
structure Dict (K V : Type) where
  get : K → Option V
  size : Nat

/-- The map without entries. -/
def Dict.empty : Dict K V := ⟨fun _ => none, 0⟩

/-- A new entry, or a new value for the key. -/
def Dict.set [DecidableEq K] (d : Dict K V) (k : K) (v : V) : Dict K V :=
  ⟨fun k' => if k' = k then some v else d.get k', if (d.get k).isSome then d.size else d.size + 1⟩

/-- Insertion leaves an entry that is there alone. -/
def Dict.insert [DecidableEq K] (d : Dict K V) (k : K) (v : V) : Dict K V := if (d.get k).isSome then d else d.set k v

/-- Without the key. -/
def Dict.erase [DecidableEq K] (d : Dict K V) (k : K) : Dict K V :=
  ⟨fun k' => if k' = k then none else d.get k', if (d.get k).isSome then d.size - 1 else d.size⟩

/-- The list has every entry once and nothing else. -/
def Lists (l : List (K × V)) (d : Dict K V) : Prop :=
  (l.map Prod.fst).Nodup ∧ (∀ k v, (k, v) ∈ l ↔ d.get k = some v) ∧ l.length = d.size

/-- Two maps have the same entries. -/
def Dict.Same (d d' : Dict K V) : Prop := ∀ k, d.get k = d'.get k

/-- What an operation may return, and the maps that it leaves. -/
inductive Allowed [DecidableEq K] : (Nat → Dict K V) → Op K V → Out K V → (Nat → Dict K V) → Prop
  | insert (S s k v) : Allowed S (.insert s k v) (.flag ((S s).get k).isNone) (put S s ((S s).insert k v))
  | set (S s k v) : Allowed S (.set s k v) .unit (put S s ((S s).set k v))
  | erase (S s k) : Allowed S (.erase s k) (.count (if ((S s).get k).isSome then 1 else 0)) (put S s ((S s).erase k))
  | find (S s k) : Allowed S (.find s k) (.value ((S s).get k)) S
  | size (S s) : Allowed S (.size s) (.count (S s).size) S
  | clear (S s) : Allowed S (.clear s) .unit (put S s .empty)
  | reserve (S s c) : Allowed S (.reserve s c) .unit S
  | list (S s l) (h : Lists l (S s)) : Allowed S (.list s) (.entries l) S
  /-- Sweeping sees every entry, and nothing else; what is not dropped stays. -/
  | sweep (S s drop l d') (hl : ∀ k v, (k, v) ∈ l ↔ (S s).get k = some v)
      (hd : ∀ k v, d'.get k = some v ↔ (S s).get k = some v ∧ drop k v = false) (hs : ∃ l', Lists l' d') :
      Allowed S (.sweep s drop) (.entries l) (put S s d')
  | equal (S s t b) (h : b = true ↔ (S s).Same (S t)) : Allowed S (.equal s t) (.flag b) S
  | copy (S s t) : Allowed S (.copy s t) .unit (put S s (S t))
  | copyNew (S s t) : Allowed S (.copyNew s t) .unit (put S s (S t))
  | move (S s t) : Allowed S (.move s t) .unit (if s = t then S else put (put S t .empty) s (S t))
  | moveNew (S s t) : Allowed S (.moveNew s t) .unit (if s = t then S else put (put S t .empty) s (S t))

/-- The results that a program may have. -/
inductive Runs [DecidableEq K] : (Nat → Dict K V) → List (Op K V) → List (Out K V) → (Nat → Dict K V) → Prop
  | nil (S) : Runs S [] [] S
  | cons {S op o S' ops os S''} (h : Allowed S op o S') (t : Runs S' ops os S'') : Runs S (op :: ops) (o :: os) S''

end RobinHood
end VecGeom

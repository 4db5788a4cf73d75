import Verif.Nav.Model

/-!
# Specification: points in a hierarchy of placements

All points `p` are in the local frame of the volume they are used with.
-/

namespace VecGeom
namespace Nav
variable {V : Type}

/-- The point belongs to the volume: to its solid, or, for an assembly, to its bounding box and to one of its daughters. -/
inductive InVol (g : NavGeom V) : V → V3 → Prop
  | solid {v : V} {p : V3} : g.isAssembly v = false → g.contains v p = true → InVol g v p
  | assembly {v d : V} {p : V3} : g.isAssembly v = true → g.box v p = true → d ∈ g.daughters v →
      InVol g d ((g.trans d).transform p) → InVol g v p

/-- The placements nest to a finite depth: `h` decreases from mother to daughter. -/
def Nested (g : NavGeom V) (h : V → Nat) : Prop := ∀ v, ∀ d ∈ g.daughters v, h d < h v

/-- Going down from `v` through the placements `l` to `u`; the point `p` of `v` is `q` in the frame of `u`. -/
inductive Chain (g : NavGeom V) : V → V3 → List V → V → V3 → Prop
  | nil (v : V) (p : V3) : Chain g v p [] v p
  | cons {v d u : V} {p q : V3} {l : List V} : d ∈ g.daughters v → Chain g d ((g.trans d).transform p) l u q →
      Chain g v p (d :: l) u q

/-- Going down as above, at each level to the first daughter containing the point that is not the volume `skip`. -/
inductive Descent (g : NavGeom V) (skip : Option V) : V → V3 → List V → V → V3 → Prop
  | nil (v : V) (p : V3) : Descent g skip v p [] v p
  | cons {v d u : V} {p q : V3} {l pre post : List V} : g.daughters v = pre ++ d :: post → some d ≠ skip →
      InVol g d ((g.trans d).transform p) → (∀ d' ∈ pre, some d' ≠ skip → ¬ InVol g d' ((g.trans d').transform p)) →
      Descent g skip d ((g.trans d).transform p) l u q → Descent g skip v p (d :: l) u q

/-- No daughter of `u` other than `skip` contains the point. -/
def Deepest (g : NavGeom V) (skip : Option V) (u : V) (q : V3) : Prop :=
  ∀ d ∈ g.daughters u, some d ≠ skip → ¬ InVol g d ((g.trans d).transform q)

/-- The geometry is proper at the point `p` of `w`: wherever the point is looked at in the hierarchy, a daughter containing it lies in
its mother, and no two daughters contain it. -/
def ProperAt (g : NavGeom V) (w : V) (p : V3) : Prop :=
  ∀ l v x, Chain g w p l v x →
    (∀ d ∈ g.daughters v, InVol g d ((g.trans d).transform x) → InVol g v x) ∧
    (∀ d ∈ g.daughters v, ∀ d' ∈ g.daughters v, InVol g d ((g.trans d).transform x) →
      InVol g d' ((g.trans d').transform x) → d = d')

end Nav
end VecGeom

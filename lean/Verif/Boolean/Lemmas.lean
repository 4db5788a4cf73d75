import Verif.Boolean.Spec
import Verif.Transform.Props
import Verif.AABB.Props

/-!
# Lemmas about regions and placements
-/

namespace VecGeom
namespace Boolean

theorem dist_transform {T : Trans3} (h : T.Orthonormal) (p q : V3) :
    V3.dist (T.transform p) (T.transform q) = V3.dist p q := by
  have := (Trans3.C23_isometry h p p q).2.2
  unfold V3.dist V3.dist2
  congr 1
  simp only [V3.mag2, V3.dot, V3.sub_x, V3.sub_y, V3.sub_z] at this
  linarith

theorem moved_iff {T : Trans3} (h : T.Orthonormal) (X : Region) (p : V3) : Moved T X p ↔ X (T.transform p) := by
  constructor
  · rintro ⟨q, hq, rfl⟩
    rwa [Trans3.C23_point_roundtrip_local h]
  · intro hp
    exact ⟨_, hp, Trans3.C23_point_roundtrip_master h p⟩

theorem interior_moved {T : Trans3} (h : T.Orthonormal) (X : Region) (p : V3) :
    Interior (Moved T X) p ↔ Interior X (T.transform p) := by
  constructor
  · rintro ⟨e, he, hX⟩
    refine ⟨e, he, fun q hq => ?_⟩
    have := hX (T.inverseTransform q) (by
      rw [← dist_transform h, Trans3.C23_point_roundtrip_local h]; exact hq)
    rwa [moved_iff h, Trans3.C23_point_roundtrip_local h] at this
  · rintro ⟨e, he, hX⟩
    refine ⟨e, he, fun q hq => ?_⟩
    rw [moved_iff h]
    exact hX _ (by rwa [dist_transform h])

theorem exterior_moved {T : Trans3} (h : T.Orthonormal) (X : Region) (p : V3) :
    Exterior (Moved T X) p ↔ Exterior X (T.transform p) := by
  have := interior_moved h (fun q => ¬ X q) p
  unfold Exterior
  rw [← this]
  unfold Interior
  simp only [moved_iff h]

theorem Interior.mono {X Y : Region} {p : V3} (h : Interior X p) (hXY : ∀ q, X q → Y q) : Interior Y p := by
  obtain ⟨e, he, hX⟩ := h
  exact ⟨e, he, fun q hq => hXY q (hX q hq)⟩

theorem Interior.and {X Y : Region} {p : V3} (hX : Interior X p) (hY : Interior Y p) :
    Interior (fun q => X q ∧ Y q) p := by
  obtain ⟨e, he, hX⟩ := hX
  obtain ⟨f, hf, hY⟩ := hY
  exact ⟨min e f, lt_min he hf, fun q hq => ⟨hX q (hq.trans_le (min_le_left _ _)), hY q (hq.trans_le (min_le_right _ _))⟩⟩

theorem dist_self (p : V3) : V3.dist p p = 0 := by simp [V3.dist, V3.dist2]

theorem Interior.mem {X : Region} {p : V3} (h : Interior X p) : X p := by
  obtain ⟨e, he, hX⟩ := h
  exact hX p (by rw [dist_self]; exact he)

theorem not_interior_exterior {X : Region} {p : V3} (h : Interior X p) (h' : Exterior X p) : False :=
  h'.mem h.mem

theorem exterior_union {X Y : Region} {p : V3} :
    Exterior (Op.union.apply X Y) p ↔ Exterior X p ∧ Exterior Y p := by
  constructor
  · intro h
    exact ⟨h.mono fun q hq hX => hq (Or.inl hX), h.mono fun q hq hY => hq (Or.inr hY)⟩
  · rintro ⟨hX, hY⟩
    exact (hX.and hY).mono fun q hq h => h.elim hq.1 hq.2

theorem interior_inter {X Y : Region} {p : V3} :
    Interior (Op.intersection.apply X Y) p ↔ Interior X p ∧ Interior Y p := by
  constructor
  · intro h
    exact ⟨h.mono fun q hq => hq.1, h.mono fun q hq => hq.2⟩
  · rintro ⟨hX, hY⟩
    exact hX.and hY

theorem interior_sub {X Y : Region} {p : V3} :
    Interior (Op.subtraction.apply X Y) p ↔ Interior X p ∧ Exterior Y p := by
  constructor
  · intro h
    exact ⟨h.mono fun q hq => hq.1, h.mono fun q hq => hq.2⟩
  · rintro ⟨hX, hY⟩
    exact hX.and hY

/-- Near an exterior point of one constituent the union is the other one. -/
theorem interior_union_of_exterior {X Y : Region} {p : V3} (h : Exterior Y p) :
    Interior (Op.union.apply X Y) p ↔ Interior X p := by
  constructor
  · intro hi
    exact (hi.and h).mono fun q hq => hq.1.resolve_right hq.2
  · intro hi
    exact hi.mono fun q hq => Or.inl hq

theorem interior_union_of_exterior_left {X Y : Region} {p : V3} (h : Exterior X p) :
    Interior (Op.union.apply X Y) p ↔ Interior Y p := by
  constructor
  · intro hi
    exact (hi.and h).mono fun q hq => hq.1.resolve_left hq.2
  · intro hi
    exact hi.mono fun q hq => Or.inr hq

theorem exterior_inter_of_interior {X Y : Region} {p : V3} (h : Interior Y p) :
    Exterior (Op.intersection.apply X Y) p ↔ Exterior X p := by
  constructor
  · intro hi
    exact Interior.mono (Interior.and hi h) fun q hq hX => hq.1 ⟨hX, hq.2⟩
  · intro hi
    exact Interior.mono hi fun q hq hX => hq hX.1

theorem exterior_inter_of_interior_left {X Y : Region} {p : V3} (h : Interior X p) :
    Exterior (Op.intersection.apply X Y) p ↔ Exterior Y p := by
  constructor
  · intro hi
    exact Interior.mono (Interior.and hi h) fun q hq hY => hq.1 ⟨hq.2, hY⟩
  · intro hi
    exact Interior.mono hi fun q hq hX => hq hX.2

theorem exterior_sub_of_exterior {X Y : Region} {p : V3} (h : Exterior Y p) :
    Exterior (Op.subtraction.apply X Y) p ↔ Exterior X p := by
  constructor
  · intro hi
    exact Interior.mono (Interior.and hi h) fun q hq hX => hq.1 ⟨hX, hq.2⟩
  · intro hi
    exact Interior.mono hi fun q hq hX => hq hX.1

theorem exterior_sub_of_interior {X Y : Region} {p : V3} (h : Interior X p) :
    Exterior (Op.subtraction.apply X Y) p ↔ Interior Y p := by
  constructor
  · intro hi
    exact Interior.mono (Interior.and hi h) fun q hq => by
      by_contra hY
      exact hq.1 ⟨hq.2, hY⟩
  · intro hi
    exact Interior.mono hi fun q hq hX => hX.2 hq

theorem exterior_left {X Y : Region} {p : V3} (h : Exterior X p) :
    Exterior (Op.intersection.apply X Y) p ∧ Exterior (Op.subtraction.apply X Y) p :=
  ⟨Interior.mono h fun _ hq hX => hq hX.1, Interior.mono h fun _ hq hX => hq hX.1⟩

theorem unmoved_moved {T : Trans3} (hT : T.Orthonormal) (h : Unmoved T) (X : Region) (p : V3) : Moved T X p ↔ X p := by
  rw [moved_iff hT, h p]

/-! ## The boolean solid in terms of its constituents -/

theorem boolSolid_contains (n : Nat) (op : Op) (l r : Placed) (p : V3) :
    (boolSolid n op l r).contains p = true ↔
      op.apply (fun p => l.contains p = true) (fun p => r.contains p = true) p := by
  cases op
  · simp only [boolSolid, unionContains, Op.apply]
    cases l.contains p <;> simp
  · simp [boolSolid, interContains, Op.apply]
  · simp only [boolSolid, subContains, Op.apply]
    cases l.contains p <;> simp

theorem apply_congr (op : Op) {X X' Y Y' : Region} {p : V3} (hX : X p ↔ X' p) (hY : Y p ↔ Y' p) :
    op.apply X Y p ↔ op.apply X' Y' p := by
  cases op <;> simp only [Op.apply, hX, hY]

end Boolean
end VecGeom

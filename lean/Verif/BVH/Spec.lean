import Verif.BVH.Model
import Verif.AABB.Spec
import Mathlib.Data.List.Perm.Basic

/-!
# Specification of the hierarchy
-/

namespace VecGeom
namespace BVH

open AABB

/-- The box `small` is contained in the box `big`. -/
def Covers (big small : Box) : Prop :=
  (big.lo.x ≤ small.lo.x ∧ big.lo.y ≤ small.lo.y ∧ big.lo.z ≤ small.lo.z) ∧
  (small.hi.x ≤ big.hi.x ∧ small.hi.y ≤ big.hi.y ∧ small.hi.z ≤ big.hi.z)

/-- What the standard promises: sorting and partitioning rearrange the elements, partitioning puts those that meet the
predicate first. -/
structure Std.OK (S : Std) : Prop where
  sort_perm : ∀ lt l, (S.sort lt l).Perm l
  part_perm : ∀ p l, ((S.partition p l).1 ++ (S.partition p l).2).Perm l
  part_true : ∀ p l, ∀ i ∈ (S.partition p l).1, p i = true
  part_false : ∀ p l, ∀ i ∈ (S.partition p l).2, p i = false

/-- The daughters stored in the leaves below node `id`, in order, for a tree of at most `k` levels. -/
def leaves (t : Tree) : (k id : Nat) → List Nat
  | 0, _ => []
  | k + 1, id =>
    if t.arr.nchild id ≥ 0 then seg t.arr.prim (t.arr.offset id).toNat ((t.arr.offset id).toNat + (t.arr.nchild id).toNat)
    else leaves t k (2 * id + 1) ++ leaves t k (2 * id + 2)

/-- Node `id` is met on the way from the root to some leaf. -/
inductive Reached (t : Tree) : Nat → Prop
  | root : Reached t 0
  | left {id : Nat} : Reached t id → t.arr.nchild id < 0 → Reached t (2 * id + 1)
  | right {id : Nat} : Reached t id → t.arr.nchild id < 0 → Reached t (2 * id + 2)

/-- A strict weak ordering, as required of the comparison passed to `std::sort`. -/
structure StrictWeak (lt : Nat → Nat → Bool) : Prop where
  irrefl : ∀ a, lt a a = false
  asymm : ∀ a b, lt a b = true → lt b a = false
  trans : ∀ a b c, lt a b = true → lt b c = true → lt a c = true
  incomp : ∀ a b c, lt a b = false → lt b a = false → lt b c = false → lt c b = false → lt a c = false ∧ lt c a = false

end BVH
end VecGeom

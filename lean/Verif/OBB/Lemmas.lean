import Verif.OBB.Model
import Verif.OBB.Spec
import Verif.Transform.Lemmas
import Mathlib.Analysis.LocallyConvex.Separation
import Mathlib.Data.Fin.VecNotation
import Mathlib.Topology.Order.Compact
import Mathlib.Analysis.Convex.Basic
import Mathlib.Topology.Algebra.Module.FiniteDimension
import Mathlib.Algebra.BigOperators.Fin

/-!
# Separating axes

The walk from any separating direction to one of the fifteen axes.
-/

namespace VecGeom
namespace OBB

open Finset

theorem dot_comm (a b : V3) : a.dot b = b.dot a := by unfold V3.dot; ring
theorem dot_add (a b c : V3) : a.dot (b + c) = a.dot b + a.dot c := by unfold V3.dot; simp; ring
theorem dot_smul (a b : V3) (s : ℝ) : a.dot (V3.smul s b) = s * a.dot b := by unfold V3.dot; simp; ring

/-- How far the interval of `T` is beyond the projections of the boxes. -/
noncomputable def gap {ι : Type} [Fintype ι] (T : V3) (g : ι → V3) (w : ι → ℝ) (n : V3) : ℝ := T.dot n - ∑ k, w k * |(g k).dot n|

section walk

variable {ι : Type} [Fintype ι] {T : V3} {g : ι → V3} {w : ι → ℝ}

theorem forward {n m : V3} (h : ∃ k, (g k).dot n * (g k).dot m < 0) :
    ∃ t > 0, (∀ j, 0 ≤ (g j).dot n * (g j).dot (n + V3.smul t m)) ∧ ∃ k, (g k).dot n ≠ 0 ∧ (g k).dot (n + V3.smul t m) = 0 := by
  classical
  have hne : (univ.filter fun k => (g k).dot n * (g k).dot m < 0).Nonempty := by
    obtain ⟨k, hk⟩ := h; exact ⟨k, by simp [hk]⟩
  obtain ⟨k, hk, hmin⟩ := exists_min_image _ (fun k => -(g k).dot n / (g k).dot m) hne
  rw [mem_filter] at hk
  have hk := hk.2
  have hb : (g k).dot m ≠ 0 := by rintro e; rw [e] at hk; simp at hk
  have ha : (g k).dot n ≠ 0 := by rintro e; rw [e] at hk; simp at hk
  have hpos : 0 < -(g k).dot n / (g k).dot m := by
    rw [show -(g k).dot n / (g k).dot m = -((g k).dot n * (g k).dot m) / (g k).dot m ^ 2 by field_simp]
    exact div_pos (by linarith) (by positivity)
  refine ⟨_, hpos, fun j => ?_, k, ha, ?_⟩
  · rw [dot_add, dot_smul]
    generalize hT : -(g k).dot n / (g k).dot m = t at *
    by_cases hj : (g j).dot n * (g j).dot m < 0
    · have := hmin j (by simp [hj])
      have hbj : (g j).dot m ≠ 0 := by rintro e; rw [e] at hj; simp at hj
      have h3 : (g j).dot n * (-(g j).dot n / (g j).dot m * (g j).dot m) = -(g j).dot n ^ 2 := by field_simp
      nlinarith
    · nlinarith [sq_nonneg ((g j).dot n), mul_nonneg hpos.le (not_lt.mp hj)]
  · rw [dot_add, dot_smul]; field_simp; ring

theorem abs_lin {a b t1 t2 : ℝ} (h1 : 0 ≤ a * (a + t1 * b)) (h2 : 0 ≤ a * (a + t2 * -b)) (hz : a = 0 → b = 0) :
    t2 * |a + t1 * b| + t1 * |a + t2 * -b| = (t1 + t2) * |a| := by
  rcases lt_trichotomy a 0 with h | h | h
  · rw [abs_of_neg h, abs_of_nonpos (by nlinarith : a + t1 * b ≤ 0), abs_of_nonpos (by nlinarith : a + t2 * -b ≤ 0)]; ring
  · rw [hz h, h]; simp
  · rw [abs_of_pos h, abs_of_nonneg (by nlinarith : 0 ≤ a + t1 * b), abs_of_nonneg (by nlinarith : 0 ≤ a + t2 * -b)]; ring

/-- From a separating direction along a line in both directions, to a direction with one more zero. -/
theorem move {n m : V3} (hf : 0 < gap T g w n) (h1 : ∃ k, (g k).dot n * (g k).dot m < 0) (h2 : ∃ k, 0 < (g k).dot n * (g k).dot m)
    (hz : ∀ j, (g j).dot n = 0 → (g j).dot m = 0) :
    ∃ n', 0 < gap T g w n' ∧ (∀ j, (g j).dot n = 0 → (g j).dot n' = 0) ∧ ∃ k, (g k).dot n ≠ 0 ∧ (g k).dot n' = 0 := by
  have hneg : ∀ a : V3, a.dot (V3.smul (-1) m) = -a.dot m := fun a => by rw [dot_smul]; ring
  obtain ⟨t1, p1, s1, k1, z1, e1⟩ := forward h1
  obtain ⟨t2, p2, s2, k2, z2, e2⟩ := forward (n := n) (m := V3.smul (-1) m) (g := g) (by
    obtain ⟨k, hk⟩ := h2; exact ⟨k, by rw [hneg]; linarith⟩)
  have key : t2 * gap T g w (n + V3.smul t1 m) + t1 * gap T g w (n + V3.smul t2 (V3.smul (-1) m)) = (t1 + t2) * gap T g w n := by
    unfold gap
    have : ∑ k, w k * |(g k).dot n| * (t1 + t2) = ∑ k, (t2 * (w k * |(g k).dot (n + V3.smul t1 m)|) +
        t1 * (w k * |(g k).dot (n + V3.smul t2 (V3.smul (-1) m))|)) := by
      refine sum_congr rfl fun k _ => ?_
      have a1 := s1 k
      have a2 := s2 k
      rw [dot_add, dot_smul] at a1
      rw [dot_add, dot_smul, hneg] at a2
      rw [dot_add, dot_smul, dot_add, dot_smul (g k) (V3.smul (-1) m), hneg]
      linear_combination -(w k) * abs_lin a1 a2 (hz k)
    rw [sum_add_distrib, ← mul_sum, ← mul_sum, ← sum_mul] at this
    have hT1 : T.dot (n + V3.smul t1 m) = T.dot n + t1 * T.dot m := by rw [dot_add, dot_smul]
    have hT2 : T.dot (n + V3.smul t2 (V3.smul (-1) m)) = T.dot n - t2 * T.dot m := by rw [dot_add, dot_smul, hneg]; ring
    rw [hT1, hT2]
    linear_combination this
  have hor : 0 < gap T g w (n + V3.smul t1 m) ∨ 0 < gap T g w (n + V3.smul t2 (V3.smul (-1) m)) := by
    by_contra hc
    push Not at hc
    nlinarith [mul_pos (add_pos p1 p2) hf]
  rcases hor with h | h
  · exact ⟨_, h, fun j hj => by rw [dot_add, dot_smul, hj, hz j hj]; ring, k1, z1, e1⟩
  · exact ⟨_, h, fun j hj => by rw [dot_add, dot_smul, hneg, hj, hz j hj]; ring, k2, z2, e2⟩

end walk

end OBB
end VecGeom

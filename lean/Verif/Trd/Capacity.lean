import Verif.Trd.MoreProps
import Verif.Base.Slices

/-!
# C59: the capacity of a trapezoid with rectangular bases is its volume
-/

namespace VecGeom
namespace Trd

open MeasureTheory

/-- C59: the capacity of a trapezoid with rectangular bases is its volume. -/
theorem C59_trd_capacity {s : State} (hp : Proper (shape s)) :
    volume {q : Fin 3 → ℝ | Closed (shape s) ⟨q 0, q 1, q 2⟩} = ENNReal.ofReal (capacity s) := by
  have hz : 0 < s.dz := hp.2.2.2.2
  have e : (shape s).z = s.dz := rfl
  have cx : Continuous (shape s).wx := by unfold Shape.wx; fun_prop
  have cy : Continuous (shape s).wy := by unfold Shape.wy; fun_prop
  have hA : MeasurableSet {q : Fin 3 → ℝ | Closed (shape s) ⟨q 0, q 1, q 2⟩} := by
    have c0 : ∀ i : Fin 3, Continuous fun q : Fin 3 → ℝ => q i := fun i => continuous_apply i
    have h1 : IsClosed {q : Fin 3 → ℝ | |q 2| ≤ s.dz} := isClosed_le (c0 2).abs continuous_const
    have h2 : IsClosed {q : Fin 3 → ℝ | |q 0| ≤ (shape s).wx (q 2)} := isClosed_le (c0 0).abs (cx.comp (c0 2))
    have h3 : IsClosed {q : Fin 3 → ℝ | |q 1| ≤ (shape s).wy (q 2)} := isClosed_le (c0 1).abs (cy.comp (c0 2))
    exact (h1.inter (h2.inter h3)).measurableSet
  rw [volume_slices hA (a := -s.dz) (b := s.dz) (by linarith) (g := fun z => 4 * (shape s).wx z * (shape s).wy z)]
  · congr 1
    have h2 : ∀ z, 4 * (shape s).wx z * (shape s).wy z =
        (s.dx1 + s.dx2) * (s.dy1 + s.dy2) + ((s.dx1 + s.dx2) * (s.dy2 - s.dy1) + (s.dx2 - s.dx1) * (s.dy1 + s.dy2)) / s.dz * z +
          (s.dx2 - s.dx1) * (s.dy2 - s.dy1) / s.dz ^ 2 * z ^ 2 := by
      intro z
      show 4 * (s.dx1 + (s.dx2 - s.dx1) * ((z + s.dz) / (2 * s.dz))) * (s.dy1 + (s.dy2 - s.dy1) * ((z + s.dz) / (2 * s.dz))) = _
      field_simp
      ring
    simp_rw [h2]
    rw [integral_quadratic]
    unfold capacity
    field_simp
    ring
  · exact ((continuous_const.mul cx).mul cy).continuousOn
  · intro z hz'
    have h : |z| ≤ (shape s).z := by rw [e, abs_le]; exact hz'
    have := wx_nonneg hp h
    have := wy_nonneg hp h
    positivity
  · intro q hq
    exact abs_le.mp hq.1
  · intro z hz'
    have h : |z| ≤ (shape s).z := by rw [e, abs_le]; exact hz'
    rw [← area_rectangle (wx_nonneg hp h)]
    congr 1
    ext w
    simp only [Set.mem_setOf_eq, Closed, Matrix.cons_val_zero, Matrix.cons_val_one, Matrix.cons_val]
    exact ⟨fun a => a.2, fun a => ⟨h, a⟩⟩

/-- The sample solid: half lengths 1 and 3 along `x`, 2 and 5 along `y`, 2 along `z`. -/
example (m : State) : capacity (sample m) = 120 := by
  show 2 * (1 + 3) * (2 + 5) * 2 + (2 / 3) * (1 - 3) * (2 - 5) * 2 = (120 : ℝ)
  norm_num

end Trd
end VecGeom

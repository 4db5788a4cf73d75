import Verif.Trapezoid.GeoProps
import Verif.Base.Slices2

/-!
# C132: the capacity of a general trapezoid is its volume
-/

namespace VecGeom
namespace Trapezoid

open MeasureTheory

variable {S : Shape}

/-- The trapezoid in terms of coordinates. -/
theorem solid_iff (hp : Proper S) (x y z : ℝ) : Solid S ⟨x, y, z⟩ ↔
    |z| ≤ S.z ∧ |y - S.my ((z + S.z) / (2 * S.z))| ≤ S.hy ((z + S.z) / (2 * S.z)) ∧
    |x - S.mx ((z + S.z) / (2 * S.z))
        ((y - S.my ((z + S.z) / (2 * S.z))) / (2 * S.hy ((z + S.z) / (2 * S.z))) + 1 / 2)| ≤
      S.hx ((z + S.z) / (2 * S.z))
        ((y - S.my ((z + S.z) / (2 * S.z))) / (2 * S.hy ((z + S.z) / (2 * S.z))) + 1 / 2) := by
  have h0 := hp.1
  constructor
  · rintro ⟨r, s, t, hr, hs, ht, e⟩
    obtain ⟨rfl, rfl, rfl⟩ := V3.mk.inj e
    have et : ((2 * t - 1) * S.z + S.z) / (2 * S.z) = t := by field_simp; ring
    rw [et]
    have hy := hy_pos hp ht
    have es : (S.my t + (2 * s - 1) * S.hy t - S.my t) / (2 * S.hy t) + 1 / 2 = s := by field_simp; ring
    rw [es]
    refine ⟨?_, (fraction hy).mpr ⟨s, hs, rfl⟩, (fraction (hx_pos hp ht hs)).mpr ⟨r, hr, rfl⟩⟩
    have := (fraction (x := (2 * t - 1) * S.z) (m := 0) h0).mpr ⟨t, ht, by ring⟩
    rwa [sub_zero] at this
  · rintro ⟨hz, hy, hx⟩
    obtain ⟨t, ht, ez⟩ := (fraction (m := 0) h0).mp (by rwa [sub_zero])
    have et : (z + S.z) / (2 * S.z) = t := by rw [ez]; field_simp; ring
    rw [et] at hy hx
    have hyp := hy_pos hp ht
    obtain ⟨s, hs, ey⟩ := (fraction hyp).mp hy
    have es : (y - S.my t) / (2 * S.hy t) + 1 / 2 = s := by rw [ey]; field_simp; ring
    rw [es] at hx
    obtain ⟨r, hr, ex⟩ := (fraction (hx_pos hp ht hs)).mp hx
    refine ⟨r, s, t, hr, hs, ht, ?_⟩
    simp only [Shape.point, V3.mk.injEq]
    exact ⟨ex, ey, by rw [ez]; ring⟩

/-- The area of a slice. -/
theorem slice_area (hp : Proper S) {z : ℝ} (hz : |z| ≤ S.z) :
    volume {w : Fin 2 → ℝ | Solid S ⟨w 0, w 1, z⟩} =
      ENNReal.ofReal (2 * (S.hx ((z + S.z) / (2 * S.z)) 0 + S.hx ((z + S.z) / (2 * S.z)) 1) * S.hy ((z + S.z) / (2 * S.z))) := by
  have h0 := hp.1
  obtain ⟨t, ht, ez⟩ := (fraction (m := 0) h0).mp (by rwa [sub_zero])
  have et : (z + S.z) / (2 * S.z) = t := by rw [ez]; field_simp; ring
  have key : ∀ w : Fin 2 → ℝ, Solid S ⟨w 0, w 1, z⟩ ↔ |w 1 - S.my t| ≤ S.hy t ∧
      |w 0 - S.mx t ((w 1 - S.my t) / (2 * S.hy t) + 1 / 2)| ≤ S.hx t ((w 1 - S.my t) / (2 * S.hy t) + 1 / 2) := by
    intro w
    rw [solid_iff hp, et]
    exact ⟨fun h => h.2, fun h => ⟨hz, h⟩⟩
  rw [et]
  simp_rw [key]
  have hy := hy_pos hp ht
  generalize S.my t = m at *
  have cmx : Continuous fun y : ℝ => S.mx t ((y - m) / (2 * S.hy t) + 1 / 2) := by
    unfold Shape.mx mix; fun_prop
  have chx : Continuous fun y : ℝ => S.hx t ((y - m) / (2 * S.hy t) + 1 / 2) := by
    unfold Shape.hx mix; fun_prop
  have c0 : ∀ i : Fin 2, Continuous fun q : Fin 2 → ℝ => q i := fun i => continuous_apply i
  have hA : MeasurableSet {w : Fin 2 → ℝ | |w 1 - m| ≤ S.hy t ∧
      |w 0 - S.mx t ((w 1 - m) / (2 * S.hy t) + 1 / 2)| ≤ S.hx t ((w 1 - m) / (2 * S.hy t) + 1 / 2)} := by
    have h1 : IsClosed {w : Fin 2 → ℝ | |w 1 - m| ≤ S.hy t} := isClosed_le ((c0 1).sub continuous_const).abs continuous_const
    have h2 : IsClosed {w : Fin 2 → ℝ | |w 0 - S.mx t ((w 1 - m) / (2 * S.hy t) + 1 / 2)| ≤ S.hx t ((w 1 - m) / (2 * S.hy t) + 1 / 2)} :=
      isClosed_le ((c0 0).sub (cmx.comp (c0 1))).abs (chx.comp (c0 1))
    exact (h1.inter h2).measurableSet
  rw [area_slices hA (a := m - S.hy t) (b := m + S.hy t) (by linarith)
    (f := fun y => S.mx t ((y - m) / (2 * S.hy t) + 1 / 2) - S.hx t ((y - m) / (2 * S.hy t) + 1 / 2))
    (g := fun y => S.mx t ((y - m) / (2 * S.hy t) + 1 / 2) + S.hx t ((y - m) / (2 * S.hy t) + 1 / 2))]
  · congr 1
    have e : ∀ y : ℝ, S.mx t ((y - m) / (2 * S.hy t) + 1 / 2) + S.hx t ((y - m) / (2 * S.hy t) + 1 / 2) -
        (S.mx t ((y - m) / (2 * S.hy t) + 1 / 2) - S.hx t ((y - m) / (2 * S.hy t) + 1 / 2)) =
        (S.hx t 0 + S.hx t 1) + (S.hx t 1 - S.hx t 0) / S.hy t * (y - m) + 0 * (y - m) ^ 2 := by
      intro y
      unfold Shape.hx
      generalize mix t S.x1 S.x3 = a
      generalize mix t S.x2 S.x4 = b
      unfold mix
      field_simp
      ring
    simp_rw [e]
    rw [intervalIntegral.integral_comp_sub_right (fun y => (S.hx t 0 + S.hx t 1) + (S.hx t 1 - S.hx t 0) / S.hy t * y + 0 * y ^ 2) m,
      show m - S.hy t - m = -S.hy t by ring, show m + S.hy t - m = S.hy t by ring, integral_quadratic]
    ring
  · exact (cmx.sub chx).continuousOn
  · exact (cmx.add chx).continuousOn
  · intro y hy'
    have : 0 ≤ S.hx t ((y - m) / (2 * S.hy t) + 1 / 2) := by
      apply le_of_lt
      apply hx_pos hp ht
      constructor
      · have : -(1 / 2) ≤ (y - m) / (2 * S.hy t) := by rw [le_div_iff₀ (by linarith)]; linarith [hy'.1]
        linarith
      · have : (y - m) / (2 * S.hy t) ≤ 1 / 2 := by rw [div_le_iff₀ (by linarith)]; linarith [hy'.2]
        linarith
    linarith
  · intro w
    simp only [Set.mem_setOf_eq, abs_le, Set.mem_Icc]
    constructor
    · rintro ⟨⟨a, b⟩, c, d⟩; exact ⟨⟨by linarith, by linarith⟩, by linarith, by linarith⟩
    · rintro ⟨⟨a, b⟩, c, d⟩; exact ⟨⟨by linarith, by linarith⟩, by linarith, by linarith⟩

/-- C132: the capacity of a trapezoid is its volume. -/
theorem C132_capacity {s : State} (hp : Proper (shape s)) :
    volume {q : Fin 3 → ℝ | Solid (shape s) ⟨q 0, q 1, q 2⟩} = ENNReal.ofReal (capacity s) := by
  have h0 : 0 < s.dz := hp.1
  have hA : MeasurableSet {q : Fin 3 → ℝ | Solid (shape s) ⟨q 0, q 1, q 2⟩} := by
    have e : {q : Fin 3 → ℝ | Solid (shape s) ⟨q 0, q 1, q 2⟩} = _ := Set.ext fun q => solid_iff hp (q 0) (q 1) (q 2)
    rw [e]
    have m0 : ∀ i : Fin 3, Measurable fun q : Fin 3 → ℝ => q i := fun i => measurable_pi_apply i
    have mt : Measurable fun q : Fin 3 → ℝ => (q 2 + (shape s).z) / (2 * (shape s).z) := by fun_prop
    have cmy : Measurable (shape s).my := by unfold Shape.my mix; fun_prop
    have chy : Measurable (shape s).hy := by unfold Shape.hy mix; fun_prop
    have cmx : Measurable fun p : ℝ × ℝ => (shape s).mx p.1 p.2 := by unfold Shape.mx mix; fun_prop
    have chx : Measurable fun p : ℝ × ℝ => (shape s).hx p.1 p.2 := by unfold Shape.hx mix; fun_prop
    have ms : Measurable fun q : Fin 3 → ℝ => (q 1 - (shape s).my ((q 2 + (shape s).z) / (2 * (shape s).z))) /
        (2 * (shape s).hy ((q 2 + (shape s).z) / (2 * (shape s).z))) + 1 / 2 :=
      (((m0 1).sub (cmy.comp mt)).div ((chy.comp mt).const_mul 2)).add_const _
    have h1 := measurableSet_le (measurable_norm.comp (m0 2)) (measurable_const (a := (shape s).z))
    have h2 := measurableSet_le (measurable_norm.comp ((m0 1).sub (cmy.comp mt))) (chy.comp mt)
    have h3 := measurableSet_le (measurable_norm.comp ((m0 0).sub (cmx.comp (mt.prodMk ms)))) (chx.comp (mt.prodMk ms))
    exact h1.inter (h2.inter h3)
  have cont : Continuous fun z : ℝ => 2 * ((shape s).hx ((z + s.dz) / (2 * s.dz)) 0 + (shape s).hx ((z + s.dz) / (2 * s.dz)) 1) *
      (shape s).hy ((z + s.dz) / (2 * s.dz)) := by
    unfold Shape.hx Shape.hy mix; fun_prop
  rw [volume_slices hA (a := -s.dz) (b := s.dz) (by linarith) cont.continuousOn]
  · congr 1
    have h2 : ∀ z, 2 * ((shape s).hx ((z + s.dz) / (2 * s.dz)) 0 + (shape s).hx ((z + s.dz) / (2 * s.dz)) 1) *
        (shape s).hy ((z + s.dz) / (2 * s.dz)) =
        (s.dx1 + s.dx2 + s.dx3 + s.dx4) * (s.dy1 + s.dy2) / 2 +
        ((s.dx1 + s.dx2 + s.dx3 + s.dx4) * (s.dy2 - s.dy1) + (s.dx3 + s.dx4 - s.dx1 - s.dx2) * (s.dy1 + s.dy2)) / (2 * s.dz) * z +
        (s.dx3 + s.dx4 - s.dx1 - s.dx2) * (s.dy2 - s.dy1) / (2 * s.dz ^ 2) * z ^ 2 := by
      intro z
      simp only [Shape.hx, Shape.hy, mix, shape]
      field_simp
      ring
    simp_rw [h2]
    rw [integral_quadratic]
    unfold capacity
    rw [show (3.0 : ℝ) = 3 by norm_num]
    field_simp
    ring
  · intro z hz
    have hz' : |z| ≤ (shape s).z := abs_le.mpr hz
    obtain ⟨t, ht, ez⟩ := (fraction (m := 0) h0).mp (show |z - 0| ≤ s.dz by rw [sub_zero]; exact hz')
    have et : (z + s.dz) / (2 * s.dz) = t := by rw [ez]; field_simp; ring
    rw [et]
    have a := hx_pos hp ht (show Unit 0 by norm_num [Unit])
    have b := hx_pos hp ht (show Unit 1 by norm_num [Unit])
    have c := hy_pos hp ht
    positivity
  · intro q hq
    have := ((solid_iff hp _ _ _).mp hq).1
    exact abs_le.mp this
  · intro z hz
    have hz' : |z| ≤ (shape s).z := abs_le.mpr hz
    exact slice_area hp hz'

/-- The sample solid has the volume 84. -/
example : capacity sample = 3 * (9 * 3 + 3 * 1 / 3) := by
  have e := sample_shape
  simp only [shape, Shape.mk.injEq] at e
  obtain ⟨a, _, _, b, c, d, _, f, g, h, _⟩ := e
  unfold capacity
  rw [a, b, c, d, f, g, h]
  norm_num

end Trapezoid
end VecGeom

import Verif.CutTube.Props
import Verif.Base.Ring

/-!
# The size of cut tubes
-/

namespace VecGeom
namespace CutTube

open Real MeasureTheory

variable {a : Par}

/-- The height of the bottom plane over a point of the plane `z = 0`. -/
noncomputable def Par.floor (a : Par) (x y : ℝ) : ℝ := -a.z - (a.nb.x * x + a.nb.y * y) / a.nb.z
/-- The height of the top plane over a point of the plane `z = 0`. -/
noncomputable def Par.roof (a : Par) (x y : ℝ) : ℝ := a.z - (a.nt.x * x + a.nt.y * y) / a.nt.z

/-- The bottom plane is nowhere above the top plane in the tube. -/
def Par.Ordered (a : Par) : Prop :=
  ∀ x y, a.rmin ^ 2 ≤ x ^ 2 + y ^ 2 → x ^ 2 + y ^ 2 ≤ a.rmax ^ 2 → Sector a.s a.d x y → a.floor x y ≤ a.roof x y

theorem bottom_floor (hv : a.Valid) (p : V3) : a.bottom p ≤ 0 ↔ a.floor p.x p.y ≤ p.z := by
  have hl := len_pos hv.nb'
  have e : a.bottom p = a.nb.z / len a.nb * (p.z - a.floor p.x p.y) := by
    unfold Par.bottom Par.floor
    have := hv.nb'
    field_simp
    ring
  have h : a.nb.z / len a.nb < 0 := div_neg_of_neg_of_pos hv.nb hl
  rw [e]
  constructor
  · intro h1; nlinarith
  · intro h1; nlinarith

theorem top_roof (hv : a.Valid) (p : V3) : a.top p ≤ 0 ↔ p.z ≤ a.roof p.x p.y := by
  have hl := len_pos hv.nt'
  have e : a.top p = a.nt.z / len a.nt * (p.z - a.roof p.x p.y) := by
    unfold Par.top Par.roof
    have := hv.nt'
    field_simp
    ring
  have h : 0 < a.nt.z / len a.nt := div_pos hv.nt hl
  rw [e]
  constructor
  · intro h1; nlinarith
  · intro h1; nlinarith

/-- The solid is what lies over the sector of the ring between the planes. -/
theorem closed_over (hv : a.Valid) (p : V3) : a.Closed p ↔
    (a.rmin ^ 2 ≤ p.x ^ 2 + p.y ^ 2 ∧ p.x ^ 2 + p.y ^ 2 ≤ a.rmax ^ 2 ∧ Sector a.s a.d p.x p.y) ∧ a.floor p.x p.y ≤ p.z ∧ p.z ≤ a.roof p.x p.y := by
  have hm0 : 0 < a.rmax := hv.rmin.trans_lt hv.rmax
  rw [← bottom_floor hv, ← top_roof hv, ← Tube.rad_le hm0.le, ← Tube.le_rad hv.rmin]
  constructor
  · rintro ⟨h1, h2, h3, h4, h5⟩; exact ⟨⟨h1, h2, h3⟩, h4, h5⟩
  · rintro ⟨⟨h1, h2, h3⟩, h4, h5⟩; exact ⟨h1, h2, h3, h4, h5⟩

/-- The slopes of the stored normals. -/
theorem slopes (hv : a.Valid) :
    (of a).cuts.p0.n.x / (of a).cuts.p0.n.z = a.nb.x / a.nb.z ∧ (of a).cuts.p0.n.y / (of a).cuts.p0.n.z = a.nb.y / a.nb.z ∧
    (of a).cuts.p1.n.x / (of a).cuts.p1.n.z = a.nt.x / a.nt.z ∧ (of a).cuts.p1.n.y / (of a).cuts.p1.n.z = a.nt.y / a.nt.z := by
  have hb := len_pos hv.nb'
  have ht := len_pos hv.nt'
  rw [of_p0 hv, of_p1 hv]
  simp only [V3.smul_x, V3.smul_y, V3.smul_z]
  have := hv.nb'
  have := hv.nt'
  refine ⟨?_, ?_, ?_, ?_⟩ <;> field_simp

theorem zBottom_eq (hv : a.Valid) (r φ : ℝ) : zBottom (of a) r φ = a.floor (r * cos φ) (r * sin φ) := by
  obtain ⟨h1, h2, -, -⟩ := slopes hv
  unfold zBottom Par.floor
  rw [show (of a).dz = a.z from rfl]
  have e : r / (of a).cuts.p0.n.z * ((of a).cuts.p0.n.x * cos φ + (of a).cuts.p0.n.y * sin φ) =
      r * ((of a).cuts.p0.n.x / (of a).cuts.p0.n.z * cos φ + (of a).cuts.p0.n.y / (of a).cuts.p0.n.z * sin φ) := by ring
  rw [e, h1, h2]
  ring

theorem zTop_eq (hv : a.Valid) (r φ : ℝ) : zTop (of a) r φ = a.roof (r * cos φ) (r * sin φ) := by
  obtain ⟨-, -, h1, h2⟩ := slopes hv
  unfold zTop Par.roof
  rw [show (of a).dz = a.z from rfl]
  have e : r / (of a).cuts.p1.n.z * ((of a).cuts.p1.n.x * cos φ + (of a).cuts.p1.n.y * sin φ) =
      r * ((of a).cuts.p1.n.x / (of a).cuts.p1.n.z * cos φ + (of a).cuts.p1.n.y / (of a).cuts.p1.n.z * sin φ) := by ring
  rw [e, h1, h2]
  ring

/-- The difference of the slopes in `x` and `y`. -/
noncomputable def Par.kx (a : Par) : ℝ := a.nt.x / a.nt.z - a.nb.x / a.nb.z
noncomputable def Par.ky (a : Par) : ℝ := a.nt.y / a.nt.z - a.nb.y / a.nb.z

theorem gap_eq (a : Par) (x y : ℝ) : a.roof x y - a.floor x y = 2 * a.z - (a.kx * x + a.ky * y) := by
  unfold Par.roof Par.floor Par.kx Par.ky; ring

theorem capacity_eq (hv : a.Valid) : capacity (of a) = a.z * a.d * (a.rmax ^ 2 - a.rmin ^ 2) - 1 / 3 * (a.rmax ^ 3 - a.rmin ^ 3) *
    (a.kx * (sin (a.s + a.d) - sin a.s) - a.ky * (cos (a.s + a.d) - cos a.s)) := by
  obtain ⟨h1, h2, h3, h4⟩ := slopes hv
  unfold capacity
  dsimp only
  rw [h1, h2, h3, h4]
  rw [show (of a).dz = a.z from rfl, show (of a).tube.dphi = a.d from rfl, show (of a).tube.rmin = a.rmin from Tube.of_rmin (a := tb a) hv.rmin, show (of a).tube.rmax = a.rmax from rfl,
    show (of a).sinPhi1 = sin a.s from rfl, show (of a).sinPhi2 = sin (a.s + a.d) from rfl, show (of a).cosPhi1 = cos a.s from rfl,
    show (of a).cosPhi2 = cos (a.s + a.d) from rfl]
  unfold Par.kx Par.ky
  ring

theorem integral_trig (A B C m h : ℝ) : ∫ θ in -h..h, (A - (B * cos (θ + m) + C * sin (θ + m))) =
    2 * A * h - (B * (sin (m + h) - sin (m - h)) - C * (cos (m + h) - cos (m - h))) := by
  have hc : ∫ θ in -h..h, cos (θ + m) = sin (m + h) - sin (m - h) := by
    rw [intervalIntegral.integral_comp_add_right (fun x => cos x), integral_cos]
    congr 2 <;> ring
  have hs : ∫ θ in -h..h, sin (θ + m) = cos (m - h) - cos (m + h) := by
    rw [intervalIntegral.integral_comp_add_right (fun x => sin x), integral_sin]
    congr 2 <;> ring
  have ic : IntervalIntegrable (fun θ => B * cos (θ + m)) volume (-h) h := (by fun_prop : Continuous fun θ => B * cos (θ + m)).intervalIntegrable _ _
  have is : IntervalIntegrable (fun θ => C * sin (θ + m)) volume (-h) h := (by fun_prop : Continuous fun θ => C * sin (θ + m)).intervalIntegrable _ _
  rw [intervalIntegral.integral_sub (by simp) (ic.add is), intervalIntegral.integral_add ic is, intervalIntegral.integral_const_mul,
    intervalIntegral.integral_const_mul, hc, hs, intervalIntegral.integral_const, smul_eq_mul]
  ring

theorem integral_radial (A B r1 r2 : ℝ) : ∫ r in r1..r2, (r * A - r ^ 2 * B) = A * (r2 ^ 2 - r1 ^ 2) / 2 - B * (r2 ^ 3 - r1 ^ 3) / 3 := by
  have i1 : IntervalIntegrable (fun r : ℝ => r * A) volume r1 r2 := (by fun_prop : Continuous fun r : ℝ => r * A).intervalIntegrable _ _
  have i2 : IntervalIntegrable (fun r : ℝ => r ^ 2 * B) volume r1 r2 := (by fun_prop : Continuous fun r : ℝ => r ^ 2 * B).intervalIntegrable _ _
  rw [intervalIntegral.integral_sub i1 i2, intervalIntegral.integral_mul_const, intervalIntegral.integral_mul_const, integral_id, integral_pow]
  norm_num
  ring

/-- C123: the capacity of a cut tube whose planes do not cross over the tube is its volume. -/
theorem C123_capacity (hv : a.Valid) (ho : a.Ordered) :
    volume {q : Fin 3 → ℝ | a.Closed ⟨q 0, q 1, q 2⟩} = ENNReal.ofReal (capacity (of a)) := by
  have hset : {q : Fin 3 → ℝ | a.Closed ⟨q 0, q 1, q 2⟩} = {q : Fin 3 → ℝ | (a.rmin ^ 2 ≤ q 0 ^ 2 + q 1 ^ 2 ∧ q 0 ^ 2 + q 1 ^ 2 ≤ a.rmax ^ 2 ∧
      Sector a.s a.d (q 0) (q 1)) ∧ a.floor (q 0) (q 1) ≤ q 2 ∧ q 2 ≤ a.roof (q 0) (q 1)} := by
    ext q; exact closed_over hv _
  rw [hset, volume_over_ring hv.rmin hv.rmax.le hv.d hv.d' (by unfold Par.floor; fun_prop) (by unfold Par.roof; fun_prop)]
  set m := a.s + a.d / 2 with hm
  have inring : ∀ r ∈ Set.Ioc a.rmin a.rmax, ∀ θ ∈ Set.Icc (-(a.d / 2)) (a.d / 2), 0 ≤ a.roof (r * cos (θ + m)) (r * sin (θ + m)) - a.floor (r * cos (θ + m)) (r * sin (θ + m)) := by
    intro r hr θ hθ
    have hr0 : 0 ≤ r := hv.rmin.trans hr.1.le
    have e : (r * cos (θ + m)) ^ 2 + (r * sin (θ + m)) ^ 2 = r ^ 2 := by linear_combination r ^ 2 * sin_sq_add_cos_sq (θ + m)
    have := ho (r * cos (θ + m)) (r * sin (θ + m)) (by rw [e]; exact pow_le_pow_left₀ hv.rmin hr.1.le 2) (by rw [e]; exact pow_le_pow_left₀ hr0 hr.2 2)
      ⟨r, θ + a.d / 2, hr0, by linarith [hθ.1], by linarith [hθ.2], by rw [hm]; congr 2; ring, by rw [hm]; congr 2; ring⟩
    linarith
  have inner : ∀ r ∈ Set.Ioc a.rmin a.rmax, ∫⁻ θ in Set.Ioc (-(a.d / 2)) (a.d / 2), ENNReal.ofReal r *
      ENNReal.ofReal (a.roof (r * cos (θ + m)) (r * sin (θ + m)) - a.floor (r * cos (θ + m)) (r * sin (θ + m))) =
      ENNReal.ofReal (r * (2 * a.z * a.d) - r ^ 2 * (a.kx * (sin (a.s + a.d) - sin a.s) - a.ky * (cos (a.s + a.d) - cos a.s))) := by
    intro r hr
    have hr0 : 0 ≤ r := hv.rmin.trans hr.1.le
    have e1 : ∀ θ, ENNReal.ofReal r * ENNReal.ofReal (a.roof (r * cos (θ + m)) (r * sin (θ + m)) - a.floor (r * cos (θ + m)) (r * sin (θ + m))) =
        ENNReal.ofReal (2 * a.z * r - (a.kx * r ^ 2 * cos (θ + m) + a.ky * r ^ 2 * sin (θ + m))) := by
      intro θ
      rw [← ENNReal.ofReal_mul hr0, gap_eq]
      congr 1; ring
    simp_rw [e1]
    rw [← ofReal_integral_eq_lintegral_ofReal, ← intervalIntegral.integral_of_le (by linarith [hv.d]), integral_trig]
    · congr 1
      rw [show m + a.d / 2 = a.s + a.d by rw [hm]; ring, show m - a.d / 2 = a.s by rw [hm]; ring]
      ring
    · refine Continuous.integrableOn_Ioc ?_
      fun_prop
    · rw [Filter.EventuallyLE, ae_restrict_iff' measurableSet_Ioc]
      refine Filter.Eventually.of_forall fun θ hθ => ?_
      have := mul_nonneg hr0 (inring r hr θ ⟨hθ.1.le, hθ.2⟩)
      rw [gap_eq] at this
      show (0 : ℝ) ≤ _
      linarith
  rw [setLIntegral_congr_fun measurableSet_Ioc inner, ← ofReal_integral_eq_lintegral_ofReal, ← intervalIntegral.integral_of_le hv.rmax.le, integral_radial,
    capacity_eq hv]
  · congr 1; ring
  · refine Continuous.integrableOn_Ioc ?_
    fun_prop
  · rw [Filter.EventuallyLE, ae_restrict_iff' measurableSet_Ioc]
    refine Filter.Eventually.of_forall fun r hr => ?_
    show (0 : ℝ) ≤ _
    have hi := intervalIntegral.integral_nonneg (μ := volume) (a := -(a.d / 2)) (b := a.d / 2) (by linarith [hv.d])
      (f := fun θ => 2 * a.z * r - (a.kx * r ^ 2 * cos (θ + m) + a.ky * r ^ 2 * sin (θ + m))) (by
        intro θ hθ
        have := mul_nonneg (hv.rmin.trans hr.1.le) (inring r hr θ hθ)
        rw [gap_eq] at this
        linarith)
    rw [integral_trig, show m + a.d / 2 = a.s + a.d by rw [hm]; ring, show m - a.d / 2 = a.s by rw [hm]; ring] at hi
    linarith

theorem skew_ordered : skew.Ordered := by
  intro x y h1 h2 h3
  have h4 : x ^ 2 + y ^ 2 ≤ 4 := by simpa [skew] using h2.trans (by norm_num [skew] : skew.rmax ^ 2 ≤ 4)
  have hx := abs_le_of_sq_le_sq' (show x ^ 2 ≤ 2 ^ 2 by nlinarith [sq_nonneg y]) (by norm_num)
  have hy := abs_le_of_sq_le_sq' (show y ^ 2 ≤ 2 ^ 2 by nlinarith [sq_nonneg x]) (by norm_num)
  unfold Par.floor Par.roof
  simp only [skew]
  linarith

example : volume {q : Fin 3 → ℝ | skew.Closed ⟨q 0, q 1, q 2⟩} = ENNReal.ofReal (capacity (of skew)) := C123_capacity skew_valid skew_ordered

/-- A quarter of a tube whose planes meet inside it. -/
noncomputable def crossedQuarter : Par := ⟨0, 10, 1, 0, π / 2, ⟨0, 0, -1⟩, ⟨3, 0, 4⟩⟩

theorem crossedQuarter_valid : crossedQuarter.Valid := by
  have h := crossed_valid
  have hp := pi_pos
  exact ⟨h.rmin, h.rmax, h.z, by show 0 < π / 2; linarith, by show π / 2 ≤ 2 * π; linarith, h.nb, h.nt, h.cb, h.ct, h.fin⟩

/-- C123: for planes that cross, which the constructor accepts, the capacity is not the volume: it can be negative although the solid
has a positive volume. -/
theorem C123_crossed_counterexample : ∃ a : Par, a.Valid ∧ construct a.rmin a.rmax a.z a.s a.d a.nb a.nt = some (of a) ∧ capacity (of a) < 0 ∧
    0 < volume {q : Fin 3 → ℝ | a.Closed ⟨q 0, q 1, q 2⟩} := by
  have hp := pi_pos
  refine ⟨crossedQuarter, crossedQuarter_valid, ?_, ?_, ?_⟩
  · unfold construct
    rw [if_neg (by norm_num [crossedQuarter])]
    rfl
  · rw [capacity_eq crossedQuarter_valid]
    have := pi_le_four
    norm_num [crossedQuarter, Par.kx, Par.ky]
    linarith
  · have ho : IsOpen {q : Fin 3 → ℝ | (0 < q 0 ∧ q 0 < 1) ∧ (0 < q 1 ∧ q 1 < 1) ∧ (0 < q 2 ∧ q 2 < 1 / 10)} := by
      simp only [Set.setOf_and]
      refine IsOpen.inter (IsOpen.inter ?_ ?_) (IsOpen.inter (IsOpen.inter ?_ ?_) (IsOpen.inter ?_ ?_))
      · exact isOpen_lt continuous_const (continuous_apply _)
      · exact isOpen_lt (continuous_apply _) continuous_const
      · exact isOpen_lt continuous_const (continuous_apply _)
      · exact isOpen_lt (continuous_apply _) continuous_const
      · exact isOpen_lt continuous_const (continuous_apply _)
      · exact isOpen_lt (continuous_apply _) continuous_const
    refine lt_of_lt_of_le (ho.measure_pos volume ⟨![1 / 2, 1 / 2, 1 / 20], ?_⟩) (measure_mono ?_)
    · simp only [Set.mem_setOf_eq, Matrix.cons_val_zero, Matrix.cons_val_one, Matrix.cons_val]
      norm_num
    · rintro q ⟨⟨h1, h2⟩, ⟨h3, h4⟩, h5, h6⟩
      rw [Set.mem_setOf_eq, closed_over crossedQuarter_valid]
      simp only [crossedQuarter, Par.floor, Par.roof]
      refine ⟨⟨by nlinarith, by nlinarith, ?_⟩, by norm_num; linarith, by linarith⟩
      rw [sector_small (by linarith) (by linarith)]
      simp
      exact ⟨h3.le, h1.le⟩

/-- C123: the areas.  The walls are arcs times heights, the faces are radii times heights (none for a full turn), and the area of a
plane is that of the ring below it divided by the cosine of its slope; the surface is the sum. -/
theorem C123_areas (hv : a.Valid) :
    (∀ r, lateralArea (of a) r = ∫ φ in a.s..a.s + a.d, r * (a.roof (r * cos φ) (r * sin φ) - a.floor (r * cos φ) (r * sin φ))) ∧
    (∀ φ, a.d < 2 * π → phiArea (of a) φ = ∫ r in a.rmin..a.rmax, (a.roof (r * cos φ) (r * sin φ) - a.floor (r * cos φ) (r * sin φ))) ∧
    (∀ φ, a.d = 2 * π → phiArea (of a) φ = 0) ∧
    ENNReal.ofReal (topArea (of a) * (a.nt.z / len a.nt)) =
      volume {w : Fin 2 → ℝ | a.rmin ^ 2 ≤ w 0 ^ 2 + w 1 ^ 2 ∧ w 0 ^ 2 + w 1 ^ 2 ≤ a.rmax ^ 2 ∧ Sector a.s a.d (w 0) (w 1)} ∧
    ENNReal.ofReal (bottomArea (of a) * (-a.nb.z / len a.nb)) =
      volume {w : Fin 2 → ℝ | a.rmin ^ 2 ≤ w 0 ^ 2 + w 1 ^ 2 ∧ w 0 ^ 2 + w 1 ^ 2 ≤ a.rmax ^ 2 ∧ Sector a.s a.d (w 0) (w 1)} ∧
    0 < topArea (of a) ∧ 0 < bottomArea (of a) ∧
    surfaceArea (of a) = bottomArea (of a) + topArea (of a) + lateralArea (of a) a.rmin + lateralArea (of a) a.rmax + phiArea (of a) a.s + phiArea (of a) (a.s + a.d) := by
  obtain ⟨h1, h2, h3, h4⟩ := slopes hv
  have hlb := len_pos hv.nb'
  have hlt := len_pos hv.nt'
  have hsq : a.rmin ^ 2 < a.rmax ^ 2 := pow_lt_pow_left₀ hv.rmax hv.rmin (by norm_num)
  have er : (of a).tube.rmin = a.rmin := Tube.of_rmin (a := tb a) hv.rmin
  have eR : (of a).tube.rmax = a.rmax := rfl
  have ed : (of a).tube.dphi = a.d := rfl
  have ez : (of a).dz = a.z := rfl
  have e2 : (of a).tube.rmax2 - (of a).tube.rmin2 = a.rmax ^ 2 - a.rmin ^ 2 := by
    rw [of_tube, Tube.of_rmin2 (a := tb a) hv.rmin, show (Tube.of (tb a)).rmax2 = a.rmax * a.rmax from rfl, show (tb a).rmin = a.rmin from rfl]; ring
  have etop : topArea (of a) = (a.rmax ^ 2 - a.rmin ^ 2) / 2 * a.d * (len a.nt / a.nt.z) := by
    unfold topArea
    rw [e2, ed, of_p1 hv]
    simp only [V3.smul_z]
    have := hv.nt'
    field_simp
  have ebot : bottomArea (of a) = (a.rmax ^ 2 - a.rmin ^ 2) / 2 * a.d * (len a.nb / -a.nb.z) := by
    unfold bottomArea
    rw [e2, ed, of_p0 hv]
    simp only [V3.smul_z]
    have := hv.nb'
    field_simp
  have hnb : 0 < -a.nb.z := by linarith [hv.nb]
  have hring : 0 < (a.rmax ^ 2 - a.rmin ^ 2) / 2 * a.d := mul_pos (by linarith) hv.d
  refine ⟨fun r => ?_, fun φ hd => ?_, fun φ hd => ?_, ?_, ?_, ?_, ?_, ?_⟩
  · unfold lateralArea
    dsimp only
    rw [h1, h2, h3, h4, ez, ed, show (of a).sinPhi1 = sin a.s from rfl, show (of a).sinPhi2 = sin (a.s + a.d) from rfl, show (of a).cosPhi1 = cos a.s from rfl,
      show (of a).cosPhi2 = cos (a.s + a.d) from rfl]
    have e : ∀ φ, r * (a.roof (r * cos φ) (r * sin φ) - a.floor (r * cos φ) (r * sin φ)) = 2 * a.z * r - (a.kx * r ^ 2 * cos φ + a.ky * r ^ 2 * sin φ) := by
      intro φ; rw [gap_eq]; ring
    simp_rw [e]
    have hsh := intervalIntegral.integral_comp_add_right (a := -(a.d / 2)) (b := a.d / 2)
      (fun φ => 2 * a.z * r - (a.kx * r ^ 2 * cos φ + a.ky * r ^ 2 * sin φ)) (a.s + a.d / 2)
    rw [show -(a.d / 2) + (a.s + a.d / 2) = a.s by ring, show a.d / 2 + (a.s + a.d / 2) = a.s + a.d by ring] at hsh
    rw [← hsh, integral_trig, show a.s + a.d / 2 + a.d / 2 = a.s + a.d by ring, show a.s + a.d / 2 - a.d / 2 = a.s by ring]
    unfold Par.kx Par.ky
    ring
  · unfold phiArea
    rw [ed, if_neg hd.ne, er, eR, zTop_eq hv, zTop_eq hv, zBottom_eq hv, zBottom_eq hv]
    have e : ∀ r, a.roof (r * cos φ) (r * sin φ) - a.floor (r * cos φ) (r * sin φ) = 2 * a.z - r * (a.kx * cos φ + a.ky * sin φ) := by
      intro r; rw [gap_eq]; ring
    simp_rw [e]
    rw [intervalIntegral.integral_sub (by simp) ((by fun_prop : Continuous fun r : ℝ => r * (a.kx * cos φ + a.ky * sin φ)).intervalIntegrable _ _),
      intervalIntegral.integral_const, intervalIntegral.integral_mul_const, integral_id, smul_eq_mul]
    ring
  · unfold phiArea
    rw [ed, if_pos hd]
  · rw [area_ring hv.rmin hv.rmax.le hv.d hv.d', etop]
    congr 1
    have := hv.nt'
    field_simp
  · rw [area_ring hv.rmin hv.rmax.le hv.d hv.d', ebot]
    congr 1
    have := hv.nb'
    field_simp
  · rw [etop]; exact mul_pos hring (div_pos hlt hv.nt)
  · rw [ebot]; exact mul_pos hring (div_pos hlb hnb)
  · unfold surfaceArea
    rw [er, eR, show (of a).tube.sphi = a.s from rfl, ed]

end CutTube
end VecGeom

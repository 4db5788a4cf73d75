import Verif.CutTube.Volume
import Verif.Tube.PropsMore

/-!
# Box, sampled points, convexity, normals, setters and mesh of cut tubes
-/

namespace VecGeom
namespace CutTube

open Real

variable {a : Par}

/-! ## C124: the box -/

/-- A point of the ring, at the height 0. -/
theorem ring_tube (hv : a.Valid) (x y : ℝ) : (tb a).Closed ⟨x, y, 0⟩ ↔
    a.rmin ^ 2 ≤ x ^ 2 + y ^ 2 ∧ x ^ 2 + y ^ 2 ≤ a.rmax ^ 2 ∧ Sector a.s a.d x y := by
  have hm0 : 0 < a.rmax := hv.rmin.trans_lt hv.rmax
  constructor
  · rintro ⟨-, h1, h2, h3⟩
    exact ⟨(Tube.le_rad hv.rmin).mp h1, (Tube.rad_le hm0.le).mp h2, h3⟩
  · rintro ⟨h1, h2, h3⟩
    exact ⟨by simp only [abs_zero]; exact (tb_valid hv).z.le, (Tube.le_rad hv.rmin).mpr h1, (Tube.rad_le hm0.le).mpr h2, h3⟩

open Classical in
/-- What `Extent` takes for the largest value of `A + gx * x + gy * y`. -/
noncomputable def Par.sup (a : Par) (A gx gy k : ℝ) : ℝ :=
  if a.d = 2 * π then A + a.rmax * √(gx ^ 2 + gy ^ 2) else
    extentSide max (of a) (k * gx) (k * gy) (A + a.rmax * √(gx ^ 2 + gy ^ 2))
      (A + (gx * (a.rmax * cos a.s) + gy * (a.rmax * sin a.s))) (A + (gx * (a.rmax * cos (a.s + a.d)) + gy * (a.rmax * sin (a.s + a.d))))
      (A + (gx * (a.rmin * cos a.s) + gy * (a.rmin * sin a.s))) (A + (gx * (a.rmin * cos (a.s + a.d)) + gy * (a.rmin * sin (a.s + a.d))))

/-- It is the largest value over the ring. -/
theorem linear_greatest (hv : a.Valid) (A gx gy k : ℝ) (hk : 0 < k) :
    IsGreatest ((fun p : V3 => A + (gx * p.x + gy * p.y)) '' {p | (tb a).Closed p}) (a.sup A gx gy k) := by
  unfold Par.sup
  have hvt := tb_valid hv
  have hw : (of a).tube.wedge = Wedge.make a.d a.s := rfl
  have hc : ∀ x y, (of a).tube.wedge.contains ⟨k * x, k * y, 0⟩ = true ↔ Sector a.s a.d x y := by
    intro x y
    rw [hw, C76_contains hv.d hv.d']
    exact Tube.sector_scale hk
  rcases (sqrt_nonneg (gx ^ 2 + gy ^ 2)).lt_or_eq with hG | hG
  · set G := √(gx ^ 2 + gy ^ 2) with hGd
    have hG2 : G ^ 2 = gx ^ 2 + gy ^ 2 := sq_sqrt (by positivity)
    have he : (gx / G) ^ 2 + (gy / G) ^ 2 = 1 := by field_simp; linarith
    have ex : gx = G * (gx / G) := by field_simp
    have ey : gy = G * (gy / G) := by field_simp
    generalize gx / G = ex' at *
    generalize gy / G = ey' at *
    have ho : (!(of a).tube.wedge.contains ⟨k * gx, k * gy, 0⟩) = true ↔ ¬ Sector (tb a).s (tb a).d ex' ey' := by
      rw [Bool.not_eq_true', ← Bool.not_eq_true, hc, ex, ey]
      show ¬ Sector a.s a.d (G * ex') (G * ey') ↔ ¬ Sector a.s a.d ex' ey'
      rw [Tube.sector_scale hG]
    have hg := Tube.side_greatest hvt he ho
    have hmono : ∀ {v : ℝ}, IsGreatest ((fun p : V3 => p.x * ex' + p.y * ey') '' {p | (tb a).Closed p}) v →
        IsGreatest ((fun p : V3 => A + (gx * p.x + gy * p.y)) '' {p | (tb a).Closed p}) (A + G * v) := by
      rintro v ⟨⟨p, hp, hpv⟩, hub⟩
      simp only at hpv
      constructor
      · exact ⟨p, hp, by simp only; rw [← hpv, ex, ey]; ring⟩
      · rintro _ ⟨q, hq, rfl⟩
        have := hub ⟨q, hq, rfl⟩
        simp only at this ⊢
        have h2 := mul_le_mul_of_nonneg_left this hG.le
        have e : gx * q.x + gy * q.y = G * (q.x * ex' + q.y * ey') := by rw [ex, ey]; ring
        rw [e]; linarith
    convert hmono hg using 1
    have er : (tb a).rmin = a.rmin := rfl
    have eR : (tb a).rmax = a.rmax := rfl
    have es : (tb a).s = a.s := rfl
    have ed : (tb a).d = a.d := rfl
    have cor : ∀ r t, A + (gx * (r * cos t) + gy * (r * sin t)) = A + G * (r * (cos t * ex' + sin t * ey')) := by
      intro r t; rw [ex, ey]; ring
    have mm : ∀ u v, max (A + G * u) (A + G * v) = A + G * max u v := by
      intro u v; rw [max_add_add_left, mul_max_of_nonneg _ _ hG.le]
    rw [er, eR, es, ed, cor, cor, cor, cor]
    unfold Tube.extentSide extentSide
    rw [Tube.of_dphi, ed]
    by_cases hd : a.d = 2 * π
    · rw [if_pos hd, if_pos hd]; ring
    · rw [if_neg hd, if_neg hd]
      dsimp only
      by_cases hin : Sector a.s a.d gx gy
      · have hin' := (hc gx gy).mpr hin
        rw [if_pos hin', hin']
        simp only [Bool.not_true, Bool.false_eq_true, if_false]
        -- the corners do not exceed the full value
        have hle : ∀ r t, 0 ≤ r → r ≤ a.rmax → r * (cos t * ex' + sin t * ey') ≤ a.rmax := by
          intro r t h0 h1
          have h2 : cos t * ex' + sin t * ey' ≤ 1 := by
            have := sin_sq_add_cos_sq t
            nlinarith [sq_nonneg (cos t - ex'), sq_nonneg (sin t - ey')]
          nlinarith
        rw [max_eq_right (a := max _ _) (max_le (hle _ _ hv.rmin hv.rmax.le) (hle _ _ hv.rmin hv.rmax.le)), ite_self]
        ring
      · have hin' : (of a).tube.wedge.contains ⟨k * gx, k * gy, 0⟩ = false := by
          rw [← Bool.not_eq_true, hc]; exact hin
        have hin2 : ¬ ((of a).tube.wedge.contains ⟨k * gx, k * gy, 0⟩ = true) := by rw [hin']; simp
        rw [if_neg hin2, hin']
        simp only [Bool.not_false, if_true]
        rw [mm, mm, mm]
        congr 2
        split
        · rename_i hpi
          -- wide openings: the inner corners do not matter
          have hub := hg.2
          unfold Tube.extentSide at hub
          rw [Tube.of_dphi, ed, if_neg hd, hin'] at hub
          simp only [Bool.not_false, if_true] at hub
          rw [if_pos hpi, eR, es] at hub
          have c1 := hub ⟨_, Tube.closed_mk hvt (le_refl _) hvt.rmax.le (le_refl _) hvt.d.le, rfl⟩
          have c2 := hub ⟨_, Tube.closed_mk hvt (le_refl _) hvt.rmax.le hvt.d.le (le_refl _), rfl⟩
          simp only [er, es, ed, add_zero] at c1 c2
          have c1' : a.rmin * (cos a.s * ex' + sin a.s * ey') ≤
            max (a.rmax * (cos a.s * ex' + sin a.s * ey')) (a.rmax * (cos (a.s + a.d) * ex' + sin (a.s + a.d) * ey')) := by linarith
          have c2' : a.rmin * (cos (a.s + a.d) * ex' + sin (a.s + a.d) * ey') ≤
            max (a.rmax * (cos a.s * ex' + sin a.s * ey')) (a.rmax * (cos (a.s + a.d) * ex' + sin (a.s + a.d) * ey')) := by linarith
          rw [max_eq_left c1', max_eq_left c2']
        · rw [max_assoc, max_comm]
  · have h0 : gx = 0 ∧ gy = 0 := by
      have := (sqrt_eq_zero (by positivity)).mp hG.symm
      constructor <;> nlinarith [sq_nonneg gx, sq_nonneg gy]
    obtain ⟨rfl, rfl⟩ := h0
    have e : (if a.d = 2 * π then A + a.rmax * √((0 : ℝ) ^ 2 + 0 ^ 2) else
        extentSide max (of a) (k * 0) (k * 0) (A + a.rmax * √((0 : ℝ) ^ 2 + 0 ^ 2))
          (A + (0 * (a.rmax * cos a.s) + 0 * (a.rmax * sin a.s))) (A + (0 * (a.rmax * cos (a.s + a.d)) + 0 * (a.rmax * sin (a.s + a.d))))
          (A + (0 * (a.rmin * cos a.s) + 0 * (a.rmin * sin a.s))) (A + (0 * (a.rmin * cos (a.s + a.d)) + 0 * (a.rmin * sin (a.s + a.d))))) = A := by
      unfold extentSide
      simp
    rw [e]
    constructor
    · exact ⟨_, Tube.closed_mk hvt (le_refl _) hvt.rmax.le (le_refl _) hvt.d.le, by simp⟩
    · rintro _ ⟨p, -, rfl⟩
      simp

theorem extentSide_neg (t : Struct) (x y f c1 c2 c3 c4 : ℝ) :
    extentSide min t x y (-f) (-c1) (-c2) (-c3) (-c4) = -extentSide max t x y f c1 c2 c3 c4 := by
  unfold extentSide
  split
  · rfl
  · rw [min_neg_neg, min_neg_neg, min_neg_neg]

theorem slope_sqrt {n : V3} (h : 0 < n.z) : √(1 - n.z / len n * (n.z / len n)) / (n.z / len n) = √((-(n.x / n.z)) ^ 2 + (-(n.y / n.z)) ^ 2) := by
  have hl := len_pos h.ne'
  have h2 : len n ^ 2 = n.x ^ 2 + n.y ^ 2 + n.z ^ 2 := sq_sqrt (by positivity)
  have hd : 0 < n.z / len n := div_pos h hl
  have e1 : (-(n.x / n.z)) ^ 2 + (-(n.y / n.z)) ^ 2 = (1 - n.z / len n * (n.z / len n)) / (n.z / len n) ^ 2 := by
    field_simp
    linarith
  rw [e1, sqrt_div' _ (sq_nonneg _), sqrt_sq hd.le]

/-- The extreme of a coordinate of the solid from that of a linear function over the ring. -/
theorem side_up {f : V3 → ℝ} {A gx gy v : ℝ} (hv : a.Valid)
    (hg : IsGreatest ((fun p : V3 => A + (gx * p.x + gy * p.y)) '' {p | (tb a).Closed p}) v)
    (hle : ∀ p, a.Closed p → f p ≤ A + (gx * p.x + gy * p.y))
    (hat : ∀ x y, a.floor x y ≤ a.roof x y → ∃ z, a.floor x y ≤ z ∧ z ≤ a.roof x y ∧ f ⟨x, y, z⟩ = A + (gx * x + gy * y)) :
    (∀ p, a.Closed p → f p ≤ v) ∧ (a.Ordered → IsGreatest (f '' {p | a.Closed p}) v) := by
  have up : ∀ p, a.Closed p → f p ≤ v := by
    intro p hp
    have h1 := ((closed_over hv p).mp hp).1
    have := hg.2 ⟨⟨p.x, p.y, 0⟩, (ring_tube hv p.x p.y).mpr h1, rfl⟩
    exact (hle p hp).trans this
  refine ⟨up, fun ho => ⟨?_, ?_⟩⟩
  · obtain ⟨⟨q, hq, hqv⟩, -⟩ := hg
    have hm0 : 0 < a.rmax := hv.rmin.trans_lt hv.rmax
    have h1 : a.rmin ^ 2 ≤ q.x ^ 2 + q.y ^ 2 := (Tube.le_rad hv.rmin).mp hq.lo
    have h2 : q.x ^ 2 + q.y ^ 2 ≤ a.rmax ^ 2 := (Tube.rad_le hm0.le).mp hq.hi
    obtain ⟨z, hz1, hz2, hz⟩ := hat q.x q.y (ho _ _ h1 h2 hq.phi)
    exact ⟨⟨q.x, q.y, z⟩, (closed_over hv _).mpr ⟨⟨h1, h2, hq.phi⟩, hz1, hz2⟩, by rw [hz]; exact hqv⟩
  · rintro _ ⟨p, hp, rfl⟩
    exact up p hp

theorem neg_least {f : V3 → ℝ} {S : Set V3} {v : ℝ} (h : IsGreatest ((fun p => -f p) '' S) v) : IsLeast (f '' S) (-v) := by
  obtain ⟨⟨p, hp, hpv⟩, hub⟩ := h
  simp only at hpv
  refine ⟨⟨p, hp, by linarith⟩, ?_⟩
  rintro _ ⟨q, hq, rfl⟩
  have := hub ⟨q, hq, rfl⟩
  simp only at this
  linarith

open Classical in
/-- C124: `Extent` returns a box that contains the solid; if the planes do not cross inside the tube it is the smallest one: every
side is the extreme coordinate of a point of the solid. -/
theorem C124_extent (hv : a.Valid) :
    (∀ p, a.Closed p → ((extent (of a)).1.x ≤ p.x ∧ p.x ≤ (extent (of a)).2.x) ∧ ((extent (of a)).1.y ≤ p.y ∧ p.y ≤ (extent (of a)).2.y) ∧
      (extent (of a)).1.z ≤ p.z ∧ p.z ≤ (extent (of a)).2.z) ∧
    (a.Ordered → IsLeast (V3.x '' {p | a.Closed p}) (extent (of a)).1.x ∧ IsGreatest (V3.x '' {p | a.Closed p}) (extent (of a)).2.x ∧
      IsLeast (V3.y '' {p | a.Closed p}) (extent (of a)).1.y ∧ IsGreatest (V3.y '' {p | a.Closed p}) (extent (of a)).2.y ∧
      IsLeast (V3.z '' {p | a.Closed p}) (extent (of a)).1.z ∧ IsGreatest (V3.z '' {p | a.Closed p}) (extent (of a)).2.z) := by
  have hlb := len_pos hv.nb'
  have hlt := len_pos hv.nt'
  have er : (of a).tube.rmin = a.rmin := Tube.of_rmin (a := tb a) hv.rmin
  have eR : (of a).tube.rmax = a.rmax := rfl
  have ed : (of a).tube.dphi = a.d := rfl
  have es : (of a).tube.sphi = a.s := rfl
  have ez : (of a).dz = a.z := rfl
  have ec1 : (of a).cosPhi1 = cos a.s := rfl
  have ec2 : (of a).cosPhi2 = cos (a.s + a.d) := rfl
  have es1 : (of a).sinPhi1 = sin a.s := rfl
  have es2 : (of a).sinPhi2 = sin (a.s + a.d) := rfl
  have hx := side_up (f := fun p => p.x) hv (linear_greatest hv 0 1 0 1 one_pos) (fun p _ => by linarith) (fun x y h => ⟨_, h, le_refl _, by simp⟩)
  have hy := side_up (f := fun p => p.y) hv (linear_greatest hv 0 0 1 1 one_pos) (fun p _ => by linarith) (fun x y h => ⟨_, h, le_refl _, by simp⟩)
  have hx' := side_up (f := fun p => -p.x) hv (linear_greatest hv 0 (-1) 0 1 one_pos) (fun p _ => by linarith) (fun x y h => ⟨_, h, le_refl _, by simp⟩)
  have hy' := side_up (f := fun p => -p.y) hv (linear_greatest hv 0 0 (-1) 1 one_pos) (fun p _ => by linarith) (fun x y h => ⟨_, h, le_refl _, by simp⟩)
  have ft : ∀ x y, a.roof x y = a.z + (-(a.nt.x / a.nt.z) * x + -(a.nt.y / a.nt.z) * y) := by intro x y; unfold Par.roof; ring
  have fb : ∀ x y, -a.floor x y = a.z + (a.nb.x / a.nb.z * x + a.nb.y / a.nb.z * y) := by intro x y; unfold Par.floor; ring
  have hz := side_up (f := fun p => p.z) hv (linear_greatest hv a.z (-(a.nt.x / a.nt.z)) (-(a.nt.y / a.nt.z)) (a.nt.z / len a.nt) (div_pos hv.nt hlt))
    (fun p hp => by rw [← ft]; exact ((closed_over hv p).mp hp).2.2) (fun x y h => ⟨_, h, le_refl _, ft x y⟩)
  have hz' := side_up (f := fun p => -p.z) hv (linear_greatest hv a.z (a.nb.x / a.nb.z) (a.nb.y / a.nb.z) (-a.nb.z / len a.nb) (div_pos (by linarith [hv.nb]) hlb))
    (fun p hp => by rw [← fb]; linarith [((closed_over hv p).mp hp).2.1]) (fun x y h => ⟨_, le_refl _, h, fb x y⟩)
  have hnb : 0 < -a.nb.z := by linarith [hv.nb]
  have gb : √(1 - a.nb.z / len a.nb * (a.nb.z / len a.nb)) / (-(a.nb.z / len a.nb)) = √((a.nb.x / a.nb.z) ^ 2 + (a.nb.y / a.nb.z) ^ 2) := by
    have := slope_sqrt (n := ⟨-a.nb.x, -a.nb.y, -a.nb.z⟩) hnb
    have el : len ⟨-a.nb.x, -a.nb.y, -a.nb.z⟩ = len a.nb := by unfold len; simp
    rw [el] at this
    simp only at this
    rw [show -a.nb.z / len a.nb * (-a.nb.z / len a.nb) = a.nb.z / len a.nb * (a.nb.z / len a.nb) by ring, neg_div (len a.nb) a.nb.z, neg_div_neg_eq, neg_div_neg_eq, neg_sq, neg_sq] at this
    exact this
  have gt := slope_sqrt hv.nt
  have p1 := of_p1 hv
  have p0 := of_p0 hv
  -- the six sides
  have X2 : (extent (of a)).2.x = a.sup 0 1 0 1 := by
    unfold extent Par.sup
    rw [ed, er, eR, ec1, ec2]
    by_cases hd : a.d = 2 * π
    · simp [hd]
    · simp [hd]
  have Y2 : (extent (of a)).2.y = a.sup 0 0 1 1 := by
    unfold extent Par.sup
    rw [ed, er, eR, es1, es2]
    by_cases hd : a.d = 2 * π
    · simp [hd]
    · simp [hd]
  have X1 : (extent (of a)).1.x = -a.sup 0 (-1) 0 1 := by
    unfold extent Par.sup
    rw [ed, er, eR, ec1, ec2]
    by_cases hd : a.d = 2 * π
    · simp [hd]
    · simp only [if_neg hd]
      rw [← extentSide_neg]
      simp
  have Y1 : (extent (of a)).1.y = -a.sup 0 0 (-1) 1 := by
    unfold extent Par.sup
    rw [ed, er, eR, es1, es2]
    by_cases hd : a.d = 2 * π
    · simp [hd]
    · simp only [if_neg hd]
      rw [← extentSide_neg]
      simp
  have Z2 : (extent (of a)).2.z = a.sup a.z (-(a.nt.x / a.nt.z)) (-(a.nt.y / a.nt.z)) (a.nt.z / len a.nt) := by
    have ex : a.nt.z / len a.nt * -(a.nt.x / a.nt.z) = -(1 / len a.nt * a.nt.x) := by have := hv.nt'; field_simp
    have ey : a.nt.z / len a.nt * -(a.nt.y / a.nt.z) = -(1 / len a.nt * a.nt.y) := by have := hv.nt'; field_simp
    have ef : a.rmax * √(1 - 1 / len a.nt * a.nt.z * (1 / len a.nt * a.nt.z)) / (1 / len a.nt * a.nt.z) = a.rmax * √((-(a.nt.x / a.nt.z)) ^ 2 + (-(a.nt.y / a.nt.z)) ^ 2) := by
      rw [← gt, mul_div_assoc, show 1 / len a.nt * a.nt.z = a.nt.z / len a.nt by ring]
    unfold extent Par.sup
    simp only [ed, er, eR, ez, es, zTop_eq hv, ft]
    rw [p1]
    simp only [V3.smul_x, V3.smul_y, V3.smul_z]
    rw [ex, ey, ef]
    by_cases hd : a.d = 2 * π
    · simp only [if_pos hd]
    · simp only [if_neg hd]
  have Z1 : (extent (of a)).1.z = -a.sup a.z (a.nb.x / a.nb.z) (a.nb.y / a.nb.z) (-a.nb.z / len a.nb) := by
    have ex : -a.nb.z / len a.nb * (a.nb.x / a.nb.z) = -(1 / len a.nb * a.nb.x) := by have := hv.nb'; field_simp
    have ey : -a.nb.z / len a.nb * (a.nb.y / a.nb.z) = -(1 / len a.nb * a.nb.y) := by have := hv.nb'; field_simp
    have ef : -a.rmax * √(1 - 1 / len a.nb * a.nb.z * (1 / len a.nb * a.nb.z)) / (1 / len a.nb * a.nb.z) = a.rmax * √((a.nb.x / a.nb.z) ^ 2 + (a.nb.y / a.nb.z) ^ 2) := by
      rw [← gb, show 1 / len a.nb * a.nb.z = a.nb.z / len a.nb by ring, div_neg]; ring
    have ff : ∀ x y, a.floor x y = -(a.z + (a.nb.x / a.nb.z * x + a.nb.y / a.nb.z * y)) := by intro x y; rw [← fb]; ring
    unfold extent Par.sup
    simp only [ed, er, eR, ez, es, zBottom_eq hv, ff]
    rw [p0]
    simp only [V3.smul_x, V3.smul_y, V3.smul_z]
    rw [ex, ey, ef]
    by_cases hd : a.d = 2 * π
    · simp only [if_pos hd]; ring
    · simp only [if_neg hd]
      rw [← extentSide_neg]
      congr 1
      ring
  rw [X1, X2, Y1, Y2, Z1, Z2]
  refine ⟨fun p hp => ⟨⟨?_, hx.1 p hp⟩, ⟨?_, hy.1 p hp⟩, ?_, hz.1 p hp⟩, fun ho => ⟨neg_least (hx'.2 ho), hx.2 ho, neg_least (hy'.2 ho), hy.2 ho, neg_least (hz'.2 ho), hz.2 ho⟩⟩
  · have := hx'.1 p hp; linarith
  · have := hy'.1 p hp; linarith
  · have := hz'.1 p hp; linarith

example : (extent (of skew)).2.z = 5 := by
  have hp := pi_pos
  refine ((C124_extent skew_valid).2 skew_ordered).2.2.2.2.2.unique ⟨⟨⟨0, 2, 5⟩, ?_, rfl⟩, ?_⟩
  · rw [Set.mem_setOf_eq, closed_over skew_valid]
    simp only [Par.floor, Par.roof, skew]
    refine ⟨⟨by norm_num, by norm_num, ?_⟩, by norm_num, by norm_num⟩
    rw [sector_small (by linarith) (by linarith)]
    simp
  · rintro _ ⟨p, hq, rfl⟩
    obtain ⟨⟨-, -, h1⟩, -, h2⟩ := (closed_over skew_valid p).mp hq
    rw [show skew.s = 0 from rfl, show skew.d = π / 2 from rfl, sector_small (by linarith) (by linarith)] at h1
    simp at h1
    simp only [Par.roof, skew] at h2
    linarith [h1.2]

/-! ## C125: sampled points -/

/-- The point is in the solid and on one of its bounding surfaces. -/
structure OnSurface (a : Par) (q : V3) : Prop where
  closed : a.Closed q
  on : a.bottom q = 0 ∨ a.top q = 0 ∨ Tube.rad q = a.rmax ∨ (0 < a.rmin ∧ Tube.rad q = a.rmin) ∨
    (a.d < 2 * π ∧ (AboveRay a.s 0 q.x q.y ∨ AboveRay (a.s + a.d) 0 q.x q.y))

theorem bottom_zero (hv : a.Valid) (x y : ℝ) : a.bottom ⟨x, y, a.floor x y⟩ = 0 := by
  unfold Par.bottom Par.floor
  have := hv.nb'
  have := len_pos hv.nb'
  field_simp
  ring
theorem top_zero (hv : a.Valid) (x y : ℝ) : a.top ⟨x, y, a.roof x y⟩ = 0 := by
  unfold Par.top Par.roof
  have := hv.nt'
  have := len_pos hv.nt'
  field_simp
  ring

theorem ordered_at (hv : a.Valid) (ho : a.Ordered) {r t : ℝ} (h1 : a.rmin ≤ r) (h2 : r ≤ a.rmax) (h3 : 0 ≤ t) (h4 : t ≤ a.d) :
    a.floor (r * cos (a.s + t)) (r * sin (a.s + t)) ≤ a.roof (r * cos (a.s + t)) (r * sin (a.s + t)) := by
  have hr := hv.rmin.trans h1
  have e : (r * cos (a.s + t)) ^ 2 + (r * sin (a.s + t)) ^ 2 = r ^ 2 := by linear_combination r ^ 2 * sin_sq_add_cos_sq (a.s + t)
  exact ho _ _ (by rw [e]; exact pow_le_pow_left₀ hv.rmin h1 2) (by rw [e]; exact pow_le_pow_left₀ hr h2 2) ⟨r, t, hr, h3, h4, rfl, rfl⟩

theorem closed_at (hv : a.Valid) {r t z : ℝ} (h1 : a.rmin ≤ r) (h2 : r ≤ a.rmax) (h3 : 0 ≤ t) (h4 : t ≤ a.d)
    (h5 : a.floor (r * cos (a.s + t)) (r * sin (a.s + t)) ≤ z) (h6 : z ≤ a.roof (r * cos (a.s + t)) (r * sin (a.s + t))) :
    a.Closed ⟨r * cos (a.s + t), r * sin (a.s + t), z⟩ := by
  have hr := hv.rmin.trans h1
  have e : (r * cos (a.s + t)) ^ 2 + (r * sin (a.s + t)) ^ 2 = r ^ 2 := by linear_combination r ^ 2 * sin_sq_add_cos_sq (a.s + t)
  exact (closed_over hv _).mpr ⟨⟨by rw [e]; exact pow_le_pow_left₀ hv.rmin h1 2, by rw [e]; exact pow_le_pow_left₀ hr h2 2, r, t, hr, h3, h4, rfl, rfl⟩, h5, h6⟩

/-- The areas are not negative if the planes do not cross. -/
theorem areas_nonneg (hv : a.Valid) (ho : a.Ordered) :
    (∀ r, a.rmin ≤ r → r ≤ a.rmax → 0 ≤ lateralArea (of a) r) ∧ (∀ t, 0 ≤ t → t ≤ a.d → 0 ≤ phiArea (of a) (a.s + t)) := by
  obtain ⟨h1, -, -, -, -, -, -, -⟩ := C123_areas hv
  constructor
  · intro r hr hR
    rw [h1]
    refine intervalIntegral.integral_nonneg (by linarith [hv.d]) (fun φ hφ => ?_)
    have := ordered_at hv ho hr hR (t := φ - a.s) (by linarith [hφ.1]) (by linarith [hφ.2])
    rw [show a.s + (φ - a.s) = φ by ring] at this
    exact mul_nonneg (hv.rmin.trans hr) (by linarith)
  · intro t h3 h4
    have g1 := ordered_at hv ho (le_refl _) hv.rmax.le h3 h4
    have g2 := ordered_at hv ho hv.rmax.le (le_refl _) h3 h4
    unfold phiArea
    rw [zTop_eq hv, zTop_eq hv, zBottom_eq hv, zBottom_eq hv, show (of a).tube.rmin = a.rmin from Tube.of_rmin (a := tb a) hv.rmin, show (of a).tube.rmax = a.rmax from rfl]
    split
    · exact le_refl _
    · have := hv.rmax
      exact mul_nonneg (by linarith) (by linarith)

theorem areas_eq (hv : a.Valid) : areas (of a) = [bottomArea (of a), topArea (of a), lateralArea (of a) a.rmax, lateralArea (of a) a.rmin,
    phiArea (of a) a.s, phiArea (of a) (a.s + a.d)] := by
  unfold areas
  rw [show (of a).tube.rmin = a.rmin from Tube.of_rmin (a := tb a) hv.rmin]
  rfl

/-- C125: if the planes do not cross in the tube, `SamplePointOnSurface` ends, reads no area behind the array and returns a point of
the surface, whatever random numbers are drawn. -/
theorem C125_sample (hv : a.Valid) (ho : a.Ordered) {u0 u1 u2 u3 : ℝ} (h0 : 0 ≤ u0 ∧ u0 ≤ 1) (h1 : 0 ≤ u1 ∧ u1 ≤ 1) (h2 : 0 ≤ u2 ∧ u2 ≤ 1)
    (h3 : 0 ≤ u3 ∧ u3 ≤ 1) :
    ∃ q, samplePointOnSurface (of a) u0 u1 u2 u3 = some q ∧ OnSurface a q := by
  have hm0 : 0 < a.rmax := hv.rmin.trans_lt hv.rmax
  obtain ⟨-, -, hfull, -, -, ht, hb, -⟩ := C123_areas hv
  obtain ⟨n1, n2⟩ := areas_nonneg hv ho
  have hsum : 0 < (areas (of a)).sum := by
    rw [areas_eq hv]
    simp only [List.sum_cons, List.sum_nil]
    have := n1 a.rmax hv.rmax.le (le_refl _)
    have := n1 a.rmin (le_refl _) hv.rmax.le
    have := n2 0 (le_refl _) hv.d.le
    have := n2 a.d hv.d.le (le_refl _)
    rw [add_zero] at *
    linarith
  obtain ⟨i, hi, s, hs, hs0⟩ : ∃ i, Tube.chooseLoop (areas (of a)) (u0 * (areas (of a)).sum) 0 = some i ∧ ∃ s, (areas (of a))[i]? = some s ∧ 0 < s := by
    rcases (mul_nonneg h0.1 hsum.le).lt_or_eq with h | h
    · obtain ⟨k, hk, hs⟩ := Tube.chooseLoop_some (areas (of a)) _ 0 h (by nlinarith [h0.2])
      rw [Nat.zero_add] at hk
      exact ⟨k, hk, hs⟩
    · rw [← h]
      refine ⟨0, ?_, _, by rw [areas_eq hv]; rfl, hb⟩
      rw [areas_eq hv]
      unfold Tube.chooseLoop
      rw [if_neg (by linarith)]
  unfold samplePointOnSurface
  rw [hi]
  have er : (of a).tube.rmin = a.rmin := Tube.of_rmin (a := tb a) hv.rmin
  have eR : (of a).tube.rmax = a.rmax := rfl
  have es : (of a).tube.sphi = a.s := rfl
  have ed : (of a).tube.dphi = a.d := rfl
  simp only [er, eR, es, ed, zTop_eq hv, zBottom_eq hv]
  have hr := Tube.uniform_mem hv.rmax.le h1.1 h1.2
  obtain ⟨t, ht0, ht1, het⟩ : ∃ t, 0 ≤ t ∧ t ≤ a.d ∧ Tube.uniform a.s (a.s + a.d) u2 = a.s + t := by
    refine ⟨a.d * u2, mul_nonneg hv.d.le h2.1, by nlinarith [hv.d, h2.2], by unfold Tube.uniform; ring⟩
  rw [het]
  generalize Tube.uniform a.rmin a.rmax u1 = rv at *
  have hrad : ∀ r φ z, 0 ≤ r → Tube.rad ⟨r * cos φ, r * sin φ, z⟩ = r := by
    intro r φ z hr
    unfold Tube.rad
    simp only
    rw [show (r * cos φ) ^ 2 + (r * sin φ) ^ 2 = r ^ 2 * (sin φ ^ 2 + cos φ ^ 2) by ring, sin_sq_add_cos_sq, mul_one, sqrt_sq hr]
  have mk : ∀ r τ, a.rmin ≤ r → r ≤ a.rmax → 0 ≤ τ → τ ≤ a.d →
      a.Closed ⟨r * cos (a.s + τ), r * sin (a.s + τ), Tube.uniform (a.floor (r * cos (a.s + τ)) (r * sin (a.s + τ))) (a.roof (r * cos (a.s + τ)) (r * sin (a.s + τ))) u3⟩ := by
    intro r τ g1 g2 g3 g4
    have := Tube.uniform_mem (ordered_at hv ho g1 g2 g3 g4) h3.1 h3.2
    exact closed_at hv g1 g2 g3 g4 this.1 this.2
  have hphi : ∀ φ, 0 < phiArea (of a) φ → a.d < 2 * π := by
    intro φ h
    refine lt_of_le_of_ne hv.d' (fun hc => ?_)
    rw [hfull φ hc] at h
    exact lt_irrefl _ h
  have zero := mk rv 0 hr.1 hr.2 (le_refl _) hv.d.le
  rw [add_zero] at zero
  rw [areas_eq hv] at hs
  match i, hs with
  | 0, hs => exact ⟨_, rfl, closed_at hv hr.1 hr.2 ht0 ht1 (le_refl _) (ordered_at hv ho hr.1 hr.2 ht0 ht1), .inl (bottom_zero hv _ _)⟩
  | 1, hs => exact ⟨_, rfl, closed_at hv hr.1 hr.2 ht0 ht1 (ordered_at hv ho hr.1 hr.2 ht0 ht1) (le_refl _), .inr (.inl (top_zero hv _ _))⟩
  | 2, hs => exact ⟨_, rfl, mk a.rmax t hv.rmax.le (le_refl _) ht0 ht1, .inr (.inr (.inl (hrad _ _ _ hm0.le)))⟩
  | 3, hs =>
    simp only [List.getElem?_cons_succ, List.getElem?_cons_zero, Option.some.injEq] at hs
    have hrm : 0 < a.rmin := by
      rcases hv.rmin.lt_or_eq with h | h
      · exact h
      · rw [← h] at hs; unfold lateralArea at hs; simp at hs; linarith
    exact ⟨_, rfl, mk a.rmin t (le_refl _) hv.rmax.le ht0 ht1, .inr (.inr (.inr (.inl ⟨hrm, hrad _ _ _ hv.rmin⟩)))⟩
  | 4, hs =>
    simp only [List.getElem?_cons_succ, List.getElem?_cons_zero, Option.some.injEq] at hs
    exact ⟨_, rfl, zero, .inr (.inr (.inr (.inr ⟨hphi _ (by rw [hs]; exact hs0), .inl ⟨rv, hv.rmin.trans hr.1, by ring, by ring⟩⟩)))⟩
  | 5, hs =>
    simp only [List.getElem?_cons_succ, List.getElem?_cons_zero, Option.some.injEq] at hs
    exact ⟨_, rfl, mk rv a.d hr.1 hr.2 hv.d.le (le_refl _), .inr (.inr (.inr (.inr ⟨hphi _ (by rw [hs]; exact hs0), .inr ⟨rv, hv.rmin.trans hr.1, by ring, by ring⟩⟩)))⟩
  | n + 6, hs => simp at hs

example : ∃ q, samplePointOnSurface (of skew) (1 / 2) (1 / 2) (1 / 2) (1 / 2) = some q ∧ OnSurface skew q :=
  C125_sample skew_valid skew_ordered (by norm_num) (by norm_num) (by norm_num) (by norm_num)

/-! ## Convexity -/

/-- C125: cut tubes with the convexity flag are convex; if the planes do not cross in the tube, the others are not. -/
theorem C125_convex (hv : a.Valid) :
    (detectConvexity (of a) = true → ∀ p q, a.Closed p → a.Closed q → ∀ t, 0 ≤ t → t ≤ 1 → a.Closed (Tube.between p q t)) ∧
    (a.Ordered → (∀ p q, a.Closed p → a.Closed q → ∀ t, 0 ≤ t → t ≤ 1 → a.Closed (Tube.between p q t)) → detectConvexity (of a) = true) := by
  have hvt := tb_valid hv
  have flag : detectConvexity (of a) = Tube.detectConvexity (Tube.of (tb a)) := rfl
  have lin : ∀ (A B C : ℝ) (p q : V3) t, A * (Tube.between p q t).x + B * (Tube.between p q t).y + C =
      (1 - t) * (A * p.x + B * p.y + C) + t * (A * q.x + B * q.y + C) := by
    intro A B C p q t; simp only [Tube.between]; ring
  have fb : ∀ p q t, a.floor (Tube.between p q t).x (Tube.between p q t).y = (1 - t) * a.floor p.x p.y + t * a.floor q.x q.y := by
    intro p q t; simp only [Tube.between, Par.floor]; ring
  have fr : ∀ p q t, a.roof (Tube.between p q t).x (Tube.between p q t).y = (1 - t) * a.roof p.x p.y + t * a.roof q.x q.y := by
    intro p q t; simp only [Tube.between, Par.roof]; ring
  rw [flag, Tube.C81_convex hvt]
  constructor
  · intro h p q hp hq t ht0 ht1
    obtain ⟨hp1, hp2, hp3⟩ := (closed_over hv p).mp hp
    obtain ⟨hq1, hq2, hq3⟩ := (closed_over hv q).mp hq
    have h1 := h _ _ ((ring_tube hv _ _).mpr hp1) ((ring_tube hv _ _).mpr hq1) t ht0 ht1
    have e : Tube.between ⟨p.x, p.y, 0⟩ ⟨q.x, q.y, 0⟩ t = ⟨(Tube.between p q t).x, (Tube.between p q t).y, 0⟩ := by
      simp [Tube.between]
    rw [e, ring_tube hv] at h1
    rw [closed_over hv]
    refine ⟨h1, ?_, ?_⟩
    · rw [fb]
      have e : (Tube.between p q t).z = (1 - t) * p.z + t * q.z := by simp only [Tube.between]; ring
      rw [e]
      exact add_le_add (mul_le_mul_of_nonneg_left hp2 (by linarith)) (mul_le_mul_of_nonneg_left hq2 ht0)
    · rw [fr]
      have e : (Tube.between p q t).z = (1 - t) * p.z + t * q.z := by simp only [Tube.between]; ring
      rw [e]
      exact add_le_add (mul_le_mul_of_nonneg_left hp3 (by linarith)) (mul_le_mul_of_nonneg_left hq3 ht0)
  · intro ho h p q hp hq t ht0 ht1
    have flat : ∀ p, (tb a).Closed p → (tb a).Closed ⟨p.x, p.y, 0⟩ := by
      rintro p ⟨-, g1, g2, g3⟩
      exact ⟨by simp only [abs_zero]; exact hvt.z.le, g1, g2, g3⟩
    have hp1 := (ring_tube hv _ _).mp (flat p hp)
    have hq1 := (ring_tube hv _ _).mp (flat q hq)
    have cp : a.Closed ⟨p.x, p.y, a.floor p.x p.y⟩ := (closed_over hv _).mpr ⟨hp1, le_refl _, ho _ _ hp1.1 hp1.2.1 hp1.2.2⟩
    have cq : a.Closed ⟨q.x, q.y, a.floor q.x q.y⟩ := (closed_over hv _).mpr ⟨hq1, le_refl _, ho _ _ hq1.1 hq1.2.1 hq1.2.2⟩
    have h1 := ((closed_over hv _).mp (h _ _ cp cq t ht0 ht1)).1
    have h2 := (ring_tube hv _ _).mpr h1
    refine ⟨?_, h2.lo, h2.hi, h2.phi⟩
    have g1 := abs_le.mp hp.z
    have g2 := abs_le.mp hq.z
    simp only [Tube.between, abs_le]
    constructor <;> nlinarith

example : detectConvexity (of crossed) = true := by
  unfold detectConvexity
  rw [decide_eq_true_eq]
  exact ⟨Tube.of_rmin (a := tb crossed) (le_refl _), .inr rfl⟩

/-! ## Normals -/

theorem safety_cut (hv : a.Valid) (p : V3) : (of a).cuts.safetyToOut p = min (-a.bottom p) (-a.top p) := by
  unfold Cuts.safetyToOut
  rw [dist_p0 hv, dist_p1 hv]

/-- C125: on the top plane above `z = 0` and on the bottom plane below it, the normal is the unit normal of the plane, reported as
valid; on the outer wall away from the planes it is what a tube without lids gives.  Missing: points of the top plane below `z = 0`
and of the bottom plane from `z = 0` on (the answer is wrong, see below), the bore and the faces. -/
theorem C125_normal_partial (hv : a.Valid) {p : V3} (hc : a.Closed p) (norm : V3) :
    (a.top p = 0 → 0 ≤ p.z → normal (of a) p norm = some (true, V3.smul (1 / len a.nt) a.nt)) ∧
    (a.bottom p = 0 → p.z < 0 → normal (of a) p norm = some (true, V3.smul (1 / len a.nb) a.nb)) ∧
    (Tube.rad p = a.rmax → a.top p < 0 → a.bottom p < 0 → normal (of a) p norm = Tube.normal (Tube.of (tb a)) p norm) := by
  have hm0 : 0 < a.rmax := hv.rmin.trans_lt hv.rmax
  have hneg : ∀ x : ℝ, ¬ |x| < 0 := fun x => not_lt.mpr (abs_nonneg x)
  refine ⟨fun h hz => ?_, fun h hz => ?_, fun h h1 h2 => ?_⟩
  · unfold normal
    have : (of a).cuts.safetyToOut p = 0 := by
      rw [safety_cut hv, h, neg_zero]; exact min_eq_right (by linarith [hc.bot])
    rw [this]
    dsimp only
    rw [abs_zero, if_neg (hneg _), if_neg (not_lt.mpr hz), of_p1 hv]
  · unfold normal
    have : (of a).cuts.safetyToOut p = 0 := by
      rw [safety_cut hv, h, neg_zero]; exact min_eq_left (by linarith [hc.top])
    rw [this]
    dsimp only
    rw [abs_zero, if_neg (hneg _), if_pos hz, of_p0 hv]
  · obtain ⟨s1, s2, -⟩ := Tube.C78_safety_out (tb_valid hv) (tb_fits a) p
    have hp := hc.tube hv
    have hs0 := s2 hp
    have hs : Tube.safetyToOut Tube.universal (Tube.of (tb a)) p = 0 := by
      refine le_antisymm ?_ hs0
      refine le_of_forall_pos_le_add (fun ε hε => ?_)
      have hk : 0 < ε / a.rmax := div_pos hε hm0
      have hq : ¬ (tb a).Closed ⟨(1 + ε / a.rmax) * p.x, (1 + ε / a.rmax) * p.y, p.z⟩ := by
        intro hcl
        have := (Tube.rad_le hm0.le).mp hcl.hi
        simp only at this
        have h3 : p.x ^ 2 + p.y ^ 2 = a.rmax ^ 2 := by
          rw [← h]; unfold Tube.rad; rw [sq_sqrt (by positivity)]
        have e : ((1 + ε / a.rmax) * p.x) ^ 2 + ((1 + ε / a.rmax) * p.y) ^ 2 = (1 + ε / a.rmax) ^ 2 * a.rmax ^ 2 := by rw [← h3]; ring
        rw [e] at this
        have h5 : 0 < a.rmax ^ 2 := by positivity
        have h6 : 1 < (1 + ε / a.rmax) ^ 2 := by nlinarith
        have h7 := mul_lt_mul_of_pos_right h6 h5
        linarith
      have := s1 _ hq
      have hd : V3.dist p ⟨(1 + ε / a.rmax) * p.x, (1 + ε / a.rmax) * p.y, p.z⟩ = ε := by
        have h3 : p.x ^ 2 + p.y ^ 2 = a.rmax ^ 2 := by
          rw [← h]; unfold Tube.rad; rw [sq_sqrt (by positivity)]
        have e : V3.dist2 p ⟨(1 + ε / a.rmax) * p.x, (1 + ε / a.rmax) * p.y, p.z⟩ = ε ^ 2 := by
          unfold V3.dist2
          simp only
          have : ε ^ 2 = (ε / a.rmax) ^ 2 * a.rmax ^ 2 := by field_simp
          rw [this, ← h3]
          ring
        unfold V3.dist
        rw [e, sqrt_sq hε.le]
      rw [hd] at this
      linarith
    unfold normal
    rw [safety_cut hv, of_tube, hs]
    dsimp only
    rw [abs_zero, if_pos (abs_pos.mpr (ne_of_gt (lt_min (by linarith) (by linarith))))]

example : normal (of skew) ⟨1, 1, 17 / 4⟩ ⟨0, 0, 0⟩ = some (true, V3.smul (1 / len skew.nt) skew.nt) := by
  have hp := pi_pos
  refine (C125_normal_partial skew_valid ?_ _).1 ?_ (by norm_num)
  · rw [closed_over skew_valid]
    simp only [Par.floor, Par.roof, skew]
    refine ⟨⟨by norm_num, by norm_num, ?_⟩, by norm_num, by norm_num⟩
    rw [sector_small (by linarith) (by linarith)]
    simp
  · rw [skew_top]; norm_num

/-- A tube between two parallel tilted planes. -/
noncomputable def slant : Par := ⟨0, 10, 1, 0, 2 * π, ⟨-3, 0, -4⟩, ⟨3, 0, 4⟩⟩

theorem slant_valid : slant.Valid := by
  have h := crossed_valid
  refine ⟨h.rmin, h.rmax, h.z, h.d, h.d', by norm_num [slant], h.nt, ?_, h.ct, h.fin⟩
  have hm := kMinimum_lt
  intro c hc
  rcases hc with hc | hc | hc
  · right; rw [hc]; norm_num [kTolerance, slant]; linarith
  · exact .inl hc
  · right; rw [hc]; norm_num [kTolerance, slant]; linarith

/-- C125: at a point of the top plane below `z = 0` the normal is that of the bottom plane, which points into the solid, and it is
reported as valid. -/
theorem C125_normal_counterexample : slant.Valid ∧ slant.Closed ⟨4, 0, -2⟩ ∧ slant.top ⟨4, 0, -2⟩ = 0 ∧
    normal (of slant) ⟨4, 0, -2⟩ ⟨0, 0, 0⟩ = some (true, ⟨-3 / 5, 0, -4 / 5⟩) ∧ slant.Closed ⟨4 - 3 / 5, 0, -2 - 4 / 5⟩ ∧
    slant.top ⟨4 - 3 / 5, 0, -2 - 4 / 5⟩ < 0 := by
  have hl : len slant.nt = 5 := skew_len.2
  have hlb : len slant.nb = 5 := by
    unfold len slant
    rw [show ((-3 : ℝ) ^ 2 + 0 ^ 2 + (-4) ^ 2) = 5 ^ 2 by norm_num]
    exact sqrt_sq (by norm_num)
  have top : ∀ p, slant.top p = (3 * p.x + 4 * (p.z - 1)) / 5 := by
    intro p; unfold Par.top; rw [hl]; simp only [slant]; ring
  have cl : ∀ x z, 0 ≤ x → x ≤ 10 → -4 ≤ 3 * x + 4 * z → 3 * x + 4 * z ≤ 4 → slant.Closed ⟨x, 0, z⟩ := by
    intro x z h0 h1 h2 h3
    rw [closed_over slant_valid]
    simp only [Par.floor, Par.roof, slant]
    refine ⟨⟨by nlinarith, by nlinarith, sector_full _ _ _⟩, by linarith, by linarith⟩
  refine ⟨slant_valid, cl _ _ (by norm_num) (by norm_num) (by norm_num) (by norm_num), by rw [top]; norm_num, ?_,
    cl _ _ (by norm_num) (by norm_num) (by norm_num) (by norm_num), by rw [top]; norm_num⟩
  have ht : slant.top ⟨4, 0, -2⟩ = 0 := by rw [top]; norm_num
  unfold normal
  have hc := cl 4 (-2) (by norm_num) (by norm_num) (by norm_num) (by norm_num)
  have : (of slant).cuts.safetyToOut ⟨4, 0, -2⟩ = 0 := by
    rw [safety_cut slant_valid, ht, neg_zero]; exact min_eq_right (by linarith [hc.bot])
  rw [this]
  dsimp only
  rw [abs_zero, if_neg (not_lt.mpr (abs_nonneg _)), if_pos (by norm_num), of_p0 slant_valid, hlb]
  simp only [V3.smul, slant]
  norm_num

/-! ## Setters and mesh -/

/-- C125: `SetRMin` leaves the cut tube as the constructor makes it from the new value, `SetRMax` all but the size that decides when
a point is far away. -/
theorem C125_setters (hv : a.Valid) {x : ℝ} :
    (0 ≤ x → setRMin (of a) x = of { a with rmin := x }) ∧ setRMax (of a) x = { of { a with rmax := x } with maxVal := (of a).maxVal } := by
  obtain ⟨h1, h2, -⟩ := Tube.C83_setters (tb_valid hv) (x := x)
  constructor
  · intro h
    unfold setRMin
    rw [of_tube, h1 h]
    rfl
  · unfold setRMax
    rw [of_tube, h2]
    rfl

/-- C125: `SetDz` changes neither what `z()` returns nor the planes nor the capacity, but makes `Contains` reject what is beyond the new half length. -/
theorem C125_dz_counterexample :
    (setDz (of skew) 1).dz = 5 ∧ (setDz (of skew) 1).cuts = (of skew).cuts ∧ capacity (setDz (of skew) 1) = capacity (of skew) ∧
    contains (of skew) ⟨1, 1, 2⟩ = true ∧ contains (setDz (of skew) 1) ⟨1, 1, 2⟩ = false := by
  refine ⟨rfl, rfl, rfl, ?_, ?_⟩
  · rw [C119_contains skew_valid]
    have h := skew_in
    exact ⟨h.lo, h.hi, h.phi, by rw [skew_bottom]; norm_num, by rw [skew_top]; norm_num⟩
  · have ht : Tube.contains Tube.universal (setDz (of skew) 1).tube ⟨1, 1, 2⟩ = false := by
      have e : (setDz (of skew) 1).tube = Tube.of { tb skew with z := 1 } := (Tube.C83_setters (tb_valid skew_valid)).2.2
      have hvt := tb_valid skew_valid
      have hv1 : ({ tb skew with z := 1 } : Tube.Par).Valid := ⟨hvt.rmin, hvt.rmax, one_pos, hvt.d, hvt.d'⟩
      rw [e, ← Bool.not_eq_true, Tube.C77_contains hv1 (tb_fits _)]
      intro h
      have := h.z
      norm_num at this
    unfold contains
    rw [ht]
    simp

/-- C125: `SetSPhi` leaves the sines and cosines that `Capacity` uses: the capacity is not that of the tube with the new angle. -/
theorem C125_sphi_counterexample :
    (setSPhi (of skew) (π / 2)).tube.sphi = π / 2 ∧ (setSPhi (of skew) (π / 2)).tube.dphi = π / 2 ∧
    capacity (setSPhi (of skew) (π / 2)) < capacity (of { skew with s := π / 2 }) := by
  have hp := pi_pos
  have hfl : Tube.fmodTwoPi (π / 2) = π / 2 := by
    unfold Tube.fmodTwoPi
    have : ⌊π / 2 / (2 * π)⌋ = 0 := by
      rw [Int.floor_eq_zero_iff]
      constructor
      · positivity
      · rw [div_lt_one (by positivity)]; linarith
    rw [this]; simp
  have e : setSPhi (of skew) (π / 2) = { of skew with tube := Tube.updatedAlong2 (Tube.updatedAlong1 { (of skew).tube with sphi := π / 2 }) } := by
    unfold setSPhi Tube.setSPhi
    rw [if_neg (by linarith), hfl]
    dsimp only
    rw [if_neg]
    show ¬ π / 2 + π / 2 > 2 * π
    linarith
  refine ⟨by rw [e]; rfl, by rw [e]; rfl, ?_⟩
  have e1 : capacity (setSPhi (of skew) (π / 2)) = capacity (of skew) := by rw [e]; rfl
  have hv2 : ({ skew with s := π / 2 } : Par).Valid := by
    have h := skew_valid
    exact ⟨h.rmin, h.rmax, h.z, h.d, h.d', h.nb, h.nt, h.cb, h.ct, h.fin⟩
  rw [e1, capacity_eq skew_valid, capacity_eq hv2]
  simp only [skew, Par.kx, Par.ky]
  rw [show π / 2 + π / 2 = π by ring]
  norm_num

/-- C125: the vertices of the mesh are on the cut planes only for planes that are not tilted. -/
theorem C125_mesh (hv : a.Valid) (r φ : ℝ) :
    (a.top (meshVertex (of a) true r φ) = 0 ↔ a.nt.x = 0 ∧ a.nt.y = 0) ∧
    (a.bottom (meshVertex (of a) false r φ) = 0 ↔ a.nb.x = 0 ∧ a.nb.y = 0) := by
  have hlb := len_pos hv.nb'
  have hlt := len_pos hv.nt'
  have hlb2 : len a.nb ^ 2 = a.nb.x ^ 2 + a.nb.y ^ 2 + a.nb.z ^ 2 := sq_sqrt (by positivity)
  have hlt2 : len a.nt ^ 2 = a.nt.x ^ 2 + a.nt.y ^ 2 + a.nt.z ^ 2 := sq_sqrt (by positivity)
  have hz := hv.z
  constructor
  · have e : a.top (meshVertex (of a) true r φ) = a.z * (1 - a.nt.z / len a.nt) := by
      unfold Par.top meshVertex
      simp only [if_true, of_p1 hv, V3.smul_x, V3.smul_y, V3.smul_z, show (of a).dz = a.z from rfl]
      have := hv.nt'
      field_simp
      ring
    rw [e, mul_eq_zero, or_iff_right hz.ne', sub_eq_zero, eq_comm, div_eq_one_iff_eq hlt.ne']
    constructor
    · intro h
      have h2 : len a.nt ^ 2 = a.nt.z ^ 2 := by rw [h]
      constructor <;> nlinarith [sq_nonneg a.nt.x, sq_nonneg a.nt.y]
    · rintro ⟨h1, h2⟩
      rw [h1, h2] at hlt2
      nlinarith [hv.nt]
  · have e : a.bottom (meshVertex (of a) false r φ) = a.z * (1 + a.nb.z / len a.nb) := by
      unfold Par.bottom meshVertex
      simp only [Bool.false_eq_true, if_false, of_p0 hv, V3.smul_x, V3.smul_y, V3.smul_z, show (of a).dz = a.z from rfl]
      have := hv.nb'
      field_simp
      ring
    rw [e, mul_eq_zero, or_iff_right hz.ne']
    constructor
    · intro h
      have h1 : a.nb.z = -len a.nb := by field_simp at h; linarith
      have h2 : len a.nb ^ 2 = a.nb.z ^ 2 := by rw [h1]; ring
      constructor <;> nlinarith [sq_nonneg a.nb.x, sq_nonneg a.nb.y]
    · rintro ⟨h1, h2⟩
      rw [h1, h2] at hlb2
      have : len a.nb = -a.nb.z := by nlinarith [hv.nb]
      rw [this]
      have := hv.nb'
      field_simp
      ring

example : skew.top (meshVertex (of skew) true 1 0) ≠ 0 := by
  rw [Ne, (C125_mesh skew_valid 1 0).1]
  norm_num [skew]

end CutTube
end VecGeom

import Verif.Tube.Model
import Verif.Tube.Spec
import Verif.Wedge.Lemmas

/-!
# Lemmas on tubes
-/

namespace VecGeom
namespace Tube

open Real

/-- The object for given parameters. -/
noncomputable def of (a : Par) : Struct := make a.rmin a.rmax a.z a.s a.d

/-- A tube type agrees with the parameters. -/
def Fits (ty : TType) (a : Par) : Prop :=
  (ty.solid = true → a.rmin = 0) ∧
  (ty.angle = .none → a.d = 2 * π) ∧ (ty.angle = .smaller → a.d < π) ∧ (ty.angle = .pi → a.d = π) ∧
  (ty.angle = .bigger → π < a.d ∧ a.d < 2 * π)

theorem rad_nonneg (p : V3) : 0 ≤ rad p := sqrt_nonneg _
theorem rad_sq (p : V3) : rad p ^ 2 = p.x ^ 2 + p.y ^ 2 := sq_sqrt (by positivity)
theorem rad_eq (p : V3) : √(p.x * p.x + p.y * p.y) = rad p := by unfold rad; congr 1; ring
theorem rad_sq' (p : V3) : p.x * p.x + p.y * p.y = rad p ^ 2 := by rw [rad_sq]; ring

theorem rad_le {p : V3} {r : ℝ} (hr : 0 ≤ r) : rad p ≤ r ↔ p.x ^ 2 + p.y ^ 2 ≤ r ^ 2 := by
  unfold rad; rw [sqrt_le_left hr]
theorem le_rad {p : V3} {r : ℝ} (hr : 0 ≤ r) : r ≤ rad p ↔ r ^ 2 ≤ p.x ^ 2 + p.y ^ 2 := by
  unfold rad; rw [le_sqrt hr]; positivity
theorem lt_rad {p : V3} {r : ℝ} (hr : 0 ≤ r) : r < rad p ↔ r ^ 2 < p.x ^ 2 + p.y ^ 2 := by
  unfold rad; rw [lt_sqrt hr]

section fields
variable {a : Par}

theorem of_rmin (h : 0 ≤ a.rmin) : (of a).rmin = a.rmin := by
  simp [of, make, calculateCached, updatedZ, updatedRMin, updatedRMax, updatedAlong1, updatedAlong2, not_lt.mpr h]
theorem of_rmin2 (h : 0 ≤ a.rmin) : (of a).rmin2 = a.rmin * a.rmin := by
  simp [of, make, calculateCached, updatedZ, updatedRMin, updatedRMax, updatedAlong1, updatedAlong2, not_lt.mpr h]
theorem of_tolOrmin2 (h : 0 ≤ a.rmin) : (of a).tolOrmin2 = (a.rmin - kHalfTolerance) * (a.rmin - kHalfTolerance) := by
  simp [of, make, calculateCached, updatedZ, updatedRMin, updatedRMax, updatedAlong1, updatedAlong2, not_lt.mpr h]
theorem of_tolIrmin2 (h : 0 ≤ a.rmin) : (of a).tolIrmin2 = (a.rmin + kHalfTolerance) * (a.rmin + kHalfTolerance) := by
  simp [of, make, calculateCached, updatedZ, updatedRMin, updatedRMax, updatedAlong1, updatedAlong2, not_lt.mpr h]
@[simp] theorem of_rmax : (of a).rmax = a.rmax := rfl
@[simp] theorem of_rmax2 : (of a).rmax2 = a.rmax * a.rmax := rfl
@[simp] theorem of_tolOrmax2 : (of a).tolOrmax2 = (a.rmax + kHalfTolerance) * (a.rmax + kHalfTolerance) := rfl
@[simp] theorem of_tolIrmax2 : (of a).tolIrmax2 = (a.rmax - kHalfTolerance) * (a.rmax - kHalfTolerance) := rfl
@[simp] theorem of_z : (of a).z = a.z := rfl
@[simp] theorem of_tolOz : (of a).tolOz = a.z + kHalfTolerance := rfl
@[simp] theorem of_sphi : (of a).sphi = a.s := rfl
@[simp] theorem of_dphi : (of a).dphi = a.d := rfl
@[simp] theorem of_a1x : (of a).a1x = cos a.s := rfl
@[simp] theorem of_a1y : (of a).a1y = sin a.s := rfl
@[simp] theorem of_a2x : (of a).a2x = cos (a.s + a.d) := rfl
@[simp] theorem of_a2y : (of a).a2y = sin (a.s + a.d) := rfl
@[simp] theorem of_maxVal : (of a).maxVal = max a.rmax a.z := rfl
@[simp] theorem of_wedge : (of a).wedge = Wedge.make a.d a.s := rfl

end fields

/-- The heights over the two phi planes, positive towards the sector. -/
noncomputable def S1 (a : Par) (x y : ℝ) : ℝ := -x * sin a.s + y * cos a.s
noncomputable def S2 (a : Par) (x y : ℝ) : ℝ := -cos (a.s + a.d) * y + sin (a.s + a.d) * x

theorem start_of (a : Par) (x y : ℝ) : startCheck (of a) x y = S1 a x y := rfl
theorem end_of (a : Par) (x y : ℝ) : endCheck (of a) x y = S2 a x y := rfl

variable {a : Par} {ty : TType}

theorem rminT_iff (hv : a.Valid) (hf : Fits ty a) : RminT ty (of a) ↔ 0 < a.rmin := by
  unfold RminT
  rw [of_rmin hv.rmin]
  constructor
  · exact fun h => h.2
  · intro h
    refine ⟨?_, h⟩
    by_contra hc
    rw [Bool.not_eq_false] at hc
    exact h.ne' (hf.1 hc)

theorem phiT_of_lt (hf : Fits ty a) (h : a.d < 2 * π) : PhiT ty (of a) := by
  unfold PhiT
  cases he : ty.angle <;> simp only
  · exact h.ne (hf.2.1 he)
  · exact h

theorem not_phiT (hv : a.Valid) (h : ¬ PhiT ty (of a)) (hf : Fits ty a) : a.d = 2 * π := by
  by_contra hc
  exact h (phiT_of_lt hf (lt_of_le_of_ne hv.d' hc))

theorem phiT_iff (hf : Fits ty a) : PhiT ty (of a) ↔ a.d < 2 * π := by
  have := pi_pos
  constructor
  · intro h
    unfold PhiT at h
    cases he : ty.angle <;> rw [he] at h <;> simp only at h
    · linarith [hf.2.2.1 he]
    · linarith [hf.2.2.2.1 he]
    · exact (hf.2.2.2.2 he).2
    · exact h
  · exact phiT_of_lt hf

theorem smaller_iff (hf : Fits ty a) (hp : PhiT ty (of a)) : SmallerThanPi ty (of a) ↔ a.d ≤ π := by
  unfold SmallerThanPi
  unfold PhiT at hp
  cases he : ty.angle <;> rw [he] at hp <;> simp only
  · exact hp.elim
  · exact ⟨fun _ => (hf.2.2.1 he).le, fun _ => trivial⟩
  · exact ⟨fun _ => (hf.2.2.2.1 he).le, fun _ => trivial⟩
  · exact ⟨fun h => h.elim, fun h => absurd (hf.2.2.2.2 he).1 (not_lt.mpr h)⟩
  · exact Iff.rfl

theorem inSector_iff (hf : Fits ty a) (hp : PhiT ty (of a)) (i : Bool) (x y : ℝ) : InSector ty (of a) i x y ↔
    (a.d ≤ π ∧ (if i then -kHalfTolerance else kHalfTolerance) ≤ S1 a x y ∧ (if i then -kHalfTolerance else kHalfTolerance) ≤ S2 a x y) ∨
    (π < a.d ∧ ((if i then -kHalfTolerance else kHalfTolerance) ≤ S1 a x y ∨ (if i then -kHalfTolerance else kHalfTolerance) ≤ S2 a x y)) := by
  unfold InSector
  rw [smaller_iff hf hp, not_le, start_of, end_of]

/-- For an opening of `pi` the two heights agree. -/
theorem S2_pi (h : a.d = π) (x y : ℝ) : S2 a x y = S1 a x y := by
  unfold S1 S2
  rw [h, sin_add_pi, cos_add_pi]
  ring

theorem sector_iff (hv : a.Valid) (x y : ℝ) : Sector a.s a.d x y ↔
    (a.d ≤ π ∧ 0 ≤ S1 a x y ∧ 0 ≤ S2 a x y) ∨ (π < a.d ∧ (0 ≤ S1 a x y ∨ 0 ≤ S2 a x y)) := by
  rcases lt_trichotomy a.d π with h | h | h
  · rw [sector_small hv.d h]
    simp only [h.le, true_and, not_lt.mpr h.le, false_and, or_false, S1, S2]
  · rw [sector_big h.ge hv.d']
    simp only [h.le, true_and, h.not_gt, false_and, or_false]
    rw [S2_pi h, and_self]
    have := S2_pi h x y
    unfold S1 S2 at *
    rw [this, or_self]
  · rw [sector_big h.le hv.d']
    simp only [not_le.mpr h, false_and, h, true_and, false_or, S1, S2]

theorem sector_of_not_phiT (hv : a.Valid) (hf : Fits ty a) (h : ¬ PhiT ty (of a)) (x y : ℝ) : Sector a.s a.d x y := by
  rw [not_phiT hv h hf]
  exact sector_full _ _ _

theorem S1_sub_le (p q : V3) : |S1 a p.x p.y - S1 a q.x q.y| ≤ V3.dist p q := start_le_dist a.s p q
theorem S2_sub_le (p q : V3) : |S2 a p.x p.y - S2 a q.x q.y| ≤ V3.dist p q := end_le_dist (a.s + a.d) p q

theorem rad_sub_le (p q : V3) : rad p - rad q ≤ V3.dist p q := by
  have hp := rad_nonneg p
  have hq := rad_nonneg q
  have h1 := rad_sq p
  have h2 := rad_sq q
  rcases le_total (rad p) (rad q) with h | h
  · exact (sub_nonpos.mpr h).trans (V3.dist_nonneg' p q)
  · apply le_sqrt_of_sq_le
    unfold V3.dist2
    have hc : (p.x * q.x + p.y * q.y) ≤ rad p * rad q := by
      apply le_of_sq_le_sq _ (mul_nonneg hp hq)
      rw [mul_pow, h1, h2]
      nlinarith [sq_nonneg (p.x * q.y - p.y * q.x)]
    nlinarith [sq_nonneg (p.z - q.z)]

theorem abs_rad_sub_le (p q : V3) : |rad p - rad q| ≤ V3.dist p q := by
  rw [abs_le]
  have := rad_sub_le p q
  have h2 := rad_sub_le q p
  rw [V3.dist_comm'] at h2
  constructor <;> linarith

end Tube
end VecGeom

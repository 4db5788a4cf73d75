import Verif.Paraboloid.Model
import Verif.Paraboloid.Spec
import Mathlib.Tactic.FieldSimp
import Mathlib.Tactic.LinearCombination
import Mathlib.Tactic.Positivity

/-!
# Lemmas about paraboloids
-/

namespace VecGeom
namespace Paraboloid

open Real

/-- The cached values belong to the parameters. -/
structure Good (s : State) (a : Par) : Prop where
  rlo : s.rlo = a.rlo
  rhi : s.rhi = a.rhi
  dz : s.dz = a.dz
  dx : s.dx = a.rhi
  dy : s.dy = a.rhi
  fA : s.fA = a.curv
  invA : s.invA = 1 / a.curv
  fB : s.fB = -(a.rlo ^ 2 * a.curv) - a.dz
  k1 : s.k1 = 1 / a.curv
  k2 : s.k2 = a.rlo ^ 2 + a.dz / a.curv
  rlo2 : s.rlo2 = a.rlo ^ 2
  rhi2 : s.rhi2 = a.rhi ^ 2

theorem sq_lt {a : Par} (hv : a.Valid) : 0 < a.rhi ^ 2 - a.rlo ^ 2 := by
  have h1 := hv.rlo
  have h2 := hv.lt
  nlinarith

theorem curv_pos {a : Par} (hv : a.Valid) : 0 < a.curv := by
  have := sq_lt hv
  have := hv.dz
  unfold Par.curv
  positivity

theorem r2_eq {a : Par} (hv : a.Valid) (z : ℝ) : a.r2 z = a.rlo ^ 2 + (z + a.dz) / a.curv := by
  have h1 := (sq_lt hv).ne'
  have h2 := hv.dz.ne'
  unfold Par.r2 Par.curv
  field_simp

theorem curv_r2 {a : Par} (hv : a.Valid) (z : ℝ) : a.curv * a.r2 z = a.curv * a.rlo ^ 2 + (z + a.dz) := by
  have h := (curv_pos hv).ne'
  rw [r2_eq hv]
  field_simp

theorem rhi2_eq {a : Par} (hv : a.Valid) : a.curv * a.rhi ^ 2 = a.curv * a.rlo ^ 2 + 2 * a.dz := by
  have h1 := (sq_lt hv).ne'
  unfold Par.curv
  field_simp
  ring

theorem r2_top {a : Par} (hv : a.Valid) : a.r2 a.dz = a.rhi ^ 2 := by
  have h2 := hv.dz.ne'
  unfold Par.r2
  field_simp
  ring

theorem r2_bot (a : Par) : a.r2 (-a.dz) = a.rlo ^ 2 := by
  unfold Par.r2
  simp

theorem r2_mono {a : Par} (hv : a.Valid) {z z' : ℝ} (h : z ≤ z') : a.r2 z ≤ a.r2 z' := by
  have h1 := curv_pos hv
  rw [r2_eq hv, r2_eq hv]
  have : (z + a.dz) / a.curv ≤ (z' + a.dz) / a.curv := by gcongr
  linarith

theorem good_cached {a : Par} (hv : a.Valid) {s : State} (h1 : s.rlo = a.rlo) (h2 : s.rhi = a.rhi) (h3 : s.dz = a.dz) :
    Good (calculateCached s) a := by
  have hd := (sq_lt hv).ne'
  have hz := hv.dz.ne'
  have hlt := hv.lt.le
  have e : a.rhi * a.rhi - a.rlo * a.rlo = a.rhi ^ 2 - a.rlo ^ 2 := by ring
  refine ⟨h1, h2, h3, ?_, ?_, ?_, ?_, ?_, ?_, ?_, ?_, ?_⟩
  · simp only [calculateCached, h1, h2]; exact max_eq_left hlt
  · simp only [calculateCached, h1, h2]; exact max_eq_left hlt
  · simp only [calculateCached, h1, h2, h3, e, Par.curv]; field_simp
  · simp only [calculateCached, h1, h2, h3, e, Par.curv]; field_simp
  · simp only [calculateCached, h1, h2, h3, e, Par.curv]; field_simp; ring
  · simp only [calculateCached, h1, h2, h3, e, Par.curv]; field_simp
  · simp only [calculateCached, h1, h2, h3, e, Par.curv]; field_simp; ring
  · simp only [calculateCached, h1]; ring
  · simp only [calculateCached, h2]; ring

theorem good_rest {a : Par} {s : State} (h : Good s a) : Good (calcSurfaceArea (calcCapacity s)) a :=
  ⟨h.rlo, h.rhi, h.dz, h.dx, h.dy, h.fA, h.invA, h.fB, h.k1, h.k2, h.rlo2, h.rhi2⟩

theorem good_create {a : Par} (hv : a.Valid) (m : State) : Good (create m a.rlo a.rhi a.dz) a :=
  good_rest (good_cached hv rfl rfl rfl)

variable {a : Par} {s : State}

theorem perp2_eq (p : V3) : perp2 p = p.x ^ 2 + p.y ^ 2 := by unfold perp2; ring

theorem perp2_nonneg (p : V3) : 0 ≤ perp2 p := by rw [perp2_eq]; positivity

theorem diff_eq (hv : a.Valid) (g : Good s a) (p : V3) : diff s p = perp2 p - a.r2 p.z := by
  have h := (curv_pos hv).ne'
  unfold diff
  rw [g.k1, g.k2, r2_eq hv]
  field_simp
  ring

theorem value_eq (hv : a.Valid) (g : Good s a) (p : V3) : value s p = a.curv * (perp2 p - a.r2 p.z) := by
  have h := (curv_pos hv).ne'
  unfold value
  rw [g.fA, g.fB, r2_eq hv]
  field_simp
  ring

theorem qc_eq (p : V3) : qc s p = value s p := by unfold qc value; ring

theorem r0sq_eq (hv : a.Valid) (g : Good s a) (z : ℝ) : (z - s.fB) * s.invA = a.r2 z := by
  have h := (curv_pos hv).ne'
  rw [g.fB, g.invA, r2_eq hv]
  field_simp
  ring

theorem closed_iff (p : V3) : a.Closed p ↔ |p.z| ≤ a.dz ∧ perp2 p ≤ a.r2 p.z := by
  rw [abs_le, perp2_eq]
  exact ⟨fun h => ⟨⟨h.lo, h.hi⟩, h.r⟩, fun h => ⟨h.1.1, h.1.2, h.2⟩⟩

theorem value_closed (hv : a.Valid) (g : Good s a) (p : V3) : value s p ≤ 0 ↔ perp2 p ≤ a.r2 p.z := by
  have h := curv_pos hv
  rw [value_eq hv g]
  constructor
  · intro h1
    by_contra h2
    have : 0 < a.curv * (perp2 p - a.r2 p.z) := mul_pos h (by linarith)
    linarith
  · intro h1
    exact mul_nonpos_of_nonneg_of_nonpos h.le (by linarith)

/-- The equation of the side along a ray. -/
theorem value_at (p d : V3) (t : ℝ) : value s (V3.at' p d t) = qa s d * t ^ 2 - 2 * qb s p d * t + qc s p := by
  unfold value qa qb qc perp2
  simp only [V3.at_x, V3.at_y, V3.at_z]
  ring

theorem qa_nonneg (hv : a.Valid) (g : Good s a) (d : V3) : 0 ≤ qa s d := by
  unfold qa
  rw [g.fA]
  exact mul_nonneg (curv_pos hv).le (perp2_nonneg d)

theorem dot_flat (hv : a.Valid) (g : Good s a) (p d : V3) : a.curv * d.dot (flatNormal s p) = -qb s p d := by
  have h := (curv_pos hv).ne'
  unfold flatNormal V3.dot qb
  rw [g.fA, g.k1]
  field_simp
  ring

/-! ## Distances in the plane -/

/-- The distance of two points seen along the axis. -/
noncomputable def flat (p q : V3) : ℝ := √((p.x - q.x) ^ 2 + (p.y - q.y) ^ 2)

theorem flat_nonneg (p q : V3) : 0 ≤ flat p q := sqrt_nonneg _

theorem flat_sq (p q : V3) : flat p q ^ 2 = (p.x - q.x) ^ 2 + (p.y - q.y) ^ 2 := sq_sqrt (by positivity)

theorem dist_sq (p q : V3) : V3.dist p q ^ 2 = flat p q ^ 2 + (p.z - q.z) ^ 2 := by
  rw [flat_sq, V3.dist, sq_sqrt (V3.dist2_nonneg p q)]
  rfl

theorem root_sq (p : V3) : √(perp2 p) ^ 2 = p.x ^ 2 + p.y ^ 2 := by rw [sq_sqrt (perp2_nonneg p), perp2_eq]

theorem root_le (p q : V3) : √(perp2 q) ≤ √(perp2 p) + flat p q := by
  have h1 := flat_nonneg p q
  have h2 := flat_sq p q
  have h3 := sqrt_nonneg (perp2 p)
  have h4 := root_sq p
  rw [← sqrt_sq (add_nonneg h3 h1)]
  apply sqrt_le_sqrt
  rw [perp2_eq]
  have key : -(p.x * (p.x - q.x) + p.y * (p.y - q.y)) ≤ √(perp2 p) * flat p q := by
    apply le_of_sq_le_sq _ (mul_nonneg h3 h1)
    rw [mul_pow, h4, h2]
    nlinarith [sq_nonneg (p.x * (p.y - q.y) - p.y * (p.x - q.x))]
  nlinarith

end Paraboloid
end VecGeom

import Verif.Torus.Dist
import Verif.Torus.Props
import Verif.Torus.SolveProps
import Mathlib.Analysis.Calculus.Deriv.Pow
import Mathlib.Analysis.Calculus.Deriv.Add
import Mathlib.Analysis.Calculus.Deriv.Mul
import Mathlib.Analysis.Calculus.Deriv.Slope
import Mathlib.Topology.Order.Compact

/-!
# Properties of the distances of tori
-/

namespace VecGeom
namespace Torus

open Real

/-! ### The equation -/

/-- The quartic of `ToBoundary` at the parameter `s`. -/
noncomputable def quartic (a : Par) (r : ℝ) (p d : V3) (s : ℝ) : ℝ :=
  s ^ 4 + qa p d * s ^ 3 + qb (of a) r p d * s ^ 2 + qc (of a) r p d * s + qd (of a) r p

theorem quartic_eq (a : Par) (r : ℝ) (p : V3) {d : V3} (hu : d.mag2 = 1) (s : ℝ) :
    quartic a r p d s = ((V3.at' p d s).mag2 + a.rtor ^ 2 - r ^ 2) ^ 2 - 4 * a.rtor ^ 2 * ((V3.at' p d s).x ^ 2 + (V3.at' p d s).y ^ 2) := by
  have hu' : d.x * d.x + d.y * d.y + d.z * d.z = 1 := hu
  have hm : (V3.at' p d s).mag2 = r0sq p + 2 * s * rdotn p d + s ^ 2 := by
    show (p.x + s * d.x) * (p.x + s * d.x) + (p.y + s * d.y) * (p.y + s * d.y) + (p.z + s * d.z) * (p.z + s * d.z) = _
    unfold r0sq rdotn
    linear_combination s ^ 2 * hu'
  have hxy : (V3.at' p d s).x ^ 2 + (V3.at' p d s).y ^ 2 = r0sq p + 2 * s * rdotn p d + s ^ 2 - (p.z + s * d.z) ^ 2 := by
    rw [← hm]
    show (p.x + s * d.x) ^ 2 + (p.y + s * d.y) ^ 2 = (p.x + s * d.x) * (p.x + s * d.x) + (p.y + s * d.y) * (p.y + s * d.y) + (p.z + s * d.z) * (p.z + s * d.z) - (p.z + s * d.z) ^ 2
    ring
  rw [hxy, hm]
  unfold quartic qa qb qc qd rsumsq
  show s ^ 4 + 4 * rdotn p d * s ^ 3 + 2 * (r0sq p + 2 * rdotn p d * rdotn p d - (a.rtor * a.rtor + r * r) + 2 * (a.rtor * a.rtor) * d.z * d.z) * s ^ 2 +
    4 * (r0sq p * rdotn p d - (a.rtor * a.rtor + r * r) * rdotn p d + 2 * (a.rtor * a.rtor) * p.z * d.z) * s +
    (r0sq p * r0sq p - 2 * r0sq p * (a.rtor * a.rtor + r * r) + 4 * (a.rtor * a.rtor) * p.z * p.z + (a.rtor * a.rtor - r * r) * (a.rtor * a.rtor - r * r)) = _
  ring

/-- The quartic as a product: the second factor is positive. -/
theorem quartic_factor (a : Par) (r : ℝ) (p : V3) {d : V3} (hu : d.mag2 = 1) (s : ℝ) :
    quartic a r p d s = (ringDist a.rtor (V3.at' p d s) ^ 2 - r ^ 2) *
      ((Tube.rad (V3.at' p d s) + a.rtor) ^ 2 + (V3.at' p d s).z ^ 2 - r ^ 2) := by
  rw [quartic_eq a r p hu, ringDist_sq]
  generalize V3.at' p d s = q
  have h := Tube.rad_sq q
  have hm : q.mag2 = Tube.rad q ^ 2 + q.z ^ 2 := by
    rw [h]; show q.x * q.x + q.y * q.y + q.z * q.z = _; ring
  rw [← h, hm]
  ring

theorem factor_pos {a : Par} {r : ℝ} (hr : 0 ≤ r) (hR : r < a.rtor) (q : V3) : 0 < (Tube.rad q + a.rtor) ^ 2 + q.z ^ 2 - r ^ 2 := by
  have h := Tube.rad_nonneg q
  nlinarith [sq_nonneg q.z]

/-- C183: the equation that `ToBoundary` solves is that of the tube: for a direction of length one its solutions are the distances at
which the ray is at the radius of the tube, and its sign tells the sides. -/
theorem C183_equation {a : Par} {r : ℝ} (hr : 0 ≤ r) (hR : r < a.rtor) (p : V3) {d : V3} (hu : d.mag2 = 1) (s : ℝ) :
    (quartic a r p d s = 0 ↔ ringDist a.rtor (V3.at' p d s) = r) ∧ (quartic a r p d s < 0 ↔ ringDist a.rtor (V3.at' p d s) < r) := by
  rw [quartic_factor a r p hu]
  have h := factor_pos hr hR (V3.at' p d s)
  have h0 := ringDist_nonneg a.rtor (V3.at' p d s)
  constructor
  · rw [mul_eq_zero, or_iff_left h.ne']
    constructor
    · intro e
      exact (sq_eq_sq₀ h0 hr).mp (by linarith)
    · intro e; rw [e]; ring
  · rw [mul_neg_iff]
    constructor
    · rintro (⟨-, e⟩ | ⟨e, -⟩)
      · linarith
      · exact (sq_lt_sq₀ h0 hr).mp (by linarith)
    · intro e
      exact Or.inr ⟨by linarith [(sq_lt_sq₀ h0 hr).mpr e], h⟩

example : (quartic ring 2 ⟨0, 0, 0⟩ ⟨1, 0, 0⟩ 3 = 0) := by
  rw [(C183_equation (by norm_num) (by show (2 : ℝ) < 5; norm_num) _ (by norm_num [V3.mag2, V3.dot]) 3).1]
  have : V3.at' ⟨0, 0, 0⟩ ⟨1, 0, 0⟩ 3 = (⟨3, 0, 0⟩ : V3) := by apply V3.ext <;> norm_num
  rw [this]
  show ringDist 5 ⟨3, 0, 0⟩ = 2
  unfold ringDist Tube.rad
  norm_num [show (3 : ℝ) ^ 2 = 9 by norm_num, show √(9 : ℝ) = 3 by rw [show (9 : ℝ) = 3 ^ 2 by norm_num]; exact sqrt_sq (by norm_num),
    show √(4 : ℝ) = 2 by rw [show (4 : ℝ) = 2 ^ 2 by norm_num]; exact sqrt_sq (by norm_num)]

/-- The derivative of the quartic, as `ToBoundary` computes it. -/
noncomputable def slope4 (a : Par) (r : ℝ) (p d : V3) (s : ℝ) : ℝ :=
  4 * s * s * s + 3 * qa p d * s * s + 2 * qb (of a) r p d * s + qc (of a) r p d

theorem quartic_deriv (a : Par) (r : ℝ) (p d : V3) (s : ℝ) : HasDerivAt (quartic a r p d) (slope4 a r p d s) s := by
  have h : HasDerivAt (fun s : ℝ => s ^ 4 + qa p d * s ^ 3 + qb (of a) r p d * s ^ 2 + qc (of a) r p d * s + qd (of a) r p)
      (((4 : ℕ) * s ^ (4 - 1) * 1 + qa p d * ((3 : ℕ) * s ^ (3 - 1) * 1) + qb (of a) r p d * ((2 : ℕ) * s ^ (2 - 1) * 1) + qc (of a) r p d * 1)) s :=
    ((((((hasDerivAt_id s).pow 4).add (((hasDerivAt_id s).pow 3).const_mul _)).add (((hasDerivAt_id s).pow 2).const_mul _)).add
      ((hasDerivAt_id s).const_mul _)).add_const _)
  refine h.congr_deriv ?_
  unfold slope4
  push_cast
  ring

theorem quartic_cont (a : Par) (r : ℝ) (p d : V3) : Continuous (quartic a r p d) := by
  unfold quartic; fun_prop

theorem perp_rad (q : V3) : perp q = Tube.rad q := by unfold perp; rw [Tube.rad_eq]

/-- At a solution the slope of the quartic is a positive multiple of the product of the normal and the direction. -/
theorem slope_ndotd {a : Par} {r : ℝ} (hr : 0 ≤ r) (hR : r < a.rtor) (p : V3) {d : V3} (hu : d.mag2 = 1) {s : ℝ}
    (h : quartic a r p d s = 0) :
    slope4 a r p d s = 8 * a.rtor * Tube.rad (V3.at' p d s) * ndotd (of a) (V3.at' p d s) d ∧ 0 < Tube.rad (V3.at' p d s) := by
  have hf := (C183_equation hr hR p hu s).1.mp h
  have hu' : d.x * d.x + d.y * d.y + d.z * d.z = 1 := hu
  set q := V3.at' p d s with hq
  have h2 := ringDist_sq a.rtor q
  rw [hf] at h2
  have hρ : 0 < Tube.rad q := by
    rcases (Tube.rad_nonneg q).eq_or_lt with e | e
    · rw [← e] at h2; nlinarith [sq_nonneg q.z]
    · exact e
  refine ⟨?_, hρ⟩
  have hA : q.mag2 + a.rtor ^ 2 - r ^ 2 = 2 * a.rtor * Tube.rad q := by
    have : q.mag2 = Tube.rad q ^ 2 + q.z ^ 2 := by
      rw [Tube.rad_sq]; show q.x * q.x + q.y * q.y + q.z * q.z = _; ring
    rw [this]; linarith
  have hs : slope4 a r p d s = 4 * (q.mag2 + a.rtor ^ 2 - r ^ 2) * (q.x * d.x + q.y * d.y + q.z * d.z) - 8 * a.rtor ^ 2 * (q.x * d.x + q.y * d.y) := by
    rw [hq]
    unfold slope4 qa qb qc rsumsq
    show 4 * s * s * s + 3 * (4 * rdotn p d) * s * s +
      2 * (2 * (r0sq p + 2 * rdotn p d * rdotn p d - (a.rtor * a.rtor + r * r) + 2 * (a.rtor * a.rtor) * d.z * d.z)) * s +
      4 * (r0sq p * rdotn p d - (a.rtor * a.rtor + r * r) * rdotn p d + 2 * (a.rtor * a.rtor) * p.z * d.z) =
      4 * (((p.x + s * d.x) * (p.x + s * d.x) + (p.y + s * d.y) * (p.y + s * d.y) + (p.z + s * d.z) * (p.z + s * d.z)) + a.rtor ^ 2 - r ^ 2) *
        ((p.x + s * d.x) * d.x + (p.y + s * d.y) * d.y + (p.z + s * d.z) * d.z) - 8 * a.rtor ^ 2 * ((p.x + s * d.x) * d.x + (p.y + s * d.y) * d.y)
    have e1 : (p.x + s * d.x) * (p.x + s * d.x) + (p.y + s * d.y) * (p.y + s * d.y) + (p.z + s * d.z) * (p.z + s * d.z) = r0sq p + 2 * s * rdotn p d + s ^ 2 := by
      unfold r0sq rdotn; linear_combination s ^ 2 * hu'
    have e2 : (p.x + s * d.x) * d.x + (p.y + s * d.y) * d.y + (p.z + s * d.z) * d.z = rdotn p d + s := by
      unfold rdotn; linear_combination s * hu'
    have e3 : (p.x + s * d.x) * d.x + (p.y + s * d.y) * d.y = rdotn p d + s - (p.z + s * d.z) * d.z := by linarith
    rw [e1, e2, e3]
    ring
  rw [hs, hA]
  unfold ndotd
  rw [perp_rad]
  show _ = 8 * a.rtor * Tube.rad q * ((q.x - a.rtor * (q.x / Tube.rad q)) * d.x + (q.y - a.rtor * (q.y / Tube.rad q)) * d.y + q.z * d.z)
  field_simp
  ring

/-! ### The choice of a solution -/

theorem newton_simple {a b c d x : ℝ} (h0 : x * x * x * x + a * x * x * x + b * x * x + c * x + d = 0)
    (h1 : 4 * x * x * x + 3 * a * x * x + 2 * b * x + c ≠ 0) : newton a b c d x = some x := by
  have hstep : newtonStep a b c d x = .num 0 := by
    unfold newtonStep
    simp only []
    rw [if_neg h1, h0]
    simp
  unfold newton
  rw [hstep]
  unfold newtonLoop
  rw [if_neg (by rw [abs_zero]; norm_num)]
  simp only [add_zero]
  split
  · rfl
  · rw [hstep]
    simp

theorem newton_double {a b c d x : ℝ} (h0 : x * x * x * x + a * x * x * x + b * x * x + c * x + d = 0)
    (h1 : 4 * x * x * x + 3 * a * x * x + 2 * b * x + c = 0) : newton a b c d x = none := by
  have hstep : newtonStep a b c d x = .nan := by
    unfold newtonStep
    simp only []
    rw [if_pos h1, if_pos h0]
  unfold newton
  rw [hstep]
  unfold newtonLoop
  rfl

/-- The side that the ray is on before it crosses the tube: `flip` stands for the inside. -/
def sgn (flip : Bool) : ℝ := if flip then 1 else -1

theorem sgn_cases (flip : Bool) : sgn flip = 1 ∨ sgn flip = -1 := by cases flip <;> simp [sgn]

section
variable {a : Par} {r : ℝ} {p d : V3}

theorem scan_full (hd : a.d = 2 * π) (hr : 0 ≤ r) (hR : r < a.rtor) (hu : d.mag2 = 1) (flip : Bool) {s : ℝ} : ∀ {l : List ℝ},
    l.Pairwise (· ≤ ·) → (∀ x ∈ l, quartic a r p d x = 0) →
    scan (of a) (qa p d) (qb (of a) r p d) (qc (of a) r p d) (qd (of a) r p) p d flip l = some s →
    (s = kInfLength ∧ ∀ y ∈ l, ¬ (-tol ≤ y ∧ 0 ≤ sgn flip * slope4 a r p d y)) ∨
    ∃ x ∈ l, s = max 0 x ∧ -tol ≤ x ∧ 0 < sgn flip * slope4 a r p d x ∧
      ∀ y ∈ l, y < x → ¬ (-tol ≤ y ∧ 0 ≤ sgn flip * slope4 a r p d y)
  | [], _, _, h => Or.inl ⟨by
      have : some kInfLength = some s := h
      exact (Option.some.inj this).symm, by simp⟩
  | x :: l, hs, hroot, h => by
    have hs' := List.pairwise_cons.mp hs
    have ih := scan_full hd hr hR hu flip (l := l) hs'.2 (fun y hy => hroot y (List.mem_cons_of_mem _ hy)) (s := s)
    have hx := hroot x (by simp)
    obtain ⟨hsl, hρ⟩ := slope_ndotd hr hR p hu hx
    have hRp : 0 < a.rtor := lt_of_le_of_lt hr hR
    have ht : tol < 10 := by unfold tol kTolerance; norm_num
    -- what follows if the element is passed over
    have skip : ¬ (-tol ≤ x ∧ 0 ≤ sgn flip * slope4 a r p d x) →
        scan (of a) (qa p d) (qb (of a) r p d) (qc (of a) r p d) (qd (of a) r p) p d flip l = some s →
        (s = kInfLength ∧ ∀ y ∈ x :: l, ¬ (-tol ≤ y ∧ 0 ≤ sgn flip * slope4 a r p d y)) ∨
        ∃ x' ∈ x :: l, s = max 0 x' ∧ -tol ≤ x' ∧ 0 < sgn flip * slope4 a r p d x' ∧
          ∀ y ∈ x :: l, y < x' → ¬ (-tol ≤ y ∧ 0 ≤ sgn flip * slope4 a r p d y) := by
      intro hn hsc
      rcases ih hsc with ⟨e, hall⟩ | ⟨x', hx', e1, e2, e3, hall⟩
      · refine Or.inl ⟨e, ?_⟩
        intro y hy
        rcases List.mem_cons.mp hy with rfl | hy
        · exact hn
        · exact hall y hy
      · refine Or.inr ⟨x', List.mem_cons_of_mem _ hx', e1, e2, e3, ?_⟩
        intro y hy
        rcases List.mem_cons.mp hy with rfl | hy
        · exact fun _ => hn
        · exact hall y hy
    unfold scan at h
    simp only [] at h
    by_cases c1 : x < -10
    · rw [if_pos c1] at h
      exact skip (fun e => by linarith [e.1]) h
    rw [if_neg c1] at h
    have hdir : (if flip = true then ndotd (of a) (V3.at' p d x) d < 0 else ndotd (of a) (V3.at' p d x) d > 0) ↔ sgn flip * slope4 a r p d x < 0 := by
      have hk : 0 < 8 * a.rtor * Tube.rad (V3.at' p d x) := by positivity
      rw [hsl]
      generalize ndotd (of a) (V3.at' p d x) d = n at *
      generalize 8 * a.rtor * Tube.rad (V3.at' p d x) = k at *
      cases flip
      · simp only [sgn, Bool.false_eq_true, if_false]
        constructor
        · intro e; nlinarith
        · intro e
          by_contra hc
          push Not at hc
          nlinarith
      · simp only [sgn, if_true]
        constructor
        · intro e; nlinarith
        · intro e
          by_contra hc
          push Not at hc
          nlinarith
    by_cases c2 : sgn flip * slope4 a r p d x < 0
    · rw [if_pos ⟨by rw [perp_rad]; exact hρ.ne', hdir.mpr c2⟩] at h
      exact skip (fun e => by linarith [e.2]) h
    rw [if_neg (fun e => c2 (hdir.mp e.2)), if_neg (fun e => by
      have h1 : a.d < 2 * π := e.1
      linarith)] at h
    have hx0 : x * x * x * x + qa p d * x * x * x + qb (of a) r p d * x * x + qc (of a) r p d * x + qd (of a) r p = 0 := by
      rw [← hx]; unfold quartic; ring
    by_cases c3 : slope4 a r p d x = 0
    · rw [newton_double hx0 c3] at h
      simp at h
    · rw [newton_simple hx0 c3] at h
      simp only [] at h
      by_cases c4 : x < -tol
      · rw [if_pos c4] at h
        exact skip (fun e => by linarith [e.1]) h
      · rw [if_neg c4] at h
        refine Or.inr ⟨x, by simp, (Option.some.inj h).symm, not_lt.mp c4, ?_, ?_⟩
        · refine lt_of_le_of_ne (not_lt.mp c2) (Ne.symm (mul_ne_zero ?_ c3))
          rcases sgn_cases flip with e | e <;> rw [e] <;> norm_num
        · intro y hy hlt
          rcases List.mem_cons.mp hy with rfl | hy
          · exact absurd hlt (lt_irrefl _)
          · exact absurd (hs'.1 y hy) (not_le.mpr hlt)

/-- The point where a continuous function ceases for good to be at most 0. -/
theorem last_zero {g : ℝ → ℝ} (hg : Continuous g) {t : ℝ} (ht : 0 ≤ t) (h0 : g 0 ≤ 0) (h1 : 0 < g t) :
    ∃ u, 0 ≤ u ∧ u < t ∧ g u = 0 ∧ ∀ v, u < v → v ≤ t → 0 < g v := by
  have hc : IsCompact (Set.Icc 0 t ∩ {v | g v ≤ 0}) := isCompact_Icc.inter_right (isClosed_le hg continuous_const)
  obtain ⟨u, ⟨hu, hgu⟩, hmax⟩ := hc.exists_isGreatest ⟨0, ⟨le_refl _, ht⟩, h0⟩
  have hgu : g u ≤ 0 := hgu
  have hut : u < t := lt_of_le_of_ne hu.2 (fun e => by rw [e] at hgu; linarith)
  have hpos : ∀ v, u < v → v ≤ t → 0 < g v := by
    intro v hv hvt
    by_contra hcn
    exact absurd (hmax ⟨⟨hu.1.trans hv.le, hvt⟩, not_lt.mp hcn⟩) (not_le.mpr hv)
  refine ⟨u, hu.1, hut, le_antisymm hgu ?_, hpos⟩
  by_contra hcn
  have hcn := not_le.mp hcn
  obtain ⟨v, hv, he⟩ := intermediate_value_Icc hut.le hg.continuousOn ⟨hcn.le, h1.le⟩
  have hne : v ≠ u := fun e => by rw [e] at he; linarith
  linarith [hpos v (lt_of_le_of_ne hv.1 (Ne.symm hne)) hv.2]

theorem deriv_nonneg {g : ℝ → ℝ} {g' u t : ℝ} (hg : HasDerivAt g g' u) (h0 : g u = 0) (hut : u < t)
    (h : ∀ v, u < v → v ≤ t → 0 < g v) : 0 ≤ g' := by
  have hl := hg.tendsto_slope_zero_right
  refine ge_of_tendsto hl ?_
  filter_upwards [Ioc_mem_nhdsGT (show (0 : ℝ) < t - u by linarith)] with e he
  rw [h0, sub_zero]
  exact mul_nonneg (inv_nonneg.mpr he.1.le) (h (u + e) (by linarith [he.1]) (by linarith [he.2])).le

theorem deriv_leaves {g : ℝ → ℝ} {g' u : ℝ} (hg : HasDerivAt g g' u) (h0 : g u = 0) (h : 0 < g') :
    ∃ e, 0 < e ∧ ∀ v, u < v → v < u + e → 0 < g v := by
  have hl := hg.tendsto_slope_zero_right
  have := hl.eventually (lt_mem_nhds h)
  rw [eventually_nhdsWithin_iff, Metric.eventually_nhds_iff] at this
  obtain ⟨e, he, hh⟩ := this
  refine ⟨e, he, fun v h1 h2 => ?_⟩
  have := hh (y := v - u) (by rw [Real.dist_eq, sub_zero, abs_of_pos (by linarith)]; linarith) (by show 0 < v - u; linarith)
  rw [h0, sub_zero, add_sub_cancel, smul_eq_mul] at this
  have hp : 0 < v - u := by linarith
  by_contra hcn
  have := mul_nonpos_of_nonneg_of_nonpos (inv_pos.mpr hp).le (not_lt.mp hcn)
  linarith

/-- A ray for which the computation for radius `r` is not subject to a threshold: it is not in the special case of nearly level rays, and
the coefficients are not just below one. -/
structure Regular (a : Par) (r : ℝ) (p d : V3) : Prop where
  steep : ¬ Special r p d
  clear : Clear (qa p d) (qb (of a) r p d) (qc (of a) r p d) (qd (of a) r p)

/-- All solutions are nearby. -/
theorem root_bound (hr : 0 ≤ r) (hR : r < a.rtor) (hu : d.mag2 = 1) {s : ℝ} (h : quartic a r p d s = 0) : |s| ≤ p.mag + a.rtor + r := by
  have hf := (C183_equation hr hR p hu s).1.mp h
  have hl := ring_lip a.rtor (V3.at' p d s) ⟨0, 0, 0⟩
  have h0 : ringDist a.rtor ⟨0, 0, 0⟩ = a.rtor := by
    unfold ringDist Tube.rad
    norm_num
    exact sqrt_sq (lt_of_le_of_lt hr hR).le
  set q := V3.at' p d s with hq
  have h2 := ringDist_sq a.rtor q
  rw [hf] at h2
  have hρ : Tube.rad q ≤ a.rtor + r := by
    nlinarith [sq_nonneg q.z, Tube.rad_nonneg q]
  have hm : q.mag ≤ a.rtor + r := by
    unfold V3.mag
    rw [Real.sqrt_le_iff]
    refine ⟨by linarith, ?_⟩
    have : q.mag2 = Tube.rad q ^ 2 + q.z ^ 2 := by
      rw [Tube.rad_sq]; show q.x * q.x + q.y * q.y + q.z * q.z = _; ring
    rw [this]
    nlinarith
  have hsm : |s| = (V3.smul s d).mag := by
    unfold V3.mag
    rw [show (V3.smul s d).mag2 = s ^ 2 * d.mag2 by simp only [V3.mag2, V3.dot, V3.smul]; ring, hu, mul_one, sqrt_sq_eq_abs]
  have htri : (V3.smul s d).mag ≤ q.mag + p.mag := by
    have := Sphere.mag_lip (V3.smul s d) ⟨-p.x, -p.y, -p.z⟩
    have e1 : V3.dist (V3.smul s d) ⟨-p.x, -p.y, -p.z⟩ = q.mag := by
      rw [hq]
      unfold V3.dist V3.dist2 V3.mag V3.mag2 V3.dot
      congr 1
      simp only [V3.smul, V3.at_x, V3.at_y, V3.at_z]
      ring
    have e2 : (⟨-p.x, -p.y, -p.z⟩ : V3).mag = p.mag := by unfold V3.mag V3.mag2 V3.dot; congr 1; ring
    rw [e1, e2] at this
    linarith [le_abs_self ((V3.smul s d).mag - p.mag)]
  rw [hsm]
  linarith

/-- What `ToBoundary` finds. -/
theorem boundary_cases (hd : a.d = 2 * π) (hr : 0 ≤ r) (hR : r < a.rtor) (hu : d.mag2 = 1) (hreg : Regular a r p d)
    (hsize : p.mag + a.rtor + r < kInfLength) {out : Bool} {s : ℝ} (h : toBoundary (of a) p d r out = some s) (flip : Bool)
    (hflip : flip = xor (open Classical in decide (|r - a.rmin| < kTolerance)) out) :
    (s = kInfLength ∧ ∀ y, quartic a r p d y = 0 → ¬ (-tol ≤ y ∧ 0 ≤ sgn flip * slope4 a r p d y)) ∨
    ∃ x, quartic a r p d x = 0 ∧ s = max 0 x ∧ -tol ≤ x ∧ 0 < sgn flip * slope4 a r p d x ∧
      ∀ y, quartic a r p d y = 0 → y < x → ¬ (-tol ≤ y ∧ 0 ≤ sgn flip * slope4 a r p d y) := by
  obtain ⟨hso, hme⟩ := C182_quartic_partial hreg.clear (fun x hx => by
    have : quartic a r p d x = 0 := hx
    linarith [root_bound hr hR hu this, le_abs_self x])
  unfold toBoundary at h
  simp only [if_neg hreg.steep] at h
  change (if (solveQuartic (qa p d) (qb (of a) r p d) (qc (of a) r p d) (qd (of a) r p) blank).1 = 0 then some kInfLength else
    scan (of a) (qa p d) (qb (of a) r p d) (qc (of a) r p d) (qd (of a) r p) p d (xor (open Classical in decide (|r - a.rmin| < kTolerance)) out) _) = some s at h
  rw [← hflip] at h
  split at h
  · rename_i h0
    rw [h0] at hme
    refine Or.inl ⟨(Option.some.inj h).symm, fun y hy => ?_⟩
    have := (hme y).mpr hy
    simp at this
  · have := scan_full hd hr hR hu flip hso (fun x hx => (hme x).mp hx) h
    rcases this with ⟨e, hall⟩ | ⟨x, hx, e1, e2, e3, hall⟩
    · exact Or.inl ⟨e, fun y hy => hall y ((hme y).mpr hy)⟩
    · exact Or.inr ⟨x, (hme x).mp hx, e1, e2, e3, fun y hy => hall y ((hme y).mpr hy)⟩

/-- Until the distance that `ToBoundary` finds the ray stays on its side of the tube. -/
theorem boundary_first (hd : a.d = 2 * π) (hr : 0 ≤ r) (hR : r < a.rtor) (hu : d.mag2 = 1) (hreg : Regular a r p d)
    (hsize : p.mag + a.rtor + r < kInfLength) {out : Bool} {s : ℝ} (h : toBoundary (of a) p d r out = some s) (flip : Bool)
    (hflip : flip = xor (open Classical in decide (|r - a.rmin| < kTolerance)) out) (hside : sgn flip * quartic a r p d 0 ≤ 0)
    {t : ℝ} (ht : 0 ≤ t) (hts : t < s ∨ s = kInfLength) : sgn flip * quartic a r p d t ≤ 0 := by
  by_contra hcn
  have hcn := not_le.mp hcn
  obtain ⟨u, hu0, hut, hgu, hpos⟩ := last_zero (g := fun t => sgn flip * quartic a r p d t) (continuous_const.mul (quartic_cont a r p d)) ht hside hcn
  have hz : quartic a r p d u = 0 := by
    rcases mul_eq_zero.mp hgu with e | e
    · rcases sgn_cases flip with e' | e' <;> rw [e'] at e <;> norm_num at e
    · exact e
  have hsl : 0 ≤ sgn flip * slope4 a r p d u :=
    deriv_nonneg ((quartic_deriv a r p d u).const_mul (sgn flip)) hgu hut hpos
  have hkeep : -tol ≤ u ∧ 0 ≤ sgn flip * slope4 a r p d u := ⟨by linarith [tol_pos], hsl⟩
  have hub := root_bound hr hR hu hz
  rcases boundary_cases hd hr hR hu hreg hsize h flip hflip with ⟨-, hall⟩ | ⟨x, hx, e1, -, -, hall⟩
  · exact hall u hz hkeep
  · have hxb := root_bound hr hR hu hx
    have hk := kInfLength_pos
    have hts' : t < s := by
      rcases hts with e | e
      · exact e
      · exfalso
        rw [e1] at e
        rcases le_total 0 x with c | c
        · rw [max_eq_right c] at e; linarith [le_abs_self x]
        · rw [max_eq_left c] at e; linarith
    rw [e1] at hts'
    rcases lt_max_iff.mp hts' with c | c
    · linarith
    · exact hall u hz (by linarith) hkeep

/-- At the distance that `ToBoundary` finds the ray is at the tube, and it crosses it. -/
theorem boundary_hit (hd : a.d = 2 * π) (hr : 0 ≤ r) (hR : r < a.rtor) (hu : d.mag2 = 1) (hreg : Regular a r p d)
    (hsize : p.mag + a.rtor + r < kInfLength) {out : Bool} {s : ℝ} (h : toBoundary (of a) p d r out = some s) (flip : Bool)
    (hflip : flip = xor (open Classical in decide (|r - a.rmin| < kTolerance)) out) :
    s = kInfLength ∨ (s < kInfLength ∧ ∃ x, s = max 0 x ∧ -tol ≤ x ∧ ringDist a.rtor (V3.at' p d x) = r ∧
      ∃ e, 0 < e ∧ ∀ t, x < t → t < x + e → 0 < sgn flip * quartic a r p d t) := by
  rcases boundary_cases hd hr hR hu hreg hsize h flip hflip with ⟨e, -⟩ | ⟨x, hx, e1, e2, e3, -⟩
  · exact Or.inl e
  · have hxb := root_bound hr hR hu hx
    refine Or.inr ⟨?_, x, e1, e2, (C183_equation hr hR p hu x).1.mp hx, ?_⟩
    · rw [e1]; exact max_lt kInfLength_pos (by linarith [le_abs_self x])
    · exact deriv_leaves ((quartic_deriv a r p d x).const_mul (sgn flip)) (by simp only [hx, mul_zero]) e3

/-! ### Distances -/

theorem side_in (hr : 0 ≤ r) (hR : r < a.rtor) (hu : d.mag2 = 1) (t : ℝ) :
    (sgn true * quartic a r p d t ≤ 0 ↔ ringDist a.rtor (V3.at' p d t) ≤ r) ∧
    (0 < sgn true * quartic a r p d t ↔ r < ringDist a.rtor (V3.at' p d t)) ∧
    (sgn false * quartic a r p d t ≤ 0 ↔ r ≤ ringDist a.rtor (V3.at' p d t)) ∧
    (0 < sgn false * quartic a r p d t ↔ ringDist a.rtor (V3.at' p d t) < r) := by
  obtain ⟨h1, h2⟩ := C183_equation hr hR p hu t
  have e1 : sgn true = 1 := rfl
  have e2 : sgn false = -1 := rfl
  rw [e1, e2]
  have hle : quartic a r p d t ≤ 0 ↔ ringDist a.rtor (V3.at' p d t) ≤ r := by
    rw [le_iff_lt_or_eq, le_iff_lt_or_eq, h1, h2]
  refine ⟨by rw [one_mul]; exact hle, ?_, ?_, ?_⟩
  · rw [one_mul, ← not_le, hle, not_le]
  · rw [← not_lt (a := ringDist _ _), ← h2]; constructor
    · intro h; linarith
    · intro h; linarith
  · rw [← h2]; constructor
    · intro h; linarith
    · intro h; linarith

theorem at_zero (p d : V3) : V3.at' p d 0 = p := by
  apply V3.ext <;> simp

/-- What makes a full torus and a ray regular for both tubes. -/
structure Ray (a : Par) (p d : V3) : Prop where
  valid : a.Valid
  full : a.d = 2 * π
  hole : a.rmax + kHalfTolerance ≤ a.rtor
  thick : kTolerance ≤ a.rmax - a.rmin
  unit : d.mag2 = 1
  outer : Regular a a.rmax p d
  inner : 0 < a.rmin → Regular a a.rmin p d
  size : p.mag + a.rtor + a.rmax < kInfLength

theorem flip_outer (h : kTolerance ≤ a.rmax - a.rmin) (out : Bool) :
    out = xor (open Classical in decide (|a.rmax - a.rmin| < kTolerance)) out := by
  have : ¬ |a.rmax - a.rmin| < kTolerance := by
    rw [abs_of_nonneg (by linarith [kTolerance_pos])]; linarith
  simp [this]

theorem flip_inner (out : Bool) : (!out) = xor (open Classical in decide (|a.rmin - a.rmin| < kTolerance)) out := by
  simp [kTolerance_pos]

/-- The early checks of `DistanceToOut` pass for points of the solid. -/
theorem not_far (hv : a.Valid) (hR : a.rmax + kHalfTolerance ≤ a.rtor) (h : a.Closed p) : ¬ FarOut (of a) p ∧ inside (of a) p ≠ .outside := by
  have h2 := ringDist_sq a.rtor p
  have h0 := ringDist_nonneg a.rtor p
  have hm : 0 ≤ a.rmax := hv.rmin.trans hv.rmax.le
  have hle : (Tube.rad p - a.rtor) ^ 2 + p.z ^ 2 ≤ a.rmax ^ 2 := by rw [← h2]; exact pow_le_pow_left₀ h0 h.hi 2
  have hρ := Tube.rad_nonneg p
  have hsq := Tube.rad_sq p
  have hk : 0 < kHalfTolerance := by unfold kHalfTolerance; linarith [kTolerance_pos]
  have hz : |p.z| ≤ a.rmax := abs_le_of_sq_le_sq (by nlinarith [sq_nonneg (Tube.rad p - a.rtor)]) hm
  have hd : |Tube.rad p - a.rtor| ≤ a.rmax := abs_le_of_sq_le_sq (by nlinarith [sq_nonneg p.z]) hm
  obtain ⟨d1, d2⟩ := abs_le.mp hd
  constructor
  · rintro (h | h | h)
    · have h : |p.z| - a.rmax > kHalfTolerance := h
      linarith
    · have h : p.x * p.x + p.y * p.y > (a.rtor + a.rmax + kHalfTolerance) * (a.rtor + a.rmax + kHalfTolerance) := h
      nlinarith
    · have h : p.x * p.x + p.y * p.y < (a.rtor - a.rmax - kHalfTolerance) * (a.rtor - a.rmax - kHalfTolerance) := h
      nlinarith
  · exact fun hc => (C176_inside hv p).2.1 hc h

theorem half_pos : 0 < kHalfTolerance := by unfold kHalfTolerance; linarith [kTolerance_pos]

/-- A ray leaves every tube. -/
theorem leaves (hr : 0 ≤ r) (hR : r < a.rtor) (hu : d.mag2 = 1) : ∃ t, 0 ≤ t ∧ r < ringDist a.rtor (V3.at' p d t) := by
  have hp : 0 ≤ p.mag := sqrt_nonneg _
  refine ⟨p.mag + a.rtor + r + 1, by linarith, ?_⟩
  by_contra hc
  have hc := not_lt.mp hc
  set t := p.mag + a.rtor + r + 1 with ht
  -- the radius at this distance is itself at most r, so the bound applies to it
  have h0 := ringDist_nonneg a.rtor (V3.at' p d t)
  have hz := (C183_equation (a := a) h0 (lt_of_le_of_lt hc hR) p hu t).1.mpr rfl
  have := root_bound h0 (lt_of_le_of_lt hc hR) hu hz
  rw [abs_of_nonneg (by linarith)] at this
  linarith

/-- C184: from a point of a full torus, `DistanceToOut` is not negative; until this distance the ray stays in the torus, and there, or at
most `tol` before, it leaves it. -/
theorem C184_out_partial (h : Ray a p d) (hp : a.Closed p) {s : ℝ} (hs : distanceToOut (of a) p d = some s) :
    0 ≤ s ∧ (∀ t, 0 ≤ t → t < s → a.Closed (V3.at' p d t)) ∧
    ∃ x, s = max 0 x ∧ -tol ≤ x ∧ ∃ e, 0 < e ∧ ∀ t, x < t → t < x + e → ¬ a.Closed (V3.at' p d t) := by
  have hk := half_pos
  have hv := h.valid
  have hm : 0 < a.rmax := hv.rmin.trans_lt hv.rmax
  have hR : a.rmax < a.rtor := by linarith [h.hole]
  have hR' : a.rmin < a.rtor := hv.rmax.trans hR
  obtain ⟨n1, n2⟩ := not_far hv h.hole hp
  have hphi : ∀ q : V3, Sector a.s a.d q.x q.y := fun q => by rw [h.full]; exact sector_full _ _ _
  unfold distanceToOut at hs
  rw [if_neg n1, if_neg n2] at hs
  have hs : ((toBoundary (of a) p d a.rmax true).bind fun dout =>
      (innerBoundary (of a) p d true).bind fun din =>
      some (if (if a.d < 2 * π then phiOut (of a) p d (of a).wedge.a2x (of a).wedge.a2y ((of a).wedge.distanceToOut 0 p d).2
        (phiOut (of a) p d (of a).wedge.a1x (of a).wedge.a1y ((of a).wedge.distanceToOut 0 p d).1 (min dout din)) else min dout din) ≥ kInfLength
        then -1 else (if a.d < 2 * π then phiOut (of a) p d (of a).wedge.a2x (of a).wedge.a2y ((of a).wedge.distanceToOut 0 p d).2
        (phiOut (of a) p d (of a).wedge.a1x (of a).wedge.a1y ((of a).wedge.distanceToOut 0 p d).1 (min dout din)) else min dout din))) = some s := hs
  rw [Option.bind_eq_some_iff] at hs
  obtain ⟨dout, hout, hs⟩ := hs
  rw [Option.bind_eq_some_iff] at hs
  obtain ⟨din, hin, hs⟩ := hs
  have hfull : ¬ a.d < 2 * π := by rw [h.full]; exact lt_irrefl _
  rw [if_neg hfull] at hs
  unfold innerBoundary at hin
  change (if a.rmin > 0 then toBoundary (of a) p d a.rmin true else some kInfLength) = some din at hin
  -- the outer tube
  have side0 : sgn true * quartic a a.rmax p d 0 ≤ 0 := ((side_in hm.le hR h.unit 0).1).mpr (by rw [at_zero]; exact hp.hi)
  have o1 := fun t => boundary_first h.full hm.le hR h.unit h.outer h.size hout true (flip_outer h.thick true) side0 (t := t)
  have o2 := boundary_hit h.full hm.le hR h.unit h.outer h.size hout true (flip_outer h.thick true)
  have ofin : dout ≠ kInfLength := by
    intro e
    obtain ⟨t, ht, hl⟩ := leaves (p := p) (a := a) hm.le hR h.unit
    have := ((side_in hm.le hR h.unit t).1).mp (o1 t ht (Or.inr e))
    linarith
  obtain ⟨o3, x, e1, e2, -, e, he, hleave⟩ := o2.resolve_left ofin
  -- the inner tube
  have inner : (∀ t, 0 ≤ t → t < din → a.rmin ≤ ringDist a.rtor (V3.at' p d t)) ∧
      (din = kInfLength ∨ (∃ x, din = max 0 x ∧ -tol ≤ x ∧ ∃ e, 0 < e ∧ ∀ t, x < t → t < x + e → ringDist a.rtor (V3.at' p d t) < a.rmin)) := by
    by_cases c : a.rmin > 0
    · rw [if_pos c] at hin
      have hsz : p.mag + a.rtor + a.rmin < kInfLength := by linarith [h.size, hv.rmax]
      have sd : sgn false * quartic a a.rmin p d 0 ≤ 0 := ((side_in hv.rmin hR' h.unit 0).2.2.1).mpr (by rw [at_zero]; exact hp.lo)
      refine ⟨fun t h1 h2 => ((side_in hv.rmin hR' h.unit t).2.2.1).mp
        (boundary_first h.full hv.rmin hR' h.unit (h.inner c) hsz hin false (flip_inner true) sd h1 (Or.inl h2)), ?_⟩
      rcases boundary_hit h.full hv.rmin hR' h.unit (h.inner c) hsz hin false (flip_inner true) with e | ⟨-, x, x1, x2, -, e, he, hl⟩
      · exact Or.inl e
      · exact Or.inr ⟨x, x1, x2, e, he, fun t h1 h2 => ((side_in hv.rmin hR' h.unit t).2.2.2).mp (hl t h1 h2)⟩
    · rw [if_neg c] at hin
      have : a.rmin = 0 := le_antisymm (not_lt.mp c) hv.rmin
      refine ⟨fun t _ _ => by rw [this]; exact ringDist_nonneg _ _, Or.inl (Option.some.inj hin).symm⟩
  have hmin : min dout din < kInfLength := lt_of_le_of_lt (min_le_left _ _) o3
  rw [if_neg (not_le.mpr hmin)] at hs
  have hs := (Option.some.inj hs).symm
  have hd0 : 0 ≤ dout := by rw [e1]; exact le_max_left _ _
  have hd1 : 0 ≤ din := by
    rcases inner.2 with e | ⟨x, e, -⟩
    · rw [e]; exact kInfLength_pos.le
    · rw [e]; exact le_max_left _ _
  rw [hs]
  refine ⟨le_min hd0 hd1, ?_, ?_⟩
  · intro t h1 h2
    exact ⟨inner.1 t h1 (h2.trans_le (min_le_right _ _)),
      ((side_in hm.le hR h.unit t).1).mp (o1 t h1 (Or.inl (h2.trans_le (min_le_left _ _)))), hphi _⟩
  · rcases le_total dout din with c | c
    · rw [min_eq_left c]
      exact ⟨x, e1, e2, e, he, fun t h1 h2 hc => by
        have := ((side_in hm.le hR h.unit t).2.1).mp (hleave t h1 h2)
        linarith [hc.hi]⟩
    · rw [min_eq_right c]
      rcases inner.2 with e' | ⟨x', e1', e2', e', he', hl'⟩
      · exfalso; rw [min_eq_right c, e'] at hmin; exact lt_irrefl _ hmin
      · exact ⟨x', e1', e2', e', he', fun t h1 h2 hc => by linarith [hl' t h1 h2, hc.lo]⟩

end

end Torus
end VecGeom

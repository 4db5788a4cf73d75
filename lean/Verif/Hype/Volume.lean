import Verif.Hype.Props
import Verif.Base.Annulus
import Verif.Base.Slices2
import Verif.Tube.Spec

/-!
# C154: capacity and surface area of hyperboloids, C155: extent, convexity, copies and the factory
-/

namespace VecGeom
namespace Hype

open Real MeasureTheory

variable {a : Par} {s : State} {k : Kind}

theorem made_volume (a : Par) (m : State) : capacity (a.made m) =
    2 * π * a.dz * (a.rmax ^ 2 + a.dz ^ 2 * tan a.stOut ^ 2 / 3) - 2 * π * a.dz * (a.rmin ^ 2 + a.dz ^ 2 * tan a.stIn ^ 2 / 3) := by
  show 2 * π * a.dz * (a.rmax * a.rmax + (a.dz * a.dz * (tan a.stOut * tan a.stOut) / 3)) -
    2 * π * a.dz * (a.rmin * a.rmin + (a.dz * a.dz * (tan a.stIn * tan a.stIn) / 3)) = _
  ring

/-- C154: the capacity is the volume of the set of points of the solid. -/
theorem C154_capacity (hv : a.Valid) (m : State) :
    volume {q : Fin 3 → ℝ | a.Closed ⟨q 0, q 1, q 2⟩} = ENNReal.ofReal (capacity (a.made m)) := by
  have hz := hv.dz
  have hpi := pi_pos
  have hset : {q : Fin 3 → ℝ | a.Closed ⟨q 0, q 1, q 2⟩} =
      {q | |q 2| ≤ a.dz} ∩ ({q | q 0 ^ 2 + q 1 ^ 2 ≤ a.out2 (q 2)} ∩ {q | a.in2 (q 2) ≤ q 0 ^ 2 + q 1 ^ 2}) := by
    ext q
    exact ⟨fun h : a.Closed _ => ⟨Par.Closed.z h, Par.Closed.out h, Par.Closed.inn h⟩, fun h => ⟨h.1, h.2.1, h.2.2⟩⟩
  have hmeas : MeasurableSet {q : Fin 3 → ℝ | a.Closed ⟨q 0, q 1, q 2⟩} := by
    rw [hset]
    have m1 : Measurable fun q : Fin 3 → ℝ => q 0 ^ 2 + q 1 ^ 2 := by fun_prop
    have m2 : Measurable fun q : Fin 3 → ℝ => a.out2 (q 2) := by unfold Par.out2; fun_prop
    have m3 : Measurable fun q : Fin 3 → ℝ => a.in2 (q 2) := by unfold Par.in2; fun_prop
    have mz : Measurable fun q : Fin 3 → ℝ => |q 2| := by fun_prop
    exact (measurableSet_le mz measurable_const).inter ((measurableSet_le m1 m2).inter (measurableSet_le m3 m1))
  rw [volume_slices hmeas (a := -a.dz) (b := a.dz) (g := fun z => (a.out2 z - a.in2 z) / 2 * (2 * π)) (by linarith)
    (by unfold Par.out2 Par.in2; fun_prop)]
  · have e : ∀ z, (a.out2 z - a.in2 z) / 2 * (2 * π) = π * (a.rmax ^ 2 - a.rmin ^ 2) + 0 * z +
        π * (tan a.stOut ^ 2 - tan a.stIn ^ 2) * z ^ 2 := by
      intro z
      unfold Par.out2 Par.in2
      ring
    simp only [e]
    rw [integral_quadratic, made_volume]
    congr 1
    ring
  · intro z h
    have := in2_lt_out2 hv (abs_le.mpr h)
    exact mul_nonneg (by linarith) (by linarith)
  · intro q hq
    exact abs_le.mp hq.z
  · intro z h
    have hz' : |z| ≤ a.dz := abs_le.mpr h
    have hio := in2_lt_out2 hv hz'
    have h1 := area_ring (sqrt_nonneg (a.in2 z)) (sqrt_le_sqrt hio.le) (by positivity : 0 < 2 * π) (le_refl _) (s := 0)
    rw [sq_sqrt (in2_nonneg z), sq_sqrt (out2_pos hv z).le] at h1
    rw [← h1]
    congr 1
    ext w
    rw [hset]
    simp only [Set.mem_inter_iff, Set.mem_setOf_eq]
    constructor
    · rintro ⟨-, h1, h2⟩
      exact ⟨h2, h1, sector_full _ _ _⟩
    · rintro ⟨h2, h1, -⟩
      exact ⟨hz', h1, h2⟩

/-! ## The surface -/

/-- The radius of the surface with waist `r` and slope `t` at the height `z`. -/
noncomputable def profile (r t z : ℝ) : ℝ := √(r ^ 2 + (t * z) ^ 2)

/-- The area of the surface of revolution between the heights `-h` and `h`. -/
noncomputable def wallArea (r t h : ℝ) : ℝ := ∫ z in -h..h, 2 * π * profile r t z * √(1 + deriv (profile r t) z ^ 2)

theorem profile_pos {r : ℝ} (hr : 0 < r) (t z : ℝ) : 0 < profile r t z := sqrt_pos.mpr (by positivity)

theorem deriv_profile {r : ℝ} (hr : 0 < r) (t z : ℝ) : deriv (profile r t) z = t ^ 2 * z / profile r t z := by
  have hu : 0 < r ^ 2 + (t * z) ^ 2 := by positivity
  have h1 : HasDerivAt (fun z : ℝ => r ^ 2 + (t * z) ^ 2) (2 * t ^ 2 * z) z := by
    have := (((hasDerivAt_id z).const_mul t).pow 2).const_add (r ^ 2)
    refine HasDerivAt.congr_deriv this ?_
    simp only [id]
    norm_num
    ring
  have h2 := (h1.sqrt hu.ne').deriv
  have e : profile r t = fun z => √(r ^ 2 + (t * z) ^ 2) := rfl
  rw [e, h2]
  have := sqrt_pos.mpr hu
  field_simp

theorem integrand {r : ℝ} (hr : 0 < r) (t z : ℝ) :
    2 * π * profile r t z * √(1 + deriv (profile r t) z ^ 2) = 2 * π * √(r ^ 2 + (t * √(1 + t ^ 2) * z) ^ 2) := by
  have hp := profile_pos hr t z
  have h2 : profile r t z ^ 2 = r ^ 2 + (t * z) ^ 2 := sq_sqrt (by positivity)
  rw [deriv_profile hr, mul_assoc]
  congr 1
  rw [← sqrt_sq hp.le, ← sqrt_mul (sq_nonneg _), sqrt_sq hp.le]
  congr 1
  have h3 : (√(1 + t ^ 2)) ^ 2 = 1 + t ^ 2 := sq_sqrt (by positivity)
  rw [div_pow, mul_add, mul_one, mul_div_cancel₀ _ (by positivity), h2, mul_pow (t * √(1 + t ^ 2)), mul_pow t √(1 + t ^ 2), h3]
  ring

/-- An antiderivative. -/
theorem deriv_wall {r c : ℝ} (hr : 0 < r) (hc : c ≠ 0) (z : ℝ) :
    HasDerivAt (fun z => π * (z * √(r ^ 2 + (c * z) ^ 2) + r ^ 2 / c * arsinh (c * z / r))) (2 * π * √(r ^ 2 + (c * z) ^ 2)) z := by
  have hu : 0 < r ^ 2 + (c * z) ^ 2 := by positivity
  have hs := sqrt_pos.mpr hu
  have hs2 := sq_sqrt hu.le
  have h1 : HasDerivAt (fun z : ℝ => r ^ 2 + (c * z) ^ 2) (2 * c ^ 2 * z) z := by
    have := (((hasDerivAt_id z).const_mul c).pow 2).const_add (r ^ 2)
    refine HasDerivAt.congr_deriv this ?_
    simp only [id]
    norm_num
    ring
  have h2 := (hasDerivAt_id z).mul (h1.sqrt hu.ne')
  have h3 : HasDerivAt (fun z : ℝ => c * z / r) (c / r) z := by
    have := ((hasDerivAt_id z).const_mul c).div_const r
    refine HasDerivAt.congr_deriv this ?_
    rw [mul_one]
  have h4 := (h3.arsinh.const_mul (r ^ 2 / c))
  have h5 := (h2.add h4).const_mul π
  refine HasDerivAt.congr_deriv h5 ?_
  have e : √(1 + (c * z / r) ^ 2) = √(r ^ 2 + (c * z) ^ 2) / r := by
    rw [eq_div_iff hr.ne']
    nth_rewrite 2 [← sqrt_sq hr.le]
    rw [← sqrt_mul (by positivity)]
    congr 1
    field_simp
  simp only [id, smul_eq_mul]
  rw [e]
  generalize √(r ^ 2 + (c * z) ^ 2) = w at *
  field_simp
  linear_combination -hs2

theorem wallArea_cylinder {r h : ℝ} (hr : 0 ≤ r) : wallArea r 0 h = 4 * π * r * h := by
  have e : profile r 0 = fun _ => r := by funext z; unfold profile; rw [zero_mul]; simp [sqrt_sq hr]
  unfold wallArea
  rw [e]
  simp
  ring

theorem wallArea_eq {r t : ℝ} (h : ℝ) (hr : 0 < r) (ht : t ≠ 0) : wallArea r t h =
    2 * π * (h * √(r ^ 2 + (t * √(1 + t ^ 2) * h) ^ 2) + r ^ 2 / (t * √(1 + t ^ 2)) * arsinh (t * √(1 + t ^ 2) * h / r)) := by
  have hc : t * √(1 + t ^ 2) ≠ 0 := mul_ne_zero ht (sqrt_pos.mpr (by positivity)).ne'
  unfold wallArea
  simp only [integrand hr]
  rw [intervalIntegral.integral_eq_sub_of_hasDerivAt (fun z _ => deriv_wall hr hc z)
    (by apply Continuous.intervalIntegrable; fun_prop)]
  have e : t * √(1 + t ^ 2) * -h / r = -(t * √(1 + t ^ 2) * h / r) := by ring
  rw [e, arsinh_neg, show t * √(1 + t ^ 2) * -h = -(t * √(1 + t ^ 2) * h) by ring, neg_sq]
  ring

/-- `arsinh x / x` decreases. -/
theorem arsinh_slope {p c z : ℝ} (hp : 0 < p) (hpc : p < c) (hz : 0 < z) : p * arsinh (c * z) < c * arsinh (p * z) := by
  have hc : 0 < c := hp.trans hpc
  have hd : ∀ z : ℝ, HasDerivAt (fun z => c * arsinh (p * z) - p * arsinh (c * z))
      (c * ((√(1 + (p * z) ^ 2))⁻¹ * p) - p * ((√(1 + (c * z) ^ 2))⁻¹ * c)) z := by
    intro z
    have h1 : HasDerivAt (fun z : ℝ => p * z) p z := by simpa using (hasDerivAt_id z).const_mul p
    have h2 : HasDerivAt (fun z : ℝ => c * z) c z := by simpa using (hasDerivAt_id z).const_mul c
    have := ((h1.arsinh).const_mul c).sub ((h2.arsinh).const_mul p)
    refine HasDerivAt.congr_deriv this ?_
    simp [smul_eq_mul]
  have hm : StrictMonoOn (fun z => c * arsinh (p * z) - p * arsinh (c * z)) (Set.Ici 0) := by
    apply strictMonoOn_of_deriv_pos (convex_Ici 0)
    · exact fun z _ => (hd z).continuousAt.continuousWithinAt
    · intro z hz
      rw [interior_Ici] at hz
      rw [(hd z).deriv]
      have hz' : 0 < z := hz
      have h1 : √(1 + (p * z) ^ 2) < √(1 + (c * z) ^ 2) := by
        apply sqrt_lt_sqrt (by positivity)
        have : p * z < c * z := mul_lt_mul_of_pos_right hpc hz'
        have := pow_lt_pow_left₀ this (by positivity) two_ne_zero
        linarith
      have h2 : 0 < √(1 + (p * z) ^ 2) := sqrt_pos.mpr (by positivity)
      have h3 := inv_strictAnti₀ h2 h1
      nlinarith [mul_pos hp hc]
  have := hm (Set.mem_Ici.mpr le_rfl) (Set.mem_Ici.mpr hz.le) hz
  simp at this
  linarith

/-- The code puts `t * |t|` where `t * √(1 + t ^ 2)` belongs. -/
theorem area_wall_lt {r t h : ℝ} (hr : 0 < r) (ht : t ≠ 0) (hh : 0 < h) :
    wallArea r t h < (t * √(t * t) * h * √(r * r + (t ^ 2 + t ^ 4) * h ^ 2) + r * r * arsinh (t * √(t * t) * h / r)) /
      (2 * (t * √(t * t))) * 4 * π := by
  have hpi := pi_pos
  rw [wallArea_eq h hr ht]
  have h3 : (√(1 + t ^ 2)) ^ 2 = 1 + t ^ 2 := sq_sqrt (by positivity)
  have hs : 0 < √(1 + t ^ 2) := sqrt_pos.mpr (by positivity)
  have e1 : r ^ 2 + (t * √(1 + t ^ 2) * h) ^ 2 = r * r + (t ^ 2 + t ^ 4) * h ^ 2 := by
    rw [mul_pow, mul_pow, h3]; ring
  have e2 : √(t * t) = |t| := by rw [← pow_two, sqrt_sq_eq_abs]
  rw [e1, e2]
  have hat : 0 < |t| := abs_pos.mpr ht
  have hlt : |t| < √(1 + t ^ 2) := by
    apply lt_sqrt_of_sq_lt
    rw [sq_abs]; linarith
  have key : 1 / (|t| * √(1 + t ^ 2)) * arsinh (|t| * √(1 + t ^ 2) * (h / r)) <
      1 / (|t| * |t|) * arsinh (|t| * |t| * (h / r)) := by
    have := arsinh_slope (p := |t| * |t|) (c := |t| * √(1 + t ^ 2)) (z := h / r) (by positivity)
      (mul_lt_mul_of_pos_left hlt hat) (by positivity)
    rw [one_div_mul_eq_div, one_div_mul_eq_div, div_lt_div_iff₀ (by positivity) (by positivity)]
    linarith
  have odd : ∀ x : ℝ, 0 < x → r ^ 2 / (t * x) * arsinh (t * x * h / r) = r ^ 2 * (1 / (|t| * x) * arsinh (|t| * x * (h / r))) := by
    intro x hx
    rcases lt_or_gt_of_ne ht with h' | h'
    · rw [abs_of_neg h', show t * x * h / r = -(-t * x * (h / r)) by ring, arsinh_neg]
      have := hx.ne'
      have hn : -t ≠ 0 := neg_ne_zero.mpr ht
      field_simp
    · rw [abs_of_pos h', show t * x * h / r = t * x * (h / r) by ring]
      ring
  have hne : t * |t| ≠ 0 := mul_ne_zero ht hat.ne'
  have e3 : (t * |t| * h * √(r * r + (t ^ 2 + t ^ 4) * h ^ 2) + r * r * arsinh (t * |t| * h / r)) / (2 * (t * |t|)) * 4 * π =
      2 * π * (h * √(r * r + (t ^ 2 + t ^ 4) * h ^ 2) + r ^ 2 / (t * |t|) * arsinh (t * |t| * h / r)) := by
    field_simp
    ring
  rw [e3, odd _ hs, odd _ hat]
  have : r ^ 2 * (1 / (|t| * √(1 + t ^ 2)) * arsinh (|t| * √(1 + t ^ 2) * (h / r))) <
      r ^ 2 * (1 / (|t| * |t|) * arsinh (|t| * |t| * (h / r))) := mul_lt_mul_of_pos_left key (by positivity)
  nlinarith

/-- The area of the surface of the solid: two walls and two lids. -/
noncomputable def trueArea (a : Par) : ℝ :=
  wallArea a.rmax (tan a.stOut) a.dz + wallArea a.rmin (tan a.stIn) a.dz + 2 * (π * (a.out2 a.dz - a.in2 a.dz))

open Classical in
/-- One wall as the code computes it. -/
noncomputable def codeWall (r t h : ℝ) : Option ℝ :=
  if t = 0 then some (4 * π * r * h)
  else if r = 0 then none
  else some ((t * √(t * t) * h * √(r * r + (t ^ 2 + t ^ 4) * h ^ 2) + r * r * arsinh (t * √(t * t) * h / r)) /
      (2 * (t * √(t * t))) * 4 * π)

theorem made_area (a : Par) (m : State) : surfaceArea (a.made m) =
    do return (← codeWall a.rmax (tan a.stOut) a.dz) + (← codeWall a.rmin (tan a.stIn) a.dz) +
      2 * (π * (a.out2 a.dz - a.in2 a.dz)) := by
  have g := good_made a m
  have h0 : surfaceArea (a.made m) = do return (← codeWall a.rmax (tan a.stOut) a.dz) +
      (← codeWall a.rmin (tan a.stIn) a.dz) + areaEndCaps (a.made m) := rfl
  rw [h0]
  unfold areaEndCaps
  rw [g.endOut2, g.endIn2]
  simp only [mul_assoc]

theorem codeWall_spec {r t h : ℝ} (hr : 0 ≤ r) (hh : 0 < h) (h0 : 0 < r ∨ t = 0) :
    ∃ A, codeWall r t h = some A ∧ wallArea r t h ≤ A ∧ (wallArea r t h = A ↔ t = 0) := by
  unfold codeWall
  by_cases ht : t = 0
  · rw [if_pos ht]
    refine ⟨_, rfl, ?_⟩
    rw [ht, wallArea_cylinder hr]
    exact ⟨le_rfl, by simp⟩
  · have hr' : 0 < r := h0.resolve_right ht
    rw [if_neg ht, if_neg hr'.ne']
    have := area_wall_lt hr' ht hh
    exact ⟨_, rfl, this.le, ⟨fun h => absurd h this.ne, fun h => absurd h ht⟩⟩

theorem tan_zero_iff {x : ℝ} (h1 : -(π / 2) < x) (h2 : x < π / 2) : tan x = 0 ↔ x = 0 :=
  ⟨fun h => by_contra fun hx => tan_ne h1 h2 hx h, fun h => by rw [h, tan_zero]⟩

/-- C154: `SurfaceArea` has a value unless the inner surface closes in a point; the value is never less than the area and it is
the area only if both surfaces are cylinders.  Missing: the other hyperboloids, whose value is too large. -/
theorem C154_area_partial (hv : a.Valid) (m : State) (h0 : 0 < a.rmin ∨ a.stIn = 0) :
    ∃ A, surfaceArea (a.made m) = some A ∧ trueArea a ≤ A ∧ (A = trueArea a ↔ a.stIn = 0 ∧ a.stOut = 0) := by
  have hrm : 0 < a.rmax := lt_of_le_of_lt hv.rmin hv.lt
  obtain ⟨A, hA, hA1, hA2⟩ := codeWall_spec (t := tan a.stOut) hrm.le hv.dz (Or.inl hrm)
  obtain ⟨B, hB, hB1, hB2⟩ := codeWall_spec (t := tan a.stIn) hv.rmin hv.dz
    (h0.imp id (fun h => by rw [h, tan_zero]))
  rw [tan_zero_iff hv.outLo hv.outHi] at hA2
  rw [tan_zero_iff hv.inLo hv.inHi] at hB2
  rw [made_area, hA, hB]
  refine ⟨_, rfl, ?_, ?_⟩
  · unfold trueArea; linarith
  · rw [← hA2, ← hB2]
    unfold trueArea
    constructor
    · intro h
      constructor <;> linarith
    · rintro ⟨h1, h2⟩
      rw [h1, h2]

/-- C154: if the inner surface closes in a point the surface area is not a number. -/
theorem C154_area_nan_counterexample (hv : a.Valid) (m : State) (h0 : a.rmin = 0) (h1 : a.stIn ≠ 0) :
    surfaceArea (a.made m) = none := by
  rw [made_area]
  have e : codeWall a.rmin (tan a.stIn) a.dz = none := by
    unfold codeWall
    rw [if_neg (tan_ne hv.inLo hv.inHi h1), if_pos h0]
  rw [e]
  cases codeWall a.rmax (tan a.stOut) a.dz <;> rfl

/-- Not vacuous, and with a value that is too large. -/
example (m : State) : ∃ A, surfaceArea (spool.made m) = some A ∧ trueArea spool < A := by
  obtain ⟨A, h1, h2, h3⟩ := C154_area_partial spool_valid m (Or.inl (by norm_num [spool]))
  refine ⟨A, h1, lt_of_le_of_ne h2 fun h => ?_⟩
  have := (h3.mp h.symm).1
  have hp := pi_pos
  simp only [spool] at this
  linarith

example (m : State) : volume {q : Fin 3 → ℝ | spool.Closed ⟨q 0, q 1, q 2⟩} = ENNReal.ofReal (6 * π) := by
  rw [C154_capacity spool_valid m, made_volume]
  congr 1
  simp only [spool, tan_pi_div_four]
  ring

end Hype
end VecGeom

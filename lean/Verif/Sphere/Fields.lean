import Verif.Sphere.Safety

/-!
# The members of a constructed sphere
-/

namespace VecGeom
namespace Sphere

open Real

/-- The sphere that the constructor makes of the parameters. -/
noncomputable def of (a : Par) : Sph := make a.rmin a.rmax a.s a.d a.ts a.td

/-- Parameters for which the tolerances of the kernels make sense: radii above the tolerance, a phi range that is full or at least
half the angular tolerance smaller, polar angles that are right or not nearly so. -/
structure Par.Kernels (a : Par) : Prop where
  rmax : kTolerance < a.rmax
  rmin : a.rmin = 0 ∨ kTolerance < a.rmin
  d : a.d = 2 * π ∨ a.d < 2 * π - angTol * (1 / 2)
  theta : Regular a.ts a.te

theorem area_eq (t : Sph) : ∃ x, calcArea t = { t with area := x } := by
  unfold calcArea
  by_cases h : t.area ≠ 0
  · rw [if_pos h]; exact ⟨t.area, rfl⟩
  · rw [if_neg h]; exact ⟨_, rfl⟩

theorem capacity_eq (t : Sph) : ∃ x, calcCapacity t = { t with volume := x } := by
  unfold calcCapacity
  by_cases h : t.volume ≠ 0
  · rw [if_pos h]; exact ⟨t.volume, rfl⟩
  · rw [if_neg h]; exact ⟨_, rfl⟩

theorem recalc_eq (t : Sph) : ∃ x y, recalc t = { t with volume := x, area := y } := by
  unfold recalc
  obtain ⟨x, hx⟩ := capacity_eq { t with volume := 0, area := 0 }
  obtain ⟨y, hy⟩ := area_eq (calcCapacity { t with volume := 0, area := 0 })
  rw [hy, hx]
  exact ⟨x, y, rfl⟩

/-- The members before the checks. -/
noncomputable def raw (a : Par) : Sph :=
  { rmin := a.rmin, rmax := a.rmax, sPhi := a.s, dPhi := a.d, sTheta := a.ts, dTheta := a.td, eTheta := 0
    sinS := 0, cosS := 0, sinE := 0, cosE := 0, fullPhi := true, fullTheta := true, full := true, volume := 0, area := 0
    wedge := Wedge.make a.d a.s, cone := ThetaCone.make a.ts a.td }

/-- The members after the checks, before volume and area. -/
noncomputable def checked (a : Par) : Sph := checkTheta (checkPhi (raw a) a.s a.d) a.ts a.td

theorem of_checked (a : Par) : of a = calcArea (calcCapacity (checked a)) := rfl

theorem of_eq (a : Par) : ∃ x y, of a = { checked a with volume := x, area := y } := by
  rw [of_checked]
  obtain ⟨x, hx⟩ := capacity_eq (checked a)
  obtain ⟨y, hy⟩ := area_eq (calcCapacity (checked a))
  rw [hy, hx]
  exact ⟨x, y, rfl⟩

theorem checkSPhi_eq (t : Sph) (s : ℝ) : ∃ x, checkSPhi t s = { t with sPhi := x } := ⟨_, rfl⟩

open Classical in
theorem checkPhi_eq (t : Sph) (s d : ℝ) : ∃ x y f, checkPhi t s d = { t with sPhi := x, dPhi := y, fullPhi := decide (d ≥ 2 * π - angTol * (1 / 2)), full := f } ∧
    (d ≥ 2 * π - angTol * (1 / 2) → y = 2 * π) ∧ (d < 2 * π - angTol * (1 / 2) → 0 < d → y = d) := by
  unfold checkPhi checkDPhi checkSPhi
  by_cases h : d ≥ 2 * π - angTol * (1 / 2)
  · simp only [if_pos h, Bool.not_true, Bool.false_eq_true, if_false, decide_eq_true h]
    exact ⟨_, _, _, rfl, fun _ => rfl, fun h' => absurd h (not_le.mpr h')⟩
  · simp only [if_neg h, Bool.not_false, if_true, decide_eq_false h]
    exact ⟨_, _, _, rfl, fun h' => absurd h' h, fun _ h' => if_pos h'⟩

open Classical in
/-- The members of a constructed sphere. -/
theorem of_members {a : Par} (hv : a.Valid) (hd : a.d = 2 * π ∨ a.d < 2 * π - angTol * (1 / 2)) : ∃ sp f x y, of a =
    { rmin := a.rmin, rmax := a.rmax, sPhi := sp, dPhi := a.d, sTheta := a.ts, dTheta := a.td, eTheta := a.te
      sinS := sin a.ts, cosS := cos a.ts, sinE := sin a.te, cosE := cos a.te, fullPhi := decide (a.d = 2 * π)
      fullTheta := decide (a.ts = 0 ∧ a.te = π), full := f, volume := x, area := y
      wedge := Wedge.make a.d a.s, cone := ThetaCone.make a.ts a.td } := by
  obtain ⟨x, y, e⟩ := of_eq a
  rw [e]
  unfold checked
  obtain ⟨sp, dp, f, e1, e2, e3⟩ := checkPhi_eq (raw a) a.s a.d
  rw [e1]
  have hang : 0 < angTol := by unfold angTol; norm_num
  have hdp : dp = a.d := by
    rcases hd with h | h
    · rw [e2 (by linarith), h]
    · exact e3 h hv.d
  have hfp : decide (a.d ≥ 2 * π - angTol * (1 / 2)) = decide (a.d = 2 * π) := by
    rw [decide_eq_decide]
    constructor
    · intro h
      rcases hd with h1 | h1
      · exact h1
      · linarith
    · intro h; linarith
  rw [hdp, hfp]
  have hte := hv.te
  unfold Par.te at hte
  unfold checkTheta
  rw [if_neg (show ¬ (a.ts < 0 ∨ a.ts > π) by
    rintro (h | h)
    · linarith [hv.ts]
    · linarith [hv.td])]
  have ht : (if a.td + a.ts ≥ π then
      ({ rmin := (raw a).rmin, rmax := (raw a).rmax, sPhi := sp, dPhi := a.d, sTheta := a.ts, dTheta := π - a.ts, eTheta := (raw a).eTheta
         sinS := (raw a).sinS, cosS := (raw a).cosS, sinE := (raw a).sinE, cosE := (raw a).cosE, fullPhi := decide (a.d = 2 * π)
         fullTheta := (raw a).fullTheta, full := f, volume := (raw a).volume, area := (raw a).area, wedge := (raw a).wedge
         cone := (raw a).cone } : Sph)
      else if a.td > 0 then
      ({ rmin := (raw a).rmin, rmax := (raw a).rmax, sPhi := sp, dPhi := a.d, sTheta := a.ts, dTheta := a.td, eTheta := (raw a).eTheta
         sinS := (raw a).sinS, cosS := (raw a).cosS, sinE := (raw a).sinE, cosE := (raw a).cosE, fullPhi := decide (a.d = 2 * π)
         fullTheta := (raw a).fullTheta, full := f, volume := (raw a).volume, area := (raw a).area, wedge := (raw a).wedge
         cone := (raw a).cone } : Sph)
      else
      ({ rmin := (raw a).rmin, rmax := (raw a).rmax, sPhi := sp, dPhi := a.d, sTheta := a.ts, dTheta := (raw a).dTheta, eTheta := (raw a).eTheta
         sinS := (raw a).sinS, cosS := (raw a).cosS, sinE := (raw a).sinE, cosE := (raw a).cosE, fullPhi := decide (a.d = 2 * π)
         fullTheta := (raw a).fullTheta, full := f, volume := (raw a).volume, area := (raw a).area, wedge := (raw a).wedge
         cone := (raw a).cone } : Sph)) =
      { rmin := a.rmin, rmax := a.rmax, sPhi := sp, dPhi := a.d, sTheta := a.ts, dTheta := a.td, eTheta := (raw a).eTheta
        sinS := (raw a).sinS, cosS := (raw a).cosS, sinE := (raw a).sinE, cosE := (raw a).cosE, fullPhi := decide (a.d = 2 * π)
        fullTheta := (raw a).fullTheta, full := f, volume := (raw a).volume, area := (raw a).area, wedge := (raw a).wedge
        cone := (raw a).cone } := by
    by_cases h : a.td + a.ts ≥ π
    · rw [if_pos h, show π - a.ts = a.td by linarith]; rfl
    · rw [if_neg h, if_pos hv.td]; rfl
  simp only [ht]
  have hft : decide (¬ a.td - a.ts < π) = decide (a.ts = 0 ∧ a.te = π) := by
    rw [decide_eq_decide]
    unfold Par.te
    constructor
    · intro h
      have : a.ts = 0 := by linarith [hv.ts]
      exact ⟨this, by linarith⟩
    · rintro ⟨h1, h2⟩; linarith
  rw [hft]
  exact ⟨sp, _, x, y, rfl⟩

end Sphere
end VecGeom

import Verif.Sphere.Props
import Verif.Orb.Props

/-!
# Distances of full shells

The distance kernels of `VecGeom/volumes/kernel/SphereImplementation.h` for spheres of all azimuths and polar angles (`fFullSphere`), with the
checks of `VecGeom/volumes/SphereUtilities.h`.  The branches for sectors are not modelled.
-/

namespace VecGeom
namespace Sphere

open Real

/-- `kSqrtTolerance` (Math.h:29). -/
noncomputable def kSqrtTolerance : ℝ := 31622777 / 10 ^ 12

/-- `IsPointOnInnerRadius`, `IsPointOnOuterRadius` (SphereUtilities.h:54-70), for a radius. -/
def OnRadius (r : ℝ) (p : V3) : Prop := p.mag2 ≤ Tube.plusTolerantSquare true r ∧ p.mag2 ≥ Tube.minusTolerantSquare true r

/-- `IsCompletelyOutside` (SphereUtilities.h:113-127). -/
def CompletelyOutside (t : Sph) (p : V3) : Prop :=
  (p.mag > t.rmax + kTolerance ∨ p.mag < t.rmin - kTolerance) ∨ t.wedge.CompletelyOutside true p ∨ t.cone.CompletelyOutside p

/-- `IsCompletelyInside` (SphereUtilities.h:132-145). -/
def CompletelyInside (t : Sph) (p : V3) : Prop :=
  (p.mag < t.rmax - kTolerance ∧ p.mag > t.rmin + kTolerance) ∧ t.wedge.CompletelyInside p ∧ t.cone.CompletelyInside p

/-- `IsPointOnSurfaceAndMovingOut<Real_v, MovingOut>` (SphereUtilities.h:149-210), for `fDPhi ≥ kTwoPi - kHalfTolerance` and
`fDTheta ≥ kPi - kHalfTolerance`, where the checks of the faces and of the cones are false. -/
def MovingOut (out : Bool) (t : Sph) (p d : V3) : Prop :=
  ((OnRadius t.rmax p ∧ if out then d.dot p > kSqrtTolerance else d.dot p < -kSqrtTolerance) ∨
    (t.rmin ≠ 0 ∧ OnRadius t.rmin p ∧ if out then -(d.dot p) > kSqrtTolerance else -(d.dot p) < -kSqrtTolerance)) ∧
  t.wedge.contains p = true ∧ t.cone.contains p = true

open Classical in
/-- `DistanceToIn` (SphereImplementation.h:109-225) for full spheres. -/
noncomputable def distanceToIn (t : Sph) (p d : V3) : ℝ :=
  let rad2 := p.mag2
  let pDotV3d := p.dot d
  let c := rad2 - t.rmax * t.rmax
  if CompletelyInside t p then -1
  else if MovingOut false t p d then 0
  else
    let d2 := pDotV3d * pDotV3d - c
    if d2 < 0 ∨ (c > 0 ∧ pDotV3d > 0) then kInfLength
    else
      let sd1 := -pDotV3d - √|d2|
      let outerDist := if sd1 ≥ 0 then sd1 else kInfLength
      let c := rad2 - t.rmin * t.rmin
      let d2 := pDotV3d * pDotV3d - c
      let sd2 := if d2 ≥ 0 then -pDotV3d + √|d2| else kInfLength
      let innerDist := if t.rmin ≠ 0 then (if sd2 ≥ 0 then sd2 else kInfLength) else kInfLength
      min outerDist innerDist

open Classical in
/-- `DistanceToOut` (SphereImplementation.h:229-312) for full spheres. -/
noncomputable def distanceToOut (t : Sph) (p d : V3) : ℝ :=
  let rad2 := p.mag2
  let pDotV3d := p.dot d
  if CompletelyOutside t p then -1
  else if MovingOut true t p d then 0
  else
    let c := rad2 - t.rmax * t.rmax
    let d2 := pDotV3d * pDotV3d - c
    let sd1 := if d2 ≥ 0 then -pDotV3d + √|d2| else kInfLength
    let c := rad2 - t.rmin * t.rmin
    let d2 := pDotV3d * pDotV3d - c
    let sd2 := if t.rmin ≠ 0 then (if d2 ≥ 0 ∧ pDotV3d < 0 then -pDotV3d - √|d2| else kInfLength) else kInfLength
    let snxt := min sd1 sd2
    if (t.sTheta = 0 ∧ t.eTheta = π / 2 ∧ d.z ≥ 0) ∨ (t.sTheta = π / 2 ∧ t.eTheta = π ∧ d.z ≤ 0) then snxt
    else min kInfLength snxt

/-- A sphere of all azimuths and polar angles. -/
def Par.All (a : Par) : Prop := a.d = 2 * π ∧ a.ts = 0 ∧ a.te = π

section
variable {a : Par} (hv : a.Valid) (hf : a.All)
include hv hf

theorem all_members : ∃ sp f x y, of a =
    { rmin := a.rmin, rmax := a.rmax, sPhi := sp, dPhi := 2 * π, sTheta := 0, dTheta := π, eTheta := π
      sinS := sin 0, cosS := cos 0, sinE := sin π, cosE := cos π, fullPhi := true
      fullTheta := true, full := f, volume := x, area := y
      wedge := Wedge.make (2 * π) a.s, cone := ThetaCone.make 0 π } := by
  classical
  obtain ⟨sp, f, x, y, e⟩ := of_members hv (Or.inl hf.1)
  have htd : a.td = π := by
    have := hf.2.2
    unfold Par.te at this
    linarith [hf.2.1]
  rw [decide_eq_true hf.1, decide_eq_true hf.2, hf.1, hf.2.1, hf.2.2, htd] at e
  exact ⟨sp, f, x, y, e⟩

omit hv hf in
theorem wedge_never (s : ℝ) (b : Bool) (p : V3) : ¬ (Wedge.make (2 * π) s).CompletelyOutside b p := by
  intro h
  exact ((Wedge.out_iff (by linarith [pi_pos]) (le_refl _) p).mp h.1) (sector_full _ _ _)

omit hv hf in
theorem cone_never (p : V3) : ¬ (ThetaCone.make 0 π).CompletelyOutside p := by
  have hp := pi_gt_three
  rw [outC pi_pos (by unfold kTolerance; linarith) (by unfold kTolerance; linarith)]
  rintro (h3 | h3 | h3)
  · rcases h3.2 with h4 | h4 | h4
    · exact h4.1 rfl
    · exact h4.2 rfl
    · exact h4.2 (zero_add π)
  · have := h3.1
    rw [show tanOf 0 = 0 by
      have := (tanOf_lo (le_refl 0) (by linarith)).2.1
      rw [cos_zero, sin_zero] at this
      linarith, mul_zero, abs_zero] at this
    linarith [rho_nonneg p, slack_pos]
  · have := h3.1
    rw [zero_add, show tanOf π = 0 by
      have := (tanOf_hi (le_refl π) (by linarith)).2.1
      rw [cos_pi, sin_pi] at this
      linarith, mul_zero, abs_zero] at this
    linarith [rho_nonneg p, slack_pos]

theorem outside_iff (p : V3) : CompletelyOutside (of a) p ↔ p.mag > a.rmax + kTolerance ∨ p.mag < a.rmin - kTolerance := by
  obtain ⟨sp, f, x, y, e⟩ := all_members hv hf
  unfold CompletelyOutside
  rw [e]
  constructor
  · rintro (h | h | h)
    · exact h
    · exact absurd h (wedge_never _ _ _)
    · exact absurd h (cone_never _)
  · exact Or.inl

theorem inside_radius {p : V3} (h : CompletelyInside (of a) p) : p.mag < a.rmax - kTolerance ∧ p.mag > a.rmin + kTolerance := by
  obtain ⟨sp, f, x, y, e⟩ := all_members hv hf
  unfold CompletelyInside at h
  rw [e] at h
  exact h.1

theorem moving_radius {b : Bool} {p d : V3} (h : MovingOut b (of a) p d) : OnRadius a.rmax p ∨ (a.rmin ≠ 0 ∧ OnRadius a.rmin p) := by
  obtain ⟨sp, f, x, y, e⟩ := all_members hv hf
  unfold MovingOut at h
  rw [e] at h
  rcases h.1 with h | h
  · exact Or.inl h.1
  · exact Or.inr ⟨h.1, h.2.1⟩

omit hv hf in
theorem onRadius_le {r : ℝ} (hr : 0 ≤ r) {p : V3} (h : OnRadius r p) : p.mag ≤ r + kTolerance := by
  have ht := kTolerance_pos
  have h1 := h.1
  unfold Tube.plusTolerantSquare at h1
  rw [if_pos rfl] at h1
  rw [V3.mag_le_iff (by linarith)]
  nlinarith

omit hv hf in
theorem le_onRadius {r : ℝ} {p : V3} (h : OnRadius r p) : r - 2 * kTolerance ≤ p.mag := by
  have ht := kTolerance_pos
  have h1 := h.2
  unfold Tube.minusTolerantSquare at h1
  rw [if_pos rfl] at h1
  by_contra hc
  have hc := not_le.mp hc
  have hm := mag_nonneg p
  have hp : 0 < r - 2 * kTolerance := by linarith
  rw [abs_of_pos (mul_pos (by linarith) hp)] at h1
  have h2 : p.mag2 < (r - 2 * kTolerance) ^ 2 := by
    rw [mag2_eq]
    exact pow_lt_pow_left₀ hc hm two_ne_zero
  nlinarith

/-- From outside the outer shell the distance is that of the ball. -/
theorem in_outside {p d : V3} (hd : Orb.Unit d) (hp : a.rmax + kTolerance < p.mag) (hfin : p.mag ≤ kInfLength) :
    distanceToIn (of a) p d = Orb.distanceToIn a.rmax p d := by
  have ht := kTolerance_pos
  have hr := hv.rmin
  have hr' := hv.rmax
  have n1 : ¬ CompletelyInside (of a) p := fun h => by linarith [(inside_radius hv hf h).1]
  have n2 : ¬ MovingOut false (of a) p d := fun h => by
    rcases moving_radius hv hf h with h | h
    · linarith [onRadius_le (by linarith) h]
    · linarith [onRadius_le hr h.2]
  obtain ⟨sp, f, x, y, e⟩ := all_members hv hf
  rw [Orb.distanceToIn, if_neg (show ¬ p.mag < a.rmax - kTolerance by linarith),
    if_neg (show ¬ ((p.mag ≥ a.rmax - kTolerance ∧ p.mag ≤ a.rmax + kTolerance) ∧ p.dot d < 0) by rintro ⟨⟨_, h⟩, _⟩; linarith)]
  unfold distanceToIn
  dsimp only
  rw [if_neg n1, if_neg n2]
  rw [e]
  dsimp only
  have hc : 0 < p.mag2 - a.rmax * a.rmax := by
    have := (not_le.mpr hp)
    rw [V3.mag_le_iff (by linarith)] at this
    nlinarith
  unfold Orb.detect
  dsimp only
  simp only [if_true]
  by_cases hm : p.dot d * p.dot d - (p.mag2 - a.rmax * a.rmax) ≥ 0 ∧ p.dot d ≤ 0
  · rw [if_neg (by rintro (h | h) <;> linarith [hm.1, hm.2, h]), decide_eq_true hm]
    simp only [if_true]
    have h0 : -p.dot d - √|p.dot d * p.dot d - (p.mag2 - a.rmax * a.rmax)| ≥ 0 := by
      have : √|p.dot d * p.dot d - (p.mag2 - a.rmax * a.rmax)| ≤ -p.dot d := by
        apply sqrt_le_iff.mpr
        rw [abs_of_nonneg hm.1]
        exact ⟨by linarith [hm.2], by nlinarith⟩
      linarith
    rw [if_pos h0]
    apply min_eq_left
    have hs0 := sqrt_nonneg |p.dot d * p.dot d - (p.mag2 - a.rmax * a.rmax)|
    have hb : -p.dot d ≤ p.mag := by
      have h1 : p.dot d * p.dot d ≤ p.mag ^ 2 := by
        rw [← mag2_eq]
        have hd' : d.x * d.x + d.y * d.y + d.z * d.z = 1 := hd
        show (p.x * d.x + p.y * d.y + p.z * d.z) * (p.x * d.x + p.y * d.y + p.z * d.z) ≤ p.x * p.x + p.y * p.y + p.z * p.z
        nlinarith [sq_nonneg (p.x * d.y - p.y * d.x), sq_nonneg (p.x * d.z - p.z * d.x), sq_nonneg (p.y * d.z - p.z * d.y)]
      have := abs_le_of_sq_le_sq' (show (p.dot d) ^ 2 ≤ p.mag ^ 2 by rw [sq]; exact h1) (mag_nonneg p)
      linarith [this.1]
    split_ifs
    · have := sqrt_nonneg |p.dot d * p.dot d - (p.mag2 - a.rmin * a.rmin)|
      linarith
    · linarith
    · linarith
    · linarith
    · linarith
  · rw [decide_eq_false hm]
    simp only [Bool.false_eq_true, if_false]
    rw [if_pos]
    by_contra hno
    simp only [not_or, not_and, not_lt] at hno
    exact hm ⟨hno.1, hno.2 hc⟩

/-- C175: entering a full shell from outside: a ray that meets the ball gets the distance of the first point of it. -/
theorem C175_in_outside {p d : V3} (hd : Orb.Unit d) (hp : a.rmax + kTolerance < p.mag) (hfin : p.mag ≤ kInfLength) {t : ℝ} (ht : 0 ≤ t)
    (hin : (V3.at' p d t).mag ≤ a.rmax) :
    0 ≤ distanceToIn (of a) p d ∧ (V3.at' p d (distanceToIn (of a) p d)).mag = a.rmax ∧
    ∀ s, 0 ≤ s → s < distanceToIn (of a) p d → a.rmax < (V3.at' p d s).mag := by
  rw [in_outside hv hf hd hp hfin]
  exact Orb.C44_distance_in (by linarith [hv.rmin, hv.rmax]) hd hp ht hin

/-- C175: a ray from outside that does not meet the ball gets the infinite distance. -/
theorem C175_in_miss {p d : V3} (hd : Orb.Unit d) (hp : a.rmax + kTolerance < p.mag) (hfin : p.mag ≤ kInfLength)
    (hmiss : ∀ t, 0 ≤ t → a.rmax < (V3.at' p d t).mag) : distanceToIn (of a) p d = kInfLength := by
  rw [in_outside hv hf hd hp hfin]
  exact Orb.C44_distance_in_miss (by linarith [hv.rmin, hv.rmax]) hd hp hmiss

/-- From the hole the distance is that of leaving the inner ball. -/
theorem in_hole {p d : V3} (hd : Orb.Unit d) (hp : p.mag < a.rmin - 2 * kTolerance) (hfin : 2 * a.rmin ≤ kInfLength) :
    distanceToIn (of a) p d = Orb.distanceToOut a.rmin p d := by
  have ht := kTolerance_pos
  have hr' := hv.rmax
  have hm := mag_nonneg p
  have hr : 0 < a.rmin := by linarith
  have n1 : ¬ CompletelyInside (of a) p := fun h => by linarith [(inside_radius hv hf h).2]
  have n2 : ¬ MovingOut false (of a) p d := fun h => by
    rcases moving_radius hv hf h with h | h
    · linarith [le_onRadius h]
    · linarith [le_onRadius h.2]
  obtain ⟨sp, f, x, y, e⟩ := all_members hv hf
  rw [Orb.distanceToOut, if_neg (show ¬ p.mag > a.rmin + kTolerance by linarith),
    if_neg (show ¬ ((p.mag ≥ a.rmin - kTolerance ∧ p.mag ≤ a.rmin + kTolerance) ∧ p.dot d > 0) by rintro ⟨⟨h, _⟩, _⟩; linarith)]
  unfold distanceToIn
  dsimp only
  rw [if_neg n1, if_neg n2]
  rw [e]
  dsimp only
  have hc1 : p.mag2 - a.rmin * a.rmin < 0 := by rw [mag2_eq]; nlinarith
  have hc2 : p.mag2 - a.rmax * a.rmax < 0 := by nlinarith
  have hq := mul_self_nonneg (p.dot d)
  have hd1 : 0 ≤ p.dot d * p.dot d - (p.mag2 - a.rmin * a.rmin) := by linarith
  have hd2 : 0 ≤ p.dot d * p.dot d - (p.mag2 - a.rmax * a.rmax) := by linarith
  have hb := (Orb.le_sqrt_abs_iff hd1).mp (show p.dot d * p.dot d ≤ _ by linarith)
  have hb2 : -p.dot d < √|p.dot d * p.dot d - (p.mag2 - a.rmax * a.rmax)| := by
    rw [abs_of_nonneg hd2]
    apply lt_sqrt_of_sq_lt
    nlinarith
  unfold Orb.detect
  dsimp only
  simp only [Bool.false_eq_true, if_false]
  rw [if_neg (by rintro (h | h) <;> linarith [h, hc2]), if_neg (by linarith), if_pos hr.ne', if_pos (show _ ≥ _ from hd1),
    if_pos (by linarith [hb.2]), decide_eq_true (show _ ≥ _ from hd1)]
  simp only [if_true]
  apply min_eq_right
  have hb3 : -p.dot d ≤ p.mag := by
    have h1 : p.dot d * p.dot d ≤ p.mag ^ 2 := by
      rw [← mag2_eq]
      have hd' : d.x * d.x + d.y * d.y + d.z * d.z = 1 := hd
      show (p.x * d.x + p.y * d.y + p.z * d.z) * (p.x * d.x + p.y * d.y + p.z * d.z) ≤ p.x * p.x + p.y * p.y + p.z * p.z
      nlinarith [sq_nonneg (p.x * d.y - p.y * d.x), sq_nonneg (p.x * d.z - p.z * d.x), sq_nonneg (p.y * d.z - p.z * d.y)]
    have := abs_le_of_sq_le_sq' (show (p.dot d) ^ 2 ≤ p.mag ^ 2 by rw [sq]; exact h1) (mag_nonneg p)
    linarith [this.1]
  have h2 : √|p.dot d * p.dot d - (p.mag2 - a.rmin * a.rmin)| ≤ a.rmin := by
    rw [abs_of_nonneg hd1]
    apply sqrt_le_iff.mpr
    refine ⟨hr.le, ?_⟩
    have h1 : p.dot d * p.dot d ≤ p.mag2 := by
      have hd' : d.x * d.x + d.y * d.y + d.z * d.z = 1 := hd
      show (p.x * d.x + p.y * d.y + p.z * d.z) * (p.x * d.x + p.y * d.y + p.z * d.z) ≤ p.x * p.x + p.y * p.y + p.z * p.z
      nlinarith [sq_nonneg (p.x * d.y - p.y * d.x), sq_nonneg (p.x * d.z - p.z * d.x), sq_nonneg (p.y * d.z - p.z * d.y)]
    nlinarith
  linarith

/-- C175: entering a full shell from its hole: the distance leads to the inner shell, and all points before are in the hole. -/
theorem C175_in_hole {p d : V3} (hd : Orb.Unit d) (hp : p.mag < a.rmin - 2 * kTolerance) (hfin : 2 * a.rmin ≤ kInfLength) :
    0 ≤ distanceToIn (of a) p d ∧ (V3.at' p d (distanceToIn (of a) p d)).mag = a.rmin ∧
    (∀ s, 0 ≤ s → s ≤ distanceToIn (of a) p d → (V3.at' p d s).mag ≤ a.rmin) ∧
    (∀ s, distanceToIn (of a) p d < s → a.rmin < (V3.at' p d s).mag) := by
  have ht := kTolerance_pos
  rw [in_hole hv hf hd hp hfin]
  exact Orb.C44_distance_out hv.rmin hd (by linarith) (Or.inl (by linarith))

/-- The distance to leave is the smaller of leaving the outer ball and entering the inner one. -/
theorem out_eq {p d : V3} (hp : p.mag < a.rmax - 2 * kTolerance) (hp' : a.rmin ≠ 0 → a.rmin + kTolerance < p.mag) :
    distanceToOut (of a) p d = min kInfLength (min (Orb.distanceToOut a.rmax p d) (if a.rmin ≠ 0 then Orb.distanceToIn a.rmin p d else kInfLength)) := by
  have ht := kTolerance_pos
  have hr := hv.rmin
  have hr' := hv.rmax
  have hm := mag_nonneg p
  have n1 : ¬ CompletelyOutside (of a) p := by
    rw [outside_iff hv hf]
    rintro (h | h)
    · linarith
    · by_cases h0 : a.rmin = 0
      · linarith
      · linarith [hp' h0]
  have n2 : ¬ MovingOut true (of a) p d := fun h => by
    rcases moving_radius hv hf h with h | h
    · linarith [le_onRadius h]
    · linarith [onRadius_le hr h.2, hp' h.1]
  obtain ⟨sp, f, x, y, e⟩ := all_members hv hf
  have hc2 : p.mag2 - a.rmax * a.rmax < 0 := by rw [mag2_eq]; nlinarith
  have hq := mul_self_nonneg (p.dot d)
  have hd2 : 0 ≤ p.dot d * p.dot d - (p.mag2 - a.rmax * a.rmax) := by linarith
  unfold distanceToOut
  dsimp only
  rw [if_neg n1, if_neg n2, e]
  dsimp only
  rw [if_neg (by
    have := pi_pos
    rintro (h | h)
    · linarith [h.2.1]
    · linarith [h.1])]
  congr 1
  congr 1
  · rw [Orb.distanceToOut, if_neg (show ¬ p.mag > a.rmax + kTolerance by linarith),
      if_neg (show ¬ ((p.mag ≥ a.rmax - kTolerance ∧ p.mag ≤ a.rmax + kTolerance) ∧ p.dot d > 0) by rintro ⟨⟨h, _⟩, _⟩; linarith)]
    unfold Orb.detect
    dsimp only
    simp only [Bool.false_eq_true, if_false]
    rw [if_pos (show _ ≥ _ from hd2), decide_eq_true (show _ ≥ _ from hd2)]
    simp only [if_true]
  · by_cases h0 : a.rmin ≠ 0
    · have h1 := hp' h0
      rw [if_pos h0, if_pos h0]
      rw [Orb.distanceToIn, if_neg (show ¬ p.mag < a.rmin - kTolerance by linarith),
        if_neg (show ¬ ((p.mag ≥ a.rmin - kTolerance ∧ p.mag ≤ a.rmin + kTolerance) ∧ p.dot d < 0) by rintro ⟨⟨_, h⟩, _⟩; linarith)]
      unfold Orb.detect
      dsimp only
      simp only [if_true]
      have hc1 : 0 < p.mag2 - a.rmin * a.rmin := by rw [mag2_eq]; nlinarith
      by_cases hm2 : p.dot d * p.dot d - (p.mag2 - a.rmin * a.rmin) ≥ 0 ∧ p.dot d ≤ 0
      · have hlt : p.dot d < 0 := by
          rcases lt_or_eq_of_le hm2.2 with h | h
          · exact h
          · have := hm2.1
            rw [h] at this
            linarith
        rw [if_pos ⟨hm2.1, hlt⟩, decide_eq_true hm2]
        simp only [if_true]
      · rw [if_neg (fun h => hm2 ⟨h.1, h.2.le⟩), decide_eq_false hm2]
        simp only [Bool.false_eq_true, if_false]
    · rw [if_neg h0, if_neg h0]

/-- C175: leaving a full shell: the distance leads to one of the shells, and all points before are in the solid. -/
theorem C175_out {p d : V3} (hd : Orb.Unit d) (hp : p.mag < a.rmax - 2 * kTolerance) (hp' : a.rmin ≠ 0 → a.rmin + kTolerance < p.mag)
    (hfin : 2 * a.rmax ≤ kInfLength) :
    0 ≤ distanceToOut (of a) p d ∧ (∀ s, 0 ≤ s → s ≤ distanceToOut (of a) p d → a.Closed (V3.at' p d s)) ∧
    ((V3.at' p d (distanceToOut (of a) p d)).mag = a.rmax ∨ (0 < a.rmin ∧ (V3.at' p d (distanceToOut (of a) p d)).mag = a.rmin)) := by
  have ht := kTolerance_pos
  have hr := hv.rmin
  have hr' := hv.rmax
  have hm0 := mag_nonneg p
  have hR : 0 < a.rmax := by linarith
  obtain ⟨o1, o2, o3, o4⟩ := Orb.C44_distance_out hR.le hd (show p.mag ≤ a.rmax by linarith) (Or.inl (by linarith))
  have hclosed : ∀ q : V3, a.rmin ≤ q.mag → q.mag ≤ a.rmax → a.Closed q := fun q h1 h2 =>
    ⟨h1, h2, by rw [hf.1]; exact sector_full _ _ _, polar_all hv hf.2 q⟩
  have hbig : Orb.distanceToOut a.rmax p d ≤ kInfLength := by
    have hdist : ∀ t, 0 ≤ t → (V3.at' p d t).mag ≤ a.rmax → t ≤ 2 * a.rmax := by
      intro t h0 h
      have hb := (Orb.ray_ball hR.le hd t).mp h
      have h1 : p.dot d * p.dot d ≤ p.mag ^ 2 := by
        rw [← mag2_eq]
        have hd' : d.x * d.x + d.y * d.y + d.z * d.z = 1 := hd
        show (p.x * d.x + p.y * d.y + p.z * d.z) * (p.x * d.x + p.y * d.y + p.z * d.z) ≤ p.x * p.x + p.y * p.y + p.z * p.z
        nlinarith [sq_nonneg (p.x * d.y - p.y * d.x), sq_nonneg (p.x * d.z - p.z * d.x), sq_nonneg (p.y * d.z - p.z * d.y)]
      have h2 := abs_le_of_sq_le_sq' (show (p.dot d) ^ 2 ≤ p.mag ^ 2 by rw [sq]; exact h1) hm0
      have h3 : (t + p.dot d) ^ 2 ≤ a.rmax ^ 2 := by rw [mag2_eq] at hb; nlinarith
      have h4 := abs_le_of_sq_le_sq' h3 hR.le
      linarith [h4.2, h2.1]
    exact (hdist _ o1 o2.le).trans hfin
  rw [out_eq hv hf hp hp']
  by_cases h0 : a.rmin ≠ 0
  · have hr0 : 0 < a.rmin := lt_of_le_of_ne hr (Ne.symm h0)
    have h1 := hp' h0
    rw [if_pos h0]
    by_cases hhit : ∃ t, 0 ≤ t ∧ (V3.at' p d t).mag ≤ a.rmin
    · obtain ⟨t, t0, t1⟩ := hhit
      obtain ⟨i1, i2, i3⟩ := Orb.C44_distance_in hr hd h1 t0 t1
      have hle : Orb.distanceToIn a.rmin p d ≤ Orb.distanceToOut a.rmax p d := by
        by_contra hc
        have := o4 _ (not_le.mp hc)
        linarith
      rw [min_eq_right hle, min_eq_right (hle.trans hbig)]
      refine ⟨i1, fun s s0 s1 => hclosed _ ?_ (o3 s s0 (s1.trans hle)), Or.inr ⟨hr0, i2⟩⟩
      rcases lt_or_eq_of_le s1 with h | h
      · exact (i3 s s0 h).le
      · rw [h, i2]
    · have hmiss : ∀ t, 0 ≤ t → a.rmin < (V3.at' p d t).mag := fun t t0 => by
        by_contra hc
        exact hhit ⟨t, t0, not_lt.mp hc⟩
      rw [Orb.C44_distance_in_miss hr hd h1 hmiss, min_eq_left hbig, min_eq_right hbig]
      exact ⟨o1, fun s s0 s1 => hclosed _ (hmiss s s0).le (o3 s s0 s1), Or.inl o2⟩
  · rw [if_neg h0, min_eq_left hbig, min_eq_right hbig]
    exact ⟨o1, fun s s0 s1 => hclosed _ (by rw [not_not.mp h0]; exact mag_nonneg _) (o3 s s0 s1), Or.inl o2⟩

/-- C175: the distance to leave from beyond the tolerance outside of the shells is -1. -/
theorem C175_out_wrong_side {p d : V3} (h : p.mag > a.rmax + kTolerance ∨ p.mag < a.rmin - kTolerance) : distanceToOut (of a) p d = -1 := by
  unfold distanceToOut
  dsimp only
  rw [if_pos ((outside_iff hv hf p).mpr h)]

end

/-- A shell. -/
noncomputable def shell : Par := ⟨1, 2, 0, 2 * π, 0, π⟩

theorem shell_valid : shell.Valid :=
  ⟨by norm_num [shell], by norm_num [shell], by show 0 < 2 * π; linarith [pi_pos], le_refl _, le_refl _, pi_pos, by show 0 + π ≤ π; linarith⟩

theorem shell_all : shell.All := ⟨rfl, rfl, zero_add π⟩

/-- The hypotheses are met: from the centre the inner shell is met, from outside the outer one. -/
example : (V3.at' ⟨0, 0, 0⟩ ⟨1, 0, 0⟩ (distanceToIn (of shell) ⟨0, 0, 0⟩ ⟨1, 0, 0⟩)).mag = 1 := by
  have hbig := kInfLength_large
  refine (C175_in_hole shell_valid shell_all (show Orb.Unit ⟨1, 0, 0⟩ by norm_num [Orb.Unit, V3.mag2, V3.dot]) ?_ (by show 2 * (1 : ℝ) ≤ _; linarith)).2.1
  rw [show (⟨0, 0, 0⟩ : V3).mag = 0 by unfold V3.mag V3.mag2; simp [V3.dot]]
  show (0 : ℝ) < 1 - 2 * kTolerance
  unfold kTolerance; norm_num

/-- The hypotheses of the others are met: a point outside with a direction to the centre, and a point in the shell. -/
example : Orb.Unit ⟨-1, 0, 0⟩ ∧ shell.rmax + kTolerance < (⟨5, 0, 0⟩ : V3).mag ∧ (⟨5, 0, 0⟩ : V3).mag ≤ kInfLength ∧
    (V3.at' ⟨5, 0, 0⟩ ⟨-1, 0, 0⟩ 5).mag ≤ shell.rmax ∧
    (⟨3 / 2, 0, 0⟩ : V3).mag < shell.rmax - 2 * kTolerance ∧ shell.rmin + kTolerance < (⟨3 / 2, 0, 0⟩ : V3).mag := by
  have hbig := kInfLength_large
  have m : ∀ u : ℝ, 0 ≤ u → (⟨u, 0, 0⟩ : V3).mag = u := fun u hu => by
    rw [← sqrt_sq (mag_nonneg _), mag_sq, rho_sq, show (u ^ 2 + 0 ^ 2 + 0 ^ 2) = u ^ 2 by ring, sqrt_sq hu]
  rw [show V3.at' ⟨5, 0, 0⟩ ⟨-1, 0, 0⟩ 5 = ⟨0, 0, 0⟩ by ext <;> norm_num [V3.at', V3.smul], m _ (by norm_num), m _ (by norm_num), m _ (by norm_num)]
  unfold kTolerance
  refine ⟨by norm_num [Orb.Unit, V3.mag2, V3.dot], ?_, by linarith, ?_, ?_, ?_⟩ <;> norm_num [shell]

/-- C175 fails for the wrong side: from a point within the shell whose azimuth is the start angle, the distance to enter is not -1 but
infinite, as if the solid were missed; from another azimuth it is -1. -/
theorem C175_in_wrong_side_counterexample : distanceToIn (of shell) ⟨3 / 2, 0, 0⟩ ⟨1, 0, 0⟩ = kInfLength ∧
    distanceToIn (of shell) ⟨0, 3 / 2, 0⟩ ⟨1, 0, 0⟩ = -1 ∧ contains (of shell) ⟨3 / 2, 0, 0⟩ = true := by
  have hp := pi_gt_three
  have hmx : ∀ q : V3, q = ⟨3 / 2, 0, 0⟩ ∨ q = ⟨0, 3 / 2, 0⟩ → q.mag = 3 / 2 := by
    rintro q (rfl | rfl)
    · rw [← sqrt_sq (mag_nonneg _), mag_sq, rho_sq, show ((3 / 2 : ℝ) ^ 2 + 0 ^ 2 + 0 ^ 2) = (3 / 2) ^ 2 by ring, sqrt_sq (by norm_num)]
    · rw [← sqrt_sq (mag_nonneg _), mag_sq, rho_sq, show ((0 : ℝ) ^ 2 + (3 / 2) ^ 2 + 0 ^ 2) = (3 / 2) ^ 2 by ring, sqrt_sq (by norm_num)]
  have m1 := hmx ⟨3 / 2, 0, 0⟩ (Or.inl rfl)
  have m2 := hmx ⟨0, 3 / 2, 0⟩ (Or.inr rfl)
  obtain ⟨sp, f, x, y, e⟩ := all_members shell_valid shell_all
  refine ⟨?_, ?_, ?_⟩
  · have n1 : ¬ CompletelyInside (of shell) ⟨3 / 2, 0, 0⟩ := by
      unfold CompletelyInside
      rw [e]
      rintro ⟨-, h, -⟩
      refine h.1 (Or.inl ?_)
      show (Wedge.make (2 * π) 0).IsOnSurface1 _
      rw [Wedge.on1_iff]
      exact ⟨0, by rw [abs_zero]; exact kTolerance_pos, by
        unfold AboveRay
        refine ⟨3 / 2, by norm_num, ?_, ?_⟩ <;> simp⟩
    have n2 : ¬ MovingOut false (of shell) ⟨3 / 2, 0, 0⟩ ⟨1, 0, 0⟩ := fun h => by
      rcases moving_radius shell_valid shell_all h with h | h
      · have := le_onRadius h
        rw [m1] at this
        unfold kTolerance at this
        norm_num [shell] at this
      · have := onRadius_le (by norm_num [shell]) h.2
        rw [m1] at this
        unfold kTolerance at this
        norm_num [shell] at this
    unfold distanceToIn
    dsimp only
    rw [if_neg n1, if_neg n2, e]
    dsimp only [shell]
    have e1 : (⟨3 / 2, 0, 0⟩ : V3).dot ⟨1, 0, 0⟩ = 3 / 2 := by norm_num [V3.dot]
    have e2 : (⟨3 / 2, 0, 0⟩ : V3).mag2 = 9 / 4 := by rw [mag2_eq, m1]; norm_num
    have s1 : √|(3 / 2 : ℝ) * (3 / 2) - (9 / 4 - 2 * 2)| = 2 := by
      rw [show |(3 / 2 : ℝ) * (3 / 2) - (9 / 4 - 2 * 2)| = 2 ^ 2 by norm_num, sqrt_sq (by norm_num)]
    have s2 : √|(3 / 2 : ℝ) * (3 / 2) - (9 / 4 - 1 * 1)| = 1 := by
      rw [show |(3 / 2 : ℝ) * (3 / 2) - (9 / 4 - 1 * 1)| = 1 ^ 2 by norm_num, sqrt_sq (by norm_num)]
    simp only [e1, e2, s1, s2]
    norm_num
  · unfold distanceToIn
    dsimp only
    rw [if_pos]
    unfold CompletelyInside
    rw [e]
    refine ⟨?_, ⟨?_, wedge_never _ _ _⟩, ?_⟩
    · rw [m2]
      unfold kTolerance
      norm_num [shell]
    · rintro (h | h)
      · have h' : (Wedge.make (2 * π) 0).IsOnSurface1 ⟨0, 3 / 2, 0⟩ := h
        rw [Wedge.on1_iff] at h'
        obtain ⟨k, hk, r, hr0, hx, hy⟩ := h'
        simp at hx hy
        rw [← hy] at hk
        unfold kTolerance at hk
        norm_num [abs_lt] at hk
      · have h' : (Wedge.make (2 * π) 0).IsOnSurface2 ⟨0, 3 / 2, 0⟩ := h
        rw [Wedge.on2_iff] at h'
        obtain ⟨k, hk, r, hr0, hx, hy⟩ := h'
        simp at hx hy
        rw [← hy] at hk
        unfold kTolerance at hk
        norm_num [abs_lt] at hk
    · rw [inC pi_pos (by unfold kTolerance; linarith) (by unfold kTolerance; linarith)]
      exact Or.inr (Or.inl ⟨rfl, Or.inr (by norm_num)⟩)
  · classical
    unfold contains
    rw [decide_eq_true_iff, e]
    rintro (h | h | h)
    · unfold RadialOut at h
      rw [mag2_eq, m1] at h
      unfold Tube.plusTolerantSquare Tube.minusTolerantSquare at h
      rw [if_pos rfl, if_pos rfl] at h
      dsimp only [shell] at h
      unfold kTolerance at h
      rcases h with h | h
      · norm_num at h
      · have := h.2
        norm_num [abs_of_pos] at this
    · cases h.1
    · cases h.1

end Sphere
end VecGeom

import Verif.Cone.Lemmas
import Verif.Wedge.Props
import Verif.Tube.Props

/-!
# Membership and safeties of the cone

C142: membership, classification and the factory.  C143: safeties.
-/

namespace VecGeom
namespace Cone

open Real Tube

variable {a : Par} {ty : CType}

/-- A quarter of a hollow cone, used as an example. -/
noncomputable def quarter : Par := ⟨1, 2, 2, 4, 3, 0, π / 2⟩

theorem quarter_valid : quarter.Valid := by
  have := pi_pos
  have := two_le_pi
  constructor <;> simp only [quarter] <;> try norm_num
  · linarith
  · left; linarith

theorem quarter_fits : Fits ⟨some true, .smaller⟩ quarter := by
  have := pi_pos
  refine ⟨by simp, fun _ => .inl (by norm_num [quarter]), by simp, fun _ => ?_, by simp, by simp⟩
  simp only [quarter]; linarith

/-- A pointed cone, used as an example. -/
noncomputable def pointed : Par := ⟨0, 0, 0, 1, 1, 0, 2 * π⟩

theorem pointed_valid : pointed.Valid := by
  have := pi_pos
  constructor <;> simp only [pointed] <;> try norm_num
  linarith

theorem fits_universal (a : Par) : Fits universal a := ⟨by simp [universal], by simp [universal], by simp [universal],
  by simp [universal], by simp [universal], by simp [universal]⟩

/-! ## C142 -/

/-- C142: `Contains` is membership of the half-open cone, for every type that agrees with the parameters; where the radii agree the
outer one counts as enlarged by the tolerance. -/
theorem C142_contains (hv : a.Valid) (hf : Fits ty a) (p : V3) : contains ty (of a) p = true ↔ a.fix.In p := by
  have hw : (PhiT ty (of a) ∧ (of a).wedge.CompletelyOutside false p) ↔ ¬ Sector a.s a.d p.x p.y := by
    unfold Wedge.CompletelyOutside
    rw [wedge_out hv, phiT_iff hv hf]
    by_cases hp : a.d < 2 * π
    · simp [hp]
    · simp [hp, sector_of_not_lt hv hp]
  unfold contains
  simp only [decide_eq_true_iff]
  unfold CompletelyOutside
  simp only [hw, rminT_iff hv hf, perp2_eq, Bool.false_eq_true, if_false, outerRad_of hv, innerLine_of hv, of_dz hv, not_or,
    not_lt, not_not, not_and, not_le, gt_iff_lt]
  constructor
  · rintro ⟨h1, h2, h3, h4⟩
    have ho := outer_pos hv h1
    have hi := inner_nonneg hv h1
    refine ⟨h1, fun h => ?_, ?_, h4⟩
    · exact lt_of_pow_lt_pow_left₀ 2 (rad_nonneg p) (by have := h3 h; rw [fix_inner]; linarith [sq (a.inner p.z)])
    · exact le_of_sq_le_sq (by linarith [sq (a.fix.outer p.z)]) ho.le
  · rintro ⟨h1, h2, h3, h4⟩
    have ho := outer_pos hv h1
    have hi := inner_nonneg hv h1
    have hr := rad_nonneg p
    refine ⟨h1, ?_, fun h => ?_, h4⟩
    · rw [← sq]; exact pow_le_pow_left₀ hr h3 2
    · rw [← sq]; exact pow_lt_pow_left₀ (h2 h) hi (by norm_num)

/-- C142: what the enlargement amounts to.  Points of the cone as given are contained; a contained point is at most the tolerance
outside the outer surface as given, and otherwise in the cone as given.  If the radii differ at both ends, `Contains` is membership
of the cone as given. -/
theorem C142_contains_given (hv : a.Valid) (hf : Fits ty a) (p : V3) :
    (a.In p → contains ty (of a) p = true) ∧
    (contains ty (of a) p = true → |p.z| ≤ a.z ∧ (a.Hollow → a.inner p.z < rad p) ∧ rad p ≤ a.outer p.z + 1 / 10 ^ 7 ∧
      Sector a.s a.d p.x p.y) ∧
    (a.rmin1 < a.rmax1 → a.rmin2 < a.rmax2 → (contains ty (of a) p = true ↔ a.In p)) := by
  rw [C142_contains hv hf]
  refine ⟨fun h => ⟨h.z, h.lo, h.hi.trans (line_le_line hv.z fix_ge1 fix_ge2 h.z), h.phi⟩, fun h => ⟨h.z, h.lo, ?_, h.phi⟩,
    fun h1 h2 => by rw [fix_of_ne h1 h2]⟩
  refine h.hi.trans ((line_le_line hv.z fix_le1 fix_le2 h.z).trans ?_)
  rw [line_add, line_const _ _ _ hv.z]
  simp only [kConeTolerance]
  exact le_refl _

/-- The example cone contains a point and not its mirror image. -/
example : contains ⟨some true, .smaller⟩ (of quarter) ⟨2, 2, 0⟩ = true ∧
    contains ⟨some true, .smaller⟩ (of quarter) ⟨-2, 2, 0⟩ = false := by
  have hp := pi_pos
  have hr : ∀ p : V3, p.x ^ 2 + p.y ^ 2 = 8 → 3 / 2 < rad p ∧ rad p ≤ 3 := by
    intro p h
    rw [lt_rad (by norm_num), rad_le (by norm_num), h]
    norm_num
  have hc := fun p => (C142_contains_given quarter_valid quarter_fits p).2.2 (by norm_num [quarter]) (by norm_num [quarter])
  refine ⟨(hc _).mpr ⟨?_, fun _ => ?_, ?_, ?_⟩, Bool.not_eq_true _ ▸ fun h => ?_⟩
  · simp [quarter]
  · have := (hr ⟨2, 2, 0⟩ (by norm_num)).1
    simp only [Par.inner, line, quarter]; linarith
  · have := (hr ⟨2, 2, 0⟩ (by norm_num)).2
    simp only [Par.outer, line, quarter]; linarith
  · rw [show quarter.s = 0 from rfl, show quarter.d = π / 2 from rfl, sector_small (by linarith) (by linarith)]
    simp
  · have := ((hc _).mp h).phi
    rw [show quarter.s = 0 from rfl, show quarter.d = π / 2 from rfl, sector_small (by linarith) (by linarith)] at this
    norm_num at this

/-- The tip of the pointed cone is contained, and so is a point half a tolerance beside it, which is not in the cone as given. -/
example : contains universal (of pointed) ⟨1 / 2 / 10 ^ 7, 0, -1⟩ = true ∧ ¬ pointed.In ⟨1 / 2 / 10 ^ 7, 0, -1⟩ := by
  have hr : rad ⟨1 / 2 / 10 ^ 7, 0, -1⟩ = 1 / 2 / 10 ^ 7 := by
    unfold rad; simp only
    rw [show ((1 : ℝ) / 2 / 10 ^ 7) ^ 2 + (0 : ℝ) ^ 2 = (1 / 2 / 10 ^ 7) ^ 2 by ring, sqrt_sq (by norm_num)]
  refine ⟨(C142_contains pointed_valid (fits_universal _) _).mpr ⟨by simp [pointed], fun h => ?_, ?_, sector_full _ _ _⟩, fun h => ?_⟩
  · exact absurd h (by norm_num [Par.Hollow, pointed])
  · rw [hr]; norm_num [Par.outer, line, Par.fix, pointed, kConeTolerance]
  · have := h.hi
    rw [hr] at this
    norm_num [Par.outer, line, pointed] at this

/-- `Contains` of what the factory returns. -/
noncomputable def Made.contains (m : Made) (p : V3) : Bool :=
  match m with
  | .cone ty c => Cone.contains ty c p
  | .tube ty _ t => Tube.contains ty t p

theorem tube_fits (b : Bool) (rmin rmax z s d : ℝ) (hd0 : 0 < d) (hd : d ≤ 2 * π) (hb : b = true → rmin = 0) :
    Tube.Fits ⟨b, sectorOf d⟩ ⟨rmin, rmax, z, s, d⟩ := by
  have := pi_pos
  refine ⟨hb, ?_⟩
  simp only [sectorOf]
  split
  · simp; linarith
  · split
    · simp; assumption
    · split
      · simp; assumption
      · simp; exact ⟨lt_of_le_of_ne (by linarith) (by tauto), by linarith⟩

/-- C142: whatever the factory returns for valid parameters, a cone of some type or an object that answers like a tube, contains
exactly the points of the cone. -/
theorem C142_factory (hv : a.Valid) (p : V3) :
    (makeInstance a.rmin1 a.rmax1 a.rmin2 a.rmax2 a.z a.s a.d).contains p = true ↔ a.fix.In p := by
  have hpi := pi_pos
  have hd2 : (if a.d ≥ 2 * π then 2 * π else a.d) = a.d := by
    split
    · rename_i h; exact le_antisymm h hv.dle
    · rfl
  have hsec : (sectorOf a.d = .none → a.d = 2 * π) ∧ (sectorOf a.d = .smaller → a.d < π) ∧ (sectorOf a.d = .pi → a.d = π) ∧
      (sectorOf a.d = .bigger → π < a.d ∧ a.d < 2 * π) := (tube_fits false 0 0 0 0 a.d hv.d hv.dle (by simp)).2
  -- the tube
  have htube : ∀ b : Bool, a.rmin1 = a.rmin2 → a.rmax1 = a.rmax2 → (b = true → a.rmin1 = 0) →
      (Tube.contains ⟨b, sectorOf a.d⟩ (Tube.make a.rmin1 a.rmax1 a.z a.s a.d) p = true ↔ a.fix.In p) := by
    intro b h1 h2 hb
    have hlt := hv.cyl h2
    have hv' : (Tube.Par.mk a.rmin1 a.rmax1 a.z a.s a.d).Valid := ⟨hv.rmin1, hlt.1, hv.z, hv.d, hv.dle⟩
    have hf' := tube_fits b a.rmin1 a.rmax1 a.z a.s a.d hv.d hv.dle hb
    have := Tube.C77_contains hv' hf' p
    unfold Tube.of at this
    rw [this, fix_of_ne hlt.1 hlt.2]
    have ei : a.inner p.z = a.rmin1 := by unfold Par.inner; rw [← h1, line_const _ _ _ hv.z]
    have eo : a.outer p.z = a.rmax1 := by unfold Par.outer; rw [← h2, line_const _ _ _ hv.z]
    have eh : a.Hollow ↔ 0 < a.rmin1 := by unfold Par.Hollow; rw [← h1, or_self]
    constructor
    · rintro ⟨k1, k2, k3, k4⟩
      exact ⟨k1, fun h => by rw [ei]; exact k2 (eh.mp h), by rw [eo]; exact k3, k4⟩
    · rintro ⟨k1, k2, k3, k4⟩
      exact ⟨k1, fun h => by rw [ei] at k2; exact k2 (eh.mpr h), by rw [eo] at k3; exact k3, k4⟩
  -- the cone
  have hcone : ∀ b : Bool, (b = false → a.rmin1 = 0 ∧ a.rmin2 = 0) → (b = true → a.Hollow) →
      (Cone.contains ⟨some b, sectorOf a.d⟩ (make a.rmin1 a.rmax1 a.rmin2 a.rmax2 a.z a.s a.d) p = true ↔ a.fix.In p) := by
    intro b h1 h2
    exact C142_contains hv ⟨fun h => h1 (by simpa using h), fun h => h2 (by simpa using h), hsec⟩ p
  unfold makeInstance
  simp only [hd2]
  by_cases h0 : a.rmin1 ≤ 0 ∧ a.rmin2 ≤ 0
  · have e1 := le_antisymm h0.1 hv.rmin1
    have e2 := le_antisymm h0.2 hv.rmin2
    rw [if_pos h0]
    by_cases h1 : a.rmax1 = a.rmax2
    · rw [if_pos h1]
      exact htube true (e1.trans e2.symm) h1 (fun _ => e1)
    · rw [if_neg h1]
      exact hcone false (fun _ => ⟨e1, e2⟩) (by simp)
  · have hh : a.Hollow := by
      unfold Par.Hollow
      by_contra hc
      push Not at hc
      exact h0 hc
    rw [if_neg h0]
    by_cases h1 : a.rmin1 = a.rmin2 ∧ a.rmax1 = a.rmax2
    · rw [if_pos h1]
      exact htube false h1.1 h1.2 (by simp)
    · rw [if_neg h1]
      exact hcone true (by simp) (fun _ => hh)

/-- A full cone with a bore gets the type without sector. -/
example : ∃ c, makeInstance 1 2 2 4 3 0 (2 * π) = .cone ⟨some true, .none⟩ c := by
  unfold makeInstance
  rw [if_neg (by norm_num), if_neg (by norm_num)]
  exact ⟨_, by simp [sectorOf]; rfl⟩

/-! ## The classification -/

theorem outerTol_eq (hv : a.Valid) : (of a).outerTol = kConeTolerance * √(1 + ((a.fix.rmax2 - a.fix.rmax1) / (2 * a.z)) ^ 2) := by
  rw [of_outerTol hv, of_secRMax hv]
theorem innerTol_eq (hv : a.Valid) : (of a).innerTol = kConeTolerance * √(1 + ((a.rmin2 - a.rmin1) / (2 * a.z)) ^ 2) := by
  rw [of_innerTol hv, of_secRMin hv]

theorem tol_pos (t : ℝ) : 0 < kConeTolerance * √(1 + t ^ 2) := mul_pos kConeTolerance_pos (by linarith [sec_ge_one t])

theorem sec_le (t : ℝ) : √(1 + t ^ 2) ≤ 1 + |t| := by
  rw [sqrt_le_left (by positivity)]
  nlinarith [abs_nonneg t, sq_abs t]

/-- Away from the lids the outer radius exceeds the tolerance of the outer surface. -/
theorem tol_le_line {r1 r2 h z : ℝ} (hh : 0 < h) (h1 : kConeTolerance ≤ r1) (h2 : kConeTolerance ≤ r2)
    (hz : |z| ≤ h - kConeTolerance) : kConeTolerance * √(1 + ((r2 - r1) / (2 * h)) ^ 2) ≤ line r1 r2 h z := by
  have hk := kConeTolerance_pos
  obtain ⟨z1, z2⟩ := abs_le.mp hz
  have hs := sec_le ((r2 - r1) / (2 * h))
  refine (mul_le_mul_of_nonneg_left hs hk.le).trans ?_
  rw [line_eq' _ _ _ _ hh]
  set m := (r2 - r1) / (2 * h) with hm
  have e1 : r2 - r1 = m * (2 * h) := by rw [hm]; field_simp
  rcases abs_cases m with ⟨hc, hc'⟩ | ⟨hc, hc'⟩ <;> rw [hc] <;> nlinarith

/-- Near the lids the radius is not far below zero. -/
theorem neg_tol_le_line {r1 r2 h z : ℝ} (hh : 0 < h) (h1 : 0 ≤ r1) (h2 : 0 ≤ r2)
    (hz : |z| ≤ h + kConeTolerance) : -(kConeTolerance * √(1 + ((r2 - r1) / (2 * h)) ^ 2)) ≤ line r1 r2 h z := by
  have hk := kConeTolerance_pos
  obtain ⟨z1, z2⟩ := abs_le.mp hz
  have hs := sec_ge_abs ((r2 - r1) / (2 * h))
  refine (neg_le_neg (mul_le_mul_of_nonneg_left hs hk.le)).trans ?_
  rw [line_eq' _ _ _ _ hh]
  set m := (r2 - r1) / (2 * h) with hm
  have e1 : r2 - r1 = m * (2 * h) := by rw [hm]; field_simp
  rcases abs_cases m with ⟨hc, hc'⟩ | ⟨hc, hc'⟩ <;> rw [hc] <;> nlinarith

theorem minus_le {x t : ℝ} (ht : 0 < t) (h : t ≤ x) : minusSq x t ≤ x ^ 2 := by
  unfold minusSq; rw [abs_le]; constructor <;> nlinarith
theorem lt_minus_of_lt {r x t : ℝ} (hr : 0 ≤ r) (ht : 0 < t) (h : r < x - 2 * t) : r ^ 2 < minusSq x t := by
  unfold minusSq
  have := le_abs_self (x * (x - 2 * t))
  nlinarith
theorem le_of_lt_minus {r x t : ℝ} (hr : 0 ≤ r) (ht : 0 < t) (h : minusSq x t < r ^ 2) : x - 2 * t ≤ r := by
  by_contra hc
  push Not at hc
  exact absurd h (not_lt.mpr (lt_minus_of_lt hr ht hc).le)
theorem le_of_le_minus {r x t : ℝ} (hr : 0 ≤ r) (ht : 0 < t) (hx : 0 ≤ x) (h : r ^ 2 ≤ minusSq x t) : r < x ∨ (x ≤ t ∧ r ≤ t) := by
  unfold minusSq at h
  rcases le_or_gt x t with h1 | h1
  · right
    refine ⟨h1, le_of_sq_le_sq (h.trans ?_) ht.le⟩
    rw [abs_le]; constructor <;> nlinarith [sq_nonneg (x - t)]
  · left
    apply lt_of_pow_lt_pow_left₀ 2 hx
    refine h.trans_lt ?_
    rw [abs_lt]; constructor <;> nlinarith
theorem minus_le_plus {x t : ℝ} (ht : 0 < t) (hx : 0 ≤ x) : minusSq x t ≤ plusSq x t := by
  unfold minusSq plusSq; rw [abs_le]; constructor <;> nlinarith
theorem le_plus {x t : ℝ} (ht : 0 < t) (hx : 0 ≤ x) : x ^ 2 ≤ plusSq x t := by unfold plusSq; nlinarith
theorem le_of_le_plus {r x t : ℝ} (hx : -t ≤ x) (h : r ^ 2 ≤ plusSq x t) : r ≤ x + t := by
  unfold plusSq at h
  exact le_of_sq_le_sq (by nlinarith [sq_nonneg t]) (by linarith)

/-- Points within the tolerance of one of the two phi planes. -/
def NearPhi (a : Par) (p : V3) : Prop :=
  ∃ h, |h| < kTolerance ∧ (AboveRay a.s h p.x p.y ∨ AboveRay (a.s + a.d) h p.x p.y)

theorem onSurface_iff (hv : a.Valid) (p : V3) : (of a).wedge.OnSurface p ↔ NearPhi a p := by
  rw [wedge_onSurface hv]
  unfold Wedge.OnSurface NearPhi
  rw [Wedge.on1_iff, Wedge.on2_iff]
  constructor
  · rintro (⟨h, hh, ha⟩ | ⟨h, hh, ha⟩)
    · exact ⟨h, hh, .inl ha⟩
    · exact ⟨h, hh, .inr ha⟩
  · rintro ⟨h, hh, ha | ha⟩
    · exact .inl ⟨h, hh, ha⟩
    · exact .inr ⟨h, hh, ha⟩

theorem inside_iff (hv : a.Valid) (hf : Fits ty a) (p : V3) : CompletelyInside ty (of a) p ↔
    |p.z| < a.z - kConeTolerance ∧ rad p ^ 2 < minusSq (a.fix.outer p.z) (of a).outerTol ∧
    (a.Hollow → plusSq (a.inner p.z) (of a).innerTol < rad p ^ 2) ∧
    (a.d < 2 * π → ¬ NearPhi a p ∧ Sector a.s a.d p.x p.y) := by
  have hk := kConeTolerance_pos
  unfold CompletelyInside Wedge.CompletelyInside Wedge.CompletelyOutside
  simp only [rminT_iff hv hf, phiT_iff hv hf, perp2_eq, outerRad_of hv, innerLine_of hv, of_dz hv, wedge_out hv, onSurface_iff hv,
    gt_iff_lt]
  have ht1 : 0 < (of a).outerTol := by rw [outerTol_eq hv]; exact tol_pos _
  have ht2 : 0 < (of a).innerTol := by rw [innerTol_eq hv]; exact tol_pos _
  have hq : (¬ NearPhi a p ∧ ¬ (¬ Sector a.s a.d p.x p.y ∧ (True → ¬ NearPhi a p))) ↔
      (¬ NearPhi a p ∧ Sector a.s a.d p.x p.y) := by
    by_cases h1 : NearPhi a p <;> by_cases h2 : Sector a.s a.d p.x p.y <;> simp [h1, h2]
  rw [hq]
  constructor
  · rintro ⟨h1, h2⟩
    have h2 := h2.resolve_left (by linarith)
    have hz : |p.z| ≤ a.z := by linarith
    have m1 := minus_le_plus ht1 (outer_pos hv hz).le
    have h3 := h2.2.resolve_left (by linarith [h2.1])
    refine ⟨h1, h2.1, h3.1, ?_⟩
    rcases h3.2 with h4 | h4
    · have m2 := minus_le_plus ht2 (inner_nonneg hv hz)
      linarith [h3.1 h4.1, h4.2]
    · exact h4
  · rintro ⟨h1, h2, h3, h4⟩
    exact ⟨h1, .inr ⟨h2, .inr ⟨h3, .inr h4⟩⟩⟩

theorem outside_iff (hv : a.Valid) (hf : Fits ty a) (p : V3) : CompletelyOutside ty true (of a) p ↔
    a.z + kConeTolerance < |p.z| ∨ plusSq (a.fix.outer p.z) (of a).outerTol < rad p ^ 2 ∨
    (a.Hollow ∧ rad p ^ 2 ≤ minusSq (a.inner p.z) (of a).innerTol) ∨
    (a.d < 2 * π ∧ ¬ NearPhi a p ∧ ¬ Sector a.s a.d p.x p.y) := by
  unfold CompletelyOutside Wedge.CompletelyOutside
  simp only [rminT_iff hv hf, phiT_iff hv hf, perp2_eq, outerRad_of hv, innerLine_of hv, of_dz hv, wedge_out hv, onSurface_iff hv,
    gt_iff_lt, if_true, forall_const]
  rw [and_comm (a := ¬ Sector a.s a.d p.x p.y)]

/-- C142: `Inside` is right about points it calls inside; points it calls outside are outside, or within the tolerance of the tip
of a bore that closes; points it calls surface are close to a bounding surface and not far outside; points on the surface are called
so, except near the tip of the bore.  The outer radii must not be below the tolerance. -/
theorem C142_inside (hv : a.Valid) (hf : Fits ty a) (h1 : kConeTolerance ≤ a.fix.rmax1) (h2 : kConeTolerance ≤ a.fix.rmax2) (p : V3) :
    let To := kConeTolerance * √(1 + ((a.fix.rmax2 - a.fix.rmax1) / (2 * a.z)) ^ 2)
    let Ti := kConeTolerance * √(1 + ((a.rmin2 - a.rmin1) / (2 * a.z)) ^ 2)
    (inside ty (of a) p = .inside → a.fix.In p) ∧
    (inside ty (of a) p = .outside → a.fix.Closed p → a.Hollow ∧ a.inner p.z ≤ Ti ∧ rad p ≤ Ti) ∧
    (inside ty (of a) p = .surface →
      |p.z| ≤ a.z + kConeTolerance ∧ rad p ≤ a.fix.outer p.z + To ∧ a.inner p.z - 2 * Ti ≤ rad p ∧
      (a.z - kConeTolerance ≤ |p.z| ∨ a.fix.outer p.z - 2 * To ≤ rad p ∨ (a.Hollow ∧ rad p ≤ a.inner p.z + Ti) ∨
        (a.d < 2 * π ∧ NearPhi a p))) ∧
    (a.fix.Closed p → (a.Hollow → Ti < a.inner p.z) → (|p.z| = a.z ∨ rad p = a.fix.outer p.z ∨ (a.Hollow ∧ rad p = a.inner p.z) ∨
        (a.d < 2 * π ∧ (AboveRay a.s 0 p.x p.y ∨ AboveRay (a.s + a.d) 0 p.x p.y))) → inside ty (of a) p = .surface) := by
  intro To Ti
  have hk := kConeTolerance_pos
  have ht := kTolerance_pos
  have hr0 := rad_nonneg p
  have eo : (of a).outerTol = To := outerTol_eq hv
  have ei : (of a).innerTol = Ti := innerTol_eq hv
  have hTo : 0 < To := tol_pos _
  have hTi : 0 < Ti := tol_pos _
  have hin := inside_iff hv hf p
  have hou := outside_iff hv hf p
  rw [eo, ei] at hin hou
  have hsec : ¬ a.d < 2 * π → Sector a.s a.d p.x p.y := fun h => sector_of_not_lt hv h _ _
  have hnot : a.fix.Closed p → (a.Hollow → ¬ (a.inner p.z ≤ Ti ∧ rad p ≤ Ti)) → ¬ CompletelyOutside ty true (of a) p := by
    intro hc hn
    rw [hou]
    rintro (h | h | ⟨h0, h⟩ | ⟨hd, -, h⟩)
    · linarith [hc.z, show a.fix.z = a.z from rfl]
    · have hx := outer_pos hv hc.z
      have := lt_of_pow_lt_pow_left₀ 2 hr0 ((le_plus hTo hx.le).trans_lt h)
      linarith [hc.hi]
    · rcases le_of_le_minus hr0 hTi (inner_nonneg hv hc.z) h with h3 | h3
      · linarith [hc.lo, fix_inner (a := a) p.z]
      · exact hn h0 h3
    · exact h hc.phi
  refine ⟨?_, ?_, ?_, ?_⟩
  · intro h
    have hi : CompletelyInside ty (of a) p := by
      unfold inside at h; split at h
      · assumption
      · split at h <;> simp at h
    rw [hin] at hi
    obtain ⟨k1, k2, k3, k4⟩ := hi
    have hz : |p.z| ≤ a.z := by linarith
    refine ⟨hz, fun h0 => ?_, ?_, ?_⟩
    · exact lt_of_pow_lt_pow_left₀ 2 hr0 ((le_plus hTi (inner_nonneg hv hz)).trans_lt (k3 h0))
    · have hx : To ≤ a.fix.outer p.z := tol_le_line hv.z h1 h2 k1.le
      exact (lt_of_pow_lt_pow_left₀ 2 (outer_pos hv hz).le (k2.trans_le (minus_le hTo hx))).le
    · by_cases hd : a.d < 2 * π
      · exact (k4 hd).2
      · exact hsec hd
  · intro h hc
    have ho : CompletelyOutside ty true (of a) p := by
      unfold inside at h; split at h
      · simp at h
      · split at h
        · assumption
        · simp at h
    by_contra hn
    refine hnot hc (fun h0 h3 => hn ⟨h0, h3⟩) ho
  · intro h
    have hh : ¬ CompletelyInside ty (of a) p ∧ ¬ CompletelyOutside ty true (of a) p := by
      unfold inside at h; split at h
      · simp at h
      · split at h
        · simp at h
        · exact ⟨by assumption, by assumption⟩
    rw [hin, hou] at hh
    obtain ⟨hi, ho⟩ := hh
    push Not at ho
    obtain ⟨o1, o2, o3, o4⟩ := ho
    have x1 : -To ≤ a.fix.outer p.z := neg_tol_le_line hv.z (hk.le.trans h1) (hk.le.trans h2) o1
    have x2 : -Ti ≤ a.inner p.z := neg_tol_le_line hv.z hv.rmin1 hv.rmin2 o1
    refine ⟨o1, le_of_le_plus x1 o2, ?_, ?_⟩
    · by_cases h0 : a.Hollow
      · exact le_of_lt_minus hr0 hTi (o3 h0)
      · have e1 : a.rmin1 = 0 := le_antisymm (not_lt.mp fun h => h0 (.inl h)) hv.rmin1
        have e2 : a.rmin2 = 0 := le_antisymm (not_lt.mp fun h => h0 (.inr h)) hv.rmin2
        have : a.inner p.z = 0 := by unfold Par.inner; rw [e1, e2, line_const _ _ _ hv.z]
        linarith
    · by_contra hc
      push Not at hc
      obtain ⟨c1, c2, c3, c4⟩ := hc
      refine hi ⟨c1, lt_minus_of_lt hr0 hTo c2, fun h0 => ?_, fun hd => ⟨c4 hd, ?_⟩⟩
      · by_contra hc
        have := le_of_le_plus x2 (not_lt.mp hc)
        linarith [c3 h0]
      · exact o4 hd (c4 hd)
  · intro hc hn hb
    have ho := hnot hc (fun h0 h3 => absurd (hn h0) (not_lt.mpr h3.1))
    have hi : ¬ CompletelyInside ty (of a) p := by
      rw [hin]
      rintro ⟨k1, k2, k3, k4⟩
      have hz : |p.z| ≤ a.z := hc.z
      rcases hb with hb | hb | ⟨h0, hb⟩ | ⟨hd, hb⟩
      · linarith
      · have hx : To ≤ a.fix.outer p.z := tol_le_line hv.z h1 h2 k1.le
        have := minus_le hTo hx
        rw [hb] at k2; linarith
      · have := k3 h0; rw [hb] at this; linarith [le_plus hTi (inner_nonneg hv hz)]
      · exact (k4 hd).1 ⟨0, by rw [abs_zero]; exact ht, hb⟩
    unfold inside
    rw [if_neg hi, if_neg ho]

/-- The lid of the example cone is surface. -/
example : inside ⟨some true, .smaller⟩ (of quarter) ⟨2, 2, 3⟩ = .surface := by
  have hp := pi_pos
  have hk : kConeTolerance = 1 / 10 ^ 7 := rfl
  have hx : quarter.fix = quarter := fix_of_ne (by norm_num [quarter]) (by norm_num [quarter])
  refine (C142_inside quarter_valid quarter_fits ?_ ?_ _).2.2.2 ⟨?_, ?_, ?_, ?_⟩ (fun _ => ?_) (.inl ?_)
  · rw [hx, hk]; norm_num [quarter]
  · rw [hx, hk]; norm_num [quarter]
  · simp [quarter]
  · rw [fix_inner, le_rad (by norm_num [quarter, Par.inner, line])]; norm_num [quarter, Par.inner, line]
  · rw [hx, rad_le (by norm_num [quarter, Par.outer, line])]; norm_num [quarter, Par.outer, line]
  · rw [fix_s, fix_d, show quarter.s = 0 from rfl, show quarter.d = π / 2 from rfl, sector_small (by linarith) (by linarith)]
    simp
  · have h1 := sec_le ((quarter.rmin2 - quarter.rmin1) / (2 * quarter.z))
    have h2 : |(quarter.rmin2 - quarter.rmin1) / (2 * quarter.z)| = 1 / 6 := by simp only [quarter]; rw [abs_of_pos] <;> norm_num
    have h3 : quarter.inner 3 = 2 := by norm_num [quarter, Par.inner, line]
    rw [h2] at h1
    show _ < quarter.inner 3
    rw [h3, hk]; norm_num at *; linarith
  · simp [quarter]

/-- A cone whose bore closes at the bottom. -/
noncomputable def tip : Par := ⟨0, 2, 3 / 2, 2, 1, 0, 2 * π⟩

theorem tip_valid : tip.Valid := by
  have := pi_pos
  constructor <;> simp only [tip] <;> norm_num
  linarith

/-- Near the tip of a bore the classification is wrong: a point of the cone is called outside. -/
theorem C142_tip_counterexample :
    let p : V3 := ⟨1 / 10 ^ 7, 0, -1 + 125 / 150 / 10 ^ 7⟩
    inside universal (of tip) p = .outside ∧ tip.In p ∧ contains universal (of tip) p = true := by
  intro p
  have hv := tip_valid
  have hr : rad p = 1 / 10 ^ 7 := by
    unfold rad
    show √((1 / 10 ^ 7) ^ 2 + (0 : ℝ) ^ 2) = _
    rw [show ((1 : ℝ) / 10 ^ 7) ^ 2 + (0 : ℝ) ^ 2 = (1 / 10 ^ 7) ^ 2 by ring, sqrt_sq (by norm_num)]
  have hin : tip.inner p.z = 625 / 1000 / 10 ^ 7 := by norm_num [tip, Par.inner, line, p]
  have hi : tip.In p := by
    refine ⟨by norm_num [tip, p, abs_le], fun _ => ?_, ?_, sector_full _ _ _⟩
    · rw [hr, hin]; norm_num
    · rw [hr]; norm_num [tip, Par.outer, line, p]
  have hh : tip.Hollow := .inr (by norm_num [tip])
  have hT : (of tip).innerTol = 125 / 100 / 10 ^ 7 := by
    rw [innerTol_eq hv]
    have : √(1 + ((tip.rmin2 - tip.rmin1) / (2 * tip.z)) ^ 2) = 5 / 4 := by
      rw [show 1 + ((tip.rmin2 - tip.rmin1) / (2 * tip.z)) ^ 2 = (5 / 4) ^ 2 by norm_num [tip], sqrt_sq (by norm_num)]
    rw [this]; norm_num [kConeTolerance]
  refine ⟨?_, hi, ((C142_contains_given hv (fits_universal _) p).1 hi)⟩
  unfold inside
  rw [if_neg, if_pos]
  · rw [outside_iff hv (fits_universal _)]
    refine .inr (.inr (.inl ⟨hh, ?_⟩))
    rw [hin, hr, hT]
    unfold minusSq
    rw [abs_of_neg (by norm_num)]; norm_num
  · rw [inside_iff hv (fits_universal _)]
    rintro ⟨-, -, h, -⟩
    have := h hh
    rw [hin, hr, hT] at this
    norm_num [plusSq] at this

/-! ## C143 -/

theorem snap_le {x c : ℝ} (h : x ≤ c) (hc : 0 ≤ c) : snap x ≤ c := by unfold snap; split <;> assumption
theorem snap_nonneg {x : ℝ} (h : 0 ≤ x) : 0 ≤ snap x := by unfold snap; split <;> [exact le_refl _; exact h]

theorem nz_pos {s : ℝ} (h : 0 ≤ s) : nonZero s = s + kTiny := by
  unfold nonZero copySign; rw [if_neg (not_lt.mpr h)]

theorem guard_le {x c s : ℝ} (hs : 1 ≤ s) (hc : 0 ≤ c) (h : x ≤ s * c) : x * (1 / nonZero s) ≤ c := by
  have hn : nonZero s = s + kTiny := nz_pos (by linarith)
  have ht : 0 < kTiny := by norm_num [kTiny]
  rw [hn, mul_one_div, div_le_iff₀ (by linarith)]
  nlinarith

theorem guard_nonneg {x s : ℝ} (hs : 1 ≤ s) (h : 0 ≤ x) : 0 ≤ x * (1 / nonZero s) := by
  have hn : nonZero s = s + kTiny := nz_pos (by linarith)
  have ht : 0 < kTiny := by norm_num [kTiny]
  rw [hn]; exact mul_nonneg h (one_div_nonneg.mpr (by linarith))

theorem safeOuter_of (hv : a.Valid) (p : V3) : safeOuter (of a) p =
    (a.fix.outer p.z - rad p) * (1 / nonZero √(1 + ((a.fix.rmax2 - a.fix.rmax1) / (2 * a.z)) ^ 2)) := by
  unfold safeOuter
  rw [sqrt_perp2, of_tanRMax hv, of_invSecRMax hv, of_secRMax hv, of_rmax1 hv, of_rmax2 hv]
  unfold Par.outer
  rw [line_eq' _ _ _ _ (by exact hv.z)]
  rfl

theorem safeInner_of (hv : a.Valid) (p : V3) : safeInner (of a) p =
    (rad p - a.inner p.z) * (1 / nonZero √(1 + ((a.rmin2 - a.rmin1) / (2 * a.z)) ^ 2)) := by
  unfold safeInner
  rw [sqrt_perp2, of_tanRMin hv, of_invSecRMin hv, of_secRMin hv, of_rmin1 hv, of_rmin2 hv]
  unfold Par.inner
  rw [line_eq' _ _ _ _ hv.z]

theorem outer_lift (hv : a.Valid) (p q : V3) : (a.fix.outer p.z - rad p) - (a.fix.outer q.z - rad q) ≤
    √(1 + ((a.fix.rmax2 - a.fix.rmax1) / (2 * a.z)) ^ 2) * V3.dist p q := by
  have h := lift_le ((a.fix.rmax2 - a.fix.rmax1) / (2 * a.z)) q p
  rw [V3.dist_comm'] at h
  unfold Par.outer
  simp only [fix_z]
  rw [line_eq' _ _ _ p.z hv.z, line_eq' _ _ _ q.z hv.z]
  linarith

theorem inner_lift (hv : a.Valid) (p q : V3) : (rad p - a.inner p.z) - (rad q - a.inner q.z) ≤
    √(1 + ((a.rmin2 - a.rmin1) / (2 * a.z)) ^ 2) * V3.dist p q := by
  have h := lift_le ((a.rmin2 - a.rmin1) / (2 * a.z)) p q
  unfold Par.inner
  rw [line_eq' _ _ _ p.z hv.z, line_eq' _ _ _ q.z hv.z]
  linarith

theorem kInf_large : 0 < kInfLength := kInfLength_pos

/-- C143: `SafetyToIn` is a lower bound of the distance to every point of the cone. -/
theorem C143_safetyToIn (hv : a.Valid) (hf : Fits ty a) (p q : V3) (hq : a.fix.Closed q) : safetyToIn ty (of a) p ≤ V3.dist p q := by
  have hd := V3.dist_nonneg' p q
  unfold safetyToIn
  split
  · linarith
  have hz : |p.z| - (of a).dz ≤ V3.dist p q := by
    rw [of_dz hv]
    have h1 := V3.abs_z_le_dist p q
    have h2 := abs_sub_abs_le_abs_sub p.z q.z
    have h3 : |q.z| ≤ a.z := hq.z
    linarith
  have ho : -safeOuter (of a) p ≤ V3.dist p q := by
    rw [safeOuter_of hv, ← neg_mul]
    refine guard_le (sec_ge_one _) hd ?_
    have h := outer_lift hv q p
    rw [V3.dist_comm'] at h
    linarith [hq.hi]
  have hi : -safeInner (of a) p ≤ V3.dist p q := by
    rw [safeInner_of hv, ← neg_mul]
    refine guard_le (sec_ge_one _) hd ?_
    have h := inner_lift hv q p
    rw [V3.dist_comm'] at h
    have := hq.lo
    rw [fix_inner] at this
    linarith
  have hm : max (|p.z| - (of a).dz) (max (-safeOuter (of a) p)
      (open Classical in if RminT ty (of a) then -safeInner (of a) p else -kInfLength)) ≤ V3.dist p q := by
    refine max_le hz (max_le ho ?_)
    split
    · exact hi
    · linarith [kInf_large]
  simp only
  apply snap_le _ hd
  split
  · refine max_le ?_ hm
    rw [wedge_safetyToIn hv]
    exact (C76_safety hv.d hv.dle p).2.1 q hq.phi
  · exact hm

theorem sector_of_inSector (hv : a.Valid) (hf : Fits ty a) (hp : a.d < 2 * π) {x y : ℝ} (h : InSector ty (of a) false x y) :
    Sector a.s a.d x y := by
  have hk := kConeTolerance_pos
  have hpi := pi_pos
  have hs : SmallerThanPi ty (of a) ↔ a.d ≤ π := by
    obtain ⟨-, -, h1, h2, h3, h4⟩ := hf
    unfold SmallerThanPi
    rw [of_dphi hv]
    cases he : ty.angle <;> simp only
    · have := h1 he; simp; linarith
    · simp only [true_iff]; exact (h2 he).le
    · simp only [true_iff]; exact (h3 he).le
    · simp only [false_iff]; exact not_le.mpr (h4 he).1
  unfold InSector startCheck endCheck at h
  rw [hs, of_a1x hv, of_a1y hv, of_a2x hv, of_a2y hv] at h
  simp only [Bool.false_eq_true, if_false] at h
  rcases h with ⟨h1, h2, h3⟩ | ⟨h1, h2⟩
  · rcases h1.lt_or_eq with h1 | h1
    · rw [sector_small hv.d h1]; constructor <;> linarith
    · rw [sector_big h1.ge hv.dle]; left; linarith
  · rw [sector_big (not_le.mp h1).le hv.dle]
    rcases h2 with h2 | h2
    · left; linarith
    · right; linarith

/-- C143: `SafetyToIn` is not negative outside the cone; it is negative, namely minus one, only for points of the cone. -/
theorem C143_safetyToIn_sign (hv : a.Valid) (hf : Fits ty a) (h1 : kConeTolerance ≤ a.fix.rmax1) (h2 : kConeTolerance ≤ a.fix.rmax2)
    (p : V3) : (¬ a.fix.Closed p → 0 ≤ safetyToIn ty (of a) p) ∧
    (InsideForIn ty (of a) p → a.fix.Closed p ∧ safetyToIn ty (of a) p = -1) := by
  have hk := kConeTolerance_pos
  have hr0 := rad_nonneg p
  have hii : InsideForIn ty (of a) p → a.fix.Closed p := by
    unfold InsideForIn
    rw [of_dz hv, perp2_eq, outerRad_of hv, innerRad_of hv, rminT_iff hv hf, phiT_iff hv hf]
    rintro ⟨k1, k2, k3, k4⟩
    have hz : |p.z| ≤ a.z := by linarith
    refine ⟨hz, ?_, ?_, ?_⟩
    · rw [fix_inner]
      by_cases h0 : a.Hollow
      · have h3 := k3 h0
        rw [innerTol_eq hv] at h3
        exact (lt_of_pow_lt_pow_left₀ 2 hr0 ((le_plus (tol_pos _) (inner_nonneg hv hz)).trans_lt h3)).le
      · have e1 : a.rmin1 = 0 := le_antisymm (not_lt.mp fun h => h0 (.inl h)) hv.rmin1
        have e2 : a.rmin2 = 0 := le_antisymm (not_lt.mp fun h => h0 (.inr h)) hv.rmin2
        have : a.inner p.z = 0 := by unfold Par.inner; rw [e1, e2, line_const _ _ _ hv.z]
        linarith
    · rw [outerTol_eq hv] at k2
      have hx := tol_le_line (z := p.z) hv.z h1 h2 (by linarith)
      exact (lt_of_pow_lt_pow_left₀ 2 (outer_pos hv hz).le (k2.trans_le (minus_le (tol_pos _) hx))).le
    · by_cases hd : a.d < 2 * π
      · exact sector_of_inSector hv hf hd (k4 hd)
      · exact sector_of_not_lt hv hd _ _
  refine ⟨fun hn => ?_, fun h => ⟨hii h, by unfold safetyToIn; rw [if_pos h]⟩⟩
  unfold safetyToIn
  rw [if_neg fun h => hn (hii h)]
  simp only
  apply snap_nonneg
  have hcases : a.z < |p.z| ∨ rad p < a.inner p.z ∨ a.fix.outer p.z < rad p ∨ ¬ Sector a.s a.d p.x p.y := by
    by_contra hc
    push Not at hc
    exact hn ⟨hc.1, hc.2.1, hc.2.2.1, hc.2.2.2⟩
  have hmain : (a.z < |p.z| ∨ rad p < a.inner p.z ∨ a.fix.outer p.z < rad p) →
      0 ≤ max (|p.z| - (of a).dz) (max (-safeOuter (of a) p)
      (open Classical in if RminT ty (of a) then -safeInner (of a) p else -kInfLength)) := by
    rintro (h | h | h)
    · refine le_max_of_le_left ?_
      rw [of_dz hv]; linarith
    · refine le_max_of_le_right (le_max_of_le_right ?_)
      rw [rminT_iff hv hf, if_pos, safeInner_of hv, ← neg_mul]
      · exact guard_nonneg (sec_ge_one _) (by linarith)
      · by_contra h0
        have e1 : a.rmin1 = 0 := le_antisymm (not_lt.mp fun h => h0 (.inl h)) hv.rmin1
        have e2 : a.rmin2 = 0 := le_antisymm (not_lt.mp fun h => h0 (.inr h)) hv.rmin2
        have : a.inner p.z = 0 := by unfold Par.inner; rw [e1, e2, line_const _ _ _ hv.z]
        linarith
    · refine le_max_of_le_right (le_max_of_le_left ?_)
      rw [safeOuter_of hv, ← neg_mul]
      exact guard_nonneg (sec_ge_one _) (by linarith)
  split
  · rename_i hp
    by_cases hs : Sector a.s a.d p.x p.y
    · exact le_max_of_le_right (hmain (by tauto))
    · refine le_max_of_le_left ?_
      rw [wedge_safetyToIn hv]
      exact ((C76_safety hv.d hv.dle p).1.mpr hs).le
  · rename_i hp
    rw [phiT_iff hv hf] at hp
    have := sector_of_not_lt hv hp p.x p.y
    exact hmain (by tauto)

/-- C143: `SafetyToOut` is a lower bound of the distance to every point outside the cone. -/
theorem C143_safetyToOut (hv : a.Valid) (hf : Fits ty a) (p q : V3) (hq : ¬ a.fix.Closed q) : safetyToOut ty (of a) p ≤ V3.dist p q := by
  have hd := V3.dist_nonneg' p q
  unfold safetyToOut
  split
  · linarith
  simp only
  apply snap_le _ hd
  have hcases : a.z < |q.z| ∨ rad q < a.inner q.z ∨ a.fix.outer q.z < rad q ∨ ¬ Sector a.s a.d q.x q.y := by
    by_contra hc
    push Not at hc
    exact hq ⟨hc.1, hc.2.1, hc.2.2.1, hc.2.2.2⟩
  have hmain : (a.z < |q.z| ∨ rad q < a.inner q.z ∨ a.fix.outer q.z < rad q) →
      min ((of a).dz - |p.z|) (min (safeOuter (of a) p)
      (open Classical in if RminT ty (of a) then safeInner (of a) p else kInfLength)) ≤ V3.dist p q := by
    rintro (h | h | h)
    · refine (min_le_left _ _).trans ?_
      rw [of_dz hv]
      have h1 := V3.abs_z_le_dist p q
      have h2 := abs_sub_abs_le_abs_sub q.z p.z
      rw [abs_sub_comm] at h2
      linarith
    · refine (min_le_right _ _).trans ((min_le_right _ _).trans ?_)
      by_cases h0 : a.Hollow
      · rw [rminT_iff hv hf, if_pos h0, safeInner_of hv]
        refine guard_le (sec_ge_one _) hd ?_
        linarith [inner_lift hv p q]
      · have e1 : a.rmin1 = 0 := le_antisymm (not_lt.mp fun h => h0 (.inl h)) hv.rmin1
        have e2 : a.rmin2 = 0 := le_antisymm (not_lt.mp fun h => h0 (.inr h)) hv.rmin2
        have : a.inner q.z = 0 := by unfold Par.inner; rw [e1, e2, line_const _ _ _ hv.z]
        linarith [rad_nonneg q]
    · refine (min_le_right _ _).trans ((min_le_left _ _).trans ?_)
      rw [safeOuter_of hv]
      refine guard_le (sec_ge_one _) hd ?_
      linarith [outer_lift hv p q]
  split
  · by_cases hs : Sector a.s a.d q.x q.y
    · exact (min_le_right _ _).trans (hmain (by tauto))
    · refine (min_le_left _ _).trans ?_
      rw [wedge_safetyToOut hv]
      exact (C76_safety hv.d hv.dle p).2.2.2 q hs
  · rename_i hp
    rw [phiT_iff hv hf] at hp
    have := sector_of_not_lt hv hp q.x q.y
    exact hmain (by tauto)

/-- C143: `SafetyToOut` is not negative in the cone, except near the tip of a bore. -/
theorem C143_safetyToOut_sign (hv : a.Valid) (hf : Fits ty a) (p : V3) (hp : a.fix.Closed p)
    (hn : a.Hollow → kConeTolerance * √(1 + ((a.rmin2 - a.rmin1) / (2 * a.z)) ^ 2) ≤ a.inner p.z) : 0 ≤ safetyToOut ty (of a) p := by
  have hk := kConeTolerance_pos
  have hr0 := rad_nonneg p
  have hz : |p.z| ≤ a.z := hp.z
  have hlo : a.inner p.z ≤ rad p := hp.lo
  unfold safetyToOut
  rw [if_neg]
  · simp only
    apply snap_nonneg
    have hmain : 0 ≤ min ((of a).dz - |p.z|) (min (safeOuter (of a) p)
        (open Classical in if RminT ty (of a) then safeInner (of a) p else kInfLength)) := by
      refine le_min ?_ (le_min ?_ ?_)
      · rw [of_dz hv]; linarith
      · rw [safeOuter_of hv]; exact guard_nonneg (sec_ge_one _) (by linarith [hp.hi])
      · split
        · rw [safeInner_of hv]; exact guard_nonneg (sec_ge_one _) (by linarith)
        · exact kInf_large.le
    split
    · refine le_min ?_ hmain
      rw [wedge_safetyToOut hv]
      exact (C76_safety hv.d hv.dle p).2.2.1.mpr hp.phi
    · exact hmain
  · unfold OutsideForOut
    rw [of_dz hv, perp2_eq, outerRad_of hv, innerRad_of hv, rminT_iff hv hf, outerTol_eq hv, innerTol_eq hv]
    rintro (h | h | ⟨h0, h⟩)
    · linarith
    · have := lt_of_pow_lt_pow_left₀ 2 hr0 ((le_plus (tol_pos _) (outer_pos hv hz).le).trans_lt h)
      linarith [hp.hi]
    · have := lt_of_pow_lt_pow_left₀ 2 (inner_nonneg hv hz) (h.trans_le (minus_le (tol_pos _) (hn h0)))
      linarith

/-- Near the tip of a bore `SafetyToOut` takes a point of the cone for one outside. -/
theorem C143_tip_counterexample :
    let p : V3 := ⟨1 / 10 ^ 7, 0, -1 + 125 / 150 / 10 ^ 7⟩
    safetyToOut universal (of tip) p = -1 ∧ tip.In p := by
  intro p
  have hv := tip_valid
  obtain ⟨-, hi, -⟩ := C142_tip_counterexample
  refine ⟨?_, hi⟩
  have hr : rad p = 1 / 10 ^ 7 := by
    unfold rad
    show √((1 / 10 ^ 7) ^ 2 + (0 : ℝ) ^ 2) = _
    rw [show ((1 : ℝ) / 10 ^ 7) ^ 2 + (0 : ℝ) ^ 2 = (1 / 10 ^ 7) ^ 2 by ring, sqrt_sq (by norm_num)]
  have hin : tip.inner p.z = 625 / 1000 / 10 ^ 7 := by norm_num [tip, Par.inner, line, p]
  have hh : tip.Hollow := .inr (by norm_num [tip])
  have hT : (of tip).innerTol = 125 / 100 / 10 ^ 7 := by
    rw [innerTol_eq hv]
    have : √(1 + ((tip.rmin2 - tip.rmin1) / (2 * tip.z)) ^ 2) = 5 / 4 := by
      rw [show 1 + ((tip.rmin2 - tip.rmin1) / (2 * tip.z)) ^ 2 = (5 / 4) ^ 2 by norm_num [tip], sqrt_sq (by norm_num)]
    rw [this]; norm_num [kConeTolerance]
  unfold safetyToOut
  rw [if_pos]
  refine .inr (.inr ⟨(rminT_iff hv (fits_universal _)).mpr hh, ?_⟩)
  rw [perp2_eq, innerRad_of hv, hin, hr, hT]
  unfold minusSq
  rw [abs_of_neg (by norm_num)]; norm_num

/-- The safeties of the example cone are positive where they should be. -/
example : 0 ≤ safetyToOut ⟨some true, .smaller⟩ (of quarter) ⟨2, 2, 0⟩ := by
  have hp := pi_pos
  have hx : quarter.fix = quarter := fix_of_ne (by norm_num [quarter]) (by norm_num [quarter])
  refine C143_safetyToOut_sign quarter_valid quarter_fits _ ⟨?_, ?_, ?_, ?_⟩ fun _ => ?_
  · simp [quarter]
  · rw [fix_inner, le_rad (by norm_num [quarter, Par.inner, line])]; norm_num [quarter, Par.inner, line]
  · rw [hx, rad_le (by norm_num [quarter, Par.outer, line])]; norm_num [quarter, Par.outer, line]
  · rw [fix_s, fix_d, show quarter.s = 0 from rfl, show quarter.d = π / 2 from rfl, sector_small (by linarith) (by linarith)]
    simp
  · have h1 := sec_le ((quarter.rmin2 - quarter.rmin1) / (2 * quarter.z))
    have h2 : |(quarter.rmin2 - quarter.rmin1) / (2 * quarter.z)| = 1 / 6 := by simp only [quarter]; rw [abs_of_pos] <;> norm_num
    have h3 : quarter.inner 0 = 3 / 2 := by norm_num [quarter, Par.inner, line]
    rw [h2] at h1
    show _ ≤ quarter.inner 0
    rw [h3]; norm_num [kConeTolerance] at *; linarith

end Cone
end VecGeom

import Verif.Trd.MoreProps

/-!
# C70: normals of the trapezoid with rectangular bases
-/

namespace VecGeom
namespace Trd

/-- The face that an entry of `Normal` stands for: of the two bases, the one on the side of the point. -/
noncomputable def sideAt (p : V3) : Face → Side
  | .xm => .xm
  | .xp => .xp
  | .yp => .yp
  | .ym => .ym
  | .z => if p.z < 0 then .zm else .zp

section
variable {s : State} (hz : 0 < s.dz)
include hz

theorem len_x : Real.sqrt (4 * s.dz * s.dz + (s.dx2 - s.dx1) * (s.dx2 - s.dx1)) = 2 * s.dz * Real.sqrt (1 + (shape s).tx ^ 2) := by
  rw [Real.sqrt_eq_iff_mul_self_eq (by nlinarith [mul_self_nonneg (s.dx2 - s.dx1), mul_self_nonneg s.dz])
    (by have := root_pos (shape s).tx; positivity)]
  rw [show 2 * s.dz * Real.sqrt (1 + (shape s).tx ^ 2) * (2 * s.dz * Real.sqrt (1 + (shape s).tx ^ 2)) =
    (2 * s.dz) ^ 2 * (Real.sqrt (1 + (shape s).tx ^ 2) * Real.sqrt (1 + (shape s).tx ^ 2)) by ring, root_sq,
    show (shape s).tx = (s.dx1 - s.dx2) / (2 * s.dz) from rfl]
  field_simp; ring
theorem len_y : Real.sqrt (4 * s.dz * s.dz + (s.dy2 - s.dy1) * (s.dy2 - s.dy1)) = 2 * s.dz * Real.sqrt (1 + (shape s).ty ^ 2) := by
  rw [Real.sqrt_eq_iff_mul_self_eq (by nlinarith [mul_self_nonneg (s.dy2 - s.dy1), mul_self_nonneg s.dz])
    (by have := root_pos (shape s).ty; positivity)]
  rw [show 2 * s.dz * Real.sqrt (1 + (shape s).ty ^ 2) * (2 * s.dz * Real.sqrt (1 + (shape s).ty ^ 2)) =
    (2 * s.dz) ^ 2 * (Real.sqrt (1 + (shape s).ty ^ 2) * Real.sqrt (1 + (shape s).ty ^ 2)) by ring, root_sq,
    show (shape s).ty = (s.dy1 - s.dy2) / (2 * s.dz) from rfl]
  field_simp; ring

/-- The distances are those from the planes of the faces. -/
theorem faceDist_abs (p : V3) (f : Face) : |faceDist s p f| = |height (shape s) p (sideAt p f)| := by
  have rx := root_pos (shape s).tx
  have ry := root_pos (shape s).ty
  have wx : (shape s).wx p.z = s.dx1 + (s.dx2 - s.dx1) * ((p.z + s.dz) / (2 * s.dz)) := rfl
  have wy : (shape s).wy p.z = s.dy1 + (s.dy2 - s.dy1) * ((p.z + s.dz) / (2 * s.dz)) := rfl
  cases f
  · congr 1; simp only [faceDist, sideAt, height, len_x hz, wx]; field_simp; ring
  · congr 1; simp only [faceDist, sideAt, height, len_x hz, wx]; field_simp; ring
  · congr 1; simp only [faceDist, sideAt, height, len_y hz, wy]; field_simp; ring
  · congr 1; simp only [faceDist, sideAt, height, len_y hz, wy]; field_simp; ring
  · simp only [faceDist, sideAt]
    rw [abs_abs]
    have e : (shape s).z = s.dz := rfl
    split
    · rename_i h; simp only [height, e]; rw [abs_of_neg h]
    · rename_i h; simp only [height, e]; rw [abs_of_nonneg (not_lt.mp h)]

/-- The vectors are the outward normals. -/
theorem faceNormal_dot (p d : V3) (f : Face) : (faceNormal s p f).dot d = slope (shape s) d (sideAt p f) := by
  have rx := root_pos (shape s).tx
  have ry := root_pos (shape s).ty
  have tx : (shape s).tx = (s.dx1 - s.dx2) / (2 * s.dz) := rfl
  have ty : (shape s).ty = (s.dy1 - s.dy2) / (2 * s.dz) := rfl
  cases f
  · simp only [faceNormal, sideAt, slope, len_x hz, V3.dot, V3.smul_x, V3.smul_y, V3.smul_z]
    generalize Real.sqrt (1 + (shape s).tx ^ 2) = r at *
    rw [tx]; field_simp; ring
  · simp only [faceNormal, sideAt, slope, len_x hz, V3.dot, V3.smul_x, V3.smul_y, V3.smul_z]
    generalize Real.sqrt (1 + (shape s).tx ^ 2) = r at *
    rw [tx]; field_simp; ring
  · simp only [faceNormal, sideAt, slope, len_y hz, V3.dot, V3.smul_x, V3.smul_y, V3.smul_z]
    generalize Real.sqrt (1 + (shape s).ty ^ 2) = r at *
    rw [ty]; field_simp; ring
  · simp only [faceNormal, sideAt, slope, len_y hz, V3.dot, V3.smul_x, V3.smul_y, V3.smul_z]
    generalize Real.sqrt (1 + (shape s).ty ^ 2) = r at *
    rw [ty]; field_simp; ring
  · simp only [faceNormal, sideAt]
    by_cases h : p.z < 0
    · rw [if_pos h, if_neg (not_le.mpr h)]; simp [V3.dot, slope]
    · rw [if_neg h, if_pos (not_lt.mp h)]; simp [V3.dot, slope]

end

/-- The smallest distance from the planes. -/
theorem safmin_le (s : State) (p : V3) (f : Face) : safmin s p ≤ |faceDist s p f| := by
  unfold safmin
  dsimp only
  cases f
  · exact (min_le_left _ _).trans ((min_le_left _ _).trans (min_le_left _ _))
  · exact (min_le_left _ _).trans ((min_le_left _ _).trans (min_le_right _ _))
  · exact (min_le_left _ _).trans ((min_le_right _ _).trans (min_le_right _ _))
  · exact (min_le_left _ _).trans ((min_le_right _ _).trans (min_le_left _ _))
  · exact min_le_right _ _

theorem safmin_eq (s : State) (p : V3) : ∃ f, safmin s p = |faceDist s p f| := by
  unfold safmin
  dsimp only
  rcases min_choice (min (min |faceDist s p .xm| |faceDist s p .xp|) (min |faceDist s p .ym| |faceDist s p .yp|))
    |faceDist s p .z| with h | h
  · rw [h]
    rcases min_choice (min |faceDist s p .xm| |faceDist s p .xp|) (min |faceDist s p .ym| |faceDist s p .yp|) with h | h <;> rw [h]
    · rcases min_choice |faceDist s p .xm| |faceDist s p .xp| with h | h <;> exact ⟨_, h⟩
    · rcases min_choice |faceDist s p .ym| |faceDist s p .yp| with h | h <;> exact ⟨_, h⟩
  · exact ⟨_, h⟩

/-- The face takes part in the sum. -/
def Takes (s : State) (p : V3) (f : Face) : Prop := |faceDist s p f| - safmin s p ≤ kHalfTolerance

open Classical in
/-- The coefficient of a normal in the sum. -/
noncomputable def coef (s : State) (p : V3) (f : Face) : ℝ := if Takes s p f then 1 else 0
open Classical in
noncomputable def coefN (s : State) (p : V3) (f : Face) : Nat := if Takes s p f then 1 else 0

theorem coef_pos {s : State} {p : V3} {f : Face} (h : Takes s p f) : coef s p f = 1 ∧ coefN s p f = 1 := ⟨if_pos h, if_pos h⟩
theorem coef_zero {s : State} {p : V3} {f : Face} (h : ¬ Takes s p f) : coef s p f = 0 ∧ coefN s p f = 0 := ⟨if_neg h, if_neg h⟩

theorem addFace_eq (s : State) (p : V3) (a : Nat × V3) (f : Face) :
    addFace s p a f = (a.1 + coefN s p f, a.2 + V3.smul (coef s p f) (faceNormal s p f)) := by
  unfold addFace
  by_cases h : Takes s p f
  · rw [(coef_pos h).1, (coef_pos h).2, if_pos (show |faceDist s p f| - safmin s p ≤ kHalfTolerance from h)]
    refine Prod.ext rfl ?_
    ext <;> simp
  · rw [(coef_zero h).1, (coef_zero h).2, if_neg (show ¬ |faceDist s p f| - safmin s p ≤ kHalfTolerance from h)]
    refine Prod.ext rfl ?_
    ext <;> simp

/-- The sum of the normals. -/
noncomputable def sumNormal (s : State) (p : V3) : V3 :=
  ⟨0, 0, 0⟩ + V3.smul (coef s p .xm) (faceNormal s p .xm) + V3.smul (coef s p .xp) (faceNormal s p .xp) +
    V3.smul (coef s p .yp) (faceNormal s p .yp) + V3.smul (coef s p .ym) (faceNormal s p .ym) +
    V3.smul (coef s p .z) (faceNormal s p .z)

/-- The number of the normals in the sum. -/
noncomputable def number (s : State) (p : V3) : Nat :=
  0 + coefN s p .xm + coefN s p .xp + coefN s p .yp + coefN s p .ym + coefN s p .z

theorem normal_eq (s : State) (p : V3) :
    (normal s p).1 = if number s p = 0 then ⟨0, 0, 1⟩ else if number s p = 1 then sumNormal s p else (sumNormal s p).unit := by
  unfold normal
  dsimp only
  simp only [List.foldl_cons, List.foldl_nil, addFace_eq]
  rfl

theorem sumNormal_dot {s : State} (hz : 0 < s.dz) (p d : V3) :
    (sumNormal s p).dot d = coef s p .xm * slope (shape s) d .xm + coef s p .xp * slope (shape s) d .xp +
      coef s p .yp * slope (shape s) d .yp + coef s p .ym * slope (shape s) d .ym +
      coef s p .z * slope (shape s) d (sideAt p .z) := by
  rw [← faceNormal_dot hz p d .z]
  rw [show slope (shape s) d .xm = _ from (faceNormal_dot hz p d .xm).symm,
    show slope (shape s) d .xp = _ from (faceNormal_dot hz p d .xp).symm,
    show slope (shape s) d .yp = _ from (faceNormal_dot hz p d .yp).symm,
    show slope (shape s) d .ym = _ from (faceNormal_dot hz p d .ym).symm]
  simp only [sumNormal, V3.dot, V3.add_x, V3.add_y, V3.add_z, V3.smul_x, V3.smul_y, V3.smul_z]
  ring

theorem coefN_cases (s : State) (p : V3) (f : Face) : (Takes s p f ∧ coefN s p f = 1) ∨ (¬ Takes s p f ∧ coefN s p f = 0) := by
  by_cases h : Takes s p f
  · exact Or.inl ⟨h, (coef_pos h).2⟩
  · exact Or.inr ⟨h, (coef_zero h).2⟩

theorem takes_some (s : State) (p : V3) : ∃ f, Takes s p f := by
  obtain ⟨f, hf⟩ := safmin_eq s p
  exact ⟨f, by unfold Takes; rw [hf, sub_self]; exact kHalfTolerance_pos.le⟩

theorem number_pos (s : State) (p : V3) : number s p ≠ 0 := by
  obtain ⟨f, hf⟩ := takes_some s p
  have := (coef_pos hf).2
  unfold number
  cases f <;> omega

theorem dot_eq_mag2 {a b : V3} (h : ∀ d, a.dot d = b.dot d) : a = b := by
  have h1 := h ⟨1, 0, 0⟩
  have h2 := h ⟨0, 1, 0⟩
  have h3 := h ⟨0, 0, 1⟩
  simp [V3.dot] at h1 h2 h3
  exact V3.ext h1 h2 h3

theorem faceNormal_plane {s : State} (hz : 0 < s.dz) (p : V3) (f : Face) :
    faceNormal s p f = (plane (shape s) (sideAt p f)).n :=
  dot_eq_mag2 fun d => by rw [faceNormal_dot hz, slope_eq]

/-- If only one face takes part. -/
theorem only_one {s : State} {p : V3} {f : Face} (hf : Takes s p f) (ho : ∀ g, g ≠ f → ¬ Takes s p g) :
    number s p = 1 ∧ sumNormal s p = faceNormal s p f := by
  have a := coef_pos hf
  have b : ∀ g, g ≠ f → coef s p g = 0 ∧ coefN s p g = 0 := fun g hg => coef_zero (ho g hg)
  unfold number sumNormal
  cases f
  · have b1 := b .xp (by simp); have b2 := b .yp (by simp); have b3 := b .ym (by simp); have b4 := b .z (by simp)
    rw [a.1, a.2, b1.1, b1.2, b2.1, b2.2, b3.1, b3.2, b4.1, b4.2]
    exact ⟨rfl, by ext <;> simp⟩
  · have b1 := b .xm (by simp); have b2 := b .yp (by simp); have b3 := b .ym (by simp); have b4 := b .z (by simp)
    rw [a.1, a.2, b1.1, b1.2, b2.1, b2.2, b3.1, b3.2, b4.1, b4.2]
    exact ⟨rfl, by ext <;> simp⟩
  · have b1 := b .xp (by simp); have b2 := b .xm (by simp); have b3 := b .ym (by simp); have b4 := b .z (by simp)
    rw [a.1, a.2, b1.1, b1.2, b2.1, b2.2, b3.1, b3.2, b4.1, b4.2]
    exact ⟨rfl, by ext <;> simp⟩
  · have b1 := b .xp (by simp); have b2 := b .yp (by simp); have b3 := b .xm (by simp); have b4 := b .z (by simp)
    rw [a.1, a.2, b1.1, b1.2, b2.1, b2.2, b3.1, b3.2, b4.1, b4.2]
    exact ⟨rfl, by ext <;> simp⟩
  · have b1 := b .xp (by simp); have b2 := b .yp (by simp); have b3 := b .ym (by simp); have b4 := b .xm (by simp)
    rw [a.1, a.2, b1.1, b1.2, b2.1, b2.2, b3.1, b3.2, b4.1, b4.2]
    exact ⟨rfl, by ext <;> simp⟩

/-- The nearer base. -/
theorem nearer_base {s : State} (hz : 0 < s.dz) (p : V3) :
    |height (shape s) p (sideAt p .z)| ≤ |height (shape s) p .zp| ∧ |height (shape s) p (sideAt p .z)| ≤ |height (shape s) p .zm| := by
  have e : (shape s).z = s.dz := rfl
  simp only [sideAt]
  split
  · rename_i h
    simp only [height, e]
    refine ⟨?_, le_rfl⟩
    rw [abs_of_neg (show p.z - s.dz < 0 by linarith), abs_le]
    constructor <;> linarith
  · rename_i h
    push Not at h
    simp only [height, e]
    refine ⟨le_rfl, ?_⟩
    rw [abs_of_neg (show -p.z - s.dz < 0 by linarith), abs_le]
    constructor <;> linarith

theorem face_of (p : V3) (f : Side) : (∃ g, sideAt p g = f) ∨ f = .zp ∨ f = .zm := by
  cases f
  · exact Or.inl ⟨.xp, rfl⟩
  · exact Or.inl ⟨.xm, rfl⟩
  · exact Or.inl ⟨.yp, rfl⟩
  · exact Or.inl ⟨.ym, rfl⟩
  · exact Or.inr (Or.inl rfl)
  · exact Or.inr (Or.inr rfl)

theorem safmin_side {s : State} (hz : 0 < s.dz) (p : V3) (f : Side) : safmin s p ≤ |height (shape s) p f| := by
  rcases face_of p f with ⟨g, rfl⟩ | rfl | rfl
  · rw [← faceDist_abs hz]; exact safmin_le s p g
  · exact (safmin_le s p .z).trans (by rw [faceDist_abs hz]; exact (nearer_base hz p).1)
  · exact (safmin_le s p .z).trans (by rw [faceDist_abs hz]; exact (nearer_base hz p).2)

/-- C70: the normal is valid exactly for points within the tolerance of the plane of a face. -/
theorem C70_normal_valid {s : State} (hp : Proper (shape s)) (p : V3) :
    (normal s p).2 = true ↔ ∃ f, |height (shape s) p f| ≤ kHalfTolerance := by
  have hz : 0 < s.dz := hp.2.2.2.2
  have e : (normal s p).2 = true ↔ safmin s p ≤ kHalfTolerance := by unfold normal; simp
  rw [e]
  constructor
  · intro h
    obtain ⟨f, hf⟩ := safmin_eq s p
    rw [faceDist_abs hz] at hf
    exact ⟨_, by rw [← hf]; exact h⟩
  · rintro ⟨f, hf⟩
    exact (safmin_side hz p f).trans hf

/-- C70: if one face is nearer than all others by more than half the tolerance, the result is its outward unit normal: the
vector whose product with any direction is the rate at which the height above the face grows. -/
theorem C70_normal_face {s : State} (hp : Proper (shape s)) (p : V3) (f : Side)
    (h : ∀ g, g ≠ f → |height (shape s) p f| + kHalfTolerance < |height (shape s) p g|) :
    (∀ d, (normal s p).1.dot d = slope (shape s) d f) ∧ (normal s p).1.mag2 = 1 := by
  have hz : 0 < s.dz := hp.2.2.2.2
  have hk := kHalfTolerance_pos
  -- the entry of the face
  obtain ⟨g, hg⟩ : ∃ g, sideAt p g = f := by
    rcases face_of p f with h1 | rfl | rfl
    · exact h1
    · refine ⟨.z, ?_⟩
      by_contra hc
      have := h _ hc
      linarith [(nearer_base hz p).1]
    · refine ⟨.z, ?_⟩
      by_contra hc
      have := h _ hc
      linarith [(nearer_base hz p).2]
  have hinj : ∀ g', g' ≠ g → sideAt p g' ≠ f := by
    intro g' hg' hc
    rw [← hg] at hc
    simp only [sideAt] at hc
    cases g <;> cases g' <;> simp at hc hg' <;> split at hc <;> simp at hc
  have hmin : safmin s p = |height (shape s) p f| := by
    refine le_antisymm (safmin_side hz p f) ?_
    obtain ⟨g', h'⟩ := safmin_eq s p
    rw [h', faceDist_abs hz]
    by_cases he : sideAt p g' = f
    · rw [he]
    · linarith [h _ he]
  have t1 : Takes s p g := by unfold Takes; rw [faceDist_abs hz, hg, hmin, sub_self]; exact hk.le
  have t2 : ∀ g', g' ≠ g → ¬ Takes s p g' := by
    intro g' hg'
    unfold Takes
    rw [faceDist_abs hz, hmin]
    have := h _ (hinj g' hg')
    linarith
  obtain ⟨n1, n2⟩ := only_one t1 t2
  have e : (normal s p).1 = (plane (shape s) f).n := by
    rw [normal_eq, n1, if_neg (by decide), if_pos rfl, n2, faceNormal_plane hz, hg]
  rw [e]
  exact ⟨fun d => (slope_eq d f).symm, plane_unit _ _⟩

/-- C70: at edges and corners the normal of a valid point is a combination, with coefficients that are not negative, of the
outward normals of faces within the tolerance; its length is at most 1, and not zero unless the point is near two opposite
sides. -/
theorem C70_normal_outward {s : State} (hp : Proper (shape s)) (p : V3) (hv : (normal s p).2 = true) :
    ∃ w : Side → ℝ, (∀ f, 0 ≤ w f) ∧ (∀ f, w f ≠ 0 → |height (shape s) p f| ≤ kTolerance) ∧ (normal s p).1.mag2 ≤ 1 ∧
    (∀ d, (normal s p).1.dot d = w .xp * slope (shape s) d .xp + w .xm * slope (shape s) d .xm + w .yp * slope (shape s) d .yp +
      w .ym * slope (shape s) d .ym + w .zp * slope (shape s) d .zp + w .zm * slope (shape s) d .zm) ∧
    (¬ (|height (shape s) p .xp| ≤ kTolerance ∧ |height (shape s) p .xm| ≤ kTolerance) →
      ¬ (|height (shape s) p .yp| ≤ kTolerance ∧ |height (shape s) p .ym| ≤ kTolerance) → 0 < (normal s p).1.mag2) := by
  have hz : 0 < s.dz := hp.2.2.2.2
  have hk := kHalfTolerance_pos
  have hkk : kTolerance = kHalfTolerance + kHalfTolerance := by norm_num [kTolerance, kHalfTolerance]
  have hsaf : safmin s p ≤ kHalfTolerance := by
    have : (normal s p).2 = decide (safmin s p ≤ kHalfTolerance) := rfl
    rw [this] at hv
    simpa using hv
  have hn0 := number_pos s p
  have near : ∀ f, Takes s p f → |height (shape s) p (sideAt p f)| ≤ kTolerance := by
    intro f hf
    unfold Takes at hf
    rw [faceDist_abs hz] at hf
    linarith
  -- the factor
  have one : number s p = 1 → (sumNormal s p).mag2 = 1 := by
    intro h1
    obtain ⟨f, hf⟩ := takes_some s p
    have ho : ∀ g, g ≠ f → ¬ Takes s p g := by
      intro g hg ht
      have a := (coef_pos hf).2
      have b := (coef_pos ht).2
      unfold number at h1
      cases f <;> cases g <;> first | exact hg rfl | omega
    rw [(only_one hf ho).2, faceNormal_plane hz]
    exact plane_unit _ _
  obtain ⟨κ, hκ, hn⟩ : ∃ κ : ℝ, 0 < κ ∧ (normal s p).1 = V3.smul κ (sumNormal s p) := by
    rw [normal_eq, if_neg hn0]
    split
    · exact ⟨1, by norm_num, by ext <;> simp⟩
    · refine ⟨1 / Real.sqrt ((sumNormal s p).mag2 + kMinimum), one_div_pos.mpr (V3.unit_root_pos _), ?_⟩
      ext <;> simp [V3.unit] <;> ring
  have hle : (normal s p).1.mag2 ≤ 1 := by
    rw [normal_eq, if_neg hn0]
    split
    · rename_i h1; exact (one h1).le
    · exact V3.unit_mag2_le _
  have hcz : ∀ f, coef s p f = 0 ∨ (coef s p f = 1 ∧ Takes s p f) := by
    intro f
    by_cases h : Takes s p f
    · exact Or.inr ⟨(coef_pos h).1, h⟩
    · exact Or.inl (coef_zero h).1
  have hc0 : ∀ f, 0 ≤ coef s p f := by intro f; rcases hcz f with h | ⟨h, -⟩ <;> rw [h]; norm_num
  refine ⟨fun f => match f with
    | .xp => κ * coef s p .xp | .xm => κ * coef s p .xm | .yp => κ * coef s p .yp | .ym => κ * coef s p .ym
    | .zp => if p.z < 0 then 0 else κ * coef s p .z
    | .zm => if p.z < 0 then κ * coef s p .z else 0, ?_, ?_, hle, ?_, ?_⟩
  · intro f
    cases f <;> dsimp only
    · exact mul_nonneg hκ.le (hc0 _)
    · exact mul_nonneg hκ.le (hc0 _)
    · exact mul_nonneg hκ.le (hc0 _)
    · exact mul_nonneg hκ.le (hc0 _)
    · split
      · exact le_rfl
      · exact mul_nonneg hκ.le (hc0 _)
    · split
      · exact mul_nonneg hκ.le (hc0 _)
      · exact le_rfl
  · have key : ∀ g, κ * coef s p g ≠ 0 → Takes s p g := by
      intro g hg
      rcases hcz g with h | ⟨-, h⟩
      · exact absurd (by rw [h, mul_zero]) hg
      · exact h
    intro f hf
    cases f <;> dsimp only at hf
    · exact near .xp (key _ hf)
    · exact near .xm (key _ hf)
    · exact near .yp (key _ hf)
    · exact near .ym (key _ hf)
    · by_cases h : p.z < 0
      · rw [if_pos h] at hf; exact absurd rfl hf
      · rw [if_neg h] at hf
        have := near .z (key _ hf)
        rwa [show sideAt p .z = .zp by simp only [sideAt]; rw [if_neg h]] at this
    · by_cases h : p.z < 0
      · rw [if_pos h] at hf
        have := near .z (key _ hf)
        rwa [show sideAt p .z = .zm by simp only [sideAt]; rw [if_pos h]] at this
      · rw [if_neg h] at hf; exact absurd rfl hf
  · intro d
    have e : (V3.smul κ (sumNormal s p)).dot d = κ * (sumNormal s p).dot d := by
      simp only [V3.dot, V3.smul_x, V3.smul_y, V3.smul_z]; ring
    rw [hn, e, sumNormal_dot hz]
    dsimp only
    by_cases h : p.z < 0
    · rw [if_pos h, if_pos h, show sideAt p .z = .zm by simp only [sideAt]; rw [if_pos h]]; ring
    · rw [if_neg h, if_neg h, show sideAt p .z = .zp by simp only [sideAt]; rw [if_neg h]]; ring
  · intro hxx hyy
    have rx := root_pos (shape s).tx
    have ry := root_pos (shape s).ty
    have sx := sumNormal_dot hz p ⟨1, 0, 0⟩
    have sy := sumNormal_dot hz p ⟨0, 1, 0⟩
    have sz := sumNormal_dot hz p ⟨0, 0, 1⟩
    have ezz : slope (shape s) ⟨1, 0, 0⟩ (sideAt p .z) = 0 ∧ slope (shape s) ⟨0, 1, 0⟩ (sideAt p .z) = 0 ∧
        (slope (shape s) ⟨0, 0, 1⟩ (sideAt p .z)) ^ 2 = 1 := by
      simp only [sideAt]; split <;> simp [slope]
    rw [ezz.1] at sx
    rw [ezz.2.1] at sy
    simp only [slope, V3.dot, mul_zero, mul_one, add_zero, zero_add, zero_div, neg_zero] at sx sy
    have hpos : 0 < (sumNormal s p).mag2 := by
      by_contra hc
      have h0 : (sumNormal s p).x = 0 ∧ (sumNormal s p).y = 0 ∧ (sumNormal s p).z = 0 := by
        simp only [V3.mag2, V3.dot] at hc
        push Not at hc
        refine ⟨?_, ?_, ?_⟩ <;> nlinarith [mul_self_nonneg (sumNormal s p).x, mul_self_nonneg (sumNormal s p).y,
          mul_self_nonneg (sumNormal s p).z]
      rw [h0.1] at sx
      rw [h0.2.1] at sy
      have e1 : coef s p .xp = coef s p .xm := by
        have : (coef s p .xp - coef s p .xm) / Real.sqrt (1 + (shape s).tx ^ 2) = 0 := by rw [sx]; ring
        rw [div_eq_zero_iff] at this
        rcases this with h | h
        · linarith
        · exact absurd h rx.ne'
      have e2 : coef s p .yp = coef s p .ym := by
        have : (coef s p .yp - coef s p .ym) / Real.sqrt (1 + (shape s).ty ^ 2) = 0 := by rw [sy]; ring
        rw [div_eq_zero_iff] at this
        rcases this with h | h
        · linarith
        · exact absurd h ry.ne'
      have z1 : coef s p .xp = 0 := by
        rcases hcz .xp with h | ⟨h, t⟩
        · exact h
        · rcases hcz .xm with h' | ⟨-, t'⟩
          · rw [e1, h']
          · exact absurd ⟨near .xp t, near .xm t'⟩ hxx
      have z2 : coef s p .yp = 0 := by
        rcases hcz .yp with h | ⟨h, t⟩
        · exact h
        · rcases hcz .ym with h' | ⟨-, t'⟩
          · rw [e2, h']
          · exact absurd ⟨near .yp t, near .ym t'⟩ hyy
      have z3 : coef s p .z = 0 := by
        rw [z1, ← e1, z1, z2, ← e2, z2] at sz
        simp only [V3.dot, mul_zero, mul_one, zero_mul, add_zero, zero_add, h0.2.2] at sz
        rcases mul_eq_zero.mp sz.symm with h | h
        · exact h
        · rw [h] at ezz; norm_num at ezz
      obtain ⟨f, hf⟩ := takes_some s p
      have := (coef_pos hf).1
      cases f <;> linarith
    have e : (V3.smul κ (sumNormal s p)).mag2 = κ ^ 2 * (sumNormal s p).mag2 := by
      simp only [V3.mag2, V3.dot, V3.smul_x, V3.smul_y, V3.smul_z]; ring
    rw [hn, e]
    positivity

/-- The upper base of the sample solid. -/
example (m : State) : ∀ d, (normal (sample m) ⟨0, 0, 2⟩).1.dot d = d.z := by
  have r1 : Real.sqrt (1 + (Shape.tx ⟨1, 3, 2, 5, 2⟩) ^ 2) ≤ 2 := by rw [Real.sqrt_le_iff]; norm_num [Shape.tx]
  have r2 : Real.sqrt (1 + (Shape.ty ⟨1, 3, 2, 5, 2⟩) ^ 2) ≤ 2 := by rw [Real.sqrt_le_iff]; norm_num [Shape.ty]
  have p1 := root_pos (Shape.tx ⟨1, 3, 2, 5, 2⟩)
  have p2 := root_pos (Shape.ty ⟨1, 3, 2, 5, 2⟩)
  have hk := BoxSolid.kHalfTolerance_le
  refine (C70_normal_face (sample_proper m) ⟨0, 0, 2⟩ .zp ?_).1
  rw [sample_shape]
  have h0 : height ⟨1, 3, 2, 5, 2⟩ ⟨0, 0, 2⟩ .zp = 0 := by norm_num [height]
  rw [h0, abs_zero, zero_add]
  intro g hg
  have key : ∀ a : ℝ, a ≤ -1 / 2 → kHalfTolerance < |a| := by
    intro a ha; rw [abs_of_neg (by linarith)]; linarith
  apply key
  cases g <;> simp only [height]
  · rw [div_le_iff₀ p1]; norm_num [Shape.wx]; nlinarith
  · rw [div_le_iff₀ p1]; norm_num [Shape.wx]; nlinarith
  · rw [div_le_iff₀ p2]; norm_num [Shape.wy]; nlinarith
  · rw [div_le_iff₀ p2]; norm_num [Shape.wy]; nlinarith
  · exact absurd rfl hg
  · norm_num

end Trd
end VecGeom

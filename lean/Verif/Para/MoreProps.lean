import Verif.Para.Props
import Mathlib.Tactic.IntervalCases

/-!
# C67: caches, normals, extent, sampling and mesh of the parallelepiped
-/

namespace VecGeom
namespace Para

/-- The three axes of the shape. -/
def Shape.vx (_ : Shape) : V3 := ⟨1, 0, 0⟩
def Shape.vy (S : Shape) : V3 := ⟨S.ta, 1, 0⟩
def Shape.vz (S : Shape) : V3 := ⟨S.tc, S.ts, 1⟩

/-! ## Caches -/

/-- C67: after any history of setters the cached normals are the outward unit normals of the faces, perpendicular to the
two axes in the face, and the scale factors are the cosines of the angles between normals and axes. -/
theorem C67_caches {s : State} (hs : Reachable s) :
    (s.n0.mag2 = 1 ∧ s.n0.dot (shape s).vy = 0 ∧ s.n0.dot (shape s).vz = 0 ∧ s.n0.dot (shape s).vx = s.ctx ∧ 0 < s.ctx) ∧
    (s.n1.mag2 = 1 ∧ s.n1.dot (shape s).vx = 0 ∧ s.n1.dot (shape s).vz = 0 ∧ s.n1.dot (shape s).vy = s.cty ∧ 0 < s.cty) ∧
    (s.n2.mag2 = 1 ∧ s.n2.dot (shape s).vx = 0 ∧ s.n2.dot (shape s).vy = 0 ∧ s.n2.dot (shape s).vz = 1) := by
  have hr := hs.rep
  have h0 := n0_dot hr
  have h1 := n1_dot hr
  have h2 := n2_dot hr
  have ex : (shape s).vx = (shape s).point 1 0 0 := by ext <;> simp [Shape.vx, Shape.point]
  have ey : (shape s).vy = (shape s).point 0 1 0 := by ext <;> simp [Shape.vy, Shape.point]
  have ez : (shape s).vz = (shape s).point 0 0 1 := by ext <;> simp [Shape.vz, Shape.point]
  rw [ex, ey, ez]
  simp only [h0, h1, h2, transform_point hr, mul_zero, mul_one, and_true, true_and]
  exact ⟨⟨n0_unit hr, ctx_pos hr⟩, ⟨n1_unit hr, cty_pos hr⟩, n2_unit hr⟩

/-- The area of the surface: twice the areas of three faces, each the area of the parallelogram of two doubled axes. -/
noncomputable def trueArea (S : Shape) : ℝ :=
  2 * (V3.mag (V3.cross (V3.smul (2 * S.h.y) S.vy) (V3.smul (2 * S.h.z) S.vz)) +
    V3.mag (V3.cross (V3.smul (2 * S.h.z) S.vz) (V3.smul (2 * S.h.x) S.vx)) +
    V3.mag (V3.cross (V3.smul (2 * S.h.x) S.vx) (V3.smul (2 * S.h.y) S.vy)))

theorem cross_smul_mag {a b : ℝ} (ha : 0 ≤ a) (hb : 0 ≤ b) (u v : V3) :
    V3.mag (V3.cross (V3.smul (2 * a) u) (V3.smul (2 * b) v)) = 4 * a * b * V3.mag (V3.cross u v) := by
  have e : V3.mag2 (V3.cross (V3.smul (2 * a) u) (V3.smul (2 * b) v)) = (4 * a * b) ^ 2 * V3.mag2 (V3.cross u v) := by
    simp only [V3.mag2, V3.dot, V3.cross, V3.smul_x, V3.smul_y, V3.smul_z]; ring
  unfold V3.mag
  rw [e, Real.sqrt_mul (sq_nonneg _), Real.sqrt_sq (by positivity)]

theorem computeNormals_area (s : State) (S : Shape) (hS : S.h = s.dims ∧ S.ta = s.tanAlpha ∧ S.tc = s.tanThetaCosPhi ∧
    S.ts = s.tanThetaSinPhi) (h0 : 0 ≤ s.dims.x ∧ 0 ≤ s.dims.y ∧ 0 ≤ s.dims.z) :
    surfaceArea (computeNormals s) = trueArea S := by
  obtain ⟨hx, hy, hz⟩ := h0
  obtain ⟨h1, h2, h3, h4⟩ := hS
  unfold trueArea
  rw [h1, cross_smul_mag hy hz, cross_smul_mag hz hx, cross_smul_mag hx hy]
  have e : V3.mag (V3.cross S.vx S.vy) = 1 := by
    simp [V3.mag, V3.mag2, V3.dot, V3.cross, Shape.vx, Shape.vy]
  rw [e]
  simp only [surfaceArea, computeNormals, Shape.vx, Shape.vy, Shape.vz, h2, h3, h4, mul_one]

/-- Setters that change an angle. -/
def Setter.isAngle : Setter → Bool
  | .dims _ => false
  | _ => true

/-- The half lengths in force when the areas were last computed: at the construction or at the last change of an angle. -/
def lastDims : V3 → V3 → List Setter → V3
  | _, last, [] => last
  | _, last, .dims d :: l => lastDims d last l
  | cur, _, _ :: l => lastDims cur cur l

/-- The surface area reported is twice the sum of the faces for the half lengths `h`. -/
def AreaFor (s : State) (h : V3) : Prop :=
  0 ≤ h.x ∧ 0 ≤ h.y ∧ 0 ≤ h.z → surfaceArea s = trueArea { shape s with h := h }

/-- C67: after any history of setters the surface area is right for the current angles and the half lengths that were in
force at the last change of an angle (which need not be the current ones). -/
theorem C67_area_partial (m : State) (h : V3) (alpha theta phi : ℝ) (l : List Setter)
    (h0 : 0 ≤ (lastDims h h l).x ∧ 0 ≤ (lastDims h h l).y ∧ 0 ≤ (lastDims h h l).z) :
    surfaceArea (l.foldl set (create m h alpha theta phi)).para =
      trueArea { shape (l.foldl set (create m h alpha theta phi)).para with h := lastDims h h l } := by
  have key : ∀ (l : List Setter) (s : Solid) (last : V3), Rep s.para (shape s.para) → AreaFor s.para last →
      AreaFor (l.foldl set s).para (lastDims s.para.dims last l) := by
    intro l
    induction l with
    | nil => intro s last _ h; exact h
    | cons a l ih =>
      intro s last hr hA
      have hr' := set_rep hr a
      obtain ⟨-, r2, r3, r4, -⟩ := hr'
      cases a with
      | dims d => exact ih _ last (set_rep hr _) hA
      | alpha a =>
        refine ih _ _ (set_rep hr _) fun h0 => computeNormals_area _ _ ⟨rfl, r2.symm, r3.symm, r4.symm⟩ h0
      | theta a =>
        refine ih _ _ (set_rep hr _) fun h0 => computeNormals_area _ _ ⟨rfl, r2.symm, r3.symm, r4.symm⟩ h0
      | phi a =>
        refine ih _ _ (set_rep hr _) fun h0 => computeNormals_area _ _ ⟨rfl, r2.symm, r3.symm, r4.symm⟩ h0
      | thetaAndPhi t p =>
        refine ih _ _ (set_rep hr _) fun h0 => computeNormals_area _ _ ⟨rfl, r2.symm, r3.symm, r4.symm⟩ h0
  have hr : Rep (create m h alpha theta phi).para (shape (create m h alpha theta phi).para) :=
    computeNormals_rep _ rfl rfl rfl
  exact key l (create m h alpha theta phi) h hr
    (fun h0 => computeNormals_area _ _ ⟨rfl, rfl, rfl, rfl⟩ h0) h0

example : lastDims ⟨1, 1, 1⟩ ⟨1, 1, 1⟩ [.dims ⟨2, 3, 4⟩, .alpha 1, .dims ⟨9, 9, 9⟩] = ⟨2, 3, 4⟩ := rfl

/-- C67: after `SetDimensions` the surface area is still the old one. -/
theorem C67_area_counterexample (m : State) :
    let s := (set (create m ⟨1, 1, 1⟩ 0 0 0) (.dims ⟨10, 10, 10⟩)).para
    surfaceArea s = 24 ∧ trueArea (shape s) = 2400 := by
  have e : (set (create m ⟨1, 1, 1⟩ 0 0 0) (.dims ⟨10, 10, 10⟩)).para =
      ([Setter.dims ⟨10, 10, 10⟩].foldl set (create m ⟨1, 1, 1⟩ 0 0 0)).para := rfl
  have key : ∀ x y z : ℝ, 0 ≤ x → 0 ≤ y → 0 ≤ z → trueArea ⟨⟨x, y, z⟩, 0, 0, 0⟩ = 8 * (y * z + z * x + x * y) := by
    intro x y z hx hy hz
    unfold trueArea
    rw [cross_smul_mag hy hz, cross_smul_mag hz hx, cross_smul_mag hx hy]
    simp [V3.mag, V3.mag2, V3.dot, V3.cross, Shape.vx, Shape.vy, Shape.vz]
    ring
  have hsh : shape (set (create m ⟨1, 1, 1⟩ 0 0 0) (.dims ⟨10, 10, 10⟩)).para = ⟨⟨10, 10, 10⟩, 0, 0, 0⟩ := by
    show Shape.ofAngles ⟨10, 10, 10⟩ 0 0 0 = _
    simp [Shape.ofAngles]
  dsimp only
  refine ⟨?_, ?_⟩
  · rw [e, C67_area_partial m ⟨1, 1, 1⟩ 0 0 0 [.dims ⟨10, 10, 10⟩] (by norm_num [lastDims]), ← e, hsh]
    show trueArea ⟨⟨1, 1, 1⟩, 0, 0, 0⟩ = 24
    rw [key _ _ _ (by norm_num) (by norm_num) (by norm_num)]; norm_num
  · rw [hsh, key _ _ _ (by norm_num) (by norm_num) (by norm_num)]; norm_num

/-! ## Extent and bounding box -/

/-- C67: all points of the solid are within the extent and each of the six bounds is attained. -/
theorem C67_extent {s : State} (hs : Reachable s) (h0 : 0 ≤ s.dims.x ∧ 0 ≤ s.dims.y ∧ 0 ≤ s.dims.z) :
    (∀ q, Closed (shape s) q → ((extent s).1.x ≤ q.x ∧ q.x ≤ (extent s).2.x) ∧
      ((extent s).1.y ≤ q.y ∧ q.y ≤ (extent s).2.y) ∧ ((extent s).1.z ≤ q.z ∧ q.z ≤ (extent s).2.z)) ∧
    (∃ q, Closed (shape s) q ∧ q.x = (extent s).1.x) ∧ (∃ q, Closed (shape s) q ∧ q.x = (extent s).2.x) ∧
    (∃ q, Closed (shape s) q ∧ q.y = (extent s).1.y) ∧ (∃ q, Closed (shape s) q ∧ q.y = (extent s).2.y) ∧
    (∃ q, Closed (shape s) q ∧ q.z = (extent s).1.z) ∧ (∃ q, Closed (shape s) q ∧ q.z = (extent s).2.z) := by
  obtain ⟨-, ra, rc, rs, -⟩ := hs.rep
  obtain ⟨hx, hy, hz⟩ := h0
  have hmul : ∀ b h t : ℝ, |b| ≤ h → |b * t| ≤ h * |t| := by
    intro b h t hb
    rw [abs_mul]; exact mul_le_mul_of_nonneg_right hb (abs_nonneg _)
  have hs1 : ∀ t : ℝ, sign t * t = |t| := by
    intro t
    rcases BoxSolid.sign_cases t with ⟨h, e⟩ | ⟨h, e⟩ <;> rw [e]
    · rw [abs_of_neg h]; ring
    · rw [abs_of_nonneg h]; ring
  have hs2 : ∀ t h : ℝ, 0 ≤ h → |sign t * h| ≤ h := by
    intro t h hh
    rw [(BoxSolid.same_side t h hh).1]
  have hs3 : ∀ t h : ℝ, 0 ≤ h → |-(sign t * h)| ≤ h := by
    intro t h hh
    rw [abs_neg]; exact hs2 t h hh
  have hdims : (shape s).h = s.dims := rfl
  simp only [extent, ra, rc, rs]
  refine ⟨?_, ?_, ?_, ?_, ?_, ?_, ?_⟩
  · rintro q ⟨a, b, c, h1, h2, h3, rfl⟩
    rw [hdims] at h1 h2 h3
    have k1 := abs_le.mp h1
    have k2 := abs_le.mp h2
    have k3 := abs_le.mp h3
    have k4 := abs_le.mp (hmul b _ (shape s).ta h2)
    have k5 := abs_le.mp (hmul c _ (shape s).tc h3)
    have k6 := abs_le.mp (hmul c _ (shape s).ts h3)
    simp only [Shape.point]
    refine ⟨⟨?_, ?_⟩, ⟨?_, ?_⟩, ⟨?_, ?_⟩⟩ <;> linarith [k1.1, k1.2, k2.1, k2.2, k3.1, k3.2, k4.1, k4.2, k5.1, k5.2, k6.1, k6.2]
  · refine ⟨_, ⟨-s.dims.x, -(sign (shape s).ta * s.dims.y), -(sign (shape s).tc * s.dims.z), ?_, hs3 _ _ hy, hs3 _ _ hz, rfl⟩, ?_⟩
    · rw [abs_neg, abs_of_nonneg hx]; exact le_rfl
    · simp only [Shape.point]
      linear_combination (-s.dims.y) * hs1 (shape s).ta - s.dims.z * hs1 (shape s).tc
  · refine ⟨_, ⟨s.dims.x, sign (shape s).ta * s.dims.y, sign (shape s).tc * s.dims.z, ?_, hs2 _ _ hy, hs2 _ _ hz, rfl⟩, ?_⟩
    · rw [abs_of_nonneg hx]; exact le_rfl
    · simp only [Shape.point]
      linear_combination s.dims.y * hs1 (shape s).ta + s.dims.z * hs1 (shape s).tc
  · refine ⟨_, ⟨0, -s.dims.y, -(sign (shape s).ts * s.dims.z), ?_, ?_, hs3 _ _ hz, rfl⟩, ?_⟩
    · rw [abs_zero]; exact hx
    · rw [abs_neg, abs_of_nonneg hy]; exact le_rfl
    · simp only [Shape.point]
      linear_combination (-s.dims.z) * hs1 (shape s).ts
  · refine ⟨_, ⟨0, s.dims.y, sign (shape s).ts * s.dims.z, ?_, ?_, hs2 _ _ hz, rfl⟩, ?_⟩
    · rw [abs_zero]; exact hx
    · rw [abs_of_nonneg hy]; exact le_rfl
    · simp only [Shape.point]
      linear_combination s.dims.z * hs1 (shape s).ts
  · refine ⟨_, ⟨0, 0, -s.dims.z, ?_, ?_, ?_, rfl⟩, rfl⟩
    · rw [abs_zero]; exact hx
    · rw [abs_zero]; exact hy
    · rw [abs_neg, abs_of_nonneg hz]; exact le_rfl
  · refine ⟨_, ⟨0, 0, s.dims.z, ?_, ?_, ?_, rfl⟩, rfl⟩
    · rw [abs_zero]; exact hx
    · rw [abs_zero]; exact hy
    · rw [abs_of_nonneg hz]; exact le_rfl

/-- C67: after any history of setters the cached bounding box is that of the construction. -/
theorem C67_bbox_partial (m : State) (h : V3) (alpha theta phi : ℝ) (l : List Setter) :
    (l.foldl set (create m h alpha theta phi)).bbox = extent (create m h alpha theta phi).para := by
  have key : ∀ (l : List Setter) (s : Solid), (l.foldl set s).bbox = s.bbox := by
    intro l
    induction l with
    | nil => intro s; rfl
    | cons a l ih =>
      intro s
      rw [List.foldl_cons, ih]
      cases a <;> rfl
  exact key l _

/-- C67: after `SetAlpha` the cached bounding box misses points of the solid. -/
theorem C67_bbox_counterexample (m : State) :
    ∃ q, contains (set (create m ⟨1, 1, 1⟩ 0 0 0) (.alpha (Real.pi / 4))).para q = true ∧
      (set (create m ⟨1, 1, 1⟩ 0 0 0) (.alpha (Real.pi / 4))).bbox.2.x < q.x := by
  have hR : Reachable (set (create m ⟨1, 1, 1⟩ 0 0 0) (.alpha (Real.pi / 4))).para :=
    ⟨m, ⟨1, 1, 1⟩, 0, 0, 0, [.alpha (Real.pi / 4)], rfl⟩
  have hsh : shape (set (create m ⟨1, 1, 1⟩ 0 0 0) (.alpha (Real.pi / 4))).para = ⟨⟨1, 1, 1⟩, 1, 0, 0⟩ := by
    show Shape.ofAngles ⟨1, 1, 1⟩ (Real.pi / 4) 0 0 = _
    simp [Shape.ofAngles]
  refine ⟨⟨3 / 2, 3 / 4, 0⟩, ?_, ?_⟩
  · rw [C66_contains hR, hsh]
    exact ⟨3 / 4, 3 / 4, 0, by norm_num [abs_lt], by norm_num [abs_lt], by norm_num, by norm_num [Shape.point]⟩
  · show (extent (create m ⟨1, 1, 1⟩ 0 0 0).para).2.x < 3 / 2
    norm_num [extent, create, init, setThetaAndPhi, setAlpha, computeNormals]

/-! ## Sampling -/

/-- C67: each sampled point is on the boundary, for all random numbers and whatever the areas are. -/
theorem C67_sample {s : State} (hs : Reachable s) (h0 : 0 ≤ s.dims.x ∧ 0 ≤ s.dims.y ∧ 0 ≤ s.dims.z) {u0 u v : ℝ}
    (hu : 0 ≤ u ∧ u ≤ 1) (hv : 0 ≤ v ∧ v ≤ 1) : Boundary (shape s) (samplePointOnSurface s u0 u v) := by
  have hr := hs.rep
  obtain ⟨hx, hy, hz⟩ := h0
  obtain ⟨-, ra, rc, rs, -⟩ := hs.rep
  have hdims : (shape s).h = s.dims := rfl
  have hw : ∀ w h : ℝ, 0 ≤ h → 0 ≤ w ∧ w ≤ 1 → |-h + w * (2 * h)| ≤ h := by
    intro w h hh hw
    rw [abs_le]; constructor <;> nlinarith [hw.1, hw.2]
  have hn : ∀ h : ℝ, 0 ≤ h → |-h| = h := fun h hh => by rw [abs_neg, abs_of_nonneg hh]
  have close : ∀ {q : V3} (a b c : ℝ), q = (shape s).point a b c → |a| ≤ s.dims.x → |b| ≤ s.dims.y → |c| ≤ s.dims.z →
      (|a| = s.dims.x ∨ |b| = s.dims.y ∨ |c| = s.dims.z) → Boundary (shape s) q := by
    intro q a b c e h1 h2 h3 h4
    apply boundary_of hr
    rw [e, transform_point hr]
    exact ⟨⟨h1, h2, h3⟩, h4⟩
  have hk : ∀ k : Nat, Boundary (shape s) ((sampleCorners s k).1 + V3.smul u ((sampleCorners s k).2.1 - (sampleCorners s k).1) +
      V3.smul v ((sampleCorners s k).2.2 - (sampleCorners s k).1)) := by
    intro k
    match k with
    | 0 =>
      refine close (-s.dims.x) (-s.dims.y + u * (2 * s.dims.y)) (-s.dims.z + v * (2 * s.dims.z)) ?_ (hn _ hx).le
        (hw _ _ hy hu) (hw _ _ hz hv) (Or.inl (hn _ hx))
      ext <;> simp only [sampleCorners, Shape.point, V3.add_x, V3.add_y, V3.add_z, V3.smul_x, V3.smul_y, V3.smul_z,
        V3.sub_x, V3.sub_y, V3.sub_z, ra, rc, rs] <;> ring
    | 1 =>
      refine close s.dims.x (-s.dims.y + v * (2 * s.dims.y)) (-s.dims.z + u * (2 * s.dims.z)) ?_ (abs_of_nonneg hx).le
        (hw _ _ hy hv) (hw _ _ hz hu) (Or.inl (abs_of_nonneg hx))
      ext <;> simp only [sampleCorners, Shape.point, V3.add_x, V3.add_y, V3.add_z, V3.smul_x, V3.smul_y, V3.smul_z,
        V3.sub_x, V3.sub_y, V3.sub_z, ra, rc, rs] <;> ring
    | 2 =>
      refine close (-s.dims.x + v * (2 * s.dims.x)) (-s.dims.y) (-s.dims.z + u * (2 * s.dims.z)) ?_ (hw _ _ hx hv)
        (hn _ hy).le (hw _ _ hz hu) (Or.inr (Or.inl (hn _ hy)))
      ext <;> simp only [sampleCorners, Shape.point, V3.add_x, V3.add_y, V3.add_z, V3.smul_x, V3.smul_y, V3.smul_z,
        V3.sub_x, V3.sub_y, V3.sub_z, ra, rc, rs] <;> ring
    | 3 =>
      refine close (-s.dims.x + u * (2 * s.dims.x)) s.dims.y (-s.dims.z + v * (2 * s.dims.z)) ?_ (hw _ _ hx hu)
        (abs_of_nonneg hy).le (hw _ _ hz hv) (Or.inr (Or.inl (abs_of_nonneg hy)))
      ext <;> simp only [sampleCorners, Shape.point, V3.add_x, V3.add_y, V3.add_z, V3.smul_x, V3.smul_y, V3.smul_z,
        V3.sub_x, V3.sub_y, V3.sub_z, ra, rc, rs] <;> ring
    | 4 =>
      refine close (-s.dims.x + u * (2 * s.dims.x)) (-s.dims.y + v * (2 * s.dims.y)) (-s.dims.z) ?_ (hw _ _ hx hu)
        (hw _ _ hy hv) (hn _ hz).le (Or.inr (Or.inr (hn _ hz)))
      ext <;> simp only [sampleCorners, Shape.point, V3.add_x, V3.add_y, V3.add_z, V3.smul_x, V3.smul_y, V3.smul_z,
        V3.sub_x, V3.sub_y, V3.sub_z, ra, rc, rs] <;> ring
    | _ + 5 =>
      refine close (-s.dims.x + v * (2 * s.dims.x)) (-s.dims.y + u * (2 * s.dims.y)) s.dims.z ?_ (hw _ _ hx hv)
        (hw _ _ hy hu) (abs_of_nonneg hz).le (Or.inr (Or.inr (abs_of_nonneg hz)))
      ext <;> simp only [sampleCorners, Shape.point, V3.add_x, V3.add_y, V3.add_z, V3.smul_x, V3.smul_y, V3.smul_z,
        V3.sub_x, V3.sub_y, V3.sub_z, ra, rc, rs] <;> ring
  exact hk _

/-- C67: every point of the boundary can be sampled if the areas are positive. -/
theorem C67_sample_all {s : State} (hs : Reachable s) (h0 : Proper (shape s))
    (ha : 0 < s.area0 ∧ 0 < s.area1 ∧ 0 < s.area2) {q : V3} (hq : Boundary (shape s) q) :
    ∃ u0 u v, (0 ≤ u0 ∧ u0 ≤ 1) ∧ (0 ≤ u ∧ u ≤ 1) ∧ (0 ≤ v ∧ v ≤ 1) ∧ samplePointOnSurface s u0 u v = q := by
  obtain ⟨a0, a1, a2⟩ := ha
  obtain ⟨-, ra, rc, rs, -⟩ := hs.rep
  obtain ⟨hx, hy, hz⟩ := h0
  have hdims : (shape s).h = s.dims := rfl
  rw [hdims] at hx hy hz
  -- every facet can be selected
  have facet : ∀ k, k ≤ 5 → ∃ u0, (0 ≤ u0 ∧ u0 ≤ 1) ∧ sampleFacet s u0 = k := by
    have tot : 0 < s.area0 + s.area0 + s.area1 + s.area1 + s.area2 + s.area2 := by linarith
    have mk : ∀ r : ℝ, 0 ≤ r → r ≤ s.area0 + s.area0 + s.area1 + s.area1 + s.area2 + s.area2 →
        ∃ u0, (0 ≤ u0 ∧ u0 ≤ 1) ∧ (s.area0 + s.area0 + s.area1 + s.area1 + s.area2 + s.area2) * u0 = r := by
      intro r h1 h2
      exact ⟨r / _, ⟨div_nonneg h1 tot.le, (div_le_one tot).mpr h2⟩, mul_div_cancel₀ _ tot.ne'⟩
    intro k hk
    interval_cases k
    · obtain ⟨u0, h1, h2⟩ := mk 0 le_rfl tot.le
      refine ⟨u0, h1, ?_⟩
      simp only [sampleFacet, h2]
      rw [if_pos a0.le]
    · obtain ⟨u0, h1, h2⟩ := mk (s.area0 + s.area0) (by linarith) (by linarith)
      refine ⟨u0, h1, ?_⟩
      simp only [sampleFacet, h2]
      rw [if_neg (by linarith), if_pos le_rfl]
    · obtain ⟨u0, h1, h2⟩ := mk (s.area0 + s.area0 + s.area1) (by linarith) (by linarith)
      refine ⟨u0, h1, ?_⟩
      simp only [sampleFacet, h2]
      rw [if_neg (by linarith), if_neg (by linarith), if_pos le_rfl]
    · obtain ⟨u0, h1, h2⟩ := mk (s.area0 + s.area0 + s.area1 + s.area1) (by linarith) (by linarith)
      refine ⟨u0, h1, ?_⟩
      simp only [sampleFacet, h2]
      rw [if_neg (by linarith), if_neg (by linarith), if_neg (by linarith), if_pos le_rfl]
    · obtain ⟨u0, h1, h2⟩ := mk (s.area0 + s.area0 + s.area1 + s.area1 + s.area2) (by linarith) (by linarith)
      refine ⟨u0, h1, ?_⟩
      simp only [sampleFacet, h2]
      rw [if_neg (by linarith), if_neg (by linarith), if_neg (by linarith), if_neg (by linarith), if_pos le_rfl]
    · obtain ⟨u0, h1, h2⟩ := mk (s.area0 + s.area0 + s.area1 + s.area1 + s.area2 + s.area2) (by linarith) (by linarith)
      refine ⟨u0, h1, ?_⟩
      simp only [sampleFacet, h2]
      rw [if_neg (by linarith), if_neg (by linarith), if_neg (by linarith), if_neg (by linarith), if_neg (by linarith)]
  have par : ∀ h a : ℝ, 0 < h → |a| ≤ h → ∃ w, (0 ≤ w ∧ w ≤ 1) ∧ a = -h + w * (2 * h) := by
    intro h a hh ha
    have := abs_le.mp ha
    refine ⟨(a + h) / (2 * h), ⟨div_nonneg (by linarith) (by linarith), (div_le_one (by linarith)).mpr (by linarith)⟩, ?_⟩
    field_simp; ring
  obtain ⟨⟨a, b, c, h1, h2, h3, rfl⟩, hno⟩ := hq
  rw [hdims] at h1 h2 h3
  have hface : |a| = s.dims.x ∨ |b| = s.dims.y ∨ |c| = s.dims.z := by
    by_contra hcon
    push Not at hcon
    exact hno ⟨a, b, c, lt_of_le_of_ne h1 hcon.1, lt_of_le_of_ne h2 hcon.2.1, lt_of_le_of_ne h3 hcon.2.2, rfl⟩
  obtain ⟨wa, hwa, ea⟩ := par _ a hx h1
  obtain ⟨wb, hwb, eb⟩ := par _ b hy h2
  obtain ⟨wc, hwc, ec⟩ := par _ c hz h3
  have fin : ∀ k u v, k ≤ 5 → (0 ≤ u ∧ u ≤ 1) → (0 ≤ v ∧ v ≤ 1) →
      (sampleCorners s k).1 + V3.smul u ((sampleCorners s k).2.1 - (sampleCorners s k).1) +
        V3.smul v ((sampleCorners s k).2.2 - (sampleCorners s k).1) = (shape s).point a b c →
      ∃ u0 u v, (0 ≤ u0 ∧ u0 ≤ 1) ∧ (0 ≤ u ∧ u ≤ 1) ∧ (0 ≤ v ∧ v ≤ 1) ∧
        samplePointOnSurface s u0 u v = (shape s).point a b c := by
    intro k u v hk hu hv e
    obtain ⟨u0, hu0, ek⟩ := facet k hk
    refine ⟨u0, u, v, hu0, hu, hv, ?_⟩
    unfold samplePointOnSurface
    rw [ek]; exact e
  rcases hface with h | h | h
  · rcases abs_eq hx.le |>.mp h with e | e
    · refine fin 1 wc wb (by norm_num) hwc hwb ?_
      rw [e, eb, ec]
      ext <;> simp only [sampleCorners, Shape.point, V3.add_x, V3.add_y, V3.add_z, V3.smul_x, V3.smul_y, V3.smul_z,
        V3.sub_x, V3.sub_y, V3.sub_z, ra, rc, rs] <;> ring
    · refine fin 0 wb wc (by norm_num) hwb hwc ?_
      rw [e, eb, ec]
      ext <;> simp only [sampleCorners, Shape.point, V3.add_x, V3.add_y, V3.add_z, V3.smul_x, V3.smul_y, V3.smul_z,
        V3.sub_x, V3.sub_y, V3.sub_z, ra, rc, rs] <;> ring
  · rcases abs_eq hy.le |>.mp h with e | e
    · refine fin 3 wa wc (by norm_num) hwa hwc ?_
      rw [e, ea, ec]
      ext <;> simp only [sampleCorners, Shape.point, V3.add_x, V3.add_y, V3.add_z, V3.smul_x, V3.smul_y, V3.smul_z,
        V3.sub_x, V3.sub_y, V3.sub_z, ra, rc, rs] <;> ring
    · refine fin 2 wc wa (by norm_num) hwc hwa ?_
      rw [e, ea, ec]
      ext <;> simp only [sampleCorners, Shape.point, V3.add_x, V3.add_y, V3.add_z, V3.smul_x, V3.smul_y, V3.smul_z,
        V3.sub_x, V3.sub_y, V3.sub_z, ra, rc, rs] <;> ring
  · rcases abs_eq hz.le |>.mp h with e | e
    · refine fin 5 wb wa (by norm_num) hwb hwa ?_
      rw [e, ea, eb]
      ext <;> simp only [sampleCorners, Shape.point, V3.add_x, V3.add_y, V3.add_z, V3.smul_x, V3.smul_y, V3.smul_z,
        V3.sub_x, V3.sub_y, V3.sub_z, ra, rc, rs] <;> ring
    · refine fin 4 wa wb (by norm_num) hwa hwb ?_
      rw [e, ea, eb]
      ext <;> simp only [sampleCorners, Shape.point, V3.add_x, V3.add_y, V3.add_z, V3.smul_x, V3.smul_y, V3.smul_z,
        V3.sub_x, V3.sub_y, V3.sub_z, ra, rc, rs] <;> ring

/-! ## Mesh -/

/-- C67: no vertex of the mesh lies on the top or bottom face, so that no corner of the solid is a vertex of the mesh. -/
theorem C67_mesh_counterexample {s : State} (ha : Real.cos s.alpha ≠ 0) (hz : 0 < s.dims.z) {vs : List V3}
    (h : meshVertices s = some vs) : ∀ v ∈ vs, |v.z| < s.dims.z := by
  unfold meshVertices at h
  cases he : meshEdges s with
  | none => rw [he] at h; simp at h
  | some e =>
    obtain ⟨a, b, c⟩ := e
    rw [he] at h
    simp only [Option.map_some, Option.some.injEq] at h
    have hab : a.z = 0 ∧ b.z = 0 ∧ |c.z| < 2 * s.dims.z := by
      unfold meshEdges at he
      dsimp only at he
      split at he
      · cases he
      · split at he
        · cases he
        · rename_i hr
          simp only [Option.some.injEq, Prod.mk.injEq] at he
          obtain ⟨rfl, rfl, rfl⟩ := he
          refine ⟨rfl, rfl, ?_⟩
          dsimp only
          rw [abs_mul, abs_of_pos (by linarith), abs_of_nonneg (Real.sqrt_nonneg _)]
          have : Real.sqrt (1 - Real.cos s.alpha * Real.cos s.alpha -
              (Real.cos s.theta - Real.cos s.alpha * Real.cos s.phi) / Real.sin s.phi *
                ((Real.cos s.theta - Real.cos s.alpha * Real.cos s.phi) / Real.sin s.phi)) < 1 := by
            rw [Real.sqrt_lt' one_pos]
            have := mul_self_pos.mpr ha
            have := mul_self_nonneg ((Real.cos s.theta - Real.cos s.alpha * Real.cos s.phi) / Real.sin s.phi)
            linarith
          nlinarith
    obtain ⟨h1, h2, h3⟩ := hab
    rw [abs_lt] at h3
    intro v hv
    rw [← h] at hv
    simp only [List.map_cons, List.map_nil, List.mem_cons, List.not_mem_nil, or_false] at hv
    rw [abs_lt]
    rcases hv with rfl | rfl | rfl | rfl | rfl | rfl | rfl | rfl <;>
      simp only [V3.sub_z, V3.add_z, V3.smul_z, h1, h2] <;> constructor <;> linarith [h3.1, h3.2]

/-- C67: for upright boxes (all angles but `phi` zero) the computation of the mesh always fails. -/
theorem C67_mesh_box_counterexample {s : State} (h1 : s.alpha = 0) (h2 : s.theta = 0) : meshVertices s = none := by
  have : meshEdges s = none := by
    unfold meshEdges
    dsimp only
    rw [h1, h2, Real.cos_zero]
    split
    · rfl
    · rename_i hs
      rw [if_pos]
      have hne : (1 - 1 * Real.cos s.phi) / Real.sin s.phi ≠ 0 := by
        intro h0
        rw [div_eq_zero_iff] at h0
        rcases h0 with h0 | h0
        · apply hs
          have := Real.sin_sq_add_cos_sq s.phi
          have h3 : Real.cos s.phi = 1 := by linarith
          rw [h3] at this
          have : Real.sin s.phi ^ 2 = 0 := by linarith
          exact pow_eq_zero_iff (two_ne_zero) |>.mp this
        · exact hs h0
      have := mul_self_pos.mpr hne
      linarith
  unfold meshVertices
  rw [this]; rfl

/-- The parameters a user sees: half lengths and angles. -/
def params (s : State) : V3 × ℝ × ℝ × ℝ := (s.dims, s.alpha, s.theta, s.phi)

/-- What a setter is to do with the parameters. -/
def intended (a : V3 × ℝ × ℝ × ℝ) : Setter → V3 × ℝ × ℝ × ℝ
  | .dims d => (d, a.2)
  | .alpha x => (a.1, x, a.2.2)
  | .theta x => (a.1, a.2.1, x, a.2.2.2)
  | .phi x => (a.1, a.2.1, a.2.2.1, x)
  | .thetaAndPhi x y => (a.1, a.2.1, x, y)

/-- C67: after any history of setters every parameter is the one set last. -/
theorem C67_setters (m : State) (h : V3) (alpha theta phi : ℝ) (l : List Setter) :
    params (l.foldl set (create m h alpha theta phi)).para = l.foldl intended (h, alpha, theta, phi) := by
  have step : ∀ (s : Solid) (c : Setter), params (set s c).para = intended (params s.para) c := by
    intro s c; cases c <;> rfl
  have gen : ∀ (l : List Setter) (s : Solid), params (l.foldl set s).para = l.foldl intended (params s.para) := by
    intro l
    induction l with
    | nil => intro s; rfl
    | cons c l ih => intro s; rw [List.foldl_cons, List.foldl_cons, ih, step]
  rw [gen]; rfl

example (m : State) : (params (([Setter.theta 1, .phi 2, .theta 3].foldl set (create m ⟨1, 1, 1⟩ 0 0 0))).para).2.2 = (3, 2) := by
  rw [C67_setters]; rfl

end Para
end VecGeom

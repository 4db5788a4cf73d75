import Verif.Phd.Area

/-!
# Polyhedra: points on the ends
-/

namespace VecGeom
namespace Phd

open Quad Real

/-! ## Model -/

/-- The corners of quadrilateral `j` of `outer` (`r` is `rMax`) or of `inner` (`r` is `rMin`) of segment `k` (PolyhedronStruct.h:390-402). -/
noncomputable def Par.wallAt (a : Par) (r : ℕ → ℝ) (k j : ℕ) : Fin 4 → V3 :=
  ![a.vertex r k j, a.vertex r k (j + 1), a.vertex r (k + 1) (j + 1), a.vertex r (k + 1) j]

open Classical in
/-- `GetPointOnTriangle` (UnplacedPolyhedron.cpp:347-359); `r1` and `r2` are the random numbers. -/
noncomputable def onTriangle (v1 v2 v3 : V3) (r1 r2 : ℝ) : V3 :=
  let s1 := if r1 + r2 > 1 then 1 - r1 else r1
  let s2 := if r1 + r2 > 1 then 1 - r2 else r2
  v1 + V3.smul s1 (v2 - v1) + V3.smul s2 (v3 - v1)

open Classical in
/-- A point of one end (UnplacedPolyhedron.cpp:381-396 and 398-413): `o1`, `o2` are corners of the outer quadrilateral, `i1`, `i2` of the inner one, if there
is one; `toss` is the random number that chooses the triangle. -/
noncomputable def endPoint (inner : Prop) (o1 o2 i1 i2 : V3) (toss r1 r2 : ℝ) : V3 :=
  if inner then
    if (i2 - i1).mag2 < kTolerance ∨ toss < 0.5 then onTriangle i1 o1 o2 r1 r2 else onTriangle i2 i1 o2 r1 r2
  else onTriangle ⟨0, 0, o1.z⟩ o1 o2 r1 r2

/-- `top_area` (UnplacedPolyhedron.cpp:232-244). -/
noncomputable def Par.topArea (a : Par) : ℝ :=
  endArea a.n (a.hasInner 0) (a.wall a.rMax 0 0) (a.wall a.rMax 0 1) (a.wall a.rMin 0 0) (a.wall a.rMin 0 1)

/-- `bottom_area` (UnplacedPolyhedron.cpp:247-260). -/
noncomputable def Par.bottomArea (a : Par) : ℝ :=
  endArea a.n (a.hasInner (a.nz - 2)) (a.wall a.rMax (a.nz - 2) 2) (a.wall a.rMax (a.nz - 2) 3) (a.wall a.rMin (a.nz - 2) 2) (a.wall a.rMin (a.nz - 2) 3)

open Classical in
/-- The branch for the ends of `SamplePointOnSurface` (UnplacedPolyhedron.cpp:376-414); `chose` is the number between zero and the sum of `top_area` and
`bottom_area`, `j` the side. -/
noncomputable def Par.sampleEnd (a : Par) (chose : ℝ) (j : ℕ) (toss r1 r2 : ℝ) : V3 :=
  if chose < a.topArea then
    endPoint (a.hasInner (a.nz - 2)) (a.wallAt a.rMax (a.nz - 2) j 2) (a.wallAt a.rMax (a.nz - 2) j 3)
      (a.wallAt a.rMin (a.nz - 2) j 2) (a.wallAt a.rMin (a.nz - 2) j 3) toss r1 r2
  else
    endPoint (a.hasInner 0) (a.wallAt a.rMax 0 j 0) (a.wallAt a.rMax 0 j 1) (a.wallAt a.rMin 0 j 0) (a.wallAt a.rMin 0 j 1) toss r1 r2

/-! ## Points of the ends -/

/-- The corners of all sides are kept by `FixZeroes`. -/
def Par.AllClean (a : Par) : Prop := ∀ k, k < a.nz → ∀ j, j ≤ a.n → Clean (a.raw a.rMin k j) ∧ Clean (a.raw a.rMax k j)

theorem cos_sin_phi {a : Par} (h : a.Valid) (j : ℕ) : cos (a.phi j) = cos (a.start + j * a.side) ∧ sin (a.phi j) = sin (a.start + j * a.side) := by
  unfold Par.phi
  split
  · next hc =>
    obtain ⟨h1, rfl⟩ := hc
    have hn : (a.n : ℝ) ≠ 0 := by have := h.n; positivity
    have e : (a.n : ℝ) * a.side = 2 * π := by
      unfold Par.hasPhi at h1
      unfold Par.side Par.dphi
      rw [mul_div_cancel₀ _ hn]
      split
      · rfl
      · linarith
    rw [e, cos_add_two_pi, sin_add_two_pi]
    simp
  · exact ⟨rfl, rfl⟩

theorem vertex_eq {a : Par} (h : a.Valid) (hc : a.AllClean) {k j : ℕ} (hk : k < a.nz) (hj : j ≤ a.n) :
    a.vertex a.rMin k j = a.corner a.rMin j k ∧ a.vertex a.rMax k j = a.corner a.rMax j k := by
  have hcl := hc k hk j hj
  unfold Par.vertex
  rw [hcl.1.fix, hcl.2.fix]
  have := cos_sin_phi h j
  constructor <;>
  · unfold Par.raw Par.corner
    rw [this.1, this.2]
    congr 1 <;> ring

/-- A point of a side at a plane. -/
theorem body_of {a : Par} {j k : ℕ} (hj : j < a.n) (hk : k < a.nz) (hnz : 2 ≤ a.nz) {α β : ℝ} (hα : 0 ≤ α) (hβ : 0 ≤ β) (hi : a.rMin k ≤ α + β) (ho : α + β ≤ a.rMax k) :
    a.Body ⟨1 / cos (0.5 * a.side) * (α * cos (a.start + j * a.side) + β * cos (a.start + (j + 1) * a.side)),
      1 / cos (0.5 * a.side) * (α * sin (a.start + j * a.side) + β * sin (a.start + (j + 1) * a.side)), a.z k⟩ := by
  obtain ⟨k', t, hk', ht0, ht1, ht⟩ : ∃ (k' : ℕ) (t : ℝ), k' + 1 < a.nz ∧ 0 ≤ t ∧ t ≤ 1 ∧ ((k = k' ∧ t = 0) ∨ (k = k' + 1 ∧ t = 1)) := by
    rcases Nat.lt_or_ge (k + 1) a.nz with h | h
    · exact ⟨k, 0, h, le_refl _, zero_le_one, Or.inl ⟨rfl, rfl⟩⟩
    · exact ⟨k - 1, 1, by omega, zero_le_one, le_refl _, Or.inr ⟨by omega, rfl⟩⟩
  have lin : ∀ f : ℕ → ℝ, (1 - t) * f k' + t * f (k' + 1) = f k := by
    intro f
    rcases ht with ⟨rfl, rfl⟩ | ⟨rfl, rfl⟩ <;> ring
  obtain ⟨s, hs0, hs1, e1, e2⟩ : ∃ s : ℝ, 0 ≤ s ∧ s ≤ 1 ∧ (α + β) * (1 - s) = α ∧ (α + β) * s = β := by
    rcases (add_nonneg hα hβ).eq_or_lt with h0 | h0
    · exact ⟨0, le_refl _, zero_le_one, by linarith, by linarith⟩
    · exact ⟨β / (α + β), by positivity, (div_le_one h0).2 (by linarith), by field_simp; ring, by field_simp⟩
  refine ⟨j, k', s, t, α + β, hj, hk', hs0, hs1, ht0, ht1, by rw [lin]; exact hi, by rw [lin]; exact ho, (lin _).symm, ?_, ?_⟩
  · rw [half, angle_eq]
    simp only
    linear_combination (-(1 / cos (0.5 * a.side)) * cos (a.start + j * a.side)) * e1 - (1 / cos (0.5 * a.side)) * cos (a.start + (j + 1) * a.side) * e2
  · rw [half, angle_eq]
    simp only
    linear_combination (-(1 / cos (0.5 * a.side)) * sin (a.start + j * a.side)) * e1 - (1 / cos (0.5 * a.side)) * sin (a.start + (j + 1) * a.side) * e2

/-- A point of a triangle is a mean of its corners. -/
theorem onTriangle_mean (v1 v2 v3 : V3) {r1 r2 : ℝ} (h1 : 0 ≤ r1) (h1' : r1 ≤ 1) (h2 : 0 ≤ r2) (h2' : r2 ≤ 1) :
    ∃ s1 s2 : ℝ, 0 ≤ s1 ∧ 0 ≤ s2 ∧ s1 + s2 ≤ 1 ∧ onTriangle v1 v2 v3 r1 r2 = v1 + V3.smul s1 (v2 - v1) + V3.smul s2 (v3 - v1) := by
  unfold onTriangle
  by_cases h : r1 + r2 > 1
  · exact ⟨1 - r1, 1 - r2, by linarith, by linarith, by linarith, by simp only [if_pos h]⟩
  · exact ⟨r1, r2, h1, h2, by linarith, by simp only [if_neg h]⟩

/-- The points of an end are points of the body in its plane; the corners are taken in either order. -/
theorem end_body {a : Par} (h : a.Valid) {j k : ℕ} (hj : j < a.n) (hk : k < a.nz) {inner : Prop} (hin : ¬ inner → a.rMin k = 0)
    {toss r1 r2 : ℝ} (h1 : 0 ≤ r1) (h1' : r1 ≤ 1) (h2 : 0 ≤ r2) (h2' : r2 ≤ 1) :
    a.Body (endPoint inner (a.corner a.rMax j k) (a.corner a.rMax (j + 1) k) (a.corner a.rMin j k) (a.corner a.rMin (j + 1) k) toss r1 r2) ∧
    a.Body (endPoint inner (a.corner a.rMax (j + 1) k) (a.corner a.rMax j k) (a.corner a.rMin (j + 1) k) (a.corner a.rMin j k) toss r1 r2) := by
  have i0 := h.rMin k hk
  have ho := h.le k hk
  have o0 := i0.trans ho
  have fin : ∀ (x : V3) (α β : ℝ), 0 ≤ α → 0 ≤ β → a.rMin k ≤ α + β → α + β ≤ a.rMax k →
      x = ⟨1 / cos (0.5 * a.side) * (α * cos (a.start + j * a.side) + β * cos (a.start + (j + 1) * a.side)),
      1 / cos (0.5 * a.side) * (α * sin (a.start + j * a.side) + β * sin (a.start + (j + 1) * a.side)), a.z k⟩ → a.Body x := by
    intro x α β hα hβ hi ho hx
    rw [hx]
    exact body_of hj hk h.nz hα hβ hi ho
  have m1 : ∀ {s1 s2 : ℝ}, 0 ≤ s1 → 0 ≤ s2 → s1 + s2 ≤ 1 → 0 ≤ (1 - s1 - s2) * a.rMin k ∧ 0 ≤ s1 * a.rMax k ∧ 0 ≤ s2 * a.rMax k ∧ 0 ≤ s1 * a.rMin k ∧
      0 ≤ s2 * a.rMin k ∧ (1 - s1 - s2) * a.rMin k ≤ (1 - s1 - s2) * a.rMax k ∧ s1 * a.rMin k ≤ s1 * a.rMax k ∧ s2 * a.rMin k ≤ s2 * a.rMax k :=
    fun a1 a2 a3 => ⟨mul_nonneg (by linarith) i0, mul_nonneg a1 o0, mul_nonneg a2 o0, mul_nonneg a1 i0, mul_nonneg a2 i0,
      mul_le_mul_of_nonneg_left ho (by linarith), mul_le_mul_of_nonneg_left ho a1, mul_le_mul_of_nonneg_left ho a2⟩
  unfold endPoint
  constructor
  · by_cases hi : inner
    · rw [if_pos hi]
      split
      · obtain ⟨s1, s2, a1, a2, a3, e⟩ := onTriangle_mean (a.corner a.rMin j k) (a.corner a.rMax j k) (a.corner a.rMax (j + 1) k) h1 h1' h2 h2'
        obtain ⟨b1, b2, b3, b4, b5, b6, b7, b8⟩ := m1 a1 a2 a3
        refine fin _ ((1 - s1 - s2) * a.rMin k + s1 * a.rMax k) (s2 * a.rMax k) (by linarith) b3 (by linarith) (by linarith) ?_
        rw [e]
        ext <;> simp only [Par.corner, V3.add_x, V3.add_y, V3.add_z, V3.smul_x, V3.smul_y, V3.smul_z, V3.sub_x, V3.sub_y, V3.sub_z] <;> push_cast <;> ring
      · obtain ⟨s1, s2, a1, a2, a3, e⟩ := onTriangle_mean (a.corner a.rMin (j + 1) k) (a.corner a.rMin j k) (a.corner a.rMax (j + 1) k) h1 h1' h2 h2'
        obtain ⟨b1, b2, b3, b4, b5, b6, b7, b8⟩ := m1 a1 a2 a3
        refine fin _ (s1 * a.rMin k) ((1 - s1 - s2) * a.rMin k + s2 * a.rMax k) b4 (by linarith) (by linarith) (by linarith) ?_
        rw [e]
        ext <;> simp only [Par.corner, V3.add_x, V3.add_y, V3.add_z, V3.smul_x, V3.smul_y, V3.smul_z, V3.sub_x, V3.sub_y, V3.sub_z] <;> push_cast <;> ring
    · rw [if_neg hi]
      have hz := hin hi
      obtain ⟨s1, s2, a1, a2, a3, e⟩ := onTriangle_mean ⟨0, 0, (a.corner a.rMax j k).z⟩ (a.corner a.rMax j k) (a.corner a.rMax (j + 1) k) h1 h1' h2 h2'
      have hs : (s1 + s2) * a.rMax k ≤ 1 * a.rMax k := mul_le_mul_of_nonneg_right a3 o0
      obtain ⟨b1, b2, b3, b4, b5, b6, b7, b8⟩ := m1 a1 a2 a3
      refine fin _ (s1 * a.rMax k) (s2 * a.rMax k) b2 b3 (by linarith) (by linarith) ?_
      rw [e]
      ext <;> simp only [Par.corner, V3.add_x, V3.add_y, V3.add_z, V3.smul_x, V3.smul_y, V3.smul_z, V3.sub_x, V3.sub_y, V3.sub_z] <;> push_cast <;> ring
  · by_cases hi : inner
    · rw [if_pos hi]
      split
      · obtain ⟨s1, s2, a1, a2, a3, e⟩ := onTriangle_mean (a.corner a.rMin (j + 1) k) (a.corner a.rMax (j + 1) k) (a.corner a.rMax j k) h1 h1' h2 h2'
        obtain ⟨b1, b2, b3, b4, b5, b6, b7, b8⟩ := m1 a1 a2 a3
        refine fin _ (s2 * a.rMax k) ((1 - s1 - s2) * a.rMin k + s1 * a.rMax k) b3 (by linarith) (by linarith) (by linarith) ?_
        rw [e]
        ext <;> simp only [Par.corner, V3.add_x, V3.add_y, V3.add_z, V3.smul_x, V3.smul_y, V3.smul_z, V3.sub_x, V3.sub_y, V3.sub_z] <;> push_cast <;> ring
      · obtain ⟨s1, s2, a1, a2, a3, e⟩ := onTriangle_mean (a.corner a.rMin j k) (a.corner a.rMin (j + 1) k) (a.corner a.rMax j k) h1 h1' h2 h2'
        obtain ⟨b1, b2, b3, b4, b5, b6, b7, b8⟩ := m1 a1 a2 a3
        refine fin _ ((1 - s1 - s2) * a.rMin k + s2 * a.rMax k) (s1 * a.rMin k) (by linarith) b4 (by linarith) (by linarith) ?_
        rw [e]
        ext <;> simp only [Par.corner, V3.add_x, V3.add_y, V3.add_z, V3.smul_x, V3.smul_y, V3.smul_z, V3.sub_x, V3.sub_y, V3.sub_z] <;> push_cast <;> ring
    · rw [if_neg hi]
      have hz := hin hi
      obtain ⟨s1, s2, a1, a2, a3, e⟩ := onTriangle_mean ⟨0, 0, (a.corner a.rMax (j + 1) k).z⟩ (a.corner a.rMax (j + 1) k) (a.corner a.rMax j k) h1 h1' h2 h2'
      have hs : (s1 + s2) * a.rMax k ≤ 1 * a.rMax k := mul_le_mul_of_nonneg_right a3 o0
      obtain ⟨b1, b2, b3, b4, b5, b6, b7, b8⟩ := m1 a1 a2 a3
      refine fin _ (s2 * a.rMax k) (s1 * a.rMax k) b3 b2 (by linarith) (by linarith) ?_
      rw [e]
      ext <;> simp only [Par.corner, V3.add_x, V3.add_y, V3.add_z, V3.smul_x, V3.smul_y, V3.smul_z, V3.sub_x, V3.sub_y, V3.sub_z] <;> push_cast <;> ring

theorem end_z {inner : Prop} {o1 o2 i1 i2 : V3} {z : ℝ} (h1 : o1.z = z) (h2 : o2.z = z) (h3 : i1.z = z) (h4 : i2.z = z) (toss r1 r2 : ℝ) :
    (endPoint inner o1 o2 i1 i2 toss r1 r2).z = z := by
  unfold endPoint onTriangle
  split
  · split <;> simp [h1, h2, h3, h4]
  · simp [h1, h2]

theorem corner_z (a : Par) (r : ℕ → ℝ) (j k : ℕ) : (a.corner r j k).z = a.z k := rfl

theorem walls {a : Par} (h : a.Valid) (hc : a.AllClean) {j k : ℕ} (hj : j < a.n) (hk : k + 1 < a.nz) :
    a.wallAt a.rMax k j = ![a.corner a.rMax j k, a.corner a.rMax (j + 1) k, a.corner a.rMax (j + 1) (k + 1), a.corner a.rMax j (k + 1)] ∧
    a.wallAt a.rMin k j = ![a.corner a.rMin j k, a.corner a.rMin (j + 1) k, a.corner a.rMin (j + 1) (k + 1), a.corner a.rMin j (k + 1)] := by
  have k0 : k < a.nz := by omega
  have j1 : j + 1 ≤ a.n := hj
  unfold Par.wallAt
  constructor
  · rw [(vertex_eq h hc k0 hj.le).2, (vertex_eq h hc k0 j1).2, (vertex_eq h hc hk hj.le).2, (vertex_eq h hc hk j1).2]
  · rw [(vertex_eq h hc k0 hj.le).1, (vertex_eq h hc k0 j1).1, (vertex_eq h hc hk hj.le).1, (vertex_eq h hc hk j1).1]

/-- The points that are sampled for the ends are points of the polyhedron at its first or last plane; those with a number below the area of the *first* end
are at the *last* plane, the others at the first. -/
theorem C205_ends {a : Par} (h : a.Valid) (hc : a.AllClean) (hf : a.z 0 < a.z 1) (hl : a.z (a.nz - 2) < a.z (a.nz - 1))
    {chose toss r1 r2 : ℝ} {j : ℕ} (hj : j < a.n) (h1 : 0 ≤ r1) (h1' : r1 ≤ 1) (h2 : 0 ≤ r2) (h2' : r2 ≤ 1) :
    a.Body (a.sampleEnd chose j toss r1 r2) ∧
      (chose < a.n * (a.sideArea (a.rMax 0) - a.sideArea (a.rMin 0)) → (a.sampleEnd chose j toss r1 r2).z = a.z (a.nz - 1)) ∧
      (a.n * (a.sideArea (a.rMax 0) - a.sideArea (a.rMin 0)) ≤ chose → (a.sampleEnd chose j toss r1 r2).z = a.z 0) := by
  have hnz := h.nz
  have hlast : a.nz - 2 + 1 = a.nz - 1 := by omega
  have ht := (tan_pos' h).le
  have htop : a.topArea = a.n * (a.sideArea (a.rMax 0) - a.sideArea (a.rMin 0)) := by
    have k1 : 0 + 1 < a.nz := by omega
    unfold Par.topArea Par.wall endArea Par.sideArea
    simp only [Matrix.cons_val_zero, Matrix.cons_val_one, Matrix.cons_val]
    rw [(vertex_zero h (k := 0) (by omega)).2, (vertex_one h (k := 0) (by omega)).2, (vertex_zero h (k := 0) (by omega)).1,
      (vertex_one h (k := 0) (by omega)).1, half]
    by_cases hi : a.hasInner 0
    · rw [if_pos hi, end_first ht (h.rMin 0 (by omega)) (h.le 0 (by omega))]; ring
    · rw [if_neg hi]
      have h0 : a.rMin 0 = 0 := by
        rcases inner_empty h k1 hi with h0 | h0
        · exact h0.1
        · exact absurd h0.1 hf.ne
      have e : (c0 a.mid (tan (0.5 * a.side)) (a.rMax 0) (a.z 0)).z = a.z 0 := rfl
      rw [e, tri_axis ht, h0]; ring
  rw [← htop]
  have wl := walls h hc hj (k := a.nz - 2) (by omega)
  have w0 := walls h hc hj (k := 0) (by omega)
  unfold Par.sampleEnd
  rw [wl.1, wl.2, w0.1, w0.2, hlast]
  simp only [Matrix.cons_val_zero, Matrix.cons_val_one, Matrix.cons_val]
  have hin0 : ¬ a.hasInner 0 → a.rMin 0 = 0 := by
    intro hi
    rcases inner_empty h (k := 0) (by omega) hi with h0 | h0
    · exact h0.1
    · exact absurd h0.1 hf.ne
  have hinl : ¬ a.hasInner (a.nz - 2) → a.rMin (a.nz - 1) = 0 := by
    intro hi
    rcases inner_empty h (k := a.nz - 2) (by omega) hi with h0 | h0
    · rw [← hlast]; exact h0.2
    · exact absurd (h0.1.trans (by rw [hlast])) hl.ne
  refine ⟨?_, ?_, ?_⟩
  · split
    · exact (end_body h hj (k := a.nz - 1) (by omega) hinl h1 h1' h2 h2').2
    · exact (end_body h hj (k := 0) (by omega) hin0 h1 h1' h2 h2').1
  · intro hh
    rw [if_pos hh]
    exact end_z (z := a.z (a.nz - 1)) (corner_z _ _ _ _) (corner_z _ _ _ _) (corner_z _ _ _ _) (corner_z _ _ _ _) _ _ _
  · intro hh
    rw [if_neg (not_lt.2 hh)]
    exact end_z (z := a.z 0) (corner_z _ _ _ _) (corner_z _ _ _ _) (corner_z _ _ _ _) (corner_z _ _ _ _) _ _ _

theorem hollow_clean : hollow.AllClean := by
  have tol : kTolerance ≤ 1 := by norm_num [kTolerance]
  have hs : (√2 : ℝ) ≠ 0 := by positivity
  have hc : cos (0.5 * (π / 2)) = √2 / 2 := by rw [show 0.5 * (π / 2) = π / 4 by ring, cos_pi_div_four]
  have key : ∀ j, j ≤ 4 → (cos (hollow.phi j) = √2 / 2 ∨ cos (hollow.phi j) = -(√2 / 2)) ∧ (sin (hollow.phi j) = √2 / 2 ∨ sin (hollow.phi j) = -(√2 / 2)) := by
    intro j hj
    rw [(cos_sin_phi hollow_valid j).1, (cos_sin_phi hollow_valid j).2, hollow_side]
    simp only [hollow]
    have c4 := cos_pi_div_four
    have s4 := sin_pi_div_four
    interval_cases j
    · norm_num [c4, s4]
    · rw [show π / 4 + ((1 : ℕ) : ℝ) * (π / 2) = π / 4 + π / 2 by push_cast; ring, cos_add_pi_div_two, sin_add_pi_div_two, c4, s4]; simp
    · rw [show π / 4 + ((2 : ℕ) : ℝ) * (π / 2) = π / 4 + π by push_cast; ring, cos_add_pi, sin_add_pi, c4, s4]; simp
    · rw [show π / 4 + ((3 : ℕ) : ℝ) * (π / 2) = (π / 4 + π / 2) + π by push_cast; ring, cos_add_pi, sin_add_pi, cos_add_pi_div_two, sin_add_pi_div_two, c4, s4]
      simp
    · rw [show π / 4 + ((4 : ℕ) : ℝ) * (π / 2) = π / 4 + 2 * π by push_cast; ring, cos_add_two_pi, sin_add_two_pi, c4, s4]; simp
  have big : ∀ (r : ℕ → ℝ) (k j : ℕ), 1 ≤ r k → j ≤ 4 → Clean (hollow.raw r k j) := by
    intro r k j hr hj
    have h1 : kTolerance ≤ |r k| := by rw [abs_of_nonneg (by linarith)]; linarith
    have e : ∀ c : ℝ, (c = √2 / 2 ∨ c = -(√2 / 2)) → kTolerance ≤ |r k / (√2 / 2) * c| := by
      rintro c (rfl | rfl)
      · rw [div_mul_cancel₀ _ (by positivity)]; exact h1
      · rw [mul_neg, div_mul_cancel₀ _ (by positivity), abs_neg]; exact h1
    have hk : (k : ℝ) = 0 ∨ kTolerance ≤ |(k : ℝ)| := by
      rcases Nat.eq_zero_or_pos k with h | h
      · left; exact_mod_cast h
      · right
        rw [abs_of_nonneg (by positivity)]
        have : (1 : ℝ) ≤ k := by exact_mod_cast h
        linarith
    unfold Par.raw
    rw [hollow_side, hc]
    exact ⟨Or.inr (e _ (key j hj).1), Or.inr (e _ (key j hj).2), hk⟩
  intro k _ j hj
  refine ⟨big _ k j (by simp [hollow]) hj, big _ k j ?_ hj⟩
  simp only [hollow]
  have : (0 : ℝ) ≤ k := by positivity
  linarith

example : hollow.Valid ∧ hollow.AllClean ∧ hollow.z 0 < hollow.z 1 ∧ hollow.z (hollow.nz - 2) < hollow.z (hollow.nz - 1) := by
  refine ⟨hollow_valid, hollow_clean, ?_, ?_⟩ <;> norm_num [hollow]

/-- The areas of the ends are mixed up: for `hollow`, whose end at the first plane has the area 12 and whose end at the last plane has the area 60, the last
plane gets exactly the numbers below 12 (out of 72). -/
theorem C205_share_counterexample : hollow.topArea + hollow.bottomArea = 72 ∧
    hollow.n * (hollow.sideArea (hollow.rMax 2) - hollow.sideArea (hollow.rMin 2)) = 60 ∧
    ∀ chose toss r1 r2 : ℝ, ∀ j, j < 4 → 0 ≤ r1 → r1 ≤ 1 → 0 ≤ r2 → r2 ≤ 1 → ((hollow.sampleEnd chose j toss r1 r2).z = hollow.z 2 ↔ chose < 12) := by
  have h := hollow_valid
  have ht := (tan_pos' h).le
  have htan : tan (hollow.angle / 2) = 1 := by rw [angle_eq, hollow_side, show π / 2 / 2 = π / 4 by ring, tan_pi_div_four]
  have htan' : tan (0.5 * hollow.side) = 1 := by rw [← half]; exact htan
  have hin : ∀ k, hollow.hasInner k := by
    intro k
    refine ⟨Or.inl (by norm_num [hollow]), fun hh => ?_⟩
    have := hh.1
    simp [hollow] at this
  have e12 : hollow.n * (hollow.sideArea (hollow.rMax 0) - hollow.sideArea (hollow.rMin 0)) = 12 := by
    unfold Par.sideArea
    rw [htan]
    norm_num [hollow]
  have nz3 : hollow.nz - 2 = 1 := rfl
  refine ⟨?_, ?_, ?_⟩
  · unfold Par.topArea Par.bottomArea Par.wall endArea
    rw [nz3]
    simp only [Matrix.cons_val_zero, Matrix.cons_val_one, Matrix.cons_val]
    have z0 : 0 < hollow.nz := by norm_num [hollow]
    have z2 : 1 + 1 < hollow.nz := by norm_num [hollow]
    rw [if_pos (hin 0), if_pos (hin 1), (vertex_zero h z0).2, (vertex_one h z0).2, (vertex_zero h z0).1, (vertex_one h z0).1,
      (vertex_zero h z2).2, (vertex_one h z2).2, (vertex_zero h z2).1, (vertex_one h z2).1,
      end_first ht (h.rMin _ z0) (h.le _ z0), end_last ht (h.rMin _ z2) (h.le _ z2), htan']
    norm_num [hollow]
  · unfold Par.sideArea
    rw [htan]
    norm_num [hollow]
  · intro chose toss r1 r2 j hj h1 h1' h2 h2'
    have := C205_ends h hollow_clean (by norm_num [hollow]) (by norm_num [hollow]) (chose := chose) (toss := toss) (j := j) hj h1 h1' h2 h2'
    rw [e12] at this
    constructor
    · intro hz
      by_contra hlt
      have h0 := this.2.2 (not_lt.1 hlt)
      rw [hz] at h0
      norm_num [hollow] at h0
    · intro hlt
      exact this.2.1 hlt

end Phd
end VecGeom

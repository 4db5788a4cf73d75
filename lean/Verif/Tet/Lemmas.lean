import Verif.Tet.Model
import Verif.Tet.Spec

/-!
# Lemmas about the tetrahedron
-/

namespace VecGeom
namespace Tet

theorem evalPlane_eq (pl : Plane) (p : V3) : evalPlane pl p = pl.height p := rfl

theorem maxDist_le {pls : List Plane} (h : pls ≠ []) {p : V3} {b : ℝ} :
    maxDist pls p ≤ b ↔ ∀ pl ∈ pls, pl.height p ≤ b := by
  cases pls with
  | nil => exact absurd rfl h
  | cons a l =>
    have := maxIf_le (fun _ : Plane => True) (fun q => q.height p) (m := a.height p) (l := l) (b := b)
    simp only [maxIf, if_true, true_implies] at this
    simp only [maxDist, evalPlane_eq, List.mem_cons, forall_eq_or_imp]
    exact this

theorem maxDist_attained {pls : List Plane} (h : pls ≠ []) (p : V3) : ∃ pl ∈ pls, maxDist pls p = pl.height p := by
  cases pls with
  | nil => exact absurd rfl h
  | cons a l =>
    have := maxIf_cases (fun _ : Plane => True) (fun q => q.height p) (a.height p) l
    simp only [maxIf, if_true, true_and] at this
    simp only [maxDist, evalPlane_eq]
    rcases this with h | ⟨i, hi, he⟩
    · exact ⟨a, List.mem_cons_self, h⟩
    · exact ⟨i, List.mem_cons_of_mem _ hi, he⟩

/-- The parameter at which the ray, with the corrected cosine, meets the plane. -/
noncomputable def hit (p d : V3) (pl : Plane) : ℝ := -pl.height p / nonZero (pl.n.dot d)

/-- The loop of `DistanceToIn` computes the three numbers independently. -/
theorem inLoop_eq (p d : V3) (l : List Plane) (a b c : ℝ) :
    l.foldl (inLoop p d) (a, b, c) =
      (maxIf (fun pl : Plane => nonZero (pl.n.dot d) < 0) (hit p d) a l,
       minIf (fun pl : Plane => nonZero (pl.n.dot d) > 0) (hit p d) b l,
       minIf (fun pl : Plane => nonZero (pl.n.dot d) > 0) (fun pl => |pl.height p|) c l) := by
  classical
  induction l generalizing a b c with
  | nil => rfl
  | cons q l ih =>
    rw [List.foldl_cons, ← Prod.mk.eta (p := inLoop p d (a, b, c) q), ← Prod.mk.eta (p := (inLoop p d (a, b, c) q).2), ih]
    simp only [maxIf, minIf, List.foldl_cons, inLoop, evalPlane_eq, hit]

theorem nonZero_sign {x : ℝ} : nonZero x < 0 ↔ x < 0 := by
  constructor
  · intro h; by_contra hx; exact absurd (nonZero_pos (not_lt.mp hx)) (by linarith)
  · exact nonZero_neg

theorem nonZero_gt {x : ℝ} : nonZero x > 0 ↔ 0 ≤ x := by
  constructor
  · intro h; by_contra hx; exact absurd (nonZero_neg (not_le.mp hx)) (by linarith)
  · exact nonZero_pos

theorem nonZero_of_nonneg {x : ℝ} (h : 0 ≤ x) : nonZero x = x + kTiny := by
  simp [nonZero, copySign, not_lt.mpr h]

theorem nonZero_of_neg {x : ℝ} (h : x < 0) : nonZero x = x - kTiny := by
  simp [nonZero, copySign, h]; ring

/-- The height above a plane that is being left, at the parameter where the ray leaves: just below the plane. -/
theorem hit_out {p d : V3} {pl : Plane} (h : 0 ≤ pl.n.dot d) :
    pl.height (V3.at' p d (hit p d pl)) = -(hit p d pl) * kTiny := by
  have hp := nonZero_pos h
  have e : hit p d pl * nonZero (pl.n.dot d) = -pl.height p := div_mul_cancel₀ _ (nonZero_ne _)
  rw [nonZero_of_nonneg h] at e
  rw [Plane.height_at]; linarith

/-- The same for a plane that is being entered: just above the plane. -/
theorem hit_in {p d : V3} {pl : Plane} (h : pl.n.dot d < 0) :
    pl.height (V3.at' p d (hit p d pl)) = hit p d pl * kTiny := by
  have hp := nonZero_neg h
  have e : hit p d pl * nonZero (pl.n.dot d) = -pl.height p := div_mul_cancel₀ _ (nonZero_ne _)
  rw [nonZero_of_neg h] at e
  rw [Plane.height_at]; linarith

theorem distanceToOut_eq {pls : List Plane} {p d : V3} (hp : Below pls p) :
    distanceToOut pls p d = minIf (fun pl : Plane => nonZero (pl.n.dot d) > 0) (hit p d) kInfLength pls := by
  have hinf := kInfLength_pos
  have htol := kHalfTolerance_pos
  unfold distanceToOut
  dsimp only
  rw [if_neg]
  · rfl
  · rw [gt_iff_lt, not_lt]
    have := maxIf_le (fun _ : Plane => True) (fun q => q.height p) (m := -kInfLength) (l := pls) (b := kHalfTolerance)
    simp only [maxIf, if_true, true_implies] at this
    refine this.mpr ⟨by linarith, fun pl hpl => ?_⟩
    have h : pl.height p ≤ 0 := hp pl hpl
    linarith

/-! ## The planes of a tetrahedron -/

/-- Triple product used for the face `a`, `b`, `c`. -/
def orient (a b c q : V3) : ℝ := (V3.cross (b - a) (c - a)).dot (q - a)

theorem facePlane_height (a b c o q : V3) :
    (facePlane a b c o).height q =
      (if orient a b c o > 0 then -orient a b c q else orient a b c q) /
        Real.sqrt ((V3.cross (b - a) (c - a)).mag2 + kMinimum) := by
  classical
  have hr := V3.unit_root_pos (V3.cross (b - a) (c - a))
  have key : ∀ w : V3, (V3.cross (b - a) (c - a)).unit.dot (w - a) =
      orient a b c w / Real.sqrt ((V3.cross (b - a) (c - a)).mag2 + kMinimum) := by
    intro w
    unfold orient V3.unit
    simp only [V3.dot]
    field_simp
  have ko : (V3.cross (b - a) (c - a)).unit.dot (o - a) > 0 ↔ orient a b c o > 0 := by
    rw [key]; exact div_pos_iff_of_pos_right hr
  unfold facePlane Plane.height
  simp only [ko]
  by_cases h : orient a b c o > 0
  · rw [if_pos h, if_pos h]
    have := key q
    rw [neg_div, ← this]
    simp only [V3.dot, V3.neg_x, V3.neg_y, V3.neg_z, V3.sub_x, V3.sub_y, V3.sub_z]; ring
  · rw [if_neg h, if_neg h, ← key q]
    simp only [V3.dot, V3.sub_x, V3.sub_y, V3.sub_z]; ring

theorem facePlane_le {a b c o q : V3} (h : orient a b c o ≠ 0) :
    (facePlane a b c o).height q ≤ 0 ↔ 0 ≤ orient a b c q / orient a b c o := by
  have hr := V3.unit_root_pos (V3.cross (b - a) (c - a))
  rw [facePlane_height]
  generalize Real.sqrt ((V3.cross (b - a) (c - a)).mag2 + kMinimum) = r at *
  generalize orient a b c q = y at *
  generalize orient a b c o = x at *
  rcases lt_or_gt_of_ne h with hx | hx
  · rw [if_neg (by linarith), div_le_iff₀ hr, zero_mul, le_div_iff_of_neg hx, zero_mul]
  · rw [if_pos hx, div_le_iff₀ hr, zero_mul, le_div_iff₀ hx, zero_mul]
    constructor <;> intro <;> linarith

theorem facePlane_normal (a b c o : V3) : (facePlane a b c o).n.mag2 ≤ 1 := by
  classical
  unfold facePlane
  have h := V3.unit_mag2_le (V3.cross (b - a) (c - a))
  dsimp only
  split
  · simpa [V3.mag2, V3.dot, V3.neg] using h
  · exact h

theorem create_normals (v0 v1 v2 v3 : V3) : ∀ pl ∈ (create v0 v1 v2 v3).planes, pl.n.mag2 ≤ 1 := by
  intro pl h
  simp only [create, List.mem_cons, List.not_mem_nil, or_false] at h
  rcases h with rfl | rfl | rfl | rfl <;> exact facePlane_normal _ _ _ _

theorem create_ne_nil (v0 v1 v2 v3 : V3) : (create v0 v1 v2 v3).planes ≠ [] := by simp [create]

theorem orient_volume (a b c o : V3) : orient a b c o = -volume6 a b c o := by
  simp only [orient, volume6, V3.cross, V3.dot, V3.sub_x, V3.sub_y, V3.sub_z]; ring

theorem orient_rot (a b c o : V3) : orient b c o a = -orient a b c o := by
  simp only [orient, V3.cross, V3.dot, V3.sub_x, V3.sub_y, V3.sub_z]; ring

/-- The triple product of a face and a weighted mean of the corners. -/
theorem orient_mix {a b c o q : V3} {wa wb wc wo : ℝ} (hs : wa + wb + wc + wo = 1) (h : IsMix a b c o wa wb wc wo q) :
    orient a b c q = wo * orient a b c o := by
  obtain ⟨hx, hy, hz⟩ := h
  have hw : wa = 1 - wb - wc - wo := by linarith
  subst hw
  simp only [orient, V3.cross, V3.dot, V3.sub_x, V3.sub_y, V3.sub_z, hx, hy, hz]; ring

theorem orient_sum (a b c o q : V3) :
    orient a b c q - orient b c o q + orient c o a q - orient o a b q = orient a b c o := by
  simp only [orient, V3.cross, V3.dot, V3.sub_x, V3.sub_y, V3.sub_z]; ring

theorem orient_solve (a b c o q : V3) :
    q.x * orient a b c o = orient a b c q * o.x - orient b c o q * a.x + orient c o a q * b.x - orient o a b q * c.x ∧
    q.y * orient a b c o = orient a b c q * o.y - orient b c o q * a.y + orient c o a q * b.y - orient o a b q * c.y ∧
    q.z * orient a b c o = orient a b c q * o.z - orient b c o q * a.z + orient c o a q * b.z - orient o a b q * c.z := by
  simp only [orient, V3.cross, V3.dot, V3.sub_x, V3.sub_y, V3.sub_z]
  refine ⟨?_, ?_, ?_⟩ <;> ring

/-- The four half spaces intersect in the convex hull of the corners. -/
theorem hull_iff {v0 v1 v2 v3 : V3} (h : volume6 v0 v1 v2 v3 ≠ 0) (q : V3) :
    (∀ pl ∈ (create v0 v1 v2 v3).planes, pl.height q ≤ 0) ↔ Hull v0 v1 v2 v3 q := by
  have hD : orient v0 v1 v2 v3 ≠ 0 := by rw [orient_volume]; simpa using h
  have e1 : orient v1 v2 v3 v0 = -orient v0 v1 v2 v3 := orient_rot _ _ _ _
  have e2 : orient v2 v3 v0 v1 = orient v0 v1 v2 v3 := by rw [orient_rot, e1, neg_neg]
  have e3 : orient v3 v0 v1 v2 = -orient v0 v1 v2 v3 := by rw [orient_rot, e2]
  have k : (∀ pl ∈ (create v0 v1 v2 v3).planes, pl.height q ≤ 0) ↔
      0 ≤ orient v0 v1 v2 q / orient v0 v1 v2 v3 ∧ 0 ≤ orient v1 v2 v3 q / -orient v0 v1 v2 v3 ∧
      0 ≤ orient v2 v3 v0 q / orient v0 v1 v2 v3 ∧ 0 ≤ orient v3 v0 v1 q / -orient v0 v1 v2 v3 := by
    simp only [create, List.mem_cons, List.not_mem_nil, or_false, forall_eq_or_imp, forall_eq]
    rw [facePlane_le hD, facePlane_le (by rw [e1]; simpa using hD), facePlane_le (by rw [e2]; exact hD),
      facePlane_le (by rw [e3]; simpa using hD), e1, e2, e3]
  rw [k]
  constructor
  · rintro ⟨h3, h0, h1, h2⟩
    refine ⟨_, _, _, _, h0, h1, h2, h3, ?_, ?_, ?_, ?_⟩
    · have := orient_sum v0 v1 v2 v3 q
      field_simp; linarith
    · have := (orient_solve v0 v1 v2 v3 q).1
      field_simp; linarith
    · have := (orient_solve v0 v1 v2 v3 q).2.1
      field_simp; linarith
    · have := (orient_solve v0 v1 v2 v3 q).2.2
      field_simp; linarith
  · rintro ⟨w0, w1, w2, w3, h0, h1, h2, h3, hs, hm⟩
    have m1 : IsMix v1 v2 v3 v0 w1 w2 w3 w0 q := by
      obtain ⟨a, b, c⟩ := hm; exact ⟨by linarith, by linarith, by linarith⟩
    have m2 : IsMix v2 v3 v0 v1 w2 w3 w0 w1 q := by
      obtain ⟨a, b, c⟩ := hm; exact ⟨by linarith, by linarith, by linarith⟩
    have m3 : IsMix v3 v0 v1 v2 w3 w0 w1 w2 q := by
      obtain ⟨a, b, c⟩ := hm; exact ⟨by linarith, by linarith, by linarith⟩
    rw [orient_mix hs hm, orient_mix (by linarith) m1, orient_mix (by linarith) m2, orient_mix (by linarith) m3, e1, e2, e3]
    have hD' : -orient v0 v1 v2 v3 ≠ 0 := by simpa using hD
    rw [mul_div_cancel_right₀ _ hD, mul_div_cancel_right₀ _ hD, mul_div_cancel_right₀ _ hD', mul_div_cancel_right₀ _ hD']
    exact ⟨h3, h0, h1, h2⟩

end Tet
end VecGeom

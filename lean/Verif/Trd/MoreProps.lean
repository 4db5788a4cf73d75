import Verif.Trd.Props

/-!
# C70: parameters, normals, areas, sampling, mesh, extent and factory of the trapezoid with rectangular bases
-/

namespace VecGeom
namespace Trd

/-! ## Parameters -/

/-- What a setter is meant to do to the half lengths. -/
def intended (S : Shape) : Setter → Shape
  | .x1 a => { S with x1 := a }
  | .x2 a => { S with x2 := a }
  | .y1 a => { S with y1 := a }
  | .y2 a => { S with y2 := a }
  | .z a => { S with z := a }
  | .all x1 x2 y1 y2 z => ⟨x1, x2, y1, y2, z⟩

/-- C70: after any history of setters the half lengths are those last set, and the cached values belong to them. -/
theorem C70_parameters (k : Kind) (m : State) (x1 x2 y1 y2 z : ℝ) (l : List Setter) :
    let s := (l.foldl set (create k m x1 x2 y1 y2 z)).trd
    shape s = l.foldl intended ⟨x1, x2, y1, y2, z⟩ ∧
    s.fx = (shape s).tx ∧ s.fy = (shape s).ty ∧ s.x2minusX1 = s.dx2 - s.dx1 ∧ s.y2minusY1 = s.dy2 - s.dy1 ∧
    s.halfX1plusX2 = (s.dx1 + s.dx2) / 2 ∧ s.halfY1plusY2 = (s.dy1 + s.dy2) / 2 ∧
    s.calfX * s.secxz = 1 ∧ s.calfY * s.secyz = 1 ∧ s.secxz ^ 2 = 1 + (shape s).tx ^ 2 ∧ s.secyz ^ 2 = 1 + (shape s).ty ^ 2 := by
  intro s
  have hr : Reachable k s := ⟨m, x1, x2, y1, y2, z, l, rfl⟩
  have hc := hr.cached
  refine ⟨?_, c_fx hc, c_fy hc, c_x2minusX1 hc, c_y2minusY1 hc, c_halfX hc, c_halfY hc, ?_, ?_, ?_, ?_⟩
  · have key : ∀ (l : List Setter) (s : Solid), shape (l.foldl set s).trd = l.foldl intended (shape s.trd) := by
      intro l
      induction l with
      | nil => intro s; rfl
      | cons a l ih =>
        intro s
        rw [List.foldl_cons, ih, List.foldl_cons]
        cases a <;> rfl
    exact key l _
  · rw [c_calfX hc, c_secxz hc]; exact one_div_mul_cancel (root_pos _).ne'
  · rw [c_calfY hc, c_secyz hc]; exact one_div_mul_cancel (root_pos _).ne'
  · rw [c_secxz hc, sq, root_sq]
  · rw [c_secyz hc, sq, root_sq]

/-! ## Areas -/

/-- The area of a trapezoid with parallel sides `a`, `b` (given by corners). -/
noncomputable def quadArea (a b c d : V3) : ℝ :=
  V3.mag (V3.cross (b - a) (c - a)) / 2 + V3.mag (V3.cross (c - a) (d - a)) / 2

/-- The corners of the solid: `(±x1, ±y1, -z)` and `(±x2, ±y2, z)`. -/
def lower (S : Shape) (a b : ℝ) : V3 := ⟨a * S.x1, b * S.y1, -S.z⟩
def upper (S : Shape) (a b : ℝ) : V3 := ⟨a * S.x2, b * S.y2, S.z⟩

/-- The area of the face at `+x`, of the one at `+y`, and of the bases. -/
noncomputable def areaX (S : Shape) : ℝ := quadArea (lower S 1 (-1)) (lower S 1 1) (upper S 1 1) (upper S 1 (-1))
noncomputable def areaY (S : Shape) : ℝ := quadArea (lower S (-1) 1) (lower S 1 1) (upper S 1 1) (upper S (-1) 1)
noncomputable def areaTop (S : Shape) : ℝ := quadArea (upper S (-1) (-1)) (upper S 1 (-1)) (upper S 1 1) (upper S (-1) 1)
noncomputable def areaBottom (S : Shape) : ℝ := quadArea (lower S (-1) (-1)) (lower S 1 (-1)) (lower S 1 1) (lower S (-1) 1)

theorem mag_of_sq {v : V3} {a : ℝ} (ha : 0 ≤ a) (h : v.mag2 = a ^ 2) : V3.mag v = a := by
  unfold V3.mag; rw [h, Real.sqrt_sq ha]

theorem tri_x {S : Shape} (hz : 0 < S.z) {y : ℝ} (hy : 0 ≤ y) {v : V3}
    (h : v.mag2 = (2 * y) ^ 2 * ((S.x1 - S.x2) ^ 2 + (2 * S.z) ^ 2)) :
    V3.mag v = 2 * y * (2 * S.z * Real.sqrt (1 + S.tx ^ 2)) := by
  have r := root_pos S.tx
  refine mag_of_sq (by positivity) ?_
  have e : (2 * y * (2 * S.z * Real.sqrt (1 + S.tx ^ 2))) ^ 2 = (2 * y) ^ 2 * ((2 * S.z) ^ 2 * Real.sqrt (1 + S.tx ^ 2) ^ 2) := by
    ring
  rw [h, e, Real.sq_sqrt (by positivity)]
  congr 1
  unfold Shape.tx
  field_simp
  ring

theorem tri_y {S : Shape} (hz : 0 < S.z) {x : ℝ} (hx : 0 ≤ x) {v : V3}
    (h : v.mag2 = (2 * x) ^ 2 * ((S.y1 - S.y2) ^ 2 + (2 * S.z) ^ 2)) :
    V3.mag v = 2 * x * (2 * S.z * Real.sqrt (1 + S.ty ^ 2)) := by
  have r := root_pos S.ty
  refine mag_of_sq (by positivity) ?_
  have e : (2 * x * (2 * S.z * Real.sqrt (1 + S.ty ^ 2))) ^ 2 = (2 * x) ^ 2 * ((2 * S.z) ^ 2 * Real.sqrt (1 + S.ty ^ 2) ^ 2) := by
    ring
  rw [h, e, Real.sq_sqrt (by positivity)]
  congr 1
  unfold Shape.ty
  field_simp
  ring

theorem areas_eq {S : Shape} (hS : Proper S) :
    areaX S = 2 * S.z * (S.y1 + S.y2) * Real.sqrt (1 + S.tx ^ 2) ∧
    areaY S = 2 * S.z * (S.x1 + S.x2) * Real.sqrt (1 + S.ty ^ 2) ∧
    areaTop S = 4 * S.x2 * S.y2 ∧ areaBottom S = 4 * S.x1 * S.y1 := by
  obtain ⟨h1, h2, h3, h4, hz⟩ := hS
  refine ⟨?_, ?_, ?_, ?_⟩
  · unfold areaX quadArea
    rw [tri_x hz h3 (v := V3.cross (lower S 1 1 - lower S 1 (-1)) _)
        (by simp only [V3.mag2, V3.dot, V3.cross, lower, upper, V3.sub_x, V3.sub_y, V3.sub_z]; ring),
      tri_x hz h4 (v := V3.cross (upper S 1 1 - lower S 1 (-1)) _)
        (by simp only [V3.mag2, V3.dot, V3.cross, lower, upper, V3.sub_x, V3.sub_y, V3.sub_z]; ring)]
    ring
  · unfold areaY quadArea
    rw [tri_y hz h1 (v := V3.cross (lower S 1 1 - lower S (-1) 1) _)
        (by simp only [V3.mag2, V3.dot, V3.cross, lower, upper, V3.sub_x, V3.sub_y, V3.sub_z]; ring),
      tri_y hz h2 (v := V3.cross (upper S 1 1 - lower S (-1) 1) _)
        (by simp only [V3.mag2, V3.dot, V3.cross, lower, upper, V3.sub_x, V3.sub_y, V3.sub_z]; ring)]
    ring
  · unfold areaTop quadArea
    rw [mag_of_sq (a := 4 * S.x2 * S.y2) (by positivity)
        (by simp only [V3.mag2, V3.dot, V3.cross, upper, V3.sub_x, V3.sub_y, V3.sub_z]; ring),
      mag_of_sq (a := 4 * S.x2 * S.y2) (by positivity)
        (by simp only [V3.mag2, V3.dot, V3.cross, upper, V3.sub_x, V3.sub_y, V3.sub_z]; ring)]
    ring
  · unfold areaBottom quadArea
    rw [mag_of_sq (a := 4 * S.x1 * S.y1) (by positivity)
        (by simp only [V3.mag2, V3.dot, V3.cross, lower, V3.sub_x, V3.sub_y, V3.sub_z]; ring),
      mag_of_sq (a := 4 * S.x1 * S.y1) (by positivity)
        (by simp only [V3.mag2, V3.dot, V3.cross, lower, V3.sub_x, V3.sub_y, V3.sub_z]; ring)]
    ring

/-- C70: the areas of the single faces. -/
theorem C70_face_areas {k : Kind} {s : State} (hs : Reachable k s) (hp : Proper (shape s)) :
    xArea s = areaX (shape s) ∧ yArea s = areaY (shape s) ∧ plusZArea s = areaTop (shape s) ∧
    minusZArea s = areaBottom (shape s) := by
  obtain ⟨h1, h2, h3, h4⟩ := areas_eq hp
  have hc := hs.cached
  rw [h1, h2, h3, h4]
  refine ⟨?_, ?_, rfl, rfl⟩
  · unfold xArea; rw [c_secxz hc]; rfl
  · unfold yArea; rw [c_secyz hc]; rfl

/-- The area of the surface. -/
noncomputable def trueArea (S : Shape) : ℝ := 2 * areaX S + 2 * areaY S + areaTop S + areaBottom S

theorem slant {s : State} (hz : 0 < s.dz) :
    (if s.dx1 = s.dx2 then 2 * s.dz else Real.sqrt ((s.dx1 - s.dx2) * (s.dx1 - s.dx2) + 2 * s.dz * (2 * s.dz))) =
      2 * s.dz * Real.sqrt (1 + (shape s).tx ^ 2) := by
  have e : Real.sqrt ((s.dx1 - s.dx2) * (s.dx1 - s.dx2) + 2 * s.dz * (2 * s.dz)) =
      2 * s.dz * Real.sqrt (1 + (shape s).tx ^ 2) := by
    rw [Real.sqrt_eq_iff_mul_self_eq (by nlinarith [mul_self_nonneg (s.dx1 - s.dx2), mul_self_nonneg s.dz])
      (by have := root_pos (shape s).tx; positivity)]
    have e2 := root_sq (shape s).tx
    rw [show 2 * s.dz * Real.sqrt (1 + (shape s).tx ^ 2) * (2 * s.dz * Real.sqrt (1 + (shape s).tx ^ 2)) =
      (2 * s.dz) ^ 2 * (Real.sqrt (1 + (shape s).tx ^ 2) * Real.sqrt (1 + (shape s).tx ^ 2)) by ring, e2,
      show (shape s).tx = (s.dx1 - s.dx2) / (2 * s.dz) from rfl]
    field_simp; ring
  split
  · rename_i h
    have : (shape s).tx = 0 := by
      rw [show (shape s).tx = (s.dx1 - s.dx2) / (2 * s.dz) from rfl, h, sub_self, zero_div]
    rw [this]; norm_num
  · exact e

/-- What `SurfaceArea` computes. -/
theorem surfaceArea_eq {s : State} (hz : 0 < s.dz) :
    surfaceArea s = 2 * (2 * s.dz * (s.dy1 + s.dy2) * Real.sqrt (1 + (shape s).tx ^ 2)) +
      2 * (2 * s.dz * (s.dx1 + s.dx2) * Real.sqrt (1 + (shape s).tx ^ 2)) + 4 * s.dx2 * s.dy2 + 4 * s.dx1 * s.dy1 := by
  unfold surfaceArea
  dsimp only
  rw [slant hz]
  ring

/-- C70 (partial): `SurfaceArea` is the area of the surface if the bases differ along `x` as much as along `y`, or the solid
has no extent along `x`.  In all other cases it is wrong: the slant height of the faces along `x` is used for those along `y`
too. -/
theorem C70_area_partial {s : State} (hp : Proper (shape s)) :
    surfaceArea s = trueArea (shape s) ↔ |s.dx1 - s.dx2| = |s.dy1 - s.dy2| ∨ (s.dx1 = 0 ∧ s.dx2 = 0) := by
  obtain ⟨h1, h2, h3, h4⟩ := areas_eq hp
  have hz : 0 < s.dz := hp.2.2.2.2
  have hx1 : 0 ≤ s.dx1 := hp.1
  have hx2 : 0 ≤ s.dx2 := hp.2.1
  rw [surfaceArea_eq hz, trueArea, h1, h2, h3, h4]
  show _ = 2 * (2 * s.dz * (s.dy1 + s.dy2) * Real.sqrt (1 + (shape s).tx ^ 2)) +
      2 * (2 * s.dz * (s.dx1 + s.dx2) * Real.sqrt (1 + (shape s).ty ^ 2)) + 4 * s.dx2 * s.dy2 + 4 * s.dx1 * s.dy1 ↔ _
  have e : |s.dx1 - s.dx2| = |s.dy1 - s.dy2| ↔ Real.sqrt (1 + (shape s).tx ^ 2) = Real.sqrt (1 + (shape s).ty ^ 2) := by
    rw [Real.sqrt_inj (by positivity) (by positivity), add_right_inj, sq_eq_sq_iff_abs_eq_abs]
    show _ ↔ |(s.dx1 - s.dx2) / (2 * s.dz)| = |(s.dy1 - s.dy2) / (2 * s.dz)|
    rw [abs_div, abs_div, div_left_inj' (by positivity)]
  rw [e]
  generalize Real.sqrt (1 + (shape s).tx ^ 2) = A
  generalize Real.sqrt (1 + (shape s).ty ^ 2) = B
  constructor
  · intro h
    have : s.dz * (s.dx1 + s.dx2) * (A - B) = 0 := by linarith
    rcases mul_eq_zero.mp this with h5 | h5
    · right
      rcases mul_eq_zero.mp h5 with h6 | h6
      · linarith
      · constructor <;> linarith
    · left; linarith
  · rintro (h | ⟨h5, h6⟩)
    · rw [h]
    · rw [h5, h6]; ring

example (m : State) : surfaceArea (create .trd2 m 1 2 3 4 5).trd = trueArea (shape (create .trd2 m 1 2 3 4 5).trd) := by
  refine (C70_area_partial ?_).mpr (Or.inl ?_)
  · show Proper ⟨1, 2, 3, 4, 5⟩; norm_num [Proper]
  · show |(1 : ℝ) - 2| = |3 - 4|; norm_num

/-- C70: the wrong area, for a reachable solid. -/
theorem C70_area_counterexample (m : State) :
    Reachable .trd2 (sample m) ∧ Proper (shape (sample m)) ∧ surfaceArea (sample m) ≠ trueArea (shape (sample m)) := by
  refine ⟨sample_reachable m, sample_proper m, fun h => ?_⟩
  rcases (C70_area_partial (sample_proper m)).mp h with h | ⟨h, -⟩
  · have h : |(1 : ℝ) - 3| = |2 - 5| := h
    norm_num at h
  · have h : (1 : ℝ) = 0 := h
    norm_num at h

/-! ## Sampling -/

/-- The loop of `ChooseSurface` ends within the list. -/
theorem chooseLoop_some (l : List ℝ) (hl : ∀ a ∈ l, 0 ≤ a) (hne : l ≠ []) (r : ℝ) (h : r ≤ l.sum) :
    ∃ n, chooseLoop l r = some n ∧ n < l.length := by
  induction l generalizing r with
  | nil => exact absurd rfl hne
  | cons a l ih =>
    unfold chooseLoop
    split
    · rename_i hr
      rw [List.sum_cons] at h
      by_cases hl0 : l = []
      · subst hl0; simp at h; linarith
      · obtain ⟨n, h1, h2⟩ := ih (fun b hb => hl b (List.mem_cons_of_mem _ hb)) hl0 (r - a) (by linarith)
        exact ⟨n + 1, by rw [h1]; rfl, by simpa using h2⟩
    · exact ⟨0, rfl, by simp⟩

theorem foldl_add (l : List ℝ) (a : ℝ) : l.foldl (· + ·) a = a + l.sum := by
  induction l generalizing a with
  | nil => simp
  | cons b l ih => rw [List.foldl_cons, ih, List.sum_cons]; ring

section
variable {k : Kind} {s : State} (hs : Reachable k s) (hp : Proper (shape s))
include hs hp

/-- C70: each entry of the table of areas is the area of its triangle. -/
theorem C70_triangle_areas (hx : 0 < s.dx1 + s.dx2) (hy : 0 < s.dy1 + s.dy2) (n : Nat) (hn : n < 12) :
    (triangleAreas s)[n]? = some (V3.mag (V3.cross ((triangle s n).2.1 - (triangle s n).1)
      ((triangle s n).2.2 - (triangle s n).1)) / 2) := by
  have hc := hs.cached
  have hz : 0 < s.dz := hp.2.2.2.2
  obtain ⟨h1, h2, h3, h4, -⟩ := id hp
  have h1 : 0 ≤ s.dx1 := h1
  have h2 : 0 ≤ s.dx2 := h2
  have h3 : 0 ≤ s.dy1 := h3
  have h4 : 0 ≤ s.dy2 := h4
  have ex : xArea s / (s.dy1 + s.dy2) = 2 * s.dz * Real.sqrt (1 + (shape s).tx ^ 2) := by
    unfold xArea; rw [c_secxz hc]; field_simp
  have ey : yArea s / (s.dx1 + s.dx2) = 2 * s.dz * Real.sqrt (1 + (shape s).ty ^ 2) := by
    unfold yArea; rw [c_secyz hc]; field_simp
  have tx := fun (y : ℝ) (hy : 0 ≤ y) (v : V3) => tri_x (S := shape s) hz hy (v := v)
  have ty := fun (y : ℝ) (hy : 0 ≤ y) (v : V3) => tri_y (S := shape s) hz hy (v := v)
  simp only [show (shape s).x1 = s.dx1 from rfl, show (shape s).x2 = s.dx2 from rfl, show (shape s).y1 = s.dy1 from rfl,
    show (shape s).y2 = s.dy2 from rfl, show (shape s).z = s.dz from rfl] at tx ty
  unfold triangleAreas
  dsimp only
  rw [ex, ey]
  rcases n with _ | _ | _ | _ | _ | _ | _ | _ | _ | _ | _ | _ | n
  · simp only [triangle, List.getElem?_cons_zero, List.getElem?_cons_succ, Option.some.injEq, Nat.reduceAdd, zero_add]
    rw [mag_of_sq (a := 4 * s.dx1 * s.dy1) (by positivity) (by simp only [V3.mag2, V3.dot, V3.cross, V3.sub_x, V3.sub_y, V3.sub_z]; ring)]
    unfold minusZArea; ring
  · simp only [triangle, List.getElem?_cons_zero, List.getElem?_cons_succ, Option.some.injEq, Nat.reduceAdd, zero_add]
    rw [mag_of_sq (a := 4 * s.dx1 * s.dy1) (by positivity) (by simp only [V3.mag2, V3.dot, V3.cross, V3.sub_x, V3.sub_y, V3.sub_z]; ring)]
    unfold minusZArea; ring
  · simp only [triangle, List.getElem?_cons_zero, List.getElem?_cons_succ, Option.some.injEq, Nat.reduceAdd, zero_add]
    rw [mag_of_sq (a := 4 * s.dx2 * s.dy2) (by positivity) (by simp only [V3.mag2, V3.dot, V3.cross, V3.sub_x, V3.sub_y, V3.sub_z]; ring)]
    unfold plusZArea; ring
  · simp only [triangle, List.getElem?_cons_zero, List.getElem?_cons_succ, Option.some.injEq, Nat.reduceAdd, zero_add]
    rw [mag_of_sq (a := 4 * s.dx2 * s.dy2) (by positivity) (by simp only [V3.mag2, V3.dot, V3.cross, V3.sub_x, V3.sub_y, V3.sub_z]; ring)]
    unfold plusZArea; ring
  · simp only [triangle, List.getElem?_cons_zero, List.getElem?_cons_succ, Option.some.injEq, Nat.reduceAdd, zero_add]
    rw [ty s.dx1 h1 _ (by simp only [V3.mag2, V3.dot, V3.cross, V3.sub_x, V3.sub_y, V3.sub_z]; ring)]; ring
  · simp only [triangle, List.getElem?_cons_zero, List.getElem?_cons_succ, Option.some.injEq, Nat.reduceAdd, zero_add]
    rw [ty s.dx2 h2 _ (by simp only [V3.mag2, V3.dot, V3.cross, V3.sub_x, V3.sub_y, V3.sub_z]; ring)]; ring
  · simp only [triangle, List.getElem?_cons_zero, List.getElem?_cons_succ, Option.some.injEq, Nat.reduceAdd, zero_add]
    rw [ty s.dx1 h1 _ (by simp only [V3.mag2, V3.dot, V3.cross, V3.sub_x, V3.sub_y, V3.sub_z]; ring)]; ring
  · simp only [triangle, List.getElem?_cons_zero, List.getElem?_cons_succ, Option.some.injEq, Nat.reduceAdd, zero_add]
    rw [ty s.dx2 h2 _ (by simp only [V3.mag2, V3.dot, V3.cross, V3.sub_x, V3.sub_y, V3.sub_z]; ring)]; ring
  · simp only [triangle, List.getElem?_cons_zero, List.getElem?_cons_succ, Option.some.injEq, Nat.reduceAdd, zero_add]
    rw [tx s.dy1 h3 _ (by simp only [V3.mag2, V3.dot, V3.cross, V3.sub_x, V3.sub_y, V3.sub_z]; ring)]; ring
  · simp only [triangle, List.getElem?_cons_zero, List.getElem?_cons_succ, Option.some.injEq, Nat.reduceAdd, zero_add]
    rw [tx s.dy2 h4 _ (by simp only [V3.mag2, V3.dot, V3.cross, V3.sub_x, V3.sub_y, V3.sub_z]; ring)]; ring
  · simp only [triangle, List.getElem?_cons_zero, List.getElem?_cons_succ, Option.some.injEq, Nat.reduceAdd, zero_add]
    rw [tx s.dy1 h3 _ (by simp only [V3.mag2, V3.dot, V3.cross, V3.sub_x, V3.sub_y, V3.sub_z]; ring)]; ring
  · simp only [triangle, List.getElem?_cons_zero, List.getElem?_cons_succ, Option.some.injEq, Nat.reduceAdd, zero_add]
    rw [tx s.dy2 h4 _ (by simp only [V3.mag2, V3.dot, V3.cross, V3.sub_x, V3.sub_y, V3.sub_z]; ring)]; ring
  · exfalso; omega

/-- C70: the table of areas is read within its bounds, for every random number. -/
theorem C70_choose (hx : 0 < s.dx1 + s.dx2) (hy : 0 < s.dy1 + s.dy2) (u : ℝ) (hu : u ≤ 1) :
    ∃ n, chooseSurface s u = some n ∧ n < 12 := by
  have hnn : ∀ a ∈ triangleAreas s, 0 ≤ a := by
    intro a ha
    obtain ⟨n, hn⟩ := List.mem_iff_getElem?.mp ha
    have h12 : n < 12 := by
      by_contra hc
      rw [List.getElem?_eq_none (by show 12 ≤ n; omega)] at hn
      cases hn
    rw [C70_triangle_areas hs hp hx hy n h12] at hn
    injection hn with hn
    rw [← hn]
    unfold V3.mag
    positivity
  have hsum : 0 ≤ (triangleAreas s).sum := List.sum_nonneg hnn
  unfold chooseSurface
  rw [foldl_add, zero_add]
  exact chooseLoop_some _ hnn (by unfold triangleAreas; simp) _ (by nlinarith)

/-- The plane of the face that a triangle is in. -/
def faceOf : Nat → Side
  | 0 => .zm | 1 => .zm | 2 => .zp | 3 => .zp | 4 => .ym | 5 => .ym | 6 => .yp | 7 => .yp
  | 8 => .xm | 9 => .xm | _ => .xp

omit hs in
theorem corner (a b : ℝ) (ha : |a| ≤ 1) (hb : |b| ≤ 1) :
    Closed (shape s) ⟨a * s.dx1, b * s.dy1, -s.dz⟩ ∧ Closed (shape s) ⟨a * s.dx2, b * s.dy2, s.dz⟩ := by
  have hz : 0 < s.dz := hp.2.2.2.2
  have e1 : (shape s).wx s.dz = s.dx2 := by
    show s.dx1 + (s.dx2 - s.dx1) * ((s.dz + s.dz) / (2 * s.dz)) = _; field_simp; ring
  have e2 : (shape s).wx (-s.dz) = s.dx1 := by
    show s.dx1 + (s.dx2 - s.dx1) * ((-s.dz + s.dz) / (2 * s.dz)) = _; field_simp; ring
  have e3 : (shape s).wy s.dz = s.dy2 := by
    show s.dy1 + (s.dy2 - s.dy1) * ((s.dz + s.dz) / (2 * s.dz)) = _; field_simp; ring
  have e4 : (shape s).wy (-s.dz) = s.dy1 := by
    show s.dy1 + (s.dy2 - s.dy1) * ((-s.dz + s.dz) / (2 * s.dz)) = _; field_simp; ring
  have h1 : 0 ≤ s.dx1 := hp.1
  have h2 : 0 ≤ s.dx2 := hp.2.1
  have h3 : 0 ≤ s.dy1 := hp.2.2.1
  have h4 : 0 ≤ s.dy2 := hp.2.2.2.1
  have key : ∀ c w : ℝ, |c| ≤ 1 → 0 ≤ w → |c * w| ≤ w := by
    intro c w hc hw
    rw [abs_mul, abs_of_nonneg hw]; nlinarith
  unfold Closed
  dsimp only
  rw [e1, e2, e3, e4, abs_neg, abs_of_pos hz]
  exact ⟨⟨le_rfl, key _ _ ha h1, key _ _ hb h3⟩, ⟨le_rfl, key _ _ ha h2, key _ _ hb h4⟩⟩

omit hs in
/-- The corners of the triangles are in the solid, and in the plane of the face. -/
theorem triangle_face (n : Nat) :
    (Closed (shape s) (triangle s n).1 ∧ height (shape s) (triangle s n).1 (faceOf n) = 0) ∧
    (Closed (shape s) (triangle s n).2.1 ∧ height (shape s) (triangle s n).2.1 (faceOf n) = 0) ∧
    (Closed (shape s) (triangle s n).2.2 ∧ height (shape s) (triangle s n).2.2 (faceOf n) = 0) := by
  have hz : 0 < s.dz := hp.2.2.2.2
  have one : |(1 : ℝ)| ≤ 1 := by norm_num
  have neg : |(-1 : ℝ)| ≤ 1 := by norm_num
  have c1 := corner hp 1 1 one one
  have c2 := corner hp 1 (-1) one neg
  have c3 := corner hp (-1) 1 neg one
  have c4 := corner hp (-1) (-1) neg neg
  simp only [one_mul, neg_mul] at c1 c2 c3 c4
  have e1 : (shape s).wx s.dz = s.dx2 := by
    show s.dx1 + (s.dx2 - s.dx1) * ((s.dz + s.dz) / (2 * s.dz)) = _; field_simp; ring
  have e2 : (shape s).wx (-s.dz) = s.dx1 := by
    show s.dx1 + (s.dx2 - s.dx1) * ((-s.dz + s.dz) / (2 * s.dz)) = _; field_simp; ring
  have e3 : (shape s).wy s.dz = s.dy2 := by
    show s.dy1 + (s.dy2 - s.dy1) * ((s.dz + s.dz) / (2 * s.dz)) = _; field_simp; ring
  have e4 : (shape s).wy (-s.dz) = s.dy1 := by
    show s.dy1 + (s.dy2 - s.dy1) * ((-s.dz + s.dz) / (2 * s.dz)) = _; field_simp; ring
  have e5 : (shape s).z = s.dz := rfl
  rcases n with _ | _ | _ | _ | _ | _ | _ | _ | _ | _ | _ | n <;>
    simp only [triangle, faceOf, height, e1, e2, e3, e4, e5, Nat.reduceAdd, zero_add, neg_neg, sub_self, zero_div,
      c1.1, c1.2, c2.1, c2.2, c3.1, c3.2, c4.1, c4.2, and_self]

omit hs in
/-- C70: points sampled for a triangle lie on the boundary of the solid. -/
theorem C70_sample (hr : Reachable k s) (u r1 r2 : ℝ) (hu : 0 ≤ r1 ∧ r1 ≤ 1) (hv : 0 ≤ r2 ∧ r2 ≤ 1) (q : V3)
    (h : samplePointOnSurface s u r1 r2 = some q) : Boundary (shape s) q := by
  have hz : 0 < s.dz := hp.2.2.2.2
  unfold samplePointOnSurface at h
  rw [Option.map_eq_some_iff] at h
  obtain ⟨n, -, h⟩ := h
  dsimp only at h
  have ⟨w1, w2, hw1, hw2, hw3, hq⟩ : ∃ w1 w2 : ℝ, 0 ≤ w1 ∧ 0 ≤ w2 ∧ w1 + w2 ≤ 1 ∧
      q = (triangle s n).1 + V3.smul w1 ((triangle s n).2.1 - (triangle s n).1) +
        V3.smul w2 ((triangle s n).2.2 - (triangle s n).1) := by
    split at h
    · exact ⟨1 - r1, 1 - r2, by linarith, by linarith, by linarith, h.symm⟩
    · exact ⟨r1, r2, by linarith, by linarith, by linarith, h.symm⟩
  obtain ⟨⟨a1, b1⟩, ⟨a2, b2⟩, a3, b3⟩ := triangle_face hp n
  have lin : ∀ f, height (shape s) q f = (1 - w1 - w2) * height (shape s) (triangle s n).1 f +
      w1 * height (shape s) (triangle s n).2.1 f + w2 * height (shape s) (triangle s n).2.2 f := by
    intro f
    rw [height_eq (S := shape s) hz, height_eq (S := shape s) hz, height_eq (S := shape s) hz, height_eq (S := shape s) hz, hq]
    simp only [Plane.height, V3.dot, V3.add_x, V3.add_y, V3.add_z, V3.smul_x, V3.smul_y, V3.smul_z, V3.sub_x, V3.sub_y, V3.sub_z]
    ring
  rw [closed_heights] at a1 a2 a3
  constructor
  · rw [closed_heights]
    intro f
    rw [lin]
    nlinarith [a1 f, a2 f, a3 f, mul_nonneg hw1 (neg_nonneg.mpr (a2 f)), mul_nonneg hw2 (neg_nonneg.mpr (a3 f)),
      mul_nonneg (show 0 ≤ 1 - w1 - w2 by linarith) (neg_nonneg.mpr (a1 f))]
  · intro ho
    have := (open_heights q).mp ho (faceOf n)
    rw [lin, b1, b2, b3] at this
    linarith

end

/-! ## Extent -/

/-- C70: the extent contains the solid, and each of its sides touches it. -/
theorem C70_extent {s : State} (hp : Proper (shape s)) :
    (∀ q, Closed (shape s) q → (extent s).1.x ≤ q.x ∧ q.x ≤ (extent s).2.x ∧ (extent s).1.y ≤ q.y ∧ q.y ≤ (extent s).2.y ∧
      (extent s).1.z ≤ q.z ∧ q.z ≤ (extent s).2.z) ∧
    (∃ q, Closed (shape s) q ∧ q.x = (extent s).1.x) ∧ (∃ q, Closed (shape s) q ∧ q.x = (extent s).2.x) ∧
    (∃ q, Closed (shape s) q ∧ q.y = (extent s).1.y) ∧ (∃ q, Closed (shape s) q ∧ q.y = (extent s).2.y) ∧
    (∃ q, Closed (shape s) q ∧ q.z = (extent s).1.z) ∧ (∃ q, Closed (shape s) q ∧ q.z = (extent s).2.z) := by
  have hz : 0 < s.dz := hp.2.2.2.2
  have one : |(1 : ℝ)| ≤ 1 := by norm_num
  have neg : |(-1 : ℝ)| ≤ 1 := by norm_num
  have c1 := corner hp 1 1 one one
  have c4 := corner hp (-1) (-1) neg neg
  simp only [one_mul, neg_mul] at c1 c4
  refine ⟨?_, ?_, ?_, ?_, ?_, ⟨_, c1.1, rfl⟩, ⟨_, c1.2, rfl⟩⟩
  · rintro q ⟨h1, h2, h3⟩
    have h1 : |q.z| ≤ s.dz := h1
    have hq := abs_le.mp h1
    have a : 0 ≤ (q.z + s.dz) / (2 * s.dz) := div_nonneg (by linarith [hq.1]) (by linarith)
    have b : (q.z + s.dz) / (2 * s.dz) ≤ 1 := by rw [div_le_one (by linarith)]; linarith [hq.2]
    have wx : (shape s).wx q.z ≤ max s.dx1 s.dx2 := by
      show s.dx1 + (s.dx2 - s.dx1) * ((q.z + s.dz) / (2 * s.dz)) ≤ _
      nlinarith [le_max_left s.dx1 s.dx2, le_max_right s.dx1 s.dx2]
    have wy : (shape s).wy q.z ≤ max s.dy1 s.dy2 := by
      show s.dy1 + (s.dy2 - s.dy1) * ((q.z + s.dz) / (2 * s.dz)) ≤ _
      nlinarith [le_max_left s.dy1 s.dy2, le_max_right s.dy1 s.dy2]
    have h2' := abs_le.mp h2
    have h3' := abs_le.mp h3
    simp only [extent]
    refine ⟨?_, ?_, ?_, ?_, hq.1, hq.2⟩ <;> linarith [h2'.1, h2'.2, h3'.1, h3'.2]
  · simp only [extent]
    rcases max_choice s.dx1 s.dx2 with h | h <;> rw [h]
    · exact ⟨_, c4.1, rfl⟩
    · exact ⟨_, c4.2, rfl⟩
  · simp only [extent]
    rcases max_choice s.dx1 s.dx2 with h | h <;> rw [h]
    · exact ⟨_, c1.1, rfl⟩
    · exact ⟨_, c1.2, rfl⟩
  · simp only [extent]
    rcases max_choice s.dy1 s.dy2 with h | h <;> rw [h]
    · exact ⟨_, c4.1, rfl⟩
    · exact ⟨_, c4.2, rfl⟩
  · simp only [extent]
    rcases max_choice s.dy1 s.dy2 with h | h <;> rw [h]
    · exact ⟨_, c1.1, rfl⟩
    · exact ⟨_, c1.2, rfl⟩

/-- C70: the bounding box that the constructor caches is the extent, but no setter updates it: afterwards points of the solid
can be outside the cached box. -/
theorem C70_bbox_counterexample (k : Kind) (m : State) :
    (∀ x1 x2 y1 y2 z, (create k m x1 x2 y1 y2 z).bbox = extent (create k m x1 x2 y1 y2 z).trd) ∧
    Closed (shape (set (create k m 1 1 1 1 1) (.z 5)).trd) ⟨0, 0, 4⟩ ∧
    (set (create k m 1 1 1 1 1) (.z 5)).bbox.2.z = 1 := by
  refine ⟨fun _ _ _ _ _ => rfl, ?_, rfl⟩
  show Closed ⟨1, 1, 1, 1, 5⟩ ⟨0, 0, 4⟩
  norm_num [Closed, Shape.wx, Shape.wy, abs_of_pos]

/-! ## Mesh -/

/-- The directed edges of a polygon. -/
def edges (l : List Nat) : List (Nat × Nat) := l.zip (l.rotate 1)

/-- C70: the mesh is closed: all indices are in range, and each directed edge of a polygon occurs once, and once reversed. -/
theorem C70_mesh_closed (s : State) :
    (∀ l ∈ meshPolygons, ∀ i ∈ l, i < (meshVertices s).length) ∧
    (∀ e ∈ meshPolygons.flatMap edges, (meshPolygons.flatMap edges).count e = 1 ∧
      (meshPolygons.flatMap edges).count (e.2, e.1) = 1) := by
  have h : (meshVertices s).length = 8 := rfl
  rw [h]
  decide

/-- C70: the solid is on the back of every polygon of the mesh, whose corners are in one plane and in the solid. -/
theorem C70_mesh_outward {s : State} (hp : Proper (shape s)) (l : List Nat) (hl : l ∈ meshPolygons) :
    ∃ a b c d, l.map ((meshVertices s)[·]?) = [some a, some b, some c, some d] ∧
    (∀ q ∈ [a, b, c, d], Closed (shape s) q) ∧ V3.dot (V3.cross (b - a) (c - a)) (d - a) = 0 ∧
    ∀ q, Closed (shape s) q → V3.dot (V3.cross (b - a) (c - a)) (q - a) ≤ 0 := by
  have hz : 0 < s.dz := hp.2.2.2.2
  have one : |(1 : ℝ)| ≤ 1 := by norm_num
  have neg : |(-1 : ℝ)| ≤ 1 := by norm_num
  have c1 := corner hp 1 1 one one
  have c2 := corner hp 1 (-1) one neg
  have c3 := corner hp (-1) 1 neg one
  have c4 := corner hp (-1) (-1) neg neg
  simp only [one_mul, neg_mul] at c1 c2 c3 c4
  have h1 : 0 ≤ s.dx1 := hp.1
  have h2 : 0 ≤ s.dx2 := hp.2.1
  have h3 : 0 ≤ s.dy1 := hp.2.2.1
  have h4 : 0 ≤ s.dy2 := hp.2.2.2.1
  have X : ∀ q, Closed (shape s) q → |q.z| ≤ s.dz ∧ 2 * s.dz * |q.x| ≤ s.dx1 * (s.dz - q.z) + s.dx2 * (s.dz + q.z) ∧
      2 * s.dz * |q.y| ≤ s.dy1 * (s.dz - q.z) + s.dy2 * (s.dz + q.z) := by
    rintro q ⟨g1, g2, g3⟩
    refine ⟨g1, ?_, ?_⟩
    · have : (shape s).wx q.z = s.dx1 + (s.dx2 - s.dx1) * ((q.z + s.dz) / (2 * s.dz)) := rfl
      rw [this] at g2
      have := mul_le_mul_of_nonneg_left g2 (show 0 ≤ 2 * s.dz by linarith)
      have e : 2 * s.dz * (s.dx1 + (s.dx2 - s.dx1) * ((q.z + s.dz) / (2 * s.dz))) =
          s.dx1 * (s.dz - q.z) + s.dx2 * (s.dz + q.z) := by field_simp; ring
      linarith
    · have : (shape s).wy q.z = s.dy1 + (s.dy2 - s.dy1) * ((q.z + s.dz) / (2 * s.dz)) := rfl
      rw [this] at g3
      have := mul_le_mul_of_nonneg_left g3 (show 0 ≤ 2 * s.dz by linarith)
      have e : 2 * s.dz * (s.dy1 + (s.dy2 - s.dy1) * ((q.z + s.dz) / (2 * s.dz))) =
          s.dy1 * (s.dz - q.z) + s.dy2 * (s.dz + q.z) := by field_simp; ring
      linarith
  simp only [meshPolygons, List.mem_cons, List.not_mem_nil, or_false] at hl
  rcases hl with rfl | rfl | rfl | rfl | rfl | rfl <;> refine ⟨_, _, _, _, rfl, ?_, ?_, ?_⟩
  all_goals
    first
    | (intro q hq
       simp only [List.mem_cons, List.not_mem_nil, or_false] at hq
       rcases hq with rfl | rfl | rfl | rfl <;>
         first | exact c1.1 | exact c1.2 | exact c2.1 | exact c2.2 | exact c3.1 | exact c3.2 | exact c4.1 | exact c4.2)
    | (simp only [V3.dot, V3.cross, V3.sub_x, V3.sub_y, V3.sub_z]; ring1)
    | (intro q hq
       obtain ⟨g1, g2, g3⟩ := X q hq
       have g1 := abs_le.mp g1
       have x1 := mul_le_mul_of_nonneg_left (le_abs_self q.x) (show 0 ≤ 2 * s.dz by linarith)
       have x2 := mul_le_mul_of_nonneg_left (neg_abs_le q.x) (show 0 ≤ 2 * s.dz by linarith)
       have y1 := mul_le_mul_of_nonneg_left (le_abs_self q.y) (show 0 ≤ 2 * s.dz by linarith)
       have y2 := mul_le_mul_of_nonneg_left (neg_abs_le q.y) (show 0 ≤ 2 * s.dz by linarith)
       simp only [V3.dot, V3.cross, V3.sub_x, V3.sub_y, V3.sub_z]
       first
       | nlinarith [mul_nonneg (mul_nonneg h1 h3) (show 0 ≤ q.z + s.dz by linarith [g1.1])]
       | nlinarith [mul_nonneg (mul_nonneg h2 h4) (show 0 ≤ s.dz - q.z by linarith [g1.2])]
       | nlinarith [mul_nonneg h3 (show 0 ≤ s.dx1 * (s.dz - q.z) + s.dx2 * (s.dz + q.z) + 2 * s.dz * q.x by linarith)]
       | nlinarith [mul_nonneg h3 (show 0 ≤ s.dx1 * (s.dz - q.z) + s.dx2 * (s.dz + q.z) - 2 * s.dz * q.x by linarith)]
       | nlinarith [mul_nonneg h4 (show 0 ≤ s.dx1 * (s.dz - q.z) + s.dx2 * (s.dz + q.z) + 2 * s.dz * q.x by linarith)]
       | nlinarith [mul_nonneg h4 (show 0 ≤ s.dx1 * (s.dz - q.z) + s.dx2 * (s.dz + q.z) - 2 * s.dz * q.x by linarith)]
       | nlinarith [mul_nonneg h1 (show 0 ≤ s.dy1 * (s.dz - q.z) + s.dy2 * (s.dz + q.z) + 2 * s.dz * q.y by linarith)]
       | nlinarith [mul_nonneg h1 (show 0 ≤ s.dy1 * (s.dz - q.z) + s.dy2 * (s.dz + q.z) - 2 * s.dz * q.y by linarith)]
       | nlinarith [mul_nonneg h2 (show 0 ≤ s.dy1 * (s.dz - q.z) + s.dy2 * (s.dz + q.z) + 2 * s.dz * q.y by linarith)]
       | nlinarith [mul_nonneg h2 (show 0 ≤ s.dy1 * (s.dz - q.z) + s.dy2 * (s.dz + q.z) - 2 * s.dz * q.y by linarith)])

/-! ## Factory -/

/-- The points of what the factory makes. -/
def Made.Points : Made → V3 → Prop
  | .box dims, q => |q.x| ≤ dims.x ∧ |q.y| ≤ dims.y ∧ |q.z| ≤ dims.z
  | .trd s, q => Closed (shape s.trd) q

/-- C70: the factory makes the solid with the given half lengths, with kernels that fit, whatever it chooses. -/
theorem C70_factory (m : State) (x1 x2 y1 y2 z : ℝ) (q : V3) :
    ((make5 m x1 x2 y1 y2 z).Points q ↔ Closed ⟨x1, x2, y1, y2, z⟩ q) ∧
    ((make4 m x1 x2 y1 z).Points q ↔ Closed ⟨x1, x2, y1, y1, z⟩ q) ∧
    (∀ s, make5 m x1 x2 y1 y2 z = .trd s → Fits s.kind s.trd ∧ Reachable s.kind s.trd) ∧
    (∀ s, make4 m x1 x2 y1 z = .trd s → Fits s.kind s.trd ∧ Reachable s.kind s.trd) := by
  refine ⟨?_, ?_, ?_, ?_⟩
  · unfold make5
    split
    · rename_i h
      obtain ⟨rfl, rfl⟩ := h
      simp only [Made.Points, Closed, Shape.wx, Shape.wy, sub_self, zero_mul, add_zero]
      tauto
    · split
      · rename_i h; subst h; rfl
      · rfl
  · unfold make4
    split
    · rename_i h
      subst h
      simp only [Made.Points, Closed, Shape.wx, Shape.wy, sub_self, zero_mul, add_zero]
      tauto
    · rfl
  · intro s h
    unfold make5 at h
    split at h
    · cases h
    · split at h
      · injection h with h; subst h; exact ⟨fun _ => rfl, m, _, _, _, _, _, [], rfl⟩
      · injection h with h; subst h; exact ⟨fun h => (by cases h), m, _, _, _, _, _, [], rfl⟩
  · intro s h
    unfold make4 at h
    split at h
    · cases h
    · injection h with h; subst h; exact ⟨fun _ => rfl, m, _, _, _, _, _, [], rfl⟩

/-- The hypotheses on the sampling are met by the sample solid. -/
example (m : State) (u : ℝ) (hu : u ≤ 1) : ∃ q, samplePointOnSurface (sample m) u (1 / 2) (1 / 4) = some q ∧
    Boundary (shape (sample m)) q := by
  obtain ⟨n, h, -⟩ := C70_choose (sample_reachable m) (sample_proper m) (show (0:ℝ) < 1 + 3 by norm_num)
    (show (0:ℝ) < 2 + 5 by norm_num) u hu
  obtain ⟨q, hq⟩ : ∃ q, samplePointOnSurface (sample m) u (1 / 2) (1 / 4) = some q := by
    unfold samplePointOnSurface; rw [h]; exact ⟨_, rfl⟩
  exact ⟨q, hq, C70_sample (sample_proper m) (sample_reachable m) u _ _ (by norm_num) (by norm_num) q hq⟩

end Trd
end VecGeom

import Verif.SExtru.Props

/-!
# Cases: a cube and an arrow

They meet the hypotheses of the theorems on extruded polygons; and the counterexamples for the classification.
-/

namespace VecGeom
namespace SExtru

open Real Polygon

/-- The unit cube, from `lo` to `lo + 1`. -/
noncomputable def cube (lo : ℝ) : Shell := ⟨build 4 4 sqx sqy, lo, lo + 1⟩

theorem cube_given (lo : ℝ) : Given 4 4 sqx sqy lo (lo + 1) (cube lo) where
  lanes := by norm_num
  few := by norm_num
  made := by unfold make; rw [sq_init]; rfl
  distinct := by
    intro i hi
    have ci : i = 0 ∨ i = 1 ∨ i = 2 ∨ i = 3 := by omega
    rcases ci with rfl | rfl | rfl | rfl <;> simp [sqx, sqy]
  small := by
    intro i hi
    unfold sqx sqy
    constructor <;> split <;> norm_num
  order := by linarith

/-- An arrow head: not convex, given clockwise. -/
noncomputable def arx (i : Nat) : ℝ := if i = 1 then 2 else if i = 3 then -2 else 0
/-- An arrow head. -/
noncomputable def ary (i : Nat) : ℝ := if i = 0 then 3 else if i = 2 then 0 else -1

/-- The extruded arrow head. -/
noncomputable def arrow (lo hi : ℝ) : Shell := ⟨build 4 4 arx ary, lo, hi⟩

theorem ar_orientation : orientation arx ary 4 = -12 := by
  simp [orientation, List.range_succ, arx, ary]
  norm_num

theorem ar_inc : increment arx ary 4 = 1 := by
  unfold increment; rw [ar_orientation, if_neg (by norm_num)]

theorem ar_vert {i : Nat} (hi : i < 4) : vert 4 arx ary i = (arx i, ary i) := by
  unfold vert; rw [ar_inc, source_one (by norm_num) hi]

theorem ar_init : Polygon.init 4 4 arx ary = some (build 4 4 arx ary) := by
  obtain ⟨p, hp, -⟩ := C93_init (k := 4) (n := 4) (by norm_num) (by norm_num) (by norm_num) arx ary
  rw [hp, (init_some hp).1]

theorem arrow_given {lo hi : ℝ} (h : lo ≤ hi) : Given 4 4 arx ary lo hi (arrow lo hi) where
  lanes := by norm_num
  few := by norm_num
  made := by unfold make; rw [ar_init]; rfl
  distinct := by
    intro i hi
    have ci : i = 0 ∨ i = 1 ∨ i = 2 ∨ i = 3 := by omega
    rcases ci with rfl | rfl | rfl | rfl <;> simp [arx, ary]
  small := by
    intro i hi
    have ci : i = 0 ∨ i = 1 ∨ i = 2 ∨ i = 3 := by omega
    rcases ci with rfl | rfl | rfl | rfl <;> simp [arx, ary] <;> norm_num
  order := h

theorem arrow_flag (lo hi : ℝ) : (arrow lo hi).poly.convex = false := by
  rw [Bool.eq_false_iff]
  intro h
  have := ((C95_flag (by norm_num) ar_init).1).mp h
  have hv : ∀ i, i < 4 → ((build 4 4 arx ary).x i, (build 4 4 arx ary).y i) = (arx i, ary i) := by
    intro i hi; rw [build_x hi, build_y hi]; exact ar_vert hi
  rcases this with h | h
  · have := h 1 (by norm_num)
    rw [hv 1 (by norm_num), hv _ (by norm_num), hv _ (by norm_num)] at this
    simp [side, arx, ary] at this
    norm_num at this
  · have := h 0 (by norm_num)
    rw [hv 0 (by norm_num), hv _ (by norm_num), hv _ (by norm_num)] at this
    simp [side, arx, ary] at this

example : (arrow 0 1).poly.convex = false ∧ Given 4 4 arx ary 0 1 (arrow 0 1) := ⟨arrow_flag _ _, arrow_given (by norm_num)⟩

example : StrictlyConvex 4 (fun i => (sqx i, sqy i)) ∧ Unchopped 4 (fun i => (sqx i, sqy i)) ∧ Given 4 4 sqx sqy 0 (0 + 1) (cube 0) :=
  ⟨sq_convex, sq_unchopped, cube_given 0⟩

theorem sq_depth {q : ℝ × ℝ} {d : ℝ} (h : d < q.1 ∧ q.1 < 1 - d ∧ d < q.2 ∧ q.2 < 1 - d) {i : Nat} (hi : i < 4) :
    d < depth 4 (fun i => (sqx i, sqy i)) i q := by
  have hs : sgn 4 (fun i => (sqx i, sqy i)) = 1 := by
    unfold sgn; rw [← orientation_eq, sq_area_nonneg, if_pos (by norm_num)]
  unfold depth
  rw [hs]
  obtain ⟨h1, h2, h3, h4⟩ := h
  have ci : i = 0 ∨ i = 1 ∨ i = 2 ∨ i = 3 := by omega
  rcases ci with rfl | rfl | rfl | rfl <;> simp [side, dist2, sqx, sqy] <;> linarith

/-- C96: a point at exactly the tolerance below a convex solid is classified as inside. -/
theorem C96_inside_counterexample :
    inside 4 (cube 0) ⟨1 / 2, 1 / 2, -kTolerance⟩ = some .inside ∧
      ¬ InSolid 4 (fun i => (sqx i, sqy i)) 0 (0 + 1) ⟨1 / 2, 1 / 2, -kTolerance⟩ := by
  have g := cube_given 0
  have ht := kTolerance_pos
  constructor
  · obtain ⟨hp, h1, h2⟩ := g.poly
    have hflag := (C95_flag g.few hp).2 sq_convex
    have hb : Small ⟨1 / 2, 1 / 2, -kTolerance⟩ := by constructor <;> simp only <;> rw [abs_of_pos (by norm_num)] <;> norm_num
    obtain ⟨-, -, -, hin, -⟩ := (C95_convex_partial g.few hp g.distinct (1 / 2, 1 / 2) (g.bounded hb)).1 sq_unchopped
    have hi : insideConvex (cube 0).poly (1 / 2) (1 / 2) = .inside := by
      apply hin.mpr
      intro i hi
      apply sq_depth _ hi
      unfold kTolerance; norm_num
    unfold inside
    rw [h1, h2, hflag]
    dsimp only
    rw [if_neg (by linarith), if_neg (by linarith), if_pos rfl, hi, if_neg]
    rintro ⟨h | h, -⟩
    · rw [abs_of_neg (by linarith)] at h; linarith
    · rw [sub_zero, abs_neg, abs_of_pos ht] at h; exact lt_irrefl _ h
  · intro h
    have := h.1
    simp only at this; linarith

end SExtru
end VecGeom

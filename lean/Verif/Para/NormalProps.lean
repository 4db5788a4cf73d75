import Verif.Para.MoreProps
import Mathlib.Analysis.SpecialFunctions.Trigonometric.Arctan

/-!
# C67: normals of the parallelepiped
-/

namespace VecGeom
namespace Para

/-- The faces in pairs: across the first, the second and the third axis. -/
inductive Pair where
  | x | y | z

/-- The unit normal of a pair of faces. -/
def Pair.n (s : State) : Pair → V3
  | .x => s.n0
  | .y => s.n1
  | .z => s.n2

/-- Half of the distance between the two faces of a pair: the coordinate of the middle of the face along the normal. -/
noncomputable def Pair.w (s : State) : Pair → ℝ
  | .x => s.n0.dot ((shape s).point (shape s).h.x 0 0)
  | .y => s.n1.dot ((shape s).point 0 (shape s).h.y 0)
  | .z => s.n2.dot ((shape s).point 0 0 (shape s).h.z)

/-- The point is within the tolerance of the plane of one of the two faces. -/
def Near (s : State) (p : V3) (i : Pair) : Prop := |(|(i.n s).dot p| - i.w s)| ≤ kHalfTolerance

/-- The outward normal of the face of the pair that is on the side of the point. -/
noncomputable def outer (s : State) (p : V3) (i : Pair) : V3 := V3.smul (sign ((i.n s).dot p)) (i.n s)

/-- The component of the safety vector of a pair. -/
def comp (v : V3) : Pair → ℝ
  | .x => v.x
  | .y => v.y
  | .z => v.z

theorem comp_eq {s : State} (hs : Reachable s) (p : V3) (i : Pair) :
    comp (safetyVector s (transform s p)) i = |(i.n s).dot p| - i.w s := by
  have hr := hs.rep
  rw [safetyVector_eq hr]
  cases i <;> simp only [comp, Pair.n, Pair.w] <;> congr 1
  · rw [n0_dot hr, transform_point hr]
  · rw [n1_dot hr, transform_point hr]
  · rw [n2_dot hr, transform_point hr]

theorem sign_scale {c x : ℝ} (hc : 0 < c) : sign (c * x) = sign x := by
  unfold sign
  by_cases h : x < 0
  · rw [if_pos h, if_pos (mul_neg_of_pos_of_neg hc h)]
  · rw [if_neg h, if_neg (not_lt.mpr (mul_nonneg hc.le (not_lt.mp h)))]

theorem sgn_eq {s : State} (hs : Reachable s) (p : V3) (i : Pair) :
    comp (transform s p).sgn i = sign ((i.n s).dot p) := by
  have hr := hs.rep
  cases i <;> simp only [comp, Pair.n, V3.sgn_x, V3.sgn_y, V3.sgn_z]
  · rw [n0_dot hr, sign_scale (ctx_pos hr)]
  · rw [n1_dot hr, sign_scale (cty_pos hr)]
  · rw [n2_dot hr]

open Classical in
/-- The coefficient of a normal in the sum. -/
noncomputable def coef (s : State) (p : V3) (i : Pair) : ℝ := if Near s p i then sign ((i.n s).dot p) else 0

theorem coef_near {s : State} {p : V3} {i : Pair} (h : Near s p i) : coef s p i = sign ((i.n s).dot p) := if_pos h
theorem coef_far {s : State} {p : V3} {i : Pair} (h : ¬ Near s p i) : coef s p i = 0 := if_neg h

/-- The sum of the normals that the kernel forms. -/
noncomputable def sumNormal (s : State) (p : V3) : V3 :=
  V3.smul (coef s p .z) (Pair.z.n s) + V3.smul (coef s p .y) (Pair.y.n s) + V3.smul (coef s p .x) (Pair.x.n s)

theorem sign_ne (x : ℝ) : sign x ≠ 0 := by unfold sign; split <;> norm_num

open Classical in
theorem normalKernel_eq {s : State} (hs : Reachable s) (p : V3) : normalKernel s p =
    if (sumNormal s p).mag2 > 0 then
      (if (sumNormal s p).mag2 > 1 then (sumNormal s p).unit else sumNormal s p, true)
    else
      (if comp (safetyVector s (transform s p)) .z = (safetyVector s (transform s p)).maxc then outer s p .z
       else if comp (safetyVector s (transform s p)) .y = (safetyVector s (transform s p)).maxc then outer s p .y
       else outer s p .x, decide (¬ (sumNormal s p).mag2 = 0)) := by
  have hz : s.n2 = ⟨0, 0, 1⟩ := hs.rep.2.2.2.2.2.2.1
  have ex := sgn_eq hs p .x
  have ey := sgn_eq hs p .y
  have ez := sgn_eq hs p .z
  have fx := comp_eq hs p .x
  have fy := comp_eq hs p .y
  have fz := comp_eq hs p .z
  simp only [comp] at ex ey ez fx fy fz
  have key : (if |(safetyVector s (transform s p)).x| ≤ kHalfTolerance then
        (if |(safetyVector s (transform s p)).y| ≤ kHalfTolerance then
            (if |(safetyVector s (transform s p)).z| ≤ kHalfTolerance then ⟨0, 0, (transform s p).sgn.z⟩ else (⟨0, 0, 0⟩ : V3)) +
            V3.smul (transform s p).sgn.y s.n1 else
              (if |(safetyVector s (transform s p)).z| ≤ kHalfTolerance then ⟨0, 0, (transform s p).sgn.z⟩ else (⟨0, 0, 0⟩ : V3))) +
          V3.smul (transform s p).sgn.x s.n0 else
        (if |(safetyVector s (transform s p)).y| ≤ kHalfTolerance then
            (if |(safetyVector s (transform s p)).z| ≤ kHalfTolerance then ⟨0, 0, (transform s p).sgn.z⟩ else (⟨0, 0, 0⟩ : V3)) +
            V3.smul (transform s p).sgn.y s.n1 else
              (if |(safetyVector s (transform s p)).z| ≤ kHalfTolerance then ⟨0, 0, (transform s p).sgn.z⟩ else (⟨0, 0, 0⟩ : V3)))) =
        sumNormal s p := by
    have nx : |(safetyVector s (transform s p)).x| ≤ kHalfTolerance ↔ Near s p .x := by rw [fx]; rfl
    have ny : |(safetyVector s (transform s p)).y| ≤ kHalfTolerance ↔ Near s p .y := by rw [fy]; rfl
    have nz : |(safetyVector s (transform s p)).z| ≤ kHalfTolerance ↔ Near s p .z := by rw [fz]; rfl
    simp only [nx, ny, nz]
    have hz' : Pair.z.n s = ⟨0, 0, 1⟩ := hz
    unfold sumNormal coef
    rw [ex, ey, ez]
    by_cases h1 : Near s p .x <;> by_cases h2 : Near s p .y <;> by_cases h3 : Near s p .z <;>
      simp only [h1, h2, h3, if_true, if_false, hz'] <;> ext <;> simp [Pair.n]
  unfold normalKernel
  dsimp only
  rw [key]
  by_cases h : (sumNormal s p).mag2 > 0
  · rw [if_pos h, if_pos h]
  · rw [if_neg h, if_neg h, ex, ey, ez]
    rfl

theorem sum_dot {s : State} (hs : Reachable s) (a b c : ℝ) :
    let N := V3.smul c s.n2 + V3.smul b s.n1 + V3.smul a s.n0
    N.dot (shape s).vx = a * s.ctx ∧ N.dot (shape s).vy = b * s.cty ∧ N.dot (shape s).vz = c := by
  obtain ⟨⟨-, a1, a2, a3, -⟩, ⟨-, b1, b2, b3, -⟩, ⟨-, c1, c2, c3⟩⟩ := C67_caches hs
  simp only [V3.dot, V3.add_x, V3.add_y, V3.add_z, V3.smul_x, V3.smul_y, V3.smul_z] at *
  refine ⟨?_, ?_, ?_⟩
  · linear_combination c * c1 + b * b1 + a * a3
  · linear_combination c * c2 + b * b3 + a * a1
  · linear_combination c * c3 + b * b2 + a * a2

theorem mag2_zero {a : V3} (h : a.mag2 = 0) : a = ⟨0, 0, 0⟩ := by
  unfold V3.mag2 V3.dot at h
  have h1 := mul_self_nonneg a.x
  have h2 := mul_self_nonneg a.y
  have h3 := mul_self_nonneg a.z
  ext
  · exact mul_self_eq_zero.mp (by linarith)
  · exact mul_self_eq_zero.mp (by linarith)
  · exact mul_self_eq_zero.mp (by linarith)

/-- The sum never vanishes if a face is near. -/
theorem sum_pos {s : State} (hs : Reachable s) (p : V3) : (sumNormal s p).mag2 > 0 ↔ ∃ i, Near s p i := by
  obtain ⟨⟨-, -, -, -, hx⟩, ⟨-, -, -, -, hy⟩, -⟩ := C67_caches hs
  constructor
  · intro h
    by_contra hn
    push Not at hn
    have : sumNormal s p = ⟨0, 0, 0⟩ := by
      unfold sumNormal
      rw [coef_far (hn _), coef_far (hn _), coef_far (hn _)]
      ext <;> simp
    rw [this] at h
    simp [V3.mag2, V3.dot] at h
  · rintro ⟨i, hi⟩
    rcases (V3.mag2_nonneg (sumNormal s p)).lt_or_eq with h | h
    · exact h
    · exfalso
      have h0 := mag2_zero h.symm
      obtain ⟨h1, h2, h3⟩ := sum_dot hs (coef s p .x) (coef s p .y) (coef s p .z)
      change (sumNormal s p).dot _ = _ at h1
      change (sumNormal s p).dot _ = _ at h2
      change (sumNormal s p).dot _ = _ at h3
      rw [h0] at h1 h2 h3
      simp only [V3.dot, zero_mul, add_zero] at h1 h2 h3
      cases i
      · rw [coef_near hi] at h1
        exact (mul_ne_zero (sign_ne _) hx.ne') h1.symm
      · rw [coef_near hi] at h2
        exact (mul_ne_zero (sign_ne _) hy.ne') h2.symm
      · rw [coef_near hi] at h3
        exact sign_ne _ h3.symm

/-- C67: the flag of `Normal` is set exactly if the point is within the tolerance of the plane of some face. -/
theorem C67_normal_valid {s : State} (hs : Reachable s) (p : V3) :
    (normalKernel s p).2 = true ↔ ∃ i, Near s p i := by
  rw [normalKernel_eq hs, ← sum_pos hs]
  by_cases h : (sumNormal s p).mag2 > 0
  · rw [if_pos h]; simp [h]
  · rw [if_neg h]
    have := le_antisymm (not_lt.mp h) (V3.mag2_nonneg (sumNormal s p))
    simp [this]

/-- C67: if the planes of only one pair of faces are near, the normal is the outward unit normal of the face on the side of
the point. -/
theorem C67_normal_face {s : State} (hs : Reachable s) {p : V3} {i : Pair} (hi : Near s p i)
    (ho : ∀ j, Near s p j → j = i) : normalKernel s p = (outer s p i, true) := by
  have hsum : sumNormal s p = outer s p i := by
    unfold sumNormal outer
    cases i
    · rw [coef_near hi, coef_far (fun h => by simpa using ho _ h), coef_far (fun h => by simpa using ho _ h)]; ext <;> simp
    · rw [coef_near hi, coef_far (fun h => by simpa using ho _ h), coef_far (fun h => by simpa using ho _ h)]; ext <;> simp
    · rw [coef_near hi, coef_far (fun h => by simpa using ho _ h), coef_far (fun h => by simpa using ho _ h)]; ext <;> simp
  have hunit : (outer s p i).mag2 = 1 := by
    have hn : (i.n s).mag2 = 1 := by
      cases i
      · exact n0_unit hs.rep
      · exact n1_unit hs.rep
      · exact n2_unit hs.rep
    have e : (outer s p i).mag2 = sign ((i.n s).dot p) * sign ((i.n s).dot p) * (i.n s).mag2 := by
      simp only [outer, V3.mag2, V3.dot, V3.smul_x, V3.smul_y, V3.smul_z]; ring
    rw [e, hn, BoxSolid.sign_mul_self, one_mul]
  rw [normalKernel_eq hs, hsum, hunit, if_pos one_pos, if_neg (lt_irrefl _)]

theorem outer_dot (s : State) (p q : V3) (i : Pair) :
    (outer s p i).dot q = sign ((i.n s).dot p) * (i.n s).dot q := by
  simp only [outer, V3.dot, V3.smul_x, V3.smul_y, V3.smul_z]; ring

theorem sign_mul_abs (x : ℝ) : sign x * x = |x| := by
  rcases BoxSolid.sign_cases x with ⟨h, e⟩ | ⟨h, e⟩ <;> rw [e]
  · rw [abs_of_neg h]; ring
  · rw [abs_of_nonneg h]; ring

theorem closed_comp {s : State} (hs : Reachable s) {q : V3} (hq : Closed (shape s) q) (i : Pair) :
    |(i.n s).dot q| ≤ i.w s := by
  have h := (V3.maxc_le (a := safetyVector s (transform s q))).mp ((closed_slabs hs.rep q).mp hq)
  have e := comp_eq hs q i
  cases i <;> simp only [comp] at e
  · linarith [h.1]
  · linarith [h.2.1]
  · linarith [h.2.2]

/-- The face of the pair on the side of the point bounds the solid. -/
theorem outer_near {s : State} (hs : Reachable s) {p q : V3} {i : Pair} (hi : Near s p i) (hq : Closed (shape s) q) :
    (outer s p i).dot (q - p) ≤ kHalfTolerance := by
  have e : (outer s p i).dot (q - p) = sign ((i.n s).dot p) * (i.n s).dot q - |(i.n s).dot p| := by
    rw [← sign_mul_abs, ← outer_dot, ← outer_dot]
    simp only [V3.dot, V3.sub_x, V3.sub_y, V3.sub_z]; ring
  have h1 := closed_comp hs hq i
  have h2 := (abs_le.mp hi).1
  have h3 : sign ((i.n s).dot p) * (i.n s).dot q ≤ |(i.n s).dot q| := by
    rcases BoxSolid.sign_cases ((i.n s).dot p) with ⟨_, e⟩ | ⟨_, e⟩ <;> rw [e]
    · linarith [neg_abs_le ((i.n s).dot q)]
    · linarith [le_abs_self ((i.n s).dot q)]
  rw [e]; linarith

/-- C67: a normal with the flag set points outward: no point of the solid is more than three half tolerances in front of the
point. -/
theorem C67_normal_outward {s : State} (hs : Reachable s) {p q : V3} (hv : (normalKernel s p).2 = true)
    (hq : Closed (shape s) q) : (normalKernel s p).1.dot (q - p) ≤ 3 * kHalfTolerance := by
  have ht := kHalfTolerance_pos
  have hp := (sum_pos hs p).mpr ((C67_normal_valid hs p).mp hv)
  have term : ∀ i : Pair, (V3.smul (coef s p i) (i.n s)).dot (q - p) ≤
      kHalfTolerance := by
    intro i
    by_cases hi : Near s p i
    · rw [coef_near hi]; exact outer_near hs hi hq
    · rw [coef_far hi]; simp only [V3.dot, V3.smul_x, V3.smul_y, V3.smul_z, zero_mul, add_zero]; exact ht.le
  have hsum : (sumNormal s p).dot (q - p) ≤ 3 * kHalfTolerance := by
    have e : (sumNormal s p).dot (q - p) =
        (V3.smul (coef s p .z) (Pair.z.n s)).dot (q - p) +
        (V3.smul (coef s p .y) (Pair.y.n s)).dot (q - p) +
        (V3.smul (coef s p .x) (Pair.x.n s)).dot (q - p) := by
      simp only [sumNormal, V3.dot, V3.add_x, V3.add_y, V3.add_z]; ring
    rw [e]
    linarith [term .x, term .y, term .z]
  rw [normalKernel_eq hs, if_pos hp]
  dsimp only
  split
  · rename_i h1
    have hroot : 1 ≤ Real.sqrt ((sumNormal s p).mag2 + kMinimum) := by
      rw [Real.one_le_sqrt]
      have : 0 < kMinimum := by unfold kMinimum; positivity
      linarith
    have hpos := lt_of_lt_of_le one_pos hroot
    have e : (sumNormal s p).unit.dot (q - p) = (sumNormal s p).dot (q - p) / Real.sqrt ((sumNormal s p).mag2 + kMinimum) := by
      simp only [V3.unit, V3.dot, V3.smul_x, V3.smul_y, V3.smul_z]; field_simp
    rw [e, div_le_iff₀ hpos]
    nlinarith
  · exact hsum

/-- C67: without the flag, the normal is the outward unit normal of a nearest face: no component of the safety is larger. -/
theorem C67_normal_invalid {s : State} (hs : Reachable s) {p : V3} (hv : (normalKernel s p).2 = false) :
    ∃ i, (normalKernel s p).1 = outer s p i ∧ (outer s p i).mag2 = 1 ∧
      ∀ j : Pair, |(j.n s).dot p| - j.w s ≤ |(i.n s).dot p| - i.w s := by
  have hp : ¬ (sumNormal s p).mag2 > 0 := by
    rw [sum_pos hs, ← C67_normal_valid hs, hv]; simp
  have hn : ∀ i : Pair, (outer s p i).mag2 = 1 := by
    intro i
    have hn : (i.n s).mag2 = 1 := by
      cases i
      · exact n0_unit hs.rep
      · exact n1_unit hs.rep
      · exact n2_unit hs.rep
    have e : (outer s p i).mag2 = sign ((i.n s).dot p) * sign ((i.n s).dot p) * (i.n s).mag2 := by
      simp only [outer, V3.mag2, V3.dot, V3.smul_x, V3.smul_y, V3.smul_z]; ring
    rw [e, hn, BoxSolid.sign_mul_self, one_mul]
  have hmax : ∀ i : Pair, comp (safetyVector s (transform s p)) i = (safetyVector s (transform s p)).maxc →
      ∀ j : Pair, |(j.n s).dot p| - j.w s ≤ |(i.n s).dot p| - i.w s := by
    intro i hi j
    rw [← comp_eq hs, ← comp_eq hs, hi]
    have := (V3.maxc_le (a := safetyVector s (transform s p))).mp le_rfl
    cases j
    · exact this.1
    · exact this.2.1
    · exact this.2.2
  rw [normalKernel_eq hs, if_neg hp]
  dsimp only
  split
  · rename_i h; exact ⟨.z, rfl, hn _, hmax _ h⟩
  · split
    · rename_i h; exact ⟨.y, rfl, hn _, hmax _ h⟩
    · rename_i h1 h2
      refine ⟨.x, rfl, hn _, hmax _ ?_⟩
      rcases V3.maxc_cases (safetyVector s (transform s p)) with h | h | h
      · exact h.symm
      · exact absurd h.symm h2
      · exact absurd h.symm h1

/-- The hypotheses of `C67_normal_face` and `C67_normal_outward` are met by the middle of a face of the sample. -/
example (m : State) : Near (sample m) ⟨1, 0, 0⟩ .x ∧ ∀ j, Near (sample m) ⟨1, 0, 0⟩ j → j = .x := by
  have hs := sample_reachable m
  have hr := hs.rep
  have ht := kHalfTolerance_pos
  have hsh := sample_shape m
  have hl := BoxSolid.kHalfTolerance_le
  have hd : (sample m).dims = ⟨1, 2, 3⟩ := rfl
  have ep : (⟨1, 0, 0⟩ : V3) = (shape (sample m)).point 1 0 0 := by rw [hsh]; ext <;> norm_num [Shape.point]
  have hy : (sample m).cty = 1 := by
    have e1 : (sample m).n1 = ⟨0, 1, 0⟩ := by
      rw [hr.2.2.2.2.2.1, hsh]
      unfold normalize V3.mag V3.mag2 V3.dot
      ext <;> norm_num
    rw [hr.2.2.2.2.2.2.2.2, e1]
  refine ⟨?_, ?_⟩
  · unfold Near
    rw [← comp_eq hs, ep, transform_point hr]
    simp only [comp, safetyVector, V3.sub_x, V3.vabs_x, hd, abs_one, sub_self, zero_mul, abs_zero]
    exact ht.le
  · intro j hj
    unfold Near at hj
    rw [← comp_eq hs, ep, transform_point hr] at hj
    cases j
    · rfl
    · exfalso
      simp only [comp, safetyVector, V3.sub_y, V3.vabs_y, hd, hy, abs_zero, zero_sub, mul_one, abs_neg] at hj
      norm_num at hj; linarith
    · exfalso
      simp only [comp, safetyVector, V3.sub_z, V3.vabs_z, hd, abs_zero, zero_sub, abs_neg] at hj
      norm_num at hj; linarith

/-- C67: the flag is also set far away from the solid, in the planes of the faces: for each distance there is a point at
least that far from the solid with the flag set. -/
theorem C67_normal_far_counterexample {s : State} (hs : Reachable s) (hx : 0 ≤ s.dims.x) (R : ℝ) :
    ∃ p, (normalKernel s p).2 = true ∧ ∀ q, Closed (shape s) q → R < V3.dist p q := by
  have hr := hs.rep
  have hy := cty_pos hr
  have ht := kHalfTolerance_pos
  refine ⟨(shape s).point s.dims.x (|s.dims.y| + (|R| + 1) / s.cty) s.dims.z, ?_, ?_⟩
  · rw [C67_normal_valid hs]
    refine ⟨.x, ?_⟩
    unfold Near
    rw [← comp_eq hs, transform_point hr]
    simp only [comp, safetyVector, V3.sub_x, V3.vabs_x, abs_of_nonneg hx, sub_self, zero_mul, abs_zero]
    exact ht.le
  · intro q hq
    have h1 := closed_comp hs hq .y
    have h2 := slab_diff (n1_unit hr) q ((shape s).point s.dims.x (|s.dims.y| + (|R| + 1) / s.cty) s.dims.z)
    rw [n1_dot hr, transform_point hr] at h2
    simp only [Pair.n, Pair.w] at h1
    rw [n1_dot hr ((shape s).point 0 (shape s).h.y 0), transform_point hr] at h1
    dsimp only at h1 h2
    rw [mul_add, mul_div_cancel₀ _ hy.ne', V3.dist_comm'] at h2
    have h3 := le_abs_self (s.cty * |s.dims.y| + (|R| + 1))
    have h4 : s.cty * (shape s).h.y ≤ s.cty * |s.dims.y| := mul_le_mul_of_nonneg_left (le_abs_self _) hy.le
    linarith [le_abs_self R]

/-- C67: at an edge with an obtuse angle between the normals the vector returned with the flag set is not a unit vector: for
`tan α = 3` its squared length is less than 0.11. -/
theorem C67_normal_unit_counterexample (m : State) :
    let s := (create m ⟨1, 1, 1⟩ (Real.arctan 3) 0 0).para
    Boundary (shape s) ⟨4, 1, 0⟩ ∧ (normalKernel s ⟨4, 1, 0⟩).2 = true ∧
      (normalKernel s ⟨4, 1, 0⟩).1.mag2 < 11 / 100 := by
  intro s
  have hs : Reachable s := ⟨m, ⟨1, 1, 1⟩, Real.arctan 3, 0, 0, [], rfl⟩
  have hsh : shape s = ⟨⟨1, 1, 1⟩, 3, 0, 0⟩ := by
    show Shape.ofAngles ⟨1, 1, 1⟩ (Real.arctan 3) 0 0 = _
    simp [Shape.ofAngles, Real.tan_arctan]
  have ep : (⟨4, 1, 0⟩ : V3) = (shape s).point 1 1 0 := by rw [hsh]; ext <;> norm_num [Shape.point]
  have hr := hs.rep
  have ht := kHalfTolerance_pos
  have hd : s.dims = ⟨1, 1, 1⟩ := rfl
  have nx : Near s ⟨4, 1, 0⟩ .x := by
    unfold Near
    rw [← comp_eq hs, ep, transform_point hr]
    simp only [comp, safetyVector, V3.sub_x, V3.vabs_x, hd, abs_one, sub_self, zero_mul, abs_zero]
    exact ht.le
  have ny : Near s ⟨4, 1, 0⟩ .y := by
    unfold Near
    rw [← comp_eq hs, ep, transform_point hr]
    simp only [comp, safetyVector, V3.sub_y, V3.vabs_y, hd, abs_one, sub_self, zero_mul, abs_zero]
    exact ht.le
  have nz : ¬ Near s ⟨4, 1, 0⟩ .z := by
    unfold Near
    rw [← comp_eq hs, ep, transform_point hr]
    simp only [comp, safetyVector, V3.sub_z, V3.vabs_z, hd, abs_zero, zero_sub, abs_neg, abs_one]
    have := BoxSolid.kHalfTolerance_le
    push Not; linarith
  have e0 : s.n0 = V3.smul (1 / Real.sqrt 10) ⟨1, -3, 0⟩ := by
    rw [hr.2.2.2.2.1, hsh]
    unfold normalize V3.mag V3.mag2 V3.dot
    norm_num
  have e1 : s.n1 = ⟨0, 1, 0⟩ := by
    rw [hr.2.2.2.2.2.1, hsh]
    unfold normalize V3.mag V3.mag2 V3.dot
    ext <;> norm_num
  have sx : sign (s.n0.dot ⟨4, 1, 0⟩) = 1 := by
    rw [ep, n0_dot hr, transform_point hr, sign_scale (ctx_pos hr)]; norm_num [sign]
  have sy : sign (s.n1.dot ⟨4, 1, 0⟩) = 1 := by
    rw [ep, n1_dot hr, transform_point hr, sign_scale (cty_pos hr)]; norm_num [sign]
  have hq : Real.sqrt 10 * Real.sqrt 10 = 10 := Real.mul_self_sqrt (by norm_num)
  have hq0 : 0 < Real.sqrt 10 := Real.sqrt_pos.mpr (by norm_num)
  have hsum : (sumNormal s ⟨4, 1, 0⟩).mag2 = 2 - 6 / Real.sqrt 10 := by
    unfold sumNormal
    rw [coef_near nx, coef_near ny, coef_far nz]
    simp only [Pair.n, sx, sy]
    rw [e0, e1]
    simp only [V3.mag2, V3.dot, V3.add_x, V3.add_y, V3.add_z, V3.smul_x, V3.smul_y, V3.smul_z]
    have h6 : 6 / Real.sqrt 10 = 6 * (1 / Real.sqrt 10) := by ring
    have h7 : 1 / Real.sqrt 10 * (1 / Real.sqrt 10) = 1 / 10 := by rw [div_mul_div_comm, hq]; norm_num
    rw [h6]
    linear_combination 10 * h7
  have hlt : 2 - 6 / Real.sqrt 10 < 11 / 100 := by
    rw [sub_lt_comm, lt_div_iff₀ hq0]
    nlinarith
  have hv : (normalKernel s ⟨4, 1, 0⟩).2 = true := (C67_normal_valid hs _).mpr ⟨_, nx⟩
  refine ⟨?_, hv, ?_⟩
  · refine ⟨⟨1, 1, 0, ?_⟩, ?_⟩
    · rw [hsh]; norm_num [Shape.point]
    · rw [open_iff hr, ep, transform_point hr, hsh]
      norm_num [BoxSolid.Open]
  · rw [normalKernel_eq hs, if_pos ((sum_pos hs _).mpr ⟨_, nx⟩)]
    dsimp only
    rw [hsum, if_neg (by linarith), hsum]
    exact hlt

end Para
end VecGeom

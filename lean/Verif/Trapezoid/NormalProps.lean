import Verif.Trapezoid.MoreProps

/-!
# C134: normals, and what goes wrong
-/

namespace VecGeom

namespace PlaneShell

theorem step_up {p : V3} {s : V3 × ℝ} {pl : Plane} (h : s.2 < pl.height p) : normalStep p s pl = (pl.n, pl.height p) := by
  classical
  unfold normalStep
  dsimp only
  rw [if_pos (by rw [dist_eq]; linarith), if_pos (by rw [dist_eq]; linarith)]
  rfl

theorem step_stay {p : V3} {s : V3 × ℝ} {pl : Plane}
    (h : pl.height p ≤ s.2 - kHalfTolerance ∨ pl.height p ≤ s.2 ∧ pl.height p < -kHalfTolerance) : normalStep p s pl = s := by
  classical
  have ht := kHalfTolerance_pos
  unfold normalStep
  dsimp only
  have h2 : ¬ dist pl p - s.2 > 0 := by rw [dist_eq]; rcases h with h | h <;> linarith
  have h3 : ¬ (|dist pl p - s.2| < kHalfTolerance ∧ dist pl p ≥ -kHalfTolerance) := by
    rintro ⟨k, k'⟩
    have := (abs_lt.mp k).1
    rw [dist_eq] at this k'
    rcases h with h | h <;> linarith
  rw [if_neg h2, if_neg h2, if_neg h3]

theorem step_add {p : V3} {s : V3 × ℝ} {pl : Plane} (h : pl.height p ≤ s.2) (h' : s.2 < pl.height p + kHalfTolerance)
    (h'' : -kHalfTolerance ≤ pl.height p) : normalStep p s pl = (s.1 + pl.n, s.2) := by
  classical
  unfold normalStep
  dsimp only
  have h2 : ¬ dist pl p - s.2 > 0 := by rw [dist_eq]; linarith
  have h3 : |dist pl p - s.2| < kHalfTolerance ∧ dist pl p ≥ -kHalfTolerance := by
    rw [dist_eq, abs_lt]
    exact ⟨⟨by linarith, by linarith [kHalfTolerance_pos]⟩, h''⟩
  rw [if_neg h2, if_neg h2, if_pos h3]

theorem step_le {p : V3} {s : V3 × ℝ} {pl : Plane} {b : ℝ} (h : s.2 ≤ b) (h' : pl.height p ≤ b) :
    (normalStep p s pl).2 ≤ b := by
  unfold normalStep
  dsimp only
  split
  · exact h'
  · exact h

theorem normal_snd_le {b : ℝ} (p : V3) (l : List Plane) : ∀ s : V3 × ℝ, s.2 ≤ b → (∀ pl ∈ l, pl.height p ≤ b) →
    (l.foldl (normalStep p) s).2 ≤ b := by
  induction l with
  | nil => intro s h _; exact h
  | cons a l ih =>
    intro s h hl
    rw [List.foldl_cons]
    exact ih _ (step_le h (hl a List.mem_cons_self)) fun pl hpl => hl pl (List.mem_cons_of_mem _ hpl)

theorem normal_stay (p : V3) (l : List Plane) (s : V3 × ℝ) (hl : ∀ pl ∈ l, pl.height p ≤ s.2 - kHalfTolerance) :
    l.foldl (normalStep p) s = s := by
  induction l with
  | nil => rfl
  | cons a l ih =>
    rw [List.foldl_cons, step_stay (Or.inl (hl a List.mem_cons_self))]
    exact ih fun pl hpl => hl pl (List.mem_cons_of_mem _ hpl)

/-- One plane is higher than all others by at least half the tolerance: its normal is taken. -/
theorem normal_one {l1 l2 : List Plane} {pl : Plane} {p n : V3} (h0 : -kInfLength < pl.height p)
    (h : ∀ pl' ∈ l1 ++ l2, pl'.height p ≤ pl.height p - kHalfTolerance) :
    normalKernel (l1 ++ pl :: l2) p n = (pl.n, pl.height p) := by
  have ht := kHalfTolerance_pos
  unfold normalKernel
  rw [List.foldl_append, List.foldl_cons]
  set b := max (-kInfLength) (pl.height p - kHalfTolerance) with hb
  have k := normal_snd_le (b := b) p l1 (n, -kInfLength) (le_max_left _ _)
    fun pl' hpl => (h pl' (List.mem_append_left _ hpl)).trans (le_max_right _ _)
  have hlt : b < pl.height p := max_lt h0 (by linarith)
  rw [step_up (by linarith)]
  exact normal_stay p l2 _ fun pl' hpl => h pl' (List.mem_append_right _ hpl)

/-- All planes are below `b`: so is the safety. -/
theorem normal_le {l : List Plane} {p n : V3} {b : ℝ} (h0 : -kInfLength ≤ b) (h : ∀ pl ∈ l, pl.height p ≤ b) :
    (normalKernel l p n).2 ≤ b := normal_snd_le p l _ h0 h

end PlaneShell

namespace Trapezoid

variable {s : State}

theorem sign_mul_self (z : ℝ) : sign z * z = |z| := by
  unfold sign
  split
  · rename_i h; rw [abs_of_neg h]; ring
  · rename_i h; rw [abs_of_nonneg (not_lt.mp h)]; ring

/-- C134: at a point that is not inside by more than half the tolerance, where one of the six planes is higher than all
others by at least half the tolerance, the normal is that of this plane; it is valid exactly if the point is not farther from
the plane than a thousand tolerances. -/
theorem C134_normal (hu : UnitNormals s) {p : V3} {l1 l2 : List Plane} {pl : Plane}
    (e : sides s.dz s.planes = l1 ++ pl :: l2) (h0 : -kHalfTolerance ≤ pl.height p)
    (h : ∀ pl' ∈ l1 ++ l2, pl'.height p ≤ pl.height p - kHalfTolerance) :
    (normalKernel s p).1 = pl.n ∧ ((normalKernel s p).2 = true ↔ |pl.height p| ≤ 1000 * kTolerance) := by
  classical
  have ht := kHalfTolerance_pos
  have hht : kHalfTolerance < 1 := by norm_num [kHalfTolerance, kTolerance]
  have hinf := kInfLength_large
  unfold normalKernel
  dsimp only
  rw [sign_mul_self]
  match l1, e with
  | [], e =>
    -- the upper base
    obtain ⟨rfl, rfl⟩ := List.cons.inj e
    rw [height_up] at *
    have hdn := h ⟨⟨0, 0, -1⟩, -s.dz⟩ (by simp)
    rw [height_dn] at hdn
    have hz : 0 < p.z := by linarith
    have habs : |p.z| = p.z := abs_of_pos hz
    have hs : sign p.z = 1 := by unfold sign; rw [if_neg (by linarith)]
    have k := PlaneShell.normal_le (l := s.planes) (p := p) (n := ⟨0, 0, 0⟩) (b := p.z - s.dz - kHalfTolerance) (by linarith)
      fun pl' hpl => h pl' (by simp [hpl])
    generalize PlaneShell.normalKernel s.planes p ⟨0, 0, 0⟩ = r at *
    rw [habs, hs]
    have a1 : ¬ (|p.z - s.dz - r.2| < kHalfTolerance ∧ p.z - s.dz ≥ -kHalfTolerance) := by
      rintro ⟨h, _⟩; have := (abs_lt.mp h).2; linarith
    have a2 : p.z - s.dz > r.2 ∧ p.z - s.dz ≥ -kHalfTolerance := ⟨by linarith, h0⟩
    rw [if_neg a1, if_pos a2, if_pos a2.1, if_neg (by norm_num [V3.mag2, V3.dot])]
    exact ⟨rfl, by rw [decide_eq_true_eq]⟩
  | [a], e =>
    obtain ⟨rfl, e2⟩ := List.cons.inj e
    obtain ⟨rfl, rfl⟩ := List.cons.inj e2
    rw [height_dn] at *
    have hup := h ⟨⟨0, 0, 1⟩, -s.dz⟩ (by simp)
    rw [height_up] at hup
    have hz : p.z < 0 := by linarith
    have habs : |p.z| = -p.z := abs_of_neg hz
    have hs : sign p.z = -1 := by unfold sign; rw [if_pos hz]
    have k := PlaneShell.normal_le (l := s.planes) (p := p) (n := ⟨0, 0, 0⟩) (b := -p.z - s.dz - kHalfTolerance) (by linarith)
      fun pl' hpl => h pl' (by simp [hpl])
    generalize PlaneShell.normalKernel s.planes p ⟨0, 0, 0⟩ = r at *
    rw [habs, hs]
    have a1 : ¬ (|-p.z - s.dz - r.2| < kHalfTolerance ∧ -p.z - s.dz ≥ -kHalfTolerance) := by
      rintro ⟨h, _⟩; have := (abs_lt.mp h).2; linarith
    have a2 : -p.z - s.dz > r.2 ∧ -p.z - s.dz ≥ -kHalfTolerance := ⟨by linarith, h0⟩
    rw [if_neg a1, if_pos a2, if_pos a2.1, if_neg (by norm_num [V3.mag2, V3.dot])]
    exact ⟨rfl, by rw [decide_eq_true_eq]⟩
  | a :: b :: l1', e =>
    obtain ⟨rfl, e2⟩ := List.cons.inj e
    obtain ⟨rfl, e3⟩ := List.cons.inj e2
    have hup := h ⟨⟨0, 0, 1⟩, -s.dz⟩ (by simp)
    have hdn := h ⟨⟨0, 0, -1⟩, -s.dz⟩ (by simp)
    rw [height_up] at hup
    rw [height_dn] at hdn
    have hz : |p.z| - s.dz ≤ pl.height p - kHalfTolerance := by
      rcases abs_cases p.z with ⟨e, _⟩ | ⟨e, _⟩ <;> rw [e] <;> linarith
    have e3 : s.planes = l1' ++ pl :: l2 := e3
    have hun : pl.n.mag2 = 1 := hu pl (by rw [e3]; simp)
    rw [e3, PlaneShell.normal_one (by linarith) fun pl' hpl => h pl' (by
      rw [List.mem_append] at hpl; simp only [List.cons_append, List.mem_cons, List.mem_append]; tauto)]
    dsimp only
    have a1 : ¬ (|(|p.z| - s.dz) - pl.height p| < kHalfTolerance ∧ |p.z| - s.dz ≥ -kHalfTolerance) := by
      rintro ⟨h, _⟩; have := (abs_lt.mp h).1; linarith
    have a2 : ¬ (|p.z| - s.dz > pl.height p ∧ |p.z| - s.dz ≥ -kHalfTolerance) := by rintro ⟨h, _⟩; linarith
    have a3 : ¬ |p.z| - s.dz > pl.height p := by linarith
    rw [if_neg a1, if_neg a2, if_neg a3, if_neg (by rw [hun]; norm_num)]
    exact ⟨rfl, by rw [decide_eq_true_eq]⟩

/-- C134: at a point of an edge between a base and a side face, away from the other side faces, the normal is the normalised sum of the
two normals, provided that the angle between these is less than 120 degrees; it is valid. -/
theorem C134_edge (hu : UnitNormals s) {p : V3} {l1 l2 : List Plane} {pl : Plane} (e : s.planes = l1 ++ pl :: l2) (h0 : pl.height p = 0)
    (h : ∀ pl' ∈ l1 ++ l2, pl'.height p ≤ -kHalfTolerance) (hdz : 0 < s.dz) {σ : ℝ} (hσ : σ = 1 ∨ σ = -1) (hz : p.z = σ * s.dz)
    (hn : -(1 / 2) < σ * pl.n.z) :
    normalKernel s p = (normalize (pl.n + ⟨0, 0, σ⟩), true) := by
  classical
  have ht := kHalfTolerance_pos
  have hinf := kInfLength_large
  unfold normalKernel
  dsimp only
  rw [sign_mul_self]
  have habs : |p.z| = s.dz := by
    rw [hz, abs_mul, abs_of_pos hdz]
    rcases hσ with rfl | rfl <;> norm_num
  have hs : sign p.z = σ := by
    rw [hz]; unfold sign
    rcases hσ with rfl | rfl
    · rw [if_neg (by linarith)]
    · rw [if_pos (by linarith)]
  have hun : pl.n.mag2 = 1 := hu pl (by rw [e]; simp)
  rw [e, PlaneShell.normal_one (by linarith) fun pl' hpl => by have := h pl' hpl; linarith, habs, hs, h0]
  dsimp only
  have a1 : |s.dz - s.dz - 0| < kHalfTolerance ∧ s.dz - s.dz ≥ -kHalfTolerance := by
    constructor
    · rw [sub_self, sub_zero, abs_zero]; exact ht
    · linarith
  have a2 : ¬ (s.dz - s.dz > 0 ∧ s.dz - s.dz ≥ -kHalfTolerance) := by rintro ⟨h, _⟩; linarith
  have a3 : ¬ s.dz - s.dz > 0 := by linarith
  have hm : (pl.n + ⟨0, 0, σ⟩ : V3).mag2 = 2 + 2 * (σ * pl.n.z) := by
    have : σ * σ = 1 := by rcases hσ with rfl | rfl <;> norm_num
    simp only [V3.mag2, V3.dot] at hun
    simp only [V3.mag2, V3.dot, V3.add_x, V3.add_y, V3.add_z]
    linear_combination hun + this
  rw [if_pos a1, if_neg a2, if_neg a3, if_pos (by rw [hm]; linarith)]
  congr 1
  rw [decide_eq_true_eq, abs_zero]
  norm_num [kTolerance]

/-! ## A box, and a leaning box, with known planes -/

theorem makeAPlane_known {p1 p2 p3 p4 m : V3} {k d : ℝ} (hm : rawN p1 p2 p3 p4 = m) (hk : 0 < k) (h2 : m.mag2 = k ^ 2)
    (hd : -(V3.smul (1 / k) m).dot (V3.smul 0.25 (p1 + p2 + p3 + p4)) = d) : makeAPlane p1 p2 p3 p4 = ⟨V3.smul (1 / k) m, d⟩ := by
  have e : m.mag = k := by unfold V3.mag; rw [h2, Real.sqrt_sq hk.le]
  unfold makeAPlane normalize
  unfold rawN at hm
  rw [hm, e]
  simp only [hd]

/-- The box with half lengths one. -/
noncomputable def unitBox : State := createBox mem 1 1 1

theorem unitBox_shape : shape unitBox = ⟨1, 0, 0, 1, 1, 1, 0, 1, 1, 1, 0⟩ := (C130_shape mem 1 0 0 1 1 1 0 1 1 1 0 0).2.2.2.2.1

theorem unitBox_fresh : Fresh unitBox := rfl
theorem unitBox_proper : Proper (shape unitBox) := by rw [unitBox_shape]; norm_num [Proper]
theorem unitBox_flat : Flat (shape unitBox) := by rw [unitBox_shape]; norm_num [Flat]

theorem unitBox_planes : unitBox.planes =
    [⟨⟨0, -1, 0⟩, -1⟩, ⟨⟨0, 1, 0⟩, -1⟩, ⟨⟨-1, 0, 0⟩, -1⟩, ⟨⟨1, 0, 0⟩, -1⟩] := by
  rw [fresh_planes unitBox_fresh, unitBox_shape]
  simp only [Shape.planes, Shape.p0, Shape.p1, Shape.p2, Shape.p3]
  rw [makeAPlane_known (m := ⟨0, -8, 0⟩) (k := 8) (d := -1), makeAPlane_known (m := ⟨0, 8, 0⟩) (k := 8) (d := -1),
    makeAPlane_known (m := ⟨-8, 0, 0⟩) (k := 8) (d := -1), makeAPlane_known (m := ⟨8, 0, 0⟩) (k := 8) (d := -1)]
  · norm_num [V3.smul]
  all_goals
    norm_num [rawN, V3.cross, V3.dot, V3.smul, V3.mag2, Shape.corners, Shape.point, Shape.mx, Shape.my, Shape.hx, Shape.hy, mix]

/-- C134: a point a ten-millionth below the upper base of a box gets the normal of the face at `-Y`, which is a whole unit
away, and the answer is called valid. -/
theorem C134_normal_counterexample : normalKernel unitBox ⟨0, 0, 1 - 1 / 10 ^ 7⟩ = (⟨0, -1, 0⟩, true) := by
  classical
  have hinf := kInfLength_large
  have hz : unitBox.dz = 1 := rfl
  have hs : sign ((1 : ℝ) - 1 / 10 ^ 7) = 1 := by unfold sign; norm_num
  have k : PlaneShell.normalKernel unitBox.planes ⟨0, 0, 1 - 1 / 10 ^ 7⟩ ⟨0, 0, 0⟩ = (⟨0, -1, 0⟩, -1) := by
    rw [unitBox_planes]
    simp only [PlaneShell.normalKernel, List.foldl]
    rw [PlaneShell.step_up (s := (_, -kInfLength)) (by norm_num [Plane.height, V3.dot]; linarith),
      PlaneShell.step_stay (pl := ⟨⟨0, 1, 0⟩, -1⟩), PlaneShell.step_stay (pl := ⟨⟨-1, 0, 0⟩, -1⟩),
      PlaneShell.step_stay (pl := ⟨⟨1, 0, 0⟩, -1⟩)]
    · norm_num [Plane.height, V3.dot]
    all_goals norm_num [Plane.height, V3.dot, kHalfTolerance, kTolerance]
  unfold normalKernel
  rw [k]
  simp only [hz, hs]
  norm_num [kHalfTolerance, kTolerance, V3.mag2, V3.dot]

/-- A leaning box: `y` edges along `(-4/3, 1)`. -/
noncomputable def leaning : State := create mem 1 0 0 1 1 1 (Real.arctan (-4 / 3)) 1 1 1 (Real.arctan (-4 / 3))

theorem leaning_shape : shape leaning = ⟨1, 0, 0, 1, 1, 1, -4 / 3, 1, 1, 1, -4 / 3⟩ := by
  unfold leaning
  rw [(C130_shape mem _ _ _ _ _ _ _ _ _ _ _ 0).1]
  simp only [shapeOf, Real.tan_arctan, Real.tan_zero, zero_mul]

theorem leaning_planes : leaning.planes =
    [⟨⟨0, -1, 0⟩, -1⟩, ⟨⟨0, 1, 0⟩, -1⟩, ⟨⟨-3 / 5, -4 / 5, 0⟩, -3 / 5⟩, ⟨⟨3 / 5, 4 / 5, 0⟩, -3 / 5⟩] := by
  rw [fresh_planes (s := leaning) rfl, leaning_shape]
  simp only [Shape.planes, Shape.p0, Shape.p1, Shape.p2, Shape.p3]
  rw [makeAPlane_known (m := ⟨0, -8, 0⟩) (k := 8) (d := -1), makeAPlane_known (m := ⟨0, 8, 0⟩) (k := 8) (d := -1),
    makeAPlane_known (m := ⟨-8, -32 / 3, 0⟩) (k := 40 / 3) (d := -3 / 5),
    makeAPlane_known (m := ⟨8, 32 / 3, 0⟩) (k := 40 / 3) (d := -3 / 5)]
  · norm_num [V3.smul]
  all_goals
    norm_num [rawN, V3.cross, V3.dot, V3.smul, V3.mag2, Shape.corners, Shape.point, Shape.mx, Shape.my, Shape.hx, Shape.hy, mix]

/-- C134: on an edge where two faces meet at a sharp angle the sum of their normals is shorter than one, and is not
normalised. -/
theorem C134_length_counterexample :
    normalKernel leaning ⟨7 / 3, -1, 0⟩ = (⟨3 / 5, -1 / 5, 0⟩, true) ∧ (⟨3 / 5, -1 / 5, 0⟩ : V3).mag2 ≠ 1 := by
  classical
  have hinf := kInfLength_large
  have hz : leaning.dz = 1 := rfl
  have hs : sign (0 : ℝ) = 1 := by unfold sign; norm_num
  have k : PlaneShell.normalKernel leaning.planes ⟨7 / 3, -1, 0⟩ ⟨0, 0, 0⟩ = (⟨3 / 5, -1 / 5, 0⟩, 0) := by
    rw [leaning_planes]
    simp only [PlaneShell.normalKernel, List.foldl]
    rw [PlaneShell.step_up (s := (_, -kInfLength)) (by norm_num [Plane.height, V3.dot]; linarith),
      PlaneShell.step_stay (pl := ⟨⟨0, 1, 0⟩, -1⟩), PlaneShell.step_stay (pl := ⟨⟨-3 / 5, -4 / 5, 0⟩, -3 / 5⟩), PlaneShell.step_add]
    · ext <;> norm_num [Plane.height, V3.dot]
    all_goals norm_num [Plane.height, V3.dot, kHalfTolerance, kTolerance]
  constructor
  · unfold normalKernel
    rw [k]
    simp only [hz, hs]
    norm_num [kHalfTolerance, kTolerance, V3.mag2, V3.dot]
  · norm_num [V3.mag2, V3.dot]

/-- A point on the `+X` face of the box, away from the other faces. -/
example : sides unitBox.dz unitBox.planes = [⟨⟨0, 0, 1⟩, -1⟩, ⟨⟨0, 0, -1⟩, -1⟩, ⟨⟨0, -1, 0⟩, -1⟩, ⟨⟨0, 1, 0⟩, -1⟩, ⟨⟨-1, 0, 0⟩, -1⟩] ++ ⟨⟨1, 0, 0⟩, -1⟩ :: [] ∧
    (∀ pl' ∈ [⟨⟨0, 0, 1⟩, -1⟩, ⟨⟨0, 0, -1⟩, -1⟩, ⟨⟨0, -1, 0⟩, -1⟩, ⟨⟨0, 1, 0⟩, -1⟩, (⟨⟨-1, 0, 0⟩, -1⟩ : Plane)] ++ [],
      pl'.height ⟨1, 1 / 2, 0⟩ ≤ Plane.height ⟨⟨1, 0, 0⟩, -1⟩ ⟨1, 1 / 2, 0⟩ - kHalfTolerance) := by
  rw [unitBox_planes]
  constructor
  · rfl
  · norm_num [Plane.height, V3.dot, kHalfTolerance, kTolerance]

/-- The middle of the upper edge at `+X` meets the hypotheses of `C134_edge`. -/
example : unitBox.planes = [⟨⟨0, -1, 0⟩, -1⟩, ⟨⟨0, 1, 0⟩, -1⟩, ⟨⟨-1, 0, 0⟩, -1⟩] ++ ⟨⟨1, 0, 0⟩, -1⟩ :: [] ∧
    (⟨⟨1, 0, 0⟩, -1⟩ : Plane).height ⟨1, 0, 1⟩ = 0 ∧
    (∀ pl' ∈ ([⟨⟨0, -1, 0⟩, -1⟩, ⟨⟨0, 1, 0⟩, -1⟩, ⟨⟨-1, 0, 0⟩, -1⟩] ++ [] : List Plane), pl'.height ⟨1, 0, 1⟩ ≤ -kHalfTolerance) ∧
    (1 : ℝ) = 1 * unitBox.dz := by
  refine ⟨by rw [unitBox_planes]; rfl, by norm_num [Plane.height, V3.dot], ?_, by rw [show unitBox.dz = 1 from rfl]; norm_num⟩
  simp only [List.append_nil, List.mem_cons, List.not_mem_nil, or_false]
  rintro pl (rfl | rfl | rfl) <;> norm_num [Plane.height, V3.dot, kHalfTolerance, kTolerance]

/-- A ray towards the box: it is told that it enters, no side runs along it closely. -/
example : distanceToIn unitBox ⟨0, 0, -5⟩ ⟨0, 0, 1⟩ ≤ 9 / 2 ∧
    ∀ pl ∈ unitBox.planes, pl.n.dot ⟨0, 0, 1⟩ = 0 → -kHalfTolerance < pl.height ⟨0, 0, -5⟩ → 0 ≤ pl.height ⟨0, 0, -5⟩ := by
  have hz : unitBox.dz = 1 := rfl
  constructor
  · apply C129_entry_found _ _ (by norm_num)
    rw [sides_all, unitBox_planes, hz]
    norm_num [Plane.height, V3.dot, V3.at_x, V3.at_y, V3.at_z, kHalfTolerance, kTolerance, kTiny]
  · rw [unitBox_planes]
    norm_num [Plane.height, V3.dot, kHalfTolerance, kTolerance]

/-- The origin is in the box. -/
example : Below (sides unitBox.dz unitBox.planes) ⟨0, 0, 0⟩ := by
  have hz : unitBox.dz = 1 := rfl
  rw [below_iff, unitBox_planes, hz]
  norm_num [Plane.height, V3.dot]

/-! ## Further findings -/

/-- C129: a ray that runs along a side plane, below it by less than half the tolerance, is told that it never enters, although
it does. -/
theorem C129_glide_counterexample :
    distanceToIn unitBox ⟨1 - 1 / 10 ^ 10, 0, -5⟩ ⟨0, 0, 1⟩ = kInfLength ∧
    (∀ u, 4 ≤ u → u ≤ 6 → contains unitBox (V3.at' ⟨1 - 1 / 10 ^ 10, 0, -5⟩ ⟨0, 0, 1⟩ u) = true) := by
  classical
  constructor
  · have hz : unitBox.dz = 1 := rfl
    have hs : sign (1 : ℝ) = 1 := by unfold sign; norm_num
    have hn : nonZero 1 = 1 + kTiny := by unfold nonZero copySign; norm_num
    have hn0 : nonZero 0 = kTiny := by unfold nonZero copySign; norm_num
    unfold distanceToIn
    dsimp only
    rw [hz, hs, hn, if_neg (by norm_num [kHalfTolerance, kTolerance])]
    unfold PlaneShell.distanceToIn
    rw [unitBox_planes]
    split
    · rfl
    · simp only [PlaneShell.inLoop, PlaneShell.dist, PlaneShell.proj, PlaneShell.vdist, V3.dot]
      norm_num [hn0, kHalfTolerance, kTolerance, kTiny]
  · intro u h1 h2
    rw [C127_contains, below_iff, unitBox_planes]
    simp only [List.mem_cons, forall_eq_or_imp, List.not_mem_nil, false_imp_iff, implies_true, and_true, Plane.height, V3.dot,
      V3.at_x, V3.at_y, V3.at_z]
    have hz : unitBox.dz = 1 := rfl
    rw [hz, abs_le]
    norm_num
    constructor <;> linarith

/-- C130: the setters of the lengths leave the planes as they were: the box whose four `x` lengths were set to five still ends
at one. -/
theorem C130_setters_counterexample :
    let b := setDx4 (setDx3 (setDx2 (setDx1 unitBox 5) 5) 5) 5
    Solid (shape b) ⟨3, 0, 0⟩ ∧ contains b ⟨3, 0, 0⟩ = false ∧ ¬ Fresh b := by
  dsimp only
  generalize hb : setDx4 (setDx3 (setDx2 (setDx1 unitBox 5) 5) 5) 5 = b
  have e : shape b = ⟨1, 0, 0, 1, 5, 5, 0, 1, 5, 5, 0⟩ := by
    have : shape b = { shape unitBox with x1 := 5, x2 := 5, x3 := 5, x4 := 5 } := by rw [← hb]; rfl
    rw [this, unitBox_shape]
  have h1 : Solid (shape b) ⟨3, 0, 0⟩ := by
    rw [e]
    refine ⟨4 / 5, 1 / 2, 1 / 2, ?_, ?_, ?_, ?_⟩ <;>
      norm_num [Unit, Shape.point, Shape.mx, Shape.my, Shape.hx, Shape.hy, mix]
  have h2 : contains b ⟨3, 0, 0⟩ = false := by
    have e2 : contains b ⟨3, 0, 0⟩ = contains unitBox ⟨3, 0, 0⟩ := by rw [← hb]; rfl
    rw [e2, ← Bool.not_eq_true, C127_contains, below_iff, unitBox_planes]
    norm_num [Plane.height, V3.dot]
  refine ⟨h1, h2, fun hf => ?_⟩
  have := (C130_contains hf (by rw [e]; norm_num [Proper]) (by rw [e]; norm_num [Flat]) _).mpr h1
  rw [h2] at this
  exact absurd this (by decide)

/-- C130: for parameters whose `X` faces are not flat, the solid leaves out at least one of its own corners. -/
theorem C130_twisted (h : Fresh s) (hp : Proper (shape s)) (hf : ¬ Flat (shape s)) :
    ∃ c ∈ (shape s).corners.list, contains s c = false := by
  by_contra hn
  push Not at hn
  apply hf
  have hl := fresh_planes h
  have k : ∀ c ∈ (shape s).corners.list, ∀ pl ∈ (shape s).planes, pl.height c ≤ 0 := by
    intro c hc pl hpl
    have := hn c hc
    rw [Ne, Bool.not_eq_false, C127_contains, below_iff, hl] at this
    exact this.2 pl hpl
  generalize shape s = S at *
  have n2 := mag_pos (m2_pos hp)
  have n3 := mag_pos (m3_pos hp)
  have h0 := hp.1
  have q2 : ∀ c ∈ S.corners.list, raw S.corners.c0 S.corners.c4 S.corners.c6 S.corners.c2 c ≤ 0 := by
    intro c hc
    have := k c hc S.p2 (by simp [Shape.planes])
    unfold Shape.p2 at this
    rw [makeAPlane_height] at this
    have e : (rawN S.corners.c0 S.corners.c4 S.corners.c6 S.corners.c2).mag = S.m2.mag := rfl
    rw [e, div_le_iff₀ n2, zero_mul] at this
    exact this
  have q3 : ∀ c ∈ S.corners.list, raw S.corners.c1 S.corners.c3 S.corners.c7 S.corners.c5 c ≤ 0 := by
    intro c hc
    have := k c hc S.p3 (by simp [Shape.planes])
    unfold Shape.p3 at this
    rw [makeAPlane_height] at this
    have e : (rawN S.corners.c1 S.corners.c3 S.corners.c7 S.corners.c5).mag = S.m3.mag := rfl
    rw [e, div_le_iff₀ n3, zero_mul] at this
    exact this
  have a1 := q2 S.corners.c0 (by simp [Corners.list])
  have a2 := q2 S.corners.c2 (by simp [Corners.list])
  have b1 := q3 S.corners.c1 (by simp [Corners.list])
  have b2 := q3 S.corners.c3 (by simp [Corners.list])
  have e1 : raw S.corners.c0 S.corners.c4 S.corners.c6 S.corners.c2 S.corners.c0 =
      2 * S.z * ((2 * S.a1 * S.y1 + S.x1 - S.x2) * S.y2 - (2 * S.a2 * S.y2 + S.x3 - S.x4) * S.y1) := by
    simp only [raw, rawN, Shape.corners, Shape.point, Shape.mx, Shape.my, Shape.hx, Shape.hy, mix, V3.cross, V3.sub_x,
      V3.sub_y, V3.sub_z, V3.dot, V3.smul, V3.add_x, V3.add_y, V3.add_z]
    ring
  have e2 : raw S.corners.c0 S.corners.c4 S.corners.c6 S.corners.c2 S.corners.c2 =
      -(2 * S.z * ((2 * S.a1 * S.y1 + S.x1 - S.x2) * S.y2 - (2 * S.a2 * S.y2 + S.x3 - S.x4) * S.y1)) := by
    simp only [raw, rawN, Shape.corners, Shape.point, Shape.mx, Shape.my, Shape.hx, Shape.hy, mix, V3.cross, V3.sub_x,
      V3.sub_y, V3.sub_z, V3.dot, V3.smul, V3.add_x, V3.add_y, V3.add_z]
    ring
  have e3 : raw S.corners.c1 S.corners.c3 S.corners.c7 S.corners.c5 S.corners.c1 =
      -(2 * S.z * ((2 * S.a1 * S.y1 - S.x1 + S.x2) * S.y2 - (2 * S.a2 * S.y2 - S.x3 + S.x4) * S.y1)) := by
    simp only [raw, rawN, Shape.corners, Shape.point, Shape.mx, Shape.my, Shape.hx, Shape.hy, mix, V3.cross, V3.sub_x,
      V3.sub_y, V3.sub_z, V3.dot, V3.smul, V3.add_x, V3.add_y, V3.add_z]
    ring
  have e4 : raw S.corners.c1 S.corners.c3 S.corners.c7 S.corners.c5 S.corners.c3 =
      2 * S.z * ((2 * S.a1 * S.y1 - S.x1 + S.x2) * S.y2 - (2 * S.a2 * S.y2 - S.x3 + S.x4) * S.y1) := by
    simp only [raw, rawN, Shape.corners, Shape.point, Shape.mx, Shape.my, Shape.hx, Shape.hy, mix, V3.cross, V3.sub_x,
      V3.sub_y, V3.sub_z, V3.dot, V3.smul, V3.add_x, V3.add_y, V3.add_z]
    ring
  rw [e1] at a1
  rw [e2] at a2
  rw [e3] at b1
  rw [e4] at b2
  unfold Flat
  constructor
  · generalize (2 * S.a1 * S.y1 + S.x1 - S.x2) * S.y2 = u at *
    generalize (2 * S.a2 * S.y2 + S.x3 - S.x4) * S.y1 = v at *
    have : 2 * S.z * (u - v) = 0 := by linarith
    rcases mul_eq_zero.mp this with h | h <;> linarith
  · generalize (2 * S.a1 * S.y1 - S.x1 + S.x2) * S.y2 = u at *
    generalize (2 * S.a2 * S.y2 - S.x3 + S.x4) * S.y1 = v at *
    have : 2 * S.z * (u - v) = 0 := by linarith
    rcases mul_eq_zero.mp this with h | h <;> linarith

/-- A trapezoid that the constructor accepts: the `-X` face is twisted, the `+X` face is flat. -/
noncomputable def twisted : State := create mem 1 0 0 1 1 2 (Real.arctan (-1 / 2)) 1 1 1 0

theorem twisted_shape : shape twisted = ⟨1, 0, 0, 1, 1, 2, -1 / 2, 1, 1, 1, 0⟩ := by
  unfold twisted
  rw [(C130_shape mem _ _ _ _ _ _ _ _ _ _ _ 0).1]
  simp only [shapeOf, Real.tan_arctan, Real.tan_zero, zero_mul]

example : Fresh twisted ∧ Proper (shape twisted) ∧ ¬ Flat (shape twisted) := by
  refine ⟨rfl, ?_, ?_⟩ <;> rw [twisted_shape] <;> norm_num [Proper, Flat]

/-- C130: the test for flat faces reports only the last face: it accepts corners whose `-X` face fails it. -/
theorem C130_coplanarity_counterexample :
    let pt := fromParametersToCorners twisted
    planeGood pt.c0 pt.c4 pt.c6 pt.c2 = false ∧ makePlanesGood pt = true := by
  classical
  dsimp only
  rw [corners_eq, twisted_shape]
  generalize hS : (⟨1, 0, 0, 1, 1, 2, -1 / 2, 1, 1, 1, 0⟩ : Shape) = S
  constructor
  · unfold planeGood
    dsimp only
    rw [Bool.not_eq_false', decide_eq_true_eq]
    refine lt_of_lt_of_le ?_ ((le_max_left _ _).trans (le_max_left _ _))
    have em : V3.cross (S.corners.c6 - S.corners.c0) (S.corners.c2 - S.corners.c4) = ⟨-8, -4, 2⟩ := by
      rw [← hS]
      ext <;> norm_num [V3.cross, Shape.corners, Shape.point, Shape.mx, Shape.my, Shape.hx, Shape.hy, mix]
    rw [em]
    have hm : (⟨-8, -4, 2⟩ : V3).mag2 = 84 := by norm_num [V3.mag2, V3.dot]
    have h1 : 0 < (⟨-8, -4, 2⟩ : V3).mag := mag_pos (by rw [hm]; norm_num)
    have h2 : (⟨-8, -4, 2⟩ : V3).mag ≤ 10 := by
      unfold V3.mag
      rw [hm, Real.sqrt_le_left (by norm_num)]; norm_num
    have e : (normalize ⟨-8, -4, 2⟩).dot (S.corners.c0 - V3.smul 0.25 (S.corners.c0 + S.corners.c4 + S.corners.c6 + S.corners.c2)) =
        -4 / (⟨-8, -4, 2⟩ : V3).mag := by
      rw [← hS]
      simp only [normalize, V3.dot, V3.smul, V3.sub_x, V3.sub_y, V3.sub_z, V3.add_x, V3.add_y, V3.add_z, Shape.corners, Shape.point,
        Shape.mx, Shape.my, Shape.hx, Shape.hy, mix]
      ring
    rw [e, abs_div, abs_of_pos h1, lt_div_iff₀ h1]
    norm_num [kTolerance]
    linarith
  · have hf2 : (2 * S.a1 * S.y1 - S.x1 + S.x2) * S.y2 = (2 * S.a2 * S.y2 - S.x3 + S.x4) * S.y1 := by rw [← hS]; norm_num
    have z : ∀ v t : ℝ, (normalize (V3.cross (S.corners.c7 - S.corners.c1) (S.corners.c5 - S.corners.c3))).dot
        (S.point 1 v t - V3.smul 0.25 (S.corners.c1 + S.corners.c3 + S.corners.c7 + S.corners.c5)) = 0 := by
      intro v t
      generalize hk : 1 / (V3.cross (S.corners.c7 - S.corners.c1) (S.corners.c5 - S.corners.c3)).mag = k
      unfold normalize
      rw [hk]
      simp only [Shape.corners, Shape.point, Shape.mx, Shape.my, Shape.hx, Shape.hy, mix, V3.cross, V3.sub_x,
        V3.sub_y, V3.sub_z, V3.dot, V3.smul, V3.add_x, V3.add_y, V3.add_z]
      linear_combination k * (-2 * S.z * (1 - 2 * v) * (1 - 2 * t)) * hf2
    have z1 := z 0 0
    have z2 := z 1 0
    have z3 := z 1 1
    have z4 := z 0 1
    unfold makePlanesGood planeGood
    dsimp only
    have c1 : S.corners.c1 = S.point 1 0 0 := rfl
    have c3 : S.corners.c3 = S.point 1 1 0 := rfl
    have c7 : S.corners.c7 = S.point 1 1 1 := rfl
    have c5 : S.corners.c5 = S.point 1 0 1 := rfl
    rw [c1, c3, c7, c5] at z1 z2 z3 z4 ⊢
    rw [z1, z2, z3, z4]
    norm_num [kTolerance]

end Trapezoid
end VecGeom

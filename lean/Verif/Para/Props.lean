import Verif.Para.Lemmas

/-!
# C66: the kernels of the parallelepiped
-/

namespace VecGeom
namespace Para

/-- The states that constructors and setters produce. -/
def Reachable (s : State) : Prop :=
  ∃ (m : State) (h : V3) (alpha theta phi : ℝ) (l : List Setter), s = (l.foldl set (create m h alpha theta phi)).para

/-- The parallelepiped that the parameters of the struct describe. -/
noncomputable def shape (s : State) : Shape := Shape.ofAngles s.dims s.alpha s.theta s.phi

theorem computeNormals_rep (s : State) (h1 : s.tanAlpha = Real.tan s.alpha)
    (h2 : s.tanThetaCosPhi = Real.tan s.theta * Real.cos s.phi)
    (h3 : s.tanThetaSinPhi = Real.tan s.theta * Real.sin s.phi) : Rep (computeNormals s) (shape (computeNormals s)) := by
  have e0 : V3.cross ⟨s.tanAlpha, 1, 0⟩ ⟨s.tanThetaCosPhi, s.tanThetaSinPhi, 1⟩ =
      ⟨1, -(shape s).ta, (shape s).ta * (shape s).ts - (shape s).tc⟩ := by
    rw [h1, h2, h3]
    ext <;> simp [V3.cross, shape, Shape.ofAngles]
  have e1 : V3.cross ⟨s.tanThetaCosPhi, s.tanThetaSinPhi, 1⟩ ⟨1, 0, 0⟩ = ⟨0, 1, -(shape s).ts⟩ := by
    rw [h2, h3]
    ext <;> simp [V3.cross, shape, Shape.ofAngles]
  have p0 := one_div_pos.mpr (mag_pos (raw0_pos (shape s)))
  have p1 := one_div_pos.mpr (mag_pos (raw1_pos (shape s)))
  have es : shape (computeNormals s) = shape s := rfl
  rw [es]
  refine ⟨rfl, h1, h2, h3, ?_, ?_, rfl, ?_, ?_⟩
  · show normalize _ = _; rw [e0]
  · show normalize _ = _; rw [e1]
  · show |(normalize _).x| = (normalize _).x
    rw [e0, abs_of_pos]
    simpa [normalize] using p0
  · show |(normalize _).y| = (normalize _).y
    rw [e1, abs_of_pos]
    simpa [normalize] using p1

/-- The invariant of constructors and setters. -/
theorem set_rep {s : Solid} (h : Rep s.para (shape s.para)) (a : Setter) : Rep (set s a).para (shape (set s a).para) := by
  obtain ⟨h1, h2, h3, h4, h5, h6, h7, h8, h9⟩ := h
  cases a with
  | dims d => exact ⟨rfl, h2, h3, h4, h5, h6, h7, h8, h9⟩
  | alpha a => exact computeNormals_rep _ rfl h3 h4
  | theta a => exact computeNormals_rep _ h2 rfl rfl
  | phi a => exact computeNormals_rep _ h2 rfl rfl
  | thetaAndPhi t p => exact computeNormals_rep _ h2 rfl rfl

theorem Reachable.rep {s : State} (hs : Reachable s) : Rep s (shape s) := by
  obtain ⟨m, h, alpha, theta, phi, l, rfl⟩ := hs
  have key : ∀ (l : List Setter) (s : Solid), Rep s.para (shape s.para) →
      Rep (l.foldl set s).para (shape (l.foldl set s).para) := by
    intro l
    induction l with
    | nil => intro s h; exact h
    | cons a l ih => intro s h; exact ih _ (set_rep h a)
  exact key l _ (computeNormals_rep _ rfl rfl rfl)

/-- The parallelepiped used in the examples: half lengths 1, 2, 3 and slopes 1, 1, 0, set in two steps. -/
noncomputable def sample (m : State) : State :=
  ([Setter.dims ⟨1, 2, 3⟩, Setter.theta (Real.pi / 4)].foldl set (create m ⟨5, 5, 5⟩ (Real.pi / 4) 1 0)).para

theorem sample_reachable (m : State) : Reachable (sample m) := ⟨m, _, _, _, _, _, rfl⟩

theorem sample_shape (m : State) : shape (sample m) = ⟨⟨1, 2, 3⟩, 1, 1, 0⟩ := by
  show Shape.ofAngles ⟨1, 2, 3⟩ (Real.pi / 4) (Real.pi / 4) 0 = _
  simp [Shape.ofAngles]

theorem sample_proper (m : State) : Proper (shape (sample m)) := by
  rw [sample_shape]; norm_num [Proper]

/-! ## Membership -/

/-- C66: `Contains` accepts exactly the interior points. -/
theorem C66_contains {s : State} (hs : Reachable s) (p : V3) : contains s p = true ↔ Open (shape s) p := by
  rw [open_slabs hs.rep]; simp [contains]

theorem inside_iff (s : State) (p : V3) :
    inside s p = .inside ↔ (safetyVector s (transform s p)).maxc ≤ -kHalfTolerance := by
  have ht := kHalfTolerance_pos
  unfold inside
  dsimp only
  generalize (safetyVector s (transform s p)).maxc = x
  split
  · rename_i hs
    rw [abs_lt] at hs
    simp only [reduceCtorEq, false_iff, not_le]
    exact hs.1
  · rename_i hs
    rw [abs_lt, not_and_or, not_lt, not_lt] at hs
    split
    · simp only [true_iff]
      rcases hs with hs | hs <;> linarith
    · simp only [reduceCtorEq, false_iff, not_le]
      linarith

theorem outside_iff (s : State) (p : V3) :
    inside s p = .outside ↔ kHalfTolerance ≤ (safetyVector s (transform s p)).maxc := by
  have ht := kHalfTolerance_pos
  unfold inside
  dsimp only
  generalize (safetyVector s (transform s p)).maxc = x
  split
  · rename_i hs
    rw [abs_lt] at hs
    simp only [reduceCtorEq, false_iff, not_le]
    exact hs.2
  · rename_i hs
    rw [abs_lt, not_and_or, not_lt, not_lt] at hs
    split
    · simp only [reduceCtorEq, false_iff, not_le]
      linarith
    · simp only [true_iff]
      rcases hs with hs | hs <;> linarith

/-- All points nearer than the depth below the faces are inside, and the depth cannot be increased. -/
theorem depth_iff {s : State} {S : Shape} (hr : Rep s S) (p : V3) {r : ℝ} (h0 : 0 < r) :
    (safetyVector s (transform s p)).maxc ≤ -r ↔ ∀ q, V3.dist p q < r → Open S q := by
  rw [safetyVector_eq hr, V3.maxc_le]
  dsimp only
  have key : ∀ (n : V3) (w : ℝ), n.mag2 = 1 → (∀ q, V3.dist p q < r → |n.dot q| < w) → |n.dot p| - w ≤ -r := by
    intro n w hn H
    by_contra hc
    push Not at hc
    obtain ⟨q, hq1, hq2⟩ := slab_out hn p (r := max 0 (w - |n.dot p|)) (le_max_left _ _)
    have := H q (by rw [hq2]; exact max_lt h0 (by linarith))
    rw [hq1] at this
    have := le_max_right 0 (w - |n.dot p|)
    linarith
  have hop : ∀ q, Open S q ↔ |s.n0.dot q| < s.ctx * S.h.x ∧ |s.n1.dot q| < s.cty * S.h.y ∧ |s.n2.dot q| < S.h.z := by
    intro q
    rw [open_slabs hr, safetyVector_eq hr, V3.maxc_lt]
    simp only [sub_neg]
  constructor
  · rintro ⟨h1, h2, h3⟩ q hq
    rw [hop]
    have := slab_diff (n0_unit hr) p q
    have := slab_diff (n1_unit hr) p q
    have := slab_diff (n2_unit hr) p q
    exact ⟨by linarith, by linarith, by linarith⟩
  · intro H
    exact ⟨key _ _ (n0_unit hr) fun q hq => ((hop q).mp (H q hq)).1,
      key _ _ (n1_unit hr) fun q hq => ((hop q).mp (H q hq)).2.1,
      key _ _ (n2_unit hr) fun q hq => ((hop q).mp (H q hq)).2.2⟩

/-- The largest component of the safety vector is a lower bound for the distance to the solid. -/
theorem height_le {s : State} {S : Shape} (hr : Rep s S) {p q : V3} (hq : Closed S q) :
    (safetyVector s (transform s p)).maxc ≤ V3.dist p q := by
  rw [closed_slabs hr, safetyVector_eq hr, V3.maxc_le] at hq
  rw [safetyVector_eq hr, V3.maxc_le]
  dsimp only at hq ⊢
  have h1 := slab_diff (n0_unit hr) q p
  have h2 := slab_diff (n1_unit hr) q p
  have h3 := slab_diff (n2_unit hr) q p
  rw [V3.dist_comm' q p] at h1 h2 h3
  exact ⟨by linarith, by linarith, by linarith⟩

/-- C66: a point is classified inside exactly if every point closer than half the tolerance is in the open solid. -/
theorem C66_inside {s : State} (hs : Reachable s) (p : V3) :
    inside s p = .inside ↔ ∀ q, V3.dist p q < kHalfTolerance → Open (shape s) q := by
  rw [inside_iff, depth_iff hs.rep p kHalfTolerance_pos]

/-- C66: points classified outside are at least half the tolerance away from all points of the solid. -/
theorem C66_outside {s : State} (hs : Reachable s) {p : V3} (h : inside s p = .outside) {q : V3}
    (hq : Closed (shape s) q) : kHalfTolerance ≤ V3.dist p q :=
  ((outside_iff s p).mp h).trans (height_le hs.rep hq)

/-- C66: points of the solid are never classified outside, points out of it never inside. -/
theorem C66_never_wrong {s : State} (hs : Reachable s) (p : V3) :
    (Closed (shape s) p → inside s p ≠ .outside) ∧ (¬ Open (shape s) p → inside s p ≠ .inside) := by
  have ht := kHalfTolerance_pos
  refine ⟨fun hc h => ?_, fun hc h => hc ?_⟩
  · rw [outside_iff] at h
    rw [closed_slabs hs.rep] at hc
    linarith
  · rw [inside_iff] at h
    rw [open_slabs hs.rep]
    linarith

example (m : State) : contains (sample m) ⟨7 / 2, 1, 2⟩ = true := by
  rw [C66_contains (sample_reachable m), sample_shape]
  exact ⟨1 / 2, 1, 2, by norm_num [abs_lt], by norm_num [abs_lt], by norm_num [abs_lt], by norm_num [Shape.point]⟩

/-! ## Safeties -/

/-- C66: the safety to enter does not exceed the distance to any point of the solid; it is zero or has at least half the
tolerance, and it is positive exactly for points classified outside. -/
theorem C66_safety_in {s : State} (hs : Reachable s) (p : V3) :
    (∀ q, Closed (shape s) q → safetyToIn s p ≤ V3.dist p q) ∧
    (0 < safetyToIn s p ↔ inside s p = .outside) ∧ (safetyToIn s p < 0 → Open (shape s) p) := by
  have ht := kHalfTolerance_pos
  refine ⟨fun q hq => ?_, ?_, ?_⟩
  · have := height_le hs.rep (p := p) hq
    unfold safetyToIn
    dsimp only
    split
    · exact V3.dist_nonneg' _ _
    · exact this
  · rw [outside_iff]
    unfold safetyToIn
    dsimp only
    generalize (safetyVector s (transform s p)).maxc = x
    split
    · rename_i h
      rw [abs_lt] at h
      constructor
      · intro h'; exact absurd h' (lt_irrefl _)
      · intro h'; linarith
    · rename_i h
      rw [abs_lt, not_and_or, not_lt, not_lt] at h
      constructor
      · intro h'; rcases h with h | h <;> linarith
      · intro h'; linarith
  · rw [open_slabs hs.rep]
    unfold safetyToIn
    dsimp only
    split
    · intro h'; exact absurd h' (lt_irrefl _)
    · exact id

/-- C66: the safety to leave of a point of the solid is not negative and no nearer point is outside; if it is positive,
some boundary point has exactly this distance; if it is zero, some point nearer than half the tolerance is not in the
interior. -/
theorem C66_safety_out {s : State} (hs : Reachable s) {p : V3} (hp : Closed (shape s) p) :
    0 ≤ safetyToOut s p ∧ (∀ q, V3.dist p q ≤ safetyToOut s p → Closed (shape s) q) ∧
    (0 < safetyToOut s p → ∃ q, Boundary (shape s) q ∧ V3.dist p q = safetyToOut s p) ∧
    (safetyToOut s p = 0 → ∃ q, ¬ Open (shape s) q ∧ V3.dist p q < kHalfTolerance) := by
  have ht := kHalfTolerance_pos
  have hr := hs.rep
  have hp' := (closed_slabs hr p).mp hp
  have hcl : ∀ q, V3.dist p q ≤ -(safetyVector s (transform s p)).maxc → Closed (shape s) q := by
    intro q hq
    rw [closed_slabs hr]
    rw [safetyVector_eq hr, V3.maxc_le]
    have h := le_refl (safetyVector s (transform s p)).maxc
    conv at h => lhs; rw [safetyVector_eq hr]
    rw [V3.maxc_le] at h
    dsimp only at h ⊢
    have := slab_diff (n0_unit hr) p q
    have := slab_diff (n1_unit hr) p q
    have := slab_diff (n2_unit hr) p q
    exact ⟨by linarith [h.1], by linarith [h.2.1], by linarith [h.2.2]⟩
  have hfoot : ∃ q, V3.dist p q = -(safetyVector s (transform s p)).maxc ∧ ¬ Open (shape s) q := by
    have key : ∀ (n : V3) (w : ℝ), n.mag2 = 1 → |n.dot p| - w = (safetyVector s (transform s p)).maxc →
        (∀ q, Open (shape s) q → |n.dot q| < w) →
        ∃ q, V3.dist p q = -(safetyVector s (transform s p)).maxc ∧ ¬ Open (shape s) q := by
      intro n w hn he H
      obtain ⟨q, h1, h2⟩ := slab_out hn p (r := -(safetyVector s (transform s p)).maxc) (by linarith)
      exact ⟨q, h2, fun ho => by linarith [H q ho]⟩
    have hop : ∀ q, Open (shape s) q →
        |s.n0.dot q| < s.ctx * (shape s).h.x ∧ |s.n1.dot q| < s.cty * (shape s).h.y ∧ |s.n2.dot q| < (shape s).h.z := by
      intro q hq
      rw [open_slabs hr, safetyVector_eq hr, V3.maxc_lt] at hq
      simpa only [sub_neg] using hq
    have e := safetyVector_eq hr p
    rcases V3.maxc_cases (safetyVector s (transform s p)) with h | h | h
    · exact key _ (s.ctx * (shape s).h.x) (n0_unit hr) (by rw [h, e]) fun q hq => (hop q hq).1
    · exact key _ (s.cty * (shape s).h.y) (n1_unit hr) (by rw [h, e]) fun q hq => (hop q hq).2.1
    · exact key _ (shape s).h.z (n2_unit hr) (by rw [h, e]) fun q hq => (hop q hq).2.2
  obtain ⟨f, hf1, hf2⟩ := hfoot
  unfold safetyToOut
  dsimp only
  split
  · rename_i h
    rw [abs_lt] at h
    refine ⟨le_rfl, fun q hq => hcl q (by linarith), fun h' => absurd h' (lt_irrefl _), fun _ => ⟨f, hf2, by linarith⟩⟩
  · rename_i h
    rw [abs_lt, not_and_or, not_lt, not_lt] at h
    refine ⟨by linarith, hcl, fun _ => ⟨f, ⟨hcl f hf1.le, hf2⟩, hf1⟩, fun h' => ?_⟩
    rcases h with h | h <;> linarith

/-- C66: the two safeties are opposite. -/
theorem C66_safeties_opposite (s : State) (p : V3) : safetyToOut s p = -safetyToIn s p := by
  unfold safetyToOut safetyToIn
  dsimp only
  rw [abs_neg]
  split <;> simp

/-! ## Distances -/

/-- C66: the direction followed differs from the given one by tiny amounts. -/
theorem C66_followed (S : Shape) (d : V3) : ∃ d', Followed S d d' ∧
    |d'.x - d.x| ≤ (1 + |S.ta| + |S.tc|) * kTiny ∧ |d'.y - d.y| ≤ (1 + |S.ts|) * kTiny ∧ |d'.z - d.z| ≤ kTiny := by
  have hk := kTiny_pos
  refine ⟨_, ⟨d.x - (d.y - d.z * S.ts) * S.ta - d.z * S.tc, d.y - d.z * S.ts, d.z, ?_, rfl⟩, ?_⟩
  · unfold Shape.point; ext <;> dsimp only <;> ring
  · generalize ha : d.x - (d.y - d.z * S.ts) * S.ta - d.z * S.tc = a
    generalize hb : d.y - d.z * S.ts = b
    have h1 := abs_nonZero_sub a
    have h2 := abs_nonZero_sub b
    have h3 := abs_nonZero_sub d.z
    simp only [Shape.point]
    refine ⟨?_, ?_, h3.le⟩
    · have e : nonZero a + nonZero b * S.ta + nonZero d.z * S.tc - d.x =
          (nonZero a - a) + (nonZero b - b) * S.ta + (nonZero d.z - d.z) * S.tc := by
        rw [← ha, ← hb]; ring
      rw [e]
      refine (abs_add_le _ _).trans ?_
      have := abs_add_le (nonZero a - a) ((nonZero b - b) * S.ta)
      rw [abs_mul, h2] at this
      rw [abs_mul, h3]
      linarith
    · have e : nonZero b + nonZero d.z * S.ts - d.y = (nonZero b - b) + (nonZero d.z - d.z) * S.ts := by
        rw [← hb]; ring
      rw [e]
      refine (abs_add_le _ _).trans ?_
      rw [abs_mul, h2, h3]
      linarith

/-- C66: a finite distance to enter is the first parameter at which the ray is in the solid; the point is on the boundary
and followed by a stretch of interior points longer than half the tolerance; for points out of the solid the distance
is positive. -/
theorem C66_distance_in {s : State} (hs : Reachable s) (hp : Proper (shape s)) {p d d' : V3}
    (hd : Followed (shape s) d d') (hfin : distanceToIn s p d < kInfLength) :
    Boundary (shape s) (V3.at' p d' (distanceToIn s p d)) ∧
    (∀ t, Closed (shape s) (V3.at' p d' t) → distanceToIn s p d ≤ t) ∧
    (∃ e, distanceToIn s p d + kHalfTolerance < e ∧
      ∀ t, distanceToIn s p d < t → t < e → Open (shape s) (V3.at' p d' t)) ∧
    (¬ Closed (shape s) p → 0 < distanceToIn s p d) := by
  have hr := hs.rep
  have htol := kHalfTolerance_pos
  rw [followed_eq hr hd]
  rw [distanceToIn_eq hr] at hfin ⊢
  split at hfin
  swap
  · exact absurd hfin (lt_irrefl _)
  rename_i hc
  rw [if_pos hc]
  obtain ⟨hl, hlt⟩ := hc
  refine ⟨?_, ?_, ⟨_, hlt, ?_⟩, ?_⟩
  · apply boundary_of hr
    rw [transform_ray hr]
    exact BoxSolid.boundary_in hp (by linarith)
  · intro t ht
    rw [closed_iff hr, transform_ray hr] at ht
    exact ((BoxSolid.closed_at ..).mp ht).1
  · intro t h1 h2
    rw [open_iff hr, transform_ray hr]
    exact (BoxSolid.open_at ..).mpr ⟨h1, h2⟩
  · intro hn
    rw [closed_slabs hr, not_le] at hn
    unfold Leaving at hl
    push Not at hl
    have key : ∀ h p d : ℝ, h < |p| → p * d < 0 → 0 < BoxSolid.tIn h p d := by
      intro h p d h1 h2
      by_contra hle
      push Not at hle
      unfold BoxSolid.tIn at hle
      rcases BoxSolid.sign_cases d with ⟨hd, hs⟩ | ⟨hd, hs⟩ <;> rw [hs, mul_one_div] at hle
      · have hv := nonZero_neg hd
        have hp : 0 < p := by nlinarith
        rw [abs_of_pos hp] at h1
        rw [div_le_iff_of_neg hv] at hle
        linarith
      · have hv := nonZero_pos hd
        have hp : p < 0 := by
          by_contra h'; push Not at h'; nlinarith [mul_nonneg h' hd]
        rw [abs_of_neg hp] at h1
        rw [div_le_iff₀ hv] at hle
        linarith
    have hx := ctx_pos hr
    have hy := cty_pos hr
    have hle : (safetyVector s (transform s p)).maxc ≤ 0 ∨
        (0 < (safetyVector s (transform s p)).x ∨ 0 < (safetyVector s (transform s p)).y ∨
          0 < (safetyVector s (transform s p)).z) := by
      by_cases h : (safetyVector s (transform s p)).maxc ≤ 0
      · exact Or.inl h
      · rw [V3.maxc_le] at h
        right
        by_contra h'
        push Not at h'
        exact h h'
    rcases hle with hle | h | h | h
    · linarith
    · have h1 := hl.1 (by linarith)
      refine lt_of_lt_of_le (key (shape s).h.x _ _ ?_ h1)
        (V3.maxc_le (a := BoxSolid.vIn (shape s).h (transform s p) (transform s d)).mp le_rfl).1
      have : 0 < ((transform s p).vabs - s.dims).x * s.ctx := h
      have := (mul_pos_iff_of_pos_right hx).mp this
      simp only [V3.sub_x, V3.vabs_x] at this
      rw [hr.1] at this; linarith
    · have h1 := hl.2.1 (by linarith)
      refine lt_of_lt_of_le (key (shape s).h.y _ _ ?_ h1)
        (V3.maxc_le (a := BoxSolid.vIn (shape s).h (transform s p) (transform s d)).mp le_rfl).2.1
      have : 0 < ((transform s p).vabs - s.dims).y * s.cty := h
      have := (mul_pos_iff_of_pos_right hy).mp this
      simp only [V3.sub_y, V3.vabs_y] at this
      rw [hr.1] at this; linarith
    · have h1 := hl.2.2 (by linarith)
      refine lt_of_lt_of_le (key (shape s).h.z _ _ ?_ h1)
        (V3.maxc_le (a := BoxSolid.vIn (shape s).h (transform s p) (transform s d)).mp le_rfl).2.2
      have : 0 < ((transform s p).vabs - s.dims).z := h
      simp only [V3.sub_z, V3.vabs_z] at this
      rw [hr.1] at this; linarith

/-- C66: completeness for the true ray.  If somewhere ahead the true ray of a unit direction has a ball of a little more
than half the tolerance around it in the solid, the distance to enter is found and not larger. -/
theorem C66_distance_in_complete {s : State} (hs : Reachable s) {p d : V3} (hu : d.mag2 = 1) {t : ℝ} (ht : 0 ≤ t)
    (hin : Deep (shape s) (kHalfTolerance + (t + 1) * kTiny) (V3.at' p d t)) :
    distanceToIn s p d ≤ t := by
  have hr := hs.rep
  have htol := kHalfTolerance_pos
  have htol' := BoxSolid.kHalfTolerance_le
  have hk := kTiny_pos
  have hk' := BoxSolid.kTiny_le
  have hmpos : 0 < kHalfTolerance + (t + 1) * kTiny := by positivity
  have hdeep := (depth_iff hr (V3.at' p d t) hmpos).mpr fun q hq => hin q hq.le
  have hx := ctx_pos hr
  have hy := cty_pos hr
  have hctx : s.ctx ≤ 1 := by
    have h1 := n0_unit hr
    have h2 := hr.2.2.2.2.2.2.2.1
    rw [h2]
    simp only [V3.mag2, V3.dot] at h1
    nlinarith [mul_self_nonneg s.n0.y, mul_self_nonneg s.n0.z]
  have hcty : s.cty ≤ 1 := by
    have h1 := n1_unit hr
    have h2 := hr.2.2.2.2.2.2.2.2
    rw [h2]
    simp only [V3.mag2, V3.dot] at h1
    nlinarith [mul_self_nonneg s.n1.x, mul_self_nonneg s.n1.z]
  -- the ray is slower than one in all slabs
  have hslow : ∀ n : V3, n.mag2 = 1 → |n.dot d| ≤ 1 := by
    intro n hn
    have h0 : V3.dist d ⟨0, 0, 0⟩ = 1 := by
      unfold V3.dist V3.dist2
      simp only [V3.mag2, V3.dot] at hu
      rw [show (d.x - 0) ^ 2 + (d.y - 0) ^ 2 + (d.z - 0) ^ 2 = 1 by linarith, Real.sqrt_one]
    have := dot_sub_le hn d ⟨0, 0, 0⟩
    rw [h0] at this
    simpa [V3.dot] using this
  -- one slab at a time
  have axis : ∀ c h a b : ℝ, 0 < c → c ≤ 1 → |c * b| ≤ 1 →
      (|a + t * b| - h) * c ≤ -(kHalfTolerance + (t + 1) * kTiny) →
      ¬ ((|a| - h) * c ≥ -kHalfTolerance ∧ a * b ≥ 0) ∧
      BoxSolid.tIn h a b ≤ t - 3 / 5 * kHalfTolerance ∧ t + 3 / 5 * kHalfTolerance ≤ BoxSolid.tOut h a b := by
    intro c h a b hc0 hc1 hb hd
    refine ⟨?_, ?_⟩
    · rintro ⟨h1, h2⟩
      have h3 : |a| ≤ |a + t * b| := by
        rw [← sq_le_sq]
        nlinarith [mul_nonneg ht h2, mul_self_nonneg (t * b)]
      have h4 := mul_le_mul_of_nonneg_right h3 hc0.le
      have : 0 < (t + 1) * kTiny := by positivity
      nlinarith
    · have key : ∀ r : ℝ, |r| ≤ 3 / 5 * kHalfTolerance → |a + (t + r) * nonZero b| ≤ h := by
        intro r hrr
        have e : a + (t + r) * nonZero b = (a + t * b) + (t * (nonZero b - b) + r * b + r * (nonZero b - b)) := by ring
        have h1 : |a + (t + r) * nonZero b| ≤ |a + t * b| + (t * kTiny + |r| * |b| + |r| * kTiny) := by
          rw [e]
          refine (abs_add_le _ _).trans ?_
          have h2 := abs_add_le (t * (nonZero b - b) + r * b) (r * (nonZero b - b))
          have h3 := abs_add_le (t * (nonZero b - b)) (r * b)
          rw [abs_mul, abs_mul, abs_of_nonneg ht, abs_nonZero_sub] at h3
          rw [abs_mul r (nonZero b - b), abs_nonZero_sub] at h2
          linarith
        have h4 := mul_le_mul_of_nonneg_right h1 hc0.le
        rw [abs_mul, abs_of_pos hc0] at hb
        have h5 : |r| * (c * |b|) ≤ 3 / 5 * kHalfTolerance * 1 :=
          mul_le_mul hrr hb (mul_nonneg hc0.le (abs_nonneg _)) (by positivity)
        have h6 : c * (t * kTiny) ≤ t * kTiny := by nlinarith [mul_nonneg ht hk.le]
        have h7 : c * (|r| * kTiny) ≤ 1 * kTiny := by
          have : |r| * kTiny ≤ 1 * kTiny := mul_le_mul_of_nonneg_right (by linarith) hk.le
          nlinarith [mul_nonneg (abs_nonneg r) hk.le]
        by_contra hcon
        push Not at hcon
        have h8 := mul_lt_mul_of_pos_right hcon hc0
        nlinarith
      have k1 := (BoxSolid.slab_le h a b _).mp (key (-(3 / 5 * kHalfTolerance)) (by rw [abs_neg, abs_of_pos (by positivity)]))
      have k2 := (BoxSolid.slab_le h a b _).mp (key (3 / 5 * kHalfTolerance) (by rw [abs_of_pos (by positivity)]))
      exact ⟨by linarith [k1.1], by linarith [k2.2]⟩
  rw [transform_at, V3.maxc_le] at hdeep
  obtain ⟨d1, d2, d3⟩ := hdeep
  simp only [safetyVector, V3.sub_x, V3.sub_y, V3.sub_z, V3.vabs_x, V3.vabs_y, V3.vabs_z, V3.at_x, V3.at_y, V3.at_z] at d1 d2 d3
  obtain ⟨a1, a2, a3⟩ := axis s.ctx s.dims.x _ _ hx hctx (by rw [← n0_dot hr]; exact hslow _ (n0_unit hr)) d1
  obtain ⟨b1, b2, b3⟩ := axis s.cty s.dims.y _ _ hy hcty (by rw [← n1_dot hr]; exact hslow _ (n1_unit hr)) d2
  obtain ⟨c1, c2, c3⟩ := axis 1 s.dims.z (transform s p).z (transform s d).z one_pos le_rfl
    (by rw [one_mul, ← n2_dot hr]; exact hslow _ (n2_unit hr)) (by rw [mul_one]; exact d3)
  rw [hr.1] at a2 a3 b2 b3 c2 c3
  have hin' : (BoxSolid.vIn (shape s).h (transform s p) (transform s d)).maxc ≤ t - 3 / 5 * kHalfTolerance :=
    V3.maxc_le.mpr ⟨a2, b2, c2⟩
  have hout' : t + 3 / 5 * kHalfTolerance ≤ (BoxSolid.vOut (shape s).h (transform s p) (transform s d)).minc :=
    V3.le_minc.mpr ⟨a3, b3, c3⟩
  rw [distanceToIn_eq hr, if_pos]
  · linarith
  · refine ⟨?_, by linarith⟩
    rintro (h | h | h)
    · exact a1 h
    · exact b1 h
    · rw [mul_one] at c1; exact c1 h

/-- C66: the distance to leave for a point of the solid: all points before it are in the solid, the point is on the
boundary and all later points of the ray are outside. -/
theorem C66_distance_out {s : State} (hs : Reachable s) (hp : Proper (shape s)) {p d d' : V3}
    (hd : Followed (shape s) d d') (hin : Closed (shape s) p) :
    0 ≤ distanceToOut s p d ∧ Boundary (shape s) (V3.at' p d' (distanceToOut s p d)) ∧
    (∀ t, 0 ≤ t → t ≤ distanceToOut s p d → Closed (shape s) (V3.at' p d' t)) ∧
    (∀ t, distanceToOut s p d < t → ¬ Closed (shape s) (V3.at' p d' t)) := by
  have hr := hs.rep
  have ht := kHalfTolerance_pos
  rw [followed_eq hr hd]
  have h0 : ¬ (safetyVector s (transform s p)).maxc > kHalfTolerance := by
    have := (closed_slabs hr p).mp hin
    linarith
  rw [distanceToOut_eq hr, if_neg h0]
  have h1 := (BoxSolid.closed_at (shape s).h (transform s p) (transform s d) 0).mp
    (by rw [BoxSolid.at_zero]; exact (closed_iff hr p).mp hin)
  refine ⟨h1.2, ?_, ?_, ?_⟩
  · apply boundary_of hr
    rw [transform_ray hr]
    exact BoxSolid.boundary_out hp (h1.1.trans h1.2)
  · intro t h2 h3
    rw [closed_iff hr, transform_ray hr]
    exact (BoxSolid.closed_at ..).mpr ⟨by linarith, h3⟩
  · intro t h2 h3
    rw [closed_iff hr, transform_ray hr] at h3
    exact absurd ((BoxSolid.closed_at ..).mp h3).2 (not_le.mpr h2)

/-- C66: the distance to leave of an interior point is positive. -/
theorem C66_distance_out_pos {s : State} (hs : Reachable s) {p d : V3} (hin : Open (shape s) p) :
    0 < distanceToOut s p d := by
  have hr := hs.rep
  have ht := kHalfTolerance_pos
  have h0 : ¬ (safetyVector s (transform s p)).maxc > kHalfTolerance := by
    have := (open_slabs hr p).mp hin
    linarith
  rw [distanceToOut_eq hr, if_neg h0]
  exact ((BoxSolid.open_at (shape s).h (transform s p) (transform s d) 0).mp
    (by rw [BoxSolid.at_zero]; exact (open_iff hr p).mp hin)).2

/-- C66: wrong side convention: points classified outside, except those exactly at half the tolerance, get -1, and only
points that are not in the interior do. -/
theorem C66_distance_out_wrong_side {s : State} (hs : Reachable s) (p d : V3) :
    (kHalfTolerance < safetyToIn s p → distanceToOut s p d = -1) ∧
    (Closed (shape s) p → distanceToOut s p d ≠ -1) := by
  have hr := hs.rep
  have ht := kHalfTolerance_pos
  constructor
  · intro h
    rw [distanceToOut_eq hr, if_pos]
    unfold safetyToIn at h
    dsimp only at h
    split at h
    · linarith
    · exact h
  · intro hin h
    have h0 : ¬ (safetyVector s (transform s p)).maxc > kHalfTolerance := by
      have := (closed_slabs hr p).mp hin
      linarith
    rw [distanceToOut_eq hr, if_neg h0] at h
    have h1 := (BoxSolid.closed_at (shape s).h (transform s p) (transform s d) 0).mp
      (by rw [BoxSolid.at_zero]; exact (closed_iff hr p).mp hin)
    linarith [h1.2]

theorem sample_deep (m : State) : Deep (shape (sample m)) (kHalfTolerance + (5 + 1) * kTiny) (V3.at' ⟨-5, 0, 0⟩ ⟨1, 0, 0⟩ 5) := by
  have h1 := BoxSolid.kHalfTolerance_le
  have h2 := BoxSolid.kTiny_le
  intro q hq
  have hx := V3.abs_x_le_dist (V3.at' ⟨-5, 0, 0⟩ ⟨1, 0, 0⟩ 5) q
  have hy := V3.abs_y_le_dist (V3.at' ⟨-5, 0, 0⟩ ⟨1, 0, 0⟩ 5) q
  have hz := V3.abs_z_le_dist (V3.at' ⟨-5, 0, 0⟩ ⟨1, 0, 0⟩ 5) q
  norm_num at hx hy hz
  have hq' : V3.dist (V3.at' ⟨-5, 0, 0⟩ ⟨1, 0, 0⟩ 5) q ≤ 1 / 100 := by linarith
  rw [sample_shape]
  refine ⟨q.x - q.y - q.z, q.y, q.z, ?_, ?_, ?_, ?_⟩
  · rw [abs_lt]
    have := abs_le.mp (hx.trans hq')
    have := abs_le.mp (hy.trans hq')
    have := abs_le.mp (hz.trans hq')
    constructor <;> dsimp only <;> linarith
  · exact lt_of_le_of_lt (hy.trans hq') (by norm_num)
  · exact lt_of_le_of_lt (hz.trans hq') (by norm_num)
  · ext <;> simp [Shape.point] <;> ring

/-- The hypotheses of the theorems on the distance to enter are met: a ray hits the sample. -/
example (m : State) : distanceToIn (sample m) ⟨-5, 0, 0⟩ ⟨1, 0, 0⟩ < kInfLength :=
  lt_of_le_of_lt (C66_distance_in_complete (sample_reachable m) (by norm_num [V3.mag2, V3.dot]) (by norm_num)
    (sample_deep m)) (by linarith [kInfLength_large])

example (m : State) : Closed (shape (sample m)) ⟨1, 0, 0⟩ := by
  rw [sample_shape]
  exact ⟨1, 0, 0, by norm_num, by norm_num, by norm_num, by norm_num [Shape.point]⟩

end Para
end VecGeom

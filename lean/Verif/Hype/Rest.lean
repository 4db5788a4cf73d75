import Verif.Hype.Volume
import Verif.Hype.Safety
import Mathlib.Analysis.Real.Pi.Bounds

/-!
# C155: extent, convexity, setters, copies and the factory; C156: sampling; C157: normals
-/

namespace VecGeom
namespace Hype

open Real

variable {a : Par} {s : State} {k : Kind}

theorem closed_rim (hv : a.Valid) {x y z : ℝ} (hz : z = a.dz ∨ z = -a.dz) (h : x ^ 2 + y ^ 2 = a.out2 a.dz) : a.Closed ⟨x, y, z⟩ := by
  have e : |z| = a.dz := by rcases hz with rfl | rfl <;> [skip; rw [abs_neg]] <;> exact abs_of_pos hv.dz
  have e1 : a.out2 z = a.out2 a.dz := by rw [← out2_abs, e]
  have e2 : a.in2 z = a.in2 a.dz := by rw [← in2_abs, e]
  refine ⟨e.le, ?_, ?_⟩
  · dsimp only; rw [e1, h]
  · dsimp only; rw [e2, h]; exact hv.ends.le

theorem closed_le (hv : a.Valid) {p : V3} (hp : a.Closed p) : p.x ^ 2 + p.y ^ 2 ≤ a.out2 a.dz :=
  hp.out.trans (out2_mono (by rw [abs_of_pos hv.dz]; exact hp.z))

/-- C155: the extent is the tightest box around the solid. -/
theorem C155_extent (hv : a.Valid) (g : Good s a) :
    IsLeast (V3.x '' {p | a.Closed p}) (extent s).1.x ∧ IsGreatest (V3.x '' {p | a.Closed p}) (extent s).2.x ∧
    IsLeast (V3.y '' {p | a.Closed p}) (extent s).1.y ∧ IsGreatest (V3.y '' {p | a.Closed p}) (extent s).2.y ∧
    IsLeast (V3.z '' {p | a.Closed p}) (extent s).1.z ∧ IsGreatest (V3.z '' {p | a.Closed p}) (extent s).2.z := by
  have he := endOut_pos hv
  have hsq : √(a.out2 a.dz) ^ 2 = a.out2 a.dz := sq_sqrt (out2_pos hv _).le
  have e : extent s = (⟨-√(a.out2 a.dz), -√(a.out2 a.dz), -a.dz⟩, ⟨√(a.out2 a.dz), √(a.out2 a.dz), a.dz⟩) := by
    unfold extent; rw [g.endOut, g.dz]
  rw [e]
  have bx : ∀ p, a.Closed p → |p.x| ≤ √(a.out2 a.dz) := fun p hp =>
    abs_le_of_sq_le_sq (by linarith [closed_le hv hp, sq_nonneg p.y]) he.le
  have by' : ∀ p, a.Closed p → |p.y| ≤ √(a.out2 a.dz) := fun p hp =>
    abs_le_of_sq_le_sq (by linarith [closed_le hv hp, sq_nonneg p.x]) he.le
  refine ⟨⟨⟨_, closed_rim hv (x := -√(a.out2 a.dz)) (y := 0) (Or.inl rfl) (by rw [neg_sq, hsq]; ring), rfl⟩, ?_⟩,
    ⟨⟨_, closed_rim hv (x := √(a.out2 a.dz)) (y := 0) (Or.inl rfl) (by rw [hsq]; ring), rfl⟩, ?_⟩,
    ⟨⟨_, closed_rim hv (y := -√(a.out2 a.dz)) (x := 0) (Or.inl rfl) (by rw [neg_sq, hsq]; ring), rfl⟩, ?_⟩,
    ⟨⟨_, closed_rim hv (y := √(a.out2 a.dz)) (x := 0) (Or.inl rfl) (by rw [hsq]; ring), rfl⟩, ?_⟩,
    ⟨⟨_, closed_rim hv (x := √(a.out2 a.dz)) (y := 0) (Or.inr rfl) (by rw [hsq]; ring), rfl⟩, ?_⟩,
    ⟨⟨_, closed_rim hv (x := √(a.out2 a.dz)) (y := 0) (Or.inl rfl) (by rw [hsq]; ring), rfl⟩, ?_⟩⟩
  · rintro _ ⟨p, hp, rfl⟩; exact (abs_le.mp (bx p hp)).1
  · rintro _ ⟨p, hp, rfl⟩; exact (abs_le.mp (bx p hp)).2
  · rintro _ ⟨p, hp, rfl⟩; exact (abs_le.mp (by' p hp)).1
  · rintro _ ⟨p, hp, rfl⟩; exact (abs_le.mp (by' p hp)).2
  · rintro _ ⟨p, hp, rfl⟩; exact (abs_le.mp hp.z).1
  · rintro _ ⟨p, hp, rfl⟩; exact (abs_le.mp hp.z).2

/-- With two points of the solid every point between them belongs to it. -/
def ConvexSolid (a : Par) : Prop := ∀ p q t, a.Closed p → a.Closed q → 0 ≤ t → t ≤ 1 →
  a.Closed ⟨(1 - t) * p.x + t * q.x, (1 - t) * p.y + t * q.y, (1 - t) * p.z + t * q.z⟩

theorem mix_abs {x y b t : ℝ} (hx : |x| ≤ b) (hy : |y| ≤ b) (h0 : 0 ≤ t) (h1 : t ≤ 1) : |(1 - t) * x + t * y| ≤ b := by
  rw [abs_le] at *
  constructor
  · nlinarith [mul_nonneg (by linarith : 0 ≤ 1 - t) (by linarith : 0 ≤ x + b), mul_nonneg h0 (by linarith : 0 ≤ y + b)]
  · nlinarith [mul_nonneg (by linarith : 0 ≤ 1 - t) (by linarith : 0 ≤ b - x), mul_nonneg h0 (by linarith : 0 ≤ b - y)]

/-- C155: the object calls itself convex exactly if the solid is convex, after construction and after `SetParameters`. -/
theorem C155_convex (hv : a.Valid) (m : State) : ((a.made m).convex = true ↔ ConvexSolid a) ∧
    ((setParameters m a.rmin a.rmax a.stIn a.stOut a.dz).convex = true ↔ ConvexSolid a) := by
  have key : (a.rmin = 0 ∧ a.stIn = 0 ∧ a.stOut = 0) ↔ ConvexSolid a := by
    constructor
    · rintro ⟨h1, h2, h3⟩ p q t hp hq t0 t1
      have ho : ∀ z, a.out2 z = a.rmax ^ 2 := by intro z; unfold Par.out2; rw [h3, tan_zero]; ring
      have hi : ∀ z, a.in2 z = 0 := by intro z; unfold Par.in2; rw [h1, h2, tan_zero]; ring
      have hpo := hp.out
      have hqo := hq.out
      rw [ho] at hpo hqo
      refine ⟨mix_abs hp.z hq.z t0 t1, ?_, ?_⟩
      · rw [ho]
        dsimp only
        have u0 : 0 ≤ (1 - t) * t := mul_nonneg (by linarith) t0
        nlinarith [mul_nonneg u0 (sq_nonneg (p.x - q.x)), mul_nonneg u0 (sq_nonneg (p.y - q.y)),
          mul_le_mul_of_nonneg_left hpo (by linarith : 0 ≤ 1 - t), mul_le_mul_of_nonneg_left hqo t0]
      · rw [hi]; positivity
    · intro h
      have hsq : √(a.out2 a.dz) ^ 2 = a.out2 a.dz := sq_sqrt (out2_pos hv _).le
      have hd := hv.dz
      by_cases hh : a.Hollow
      · exfalso
        have h1 := h _ _ (1 / 2) (closed_rim hv (x := √(a.out2 a.dz)) (y := 0) (Or.inl rfl) (by rw [hsq]; ring))
          (closed_rim hv (x := -√(a.out2 a.dz)) (y := 0) (Or.inl rfl) (by rw [neg_sq, hsq]; ring)) (by norm_num) (by norm_num)
        have h2 := h1.inn
        dsimp only at h2
        rw [show (1 - 1 / 2) * a.dz + 1 / 2 * a.dz = a.dz by ring] at h2
        have h3 : 0 < a.in2 a.dz := by
          unfold Par.in2
          rcases hh with hh | hh
          · positivity
          · have := tan_ne hv.inLo hv.inHi hh
            positivity
        nlinarith
      · have h0 : a.rmin = 0 := by
          by_contra hc
          exact hh (Or.inl (lt_of_le_of_ne hv.rmin (Ne.symm hc)))
        have h1 : a.stIn = 0 := by
          by_contra hc
          exact hh (Or.inr hc)
        refine ⟨h0, h1, ?_⟩
        by_contra hc
        have ht := tan_ne hv.outLo hv.outHi hc
        have h1 := h _ _ (1 / 2) (closed_rim hv (x := √(a.out2 a.dz)) (y := 0) (Or.inl rfl) (by rw [hsq]; ring))
          (closed_rim hv (x := √(a.out2 a.dz)) (y := 0) (Or.inr rfl) (by rw [hsq]; ring)) (by norm_num) (by norm_num)
        have h2 := h1.out
        dsimp only at h2
        have e : ((1 - 1 / 2) * √(a.out2 a.dz) + 1 / 2 * √(a.out2 a.dz)) ^ 2 = a.out2 a.dz := by linear_combination hsq
        rw [e, show (1 - 1 / 2) * a.dz + 1 / 2 * -a.dz = 0 by ring] at h2
        unfold Par.out2 at h2
        have : 0 < (tan a.stOut * a.dz) ^ 2 := by positivity
        nlinarith
  have e1 : (a.made m).convex = true ↔ (a.rmin = 0 ∧ a.stIn = 0 ∧ a.stOut = 0) := by
    show decide _ = true ↔ _
    rw [decide_eq_true_eq]
    exact Iff.rfl
  have e2 : (setParameters m a.rmin a.rmax a.stIn a.stOut a.dz).convex = true ↔ (a.rmin = 0 ∧ a.stIn = 0 ∧ a.stOut = 0) := by
    show decide _ = true ↔ _
    rw [decide_eq_true_eq]
    exact Iff.rfl
  exact ⟨e1.trans key, e2.trans key⟩

/-- C155: after `SetParameters` the object is the one that the constructor would have made with these arguments, except for the
bounding box, which is not computed again. -/
theorem C155_set_partial (s m : State) (a : Par) :
    setParameters s a.rmin a.rmax a.stIn a.stOut a.dz = { a.made m with bbox := s.bbox } := rfl

/-- C155: the bounding box of the constructor is the extent; the one after `SetParameters` need not contain the solid. -/
theorem C155_bbox_counterexample (m : State) : ((a.made m).bbox = extent (a.made m)) ∧
    ∃ a b : Par, a.Valid ∧ b.Valid ∧ ∃ p, b.Closed p ∧
      (setParameters (a.made m) b.rmin b.rmax b.stIn b.stOut b.dz).bbox.2.z < p.z := by
  refine ⟨rfl, ⟨0, 1, 0, 0, 1⟩, ⟨0, 1, 0, 0, 2⟩, ?_, ?_, ⟨0, 0, 2⟩, ?_, ?_⟩
  · have := pi_pos
    constructor <;> simp only [Par.in2, Par.out2, tan_zero] <;> (try linarith) <;> norm_num
  · have := pi_pos
    constructor <;> simp only [Par.in2, Par.out2, tan_zero] <;> (try linarith) <;> norm_num
  · constructor <;> simp [Par.in2, Par.out2, tan_zero]
  · show (1 : ℝ) < 2
    norm_num

/-- C155: a copy is the same solid only if the outer radius happens to be equal to the inner stereo angle. -/
theorem C155_clone_counterexample (m m' : State) (a : Par) : clone m (a.made m') = a.made m ↔ a.rmax = a.stIn := by
  constructor
  · intro h
    have := congrArg State.rmax h
    exact this.symm
  · intro h
    show create m a.rmin a.stIn a.rmax a.stOut a.dz = create m a.rmin a.rmax a.stIn a.stOut a.dz
    rw [h]

example (m m' : State) : clone m (spool.made m') ≠ spool.made m := by
  rw [ne_eq, C155_clone_counterexample]
  have := pi_le_four
  simp only [spool]
  intro h
  linarith

/-- What the factory makes, as a set of points. -/
def Made.Closed : Made → V3 → Prop
  | .hype _ rmin rmax stIn stOut dz, p => (⟨rmin, rmax, stIn, stOut, dz⟩ : Par).Closed p
  | .tube rmin rmax dz sphi dphi, p => (⟨rmin, rmax, dz, sphi, dphi⟩ : Tube.Par).Closed p

/-- What the factory makes can be worked with: the kind of a hyperboloid is the one its arguments need. -/
def Made.Fits : Made → Prop
  | .hype k rmin rmax stIn stOut dz => k.Fits ⟨rmin, rmax, stIn, stOut, dz⟩
  | .tube _ _ _ _ _ => True

/-- C155: for stereo angles that are not negative the object made is the solid asked for and its kind is the right one.  Missing:
negative angles, which the factory takes for zero. -/
theorem C155_factory_partial (hv : a.Valid) (hi : 0 ≤ a.stIn) (ho : 0 ≤ a.stOut) :
    (makeInstance a.rmin a.rmax a.stIn a.stOut a.dz).Fits ∧
    ∀ p, (makeInstance a.rmin a.rmax a.stIn a.stOut a.dz).Closed p ↔ a.Closed p := by
  have tube : a.stIn = 0 → a.stOut = 0 → ∀ p, (⟨a.rmin, a.rmax, a.dz, 0, 2 * π⟩ : Tube.Par).Closed p ↔ a.Closed p := by
    intro h1 h2 p
    have e1 : a.in2 p.z = a.rmin ^ 2 := by unfold Par.in2; rw [h1, tan_zero]; ring
    have e2 : a.out2 p.z = a.rmax ^ 2 := by unfold Par.out2; rw [h2, tan_zero]; ring
    have hs := rad_sq p
    have h0 := rad_nonneg p
    have hr : Tube.rad p = rad p := rfl
    constructor
    · rintro ⟨c1, c2, c3, -⟩
      rw [hr] at c2 c3
      refine ⟨c1, ?_, ?_⟩
      · rw [e2, ← hs]; exact pow_le_pow_left₀ h0 c3 2
      · rw [e1, ← hs]; exact pow_le_pow_left₀ hv.rmin c2 2
    · rintro ⟨c1, c2, c3⟩
      rw [e2, ← hs] at c2
      rw [e1, ← hs] at c3
      exact ⟨c1, sq_le c3 h0, sq_le c2 (hv.rmin.trans hv.lt.le), sector_full _ _ _⟩
  unfold makeInstance
  split
  · rename_i h
    have h1 : a.rmin = 0 := le_antisymm h.1 hv.rmin
    have h2 : a.stIn = 0 := le_antisymm h.2.1 hi
    have e : (⟨0, a.rmax, 0, a.stOut, a.dz⟩ : Par) = a := by cases a; simp_all
    refine ⟨?_, fun p => ?_⟩
    · show Kind.nonHollow.Fits _
      rw [e]
      refine Or.inl ⟨rfl, ?_⟩
      rintro (h' | h')
      · linarith
      · exact h' h2
    · show (⟨0, a.rmax, 0, a.stOut, a.dz⟩ : Par).Closed p ↔ _
      rw [e]
  split
  · rename_i h
    have h1 : a.rmin = 0 := le_antisymm h.1 hv.rmin
    have := tube (le_antisymm h.2.1 hi) (le_antisymm h.2.2 ho)
    rw [h1] at this
    exact ⟨trivial, this⟩
  split
  · rename_i h
    exact ⟨trivial, tube (le_antisymm h.2.1 hi) (le_antisymm h.2.2 ho)⟩
  split
  · rename_i h
    exact ⟨Or.inr (Or.inl ⟨rfl, Or.inl h.1⟩), fun p => Iff.rfl⟩
  · exact ⟨Or.inr (Or.inr rfl), fun p => Iff.rfl⟩

/-- C155: with a negative angle the factory makes another solid: a tube for an outer surface that widens, and a solid without a
hole for one with a hole. -/
theorem C155_angle_counterexample :
    (∃ a : Par, a.Valid ∧ ∃ p, a.Closed p ∧ ¬ (makeInstance a.rmin a.rmax a.stIn a.stOut a.dz).Closed p) ∧
    ∃ a : Par, a.Valid ∧ ∃ p, ¬ a.Closed p ∧ (makeInstance a.rmin a.rmax a.stIn a.stOut a.dz).Closed p := by
  have hpi := pi_pos
  constructor
  · refine ⟨⟨0, 1, 0, -(π / 4), 1⟩, ?_, ⟨√2, 0, 1⟩, ?_, ?_⟩
    · constructor <;> simp only [Par.in2, Par.out2, tan_zero, tan_neg, tan_pi_div_four] <;> (try linarith) <;> norm_num
    · constructor <;> simp only [Par.in2, Par.out2, tan_zero, tan_neg, tan_pi_div_four] <;> norm_num
    · have e : makeInstance 0 1 0 (-(π / 4)) 1 = .tube 0 1 1 0 (2 * π) := by
        unfold makeInstance
        rw [if_neg (by rintro ⟨-, -, h⟩; linarith), if_pos ⟨le_rfl, le_rfl, by linarith⟩]
      dsimp only
      rw [e]
      intro h
      have h1 := h.hi
      have : Tube.rad ⟨√2, 0, 1⟩ = √2 := by unfold Tube.rad; simp
      rw [this] at h1
      have h2 : (1 : ℝ) < √2 := by
        apply lt_sqrt_of_sq_lt; norm_num
      simp at h1
  · refine ⟨⟨0, 2, -(π / 4), π / 4, 1⟩, ?_, ⟨0, 0, 1⟩, ?_, ?_⟩
    · constructor <;> simp only [Par.in2, Par.out2, tan_zero, tan_neg, tan_pi_div_four] <;> (try linarith) <;> norm_num
    · intro h
      have := h.inn
      simp only [Par.in2, tan_neg, tan_pi_div_four] at this
      norm_num at this
    · have e : makeInstance 0 2 (-(π / 4)) (π / 4) 1 = .hype .nonHollow 0 2 0 (π / 4) 1 := by
        unfold makeInstance
        rw [if_pos ⟨le_rfl, by linarith, by linarith⟩]
      dsimp only
      rw [e]
      show (⟨0, 2, 0, π / 4, 1⟩ : Par).Closed _
      constructor <;> simp only [Par.in2, Par.out2, tan_zero, tan_neg, tan_pi_div_four] <;> norm_num

/-- C155: a cylinder asked for as a hyperboloid reports a negative capacity. -/
theorem C155_tube_counterexample (m : State) : capacity (baseOf m (makeInstance 0 1 0 0 1)) < 0 := by
  have hpi := pi_gt_three
  have e : makeInstance 0 1 0 0 1 = .tube 0 1 1 0 (2 * π) := by
    unfold makeInstance
    rw [if_neg (by norm_num), if_pos ⟨le_rfl, le_rfl, le_rfl⟩]
  have ht : 1 < tan 1 := by
    have := lt_tan (x := 1) (by norm_num) (by linarith)
    exact this
  rw [e]
  show capacity ((⟨0, 1, 1, 0, 2 * π⟩ : Par).made m) < 0
  rw [made_volume]
  simp only [tan_zero]
  have h1 : 1 < tan 1 ^ 2 := by nlinarith
  have h2 : 3 < (2 * π) ^ 2 * tan 1 ^ 2 / 3 := by nlinarith [mul_pos (by linarith : 0 < π) (by linarith : 0 < π)]
  have h3 : 0 < 2 * π * (2 * π) := by positivity
  nlinarith

/-! ## C156: sampling -/

theorem uniform_mem {lo hi u : ℝ} (h : lo ≤ hi) (h0 : 0 ≤ u) (h1 : u ≤ 1) : lo ≤ uniform lo hi u ∧ uniform lo hi u ≤ hi := by
  unfold uniform
  constructor <;> nlinarith

theorem uniform_abs {b u : ℝ} (h0 : 0 ≤ u) (h1 : u ≤ 1) : |uniform (-b) b u| ≤ |b| := by
  have e : uniform (-b) b u = b * (2 * u - 1) := by unfold uniform; ring
  rw [e, abs_mul]
  have : |2 * u - 1| ≤ 1 := abs_le.mpr ⟨by linarith, by linarith⟩
  exact mul_le_of_le_one_right (abs_nonneg b) this

theorem polar (r φ : ℝ) : (r * cos φ) ^ 2 + (r * sin φ) ^ 2 = r ^ 2 := by
  have := sin_sq_add_cos_sq φ
  linear_combination r ^ 2 * this

/-- A point of a hyperbolic wall, as it is sampled. -/
theorem wall_point {r t h u φ : ℝ} (hr : 0 < r) (ht : t ≠ 0) (hu : |u| ≤ |h * t / r|) (hh : 0 < h) :
    (√(u * u + 1) * r * cos φ) ^ 2 + (√(u * u + 1) * r * sin φ) ^ 2 = r ^ 2 + (t * (r * u / t)) ^ 2 ∧ |r * u / t| ≤ h := by
  constructor
  · rw [polar, mul_pow, sq_sqrt (by nlinarith [mul_self_nonneg u]), mul_div_cancel₀ _ ht]
    ring
  · rw [abs_div, abs_mul, abs_of_pos hr, div_le_iff₀ (abs_pos.mpr ht)]
    rw [abs_div, abs_mul, abs_of_pos hr, abs_of_pos hh, le_div_iff₀ hr] at hu
    linarith

theorem drawRing_spec (g : Good s a) {us : ℕ → ℝ × ℝ} {q : ℝ × ℝ} (h : drawRing s us = some q) :
    a.in2 a.dz ≤ q.1 ^ 2 + q.2 ^ 2 ∧ q.1 ^ 2 + q.2 ^ 2 ≤ a.out2 a.dz := by
  classical
  have e1 : s.rmin2 + s.tIn2 * s.dz * s.dz = a.in2 a.dz := by rw [g.rmin2, g.tIn2, g.dz]; unfold Par.in2; ring
  have e2 : s.rmax2 + s.tOut2 * s.dz * s.dz = a.out2 a.dz := by rw [g.rmax2, g.tOut2, g.dz]; unfold Par.out2; ring
  unfold drawRing at h
  dsimp only at h
  rw [e1, e2] at h
  split at h
  · rename_i hex
    have := Nat.find_spec hex
    cases h
    dsimp only
    rw [pow_two, pow_two]
    convert this using 1
  · cases h

theorem lid_surface (hv : a.Valid) {x y z : ℝ} (hz : |z| = a.dz) (h1 : a.in2 a.dz ≤ x ^ 2 + y ^ 2)
    (h2 : x ^ 2 + y ^ 2 ≤ a.out2 a.dz) : a.Surface ⟨x, y, z⟩ := by
  have e1 : a.out2 z = a.out2 a.dz := by rw [← out2_abs, hz]
  have e2 : a.in2 z = a.in2 a.dz := by rw [← in2_abs, hz]
  exact ⟨⟨hz.le, by dsimp only; rw [e1]; exact h2, by dsimp only; rw [e2]; exact h1⟩, Or.inl hz⟩

/-- C156: whatever numbers the generator gives, a sampled point lies on the surface. -/
theorem C156_sample (hv : a.Valid) (g : Good s a) (uPhi : ℝ) {uS uC uZ : ℝ} (us : ℕ → ℝ × ℝ) (hS : 0 ≤ uS ∧ uS ≤ 1)
    (hZ : 0 ≤ uZ ∧ uZ ≤ 1) {p : V3} (h : samplePointOnSurface s uPhi uS uC uZ us = some p) : a.Surface p := by
  have hd := hv.dz
  have hrm : 0 < a.rmax := lt_of_le_of_lt hv.rmin hv.lt
  have bottom : ∀ {p : V3}, ((drawRing s us).map fun q => (⟨q.1, q.2, -1 * s.dz⟩ : V3)) = some p → a.Surface p := by
    intro p h
    obtain ⟨q, hq, rfl⟩ := Option.map_eq_some_iff.mp h
    obtain ⟨h1, h2⟩ := drawRing_spec g hq
    refine lid_surface hv ?_ h1 h2
    rw [g.dz, neg_one_mul, abs_neg, abs_of_pos hd]
  have top : ∀ {p : V3}, ((drawRing s us).map fun q => (⟨q.1, q.2, s.dz⟩ : V3)) = some p → a.Surface p := by
    intro p h
    obtain ⟨q, hq, rfl⟩ := Option.map_eq_some_iff.mp h
    obtain ⟨h1, h2⟩ := drawRing_spec g hq
    refine lid_surface hv ?_ h1 h2
    rw [g.dz, abs_of_pos hd]
  unfold samplePointOnSurface at h
  dsimp only at h
  split at h
  · exact bottom h
  rename_i a2 ha2
  split at h
  · split at h
    · rename_i hst
      rw [g.stOut] at hst
      rw [g.rmax, g.tOut, g.dz] at h
      cases h
      have ht := tan_ne hv.outLo hv.outHi hst
      obtain ⟨e1, e2⟩ := wall_point (φ := uniform 0 (2 * π) uPhi) hrm ht
        (u := uniform (-1 * a.dz * tan a.stOut / a.rmax) (a.dz * tan a.stOut / a.rmax) uS) (by
          have := uniform_abs (b := a.dz * tan a.stOut / a.rmax) hS.1 hS.2
          rwa [show -(a.dz * tan a.stOut / a.rmax) = -1 * a.dz * tan a.stOut / a.rmax by ring] at this) hd
      refine ⟨⟨e2, e1.le, ?_⟩, Or.inr (Or.inl e1)⟩
      dsimp only
      rw [e1]
      exact (in2_lt_out2 hv e2).le
    · rename_i hst
      rw [g.stOut, not_not] at hst
      rw [g.rmax, g.dz] at h
      cases h
      have e2 : |uniform (-a.dz) a.dz uZ| ≤ a.dz := by
        have := uniform_abs (b := a.dz) hZ.1 hZ.2
        rwa [abs_of_pos hd] at this
      have e1 : (a.rmax * cos (uniform 0 (2 * π) uPhi)) ^ 2 + (a.rmax * sin (uniform 0 (2 * π) uPhi)) ^ 2 =
          a.out2 (uniform (-a.dz) a.dz uZ) := by
        rw [polar]; unfold Par.out2; rw [hst, tan_zero]; ring
      refine ⟨⟨e2, e1.le, ?_⟩, Or.inr (Or.inl e1)⟩
      dsimp only
      rw [e1]
      exact (in2_lt_out2 hv e2).le
  split at h
  · rename_i hc
    have ha : 0 < a2 := by linarith [hc.1, hc.2]
    unfold areaTwo at ha2
    split at h
    · rename_i hst
      rw [if_neg hst] at ha2
      split at ha2
      · cases ha2
      rename_i hrz
      rw [g.rmin] at hrz
      rw [g.stIn] at hst
      have hr : 0 < a.rmin := lt_of_le_of_ne hv.rmin (Ne.symm hrz)
      rw [g.rmin, g.tIn, g.dz] at h
      cases h
      have ht := tan_ne hv.inLo hv.inHi hst
      obtain ⟨e1, e2⟩ := wall_point (φ := uniform 0 (2 * π) uPhi) hr ht
        (u := uniform (-1 * a.dz * tan a.stIn / a.rmin) (a.dz * tan a.stIn / a.rmin) uZ) (by
          have := uniform_abs (b := a.dz * tan a.stIn / a.rmin) hZ.1 hZ.2
          rwa [show -(a.dz * tan a.stIn / a.rmin) = -1 * a.dz * tan a.stIn / a.rmin by ring] at this) hd
      refine ⟨⟨e2, ?_, e1.ge⟩, Or.inr (Or.inr ⟨Or.inl hr, e1⟩)⟩
      dsimp only
      rw [e1]
      exact (in2_lt_out2 hv e2).le
    · rename_i hst
      rw [not_not] at hst
      rw [if_pos hst, g.rmin, g.dz] at ha2
      have hr : 0 < a.rmin := by
        rcases hv.rmin.eq_or_lt with h0 | h0
        · rw [← h0] at ha2
          simp only [mul_zero, zero_mul, abs_zero, Option.some.injEq] at ha2
          linarith
        · exact h0
      rw [g.stIn] at hst
      rw [g.rmin, g.dz] at h
      cases h
      have e2 : |uniform (-1 * a.dz) a.dz uZ| ≤ a.dz := by
        have := uniform_abs (b := a.dz) hZ.1 hZ.2
        rwa [abs_of_pos hd, ← neg_one_mul] at this
      have e1 : (a.rmin * cos (uniform 0 (2 * π) uPhi)) ^ 2 + (a.rmin * sin (uniform 0 (2 * π) uPhi)) ^ 2 =
          a.in2 (uniform (-1 * a.dz) a.dz uZ) := by
        rw [polar]; unfold Par.in2; rw [hst, tan_zero]; ring
      refine ⟨⟨e2, ?_, e1.ge⟩, Or.inr (Or.inr ⟨Or.inl hr, e1⟩)⟩
      dsimp only
      rw [e1]
      exact (in2_lt_out2 hv e2).le
  split at h
  · exact top h
  · exact bottom h

theorem sampleArea_eq {r st h : ℝ} (hr : 0 < r) (h1 : -(π / 2) < st) (h2 : st < π / 2) (h0 : st ≠ 0) (hh : 0 < h) :
    sampleArea r st (tan st) h = wallArea r (tan st) h := by
  have hc : 0 < cos st := cos_pos_of_mem_Ioo ⟨h1, h2⟩
  have ht := tan_ne h1 h2 h0
  have hpi := pi_pos
  rw [wallArea_eq h hr ht]
  have hs : √(1 + tan st ^ 2) = 1 / cos st := by
    have : 1 + tan st ^ 2 = (1 / cos st) ^ 2 := by
      rw [tan_eq_sin_div_cos, div_pow, div_pow, one_pow, eq_div_iff (by positivity)]
      have := sin_sq_add_cos_sq st
      field_simp
      linarith
    rw [this, sqrt_sq (by positivity)]
  set c := tan st * √(1 + tan st ^ 2) with hcd
  have hcne : c ≠ 0 := mul_ne_zero ht (sqrt_pos.mpr (by positivity)).ne'
  have hc1 : c * cos st = tan st := by rw [hcd, hs]; field_simp
  have e1 : h * tan st / (r * cos st) = c * h / r := by
    rw [← hc1]; field_simp
  have e2 : 2 * π * (r * r) * cos st / tan st = 2 * π * r ^ 2 / c := by
    rw [← hc1]; field_simp
  unfold sampleArea
  dsimp only
  rw [e1, e2]
  have e3 : log (c * h / r + √(c * h / r * (c * h / r) + 1)) = arsinh (c * h / r) := by
    unfold arsinh
    rw [← pow_two, add_comm ((c * h / r) ^ 2)]
  rw [e3, sinh_two_mul, sinh_arsinh, cosh_arsinh]
  have e4 : √(1 + (c * h / r) ^ 2) = √(r ^ 2 + (c * h) ^ 2) / r := by
    rw [eq_div_iff hr.ne']
    nth_rewrite 2 [← sqrt_sq hr.le]
    rw [← sqrt_mul (by positivity)]
    congr 1
    field_simp
  rw [e4]
  have e5 : 2 * (2 * π * r ^ 2 / c) * (2 * (c * h / r) * (√(r ^ 2 + (c * h) ^ 2) / r) / 4 + arsinh (c * h / r) / 2) =
      2 * π * (h * √(r ^ 2 + (c * h) ^ 2) + r ^ 2 / c * arsinh (c * h / r)) := by
    field_simp
    ring
  rw [e5, abs_of_nonneg]
  have h3 : 0 ≤ 1 / c * arsinh (c * h / r) := by
    rcases lt_or_gt_of_ne hcne with hn | hn
    · apply mul_nonneg_of_nonpos_of_nonpos
      · exact (one_div_neg.mpr hn).le
      · rw [arsinh_nonpos_iff]
        exact div_nonpos_of_nonpos_of_nonneg (mul_nonpos_of_nonpos_of_nonneg hn.le hh.le) hr.le
    · exact mul_nonneg (by positivity) (arsinh_nonneg_iff.mpr (by positivity))
  have h4 : r ^ 2 / c * arsinh (c * h / r) = r ^ 2 * (1 / c * arsinh (c * h / r)) := by ring
  rw [h4]
  positivity

/-- C156: the weights with which the surfaces are chosen are their areas, unless the inner surface closes in a point. -/
theorem C156_weights_partial (hv : a.Valid) (g : Good s a) (h0 : 0 < a.rmin ∨ a.stIn = 0) :
    areaOne s = wallArea a.rmax (tan a.stOut) a.dz ∧ areaTwo s = some (wallArea a.rmin (tan a.stIn) a.dz) ∧
    areaThree s = π * (a.out2 a.dz - a.in2 a.dz) := by
  have hd := hv.dz
  have hpi := pi_pos
  have hrm : 0 < a.rmax := lt_of_le_of_lt hv.rmin hv.lt
  refine ⟨?_, ?_, ?_⟩
  · unfold areaOne
    rw [g.stOut, g.rmax, g.tOut, g.dz]
    split
    · rename_i h
      rw [h, tan_zero, wallArea_cylinder hrm.le, abs_of_pos (by positivity)]
      ring
    · rename_i h
      exact sampleArea_eq hrm hv.outLo hv.outHi h hd
  · unfold areaTwo
    rw [g.stIn, g.rmin, g.tIn, g.dz]
    split
    · rename_i h
      have := hv.rmin
      rw [h, tan_zero, wallArea_cylinder hv.rmin, abs_of_nonneg (by positivity)]
      congr 1
      ring
    · rename_i h
      have hr := h0.resolve_right h
      rw [if_neg hr.ne', sampleArea_eq hr hv.inLo hv.inHi h hd]
  · unfold areaThree
    rw [g.rmax2, g.rmin2, g.tIn, g.tOut, g.dz]
    unfold Par.in2 Par.out2
    ring

/-- C156: if the inner surface closes in a point every sampled point lies on the lower lid. -/
theorem C156_closed_hole_counterexample (g : Good s a) (h0 : a.rmin = 0) (h1 : a.stIn ≠ 0) (uPhi uS uC uZ : ℝ)
    (us : ℕ → ℝ × ℝ) {p : V3} (h : samplePointOnSurface s uPhi uS uC uZ us = some p) : p.z = -a.dz := by
  have e : areaTwo s = none := by
    unfold areaTwo
    rw [if_neg (by rw [g.stIn]; exact h1), if_pos (by rw [g.rmin]; exact h0)]
  unfold samplePointOnSurface at h
  rw [e] at h
  dsimp only at h
  obtain ⟨q, -, rfl⟩ := Option.map_eq_some_iff.mp h
  dsimp only
  rw [g.dz]
  ring

/-- Not vacuous: with the first number zero the outer wall is chosen. -/
example (m : State) : samplePointOnSurface (spool.made m) 0 (1 / 2) 0 0 (fun _ => (0, 0)) = some ⟨2, 0, 0⟩ := by
  have g := good_made spool m
  obtain ⟨h1, h2, h3⟩ := C156_weights_partial spool_valid g (Or.inl (by norm_num [spool]))
  have hpos : 0 < areaOne (spool.made m) := by
    rw [h1, wallArea_eq _ (by norm_num [spool]) (by norm_num [spool, tan_pi_div_four])]
    have hpi := pi_pos
    simp only [spool, tan_pi_div_four]
    have : 0 ≤ arsinh (1 * √(1 + 1 ^ 2) * 1 / 2) := arsinh_nonneg_iff.mpr (by positivity)
    positivity
  have hu : ∀ b : ℝ, uniform 0 b 0 = 0 := by intro b; unfold uniform; ring
  have hst : spool.stOut ≠ 0 := by
    have := pi_pos
    simp only [spool]
    positivity
  have hm : uniform (-1 * spool.dz * tan spool.stOut / spool.rmax) (spool.dz * tan spool.stOut / spool.rmax) (1 / 2) = 0 := by
    unfold uniform; ring
  unfold samplePointOnSurface
  rw [h2]
  dsimp only
  rw [hu, hu, if_pos ⟨le_rfl, hpos⟩, g.stOut, if_pos hst, g.rmax, g.tOut, g.dz, hm]
  simp [spool]

/-! ## C157: normals -/

/-- The second vector is a positive multiple of the first, with almost the length one. -/
def Along (grad n : V3) : Prop := ∃ c > 0, n.x = c * grad.x ∧ n.y = c * grad.y ∧ n.z = c * grad.z ∧ n.mag2 ≤ 1 ∧
  grad.mag2 ≤ n.mag2 * (grad.mag2 + kMinimum)

theorem along_unit (v : V3) : Along v v.unit := by
  have hp : 0 < v.mag2 + kMinimum := by linarith [V3.mag2_nonneg v, kMinimum_pos]
  refine ⟨1 / √(v.mag2 + kMinimum), by have := sqrt_pos.mpr hp; positivity, ?_, ?_, ?_, V3.unit_mag2_le v, ?_⟩
  · show v.x / _ = _; ring
  · show v.y / _ = _; ring
  · show v.z / _ = _; ring
  · rw [V3.unit_mag2, div_mul_cancel₀ _ hp.ne']

/-- C157: on a lid and away from the walls the normal is that of the lid. -/
theorem C157_lid_partial (hv : a.Valid) (g : Good s a) (p n0 : V3) (hz : |p.z| = a.dz)
    (ho : kTolerance * √(a.out2 a.dz) ≤ |p.x ^ 2 + p.y ^ 2 - a.out2 a.dz|)
    (hi : kTolerance * √(a.out2 a.dz) ≤ |p.x ^ 2 + p.y ^ 2 - a.in2 a.dz|) :
    normal s p n0 = (true, ⟨0, 0, if 0 < p.z then 1 else -1⟩) := by
  have hd := hv.dz
  have ht := mul_pos kTolerance_pos (endOut_pos hv)
  have e1 : a.out2 p.z = a.out2 a.dz := by rw [← out2_abs, hz]
  have e2 : a.in2 p.z = a.in2 a.dz := by rw [← in2_abs, hz]
  have w1 : ¬ onWall (oRad2 s p.z) s p := by
    unfold onWall
    rw [oRad2_eq g, e1, perp2_eq, g.outTol]
    rintro ⟨h1, h2⟩
    have : |p.x ^ 2 + p.y ^ 2 - a.out2 a.dz| < kTolerance * √(a.out2 a.dz) := abs_lt.mpr ⟨by linarith, by linarith⟩
    linarith
  have w2 : ¬ onWall (iRad2 s p.z) s p := by
    unfold onWall
    rw [iRad2_eq g, e2, perp2_eq, g.outTol]
    rintro ⟨h1, h2⟩
    have : |p.x ^ 2 + p.y ^ 2 - a.in2 a.dz| < kTolerance * √(a.out2 a.dz) := abs_lt.mpr ⟨by linarith, by linarith⟩
    linarith
  unfold normal
  dsimp only
  rw [oRad2_eq g |p.z|, iRad2_eq g |p.z|, hz, g.dz, sub_self, mul_zero, perp2_eq]
  rw [if_neg (not_or.mpr ⟨w2, fun h => absurd (h.2.trans_le' (abs_nonneg _)) (lt_irrefl 0)⟩),
    if_neg (not_or.mpr ⟨w1, fun h => absurd (h.2.trans_le' (abs_nonneg _)) (lt_irrefl 0)⟩),
    if_pos (Or.inr ⟨by linarith, by linarith⟩)]
  have hne : p.z ≠ 0 := by
    intro h; rw [h, abs_zero] at hz; linarith
  rcases lt_or_gt_of_ne hne with h | h
  · rw [if_pos h, if_neg (by linarith)]
  · rw [if_neg (by linarith), if_pos h]

/-- C157: on the outer wall and away from the inner one the normal is the outward direction across the wall. -/
theorem C157_outer_partial (hv : a.Valid) (g : Good s a) (p n0 : V3) (h : p.x ^ 2 + p.y ^ 2 = a.out2 p.z) (hz : |p.z| ≤ a.dz)
    (hi : kTolerance * √(a.out2 a.dz) ≤ a.out2 p.z - a.in2 p.z) :
    (normal s p n0).1 = true ∧ Along ⟨p.x, p.y, -tan a.stOut ^ 2 * p.z⟩ (normal s p n0).2 := by
  have ht := mul_pos kTolerance_pos (endOut_pos hv)
  have w1 : onWall (oRad2 s p.z) s p := by
    unfold onWall
    rw [oRad2_eq g, perp2_eq, g.outTol, h]
    constructor <;> linarith
  have w2 : ¬ onWall (iRad2 s p.z) s p := by
    unfold onWall
    rw [iRad2_eq g, perp2_eq, g.outTol, h]
    rintro ⟨h1, h2⟩
    linarith
  refine ⟨rfl, ?_⟩
  unfold normal
  dsimp only
  rw [oRad2_eq g |p.z|, out2_abs, perp2_eq, h, sub_self, abs_zero]
  rw [if_neg (not_or.mpr ⟨w2, fun h => absurd (h.1.trans_le' (abs_nonneg _)) (lt_irrefl 0)⟩), if_pos (Or.inl w1)]
  have := along_unit ⟨p.x, p.y, -p.z * s.tOut2⟩
  rwa [g.tOut2, show -p.z * tan a.stOut ^ 2 = -tan a.stOut ^ 2 * p.z by ring] at this ⊢

/-- C157: on the inner wall the normal is the direction across the wall, out of the solid. -/
theorem C157_inner (hv : a.Valid) (g : Good s a) (p n0 : V3) (h : p.x ^ 2 + p.y ^ 2 = a.in2 p.z) :
    (normal s p n0).1 = true ∧ Along ⟨-p.x, -p.y, tan a.stIn ^ 2 * p.z⟩ (normal s p n0).2 := by
  have ht := mul_pos kTolerance_pos (endOut_pos hv)
  have w2 : onWall (iRad2 s p.z) s p := by
    unfold onWall
    rw [iRad2_eq g, perp2_eq, g.outTol, h]
    constructor <;> linarith
  refine ⟨rfl, ?_⟩
  unfold normal
  dsimp only
  rw [if_pos (Or.inl w2)]
  have := along_unit ⟨-p.x, -p.y, p.z * s.tIn2⟩
  rwa [g.tIn2, show p.z * tan a.stIn ^ 2 = tan a.stIn ^ 2 * p.z by ring] at this ⊢

/-- C157: the normal in the centre of a lid of a solid without a hole is the zero vector. -/
theorem C157_centre_counterexample (hv : a.Valid) (hh : ¬ a.Hollow) (g : Good s a) (n0 : V3) :
    a.Surface ⟨0, 0, a.dz⟩ ∧ normal s ⟨0, 0, a.dz⟩ n0 = (true, ⟨0, 0, 0⟩) := by
  have hd := hv.dz
  have ht := mul_pos kTolerance_pos (endOut_pos hv)
  have hin := in2_solid hv hh
  have hst : a.stIn = 0 := by
    by_contra hc; exact hh (Or.inr hc)
  have w2 : onWall (iRad2 s a.dz) s ⟨0, 0, a.dz⟩ := by
    unfold onWall
    rw [iRad2_eq g, perp2_eq, g.outTol, hin]
    dsimp only
    constructor <;> linarith
  constructor
  · apply lid_surface hv (abs_of_pos hd)
    · rw [hin]; norm_num
    · have := (out2_pos hv a.dz).le
      norm_num
      exact this
  · unfold normal
    dsimp only
    rw [if_pos (Or.inl w2), g.tIn2, hst, tan_zero]
    simp [V3.unit]

example (m : State) : normal (spool.made m) ⟨3 / 2, 0, -1⟩ ⟨0, 0, 0⟩ = (true, ⟨0, 0, -1⟩) := by
  have h1 : √(spool.out2 spool.dz) ≤ 3 := by
    rw [sqrt_le_left (by norm_num)]; simp only [spool, Par.out2, tan_pi_div_four]; norm_num
  have h2 := mul_le_mul_of_nonneg_left h1 kTolerance_pos.le
  rw [C157_lid_partial spool_valid (good_made spool m)]
  · norm_num
  · norm_num [spool]
  · refine h2.trans ?_
    rw [abs_of_nonpos] <;> simp only [spool, Par.out2, tan_pi_div_four] <;> norm_num [kTolerance]
  · refine h2.trans ?_
    rw [abs_of_nonneg] <;> simp only [spool, Par.in2, tan_pi_div_four] <;> norm_num [kTolerance]

end Hype
end VecGeom

import Verif.SExtru.Spec

/-!
# Lemmas on extruded polygons
-/

namespace VecGeom
namespace SExtru

open Real Polygon

variable {k n : Nat} {x y : Nat → ℝ} {lo hi : ℝ} {s : Shell}

theorem Given.poly (g : Given k n x y lo hi s) : Polygon.init k n x y = some s.poly ∧ s.lo = lo ∧ s.hi = hi := by
  have h := g.made
  unfold make at h
  rw [Option.map_eq_some_iff] at h
  obtain ⟨p, hp, rfl⟩ := h
  exact ⟨hp, rfl, rfl⟩

theorem Given.n_pos (g : Given k n x y lo hi s) : 0 < n := by
  obtain ⟨-, hbs, -⟩ := init_some g.poly.1
  rcases Nat.eq_zero_or_pos n with h | h
  · subst h; simp [bufferSize] at hbs
  · exact h

theorem Given.bounded (g : Given k n x y lo hi s) {p : V3} (hp : Small p) : Bounded n (fun i => (x i, y i)) (p.x, p.y) :=
  ⟨hp.1, hp.2, g.small⟩

theorem root_pos (hd : ∀ i, i < n → ((x i, y i) : ℝ × ℝ) ≠ (x ((i + 1) % n), y ((i + 1) % n))) {i : Nat} (hi : i < n) :
    0 < √(dist2 (x i, y i) (x ((i + 1) % n), y ((i + 1) % n))) := by
  apply sqrt_pos.mpr
  refine lt_of_le_of_ne (dist2_nonneg _ _) fun h0 => hd i hi ?_
  unfold dist2 at h0
  simp only at h0
  have h1 := mul_self_nonneg (x i - x ((i + 1) % n))
  have h2 := mul_self_nonneg (y i - y ((i + 1) % n))
  ext
  · have := mul_self_eq_zero.mp (by linarith : (x i - x ((i + 1) % n)) * (x i - x ((i + 1) % n)) = 0); simp only; linarith
  · have := mul_self_eq_zero.mp (by linarith : (y i - y ((i + 1) % n)) * (y i - y ((i + 1) % n)) = 0); simp only; linarith

/-- For convex polygons the closed set is given by the lines. -/
theorem region_iff (hd : ∀ i, i < n → ((x i, y i) : ℝ × ℝ) ≠ (x ((i + 1) % n), y ((i + 1) % n)))
    (hc : StrictlyConvex n (fun i => (x i, y i))) (q : ℝ × ℝ) :
    Region n (fun i => (x i, y i)) q ↔ Within n (fun i => (x i, y i)) q := by
  have hdep : ∀ i, i < n → (0 ≤ depth n (fun i => (x i, y i)) i q ↔
      0 ≤ sgn n (fun i => (x i, y i)) * side (x i, y i) (x ((i + 1) % n), y ((i + 1) % n)) q) := by
    intro i hi
    have := root_pos hd hi
    unfold depth
    rw [div_nonneg_iff]
    constructor
    · rintro (h | h)
      · exact h.1
      · exact absurd h.2 (not_le.mpr this)
    · intro h; exact Or.inl ⟨h, this.le⟩
  constructor
  · rintro (h | h) i hi
    · rw [hdep i hi]; exact hc.boundary hi h
    · rw [hdep i hi]
      by_contra hlt
      rw [par_outside hc hi (not_le.mp hlt)] at h
      exact absurd h (by decide)
  · intro h
    have hall : ∀ j, j < n → 0 ≤ sgn n (fun i => (x i, y i)) * side (x j, y j) (x ((j + 1) % n), y ((j + 1) % n)) q :=
      fun j hj => (hdep j hj).mp (h j hj)
    by_cases hex : ∃ i, i < n ∧ sgn n (fun i => (x i, y i)) * side (x i, y i) (x ((i + 1) % n), y ((i + 1) % n)) q = 0
    · obtain ⟨i, hi, h0⟩ := hex
      exact Or.inl (on_edge_of_line hc hi h0 hall)
    · right
      exact par_inside hc fun i hi => lt_of_le_of_ne (hall i hi) fun h0 => hex ⟨i, hi, h0.symm⟩

/-- Segments that leave the set meet the boundary. -/
theorem crossing {v : Nat → ℝ × ℝ} {q r : ℝ × ℝ} (hq : Region n v q) (hr : ¬ Region n v r) :
    ∃ b, OnBoundary n v b ∧ OnEdge q r b := by
  by_contra hcon
  push Not at hcon
  have hoff : ∀ b, OnEdge q r b → ¬ OnBoundary n v b := fun b h1 h2 => hcon b h2 h1
  have hconn : IsPreconnected {b | OnEdge q r b} := by
    have : {b | OnEdge q r b} = (fun t : ℝ => ((q.1 + t * (r.1 - q.1), q.2 + t * (r.2 - q.2)) : ℝ × ℝ)) '' Set.Icc 0 1 := by
      ext b; constructor
      · rintro ⟨t, h0, h1, rfl⟩; exact ⟨t, ⟨h0, h1⟩, rfl⟩
      · rintro ⟨t, ⟨h0, h1⟩, rfl⟩; exact ⟨t, h0, h1, rfl⟩
    rw [this]
    exact isPreconnected_Icc.image _ (by fun_prop)
  have h := par_preconnected hconn hoff (onEdge_left q r) (onEdge_right q r)
  rcases hq with hq | hq
  · exact hoff q (onEdge_left q r) hq
  · exact hr (Or.inr (h ▸ hq))

theorem dist2_edge {q r b : ℝ × ℝ} (h : OnEdge q r b) : dist2 q b ≤ dist2 q r := by
  obtain ⟨t, h0, h1, rfl⟩ := h
  unfold dist2
  have e : (q.1 - (q.1 + t * (r.1 - q.1))) * (q.1 - (q.1 + t * (r.1 - q.1))) + (q.2 - (q.2 + t * (r.2 - q.2))) * (q.2 - (q.2 + t * (r.2 - q.2))) =
    t * t * ((q.1 - r.1) * (q.1 - r.1) + (q.2 - r.2) * (q.2 - r.2)) := by ring
  simp only
  rw [e]
  have : t * t ≤ 1 := by nlinarith
  have := dist2_nonneg q r
  unfold dist2 at this
  nlinarith

theorem lateral_le (p r : V3) : √(dist2 (p.x, p.y) (r.x, r.y)) ≤ V3.dist p r := by
  unfold V3.dist V3.dist2 dist2
  apply sqrt_le_sqrt
  simp only
  nlinarith [mul_self_nonneg (p.z - r.z)]

theorem lateral_sq (p r : V3) : dist2 (p.x, p.y) (r.x, r.y) ≤ V3.dist p r * V3.dist p r := by
  have h := lateral_le p r
  have := mul_self_le_mul_self (sqrt_nonneg _) h
  rwa [mul_self_sqrt (dist2_nonneg _ _)] at this

theorem height_le (p r : V3) : |p.z - r.z| ≤ V3.dist p r := V3.abs_z_le_dist p r

/-- A point far from the boundary is clear of it. -/
theorem clear_of_far {v : Nat → ℝ × ℝ} {q : ℝ × ℝ} (h : ∀ b, OnBoundary n v b → kTolerance * kTolerance ≤ dist2 q b) : Clear n v q := by
  intro y' hy hb
  have := h _ hb
  unfold dist2 at this
  simp only [sub_self, mul_zero, zero_add] at this
  rw [← abs_mul_abs_self (q.2 - y'), abs_sub_comm] at this
  have h2 := mul_le_mul hy hy (abs_nonneg _) (by positivity)
  unfold kTolerance at this
  norm_num at this h2
  linarith

theorem near_of_not_clear {v : Nat → ℝ × ℝ} {q : ℝ × ℝ} (h : ¬ Clear n v q) : ∃ b, OnBoundary n v b ∧ dist2 q b < kTolerance * kTolerance := by
  by_contra hcon
  push Not at hcon
  exact h (clear_of_far hcon)

theorem off_of_clear {v : Nat → ℝ × ℝ} {q : ℝ × ℝ} (h : Clear n v q) : ¬ OnBoundary n v q :=
  h q.2 (by rw [sub_self, abs_zero]; positivity)

/-- The general test of the polygon. -/
theorem Given.general (g : Given k n x y lo hi s) {q : ℝ × ℝ} (hc : Clear n (fun i => (x i, y i)) q) :
    containsVec k s.poly q.1 q.2 = true ↔ Region n (fun i => (x i, y i)) q := by
  obtain ⟨h, -, -⟩ := init_some g.poly.1
  rw [containsVec_eq, h, contains_par g.few hc, decide_eq_true_iff]
  unfold Region
  constructor
  · exact Or.inr
  · rintro (h | h)
    · exact absurd h (off_of_clear hc)
    · exact h

/-- The distance to the edges, as far as it is compared with the tolerance. -/
theorem Given.safety (g : Given k n x y lo hi s) (q : ℝ × ℝ) :
    ∃ r, safetySqr k s.poly q.1 q.2 = some r ∧ (∀ b, OnBoundary n (fun i => (x i, y i)) b → r.1 ≤ dist2 q b) ∧ 0 ≤ r.1 ∧
      (r.1 < kTolerance * kTolerance ↔ ∃ b, OnBoundary n (fun i => (x i, y i)) b ∧ dist2 q b < kTolerance * kTolerance) := by
  obtain ⟨r, id, h1, h2, h3⟩ := C94_distance_to_edges g.lanes g.few g.distinct g.poly.1 q
  refine ⟨(r, id), h1, h2, ?_, ?_, ?_⟩
  · rcases h3 with ⟨-, h⟩ | ⟨i, b, -, -, -, -, h | h⟩
    · rw [h]; positivity
    · rw [h]; exact dist2_nonneg _ _
    · rw [h.1]
  · intro hr
    rcases h3 with ⟨-, h⟩ | ⟨i, b, -, -, -, hb, h | h⟩
    · exfalso
      simp only [h] at hr
      unfold kTolerance at hr; norm_num at hr
    · exact ⟨b, hb, by simp only at hr; rwa [h] at hr⟩
    · exact ⟨b, hb, h.2⟩
  · rintro ⟨b, hb, h⟩
    exact lt_of_le_of_lt (h2 b hb) h

end SExtru
end VecGeom

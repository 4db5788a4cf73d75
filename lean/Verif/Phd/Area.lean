import Verif.Phd.Volume

/-!
# Polyhedra: area, extent, segments and triangles
-/

namespace VecGeom
namespace Phd

open Quad Real

/-! ## Area -/

theorem wall_area {m t r r' z z' : ℝ} (ht : 0 ≤ t) (hr : 0 ≤ r) (hr' : 0 ≤ r') :
    quadArea ![c0 m t r z, c1 m t r z, c1 m t r' z', c0 m t r' z'] = (r + r') * t * √((z' - z) ^ 2 + (r' - r) ^ 2) := by
  have e := sin_sq_add_cos_sq m
  have es : sin m ^ 2 = 1 - cos m ^ 2 := by linarith
  simp only [quadArea, triangleArea, Matrix.cons_val_zero, Matrix.cons_val_one, Matrix.cons_val]
  rw [mag_eq (b := 2 * (r * t)) (q := (z' - z) ^ 2 + (r' - r) ^ 2) (by positivity), mag_eq (b := 2 * (r' * t)) (q := (z' - z) ^ 2 + (r' - r) ^ 2) (by positivity)]
  · ring
  · simp only [V3.mag2, V3.cross, c0, c1, V3.sub_x, V3.sub_y, V3.sub_z, V3.dot]
    ring_nf
    simp only [show sin m ^ 4 = (sin m ^ 2) ^ 2 by ring, es]
    ring
  · simp only [V3.mag2, V3.cross, c0, c1, V3.sub_x, V3.sub_y, V3.sub_z, V3.dot]
    ring_nf
    simp only [show sin m ^ 4 = (sin m ^ 2) ^ 2 by ring, es]
    ring

theorem cut_area {m t i0 i1 o0 o1 z z' : ℝ} (h0 : i0 ≤ o0) (h1 : i1 ≤ o1) (hz : z ≤ z') :
    quadArea ![c0 m t i0 z, c0 m t i1 z', c0 m t o1 z', c0 m t o0 z] = (z' - z) * ((o0 - i0) + (o1 - i1)) / 2 * √(1 + t ^ 2) := by
  have e := sin_sq_add_cos_sq m
  have es : sin m ^ 2 = 1 - cos m ^ 2 := by linarith
  have k0 : 0 ≤ (z' - z) * (o0 - i0) := mul_nonneg (by linarith) (by linarith)
  have k1 : 0 ≤ (z' - z) * (o1 - i1) := mul_nonneg (by linarith) (by linarith)
  simp only [quadArea, triangleArea, Matrix.cons_val_zero, Matrix.cons_val_one, Matrix.cons_val]
  rw [mag_eq (b := (z' - z) * (o1 - i1)) (q := 1 + t ^ 2) k1, mag_eq (b := (z' - z) * (o0 - i0)) (q := 1 + t ^ 2) k0]
  · ring
  · simp only [V3.mag2, V3.cross, c0, V3.sub_x, V3.sub_y, V3.sub_z, V3.dot]
    ring_nf
    simp only [es]
    ring
  · simp only [V3.mag2, V3.cross, c0, V3.sub_x, V3.sub_y, V3.sub_z, V3.dot]
    ring_nf
    simp only [es]
    ring

theorem end_first {m t i o z : ℝ} (ht : 0 ≤ t) (hi : 0 ≤ i) (h : i ≤ o) :
    triArea (c0 m t o z) (c1 m t o z) (c0 m t i z) + triArea (c0 m t i z) (c1 m t i z) (c1 m t o z) = (o ^ 2 - i ^ 2) * t := by
  have e := sin_sq_add_cos_sq m
  have es : sin m ^ 2 = 1 - cos m ^ 2 := by linarith
  have ho : 0 ≤ o := hi.trans h
  have hd : 0 ≤ o - i := by linarith
  unfold triArea
  rw [mag_of_sq (b := 2 * (o * t * (o - i))) (by positivity), mag_of_sq (b := 2 * (i * t * (o - i))) (by positivity)]
  · ring
  · simp only [V3.mag2, V3.cross, c0, c1, V3.sub_x, V3.sub_y, V3.sub_z, V3.dot]
    ring_nf
    simp only [show sin m ^ 4 = (sin m ^ 2) ^ 2 by ring, es]
    ring
  · simp only [V3.mag2, V3.cross, c0, c1, V3.sub_x, V3.sub_y, V3.sub_z, V3.dot]
    ring_nf
    simp only [show sin m ^ 4 = (sin m ^ 2) ^ 2 by ring, es]
    ring

theorem end_last {m t i o z : ℝ} (ht : 0 ≤ t) (hi : 0 ≤ i) (h : i ≤ o) :
    triArea (c1 m t o z) (c0 m t o z) (c1 m t i z) + triArea (c1 m t i z) (c0 m t i z) (c0 m t o z) = (o ^ 2 - i ^ 2) * t := by
  have e := sin_sq_add_cos_sq m
  have es : sin m ^ 2 = 1 - cos m ^ 2 := by linarith
  have ho : 0 ≤ o := hi.trans h
  have hd : 0 ≤ o - i := by linarith
  unfold triArea
  rw [mag_of_sq (b := 2 * (o * t * (o - i))) (by positivity), mag_of_sq (b := 2 * (i * t * (o - i))) (by positivity)]
  · ring
  · simp only [V3.mag2, V3.cross, c0, c1, V3.sub_x, V3.sub_y, V3.sub_z, V3.dot]
    ring_nf
    simp only [show sin m ^ 4 = (sin m ^ 2) ^ 2 by ring, es]
    ring
  · simp only [V3.mag2, V3.cross, c0, c1, V3.sub_x, V3.sub_y, V3.sub_z, V3.dot]
    ring_nf
    simp only [show sin m ^ 4 = (sin m ^ 2) ^ 2 by ring, es]
    ring

/-- The area of one trapezoid: its parallel edges are `2 r tan (angle / 2)` long, and the distance of these edges is that of the points `(r, z)`. -/
noncomputable def Par.trapezoid (a : Par) (r : ℕ → ℝ) (k : ℕ) : ℝ :=
  (2 * r k * tan (a.angle / 2) + 2 * r (k + 1) * tan (a.angle / 2)) / 2 * √((a.z (k + 1) - a.z k) ^ 2 + (r (k + 1) - r k) ^ 2)

/-- The area of one cut: a trapezoid between the corners, which are at the distances `r / cos (angle / 2)` from the axis. -/
noncomputable def Par.cutArea (a : Par) (k : ℕ) : ℝ :=
  (a.z (k + 1) - a.z k) * ((a.rMax k - a.rMin k) / cos (a.angle / 2) + (a.rMax (k + 1) - a.rMin (k + 1)) / cos (a.angle / 2)) / 2

theorem inner_empty {a : Par} (h : a.Valid) {k : ℕ} (hk : k + 1 < a.nz) (hn : ¬ a.hasInner k) :
    (a.rMin k = 0 ∧ a.rMin (k + 1) = 0) ∨ (a.z k = a.z (k + 1) ∧ a.rMin k = a.rMin (k + 1)) := by
  unfold Par.hasInner at hn
  by_cases h1 : a.z k = a.z (k + 1) ∧ a.rMin k = a.rMin (k + 1)
  · exact Or.inr h1
  · left
    have i0 := h.rMin k (by omega)
    have i1 := h.rMin (k + 1) hk
    constructor
    · by_contra hne
      exact hn ⟨Or.inl (lt_of_le_of_ne i0 (Ne.symm hne)), h1⟩
    · by_contra hne
      exact hn ⟨Or.inr (lt_of_le_of_ne i1 (Ne.symm hne)), h1⟩

theorem half (a : Par) : a.angle / 2 = 0.5 * a.side := by rw [angle_eq]; ring

open Classical in
/-- `SurfaceArea` is the sum of the areas of the faces: the trapezoids of the outer and inner walls, the two cuts of a sector, and the two ends, if the
first two planes differ in height and the last two do. -/
theorem C202_area {a : Par} (h : a.Valid) (hf : a.z 0 < a.z 1) (hl : a.z (a.nz - 2) < a.z (a.nz - 1)) :
    a.surfaceArea = some (∑ k ∈ Finset.range (a.nz - 1),
        (a.n * a.trapezoid a.rMax k + a.n * a.trapezoid a.rMin k + if a.delta < 2 * π then 2 * a.cutArea k else 0)
      + a.n * (a.sideArea (a.rMax 0) - a.sideArea (a.rMin 0))
      + a.n * (a.sideArea (a.rMax (a.nz - 1)) - a.sideArea (a.rMin (a.nz - 1)))) := by
  have ht := (tan_pos' h).le
  have hnz := h.nz
  have hlast : a.nz - 2 + 1 = a.nz - 1 := by omega
  have w : ∀ k, k + 1 < a.nz → a.wall a.rMax k = ![c0 a.mid (tan (0.5 * a.side)) (a.rMax k) (a.z k), c1 a.mid (tan (0.5 * a.side)) (a.rMax k) (a.z k),
      c1 a.mid (tan (0.5 * a.side)) (a.rMax (k + 1)) (a.z (k + 1)), c0 a.mid (tan (0.5 * a.side)) (a.rMax (k + 1)) (a.z (k + 1))] := by
    intro k hk
    unfold Par.wall
    rw [(vertex_zero h (k := k) (by omega)).2, (vertex_one h (k := k) (by omega)).2, (vertex_zero h hk).2, (vertex_one h hk).2]
  have wi : ∀ k, k + 1 < a.nz → a.wall a.rMin k = ![c0 a.mid (tan (0.5 * a.side)) (a.rMin k) (a.z k), c1 a.mid (tan (0.5 * a.side)) (a.rMin k) (a.z k),
      c1 a.mid (tan (0.5 * a.side)) (a.rMin (k + 1)) (a.z (k + 1)), c0 a.mid (tan (0.5 * a.side)) (a.rMin (k + 1)) (a.z (k + 1))] := by
    intro k hk
    unfold Par.wall
    rw [(vertex_zero h (k := k) (by omega)).1, (vertex_one h (k := k) (by omega)).1, (vertex_zero h hk).1, (vertex_one h hk).1]
  have hcos := cos_pos' h
  have hsec : √(1 + tan (0.5 * a.side) ^ 2) = 1 / cos (0.5 * a.side) := by
    have e : 1 + tan (0.5 * a.side) ^ 2 = (1 / cos (0.5 * a.side)) ^ 2 := by
      rw [tan_eq_sin_div_cos]
      field_simp
      exact cos_sq_add_sin_sq _
    rw [e, sqrt_sq (by positivity)]
  unfold Par.surfaceArea
  rw [if_pos ⟨fun hh => hf.ne hh.1, fun hh => hl.ne (by rw [← hlast]; exact hh.1)⟩]
  congr 1
  congr 1
  · congr 1
    · refine Finset.sum_congr rfl fun k hk => ?_
      rw [Finset.mem_range] at hk
      have hk' : k + 1 < a.nz := by omega
      have hz := h.z k hk'
      have i0 := h.rMin k (by omega)
      have i1 := h.rMin (k + 1) hk'
      have o0 := h.le k (by omega)
      have o1 := h.le (k + 1) hk'
      congr 1
      · congr 1
        · rw [w k hk', wall_area ht (i0.trans o0) (i1.trans o1)]
          unfold Par.trapezoid
          rw [half]
          by_cases ho : a.hasOuter k
          · rw [if_pos ho]; ring
          · rw [if_neg ho]
            unfold Par.hasOuter at ho
            push Not at ho
            rw [ho.1, ho.2]; simp
        · rw [wi k hk', wall_area ht i0 i1]
          unfold Par.trapezoid
          rw [half]
          by_cases hi : a.hasInner k
          · rw [if_pos hi]; ring
          · rw [if_neg hi]
            rcases inner_empty h hk' hi with h0 | h0
            · rw [h0.1, h0.2]; simp
            · rw [h0.1, h0.2]; simp
      · have hc : quadArea (a.cut k) * 2 = 2 * a.cutArea k := by
          unfold Par.cut Par.cutArea
          rw [(vertex_zero h (k := k) (by omega)).2, (vertex_zero h (k := k) (by omega)).1, (vertex_zero h hk').2, (vertex_zero h hk').1,
            cut_area o0 o1 hz, hsec, half]
          ring
        by_cases hp : a.delta < 2 * π
        · rw [if_pos hp]
          by_cases he : a.z k = a.z (k + 1)
          · rw [if_neg (fun hh => hh.2 he)]
            unfold Par.cutArea
            rw [he]; simp
          · rw [if_pos ⟨hp, he⟩, hc]
        · rw [if_neg hp, if_neg (fun hh => hp hh.1)]
    · have h1 : 0 + 1 < a.nz := by omega
      rw [w 0 h1, wi 0 h1]
      unfold endArea Par.sideArea
      simp only [Matrix.cons_val_zero, Matrix.cons_val_one, Matrix.cons_val]
      rw [half]
      by_cases hi : a.hasInner 0
      · rw [if_pos hi, end_first ht (h.rMin 0 (by omega)) (h.le 0 (by omega))]; ring
      · rw [if_neg hi]
        have h0 : a.rMin 0 = 0 := by
          rcases inner_empty h h1 hi with h0 | h0
          · exact h0.1
          · exact absurd h0.1 hf.ne
        have e : (c0 a.mid (tan (0.5 * a.side)) (a.rMax 0) (a.z 0)).z = a.z 0 := rfl
        rw [e, tri_axis ht, h0]; ring
  · have h1 : a.nz - 2 + 1 < a.nz := by omega
    rw [w _ h1, wi _ h1]
    unfold endArea Par.sideArea
    simp only [Matrix.cons_val_zero, Matrix.cons_val_one, Matrix.cons_val]
    rw [half, hlast]
    by_cases hi : a.hasInner (a.nz - 2)
    · rw [if_pos hi, end_last ht (h.rMin _ (by omega)) (h.le _ (by omega))]; ring
    · rw [if_neg hi]
      have h0 : a.rMin (a.nz - 1) = 0 := by
        rcases inner_empty h h1 hi with h0 | h0
        · rw [← hlast]; exact h0.2
        · exact absurd (h0.1.trans (by rw [hlast])) hl.ne
      have e : (c1 a.mid (tan (0.5 * a.side)) (a.rMax (a.nz - 1)) (a.z (a.nz - 1))).z = a.z (a.nz - 1) := rfl
      rw [e, tri_axis' ht, h0]; ring

/-- If the bore begins at the height of the first plane, `SurfaceArea` reads the corners of an empty set of quadrilaterals. -/
theorem C202_first_counterexample : ∃ a : Par, 0 < a.delta ∧ 3 ≤ a.n ∧ 2 ≤ a.nz ∧ (∀ k, a.z k ≤ a.z (k + 1)) ∧ (∀ k, 0 ≤ a.rMin k ∧ a.rMin k < a.rMax k) ∧
    a.surfaceArea = none := by
  refine ⟨⟨0, 7, 4, 3, fun k => if k ≤ 1 then 0 else 1, fun k => if k = 0 then 0 else 1, fun _ => 2⟩, by norm_num, by norm_num, by norm_num, ?_, ?_, ?_⟩
  · intro k
    dsimp only
    split_ifs <;> first | (exfalso; omega) | norm_num
  · intro k
    dsimp only
    split_ifs <;> norm_num
  · unfold Par.surfaceArea Par.hasOuter
    simp

/-! ## A polyhedron that meets the hypotheses -/

/-- Four sides around, a bore of radius one, radii two, three and four at the heights zero, one and two. -/
noncomputable def hollow : Par := ⟨π / 4, 9, 4, 3, fun k => k, fun _ => 1, fun k => k + 2⟩

theorem hollow_side : hollow.side = π / 2 := by
  have : (9 : ℝ) > 2 * π := by linarith [pi_le_four]
  unfold Par.side Par.dphi hollow
  rw [if_pos this]
  push_cast; ring

theorem hollow_raw (r : ℕ → ℝ) (k : ℕ) : hollow.raw r k 0 = ⟨r k, r k, k⟩ ∧ hollow.raw r k 1 = ⟨-r k, r k, k⟩ := by
  have hc : cos (0.5 * (π / 2)) = √2 / 2 := by rw [show 0.5 * (π / 2) = π / 4 by ring, cos_pi_div_four]
  have hs : (√2 : ℝ) ≠ 0 := by positivity
  have e0 : hollow.phi 0 = π / 4 := by simp [Par.phi, hollow]
  have e1 : hollow.phi 1 = π - π / 4 := by
    unfold Par.phi
    rw [if_neg (by rintro ⟨-, h⟩; exact absurd h (by decide)), hollow_side]
    simp only [hollow]
    push_cast; ring
  unfold Par.raw
  rw [hollow_side, hc, e0, e1, cos_pi_sub, sin_pi_sub, cos_pi_div_four, sin_pi_div_four]
  constructor <;> congr 1 <;> field_simp

theorem hollow_valid : hollow.Valid where
  delta := by norm_num [hollow]
  n := by norm_num [hollow]
  side := by rw [angle_eq, hollow_side]; linarith [pi_pos]
  nz := by norm_num [hollow]
  z := by intro k _; simp [hollow]
  rMin := by intro k _; simp [hollow]
  le := by
    intro k _
    simp only [hollow]
    have : (0 : ℝ) ≤ k := by positivity
    linarith
  clean := by
    have tol : kTolerance ≤ 1 := by norm_num [kTolerance]
    have key : ∀ (r : ℕ → ℝ) (k j : ℕ), 1 ≤ r k → j ≤ 1 → Clean (hollow.raw r k j) := by
      intro r k j hr hj
      have hk : (k : ℝ) = 0 ∨ kTolerance ≤ |(k : ℝ)| := by
        rcases Nat.eq_zero_or_pos k with h | h
        · left; exact_mod_cast h
        · right
          rw [abs_of_nonneg (by positivity)]
          have : (1 : ℝ) ≤ k := by exact_mod_cast h
          linarith
      have h1 : kTolerance ≤ |r k| := by rw [abs_of_nonneg (by linarith)]; linarith
      interval_cases j
      · rw [(hollow_raw r k).1]; exact ⟨Or.inr h1, Or.inr h1, hk⟩
      · rw [(hollow_raw r k).2]; exact ⟨Or.inr (by rw [abs_neg]; exact h1), Or.inr h1, hk⟩
    intro k _ j hj
    refine ⟨key _ k j (by simp [hollow]) hj, key _ k j ?_ hj⟩
    simp only [hollow]
    have : (0 : ℝ) ≤ k := by positivity
    linarith

example : hollow.Valid ∧ hollow.z 0 < hollow.z 1 ∧ hollow.z (hollow.nz - 2) < hollow.z (hollow.nz - 1) ∧ 0 < hollow.rMin 0 := by
  refine ⟨hollow_valid, ?_, ?_, ?_⟩ <;> norm_num [hollow]

/-! ## Extent -/

/-- The points of the polyhedron: on side `j`, at the share `s` between its corner directions, at a height between two planes, at a radius (the distance of
the parallel to the side from the axis) between those of the inner and the outer wall. -/
def Par.Body (a : Par) (p : V3) : Prop :=
  ∃ j k : ℕ, ∃ s t ρ : ℝ, j < a.n ∧ k + 1 < a.nz ∧ 0 ≤ s ∧ s ≤ 1 ∧ 0 ≤ t ∧ t ≤ 1 ∧
    (1 - t) * a.rMin k + t * a.rMin (k + 1) ≤ ρ ∧ ρ ≤ (1 - t) * a.rMax k + t * a.rMax (k + 1) ∧
    p.z = (1 - t) * a.z k + t * a.z (k + 1) ∧
    p.x = ρ / cos (a.angle / 2) * ((1 - s) * cos (a.start + j * a.angle) + s * cos (a.start + (j + 1) * a.angle)) ∧
    p.y = ρ / cos (a.angle / 2) * ((1 - s) * sin (a.start + j * a.angle) + s * sin (a.start + (j + 1) * a.angle))

/-- In the box, ends included. -/
def InBox (b : V3 × V3) (p : V3) : Prop := (b.1.x ≤ p.x ∧ p.x ≤ b.2.x) ∧ (b.1.y ≤ p.y ∧ p.y ≤ b.2.y) ∧ (b.1.z ≤ p.z ∧ p.z ≤ b.2.z)

theorem grow_mono (l : List V3) (b : V3 × V3) (p : V3) (h : InBox b p) : InBox (l.foldl grow b) p := by
  induction l generalizing b with
  | nil => exact h
  | cons c l ih =>
    apply ih
    obtain ⟨⟨h1, h2⟩, ⟨h3, h4⟩, h5, h6⟩ := h
    exact ⟨⟨(min_le_left _ _).trans h1, h2.trans (le_max_left _ _)⟩, ⟨(min_le_left _ _).trans h3, h4.trans (le_max_left _ _)⟩,
      (min_le_left _ _).trans h5, h6.trans (le_max_left _ _)⟩

theorem grow_mem (l : List V3) (b : V3 × V3) {c : V3} (hc : c ∈ l) : InBox (l.foldl grow b) c := by
  induction l generalizing b with
  | nil => cases hc
  | cons c' l ih =>
    rcases List.mem_cons.1 hc with rfl | hc
    · exact grow_mono l _ _ ⟨⟨min_le_right _ _, le_max_right _ _⟩, ⟨min_le_right _ _, le_max_right _ _⟩, min_le_right _ _, le_max_right _ _⟩
    · exact ih _ hc

/-- A bound below all corners (and the start) is below the low end. -/
theorem grow_tight (l : List V3) (b c : V3 × V3) (hb : c.1.x ≤ b.1.x ∧ c.1.y ≤ b.1.y ∧ c.1.z ≤ b.1.z ∧ b.2.x ≤ c.2.x ∧ b.2.y ≤ c.2.y ∧ b.2.z ≤ c.2.z)
    (h : ∀ v ∈ l, InBox c v) :
    let r := l.foldl grow b
    c.1.x ≤ r.1.x ∧ c.1.y ≤ r.1.y ∧ c.1.z ≤ r.1.z ∧ r.2.x ≤ c.2.x ∧ r.2.y ≤ c.2.y ∧ r.2.z ≤ c.2.z := by
  induction l generalizing b with
  | nil => exact hb
  | cons v l ih =>
    obtain ⟨⟨h1, h2⟩, ⟨h3, h4⟩, h5, h6⟩ := h v (by simp)
    obtain ⟨b1, b2, b3, b4, b5, b6⟩ := hb
    exact ih _ ⟨le_min b1 h1, le_min b2 h3, le_min b3 h5, max_le b4 h2, max_le b5 h4, max_le b6 h6⟩ fun w hw => h w (by simp [hw])

theorem mem_corners {a : Par} {v : V3} : v ∈ a.corners ↔ ∃ j k, j ≤ a.n ∧ k < a.nz ∧ (v = a.corner a.rMin j k ∨ v = a.corner a.rMax j k) := by
  unfold Par.corners
  simp only [List.mem_flatMap, List.mem_range, List.mem_cons, List.not_mem_nil, or_false]
  constructor
  · rintro ⟨j, hj, k, hk, h⟩
    exact ⟨j, k, by omega, hk, h⟩
  · rintro ⟨j, k, hj, hk, h⟩
    exact ⟨j, by omega, k, hk, h⟩

theorem lerp_mem {m M x y t : ℝ} (hx : m ≤ x ∧ x ≤ M) (hy : m ≤ y ∧ y ≤ M) (h0 : 0 ≤ t) (h1 : t ≤ 1) : m ≤ (1 - t) * x + t * y ∧ (1 - t) * x + t * y ≤ M := by
  constructor
  · nlinarith [mul_le_mul_of_nonneg_left hx.1 (show 0 ≤ 1 - t by linarith), mul_le_mul_of_nonneg_left hy.1 h0]
  · nlinarith [mul_le_mul_of_nonneg_left hx.2 (show 0 ≤ 1 - t by linarith), mul_le_mul_of_nonneg_left hy.2 h0]

/-- A product whose first factor is between two numbers is between the two products. -/
theorem between {m M ρ0 ρ1 ρ w : ℝ} (h0 : m ≤ ρ0 * w ∧ ρ0 * w ≤ M) (h1 : m ≤ ρ1 * w ∧ ρ1 * w ≤ M) (a : ρ0 ≤ ρ) (b : ρ ≤ ρ1) : m ≤ ρ * w ∧ ρ * w ≤ M := by
  rcases le_total 0 w with hw | hw
  · exact ⟨h0.1.trans (mul_le_mul_of_nonneg_right a hw), (mul_le_mul_of_nonneg_right b hw).trans h1.2⟩
  · exact ⟨h1.1.trans (mul_le_mul_of_nonpos_right b hw), (mul_le_mul_of_nonpos_right a hw).trans h0.2⟩

/-- A coordinate of a point of a side is between the bounds for the coordinates of the eight corners. -/
theorem coord_mem {m M i0 i1 o0 o1 u v s t ρ : ℝ} (hs : 0 ≤ s) (hs1 : s ≤ 1) (ht : 0 ≤ t) (ht1 : t ≤ 1)
    (hi : (1 - t) * i0 + t * i1 ≤ ρ) (ho : ρ ≤ (1 - t) * o0 + t * o1)
    (a1 : m ≤ i0 * u ∧ i0 * u ≤ M) (a2 : m ≤ i0 * v ∧ i0 * v ≤ M) (a3 : m ≤ i1 * u ∧ i1 * u ≤ M) (a4 : m ≤ i1 * v ∧ i1 * v ≤ M)
    (b1 : m ≤ o0 * u ∧ o0 * u ≤ M) (b2 : m ≤ o0 * v ∧ o0 * v ≤ M) (b3 : m ≤ o1 * u ∧ o1 * u ≤ M) (b4 : m ≤ o1 * v ∧ o1 * v ≤ M) :
    m ≤ ρ * ((1 - s) * u + s * v) ∧ ρ * ((1 - s) * u + s * v) ≤ M := by
  refine between ?_ ?_ hi ho
  · have := lerp_mem (lerp_mem a1 a2 hs hs1) (lerp_mem a3 a4 hs hs1) ht ht1
    rw [show ((1 - t) * i0 + t * i1) * ((1 - s) * u + s * v) = (1 - t) * ((1 - s) * (i0 * u) + s * (i0 * v)) + t * ((1 - s) * (i1 * u) + s * (i1 * v)) by ring]
    exact this
  · have := lerp_mem (lerp_mem b1 b2 hs hs1) (lerp_mem b3 b4 hs hs1) ht ht1
    rw [show ((1 - t) * o0 + t * o1) * ((1 - s) * u + s * v) = (1 - t) * ((1 - s) * (o0 * u) + s * (o0 * v)) + t * ((1 - s) * (o1 * u) + s * (o1 * v)) by ring]
    exact this

/-- Every point of the polyhedron is in the box of `Extent`. -/
theorem C203_extent (a : Par) {p : V3} (hp : a.Body p) : InBox a.extent p := by
  obtain ⟨j, k, s, t, ρ, hj, hk, hs, hs1, ht, ht1, hi, ho, hz, hx, hy⟩ := hp
  have mem : ∀ j' k', j' ≤ a.n → k' < a.nz → InBox a.extent (a.corner a.rMin j' k') ∧ InBox a.extent (a.corner a.rMax j' k') := fun j' k' hj' hk' =>
    ⟨grow_mem _ _ (mem_corners.2 ⟨j', k', hj', hk', Or.inl rfl⟩), grow_mem _ _ (mem_corners.2 ⟨j', k', hj', hk', Or.inr rfl⟩)⟩
  have e1 := mem j k (by omega) (by omega)
  have e2 := mem (j + 1) k (by omega) (by omega)
  have e3 := mem j (k + 1) (by omega) hk
  have e4 := mem (j + 1) (k + 1) (by omega) hk
  generalize a.extent = b at *
  simp only [InBox, Par.corner, Nat.cast_add, Nat.cast_one] at e1 e2 e3 e4
  rw [half, angle_eq] at hx hy
  refine ⟨?_, ?_, ?_⟩
  · rw [hx, show ρ / cos (0.5 * a.side) * ((1 - s) * cos (a.start + j * a.side) + s * cos (a.start + (j + 1) * a.side)) =
      ρ * ((1 - s) * (1 / cos (0.5 * a.side) * cos (a.start + j * a.side)) + s * (1 / cos (0.5 * a.side) * cos (a.start + (j + 1) * a.side))) by ring]
    exact coord_mem hs hs1 ht ht1 hi ho e1.1.1 e2.1.1 e3.1.1 e4.1.1 e1.2.1 e2.2.1 e3.2.1 e4.2.1
  · rw [hy, show ρ / cos (0.5 * a.side) * ((1 - s) * sin (a.start + j * a.side) + s * sin (a.start + (j + 1) * a.side)) =
      ρ * ((1 - s) * (1 / cos (0.5 * a.side) * sin (a.start + j * a.side)) + s * (1 / cos (0.5 * a.side) * sin (a.start + (j + 1) * a.side))) by ring]
    exact coord_mem hs hs1 ht ht1 hi ho e1.1.2.1 e2.1.2.1 e3.1.2.1 e4.1.2.1 e1.2.2.1 e2.2.2.1 e3.2.2.1 e4.2.2.1
  · rw [hz]
    exact lerp_mem e1.1.2.2 e3.1.2.2 ht ht1

/-- The middle of the first corner of `hollow` is a point of it. -/
example : hollow.Body ⟨3 / 2, 3 / 2, 0⟩ := by
  have hc' : cos (0.5 * (π / 2)) = √2 / 2 := by rw [show 0.5 * (π / 2) = π / 4 by ring, cos_pi_div_four]
  have hs : (√2 : ℝ) ≠ 0 := by positivity
  refine ⟨0, 0, 0, 0, 3 / 2, by norm_num [hollow], by norm_num [hollow], le_refl _, zero_le_one, le_refl _, zero_le_one, ?_, ?_, ?_, ?_, ?_⟩
  · norm_num [hollow]
  · norm_num [hollow]
  · norm_num [hollow]
  · rw [half, angle_eq, hollow_side, hc']
    simp only [hollow]
    norm_num
  · rw [half, angle_eq, hollow_side, hc']
    simp only [hollow]
    norm_num

theorem corner_body {a : Par} {j k : ℕ} (hn : 0 < a.n) (hnz : 2 ≤ a.nz) (hj : j ≤ a.n) (hk : k < a.nz) (hle : ∀ k, k < a.nz → a.rMin k ≤ a.rMax k) :
    a.Body (a.corner a.rMin j k) ∧ a.Body (a.corner a.rMax j k) := by
  obtain ⟨j', s, hj', hs0, hs1, hs⟩ : ∃ (j' : ℕ) (s : ℝ), j' < a.n ∧ 0 ≤ s ∧ s ≤ 1 ∧ ((j = j' ∧ s = 0) ∨ (j = j' + 1 ∧ s = 1)) := by
    rcases Nat.lt_or_ge j a.n with h | h
    · exact ⟨j, 0, h, le_refl _, zero_le_one, Or.inl ⟨rfl, rfl⟩⟩
    · exact ⟨j - 1, 1, by omega, zero_le_one, le_refl _, Or.inr ⟨by omega, rfl⟩⟩
  obtain ⟨k', t, hk', ht0, ht1, ht⟩ : ∃ (k' : ℕ) (t : ℝ), k' + 1 < a.nz ∧ 0 ≤ t ∧ t ≤ 1 ∧ ((k = k' ∧ t = 0) ∨ (k = k' + 1 ∧ t = 1)) := by
    rcases Nat.lt_or_ge (k + 1) a.nz with h | h
    · exact ⟨k, 0, h, le_refl _, zero_le_one, Or.inl ⟨rfl, rfl⟩⟩
    · exact ⟨k - 1, 1, by omega, zero_le_one, le_refl _, Or.inr ⟨by omega, rfl⟩⟩
  have lin : ∀ f : ℕ → ℝ, (1 - t) * f k' + t * f (k' + 1) = f k := by
    intro f
    rcases ht with ⟨rfl, rfl⟩ | ⟨rfl, rfl⟩ <;> ring
  have ang : ∀ f : ℝ → ℝ, (1 - s) * f (a.start + j' * a.side) + s * f (a.start + (j' + 1) * a.side) = f (a.start + j * a.side) := by
    intro f
    rcases hs with ⟨rfl, rfl⟩ | ⟨rfl, rfl⟩ <;> push_cast <;> ring
  have hl := hle k hk
  constructor
  · refine ⟨j', k', s, t, a.rMin k, hj', hk', hs0, hs1, ht0, ht1, (lin _).le, by rw [lin]; exact hl, (lin _).symm, ?_, ?_⟩
    · rw [half, angle_eq, ang]; simp only [Par.corner]; ring
    · rw [half, angle_eq, ang]; simp only [Par.corner]; ring
  · refine ⟨j', k', s, t, a.rMax k, hj', hk', hs0, hs1, ht0, ht1, by rw [lin]; exact hl, (lin _).symm.le, (lin _).symm, ?_, ?_⟩
    · rw [half, angle_eq, ang]; simp only [Par.corner]; ring
    · rw [half, angle_eq, ang]; simp only [Par.corner]; ring

/-- The box of `Extent` is the smallest one: it lies in every box (of sides below `kInfLength`) that contains the polyhedron. -/
theorem C203_tight (a : Par) (hn : 0 < a.n) (hnz : 2 ≤ a.nz) (hle : ∀ k, k < a.nz → a.rMin k ≤ a.rMax k) (c : V3 × V3)
    (hc : c.1.x ≤ kInfLength ∧ c.1.y ≤ kInfLength ∧ c.1.z ≤ kInfLength ∧ -kInfLength ≤ c.2.x ∧ -kInfLength ≤ c.2.y ∧ -kInfLength ≤ c.2.z)
    (h : ∀ p, a.Body p → InBox c p) :
    c.1.x ≤ a.extent.1.x ∧ c.1.y ≤ a.extent.1.y ∧ c.1.z ≤ a.extent.1.z ∧ a.extent.2.x ≤ c.2.x ∧ a.extent.2.y ≤ c.2.y ∧ a.extent.2.z ≤ c.2.z := by
  refine grow_tight a.corners _ c hc ?_
  intro v hv
  obtain ⟨j, k, hj, hk, rfl | rfl⟩ := mem_corners.1 hv
  · exact h _ (corner_body hn hnz hj hk hle).1
  · exact h _ (corner_body hn hnz hj hk hle).2

/-! ## Segments and triangles -/

/-- The distance to a segment is right for points in the plane through the first end across the segment, and for a segment of no length. -/
theorem C204_segment_partial (v1 v2 p : V3) (h : (p - v1).dot (v2 - v1) = 0) (x : V3) (hx : ∃ t : ℝ, 0 ≤ t ∧ t ≤ 1 ∧ x = v1 + V3.smul t (v2 - v1)) :
    distanceSquare v1 v2 p = (p - v1).mag2 ∧ distanceSquare v1 v2 p ≤ V3.dist2 p x := by
  have key : distanceSquare v1 v2 p = (p - v1).mag2 := by
    unfold distanceSquare
    have e : (p - v1).dot (v1 - v2) = 0 := by
      simp only [V3.dot, V3.sub_x, V3.sub_y, V3.sub_z] at h ⊢
      linarith
    by_cases h0 : (v1 - v2).mag2 = 0
    · simp only [h0, if_true]
      simp only [V3.mag2, V3.dot, V3.sub_x, V3.sub_y, V3.sub_z] at h0 ⊢
      have hx : v1.x - v2.x = 0 := by nlinarith [sq_nonneg (v1.x - v2.x), sq_nonneg (v1.y - v2.y), sq_nonneg (v1.z - v2.z)]
      have hy : v1.y - v2.y = 0 := by nlinarith [sq_nonneg (v1.x - v2.x), sq_nonneg (v1.y - v2.y), sq_nonneg (v1.z - v2.z)]
      have hz : v1.z - v2.z = 0 := by nlinarith [sq_nonneg (v1.x - v2.x), sq_nonneg (v1.y - v2.y), sq_nonneg (v1.z - v2.z)]
      rw [sub_eq_zero.1 hx, sub_eq_zero.1 hy, sub_eq_zero.1 hz]
    · simp only [h0, if_false, e, zero_div, lt_irrefl, zero_le_one, if_true, zero_mul, sub_zero]
  refine ⟨key, ?_⟩
  rw [key]
  obtain ⟨t, h0, h1, rfl⟩ := hx
  simp only [V3.mag2, V3.dist2, V3.dot, V3.sub_x, V3.sub_y, V3.sub_z, V3.add_x, V3.add_y, V3.add_z, V3.smul_x, V3.smul_y, V3.smul_z] at h ⊢
  nlinarith [sq_nonneg (t * (v2.x - v1.x)), sq_nonneg (t * (v2.y - v1.y)), sq_nonneg (t * (v2.z - v1.z))]

/-- The sign of the projection is wrong: for a point of a segment, a quarter along, the answer is the square of the distance to its first end, and for a point
beyond the first end it is zero. -/
theorem C204_segment_counterexample : ∃ v1 v2 p q : V3, p = v1 + V3.smul (1 / 4) (v2 - v1) ∧ distanceSquare v1 v2 p = 1 ∧
    (∀ t : ℝ, 0 ≤ t → 1 ≤ V3.dist2 q (v1 + V3.smul t (v2 - v1))) ∧ distanceSquare v1 v2 q = 0 := by
  refine ⟨⟨0, 0, 0⟩, ⟨4, 0, 0⟩, ⟨1, 0, 0⟩, ⟨-1, 0, 0⟩, ?_, ?_, ?_, ?_⟩
  · ext <;> simp
  · simp [distanceSquare, V3.mag2, V3.dot]; norm_num
  · intro t ht
    simp only [V3.dist2, V3.sub_x, V3.sub_y, V3.sub_z, V3.add_x, V3.add_y, V3.add_z, V3.smul_x, V3.smul_y, V3.smul_z]
    nlinarith
  · simp [distanceSquare, V3.mag2, V3.dot]; norm_num

/-- The test for a triangle answers yes for a point far away from the plane of the triangle and no for a point inside. -/
theorem C204_triangle_counterexample : ∃ v1 v2 v3 p q : V3, p = v1 + V3.smul (1 / 4) (v2 - v1) + V3.smul (1 / 4) (v3 - v1) ∧ insideTriangle v1 v2 v3 p = false ∧
    v1.z = 0 ∧ v2.z = 0 ∧ v3.z = 0 ∧ q.z = 100 ∧ insideTriangle v1 v2 v3 q = true := by
  refine ⟨⟨0, 0, 0⟩, ⟨4, 0, 0⟩, ⟨0, 4, 0⟩, ⟨1, 1, 0⟩, ⟨1, 1, 100⟩, ?_, ?_, rfl, rfl, rfl, rfl, ?_⟩
  · ext <;> simp
  · simp [insideTriangle, distanceSquare, V3.mag2, V3.dot]; norm_num
  · simp [insideTriangle, V3.dot]; norm_num

end Phd
end VecGeom

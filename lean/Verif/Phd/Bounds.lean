import Verif.Phd.Area

/-!
# Polyhedra: the bounding tube
-/

namespace VecGeom
namespace Phd

open Quad Real

/-! ## Model -/

open Classical in
/-- `innerRadius` (PolyhedronStruct.h:340-350). -/
noncomputable def Par.innerRadius (a : Par) : ℝ := (List.range a.nz).foldl (fun r k => if a.rMin k < r then a.rMin k else r) kInfLength

open Classical in
/-- `outerRadius` (PolyhedronStruct.h:340-353). -/
noncomputable def Par.outerRadius (a : Par) : ℝ :=
  (List.range a.nz).foldl (fun r k => if a.rMax k > r then a.rMax k else r) (-kInfLength) / cos (0.5 * a.side)

/-- `fRmin` of the bounding tube (PolyhedronStruct.h:368-369). -/
noncomputable def Par.tubeMin (a : Par) : ℝ := a.innerRadius - kHalfTolerance

/-- `fRmax` of the bounding tube (PolyhedronStruct.h:368-369). -/
noncomputable def Par.tubeMax (a : Par) : ℝ := a.outerRadius + kHalfTolerance

/-- `boundingTubeZ` (PolyhedronStruct.h:356). -/
noncomputable def Par.tubeZ (a : Par) : ℝ := 0.5 * (a.z (a.nz - 1) - a.z 0) + kTolerance

/-- `fBoundingTubeOffset` (PolyhedronStruct.h:372). -/
noncomputable def Par.tubeOffset (a : Par) : ℝ := 0.5 * (a.z 0 + a.z (a.nz - 1))

/-! ## The tube holds the polyhedron -/

theorem fold_min (f : ℕ → ℝ) (l : List ℕ) (r0 : ℝ) :
    (open Classical in l.foldl (fun r k => if f k < r then f k else r) r0) ≤ r0 ∧ ∀ k ∈ l, (open Classical in l.foldl (fun r k => if f k < r then f k else r) r0) ≤ f k := by
  induction l generalizing r0 with
  | nil => exact ⟨le_refl _, fun k hk => by cases hk⟩
  | cons c l ih =>
    obtain ⟨h1, h2⟩ := ih (open Classical in if f c < r0 then f c else r0)
    have e : (open Classical in if f c < r0 then f c else r0) ≤ r0 ∧ (open Classical in if f c < r0 then f c else r0) ≤ f c := by
      split
      · next h => exact ⟨h.le, le_refl _⟩
      · next h => exact ⟨le_refl _, not_lt.1 h⟩
    refine ⟨h1.trans e.1, fun k hk => ?_⟩
    rcases List.mem_cons.1 hk with rfl | hk
    · exact h1.trans e.2
    · exact h2 k hk

theorem fold_max (f : ℕ → ℝ) (l : List ℕ) (r0 : ℝ) :
    r0 ≤ (open Classical in l.foldl (fun r k => if f k > r then f k else r) r0) ∧ ∀ k ∈ l, f k ≤ (open Classical in l.foldl (fun r k => if f k > r then f k else r) r0) := by
  induction l generalizing r0 with
  | nil => exact ⟨le_refl _, fun k hk => by cases hk⟩
  | cons c l ih =>
    obtain ⟨h1, h2⟩ := ih (open Classical in if f c > r0 then f c else r0)
    have e : r0 ≤ (open Classical in if f c > r0 then f c else r0) ∧ f c ≤ (open Classical in if f c > r0 then f c else r0) := by
      split
      · next h => exact ⟨le_of_lt h, le_refl _⟩
      · next h => exact ⟨le_refl _, not_lt.1 h⟩
    refine ⟨e.1.trans h1, fun k hk => ?_⟩
    rcases List.mem_cons.1 hk with rfl | hk
    · exact e.2.trans h1
    · exact h2 k hk

/-- The distance of a point of a side from the axis is at least that of the side and at most that of its corners. -/
theorem side_radius {ρ h m s : ℝ} (hρ : 0 ≤ ρ) (hc : 0 < cos h) (hs : 0 ≤ s) (hs1 : s ≤ 1) :
    ρ ^ 2 ≤ (ρ / cos h * ((1 - s) * cos (m - h) + s * cos (m + h))) ^ 2 + (ρ / cos h * ((1 - s) * sin (m - h) + s * sin (m + h))) ^ 2 ∧
    (ρ / cos h * ((1 - s) * cos (m - h) + s * cos (m + h))) ^ 2 + (ρ / cos h * ((1 - s) * sin (m - h) + s * sin (m + h))) ^ 2 ≤ (ρ / cos h) ^ 2 := by
  have em := sin_sq_add_cos_sq m
  have eh := sin_sq_add_cos_sq h
  have hρ' : ρ = ρ / cos h * cos h := by field_simp
  have key : (ρ / cos h * ((1 - s) * cos (m - h) + s * cos (m + h))) ^ 2 + (ρ / cos h * ((1 - s) * sin (m - h) + s * sin (m + h))) ^ 2 =
      (ρ / cos h) ^ 2 * (cos h ^ 2 + (1 - 2 * s) ^ 2 * sin h ^ 2) := by
    rw [cos_sub, cos_add, sin_sub, sin_add]
    linear_combination (ρ / cos h) ^ 2 * (cos h ^ 2 + (1 - 2 * s) ^ 2 * sin h ^ 2) * em
  rw [key]
  have hq := sq_nonneg (ρ / cos h)
  constructor
  · calc ρ ^ 2 = (ρ / cos h) ^ 2 * cos h ^ 2 := by rw [← mul_pow, ← hρ']
      _ ≤ _ := mul_le_mul_of_nonneg_left (by nlinarith [mul_nonneg (sq_nonneg (1 - 2 * s)) (sq_nonneg (sin h))]) hq
  · have h1 : (1 - 2 * s) ^ 2 ≤ 1 := by nlinarith
    calc _ ≤ (ρ / cos h) ^ 2 * 1 := mul_le_mul_of_nonneg_left (by nlinarith [mul_le_mul_of_nonneg_right h1 (sq_nonneg (sin h))]) hq
      _ = _ := mul_one _

theorem z_mono {a : Par} (h : ∀ k, k + 1 < a.nz → a.z k ≤ a.z (k + 1)) {i j : ℕ} (hij : i ≤ j) (hj : j < a.nz) : a.z i ≤ a.z j := by
  induction j with
  | zero => rw [Nat.le_zero.1 hij]
  | succ j ih =>
    rcases Nat.lt_or_ge i (j + 1) with hlt | hge
    · exact (ih (by omega) (by omega)).trans (h j hj)
    · rw [show i = j + 1 by omega]

/-- Every point of the polyhedron is in the bounding tube, strictly: between its radii and within its length around the offset. -/
theorem C206_tube {a : Par} (hd : 0 < a.delta) (hn : 0 < a.n) (hside : a.angle < π) (hz : ∀ k, k + 1 < a.nz → a.z k ≤ a.z (k + 1))
    (hr : ∀ k, k < a.nz → 0 ≤ a.rMin k) {p : V3} (hp : a.Body p) :
    a.tubeMin < √(p.x ^ 2 + p.y ^ 2) ∧ √(p.x ^ 2 + p.y ^ 2) < a.tubeMax ∧ |p.z - a.tubeOffset| < a.tubeZ := by
  have hpos : 0 < a.side := div_pos (dphi_pos hd) (by exact_mod_cast hn)
  rw [angle_eq] at hside
  have hc : 0 < cos (0.5 * a.side) := cos_pos_of_mem_Ioo ⟨by linarith [pi_pos], by linarith⟩
  have ht : 0 < kHalfTolerance := by norm_num [kHalfTolerance, kTolerance]
  have htt := kTolerance_pos
  obtain ⟨j, k, s, t, ρ, hj, hk, hs, hs1, h0, h1, hi, ho, ez, ex, ey⟩ := hp
  have i0 := hr k (by omega)
  have i1 := hr (k + 1) hk
  have w0 : 0 ≤ 1 - t := by linarith
  have hρ : 0 ≤ ρ := le_trans (add_nonneg (mul_nonneg w0 i0) (mul_nonneg h0 i1)) hi
  have hin : a.innerRadius ≤ ρ := by
    have f := (fold_min a.rMin (List.range a.nz) kInfLength).2
    have f0 := f k (List.mem_range.2 (by omega))
    have f1 := f (k + 1) (List.mem_range.2 hk)
    have : a.innerRadius ≤ (1 - t) * a.rMin k + t * a.rMin (k + 1) := by
      have g0 := mul_le_mul_of_nonneg_left f0 w0
      have g1 := mul_le_mul_of_nonneg_left f1 h0
      unfold Par.innerRadius
      linarith
    exact this.trans hi
  have hout : ρ / cos (0.5 * a.side) ≤ a.outerRadius := by
    have f := (fold_max a.rMax (List.range a.nz) (-kInfLength)).2
    have f0 := f k (List.mem_range.2 (by omega))
    have f1 := f (k + 1) (List.mem_range.2 hk)
    unfold Par.outerRadius
    refine div_le_div_of_nonneg_right ?_ hc.le
    have g0 := mul_le_mul_of_nonneg_left f0 w0
    have g1 := mul_le_mul_of_nonneg_left f1 h0
    linarith
  have hh := side_radius (m := a.start + (j + 0.5) * a.side) hρ hc hs hs1
  rw [show a.start + (j + 0.5) * a.side - 0.5 * a.side = a.start + j * a.side by ring,
    show a.start + (j + 0.5) * a.side + 0.5 * a.side = a.start + (j + 1) * a.side by ring] at hh
  rw [half, angle_eq] at ex ey
  rw [← ex, ← ey] at hh
  refine ⟨?_, ?_, ?_⟩
  · have : ρ ≤ √(p.x ^ 2 + p.y ^ 2) := le_sqrt_of_sq_le hh.1
    unfold Par.tubeMin
    linarith
  · have : √(p.x ^ 2 + p.y ^ 2) ≤ ρ / cos (0.5 * a.side) := sqrt_le_iff.2 ⟨by positivity, hh.2⟩
    unfold Par.tubeMax
    linarith
  · have e0 := z_mono hz (i := 0) (j := k) (by omega) (by omega)
    have e1 := z_mono hz (i := k + 1) (j := a.nz - 1) (by omega) (by omega)
    have e2 := hz k hk
    have l := lerp_mem (m := a.z 0) (M := a.z (a.nz - 1)) ⟨e0, by linarith⟩ ⟨by linarith, e1⟩ h0 h1
    rw [← ez] at l
    unfold Par.tubeOffset Par.tubeZ
    rw [abs_lt]
    constructor <;> linarith [l.1, l.2]

/-- The tube of `hollow`: the corner in the example for `C203_extent` is a point of it. -/
example : 0 < hollow.delta ∧ 0 < hollow.n ∧ hollow.angle < π ∧ (∀ k, k + 1 < hollow.nz → hollow.z k ≤ hollow.z (k + 1)) ∧ ∀ k, k < hollow.nz → 0 ≤ hollow.rMin k :=
  ⟨hollow_valid.delta, hollow_valid.n, hollow_valid.side, hollow_valid.z, hollow_valid.rMin⟩

/-- The tube is not larger than it has to be: at most half the tolerance beyond the radius of a corner, the same for the smallest inner radius, and the
tolerance beyond the planes. -/
theorem C206_tight {a : Par} (hnz : 0 < a.nz) (hb : ∀ k, k < a.nz → a.rMin k < kInfLength ∧ -kInfLength < a.rMax k) :
    (∃ k, k < a.nz ∧ a.tubeMin = a.rMin k - kHalfTolerance) ∧ (∃ k, k < a.nz ∧ a.tubeMax = a.rMax k / cos (0.5 * a.side) + kHalfTolerance) ∧
    a.tubeOffset - a.tubeZ = a.z 0 - kTolerance ∧ a.tubeOffset + a.tubeZ = a.z (a.nz - 1) + kTolerance := by
  have kmin : ∀ (l : List ℕ) (r0 : ℝ), (open Classical in l.foldl (fun r k => if a.rMin k < r then a.rMin k else r) r0) = r0 ∨
      ∃ k ∈ l, (open Classical in l.foldl (fun r k => if a.rMin k < r then a.rMin k else r) r0) = a.rMin k := by
    intro l
    induction l with
    | nil => exact fun r0 => Or.inl rfl
    | cons c l ih =>
      intro r0
      rcases ih (open Classical in if a.rMin c < r0 then a.rMin c else r0) with h | ⟨k, hk, h⟩
      · by_cases hlt : a.rMin c < r0
        · exact Or.inr ⟨c, by simp, by rw [List.foldl_cons, h, if_pos hlt]⟩
        · exact Or.inl (by rw [List.foldl_cons, h, if_neg hlt])
      · exact Or.inr ⟨k, by simp [hk], by rw [List.foldl_cons, h]⟩
  have kmax : ∀ (l : List ℕ) (r0 : ℝ), (open Classical in l.foldl (fun r k => if a.rMax k > r then a.rMax k else r) r0) = r0 ∨
      ∃ k ∈ l, (open Classical in l.foldl (fun r k => if a.rMax k > r then a.rMax k else r) r0) = a.rMax k := by
    intro l
    induction l with
    | nil => exact fun r0 => Or.inl rfl
    | cons c l ih =>
      intro r0
      rcases ih (open Classical in if a.rMax c > r0 then a.rMax c else r0) with h | ⟨k, hk, h⟩
      · by_cases hlt : a.rMax c > r0
        · exact Or.inr ⟨c, by simp, by rw [List.foldl_cons, h, if_pos hlt]⟩
        · exact Or.inl (by rw [List.foldl_cons, h, if_neg hlt])
      · exact Or.inr ⟨k, by simp [hk], by rw [List.foldl_cons, h]⟩
  refine ⟨?_, ?_, ?_, ?_⟩
  · rcases kmin (List.range a.nz) kInfLength with h | ⟨k, hk, h⟩
    · have := (fold_min a.rMin (List.range a.nz) kInfLength).2 0 (List.mem_range.2 hnz)
      rw [h] at this
      exact absurd this (not_le.2 (hb 0 hnz).1)
    · exact ⟨k, List.mem_range.1 hk, by unfold Par.tubeMin Par.innerRadius; rw [h]⟩
  · rcases kmax (List.range a.nz) (-kInfLength) with h | ⟨k, hk, h⟩
    · have := (fold_max a.rMax (List.range a.nz) (-kInfLength)).2 0 (List.mem_range.2 hnz)
      rw [h] at this
      exact absurd this (not_le.2 (hb 0 hnz).2)
    · exact ⟨k, List.mem_range.1 hk, by unfold Par.tubeMax Par.outerRadius; rw [h]⟩
  · unfold Par.tubeOffset Par.tubeZ; ring
  · unfold Par.tubeOffset Par.tubeZ; ring

end Phd
end VecGeom

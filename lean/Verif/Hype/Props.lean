import Verif.Hype.Lemmas

/-!
# C152: containment in hyperboloids
-/

namespace VecGeom
namespace Hype

open Real

variable {a : Par} {s : State} {k : Kind}

theorem outside_iff (g : Good s a) (hk : k.Fits a) (p : V3) : outside k s p = true ↔
    |p.z| > a.dz + kTolerance * a.dz ∨ p.x ^ 2 + p.y ^ 2 > a.out2 p.z + kTolerance * √(a.out2 a.dz) ∨
      (a.Hollow ∧ p.x ^ 2 + p.y ^ 2 < a.in2 p.z - kTolerance * √(a.in2 a.dz)) := by
  unfold outside
  rw [Bool.or_eq_true, Bool.or_eq_true, Bool.and_eq_true, treat_iff g hk, oRad2_eq g, iRad2_eq g, perp2_eq, g.dz, g.zTol, g.outTol,
    g.inTol]
  simp only [decide_eq_true_eq, or_assoc]

theorem deep_iff (g : Good s a) (hk : k.Fits a) (p : V3) : deep k s p = true ↔
    |p.z| < a.dz - kTolerance * a.dz ∧ p.x ^ 2 + p.y ^ 2 < a.out2 p.z - kTolerance * √(a.out2 a.dz) ∧
      (a.Hollow → p.x ^ 2 + p.y ^ 2 > a.in2 p.z + kTolerance * √(a.in2 a.dz)) := by
  unfold deep
  have h : (!treat k s) = true ↔ ¬ a.Hollow := by
    rw [← treat_iff g hk]
    cases treat k s <;> simp
  rw [Bool.and_eq_true, Bool.or_eq_true, h, oRad2_eq g, iRad2_eq g, perp2_eq, g.dz, g.zTol, g.outTol, g.inTol]
  simp only [decide_eq_true_eq, and_assoc]
  refine and_congr_right fun _ => and_congr_right fun _ => ?_
  tauto

theorem deep_not_outside (hv : a.Valid) (g : Good s a) (hk : k.Fits a) {p : V3} (h : deep k s p = true) : outside k s p = false := by
  by_contra hc
  rw [Bool.not_eq_false, outside_iff g hk] at hc
  rw [deep_iff g hk] at h
  have ht := kTolerance_pos
  have h1 := mul_pos ht hv.dz
  have h2 := mul_pos ht (endOut_pos hv)
  have h3 := mul_nonneg ht.le (sqrt_nonneg (a.in2 a.dz))
  rcases hc with hc | hc | ⟨hc, hc'⟩
  · linarith [h.1]
  · linarith [h.2.1]
  · linarith [h.2.2 hc]

theorem inside_cases (hv : a.Valid) (g : Good s a) (hk : k.Fits a) (p : V3) :
    (inside k s p = .inside ↔ deep k s p = true) ∧ (inside k s p = .outside ↔ outside k s p = true) := by
  have h := deep_not_outside hv g hk (p := p)
  unfold inside genericKernel
  cases h1 : deep k s p <;> cases h2 : outside k s p <;> simp_all

/-- C152: `Inside` reports outside exactly for the points that miss the solid by more than the tolerance, which is relative to
the half length for the height and relative to the end radii for the *squared* distance from the axis; it reports inside exactly
for the points that are inside by more than this. -/
theorem C152_inside (hv : a.Valid) (g : Good s a) (hk : k.Fits a) (p : V3) :
    (inside k s p = .outside ↔
      |p.z| > a.dz + kTolerance * a.dz ∨ p.x ^ 2 + p.y ^ 2 > a.out2 p.z + kTolerance * √(a.out2 a.dz) ∨
        (a.Hollow ∧ p.x ^ 2 + p.y ^ 2 < a.in2 p.z - kTolerance * √(a.in2 a.dz))) ∧
    (inside k s p = .inside ↔
      |p.z| < a.dz - kTolerance * a.dz ∧ p.x ^ 2 + p.y ^ 2 < a.out2 p.z - kTolerance * √(a.out2 a.dz) ∧
        (a.Hollow → p.x ^ 2 + p.y ^ 2 > a.in2 p.z + kTolerance * √(a.in2 a.dz))) := by
  have h := inside_cases hv g hk p
  rw [h.1, h.2, deep_iff g hk, outside_iff g hk]
  exact ⟨Iff.rfl, Iff.rfl⟩

/-- C152: `Contains` is `Inside` without the surface. -/
theorem C152_contains (hv : a.Valid) (g : Good s a) (hk : k.Fits a) (p : V3) :
    contains k s p = true ↔ inside k s p ≠ .outside := by
  rw [ne_eq, (inside_cases hv g hk p).2]
  unfold contains genericKernel
  cases outside k s p <;> simp

/-- C152: every point of the solid is contained and never reported outside; a point reported inside belongs to the solid and is
not on its surface. -/
theorem C152_sound (hv : a.Valid) (g : Good s a) (hk : k.Fits a) (p : V3) :
    (a.Closed p → contains k s p = true ∧ inside k s p ≠ .outside) ∧ (inside k s p = .inside → a.Open p ∧ a.Closed p) := by
  have ht := kTolerance_pos
  have h1 := mul_pos ht hv.dz
  have h2 := mul_pos ht (endOut_pos hv)
  have h3 := mul_nonneg ht.le (sqrt_nonneg (a.in2 a.dz))
  constructor
  · intro h
    have : inside k s p ≠ .outside := by
      rw [ne_eq, (C152_inside hv g hk p).1]
      rintro (h' | h' | ⟨-, h'⟩)
      · linarith [h.z]
      · linarith [h.out]
      · linarith [h.inn]
    exact ⟨(C152_contains hv g hk p).mpr this, this⟩
  · intro h
    rw [(C152_inside hv g hk p).2] at h
    obtain ⟨ha, hb, hc⟩ := h
    refine ⟨⟨by linarith, by linarith, fun hh => by linarith [hc hh]⟩, ⟨by linarith, by linarith, ?_⟩⟩
    by_cases hh : a.Hollow
    · linarith [hc hh]
    · rw [in2_solid hv hh]; positivity

/-- A point with a given distance from the axis, in the direction of another one. -/
theorem radial (x y : ℝ) {r : ℝ} (hr : 0 ≤ r) :
    ∃ x' y', x' ^ 2 + y' ^ 2 = r ^ 2 ∧ (x - x') ^ 2 + (y - y') ^ 2 = (√(x ^ 2 + y ^ 2) - r) ^ 2 := by
  set w := √(x ^ 2 + y ^ 2) with hw
  have hw2 : w ^ 2 = x ^ 2 + y ^ 2 := sq_sqrt (by positivity)
  rcases (sqrt_nonneg (x ^ 2 + y ^ 2)).eq_or_lt with h | h
  · rw [← hw] at h
    rw [← h] at hw2
    have hx : x = 0 := by nlinarith [sq_nonneg x, sq_nonneg y]
    have hy : y = 0 := by nlinarith [sq_nonneg x, sq_nonneg y]
    exact ⟨r, 0, by ring, by rw [← h, hx, hy]; ring⟩
  · rw [← hw] at h
    refine ⟨x * (r / w), y * (r / w), ?_, ?_⟩
    · have : (x * (r / w)) ^ 2 + (y * (r / w)) ^ 2 = (x ^ 2 + y ^ 2) * (r / w) ^ 2 := by ring
      rw [this, ← hw2]
      field_simp
    · have : (x - x * (r / w)) ^ 2 + (y - y * (r / w)) ^ 2 = (x ^ 2 + y ^ 2) * (1 - r / w) ^ 2 := by ring
      rw [this, ← hw2]
      field_simp

theorem sq_sub_le {x y : ℝ} (hx : 0 ≤ x) (hy : 0 ≤ y) : (x - y) ^ 2 ≤ |x ^ 2 - y ^ 2| := by
  rcases le_total x y with h | h
  · rw [abs_of_nonpos (by nlinarith)]; nlinarith
  · rw [abs_of_nonneg (by nlinarith)]; nlinarith

/-- C152: how far a contained point can be from the solid. -/
theorem C152_close (hv : a.Valid) (g : Good s a) (hk : k.Fits a) (p : V3) (h : contains k s p = true) :
    ∃ q, a.Closed q ∧
      V3.dist2 p q ≤ kTolerance * (√(a.out2 a.dz) + 3 * (tan a.stOut * a.dz) ^ 2 + a.dz ^ 2) := by
  have ht := kTolerance_pos
  have ht1 : kTolerance ≤ 1 := by norm_num [kTolerance]
  have hd := hv.dz
  rw [C152_contains hv g hk, ne_eq, (C152_inside hv g hk p).1] at h
  push Not at h
  obtain ⟨h1, h2, h3⟩ := h
  -- the height
  obtain ⟨z, hz, hzp, hzd⟩ : ∃ z, |z| ≤ a.dz ∧ |z| ≤ |p.z| ∧ (z = p.z ∨ (|z| = a.dz ∧ a.dz ≤ |p.z|) ∧ |p.z - z| = |p.z| - a.dz) := by
    rcases le_total |p.z| a.dz with hc | hc
    · exact ⟨p.z, hc, le_refl _, Or.inl rfl⟩
    · rcases le_total 0 p.z with hp | hp
      · rw [abs_of_nonneg hp] at hc ⊢
        exact ⟨a.dz, by rw [abs_of_pos hd], by rw [abs_of_pos hd]; exact hc,
          Or.inr ⟨⟨abs_of_pos hd, hc⟩, by rw [abs_of_nonneg (by linarith)]⟩⟩
      · rw [abs_of_nonpos hp] at hc ⊢
        exact ⟨-a.dz, by rw [abs_neg, abs_of_pos hd], by rw [abs_neg, abs_of_pos hd]; exact hc,
          Or.inr ⟨⟨by rw [abs_neg, abs_of_pos hd], hc⟩, by rw [abs_of_nonpos (by linarith)]; ring⟩⟩
  have hz2 : (p.z - z) ^ 2 ≤ kTolerance * a.dz ^ 2 := by
    rcases hzd with hzd | ⟨-, hzd⟩
    · rw [hzd, sub_self, zero_pow two_ne_zero]; positivity
    · rw [← sq_abs, hzd]
      have h5 : |p.z| - a.dz ≤ kTolerance * a.dz := by linarith
      have h6 : 0 ≤ |p.z| - a.dz := hzd ▸ abs_nonneg _
      nlinarith [mul_le_mul h5 h5 h6 (by positivity), mul_le_mul_of_nonneg_right ht1 (by positivity : 0 ≤ kTolerance * a.dz ^ 2)]
  have hout : a.out2 p.z ≤ a.out2 z + 3 * kTolerance * (tan a.stOut * a.dz) ^ 2 := by
    rcases hzd with hzd | ⟨⟨hzd, hge⟩, -⟩
    · rw [hzd]; have := sq_nonneg (tan a.stOut * a.dz); nlinarith
    · rw [← out2_abs p.z, ← out2_abs z, hzd]
      unfold Par.out2
      have h5 : |p.z| ^ 2 ≤ a.dz ^ 2 * (1 + 3 * kTolerance) := by
        nlinarith [mul_le_mul h1 h1 (abs_nonneg _) (by positivity), mul_le_mul_of_nonneg_right ht1 (by positivity : 0 ≤ kTolerance * a.dz ^ 2)]
      nlinarith [mul_le_mul_of_nonneg_left h5 (sq_nonneg (tan a.stOut))]
  have hin : a.in2 z ≤ a.in2 p.z := in2_mono hzp
  have hle := (in2_lt_out2 hv hz).le
  have hends : √(a.in2 a.dz) ≤ √(a.out2 a.dz) := sqrt_le_sqrt hv.ends.le
  have hi0 := in2_nonneg (a := a) z
  have ho0 := (out2_pos hv z).le
  -- the distance from the axis
  set w := √(p.x ^ 2 + p.y ^ 2) with hw
  have hw0 : 0 ≤ w := sqrt_nonneg _
  have hw2 : w ^ 2 = p.x ^ 2 + p.y ^ 2 := sq_sqrt (by positivity)
  have hE : 0 ≤ kTolerance * (√(a.out2 a.dz) + 3 * (tan a.stOut * a.dz) ^ 2) := by positivity
  obtain ⟨r, hr0, hr1, hr2, hr3⟩ : ∃ r, 0 ≤ r ∧ a.in2 z ≤ r ^ 2 ∧ r ^ 2 ≤ a.out2 z ∧
      |w ^ 2 - r ^ 2| ≤ kTolerance * (√(a.out2 a.dz) + 3 * (tan a.stOut * a.dz) ^ 2) := by
    rcases lt_or_ge (w ^ 2) (a.in2 z) with hc | hc
    · refine ⟨√(a.in2 z), sqrt_nonneg _, by rw [sq_sqrt hi0], by rw [sq_sqrt hi0]; exact hle, ?_⟩
      rw [sq_sqrt hi0, abs_of_nonpos (by linarith)]
      by_cases hh : a.Hollow
      · have := h3 hh
        rw [hw2]
        nlinarith [mul_le_mul_of_nonneg_left hends ht.le, mul_nonneg ht.le (sq_nonneg (tan a.stOut * a.dz))]
      · rw [in2_solid hv hh] at hc
        exact absurd hc (not_lt.mpr (sq_nonneg w))
    · rcases le_or_gt (w ^ 2) (a.out2 z) with hc' | hc'
      · exact ⟨w, hw0, hc, hc', by rw [sub_self, abs_zero]; exact hE⟩
      · refine ⟨√(a.out2 z), sqrt_nonneg _, by rw [sq_sqrt ho0]; exact hle, by rw [sq_sqrt ho0], ?_⟩
        rw [sq_sqrt ho0, abs_of_nonneg (by linarith), hw2]
        linarith
  obtain ⟨x, y, hxy, hd2⟩ := radial p.x p.y hr0
  refine ⟨⟨x, y, z⟩, ⟨hz, by dsimp only; rw [hxy]; exact hr2, by dsimp only; rw [hxy]; exact hr1⟩, ?_⟩
  unfold V3.dist2
  dsimp only
  rw [hd2]
  have := sq_sub_le hw0 hr0
  linarith

/-- A hyperboloid with a hole. -/
noncomputable def spool : Par := ⟨1, 2, π / 4, π / 4, 1⟩
/-- One with a narrow waist. -/
noncomputable def waist : Par := ⟨0, 1 / 10 ^ 5, 0, π / 4, 1000⟩

theorem spool_valid : spool.Valid := by
  have := pi_pos
  constructor <;> simp only [spool, Par.in2, Par.out2, tan_pi_div_four] <;> (try linarith) <;> norm_num

theorem waist_valid : waist.Valid := by
  have := pi_pos
  constructor <;> simp only [waist, Par.in2, Par.out2, tan_pi_div_four, tan_zero] <;> (try linarith) <;> norm_num

theorem spool_hollow : spool.Hollow := Or.inl (by norm_num [spool])

/-- C152: the tolerance for squared distances lets a point count as contained that is five hundred thousand tolerances away from
the solid, at a place where the solid is fifty times thinner. -/
theorem C152_waist_counterexample (m : State) : contains .universal (waist.made m) ⟨9 / 10 ^ 4, 0, 0⟩ = true ∧
    ∀ q, waist.Closed q → 1 / 2000 ≤ V3.dist ⟨9 / 10 ^ 4, 0, 0⟩ q := by
  have g := good_made waist m
  have hk : Kind.universal.Fits waist := Or.inr (Or.inr rfl)
  have ho : ∀ z, waist.out2 z = 1 / 10 ^ 10 + z ^ 2 := by
    intro z; simp only [waist, Par.out2, tan_pi_div_four]; ring
  constructor
  · rw [C152_contains waist_valid g hk, ne_eq, (C152_inside waist_valid g hk _).1, ho, ho]
    have h1 : (1000 : ℝ) ≤ √(1 / 10 ^ 10 + waist.dz ^ 2) := by
      apply le_sqrt_of_sq_le
      norm_num [waist]
    have hnh : ¬ waist.Hollow := by
      rintro (h | h)
      · simp [waist] at h
      · exact h rfl
    rintro (h | h | ⟨h, -⟩)
    · norm_num [waist, kTolerance] at h
    · dsimp only at h
      have : kTolerance * 1000 ≤ kTolerance * √(1 / 10 ^ 10 + waist.dz ^ 2) := mul_le_mul_of_nonneg_left h1 kTolerance_pos.le
      norm_num [kTolerance] at h this
      linarith
    · exact hnh h
  · intro q hq
    have h1 := hq.out
    rw [ho] at h1
    apply le_sqrt_of_sq_le
    unfold V3.dist2
    dsimp only
    nlinarith [sq_nonneg (q.x - 9 / 2 / 10 ^ 4), sq_nonneg q.y, sq_nonneg (q.x + 9 / 10 ^ 4)]

/-- Not vacuous. -/
example (m : State) : inside .hollow (spool.made m) ⟨3 / 2, 0, 1 / 2⟩ = .inside := by
  have hk : Kind.hollow.Fits spool := Or.inr (Or.inl ⟨rfl, spool_hollow⟩)
  rw [(C152_inside spool_valid (good_made spool m) hk _).2]
  have ho : ∀ z, spool.out2 z = 4 + z ^ 2 := by intro z; simp only [spool, Par.out2, tan_pi_div_four]; ring
  have hi : ∀ z, spool.in2 z = 1 + z ^ 2 := by intro z; simp only [spool, Par.in2, tan_pi_div_four]; ring
  rw [ho, ho, hi, hi]
  have h1 : √(4 + spool.dz ^ 2) ≤ 3 := by rw [sqrt_le_left (by norm_num)]; norm_num [spool]
  have h2 : √(1 + spool.dz ^ 2) ≤ 2 := by rw [sqrt_le_left (by norm_num)]; norm_num [spool]
  have ht := kTolerance_pos
  have h1' := mul_le_mul_of_nonneg_left h1 ht.le
  have h2' := mul_le_mul_of_nonneg_left h2 ht.le
  refine ⟨?_, ?_, fun _ => ?_⟩
  · norm_num [spool, kTolerance, abs_of_pos]
  · dsimp only
    norm_num [kTolerance] at h1' ⊢
    linarith
  · dsimp only
    norm_num [kTolerance] at h2' ⊢
    linarith

end Hype
end VecGeom

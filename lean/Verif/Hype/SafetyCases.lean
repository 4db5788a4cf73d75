import Verif.Hype.Safety

/-!
# C153: where the safeties of hyperboloids are not what they should be
-/

namespace VecGeom
namespace Hype

open Real

/-- An outer cylinder around an inner hyperboloid: the factory makes a hyperboloid of it. -/
noncomputable def barrel : Par := ⟨1, 3, π / 4, 0, 1⟩

theorem barrel_valid : barrel.Valid := by
  have := pi_pos
  constructor <;> simp only [barrel, Par.in2, Par.out2, tan_pi_div_four, tan_zero] <;> (try linarith) <;> norm_num

theorem spool_out (z : ℝ) : spool.out2 z = 4 + z ^ 2 := by simp only [spool, Par.out2, tan_pi_div_four]; ring
theorem spool_in (z : ℝ) : spool.in2 z = 1 + z ^ 2 := by simp only [spool, Par.in2, tan_pi_div_four]; ring

/-- C153: a point above the hole of a solid that narrows towards its waist: `SafetyToIn` is more than the distance. -/
theorem C153_hole_counterexample (m : State) : ∃ v q, safetyToIn .hollow (spool.made m) ⟨0, 0, 101 / 100⟩ = some v ∧
    spool.Closed q ∧ V3.dist ⟨0, 0, 101 / 100⟩ q < v - 1 / 10 := by
  have g := good_made spool m
  have hk : Kind.hollow.Fits spool := Or.inr (Or.inl ⟨rfl, spool_hollow⟩)
  have hs2 : (√2 : ℝ) ^ 2 = 2 := sq_sqrt (by norm_num)
  have hp2 : 0 < √2 := by positivity
  have hout : outside .hollow (spool.made m) ⟨0, 0, 101 / 100⟩ = true := by
    rw [outside_iff g hk]
    left
    norm_num [spool, kTolerance]
  have hd : spool.dz = 1 := rfl
  have hpz : |(101 / 100 : ℝ)| = 101 / 100 := abs_of_pos (by norm_num)
  have h1 : √(perp2 ⟨0, 0, 101 / 100⟩) = 0 := by simp [perp2]
  have hv : safetyToIn .hollow (spool.made m) ⟨0, 0, 101 / 100⟩ = some √(2 + 1 / 10000) := by
    have hgk : genericKernel .hollow true (spool.made m) ⟨0, 0, 101 / 100⟩ = (false, true) := by
      unfold genericKernel; rw [hout]; rfl
    unfold safetyToIn
    rw [hgk]
    dsimp only
    rw [h1, g.dz, g.endOut, g.endIn, spool_out, spool_in, hd, hpz]
    have e1 : √(1 + 1 ^ 2 : ℝ) = √2 := by norm_num
    have e2 : 0 < √(4 + 1 ^ 2 : ℝ) := by positivity
    rw [e1]
    rw [if_neg (by simp), if_neg (by simp), if_neg (by rintro ⟨-, -, h⟩; linarith), if_neg (by rintro ⟨-, h⟩; linarith),
      if_pos ⟨by norm_num [kHalfTolerance, kTolerance], hp2⟩]
    congr 2
    nlinarith
  refine ⟨_, ⟨√(5 / 4), 0, 1 / 2⟩, hv, ⟨?_, ?_, ?_⟩, ?_⟩
  · norm_num [spool, abs_of_pos]
  · rw [spool_out]; dsimp only; rw [sq_sqrt (by norm_num)]; norm_num
  · rw [spool_in]; dsimp only; rw [sq_sqrt (by norm_num)]; norm_num
  · have h3 : (14 / 10 : ℝ) < √(2 + 1 / 10000) := lt_sqrt_of_sq_lt (by norm_num)
    have h4 : V3.dist ⟨0, 0, 101 / 100⟩ ⟨√(5 / 4), 0, 1 / 2⟩ < 13 / 10 := by
      unfold V3.dist V3.dist2
      rw [sqrt_lt' (by norm_num)]
      dsimp only
      have : (√(5 / 4 : ℝ)) ^ 2 = 5 / 4 := sq_sqrt (by norm_num)
      nlinarith
    linarith

/-- C153: beside a hyperboloid whose outer surface is a cylinder `SafetyToIn` is not a number. -/
theorem C153_nan_counterexample (m : State) : makeInstance 1 3 (π / 4) 0 1 = .hype .hollow 1 3 (π / 4) 0 1 ∧
    safetyToIn .hollow (barrel.made m) ⟨5, 0, 1 / 2⟩ = none := by
  have hpi := pi_pos
  constructor
  · unfold makeInstance
    rw [if_neg (by norm_num), if_neg (by norm_num), if_neg (by rintro ⟨-, h, -⟩; linarith),
      if_pos ⟨by norm_num, Or.inl (by positivity)⟩]
  have g := good_made barrel m
  have hk : Kind.hollow.Fits barrel := Or.inr (Or.inl ⟨rfl, Or.inl (by norm_num [barrel])⟩)
  have ho : ∀ z, barrel.out2 z = 9 := by intro z; simp only [barrel, Par.out2, tan_zero]; norm_num
  have h3 : √(9 : ℝ) = 3 := by rw [show (9 : ℝ) = 3 ^ 2 by norm_num]; exact sqrt_sq (by norm_num)
  have hout : outside .hollow (barrel.made m) ⟨5, 0, 1 / 2⟩ = true := by
    rw [outside_iff g hk]
    right; left
    rw [ho, ho, h3]
    norm_num [kTolerance]
  have hgk : genericKernel .hollow true (barrel.made m) ⟨5, 0, 1 / 2⟩ = (false, true) := by
    unfold genericKernel; rw [hout]; rfl
  have hd : barrel.dz = 1 := rfl
  have hpz : |(1 / 2 : ℝ)| = 1 / 2 := abs_of_pos (by norm_num)
  have hsz : ¬ ((1 : ℝ) / 2 - 1 > kHalfTolerance) := by norm_num [kHalfTolerance, kTolerance]
  unfold safetyToIn
  rw [hgk]
  dsimp only
  rw [g.dz, g.rmax2, g.tOut2, g.tOut, hd, hpz]
  rw [if_neg (by simp), if_neg (by simp), if_neg (fun h => hsz h.1), if_neg (fun h => hsz h.1), if_neg (fun h => hsz h.1), if_pos]
  · unfold approxDistOutside
    rw [if_pos (by simp [barrel])]
  · norm_num [perp2, barrel, kHalfTolerance, kTolerance]

/-- C153: in the plane of the waist `SafetyToIn` is zero at any distance from the solid. -/
theorem C153_waist_counterexample (m : State) (x : ℝ) (hx : 3 ≤ x) :
    safetyToIn .hollow (spool.made m) ⟨x, 0, 0⟩ = some 0 ∧ ∀ q, spool.Closed q → x - 3 ≤ V3.dist ⟨x, 0, 0⟩ q := by
  have g := good_made spool m
  have hk : Kind.hollow.Fits spool := Or.inr (Or.inl ⟨rfl, spool_hollow⟩)
  constructor
  · have hout : outside .hollow (spool.made m) ⟨x, 0, 0⟩ = true := by
      rw [outside_iff g hk]
      right; left
      rw [spool_out, spool_out]
      have h1 : √(4 + spool.dz ^ 2) ≤ 3 := by rw [sqrt_le_left (by norm_num)]; norm_num [spool]
      have := mul_le_mul_of_nonneg_left h1 kTolerance_pos.le
      have h2 : kTolerance * 3 < 1 := by norm_num [kTolerance]
      dsimp only
      nlinarith
    have hgk : genericKernel .hollow true (spool.made m) ⟨x, 0, 0⟩ = (false, true) := by
      unfold genericKernel; rw [hout]; rfl
    have hd : spool.dz = 1 := rfl
    have hsz : ¬ ((0 : ℝ) - 1 > kHalfTolerance) := by norm_num [kHalfTolerance, kTolerance]
    unfold safetyToIn
    rw [hgk]
    dsimp only
    rw [g.dz, hd, abs_zero]
    rw [if_neg (by simp), if_neg (by simp), if_neg (fun h => hsz h.1), if_neg (fun h => hsz h.1), if_neg (fun h => hsz h.1),
      if_neg (fun h => lt_irrefl _ h.2.1), if_neg (fun h => lt_irrefl _ h.2.1)]
  · intro q hq
    have h1 := closed_ends spool_valid hq
    have h2 : √(spool.out2 spool.dz) ≤ 3 := by rw [spool_out, sqrt_le_left (by norm_num)]; norm_num [spool]
    have h3 : rad ⟨x, 0, 0⟩ = x := by
      unfold rad
      simp only [ne_eq, OfNat.ofNat_ne_zero, not_false_eq_true, zero_pow, add_zero]
      exact sqrt_sq (by linarith)
    apply le_dist
    rw [h3]
    have : (x - 3) ^ 2 ≤ (x - rad q) ^ 2 := pow_le_pow_left₀ (by linarith) (by linarith) 2
    nlinarith [sq_nonneg (|(0 : ℝ)| - |q.z|)]

/-- Not vacuous: the value at a point beside the solid. -/
example (m : State) : ∃ v, safetyToOut .hollow (spool.made m) ⟨3 / 2, 0, 1 / 2⟩ = some v ∧ 0 < v := by
  have hk : Kind.hollow.Fits spool := Or.inr (Or.inl ⟨rfl, spool_hollow⟩)
  have g := good_made spool m
  have h1 : √(4 + spool.dz ^ 2) ≤ 3 := by rw [sqrt_le_left (by norm_num)]; norm_num [spool]
  have h2 : √(1 + spool.dz ^ 2) ≤ 2 := by rw [sqrt_le_left (by norm_num)]; norm_num [spool]
  have h1' := mul_le_mul_of_nonneg_left h1 kTolerance_pos.le
  have h2' := mul_le_mul_of_nonneg_left h2 kTolerance_pos.le
  apply (C153_safetyToOut_sign spool_valid g hk _).2.2
  · rw [(C152_inside spool_valid g hk _).2, spool_out, spool_out, spool_in, spool_in]
    refine ⟨?_, ?_, fun _ => ?_⟩
    · norm_num [spool, kTolerance, abs_of_pos]
    · dsimp only
      norm_num [kTolerance] at h1' ⊢
      linarith
    · dsimp only
      norm_num [kTolerance] at h2' ⊢
      linarith
  · right
    have := kMinimum_lt
    simp only [spool, tan_pi_div_four]
    linarith

end Hype
end VecGeom

import Verif.Polycone.Props3

/-!
# Polycones: where SafetyToIn is too large
-/

namespace VecGeom
namespace Polycone

open Real Tube

variable {t : Struct} {ty : Cone.CType}

theorem cone_in_ge {a : Cone.Par} (hv : a.Valid) {p : V3} {c : ℝ} (hz : a.z ≤ |p.z| ∨ a.fix.outer p.z ≤ rad p) (hc : kTolerance ≤ c)
    (h : c ≤ -Cone.safeOuter (Cone.of a) p) (ho : ¬ Cone.InsideForIn ty (Cone.of a) p) : c ≤ Cone.safetyToIn ty (Cone.of a) p := by
  have ht := kTolerance_pos
  have hs : ∀ x, c ≤ x → c ≤ Cone.snap x := by
    intro x hx
    unfold Cone.snap
    rw [if_neg]
    · exact hx
    · rw [not_lt, abs_of_nonneg (by linarith)]; linarith
  unfold Cone.safetyToIn
  rw [if_neg ho]
  simp only
  apply hs
  split
  · exact le_max_of_le_right (le_max_of_le_right (le_max_of_le_left h))
  · exact le_max_of_le_right (le_max_of_le_left h)

/-- The safety of a full cylinder of radius 1 for a point at distance 9 of its axis. -/
theorem cylinder_safety {z : ℝ} (hz : 0 < z) {p : V3} (hp : rad p = 9) :
    7 ≤ Cone.safetyToIn Cone.universal (Cone.of ⟨0, 1, 0, 1, z, 0, 2 * π⟩) p := by
  have hv : (Cone.Par.mk 0 1 0 1 z 0 (2 * π)).Valid := ⟨by norm_num, by norm_num, by norm_num, by norm_num, by norm_num, hz, by positivity, Or.inr rfl⟩
  have hfx : (Cone.Par.mk 0 1 0 1 z 0 (2 * π)).fix = ⟨0, 1, 0, 1, z, 0, 2 * π⟩ := by unfold Cone.Par.fix; norm_num
  have hout : (Cone.Par.mk 0 1 0 1 z 0 (2 * π)).fix.outer p.z = 1 := by
    rw [hfx]; unfold Cone.Par.outer; exact Cone.line_const _ _ _ hz
  refine cone_in_ge hv (Or.inr (by rw [hout, hp]; norm_num)) (by norm_num [kTolerance]) ?_ ?_
  · rw [Cone.safeOuter_of hv, hout, hp, hfx]
    simp only [sub_self, zero_div]
    rw [show √(1 + (0 : ℝ) ^ 2) = 1 by norm_num, Cone.nz_pos (by norm_num), kTiny]
    norm_num
  · rintro ⟨-, h, -⟩
    rw [Cone.perp2_eq, hp, Cone.outerRad_of hv, hout, Cone.outerTol_eq hv, hfx] at h
    simp only [sub_self, zero_div] at h
    rw [show √(1 + (0 : ℝ) ^ 2) = 1 by norm_num, Cone.kConeTolerance] at h
    norm_num [Cone.minusSq] at h

/-- A narrow cylinder below a wide one. -/
noncomputable def mushroom : List Plane := [⟨0, 0, 1⟩, ⟨1, 0, 1⟩, ⟨1, 0, 10⟩, ⟨2, 0, 10⟩]

theorem infix_mushroom {a b : Plane} (h : [a, b] <:+: mushroom) :
    (a = ⟨0, 0, 1⟩ ∧ b = ⟨1, 0, 1⟩) ∨ (a = ⟨1, 0, 1⟩ ∧ b = ⟨1, 0, 10⟩) ∨ (a = ⟨1, 0, 10⟩ ∧ b = ⟨2, 0, 10⟩) := by
  unfold mushroom at h
  rw [infix_cons2, infix_cons2, infix_cons2] at h
  rcases h with h | h | h | h
  · exact Or.inl h
  · exact Or.inr (Or.inl h)
  · exact Or.inr (Or.inr h)
  · exact absurd h infix_one

theorem mushroom_valid : Valid 0 (2 * π) mushroom := by
  refine ⟨⟨_, _, _, rfl, by norm_num⟩, ?_, ?_, ?_, ?_, by positivity, Or.inr rfl⟩
  · intro a b h
    rcases infix_mushroom h with ⟨rfl, rfl⟩ | ⟨rfl, rfl⟩ | ⟨rfl, rfl⟩ <;> norm_num
  · intro q hq; simp [mushroom] at hq; rcases hq with rfl | rfl | rfl | rfl <;> norm_num
  · intro q hq; simp [mushroom] at hq; rcases hq with rfl | rfl | rfl | rfl <;> norm_num
  · intro a b h _
    rcases infix_mushroom h.1 with ⟨rfl, rfl⟩ | ⟨rfl, rfl⟩ | ⟨rfl, rfl⟩ <;> norm_num

example : Counted mushroom ⟨1, 0, 10⟩ ⟨2, 0, 10⟩ (1 / 2) ∧ Next mushroom ⟨1, 0, 10⟩ ⟨2, 0, 10⟩ := by
  refine ⟨Or.inr (Or.inr ⟨⟨⟨0, 0, 1⟩, by simp [mushroom], by norm_num⟩, ⟨⟨1, 0, 1⟩, by simp [mushroom], by norm_num⟩, ?_⟩), ⟨[⟨0, 0, 1⟩, ⟨1, 0, 1⟩], [], rfl⟩, by norm_num⟩
  intro c hc h
  simp [mushroom] at hc
  rcases hc with rfl | rfl | rfl | rfl <;> norm_num at h

theorem segs_mushroom : segs mushroom = [(⟨0, 0, 1⟩, ⟨1, 0, 1⟩), (⟨1, 0, 10⟩, ⟨2, 0, 10⟩)] := by
  unfold mushroom
  rw [segs, if_pos (by norm_num), segs, if_neg (by norm_num), segs, if_pos (by norm_num), segs]
  simp

/-- C149 fails beyond the ends: only the section at the end is asked, and the safety exceeds the distance to the next one. -/
theorem C149_end_counterexample : ∃ t, make 0 (2 * π) mushroom = some t ∧ 7 ≤ safetyToIn Cone.universal t ⟨9, 0, -1⟩ ∧
    ∃ q, Closed 0 (2 * π) mushroom q ∧ V3.dist ⟨9, 0, -1⟩ q = 2 := by
  obtain ⟨t, ht⟩ := make_some mushroom_valid
  have hr := make_repr mushroom_valid ht
  refine ⟨t, ht, ?_, ⟨9, 0, 1⟩, ?_, ?_⟩
  · have e : sectionIndex t (-1) = -1 := by
      refine (C147_index mushroom_valid ht (-1)).1.mpr ?_
      intro q hq; simp [mushroom] at hq; rcases hq with rfl | rfl | rfl | rfl <;> norm_num
    unfold safetyToIn
    simp only [e]
    rw [if_pos (by norm_num), if_pos trivial, hr.sec (by rw [segs_mushroom]; simp)]
    simp only [segs_mushroom, List.getElem_cons_zero, par]
    refine cylinder_safety (by norm_num) ?_
    unfold rad lower
    rw [show (9 : ℝ) ^ 2 + 0 ^ 2 = 9 ^ 2 by norm_num, sqrt_sq (by norm_num)]
  · refine ⟨⟨1, 0, 10⟩, ⟨2, 0, 10⟩, ⟨⟨[⟨0, 0, 1⟩, ⟨1, 0, 1⟩], [], rfl⟩, by norm_num⟩, by norm_num, by norm_num, ?_, ?_, full_sector _ _⟩
    · norm_num [lerp]; exact rad_nonneg _
    · have : rad (⟨9, 0, 1⟩ : V3) = 9 := by
        unfold rad
        rw [show (9 : ℝ) ^ 2 + 0 ^ 2 = 9 ^ 2 by norm_num, sqrt_sq (by norm_num)]
      rw [this]; norm_num [lerp]
  · unfold V3.dist V3.dist2
    rw [show ((9 : ℝ) - 9) ^ 2 + (0 - 0) ^ 2 + (-1 - 1) ^ 2 = 2 ^ 2 by norm_num, sqrt_sq (by norm_num)]

/-- A wide cylinder below a narrow one in two parts. -/
noncomputable def mast : List Plane := [⟨0, 0, 10⟩, ⟨10, 0, 10⟩, ⟨10, 0, 1⟩, ⟨11, 0, 1⟩, ⟨20, 0, 1⟩]

theorem infix_mast {a b : Plane} (h : [a, b] <:+: mast) :
    (a = ⟨0, 0, 10⟩ ∧ b = ⟨10, 0, 10⟩) ∨ (a = ⟨10, 0, 10⟩ ∧ b = ⟨10, 0, 1⟩) ∨ (a = ⟨10, 0, 1⟩ ∧ b = ⟨11, 0, 1⟩) ∨
    (a = ⟨11, 0, 1⟩ ∧ b = ⟨20, 0, 1⟩) := by
  unfold mast at h
  rw [infix_cons2, infix_cons2, infix_cons2, infix_cons2] at h
  rcases h with h | h | h | h | h
  · exact Or.inl h
  · exact Or.inr (Or.inl h)
  · exact Or.inr (Or.inr (Or.inl h))
  · exact Or.inr (Or.inr (Or.inr h))
  · exact absurd h infix_one

theorem mast_valid : Valid 0 (2 * π) mast := by
  refine ⟨⟨_, _, _, rfl, by norm_num⟩, ?_, ?_, ?_, ?_, by positivity, Or.inr rfl⟩
  · intro a b h
    rcases infix_mast h with ⟨rfl, rfl⟩ | ⟨rfl, rfl⟩ | ⟨rfl, rfl⟩ | ⟨rfl, rfl⟩ <;> norm_num
  · intro q hq; simp [mast] at hq; rcases hq with rfl | rfl | rfl | rfl | rfl <;> norm_num
  · intro q hq; simp [mast] at hq; rcases hq with rfl | rfl | rfl | rfl | rfl <;> norm_num
  · intro a b h _
    rcases infix_mast h.1 with ⟨rfl, rfl⟩ | ⟨rfl, rfl⟩ | ⟨rfl, rfl⟩ | ⟨rfl, rfl⟩ <;> norm_num

theorem segs_mast : segs mast = [(⟨0, 0, 10⟩, ⟨10, 0, 10⟩), (⟨10, 0, 1⟩, ⟨11, 0, 1⟩), (⟨11, 0, 1⟩, ⟨20, 0, 1⟩)] := by
  unfold mast
  rw [segs, if_pos (by norm_num), segs, if_neg (by norm_num), segs, if_pos (by norm_num), segs, if_pos (by norm_num), segs]
  simp

/-- C149 fails within: the walk downwards measures the way to a section to its far end, and stops before a section that is near. -/
theorem C149_walk_counterexample : ∃ t, make 0 (2 * π) mast = some t ∧ 7 ≤ safetyToIn Cone.universal t ⟨9, 0, 23 / 2⟩ ∧
    ∃ q, Closed 0 (2 * π) mast q ∧ V3.dist ⟨9, 0, 23 / 2⟩ q = 3 / 2 := by
  obtain ⟨t, ht⟩ := make_some mast_valid
  have hr := make_repr mast_valid ht
  have hs := hr.steps mast_valid
  have hrad : ∀ z, rad (⟨9, 0, z⟩ : V3) = 9 := by
    intro z
    unfold rad
    rw [show (9 : ℝ) ^ 2 + 0 ^ 2 = 9 ^ 2 by norm_num, sqrt_sq (by norm_num)]
  have hl : t.secs.length = 3 := by rw [hr.len, segs_mast]; rfl
  have z0 : zAt t 0 = 0 := by unfold zAt; rw [hr.zs, segs_mast]; rfl
  have z1 : zAt t 1 = 10 := by unfold zAt; rw [hr.zs, segs_mast]; rfl
  have z2 : zAt t 2 = 11 := by unfold zAt; rw [hr.zs, segs_mast]; rfl
  have z3 : zAt t 3 = 20 := by unfold zAt; rw [hr.zs, segs_mast]; rfl
  refine ⟨t, ht, ?_, ⟨9, 0, 10⟩, ?_, ?_⟩
  · have e : sectionIndex t (23 / 2) = (2 : ℕ) := by
      rcases index_cases hs (23 / 2) with ⟨-, h⟩ | ⟨i, hi, e, h1, h2, -⟩ | ⟨-, h⟩
      · rw [z0] at h; norm_num at h
      · have : i = 0 ∨ i = 1 ∨ i = 2 := by omega
        rcases this with rfl | rfl | rfl
        · rw [z1] at h2; norm_num at h2
        · rw [z2] at h2; norm_num at h2
        · exact e
      · rw [hl, z3] at h; norm_num at h
    have own : 7 ≤ Cone.safetyToIn Cone.universal (secAt t 2).solid (lower ⟨9, 0, 23 / 2⟩ (secAt t 2).shift) := by
      rw [hr.sec (by rw [segs_mast]; simp)]
      simp only [segs_mast, List.getElem_cons_zero, List.getElem_cons_succ, par]
      exact cylinder_safety (by norm_num) (hrad _)
    have own' : Cone.safetyToIn Cone.universal (secAt t 2).solid (lower ⟨9, 0, 23 / 2⟩ (secAt t 2).shift) ≤ 8 := by
      refine (section_safety mast_valid hr fits_universal (j := 2) (by rw [segs_mast]; simp) ⟨9, 0, 23 / 2⟩ ⟨1, 0, 23 / 2⟩ ?_).trans ?_
      · have h1 : rad (⟨1, 0, 23 / 2⟩ : V3) = 1 := by unfold rad; norm_num
        simp only [segs_mast, List.getElem_cons_zero, List.getElem_cons_succ]
        refine ⟨by norm_num [Plane.fix], by norm_num [Plane.fix], ?_, ?_, full_sector _ _⟩
        · rw [h1]; norm_num [lerp, Plane.fix]
        · rw [h1]; norm_num [lerp, Plane.fix]
      · unfold V3.dist V3.dist2
        rw [show ((9 : ℝ) - 1) ^ 2 + (0 - 0) ^ 2 + (23 / 2 - 23 / 2) ^ 2 = 8 ^ 2 by norm_num, sqrt_sq (by norm_num)]
    have mid : 7 ≤ Cone.safetyToIn Cone.universal (secAt t 1).solid (lower ⟨9, 0, 23 / 2⟩ (secAt t 1).shift) := by
      rw [hr.sec (by rw [segs_mast]; simp)]
      simp only [segs_mast, List.getElem_cons_zero, List.getElem_cons_succ, par]
      exact cylinder_safety (by norm_num) (hrad _)
    unfold safetyToIn
    simp only [e]
    rw [if_neg (by omega), Int.toNat_natCast, if_neg (by have : kTolerance < 7 := by norm_num [kTolerance]
                                                         linarith)]
    unfold around
    simp only [hl]
    rw [if_pos (by norm_num), show List.range' (2 + 1) (3 - (2 + 1)) = [] from rfl, show (List.range 2).reverse = [1, 0] from rfl]
    unfold scan scan scan
    split
    · exact own
    · rw [if_pos]
      · split
        · exact mid
        · exact own
      · norm_num [z0, z1]
        split
        · linarith
        · linarith
  · refine ⟨⟨0, 0, 10⟩, ⟨10, 0, 10⟩, ⟨⟨[], [⟨10, 0, 1⟩, ⟨11, 0, 1⟩, ⟨20, 0, 1⟩], rfl⟩, by norm_num⟩, by norm_num, by norm_num, ?_, ?_, full_sector _ _⟩
    · norm_num [lerp]; exact rad_nonneg _
    · rw [hrad]; norm_num [lerp]
  · unfold V3.dist V3.dist2
    rw [show ((9 : ℝ) - 9) ^ 2 + (0 - 0) ^ 2 + (23 / 2 - 10) ^ 2 = (3 / 2) ^ 2 by norm_num, sqrt_sq (by norm_num)]

end Polycone
end VecGeom

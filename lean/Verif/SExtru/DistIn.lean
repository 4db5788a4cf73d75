import Verif.SExtru.Dist

/-!
# C99: distances into extruded polygons, convex case
-/

namespace VecGeom
namespace SExtru

open Real Polygon

variable {k n : Nat} {x y : Nat → ℝ} {lo hi : ℝ} {s : Shell}

/-- One pass of the loop of `DistanceToInConvex`, in terms of the value of the line and its rate. -/
theorem inConvexPass_eq (p d : V3) (t0 t1 : ℝ) (i : Nat) :
    inConvexPass s p d (some (t0, t1)) i =
      open Classical in
      if lineVal s.poly (p.x, p.y) i > -kTolerance then
        if rate s.poly d i > -kTolerance then none
        else some (if -lineVal s.poly (p.x, p.y) i / nonZero (rate s.poly d i) > t0 then
          -lineVal s.poly (p.x, p.y) i / nonZero (rate s.poly d i) else t0, t1)
      else if rate s.poly d i > -kTolerance then
        some (t0, if -lineVal s.poly (p.x, p.y) i / nonZero (rate s.poly d i) < t1 then
          -lineVal s.poly (p.x, p.y) i / nonZero (rate s.poly d i) else t1)
      else some (t0, t1) := rfl

/-- The distance at which a line is crossed. -/
noncomputable def hit (P : Poly) (p d : V3) (i : Nat) : ℝ := -lineVal P (p.x, p.y) i / nonZero (rate P d i)

/-- What the loop of `DistanceToInConvex` computes. -/
theorem inConvex_fold (p d : V3) (m : Nat) (t0 t1 : ℝ) :
    ((∃ i, i < m ∧ -kTolerance < lineVal s.poly (p.x, p.y) i ∧ -kTolerance < rate s.poly d i) ∧
      (List.range m).foldl (inConvexPass s p d) (some (t0, t1)) = none) ∨
    ∃ a b, (List.range m).foldl (inConvexPass s p d) (some (t0, t1)) = some (a, b) ∧
      (∀ i, i < m → ¬ (-kTolerance < lineVal s.poly (p.x, p.y) i ∧ -kTolerance < rate s.poly d i)) ∧ t0 ≤ a ∧ b ≤ t1 ∧
      (∀ i, i < m → -kTolerance < lineVal s.poly (p.x, p.y) i → hit s.poly p d i ≤ a) ∧
      (∀ i, i < m → ¬ -kTolerance < lineVal s.poly (p.x, p.y) i → -kTolerance < rate s.poly d i → b ≤ hit s.poly p d i) ∧
      (a = t0 ∨ ∃ i, i < m ∧ -kTolerance < lineVal s.poly (p.x, p.y) i ∧ a = hit s.poly p d i) ∧
      (b = t1 ∨ ∃ i, i < m ∧ ¬ -kTolerance < lineVal s.poly (p.x, p.y) i ∧ -kTolerance < rate s.poly d i ∧ b = hit s.poly p d i) := by
  induction m with
  | zero =>
    right
    exact ⟨t0, t1, rfl, fun i hi => absurd hi (Nat.not_lt_zero _), le_rfl, le_rfl, fun i hi => absurd hi (Nat.not_lt_zero _),
      fun i hi => absurd hi (Nat.not_lt_zero _), Or.inl rfl, Or.inl rfl⟩
  | succ m ih =>
    rw [List.range_succ, List.foldl_append, List.foldl_cons, List.foldl_nil]
    rcases ih with ⟨⟨i, hi, h⟩, e⟩ | ⟨a, b, e, h1, h2, h3, h4, h5, h6, h7⟩
    · left; rw [e]; exact ⟨⟨i, by omega, h⟩, rfl⟩
    · rw [e, inConvexPass_eq]
      by_cases c1 : lineVal s.poly (p.x, p.y) m > -kTolerance
      · rw [if_pos c1]
        by_cases c2 : rate s.poly d m > -kTolerance
        · rw [if_pos c2]; left; exact ⟨⟨m, by omega, c1, c2⟩, rfl⟩
        · rw [if_neg c2]
          right
          refine ⟨_, _, rfl, ?_, ?_, h3, ?_, ?_, ?_, ?_⟩
          · intro i hi
            rcases Nat.lt_succ_iff_lt_or_eq.mp hi with hi | rfl
            · exact h1 i hi
            · exact fun h => c2 h.2
          · split
            · linarith
            · exact h2
          · intro i hi hv
            rcases Nat.lt_succ_iff_lt_or_eq.mp hi with hi | rfl
            · have := h4 i hi hv
              split
              · linarith
              · exact this
            · unfold hit; split
              · exact le_rfl
              · rename_i h; exact not_lt.mp h
          · intro i hi hv hr
            rcases Nat.lt_succ_iff_lt_or_eq.mp hi with hi | rfl
            · exact h5 i hi hv hr
            · exact absurd c1 hv
          · split
            · exact Or.inr ⟨m, by omega, c1, rfl⟩
            · rcases h6 with h | ⟨i, hi, h⟩
              · exact Or.inl h
              · exact Or.inr ⟨i, by omega, h⟩
          · rcases h7 with h | ⟨i, hi, h⟩
            · exact Or.inl h
            · exact Or.inr ⟨i, by omega, h⟩
      · rw [if_neg c1]
        right
        have hno : ∀ i, i < m + 1 → ¬ (-kTolerance < lineVal s.poly (p.x, p.y) i ∧ -kTolerance < rate s.poly d i) := by
          intro i hi
          rcases Nat.lt_succ_iff_lt_or_eq.mp hi with hi | rfl
          · exact h1 i hi
          · exact fun h => c1 h.1
        have h4' : ∀ i, i < m + 1 → -kTolerance < lineVal s.poly (p.x, p.y) i → hit s.poly p d i ≤ a := by
          intro i hi hv
          rcases Nat.lt_succ_iff_lt_or_eq.mp hi with hi | rfl
          · exact h4 i hi hv
          · exact absurd hv c1
        have h6' : a = t0 ∨ ∃ i, i < m + 1 ∧ -kTolerance < lineVal s.poly (p.x, p.y) i ∧ a = hit s.poly p d i := by
          rcases h6 with h | ⟨i, hi, h⟩
          · exact Or.inl h
          · exact Or.inr ⟨i, by omega, h⟩
        by_cases c2 : rate s.poly d m > -kTolerance
        · rw [if_pos c2]
          refine ⟨_, _, rfl, hno, h2, ?_, h4', ?_, h6', ?_⟩
          · split
            · linarith
            · exact h3
          · intro i hi hv hr
            rcases Nat.lt_succ_iff_lt_or_eq.mp hi with hi | rfl
            · have := h5 i hi hv hr
              split
              · linarith
              · exact this
            · unfold hit; split
              · exact le_rfl
              · rename_i h; exact not_lt.mp h
          · split
            · exact Or.inr ⟨m, by omega, c1, c2, rfl⟩
            · rcases h7 with h | ⟨i, hi, h⟩
              · exact Or.inl h
              · exact Or.inr ⟨i, by omega, h⟩
        · rw [if_neg c2]
          refine ⟨_, _, rfl, hno, h2, h3, h4', ?_, h6', ?_⟩
          · intro i hi hv hr
            rcases Nat.lt_succ_iff_lt_or_eq.mp hi with hi | rfl
            · exact h5 i hi hv hr
            · exact absurd hr c2
          · rcases h7 with h | ⟨i, hi, h⟩
            · exact Or.inl h
            · exact Or.inr ⟨i, by omega, h⟩

theorem nz_pos {v : ℝ} (h : 0 ≤ v) : nonZero v = v + kTiny := by unfold nonZero copySign; rw [if_neg (not_lt.mpr h)]
theorem nz_neg {v : ℝ} (h : v < 0) : nonZero v = v - kTiny := by unfold nonZero copySign; rw [if_pos h]; ring

/-- The entry and exit of the slab between the planes, as computed, for a coordinate `u` relative to the middle. -/
noncomputable def slabIn (dz u v : ℝ) : ℝ := if v < 0 then (dz - u) / nonZero v else (-dz - u) / nonZero v
/-- The exit. -/
noncomputable def slabOut (dz u v : ℝ) : ℝ := if v < 0 then (-dz - u) / nonZero v else (dz - u) / nonZero v

theorem shellInConvex_eq (p d : V3) :
    shellInConvex s p d = open Classical in
      let dz := 1 / 2 * (s.hi - s.lo)
      let u := p.z - 1 / 2 * (s.lo + s.hi)
      if |u| - dz > -kTolerance ∧ u * d.z ≥ 0 then kInfLength
      else match (List.range s.poly.n).foldl (inConvexPass s p d) (some (slabIn dz u d.z, slabOut dz u d.z)) with
        | none => kInfLength
        | some (tmin, tmax) => if tmax < tmin + kTolerance then kInfLength else tmin := by
  have hne := nonZero_ne d.z
  have hcase : (-1 / nonZero d.z < 0 ↔ ¬ d.z < 0) := by
    by_cases hv : d.z < 0
    · have := nonZero_neg hv
      simp only [hv, not_true_eq_false, iff_false, not_lt]
      exact div_nonneg_of_nonpos (by norm_num) this.le
    · have := nonZero_pos (not_lt.mp hv)
      simp only [hv, not_false_eq_true, iff_true]
      exact div_neg_of_neg_of_pos (by norm_num) this
  unfold shellInConvex
  dsimp only
  have e1 : (p.z - 1 / 2 * (s.lo + s.hi) + if -1 / nonZero d.z < 0 then 1 / 2 * (s.hi - s.lo) else -(1 / 2 * (s.hi - s.lo))) * (-1 / nonZero d.z) =
      slabIn (1 / 2 * (s.hi - s.lo)) (p.z - 1 / 2 * (s.lo + s.hi)) d.z := by
    unfold slabIn
    by_cases hv : d.z < 0
    · rw [if_neg (by rw [hcase]; exact not_not.mpr hv), if_pos hv]; field_simp; ring
    · rw [if_pos (hcase.mpr hv), if_neg hv]; field_simp; ring
  have e2 : (p.z - 1 / 2 * (s.lo + s.hi) - if -1 / nonZero d.z < 0 then 1 / 2 * (s.hi - s.lo) else -(1 / 2 * (s.hi - s.lo))) * (-1 / nonZero d.z) =
      slabOut (1 / 2 * (s.hi - s.lo)) (p.z - 1 / 2 * (s.lo + s.hi)) d.z := by
    unfold slabOut
    by_cases hv : d.z < 0
    · rw [if_neg (by rw [hcase]; exact not_not.mpr hv), if_pos hv]; field_simp; ring
    · rw [if_pos (hcase.mpr hv), if_neg hv]; field_simp; ring
  rw [e1, e2]
  try rfl

theorem slab_spec {dz u v : ℝ} (hdz : 0 ≤ dz) :
    (∀ t, 0 ≤ t → slabIn dz u v ≤ t → t ≤ slabOut dz u v → |u + t * v| ≤ dz + t * kTiny) ∧
    (∀ t, t = slabIn dz u v → 0 ≤ t → |u + t * v + dz| ≤ t * kTiny ∨ |u + t * v - dz| ≤ t * kTiny) ∧
    (∀ t m, 0 ≤ t → 0 ≤ m → m ≤ 1 → |v| ≤ 1 → |u + t * v| + (t + 1) * kTiny + m ≤ dz → slabIn dz u v ≤ t - m ∧ t + m ≤ slabOut dz u v) := by
  have hT := kTiny_pos
  by_cases hv : v < 0
  · have hneg := nonZero_neg hv
    have hnz := nz_neg hv
    unfold slabIn slabOut
    rw [if_pos hv, if_pos hv]
    refine ⟨fun t t0 h1 h2 => ?_, fun t ht t0 => ?_, fun t m t0 m0 m1 hv1 h => ?_⟩
    · rw [div_le_iff_of_neg hneg, hnz] at h1
      rw [le_div_iff_of_neg hneg, hnz] at h2
      have := mul_nonneg t0 hT.le
      rw [abs_le]; constructor <;> nlinarith
    · right
      have : t * nonZero v = dz - u := by rw [ht]; exact div_mul_cancel₀ _ hneg.ne
      rw [hnz] at this
      rw [show u + t * v - dz = t * kTiny by linear_combination this, abs_of_nonneg (mul_nonneg t0 hT.le)]
    · rw [div_le_iff_of_neg hneg, le_div_iff_of_neg hneg, hnz]
      have a1 := le_abs_self (u + t * v)
      have a2 := neg_abs_le (u + t * v)
      rw [abs_of_neg hv] at hv1
      have b1 : m * (-v) ≤ m := by nlinarith
      have b2 := mul_nonneg m0 (neg_nonneg.mpr hv.le)
      have b3 := mul_nonneg m0 hT.le
      have b4 : m * kTiny ≤ kTiny := by nlinarith
      have b5 := mul_nonneg t0 hT.le
      constructor <;> nlinarith
  · have hv := not_lt.mp hv
    have hpos := nonZero_pos hv
    have hnz := nz_pos hv
    unfold slabIn slabOut
    rw [if_neg (not_lt.mpr hv), if_neg (not_lt.mpr hv)]
    refine ⟨fun t t0 h1 h2 => ?_, fun t ht t0 => ?_, fun t m t0 m0 m1 hv1 h => ?_⟩
    · rw [div_le_iff₀ hpos, hnz] at h1
      rw [le_div_iff₀ hpos, hnz] at h2
      have := mul_nonneg t0 hT.le
      rw [abs_le]; constructor <;> nlinarith
    · left
      have : t * nonZero v = -dz - u := by rw [ht]; exact div_mul_cancel₀ _ hpos.ne'
      rw [hnz] at this
      rw [show u + t * v + dz = -(t * kTiny) by linear_combination this, abs_neg, abs_of_nonneg (mul_nonneg t0 hT.le)]
    · rw [div_le_iff₀ hpos, le_div_iff₀ hpos, hnz]
      have a1 := le_abs_self (u + t * v)
      have a2 := neg_abs_le (u + t * v)
      rw [abs_of_nonneg hv] at hv1
      have b1 : m * v ≤ m := by nlinarith
      have b2 := mul_nonneg m0 hv
      have b3 := mul_nonneg m0 hT.le
      have b4 : m * kTiny ≤ kTiny := by nlinarith
      have b5 := mul_nonneg t0 hT.le
      constructor <;> nlinarith

/-- Every stored line is a line of an edge, up to the sign, and the other way round. -/
theorem Given.line_depth (g : Given k n x y lo hi s) (hu : Unchopped n (fun i => (x i, y i))) {i : Nat} (hi : i < n) :
    ∃ j, j < n ∧ ∀ q, lineVal s.poly q i = -depth n (fun i => (x i, y i)) j q := by
  obtain ⟨j, hj, hd, -⟩ := edge_depth (x := x) (y := y) g.few hi
  refine ⟨j, hj, fun q => ?_⟩
  have h7 := abs_nonpos_iff.mp (err_exact (k := k) g.few hu q i hi)
  rw [hd, ← (init_some g.poly.1).1] at h7
  linarith

theorem Given.depth_line (g : Given k n x y lo hi s) (hu : Unchopped n (fun i => (x i, y i))) {j : Nat} (hj : j < n) :
    ∃ i, i < n ∧ ∀ q, lineVal s.poly q i = -depth n (fun i => (x i, y i)) j q := by
  obtain ⟨i, hi, hd⟩ := depth_edge (x := x) (y := y) g.few hj
  refine ⟨i, hi, fun q => ?_⟩
  have h7 := abs_nonpos_iff.mp (err_exact (k := k) g.few hu q i hi)
  rw [hd, ← (init_some g.poly.1).1] at h7
  linarith

/-- Depths change at most as fast as the point moves. -/
theorem depth_lip {n : Nat} {v : Nat → ℝ × ℝ} (j : Nat) (p d : V3) (hd : d.x ^ 2 + d.y ^ 2 ≤ 1) :
    |depth n v j ((pos p d 1).x, (pos p d 1).y) - depth n v j (p.x, p.y)| ≤ 1 := by
  have hs : (sgn n v) ^ 2 = 1 := by unfold sgn; split <;> norm_num
  unfold depth pos
  dsimp only
  rw [← sub_div]
  by_cases h0 : dist2 (v j) (v ((j + 1) % n)) = 0
  · rw [h0, sqrt_zero, div_zero, abs_zero]; exact zero_le_one
  · have hpos : 0 < dist2 (v j) (v ((j + 1) % n)) := lt_of_le_of_ne (dist2_nonneg _ _) (Ne.symm h0)
    rw [abs_div, abs_of_pos (sqrt_pos.mpr hpos), div_le_one (sqrt_pos.mpr hpos)]
    rw [← sqrt_sq_eq_abs]
    apply sqrt_le_sqrt
    unfold side dist2
    generalize v j = a
    generalize v ((j + 1) % n) = b
    have e : (sgn n v * ((b.1 - a.1) * (p.y + 1 * d.y - a.2) - (b.2 - a.2) * (p.x + 1 * d.x - a.1)) -
        sgn n v * ((b.1 - a.1) * (p.y - a.2) - (b.2 - a.2) * (p.x - a.1))) ^ 2 =
        ((b.1 - a.1) * d.y - (b.2 - a.2) * d.x) ^ 2 := by linear_combination ((b.1 - a.1) * d.y - (b.2 - a.2) * d.x) ^ 2 * hs
    rw [e]
    nlinarith [sq_nonneg ((b.1 - a.1) * d.x + (b.2 - a.2) * d.y), sq_nonneg (b.1 - a.1), sq_nonneg (b.2 - a.2)]

/-- C99: strictly convex polygons without chopped coefficients: a distance to the solid from a point outside is not negative, and at its
end the ray is in the solid and at one of its faces, up to `10⁻³⁰` times the distance. -/
theorem C99_in_convex_sound (g : Given k n x y lo hi s) (hc : StrictlyConvex n (fun i => (x i, y i)))
    (hu : Unchopped n (fun i => (x i, y i))) (p d : V3) (hout : ¬ InSolid n (fun i => (x i, y i)) lo hi p)
    (hr : distanceToIn k s p d ≠ kInfLength) :
    let r := distanceToIn k s p d
    0 ≤ r ∧ lo - r * kTiny ≤ (pos p d r).z ∧ (pos p d r).z ≤ hi + r * kTiny ∧
      (∀ j, j < n → -(r * kTiny) ≤ depth n (fun i => (x i, y i)) j ((pos p d r).x, (pos p d r).y)) ∧
      NearFace n (fun i => (x i, y i)) lo hi (pos p d r) (r * kTiny) := by
  obtain ⟨hp, h1, h2⟩ := g.poly
  have hflag := (C95_flag g.few hp).2 hc
  have hTin := kTiny_pos
  have hTol := kTolerance_pos
  have hexp : distanceToIn k s p d = shellInConvex s p d := by unfold distanceToIn; rw [hflag, if_pos rfl]
  rw [hexp] at hr ⊢
  rw [shellInConvex_eq] at hr ⊢
  dsimp only at hr ⊢
  rw [g.poly_n, h1, h2] at hr ⊢
  have hdz : 0 ≤ 1 / 2 * (hi - lo) := by have := g.order; linarith
  obtain ⟨s1, s2, -⟩ := slab_spec (u := p.z - 1 / 2 * (lo + hi)) (v := d.z) hdz
  by_cases hz : |p.z - 1 / 2 * (lo + hi)| - 1 / 2 * (hi - lo) > -kTolerance ∧ (p.z - 1 / 2 * (lo + hi)) * d.z ≥ 0
  · rw [if_pos hz] at hr; exact absurd rfl hr
  rw [if_neg hz] at hr ⊢
  rcases inConvex_fold (s := s) p d n (slabIn (1 / 2 * (hi - lo)) (p.z - 1 / 2 * (lo + hi)) d.z)
    (slabOut (1 / 2 * (hi - lo)) (p.z - 1 / 2 * (lo + hi)) d.z) with ⟨-, e⟩ | ⟨a, b, e, f1, f2, f3, f4, f5, f6, -⟩
  · rw [e] at hr; exact absurd rfl hr
  rw [e] at hr ⊢
  dsimp only at hr ⊢
  by_cases hab : b < a + kTolerance
  · rw [if_pos hab] at hr; exact absurd rfl hr
  rw [if_neg hab]
  have hab := not_lt.mp hab
  -- not negative
  have ha : 0 ≤ a := by
    by_cases hzin : lo ≤ p.z ∧ p.z ≤ hi
    · have hreg : ¬ Region n (fun i => (x i, y i)) (p.x, p.y) := fun h => hout ⟨hzin.1, hzin.2, h⟩
      rw [g.within hc hu] at hreg
      push Not at hreg
      obtain ⟨i, hi, hv⟩ := hreg
      have hv' : -kTolerance < lineVal s.poly (p.x, p.y) i := by linarith
      have hra : rate s.poly d i ≤ -kTolerance := not_lt.mp fun h => f1 i hi ⟨hv', h⟩
      refine le_trans ?_ (f4 i hi hv')
      exact div_nonneg_of_nonpos (by linarith) (nonZero_neg (by linarith)).le
    · refine le_trans ?_ f2
      rw [not_and] at hz
      unfold slabIn
      by_cases hl : p.z < lo
      · have hu0 : p.z - 1 / 2 * (lo + hi) < 0 := by have := g.order; linarith
        have hab := abs_of_neg hu0
        have hlt := hz (by rw [hab]; linarith)
        have hv : 0 < d.z := by
          by_contra hc'
          exact hlt (mul_nonneg_of_nonpos_of_nonpos hu0.le (not_lt.mp hc'))
        rw [if_neg (not_lt.mpr hv.le)]
        exact div_nonneg (by linarith) (nonZero_pos hv.le).le
      · have hh : hi < p.z := by
          by_contra hc'
          exact hzin ⟨not_lt.mp hl, not_lt.mp hc'⟩
        have hu0 : 0 < p.z - 1 / 2 * (lo + hi) := by have := g.order; linarith
        have hab := abs_of_pos hu0
        have hlt := hz (by rw [hab]; linarith)
        have hv : d.z < 0 := by
          by_contra hc'
          exact hlt (mul_nonneg hu0.le (not_lt.mp hc'))
        rw [if_pos hv]
        exact div_nonneg_of_nonpos (by linarith) (nonZero_neg hv).le
  have haT := mul_nonneg ha hTin.le
  have hzs := abs_le.mp (s1 a ha f2 (by linarith))
  refine ⟨ha, ?_, ?_, ?_, ?_⟩
  · unfold pos; dsimp only; linarith [hzs.1]
  · unfold pos; dsimp only; linarith [hzs.2]
  · intro j hj
    obtain ⟨i, hi, hd⟩ := g.depth_line hu hj
    have h5 := lineVal_pos s.poly p d a i
    rw [hd] at h5
    have key : lineVal s.poly (p.x, p.y) i + a * rate s.poly d i ≤ a * kTiny := by
      by_cases hv : -kTolerance < lineVal s.poly (p.x, p.y) i
      · have hra : rate s.poly d i ≤ -kTolerance := not_lt.mp fun h => f1 i hi ⟨hv, h⟩
        have h6 := f4 i hi hv
        unfold hit at h6
        have hneg : rate s.poly d i < 0 := by linarith
        rw [div_le_iff_of_neg (nonZero_neg hneg), nz_neg hneg] at h6
        linarith
      · by_cases hra : -kTolerance < rate s.poly d i
        · have h6 := f5 i hi hv hra
          unfold hit at h6
          by_cases hneg : rate s.poly d i < 0
          · have : -lineVal s.poly (p.x, p.y) i / nonZero (rate s.poly d i) ≤ 0 :=
              div_nonpos_of_nonneg_of_nonpos (by linarith) (nonZero_neg hneg).le
            linarith
          · have hpos := not_lt.mp hneg
            have h7 : a ≤ -lineVal s.poly (p.x, p.y) i / nonZero (rate s.poly d i) := by linarith
            rw [le_div_iff₀ (nonZero_pos hpos), nz_pos hpos] at h7
            linarith
        · have := mul_nonneg ha (by linarith : 0 ≤ -rate s.poly d i)
          linarith
    linarith
  · rcases f6 with h | ⟨i, hi, hv, h⟩
    · rcases s2 a h ha with h | h
      · left; unfold pos; dsimp only
        rw [show p.z + a * d.z - lo = p.z - 1 / 2 * (lo + hi) + a * d.z + 1 / 2 * (hi - lo) by ring]; exact h
      · right; left; unfold pos; dsimp only
        rw [show p.z + a * d.z - hi = p.z - 1 / 2 * (lo + hi) + a * d.z - 1 / 2 * (hi - lo) by ring]; exact h
    · right; right
      obtain ⟨j, hj, hd⟩ := g.line_depth hu hi
      refine ⟨j, hj, ?_⟩
      have hra : rate s.poly d i ≤ -kTolerance := not_lt.mp fun h => f1 i hi ⟨hv, h⟩
      have hneg : rate s.poly d i < 0 := by linarith
      have h5 := lineVal_pos s.poly p d a i
      rw [hd] at h5
      have h6 : a * nonZero (rate s.poly d i) = -lineVal s.poly (p.x, p.y) i := by
        rw [h]; exact div_mul_cancel₀ _ (nonZero_neg hneg).ne
      rw [nz_neg hneg] at h6
      rw [show depth n (fun i => (x i, y i)) j ((pos p d a).x, (pos p d a).y) = -(a * kTiny) by linear_combination (-1) * h5 + (-1) * h6, abs_neg,
        abs_of_nonneg haT]

/-- C99: strictly convex polygons without chopped coefficients: if at some `t` the ray is in the solid, deeper than `(1 + t)` tolerances,
the distance is at most `t` — provided the ray does not move away from the inside of a face it starts on the right side of at a rate
below the tolerance. -/
theorem C99_in_convex_complete_partial (g : Given k n x y lo hi s) (hc : StrictlyConvex n (fun i => (x i, y i)))
    (hu : Unchopped n (fun i => (x i, y i))) (p d : V3) (hd : d.x ^ 2 + d.y ^ 2 ≤ 1) (hdz : |d.z| ≤ 1) (t : ℝ) (ht : 0 < t)
    (hz : lo + kTolerance * (1 + t) ≤ (pos p d t).z ∧ (pos p d t).z ≤ hi - kTolerance * (1 + t))
    (hdeep : ∀ j, j < n → kTolerance * (1 + t) ≤ depth n (fun i => (x i, y i)) j ((pos p d t).x, (pos p d t).y))
    (hpar : ∀ j, j < n → kTolerance ≤ depth n (fun i => (x i, y i)) j (p.x, p.y) →
      ¬ (depth n (fun i => (x i, y i)) j (p.x, p.y) < depth n (fun i => (x i, y i)) j ((pos p d 1).x, (pos p d 1).y) ∧
        depth n (fun i => (x i, y i)) j ((pos p d 1).x, (pos p d 1).y) < depth n (fun i => (x i, y i)) j (p.x, p.y) + kTolerance)) :
    distanceToIn k s p d ≤ t := by
  obtain ⟨hp, h1, h2⟩ := g.poly
  have hflag := (C95_flag g.few hp).2 hc
  have hTin := kTiny_pos
  have hTol := kTolerance_pos
  have hexp : distanceToIn k s p d = shellInConvex s p d := by unfold distanceToIn; rw [hflag, if_pos rfl]
  rw [hexp, shellInConvex_eq]
  dsimp only
  rw [g.poly_n, h1, h2]
  have hm : kTolerance * (1 + t) = kTolerance + kTolerance * t := by ring
  have hmt : 0 < kTolerance * t := mul_pos hTol ht
  have hsm : kTiny * 10 ≤ kTolerance := by unfold kTiny kTolerance; norm_num
  have hsmt : kTiny * 10 * t ≤ kTolerance * t := mul_le_mul_of_nonneg_right hsm ht.le
  have htT := mul_pos ht hTin
  have hhalf : kTolerance ≤ 1 := by unfold kTolerance; norm_num
  rw [hm] at hz hdeep
  unfold pos at hz
  dsimp only at hz
  have hdz0 : 0 ≤ 1 / 2 * (hi - lo) := by linarith [hz.1, hz.2]
  obtain ⟨-, -, s3⟩ := slab_spec (u := p.z - 1 / 2 * (lo + hi)) (v := d.z) hdz0
  have hzabs : |p.z - 1 / 2 * (lo + hi) + t * d.z| ≤ 1 / 2 * (hi - lo) - (kTolerance + kTolerance * t) := by
    rw [abs_le]; constructor <;> linarith [hz.1, hz.2]
  obtain ⟨q1, q2⟩ := s3 t (kTolerance / 2) ht.le (by linarith) (by linarith) hdz (by linarith)
  have hlines : ∀ i, i < n → lineVal s.poly (p.x, p.y) i + t * rate s.poly d i ≤ -(kTolerance + kTolerance * t) ∧
      |rate s.poly d i| ≤ 1 ∧ ¬ (lineVal s.poly (p.x, p.y) i ≤ -kTolerance ∧ -kTolerance < rate s.poly d i ∧ rate s.poly d i < 0) := by
    intro i hi
    obtain ⟨j, hj, e⟩ := g.line_depth hu hi
    have e0 := lineVal_pos s.poly p d t i
    have e1 := lineVal_pos s.poly p d 1 i
    rw [one_mul] at e1
    have e2 := hdeep j hj
    have e3 := depth_lip (n := n) (v := fun i => (x i, y i)) j p d hd
    have e4 := hpar j hj
    rw [e] at e0 e1
    rw [e] at e0 e1
    have er : rate s.poly d i = -(depth n (fun i => (x i, y i)) j ((pos p d 1).x, (pos p d 1).y) - depth n (fun i => (x i, y i)) j (p.x, p.y)) := by
      linarith
    refine ⟨by rw [e]; linarith, by rw [er, abs_neg]; exact e3, ?_⟩
    rintro ⟨a1, a2, a3⟩
    rw [e] at a1
    exact e4 (by linarith) ⟨by linarith, by linarith⟩
  have hnot : ¬ (|p.z - 1 / 2 * (lo + hi)| - 1 / 2 * (hi - lo) > -kTolerance ∧ (p.z - 1 / 2 * (lo + hi)) * d.z ≥ 0) := by
    rintro ⟨a1, a2⟩
    have b := abs_le.mp hzabs
    have b2 := mul_nonneg ht.le a2
    have b3 : |p.z - 1 / 2 * (lo + hi)| ≤ |p.z - 1 / 2 * (lo + hi) + t * d.z| := by
      rw [← sqrt_sq_eq_abs, ← sqrt_sq_eq_abs]
      apply sqrt_le_sqrt
      nlinarith [sq_nonneg (t * d.z)]
    linarith
  rw [if_neg hnot]
  rcases inConvex_fold (s := s) p d n (slabIn (1 / 2 * (hi - lo)) (p.z - 1 / 2 * (lo + hi)) d.z)
    (slabOut (1 / 2 * (hi - lo)) (p.z - 1 / 2 * (lo + hi)) d.z) with ⟨⟨i, hi, w1, w2⟩, e⟩ | ⟨a, b, e, f1, -, -, -, -, f6, f7⟩
  · exfalso
    have := (hlines i hi).1
    have := mul_lt_mul_of_pos_left w2 ht
    nlinarith
  · rw [e]
    dsimp only
    have ha : a ≤ t - kTolerance / 2 := by
      rcases f6 with h | ⟨i, hi, hv, h⟩
      · rw [h]; exact q1
      · obtain ⟨l1, l2, -⟩ := hlines i hi
        have l3 := abs_le.mp l2
        have hra : rate s.poly d i ≤ -kTolerance := not_lt.mp fun h => f1 i hi ⟨hv, h⟩
        have hneg : rate s.poly d i < 0 := by linarith
        rw [h]
        unfold hit
        rw [div_le_iff_of_neg (nonZero_neg hneg), nz_neg hneg]
        have c1 : kTolerance / 2 * (-1) ≤ kTolerance / 2 * rate s.poly d i := mul_le_mul_of_nonneg_left l3.1 (by linarith)
        have c2 : kTolerance / 2 * kTiny ≤ 1 * kTiny := mul_le_mul_of_nonneg_right (by linarith) hTin.le
        nlinarith
    have hb : t + kTolerance / 2 ≤ b := by
      rcases f7 with h | ⟨i, hi, hv, hra, h⟩
      · rw [h]; exact q2
      · obtain ⟨l1, l2, l4⟩ := hlines i hi
        have l3 := abs_le.mp l2
        have hpos : 0 ≤ rate s.poly d i := by
          by_contra hc'
          exact l4 ⟨not_lt.mp hv, hra, not_le.mp hc'⟩
        rw [h]
        unfold hit
        rw [le_div_iff₀ (nonZero_pos hpos), nz_pos hpos]
        have c1 : kTolerance / 2 * rate s.poly d i ≤ kTolerance / 2 * 1 := mul_le_mul_of_nonneg_left l3.2 (by linarith)
        have c2 : kTolerance / 2 * kTiny ≤ 1 * kTiny := mul_le_mul_of_nonneg_right (by linarith) hTin.le
        nlinarith
    rw [if_neg (by linarith)]
    linarith

end SExtru
end VecGeom

import Verif.SExtru.SafetyProps

/-!
# C98: distances out of extruded polygons
-/

namespace VecGeom
namespace SExtru

open Real Polygon

variable {k n : Nat} {x y : Nat → ℝ} {lo hi : ℝ} {s : Shell}

/-- The rate at which the value of a line changes along a direction. -/
noncomputable def rate (p : Poly) (d : V3) (i : Nat) : ℝ := -(p.a i * d.x + p.b i * d.y)

/-- The point at `t` on the ray. -/
noncomputable def pos (p d : V3) (t : ℝ) : V3 := ⟨p.x + t * d.x, p.y + t * d.y, p.z + t * d.z⟩

theorem lineVal_pos (P : Poly) (p d : V3) (t : ℝ) (i : Nat) :
    lineVal P ((pos p d t).x, (pos p d t).y) i = lineVal P (p.x, p.y) i + t * rate P d i := by
  unfold lineVal rate pos; ring

/-- The lines as stored are the lines of the edges. -/
theorem Given.lines_within (g : Given k n x y lo hi s) (hu : Unchopped n (fun i => (x i, y i))) (q : ℝ × ℝ) (m : ℝ) :
    (∀ i, i < n → lineVal s.poly q i ≤ m) ↔ ∀ j, j < n → -m ≤ depth n (fun i => (x i, y i)) j q := by
  rw [(init_some g.poly.1).1]
  have he := err_exact (k := k) g.few hu q
  constructor
  · intro h j hj
    obtain ⟨i, hi, hd⟩ := depth_edge (x := x) (y := y) g.few hj
    have h1 := h i hi
    have h2 := abs_le.mp (he i hi)
    rw [hd q] at h2; linarith
  · intro h i hi
    obtain ⟨j, hj, hd, -⟩ := edge_depth (x := x) (y := y) g.few hi
    have h1 := h j hj
    have h2 := abs_le.mp (he i hi)
    rw [hd q] at h2; linarith

theorem Given.within (g : Given k n x y lo hi s) (hc : StrictlyConvex n (fun i => (x i, y i))) (hu : Unchopped n (fun i => (x i, y i)))
    (q : ℝ × ℝ) : Region n (fun i => (x i, y i)) q ↔ ∀ i, i < n → lineVal s.poly q i ≤ 0 := by
  rw [region_iff g.distinct hc, g.lines_within hu q 0, neg_zero]; rfl

theorem Given.poly_n (g : Given k n x y lo hi s) : s.poly.n = n := by rw [(init_some g.poly.1).1]; rfl

/-- The loop of `DistanceToOutConvex`. -/
theorem outConvex_fold (p d : V3) (m : Nat) (t0 : ℝ) (h : ∀ i, i < m → lineVal s.poly (p.x, p.y) i ≤ kTolerance) :
    ∃ r, (List.range m).foldl (outConvexPass s p d) (some t0) = some r ∧ r ≤ t0 ∧
      (∀ i, i < m → 0 < rate s.poly d i → r ≤ -lineVal s.poly (p.x, p.y) i / nonZero (rate s.poly d i)) ∧
      (r = t0 ∨ ∃ i, i < m ∧ 0 < rate s.poly d i ∧ r = -lineVal s.poly (p.x, p.y) i / nonZero (rate s.poly d i)) := by
  induction m with
  | zero => exact ⟨t0, rfl, le_rfl, fun i hi => absurd hi (Nat.not_lt_zero _), Or.inl rfl⟩
  | succ m ih =>
    obtain ⟨r, h1, h2, h3, h4⟩ := ih fun i hi => h i (by omega)
    rw [List.range_succ, List.foldl_append, h1]
    have hm := h m (by omega)
    simp only [List.foldl_cons, List.foldl_nil, outConvexPass, Option.bind_some]
    change ∃ r', (if lineVal s.poly (p.x, p.y) m > kTolerance then none else
      if rate s.poly d m > 0 then some (if r > -lineVal s.poly (p.x, p.y) m / nonZero (rate s.poly d m) then
        -lineVal s.poly (p.x, p.y) m / nonZero (rate s.poly d m) else r) else some r) = some r' ∧ _
    rw [if_neg (not_lt.mpr hm)]
    by_cases hr : rate s.poly d m > 0
    · rw [if_pos hr]
      by_cases hlt : r > -lineVal s.poly (p.x, p.y) m / nonZero (rate s.poly d m)
      · rw [if_pos hlt]
        refine ⟨_, rfl, by linarith, fun i hi hpos => ?_, Or.inr ⟨m, by omega, hr, rfl⟩⟩
        rcases Nat.lt_succ_iff_lt_or_eq.mp hi with hi | rfl
        · exact hlt.le.trans (h3 i hi hpos)
        · exact le_rfl
      · rw [if_neg hlt]
        refine ⟨_, rfl, h2, fun i hi hpos => ?_, ?_⟩
        · rcases Nat.lt_succ_iff_lt_or_eq.mp hi with hi | rfl
          · exact h3 i hi hpos
          · exact not_lt.mp hlt
        · rcases h4 with h4 | ⟨i, hi, h4⟩
          · exact Or.inl h4
          · exact Or.inr ⟨i, by omega, h4⟩
    · rw [if_neg hr]
      refine ⟨_, rfl, h2, fun i hi hpos => ?_, ?_⟩
      · rcases Nat.lt_succ_iff_lt_or_eq.mp hi with hi | rfl
        · exact h3 i hi hpos
        · exact absurd hpos hr
      · rcases h4 with h4 | ⟨i, hi, h4⟩
        · exact Or.inl h4
        · exact Or.inr ⟨i, by omega, h4⟩

theorem outConvex_none (p d : V3) (m : Nat) (t0 : Option ℝ) (h : t0 = none ∨ ∃ i, i < m ∧ kTolerance < lineVal s.poly (p.x, p.y) i) :
    (List.range m).foldl (outConvexPass s p d) t0 = none := by
  induction m with
  | zero => rcases h with h | ⟨i, hi, -⟩
            · exact h
            · omega
  | succ m ih =>
    rw [List.range_succ, List.foldl_append]
    by_cases hm : kTolerance < lineVal s.poly (p.x, p.y) m
    · simp only [List.foldl_cons, List.foldl_nil]
      generalize (List.range m).foldl (outConvexPass s p d) t0 = u
      cases u with
      | none => rfl
      | some t =>
        simp only [outConvexPass, Option.bind_some]
        exact if_pos hm
    · have : t0 = none ∨ ∃ i, i < m ∧ kTolerance < lineVal s.poly (p.x, p.y) i := by
        rcases h with h | ⟨i, hi, h⟩
        · exact Or.inl h
        · rcases Nat.lt_succ_iff_lt_or_eq.mp hi with hi | rfl
          · exact Or.inr ⟨i, hi, h⟩
          · exact absurd h hm
      rw [ih this]; rfl

/-- The face of a solid with a convex polygon to which a point is closest, up to `e`: a plane or a line of an edge. -/
def NearFace (n : Nat) (v : Nat → ℝ × ℝ) (lo hi : ℝ) (p : V3) (e : ℝ) : Prop :=
  |p.z - lo| ≤ e ∨ |p.z - hi| ≤ e ∨ ∃ i, i < n ∧ |depth n v i (p.x, p.y)| ≤ e

/-- C98: strictly convex polygons without chopped coefficients, planes symmetric about 0: from a point of the solid, the ray stays in the
solid up to the distance, and is then at a face of it, up to `10⁻³⁰` times the distance; from a point outside by more than the tolerance
the result is `-kTolerance`. -/
theorem C98_out_convex_partial (g : Given k n x y lo hi s) (hc : StrictlyConvex n (fun i => (x i, y i)))
    (hu : Unchopped n (fun i => (x i, y i))) (hsym : lo = -hi) (p d : V3) :
    ∃ r, distanceToOut s p d = some r ∧
      (InSolid n (fun i => (x i, y i)) lo hi p → 0 ≤ r ∧ (∀ t, 0 ≤ t → t ≤ r → InSolid n (fun i => (x i, y i)) lo hi (pos p d t)) ∧
        NearFace n (fun i => (x i, y i)) lo hi (pos p d r) (r * kTiny)) ∧
      (p.z < lo - kTolerance ∨ hi + kTolerance < p.z ∨ (∃ i, i < n ∧ depth n (fun i => (x i, y i)) i (p.x, p.y) < -kTolerance) →
        r = -kTolerance) := by
  obtain ⟨hp, h1, h2⟩ := g.poly
  have hflag := (C95_flag g.few hp).2 hc
  have hlh := g.order
  have hTin := kTiny_pos
  have hhi : 0 ≤ hi := by linarith
  have hdz : 1 / 2 * (s.hi - s.lo) = hi := by rw [h1, h2, hsym]; ring
  have hpz : p.z - 1 / 2 * (s.lo + s.hi) = p.z := by rw [h1, h2, hsym]; ring
  have hexp : distanceToOut s p d = some (if |p.z| - hi > kTolerance then -kTolerance else
      ((List.range n).foldl (outConvexPass s p d) (some ((copySign hi d.z - p.z) / nonZero d.z))).getD (-kTolerance)) := by
    unfold distanceToOut shellOutConvex
    rw [hflag, if_pos rfl, hdz, hpz, g.poly_n]
  rw [hexp]
  refine ⟨_, rfl, fun hin => ?_, fun hout => ?_⟩
  · obtain ⟨z1, z2, hr⟩ := hin
    have hw := (g.within hc hu _).mp hr
    have hz : |p.z| ≤ hi := abs_le.mpr ⟨by linarith, z2⟩
    have ht := kTolerance_pos
    rw [if_neg (by linarith)]
    obtain ⟨r, e, e1, e2, e3⟩ := outConvex_fold (s := s) p d n ((copySign hi d.z - p.z) / nonZero d.z)
      (fun i hi => (hw i hi).trans ht.le)
    rw [e, Option.getD_some]
    -- the planes
    have hplane : 0 ≤ (copySign hi d.z - p.z) / nonZero d.z ∧
        (∀ t, 0 ≤ t → t ≤ (copySign hi d.z - p.z) / nonZero d.z → lo ≤ p.z + t * d.z ∧ p.z + t * d.z ≤ hi) ∧
        ∀ t, t = (copySign hi d.z - p.z) / nonZero d.z → |p.z + t * d.z - lo| ≤ t * kTiny ∨ |p.z + t * d.z - hi| ≤ t * kTiny := by
      have hne := nonZero_ne d.z
      have key : ∀ t, t = (copySign hi d.z - p.z) / nonZero d.z → t * nonZero d.z = copySign hi d.z - p.z := by
        intro t ht; rw [ht]; field_simp
      by_cases hv : d.z < 0
      · have hneg := nonZero_neg hv
        have hcs : copySign hi d.z = lo := by unfold copySign; rw [if_pos hv, hsym]
        have hnz : nonZero d.z = d.z - kTiny := by unfold nonZero copySign; rw [if_pos hv]; ring
        rw [hcs] at key ⊢
        have h0 : 0 ≤ (lo - p.z) / nonZero d.z := div_nonneg_of_nonpos (by linarith) hneg.le
        refine ⟨h0, fun t t0 t1 => ?_, fun t ht => ?_⟩
        · rw [le_div_iff_of_neg hneg, hnz] at t1
          have := mul_nonneg t0 hTin.le
          have := mul_nonneg t0 (neg_nonneg.mpr hv.le)
          constructor <;> nlinarith
        · left
          have := key t ht
          rw [hnz] at this
          have e : p.z + t * d.z - lo = t * kTiny := by linear_combination this
          rw [e, abs_of_nonneg (mul_nonneg (ht ▸ h0) hTin.le)]
      · have hv := not_lt.mp hv
        have hpos := nonZero_pos hv
        have hcs : copySign hi d.z = hi := by unfold copySign; rw [if_neg (not_lt.mpr hv)]
        have hnz : nonZero d.z = d.z + kTiny := by unfold nonZero copySign; rw [if_neg (not_lt.mpr hv)]
        rw [hcs] at key ⊢
        have h0 : 0 ≤ (hi - p.z) / nonZero d.z := div_nonneg (by linarith) hpos.le
        refine ⟨h0, fun t t0 t1 => ?_, fun t ht => ?_⟩
        · rw [le_div_iff₀ hpos, hnz] at t1
          have := mul_nonneg t0 hTin.le
          have := mul_nonneg t0 hv
          constructor <;> nlinarith
        · right
          have := key t ht
          rw [hnz] at this
          have e : p.z + t * d.z - hi = -(t * kTiny) := by linear_combination this
          rw [e, abs_neg, abs_of_nonneg (mul_nonneg (ht ▸ h0) hTin.le)]
    have hside : ∀ i, i < n → 0 < rate s.poly d i → 0 ≤ -lineVal s.poly (p.x, p.y) i / nonZero (rate s.poly d i) := by
      intro i hi hpos
      exact div_nonneg (by have := hw i hi; linarith) (nonZero_pos hpos.le).le
    have hr0 : 0 ≤ r := by
      rcases e3 with h | ⟨i, hi, hpos, h⟩
      · rw [h]; exact hplane.1
      · rw [h]; exact hside i hi hpos
    refine ⟨hr0, fun t t0 t1 => ?_, ?_⟩
    · have hpl := hplane.2.1 t t0 (t1.trans e1)
      refine ⟨hpl.1, hpl.2, (g.within hc hu _).mpr fun i hi => ?_⟩
      rw [lineVal_pos]
      have h3 := hw i hi
      by_cases hpos : 0 < rate s.poly d i
      · have h4 := t1.trans (e2 i hi hpos)
        have hnp := nonZero_pos hpos.le
        have hnz : nonZero (rate s.poly d i) = rate s.poly d i + kTiny := by unfold nonZero copySign; rw [if_neg (not_lt.mpr hpos.le)]
        rw [le_div_iff₀ hnp, hnz] at h4
        have := mul_nonneg t0 hTin.le
        nlinarith
      · have := mul_nonneg t0 (neg_nonneg.mpr (not_lt.mp hpos))
        nlinarith
    · unfold NearFace
      rcases e3 with h | ⟨i, hi, hpos, h⟩
      · rcases hplane.2.2 r h with h | h
        · exact Or.inl h
        · exact Or.inr (Or.inl h)
      · right; right
        have hnp := nonZero_pos hpos.le
        have hnz : nonZero (rate s.poly d i) = rate s.poly d i + kTiny := by unfold nonZero copySign; rw [if_neg (not_lt.mpr hpos.le)]
        have h4 : r * nonZero (rate s.poly d i) = -lineVal s.poly (p.x, p.y) i := by rw [h]; field_simp
        rw [hnz] at h4
        have h5 := lineVal_pos s.poly p d r i
        have h6 : lineVal s.poly ((pos p d r).x, (pos p d r).y) i = -(r * kTiny) := by rw [h5]; linear_combination h4
        rw [(init_some hp).1] at h6
        obtain ⟨j, hj, hd, -⟩ := edge_depth (x := x) (y := y) g.few hi
        refine ⟨j, hj, ?_⟩
        have h7 := abs_le.mp (err_exact (k := k) g.few hu ((pos p d r).x, (pos p d r).y) i hi)
        rw [hd, h6] at h7
        have := mul_nonneg hr0 hTin.le
        rw [abs_le]; constructor <;> linarith
  · have ht := kTolerance_pos
    by_cases c : |p.z| - hi > kTolerance
    · rw [if_pos c]
    · rw [if_neg c]
      rcases hout with h | h | ⟨j, hj, h⟩
      · exfalso; apply c; have := neg_abs_le p.z; rw [hsym] at h; linarith
      · exfalso; apply c; have := le_abs_self p.z; linarith
      · obtain ⟨i, hi, hd⟩ := depth_edge (x := x) (y := y) g.few hj
        have h7 := abs_le.mp (err_exact (k := k) g.few hu (p.x, p.y) i hi)
        rw [hd, ← (init_some hp).1] at h7
        rw [outConvex_none p d n _ (Or.inr ⟨i, hi, by linarith⟩)]; rfl

/-- C98: planes not symmetric about 0: from the centre of a cube, upwards, the distance is negative. -/
theorem C98_out_convex_counterexample :
    InSolid 4 (fun i => (sqx i, sqy i)) 1 2 ⟨1 / 2, 1 / 2, 3 / 2⟩ ∧ contains 4 (cube 1) ⟨1 / 2, 1 / 2, 3 / 2⟩ = true ∧
      ∃ r, distanceToOut (cube 1) ⟨1 / 2, 1 / 2, 3 / 2⟩ ⟨0, 0, 1⟩ = some r ∧ r < -9 / 10 := by
  have g := cube_given 1
  have hreg : Region 4 (fun i => (sqx i, sqy i)) (1 / 2, 1 / 2) := by
    rw [region_iff g.distinct sq_convex]
    intro i hi
    have := sq_depth (q := (1 / 2, 1 / 2)) (d := 0) (by norm_num) hi
    exact this.le
  have hin : InSolid 4 (fun i => (sqx i, sqy i)) 1 (1 + 1) ⟨1 / 2, 1 / 2, 3 / 2⟩ := ⟨by norm_num, by norm_num, hreg⟩
  have hnb : ¬ OnBoundary 4 (fun i => (sqx i, sqy i)) (1 / 2, 1 / 2) := by
    intro h
    rcases sq_boundary h with h | h | h | h <;> norm_num at h
  have hsmall : Small ⟨1 / 2, 1 / 2, 3 / 2⟩ := by constructor <;> simp only <;> rw [abs_of_pos (by norm_num)] <;> norm_num
  refine ⟨by have := hin; norm_num at this ⊢; exact this, ((C96_contains g).2 sq_convex sq_unchopped hsmall).mpr ⟨hin, hnb⟩, ?_⟩
  obtain ⟨hp, h1, h2⟩ := g.poly
  have hflag := (C95_flag g.few hp).2 sq_convex
  have hw := (g.within sq_convex sq_unchopped _).mp hreg
  obtain ⟨r, e, e1, -, -⟩ := outConvex_fold (s := cube 1) ⟨1 / 2, 1 / 2, 3 / 2⟩ ⟨0, 0, 1⟩ 4
    ((copySign (1 / 2 * (1 + 1 - 1)) 1 - 3 / 2) / nonZero 1) (fun i hi => (hw i hi).trans kTolerance_pos.le)
  refine ⟨r, ?_, lt_of_le_of_lt e1 ?_⟩
  · unfold distanceToOut shellOutConvex
    rw [hflag, if_pos rfl, g.poly_n, h1, h2]
    dsimp only
    rw [if_neg, e, Option.getD_some]
    unfold kTolerance; norm_num
  · unfold nonZero copySign kTiny
    rw [if_neg (by norm_num), if_neg (by norm_num)]
    norm_num

end SExtru
end VecGeom

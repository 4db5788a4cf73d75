import Verif.Tet.Lemmas

/-!
# C50, C64: the tetrahedron
-/

namespace VecGeom
namespace Tet

/-- The corner tetrahedron used in the examples. -/
noncomputable def corner : State := create ⟨0, 0, 0⟩ ⟨1, 0, 0⟩ ⟨0, 1, 0⟩ ⟨0, 0, 1⟩

theorem corner_volume : volume6 ⟨0, 0, 0⟩ ⟨1, 0, 0⟩ ⟨0, 1, 0⟩ ⟨0, 0, 1⟩ ≠ 0 := by norm_num [volume6]

/-- What normalising a vector of squared length one gives. -/
noncomputable def e1 : ℝ := 1 / Real.sqrt (1 + kMinimum)
/-- What normalising the vector `(1, 1, 1)` gives. -/
noncomputable def e3 : ℝ := 1 / Real.sqrt (3 + kMinimum)

theorem e1_bounds : 99 / 100 < e1 ∧ e1 < 1 := by
  have h0 := kMinimum_pos
  have h1 := kMinimum_lt
  have hs : 0 < Real.sqrt (1 + kMinimum) := Real.sqrt_pos.mpr (by linarith)
  have h2 : Real.sqrt (1 + kMinimum) < 100 / 99 := by
    rw [Real.sqrt_lt' (by norm_num)]; norm_num; linarith
  have h3 : 1 < Real.sqrt (1 + kMinimum) := by
    apply Real.lt_sqrt_of_sq_lt; linarith
  unfold e1
  constructor
  · rw [lt_div_iff₀ hs]; linarith
  · rw [div_lt_iff₀ hs]; linarith

theorem e3_bounds : 57 / 100 < e3 ∧ e3 < 58 / 100 := by
  have h0 := kMinimum_pos
  have h1 := kMinimum_lt
  have hs : 0 < Real.sqrt (3 + kMinimum) := Real.sqrt_pos.mpr (by linarith)
  have h2 : Real.sqrt (3 + kMinimum) < 100 / 57 := by
    rw [Real.sqrt_lt' (by norm_num)]; norm_num; linarith
  have h3 : 100 / 58 < Real.sqrt (3 + kMinimum) := by
    apply Real.lt_sqrt_of_sq_lt; norm_num; linarith
  unfold e3
  constructor
  · rw [lt_div_iff₀ hs]; linarith
  · rw [div_lt_iff₀ hs]; linarith

theorem corner_planes : corner.planes = [⟨⟨0, 0, -e1⟩, 0⟩, ⟨⟨e3, e3, e3⟩, -e3⟩, ⟨⟨-e1, 0, 0⟩, 0⟩, ⟨⟨0, -e1, 0⟩, 0⟩] := by
  have h1 := e1_bounds
  have h3 := e3_bounds
  have f0 : facePlane ⟨0, 0, 0⟩ ⟨1, 0, 0⟩ ⟨0, 1, 0⟩ ⟨0, 0, 1⟩ = ⟨⟨0, 0, -e1⟩, 0⟩ := by
    have : (V3.cross ((⟨1, 0, 0⟩ : V3) - ⟨0, 0, 0⟩) (⟨0, 1, 0⟩ - ⟨0, 0, 0⟩)).unit = ⟨0, 0, e1⟩ := by
      norm_num [V3.cross, V3.unit, V3.mag2, V3.dot, e1]
    unfold facePlane
    rw [this]
    dsimp only
    rw [if_pos (by norm_num [V3.dot]; linarith)]
    norm_num [V3.dot, V3.neg]
  have f1 : facePlane ⟨1, 0, 0⟩ ⟨0, 1, 0⟩ ⟨0, 0, 1⟩ ⟨0, 0, 0⟩ = ⟨⟨e3, e3, e3⟩, -e3⟩ := by
    have : (V3.cross ((⟨0, 1, 0⟩ : V3) - ⟨1, 0, 0⟩) (⟨0, 0, 1⟩ - ⟨1, 0, 0⟩)).unit = ⟨e3, e3, e3⟩ := by
      norm_num [V3.cross, V3.unit, V3.mag2, V3.dot, e3]
    unfold facePlane
    rw [this]
    dsimp only
    rw [if_neg (by norm_num [V3.dot]; linarith)]
    norm_num [V3.dot, V3.neg]
  have f2 : facePlane ⟨0, 1, 0⟩ ⟨0, 0, 1⟩ ⟨0, 0, 0⟩ ⟨1, 0, 0⟩ = ⟨⟨-e1, 0, 0⟩, 0⟩ := by
    have : (V3.cross ((⟨0, 0, 1⟩ : V3) - ⟨0, 1, 0⟩) (⟨0, 0, 0⟩ - ⟨0, 1, 0⟩)).unit = ⟨e1, 0, 0⟩ := by
      norm_num [V3.cross, V3.unit, V3.mag2, V3.dot, e1]
    unfold facePlane
    rw [this]
    dsimp only
    rw [if_pos (by norm_num [V3.dot]; linarith)]
    norm_num [V3.dot, V3.neg]
  have f3 : facePlane ⟨0, 0, 1⟩ ⟨0, 0, 0⟩ ⟨1, 0, 0⟩ ⟨0, 1, 0⟩ = ⟨⟨0, -e1, 0⟩, 0⟩ := by
    have : (V3.cross ((⟨0, 0, 0⟩ : V3) - ⟨0, 0, 1⟩) (⟨1, 0, 0⟩ - ⟨0, 0, 1⟩)).unit = ⟨0, -e1, 0⟩ := by
      norm_num [V3.cross, V3.unit, V3.mag2, V3.dot, e1, neg_div]
    unfold facePlane
    rw [this]
    dsimp only
    rw [if_neg (by norm_num [V3.dot]; linarith)]
    norm_num [V3.dot, V3.neg]
  simp only [corner, create, f0, f1, f2, f3]

/-- C50: the planes built by the constructor bound exactly the convex hull of the four corners. -/
theorem C50_hull {v0 v1 v2 v3 : V3} (h : volume6 v0 v1 v2 v3 ≠ 0) (q : V3) :
    Below (create v0 v1 v2 v3).planes q ↔ Hull v0 v1 v2 v3 q := hull_iff h q

example : Below corner.planes ⟨1 / 4, 1 / 4, 1 / 4⟩ :=
  (C50_hull corner_volume _).mpr ⟨1 / 4, 1 / 4, 1 / 4, 1 / 4, by norm_num, by norm_num, by norm_num, by norm_num, by norm_num,
    by norm_num [IsMix]⟩

/-- C50: four corners in a plane are accepted by the constructor; four equal ones give a solid that contains every
point. -/
theorem C50_degenerate_counterexample (v p : V3) :
    checkDegeneracy v v v v = true ∧ contains (create v v v v).planes p = true := by
  have hz : V3.cross (v - v) (v - v) = ⟨0, 0, 0⟩ := by
    simp [V3.cross, V3.sub_x, V3.sub_y, V3.sub_z]
  constructor
  · have : calcCapacity v v v v = 0 := by
      unfold calcCapacity; rw [hz]; simp [V3.dot]
    have ht := kTolerance_pos
    unfold checkDegeneracy
    rw [this, if_pos (by positivity)]
  · have hf : facePlane v v v v = ⟨⟨0, 0, 0⟩, 0⟩ := by
      simp [facePlane, hz, V3.unit, V3.dot]
    simp [contains, genericKernel, maxDist, create, hf, evalPlane, V3.dot, kHalfTolerance_pos.le]

/-- C50: a point is contained exactly if it is at most half the tolerance above every plane. -/
theorem C50_contains {pls : List Plane} (h : pls ≠ []) (p : V3) :
    contains pls p = true ↔ ∀ pl ∈ pls, pl.n.dot p + pl.d ≤ kHalfTolerance := by
  have := maxDist_le h (p := p) (b := kHalfTolerance)
  simp only [Plane.height] at this
  rw [← this]
  simp [contains, genericKernel]

/-- C50: every point of the tetrahedron is contained. -/
theorem C50_contains_hull {v0 v1 v2 v3 : V3} (h : volume6 v0 v1 v2 v3 ≠ 0) {q : V3} (hq : Hull v0 v1 v2 v3 q) :
    contains (create v0 v1 v2 v3).planes q = true := by
  rw [C50_contains (create_ne_nil _ _ _ _)]
  intro pl hpl
  have := (C50_hull h q).mpr hq pl hpl
  linarith [kHalfTolerance_pos]

example : contains corner.planes ⟨1 / 4, 1 / 4, 1 / 4⟩ = true :=
  C50_contains_hull corner_volume ⟨1 / 4, 1 / 4, 1 / 4, 1 / 4, by norm_num, by norm_num, by norm_num, by norm_num,
    by norm_num, by norm_num [IsMix]⟩

/-- C50: the three classes.  A point is outside exactly if it is more than half the tolerance above some plane, inside
exactly if it is at least half the tolerance below all planes. -/
theorem C50_inside {pls : List Plane} (h : pls ≠ []) (p : V3) :
    (inside pls p = .outside ↔ ∃ pl ∈ pls, kHalfTolerance < pl.n.dot p + pl.d) ∧
    (inside pls p = .inside ↔ ∀ pl ∈ pls, pl.n.dot p + pl.d ≤ -kHalfTolerance) := by
  have h1 := maxDist_le h (p := p) (b := kHalfTolerance)
  have h2 := maxDist_le h (p := p) (b := -kHalfTolerance)
  have ht := kHalfTolerance_pos
  simp only [Plane.height] at h1 h2
  rw [← h2]
  have h1' : (∃ pl ∈ pls, kHalfTolerance < pl.n.dot p + pl.d) ↔ kHalfTolerance < maxDist pls p := by
    rw [← not_le, h1]; push Not; rfl
  rw [h1']
  unfold inside genericKernel
  dsimp only
  by_cases a : maxDist pls p ≤ -kHalfTolerance
  · have b : ¬ maxDist pls p > kHalfTolerance := by linarith
    have b' : maxDist pls p ≤ kHalfTolerance := by linarith
    simp [a, b']
  · by_cases b : maxDist pls p > kHalfTolerance
    · simp [a, b]
    · simp [a, b, not_lt.mp b]

/-- C50: what the classes mean for the tetrahedron.  Outside points are farther than half the tolerance from it; all
points near an inside point belong to it. -/
theorem C50_inside_hull {v0 v1 v2 v3 : V3} (h : volume6 v0 v1 v2 v3 ≠ 0) (p q : V3) :
    (inside (create v0 v1 v2 v3).planes p = .outside → Hull v0 v1 v2 v3 q → kHalfTolerance < V3.dist p q) ∧
    (inside (create v0 v1 v2 v3).planes p = .inside → V3.dist p q ≤ kHalfTolerance → Hull v0 v1 v2 v3 q) := by
  have k := C50_inside (create_ne_nil v0 v1 v2 v3) p
  constructor
  · intro ho hq
    obtain ⟨pl, hpl, hh⟩ := k.1.mp ho
    have hb := (C50_hull h q).mpr hq pl hpl
    have := Plane.height_sub_le (create_normals v0 v1 v2 v3 pl hpl) p q
    simp only [Plane.height] at this
    linarith
  · intro hi hd
    rw [← C50_hull h q]
    intro pl hpl
    have hb := k.2.mp hi pl hpl
    have := Plane.height_sub_le (create_normals v0 v1 v2 v3 pl hpl) q p
    rw [V3.dist_comm'] at this
    simp only [Plane.height] at this
    linarith

/-- C50: the safety from outside is at most the distance to any point of the solid. -/
theorem C50_safety_in {pls : List Plane} (h : pls ≠ []) (hn : ∀ pl ∈ pls, pl.n.mag2 ≤ 1) (p q : V3) (hq : Below pls q) :
    safetyToIn pls p ≤ V3.dist p q := by
  obtain ⟨pl, hpl, he⟩ := maxDist_attained h p
  have h1 := Plane.height_sub_le (hn pl hpl) p q
  have h2 : pl.height q ≤ 0 := hq pl hpl
  unfold safetyToIn
  dsimp only
  split
  · exact V3.dist_nonneg' p q
  · rw [he]; linarith

/-- C50: the safety from inside is at most the distance to any point not in the solid. -/
theorem C50_safety_out {pls : List Plane} (h : pls ≠ []) (hn : ∀ pl ∈ pls, pl.n.mag2 ≤ 1) (p q : V3) (hq : ¬ Below pls q) :
    safetyToOut pls p ≤ V3.dist p q := by
  unfold Below at hq
  push Not at hq
  obtain ⟨pl, hpl, hb⟩ := hq
  have h1 := Plane.height_sub_le (hn pl hpl) q p
  have h2 : pl.height p ≤ maxDist pls p := (maxDist_le h).mp le_rfl pl hpl
  have h3 : 0 < pl.height q := hb
  rw [V3.dist_comm'] at h1
  unfold safetyToOut
  dsimp only
  split
  · exact V3.dist_nonneg' p q
  · linarith

/-- C50: the safeties are not trivial: a point a distance `m` above some plane has at least the safety `m` to enter, a
point `m` below all planes has at least the safety `m` to leave, if `m` exceeds half the tolerance. -/
theorem C50_safety_sharp {pls : List Plane} (h : pls ≠ []) (p : V3) {m : ℝ} (hm : kHalfTolerance < m) :
    ((∃ pl ∈ pls, m ≤ pl.n.dot p + pl.d) → m ≤ safetyToIn pls p) ∧
    ((∀ pl ∈ pls, pl.n.dot p + pl.d ≤ -m) → m ≤ safetyToOut pls p) := by
  have ht := kHalfTolerance_pos
  constructor
  · rintro ⟨pl, hpl, hb⟩
    have h2 : pl.height p ≤ maxDist pls p := (maxDist_le h).mp le_rfl pl hpl
    have h3 : m ≤ maxDist pls p := le_trans hb h2
    unfold safetyToIn
    dsimp only
    rw [if_neg (by rw [abs_of_pos (by linarith)]; linarith)]
    exact h3
  · intro hb
    have h2 : maxDist pls p ≤ -m := (maxDist_le h).mpr hb
    unfold safetyToOut
    dsimp only
    rw [if_neg (by rw [abs_of_pos (by linarith)]; linarith)]
    linarith

example : 1 / 10 ≤ safetyToOut corner.planes ⟨1 / 6, 1 / 6, 1 / 6⟩ ∧ 1 ≤ safetyToIn corner.planes ⟨-2, 0, 0⟩ := by
  have h1 := e1_bounds
  have h3 := e3_bounds
  constructor
  · apply (C50_safety_sharp (create_ne_nil _ _ _ _) _ (by norm_num [kHalfTolerance, kTolerance])).2
    rw [← corner, corner_planes]
    simp only [List.mem_cons, List.not_mem_nil, or_false, forall_eq_or_imp, forall_eq, V3.dot]
    refine ⟨?_, ?_, ?_, ?_⟩ <;> nlinarith
  · apply (C50_safety_sharp (create_ne_nil _ _ _ _) _ (by norm_num [kHalfTolerance, kTolerance])).1
    rw [← corner, corner_planes]
    refine ⟨⟨⟨-e1, 0, 0⟩, 0⟩, by simp, ?_⟩
    simp only [V3.dot]; nlinarith

/-! ## Distances -/

/-- C50: distance to enter.  Unless the answer is "never", the solid is not met before it. -/
theorem C50_entry {pls : List Plane} (p d : V3) (ht : distanceToIn pls p d ≠ kInfLength) {u : ℝ} (hu : 0 ≤ u)
    (hq : Below pls (V3.at' p d u)) : distanceToIn pls p d ≤ u := by
  classical
  unfold distanceToIn at *
  rw [inLoop_eq] at *
  dsimp only at *
  split at ht
  · exact absurd rfl ht
  · rename_i hc
    rw [if_neg hc, maxIf_le]
    refine ⟨by linarith [kInfLength_pos], ?_⟩
    intro pl hpl hneg
    have hneg' := nonZero_sign.mp hneg
    have hb : pl.height (V3.at' p d u) ≤ 0 := hq pl hpl
    rw [Plane.height_at] at hb
    have hk := kTiny_pos
    unfold hit
    rw [div_le_iff_of_neg hneg, nonZero_of_neg hneg']
    nlinarith

/-- C50: the answer is never larger than "never", and not larger than any parameter at which the ray is properly inside,
beyond the tolerance.  (`1e-30` is what `NonZero` adds to the cosines.) -/
theorem C50_entry_found {pls : List Plane} (p d : V3) {u : ℝ} (hu : kHalfTolerance < u)
    (hq : ∀ pl ∈ pls, pl.n.dot (V3.at' p d u) + pl.d < -u * kTiny) : distanceToIn pls p d ≤ u := by
  classical
  have ht := kHalfTolerance_pos
  have hk := kTiny_pos
  have hbelow : Below pls (V3.at' p d u) := fun pl hpl => by
    have := hq pl hpl; nlinarith
  by_cases hi : distanceToIn pls p d = kInfLength
  · by_contra hlt
    push Not at hlt
    rw [hi] at hlt
    unfold distanceToIn at hi
    rw [inLoop_eq] at hi
    dsimp only at hi
    have hin : maxIf (fun pl : Plane => nonZero (pl.n.dot d) < 0) (hit p d) (-kInfLength) pls ≤ u := by
      rw [maxIf_le]
      refine ⟨by linarith [kInfLength_pos], ?_⟩
      intro pl hpl hneg
      have hneg' := nonZero_sign.mp hneg
      have hb : pl.height (V3.at' p d u) ≤ 0 := hbelow pl hpl
      rw [Plane.height_at] at hb
      unfold hit
      rw [div_le_iff_of_neg hneg, nonZero_of_neg hneg']
      nlinarith
    have hout : u < minIf (fun pl : Plane => nonZero (pl.n.dot d) > 0) (hit p d) kInfLength pls := by
      rcases minIf_cases (fun pl : Plane => nonZero (pl.n.dot d) > 0) (hit p d) kInfLength pls with e | ⟨pl, hpl, hpos, e⟩
      · rw [e]; exact hlt
      · rw [e]
        have hpos' := nonZero_gt.mp hpos
        have hb : pl.height (V3.at' p d u) < -u * kTiny := hq pl hpl
        rw [Plane.height_at] at hb
        unfold hit
        rw [lt_div_iff₀ hpos, nonZero_of_nonneg hpos']
        nlinarith
    have habs : ¬ minIf (fun pl : Plane => nonZero (pl.n.dot d) > 0) (fun pl => |pl.height p|) kInfLength pls
        ≤ -kHalfTolerance := by
      rw [not_le]
      have := (le_minIf (fun pl : Plane => nonZero (pl.n.dot d) > 0) (fun pl => |pl.height p|) (m := kInfLength) (l := pls)
        (b := 0)).mpr ⟨kInfLength_pos.le, fun i _ _ => abs_nonneg _⟩
      linarith
    rw [if_neg] at hi
    · linarith
    · rintro (h | h | h)
      · linarith
      · linarith
      · exact habs h
  · exact C50_entry p d hi (by linarith) hbelow

/-- C50: the point reached is on the surface: on or below all planes and, unless no plane faces the ray, on one of them,
up to `1e-30` times the distance. -/
theorem C50_entry_hit {pls : List Plane} (p d : V3) (ht : distanceToIn pls p d ≠ kInfLength)
    (h0 : 0 ≤ distanceToIn pls p d) :
    (∀ pl ∈ pls, pl.n.dot (V3.at' p d (distanceToIn pls p d)) + pl.d ≤ distanceToIn pls p d * kTiny) ∧
    ∃ pl ∈ pls, pl.n.dot (V3.at' p d (distanceToIn pls p d)) + pl.d = distanceToIn pls p d * kTiny := by
  classical
  unfold distanceToIn at *
  rw [inLoop_eq] at *
  dsimp only at *
  split at ht
  · exact absurd rfl ht
  rename_i hc
  rw [if_neg hc] at *
  push Not at hc
  obtain ⟨hlt, hout, -⟩ := hc
  set t := maxIf (fun pl : Plane => nonZero (pl.n.dot d) < 0) (hit p d) (-kInfLength) pls with htdef
  have hk := kTiny_pos
  have hinf := kInfLength_pos
  constructor
  · intro pl hpl
    show pl.height _ ≤ _
    rw [Plane.height_at]
    rcases lt_or_ge (pl.n.dot d) 0 with hneg | hpos
    · have h1 : hit p d pl ≤ t := ((maxIf_le _ _).mp htdef.ge).2 pl hpl (nonZero_neg hneg)
      unfold hit at h1
      rw [div_le_iff_of_neg (nonZero_neg hneg), nonZero_of_neg hneg] at h1
      nlinarith
    · have h1 : minIf (fun pl : Plane => nonZero (pl.n.dot d) > 0) (hit p d) kInfLength pls ≤ hit p d pl :=
        ((le_minIf _ _).mp le_rfl).2 pl hpl (nonZero_pos hpos)
      have h2 : t < hit p d pl := lt_of_lt_of_le hlt h1
      unfold hit at h2
      rw [lt_div_iff₀ (nonZero_pos hpos), nonZero_of_nonneg hpos] at h2
      nlinarith
  · rcases maxIf_cases (fun pl : Plane => nonZero (pl.n.dot d) < 0) (hit p d) (-kInfLength) pls with e | ⟨pl, hpl, hneg, e⟩
    · rw [← htdef] at e; linarith
    · rw [← htdef] at e
      refine ⟨pl, hpl, ?_⟩
      have := hit_in (p := p) (nonZero_sign.mp hneg)
      rw [← e] at this
      exact this

/-- A ray that meets the corner tetrahedron satisfies the hypotheses of the theorems on entering. -/
theorem corner_entry :
    distanceToIn corner.planes ⟨-1, 1 / 4, 1 / 4⟩ ⟨1, 0, 0⟩ ≤ 5 / 4 ∧
    distanceToIn corner.planes ⟨-1, 1 / 4, 1 / 4⟩ ⟨1, 0, 0⟩ ≠ kInfLength := by
  have h1 := e1_bounds
  have h3 := e3_bounds
  have hle : distanceToIn corner.planes ⟨-1, 1 / 4, 1 / 4⟩ ⟨1, 0, 0⟩ ≤ 5 / 4 := by
    apply C50_entry_found
    · norm_num [kHalfTolerance, kTolerance]
    · rw [corner_planes]
      have hk : kTiny < 1 / 100 := by norm_num [kTiny]
      simp only [List.mem_cons, List.not_mem_nil, or_false, forall_eq_or_imp, forall_eq, V3.dot, V3.at_x, V3.at_y, V3.at_z]
      refine ⟨?_, ?_, ?_, ?_⟩ <;> linarith
  refine ⟨hle, fun h => ?_⟩
  rw [h] at hle
  linarith [kInfLength_large]

/-- C50: a negative answer is given only for points of the solid. -/
theorem C50_entry_negative {pls : List Plane} (p d : V3) (h0 : distanceToIn pls p d < 0) : Below pls p := by
  classical
  have hinf := kInfLength_pos
  have htol := kHalfTolerance_pos
  unfold distanceToIn at *
  rw [inLoop_eq] at *
  dsimp only at *
  split at h0
  · linarith
  rename_i hc
  push Not at hc
  obtain ⟨hlt, hout, -⟩ := hc
  intro pl hpl
  show pl.height p ≤ 0
  rcases lt_or_ge (pl.n.dot d) 0 with hneg | hpos
  · have h1 := ((maxIf_le (fun pl : Plane => nonZero (pl.n.dot d) < 0) (hit p d)).mp h0.le).2 pl hpl (nonZero_neg hneg)
    unfold hit at h1
    rw [div_le_iff_of_neg (nonZero_neg hneg)] at h1
    linarith
  · have h1 : minIf (fun pl : Plane => nonZero (pl.n.dot d) > 0) (hit p d) kInfLength pls ≤ hit p d pl :=
      ((le_minIf _ _).mp le_rfl).2 pl hpl (nonZero_pos hpos)
    have h2 : 0 < hit p d pl := by linarith
    unfold hit at h2
    rw [lt_div_iff₀ (nonZero_pos hpos)] at h2
    linarith

example : 0 ≤ distanceToIn corner.planes ⟨-1, 1 / 4, 1 / 4⟩ ⟨1, 0, 0⟩ := by
  by_contra h
  have := C50_entry_negative _ _ (not_le.mp h) ⟨⟨-e1, 0, 0⟩, 0⟩ (by rw [corner_planes]; simp)
  simp only [V3.dot] at this
  linarith [e1_bounds.1]

/-- C50: distance to leave from a point of the solid: not negative, and the ray stays in the solid until then. -/
theorem C50_exit {pls : List Plane} (p d : V3) (hp : Below pls p) :
    0 ≤ distanceToOut pls p d ∧ ∀ u, 0 ≤ u → u ≤ distanceToOut pls p d → Below pls (V3.at' p d u) := by
  classical
  have hinf := kInfLength_pos
  have htol := kHalfTolerance_pos
  have hk := kTiny_pos
  have e := distanceToOut_eq (d := d) hp
  rw [e]
  constructor
  · rw [le_minIf]
    refine ⟨hinf.le, fun pl hpl hpos => ?_⟩
    have h : pl.height p ≤ 0 := hp pl hpl
    exact div_nonneg (by linarith) (le_of_lt hpos)
  · intro u hu hle pl hpl
    show pl.height _ ≤ 0
    have h : pl.height p ≤ 0 := hp pl hpl
    rw [Plane.height_at]
    rcases lt_or_ge (pl.n.dot d) 0 with hneg | hpos
    · nlinarith
    · have h1 := ((le_minIf _ _).mp hle).2 pl hpl (nonZero_pos hpos)
      unfold hit at h1
      rw [le_div_iff₀ (nonZero_pos hpos), nonZero_of_nonneg hpos] at h1
      nlinarith

/-- C50: the point reached when leaving is on the surface: on one of the planes up to `1e-30` times the distance, that
plane not being approached from outside. -/
theorem C50_exit_hit {pls : List Plane} (p d : V3) (hp : Below pls p) (ht : distanceToOut pls p d < kInfLength) :
    ∃ pl ∈ pls, 0 ≤ pl.n.dot d ∧
      pl.n.dot (V3.at' p d (distanceToOut pls p d)) + pl.d = -(distanceToOut pls p d * kTiny) := by
  classical
  have hinf := kInfLength_pos
  have htol := kHalfTolerance_pos
  have e := distanceToOut_eq (d := d) hp
  rw [e] at ht ⊢
  rcases minIf_cases (fun pl : Plane => nonZero (pl.n.dot d) > 0) (hit p d) kInfLength pls with e' | ⟨pl, hpl, hpos, e'⟩
  · linarith
  · refine ⟨pl, hpl, nonZero_gt.mp hpos, ?_⟩
    have := hit_out (p := p) (nonZero_gt.mp hpos)
    rw [← e'] at this
    simp only [Plane.height] at this
    linarith

example : distanceToOut corner.planes ⟨1 / 4, 1 / 4, 1 / 4⟩ ⟨1, 0, 0⟩ < kInfLength := by
  have h3 := e3_bounds
  have hb : Below corner.planes ⟨1 / 4, 1 / 4, 1 / 4⟩ :=
    (C50_hull corner_volume _).mpr ⟨1 / 4, 1 / 4, 1 / 4, 1 / 4, by norm_num, by norm_num, by norm_num, by norm_num, by norm_num,
      by norm_num [IsMix]⟩
  have hlt : distanceToOut corner.planes ⟨1 / 4, 1 / 4, 1 / 4⟩ ⟨1, 0, 0⟩ < 1 := by
    by_contra h
    have := (C50_exit _ _ hb).2 1 (by norm_num) (not_lt.mp h) ⟨⟨e3, e3, e3⟩, -e3⟩ (by rw [corner_planes]; simp)
    simp only [V3.dot, V3.at_x, V3.at_y, V3.at_z] at this
    linarith
  linarith [kInfLength_large]

/-- C50: from a point more than half the tolerance above a plane the distance to leave is the error value. -/
theorem C50_exit_wrong_side {pls : List Plane} (p d : V3) (h : ∃ pl ∈ pls, kHalfTolerance < pl.n.dot p + pl.d) :
    distanceToOut pls p d = -1 := by
  obtain ⟨pl, hpl, hb⟩ := h
  unfold distanceToOut
  dsimp only
  rw [if_pos]
  have := maxIf_le (fun _ : Plane => True) (fun q => q.height p) (m := -kInfLength) (l := pls)
    (b := pls.foldl (fun m pl => max m (evalPlane pl p)) (-kInfLength))
  simp only [maxIf, if_true, true_implies, evalPlane_eq] at this
  have h2 := (this.mp le_rfl).2 pl hpl
  exact lt_of_lt_of_le hb h2

/-! ## Normals -/

/-- C64: near exactly one face the normal is that of the face, and it is valid. -/
theorem C64_normal_face {l1 l2 : List Plane} {pl : Plane} (p : V3) (hn : 0 < pl.n.mag2 ∧ pl.n.mag2 ≤ 1)
    (h : |pl.n.dot p + pl.d| ≤ kHalfTolerance) (h1 : ∀ q ∈ l1, kHalfTolerance < |q.n.dot p + q.d|)
    (h2 : ∀ q ∈ l2, kHalfTolerance < |q.n.dot p + q.d|) : normalKernel (l1 ++ pl :: l2) p = (pl.n, true) := by
  classical
  have hf : ∀ (l : List Plane) (m : V3), (∀ q ∈ l, kHalfTolerance < |q.n.dot p + q.d|) →
      l.foldl (fun m pl => if |evalPlane pl p| ≤ kHalfTolerance then m + pl.n else m) m = m := by
    intro l
    induction l with
    | nil => intro m _; rfl
    | cons a l ih =>
      intro m ha
      rw [List.foldl_cons, if_neg (by unfold evalPlane; exact not_le.mpr (ha a List.mem_cons_self))]
      exact ih m fun q hq => ha q (List.mem_cons_of_mem _ hq)
  unfold normalKernel
  dsimp only
  rw [List.foldl_append, hf l1 _ h1, List.foldl_cons, if_pos (show |evalPlane pl p| ≤ kHalfTolerance from h), hf l2 _ h2]
  have e : (⟨0, 0, 0⟩ : V3) + pl.n = pl.n := by
    apply V3.ext <;> simp
  rw [e, if_neg (show ¬ pl.n.mag2 > 1 by linarith [hn.2]), if_pos hn.1]

example : normalKernel corner.planes ⟨1 / 4, 1 / 4, 0⟩ = (⟨0, 0, -e1⟩, true) := by
  have h1 := e1_bounds
  have h3 := e3_bounds
  rw [corner_planes]
  refine C64_normal_face (l1 := []) (pl := ⟨⟨0, 0, -e1⟩, 0⟩) _ ?_ ?_ (by simp) ?_
  · simp only [V3.mag2, V3.dot]; constructor <;> nlinarith
  · simp [V3.dot, kHalfTolerance_pos.le]
  · simp only [List.mem_cons, List.not_mem_nil, or_false, forall_eq_or_imp, forall_eq, V3.dot]
    refine ⟨?_, ?_, ?_⟩ <;> rw [abs_of_neg (by linarith)] <;> norm_num [kHalfTolerance, kTolerance] <;> linarith

/-- C64: a normal reported as valid is not zero and not longer than one. -/
theorem C64_normal_partial (pls : List Plane) (p : V3) (h : (normalKernel pls p).2 = true) :
    0 < (normalKernel pls p).1.mag2 ∧ (normalKernel pls p).1.mag2 ≤ 1 := by
  classical
  unfold normalKernel at *
  dsimp only at *
  generalize pls.foldl (fun m pl => if |evalPlane pl p| ≤ kHalfTolerance then m + pl.n else m) (⟨0, 0, 0⟩ : V3) = n at *
  have hb : (if n.mag2 > 1 then n.unit else n).mag2 ≤ 1 := by
    split
    · exact V3.unit_mag2_le n
    · linarith
  generalize (if n.mag2 > 1 then n.unit else n) = w at *
  by_cases hw : w.mag2 > 0
  · rw [if_pos hw]; exact ⟨hw, hb⟩
  · rw [if_neg hw] at h; cases h

/-- C64: valid normals need not have length one.  On an edge at which the faces meet under less than sixty degrees the sum of
the two face normals is shorter than one and is returned without normalisation. -/
theorem C64_normal_counterexample :
    (normalKernel corner.planes ⟨1 / 2, 1 / 2, 0⟩).2 = true ∧
    (normalKernel corner.planes ⟨1 / 2, 1 / 2, 0⟩).1.mag2 < 9 / 10 := by
  have h1 := e1_bounds
  have h3 := e3_bounds
  have ht := kHalfTolerance_pos
  have hs : kHalfTolerance < 1 / 100 := by norm_num [kHalfTolerance, kTolerance]
  have a0 : |evalPlane ⟨⟨0, 0, -e1⟩, 0⟩ ⟨1 / 2, 1 / 2, 0⟩| ≤ kHalfTolerance := by
    simp [evalPlane, V3.dot, ht.le]
  have a1 : |evalPlane ⟨⟨e3, e3, e3⟩, -e3⟩ ⟨1 / 2, 1 / 2, 0⟩| ≤ kHalfTolerance := by
    rw [show evalPlane ⟨⟨e3, e3, e3⟩, -e3⟩ ⟨1 / 2, 1 / 2, 0⟩ = 0 by simp only [evalPlane, V3.dot]; ring]; simp [ht.le]
  have a2 : ¬ |evalPlane ⟨⟨-e1, 0, 0⟩, 0⟩ ⟨1 / 2, 1 / 2, 0⟩| ≤ kHalfTolerance := by
    rw [show evalPlane ⟨⟨-e1, 0, 0⟩, 0⟩ ⟨1 / 2, 1 / 2, 0⟩ = -(e1 / 2) by simp only [evalPlane, V3.dot]; ring,
      abs_neg, abs_of_pos (by linarith)]; linarith
  have a3 : ¬ |evalPlane ⟨⟨0, -e1, 0⟩, 0⟩ ⟨1 / 2, 1 / 2, 0⟩| ≤ kHalfTolerance := by
    rw [show evalPlane ⟨⟨0, -e1, 0⟩, 0⟩ ⟨1 / 2, 1 / 2, 0⟩ = -(e1 / 2) by simp only [evalPlane, V3.dot]; ring,
      abs_neg, abs_of_pos (by linarith)]; linarith
  have hm : (⟨e3, e3, e3 - e1⟩ : V3).mag2 < 9 / 10 ∧ 0 < (⟨e3, e3, e3 - e1⟩ : V3).mag2 := by
    simp only [V3.mag2, V3.dot]; constructor <;> nlinarith
  have hk : normalKernel corner.planes ⟨1 / 2, 1 / 2, 0⟩ = (⟨e3, e3, e3 - e1⟩, true) := by
    rw [corner_planes]
    unfold normalKernel
    dsimp only [List.foldl]
    rw [if_pos a0, if_pos a1, if_neg a2, if_neg a3]
    have e : (⟨0, 0, 0⟩ : V3) + ⟨0, 0, -e1⟩ + ⟨e3, e3, e3⟩ = ⟨e3, e3, e3 - e1⟩ := by
      apply V3.ext <;> simp; ring
    rw [e, if_neg (show ¬ (⟨e3, e3, e3 - e1⟩ : V3).mag2 > 1 by linarith [hm.1]), if_pos hm.2]
  rw [hk]
  exact ⟨rfl, hm.1⟩

/-- C64: away from all faces the normal is reported as not valid; it is that of a face whose plane is highest, that is
nearest for a point of the solid. -/
theorem C64_normal_far {pls : List Plane} (h : pls ≠ []) (p : V3) (hf : ∀ q ∈ pls, kHalfTolerance < |q.n.dot p + q.d|)
    (hb : ∀ q ∈ pls, -kInfLength < q.n.dot p + q.d) :
    (normalKernel pls p).2 = false ∧
    ∃ pl ∈ pls, (normalKernel pls p).1 = pl.n ∧ ∀ q ∈ pls, q.n.dot p + q.d ≤ pl.n.dot p + pl.d := by
  classical
  have h0 : ∀ (l : List Plane) (m : V3), (∀ q ∈ l, kHalfTolerance < |q.n.dot p + q.d|) →
      l.foldl (fun m pl => if |evalPlane pl p| ≤ kHalfTolerance then m + pl.n else m) m = m := by
    intro l
    induction l with
    | nil => intro m _; rfl
    | cons a l ih =>
      intro m ha
      rw [List.foldl_cons, if_neg (by unfold evalPlane; exact not_le.mpr (ha a List.mem_cons_self))]
      exact ih m fun q hq => ha q (List.mem_cons_of_mem _ hq)
  unfold normalKernel
  dsimp only
  have hz : ¬ (⟨0, 0, 0⟩ : V3).mag2 > 1 := by norm_num [V3.mag2, V3.dot]
  have hz' : ¬ (⟨0, 0, 0⟩ : V3).mag2 > 0 := by norm_num [V3.mag2, V3.dot]
  rw [h0 pls _ hf, if_neg hz, if_neg hz']
  refine ⟨rfl, ?_⟩
  -- the loop keeps the normal of the highest plane so far
  have key : ∀ (l : List Plane) (s : V3 × ℝ),
      let r := l.foldl (fun (s : V3 × ℝ) pl => if evalPlane pl p > s.2 then (pl.n, evalPlane pl p) else s) s
      (r = s ∨ ∃ pl ∈ l, r = (pl.n, pl.n.dot p + pl.d)) ∧ s.2 ≤ r.2 ∧ ∀ q ∈ l, q.n.dot p + q.d ≤ r.2 := by
    intro l
    induction l with
    | nil => intro s; exact ⟨Or.inl rfl, le_rfl, by simp⟩
    | cons a l ih =>
      intro s
      dsimp only
      rw [List.foldl_cons]
      by_cases ha : evalPlane a p > s.2
      · rw [if_pos ha]
        obtain ⟨k1, k2, k3⟩ := ih (a.n, evalPlane a p)
        refine ⟨?_, le_trans (le_of_lt ha) k2, ?_⟩
        · right
          rcases k1 with k1 | ⟨pl, hpl, k1⟩
          · exact ⟨a, List.mem_cons_self, k1⟩
          · exact ⟨pl, List.mem_cons_of_mem _ hpl, k1⟩
        · intro q hq
          rcases List.mem_cons.mp hq with rfl | hq
          · exact k2
          · exact k3 q hq
      · rw [if_neg ha]
        obtain ⟨k1, k2, k3⟩ := ih s
        refine ⟨?_, k2, ?_⟩
        · rcases k1 with k1 | ⟨pl, hpl, k1⟩
          · exact Or.inl k1
          · exact Or.inr ⟨pl, List.mem_cons_of_mem _ hpl, k1⟩
        · intro q hq
          rcases List.mem_cons.mp hq with rfl | hq
          · exact le_trans (not_lt.mp ha) k2
          · exact k3 q hq
  obtain ⟨k1, k2, k3⟩ := key pls (⟨0, 0, 0⟩, -kInfLength)
  rcases k1 with k1 | ⟨pl, hpl, k1⟩
  · exfalso
    obtain ⟨a, ha⟩ := List.exists_mem_of_ne_nil pls h
    have := k3 a ha
    rw [k1] at this
    linarith [hb a ha]
  · rw [k1] at k3 ⊢
    exact ⟨pl, hpl, rfl, k3⟩

/-! ## Extent, sampling and mesh -/

/-- C64: the extent is the smallest box that contains the tetrahedron: it contains every point, and each of its six
faces touches a corner. -/
theorem C64_extent (v0 v1 v2 v3 : V3) :
    let e := extent (create v0 v1 v2 v3)
    (∀ q, Hull v0 v1 v2 v3 q → e.1.x ≤ q.x ∧ e.1.y ≤ q.y ∧ e.1.z ≤ q.z ∧ q.x ≤ e.2.x ∧ q.y ≤ e.2.y ∧ q.z ≤ e.2.z) ∧
    (∃ v ∈ [v0, v1, v2, v3], e.1.x = v.x) ∧ (∃ v ∈ [v0, v1, v2, v3], e.1.y = v.y) ∧
    (∃ v ∈ [v0, v1, v2, v3], e.1.z = v.z) ∧ (∃ v ∈ [v0, v1, v2, v3], e.2.x = v.x) ∧
    (∃ v ∈ [v0, v1, v2, v3], e.2.y = v.y) ∧ (∃ v ∈ [v0, v1, v2, v3], e.2.z = v.z) := by
  have lo : ∀ a b c d : ℝ, ∀ wa wb wc wd : ℝ, 0 ≤ wa → 0 ≤ wb → 0 ≤ wc → 0 ≤ wd → wa + wb + wc + wd = 1 →
      min (min (min a b) c) d ≤ wa * a + wb * b + wc * c + wd * d := by
    intro a b c d wa wb wc wd ha hb hc hd hs
    set m := min (min (min a b) c) d
    have h1 : m ≤ a := le_trans (min_le_left _ _) (le_trans (min_le_left _ _) (min_le_left _ _))
    have h2 : m ≤ b := le_trans (min_le_left _ _) (le_trans (min_le_left _ _) (min_le_right _ _))
    have h3 : m ≤ c := le_trans (min_le_left _ _) (min_le_right _ _)
    have h4 : m ≤ d := min_le_right _ _
    have : m = wa * m + wb * m + wc * m + wd * m := by rw [← add_mul, ← add_mul, ← add_mul, hs, one_mul]
    rw [this]
    have := mul_le_mul_of_nonneg_left h1 ha
    have := mul_le_mul_of_nonneg_left h2 hb
    have := mul_le_mul_of_nonneg_left h3 hc
    have := mul_le_mul_of_nonneg_left h4 hd
    linarith
  have hi : ∀ a b c d : ℝ, ∀ wa wb wc wd : ℝ, 0 ≤ wa → 0 ≤ wb → 0 ≤ wc → 0 ≤ wd → wa + wb + wc + wd = 1 →
      wa * a + wb * b + wc * c + wd * d ≤ max (max (max a b) c) d := by
    intro a b c d wa wb wc wd ha hb hc hd hs
    set m := max (max (max a b) c) d
    have h1 : a ≤ m := le_trans (le_max_left _ _) (le_trans (le_max_left _ _) (le_max_left _ _))
    have h2 : b ≤ m := le_trans (le_max_right _ _) (le_trans (le_max_left _ _) (le_max_left _ _))
    have h3 : c ≤ m := le_trans (le_max_right _ _) (le_max_left _ _)
    have h4 : d ≤ m := le_max_right _ _
    have : m = wa * m + wb * m + wc * m + wd * m := by rw [← add_mul, ← add_mul, ← add_mul, hs, one_mul]
    rw [this]
    have := mul_le_mul_of_nonneg_left h1 ha
    have := mul_le_mul_of_nonneg_left h2 hb
    have := mul_le_mul_of_nonneg_left h3 hc
    have := mul_le_mul_of_nonneg_left h4 hd
    linarith
  have att : ∀ f : V3 → ℝ, (∃ v ∈ [v0, v1, v2, v3], min (min (min (f v0) (f v1)) (f v2)) (f v3) = f v) ∧
      (∃ v ∈ [v0, v1, v2, v3], max (max (max (f v0) (f v1)) (f v2)) (f v3) = f v) := by
    intro f
    constructor
    · rcases min_choice (min (min (f v0) (f v1)) (f v2)) (f v3) with h | h <;> rw [h]
      · rcases min_choice (min (f v0) (f v1)) (f v2) with h | h <;> rw [h]
        · rcases min_choice (f v0) (f v1) with h | h <;> rw [h]
          · exact ⟨v0, by simp, rfl⟩
          · exact ⟨v1, by simp, rfl⟩
        · exact ⟨v2, by simp, rfl⟩
      · exact ⟨v3, by simp, rfl⟩
    · rcases max_choice (max (max (f v0) (f v1)) (f v2)) (f v3) with h | h <;> rw [h]
      · rcases max_choice (max (f v0) (f v1)) (f v2) with h | h <;> rw [h]
        · rcases max_choice (f v0) (f v1) with h | h <;> rw [h]
          · exact ⟨v0, by simp, rfl⟩
          · exact ⟨v1, by simp, rfl⟩
        · exact ⟨v2, by simp, rfl⟩
      · exact ⟨v3, by simp, rfl⟩
  intro e
  refine ⟨?_, (att V3.x).1, (att V3.y).1, (att V3.z).1, (att V3.x).2, (att V3.y).2, (att V3.z).2⟩
  rintro q ⟨w0, w1, w2, w3, h0, h1, h2, h3, hs, hx, hy, hz⟩
  rw [hx, hy, hz]
  exact ⟨lo _ _ _ _ _ _ _ _ h0 h1 h2 h3 hs, lo _ _ _ _ _ _ _ _ h0 h1 h2 h3 hs, lo _ _ _ _ _ _ _ _ h0 h1 h2 h3 hs,
    hi _ _ _ _ _ _ _ _ h0 h1 h2 h3 hs, hi _ _ _ _ _ _ _ _ h0 h1 h2 h3 hs, hi _ _ _ _ _ _ _ _ h0 h1 h2 h3 hs⟩

/-- C64: the constructor from arrays does not compute the bounding box: whatever was there stays, and misses points. -/
theorem C64_bbox_counterexample :
    ∃ (old : V3 × V3) (q : V3), Hull ⟨0, 0, 0⟩ ⟨1, 0, 0⟩ ⟨0, 1, 0⟩ ⟨0, 0, 1⟩ q ∧ (bboxOf true old corner).2.x < q.x := by
  refine ⟨(⟨0, 0, 0⟩, ⟨0, 0, 0⟩), ⟨1, 0, 0⟩, ⟨0, 1, 0, 0, ?_⟩, ?_⟩
  · norm_num [IsMix]
  · norm_num [bboxOf]

/-- C64: for all outcomes of the random numbers the sampled point lies on one of the four triangles. -/
theorem C64_sample (v0 v1 v2 v3 : V3) {r u v : ℝ} (hu : 0 ≤ u ∧ u ≤ 1) (hv : 0 ≤ v ∧ v ≤ 1) :
    let q := samplePointOnSurface (create v0 v1 v2 v3) r u v
    Triangle v0 v1 v2 q ∨ Triangle v1 v2 v3 q ∨ Triangle v2 v3 v0 q ∨ Triangle v3 v0 v1 q := by
  classical
  intro q
  have hw : ∃ a b : ℝ, 0 ≤ a ∧ 0 ≤ b ∧ a + b ≤ 1 ∧ q = V3.smul (1 - a - b) (vertex (create v0 v1 v2 v3)
        (pickFace (create v0 v1 v2 v3) r + 0)) +
      V3.smul a (vertex (create v0 v1 v2 v3) (pickFace (create v0 v1 v2 v3) r + 1)) +
      V3.smul b (vertex (create v0 v1 v2 v3) (pickFace (create v0 v1 v2 v3) r + 2)) := by
    by_cases h : u + v > 1
    · exact ⟨1 - u, 1 - v, by linarith [hu.2], by linarith [hv.2], by linarith, by simp only [q, samplePointOnSurface, h, if_true]⟩
    · exact ⟨u, v, hu.1, hv.1, by linarith, by simp only [q, samplePointOnSurface, h, if_false]⟩
  obtain ⟨a, b, ha, hb, hab, e⟩ := hw
  have tri : ∀ x y z : V3, q = V3.smul (1 - a - b) x + V3.smul a y + V3.smul b z → Triangle x y z q := by
    intro x y z h
    refine ⟨1 - a - b, a, b, by linarith, ha, hb, by ring, ?_, ?_, ?_⟩ <;> rw [h] <;> simp [V3.smul]
  have hk : pickFace (create v0 v1 v2 v3) r = 0 ∨ pickFace (create v0 v1 v2 v3) r = 1 ∨
      pickFace (create v0 v1 v2 v3) r = 2 ∨ pickFace (create v0 v1 v2 v3) r = 3 := by
    unfold pickFace
    dsimp only
    split
    · exact Or.inl rfl
    · split
      · exact Or.inr (Or.inl rfl)
      · split
        · exact Or.inr (Or.inr (Or.inl rfl))
        · exact Or.inr (Or.inr (Or.inr rfl))
  rcases hk with h | h | h | h <;> rw [h] at e
  · exact Or.inl (tri _ _ _ e)
  · exact Or.inr (Or.inl (tri _ _ _ e))
  · exact Or.inr (Or.inr (Or.inl (tri _ _ _ e)))
  · exact Or.inr (Or.inr (Or.inr (tri _ _ _ e)))

/-- The directed edges of a polygon given by its corners. -/
def edges : List Nat → List (Nat × Nat)
  | [] => []
  | a :: l => (a :: l).zip (l ++ [a])

/-- C64: the mesh is closed and its faces are oriented outwards: every directed edge occurs once and so does its reverse, and
the corner not on a face is below it in the orientation of the face. -/
theorem C64_mesh {v0 v1 v2 v3 : V3} (h : volume6 v0 v1 v2 v3 ≠ 0) {T : Trans3} (hT : T.determinant ≠ 0) :
    let s := create v0 v1 v2 v3
    let es := (meshFaces s T).flatMap edges
    es.Nodup ∧ (∀ e ∈ es, (e.2, e.1) ∈ es) ∧ es.length = 12 ∧
    ∀ f ∈ meshFaces s T, ∃ i j k o, f = [i, j, k] ∧ [i, j, k, o].Perm [0, 1, 2, 3] ∧
      0 < volume6 (meshVertex s T i) (meshVertex s T j) (meshVertex s T k) (meshVertex s T o) := by
  classical
  intro s es
  set w := meshVertex s T with hw
  have hvol : volume6 (w 0) (w 1) (w 2) (w 3) = T.determinant * volume6 v0 v1 v2 v3 := by
    simp only [hw, meshVertex, s, vertex, create, volume6, Trans3.inverseTransform,
      Trans3.determinant]
    norm_num
    ring
  have hD : volume6 (w 0) (w 1) (w 2) (w 3) ≠ 0 := by rw [hvol]; exact mul_ne_zero hT h
  have o0 : (V3.cross (w 1 - w 0) (w 2 - w 0)).dot (w 3 - w 0) = -volume6 (w 0) (w 1) (w 2) (w 3) := orient_volume _ _ _ _
  have o1 : (V3.cross (w 2 - w 1) (w 3 - w 1)).dot (w 0 - w 1) = volume6 (w 0) (w 1) (w 2) (w 3) := by
    have := orient_rot (w 0) (w 1) (w 2) (w 3)
    rw [orient_volume (w 0), neg_neg] at this; exact this
  have o2 : (V3.cross (w 3 - w 2) (w 0 - w 2)).dot (w 1 - w 2) = -volume6 (w 0) (w 1) (w 2) (w 3) := by
    have := orient_rot (w 1) (w 2) (w 3) (w 0)
    unfold orient at this; rw [o1] at this; exact this
  have o3 : (V3.cross (w 0 - w 3) (w 1 - w 3)).dot (w 2 - w 3) = volume6 (w 0) (w 1) (w 2) (w 3) := by
    have := orient_rot (w 2) (w 3) (w 0) (w 1)
    unfold orient at this; rw [o2, neg_neg] at this; exact this
  have vols : volume6 (w 1) (w 0) (w 2) (w 3) = -volume6 (w 0) (w 1) (w 2) (w 3) ∧
      volume6 (w 1) (w 2) (w 3) (w 0) = -volume6 (w 0) (w 1) (w 2) (w 3) ∧
      volume6 (w 3) (w 2) (w 0) (w 1) = -volume6 (w 0) (w 1) (w 2) (w 3) ∧
      volume6 (w 3) (w 0) (w 1) (w 2) = -volume6 (w 0) (w 1) (w 2) (w 3) ∧
      volume6 (w 2) (w 1) (w 3) (w 0) = volume6 (w 0) (w 1) (w 2) (w 3) ∧
      volume6 (w 2) (w 3) (w 0) (w 1) = volume6 (w 0) (w 1) (w 2) (w 3) ∧
      volume6 (w 0) (w 3) (w 1) (w 2) = volume6 (w 0) (w 1) (w 2) (w 3) := by
    simp only [volume6]
    refine ⟨?_, ?_, ?_, ?_, ?_, ?_, ?_⟩ <;> ring
  rcases lt_or_gt_of_ne hD with hneg | hpos
  · have hf : meshFaces s T = [[1, 0, 2], [1, 2, 3], [3, 2, 0], [3, 0, 1]] := by
      simp only [meshFaces, ← hw, meshFace, o0, o1, o2, o3]
      rw [if_pos (show -volume6 (w 0) (w 1) (w 2) (w 3) > 0 by linarith),
        if_neg (show ¬ volume6 (w 0) (w 1) (w 2) (w 3) > 0 by linarith)]
      rw [if_pos (show -volume6 (w 0) (w 1) (w 2) (w 3) > 0 by linarith),
        if_neg (show ¬ volume6 (w 0) (w 1) (w 2) (w 3) > 0 by linarith)]
    have hes : es = ([[1, 0, 2], [1, 2, 3], [3, 2, 0], [3, 0, 1]] : List (List Nat)).flatMap edges := by
      simp only [es, hf]
    rw [hes, hf]
    refine ⟨by decide, by decide, by decide, ?_⟩
    · simp only [List.mem_cons, List.not_mem_nil, or_false, forall_eq_or_imp, forall_eq]
      refine ⟨⟨1, 0, 2, 3, rfl, by decide, ?_⟩, ⟨1, 2, 3, 0, rfl, by decide, ?_⟩, ⟨3, 2, 0, 1, rfl, by decide, ?_⟩,
        ⟨3, 0, 1, 2, rfl, by decide, ?_⟩⟩ <;> linarith [vols.1, vols.2.1, vols.2.2.1, vols.2.2.2.1]
  · have hf : meshFaces s T = [[0, 1, 2], [2, 1, 3], [2, 3, 0], [0, 3, 1]] := by
      simp only [meshFaces, ← hw, meshFace, o0, o1, o2, o3]
      rw [if_neg (show ¬ -volume6 (w 0) (w 1) (w 2) (w 3) > 0 by linarith),
        if_pos (show volume6 (w 0) (w 1) (w 2) (w 3) > 0 by linarith)]
      rw [if_neg (show ¬ -volume6 (w 0) (w 1) (w 2) (w 3) > 0 by linarith),
        if_pos (show volume6 (w 0) (w 1) (w 2) (w 3) > 0 by linarith)]
    have hes : es = ([[0, 1, 2], [2, 1, 3], [2, 3, 0], [0, 3, 1]] : List (List Nat)).flatMap edges := by
      simp only [es, hf]
    rw [hes, hf]
    refine ⟨by decide, by decide, by decide, ?_⟩
    · simp only [List.mem_cons, List.not_mem_nil, or_false, forall_eq_or_imp, forall_eq]
      refine ⟨⟨0, 1, 2, 3, rfl, by decide, ?_⟩, ⟨2, 1, 3, 0, rfl, by decide, ?_⟩, ⟨2, 3, 0, 1, rfl, by decide, ?_⟩,
        ⟨0, 3, 1, 2, rfl, by decide, ?_⟩⟩ <;> linarith [vols.2.2.2.2.1, vols.2.2.2.2.2.1, vols.2.2.2.2.2.2]

example : (meshFaces corner Trans3.identity).length = 4 ∧ Trans3.identity.determinant ≠ 0 := by
  simp [meshFaces, Trans3.identity, Trans3.determinant]

/-- Area of a triangle from the lengths and the product of two sides. -/
noncomputable def triangleArea (a b c : V3) : ℝ :=
  Real.sqrt (V3.dist2 a b * V3.dist2 a c - ((b.x - a.x) * (c.x - a.x) + (b.y - a.y) * (c.y - a.y) + (b.z - a.z) * (c.z - a.z)) ^ 2) / 2

/-- C64: the surface area is the sum of the areas of the four triangles. -/
theorem C64_area (v0 v1 v2 v3 : V3) :
    (create v0 v1 v2 v3).fSurfaceArea =
      triangleArea v0 v1 v2 + triangleArea v1 v2 v3 + triangleArea v2 v3 v0 + triangleArea v3 v0 v1 := by
  have key : ∀ a b c : V3, (V3.cross (b - a) (c - a)).mag = 2 * triangleArea a b c := by
    intro a b c
    unfold triangleArea V3.mag
    rw [mul_div_cancel₀ _ (by norm_num)]
    congr 1
    simp only [V3.mag2, V3.dot, V3.cross, V3.dist2, V3.sub_x, V3.sub_y, V3.sub_z]; ring
  simp only [create, calcSurfaceArea, key]
  ring

/-- C50: from a point above a plane by less than the tolerance the distance to leave can be negative and large: the point
counts as a surface point, and no test catches it. -/
theorem C50_exit_negative_counterexample :
    inside corner.planes ⟨1 / 4, 1 / 4, -(1 / 10 ^ 10)⟩ = .surface ∧
    distanceToOut corner.planes ⟨1 / 4, 1 / 4, -(1 / 10 ^ 10)⟩ ⟨0, 1, -(1 / 10 ^ 14)⟩ < -1000 := by
  have h1 := e1_bounds
  have h3 := e3_bounds
  have ht : kHalfTolerance = 1 / 2000000000 := by norm_num [kHalfTolerance, kTolerance]
  have hhe : ∀ pl ∈ corner.planes, pl.n.dot ⟨1 / 4, 1 / 4, -(1 / 10 ^ 10)⟩ + pl.d ≤ e1 * (1 / 10 ^ 10) := by
    rw [corner_planes]
    simp only [List.mem_cons, List.not_mem_nil, or_false, forall_eq_or_imp, forall_eq, V3.dot]
    refine ⟨?_, ?_, ?_, ?_⟩ <;> linarith
  constructor
  · have k := C50_inside (create_ne_nil _ _ _ _) (pls := corner.planes) ⟨1 / 4, 1 / 4, -(1 / 10 ^ 10)⟩
    cases h : inside corner.planes ⟨1 / 4, 1 / 4, -(1 / 10 ^ 10)⟩ with
    | surface => rfl
    | inside =>
      exfalso
      have := k.2.mp h ⟨⟨0, 0, -e1⟩, 0⟩ (by rw [corner_planes]; simp)
      simp only [V3.dot] at this
      rw [ht] at this
      linarith
    | outside =>
      exfalso
      obtain ⟨pl, hpl, hb⟩ := k.1.mp h
      have := hhe pl hpl
      rw [ht] at hb
      linarith
  · have hsafe : corner.planes.foldl (fun m pl => max m (evalPlane pl ⟨1 / 4, 1 / 4, -(1 / 10 ^ 10)⟩)) (-kInfLength)
        ≤ kHalfTolerance := by
      have := maxIf_le (fun _ : Plane => True) (fun q => q.height ⟨1 / 4, 1 / 4, -(1 / 10 ^ 10)⟩) (m := -kInfLength)
        (l := corner.planes) (b := kHalfTolerance)
      simp only [maxIf, if_true, true_implies] at this
      refine this.mpr ⟨by linarith [kInfLength_pos, kHalfTolerance_pos], fun pl hpl => le_trans (hhe pl hpl) ?_⟩
      rw [ht]; linarith
    have hmin := (le_minIf (fun pl : Plane => nonZero (pl.n.dot ⟨0, 1, -(1 / 10 ^ 14)⟩) > 0)
      (hit ⟨1 / 4, 1 / 4, -(1 / 10 ^ 10)⟩ ⟨0, 1, -(1 / 10 ^ 14)⟩) (m := kInfLength) (l := corner.planes)
      (b := distanceToOut corner.planes ⟨1 / 4, 1 / 4, -(1 / 10 ^ 10)⟩ ⟨0, 1, -(1 / 10 ^ 14)⟩)).mp (by
        unfold distanceToOut
        dsimp only
        rw [if_neg (not_lt.mpr hsafe)]
        exact le_refl _)
    have hd : (⟨0, 0, -e1⟩ : V3).dot ⟨0, 1, -(1 / 10 ^ 14)⟩ = e1 * (1 / 10 ^ 14) := by simp only [V3.dot]; ring
    have hpos : 0 ≤ e1 * (1 / 10 ^ 14) := by linarith
    have := hmin.2 ⟨⟨0, 0, -e1⟩, 0⟩ (by rw [corner_planes]; simp) (by rw [hd]; exact nonZero_pos hpos)
    refine lt_of_le_of_lt this ?_
    unfold hit
    rw [hd, div_lt_iff₀ (nonZero_pos hpos), nonZero_of_nonneg hpos]
    simp only [Plane.height, V3.dot, kTiny]
    linarith

/-- C50: the test with which `DistanceToIn` is meant to reject rays that leave from the surface never fires: it asks whether
a minimum of absolute values is negative. -/
theorem C50_surface_test_dead (pls : List Plane) (p d : V3) :
    0 ≤ (pls.foldl (inLoop p d) (-kInfLength, kInfLength, kInfLength)).2.2 := by
  classical
  rw [inLoop_eq]
  exact (le_minIf _ _).mpr ⟨kInfLength_pos.le, fun i _ _ => abs_nonneg _⟩

end Tet
end VecGeom

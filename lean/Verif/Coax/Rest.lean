import Verif.Coax.Props

/-!
# Capacity, area, extent and distances of coaxial cones
-/

namespace VecGeom
namespace Coax

open Real MeasureTheory Cone Tube

variable {a : Par}

/-- The points of a cone. -/
def pts (k : Cone.Par) : Set (Fin 3 → ℝ) := {q | k.fix.Closed ⟨q 0, q 1, q 2⟩}

theorem measurable_pts {k : Cone.Par} (hv : k.Valid) : MeasurableSet (pts k) := by
  have hset : pts k =
      {q | |q 2| ≤ k.z} ∩ ({q | (k.inner (q 2)) ^ 2 ≤ q 0 ^ 2 + q 1 ^ 2} ∩ ({q | q 0 ^ 2 + q 1 ^ 2 ≤ (k.fix.outer (q 2)) ^ 2} ∩ {q | Sector k.s k.d (q 0) (q 1)})) := by
    ext q
    simp only [pts, Set.mem_setOf_eq, Set.mem_inter_iff]
    constructor
    · rintro ⟨h1, h2, h3, h4⟩
      exact ⟨h1, (le_rad (inner_nonneg hv h1)).mp h2, (rad_le (outer_pos hv h1).le).mp h3, h4⟩
    · rintro ⟨h1, h2, h3, h4⟩
      exact ⟨h1, (le_rad (inner_nonneg hv h1)).mpr h2, (rad_le (outer_pos hv h1).le).mpr h3, h4⟩
  rw [hset]
  have m : Measurable fun q : Fin 3 → ℝ => q 0 ^ 2 + q 1 ^ 2 := by fun_prop
  have mz : Measurable fun q : Fin 3 → ℝ => |q 2| := by fun_prop
  have mi : Measurable fun q : Fin 3 → ℝ => (k.inner (q 2)) ^ 2 := by unfold Cone.Par.inner line; fun_prop
  have mo : Measurable fun q : Fin 3 → ℝ => (k.fix.outer (q 2)) ^ 2 := by unfold Cone.Par.outer line; fun_prop
  refine (measurableSet_le mz measurable_const).inter ((measurableSet_le mi m).inter ((measurableSet_le m mo).inter ?_))
  exact measurable_sector hv.d hv.dle (measurable_pi_apply 0) (measurable_pi_apply 1)

theorem capacity_nonneg {k : Cone.Par} (hv : k.Valid) : 0 ≤ Cone.capacity (Cone.of k) := by
  have h1 := fix_lt1 hv
  have h2 := fix_lt2 hv
  have h3 := hv.rmin1
  have h4 := hv.rmin2
  rw [Cone.capacity_eq hv]
  have := hv.z
  have := hv.d
  have h5 : 0 ≤ k.fix.rmax1 ^ 2 + k.fix.rmax2 ^ 2 + k.fix.rmax1 * k.fix.rmax2 - k.rmin1 ^ 2 - k.rmin2 ^ 2 - k.rmin1 * k.rmin2 := by
    nlinarith [mul_nonneg h3 h4]
  positivity

theorem volume_list (l : List Cone.Par) (hv : ∀ k ∈ l, k.Valid) (hd : l.Pairwise fun j k => volume (pts j ∩ pts k) = 0) :
    volume {q : Fin 3 → ℝ | ∃ k ∈ l, k.fix.Closed ⟨q 0, q 1, q 2⟩} = ENNReal.ofReal (l.map fun k => Cone.capacity (Cone.of k)).sum := by
  induction l with
  | nil => simp
  | cons k l ih =>
    rw [List.pairwise_cons] at hd
    have hk := hv k (by simp)
    have hl : ∀ j ∈ l, j.Valid := fun j hj => hv j (by simp [hj])
    have e : {q : Fin 3 → ℝ | ∃ j ∈ k :: l, j.fix.Closed ⟨q 0, q 1, q 2⟩} =
        pts k ∪ {q : Fin 3 → ℝ | ∃ j ∈ l, j.fix.Closed ⟨q 0, q 1, q 2⟩} := by
      ext q; simp [pts]
    have hz : volume (pts k ∩ {q : Fin 3 → ℝ | ∃ j ∈ l, j.fix.Closed ⟨q 0, q 1, q 2⟩}) = 0 := by
      have hsub : pts k ∩ {q : Fin 3 → ℝ | ∃ j ∈ l, j.fix.Closed ⟨q 0, q 1, q 2⟩} ⊆ ⋃ j ∈ {j | j ∈ l}, pts k ∩ pts j := by
        rintro q ⟨h1, j, hj, h2⟩
        simp only [Set.mem_iUnion]
        exact ⟨j, hj, h1, h2⟩
      refine measure_mono_null hsub ?_
      rw [measure_biUnion_null_iff (List.finite_toSet l).countable]
      exact hd.1
    rw [e]
    have := measure_union_add_inter' (μ := volume) (measurable_pts hk) {q : Fin 3 → ℝ | ∃ j ∈ l, j.fix.Closed ⟨q 0, q 1, q 2⟩}
    rw [hz, add_zero] at this
    rw [this, ih hl hd.2, List.map_cons, List.sum_cons, ENNReal.ofReal_add (capacity_nonneg hk)]
    · congr 1
      exact C144_capacity hk
    · refine List.sum_nonneg ?_
      intro x hx
      obtain ⟨j, hj, rfl⟩ := List.mem_map.mp hx
      exact capacity_nonneg (hl j hj)

/-- C188: the sum that the class computes is the volume of the solid if the cones do not overlap. -/
theorem C188_capacity_partial (hv : a.Valid) (hd : a.cones.Pairwise fun j k => volume (pts j ∩ pts k) = 0) :
    volume {q : Fin 3 → ℝ | a.Closed ⟨q 0, q 1, q 2⟩} = ENNReal.ofReal (structCapacity (of a)) := by
  unfold structCapacity
  rw [foldl_add, of_cones, List.map_map, zero_add]
  exact volume_list a.cones hv hd

theorem rodInPipe_volume : volume {q : Fin 3 → ℝ | rodInPipe.Closed ⟨q 0, q 1, q 2⟩} = ENNReal.ofReal (8 * π) := by
  let k : Cone.Par := ⟨0, 2, 0, 2, 1, 0, 2 * π⟩
  have hv : k.Valid := by
    have := pi_pos
    constructor <;> norm_num [k]
    exact this
  have hx : k.fix = k := fix_of_ne (by norm_num [k]) (by norm_num [k])
  have h := C144_capacity hv
  rw [Cone.capacity_eq hv, hx] at h
  rw [show 8 * π = k.z * k.d / 3 * (k.rmax1 ^ 2 + k.rmax2 ^ 2 + k.rmax1 * k.rmax2 - k.rmin1 ^ 2 - k.rmin2 ^ 2 - k.rmin1 * k.rmin2) by
    simp only [k]; ring, ← h]
  congr 1
  ext q
  simp only [Set.mem_setOf_eq]
  rw [rodInPipe_closed]
  have ho : k.outer (q 2) = 2 := by simp only [Cone.Par.outer, line, k]; ring
  have hi : k.inner (q 2) = 0 := by simp only [Cone.Par.inner, line, k]; ring
  constructor
  · rintro ⟨h1, h2⟩
    exact ⟨h1, by rw [hi]; exact rad_nonneg _, by rw [ho]; exact h2, sector_full _ _ _⟩
  · rintro ⟨h1, h2, h3, h4⟩
    rw [ho] at h3
    exact ⟨h1, h3⟩

theorem rod_capacity : Cone.capacity (Cone.of rod) = 2 * π := by
  rw [Cone.capacity_eq rod_valid, rod_fix]; simp only [rod]; ring
theorem pipe_capacity : Cone.capacity (Cone.of pipe) = 6 * π := by
  rw [Cone.capacity_eq pipe_valid, pipe_fix]; simp only [pipe]; ring

/-- The rod and the pipe only touch. -/
theorem rodInPipe_touch : rodInPipe.cones.Pairwise fun j k => volume (pts j ∩ pts k) = 0 := by
  have hpi := pi_pos
  rw [rodInPipe_cones]
  have h := measure_union_add_inter' (μ := volume) (measurable_pts rod_valid) (pts pipe)
  have e : pts rod ∪ pts pipe = {q : Fin 3 → ℝ | rodInPipe.Closed ⟨q 0, q 1, q 2⟩} := by
    ext q; simp [pts, Par.Closed, rodInPipe_cones]
  have h1 : volume (pts rod) = ENNReal.ofReal (2 * π) := by rw [← rod_capacity]; exact C144_capacity rod_valid
  have h2 : volume (pts pipe) = ENNReal.ofReal (6 * π) := by rw [← pipe_capacity]; exact C144_capacity pipe_valid
  rw [e, rodInPipe_volume, h1, h2, ← ENNReal.ofReal_add (by positivity) (by positivity), show 2 * π + 6 * π = 8 * π by ring] at h
  have hz : volume (pts rod ∩ pts pipe) = 0 := by
    have : ENNReal.ofReal (8 * π) + volume (pts rod ∩ pts pipe) = ENNReal.ofReal (8 * π) + 0 := by rw [h, add_zero]
    exact (ENNReal.add_right_inj ENNReal.ofReal_ne_top).mp this
  simpa using hz

example : structCapacity (of rodInPipe) = 8 * π := by
  unfold structCapacity
  rw [foldl_add, of_cones, List.map_map, rodInPipe_cones]
  simp only [List.map_cons, List.map_nil, Function.comp, List.sum_cons, List.sum_nil, rod_capacity, pipe_capacity]
  ring

/-- C188, a deviation: `Capacity` and `SurfaceArea` of the unplaced volume return members that no constructor sets, for all cones; and
`Extent` leaves what it is given as it is. -/
theorem C188_unset_counterexample (a : Par) (lo hi : V3) :
    capacity (of a) = none ∧ surfaceArea (of a) = none ∧ extent (of a) lo hi = (lo, hi) := ⟨rfl, rfl, rfl⟩

/-- C188: the area of one cone is that of `UnplacedCone`. -/
theorem C188_area_one_partial (k : Cone.Par) (z s d : ℝ) :
    let c : Par := ⟨[⟨k.rmin1, k.rmax1, k.rmin2, k.rmax2⟩], z, s, d⟩
    structArea (of c) = Cone.surfaceArea (Cone.of ⟨k.rmin1, k.rmax1, k.rmin2, k.rmax2, z, s, d⟩) := by
  intro c
  have e : (of c).cones = [Cone.of ⟨k.rmin1, k.rmax1, k.rmin2, k.rmax2, z, s, d⟩] := rfl
  unfold structArea conicalArea planesArea lowerArea upperArea Cone.surfaceArea
  rw [e]
  simp only [List.foldl_cons, List.foldl_nil, zero_add]
  ring_nf

/-- Only the last cone counts for the area of the lids. -/
theorem planes_last (k : Cone.Struct) (l : List Cone.Struct) (hne : l ≠ []) (c : Struct) (hc : c.cones = k :: l) :
    planesArea c = planesArea { c with cones := l } := by
  unfold planesArea
  rw [hc]
  obtain ⟨j, m, rfl⟩ := List.exists_cons_of_ne_nil hne
  simp only [List.foldl_cons]

/-- C188, a deviation: the area leaves out the lids of all cones but the last.  Of a rod in a pipe, the lids of the rod are missing: the
two discs of radius two have the area `8 pi`, and `6 pi` is counted. -/
theorem C188_area_counterexample :
    structArea (of rodInPipe) = conicalArea (of rodInPipe) + 6 * π ∧
    2 * volume {w : Fin 2 → ℝ | rodInPipe.Closed ⟨w 0, w 1, 1⟩} = ENNReal.ofReal (8 * π) := by
  constructor
  · have e : (of rodInPipe).cones = [Cone.of rod, Cone.of pipe] := by rw [of_cones, rodInPipe_cones]; rfl
    unfold structArea
    rw [planes_last _ _ (by simp) _ e]
    unfold planesArea lowerArea upperArea
    simp only [List.foldl_cons, List.foldl_nil, of_dphi pipe_valid, of_rmax1 pipe_valid, of_rmax2 pipe_valid, of_rmin1 pipe_valid,
      of_rmin2 pipe_valid, pipe_fix]
    simp only [pipe]
    ring
  · have h := area_ring (r1 := 0) (r2 := 2) (s := 0) (d := 2 * π) le_rfl (by norm_num) (by have := pi_pos; linarith) le_rfl
    rw [show {w : Fin 2 → ℝ | rodInPipe.Closed ⟨w 0, w 1, 1⟩} =
      {w : Fin 2 → ℝ | (0 : ℝ) ^ 2 ≤ w 0 ^ 2 + w 1 ^ 2 ∧ w 0 ^ 2 + w 1 ^ 2 ≤ 2 ^ 2 ∧ Sector 0 (2 * π) (w 0) (w 1)} from ?_, h,
      show (2 : ENNReal) = ENNReal.ofReal 2 by simp, ← ENNReal.ofReal_mul (by norm_num)]
    · congr 1; ring
    · ext w
      simp only [Set.mem_setOf_eq, rodInPipe_closed]
      rw [rad_le (by norm_num)]
      have hs : Sector 0 (2 * π) (w 0) (w 1) := sector_full _ _ _
      have : (0 : ℝ) ^ 2 ≤ w 0 ^ 2 + w 1 ^ 2 := by rw [zero_pow (by norm_num)]; positivity
      simp only [hs, this, true_and, and_true, and_iff_right_iff_imp, abs_one, le_refl]

/-! ## Distances -/

/-- C188: `DistanceToIn` is the least of the distances to the cones, and no hit if no cone is hit. -/
theorem C188_distance_in_partial (p d : V3) :
    (∀ k ∈ a.cones, distanceToIn (of a) p d ≤ Cone.distanceToIn Cone.universal (Cone.of k) p d) ∧
    (distanceToIn (of a) p d = kInfLength ∨ ∃ k ∈ a.cones, distanceToIn (of a) p d = Cone.distanceToIn Cone.universal (Cone.of k) p d) ∧
    distanceToIn (of a) p d ≤ kInfLength := by
  obtain ⟨h1, h2, h3⟩ := foldl_min_le (fun k => Cone.distanceToIn Cone.universal k p d) (of a).cones kInfLength
  refine ⟨fun k hk => h2 _ (by rw [of_cones]; exact List.mem_map_of_mem hk), h3.imp id ?_, h1⟩
  rintro ⟨c, hc, h⟩
  rw [of_cones, List.mem_map] at hc
  obtain ⟨k, hk, rfl⟩ := hc
  exact ⟨k, hk, h⟩

/-- A point on a way that starts in the cone: the hypotheses under which the distance of the cone is known to be right. -/
structure Starts (k : Cone.Par) (p d : V3) : Prop where
  ordered : k.Ordered
  z : |p.z| ≤ k.z
  phi : Sector k.s k.d p.x p.y
  out : rad p < k.eff.outer p.z ∨ (rad p = k.eff.outer p.z ∧ drift k false p d < 0)
  inn : k.Hollow → k.eff.inner p.z < rad p ∨ (k.eff.inner p.z = rad p ∧ 0 < drift k true p d)
  lid : d.z ≠ 0 ∨ |p.z| < k.z
  tan : ∀ inner : Bool, (inner = true → k.Hollow) → OnCone (Cone.of k) inner p → dirNormal (Cone.of k) inner p d ≠ 0

/-- C188: up to `DistanceToOut` the way does not leave the solid: its points are in the cone with the largest distance.  Every cone
is to contain the start or to answer with a negative distance, as it does for a point beyond its walls or lids. -/
theorem C188_distance_out_partial (hv : a.Valid) {p d : V3}
    (hs : ∀ k ∈ a.cones, Starts k p d ∨ Cone.distanceToOut Cone.universal (Cone.of k) p d < 0)
    {t : ℝ} (ht0 : 0 ≤ t) (htD : t ≤ distanceToOut (of a) p d) (hti : t < kInfLength)
    (hcl : a.d = 2 * π ∨ ∀ u, 0 ≤ u → u ≤ t → kTiny * u < rad (V3.at' p d u)) :
    ∃ k ∈ a.cones, |(V3.at' p d t).z| ≤ k.z ∧ rad (V3.at' p d t) ≤ k.fix.outer (V3.at' p d t).z ∧
      (k.Hollow → k.inner (V3.at' p d t).z - kTiny ≤ rad (V3.at' p d t)) ∧ Sector k.s k.d (V3.at' p d t).x (V3.at' p d t).y := by
  rcases (foldl_max_ge (fun k => Cone.distanceToOut Cone.universal k p d) (of a).cones (-1)).2.2 with h | ⟨c, hc, h⟩
  · unfold distanceToOut at htD
    rw [h] at htD
    linarith
  · unfold distanceToOut at htD
    rw [h] at htD
    rw [of_cones, List.mem_map] at hc
    obtain ⟨k, hk, rfl⟩ := hc
    refine ⟨k, hk, ?_⟩
    rcases hs k hk with hh | hh
    · have hkd : k.d = a.d := by
        unfold Par.cones at hk
        obtain ⟨r, -, rfl⟩ := List.mem_map.mp hk
        rfl
      exact C146_distance_out_partial (hv k hk) hh.ordered (fits_universal k) hh.z hh.phi hh.out hh.inn hh.lid hh.tan ht0 htD hti
        (by rw [hkd]; exact hcl)
    · linarith

theorem rod_starts : Starts rod ⟨0, 0, 0⟩ ⟨1, 0, 0⟩ where
  ordered := .inl rfl
  z := by norm_num [rod]
  phi := sector_full _ _ _
  out := by
    left
    rw [rad_x le_rfl]
    have h := effTop_bounds (r1 := rod.fix.rmax1) (r2 := rod.fix.rmax2) (by rw [rod_fix]; norm_num [rod]) (by rw [rod_fix]; norm_num [rod])
    have e : rod.eff.outer 0 = line rod.fix.rmax1 (effTop rod.fix.rmax1 rod.fix.rmax2) rod.z 0 := rfl
    rw [e]
    have h1 : rod.fix.rmax1 = 1 := by rw [rod_fix]; rfl
    have h2 : rod.z = 1 := rfl
    unfold line
    rw [h1, h2]
    rw [h1] at h
    linarith [h.1]
  inn := fun h => by simp [Cone.Par.Hollow, rod] at h
  lid := .inr (by norm_num [rod])
  tan := by
    intro inner hi h
    exfalso
    cases inner
    · have h1 := h.1
      have hro : outerRad (Cone.of rod) 0 = 1 := by rw [outerRad_of rod_valid, rod_fix, rod_outer]
      have hsl : (Cone.of rod).outerTol ≤ 1 / 10 ^ 6 := by
        rw [outerTol_eq rod_valid, rod_fix]
        have : √(1 + ((rod.rmax2 - rod.rmax1) / (2 * rod.z)) ^ 2) = 1 := by
          rw [show (1 + ((rod.rmax2 - rod.rmax1) / (2 * rod.z)) ^ 2 : ℝ) = 1 by simp only [rod]; ring, sqrt_one]
        rw [this]; norm_num [kConeTolerance]
      simp only [Bool.false_eq_true, if_false, hro, perp2] at h1
      linarith
    · simp [Cone.Par.Hollow, rod] at hi

/-- The pipe does not count for a point on its axis. -/
theorem pipe_out (d : V3) : Cone.distanceToOut Cone.universal (Cone.of pipe) ⟨0, 0, 0⟩ d = -1 := by
  unfold Cone.distanceToOut
  rw [if_pos]
  refine .inr (.inr ⟨(rminT_iff pipe_valid (fits_universal _)).mpr (.inl (by norm_num [pipe])), ?_⟩)
  have h1 : innerRad (Cone.of pipe) 0 = 1 := by rw [innerRad_of pipe_valid, pipe_inner]
  have hk := kConeTolerance_pos
  have hsl : (Cone.of pipe).innerTol = kConeTolerance := by
    rw [of_innerTol pipe_valid, of_secRMin pipe_valid]
    rw [show (1 + ((pipe.rmin2 - pipe.rmin1) / (2 * pipe.z)) ^ 2 : ℝ) = 1 by simp only [pipe]; ring, sqrt_one, mul_one]
  show perp2 ⟨0, 0, 0⟩ < minusSq (innerRad (Cone.of pipe) 0) (Cone.of pipe).innerTol
  rw [h1, hsl]
  unfold minusSq perp2
  norm_num [kConeTolerance]

example : ∀ k ∈ rodInPipe.cones, Starts k ⟨0, 0, 0⟩ ⟨1, 0, 0⟩ ∨ Cone.distanceToOut Cone.universal (Cone.of k) ⟨0, 0, 0⟩ ⟨1, 0, 0⟩ < 0 := by
  intro k hk
  rw [rodInPipe_cones] at hk
  simp only [List.mem_cons, List.not_mem_nil, or_false] at hk
  rcases hk with rfl | rfl
  · exact .inl rod_starts
  · right; rw [pipe_out]; norm_num

/-- C188, a deviation: where cones touch, `DistanceToOut` ends at the wall between them.  From the middle of the rod along the x axis,
the way stays in the solid for two units, but the answer is not more than one. -/
theorem C188_touching_counterexample :
    distanceToOut (of rodInPipe) ⟨0, 0, 0⟩ ⟨1, 0, 0⟩ ≤ 1 ∧
    ∀ t, 0 ≤ t → t ≤ 2 → rodInPipe.Closed (V3.at' ⟨0, 0, 0⟩ ⟨1, 0, 0⟩ t) := by
  have hat : ∀ t : ℝ, V3.at' ⟨0, 0, 0⟩ ⟨1, 0, 0⟩ t = ⟨t, 0, 0⟩ := by
    intro t; ext <;> simp
  constructor
  · by_contra hc
    push Not at hc
    rcases (foldl_max_ge (fun k => Cone.distanceToOut Cone.universal k ⟨0, 0, 0⟩ ⟨1, 0, 0⟩) (of rodInPipe).cones (-1)).2.2 with h | ⟨c, hcm, h⟩
    · unfold distanceToOut at hc
      rw [h] at hc; linarith
    · unfold distanceToOut at hc
      rw [h] at hc
      rw [of_cones, rodInPipe_cones] at hcm
      simp only [List.map_cons, List.map_nil, List.mem_cons, List.not_mem_nil, or_false] at hcm
      rcases hcm with rfl | rfl
      · have hk := kInfLength_large
        have hs := rod_starts
        set D := Cone.distanceToOut Cone.universal (Cone.of rod) ⟨0, 0, 0⟩ ⟨1, 0, 0⟩ with hD
        have h1 : (1 : ℝ) < min D 2 := lt_min hc (by norm_num)
        have := (C146_distance_out_partial rod_valid hs.ordered (fits_universal rod) hs.z hs.phi hs.out hs.inn hs.lid hs.tan
          (t := min D 2) (by linarith) (min_le_left _ _) (by linarith [min_le_right D 2]) (.inl rfl)).2.1
        rw [hat, rad_x (by linarith), rod_fix, rod_outer] at this
        linarith
      · rw [pipe_out] at hc; linarith
  · intro t h0 h1
    rw [hat, rodInPipe_closed, rad_x h0]
    exact ⟨by norm_num, h1⟩

end Coax
end VecGeom

import Verif.Scaled.Spec
import Verif.Boolean.DistProps
import Verif.Capacity.Props
import Mathlib.MeasureTheory.Measure.Lebesgue.EqHaar
import Mathlib.LinearAlgebra.Matrix.ToLin

/-!
# Scaled shapes (C49)
-/

namespace VecGeom
namespace Scaled

open Boolean

theorem update_spec {k : V3} {s : Scale3D} (h : Scale3D.update k = some s) :
    (k.x ≠ 0 ∧ k.y ≠ 0 ∧ k.z ≠ 0) ∧ s.fScale = k ∧ s.fInvScale = ⟨1 / k.x, 1 / k.y, 1 / k.z⟩ ∧
      s.fSclLocal = min (min |1 / k.x| |1 / k.y|) |1 / k.z| ∧ s.fSclMaster = min (min |k.x| |k.y|) |k.z| := by
  unfold Scale3D.update at h
  split at h
  · rename_i hk
    cases h
    exact ⟨hk, rfl, rfl, rfl, rfl⟩
  · cases h

theorem transform_eq {k : V3} {s : Scale3D} (h : Scale3D.update k = some s) (p : V3) :
    s.transform p = ⟨p.x / k.x, p.y / k.y, p.z / k.z⟩ := by
  obtain ⟨-, -, h2, -⟩ := update_spec h
  simp only [Scale3D.transform, h2]
  ext <;> simp [div_eq_mul_inv]

theorem inverseTransform_eq {k : V3} {s : Scale3D} (h : Scale3D.update k = some s) (p : V3) :
    s.inverseTransform p = ⟨k.x * p.x, k.y * p.y, k.z * p.z⟩ := by
  obtain ⟨-, h1, -⟩ := update_spec h
  simp only [Scale3D.inverseTransform, h1]
  ext <;> simp [mul_comm]

/-- C49: the two transformations of a scale are inverse to each other. -/
theorem C49_roundtrip {k : V3} {s : Scale3D} (h : Scale3D.update k = some s) (p : V3) :
    s.inverseTransform (s.transform p) = p ∧ s.transform (s.inverseTransform p) = p := by
  obtain ⟨⟨hx, hy, hz⟩, -⟩ := update_spec h
  rw [inverseTransform_eq h, transform_eq h, transform_eq h, inverseTransform_eq h]
  constructor <;> ext <;> dsimp only <;> field_simp

theorem stretched_iff {k : V3} {s : Scale3D} (h : Scale3D.update k = some s) (X : Region) (p : V3) :
    Stretched k X p ↔ X (s.transform p) := by
  constructor
  · rintro ⟨q, hq, rfl⟩
    have := (C49_roundtrip h q).2
    rw [inverseTransform_eq h] at this
    rwa [this]
  · intro hp
    refine ⟨_, hp, ?_⟩
    rw [← inverseTransform_eq h, (C49_roundtrip h p).1]

/-- Distances in the scaled frame are at least those in the frame of the shape times the smallest factor. -/
theorem dist_scale {k : V3} {s : Scale3D} (h : Scale3D.update k = some s) (p q : V3) :
    V3.dist (s.transform p) (s.transform q) * s.fSclMaster ≤ V3.dist p q := by
  obtain ⟨⟨hx, hy, hz⟩, -, -, -, hm⟩ := update_spec h
  have h0 : 0 ≤ s.fSclMaster := by rw [hm]; positivity
  have h1 : s.fSclMaster ≤ |k.x| := by rw [hm]; exact (min_le_left _ _).trans (min_le_left _ _)
  have h2 : s.fSclMaster ≤ |k.y| := by rw [hm]; exact (min_le_left _ _).trans (min_le_right _ _)
  have h3 : s.fSclMaster ≤ |k.z| := by rw [hm]; exact min_le_right _ _
  have comp : ∀ a b c : ℝ, c ≠ 0 → s.fSclMaster ≤ |c| → (a / c - b / c) ^ 2 * s.fSclMaster ^ 2 ≤ (a - b) ^ 2 := by
    intro a b c hc hle
    have : s.fSclMaster ^ 2 ≤ c ^ 2 := by rw [← sq_abs c]; exact pow_le_pow_left₀ h0 hle 2
    calc (a / c - b / c) ^ 2 * s.fSclMaster ^ 2 ≤ (a / c - b / c) ^ 2 * c ^ 2 :=
          mul_le_mul_of_nonneg_left this (sq_nonneg _)
      _ = (a - b) ^ 2 := by field_simp
  unfold V3.dist
  rw [← Real.sqrt_sq h0, ← Real.sqrt_mul (V3.dist2_nonneg _ _)]
  apply Real.sqrt_le_sqrt
  rw [transform_eq h, transform_eq h]
  simp only [V3.dist2]
  have := comp p.x q.x k.x hx h1
  have := comp p.y q.y k.y hy h2
  have := comp p.z q.z k.z hz h3
  linarith

theorem sclMaster_pos {k : V3} {s : Scale3D} (h : Scale3D.update k = some s) : 0 < s.fSclMaster := by
  obtain ⟨⟨hx, hy, hz⟩, -, -, -, hm⟩ := update_spec h
  rw [hm]
  exact lt_min (lt_min (abs_pos.mpr hx) (abs_pos.mpr hy)) (abs_pos.mpr hz)

/-- C49: scaling maps the set of contained points by the scale, also for reflections. -/
theorem C49_contains {k : V3} {s : Scale3D} (h : Scale3D.update k = some s) {v : Placed} {X : Region}
    (hv : v.trans.Orthonormal) (hX : ContainsOK v.solid X) :
    ContainsOK (scaledSolid s v) (Stretched k (Moved v.trans X)) := by
  intro p
  rw [stretched_iff h, moved_iff hv]
  exact hX _

/-- C49: the classification of points stays correct, also for reflections. -/
theorem C49_classification {k : V3} {s : Scale3D} (h : Scale3D.update k = some s) {v : Placed} {X : Region}
    (hv : v.trans.Orthonormal) {p : V3} (hX : ClassOK (v.inside (s.transform p)) X (v.trans.transform (s.transform p))) :
    ClassOK ((scaledSolid s v).inside p) (Stretched k (Moved v.trans X)) p := by
  have hm := sclMaster_pos h
  have key : ∀ Z : Region, Interior Z (s.transform p) → Interior (fun q => Z (s.transform q)) p := by
    rintro Z ⟨e, he, hZ⟩
    refine ⟨e * s.fSclMaster, mul_pos he hm, fun q hq => hZ _ ?_⟩
    have := dist_scale h p q
    by_contra hc
    push Not at hc
    have := mul_le_mul_of_nonneg_right hc hm.le
    linarith
  constructor
  · intro hi
    have := key _ ((interior_moved hv X _).mpr (hX.1 hi))
    exact this.mono fun q hq => (stretched_iff h _ _).mpr hq
  · intro ho
    have := key (fun q => ¬ Moved v.trans X q) ((exterior_moved hv X _).mpr (hX.2 ho))
    exact Interior.mono this fun q hq hs => hq ((stretched_iff h _ _).mp hs)

/-- C49: the safety to enter stays a lower bound. -/
theorem C49_safety_in {k : V3} {s : Scale3D} (h : Scale3D.update k = some s) {v : Placed} {X : Region}
    (hv : v.trans.Orthonormal) (hX : SafetyInOK v.solid X) : SafetyInOK (scaledSolid s v) (Stretched k (Moved v.trans X)) := by
  intro p q hq
  rw [stretched_iff h, moved_iff hv] at hq
  have h1 := hX (v.trans.transform (s.transform p)) _ hq
  rw [dist_transform hv] at h1
  have h2 := mul_le_mul_of_nonneg_right h1 (sclMaster_pos h).le
  exact h2.trans (dist_scale h p q)

/-- C49, for a placed volume that is not moved: the safety to leave stays a lower bound.  Missing: a moved placed volume,
see the counterexample. -/
theorem C49_safety_out_partial {k : V3} {s : Scale3D} (h : Scale3D.update k = some s) {v : Placed} {X : Region}
    (hv : v.trans.Orthonormal) (hu : Unmoved v.trans) (hX : SafetyOutOK v.solid X) :
    SafetyOutOK (scaledSolid s v) (Stretched k (Moved v.trans X)) := by
  intro p q hq
  rw [stretched_iff h, moved_iff hv, hu] at hq
  have h1 := hX (s.transform p) _ hq
  have h2 := mul_le_mul_of_nonneg_right h1 (sclMaster_pos h).le
  exact h2.trans (dist_scale h p q)

/-- C49: safe distances convert conservatively into the frame of the shape as well. -/
theorem C49_transform_safety {k : V3} {s : Scale3D} (h : Scale3D.update k = some s) (p q : V3) :
    s.transformSafety (V3.dist p q) ≤ V3.dist (s.transform p) (s.transform q) := by
  obtain ⟨⟨hx, hy, hz⟩, -, -, hm, -⟩ := update_spec h
  have h0 : 0 ≤ s.fSclLocal := by rw [hm]; positivity
  have h1 : s.fSclLocal ≤ |1 / k.x| := by rw [hm]; exact (min_le_left _ _).trans (min_le_left _ _)
  have h2 : s.fSclLocal ≤ |1 / k.y| := by rw [hm]; exact (min_le_left _ _).trans (min_le_right _ _)
  have h3 : s.fSclLocal ≤ |1 / k.z| := by rw [hm]; exact min_le_right _ _
  have comp : ∀ a b c : ℝ, s.fSclLocal ≤ |1 / c| → (a - b) ^ 2 * s.fSclLocal ^ 2 ≤ (a / c - b / c) ^ 2 := by
    intro a b c hle
    have : s.fSclLocal ^ 2 ≤ (1 / c) ^ 2 := by rw [← sq_abs (1 / c)]; exact pow_le_pow_left₀ h0 hle 2
    calc (a - b) ^ 2 * s.fSclLocal ^ 2 ≤ (a - b) ^ 2 * (1 / c) ^ 2 :=
          mul_le_mul_of_nonneg_left this (sq_nonneg _)
      _ = (a / c - b / c) ^ 2 := by ring
  unfold Scale3D.transformSafety V3.dist
  rw [← Real.sqrt_sq h0, ← Real.sqrt_mul (V3.dist2_nonneg _ _)]
  apply Real.sqrt_le_sqrt
  rw [transform_eq h, transform_eq h]
  simp only [V3.dist2]
  have := comp p.x q.x k.x h1
  have := comp p.y q.y k.y h2
  have := comp p.z q.z k.z h3
  linarith

/-! ## Distances -/

theorem mag_eq {k : V3} {s : Scale3D} (h : Scale3D.update k = some s) (d : V3) : (s.transform d).mag = factor k d := by
  rw [transform_eq h, V3.mag, factor]
  congr 1
  simp only [V3.mag2, V3.dot]
  ring

/-- The factor between lengths along a ray. -/
theorem ray {k : V3} {s : Scale3D} (h : Scale3D.update k = some s) {d : V3} (hd : Unit d) :
    0 < (s.transform d).mag ∧
    ∃ ud, normalize (s.transform d) = some ud ∧ Unit ud ∧
      (∀ sm, s.transformDistance sm d = (s.transform d).mag * sm) ∧
      (∀ t, (s.transform d).mag * s.inverseTransformDistance t ud = t) ∧
      ∀ p u, s.transform (V3.at' p d u) = V3.at' (s.transform p) ud ((s.transform d).mag * u) := by
  obtain ⟨⟨hx, hy, hz⟩, hs, hi, -⟩ := update_spec h
  set m := (s.transform d).mag with hm
  have hm2 : m ^ 2 = (d.x / k.x) ^ 2 + (d.y / k.y) ^ 2 + (d.z / k.z) ^ 2 := by
    rw [hm, V3.mag, Real.sq_sqrt (by unfold V3.mag2 V3.dot; nlinarith [mul_self_nonneg (s.transform d).x, mul_self_nonneg (s.transform d).y, mul_self_nonneg (s.transform d).z])]
    rw [transform_eq h]; simp only [V3.mag2, V3.dot]; ring
  have hpos : 0 < m := by
    have h0 : 0 ≤ m := Real.sqrt_nonneg _
    rcases lt_or_eq_of_le h0 with h1 | h1
    · exact h1
    · exfalso
      rw [← h1] at hm2
      have a1 : (d.x / k.x) ^ 2 = 0 := by nlinarith [sq_nonneg (d.x / k.x), sq_nonneg (d.y / k.y), sq_nonneg (d.z / k.z)]
      have a2 : (d.y / k.y) ^ 2 = 0 := by nlinarith [sq_nonneg (d.x / k.x), sq_nonneg (d.y / k.y), sq_nonneg (d.z / k.z)]
      have a3 : (d.z / k.z) ^ 2 = 0 := by nlinarith [sq_nonneg (d.x / k.x), sq_nonneg (d.y / k.y), sq_nonneg (d.z / k.z)]
      simp only [sq_eq_zero_iff, div_eq_zero_iff, hx, hy, hz, or_false] at a1 a2 a3
      unfold Unit at hd
      rw [a1, a2, a3] at hd
      norm_num at hd
  refine ⟨hpos, V3.smul (1 / m) (s.transform d), ?_, ?_, ?_, ?_, ?_⟩
  · unfold normalize; rw [← hm, if_neg hpos.ne']
  · unfold Unit
    rw [transform_eq h]
    simp only [V3.smul]
    field_simp
    have := hm2
    field_simp at this
    linarith
  · intro sm
    simp only [Scale3D.transformDistance]
    congr 1
  · intro t
    have : V3.mul (V3.smul (1 / m) (s.transform d)) s.fScale = V3.smul (1 / m) d := by
      rw [transform_eq h, hs]
      ext <;> simp only [V3.mul, V3.smul] <;> field_simp
    simp only [Scale3D.inverseTransformDistance, this]
    have e : (V3.smul (1 / m) d).dot (V3.smul (1 / m) d) = (1 / m) ^ 2 := by
      simp only [V3.smul, V3.dot]
      unfold Unit at hd
      linear_combination (1 / m) ^ 2 * hd
    rw [e, Real.sqrt_sq (by positivity)]
    field_simp
  · intro p u
    rw [transform_eq h, transform_eq h, transform_eq h]
    ext <;> simp [V3.smul] <;> field_simp

/-- C49: the distance to enter is the distance of the unscaled shape converted along the ray: both end at the same
point. -/
theorem C49_distance_in {k : V3} {s : Scale3D} (h : Scale3D.update k = some s) {v : Placed} {p d : V3} (hd : Unit d)
    {sm t : ℝ} (ht : (scaledSolid s v).distanceToIn p d sm = some t) :
    ∃ ud t', Unit ud ∧ v.distanceToIn (s.transform p) ud (s.transformDistance sm d) = some t' ∧
      (kInfLength ≤ t' → t = t') ∧
      (t' < kInfLength → s.transform (V3.at' p d t) = V3.at' (s.transform p) ud t' ∧ (0 ≤ t ↔ 0 ≤ t')) := by
  obtain ⟨hm, ud, e1, hu, hsm, hinv, hat⟩ := ray h hd
  change distanceToIn s v p d sm = some t at ht
  simp only [distanceToIn, e1, Option.bind_some, Option.map_eq_some_iff] at ht
  obtain ⟨t', e2, rfl⟩ := ht
  refine ⟨ud, t', hu, e2, fun hi => by rw [if_neg (not_lt.mpr hi)], fun hi => ?_⟩
  rw [if_pos hi, hat, hinv]
  refine ⟨rfl, ?_⟩
  have := hinv t'
  constructor
  · intro h0; rw [← this]; positivity
  · intro h0
    rw [← this] at h0
    exact nonneg_of_mul_nonneg_right h0 hm

/-- C49: the same for the distance to leave, asked without the placement. -/
theorem C49_distance_out {k : V3} {s : Scale3D} (h : Scale3D.update k = some s) {v : Placed} {p d : V3} (hd : Unit d)
    {sm t : ℝ} (ht : (scaledSolid s v).distanceToOut p d sm = some t) :
    ∃ ud t', Unit ud ∧ v.solid.distanceToOut (s.transform p) ud (s.transformDistance sm d) = some t' ∧
      (kInfLength ≤ t' → t = t') ∧
      (t' < kInfLength → s.transform (V3.at' p d t) = V3.at' (s.transform p) ud t' ∧ (0 ≤ t ↔ 0 ≤ t')) := by
  obtain ⟨hm, ud, e1, hu, hsm, hinv, hat⟩ := ray h hd
  change distanceToOut s v p d sm = some t at ht
  simp only [distanceToOut, e1, Option.bind_some, Option.map_eq_some_iff] at ht
  obtain ⟨t', e2, rfl⟩ := ht
  refine ⟨ud, t', hu, e2, fun hi => by rw [if_neg (not_lt.mpr hi)], fun hi => ?_⟩
  rw [if_pos hi, hat, hinv]
  refine ⟨rfl, ?_⟩
  have := hinv t'
  constructor
  · intro h0; rw [← this]; positivity
  · intro h0
    rw [← this] at h0
    exact nonneg_of_mul_nonneg_right h0 hm

/-- Rigid motions keep directions of length one. -/
theorem unit_transform {T : Trans3} (hT : T.Orthonormal) {d : V3} (hd : Unit d) : Unit (T.transformDirection d) := by
  have := (Trans3.C23_isometry hT d ⟨0, 0, 0⟩ ⟨0, 0, 0⟩).1
  simp only [V3.mag2, V3.dot] at this
  unfold Unit at hd ⊢
  nlinarith

/-- C49: no point of the scaled shape is passed over, and a finite distance ends in the shape, if this is so for the
unscaled shape, also for reflections. -/
theorem C49_entry {k : V3} {s : Scale3D} (h : Scale3D.update k = some s) {v : Placed} {X : Region}
    (hv : v.trans.Orthonormal) :
    (UnitEntryOK v.solid X (fun _ => kInfLength) →
      UnitEntryOK (scaledSolid s v) (Stretched k (Moved v.trans X)) fun d => kInfLength / factor k d) ∧
    (UnitEntryHits v.solid X → UnitEntryHits (scaledSolid s v) (Stretched k (Moved v.trans X))) := by
  constructor
  · intro hX p d sm t hd ht u h0 h1 h2 h3
    obtain ⟨hm, ud, e1, hu, hsm, hinv, hat⟩ := ray h hd
    change distanceToIn s v p d sm = some t at ht
    simp only [distanceToIn, e1, Option.bind_some, Option.map_eq_some_iff] at ht
    obtain ⟨t', e2, rfl⟩ := ht
    rw [stretched_iff h, hat, moved_at hv]
    have h2' : (s.transform d).mag * u < s.transformDistance sm d := by rw [hsm]; exact mul_lt_mul_of_pos_left h2 hm
    have h3' : (s.transform d).mag * u < kInfLength := by
      dsimp only at h3
      rw [← mag_eq h, lt_div_iff₀ hm] at h3; linarith
    by_cases hi : t' < kInfLength
    · rw [if_pos hi] at h1
      refine hX _ _ _ _ (unit_transform hv hu) e2 _ (by positivity) ?_ h2' h3'
      rw [← hinv t']
      exact mul_lt_mul_of_pos_left h1 hm
    · exact hX _ _ _ _ (unit_transform hv hu) e2 _ (by positivity) (h3'.trans_le (not_lt.mp hi)) h2' h3'
  · intro hX p d sm t hd ht h0 h1
    obtain ⟨hm, ud, e1, hu, hsm, hinv, hat⟩ := ray h hd
    change distanceToIn s v p d sm = some t at ht
    simp only [distanceToIn, e1, Option.bind_some, Option.map_eq_some_iff] at ht
    obtain ⟨t', e2, rfl⟩ := ht
    by_cases hi : t' < kInfLength
    · rw [if_pos hi] at h0 ⊢
      rw [stretched_iff h, hat, moved_at hv, hinv]
      exact hX _ _ _ _ (unit_transform hv hu) e2 (by rw [← hinv t']; positivity) hi
    · rw [if_neg hi] at h1
      exact absurd h1 hi

/-- C49, for a placed volume that is not moved: all points up to the distance to leave belong to the scaled shape, and it
ends there.  Missing: a moved placed volume, see the counterexample. -/
theorem C49_exit_partial {k : V3} {s : Scale3D} (h : Scale3D.update k = some s) {v : Placed} {X : Region}
    (hv : v.trans.Orthonormal) (hun : Unmoved v.trans) :
    (UnitExitOK v.solid X (fun _ => kInfLength) →
      UnitExitOK (scaledSolid s v) (Stretched k (Moved v.trans X)) fun d => kInfLength / factor k d) ∧
    (UnitExitSharp v.solid X → UnitExitSharp (scaledSolid s v) (Stretched k (Moved v.trans X))) := by
  constructor
  · intro hX p d sm t hd ht u h0 h1 h2 h3
    obtain ⟨hm, ud, e1, hu, hsm, hinv, hat⟩ := ray h hd
    change distanceToOut s v p d sm = some t at ht
    simp only [distanceToOut, e1, Option.bind_some, Option.map_eq_some_iff] at ht
    obtain ⟨t', e2, rfl⟩ := ht
    rw [stretched_iff h, hat, moved_iff hv, hun]
    have h2' : (s.transform d).mag * u ≤ s.transformDistance sm d := by rw [hsm]; exact mul_le_mul_of_nonneg_left h2 hm.le
    have h3' : (s.transform d).mag * u < kInfLength := by
      dsimp only at h3
      rw [← mag_eq h, lt_div_iff₀ hm] at h3; linarith
    by_cases hi : t' < kInfLength
    · rw [if_pos hi] at h1
      refine hX _ _ _ _ hu e2 _ (by positivity) ?_ h2' h3'
      rw [← hinv t']
      exact mul_le_mul_of_nonneg_left h1 hm.le
    · exact hX _ _ _ _ hu e2 _ (by positivity) (h3'.trans_le (not_lt.mp hi)).le h2' h3'
  · intro hX p d sm t hd ht h1 t1 h2 h3
    obtain ⟨hm, ud, e1, hu, hsm, hinv, hat⟩ := ray h hd
    change distanceToOut s v p d sm = some t at ht
    simp only [distanceToOut, e1, Option.bind_some, Option.map_eq_some_iff] at ht
    obtain ⟨t', e2, rfl⟩ := ht
    by_cases hi : t' < kInfLength
    · rw [if_pos hi] at h2
      obtain ⟨w, w0, w1, w2⟩ := hX _ _ _ _ hu e2 hi ((s.transform d).mag * t1)
        (by rw [← hinv t']; exact mul_lt_mul_of_pos_left h2 hm) (by positivity)
      refine ⟨w / (s.transform d).mag, by positivity, by rw [div_le_iff₀ hm]; linarith, ?_⟩
      rw [stretched_iff h, hat, moved_iff hv, hun, mul_div_cancel₀ _ hm.ne']
      exact w2
    · rw [if_neg hi] at h1
      exact absurd h1 hi

/-! ## Normals -/

/-- C49: the normal has length one, and its product with any stretched vector has the sign of the product of the unscaled
normal with the vector if the scale does not reflect, and the opposite sign if it reflects.  So it is the outward normal
of the scaled shape exactly if the scale does not reflect. -/
theorem C49_normal {k : V3} {s : Scale3D} (h : Scale3D.update k = some s) {v : Placed} {p n : V3} {b : Bool}
    (hn : normal s v p = some (n, b)) :
    Unit n ∧ ∃ c, (0 < k.x * k.y * k.z → 0 < c) ∧ (k.x * k.y * k.z < 0 → c < 0) ∧
      ∀ w : V3, n.dot ⟨k.x * w.x, k.y * w.y, k.z * w.z⟩ = c * (v.solid.normal (s.transform p)).1.dot w := by
  obtain ⟨⟨hx, hy, hz⟩, hs, -⟩ := update_spec h
  simp only [normal, Option.map_eq_some_iff] at hn
  obtain ⟨n', e, he⟩ := hn
  cases he
  unfold normalize at e
  split at e
  · cases e
  · rename_i hmag
    cases e
    set a := s.inverseTransformNormal (v.normal (s.transform p)).1 with ha
    have hpos : 0 < a.mag := lt_of_le_of_ne (Real.sqrt_nonneg _) (Ne.symm hmag)
    refine ⟨?_, k.x * k.y * k.z / a.mag, fun hk => div_pos hk hpos, fun hk => div_neg_of_neg_of_pos hk hpos, ?_⟩
    · have hm2 : a.mag ^ 2 = a.x ^ 2 + a.y ^ 2 + a.z ^ 2 := by
        rw [V3.mag, Real.sq_sqrt (by simp only [V3.mag2, V3.dot]; nlinarith [mul_self_nonneg a.x, mul_self_nonneg a.y, mul_self_nonneg a.z])]
        simp only [V3.mag2, V3.dot]; ring
      simp only [Unit, V3.smul]
      field_simp
      linarith
    · intro w
      rw [ha]
      simp only [Scale3D.inverseTransformNormal, hs, V3.smul, V3.dot, Placed.normal]
      field_simp

/-- C49: the two transformations of normals are inverse to each other, and perpendicular directions stay perpendicular:
the product of a transformed normal and a transformed vector is the product before divided by the product of the factors. -/
theorem C49_normal_roundtrip {k : V3} {s : Scale3D} (h : Scale3D.update k = some s) (a u : V3) :
    s.transformNormal (s.inverseTransformNormal a) = a ∧ s.inverseTransformNormal (s.transformNormal a) = a ∧
    (s.transformNormal a).dot (s.transform u) = a.dot u / (k.x * k.y * k.z) := by
  obtain ⟨⟨hx, hy, hz⟩, rfl, h2, -, -⟩ := update_spec h
  simp only [Scale3D.transformNormal, Scale3D.inverseTransformNormal, Scale3D.transform, h2, V3.dot]
  refine ⟨?_, ?_, ?_⟩
  · ext <;> dsimp only <;> field_simp
  · ext <;> dsimp only <;> field_simp
  · field_simp

/-- Finding: the normal of a scaled shape is always reported as not valid. -/
theorem C49_normal_invalid (s : Scale3D) (v : Placed) (p : V3) : ((scaledSolid s v).normal p).2 = false := by
  simp only [scaledSolid, normal]
  cases normalize (s.inverseTransformNormal (v.normal (s.transform p)).1) <;> rfl

/-! ## Extent and capacity -/

theorem extent_eq (s : Scale3D) (v : Placed) : extent s v =
    ⟨⟨v.extent.lo.x * s.fScale.x, v.extent.lo.y * s.fScale.y, v.extent.lo.z * s.fScale.z⟩,
     ⟨v.extent.hi.x * s.fScale.x, v.extent.hi.y * s.fScale.y, v.extent.hi.z * s.fScale.z⟩⟩ := by
  simp only [extent, Scale3D.inverseTransform, V3.smul]
  congr 1 <;> ext <;> simp <;> ring

/-- C49, for scales that do not reflect: the extent contains the scaled shape.  Missing: reflections, see the
counterexample. -/
theorem C49_extent_partial {k : V3} {s : Scale3D} (h : Scale3D.update k = some s) (hk : 0 < k.x ∧ 0 < k.y ∧ 0 < k.z)
    {v : Placed} {X : Region} (hX : ∀ p, Moved v.trans X p → AABB.InBox v.extent p) :
    ExtentOK (scaledSolid s v) (Stretched k (Moved v.trans X)) := by
  obtain ⟨-, hs, -⟩ := update_spec h
  rintro p ⟨q, hq, rfl⟩
  change AABB.InBox (extent s v) _
  rw [extent_eq, hs]
  obtain ⟨⟨a1, a2⟩, ⟨b1, b2⟩, ⟨c1, c2⟩⟩ := hX q hq
  refine ⟨⟨?_, ?_⟩, ⟨?_, ?_⟩, ⟨?_, ?_⟩⟩ <;> dsimp only <;> nlinarith

/-- Finding: for a reflection the extent is turned inside out and contains no point at all. -/
theorem C49_extent_counterexample {k : V3} {s : Scale3D} (h : Scale3D.update k = some s)
    (hk : k.x < 0 ∨ k.y < 0 ∨ k.z < 0) {v : Placed}
    (hv : v.extent.lo.x < v.extent.hi.x ∧ v.extent.lo.y < v.extent.hi.y ∧ v.extent.lo.z < v.extent.hi.z) (p : V3) :
    ¬ AABB.InBox (scaledSolid s v).extent p := by
  obtain ⟨-, hs, -⟩ := update_spec h
  change ¬ AABB.InBox (extent s v) _
  rw [extent_eq, hs]
  rintro ⟨⟨a1, a2⟩, ⟨b1, b2⟩, ⟨c1, c2⟩⟩
  dsimp only at a1 a2 b1 b2 c1 c2
  rcases hk with hk | hk | hk
  · nlinarith [hv.1]
  · nlinarith [hv.2.1]
  · nlinarith [hv.2.2]

open MeasureTheory in
/-- The volume of a region. -/
noncomputable def vol (X : Region) : ENNReal := volume {q : Fin 3 → ℝ | X ⟨q 0, q 1, q 2⟩}

open MeasureTheory in
/-- The volume of a stretched region. -/
theorem vol_stretched {k : V3} (hk : k.x ≠ 0 ∧ k.y ≠ 0 ∧ k.z ≠ 0) (X : Region) :
    vol (Stretched k X) = ENNReal.ofReal |k.x * k.y * k.z| * vol X := by
  have e : {q : Fin 3 → ℝ | Stretched k X ⟨q 0, q 1, q 2⟩} =
      (Matrix.toLin' (Matrix.diagonal ![k.x, k.y, k.z])) '' {q : Fin 3 → ℝ | X ⟨q 0, q 1, q 2⟩} := by
    ext q
    simp only [Set.mem_setOf_eq, Set.mem_image]
    constructor
    · rintro ⟨a, ha, he⟩
      refine ⟨![a.x, a.y, a.z], by simpa using ha, ?_⟩
      have e0 := congrArg V3.x he
      have e1 := congrArg V3.y he
      have e2 := congrArg V3.z he
      ext i
      fin_cases i <;> simp [Matrix.mulVec_diagonal] <;> simp_all
    · rintro ⟨a, ha, he⟩
      refine ⟨⟨a 0, a 1, a 2⟩, ha, ?_⟩
      rw [← he]
      ext <;> simp [Matrix.mulVec_diagonal]
  unfold vol
  rw [e, Measure.addHaar_image_linearMap, LinearMap.det_toLin', Matrix.det_diagonal, Fin.prod_univ_three]
  simp

/-- C49: the capacity of a scaled shape is its volume if the scale does not reflect. -/
theorem C49_capacity_partial {k : V3} {s : Scale3D} (h : Scale3D.update k = some s) (hk : 0 < k.x * k.y * k.z) {X : Region}
    {c : ℝ} (hX : vol X = ENNReal.ofReal c) : vol (Stretched k X) = ENNReal.ofReal (capacity s c) := by
  obtain ⟨hne, hs, -⟩ := update_spec h
  rw [vol_stretched hne, hX, capacity, hs, abs_of_pos hk, ← ENNReal.ofReal_mul hk.le, mul_comm c]

/-- Finding: for a reflection the capacity is negative. -/
theorem C49_capacity_counterexample {k : V3} {s : Scale3D} (h : Scale3D.update k = some s) (hk : k.x * k.y * k.z < 0)
    {c : ℝ} (hc : 0 < c) : capacity s c < 0 := by
  obtain ⟨-, hs, -⟩ := update_spec h
  rw [capacity, hs]
  exact mul_neg_of_pos_of_neg hc hk

/-! ## Moved placed volumes, and examples -/

theorem update_two : ∃ s, Scale3D.update ⟨2, 1, 1⟩ = some s := by
  unfold Scale3D.update
  rw [if_pos (by norm_num)]
  exact ⟨_, rfl⟩

/-- A scale with a reflection. -/
theorem update_reflection : ∃ s, Scale3D.update ⟨2, 3, -1⟩ = some s := by
  unfold Scale3D.update
  rw [if_pos (by norm_num)]
  exact ⟨_, rfl⟩

/-- Finding: if the placed volume is moved, the distance to leave is taken from the wrong frame: the half space up to 0,
moved to end at -5 and stretched by two, ends at -10; the reported distance from -12 is 12. -/
theorem C49_moved_counterexample {s : Scale3D} (h : Scale3D.update ⟨2, 1, 1⟩ = some s) :
    (scaledSolid s ⟨Trans3.ofTranslation (-5) 0 0, ideal (upTo 0)⟩).distanceToOut ⟨-12, 0, 0⟩ ⟨1, 0, 0⟩ kInfLength = some 12 ∧
    ¬ Stretched ⟨2, 1, 1⟩ (Moved (Trans3.ofTranslation (-5) 0 0) (upTo 0)) (V3.at' ⟨-12, 0, 0⟩ ⟨1, 0, 0⟩ 3) := by
  have hm : (s.transform ⟨1, 0, 0⟩).mag = 1 / 2 := by
    rw [mag_eq h, factor]
    norm_num
    rw [show (4:ℝ) = 2 ^ 2 by norm_num, Real.sqrt_sq (by norm_num)]
    norm_num
  have hu : Unit ⟨1, 0, 0⟩ := by norm_num [Unit]
  constructor
  · change distanceToOut s _ _ _ _ = _
    have hn : normalize (s.transform ⟨1, 0, 0⟩) = some ⟨1, 0, 0⟩ := by
      unfold normalize
      rw [hm, if_neg (by norm_num), transform_eq h]
      norm_num [V3.smul]
    have hp : s.transform ⟨-12, 0, 0⟩ = ⟨-6, 0, 0⟩ := by rw [transform_eq h]; norm_num
    simp only [distanceToOut, hn, Option.bind_some, Placed.distanceToOut, hp]
    rw [ideal_upTo 0 (-6) (by norm_num)]
    have h6 : (0:ℝ) - -6 < kInfLength := by
      have h3 : (8:ℝ) ≤ 2 ^ 1023 := by
        calc (8:ℝ) = 2 ^ 3 := by norm_num
          _ ≤ 2 ^ 1023 := pow_le_pow_right₀ (by norm_num) (by norm_num)
      unfold kInfLength
      generalize (2:ℝ) ^ 1023 = y at h3 ⊢
      have h4 : (1:ℝ) ≤ 2 - 1 / 2 ^ 52 := by norm_num
      nlinarith
    simp only [Option.map_some, if_pos h6]
    obtain ⟨-, hs, -⟩ := update_spec h
    congr 1
    simp only [Scale3D.inverseTransformDistance, hs, V3.mul, V3.dot]
    norm_num
    rw [show (4:ℝ) = 2 ^ 2 by norm_num, Real.sqrt_sq (by norm_num)]
    norm_num
  · rw [stretched_iff h, moved_iff (ofTranslation_orthonormal _ _ _), transform_eq h, ofTranslation_transform]
    simp only [upTo, V3.at_x]
    norm_num

/-- The hypotheses are met by exact slabs and every rigid placement, with a reflecting scale. -/
example : (∃ s, Scale3D.update ⟨2, 3, -1⟩ = some s) ∧ Trans3.sample.Orthonormal ∧ Unmoved Trans3.identity ∧
    UnitEntryOK (ideal slab) slab (fun _ => kInfLength) ∧ UnitExitOK (ideal slab) slab (fun _ => kInfLength) ∧
    UnitExitSharp (ideal slab) slab :=
  ⟨update_reflection, Trans3.sample_orthonormal, identity_unmoved,
    fun p d sm t _ ht u h0 h1 h2 _ => ideal_entry _ p d sm t ht u h0 h1 h2,
    fun p d sm t _ ht u h0 h1 h2 _ => ideal_exit slab_closed p d sm t ht u h0 h1 h2,
    fun p d sm t _ ht => ideal_sharp _ p d sm t ht⟩

example : UnitEntryHits (ideal slab) slab := by
  intro p d sm t _ ht h0 h1
  simp only [ideal] at ht
  split at ht
  · rename_i hex
    cases ht
    have hc : IsClosed {u | 0 ≤ u ∧ slab (V3.at' p d u)} := isClosed_Ici.inter (slab_closed p d)
    exact (hc.csInf_mem hex ⟨0, fun x hx => hx.1⟩).2
  · cases ht; exact absurd h1 (lt_irrefl _)

/-- The normal of a box, the extents of boxes and the volume of boxes meet the other hypotheses. -/
example {s : Scale3D} (h : Scale3D.update ⟨2, 3, -1⟩ = some s) :
    normal s ⟨Trans3.identity, ideal slab⟩ ⟨1, 2, 3⟩ = some (⟨0, 0, 1⟩, false) := by
  obtain ⟨-, hs, -⟩ := update_spec h
  have e : s.inverseTransformNormal (Placed.normal ⟨Trans3.identity, ideal slab⟩ (s.transform ⟨1, 2, 3⟩)).1 = ⟨0, 0, 6⟩ := by
    simp only [Scale3D.inverseTransformNormal, hs, Placed.normal, ideal]
    norm_num
  have hm : V3.mag ⟨0, 0, 6⟩ = 6 := by
    simp only [V3.mag, V3.mag2, V3.dot]
    norm_num
    rw [show (36:ℝ) = 6 ^ 2 by norm_num, Real.sqrt_sq (by norm_num)]
  unfold normal
  rw [e]
  unfold normalize
  rw [hm]
  norm_num [V3.smul]

example : vol (BoxSolid.Closed BoxSolid.sampleBox) = ENNReal.ofReal (BoxSolid.capacity BoxSolid.sampleBox) :=
  C59_box_capacity BoxSolid.sampleBox_proper

end Scaled
end VecGeom

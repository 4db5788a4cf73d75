import Verif.Trapezoid.Lemmas

/-!
# C127 - C129: containment, safeties and distances of a solid between side planes and two planes across `z`
-/

namespace VecGeom
namespace Trapezoid

variable {s : State}

/-- C127: `Contains` is true exactly for the points on or below all six planes. -/
theorem C127_contains (s : State) (p : V3) : contains s p = true ↔ Below (sides s.dz s.planes) p := by
  unfold contains genericKernel
  rw [below_iff, Bool.not_eq_true', ← Bool.not_eq_true, PlaneShell.generic_snd]
  simp only [Bool.false_eq_true, if_false, gt_iff_lt, decide_eq_true_eq]
  push Not
  rfl

/-- C127: `Inside` answers "outside" exactly above one of the planes by more than half the tolerance, "inside" exactly
below all of them by more than half the tolerance. -/
theorem C127_inside (s : State) (h0 : 0 ≤ s.dz) (p : V3) :
    (inside s p = .outside ↔ ∃ pl ∈ sides s.dz s.planes, kHalfTolerance < pl.height p) ∧
    (inside s p = .inside ↔ ∀ pl ∈ sides s.dz s.planes, pl.height p < -kHalfTolerance) := by
  have ht := kHalfTolerance_pos
  have h1 : (genericKernel true s p).1 = true ↔ ∀ pl ∈ sides s.dz s.planes, pl.height p < -kHalfTolerance := by
    unfold genericKernel
    rw [PlaneShell.generic_fst, sides_all, height_up, height_dn]
    simp only [if_true, decide_eq_true_eq, abs_lt]
    constructor
    · rintro ⟨⟨a, b⟩, c⟩; exact ⟨by linarith, by linarith, c⟩
    · rintro ⟨a, b, c⟩; exact ⟨⟨by linarith, by linarith⟩, c⟩
  have h2 : (genericKernel true s p).2 = true ↔ ∃ pl ∈ sides s.dz s.planes, kHalfTolerance < pl.height p := by
    unfold genericKernel
    rw [PlaneShell.generic_snd, sides_ex, height_up, height_dn]
    simp only [if_true, decide_eq_true_eq, gt_iff_lt, lt_abs]
    constructor
    · rintro ((a | a) | a)
      · exact Or.inl (by linarith)
      · exact Or.inr (Or.inl (by linarith))
      · exact Or.inr (Or.inr a)
    · rintro (a | a | a)
      · exact Or.inl (Or.inl (by linarith))
      · exact Or.inl (Or.inr (by linarith))
      · exact Or.inr a
  rw [← h1, ← h2]
  have h3 : (genericKernel true s p).1 = true → (genericKernel true s p).2 = true → False := by
    intro a b
    obtain ⟨pl, hpl, c⟩ := h2.mp b
    linarith [h1.mp a pl hpl]
  unfold inside
  generalize genericKernel true s p = k at *
  obtain ⟨a, b⟩ := k
  cases a <;> cases b <;> simp_all

/-- The normals of the six planes have length one. -/
def UnitNormals (s : State) : Prop := ∀ pl ∈ s.planes, pl.n.mag2 = 1

theorem UnitNormals.all (h : UnitNormals s) : ∀ pl ∈ sides s.dz s.planes, pl.n.mag2 ≤ 1 := by
  rw [sides_all]
  exact ⟨by norm_num [V3.mag2, V3.dot], by norm_num [V3.mag2, V3.dot], fun pl hpl => (h pl hpl).le⟩

theorem safetyIn_le {p : V3} {b : ℝ} : safetyToIn s p ≤ b ↔ ∀ pl ∈ sides s.dz s.planes, pl.height p ≤ b := by
  unfold safetyToIn
  rw [PlaneShell.safetyIn_eq, maxIf_le, sides_all, height_up, height_dn]
  simp only [true_implies]
  have e : |p.z| - s.dz ≤ b ↔ p.z - s.dz ≤ b ∧ -p.z - s.dz ≤ b := by
    constructor
    · intro h; exact ⟨by linarith [le_abs_self p.z], by linarith [neg_abs_le p.z]⟩
    · rintro ⟨h1, h2⟩
      rcases abs_cases p.z with ⟨e, _⟩ | ⟨e, _⟩ <;> rw [e] <;> linarith
  rw [e, and_assoc]

theorem le_safetyOut {p : V3} {b : ℝ} : b ≤ safetyToOut s p ↔ ∀ pl ∈ sides s.dz s.planes, b ≤ -pl.height p := by
  unfold safetyToOut
  rw [PlaneShell.safetyOut_eq, le_minIf, sides_all, height_up, height_dn]
  simp only [true_implies]
  have e : b ≤ s.dz - |p.z| ↔ b ≤ -(p.z - s.dz) ∧ b ≤ -(-p.z - s.dz) := by
    constructor
    · intro h; exact ⟨by linarith [le_abs_self p.z], by linarith [neg_abs_le p.z]⟩
    · rintro ⟨h1, h2⟩
      rcases abs_cases p.z with ⟨e, _⟩ | ⟨e, _⟩ <;> rw [e] <;> linarith
  rw [e, and_assoc]

/-- C128: the safety from outside is the largest of the six heights, the safety from inside is its opposite. -/
theorem C128_safety_value (s : State) (p : V3) :
    (∀ pl ∈ sides s.dz s.planes, pl.height p ≤ safetyToIn s p) ∧
    (∃ pl ∈ sides s.dz s.planes, pl.height p = safetyToIn s p) ∧
    safetyToOut s p = -safetyToIn s p := by
  have h1 := safetyIn_le (s := s) (p := p) (b := safetyToIn s p) |>.mp le_rfl
  refine ⟨h1, ?_, ?_⟩
  · by_contra hn
    push Not at hn
    have hlt : ∀ pl ∈ sides s.dz s.planes, pl.height p < safetyToIn s p := fun pl hpl => lt_of_le_of_ne (h1 pl hpl) (hn pl hpl)
    -- the largest of finitely many heights
    have : ∃ b, b < safetyToIn s p ∧ ∀ pl ∈ sides s.dz s.planes, pl.height p ≤ b := by
      generalize safetyToIn s p = m at *
      generalize hL : sides s.dz s.planes = L at *
      clear hL h1 hn
      induction L with
      | nil => exact ⟨m - 1, by linarith, by simp⟩
      | cons a l ih =>
        obtain ⟨b, hb, hbl⟩ := ih fun pl hpl => hlt pl (List.mem_cons_of_mem _ hpl)
        refine ⟨max b (a.height p), max_lt hb (hlt a List.mem_cons_self), ?_⟩
        intro q hq
        rcases List.mem_cons.mp hq with rfl | hq
        · exact le_max_right _ _
        · exact (hbl q hq).trans (le_max_left _ _)
    obtain ⟨b, hb, hbl⟩ := this
    linarith [safetyIn_le.mpr hbl]
  · apply le_antisymm
    · have := le_safetyOut (s := s) (p := p) |>.mp le_rfl
      have h3 : safetyToIn s p ≤ -safetyToOut s p := safetyIn_le.mpr fun pl hpl => by linarith [this pl hpl]
      linarith
    · exact le_safetyOut.mpr fun pl hpl => by linarith [h1 pl hpl]

/-- C128: the safety from outside is not larger than the distance to any point of the solid. -/
theorem C128_safety_in (hu : UnitNormals s) {p q : V3} (hq : Below (sides s.dz s.planes) q) :
    safetyToIn s p ≤ V3.dist p q := by
  apply safetyIn_le.mpr
  intro pl hpl
  linarith [Plane.height_sub_le (hu.all pl hpl) p q, hq pl hpl]

/-- C128: the safety from inside is not larger than the distance to any point outside the solid. -/
theorem C128_safety_out (hu : UnitNormals s) {p q : V3} (hq : ¬ Below (sides s.dz s.planes) q) :
    safetyToOut s p ≤ V3.dist p q := by
  unfold Below at hq
  push Not at hq
  obtain ⟨pl, hpl, hb⟩ := hq
  have := le_safetyOut (s := s) (p := p) |>.mp le_rfl pl hpl
  have h2 := Plane.height_sub_le (hu.all pl hpl) q p
  rw [V3.dist_comm'] at h2
  linarith

/-- C128: the safety from outside is positive exactly for the points that are not contained, the safety from inside is not
negative exactly for those that are. -/
theorem C128_safety_sign (s : State) (p : V3) :
    (0 < safetyToIn s p ↔ contains s p = false) ∧ (0 ≤ safetyToOut s p ↔ contains s p = true) := by
  have h := C127_contains s p
  have e : Below (sides s.dz s.planes) p ↔ safetyToIn s p ≤ 0 := safetyIn_le.symm
  rw [e] at h
  constructor
  · rw [← Bool.not_eq_true, h, not_le]
  · rw [h, (C128_safety_value s p).2.2]
    constructor <;> intro <;> linarith

/-- C129: the answer of `DistanceToIn` is not larger than any parameter at which the ray is in the solid, unless the answer is
"never" or the ray runs along a side plane, below it by less than half the tolerance. -/
theorem C129_entry (p d : V3) (ht : distanceToIn s p d ≠ kInfLength)
    (hg : ∀ pl ∈ s.planes, pl.n.dot d = 0 → -kHalfTolerance < pl.height p → 0 ≤ pl.height p) {u : ℝ} (hu : 0 ≤ u)
    (hq : Below (sides s.dz s.planes) (V3.at' p d u)) : distanceToIn s p d ≤ u := by
  classical
  have hk := kTiny_pos
  obtain ⟨hz, hpl⟩ := below_iff.mp hq
  unfold distanceToIn at *
  dsimp only at *
  split at ht
  · exact absurd rfl ht
  · rename_i hc
    rw [if_neg hc]
    unfold PlaneShell.distanceToIn at *
    split at ht
    · exact absurd rfl ht
    · rename_i hd
      rw [if_neg hd]
      have k := PlaneShell.inLoop_spec p d s.planes _ _ ht
      rcases k.2.2.2.2 with e | ⟨pl, hm, ho, e⟩
      · rw [e]
        rw [mul_one_div]
        have hz' := abs_le.mp hz
        have hzz : (V3.at' p d u).z = p.z + u * d.z := rfl
        rw [hzz] at hz'
        rcases lt_or_ge d.z 0 with hn | hn
        · rw [sign, if_pos hn, div_le_iff_of_neg (nonZero_neg hn), nonZero, copySign, if_pos hn]
          nlinarith
        · rw [sign, if_neg (not_lt.mpr hn), div_le_iff₀ (nonZero_pos hn), nonZero, copySign, if_neg (not_lt.mpr hn)]
          nlinarith
      · rw [e]
        have h1 := hpl pl hm
        rw [Plane.height_at] at h1
        have h2 := PlaneShell.vdist_def pl p d
        rcases ho.2.lt_or_eq with hn | hn
        · have h3 := nonZero_neg hn
          rw [nonZero, copySign, if_pos hn] at h2 h3
          by_contra hlt
          nlinarith
        · have h3 := hg pl hm hn ho.1
          have h4 := nonZero_pos (le_of_eq hn.symm)
          have : PlaneShell.vdist pl p d ≤ 0 := by by_contra hlt; nlinarith
          linarith

/-- C129: if the ray has a point with parameter `u` that is deeper in the solid than half the tolerance, `DistanceToIn`
answers with at most `u`. -/
theorem C129_entry_found (p d : V3) {u : ℝ} (hu : 0 ≤ u)
    (hq : ∀ pl ∈ sides s.dz s.planes, pl.height (V3.at' p d u) < -(kHalfTolerance + u * kTiny)) :
    distanceToIn s p d ≤ u := by
  classical
  have hk := kTiny_pos
  have ht := kHalfTolerance_pos
  have hukt : 0 ≤ u * kTiny := mul_nonneg hu hk.le
  rw [sides_all, height_up, height_dn] at hq
  obtain ⟨h1, h2, hpl⟩ := hq
  have hzz : (V3.at' p d u).z = p.z + u * d.z := rfl
  rw [hzz] at h1 h2
  unfold distanceToIn
  dsimp only
  have hc : ¬ sign d.z * (sign d.z * s.dz - p.z) < 0 + kHalfTolerance := by
    rcases lt_or_ge d.z 0 with hn | hn
    · rw [sign, if_pos hn]; nlinarith
    · rw [sign, if_neg (not_lt.mpr hn)]; nlinarith
  rw [if_neg hc]
  unfold PlaneShell.distanceToIn
  rw [if_neg]
  · apply PlaneShell.inLoop_le
    · rw [mul_one_div]
      rcases lt_or_ge d.z 0 with hn | hn
      · rw [sign, if_pos hn, div_le_iff_of_neg (nonZero_neg hn), nonZero, copySign, if_pos hn]; nlinarith
      · rw [sign, if_neg (not_lt.mpr hn), div_le_iff₀ (nonZero_pos hn), nonZero, copySign, if_neg (not_lt.mpr hn)]
        nlinarith
    · rw [mul_one_div]
      rcases lt_or_ge d.z 0 with hn | hn
      · rw [sign, if_pos hn, le_div_iff_of_neg (nonZero_neg hn), nonZero, copySign, if_pos hn]; nlinarith
      · rw [sign, if_neg (not_lt.mpr hn), le_div_iff₀ (nonZero_pos hn), nonZero, copySign, if_neg (not_lt.mpr hn)]
        nlinarith
    · intro pl hm ho
      have h3 := hpl pl hm
      rw [Plane.height_at] at h3
      have h4 := PlaneShell.vdist_def pl p d
      rcases ho.2.lt_or_eq with hn | hn
      · have h5 := nonZero_neg hn
        rw [nonZero, copySign, if_pos hn] at h4 h5
        by_contra hlt
        nlinarith
      · have := ho.1
        rw [hn] at h3
        linarith
    · intro pl hm hi
      have h3 := hpl pl hm
      rw [Plane.height_at] at h3
      have h4 := PlaneShell.vdist_def pl p d
      have h5 := nonZero_pos hi.2.le
      rw [nonZero, copySign, if_neg (not_lt.mpr hi.2.le)] at h4 h5
      by_contra hlt
      nlinarith
  · rintro ⟨pl, hm, h | h⟩
    · have h3 := hpl pl hm
      rw [Plane.height_at] at h3
      have h4 : 0 + kHalfTolerance < pl.height p := h.1
      have h5 : 0 ≤ pl.n.dot d := h.2
      nlinarith [mul_nonneg hu h5]
    · have h3 := hpl pl hm
      rw [Plane.height_at] at h3
      have h4 : 0 - kHalfTolerance < pl.height p := h.1
      have h5 : 0 < pl.n.dot d := h.2
      nlinarith [mul_nonneg hu h5.le]

/-- What is known of an answer other than "never". -/
theorem entry_bounds (p d : V3) (ht : distanceToIn s p d ≠ kInfLength) :
    let t := distanceToIn s p d;
    -(sign d.z * s.dz + p.z) / nonZero d.z ≤ t ∧ t ≤ (sign d.z * s.dz - p.z) / nonZero d.z ∧
    (∀ pl ∈ s.planes, PlaneShell.FromOut p d pl → PlaneShell.vdist pl p d ≤ t) ∧
    (∀ pl ∈ s.planes, PlaneShell.FromIn p d pl → t ≤ PlaneShell.vdist pl p d) ∧
    (∀ pl ∈ s.planes, kHalfTolerance < pl.height p → pl.n.dot d < 0) ∧
    (∀ pl ∈ s.planes, -kHalfTolerance < pl.height p → pl.n.dot d ≤ 0) ∧
    (t = -(sign d.z * s.dz + p.z) / nonZero d.z ∨
      ∃ pl ∈ s.planes, PlaneShell.FromOut p d pl ∧ t = PlaneShell.vdist pl p d) := by
  classical
  dsimp only
  unfold distanceToIn at *
  dsimp only at *
  split at ht
  · exact absurd rfl ht
  · rename_i hc
    rw [if_neg hc]
    unfold PlaneShell.distanceToIn at *
    split at ht
    · exact absurd rfl ht
    · rename_i hd
      rw [if_neg hd]
      have k := PlaneShell.inLoop_spec p d s.planes _ _ ht
      push Not at hd
      simp only [mul_one_div] at k ⊢
      refine ⟨k.1, k.2.1, k.2.2.1, k.2.2.2.1, ?_, ?_, k.2.2.2.2⟩
      · intro pl hm h
        exact (hd pl hm).1 (by show 0 + kHalfTolerance < pl.height p; linarith)
      · intro pl hm h
        exact (hd pl hm).2 (by show 0 - kHalfTolerance < pl.height p; linarith)

/-- C129: at the distance returned the ray is in the solid up to half the tolerance, and on one of the planes. -/
theorem C129_entry_hit (p d : V3) (ht : distanceToIn s p d ≠ kInfLength) (h0 : 0 ≤ distanceToIn s p d) :
    (∀ pl ∈ sides s.dz s.planes, pl.height (V3.at' p d (distanceToIn s p d)) ≤
      max kHalfTolerance (distanceToIn s p d * kTiny)) ∧
    (∀ pl ∈ sides s.dz s.planes, pl.n.dot d ≠ 0 → pl.height (V3.at' p d (distanceToIn s p d)) ≤
      distanceToIn s p d * kTiny) ∧
    ∃ pl ∈ sides s.dz s.planes, |pl.height (V3.at' p d (distanceToIn s p d))| = distanceToIn s p d * kTiny := by
  classical
  have hk := kTiny_pos
  have htol := kHalfTolerance_pos
  have K := entry_bounds p d ht
  dsimp only at K
  generalize distanceToIn s p d = t at *
  obtain ⟨z1, z2, k1, k2, k3, k4, k5⟩ := K
  have hzz : (V3.at' p d t).z = p.z + t * d.z := rfl
  have htk : 0 ≤ t * kTiny := mul_nonneg h0 hk.le
  have hz : (p.z + t * d.z) - s.dz ≤ t * kTiny ∧ -(p.z + t * d.z) - s.dz ≤ t * kTiny := by
    rcases lt_or_ge d.z 0 with hn | hn
    · rw [sign, if_pos hn, div_le_iff_of_neg (nonZero_neg hn), nonZero, copySign, if_pos hn] at z1
      rw [sign, if_pos hn, le_div_iff_of_neg (nonZero_neg hn), nonZero, copySign, if_pos hn] at z2
      constructor <;> nlinarith
    · rw [sign, if_neg (not_lt.mpr hn), div_le_iff₀ (nonZero_pos hn), nonZero, copySign, if_neg (not_lt.mpr hn)] at z1
      rw [sign, if_neg (not_lt.mpr hn), le_div_iff₀ (nonZero_pos hn), nonZero, copySign, if_neg (not_lt.mpr hn)] at z2
      constructor <;> nlinarith
  have hall : ∀ pl ∈ s.planes, pl.n.dot d ≠ 0 → pl.height (V3.at' p d t) ≤ t * kTiny := by
    intro pl hm hne
    rw [Plane.height_at]
    have h4 := PlaneShell.vdist_def pl p d
    rcases lt_or_gt_of_ne hne with hn | hn
    · by_cases hp : -kHalfTolerance < pl.height p
      · have h5 := k1 pl hm ⟨hp, hn.le⟩
        have h6 := nonZero_neg hn
        rw [nonZero, copySign, if_pos hn] at h4 h6
        nlinarith
      · nlinarith
    · by_cases hp : -kHalfTolerance < pl.height p
      · linarith [k4 pl hm hp]
      · have h5 := k2 pl hm ⟨not_lt.mp hp, hn⟩
        have h6 := nonZero_pos hn.le
        rw [nonZero, copySign, if_neg (not_lt.mpr hn.le)] at h4 h6
        nlinarith
  refine ⟨?_, ?_, ?_⟩
  · rw [sides_all, height_up, height_dn, hzz]
    refine ⟨hz.1.trans (le_max_right _ _), hz.2.trans (le_max_right _ _), ?_⟩
    intro pl hm
    by_cases hne : pl.n.dot d = 0
    · refine le_trans ?_ (le_max_left _ _)
      rw [Plane.height_at, hne]
      by_contra hlt
      have := k3 pl hm (by linarith)
      linarith
    · exact (hall pl hm hne).trans (le_max_right _ _)
  · rw [sides_all, height_up, height_dn, hzz]
    exact ⟨fun _ => hz.1, fun _ => hz.2, hall⟩
  · rcases k5 with e | ⟨pl, hm, ho, e⟩
    · rw [sides_ex, height_up, height_dn, hzz]
      rw [eq_div_iff (nonZero_ne _)] at e
      rcases lt_or_ge d.z 0 with hn | hn
      · left
        rw [sign, if_pos hn, nonZero, copySign, if_pos hn] at e
        rw [show p.z + t * d.z - s.dz = t * kTiny by linarith, abs_of_nonneg htk]
      · right; left
        rw [sign, if_neg (not_lt.mpr hn), nonZero, copySign, if_neg (not_lt.mpr hn)] at e
        rw [show -(p.z + t * d.z) - s.dz = t * kTiny by linarith, abs_of_nonneg htk]
    · refine ⟨pl, List.mem_cons_of_mem _ (List.mem_cons_of_mem _ hm), ?_⟩
      have h4 := PlaneShell.vdist_def pl p d
      rw [← e] at h4
      rw [Plane.height_at]
      rcases ho.2.lt_or_eq with hn | hn
      · rw [nonZero, copySign, if_pos hn] at h4
        rw [show pl.height p + t * pl.n.dot d = t * kTiny by linarith, abs_of_nonneg htk]
      · rw [hn] at h4 ⊢
        rw [nonZero, copySign, if_neg (lt_irrefl _)] at h4
        rw [show pl.height p + t * 0 = -(t * kTiny) by linarith, abs_neg, abs_of_nonneg htk]

/-- C129: a negative answer of `DistanceToIn` is given only for points that are not outside. -/
theorem C129_entry_negative (h00 : 0 ≤ s.dz) (p d : V3) (h0 : distanceToIn s p d < 0) :
    ∀ pl ∈ sides s.dz s.planes, pl.height p ≤ kHalfTolerance := by
  classical
  have hk := kTiny_pos
  have htol := kHalfTolerance_pos
  have ht : distanceToIn s p d ≠ kInfLength := by linarith [kInfLength_pos]
  have K := entry_bounds p d ht
  have hdone : ¬ sign d.z * (sign d.z * s.dz - p.z) < 0 + kHalfTolerance := by
    intro hc
    unfold distanceToIn at ht
    dsimp only at ht
    rw [if_pos hc] at ht
    exact ht rfl
  dsimp only at K
  generalize distanceToIn s p d = t at *
  obtain ⟨z1, z2, k1, k2, k3, k4, k5⟩ := K
  rw [sides_all, height_up, height_dn]
  have hz : p.z - s.dz ≤ kHalfTolerance ∧ -p.z - s.dz ≤ kHalfTolerance := by
    rcases lt_or_ge d.z 0 with hn | hn
    · have h6 := nonZero_neg hn
      rw [sign, if_pos hn, div_le_iff_of_neg h6] at z1
      rw [sign, if_pos hn] at hdone
      constructor <;> nlinarith
    · have h6 := nonZero_pos hn
      rw [sign, if_neg (not_lt.mpr hn), div_le_iff₀ h6] at z1
      rw [sign, if_neg (not_lt.mpr hn)] at hdone
      constructor <;> nlinarith
  refine ⟨hz.1, hz.2, ?_⟩
  intro pl hm
  by_contra hlt
  rw [not_le] at hlt
  have hn := k3 pl hm hlt
  have h1 := k1 pl hm ⟨by linarith, hn.le⟩
  have h4 := PlaneShell.vdist_def pl p d
  have h6 := nonZero_neg hn
  nlinarith

/-- C129: from a point of the solid, `DistanceToOut` is not negative and the ray stays in the solid up to it. -/
theorem C129_exit (p d : V3) (hp : Below (sides s.dz s.planes) p) :
    0 ≤ distanceToOut s p d ∧ ∀ u, 0 ≤ u → u ≤ distanceToOut s p d → Below (sides s.dz s.planes) (V3.at' p d u) := by
  classical
  have hinf := kInfLength_pos
  have htol := kHalfTolerance_pos
  have hk := kTiny_pos
  obtain ⟨hz, hpl⟩ := below_iff.mp hp
  have hz' := abs_le.mp hz
  unfold distanceToOut
  dsimp only
  rw [if_neg (by linarith), PlaneShell.out_eq (fun pl hm => by linarith [hpl pl hm])]
  have e : ∀ a b : ℝ, (if a < b then a else b) = min a b := by
    intro a b
    by_cases h : a < b
    · rw [if_pos h, min_eq_left h.le]
    · rw [if_neg h, min_eq_right (not_lt.mp h)]
  rw [e]
  constructor
  · apply le_min
    · rw [le_minIf]
      refine ⟨hinf.le, fun pl hm hd => ?_⟩
      have h4 := PlaneShell.vdist_def pl p d
      have h6 := nonZero_pos hd.le
      have := hpl pl hm
      by_contra hlt
      nlinarith
    · split
      · rcases lt_or_ge d.z 0 with hn | hn
        · rw [sign, if_pos hn, le_div_iff_of_neg (nonZero_neg hn)]; linarith
        · rw [sign, if_neg (not_lt.mpr hn), le_div_iff₀ (nonZero_pos hn)]; linarith
      · exact hinf.le
  · intro u hu hut
    rw [le_min_iff, le_minIf] at hut
    obtain ⟨⟨_, h1⟩, h2⟩ := hut
    rw [below_iff]
    constructor
    · show |p.z + u * d.z| ≤ s.dz
      rw [abs_le]
      by_cases hd : d.z = 0
      · rw [hd]; constructor <;> linarith
      · rw [if_pos hd] at h2
        rcases lt_or_ge d.z 0 with hn | hn
        · rw [sign, if_pos hn, le_div_iff_of_neg (nonZero_neg hn), nonZero, copySign, if_pos hn] at h2
          constructor <;> nlinarith
        · rw [sign, if_neg (not_lt.mpr hn), le_div_iff₀ (nonZero_pos hn), nonZero, copySign, if_neg (not_lt.mpr hn)] at h2
          constructor <;> nlinarith
    · intro pl hm
      rw [Plane.height_at]
      have := hpl pl hm
      rcases le_or_gt (pl.n.dot d) 0 with hn | hn
      · nlinarith
      · have h3 := h1 pl hm hn
        have h4 := PlaneShell.vdist_def pl p d
        have h6 := nonZero_pos hn.le
        rw [nonZero, copySign, if_neg (not_lt.mpr hn.le)] at h4 h6
        nlinarith

/-- C129: at the distance to leave the ray reaches a plane it comes towards. -/
theorem C129_exit_hit (p d : V3) (hp : Below (sides s.dz s.planes) p) (ht : distanceToOut s p d < kInfLength) :
    ∃ pl ∈ sides s.dz s.planes, 0 < pl.n.dot d ∧
      pl.height (V3.at' p d (distanceToOut s p d)) = -(distanceToOut s p d * kTiny) := by
  classical
  have htol := kHalfTolerance_pos
  obtain ⟨hz, hpl⟩ := below_iff.mp hp
  unfold distanceToOut at *
  dsimp only at *
  rw [if_neg (by linarith), PlaneShell.out_eq (fun pl hm => by linarith [hpl pl hm])] at *
  have hpt : ∀ t : ℝ, (V3.at' p d t).z = p.z + t * d.z := fun _ => rfl
  have zcase : d.z ≠ 0 → ∀ t, t = (sign d.z * s.dz - p.z) / nonZero d.z →
      ∃ pl ∈ sides s.dz s.planes, 0 < pl.n.dot d ∧ pl.height (V3.at' p d t) = -(t * kTiny) := by
    intro hd t e
    rw [eq_div_iff (nonZero_ne _)] at e
    rw [sides_ex, height_up, height_dn, hpt]
    rcases lt_or_gt_of_ne hd with hn | hn
    · right; left
      rw [sign, if_pos hn, nonZero, copySign, if_pos hn] at e
      exact ⟨by simp [V3.dot]; exact hn, by linarith⟩
    · left
      rw [sign, if_neg (not_lt.mpr hn.le), nonZero, copySign, if_neg (not_lt.mpr hn.le)] at e
      exact ⟨by simp [V3.dot]; exact hn, by linarith⟩
  have pcase : ∀ m, m < kInfLength → m = minIf (fun pl : Plane => pl.n.dot d > 0) (fun pl => PlaneShell.vdist pl p d) kInfLength s.planes →
      ∃ pl ∈ sides s.dz s.planes, 0 < pl.n.dot d ∧ pl.height (V3.at' p d m) = -(m * kTiny) := by
    intro m hm e
    rcases minIf_cases (fun pl : Plane => pl.n.dot d > 0) (fun pl => PlaneShell.vdist pl p d) kInfLength s.planes with
      e' | ⟨pl, hpm, hd, e'⟩
    · rw [e'] at e; linarith
    · refine ⟨pl, List.mem_cons_of_mem _ (List.mem_cons_of_mem _ hpm), hd, ?_⟩
      have h4 := PlaneShell.vdist_def pl p d
      rw [← e', ← e, nonZero, copySign, if_neg (not_lt.mpr hd.le)] at h4
      rw [Plane.height_at]
      linarith
  generalize hM : minIf (fun pl : Plane => pl.n.dot d > 0) (fun pl => PlaneShell.vdist pl p d) kInfLength s.planes = M at *
  generalize hZ : (if d.z ≠ 0 then (sign d.z * s.dz - p.z) / nonZero d.z else kInfLength) = Z at *
  by_cases hc : M < Z
  · rw [if_pos hc] at ht ⊢
    exact pcase M ht rfl
  · rw [if_neg hc] at ht ⊢
    by_cases hd : d.z ≠ 0
    · rw [if_pos hd] at hZ
      exact zcase hd _ hZ.symm
    · rw [if_neg hd] at hZ
      rw [hZ] at ht
      exact absurd ht (lt_irrefl _)

/-- C129: outside the solid by more than half the tolerance, `DistanceToOut` is negative. -/
theorem C129_exit_wrong_side (p d : V3) (h : ∃ pl ∈ sides s.dz s.planes, kHalfTolerance < pl.height p) :
    distanceToOut s p d ≤ -1 := by
  classical
  rw [sides_ex, height_up, height_dn] at h
  unfold distanceToOut
  dsimp only
  by_cases hz : |p.z| > s.dz + kHalfTolerance
  · rw [if_pos hz]
  · rw [if_neg hz]
    have hz' := abs_le.mp (not_lt.mp hz)
    rcases h with h | h | h
    · linarith
    · linarith
    · have := PlaneShell.out_neg h d
      generalize (if d.z ≠ 0 then (sign d.z * s.dz - p.z) / nonZero d.z else kInfLength) = Z
      split
      · exact this
      · linarith

end Trapezoid
end VecGeom

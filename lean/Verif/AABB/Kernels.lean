import Verif.AABB.Lemmas

/-!
# Lemmas on the ray kernels and the squared safeties
-/

namespace VecGeom
namespace AABB

open Box

/-- If the entry parameter is at most `u`, the exit parameter at least `s ≤ u`, the point at `s` is in the slab grown by
`(u - s) |d|`. -/
theorem slab_grown {a b p d s u : ℝ} (hab : a ≤ b) (hd : d ≠ 0) (hsu : s ≤ u)
    (h1 : (ord ((a - p) * (1 / d)) ((b - p) * (1 / d))).1 ≤ u)
    (h2 : s ≤ (ord ((a - p) * (1 / d)) ((b - p) * (1 / d))).2) :
    a - (u - s) * |d| ≤ p + s * d ∧ p + s * d ≤ b + (u - s) * |d| := by
  have hord : (ord ((a - p) * (1 / d)) ((b - p) * (1 / d))).1 ≤ (ord ((a - p) * (1 / d)) ((b - p) * (1 / d))).2 := by
    unfold ord
    split
    · rename_i h; exact h.le
    · rename_i h; exact not_lt.mp h
  set t0 := (ord ((a - p) * (1 / d)) ((b - p) * (1 / d))).1
  have hin := (slab_ord (p := p) (t := max s t0) hab hd).mpr ⟨le_max_right _ _, max_le h2 hord⟩
  have hm1 : 0 ≤ max s t0 - s := sub_nonneg.mpr (le_max_left _ _)
  have hm2 : max s t0 - s ≤ u - s := sub_le_sub_right (max_le hsu h1) _
  have habs : |(max s t0 - s) * d| ≤ (u - s) * |d| := by
    rw [abs_mul, abs_of_nonneg hm1]
    exact mul_le_mul_of_nonneg_right hm2 (abs_nonneg _)
  have l1 := le_abs_self ((max s t0 - s) * d)
  have l2 := neg_abs_le ((max s t0 - s) * d)
  constructor <;> linarith [hin.1, hin.2]

theorem accept_sound {b : Box} (hv : Valid b) {p d : V3} (hd : Full d) {step : ℝ} (hstep : 0 < step)
    (h1 : (b.computeIntersectionInvDir p d.inv).1 ≤ (b.computeIntersectionInvDir p d.inv).2)
    (h2 : (b.computeIntersectionInvDir p d.inv).2 ≥ 0) (h3 : (b.computeIntersectionInvDir p d.inv).1 < step) :
    ∃ s, 0 ≤ s ∧ s < step ∧
      InBoxGrown b ⟨2 * kEpsilon * s * |d.x|, 2 * kEpsilon * s * |d.y|, 2 * kEpsilon * s * |d.z|⟩ (V3.at' p d s) := by
  change tIn b p d ≤ _ at h1
  change tIn b p d < _ at h3
  rw [computeIntersectionInvDir_snd] at h1 h2
  have hs := stretch_pos
  have heps := kEpsilon_pos
  have hout : 0 ≤ tOut b p d := by
    by_contra hn
    push Not at hn
    nlinarith
  have main : ∀ s, 0 ≤ s → s ≤ tOut b p d → tIn b p d ≤ s * (1 + 2 * kEpsilon) →
      InBoxGrown b ⟨2 * kEpsilon * s * |d.x|, 2 * kEpsilon * s * |d.y|, 2 * kEpsilon * s * |d.z|⟩ (V3.at' p d s) := by
    intro s hs0 hs1 hs2
    have ho := V3.le_minc.mp hs1
    have hi := V3.maxc_le.mp hs2
    have hle : s ≤ s * (1 + 2 * kEpsilon) := by nlinarith
    have e : s * (1 + 2 * kEpsilon) - s = 2 * kEpsilon * s := by ring
    have gx := slab_grown (p := p.x) hv.1 hd.1 hle hi.1 ho.1
    have gy := slab_grown (p := p.y) hv.2.1 hd.2.1 hle hi.2.1 ho.2.1
    have gz := slab_grown (p := p.z) hv.2.2 hd.2.2 hle hi.2.2 ho.2.2
    rw [e] at gx gy gz
    exact ⟨gx, gy, gz⟩
  rcases le_total (tIn b p d) (tOut b p d) with h | h
  · refine ⟨max (tIn b p d) 0, le_max_right _ _, max_lt h3 hstep, main _ (le_max_right _ _) (max_le h hout) ?_⟩
    have h0 := le_max_left (tIn b p d) 0
    have h0' := le_max_right (tIn b p d) 0
    nlinarith
  · exact ⟨tOut b p d, hout, lt_of_le_of_lt h h3, main _ hout (le_refl _) h1⟩

/-! ### the sign-based kernels -/

open Classical in
/-- Entry and exit parameters on the three axes as computed by the sign-based kernels. -/
noncomputable def aX (b : Box) (p d : V3) : ℝ := ((b.corner (decide (d.inv.x < 0))).x - p.x) * d.inv.x
open Classical in
noncomputable def bX (b : Box) (p d : V3) : ℝ := ((b.corner (!decide (d.inv.x < 0))).x - p.x) * d.inv.x
open Classical in
noncomputable def aY (b : Box) (p d : V3) : ℝ := ((b.corner (decide (d.inv.y < 0))).y - p.y) * d.inv.y
open Classical in
noncomputable def bY (b : Box) (p d : V3) : ℝ := ((b.corner (!decide (d.inv.y < 0))).y - p.y) * d.inv.y
open Classical in
noncomputable def aZ (b : Box) (p d : V3) : ℝ := ((b.corner (decide (d.inv.z < 0))).z - p.z) * d.inv.z
open Classical in
noncomputable def bZ (b : Box) (p d : V3) : ℝ := ((b.corner (!decide (d.inv.z < 0))).z - p.z) * d.inv.z

theorem corner_x (b : Box) (s : Bool) : (b.corner s).x = if s then b.hi.x else b.lo.x := by cases s <;> rfl
theorem corner_y (b : Box) (s : Bool) : (b.corner s).y = if s then b.hi.y else b.lo.y := by cases s <;> rfl
theorem corner_z (b : Box) (s : Bool) : (b.corner s).z = if s then b.hi.z else b.lo.z := by cases s <;> rfl

theorem inBox_at_iff_sign {b : Box} {p d : V3} {t : ℝ} (hd : Full d) :
    InBox b (V3.at' p d t) ↔
      (aX b p d ≤ t ∧ t ≤ bX b p d) ∧ (aY b p d ≤ t ∧ t ≤ bY b p d) ∧ (aZ b p d ≤ t ∧ t ≤ bZ b p d) := by
  unfold InBox aX bX aY bY aZ bZ
  rw [corner_x, corner_x, corner_y, corner_y, corner_z, corner_z]
  exact and_congr (slab_sign hd.1 _ decide_eq_true_iff)
    (and_congr (slab_sign hd.2.1 _ decide_eq_true_iff) (slab_sign hd.2.2 _ decide_eq_true_iff))

theorem axes_ordered {b : Box} {p d : V3} (hv : Valid b) (hd : Full d) :
    aX b p d ≤ bX b p d ∧ aY b p d ≤ bY b p d ∧ aZ b p d ≤ bZ b p d := by
  have key : ∀ (lo hi p d : ℝ), lo ≤ hi → d ≠ 0 → ∃ t, lo ≤ p + t * d ∧ p + t * d ≤ hi := by
    intro lo hi p d h hd
    refine ⟨(lo - p) / d, ?_⟩
    rw [div_mul_cancel₀ _ hd]
    constructor <;> linarith
  refine ⟨?_, ?_, ?_⟩
  · obtain ⟨t, ht⟩ := key b.lo.x b.hi.x p.x d.x hv.1 hd.1
    rw [slab_sign hd.1 _ decide_eq_true_iff] at ht
    unfold aX bX
    rw [corner_x, corner_x]
    exact ht.1.trans ht.2
  · obtain ⟨t, ht⟩ := key b.lo.y b.hi.y p.y d.y hv.2.1 hd.2.1
    rw [slab_sign hd.2.1 _ decide_eq_true_iff] at ht
    unfold aY bY
    rw [corner_y, corner_y]
    exact ht.1.trans ht.2
  · obtain ⟨t, ht⟩ := key b.lo.z b.hi.z p.z d.z hv.2.2 hd.2.2
    rw [slab_sign hd.2.2 _ decide_eq_true_iff] at ht
    unfold aZ bZ
    rw [corner_z, corner_z]
    exact ht.1.trans ht.2

open Classical in
/-- The kernels called the way all callers call them: with the inverse direction and its signs. -/
noncomputable def kernel2 (b : Box) (p d : V3) (t0 t1 : ℝ) : ℝ :=
  b.intersectCachedKernel2 p d.inv (decide (d.inv.x < 0)) (decide (d.inv.y < 0)) (decide (d.inv.z < 0)) t0 t1
open Classical in
noncomputable def kernel1 (b : Box) (p d : V3) (t0 t1 : ℝ) : ℝ :=
  b.intersectCachedKernel p d.inv (decide (d.inv.x < 0)) (decide (d.inv.y < 0)) (decide (d.inv.z < 0)) t0 t1
open Classical in
noncomputable def kernel0 (b : Box) (p d : V3) (t0 t1 : ℝ) : ℝ :=
  b.intersectCached p d.inv (decide (d.inv.x < 0)) (decide (d.inv.y < 0)) (decide (d.inv.z < 0)) t0 t1

open Classical in
theorem kernel2_eq (b : Box) (p d : V3) (t0 t1 : ℝ) : kernel2 b p d t0 t1 =
    if (((decide (aX b p d > bY b p d) || decide (aY b p d > bX b p d)) ||
      (decide (max (aX b p d) (aY b p d) > bZ b p d) || decide (aZ b p d > min (bX b p d) (bY b p d)))) ||
      !(decide (max (max (aX b p d) (aY b p d)) (aZ b p d) ≤ t1 + kTolerance) &&
        decide (min (min (bX b p d) (bY b p d)) (bZ b p d) > t0 - kTolerance))) = true
    then kInfLength else max (max (aX b p d) (aY b p d)) (aZ b p d) := rfl

/-- Entry parameter of the whole box. -/
theorem entry_mem {b : Box} {p d : V3} {t : ℝ} (hd : Full d) (hin : InBox b (V3.at' p d t)) :
    InBox b (V3.at' p d (max (max (aX b p d) (aY b p d)) (aZ b p d))) ∧
    ∀ s, InBox b (V3.at' p d s) → max (max (aX b p d) (aY b p d)) (aZ b p d) ≤ s := by
  rw [inBox_at_iff_sign hd] at hin
  obtain ⟨⟨x1, x2⟩, ⟨y1, y2⟩, ⟨z1, z2⟩⟩ := hin
  have hle : max (max (aX b p d) (aY b p d)) (aZ b p d) ≤ t := max_le (max_le x1 y1) z1
  refine ⟨?_, ?_⟩
  · rw [inBox_at_iff_sign hd]
    exact ⟨⟨le_trans (le_max_left _ _) (le_max_left _ _), hle.trans x2⟩,
      ⟨le_trans (le_max_right _ _) (le_max_left _ _), hle.trans y2⟩, ⟨le_max_right _ _, hle.trans z2⟩⟩
  · intro s hs
    rw [inBox_at_iff_sign hd] at hs
    exact max_le (max_le hs.1.1 hs.2.1.1) hs.2.2.1

theorem kernel2_hit {b : Box} {p d : V3} (hd : Full d) {t t0 t1 : ℝ} (h0 : t0 - kTolerance < t)
    (h1 : t ≤ t1 + kTolerance) (hin : InBox b (V3.at' p d t)) :
    (∀ s, InBox b (V3.at' p d s) → kernel2 b p d t0 t1 ≤ s) ∧ InBox b (V3.at' p d (kernel2 b p d t0 t1)) := by
  have he := entry_mem hd hin
  rw [inBox_at_iff_sign hd] at hin
  obtain ⟨⟨x1, x2⟩, ⟨y1, y2⟩, ⟨z1, z2⟩⟩ := hin
  have e : kernel2 b p d t0 t1 = max (max (aX b p d) (aY b p d)) (aZ b p d) := by
    rw [kernel2_eq, if_neg]
    simp only [Bool.or_eq_true, Bool.not_eq_true', Bool.and_eq_false_iff, decide_eq_true_eq, decide_eq_false_iff_not,
      gt_iff_lt, not_or, not_lt, not_le, not_not]
    refine ⟨⟨⟨x1.trans y2, y1.trans x2⟩, (max_le x1 y1).trans z2, z1.trans (le_min x2 y2)⟩, ?_, ?_⟩
    · exact (max_le (max_le x1 y1) z1).trans h1
    · exact lt_of_lt_of_le h0 (le_min (le_min x2 y2) z2)
  rw [e]
  exact ⟨he.2, he.1⟩

theorem kernel2_sound {b : Box} (hv : Valid b) {p d : V3} (hd : Full d) {t0 t1 : ℝ} (h01 : t0 ≤ t1)
    (hr : kernel2 b p d t0 t1 < kInfLength) :
    InBox b (V3.at' p d (kernel2 b p d t0 t1)) ∧
    ∃ t, t0 - kTolerance < t ∧ t ≤ t1 + kTolerance ∧ kernel2 b p d t0 t1 ≤ t ∧ InBox b (V3.at' p d t) := by
  obtain ⟨ox, oy, oz⟩ := axes_ordered (p := p) hv hd
  have htol := kTolerance_pos
  rw [kernel2_eq] at hr ⊢
  split at hr
  · exact absurd hr (lt_irrefl _)
  rename_i hn
  rw [if_neg hn]
  simp only [Bool.or_eq_true, Bool.not_eq_true', Bool.and_eq_false_iff, decide_eq_true_eq, decide_eq_false_iff_not,
      gt_iff_lt, not_or, not_lt, not_le, not_not] at hn
  obtain ⟨⟨⟨n1, n2⟩, n3, n4⟩, n5, n6⟩ := hn
  have n3a := (le_max_left _ _).trans n3
  have n3b := (le_max_right _ _).trans n3
  have n4a := n4.trans (min_le_left _ _)
  have n4b := n4.trans (min_le_right _ _)
  have n6a := lt_of_lt_of_le n6 (min_le_left _ _)
  have all : ∀ t, max (max (aX b p d) (aY b p d)) (aZ b p d) ≤ t → t ≤ min (min (bX b p d) (bY b p d)) (bZ b p d) →
      InBox b (V3.at' p d t) := by
    intro t h1 h2
    rw [inBox_at_iff_sign hd]
    simp only [max_le_iff, le_min_iff] at h1 h2
    exact ⟨⟨h1.1.1, h2.1.1⟩, ⟨h1.1.2, h2.1.2⟩, ⟨h1.2, h2.2⟩⟩
  have hmm : max (max (aX b p d) (aY b p d)) (aZ b p d) ≤ min (min (bX b p d) (bY b p d)) (bZ b p d) := by
    simp only [max_le_iff, le_min_iff]
    exact ⟨⟨⟨⟨ox, n2⟩, n4a⟩, ⟨n1, oy⟩, n4b⟩, ⟨n3a, n3b⟩, oz⟩
  refine ⟨all _ (le_refl _) hmm, ?_⟩
  refine ⟨min (min (min (bX b p d) (bY b p d)) (bZ b p d)) (t1 + kTolerance), ?_, min_le_right _ _, le_min hmm n5,
    all _ (le_min hmm n5) (min_le_left _ _)⟩
  exact lt_min n6 (by linarith)

open Classical in
theorem kernel1_eq (b : Box) (p d : V3) (t0 t1 : ℝ) : kernel1 b p d t0 t1 =
    if ((decide (aX b p d > bY b p d ∨ aY b p d > bX b p d) ||
      decide (max (aX b p d) (aY b p d) > bZ b p d ∨ aZ b p d > min (bX b p d) (bY b p d))) ||
      !decide (max (max (aX b p d) (aY b p d)) (aZ b p d) < t1 ∧ min (min (bX b p d) (bY b p d)) (bZ b p d) > t0)) = true
    then kInfLength else max (max (aX b p d) (aY b p d)) (aZ b p d) := rfl

open Classical in
theorem kernel0_eq (b : Box) (p d : V3) (t0 t1 : ℝ) : kernel0 b p d t0 t1 =
    if aX b p d > bY b p d ∨ aY b p d > bX b p d then kInfLength
    else if max (aX b p d) (aY b p d) > bZ b p d ∨ aZ b p d > min (bX b p d) (bY b p d) then kInfLength
    else if ¬ (max (max (aX b p d) (aY b p d)) (aZ b p d) < t1 ∧ min (min (bX b p d) (bY b p d)) (bZ b p d) > t0)
    then kInfLength else max (max (aX b p d) (aY b p d)) (aZ b p d) := by
  have m1 : ∀ u v : ℝ, (if v > u then v else u) = max u v := by
    intro u v
    split
    · rename_i h; rw [max_eq_right h.le]
    · rename_i h; rw [max_eq_left (not_lt.mp h)]
  have m2 : ∀ u v : ℝ, (if v < u then v else u) = min u v := by
    intro u v
    split
    · rename_i h; rw [min_eq_right h.le]
    · rename_i h; rw [min_eq_left (not_lt.mp h)]
  unfold kernel0 intersectCached
  simp only [m1, m2]
  rfl

theorem kernels_hit {b : Box} {p d : V3} (hd : Full d) {t t0 t1 : ℝ} (h0 : t0 < t) (h1 : t < t1)
    (hin : InBox b (V3.at' p d t)) :
    kernel0 b p d t0 t1 = kernel1 b p d t0 t1 ∧
    InBox b (V3.at' p d (kernel1 b p d t0 t1)) ∧ ∀ s, InBox b (V3.at' p d s) → kernel1 b p d t0 t1 ≤ s := by
  have he := entry_mem hd hin
  rw [inBox_at_iff_sign hd] at hin
  obtain ⟨⟨x1, x2⟩, ⟨y1, y2⟩, ⟨z1, z2⟩⟩ := hin
  have c1 : ¬ (aX b p d > bY b p d ∨ aY b p d > bX b p d) := by
    rw [not_or, not_lt, not_lt]; exact ⟨x1.trans y2, y1.trans x2⟩
  have c2 : ¬ (max (aX b p d) (aY b p d) > bZ b p d ∨ aZ b p d > min (bX b p d) (bY b p d)) := by
    rw [not_or, not_lt, not_lt]; exact ⟨(max_le x1 y1).trans z2, z1.trans (le_min x2 y2)⟩
  have c3 : max (max (aX b p d) (aY b p d)) (aZ b p d) < t1 ∧ min (min (bX b p d) (bY b p d)) (bZ b p d) > t0 :=
    ⟨lt_of_le_of_lt (max_le (max_le x1 y1) z1) h1, lt_of_lt_of_le h0 (le_min (le_min x2 y2) z2)⟩
  have e1 : kernel1 b p d t0 t1 = max (max (aX b p d) (aY b p d)) (aZ b p d) := by
    rw [kernel1_eq, if_neg]
    rw [decide_eq_false c1, decide_eq_false c2, decide_eq_true c3]
    simp
  have e0 : kernel0 b p d t0 t1 = max (max (aX b p d) (aY b p d)) (aZ b p d) := by
    rw [kernel0_eq, if_neg c1, if_neg c2, if_neg (not_not.mpr c3)]
  rw [e0, e1]
  exact ⟨rfl, he.1, he.2⟩

theorem williams_iff {b : Box} (hv : Valid b) {p d : V3} (hd : Full d) :
    b.intersectWilliams p d = some true ↔ ∃ t, InBox b (V3.at' p d t) := by
  obtain ⟨ox, oy, oz⟩ := axes_ordered (p := p) hv hd
  have m1 : ∀ u v : ℝ, (if v > u then v else u) = max u v := by
    intro u v
    split
    · rename_i h; rw [max_eq_right h.le]
    · rename_i h; rw [max_eq_left (not_lt.mp h)]
  have m2 : ∀ u v : ℝ, (if v < u then v else u) = min u v := by
    intro u v
    split
    · rename_i h; rw [min_eq_right h.le]
    · rename_i h; rw [min_eq_left (not_lt.mp h)]
  have e : b.intersectWilliams p d = some true ↔
      ¬ (aX b p d > bY b p d ∨ aY b p d > bX b p d) ∧
      ¬ (max (aX b p d) (aY b p d) > bZ b p d ∨ aZ b p d > min (bX b p d) (bY b p d)) := by
    unfold intersectWilliams
    rw [if_neg (by rw [not_or, not_or]; exact hd)]
    simp only [m1, m2]
    change (if aX b p d > bY b p d ∨ aY b p d > bX b p d then some false
      else if max (aX b p d) (aY b p d) > bZ b p d ∨ aZ b p d > min (bX b p d) (bY b p d) then some false
      else some true) = some true ↔ _
    split
    · rename_i h; simp [h]
    · rename_i h
      split
      · rename_i h'; exact ⟨fun hh => by simp at hh, fun hh => absurd h' hh.2⟩
      · rename_i h'; exact ⟨fun _ => ⟨h, h'⟩, fun _ => rfl⟩
  rw [e]
  constructor
  · rintro ⟨h1, h2⟩
    rw [not_or, not_lt, not_lt] at h1 h2
    refine ⟨max (max (aX b p d) (aY b p d)) (aZ b p d), ?_⟩
    rw [inBox_at_iff_sign hd]
    have a1 := (le_max_left _ _).trans h2.1
    have a2 := (le_max_right _ _).trans h2.1
    have a3 := h2.2.trans (min_le_left _ _)
    have a4 := h2.2.trans (min_le_right _ _)
    refine ⟨⟨?_, ?_⟩, ⟨?_, ?_⟩, ⟨?_, ?_⟩⟩
    · exact le_trans (le_max_left _ _) (le_max_left _ _)
    · exact max_le (max_le ox h1.2) a3
    · exact le_trans (le_max_right _ _) (le_max_left _ _)
    · exact max_le (max_le h1.1 oy) a4
    · exact le_max_right _ _
    · exact max_le (max_le a1 a2) oz
  · rintro ⟨t, ht⟩
    rw [inBox_at_iff_sign hd] at ht
    obtain ⟨⟨x1, x2⟩, ⟨y1, y2⟩, ⟨z1, z2⟩⟩ := ht
    rw [not_or, not_lt, not_lt, not_or, not_lt, not_lt]
    exact ⟨⟨x1.trans y2, y1.trans x2⟩, (max_le x1 y1).trans z2, z1.trans (le_min x2 y2)⟩

/-! ### squared safeties -/

/-- Contribution of one axis to the squared safety. -/
noncomputable def axisSqr (s : ℝ) : ℝ := (max s 0) * (max s 0)

open Classical in
theorem ite_axisSqr (s : ℝ) : (if (decide (s > 0)) = true then s * s else 0) = axisSqr s := by
  unfold axisSqr
  split
  · rename_i h
    rw [max_eq_left (decide_eq_true_eq.mp h).le]
  · rename_i h
    rw [max_eq_right (not_lt.mp (fun h' => h (decide_eq_true h')))]; simp

open Classical in
theorem safetySqr_eq (b : Box) (p : V3) : b.safetySqr p =
    if InBox b p then
      -(max (max (max (-kInfLength) (b.safetyVec p).x) (b.safetyVec p).y) (b.safetyVec p).z) *
        (max (max (max (-kInfLength) (b.safetyVec p).x) (b.safetyVec p).y) (b.safetyVec p).z)
    else axisSqr (b.safetyVec p).x + axisSqr (b.safetyVec p).y + axisSqr (b.safetyVec p).z := by
  unfold safetySqr
  simp only [ite_axisSqr, zero_add]
  rw [← safetyVec_nonpos]
  congr 1
  simp [not_or, and_assoc]

theorem axisSqr_le {s u : ℝ} (h : s ≤ |u|) : axisSqr s ≤ u ^ 2 := by
  unfold axisSqr
  rw [← sq_abs]
  have h1 : max s 0 ≤ |u| := max_le h (abs_nonneg _)
  have h2 : 0 ≤ max s 0 := le_max_right _ _
  nlinarith

theorem axisSqr_nonneg (s : ℝ) : 0 ≤ axisSqr s := mul_self_nonneg _

theorem axisSqr_pos {s : ℝ} (h : 0 < s) : 0 < axisSqr s := by
  unfold axisSqr; rw [max_eq_left h.le]; positivity

/-- The closest coordinate of an interval. -/
theorem axis_attained {lo hi p : ℝ} (h : lo ≤ hi) :
    ∃ q, lo ≤ q ∧ q ≤ hi ∧ (p - q) ^ 2 = axisSqr (|p - 1 / 2 * (hi + lo)| - 1 / 2 * (hi - lo)) := by
  rcases lt_or_ge p lo with h1 | h1
  · refine ⟨lo, le_refl _, h, ?_⟩
    rw [abs_of_neg (by linarith), axisSqr, max_eq_left (by linarith)]
    ring
  · rcases lt_or_ge hi p with h2 | h2
    · refine ⟨hi, h, le_refl _, ?_⟩
      rw [abs_of_pos (by linarith), axisSqr, max_eq_left (by linarith)]
      ring
    · refine ⟨p, h1, h2, ?_⟩
      rw [axisSqr, max_eq_right (axis_nonpos.mpr ⟨h1, h2⟩)]
      ring

theorem safetySqr_outside {b : Box} (hv : Valid b) {p : V3} (hp : ¬ InBox b p) :
    0 < b.safetySqr p ∧ (∀ q, InBox b q → b.safetySqr p ≤ V3.dist2 p q) ∧
    ∃ q, InBox b q ∧ V3.dist2 p q = b.safetySqr p := by
  rw [safetySqr_eq, if_neg hp]
  refine ⟨?_, ?_, ?_⟩
  · have n1 := axisSqr_nonneg (b.safetyVec p).x
    have n2 := axisSqr_nonneg (b.safetyVec p).y
    have n3 := axisSqr_nonneg (b.safetyVec p).z
    rw [← safetyVec_nonpos, not_and_or, not_and_or, not_le, not_le, not_le] at hp
    rcases hp with h | h | h <;> have := axisSqr_pos h <;> linarith
  · intro q hq
    obtain ⟨h1, h2, h3⟩ := safetyVec_le (p := p) hq
    have := axisSqr_le h1
    have := axisSqr_le h2
    have := axisSqr_le h3
    unfold V3.dist2
    linarith
  · obtain ⟨x, x1, x2, x3⟩ := axis_attained (p := p.x) hv.1
    obtain ⟨y, y1, y2, y3⟩ := axis_attained (p := p.y) hv.2.1
    obtain ⟨z, z1, z2, z3⟩ := axis_attained (p := p.z) hv.2.2
    refine ⟨⟨x, y, z⟩, ⟨⟨x1, x2⟩, ⟨y1, y2⟩, ⟨z1, z2⟩⟩, ?_⟩
    unfold V3.dist2
    dsimp only
    rw [x3, y3, z3]
    rfl

theorem safetySqr_inside {b : Box} {p : V3} (hp : InBox b p) :
    b.safetySqr p ≤ 0 ∧ ∀ q, V3.dist2 p q ≤ -b.safetySqr p → InBox b q := by
  rw [safetySqr_eq, if_pos hp]
  set m := max (max (max (-kInfLength) (b.safetyVec p).x) (b.safetyVec p).y) (b.safetyVec p).z with hm
  obtain ⟨n1, n2, n3⟩ := safetyVec_nonpos.mpr hp
  have hm0 : m ≤ 0 := max_le (max_le (max_le (by have := kInfLength_pos; linarith) n1) n2) n3
  have hx : (b.safetyVec p).x ≤ m := le_trans (le_max_right _ _) (le_trans (le_max_left _ _) (le_max_left _ _))
  have hy : (b.safetyVec p).y ≤ m := le_trans (le_max_right _ _) (le_max_left _ _)
  have hz : (b.safetyVec p).z ≤ m := le_max_right _ _
  refine ⟨by nlinarith, ?_⟩
  intro q hq
  have key : ∀ lo hi p q : ℝ, |p - 1 / 2 * (hi + lo)| - 1 / 2 * (hi - lo) ≤ m → (p - q) ^ 2 ≤ m * m → lo ≤ q ∧ q ≤ hi := by
    intro lo hi p q h1 h2
    have h3 : |p - q| ≤ -m := by
      apply abs_le_of_sq_le_sq _ (by linarith)
      nlinarith
    have a1 := le_abs_self (p - 1 / 2 * (hi + lo))
    have a2 := neg_abs_le (p - 1 / 2 * (hi + lo))
    have a3 := le_abs_self (p - q)
    have a4 := neg_abs_le (p - q)
    constructor <;> linarith
  unfold V3.dist2 at hq
  have s1 := sq_nonneg (p.x - q.x)
  have s2 := sq_nonneg (p.y - q.y)
  have s3 := sq_nonneg (p.z - q.z)
  exact ⟨key _ _ _ _ hx (by linarith), key _ _ _ _ hy (by linarith), key _ _ _ _ hz (by linarith)⟩

theorem range_upper {b : Box} {p q : V3} (hq : InBox b q) : V3.dist2 p q ≤ (b.safetyRangeSqr p).2 := by
  have key : ∀ lo hi p q : ℝ, lo ≤ q → q ≤ hi →
      (p - q) ^ 2 ≤ (|p - 1 / 2 * (hi + lo)| + 1 / 2 * (hi - lo)) * (|p - 1 / 2 * (hi + lo)| + 1 / 2 * (hi - lo)) := by
    intro lo hi p q h1 h2
    have a1 := le_abs_self (p - 1 / 2 * (hi + lo))
    have a2 := neg_abs_le (p - 1 / 2 * (hi + lo))
    rw [← sq]
    apply sq_le_sq.mpr
    rw [abs_of_nonneg (a := |p - 1 / 2 * (hi + lo)| + 1 / 2 * (hi - lo)) (by have := abs_nonneg (p - 1 / 2 * (hi + lo)); linarith)]
    rw [abs_le]; constructor <;> linarith
  have kx := key _ _ p.x q.x hq.1.1 hq.1.2
  have ky := key _ _ p.y q.y hq.2.1.1 hq.2.1.2
  have kz := key _ _ p.z q.z hq.2.2.1 hq.2.2.2
  unfold V3.dist2
  change _ ≤ _ + _ + _
  exact add_le_add (add_le_add kx ky) kz

end AABB
end VecGeom

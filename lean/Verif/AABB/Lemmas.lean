import Verif.AABB.Spec
import Verif.Transform.Props
import Mathlib.Tactic.Positivity
import Mathlib.Tactic.FieldSimp

/-!
# Lemmas on aligned boxes
-/

namespace VecGeom
namespace AABB

open Box

theorem InBox.valid {b : Box} {q : V3} (h : InBox b q) : Valid b :=
  ⟨h.1.1.trans h.1.2, h.2.1.1.trans h.2.1.2, h.2.2.1.trans h.2.2.2⟩

theorem nonZero_full (d : V3) : Full d.nonZero :=
  ⟨VecGeom.nonZero_ne _, VecGeom.nonZero_ne _, VecGeom.nonZero_ne _⟩

/-! ### slabs -/

/-- One axis: the parameter interval of a ray in a slab, as computed with `ord`. -/
theorem slab_ord {a b p d t : ℝ} (hab : a ≤ b) (hd : d ≠ 0) :
    (a ≤ p + t * d ∧ p + t * d ≤ b) ↔
      (ord ((a - p) * (1 / d)) ((b - p) * (1 / d))).1 ≤ t ∧ t ≤ (ord ((a - p) * (1 / d)) ((b - p) * (1 / d))).2 := by
  rcases lt_or_gt_of_ne hd with h | h
  · have hle : (b - p) * (1 / d) ≤ (a - p) * (1 / d) :=
      mul_le_mul_of_nonpos_right (by linarith) (by rw [one_div]; exact (inv_lt_zero.mpr h).le)
    have e : ord ((a - p) * (1 / d)) ((b - p) * (1 / d)) = ((b - p) * (1 / d), (a - p) * (1 / d)) := by
      unfold ord
      split
      · rfl
      · rename_i hn
        rw [le_antisymm (not_lt.mp hn) hle]
    rw [e, mul_one_div, mul_one_div]
    dsimp only
    rw [div_le_iff_of_neg h, le_div_iff_of_neg h]
    constructor
    · rintro ⟨h1, h2⟩; constructor <;> linarith
    · rintro ⟨h1, h2⟩; constructor <;> linarith
  · have hle : (a - p) * (1 / d) ≤ (b - p) * (1 / d) :=
      mul_le_mul_of_nonneg_right (by linarith) (by positivity)
    have e : ord ((a - p) * (1 / d)) ((b - p) * (1 / d)) = ((a - p) * (1 / d), (b - p) * (1 / d)) := by
      unfold ord
      rw [if_neg (not_lt.mpr hle)]
    rw [e, mul_one_div, mul_one_div]
    dsimp only
    rw [div_le_iff₀ h, le_div_iff₀ h]
    constructor
    · rintro ⟨h1, h2⟩; constructor <;> linarith
    · rintro ⟨h1, h2⟩; constructor <;> linarith

/-- One axis: the entry and exit parameters computed with the sign of the inverse direction. -/
theorem slab_sign {a b p d t : ℝ} (hd : d ≠ 0) (s : Bool) (hs : s = true ↔ 1 / d < 0) :
    (a ≤ p + t * d ∧ p + t * d ≤ b) ↔
      ((if s then b else a) - p) * (1 / d) ≤ t ∧ t ≤ ((if !s then b else a) - p) * (1 / d) := by
  rcases lt_or_gt_of_ne hd with h | h
  · have hi : 1 / d < 0 := by rw [one_div]; exact inv_lt_zero.mpr h
    rw [hs.mpr hi]
    simp only [if_true, Bool.not_true, Bool.false_eq_true, if_false]
    rw [mul_one_div, mul_one_div, div_le_iff_of_neg h, le_div_iff_of_neg h]
    constructor
    · rintro ⟨h1, h2⟩; constructor <;> linarith
    · rintro ⟨h1, h2⟩; constructor <;> linarith
  · have hi : ¬ 1 / d < 0 := by rw [not_lt]; positivity
    have hs' : s = false := by
      cases s with
      | false => rfl
      | true => exact absurd (hs.mp rfl) hi
    rw [hs']
    simp only [Bool.not_false, Bool.false_eq_true, if_false, if_true]
    rw [mul_one_div, mul_one_div, div_le_iff₀ h, le_div_iff₀ h]
    constructor
    · rintro ⟨h1, h2⟩; constructor <;> linarith
    · rintro ⟨h1, h2⟩; constructor <;> linarith

/-- The parameter interval without the stretching factor. -/
noncomputable def tIn (b : Box) (p d : V3) : ℝ := (b.computeIntersectionInvDir p d.inv).1
noncomputable def tOut (b : Box) (p d : V3) : ℝ :=
  V3.minc ⟨(ord ((b.lo - p).mul d.inv).x ((b.hi - p).mul d.inv).x).2,
           (ord ((b.lo - p).mul d.inv).y ((b.hi - p).mul d.inv).y).2,
           (ord ((b.lo - p).mul d.inv).z ((b.hi - p).mul d.inv).z).2⟩

theorem computeIntersectionInvDir_snd (b : Box) (p d : V3) :
    (b.computeIntersectionInvDir p d.inv).2 = tOut b p d * (1 + 2 * kEpsilon) := rfl

theorem inBox_at_iff {b : Box} {p d : V3} {t : ℝ} (hv : Valid b) (hd : Full d) :
    InBox b (V3.at' p d t) ↔ tIn b p d ≤ t ∧ t ≤ tOut b p d := by
  unfold tIn tOut computeIntersectionInvDir InBox
  dsimp only
  rw [V3.maxc_le, V3.le_minc, V3.at_x, V3.at_y, V3.at_z, slab_ord hv.1 hd.1, slab_ord hv.2.1 hd.2.1,
    slab_ord hv.2.2 hd.2.2]
  simp only [V3.mul_x, V3.mul_y, V3.mul_z, V3.sub_x, V3.sub_y, V3.sub_z, V3.inv_x, V3.inv_y, V3.inv_z]
  tauto

theorem stretch_pos : 0 < 1 + 2 * kEpsilon := by have := kEpsilon_pos; linarith

/-! ### affine maps on a box -/

/-- A linear form plus a constant on an interval product is at least its value at a suitable corner. -/
theorem axis_min {a b x k : ℝ} (h1 : a ≤ x) (h2 : x ≤ b) : k * a ≤ k * x ∨ k * b ≤ k * x := by
  rcases le_total 0 k with h | h
  · exact Or.inl (mul_le_mul_of_nonneg_left h1 h)
  · exact Or.inr (mul_le_mul_of_nonpos_left h2 h)

/-- The list of the eight corners of a box. -/
def corners (e : Box) : List V3 :=
  [⟨e.lo.x, e.lo.y, e.lo.z⟩, ⟨e.lo.x, e.lo.y, e.hi.z⟩, ⟨e.lo.x, e.hi.y, e.lo.z⟩, ⟨e.lo.x, e.hi.y, e.hi.z⟩,
   ⟨e.hi.x, e.lo.y, e.lo.z⟩, ⟨e.hi.x, e.lo.y, e.hi.z⟩, ⟨e.hi.x, e.hi.y, e.lo.z⟩, ⟨e.hi.x, e.hi.y, e.hi.z⟩]

theorem linear_ge_corner {e : Box} {q : V3} (hq : InBox e q) (k1 k2 k3 : ℝ) :
    ∃ c ∈ corners e, k1 * c.x + k2 * c.y + k3 * c.z ≤ k1 * q.x + k2 * q.y + k3 * q.z := by
  rcases axis_min (k := k1) hq.1.1 hq.1.2 with hx | hx <;>
  rcases axis_min (k := k2) hq.2.1.1 hq.2.1.2 with hy | hy <;>
  rcases axis_min (k := k3) hq.2.2.1 hq.2.2.2 with hz | hz
  · exact ⟨⟨e.lo.x, e.lo.y, e.lo.z⟩, by simp [corners], by linarith⟩
  · exact ⟨⟨e.lo.x, e.lo.y, e.hi.z⟩, by simp [corners], by linarith⟩
  · exact ⟨⟨e.lo.x, e.hi.y, e.lo.z⟩, by simp [corners], by linarith⟩
  · exact ⟨⟨e.lo.x, e.hi.y, e.hi.z⟩, by simp [corners], by linarith⟩
  · exact ⟨⟨e.hi.x, e.lo.y, e.lo.z⟩, by simp [corners], by linarith⟩
  · exact ⟨⟨e.hi.x, e.lo.y, e.hi.z⟩, by simp [corners], by linarith⟩
  · exact ⟨⟨e.hi.x, e.hi.y, e.lo.z⟩, by simp [corners], by linarith⟩
  · exact ⟨⟨e.hi.x, e.hi.y, e.hi.z⟩, by simp [corners], by linarith⟩

theorem linear_le_corner {e : Box} {q : V3} (hq : InBox e q) (k1 k2 k3 : ℝ) :
    ∃ c ∈ corners e, k1 * q.x + k2 * q.y + k3 * q.z ≤ k1 * c.x + k2 * c.y + k3 * c.z := by
  obtain ⟨c, hc, h⟩ := linear_ge_corner hq (-k1) (-k2) (-k3)
  exact ⟨c, hc, by linarith⟩

/-- A box that contains the images of the corners contains the image of every point. -/
theorem inverseTransform_inBox {T : Trans3} {e r : Box} {q : V3} (hq : InBox e q)
    (hc : ∀ c ∈ corners e, InBox r (T.inverseTransform c)) : InBox r (T.inverseTransform q) := by
  refine ⟨⟨?_, ?_⟩, ⟨?_, ?_⟩, ⟨?_, ?_⟩⟩
  · obtain ⟨c, h, hl⟩ := linear_ge_corner hq T.r0 T.r1 T.r2
    have := (hc c h).1.1
    simp only [Trans3.inverseTransform] at this ⊢
    linarith
  · obtain ⟨c, h, hl⟩ := linear_le_corner hq T.r0 T.r1 T.r2
    have := (hc c h).1.2
    simp only [Trans3.inverseTransform] at this ⊢
    linarith
  · obtain ⟨c, h, hl⟩ := linear_ge_corner hq T.r3 T.r4 T.r5
    have := (hc c h).2.1.1
    simp only [Trans3.inverseTransform] at this ⊢
    linarith
  · obtain ⟨c, h, hl⟩ := linear_le_corner hq T.r3 T.r4 T.r5
    have := (hc c h).2.1.2
    simp only [Trans3.inverseTransform] at this ⊢
    linarith
  · obtain ⟨c, h, hl⟩ := linear_ge_corner hq T.r6 T.r7 T.r8
    have := (hc c h).2.2.1
    simp only [Trans3.inverseTransform] at this ⊢
    linarith
  · obtain ⟨c, h, hl⟩ := linear_le_corner hq T.r6 T.r7 T.r8
    have := (hc c h).2.2.2
    simp only [Trans3.inverseTransform] at this ⊢
    linarith

/-! ### running minima and maxima -/

theorem foldl_accum_mono (l : List V3) (a : Box) :
    (l.foldl accum a).lo.x ≤ a.lo.x ∧ (l.foldl accum a).lo.y ≤ a.lo.y ∧ (l.foldl accum a).lo.z ≤ a.lo.z ∧
    a.hi.x ≤ (l.foldl accum a).hi.x ∧ a.hi.y ≤ (l.foldl accum a).hi.y ∧ a.hi.z ≤ (l.foldl accum a).hi.z := by
  induction l generalizing a with
  | nil => simp
  | cons c l ih =>
    obtain ⟨h1, h2, h3, h4, h5, h6⟩ := ih (accum a c)
    refine ⟨h1.trans (min_le_left _ _), h2.trans (min_le_left _ _), h3.trans (min_le_left _ _),
      le_trans (le_max_left _ _) h4, le_trans (le_max_left _ _) h5, le_trans (le_max_left _ _) h6⟩

theorem foldl_accum_mem (l : List V3) (a : Box) {c : V3} (hc : c ∈ l) : InBox (l.foldl accum a) c := by
  induction l generalizing a with
  | nil => simp at hc
  | cons c' l ih =>
    rcases List.mem_cons.mp hc with rfl | h
    · obtain ⟨h1, h2, h3, h4, h5, h6⟩ := foldl_accum_mono l (accum a c)
      exact ⟨⟨h1.trans (min_le_right _ _), le_trans (le_max_right _ _) h4⟩,
        ⟨h2.trans (min_le_right _ _), le_trans (le_max_right _ _) h5⟩,
        ⟨h3.trans (min_le_right _ _), le_trans (le_max_right _ _) h6⟩⟩
    · exact ih _ h

/-- Each face of the accumulated box is the start value or touches one of the points. -/
theorem foldl_accum_tight (l : List V3) (a : Box) :
    ((l.foldl accum a).lo.x = a.lo.x ∨ ∃ c ∈ l, (l.foldl accum a).lo.x = c.x) ∧
    ((l.foldl accum a).lo.y = a.lo.y ∨ ∃ c ∈ l, (l.foldl accum a).lo.y = c.y) ∧
    ((l.foldl accum a).lo.z = a.lo.z ∨ ∃ c ∈ l, (l.foldl accum a).lo.z = c.z) ∧
    ((l.foldl accum a).hi.x = a.hi.x ∨ ∃ c ∈ l, (l.foldl accum a).hi.x = c.x) ∧
    ((l.foldl accum a).hi.y = a.hi.y ∨ ∃ c ∈ l, (l.foldl accum a).hi.y = c.y) ∧
    ((l.foldl accum a).hi.z = a.hi.z ∨ ∃ c ∈ l, (l.foldl accum a).hi.z = c.z) := by
  induction l generalizing a with
  | nil => simp
  | cons c l ih =>
    obtain ⟨h1, h2, h3, h4, h5, h6⟩ := ih (accum a c)
    have key : ∀ (v m : ℝ) (f : V3 → ℝ) (_ : v = m ∨ ∃ c ∈ l, v = f c) (u : ℝ) (_ : m = u ∨ m = f c),
        v = u ∨ ∃ c' ∈ c :: l, v = f c' := by
      intro v m f h u hm
      rcases h with h | ⟨c', hc', h⟩
      · rcases hm with hm | hm
        · exact Or.inl (h.trans hm)
        · exact Or.inr ⟨c, by simp, h.trans hm⟩
      · exact Or.inr ⟨c', by simp [hc'], h⟩
    exact ⟨key _ _ V3.x h1 _ (min_choice _ _), key _ _ V3.y h2 _ (min_choice _ _), key _ _ V3.z h3 _ (min_choice _ _),
      key _ _ V3.x h4 _ (max_choice _ _), key _ _ V3.y h5 _ (max_choice _ _), key _ _ V3.z h6 _ (max_choice _ _)⟩

theorem cornerIdx_map (T : Trans3) (e : Box) :
    cornerIdx.map (transformedCorner T e) = (corners e).map T.inverseTransform := by
  have hx : e.lo.x + 1 * (e.hi.x - e.lo.x) = e.hi.x := by ring
  have hy : e.lo.y + 1 * (e.hi.y - e.lo.y) = e.hi.y := by ring
  have hz : e.lo.z + 1 * (e.hi.z - e.lo.z) = e.hi.z := by ring
  simp only [cornerIdx, corners, List.map_cons, List.map_nil, transformedCorner, V3.sub_x, V3.sub_y, V3.sub_z, hx, hy,
    hz, zero_mul, add_zero]

/-! ### slices -/

theorem sliceTrans_apply (T : Trans3) (dim : Nat) (val : ℝ) (l : V3) :
    (sliceTrans T dim val).inverseTransform l = T.inverseTransform (l + onAxis dim val) := by
  ext
  · simp only [sliceTrans, Trans3.setProperties, Trans3.setRotation9, Trans3.setTranslation, Trans3.inverseTransform,
      V3.add_x, V3.add_y, V3.add_z]
    ring
  · simp only [sliceTrans, Trans3.setProperties, Trans3.setRotation9, Trans3.setTranslation, Trans3.inverseTransform,
      V3.add_x, V3.add_y, V3.add_z]
    ring
  · simp only [sliceTrans, Trans3.setProperties, Trans3.setRotation9, Trans3.setTranslation, Trans3.inverseTransform,
      V3.add_x, V3.add_y, V3.add_z]
    ring

theorem sliceLoop_length (T : Trans3) (dim : Nat) (split : V3) (step : ℝ) (n : Nat) (val : ℝ) :
    (sliceLoop T dim split step n val).length = n := by
  induction n generalizing val with
  | zero => rfl
  | succ n ih => simp [sliceLoop, ih]

theorem sliceLoop_get (T : Trans3) (dim : Nat) (split : V3) (step : ℝ) (n : Nat) (val : ℝ) (i : Nat) (hi : i < n) :
    computeABBox (sliceTrans T dim (val + i * step)) (boxExtent ⟨split.x / 2, split.y / 2, split.z / 2⟩) ∈
      sliceLoop T dim split step n val := by
  induction n generalizing val i with
  | zero => omega
  | succ n ih =>
    cases i with
    | zero => simp [sliceLoop]
    | succ i =>
      have := ih (val + step) i (by omega)
      rw [sliceLoop]
      refine List.mem_cons_of_mem _ ?_
      rw [show val + ((i + 1 : Nat) : ℝ) * step = val + step + i * step by push_cast; ring]
      exact this

/-- A point of an interval of length `len` centred at 0 lies in one of its `n` equal pieces. -/
theorem slice_exists {len x : ℝ} {n : Nat} (hn : 0 < n) (h1 : -len / 2 ≤ x) (h2 : x ≤ len / 2) :
    ∃ i, i < n ∧ -(len / n / 2) ≤ x - (-len / 2 + len / n / 2 + i * (len / n)) ∧
      x - (-len / 2 + len / n / 2 + i * (len / n)) ≤ len / n / 2 := by
  have hn' : (0 : ℝ) < n := by exact_mod_cast hn
  have hlen : 0 ≤ len := by linarith
  rcases hlen.eq_or_lt with h0 | h0
  · refine ⟨0, hn, ?_⟩
    rw [← h0] at h1 h2 ⊢
    simp only [neg_zero, zero_div] at h1 h2 ⊢
    norm_num
    exact ⟨h1, h2⟩
  · have hs : 0 < len / n := by positivity
    by_cases hx : x = len / 2
    · refine ⟨n - 1, by omega, ?_⟩
      have hc : ((n - 1 : Nat) : ℝ) = n - 1 := by
        rw [Nat.cast_sub hn]; simp
      have e : (n : ℝ) * (len / n) = len := by field_simp
      rw [hc, hx]
      constructor <;> nlinarith
    · have hlt : x < len / 2 := lt_of_le_of_ne h2 hx
      have hq : 0 ≤ (x + len / 2) / (len / n) := by
        apply div_nonneg _ hs.le
        linarith
      refine ⟨⌊(x + len / 2) / (len / n)⌋₊, ?_, ?_⟩
      · rw [Nat.floor_lt hq, div_lt_iff₀ hs]
        have e : (n : ℝ) * (len / n) = len := by field_simp
        linarith
      · have hf1 := Nat.floor_le hq
        have hf2 := Nat.lt_floor_add_one ((x + len / 2) / (len / n))
        rw [le_div_iff₀ hs] at hf1
        rw [div_lt_iff₀ hs] at hf2
        constructor <;> linarith

/-! ### distances -/

theorem safetyVec_le {b : Box} {p q : V3} (hq : InBox b q) :
    (b.safetyVec p).x ≤ |p.x - q.x| ∧ (b.safetyVec p).y ≤ |p.y - q.y| ∧ (b.safetyVec p).z ≤ |p.z - q.z| := by
  have key : ∀ lo hi p q : ℝ, lo ≤ q → q ≤ hi → |p - 1 / 2 * (hi + lo)| - 1 / 2 * (hi - lo) ≤ |p - q| := by
    intro lo hi p q h1 h2
    have := le_abs_self (p - q)
    have := neg_abs_le (p - q)
    have : |p - 1 / 2 * (hi + lo)| ≤ |p - q| + 1 / 2 * (hi - lo) := by
      rw [abs_le]; constructor <;> linarith
    linarith
  exact ⟨key _ _ _ _ hq.1.1 hq.1.2, key _ _ _ _ hq.2.1.1 hq.2.1.2, key _ _ _ _ hq.2.2.1 hq.2.2.2⟩

theorem safety_eq (b : Box) (p : V3) : b.safety p = V3.maxc (b.safetyVec p) := rfl

theorem axis_nonpos {lo hi p : ℝ} : |p - 1 / 2 * (hi + lo)| - 1 / 2 * (hi - lo) ≤ 0 ↔ lo ≤ p ∧ p ≤ hi := by
  rw [sub_nonpos, abs_le]
  constructor
  · rintro ⟨h1, h2⟩; constructor <;> linarith
  · rintro ⟨h1, h2⟩; constructor <;> linarith

theorem safetyVec_nonpos {b : Box} {p : V3} :
    ((b.safetyVec p).x ≤ 0 ∧ (b.safetyVec p).y ≤ 0 ∧ (b.safetyVec p).z ≤ 0) ↔ InBox b p := by
  unfold InBox
  rw [← axis_nonpos, ← axis_nonpos, ← axis_nonpos]
  rfl

end AABB
end VecGeom

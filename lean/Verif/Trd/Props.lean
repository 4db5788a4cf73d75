import Verif.Trd.Lemmas

/-!
# C68: membership and safety of the trapezoid with rectangular bases
-/

namespace VecGeom
namespace Trd

/-- The states that constructors and setters produce, with the kind of the solid. -/
def Reachable (k : Kind) (s : State) : Prop :=
  ∃ (m : State) (x1 x2 y1 y2 z : ℝ) (l : List Setter), s = (l.foldl set (create k m x1 x2 y1 y2 z)).trd

/-- The kernels for constant `y` are used only for solids with constant `y`. -/
def Fits (k : Kind) (s : State) : Prop := k = .trd1 → s.dy1 = s.dy2

theorem Reachable.cached {k : Kind} {s : State} (hs : Reachable k s) : Cached s := by
  obtain ⟨m, x1, x2, y1, y2, z, l, rfl⟩ := hs
  have key : ∀ (l : List Setter) (s : Solid), Cached s.trd → Cached (l.foldl set s).trd := by
    intro l
    induction l with
    | nil => intro s h; exact h
    | cons a l ih => intro s h; exact ih _ (by cases a <;> rfl)
  exact key l _ rfl

/-- The solid used in the examples: bases 2 × 4 and 6 × 10 at heights -2 and 2, set in several steps. -/
noncomputable def sample (m : State) : State :=
  ([Setter.x1 1, Setter.x2 3, Setter.y1 2, Setter.z 2].foldl set (create .trd2 m 7 7 7 5 7)).trd

theorem sample_reachable (m : State) : Reachable .trd2 (sample m) := ⟨m, _, _, _, _, _, _, rfl⟩
theorem sample_shape (m : State) : shape (sample m) = ⟨1, 3, 2, 5, 2⟩ := rfl
theorem sample_proper (m : State) : Proper (shape (sample m)) := by rw [sample_shape]; norm_num [Proper]
theorem sample_fits (m : State) : Fits .trd2 (sample m) := by intro h; cases h

/-- The solid used in the examples for constant `y`. -/
noncomputable def sample1 (m : State) : State := ([Setter.x1 1, Setter.z 2].foldl set (create .trd1 m 7 3 4 4 7)).trd
theorem sample1_reachable (m : State) : Reachable .trd1 (sample1 m) := ⟨m, _, _, _, _, _, _, rfl⟩
theorem sample1_shape (m : State) : shape (sample1 m) = ⟨1, 3, 4, 4, 2⟩ := rfl
theorem sample1_proper (m : State) : Proper (shape (sample1 m)) := by rw [sample1_shape]; norm_num [Proper]
theorem sample1_fits (m : State) : Fits .trd1 (sample1 m) := fun _ => rfl

section const
variable {s : State} (h : s.dy1 = s.dy2)
include h
theorem ty_zero : (shape s).ty = 0 := by
  show (s.dy1 - s.dy2) / _ = 0
  rw [h, sub_self, zero_div]
theorem root_ty : Real.sqrt (1 + (shape s).ty ^ 2) = 1 := by rw [ty_zero h]; norm_num
theorem wy_const (c : ℝ) : (shape s).wy c = s.dy1 := by
  show s.dy1 + (s.dy2 - s.dy1) * _ = _
  rw [h, sub_self, zero_mul, add_zero]
theorem hY_const (p : V3) : hY (shape s) p = |p.y| - s.dy1 := by
  unfold hY; rw [root_ty h, wy_const h, div_one]
end const

theorem varying_false {k : Kind} {s : State} (hf : Fits k s) (h : checkVaryingY k s = false) : s.dy1 = s.dy2 := by
  cases k
  · simpa [checkVaryingY] using h
  · exact hf rfl
  · simp [checkVaryingY] at h

section
variable {k : Kind} {s : State} (hs : Reachable k s) (hf : Fits k s) (hp : Proper (shape s))
include hs hf hp

/-! ## Membership -/

/-- C68: `Contains` accepts exactly the points of the closed trapezoid. -/
theorem C68_contains (p : V3) : contains k s p = true ↔ Closed (shape s) p := by
  have hz : 0 < s.dz := hp.2.2.2.2
  have h2 : 0 < 2 * s.dz := by linarith
  have hc := hs.cached
  have key : ∀ a b : ℝ, 2 * s.dz * (a - b) < 0 ↔ a < b := by
    intro a b
    constructor
    · intro h; nlinarith
    · intro h; nlinarith
  have e : contains k s p = true ↔ ¬ outsideFlag k s p := by simp [contains]
  rw [e]
  unfold outsideFlag Closed
  dsimp only
  rw [cross_x hc hz, cross_y hc hz, key, key]
  have ez : (shape s).z = s.dz := rfl
  rw [ez]
  split
  · push Not; rw [and_assoc]
  · rename_i hk
    push Not at hk
    rw [wy_const (hf hk)]
    push Not; rw [and_assoc]

/-- `Inside` in terms of the heights. -/
theorem flags_iff (p : V3) :
    ((insideFlags k s p).1 ↔ hZ (shape s) p < -kHalfTolerance ∧ hX (shape s) p < -kTolerance ∧
      hY (shape s) p < -(if k = .trd1 then kHalfTolerance else
        kTolerance * (Real.sqrt (1 + (shape s).tx ^ 2) / Real.sqrt (1 + (shape s).ty ^ 2)))) ∧
    ((insideFlags k s p).2 ↔ hZ (shape s) p > kHalfTolerance ∨ hX (shape s) p > kTolerance ∨
      hY (shape s) p > (if k = .trd1 then kHalfTolerance else
        kTolerance * (Real.sqrt (1 + (shape s).tx ^ 2) / Real.sqrt (1 + (shape s).ty ^ 2)))) := by
  have hz : 0 < s.dz := hp.2.2.2.2
  have h2 : 0 < 2 * s.dz := by linarith
  have hc := hs.cached
  have rx := root_pos (shape s).tx
  have ry := root_pos (shape s).ty
  have e1 : ∀ w a c r : ℝ, 0 < r → (2 * s.dz * (w - a) > c * (2 * s.dz * r) ↔ (a - w) / r < -c) := by
    intro w a c r hr
    rw [div_lt_iff₀ hr]
    constructor
    · intro h
      have : 2 * s.dz * (c * r) < 2 * s.dz * (w - a) := by linarith
      have := lt_of_mul_lt_mul_left this h2.le
      linarith
    · intro h
      have := mul_lt_mul_of_pos_left (show c * r < w - a by linarith) h2
      linarith
  have e2 : ∀ w a c r : ℝ, 0 < r → (2 * s.dz * (w - a) < -(c * (2 * s.dz * r)) ↔ (a - w) / r > c) := by
    intro w a c r hr
    rw [gt_iff_lt, lt_div_iff₀ hr]
    constructor
    · intro h
      have : 2 * s.dz * (w - a) < 2 * s.dz * (-(c * r)) := by linarith
      have := lt_of_mul_lt_mul_left this h2.le
      linarith
    · intro h
      have := mul_lt_mul_of_pos_left (show w - a < -(c * r) by linarith) h2
      linarith
  have e3 : kTolerance * (2 * s.dz * Real.sqrt (1 + (shape s).tx ^ 2)) =
      kTolerance * (Real.sqrt (1 + (shape s).tx ^ 2) / Real.sqrt (1 + (shape s).ty ^ 2)) *
        (2 * s.dz * Real.sqrt (1 + (shape s).ty ^ 2)) := by
    field_simp
  have ez1 : hZ (shape s) p < -kHalfTolerance ↔ |p.z| < s.dz - kHalfTolerance := by
    unfold hZ; rw [show (shape s).z = s.dz from rfl]; constructor <;> intro <;> linarith
  have ez2 : hZ (shape s) p > kHalfTolerance ↔ |p.z| > s.dz + kHalfTolerance := by
    unfold hZ; rw [show (shape s).z = s.dz from rfl]; constructor <;> intro <;> linarith
  unfold insideFlags
  dsimp only
  rw [cross_x hc hz, cross_y hc hz, c_tolX hc hz, c_tolY hc hz, ez1, ez2]
  by_cases hk : k = .trd1
  · rw [if_neg (by simpa using hk), if_pos hk, hY_const (hf hk)]
    dsimp only
    rw [e1 _ _ _ _ rx, e2 _ _ _ _ rx]
    constructor
    · rw [and_assoc]
      refine and_congr_right fun _ => and_congr_right fun _ => ?_
      constructor <;> intro <;> linarith
    · rw [or_assoc]
      refine or_congr_right (or_congr_right ?_)
      constructor <;> intro <;> linarith
  · rw [if_pos hk, if_neg hk]
    dsimp only
    rw [e1 _ _ _ _ rx, e2 _ _ _ _ rx, e3, e1 _ _ _ _ ry, e2 _ _ _ _ ry, and_assoc, or_assoc]
    exact ⟨Iff.rfl, Iff.rfl⟩

theorem tol_pos : 0 < (if k = .trd1 then kHalfTolerance else
    kTolerance * (Real.sqrt (1 + (shape s).tx ^ 2) / Real.sqrt (1 + (shape s).ty ^ 2))) := by
  have := kHalfTolerance_pos
  have h2 : 0 < kTolerance := by norm_num [kTolerance]
  have := root_pos (shape s).tx
  have := root_pos (shape s).ty
  split
  · assumption
  · positivity

omit hs hf hp in
theorem inside_flags (p : V3) :
    (inside k s p = .inside → (insideFlags k s p).1) ∧ (inside k s p = .outside ↔ (insideFlags k s p).2) ∧
    ((insideFlags k s p).1 → ¬ (insideFlags k s p).2 → inside k s p = .inside) := by
  unfold inside
  dsimp only
  by_cases h2 : (insideFlags k s p).2
  · simp [h2]
  · by_cases h1 : (insideFlags k s p).1
    · simp [h2, h1]
    · simp [h2, h1]

/-- C68: `Inside` never calls a point inside that is not in the interior, nor outside one that is in the solid. -/
theorem C68_never_wrong (p : V3) :
    (inside k s p = .inside → Open (shape s) p) ∧ (inside k s p = .outside → ¬ Closed (shape s) p) := by
  have h := flags_iff hs hf hp p
  have ht := tol_pos hs hf hp
  have h2 : 0 < kTolerance := by norm_num [kTolerance]
  have h3 := kHalfTolerance_pos
  obtain ⟨g1, g2, -⟩ := inside_flags (k := k) (s := s) p
  constructor
  · intro hi
    obtain ⟨a, b, c⟩ := h.1.mp (g1 hi)
    rw [open_heights, all_lt]
    exact ⟨by linarith, by linarith, by linarith⟩
  · intro ho hcl
    rw [closed_heights, all_le] at hcl
    rcases h.2.mp (g2.mp ho) with a | a | a <;> linarith [hcl.1, hcl.2.1, hcl.2.2]

omit hs hf hp in
theorem root_mono {a b : ℝ} (h : |a| ≤ |b|) : Real.sqrt (1 + a ^ 2) ≤ Real.sqrt (1 + b ^ 2) :=
  Real.sqrt_le_sqrt (by have := sq_le_sq.mpr h; linarith)

/-- C68 (partial): points that are deeper than the tolerance are inside, and points that are farther than the tolerance
from the plane of a face are outside.  Partial: for solids with varying `y`, only if the `x` half lengths of the bases differ
by no more than the `y` half lengths, because the tolerance of the `y` faces is computed from the `x` half lengths. -/
theorem C68_classify_partial (hw : k = .trd1 ∨ |s.dx1 - s.dx2| ≤ |s.dy1 - s.dy2|) (p : V3) :
    (Deep (shape s) kTolerance p → inside k s p = .inside) ∧
    (∀ f, kTolerance < height (shape s) p f → inside k s p = .outside) := by
  have hz : 0 < s.dz := hp.2.2.2.2
  have h := flags_iff hs hf hp p
  have h2 : 0 < kTolerance := by norm_num [kTolerance]
  have hh : kHalfTolerance < kTolerance := by norm_num [kHalfTolerance, kTolerance]
  obtain ⟨-, g2, g3⟩ := inside_flags (k := k) (s := s) p
  have hr : (if k = .trd1 then kHalfTolerance else
      kTolerance * (Real.sqrt (1 + (shape s).tx ^ 2) / Real.sqrt (1 + (shape s).ty ^ 2))) ≤ kTolerance := by
    split
    · exact hh.le
    · rename_i hk
      have hw := hw.resolve_left hk
      have : Real.sqrt (1 + (shape s).tx ^ 2) ≤ Real.sqrt (1 + (shape s).ty ^ 2) := by
        apply root_mono
        show |(s.dx1 - s.dx2) / (2 * s.dz)| ≤ |(s.dy1 - s.dy2) / (2 * s.dz)|
        rw [abs_div, abs_div]
        exact div_le_div_of_nonneg_right hw (abs_nonneg _)
      have := (div_le_one (root_pos (shape s).ty)).mpr this
      nlinarith
  have ht := tol_pos hs hf hp
  generalize (if k = .trd1 then kHalfTolerance else
      kTolerance * (Real.sqrt (1 + (shape s).tx ^ 2) / Real.sqrt (1 + (shape s).ty ^ 2))) = τ at *
  constructor
  · intro hd
    rw [deep_heights (S := shape s) hz h2.le, all_lt] at hd
    obtain ⟨a, b, c⟩ := hd
    refine g3 (h.1.mpr ⟨by linarith, by linarith, by linarith⟩) fun ho => ?_
    have h3 := kHalfTolerance_pos
    rcases h.2.mp ho with a | a | a <;> linarith
  · intro f hh'
    rw [g2, h.2]
    by_contra hc
    push Not at hc
    have := (all_le (shape s) p kTolerance).mpr ⟨by linarith [hc.2.1], by linarith [hc.2.2], by linarith [hc.1]⟩ f
    linarith

/-! ## Safety -/

/-- `Safety` as the minimum over the planes that take part. -/
theorem safety_eq (p : V3) :
    safety k s p =
      (let a := -hZ (shape s) p
       let b := if 0 ≤ (shape s).wx p.z ∧ -hX (shape s) p < a then -hX (shape s) p else a
       if 0 ≤ (shape s).wy p.z ∧ -hY (shape s) p < b then -hY (shape s) p else b) := by
  have hz : 0 < s.dz := hp.2.2.2.2
  have hc := hs.cached
  have e0 : s.dz - |p.z| = -hZ (shape s) p := by unfold hZ; rw [show (shape s).z = s.dz from rfl]; ring
  have e1 : ((shape s).wx p.z - |p.x|) * s.calfX = -hX (shape s) p := by rw [c_calfX hc]; unfold hX; ring
  have e2 : ((shape s).wy p.z - |p.y|) * s.calfY = -hY (shape s) p := by rw [c_calfY hc]; unfold hY; ring
  unfold safety
  dsimp only
  rw [c_wx hc hz, c_wy hc hz, e0, e1, e2]
  simp only [ge_iff_le]
  by_cases hv : checkVaryingY k s = true
  · rw [if_pos hv]
  · rw [if_neg hv]
    have hy := varying_false hf (by simpa using hv)
    have e3 : s.dy1 - |p.y| = -hY (shape s) p := by rw [hY_const hy]; ring
    have e4 : 0 ≤ (shape s).wy p.z := by rw [wy_const hy]; exact hp.2.2.1
    rw [e3]
    simp only [e4, true_and]

theorem safety_choice (p : V3) : ∃ f, safety k s p = -height (shape s) p f := by
  rw [safety_eq hs hf hp]
  dsimp only
  have h : ∀ c, (c = hX (shape s) p ∨ c = hY (shape s) p ∨ c = hZ (shape s) p) → ∃ f, -c = -height (shape s) p f := by
    intro c hc
    obtain ⟨f, hf⟩ := exists_side (shape s) p hc
    exact ⟨f, by rw [hf]⟩
  split_ifs
  · exact h _ (Or.inr (Or.inl rfl))
  · exact h _ (Or.inl rfl)
  · exact h _ (Or.inr (Or.inl rfl))
  · exact h _ (Or.inr (Or.inr rfl))

/-- Between the bases all planes take part. -/
theorem safety_min (p : V3) (h : |p.z| ≤ s.dz) (f : Side) : safety k s p ≤ -height (shape s) p f := by
  have hx := wx_nonneg hp (c := p.z) h
  have hy := wy_nonneg hp (c := p.z) h
  have key : ∀ g, height (shape s) p g ≤ -safety k s p := by
    rw [all_le, safety_eq hs hf hp]
    dsimp only
    simp only [hx, hy, true_and]
    split_ifs <;> refine ⟨?_, ?_, ?_⟩ <;> linarith
  linarith [key f]

/-- C68: `SafetyToIn` never exceeds the distance from the point to any point of the solid. -/
theorem C68_safetyToIn (p q : V3) (hq : Closed (shape s) q) : safetyToIn k s p ≤ V3.dist p q := by
  have hz : 0 < s.dz := hp.2.2.2.2
  obtain ⟨f, hf'⟩ := safety_choice hs hf hp p
  unfold safetyToIn
  rw [hf', neg_neg]
  have := (abs_le.mp (height_lip (S := shape s) hz p q f)).2
  have := (closed_heights q).mp hq f
  linarith

/-- C68: `SafetyToIn` is positive outside the slab of the bases or above a face that is over it, and never positive in the
solid. -/
theorem C68_safetyToIn_sign (p : V3) :
    (Closed (shape s) p → safetyToIn k s p ≤ 0) ∧ (|p.z| ≤ s.dz → ¬ Closed (shape s) p → 0 < safetyToIn k s p) ∧
    (s.dz < |p.z| → 0 < safetyToIn k s p) := by
  refine ⟨?_, ?_, ?_⟩
  · intro h
    obtain ⟨f, hf'⟩ := safety_choice hs hf hp p
    unfold safetyToIn
    rw [hf', neg_neg]
    exact (closed_heights p).mp h f
  · intro h hn
    rw [closed_heights] at hn
    push Not at hn
    obtain ⟨f, hf'⟩ := hn
    have := safety_min hs hf hp p h f
    unfold safetyToIn
    linarith
  · intro h
    have : safety k s p ≤ -hZ (shape s) p := by
      rw [safety_eq hs hf hp]
      dsimp only
      split_ifs <;> linarith [‹_ ∧ _›.2]
    unfold safetyToIn
    have : 0 < hZ (shape s) p := by unfold hZ; rw [show (shape s).z = s.dz from rfl]; linarith
    linarith

/-- C68: `SafetyToOut` of a point of the solid is the distance to the boundary: the ball of this radius is in the solid, and
reaches a point of the boundary. -/
theorem C68_safetyToOut (p : V3) (h : Closed (shape s) p) :
    0 ≤ safetyToOut k s p ∧ (∀ q, V3.dist p q ≤ safetyToOut k s p → Closed (shape s) q) ∧
    (∀ q, V3.dist p q < safetyToOut k s p → Open (shape s) q) ∧
    ∃ q, Boundary (shape s) q ∧ V3.dist p q = safetyToOut k s p := by
  have hz : 0 < s.dz := hp.2.2.2.2
  obtain ⟨f, hf'⟩ := safety_choice hs hf hp p
  have hmin := safety_min hs hf hp p h.1
  have h0 : 0 ≤ safety k s p := by
    have := (closed_heights p).mp h f
    linarith
  have ball : ∀ q, V3.dist p q ≤ safety k s p → Closed (shape s) q := by
    intro q hq
    rw [closed_heights]
    intro g
    have := (abs_le.mp (height_lip (S := shape s) hz p q g)).1
    linarith [hmin g]
  refine ⟨h0, ball, ?_, ?_⟩
  · intro q hq
    rw [open_heights]
    intro g
    have := (abs_le.mp (height_lip (S := shape s) hz p q g)).1
    unfold safetyToOut at hq
    linarith [hmin g]
  · obtain ⟨q, h1, h2⟩ := foot (S := shape s) hz p f (safety k s p)
    rw [abs_of_nonneg h0] at h2
    refine ⟨q, ⟨ball q h2.le, fun ho => ?_⟩, h2⟩
    have := (open_heights q).mp ho f
    rw [h1] at this
    linarith

/-- C68: outside the solid `SafetyToOut` is negative. -/
theorem C68_safetyToOut_sign (p : V3) (h : ¬ Closed (shape s) p) : safetyToOut k s p < 0 := by
  have := C68_safetyToIn_sign hs hf hp p
  have e : safetyToOut k s p = -safetyToIn k s p := by unfold safetyToOut safetyToIn; ring
  rw [e]
  rcases le_or_gt |p.z| s.dz with hz | hz
  · linarith [this.2.1 hz h]
  · linarith [this.2.2 hz]

end

/-! ## Cases that meet the hypotheses -/

example (m : State) : contains .trd2 (sample m) ⟨2, 3, 0⟩ = true ↔ Closed ⟨1, 3, 2, 5, 2⟩ ⟨2, 3, 0⟩ := by
  rw [← sample_shape m]
  exact C68_contains (sample_reachable m) (sample_fits m) (sample_proper m) _
example : Closed ⟨1, 3, 2, 5, 2⟩ ⟨2, 3, 0⟩ := by norm_num [Closed, Shape.wx, Shape.wy]
example (m : State) : inside .trd1 (sample1 m) ⟨0, 0, 0⟩ = .inside := by
  refine (C68_classify_partial (sample1_reachable m) (sample1_fits m) (sample1_proper m) (Or.inl rfl) _).1 ?_
  have h2 : 0 < kTolerance := by norm_num [kTolerance]
  rw [deep_heights (by rw [sample1_shape]; norm_num) h2.le, sample1_shape]
  have hr : Real.sqrt (1 + (Shape.tx ⟨1, 3, 4, 4, 2⟩) ^ 2) ≤ 2 := by
    rw [Real.sqrt_le_iff]; norm_num [Shape.tx]
  have hr2 : Real.sqrt (1 + (Shape.ty ⟨1, 3, 4, 4, 2⟩) ^ 2) ≤ 2 := by
    rw [Real.sqrt_le_iff]; norm_num [Shape.ty]
  have hp1 := root_pos (Shape.tx ⟨1, 3, 4, 4, 2⟩)
  have hp2 := root_pos (Shape.ty ⟨1, 3, 4, 4, 2⟩)
  intro f
  cases f <;> simp only [height]
  · rw [div_lt_iff₀ hp1]; norm_num [Shape.wx, kTolerance]; nlinarith
  · rw [div_lt_iff₀ hp1]; norm_num [Shape.wx, kTolerance]; nlinarith
  · rw [div_lt_iff₀ hp2]; norm_num [Shape.wy, kTolerance]; nlinarith
  · rw [div_lt_iff₀ hp2]; norm_num [Shape.wy, kTolerance]; nlinarith
  · norm_num [kTolerance]
  · norm_num [kTolerance]
example (m : State) : Fits .trd2 (sample m) ∧ |(sample m).dx1 - (sample m).dx2| ≤ |(sample m).dy1 - (sample m).dy2| := by
  refine ⟨sample_fits m, ?_⟩
  show |(1 : ℝ) - 3| ≤ |2 - 5|
  norm_num

/-! ## Where it fails -/

/-- A solid that is wide along `x` at the top. -/
noncomputable def wide (m : State) : State := (create .trd2 m 1 2000000001 1 1 1).trd
theorem wide_reachable (m : State) : Reachable .trd2 (wide m) := ⟨m, _, _, _, _, _, [], rfl⟩

/-- C68: because the tolerance of the `y` faces is computed from the `x` half lengths, a point at distance of about 1 from all
faces is on the surface for `Inside`. -/
theorem C68_classify_counterexample (m : State) :
    Reachable .trd2 (wide m) ∧ Proper (shape (wide m)) ∧ Deep (shape (wide m)) (1 / 2) ⟨0, 0, 0⟩ ∧
    inside .trd2 (wide m) ⟨0, 0, 0⟩ = .surface := by
  have esh : shape (wide m) = ⟨1, 2000000001, 1, 1, 1⟩ := rfl
  have hpr : Proper (shape (wide m)) := by rw [esh]; norm_num [Proper]
  have hfit : Fits .trd2 (wide m) := by intro h; cases h
  have hr := root_pos (Shape.tx ⟨1, 2000000001, 1, 1, 1⟩)
  have hr2 : Real.sqrt (1 + (Shape.tx ⟨1, 2000000001, 1, 1, 1⟩) ^ 2) ≤ 1000000001 := by
    rw [Real.sqrt_le_iff]; norm_num [Shape.tx]
  have hr3 : 1000000000 ≤ Real.sqrt (1 + (Shape.tx ⟨1, 2000000001, 1, 1, 1⟩) ^ 2) := by
    apply Real.le_sqrt_of_sq_le; norm_num [Shape.tx]
  have hr4 : Real.sqrt (1 + (Shape.ty ⟨1, 2000000001, 1, 1, 1⟩) ^ 2) = 1 := by
    rw [show Shape.ty ⟨1, 2000000001, 1, 1, 1⟩ = 0 by norm_num [Shape.ty]]; norm_num
  refine ⟨wide_reachable m, hpr, ?_, ?_⟩
  · rw [deep_heights (by rw [esh]; norm_num) (by norm_num), esh]
    intro f
    cases f <;> simp only [height, hr4]
    · rw [div_lt_iff₀ hr]; norm_num [Shape.wx]; nlinarith
    · rw [div_lt_iff₀ hr]; norm_num [Shape.wx]; nlinarith
    · norm_num [Shape.wy]
    · norm_num [Shape.wy]
    · norm_num
    · norm_num
  · have h := flags_iff (wide_reachable m) hfit hpr ⟨0, 0, 0⟩
    have n1 : ¬ (insideFlags .trd2 (wide m) ⟨0, 0, 0⟩).1 := by
      rw [h.1, esh]
      rintro ⟨-, -, h3⟩
      rw [if_neg (by decide)] at h3
      simp only [hY, hr4, Shape.wy, kTolerance] at h3
      norm_num at h3
      nlinarith
    have n2 : ¬ (insideFlags .trd2 (wide m) ⟨0, 0, 0⟩).2 := by
      intro ho
      have := (C68_never_wrong (wide_reachable m) hfit hpr ⟨0, 0, 0⟩).2 ((inside_flags _).2.1.mpr ho)
      exact this (by rw [esh]; norm_num [Closed, Shape.wx, Shape.wy])
    unfold inside
    dsimp only
    rw [if_neg n2, if_neg n1]

/-- C68: after `SetYHalfLength2` of a solid that was made with constant `y` the kernels for constant `y` are still used:
`Contains` refuses points of the solid and accepts points that are not in it. -/
theorem C68_setter_counterexample (m : State) :
    let s := (set (create .trd1 m 1 2 1 1 1) (.y2 3)).trd
    Reachable .trd1 s ∧ Proper (shape s) ∧ Closed (shape s) ⟨0, 2, 1⟩ ∧ contains .trd1 s ⟨0, 2, 1⟩ = false ∧
    safetyToIn .trd1 s ⟨0, 2, 1⟩ = 1 := by
  intro s
  have esh : shape s = ⟨1, 2, 1, 3, 1⟩ := rfl
  have hr : Reachable .trd1 s := ⟨m, 1, 2, 1, 1, 1, [.y2 3], rfl⟩
  have hz : 0 < s.dz := by show (0 : ℝ) < 1; norm_num
  refine ⟨hr, by rw [esh]; norm_num [Proper], by rw [esh]; norm_num [Closed, Shape.wx, Shape.wy], ?_, ?_⟩
  · unfold contains outsideFlag
    have : s.dy1 = 1 := rfl
    simp [this]
  · unfold safetyToIn safety
    dsimp only
    have e1 : s.dy1 = 1 := rfl
    have e2 : s.dz = 1 := rfl
    have e3 : s.calfX = 1 / Real.sqrt (1 + (shape s).tx ^ 2) := c_calfX hr.cached
    have : 0 < s.calfX := by rw [e3]; exact one_div_pos.mpr (root_pos _)
    rw [c_wx hr.cached hz, esh, e1, e2, if_neg (by simp [checkVaryingY])]
    have e4 : Shape.wx ⟨1, 2, 1, 3, 1⟩ 1 = 2 := by norm_num [Shape.wx]
    rw [e4]
    rw [if_neg (show ¬ ((2 : ℝ) ≥ 0 ∧ (2 - |(0 : ℝ)|) * s.calfX < 1 - |(1 : ℝ)|) by
      simp only [not_and, not_lt]; intro; norm_num; positivity)]
    norm_num

end Trd
end VecGeom

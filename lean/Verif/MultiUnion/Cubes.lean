import Verif.MultiUnion.Walk
import Verif.MultiUnion.Search

/-!
# Boxes as components

Real solids that meet the assumptions about the components.
-/

namespace VecGeom
namespace MultiUnion

open AABB Hybrid
open Boolean (Placed Solid Region Moved boxSolid cube cubeAt)

theorem box_tight {h : V3} (hh : BoxSolid.Proper h) : Tight (boxSolid h) := by
  have ht : kHalfTolerance < 1 / 2000 := by norm_num [kHalfTolerance, kTolerance]
  intro p hp
  have hb : |p.x| < h.x + kHalfTolerance ∧ |p.y| < h.y + kHalfTolerance ∧ |p.z| < h.z + kHalfTolerance := by
    have h0 := kHalfTolerance_pos
    rcases hp with hp | hp
    · by_contra hc
      apply hp
      show BoxSolid.inside h p = .outside
      rw [(BoxSolid.C43_outside h p).1]
      by_contra hn
      push Not at hn
      exact hc hn
    · obtain ⟨a1, a2, a3⟩ := (BoxSolid.C43_contains h p).mp hp
      exact ⟨by linarith, by linarith, by linarith⟩
  have key : ∀ x a : ℝ, 0 < a → |x| < a + kHalfTolerance → ∃ y, -a ≤ y ∧ y ≤ a ∧ (x - y) ^ 2 ≤ (1 / 2000) ^ 2 := by
    intro x a ha hx
    obtain ⟨h1, h2⟩ := abs_lt.mp hx
    refine ⟨max (-a) (min x a), le_max_left _ _, max_le (by linarith) (min_le_right _ _), ?_⟩
    rw [sq_le_sq, abs_of_pos (show (0 : ℝ) < 1 / 2000 by norm_num), abs_le]
    rcases le_total x a with h3 | h3
    · rw [min_eq_left h3]
      rcases le_total (-a) x with h4 | h4
      · rw [max_eq_right h4]; constructor <;> linarith
      · rw [max_eq_left h4]; constructor <;> linarith
    · rw [min_eq_right h3, max_eq_right (by linarith)]; constructor <;> linarith
  obtain ⟨y1, a1, b1, c1⟩ := key p.x h.x hh.1 hb.1
  obtain ⟨y2, a2, b2, c2⟩ := key p.y h.y hh.2.1 hb.2.1
  obtain ⟨y3, a3, b3, c3⟩ := key p.z h.z hh.2.2 hb.2.2
  refine ⟨⟨y1, y2, y3⟩, ⟨⟨a1, b1⟩, ⟨a2, b2⟩, a3, b3⟩, ?_⟩
  unfold V3.dist V3.dist2
  rw [Real.sqrt_lt' (by norm_num)]
  norm_num at c1 c2 c3 ⊢
  linarith

theorem box_leaves (h : V3) : Leaves (boxSolid h) := by
  intro p d sm hp
  have hp' : BoxSolid.inside h p = .inside := hp
  rw [BoxSolid.C43_inside] at hp'
  have ho := hp' p (by rw [Boolean.dist_self]; exact kHalfTolerance_pos)
  exact ⟨_, rfl, (BoxSolid.C43_distance_out_pos ho).le⟩

theorem box_enters (h : V3) : Enters (boxSolid h) := fun _ _ _ => ⟨_, rfl⟩

theorem box_valid {h : V3} (hh : BoxSolid.Proper h) : Valid (boxSolid h).extent :=
  ⟨by show -h.x ≤ h.x; linarith [hh.1], by show -h.y ≤ h.y; linarith [hh.2.1], by show -h.z ≤ h.z; linarith [hh.2.2]⟩

/-- The box widened by half a tolerance. -/
noncomputable def widened (h : V3) : V3 := ⟨h.x + kHalfTolerance, h.y + kHalfTolerance, h.z + kHalfTolerance⟩

/-- The true ray stays in the widened slab up to the reported distance. -/
theorem slab_exit {h p d u : ℝ} (hh : 0 < h) (h0 : 0 ≤ u) (hp : |p| ≤ h + kHalfTolerance)
    (hu : u ≤ (sign d * h - p) * (1 / nonZero d)) : |p + u * d| ≤ h + kHalfTolerance := by
  have ht := kHalfTolerance_pos
  have hk := kTiny_pos
  obtain ⟨h1, h2⟩ := abs_le.mp hp
  rw [mul_one_div] at hu
  rcases lt_or_ge d 0 with hd | hd
  · have hs : sign d = -1 := by
      rcases BoxSolid.sign_cases d with h' | h'
      · exact h'.2
      · linarith [h'.1]
    have hn := nonZero_neg hd
    have e : nonZero d = d - kTiny := by unfold nonZero copySign; rw [if_pos hd]; ring
    rw [le_div_iff_of_neg hn, hs, e] at hu
    rw [abs_le]
    constructor
    · have : u * (d - kTiny) ≤ u * d := mul_le_mul_of_nonneg_left (by linarith) h0
      linarith
    · have : u * d ≤ 0 := mul_nonpos_of_nonneg_of_nonpos h0 hd.le
      linarith
  · have hs : sign d = 1 := by
      rcases BoxSolid.sign_cases d with h' | h'
      · linarith [h'.1]
      · exact h'.2
    have hn := nonZero_pos hd
    have e : nonZero d = d + kTiny := by unfold nonZero copySign; rw [if_neg (not_lt.mpr hd)]
    rw [le_div_iff₀ hn, hs, e] at hu
    rw [abs_le]
    constructor
    · have : 0 ≤ u * d := mul_nonneg h0 hd
      linarith
    · have : u * d ≤ u * (d + kTiny) := mul_le_mul_of_nonneg_left (by linarith) h0
      linarith

theorem box_exit {h : V3} (hh : BoxSolid.Proper h) : Boolean.ExitOK (boxSolid h) (BoxSolid.Closed (widened h)) := by
  intro p d sm t ht u h0 h1 _
  have e : BoxSolid.distanceToOut h p d = t := Option.some.inj ht
  rw [BoxSolid.distanceToOut_eq] at e
  split at e
  · linarith
  · rename_i hc
    rw [not_lt, V3.maxc_le] at hc
    simp only [V3.sub_x, V3.sub_y, V3.sub_z, V3.vabs_x, V3.vabs_y, V3.vabs_z] at hc
    have hle : u ≤ (BoxSolid.vOut h p d).minc := by rw [e]; exact h1
    rw [V3.le_minc] at hle
    obtain ⟨l1, l2, l3⟩ := hle
    refine ⟨?_, ?_, ?_⟩
    · exact slab_exit hh.1 h0 (by linarith [hc.1]) l1
    · exact slab_exit hh.2.1 h0 (by linarith [hc.2.1]) l2
    · exact slab_exit hh.2.2 h0 (by linarith [hc.2.2]) l3

theorem box_entry {h : V3} (hh : BoxSolid.Proper h) : EntryUpTo (10 ^ 20) (boxSolid h) (BoxSolid.Deep h kTolerance) := by
  intro p d sm t hd ht u h0 h1 _ h3 hX
  have e : BoxSolid.distanceToIn h p d = t := Option.some.inj ht
  have htol := kHalfTolerance_pos
  have hk : u * kTiny ≤ kTolerance / 4 := by
    unfold kTiny kTolerance
    rw [mul_one_div, div_le_iff₀ (by positivity)]
    refine h3.trans (by norm_num)
  have hk0 : 0 ≤ u * kTiny := mul_nonneg h0 kTiny_pos.le
  have h2 : kHalfTolerance = kTolerance / 2 := by norm_num [kHalfTolerance, kTolerance]
  obtain ⟨x1, x2, x3⟩ := hX
  simp only [V3.at_x, V3.at_y, V3.at_z] at x1 x2 x3
  -- the point stays deep for the pushed direction
  have near : ∀ a b : ℝ, |a + u * nonZero b| ≤ |a + u * b| + u * kTiny := by
    intro a b
    have h4 : a + u * nonZero b = a + u * b + u * (nonZero b - b) := by ring
    rw [h4]
    refine (abs_add_le _ _).trans ?_
    rw [abs_mul, abs_of_nonneg h0]
    have := mul_le_mul_of_nonneg_left (abs_nonZero_sub b).le h0
    linarith
  have n1 := near p.x d.x
  have n2 := near p.y d.y
  have n3 := near p.z d.z
  have hdeep : BoxSolid.Deep h (kHalfTolerance + kTolerance / 8) (V3.at' p d.nonZero u) := by
    refine ⟨?_, ?_, ?_⟩ <;> simp only [V3.at_x, V3.at_y, V3.at_z, V3.nonZero_x, V3.nonZero_y, V3.nonZero_z] <;> linarith
  have unit : ∀ b : ℝ, b ^ 2 ≤ 1 → |nonZero b| ≤ 1 + kTiny := by
    intro b hb
    have h4 := abs_nonZero_sub b
    have h5 : nonZero b = b + (nonZero b - b) := by ring
    rw [h5]
    refine (abs_add_le _ _).trans ?_
    rw [h4]
    have : |b| ≤ 1 := by rw [← sq_abs] at hb; nlinarith [abs_nonneg b]
    linarith
  unfold V3.mag2 V3.dot at hd
  have u1 := unit d.x (by nlinarith [sq_nonneg d.y, sq_nonneg d.z])
  have u2 := unit d.y (by nlinarith [sq_nonneg d.x, sq_nonneg d.z])
  have u3 := unit d.z (by nlinarith [sq_nonneg d.x, sq_nonneg d.y])
  have hkt : kHalfTolerance * kTiny ≤ kTolerance / 8 := by norm_num [kHalfTolerance, kTolerance, kTiny]
  have ahead : ∀ a b h : ℝ, |nonZero b| ≤ 1 + kTiny → |a + u * nonZero b| < h - (kHalfTolerance + kTolerance / 8) →
      |a + (u + kHalfTolerance) * nonZero b| < h := by
    intro a b h hb ha
    rw [show a + (u + kHalfTolerance) * nonZero b = a + u * nonZero b + kHalfTolerance * nonZero b by ring]
    refine (abs_add_le _ _).trans_lt ?_
    rw [abs_mul, abs_of_pos htol]
    have := mul_le_mul_of_nonneg_left hb htol.le
    linarith
  have ho : BoxSolid.Open h (V3.at' p d.nonZero u) := by
    obtain ⟨a1, a2, a3⟩ := hdeep
    have : 0 < kTolerance := kTolerance_pos
    exact ⟨by linarith, by linarith, by linarith⟩
  have ho2 : BoxSolid.Open h (V3.at' p d.nonZero (u + kHalfTolerance)) := by
    obtain ⟨a1, a2, a3⟩ := hdeep
    simp only [V3.at_x, V3.at_y, V3.at_z, V3.nonZero_x, V3.nonZero_y, V3.nonZero_z] at a1 a2 a3
    refine ⟨?_, ?_, ?_⟩ <;> simp only [V3.at_x, V3.at_y, V3.at_z, V3.nonZero_x, V3.nonZero_y, V3.nonZero_z]
    · exact ahead _ _ _ u1 a1
    · exact ahead _ _ _ u2 a2
    · exact ahead _ _ _ u3 a3
  obtain ⟨o1, o2⟩ := (BoxSolid.open_at ..).mp ho
  obtain ⟨-, o3⟩ := (BoxSolid.open_at ..).mp ho2
  have hne : ¬ ((BoxSolid.vIn h p d).maxc ≥ (BoxSolid.vOut h p d).minc ∨ (BoxSolid.vOut h p d).minc ≤ kHalfTolerance ∨
      |(BoxSolid.orth h p d).minc| ≤ kHalfTolerance) := by
    have htl : 0 < kTolerance := kTolerance_pos
    rintro (hc | hc | hc)
    · linarith
    · linarith
    · have := (le_abs_self _).trans hc
      rw [V3.minc_le] at this
      obtain ⟨a1, a2, a3⟩ := hdeep
      simp only [V3.at_x, V3.at_y, V3.at_z, V3.nonZero_x, V3.nonZero_y, V3.nonZero_z] at a1 a2 a3
      rcases this with hx | hx | hx
      · have := BoxSolid.exit_near (t := u) h0 hx
        linarith
      · have := BoxSolid.exit_near (t := u) h0 hx
        linarith
      · have := BoxSolid.exit_near (t := u) h0 hx
        linarith
  rw [BoxSolid.distanceToIn_eq, if_neg hne] at e
  linarith

/-! ### two cubes -/

theorem cube_proper : BoxSolid.Proper ⟨1, 1, 1⟩ := by norm_num [BoxSolid.Proper]

theorem cubeAt_trans (x y z : ℝ) (q : V3) : (cubeAt x y z).trans.inverseTransform q = ⟨q.x + x, q.y + y, q.z + z⟩ :=
  (Trans3.C23_translation x y z q).2.1

/-- The box of a cube. -/
theorem boxOf_cube {x y z : ℝ} (hx : |x| ≤ 1000) (hy : |y| ≤ 1000) (hz : |z| ≤ 1000) :
    Part (boxOf (cubeAt x y z)) ⟨⟨x - 1 - 1 / 1000, y - 1 - 1 / 1000, z - 1 - 1 / 1000⟩, ⟨x + 1 + 1 / 1000, y + 1 + 1 / 1000, z + 1 + 1 / 1000⟩⟩ := by
  have hk : (1000000 : ℝ) ≤ kInfLength := le_kInfLength (le_refl _)
  have img : ∀ q, InBox cube.extent q → InBox ⟨⟨x - 1, y - 1, z - 1⟩, ⟨x + 1, y + 1, z + 1⟩⟩ ((cubeAt x y z).trans.inverseTransform q) := by
    rintro q ⟨⟨a1, a2⟩, ⟨a3, a4⟩, a5, a6⟩
    rw [cubeAt_trans]
    change -1 ≤ q.x at a1
    change q.x ≤ 1 at a2
    change -1 ≤ q.y at a3
    change q.y ≤ 1 at a4
    change -1 ≤ q.z at a5
    change q.z ≤ 1 at a6
    refine ⟨⟨?_, ?_⟩, ⟨?_, ?_⟩, ?_, ?_⟩ <;> dsimp only <;> linarith
  obtain ⟨⟨h1, h2, h3⟩, h4, h5, h6⟩ := C28_box_tight (T := (cubeAt x y z).trans) (ext := cube.extent)
    (r := ⟨⟨x - 1, y - 1, z - 1⟩, ⟨x + 1, y + 1, z + 1⟩⟩) (box_valid cube_proper) (by
      intro q hq
      obtain ⟨⟨a1, a2⟩, ⟨a3, a4⟩, a5, a6⟩ := img q hq
      dsimp only at a1 a2 a3 a4 a5 a6
      rw [abs_le] at hx hy hz
      refine ⟨?_, ?_, ?_⟩ <;> rw [abs_le] <;> constructor <;> linarith) img
  dsimp only at h1 h2 h3 h4 h5 h6
  refine ⟨⟨?_, ?_, ?_⟩, ?_, ?_, ?_⟩ <;> dsimp only [boxOf, cubeAt] at * <;> linarith

theorem cube_range {M x y z : ℝ} (hM : 100000 ≤ M) (hx : |x| ≤ 1000) (hy : |y| ≤ 1000) (hz : |z| ≤ 1000) :
    InRange M (boxOf (cubeAt x y z)) := by
  intro q hq
  obtain ⟨⟨a1, a2⟩, ⟨a3, a4⟩, a5, a6⟩ := (boxOf_cube hx hy hz).inBox hq
  dsimp only at a1 a2 a3 a4 a5 a6
  rw [abs_le] at hx hy hz
  refine ⟨?_, ?_, ?_⟩ <;> rw [abs_le] <;> constructor <;> linarith

end MultiUnion
end VecGeom

import Verif.Quad.Sample

/-!
# Quadrilaterals: DistanceToIn
-/

namespace VecGeom
namespace Quad

open Real

variable {n : V3} {c : Fin 4 → V3} {q : Quad} {p d : V3} {b : Bool}

/-- The ray comes to the plane of `q` from its front (or from behind), from at most the tolerance on the other side. -/
def Faces (b : Bool) (q : Quad) (p d : V3) : Prop :=
  if b then q.plane.height p < kTolerance ∧ 0 < q.plane.n.dot d else -kTolerance < q.plane.height p ∧ q.plane.n.dot d < 0

/-- The ray that faces `q` passes it at `t`: up to a distance of `t * 1e-20` it is in the plane, at most the tolerance beyond each side. -/
def Enters (b : Bool) (q : Quad) (p d : V3) (t : ℝ) : Prop :=
  Faces b q p d ∧ q.plane.height (V3.at' p d t) = (if b then -1 else 1) * (t / 10 ^ 20) ∧ ∀ j, -kTolerance ≤ (q.side j).height (V3.at' p d t)

theorem dot_comm (u v : V3) : u.dot v = v.dot u := by simp only [V3.dot]; ring

theorem test_iff (t : ℝ) : inTest b q p d = some t ↔ Enters b q p d t := by
  have key : ∀ e : ℝ, d.dot q.plane.n + e ≠ 0 → ∀ t, q.plane.height (V3.at' p d t) = -(e * t) ↔ t = q.plane.height p / -(d.dot q.plane.n + e) := by
    intro e he t
    rw [Plane.height_at, dot_comm q.plane.n d, eq_div_iff (neg_ne_zero.2 he)]
    constructor <;> intro h <;> linear_combination -h
  unfold inTest Enters Faces
  simp only [dot_comm q.plane.n d]
  cases b
  · simp only [Bool.not_false, if_true, Bool.false_eq_true, if_false, one_mul]
    by_cases h1 : q.plane.height p > -kTolerance
    · by_cases h2 : -(d.dot q.plane.n) > 0
      · have h3 : d.dot q.plane.n < 0 := by linarith
        have hne : d.dot q.plane.n + -(1 / 10 ^ 20) ≠ 0 := by
          have : (0 : ℝ) < 1 / 10 ^ 20 := by positivity
          linarith
        rw [if_pos h3]
        simp only [h1, h2, h3, not_true, if_false, if_true, and_self, true_and]
        have e := key (-(1 / 10 ^ 20)) hne
        rw [show t / 10 ^ 20 = -(-(1 / 10 ^ 20) * t) by ring, e t]
        constructor
        · intro h
          split at h
          · rename_i hh
            cases h
            exact ⟨rfl, hh⟩
          · cases h
        · rintro ⟨rfl, hh⟩
          exact if_pos hh
      · have h3 : ¬ d.dot q.plane.n < 0 := by linarith
        simp [h1, h2, h3]
    · have h1' : ¬ -kTolerance < q.plane.height p := h1
      simp [h1']
  · simp only [Bool.not_true, if_true, Bool.false_eq_true, if_false]
    by_cases h1 : -(q.plane.height p) > -kTolerance
    · by_cases h2 : d.dot q.plane.n > 0
      · have h3 : ¬ d.dot q.plane.n < 0 := by linarith
        have h1' : q.plane.height p < kTolerance := by linarith
        have h2' : 0 < d.dot q.plane.n := h2
        have hne : d.dot q.plane.n + 1 / 10 ^ 20 ≠ 0 := by
          have : (0 : ℝ) < 1 / 10 ^ 20 := by positivity
          linarith
        rw [if_neg h3]
        simp only [h1, h1', h2', h2, not_true, if_false, and_self, true_and]
        have e := key (1 / 10 ^ 20) hne
        rw [show -1 * (t / 10 ^ 20) = -(1 / 10 ^ 20 * t) by ring, e t]
        constructor
        · intro h
          split at h
          · rename_i hh
            cases h
            exact ⟨rfl, hh⟩
          · cases h
        · rintro ⟨rfl, hh⟩
          exact if_pos hh
      · have h3 : ¬ 0 < d.dot q.plane.n := h2
        simp [h3]
    · have h1' : ¬ q.plane.height p < kTolerance := by linarith
      simp [h1']

theorem loop_in (l : List Quad) (m : ℝ) (hm : ¬ m < kInfLength) :
    (inLoop b p d l m < kInfLength ↔ ∃ q ∈ l, ∃ t, t < kInfLength ∧ Enters b q p d t) ∧
    (inLoop b p d l m < kInfLength → ∃ l1 q l2, l = l1 ++ q :: l2 ∧ (∀ q' ∈ l1, ∀ t, Enters b q' p d t → kInfLength ≤ t) ∧ Enters b q p d (inLoop b p d l m)) := by
  induction l generalizing m with
  | nil => simp [inLoop, hm]
  | cons a l ih =>
    unfold inLoop
    simp only
    rcases ht : inTest b a p d with _ | t
    · simp only [Option.getD_none]
      rw [if_neg hm]
      obtain ⟨i1, i2⟩ := ih m hm
      have hno : ∀ t, ¬ Enters b a p d t := by
        intro t h
        rw [← test_iff, ht] at h
        cases h
      refine ⟨?_, fun h => ?_⟩
      · rw [i1]
        constructor
        · rintro ⟨q, hq, h⟩
          exact ⟨q, List.mem_cons_of_mem _ hq, h⟩
        · rintro ⟨q, hq, t, h0, h⟩
          rcases List.mem_cons.1 hq with rfl | hq
          · exact absurd h (hno t)
          · exact ⟨q, hq, t, h0, h⟩
      · obtain ⟨l1, q, l2, e, h1, h2⟩ := i2 h
        refine ⟨a :: l1, q, l2, by rw [e]; rfl, fun q' hq' t h' => ?_, h2⟩
        rcases List.mem_cons.1 hq' with rfl | hq'
        · exact absurd h' (hno t)
        · exact h1 q' hq' t h'
    · simp only [Option.getD_some]
      have he := (test_iff t).1 ht
      by_cases hk : t < kInfLength
      · rw [if_pos hk]
        exact ⟨⟨fun _ => ⟨a, List.mem_cons_self, t, hk, he⟩, fun _ => hk⟩, fun _ => ⟨[], a, l, rfl, by simp, he⟩⟩
      · rw [if_neg hk]
        obtain ⟨i1, i2⟩ := ih t hk
        have hno : ∀ u, Enters b a p d u → kInfLength ≤ u := by
          intro u h
          rw [← test_iff, ht] at h
          cases h
          exact not_lt.1 hk
        refine ⟨?_, fun h => ?_⟩
        · rw [i1]
          constructor
          · rintro ⟨q, hq, h⟩
            exact ⟨q, List.mem_cons_of_mem _ hq, h⟩
          · rintro ⟨q, hq, u, h0, h⟩
            rcases List.mem_cons.1 hq with rfl | hq
            · exact absurd h0 (not_lt.2 (hno u h))
            · exact ⟨q, hq, u, h0, h⟩
        · obtain ⟨l1, q, l2, e, h1, h2⟩ := i2 h
          refine ⟨a :: l1, q, l2, by rw [e]; rfl, fun q' hq' u h' => ?_, h2⟩
          rcases List.mem_cons.1 hq' with rfl | hq'
          · exact hno u h'
          · exact h1 q' hq' u h'

/-- C197: `DistanceToIn` is below the infinite length exactly if the ray passes one of the quadrilaterals before that. -/
theorem C197_finite (b : Bool) (l : List Quad) (p d : V3) :
    distanceToIn b l p d < kInfLength ↔ ∃ q ∈ l, ∃ t, t < kInfLength ∧ Enters b q p d t := by
  rw [← (loop_in l kInfLength (lt_irrefl _)).1]
  unfold distanceToIn
  rw [max_lt_iff]
  exact ⟨fun h => h.2, fun h => ⟨kInfLength_pos, h⟩⟩

/-- C197: a finite `DistanceToIn` is not negative, and belongs to the first quadrilateral of the list that the ray passes: it is the place where the ray
passes it, or zero if that is behind the start, which is then nearer to the plane than the tolerance. -/
theorem C197_first (b : Bool) (l : List Quad) (p d : V3) (hf : distanceToIn b l p d < kInfLength) : 0 ≤ distanceToIn b l p d ∧
    ∃ l1 q l2, l = l1 ++ q :: l2 ∧ (∀ q' ∈ l1, ∀ t, Enters b q' p d t → kInfLength ≤ t) ∧ Faces b q p d ∧
      (Enters b q p d (distanceToIn b l p d) ∨ distanceToIn b l p d = 0 ∧ |q.plane.n.dot p + q.plane.d| < kTolerance) := by
  have htol := kTolerance_pos
  refine ⟨le_max_left _ _, ?_⟩
  have hf' : inLoop b p d l kInfLength < kInfLength := lt_of_le_of_lt (le_max_right _ _) hf
  obtain ⟨l1, q, l2, e, h1, h2⟩ := (loop_in l kInfLength (lt_irrefl _)).2 hf'
  refine ⟨l1, q, l2, e, h1, h2.1, ?_⟩
  unfold distanceToIn
  generalize inLoop b p d l kInfLength = t at *
  rcases le_total 0 t with ht | ht
  · left
    rwa [max_eq_right ht]
  · right
    refine ⟨max_eq_left ht, ?_⟩
    obtain ⟨hfa, hh, -⟩ := h2
    rw [Plane.height_at] at hh
    show |q.plane.height p| < _
    unfold Faces at hfa
    rw [abs_lt]
    cases b
    · simp only [Bool.false_eq_true, if_false, one_mul] at hfa hh
      refine ⟨hfa.1, ?_⟩
      have := mul_nonneg_of_nonpos_of_nonpos ht hfa.2.le
      have : t / 10 ^ 20 ≤ 0 := div_nonpos_of_nonpos_of_nonneg ht (by positivity)
      linarith
    · simp only [if_true] at hfa hh
      refine ⟨?_, hfa.1⟩
      have := mul_nonpos_of_nonpos_of_nonneg ht hfa.2.le
      have : t / 10 ^ 20 ≤ 0 := div_nonpos_of_nonpos_of_nonneg ht (by positivity)
      linarith

/-- C197: where the ray comes from the front to a point of a flat convex quadrilateral, at an angle that is not too small, `DistanceToIn` finds the point,
up to the tolerance; it finds it also in a longer list, or another quadrilateral that is passed. -/
theorem C197_reaches (hc : Convex n c) (ha : ∀ i j, i ≠ j → same (c i) (c j) = false) (hn : Clean n) (hs : ∀ j, Clean (upright n c j)) (hq : make c = some q)
    (hd : d.mag2 = 1) {t : ℝ} (h0 : 0 ≤ t) (ht : t < kInfLength) (hx : InQuad c (V3.at' p d t)) (hf : n.dot d < 0) (hang : t / 10 ^ 20 ≤ kTolerance * -(n.dot d)) :
    (∀ l, q ∈ l → distanceToIn false l p d < kInfLength) ∧ t - kTolerance ≤ distanceToIn false [q] p d ∧ distanceToIn false [q] p d ≤ t := by
  have htol := kTolerance_pos
  obtain ⟨q', e, hq'⟩ := C196_set hc ha hn hs
  rw [hq] at e
  cases e
  have hN : n.dot d ≠ 0 := hf.ne
  generalize hk : -(n.dot d) = k at *
  have hk0 : 0 < k := by linarith
  have hD : 0 < k + 1 / 10 ^ 20 := by positivity
  have hin := hc.in_plane hx
  have hh : q.plane.height p = t * k := by
    rw [hq'.height]
    have : n.dot (V3.at' p d t - c 0) = n.dot (p - c 0) + t * n.dot d := by
      simp only [V3.dot, V3.sub_x, V3.sub_y, V3.sub_z, V3.at_x, V3.at_y, V3.at_z]; ring
    rw [this] at hin
    rw [← hk]; linarith
  -- the place that is found
  set s := t * k / (k + 1 / 10 ^ 20) with hsdef
  have hsD : s * (k + 1 / 10 ^ 20) = t * k := div_mul_cancel₀ _ hD.ne'
  have hst : s ≤ t := by
    rw [hsdef, div_le_iff₀ hD]
    have : (0 : ℝ) ≤ t * (1 / 10 ^ 20) := by positivity
    linarith
  have hs0 : 0 ≤ s := by positivity
  have hdiff : t - s ≤ kTolerance := by
    have h1 : (t - s) * (k + 1 / 10 ^ 20) = t / 10 ^ 20 := by
      rw [sub_mul, hsD]; ring
    have h2 : (t - s) * k ≤ kTolerance * k := by
      have : 0 ≤ (t - s) * (1 / 10 ^ 20) := mul_nonneg (by linarith) (by positivity)
      linarith
    exact le_of_mul_le_mul_right h2 hk0
  have hent : Enters false q p d s := by
    refine ⟨?_, ?_, ?_⟩
    · show -kTolerance < q.plane.height p ∧ q.plane.n.dot d < 0
      rw [hh, hq'.normal]
      have := mul_nonneg h0 hk0.le
      exact ⟨by linarith, by linarith⟩
    · rw [Plane.height_at, hh, hq'.normal, show n.dot d = -k by linarith]
      simp only [Bool.false_eq_true, if_false]
      linarith
    · intro j
      have hu : (upright n c j).mag2 = 1 := by
        have hm : 0 < (c (j + 1) - c j).mag := mag_pos (mag2_pos_of_area (hc.turn j).1.ne')
        have h1 : (upright n c j).mag = 1 := by
          unfold upright
          rw [mag_smul (by positivity), cross_mag hc.unit (hc.flat' (hc.flat (j + 1)) j)]
          field_simp
        unfold V3.mag at h1
        exact sqrt_eq_one.1 h1
      have hcs : (upright n c j).dot d ≤ 1 := by
        simp only [V3.mag2, V3.dot] at hu hd ⊢
        nlinarith [sq_nonneg ((upright n c j).x - d.x), sq_nonneg ((upright n c j).y - d.y), sq_nonneg ((upright n c j).z - d.z)]
      have e : ∀ x, (q.side j).height x = (upright n c j).dot (x - c j) := by
        intro x
        rw [hq'.side]
        simp only [sideArea, area, upright, V3.dot, V3.cross, V3.smul_x, V3.smul_y, V3.smul_z]
        ring
      have hpos : 0 ≤ (q.side j).height (V3.at' p d t) := by
        rw [hq'.side]
        exact div_nonneg (hc.in_side hx j) (sqrt_nonneg _)
      rw [e] at hpos ⊢
      have e2 : (upright n c j).dot (V3.at' p d s - c j) = (upright n c j).dot (V3.at' p d t - c j) - (t - s) * (upright n c j).dot d := by
        simp only [V3.dot, V3.sub_x, V3.sub_y, V3.sub_z, V3.at_x, V3.at_y, V3.at_z]; ring
      rw [e2]
      have : (t - s) * (upright n c j).dot d ≤ t - s := by nlinarith
      linarith
  have hone : distanceToIn false [q] p d = s := by
    unfold distanceToIn inLoop
    rw [(test_iff s).2 hent]
    simp only [Option.getD_some]
    rw [if_pos (lt_of_le_of_lt hst ht), max_eq_right hs0]
  refine ⟨fun l hl => (C197_finite false l p d).2 ⟨q, hl, s, lt_of_le_of_lt hst ht, hent⟩, ?_, ?_⟩
  · rw [hone]; linarith
  · rw [hone]; exact hst

/-! ## Examples -/

/-- The plane z = `h` looking down, with sides that accept all points. -/
def low (h : ℝ) : Quad := ⟨⟨⟨0, 0, -1⟩, h⟩, fun _ => ⟨⟨0, 0, 0⟩, 0⟩, fun _ => ⟨0, 0, 0⟩⟩

theorem low_distance {h : ℝ} (h0 : 0 < h) (h1 : h < 1000) (l : List Quad) : distanceToIn false (low h :: l) ⟨0, 0, 0⟩ ⟨0, 0, 1⟩ = h / (1 + 1 / 10 ^ 20) := by
  have htol := kTolerance_pos
  have hk := kInfLength_large
  have hD : (0 : ℝ) < 1 + 1 / 10 ^ 20 := by positivity
  have hle : h / (1 + 1 / 10 ^ 20) ≤ h := div_le_self h0.le (by norm_num)
  have hp : 0 ≤ h / (1 + 1 / 10 ^ 20) := by positivity
  have he : Enters false (low h) ⟨0, 0, 0⟩ ⟨0, 0, 1⟩ (h / (1 + 1 / 10 ^ 20)) := by
    refine ⟨?_, ?_, ?_⟩
    · show -kTolerance < (low h).plane.height ⟨0, 0, 0⟩ ∧ (low h).plane.n.dot ⟨0, 0, 1⟩ < 0
      norm_num [low, Plane.height, V3.dot]
      linarith
    · simp only [low, Plane.height, V3.dot, V3.at_x, V3.at_y, V3.at_z, Bool.false_eq_true, if_false]
      field_simp
      ring
    · intro j
      simp only [low, Plane.height, V3.dot]
      linarith
  unfold distanceToIn inLoop
  rw [(test_iff _).2 he]
  simp only [Option.getD_some]
  rw [if_pos (by linarith), max_eq_right hp]

/-- C197 is about the first quadrilateral of the list, not the nearest: with two planes one behind the other the result depends on their order. -/
theorem C197_order_counterexample : ∃ (q1 q2 : Quad) (p d : V3), d.mag2 = 1 ∧ 9 < distanceToIn false [q1, q2] p d ∧ distanceToIn false [q2, q1] p d < 2 := by
  refine ⟨low 10, low 1, ⟨0, 0, 0⟩, ⟨0, 0, 1⟩, by norm_num [V3.mag2, V3.dot], ?_, ?_⟩
  · rw [low_distance (by norm_num) (by norm_num)]; norm_num
  · rw [low_distance (by norm_num) (by norm_num)]; norm_num

/-- From above down to the middle of the square. -/
example : ∃ q, make square = some q ∧ 2 - kTolerance ≤ distanceToIn false [q] ⟨0, 0, 3⟩ ⟨0, 0, -1⟩ ∧ distanceToIn false [q] ⟨0, 0, 3⟩ ⟨0, 0, -1⟩ ≤ 2 := by
  have hk := kInfLength_large
  obtain ⟨q, hq, -⟩ := C196_set square_convex square_apart (by norm_num [Clean, kTolerance]) square_clean
  refine ⟨q, hq, (C197_reaches square_convex square_apart (by norm_num [Clean, kTolerance]) square_clean hq (by norm_num [V3.mag2, V3.dot]) (by norm_num) (by linarith) ?_
    (by norm_num [V3.dot]) (by norm_num [V3.dot, kTolerance])).2⟩
  refine ⟨fun _ => 1 / 4, fun _ => by norm_num, by norm_num, ?_⟩
  ext <;> simp [square_at] <;> norm_num

end Quad
end VecGeom

import Verif.SExtru.DistIn

/-!
# C98, C99: distances out of and into extruded polygons that are not convex
-/

namespace VecGeom
namespace SExtru

open Real Polygon

variable {k n : Nat} {x y : Nat → ℝ} {lo hi : ℝ} {s : Shell}

/-- The distance to one line, as the loops for polygons that are not convex compute it. -/
noncomputable def lhit (P : Poly) (p d : V3) (i : Nat) : ℝ := lineVal P (p.x, p.y) i / nonZero (-rate P d i)

/-- The edge counts for the distance out. -/
def OutSeen (s : Shell) (p d : V3) (i : Nat) : Prop :=
  -kTolerance ≤ rate s.poly d i ∧ lineVal s.poly (p.x, p.y) i ≤ kTolerance ∧
    (s.lo ≤ (pos p d (lhit s.poly p d i)).z ∧ (pos p d (lhit s.poly p d i)).z ≤ s.hi) ∧
    onSegment s.poly i (pos p d (lhit s.poly p d i)).x (pos p d (lhit s.poly p d i)).y = true ∧ -kTolerance ≤ lhit s.poly p d i

/-- The edge counts for the distance in. -/
def InSeen (s : Shell) (p d : V3) (i : Nat) : Prop :=
  rate s.poly d i ≤ kTolerance ∧ -kTolerance ≤ lineVal s.poly (p.x, p.y) i ∧
    (s.lo ≤ (pos p d (lhit s.poly p d i)).z ∧ (pos p d (lhit s.poly p d i)).z ≤ s.hi) ∧
    onSegment s.poly i (pos p d (lhit s.poly p d i)).x (pos p d (lhit s.poly p d i)).y = true

open Classical in
theorem outPass_eq (p d : V3) (r : ℝ) (i : Nat) :
    outPass s p d r i = if OutSeen s p d i then min (lhit s.poly p d i) r else r := by
  unfold OutSeen
  have e1 : s.poly.a i * d.x + s.poly.b i * d.y = -rate s.poly d i := by unfold rate; ring
  have e2 : s.poly.a i * p.x + s.poly.b i * p.y + s.poly.d i = -lineVal s.poly (p.x, p.y) i := by unfold lineVal; ring
  unfold outPass
  dsimp only
  rw [e1, e2, neg_neg]
  have e3 : lineVal s.poly (p.x, p.y) i / nonZero (-rate s.poly d i) = lhit s.poly p d i := rfl
  rw [e3]
  generalize lhit s.poly p d i = t
  unfold pos
  dsimp only
  by_cases c1 : -kTolerance ≤ rate s.poly d i
  · have c1' : -rate s.poly d i ≤ kTolerance := by linarith
    rw [if_neg (not_not.mpr c1')]
    by_cases c2 : lineVal s.poly (p.x, p.y) i ≤ kTolerance
    · rw [if_neg (by linarith)]
      by_cases c3 : s.lo ≤ p.z + t * d.z ∧ p.z + t * d.z ≤ s.hi
      · rw [if_pos ⟨c3.2, c3.1⟩]
        by_cases c4 : onSegment s.poly i (p.x + t * d.x) (p.y + t * d.y) = true ∧ -kTolerance ≤ t
        · rw [if_pos c4, if_pos ⟨c1, c2, c3, c4⟩]
        · rw [if_neg c4, if_neg fun h => c4 h.2.2.2]
      · rw [if_neg fun h => c3 ⟨h.2, h.1⟩, if_neg fun h => c3 h.2.2.1]
    · rw [if_pos (by linarith [not_le.mp c2]), if_neg fun h => c2 h.2.1]
  · have c1' : ¬ -rate s.poly d i ≤ kTolerance := by intro h; apply c1; linarith
    rw [if_pos c1', if_neg fun h => c1 h.1]

open Classical in
theorem inPass_eq (p d : V3) (r : ℝ) (i : Nat) :
    inPass s p d r i = if InSeen s p d i then min (lhit s.poly p d i) r else r := by
  unfold InSeen
  have e1 : s.poly.a i * d.x + s.poly.b i * d.y = -rate s.poly d i := by unfold rate; ring
  have e2 : s.poly.a i * p.x + s.poly.b i * p.y + s.poly.d i = -lineVal s.poly (p.x, p.y) i := by unfold lineVal; ring
  unfold inPass
  dsimp only
  rw [e1, e2, neg_neg]
  have e3 : lineVal s.poly (p.x, p.y) i / nonZero (-rate s.poly d i) = lhit s.poly p d i := rfl
  rw [e3]
  generalize lhit s.poly p d i = t
  unfold pos
  dsimp only
  by_cases c1 : rate s.poly d i ≤ kTolerance
  · have c1' : -rate s.poly d i ≥ -kTolerance := by linarith
    rw [if_neg (not_not.mpr c1')]
    by_cases c2 : -kTolerance ≤ lineVal s.poly (p.x, p.y) i
    · rw [if_neg (by linarith)]
      by_cases c3 : s.lo ≤ p.z + t * d.z ∧ p.z + t * d.z ≤ s.hi
      · rw [if_pos ⟨c3.2, c3.1⟩]
        by_cases c4 : onSegment s.poly i (p.x + t * d.x) (p.y + t * d.y) = true
        · rw [if_pos c4, if_pos ⟨c1, c2, c3, c4⟩]
        · rw [if_neg c4, if_neg fun h => c4 h.2.2.2]
      · rw [if_neg fun h => c3 ⟨h.2, h.1⟩, if_neg fun h => c3 h.2.2.1]
    · rw [if_pos (by linarith [not_le.mp c2]), if_neg fun h => c2 h.2.1]
  · have c1' : ¬ -rate s.poly d i ≥ -kTolerance := by intro h; apply c1; linarith
    rw [if_pos c1', if_neg fun h => c1 h.1]

open Classical in
/-- A loop that keeps the least of the values that pass a test. -/
theorem fold_min (f : ℝ → Nat → ℝ) (c : Nat → Prop) (v : Nat → ℝ) (hf : ∀ r i, f r i = if c i then min (v i) r else r) (m : Nat) (r0 : ℝ) :
    (List.range m).foldl f r0 ≤ r0 ∧ (∀ i, i < m → c i → (List.range m).foldl f r0 ≤ v i) ∧
      ((List.range m).foldl f r0 = r0 ∨ ∃ i, i < m ∧ c i ∧ (List.range m).foldl f r0 = v i) := by
  induction m with
  | zero => exact ⟨le_rfl, fun i hi => absurd hi (Nat.not_lt_zero _), Or.inl rfl⟩
  | succ m ih =>
    rw [List.range_succ, List.foldl_append, List.foldl_cons, List.foldl_nil, hf]
    obtain ⟨h1, h2, h3⟩ := ih
    by_cases hc : c m
    · rw [if_pos hc]
      refine ⟨(min_le_right _ _).trans h1, fun i hi hci => ?_, ?_⟩
      · rcases Nat.lt_succ_iff_lt_or_eq.mp hi with hi | rfl
        · exact (min_le_right _ _).trans (h2 i hi hci)
        · exact min_le_left _ _
      · rcases min_choice (v m) ((List.range m).foldl f r0) with e | e
        · rw [e]; exact Or.inr ⟨m, by omega, hc, rfl⟩
        · rw [e]
          rcases h3 with h | ⟨i, hi, h⟩
          · exact Or.inl h
          · exact Or.inr ⟨i, by omega, h⟩
    · rw [if_neg hc]
      refine ⟨h1, fun i hi hci => ?_, ?_⟩
      · rcases Nat.lt_succ_iff_lt_or_eq.mp hi with hi | rfl
        · exact h2 i hi hci
        · exact absurd hci hc
      · rcases h3 with h | ⟨i, hi, h⟩
        · exact Or.inl h
        · exact Or.inr ⟨i, by omega, h⟩

/-- `OnSegment` in terms of the ends of the edge. -/
theorem Given.onSegment_iff (g : Given k n x y lo hi s) {i : Nat} (hi : i < n) (q : ℝ × ℝ) :
    onSegment s.poly i q.1 q.2 = true ↔ |side (vert n x y (prev n i)) (vert n x y i) q| < kTolerance ∧
      -kTolerance ≤ (q.1 - (vert n x y (prev n i)).1) * ((vert n x y i).1 - (vert n x y (prev n i)).1) +
        (q.2 - (vert n x y (prev n i)).2) * ((vert n x y i).2 - (vert n x y (prev n i)).2) ∧
      (q.1 - (vert n x y (prev n i)).1) * ((vert n x y i).1 - (vert n x y (prev n i)).1) +
        (q.2 - (vert n x y (prev n i)).2) * ((vert n x y i).2 - (vert n x y (prev n i)).2) ≤
          kTolerance + dist2 (vert n x y i) (vert n x y (prev n i)) := by
  rw [(init_some g.poly.1).1]
  have ex : (build k n x y).x i = (vert n x y i).1 := if_pos hi
  have ey : (build k n x y).y i = (vert n x y i).2 := if_pos hi
  have esx : (build k n x y).sx i = (vert n x y (prev n i)).1 := if_pos hi
  have esy : (build k n x y).sy i = (vert n x y (prev n i)).2 := if_pos hi
  have el : (build k n x y).len2 i = dist2 (vert n x y i) (vert n x y (prev n i)) := if_pos hi
  unfold onSegment
  rw [ex, ey, esx, esy, el]
  have ht : kTolerance = 1 / 10 ^ 9 := by unfold kTolerance; norm_num
  have es : (q.2 - (vert n x y (prev n i)).2) * ((vert n x y i).1 - (vert n x y (prev n i)).1) -
      (q.1 - (vert n x y (prev n i)).1) * ((vert n x y i).2 - (vert n x y (prev n i)).2) = side (vert n x y (prev n i)) (vert n x y i) q := by
    unfold side; ring
  dsimp only
  rw [es]
  by_cases h : |side (vert n x y (prev n i)) (vert n x y i) q| < 1 / 10 ^ 9
  · rw [if_neg (not_not.mpr h), Bool.and_eq_true, decide_eq_true_iff, decide_eq_true_iff]
    rw [← ht] at h
    exact ⟨fun h' => ⟨h, h'.1, h'.2⟩, fun h' => h'.2⟩
  · rw [if_pos h]
    rw [← ht] at h
    simp only [Bool.false_eq_true, false_iff]
    exact fun h' => h h'.1

/-- A point for which `OnSegment` answers yes is near the edge: within `√2` tolerances divided by the length of the edge. -/
theorem near_segment {a c q : ℝ × ℝ} {e : ℝ} (hl : 0 < dist2 c a) (h1 : |side a c q| ≤ e)
    (h2 : -e ≤ (q.1 - a.1) * (c.1 - a.1) + (q.2 - a.2) * (c.2 - a.2))
    (h3 : (q.1 - a.1) * (c.1 - a.1) + (q.2 - a.2) * (c.2 - a.2) ≤ e + dist2 c a) :
    ∃ b, OnEdge a c b ∧ dist2 q b * dist2 c a ≤ 2 * (e * e) := by
  have he : 0 ≤ e := (abs_nonneg _).trans h1
  have hw : side a c q * side a c q ≤ e * e := by
    have := mul_self_le_mul_self (abs_nonneg _) h1
    rwa [abs_mul_abs_self] at this
  have ee := mul_nonneg he he
  unfold side at hw
  by_cases hneg : (q.1 - a.1) * (c.1 - a.1) + (q.2 - a.2) * (c.2 - a.2) < 0
  · refine ⟨a, ⟨0, le_rfl, zero_le_one, by ext <;> simp⟩, ?_⟩
    have hid : dist2 q a * dist2 c a = ((q.1 - a.1) * (c.1 - a.1) + (q.2 - a.2) * (c.2 - a.2)) * ((q.1 - a.1) * (c.1 - a.1) + (q.2 - a.2) * (c.2 - a.2)) +
        ((c.1 - a.1) * (q.2 - a.2) - (c.2 - a.2) * (q.1 - a.1)) * ((c.1 - a.1) * (q.2 - a.2) - (c.2 - a.2) * (q.1 - a.1)) := by
      unfold dist2; ring
    rw [hid]
    generalize (q.1 - a.1) * (c.1 - a.1) + (q.2 - a.2) * (c.2 - a.2) = u at *
    nlinarith
  · by_cases hbig : dist2 c a < (q.1 - a.1) * (c.1 - a.1) + (q.2 - a.2) * (c.2 - a.2)
    · refine ⟨c, ⟨1, zero_le_one, le_rfl, by ext <;> simp⟩, ?_⟩
      have hid : dist2 q c * dist2 c a = ((q.1 - a.1) * (c.1 - a.1) + (q.2 - a.2) * (c.2 - a.2) - dist2 c a) * ((q.1 - a.1) * (c.1 - a.1) + (q.2 - a.2) * (c.2 - a.2) - dist2 c a) +
          ((c.1 - a.1) * (q.2 - a.2) - (c.2 - a.2) * (q.1 - a.1)) * ((c.1 - a.1) * (q.2 - a.2) - (c.2 - a.2) * (q.1 - a.1)) := by
        unfold dist2; ring
      rw [hid]
      generalize (q.1 - a.1) * (c.1 - a.1) + (q.2 - a.2) * (c.2 - a.2) = u at *
      nlinarith
    · refine ⟨_, ⟨((q.1 - a.1) * (c.1 - a.1) + (q.2 - a.2) * (c.2 - a.2)) / dist2 c a, div_nonneg (not_lt.mp hneg) hl.le,
        (div_le_one hl).mpr (not_lt.mp hbig), rfl⟩, ?_⟩
      have hu : ((q.1 - a.1) * (c.1 - a.1) + (q.2 - a.2) * (c.2 - a.2)) / dist2 c a * dist2 c a = (q.1 - a.1) * (c.1 - a.1) + (q.2 - a.2) * (c.2 - a.2) :=
        div_mul_cancel₀ _ hl.ne'
      generalize ((q.1 - a.1) * (c.1 - a.1) + (q.2 - a.2) * (c.2 - a.2)) / dist2 c a = t at *
      have hid : dist2 q (a.1 + t * (c.1 - a.1), a.2 + t * (c.2 - a.2)) * dist2 c a =
          ((c.1 - a.1) * (q.2 - a.2) - (c.2 - a.2) * (q.1 - a.1)) * ((c.1 - a.1) * (q.2 - a.2) - (c.2 - a.2) * (q.1 - a.1)) := by
        have hL : dist2 c a = (c.1 - a.1) * (c.1 - a.1) + (c.2 - a.2) * (c.2 - a.2) := rfl
        rw [hL] at hu ⊢
        unfold dist2
        dsimp only
        linear_combination (t * ((c.1 - a.1) * (c.1 - a.1) + (c.2 - a.2) * (c.2 - a.2)) - ((q.1 - a.1) * (c.1 - a.1) + (q.2 - a.2) * (c.2 - a.2))) * hu
      rw [hid]; linarith

/-- A point moved by at most `m` in the plane from a point of an edge passes the test of `OnSegment`. -/
theorem moved_segment {a c q r : ℝ × ℝ} {e m : ℝ} (hq : OnEdge a c q) (hm : 0 ≤ m) (hr : dist2 r q ≤ m * m) (he : m * √(dist2 c a) < e) :
    |side a c r| < e ∧ -e ≤ (r.1 - a.1) * (c.1 - a.1) + (r.2 - a.2) * (c.2 - a.2) ∧
      (r.1 - a.1) * (c.1 - a.1) + (r.2 - a.2) * (c.2 - a.2) ≤ e + dist2 c a := by
  obtain ⟨t, t0, t1, hq⟩ := hq
  have hL := dist2_nonneg c a
  have hl := sqrt_nonneg (dist2 c a)
  have hl2 := mul_self_sqrt hL
  have hb : ∀ w, w * w ≤ dist2 r q * dist2 c a → |w| ≤ m * √(dist2 c a) := by
    intro w hw
    rw [← sqrt_sq_eq_abs, ← sqrt_sq (mul_nonneg hm hl)]
    apply sqrt_le_sqrt
    have : dist2 r q * dist2 c a ≤ m * m * dist2 c a := mul_le_mul_of_nonneg_right hr hL
    nlinarith
  have hu := hb ((r.1 - q.1) * (c.1 - a.1) + (r.2 - q.2) * (c.2 - a.2)) (by
    unfold dist2; nlinarith [mul_self_nonneg ((r.1 - q.1) * (c.2 - a.2) - (r.2 - q.2) * (c.1 - a.1))])
  have hv := hb ((c.1 - a.1) * (r.2 - q.2) - (c.2 - a.2) * (r.1 - q.1)) (by
    unfold dist2; nlinarith [mul_self_nonneg ((r.1 - q.1) * (c.1 - a.1) + (r.2 - q.2) * (c.2 - a.2))])
  have e1 : side a c r = (c.1 - a.1) * (r.2 - q.2) - (c.2 - a.2) * (r.1 - q.1) := by
    rw [hq]; unfold side; dsimp only; ring
  have e2 : (r.1 - a.1) * (c.1 - a.1) + (r.2 - a.2) * (c.2 - a.2) =
      (r.1 - q.1) * (c.1 - a.1) + (r.2 - q.2) * (c.2 - a.2) + t * dist2 c a := by
    rw [hq]; unfold dist2; dsimp only; ring
  have hu' := abs_le.mp hu
  have ht := mul_nonneg t0 hL
  have ht1 : t * dist2 c a ≤ dist2 c a := by nlinarith
  rw [e1, e2]
  exact ⟨lt_of_le_of_lt hv he, by linarith, by linarith⟩

/-- How far the computed distance to a line is from the true one. -/
theorem lhit_near {P : Poly} {p d : V3} {i : Nat} {t : ℝ} (ht : 0 ≤ t) (hr : kTolerance ≤ |rate P d i|)
    (hz : lineVal P (p.x, p.y) i + t * rate P d i = 0) :
    0 ≤ lhit P p d i ∧ lhit P p d i ≤ t ∧ (t - lhit P p d i) * 10 ^ 21 ≤ t := by
  have hT := kTiny_pos
  have hTol := kTolerance_pos
  unfold lhit
  rw [show lineVal P (p.x, p.y) i = t * (-rate P d i) by linarith]
  have hsm : kTiny * 10 ^ 21 = kTolerance := by unfold kTiny kTolerance; norm_num
  have hne : -rate P d i ≠ 0 := by
    intro h
    rw [neg_eq_zero.mp h, abs_zero] at hr; linarith
  rw [← abs_neg] at hr
  generalize -rate P d i = w at *
  rw [mul_div_assoc]
  obtain ⟨b1, b2, -⟩ := ratio_bounds hne
  have b3 : (1 - w / nonZero w) * 10 ^ 21 ≤ 1 := by
    rcases lt_or_gt_of_ne hne with hw | hw
    · have hn := nonZero_neg hw
      rw [nz_neg hw] at hn ⊢
      rw [abs_of_neg hw] at hr
      rw [show 1 - w / (w - kTiny) = kTiny / (kTiny - w) by
        have e : w / (w - kTiny) * (w - kTiny) = w := div_mul_cancel₀ _ hn.ne
        rw [eq_div_iff (by linarith)]; linear_combination e]
      rw [div_mul_eq_mul_div, hsm, div_le_one (by linarith)]; linarith
    · rw [nz_pos hw.le]
      rw [abs_of_pos hw] at hr
      rw [show 1 - w / (w + kTiny) = kTiny / (w + kTiny) by
        have : w + kTiny ≠ 0 := by linarith
        field_simp; ring]
      rw [div_mul_eq_mul_div, hsm, div_le_one (by linarith)]; linarith
  refine ⟨mul_nonneg ht b1, mul_le_of_le_one_right ht b2, ?_⟩
  nlinarith

/-- The ray is, at `t`, on an edge of the polygon and between the planes, by more than the tolerance; `t` and its product with the length
of the edge are at most `10¹¹`. -/
def Meets (n : Nat) (v : Nat → ℝ × ℝ) (lo hi : ℝ) (p d : V3) (j : Nat) (t : ℝ) : Prop :=
  j < n ∧ 0 ≤ t ∧ t ≤ 10 ^ 11 ∧ t * √(dist2 (v j) (v ((j + 1) % n))) ≤ 10 ^ 11 ∧
    OnEdge (v j) (v ((j + 1) % n)) ((pos p d t).x, (pos p d t).y) ∧ lo + kTolerance ≤ (pos p d t).z ∧ (pos p d t).z ≤ hi - kTolerance

/-- The point is near an edge: within `√2` tolerances divided by the length of the edge. -/
def NearEdge (n : Nat) (v : Nat → ℝ × ℝ) (q : ℝ × ℝ) : Prop :=
  ∃ j b, j < n ∧ OnEdge (v j) (v ((j + 1) % n)) b ∧ dist2 q b * dist2 (v j) (v ((j + 1) % n)) ≤ 2 * (kTolerance * kTolerance)

theorem dist2_swap (a b : ℝ × ℝ) : dist2 a b = dist2 b a := by unfold dist2; ring

theorem Given.near_edge (g : Given k n x y lo hi s) {i : Nat} (hi : i < n) {q : ℝ × ℝ} (h : onSegment s.poly i q.1 q.2 = true) :
    NearEdge n (fun i => (x i, y i)) q := by
  obtain ⟨j, hj, hv⟩ := edge_of g.few x y hi
  have hl := sqrt_pos.mp (root_pos g.distinct hj)
  obtain ⟨h1, h2, h3⟩ := (g.onSegment_iff hi q).mp h
  rcases hv with hv | hv
  · rw [hv.1, hv.2] at h1 h2 h3
    obtain ⟨b, hb, hd⟩ := near_segment hl h1.le h2 h3
    exact ⟨j, b, hj, onEdge_comm.mp hb, hd⟩
  · rw [hv.1, hv.2] at h1 h2 h3
    obtain ⟨b, hb, hd⟩ := near_segment (by rw [dist2_swap]; exact hl) h1.le h2 h3
    refine ⟨j, b, hj, hb, ?_⟩
    rw [dist2_swap (x j, y j)]; exact hd

/-- What the loops see of an edge that the ray meets. -/
theorem Given.meets (g : Given k n x y lo hi s) (hu : Unchopped n (fun i => (x i, y i))) {p d : V3} (hd : d.x ^ 2 + d.y ^ 2 ≤ 1)
    (hdz : |d.z| ≤ 1) {j : Nat} {t : ℝ} (hm : Meets n (fun i => (x i, y i)) lo hi p d j t)
    (hr : kTolerance ≤ |depth n (fun i => (x i, y i)) j ((pos p d 1).x, (pos p d 1).y) - depth n (fun i => (x i, y i)) j (p.x, p.y)|) :
    ∃ i, i < n ∧ rate s.poly d i = -(depth n (fun i => (x i, y i)) j ((pos p d 1).x, (pos p d 1).y) - depth n (fun i => (x i, y i)) j (p.x, p.y)) ∧
      lineVal s.poly (p.x, p.y) i + t * rate s.poly d i = 0 ∧ 0 ≤ lhit s.poly p d i ∧ lhit s.poly p d i ≤ t ∧
      (lo ≤ (pos p d (lhit s.poly p d i)).z ∧ (pos p d (lhit s.poly p d i)).z ≤ hi) ∧
      onSegment s.poly i (pos p d (lhit s.poly p d i)).x (pos p d (lhit s.poly p d i)).y = true := by
  obtain ⟨hj, t0, t1, t2, he, hz1, hz2⟩ := hm
  obtain ⟨i, hi, hdep, hvert⟩ := depth_edge_full (x := x) (y := y) g.few hj
  have hline : ∀ q, lineVal s.poly q i = -depth n (fun i => (x i, y i)) j q := by
    intro q
    have h7 := abs_nonpos_iff.mp (err_exact (k := k) g.few hu q i hi)
    rw [hdep, ← (init_some g.poly.1).1] at h7
    linarith
  have e1 := lineVal_pos s.poly p d 1 i
  have et := lineVal_pos s.poly p d t i
  rw [one_mul, hline, hline] at e1
  have hrate : rate s.poly d i = -(depth n (fun i => (x i, y i)) j ((pos p d 1).x, (pos p d 1).y) - depth n (fun i => (x i, y i)) j (p.x, p.y)) := by
    linarith
  have hz : lineVal s.poly (p.x, p.y) i + t * rate s.poly d i = 0 := by
    rw [← et, hline]
    have : depth n (fun i => (x i, y i)) j ((pos p d t).x, (pos p d t).y) = 0 := by
      obtain ⟨u, -, -, hq⟩ := he
      rw [hq]
      unfold depth side
      dsimp only
      ring_nf
    rw [this, neg_zero]
  have hr' : kTolerance ≤ |rate s.poly d i| := by rw [hrate, abs_neg]; exact hr
  obtain ⟨l1, l2, l3⟩ := lhit_near t0 hr' hz
  refine ⟨i, hi, hrate, hz, l1, l2, ?_, ?_⟩
  · generalize lhit s.poly p d i = h at *
    unfold pos at hz1 hz2 ⊢
    dsimp only at hz1 hz2 ⊢
    have hdz' := abs_le.mp hdz
    have hs : t - h ≤ kTolerance := by unfold kTolerance; norm_num at l3 t1 ⊢; linarith
    have a1 : (t - h) * d.z ≤ t - h := by nlinarith
    have a2 : -(t - h) ≤ (t - h) * d.z := by nlinarith
    constructor <;> nlinarith
  · generalize lhit s.poly p d i = h at *
    rw [g.onSegment_iff hi ((pos p d h).x, (pos p d h).y)]
    have hmv : dist2 ((pos p d h).x, (pos p d h).y) ((pos p d t).x, (pos p d t).y) ≤ (t - h) * (t - h) := by
      unfold dist2 pos
      dsimp only
      have : (p.x + h * d.x - (p.x + t * d.x)) * (p.x + h * d.x - (p.x + t * d.x)) + (p.y + h * d.y - (p.y + t * d.y)) * (p.y + h * d.y - (p.y + t * d.y)) =
          (t - h) * (t - h) * (d.x ^ 2 + d.y ^ 2) := by ring
      rw [this]
      exact mul_le_of_le_one_right (mul_self_nonneg _) hd
    have hth : 0 ≤ t - h := by linarith
    have hlen := sqrt_nonneg (dist2 (x j, y j) (x ((j + 1) % n), y ((j + 1) % n)))
    have hsm : (t - h) * √(dist2 (x j, y j) (x ((j + 1) % n), y ((j + 1) % n))) < kTolerance := by
      have := mul_le_mul_of_nonneg_right l3 hlen
      have h5 : (t - h) * √(dist2 (x j, y j) (x ((j + 1) % n), y ((j + 1) % n))) * 10 ^ 21 ≤ 10 ^ 11 := by
        refine le_trans (le_of_eq ?_) (this.trans t2); ring
      unfold kTolerance; norm_num at h5 ⊢; linarith
    rcases hvert with hv | hv
    · rw [hv.1, hv.2]
      exact moved_segment (onEdge_comm.mp he) hth hmv hsm
    · rw [hv.1, hv.2]
      refine moved_segment he hth hmv ?_
      rw [dist2_swap]; exact hsm

/-- C98: polygons not reported as convex: where a ray ends that is said to leave. -/
theorem C98_out_concave_sound (g : Given k n x y lo hi s) (hf : s.poly.convex = false) (p d : V3) :
    (distanceToOut s p d = none → d.z = 0) ∧
    ∀ r, distanceToOut s p d = some r →
      (-kTolerance ≤ r ∧ lo ≤ (pos p d r).z ∧ (pos p d r).z ≤ hi ∧ NearEdge n (fun i => (x i, y i)) ((pos p d r).x, (pos p d r).y)) ∨
      (0 < d.z ∧ (pos p d r).z = hi) ∨ (d.z < 0 ∧ (pos p d r).z = lo) := by
  obtain ⟨hp, h1, h2⟩ := g.poly
  unfold distanceToOut
  rw [hf, if_neg (by simp)]
  dsimp only
  have hfold := fold_min (outPass s p d) (OutSeen s p d) (lhit s.poly p d) (outPass_eq p d) n kInfLength
  unfold shellOutConcave
  rw [g.poly_n]
  generalize (List.range n).foldl (outPass s p d) kInfLength = r0 at *
  obtain ⟨-, -, h⟩ := hfold
  by_cases hlt : r0 < kInfLength
  · rw [if_pos hlt]
    refine ⟨fun h => by simp at h, fun r hr => ?_⟩
    rw [Option.some.injEq] at hr
    subst hr
    rcases h with h | ⟨i, hi, ⟨-, -, c1, c2, c3⟩, h⟩
    · exact absurd hlt (by rw [h]; exact lt_irrefl _)
    · rw [← h] at c1 c2 c3
      rw [h1, h2] at c1
      exact Or.inl ⟨c3, c1.1, c1.2, g.near_edge hi c2⟩
  · rw [if_neg hlt]
    by_cases hz : d.z = 0
    · rw [if_pos hz]
      exact ⟨fun _ => hz, fun r hr => by simp at hr⟩
    · rw [if_neg hz]
      refine ⟨fun h => by simp at h, fun r hr => ?_⟩
      rw [Option.some.injEq] at hr
      right
      unfold pos
      dsimp only
      rw [← hr, div_mul_cancel₀ _ hz]
      rcases lt_or_gt_of_ne hz with hz | hz
      · right; rw [if_neg (by linarith), h1]; exact ⟨hz, by ring⟩
      · left; rw [if_pos hz, h2]; exact ⟨hz, by ring⟩

/-- C98: polygons not reported as convex, without chopped coefficients: no edge through which the ray leaves the solid, at a rate of at
least the tolerance, is missed. -/
theorem C98_out_concave_complete (g : Given k n x y lo hi s) (hf : s.poly.convex = false) (hu : Unchopped n (fun i => (x i, y i)))
    (p d : V3) (hd : d.x ^ 2 + d.y ^ 2 ≤ 1) (hdz : |d.z| ≤ 1) (j : Nat) (t : ℝ) (hm : Meets n (fun i => (x i, y i)) lo hi p d j t)
    (hr : depth n (fun i => (x i, y i)) j ((pos p d 1).x, (pos p d 1).y) + kTolerance ≤ depth n (fun i => (x i, y i)) j (p.x, p.y)) :
    ∃ r, distanceToOut s p d = some r ∧ r ≤ t := by
  have hTol := kTolerance_pos
  have habs : kTolerance ≤ |depth n (fun i => (x i, y i)) j ((pos p d 1).x, (pos p d 1).y) - depth n (fun i => (x i, y i)) j (p.x, p.y)| := by
    rw [abs_of_nonpos (by linarith)]; linarith
  obtain ⟨i, hi, e1, e2, e3, e4, e5, e6⟩ := g.meets hu hd hdz hm habs
  obtain ⟨hp, h1, h2⟩ := g.poly
  have hfold := (fold_min (outPass s p d) (OutSeen s p d) (lhit s.poly p d) (outPass_eq p d) n kInfLength).2.1 i hi ⟨by linarith, by
    have : 0 ≤ t * rate s.poly d i := mul_nonneg hm.2.1 (by linarith)
    linarith, by rw [h1, h2]; exact e5, e6, by linarith⟩
  have hle := hfold.trans e4
  have hlt : (List.range n).foldl (outPass s p d) kInfLength < kInfLength := by
    refine lt_of_le_of_lt (hle.trans hm.2.2.1) (lt_trans ?_ kInf_huge)
    exact pow_lt_pow_right₀ (by norm_num) (by norm_num)
  unfold distanceToOut
  rw [hf, if_neg (by simp)]
  dsimp only
  unfold shellOutConcave
  rw [g.poly_n, if_pos hlt]
  exact ⟨_, rfl, hle⟩

/-- C99: polygons not reported as convex: where a ray ends that is said to reach the solid. -/
theorem C99_in_concave_sound (g : Given k n x y lo hi s) (hf : s.poly.convex = false) (p d : V3) (hr : distanceToIn k s p d ≠ kInfLength) :
    let r := distanceToIn k s p d
    (lo ≤ (pos p d r).z ∧ (pos p d r).z ≤ hi ∧ NearEdge n (fun i => (x i, y i)) ((pos p d r).x, (pos p d r).y)) ∨
    (((0 < d.z ∧ (pos p d r).z = lo) ∨ (d.z < 0 ∧ (pos p d r).z = hi)) ∧ -kTolerance < r * |d.z| ∧
      (Clear n (fun i => (x i, y i)) ((pos p d r).x, (pos p d r).y) → Region n (fun i => (x i, y i)) ((pos p d r).x, (pos p d r).y))) := by
  obtain ⟨hp, h1, h2⟩ := g.poly
  have hshell : shellInConcave s p d ≠ kInfLength → (lo ≤ (pos p d (shellInConcave s p d)).z ∧ (pos p d (shellInConcave s p d)).z ≤ hi ∧
      NearEdge n (fun i => (x i, y i)) ((pos p d (shellInConcave s p d)).x, (pos p d (shellInConcave s p d)).y)) := by
    intro hne
    have hfold := fold_min (inPass s p d) (InSeen s p d) (lhit s.poly p d) (inPass_eq p d) n kInfLength
    unfold shellInConcave at hne ⊢
    rw [g.poly_n] at hne ⊢
    generalize (List.range n).foldl (inPass s p d) kInfLength = r0 at *
    rcases hfold.2.2 with h | ⟨i, hi, ⟨-, -, c1, c2⟩, h⟩
    · exact absurd h hne
    · rw [← h] at c1 c2
      rw [h1, h2] at c1
      exact ⟨c1.1, c1.2, g.near_edge hi c2⟩
  unfold distanceToIn at hr ⊢
  rw [hf, if_neg (by simp)] at hr ⊢
  dsimp only at hr ⊢
  rw [h1, h2] at hr ⊢
  generalize he : (if d.z > 0 then p.z - lo else hi - p.z) = e at hr ⊢
  split at hr
  · rename_i hc
    rw [if_pos hc]
    split at hr
    · rename_i hk
      rw [if_pos hk]
      exact Or.inl (hshell hr)
    · rename_i hk
      rw [if_neg hk]
      right
      obtain ⟨c1, c2, c3⟩ := hc
      have hab : 0 < |d.z| := abs_pos.mpr c2
      have hcan : -e / |d.z| * |d.z| = -e := div_mul_cancel₀ _ hab.ne'
      generalize -e / |d.z| = r at *
      refine ⟨?_, by rw [hcan]; linarith, fun hcl => (g.general hcl).mp c3⟩
      unfold pos
      dsimp only
      rcases lt_or_gt_of_ne c2 with hz | hz
      · right
        rw [if_neg (by linarith)] at he
        rw [abs_of_neg hz] at hcan
        exact ⟨hz, by linarith⟩
      · left
        rw [if_pos hz] at he
        rw [abs_of_pos hz] at hcan
        exact ⟨hz, by linarith⟩
  · rename_i hc
    rw [if_neg hc]
    exact Or.inl (hshell hr)

/-- C99: polygons not reported as convex, without chopped coefficients: no edge through which the ray enters the solid, at a rate of at
least the tolerance, is missed; and a ray that enters through a plane ends exactly there. -/
theorem C99_in_concave_complete (g : Given k n x y lo hi s) (hf : s.poly.convex = false) (p d : V3) :
    (Unchopped n (fun i => (x i, y i)) → d.x ^ 2 + d.y ^ 2 ≤ 1 → |d.z| ≤ 1 → ∀ j t, Meets n (fun i => (x i, y i)) lo hi p d j t →
      depth n (fun i => (x i, y i)) j (p.x, p.y) + kTolerance ≤ depth n (fun i => (x i, y i)) j ((pos p d 1).x, (pos p d 1).y) →
      distanceToIn k s p d ≤ t) ∧
    (∀ t, 0 ≤ t → t < kInfLength → ((0 < d.z ∧ (pos p d t).z = lo) ∨ (d.z < 0 ∧ (pos p d t).z = hi)) →
      Clear n (fun i => (x i, y i)) ((pos p d t).x, (pos p d t).y) → Region n (fun i => (x i, y i)) ((pos p d t).x, (pos p d t).y) →
      distanceToIn k s p d = t) := by
  have hTol := kTolerance_pos
  obtain ⟨hp, h1, h2⟩ := g.poly
  constructor
  · intro hu hd hdz j t hm hr
    have habs : kTolerance ≤ |depth n (fun i => (x i, y i)) j ((pos p d 1).x, (pos p d 1).y) - depth n (fun i => (x i, y i)) j (p.x, p.y)| := by
      rw [abs_of_nonneg (by linarith)]; linarith
    obtain ⟨i, hi', e1, e2, e3, e4, e5, e6⟩ := g.meets hu hd hdz hm habs
    have hfold := (fold_min (inPass s p d) (InSeen s p d) (lhit s.poly p d) (inPass_eq p d) n kInfLength).2.1 i hi' ⟨by linarith, by
      have : 0 ≤ t * -rate s.poly d i := mul_nonneg hm.2.1 (by linarith)
      linarith, by rw [h1, h2]; exact e5, e6⟩
    have hle : shellInConcave s p d ≤ t := by unfold shellInConcave; rw [g.poly_n]; exact hfold.trans e4
    unfold distanceToIn
    rw [hf, if_neg (by simp)]
    dsimp only
    rw [h1, h2]
    generalize he : (if d.z > 0 then p.z - lo else hi - p.z) = e
    split
    · rename_i hc
      split
      · exact hle
      · rw [div_le_iff₀ (abs_pos.mpr hc.2.1)]
        obtain ⟨-, -, -, -, -, hz1, hz2⟩ := hm
        unfold pos at hz1 hz2
        dsimp only at hz1 hz2
        rcases lt_or_gt_of_ne hc.2.1 with hz | hz
        · rw [if_neg (by linarith)] at he; rw [abs_of_neg hz]; linarith
        · rw [if_pos hz] at he; rw [abs_of_pos hz]; linarith
    · exact hle
  · intro t t0 ht hz hcl hreg
    have hne : d.z ≠ 0 := by
      rcases hz with hz | hz
      · exact hz.1.ne'
      · exact hz.1.ne
    have hab := abs_pos.mpr hne
    have hdist : -(if d.z > 0 then p.z - lo else hi - p.z) / |d.z| = t := by
      rw [div_eq_iff hab.ne']
      rcases hz with ⟨hz, e⟩ | ⟨hz, e⟩
      · rw [if_pos hz, abs_of_pos hz]; unfold pos at e; dsimp only at e; linarith
      · rw [if_neg (by linarith), abs_of_neg hz]; unfold pos at e; dsimp only at e; linarith
    have he : (if d.z > 0 then p.z - lo else hi - p.z) < kTolerance := by
      have := mul_nonneg t0 hab.le
      rw [← hdist, div_mul_cancel₀ _ hab.ne'] at this
      linarith
    unfold distanceToIn
    rw [hf, if_neg (by simp)]
    dsimp only
    rw [h1, h2, hdist, if_pos ⟨he, hne, (g.general hcl).mpr hreg⟩, if_neg ht.ne]

end SExtru
end VecGeom

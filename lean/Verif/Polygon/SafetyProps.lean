import Verif.Polygon.InitProps

/-!
# C94: the distance to the edges
-/

namespace VecGeom
namespace Polygon

open Real

/-- The square of the distance of two points in the plane. -/
def dist2 (q b : ℝ × ℝ) : ℝ := (q.1 - b.1) * (q.1 - b.1) + (q.2 - b.2) * (q.2 - b.2)

theorem dist2_nonneg (q b : ℝ × ℝ) : 0 ≤ dist2 q b := add_nonneg (mul_self_nonneg _) (mul_self_nonneg _)

open Classical in
/-- The distance to one edge, in terms of its ends. -/
noncomputable def segSqr (a b q : ℝ × ℝ) : ℝ :=
  let d := (b.1 - a.1, b.2 - a.2)
  let e := (q.1 - a.1, q.2 - a.2)
  let lsq := d.1 * d.1 + d.2 * d.2
  let u := e.1 * d.1 + e.2 * d.2
  let w : ℝ × ℝ :=
    if u > lsq then (q.1 - b.1, q.2 - b.2)
    else if u ≥ 0 then (e.1 - u * d.1 * (1 / lsq), e.2 - u * d.2 * (1 / lsq))
    else e
  w.1 * w.1 + w.2 * w.2

theorem dist2_param (a b q : ℝ × ℝ) (t : ℝ) :
    dist2 q (a.1 + t * (b.1 - a.1), a.2 + t * (b.2 - a.2)) =
      ((q.1 - a.1) * (q.1 - a.1) + (q.2 - a.2) * (q.2 - a.2)) - 2 * t * ((q.1 - a.1) * (b.1 - a.1) + (q.2 - a.2) * (b.2 - a.2)) +
        t * t * ((b.1 - a.1) * (b.1 - a.1) + (b.2 - a.2) * (b.2 - a.2)) := by
  unfold dist2; simp only; ring

theorem foot_le (E u L t : ℝ) (hl : 0 < L) :
    E - 2 * (u / L) * u + u / L * (u / L) * L ≤ E - 2 * t * u + t * t * L := by
  have e : u = u / L * L := by field_simp
  have h := mul_nonneg (mul_self_nonneg (t - u / L)) hl.le
  generalize u / L = s at *
  subst e
  linarith

theorem segSqr_spec {a b : ℝ × ℝ} (hab : a ≠ b) (q : ℝ × ℝ) :
    (∃ c, OnEdge a b c ∧ segSqr a b q = dist2 q c) ∧ ∀ c, OnEdge a b c → segSqr a b q ≤ dist2 q c := by
  have hl : 0 < (b.1 - a.1) * (b.1 - a.1) + (b.2 - a.2) * (b.2 - a.2) := by
    rcases eq_or_ne (b.1 - a.1) 0 with h1 | h1
    · have h2 : b.2 - a.2 ≠ 0 := by
        intro h2; apply hab; ext <;> linarith
      have := mul_self_pos.mpr h2; have := mul_self_nonneg (b.1 - a.1); linarith
    · have := mul_self_pos.mpr h1; have := mul_self_nonneg (b.2 - a.2); linarith
  unfold segSqr
  dsimp only
  set L := (b.1 - a.1) * (b.1 - a.1) + (b.2 - a.2) * (b.2 - a.2) with hL
  set u := (q.1 - a.1) * (b.1 - a.1) + (q.2 - a.2) * (b.2 - a.2) with hu
  by_cases h1 : u > L
  · rw [if_pos h1]
    refine ⟨⟨b, onEdge_right a b, rfl⟩, ?_⟩
    rintro c ⟨t, t0, t1, rfl⟩
    have e1 := dist2_param a b q t
    have e2 := dist2_param a b q 1
    have e3 : dist2 q (a.1 + 1 * (b.1 - a.1), a.2 + 1 * (b.2 - a.2)) = dist2 q b := by unfold dist2; simp only; ring
    rw [e3] at e2
    rw [e1]
    change dist2 q b ≤ _
    rw [e2, ← hu, ← hL]
    nlinarith [mul_nonneg (sub_nonneg.mpr t1) (sub_nonneg.mpr h1.le), mul_nonneg (mul_nonneg (sub_nonneg.mpr t1) t0) hl.le, mul_nonneg (sub_nonneg.mpr t1) (sub_nonneg.mpr t1)]
  · rw [if_neg h1]
    by_cases h2 : u ≥ 0
    · rw [if_pos h2]
      have hid : (q.1 - a.1 - u * (b.1 - a.1) * (1 / L)) * (q.1 - a.1 - u * (b.1 - a.1) * (1 / L)) +
          (q.2 - a.2 - u * (b.2 - a.2) * (1 / L)) * (q.2 - a.2 - u * (b.2 - a.2) * (1 / L)) =
          dist2 q (a.1 + (u / L) * (b.1 - a.1), a.2 + (u / L) * (b.2 - a.2)) := by
        unfold dist2; simp only; ring
      refine ⟨⟨_, ⟨u / L, by positivity, by rw [div_le_one hl]; exact not_lt.mp h1, rfl⟩, hid⟩, ?_⟩
      rintro c ⟨t, t0, t1, rfl⟩
      rw [hid, dist2_param, dist2_param, ← hu, ← hL]
      exact foot_le _ _ _ _ hl
    · rw [if_neg h2]
      refine ⟨⟨a, onEdge_left a b, rfl⟩, ?_⟩
      rintro c ⟨t, t0, t1, rfl⟩
      rw [dist2_param, ← hu, ← hL]
      nlinarith [mul_nonneg t0 (neg_nonneg.mpr (not_le.mp h2).le), mul_nonneg (mul_nonneg t0 t0) hl.le]

theorem edgeSqr_eq {k n : Nat} {x y : Nat → ℝ} (hn0 : 0 < n) (q : ℝ × ℝ) (i : Nat) :
    edgeSqr (build k n x y) q.1 q.2 i = segSqr (vert n x y (i % n)) (vert n x y (prev n (i % n))) q := by
  have hper : ∀ f : Nat → ℝ, (if i < n then f i else f (i % n)) = f (i % n) := by
    intro f
    by_cases h : i < n
    · rw [if_pos h, Nat.mod_eq_of_lt h]
    · rw [if_neg h]
  have h1 : (build k n x y).x i = (vert n x y (i % n)).1 := hper fun i => (vert n x y i).1
  have h2 : (build k n x y).y i = (vert n x y (i % n)).2 := hper fun i => (vert n x y i).2
  have h3 : (build k n x y).sx i = (vert n x y (prev n (i % n))).1 := hper fun i => (vert n x y (prev n i)).1
  have h4 : (build k n x y).sy i = (vert n x y (prev n (i % n))).2 := hper fun i => (vert n x y (prev n i)).2
  unfold edgeSqr segSqr
  rw [h1, h2, h3, h4]

/-! ## The loops -/

/-- What has been found: the smallest value of those seen so far and of the start, and where. -/
def Best (f : Nat → ℝ) (seen : Nat → Prop) (s : ℝ × Option Nat) : Prop :=
  (∀ i, seen i → s.1 ≤ f i) ∧ ((s.2 = none ∧ s.1 = 10 ^ 30) ∨ ∃ i, seen i ∧ s.2 = some i ∧ s.1 = f i)

theorem better_best {p : Poly} {px py : ℝ} {seen : Nat → Prop} {s : ℝ × Option Nat} (h : Best (edgeSqr p px py) seen s) (i : Nat) :
    Best (edgeSqr p px py) (fun j => seen j ∨ j = i) (better p px py s i) := by
  unfold better
  split
  · rename_i hlt
    refine ⟨?_, Or.inr ⟨i, Or.inr rfl, rfl, rfl⟩⟩
    rintro j (hj | rfl)
    · exact le_trans hlt.le (h.1 j hj)
    · exact le_rfl
  · rename_i hge
    refine ⟨?_, ?_⟩
    · rintro j (hj | rfl)
      · exact h.1 j hj
      · exact not_lt.mp hge
    · rcases h.2 with h2 | ⟨j, hj, h2⟩
      · exact Or.inl h2
      · exact Or.inr ⟨j, Or.inl hj, h2⟩

theorem fold_best {p : Poly} {px py : ℝ} {seen : Nat → Prop} {s : ℝ × Option Nat} (h : Best (edgeSqr p px py) seen s) (c k : Nat) :
    Best (edgeSqr p px py) (fun j => seen j ∨ (c ≤ j ∧ j < c + k)) ((List.range k).foldl (fun s j => better p px py s (c + j)) s) := by
  induction k with
  | zero =>
    simp only [List.range_zero, List.foldl_nil]
    have : (fun j => seen j ∨ (c ≤ j ∧ j < c + 0)) = seen := by funext j; apply propext; constructor <;> [rintro (h | h) <;> [exact h; omega]; exact Or.inl]
    rw [this]; exact h
  | succ m ih =>
    rw [List.range_succ, List.foldl_append]
    have := better_best ih (c + m)
    simp only [List.foldl_cons, List.foldl_nil]
    have e : (fun j => seen j ∨ (c ≤ j ∧ j < c + (m + 1))) = fun j => (seen j ∨ (c ≤ j ∧ j < c + m)) ∨ j = c + m := by
      funext j; apply propext
      constructor
      · rintro (h | h)
        · exact Or.inl (Or.inl h)
        · by_cases hj : j = c + m
          · exact Or.inr hj
          · exact Or.inl (Or.inr (by omega))
      · rintro ((h | h) | h)
        · exact Or.inl h
        · exact Or.inr (by omega)
        · exact Or.inr (by omega)
    rw [e]; exact this

theorem loop_spec {k : Nat} {p : Poly} {px py : ℝ} (m : Nat) (hb : ∀ c, c < m → c * k + k ≤ p.bs) (len start : Nat) (hm : start + len = m)
    (s : ℝ × Option Nat) (h : Best (edgeSqr p px py) (fun j => j < start * k) s) :
    ∃ r, safetyLoop k p px py (List.range' start len) s = some r ∧
      ((∃ s', Best (edgeSqr p px py) (fun j => j < m * k) s' ∧ r = s') ∨
        ∃ s' c, c < m ∧ Best (edgeSqr p px py) (fun j => j < c * k + k) s' ∧ |s'.1| < kTolerance * kTolerance ∧ r = (0, s'.2)) := by
  induction len generalizing start s with
  | zero =>
    refine ⟨s, rfl, Or.inl ⟨s, ?_, rfl⟩⟩
    have : start = m := by omega
    rw [← this]; exact h
  | succ l ih =>
    rw [List.range'_succ]
    unfold safetyLoop
    rw [if_pos (hb start (by omega))]
    dsimp only
    have hf := fold_best h (start * k) k
    have e : (fun j => j < start * k ∨ (start * k ≤ j ∧ j < start * k + k)) = fun j => j < start * k + k := by
      funext j; apply propext; omega
    rw [e] at hf
    split
    · rename_i hz
      exact ⟨_, rfl, Or.inr ⟨_, start, by omega, hf, hz, rfl⟩⟩
    · apply ih (start + 1) (by omega)
      rw [Nat.succ_mul]; exact hf

theorem buffer_enough {k n : Nat} (hk : 0 < k) (c : Nat) (hc : c < (n + k - 1) / k) : c * k + k ≤ bufferSize k n := by
  unfold bufferSize
  have h1 := Nat.div_add_mod n k
  have h2 : (n + k - 1) / k ≤ n / k + n % k := by
    have hr := Nat.mod_lt n hk
    rcases Nat.eq_zero_or_pos (n % k) with h0 | h0
    · rw [h0, Nat.add_zero]
      rw [h0, Nat.add_zero] at h1
      have : n + k - 1 = (k - 1) + k * (n / k) := by omega
      rw [this, Nat.add_mul_div_left _ _ hk, Nat.div_eq_of_lt (by omega)]; omega
    · have : n + k - 1 = (n % k - 1) + k * (n / k + 1) := by rw [Nat.mul_add]; omega
      rw [this, Nat.add_mul_div_left _ _ hk, Nat.div_eq_of_lt (by omega)]; omega
  have h3 : c + 1 ≤ n / k + n % k := by omega
  have := Nat.mul_le_mul_right k h3
  rw [Nat.succ_mul] at this; exact this

theorem chunks_cover {k n : Nat} (hk : 0 < k) : n ≤ (n + k - 1) / k * k := by
  have h := Nat.div_add_mod (n + k - 1) k
  have := Nat.mod_lt (n + k - 1) hk
  rw [Nat.mul_comm] at h; omega

/-- The edges of the input in terms of the edges after `Init`. -/
theorem edge_index {n : Nat} (hn : n < 2 ^ 31) (x y : Nat → ℝ) {j : Nat} (hj : j < n) :
    ∃ i, i < n ∧ ((vert n x y i = (x j, y j) ∧ vert n x y (prev n i) = (x ((j + 1) % n), y ((j + 1) % n))) ∨
      (vert n x y (prev n i) = (x j, y j) ∧ vert n x y i = (x ((j + 1) % n), y ((j + 1) % n)))) := by
  have hn0 : 0 < n := by omega
  rcases increment_cases x y n with h | h
  · have hs : (j + 1) % n < n := Nat.mod_lt _ hn0
    have hp : prev n ((j + 1) % n) = j := by
      unfold prev
      rcases Nat.lt_or_ge (j + 1) n with h1 | h1
      · rw [Nat.mod_eq_of_lt h1, if_neg (by omega)]; omega
      · have : j + 1 = n := by omega
        rw [this, Nat.mod_self, if_pos rfl]; omega
    refine ⟨(j + 1) % n, hs, Or.inr ?_⟩
    unfold vert
    rw [h, hp, source_one hn hj, source_one hn hs]; exact ⟨rfl, rfl⟩
  · have hs : (n - j) % n < n := Nat.mod_lt _ hn0
    refine ⟨(n - j) % n, hs, Or.inl ?_⟩
    unfold vert
    rw [h, source_neg hn hs, source_neg hn (prev_lt hs), next_neg hs]
    have : (n - (n - j) % n) % n = j := by
      rcases Nat.eq_zero_or_pos j with h0 | h0
      · subst h0; simp
      · rw [Nat.mod_eq_of_lt (show n - j < n by omega), show n - (n - j) = j by omega, Nat.mod_eq_of_lt hj]
    rw [this]; exact ⟨rfl, rfl⟩

/-- C94: `SafetySqr` reads within the buffers and returns the square of the distance to the boundary, except that it returns 0 if that
distance is below the tolerance, and `10³⁰` without an edge if it is `10¹⁵` or more.  The edge that it names is one to which the distance
is that one; the name may be that of a copy, beyond the number of edges but within the buffers. -/
theorem C94_distance_to_edges {k n : Nat} {x y : Nat → ℝ} {p : Poly} (hk : 0 < k) (hn : n < 2 ^ 31)
    (hd : ∀ i, i < n → ((x i, y i) : ℝ × ℝ) ≠ (x ((i + 1) % n), y ((i + 1) % n))) (hp : init k n x y = some p) (q : ℝ × ℝ) :
    ∃ s id, safetySqr k p q.1 q.2 = some (s, id) ∧
      (∀ b, OnBoundary n (fun i => (x i, y i)) b → s ≤ dist2 q b) ∧
      ((id = none ∧ s = 10 ^ 30) ∨
        ∃ i b, id = some i ∧ i < p.bs ∧ OnEdge (p.x (i % n), p.y (i % n)) (p.sx (i % n), p.sy (i % n)) b ∧
          OnBoundary n (fun i => (x i, y i)) b ∧ (s = dist2 q b ∨ (s = 0 ∧ dist2 q b < kTolerance * kTolerance))) := by
  obtain ⟨rfl, hbs, -⟩ := init_some hp
  have hn0 : 0 < n := by
    rcases Nat.eq_zero_or_pos n with h | h
    · subst h; simp [bufferSize] at hbs
    · exact h
  have hne : ∀ i, vert n x y (i % n) ≠ vert n x y (prev n (i % n)) := by
    intro i
    have hi : i % n < n := Nat.mod_lt _ hn0
    obtain ⟨j, hj, h | h⟩ := edge_of hn x y hi
    · rw [h.1, h.2]; exact hd j hj
    · rw [h.1, h.2]; exact (hd j hj).symm
  have hmin : ∀ i, (∃ c, OnEdge (vert n x y (i % n)) (vert n x y (prev n (i % n))) c ∧
      edgeSqr (build k n x y) q.1 q.2 i = dist2 q c) ∧
      ∀ c, OnEdge (vert n x y (i % n)) (vert n x y (prev n (i % n))) c → edgeSqr (build k n x y) q.1 q.2 i ≤ dist2 q c := by
    intro i
    rw [edgeSqr_eq hn0]
    exact segSqr_spec (hne i) q
  have hstart : Best (edgeSqr (build k n x y) q.1 q.2) (fun j => j < 0 * k) ((10 : ℝ) ^ 30, none) :=
    ⟨fun i hi => by omega, Or.inl ⟨rfl, rfl⟩⟩
  obtain ⟨r, hr, hcase⟩ := loop_spec (k := k) (p := build k n x y) ((n + k - 1) / k) (fun c hc => buffer_enough hk c hc)
    ((n + k - 1) / k) 0 (by omega) _ hstart
  have hbnd : ∀ c, c < (n + k - 1) / k → ∀ i, i < c * k + k → i < bufferSize k n := by
    intro c hc i hi
    have := buffer_enough (n := n) hk c hc; omega
  have place : ∀ i c, OnEdge (vert n x y (i % n)) (vert n x y (prev n (i % n))) c →
      OnEdge ((build k n x y).x (i % n), (build k n x y).y (i % n)) ((build k n x y).sx (i % n), (build k n x y).sy (i % n)) c ∧
        OnBoundary n (fun i => (x i, y i)) c := by
    intro i c hc
    have hi : i % n < n := Nat.mod_lt _ hn0
    refine ⟨?_, boundary_of_edge hn x y hi hc⟩
    rw [build_x hi, build_y hi, build_sx hi, build_sy hi]; exact hc
  refine ⟨r.1, r.2, ?_, ?_, ?_⟩
  · unfold safetySqr; rw [build_n, List.range_eq_range']; exact hr
  · rintro b ⟨j, hj, hb⟩
    rcases hcase with ⟨s', hs', rfl⟩ | ⟨s', c, hc, hs', hz, rfl⟩
    · obtain ⟨i, hi, h⟩ := edge_index hn x y hj
      have hcov := chunks_cover (n := n) hk
      have h1 := hs'.1 i (by omega)
      have h2 := (hmin i).2 b (by
        rw [Nat.mod_eq_of_lt hi]
        rcases h with h | h
        · rw [h.1, h.2]; exact hb
        · rw [h.1, h.2]; exact onEdge_comm.mp hb)
      linarith
    · exact dist2_nonneg q b
  · rcases hcase with ⟨s', hs', rfl⟩ | ⟨s', c, hc, hs', hz, rfl⟩
    · rcases hs'.2 with h | ⟨i, hi, h1, h2⟩
      · exact Or.inl h
      · right
        obtain ⟨b, hb, he⟩ := (hmin i).1
        have hm : 0 < (n + k - 1) / k := by
          by_contra h0
          have : (n + k - 1) / k = 0 := Nat.le_zero.mp (not_lt.mp h0)
          rw [this, Nat.zero_mul] at hi; omega
        have hlt : i < bufferSize k n := by
          refine hbnd ((n + k - 1) / k - 1) (Nat.sub_lt hm one_pos) i ?_
          have : ((n + k - 1) / k - 1) * k + k = (n + k - 1) / k * k := by
            generalize (n + k - 1) / k = w at hm ⊢
            rw [← Nat.succ_mul]; congr 1; omega
          omega
        exact ⟨i, b, h1, hlt, (place i b hb).1, (place i b hb).2, Or.inl (by rw [h2, he])⟩
    · rcases hs'.2 with ⟨-, h⟩ | ⟨i, hi, h1, h2⟩
      · exfalso
        rw [h] at hz
        have : (10 : ℝ) ^ 30 < kTolerance * kTolerance := lt_of_le_of_lt (le_abs_self _) hz
        unfold kTolerance at this; norm_num at this
      · right
        obtain ⟨b, hb, he⟩ := (hmin i).1
        refine ⟨i, b, h1, hbnd c hc i hi, (place i b hb).1, (place i b hb).2, Or.inr ⟨rfl, ?_⟩⟩
        rw [← he, ← h2]
        exact lt_of_le_of_lt (le_abs_self _) hz

example : ∀ i, i < 4 → ((sqx i, sqy i) : ℝ × ℝ) ≠ (sqx ((i + 1) % 4), sqy ((i + 1) % 4)) := by
  intro i hi
  have : i = 0 ∨ i = 1 ∨ i = 2 ∨ i = 3 := by omega
  rcases this with rfl | rfl | rfl | rfl <;> simp [sqx, sqy]

end Polygon
end VecGeom

import Verif.Quad.Model

/-!
# Sets of planes: containment, Inside and distances; DistanceToOut of sets of quadrilaterals
-/

namespace VecGeom
namespace Quad

open Real

variable {s : Planes} {p d : V3}

/-! ## Contains -/

theorem foldl_and {α : Type} (f : α → Bool) (l : List α) (b : Bool) : l.foldl (fun r x => r && f x) b = (b && l.all f) := by
  induction l generalizing b with
  | nil => simp
  | cons a l ih => rw [List.foldl_cons, ih, List.all_cons, Bool.and_assoc]

theorem foldl_or {α : Type} (f : α → Bool) (l : List α) : l.foldl (fun r x => r || f x) true = true := by
  induction l with
  | nil => rfl
  | cons a l ih => simpa using ih

/-- C193: `Contains` of a convex set of planes is true exactly for the points below all planes. -/
theorem C193_contains_partial (hc : s.convex = true) (p : V3) : s.contains p = true ↔ ∀ pl ∈ s.planes, pl.n.dot p + pl.d < 0 := by
  unfold Planes.contains
  rw [if_pos hc, foldl_and]
  rw [Bool.true_and, List.all_eq_true]
  exact ⟨fun h pl hp => of_decide_eq_true (h pl hp), fun h pl hp => decide_eq_true (h pl hp)⟩

/-- C193 fails for sets that are not convex: every point is in them, also one above all planes. -/
theorem C193_contains_counterexample : ∃ s : Planes, s.convex = false ∧ s.planes ≠ [] ∧ (∀ p, s.contains p = true) ∧
    ∃ p : V3, ∀ pl ∈ s.planes, 0 < pl.n.dot p + pl.d := by
  refine ⟨⟨[⟨⟨1, 0, 0⟩, -1⟩, ⟨⟨0, 1, 0⟩, -1⟩], false⟩, rfl, by simp, fun p => ?_, ⟨5, 5, 0⟩, ?_⟩
  · unfold Planes.contains
    rw [if_neg (by simp)]
    exact foldl_or _ _
  · intro pl h
    simp only [List.mem_cons, List.not_mem_nil, or_false] at h
    rcases h with rfl | rfl <;> norm_num [V3.dot]

/-! ## Inside -/

theorem insideAll_spec (p : V3) (l : List Plane) (r : Inside) (hr : r ≠ .outside) :
    (insideAll p l r = .outside ↔ ∃ pl ∈ l, kTolerance < pl.height p) ∧
    (insideAll p l r = .inside ↔ r = .inside ∧ ∀ pl ∈ l, pl.height p ≤ -kTolerance) := by
  have ht := kTolerance_pos
  induction l generalizing r with
  | nil => simp [insideAll, hr]
  | cons a l ih =>
    unfold insideAll
    simp only [List.mem_cons, exists_eq_or_imp, forall_eq_or_imp]
    by_cases h1 : a.height p > kTolerance
    · simp [h1]
      intro _ h; linarith
    · simp only [h1, if_false]
      by_cases h2 : r = .inside ∧ a.height p > -kTolerance
      · rw [if_pos h2, if_neg (by simp)]
        obtain ⟨i1, i2⟩ := ih .surface (by simp)
        refine ⟨by rw [i1]; exact (or_iff_right (by simpa using h1)).symm, ?_⟩
        rw [i2]
        constructor
        · rintro ⟨h, -⟩; cases h
        · rintro ⟨-, h, -⟩; linarith [h2.2]
      · rw [if_neg h2, if_neg hr]
        obtain ⟨i1, i2⟩ := ih r hr
        refine ⟨by rw [i1]; exact (or_iff_right (by simpa using h1)).symm, ?_⟩
        rw [i2]
        constructor
        · rintro ⟨h, h'⟩
          exact ⟨h, by by_contra hc; exact h2 ⟨h, by linarith⟩, h'⟩
        · rintro ⟨h, -, h'⟩
          exact ⟨h, h'⟩

theorem insideAny_spec (p : V3) (l : List Plane) (r : Inside) (hr : r ≠ .inside) :
    (insideAny p l r = .inside ↔ ∃ pl ∈ l, pl.height p < -kTolerance) ∧
    (insideAny p l r = .outside ↔ r = .outside ∧ ∀ pl ∈ l, kTolerance ≤ pl.height p) := by
  have ht := kTolerance_pos
  induction l generalizing r with
  | nil => simp [insideAny, hr]
  | cons a l ih =>
    unfold insideAny
    simp only [List.mem_cons, exists_eq_or_imp, forall_eq_or_imp]
    by_cases h1 : a.height p < -kTolerance
    · simp [h1]
      intro _ h; linarith
    · simp only [h1, if_false]
      by_cases h2 : r = .outside ∧ a.height p < kTolerance
      · rw [if_pos h2, if_neg (by simp)]
        obtain ⟨i1, i2⟩ := ih .surface (by simp)
        refine ⟨by rw [i1]; simp, ?_⟩
        rw [i2]
        constructor
        · rintro ⟨h, -⟩; cases h
        · rintro ⟨-, h, -⟩; linarith [h2.2]
      · rw [if_neg h2, if_neg hr]
        obtain ⟨i1, i2⟩ := ih r hr
        refine ⟨by rw [i1]; simp, ?_⟩
        rw [i2]
        constructor
        · rintro ⟨h, h'⟩
          exact ⟨h, by by_contra hc; exact h2 ⟨h, by linarith⟩, h'⟩
        · rintro ⟨h, -, h'⟩
          exact ⟨h, h'⟩

/-- C193: `Inside` of a convex set of planes: outside if the point is more than the tolerance above one plane, inside if it is the tolerance below all,
else on the surface. -/
theorem C193_inside (hc : s.convex = true) (p : V3) :
    (s.inside p = .outside ↔ ∃ pl ∈ s.planes, kTolerance < pl.n.dot p + pl.d) ∧
    (s.inside p = .inside ↔ ∀ pl ∈ s.planes, pl.n.dot p + pl.d ≤ -kTolerance) := by
  unfold Planes.inside
  rw [if_pos hc]
  obtain ⟨h1, h2⟩ := insideAll_spec p s.planes .inside (by simp)
  exact ⟨h1, by rw [h2]; simp [Plane.height]⟩

/-- C193: `Inside` of other sets: inside if the point is more than the tolerance below one plane, outside if it is the tolerance above all. -/
theorem C193_inside_any (hc : s.convex = false) (p : V3) :
    (s.inside p = .inside ↔ ∃ pl ∈ s.planes, pl.n.dot p + pl.d < -kTolerance) ∧
    (s.inside p = .outside ↔ ∀ pl ∈ s.planes, kTolerance ≤ pl.n.dot p + pl.d) := by
  unfold Planes.inside
  rw [if_neg (by simp [hc])]
  obtain ⟨h1, h2⟩ := insideAny_spec p s.planes .outside (by simp)
  exact ⟨h1, by rw [h2]; simp [Plane.height]⟩

/-- C193 fails for assignments: the flag for convex sets is not assigned. -/
theorem C193_assign_counterexample : ∃ (s rhs : Planes) (p : V3), (s.assign rhs).planes = rhs.planes ∧ (s.assign rhs).contains p ≠ rhs.contains p ∧
    (s.assign rhs).inside p ≠ rhs.inside p := by
  refine ⟨⟨[], true⟩, ⟨[⟨⟨1, 0, 0⟩, -1⟩, ⟨⟨0, 1, 0⟩, -1⟩], false⟩, ⟨0, 5, 0⟩, rfl, ?_, ?_⟩
  · unfold Planes.contains Planes.assign
    norm_num [Plane.height, V3.dot]
  · have h1 : (Planes.assign ⟨[], true⟩ ⟨[⟨⟨1, 0, 0⟩, -1⟩, ⟨⟨0, 1, 0⟩, -1⟩], false⟩).inside ⟨0, 5, 0⟩ = .outside := by
      rw [(C193_inside rfl _).1]
      exact ⟨⟨⟨0, 1, 0⟩, -1⟩, by simp [Planes.assign], by norm_num [V3.dot, kTolerance]⟩
    have h2 : (Planes.mk [⟨⟨1, 0, 0⟩, -1⟩, ⟨⟨0, 1, 0⟩, -1⟩] false).inside ⟨0, 5, 0⟩ = .inside := by
      rw [(C193_inside_any rfl _).1]
      exact ⟨⟨⟨1, 0, 0⟩, -1⟩, by simp, by norm_num [V3.dot, kTolerance]⟩
    rw [h1, h2]
    simp

/-! ## Distances -/

/-- The loop that keeps the least accepted value. -/
theorem least {α : Type} (ok : α → Prop) [DecidablePred ok] (f : α → ℝ) (l : List α) (m : ℝ) :
    let r := l.foldl (fun b x => if ok x ∧ f x < b then f x else b) m
    r ≤ m ∧ (∀ x ∈ l, ok x → r ≤ f x) ∧ (r = m ∨ ∃ x ∈ l, ok x ∧ r = f x) := by
  induction l generalizing m with
  | nil => exact ⟨le_refl _, by simp, Or.inl rfl⟩
  | cons a l ih =>
    simp only [List.foldl_cons]
    by_cases h : ok a ∧ f a < m
    · rw [if_pos h]
      obtain ⟨h1, h2, h3⟩ := ih (f a)
      refine ⟨h1.trans h.2.le, ?_, ?_⟩
      · intro x hx hok
        rcases List.mem_cons.1 hx with rfl | hx
        · exact h1
        · exact h2 x hx hok
      · rcases h3 with h3 | ⟨x, hx, hok, e⟩
        · exact Or.inr ⟨a, by simp, h.1, h3⟩
        · exact Or.inr ⟨x, List.mem_cons_of_mem _ hx, hok, e⟩
    · rw [if_neg h]
      obtain ⟨h1, h2, h3⟩ := ih m
      refine ⟨h1, ?_, ?_⟩
      · intro x hx hok
        rcases List.mem_cons.1 hx with rfl | hx
        · by_contra hc
          exact h ⟨hok, by linarith⟩
        · exact h2 x hx hok
      · rcases h3 with h3 | ⟨x, hx, hok, e⟩
        · exact Or.inl h3
        · exact Or.inr ⟨x, List.mem_cons_of_mem _ hx, hok, e⟩

theorem hit_iff (pl : Plane) (p d : V3) (t : ℝ) (hn : d.dot pl.n ≠ 0) : pl.height (V3.at' p d t) = 0 ↔ t = -(pl.height p) / d.dot pl.n := by
  rw [Plane.height_at, show pl.n.dot d = d.dot pl.n by simp only [V3.dot]; ring, eq_div_iff hn]
  constructor <;> intro h <;> linarith

/-- C194: `Distance` along a ray: no plane that the ray crosses is crossed before, and if the distance is finite a plane is crossed there. -/
theorem C194_distance (s : Planes) (p d : V3) :
    (∀ pl ∈ s.planes, d.dot pl.n ≠ 0 → ∀ t, 0 ≤ t → pl.n.dot (V3.at' p d t) + pl.d = 0 → s.distance p d ≤ t) ∧
    (s.distance p d ≠ kInfLength → 0 ≤ s.distance p d ∧ ∃ pl ∈ s.planes, d.dot pl.n ≠ 0 ∧ pl.n.dot (V3.at' p d (s.distance p d)) + pl.d = 0) := by
  classical
  have e : s.distance p d = s.planes.foldl (fun b pl => if (d.dot pl.n ≠ 0 ∧ -(pl.height p) / d.dot pl.n ≥ 0) ∧ -(pl.height p) / d.dot pl.n < b
      then -(pl.height p) / d.dot pl.n else b) kInfLength := by
    unfold Planes.distance
    congr 1
    funext b pl
    by_cases h : d.dot pl.n = 0
    · simp [h]
    · simp only [h, if_false, ne_eq, not_false_eq_true, true_and]
  obtain ⟨-, h2, h3⟩ := least (fun pl : Plane => d.dot pl.n ≠ 0 ∧ -(pl.height p) / d.dot pl.n ≥ 0) (fun pl => -(pl.height p) / d.dot pl.n) s.planes kInfLength
  rw [e]
  refine ⟨fun pl hpl hn t ht h => ?_, fun hne => ?_⟩
  · have := (hit_iff pl p d t hn).1 h
    rw [this] at ht ⊢
    exact h2 pl hpl ⟨hn, ht⟩
  · rcases h3 with h3 | ⟨pl, hpl, hok, e'⟩
    · exact absurd h3 hne
    · rw [e']
      exact ⟨hok.2, pl, hpl, hok.1, (hit_iff pl p d _ hok.1).2 rfl⟩

/-- C194: `Distance<true>` of a point above or on all planes, and `Distance<false>` of a point below or on all planes, is the least distance to a plane
(normals of length one); it is not more than the distance to any point of a plane. -/
theorem C194_safety_partial (b : Bool) (p : V3) (hp : ∀ pl ∈ s.planes, if b then 0 ≤ pl.height p else pl.height p ≤ 0) (hn : ∀ pl ∈ s.planes, pl.n.mag2 = 1)
    {pl : Plane} (h : pl ∈ s.planes) (q : V3) (hq : pl.n.dot q + pl.d = 0) : s.safety b p ≤ V3.dist p q := by
  classical
  have e : s.safety b p = s.planes.foldl (fun m pl => if (if !b then -(pl.height p) else pl.height p) ≥ 0 ∧ (if !b then -(pl.height p) else pl.height p) < m
      then (if !b then -(pl.height p) else pl.height p) else m) kInfLength := rfl
  obtain ⟨-, h2, -⟩ := least (fun pl : Plane => (if !b then -(pl.height p) else pl.height p) ≥ 0) (fun pl => if !b then -(pl.height p) else pl.height p) s.planes kInfLength
  rw [e]
  have hp' := hp pl h
  have hq' : pl.height q = 0 := hq
  refine (h2 pl h ?_).trans ?_
  · cases b <;> simp at hp' ⊢ <;> linarith
  · have a1 := Plane.height_sub_le (hn pl h).le p q
    have a2 := Plane.height_sub_le (hn pl h).le q p
    rw [V3.dist_comm'] at a2
    cases b <;> simp <;> linarith

/-- C194 fails for a point inside: `Distance<true>` takes the sign of a point outside and finds no plane. -/
theorem C194_safety_counterexample : ∃ (s : Planes) (p q : V3), s.convex = true ∧ s.contains p = true ∧ (∀ pl ∈ s.planes, pl.n.mag2 = 1) ∧
    (∃ pl ∈ s.planes, pl.n.dot q + pl.d = 0) ∧ V3.dist p q = 1 ∧ s.safety true p = kInfLength := by
  refine ⟨⟨[⟨⟨1, 0, 0⟩, -1⟩], true⟩, ⟨0, 0, 0⟩, ⟨1, 0, 0⟩, rfl, ?_, ?_, ?_, ?_, ?_⟩
  · rw [C193_contains_partial rfl]
    intro pl h
    rw [List.mem_singleton] at h
    subst h
    norm_num [V3.dot]
  · intro pl h
    rw [List.mem_singleton] at h
    subst h
    norm_num [V3.mag2, V3.dot]
  · exact ⟨_, List.mem_singleton.2 rfl, by norm_num [V3.dot]⟩
  · norm_num [V3.dist, V3.dist2]
  · norm_num [Planes.safety, Plane.height, V3.dot]

/-! ## DistanceToOut of quadrilaterals -/

/-- Between the heights `zMin` and `zMax` the ray meets quadrilateral `q` from below at `t`. -/
def Leaves (q : Quad) (p d : V3) (zMin zMax t : ℝ) : Prop :=
  q.plane.height p < kTolerance ∧ 0 < d.dot q.plane.n ∧ q.plane.n.dot (V3.at' p d t) + q.plane.d = 0 ∧
    zMin - kTolerance ≤ (V3.at' p d t).z ∧ (V3.at' p d t).z < zMax + kTolerance

theorem out_least (l : List Quad) (p d : V3) {zMin zMax : ℝ} (hz : zMin ≠ zMax) (m : ℝ) :
    let r := l.foldl (outStep p d zMin zMax) m
    r ≤ m ∧ (∀ q ∈ l, ∀ t, Leaves q p d zMin zMax t → r ≤ t) ∧ (r = m ∨ ∃ q ∈ l, Leaves q p d zMin zMax r) := by
  classical
  let ok (q : Quad) : Prop := q.plane.height p < kTolerance ∧ d.dot q.plane.n > 0 ∧
    p.z + q.plane.height p / -(d.dot q.plane.n) * d.z ≥ zMin - kTolerance ∧ p.z + q.plane.height p / -(d.dot q.plane.n) * d.z < zMax + kTolerance
  have e : l.foldl (outStep p d zMin zMax) m = l.foldl (fun b q => if ok q ∧ q.plane.height p / -(d.dot q.plane.n) < b then q.plane.height p / -(d.dot q.plane.n) else b) m := by
    congr 1
    funext b q
    unfold outStep
    simp only
    by_cases h1 : q.plane.height p < kTolerance
    · by_cases h2 : d.dot q.plane.n > 0
      · by_cases h3 : q.plane.height p / -(d.dot q.plane.n) < b
        · simp only [h1, h2, h3, not_true, if_false, hz, ok, true_and, and_true]
        · simp [h1, h2, h3]
      · simp [h1, h2, ok]
    · simp [h1, ok]
  have eq : ∀ (q : Quad) t, 0 < d.dot q.plane.n → (q.plane.height (V3.at' p d t) = 0 ↔ t = q.plane.height p / -(d.dot q.plane.n)) := by
    intro q t h
    rw [hit_iff q.plane p d t (ne_of_gt h), div_neg, neg_div]
  obtain ⟨h1, h2, h3⟩ := least ok (fun q => q.plane.height p / -(d.dot q.plane.n)) l m
  rw [e]
  refine ⟨h1, ?_, ?_⟩
  · rintro q hq t ⟨a1, a2, a3, a4, a5⟩
    have := (eq q t a2).1 a3
    rw [V3.at_z] at a4 a5
    rw [this] at a4 a5 ⊢
    exact h2 q hq ⟨a1, a2, a4, a5⟩
  · rcases h3 with h3 | ⟨q, hq, hok, e'⟩
    · exact Or.inl h3
    · refine Or.inr ⟨q, hq, ?_⟩
      rw [e']
      refine ⟨hok.1, hok.2.1, (eq q _ hok.2.1).2 rfl, ?_, ?_⟩
      · rw [V3.at_z]; exact hok.2.2.1
      · rw [V3.at_z]; exact hok.2.2.2

/-- C195: from a point below all planes, the ray stays below them up to `DistanceToOut`, as long as its height is between the limits. -/
theorem C195_stays (l : List Quad) (p d : V3) {zMin zMax : ℝ} (hz : zMin < zMax) (hp : ∀ q ∈ l, q.plane.n.dot p + q.plane.d ≤ 0) {t : ℝ} (h0 : 0 ≤ t)
    (ht : t ≤ distanceToOut l p d zMin zMax) (hr : ∀ u, 0 ≤ u → u ≤ t → zMin ≤ (V3.at' p d u).z ∧ (V3.at' p d u).z ≤ zMax) :
    ∀ q ∈ l, q.plane.n.dot (V3.at' p d t) + q.plane.d ≤ 0 := by
  have htol := kTolerance_pos
  obtain ⟨-, h2, h3⟩ := out_least l p d hz.ne kInfLength
  intro q hq
  by_contra hc
  push Not at hc
  have hh : q.plane.height p ≤ 0 := hp q hq
  have hc' : 0 < q.plane.height (V3.at' p d t) := hc
  rw [Plane.height_at, show q.plane.n.dot d = d.dot q.plane.n by simp only [V3.dot]; ring] at hc'
  have hn : 0 < d.dot q.plane.n := by
    by_contra hn
    push Not at hn
    nlinarith
  have hu : 0 ≤ -(q.plane.height p) / d.dot q.plane.n := div_nonneg (by linarith) hn.le
  have hut : -(q.plane.height p) / d.dot q.plane.n < t := by rw [div_lt_iff₀ hn]; linarith
  obtain ⟨z1, z2⟩ := hr _ hu hut.le
  have hl := h2 q hq (-(q.plane.height p) / d.dot q.plane.n) ⟨by linarith, hn, (hit_iff q.plane p d _ hn.ne').2 rfl, by linarith, by linarith⟩
  unfold distanceToOut at ht
  simp only at ht hl
  generalize l.foldl (outStep p d zMin zMax) kInfLength = best at ht hl
  split at ht
  · rcases le_max_iff.1 ht with h | h <;> linarith
  · linarith

/-- C195: if `DistanceToOut` is finite, from a point below all planes, a plane is met there from below, within the limits. -/
theorem C195_leaves (l : List Quad) (p d : V3) {zMin zMax : ℝ} (hz : zMin < zMax) (hp : ∀ q ∈ l, q.plane.n.dot p + q.plane.d ≤ 0)
    (hf : distanceToOut l p d zMin zMax ≠ kInfLength) : ∃ q ∈ l, 0 < d.dot q.plane.n ∧
      q.plane.n.dot (V3.at' p d (distanceToOut l p d zMin zMax)) + q.plane.d = 0 ∧
      zMin - kTolerance ≤ (V3.at' p d (distanceToOut l p d zMin zMax)).z ∧ (V3.at' p d (distanceToOut l p d zMin zMax)).z < zMax + kTolerance := by
  have htol := kTolerance_pos
  have hk := kInfLength_pos
  obtain ⟨-, -, h3⟩ := out_least l p d hz.ne kInfLength
  have e : distanceToOut l p d zMin zMax = l.foldl (outStep p d zMin zMax) kInfLength := by
    have h0 : 0 ≤ l.foldl (outStep p d zMin zMax) kInfLength := by
      rcases h3 with h3 | ⟨q, hq, a1, a2, a3, -⟩
      · rw [h3]; exact hk.le
      · have hh : q.plane.height p ≤ 0 := hp q hq
        have := (hit_iff q.plane p d _ a2.ne').1 a3
        rw [this]
        exact div_nonneg (by linarith) a2.le
    unfold distanceToOut
    simp only
    rw [if_pos (by linarith), max_eq_left h0]
  rw [e] at hf ⊢
  rcases h3 with h3 | ⟨q, hq, a1, a2, a3, a4, a5⟩
  · exact absurd h3 hf
  · exact ⟨q, hq, a2, a3, a4, a5⟩

end Quad
end VecGeom

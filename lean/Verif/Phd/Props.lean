import Verif.Phd.Model
import Verif.Quad.Props

/-!
# Polyhedra: segments, containment and Inside
-/

namespace VecGeom
namespace Phd

open Quad

variable {t : Poly} {p : V3}

/-! ## Segments -/

theorem findZ_spec (pz : ℝ) (z : List ℝ) (hz : z ≠ []) (i : ℤ) : ∃ j : ℕ, j ≤ z.length ∧ findZ pz z i = i + j ∧
    (∀ k, k + 1 < j → z.getD k 0 < pz - kTolerance) ∧ (0 < j → z.getD (j - 1) 0 - kTolerance < pz) ∧
    (j < z.length → pz ≤ z.getD j 0 - kTolerance ∨ 0 < j ∧ pz ≤ z.getD (j - 1) 0 + kTolerance) := by
  have htol := kTolerance_pos
  induction z generalizing i with
  | nil => exact absurd rfl hz
  | cons a l ih =>
    cases l with
    | nil =>
      unfold findZ
      by_cases h : pz + kTolerance > a
      · rw [if_pos h]
        exact ⟨1, by simp, by simp, fun k hk => by omega, fun _ => by simp; linarith, fun h => by simp at h⟩
      · rw [if_neg h]
        exact ⟨0, by simp, by simp, fun k hk => by omega, fun h => by omega, fun _ => Or.inl (by simp; linarith)⟩
    | cons b l =>
      unfold findZ
      by_cases h : pz - kTolerance > a
      · rw [if_pos h]
        obtain ⟨j, h1, h2, h3, h4, h5⟩ := ih (by simp) (i + 1)
        refine ⟨j + 1, by simp at h1 ⊢; omega, by rw [h2]; push_cast; ring, ?_, ?_, ?_⟩
        · intro k hk
          cases k with
          | zero => simp; linarith
          | succ k =>
            have := h3 k (by omega)
            simpa using this
        · intro _
          cases j with
          | zero => simp; linarith
          | succ j =>
            have := h4 (by omega)
            simpa using this
        · intro hj
          have := h5 (by simp at hj ⊢; omega)
          cases j with
          | zero => exact Or.inl (by simpa using this)
          | succ j => simpa using this
      · rw [if_neg h]
        by_cases h' : pz + kTolerance > a
        · rw [if_pos h']
          exact ⟨1, by simp, by simp, fun k hk => by omega, fun _ => by simp; linarith, fun _ => Or.inr ⟨by omega, by simp; linarith⟩⟩
        · rw [if_neg h']
          exact ⟨0, by simp, by simp, fun k hk => by omega, fun h => by omega, fun _ => Or.inl (by simp; linarith)⟩

/-- C199: the segment that `FindZSegment` finds starts at the first plane that is within the tolerance of the point; if there is none, it starts below the
point and ends above it.  `-1` stands for points below, the number of segments for points above the tolerance zone of the last plane. -/
theorem C199_segment (t : Poly) (hz : t.z ≠ []) (pz : ℝ) :
    -1 ≤ findZSegment t pz ∧ findZSegment t pz ≤ t.z.length - 1 ∧
    (∀ k : ℕ, (k : ℤ) < findZSegment t pz → zAt t k < pz - kTolerance) ∧
    (0 ≤ findZSegment t pz → zAt t (findZSegment t pz).toNat - kTolerance < pz) ∧
    (findZSegment t pz < t.z.length - 1 → pz ≤ zAt t (findZSegment t pz + 1).toNat - kTolerance ∨
      0 ≤ findZSegment t pz ∧ |pz - zAt t (findZSegment t pz).toNat| ≤ kTolerance) := by
  obtain ⟨j, h1, h2, h3, h4, h5⟩ := findZ_spec pz t.z hz (-1)
  have e : findZSegment t pz = -1 + j := h2
  rw [e]
  have e1 : (-1 + (j : ℤ)).toNat = j - 1 := by omega
  have e2 : (-1 + (j : ℤ) + 1).toNat = j := by omega
  rw [e1, e2]
  refine ⟨by omega, by omega, fun k hk => h3 k (by omega), fun h => h4 (by omega), fun h => ?_⟩
  rcases h5 (by omega) with h | ⟨h0, h⟩
  · exact Or.inl h
  · refine Or.inr ⟨by omega, abs_le.2 ⟨?_, ?_⟩⟩
    · have := h4 h0
      unfold zAt
      linarith
    · unfold zAt
      linarith

/-- The planes are more than twice the tolerance apart. -/
def Apart (t : Poly) : Prop := ∀ i, i + 1 < t.z.length → zAt t i + 2 * kTolerance < zAt t (i + 1)

theorem Apart.mono (h : Apart t) {i j : ℕ} (hij : i < j) (hj : j < t.z.length) : zAt t i + 2 * kTolerance < zAt t j := by
  have htol := kTolerance_pos
  induction j with
  | zero => omega
  | succ j ih =>
    have := h j hj
    rcases Nat.lt_succ_iff_lt_or_eq.1 hij with h' | rfl
    · have := ih h' (by omega)
      linarith
    · exact this

theorem Apart.sameZ (h : Apart t) (i : ℕ) : Phd.sameZ t i = false := by
  have htol := kTolerance_pos
  unfold Phd.sameZ
  rw [decide_eq_false_iff_not]
  rintro ⟨-, h1, h2⟩
  have := h i (by omega)
  linarith

/-- C199: with planes apart, segment `i` is found exactly for the points between its planes (lowered by the tolerance). -/
theorem C199_segment_apart (h : Apart t) {i : ℕ} (hi : i + 1 < t.z.length) (pz : ℝ) :
    findZSegment t pz = i ↔ zAt t i - kTolerance < pz ∧ pz ≤ zAt t (i + 1) - kTolerance := by
  have htol := kTolerance_pos
  have hne : t.z ≠ [] := by rintro e; rw [e] at hi; simp at hi
  obtain ⟨h1, h2, h3, h4, h5⟩ := C199_segment t hne pz
  constructor
  · intro e
    rw [e] at h4 h5
    have a1 := h4 (by omega)
    have a2 := h5 (by omega)
    rw [show ((i : ℤ) + 1).toNat = i + 1 by omega] at a2
    rw [show ((i : ℤ)).toNat = i by omega] at a1 a2
    refine ⟨a1, ?_⟩
    rcases a2 with a2 | ⟨-, a2⟩
    · exact a2
    · have := (abs_le.1 a2).2
      have := h i hi
      linarith
  · rintro ⟨b1, b2⟩
    generalize findZSegment t pz = k at *
    rcases lt_trichotomy k i with hk | hk | hk
    · exfalso
      have := h5 (by omega)
      rcases this with c | ⟨c0, c⟩
      · have : (k + 1).toNat = i ∨ (k + 1).toNat < i := by omega
        rcases this with e | e
        · rw [e] at c; linarith
        · have := h.mono e (by omega)
          linarith
      · have := h.mono (show k.toNat < i by omega) (by omega)
        have := (abs_le.1 c).2
        linarith
    · exact hk
    · exfalso
      have a1 := h4 (by omega)
      have : k.toNat = i + 1 ∨ i + 1 < k.toNat := by omega
      rcases this with e | e
      · rw [e] at a1; linarith
      · have := h.mono e (by omega)
        linarith

theorem findPhi_spec (p : V3) (l : List V3) (i : ℤ) (hi : 0 ≤ i) :
    (findPhi p l i = -1 ∧ ∀ k, k + 1 < l.length → ¬ (p.dot (l.getD k ⟨0, 0, 0⟩) > -kTolerance ∧ p.dot (l.getD (k + 1) ⟨0, 0, 0⟩) < kTolerance)) ∨
    ∃ j : ℕ, j + 1 < l.length ∧ findPhi p l i = i + j ∧ (p.dot (l.getD j ⟨0, 0, 0⟩) > -kTolerance ∧ p.dot (l.getD (j + 1) ⟨0, 0, 0⟩) < kTolerance) ∧
      ∀ k < j, ¬ (p.dot (l.getD k ⟨0, 0, 0⟩) > -kTolerance ∧ p.dot (l.getD (k + 1) ⟨0, 0, 0⟩) < kTolerance) := by
  induction l generalizing i with
  | nil => exact Or.inl ⟨rfl, fun k hk => by simp at hk⟩
  | cons a l ih =>
    cases l with
    | nil => exact Or.inl ⟨rfl, fun k hk => by simp at hk⟩
    | cons b l =>
      unfold findPhi
      by_cases h : p.dot a > -kTolerance ∧ p.dot b < kTolerance
      · rw [if_pos h]
        exact Or.inr ⟨0, by simp, by simp, by simpa using h, fun k hk => by omega⟩
      · rw [if_neg h]
        rcases ih (i + 1) (by omega) with ⟨h1, h2⟩ | ⟨j, h1, h2, h3, h4⟩
        · refine Or.inl ⟨h1, fun k hk => ?_⟩
          cases k with
          | zero => simpa using h
          | succ k =>
            have := h2 k (by simp at hk ⊢; omega)
            simpa using this
        · refine Or.inr ⟨j + 1, by simp at h1 ⊢; omega, by rw [h2]; push_cast; ring, by simpa using h3, fun k hk => ?_⟩
          cases k with
          | zero => simpa using h
          | succ k =>
            have := h4 k (by omega)
            simpa using this

/-- C199: `FindPhiSegment` finds the first section that is in front of one phi plane and behind the next, up to the tolerance, and `-1` exactly if there
is none. -/
theorem C199_phi_segment (t : Poly) (p : V3) (j : ℕ) :
    (findPhiSegment t p = j ↔ j + 1 < t.phiSections.length ∧
      (-kTolerance < p.dot (t.phiSections.getD j ⟨0, 0, 0⟩) ∧ p.dot (t.phiSections.getD (j + 1) ⟨0, 0, 0⟩) < kTolerance) ∧
      ∀ k < j, ¬ (-kTolerance < p.dot (t.phiSections.getD k ⟨0, 0, 0⟩) ∧ p.dot (t.phiSections.getD (k + 1) ⟨0, 0, 0⟩) < kTolerance)) ∧
    (findPhiSegment t p < 0 ↔ ∀ k, k + 1 < t.phiSections.length →
      ¬ (-kTolerance < p.dot (t.phiSections.getD k ⟨0, 0, 0⟩) ∧ p.dot (t.phiSections.getD (k + 1) ⟨0, 0, 0⟩) < kTolerance)) := by
  unfold findPhiSegment
  rcases findPhi_spec p t.phiSections 0 le_rfl with ⟨h1, h2⟩ | ⟨i, h1, h2, h3, h4⟩
  · rw [h1]
    refine ⟨⟨fun h => by omega, fun ⟨a, b, _⟩ => absurd b (h2 j a)⟩, ⟨fun _ => h2, fun _ => by norm_num⟩⟩
  · rw [h2]
    refine ⟨⟨fun h => ?_, fun ⟨a, b, c⟩ => ?_⟩, ⟨fun h => by omega, fun h => absurd h3 (h i h1)⟩⟩
    · have : i = j := by omega
      subst this
      exact ⟨h1, h3, h4⟩
    · have : i = j := by
        rcases lt_trichotomy i j with h | h | h
        · exact absurd h3 (c i h)
        · exact h
        · exact absurd b (h4 j h)
      subst this
      simp

/-! ## Contains -/

/-- C199: with planes apart, a point is contained exactly if it is in the bounds, and for the segment of its height it is below all outer planes, not
below all inner planes, and below all phi planes, if they bound a convex set. -/
theorem C199_contains_partial (h : Apart t) (hn : t.z.length = t.segs.length + 1)
    (hc : ∀ s ∈ t.segs, s.outer.convex = true ∧ s.inner.convex = true) (p : V3) :
    contains t p = true ↔ t.bounds p = true ∧ ∃ i s, t.segs[i]? = some s ∧ zAt t i - kTolerance < p.z ∧ p.z ≤ zAt t (i + 1) - kTolerance ∧
      (∀ pl ∈ s.outer.planes, pl.n.dot p + pl.d < 0) ∧ (s.inner.planes = [] ∨ ∃ pl ∈ s.inner.planes, 0 ≤ pl.n.dot p + pl.d) ∧
      (t.hasPhi = true → s.phi.convex = true → ∀ pl ∈ s.phi.planes, pl.n.dot p + pl.d < 0) := by
  have phi : ∀ s : Planes, s.contains p = true ↔ (s.convex = true → ∀ pl ∈ s.planes, pl.n.dot p + pl.d < 0) := by
    intro s
    by_cases hs : s.convex = true
    · rw [C193_contains_partial hs]
      exact ⟨fun h _ => h, fun h => h hs⟩
    · refine ⟨fun _ h => absurd h hs, fun _ => ?_⟩
      unfold Planes.contains
      rw [if_neg hs]
      exact foldl_or _ _
  have body : ∀ i s, t.segs[i]? = some s → segAt t i = s := by
    intro i s hs
    unfold segAt
    rw [List.getD_eq_getElem?_getD, hs]
    rfl
  unfold contains
  by_cases hb : t.bounds p = true
  · simp only [hb, Bool.not_true, Bool.false_eq_true, if_false, true_and]
    by_cases hz : findZSegment t p.z ≥ 0 ∧ findZSegment t p.z < t.segs.length
    · rw [if_neg (not_not.2 hz)]
      obtain ⟨k, hk⟩ : ∃ k : ℕ, findZSegment t p.z = k := ⟨_, (Int.toNat_of_nonneg hz.1).symm⟩
      have hkl : k < t.segs.length := by have := hz.2; rw [hk] at this; exact_mod_cast this
      have hks : t.segs[k]? = some t.segs[k] := List.getElem?_eq_getElem hkl
      obtain ⟨z1, z2⟩ := (C199_segment_apart h (by omega) p.z).1 hk
      have uniq : ∀ i s, t.segs[i]? = some s → zAt t i - kTolerance < p.z → p.z ≤ zAt t (i + 1) - kTolerance → i = k := by
        intro i s hs a b
        have hi : i < t.segs.length := by
          by_contra hc
          rw [List.getElem?_eq_none (by omega)] at hs
          cases hs
        have := (C199_segment_apart h (by omega) p.z).2 ⟨a, b⟩
        omega
      rw [hk]
      rw [Int.toNat_natCast, h.sameZ]
      obtain ⟨co, ci⟩ := hc _ (List.getElem_mem hkl)
      simp only [Bool.false_eq_true, if_false]
      rw [body k _ hks]
      have inner : (!t.segs[k].inner.planes.isEmpty && t.segs[k].inner.contains p) = true ↔
          ¬ (t.segs[k].inner.planes = [] ∨ ∃ pl ∈ t.segs[k].inner.planes, 0 ≤ pl.n.dot p + pl.d) := by
        rw [Bool.and_eq_true, C193_contains_partial ci, Bool.not_eq_true', List.isEmpty_eq_false_iff]
        push Not
        rfl
      have key : (if (!t.segs[k].outer.contains p) = true then false else if (!t.segs[k].inner.planes.isEmpty && t.segs[k].inner.contains p) = true then false
          else if (t.hasPhi && !t.segs[k].phi.contains p) = true then false else true) = true ↔
          ((∀ pl ∈ t.segs[k].outer.planes, pl.n.dot p + pl.d < 0) ∧ (t.segs[k].inner.planes = [] ∨ ∃ pl ∈ t.segs[k].inner.planes, 0 ≤ pl.n.dot p + pl.d) ∧
          (t.hasPhi = true → t.segs[k].phi.convex = true → ∀ pl ∈ t.segs[k].phi.planes, pl.n.dot p + pl.d < 0)) := by
        rw [← C193_contains_partial co]
        rw [← phi]
        by_cases a : t.segs[k].outer.contains p = true
        · rw [if_neg (by simp [a])]
          by_cases b : (!t.segs[k].inner.planes.isEmpty && t.segs[k].inner.contains p) = true
          · rw [if_pos b]
            exact ⟨fun h => (by cases h), fun h => absurd h.2.1 (inner.1 b)⟩
          · rw [if_neg b]
            have b' := not_not.1 (fun hh => b (inner.2 hh))
            cases t.hasPhi <;> cases t.segs[k].phi.contains p <;> simp [a, b']
        · rw [if_pos (by simpa using a)]
          exact ⟨fun h => (by cases h), fun h => absurd h.1 a⟩
      rw [key]
      constructor
      · intro hh
        exact ⟨k, _, hks, z1, z2, hh⟩
      · rintro ⟨i, s, hs, a, b, hh⟩
        have := uniq i s hs a b
        subst this
        rw [hks] at hs
        cases hs
        exact hh
    · rw [if_pos hz]
      simp only [Bool.false_eq_true, false_iff]
      rintro ⟨i, s, hs, a, b, -⟩
      have hi : i < t.segs.length := by
        by_contra hc
        rw [List.getElem?_eq_none (by omega)] at hs
        cases hs
      have := (C199_segment_apart h (by omega) p.z).2 ⟨a, b⟩
      exact hz (by rw [this]; exact ⟨by omega, by exact_mod_cast hi⟩)
  · simp [hb]

/-- C199 does not look at the phi planes if they do not bound a convex set (a cutout below 180 degrees): `Contains` is the same for any other planes with
the flag that is false. -/
theorem C199_phi_counterexample (t : Poly) (f : Seg → Planes) (h0 : ∀ s, (f s).convex = s.phi.convex)
    (hd : ∀ s : Seg, s.phi.convex = true → f s = s.phi) (p : V3) :
    contains { t with segs := t.segs.map fun s => { s with phi := f s } } p = contains t p := by
  have hany : ∀ s : Planes, s.convex = false → s.contains p = true := by
    intro s hs
    unfold Planes.contains
    rw [if_neg (by simp [hs])]
    exact foldl_or _ _
  have e : ∀ i, segAt { t with segs := t.segs.map fun s => { s with phi := f s } } i = { segAt t i with phi := f (segAt t i) } := by
    intro i
    unfold segAt
    simp only [List.getD_eq_getElem?_getD, List.getElem?_map]
    cases t.segs[i]? with
    | none => simp only [Option.map_none, Option.getD_none]; rw [hd _ rfl]
    | some s => rfl
  have hp : ∀ i, (f (segAt t i)).contains p = (segAt t i).phi.contains p := by
    intro i
    by_cases hs : (segAt t i).phi.convex = true
    · rw [hd _ hs]
    · have hs' : (segAt t i).phi.convex = false := by simpa using hs
      rw [hany _ hs', hany _ (by rw [h0]; exact hs')]
  unfold contains
  have e1 : findZSegment { t with segs := t.segs.map fun s => { s with phi := f s } } p.z = findZSegment t p.z := rfl
  have e2 : findPhiSegment { t with segs := t.segs.map fun s => { s with phi := f s } } p = findPhiSegment t p := rfl
  have e3 : ∀ i, sameZ { t with segs := t.segs.map fun s => { s with phi := f s } } i = sameZ t i := fun _ => rfl
  simp only [e, e1, e2, e3, hp, List.length_map]

/-! ## Inside -/

/-- The middle of the planes, and half of their extent. -/
noncomputable def middle (t : Poly) : ℝ := (zAt t 0 + zAt t t.segs.length) / 2

noncomputable def halfZ (t : Poly) : ℝ := (zAt t t.segs.length - zAt t 0) / 2

/-- The bounding tube reaches at most the tolerance beyond the planes (PolyhedronStruct.h:355, 367-371). -/
def Tight (t : Poly) : Prop := ∀ p, t.bounds p = true → |p.z - middle t| < halfZ t + kTolerance

/-- `Inside` of the phi planes. -/
def PhiIn (s : Planes) (p : V3) : Prop :=
  if s.convex then ∀ pl ∈ s.planes, pl.n.dot p + pl.d ≤ -kTolerance else ∃ pl ∈ s.planes, pl.n.dot p + pl.d < -kTolerance

theorem phiIn_iff (s : Planes) (p : V3) : s.inside p = .inside ↔ PhiIn s p := by
  unfold PhiIn
  by_cases h : s.convex = true
  · rw [if_pos h, (C193_inside h p).2]
  · rw [if_neg h, (C193_inside_any (by simpa using h) p).1]

theorem segment_found (h : Apart t) (hn : t.z.length = t.segs.length + 1) {pz : ℝ} (h0 : zAt t 0 - kTolerance < pz) (h1 : pz ≤ zAt t t.segs.length - kTolerance) :
    ∃ k : ℕ, k < t.segs.length ∧ findZSegment t pz = k ∧ clampIndex t pz = k := by
  have htol := kTolerance_pos
  obtain ⟨a1, a2, a3, a4, a5⟩ := C199_segment t (by rintro e; rw [e] at hn; simp at hn) pz
  unfold clampIndex
  generalize findZSegment t pz = k at *
  have hk0 : 0 ≤ k := by
    by_contra hk
    have : k = -1 := by omega
    subst this
    rcases a5 (by omega) with c | ⟨c, -⟩
    · simp at c; linarith
    · omega
  have hk1 : k < t.segs.length := by
    by_contra hk
    have hk' : k.toNat = t.segs.length := by omega
    have := a4 hk0
    rw [hk'] at this
    linarith
  refine ⟨k.toNat, by omega, by omega, ?_⟩
  simp only
  rw [if_neg (by omega), if_neg (by omega)]
  omega

/-- C200: with planes apart, `Inside` answers inside exactly if the point is in the bounds, at least the tolerance from the end planes, and for the segment
of its height at least the tolerance below all outer planes, more than the tolerance above an inner plane, and inside the phi planes. -/
theorem C200_inside (h : Apart t) (hn : t.z.length = t.segs.length + 1) (hb : Tight t)
    (hc : ∀ s ∈ t.segs, s.outer.convex = true ∧ s.inner.convex = true) (p : V3) :
    inside t p = .inside ↔ t.bounds p = true ∧ zAt t 0 + kTolerance ≤ p.z ∧ p.z ≤ zAt t t.segs.length - kTolerance ∧
      ∃ i s, t.segs[i]? = some s ∧ zAt t i - kTolerance < p.z ∧ p.z ≤ zAt t (i + 1) - kTolerance ∧
      (∀ pl ∈ s.outer.planes, pl.n.dot p + pl.d ≤ -kTolerance) ∧ (s.inner.planes = [] ∨ ∃ pl ∈ s.inner.planes, kTolerance < pl.n.dot p + pl.d) ∧
      (t.hasPhi = true → PhiIn s.phi p) := by
  classical
  have htol := kTolerance_pos
  have body : ∀ i s, t.segs[i]? = some s → segAt t i = s := by
    intro i s hs
    unfold segAt
    rw [List.getD_eq_getElem?_getD, hs]
    rfl
  unfold inside
  by_cases hbp : t.bounds p = true
  · simp only [hbp, Bool.not_true, Bool.false_eq_true, if_false, true_and]
    rw [h.sameZ]
    simp only [Bool.false_eq_true, if_false]
    have hz := hb p hbp
    have zz : ¬ |(|p.z - 0.5 * (zAt t 0 + zAt t t.segs.length)| - 0.5 * (zAt t t.segs.length - zAt t 0))| < kTolerance ↔
        zAt t 0 + kTolerance ≤ p.z ∧ p.z ≤ zAt t t.segs.length - kTolerance := by
      rw [show (0.5 : ℝ) * (zAt t 0 + zAt t t.segs.length) = middle t by unfold middle; ring,
        show (0.5 : ℝ) * (zAt t t.segs.length - zAt t 0) = halfZ t by unfold halfZ; ring]
      have e1 : zAt t 0 = middle t - halfZ t := by unfold middle halfZ; ring
      have e2 : zAt t t.segs.length = middle t + halfZ t := by unfold middle halfZ; ring
      rw [e1, e2, abs_lt]
      constructor
      · intro hh
        have h1 : |p.z - middle t| ≤ halfZ t - kTolerance := by
          by_contra hc'
          push Not at hc'
          exact hh ⟨by linarith, by linarith⟩
        have := abs_le.1 h1
        exact ⟨by linarith, by linarith⟩
      · rintro ⟨a, b⟩ ⟨c, -⟩
        have : |p.z - middle t| ≤ halfZ t - kTolerance := abs_le.2 ⟨by linarith, by linarith⟩
        linarith
    constructor
    · intro hh
      split at hh
      · rename_i a; exact absurd hh a
      rename_i a
      split at hh
      · cases hh
      rename_i b
      split at hh
      · cases hh
      rename_i b'
      split at hh
      · rename_i c
        rw [Bool.and_eq_true, decide_eq_true_iff] at c
        exact absurd hh c.2
      rename_i c
      split at hh
      · cases hh
      rename_i d
      obtain ⟨z0, z1⟩ := zz.1 d
      refine ⟨z0, z1, ?_⟩
      obtain ⟨k, k1, k2, k3⟩ := segment_found h hn (by linarith) z1
      have hks : t.segs[k]? = some t.segs[k] := List.getElem?_eq_getElem k1
      rw [k3, Int.toNat_natCast, body k _ hks] at a b b' c
      obtain ⟨co, ci⟩ := hc _ (List.getElem_mem k1)
      obtain ⟨y0, y1⟩ := (C199_segment_apart h (by omega) p.z).1 k2
      refine ⟨k, _, hks, y0, y1, (C193_inside co p).2.1 (not_not.1 a), ?_, ?_⟩
      · by_cases he : t.segs[k].inner.planes = []
        · exact Or.inl he
        · right
          have he' : t.segs[k].inner.planes.isEmpty = false := by simpa using he
          rw [he'] at b b'
          simp only [Bool.not_false, Bool.true_and, decide_eq_true_iff] at b b'
          refine (C193_inside ci p).1.1 ?_
          cases hi : t.segs[k].inner.inside p with
          | inside => exact absurd hi b
          | surface => exact absurd hi b'
          | outside => rfl
      · intro hp
        rw [hp] at c
        simp only [Bool.true_and, decide_eq_true_iff, not_not] at c
        exact (phiIn_iff _ p).1 (by simpa using c)
    · rintro ⟨z0, z1, i, s, hs, y0, y1, o, inn, ph⟩
      have hi : i < t.segs.length := by
        by_contra hc
        rw [List.getElem?_eq_none (by omega)] at hs
        cases hs
      obtain ⟨k, k1, k2, k3⟩ := segment_found h hn (by linarith) z1
      have := (C199_segment_apart h (by omega) p.z).2 ⟨y0, y1⟩
      have hik : i = k := by omega
      subst hik
      rw [k3, Int.toNat_natCast, body i s hs]
      have hmem : s ∈ t.segs := List.mem_of_getElem? hs
      obtain ⟨co, ci⟩ := hc s hmem
      have o' := (C193_inside co p).2.2 o
      rw [if_neg (not_not.2 o')]
      have b1 : ¬ (!s.inner.planes.isEmpty && decide (s.inner.inside p = .inside)) = true := by
        rcases inn with e | e
        · simp [e]
        · have := (C193_inside ci p).1.2 e
          simp [this]
      have b2 : ¬ (!s.inner.planes.isEmpty && decide (s.inner.inside p = .surface)) = true := by
        rcases inn with e | e
        · simp [e]
        · have := (C193_inside ci p).1.2 e
          simp [this]
      rw [if_neg b1, if_neg b2]
      have b3 : ¬ (t.hasPhi && decide (s.phi.inside p ≠ .inside)) = true := by
        intro hh
        rw [Bool.and_eq_true, decide_eq_true_iff] at hh
        exact hh.2 ((phiIn_iff _ p).2 (ph hh.1))
      rw [if_neg b3, if_neg (zz.2 ⟨z0, z1⟩)]
  · simp [hbp]

/-- C200: points that `Inside` puts inside are contained. -/
theorem C200_inside_contains (h : Apart t) (hn : t.z.length = t.segs.length + 1) (hb : Tight t)
    (hc : ∀ s ∈ t.segs, s.outer.convex = true ∧ s.inner.convex = true) (p : V3) (hi : inside t p = .inside) : contains t p = true := by
  have htol := kTolerance_pos
  obtain ⟨b, -, -, i, s, hs, z0, z1, o, inn, ph⟩ := (C200_inside h hn hb hc p).1 hi
  rw [C199_contains_partial h hn hc]
  refine ⟨b, i, s, hs, z0, z1, fun pl hpl => by linarith [o pl hpl], ?_, fun hp hcx pl hpl => ?_⟩
  · rcases inn with e | ⟨pl, hpl, e⟩
    · exact Or.inl e
    · exact Or.inr ⟨pl, hpl, by linarith⟩
  · have := ph hp
    unfold PhiIn at this
    rw [if_pos hcx] at this
    linarith [this pl hpl]

/-- C200: contained points are not outside, if the polyhedron has no cutout or one of 180 degrees or more. -/
theorem C200_contains_inside_partial (h : Apart t) (hn : t.z.length = t.segs.length + 1)
    (hc : ∀ s ∈ t.segs, s.outer.convex = true ∧ s.inner.convex = true) (hp : t.hasPhi = true → ∀ s ∈ t.segs, s.phi.convex = true) (p : V3)
    (hi : contains t p = true) : inside t p ≠ .outside := by
  classical
  have htol := kTolerance_pos
  obtain ⟨hbp, i, s, hs, z0, z1, o, inn, ph⟩ := (C199_contains_partial h hn hc p).1 hi
  have hil : i < t.segs.length := by
    by_contra hc
    rw [List.getElem?_eq_none (by omega)] at hs
    cases hs
  have hseg : segAt t i = s := by
    unfold segAt
    rw [List.getD_eq_getElem?_getD, hs]
    rfl
  have hcl : clampIndex t p.z = i := by
    have := (C199_segment_apart h (by omega) p.z).2 ⟨z0, z1⟩
    unfold clampIndex
    rw [this]
    simp only
    rw [if_neg (by omega), if_neg (by omega)]
  have hmem : s ∈ t.segs := List.mem_of_getElem? hs
  obtain ⟨co, ci⟩ := hc s hmem
  unfold inside
  simp only [hbp, Bool.not_true, Bool.false_eq_true, if_false]
  rw [h.sameZ]
  simp only [Bool.false_eq_true, if_false]
  rw [hcl, Int.toNat_natCast, hseg]
  have a1 : s.outer.inside p ≠ .outside := by
    intro hh
    obtain ⟨pl, hpl, e⟩ := (C193_inside co p).1.1 hh
    linarith [o pl hpl]
  split
  · exact a1
  split
  · rename_i b
    exfalso
    rw [Bool.and_eq_true, decide_eq_true_iff] at b
    have := (C193_inside ci p).2.1 b.2
    rcases inn with e | ⟨pl, hpl, e⟩
    · simp [e] at b
    · linarith [this pl hpl]
  split
  · simp
  split
  · rename_i b
    rw [Bool.and_eq_true] at b
    intro hh
    have hcx := hp b.1 s hmem
    obtain ⟨pl, hpl, e⟩ := (C193_inside hcx p).1.1 hh
    linarith [ph b.1 hcx pl hpl]
  · split <;> simp

end Phd
end VecGeom

import Verif.Trapezoid.Model
import Verif.Trapezoid.Spec

/-!
# Lemmas about planes and the general trapezoid
-/

namespace VecGeom
namespace PlaneShell

theorem dist_eq (pl : Plane) (p : V3) : dist pl p = pl.height p := rfl
theorem proj_eq (pl : Plane) (d : V3) : proj pl d = pl.n.dot d := rfl

theorem generic_fst (pls : List Plane) (p : V3) (s : Bool × Bool) :
    (genericKernel true pls p s).1 = true ↔ s.1 = true ∧ ∀ pl ∈ pls, pl.height p < -kHalfTolerance := by
  classical
  induction pls generalizing s with
  | nil => simp [genericKernel]
  | cons a l ih =>
    have e : genericKernel true (a :: l) p s = genericKernel true l p
        (s.1 && decide (dist a p < 0 - kHalfTolerance), s.2 || decide (dist a p > 0 + kHalfTolerance)) := by
      simp only [genericKernel, List.foldl_cons, if_true]
    rw [e, ih]
    simp only [Bool.and_eq_true, decide_eq_true_eq, dist_eq, List.mem_cons, forall_eq_or_imp, zero_sub, and_assoc]

theorem generic_snd (b : Bool) (pls : List Plane) (p : V3) (s : Bool × Bool) :
    (genericKernel b pls p s).2 = true ↔
      s.2 = true ∨ ∃ pl ∈ pls, (if b then kHalfTolerance else 0) < pl.height p := by
  classical
  induction pls generalizing s with
  | nil => simp [genericKernel]
  | cons a l ih =>
    have e : genericKernel b (a :: l) p s = genericKernel b l p
        (if b then s.1 && decide (dist a p < 0 - kHalfTolerance) else s.1,
          s.2 || decide (dist a p > if b then 0 + kHalfTolerance else 0)) := by
      simp only [genericKernel, List.foldl_cons]
    rw [e, ih]
    simp only [Bool.or_eq_true, decide_eq_true_eq, dist_eq, List.mem_cons, exists_eq_or_imp, zero_add, gt_iff_lt, or_assoc]

theorem safetyIn_eq (pls : List Plane) (p : V3) (m : ℝ) :
    safetyToIn pls p m = maxIf (fun _ : Plane => True) (fun q => q.height p) m pls := by
  classical
  unfold safetyToIn maxIf
  congr 1
  funext m pl
  rw [if_pos trivial, dist_eq]
  by_cases h : pl.height p > m
  · rw [if_pos h, max_eq_right h.le]
  · rw [if_neg h, max_eq_left (not_lt.mp h)]

theorem safetyOut_eq (pls : List Plane) (p : V3) (m : ℝ) :
    safetyToOut pls p m = minIf (fun _ : Plane => True) (fun q => -q.height p) m pls := by
  classical
  unfold safetyToOut minIf
  congr 1
  funext m pl
  rw [if_pos trivial, dist_eq]
  by_cases h : -pl.height p < m
  · rw [if_pos h, min_eq_right h.le]
  · rw [if_neg h, min_eq_left (not_lt.mp h)]

/-- A plane the ray comes through from outside. -/
def FromOut (p d : V3) (pl : Plane) : Prop := -kHalfTolerance < pl.height p ∧ pl.n.dot d ≤ 0
/-- A plane the ray leaves through. -/
def FromIn (p d : V3) (pl : Plane) : Prop := pl.height p ≤ -kHalfTolerance ∧ 0 < pl.n.dot d

theorem inLoop_cons (p d : V3) (pl : Plane) (l : List Plane) (a b : ℝ) :
    inLoop p d (pl :: l) a b = (open Classical in
      if (FromIn p d pl ∧ vdist pl p d < a) ∨ (FromOut p d pl ∧ vdist pl p d > b) then kInfLength
      else inLoop p d l (if FromOut p d pl ∧ vdist pl p d > a then vdist pl p d else a)
        (if FromIn p d pl ∧ vdist pl p d < b then vdist pl p d else b)) := by
  classical
  have e1 : (¬ (dist pl p > 0 - kHalfTolerance) ∧ proj pl d > 0) ↔ FromIn p d pl := by
    unfold FromIn; rw [dist_eq, proj_eq, zero_sub, gt_iff_lt, not_lt]
  have e2 : (dist pl p > 0 - kHalfTolerance ∧ ¬ (proj pl d > 0)) ↔ FromOut p d pl := by
    unfold FromOut; rw [dist_eq, proj_eq, zero_sub, gt_iff_lt, gt_iff_lt, not_lt]
  conv_lhs => unfold inLoop
  simp only [e1, e2]

/-- What the loop returns if it does not give up. -/
theorem inLoop_spec (p d : V3) (l : List Plane) (a b : ℝ) (h : inLoop p d l a b ≠ kInfLength) :
    a ≤ inLoop p d l a b ∧ inLoop p d l a b ≤ b ∧
    (∀ pl ∈ l, FromOut p d pl → vdist pl p d ≤ inLoop p d l a b) ∧
    (∀ pl ∈ l, FromIn p d pl → inLoop p d l a b ≤ vdist pl p d) ∧
    (inLoop p d l a b = a ∨ ∃ pl ∈ l, FromOut p d pl ∧ inLoop p d l a b = vdist pl p d) := by
  classical
  induction l generalizing a b with
  | nil =>
    unfold inLoop at *
    split at h
    · rename_i hab
      rw [if_pos hab]
      exact ⟨le_rfl, hab, by simp, by simp, Or.inl rfl⟩
    · exact absurd rfl h
  | cons pl l ih =>
    rw [inLoop_cons] at h ⊢
    by_cases hc : (FromIn p d pl ∧ vdist pl p d < a) ∨ (FromOut p d pl ∧ vdist pl p d > b)
    · rw [if_pos hc] at h; exact absurd rfl h
    · rw [if_neg hc] at h ⊢
      obtain ⟨h1, h2, h3, h4, h5⟩ := ih _ _ h
      generalize inLoop p d l _ _ = t at *
      push Not at hc
      have ha : a ≤ if FromOut p d pl ∧ vdist pl p d > a then vdist pl p d else a := by
        split
        · rename_i hx; exact hx.2.le
        · exact le_rfl
      have hb : (if FromIn p d pl ∧ vdist pl p d < b then vdist pl p d else b) ≤ b := by
        split
        · rename_i hx; exact hx.2.le
        · exact le_rfl
      refine ⟨ha.trans h1, h2.trans hb, ?_, ?_, ?_⟩
      · intro q hq ho
        rcases List.mem_cons.mp hq with rfl | hq
        · refine le_trans ?_ h1
          split
          · exact le_rfl
          · rename_i hx; by_contra hlt; exact hx ⟨ho, not_le.mp hlt⟩
        · exact h3 q hq ho
      · intro q hq ho
        rcases List.mem_cons.mp hq with rfl | hq
        · refine le_trans h2 ?_
          split
          · exact le_rfl
          · rename_i hx; by_contra hlt; exact hx ⟨ho, not_le.mp hlt⟩
        · exact h4 q hq ho
      · rcases h5 with h5 | ⟨q, hq, ho, he⟩
        · rw [h5]
          by_cases hx : FromOut p d pl ∧ vdist pl p d > a
          · rw [if_pos hx]; exact Or.inr ⟨pl, List.mem_cons_self, hx.1, rfl⟩
          · rw [if_neg hx]; exact Or.inl rfl
        · exact Or.inr ⟨q, List.mem_cons_of_mem _ hq, ho, he⟩

/-- If every number on the way leaves room for `u`, the loop returns at most `u`. -/
theorem inLoop_le (p d : V3) (l : List Plane) {a b u : ℝ} (ha : a ≤ u) (hb : u ≤ b)
    (ho : ∀ pl ∈ l, FromOut p d pl → vdist pl p d ≤ u) (hi : ∀ pl ∈ l, FromIn p d pl → u ≤ vdist pl p d) :
    inLoop p d l a b ≤ u := by
  classical
  induction l generalizing a b with
  | nil => unfold inLoop; rw [if_pos (ha.trans hb)]; exact ha
  | cons pl l ih =>
    have ho' := ho pl List.mem_cons_self
    have hi' := hi pl List.mem_cons_self
    rw [inLoop_cons, if_neg]
    · apply ih
      · split
        · rename_i hx; exact ho' hx.1
        · exact ha
      · split
        · rename_i hx; exact hi' hx.1
        · exact hb
      · exact fun q hq => ho q (List.mem_cons_of_mem _ hq)
      · exact fun q hq => hi q (List.mem_cons_of_mem _ hq)
    · rintro (⟨h1, h2⟩ | ⟨h1, h2⟩)
      · linarith [hi' h1]
      · linarith [ho' h1]

theorem vdist_def (pl : Plane) (p d : V3) : vdist pl p d * nonZero (pl.n.dot d) = -pl.height p := by
  unfold vdist
  rw [proj_eq, dist_eq, div_mul_cancel₀ _ (nonZero_ne _)]

/-- The loop of `DistanceToOut` for a point that is outside no plane. -/
theorem out_eq {pls : List Plane} {p : V3} (h : ∀ pl ∈ pls, pl.height p ≤ kHalfTolerance) (d : V3) :
    distanceToOut pls p d = minIf (fun pl : Plane => pl.n.dot d > 0) (fun pl => vdist pl p d) kInfLength pls := by
  classical
  unfold distanceToOut minIf
  generalize kInfLength = m
  induction pls generalizing m with
  | nil => rfl
  | cons a l ih =>
    simp only [List.foldl_cons]
    have ha : ¬ dist a p > kHalfTolerance := not_lt.mpr (h a List.mem_cons_self)
    rw [if_neg ha, ih fun q hq => h q (List.mem_cons_of_mem _ hq)]
    congr 1
    by_cases hd : a.n.dot d > 0
    · rw [if_pos hd]
      by_cases hv : vdist a p d < m
      · rw [if_pos ⟨hd, hv⟩, min_eq_right hv.le]
      · rw [if_neg fun x => hv x.2, min_eq_left (not_lt.mp hv)]
    · rw [if_neg hd, if_neg fun x => hd x.1]

/-- Outside a plane the loop of `DistanceToOut` gives a negative number. -/
theorem out_neg {pls : List Plane} {p : V3} (h : ∃ pl ∈ pls, kHalfTolerance < pl.height p) (d : V3) :
    distanceToOut pls p d ≤ -1 := by
  classical
  unfold distanceToOut
  have step : ∀ (l : List Plane) (m : ℝ), m ≤ -1 → l.foldl (fun m pl =>
      let m := if dist pl p > kHalfTolerance then -1 else m
      if proj pl d > 0 ∧ vdist pl p d < m then vdist pl p d else m) m ≤ -1 := by
    intro l
    induction l with
    | nil => intro m hm; exact hm
    | cons a l ih =>
      intro m hm
      rw [List.foldl_cons]
      apply ih
      dsimp only
      have h1 : (if dist a p > kHalfTolerance then -1 else m) ≤ -1 := by split <;> linarith
      generalize (if dist a p > kHalfTolerance then -1 else m) = m' at *
      split
      · rename_i hx; linarith [hx.2]
      · exact h1
  obtain ⟨pl, hpl, hh⟩ := h
  obtain ⟨l1, l2, rfl⟩ := List.append_of_mem hpl
  rw [List.foldl_append, List.foldl_cons]
  apply step
  dsimp only
  rw [if_pos (show dist pl p > kHalfTolerance from hh)]
  split
  · rename_i hx; exact hx.2.le
  · exact le_rfl

end PlaneShell

namespace Trapezoid

theorem sides_all {z : ℝ} {pls : List Plane} {P : Plane → Prop} :
    (∀ pl ∈ sides z pls, P pl) ↔ P ⟨⟨0, 0, 1⟩, -z⟩ ∧ P ⟨⟨0, 0, -1⟩, -z⟩ ∧ ∀ pl ∈ pls, P pl := by
  simp only [sides, List.mem_cons, forall_eq_or_imp]

theorem sides_ex {z : ℝ} {pls : List Plane} {P : Plane → Prop} :
    (∃ pl ∈ sides z pls, P pl) ↔ P ⟨⟨0, 0, 1⟩, -z⟩ ∨ P ⟨⟨0, 0, -1⟩, -z⟩ ∨ ∃ pl ∈ pls, P pl := by
  simp only [sides, List.mem_cons, exists_eq_or_imp]

theorem height_up (z : ℝ) (p : V3) : Plane.height ⟨⟨0, 0, 1⟩, -z⟩ p = p.z - z := by
  simp [Plane.height, V3.dot]; ring
theorem height_dn (z : ℝ) (p : V3) : Plane.height ⟨⟨0, 0, -1⟩, -z⟩ p = -p.z - z := by
  simp [Plane.height, V3.dot]; ring

theorem below_iff {z : ℝ} {pls : List Plane} {q : V3} :
    Below (sides z pls) q ↔ |q.z| ≤ z ∧ ∀ pl ∈ pls, pl.height q ≤ 0 := by
  unfold Below
  rw [sides_all, height_up, height_dn, abs_le, ← and_assoc]
  constructor
  · rintro ⟨⟨h1, h2⟩, h3⟩; exact ⟨⟨by linarith, by linarith⟩, h3⟩
  · rintro ⟨⟨h1, h2⟩, h3⟩; exact ⟨⟨by linarith, by linarith⟩, h3⟩

end Trapezoid
end VecGeom

import Verif.Boolean.DistSpec
import Verif.Boolean.Props
import Verif.Nav.StepLemmas

/-!
# Distances of boolean solids (C63)
-/

namespace VecGeom
namespace Boolean

theorem kPush_pos : (0:ℝ) < kPushTolerance := by norm_num [kPushTolerance]
theorem kTol_pos : (0:ℝ) < kTolerance := by norm_num [kTolerance]

theorem transform_at (T : Trans3) (p d : V3) (t : ℝ) :
    T.transform (V3.at' p d t) = V3.at' (T.transform p) (T.transformDirection d) t := Nav.transform_add T p d t

theorem at_at (p d : V3) (s t : ℝ) : V3.at' (V3.at' p d s) d t = V3.at' p d (s + t) := by
  ext <;> simp <;> ring

theorem at_zero (p d : V3) : V3.at' p d 0 = p := by ext <;> simp

/-- Moved regions along a ray. -/
theorem moved_at {T : Trans3} (hT : T.Orthonormal) {X : Region} {p d : V3} {u : ℝ} :
    Moved T X (V3.at' p d u) ↔ X (V3.at' (T.transform p) (T.transformDirection d) u) := by
  rw [moved_iff hT, transform_at]

/-! ## The distances of placed volumes -/

theorem placed_entry {v : Placed} {X : Region} (hT : v.trans.Orthonormal) (h : EntryOK v.solid X) {p d : V3} {sm t : ℝ}
    (ht : v.distanceToIn p d sm = some t) {u : ℝ} (h0 : 0 ≤ u) (h1 : u < t) (h2 : u < sm) :
    ¬ Moved v.trans X (V3.at' p d u) := by
  rw [moved_at hT]; exact h _ _ _ _ ht u h0 h1 h2

theorem placed_exit {v : Placed} {X : Region} (hT : v.trans.Orthonormal) (h : ExitOK v.solid X) {p d : V3} {sm t : ℝ}
    (ht : v.placedDistanceToOut p d sm = some t) {u : ℝ} (h0 : 0 ≤ u) (h1 : u ≤ t) (h2 : u ≤ sm) :
    Moved v.trans X (V3.at' p d u) := by
  rw [moved_at hT]; exact h _ _ _ _ ht u h0 h1 h2

theorem placed_sharp {v : Placed} {X : Region} (hT : v.trans.Orthonormal) (h : ExitSharp v.solid X) {p d : V3} {sm t : ℝ}
    (ht : v.placedDistanceToOut p d sm = some t) (hi : t < kInfLength) {t' : ℝ} (h1 : t < t') (h2 : 0 ≤ t') :
    ∃ u, 0 ≤ u ∧ u ≤ t' ∧ ¬ Moved v.trans X (V3.at' p d u) := by
  obtain ⟨u, a, b, c⟩ := h _ _ _ _ ht hi t' h1 h2
  exact ⟨u, a, b, by rw [moved_at hT]; exact c⟩

theorem placed_notOut {v : Placed} {X : Region} (hT : v.trans.Orthonormal) (h : NotOutOK v.solid X) {p : V3}
    (hp : v.inside p ≠ .outside) : Moved v.trans X p := by
  rw [moved_iff hT]; exact h _ hp

theorem placed_contains {v : Placed} {X : Region} (hT : v.trans.Orthonormal) (h : ContainsOK v.solid X) {p : V3} :
    v.contains p = true ↔ Moved v.trans X p := by
  rw [moved_iff hT]; exact h _

/-! ## C63: the distances that are minima -/

/-- C63: `DistanceToIn` of a union does not jump over points of the union, and the union again fits as a constituent. -/
theorem C63_union_in {n : Nat} {l r : Placed} {X Y : Region} (hl : l.trans.Orthonormal) (hr : r.trans.Orthonormal)
    (hX : EntryOK l.solid X) (hY : EntryOK r.solid Y) :
    EntryOK (boolSolid n .union l r) (Op.union.apply (Moved l.trans X) (Moved r.trans Y)) := by
  intro p d sm t ht u h0 h1 h2
  change unionDistanceToIn l r p d sm = some t at ht
  simp only [unionDistanceToIn, Option.bind_eq_some_iff, Option.map_eq_some_iff] at ht
  obtain ⟨d1, e1, d2, e2, rfl⟩ := ht
  rintro (h | h)
  · exact placed_entry hl hX e1 h0 (lt_of_lt_of_le h1 (min_le_left _ _)) h2 h
  · exact placed_entry hr hY e2 h0 (lt_of_lt_of_le h1 (min_le_right _ _)) h2 h

/-- C63: the distance to enter a union is the distance to enter one of the constituents. -/
theorem C63_union_in_attained {l r : Placed} {p d : V3} {sm t : ℝ} (ht : unionDistanceToIn l r p d sm = some t) :
    l.distanceToIn p d sm = some t ∨ r.distanceToIn p d sm = some t := by
  simp only [unionDistanceToIn, Option.bind_eq_some_iff, Option.map_eq_some_iff] at ht
  obtain ⟨d1, e1, d2, e2, rfl⟩ := ht
  rcases min_choice d1 d2 with h | h
  · left; rw [h]; exact e1
  · right; rw [h]; exact e2

/-- C63, for intersections whose left constituent is not moved: all points up to `DistanceToOut` belong to the
intersection.  The step limit is ignored.  Missing: moved left constituents, see the counterexample. -/
theorem C63_intersection_out_partial {l r : Placed} {X Y : Region} (hl : l.trans.Orthonormal)
    (hr : r.trans.Orthonormal) (hX : ExitOK l.solid X) (hY : ExitOK r.solid Y) (hu : Unmoved l.trans)
    {p d : V3} {t : ℝ} (ht : interDistanceToOut l r p d = some t) {u : ℝ} (h0 : 0 ≤ u) (h1 : u ≤ t) (h2 : u ≤ kInfLength) :
    Op.intersection.apply (Moved l.trans X) (Moved r.trans Y) (V3.at' p d u) := by
  simp only [interDistanceToOut, Option.bind_eq_some_iff, Option.map_eq_some_iff] at ht
  obtain ⟨d1, e1, d2, e2, rfl⟩ := ht
  refine ⟨?_, placed_exit hr hY e2 h0 (h1.trans (min_le_right _ _)) h2⟩
  rw [moved_iff hl, hu]
  exact hX _ _ _ _ e1 u h0 (h1.trans (min_le_left _ _)) h2

/-- C63: `DistanceToOut` of a subtraction: all points before it belong to the difference. -/
theorem C63_subtraction_out {l r : Placed} {X Y : Region} (hl : l.trans.Orthonormal) (hr : r.trans.Orthonormal)
    (hX : ExitOK l.solid X) (hY : EntryOK r.solid Y) {p d : V3} {sm t : ℝ}
    (ht : subDistanceToOut l r p d sm = some t) {u : ℝ} (h0 : 0 ≤ u) (h1 : u < t) (h2 : u < sm) :
    Op.subtraction.apply (Moved l.trans X) (Moved r.trans Y) (V3.at' p d u) := by
  simp only [subDistanceToOut, Option.bind_eq_some_iff, Option.map_eq_some_iff] at ht
  obtain ⟨d1, e1, d2, e2, rfl⟩ := ht
  exact ⟨placed_exit hl hX e1 h0 (h1.le.trans (min_le_left _ _)) h2.le,
    placed_entry hr hY e2 h0 (lt_of_lt_of_le h1 (min_le_right _ _)) h2⟩

/-- C63: these two distances are those of one of the constituents: they are not shorter than needed if those of the
constituents are not. -/
theorem C63_out_attained {l r : Placed} {p d : V3} {sm t : ℝ} :
    (interDistanceToOut l r p d = some t →
      l.distanceToOut p d kInfLength = some t ∨ r.placedDistanceToOut p d kInfLength = some t) ∧
    (subDistanceToOut l r p d sm = some t → l.placedDistanceToOut p d sm = some t ∨ r.distanceToIn p d sm = some t) := by
  constructor <;> intro ht
  · simp only [interDistanceToOut, Option.bind_eq_some_iff, Option.map_eq_some_iff] at ht
    obtain ⟨d1, e1, d2, e2, rfl⟩ := ht
    rcases min_choice d1 d2 with h | h
    · left; rw [h]; exact e1
    · right; rw [h]; exact e2
  · simp only [subDistanceToOut, Option.bind_eq_some_iff, Option.map_eq_some_iff] at ht
    obtain ⟨d1, e1, d2, e2, rfl⟩ := ht
    rcases min_choice d1 d2 with h | h
    · left; rw [h]; exact e1
    · right; rw [h]; exact e2

/-! ## C63: leaving a union -/

theorem clip_nonneg (t : ℝ) : 0 ≤ clip t := by
  unfold clip; split
  · rename_i h; exact h.1
  · exact le_rfl

/-- Every point of the ray from the start to `b` is within the push of a point of the region before it. -/
def Covered (Z : Region) (p d : V3) (b : ℝ) : Prop :=
  ∀ u, 0 ≤ u → u < b → ∃ w, 0 ≤ w ∧ w ≤ u ∧ u - w < kPushTolerance ∧ Z (V3.at' p d w)

theorem covered_step {Z X : Region} {p d : V3} {a : Placed} (ha : a.trans.Orthonormal) (hX : ExitOK a.solid X)
    (hXZ : ∀ q, Moved a.trans X q → Z q) {dist t : ℝ} (hd : 0 ≤ dist) (hZ : Z (V3.at' p d dist))
    (hc : Covered Z p d dist) (ht : a.placedDistanceToOut (V3.at' p d dist) d kInfLength = some t) :
    Covered Z p d (dist + clip t + kPushTolerance) ∧ Z (V3.at' p d (dist + clip t)) := by
  have hk := kPush_pos
  have key : ∀ w, dist ≤ w → w ≤ dist + clip t → Z (V3.at' p d w) := by
    intro w hw1 hw2
    by_cases hcl : 0 ≤ t ∧ t < kInfLength
    · have e : clip t = t := by unfold clip; rw [if_pos hcl]
      rw [e] at hw2
      have := placed_exit ha hX ht (u := w - dist) (by linarith) (by linarith) (by linarith [hcl.2])
      rw [at_at] at this
      rw [show w = dist + (w - dist) by ring]
      exact hXZ _ this
    · have e : clip t = 0 := by unfold clip; rw [if_neg hcl]
      rw [e] at hw2
      have : w = dist := by linarith
      rw [this]; exact hZ
  refine ⟨?_, key _ (by linarith [clip_nonneg t]) le_rfl⟩
  intro u h0 h1
  by_cases h2 : u < dist
  · exact hc u h0 h2
  · push Not at h2
    by_cases h3 : u ≤ dist + clip t
    · exact ⟨u, h0, le_rfl, by linarith, key u h2 h3⟩
    · push Not at h3
      have := clip_nonneg t
      exact ⟨dist + clip t, by linarith, h3.le, by linarith, key _ (by linarith) le_rfl⟩

theorem kernel_covered {Z X Y : Region} {p d : V3} {a b : Placed} (ha : a.trans.Orthonormal) (hb : b.trans.Orthonormal)
    (hX : ExitOK a.solid X) (hY : ExitOK b.solid Y) (hNX : NotOutOK a.solid X) (hNY : NotOutOK b.solid Y)
    (hXZ : ∀ q, Moved a.trans X q → Z q) (hYZ : ∀ q, Moved b.trans Y q → Z q) :
    ∀ (n : Nat) (dist : ℝ) (t : ℝ), 0 ≤ dist → Z (V3.at' p d dist) → Covered Z p d dist →
      unionKernel p d a b n dist (V3.at' p d dist) = some t →
      Covered Z p d t ∧ dist + kPushTolerance ≤ t ∧ Z (V3.at' p d (t - kPushTolerance)) := by
  intro n
  have hk := kPush_pos
  induction n with
  | zero => intro dist t _ _ _ h; simp [unionKernel] at h
  | succ n ih =>
    intro dist t hd hZ hc h
    rw [unionKernel] at h
    simp only [Option.bind_eq_some_iff] at h
    obtain ⟨t1, e1, h⟩ := h
    obtain ⟨hc1, hz1⟩ := covered_step ha hX hXZ hd hZ hc e1
    have hn1 := clip_nonneg t1
    split at h
    · rename_i hin
      simp only [Option.bind_eq_some_iff] at h
      obtain ⟨t2, e2, h⟩ := h
      have hn2 := clip_nonneg t2
      obtain ⟨hc2, hz2⟩ := covered_step hb hY hYZ (by linarith) (hYZ _ (placed_notOut hb hNY hin)) hc1 e2
      split at h
      · rename_i hin2
        obtain ⟨i1, i2, i3⟩ := ih _ _ (by linarith) (hXZ _ (placed_notOut ha hNX hin2)) hc2 h
        exact ⟨i1, by linarith, i3⟩
      · cases h
        exact ⟨hc2, by linarith, by rw [add_sub_cancel_right]; exact hz2⟩
    · cases h
      exact ⟨hc1, by linarith, by rw [add_sub_cancel_right]; exact hz1⟩

/-- How the loop ends: one of the volumes was left at the reported end and the other one does not contain the point a push
later. -/
theorem kernel_end {p d : V3} {a b : Placed} :
    ∀ (n : Nat) (dist : ℝ) (t : ℝ), 0 ≤ dist → unionKernel p d a b n dist (V3.at' p d dist) = some t →
      ∃ w t', 0 ≤ w ∧ t = w + clip t' + kPushTolerance ∧
        ((a.placedDistanceToOut (V3.at' p d w) d kInfLength = some t' ∧ b.inside (V3.at' p d t) = .outside) ∨
         (b.placedDistanceToOut (V3.at' p d w) d kInfLength = some t' ∧ a.inside (V3.at' p d t) = .outside)) := by
  intro n
  have hk := kPush_pos
  induction n with
  | zero => intro dist t _ h; simp [unionKernel] at h
  | succ n ih =>
    intro dist t hd h
    rw [unionKernel] at h
    simp only [Option.bind_eq_some_iff] at h
    obtain ⟨t1, e1, h⟩ := h
    have hn1 := clip_nonneg t1
    split at h
    · simp only [Option.bind_eq_some_iff] at h
      obtain ⟨t2, e2, h⟩ := h
      have hn2 := clip_nonneg t2
      split at h
      · exact ih _ _ (by linarith) h
      · rename_i hout
        cases h
        exact ⟨_, t2, by linarith, rfl, Or.inr ⟨e2, not_not.mp hout⟩⟩
    · rename_i hout
      cases h
      exact ⟨dist, t1, hd, rfl, Or.inl ⟨e1, not_not.mp hout⟩⟩

/-- C63: `DistanceToOut` of a union, for points that are not outside: the number is not negative, the point reached
belongs to the union, and every point of the ray before it is less than the push of the kernel away from a point of the
union before it. -/
theorem C63_union_out {n : Nat} {l r : Placed} {X Y : Region} (hl : l.trans.Orthonormal) (hr : r.trans.Orthonormal)
    (hX : ExitOK l.solid X) (hY : ExitOK r.solid Y) (hNX : NotOutOK l.solid X) (hNY : NotOutOK r.solid Y)
    {p d : V3} {t : ℝ} (hp : unionInside l r p ≠ .outside) (ht : unionDistanceToOut n l r p d = some t) :
    0 ≤ t ∧ Op.union.apply (Moved l.trans X) (Moved r.trans Y) (V3.at' p d t) ∧
    ∀ u, 0 ≤ u → u < t → ∃ w, 0 ≤ w ∧ w ≤ u ∧ u - w < kPushTolerance ∧
      Op.union.apply (Moved l.trans X) (Moved r.trans Y) (V3.at' p d w) := by
  have hk := kPush_pos
  simp only [unionDistanceToOut, Option.map_eq_some_iff] at ht
  obtain ⟨dist, e, rfl⟩ := ht
  have hp' : ¬ (l.inside p = .outside ∧ r.inside p = .outside) := by
    rintro ⟨h1, h2⟩
    apply hp
    simp [unionInside, h1, h2]
  have main : Covered (Op.union.apply (Moved l.trans X) (Moved r.trans Y)) p d dist ∧ kPushTolerance ≤ dist ∧
      Op.union.apply (Moved l.trans X) (Moved r.trans Y) (V3.at' p d (dist - kPushTolerance)) := by
    have c0 : Covered (Op.union.apply (Moved l.trans X) (Moved r.trans Y)) p d 0 :=
      fun u h0 h1 => absurd h1 (not_lt.mpr h0)
    split at e
    · rename_i hin
      have := kernel_covered (Z := Op.union.apply (Moved l.trans X) (Moved r.trans Y)) (p := p) (d := d) hl hr hX hY hNX
        hNY (fun _ => Or.inl) (fun _ => Or.inr) n 0 dist le_rfl
        (by rw [at_zero]; exact Or.inl (placed_notOut hl hNX hin)) c0 (by rw [at_zero]; exact e)
      exact ⟨this.1, by linarith [this.2.1], this.2.2⟩
    · rename_i hin
      have hin' : r.inside p ≠ .outside := fun h => hp' ⟨not_not.mp hin, h⟩
      have := kernel_covered (Z := Op.union.apply (Moved l.trans X) (Moved r.trans Y)) (p := p) (d := d) hr hl hY hX hNY
        hNX (fun _ => Or.inr) (fun _ => Or.inl) n 0 dist le_rfl
        (by rw [at_zero]; exact Or.inr (placed_notOut hr hNY hin')) c0 (by rw [at_zero]; exact e)
      exact ⟨this.1, by linarith [this.2.1], this.2.2⟩
  rw [if_neg (fun h => hp' h.2)]
  exact ⟨by linarith [main.2.1], main.2.2, fun u h0 h1 => main.1 u h0 (by linarith)⟩

/-- C63: the distance to leave a union is not reported too early: it is the end of the distance to leave of one of the
constituents from a point of the ray (clipped at zero if it is negative or infinite), and the other constituent does not
contain the point a push behind it. -/
theorem C63_union_out_end {n : Nat} {l r : Placed} {p d : V3} {t : ℝ} (hp : unionInside l r p ≠ .outside)
    (ht : unionDistanceToOut n l r p d = some t) :
    ∃ w t', 0 ≤ w ∧ t = w + clip t' ∧
      ((l.placedDistanceToOut (V3.at' p d w) d kInfLength = some t' ∧
          r.inside (V3.at' p d (t + kPushTolerance)) = .outside) ∨
       (r.placedDistanceToOut (V3.at' p d w) d kInfLength = some t' ∧
          l.inside (V3.at' p d (t + kPushTolerance)) = .outside)) := by
  simp only [unionDistanceToOut, Option.map_eq_some_iff] at ht
  obtain ⟨dist, e, rfl⟩ := ht
  have hp' : ¬ (l.inside p = .outside ∧ r.inside p = .outside) := by
    rintro ⟨h1, h2⟩
    apply hp
    simp [unionInside, h1, h2]
  rw [if_neg (fun h => hp' h.2), sub_add_cancel]
  split at e
  · obtain ⟨w, t', h1, h2, h3⟩ := kernel_end n 0 dist le_rfl (by rw [at_zero]; exact e)
    exact ⟨w, t', h1, by linarith, h3⟩
  · obtain ⟨w, t', h1, h2, h3⟩ := kernel_end n 0 dist le_rfl (by rw [at_zero]; exact e)
    exact ⟨w, t', h1, by linarith, h3.symm⟩

/-! ## C63: entering an intersection -/

/-- Invariant of the loop: `s` is the distance covered.  Stretches through both within `[0, s)` are short, and unless the
loop has just begun they begin within the tolerance before `s` and end before `s + tolerance`. -/
structure InterInv (Z : Region) (p d : V3) (s : ℝ) : Prop where
  nonneg : 0 ≤ s
  short : ∀ a b, 0 ≤ a → a ≤ b → b < s → Stretch Z p d a b → b - a < 2 * kTolerance
  front : s = 0 ∨ (¬ Z (V3.at' p d (s + kTolerance)) ∧
    ∀ a b, 0 ≤ a → a < s → s ≤ b → Stretch Z p d a b → s - a ≤ kTolerance)

theorem inter_step {Z : Region} {p d : V3} {s e : ℝ} (inv : InterInv Z p d s)
    (hno : ∀ u, s + kTolerance ≤ u → u < e → ¬ Z (V3.at' p d u)) {a b : ℝ} (ha : 0 ≤ a) (hab : a ≤ b)
    (hb : b < e) (h : Stretch Z p d a b) : b - a < 2 * kTolerance := by
  have hk := kTol_pos
  by_cases h1 : b < s
  · exact inv.short a b ha hab h1 h
  · push Not at h1
    have hbs : b < s + kTolerance := by
      by_contra hc
      push Not at hc
      exact hno b hc hb (h b hab le_rfl)
    by_cases h2 : a < s
    · rcases inv.front with h3 | ⟨-, h3⟩
      · linarith
      · have := h3 a b ha h2 h1 h
        linarith
    · linarith

theorem inter_next {Z : Region} {p d : V3} {s q : ℝ} (inv : InterInv Z p d s) (hq : kTolerance ≤ q)
    (hno : ∀ u, s + kTolerance ≤ u → u < s + q → ¬ Z (V3.at' p d u))
    (hend : ¬ Z (V3.at' p d (s + q + kTolerance))) : InterInv Z p d (s + q) := by
  have hk := kTol_pos
  refine ⟨by linarith [inv.nonneg], fun a b ha hab hb h => inter_step inv hno ha hab hb h, Or.inr ⟨hend, ?_⟩⟩
  intro a b ha h1 h2 h
  rcases lt_or_eq_of_le hq with h3 | h3
  · exact absurd (h (max a (s + kTolerance)) (le_max_left _ _) (max_le (by linarith) (by linarith)))
      (hno _ (le_max_right _ _) (max_lt h1 (by linarith)))
  · rcases inv.front with h4 | ⟨h4, -⟩
    · linarith
    · rw [← h3] at h1 h2
      exact absurd (h (s + kTolerance) h1.le h2) h4

theorem interLoop_spec {l r : Placed} {X Y : Region} (hl : l.trans.Orthonormal) (hr : r.trans.Orthonormal)
    (hX : EntryOK l.solid X) (hY : EntryOK r.solid Y) (hCX : ContainsOK l.solid X) (hCY : ContainsOK r.solid Y)
    {p d : V3} : ∀ (n : Nat) (inl inr : Bool) (s t : ℝ), ¬ (inl = true ∧ inr = true) →
    InterInv (Op.intersection.apply (Moved l.trans X) (Moved r.trans Y)) p d s →
    interLoop l r d n inl inr (V3.at' p d s) s = some t →
    ∀ a b, 0 ≤ a → a ≤ b → b < t → b ≤ 10 ^ 20 →
      Stretch (Op.intersection.apply (Moved l.trans X) (Moved r.trans Y)) p d a b → b - a < 2 * kTolerance := by
  intro n
  have hk := kTol_pos
  have hinf : (10:ℝ) ^ 20 < kInfLength := by
    have : (1:ℝ) ≤ 2 ^ 52 := by norm_num
    have h2 : (10:ℝ) ^ 20 < 2 ^ 100 := by norm_num
    have h3 : (2:ℝ) ^ 100 ≤ 2 ^ 1023 := pow_le_pow_right₀ (by norm_num) (by norm_num)
    unfold kInfLength
    generalize (2:ℝ) ^ 1023 = y at h3 ⊢
    have h4 : (1:ℝ) ≤ 2 - 1 / 2 ^ 52 := by norm_num
    nlinarith
  induction n with
  | zero => intro inl inr s t _ _ h; simp [interLoop] at h
  | succ n ih =>
    intro inl inr s t hnb inv h a b ha hab hbt hb2 hst
    -- a step that ends where the left or the right volume begins
    have noX : ∀ t1, l.distanceToIn (V3.at' p d s) d kInfLength = some t1 → ∀ u, s ≤ u → u < s + t1 →
        u < s + kInfLength → ¬ Op.intersection.apply (Moved l.trans X) (Moved r.trans Y) (V3.at' p d u) := by
      intro t1 e1 u h1 h2 h3 hz
      have := placed_entry hl hX e1 (u := u - s) (by linarith) (by linarith) (by linarith)
      rw [at_at, show s + (u - s) = u by ring] at this
      exact this hz.1
    have noY : ∀ t1, r.distanceToIn (V3.at' p d s) d kInfLength = some t1 → ∀ u, s ≤ u → u < s + t1 →
        u < s + kInfLength → ¬ Op.intersection.apply (Moved l.trans X) (Moved r.trans Y) (V3.at' p d u) := by
      intro t1 e1 u h1 h2 h3 hz
      have := placed_entry hr hY e1 (u := u - s) (by linarith) (by linarith) (by linarith)
      rw [at_at, show s + (u - s) = u by ring] at this
      exact this hz.2
    have bigX : ∀ t1, l.distanceToIn (V3.at' p d s) d kInfLength = some t1 → max t1 kTolerance > 10 ^ 20 →
        b - a < 2 * kTolerance := by
      intro t1 e1 hbig
      have : (10:ℝ) ^ 20 < t1 := by
        rcases lt_max_iff.mp hbig with h | h
        · exact h
        · norm_num [kTolerance] at h
      refine inter_step (e := s + min t1 kInfLength) inv (fun u h1 h2 => noX t1 e1 u (by linarith) ?_ ?_) ha hab ?_ hst
      · linarith [min_le_left t1 kInfLength]
      · linarith [min_le_right t1 kInfLength]
      · have := lt_min this hinf
        linarith [inv.nonneg]
    have bigY : ∀ t1, r.distanceToIn (V3.at' p d s) d kInfLength = some t1 → max t1 kTolerance > 10 ^ 20 →
        b - a < 2 * kTolerance := by
      intro t1 e1 hbig
      have : (10:ℝ) ^ 20 < t1 := by
        rcases lt_max_iff.mp hbig with h | h
        · exact h
        · norm_num [kTolerance] at h
      refine inter_step (e := s + min t1 kInfLength) inv (fun u h1 h2 => noY t1 e1 u (by linarith) ?_ ?_) ha hab ?_ hst
      · linarith [min_le_left t1 kInfLength]
      · linarith [min_le_right t1 kInfLength]
      · have := lt_min this hinf
        linarith [inv.nonneg]
    -- advance by the entry of the left volume
    have left : ∀ t1, l.distanceToIn (V3.at' p d s) d kInfLength = some t1 → ¬ max t1 kTolerance > 10 ^ 20 →
        (if r.contains (V3.at' (V3.at' (V3.at' p d s) d (max t1 kTolerance)) d kTolerance) then some (s + max t1 kTolerance)
          else interLoop l r d n true false (V3.at' (V3.at' p d s) d (max t1 kTolerance)) (s + max t1 kTolerance)) = some t →
        b - a < 2 * kTolerance := by
      intro t1 e1 hsm h
      push Not at hsm
      have hno : ∀ u, s + kTolerance ≤ u → u < s + max t1 kTolerance →
          ¬ Op.intersection.apply (Moved l.trans X) (Moved r.trans Y) (V3.at' p d u) := by
        intro u h1 h2
        rcases max_choice t1 kTolerance with h3 | h3
        · rw [h3] at h2
          exact noX t1 e1 u (by linarith) h2 (by linarith [le_max_left t1 kTolerance])
        · rw [h3] at h2; linarith
      simp only [at_at] at h
      split at h
      · cases h
        exact inter_step inv hno ha hab hbt hst
      · rename_i hc
        rw [placed_contains hr hCY] at hc
        exact ih true false _ _ (by simp) (inter_next inv (le_max_right _ _) hno (fun hz => hc hz.2)) h a b ha hab hbt hb2
          hst
    have right : ∀ t1, r.distanceToIn (V3.at' p d s) d kInfLength = some t1 → ¬ max t1 kTolerance > 10 ^ 20 →
        (if l.contains (V3.at' (V3.at' (V3.at' p d s) d (max t1 kTolerance)) d kTolerance) then some (s + max t1 kTolerance)
          else interLoop l r d n false true (V3.at' (V3.at' p d s) d (max t1 kTolerance)) (s + max t1 kTolerance)) = some t →
        b - a < 2 * kTolerance := by
      intro t1 e1 hsm h
      push Not at hsm
      have hno : ∀ u, s + kTolerance ≤ u → u < s + max t1 kTolerance →
          ¬ Op.intersection.apply (Moved l.trans X) (Moved r.trans Y) (V3.at' p d u) := by
        intro u h1 h2
        rcases max_choice t1 kTolerance with h3 | h3
        · rw [h3] at h2
          exact noY t1 e1 u (by linarith) h2 (by linarith [le_max_left t1 kTolerance])
        · rw [h3] at h2; linarith
      simp only [at_at] at h
      split at h
      · cases h
        exact inter_step inv hno ha hab hbt hst
      · rename_i hc
        rw [placed_contains hl hCX] at hc
        exact ih false true _ _ (by simp) (inter_next inv (le_max_right _ _) hno (fun hz => hc hz.1)) h a b ha hab hbt hb2
          hst
    rw [interLoop] at h
    cases inl <;> cases inr
    · simp only [Bool.not_false, if_true, true_and, Option.bind_eq_some_iff, Option.map_eq_some_iff] at h
      obtain ⟨_, ⟨t1, e1, rfl⟩, h⟩ := h
      split at h
      · rename_i hbig; exact bigX t1 e1 hbig
      · rename_i hs1
        simp only [Option.bind_eq_some_iff, Option.map_eq_some_iff] at h
        obtain ⟨_, ⟨t2, e2, rfl⟩, h⟩ := h
        split at h
        · rename_i hbig; exact bigY t2 e2 hbig
        · rename_i hs2
          split at h
          · exact left t1 e1 hs1 h
          · exact right t2 e2 hs2 h
    · simp only [Bool.not_false, Bool.not_true, if_true, true_and, Bool.false_eq_true, false_and, if_false,
        Option.bind_eq_some_iff, Option.map_eq_some_iff, Option.bind_some] at h
      obtain ⟨_, ⟨t1, e1, rfl⟩, h⟩ := h
      split at h
      · rename_i hbig; exact bigX t1 e1 hbig
      · rename_i hs1
        rw [if_pos (lt_of_lt_of_le hk (le_max_right _ _))] at h
        exact left t1 e1 hs1 h
    · simp only [Bool.not_false, Bool.not_true, if_true, true_and, Bool.false_eq_true, false_and, if_false,
        Option.bind_eq_some_iff, Option.map_eq_some_iff, Option.bind_some] at h
      obtain ⟨_, ⟨t1, e1, rfl⟩, h⟩ := h
      split at h
      · rename_i hbig; exact bigY t1 e1 hbig
      · rename_i hs1
        rw [if_neg (not_lt.mpr (hk.le.trans (le_max_right _ _)))] at h
        exact right t1 e1 hs1 h
    · exact absurd ⟨rfl, rfl⟩ hnb

/-- C63: `DistanceToIn` of an intersection does not jump over a stretch through both constituents that is as long as twice
the tolerance (distances up to 1e20, beyond which the kernel gives up). -/
theorem C63_intersection_in {n : Nat} {l r : Placed} {X Y : Region} (hl : l.trans.Orthonormal)
    (hr : r.trans.Orthonormal) (hX : EntryOK l.solid X) (hY : EntryOK r.solid Y) (hCX : ContainsOK l.solid X)
    (hCY : ContainsOK r.solid Y) {p d : V3} {sm t : ℝ} (ht : interDistanceToIn n l r p d sm = some t) {a b : ℝ}
    (ha : 0 ≤ a) (hab : a ≤ b) (hb : b < t) (hb2 : b ≤ 10 ^ 20)
    (hst : Stretch (Op.intersection.apply (Moved l.trans X) (Moved r.trans Y)) p d a b) : b - a < 2 * kTolerance := by
  have hk := kTol_pos
  have inv : InterInv (Op.intersection.apply (Moved l.trans X) (Moved r.trans Y)) p d 0 :=
    ⟨le_rfl, fun a b h1 h2 h3 _ => by linarith, Or.inl rfl⟩
  have go : ∀ inl inr, ¬ (inl = true ∧ inr = true) → interLoop l r d n inl inr p 0 = some t → b - a < 2 * kTolerance := by
    intro inl inr hnb h
    exact interLoop_spec hl hr hX hY hCX hCY n inl inr 0 t hnb inv (by rw [at_zero]; exact h) a b ha hab hb hb2 hst
  unfold interDistanceToIn at ht
  dsimp only at ht
  split at ht
  · simp only [Option.bind_eq_some_iff] at ht
    obtain ⟨d1, e1, d2, e2, ht⟩ := ht
    generalize (if d1 < 2 * kTolerance then false else l.contains p) = inl at ht
    generalize (if d2 < 2 * kTolerance then false else r.contains p) = inr at ht
    split at ht
    · cases ht; linarith
    · rename_i hnb
      exact go _ _ (by simpa using hnb) ht
  · rename_i hnb
    exact go _ _ (by simpa using hnb) ht

theorem interLoop_end {l r : Placed} {p d : V3} :
    ∀ (n : Nat) (inl inr : Bool) (s t : ℝ), ¬ (inl = true ∧ inr = true) → 0 ≤ s →
      interLoop l r d n inl inr (V3.at' p d s) s = some t →
      t = kInfLength ∨ ∃ w t', 0 ≤ w ∧ t = w + max t' kTolerance ∧
        ((l.distanceToIn (V3.at' p d w) d kInfLength = some t' ∧ r.contains (V3.at' p d (t + kTolerance)) = true) ∨
         (r.distanceToIn (V3.at' p d w) d kInfLength = some t' ∧ l.contains (V3.at' p d (t + kTolerance)) = true)) := by
  intro n
  have hk := kTol_pos
  induction n with
  | zero => intro inl inr s t _ _ h; simp [interLoop] at h
  | succ n ih =>
    intro inl inr s t hnb hs h
    rw [interLoop] at h
    simp only [Option.bind_eq_some_iff] at h
    obtain ⟨d1, e1, h⟩ := h
    split at h
    · cases h; exact Or.inl rfl
    · simp only [Option.bind_eq_some_iff] at h
      obtain ⟨d2, e2, h⟩ := h
      split at h
      · cases h; exact Or.inl rfl
      · have f1 : (inl = true ∧ d1 = 0) ∨ ∃ t', l.distanceToIn (V3.at' p d s) d kInfLength = some t' ∧
            d1 = max t' kTolerance := by
          cases inl with
          | true => left; simpa using e1.symm
          | false =>
            right
            simp only [Bool.not_false, if_true, Option.map_eq_some_iff] at e1
            obtain ⟨t', h1, h2⟩ := e1
            exact ⟨t', h1, h2.symm⟩
        have f2 : (inr = true ∧ d2 = 0) ∨ ∃ t', r.distanceToIn (V3.at' p d s) d kInfLength = some t' ∧
            d2 = max t' kTolerance := by
          cases inr with
          | true => left; simpa using e2.symm
          | false =>
            right
            simp only [Bool.not_false, if_true, Option.map_eq_some_iff] at e2
            obtain ⟨t', h1, h2⟩ := e2
            exact ⟨t', h1, h2.symm⟩
        split at h
        · rename_i hlt
          have g2 : 0 ≤ d2 := by
            rcases f2 with ⟨-, h'⟩ | ⟨t', -, h'⟩
            · exact h'.ge
            · rw [h']; exact hk.le.trans (le_max_right _ _)
          rcases f1 with ⟨-, h'⟩ | ⟨t', h1, h2⟩
          · linarith
          · split at h
            · rename_i hc
              cases h
              rw [at_at, at_at, ← add_assoc] at hc
              exact Or.inr ⟨s, t', hs, by rw [h2], Or.inl ⟨h1, hc⟩⟩
            · rw [at_at] at h
              exact ih _ _ _ _ (by simp) (by linarith) h
        · rename_i hlt
          push Not at hlt
          have g1 : 0 ≤ d1 := by
            rcases f1 with ⟨-, h'⟩ | ⟨t', -, h'⟩
            · exact h'.ge
            · rw [h']; exact hk.le.trans (le_max_right _ _)
          rcases f2 with ⟨hr, h'⟩ | ⟨t', h1, h2⟩
          · exfalso
            rcases f1 with ⟨hl, -⟩ | ⟨t', -, h''⟩
            · exact hnb ⟨hl, hr⟩
            · have := le_max_right t' kTolerance
              linarith
          · split at h
            · rename_i hc
              cases h
              rw [at_at, at_at, ← add_assoc] at hc
              exact Or.inr ⟨s, t', hs, by rw [h2], Or.inr ⟨h1, hc⟩⟩
            · rw [at_at] at h
              exact ih _ _ _ _ (by simp) (by linarith) h

/-- C63: the distance to enter an intersection is not invented: it is zero for points of both volumes, or infinite, or one
of the volumes is entered there and the other one contains the point a tolerance behind it. -/
theorem C63_intersection_in_end {n : Nat} {l r : Placed} {p d : V3} {sm t : ℝ}
    (ht : interDistanceToIn n l r p d sm = some t) :
    (t = 0 ∧ l.contains p = true ∧ r.contains p = true) ∨ t = kInfLength ∨
    ∃ w t', 0 ≤ w ∧ t = w + max t' kTolerance ∧
      ((l.distanceToIn (V3.at' p d w) d kInfLength = some t' ∧ r.contains (V3.at' p d (t + kTolerance)) = true) ∨
       (r.distanceToIn (V3.at' p d w) d kInfLength = some t' ∧ l.contains (V3.at' p d (t + kTolerance)) = true)) := by
  unfold interDistanceToIn at ht
  dsimp only at ht
  split at ht
  · rename_i hb
    simp only [Option.bind_eq_some_iff] at ht
    obtain ⟨d1, e1, d2, e2, ht⟩ := ht
    generalize (if d1 < 2 * kTolerance then false else l.contains p) = inl at ht
    generalize (if d2 < 2 * kTolerance then false else r.contains p) = inr at ht
    split at ht
    · cases ht
      simp only [Bool.and_eq_true] at hb
      exact Or.inl ⟨rfl, hb⟩
    · rename_i hnb
      exact Or.inr (interLoop_end n _ _ 0 t (by simpa using hnb) le_rfl (by rw [at_zero]; exact ht))
  · rename_i hnb
    exact Or.inr (interLoop_end n _ _ 0 t (by simpa using hnb) le_rfl (by rw [at_zero]; exact ht))

/-! ## C63: entering a subtraction -/

/-- A stretch of the ray through the region, before the step limit. -/
def Run (Z : Region) (p d : V3) (sm a b : ℝ) : Prop := 0 ≤ a ∧ a ≤ b ∧ b < sm ∧ Stretch Z p d a b

/-- Invariant of the loop: `w` is the position of the point on the ray, `s` the distance counted so far. -/
structure SubInv (Z : Region) (p d : V3) (sm w s : ℝ) : Prop where
  nonneg : 0 ≤ w
  le : s ≤ w
  short : ∀ a b, Run Z p d sm a b → b ≤ w → b - a ≤ 2 * kPushTolerance + kTolerance
  front : ∀ a b, Run Z p d sm a b → a < w → w < b → w - a ≤ kPushTolerance + kTolerance

theorem sub_rest {l r : Placed} {X Y : Region} (hl : l.trans.Orthonormal)
    (hX : EntryOK l.solid X) {p d : V3} {sm w s t2 : ℝ}
    (inv : SubInv (Op.subtraction.apply (Moved l.trans X) (Moved r.trans Y)) p d sm w s)
    (hQ : ∀ a b, Run (Op.subtraction.apply (Moved l.trans X) (Moved r.trans Y)) p d sm a b → a < w → w < b →
      b ≤ w + kPushTolerance)
    (e2 : l.distanceToIn (V3.at' p d w) d sm = some t2) {e : ℝ} (he : w ≤ e)
    (hwin : e ≤ w + max t2 0 + (kPushTolerance + kTolerance)) {a b : ℝ}
    (hr : Run (Op.subtraction.apply (Moved l.trans X) (Moved r.trans Y)) p d sm a b) (hb : b ≤ e) :
    b - a ≤ 2 * kPushTolerance + kTolerance := by
  have hk := kTol_pos
  have hp := kPush_pos
  by_cases h1 : b ≤ w
  · exact inv.short a b hr h1
  · push Not at h1
    by_cases h2 : a < w
    · have := inv.front a b hr h2 h1
      have := hQ a b hr h2 h1
      linarith
    · push Not at h2
      have h3 : w + max t2 0 ≤ a := by
        by_contra hc
        push Not at hc
        have h4 : a - w < t2 := by
          rcases max_choice t2 0 with h | h <;> rw [h] at hc <;> linarith
        obtain ⟨r1, r2, r3, r4⟩ := hr
        have := placed_entry hl hX e2 (u := a - w) (by linarith) h4 (by linarith [inv.nonneg])
        rw [at_at, show w + (a - w) = a by ring] at this
        exact this (r4 a le_rfl r2).1
      linarith

theorem subLoop_spec {l r : Placed} {X Y : Region} (hl : l.trans.Orthonormal) (hr : r.trans.Orthonormal)
    (hX : EntryOK l.solid X) (hSX : ExitSharp l.solid X) (hCX : ContainsOK l.solid X) (hY : ExitOK r.solid Y)
    {p d : V3} {sm : ℝ} : ∀ (n : Nat) (insideRight : Bool) (w s t : ℝ),
    SubInv (Op.subtraction.apply (Moved l.trans X) (Moved r.trans Y)) p d sm w s →
    (insideRight = false → w = 0) →
    subLoop l r d sm n insideRight (V3.at' p d w) s = some t →
    ∀ a b, Run (Op.subtraction.apply (Moved l.trans X) (Moved r.trans Y)) p d sm a b → b < t → b < kInfLength →
      b - a ≤ 2 * kPushTolerance + kTolerance := by
  intro n
  have hk := kTol_pos
  have hp := kPush_pos
  induction n with
  | zero => intro ir w s t _ _ h; simp [subLoop] at h
  | succ n ih =>
    intro ir w s t inv hw h a b hrun hbt hbi
    set Z := Op.subtraction.apply (Moved l.trans X) (Moved r.trans Y) with hZ
    -- the second half of a round
    have rest : ∀ w s, SubInv Z p d sm w s →
        (∀ a b, Run Z p d sm a b → a < w → w < b → b ≤ w + kPushTolerance) →
        ((l.distanceToIn (V3.at' p d w) d sm).bind fun t2 =>
          if max t2 0 = kInfLength then some kInfLength
          else (r.distanceToIn (V3.at' p d w) d sm).bind fun d1 =>
            if max t2 0 < d1 - kTolerance then some (s + (max t2 0 + kPushTolerance))
            else if 0 ≤ d1 ∧ d1 < kInfLength then
              subLoop l r d sm n true (V3.at' (V3.at' p d w) d (d1 + kPushTolerance)) (s + (d1 + kPushTolerance))
            else subLoop l r d sm n true (V3.at' (V3.at' p d w) d kPushTolerance) (s + 0)) = some t →
        b - a ≤ 2 * kPushTolerance + kTolerance := by
      intro w s inv hQ h
      simp only [Option.bind_eq_some_iff] at h
      obtain ⟨t2, e2, h⟩ := h
      have hnn := inv.nonneg
      have hm0 : 0 ≤ max t2 0 := le_max_right _ _
      -- stretches that end after the window begins
      have late : ∀ a b, Run Z p d sm a b → w ≤ a → w + max t2 0 ≤ a := by
        intro a b hrun h2
        by_contra hc
        push Not at hc
        have h4 : a - w < t2 := by
          rcases max_choice t2 0 with h | h <;> rw [h] at hc <;> linarith
        obtain ⟨r1, r2, r3, r4⟩ := hrun
        have := placed_entry hl hX e2 (u := a - w) (by linarith) h4 (by linarith)
        rw [at_at, show w + (a - w) = a by ring] at this
        exact this (r4 a le_rfl r2).1
      split at h
      · rename_i hinf
        refine sub_rest (e := w + max t2 0) hl hX inv hQ e2 (by linarith) (by linarith) hrun ?_
        linarith
      · simp only [Option.bind_eq_some_iff] at h
        obtain ⟨d1, e1, h⟩ := h
        split at h
        · cases h
          refine sub_rest (e := w + max t2 0 + kPushTolerance) hl hX inv hQ e2 (by linarith) (by linarith) hrun ?_
          linarith [inv.le]
        · rename_i hle
          push Not at hle
          split at h
          · rename_i hd1
            rw [at_at] at h
            refine ih true _ _ t ⟨by linarith [hd1.1], by linarith [inv.le], ?_, ?_⟩ (by simp) h a b hrun hbt hbi
            · intro a b hrun hb
              exact sub_rest (e := w + (d1 + kPushTolerance)) hl hX inv hQ e2 (by linarith [hd1.1]) (by linarith) hrun hb
            · intro a b hrun h1 h2
              by_cases h3 : a < w
              · have := hQ a b hrun h3 (by linarith [hd1.1])
                linarith [hd1.1]
              · have := late a b hrun (not_lt.mp h3)
                linarith
          · rw [at_at] at h
            refine ih true _ _ t ⟨by linarith, by linarith [inv.le], ?_, ?_⟩ (by simp) h a b hrun hbt hbi
            · intro a b hrun hb
              exact sub_rest (e := w + kPushTolerance) hl hX inv hQ e2 (by linarith) (by linarith) hrun hb
            · intro a b hrun h1 h2
              by_cases h3 : a < w
              · have := hQ a b hrun h3 (by linarith)
                linarith
              · linarith
    rw [subLoop] at h
    cases ir with
    | false =>
      simp only [Bool.false_eq_true, if_false] at h
      refine rest w s inv ?_ h
      rintro a b ⟨h0, -⟩ h1
      rw [hw rfl] at h1
      linarith
    | true =>
      simp only [if_true] at h
      rw [Option.bind_eq_some_iff] at h
      obtain ⟨d1, e1, h⟩ := h
      -- the point after leaving the right volume
      set step := (if 0 ≤ d1 ∧ d1 < kInfLength then d1 + kPushTolerance else 0) with hstep
      have inv' : SubInv Z p d sm (w + step) (s + step) := by
        by_cases hd1 : 0 ≤ d1 ∧ d1 < kInfLength
        · rw [if_pos hd1] at hstep
          have inY : ∀ a b u, Run Z p d sm a b → a ≤ u → u ≤ b → w ≤ u → u ≤ w + d1 → False := by
            rintro a b u ⟨r1, r2, r3, r4⟩ h1 h2 h3 h4
            have := placed_exit hr hY e1 (u := u - w) (by linarith) (by linarith) (by linarith [inv.nonneg])
            rw [at_at, show w + (u - w) = u by ring] at this
            exact (r4 u h1 h2).2 this
          refine ⟨by linarith [inv.nonneg, hd1.1], by linarith [inv.le], ?_, ?_⟩
          · intro a b hrun hb
            by_cases h1 : b ≤ w
            · exact inv.short a b hrun h1
            · push Not at h1
              by_cases h2 : a ≤ w + d1
              · exact (inY a b (max a w) hrun (le_max_left _ _) (max_le hrun.2.1 h1.le) (le_max_right _ _)
                  (max_le h2 (by linarith [hd1.1]))).elim
              · push Not at h2; linarith
          · intro a b hrun h1 h2
            by_cases h3 : a ≤ w + d1
            · exact (inY a b (max a w) hrun (le_max_left _ _) (max_le hrun.2.1 (by linarith [hd1.1])) (le_max_right _ _)
                (max_le h3 (by linarith [hd1.1]))).elim
            · push Not at h3; linarith
        · rw [if_neg hd1] at hstep
          rw [hstep, add_zero, add_zero]
          exact inv
      rw [at_at] at h
      split at h
      · rename_i hc
        rw [Option.bind_eq_some_iff] at h
        obtain ⟨check, e3, h⟩ := h
        split at h
        · cases h
          exact inv'.short a b hrun (by linarith [inv'.le])
        · rename_i hch
          push Not at hch
          refine rest _ _ inv' ?_ h
          intro a b hrun h1 h2
          by_contra hcon
          push Not at hcon
          have hi : check < kInfLength := by
            have : kPushTolerance < kInfLength := by
              have h3 : (1:ℝ) ≤ 2 ^ 1023 := one_le_pow₀ (by norm_num)
              unfold kInfLength kPushTolerance
              generalize (2:ℝ) ^ 1023 = y at h3 ⊢
              have h4 : (1:ℝ) ≤ 2 - 1 / 2 ^ 52 := by norm_num
              have h5 : (1:ℝ) ≤ (2 - 1 / 2 ^ 52) * y := by nlinarith
              refine lt_of_lt_of_le ?_ h5
              norm_num
            linarith
          obtain ⟨u, u0, u1, u2⟩ := placed_sharp hl hSX e3 hi (t' := b - (w + step)) (by linarith) (by linarith)
          rw [at_at] at u2
          exact u2 (hrun.2.2.2 _ (by linarith) (by linarith)).1
      · rename_i hc
        refine rest _ _ inv' ?_ h
        intro a b hrun h1 h2
        rw [placed_contains hl hCX] at hc
        exact absurd (hrun.2.2.2 _ h1.le h2.le).1 hc

/-- C63: `DistanceToIn` of a subtraction does not jump over a stretch through the difference that is longer than twice the
push plus the tolerance. -/
theorem C63_subtraction_in {n : Nat} {l r : Placed} {X Y : Region} (hl : l.trans.Orthonormal) (hr : r.trans.Orthonormal)
    (hX : EntryOK l.solid X) (hSX : ExitSharp l.solid X) (hCX : ContainsOK l.solid X) (hY : ExitOK r.solid Y)
    {p d : V3} {sm t : ℝ} (ht : subDistanceToIn n l r p d sm = some t) {a b : ℝ} (ha : 0 ≤ a) (hab : a ≤ b) (hb : b < t)
    (hb2 : b < sm) (hb3 : b < kInfLength)
    (hst : Stretch (Op.subtraction.apply (Moved l.trans X) (Moved r.trans Y)) p d a b) :
    b - a ≤ 2 * kPushTolerance + kTolerance := by
  have hk := kTol_pos
  have hp := kPush_pos
  refine subLoop_spec hl hr hX hSX hCX hY n (r.contains p) 0 0 t ⟨le_rfl, le_rfl, ?_, ?_⟩ (fun _ => rfl)
    (by rw [at_zero]; exact ht) a b ⟨ha, hab, hb2, hst⟩ hb hb3
  · rintro a b ⟨h1, h2, -⟩ h3; linarith
  · rintro a b ⟨h1, h2, -⟩ h3; linarith

/-- C63: the distance to enter a subtraction is reported longer by the push of the kernel than the distance to the left
volume whenever the ray meets the left volume first. -/
theorem C63_subtraction_in_offset {n : Nat} {l r : Placed} {p d : V3} {sm t1 t2 : ℝ}
    (hout : r.contains p = false) (h1 : l.distanceToIn p d sm = some t1) (h2 : r.distanceToIn p d sm = some t2)
    (h0 : 0 ≤ t1) (hfar : t1 < t2 - kTolerance) (hinf : t1 ≠ kInfLength) :
    subDistanceToIn (n + 1) l r p d sm = some (t1 + kPushTolerance) := by
  rw [subDistanceToIn, hout, subLoop]
  simp only [Bool.false_eq_true, if_false, h1, h2, Option.bind_some, max_eq_left h0, if_neg hinf, if_pos hfar, zero_add]

/-! ## The assumptions can be met -/

theorem ideal_entry (X : Region) : EntryOK (ideal X) X := by
  intro p d sm t ht u h0 h1 h2 hu
  simp only [ideal] at ht
  rw [if_pos ⟨u, h0, hu⟩] at ht
  cases ht
  exact absurd h1 (not_lt.mpr (csInf_le ⟨0, fun x hx => hx.1⟩ ⟨h0, hu⟩))

/-- Every ray meets the region in a closed set. -/
def RayClosed (X : Region) : Prop := ∀ p d, IsClosed {u | X (V3.at' p d u)}

theorem ideal_exit {X : Region} (hX : RayClosed X) : ExitOK (ideal X) X := by
  intro p d sm t ht u h0 h1 h2
  simp only [ideal] at ht
  by_contra hu
  split at ht
  · rw [if_pos ⟨u, h0, hu⟩] at ht
    cases ht
    rename_i hp
    set S := {u | 0 ≤ u ∧ ¬ X (V3.at' p d u)} with hS
    have hle : sInf S ≤ u := csInf_le ⟨0, fun x hx => hx.1⟩ ⟨h0, hu⟩
    have he : sInf S = u := le_antisymm hle h1
    -- all points before `u` are in the region, so `u` is
    have hclosed := hX p d
    have : u ∈ closure {v | X (V3.at' p d v)} := by
      rcases lt_or_eq_of_le h0 with h3 | h3
      · refine closure_mono (s := Set.Ioo 0 u) ?_ ?_
        · intro v hv
          by_contra hc
          have := csInf_le (s := S) ⟨0, fun x hx => hx.1⟩ ⟨hv.1.le, hc⟩
          rw [he] at this
          exact absurd hv.2 (not_lt.mpr this)
        · rw [closure_Ioo h3.ne]
          exact ⟨h3.le, le_rfl⟩
      · apply subset_closure
        rw [← h3]
        change X (V3.at' p d 0)
        rw [at_zero]; exact hp
    rw [hclosed.closure_eq] at this
    exact hu this
  · cases ht; linarith

theorem ideal_sharp (X : Region) : ExitSharp (ideal X) X := by
  intro p d sm t ht hi t' h1 h2
  simp only [ideal] at ht
  split at ht
  · split at ht
    · rename_i hex
      cases ht
      obtain ⟨u, hu, hlt⟩ := exists_lt_of_csInf_lt hex h1
      exact ⟨u, hu.1, hlt.le, hu.2⟩
    · cases ht; exact absurd hi (lt_irrefl _)
  · rename_i hp
    exact ⟨0, le_rfl, h2, by rw [at_zero]; exact hp⟩

theorem ideal_contains (X : Region) : ContainsOK (ideal X) X := fun p => by simp [ideal]

theorem ideal_notOut (X : Region) : NotOutOK (ideal X) X := by
  intro p hp
  by_contra h
  simp [ideal, h] at hp

/-- A slab. -/
def slab : Region := fun p => |p.x| ≤ 1

theorem slab_closed : RayClosed slab := by
  intro p d
  have : Continuous fun u : ℝ => |p.x + u * d.x| := by fun_prop
  exact isClosed_le this continuous_const

/-- The assumptions of all theorems on distances hold for exact slabs, placed with any rigid motion. -/
example : Trans3.sample.Orthonormal ∧ EntryOK (ideal slab) slab ∧ ExitOK (ideal slab) slab ∧ ExitSharp (ideal slab) slab ∧
    ContainsOK (ideal slab) slab ∧ NotOutOK (ideal slab) slab :=
  ⟨Trans3.sample_orthonormal, ideal_entry _, ideal_exit slab_closed, ideal_sharp _, ideal_contains _, ideal_notOut _⟩

/-- The half space up to a plane. -/
def upTo (x : ℝ) : Region := fun p => p.x ≤ x
/-- The half space behind a plane. -/
def behind (x : ℝ) : Region := fun p => x ≤ p.x

theorem ideal_behind (n : ℝ) (hn : 0 ≤ n) (sm : ℝ) : (ideal (behind n)).distanceToIn ⟨0, 0, 0⟩ ⟨1, 0, 0⟩ sm = some n := by
  have e : {u : ℝ | 0 ≤ u ∧ behind n (V3.at' ⟨0, 0, 0⟩ ⟨1, 0, 0⟩ u)} = Set.Ici n := by
    ext u
    simp only [behind, V3.at_x, Set.mem_setOf_eq, Set.mem_Ici, mul_one, zero_add]
    constructor
    · exact fun h => h.2
    · exact fun h => ⟨hn.trans h, h⟩
  simp only [ideal]
  rw [if_pos ⟨n, hn, by simp [behind]⟩, e, csInf_Ici]

theorem ideal_upTo (x a : ℝ) (hn : a ≤ x) (sm : ℝ) :
    (ideal (upTo x)).distanceToOut ⟨a, 0, 0⟩ ⟨1, 0, 0⟩ sm = some (x - a) := by
  have e : {u : ℝ | 0 ≤ u ∧ ¬ upTo x (V3.at' ⟨a, 0, 0⟩ ⟨1, 0, 0⟩ u)} = Set.Ioi (x - a) := by
    ext u
    simp only [upTo, V3.at_x, Set.mem_setOf_eq, Set.mem_Ioi, mul_one]
    constructor
    · rintro ⟨-, h⟩; linarith
    · intro h; exact ⟨by linarith, by linarith⟩
  simp only [ideal]
  rw [if_pos (show upTo x ⟨a, 0, 0⟩ from hn), if_pos ⟨x - a + 1, by linarith, by simp only [upTo, V3.at_x]; linarith⟩, e, csInf_Ioi]

/-- Finding: for a half space beginning at distance 2, with a half space beginning at distance 5 cut away, the reported
distance is not 2 but 2 plus the push. -/
theorem C63_subtraction_in_counterexample (n : Nat) :
    subDistanceToIn (n + 1) ⟨Trans3.identity, ideal (behind 2)⟩ ⟨Trans3.identity, ideal (behind 5)⟩ ⟨0, 0, 0⟩ ⟨1, 0, 0⟩
        kInfLength = some (2 + kPushTolerance) ∧
      Op.subtraction.apply (Moved Trans3.identity (behind 2)) (Moved Trans3.identity (behind 5))
        (V3.at' ⟨0, 0, 0⟩ ⟨1, 0, 0⟩ 2) := by
  have hd : Trans3.identity.transformDirection ⟨1, 0, 0⟩ = ⟨1, 0, 0⟩ := by
    rw [Trans3.transformDirection_eq]; ext <;> simp [Trans3.rotGeneric, Trans3.identity]
  constructor
  · refine C63_subtraction_in_offset (t2 := 5) ?_ ?_ ?_ (by norm_num) (by norm_num [kTolerance]) ?_
    · simp only [Placed.contains, identity_unmoved _]; norm_num [ideal, behind]
    · simp only [Placed.distanceToIn, identity_unmoved _, hd]; exact ideal_behind 2 (by norm_num) _
    · simp only [Placed.distanceToIn, identity_unmoved _, hd]; exact ideal_behind 5 (by norm_num) _
    · have h3 : (4:ℝ) ≤ 2 ^ 1023 := by
        calc (4:ℝ) = 2 ^ 2 := by norm_num
          _ ≤ 2 ^ 1023 := pow_le_pow_right₀ (by norm_num) (by norm_num)
      unfold kInfLength
      generalize (2:ℝ) ^ 1023 = y at h3 ⊢
      have h4 : (1:ℝ) ≤ 2 - 1 / 2 ^ 52 := by norm_num
      intro h5
      nlinarith
  · simp only [Op.apply, unmoved_moved identity_orthonormal identity_unmoved, behind, V3.at_x]
    norm_num

/-- Finding: `DistanceToOut` of an intersection overshoots if the left constituent is moved: the left half space, moved to
end at -5, cut with the half space up to 100: the reported distance from -6 is 6, the ray leaves after 1. -/
theorem C63_left_moved_counterexample :
    interDistanceToOut ⟨Trans3.ofTranslation (-5) 0 0, ideal (upTo 0)⟩ ⟨Trans3.identity, ideal (upTo 100)⟩ ⟨-6, 0, 0⟩
        ⟨1, 0, 0⟩ = some 6 ∧
      ¬ Op.intersection.apply (Moved (Trans3.ofTranslation (-5) 0 0) (upTo 0)) (Moved Trans3.identity (upTo 100))
        (V3.at' ⟨-6, 0, 0⟩ ⟨1, 0, 0⟩ 2) := by
  have hd : Trans3.identity.transformDirection ⟨1, 0, 0⟩ = ⟨1, 0, 0⟩ := by
    rw [Trans3.transformDirection_eq]; ext <;> simp [Trans3.rotGeneric, Trans3.identity]
  constructor
  · simp only [interDistanceToOut, Placed.distanceToOut, Placed.placedDistanceToOut, identity_unmoved _, hd]
    rw [ideal_upTo 0 (-6) (by norm_num), ideal_upTo 100 (-6) (by norm_num)]
    norm_num
  · rintro ⟨h, -⟩
    rw [moved_iff (ofTranslation_orthonormal _ _ _)] at h
    simp [upTo, ofTranslation_transform] at h
    norm_num at h

end Boolean
end VecGeom

import Verif.Coax.Model
import Verif.Cone.DistProps
import Verif.Cone.Volume

/-!
# Properties of coaxial cones

The solid is the union of its cones.
-/

namespace VecGeom
namespace Coax

open Real MeasureTheory Cone Tube

/-- The parameters of the solid: the radii of the cones, half the height, the first azimuth and the range. -/
structure Par where
  rs : List Radii
  z : ℝ
  s : ℝ
  d : ℝ

namespace Par

/-- The parameters of the cones. -/
def cones (a : Par) : List Cone.Par := a.rs.map fun r => ⟨r.rmin1, r.rmax1, r.rmin2, r.rmax2, a.z, a.s, a.d⟩

/-- All cones make sense. -/
def Valid (a : Par) : Prop := ∀ k ∈ a.cones, k.Valid

/-- The union of the cones, without the walls of their bores. -/
def In (a : Par) (p : V3) : Prop := ∃ k ∈ a.cones, k.fix.In p

/-- The union of the cones with their surfaces. -/
def Closed (a : Par) (p : V3) : Prop := ∃ k ∈ a.cones, k.fix.Closed p

end Par

/-- The object for given parameters. -/
noncomputable def of (a : Par) : Struct := make a.rs a.z a.s a.d

theorem of_cones (a : Par) : (of a).cones = a.cones.map Cone.of := by
  simp [of, make, Par.cones, Cone.of, Function.comp_def]

/-! ## Folds -/

open Classical in
theorem foldl_min_le {α : Type*} (f : α → ℝ) (l : List α) (x : ℝ) :
    let r := l.foldl (fun x k => if f k < x then f k else x) x
    r ≤ x ∧ (∀ k ∈ l, r ≤ f k) ∧ (r = x ∨ ∃ k ∈ l, r = f k) := by
  induction l generalizing x with
  | nil => simp
  | cons k l ih =>
    obtain ⟨h1, h2, h3⟩ := ih (if f k < x then f k else x)
    intro r
    have hr : r = l.foldl (fun x k => if f k < x then f k else x) (if f k < x then f k else x) := rfl
    rw [← hr] at h1 h2 h3
    by_cases h : f k < x
    · rw [if_pos h] at h1 h3
      exact ⟨by linarith, by simpa using ⟨h1, h2⟩, .inr (by rcases h3 with h3 | ⟨j, hj, h3⟩; exacts [⟨k, by simp, h3⟩, ⟨j, by simp [hj], h3⟩])⟩
    · rw [if_neg h] at h1 h3
      exact ⟨h1, by simpa using ⟨by linarith, h2⟩, h3.imp id (fun ⟨j, hj, h3⟩ => ⟨j, by simp [hj], h3⟩)⟩

open Classical in
theorem foldl_max_ge {α : Type*} (f : α → ℝ) (l : List α) (x : ℝ) :
    let r := l.foldl (fun x k => if f k > x then f k else x) x
    x ≤ r ∧ (∀ k ∈ l, f k ≤ r) ∧ (r = x ∨ ∃ k ∈ l, r = f k) := by
  induction l generalizing x with
  | nil => simp
  | cons k l ih =>
    obtain ⟨h1, h2, h3⟩ := ih (if f k > x then f k else x)
    intro r
    have hr : r = l.foldl (fun x k => if f k > x then f k else x) (if f k > x then f k else x) := rfl
    rw [← hr] at h1 h2 h3
    by_cases h : f k > x
    · rw [if_pos h] at h1 h3
      exact ⟨by linarith, by simpa using ⟨h1, h2⟩, .inr (by rcases h3 with h3 | ⟨j, hj, h3⟩; exacts [⟨k, by simp, h3⟩, ⟨j, by simp [hj], h3⟩])⟩
    · rw [if_neg h] at h1 h3
      exact ⟨h1, by simpa using ⟨by linarith, h2⟩, h3.imp id (fun ⟨j, hj, h3⟩ => ⟨j, by simp [hj], h3⟩)⟩

theorem foldl_and {α : Type*} (f : α → Bool) (l : List α) (b : Bool) :
    l.foldl (fun o k => o && f k) b = true ↔ b = true ∧ ∀ k ∈ l, f k = true := by
  induction l generalizing b with
  | nil => simp
  | cons k l ih => rw [List.foldl_cons, ih]; simp [and_assoc]

theorem foldl_add {α : Type*} (f : α → ℝ) (l : List α) (x : ℝ) : l.foldl (fun v k => v + f k) x = x + (l.map f).sum := by
  induction l generalizing x with
  | nil => simp
  | cons k l ih => rw [List.foldl_cons, ih]; simp [add_assoc]

/-! ## C187 -/

variable {a : Par}

/-- C187: `Contains` says whether the point is in one of the cones. -/
theorem C187_contains (hv : a.Valid) (p : V3) : contains (of a) p = true ↔ a.In p := by
  classical
  have h1 : ∀ k ∈ a.cones, (CompletelyOutside universal false (Cone.of k) p ↔ ¬ k.fix.In p) := by
    intro k hk
    have := C142_contains (hv k hk) (fits_universal k) p
    unfold Cone.contains at this
    rw [decide_eq_true_iff] at this
    rw [← this, not_not]
  unfold contains
  rw [of_cones, Bool.not_eq_true', ← Bool.not_eq_true, foldl_and (fun k => decide (Cone.CompletelyOutside Cone.universal false k p))]
  simp only [List.mem_map, forall_exists_index, and_imp, forall_apply_eq_imp_iff₂, true_and, decide_eq_true_iff]
  push Not
  constructor
  · rintro ⟨k, hk, h⟩
    exact ⟨k, hk, by rw [h1 k hk, not_not] at h; exact h⟩
  · rintro ⟨k, hk, h⟩
    exact ⟨k, hk, by rw [h1 k hk, not_not]; exact h⟩

theorem insideLoop_spec (p : V3) (l : List Cone.Struct) :
    (if (insideLoop p l).1 then Inside.inside else if (insideLoop p l).2 then .outside else .surface) =
      ((l.map fun k => Cone.inside universal k p).find? (fun i => i ≠ .outside)).getD .outside := by
  classical
  induction l with
  | nil => simp [insideLoop]
  | cons k l ih =>
    have hl : insideLoop p (k :: l) = if Cone.CompletelyInside Cone.universal k p then (true, false)
        else if ¬ Cone.CompletelyInside Cone.universal k p ∧ ¬ Cone.CompletelyOutside Cone.universal true k p then (false, false)
        else insideLoop p l := rfl
    rw [List.map_cons]
    by_cases h1 : Cone.CompletelyInside Cone.universal k p
    · have : Cone.inside universal k p = .inside := by unfold Cone.inside; rw [if_pos h1]
      rw [hl, if_pos h1, this]; simp
    · rw [if_neg h1] at hl
      by_cases h2 : Cone.CompletelyOutside Cone.universal true k p
      · have : Cone.inside universal k p = .outside := by unfold Cone.inside; rw [if_neg h1, if_pos h2]
        rw [if_neg (fun h => h.2 h2)] at hl
        rw [hl, this, ih]; simp
      · have : Cone.inside universal k p = .surface := by unfold Cone.inside; rw [if_neg h1, if_neg h2]
        rw [if_pos ⟨h1, h2⟩] at hl
        rw [hl, this]; simp

/-- C187: `Inside` is the answer of the first cone that the point is not outside of, and "outside" if there is none. -/
theorem C187_inside_first (p : V3) : inside (of a) p =
    ((a.cones.map fun k => Cone.inside universal (Cone.of k) p).find? (fun i => i ≠ .outside)).getD .outside := by
  have := insideLoop_spec p (of a).cones
  unfold inside
  simp only
  rw [this, of_cones, List.map_map]
  rfl

/-- C187: a point that `Inside` puts inside is in the solid; a point it puts outside is in none of the cones, but perhaps for the tips of
bores; and a point that it puts on the surface is within the tolerance of the surface of one of the cones. -/
theorem C187_inside (hv : a.Valid) (hr : ∀ k ∈ a.cones, kConeTolerance ≤ k.fix.rmax1 ∧ kConeTolerance ≤ k.fix.rmax2) (p : V3) :
    let Ti : Cone.Par → ℝ := fun k => kConeTolerance * √(1 + ((k.rmin2 - k.rmin1) / (2 * k.z)) ^ 2)
    let To : Cone.Par → ℝ := fun k => kConeTolerance * √(1 + ((k.fix.rmax2 - k.fix.rmax1) / (2 * k.z)) ^ 2)
    (inside (of a) p = .inside → a.In p) ∧
    (inside (of a) p = .outside → ∀ k ∈ a.cones, k.fix.Closed p → k.Hollow ∧ k.inner p.z ≤ Ti k ∧ rad p ≤ Ti k) ∧
    (inside (of a) p = .surface → ∃ k ∈ a.cones,
      |p.z| ≤ k.z + kConeTolerance ∧ rad p ≤ k.fix.outer p.z + To k ∧ k.inner p.z - 2 * Ti k ≤ rad p ∧
      (k.z - kConeTolerance ≤ |p.z| ∨ k.fix.outer p.z - 2 * To k ≤ rad p ∨ (k.Hollow ∧ rad p ≤ k.inner p.z + Ti k) ∨
        (k.d < 2 * π ∧ NearPhi k p))) := by
  intro Ti To
  have hk := fun k (hk : k ∈ a.cones) => C142_inside (hv k hk) (fits_universal k) (hr k hk).1 (hr k hk).2 p
  rw [C187_inside_first]
  rcases hf : (a.cones.map fun k => Cone.inside universal (Cone.of k) p).find? (fun i => i ≠ .outside) with _ | i
  · rw [hf]
    rw [List.find?_eq_none] at hf
    refine ⟨by simp, fun _ k hm => ?_, by simp⟩
    have := hf (Cone.inside universal (Cone.of k) p) (List.mem_map_of_mem hm)
    exact (hk k hm).2.1 (by simpa using this)
  · rw [hf]
    have h1 := List.find?_some hf
    obtain ⟨k, hm, e⟩ := List.mem_map.mp (List.mem_of_find?_eq_some hf)
    simp only [Option.getD_some]
    refine ⟨fun h => ⟨k, hm, (hk k hm).1 (e.trans h)⟩, fun h => absurd h (by simpa using h1), fun h => ⟨k, hm, (hk k hm).2.2.1 (e.trans h)⟩⟩

/-- C187: `SafetyToIn` is not more than the distance to any point of the solid. -/
theorem C187_safetyToIn (hv : a.Valid) (p q : V3) (hq : a.Closed q) : safetyToIn (of a) p ≤ V3.dist p q := by
  obtain ⟨k, hk, h⟩ := hq
  refine le_trans ?_ (C143_safetyToIn (hv k hk) (fits_universal k) p q h)
  exact (foldl_min_le (fun k => Cone.safetyToIn universal k p) (of a).cones kInfLength).2.1 _
    (by rw [of_cones]; exact List.mem_map_of_mem hk)

/-- C187: `SafetyToOut` is not more than the distance to any point that is not in the solid. -/
theorem C187_safetyToOut (hv : a.Valid) (p q : V3) (hq : ¬ a.Closed q) : safetyToOut (of a) p ≤ V3.dist p q := by
  unfold safetyToOut
  rcases (foldl_max_ge (fun k => Cone.safetyToOut universal k p) (of a).cones (-1)).2.2 with h | ⟨c, hc, h⟩
  · rw [h]; linarith [V3.dist_nonneg' p q]
  · rw [h]
    rw [of_cones, List.mem_map] at hc
    obtain ⟨k, hk, rfl⟩ := hc
    exact C143_safetyToOut (hv k hk) (fits_universal k) p q (fun hh => hq ⟨k, hk, hh⟩)

/-- C187: the safeties are not negative on the side they are for: from a point in none of the cones, and from a point of a cone that is
not at the tip of its bore. -/
theorem C187_safety_sign (hv : a.Valid) (hr : ∀ k ∈ a.cones, kConeTolerance ≤ k.fix.rmax1 ∧ kConeTolerance ≤ k.fix.rmax2) (p : V3) :
    (¬ a.Closed p → 0 ≤ safetyToIn (of a) p) ∧
    (∀ k ∈ a.cones, k.fix.Closed p → (k.Hollow → kConeTolerance * √(1 + ((k.rmin2 - k.rmin1) / (2 * k.z)) ^ 2) ≤ k.inner p.z) →
      0 ≤ safetyToOut (of a) p) := by
  constructor
  · intro hp
    unfold safetyToIn
    rcases (foldl_min_le (fun k => Cone.safetyToIn universal k p) (of a).cones kInfLength).2.2 with h | ⟨c, hc, h⟩
    · rw [h]; linarith [kInfLength_large]
    · rw [h]
      rw [of_cones, List.mem_map] at hc
      obtain ⟨k, hk, rfl⟩ := hc
      exact (C143_safetyToIn_sign (hv k hk) (fits_universal k) (hr k hk).1 (hr k hk).2 p).1 (fun hh => hp ⟨k, hk, hh⟩)
  · intro k hk hp hn
    refine (C143_safetyToOut_sign (hv k hk) (fits_universal k) p hp hn).trans ?_
    exact (foldl_max_ge (fun k => Cone.safetyToOut universal k p) (of a).cones (-1)).2.1 _
      (by rw [of_cones]; exact List.mem_map_of_mem hk)

/-- A rod in a pipe that fits. -/
noncomputable def rodInPipe : Par := ⟨[⟨0, 1, 0, 1⟩, ⟨1, 2, 1, 2⟩], 1, 0, 2 * π⟩
/-- The rod. -/
noncomputable def rod : Cone.Par := ⟨0, 1, 0, 1, 1, 0, 2 * π⟩
/-- The pipe. -/
noncomputable def pipe : Cone.Par := ⟨1, 2, 1, 2, 1, 0, 2 * π⟩

theorem rodInPipe_cones : rodInPipe.cones = [rod, pipe] := rfl

theorem rod_valid : rod.Valid := by
  have := pi_pos
  constructor <;> norm_num [rod]
  exact this
theorem pipe_valid : pipe.Valid := by
  have := pi_pos
  constructor <;> norm_num [pipe]
  exact this
theorem rod_fix : rod.fix = rod := fix_of_ne (by norm_num [rod]) (by norm_num [rod])
theorem pipe_fix : pipe.fix = pipe := fix_of_ne (by norm_num [pipe]) (by norm_num [pipe])

theorem rodInPipe_valid : rodInPipe.Valid := by
  intro k hk
  rw [rodInPipe_cones] at hk
  simp only [List.mem_cons, List.not_mem_nil, or_false] at hk
  rcases hk with rfl | rfl
  exacts [rod_valid, pipe_valid]

theorem rodInPipe_tol : ∀ k ∈ rodInPipe.cones, kConeTolerance ≤ k.fix.rmax1 ∧ kConeTolerance ≤ k.fix.rmax2 := by
  intro k hk
  rw [rodInPipe_cones] at hk
  simp only [List.mem_cons, List.not_mem_nil, or_false] at hk
  rcases hk with rfl | rfl
  · rw [rod_fix]; norm_num [rod, kConeTolerance]
  · rw [pipe_fix]; norm_num [pipe, kConeTolerance]

theorem rad_x {x z : ℝ} (h : 0 ≤ x) : rad ⟨x, 0, z⟩ = x := by
  unfold rad
  simp only
  rw [show x ^ 2 + (0 : ℝ) ^ 2 = x ^ 2 by ring, sqrt_sq h]

theorem rod_outer {z : ℝ} : rod.outer z = 1 := by simp only [Cone.Par.outer, line, rod]; ring
theorem rod_inner {z : ℝ} : rod.inner z = 0 := by simp only [Cone.Par.inner, line, rod]; ring
theorem pipe_outer {z : ℝ} : pipe.outer z = 2 := by simp only [Cone.Par.outer, line, pipe]; ring
theorem pipe_inner {z : ℝ} : pipe.inner z = 1 := by simp only [Cone.Par.inner, line, pipe]; ring

/-- The points of the rod in the pipe. -/
theorem rodInPipe_closed (p : V3) : rodInPipe.Closed p ↔ |p.z| ≤ 1 ∧ rad p ≤ 2 := by
  have h0 := rad_nonneg p
  unfold Par.Closed
  rw [rodInPipe_cones]
  simp only [List.mem_cons, List.not_mem_nil, or_false, exists_eq_or_imp, exists_eq_left, rod_fix, pipe_fix]
  constructor
  · rintro (⟨h1, h2, h3, h4⟩ | ⟨h1, h2, h3, h4⟩)
    · rw [rod_outer] at h3; exact ⟨h1, by linarith⟩
    · rw [pipe_outer] at h3; exact ⟨h1, h3⟩
  · rintro ⟨h1, h2⟩
    rcases le_total (rad p) 1 with h | h
    · exact .inl ⟨h1, by rw [rod_inner]; exact h0, by rw [rod_outer]; exact h, sector_full _ _ _⟩
    · exact .inr ⟨h1, by rw [pipe_inner]; exact h, by rw [pipe_outer]; exact h2, sector_full _ _ _⟩

example : contains (of rodInPipe) ⟨3 / 2, 0, 1 / 2⟩ = true ∧ contains (of rodInPipe) ⟨5 / 2, 0, 1 / 2⟩ = false := by
  constructor
  · rw [C187_contains rodInPipe_valid]
    refine ⟨pipe, by rw [rodInPipe_cones]; simp, ?_⟩
    rw [pipe_fix]
    exact ⟨by norm_num [pipe, abs_le], fun _ => by rw [rad_x (by norm_num), pipe_inner]; norm_num,
      by rw [rad_x (by norm_num), pipe_outer]; norm_num, sector_full _ _ _⟩
  · rw [← Bool.not_eq_true, C187_contains rodInPipe_valid]
    rintro ⟨k, hk, h⟩
    have : rodInPipe.Closed ⟨5 / 2, 0, 1 / 2⟩ := by
      refine ⟨k, hk, h.z, ?_, h.hi, h.phi⟩
      have hin := h.lo
      rw [rodInPipe_cones] at hk
      simp only [List.mem_cons, List.not_mem_nil, or_false] at hk
      rcases hk with rfl | rfl
      · rw [rod_fix, rod_inner]; exact rad_nonneg _
      · rw [pipe_fix, pipe_inner, rad_x (by norm_num)]; norm_num
    rw [rodInPipe_closed, rad_x (by norm_num)] at this
    norm_num at this

example : ∃ q, rodInPipe.Closed q := ⟨⟨0, 0, 0⟩, by rw [rodInPipe_closed, rad_x le_rfl]; norm_num⟩
example : ∃ q, ¬ rodInPipe.Closed q := ⟨⟨3, 0, 0⟩, by rw [rodInPipe_closed, rad_x (by norm_num)]; norm_num⟩

/-- C187, a deviation: a point where the rod and the pipe touch is well inside of the solid, but `Inside` puts it on the surface. -/
theorem C187_touching_counterexample :
    inside (of rodInPipe) ⟨1, 0, 0⟩ = .surface ∧ ∀ q, V3.dist ⟨1, 0, 0⟩ q ≤ 1 / 2 → rodInPipe.Closed q := by
  constructor
  · have h := (C142_inside rod_valid (fits_universal rod) (rodInPipe_tol rod (by rw [rodInPipe_cones]; simp)).1
      (rodInPipe_tol rod (by rw [rodInPipe_cones]; simp)).2 ⟨1, 0, 0⟩).2.2.2
    rw [rod_fix] at h
    have := h ⟨by norm_num [rod], by rw [rod_inner]; exact rad_nonneg _, by rw [rod_outer, rad_x (by norm_num)], sector_full _ _ _⟩
      (fun hh => by simp [Cone.Par.Hollow, rod] at hh) (.inr (.inl (by rw [rod_outer, rad_x (by norm_num)])))
    rw [C187_inside_first, rodInPipe_cones, List.map_cons, this]
    simp
  · intro q hq
    rw [rodInPipe_closed]
    have h1 := V3.abs_z_le_dist ⟨1, 0, 0⟩ q
    have h2 := abs_rad_sub_le ⟨1, 0, 0⟩ q
    rw [rad_x (by norm_num)] at h2
    rw [abs_le] at h2
    simp only [zero_sub, abs_neg] at h1
    exact ⟨by linarith, by linarith⟩

end Coax
end VecGeom

import Verif.GPoly.Model

/-!
# Generic polycones: the circles at the planes between sections
-/

namespace VecGeom
namespace GPoly

open Real

theorem ring_iff (lowerZ : Bool) (c : Coax.Struct) (p : V3) :
    isOnRing lowerZ c p = true ↔ ∃ k ∈ c.cones, onCircle (if lowerZ then k.rmin1 else k.rmin2) p = true ∨ onCircle (if lowerZ then k.rmax1 else k.rmax2) p = true := by
  have key : ∀ (l : List Cone.Struct) (b : Bool),
      l.foldl (fun on k => on || (onCircle (if lowerZ then k.rmin1 else k.rmin2) p || onCircle (if lowerZ then k.rmax1 else k.rmax2) p)) b = true ↔
      b = true ∨ ∃ k ∈ l, onCircle (if lowerZ then k.rmin1 else k.rmin2) p = true ∨ onCircle (if lowerZ then k.rmax1 else k.rmax2) p = true := by
    intro l
    induction l with
    | nil => intro b; simp
    | cons c l ih =>
      intro b
      rw [List.foldl_cons, ih]
      simp only [Bool.or_eq_true, List.mem_cons, exists_eq_or_imp]
      exact or_assoc
  unfold isOnRing
  rw [key]
  simp

/-- The ring test of an end: points whose distance from the axis is one of the radii of that end (zero or not below the tolerance) pass it, and the distance
of a point that passes differs from one of the radii by at most twice the tolerance. -/
theorem C191_ring (lowerZ : Bool) (c : Coax.Struct) (p : V3) (hr : ∀ k ∈ c.cones, 0 ≤ k.rmin1 ∧ 0 ≤ k.rmin2 ∧ 0 ≤ k.rmax1 ∧ 0 ≤ k.rmax2) :
    ((∃ k ∈ c.cones, ∃ r, (r = (if lowerZ then k.rmin1 else k.rmin2) ∨ r = (if lowerZ then k.rmax1 else k.rmax2)) ∧ (r = 0 ∨ kTolerance ≤ r) ∧
        √(p.x ^ 2 + p.y ^ 2) = r) → isOnRing lowerZ c p = true) ∧
    (isOnRing lowerZ c p = true → ∃ k ∈ c.cones, ∃ r, (r = (if lowerZ then k.rmin1 else k.rmin2) ∨ r = (if lowerZ then k.rmax1 else k.rmax2)) ∧
        |√(p.x ^ 2 + p.y ^ 2) - r| ≤ 2 * kTolerance) := by
  have ht := kTolerance_pos
  have hs : √(p.x ^ 2 + p.y ^ 2) ^ 2 = p.x * p.x + p.y * p.y := by rw [sq_sqrt (by positivity)]; ring
  have h0 := sqrt_nonneg (p.x ^ 2 + p.y ^ 2)
  generalize √(p.x ^ 2 + p.y ^ 2) = ρ at *
  have fwd : ∀ r : ℝ, (r = 0 ∨ kTolerance ≤ r) → ρ = r → onCircle r p = true := by
    intro r hr' e
    unfold onCircle Tube.plusTolerantSquare Tube.minusTolerantSquare
    rw [decide_eq_true_iff, if_pos rfl, if_pos rfl, ← hs, e]
    rcases hr' with h | h
    · rw [h]; simp
    · refine ⟨by nlinarith, ?_⟩
      rw [ge_iff_le, abs_le]
      constructor <;> nlinarith
  have bwd : ∀ r : ℝ, 0 ≤ r → onCircle r p = true → |ρ - r| ≤ 2 * kTolerance := by
    intro r hr' h
    unfold onCircle Tube.plusTolerantSquare Tube.minusTolerantSquare at h
    rw [decide_eq_true_iff, if_pos rfl, if_pos rfl, ← hs] at h
    obtain ⟨h1, h2⟩ := h
    have h3 := (le_abs_self _).trans h2
    rw [abs_le]
    constructor
    · by_contra hlt
      nlinarith
    · by_contra hlt
      nlinarith
  constructor
  · rintro ⟨k, hk, r, he, hr', e⟩
    rw [ring_iff]
    refine ⟨k, hk, ?_⟩
    rcases he with he | he
    · left; rw [← he]; exact fwd r hr' e
    · right; rw [← he]; exact fwd r hr' e
  · intro h
    obtain ⟨k, hk, h1⟩ := (ring_iff lowerZ c p).1 h
    obtain ⟨a1, a2, a3, a4⟩ := hr k hk
    rcases h1 with h1 | h1
    · exact ⟨k, hk, _, Or.inl rfl, bwd _ (by cases lowerZ <;> assumption) h1⟩
    · exact ⟨k, hk, _, Or.inr rfl, bwd _ (by cases lowerZ <;> assumption) h1⟩

/-- A cone with a bore: the point at its outer radius passes the test. -/
example (k0 : Cone.Struct) (c0 : Coax.Struct) : isOnRing true { c0 with cones := [{ k0 with rmin1 := 1, rmin2 := 1, rmax1 := 2, rmax2 := 3 }] } ⟨2, 0, 0⟩ = true := by
  refine (C191_ring _ _ _ ?_).1 ⟨_, List.mem_singleton.2 rfl, 2, Or.inr (by simp), Or.inr (by norm_num [kTolerance]), ?_⟩
  · intro k hk
    rw [List.mem_singleton.1 hk]
    norm_num
  · rw [sqrt_eq_iff_mul_self_eq (by positivity) (by norm_num)]
    norm_num

end GPoly
end VecGeom

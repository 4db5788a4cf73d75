import Verif.Tube.PropsOut
import Mathlib.Topology.Order.IntermediateValue

/-!
# The way into a tube
-/

namespace VecGeom
namespace Tube

open Real

variable {a : Par} {ty : TType} {p d : V3}

/-- The point is in the tube up to a slack `x`. -/
structure Near (a : Par) (x : ℝ) (p : V3) : Prop where
  z : |p.z| ≤ a.z + x
  lo : a.rmin ≤ rad p + x
  hi : rad p ≤ a.rmax + x
  phi : a.d = 2 * π ∨ (a.d ≤ π ∧ -x ≤ S1 a p.x p.y ∧ -x ≤ S2 a p.x p.y) ∨ (π < a.d ∧ (-x ≤ S1 a p.x p.y ∨ -x ≤ S2 a p.x p.y))

/-- The point is close to one of the bounding surfaces (or its continuation). -/
def NearSurface (a : Par) (x : ℝ) (p : V3) : Prop :=
  |(|p.z| - a.z)| ≤ x ∨ |rad p - a.rmax| ≤ x ∨ (0 < a.rmin ∧ |rad p - a.rmin| ≤ x) ∨
  (a.d < 2 * π ∧ (|S1 a p.x p.y| ≤ x ∨ |S2 a p.x p.y| ≤ x))

theorem Near.mono {x y : ℝ} (h : Near a x p) (hxy : x ≤ y) : Near a y p := by
  refine ⟨by linarith [h.z], by linarith [h.lo], by linarith [h.hi], ?_⟩
  rcases h.phi with h1 | ⟨h1, h2, h3⟩ | ⟨h1, h2⟩
  · exact .inl h1
  · exact .inr (.inl ⟨h1, by linarith, by linarith⟩)
  · exact .inr (.inr ⟨h1, h2.imp (fun h => by linarith) (fun h => by linarith)⟩)

theorem NearSurface.mono {x y : ℝ} (h : NearSurface a x p) (hxy : x ≤ y) : NearSurface a y p := by
  rcases h with h | h | ⟨h0, h⟩ | ⟨h0, h⟩
  · exact .inl (h.trans hxy)
  · exact .inr (.inl (h.trans hxy))
  · exact .inr (.inr (.inl ⟨h0, h.trans hxy⟩))
  · exact .inr (.inr (.inr ⟨h0, h.imp (·.trans hxy) (·.trans hxy)⟩))

theorem kTiny_sq : kTiny = (1 / 10 ^ 15) ^ 2 := by norm_num [kTiny]

/-- A squared radius with the guard. -/
theorem rad_guard {r t y : ℝ} (hr : 0 ≤ r) (h : rad p ^ 2 = r ^ 2 - kTiny * t ^ 2) (hy : y = |t| / 10 ^ 15) :
    rad p ≤ r ∧ r - y ≤ rad p := by
  have h0 := rad_nonneg p
  have e : kTiny * t ^ 2 = y ^ 2 := by rw [hy, kTiny_sq, div_pow |t|, sq_abs]; ring
  have hy0 : 0 ≤ y := by rw [hy]; positivity
  rw [e] at h
  constructor
  · apply le_of_sq_le_sq _ hr; nlinarith
  · by_contra hc
    push Not at hc
    nlinarith

theorem sector_slack (hv : a.Valid) (hf : Fits ty a) {x : ℝ} (hx : kHalfTolerance ≤ x)
    (h : PhiT ty (of a) → InSector ty (of a) true p.x p.y) :
    a.d = 2 * π ∨ (a.d ≤ π ∧ -x ≤ S1 a p.x p.y ∧ -x ≤ S2 a p.x p.y) ∨ (π < a.d ∧ (-x ≤ S1 a p.x p.y ∨ -x ≤ S2 a p.x p.y)) := by
  by_cases hp : PhiT ty (of a)
  · right
    have := h hp
    rw [inSector_iff hf hp] at this
    simp only [if_true] at this
    rcases this with ⟨h1, h2, h3⟩ | ⟨h1, h2 | h2⟩
    · exact .inl ⟨h1, by linarith, by linarith⟩
    · exact .inr ⟨h1, .inl (by linarith)⟩
    · exact .inr ⟨h1, .inr (by linarith)⟩
  · exact .inl (not_phiT hv hp hf)

/-- The distance to a phi plane in `DistanceToIn`. -/
theorem phiPlaneDist1_in (hd : 0 < S1 a d.x d.y) : phiPlaneDist (of a).a1x (of a).a1y p d = -S1 a p.x p.y / (S1 a d.x d.y + kTiny) := by
  unfold phiPlaneDist
  have e1 : (of a).a1y * p.x - (of a).a1x * p.y = -S1 a p.x p.y := by simp only [of_a1x, of_a1y, S1]; ring
  have e2 : d.y * (of a).a1x - d.x * (of a).a1y = S1 a d.x d.y := by simp only [of_a1x, of_a1y, S1]; ring
  rw [e1, e2]
  unfold nonZero copySign
  rw [if_neg (by linarith)]

theorem phiPlaneDist2_in (hd : 0 < S2 a d.x d.y) : phiPlaneDist (of a).a2x (of a).a2y p d = -S2 a p.x p.y / (S2 a d.x d.y + kTiny) := by
  unfold phiPlaneDist
  have e1 : (of a).a2y * p.x - (of a).a2x * p.y = S2 a p.x p.y := by simp only [of_a2x, of_a2y, S2]; ring
  have e2 : d.y * (of a).a2x - d.x * (of a).a2y = -S2 a d.x d.y := by simp only [of_a2x, of_a2y, S2]; ring
  rw [e1, e2]
  unfold nonZero copySign
  rw [if_pos (by linarith), ← neg_div_neg_eq]
  congr 1
  ring

/-- What the test of a phi plane in `DistanceToIn` says. -/
theorem plane_in_spec {positive : Bool} (b : Bool)
    (h : if b then PhiPlaneOk positive true (of a).a2x (of a).a2y (of a).wedge.n2x (of a).wedge.n2y (of a) p d
      else PhiPlaneOk positive true (of a).a1x (of a).a1y (of a).wedge.n1x (of a).wedge.n1y (of a) p d) :
    let D := if b then phiPlaneDist (of a).a2x (of a).a2y p d else phiPlaneDist (of a).a1x (of a).a1y p d
    0 < SS a b d.x d.y ∧ D = -SS a b p.x p.y / (SS a b d.x d.y + kTiny) ∧
    SS a b (V3.at' p d D).x (V3.at' p d D).y = -kTiny * D ∧
    |(V3.at' p d D).z| ≤ a.z + kHalfTolerance ∧ (of a).tolOrmin2 ≤ rad (V3.at' p d D) ^ 2 ∧
    rad (V3.at' p d D) ^ 2 ≤ (a.rmax + kHalfTolerance) * (a.rmax + kHalfTolerance) ∧
    (positive = true → 0 < HH a b (V3.at' p d D).x (V3.at' p d D).y) := by
  have he := kTiny_pos
  have root : ∀ {s σ D : ℝ}, 0 < σ → D = -s / (σ + kTiny) → s + D * σ = -kTiny * D := by
    intro s σ D hσ hD
    have : σ + kTiny ≠ 0 := by positivity
    rw [eq_div_iff this] at hD
    linarith
  cases b
  · simp only [Bool.false_eq_true, if_false] at h ⊢
    obtain ⟨h1, -, h3, -⟩ := h
    simp only [if_true, n1_of] at h1
    obtain ⟨h4, h5, h6, h7⟩ := h3 rfl
    have hD := phiPlaneDist1_in (p := p) h1
    refine ⟨h1, hD, ?_, h4, ?_, ?_, ?_⟩
    · rw [SS_at]; exact root h1 hD
    · rw [← rad_sq']; exact h5
    · rw [← rad_sq']; exact h6
    · intro hp
      have := h7 hp
      simpa only [HH, Bool.false_eq_true, if_false, of_a1x, of_a1y, V3.at_x, V3.at_y] using this
  · simp only [if_true] at h ⊢
    obtain ⟨h1, -, h3, -⟩ := h
    simp only [if_true, n2_of] at h1
    obtain ⟨h4, h5, h6, h7⟩ := h3 rfl
    have hD := phiPlaneDist2_in (p := p) h1
    refine ⟨h1, hD, ?_, h4, ?_, ?_, ?_⟩
    · rw [SS_at]; exact root h1 hD
    · rw [← rad_sq']; exact h5
    · rw [← rad_sq']; exact h6
    · intro hp
      have := h7 hp
      simpa only [HH, if_true, of_a2x, of_a2y, V3.at_x, V3.at_y] using this

/-- The hit of a phi plane is close to the tube. -/
theorem plane_in_near (hv : a.Valid) (hf : Fits ty a) (hp : PhiT ty (of a)) (hm : a.rmin = 0 ∨ kTolerance ≤ a.rmin) (b : Bool) (hb : b = true → ty.angle ≠ .pi)
    (h : if b then PhiPlaneOk (decide (ty.angle ≠ .pi)) true (of a).a2x (of a).a2y (of a).wedge.n2x (of a).wedge.n2y (of a) p d
      else PhiPlaneOk (decide (ty.angle ≠ .pi)) true (of a).a1x (of a).a1y (of a).wedge.n1x (of a).wedge.n1y (of a) p d) :
    let D := if b then phiPlaneDist (of a).a2x (of a).a2y p d else phiPlaneDist (of a).a1x (of a).a1y p d
    Near a (kTolerance + |D| / 10 ^ 15) (V3.at' p d D) ∧ NearSurface a (kTolerance + |D| / 10 ^ 15) (V3.at' p d D) := by
  have he := kTiny_pos
  have ht := kTolerance_pos
  have hhalf : kHalfTolerance = kTolerance / 2 := rfl
  obtain ⟨h1, -, h3, h4, h5, h6, h7⟩ := plane_in_spec b h
  intro D
  change SS a b (V3.at' p d D).x (V3.at' p d D).y = -kTiny * D at h3
  change |(V3.at' p d D).z| ≤ _ at h4
  change _ ≤ rad (V3.at' p d D) ^ 2 at h5
  change rad (V3.at' p d D) ^ 2 ≤ _ at h6
  change _ → 0 < HH a b (V3.at' p d D).x (V3.at' p d D).y at h7
  clear_value D
  generalize V3.at' p d D = q at *
  have hr := rad_nonneg q
  have hm0 : 0 < a.rmax := hv.rmin.trans_lt hv.rmax
  have hD0 : 0 ≤ |D| / 10 ^ 15 := by positivity
  have hsl : |SS a b q.x q.y| ≤ |D| / 10 ^ 15 := by
    rw [h3, abs_mul, abs_neg, abs_of_pos he, kTiny_sq]
    have := abs_nonneg D
    rw [div_eq_mul_one_div, mul_comm]
    apply mul_le_mul_of_nonneg_left _ this
    norm_num
  have hslot := abs_le.mp hsl
  refine ⟨⟨by rw [hhalf] at h4; linarith, ?_, ?_, ?_⟩, ?_⟩
  · rcases hm with hm | hm
    · rw [hm]; linarith
    · rw [of_tolOrmin2 hv.rmin] at h5
      have : a.rmin - kHalfTolerance ≤ rad q := by
        apply le_of_sq_le_sq _ hr
        rw [sq]; exact h5
      linarith
  · have : rad q ≤ a.rmax + kHalfTolerance := by
      apply le_of_sq_le_sq _ (by linarith)
      rw [sq (a.rmax + _)]; exact h6
    linarith
  · right
    have hd2 := (phiT_iff hf).mp hp
    have hnot := SS_not (a := a) b q.x q.y
    rcases lt_trichotomy a.d π with hd | hd | hd
    · left
      have hpi : ty.angle ≠ .pi := fun hc => hd.ne (hf.2.2.2.1 hc)
      have hH := h7 (by simpa using hpi)
      have hsin := sin_pos_of_pos_of_lt_pi hv.d hd
      have hcos := abs_cos_le_one a.d
      have hother : -(|D| / 10 ^ 15) ≤ SS a (!b) q.x q.y := by
        rw [hnot]
        have h8 : |SS a b q.x q.y * cos a.d| ≤ |D| / 10 ^ 15 := by
          rw [abs_mul]
          exact (mul_le_of_le_one_right (abs_nonneg _) hcos).trans hsl
        have := (abs_le.mp h8).2
        nlinarith [mul_pos hH hsin]
      have hS : ∀ c, -(|D| / 10 ^ 15) ≤ SS a c q.x q.y := by
        intro c
        by_cases hcb : c = b
        · rw [hcb]; exact hslot.1
        · have : c = !b := by cases b <;> cases c <;> simp_all
          rw [this]; exact hother
      have g1 := hS false
      have g2 := hS true
      exact ⟨hd.le, by change _ ≤ SS a false q.x q.y; linarith, by change _ ≤ SS a true q.x q.y; linarith⟩
    · left
      have e : ∀ c, SS a c q.x q.y = S1 a q.x q.y := by
        intro c; cases c
        · rfl
        · exact S2_pi hd _ _
      rw [e b] at hslot
      refine ⟨hd.le, by linarith, ?_⟩
      rw [S2_pi hd]; linarith
    · right
      refine ⟨hd, ?_⟩
      cases b
      · exact .inl (by change _ ≤ SS a false q.x q.y; linarith)
      · exact .inr (by change _ ≤ SS a true q.x q.y; linarith)
  · right; right; right
    refine ⟨(phiT_iff hf).mp hp, ?_⟩
    cases b
    · exact .inl (by change |SS a false q.x q.y| ≤ _; linarith)
    · exact .inr (by change |SS a true q.x q.y| ≤ _; linarith)

theorem qb_eq (p d : V3) : invnsq d * (p.x * d.x + p.y * d.y) = qb p d := rfl
theorem qc_eq (r : ℝ) (p d : V3) : invnsq d * (p.x * p.x + p.y * p.y - r * r) = qc r p d := by unfold qc; rw [rad_sq', sq r]

open Classical in
/-- The outcomes of the kernel. -/
theorem kernel_cases (hv : a.Valid) (hf : Fits ty a) (p d : V3) :
    let D := distanceToInKernel ty (of a) p d
    kInfLength ≤ D ∨ (D = -1 ∧ InsideForIn ty (of a) p) ∨ (D = zDistIn (of a) p d ∧ ZOk ty (of a) p d) ∨
    (D = 0 ∧ SurfaceIn ty (of a) p d) ∨
    (D = circleDist false (qb p d) (qc a.rmax p d) ∧ CircleOk ty false true (qb p d) (qc a.rmax p d) (of a) p d) ∨
    (0 < a.rmin ∧ D = circleDist true (qb p d) (qc a.rmin p d) ∧ CircleOk ty true true (qb p d) (qc a.rmin p d) (of a) p d) ∨
    (PhiT ty (of a) ∧ ∃ b : Bool, (b = true → ty.angle ≠ .pi) ∧
      (D = if b then phiPlaneDist (of a).a2x (of a).a2y p d else phiPlaneDist (of a).a1x (of a).a1y p d) ∧
      if b then PhiPlaneOk (decide (ty.angle ≠ .pi)) true (of a).a2x (of a).a2y (of a).wedge.n2x (of a).wedge.n2y (of a) p d
      else PhiPlaneOk (decide (ty.angle ≠ .pi)) true (of a).a1x (of a).a1y (of a).wedge.n1x (of a).wedge.n1y (of a) p d) := by
  intro D
  have e : D = distanceToInKernel ty (of a) p d := rfl
  clear_value D
  unfold distanceToInKernel at e
  split at e
  · exact .inl e.ge
  split at e
  · rename_i h; exact .inr (.inl ⟨e, h⟩)
  split at e
  · rename_i h; exact .inr (.inr (.inl ⟨e, h⟩))
  split at e
  · rename_i h; exact .inr (.inr (.inr (.inl ⟨e, h⟩)))
  have eb := qb_eq p d
  have ec1 : invnsq d * (p.x * p.x + p.y * p.y - (of a).rmax2) = qc a.rmax p d := qc_eq _ _ _
  have ec2 : invnsq d * (p.x * p.x + p.y * p.y - (of a).rmin2) = qc a.rmin p d := by rw [of_rmin2 hv.rmin]; exact qc_eq _ _ _
  dsimp only at e
  rw [eb, ec1, ec2] at e
  split at e
  · rename_i h; exact .inr (.inr (.inr (.inr (.inl ⟨e, h.1⟩))))
  generalize hdis : (if RminT ty (of a) ∧ CircleOk ty true true (qb p d) (qc a.rmin p d) (of a) p d ∧
    circleDist true (qb p d) (qc a.rmin p d) < kInfLength then circleDist true (qb p d) (qc a.rmin p d) else kInfLength) = dist at e
  have hdist : dist = kInfLength ∨ (0 < a.rmin ∧ dist = circleDist true (qb p d) (qc a.rmin p d) ∧
      CircleOk ty true true (qb p d) (qc a.rmin p d) (of a) p d) := by
    rw [← hdis]
    split
    · rename_i h; exact .inr ⟨(rminT_iff hv hf).mp h.1, rfl, h.2.1⟩
    · exact .inl rfl
  have fin : D = dist → kInfLength ≤ D ∨ (0 < a.rmin ∧ D = circleDist true (qb p d) (qc a.rmin p d) ∧
      CircleOk ty true true (qb p d) (qc a.rmin p d) (of a) p d) := by
    intro h
    rw [h]
    rcases hdist with h1 | h1
    · exact .inl h1.ge
    · exact .inr h1
  have fin' : D = dist → kInfLength ≤ D ∨ (D = -1 ∧ InsideForIn ty (of a) p) ∨ (D = zDistIn (of a) p d ∧ ZOk ty (of a) p d) ∨
    (D = 0 ∧ SurfaceIn ty (of a) p d) ∨
    (D = circleDist false (qb p d) (qc a.rmax p d) ∧ CircleOk ty false true (qb p d) (qc a.rmax p d) (of a) p d) ∨
    (0 < a.rmin ∧ D = circleDist true (qb p d) (qc a.rmin p d) ∧ CircleOk ty true true (qb p d) (qc a.rmin p d) (of a) p d) ∨
    (PhiT ty (of a) ∧ ∃ b : Bool, (b = true → ty.angle ≠ .pi) ∧
      (D = if b then phiPlaneDist (of a).a2x (of a).a2y p d else phiPlaneDist (of a).a1x (of a).a1y p d) ∧
      if b then PhiPlaneOk (decide (ty.angle ≠ .pi)) true (of a).a2x (of a).a2y (of a).wedge.n2x (of a).wedge.n2y (of a) p d
      else PhiPlaneOk (decide (ty.angle ≠ .pi)) true (of a).a1x (of a).a1y (of a).wedge.n1x (of a).wedge.n1y (of a) p d) := by
    intro h
    rcases fin h with h1 | h1
    · exact .inl h1
    · exact .inr (.inr (.inr (.inr (.inr (.inl h1)))))
  split at e
  · rename_i hp
    have first : ∀ x : ℝ, x = (if PhiPlaneOk (decide (ty.angle ≠ .pi)) true (of a).a1x (of a).a1y (of a).wedge.n1x (of a).wedge.n1y (of a) p d ∧
        phiPlaneDist (of a).a1x (of a).a1y p d < dist then phiPlaneDist (of a).a1x (of a).a1y p d else dist) → D = x → D = dist ∨
        (D = phiPlaneDist (of a).a1x (of a).a1y p d ∧
          PhiPlaneOk (decide (ty.angle ≠ .pi)) true (of a).a1x (of a).a1y (of a).wedge.n1x (of a).wedge.n1y (of a) p d) := by
      intro x hx hD
      split at hx
      · rename_i h; exact .inr ⟨hD.trans hx, h.1⟩
      · exact .inl (hD.trans hx)
    split at e
    · rename_i hpi
      have second : ∀ h : PhiPlaneOk true true (of a).a2x (of a).a2y (of a).wedge.n2x (of a).wedge.n2y (of a) p d,
          D = phiPlaneDist (of a).a2x (of a).a2y p d → (PhiT ty (of a) ∧ ∃ b : Bool, (b = true → ty.angle ≠ .pi) ∧
          (D = if b then phiPlaneDist (of a).a2x (of a).a2y p d else phiPlaneDist (of a).a1x (of a).a1y p d) ∧
          if b then PhiPlaneOk (decide (ty.angle ≠ .pi)) true (of a).a2x (of a).a2y (of a).wedge.n2x (of a).wedge.n2y (of a) p d
          else PhiPlaneOk (decide (ty.angle ≠ .pi)) true (of a).a1x (of a).a1y (of a).wedge.n1x (of a).wedge.n1y (of a) p d) :=
        fun h hD => ⟨hp, true, fun _ => hpi, by simpa using hD, by simpa [hpi] using h⟩
      split at e
      · rename_i h1
        split at e
        · rename_i h
          exact .inr (.inr (.inr (.inr (.inr (.inr (second h.1 e))))))
        · exact .inr (.inr (.inr (.inr (.inr (.inr ⟨hp, false, by simp, by simpa using e, by simpa using h1.1⟩)))))
      · split at e
        · rename_i h
          exact .inr (.inr (.inr (.inr (.inr (.inr (second h.1 e))))))
        · exact fin' e
    · rcases first _ rfl e with h | ⟨h1, h2⟩
      · exact fin' h
      · exact .inr (.inr (.inr (.inr (.inr (.inr ⟨hp, false, by simp, by simpa using h1, by simpa using h2⟩)))))
  · exact fin' e

/-- The hit of the kernel is close to the tube and to its surface. -/
theorem kernel_sound (hv : a.Valid) (hf : Fits ty a) (hm : a.rmin = 0 ∨ kTolerance ≤ a.rmin) (hM : kTolerance ≤ a.rmax) (hu : d.x ^ 2 + d.y ^ 2 + d.z ^ 2 = 1) :
    let D := distanceToInKernel ty (of a) p d
    D < kInfLength → ¬ (D = -1 ∧ InsideForIn ty (of a) p) →
    Near a (kTolerance + |D| / 10 ^ 15) (V3.at' p d D) ∧ NearSurface a (kTolerance + |D| / 10 ^ 15) (V3.at' p d D) ∧
    (a.d = 2 * π → -2 * kTolerance ≤ D) := by
  have he := kTiny_pos
  have ht := kTolerance_pos
  have hhalf : kHalfTolerance = kTolerance / 2 := rfl
  have hm0 : 0 < a.rmax := hv.rmin.trans_lt hv.rmax
  intro D hfin hin
  have hc := kernel_cases hv hf p d
  change kInfLength ≤ D ∨ _ at hc
  have hD0 : 0 ≤ |D| / 10 ^ 15 := by positivity
  have hN : 0 < d.x ^ 2 + d.y ^ 2 + kTiny := by positivity
  rcases hc with hc | hc | ⟨hc, h1⟩ | ⟨hc, h1⟩ | ⟨hc, h1⟩ | ⟨h0, hc, h1⟩ | ⟨hp, b, hb, hc, h1⟩
  · linarith
  · exact absurd hc hin
  · change D = _ at hc
    clear_value D
    obtain ⟨h1, h2, h3, h4, h5⟩ := h1
    rw [← hc] at h1
    replace h3 : rad (V3.at' p d D) ^ 2 ≤ a.rmax ^ 2 := by rw [← rad_sq', hc, sq]; exact h3
    rw [← hc] at h5
    have h4' : 0 < a.rmin → a.rmin ^ 2 ≤ rad (V3.at' p d D) ^ 2 := by
      intro h
      have := h4 ((rminT_iff hv hf).mpr h)
      rw [of_rmin2 hv.rmin] at this
      rw [← rad_sq', hc, sq]; exact this
    have hr := rad_nonneg (V3.at' p d D)
    have hhi : rad (V3.at' p d D) ≤ a.rmax := le_of_sq_le_sq h3 hm0.le
    have hzD : D * (|d.z| + kTiny) = |p.z| - a.z := by
      rw [hc]; unfold zDistIn; rw [of_z]
      have : |d.z| + kTiny ≠ 0 := by positivity
      field_simp
    have hz : |(V3.at' p d D).z| = |(a.z + kTiny * D)| := by
      rw [V3.at_z]
      rcases mul_neg_iff.mp h2 with ⟨g1, g2⟩ | ⟨g1, g2⟩
      · rw [abs_of_pos g1, abs_of_neg g2] at hzD
        congr 1; linarith
      · rw [abs_of_neg g1, abs_of_pos g2] at hzD
        rw [← abs_neg]
        congr 1; linarith
    have hk : |kTiny * D| ≤ |D| / 10 ^ 15 := by
      rw [abs_mul, abs_of_pos he, kTiny_sq, mul_comm, div_eq_mul_one_div]
      exact mul_le_mul_of_nonneg_left (by norm_num) (abs_nonneg _)
    have hk' := abs_le.mp hk
    refine ⟨⟨?_, ?_, by linarith, ?_⟩, .inl ?_, fun _ => by rw [hhalf] at h1; linarith⟩
    · rw [hz]
      have := abs_add_le a.z (kTiny * D)
      rw [abs_of_pos hv.z] at this
      linarith
    · rcases hv.rmin.lt_or_eq with h | h
      · have := le_of_sq_le_sq (h4' h) hr
        linarith
      · rw [← h]; linarith
    · exact sector_slack hv hf (by linarith) h5
    · rw [hz]
      have := abs_abs_sub_abs_le (a.z + kTiny * D) a.z
      rw [abs_of_pos hv.z] at this
      have e : a.z + kTiny * D - a.z = kTiny * D := by ring
      rw [e] at this
      linarith
  · change D = 0 at hc
    rw [hc]
    have e : V3.at' p d 0 = p := by ext <;> simp
    rw [e, abs_zero, zero_div, add_zero]
    obtain ⟨h1, h2⟩ := h1
    have hphi := sector_slack hv hf (show kHalfTolerance ≤ kTolerance by linarith) h2
    have hr := rad_nonneg p
    rcases h1 with ⟨h1, -⟩ | ⟨hr0, h1, -⟩
    · unfold IsOnTubeSurface at h1
      simp only [Bool.false_eq_true, if_false, of_tolIrmax2, of_tolOrmax2, of_z, rad_sq'] at h1
      have g1 := le_of_sq_le_sq ((sq _).trans_le h1.1) hr
      have g2 := le_of_sq_le_sq (h1.2.1.trans_eq (sq _).symm) (by linarith)
      refine ⟨⟨by linarith, by linarith [hv.rmax], by linarith, hphi⟩, .inr (.inl ?_), fun _ => by linarith⟩
      rw [abs_le]; constructor <;> linarith
    · have hr0' := (rminT_iff hv hf).mp hr0
      have hm' := hm.resolve_left hr0'.ne'
      unfold IsOnTubeSurface at h1
      simp only [if_true, of_tolIrmin2 hv.rmin, of_tolOrmin2 hv.rmin, of_z, rad_sq'] at h1
      have g1 := le_of_sq_le_sq ((sq _).trans_le h1.1) hr
      have g2 := le_of_sq_le_sq (h1.2.1.trans_eq (sq _).symm) (by linarith)
      refine ⟨⟨by linarith, by linarith, by linarith [hv.rmax], hphi⟩, .inr (.inr (.inl ⟨hr0', ?_⟩)), fun _ => by linarith⟩
      rw [abs_le]; constructor <;> linarith
  · change D = _ at hc
    clear_value D
    obtain ⟨hδ, h2, h3⟩ := h1
    have hδ' : 0 ≤ qb p d * qb p d - qc a.rmax p d := by
      rcases hδ with h | h
      · exact h.le
      · exact h.2.ge
    rw [← hc] at h2 h3
    obtain ⟨h4, h5⟩ := h3 rfl
    have hq : rad (V3.at' p d D) ^ 2 = a.rmax ^ 2 - kTiny * D ^ 2 := by
      rw [rad_at_quad hu a.rmax, quad_factor hδ', ← hc]; ring
    obtain ⟨g1, g2⟩ := rad_guard hm0.le hq rfl
    refine ⟨⟨?_, ?_, by linarith, sector_slack hv hf (by linarith) h5⟩, .inr (.inl ?_), fun _ => h2⟩
    · change |(V3.at' p d D).z| ≤ a.z at h4
      linarith
    · linarith [hv.rmax]
    · rw [abs_le]; constructor <;> linarith
  · change D = _ at hc
    clear_value D
    obtain ⟨hδ, h2, h3⟩ := h1
    have hδ' : 0 ≤ qb p d * qb p d - qc a.rmin p d := by
      rcases hδ with h | h
      · exact h.le
      · exact h.2.ge
    rw [← hc] at h2 h3
    obtain ⟨h4, h5⟩ := h3 rfl
    have hq : rad (V3.at' p d D) ^ 2 = a.rmin ^ 2 - kTiny * D ^ 2 := by
      rw [rad_at_quad hu a.rmin, quad_factor hδ', ← hc]; ring
    obtain ⟨g1, g2⟩ := rad_guard hv.rmin hq rfl
    refine ⟨⟨?_, by linarith, by linarith [hv.rmax], sector_slack hv hf (by linarith) h5⟩, .inr (.inr (.inl ⟨h0, ?_⟩)), fun _ => h2⟩
    · change |(V3.at' p d D).z| ≤ a.z at h4
      linarith
    · rw [abs_le]; constructor <;> linarith
  · change D = _ at hc
    clear_value D
    obtain ⟨g1, g2⟩ := plane_in_near hv hf hp hm b hb h1
    rw [← hc] at g1 g2
    exact ⟨g1, g2, fun h => absurd h ((phiT_iff hf).mp hp).ne⟩

/-- One accepted candidate bounds the result. -/
theorem kernel_le (hv : a.Valid) (hf : Fits ty a) {T : ℝ} (hd : ¬ PhiT ty (of a)) (h1 : ¬ MovingAway (of a) p d) (h2 : ¬ InsideForIn ty (of a) p)
    (hz : ZOk ty (of a) p d → zDistIn (of a) p d ≤ T) (hT : 0 ≤ T) (hi : T < kInfLength)
    (hM : CircleOk ty false true (qb p d) (qc a.rmax p d) (of a) p d → circleDist false (qb p d) (qc a.rmax p d) ≤ T)
    (some : ZOk ty (of a) p d ∨ SurfaceIn ty (of a) p d ∨ CircleOk ty false true (qb p d) (qc a.rmax p d) (of a) p d ∨
      (0 < a.rmin ∧ CircleOk ty true true (qb p d) (qc a.rmin p d) (of a) p d ∧ circleDist true (qb p d) (qc a.rmin p d) ≤ T)) :
    distanceToInKernel ty (of a) p d ≤ T := by
  unfold distanceToInKernel
  rw [if_neg h1, if_neg h2]
  split
  · rename_i h; exact hz h
  rename_i nz
  split
  · exact hT
  rename_i ns
  have eb := qb_eq p d
  have ec1 : invnsq d * (p.x * p.x + p.y * p.y - (of a).rmax2) = qc a.rmax p d := qc_eq _ _ _
  have ec2 : invnsq d * (p.x * p.x + p.y * p.y - (of a).rmin2) = qc a.rmin p d := by rw [of_rmin2 hv.rmin]; exact qc_eq _ _ _
  dsimp only
  rw [eb, ec1, ec2]
  split
  · rename_i h; exact hM h.1
  rename_i nM
  obtain ⟨h3, h4, h5⟩ : 0 < a.rmin ∧ CircleOk ty true true (qb p d) (qc a.rmin p d) (of a) p d ∧ circleDist true (qb p d) (qc a.rmin p d) ≤ T := by
    rcases some with h | h | h | h
    · exact absurd h nz
    · exact absurd h ns
    · exact absurd ⟨h, (hM h).trans_lt hi⟩ nM
    · exact h
  rw [if_pos ⟨(rminT_iff hv hf).mpr h3, h4, h5.trans_lt hi⟩]
  exact h5

theorem z_between {Z u v T : ℝ} (hu : v ≤ u) (huT : u ≤ T) (h1 : |(V3.at' p d v).z| ≤ Z) (h2 : |(V3.at' p d T).z| ≤ Z) :
    |(V3.at' p d u).z| ≤ Z := by
  simp only [V3.at_z, abs_le] at *
  rcases le_total 0 d.z with h | h
  · constructor <;> nlinarith
  · constructor <;> nlinarith

theorem rad_sq_continuous : Continuous fun u => rad (V3.at' p d u) ^ 2 := by
  have : (fun u => rad (V3.at' p d u) ^ 2) =
      fun u => rad p ^ 2 + 2 * (p.x * d.x + p.y * d.y) * u + (d.x ^ 2 + d.y ^ 2) * u ^ 2 := by
    funext u; exact rad_at_sq p d u
  rw [this]
  fun_prop

/-- A line that gets close to the crossing of a lid and a wall: between the true and the guarded plane and between the true and
the guarded wall. -/
def Sliver (a : Par) (p d : V3) (T : ℝ) : Prop :=
  ∃ u R, 0 ≤ u ∧ u ≤ T ∧ (R = a.rmax ∨ (0 < a.rmin ∧ R = a.rmin)) ∧ a.z ≤ |(V3.at' p d u).z| ∧ |(V3.at' p d u).z| ≤ a.z + kTiny * u ∧
    R ^ 2 - kTiny * u ^ 2 ≤ rad (V3.at' p d u) ^ 2 ∧ rad (V3.at' p d u) ^ 2 ≤ R ^ 2

theorem between_of_neg {x A B : ℝ} (h : A ≤ B) (hx : (x - A) * (x - B) < 0) : A < x ∧ x < B := by
  constructor
  · by_contra hc; push Not at hc; nlinarith
  · by_contra hc; push Not at hc; nlinarith
theorem between_of_nonpos {x A B : ℝ} (h : A ≤ B) (hx : (x - A) * (x - B) ≤ 0) : A ≤ x ∧ x ≤ B := by
  constructor
  · by_contra hc; push Not at hc; nlinarith
  · by_contra hc; push Not at hc; nlinarith
theorem beyond_of_pos {x A B : ℝ} (h : A ≤ x) (hx : 0 < (x - A) * (x - B)) : B < x := by
  by_contra hc; push Not at hc; nlinarith

theorem quad_nonpos_iff (hu : d.x ^ 2 + d.y ^ 2 + d.z ^ 2 = 1) (r t : ℝ) :
    t ^ 2 + 2 * qb p d * t + qc r p d ≤ 0 ↔ rad (V3.at' p d t) ^ 2 ≤ r ^ 2 - kTiny * t ^ 2 := by
  have hN : 0 < d.x ^ 2 + d.y ^ 2 + kTiny := by have := kTiny_pos; positivity
  rw [rad_at_quad hu r, add_le_iff_nonpos_right, mul_nonpos_iff_pos_imp_nonpos]
  constructor
  · exact fun h => ⟨fun _ => h, fun h1 => by linarith⟩
  · exact fun h => h.1 hN

theorem quad_neg_iff (hu : d.x ^ 2 + d.y ^ 2 + d.z ^ 2 = 1) (r t : ℝ) :
    t ^ 2 + 2 * qb p d * t + qc r p d < 0 ↔ rad (V3.at' p d t) ^ 2 < r ^ 2 - kTiny * t ^ 2 := by
  have hN : 0 < d.x ^ 2 + d.y ^ 2 + kTiny := by have := kTiny_pos; positivity
  rw [rad_at_quad hu r, add_lt_iff_neg_left, mul_neg_iff]
  constructor
  · exact fun h => .inl ⟨hN, h⟩
  · rintro (h | h)
    · exact h.2
    · linarith [h.1]

theorem guard_le {D c x T : ℝ} (hc : 0 < c) (hT : 0 ≤ T) (hD : D * (c + kTiny) = x) (h : x ≤ T * c) : D ≤ T := by
  have he := kTiny_pos
  have : D * (c + kTiny) ≤ T * (c + kTiny) := by rw [hD]; nlinarith
  exact le_of_mul_le_mul_right this (by linarith)

set_option maxHeartbeats 600000 in
/-- Completeness of the kernel for tubes without sector. -/
theorem kernel_complete (hv : a.Valid) (hf : Fits ty a) (hd : a.d = 2 * π) (hM : kTolerance ≤ a.rmax)
    (hu : d.x ^ 2 + d.y ^ 2 + d.z ^ 2 = 1) (hout : a.z ≤ |p.z| ∨ a.rmax ≤ rad p ∨ (0 < a.rmin ∧ rad p ≤ a.rmin))
    {T : ℝ} (hT : 0 ≤ T) (hTi : T < kInfLength) (hTe : kTiny * T ^ 2 ≤ kHalfTolerance * a.rmax)
    (hz : |(V3.at' p d T).z| < a.z) (hr : rad (V3.at' p d T) < a.rmax - kHalfTolerance) (hm : 0 < a.rmin → a.rmin < rad (V3.at' p d T))
    (hs : ¬ Sliver a p d T) : distanceToInKernel ty (of a) p d ≤ T := by
  have he := kTiny_pos
  have ht := kTolerance_pos
  have hh := kHalfTolerance_pos
  have hhalf : kHalfTolerance = kTolerance / 2 := rfl
  have hm0 : 0 < a.rmax := hv.rmin.trans_lt hv.rmax
  have hr0 := rad_nonneg p
  have hrT := rad_nonneg (V3.at' p d T)
  have hN : 0 < d.x ^ 2 + d.y ^ 2 + kTiny := by positivity
  have hnp : ¬ PhiT ty (of a) := fun h => ((phiT_iff hf).mp h).ne hd
  have e0 : V3.at' p d 0 = p := by ext <;> simp
  -- the quadratic functions
  have FT : T ^ 2 + 2 * qb p d * T + qc a.rmax p d < 0 := by
    rw [quad_neg_iff hu]
    have h1 : rad (V3.at' p d T) ^ 2 < (a.rmax - kHalfTolerance) ^ 2 := pow_lt_pow_left₀ hr hrT (by norm_num)
    have h2 := mul_le_mul_of_nonneg_left (show kHalfTolerance ≤ a.rmax by linarith) hh.le
    linarith [h1, h2, hTe, show (a.rmax - kHalfTolerance) ^ 2 = a.rmax ^ 2 - 2 * (kHalfTolerance * a.rmax) + kHalfTolerance * kHalfTolerance by ring]
  have fT : 0 < a.rmin → 0 < T ^ 2 + 2 * qb p d * T + qc a.rmin p d := by
    intro h
    rw [← not_le, quad_nonpos_iff hu, not_le]
    have h1 : a.rmin ^ 2 < rad (V3.at' p d T) ^ 2 := pow_lt_pow_left₀ (hm h) hv.rmin (by norm_num)
    have : 0 ≤ kTiny * T ^ 2 := by positivity
    linarith
  have hδ : 0 < qb p d * qb p d - qc a.rmax p d := by
    by_contra hc
    push Not at hc
    linarith [quad_nonneg hc T]
  have FT' := FT
  rw [quad_factor hδ.le] at FT'
  have hl := circleDist_le hδ.le
  obtain ⟨ht1, ht2⟩ := between_of_neg hl FT'
  have inMax : ∀ u, circleDist false (qb p d) (qc a.rmax p d) ≤ u → u ≤ T → rad (V3.at' p d u) ≤ a.rmax := by
    intro u h1 h2
    apply le_of_sq_le_sq _ hm0.le
    have : (u - circleDist false (qb p d) (qc a.rmax p d)) * (u - circleDist true (qb p d) (qc a.rmax p d)) ≤ 0 :=
      mul_nonpos_of_nonneg_of_nonpos (by linarith) (by linarith)
    rw [← quad_factor hδ.le, quad_nonpos_iff hu] at this
    have h3 : 0 ≤ kTiny * u ^ 2 := by positivity
    linarith
  -- a bore that is left before `T` is left where the heights are right
  have bore : ∀ v, 0 ≤ v → v ≤ T → |(V3.at' p d v).z| ≤ a.z → 0 < a.rmin → v ^ 2 + 2 * qb p d * v + qc a.rmin p d ≤ 0 →
      0 < a.rmin ∧ CircleOk ty true true (qb p d) (qc a.rmin p d) (of a) p d ∧ circleDist true (qb p d) (qc a.rmin p d) ≤ T := by
    intro v hv0 hvT hvz h0 hq
    have hδ2 : 0 ≤ qb p d * qb p d - qc a.rmin p d := by
      by_contra hc
      push Not at hc
      nlinarith [sq_nonneg (v + qb p d)]
    have hfT := fT h0
    rw [quad_factor hδ2] at hq hfT
    have hl2 := circleDist_le hδ2
    obtain ⟨g0, g1⟩ := between_of_nonpos hl2 hq
    have g2 := (beyond_of_pos (g0.trans hvT) hfT).le
    refine ⟨h0, ⟨?_, by linarith, fun _ => ⟨?_, fun h => absurd h hnp⟩⟩, g2⟩
    · rcases hδ2.lt_or_eq with h | h
      · exact .inl h
      · exact .inr ⟨rfl, h.symm⟩
    · exact z_between g1 g2 hvz hz.le
  have hzT : |p.z| - T * |d.z| ≤ |(V3.at' p d T).z| := by
    rw [V3.at_z]
    have := abs_sub_abs_le_abs_sub p.z (-(T * d.z))
    rw [abs_neg, abs_mul, abs_of_nonneg hT, sub_neg_eq_add] at this
    exact this
  have hzroot : zDistIn (of a) p d * (|d.z| + kTiny) = |p.z| - a.z := by
    unfold zDistIn; rw [of_z]
    have : |d.z| + kTiny ≠ 0 := by positivity
    field_simp
  -- directions
  have hzdir : a.z ≤ |p.z| → p.z * d.z < 0 := by
    intro h
    by_contra hc
    push Not at hc
    have : p.z ^ 2 ≤ (V3.at' p d T).z ^ 2 := by
      rw [V3.at_z]; nlinarith [mul_nonneg hT hc, sq_nonneg (T * d.z)]
    have := sq_le_sq.mp this
    linarith
  have hrdir : a.rmax - kHalfTolerance ≤ rad p → p.x * d.x + p.y * d.y < 0 := by
    intro h
    by_contra hc
    push Not at hc
    have h1 := rad_at_sq p d T
    have h2 : 0 ≤ (d.x ^ 2 + d.y ^ 2) * T ^ 2 := by positivity
    have : rad p ≤ rad (V3.at' p d T) := by
      apply le_of_sq_le_sq _ hrT
      nlinarith [mul_nonneg hc hT]
    linarith
  apply kernel_le hv hf hnp
  · rintro (⟨h1, h2⟩ | ⟨h1, h2⟩)
    · rw [of_z] at h1
      have := hzdir (by linarith)
      linarith
    · rw [rad_sq', of_tolIrmax2, ← sq] at h1
      have : a.rmax - kHalfTolerance ≤ rad p := le_of_sq_le_sq h1.le hr0
      linarith [hrdir this]
  · rintro ⟨h1, h2, h3, -⟩
    rw [of_z] at h1
    rw [rad_sq', of_tolIrmax2, ← sq] at h2
    rcases hout with h | h | ⟨h0, h⟩
    · linarith
    · have := lt_of_pow_lt_pow_left₀ 2 (by linarith) h2
      linarith
    · have h3 := h3 ((rminT_iff hv hf).mpr h0)
      rw [rad_sq', of_tolIrmin2 hv.rmin, ← sq] at h3
      have := lt_of_pow_lt_pow_left₀ 2 hr0 h3
      linarith
  · rintro ⟨-, h2, -⟩
    have hdz : 0 < |d.z| := abs_pos.mpr (right_ne_zero_of_mul h2.ne)
    apply guard_le hdz hT hzroot; linarith
  · exact hT
  · exact hTi
  · exact fun _ => ht1.le
  · -- one is accepted
    rcases le_or_gt |p.z| a.z with hpz | hpz
    · rcases le_or_gt (circleDist false (qb p d) (qc a.rmax p d)) 0 with h0 | h0
      · have hpr : rad p ≤ a.rmax := by have := inMax 0 h0 hT; rwa [e0] at this
        by_cases hb : 0 < a.rmin ∧ rad p ≤ a.rmin
        · refine .inr (.inr (.inr (bore 0 (le_refl _) hT (by rw [e0]; exact hpz) hb.1 ?_)))
          have h2 : rad p ^ 2 ≤ a.rmin ^ 2 := pow_le_pow_left₀ hr0 hb.2 2
          rw [quad_nonpos_iff hu, e0]
          linarith
        · rcases hout with h | h | h
          · left
            have hzero : zDistIn (of a) p d = 0 := by
              unfold zDistIn; rw [of_z, le_antisymm hpz h]; simp
            unfold ZOk
            simp only [hzero, zero_mul, add_zero]
            refine ⟨by linarith, hzdir h, ?_, ?_, fun h => absurd h hnp⟩
            · rw [rad_sq', of_rmax2, ← sq]; exact pow_le_pow_left₀ hr0 hpr 2
            · intro h1
              have h1' := (rminT_iff hv hf).mp h1
              rw [rad_sq', of_rmin2 hv.rmin, ← sq]
              apply pow_le_pow_left₀ hv.rmin
              by_contra hc
              push Not at hc
              exact hb ⟨h1', hc.le⟩
          · right; left
            refine ⟨.inl ⟨?_, ?_⟩, fun h => absurd h hnp⟩
            · unfold IsOnTubeSurface
              simp only [Bool.false_eq_true, if_false, of_tolIrmax2, of_tolOrmax2, of_z, rad_sq']
              have hre : rad p = a.rmax := le_antisymm hpr h
              rw [hre]
              exact ⟨by nlinarith, by nlinarith, by linarith⟩
            · simp only [Bool.false_eq_true, if_false]
              linarith [hrdir (by linarith)]
          · exact absurd h hb
      · right; right; left
        refine ⟨.inl hδ, by linarith, fun _ => ⟨?_, fun h => absurd h hnp⟩⟩
        exact z_between h0.le ht1.le (by rw [e0]; exact hpz) hz.le
    · -- the lid is in front
      have hdir := hzdir hpz.le
      have hdz : 0 < |d.z| := abs_pos.mpr (right_ne_zero_of_mul hdir.ne)
      have hzat : ∀ u, u * |d.z| ≤ |p.z| → |(V3.at' p d u).z| = |p.z| - u * |d.z| := by
        intro u hu1
        rw [V3.at_z]
        rcases mul_neg_iff.mp hdir with ⟨g1, g2⟩ | ⟨g1, g2⟩
        · rw [abs_of_pos g1, abs_of_neg g2] at *
          rw [abs_of_nonneg (by linarith)]; ring
        · rw [abs_of_neg g1, abs_of_pos g2] at *
          rw [abs_of_nonpos (by linarith)]; ring
      obtain ⟨w, hw⟩ : ∃ w, w * |d.z| = |p.z| - a.z := ⟨(|p.z| - a.z) / |d.z|, by field_simp⟩
      have hw0 : 0 < w := pos_of_mul_pos_left (by rw [hw]; linarith) hdz.le
      have hwT : w ≤ T := le_of_mul_le_mul_right (by linarith) hdz
      generalize hDz : zDistIn (of a) p d = Dz at hzroot
      have hDz0 : 0 < Dz := pos_of_mul_pos_left (by rw [hzroot]; linarith) (by linarith)
      have hDzw : Dz ≤ w := guard_le hdz hw0.le hzroot (by linarith)
      have slz : ∀ u, Dz ≤ u → u ≤ w → a.z ≤ |(V3.at' p d u).z| ∧ |(V3.at' p d u).z| ≤ a.z + kTiny * u := by
        intro u h1 h2
        have h6 := mul_le_mul_of_nonneg_right h2 hdz.le
        have h7 := mul_le_mul_of_nonneg_right h1 (show 0 ≤ |d.z| + kTiny by linarith)
        have h3 : u * |d.z| ≤ |p.z| := by linarith [hv.z]
        rw [hzat u h3]
        constructor <;> linarith
      have hwz : |(V3.at' p d w).z| = a.z := by
        rw [hzat w (by linarith [hv.z])]; linarith
      by_cases hmax : CircleOk ty false true (qb p d) (qc a.rmax p d) (of a) p d
      · exact .inr (.inr (.inl hmax))
      have hwr : rad (V3.at' p d w) ≤ a.rmax := by
        apply inMax w _ hwT
        by_contra hc
        push Not at hc
        apply hmax
        refine ⟨.inl hδ, by linarith, fun _ => ⟨?_, fun h => absurd h hnp⟩⟩
        exact z_between hc.le ht1.le hwz.le hz.le
      have hcont := rad_sq_continuous (p := p) (d := d)
      -- no wall is crossed between the two planes
      have hno : ∀ R, (R = a.rmax ∨ (0 < a.rmin ∧ R = a.rmin)) → ∀ u, Dz ≤ u → u ≤ w → rad (V3.at' p d u) ^ 2 ≠ R ^ 2 := by
        intro R hR u h1 h2 h3
        obtain ⟨h4, h5⟩ := slz u h1 h2
        exact hs ⟨u, R, by linarith, by linarith, hR, h4, h5, by rw [h3]; nlinarith [sq_nonneg u], h3.le⟩
      have hDr : rad (V3.at' p d Dz) ^ 2 ≤ a.rmax ^ 2 := by
        by_contra hc
        push Not at hc
        have hw2 : rad (V3.at' p d w) ^ 2 ≤ a.rmax ^ 2 := pow_le_pow_left₀ (rad_nonneg _) hwr 2
        obtain ⟨u, ⟨h1, h2⟩, h3⟩ := intermediate_value_Icc' hDzw hcont.continuousOn ⟨hw2, hc.le⟩
        exact hno _ (.inl rfl) u h1 h2 h3
      by_cases hDm : 0 < a.rmin ∧ rad (V3.at' p d Dz) ^ 2 < a.rmin ^ 2
      · -- in the bore
        refine .inr (.inr (.inr (bore w hw0.le hwT hwz.le hDm.1 ?_)))
        have hw2 : rad (V3.at' p d w) ^ 2 < a.rmin ^ 2 := by
          by_contra hc
          push Not at hc
          obtain ⟨u, ⟨h1, h2⟩, h3⟩ := intermediate_value_Icc hDzw hcont.continuousOn ⟨hDm.2.le, hc⟩
          exact hno _ (.inr ⟨hDm.1, rfl⟩) u h1 h2 h3
        obtain ⟨h4, h5⟩ := slz w hDzw (le_refl _)
        have h6 : rad (V3.at' p d w) ^ 2 < a.rmin ^ 2 - kTiny * w ^ 2 := by
          by_contra hc
          push Not at hc
          exact hs ⟨w, a.rmin, hw0.le, hwT, .inr ⟨hDm.1, rfl⟩, h4, h5, hc, hw2.le⟩
        exact (quad_nonpos_iff hu _ _).mpr h6.le
      · left
        unfold ZOk
        simp only [hDz]
        refine ⟨by linarith, hdir, ?_, ?_, fun h => absurd h hnp⟩
        · have := rad_sq' (V3.at' p d Dz)
          simp only [V3.at_x, V3.at_y] at this
          rw [this, of_rmax2, ← sq]; exact hDr
        · intro h1
          have h1' := (rminT_iff hv hf).mp h1
          have := rad_sq' (V3.at' p d Dz)
          simp only [V3.at_x, V3.at_y] at this
          rw [this, of_rmin2 hv.rmin, ← sq]
          by_contra hc
          push Not at hc
          exact hDm ⟨h1', hc⟩

/-! ## The initial move -/

theorem mag_sq (p : V3) : p.mag ^ 2 = p.x ^ 2 + p.y ^ 2 + p.z ^ 2 := by
  unfold V3.mag
  rw [sq_sqrt (by unfold V3.mag2 V3.dot; nlinarith [mul_self_nonneg p.x, mul_self_nonneg p.y, mul_self_nonneg p.z])]
  unfold V3.mag2 V3.dot; ring

theorem mag_nonneg (p : V3) : 0 ≤ p.mag := sqrt_nonneg _

/-- A step of length `t` changes the distance from the origin by at most `t`. -/
theorem mag_at (hu : d.x ^ 2 + d.y ^ 2 + d.z ^ 2 = 1) {t : ℝ} (ht : 0 ≤ t) : p.mag ≤ (V3.at' p d t).mag + t := by
  have h1 := mag_sq p
  have h2 := mag_sq (V3.at' p d t)
  have h3 := mag_nonneg (V3.at' p d t)
  generalize hq : V3.at' p d t = q at *
  have ex : p.x = q.x - t * d.x := by rw [← hq, V3.at_x]; ring
  have ey : p.y = q.y - t * d.y := by rw [← hq, V3.at_y]; ring
  have ez : p.z = q.z - t * d.z := by rw [← hq, V3.at_z]; ring
  apply le_of_sq_le_sq _ (by linarith)
  have hcs : -(q.x * d.x + q.y * d.y + q.z * d.z) ≤ q.mag := by
    apply le_of_sq_le_sq _ h3
    rw [h2]
    have e : (q.x ^ 2 + q.y ^ 2 + q.z ^ 2) * 1 - (-(q.x * d.x + q.y * d.y + q.z * d.z)) ^ 2 =
        (q.x * d.y - q.y * d.x) ^ 2 + (q.y * d.z - q.z * d.y) ^ 2 + (q.z * d.x - q.x * d.z) ^ 2 := by rw [← hu]; ring
    linarith [sq_nonneg (q.x * d.y - q.y * d.x), sq_nonneg (q.y * d.z - q.z * d.y), sq_nonneg (q.z * d.x - q.x * d.z)]
  have e : p.mag ^ 2 = q.mag ^ 2 - 2 * t * (q.x * d.x + q.y * d.y + q.z * d.z) + t ^ 2 := by
    rw [h1, h2, ex, ey, ez]
    linear_combination t ^ 2 * hu
  rw [e]
  nlinarith [mul_le_mul_of_nonneg_left hcs ht]

theorem max_pos (hv : a.Valid) : 0 < max a.rmax a.z := lt_of_lt_of_le hv.z (le_max_right _ _)

/-- A point of the cylinder is close to the origin. -/
theorem mag_le_of_cylinder (hz : |p.z| ≤ a.z) (hr : rad p ≤ a.rmax) : p.mag ≤ 2 * max a.rmax a.z := by
  have h1 := le_max_left a.rmax a.z
  have h2 := le_max_right a.rmax a.z
  have h0 := rad_nonneg p
  have hM : 0 ≤ max a.rmax a.z := h0.trans (hr.trans h1)
  generalize max a.rmax a.z = M at *
  apply le_of_sq_le_sq _ (by linarith)
  rw [mag_sq, ← rad_sq]
  have h3 : rad p ^ 2 ≤ M ^ 2 := pow_le_pow_left₀ h0 (hr.trans h1) 2
  have h4 : p.z ^ 2 ≤ M ^ 2 := sq_le_sq' (by linarith [neg_abs_le p.z]) (by linarith [le_abs_self p.z])
  nlinarith [sq_nonneg M]

/-- `DistanceToIn` is the kernel at the point, or, far away, at a point closer to the tube. -/
theorem distanceToIn_cases (ty : TType) (hv : a.Valid) (hu : d.x ^ 2 + d.y ^ 2 + d.z ^ 2 = 1) (p : V3) :
    ∃ m, 0 ≤ m ∧ m ≤ p.mag ∧ distanceToIn ty (of a) p d = distanceToInKernel ty (of a) (V3.at' p d m) d + m ∧
      ((m = 0 ∧ p.mag ≤ 100 * max a.rmax a.z) ∨ (m = p.mag - 100 * max a.rmax a.z ∧ 100 * max a.rmax a.z ≤ (V3.at' p d m).mag)) := by
  have hM := max_pos hv
  have hmv : (of a).maxVal = max a.rmax a.z := rfl
  unfold distanceToIn
  dsimp only
  rw [hmv]
  by_cases h : p.mag > 100 * max a.rmax a.z
  · refine ⟨p.mag - 100 * max a.rmax a.z, by linarith, by linarith, ?_, .inr ⟨rfl, ?_⟩⟩
    · rw [if_pos h, if_pos h]
    · have := mag_at (p := p) hu (show 0 ≤ p.mag - 100 * max a.rmax a.z by linarith)
      linarith
  · refine ⟨0, le_refl _, mag_nonneg p, ?_, .inl ⟨rfl, not_lt.mp h⟩⟩
    rw [if_neg h, if_neg h, show V3.at' p d 0 = p by ext <;> simp]

theorem at_at (m u : ℝ) : V3.at' (V3.at' p d m) d u = V3.at' p d (u + m) := by
  ext <;> simp only [V3.at_x, V3.at_y, V3.at_z] <;> ring

/-- The point is in the tube, deeper than `x`. -/
structure Deep (a : Par) (x : ℝ) (p : V3) : Prop where
  z : |p.z| + x < a.z
  lo : 0 < a.rmin → a.rmin + x < rad p
  hi : rad p + x < a.rmax
  phi : a.d = 2 * π ∨ (a.d ≤ π ∧ x ≤ S1 a p.x p.y ∧ x ≤ S2 a p.x p.y) ∨ (π < a.d ∧ a.d < 2 * π ∧ (x ≤ S1 a p.x p.y ∨ x ≤ S2 a p.x p.y))

theorem insideForIn_iff (hv : a.Valid) (hf : Fits ty a) (hM : kTolerance ≤ a.rmax) :
    InsideForIn ty (of a) p ↔ Deep a kHalfTolerance p := by
  have ht := kTolerance_pos
  have hhalf : kHalfTolerance = kTolerance / 2 := rfl
  have hr := rad_nonneg p
  have hp := pi_pos
  unfold InsideForIn
  rw [of_z, rad_sq', of_tolIrmax2, of_tolIrmin2 hv.rmin, ← sq, ← sq, rminT_iff hv hf]
  constructor
  · rintro ⟨h1, h2, h3, h4⟩
    have h2' := lt_of_pow_lt_pow_left₀ 2 (by linarith) h2
    refine ⟨by linarith, fun h => lt_of_pow_lt_pow_left₀ 2 hr (h3 h), by linarith, ?_⟩
    by_cases hq : PhiT ty (of a)
    · have := h4 hq
      rw [inSector_iff hf hq] at this
      simp only [Bool.false_eq_true, if_false] at this
      rcases this with h | h
      · exact .inr (.inl h)
      · exact .inr (.inr ⟨h.1, (phiT_iff hf).mp hq, h.2⟩)
    · exact .inl (not_phiT hv hq hf)
  · rintro ⟨h1, h2, h3, h4⟩
    refine ⟨by linarith, pow_lt_pow_left₀ (by linarith) hr (by norm_num), fun h => pow_lt_pow_left₀ (h2 h) (by linarith [hv.rmin]) (by norm_num), fun hq => ?_⟩
    rw [inSector_iff hf hq]
    simp only [Bool.false_eq_true, if_false]
    rcases h4 with h | h | h
    · exact absurd h ((phiT_iff hf).mp hq).ne
    · exact .inl h
    · exact .inr ⟨h.1, h.2.2⟩

/-- A deep point is in the tube. -/
theorem Deep.closed (hv : a.Valid) {x : ℝ} (hx : 0 ≤ x) (h : Deep a x p) : a.Closed p := by
  have hr := rad_nonneg p
  refine ⟨by linarith [h.z], ?_, by linarith [h.hi], ?_⟩
  · rcases hv.rmin.lt_or_eq with h1 | h1
    · linarith [h.lo h1]
    · linarith
  · rcases h.phi with h1 | h1 | h1
    · rw [h1]; exact sector_full _ _ _
    · exact (sector_iff hv _ _).mpr (.inl ⟨h1.1, by linarith, by linarith⟩)
    · exact (sector_iff hv _ _).mpr (.inr ⟨h1.1, h1.2.2.imp (fun h => by linarith) (fun h => by linarith)⟩)

/-! ## Theorems -/

/-- C80: a finite distance into the tube leads to a point that is close to the tube and to its surface, or the point is in the
tube deeper than half the tolerance and the result is `-1`.  Tubes without sector never give distances below twice the
tolerance. -/
theorem C80_distance_in_sound (hv : a.Valid) (hf : Fits ty a) (hm : a.rmin = 0 ∨ kTolerance ≤ a.rmin) (hM : kTolerance ≤ a.rmax)
    (hu : d.x ^ 2 + d.y ^ 2 + d.z ^ 2 = 1) (p : V3) :
    let D := distanceToIn ty (of a) p d
    let x := kTolerance + (|D| + p.mag) / 10 ^ 15
    D < kInfLength →
    (D = -1 ∧ Deep a kHalfTolerance p) ∨
    (Near a x (V3.at' p d D) ∧ NearSurface a x (V3.at' p d D) ∧ (a.d = 2 * π → -2 * kTolerance ≤ D)) := by
  intro D x hD
  have hmax := max_pos hv
  obtain ⟨m, hm0, hmp, he, hcase⟩ := distanceToIn_cases ty hv hu p
  change D = _ at he
  by_cases hin : InsideForIn ty (of a) (V3.at' p d m)
  · have hdeep := (insideForIn_iff hv hf hM).mp hin
    have hcl := hdeep.closed hv kHalfTolerance_pos.le
    have hmag := mag_le_of_cylinder hcl.z hcl.hi
    have hm1 : m = 0 := by
      rcases hcase with h | h
      · exact h.1
      · linarith [h.2]
    subst hm1
    rw [show V3.at' p d 0 = p by ext <;> simp] at *
    by_cases hq : distanceToInKernel ty (of a) p d = -1
    · left; exact ⟨by rw [he, hq]; ring, hdeep⟩
    · have := kernel_sound (p := p) hv hf hm hM hu (by linarith) (fun h => hq h.1)
      have e : D = distanceToInKernel ty (of a) p d := by rw [he]; ring
      rw [← e] at this
      right
      obtain ⟨g1, g2, g3⟩ := this
      have hx : kTolerance + |D| / 10 ^ 15 ≤ x := by
        have : |D| / 10 ^ 15 ≤ (|D| + p.mag) / 10 ^ 15 := by
          apply div_le_div_of_nonneg_right _ (by norm_num); linarith
        simp only [x]; linarith
      exact ⟨g1.mono hx, g2.mono hx, g3⟩
  · right
    have := kernel_sound (p := V3.at' p d m) hv hf hm hM hu (by linarith) (fun h => hin h.2)
    rw [at_at, ← he] at this
    obtain ⟨g1, g2, g3⟩ := this
    have hx : kTolerance + |distanceToInKernel ty (of a) (V3.at' p d m) d| / 10 ^ 15 ≤ x := by
      have h1 : |distanceToInKernel ty (of a) (V3.at' p d m) d| ≤ |D| + p.mag := by
        rw [show distanceToInKernel ty (of a) (V3.at' p d m) d = D - m by linarith]
        have := abs_sub D m
        rw [abs_of_nonneg hm0] at this
        linarith
      have : |distanceToInKernel ty (of a) (V3.at' p d m) d| / 10 ^ 15 ≤ (|D| + p.mag) / 10 ^ 15 :=
        div_le_div_of_nonneg_right h1 (by norm_num)
      simp only [x]; linarith
    exact ⟨g1.mono hx, g2.mono hx, fun h => by linarith [g3 h]⟩

/-- C80: points deeper than half the tolerance get `-1`. -/
theorem C80_inside (hv : a.Valid) (hf : Fits ty a) (hM : kTolerance ≤ a.rmax) (hu : d.x ^ 2 + d.y ^ 2 + d.z ^ 2 = 1)
    (h : Deep a kHalfTolerance p) : distanceToIn ty (of a) p d = -1 := by
  have ht := kTolerance_pos
  have hh := kHalfTolerance_pos
  have hmax := max_pos hv
  have hcl := h.closed hv hh.le
  have hmag := mag_le_of_cylinder hcl.z hcl.hi
  have hr := rad_nonneg p
  unfold distanceToIn
  have hmv : (of a).maxVal = max a.rmax a.z := rfl
  have hn : ¬ p.mag > 100 * (of a).maxVal := by rw [hmv]; linarith
  simp only [hn, if_false, add_zero]
  unfold distanceToInKernel
  rw [if_neg, if_pos ((insideForIn_iff hv hf hM).mpr h)]
  rintro (⟨h1, -⟩ | ⟨h1, -⟩)
  · rw [of_z] at h1; linarith [h.z]
  · rw [rad_sq', of_tolIrmax2, ← sq] at h1
    have := lt_of_pow_lt_pow_left₀ 2 hr h1
    linarith [h.hi]

/-- C80, tubes without sector: the distance into the tube is at most the distance to any point of the ray that is in the tube,
deeper than half the tolerance below the outer wall.  Excepted are rays that get closer than the guards of the divisions
(`1e-30`) to the edges between lids and walls.  Not proved for sectors, and false for them; see the counterexamples. -/
theorem C80_distance_in_complete_partial (hv : a.Valid) (hf : Fits ty a) (hd : a.d = 2 * π) (hM : kTolerance ≤ a.rmax)
    (hu : d.x ^ 2 + d.y ^ 2 + d.z ^ 2 = 1) (hout : a.z ≤ |p.z| ∨ a.rmax ≤ rad p ∨ (0 < a.rmin ∧ rad p ≤ a.rmin))
    {T : ℝ} (hT : 0 ≤ T) (hTi : T < kInfLength) (hTe : kTiny * T ^ 2 ≤ kHalfTolerance * a.rmax)
    (hz : |(V3.at' p d T).z| < a.z) (hr : rad (V3.at' p d T) < a.rmax - kHalfTolerance) (hm : 0 < a.rmin → a.rmin < rad (V3.at' p d T))
    (hs : ¬ Sliver a p d T) : distanceToIn ty (of a) p d ≤ T := by
  have he := kTiny_pos
  have hmax := max_pos hv
  have hh := kHalfTolerance_pos
  obtain ⟨m, hm0, hmp, hD, hcase⟩ := distanceToIn_cases ty hv hu p
  rw [hD]
  rcases hcase with ⟨rfl, -⟩ | ⟨hmm, hfar⟩
  · rw [show V3.at' p d 0 = p by ext <;> simp, add_zero]
    exact kernel_complete hv hf hd hM hu hout hT hTi hTe hz hr hm hs
  · have hTm : m ≤ T := by
      have h1 := mag_at (p := p) hu hT
      have h2 := mag_le_of_cylinder (a := a) hz.le (by linarith)
      linarith
    have eT : V3.at' (V3.at' p d m) d (T - m) = V3.at' p d T := by rw [at_at]; congr 1; ring
    have := kernel_complete (p := V3.at' p d m) (T := T - m) hv hf hd hM hu ?_ (by linarith) (by linarith) ?_ (by rwa [eT]) (by rwa [eT]) (by rwa [eT]) ?_
    · linarith
    · by_contra hc
      push Not at hc
      have := mag_le_of_cylinder (a := a) hc.1.le hc.2.1.le
      linarith
    · have : (T - m) ^ 2 ≤ T ^ 2 := pow_le_pow_left₀ (by linarith) (by linarith) 2
      nlinarith
    · rintro ⟨u, R, h1, h2, h3, h4, h5, h6, h7⟩
      rw [at_at] at h4 h5 h6 h7
      refine hs ⟨u + m, R, by linarith, by linarith, h3, h4, ?_, ?_, h7⟩
      · nlinarith
      · have : u ^ 2 ≤ (u + m) ^ 2 := pow_le_pow_left₀ h1 (by linarith) 2
        nlinarith

/-- A solid cylinder, used as an example. -/
noncomputable def rod : Par := ⟨0, 1, 1, 0, 2 * π⟩

theorem rod_valid : rod.Valid := by
  have := pi_pos
  constructor <;> simp only [rod] <;> linarith

theorem rod_fits : Fits ⟨true, .none⟩ rod := by refine ⟨by simp [rod], by simp [rod], by simp, by simp, by simp⟩

example : distanceToIn ⟨true, .none⟩ (of rod) ⟨0, 0, 2⟩ ⟨0, 0, -1⟩ ≤ 3 / 2 := by
  refine C80_distance_in_complete_partial rod_valid rod_fits rfl ?_ (by norm_num) (.inl ?_) (by norm_num) ?_ ?_ ?_ ?_ ?_ ?_
  · norm_num [rod, kTolerance]
  · norm_num [rod]
  · linarith [kInfLength_large]
  · norm_num [rod, kTiny, kHalfTolerance, kTolerance]
  · norm_num [rod, V3.at', abs_lt]
  · simp [rad, V3.at', rod]; norm_num [kHalfTolerance, kTolerance]
  · simp [rod]
  · rintro ⟨u, R, h1, h2, h3, -, -, h6, -⟩
    simp only [rad_sq, V3.at_x, V3.at_y] at h6
    rcases h3 with rfl | h3
    · simp only [rod, kTiny] at h6
      nlinarith
    · simp [rod] at h3

example : distanceToIn ⟨true, .none⟩ (of rod) ⟨0, 0, 0⟩ ⟨0, 0, -1⟩ = -1 := by
  refine C80_inside rod_valid rod_fits ?_ (by norm_num) ⟨?_, ?_, ?_, .inl rfl⟩ <;> norm_num [rod, kTolerance, kHalfTolerance, rad]

/-- What remains to be excluded for an infinite distance; solid tubes. -/
theorem kernel_infinite (hv : a.Valid) (hf : Fits ty a)
    (h1 : ¬ InsideForIn ty (of a) p) (h2 : ¬ ZOk ty (of a) p d) (h3 : ¬ SurfaceIn ty (of a) p d)
    (h4 : ¬ CircleOk ty false true (qb p d) (qc a.rmax p d) (of a) p d)
    (h5 : 0 < a.rmin → ¬ CircleOk ty true true (qb p d) (qc a.rmin p d) (of a) p d)
    (h6 : PhiT ty (of a) → ¬ PhiPlaneOk (decide (ty.angle ≠ .pi)) true (of a).a1x (of a).a1y (of a).wedge.n1x (of a).wedge.n1y (of a) p d ∧
      ¬ PhiPlaneOk (decide (ty.angle ≠ .pi)) true (of a).a2x (of a).a2y (of a).wedge.n2x (of a).wedge.n2y (of a) p d)
    (hn : p.mag ≤ 100 * max a.rmax a.z) : kInfLength ≤ distanceToIn ty (of a) p d := by
  have hk : kInfLength ≤ distanceToInKernel ty (of a) p d := by
    rcases kernel_cases hv hf p d with hc | hc | ⟨-, hc⟩ | ⟨-, hc⟩ | ⟨-, hc⟩ | ⟨h0, -, hc⟩ | ⟨hp, b, -, -, hc⟩
    · exact hc
    · exact absurd hc.2 h1
    · exact absurd hc h2
    · exact absurd hc h3
    · exact absurd hc h4
    · exact absurd hc (h5 h0)
    · cases b
      · exact absurd hc (h6 hp).1
      · exact absurd hc (h6 hp).2
  unfold distanceToIn
  have hmv : (of a).maxVal = max a.rmax a.z := rfl
  have hn : ¬ p.mag > 100 * (of a).maxVal := by rw [hmv]; linarith
  simp only [hn, if_false, add_zero]
  exact hk

/-- The near root of the outer wall is behind a point that was in the cylinder before. -/
theorem circle_behind (hu : d.x ^ 2 + d.y ^ 2 + d.z ^ 2 = 1) {x : ℝ} (hx : 2 * kTolerance < x)
    (hb : rad (V3.at' p d (-x)) ^ 2 ≤ a.rmax ^ 2 - kTiny * x ^ 2) :
    ¬ CircleOk ty false true (qb p d) (qc a.rmax p d) (of a) p d := by
  rintro ⟨h0, h, -⟩
  have h0 : 0 < qb p d * qb p d - qc a.rmax p d := by
    rcases h0 with h0 | ⟨h0, -⟩
    · exact h0
    · simp at h0
  rw [show kTiny * x ^ 2 = kTiny * (-x) ^ 2 by ring, ← quad_nonpos_iff hu, quad_factor h0.le] at hb
  have := between_of_nonpos (circleDist_le h0.le) hb
  linarith

theorem z_behind (hd : d.z = 0) (hp : |p.z| + kTolerance ≤ a.z) : ¬ ZOk ty (of a) p d := by
  rintro ⟨-, h, -⟩
  rw [hd] at h
  simp at h

/-- A point of the lid (within the tolerance, on the inner side) that moves inwards at an angle is told that it never gets in. -/
theorem C80_lid_counterexample :
    ∃ p d : V3, d.x ^ 2 + d.y ^ 2 + d.z ^ 2 = 1 ∧ d.z < 0 ∧ inside ⟨true, .none⟩ (of rod) p = .surface ∧
      contains ⟨true, .none⟩ (of rod) p = true ∧
      kInfLength ≤ distanceToIn ⟨true, .none⟩ (of rod) p d := by
  refine ⟨⟨0, 0, 1 - 4 / 10 ^ 10⟩, ⟨99 / 101, 0, -20 / 101⟩, by norm_num, by norm_num, ?_, ?_, ?_⟩
  · have hn : ¬ CompletelyInside ⟨true, .none⟩ (of rod) ⟨0, 0, 1 - 4 / 10 ^ 10⟩ := by
      rintro ⟨h, -⟩
      norm_num [kHalfTolerance, kTolerance, rod] at h
    have ho : ¬ CompletelyOutside ⟨true, .none⟩ true (of rod) ⟨0, 0, 1 - 4 / 10 ^ 10⟩ := by
      rintro (h | h | h | h)
      · norm_num [plusTolerant, kHalfTolerance, kTolerance, rod] at h
      · norm_num [plusTolerantSquare, kTolerance, rod] at h
      · exact absurd h.1 (by simp [RminT])
      · exact absurd h.1 (by simp [PhiT])
    unfold inside
    rw [if_neg hn, if_neg ho]
  · refine (C77_contains rod_valid rod_fits _).mpr ⟨?_, ?_, ?_, ?_⟩
    · norm_num [rod, abs_le]
    · simp [rod]
    · norm_num [rad, rod]
    · exact sector_full _ _ _
  · apply kernel_infinite rod_valid rod_fits
    · rintro ⟨h, -⟩
      norm_num [kHalfTolerance, kTolerance, rod] at h
    · rintro ⟨h, -⟩
      norm_num [zDistIn, kHalfTolerance, kTolerance, rod, kTiny] at h
    · rintro ⟨h | h, -⟩
      · have := h.1
        unfold IsOnTubeSurface at this
        norm_num [rod, kHalfTolerance, kTolerance] at this
      · exact absurd h.1 (by simp [RminT])
    · refine circle_behind (x := 1 / 10) (by norm_num) (by norm_num [kTolerance]) ?_
      rw [rad_sq]
      norm_num [rod, kTiny]
    · simp [rod]
    · intro h; exact absurd h (by simp [PhiT])
    · refine (mag_le_of_cylinder (a := rod) ?_ ?_).trans (by linarith [max_pos rod_valid])
      · norm_num [rod, abs_le]
      · norm_num [rad, rod]

/-- A thick pipe. -/
noncomputable def pipe : Par := ⟨1, 2, 1, 0, 2 * π⟩

theorem pipe_valid : pipe.Valid := by
  have := pi_pos
  constructor <;> simp only [pipe] <;> linarith

theorem pipe_fits : Fits ⟨false, .none⟩ pipe := by refine ⟨by simp, by simp [pipe], by simp, by simp, by simp⟩

/-- A point of the wall of the bore (within the tolerance, on the inner side) whose path stays in the tube is told that it never
gets in. -/
theorem C80_bore_counterexample :
    ∃ p d : V3, d.x ^ 2 + d.y ^ 2 + d.z ^ 2 = 1 ∧ (∀ t, 0 ≤ t → t ≤ 1 → pipe.In (V3.at' p d t)) ∧
      kInfLength ≤ distanceToIn ⟨false, .none⟩ (of pipe) p d := by
  have hline : ∀ t, rad (V3.at' ⟨1 + 4 / 10 ^ 10, 0, 0⟩ ⟨-(2 * (1 / 10 ^ 6) / (1 + (1 / 10 ^ 6) ^ 2)), (1 - (1 / 10 ^ 6) ^ 2) / (1 + (1 / 10 ^ 6) ^ 2), 0⟩ t) ^ 2 =
      (1 + 4 / 10 ^ 10) ^ 2 - (1 + 4 / 10 ^ 10) * (2 * (2 * (1 / 10 ^ 6) / (1 + (1 / 10 ^ 6) ^ 2))) * t + t ^ 2 := by
    intro t
    rw [rad_sq, V3.at_x, V3.at_y]
    ring
  refine ⟨⟨1 + 4 / 10 ^ 10, 0, 0⟩, ⟨-(2 * (1 / 10 ^ 6) / (1 + (1 / 10 ^ 6) ^ 2)), (1 - (1 / 10 ^ 6) ^ 2) / (1 + (1 / 10 ^ 6) ^ 2), 0⟩, by norm_num, ?_, ?_⟩
  · intro t h0 h1
    refine ⟨?_, fun _ => ?_, ?_, sector_full _ _ _⟩
    · norm_num [pipe]
    · rw [lt_rad (by norm_num [pipe]), ← rad_sq, hline]
      norm_num [pipe]
      nlinarith [sq_nonneg (t - 2 / 10 ^ 6)]
    · rw [rad_le (by norm_num [pipe]), ← rad_sq, hline]
      norm_num [pipe]
      nlinarith
  · apply kernel_infinite pipe_valid pipe_fits
    · rintro ⟨-, -, h, -⟩
      have := h ((rminT_iff pipe_valid pipe_fits).mpr (by norm_num [pipe]))
      rw [of_tolIrmin2 pipe_valid.rmin] at this
      norm_num [kHalfTolerance, kTolerance, pipe] at this
    · apply z_behind rfl
      norm_num [pipe, kTolerance]
    · rintro ⟨h | h, -⟩
      · have := h.1
        unfold IsOnTubeSurface at this
        norm_num [pipe, kHalfTolerance, kTolerance] at this
      · have := h.2.2
        norm_num at this
    · refine circle_behind (x := 1 / 10) (by norm_num) (by norm_num [kTolerance]) ?_
      rw [hline]
      norm_num [pipe, kTiny]
    · intro _ h
      have h0 : 0 ≤ qb ⟨1 + 4 / 10 ^ 10, 0, 0⟩ ⟨-(2 * (1 / 10 ^ 6) / (1 + (1 / 10 ^ 6) ^ 2)), (1 - (1 / 10 ^ 6) ^ 2) / (1 + (1 / 10 ^ 6) ^ 2), 0⟩ * qb ⟨1 + 4 / 10 ^ 10, 0, 0⟩ ⟨-(2 * (1 / 10 ^ 6) / (1 + (1 / 10 ^ 6) ^ 2)), (1 - (1 / 10 ^ 6) ^ 2) / (1 + (1 / 10 ^ 6) ^ 2), 0⟩ - qc pipe.rmin ⟨1 + 4 / 10 ^ 10, 0, 0⟩ ⟨-(2 * (1 / 10 ^ 6) / (1 + (1 / 10 ^ 6) ^ 2)), (1 - (1 / 10 ^ 6) ^ 2) / (1 + (1 / 10 ^ 6) ^ 2), 0⟩ := by
        rcases h.1 with h | h
        · exact h.le
        · exact h.2.ge
      have h1 := rad_at_quad (p := ⟨1 + 4 / 10 ^ 10, 0, 0⟩) (d := ⟨-(2 * (1 / 10 ^ 6) / (1 + (1 / 10 ^ 6) ^ 2)), (1 - (1 / 10 ^ 6) ^ 2) / (1 + (1 / 10 ^ 6) ^ 2), 0⟩) (by norm_num) pipe.rmin (circleDist true (qb ⟨1 + 4 / 10 ^ 10, 0, 0⟩ ⟨-(2 * (1 / 10 ^ 6) / (1 + (1 / 10 ^ 6) ^ 2)), (1 - (1 / 10 ^ 6) ^ 2) / (1 + (1 / 10 ^ 6) ^ 2), 0⟩) (qc pipe.rmin ⟨1 + 4 / 10 ^ 10, 0, 0⟩ ⟨-(2 * (1 / 10 ^ 6) / (1 + (1 / 10 ^ 6) ^ 2)), (1 - (1 / 10 ^ 6) ^ 2) / (1 + (1 / 10 ^ 6) ^ 2), 0⟩))
      rw [hline, quad_factor h0, sub_self, mul_zero, mul_zero, add_zero] at h1
      generalize circleDist _ _ _ = t at h1
      have hr : pipe.rmin = 1 := rfl
      rw [hr] at h1
      have := kTiny_pos
      norm_num at h1
      nlinarith [sq_nonneg (t - 2 / 10 ^ 6), mul_nonneg this.le (sq_nonneg t)]
    · intro h; exact absurd h (by simp [PhiT])
    · refine (mag_le_of_cylinder (a := pipe) ?_ ?_).trans (by linarith [max_pos pipe_valid])
      · norm_num [pipe]
      · rw [rad_le (by norm_num [pipe])]; norm_num [pipe]

/-- A quarter of a solid cylinder. -/
noncomputable def slice : Par := ⟨0, 1000, 10, 0, π / 2⟩

theorem slice_valid : slice.Valid := by
  have := pi_pos
  constructor <;> simp only [slice] <;> linarith

theorem slice_fits : Fits ⟨true, .smaller⟩ slice := by
  have := pi_pos
  refine ⟨by simp [slice], by simp, fun _ => ?_, by simp, by simp⟩
  simp only [slice]; linarith

theorem slice_S (x y : ℝ) : S1 slice x y = y ∧ S2 slice x y = x := by
  unfold S1 S2 slice
  simp

theorem slice_phiT : PhiT ⟨true, .smaller⟩ (of slice) := by simp [PhiT]

/-- A ray that enters a solid sector through its edge misses it: the point is 1 away from the edge and outside, every point of the
ray after the edge is in the tube, and the distance is infinite. -/
theorem C80_axis_counterexample :
    ∃ p d : V3, d.x ^ 2 + d.y ^ 2 + d.z ^ 2 = 1 ∧ ¬ slice.Closed p ∧ (∀ t, 1 ≤ t → t ≤ 100 → slice.Closed (V3.at' p d t)) ∧
      kInfLength ≤ distanceToIn ⟨true, .smaller⟩ (of slice) p d := by
  refine ⟨⟨-3 / 5, -4 / 5, 0⟩, ⟨3 / 5, 4 / 5, 0⟩, by norm_num, ?_, ?_, ?_⟩
  · intro h
    have := (sector_iff slice_valid _ _).mp h.phi
    simp only [(slice_S _ _).1, (slice_S _ _).2] at this
    norm_num at this
  · intro t h1 h2
    refine ⟨by norm_num [slice], rad_nonneg _, ?_, ?_⟩
    · rw [rad_le (by norm_num [slice]), V3.at_x, V3.at_y]
      norm_num [slice]
      nlinarith
    · have := pi_pos
      rw [sector_iff slice_valid]
      simp only [(slice_S _ _).1, (slice_S _ _).2, V3.at_x, V3.at_y]
      exact .inl ⟨by simp only [slice]; linarith, by linarith, by linarith⟩
  · apply kernel_infinite slice_valid slice_fits
    · rintro ⟨-, -, -, h⟩
      have := h slice_phiT
      rw [inSector_iff slice_fits slice_phiT] at this
      simp only [(slice_S _ _).1, (slice_S _ _).2, Bool.false_eq_true, if_false] at this
      norm_num [kHalfTolerance, kTolerance] at this
    · apply z_behind rfl
      norm_num [slice, kTolerance]
    · rintro ⟨h | h, -⟩
      · have := h.1
        unfold IsOnTubeSurface at this
        norm_num [slice, kHalfTolerance, kTolerance] at this
      · exact absurd h.1 (by simp [RminT])
    · refine circle_behind (x := 1 / 10) (by norm_num) (by norm_num [kTolerance]) ?_
      rw [rad_sq]
      norm_num [slice, kTiny]
    · simp [slice]
    · intro _
      constructor
      · intro h
        have := h.2.2.1 rfl
        have := this.2.2.2 (by simp)
        simp only [of_a1x, of_a1y] at this
        norm_num [phiPlaneDist, slice, nonZero, copySign, kTiny] at this
      · intro h
        have := h.2.2.1 rfl
        have := this.2.2.2 (by simp)
        simp only [of_a2x, of_a2y] at this
        norm_num [phiPlaneDist, slice, nonZero, copySign, kTiny] at this
    · refine (mag_le_of_cylinder (a := slice) ?_ ?_).trans (by linarith [max_pos slice_valid])
      · norm_num [slice]
      · rw [rad_le (by norm_num [slice])]; norm_num [slice]

/-- A point of a face of a sector (within the tolerance, on the inner side) that moves almost along the face gets a distance far
below zero. -/
theorem C80_face_counterexample :
    ∃ p d : V3, d.x ^ 2 + d.y ^ 2 + d.z ^ 2 = 1 ∧ slice.Closed p ∧
      distanceToIn ⟨true, .smaller⟩ (of slice) p d ≤ -100 := by
  have hd : (V3.mk ((1 - (1 / 10 ^ 12) ^ 2) / (1 + (1 / 10 ^ 12) ^ 2)) (2 * (1 / 10 ^ 12) / (1 + (1 / 10 ^ 12) ^ 2)) 0).x ^ 2 +
      (V3.mk ((1 - (1 / 10 ^ 12) ^ 2) / (1 + (1 / 10 ^ 12) ^ 2)) (2 * (1 / 10 ^ 12) / (1 + (1 / 10 ^ 12) ^ 2)) 0).y ^ 2 + 0 ^ 2 = 1 := by norm_num
  have hc : slice.Closed ⟨500, 4 / 10 ^ 10, 0⟩ := by
    have := pi_pos
    refine ⟨by norm_num [slice], rad_nonneg _, ?_, ?_⟩
    · rw [rad_le (by norm_num [slice])]; norm_num [slice]
    · rw [sector_iff slice_valid]
      simp only [(slice_S _ _).1, (slice_S _ _).2]
      exact .inl ⟨by simp only [slice]; linarith, by norm_num, by norm_num⟩
  refine ⟨⟨500, 4 / 10 ^ 10, 0⟩, ⟨(1 - (1 / 10 ^ 12) ^ 2) / (1 + (1 / 10 ^ 12) ^ 2), 2 * (1 / 10 ^ 12) / (1 + (1 / 10 ^ 12) ^ 2), 0⟩, hd, hc, ?_⟩
  have hpl : PhiPlaneOk true true (of slice).a1x (of slice).a1y (of slice).wedge.n1x (of slice).wedge.n1y (of slice) ⟨500, 4 / 10 ^ 10, 0⟩
      ⟨(1 - (1 / 10 ^ 12) ^ 2) / (1 + (1 / 10 ^ 12) ^ 2), 2 * (1 / 10 ^ 12) / (1 + (1 / 10 ^ 12) ^ 2), 0⟩ := by
    unfold PhiPlaneOk
    dsimp only
    simp only [if_true]
    have e0 : ∀ x y, x * (of slice).wedge.n1x + y * (of slice).wedge.n1y = y := fun x y =>
      (n1_of (a := slice) ⟨x, y, 0⟩).trans (slice_S _ _).1
    have e1 : (of slice).a1x = 1 := by simp [slice]
    have e2 : (of slice).a1y = 0 := by simp [slice]
    have e3 : (of slice).tolOz = 10 + kHalfTolerance := rfl
    have e4 : (of slice).tolOrmax2 = (1000 + kHalfTolerance) * (1000 + kHalfTolerance) := rfl
    have e5 : (of slice).tolOrmin2 = (0 - kHalfTolerance) * (0 - kHalfTolerance) := of_tolOrmin2 (a := slice) (le_refl _)
    simp only [e0, e1, e2, e3, e4, e5]
    norm_num [phiPlaneDist, nonZero, copySign, kTiny, kHalfTolerance, kTolerance]
  have hval : phiPlaneDist (of slice).a1x (of slice).a1y ⟨500, 4 / 10 ^ 10, 0⟩
      ⟨(1 - (1 / 10 ^ 12) ^ 2) / (1 + (1 / 10 ^ 12) ^ 2), 2 * (1 / 10 ^ 12) / (1 + (1 / 10 ^ 12) ^ 2), 0⟩ ≤ -100 := by
    have e1 : (of slice).a1x = 1 := by simp [slice]
    have e2 : (of slice).a1y = 0 := by simp [slice]
    simp only [e1, e2]
    norm_num [phiPlaneDist, nonZero, copySign, kTiny]
  generalize hD : (⟨(1 - (1 / 10 ^ 12) ^ 2) / (1 + (1 / 10 ^ 12) ^ 2), 2 * (1 / 10 ^ 12) / (1 + (1 / 10 ^ 12) ^ 2), 0⟩ : V3) = d at *
  have hdz : d.z = 0 := by rw [← hD]
  have hdx : 0 ≤ d.x := by rw [← hD]; norm_num
  have hdy : 0 ≤ d.y := by rw [← hD]; norm_num
  have hdx1 : d.x ≤ 1 := by rw [← hD]; norm_num
  have hdy1 : d.y ≤ 1 := by rw [← hD]; norm_num
  rw [← hdz] at hd
  have hm : ¬ (V3.mk 500 (4 / 10 ^ 10) 0).mag > 100 * (of slice).maxVal := by
    rw [not_lt]
    exact (mag_le_of_cylinder hc.z hc.hi).trans (by
      have := max_pos slice_valid
      show _ ≤ 100 * max slice.rmax slice.z
      linarith)
  unfold distanceToIn
  simp only [hm, if_false, add_zero]
  unfold distanceToInKernel
  rw [if_neg, if_neg, if_neg, if_neg]
  · dsimp only
    rw [if_neg]
    · rw [if_pos slice_phiT, if_pos (show (⟨true, .smaller⟩ : TType).angle ≠ .pi by simp)]
      have hr : ¬ RminT ⟨true, .smaller⟩ (of slice) := by simp [RminT]
      have hlt : phiPlaneDist (of slice).a1x (of slice).a1y ⟨500, 4 / 10 ^ 10, 0⟩ d < kInfLength := by linarith [kInfLength_large]
      rw [show decide ((⟨true, .smaller⟩ : TType).angle ≠ .pi) = true by simp, if_neg (c := RminT _ _ ∧ _) (fun h => hr h.1),
        if_pos (c := PhiPlaneOk _ _ (of slice).a1x _ _ _ _ _ _ ∧ _) ⟨hpl, hlt⟩]
      split
      · rename_i h; linarith [h.2]
      · exact hval
    · rintro ⟨h, -⟩
      have e : invnsq d * ((V3.mk 500 (4 / 10 ^ 10) 0).x * (V3.mk 500 (4 / 10 ^ 10) 0).x + (V3.mk 500 (4 / 10 ^ 10) 0).y * (V3.mk 500 (4 / 10 ^ 10) 0).y - (of slice).rmax2) = qc slice.rmax ⟨500, 4 / 10 ^ 10, 0⟩ d := qc_eq _ _ _
      have e' : invnsq d * ((V3.mk 500 (4 / 10 ^ 10) 0).x * d.x + (V3.mk 500 (4 / 10 ^ 10) 0).y * d.y) = qb ⟨500, 4 / 10 ^ 10, 0⟩ d := qb_eq _ _
      dsimp only at e e'
      rw [e, e'] at h
      refine circle_behind hd (x := 1) (by norm_num [kTolerance]) ?_ h
      rw [rad_sq, V3.at_x, V3.at_y]
      norm_num [slice, kTiny]
      nlinarith
  · rintro ⟨h | h, -⟩
    · have := h.1
      unfold IsOnTubeSurface at this
      norm_num [slice, kHalfTolerance, kTolerance] at this
    · exact absurd h.1 (by simp [RminT])
  · apply z_behind hdz
    norm_num [slice, kTolerance]
  · rintro ⟨-, -, -, h⟩
    have := h slice_phiT
    rw [inSector_iff slice_fits slice_phiT] at this
    simp only [(slice_S _ _).1, (slice_S _ _).2, Bool.false_eq_true, if_false] at this
    rcases this with h | h
    · norm_num [kHalfTolerance, kTolerance] at h
    · have := pi_pos
      have := h.1
      simp only [slice] at this
      linarith
  · rintro (⟨h, -⟩ | ⟨h, -⟩)
    · norm_num [slice, kHalfTolerance, kTolerance] at h
    · norm_num [slice, kHalfTolerance, kTolerance] at h

end Tube
end VecGeom

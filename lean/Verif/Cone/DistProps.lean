import Verif.Cone.Dist
import Verif.Cone.PropsMore

/-!
# DistanceToOut of cones
-/

namespace VecGeom
namespace Cone

open Real Tube

variable {a : Par} {ty : CType} {p d : V3}

/-! ## The sector -/

/-- A tube with the sector of the cone. -/
noncomputable def secTube (a : Par) : Tube.Par := ⟨0, 1, 1, a.s, a.d⟩

theorem secTube_valid (hv : a.Valid) : (secTube a).Valid := ⟨le_refl _, one_pos, one_pos, hv.d, hv.dle⟩

theorem secTube_fits (a : Par) : Tube.Fits ⟨false, .unknown⟩ (secTube a) :=
  ⟨by simp, by simp, by simp, by simp, by simp⟩

theorem n1_of' (hv : a.Valid) (q : V3) : q.x * (of a).wedge.n1x + q.y * (of a).wedge.n1y = S1 (secTube a) q.x q.y := by
  rw [← Tube.n1_of, of_wedge hv]; rfl
theorem n2_of' (hv : a.Valid) (q : V3) : q.x * (of a).wedge.n2x + q.y * (of a).wedge.n2y = S2 (secTube a) q.x q.y := by
  rw [← Tube.n2_of, of_wedge hv]; rfl

theorem phiDist1 (hv : a.Valid) (hd : S1 (secTube a) d.x d.y < 0) :
    phiDist (of a).a1x (of a).a1y p d = planeDist (secTube a) false p d := by
  have e : d.y * cos a.s - d.x * sin a.s = S1 (secTube a) d.x d.y := by simp only [S1, secTube]; ring
  unfold phiDist
  rw [of_a1x hv, of_a1y hv, e, if_pos hd.ne, guard_neg hd]
  simp only [planeDist, SS, Bool.false_eq_true, if_false]
  rw [show S1 (secTube a) d.x d.y - kTiny = -(-S1 (secTube a) d.x d.y + kTiny) by ring, div_neg, ← neg_div]
  congr 1
  simp only [S1, secTube]; ring

theorem phiDist2 (hv : a.Valid) (hd : S2 (secTube a) d.x d.y < 0) :
    phiDist (of a).a2x (of a).a2y p d = planeDist (secTube a) true p d := by
  have e : d.y * cos (a.s + a.d) - d.x * sin (a.s + a.d) = -S2 (secTube a) d.x d.y := by simp only [S2, secTube]; ring
  unfold phiDist
  rw [of_a2x hv, of_a2y hv, e, if_pos (neg_pos.mpr hd).ne', guard_pos (neg_pos.mpr hd).le]
  simp only [planeDist, SS, if_true]
  congr 1
  simp only [S2, secTube]; ring

/-- The test of a plane in front of which the point is: the line crosses it where it bounds the sector. -/
theorem phiOk1 (hv : a.Valid) (positive : Bool) (h0 : 0 ≤ SS (secTube a) false p.x p.y) (h : PlaneOk (secTube a) true false p d) :
    PhiOkOut positive (of a).a1x (of a).a1y (of a).wedge.n1x (of a).wedge.n1y p d ∧
      phiDist (of a).a1x (of a).a1y p d = planeDist (secTube a) false p d := by
  obtain ⟨h1, -, h3⟩ := h
  have e := phiDist1 (p := p) hv h1
  refine ⟨⟨by rw [n1_of' hv]; exact h1, ?_, fun _ => ?_⟩, e⟩
  · rw [e]
    have h4 : 0 ≤ planeDist (secTube a) false p d := div_nonneg h0 (by linarith [kTiny_pos, h1])
    have := kConeTolerance_pos
    linarith
  · rw [e, of_a1x hv, of_a1y hv]
    have := h3 rfl
    simpa only [HH, Bool.false_eq_true, if_false, V3.at_x, V3.at_y, secTube] using this

theorem phiOk2 (hv : a.Valid) (positive : Bool) (h0 : 0 ≤ SS (secTube a) true p.x p.y) (h : PlaneOk (secTube a) true true p d) :
    PhiOkOut positive (of a).a2x (of a).a2y (of a).wedge.n2x (of a).wedge.n2y p d ∧
      phiDist (of a).a2x (of a).a2y p d = planeDist (secTube a) true p d := by
  obtain ⟨h1, -, h3⟩ := h
  have e := phiDist2 (p := p) hv h1
  refine ⟨⟨by rw [n2_of' hv]; exact h1, ?_, fun _ => ?_⟩, e⟩
  · rw [e]
    have h4 : 0 ≤ planeDist (secTube a) true p d := div_nonneg h0 (by linarith [kTiny_pos, h1])
    have := kConeTolerance_pos
    linarith
  · rw [e, of_a2x hv, of_a2y hv]
    have := h3 rfl
    simpa only [HH, if_true, V3.at_x, V3.at_y, secTube] using this

theorem inSector_of (hv : a.Valid) (hf : Fits ty a) (hd : a.d < 2 * π) {x y : ℝ} (h : Sector a.s a.d x y) :
    InSector ty (of a) true x y := by
  have hk := kConeTolerance_pos
  have h' := (sector_iff (secTube_valid hv) x y).mp h
  have e1 : startCheck (of a) x y = S1 (secTube a) x y := by
    unfold startCheck; rw [of_a1x hv, of_a1y hv]; simp only [S1, secTube]
  have e2 : endCheck (of a) x y = S2 (secTube a) x y := by
    unfold endCheck; rw [of_a2x hv, of_a2y hv]; simp only [S2, secTube]
  obtain ⟨-, -, f1, f2, f3, f4⟩ := hf
  have hs : SmallerThanPi ty (of a) ↔ a.d ≤ π := by
    unfold SmallerThanPi
    rcases ty with ⟨b, an⟩
    cases an <;> simp only
    · exact iff_of_false id (by linarith [f1 rfl])
    · exact iff_of_true trivial (f2 rfl).le
    · exact iff_of_true trivial (f3 rfl).le
    · exact iff_of_false id (by linarith [(f4 rfl).1])
    · rw [of_dphi hv]
  have ed : (secTube a).d = a.d := rfl
  unfold InSector
  simp only [if_true]
  rw [hs, e1, e2]
  rcases h' with ⟨h1, h2, h3⟩ | ⟨h1, h2⟩
  · exact .inl ⟨h1, by linarith, by linarith⟩
  · refine .inr ⟨not_le.mpr h1, ?_⟩
    rcases h2 with h2 | h2
    · exact .inl (by linarith)
    · exact .inr (by linarith)

/-! ## What the distance is the least of -/

theorem takeHit_le' (h : Option ℝ) (s : ℝ) : takeHit h s ≤ s := by
  unfold takeHit
  split
  · split <;> linarith
  · exact le_refl _
theorem takeHit_le {h : Option ℝ} {s r : ℝ} (hr : h = some r) : takeHit h s ≤ r := by
  subst hr
  simp only [takeHit]
  split <;> linarith
theorem takeHit_cases (h : Option ℝ) (s : ℝ) : h = some (takeHit h s) ∨ takeHit h s = s := by
  cases h with
  | none => exact .inr rfl
  | some t =>
    simp only [takeHit]
    split
    · exact .inl rfl
    · exact .inr rfl

theorem clip_pos {x : ℝ} (h : 0 < clip x) : clip x = x := by
  unfold clip at *
  split
  · rename_i h'; rw [if_pos h'] at h; exact absurd h (lt_irrefl _)
  · rfl

theorem phiOut_facts (hv : a.Valid) (hf : Fits ty a) {s x : ℝ} (h : phiOut ty (of a) p d s = some x) :
    x ≤ s ∧
    (∀ b, 0 ≤ SS (secTube a) b p.x p.y → PlaneOk (secTube a) true b p d → x ≤ planeDist (secTube a) b p d) ∧
    (x = s ∨ ∃ b, SS (secTube a) b d.x d.y < 0 ∧ x = planeDist (secTube a) b p d) := by
  unfold phiOut at h
  simp only at h
  by_cases hon : ((of a).wedge.IsOnSurface1 p ∧ d.x * -(of a).wedge.n1x + d.y * -(of a).wedge.n1y > 0) ∨
      ((of a).wedge.IsOnSurface2 p ∧ d.x * -(of a).wedge.n2x + d.y * -(of a).wedge.n2y > 0)
  · rw [if_pos hon] at h; cases h
  rw [if_neg hon] at h
  have c1 := takeLess_cases (PhiOkOut (decide (ty.angle ≠ .pi)) (of a).a1x (of a).a1y (of a).wedge.n1x (of a).wedge.n1y p d)
    (phiDist (of a).a1x (of a).a1y p d) s
  have l1 : ∀ (_ : 0 ≤ SS (secTube a) false p.x p.y) (_ : PlaneOk (secTube a) true false p d),
      takeLess (PhiOkOut (decide (ty.angle ≠ .pi)) (of a).a1x (of a).a1y (of a).wedge.n1x (of a).wedge.n1y p d)
        (phiDist (of a).a1x (of a).a1y p d) s ≤ planeDist (secTube a) false p d := by
    intro h0 h1
    obtain ⟨o, e⟩ := phiOk1 hv (decide (ty.angle ≠ .pi)) h0 h1
    rw [← e]; exact takeLess_le o
  have le1 := takeLess_le' (ok := PhiOkOut (decide (ty.angle ≠ .pi)) (of a).a1x (of a).a1y (of a).wedge.n1x (of a).wedge.n1y p d)
    (x := phiDist (of a).a1x (of a).a1y p d) (s := s)
  have ex1 : ∀ q : Bool, PhiOkOut q (of a).a1x (of a).a1y (of a).wedge.n1x (of a).wedge.n1y p d →
      SS (secTube a) false d.x d.y < 0 ∧ phiDist (of a).a1x (of a).a1y p d = planeDist (secTube a) false p d := by
    intro q hq
    have := hq.1
    rw [n1_of' hv] at this
    exact ⟨this, phiDist1 hv this⟩
  have ex2 : ∀ q : Bool, PhiOkOut q (of a).a2x (of a).a2y (of a).wedge.n2x (of a).wedge.n2y p d →
      SS (secTube a) true d.x d.y < 0 ∧ phiDist (of a).a2x (of a).a2y p d = planeDist (secTube a) true p d := by
    intro q hq
    have := hq.1
    rw [n2_of' hv] at this
    exact ⟨this, phiDist2 hv this⟩
  have q1 : takeLess (PhiOkOut (decide (ty.angle ≠ .pi)) (of a).a1x (of a).a1y (of a).wedge.n1x (of a).wedge.n1y p d)
        (phiDist (of a).a1x (of a).a1y p d) s = s ∨ ∃ b, SS (secTube a) b d.x d.y < 0 ∧
      takeLess (PhiOkOut (decide (ty.angle ≠ .pi)) (of a).a1x (of a).a1y (of a).wedge.n1x (of a).wedge.n1y p d)
        (phiDist (of a).a1x (of a).a1y p d) s = planeDist (secTube a) b p d := by
    rcases c1 with ⟨o, e⟩ | e
    · obtain ⟨g1, g2⟩ := ex1 _ o
      exact .inr ⟨false, g1, by rw [e, g2]⟩
    · exact .inl e
  have ok1 := fun o => takeLess_le (ok := PhiOkOut (decide (ty.angle ≠ .pi)) (of a).a1x (of a).a1y (of a).wedge.n1x (of a).wedge.n1y p d)
    (x := phiDist (of a).a1x (of a).a1y p d) (s := s) o
  generalize takeLess (PhiOkOut (decide (ty.angle ≠ .pi)) (of a).a1x (of a).a1y (of a).wedge.n1x (of a).wedge.n1y p d)
        (phiDist (of a).a1x (of a).a1y p d) s = y at *
  by_cases hp : ty.angle = .pi
  · rw [if_neg (by simp [hp])] at h
    obtain rfl : y = x := by simpa using h
    have hdpi : (secTube a).d = π := hf.2.2.2.2.1 hp
    refine ⟨le1, fun b h0 h1 => ?_, q1⟩
    cases b
    · exact l1 h0 h1
    · have e : ∀ u v, SS (secTube a) true u v = SS (secTube a) false u v := fun u v => S2_pi hdpi u v
      have ep : planeDist (secTube a) true p d = planeDist (secTube a) false p d := by unfold planeDist; rw [e, e]
      -- for half circles only one plane is looked at, without asking on which side of the axis it is hit
      rw [ep]
      have hs : SS (secTube a) false d.x d.y < 0 := by rw [← e]; exact h1.1
      have e1 := phiDist1 (p := p) hv hs
      rw [e] at h0
      have ok : PhiOkOut (decide (ty.angle ≠ .pi)) (of a).a1x (of a).a1y (of a).wedge.n1x (of a).wedge.n1y p d := by
        refine ⟨by rw [n1_of' hv]; exact hs, ?_, fun hq => ?_⟩
        · rw [e1]
          have h4 : 0 ≤ planeDist (secTube a) false p d := div_nonneg h0 (by linarith [kTiny_pos])
          linarith [kConeTolerance_pos]
        · simp [hp] at hq
      rw [← e1]
      exact ok1 ok
  · rw [if_pos (by simpa using hp)] at h
    have h' := (Option.some.injEq _ _).mp h
    have c2 := takeLess_cases (PhiOkOut true (of a).a2x (of a).a2y (of a).wedge.n2x (of a).wedge.n2y p d)
      (phiDist (of a).a2x (of a).a2y p d) y
    have le2 := takeLess_le' (ok := PhiOkOut true (of a).a2x (of a).a2y (of a).wedge.n2x (of a).wedge.n2y p d)
      (x := phiDist (of a).a2x (of a).a2y p d) (s := y)
    rw [h'] at c2 le2
    refine ⟨le2.trans le1, fun b h0 h1 => ?_, ?_⟩
    · cases b
      · exact le2.trans (l1 h0 h1)
      · obtain ⟨o, e⟩ := phiOk2 hv true h0 h1
        rw [← e, ← h']; exact takeLess_le o
    · rcases c2 with ⟨o, e⟩ | e
      · obtain ⟨g1, g2⟩ := ex2 _ o
        exact .inr ⟨true, g1, by rw [e, g2]⟩
      · rw [e]; exact q1

open Classical in
/-- What `DistanceToOut` is the least of, when it is positive. -/
theorem out_core (hv : a.Valid) (hf : Fits ty a) (hz : |p.z| ≤ a.z) (hD : 0 < distanceToOut ty (of a) p d) :
    let D := distanceToOut ty (of a) p d
    D ≤ lidOut (of a) p d ∧ (∀ r, hitOut ty (of a) false p d = some r → D ≤ r) ∧
    (a.Hollow → ∀ r, hitOut ty (of a) true p d = some r → D ≤ r) ∧
    (∀ b, 0 ≤ SS (secTube a) b p.x p.y → a.d < 2 * π ∧ PlaneOk (secTube a) true b p d → D ≤ planeDist (secTube a) b p d) ∧
    (D = lidOut (of a) p d ∨ hitOut ty (of a) false p d = some D ∨ (a.Hollow ∧ hitOut ty (of a) true p d = some D) ∨
      (a.d < 2 * π ∧ ∃ b, SS (secTube a) b d.x d.y < 0 ∧ D = planeDist (secTube a) b p d)) := by
  intro D
  have hDdef : D = distanceToOut ty (of a) p d := rfl
  clear_value D
  rw [← hDdef] at hD
  unfold distanceToOut at hDdef
  by_cases h1 : OutsideForOut ty (of a) p
  · rw [if_pos h1] at hDdef; linarith
  rw [if_neg h1] at hDdef
  by_cases h2 : LeavingLid (of a) p d
  · rw [if_pos h2, of_dz hv] at hDdef; linarith
  rw [if_neg h2] at hDdef
  dsimp only at hDdef
  have hR := rminT_iff hv hf
  have hP := phiT_iff hv hf
  -- the walls
  have w1 := takeHit_le' (hitOut ty (of a) false p d) (lidOut (of a) p d)
  have w2 := fun r (h : hitOut ty (of a) false p d = some r) => takeHit_le (s := lidOut (of a) p d) h
  have w3 := takeHit_cases (hitOut ty (of a) false p d) (lidOut (of a) p d)
  generalize takeHit (hitOut ty (of a) false p d) (lidOut (of a) p d) = x1 at *
  obtain ⟨x2, hx2, v1, v2, v3⟩ : ∃ x2, (if RminT ty (of a) then takeHit (hitOut ty (of a) true p d) x1 else x1) = x2 ∧ x2 ≤ x1 ∧
      (a.Hollow → ∀ r, hitOut ty (of a) true p d = some r → x2 ≤ r) ∧
      ((a.Hollow ∧ hitOut ty (of a) true p d = some x2) ∨ x2 = x1) := by
    by_cases hh : a.Hollow
    · refine ⟨_, rfl, ?_, ?_, ?_⟩ <;> rw [if_pos (hR.mpr hh)]
      · exact takeHit_le' _ _
      · exact fun _ r hr => takeHit_le hr
      · rcases takeHit_cases (hitOut ty (of a) true p d) x1 with h | h
        · exact .inl ⟨hh, h⟩
        · exact .inr h
    · exact ⟨x1, by rw [if_neg (fun h => hh (hR.mp h))], le_refl _, fun h => absurd h hh, .inr rfl⟩
  rw [hx2] at hDdef
  have base : x2 = lidOut (of a) p d ∨ hitOut ty (of a) false p d = some x2 ∨ (a.Hollow ∧ hitOut ty (of a) true p d = some x2) := by
    rcases v3 with h | h
    · exact .inr (.inr h)
    · rw [h]
      rcases w3 with g | g
      · exact .inr (.inl g)
      · exact .inl g
  by_cases hd : a.d < 2 * π
  · rw [if_pos (hP.mpr hd)] at hDdef
    cases hph : phiOut ty (of a) p d x2 with
    | none => rw [hph] at hDdef; simp only at hDdef; linarith
    | some x =>
      rw [hph] at hDdef
      simp only at hDdef
      rw [hDdef] at hD
      have hcx := clip_pos hD
      rw [hcx] at hDdef
      subst hDdef
      obtain ⟨g1, g2, g3⟩ := phiOut_facts hv hf hph
      refine ⟨by linarith, fun r hr => by linarith [w2 r hr], fun hh r hr => by linarith [v2 hh r hr], fun b h0 h => g2 b h0 h.2, ?_⟩
      rcases g3 with h | ⟨b, h⟩
      · rw [h]
        rcases base with g | g | g
        exacts [.inl g, .inr (.inl g), .inr (.inr (.inl g))]
      · exact .inr (.inr (.inr ⟨hd, b, h⟩))
  · rw [if_neg (fun h => hd (hP.mp h))] at hDdef
    rw [hDdef] at hD
    have hcx := clip_pos hD
    rw [hcx] at hDdef
    subst hDdef
    refine ⟨by linarith, fun r hr => by linarith [w2 r hr], fun hh r hr => by linarith [v2 hh r hr], fun b _ h => absurd h.1 hd, ?_⟩
    rcases base with g | g | g
    exacts [.inl g, .inr (.inl g), .inr (.inr (.inl g))]

/-! ## The quadratics in terms of the cone -/

/-- The slope of the bore or of the outer wall, as the quadratic has it. -/
noncomputable def slope (a : Par) (inner : Bool) : ℝ :=
  if inner then (a.eff.rmin2 - a.eff.rmin1) / (2 * a.z) else (a.eff.rmax2 - a.eff.rmax1) / (2 * a.z)

/-- Half the rate at which the squared distance from the axis outgrows the squared radius of the wall. -/
noncomputable def drift (a : Par) (inner : Bool) (p d : V3) : ℝ :=
  p.x * d.x + p.y * d.y - wall a inner p.z * (slope a inner * d.z)

/-- Half the rate of that rate: not zero if the line is not parallel to a line on the wall. -/
noncomputable def lead (a : Par) (inner : Bool) (d : V3) : ℝ := d.x ^ 2 + d.y ^ 2 - (slope a inner * d.z) ^ 2

theorem wall_at (hv : a.Valid) (inner : Bool) (t : ℝ) :
    wall a inner (V3.at' p d t).z = wall a inner p.z + t * (slope a inner * d.z) := by
  rw [V3.at_z]
  have hz : 0 < a.z := hv.z
  cases inner
  · have h : ∀ z, wall a false z = line a.eff.rmax1 a.eff.rmax2 a.z z := fun _ => rfl
    simp only [h, slope, Bool.false_eq_true, if_false]
    rw [line_eq _ _ _ _ hz, line_eq _ _ _ _ hz]; ring
  · have h : ∀ z, wall a true z = line a.eff.rmin1 a.eff.rmin2 a.z z := fun _ => rfl
    simp only [h, slope, if_true]
    rw [line_eq _ _ _ _ hz, line_eq _ _ _ _ hz]; ring

theorem quad_coeffs (hv : a.Valid) (ho : a.Ordered) (inner : Bool) :
    qa (of a) inner d = lead a inner d ∧ qb (of a) inner p d = drift a inner p d ∧
    qc (of a) inner p = rad p ^ 2 - wall a inner p.z ^ 2 := by
  have h := fun t => quad_eq (p := p) (d := d) hv ho inner t
  have e : ∀ t, rad (V3.at' p d t) ^ 2 - wall a inner (V3.at' p d t).z ^ 2 =
      lead a inner d * t ^ 2 + 2 * drift a inner p d * t + (rad p ^ 2 - wall a inner p.z ^ 2) := by
    intro t
    rw [wall_at hv, rad_sq, rad_sq, V3.at_x, V3.at_y]
    unfold lead drift; ring
  have h0 := h 0
  have h1 := h 1
  have h2 := h (-1)
  rw [e] at h0 h1 h2
  exact ⟨by linarith, by linarith, by linarith⟩

/-! ## The line stays in the cone -/

theorem lid_stops (hv : a.Valid) (hz : |p.z| ≤ a.z) {t : ℝ} (ht0 : 0 ≤ t) (htD : t ≤ lidOut (of a) p d) :
    |(V3.at' p d t).z| ≤ a.z ∧ (d.z ≠ 0 → ∀ u, 0 < u → u < t → |(V3.at' p d u).z| < a.z) := by
  have he := kTiny_pos
  obtain ⟨z1, z2⟩ := abs_le.mp hz
  unfold lidOut at htD
  rw [of_dz hv] at htD
  simp only [V3.at_z]
  rcases lt_trichotomy d.z 0 with h | h | h
  · rw [if_pos h, guard_neg h, mul_one_div, show d.z - kTiny = -(-d.z + kTiny) by ring, div_neg, ← neg_div,
      le_div_iff₀ (by linarith)] at htD
    have h1 : t * -d.z ≤ a.z + p.z := by nlinarith [mul_nonneg ht0 he.le]
    refine ⟨abs_le.mpr ⟨by linarith, by nlinarith⟩, fun _ u hu0 hut => abs_lt.mpr ⟨by nlinarith, by nlinarith⟩⟩
  · rw [h]
    refine ⟨by simpa using hz, fun h' => absurd rfl h'⟩
  · rw [if_neg (not_lt.mpr h.le), if_pos h, guard_pos h.le, mul_one_div, le_div_iff₀ (by linarith)] at htD
    have h1 : t * d.z ≤ a.z - p.z := by nlinarith [mul_nonneg ht0 he.le]
    refine ⟨abs_le.mpr ⟨by nlinarith, by linarith⟩, fun _ u hu0 hut => abs_lt.mpr ⟨by nlinarith, by nlinarith⟩⟩

theorem hit_outer (hv : a.Valid) (ho : a.Ordered) (hf : Fits ty a)
    (hout : rad p < wall a false p.z ∨ (rad p = wall a false p.z ∧ drift a false p d < 0))
    (htan : OnCone (of a) false p → dirNormal (of a) false p d ≠ 0) {t : ℝ} (ht0 : 0 < t) (hti : t < kInfLength)
    (hs : a.d < 2 * π → ∀ u, 0 < u → u < t → Sector a.s a.d (V3.at' p d u).x (V3.at' p d u).y)
    (hq : wall a false (V3.at' p d t).z ^ 2 < rad (V3.at' p d t) ^ 2) : ∃ r, hitOut ty (of a) false p d = some r ∧ r < t := by
  obtain ⟨ea, eb, ec⟩ := quad_coeffs (p := p) (d := d) hv ho false
  have hc : qc (of a) false p < 0 ∨ (qc (of a) false p ≤ 0 ∧ qb (of a) false p d < 0) := by
    rw [ec, eb]
    have := rad_nonneg p
    rcases hout with h | ⟨h, h'⟩
    · exact .inl (by nlinarith)
    · exact .inr ⟨by rw [h]; linarith, h'⟩
  have hf' : 0 < qa (of a) false d * t ^ 2 + 2 * qb (of a) false p d * t + qc (of a) false p := by
    rw [quad_eq hv ho]; linarith
  obtain ⟨r1, r2, r3⟩ := rootOut_outer hc ht0.le hf'
  unfold hitOut
  rw [if_neg (fun h => htan h.1 (abs_eq_zero.mp h.2))]
  by_cases h2 : OnCone (of a) false p ∧ dirNormal (of a) false p d ≥ 0 ∧ (PhiT ty (of a) → InSector ty (of a) true p.x p.y)
  · exact ⟨0, by rw [if_pos h2], ht0⟩
  rw [if_neg h2]
  simp only
  rw [if_neg r1, if_neg (by simp), if_neg (not_lt.mpr r2.le)]
  refine ⟨_, if_pos ⟨?_, fun hP => ?_⟩, r3⟩
  · simpa using r2
  · have hd := (phiT_iff hv hf).mp hP
    have hr := r3.trans hti
    rw [if_pos hr, if_pos hr]
    have := inSector_of hv hf hd (hs hd _ r2 r3)
    rw [V3.at_x, V3.at_y] at this
    exact ⟨this, hr⟩

theorem hit_inner (hv : a.Valid) (ho : a.Ordered) (hf : Fits ty a) (hw0 : 0 ≤ wall a true p.z)
    (hin : wall a true p.z < rad p ∨ (wall a true p.z = rad p ∧ 0 < drift a true p d))
    (htan : OnCone (of a) true p → dirNormal (of a) true p d ≠ 0) {t : ℝ} (ht0 : 0 < t) (hti : t < kInfLength)
    (hs : a.d < 2 * π → ∀ u, 0 < u → u < t → Sector a.s a.d (V3.at' p d u).x (V3.at' p d u).y)
    (hzz : ∀ u, 0 < u → u < t → |(V3.at' p d u).z| < a.z)
    (hq : rad (V3.at' p d t) ^ 2 < wall a true (V3.at' p d t).z ^ 2) : ∃ r, hitOut ty (of a) true p d = some r ∧ r < t := by
  obtain ⟨ea, eb, ec⟩ := quad_coeffs (p := p) (d := d) hv ho true
  have hc : 0 < qc (of a) true p ∨ (0 ≤ qc (of a) true p ∧ 0 < qb (of a) true p d) := by
    rw [ec, eb]
    rcases hin with h | ⟨h, h'⟩
    · exact .inl (by nlinarith)
    · exact .inr ⟨by rw [h]; linarith, h'⟩
  have hf' : qa (of a) true d * t ^ 2 + 2 * qb (of a) true p d * t + qc (of a) true p < 0 := by
    rw [quad_eq hv ho]; linarith
  obtain ⟨r1, r0, r2, r3⟩ := rootOut_inner hc ht0.le hf'
  unfold hitOut
  rw [if_neg (fun h => htan h.1 (abs_eq_zero.mp h.2))]
  by_cases h2 : OnCone (of a) true p ∧ dirNormal (of a) true p d ≥ 0 ∧ (PhiT ty (of a) → InSector ty (of a) true p.x p.y)
  · exact ⟨0, by rw [if_pos h2], ht0⟩
  rw [if_neg h2]
  simp only
  rw [if_neg r1, if_neg (fun h => r0 h.2), if_neg (not_lt.mpr r2.le)]
  refine ⟨_, if_pos ⟨?_, fun hP => ?_⟩, r3⟩
  · have := hzz _ r2 r3
    rw [V3.at_z] at this
    rw [of_dz hv, mul_comm d.z]
    simpa using this
  · have hd := (phiT_iff hv hf).mp hP
    have hr := r3.trans hti
    rw [if_pos hr, if_pos hr]
    have := inSector_of hv hf hd (hs hd _ r2 r3)
    rw [V3.at_x, V3.at_y] at this
    exact ⟨this, hr⟩

theorem eff_wall_nonneg (hv : a.Valid) (inner : Bool) {z : ℝ} (hz : |z| ≤ a.z) : 0 ≤ wall a inner z := by
  cases inner
  · exact line_nonneg (r1 := a.fix.rmax1) (r2 := effTop a.fix.rmax1 a.fix.rmax2) hv.z (hv.rmin1.trans (fix_lt1 hv).le)
      (effTop_bounds (hv.rmin1.trans (fix_lt1 hv).le) (hv.rmin2.trans (fix_lt2 hv).le)).1 hz
  · exact line_nonneg (r1 := a.rmin1) (r2 := effTop a.rmin1 a.rmin2) hv.z hv.rmin1 (effTop_bounds hv.rmin1 hv.rmin2).1 hz

theorem at_zero' : V3.at' p d 0 = p := by
  have h1 := V3.at_x p d 0
  have h2 := V3.at_y p d 0
  have h3 := V3.at_z p d 0
  generalize V3.at' p d 0 = q at *
  obtain ⟨q1, q2, q3⟩ := q
  obtain ⟨p1, p2, p3⟩ := p
  simp only [zero_mul, add_zero] at h1 h2 h3
  rw [h1, h2, h3]

/-- C146: a line that starts in a cone (not tangentially on a wall, nor in the plane of a lid) is in the cone up to what
`DistanceToOut` returns, the bore up to the guard of a division.  The walls are those the code works with: outer radii that touch
the bore are enlarged by the tolerance, and top radii of walls that close upwards are less by at most the guard.  For sectors the
line has to keep clear of the axis, by the guard. -/
theorem C146_distance_out_partial (hv : a.Valid) (ho : a.Ordered) (hf : Fits ty a) (hz : |p.z| ≤ a.z) (hs : Sector a.s a.d p.x p.y)
    (hout : rad p < a.eff.outer p.z ∨ (rad p = a.eff.outer p.z ∧ drift a false p d < 0))
    (hin : a.Hollow → a.eff.inner p.z < rad p ∨ (a.eff.inner p.z = rad p ∧ 0 < drift a true p d))
    (hlid : d.z ≠ 0 ∨ |p.z| < a.z)
    (htan : ∀ inner : Bool, (inner = true → a.Hollow) → OnCone (of a) inner p → dirNormal (of a) inner p d ≠ 0)
    {t : ℝ} (ht0 : 0 ≤ t) (htD : t ≤ distanceToOut ty (of a) p d) (hti : t < kInfLength)
    (hcl : a.d = 2 * π ∨ ∀ u, 0 ≤ u → u ≤ t → kTiny * u < rad (V3.at' p d u)) :
    |(V3.at' p d t).z| ≤ a.z ∧ rad (V3.at' p d t) ≤ a.fix.outer (V3.at' p d t).z ∧
    (a.Hollow → a.inner (V3.at' p d t).z - kTiny ≤ rad (V3.at' p d t)) ∧ Sector a.s a.d (V3.at' p d t).x (V3.at' p d t).y := by
  have he := kTiny_pos
  -- from the walls that are worked with to those of the cone
  suffices h : |(V3.at' p d t).z| ≤ a.z ∧ rad (V3.at' p d t) ≤ wall a false (V3.at' p d t).z ∧
      (a.Hollow → wall a true (V3.at' p d t).z ≤ rad (V3.at' p d t)) ∧ Sector a.s a.d (V3.at' p d t).x (V3.at' p d t).y by
    obtain ⟨h1, h2, h3, h4⟩ := h
    refine ⟨h1, h2.trans ?_, fun hh => le_trans ?_ (h3 hh), h4⟩
    · exact line_le_line hv.z (le_refl _) (effTop_bounds (hv.rmin1.trans (fix_lt1 hv).le) (hv.rmin2.trans (fix_lt2 hv).le)).2.1 h1
    · have := line_le_line (z := (V3.at' p d t).z) hv.z (show a.rmin1 ≤ a.rmin1 + kTiny by linarith)
        (effTop_bounds hv.rmin1 hv.rmin2).2.2 h1
      rw [line_add, line_const _ _ _ hv.z] at this
      have e : a.inner (V3.at' p d t).z = line a.rmin1 a.rmin2 a.z (V3.at' p d t).z := rfl
      have e' : wall a true (V3.at' p d t).z = line a.rmin1 (effTop a.rmin1 a.rmin2) a.z (V3.at' p d t).z := rfl
      rw [e, e']; linarith
  rcases ht0.lt_or_eq with ht | ht
  swap
  · rw [← ht, at_zero']
    refine ⟨hz, ?_, fun hh => ?_, hs⟩
    · rcases hout with h | h
      exacts [h.le, h.1.le]
    · rcases hin hh with h | h
      exacts [h.le, h.1.le]
  obtain ⟨c1, c2, c3, c4, -⟩ := out_core hv hf hz (ht.trans_le htD)
  generalize distanceToOut ty (of a) p d = D at *
  obtain ⟨l1, l2⟩ := lid_stops hv hz ht0 (htD.trans c1)
  have hsec : ∀ u, 0 ≤ u → u ≤ t → Sector a.s a.d (V3.at' p d u).x (V3.at' p d u).y := by
    intro u hu0 hut
    rcases hcl with h | h
    · exact sector_of_not_lt hv (by linarith) _ _
    · exact out_sector_front (secTube_valid hv) (secTube_fits a) hs c4 hu0 (hut.trans htD)
        (.inr (.inr fun w hw0 hw => h w hw0 (hw.trans hut)))
  have hzz : ∀ u, 0 < u → u < t → |(V3.at' p d u).z| < a.z := by
    rcases eq_or_ne d.z 0 with h | h
    · intro u _ _
      rw [V3.at_z, h, mul_zero, add_zero]
      exact hlid.resolve_left (fun h' => h' h)
    · exact l2 h
  refine ⟨l1, ?_, fun hh => ?_, hsec t ht0 (le_refl _)⟩
  · by_contra hn
    push Not at hn
    obtain ⟨r, h1, h2⟩ := hit_outer hv ho hf hout (htan false (by simp)) ht hti (fun _ u hu hut => hsec u hu.le hut.le)
      (by have := eff_wall_nonneg hv false l1; nlinarith)
    linarith [c2 r h1]
  · by_contra hn
    push Not at hn
    obtain ⟨r, h1, h2⟩ := hit_inner hv ho hf (eff_wall_nonneg hv true hz) (hin hh) (htan true (fun _ => hh)) ht hti
      (fun _ u hu hut => hsec u hu.le hut.le) hzz (by have := rad_nonneg (V3.at' p d t); nlinarith)
    linarith [c3 hh r h1]

/-! ## The distance ends on the surface -/

theorem root_div {a b c r s : ℝ} (ha : a ≠ 0) (hs : s * s = b * b - a * c) (hr : r * nonZero a = -b + s) :
    |a * r ^ 2 + 2 * b * r + c| ≤ kTiny * (r ^ 2 + |c| / |a|) := by
  have he := kTiny_pos
  obtain ⟨k, hk, e, h⟩ : ∃ k : ℝ, |k| = 1 ∧ nonZero a = a + k * kTiny ∧ |a| ≤ |nonZero a| := by
    rcases lt_or_ge a 0 with h | h
    · refine ⟨-1, by simp, by rw [guard_neg h]; ring, ?_⟩
      rw [guard_neg h, abs_of_neg h, abs_of_neg (by linarith)]; linarith
    · refine ⟨1, by simp, by rw [guard_pos h]; ring, ?_⟩
      rw [guard_pos h, abs_of_nonneg h, abs_of_nonneg (by linarith)]; linarith
  have ha0 : 0 < |a| := abs_pos.mpr ha
  have hp : 0 < |nonZero a| := ha0.trans_le h
  generalize nonZero a = A at *
  have h1 : A * (a * r ^ 2 + 2 * b * r + c) = k * kTiny * (c - A * r ^ 2) := by
    have h2 : (A * r + b) * (A * r + b) = b * b - a * c := by
      rw [← hs, show A * r + b = s by linarith]
    have h3 : k * kTiny = A - a := by linarith
    rw [h3]
    linear_combination h2
  have h2 : |A| * |a * r ^ 2 + 2 * b * r + c| ≤ kTiny * (|c| + |A| * r ^ 2) := by
    rw [← abs_mul, h1, abs_mul, abs_mul, hk, one_mul, abs_of_pos he]
    refine mul_le_mul_of_nonneg_left ((abs_sub _ _).trans ?_) he.le
    rw [abs_mul, abs_of_nonneg (sq_nonneg r)]
  have h3 : |c| ≤ |A| * (|c| / |a|) := by
    rw [mul_div_assoc', le_div_iff₀ ha0]
    nlinarith [abs_nonneg c]
  refine le_of_mul_le_mul_left (h2.trans ?_) hp
  nlinarith [mul_le_mul_of_nonneg_left h3 he.le]

theorem root_inv {a b c r s : ℝ} (hb : 0 ≤ b) (hs0 : 0 ≤ s) (hs : s * s = b * b - a * c) (hr0 : 0 ≤ r) (hr : r * (b + s + kTiny) = -c) :
    |a * r ^ 2 + 2 * b * r + c| ≤ kTiny * (2 * r) := by
  have he := kTiny_pos
  have hw : 0 < b + s + kTiny := by linarith
  have h1 : (b + s + kTiny) * (a * r ^ 2 + 2 * b * r + c) = -(r * (kTiny * (2 * s + kTiny))) := by
    have hc : c = -(r * (b + s + kTiny)) := by linarith
    linear_combination (-r) * hs + (b + s + kTiny + a * r) * hr
  have h2 : (b + s + kTiny) * |a * r ^ 2 + 2 * b * r + c| = r * (kTiny * (2 * s + kTiny)) := by
    have h3 : |b + s + kTiny| * |a * r ^ 2 + 2 * b * r + c| = r * (kTiny * (2 * s + kTiny)) := by
      rw [← abs_mul, h1, abs_neg, abs_of_nonneg (by positivity)]
    rwa [abs_of_pos hw] at h3
  refine le_of_mul_le_mul_left (h2.le.trans ?_) hw
  nlinarith [mul_nonneg hr0 he.le, mul_nonneg (mul_nonneg hr0 he.le) hb, mul_nonneg (mul_nonneg hr0 he.le) he.le]

theorem rootOut_exact {a b c : ℝ} (inner : Bool) (ha : a ≠ 0) (hD : ¬ b * b < a * c) (hr : 0 < rootOut inner a b c) :
    |a * rootOut inner a b c ^ 2 + 2 * b * rootOut inner a b c + c| ≤
      kTiny * (rootOut inner a b c ^ 2 + 2 * rootOut inner a b c + |c| / |a|) := by
  have he := kTiny_pos
  have hs := sqrt_nonneg (b * b - a * c)
  have hsq := mul_self_sqrt (show 0 ≤ b * b - a * c by linarith [not_lt.mp hD])
  have hq : 0 ≤ |c| / |a| := by positivity
  have way1 : ∀ {r : ℝ}, 0 < r → |a * r ^ 2 + 2 * b * r + c| ≤ kTiny * (r ^ 2 + |c| / |a|) →
      |a * r ^ 2 + 2 * b * r + c| ≤ kTiny * (r ^ 2 + 2 * r + |c| / |a|) := fun h0 h => h.trans (by nlinarith)
  have way2 : ∀ {r : ℝ}, 0 < r → |a * r ^ 2 + 2 * b * r + c| ≤ kTiny * (2 * r) →
      |a * r ^ 2 + 2 * b * r + c| ≤ kTiny * (r ^ 2 + 2 * r + |c| / |a|) := fun h0 h => h.trans (by nlinarith [sq_nonneg (1 : ℝ), mul_nonneg he.le hq])
  unfold rootOut at *
  simp only at *
  generalize √(b * b - a * c) = s at *
  cases inner
  · simp only [Bool.false_eq_true, if_false] at *
    by_cases hb : b < 0
    · rw [if_pos hb] at *
      exact way1 hr (root_div ha hsq (div_mul_cancel₀ _ (nonZero_ne a)))
    · rw [if_neg hb] at *
      push Not at hb
      refine way2 hr (root_inv hb hs hsq hr.le ?_)
      rcases (show -b - s ≤ 0 by linarith).lt_or_eq with h | h
      · rw [guard_neg h, show b + s + kTiny = -(-b - s - kTiny) by ring, mul_neg, div_mul_cancel₀ _ (by linarith)]
      · exfalso
        rw [h, guard_pos (le_refl 0)] at hr
        have hb0 : b = 0 := by linarith
        have hs0 : s = 0 := by linarith
        rw [hb0, hs0] at hsq
        have : c = 0 := by
          have : a * c = 0 := by linarith
          exact (mul_eq_zero.mp this).resolve_left ha
        rw [this] at hr; simp at hr
  · simp only [if_true] at *
    by_cases hb : b ≥ 0
    · rw [if_pos hb] at *
      refine way1 hr (root_div (s := -s) ha (by rw [neg_mul_neg]; exact hsq) ?_)
      rw [div_mul_cancel₀ _ (nonZero_ne a)]; ring
    · rw [if_neg hb] at *
      push Not at hb
      rw [guard_pos (by linarith)] at *
      have := root_inv (a := -a) (b := -b) (c := -c) (r := c / (-b + s + kTiny)) (s := s) (by linarith) hs (by rw [hsq]; ring) hr.le
        (by rw [div_mul_cancel₀ _ (by linarith : -b + s + kTiny ≠ 0)]; ring)
      rw [show -a * (c / (-b + s + kTiny)) ^ 2 + 2 * -b * (c / (-b + s + kTiny)) + -c =
        -(a * (c / (-b + s + kTiny)) ^ 2 + 2 * b * (c / (-b + s + kTiny)) + c) by ring, abs_neg] at this
      exact way2 hr this

theorem hitOut_root {inner : Bool} {c : Struct} {r : ℝ} (h : hitOut ty c inner p d = some r) (hr : 0 < r) :
    r = rootOut inner (qa c inner d) (qb c inner p d) (qc c inner p) ∧ ¬ qb c inner p d * qb c inner p d < qa c inner d * qc c inner p := by
  unfold hitOut at h
  split at h
  · cases h
  split at h
  · have := (Option.some.injEq _ _).mp h; linarith
  simp only at h
  split at h
  · cases h
  rename_i hD
  split at h
  · cases h
  split at h
  · cases h
  generalize rootOut inner (qa c inner d) (qb c inner p d) (qc c inner p) = x at *
  by_cases hx : (if inner = true then |p.z + d.z * x| < c.dz else x > 0) ∧ (PhiT ty c → InSector ty c true
      (if x < kInfLength then p.x + x * d.x else 0) (if x < kInfLength then p.y + x * d.y else 0) ∧ x < kInfLength)
  · rw [if_pos hx] at h; exact ⟨((Option.some.injEq _ _).mp h).symm, hD⟩
  · rw [if_neg hx] at h; cases h

/-- C146: where `DistanceToOut` is positive and finite, the line has come to a lid, to the outer wall, to the bore or to a phi plane
there, up to the guards of the divisions (for walls: unless the line is parallel to a line on the wall). -/
theorem C146_distance_out_exact (hv : a.Valid) (ho : a.Ordered) (hf : Fits ty a) (hz : |p.z| ≤ a.z)
    (h0 : 0 < distanceToOut ty (of a) p d) (h1 : distanceToOut ty (of a) p d ≠ kInfLength) :
    let D := distanceToOut ty (of a) p d
    (d.z ≠ 0 ∧ sign d.z * (V3.at' p d D).z = a.z - kTiny * D) ∨
    (lead a false d ≠ 0 → |rad (V3.at' p d D) ^ 2 - a.eff.outer (V3.at' p d D).z ^ 2| ≤
      kTiny * (D ^ 2 + 2 * D + |rad p ^ 2 - a.eff.outer p.z ^ 2| / |lead a false d|)) ∨
    (a.Hollow ∧ (lead a true d ≠ 0 → |rad (V3.at' p d D) ^ 2 - a.eff.inner (V3.at' p d D).z ^ 2| ≤
      kTiny * (D ^ 2 + 2 * D + |rad p ^ 2 - a.eff.inner p.z ^ 2| / |lead a true d|))) ∨
    (a.d < 2 * π ∧
      ((-(V3.at' p d D).x * sin a.s + (V3.at' p d D).y * cos a.s = kTiny * D ∧ -d.x * sin a.s + d.y * cos a.s < 0) ∨
       (-cos (a.s + a.d) * (V3.at' p d D).y + sin (a.s + a.d) * (V3.at' p d D).x = kTiny * D ∧
        -cos (a.s + a.d) * d.y + sin (a.s + a.d) * d.x < 0))) := by
  have he := kTiny_pos
  obtain ⟨-, -, -, -, c⟩ := out_core (d := d) hv hf hz h0
  intro D
  change D = _ ∨ hitOut ty (of a) false p d = some D ∨ _ at c
  have hw : ∀ inner : Bool, hitOut ty (of a) inner p d = some D → lead a inner d ≠ 0 →
      |rad (V3.at' p d D) ^ 2 - wall a inner (V3.at' p d D).z ^ 2| ≤
      kTiny * (D ^ 2 + 2 * D + |rad p ^ 2 - wall a inner p.z ^ 2| / |lead a inner d|) := by
    intro inner h hl
    obtain ⟨g1, g2⟩ := hitOut_root h h0
    obtain ⟨ea, eb, ec⟩ := quad_coeffs (p := p) (d := d) hv ho inner
    have := rootOut_exact inner (by rw [ea]; exact hl) g2 (by rw [← g1]; exact h0)
    rw [← g1, quad_eq hv ho inner D, ea, ec] at this
    exact this
  rcases c with h | h | ⟨hh, h⟩ | ⟨hd, b, hb, h⟩
  · refine .inl ?_
    unfold lidOut at h
    rw [of_dz hv] at h
    rw [V3.at_z]
    rcases lt_trichotomy d.z 0 with hz' | hz' | hz'
    · refine ⟨hz'.ne, ?_⟩
      rw [if_pos hz', guard_neg hz', mul_one_div, eq_div_iff (by linarith)] at h
      have : sign d.z = -1 := by unfold sign; rw [if_pos hz']
      rw [this]; linarith
    · rw [hz'] at h; simp at h; exact absurd h h1
    · refine ⟨hz'.ne', ?_⟩
      rw [if_neg (not_lt.mpr hz'.le), if_pos hz', guard_pos hz'.le, mul_one_div, eq_div_iff (by linarith)] at h
      have : sign d.z = 1 := by unfold sign; rw [if_neg (not_lt.mpr hz'.le)]
      rw [this]; linarith
  · exact .inr (.inl (hw false h))
  · exact .inr (.inr (.inl ⟨hh, hw true h⟩))
  · refine .inr (.inr (.inr ⟨hd, ?_⟩))
    have := planeDist_spec (a := secTube a) (p := p) b hb
    rw [← h] at this
    cases b
    · exact .inl ⟨this, hb⟩
    · exact .inr ⟨this, hb⟩

theorem frustum_ordered : frustum.Ordered := by
  refine .inr ?_
  have : |frustum.rmax1 - frustum.rmax2| = 1 := by norm_num [frustum]
  rw [this]
  norm_num [kConeTolerance]

theorem frustum_fix : frustum.fix = frustum := fix_of_ne (by norm_num [frustum]) (by norm_num [frustum])
theorem frustum_not_hollow : ¬ frustum.Hollow := by simp [Par.Hollow, frustum]
theorem frustum_full : ¬ frustum.d < 2 * π := by simp [frustum]

theorem frustum_wall (z : ℝ) : wall frustum false z = 3 / 2 + z / 2 := by
  have h : wall frustum false z = line frustum.fix.rmax1 (effTop frustum.fix.rmax1 frustum.fix.rmax2) frustum.z z := rfl
  rw [h, frustum_fix]
  simp only [frustum]
  unfold effTop line
  rw [if_neg (by norm_num)]
  ring

theorem frustum_slope : slope frustum false = 1 / 2 := by
  have h1 := wall_at (p := ⟨0, 0, 0⟩) (d := ⟨0, 0, 1⟩) frustum_valid false 1
  rw [frustum_wall, frustum_wall, V3.at_z] at h1
  simp only at h1
  linarith

/-- From the middle of the frustum upwards it is one unit to the lid, up to the guard. -/
theorem frustum_up : distanceToOut universal (of frustum) ⟨0, 0, 0⟩ ⟨0, 0, 1⟩ = 1 / (1 + kTiny) ∧
    ∀ inner : Bool, (inner = true → frustum.Hollow) → ¬ OnCone (of frustum) inner ⟨0, 0, 0⟩ := by
  have hv := frustum_valid
  have hf := fits_universal frustum
  have hk := kConeTolerance_pos
  have he := kTiny_pos
  have ho : frustum.fix.outer 0 = 3 / 2 := by rw [frustum_fix]; norm_num [Par.outer, line, frustum]
  have hro : outerRad (of frustum) 0 = 3 / 2 := by rw [outerRad_of hv, ho]
  have hz1 : frustum.z = 1 := rfl
  have hsl : (of frustum).outerTol ≤ 1 / 10 ^ 6 := by
    rw [outerTol_eq hv, frustum_fix]
    have h1 : √(1 + ((frustum.rmax2 - frustum.rmax1) / (2 * frustum.z)) ^ 2) ≤ 2 := by
      rw [sqrt_le_left (by norm_num)]; norm_num [frustum]
    calc _ ≤ kConeTolerance * 2 := mul_le_mul_of_nonneg_left h1 hk.le
      _ ≤ _ := by norm_num [kConeTolerance]
  have htol : 0 < (of frustum).outerTol := by rw [outerTol_eq hv]; exact tol_pos _
  have hnon : ∀ inner : Bool, (inner = true → frustum.Hollow) → ¬ OnCone (of frustum) inner ⟨0, 0, 0⟩ := by
    intro inner hi h
    cases inner
    · have h1 := h.1
      simp only [Bool.false_eq_true, if_false, hro, perp2] at h1
      linarith
    · exact frustum_not_hollow (hi rfl)
  refine ⟨?_, hnon⟩
  have hno := hnon false (by simp)
  unfold distanceToOut
  rw [if_neg, if_neg]
  · simp only
    rw [if_neg (fun h => frustum_not_hollow ((rminT_iff hv hf).mp h)), if_neg (fun h => frustum_full ((phiT_iff hv hf).mp h))]
    have h1 : hitOut universal (of frustum) false ⟨0, 0, 0⟩ ⟨0, 0, 1⟩ = none := by
      unfold hitOut
      rw [if_neg (fun h => hno h.1), if_neg (fun h => hno h.1)]
      simp only
      split
      · rfl
      split
      · rfl
      rw [if_pos]
      obtain ⟨ea, eb, ec⟩ := quad_coeffs (p := ⟨0, 0, 0⟩) (d := ⟨0, 0, 1⟩) hv frustum_ordered false
      have h1 : qa (of frustum) false ⟨0, 0, 1⟩ < 0 := by rw [ea]; unfold lead; rw [frustum_slope]; norm_num
      have h2 : qb (of frustum) false ⟨0, 0, 0⟩ ⟨0, 0, 1⟩ < 0 := by
        rw [eb]; unfold drift; rw [frustum_slope, frustum_wall]; norm_num
      unfold rootOut
      simp only [Bool.false_eq_true, if_false]
      rw [if_pos h2, guard_neg h1]
      refine div_neg_of_pos_of_neg ?_ (by linarith)
      have := sqrt_nonneg (qb (of frustum) false ⟨0, 0, 0⟩ ⟨0, 0, 1⟩ * qb (of frustum) false ⟨0, 0, 0⟩ ⟨0, 0, 1⟩ -
        qa (of frustum) false ⟨0, 0, 1⟩ * qc (of frustum) false ⟨0, 0, 0⟩)
      linarith
    have h2 : lidOut (of frustum) ⟨0, 0, 0⟩ ⟨0, 0, 1⟩ = 1 / (1 + kTiny) := by
      unfold lidOut
      rw [if_neg (by norm_num), if_pos (by norm_num), of_dz hv, hz1, guard_pos (by norm_num)]
      simp
    rw [h1, h2]
    change clip (1 / (1 + kTiny)) = _
    unfold clip
    exact if_neg (fun h => absurd h.1 (not_lt.mpr (by positivity)))
  · simp [LeavingLid]
  · rintro (h | h | h)
    · rw [of_dz hv, hz1] at h; norm_num at h; linarith
    · simp only [hro, plusSq, perp2] at h
      nlinarith
    · exact frustum_not_hollow ((rminT_iff hv hf).mp h.1)

example : ∃ t > 0, |(V3.at' ⟨0, 0, 0⟩ ⟨0, 0, 1⟩ t).z| ≤ frustum.z ∧
    rad (V3.at' ⟨0, 0, 0⟩ ⟨0, 0, 1⟩ t) ≤ frustum.fix.outer (V3.at' ⟨0, 0, 0⟩ ⟨0, 0, 1⟩ t).z := by
  obtain ⟨h1, h2⟩ := frustum_up
  have he := kTiny_pos
  have hk := kInfLength_large
  have hr : rad ⟨0, 0, 0⟩ = 0 := by unfold rad; simp
  have := C146_distance_out_partial (ty := universal) (p := ⟨0, 0, 0⟩) (d := ⟨0, 0, 1⟩) (t := 1 / 2) frustum_valid frustum_ordered
    (fits_universal frustum) (by norm_num [frustum]) (sector_of_not_lt frustum_valid frustum_full _ _)
    (.inl (by rw [hr]; change 0 < wall frustum false 0; rw [frustum_wall]; norm_num)) (fun h => absurd h frustum_not_hollow)
    (.inl (by norm_num)) (fun i hi h => absurd h (h2 i hi)) (by norm_num)
    (by
      rw [h1, le_div_iff₀ (by linarith)]
      have : kTiny ≤ 1 := by norm_num [kTiny]
      linarith)
    (by linarith) (.inl rfl)
  exact ⟨1 / 2, by norm_num, this.1, this.2.1⟩

example : 0 < distanceToOut universal (of frustum) ⟨0, 0, 0⟩ ⟨0, 0, 1⟩ ∧
    distanceToOut universal (of frustum) ⟨0, 0, 0⟩ ⟨0, 0, 1⟩ ≠ kInfLength ∧ lead frustum false ⟨0, 0, 1⟩ ≠ 0 := by
  have he := kTiny_pos
  refine ⟨by rw [frustum_up.1]; positivity, ?_, by unfold lead; rw [frustum_slope]; norm_num⟩
  rw [frustum_up.1]
  refine ne_of_lt (lt_of_le_of_lt ((div_le_one (by linarith)).mpr (by linarith)) ?_)
  linarith [kInfLength_large]

/-- C146: on the outer wall, moving along a tangent, `DistanceToOut` is infinite although the line leaves at once. -/
theorem C146_tangent_counterexample :
    frustum.Closed ⟨3 / 2, 0, 0⟩ ∧ distanceToOut universal (of frustum) ⟨3 / 2, 0, 0⟩ ⟨0, 1, 0⟩ = kInfLength ∧
    ∀ t > 0, ¬ frustum.Closed (V3.at' ⟨3 / 2, 0, 0⟩ ⟨0, 1, 0⟩ t) := by
  have hv := frustum_valid
  have hf := fits_universal frustum
  have hk := kConeTolerance_pos
  have ho : frustum.outer 0 = 3 / 2 := by norm_num [Par.outer, line, frustum]
  have hi : frustum.inner 0 = 0 := by norm_num [Par.inner, line, frustum]
  have hfix : frustum.fix = frustum := fix_of_ne (by norm_num [frustum]) (by norm_num [frustum])
  have hrad : rad ⟨3 / 2, 0, 0⟩ = 3 / 2 := by
    unfold rad
    rw [show ((3 / 2 : ℝ) ^ 2 + 0 ^ 2) = (3 / 2) ^ 2 by ring, sqrt_sq (by norm_num)]
  have hnh : ¬ frustum.Hollow := by simp [Par.Hollow, frustum]
  have hnd : ¬ frustum.d < 2 * π := by simp [frustum]
  have hro : outerRad (of frustum) 0 = 3 / 2 := by rw [outerRad_of hv, hfix, ho]
  have htol : 0 < (of frustum).outerTol := by rw [outerTol_eq hv]; exact tol_pos _
  have hz1 : frustum.z = 1 := rfl
  refine ⟨⟨by norm_num [frustum], ?_, ?_, ?_⟩, ?_, ?_⟩
  · rw [hrad]; change frustum.inner 0 ≤ _; rw [hi]; norm_num
  · rw [hrad]; change _ ≤ frustum.outer 0; rw [ho]
  · exact sector_of_not_lt hv hnd _ _
  · have hon : OnCone (of frustum) false ⟨3 / 2, 0, 0⟩ := by
      unfold OnCone
      simp only [Bool.false_eq_true, if_false, hro, of_dz hv, perp2, hz1]
      refine ⟨by linarith, by linarith, ?_⟩
      rw [abs_zero]; linarith
    have hdn : |dirNormal (of frustum) false ⟨3 / 2, 0, 0⟩ ⟨0, 1, 0⟩| = 0 := by
      unfold dirNormal
      simp
    unfold distanceToOut
    rw [if_neg, if_neg]
    · simp only
      rw [if_neg (fun h => hnh ((rminT_iff hv hf).mp h)), if_neg (fun h => hnd ((phiT_iff hv hf).mp h))]
      have h1 : hitOut universal (of frustum) false ⟨3 / 2, 0, 0⟩ ⟨0, 1, 0⟩ = none := by
        unfold hitOut
        rw [if_pos ⟨hon, hdn⟩]
      have h2 : lidOut (of frustum) ⟨3 / 2, 0, 0⟩ ⟨0, 1, 0⟩ = kInfLength := by simp [lidOut]
      rw [h1, h2]
      have := kInfLength_pos
      change clip kInfLength = kInfLength
      unfold clip
      exact if_neg (fun h => absurd h.1 (not_lt.mpr this.le))
    · simp [LeavingLid]
    · rintro (h | h | h)
      · rw [of_dz hv, hz1] at h; norm_num at h; linarith
      · simp only [hro, plusSq, perp2] at h
        nlinarith
      · exact hnh ((rminT_iff hv hf).mp h.1)
  · intro t ht h
    have h2 := h.hi
    rw [V3.at_z] at h2
    simp only [mul_zero, add_zero] at h2
    rw [ho] at h2
    have h3 := rad_sq (V3.at' ⟨3 / 2, 0, 0⟩ ⟨0, 1, 0⟩ t)
    rw [V3.at_x, V3.at_y] at h3
    simp only at h3
    nlinarith [rad_nonneg (V3.at' ⟨3 / 2, 0, 0⟩ ⟨0, 1, 0⟩ t)]

end Cone
end VecGeom

import Verif.Trd.DistFound

/-!
# C69: distances of the trapezoid with rectangular bases
-/

namespace VecGeom
namespace Trd

section
variable {k : Kind} {s : State} (hs : Reachable k s) (hf : Fits k s) (hp : Proper (shape s))
include hs hf hp

/-! ## The conditions in terms of heights -/

theorem inx_iff (p : V3) : (s.halfX1plusX2 - s.fx * p.z - |p.x|) * s.calfX > 0 + kHalfTolerance ↔
    hX (shape s) p < -kHalfTolerance := by
  have hz : 0 < s.dz := hp.2.2.2.2
  have e : (s.halfX1plusX2 - s.fx * p.z - |p.x|) * s.calfX = -hX (shape s) p := by
    rw [c_wx hs.cached hz, c_calfX hs.cached]; unfold hX; ring
  rw [e]; constructor <;> intro <;> linarith

theorem iny_iff (p : V3) :
    (if checkVaryingY k s then (s.halfY1plusY2 - s.fy * p.z - |p.y|) * s.calfY > 0 + kHalfTolerance
      else |p.y| - s.dy1 < 0 - kHalfTolerance) ↔ hY (shape s) p < -kHalfTolerance := by
  have hz : 0 < s.dz := hp.2.2.2.2
  split
  · have e : (s.halfY1plusY2 - s.fy * p.z - |p.y|) * s.calfY = -hY (shape s) p := by
      rw [c_wy hs.cached hz, c_calfY hs.cached]; unfold hY; ring
    rw [e]; constructor <;> intro <;> linarith
  · rename_i hv
    rw [hY_const (varying_false hf (by simpa using hv)), zero_sub]

omit hs hf hp in
theorem inz_iff (p : V3) : |p.z| < s.dz - kHalfTolerance ↔ hZ (shape s) p < -kHalfTolerance := by
  have e : (shape s).z = s.dz := rfl
  unfold hZ; rw [e]; constructor <;> intro <;> linarith

/-- `DistanceToIn`, case by case: a hit, or none of the tests succeeds. -/
theorem in_cases (hk : kHalfTolerance ≤ s.dz) (p d : V3) :
    ((∀ f, height (shape s) p f < -kHalfTolerance) ∧ distanceToIn k s p d = -1) ∨
    (∃ u, distanceToIn k s p d = snap u ∧ HitIn (shape s) p d u ∧
      (-kHalfTolerance < u ∨ u = (|p.z| - s.dz) / |d.z| ∧ s.dz - kHalfTolerance ≤ |p.z|)) ∨
    (distanceToIn k s p d = kInfLength ∧ baseHitIn s (|p.z| < s.dz - kHalfTolerance) p d = none ∧
      (¬ hX (shape s) p < -kHalfTolerance → ∀ m, faceHit s false m true p d = none) ∧
      (¬ hY (shape s) p < -kHalfTolerance →
        (checkVaryingY k s = true → ∀ m, faceHit s true m true p d = none) ∧
        (checkVaryingY k s = false → sideHitIn s p d = none))) := by
  have hc := hs.cached
  unfold distanceToIn
  dsimp only
  rw [all_lt]
  have ex := inx_iff hs hf hp p
  have ey := iny_iff hs hf hp p
  have ez := inz_iff (s := s) p
  by_cases hin : hX (shape s) p < -kHalfTolerance ∧ hY (shape s) p < -kHalfTolerance ∧ hZ (shape s) p < -kHalfTolerance
  · left
    refine ⟨hin, ?_⟩
    rw [if_pos ⟨ex.mpr hin.1, ey.mpr hin.2.1, ez.mpr hin.2.2⟩]
    exact snap_neg_one
  · right
    rw [if_neg (fun h => hin ⟨ex.mp h.1, ey.mp h.2.1, ez.mp h.2.2⟩)]
    have W : ∀ {forY m : Bool} {t : ℝ}, faceHit s forY m true p d = some t →
        ∃ u, snap t = snap u ∧ HitIn (shape s) p d u ∧
          (-kHalfTolerance < u ∨ u = (|p.z| - s.dz) / |d.z| ∧ s.dz - kHalfTolerance ≤ |p.z|) := by
      intro forY m t h
      obtain ⟨u, rfl, h1, h2⟩ := faceHit_in hc hp h
      exact ⟨u, snap_snap u, h2, Or.inl h1⟩
    cases hb : baseHitIn s (|p.z| < s.dz - kHalfTolerance) p d with
    | some t =>
      dsimp only
      obtain ⟨h1, h2, h3⟩ := baseHitIn_hit hc hp hk hb
      exact Or.inl ⟨t, rfl, h3, Or.inr ⟨h1, h2⟩⟩
    | none =>
      dsimp only
      -- the tests of the `x` faces
      obtain ⟨o1, ho1⟩ : ∃ o, o = (if (s.halfX1plusX2 - s.fx * p.z - |p.x|) * s.calfX > 0 + kHalfTolerance then none
        else faceHit s false false true p d) := ⟨_, rfl⟩
      obtain ⟨o2, ho2⟩ : ∃ o, o = (if (s.halfX1plusX2 - s.fx * p.z - |p.x|) * s.calfX > 0 + kHalfTolerance then none
        else faceHit s false true true p d) := ⟨_, rfl⟩
      have S1 : ∀ t, o1 = some t → faceHit s false false true p d = some t := by
        intro t h; rw [ho1, Option.ite_none_left_eq_some] at h; exact h.2
      have S2 : ∀ t, o2 = some t → faceHit s false true true p d = some t := by
        intro t h; rw [ho2, Option.ite_none_left_eq_some] at h; exact h.2
      have N1 : o1 = none → ¬ hX (shape s) p < -kHalfTolerance → faceHit s false false true p d = none := by
        intro h hn; rwa [ho1, if_neg (fun hh => hn (ex.mp hh))] at h
      have N2 : o2 = none → ¬ hX (shape s) p < -kHalfTolerance → faceHit s false true true p d = none := by
        intro h hn; rwa [ho2, if_neg (fun hh => hn (ex.mp hh))] at h
      rw [← ho1, ← ho2]
      cases h2 : o2 with
      | some t =>
        rw [if_pos (by rfl)]
        exact Or.inl (W (S2 t h2))
      | none =>
        rw [if_neg (by simp)]
        -- what the `x` faces leave
        have X : ∀ {Q : Prop}, (∀ r, (r = kInfLength ∧ o1 = none ∨ ∃ u, snap r = snap u ∧ HitIn (shape s) p d u ∧
            (-kHalfTolerance < u ∨ u = (|p.z| - s.dz) / |d.z| ∧ s.dz - kHalfTolerance ≤ |p.z|)) →
            assign (assign kInfLength o1) none = r → Q) → Q := by
          intro Q H
          cases h1 : o1 with
          | none => exact H kInfLength (Or.inl ⟨rfl, h1⟩) (by rw [h1]; rfl)
          | some t => exact H t (Or.inr (W (S1 t h1))) (by rw [h1]; rfl)
        refine X fun r hr er => ?_
        rw [er]
        have NX : o1 = none → ¬ hX (shape s) p < -kHalfTolerance → ∀ m, faceHit s false m true p d = none := by
          intro h1 hn m
          cases m
          · exact N1 h1 hn
          · exact N2 h2 hn
        have ey' := ey
        by_cases hv : checkVaryingY k s = true
        · rw [if_pos hv] at ey'
          simp only [hv, if_true]
          obtain ⟨o3, ho3⟩ : ∃ o, o = (if (s.halfY1plusY2 - s.fy * p.z - |p.y|) * s.calfY > 0 + kHalfTolerance then none
            else faceHit s true false true p d) := ⟨_, rfl⟩
          obtain ⟨o4, ho4⟩ : ∃ o, o = (if (s.halfY1plusY2 - s.fy * p.z - |p.y|) * s.calfY > 0 + kHalfTolerance then none
            else faceHit s true true true p d) := ⟨_, rfl⟩
          have S3 : ∀ t, o3 = some t → faceHit s true false true p d = some t := by
            intro t h; rw [ho3, Option.ite_none_left_eq_some] at h; exact h.2
          have S4 : ∀ t, o4 = some t → faceHit s true true true p d = some t := by
            intro t h; rw [ho4, Option.ite_none_left_eq_some] at h; exact h.2
          have N3 : o3 = none → ¬ hY (shape s) p < -kHalfTolerance → faceHit s true false true p d = none := by
            intro h hn; rwa [ho3, if_neg (fun hh => hn (ey'.mp hh))] at h
          have N4 : o4 = none → ¬ hY (shape s) p < -kHalfTolerance → faceHit s true true true p d = none := by
            intro h hn; rwa [ho4, if_neg (fun hh => hn (ey'.mp hh))] at h
          rw [← ho3, ← ho4]
          cases h4 : o4 with
          | some t => exact Or.inl (W (S4 t h4))
          | none =>
            cases h3 : o3 with
            | some t => exact Or.inl (W (S3 t h3))
            | none =>
              rcases hr with ⟨rfl, h1⟩ | hr
              · refine Or.inr ⟨snap_inf, trivial, NX h1, fun hn => ⟨fun _ m => ?_, fun hh => by simp at hh⟩⟩
                cases m
                · exact N3 h3 hn
                · exact N4 h4 hn
              · exact Or.inl hr
        · rw [if_neg hv] at ey'
          simp only [hv, Bool.false_eq_true, if_false]
          have hy := varying_false hf (by simpa using hv)
          obtain ⟨o3, ho3⟩ : ∃ o, o = (if |p.y| - s.dy1 < 0 - kHalfTolerance then none
            else sideHitIn s p d) := ⟨_, rfl⟩
          have S3 : ∀ t, o3 = some t → sideHitIn s p d = some t := by
            intro t h; rw [ho3, Option.ite_none_left_eq_some] at h; exact h.2
          have N3 : o3 = none → ¬ hY (shape s) p < -kHalfTolerance → sideHitIn s p d = none := by
            intro h hn; rwa [ho3, if_neg (fun hh => hn (ey'.mp hh))] at h
          rw [← ho3]
          cases h3 : o3 with
          | some t =>
            obtain ⟨a, b⟩ := sideHitIn_hit hc hp hy (S3 t h3)
            exact Or.inl ⟨t, rfl, b, Or.inl a⟩
          | none =>
            rcases hr with ⟨rfl, h1⟩ | hr
            · exact Or.inr ⟨snap_inf, trivial, NX h1, fun hn => ⟨fun hh => by simp at hh, fun _ => N3 h3 hn⟩⟩
            · exact Or.inl hr

/-! ## Distance to the solid -/

/-- C69: `DistanceToIn` is -1 for points whose ball of radius half the tolerance is in the interior. -/
theorem C69_in_inside (hk : kHalfTolerance ≤ s.dz) (p d : V3) (h : Deep (shape s) kHalfTolerance p) :
    distanceToIn k s p d = -1 := by
  rw [deep_heights (S := shape s) hp.2.2.2.2 kHalfTolerance_pos.le] at h
  have h' := (all_lt _ _ _).mp h
  unfold distanceToIn
  dsimp only
  rw [if_pos ⟨(inx_iff hs hf hp p).mpr h'.1, (iny_iff hs hf hp p).mpr h'.2.1, (inz_iff p).mpr h'.2.2⟩]
  exact snap_neg_one

/-- C69: for other points a finite distance leads, up to the tolerance, to a point on the plane of a face that the ray
crosses inwards, and above no plane of another face. -/
theorem C69_in_hit (hk : kHalfTolerance ≤ s.dz) (p d : V3) (h : ¬ Deep (shape s) kHalfTolerance p)
    (hfin : distanceToIn k s p d ≠ kInfLength) :
    ∃ u, |distanceToIn k s p d - u| < kHalfTolerance ∧ HitIn (shape s) p d u := by
  rw [deep_heights (S := shape s) hp.2.2.2.2 kHalfTolerance_pos.le] at h
  rcases in_cases hs hf hp hk p d with ⟨h1, -⟩ | ⟨u, h1, h2, -⟩ | ⟨h1, -⟩
  · exact absurd h1 h
  · refine ⟨u, ?_, h2⟩
    rw [h1]
    rcases snap_cases u with h3 | ⟨h3, h4⟩
    · rw [h3, sub_self, abs_zero]; exact kHalfTolerance_pos
    · rw [h3, zero_sub, abs_neg]; exact h4
  · exact absurd h1 hfin

/-- C69: before a finite distance the ray meets no point of the solid. -/
theorem C69_in_before (hk : kHalfTolerance ≤ s.dz) (p d : V3) (hfin : distanceToIn k s p d ≠ kInfLength) (v : ℝ)
    (hv0 : 0 ≤ v) (hv : v < distanceToIn k s p d) : ¬ Closed (shape s) (V3.at' p d v) := by
  have hz : 0 < s.dz := hp.2.2.2.2
  rcases in_cases hs hf hp hk p d with ⟨-, h1⟩ | ⟨u, h1, ⟨f, g1, g2, -, -⟩, -⟩ | ⟨h1, -⟩
  · rw [h1] at hv; exfalso; linarith
  · rcases snap_cases u with h3 | ⟨h3, -⟩
    · rw [h1, h3] at hv
      intro hcl
      have := (closed_heights _).mp hcl f
      have g2 := g2 (by linarith)
      rw [height_at (S := shape s) hz] at this g2
      nlinarith
    · rw [h1, h3] at hv; exfalso; linarith
  · exact absurd h1 hfin

/-- C69: a ray that meets a face from outside, clear of its edges, gets a distance to a hit. -/
theorem C69_in_found (hk : kHalfTolerance ≤ s.dz) (p d : V3) (hd : d.mag2 = 1) {u δ : ℝ} {f : Side}
    (h : Clear (shape s) p d u δ f) (hdir : slope (shape s) d f < 0) :
    ∃ v, distanceToIn k s p d = snap v ∧ HitIn (shape s) p d v := by
  have hz : 0 < s.dz := hp.2.2.2.2
  have hc := hs.cached
  have hkp := kHalfTolerance_pos
  have hf0 : 0 ≤ height (shape s) p f := by
    have := h.2.1
    rw [height_at (S := shape s) hz] at this
    nlinarith [h.1]
  have nx : f = .xp ∨ f = .xm → ¬ hX (shape s) p < -kHalfTolerance := by
    rintro hh hn
    rw [hX_max, max_lt_iff] at hn
    rcases hh with rfl | rfl <;> linarith [hn.1, hn.2]
  have ny : f = .yp ∨ f = .ym → ¬ hY (shape s) p < -kHalfTolerance := by
    rintro hh hn
    rw [hY_max, max_lt_iff] at hn
    rcases hh with rfl | rfl <;> linarith [hn.1, hn.2]
  rcases in_cases hs hf hp hk p d with ⟨h1, -⟩ | ⟨v, h1, h2, -⟩ | ⟨-, h2, h3, h4⟩
  · linarith [h1 f]
  · exact ⟨v, h1, h2⟩
  · exfalso
    have sideY : f = .yp ∨ f = .ym → checkVaryingY k s = false → False := by
      intro hh hv
      have hy := varying_false hf hv
      have hpos : 0 < s.dy1 := by
        -- the other face is clear, so the half length is positive
        have h5 := h.2.1
        have h7 := h.2.2.1
        rcases hh with rfl | rfl
        · have h6 := h.2.2.2.1 .ym (by simp)
          rw [(heights_yconst hy _).2] at h6
          rw [(heights_yconst hy _).1] at h5
          linarith
        · have h6 := h.2.2.2.1 .yp (by simp)
          rw [(heights_yconst hy _).1] at h6
          rw [(heights_yconst hy _).2] at h5
          linarith
      obtain ⟨t, ht⟩ := sideHitIn_found hc hp hy hh h hdir hpos
      rw [(h4 (ny hh)).2 hv] at ht; cases ht
    cases f with
    | xp =>
      obtain ⟨t, ht⟩ := faceHit_found hc hp (forY := false) (mirrored := false) (toInside := true) hd h hdir
      rw [h3 (nx (Or.inl rfl))] at ht; cases ht
    | xm =>
      obtain ⟨t, ht⟩ := faceHit_found hc hp (forY := false) (mirrored := true) (toInside := true) hd h hdir
      rw [h3 (nx (Or.inr rfl))] at ht; cases ht
    | yp =>
      by_cases hv : checkVaryingY k s = true
      · obtain ⟨t, ht⟩ := faceHit_found hc hp (forY := true) (mirrored := false) (toInside := true) hd h hdir
        rw [(h4 (ny (Or.inl rfl))).1 hv] at ht; cases ht
      · exact sideY (Or.inl rfl) (by simpa using hv)
    | ym =>
      by_cases hv : checkVaryingY k s = true
      · obtain ⟨t, ht⟩ := faceHit_found hc hp (forY := true) (mirrored := true) (toInside := true) hd h hdir
        rw [(h4 (ny (Or.inr rfl))).1 hv] at ht; cases ht
      · exact sideY (Or.inr rfl) (by simpa using hv)
    | zp =>
      obtain ⟨t, ht⟩ := baseHitIn_found hc hp (Or.inl rfl) h hdir
      rw [h2] at ht; cases ht
    | zm =>
      obtain ⟨t, ht⟩ := baseHitIn_found hc hp (Or.inr rfl) h hdir
      rw [h2] at ht; cases ht

/-- C69 (partial): `DistanceToIn` is not negative for points that are not deep inside.  Partial: not for points that are just
below a base, within the tolerance. -/
theorem C69_in_nonneg_partial (hk : kHalfTolerance ≤ s.dz) (p d : V3) (h : ¬ Deep (shape s) kHalfTolerance p)
    (hb : |p.z| < s.dz - kHalfTolerance ∨ s.dz ≤ |p.z|) : 0 ≤ distanceToIn k s p d := by
  rw [deep_heights (S := shape s) hp.2.2.2.2 kHalfTolerance_pos.le] at h
  rcases in_cases hs hf hp hk p d with ⟨h1, -⟩ | ⟨u, h1, -, h2 | ⟨h2, h3⟩⟩ | ⟨h1, -⟩
  · exact absurd h1 h
  · rw [h1]; exact snap_nonneg h2
  · rw [h1]
    refine snap_nonneg ?_
    have : 0 ≤ u := by
      rw [h2]; exact div_nonneg (by rcases hb with hb | hb <;> linarith) (abs_nonneg _)
    linarith [kHalfTolerance_pos]
  · rw [h1]; have := kInfLength_large; linarith

/-! ## Distance to the boundary -/

/-- The condition of `DistanceToOut` for the result -1. -/
theorem out_iff (p : V3) :
    (s.dz - |p.z| < 0 - kHalfTolerance ∨ (s.halfX1plusX2 - s.fx * p.z - |p.x|) * s.calfX < 0 - kHalfTolerance ∨
      (if checkVaryingY k s then (s.halfY1plusY2 - s.fy * p.z - |p.y|) * s.calfY < 0 - kHalfTolerance
       else s.dy1 - |p.y| < 0 - kHalfTolerance)) ↔ ∃ f, kHalfTolerance < height (shape s) p f := by
  have hz : 0 < s.dz := hp.2.2.2.2
  have e1 : (s.halfX1plusX2 - s.fx * p.z - |p.x|) * s.calfX = -hX (shape s) p := by
    rw [c_wx hs.cached hz, c_calfX hs.cached]; unfold hX; ring
  have e2 : (if checkVaryingY k s then (s.halfY1plusY2 - s.fy * p.z - |p.y|) * s.calfY < 0 - kHalfTolerance
       else s.dy1 - |p.y| < 0 - kHalfTolerance) ↔ kHalfTolerance < hY (shape s) p := by
    split
    · have e : (s.halfY1plusY2 - s.fy * p.z - |p.y|) * s.calfY = -hY (shape s) p := by
        rw [c_wy hs.cached hz, c_calfY hs.cached]; unfold hY; ring
      rw [e]; constructor <;> intro <;> linarith
    · rename_i hv
      rw [hY_const (varying_false hf (by simpa using hv))]
      constructor <;> intro <;> linarith
  have e3 : s.dz - |p.z| = -hZ (shape s) p := by unfold hZ; rw [show (shape s).z = s.dz from rfl]; ring
  rw [e1, e2, e3, ← not_iff_not]
  push Not
  rw [all_le]
  constructor
  · rintro ⟨a, b, c⟩; exact ⟨by linarith, c, by linarith⟩
  · rintro ⟨a, b, c⟩; exact ⟨by linarith, by linarith, b⟩

/-- `DistanceToOut`, case by case. -/
theorem out_cases (p d : V3) (h : ∀ f, height (shape s) p f ≤ kHalfTolerance) :
    (∃ u, distanceToOut k s p d = snap u ∧ HitOut (shape s) p d u ∧ (Closed (shape s) p → 0 ≤ snap u)) ∨
    (distanceToOut k s p d = 0 ∧ (∀ top, baseHitOut s top p d = none) ∧ (∀ m, faceHit s false m false p d = none) ∧
      (checkVaryingY k s = true → ∀ m, faceHit s true m false p d = none) ∧
      (checkVaryingY k s = false → sideHitOut s p d = none)) := by
  have hc := hs.cached
  have hno : ¬ ∃ f, kHalfTolerance < height (shape s) p f := by push Not; exact h
  rw [← out_iff hs hf hp] at hno
  unfold distanceToOut
  dsimp only
  rw [if_neg hno]
  have F : ∀ {forY m : Bool} {t : ℝ}, faceHit s forY m false p d = some t →
      ∃ u, snap t = snap u ∧ HitOut (shape s) p d u ∧ (Closed (shape s) p → 0 ≤ snap u) := by
    intro forY m t hh
    obtain ⟨u, rfl, h1, h2⟩ := faceHit_out hc hp hh
    exact ⟨u, snap_snap u, h2, fun _ => snap_nonneg h1⟩
  have nn : ∀ {t : ℝ}, 0 ≤ t → 0 ≤ snap t := fun h => snap_nonneg (by linarith [kHalfTolerance_pos])
  have B : ∀ {top : Bool} {t : ℝ}, baseHitOut s top p d = some t →
      ∃ u, snap t = snap u ∧ HitOut (shape s) p d u ∧ (Closed (shape s) p → 0 ≤ snap u) := by
    intro top t hh
    obtain ⟨h1, h2⟩ := baseHitOut_hit hc hp hh
    exact ⟨t, rfl, h2, fun hcl => nn (h1 hcl.1)⟩
  have s0 : snap 0 = 0 := by unfold snap; simp
  unfold hitsOut
  cases h1 : baseHitOut s true p d with
  | some t => exact Or.inl (B h1)
  | none =>
    cases h2 : baseHitOut s false p d with
    | some t => exact Or.inl (B h2)
    | none =>
      cases h3 : faceHit s false false false p d with
      | some t => exact Or.inl (F h3)
      | none =>
        cases h4 : faceHit s false true false p d with
        | some t => exact Or.inl (F h4)
        | none =>
          by_cases hv : checkVaryingY k s = true
          · rw [if_pos hv]
            cases h5 : faceHit s true false false p d with
            | some t => exact Or.inl (F h5)
            | none =>
              cases h6 : faceHit s true true false p d with
              | some t => exact Or.inl (F h6)
              | none =>
                refine Or.inr ⟨s0, ?_, ?_, ?_, ?_⟩
                · intro top; cases top <;> assumption
                · intro m; cases m <;> assumption
                · intro _ m; cases m <;> assumption
                · intro hh; rw [hv] at hh; cases hh
          · rw [if_neg hv]
            have hy := varying_false hf (by simpa using hv)
            cases h5 : sideHitOut s p d with
            | some t =>
              obtain ⟨a, b⟩ := sideHitOut_hit hc hp hy h5
              refine Or.inl ⟨t, rfl, b, fun hcl => nn (a ?_)⟩
              have := hcl.2.2
              rwa [wy_const hy] at this
            | none =>
              refine Or.inr ⟨s0, ?_, ?_, ?_, ?_⟩
              · intro top; cases top <;> assumption
              · intro m; cases m <;> assumption
              · intro hh; exact absurd hh hv
              · intro _; trivial

/-- C69: `DistanceToOut` is -1 for points above the plane of a face by more than half the tolerance. -/
theorem C69_out_wrong_side (p d : V3) (h : ∃ f, kHalfTolerance < height (shape s) p f) : distanceToOut k s p d = -1 := by
  unfold distanceToOut
  dsimp only
  rw [if_pos ((out_iff hs hf hp p).mpr h)]

/-- C69: for points of the solid `DistanceToOut` is not negative. -/
theorem C69_out_nonneg (p d : V3) (h : Closed (shape s) p) : 0 ≤ distanceToOut k s p d := by
  have hk := kHalfTolerance_pos
  rcases out_cases hs hf hp p d (fun f => by linarith [(closed_heights p).mp h f]) with ⟨u, h1, -, h2⟩ | ⟨h1, -⟩
  · rw [h1]; exact h2 h
  · rw [h1]

/-- C69: a distance other than zero leads to a point on the plane of a face that the ray crosses outwards, and above no plane
of another face. -/
theorem C69_out_hit (p d : V3) (h : ∀ f, height (shape s) p f ≤ kHalfTolerance) (h0 : distanceToOut k s p d ≠ 0) :
    HitOut (shape s) p d (distanceToOut k s p d) := by
  rcases out_cases hs hf hp p d h with ⟨u, h1, h2, -⟩ | ⟨h1, -⟩
  · rcases snap_cases u with h3 | ⟨h3, -⟩
    · rw [h1, h3]; exact h2
    · rw [h1] at h0; exact absurd h3 h0
  · exact absurd h1 h0

/-- C69: on the way to the hit the ray is in the solid grown by the error at its end points: for a point of the solid, by the
distance times about 1e-30. -/
theorem C69_out_before (p d : V3) (h : Closed (shape s) p) (v : ℝ) (hv0 : 0 ≤ v) (hv : v ≤ distanceToOut k s p d) (g : Side) :
    height (shape s) (V3.at' p d v) g ≤ distanceToOut k s p d * slack (shape s) := by
  have hz : 0 < s.dz := hp.2.2.2.2
  have hk := kHalfTolerance_pos
  have hsl := slack_pos (S := shape s) hz
  have hcl := (closed_heights p).mp h
  have hD := C69_out_nonneg hs hf hp p d h
  by_cases h0 : distanceToOut k s p d = 0
  · have : v = 0 := by linarith
    rw [this, BoxSolid.at_zero, h0, zero_mul]
    exact hcl g
  · obtain ⟨f, -, -, h3⟩ := C69_out_hit hs hf hp p d (fun f => by linarith [hcl f]) h0
    have h3 := h3 g
    rw [abs_of_nonneg hD] at h3
    generalize distanceToOut k s p d = D at *
    have hDpos : 0 < D := lt_of_le_of_ne hD (Ne.symm h0)
    rw [height_at (S := shape s) hz] at h3 ⊢
    have a := hcl g
    rcases le_or_gt (slope (shape s) d g) 0 with hsg | hsg
    · nlinarith [mul_nonneg hD hsl.le]
    · nlinarith

/-- C69: beyond the hit the ray is outside, as soon as it has passed the error. -/
theorem C69_out_after (p d : V3) (h : ∀ f, height (shape s) p f ≤ kHalfTolerance) (h0 : distanceToOut k s p d ≠ 0) :
    ∃ f, 0 < slope (shape s) d f ∧ ∀ v, |distanceToOut k s p d| * slack (shape s) <
      (v - distanceToOut k s p d) * slope (shape s) d f → ¬ Closed (shape s) (V3.at' p d v) := by
  have hz : 0 < s.dz := hp.2.2.2.2
  obtain ⟨f, h1, h2, -⟩ := C69_out_hit hs hf hp p d h h0
  refine ⟨f, h1, fun v hv hcl => ?_⟩
  have := (closed_heights _).mp hcl f
  have h2 := (abs_le.mp h2).1
  rw [height_at (S := shape s) hz] at this h2
  nlinarith

/-- C69 (partial): a ray from a point of the solid that leaves it through a face, clear of the edges, gets the distance to a
hit.  Missing: rays that leave through an edge; see `C69_out_edge_counterexample`. -/
theorem C69_out_found_partial (p d : V3) (hd : d.mag2 = 1) (hcl : ∀ f, height (shape s) p f ≤ kHalfTolerance) {u δ : ℝ} {f : Side}
    (h : Clear (shape s) p d u δ f) (hdir : 0 < slope (shape s) d f) :
    ∃ v, distanceToOut k s p d = snap v ∧ HitOut (shape s) p d v := by
  have hc := hs.cached
  rcases out_cases hs hf hp p d hcl with ⟨u, h1, h2, -⟩ | ⟨-, h1, h2, h3, h4⟩
  · exact ⟨u, h1, h2⟩
  · exfalso
    cases f with
    | xp =>
      obtain ⟨t, ht⟩ := faceHit_found hc hp (forY := false) (mirrored := false) (toInside := false) hd h hdir
      rw [h2] at ht; cases ht
    | xm =>
      obtain ⟨t, ht⟩ := faceHit_found hc hp (forY := false) (mirrored := true) (toInside := false) hd h hdir
      rw [h2] at ht; cases ht
    | yp =>
      by_cases hv : checkVaryingY k s = true
      · obtain ⟨t, ht⟩ := faceHit_found hc hp (forY := true) (mirrored := false) (toInside := false) hd h hdir
        rw [h3 hv] at ht; cases ht
      · have hv : checkVaryingY k s = false := by simpa using hv
        obtain ⟨t, ht⟩ := sideHitOut_found hc hp (varying_false hf hv) (Or.inl rfl) h hdir
        rw [h4 hv] at ht; cases ht
    | ym =>
      by_cases hv : checkVaryingY k s = true
      · obtain ⟨t, ht⟩ := faceHit_found hc hp (forY := true) (mirrored := true) (toInside := false) hd h hdir
        rw [h3 hv] at ht; cases ht
      · have hv : checkVaryingY k s = false := by simpa using hv
        obtain ⟨t, ht⟩ := sideHitOut_found hc hp (varying_false hf hv) (Or.inr rfl) h hdir
        rw [h4 hv] at ht; cases ht
    | zp =>
      obtain ⟨t, ht⟩ := baseHitOut_found hc hp (top := true) hd h hdir
      rw [h1] at ht; cases ht
    | zm =>
      obtain ⟨t, ht⟩ := baseHitOut_found hc hp (top := false) hd h hdir
      rw [h1] at ht; cases ht

end

/-! ## Cases that meet the hypotheses -/

theorem sample_heights : ∀ g, g ≠ Side.zp → height ⟨1, 3, 2, 5, 2⟩ ⟨0, 0, 2⟩ g ≤ -1 / 2 := by
  have r1 : Real.sqrt (1 + (Shape.tx ⟨1, 3, 2, 5, 2⟩) ^ 2) ≤ 2 := by rw [Real.sqrt_le_iff]; norm_num [Shape.tx]
  have r2 : Real.sqrt (1 + (Shape.ty ⟨1, 3, 2, 5, 2⟩) ^ 2) ≤ 2 := by rw [Real.sqrt_le_iff]; norm_num [Shape.ty]
  have p1 := root_pos (Shape.tx ⟨1, 3, 2, 5, 2⟩)
  have p2 := root_pos (Shape.ty ⟨1, 3, 2, 5, 2⟩)
  intro g hg
  cases g <;> simp only [height]
  · rw [div_le_iff₀ p1]; norm_num [Shape.wx]; nlinarith
  · rw [div_le_iff₀ p1]; norm_num [Shape.wx]; nlinarith
  · rw [div_le_iff₀ p2]; norm_num [Shape.wy]; nlinarith
  · rw [div_le_iff₀ p2]; norm_num [Shape.wy]; nlinarith
  · exact absurd rfl hg
  · norm_num

theorem sample_clear_in : Clear ⟨1, 3, 2, 5, 2⟩ ⟨0, 0, 5⟩ ⟨0, 0, -1⟩ 3 (1 / 2) .zp := by
  have e : V3.at' ⟨0, 0, 5⟩ ⟨0, 0, -1⟩ 3 = ⟨0, 0, 2⟩ := by ext <;> norm_num
  refine ⟨by norm_num, by rw [e]; norm_num [height], by norm_num, fun g hg => ?_, ?_, ?_⟩
  · rw [e]; have := sample_heights g hg; linarith
  · norm_num [slack, slope, kTiny]
  · norm_num [slack, slope, kTiny]

theorem sample_clear_out : Clear ⟨1, 3, 2, 5, 2⟩ ⟨0, 0, 0⟩ ⟨0, 0, 1⟩ 2 (1 / 2) .zp := by
  have e : V3.at' ⟨0, 0, 0⟩ ⟨0, 0, 1⟩ 2 = ⟨0, 0, 2⟩ := by ext <;> norm_num
  refine ⟨by norm_num, by rw [e]; norm_num [height], by norm_num, fun g hg => ?_, ?_, ?_⟩
  · rw [e]; have := sample_heights g hg; linarith
  · norm_num [slack, slope, kTiny]
  · norm_num [slack, slope, kTiny]

example (m : State) : ∃ v, distanceToIn .trd2 (sample m) ⟨0, 0, 5⟩ ⟨0, 0, -1⟩ = snap v ∧
    HitIn ⟨1, 3, 2, 5, 2⟩ ⟨0, 0, 5⟩ ⟨0, 0, -1⟩ v :=
  C69_in_found (sample_reachable m) (sample_fits m) (sample_proper m)
    (by show kHalfTolerance ≤ 2; norm_num [kHalfTolerance, kTolerance]) _ _ (by norm_num [V3.mag2, V3.dot])
    (by rw [sample_shape]; exact sample_clear_in) (by norm_num [slope])

theorem sample_origin_closed (m : State) : Closed (shape (sample m)) ⟨0, 0, 0⟩ := by
  rw [sample_shape]; norm_num [Closed, Shape.wx, Shape.wy]

example (m : State) : ∃ v, distanceToOut .trd2 (sample m) ⟨0, 0, 0⟩ ⟨0, 0, 1⟩ = snap v ∧
    HitOut ⟨1, 3, 2, 5, 2⟩ ⟨0, 0, 0⟩ ⟨0, 0, 1⟩ v :=
  C69_out_found_partial (sample_reachable m) (sample_fits m) (sample_proper m) _ _ (by norm_num [V3.mag2, V3.dot])
    (fun f => ((closed_heights _).mp (sample_origin_closed m) f).trans kHalfTolerance_pos.le)
    (by rw [sample_shape]; exact sample_clear_out) (by norm_num [slope])

/-! ## Where it fails -/

/-- C69: for a point within the tolerance below a base and a direction almost along the base, `DistanceToIn` is a negative
number that is neither -1 nor within the tolerance of zero. -/
theorem C69_in_negative_counterexample (m : State) :
    let p : V3 := ⟨0, 0, 2 - kHalfTolerance / 2⟩
    let d : V3 := ⟨Real.sqrt (1 - kHalfTolerance ^ 2), 0, -kHalfTolerance⟩
    d.mag2 = 1 ∧ ¬ Deep (shape (sample m)) kHalfTolerance p ∧ distanceToIn .trd2 (sample m) p d = -1 / 2 := by
  intro p d
  have hk := kHalfTolerance_pos
  have hk2 := BoxSolid.kHalfTolerance_le
  have hr : Real.sqrt (1 - kHalfTolerance ^ 2) ^ 2 = 1 - kHalfTolerance ^ 2 := Real.sq_sqrt (by nlinarith)
  have hr1 : Real.sqrt (1 - kHalfTolerance ^ 2) ≤ 1 := by rw [Real.sqrt_le_iff]; constructor <;> nlinarith [sq_nonneg kHalfTolerance]
  have hr0 := Real.sqrt_nonneg (1 - kHalfTolerance ^ 2)
  have hz : (sample m).dz = 2 := rfl
  have hpz : |p.z| = 2 - kHalfTolerance / 2 := abs_of_pos (by show 0 < 2 - kHalfTolerance / 2; linarith)
  have hnz : ¬ |p.z| < (sample m).dz - kHalfTolerance := by rw [hpz, hz]; linarith
  refine ⟨by simp only [V3.mag2, V3.dot, d]; nlinarith, ?_, ?_⟩
  · rw [deep_heights (by rw [sample_shape]; norm_num) hk.le]
    intro h
    have := h .zp
    simp only [height] at this
    rw [sample_shape] at this
    simp only [p] at this
    linarith
  · have hdist : (|p.z| - (sample m).dz) / |d.z| = -1 / 2 := by
      rw [hpz, hz, show |d.z| = kHalfTolerance by simp only [d]; rw [abs_neg, abs_of_pos hk]]
      field_simp; ring
    have hbase : baseHitIn (sample m) (|p.z| < (sample m).dz - kHalfTolerance) p d = some (-1 / 2) := by
      unfold baseHitIn
      dsimp only
      rw [if_pos ⟨by simp only [p, d]; nlinarith, hnz⟩, hdist]
      refine if_pos (Or.inl ⟨?_, ?_, ?_⟩)
      · rw [hz]; simp only [p]; linarith
      · show |0 + -1 / 2 * Real.sqrt (1 - kHalfTolerance ^ 2)| ≤ 3
        rw [abs_le]; constructor <;> linarith
      · show |0 + -1 / 2 * 0| ≤ (5 : ℝ); norm_num
    unfold distanceToIn
    dsimp only
    rw [if_neg (fun h => hnz h.2.2), hbase]
    exact snap_of_large (by rw [show |(-1 / 2 : ℝ)| = 1 / 2 by norm_num [abs_of_neg]]; linarith)

/-- C69: for a point within the tolerance above a base and a direction almost along the base, `DistanceToOut` is a negative
number that is neither -1 nor within the tolerance of zero. -/
theorem C69_out_negative_counterexample (m : State) :
    let p : V3 := ⟨0, 0, 2 + kHalfTolerance / 2⟩
    let d : V3 := ⟨Real.sqrt (1 - kHalfTolerance ^ 2), 0, kHalfTolerance⟩
    d.mag2 = 1 ∧ -1 < distanceToOut .trd2 (sample m) p d ∧ distanceToOut .trd2 (sample m) p d < -1 / 4 := by
  intro p d
  have hk := kHalfTolerance_pos
  have hk2 := BoxSolid.kHalfTolerance_le
  have hty := tiny_pos
  have htk : kTiny < kHalfTolerance := by norm_num [kTiny, kHalfTolerance, kTolerance]
  have hr : Real.sqrt (1 - kHalfTolerance ^ 2) ^ 2 = 1 - kHalfTolerance ^ 2 := Real.sq_sqrt (by nlinarith)
  have hr1 : Real.sqrt (1 - kHalfTolerance ^ 2) ≤ 1 := by rw [Real.sqrt_le_iff]; constructor <;> nlinarith [sq_nonneg kHalfTolerance]
  have hr0 := Real.sqrt_nonneg (1 - kHalfTolerance ^ 2)
  have hz : (sample m).dz = 2 := rfl
  obtain ⟨t, ht⟩ : ∃ t, t = ((sample m).dz - p.z) * (1 / |d.z + kTiny|) := ⟨_, rfl⟩
  have ht' : t = -(kHalfTolerance / 2) / (kHalfTolerance + kTiny) := by
    rw [ht, hz, show |d.z + kTiny| = kHalfTolerance + kTiny from abs_of_pos (by show 0 < kHalfTolerance + kTiny; linarith)]
    simp only [p]; ring
  have t1 : -1 < t := by rw [ht', lt_div_iff₀ (by linarith)]; linarith
  have t2 : t < -1 / 4 := by rw [ht', div_lt_iff₀ (by linarith)]; linarith
  have hb : baseHitOut (sample m) true p d = some t := by
    unfold baseHitOut
    dsimp only
    simp only [if_true]
    rw [if_pos ⟨hk, by show kHalfTolerance + kTiny ≠ 0; linarith⟩, ← ht]
    refine if_pos ⟨?_, ?_⟩
    · show |0 + t * Real.sqrt (1 - kHalfTolerance ^ 2)| ≤ 3
      rw [abs_le]; constructor <;> nlinarith
    · show |0 + t * 0| ≤ (5 : ℝ); norm_num
  have e : distanceToOut .trd2 (sample m) p d = t := by
    have ho : ¬ ∃ f, kHalfTolerance < height (shape (sample m)) p f := by
      push Not
      have := heights_top (S := shape (sample m)) (q := p) (e := kHalfTolerance / 2) (by rw [sample_shape]; norm_num)
        (by rw [sample_shape]; simp only [p]; rw [add_sub_cancel_left, abs_of_pos (by linarith)])
        (by rw [sample_shape]; simp [p]) (by rw [sample_shape]; simp [p])
      intro f; linarith [this f]
    rw [← out_iff (sample_reachable m) (sample_fits m) (sample_proper m)] at ho
    unfold distanceToOut
    dsimp only
    rw [if_neg ho]
    unfold hitsOut
    rw [hb]
    exact snap_of_large (by rw [abs_of_neg (by linarith)]; linarith)
  rw [e]
  exact ⟨by simp only [V3.mag2, V3.dot, d]; nlinarith, t1, t2⟩

/-- The solid of the next theorem. -/
noncomputable def edgeOut (m : State) : State := (create .trd2 m 3 1 5 3 4).trd

/-- C69: for an interior point and a direction exactly towards an edge of the lower base, no face is found, because of the
constant added to denominators, and `DistanceToOut` is 0. -/
theorem C69_out_edge_counterexample (m : State) :
    Reachable .trd2 (edgeOut m) ∧ Open (shape (edgeOut m)) ⟨0, 0, 0⟩ ∧
    distanceToOut .trd2 (edgeOut m) ⟨0, 0, 0⟩ ⟨3 / 5, 0, -4 / 5⟩ = 0 := by
  have hr : Reachable .trd2 (edgeOut m) := ⟨m, 3, 1, 5, 3, 4, [], rfl⟩
  have esh : shape (edgeOut m) = ⟨3, 1, 5, 3, 4⟩ := rfl
  have hpr : Proper (shape (edgeOut m)) := by rw [esh]; norm_num [Proper]
  have hfit : Fits .trd2 (edgeOut m) := by intro h; cases h
  have hop : Open (shape (edgeOut m)) ⟨0, 0, 0⟩ := by rw [esh]; norm_num [Open, Shape.wx, Shape.wy]
  refine ⟨hr, hop, ?_⟩
  have hz : (edgeOut m).dz = 4 := rfl
  have hx : (edgeOut m).dx1 = 3 := rfl
  have hx2 : (edgeOut m).x2minusX1 = -2 := by show (1 : ℝ) - 3 = -2; norm_num
  have hfx : (edgeOut m).fx = 1 / 4 := by show (0.5 : ℝ) * (3 - 1) / 4 = 1 / 4; norm_num
  have hfy : (edgeOut m).fy = 1 / 4 := by show (0.5 : ℝ) * (5 - 3) / 4 = 1 / 4; norm_num
  have b1 : baseHitOut (edgeOut m) true ⟨0, 0, 0⟩ ⟨3 / 5, 0, -4 / 5⟩ = none := by
    unfold baseHitOut; norm_num
  have b2 : baseHitOut (edgeOut m) false ⟨0, 0, 0⟩ ⟨3 / 5, 0, -4 / 5⟩ = none := by
    unfold baseHitOut
    dsimp only
    simp only [Bool.false_eq_true, if_false, hx, hz]
    have : |(-4 / 5 : ℝ) + kTiny| = 4 / 5 - kTiny := by rw [abs_of_neg (by norm_num [kTiny])]; ring
    rw [this]
    split
    · rw [if_neg]
      rintro ⟨h, -⟩
      rw [abs_of_pos (by norm_num [kTiny])] at h
      norm_num [kTiny] at h
    · rfl
  have f1 : faceHit (edgeOut m) false false false ⟨0, 0, 0⟩ ⟨3 / 5, 0, -4 / 5⟩ = none := by
    rw [← Option.not_isSome_iff_eq_none, Option.isSome_iff_exists]
    rintro ⟨t, ht⟩
    unfold faceHit at ht
    dsimp only at ht
    simp only [Bool.false_eq_true, if_false, hx, hz, hx2, hfx] at ht
    rw [Option.ite_none_left_eq_some, Option.ite_none_left_eq_some, Option.ite_none_right_eq_some] at ht
    obtain ⟨-, -, ⟨-, h, -⟩, -⟩ := ht
    rw [abs_le] at h
    norm_num [kTiny] at h
  have f2 : faceHit (edgeOut m) false true false ⟨0, 0, 0⟩ ⟨3 / 5, 0, -4 / 5⟩ = none := by
    unfold faceHit
    dsimp only
    simp only [Bool.false_eq_true, if_false, if_true, hfx]
    rw [if_pos (by norm_num)]
  have f3 : ∀ b, faceHit (edgeOut m) true b false ⟨0, 0, 0⟩ ⟨3 / 5, 0, -4 / 5⟩ = none := by
    intro b
    unfold faceHit
    dsimp only
    cases b <;> simp only [Bool.false_eq_true, if_false, if_true, hfy] <;> rw [if_pos (by norm_num)]
  have ho : ¬ ∃ f, kHalfTolerance < height (shape (edgeOut m)) ⟨0, 0, 0⟩ f := by
    push Not
    intro f
    linarith [(open_heights _).mp hop f, kHalfTolerance_pos]
  rw [← out_iff hr hfit hpr] at ho
  unfold distanceToOut
  dsimp only
  rw [if_neg ho]
  unfold hitsOut
  rw [b1, b2, f1, f2, if_pos (by rfl), f3, f3]
  show snap 0 = 0
  unfold snap; simp

/-- The solid of the next theorem. -/
noncomputable def edgeIn (m : State) : State := (create .trd2 m 3 3 3 5 1).trd

/-- C69: for a direction exactly towards an edge between two sides, `DistanceToIn` is infinite although the ray passes
through the centre of the solid, because of the constant added to denominators. -/
theorem C69_in_edge_counterexample (m : State) :
    Reachable .trd2 (edgeIn m) ∧ Open (shape (edgeIn m)) (V3.at' ⟨6, 8, 0⟩ ⟨-3 / 5, -4 / 5, 0⟩ 10) ∧
    distanceToIn .trd2 (edgeIn m) ⟨6, 8, 0⟩ ⟨-3 / 5, -4 / 5, 0⟩ = kInfLength := by
  have hr : Reachable .trd2 (edgeIn m) := ⟨m, 3, 3, 3, 5, 1, [], rfl⟩
  have esh : shape (edgeIn m) = ⟨3, 3, 3, 5, 1⟩ := rfl
  have hpr : Proper (shape (edgeIn m)) := by rw [esh]; norm_num [Proper]
  have hfit : Fits .trd2 (edgeIn m) := by intro h; cases h
  refine ⟨hr, ?_, ?_⟩
  · have e : V3.at' ⟨6, 8, 0⟩ ⟨-3 / 5, -4 / 5, 0⟩ 10 = ⟨0, 0, 0⟩ := by ext <;> norm_num
    rw [e, esh]; norm_num [Open, Shape.wx, Shape.wy]
  have hz : (edgeIn m).dz = 1 := rfl
  have hx : (edgeIn m).dx1 = 3 := rfl
  have hy : (edgeIn m).dy1 = 3 := rfl
  have hx2 : (edgeIn m).x2minusX1 = 0 := by show (3 : ℝ) - 3 = 0; norm_num
  have hy2 : (edgeIn m).y2minusY1 = 2 := by show (5 : ℝ) - 3 = 2; norm_num
  have hfx : (edgeIn m).fx = 0 := by show (0.5 : ℝ) * (3 - 3) / 1 = 0; norm_num
  have hfy : (edgeIn m).fy = -1 := by show (0.5 : ℝ) * (3 - 5) / 1 = -1; norm_num
  have hhx : (edgeIn m).halfX1plusX2 = 3 := by show (0.5 : ℝ) * (3 + 3) = 3; norm_num
  have hhy : (edgeIn m).halfY1plusY2 = 4 := by show (0.5 : ℝ) * (3 + 5) = 4; norm_num
  have f1 : faceHit (edgeIn m) false false true ⟨6, 8, 0⟩ ⟨-3 / 5, -4 / 5, 0⟩ = none := by
    rw [← Option.not_isSome_iff_eq_none, Option.isSome_iff_exists]
    rintro ⟨t, ht⟩
    unfold faceHit at ht
    dsimp only at ht
    simp only [Bool.false_eq_true, if_false, hx, hz, hx2, hfx, hfy, hhy] at ht
    rw [Option.ite_none_left_eq_some, Option.ite_none_left_eq_some, Option.ite_none_right_eq_some] at ht
    obtain ⟨-, -, ⟨-, -, h⟩, -⟩ := ht
    rw [abs_le] at h
    norm_num [kTiny] at h
  have f2 : faceHit (edgeIn m) false true true ⟨6, 8, 0⟩ ⟨-3 / 5, -4 / 5, 0⟩ = none := by
    unfold faceHit
    dsimp only
    simp only [Bool.false_eq_true, if_false, if_true, hfx]
    rw [if_pos (by norm_num)]
  have f3 : faceHit (edgeIn m) true false true ⟨6, 8, 0⟩ ⟨-3 / 5, -4 / 5, 0⟩ = none := by
    rw [← Option.not_isSome_iff_eq_none, Option.isSome_iff_exists]
    rintro ⟨t, ht⟩
    unfold faceHit at ht
    dsimp only at ht
    simp only [Bool.false_eq_true, if_false, if_true, hy, hz, hy2, hfx, hfy, hhx] at ht
    rw [Option.ite_none_left_eq_some, Option.ite_none_left_eq_some, Option.ite_none_right_eq_some] at ht
    obtain ⟨-, -, ⟨-, -, h⟩, -⟩ := ht
    rw [abs_le] at h
    norm_num [kTiny] at h
  have f4 : faceHit (edgeIn m) true true true ⟨6, 8, 0⟩ ⟨-3 / 5, -4 / 5, 0⟩ = none := by
    unfold faceHit
    dsimp only
    simp only [Bool.false_eq_true, if_false, if_true, hfy]
    rw [if_pos (by norm_num)]
  have bh : ∀ q : Prop, baseHitIn (edgeIn m) q ⟨6, 8, 0⟩ ⟨-3 / 5, -4 / 5, 0⟩ = none := by
    intro q
    unfold baseHitIn; norm_num
  unfold distanceToIn
  dsimp only
  rw [if_neg, bh, f1, f2, f3, f4]
  · simp only [ite_self, assign, Option.getD, Option.isSome]
    simp only [Bool.false_eq_true, if_false]
    exact snap_inf
  · rintro ⟨h, -, -⟩
    have h := (inx_iff hr hfit hpr ⟨6, 8, 0⟩).mp h
    rw [esh] at h
    have h1 : hX ⟨3, 3, 3, 5, 1⟩ ⟨6, 8, 0⟩ ≥ 0 := div_nonneg (by norm_num [Shape.wx]) (Real.sqrt_nonneg _)
    linarith [kHalfTolerance_pos]

end Trd
end VecGeom

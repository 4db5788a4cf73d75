import Verif.Polycone.Props2

/-!
# Polycones: Inside and safeties
-/

namespace VecGeom
namespace Polycone

open Real Tube

variable {s d : ℝ} {ps : List Plane} {t : Struct} {ty : Cone.CType}

/-! ## Inside -/

/-- The outer radii are not smaller than the tolerance of the cones. -/
def Wide (ps : List Plane) : Prop := ∀ q ∈ ps, Cone.kConeTolerance ≤ q.fix.rmax

/-- The tolerance of the wall of the bore. -/
noncomputable def boreTol (a b : Plane) : ℝ := Cone.kConeTolerance * √(1 + ((b.rmin - a.rmin) / (b.z - a.z)) ^ 2)

/-- No inner plane is within the tolerance of the height. -/
def AwayFromPlanes (ps : List Plane) (z : ℝ) : Prop :=
  ∀ q ∈ ps, (∃ a ∈ ps, a.z < q.z) → (∃ b ∈ ps, q.z < b.z) → kTolerance < |z - q.z|

theorem inside_of_section {t : Struct} {i : ℕ} {p : V3} (e : kernel ty true t p = (SecIn ty true t i p, SecOut ty true t i p)) :
    inside ty t p = Cone.inside ty (secAt t i).solid (lower p (secAt t i).shift) := by
  unfold inside Cone.inside
  rw [e]
  have h1 : SecIn ty true t i p ↔ Cone.CompletelyInside ty (secAt t i).solid (lower p (secAt t i).shift) := by
    unfold SecIn
    rw [Int.toNat_natCast]
    constructor
    · exact fun h => h.2.2
    · exact fun h => ⟨by omega, rfl, h⟩
  have h2 : SecOut ty true t i p ↔ Cone.CompletelyOutside ty true (secAt t i).solid (lower p (secAt t i).shift) := by
    unfold SecOut
    rw [Int.toNat_natCast]
    constructor
    · rintro (h | h)
      · omega
      · exact h
    · exact Or.inr
  by_cases k1 : SecIn ty true t i p
  · rw [if_pos k1, if_pos (h1.mp k1)]
  · rw [if_neg k1, if_neg (fun h => k1 (h1.mpr h))]
    by_cases k2 : SecOut ty true t i p
    · rw [if_pos k2, if_pos (h2.mp k2)]
    · rw [if_neg k2, if_neg (fun h => k2 (h2.mpr h))]

/-- The kernel away from inner planes. -/
theorem kernel_away (hv : Valid s d ps) (hr : Repr s d ps t) {p : V3} (ha : AwayFromPlanes ps p.z) (fi : Bool) :
    (kernel ty fi t p = (False, True) ∧ (p.z < zAt t 0 ∨ zAt t t.secs.length < p.z)) ∨
    (∃ i : ℕ, i < t.secs.length ∧ kernel ty fi t p = (SecIn ty fi t i p, SecOut ty fi t i p) ∧
      (i = 0 ∨ zAt t i + kTolerance ≤ p.z) ∧ (i + 1 = t.secs.length ∨ p.z + kTolerance ≤ zAt t (i + 1)) ∧
      zAt t i ≤ p.z + kTolerance ∧ p.z ≤ zAt t (i + 1) + kTolerance) := by
  rcases kernel_cases (ty := ty) (hr.steps hv) fi p with h | h | ⟨i, hi, h1, h2, -⟩
  · exact Or.inl h
  · exact Or.inr h
  · exfalso
    rw [hr.len] at hi
    have n1 := seg_next (ps := ps) (i := i) (by omega)
    have n2 := seg_next (ps := ps) (i := i + 1) hi
    have e1 := hr.z2 hv (i := i) (by omega)
    have e2 := hr.z1 hv (i := i + 1) hi
    have := ha (segs ps)[i].2 (n1.1.subset (by simp)) ⟨_, n1.1.subset (by simp), n1.2⟩
      ⟨(segs ps)[i + 1].2, n2.1.subset (by simp), by rw [← e1, e2]; exact n2.2⟩
    rw [← e1] at this
    exact absurd this (not_lt.mpr (abs_le.mpr ⟨by linarith, by linarith⟩))

theorem closed_height (hv : Valid s d ps) (h : Repr s d ps t) {j : ℕ} (hj : j < (segs ps).length) {p : V3}
    (hp : ClosedPart s d (segs ps)[j].1.fix (segs ps)[j].2.fix p) : zAt t j ≤ p.z ∧ p.z ≤ zAt t (j + 1) := by
  rw [h.z1 hv hj, h.z2 hv hj]
  exact ⟨hp.z1, hp.z2⟩

theorem closed_index (p : V3) : Closed s d (ps.map Plane.fix) p ↔
    ∃ (j : ℕ) (hj : j < (segs ps).length), ClosedPart s d (segs ps)[j].1.fix (segs ps)[j].2.fix p := by
  rw [closed_fix]
  constructor
  · rintro ⟨x, hx, hp⟩
    obtain ⟨j, hj, rfl⟩ := List.getElem_of_mem hx
    exact ⟨j, hj, hp⟩
  · rintro ⟨j, hj, hp⟩
    exact ⟨_, List.getElem_mem hj, hp⟩

/-- Points of a cone that are found outside by it are in the tip of its bore. -/
theorem cone_out {a : Cone.Par} (hv : a.Valid) (hf : Cone.Fits ty a) {p : V3} (hc : a.fix.Closed p)
    (ho : Cone.CompletelyOutside ty true (Cone.of a) p) :
    a.Hollow ∧ a.inner p.z ≤ Cone.kConeTolerance * √(1 + ((a.rmin2 - a.rmin1) / (2 * a.z)) ^ 2) ∧
      rad p ≤ Cone.kConeTolerance * √(1 + ((a.rmin2 - a.rmin1) / (2 * a.z)) ^ 2) := by
  have hk := Cone.kConeTolerance_pos
  have hr0 := rad_nonneg p
  rw [Cone.outside_iff hv hf, Cone.outerTol_eq hv, Cone.innerTol_eq hv] at ho
  rcases ho with h | h | ⟨h0, h⟩ | ⟨hd, -, h⟩
  · linarith [hc.z, show a.fix.z = a.z from rfl]
  · have hx := Cone.outer_pos hv hc.z
    have := lt_of_pow_lt_pow_left₀ 2 hr0 ((Cone.le_plus (Cone.tol_pos _) hx.le).trans_lt h)
    linarith [hc.hi]
  · rcases Cone.le_of_le_minus hr0 (Cone.tol_pos _) (Cone.inner_nonneg hv hc.z) h with h3 | h3
    · linarith [hc.lo, Cone.fix_inner (a := a) p.z, Cone.tol_pos ((a.rmin2 - a.rmin1) / (2 * a.z))]
    · exact ⟨h0, h3⟩
  · exact absurd hc.phi h

/-- If the kernel finds a point of a section outside, so does the section. -/
theorem kernel_out (hv : Valid s d ps) (hr : Repr s d ps t) {p : V3} (ho : (kernel ty true t p).2) {j : ℕ} (hj : j < (segs ps).length)
    (hp : ClosedPart s d (segs ps)[j].1.fix (segs ps)[j].2.fix p) : SecOut ty true t j p := by
  have hs := hr.steps hv
  have hl := hr.len
  have htol := kTolerance_pos
  have g := closed_height hv hr hj hp
  rcases kernel_cases (ty := ty) hs true p with ⟨-, hz⟩ | ⟨i, hi, e, h1, h2, h3, h4⟩ | ⟨i, hi, h1, h2, e⟩
  · exfalso
    have g1 := hs.le (i := 0) (j := j) (by omega) (by omega)
    have g2 := hs.le (i := j + 1) (j := t.secs.length) (by omega) (le_refl _)
    rcases hz with hz | hz <;> linarith
  · have hij : i = j := by
      rcases lt_trichotomy i j with hij | rfl | hij
      · exfalso
        have := hs.le (i := i + 1) (j := j) (by omega) (by omega)
        rcases h2 with h2 | h2
        · omega
        · linarith
      · rfl
      · exfalso
        have := hs.le (i := j + 1) (j := i) (by omega) (by omega)
        rcases h1 with h1 | h1
        · omega
        · linarith
    subst hij
    rw [e] at ho
    exact ho
  · have hij : j = i ∨ j = i + 1 := by
      by_contra hne
      push Not at hne
      rcases lt_or_ge j i with hij | hij
      · have := hs.lt (i := j + 1) (j := i + 1) (by omega) (by omega)
        linarith
      · have := hs.lt (i := i + 1) (j := j) (by omega) (by omega)
        linarith
    have hb : SecOut ty true t i p ∧ SecOut ty true t (i + 1 : ℕ) p := by
      by_contra hn
      rw [e] at ho
      by_cases hc : (¬ SecIn ty true t i p ∧ ¬ SecOut ty true t i p) ∧ (¬ SecIn ty true t (i + 1 : ℕ) p ∧ ¬ SecOut ty true t (i + 1 : ℕ) p)
      · rw [if_pos hc] at ho; exact ho
      · rw [if_neg hc, if_neg hn] at ho; exact ho
    rcases hij with rfl | rfl
    · exact hb.1
    · exact hb.2

/-- If the kernel finds a point of the polycone outside, it is in the tip of a bore. -/
theorem out_tip (hv : Valid s d ps) (hr : Repr s d ps t) (hf : Fits ty s d ps) {p : V3} (ho : (kernel ty true t p).2)
    (hc : Closed s d (ps.map Plane.fix) p) :
    ∃ a b, Next ps a b ∧ (0 < a.rmin ∨ 0 < b.rmin) ∧ lerp a.z a.rmin b.z b.rmin p.z ≤ boreTol a b ∧ rad p ≤ boreTol a b := by
  obtain ⟨j, hj, hp⟩ := (closed_index p).mp hc
  have hn := seg_next hj
  have h := kernel_out hv hr ho hj hp
  have hco : Cone.CompletelyOutside ty true (secAt t j).solid (lower p (secAt t j).shift) := by
    unfold SecOut at h
    rw [Int.toNat_natCast] at h
    rcases h with h | h
    · omega
    · exact h
  rw [hr.sec hj] at hco
  have hcl := (closed_iff (a := (segs ps)[j].1.fix) (b := (segs ps)[j].2.fix) hn.2 p).mpr hp
  have := cone_out (par_valid hv hn) (hf _ _ hn) (by rw [par_fix]; exact hcl) hco
  refine ⟨_, _, hn, this.1, ?_⟩
  have e1 := lerp_line hn.2 (segs ps)[j].1.rmin (segs ps)[j].2.rmin p.z
  rw [← e1]
  unfold boreTol
  have e2 : 2 * (par s d ((segs ps)[j].1, (segs ps)[j].2)).z = (segs ps)[j].2.z - (segs ps)[j].1.z := by simp only [par]; ring
  have := this.2
  rw [e2] at this
  exact this

/-- C148: points that are reported outside do not belong to the polycone, but for points in the tip of a bore. -/
theorem C148_outside (hv : Valid s d ps) (ht : make s d ps = some t) (hf : Fits ty s d ps) (p : V3)
    (h : inside ty t p = .outside) (hc : Closed s d (ps.map Plane.fix) p) :
    ∃ a b, Next ps a b ∧ (0 < a.rmin ∨ 0 < b.rmin) ∧ lerp a.z a.rmin b.z b.rmin p.z ≤ boreTol a b ∧ rad p ≤ boreTol a b := by
  refine out_tip hv (make_repr hv ht) hf ?_ hc
  unfold inside at h
  split at h
  · simp at h
  · split at h
    · assumption
    · simp at h

/-- C148: away from the inner planes, points that are reported inside belong to the polycone. -/
theorem C148_inside_partial (hv : Valid s d ps) (ht : make s d ps = some t) (hf : Fits ty s d ps) (hw : Wide ps) (p : V3)
    (ha : AwayFromPlanes ps p.z) (h : inside ty t p = .inside) : Body s d (ps.map Plane.fix) p := by
  have hr := make_repr hv ht
  have hs := hr.steps hv
  have htol := kTolerance_pos
  rcases kernel_away (ty := ty) hv hr ha true with ⟨e, hz⟩ | ⟨i, hi, e, h1, h2, h3, h4⟩
  · have hI : inside ty t p = .outside := by unfold inside; rw [e]; simp
    rw [hI] at h
    simp at h
  · rw [inside_of_section e] at h
    have hi' : i < (segs ps).length := by rw [← hr.len]; exact hi
    have hn := seg_next hi'
    rw [hr.sec hi'] at h
    have m1 : (segs ps)[i].1 ∈ ps := hn.1.subset (by simp)
    have m2 : (segs ps)[i].2 ∈ ps := hn.1.subset (by simp)
    have c1 := (Cone.C142_inside (par_valid hv hn) (hf _ _ hn) (by rw [par_fix]; exact hw _ m1) (by rw [par_fix]; exact hw _ m2)
      (lower p (((segs ps)[i].1.z + (segs ps)[i].2.z) / 2))).1 h
    rw [par_fix] at c1
    rw [body_fix]
    exact ⟨_, List.getElem_mem hi', (part_iff (a := (segs ps)[i].1.fix) (b := (segs ps)[i].2.fix) hn.2 p).mp c1⟩

/-- A full cylinder with a plane in the middle. -/
noncomputable def divided : List Plane := [⟨-1, 0, 2⟩, ⟨0, 0, 2⟩, ⟨1, 0, 2⟩]

theorem infix_divided {a b : Plane} (h : [a, b] <:+: divided) : (a = ⟨-1, 0, 2⟩ ∧ b = ⟨0, 0, 2⟩) ∨ (a = ⟨0, 0, 2⟩ ∧ b = ⟨1, 0, 2⟩) := by
  unfold divided at h
  rw [infix_cons2, infix_cons2] at h
  rcases h with h | h | h
  · exact Or.inl h
  · exact Or.inr h
  · exact absurd h infix_one

theorem divided_valid : Valid 0 (2 * π) divided := by
  refine ⟨⟨_, _, _, rfl, by norm_num⟩, ?_, ?_, ?_, ?_, by positivity, Or.inr rfl⟩
  · intro a b h
    rcases infix_divided h with ⟨rfl, rfl⟩ | ⟨rfl, rfl⟩ <;> right <;> norm_num
  · intro q hq; simp [divided] at hq; rcases hq with rfl | rfl | rfl <;> norm_num
  · intro q hq; simp [divided] at hq; rcases hq with rfl | rfl | rfl <;> norm_num
  · intro a b h _
    rcases infix_divided h.1 with ⟨rfl, rfl⟩ | ⟨rfl, rfl⟩ <;> norm_num

theorem segs_divided : segs divided = [(⟨-1, 0, 2⟩, ⟨0, 0, 2⟩), (⟨0, 0, 2⟩, ⟨1, 0, 2⟩)] := by
  unfold divided
  rw [segs, if_pos (by norm_num), segs, if_pos (by norm_num), segs]
  simp

example : Wide divided ∧ AwayFromPlanes divided (1 / 2) := by
  constructor
  · intro q hq
    simp [divided] at hq
    rcases hq with rfl | rfl | rfl <;> norm_num [Plane.fix, Cone.kConeTolerance]
  · intro q hq h1 h2
    simp [divided] at hq
    rcases hq with rfl | rfl | rfl
    · obtain ⟨a, ha, h⟩ := h1
      simp [divided] at ha
      rcases ha with rfl | rfl | rfl <;> norm_num at h
    · norm_num [kTolerance]
    · obtain ⟨a, ha, h⟩ := h2
      simp [divided] at ha
      rcases ha with rfl | rfl | rfl <;> norm_num at h

theorem full_sector (x y : ℝ) : Sector 0 (2 * π) x y := sector_full _ _ _

theorem divided_z (hr : Repr 0 (2 * π) divided t) : zAt t 0 = -1 ∧ zAt t 1 = 0 ∧ zAt t 2 = 1 ∧ t.secs.length = 2 := by
  have hl := hr.len
  rw [segs_divided] at hl
  unfold zAt
  rw [hr.zs, segs_divided]
  exact ⟨rfl, rfl, rfl, hl⟩

/-- C148 fails on inner planes: a point of the surface is reported inside. -/
theorem C148_plane_counterexample : ∃ t, make 0 (2 * π) divided = some t ∧ inside Cone.universal t ⟨2, 0, 0⟩ = .inside ∧
    ∀ e > 0, ¬ Closed 0 (2 * π) divided ⟨2 + e, 0, 0⟩ := by
  obtain ⟨t, ht⟩ := make_some divided_valid
  have hr := make_repr divided_valid ht
  obtain ⟨z0, z1, z2, hl⟩ := divided_z hr
  have htol : kTolerance = 1 / 10 ^ 9 := by norm_num [kTolerance]
  refine ⟨t, ht, ?_, ?_⟩
  · have hsurf : ∀ (i : ℕ) (hi : i < (segs divided).length), ¬ SecIn Cone.universal true t i ⟨2, 0, 0⟩ ∧ ¬ SecOut Cone.universal true t i ⟨2, 0, 0⟩ := by
      intro i hi
      have hn := seg_next hi
      have hx : Cone.inside Cone.universal (secAt t i).solid (lower ⟨2, 0, 0⟩ (secAt t i).shift) = .surface := by
        rw [hr.sec hi]
        have hi2 : i < 2 := by rw [segs_divided] at hi; exact hi
        have hrad : rad (⟨2, 0, 0⟩ : V3) = 2 := by unfold rad; rw [show (2 : ℝ) ^ 2 + 0 ^ 2 = 2 ^ 2 by norm_num, sqrt_sq (by norm_num)]
        have hk : Cone.kConeTolerance = 1 / 10 ^ 7 := rfl
        have cone : ∀ (z : ℝ), |z| = 1 / 2 → ∀ p : V3, rad p = 2 → p.z = z → Cone.inside Cone.universal (Cone.of ⟨0, 2, 0, 2, 1 / 2, 0, 2 * π⟩) p = .surface := by
          intro z hz p hp hpz
          have hv : (Cone.Par.mk 0 2 0 2 (1 / 2) 0 (2 * π)).Valid := ⟨by norm_num, by norm_num, by norm_num, by norm_num, by norm_num, by norm_num, by positivity, Or.inr rfl⟩
          have hfx : (Cone.Par.mk 0 2 0 2 (1 / 2) 0 (2 * π)).fix = ⟨0, 2, 0, 2, 1 / 2, 0, 2 * π⟩ := by
            unfold Cone.Par.fix; norm_num
          refine (Cone.C142_inside hv (Cone.fits_universal _) (by rw [hfx, hk]; norm_num) (by rw [hfx, hk]; norm_num) p).2.2.2 ?_ ?_ ?_
          · rw [hfx]
            refine ⟨by rw [hpz, hz], ?_, ?_, full_sector _ _⟩
            · rw [hp]; norm_num [Cone.Par.inner, Cone.line]
            · rw [hp]; simp only [Cone.Par.outer, Cone.line]; linarith
          · rintro (h | h) <;> norm_num at h
          · exact Or.inl (by rw [hpz, hz])
        have : i = 0 ∨ i = 1 := by omega
        rcases this with rfl | rfl
        · simp only [segs_divided, List.getElem_cons_zero, par]
          norm_num [lower]
          exact cone (1 / 2) (by norm_num) _ hrad rfl
        · simp only [segs_divided, List.getElem_cons_succ, List.getElem_cons_zero, par]
          norm_num [lower]
          exact cone (-1 / 2) (by norm_num) _ hrad (by norm_num)
      unfold Cone.inside at hx
      have hh : ¬ Cone.CompletelyInside Cone.universal (secAt t i).solid (lower ⟨2, 0, 0⟩ (secAt t i).shift) ∧
          ¬ Cone.CompletelyOutside Cone.universal true (secAt t i).solid (lower ⟨2, 0, 0⟩ (secAt t i).shift) := by
        split at hx
        · simp at hx
        · split at hx
          · simp at hx
          · exact ⟨by assumption, by assumption⟩
      unfold SecIn SecOut
      rw [Int.toNat_natCast]
      refine ⟨fun h => hh.1 h.2.2, ?_⟩
      rintro (h | h)
      · omega
      · exact hh.2 h
    have s0 := hsurf 0 (by rw [segs_divided]; simp)
    have s1 := hsurf 1 (by rw [segs_divided]; simp)
    unfold inside
    rcases kernel_cases (ty := Cone.universal) (hr.steps divided_valid) true ⟨2, 0, 0⟩ with ⟨-, hz⟩ | ⟨i, hi, -, h1, h2, h3, h4⟩ | ⟨i, hi, h1, h2, e⟩
    · exfalso
      rw [hl, z0, z2] at hz
      norm_num at hz
    · exfalso
      have hi2 : i < 2 := by omega
      have : i = 0 ∨ i = 1 := by omega
      rw [hl] at h2
      rcases this with rfl | rfl
      · rw [z1, htol] at h2; norm_num at h2
      · rw [z1, htol] at h1; norm_num at h1
    · have : i = 0 := by omega
      subst this
      have hb : (¬ SecIn Cone.universal true t (0 : ℕ) ⟨2, 0, 0⟩ ∧ ¬ SecOut Cone.universal true t (0 : ℕ) ⟨2, 0, 0⟩) ∧
          (¬ SecIn Cone.universal true t (0 + 1 : ℕ) ⟨2, 0, 0⟩ ∧ ¬ SecOut Cone.universal true t (0 + 1 : ℕ) ⟨2, 0, 0⟩) := ⟨s0, s1⟩
      rw [if_pos hb] at e
      rw [e, if_pos trivial]
  · rintro e he ⟨a, b, hn, hp⟩
    have := hp.hi
    have hrad : rad (⟨2 + e, 0, 0⟩ : V3) = 2 + e := by
      unfold rad; rw [show (2 + e) ^ 2 + 0 ^ 2 = (2 + e) ^ 2 by ring, sqrt_sq (by linarith)]
    rw [hrad] at this
    rcases infix_divided hn.1 with ⟨rfl, rfl⟩ | ⟨rfl, rfl⟩ <;> norm_num [lerp] at this <;> linarith

/-- C148 fails near inner planes: a point with everything within 1/2 in the polycone is reported on the surface. -/
theorem C148_near_plane_counterexample : ∃ t, make 0 (2 * π) divided = some t ∧ inside Cone.universal t ⟨0, 0, 1 / 10 ^ 8⟩ = .surface ∧
    ∀ q, V3.dist ⟨0, 0, 1 / 10 ^ 8⟩ q < 1 / 2 → Closed 0 (2 * π) divided q := by
  obtain ⟨t, ht⟩ := make_some divided_valid
  have hr := make_repr divided_valid ht
  obtain ⟨z0, z1, z2, hl⟩ := divided_z hr
  have htol : kTolerance = 1 / 10 ^ 9 := by norm_num [kTolerance]
  refine ⟨t, ht, ?_, ?_⟩
  · rcases kernel_cases (ty := Cone.universal) (hr.steps divided_valid) true ⟨0, 0, 1 / 10 ^ 8⟩ with ⟨-, hz⟩ | ⟨i, hi, e, h1, h2, h3, h4⟩ | ⟨i, hi, h1, h2, e⟩
    · exfalso
      rw [hl, z0, z2] at hz
      norm_num at hz
    · have hi1 : i = 1 := by
        by_contra hne
        have : i = 0 := by omega
        subst this
        rw [z1, htol] at h4; norm_num at h4
      subst hi1
      rw [inside_of_section e, hr.sec (by rw [segs_divided]; simp)]
      simp only [segs_divided, List.getElem_cons_succ, List.getElem_cons_zero, par]
      norm_num only [lower]
      have hv : (Cone.Par.mk 0 2 0 2 (1 / 2) 0 (2 * π)).Valid := ⟨by norm_num, by norm_num, by norm_num, by norm_num, by norm_num, by norm_num, by positivity, Or.inr rfl⟩
      have hfx : (Cone.Par.mk 0 2 0 2 (1 / 2) 0 (2 * π)).fix = ⟨0, 2, 0, 2, 1 / 2, 0, 2 * π⟩ := by
        unfold Cone.Par.fix; norm_num
      have hk : Cone.kConeTolerance = 1 / 10 ^ 7 := rfl
      have hC := Cone.C142_inside hv (Cone.fits_universal _) (by rw [hfx, hk]; norm_num) (by rw [hfx, hk]; norm_num) ⟨0, 0, -49999999 / 100000000⟩
      cases hx : Cone.inside Cone.universal (Cone.of ⟨0, 2, 0, 2, 1 / 2, 0, 2 * π⟩) ⟨0, 0, -49999999 / 100000000⟩ with
      | surface => rw [neg_div] at hx; exact hx
      | outside =>
        exfalso
        have := (hC.2.1 hx ?_).1
        · rcases this with h | h <;> norm_num at h
        · rw [hfx]
          have hrad : rad (⟨0, 0, -49999999 / 100000000⟩ : V3) = 0 := by unfold rad; norm_num
          refine ⟨?_, ?_, ?_, full_sector _ _⟩
          · simp only; rw [abs_le]; constructor <;> norm_num
          · rw [hrad]; norm_num [Cone.Par.inner, Cone.line]
          · rw [hrad]; norm_num [Cone.Par.outer, Cone.line]
      | inside =>
        exfalso
        have hci : Cone.CompletelyInside Cone.universal (Cone.of ⟨0, 2, 0, 2, 1 / 2, 0, 2 * π⟩) ⟨0, 0, -49999999 / 100000000⟩ := by
          unfold Cone.inside at hx
          split at hx
          · assumption
          · split at hx <;> simp at hx
        have := hci.1
        rw [Cone.of_dz hv, hk] at this
        have h' : |(-49999999 / 100000000 : ℝ)| = 49999999 / 100000000 := by rw [abs_of_neg (by norm_num)]; norm_num
        simp only [h'] at this
        norm_num at this
    · exfalso
      have : i = 0 := by omega
      subst this
      rw [z1, htol] at h2
      norm_num at h2
  · intro q hq
    have hrq : rad q ≤ 2 := by
      refine le_trans ?_ (le_trans hq.le (by norm_num))
      unfold rad V3.dist V3.dist2
      refine sqrt_le_sqrt ?_
      simp only
      nlinarith [sq_nonneg (1 / 10 ^ 8 - q.z)]
    have hz : |1 / 10 ^ 8 - q.z| ≤ 1 / 2 := by
      refine le_trans ?_ hq.le
      rw [← sqrt_sq_eq_abs]
      unfold V3.dist V3.dist2
      refine sqrt_le_sqrt ?_
      simp only
      nlinarith [sq_nonneg (0 - q.x), sq_nonneg (0 - q.y)]
    rw [abs_le] at hz
    norm_num at hz
    rcases le_total q.z 0 with h | h
    · refine ⟨⟨-1, 0, 2⟩, ⟨0, 0, 2⟩, ⟨⟨[], [⟨1, 0, 2⟩], rfl⟩, by norm_num⟩, ?_, h, ?_, ?_, full_sector _ _⟩
      · simp only; linarith [hz.2]
      · norm_num [lerp]; exact rad_nonneg q
      · norm_num [lerp]; exact hrq
    · refine ⟨⟨0, 0, 2⟩, ⟨1, 0, 2⟩, ⟨⟨[⟨-1, 0, 2⟩], [], rfl⟩, by norm_num⟩, h, ?_, ?_, ?_, full_sector _ _⟩
      · simp only; linarith [hz.1]
      · norm_num [lerp]; exact rad_nonneg q
      · norm_num [lerp]; exact hrq

/-! ## Safeties -/

theorem scan_le (gap saf : ℕ → ℝ) : ∀ (l : List ℕ) (m : ℝ), scan gap saf l m ≤ m
  | [], m => le_refl m
  | i :: is, m => by
    unfold scan
    split
    · exact le_refl m
    · refine (scan_le gap saf is _).trans ?_
      split
      · rename_i h; exact h.le
      · exact le_refl m

theorem scan_ge {gap saf : ℕ → ℝ} {c : ℝ} : ∀ (l : List ℕ) (m : ℝ), c ≤ m → (∀ i ∈ l, c ≤ saf i) → c ≤ scan gap saf l m
  | [], m, h, _ => h
  | i :: is, m, h, hs => by
    unfold scan
    split
    · exact h
    · refine scan_ge is _ ?_ fun j hj => hs j (List.mem_cons_of_mem _ hj)
      split
      · exact hs i List.mem_cons_self
      · exact h

theorem scan_bound {gap saf : ℕ → ℝ} {j : ℕ} : ∀ (l : List ℕ) (m : ℝ), l.Pairwise (fun a b => gap a ≤ gap b) → j ∈ l →
    scan gap saf l m ≤ saf j ∨ scan gap saf l m ≤ gap j
  | [], _, _, h => by simp at h
  | i :: is, m, hp, h => by
    rw [List.pairwise_cons] at hp
    unfold scan
    split
    · rename_i hg
      right
      rcases List.mem_cons.mp h with rfl | h
      · exact hg
      · exact le_trans hg (hp.1 j h)
    · rcases List.mem_cons.mp h with rfl | h
      · left
        refine (scan_le _ _ _ _).trans ?_
        split
        · exact le_refl _
        · rename_i h; exact not_lt.mp h
      · exact scan_bound is _ hp.2 h

theorem scan_head {gap saf : ℕ → ℝ} (j : ℕ) (l : List ℕ) (m : ℝ) : scan gap saf (j :: l) m ≤ saf j ∨ scan gap saf (j :: l) m ≤ gap j := by
  unfold scan
  split
  · rename_i hg; exact Or.inr hg
  · left
    refine (scan_le _ _ _ _).trans ?_
    split
    · exact le_refl _
    · rename_i h; exact not_lt.mp h

theorem around_le (t : Struct) (i : ℕ) (p : V3) (m : ℝ) : around ty t i p m ≤ m := by
  unfold around
  simp only
  split
  · exact (scan_le _ _ _ _).trans (scan_le _ _ _ _)
  · exact scan_le _ _ _ _

theorem lower_dist (p q : V3) (c : ℝ) : V3.dist (lower p c) (lower q c) = V3.dist p q := by
  unfold lower V3.dist V3.dist2
  simp only
  ring_nf

theorem snap_small {x : ℝ} (h : Cone.snap x < kTolerance) : Cone.snap x ≤ 0 := by
  have ht := kTolerance_pos
  unfold Cone.snap at h ⊢
  split
  · exact le_refl _
  · rename_i hn
    rw [if_neg hn] at h
    by_contra hc
    push Not at hc
    exact hn (by rw [abs_of_pos hc]; exact h)

theorem small_in {c : Cone.Struct} {p : V3} (h : Cone.safetyToIn ty c p < kTolerance) : Cone.safetyToIn ty c p ≤ 0 := by
  unfold Cone.safetyToIn at h ⊢
  split
  · norm_num
  · rename_i hn
    rw [if_neg hn] at h
    exact snap_small h

theorem section_safety (hv : Valid s d ps) (hr : Repr s d ps t) (hf : Fits ty s d ps) {j : ℕ} (hj : j < (segs ps).length) (p q : V3)
    (hq : ClosedPart s d (segs ps)[j].1.fix (segs ps)[j].2.fix q) :
    Cone.safetyToIn ty (secAt t j).solid (lower p (secAt t j).shift) ≤ V3.dist p q := by
  have hn := seg_next hj
  rw [hr.sec hj, ← lower_dist p q (((segs ps)[j].1.z + (segs ps)[j].2.z) / 2)]
  refine Cone.C143_safetyToIn (par_valid hv hn) (hf _ _ hn) _ _ ?_
  rw [par_fix]
  exact (closed_iff (a := (segs ps)[j].1.fix) (b := (segs ps)[j].2.fix) hn.2 q).mpr hq

/-- The parts that `SafetyToIn` takes into account for a point: the lowest for points below all planes, the highest for points above
all planes, else all but those with a plane between them and the point. -/
def Counted (ps : List Plane) (a b : Plane) (z : ℝ) : Prop :=
  ((∀ c ∈ ps, z < c.z) ∧ ∀ c ∈ ps, a.z ≤ c.z) ∨ ((∀ c ∈ ps, c.z < z) ∧ ∀ c ∈ ps, c.z ≤ b.z) ∨
  ((∃ c ∈ ps, c.z ≤ z) ∧ (∃ c ∈ ps, z ≤ c.z) ∧ ∀ c ∈ ps, ¬ (b.z < c.z ∧ c.z < z))

/-- C149: `SafetyToIn` is a lower bound of the distance to the points of those parts. -/
theorem C149_safetyToIn_partial (hv : Valid s d ps) (ht : make s d ps = some t) (hf : Fits ty s d ps) (p q : V3) {a b : Plane}
    (hn : Next ps a b) (hc : Counted ps a b p.z) (hq : ClosedPart s d a.fix b.fix q) : safetyToIn ty t p ≤ V3.dist p q := by
  have hr := make_repr hv ht
  have hs := hr.steps hv
  have hl := hr.len
  obtain ⟨j, hj, ej⟩ := List.getElem_of_mem (mem_segs.mpr hn)
  have q1 : (segs ps)[j].1 = a := by rw [ej]
  have q2 : (segs ps)[j].2 = b := by rw [ej]
  rw [← q1, ← q2] at hq hc
  clear q1 q2 ej
  have hsec := section_safety hv hr hf hj p q hq
  have hz := closed_height hv hr hj hq
  have hdist := V3.abs_z_le_dist p q
  rw [abs_le] at hdist
  have hd0 := V3.dist_nonneg' p q
  have hidx := C147_index hv ht p.z
  have mem1 : ∀ i (hi : i < (segs ps).length), (segs ps)[i].1 ∈ ps := fun i hi => (seg_next hi).1.subset (by simp)
  have mem2 : ∀ i (hi : i < (segs ps).length), (segs ps)[i].2 ∈ ps := fun i hi => (seg_next hi).1.subset (by simp)
  unfold safetyToIn
  simp only
  rcases hc with ⟨h1, h2⟩ | ⟨h1, h2⟩ | ⟨⟨c1, k1, k1'⟩, ⟨c2, k2, k2'⟩, h3⟩
  · have e := hidx.1.mpr h1
    have j0 : j = 0 := by
      by_contra hne
      have := hs.lt (i := 0) (j := j) (by omega) (by omega)
      have h := h2 _ (mem1 0 (by omega))
      rw [← hr.z1 hv hj, ← hr.z1 hv (by omega)] at h
      linarith [kTolerance_pos]
    subst j0
    rw [e, if_pos (by norm_num), if_pos rfl]
    exact hsec
  · have e := hidx.2.1.mpr h1
    have j0 : j = t.secs.length - 1 := by
      by_contra hne
      have := hs.lt (i := j + 1) (j := t.secs.length) (by omega) (by omega)
      have h := h2 _ (mem2 (t.secs.length - 1) (by omega))
      rw [← hr.z2 hv hj, ← hr.z2 hv (by omega), show t.secs.length - 1 + 1 = t.secs.length by omega] at h
      linarith [kTolerance_pos]
    rw [e, if_pos (by norm_num), if_neg (by norm_num), ← j0]
    exact hsec
  · rcases index_cases hs p.z with ⟨e, -⟩ | ⟨i, hi, e, g1, g2, g3⟩ | ⟨e, -⟩
    · exact absurd (hidx.1.mp e _ k1) (not_lt.mpr k1')
    · have hji : i ≤ j + 1 := by
        by_contra hne
        push Not at hne
        refine h3 _ (mem1 i (by omega)) ⟨?_, ?_⟩
        · have := hs.lt hne (by omega)
          rw [← hr.z2 hv hj, ← hr.z1 hv (by omega)]
          linarith [kTolerance_pos]
        · rw [← hr.z1 hv (by omega)]
          exact g3 (by omega)
      rw [e, if_neg (by omega), Int.toNat_natCast]
      rcases lt_trichotomy i j with hij | rfl | hij
      · split
        · rename_i hlt
          exact (small_in hlt).trans hd0
        refine le_trans (b := scan (fun k => zAt t k - zAt t (i + 1)) (fun k => Cone.safetyToIn ty (secAt t k).solid (lower p (secAt t k).shift))
            (List.range' (i + 1) (t.secs.length - (i + 1)))
            (Cone.safetyToIn ty (secAt t i).solid (lower p (secAt t i).shift))) ?_ ?_
        · unfold around
          simp only
          split
          · exact scan_le _ _ _ _
          · exact le_refl _
        · have hp : (List.range' (i + 1) (t.secs.length - (i + 1))).Pairwise (fun a b => zAt t a - zAt t (i + 1) ≤ zAt t b - zAt t (i + 1)) := by
            have := List.pairwise_lt_range' (s := i + 1) (n := t.secs.length - (i + 1))
            refine this.imp_of_mem ?_
            intro a b ha hb hab
            rw [List.mem_range'_1] at hb
            have := hs.le (i := a) (j := b) hab.le (by omega)
            linarith
          rcases scan_bound (saf := fun k => Cone.safetyToIn ty (secAt t k).solid (lower p (secAt t k).shift))
            _ (Cone.safetyToIn ty (secAt t i).solid (lower p (secAt t i).shift)) hp (j := j) (List.mem_range'_1.mpr (by omega)) with h | h
          · exact h.trans hsec
          · exact h.trans (by linarith)
      · split
        · exact hsec
        · exact (around_le _ _ _ _).trans hsec
      · have : i = j + 1 := by omega
        subst this
        split
        · rename_i hlt
          exact (small_in hlt).trans hd0
        unfold around
        simp only
        rw [if_pos (by omega), List.range_succ, List.reverse_append, List.reverse_singleton, List.singleton_append]
        rcases scan_head (gap := fun k => zAt t (j + 1 - 1) - zAt t k) (saf := fun k => Cone.safetyToIn ty (secAt t k).solid (lower p (secAt t k).shift))
          j (List.range j).reverse _ with h | h
        · exact h.trans hsec
        · refine h.trans ?_
          simp only [Nat.add_sub_cancel, sub_self]
          exact hd0
    · exact absurd (hidx.2.1.mp e _ k2) (not_lt.mpr k2')

/-- C149: `SafetyToOut` is a lower bound of the distance to every point that is not in the polycone. -/
theorem C149_safetyToOut (hv : Valid s d ps) (ht : make s d ps = some t) (hf : Fits ty s d ps) (p q : V3)
    (hq : ¬ Closed s d (ps.map Plane.fix) q) : safetyToOut ty t p ≤ V3.dist p q := by
  have hr := make_repr hv ht
  have hs := hr.steps hv
  have hd0 := V3.dist_nonneg' p q
  unfold safetyToOut
  split
  · linarith
  simp only
  rcases index_cases hs p.z with ⟨e, -⟩ | ⟨i, hi, e, -⟩ | ⟨e, -⟩
  · rw [e, if_pos (by norm_num)]; linarith
  · rw [e, if_neg (by omega), Int.toNat_natCast]
    split
    · exact hd0
    split
    · exact hd0
    refine (around_le _ _ _ _).trans ?_
    rw [hr.len] at hi
    have hn := seg_next hi
    rw [hr.sec hi, ← lower_dist p q (((segs ps)[i].1.z + (segs ps)[i].2.z) / 2)]
    refine Cone.C143_safetyToOut (par_valid hv hn) (hf _ _ hn) _ _ ?_
    rw [par_fix]
    intro hc
    exact hq ((closed_index q).mpr ⟨i, hi, (closed_iff (a := (segs ps)[i].1.fix) (b := (segs ps)[i].2.fix) hn.2 q).mp hc⟩)
  · rw [e, if_pos (by norm_num)]; linarith

theorem cone_in_nonneg {a : Cone.Par} (hv : a.Valid) {p : V3} (h : a.z ≤ |p.z|) : 0 ≤ Cone.safetyToIn ty (Cone.of a) p := by
  have hk := Cone.kConeTolerance_pos
  unfold Cone.safetyToIn
  rw [if_neg, Cone.of_dz hv]
  · simp only
    apply Cone.snap_nonneg
    split
    · exact le_max_of_le_right (le_max_of_le_left (by linarith))
    · exact le_max_of_le_left (by linarith)
  · rintro ⟨h1, -⟩
    rw [Cone.of_dz hv] at h1
    linarith

theorem other_nonneg (hv : Valid s d ps) (hr : Repr s d ps t) {i j : ℕ} (hi : i < t.secs.length) (hj : j < t.secs.length) (hne : j ≠ i)
    {p : V3} (h1 : zAt t i ≤ p.z) (h2 : p.z ≤ zAt t (i + 1)) :
    0 ≤ Cone.safetyToIn ty (secAt t j).solid (lower p (secAt t j).shift) := by
  have hs := hr.steps hv
  rw [hr.len] at hj
  have hn := seg_next hj
  have e1 := hr.z1 hv hj
  have e2 := hr.z2 hv hj
  have hl := hr.len
  rw [hr.sec hj]
  refine cone_in_nonneg (par_valid hv hn) ?_
  simp only [par, lower]
  rw [← e1, ← e2]
  rcases lt_or_gt_of_ne hne with h | h
  · have := hs.le (i := j + 1) (j := i) (by omega) (by omega)
    exact le_trans (by linarith) (le_abs_self _)
  · have := hs.le (i := i + 1) (j := j) (by omega) (by omega)
    exact le_trans (by linarith) (neg_le_abs _)

theorem around_nonneg (hv : Valid s d ps) (hr : Repr s d ps t) {i : ℕ} (hi : i < t.secs.length) {p : V3} (h1 : zAt t i ≤ p.z)
    (h2 : p.z ≤ zAt t (i + 1)) {m : ℝ} (hm : 0 ≤ m) : 0 ≤ around ty t i p m := by
  unfold around
  simp only
  have hA := scan_ge (c := 0) (gap := fun i_1 => zAt t i_1 - zAt t (i + 1))
    (saf := fun k => Cone.safetyToIn ty (secAt t k).solid (lower p (secAt t k).shift)) (List.range' (i + 1) (t.secs.length - (i + 1))) m hm
    (fun j hj => by
      rw [List.mem_range'_1] at hj
      exact other_nonneg hv hr hi (by omega) (by omega) h1 h2)
  split
  · refine scan_ge _ _ hA fun j hj => ?_
    rw [List.mem_reverse, List.mem_range] at hj
    exact other_nonneg hv hr hi (by omega) (by omega) h1 h2
  · exact hA

/-- C149: `SafetyToOut` is minus one or not negative, and it is not negative in the polycone, but in the tip of a bore. -/
theorem C149_safetyToOut_sign (hv : Valid s d ps) (ht : make s d ps = some t) (hf : Fits ty s d ps) (p : V3) :
    (safetyToOut ty t p = -1 ∨ 0 ≤ safetyToOut ty t p) ∧
    (Closed s d (ps.map Plane.fix) p →
      (∀ a b, Next ps a b → (0 < a.rmin ∨ 0 < b.rmin) → boreTol a b < lerp a.z a.rmin b.z b.rmin p.z ∨ boreTol a b < rad p) →
      0 ≤ safetyToOut ty t p) := by
  have hr := make_repr hv ht
  have hs := hr.steps hv
  have key : safetyToOut ty t p = -1 ∧ ((kernel ty true t p).2 ∨ sectionIndex t p.z < 0) ∨ 0 ≤ safetyToOut ty t p := by
    unfold safetyToOut
    by_cases ho : (kernel ty true t p).2
    · rw [if_pos ho]; exact Or.inl ⟨rfl, Or.inl ho⟩
    rw [if_neg ho]
    simp only
    rcases index_cases hs p.z with ⟨e, -⟩ | ⟨i, hi, e, g1, g2, -⟩ | ⟨e, -⟩
    · rw [e, if_pos (by norm_num)]; exact Or.inl ⟨rfl, Or.inr (by norm_num)⟩
    · right
      rw [e, if_neg (by omega), Int.toNat_natCast]
      split
      · exact le_refl _
      split
      · exact le_refl _
      rename_i hge
      exact around_nonneg hv hr hi g1 g2 (le_trans kTolerance_pos.le (not_lt.mp hge))
    · rw [e, if_pos (by norm_num)]; exact Or.inl ⟨rfl, Or.inr (by norm_num)⟩
  refine ⟨key.imp (fun h => h.1) id, fun hc hb => ?_⟩
  rcases key with ⟨-, h | h⟩ | h
  · exfalso
    obtain ⟨a, b, h1, h2, h3, h4⟩ := out_tip hv hr hf h hc
    rcases hb a b h1 h2 with h5 | h5 <;> linarith
  · exfalso
    obtain ⟨j, hj, hp⟩ := (closed_index p).mp hc
    have g := closed_height hv hr hj hp
    have hl := hr.len
    have g1 := hs.le (i := 0) (j := j) (by omega) (by omega)
    have g2 := hs.le (i := j + 1) (j := t.secs.length) (by omega) (le_refl _)
    rcases index_cases hs p.z with ⟨e, h'⟩ | ⟨i, hi, e, -⟩ | ⟨e, h'⟩
    · linarith
    · rw [e] at h; omega
    · linarith
  · exact h

/-- C149: `SafetyToIn` is not negative outside the polycone. -/
theorem C149_safetyToIn_sign (hv : Valid s d ps) (ht : make s d ps = some t) (hf : Fits ty s d ps) (hw : Wide ps) (p : V3)
    (hc : ¬ Closed s d (ps.map Plane.fix) p) : 0 ≤ safetyToIn ty t p := by
  have hr := make_repr hv ht
  have hs := hr.steps hv
  have hl := hr.len
  have hne := hs.ne
  have own : ∀ j, j < t.secs.length → 0 ≤ Cone.safetyToIn ty (secAt t j).solid (lower p (secAt t j).shift) := by
    intro j hj
    rw [hl] at hj
    have hn := seg_next hj
    have m1 : (segs ps)[j].1 ∈ ps := hn.1.subset (by simp)
    have m2 : (segs ps)[j].2 ∈ ps := hn.1.subset (by simp)
    rw [hr.sec hj]
    refine (Cone.C143_safetyToIn_sign (par_valid hv hn) (hf _ _ hn) (by rw [par_fix]; exact hw _ m1) (by rw [par_fix]; exact hw _ m2) _).1 ?_
    rw [par_fix]
    intro h
    exact hc ((closed_index p).mpr ⟨j, hj, (closed_iff (a := (segs ps)[j].1.fix) (b := (segs ps)[j].2.fix) hn.2 p).mp h⟩)
  unfold safetyToIn
  simp only
  rcases index_cases hs p.z with ⟨e, -⟩ | ⟨i, hi, e, g1, g2, -⟩ | ⟨e, -⟩
  · rw [e, if_pos (by norm_num)]
    exact own _ (by split <;> omega)
  · rw [e, if_neg (by omega), Int.toNat_natCast]
    split
    · exact own i hi
    · exact around_nonneg hv hr hi g1 g2 (own i hi)
  · rw [e, if_pos (by norm_num)]
    exact own _ (by split <;> omega)

end Polycone
end VecGeom

import Verif.CutTube.Lemmas

/-!
# Properties of cut tubes: containment, safeties, the way out
-/

namespace VecGeom
namespace CutTube

open Real

variable {a : Par}

theorem kInf_huge : (10 : ℝ) ^ 100 < kInfLength := by
  unfold kInfLength
  have h1 : (10 : ℝ) ^ 100 ≤ 2 ^ 1020 := by
    rw [show (100 : ℕ) = 2 * 50 from rfl, show (1020 : ℕ) = 10 * 102 from rfl, pow_mul, pow_mul]
    calc ((10 : ℝ) ^ 2) ^ 50 ≤ ((2 : ℝ) ^ 10) ^ 50 := pow_le_pow_left₀ (by norm_num) (by norm_num) _
      _ ≤ ((2 : ℝ) ^ 10) ^ 102 := pow_le_pow_right₀ (by norm_num) (by norm_num)
  have h2 : (2 : ℝ) ^ 1020 < 2 ^ 1023 := pow_lt_pow_right₀ (by norm_num) (by norm_num)
  have h3 : (1 : ℝ) ≤ 2 - 1 / 2 ^ 52 := by norm_num
  have h4 : (0 : ℝ) < 2 ^ 1023 := pow_pos (by norm_num) _
  generalize (2 : ℝ) ^ 1023 = A at *
  generalize (2 : ℝ) ^ 1020 = B at *
  generalize (10 : ℝ) ^ 100 = C at *
  nlinarith

/-- A quarter of a pipe between two slanted planes. -/
noncomputable def skew : Par := ⟨1, 2, 5, 0, π / 2, ⟨0, 3, -4⟩, ⟨3, 0, 4⟩⟩

theorem skew_valid : skew.Valid := by
  have := pi_pos
  have hk := kInf_huge
  have hm := kMinimum_lt
  have cl : ∀ x y z : ℝ, x ^ 2 + y ^ 2 + z ^ 2 = 25 → (∀ c, c = x ∨ c = y ∨ c = z → c = 0 ∨ 9 ≤ c ^ 2) → Clean ⟨x, y, z⟩ := by
    intro x y z h hc c h1
    refine (hc c h1).imp id fun h2 => ?_
    simp only
    rw [h]
    norm_num [kTolerance]
    linarith
  constructor
  · norm_num [skew]
  · norm_num [skew]
  · norm_num [skew]
  · show 0 < π / 2; linarith
  · show π / 2 ≤ _; linarith
  · norm_num [skew]
  · norm_num [skew]
  · exact cl 0 3 (-4) (by norm_num) (by rintro c (rfl | rfl | rfl) <;> norm_num)
  · exact cl 3 0 4 (by norm_num) (by rintro c (rfl | rfl | rfl) <;> norm_num)
  · show 10 * (5 + 10 ^ 9 * 2) < kInfLength; norm_num at *; linarith

theorem skew_len : len skew.nb = 5 ∧ len skew.nt = 5 := by
  constructor
  · show √((0 : ℝ) ^ 2 + 3 ^ 2 + (-4) ^ 2) = 5
    rw [show (0 : ℝ) ^ 2 + 3 ^ 2 + (-4) ^ 2 = 5 ^ 2 by norm_num]; exact sqrt_sq (by norm_num)
  · show √((3 : ℝ) ^ 2 + 0 ^ 2 + 4 ^ 2) = 5
    rw [show (3 : ℝ) ^ 2 + 0 ^ 2 + 4 ^ 2 = 5 ^ 2 by norm_num]; exact sqrt_sq (by norm_num)

theorem skew_bottom (p : V3) : skew.bottom p = (3 * p.y - 4 * (p.z + 5)) / 5 := by
  unfold Par.bottom; rw [skew_len.1]; simp only [skew]; ring
theorem skew_top (p : V3) : skew.top p = (3 * p.x + 4 * (p.z - 5)) / 5 := by
  unfold Par.top; rw [skew_len.2]; simp only [skew]; ring

/-! ## C119: containment -/

/-- C119: the constructor refuses normals that do not point to their side, and keeps every other plane that has no component below
`1e-9` of its length, as a unit normal with the heights of the given plane. -/
theorem C119_planes (rmin rmax z s d : ℝ) (nb nt : V3) :
    (construct rmin rmax z s d nb nt = none ↔ 0 ≤ nb.z ∨ nt.z ≤ 0) ∧
    (∀ t, construct rmin rmax z s d nb nt = some t → Clean nb → Clean nt →
      (∃ k, 0 < k ∧ t.cuts.p0.n = V3.smul k nb) ∧ (∃ k, 0 < k ∧ t.cuts.p1.n = V3.smul k nt) ∧ len t.cuts.p0.n = 1 ∧ len t.cuts.p1.n = 1 ∧
      ∀ p, distPlane t.cuts.p0 p = (Par.mk rmin rmax z s d nb nt).bottom p ∧ distPlane t.cuts.p1 p = (Par.mk rmin rmax z s d nb nt).top p) := by
  unfold construct
  constructor
  · simp only [ge_iff_le, ite_eq_left_iff, reduceCtorEq, imp_false, not_not]
  · intro t ht cb ct
    split at ht
    · exact absurd ht (by simp)
    · rename_i h
      push Not at h
      have lb := len_pos h.1.ne
      have lt := len_pos h.2.ne'
      injection ht with ht
      have e0 : t.cuts.p0 = ⟨V3.smul (1 / len nb) nb, -(nb.dot ⟨0, 0, -z⟩) / len nb⟩ := by rw [← ht]; exact setPlane_unit h.1.ne cb
      have e1 : t.cuts.p1 = ⟨V3.smul (1 / len nt) nt, -(nt.dot ⟨0, 0, z⟩) / len nt⟩ := by rw [← ht]; exact setPlane_unit h.2.ne' ct
      have ln : ∀ n : V3, 0 < len n → len (V3.smul (1 / len n) n) = 1 := by
        intro n hn
        have h2 := len_sq n
        show √((1 / len n * n.x) ^ 2 + (1 / len n * n.y) ^ 2 + (1 / len n * n.z) ^ 2) = 1
        rw [show (1 / len n * n.x) ^ 2 + (1 / len n * n.y) ^ 2 + (1 / len n * n.z) ^ 2 = (n.x ^ 2 + n.y ^ 2 + n.z ^ 2) / len n ^ 2 by field_simp,
          ← h2, div_self (by positivity), sqrt_one]
      refine ⟨⟨1 / len nb, by positivity, by rw [e0]⟩, ⟨1 / len nt, by positivity, by rw [e1]⟩, by rw [e0]; exact ln nb lb, by rw [e1]; exact ln nt lt,
        fun p => ⟨?_, ?_⟩⟩
      · rw [e0]
        unfold distPlane Par.bottom V3.dot
        simp only [V3.smul_x, V3.smul_y, V3.smul_z]
        field_simp
        ring
      · rw [e1]
        unfold distPlane Par.top V3.dot
        simp only [V3.smul_x, V3.smul_y, V3.smul_z]
        field_simp
        ring

example : ∃ t, construct 1 2 5 0 (π / 2) ⟨0, 3, -4⟩ ⟨3, 0, 4⟩ = some t := by
  refine ⟨make 1 2 5 0 (π / 2) ⟨0, 3, -4⟩ ⟨3, 0, 4⟩, ?_⟩
  unfold construct
  rw [if_neg (by norm_num)]

/-- A top normal that is flatter than the tolerance is accepted, and stored as horizontal: the solid gets no top, and `ZlimitTop`,
the capacity and the areas divide by zero. -/
theorem C119_flat_counterexample : ∃ t, construct 1 2 5 0 (2 * π) ⟨0, 0, -1⟩ ⟨1, 0, 1 / 10 ^ 10⟩ = some t ∧ t.cuts.p1.n.z = 0 := by
  refine ⟨make 1 2 5 0 (2 * π) ⟨0, 0, -1⟩ ⟨1, 0, 1 / 10 ^ 10⟩, ?_, ?_⟩
  · unfold construct
    rw [if_neg (by norm_num)]
  · have hr := V3.unit_root_pos ⟨1, 0, 1 / 10 ^ 10⟩
    show (setPlane (V3.unit ⟨1, 0, 1 / 10 ^ 10⟩) ⟨0, 0, 5⟩).n.z = 0
    have hz : (fixZeroes (V3.unit ⟨1, 0, 1 / 10 ^ 10⟩)).z = 0 := by
      have h1 : 1 ≤ √(V3.mag2 ⟨1, 0, 1 / 10 ^ 10⟩ + kMinimum) := by
        apply le_sqrt_of_sq_le
        unfold V3.mag2 V3.dot
        simp only
        linarith [kMinimum_pos, sq_nonneg ((1 : ℝ) / 10 ^ 10)]
      show (open Classical in if |1 / 10 ^ 10 / √(V3.mag2 ⟨1, 0, 1 / 10 ^ 10⟩ + kMinimum)| < kTolerance then 0 else _) = (0 : ℝ)
      rw [if_pos]
      generalize √(V3.mag2 ⟨1, 0, 1 / 10 ^ 10⟩ + kMinimum) = r at *
      rw [abs_div, abs_of_pos hr, div_lt_iff₀ hr]
      norm_num [kTolerance]
      linarith
    show _ * (fixZeroes (V3.unit ⟨1, 0, 1 / 10 ^ 10⟩)).z = 0
    rw [hz, mul_zero]

theorem cuts_contains (hv : a.Valid) (p : V3) : (of a).cuts.contains p = true ↔ a.bottom p < 0 ∧ a.top p < 0 := by
  unfold Cuts.contains
  rw [decide_eq_true_eq, dist_p0 hv, dist_p1 hv]

/-- C119: `Contains` holds exactly for the points of the tube strictly below both planes. -/
theorem C119_contains (hv : a.Valid) (p : V3) : contains (of a) p = true ↔ a.In p := by
  unfold contains
  have ht := Tube.C77_contains (tb_valid hv) (tb_fits a) p
  rw [← of_tube] at ht
  have hc := cuts_contains hv p
  constructor
  · intro h
    split at h
    · simp at h
    · rw [Bool.and_eq_true] at h
      have h1 := ht.mp h.1
      have h2 := hc.mp h.2
      exact ⟨h1.lo, h1.hi, h1.phi, h2.1, h2.2⟩
  · intro h
    have h2 := hc.mpr ⟨h.bot, h.top⟩
    rw [h2, if_neg (by simp), Bool.and_eq_true]
    exact ⟨ht.mpr ⟨z_lt hv h.hi h.bot.le h.top.le, h.lo, h.hi, h.phi⟩, rfl⟩

theorem skew_in : skew.In ⟨1, 1, 0⟩ := by
  have hp := pi_pos
  have h2 : (1 : ℝ) < √2 := lt_sqrt_of_sq_lt (by norm_num)
  have hr : Tube.rad ⟨1, 1, 0⟩ = √2 := by unfold Tube.rad; norm_num
  refine ⟨fun _ => by rw [hr]; exact h2, ?_, ?_, ?_, ?_⟩
  · rw [hr]
    have := sq_sqrt (show (0 : ℝ) ≤ 2 by norm_num)
    show √2 ≤ 2
    nlinarith
  · rw [show skew.s = 0 from rfl, show skew.d = π / 2 from rfl, sector_small (by linarith) (by linarith)]
    norm_num
  · rw [skew_bottom]; norm_num
  · rw [skew_top]; norm_num

example : contains (of skew) ⟨1, 1, 0⟩ = true := (C119_contains skew_valid _).mpr skew_in

theorem cuts_inside (hv : a.Valid) (p : V3) :
    ((of a).cuts.inside p = .inside ↔ a.bottom p ≤ -kTolerance ∧ a.top p ≤ -kTolerance) ∧
    ((of a).cuts.inside p = .surface ↔ |a.bottom p| < kTolerance ∨ |a.top p| < kTolerance) ∧
    ((of a).cuts.inside p = .outside ↔ (kTolerance ≤ |a.bottom p| ∧ kTolerance ≤ |a.top p|) ∧ (kTolerance ≤ a.bottom p ∨ kTolerance ≤ a.top p)) := by
  have ht := kTolerance_pos
  unfold Cuts.inside
  simp only [dist_p0 hv, dist_p1 hv]
  generalize a.bottom p = x
  generalize a.top p = y
  have big : ∀ {u : ℝ}, kTolerance ≤ |u| → u ≤ -kTolerance ∨ kTolerance ≤ u := fun h => (le_abs.mp h).elim .inr (fun h => .inl (by linarith))
  have lo : ∀ {u : ℝ}, u ≤ -kTolerance → ¬ |u| < kTolerance := fun h => by rw [abs_of_nonpos (by linarith)]; linarith
  have hi : ∀ {u : ℝ}, kTolerance ≤ u → ¬ |u| < kTolerance := fun h => by rw [abs_of_nonneg (by linarith)]; linarith
  refine ⟨⟨?_, ?_⟩, ⟨?_, ?_⟩, ⟨?_, ?_⟩⟩
  · intro h
    split at h
    · cases h
    · rename_i hn
      push Not at hn
      split at h
      · rename_i h1
        exact ⟨(big hn.1).resolve_right (by linarith), (big hn.2).resolve_right (by linarith)⟩
      · cases h
  · rintro ⟨h1, h2⟩
    rw [if_neg (not_or.mpr ⟨lo h1, lo h2⟩), if_pos ⟨by linarith, by linarith⟩]
  · intro h
    split at h
    · assumption
    · split at h <;> cases h
  · intro h
    rw [if_pos h]
  · intro h
    split at h
    · cases h
    · rename_i hn
      push Not at hn
      refine ⟨hn, ?_⟩
      split at h
      · cases h
      · rename_i h1
        rcases big hn.1 with h2 | h2
        · rcases big hn.2 with h3 | h3
          · exact absurd ⟨by linarith, by linarith⟩ h1
          · exact .inr h3
        · exact .inl h2
  · rintro ⟨⟨h1, h2⟩, h3⟩
    rw [if_neg (not_or.mpr ⟨not_lt.mpr h1, not_lt.mpr h2⟩), if_neg]
    rintro ⟨h4, h5⟩
    rcases h3 with h3 | h3 <;> linarith

theorem combine_inside {x y : Inside} : combine x y = .inside ↔ x = .inside ∧ y = .inside := by
  cases x <;> cases y <;> simp [combine]
theorem combine_outside {x y : Inside} : combine x y = .outside ↔ x = .outside ∨ y = .outside := by
  cases x <;> cases y <;> simp [combine]
theorem inside_eq (t : Struct) (p : V3) : inside t p = combine (t.cuts.inside p) (Tube.inside Tube.universal t.tube p) := by
  unfold inside
  split
  · rename_i h; rw [h]; simp [combine]
  · rfl

/-- C119: the answers of `Inside`.  A point that is called inside is in the solid, deeper than the tolerance below the planes; a point
that is called outside is not in the solid; a point of the solid on one of its surfaces is called surface; and a point that is called
surface is close to one of the surfaces (extended) and to the tube, and, if the planes do not meet in the tube, to the solid. -/
theorem C119_inside_partial (hv : a.Valid) (hmax : kTolerance ≤ a.rmax) (hmin : a.rmin = 0 ∨ kTolerance < a.rmin) (p : V3) :
    (inside (of a) p = .inside → a.In p ∧ a.bottom p ≤ -kTolerance ∧ a.top p ≤ -kTolerance) ∧
    (inside (of a) p = .outside → ¬ a.Closed p) ∧
    (inside (of a) p = .surface → Tube.rad p ≤ a.rmax + kTolerance ∧ a.rmin - 2 * kTolerance ≤ Tube.rad p ∧
      (|a.bottom p| < kTolerance ∨ |a.top p| < kTolerance ∨ a.rmax - 2 * kTolerance ≤ Tube.rad p ∨ (0 < a.rmin ∧ Tube.rad p ≤ a.rmin + kTolerance) ∨
        (a.d < 2 * π ∧ ∃ h, |h| < kTolerance ∧ (AboveRay a.s h p.x p.y ∨ AboveRay (a.s + a.d) h p.x p.y))) ∧
      (a.Apart → a.bottom p < kTolerance ∧ a.top p < kTolerance)) ∧
    (a.Closed p → (a.bottom p = 0 ∨ a.top p = 0 ∨ Tube.rad p = a.rmax ∨ (0 < a.rmin ∧ Tube.rad p = a.rmin) ∨
      (a.d < 2 * π ∧ (AboveRay a.s 0 p.x p.y ∨ AboveRay (a.s + a.d) 0 p.x p.y))) → inside (of a) p = .surface) := by
  have ht := kTolerance_pos
  have hh := kHalfTolerance_pos
  have hhalf : kHalfTolerance = kTolerance / 2 := rfl
  obtain ⟨t1, t2, t3, t4⟩ := Tube.C77_inside (tb_valid hv) (tb_fits a) hmax hmin p
  obtain ⟨c1, c2, c3⟩ := cuts_inside hv p
  rw [inside_eq, of_tube]
  refine ⟨?_, ?_, ?_, ?_⟩
  · intro h
    rw [combine_inside] at h
    have h1 := c1.mp h.1
    have h2 := t1 h.2
    exact ⟨⟨h2.lo, h2.hi, h2.phi, by linarith, by linarith⟩, h1.1, h1.2⟩
  · intro h hc
    rw [combine_outside] at h
    rcases h with h | h
    · rcases (c3.mp h).2 with h1 | h1
      · linarith [hc.bot]
      · linarith [hc.top]
    · exact t2 h (hc.tube hv)
  · intro h
    have hno : Tube.inside Tube.universal (Tube.of (tb a)) p ≠ .outside := by
      intro h1; rw [h1, combine_outside.mpr (.inr rfl)] at h; cases h
    have hno' : (of a).cuts.inside p ≠ .outside := by
      intro h1; rw [h1, combine_outside.mpr (.inl rfl)] at h; cases h
    obtain ⟨r1, r2, -⟩ := Tube.near_of_not_outside (tb_valid hv) (tb_fits a) hmax hmin hno
    refine ⟨r1, r2, ?_, ?_⟩
    · cases hc : (of a).cuts.inside p with
      | outside => exact absurd hc hno'
      | surface =>
        rcases c2.mp hc with h1 | h1
        · exact .inl h1
        · exact .inr (.inl h1)
      | inside =>
        have hs : Tube.inside Tube.universal (Tube.of (tb a)) p = .surface := by
          cases hi : Tube.inside Tube.universal (Tube.of (tb a)) p with
          | outside => exact absurd hi hno
          | surface => rfl
          | inside => rw [hc, hi, combine_inside.mpr ⟨rfl, rfl⟩] at h; cases h
        have hb := c1.mp hc
        rcases (t3 hs).2.2.2 with h1 | h1 | h1 | h1
        · exfalso
          have h2 := z_le' hv r1 (by linarith) (by linarith)
          have h3 := hv.fin
          have h4 : kInfLength - kHalfTolerance ≤ |p.z| := h1
          have h5 := hv.z
          have h6 : kTolerance = 1 / 10 ^ 9 := by norm_num [kTolerance]
          have h7 : (tb a).rmax = a.rmax := rfl
          have h8 := kInfLength_large
          rw [h7, h6] at h2
          rw [hhalf, h6] at h4
          norm_num at h2 h3 h4
          linarith [hv.rmin, hv.rmax]
        · exact .inr (.inr (.inl h1))
        · exact .inr (.inr (.inr (.inl h1)))
        · exact .inr (.inr (.inr (.inr h1)))
    · intro hap
      obtain ⟨a1, a2⟩ := hap p r1
      cases hc : (of a).cuts.inside p with
      | outside => exact absurd hc hno'
      | inside => have := c1.mp hc; constructor <;> linarith
      | surface =>
        rcases c2.mp hc with h1 | h1
        · exact ⟨(abs_lt.mp h1).2, by linarith [a1 h1]⟩
        · exact ⟨by linarith [a2 h1], (abs_lt.mp h1).2⟩
  · intro hc hs
    have hct := hc.tube hv
    have hno : Tube.inside Tube.universal (Tube.of (tb a)) p ≠ .outside := fun h => t2 h hct
    have hno' : (of a).cuts.inside p ≠ .outside := by
      intro h
      rcases (c3.mp h).2 with h1 | h1
      · linarith [hc.bot]
      · linarith [hc.top]
    have hin : combine ((of a).cuts.inside p) (Tube.inside Tube.universal (Tube.of (tb a)) p) ≠ .inside := by
      intro h
      rw [combine_inside] at h
      have hb := c1.mp h.1
      rcases hs with h1 | h1 | h1 | h1 | h1
      · linarith
      · linarith
      · have := t4 hct (.inr (.inl h1)); rw [h.2] at this; cases this
      · have := t4 hct (.inr (.inr (.inl h1))); rw [h.2] at this; cases this
      · have := t4 hct (.inr (.inr (.inr h1))); rw [h.2] at this; cases this
    cases he : combine ((of a).cuts.inside p) (Tube.inside Tube.universal (Tube.of (tb a)) p) with
    | inside => exact absurd he hin
    | surface => rfl
    | outside =>
      rcases combine_outside.mp he with h | h
      · exact absurd h hno'
      · exact absurd h hno

/-- The planes of the example do not meet in the tube. -/
theorem skew_apart : skew.Apart := by
  intro p hr
  have hr' : Tube.rad p ≤ 2 + kTolerance := hr
  have ht : kTolerance < 1 / 4 := by norm_num [kTolerance]
  have h0 := Tube.rad_nonneg p
  have hs := Tube.rad_sq p
  have h9 : Tube.rad p ^ 2 ≤ 9 := by nlinarith
  have hx := abs_le_of_sq_le_sq' (show p.x ^ 2 ≤ 3 ^ 2 by nlinarith [sq_nonneg p.y]) (by norm_num)
  have hy := abs_le_of_sq_le_sq' (show p.y ^ 2 ≤ 3 ^ 2 by nlinarith [sq_nonneg p.x]) (by norm_num)
  rw [skew_bottom, skew_top]
  constructor
  · intro h
    have := abs_lt.mp h
    linarith
  · intro h
    have := abs_lt.mp h
    linarith

/-- A tube whose planes meet inside it. -/
noncomputable def crossed : Par := ⟨0, 10, 1, 0, 2 * π, ⟨0, 0, -1⟩, ⟨3, 0, 4⟩⟩

theorem crossed_valid : crossed.Valid := by
  have := pi_pos
  have hk := kInf_huge
  have hm := kMinimum_lt
  constructor
  · norm_num [crossed]
  · norm_num [crossed]
  · norm_num [crossed]
  · show 0 < 2 * π; linarith
  · show 2 * π ≤ _; linarith
  · norm_num [crossed]
  · norm_num [crossed]
  · intro c h
    rcases h with h | h | h
    · exact .inl h
    · exact .inl h
    · right; rw [h]; norm_num [kTolerance, crossed]; linarith
  · intro c h
    rcases h with h | h | h
    · right; rw [h]; norm_num [kTolerance, crossed]; linarith
    · exact .inl h
    · right; rw [h]; norm_num [kTolerance, crossed]; linarith
  · show 10 * (1 + 10 ^ 9 * 10) < kInfLength; norm_num at *; linarith

theorem crossed_top (p : V3) : crossed.top p = (3 * p.x + 4 * (p.z - 1)) / 5 := by
  have : len crossed.nt = 5 := skew_len.2
  unfold Par.top; rw [this]; simp only [crossed]; ring
theorem crossed_bottom (p : V3) : crossed.bottom p = -(p.z + 1) := by
  have : len crossed.nb = 1 := by
    show √((0 : ℝ) ^ 2 + 0 ^ 2 + (-1) ^ 2) = 1
    norm_num
  unfold Par.bottom; rw [this]; simp only [crossed]; ring

/-- Planes that meet in the tube are accepted; `Inside` then calls a point of the bottom plane that is 2 away from the solid (above
the top plane) surface. -/
theorem C119_crossed_counterexample :
    construct 0 10 1 0 (2 * π) ⟨0, 0, -1⟩ ⟨3, 0, 4⟩ = some (of crossed) ∧ inside (of crossed) ⟨6, 0, -1⟩ = .surface ∧
    ∀ q, crossed.Closed q → 2 ≤ V3.dist ⟨6, 0, -1⟩ q := by
  have ht := kTolerance_pos
  have hi := kInfLength_large
  refine ⟨?_, ?_, ?_⟩
  · unfold construct
    rw [if_neg (by norm_num)]
    rfl
  · rw [inside_eq]
    have h1 : (of crossed).cuts.inside ⟨6, 0, -1⟩ = .surface := by
      rw [(cuts_inside crossed_valid _).2.1, crossed_bottom]
      left; norm_num; exact ht
    have h2 : Tube.inside Tube.universal (of crossed).tube ⟨6, 0, -1⟩ ≠ .outside := by
      intro h
      refine (Tube.C77_inside (tb_valid crossed_valid) (tb_fits crossed) ?_ (.inl rfl) _).2.1 h ⟨?_, ?_, ?_, ?_⟩
      · norm_num [kTolerance, tb, crossed]
      · show |(-1 : ℝ)| ≤ kInfLength; norm_num; linarith
      · exact Tube.rad_nonneg _
      · rw [Tube.rad_le (by norm_num [tb, crossed])]; norm_num [tb, crossed]
      · exact sector_full _ _ _
    rw [h1]
    simp [combine, h2]
  · intro q hq
    have h1 := top_lip crossed_valid ⟨6, 0, -1⟩ q
    have h2 := hq.top
    rw [crossed_top] at h1
    norm_num at h1
    linarith

/-! ## C120: safeties -/

/-- C120: `SafetyToIn` is at most the distance to every point of the solid, and at least the height above each plane, the distance
to the outer cylinder and the distance to the bore. -/
theorem C120_safety_in (hv : a.Valid) (p : V3) :
    (∀ q, a.Closed q → safetyToIn (of a) p ≤ V3.dist p q) ∧
    a.bottom p ≤ safetyToIn (of a) p ∧ a.top p ≤ safetyToIn (of a) p ∧ Tube.rad p - a.rmax ≤ safetyToIn (of a) p ∧
    (0 < a.rmin → a.rmin - Tube.rad p ≤ safetyToIn (of a) p) := by
  obtain ⟨s1, -, s3, s4, -⟩ := Tube.C78_safety_in (tb_valid hv) (tb_fits a) p
  have e : safetyToIn (of a) p = max (max (a.bottom p) (a.top p)) (Tube.safetyToIn Tube.universal (Tube.of (tb a)) p) := by
    unfold safetyToIn Cuts.safetyToIn
    simp only [dist_p0 hv, dist_p1 hv, of_tube]
    split
    · rename_i h; exact (max_eq_right h.le).symm
    · rename_i h; exact (max_eq_left (not_lt.mp h)).symm
  rw [e]
  refine ⟨fun q hq => ?_, ?_, ?_, ?_, fun h => ?_⟩
  · refine max_le (max_le ?_ ?_) (s1 q (hq.tube hv))
    · linarith [bottom_lip hv p q, hq.bot]
    · linarith [top_lip hv p q, hq.top]
  · exact (le_max_left _ _).trans (le_max_left _ _)
  · exact (le_max_right _ _).trans (le_max_left _ _)
  · exact le_trans s3 (le_max_right _ _)
  · exact le_trans (s4 h) (le_max_right _ _)

/-- C120: `SafetyToOut` is at most the distance to every point that is not in the solid, and not negative in the solid; it is the
smallest of the depths below the planes and of what the tube gives. -/
theorem C120_safety_out (hv : a.Valid) (p : V3) :
    (∀ q, ¬ a.Closed q → safetyToOut (of a) p ≤ V3.dist p q) ∧
    (a.Closed p → 0 ≤ safetyToOut (of a) p) ∧
    (∀ c, c ≤ -a.bottom p → c ≤ -a.top p → c ≤ a.rmax - Tube.rad p → (0 < a.rmin → c ≤ Tube.rad p - a.rmin) → a.d = 2 * π →
      c + |p.z| ≤ kInfLength → c ≤ safetyToOut (of a) p) := by
  obtain ⟨s1, s2, s3⟩ := Tube.C78_safety_out (tb_valid hv) (tb_fits a) p
  have e : safetyToOut (of a) p = min (min (-a.bottom p) (-a.top p)) (Tube.safetyToOut Tube.universal (Tube.of (tb a)) p) := by
    unfold safetyToOut Cuts.safetyToOut
    simp only [dist_p0 hv, dist_p1 hv, of_tube]
    split
    · rename_i h; exact (min_eq_right h.le).symm
    · rename_i h; exact (min_eq_left (not_lt.mp h)).symm
  rw [e]
  refine ⟨fun q hq => ?_, fun h => ?_, fun c h1 h2 h3 h4 h5 h6 => ?_⟩
  · rw [closed_iff hv] at hq
    by_cases h1 : (tb a).Closed q
    · rcases not_and_or.mp (fun h => hq ⟨h1, h⟩) with h2 | h2
      · refine le_trans ((min_le_left _ _).trans (min_le_left _ _)) ?_
        have := bottom_lip hv q p
        rw [V3.dist_comm'] at this
        linarith
      · refine le_trans ((min_le_left _ _).trans (min_le_right _ _)) ?_
        have := top_lip hv q p
        rw [V3.dist_comm'] at this
        linarith
    · exact le_trans (min_le_right _ _) (s1 q h1)
  · exact le_min (le_min (by linarith [h.bot]) (by linarith [h.top])) (s2 (h.tube hv))
  · refine le_min (le_min h1 h2) (s3 c ?_ h3 h4 fun h => absurd h5 (ne_of_lt h))
    show c ≤ kInfLength - |p.z|
    linarith

example : 0 ≤ safetyToOut (of skew) ⟨1, 1, 0⟩ := by
  have h := skew_in
  exact (C120_safety_out skew_valid _).2.1 ⟨(h.lo (by norm_num [skew])).le, h.hi, h.phi, h.bot.le, h.top.le⟩

/-! ## C121: the way out -/

theorem out_eq (t : Struct) (p d : V3) : distanceToOut t p d =
    min (min (planeOut t.cuts.p0 p d) (planeOut t.cuts.p1 p d)) (Tube.distanceToOut Tube.universal t.tube p d) := by
  unfold distanceToOut Cuts.distanceToOut
  dsimp only
  generalize Tube.distanceToOut Tube.universal t.tube p d = x
  generalize min (planeOut t.cuts.p0 p d) (planeOut t.cuts.p1 p d) = y
  by_cases h : x < y
  · rw [if_pos h, min_eq_right h.le]
  · rw [if_neg h, min_eq_left (not_lt.mp h)]

theorem planeOut_below {pl : Plane} {p d : V3} (h : distPlane pl p ≤ 0) :
    (d.dot pl.n < 0 ∧ planeOut pl p d = kInfLength) ∨
    (0 ≤ d.dot pl.n ∧ planeOut pl p d * (d.dot pl.n + kTiny) = -distPlane pl p ∧ 0 ≤ planeOut pl p d) := by
  have ht := kTolerance_pos
  have he := kTiny_pos
  unfold planeOut
  dsimp only
  rcases lt_or_ge (d.dot pl.n) 0 with h1 | h1
  · left
    refine ⟨h1, ?_⟩
    rw [if_neg (fun h2 => absurd h2.1 (not_lt.mpr (nonZero_neg h1).le)), if_neg (by linarith)]
  · right
    have h2 := nonZero_pos h1
    rw [if_pos ⟨h2, by linarith⟩]
    have e : nonZero (d.dot pl.n) = d.dot pl.n + kTiny := by unfold nonZero copySign; rw [if_neg (not_lt.mpr h1)]
    rw [e] at h2 ⊢
    refine ⟨h1, by field_simp, div_nonneg (by linarith) h2.le⟩

/-- C121: from a point of the solid, `DistanceToOut` is not below `-2 kTolerance` (for openings above `pi` unless the point is less
than the tolerance behind the plane of a face), the line is in the solid up to there (the bore up to the guard of the division; the
sector, for openings above `pi`, if the line keeps clear of the axis), it is shorter than the size of the solid, and it ends on one
of the surfaces, going out.  The sector needs the type of the universal tube, for which all of this is known. -/
theorem C121_distance_out_partial (hv : a.Valid) {p d : V3} (hu : d.x ^ 2 + d.y ^ 2 + d.z ^ 2 = 1) (hc : a.Closed p) :
    let D := distanceToOut (of a) p d
    D ≤ 2 * (a.rmax + (a.z + 10 ^ 9 * a.rmax)) ∧
    (((0 ≤ Tube.S1 (tb a) p.x p.y ∨ 0 ≤ Tube.S1 (tb a) d.x d.y ∨ (Tube.S1 (tb a) p.x p.y ≤ -kTolerance ∧ Tube.S1 (tb a) d.x d.y ≤ -kTiny)) ∧
       (0 ≤ Tube.S2 (tb a) p.x p.y ∨ 0 ≤ Tube.S2 (tb a) d.x d.y ∨ (Tube.S2 (tb a) p.x p.y ≤ -kTolerance ∧ Tube.S2 (tb a) d.x d.y ≤ -kTiny))) →
      -2 * kTolerance ≤ D) ∧
    (∀ t, 0 ≤ t → t ≤ D → a.bottom (V3.at' p d t) ≤ 0 ∧ a.top (V3.at' p d t) ≤ 0 ∧ Tube.rad (V3.at' p d t) ≤ a.rmax ∧
      a.rmin ^ 2 - kTiny * t ^ 2 ≤ Tube.rad (V3.at' p d t) ^ 2) ∧
    (∀ t, 0 ≤ t → t ≤ D → (∀ u, 0 ≤ u → u ≤ t → kTiny * u < Tube.rad (V3.at' p d u)) →
      Sector a.s a.d (V3.at' p d t).x (V3.at' p d t).y) ∧
    ((0 ≤ vb a d ∧ a.bottom (V3.at' p d D) = -kTiny * D) ∨ (0 ≤ vt a d ∧ a.top (V3.at' p d D) = -kTiny * D) ∨
     (Tube.rad (V3.at' p d D) ^ 2 = a.rmax ^ 2 - kTiny * D ^ 2 ∧ -kTiny * D ≤ (V3.at' p d D).x * d.x + (V3.at' p d D).y * d.y) ∨
     (0 < a.rmin ∧ Tube.rad (V3.at' p d D) ^ 2 = a.rmin ^ 2 - kTiny * D ^ 2 ∧
       (V3.at' p d D).x * d.x + (V3.at' p d D).y * d.y < -kTiny * D) ∨
     (a.d < 2 * π ∧ ((Tube.S1 (tb a) (V3.at' p d D).x (V3.at' p d D).y = kTiny * D ∧ Tube.S1 (tb a) d.x d.y < 0) ∨
       (Tube.S2 (tb a) (V3.at' p d D).x (V3.at' p d D).y = kTiny * D ∧ Tube.S2 (tb a) d.x d.y < 0)))) := by
  have he := kTiny_pos
  have ht := kTolerance_pos
  intro D
  obtain ⟨-, t2, t3, t4, t5⟩ := Tube.distance_out_core (d := d) (tb_valid hv) (tb_fits a) (by simp [Tube.universal]) hu (hc.tube hv)
  have hb0 := planeOut_below (pl := (of a).cuts.p0) (d := d) (by rw [dist_p0 hv]; exact hc.bot)
  have ht0 := planeOut_below (pl := (of a).cuts.p1) (d := d) (by rw [dist_p1 hv]; exact hc.top)
  rw [dist_p0 hv, dot_p0 hv] at hb0
  rw [dist_p1 hv, dot_p1 hv] at ht0
  have eD : D = min (min (planeOut (of a).cuts.p0 p d) (planeOut (of a).cuts.p1 p d)) (Tube.distanceToOut Tube.universal (Tube.of (tb a)) p d) := by
    exact out_eq (of a) p d
  generalize planeOut (of a).cuts.p0 p d = D0 at *
  generalize planeOut (of a).cuts.p1 p d = D1 at *
  generalize Tube.distanceToOut Tube.universal (Tube.of (tb a)) p d = DT at *
  have l0 : D ≤ D0 := eD ▸ (min_le_left _ _).trans (min_le_left _ _)
  have l1 : D ≤ D1 := eD ▸ (min_le_left _ _).trans (min_le_right _ _)
  have lT : D ≤ DT := eD ▸ min_le_right _ _
  have cases3 : D = D0 ∨ D = D1 ∨ D = DT := by
    rw [eD]
    rcases min_choice (min D0 D1) DT with h | h
    · rcases min_choice D0 D1 with h' | h'
      · left; rw [h, h']
      · right; left; rw [h, h']
    · right; right; exact h
  clear_value D
  have bot : ∀ t, 0 ≤ t → t ≤ D → a.bottom (V3.at' p d t) ≤ 0 := by
    intro t h0 h1
    rw [bottom_at]
    rcases hb0 with ⟨h2, -⟩ | ⟨h2, h3, -⟩
    · nlinarith [hc.bot]
    · nlinarith [hc.bot]
  have top : ∀ t, 0 ≤ t → t ≤ D → a.top (V3.at' p d t) ≤ 0 := by
    intro t h0 h1
    rw [top_at]
    rcases ht0 with ⟨h2, -⟩ | ⟨h2, h3, -⟩
    · nlinarith [hc.top]
    · nlinarith [hc.top]
  have hm0 : 0 < a.rmax := hv.rmin.trans_lt hv.rmax
  have hub : D ≤ 2 * (a.rmax + (a.z + 10 ^ 9 * a.rmax)) := by
    rcases lt_or_ge D 0 with h | h
    · have := hv.z
      have : 0 ≤ (10 : ℝ) ^ 9 * a.rmax := by positivity
      linarith
    · have r1 := (t3 D h lT).2.1
      have hr1 : Tube.rad (V3.at' p d D) ≤ a.rmax := r1
      have z1 := z_le hv hr1 (bot D h le_rfl) (top D h le_rfl)
      have z0 := z_le hv hc.hi hc.bot hc.top
      have q1 := (Tube.rad_le hm0.le).mp hr1
      have q0 := (Tube.rad_le hm0.le).mp hc.hi
      simp only [V3.at_x, V3.at_y, V3.at_z] at z1 q1
      have hZ : 0 ≤ a.z + 10 ^ 9 * a.rmax := (abs_nonneg _).trans z0
      generalize a.z + 10 ^ 9 * a.rmax = Z at *
      have z2 : (D * d.z) ^ 2 ≤ (2 * Z) ^ 2 := by
        apply sq_le_sq'
        · linarith [abs_le.mp z0, abs_le.mp z1]
        · linarith [abs_le.mp z0, abs_le.mp z1]
      have q2 : (D * d.x) ^ 2 + (D * d.y) ^ 2 ≤ (2 * a.rmax) ^ 2 := by
        nlinarith [sq_nonneg (2 * p.x + D * d.x), sq_nonneg (2 * p.y + D * d.y)]
      have h3 : D ^ 2 ≤ (2 * (a.rmax + Z)) ^ 2 := by
        have : D ^ 2 = (D * d.x) ^ 2 + (D * d.y) ^ 2 + (D * d.z) ^ 2 := by linear_combination -D ^ 2 * hu
        nlinarith
      exact (abs_le_of_sq_le_sq' h3 (by linarith)).2
  have hfin : D < kInfLength := by
    have h1 := hv.fin
    have h2 := hv.z
    norm_num at hub h1
    linarith
  refine ⟨hub, ?_, ?_, ?_, ?_⟩
  · intro h
    rcases cases3 with h1 | h1 | h1
    · rcases hb0 with ⟨-, h2⟩ | ⟨-, -, h2⟩ <;> linarith [kInfLength_pos]
    · rcases ht0 with ⟨-, h2⟩ | ⟨-, -, h2⟩ <;> linarith [kInfLength_pos]
    · rw [h1]
      exact t2 (by rw [← h1]; exact hfin.ne) (.inr (.inr h))
  · intro t h0 h1
    have h2 := t3 t h0 (h1.trans lT)
    exact ⟨bot t h0 h1, top t h0 h1, h2.2.1, h2.2.2⟩
  · intro t h0 h1 h2
    exact t4 t h0 (h1.trans lT) (.inr (.inr h2))
  · rcases cases3 with h1 | h1 | h1
    · rcases hb0 with ⟨-, h2⟩ | ⟨h2, h3, -⟩
      · linarith
      · refine .inl ⟨h2, ?_⟩
        rw [bottom_at]
        rw [← h1] at h3
        linarith
    · rcases ht0 with ⟨-, h2⟩ | ⟨h2, h3, -⟩
      · linarith
      · refine .inr (.inl ⟨h2, ?_⟩)
        rw [top_at]
        rw [← h1] at h3
        linarith
    · have h5 := t5 (by rw [← h1]; exact hfin.ne)
      rw [← h1] at h5
      rcases h5 with h5 | h5 | h5 | h5
      · exfalso
        have hz : sign d.z * (V3.at' p d D).z ≤ |(V3.at' p d D).z| := by
          rw [← Tube.sign_mul_le d.z]; exact le_abs_self _
        have h6 : sign d.z * (V3.at' p d D).z = kInfLength - kTiny * D := h5.2
        have hk : kTiny ≤ 1 / 100 := by norm_num [kTiny]
        have h2 := hv.fin
        have h3 := hv.z
        rcases lt_or_ge D 0 with hD | hD
        · have := z_le hv hc.hi hc.bot hc.top
          have hD2 : -2 * kTolerance ≤ D ∨ D < -2 * kTolerance := le_or_gt _ _
          have hz1 : |(V3.at' p d D).z| ≤ |p.z| + |D| := by
            rw [V3.at_z]
            refine (abs_add_le _ _).trans ?_
            rw [abs_mul]
            have : |d.z| ≤ 1 := by
              apply abs_le_one_of_sq (by nlinarith [sq_nonneg d.x, sq_nonneg d.y])
            nlinarith [abs_nonneg D]
          have hsg : sign d.z * (V3.at' p d D).z = sign d.z * p.z + D * |d.z| := by
            rw [V3.at_z, mul_add, ← Tube.sign_abs]; ring
          have hs2 : sign d.z * p.z ≤ |p.z| := by rw [← Tube.sign_mul_le d.z]; exact le_abs_self _
          have hs3 : D * |d.z| ≤ 0 := mul_nonpos_of_nonpos_of_nonneg hD.le (abs_nonneg _)
          have hs4 : kTiny * D ≤ 0 := mul_nonpos_of_nonneg_of_nonpos he.le hD.le
          linarith
        · have h7 := z_le hv (t3 D hD lT).2.1 (bot D hD le_rfl) (top D hD le_rfl)
          have h8 : kTiny * D ≤ 1 / 100 * D := mul_le_mul_of_nonneg_right hk hD
          have e9 : (10 : ℝ) ^ 9 = 1000000000 := by norm_num
          rw [e9] at h7 h2 hub
          linarith
      · exact .inr (.inr (.inl h5))
      · exact .inr (.inr (.inr (.inl h5)))
      · exact .inr (.inr (.inr (.inr h5)))
where
  abs_le_one_of_sq {x : ℝ} (h : x ^ 2 ≤ 1) : |x| ≤ 1 := by
    have := abs_le_of_sq_le_sq (a := x) (b := 1) (by linarith) (by norm_num)
    exact this

example : distanceToOut (of skew) ⟨1, 1, 0⟩ ⟨0, 0, 1⟩ ≤ 8 * 10 ^ 9 := by
  have h := skew_in
  have := (C121_distance_out_partial skew_valid (p := ⟨1, 1, 0⟩) (d := ⟨0, 0, 1⟩) (by norm_num) ⟨(h.lo (by norm_num [skew])).le, h.hi, h.phi, h.bot.le, h.top.le⟩).1
  refine le_trans this ?_
  norm_num [skew]

/-- C121: points that are outside by more than the tolerance get a negative distance. -/
theorem C121_outside (hv : a.Valid) {p d : V3}
    (h : kTolerance < a.bottom p ∨ kTolerance < a.top p ∨ a.rmax + kTolerance < Tube.rad p ∨ (0 < a.rmin ∧ Tube.rad p < a.rmin - 2 * kTolerance) ∨
      (¬ Sector a.s a.d p.x p.y ∧ ¬ ∃ h, |h| < kTolerance ∧ (AboveRay a.s h p.x p.y ∨ AboveRay (a.s + a.d) h p.x p.y))) :
    distanceToOut (of a) p d ≤ -1 := by
  have hi := kInfLength_large
  have eD : distanceToOut (of a) p d = min (min (planeOut (of a).cuts.p0 p d) (planeOut (of a).cuts.p1 p d)) (Tube.distanceToOut Tube.universal (Tube.of (tb a)) p d) := by
    exact out_eq (of a) p d
  have pl : ∀ pl : Plane, kTolerance < distPlane pl p → planeOut pl p d ≤ -1 := by
    intro pl hp
    unfold planeOut
    dsimp only
    rw [if_neg (by intro h; linarith [h.2]), if_pos hp]
    linarith
  rw [eD]
  have tub : (a.rmax + kTolerance < Tube.rad p ∨ (0 < a.rmin ∧ Tube.rad p < a.rmin - 2 * kTolerance) ∨
      (¬ Sector a.s a.d p.x p.y ∧ ¬ ∃ h, |h| < kTolerance ∧ (AboveRay a.s h p.x p.y ∨ AboveRay (a.s + a.d) h p.x p.y))) →
      Tube.distanceToOut Tube.universal (Tube.of (tb a)) p d = -1 := fun h => Tube.C79_outside (tb_valid hv) (tb_fits a) (.inr h)
  rcases h with h | h | h
  · exact ((min_le_left _ _).trans (min_le_left _ _)).trans (pl _ (by rwa [dist_p0 hv]))
  · exact ((min_le_left _ _).trans (min_le_right _ _)).trans (pl _ (by rwa [dist_p1 hv]))
  · exact (min_le_right _ _).trans (tub h).le

example : distanceToOut (of skew) ⟨1, 1, 20⟩ ⟨0, 0, 1⟩ ≤ -1 := by
  refine C121_outside skew_valid (.inr (.inl ?_))
  rw [skew_top]
  norm_num [kTolerance]

end CutTube
end VecGeom

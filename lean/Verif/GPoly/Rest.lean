import Verif.GPoly.Props

/-!
# Generic polycones: examples, Inside and where the functions go wrong
-/

namespace VecGeom
namespace GPoly

open Real Tube
open Coax (Radii)
open Polycone (lower scan lower_dist scan_le scan_bound scan_head full_sector)

variable {a : Par} {t : Struct}

/-! ## Inside -/

theorem secInside (t : Struct) (i : ℕ) (p : V3) :
    (if (secKernel true t i p).1 then Inside.inside else if (secKernel true t i p).2 then .outside else .surface) =
      Coax.inside (secAt t i).cones (lower p (secAt t i).shift) := by
  rw [secKernel_nat]; rfl

theorem loop_excl (p : V3) (l : List Cone.Struct) : (Coax.insideLoop p l).2 = true → (Coax.insideLoop p l).1 = false := by
  classical
  induction l with
  | nil => intro _; rfl
  | cons k l ih =>
    have hl : Coax.insideLoop p (k :: l) = if Cone.CompletelyInside Cone.universal k p then (true, false)
      else if ¬ Cone.CompletelyInside Cone.universal k p ∧ ¬ Cone.CompletelyOutside Cone.universal true k p then (false, false)
      else Coax.insideLoop p l := rfl
    rw [hl]
    split
    · intro h; cases h
    split
    · intro h; cases h
    · exact ih

theorem secOut_inside {i : ℕ} {p : V3} (h : (secKernel true t i p).2 = true) : Coax.inside (secAt t i).cones (lower p (secAt t i).shift) = .outside := by
  rw [← secInside, h]
  rw [secKernel_nat] at h ⊢
  rw [loop_excl _ _ (show (Coax.insideLoop _ _).2 = true from h) |> fun h' => show (coaxKernel true _ _).1 = false from h']
  rfl

/-- C191: a point that `Inside` puts outside is in no section, but for the tips of narrow bores. -/
theorem C191_outside (hv : a.Valid) (ht : make a.rs a.zs a.s a.d = some t)
    (hr : ∀ i < a.rs.length, ∀ k ∈ (a.sec i).cones, Cone.kConeTolerance ≤ k.fix.rmax1 ∧ Cone.kConeTolerance ≤ k.fix.rmax2) (p : V3)
    (ho : inside t p = .outside) : ∀ i < a.rs.length, ∀ k ∈ (a.sec i).cones, k.fix.Closed (lower p (a.mid i)) →
      k.Hollow ∧ k.inner (lower p (a.mid i)).z ≤ Cone.kConeTolerance * √(1 + ((k.rmin2 - k.rmin1) / (2 * k.z)) ^ 2) ∧
        rad p ≤ Cone.kConeTolerance * √(1 + ((k.rmin2 - k.rmin1) / (2 * k.z)) ^ 2) := by
  have hre := make_repr hv ht
  have hs := hre.steps hv
  have hl := hre.len
  have htol := kTolerance_pos
  intro j hj k hk hcl
  have key : Coax.inside (secAt t j).cones (lower p (secAt t j).shift) = .outside →
      k.Hollow ∧ k.inner (lower p (a.mid j)).z ≤ Cone.kConeTolerance * √(1 + ((k.rmin2 - k.rmin1) / (2 * k.z)) ^ 2) ∧
        rad p ≤ Cone.kConeTolerance * √(1 + ((k.rmin2 - k.rmin1) / (2 * k.z)) ^ 2) := by
    intro h
    rw [hre.sec j hj] at h
    exact (Coax.C187_inside (hv.sec j hj) (hr j hj) _).2.1 h k hk hcl
  have g := closed_height (a := a) ⟨k, hk, hcl⟩
  rw [← hre.z, ← hre.z] at g
  have hk2 : (kernel true t p).2 = true := by
    unfold inside at ho
    split at ho
    · cases ho
    · split at ho
      · assumption
      · cases ho
  rcases kernel_cases hs true p with ⟨e, hz⟩ | ⟨i, hi, e, h1, h2, h3, h4⟩ | ⟨i, hi, h1, h2, ring, e⟩
  · exfalso
    have g1 := hs.le (i := 0) (j := j) (by omega) (by omega)
    have g2 := hs.le (i := j + 1) (j := t.secs.length) (by omega) (le_refl _)
    rcases hz with hz | hz <;> linarith
  · have hij : i = j := by
      rcases lt_trichotomy i j with hij | rfl | hij
      · exfalso
        have := hs.le (i := i + 1) (j := j) (by omega) (by omega)
        rcases h2 with h2 | h2
        · omega
        · linarith
      · rfl
      · exfalso
        have := hs.le (i := j + 1) (j := i) (by omega) (by omega)
        rcases h1 with h1 | h1
        · omega
        · linarith
    subst hij
    rw [e] at hk2
    exact key (secOut_inside hk2)
  · have hj' : j = i ∨ j = i + 1 := by
      by_contra hne
      push Not at hne
      rcases lt_or_gt_of_ne hne.1 with hlt | hgt
      · have a1 := hs.le (i := j + 1) (j := i) (by omega) (by omega)
        have a2 := hs.gap i (by omega)
        linarith
      · have a1 := hs.lt (i := i + 1) (j := j) (by omega) (by omega)
        linarith
    rw [e] at hk2
    split at hk2
    · cases hk2
    split at hk2
    · rename_i hb
      rw [Bool.and_eq_true] at hb
      rcases hj' with rfl | rfl
      · exact key (secOut_inside hb.1)
      · exact key (secOut_inside hb.2)
    · cases hk2

/-- C191: away from the planes between the sections, `Inside` is that of the section (C187). -/
theorem C191_inside_partial (hv : a.Valid) (ht : make a.rs a.zs a.s a.d = some t) (p : V3) {i : ℕ} (hi : i < a.rs.length)
    (h1 : a.z i + kTolerance < p.z) (h2 : p.z < a.z (i + 1) - kTolerance) :
    inside t p = Coax.inside (Coax.of (a.sec i)) (lower p (a.mid i)) := by
  have hre := make_repr hv ht
  have hs := hre.steps hv
  have hl := hre.len
  have htol := kTolerance_pos
  rw [← hre.z] at h1 h2
  unfold inside
  rcases kernel_cases hs true p with ⟨e, hz⟩ | ⟨j, hj, e, g1, g2, g3, g4⟩ | ⟨j, hj, g1, g2, ring, e⟩
  · exfalso
    have a1 := hs.le (i := 0) (j := i) (by omega) (by omega)
    have a2 := hs.le (i := i + 1) (j := t.secs.length) (by omega) (le_refl _)
    rcases hz with hz | hz <;> linarith
  · have hij : j = i := by
      rcases lt_trichotomy i j with hij | rfl | hij
      · exfalso
        have := hs.le (i := i + 1) (j := j) (by omega) (by omega)
        linarith
      · rfl
      · exfalso
        have := hs.le (i := j + 1) (j := i) (by omega) (by omega)
        linarith
    subst hij
    rw [e, secInside, hre.sec j hi]
  · exfalso
    rcases lt_trichotomy (j + 1) i with hij | hij | hij
    · have := hs.lt hij (by omega)
      linarith
    · subst hij; linarith
    · have := hs.le (i := i + 1) (j := j + 1) (by omega) (by omega)
      linarith

/-! ## A tower: two cylinders, one above the other -/

/-- Two cylinders of radius 1 and height 2. -/
noncomputable def tower : Par := ⟨[[⟨0, 1, 0, 1⟩], [⟨0, 1, 0, 1⟩]], [10, 12, 14], 0, 2 * π⟩

theorem tower_z : tower.z 0 = 10 ∧ tower.z 1 = 12 ∧ tower.z 2 = 14 := ⟨rfl, rfl, rfl⟩

theorem tower_sec {i : ℕ} (hi : i < 2) : (tower.sec i).cones = [Coax.rod] := by
  have : i = 0 ∨ i = 1 := by omega
  rcases this with rfl | rfl
  · simp [Par.sec, Par.z, tower, Coax.Par.cones, Coax.rod]; norm_num
  · simp [Par.sec, Par.z, tower, Coax.Par.cones, Coax.rod]; norm_num

theorem tower_valid : tower.Valid := by
  refine ⟨by simp [tower], rfl, ?_, ?_⟩
  · intro i hi
    have : i = 0 ∨ i = 1 := by simp [tower] at hi; omega
    rcases this with rfl | rfl
    · rw [tower_z.1, tower_z.2.1]; norm_num
    · rw [tower_z.2.1, tower_z.2.2]; norm_num
  · intro i hi k hk
    rw [tower_sec (by simpa [tower] using hi), List.mem_singleton] at hk
    subst hk
    exact Coax.rod_valid

theorem tower_tol : ∀ i < tower.rs.length, ∀ k ∈ (tower.sec i).cones, Cone.kConeTolerance ≤ k.fix.rmax1 ∧ Cone.kConeTolerance ≤ k.fix.rmax2 := by
  intro i hi k hk
  rw [tower_sec (by simpa [tower] using hi), List.mem_singleton] at hk
  subst hk
  rw [Coax.rod_fix]
  norm_num [Coax.rod, Cone.kConeTolerance]

theorem tower_mid : tower.mid 0 = 11 ∧ tower.mid 1 = 13 := by
  unfold Par.mid
  rw [tower_z.1, tower_z.2.1, tower_z.2.2]
  norm_num

theorem tower_closed (p : V3) (h1 : 10 ≤ p.z) (h2 : p.z ≤ 14) (h3 : rad p ≤ 1) : tower.Closed p := by
  have hin : ∀ z, Coax.rod.fix.inner z = 0 := by intro z; rw [Coax.rod_fix]; norm_num [Coax.rod, Cone.Par.inner, Cone.line]
  have hout : ∀ z, Coax.rod.fix.outer z = 1 := by intro z; rw [Coax.rod_fix]; norm_num [Coax.rod, Cone.Par.outer, Cone.line]; ring
  have hc : ∀ i, i < 2 → |(lower p (tower.mid i)).z| ≤ 1 → tower.Closed p := by
    intro i hi hz
    refine ⟨i, by simpa [tower] using hi, Coax.rod, by rw [tower_sec hi]; simp, ⟨?_, ?_, ?_, ?_⟩⟩
    · rw [Coax.rod_fix]; exact hz
    · rw [hin]; exact rad_nonneg _
    · rw [hout]; exact h3
    · rw [Coax.rod_fix]; exact full_sector _ _
  rcases le_total p.z 12 with h | h
  · refine hc 0 (by norm_num) ?_
    rw [tower_mid.1, abs_le]
    simp only [lower]
    constructor <;> linarith
  · refine hc 1 (by norm_num) ?_
    rw [tower_mid.2, abs_le]
    simp only [lower]
    constructor <;> linarith

example : ∃ t, make tower.rs tower.zs tower.s tower.d = some t := make_some tower_valid

/-- Section 0 is asked about a point above the tower, and section 1 is between; without section 1 it counts. -/
example : ∀ c ∈ tower.zs, ¬ (tower.z (0 + 1) < c ∧ c < (⟨5, 0, 13⟩ : V3).z) := by
  intro c hc
  simp only [tower, List.mem_cons, List.not_mem_nil, or_false] at hc
  rw [show tower.z (0 + 1) = 12 from rfl]
  rcases hc with rfl | rfl | rfl <;> norm_num

/-! ## Where `SafetyToIn` goes wrong -/

/-- A wide cylinder below a narrow one in two parts. -/
noncomputable def mast : Par := ⟨[[⟨0, 10, 0, 10⟩], [⟨0, 1, 0, 1⟩], [⟨0, 1, 0, 1⟩]], [0, 10, 11, 20], 0, 2 * π⟩

theorem mast_sec : (mast.sec 0).cones = [⟨0, 10, 0, 10, 5, 0, 2 * π⟩] ∧ (mast.sec 1).cones = [⟨0, 1, 0, 1, 1 / 2, 0, 2 * π⟩] ∧
    (mast.sec 2).cones = [⟨0, 1, 0, 1, 9 / 2, 0, 2 * π⟩] := by
  refine ⟨?_, ?_, ?_⟩ <;>
  · simp [Par.sec, Par.z, mast, Coax.Par.cones]; try norm_num

theorem mast_valid : mast.Valid := by
  refine ⟨by simp [mast], rfl, ?_, ?_⟩
  · intro i hi
    have : i = 0 ∨ i = 1 ∨ i = 2 := by simp [mast] at hi; omega
    rcases this with rfl | rfl | rfl <;> norm_num [Par.z, mast]
  · intro i hi k hk
    have : i = 0 ∨ i = 1 ∨ i = 2 := by simp [mast] at hi; omega
    rcases this with rfl | rfl | rfl
    · rw [mast_sec.1, List.mem_singleton] at hk
      subst hk
      exact ⟨by norm_num, by norm_num, by norm_num, by norm_num, by norm_num, by norm_num, by positivity, Or.inr rfl⟩
    · rw [mast_sec.2.1, List.mem_singleton] at hk
      subst hk
      exact ⟨by norm_num, by norm_num, by norm_num, by norm_num, by norm_num, by norm_num, by positivity, Or.inr rfl⟩
    · rw [mast_sec.2.2, List.mem_singleton] at hk
      subst hk
      exact ⟨by norm_num, by norm_num, by norm_num, by norm_num, by norm_num, by norm_num, by positivity, Or.inr rfl⟩

theorem one_safety {c : Coax.Struct} {k : Cone.Struct} {p : V3} (hc : c.cones = [k]) (h : 7 ≤ Cone.safetyToIn Cone.universal k p) :
    7 ≤ Coax.safetyToIn c p := by
  unfold Coax.safetyToIn
  rw [hc]
  have := kInfLength_large
  simp only [List.foldl_cons, List.foldl_nil]
  first
    | exact le_min (by linarith) h
    | (split <;> linarith)

/-- C191 fails within: the walk downwards measures the way to a section to its far end, and stops before a section that is near. -/
theorem C191_walk_counterexample : ∃ t, make mast.rs mast.zs mast.s mast.d = some t ∧ 7 ≤ safetyToIn t ⟨9, 0, 23 / 2⟩ ∧
    ∃ q, mast.Closed q ∧ V3.dist ⟨9, 0, 23 / 2⟩ q = 3 / 2 := by
  obtain ⟨t, ht⟩ := make_some mast_valid
  have hr := make_repr mast_valid ht
  have hs := hr.steps mast_valid
  have hrad : ∀ z, rad (⟨9, 0, z⟩ : V3) = 9 := by
    intro z
    unfold rad
    rw [show (9 : ℝ) ^ 2 + 0 ^ 2 = 9 ^ 2 by norm_num, sqrt_sq (by norm_num)]
  have hl : t.secs.length = 3 := by rw [hr.len]; rfl
  have z0 : zAt t 0 = 0 := hr.z 0
  have z1 : zAt t 1 = 10 := hr.z 1
  have z2 : zAt t 2 = 11 := hr.z 2
  have z3 : zAt t 3 = 20 := hr.z 3
  refine ⟨t, ht, ?_, ⟨9, 0, 10⟩, ?_, ?_⟩
  · have e : sectionIndex t (23 / 2) = (2 : ℕ) := by
      rcases index_cases hs (23 / 2) with ⟨-, h⟩ | ⟨i, hi, e, h1, h2, -⟩ | ⟨-, h⟩
      · rw [z0] at h; norm_num at h
      · have : i = 0 ∨ i = 1 ∨ i = 2 := by omega
        rcases this with rfl | rfl | rfl
        · rw [z1] at h2; norm_num at h2
        · rw [z2] at h2; norm_num at h2
        · exact e
      · rw [hl, z3] at h; norm_num at h
    have own : 7 ≤ secSafety t ⟨9, 0, 23 / 2⟩ 2 := by
      unfold secSafety
      rw [hr.sec 2 (by simp [mast])]
      exact one_safety (by rw [Coax.of_cones, mast_sec.2.2]; rfl) (Polycone.cylinder_safety (by norm_num) (hrad _))
    have mid : 7 ≤ secSafety t ⟨9, 0, 23 / 2⟩ 1 := by
      unfold secSafety
      rw [hr.sec 1 (by simp [mast])]
      exact one_safety (by rw [Coax.of_cones, mast_sec.2.1]; rfl) (Polycone.cylinder_safety (by norm_num) (hrad _))
    have own' : secSafety t ⟨9, 0, 23 / 2⟩ 2 ≤ 8 := by
      refine (sec_safety mast_valid hr (j := 2) (by simp [mast]) ⟨9, 0, 23 / 2⟩ ⟨1, 0, 23 / 2⟩ ?_).trans ?_
      · have h1 : rad (lower ⟨1, 0, 23 / 2⟩ (mast.mid 2)) = 1 := by unfold rad lower; norm_num
        refine ⟨⟨0, 1, 0, 1, 9 / 2, 0, 2 * π⟩, by rw [mast_sec.2.2]; simp, ?_⟩
        rw [show (Cone.Par.mk 0 1 0 1 (9 / 2) 0 (2 * π)).fix = ⟨0, 1, 0, 1, 9 / 2, 0, 2 * π⟩ by unfold Cone.Par.fix; norm_num]
        refine ⟨?_, ?_, ?_, full_sector _ _⟩
        · norm_num [lower, Par.mid, Par.z, mast, abs_le]
        · rw [h1]; norm_num [Cone.Par.inner, Cone.line]
        · rw [h1]; norm_num [Cone.Par.outer, lower, Par.mid, Par.z, mast, Cone.line]
      · unfold V3.dist V3.dist2
        rw [show ((9 : ℝ) - 1) ^ 2 + (0 - 0) ^ 2 + (23 / 2 - 23 / 2) ^ 2 = 8 ^ 2 by norm_num, sqrt_sq (by norm_num)]
    unfold safetyToIn
    simp only [e]
    have hk : kTolerance < 7 := by norm_num [kTolerance]
    rw [if_neg (c := ((2 : ℕ) : ℤ) = -1) (by norm_num), if_neg (c := ((2 : ℕ) : ℤ) = -2) (by norm_num), Int.toNat_natCast, if_neg (by linarith)]
    unfold around
    simp only [hl]
    rw [if_pos (by norm_num), show List.range' (2 + 1) (3 - (2 + 1)) = [] from rfl, show (List.range 2).reverse = [1, 0] from rfl]
    unfold scan scan scan
    split
    · exact own
    · rw [if_pos]
      · split
        · exact mid
        · exact own
      · norm_num [z0, z1]
        split
        · linarith
        · linarith
  · refine ⟨0, by simp [mast], ⟨0, 10, 0, 10, 5, 0, 2 * π⟩, by rw [mast_sec.1]; simp, ?_⟩
    rw [show (Cone.Par.mk 0 10 0 10 5 0 (2 * π)).fix = ⟨0, 10, 0, 10, 5, 0, 2 * π⟩ by unfold Cone.Par.fix; norm_num]
    have h1 : rad (lower ⟨9, 0, 10⟩ (mast.mid 0)) = 9 := hrad _
    refine ⟨?_, ?_, ?_, full_sector _ _⟩
    · norm_num [lower, Par.mid, Par.z, mast, abs_le]
    · rw [h1]; norm_num [Cone.Par.inner, Cone.line]
    · rw [h1]; norm_num [Cone.Par.outer, lower, Par.mid, Par.z, mast, Cone.line]
  · unfold V3.dist V3.dist2
    rw [show ((9 : ℝ) - 9) ^ 2 + (0 - 0) ^ 2 + (23 / 2 - 10) ^ 2 = (3 / 2) ^ 2 by norm_num, sqrt_sq (by norm_num)]

/-! ## Where `DistanceToOut` goes wrong -/

theorem tower_repr : ∃ t, make tower.rs tower.zs tower.s tower.d = some t ∧ Repr tower t ∧ t.secs.length = 2 ∧
    zAt t 0 = 10 ∧ zAt t 1 = 12 ∧ zAt t 2 = 14 := by
  obtain ⟨t, ht⟩ := make_some tower_valid
  have hr := make_repr tower_valid ht
  exact ⟨t, ht, hr, by rw [hr.len]; rfl, hr.z 0, hr.z 1, hr.z 2⟩

theorem bottom_index (hs : Steps t) (z0 : zAt t 0 = 10) (z1 : zAt t 1 = 12) (hl : t.secs.length = 2) :
    sectionIndex t (10 - kTolerance) = -1 ∧ sectionIndex t (10 + kTolerance) = 0 := by
  have hk := kTolerance_pos
  have hk' : kTolerance < 1 := by norm_num [kTolerance]
  constructor
  · rcases index_cases hs (10 - kTolerance) with ⟨e, -⟩ | ⟨i, hi, e, h1, -⟩ | ⟨e, h⟩
    · exact e
    · have := hs.le (i := 0) (j := i) (by omega) hi.le
      linarith
    · have := hs.le (i := 0) (j := t.secs.length) (by omega) le_rfl
      linarith
  · rcases index_cases hs (10 + kTolerance) with ⟨e, h⟩ | ⟨i, hi, e, h1, -⟩ | ⟨e, h⟩
    · linarith
    · have : i = 0 := by
        by_contra hne
        have := hs.le (i := 1) (j := i) (by omega) hi.le
        linarith
      rw [e, this]; rfl
    · have := hs.le (i := 1) (j := t.secs.length) (by omega) le_rfl
      linarith

theorem top_index (hs : Steps t) (z1 : zAt t 1 = 12) (z2 : zAt t 2 = 14) (hl : t.secs.length = 2) :
    sectionIndex t (14 - kTolerance) = 1 ∧ sectionIndex t (14 + kTolerance) = -2 := by
  have hk := kTolerance_pos
  have hk' : kTolerance < 1 := by norm_num [kTolerance]
  constructor
  · rcases index_cases hs (14 - kTolerance) with ⟨e, h⟩ | ⟨i, hi, e, h1, h2, -⟩ | ⟨e, h⟩
    · have := hs.le (i := 0) (j := 1) (by omega) (by omega)
      linarith
    · have : i = 1 := by
        by_contra hne
        have : i = 0 := by omega
        subst this
        rw [z1] at h2
        linarith
      rw [e, this]; rfl
    · rw [hl, z2] at h; linarith
  · rcases index_cases hs (14 + kTolerance) with ⟨e, h⟩ | ⟨i, hi, e, h1, h2, -⟩ | ⟨e, h⟩
    · have := hs.le (i := 0) (j := 2) (by omega) (by omega)
      linarith
    · have := hs.le (i := i + 1) (j := 2) (by omega) (by omega)
      linarith
    · exact e

/-- C192, a deviation: for a point on the bottom and a ray upwards, `DistanceToOut` is zero, although the ray stays in the solid for
its whole height. -/
theorem C192_bottom_counterexample : ∃ t, make tower.rs tower.zs tower.s tower.d = some t ∧
    (∀ n, distanceToOut (n + 1) t ⟨0, 0, 10⟩ ⟨0, 0, 1⟩ = some 0) ∧ ∀ u, 0 ≤ u → u ≤ 4 → tower.Closed (V3.at' ⟨0, 0, 10⟩ ⟨0, 0, 1⟩ u) := by
  obtain ⟨t, ht, hr, hl, z0, z1, z2⟩ := tower_repr
  have hs := hr.steps tower_valid
  obtain ⟨e1, e2⟩ := bottom_index hs z0 z1 hl
  refine ⟨t, ht, fun n => ?_, fun u h0 h1 => ?_⟩
  · unfold distanceToOut
    rw [if_neg (by omega)]
    simp only [e1, e2]
    rw [if_neg (by norm_num), if_neg (by norm_num), if_neg (by norm_num)]
    unfold outLoop
    rw [if_neg (by norm_num), if_neg (by norm_num)]
  · refine tower_closed _ ?_ ?_ ?_
    · rw [V3.at_z]; simp only; linarith
    · rw [V3.at_z]; simp only; linarith
    · unfold rad; rw [V3.at_x, V3.at_y]; norm_num

/-- C192, a deviation: for a point on the top and a ray downwards, the loop of `DistanceToOut` never ends. -/
theorem C192_top_counterexample : ∃ t, make tower.rs tower.zs tower.s tower.d = some t ∧
    (∀ n, distanceToOut n t ⟨0, 0, 14⟩ ⟨0, 0, -1⟩ = none) ∧ tower.Closed ⟨0, 0, 14⟩ := by
  obtain ⟨t, ht, hr, hl, z0, z1, z2⟩ := tower_repr
  have hs := hr.steps tower_valid
  obtain ⟨e1, e2⟩ := top_index hs z1 z2 hl
  refine ⟨t, ht, fun n => ?_, tower_closed _ (by norm_num) (by norm_num) (by unfold rad; norm_num)⟩
  unfold distanceToOut
  rw [if_neg (by omega)]
  simp only [e1, e2]
  rw [if_neg (by norm_num), if_neg (by norm_num), if_neg (by norm_num)]
  generalize (if (-1 : ℝ) > 0 then (1 : ℤ) else -1) = inc
  induction n with
  | zero => rfl
  | succ n ih =>
    unfold outLoop
    rw [if_neg (by norm_num), if_pos (by rw [hl]; norm_num)]
    exact ih

/-- C192, a deviation: for a point on the bottom and a ray downwards, `DistanceToOut` asks the section about a point that has not been moved to it: the
answer is that of a point outside. -/
theorem C192_shift_counterexample : ∃ t, make tower.rs tower.zs tower.s tower.d = some t ∧
    (∀ n, distanceToOut n t ⟨0, 0, 10⟩ ⟨0, 0, -1⟩ = some (-1)) ∧ tower.Closed ⟨0, 0, 10⟩ := by
  obtain ⟨t, ht, hr, hl, z0, z1, z2⟩ := tower_repr
  have hs := hr.steps tower_valid
  obtain ⟨e1, e2⟩ := bottom_index hs z0 z1 hl
  refine ⟨t, ht, fun n => ?_, tower_closed _ (by norm_num) (by norm_num) (by unfold rad; norm_num)⟩
  unfold distanceToOut
  rw [if_neg (by omega)]
  simp only [e1, e2]
  rw [if_neg (by norm_num), if_pos (by norm_num)]
  have h1 : Cone.distanceToOut Cone.universal (Cone.of Coax.rod) ⟨0, 0, 10⟩ ⟨0, 0, -1⟩ = -1 := by
    unfold Cone.distanceToOut
    rw [if_pos]
    refine .inl ?_
    show |(10 : ℝ)| - _ > _
    rw [Cone.of_dz Coax.rod_valid]
    norm_num [Coax.rod, Cone.kConeTolerance]
  rw [show (0 : ℤ).toNat = 0 from rfl, hr.sec 0 (by rw [← hr.len]; omega)]
  unfold Coax.distanceToOut
  simp only [Coax.of_cones, tower_sec (i := 0) (by norm_num), List.map_cons, List.map_nil, List.foldl_cons, List.foldl_nil, h1]
  norm_num

/-- C192: with one section, `DistanceToOut` is that of the coaxial cones (C188). -/
theorem C192_one_partial (hv : a.Valid) (ht : make a.rs a.zs a.s a.d = some t) (h1 : a.rs.length = 1) (n : ℕ) (p d : V3) :
    distanceToOut n t p d = some (Coax.distanceToOut (Coax.of (a.sec 0)) (lower p (a.mid 0)) d) := by
  have hr := make_repr hv ht
  unfold distanceToOut
  rw [if_pos (by rw [hr.len, h1]), hr.sec 0 (by omega)]

end GPoly
end VecGeom

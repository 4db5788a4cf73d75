import Verif.VoxSafety.Lemmas

/-!
# Properties of the voxel based safety (C118, C119)
-/

namespace VecGeom
namespace VoxSafety

open Voxel

/-! ## Specification -/

/-- `p` lies in the extent of the mother. -/
def InExtentOf (S : Scene) (p : V3) : Prop := AABB.InBox ⟨S.lower, S.upper⟩ p

/-- The answers of the solids are right: `solid j` are the points of daughter `j` and `mother` those of the mother.  Safeties are
lower bounds, boxes hold their daughters. -/
structure Honest (S : Scene) (mother : V3 → Prop) (solid : Nat → V3 → Prop) : Prop where
  extent : S.lower.x < S.upper.x ∧ S.lower.y < S.upper.y ∧ S.lower.z < S.upper.z
  inside : ∀ p, mother p → InExtentOf S p
  contains : ∀ p, S.contains p = true ↔ mother p
  out : ∀ p q, mother p → ¬ mother q → S.safetyOut p ≤ V3.dist p q
  valid : ∀ b ∈ S.boxes, AABB.Valid b
  box : ∀ j b q, S.boxes[j]? = some b → solid j q → AABB.InBox b q
  dContains : ∀ j p, j < S.boxes.length → (S.dContains j p = true ↔ solid j p)
  dSafety : ∀ j p q, j < S.boxes.length → solid j q → S.dSafetyIn j p ≤ V3.dist p q

/-- The sampled points of all tasks: points of the mother in no daughter. -/
def Uncontained (mother : V3 → Prop) (solid : Nat → V3 → Prop) (samples : List (Option (List V3))) : Prop :=
  ∀ ps, some ps ∈ samples → ∀ p ∈ ps, mother p ∧ ∀ j, ¬ solid j p

/-- The closed voxels: the extent of the mother stretched by 1.005 is cut into `n` equal slices on each axis. -/
def InVoxel (S : Scene) (n : Nat) (c : Nat × Nat × Nat) (p : V3) : Prop :=
  let d := V3.smul (1.005 / n) (S.upper - S.lower)
  (S.lower.x + c.1 * d.x ≤ p.x ∧ p.x ≤ S.lower.x + (c.1 + 1) * d.x) ∧
  (S.lower.y + c.2.1 * d.y ≤ p.y ∧ p.y ≤ S.lower.y + (c.2.1 + 1) * d.y) ∧
  (S.lower.z + c.2.2 * d.z ≤ p.z ∧ p.z ≤ S.lower.z + (c.2.2 + 1) * d.z)

/-! ## Sizes -/

theorem gridSide_ge (n : Nat) : 4 ≤ gridSide n := by
  unfold gridSide
  have h : (4 : ℝ) ≤ max 4 (2 * √(1 * n)) := le_max_left _ _
  exact (le_trunc_iff (k := 4) (by linarith)).2 (by push_cast; exact h)

theorem int32_eq {x y : Int} (h : int32 x = some y) : x < 2 ^ 31 := by
  unfold int32 at h
  split at h
  · rename_i h'; exact h'.2
  · simp at h

theorem sized_of {S : Scene} {y : Int} (h : int32 (1000 * (safetyGrid S).nx * (safetyGrid S).ny * (safetyGrid S).nz) = some y) :
    (safetyGrid S).Sized := by
  have h1 := gridSide_ge S.boxes.length
  have h2 := int32_eq h
  have hg : (safetyGrid S).nx = gridSide S.boxes.length ∧ (safetyGrid S).ny = gridSide S.boxes.length ∧
    (safetyGrid S).nz = gridSide S.boxes.length := ⟨rfl, rfl, rfl⟩
  rw [hg.1, hg.2.1, hg.2.2] at h2
  refine ⟨?_, ?_, ?_, ?_⟩
  · rw [hg.1]; omega
  · rw [hg.2.1]; omega
  · rw [hg.2.2]; omega
  · rw [hg.1, hg.2.1, hg.2.2]
    generalize gridSide S.boxes.length = n at h1 h2
    have : 0 < n * n * n := by positivity
    nlinarith

theorem pos_len {S : Scene} (h : S.lower.x < S.upper.x ∧ S.lower.y < S.upper.y ∧ S.lower.z < S.upper.z) :
    Pos (V3.smul 1.005 (S.upper - S.lower)) := by
  obtain ⟨hx, hy, hz⟩ := h
  refine ⟨?_, ?_, ?_⟩
  · rw [V3.smul_x, V3.sub_x]; linarith
  · rw [V3.smul_y, V3.sub_y]; linarith
  · rw [V3.smul_z, V3.sub_z]; linarith

theorem inRegion_of {S : Scene} (h : S.lower.x < S.upper.x ∧ S.lower.y < S.upper.y ∧ S.lower.z < S.upper.z) {p : V3}
    (hp : InExtentOf S p) : InRegion S.lower (V3.smul 1.005 (S.upper - S.lower)) p := by
  obtain ⟨hx, hy, hz⟩ := h
  obtain ⟨⟨x0, x1⟩, ⟨y0, y1⟩, ⟨z0, z1⟩⟩ := hp
  simp only at x0 x1 y0 y1 z0 z1
  refine ⟨⟨x0, ?_⟩, ⟨y0, ?_⟩, ⟨z0, ?_⟩⟩
  · rw [V3.smul_x, V3.sub_x]; linarith
  · rw [V3.smul_y, V3.sub_y]; linarith
  · rw [V3.smul_z, V3.sub_z]; linarith

theorem key_of_point {S : Scene} (hs : (safetyGrid S).Sized)
    (h : S.lower.x < S.upper.x ∧ S.lower.y < S.upper.y ∧ S.lower.z < S.upper.z) {p : V3} (hp : InExtentOf S p) :
    ∃ key a b, (safetyGrid S).getKey p = some key ∧ 0 ≤ key ∧ (safetyGrid S).extent key = some (a, b) ∧ InExtent a b p := by
  obtain ⟨key, a, b, h1, h2, _, h4, h5⟩ := C18_point_in_voxel (lo := S.lower) hs (pos_len h) (inRegion_of h hp)
  exact ⟨key, a, b, h1, h2, h4, h5⟩

/-- What the construction leaves behind. -/
theorem build_spec {S : Scene} {mother : V3 → Prop} {solid : Nat → V3 → Prop} (H : Honest S mother solid)
    {samples : List (Option (List V3))} (hu : Uncontained mother solid samples) (hne : samples ≠ [])
    {y : Int} (hfit : int32 (1000 * (safetyGrid S).nx * (safetyGrid S).ny * (safetyGrid S).nz) = some y) :
    ∃ keys : List Int, (∀ k, k ∈ keys ↔ ∃ ps, some ps ∈ samples ∧ ∃ p ∈ ps, (safetyGrid S).getKey p = some k) ∧ keys.Nodup ∧
      ((keys.length < 50 ∧ build S samples = some none) ∨
       (50 ≤ keys.length ∧ ∃ m, build S samples = some (some m) ∧
        ∀ k, m.readProperties k = some (if k ∈ keys then safetyCandidates S (voxelOf (safetyGrid S) k) else []))) := by
  have hs := sized_of hfit
  have hmem : ∀ p, p ∈ (samples.filterMap id).flatten ↔ ∃ ps, some ps ∈ samples ∧ p ∈ ps := by
    intro p
    rw [List.mem_flatten]
    constructor
    · rintro ⟨ps, h1, h2⟩
      obtain ⟨o, ho, ho'⟩ := List.mem_filterMap.1 h1
      exact ⟨ps, by rw [id] at ho'; rw [← ho']; exact ho, h2⟩
    · rintro ⟨ps, h1, h2⟩
      exact ⟨ps, List.mem_filterMap.2 ⟨some ps, h1, rfl⟩, h2⟩
  have hkey : ∀ p ∈ (samples.filterMap id).flatten, ∃ k, (safetyGrid S).getKey p = some k ∧ 0 ≤ k := by
    intro p hp
    obtain ⟨ps, h1, h2⟩ := (hmem p).1 hp
    obtain ⟨key, _, _, k1, k2, _⟩ := key_of_point hs H.extent (H.inside p (hu ps h1 p h2).1)
    exact ⟨key, k1, k2⟩
  obtain ⟨ks, e1, e2, e3⟩ := mapM_getKey fun p hp => (hkey p hp).imp fun k h => h.1
  obtain ⟨u1, u2⟩ := uniqueKeys_spec ks
  have hk0 : ∀ k ∈ uniqueKeys ks, 0 ≤ k := by
    intro k hk
    obtain ⟨p, hp, hpk⟩ := (e3 k).1 ((u2 k).1 hk)
    obtain ⟨k', h1, h2⟩ := hkey p hp
    rw [hpk] at h1; cases h1; exact h2
  refine ⟨uniqueKeys ks, ?_, u1.imp (fun h => ne_of_lt h), ?_⟩
  · intro k
    rw [u2, e3]
    constructor
    · rintro ⟨p, hp, hpk⟩
      obtain ⟨ps, h1, h2⟩ := (hmem p).1 hp
      exact ⟨ps, h1, p, h2, hpk⟩
    · rintro ⟨ps, h1, p, h2, hpk⟩
      exact ⟨p, (hmem p).2 ⟨ps, h1, h2⟩, hpk⟩
  have hb : build S samples = (if ks.length ≤ 1 then some none
      else if (uniqueKeys ks).length < 50 then some none
      else (VMap.empty.addAll ((uniqueKeys ks).flatMap fun k =>
        (safetyCandidates S (voxelOf (safetyGrid S) k)).map fun c => (k, c))).map some) := by
    unfold build
    simp only
    rw [hfit, Option.bind_some, if_neg (by simpa using hne), e1, Option.bind_some]
  have hlen : (uniqueKeys ks).length ≤ ks.length :=
    (List.subperm_of_subset (u1.imp (fun h => ne_of_lt h)) (fun k hk => (u2 k).1 hk)).length_le
  by_cases hl : (uniqueKeys ks).length < 50
  · left
    refine ⟨hl, ?_⟩
    rw [hb]
    by_cases h1 : ks.length ≤ 1
    · rw [if_pos h1]
    · rw [if_neg h1, if_pos hl]
  · right
    refine ⟨not_lt.1 hl, ?_⟩
    obtain ⟨m, m1, m2⟩ := register_keys (fun k => safetyCandidates S (voxelOf (safetyGrid S) k)) _ u1 hk0
    refine ⟨m, ?_, m2⟩
    rw [hb, if_neg (by omega), if_neg hl, m1]
    rfl

/-- The number of slices. -/
noncomputable def slices (S : Scene) : Nat := (gridSide S.boxes.length).toNat

theorem voxel_iff {S : Scene} (hs : (safetyGrid S).Sized) {k : Int} {p : V3}
    (hk : (safetyGrid S).getKey p = some k) (hr : InRegion S.lower (V3.smul 1.005 (S.upper - S.lower)) p)
    (hp : Pos (V3.smul 1.005 (S.upper - S.lower))) :
    ∃ c : Nat × Nat × Nat, InVoxel S (slices S) c p ∧
      ∀ x, InVoxel S (slices S) c x ↔ AABB.InBox ⟨(voxelOf (safetyGrid S) k).lo, (voxelOf (safetyGrid S) k).up⟩ x := by
  have hx : ∃ cc, (safetyGrid S).IsCell cc ∧ (safetyGrid S).keyToCell k = some cc := by
    have hc := cell_of_point (lo := S.lower) hs hp hr
    have hkc := key_of_cell hs hc
    have hkey : k = _ := Option.some.inj (hk.symm.trans hkc.1)
    have hcell := cell_of_key_of_cell hs hc
    rw [← hkey] at hcell
    exact ⟨_, hc, hcell⟩
  obtain ⟨⟨ci, cj, cl⟩, hc, hcell⟩ := hx
  have hext := extent_of_cell hcell
  have h4 := gridSide_ge S.boxes.length
  have hn : ((slices S : Nat) : ℝ) = ((gridSide S.boxes.length : Int) : ℝ) := by
    unfold slices
    have : ((gridSide S.boxes.length).toNat : Int) = gridSide S.boxes.length := Int.toNat_of_nonneg (by omega)
    exact_mod_cast congrArg (fun z : Int => (z : ℝ)) this
  obtain ⟨⟨i0, _⟩, ⟨j0, _⟩, ⟨l0, _⟩⟩ := hc
  simp only at i0 j0 l0
  obtain ⟨i, rfl⟩ := Int.eq_ofNat_of_zero_le i0
  obtain ⟨j, rfl⟩ := Int.eq_ofNat_of_zero_le j0
  obtain ⟨l, rfl⟩ := Int.eq_ofNat_of_zero_le l0
  have hiff : ∀ x, InVoxel S (slices S) (i, j, l) x ↔
      AABB.InBox ⟨(voxelOf (safetyGrid S) k).lo, (voxelOf (safetyGrid S) k).up⟩ x := by
    intro x
    have hv : voxelOf (safetyGrid S) k = ⟨corner (safetyGrid S) ((i : Int), (j : Int), (l : Int)),
        corner (safetyGrid S) ((i : Int), (j : Int), (l : Int)) + (safetyGrid S).delta⟩ := by
      unfold voxelOf
      have : (safetyGrid S).extent k = some _ := hext
      rw [this]
    rw [hv]
    unfold InVoxel AABB.InBox corner safetyGrid Grid.make
    simp only [V3.smul_x, V3.smul_y, V3.smul_z, V3.sub_x, V3.sub_y, V3.sub_z, V3.add_x, V3.add_y, V3.add_z, hn]
    have e : ∀ b c : ℝ, 1.005 / c * b = 1.005 * b / c := fun b c => by ring
    have e' : ∀ s a d : ℝ, s + (a + 1) * d = s + a * d + d := fun s a d => by ring
    simp only [e, e', Int.cast_natCast]
  refine ⟨(i, j, l), (hiff p).2 ?_, hiff⟩
  obtain ⟨key, a, b, k1, _, _, k4, k5⟩ := C18_point_in_voxel (lo := S.lower) hs hp hr
  have : key = k := Option.some.inj (k1.symm.trans hk)
  subst this
  have k4' : (safetyGrid S).extent key = some (a, b) := k4
  unfold voxelOf
  rw [k4']
  obtain ⟨⟨a1, a2⟩, ⟨a3, a4⟩, ⟨a5, a6⟩⟩ := k5
  exact ⟨⟨a1, a2.le⟩, ⟨a3, a4.le⟩, ⟨a5, a6.le⟩⟩

/-! ## C118 -/

theorem safety_core {S : Scene} {mother : V3 → Prop} {solid : Nat → V3 → Prop} (H : Honest S mother solid)
    {samples : List (Option (List V3))} (hu : Uncontained mother solid samples) {str : Option (VMap Int)}
    (hb : build S samples = some str) {p : V3} (hp : mother p) :
    ∃ r c key, computeSafety S (some str) p = some r ∧ (r = 0 ∨ r ≤ S.safetyOut p) ∧ (0 ≤ S.safetyOut p → 0 ≤ r) ∧
      InVoxel S (slices S) c p ∧
      (∀ x, InVoxel S (slices S) c x ↔ AABB.InBox ⟨(voxelOf (safetyGrid S) key).lo, (voxelOf (safetyGrid S) key).up⟩ x) ∧
      ∀ (j : Nat) b q, S.boxes[j]? = some b → (j : Int) ∈ safetyCandidates S (voxelOf (safetyGrid S) key) → solid j q →
        r ≤ V3.dist p q := by
  have hfit : ∃ y, int32 (1000 * (safetyGrid S).nx * (safetyGrid S).ny * (safetyGrid S).nz) = some y := by
    cases h : int32 (1000 * (safetyGrid S).nx * (safetyGrid S).ny * (safetyGrid S).nz) with
    | some y => exact ⟨y, rfl⟩
    | none =>
      unfold build at hb
      simp only at hb
      rw [h] at hb
      simp at hb
  obtain ⟨y, hfit⟩ := hfit
  have hs := sized_of hfit
  have hpe := H.inside p hp
  obtain ⟨key, a, b, k1, k2, k3, k4⟩ := key_of_point hs H.extent hpe
  obtain ⟨c, c1, c2⟩ := voxel_iff hs k1 (inRegion_of H.extent hpe) (pos_len H.extent)
  have hne : samples ≠ [] := by
    rintro rfl
    unfold build at hb
    simp only at hb
    rw [hfit, Option.bind_some, if_pos (show ([] : List (Option (List V3))).length = 0 from rfl)] at hb
    simp at hb
  have zero : computeSafety S (some str) p = some 0 → ∃ r c key, computeSafety S (some str) p = some r ∧
      (r = 0 ∨ r ≤ S.safetyOut p) ∧ (0 ≤ S.safetyOut p → 0 ≤ r) ∧ InVoxel S (slices S) c p ∧
      (∀ x, InVoxel S (slices S) c x ↔ AABB.InBox ⟨(voxelOf (safetyGrid S) key).lo, (voxelOf (safetyGrid S) key).up⟩ x) ∧
      ∀ (j : Nat) b q, S.boxes[j]? = some b → (j : Int) ∈ safetyCandidates S (voxelOf (safetyGrid S) key) → solid j q →
        r ≤ V3.dist p q :=
    fun h => ⟨0, c, key, h, Or.inl rfl, fun _ => le_refl _, c1, c2, fun _ _ _ _ _ _ => Real.sqrt_nonneg _⟩
  obtain ⟨keys, _, _, h | ⟨_, m, hm, hr⟩⟩ := build_spec H hu hne hfit
  · apply zero
    rw [hb] at h
    rw [Option.some.inj h.2]
    rfl
  rw [hb] at hm
  have hm := Option.some.inj hm
  subst hm
  have hcs : computeSafety S (some (some m)) p =
      if (if key ∈ keys then safetyCandidates S (voxelOf (safetyGrid S) key) else []).length > 0 then
        ((if key ∈ keys then safetyCandidates S (voxelOf (safetyGrid S) key) else []).foldlM (estimateStep S p)
          ((1e20 : ℝ), (1e20 : ℝ))).map fun st => min (min st.1 (√st.2)) (S.safetyOut p)
      else some 0 := by
    unfold computeSafety
    simp only
    rw [k1, Option.bind_some, hr key, Option.bind_some]
  by_cases hk : key ∈ keys
  · rw [if_pos hk] at hcs
    rw [if_pos (List.length_pos_iff.2 (safetyCandidates_ne_nil S _))] at hcs
    obtain ⟨st, h1, _, _, h4, h5, h6, h7⟩ := estimate_loop (S := S) p _ (fun c hc => candidate_range hc) ((1e20 : ℝ), (1e20 : ℝ))
      (by norm_num)
    rw [h1] at hcs
    refine ⟨_, c, key, hcs, Or.inr (min_le_right _ _), fun h => le_min (le_min h4 (Real.sqrt_nonneg _)) h, c1, c2, ?_⟩
    intro j bx q hbx hj hq
    have hjl := (List.getElem?_eq_some_iff.1 hbx).1
    have hin := H.box j bx q hbx hq
    have hd0 : 0 ≤ V3.dist p q := Real.sqrt_nonneg _
    rcases h5 j bx hj hbx with ⟨g1, g2⟩ | ⟨_, g2⟩
    · have hout : ¬ AABB.InBox bx p := fun hin' => absurd (AABB.C31_safety_sqr_inside hin').1 (not_le.2 g1)
      have := (AABB.C31_safety_sqr_outside (H.valid bx (List.mem_of_getElem? hbx)) hout).2.1 q hin
      exact ((min_le_left _ _).trans (min_le_right _ _)).trans (Real.sqrt_le_sqrt (g2.trans this))
    · exact ((min_le_left _ _).trans (min_le_left _ _)).trans (g2.trans (max_le hd0 (H.dSafety j p q hjl hq)))
  · apply zero
    rw [hcs, if_neg hk]
    rfl

/-- C118 (partial): whatever the sampling produced, the voxel based safety is defined at every point of the mother; it is zero (no
information) or not larger than the mother's own safety, not negative if that is not negative, and it never exceeds the distance
to any daughter whose box reaches the voxel of the point.  Missing: daughters whose boxes do not reach the voxel (false, see
`C118_missed_daughter_counterexample`). -/
theorem C118_safety_partial {S : Scene} {mother : V3 → Prop} {solid : Nat → V3 → Prop} (H : Honest S mother solid)
    {samples : List (Option (List V3))} (hu : Uncontained mother solid samples) {str : Option (VMap Int)}
    (hb : build S samples = some str) {p : V3} (hp : mother p) :
    ∃ r c, computeSafety S (some str) p = some r ∧ (r = 0 ∨ r ≤ S.safetyOut p) ∧ (0 ≤ S.safetyOut p → 0 ≤ r) ∧
      InVoxel S (slices S) c p ∧
      ∀ j b q x, S.boxes[j]? = some b → AABB.InBox b x → InVoxel S (slices S) c x → solid j q → r ≤ V3.dist p q := by
  obtain ⟨r, c, key, h1, h2, h3, h4, h5, h6⟩ := safety_core H hu hb hp
  exact ⟨r, c, h1, h2, h3, h4, fun j b q x hb' hx hxv hq => h6 j b q hb' (mem_of_meets hb' hx ((h5 x).1 hxv)) hq⟩

/-- C118 (partial): also daughters away from the voxel are respected if at one of the 601 surface points used by the construction
(in the mother and in no daughter) they are strictly nearer, by the larger of the daughter's safety and the box distance, than the
mother's boundary and than all other daughters. -/
theorem C118_surface_partial {S : Scene} {mother : V3 → Prop} {solid : Nat → V3 → Prop} (H : Honest S mother solid)
    {samples : List (Option (List V3))} (hu : Uncontained mother solid samples) {str : Option (VMap Int)}
    (hb : build S samples = some str) {p : V3} (hp : mother p) :
    ∃ r c lo up, computeSafety S (some str) p = some r ∧ (∀ x, InVoxel S (slices S) c x ↔ AABB.InBox ⟨lo, up⟩ x) ∧
      InVoxel S (slices S) c p ∧
      ∀ j b q sp, S.boxes[j]? = some b → sp ∈ surfacePoints lo up 10 → mother sp → (∀ i, ¬ solid i sp) →
        max (S.dSafetyIn j sp * S.dSafetyIn j sp) (b.safetySqr sp) < S.safetyOut sp * S.safetyOut sp →
        (∀ k c, k ≠ j → S.boxes[k]? = some c → max (S.dSafetyIn j sp * S.dSafetyIn j sp) (b.safetySqr sp) <
          max (S.dSafetyIn k sp * S.dSafetyIn k sp) (c.safetySqr sp)) →
        solid j q → r ≤ V3.dist p q := by
  obtain ⟨r, c, key, h1, h2, h3, h4, h5, h6⟩ := safety_core H hu hb hp
  refine ⟨r, c, _, _, h1, h5, h4, fun j b q sp hb' hsp hm hns hlt ho hq => h6 j b q hb' ?_ hq⟩
  refine mem_safetyCandidates.2 (Or.inr ⟨sp, hsp, ?_⟩)
  unfold candidateAt
  rw [(H.contains sp).2 hm]
  have hin : inAnyDaughter S (candidatesOf (S.boxes.map vbox) (voxelOf (safetyGrid S) key)) sp = false := by
    unfold inAnyDaughter
    rw [List.any_eq_false]
    intro i hi
    have hl : i < S.boxes.length := by simpa using candidatesOf_lt hi
    rw [List.getElem?_eq_getElem hl]
    simp only
    have : S.dContains i sp = false := by
      rw [Bool.eq_false_iff]
      intro h'
      exact hns i ((H.dContains i sp hl).1 h')
    rw [this]
    simp
  rw [hin]
  exact congrArg some (pick_strict hb' hlt ho)

/-- C118: where a sampled point shares the voxel, the answer is not the fallback: it is the smallest of the mother's safety, of
1e10 and of one value per candidate, each of them a safety of a daughter (cut at zero) or the distance to its box. -/
theorem C118_value {S : Scene} {mother : V3 → Prop} {solid : Nat → V3 → Prop} (H : Honest S mother solid)
    {samples : List (Option (List V3))} (hu : Uncontained mother solid samples) {m : VMap Int}
    (hb : build S samples = some (some m)) {p s : V3} {ps : List V3} (hp : mother p) (hps : some ps ∈ samples) (hs : s ∈ ps)
    (hsv : (safetyGrid S).getKey s = (safetyGrid S).getKey p) :
    ∃ r, computeSafety S (some (some m)) p = some r ∧ (r = S.safetyOut p ∨ r = 1e10 ∨
      ∃ (j : Nat) (b : AABB.Box), S.boxes[j]? = some b ∧
        ((¬ AABB.InBox b p ∧ r = √(b.safetySqr p)) ∨ (AABB.InBox b p ∧ r = max 0 (S.dSafetyIn j p)))) := by
  have hfit : ∃ y, int32 (1000 * (safetyGrid S).nx * (safetyGrid S).ny * (safetyGrid S).nz) = some y := by
    cases h : int32 (1000 * (safetyGrid S).nx * (safetyGrid S).ny * (safetyGrid S).nz) with
    | some y => exact ⟨y, rfl⟩
    | none =>
      unfold build at hb
      simp only at hb
      rw [h] at hb
      simp at hb
  obtain ⟨y, hfit⟩ := hfit
  have hsz := sized_of hfit
  obtain ⟨key, a, b, k1, k2, k3, k4⟩ := key_of_point hsz H.extent (H.inside p hp)
  obtain ⟨keys, hkeys, _, h | ⟨_, m', hm, hr⟩⟩ := build_spec H hu (List.ne_nil_of_mem hps) hfit
  · rw [hb] at h; simp at h
  rw [hb] at hm
  have hm : m = m' := Option.some.inj (Option.some.inj hm)
  subst hm
  have hk : key ∈ keys := (hkeys key).2 ⟨ps, hps, s, hs, by rw [hsv, k1]⟩
  have hcs : computeSafety S (some (some m)) p =
      ((safetyCandidates S (voxelOf (safetyGrid S) key)).foldlM (estimateStep S p)
          ((1e20 : ℝ), (1e20 : ℝ))).map fun st => min (min st.1 (√st.2)) (S.safetyOut p) := by
    unfold computeSafety
    simp only
    rw [k1, Option.bind_some, hr key, Option.bind_some, if_pos hk,
      if_pos (List.length_pos_iff.2 (safetyCandidates_ne_nil S _))]
  obtain ⟨st, h1, _, _, h4, h5, h6, h7⟩ := estimate_loop (S := S) p _ (fun c hc => candidate_range hc) ((1e20 : ℝ), (1e20 : ℝ))
    (by norm_num)
  rw [h1] at hcs
  refine ⟨_, hcs, ?_⟩
  simp only
  have hq : ∀ {b : AABB.Box}, 0 < b.safetySqr p → ¬ AABB.InBox b p :=
    fun h hin' => absurd (AABB.C31_safety_sqr_inside hin').1 (not_le.2 h)
  have hsq : √(1e20 : ℝ) = 1e10 := by
    rw [Real.sqrt_eq_iff_mul_self_eq (by norm_num) (by norm_num)]; norm_num
  have h620 : ((1e20 : ℝ), (1e20 : ℝ)).1 = 1e20 := rfl
  have h720 : ((1e20 : ℝ), (1e20 : ℝ)).2 = 1e20 := rfl
  have hle : √st.2 ≤ 1e10 := by
    rw [← hsq]; exact Real.sqrt_le_sqrt (by assumption)
  rcases min_choice (min st.1 (√st.2)) (S.safetyOut p) with e | e
  · rw [e]
    rcases min_choice st.1 (√st.2) with e' | e'
    · rw [e']
      rcases h6 with h6 | ⟨j, b, _, a2, a3, a4⟩
      · exfalso
        rw [h6, h620] at e'
        have : (1e20 : ℝ) ≤ √st.2 := by rw [← e']; exact min_le_right _ _
        norm_num at this hle
        linarith
      · right; right
        refine ⟨j, b, a2, Or.inr ⟨?_, a4⟩⟩
        by_contra hn
        exact absurd (AABB.C31_safety_sqr_outside (H.valid b (List.mem_of_getElem? a2)) hn).1 (not_lt.2 a3)
    · rw [e']
      rcases h7 with h7 | ⟨j, b, _, a2, a3, a4⟩
      · right; left; rw [h7, h720, hsq]
      · right; right
        exact ⟨j, b, a2, Or.inl ⟨hq a3, by rw [a4]⟩⟩
  · left; exact e

end VoxSafety
end VecGeom

import Verif.VoxSafety.Props

/-!
# A geometry for which the voxel based safety is too large (C118)
-/

namespace VecGeom
namespace VoxSafety

open Voxel

/-- A wall behind the face `x = 2` of the voxel. -/
noncomputable def wall : AABB.Box := ⟨⟨2.2, -300, -300⟩, ⟨3, 300, 300⟩⟩

/-- A small block between that face and the wall. -/
noncomputable def block : AABB.Box := ⟨⟨2.1, -108.575, -108.575⟩, ⟨2.15, -108.525, -108.525⟩⟩

/-- The points of the mother: a box with half lengths 400. -/
def wMother (p : V3) : Prop := |p.x| ≤ 400 ∧ |p.y| ≤ 400 ∧ |p.z| ≤ 400

/-- The points of the two daughters. -/
def wSolid (j : Nat) (q : V3) : Prop := ∃ b, [wall, block][j]? = some b ∧ AABB.InBox b q

open Classical in
/-- The mother with its daughters; all answers are exact or the answers of the box kernels. -/
noncomputable def wS : Scene where
  lower := ⟨-400, -400, -400⟩
  upper := ⟨400, 400, 400⟩
  contains := fun p => decide (wMother p)
  safetyOut := fun p => 400 - max (max |p.x| |p.y|) |p.z|
  boxes := [wall, block]
  dContains := fun j p => decide (wSolid j p)
  dSafetyIn := fun j p => match [wall, block][j]? with
    | some b => b.safety p
    | none => 0

theorem wS_honest : Honest wS wMother wSolid where
  extent := by norm_num [wS]
  inside := by
    rintro p ⟨h1, h2, h3⟩
    exact ⟨abs_le.1 h1, abs_le.1 h2, abs_le.1 h3⟩
  contains := fun p => by simp [wS]
  out := by
    intro p q _ hq
    show 400 - max (max |p.x| |p.y|) |p.z| ≤ V3.dist p q
    have a1 : |p.x| ≤ max (max |p.x| |p.y|) |p.z| := (le_max_left _ _).trans (le_max_left _ _)
    have a2 : |p.y| ≤ max (max |p.x| |p.y|) |p.z| := (le_max_right _ _).trans (le_max_left _ _)
    have a3 : |p.z| ≤ max (max |p.x| |p.y|) |p.z| := le_max_right _ _
    have b1 := V3.abs_x_le_dist p q
    have b2 := V3.abs_y_le_dist p q
    have b3 := V3.abs_z_le_dist p q
    have t : ∀ a b : ℝ, |b| ≤ |a| + |a - b| := fun a b => by
      have := abs_sub_abs_le_abs_sub b a
      rw [abs_sub_comm] at this
      linarith
    by_contra hc
    push Not at hc
    apply hq
    refine ⟨?_, ?_, ?_⟩
    · have := t p.x q.x; linarith
    · have := t p.y q.y; linarith
    · have := t p.z q.z; linarith
  valid := by
    intro b hb
    simp only [wS, List.mem_cons, List.not_mem_nil, or_false] at hb
    rcases hb with rfl | rfl <;> norm_num [AABB.Valid, wall, block]
  box := by
    rintro j b q hb ⟨b', hb', hq⟩
    have hb : [wall, block][j]? = some b := hb
    rw [hb] at hb'; cases hb'; exact hq
  dContains := fun j p _ => by simp [wS]
  dSafety := by
    rintro j p q _ ⟨b, hb, hq⟩
    show (match [wall, block][j]? with | some b => b.safety p | none => 0) ≤ _
    rw [hb]
    exact AABB.C31_safety_lower_bound hq

theorem wS_side : gridSide wS.boxes.length = 4 := by
  have hl : wS.boxes.length = 2 := rfl
  rw [hl]
  unfold gridSide
  have h : max (4 : ℝ) (2 * √(1 * (2 : ℕ))) = 4 := by
    apply max_eq_left
    have : √(1 * ((2 : ℕ) : ℝ)) ≤ 2 := by
      rw [Real.sqrt_le_left (by norm_num)]
      norm_num
    linarith
  rw [h, trunc_of_nonneg (by norm_num)]
  norm_num

theorem wS_grid : safetyGrid wS = ⟨4, 4, 4, ⟨-400, -400, -400⟩, ⟨201, 201, 201⟩, ⟨1 / 201, 1 / 201, 1 / 201⟩⟩ := by
  unfold safetyGrid
  simp only
  rw [wS_side]
  unfold Grid.make wS
  simp only [V3.smul_x, V3.smul_y, V3.smul_z, V3.sub_x, V3.sub_y, V3.sub_z]
  norm_num

theorem wS_fit : int32 (1000 * (safetyGrid wS).nx * (safetyGrid wS).ny * (safetyGrid wS).nz) = some 64000 := by
  rw [wS_grid]
  rfl

theorem coord4 {x : ℝ} {i : Nat} (h0 : -400 + 201 * (i : ℝ) ≤ x) (h1 : x < -400 + 201 * ((i : ℝ) + 1)) :
    trunc ((x - (-400)) * (1 / 201)) = (i : Int) := by
  have hi : (0 : ℝ) ≤ i := Nat.cast_nonneg i
  rw [trunc_of_nonneg (by
    have : 0 ≤ x - (-400) := by linarith
    positivity), Int.floor_eq_iff]
  push_cast
  constructor
  · rw [mul_one_div, le_div_iff₀ (by norm_num)]; linarith
  · rw [mul_one_div, div_lt_iff₀ (by norm_num)]; linarith

theorem wS_key {p : V3} {i j k : Nat} (hi : i < 4) (hj : j < 4) (hk : k < 4)
    (hx : -400 + 201 * (i : ℝ) ≤ p.x ∧ p.x < -400 + 201 * ((i : ℝ) + 1))
    (hy : -400 + 201 * (j : ℝ) ≤ p.y ∧ p.y < -400 + 201 * ((j : ℝ) + 1))
    (hz : -400 + 201 * (k : ℝ) ≤ p.z ∧ p.z < -400 + 201 * ((k : ℝ) + 1)) :
    (safetyGrid wS).getKey p = some ((i + 4 * (j + k * 4) : Nat) : Int) := by
  rw [wS_grid]
  unfold Grid.getKey Grid.getVoxelCoordinates
  simp only
  rw [coord4 hx.1 hx.2, coord4 hy.1 hy.2, coord4 hz.1 hz.2]
  unfold Grid.getKeyFromCells
  simp only
  rw [int32_of (by omega) (by omega), Option.bind_some, int32_of (by omega) (by omega), Option.bind_some,
    int32_of (by omega) (by omega), Option.bind_some, int32_of (by omega) (by omega)]
  push_cast
  rfl

/-- Sampled points: the centres of all voxels. -/
noncomputable def wCentres : List V3 := (List.range 4).flatMap fun (i : Nat) => (List.range 4).flatMap fun (j : Nat) =>
  (List.range 4).map fun (k : Nat) =>
    (⟨-400 + 201 * ((i : ℝ) + 1 / 2), -400 + 201 * ((j : ℝ) + 1 / 2), -400 + 201 * ((k : ℝ) + 1 / 2)⟩ : V3)

theorem mem_wCentres {p : V3} : p ∈ wCentres ↔ ∃ i j k : Nat, i < 4 ∧ j < 4 ∧ k < 4 ∧
    p = ⟨-400 + 201 * ((i : ℝ) + 1 / 2), -400 + 201 * ((j : ℝ) + 1 / 2), -400 + 201 * ((k : ℝ) + 1 / 2)⟩ := by
  unfold wCentres
  simp only [List.mem_flatMap, List.mem_map, List.mem_range]
  constructor
  · rintro ⟨i, hi, j, hj, k, hk, rfl⟩; exact ⟨i, j, k, hi, hj, hk, rfl⟩
  · rintro ⟨i, j, k, hi, hj, hk, rfl⟩; exact ⟨i, hi, j, hj, k, hk, rfl⟩

theorem wSamples_uncontained : Uncontained wMother wSolid [some wCentres] := by
  intro ps hps p hp
  rw [List.mem_singleton] at hps
  cases hps
  obtain ⟨i, j, k, hi, hj, hk, rfl⟩ := mem_wCentres.1 hp
  have c : ∀ n : Nat, n < 4 → |(-400 : ℝ) + 201 * ((n : ℝ) + 1 / 2)| ≤ 400 := by
    intro n hn
    have h0 : (0 : ℝ) ≤ n := Nat.cast_nonneg n
    have h1 : (n : ℝ) ≤ 3 := by exact_mod_cast (by omega : n ≤ 3)
    rw [abs_le]; constructor <;> linarith
  refine ⟨⟨c i hi, c j hj, c k hk⟩, ?_⟩
  rintro l ⟨b, hb, hq⟩
  have hx : (2 : ℝ) < b.lo.x ∧ b.hi.x ≤ 3 := by
    have := List.mem_of_getElem? hb
    simp only [List.mem_cons, List.not_mem_nil, or_false] at this
    rcases this with rfl | rfl <;> norm_num [wall, block]
  obtain ⟨⟨q1, q2⟩, _⟩ := hq
  simp only at q1 q2
  rcases Nat.lt_or_ge i 2 with h | h
  · have : (i : ℝ) ≤ 1 := by exact_mod_cast (by omega : i ≤ 1)
    linarith [hx.1]
  · have : (2 : ℝ) ≤ i := by exact_mod_cast h
    linarith [hx.2]

theorem wS_built : ∃ m, build wS [some wCentres] = some (some m) ∧
    m.readProperties 21 = some (safetyCandidates wS (voxelOf (safetyGrid wS) 21)) := by
  obtain ⟨keys, h1, h2, h3⟩ := build_spec wS_honest wSamples_uncontained (by simp) wS_fit
  have hall : ∀ n : Nat, n < 64 → (n : Int) ∈ keys := by
    intro n hn
    rw [h1]
    refine ⟨wCentres, by simp, _, mem_wCentres.2 ⟨n % 4, n / 4 % 4, n / 16, by omega, by omega, by omega, rfl⟩, ?_⟩
    have hb : ∀ t : ℝ, -400 + 201 * t ≤ -400 + 201 * (t + 1 / 2) ∧ -400 + 201 * (t + 1 / 2) < -400 + 201 * (t + 1) :=
      fun t => ⟨by linarith, by linarith⟩
    rw [wS_key (i := n % 4) (j := n / 4 % 4) (k := n / 16) (by omega) (by omega) (by omega) (hb _) (hb _) (hb _)]
    congr 1
    have : n % 4 + 4 * (n / 4 % 4 + n / 16 * 4) = n := by omega
    rw [this]
  have hlen : 64 ≤ keys.length := by
    have hn : ((List.range 64).map Int.ofNat).Nodup :=
      List.Nodup.map (fun a b h => Int.ofNat.inj h) List.nodup_range
    have := (List.subperm_of_subset hn (l₂ := keys) (by
      intro z hz
      obtain ⟨n, hn, rfl⟩ := List.mem_map.1 hz
      exact hall n (List.mem_range.1 hn))).length_le
    simpa using this
  rcases h3 with h3 | ⟨_, m, hm, hr⟩
  · omega
  · exact ⟨m, hm, by rw [hr 21, if_pos (show (21 : Int) ∈ keys from hall 21 (by omega))]⟩

theorem wS_voxel : voxelOf (safetyGrid wS) 21 = ⟨⟨-199, -199, -199⟩, ⟨2, 2, 2⟩⟩ := by
  rw [wS_grid]
  have h : (⟨4, 4, 4, ⟨-400, -400, -400⟩, ⟨201, 201, 201⟩, ⟨1 / 201, 1 / 201, 1 / 201⟩⟩ : Grid).keyToCell 21 = some (1, 1, 1) := by
    unfold Grid.keyToCell
    simp only
    rw [int32_of (by norm_num) (by norm_num), Option.bind_some, if_neg (by norm_num)]
    rfl
  unfold voxelOf
  rw [extent_of_cell h]
  unfold corner
  simp only
  have e : ∀ a b : V3, a + b = ⟨a.x + b.x, a.y + b.y, a.z + b.z⟩ := fun _ _ => rfl
  rw [e]
  norm_num

/-- All surface points of the voxel keep their distance from the block in `y`. -/
theorem wS_surface {sp : V3} (h : sp ∈ surfacePoints ⟨-199, -199, -199⟩ ⟨2, 2, 2⟩ 10) :
    (-199 ≤ sp.x ∧ sp.x ≤ 2) ∧ (-199 ≤ sp.y ∧ sp.y ≤ 2) ∧ (-199 ≤ sp.z ∧ sp.z ≤ 2) ∧ (sp.y ≤ -118.6 ∨ -98.5 ≤ sp.y) := by
  have c : ∀ n : Nat, n < 10 → -199 ≤ (-199 : ℝ) + (2 - -199) / (1 * ((10 : ℕ) : ℝ)) * n ∧
      (-199 : ℝ) + (2 - -199) / (1 * ((10 : ℕ) : ℝ)) * n ≤ 2 ∧
      ((-199 : ℝ) + (2 - -199) / (1 * ((10 : ℕ) : ℝ)) * n ≤ -118.6 ∨ -98.5 ≤ (-199 : ℝ) + (2 - -199) / (1 * ((10 : ℕ) : ℝ)) * n) := by
    intro n hn
    have h0 : (0 : ℝ) ≤ n := Nat.cast_nonneg n
    have h1 : (n : ℝ) ≤ 9 := by exact_mod_cast (by omega : n ≤ 9)
    have e : (2 - -199 : ℝ) / (1 * ((10 : ℕ) : ℝ)) = 20.1 := by norm_num
    rw [e]
    refine ⟨by linarith, by linarith, ?_⟩
    rcases Nat.lt_or_ge n 5 with h | h
    · left
      have : (n : ℝ) ≤ 4 := by exact_mod_cast (by omega : n ≤ 4)
      linarith
    · right
      have : (5 : ℝ) ≤ n := by exact_mod_cast h
      linarith
  unfold surfacePoints at h
  simp only [List.mem_append, List.mem_flatMap, List.mem_range, List.mem_cons, List.not_mem_nil, or_false, V3.sub_x, V3.sub_y,
    V3.sub_z] at h
  rcases h with (((⟨ny, hy, nz, hz, h | h⟩ | ⟨nx, hx, nz, hz, h | h⟩) | ⟨nx, hx, ny, hy, h | h⟩) | h) <;> subst h
  · obtain ⟨a1, a2, a3⟩ := c ny hy
    obtain ⟨b1, b2, _⟩ := c nz hz
    exact ⟨⟨by norm_num, by norm_num⟩, ⟨a1, a2⟩, ⟨b1, b2⟩, a3⟩
  · obtain ⟨a1, a2, a3⟩ := c ny hy
    obtain ⟨b1, b2, _⟩ := c nz hz
    exact ⟨⟨by norm_num, by norm_num⟩, ⟨a1, a2⟩, ⟨b1, b2⟩, a3⟩
  · obtain ⟨a1, a2, _⟩ := c nx hx
    obtain ⟨b1, b2, _⟩ := c nz hz
    exact ⟨⟨a1, a2⟩, ⟨by norm_num, by norm_num⟩, ⟨b1, b2⟩, Or.inl (by norm_num)⟩
  · obtain ⟨a1, a2, _⟩ := c nx hx
    obtain ⟨b1, b2, _⟩ := c nz hz
    exact ⟨⟨a1, a2⟩, ⟨by norm_num, by norm_num⟩, ⟨b1, b2⟩, Or.inr (by norm_num)⟩
  · obtain ⟨a1, a2, _⟩ := c nx hx
    obtain ⟨b1, b2, b3⟩ := c ny hy
    exact ⟨⟨a1, a2⟩, ⟨b1, b2⟩, ⟨by norm_num, by norm_num⟩, b3⟩
  · obtain ⟨a1, a2, _⟩ := c nx hx
    obtain ⟨b1, b2, b3⟩ := c ny hy
    exact ⟨⟨a1, a2⟩, ⟨b1, b2⟩, ⟨by norm_num, by norm_num⟩, b3⟩
  · exact ⟨⟨by norm_num, by norm_num⟩, ⟨by norm_num, by norm_num⟩, ⟨by norm_num, by norm_num⟩, Or.inr (by norm_num)⟩

theorem wall_near {sp : V3} (hx : sp.x ≤ 2) (hy : -199 ≤ sp.y ∧ sp.y ≤ 2) (hz : -199 ≤ sp.z ∧ sp.z ≤ 2) :
    wall.safetySqr sp ≤ (2.2 - sp.x) ^ 2 ∧ (0 ≤ wall.safety sp ∧ wall.safety sp ≤ 2.2 - sp.x) := by
  have hout : ¬ AABB.InBox wall sp := by
    rintro ⟨⟨h, _⟩, _⟩
    norm_num [wall] at h; linarith
  have hq : AABB.InBox wall ⟨2.2, sp.y, sp.z⟩ := by
    refine ⟨⟨?_, ?_⟩, ⟨?_, ?_⟩, ⟨?_, ?_⟩⟩ <;> simp only [wall] <;> first | linarith [hy.1, hy.2, hz.1, hz.2] | norm_num
  have hv : AABB.Valid wall := by norm_num [AABB.Valid, wall]
  have hd : V3.dist2 sp ⟨2.2, sp.y, sp.z⟩ = (2.2 - sp.x) ^ 2 := by unfold V3.dist2; simp only; ring
  refine ⟨?_, ?_, ?_⟩
  · rw [← hd]; exact (AABB.C31_safety_sqr_outside hv hout).2.1 _ hq
  · by_contra hn
    exact hout ((AABB.C31_safety_sign wall sp).1 (not_le.1 hn).le)
  · have := AABB.C31_safety_lower_bound (p := sp) hq
    rw [V3.dist, hd, Real.sqrt_sq (by linarith)] at this
    exact this

theorem block_far {sp : V3} (hx : sp.x ≤ 2) (hy : sp.y ≤ -118.6 ∨ -98.5 ≤ sp.y) :
    (2.1 - sp.x) ^ 2 + 100 ≤ block.safetySqr sp := by
  have hout : ¬ AABB.InBox block sp := by
    rintro ⟨⟨h, _⟩, _⟩
    norm_num [block] at h; linarith
  have hv : AABB.Valid block := by norm_num [AABB.Valid, block]
  obtain ⟨q, ⟨⟨q1, q2⟩, ⟨q3, q4⟩, ⟨q5, q6⟩⟩, hd⟩ := (AABB.C31_safety_sqr_outside hv hout).2.2
  rw [← hd]
  norm_num [block] at q1 q2 q3 q4
  unfold V3.dist2
  have hx2 : (2.1 - sp.x) ^ 2 ≤ (sp.x - q.x) ^ 2 := by
    rw [← neg_sub q.x sp.x, neg_sq]
    apply pow_le_pow_left₀ <;> norm_num <;> linarith
  have hy2 : 100 ≤ (sp.y - q.y) ^ 2 := by
    rcases hy with h | h
    · have : 10 ≤ q.y - sp.y := by norm_num at h; linarith
      nlinarith
    · have : 10 ≤ sp.y - q.y := by norm_num at h; linarith
      nlinarith
  nlinarith [sq_nonneg (sp.z - q.z)]

theorem wS_pick {sp : V3} (h : sp ∈ surfacePoints ⟨-199, -199, -199⟩ ⟨2, 2, 2⟩ 10) : pick wS sp = -1 ∨ pick wS sp = 0 := by
  obtain ⟨⟨x0, x1⟩, hy, hz, hd⟩ := wS_surface h
  obtain ⟨w1, w2, w3⟩ := wall_near x1 hy hz
  have b1 := block_far x1 hd
  have hlt : (2.2 - sp.x) ^ 2 < (2.1 - sp.x) ^ 2 + 100 := by nlinarith
  unfold pick
  simp only
  obtain ⟨_, h2, h3⟩ := fold_pick wS sp (safetyList wS sp (wS.safetyOut sp * wS.safetyOut sp))
    (-1, wS.safetyOut sp * wS.safetyOut sp)
  rcases h3 with h3 | ⟨c, hc, h3⟩
  · left; rw [h3]
  · right
    rw [h3]
    obtain ⟨b, hb, hl, he⟩ := mem_safetyList.1 hc
    have hj : c.1 < 2 := (List.getElem?_eq_some_iff.1 hb).1
    by_contra hne
    have hc1 : c.1 = 1 := by
      simp only at hne
      omega
    have hbb : b = block := by
      have : ([wall, block] : List AABB.Box)[c.1]? = some b := hb
      rw [hc1] at this
      exact (Option.some.inj this).symm
    subst hbb
    have hw : ((0 : Nat), wall.safetySqr sp) ∈ safetyList wS sp (wS.safetyOut sp * wS.safetyOut sp) :=
      mem_safetyList.2 ⟨wall, rfl, by linarith, rfl⟩
    have hle := h2 _ hw
    rw [h3] at hle
    simp only at hle
    have m1 : measure wS sp (0, wall.safetySqr sp) ≤ (2.2 - sp.x) ^ 2 := by
      unfold measure
      apply max_le _ w1
      show wall.safety sp * wall.safety sp ≤ _
      nlinarith
    have m2 : (2.1 - sp.x) ^ 2 + 100 ≤ measure wS sp c := by
      unfold measure
      rw [he]
      exact b1.trans (le_max_right _ _)
    linarith

theorem wS_candidates {c : Int} (h : c ∈ safetyCandidates wS ⟨⟨-199, -199, -199⟩, ⟨2, 2, 2⟩⟩) : c = -1 ∨ c = 0 := by
  rcases mem_safetyCandidates.1 h with ⟨j, hj, rfl⟩ | ⟨sp, hsp, h⟩
  · exfalso
    unfold candidatesOf at hj
    obtain ⟨hl, hi⟩ := List.mem_filter.1 hj
    have hl : j < 2 := by simpa [wS] using hl
    have : j = 0 ∨ j = 1 := by omega
    rcases this with rfl | rfl
    · have e : (wS.boxes.map vbox)[0]? = some (vbox wall) := rfl
      rw [e] at hi
      unfold intersectionExist vbox wall at hi
      simp only at hi
      rw [if_pos (by norm_num)] at hi
      simp at hi
    · have e : (wS.boxes.map vbox)[1]? = some (vbox block) := rfl
      rw [e] at hi
      unfold intersectionExist vbox block at hi
      simp only at hi
      rw [if_pos (by norm_num)] at hi
      simp at hi
  · unfold candidateAt at h
    split at h
    · left; exact (Option.some.inj h).symm
    · split at h
      · simp at h
      · rw [← Option.some.inj h]; exact wS_pick hsp

/-- C118: the claim for all daughters is false.  A mother with two box daughters, all of whose answers are right, with a sample in
every voxel: the safety at a point of the mother exceeds the distance to a daughter, because that daughter is nowhere the nearest
at the surface points the construction looks at. -/
theorem C118_missed_daughter_counterexample : ∃ (S : Scene) (mother : V3 → Prop) (solid : Nat → V3 → Prop)
    (samples : List (Option (List V3))) (m : VMap Int) (p q : V3) (r : ℝ), Honest S mother solid ∧
    Uncontained mother solid samples ∧ build S samples = some (some m) ∧ mother p ∧ (∀ j, ¬ solid j p) ∧ solid 1 q ∧
    computeSafety S (some (some m)) p = some r ∧ V3.dist p q < r := by
  obtain ⟨m, hm, hr⟩ := wS_built
  rw [wS_voxel] at hr
  have hk : (safetyGrid wS).getKey ⟨1.9, -108.55, -108.55⟩ = some 21 := by
    have := wS_key (p := ⟨1.9, -108.55, -108.55⟩) (i := 1) (j := 1) (k := 1) (by norm_num) (by norm_num) (by norm_num)
      (by norm_num) (by norm_num) (by norm_num)
    rw [this]; rfl
  obtain ⟨st, h1, _, _, h4, _, h6, h7⟩ := estimate_loop (S := wS) ⟨1.9, -108.55, -108.55⟩ _
    (fun c hc => candidate_range (v := ⟨⟨-199, -199, -199⟩, ⟨2, 2, 2⟩⟩) hc) ((1e20 : ℝ), (1e20 : ℝ)) (by norm_num)
  have hcs : computeSafety wS (some (some m)) ⟨1.9, -108.55, -108.55⟩ =
      some (min (min st.1 (√st.2)) (wS.safetyOut ⟨1.9, -108.55, -108.55⟩)) := by
    unfold computeSafety
    simp only
    rw [hk, Option.bind_some, hr, Option.bind_some, if_pos (List.length_pos_iff.2 (safetyCandidates_ne_nil wS _)), h1]
    rfl
  have hj0 : ∀ {j : Nat} {b : AABB.Box}, (j : Int) ∈ safetyCandidates wS ⟨⟨-199, -199, -199⟩, ⟨2, 2, 2⟩⟩ →
      wS.boxes[j]? = some b → b = wall := by
    intro j b hj hb
    have : j = 0 := by
      rcases wS_candidates hj with h | h <;> omega
    subst this
    exact (Option.some.inj hb).symm
  have hwall : (0.3 : ℝ) ^ 2 ≤ wall.safetySqr ⟨1.9, -108.55, -108.55⟩ := by
    have hv : AABB.Valid wall := by norm_num [AABB.Valid, wall]
    have hout : ¬ AABB.InBox wall ⟨1.9, -108.55, -108.55⟩ := by
      rintro ⟨⟨h, _⟩, _⟩
      norm_num [wall] at h
    obtain ⟨q, ⟨⟨q1, q2⟩, _, _⟩, hd⟩ := (AABB.C31_safety_sqr_outside hv hout).2.2
    rw [← hd]
    norm_num [wall] at q1
    unfold V3.dist2
    simp only
    nlinarith [sq_nonneg (-108.55 - q.y), sq_nonneg (-108.55 - q.z)]
  have hs1 : st.1 = 1e20 := by
    rcases h6 with h6 | ⟨j, b, a1, a2, a3, _⟩
    · exact h6
    · rw [hj0 a1 a2] at a3
      norm_num at hwall a3
      linarith
  have hs2 : (0.3 : ℝ) ≤ √st.2 := by
    apply Real.le_sqrt_of_sq_le
    rcases h7 with h7 | ⟨j, b, a1, a2, _, a4⟩
    · rw [h7]; norm_num
    · rw [a4, hj0 a1 a2]; exact hwall
  have hs3 : (0.3 : ℝ) ≤ wS.safetyOut ⟨1.9, -108.55, -108.55⟩ := by
    show (0.3 : ℝ) ≤ 400 - max (max |(1.9 : ℝ)| |(-108.55 : ℝ)|) |(-108.55 : ℝ)|
    rw [abs_of_pos (by norm_num : (0 : ℝ) < 1.9), abs_of_neg (by norm_num : (-108.55 : ℝ) < 0)]
    norm_num
  refine ⟨wS, wMother, wSolid, [some wCentres], m, ⟨1.9, -108.55, -108.55⟩, ⟨2.1, -108.55, -108.55⟩, _, wS_honest,
    wSamples_uncontained, hm, ?_, ?_, ?_, hcs, ?_⟩
  · refine ⟨?_, ?_, ?_⟩ <;> rw [abs_le] <;> norm_num
  · rintro j ⟨b, hb, ⟨⟨q1, _⟩, _⟩⟩
    have := List.mem_of_getElem? hb
    simp only [List.mem_cons, List.not_mem_nil, or_false] at this
    rcases this with rfl | rfl <;> norm_num [wall, block] at q1
  · exact ⟨block, rfl, by norm_num [AABB.InBox, block]⟩
  · have hd : V3.dist ⟨1.9, -108.55, -108.55⟩ ⟨2.1, -108.55, -108.55⟩ = 0.2 := by
      rw [V3.dist, V3.dist2, Real.sqrt_eq_iff_mul_self_eq (by norm_num) (by norm_num)]; norm_num
    rw [hd]
    refine lt_of_lt_of_le (by norm_num : (0.2 : ℝ) < 0.3) (le_min (le_min ?_ hs2) hs3)
    rw [hs1]; norm_num

/-! The hypotheses of the partial theorems hold for this geometry. -/

example : Honest wS wMother wSolid ∧ Uncontained wMother wSolid [some wCentres] ∧
    (∃ m, build wS [some wCentres] = some (some m)) ∧ wMother ⟨0, 0, 0⟩ ∧ wSolid 1 ⟨2.1, -108.55, -108.55⟩ :=
  ⟨wS_honest, wSamples_uncontained, wS_built.imp fun _ h => h.1, by norm_num [wMother],
    ⟨block, rfl, by norm_num [AABB.InBox, block]⟩⟩

/-- C118: with 4225 daughters the number of points to sample does not fit an `int`: the construction is undefined. -/
theorem C118_overflow_counterexample (S : Scene) (samples : List (Option (List V3))) (h : S.boxes.length = 4225) :
    build S samples = none := by
  have hg : gridSide S.boxes.length = 130 := by
    rw [h]
    unfold gridSide
    have e : √(1 * ((4225 : ℕ) : ℝ)) = 65 := by
      rw [Real.sqrt_eq_iff_mul_self_eq (by norm_num) (by norm_num)]; norm_num
    rw [e, trunc_of_nonneg (by norm_num)]
    norm_num
  unfold build
  simp only
  have hn : int32 (1000 * (safetyGrid S).nx * (safetyGrid S).ny * (safetyGrid S).nz) = none := by
    have : (safetyGrid S).nx = 130 ∧ (safetyGrid S).ny = 130 ∧ (safetyGrid S).nz = 130 := ⟨hg, hg, hg⟩
    rw [this.1, this.2.1, this.2.2]
    rfl
  rw [hn]
  rfl

end VoxSafety
end VecGeom

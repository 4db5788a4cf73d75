import Verif.Assembly.Props
import Verif.Boolean.DistProps
import Verif.Base.Halfspace

/-!
# Examples, safeties and distances of assemblies
-/

namespace VecGeom
namespace Assembly

open Boolean (Solid Region ContainsOK ExtentOK SafetyInOK EntryOK cube boxSolid ofTranslation_orthonormal ofTranslation_transform)
open AABB (Box InBox InBoxMargin computeABBox C28_box_contains_image C28_box_tight)
open MultiUnion (Part)

/-! ## An assembly in an assembly -/

/-- A cube at a place on the x axis. -/
noncomputable def cubeKid (x : ℝ) : Kid := ⟨Trans3.ofTranslation x 0 0, .solid cube⟩
/-- The assembly 1. -/
noncomputable def asmKid : Kid := ⟨Trans3.ofTranslation 0 0 0, .asm 1⟩

/-- Two empty assemblies. -/
noncomputable def hA : Heap := Heap.set (Heap.set (fun _ => none) 1 ⟨[], newCorners⟩) 0 ⟨[], newCorners⟩
noncomputable def b1 : Box := join startBox (computeABBox (Trans3.ofTranslation 0 0 0) cube.extent)
/-- A cube in the assembly 1. -/
noncomputable def hB : Heap := (hA.set 1 ⟨[cubeKid 0], newCorners⟩).set 1 ⟨[cubeKid 0], b1⟩
noncomputable def b0 : Box := join startBox (computeABBox (Trans3.ofTranslation 0 0 0) b1)
/-- And the assembly 1 in the assembly 0. -/
noncomputable def hC : Heap := (hB.set 0 ⟨[asmKid], newCorners⟩).set 0 ⟨[asmKid], b0⟩

theorem hB_place : place hA 1 1 (cubeKid 0) = some hB := rfl
theorem hC_place : place hB 2 0 asmKid = some hC := rfl

theorem hC_cells {i : Nat} {c : Cell} (h : hC i = some c) : (i = 0 ∧ c = ⟨[asmKid], b0⟩) ∨ (i = 1 ∧ c = ⟨[cubeKid 0], b1⟩) := by
  by_cases h0 : i = 0
  · subst h0; exact .inl ⟨rfl, (Option.some.inj h).symm⟩
  by_cases h1 : i = 1
  · subst h1; exact .inr ⟨rfl, (Option.some.inj h).symm⟩
  · exfalso
    simp [hC, hB, hA, Heap.set, h0, h1] at h

theorem hB_cells {i : Nat} {c : Cell} (h : hB i = some c) : (i = 0 ∧ c = ⟨[], newCorners⟩) ∨ (i = 1 ∧ c = ⟨[cubeKid 0], b1⟩) := by
  by_cases h0 : i = 0
  · subst h0; exact .inl ⟨rfl, (Option.some.inj h).symm⟩
  by_cases h1 : i = 1
  · subst h1; exact .inr ⟨rfl, (Option.some.inj h).symm⟩
  · exfalso
    simp [hB, hA, Heap.set, h0, h1] at h

theorem hA_cells {i : Nat} {c : Cell} (h : hA i = some c) : c = ⟨[], newCorners⟩ := by
  by_cases h0 : i = 0
  · subst h0; exact (Option.some.inj h).symm
  by_cases h1 : i = 1
  · subst h1; exact (Option.some.inj h).symm
  · exfalso
    simp [hA, Heap.set, h0, h1] at h

theorem hC_built : Built hC := by
  have h1 : Built (Heap.set (fun _ => none) 1 ⟨[], newCorners⟩) := .create .empty (i := 1) rfl
  have h2 : Built hA := .create h1 (i := 0) rfl
  have h3 : Built hB := .place h2 (fun j c hj k hk => by rw [hA_cells hj] at hk; simp at hk) (by simp [cubeKid]) hB_place
  refine .place h3 (fun j c hj k hk => ?_) (by simp [asmKid]) hC_place
  rcases hB_cells hj with ⟨-, rfl⟩ | ⟨-, rfl⟩
  · simp at hk
  · simp only [List.mem_singleton] at hk
    subst hk
    simp [cubeKid]

/-- The regions of the solids: the points of a cube. -/
noncomputable def cubes : Solid → Region := fun _ => BoxSolid.Open ⟨1, 1, 1⟩

theorem hC_all : All hC (fun s => ContainsOK s (cubes s) ∧ ExtentOK s (cubes s)) Trans3.Orthonormal := by
  intro i c hi k hk
  rcases hC_cells hi with ⟨-, rfl⟩ | ⟨-, rfl⟩ <;> simp only [List.mem_singleton] at hk <;> subst hk
  · exact ⟨ofTranslation_orthonormal _ _ _, fun s hs => by simp [asmKid] at hs⟩
  · refine ⟨ofTranslation_orthonormal _ _ _, fun s hs => ?_⟩
    simp only [cubeKid, Item.solid.injEq] at hs
    subst hs
    exact ⟨Boolean.box_containsOK _, Boolean.box_extentOK _⟩

theorem cube_open (p : V3) : BoxSolid.Open ⟨1, 1, 1⟩ p ↔ |p.x| < 1 ∧ |p.y| < 1 ∧ |p.z| < 1 := Iff.rfl

example : InAsm cubes hC 0 ⟨1 / 2, 0, 0⟩ ∧ ∃ n, contains hC n 0 ⟨1 / 2, 0, 0⟩ = some true := by
  have hT : All hC (fun _ => True) Trans3.Orthonormal := fun i c hi k hk => ⟨(hC_all i c hi k hk).1, fun _ _ => trivial⟩
  have h1 : InAsm cubes hC 0 ⟨1 / 2, 0, 0⟩ := by
    rw [inAsm_iff hT (c := ⟨[asmKid], b0⟩) rfl]
    refine ⟨asmKid, by simp, ?_⟩
    show InAsm cubes hC 1 _
    rw [inAsm_iff hT (c := ⟨[cubeKid 0], b1⟩) rfl]
    refine ⟨cubeKid 0, by simp, ?_⟩
    show BoxSolid.Open ⟨1, 1, 1⟩ _
    rw [cube_open, asmKid, cubeKid, ofTranslation_transform, ofTranslation_transform]
    norm_num [abs_lt]
  refine ⟨h1, ?_⟩
  obtain ⟨n, r, hr⟩ := C189_terminates hC_built (i := 0) (c := ⟨[asmKid], b0⟩) rfl ⟨1 / 2, 0, 0⟩
  exact ⟨n, by rw [hr, (C189_contains_partial hC_built hC_all hr).mpr h1]⟩

/-! ## An assembly that grows late -/

/-- A bound for a box around moved points. -/
theorem box_hi {ext : Box} {m : ℝ} (hv : AABB.Valid ext) (h1 : m ≤ 1000) (hlo : -m ≤ ext.lo.x ∧ -m ≤ ext.lo.y ∧ -m ≤ ext.lo.z)
    (hhi : ext.hi.x ≤ m ∧ ext.hi.y ≤ m ∧ ext.hi.z ≤ m) :
    let b := join startBox (computeABBox (Trans3.ofTranslation 0 0 0) ext)
    (-(m + 1 / 1000) ≤ b.lo.x ∧ -(m + 1 / 1000) ≤ b.lo.y ∧ -(m + 1 / 1000) ≤ b.lo.z) ∧
    (b.hi.x ≤ m + 1 / 1000 ∧ b.hi.y ≤ m + 1 / 1000 ∧ b.hi.z ≤ m + 1 / 1000) := by
  intro b
  have hk := kInfLength_large
  have hid : ∀ q, (Trans3.ofTranslation 0 0 0).inverseTransform q = q := by
    intro q
    have := Trans3.C23_point_roundtrip_master (ofTranslation_orthonormal 0 0 0) q
    rw [ofTranslation_transform] at this
    simpa using this
  have hq : ∀ q, InBox ext q → (-m ≤ q.x ∧ q.x ≤ m) ∧ (-m ≤ q.y ∧ q.y ≤ m) ∧ (-m ≤ q.z ∧ q.z ≤ m) := by
    rintro q ⟨⟨a1, a2⟩, ⟨a3, a4⟩, a5, a6⟩
    exact ⟨⟨by linarith [hlo.1], by linarith [hhi.1]⟩, ⟨by linarith [hlo.2.1], by linarith [hhi.2.1]⟩, by linarith [hlo.2.2], by linarith [hhi.2.2]⟩
  have hm : 0 ≤ m := by
    obtain ⟨v1, -, -⟩ := hv
    linarith [hlo.1, hhi.1]
  obtain ⟨t1, t2⟩ := C28_box_tight (T := Trans3.ofTranslation 0 0 0) (r := ⟨⟨-m, -m, -m⟩, ⟨m, m, m⟩⟩) hv (by
    intro q hin
    rw [hid]
    obtain ⟨⟨a1, a2⟩, ⟨a3, a4⟩, a5, a6⟩ := hq q hin
    exact ⟨abs_le.mpr ⟨by linarith, by linarith⟩, abs_le.mpr ⟨by linarith, by linarith⟩, abs_le.mpr ⟨by linarith, by linarith⟩⟩) (by
    intro q hin
    rw [hid]
    exact hq q hin)
  simp only at t1 t2
  refine ⟨⟨le_min ?_ ?_, le_min ?_ ?_, le_min ?_ ?_⟩, max_le ?_ ?_, max_le ?_ ?_, max_le ?_ ?_⟩
  · linarith [t1.1]
  · show _ ≤ kInfLength; linarith
  · linarith [t1.2.1]
  · show _ ≤ kInfLength; linarith
  · linarith [t1.2.2]
  · show _ ≤ kInfLength; linarith
  · linarith [t2.1]
  · show -kInfLength ≤ _; linarith
  · linarith [t2.2.1]
  · show -kInfLength ≤ _; linarith
  · linarith [t2.2.2]
  · show -kInfLength ≤ _; linarith

theorem cube_extent : cube.extent = ⟨⟨-1, -1, -1⟩, ⟨1, 1, 1⟩⟩ := by
  show (⟨(BoxSolid.extent ⟨1, 1, 1⟩).1, (BoxSolid.extent ⟨1, 1, 1⟩).2⟩ : Box) = _
  simp [BoxSolid.extent, V3.neg]

/-- The box of the outer assembly ends just beyond the cube. -/
theorem b0_hi : b0.hi.x ≤ 1 + 2 / 1000 := by
  have h1 := box_hi (ext := cube.extent) (m := 1) (by rw [cube_extent]; norm_num [AABB.Valid]) (by norm_num) (by rw [cube_extent]; norm_num)
    (by rw [cube_extent]; norm_num)
  have hv : AABB.Valid b1 := by
    have h := C28_box_contains_image (Trans3.ofTranslation 0 0 0) (ext := cube.extent) (q := ⟨0, 0, 0⟩) (by rw [cube_extent]; norm_num [InBox])
    obtain ⟨⟨a1, a2⟩, ⟨a3, a4⟩, a5, a6⟩ := margin_in ((join_part startBox _).2.margin h)
    exact ⟨a1.trans a2, a3.trans a4, a5.trans a6⟩
  have h2 := box_hi (ext := b1) (m := 1 + 1 / 1000) hv (by norm_num) h1.1 h1.2
  have := h2.2.1
  unfold b0
  linarith

/-- C189, a deviation: when an assembly gets a new daughter after it has been placed in another assembly, the box of the other
assembly stays as it was.  A point of the new cube is then in the inner assembly, but not in the outer one, although that one has the inner one
as its daughter, not moved. -/
theorem C189_late_counterexample : ∃ h', place hC 1 1 (cubeKid 10) = some h' ∧
    (∀ n, contains h' (n + 1) 0 ⟨10, 0, 0⟩ = some false) ∧ contains h' 1 1 ⟨10, 0, 0⟩ = some true ∧
    InAsm cubes h' 0 ⟨10, 0, 0⟩ := by
  refine ⟨_, rfl, ?_, ?_, ?_⟩
  · intro n
    rw [contains_eq]
    show (if boxContains b0 ⟨10, 0, 0⟩ then _ else some false) = _
    rw [if_neg]
    unfold boxContains
    simp only [decide_eq_true_iff]
    rintro ⟨⟨-, h⟩, -⟩
    have := b0_hi
    linarith
  · rw [contains_eq]
    have hc : ∀ p : V3, cube.contains p = true ↔ |p.x| < 1 ∧ |p.y| < 1 ∧ |p.z| < 1 := fun p => Boolean.box_containsOK ⟨1, 1, 1⟩ p
    show (if boxContains (join (join startBox (computeABBox (Trans3.ofTranslation 0 0 0) cube.extent))
      (computeABBox (Trans3.ofTranslation 10 0 0) cube.extent)) ⟨10, 0, 0⟩ then anyM _ [cubeKid 0, cubeKid 10] else some false) = _
    rw [if_pos]
    · have h1 : cube.contains ((Trans3.ofTranslation 0 0 0).transform ⟨10, 0, 0⟩) = false := by
        rw [← Bool.not_eq_true, hc, ofTranslation_transform]; norm_num [abs_lt]
      have h2 : cube.contains ((Trans3.ofTranslation 10 0 0).transform ⟨10, 0, 0⟩) = true := by
        rw [hc, ofTranslation_transform]; norm_num
      simp only [anyM, itemContains, cubeKid, h1, h2, Option.bind_some]
      simp
    · apply boxContains_of_margin
      refine (join_part _ _).2.margin ?_
      have h := C28_box_contains_image (Trans3.ofTranslation 10 0 0) (ext := cube.extent) (q := ⟨0, 0, 0⟩) (by rw [cube_extent]; norm_num [InBox])
      have := Trans3.C23_point_roundtrip_master (ofTranslation_orthonormal 10 0 0) ⟨10, 0, 0⟩
      rw [ofTranslation_transform] at this
      norm_num at this
      rwa [this] at h
  · have e10 : (cubeKid 10).trans.inverseTransform ⟨0, 0, 0⟩ = ⟨10, 0, 0⟩ := by
      have := Trans3.C23_point_roundtrip_master (ofTranslation_orthonormal 10 0 0) ⟨10, 0, 0⟩
      rw [ofTranslation_transform] at this
      norm_num at this
      exact this
    have e0 : asmKid.trans.inverseTransform ⟨10, 0, 0⟩ = ⟨10, 0, 0⟩ := by
      have := Trans3.C23_point_roundtrip_master (ofTranslation_orthonormal 0 0 0) ⟨10, 0, 0⟩
      rw [ofTranslation_transform] at this
      norm_num at this
      exact this
    rw [← e0]
    refine .asm (c := ⟨[asmKid], b0⟩) (j := 1) rfl (by simp) rfl ?_
    rw [← e10]
    refine .solid (c := ⟨[cubeKid 0, cubeKid 10], _⟩) (s := cube) rfl (by simp) rfl ?_
    show BoxSolid.Open ⟨1, 1, 1⟩ _
    rw [cube_open]
    norm_num

/-! ## Safeties -/

/-- `SafetyToIn` of a daughter. -/
noncomputable def itemSafety (h : Heap) (n : Nat) (p : V3) (k : Kid) : Option ℝ :=
  match k.item with
  | .solid t => some (t.safetyToIn (k.trans.transform p))
  | .asm j => safetyToIn h n j (k.trans.transform p)

theorem safety_eq (h : Heap) (n i : Nat) (p : V3) : safetyToIn h (n + 1) i p = (h i).bind fun c =>
    loopM (fun s k => (itemSafety h n p k).map fun t => min s t) c.kids kInfLength := rfl

/-- C190: `SafetyToIn` of an assembly is not more than the distance to any of its points. -/
theorem C190_safetyToIn {X : Solid → Region} {h : Heap} (hX : All h (fun s => SafetyInOK s (X s)) Trans3.Orthonormal)
    {n i : Nat} {p q : V3} {t : ℝ} (ht : safetyToIn h n i p = some t) (hq : InAsm X h i q) : t ≤ V3.dist p q := by
  have hT : All h (fun _ => True) Trans3.Orthonormal := fun i c hi k hk => ⟨(hX i c hi k hk).1, fun _ _ => trivial⟩
  induction n generalizing i p q t with
  | zero => cases ht
  | succ n ih =>
    rw [safety_eq] at ht
    obtain ⟨c, hi, ht⟩ := Option.bind_eq_some_iff.mp ht
    obtain ⟨-, h2⟩ := loopM_inv (fun a b : ℝ => b ≤ a) le_refl (fun _ _ _ h1 h2 => h2.trans h1) c.kids kInfLength t (by
      intro x hx u v huv
      obtain ⟨e, -, rfl⟩ := Option.map_eq_some_iff.mp huv
      exact min_le_left _ _) ht
    obtain ⟨k, hk, hin⟩ := (inAsm_iff hT hi q).mp hq
    obtain ⟨u, v, huv, -, h4⟩ := h2 k hk
    obtain ⟨e, he, rfl⟩ := Option.map_eq_some_iff.mp huv
    refine h4.trans ((min_le_right _ _).trans ?_)
    rw [← Boolean.dist_transform (hX i c hi k hk).1]
    unfold itemSafety at he
    rcases hs : k.item with s | j <;> rw [hs] at he hin
    · obtain rfl := Option.some.inj he
      exact (hX i c hi k hk).2 s hs _ _ hin
    · exact ih he hin

example : All hC (fun s => SafetyInOK s (cubes s)) Trans3.Orthonormal := by
  intro i c hi k hk
  refine ⟨(hC_all i c hi k hk).1, fun s hs => ?_⟩
  rcases hC_cells hi with ⟨-, rfl⟩ | ⟨-, rfl⟩ <;> simp only [List.mem_singleton] at hk <;> subst hk
  · simp [asmKid] at hs
  · simp only [cubeKid, Item.solid.injEq] at hs
    subst hs
    exact Boolean.box_safetyInOK _

/-! ## Distances -/

/-- The range of path lengths between two planes. -/
theorem slab {lo hi x d t : ℝ} (hd : d ≠ 0) (h1 : lo ≤ x + t * d) (h2 : x + t * d ≤ hi) :
    ((if 1 / d < 0 then hi else lo) - x) * (1 / d) ≤ t ∧ t ≤ ((if 1 / d < 0 then lo else hi) - x) * (1 / d) := by
  rw [one_div]
  rcases lt_or_gt_of_ne hd with h | h
  · have hi' : d⁻¹ < 0 := inv_lt_zero.mpr h
    rw [if_pos hi', if_pos hi', ← div_eq_mul_inv, ← div_eq_mul_inv, div_le_iff_of_neg h, le_div_iff_of_neg h]
    constructor <;> linarith
  · have hi' : ¬ d⁻¹ < 0 := not_lt.mpr (inv_pos.mpr h).le
    rw [if_neg hi', if_neg hi', ← div_eq_mul_inv, ← div_eq_mul_inv, div_le_iff₀ h, le_div_iff₀ h]
    constructor <;> linarith

theorem slabs {x1 x2 y1 y2 z1 z2 t : ℝ} (a1 : x1 ≤ t) (a2 : t ≤ x2) (b1 : y1 ≤ t) (b2 : t ≤ y2) (c1 : z1 ≤ t) (c2 : t ≤ z2) :
    ¬ ((if y1 > x1 then y1 else x1) > z2 ∨ z1 > if y2 < x2 then y2 else x2) := by
  rintro (h | h) <;> split at h <;> linarith

/-- A line with a point in the box is not refused. -/
theorem intersect_of_in {b : Box} {p d : V3} {t : ℝ} {r : Bool} (hr : intersect b p d = some r) (h : InBox b (V3.at' p d t)) : r = true := by
  unfold intersect at hr
  split at hr
  · cases hr
  rename_i hd
  push Not at hd
  obtain ⟨⟨x1, x2⟩, ⟨y1, y2⟩, z1, z2⟩ := h
  rw [V3.at_x] at x1 x2
  rw [V3.at_y] at y1 y2
  rw [V3.at_z] at z1 z2
  obtain ⟨a1, a2⟩ := slab hd.1 x1 x2
  obtain ⟨b1, b2⟩ := slab hd.2.1 y1 y2
  obtain ⟨c1, c2⟩ := slab hd.2.2 z1 z2
  simp only at hr
  rw [if_neg (by rintro (h | h) <;> linarith)] at hr
  rw [if_neg] at hr
  · exact (Option.some.inj hr).symm
  · exact slabs a1 a2 b1 b2 c1 c2

/-- `DistanceToIn` of a daughter. -/
noncomputable def itemDist (h : Heap) (n : Nat) (p d : V3) (step : ℝ) (k : Kid) : Option ℝ :=
  match k.item with
  | .solid s => s.distanceToIn (k.trans.transform p) (k.trans.transformDirection d) step
  | .asm j => distanceToIn h n j (k.trans.transform p) (k.trans.transformDirection d)

open Classical in
theorem dist_eq (h : Heap) (n i : Nat) (p d : V3) : distanceToIn h (n + 1) i p d = (h i).bind fun c =>
    (intersect c.corners p d).bind fun hit =>
      if hit then loopM (fun step k => (itemDist h n p d step k).map fun t => if t < step then t else step) c.kids kInfLength
      else some kInfLength := rfl

/-- C190: on a ray no point of an assembly comes before `DistanceToIn`, for every history in which no assembly gets new
daughters after it has been placed, if the functions of the solids have this property. -/
theorem C190_distance_partial {X : Solid → Region} {h : Heap} (hb : Built h) (hX : All h (fun s => EntryOK s (X s) ∧ ExtentOK s (X s)) Trans3.Orthonormal)
    {n i : Nat} {p d : V3} {t : ℝ} (ht : distanceToIn h n i p d = some t) {u : ℝ} (h0 : 0 ≤ u) (hu : u < t) : ¬ InAsm X h i (V3.at' p d u) := by
  have hT : All h (fun _ => True) Trans3.Orthonormal := fun i c hi k hk => ⟨(hX i c hi k hk).1, fun _ _ => trivial⟩
  have hE : All h (fun s => ExtentOK s (X s)) fun _ => True := fun i c hi k hk => ⟨trivial, fun s hs => ((hX i c hi k hk).2 s hs).2⟩
  induction n generalizing i p d t with
  | zero => cases ht
  | succ n ih =>
    intro hin
    rw [dist_eq] at ht
    obtain ⟨c, hi, ht⟩ := Option.bind_eq_some_iff.mp ht
    obtain ⟨hit, hh, ht⟩ := Option.bind_eq_some_iff.mp ht
    have hne : c.kids ≠ [] := by
      obtain ⟨k, hk, -⟩ := (inAsm_iff hT hi _).mp hin
      exact List.ne_nil_of_mem hk
    obtain ⟨m, hm⟩ := built_corners hb i c hi hne
    have hhit := intersect_of_in hh (margin_in (C189_extent hE hm hin))
    rw [if_pos hhit] at ht
    obtain ⟨-, h2⟩ := loopM_inv (fun a b : ℝ => b ≤ a) le_refl (fun _ _ _ h1 h2 => h2.trans h1) c.kids kInfLength t (by
      intro x hx u v huv
      obtain ⟨e, -, rfl⟩ := Option.map_eq_some_iff.mp huv
      split
      · rename_i hlt; exact hlt.le
      · exact le_refl _) ht
    obtain ⟨k, hk, hin⟩ := (inAsm_iff hT hi _).mp hin
    obtain ⟨s0, v, huv, -, h4⟩ := h2 k hk
    obtain ⟨e, he, rfl⟩ := Option.map_eq_some_iff.mp huv
    have hboth : u < e ∧ u < s0 := by
      split at h4
      · rename_i hlt; exact ⟨by linarith, by linarith⟩
      · rename_i hge; exact ⟨by linarith [not_lt.mp hge], by linarith⟩
    have hat : k.trans.transform (V3.at' p d u) = V3.at' (k.trans.transform p) (k.trans.transformDirection d) u := Boolean.transform_at _ _ _ _
    rw [hat] at hin
    unfold itemDist at he
    rcases hs : k.item with s | j <;> rw [hs] at he hin
    · exact ((hX i c hi k hk).2 s hs).1 _ _ _ _ he u h0 hboth.1 hboth.2 hin
    · exact ih he hboth.1 hin

theorem ite_some {P Q : Prop} [Decidable P] [Decidable Q] : ∃ r, (if P then some false else if Q then some false else some true) = some r := by
  by_cases hP : P
  · exact ⟨_, if_pos hP⟩
  by_cases hQ : Q
  · exact ⟨_, by rw [if_neg hP, if_pos hQ]⟩
  · exact ⟨_, by rw [if_neg hP, if_neg hQ]⟩

/-- A cube with exact distances. -/
noncomputable def exactCube : Solid := { Boolean.ideal (BoxSolid.Open ⟨1, 1, 1⟩) with extent := cube.extent }
/-- It in an assembly, moved. -/
noncomputable def exactKid : Kid := ⟨Trans3.ofTranslation 5 0 0, .solid exactCube⟩
noncomputable def hE : Heap := Heap.set (fun _ => none) 0 ⟨[], newCorners⟩
noncomputable def bF : Box := join startBox (computeABBox (Trans3.ofTranslation 5 0 0) cube.extent)
noncomputable def hF : Heap := (hE.set 0 ⟨[exactKid], newCorners⟩).set 0 ⟨[exactKid], bF⟩

example : Built hF ∧ All hF (fun s => EntryOK s (cubes s) ∧ ExtentOK s (cubes s)) Trans3.Orthonormal ∧
    (∃ t, distanceToIn hF 1 0 ⟨-1, 2, 2⟩ ⟨6, -2, -2⟩ = some t) ∧ InAsm cubes hF 0 (V3.at' ⟨-1, 2, 2⟩ ⟨6, -2, -2⟩ 1) := by
  have h1 : Built hE := .create .empty (i := 0) rfl
  have hcell : ∀ {i c}, hF i = some c → i = 0 ∧ c = ⟨[exactKid], bF⟩ := by
    intro i c h
    by_cases h0 : i = 0
    · subst h0; exact ⟨rfl, (Option.some.inj h).symm⟩
    · simp [hF, hE, Heap.set, h0] at h
  have hAll : All hF (fun s => EntryOK s (cubes s) ∧ ExtentOK s (cubes s)) Trans3.Orthonormal := by
    intro i c hi k hk
    obtain ⟨-, rfl⟩ := hcell hi
    simp only [List.mem_singleton] at hk
    subst hk
    refine ⟨ofTranslation_orthonormal _ _ _, fun s hs => ?_⟩
    simp only [exactKid, Item.solid.injEq] at hs
    subst hs
    exact ⟨Boolean.ideal_entry (BoxSolid.Open ⟨1, 1, 1⟩), Boolean.box_extentOK ⟨1, 1, 1⟩⟩
  have hin : InAsm cubes hF 0 (V3.at' ⟨-1, 2, 2⟩ ⟨6, -2, -2⟩ 1) := by
    have hT : All hF (fun _ => True) Trans3.Orthonormal := fun i c hi k hk => ⟨(hAll i c hi k hk).1, fun _ _ => trivial⟩
    rw [inAsm_iff hT (c := ⟨[exactKid], bF⟩) rfl]
    refine ⟨exactKid, by simp, ?_⟩
    show BoxSolid.Open ⟨1, 1, 1⟩ _
    rw [cube_open, exactKid, ofTranslation_transform]
    norm_num [V3.at', V3.smul]
  refine ⟨.place h1 (fun j c hj k hk => ?_) (by simp [exactKid]) (h := hE) (n := 1) (i := 0) (k := exactKid) rfl, hAll, ?_, hin⟩
  · by_cases h0 : j = 0
    · subst h0
      rw [← Option.some.inj (show some (⟨[], newCorners⟩ : Cell) = some c from hj)] at hk
      simp at hk
    · simp [hE, Heap.set, h0] at hj
  · obtain ⟨r, hr⟩ : ∃ r, intersect bF ⟨-1, 2, 2⟩ ⟨6, -2, -2⟩ = some r := by
      unfold intersect
      rw [if_neg (by norm_num)]
      apply ite_some
    obtain ⟨e, he⟩ : ∃ e, exactCube.distanceToIn (exactKid.trans.transform ⟨-1, 2, 2⟩) (exactKid.trans.transformDirection ⟨6, -2, -2⟩) kInfLength = some e := by
      simp only [exactCube, Boolean.ideal]
      split <;> exact ⟨_, rfl⟩
    rw [dist_eq]
    show ∃ t, (intersect bF _ _).bind _ = some t
    rw [hr]
    show ∃ t, (if r = true then loopM _ [exactKid] _ else _) = some t
    split
    · simp only [loopM]
      show ∃ t, ((Option.map _ (exactCube.distanceToIn _ _ _)).bind _) = some t
      rw [he]
      exact ⟨_, rfl⟩
    · exact ⟨_, rfl⟩

end Assembly
end VecGeom

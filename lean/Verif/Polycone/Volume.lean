import Verif.Polycone.Props2
import Verif.Cone.Volume
import Mathlib.MeasureTheory.Measure.Haar.Unique

/-!
# Polycones: capacity
-/

namespace VecGeom
namespace Polycone

open Real Tube MeasureTheory

variable {s d : ℝ} {ps : List Plane} {t : Struct}

theorem measurable_cone {a : Cone.Par} (hv : a.Valid) : MeasurableSet {q : Fin 3 → ℝ | a.fix.Closed ⟨q 0, q 1, q 2⟩} := by
  have hset : {q : Fin 3 → ℝ | a.fix.Closed ⟨q 0, q 1, q 2⟩} =
      {q | |q 2| ≤ a.z} ∩ ({q | (a.inner (q 2)) ^ 2 ≤ q 0 ^ 2 + q 1 ^ 2} ∩ ({q | q 0 ^ 2 + q 1 ^ 2 ≤ (a.fix.outer (q 2)) ^ 2} ∩ {q | Sector a.s a.d (q 0) (q 1)})) := by
    ext q
    simp only [Set.mem_setOf_eq, Set.mem_inter_iff]
    constructor
    · rintro ⟨h1, h2, h3, h4⟩
      exact ⟨h1, (le_rad (Cone.inner_nonneg hv h1)).mp h2, (rad_le (Cone.outer_pos hv h1).le).mp h3, h4⟩
    · rintro ⟨h1, h2, h3, h4⟩
      exact ⟨h1, (le_rad (Cone.inner_nonneg hv h1)).mpr h2, (rad_le (Cone.outer_pos hv h1).le).mpr h3, h4⟩
  rw [hset]
  have m : Measurable fun q : Fin 3 → ℝ => q 0 ^ 2 + q 1 ^ 2 := by fun_prop
  have mz : Measurable fun q : Fin 3 → ℝ => |q 2| := by fun_prop
  have mi : Measurable fun q : Fin 3 → ℝ => (a.inner (q 2)) ^ 2 := by unfold Cone.Par.inner Cone.line; fun_prop
  have mo : Measurable fun q : Fin 3 → ℝ => (a.fix.outer (q 2)) ^ 2 := by unfold Cone.Par.outer Cone.line; fun_prop
  refine (measurableSet_le mz measurable_const).inter ((measurableSet_le mi m).inter ((measurableSet_le m mo).inter ?_))
  exact measurable_sector hv.d hv.dle (measurable_pi_apply 0) (measurable_pi_apply 1)

/-- The points of a part. -/
def partSet (s d : ℝ) (x : Plane × Plane) : Set (Fin 3 → ℝ) := {q | ClosedPart s d x.1.fix x.2.fix ⟨q 0, q 1, q 2⟩}

theorem partSet_shift {x : Plane × Plane} (hx : x.1.z < x.2.z) :
    partSet s d x = (fun q => q + ![0, 0, -((x.1.z + x.2.z) / 2)]) ⁻¹' {q : Fin 3 → ℝ | (par s d x).fix.Closed ⟨q 0, q 1, q 2⟩} := by
  ext q
  simp only [partSet, Set.mem_setOf_eq, Set.mem_preimage]
  have h := closed_iff (s := s) (d := d) (a := x.1.fix) (b := x.2.fix) hx ⟨q 0, q 1, q 2⟩
  rw [par_fix]
  rw [← h]
  simp [lower, ← sub_eq_add_neg]
  rfl

theorem partSet_measure (hv : Valid s d ps) {x : Plane × Plane} (hx : x ∈ segs ps) :
    MeasurableSet (partSet s d x) ∧ volume (partSet s d x) = ENNReal.ofReal (Cone.capacity (Cone.of (par s d x))) := by
  have hn := mem_segs.mp (show (x.1, x.2) ∈ segs ps from hx)
  have hm := measurable_cone (par_valid hv hn)
  rw [partSet_shift hn.2]
  refine ⟨hm.preimage (by fun_prop), ?_⟩
  rw [measure_preimage_add_right]
  exact Cone.C144_capacity (par_valid hv hn)

theorem capacity_nonneg (hv : Valid s d ps) {x : Plane × Plane} (hx : x ∈ segs ps) : 0 ≤ Cone.capacity (Cone.of (par s d x)) := by
  have hn := mem_segs.mp (show (x.1, x.2) ∈ segs ps from hx)
  have h := par_valid hv hn
  have m1 : x.1 ∈ ps := hn.1.subset (by simp)
  have m2 : x.2 ∈ ps := hn.1.subset (by simp)
  rw [Cone.capacity_eq h, par_fix]
  simp only [par]
  have a1 := hv.rmin _ m1
  have a2 := hv.rmin _ m2
  have fx : ∀ q ∈ ps, q.rmin ≤ q.fix.rmax := by
    intro q hq
    have := hv.r q hq
    unfold Plane.fix
    simp only
    split <;> linarith
  have b1 := fx _ m1
  have b2 := fx _ m2
  have c1 := pow_le_pow_left₀ a1 b1 2
  have c2 := pow_le_pow_left₀ a2 b2 2
  have c3 := mul_le_mul b1 b2 a2 (a1.trans b1)
  have hz := hn.2
  have hd := hv.pos
  refine mul_nonneg (div_nonneg (mul_nonneg (by linarith) hd.le) (by norm_num)) (by linarith)

theorem plane_null (c : ℝ) : volume {q : Fin 3 → ℝ | q 2 = c} = 0 := by
  exact Measure.pi_hyperplane (fun _ : Fin 3 => (volume : Measure ℝ)) 2 c

/-- C150: the capacity is the volume of the set of the points of the polycone. -/
theorem C150_capacity (hv : Valid s d ps) (ht : make s d ps = some t) :
    volume {q : Fin 3 → ℝ | Closed s d (ps.map Plane.fix) ⟨q 0, q 1, q 2⟩} = ENNReal.ofReal (capacity t) := by
  have hr := make_repr hv ht
  have hs := hr.steps hv
  have hl := hr.len
  have hset : {q : Fin 3 → ℝ | Closed s d (ps.map Plane.fix) ⟨q 0, q 1, q 2⟩} =
      ⋃ i : Fin (segs ps).length, partSet s d (segs ps)[i] := by
    ext q
    simp only [Set.mem_setOf_eq, Set.mem_iUnion]
    rw [closed_fix]
    constructor
    · rintro ⟨x, hx, hp⟩
      obtain ⟨j, hj, rfl⟩ := List.getElem_of_mem hx
      exact ⟨⟨j, hj⟩, hp⟩
    · rintro ⟨j, hp⟩
      exact ⟨_, List.getElem_mem j.2, hp⟩
  have hdis : ∀ i j : Fin (segs ps).length, i < j → AEDisjoint volume (partSet s d (segs ps)[i]) (partSet s d (segs ps)[j]) := by
    intro i j hij
    refine measure_mono_null ?_ (plane_null (zAt t j))
    rintro q ⟨h1, h2⟩
    have k1 : q 2 ≤ zAt t (i + 1) := by rw [hr.z2 hv i.2]; exact h1.z2
    have k2 : zAt t j ≤ q 2 := by rw [hr.z1 hv j.2]; exact h2.z1
    have := hs.le (i := i + 1) (j := j) (by omega) (by have := j.2; omega)
    exact le_antisymm (k1.trans this) k2
  rw [hset, measure_iUnion₀]
  · rw [tsum_fintype]
    rw [Finset.sum_congr rfl fun i _ => (partSet_measure hv (List.getElem_mem i.2)).2]
    rw [← ENNReal.ofReal_sum_of_nonneg]
    · congr 1
      unfold capacity
      rw [hr.secs, List.map_map]
      rw [← List.sum_eq_foldl]
      exact Fin.sum_univ_fun_getElem (segs ps) fun x => Cone.capacity (Cone.of (par s d x))
    · intro i _
      exact capacity_nonneg hv (List.getElem_mem i.2)
  · intro i j hij
    rcases lt_or_gt_of_ne hij with h | h
    · exact hdis i j h
    · exact (hdis j i h).symm
  · intro i
    exact (partSet_measure hv (List.getElem_mem i.2)).1.nullMeasurableSet

end Polycone
end VecGeom

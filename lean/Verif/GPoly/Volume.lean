import Verif.GPoly.Rest
import Verif.Polycone.Volume

/-!
# Generic polycones: capacity
-/

namespace VecGeom
namespace GPoly

open Real MeasureTheory
open Polycone (lower)

variable {a : Par} {t : Struct}

/-- The points of a section. -/
def secSet (a : Par) (i : ℕ) : Set (Fin 3 → ℝ) := {q | (a.sec i).Closed (lower ⟨q 0, q 1, q 2⟩ (a.mid i))}

/-- The points of a set of coaxial cones. -/
def coaxSet (c : Coax.Par) : Set (Fin 3 → ℝ) := {q | c.Closed ⟨q 0, q 1, q 2⟩}

theorem coax_measurable {c : Coax.Par} (hv : c.Valid) : MeasurableSet (coaxSet c) := by
  have e : coaxSet c = ⋃ k ∈ {k | k ∈ c.cones}, {q : Fin 3 → ℝ | k.fix.Closed ⟨q 0, q 1, q 2⟩} := by
    ext q
    simp [coaxSet, Coax.Par.Closed]
  rw [e]
  exact MeasurableSet.biUnion (List.finite_toSet _).countable fun k hk => Polycone.measurable_cone (hv k hk)

theorem secSet_shift (a : Par) (i : ℕ) : secSet a i = (fun q => q + ![0, 0, -a.mid i]) ⁻¹' coaxSet (a.sec i) := by
  ext q
  simp [secSet, coaxSet, lower, ← sub_eq_add_neg]
  rfl

theorem secSet_measure (hv : a.Valid) {i : ℕ} (hi : i < a.rs.length)
    (hd : (a.sec i).cones.Pairwise fun j k => volume (Coax.pts j ∩ Coax.pts k) = 0) :
    MeasurableSet (secSet a i) ∧ volume (secSet a i) = ENNReal.ofReal (Coax.structCapacity (Coax.of (a.sec i))) := by
  rw [secSet_shift]
  refine ⟨(coax_measurable (hv.sec i hi)).preimage (by fun_prop), ?_⟩
  rw [measure_preimage_add_right]
  exact Coax.C188_capacity_partial (hv.sec i hi) hd

theorem struct_nonneg {c : Coax.Par} (hv : c.Valid) : 0 ≤ Coax.structCapacity (Coax.of c) := by
  unfold Coax.structCapacity
  rw [Coax.foldl_add, Coax.of_cones, List.map_map, zero_add]
  refine List.sum_nonneg ?_
  intro x hx
  obtain ⟨k, hk, rfl⟩ := List.mem_map.1 hx
  exact Coax.capacity_nonneg (hv k hk)

theorem capacity_sum (hv : a.Valid) (ht : make a.rs a.zs a.s a.d = some t) :
    capacity t = ∑ i : Fin a.rs.length, Coax.structCapacity (Coax.of (a.sec i)) := by
  have hr := make_repr hv ht
  have hl := hr.len
  have e : capacity t = sectionsCapacity t.secs := by
    unfold make at ht
    rw [if_pos (by rw [hv.len]; omega)] at ht
    obtain rfl := Option.some.inj ht
    rfl
  have hm : (t.secs.map fun s => Coax.structCapacity s.cones) = (List.finRange a.rs.length).map fun i : Fin a.rs.length => Coax.structCapacity (Coax.of (a.sec i)) := by
    apply List.ext_getElem
    · simp [hl]
    · intro i h1 h2
      have hi : i < t.secs.length := by simpa using h1
      have := hr.sec i (by omega)
      unfold secAt at this
      rw [List.getD_eq_getElem _ _ hi] at this
      simp [this]
  rw [e]
  unfold sectionsCapacity
  rw [Coax.foldl_add, zero_add, hm, ← List.ofFn_eq_map, List.sum_ofFn]

/-- C191: the capacity is the volume of the solid if the cones of no section overlap. -/
theorem C191_capacity_partial (hv : a.Valid) (ht : make a.rs a.zs a.s a.d = some t)
    (hd : ∀ i < a.rs.length, (a.sec i).cones.Pairwise fun j k => volume (Coax.pts j ∩ Coax.pts k) = 0) :
    volume {q : Fin 3 → ℝ | a.Closed ⟨q 0, q 1, q 2⟩} = ENNReal.ofReal (capacity t) := by
  have hr := make_repr hv ht
  have hs := hr.steps hv
  have hl := hr.len
  have hset : {q : Fin 3 → ℝ | a.Closed ⟨q 0, q 1, q 2⟩} = ⋃ i : Fin a.rs.length, secSet a i := by
    ext q
    simp only [Set.mem_setOf_eq, Set.mem_iUnion]
    constructor
    · rintro ⟨i, hi, hp⟩
      exact ⟨⟨i, hi⟩, hp⟩
    · rintro ⟨i, hp⟩
      exact ⟨i, i.2, hp⟩
  have hdis : ∀ i j : Fin a.rs.length, i < j → AEDisjoint volume (secSet a i) (secSet a j) := by
    intro i j hij
    refine measure_mono_null ?_ (Polycone.plane_null (zAt t j))
    rintro q ⟨h1, h2⟩
    have k1 := (closed_height h1).2
    have k2 := (closed_height h2).1
    rw [← hr.z] at k1 k2
    have := hs.le (i := i + 1) (j := j) (by omega) (by have := j.2; omega)
    exact le_antisymm (k1.trans this) k2
  rw [hset, measure_iUnion₀]
  · rw [tsum_fintype, Finset.sum_congr rfl fun (i : Fin a.rs.length) _ => (secSet_measure hv i.2 (hd i i.2)).2, ← ENNReal.ofReal_sum_of_nonneg, capacity_sum hv ht]
    intro i _
    exact struct_nonneg (hv.sec i i.2)
  · intro i j hij
    rcases lt_or_gt_of_ne hij with h | h
    · exact hdis i j h
    · exact (hdis j i h).symm
  · intro i
    exact (secSet_measure hv i.2 (hd i i.2)).1.nullMeasurableSet

/-- The tower has one cone in each section. -/
example : ∀ i < tower.rs.length, (tower.sec i).cones.Pairwise fun j k => volume (Coax.pts j ∩ Coax.pts k) = 0 := by
  intro i hi
  rw [tower_sec (by simpa [tower] using hi)]
  exact List.pairwise_singleton _ _

end GPoly
end VecGeom

import Verif.Polycone.Volume
import Verif.Polycone.Props4
import Verif.Polycone.Props5

/-!
# Polycones: surface area
-/

namespace VecGeom
namespace Polycone

open Real Tube MeasureTheory

variable {s d : ℝ} {ps : List Plane} {t : Struct}

/-- The area of the walls of a part, and of its two faces if there is a cut. -/
noncomputable def partArea (s d : ℝ) (x : Plane × Plane) : ℝ :=
  open Classical in
  Cone.wallArea x.1.rmin x.2.rmin ((x.2.z - x.1.z) / 2) d + Cone.wallArea x.1.fix.rmax x.2.fix.rmax ((x.2.z - x.1.z) / 2) d +
  if d < 2 * π then 2 * (volume (Cone.faceSet (par s d (x.1.fix, x.2.fix)))).toReal else 0

theorem sectionArea_eq (hv : Valid s d ps) {x : Plane × Plane} (hx : x ∈ segs ps) :
    sectionArea d (Cone.of (par s d x)) = partArea s d x := by
  have hn := mem_segs.mp (show (x.1, x.2) ∈ segs ps from hx)
  have hcv := par_valid hv hn
  have hz : 0 < (x.2.z - x.1.z) / 2 := hcv.z
  have hface := Cone.face_area hcv
  rw [par_fix] at hface
  unfold sectionArea partArea
  rw [Cone.wallArea_eq _ _ _ _ hz, Cone.wallArea_eq _ _ _ _ hz, hface, Cone.of_dz hcv, Cone.of_rmax1 hcv, Cone.of_rmax2 hcv,
    Cone.of_rmin1 hcv, Cone.of_rmin2 hcv, par_fix]
  have h1 := Cone.fix_lt1 hcv
  have h2 := Cone.fix_lt2 hcv
  rw [par_fix] at h1 h2
  simp only [par] at h1 h2 ⊢
  rw [ENNReal.toReal_ofReal (mul_nonneg hz.le (by linarith)), abs_of_pos (by linarith)]
  generalize (x.2.z - x.1.z) / 2 = z at *
  rw [show (x.1.rmin - x.2.rmin) * (x.1.rmin - x.2.rmin) + 4 * z * z = (x.2.rmin - x.1.rmin) ^ 2 + (2 * z) ^ 2 by ring,
    show (x.1.fix.rmax - x.2.fix.rmax) * (x.1.fix.rmax - x.2.fix.rmax) + 4 * z * z = (x.2.fix.rmax - x.1.fix.rmax) ^ 2 + (2 * z) ^ 2 by ring]
  split <;> ring

theorem ring_full {r1 r2 : ℝ} (h1 : 0 ≤ r1) (h2 : r1 ≤ r2) : (volume (Cone.lidSet r1 r2 0 (2 * π))).toReal = π * (r2 * r2 - r1 * r1) := by
  have := pow_le_pow_left₀ h1 h2 2
  rw [Cone.lidSet, area_ring h1 h2 (by positivity) (le_refl _), ENNReal.toReal_ofReal]
  · ring
  · exact mul_nonneg (by linarith) (by positivity)

/-- C150: `SurfaceArea` is the area of the walls and faces of the parts, and of the two rings at the ends, taken around the whole
axis.  This is the area of the surface for a full polycone with different heights; for a sector the rings at the ends are too large,
and rings at inner heights are left out. -/
theorem C150_area_partial (hv : Valid s d ps) (ht : make s d ps = some t) {a b : Plane × Plane} (ha : (segs ps).head? = some a)
    (hb : (segs ps).getLast? = some b) :
    surfaceArea t = (volume (Cone.lidSet a.1.rmin a.1.fix.rmax 0 (2 * π))).toReal + ((segs ps).map (partArea s d)).sum +
      (volume (Cone.lidSet b.2.rmin b.2.fix.rmax 0 (2 * π))).toReal := by
  have hr := make_repr hv ht
  have hl := hr.len
  have hne := (hr.steps hv).ne
  have hd := (make_angles hv ht).1
  have h0 : 0 < (segs ps).length := by omega
  have e0 : a = (segs ps)[0] := by rw [List.head?_eq_getElem?, List.getElem?_eq_getElem h0] at ha; exact (Option.some.inj ha).symm
  have en : b = (segs ps)[(segs ps).length - 1]'(by omega) := by
    rw [List.getLast?_eq_getElem?, List.getElem?_eq_getElem (by omega)] at hb; exact (Option.some.inj hb).symm
  have ma : a ∈ segs ps := e0 ▸ List.getElem_mem _
  have mb : b ∈ segs ps := en ▸ List.getElem_mem _
  have ca := par_valid hv (mem_segs.mp (show (a.1, a.2) ∈ segs ps from ma))
  have cb := par_valid hv (mem_segs.mp (show (b.1, b.2) ∈ segs ps from mb))
  have fa := Cone.fix_lt1 ca
  have fb := Cone.fix_lt2 cb
  rw [par_fix] at fa fb
  rw [ring_full (r1 := a.1.rmin) (r2 := a.1.fix.rmax) ca.rmin1 fa.le, ring_full (r1 := b.2.rmin) (r2 := b.2.fix.rmax) cb.rmin2 fb.le]
  unfold surfaceArea
  rw [hd]
  simp only
  rw [hr.sec (i := 0) (by omega), hl, hr.sec (i := (segs ps).length - 1) (by omega), ← e0, ← en]
  simp only
  rw [Cone.of_rmax1 ca, Cone.of_rmin1 ca, Cone.of_rmax2 cb, Cone.of_rmin2 cb, par_fix, par_fix]
  have hfold : ∀ (l : List ℝ) (c : ℝ), l.foldl (· + ·) c = c + l.sum := by
    intro l
    induction l with
    | nil => intro c; simp
    | cons x l ih => intro c; rw [List.foldl_cons, ih, List.sum_cons, add_assoc]
  have hmap : t.secs.map (fun s => sectionArea d s.solid) = (segs ps).map (partArea s d) := by
    rw [hr.secs, List.map_map]
    refine List.map_congr_left fun x hx => ?_
    exact sectionArea_eq hv hx
  rw [hmap, hfold]
  rfl

example : Valid 0 (2 * π) mushroom ∧ (∃ t, make 0 (2 * π) mushroom = some t) ∧ (segs mushroom).length = 2 :=
  ⟨mushroom_valid, make_some mushroom_valid, by rw [segs_mushroom]; rfl⟩

/-- C150 fails for sectors: `SurfaceArea` of the half of a cylinder of radius and height two in two parts exceeds the area of its
two walls (its bore is a line), two faces and two half discs by that of two half discs. -/
theorem C150_area_sector_counterexample : ∃ t, make 0 π divided = some t ∧
    surfaceArea t = ((segs divided).map (partArea 0 π)).sum +
      2 * (volume (Cone.lidSet 0 2 0 π)).toReal + 2 * (volume (Cone.lidSet 0 2 0 π)).toReal ∧ 0 < (volume (Cone.lidSet 0 2 0 π)).toReal := by
  have hpi := two_le_pi
  have hv : Valid 0 π divided := by
    have h := divided_valid
    exact ⟨h.first, h.gap, h.rmin, h.r, h.cyl, pi_pos, Or.inl (by norm_num at *; linarith)⟩
  obtain ⟨t, ht⟩ := make_some hv
  have hring : (volume (Cone.lidSet 0 2 0 π)).toReal = 2 * π := by
    rw [Cone.lidSet, area_ring (le_refl _) (by norm_num) pi_pos (by linarith), ENNReal.toReal_ofReal]
    · ring
    · positivity
  refine ⟨t, ht, ?_, by rw [hring]; positivity⟩
  rw [C150_area_partial hv ht (a := (⟨-1, 0, 2⟩, ⟨0, 0, 2⟩)) (b := (⟨0, 0, 2⟩, ⟨1, 0, 2⟩)) (by rw [segs_divided]; rfl) (by rw [segs_divided]; rfl),
    hring, ring_full (le_refl _) (by norm_num [Plane.fix]), ring_full (le_refl _) (by norm_num [Plane.fix])]
  norm_num [Plane.fix]
  ring

/-- C150 fails for steps: the ring of the step is part of the surface, its area is not counted. -/
theorem C150_area_step_counterexample : ∃ t, make 0 (2 * π) mushroom = some t ∧
    surfaceArea t = (volume (Cone.lidSet 0 1 0 (2 * π))).toReal + ((segs mushroom).map (partArea 0 (2 * π))).sum +
      (volume (Cone.lidSet 0 10 0 (2 * π))).toReal ∧
    0 < (volume (Cone.lidSet 1 10 0 (2 * π))).toReal ∧
    ∀ w ∈ Cone.lidSet 1 10 0 (2 * π), Closed 0 (2 * π) mushroom ⟨w 0, w 1, 1⟩ ∧
      (1 < w 0 ^ 2 + w 1 ^ 2 → ∀ e > 0, ¬ Closed 0 (2 * π) mushroom ⟨w 0, w 1, 1 - e⟩) := by
  have hpi := pi_pos
  obtain ⟨t, ht⟩ := make_some mushroom_valid
  refine ⟨t, ht, ?_, ?_, ?_⟩
  · have := C150_area_partial mushroom_valid ht (a := (⟨0, 0, 1⟩, ⟨1, 0, 1⟩)) (b := (⟨1, 0, 10⟩, ⟨2, 0, 10⟩)) (by rw [segs_mushroom]; rfl) (by rw [segs_mushroom]; rfl)
    rw [this]
    norm_num [Plane.fix]
  · rw [ring_full (by norm_num) (by norm_num)]
    positivity
  · rintro w ⟨h1, h2, h3⟩
    refine ⟨⟨⟨1, 0, 10⟩, ⟨2, 0, 10⟩, ⟨⟨[⟨0, 0, 1⟩, ⟨1, 0, 1⟩], [], rfl⟩, by norm_num⟩, by norm_num, by norm_num, ?_, ?_, h3⟩, ?_⟩
    · norm_num [lerp]; exact rad_nonneg _
    · norm_num [lerp]
      exact (rad_le (by norm_num)).mpr h2
    · rintro hw e he ⟨a, b, hn, hp⟩
      rcases infix_mushroom hn.1 with ⟨rfl, rfl⟩ | ⟨rfl, rfl⟩ | ⟨rfl, rfl⟩
      · have := hp.hi
        norm_num [lerp] at this
        have := (rad_le (by norm_num)).mp this
        simp only at this
        linarith
      · have := hn.2; norm_num at this
      · have := hp.z1
        simp only at this
        linarith

end Polycone
end VecGeom

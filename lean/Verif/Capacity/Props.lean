import Verif.BoxSolid.Props
import Verif.Orb.Props
import Mathlib.MeasureTheory.Measure.Lebesgue.VolumeOfBalls

/-!
# C58, C59: cached bounding boxes and capacities
-/

namespace VecGeom

/-! ## C58: cached bounding boxes -/

namespace BoxSolid

/-- The data members of an `UnplacedBox` that matter here (UnplacedBox.h:24, UnplacedVolume.h): half lengths and cached
bounding box. -/
structure State where
  dims : V3
  bbox : V3 × V3

/-- The constructors (UnplacedBox.h:27-40): they end with `ComputeBBox` (UnplacedVolume.h:72-77). -/
def create (h : V3) : State := ⟨h, extent h⟩

/-- `SetX`, `SetY`, `SetZ` (UnplacedBox.h:61-63). -/
inductive Setter where
  | x (v : ℝ)
  | y (v : ℝ)
  | z (v : ℝ)

/-- Effect of the setters (UnplacedBox.h:61-63). -/
def set (s : State) : Setter → State
  | .x v => { s with dims := ⟨v, s.dims.y, s.dims.z⟩ }
  | .y v => { s with dims := ⟨s.dims.x, v, s.dims.z⟩ }
  | .z v => { s with dims := ⟨s.dims.x, s.dims.y, v⟩ }

/-- C58: after any history of setters the cached bounding box of a box is that of the construction, so that it is right
exactly if the half lengths are those of the construction. -/
theorem C58_box_partial (h : V3) (l : List Setter) :
    (l.foldl set (create h)).bbox = extent h ∧
    ((l.foldl set (create h)).bbox = extent (l.foldl set (create h)).dims ↔ (l.foldl set (create h)).dims = h) := by
  have key : ∀ s : State, (l.foldl set s).bbox = s.bbox := by
    induction l with
    | nil => intro s; rfl
    | cons a l ih =>
      intro s
      rw [List.foldl_cons, ih]
      cases a <;> rfl
  have e : (l.foldl set (create h)).bbox = extent h := key _
  refine ⟨e, ?_⟩
  rw [e]
  constructor
  · intro he
    exact (Prod.ext_iff.mp he).2.symm
  · intro he; rw [he]

/-- C58: a box enlarged with `SetX` keeps the old bounding box, which then misses points of the box. -/
theorem C58_box_counterexample :
    ∃ (s : State) (q : V3), s = set (create ⟨1, 1, 1⟩) (.x 10) ∧ contains s.dims q = true ∧ s.bbox.2.x < q.x := by
  refine ⟨_, ⟨5, 0, 0⟩, rfl, ?_, ?_⟩
  · rw [C43_contains]; norm_num [Open, set, create]
  · norm_num [set, create, extent]

end BoxSolid

namespace Orb

/-- C58: the cached bounding box of an orb is that of the construction, after any history of `SetRadius`; the cached
volume, area and tolerance always follow the radius. -/
theorem C58_orb_partial (r : ℝ) (l : List ℝ) :
    (l.foldl setRadius (create r)).fBBox = extent r ∧
    (l.foldl setRadius (create r)).fR = (r :: l).getLast (List.cons_ne_nil _ _) ∧
    (l.foldl setRadius (create r)).fCubicVolume = (create (l.foldl setRadius (create r)).fR).fCubicVolume ∧
    (l.foldl setRadius (create r)).fSurfaceArea = (create (l.foldl setRadius (create r)).fR).fSurfaceArea ∧
    (l.foldl setRadius (create r)).fRTolerance = (create (l.foldl setRadius (create r)).fR).fRTolerance := by
  have hl : ∀ s : State, (l.foldl setRadius s).fBBox = s.fBBox ∧
      (l.foldl setRadius s).fR = (s.fR :: l).getLast (List.cons_ne_nil _ _) := by
    induction l with
    | nil => intro s; exact ⟨rfl, rfl⟩
    | cons a l ih =>
      intro s
      rw [List.foldl_cons]
      obtain ⟨h1, h2⟩ := ih (setRadius s a)
      refine ⟨h1, ?_⟩
      rw [h2, List.getLast_cons (List.cons_ne_nil _ _)]
      rfl
  refine ⟨(hl _).1, (hl _).2, ?_⟩
  have inv : ∀ s : State, s.fEpsilon = 2 / 10 ^ 11 ∧ s.fCubicVolume = (create s.fR).fCubicVolume ∧
      s.fSurfaceArea = (create s.fR).fSurfaceArea ∧ s.fRTolerance = (create s.fR).fRTolerance →
      (l.foldl setRadius s).fCubicVolume = (create (l.foldl setRadius s).fR).fCubicVolume ∧
      (l.foldl setRadius s).fSurfaceArea = (create (l.foldl setRadius s).fR).fSurfaceArea ∧
      (l.foldl setRadius s).fRTolerance = (create (l.foldl setRadius s).fR).fRTolerance := by
    clear hl
    induction l with
    | nil => intro s h; exact h.2
    | cons a l ih =>
      intro s h
      rw [List.foldl_cons]
      apply ih
      refine ⟨h.1, rfl, rfl, ?_⟩
      simp only [setRadius, create, h.1]
  exact inv _ ⟨rfl, rfl, rfl, rfl⟩

/-- C58: an orb enlarged with `SetRadius` keeps the old bounding box, which then misses points of the orb. -/
theorem C58_orb_counterexample :
    ∃ (s : State) (q : V3), s = setRadius (create 1) 10 ∧ contains s.fR q = true ∧ s.fBBox.2.x < q.x := by
  have ht := kTolerance_pos
  refine ⟨_, ⟨5, 0, 0⟩, rfl, ?_, ?_⟩
  · rw [C44_contains (by norm_num [setRadius]), V3.mag_lt_iff (by norm_num [setRadius]; linarith)]
    norm_num [V3.mag2_eq, setRadius]
    nlinarith
  · norm_num [setRadius, create, extent]

end Orb

/-! ## C59: capacities -/

open MeasureTheory

/-- C59: the capacity of a box is the volume of its set of points. -/
theorem C59_box_capacity {h : V3} (hh : BoxSolid.Proper h) :
    volume {q : Fin 3 → ℝ | BoxSolid.Closed h ⟨q 0, q 1, q 2⟩} = ENNReal.ofReal (BoxSolid.capacity h) := by
  obtain ⟨hx, hy, hz⟩ := hh
  have e : {q : Fin 3 → ℝ | BoxSolid.Closed h ⟨q 0, q 1, q 2⟩} =
      Set.Icc (![-h.x, -h.y, -h.z] : Fin 3 → ℝ) ![h.x, h.y, h.z] := by
    ext q
    simp only [Set.mem_setOf_eq, Set.mem_Icc, Pi.le_def, BoxSolid.Closed, abs_le, Fin.forall_fin_succ]
    simp
    tauto
  rw [e, Real.volume_Icc_pi, Fin.prod_univ_three, ← ENNReal.ofReal_mul, ← ENNReal.ofReal_mul]
  · congr 1
    simp [BoxSolid.capacity]
    ring
  · simp; nlinarith
  · simp; linarith

/-- C59: the capacity of an orb is the volume of the ball, also after any history of `SetRadius`. -/
theorem C59_orb_capacity {r : ℝ} {l : List ℝ} (h0 : 0 ≤ (l.foldl Orb.setRadius (Orb.create r)).fR) :
    volume {q : EuclideanSpace ℝ (Fin 3) | V3.mag ⟨q 0, q 1, q 2⟩ ≤ (l.foldl Orb.setRadius (Orb.create r)).fR} =
      ENNReal.ofReal (l.foldl Orb.setRadius (Orb.create r)).fCubicVolume := by
  obtain ⟨_, _, hv, _⟩ := Orb.C58_orb_partial r l
  rw [hv]
  generalize (l.foldl Orb.setRadius (Orb.create r)).fR = R at h0 ⊢
  have e : {q : EuclideanSpace ℝ (Fin 3) | V3.mag ⟨q 0, q 1, q 2⟩ ≤ R} = Metric.closedBall 0 R := by
    ext q
    simp only [Set.mem_setOf_eq, mem_closedBall_zero_iff, EuclideanSpace.norm_eq, Fin.sum_univ_three, Real.norm_eq_abs, sq_abs]
    unfold V3.mag V3.mag2 V3.dot
    simp only [sq]
  rw [e, EuclideanSpace.volume_closedBall_fin_three, ← ENNReal.ofReal_pow h0, ← ENNReal.ofReal_mul (by positivity)]
  congr 1
  simp only [Orb.create]
  ring

example : BoxSolid.Proper BoxSolid.sampleBox := BoxSolid.sampleBox_proper

end VecGeom

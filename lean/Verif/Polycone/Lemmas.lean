import Verif.Polycone.Model
import Verif.Cone.Props

/-!
# Lemmas on polycones
-/

namespace VecGeom
namespace Polycone

open Real Tube

/-! ## The parts between planes -/

open Classical in
/-- The neighbouring planes with something between them, in order. -/
noncomputable def segs : List Plane → List (Plane × Plane)
  | a :: b :: r => if a.z < b.z then (a, b) :: segs (b :: r) else segs (b :: r)
  | _ => []

theorem infix_cons2 {a b c d : Plane} {r : List Plane} : [a, b] <:+: c :: d :: r ↔ (a = c ∧ b = d) ∨ [a, b] <:+: d :: r := by
  rw [List.infix_cons_iff]
  constructor
  · rintro (h | h)
    · rw [List.cons_prefix_cons, List.cons_prefix_cons] at h
      exact Or.inl ⟨h.1, h.2.1⟩
    · exact Or.inr h
  · rintro (⟨rfl, rfl⟩ | h)
    · exact Or.inl (by simp)
    · exact Or.inr h

theorem infix_one {a b c : Plane} : ¬ [a, b] <:+: [c] := by
  intro h
  have := h.length_le
  simp at this

theorem mem_segs {ps : List Plane} {a b : Plane} : (a, b) ∈ segs ps ↔ Next ps a b := by
  unfold Next
  induction ps with
  | nil => simp [segs]
  | cons c r ih =>
    cases r with
    | nil => simp [segs, infix_one]
    | cons d r =>
      rw [infix_cons2, segs]
      by_cases h : c.z < d.z
      · rw [if_pos h, List.mem_cons, ih, Prod.mk.injEq]
        constructor
        · rintro (⟨rfl, rfl⟩ | h')
          · exact ⟨Or.inl ⟨rfl, rfl⟩, h⟩
          · exact ⟨Or.inr h'.1, h'.2⟩
        · rintro ⟨⟨rfl, rfl⟩ | h1, h2⟩
          · exact Or.inl ⟨rfl, rfl⟩
          · exact Or.inr ⟨h1, h2⟩
      · rw [if_neg h, ih]
        constructor
        · rintro ⟨h1, h2⟩; exact ⟨Or.inr h1, h2⟩
        · rintro ⟨⟨rfl, rfl⟩ | h1, h2⟩
          · exact absurd h2 h
          · exact ⟨h1, h2⟩

theorem segs_map (f : Plane → Plane) (hf : ∀ q, (f q).z = q.z) (ps : List Plane) :
    segs (ps.map f) = (segs ps).map fun x => (f x.1, f x.2) := by
  induction ps with
  | nil => simp [segs]
  | cons c r ih =>
    cases r with
    | nil => simp [segs]
    | cons d r =>
      simp only [List.map_cons] at ih ⊢
      rw [segs, segs, hf, hf]
      by_cases h : c.z < d.z
      · rw [if_pos h, if_pos h, ih, List.map_cons]
      · rw [if_neg h, if_neg h, ih]

/-- The heights of the planes between parts agree. -/
theorem segs_chain {a : Plane} {r : List Plane} (hg : ∀ x y, [x, y] <:+: a :: r → x.z ≤ y.z) (i : ℕ) (hi : i < (segs (a :: r)).length) :
    (a.z :: (segs (a :: r)).map fun x => x.2.z).getD i 0 = ((segs (a :: r))[i]).1.z := by
  induction r generalizing a i with
  | nil => simp [segs] at hi
  | cons b r ih =>
    have hg' : ∀ x y, [x, y] <:+: b :: r → x.z ≤ y.z := fun x y h => hg x y (infix_cons2.mpr (Or.inr h))
    have hab := hg a b (infix_cons2.mpr (Or.inl ⟨rfl, rfl⟩))
    by_cases h : a.z < b.z
    · have e : segs (a :: b :: r) = (a, b) :: segs (b :: r) := by rw [segs, if_pos h]
      simp only [e] at hi ⊢
      cases i with
      | zero => rfl
      | succ i => simpa using ih hg' i (by simpa using hi)
    · have e : segs (a :: b :: r) = segs (b :: r) := by rw [segs, if_neg h]
      simp only [e] at hi ⊢
      rw [show a.z = b.z by linarith]
      exact ih hg' i hi

/-! ## The sections -/

theorem fold_push {s d : ℝ} {a : Plane} {r : List Plane} (hg : ∀ x y, [x, y] <:+: a :: r → x.z = y.z ∨ x.z + kTolerance < y.z)
    (zs : List ℝ) (ss : List Section) :
    (List.foldl (push s d True) (a, zs ++ [a.z], ss) r).2 =
      (zs ++ [a.z] ++ (segs (a :: r)).map fun x => x.2.z, ss ++ (segs (a :: r)).map fun x => mkSection s d x.1.z x.1 x.2) := by
  induction r generalizing a zs ss with
  | nil => simp [segs]
  | cons b r ih =>
    have hg' : ∀ x y, [x, y] <:+: b :: r → x.z = y.z ∨ x.z + kTolerance < y.z := fun x y h => hg x y (infix_cons2.mpr (Or.inr h))
    have ht := kTolerance_pos
    rw [List.foldl_cons]
    rcases hg a b (infix_cons2.mpr (Or.inl ⟨rfl, rfl⟩)) with h | h
    · have e : push s d True (a, zs ++ [a.z], ss) b = (b, zs ++ [b.z], ss) := by
        unfold push
        rw [if_neg (by simp only [not_true, and_false, or_false, and_true]; linarith)]
        rw [h]
      rw [e, ih hg', segs, if_neg (by linarith), h]
    · have e : push s d True (a, zs ++ [a.z], ss) b = (b, (zs ++ [a.z]) ++ [b.z], ss ++ [mkSection s d a.z a b]) := by
        unfold push
        rw [if_pos (Or.inl ⟨by simp only; linarith, trivial⟩)]
        simp
      rw [e, ih hg', segs, if_pos (by linarith)]
      simp

variable {s d : ℝ} {ps : List Plane}

theorem kTol2 : 2 * kTolerance = 2 / 10 ^ 9 := by norm_num [kTolerance]

theorem Valid.mono (hv : Valid s d ps) : ∀ x y, [x, y] <:+: ps → x.z ≤ y.z := by
  intro x y h
  rcases hv.gap x y h with h | h
  · exact h.le
  · linarith [show (0 : ℝ) < 2 / 10 ^ 9 by norm_num]

/-- Heights that do not go down end above where they begin. -/
theorem head_le_last {a : Plane} {r : List Plane} (hm : ∀ x y, [x, y] <:+: a :: r → x.z ≤ y.z) :
    ∀ q ∈ a :: r, a.z ≤ q.z ∧ q.z ≤ ((a :: r).getLast (by simp)).z := by
  induction r generalizing a with
  | nil => intro q hq; simp at hq; subst hq; simp
  | cons b r ih =>
    have h1 := hm a b (infix_cons2.mpr (Or.inl ⟨rfl, rfl⟩))
    have h2 := ih (fun x y h => hm x y (infix_cons2.mpr (Or.inr h)))
    intro q hq
    rw [List.getLast_cons (by simp)]
    rcases List.mem_cons.mp hq with rfl | hq
    · exact ⟨le_refl _, h1.trans (h2 b (by simp)).2⟩
    · exact ⟨h1.trans (h2 q hq).1, (h2 q hq).2⟩

/-- The list is not empty, and goes up. -/
theorem Valid.shape (hv : Valid s d ps) : ∃ q q' r, ps = q :: q' :: r ∧ upward ps = ps ∧ q.z < q'.z := by
  obtain ⟨q, q', r, rfl, hlt⟩ := hv.first
  refine ⟨q, q', r, rfl, ?_, hlt⟩
  have hl := head_le_last hv.mono
  have hlast : ((q :: q' :: r).getLast?.map Plane.z).getD 0 = ((q :: q' :: r).getLast (by simp)).z := by
    rw [List.getLast?_eq_getLast_of_ne_nil (by simp)]; rfl
  have hB := (hl q' (by simp)).2
  unfold upward
  rw [if_neg]
  rw [hlast]
  show ¬ (q.z > _)
  linarith

/-! ### The reduced planes -/

theorem doubled_ne {a : Plane} {r : List Plane} : ∃ l, doubled (a :: r) = a :: l := by
  cases r with
  | nil => exact ⟨[], rfl⟩
  | cons b r =>
    rw [doubled]
    split
    · exact ⟨_, rfl⟩
    · exact ⟨_, rfl⟩

theorem reducedPlanes_ne {a b : Plane} {r : List Plane} (h : a.z < b.z) : ∃ l, reducedPlanes (a :: b :: r) = a :: b :: l := by
  obtain ⟨l, e⟩ := doubled_ne (a := b) (r := r)
  have : ∃ l', evened (a :: doubled (b :: r)) = a :: b :: l' := by
    rw [e, evened]
    split
    · exact ⟨_, rfl⟩
    · exact ⟨_, rfl⟩
  obtain ⟨l', e'⟩ := this
  exact ⟨reduced l', by rw [reducedPlanes, e', reduced, if_pos h.ne]⟩

/-! ### The object -/

/-- What `make` returns for planes that make sense. -/
structure Repr (s d : ℝ) (ps : List Plane) (t : Struct) : Prop where
  secs : t.secs = (segs ps).map fun x => mkSection s d x.1.z x.1 x.2
  zs : t.zs = (ps.head?.map Plane.z).toList ++ (segs ps).map fun x => x.2.z

theorem make_some (hv : Valid s d ps) : ∃ t, make s d ps = some t := by
  obtain ⟨q, q', r, e, hu, hlt⟩ := hv.shape
  obtain ⟨l, hl⟩ := reducedPlanes_ne (r := r) hlt
  unfold make init
  rw [hu, e]
  simp only [hl]
  exact ⟨_, rfl⟩

theorem make_repr (hv : Valid s d ps) {t : Struct} (ht : make s d ps = some t) : Repr s d ps t := by
  obtain ⟨q, q', r, e, hu, hlt⟩ := hv.shape
  obtain ⟨l, hl⟩ := reducedPlanes_ne (r := r) hlt
  have hg : ∀ x y, [x, y] <:+: q :: (q' :: r) → x.z = y.z ∨ x.z + kTolerance < y.z := by
    intro x y h
    rcases hv.gap x y (by rw [e]; exact h) with h | h
    · exact Or.inl h
    · right; have := kTol2; have := kTolerance_pos; linarith
  have hf := fold_push (s := s) (d := d) hg [] []
  have hup : (¬ q'.z < q.z) = True := eq_true (by linarith)
  unfold make init at ht
  rw [hu, e] at ht
  simp only [hl, Option.some.injEq, hup, fresh] at ht
  rw [← ht]
  simp only [List.nil_append] at hf ⊢
  constructor
  · simp only [hf, e]
  · simp only [hf, e]
    simp

/-! ## Access -/

/-- A part of the polycone as a cone around the origin. -/
noncomputable def par (s d : ℝ) (x : Plane × Plane) : Cone.Par := ⟨x.1.rmin, x.1.rmax, x.2.rmin, x.2.rmax, (x.2.z - x.1.z) / 2, s, d⟩

variable {t : Struct}

theorem Repr.len (h : Repr s d ps t) : t.secs.length = (segs ps).length := by rw [h.secs, List.length_map]

theorem Repr.sec (h : Repr s d ps t) {i : ℕ} (hi : i < (segs ps).length) :
    secAt t i = ⟨((segs ps)[i].1.z + (segs ps)[i].2.z) / 2, Cone.of (par s d (segs ps)[i])⟩ := by
  unfold secAt
  rw [h.secs, List.getD_eq_getElem _ _ (by simpa using hi), List.getElem_map, mkSection, Cone.of, par]
  congr 1
  ring

theorem Repr.z2 (h : Repr s d ps t) (hv : Valid s d ps) {i : ℕ} (hi : i < (segs ps).length) : zAt t (i + 1) = (segs ps)[i].2.z := by
  obtain ⟨q, q', r, e, -⟩ := hv.first
  unfold zAt
  rw [h.zs]
  subst e
  simp [List.getD, hi]

theorem Repr.z1 (h : Repr s d ps t) (hv : Valid s d ps) {i : ℕ} (hi : i < (segs ps).length) : zAt t i = (segs ps)[i].1.z := by
  obtain ⟨q, q', r, e, -⟩ := hv.first
  have hm := hv.mono
  unfold zAt
  rw [h.zs]
  subst e
  exact segs_chain hm i hi

theorem seg_next {i : ℕ} (hi : i < (segs ps).length) : Next ps (segs ps)[i].1 (segs ps)[i].2 := mem_segs.mp (List.getElem_mem hi)

theorem Repr.gap (h : Repr s d ps t) (hv : Valid s d ps) {i : ℕ} (hi : i < t.secs.length) : zAt t i + 2 * kTolerance < zAt t (i + 1) := by
  rw [h.len] at hi
  rw [h.z1 hv hi, h.z2 hv hi, kTol2]
  have hn := seg_next hi
  rcases hv.gap _ _ hn.1 with h | h
  · exact absurd hn.2 (by linarith)
  · exact h

/-- What the functions on the sections need. -/
structure Steps (t : Struct) : Prop where
  ne : 0 < t.secs.length
  gap : ∀ i, i < t.secs.length → zAt t i + 2 * kTolerance < zAt t (i + 1)

theorem Repr.steps (h : Repr s d ps t) (hv : Valid s d ps) : Steps t := by
  refine ⟨?_, fun i hi => h.gap hv hi⟩
  obtain ⟨q, q', r, rfl, hlt⟩ := hv.first
  rw [h.len, segs, if_pos hlt]
  simp

theorem Steps.lt (h : Steps t) {i j : ℕ} (hij : i < j) (hj : j ≤ t.secs.length) : zAt t i + 2 * kTolerance < zAt t j := by
  have ht := kTolerance_pos
  induction j, hij using Nat.le_induction with
  | base => exact h.gap i (by omega)
  | succ j hj' ih => have := ih (by omega); have := h.gap j (by omega); linarith

theorem Steps.le (h : Steps t) {i j : ℕ} (hij : i ≤ j) (hj : j ≤ t.secs.length) : zAt t i ≤ zAt t j := by
  have ht := kTolerance_pos
  rcases hij.eq_or_lt with rfl | hlt
  · exact le_refl _
  · have := h.lt hlt hj; linarith

/-! ## The section index -/

theorem index_cases (h : Steps t) (z : ℝ) :
    (sectionIndex t z = -1 ∧ z < zAt t 0) ∨
    (∃ i : ℕ, i < t.secs.length ∧ sectionIndex t z = i ∧ zAt t i ≤ z ∧ z ≤ zAt t (i + 1) ∧ (0 < i → zAt t i < z)) ∨
    (sectionIndex t z = -2 ∧ zAt t t.secs.length < z) := by
  unfold sectionIndex
  by_cases h0 : z < zAt t 0
  · exact Or.inl ⟨by rw [if_pos h0], h0⟩
  rw [if_neg h0]
  cases hf : (List.range t.secs.length).find? fun i => decide (z ≥ zAt t i ∧ z ≤ zAt t (i + 1)) with
  | some i =>
    right; left
    rw [List.find?_range_eq_some] at hf
    obtain ⟨h1, h2, h3⟩ := hf
    rw [decide_eq_true_eq] at h1
    refine ⟨i, by simpa using h2, rfl, h1.1, h1.2, fun hi => ?_⟩
    by_contra hz
    have hlt : i < t.secs.length := by simpa using h2
    have := h3 (i - 1) (by omega)
    have g := h.gap (i - 1) (by omega)
    rw [show i - 1 + 1 = i by omega] at g this
    have ht := kTolerance_pos
    simp at this
    push Not at hz
    rcases this with h' | h' <;> linarith
  | none =>
    right; right
    refine ⟨rfl, ?_⟩
    rw [List.find?_eq_none] at hf
    by_contra hz
    push Not at hz h0
    -- some section holds z
    have : ∀ k, k ≤ t.secs.length → zAt t k ≤ z := by
      intro k
      induction k with
      | zero => intro _; exact h0
      | succ k ih =>
        intro hk
        have := hf k (by simp; omega)
        simp at this
        exact (this (ih (by omega))).le
    have h1 := this (t.secs.length) (le_refl _)
    have hn := h.ne
    have h2 := hf (t.secs.length - 1) (by simp; omega)
    rw [show t.secs.length - 1 + 1 = t.secs.length by omega] at h2
    simp at h2
    have := h2 (this _ (by omega))
    linarith

end Polycone
end VecGeom

import Verif.Polycone.Lemmas

/-!
# Containment in polycones
-/

namespace VecGeom
namespace Polycone

open Real Tube

variable {s d : ℝ} {ps : List Plane} {t : Struct} {ty : Cone.CType}

/-! ## Parts are cones -/

theorem lerp_line {z1 z2 : ℝ} (h : z1 < z2) (r1 r2 z : ℝ) : Cone.line r1 r2 ((z2 - z1) / 2) (z - (z1 + z2) / 2) = lerp z1 r1 z2 r2 z := by
  have hz : z2 - z1 ≠ 0 := by linarith
  unfold Cone.line lerp
  field_simp
  ring

theorem part_iff {a b : Plane} (h : a.z < b.z) (p : V3) : (par s d (a, b)).In (lower p ((a.z + b.z) / 2)) ↔ Part s d a b p := by
  have e1 := lerp_line h a.rmin b.rmin p.z
  have e2 := lerp_line h a.rmax b.rmax p.z
  have e3 : |p.z - (a.z + b.z) / 2| ≤ (b.z - a.z) / 2 ↔ a.z ≤ p.z ∧ p.z ≤ b.z := by
    rw [abs_le]; constructor <;> rintro ⟨h1, h2⟩ <;> constructor <;> linarith
  constructor
  · rintro ⟨h1, h2, h3, h4⟩
    exact ⟨(e3.mp h1).1, (e3.mp h1).2, fun hh => e1 ▸ h2 hh, e2 ▸ h3, h4⟩
  · rintro ⟨h1, h2, h3, h4, h5⟩
    exact ⟨e3.mpr ⟨h1, h2⟩, fun hh => e1.trans_lt (h3 hh), h4.trans_eq e2.symm, h5⟩

theorem closed_iff {a b : Plane} (h : a.z < b.z) (p : V3) : (par s d (a, b)).Closed (lower p ((a.z + b.z) / 2)) ↔ ClosedPart s d a b p := by
  have e1 := lerp_line h a.rmin b.rmin p.z
  have e2 := lerp_line h a.rmax b.rmax p.z
  have e3 : |p.z - (a.z + b.z) / 2| ≤ (b.z - a.z) / 2 ↔ a.z ≤ p.z ∧ p.z ≤ b.z := by
    rw [abs_le]; constructor <;> rintro ⟨h1, h2⟩ <;> constructor <;> linarith
  constructor
  · rintro ⟨h1, h2, h3, h4⟩
    exact ⟨(e3.mp h1).1, (e3.mp h1).2, e1 ▸ h2, e2 ▸ h3, h4⟩
  · rintro ⟨h1, h2, h3, h4, h5⟩
    exact ⟨e3.mpr ⟨h1, h2⟩, e1.trans_le h3, h4.trans_eq e2.symm, h5⟩

theorem par_fix (x : Plane × Plane) : (par s d x).fix = par s d (x.1.fix, x.2.fix) := by
  unfold Cone.Par.fix par Plane.fix Cone.kConeTolerance
  rfl

theorem par_valid (hv : Valid s d ps) {a b : Plane} (h : Next ps a b) : (par s d (a, b)).Valid := by
  have ha : a ∈ ps := h.1.subset (by simp)
  have hb : b ∈ ps := h.1.subset (by simp)
  exact ⟨hv.rmin a ha, hv.rmin b hb, hv.r a ha, hv.r b hb, hv.cyl a b h, by have := h.2; simp only [par]; linarith, hv.pos, hv.full⟩

/-- A cone type agrees with all parts. -/
def Fits (ty : Cone.CType) (s d : ℝ) (ps : List Plane) : Prop := ∀ a b, Next ps a b → Cone.Fits ty (par s d (a, b))

theorem fits_universal : Fits Cone.universal s d ps := fun _ _ _ => Cone.fits_universal _

theorem fix_z (q : Plane) : q.fix.z = q.z := rfl

/-- The enlarged polycone in terms of the given planes. -/
theorem body_fix (p : V3) : Body s d (ps.map Plane.fix) p ↔ ∃ x ∈ segs ps, Part s d x.1.fix x.2.fix p := by
  unfold Body
  constructor
  · rintro ⟨a, b, h, hp⟩
    have := mem_segs.mpr h
    rw [segs_map _ fix_z, List.mem_map] at this
    obtain ⟨x, hx, e⟩ := this
    rw [Prod.mk.injEq] at e
    exact ⟨x, hx, by rw [e.1, e.2]; exact hp⟩
  · rintro ⟨x, hx, hp⟩
    refine ⟨x.1.fix, x.2.fix, mem_segs.mp ?_, hp⟩
    rw [segs_map _ fix_z, List.mem_map]
    exact ⟨x, hx, rfl⟩

theorem closed_fix (p : V3) : Closed s d (ps.map Plane.fix) p ↔ ∃ x ∈ segs ps, ClosedPart s d x.1.fix x.2.fix p := by
  unfold Closed
  constructor
  · rintro ⟨a, b, h, hp⟩
    have := mem_segs.mpr h
    rw [segs_map _ fix_z, List.mem_map] at this
    obtain ⟨x, hx, e⟩ := this
    rw [Prod.mk.injEq] at e
    exact ⟨x, hx, by rw [e.1, e.2]; exact hp⟩
  · rintro ⟨x, hx, hp⟩
    refine ⟨x.1.fix, x.2.fix, mem_segs.mp ?_, hp⟩
    rw [segs_map _ fix_z, List.mem_map]
    exact ⟨x, hx, rfl⟩

/-! ## Contains -/

/-- What section `i` says. -/
theorem secOut_iff (hv : Valid s d ps) (h : Repr s d ps t) (hf : Fits ty s d ps) {i : ℕ} (hi : i < (segs ps).length) (p : V3) :
    SecOut ty false t i p ↔ ¬ Part s d (segs ps)[i].1.fix (segs ps)[i].2.fix p := by
  have hn := seg_next hi
  have hc := Cone.C142_contains (par_valid hv hn) (hf _ _ hn) (lower p (((segs ps)[i].1.z + (segs ps)[i].2.z) / 2))
  rw [par_fix] at hc
  have hc := hc.trans (part_iff (a := (segs ps)[i].1.fix) (b := (segs ps)[i].2.fix) hn.2 p)
  unfold Cone.contains at hc
  simp only [decide_eq_true_eq] at hc
  unfold SecOut
  rw [Int.toNat_natCast, h.sec hi, ← hc, not_not]
  constructor
  · rintro (h | h)
    · omega
    · exact h
  · exact Or.inr

/-- The three ways of the kernel. -/
theorem kernel_cases (h : Steps t) (fi : Bool) (p : V3) :
    (kernel ty fi t p = (False, True) ∧ (p.z < zAt t 0 ∨ zAt t t.secs.length < p.z)) ∨
    (∃ i : ℕ, i < t.secs.length ∧ kernel ty fi t p = (SecIn ty fi t i p, SecOut ty fi t i p) ∧
      (i = 0 ∨ zAt t i + kTolerance ≤ p.z) ∧ (i + 1 = t.secs.length ∨ p.z + kTolerance ≤ zAt t (i + 1)) ∧
      zAt t i ≤ p.z + kTolerance ∧ p.z ≤ zAt t (i + 1) + kTolerance) ∨
    (∃ i : ℕ, i + 1 < t.secs.length ∧ zAt t (i + 1) < p.z + kTolerance ∧ p.z - kTolerance ≤ zAt t (i + 1) ∧
      kernel ty fi t p =
        open Classical in
        if (¬ SecIn ty fi t i p ∧ ¬ SecOut ty fi t i p) ∧ (¬ SecIn ty fi t (i + 1 : ℕ) p ∧ ¬ SecOut ty fi t (i + 1 : ℕ) p) then (True, False)
        else if SecOut ty fi t i p ∧ SecOut ty fi t (i + 1 : ℕ) p then (False, True)
        else (False, False)) := by
  have ht := kTolerance_pos
  have hn := h.ne
  have hz1 := h.lt hn (le_refl _)
  unfold kernel
  simp only
  rcases index_cases h (p.z - kTolerance) with ⟨e1, h1⟩ | ⟨i, hi, e1, h1, h1', h1''⟩ | ⟨e1, h1⟩ <;>
  rcases index_cases h (p.z + kTolerance) with ⟨e2, h2⟩ | ⟨j, hj, e2, h2, h2', h2''⟩ | ⟨e2, h2⟩ <;> rw [e1, e2]
  · left; exact ⟨by rw [if_pos ⟨by norm_num, by norm_num⟩], Or.inl (by linarith)⟩
  · right; left
    have hj0 : j = 0 := by
      by_contra hj0
      have := h2'' (by omega)
      have := h.lt (i := 0) (j := j) (by omega) hj.le
      linarith
    subst hj0
    refine ⟨0, hn, ?_, Or.inl rfl, Or.inr (by linarith), by linarith, by linarith⟩
    rw [if_neg (by push Not; intro _; simp), if_pos ⟨by norm_num, by simp⟩]
    rfl
  · exfalso; linarith
  · exfalso
    have := h.le (i := 0) (j := i) (by omega) hi.le
    linarith
  · rcases lt_trichotomy i j with hij | rfl | hij
    · -- next to each other
      right; right
      have hji : j = i + 1 := by
        by_contra hne
        have g1 := h.lt (i := i + 1) (j := j) (by omega) hj.le
        have g2 := h2'' (by omega)
        linarith
      subst hji
      refine ⟨i, hj, h2'' (by omega), h1', ?_⟩
      rw [if_neg (by push Not; intro hh; omega), if_neg (by rintro ⟨hh, -⟩; omega), if_neg (by rintro ⟨hh, -⟩; omega),
        if_pos ⟨by omega, by omega⟩, if_neg (by omega)]
    · right; left
      refine ⟨i, hi, ?_, Or.inr (by linarith), Or.inr (by linarith), by linarith, by linarith⟩
      rw [if_neg (by push Not; intro hh; omega), if_neg (by rintro ⟨hh, -⟩; omega), if_neg (by rintro ⟨hh, -⟩; omega),
        if_pos ⟨by omega, by omega⟩, if_pos rfl]
    · exfalso
      have g1 := h.le (i := j + 1) (j := i) (by omega) hi.le
      linarith
  · -- the last section
    right; left
    have hi1 : i + 1 = t.secs.length := by
      by_contra hne
      have := h.lt (i := i + 1) (j := t.secs.length) (by omega) (le_refl _)
      linarith
    refine ⟨i, hi, ?_, Or.inr (by linarith), Or.inl hi1, by linarith, by linarith⟩
    rw [if_neg (by push Not; intro hh; omega), if_neg (by rintro ⟨hh, -⟩; omega), if_pos ⟨by norm_num, by omega⟩,
      show (t.secs.length : ℤ) - 1 = (i : ℤ) by omega]
  · exfalso; linarith
  · exfalso
    have := h.le (i := j + 1) (j := t.secs.length) (by omega) (le_refl _)
    linarith
  · left; exact ⟨by rw [if_pos ⟨by norm_num, by norm_num⟩], Or.inr (by linarith)⟩

/-- Only the section with the height can hold the point. -/
theorem part_height (hv : Valid s d ps) (h : Repr s d ps t) {j : ℕ} (hj : j < (segs ps).length) {p : V3}
    (hp : Part s d (segs ps)[j].1.fix (segs ps)[j].2.fix p) : zAt t j ≤ p.z ∧ p.z ≤ zAt t (j + 1) := by
  rw [h.z1 hv hj, h.z2 hv hj]
  exact ⟨hp.z1, hp.z2⟩

/-- C147: `Contains` answers membership in the polycone (surface included, wall of the bore not), for every cone type that agrees
with the planes. -/
theorem C147_contains (hv : Valid s d ps) (ht : make s d ps = some t) (hf : Fits ty s d ps) (p : V3) :
    contains ty t p = true ↔ Body s d (ps.map Plane.fix) p := by
  have hr := make_repr hv ht
  have hs := hr.steps hv
  have hl := hr.len
  have htol := kTolerance_pos
  rw [body_fix]
  unfold contains
  simp only [decide_eq_true_eq]
  have hex : (∃ x ∈ segs ps, Part s d x.1.fix x.2.fix p) ↔ ∃ (j : ℕ) (hj : j < (segs ps).length), Part s d (segs ps)[j].1.fix (segs ps)[j].2.fix p := by
    constructor
    · rintro ⟨x, hx, hp⟩
      obtain ⟨j, hj, rfl⟩ := List.getElem_of_mem hx
      exact ⟨j, hj, hp⟩
    · rintro ⟨j, hj, hp⟩
      exact ⟨_, List.getElem_mem hj, hp⟩
  rw [hex]
  rcases kernel_cases (ty := ty) hs false p with ⟨e, hz⟩ | ⟨i, hi, e, h1, h2, h3, h4⟩ | ⟨i, hi, h1, h2, e⟩
  · rw [e]
    simp only [not_true, false_iff]
    rintro ⟨j, hj, hp⟩
    have g := part_height hv hr hj hp
    have g1 := hs.le (i := 0) (j := j) (by omega) (by omega)
    have g2 := hs.le (i := j + 1) (j := t.secs.length) (by omega) (le_refl _)
    rcases hz with hz | hz <;> linarith
  · rw [e]
    simp only
    rw [secOut_iff hv hr hf (by omega), not_not]
    constructor
    · intro hp; exact ⟨i, by omega, hp⟩
    · rintro ⟨j, hj, hp⟩
      have g := part_height hv hr hj hp
      rcases lt_trichotomy i j with hij | rfl | hij
      · exfalso
        have := hs.le (i := i + 1) (j := j) (by omega) (by omega)
        rcases h2 with h2 | h2
        · omega
        · linarith
      · exact hp
      · exfalso
        have := hs.le (i := j + 1) (j := i) (by omega) (by omega)
        rcases h1 with h1 | h1
        · omega
        · linarith
  · rw [e]
    have hno : ∀ k, ¬ SecIn ty false t k p := fun k hk => by simpa using hk.2.1
    have e1 := secOut_iff hv hr hf (i := i) (by omega) p
    have e2 := secOut_iff hv hr hf (i := i + 1) (by omega) p
    constructor
    · intro hh
      by_cases hA : SecOut ty false t i p
      · by_cases hB : SecOut ty false t (i + 1 : ℕ) p
        · exfalso; apply hh
          rw [if_neg (by tauto), if_pos ⟨hA, hB⟩]; trivial
        · exact ⟨i + 1, by omega, by tauto⟩
      · exact ⟨i, by omega, by tauto⟩
    · rintro ⟨j, hj, hp⟩
      have g := part_height hv hr hj hp
      have hj' : j = i ∨ j = i + 1 := by
        by_contra hne
        push Not at hne
        rcases lt_or_gt_of_ne hne.1 with hlt | hgt
        · have a1 := hs.le (i := j + 1) (j := i) (by omega) (by omega)
          have a2 := hs.gap i (by omega)
          linarith
        · have a1 := hs.lt (i := i + 1) (j := j) (by omega) (by omega)
          linarith
      have hnot : ¬ (SecOut ty false t i p ∧ SecOut ty false t (i + 1 : ℕ) p) := by
        rintro ⟨a1, a2⟩
        rcases hj' with rfl | rfl
        · exact e1.mp a1 hp
        · exact e2.mp a2 hp
      rw [if_neg hnot]
      split <;> simp

/-- Three planes, with a step at the middle one: the lower part has radius 2, the upper one radius 1 with a bore. -/
noncomputable def stepped : List Plane := [⟨0, 0, 2⟩, ⟨1, 0, 2⟩, ⟨1, 1 / 2, 1⟩, ⟨3, 1 / 2, 1⟩]

theorem infix_stepped {a b : Plane} (h : [a, b] <:+: stepped) : (a = ⟨0, 0, 2⟩ ∧ b = ⟨1, 0, 2⟩) ∨ (a = ⟨1, 0, 2⟩ ∧ b = ⟨1, 1 / 2, 1⟩) ∨
    (a = ⟨1, 1 / 2, 1⟩ ∧ b = ⟨3, 1 / 2, 1⟩) := by
  unfold stepped at h
  rw [infix_cons2, infix_cons2, infix_cons2] at h
  rcases h with h | h | h | h
  · exact Or.inl h
  · exact Or.inr (Or.inl h)
  · exact Or.inr (Or.inr h)
  · exact absurd h infix_one

theorem stepped_valid : Valid 0 (2 * π) stepped := by
  refine ⟨⟨_, _, _, rfl, by norm_num⟩, ?_, ?_, ?_, ?_, by positivity, Or.inr rfl⟩
  · intro a b h
    rcases infix_stepped h with ⟨rfl, rfl⟩ | ⟨rfl, rfl⟩ | ⟨rfl, rfl⟩
    · right; norm_num
    · left; rfl
    · right; norm_num
  · intro q hq; simp [stepped] at hq; rcases hq with rfl | rfl | rfl | rfl <;> norm_num
  · intro q hq; simp [stepped] at hq; rcases hq with rfl | rfl | rfl | rfl <;> norm_num
  · intro a b h _
    rcases infix_stepped h.1 with ⟨rfl, rfl⟩ | ⟨rfl, rfl⟩ | ⟨rfl, rfl⟩ <;> norm_num

example : ∃ t, make 0 (2 * π) stepped = some t ∧ Fits Cone.universal 0 (2 * π) stepped := by
  obtain ⟨t, h⟩ := make_some stepped_valid
  exact ⟨t, h, fits_universal⟩

/-- C147: planes that make sense are accepted. -/
theorem C147_make (hv : Valid s d ps) : ∃ t, make s d ps = some t ∧ t.nz = ps.length ∧ t.orig = ps ∧
    t.secs.length ≤ ps.length - 1 := by
  obtain ⟨t, ht⟩ := make_some hv
  obtain ⟨q, q', r, e, hu, hlt⟩ := hv.shape
  obtain ⟨l, hl⟩ := reducedPlanes_ne (r := r) hlt
  have hr := make_repr hv ht
  refine ⟨t, ht, ?_, ?_, ?_⟩
  · unfold make init at ht
    rw [hu, e] at ht
    simp only [hl, Option.some.injEq] at ht
    rw [← ht]
    simp [e]
  · unfold make init at ht
    rw [hu, e] at ht
    simp only [hl, Option.some.injEq] at ht
    rw [← ht]
    simp [e]
  · rw [hr.len]
    clear hr ht hv hu hl hlt e
    induction ps with
    | nil => simp [segs]
    | cons a r ih =>
      cases r with
      | nil => simp [segs]
      | cons b r =>
        rw [segs]
        split
        · simp at ih ⊢; exact ih
        · simp at ih ⊢; omega

example : Valid 0 (2 * π) stepped := stepped_valid

/-- C147: planes given from top to bottom make the same polycone as planes given from bottom to top. -/
theorem C147_reversed (hv : Valid s d ps) : make s d ps.reverse = make s d ps := by
  obtain ⟨q, q', r, e, hu, hlt⟩ := hv.shape
  have hl := head_le_last (e ▸ hv.mono)
  have hB := (hl q' (by simp)).2
  have hlast : (ps.getLast?.map Plane.z).getD 0 = ((q :: q' :: r).getLast (by simp)).z := by
    rw [e, List.getLast?_eq_getLast_of_ne_nil (by simp)]; rfl
  have hur : upward ps.reverse = ps := by
    unfold upward
    rw [List.head?_reverse, List.getLast?_reverse, if_pos, List.reverse_reverse]
    rw [hlast, e]
    show _ > q.z
    linarith
  unfold make init
  rw [hur, hu, List.length_reverse]

example : make 0 (2 * π) [⟨3, 1 / 2, 1⟩, ⟨1, 1 / 2, 1⟩, ⟨1, 0, 2⟩, ⟨0, 0, 2⟩] = make 0 (2 * π) stepped := C147_reversed stepped_valid

/-- C147: `GetSectionIndex` is -1 below the first plane, -2 above the last plane, and otherwise the number of a section that has the
height. -/
theorem C147_index (hv : Valid s d ps) (ht : make s d ps = some t) (z : ℝ) :
    (sectionIndex t z = -1 ↔ ∀ q ∈ ps, z < q.z) ∧ (sectionIndex t z = -2 ↔ ∀ q ∈ ps, q.z < z) ∧
    ((∃ a ∈ ps, ∃ b ∈ ps, a.z ≤ z ∧ z ≤ b.z) →
      ∃ (i : ℕ) (hi : i < (segs ps).length), sectionIndex t z = i ∧ secAt t i ∈ t.secs ∧ (segs ps)[i].1.z ≤ z ∧ z ≤ (segs ps)[i].2.z) := by
  have hr := make_repr hv ht
  have hs := hr.steps hv
  obtain ⟨q, q', r, e, hu, hlt⟩ := hv.shape
  have hl := head_le_last (e ▸ hv.mono)
  have h0 : zAt t 0 = q.z := by unfold zAt; rw [hr.zs, e]; rfl
  have hn : zAt t t.secs.length = ((q :: q' :: r).getLast (by simp)).z := by
    have hne := hs.ne
    rw [hr.len] at hne ⊢
    have h2 := hr.z2 hv (i := (segs ps).length - 1) (by omega)
    rw [show (segs ps).length - 1 + 1 = (segs ps).length by omega] at h2
    rw [h2]
    -- the last part ends on the last height
    have key : ∀ (a : Plane) (r : List Plane) (_ : ∀ x y, [x, y] <:+: a :: r → x.z ≤ y.z) (h : 0 < (segs (a :: r)).length),
        ((segs (a :: r))[(segs (a :: r)).length - 1]).2.z = ((a :: r).getLast (by simp)).z := by
      intro a r
      induction r generalizing a with
      | nil => intro _ h; simp [segs] at h
      | cons b r ih =>
        intro hm h
        have hm' : ∀ x y, [x, y] <:+: b :: r → x.z ≤ y.z := fun x y h => hm x y (infix_cons2.mpr (Or.inr h))
        rw [List.getLast_cons (by simp)]
        by_cases hab : a.z < b.z
        · have e : segs (a :: b :: r) = (a, b) :: segs (b :: r) := by rw [segs, if_pos hab]
          simp only [e]
          by_cases hz : (segs (b :: r)).length = 0
          · -- everything that follows is on this height
            have : ∀ (b : Plane) (r : List Plane) (_ : ∀ x y, [x, y] <:+: b :: r → x.z ≤ y.z), (segs (b :: r)).length = 0 →
                b.z = ((b :: r).getLast (by simp)).z := by
              intro b r
              induction r generalizing b with
              | nil => intro _ _; rfl
              | cons c r ih =>
                intro hm h
                rw [List.getLast_cons (by simp)]
                rw [segs] at h
                split at h
                · simp at h
                · rw [← ih c (fun x y h => hm x y (infix_cons2.mpr (Or.inr h))) h]
                  have := hm b c (infix_cons2.mpr (Or.inl ⟨rfl, rfl⟩))
                  linarith
            rw [← this b r hm' hz]
            simp [hz]
          · rw [← ih b hm' (by omega)]
            simp only [List.length_cons, Nat.add_sub_cancel]
            rw [List.getElem_cons]
            rw [dif_neg hz]
        · have e : segs (a :: b :: r) = segs (b :: r) := by rw [segs, if_neg hab]
          simp only [e]
          rw [e] at h
          exact ih b hm' h
    subst e
    exact key q (q' :: r) hv.mono hne
  have hall : ∀ p ∈ ps, q.z ≤ p.z ∧ p.z ≤ ((q :: q' :: r).getLast (by simp)).z := e ▸ hl
  have hq : q ∈ ps := by rw [e]; simp
  have hL : (q :: q' :: r).getLast (by simp) ∈ ps := by rw [e]; exact List.getLast_mem _
  have i1 : (∀ p ∈ ps, z < p.z) ↔ z < q.z := ⟨fun h => h q hq, fun h p hp => h.trans_le (hall p hp).1⟩
  have i2 : (∀ p ∈ ps, p.z < z) ↔ ((q :: q' :: r).getLast (by simp)).z < z := ⟨fun h => h _ hL, fun h p hp => (hall p hp).2.trans_lt h⟩
  have htol := kTolerance_pos
  rw [i1, i2, ← h0, ← hn]
  rcases index_cases hs z with ⟨e1, h1⟩ | ⟨i, hi, e1, h1, h1', -⟩ | ⟨e1, h1⟩ <;> rw [e1]
  · have := hs.lt hs.ne (le_refl _)
    refine ⟨⟨fun _ => h1, fun _ => rfl⟩, ⟨fun h => by omega, fun h => by linarith⟩, ?_⟩
    rintro ⟨a, ha, b, hb, g1, g2⟩
    have := (hall a ha).1
    rw [h0] at h1; linarith
  · have g1 := hs.le (i := 0) (j := i) (by omega) hi.le
    have g2 := hs.le (i := i + 1) (j := t.secs.length) (by omega) (le_refl _)
    refine ⟨⟨fun h => by omega, fun h => by linarith⟩, ⟨fun h => by omega, fun h => by linarith⟩, fun _ => ?_⟩
    have hi' : i < (segs ps).length := by rw [← hr.len]; exact hi
    refine ⟨i, hi', rfl, ?_, ?_, ?_⟩
    · unfold secAt
      rw [List.getD_eq_getElem _ _ hi]
      exact List.getElem_mem hi
    · rw [← hr.z1 hv hi']; exact h1
    · rw [← hr.z2 hv hi']; exact h1'
  · have := hs.lt hs.ne (le_refl _)
    refine ⟨⟨fun h => by omega, fun h => by linarith⟩, ⟨fun _ => h1, fun _ => rfl⟩, ?_⟩
    rintro ⟨a, ha, b, hb, g1, g2⟩
    have := (hall b hb).2
    rw [hn] at h1; linarith

example : ∃ t, make 0 (2 * π) stepped = some t := make_some stepped_valid

/-! ## The factory -/

/-- The navigation functions of a product. -/
noncomputable def Made.contains : Made → V3 → Bool
  | .poly ty t, p => Polycone.contains ty t p
  | .cone c, p => Cone.contains Cone.universal c p

/-- C147: what the factory makes from more than two planes answers membership in the polycone. -/
theorem C147_factory (hv : Valid s d ps) (h3 : ps.length ≠ 2) :
    ∃ m, makeInstance s d ps = some m ∧ ∀ p, m.contains p = true ↔ Body s d (ps.map Plane.fix) p := by
  have hdle : d ≤ 2 * π := by
    rcases hv.full with h | h
    · linarith [show (0 : ℝ) < 1 / 10 ^ 9 by norm_num]
    · exact h.le
  obtain ⟨q, q', r, e, -⟩ := hv.first
  have hpi := pi_pos
  have e2 : makeInstance s d ps =
      open Classical in
      if (∀ q ∈ ps, q.rmin ≤ 0) ∧ d ≥ 2 * π then (make s (2 * π) ps).map (.poly ⟨some false, .none⟩)
      else if (∀ q ∈ ps, q.rmin ≤ 0) ∧ d = π then (make s d ps).map (.poly ⟨some false, .pi⟩)
      else if (∀ q ∈ ps, q.rmin > 0) ∧ d ≥ 2 * π then (make s (2 * π) ps).map (.poly ⟨some true, .none⟩)
      else if (∀ q ∈ ps, q.rmin > 0) ∧ d = π then (make s d ps).map (.poly ⟨some true, .pi⟩)
      else (make s d ps).map (.poly Cone.universal) := by
    subst e
    cases r with
    | nil => simp at h3
    | cons c r => rfl
  obtain ⟨t, ht⟩ := make_some hv
  rw [e2]
  have hmem : ∀ {a b : Plane}, Next ps a b → a ∈ ps ∧ b ∈ ps := fun h => ⟨h.1.subset (by simp), h.1.subset (by simp)⟩
  split
  · rename_i h
    have hd : d = 2 * π := le_antisymm hdle h.2
    rw [← hd, ht]
    refine ⟨_, rfl, fun p => C147_contains hv ht ?_ p⟩
    intro a b hab
    obtain ⟨ha, hb⟩ := hmem hab
    refine ⟨fun _ => ⟨le_antisymm (h.1 a ha) (hv.rmin a ha), le_antisymm (h.1 b hb) (hv.rmin b hb)⟩, by simp, fun _ => hd, by simp, by simp, by simp⟩
  split
  · rename_i h
    rw [ht]
    refine ⟨_, rfl, fun p => C147_contains hv ht ?_ p⟩
    intro a b hab
    obtain ⟨ha, hb⟩ := hmem hab
    refine ⟨fun _ => ⟨le_antisymm (h.1 a ha) (hv.rmin a ha), le_antisymm (h.1 b hb) (hv.rmin b hb)⟩, by simp, by simp, by simp, fun _ => h.2, by simp⟩
  split
  · rename_i h
    have hd : d = 2 * π := le_antisymm hdle h.2
    rw [← hd, ht]
    refine ⟨_, rfl, fun p => C147_contains hv ht ?_ p⟩
    intro a b hab
    obtain ⟨ha, hb⟩ := hmem hab
    refine ⟨by simp, fun _ => Or.inl (h.1 a ha), fun _ => hd, by simp, by simp, by simp⟩
  split
  · rename_i h
    rw [ht]
    refine ⟨_, rfl, fun p => C147_contains hv ht ?_ p⟩
    intro a b hab
    obtain ⟨ha, hb⟩ := hmem hab
    refine ⟨by simp, fun _ => Or.inl (h.1 a ha), by simp, by simp, fun _ => h.2, by simp⟩
  · rw [ht]
    exact ⟨_, rfl, fun p => C147_contains hv ht fits_universal p⟩

example : Valid 0 (2 * π) stepped ∧ stepped.length ≠ 2 := ⟨stepped_valid, by simp [stepped]⟩

/-- C147: what the factory makes from two planes answers for the polycone moved so that its middle is at height zero. -/
theorem C147_two_partial {a b : Plane} (hv : Valid s d [a, b]) :
    ∃ m, makeInstance s d [a, b] = some m ∧
      ∀ p, m.contains p = true ↔ Body s d ([a, b].map Plane.fix) ⟨p.x, p.y, p.z + (a.z + b.z) / 2⟩ := by
  have hlt : a.z < b.z := by obtain ⟨q, q', r, e, h⟩ := hv.first; simp at e; rw [e.1, e.2.1]; exact h
  have hn : Next [a, b] a b := ⟨List.infix_rfl, hlt⟩
  refine ⟨_, rfl, fun p => ?_⟩
  have e : Cone.make a.rmin a.rmax b.rmin b.rmax (|b.z - a.z| / 2) s d = Cone.of (par s d (a, b)) := by
    rw [abs_of_pos (by linarith)]; rfl
  show Cone.contains Cone.universal (Cone.make a.rmin a.rmax b.rmin b.rmax (|b.z - a.z| / 2) s d) p = true ↔ _
  rw [e, Cone.C142_contains (par_valid hv hn) (Cone.fits_universal _), par_fix, body_fix]
  have hseg : segs [a, b] = [(a, b)] := by simp [segs, hlt]
  rw [hseg]
  simp only [List.mem_singleton, exists_eq_left]
  rw [← part_iff (a := a.fix) (b := b.fix) hlt]
  have : lower ⟨p.x, p.y, p.z + (a.z + b.z) / 2⟩ ((a.fix.z + b.fix.z) / 2) = p := by
    unfold lower; rw [fix_z, fix_z]; simp
  rw [this]

/-- A cylinder from height 0 to height 2, by two planes. -/
noncomputable def lifted : List Plane := [⟨0, 0, 1⟩, ⟨2, 0, 1⟩]

theorem lifted_valid : Valid 0 (2 * π) lifted := by
  refine ⟨⟨_, _, _, rfl, by norm_num⟩, ?_, ?_, ?_, ?_, by positivity, Or.inr rfl⟩
  · intro a b h
    unfold lifted at h
    rw [infix_cons2] at h
    rcases h with ⟨rfl, rfl⟩ | h
    · right; norm_num
    · exact absurd h infix_one
  · intro q hq; simp [lifted] at hq; rcases hq with rfl | rfl <;> norm_num
  · intro q hq; simp [lifted] at hq; rcases hq with rfl | rfl <;> norm_num
  · intro a b h _
    have := h.1
    unfold lifted at this
    rw [infix_cons2] at this
    rcases this with ⟨rfl, rfl⟩ | h
    · norm_num
    · exact absurd h infix_one

/-- C147 fails for two planes that are not symmetric: a point of the polycone is not contained in what the factory makes. -/
theorem C147_two_counterexample : ∃ m, makeInstance 0 (2 * π) lifted = some m ∧
    Body 0 (2 * π) lifted ⟨0, 0, 3 / 2⟩ ∧ m.contains ⟨0, 0, 3 / 2⟩ = false := by
  obtain ⟨m, hm, h⟩ := C147_two_partial (a := ⟨0, 0, 1⟩) (b := ⟨2, 0, 1⟩) lifted_valid
  refine ⟨m, hm, ⟨⟨0, 0, 1⟩, ⟨2, 0, 1⟩, ⟨List.infix_rfl, by norm_num⟩, by norm_num, by norm_num, by norm_num, ?_, ?_⟩, ?_⟩
  · norm_num [lerp, rad]
  · exact ⟨0, 0, le_refl _, le_refl _, by positivity, by simp, by simp⟩
  · rw [← Bool.not_eq_true, h, body_fix]
    rintro ⟨x, hx, hp⟩
    simp only [segs, List.mem_cons] at hx
    rw [if_pos (by norm_num)] at hx
    simp only [List.mem_singleton] at hx
    subst hx
    have := hp.z2
    norm_num [Plane.fix] at this

end Polycone
end VecGeom

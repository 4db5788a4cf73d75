import Verif.GPoly.Model
import Verif.Coax.Rest
import Verif.Polycone.Props4

/-!
# Properties of the generic polycone
-/

namespace VecGeom
namespace GPoly

open Real
open Coax (Radii)
open Polycone (lower scan lower_dist scan_le scan_bound scan_head)

/-! ## Specification -/

/-- The parameters of a generic polycone: the radii of the cones of each section, the heights of the planes between them, the angles. -/
structure Par where
  rs : List (List Radii)
  zs : List ℝ
  s : ℝ
  d : ℝ

namespace Par

/-- The height of a plane. -/
def z (a : Par) (i : ℕ) : ℝ := a.zs.getD i 0
/-- The cones of a section, around their own middle. -/
noncomputable def sec (a : Par) (i : ℕ) : Coax.Par := ⟨a.rs.getD i [], (a.z (i + 1) - a.z i) / 2, a.s, a.d⟩
/-- The middle of a section. -/
noncomputable def mid (a : Par) (i : ℕ) : ℝ := (a.z i + a.z (i + 1)) / 2

/-- Parameters that make sense: there is a section, the planes go upwards by more than twice the tolerance, all cones make sense. -/
structure Valid (a : Par) : Prop where
  ne : 0 < a.rs.length
  len : a.zs.length = a.rs.length + 1
  gap : ∀ i < a.rs.length, a.z i + 2 / 10 ^ 9 < a.z (i + 1)
  sec : ∀ i < a.rs.length, (a.sec i).Valid

/-- The union of the sections, without the walls of the bores. -/
def In (a : Par) (p : V3) : Prop := ∃ i < a.rs.length, (a.sec i).In (lower p (a.mid i))
/-- The union of the sections with their surfaces. -/
def Closed (a : Par) (p : V3) : Prop := ∃ i < a.rs.length, (a.sec i).Closed (lower p (a.mid i))

end Par

variable {a : Par} {t : Struct}

/-! ## The sections -/

/-- What `make` leaves behind. -/
structure Repr (a : Par) (t : Struct) : Prop where
  len : t.secs.length = a.rs.length
  zlen : t.zs.length = a.rs.length + 1
  z : ∀ i, zAt t i = a.z i
  sec : ∀ i < a.rs.length, secAt t i = ⟨a.mid i, Coax.of (a.sec i)⟩

theorem make_repr (hv : a.Valid) (ht : make a.rs a.zs a.s a.d = some t) : Repr a t := by
  unfold make at ht
  rw [if_pos (by rw [hv.len]; omega)] at ht
  obtain rfl := Option.some.inj ht
  refine ⟨by simp, hv.len, fun _ => rfl, fun i hi => ?_⟩
  unfold secAt
  simp only [List.getD_eq_getElem?_getD, List.getElem?_map]
  rw [List.getElem?_eq_getElem (by simpa using hi)]
  simp only [List.getElem_zipIdx, Option.map_some, Option.getD_some]
  unfold mkSection Coax.of Par.sec Par.mid Par.z
  simp only [List.getD_eq_getElem?_getD, zero_add]
  rw [List.getElem?_eq_getElem (l := a.rs) hi]
  simp only [Option.getD_some]
  congr 1
  · ring
  · congr 1; ring

theorem make_some (hv : a.Valid) : ∃ t, make a.rs a.zs a.s a.d = some t := by
  unfold make
  rw [if_pos (by rw [hv.len]; omega)]
  exact ⟨_, rfl⟩

theorem kTol2 : 2 * kTolerance = 2 / 10 ^ 9 := by norm_num [kTolerance]

/-- What the functions on the sections need. -/
structure Steps (t : Struct) : Prop where
  ne : 0 < t.secs.length
  zlen : t.zs.length = t.secs.length + 1
  gap : ∀ i, i < t.secs.length → zAt t i + 2 * kTolerance < zAt t (i + 1)

theorem Repr.steps (h : Repr a t) (hv : a.Valid) : Steps t := by
  refine ⟨by rw [h.len]; exact hv.ne, by rw [h.zlen, h.len], fun i hi => ?_⟩
  rw [h.z, h.z, kTol2]
  exact hv.gap i (by rw [← h.len]; exact hi)

theorem Steps.lt (h : Steps t) {i j : ℕ} (hij : i < j) (hj : j ≤ t.secs.length) : zAt t i + 2 * kTolerance < zAt t j := by
  have ht := kTolerance_pos
  induction j, hij using Nat.le_induction with
  | base => exact h.gap i (by omega)
  | succ j hj' ih => have := ih (by omega); have := h.gap j (by omega); linarith

theorem Steps.le (h : Steps t) {i j : ℕ} (hij : i ≤ j) (hj : j ≤ t.secs.length) : zAt t i ≤ zAt t j := by
  have ht := kTolerance_pos
  rcases hij.eq_or_lt with rfl | hlt
  · exact le_refl _
  · have := h.lt hlt hj; linarith

theorem index_cases (h : Steps t) (z : ℝ) :
    (sectionIndex t z = -1 ∧ z < zAt t 0) ∨
    (∃ i : ℕ, i < t.secs.length ∧ sectionIndex t z = i ∧ zAt t i ≤ z ∧ z ≤ zAt t (i + 1) ∧ (0 < i → zAt t i < z)) ∨
    (sectionIndex t z = -2 ∧ zAt t t.secs.length < z) := by
  unfold sectionIndex
  rw [show t.zs.length - 1 = t.secs.length by rw [h.zlen]; omega]
  by_cases h0 : z < zAt t 0
  · exact Or.inl ⟨by rw [if_pos h0], h0⟩
  rw [if_neg h0]
  cases hf : (List.range t.secs.length).find? fun i => decide (z ≥ zAt t i ∧ z ≤ zAt t (i + 1)) with
  | some i =>
    right; left
    rw [List.find?_range_eq_some] at hf
    obtain ⟨h1, h2, h3⟩ := hf
    rw [decide_eq_true_eq] at h1
    refine ⟨i, by simpa using h2, rfl, h1.1, h1.2, fun hi => ?_⟩
    by_contra hz
    have hlt : i < t.secs.length := by simpa using h2
    have := h3 (i - 1) (by omega)
    have g := h.gap (i - 1) (by omega)
    rw [show i - 1 + 1 = i by omega] at g this
    have ht := kTolerance_pos
    simp at this
    push Not at hz
    rcases this with h' | h' <;> linarith
  | none =>
    right; right
    refine ⟨rfl, ?_⟩
    rw [List.find?_eq_none] at hf
    by_contra hz
    push Not at hz h0
    have : ∀ k, k ≤ t.secs.length → zAt t k ≤ z := by
      intro k
      induction k with
      | zero => intro _; exact h0
      | succ k ih =>
        intro hk
        have := hf k (by simp; omega)
        simp at this
        exact (this (ih (by omega))).le
    have hn := h.ne
    have h2 := hf (t.secs.length - 1) (by simp; omega)
    rw [show t.secs.length - 1 + 1 = t.secs.length by omega] at h2
    simp at h2
    have := h2 (this _ (by omega))
    linarith

/-- The three ways of the kernel. -/
theorem kernel_cases (h : Steps t) (fi : Bool) (p : V3) :
    (kernel fi t p = (false, true) ∧ (p.z < zAt t 0 ∨ zAt t t.secs.length < p.z)) ∨
    (∃ i : ℕ, i < t.secs.length ∧ kernel fi t p = secKernel fi t i p ∧
      (i = 0 ∨ zAt t i + kTolerance ≤ p.z) ∧ (i + 1 = t.secs.length ∨ p.z + kTolerance ≤ zAt t (i + 1)) ∧
      zAt t i ≤ p.z + kTolerance ∧ p.z ≤ zAt t (i + 1) + kTolerance) ∨
    (∃ i : ℕ, i + 1 < t.secs.length ∧ zAt t (i + 1) < p.z + kTolerance ∧ p.z - kTolerance ≤ zAt t (i + 1) ∧
      ∃ ring, kernel fi t p =
        if (!(secKernel fi t i p).1 && !(secKernel fi t i p).2) && (!(secKernel fi t (i + 1 : ℕ) p).1 && !(secKernel fi t (i + 1 : ℕ) p).2) then (!ring, false)
        else if (secKernel fi t i p).2 && (secKernel fi t (i + 1 : ℕ) p).2 then (false, true)
        else (false, false)) := by
  have ht := kTolerance_pos
  have hn := h.ne
  have hz1 := h.lt hn (le_refl _)
  unfold kernel
  simp only
  rcases index_cases h (p.z - kTolerance) with ⟨e1, h1⟩ | ⟨i, hi, e1, h1, h1', h1''⟩ | ⟨e1, h1⟩ <;>
  rcases index_cases h (p.z + kTolerance) with ⟨e2, h2⟩ | ⟨j, hj, e2, h2, h2', h2''⟩ | ⟨e2, h2⟩ <;> rw [e1, e2]
  · left; exact ⟨by rw [if_pos ⟨by norm_num, by norm_num⟩], Or.inl (by linarith)⟩
  · right; left
    have hj0 : j = 0 := by
      by_contra hj0
      have := h2'' (by omega)
      have := h.lt (i := 0) (j := j) (by omega) hj.le
      linarith
    subst hj0
    refine ⟨0, hn, ?_, Or.inl rfl, Or.inr (by linarith), by linarith, by linarith⟩
    rw [if_neg (by push Not; intro _; simp), if_pos ⟨by norm_num, by simp⟩]
    rfl
  · exfalso; linarith
  · exfalso
    have := h.le (i := 0) (j := i) (by omega) hi.le
    linarith
  · rcases lt_trichotomy i j with hij | rfl | hij
    · right; right
      have hji : j = i + 1 := by
        by_contra hne
        have g1 := h.lt (i := i + 1) (j := j) (by omega) hj.le
        have g2 := h2'' (by omega)
        linarith
      subst hji
      refine ⟨i, hj, h2'' (by omega), h1', isOnRing false (secAt t i).cones (lower p (secAt t i).shift) ||
        isOnRing true (secAt t (i + 1)).cones (lower p (secAt t (i + 1)).shift), ?_⟩
      rw [if_neg (by push Not; intro hh; omega), if_neg (by rintro ⟨hh, -⟩; omega), if_neg (by rintro ⟨hh, -⟩; omega),
        if_pos ⟨by omega, by omega⟩, if_neg (by omega)]
      simp only [Int.toNat_natCast]
    · right; left
      refine ⟨i, hi, ?_, Or.inr (by linarith), Or.inr (by linarith), by linarith, by linarith⟩
      rw [if_neg (by push Not; intro hh; omega), if_neg (by rintro ⟨hh, -⟩; omega), if_neg (by rintro ⟨hh, -⟩; omega),
        if_pos ⟨by omega, by omega⟩, if_pos rfl]
    · exfalso
      have g1 := h.le (i := j + 1) (j := i) (by omega) hi.le
      linarith
  · right; left
    have hi1 : i + 1 = t.secs.length := by
      by_contra hne
      have := h.lt (i := i + 1) (j := t.secs.length) (by omega) (le_refl _)
      linarith
    refine ⟨i, hi, ?_, Or.inr (by linarith), Or.inl hi1, by linarith, by linarith⟩
    rw [if_neg (by push Not; intro hh; omega), if_neg (by rintro ⟨hh, -⟩; omega), if_pos ⟨by norm_num, by omega⟩,
      show (t.secs.length : ℤ) - 1 = (i : ℤ) by omega]
  · exfalso; linarith
  · exfalso
    have := h.le (i := j + 1) (j := t.secs.length) (by omega) (le_refl _)
    linarith
  · left; exact ⟨by rw [if_pos ⟨by norm_num, by norm_num⟩], Or.inr (by linarith)⟩

/-! ## C191 -/

theorem secKernel_nat (fi : Bool) (t : Struct) (i : ℕ) (p : V3) :
    secKernel fi t i p = coaxKernel fi (secAt t i).cones (lower p (secAt t i).shift) := by
  unfold secKernel
  rw [if_neg (by omega), Int.toNat_natCast]

theorem secOut_iff (hv : a.Valid) (h : Repr a t) {i : ℕ} (hi : i < a.rs.length) (p : V3) :
    (secKernel false t i p).2 = true ↔ ¬ (a.sec i).In (lower p (a.mid i)) := by
  rw [secKernel_nat, h.sec i hi, ← Coax.C187_contains (hv.sec i hi)]
  unfold Coax.contains coaxKernel
  simp

theorem sec_z (a : Par) (i : ℕ) {k : Cone.Par} (hk : k ∈ (a.sec i).cones) : k.z = (a.z (i + 1) - a.z i) / 2 := by
  unfold Coax.Par.cones at hk
  obtain ⟨r, -, rfl⟩ := List.mem_map.mp hk
  rfl

theorem in_height {i : ℕ} {p : V3} (hp : (a.sec i).In (lower p (a.mid i))) : a.z i ≤ p.z ∧ p.z ≤ a.z (i + 1) := by
  obtain ⟨k, hk, h⟩ := hp
  have h1 := h.z
  have h2 : k.fix.z = k.z := rfl
  rw [h2, sec_z a i hk, abs_le] at h1
  simp only [lower, Par.mid] at h1
  constructor <;> linarith [h1.1, h1.2]

theorem closed_height {i : ℕ} {p : V3} (hp : (a.sec i).Closed (lower p (a.mid i))) : a.z i ≤ p.z ∧ p.z ≤ a.z (i + 1) := by
  obtain ⟨k, hk, h⟩ := hp
  have h1 := h.z
  have h2 : k.fix.z = k.z := rfl
  rw [h2, sec_z a i hk, abs_le] at h1
  simp only [lower, Par.mid] at h1
  constructor <;> linarith [h1.1, h1.2]

/-- C191: `Contains` of a generic polycone says whether the point is in one of its sections. -/
theorem C191_contains (hv : a.Valid) (ht : make a.rs a.zs a.s a.d = some t) (p : V3) : contains t p = true ↔ a.In p := by
  have hr := make_repr hv ht
  have hs := hr.steps hv
  have hl := hr.len
  have htol := kTolerance_pos
  unfold contains Par.In
  rw [Bool.not_eq_true', ← Bool.not_eq_true]
  rcases kernel_cases hs false p with ⟨e, hz⟩ | ⟨i, hi, e, h1, h2, h3, h4⟩ | ⟨i, hi, h1, h2, ring, e⟩
  · rw [e]
    simp only [not_true, false_iff]
    rintro ⟨j, hj, hp⟩
    have g := in_height hp
    rw [← hr.z, ← hr.z] at g
    have g1 := hs.le (i := 0) (j := j) (by omega) (by omega)
    have g2 := hs.le (i := j + 1) (j := t.secs.length) (by omega) (le_refl _)
    rcases hz with hz | hz <;> linarith
  · rw [e, secOut_iff hv hr (by omega), not_not]
    constructor
    · intro hp; exact ⟨i, by omega, hp⟩
    · rintro ⟨j, hj, hp⟩
      have g := in_height hp
      rw [← hr.z, ← hr.z] at g
      rcases lt_trichotomy i j with hij | rfl | hij
      · exfalso
        have := hs.le (i := i + 1) (j := j) (by omega) (by omega)
        rcases h2 with h2 | h2
        · omega
        · linarith
      · exact hp
      · exfalso
        have := hs.le (i := j + 1) (j := i) (by omega) (by omega)
        rcases h1 with h1 | h1
        · omega
        · linarith
  · rw [e]
    have e1 := secOut_iff hv hr (i := i) (by omega) p
    have e2 := secOut_iff hv hr (i := i + 1) (by omega) p
    have hno : ∀ k : ℕ, (secKernel false t k p).1 = false := fun k => by rw [secKernel_nat]; rfl
    rw [hno, hno]
    constructor
    · intro hh
      by_cases hA : (secKernel false t i p).2 = true
      · by_cases hB : (secKernel false t (i + 1 : ℕ) p).2 = true
        · exfalso; apply hh
          rw [hA, hB]; rfl
        · exact ⟨i + 1, by omega, by tauto⟩
      · exact ⟨i, by omega, by tauto⟩
    · rintro ⟨j, hj, hp⟩
      have g := in_height hp
      rw [← hr.z, ← hr.z] at g
      have hj' : j = i ∨ j = i + 1 := by
        by_contra hne
        push Not at hne
        rcases lt_or_gt_of_ne hne.1 with hlt | hgt
        · have a1 := hs.le (i := j + 1) (j := i) (by omega) (by omega)
          have a2 := hs.gap i (by omega)
          linarith
        · have a1 := hs.lt (i := i + 1) (j := j) (by omega) (by omega)
          linarith
      have hnot : ¬ ((secKernel false t i p).2 = true ∧ (secKernel false t (i + 1 : ℕ) p).2 = true) := by
        rintro ⟨a1, a2⟩
        rcases hj' with rfl | rfl
        · exact e1.mp a1 hp
        · exact e2.mp a2 hp
      rw [if_neg (c := ((secKernel false t i p).2 && (secKernel false t (i + 1 : ℕ) p).2) = true) (by rw [Bool.and_eq_true]; exact hnot)]
      split <;> simp

/-! ## Safeties -/

theorem around_le (t : Struct) (i : ℕ) (p : V3) (m : ℝ) : around t i p m ≤ m := by
  unfold around
  simp only
  split
  · exact (scan_le _ _ _ _).trans (scan_le _ _ _ _)
  · exact scan_le _ _ _ _

theorem sec_safety (hv : a.Valid) (h : Repr a t) {j : ℕ} (hj : j < a.rs.length) (p q : V3) (hq : (a.sec j).Closed (lower q (a.mid j))) :
    secSafety t p j ≤ V3.dist p q := by
  unfold secSafety
  rw [h.sec j hj, ← lower_dist p q (a.mid j)]
  exact Coax.C187_safetyToIn (hv.sec j hj) _ _ hq

theorem sec_small {i : ℕ} {p : V3} (h : secSafety t p i < kTolerance) : secSafety t p i ≤ 0 := by
  unfold secSafety Coax.safetyToIn at h ⊢
  rcases (Coax.foldl_min_le (fun k => Cone.safetyToIn Cone.universal k (lower p (secAt t i).shift)) (secAt t i).cones.cones kInfLength).2.2 with e | ⟨k, -, e⟩
  · rw [e] at h
    have := kInfLength_large
    norm_num [kTolerance] at h
    linarith
  · rw [e] at h ⊢
    exact Polycone.small_in h

/-- C191: `SafetyToIn` is not more than the distance to any point of those sections that have no plane between them and the point
from below. -/
theorem C191_safetyToIn_partial (hv : a.Valid) (ht : make a.rs a.zs a.s a.d = some t) (p q : V3) {j : ℕ} (hj : j < a.rs.length)
    (hc : ∀ c ∈ a.zs, ¬ (a.z (j + 1) < c ∧ c < p.z)) (hq : (a.sec j).Closed (lower q (a.mid j))) : safetyToIn t p ≤ V3.dist p q := by
  have hr := make_repr hv ht
  have hs := hr.steps hv
  have hl := hr.len
  have hn := hs.ne
  have htol := kTolerance_pos
  have hd0 := V3.dist_nonneg' p q
  have hsec := sec_safety hv hr hj p q hq
  have hz := closed_height hq
  rw [← hr.z, ← hr.z] at hz
  have hdist := V3.abs_z_le_dist p q
  rw [abs_le] at hdist
  have hmem : ∀ i, i ≤ a.rs.length → a.z i ∈ a.zs := by
    intro i hi
    unfold Par.z
    rw [List.getD_eq_getElem?_getD, List.getElem?_eq_getElem (by rw [hv.len]; omega)]
    exact List.getElem_mem _
  -- the section that is asked first, and where it is
  obtain ⟨i, hi, e, hji, hup⟩ : ∃ i, i < t.secs.length ∧
      (if sectionIndex t p.z = -1 then 0 else if sectionIndex t p.z = -2 then t.secs.length - 1 else (sectionIndex t p.z).toNat) = i ∧
      i ≤ j + 1 ∧ (i < j → p.z ≤ zAt t (i + 1)) := by
    rcases index_cases hs p.z with ⟨e, h⟩ | ⟨i, hi, e, g1, g2, g3⟩ | ⟨e, h⟩
    · refine ⟨0, hn, by rw [e, if_pos rfl], by omega, fun _ => ?_⟩
      have := hs.gap 0 hn
      linarith
    · refine ⟨i, hi, by rw [e, if_neg (by omega), if_neg (by omega), Int.toNat_natCast], ?_, fun _ => g2⟩
      by_contra hne
      push Not at hne
      refine hc _ (hmem i (by omega)) ⟨?_, ?_⟩
      · rw [← hr.z, ← hr.z]
        have := hs.lt hne (by omega)
        linarith
      · rw [← hr.z]; exact g3 (by omega)
    · refine ⟨t.secs.length - 1, by omega, by rw [e, if_neg (by norm_num), if_pos rfl], ?_, fun hlt => ?_⟩
      · by_contra hne
        push Not at hne
        refine hc _ (hmem t.secs.length (by omega)) ⟨?_, ?_⟩
        · rw [← hr.z, ← hr.z]
          have := hs.lt (i := j + 1) (j := t.secs.length) (by omega) le_rfl
          linarith
        · rw [← hr.z]; exact h
      · omega
  unfold safetyToIn
  simp only
  rw [e]
  split
  · rename_i hlt
    exact (sec_small hlt).trans hd0
  rcases lt_trichotomy i j with hij | rfl | hij
  · refine le_trans (b := scan (fun k => zAt t k - zAt t (i + 1)) (secSafety t p) (List.range' (i + 1) (t.secs.length - (i + 1))) (secSafety t p i)) ?_ ?_
    · unfold around
      simp only
      split
      · exact scan_le _ _ _ _
      · exact le_refl _
    · have hp : (List.range' (i + 1) (t.secs.length - (i + 1))).Pairwise (fun a b => zAt t a - zAt t (i + 1) ≤ zAt t b - zAt t (i + 1)) := by
        have := List.pairwise_lt_range' (s := i + 1) (n := t.secs.length - (i + 1))
        refine this.imp_of_mem ?_
        intro a b ha hb hab
        rw [List.mem_range'_1] at hb
        have := hs.le (i := a) (j := b) hab.le (by omega)
        linarith
      rcases scan_bound (saf := secSafety t p) _ (secSafety t p i) hp (j := j) (List.mem_range'_1.mpr (by omega)) with h | h
      · exact h.trans hsec
      · have := hup hij
        exact h.trans (by linarith)
  · exact (around_le _ _ _ _).trans hsec
  · have : i = j + 1 := by omega
    subst this
    unfold around
    simp only
    rw [if_pos (by omega), List.range_succ, List.reverse_append, List.reverse_singleton, List.singleton_append]
    rcases scan_head (gap := fun k => zAt t (j + 1 - 1) - zAt t k) (saf := secSafety t p) j (List.range j).reverse _ with h | h
    · exact h.trans hsec
    · refine h.trans ?_
      simp only [Nat.add_sub_cancel, sub_self]
      exact hd0

/-- C191: `SafetyToOut` is not more than the distance to any point that is not in the solid. -/
theorem C191_safetyToOut (hv : a.Valid) (ht : make a.rs a.zs a.s a.d = some t) (p q : V3) (hq : ¬ a.Closed q) : safetyToOut t p ≤ V3.dist p q := by
  have hr := make_repr hv ht
  have hs := hr.steps hv
  have hd0 := V3.dist_nonneg' p q
  unfold safetyToOut
  simp only
  split
  · linarith
  split
  · exact hd0
  rcases index_cases hs p.z with ⟨e, -⟩ | ⟨i, hi, e, -⟩ | ⟨e, -⟩
  · rw [e, if_pos (by norm_num)]; linarith
  · rw [e, if_neg (by omega), Int.toNat_natCast]
    split
    · exact hd0
    split
    · exact hd0
    refine (around_le _ _ _ _).trans ?_
    rw [hr.len] at hi
    rw [hr.sec i hi, ← lower_dist p q (a.mid i)]
    exact Coax.C187_safetyToOut (hv.sec i hi) _ _ fun hc => hq ⟨i, hi, hc⟩
  · rw [e, if_pos (by norm_num)]; linarith

end GPoly
end VecGeom

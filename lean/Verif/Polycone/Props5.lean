import Verif.Polycone.Props2
import Verif.Cone.PropsMore

/-!
# Polycones: convexity and extent
-/

namespace VecGeom
namespace Polycone

open Real Tube

variable {s d : ℝ} {ps : List Plane} {t : Struct}

theorem make_angles (hv : Valid s d ps) (ht : make s d ps = some t) :
    t.dphi = d ∧ ∀ x y, Sector t.sphi t.dphi x y ↔ Sector s d x y := by
  obtain ⟨q, q', r, e, hu, hlt⟩ := hv.shape
  obtain ⟨l, hl⟩ := reducedPlanes_ne (r := r) hlt
  unfold make init at ht
  rw [hu, e] at ht
  simp only [hl, Option.some.injEq] at ht
  have h1 : t.sphi = (angles fresh.dphi s d).1 := by rw [← ht]
  have h2 : t.dphi = (angles fresh.dphi s d).2 := by rw [← ht]
  rw [h1, h2]
  have hp := hv.pos
  have htol : kTolerance = 1 / 10 ^ 9 := by norm_num [kTolerance]
  unfold angles
  rcases hv.full with hd | hd
  · rw [if_neg (by rw [htol]; push Not; constructor <;> linarith)]
    have hc : checkDPhi fresh.dphi d = d := by
      unfold checkDPhi
      rw [if_neg, if_pos hp]
      unfold Tube.kAngTolerance
      rw [htol]
      linarith
    simp only
    rw [hc]
    refine ⟨rfl, fun x y => ?_⟩
    split
    · rename_i hs
      unfold Sector
      have e1 : ∀ u, cos (s + ⌈-s / (2 * π)⌉ * (2 * π) + u) = cos (s + u) := by
        intro u
        rw [show s + ⌈-s / (2 * π)⌉ * (2 * π) + u = s + u + ⌈-s / (2 * π)⌉ * (2 * π) by ring, cos_add_int_mul_two_pi]
      have e2 : ∀ u, sin (s + ⌈-s / (2 * π)⌉ * (2 * π) + u) = sin (s + u) := by
        intro u
        rw [show s + ⌈-s / (2 * π)⌉ * (2 * π) + u = s + u + ⌈-s / (2 * π)⌉ * (2 * π) by ring, sin_add_int_mul_two_pi]
      simp only [e1, e2]
    · rfl
  · rw [if_pos (by right; rw [htol]; linarith)]
    refine ⟨hd.symm, fun x y => ?_⟩
    rw [hd]
    exact ⟨fun _ => sector_full _ _ _, fun _ => sector_full _ _ _⟩

theorem make_flags (hv : Valid s d ps) (ht : make s d ps = some t) : ∃ n ns, reducedPlanes ps = n :: ns ∧
    t.equalRmax = sameRmax n.rmax ns ∧ t.continuity = (contRmax (n :: ns) && contSlope kInfLength (n :: ns)) ∧
    t.convexPossible = (open Classical in (n :: ns).all fun m => decide (m.rmin = 0)) := by
  obtain ⟨q, q', r, e, hu, hlt⟩ := hv.shape
  obtain ⟨l, hl⟩ := reducedPlanes_ne (r := r) hlt
  unfold make init at ht
  rw [hu, e] at ht
  simp only [hl, Option.some.injEq] at ht
  refine ⟨q, q' :: l, by rw [e, hl], ?_⟩
  rw [← ht]
  simp [fresh]

/-! ## Convexity -/

/-- All heights differ. -/
def Smooth (ps : List Plane) : Prop := ∀ a b, [a, b] <:+: ps → a.z < b.z

theorem Smooth.tail {a : Plane} {r : List Plane} (h : Smooth (a :: r)) : Smooth r :=
  fun _ _ hx => h _ _ (hx.trans (List.suffix_cons a r).isInfix)

/-- The ends of the sections, one after another. -/
def pairs : List Plane → List Plane
  | q :: q' :: r => q :: q' :: pairs (q' :: r)
  | _ => []

theorem doubled_smooth : ∀ (r : List Plane) (q q' : Plane), Smooth (q :: q' :: r) → q :: doubled (q' :: r) = pairs (q :: q' :: r)
  | [], q, q', _ => rfl
  | b :: r, q, q', h => by
    have h1 := h q' b (infix_cons2.mpr (Or.inr (infix_cons2.mpr (Or.inl ⟨rfl, rfl⟩))))
    rw [doubled, if_pos (Or.inl (ne_of_lt h1)), pairs, ← doubled_smooth r q' b h.tail]

theorem pairs_even : ∀ (l : List Plane), (pairs l).length % 2 = 0
  | [] => rfl
  | [_] => rfl
  | q :: q' :: r => by
    have := pairs_even (q' :: r)
    rw [pairs, List.length_cons, List.length_cons]
    omega

theorem reduced_pairs : ∀ (l : List Plane), Smooth l → reduced (pairs l) = pairs l
  | [], _ => rfl
  | [_], _ => rfl
  | q :: q' :: r, h => by
    rw [pairs, reduced, if_pos (ne_of_lt (h q q' (infix_cons2.mpr (Or.inl ⟨rfl, rfl⟩)))), reduced_pairs (q' :: r) h.tail]

theorem reducedPlanes_smooth {q q' : Plane} {r : List Plane} (h : Smooth (q :: q' :: r)) :
    reducedPlanes (q :: q' :: r) = pairs (q :: q' :: r) := by
  rw [reducedPlanes, doubled_smooth r q q' h, evened, if_neg (by rw [pairs_even]; simp), reduced_pairs _ h]

theorem mem_pairs : ∀ (l : List Plane) (q q' : Plane) (r : List Plane), l = q :: q' :: r → ∀ x ∈ l, x ∈ pairs l
  | _, q, q', [], rfl, x, hx => by simpa [pairs] using hx
  | _, q, q', b :: r, rfl, x, hx => by
    have := mem_pairs _ q' b r rfl
    rw [pairs]
    rcases List.mem_cons.mp hx with rfl | hx
    · simp
    · exact List.mem_cons_of_mem _ (List.mem_cons_of_mem _ (this x hx))

theorem sameRmax_all : ∀ (l : List Plane) (r : ℝ), sameRmax r l = true → ∀ q ∈ l, q.rmax = r
  | [], _, _, _, h => by simp at h
  | b :: l, r, h, q, hq => by
    rw [sameRmax, Bool.and_eq_true, decide_eq_true_eq] at h
    rcases List.mem_cons.mp hq with rfl | hq
    · exact h.1.symm
    · rw [sameRmax_all l _ h.2 q hq, h.1]

/-- The slope of the outer wall of a section. -/
noncomputable def slope (x : Plane × Plane) : ℝ := (x.2.rmax - x.1.rmax) / (x.2.z - x.1.z)

theorem slope_mul {x : Plane × Plane} (h : x.1.z < x.2.z) : slope x * (x.2.z - x.1.z) = x.2.rmax - x.1.rmax := by
  unfold slope
  rw [div_mul_cancel₀ _ (by linarith)]

theorem slopes_le : ∀ (l : List Plane) (c : ℝ), Smooth l → contSlope c (pairs l) = true → ∀ x ∈ segs l, slope x ≤ c
  | [], _, _, _, x, h => by simp [segs] at h
  | [_], _, _, _, x, h => by simp [segs] at h
  | q :: q' :: r, c, hs, h, x, hx => by
    have hlt := hs q q' (infix_cons2.mpr (Or.inl ⟨rfl, rfl⟩))
    rw [pairs, contSlope, Bool.and_eq_true, decide_eq_true_eq] at h
    rw [segs, if_pos hlt] at hx
    rcases List.mem_cons.mp hx with rfl | hx
    · exact h.1
    · exact (slopes_le (q' :: r) _ hs.tail h.2 x hx).trans h.1

theorem under_slope : ∀ (r : List Plane) (q : Plane) (c : ℝ), Smooth (q :: r) → contSlope c (pairs (q :: r)) = true →
    ∀ x ∈ q :: r, x.rmax ≤ q.rmax + c * (x.z - q.z)
  | [], q, c, _, _, x, hx => by simp at hx; subst hx; simp
  | q' :: r, q, c, hs, h, x, hx => by
    have hlt := hs q q' (infix_cons2.mpr (Or.inl ⟨rfl, rfl⟩))
    have hz : ∀ y ∈ q' :: r, q'.z ≤ y.z := fun y hy => (head_le_last (fun a b hab => (hs.tail a b hab).le) y hy).1
    rw [pairs, contSlope, Bool.and_eq_true, decide_eq_true_eq] at h
    rcases List.mem_cons.mp hx with rfl | hx
    · simp
    · have h1 := under_slope r q' _ hs.tail h.2 x hx
      have h2 := slope_mul (x := (q, q')) hlt
      have h3 : slope (q, q') ≤ c := h.1
      have h4 := hz x hx
      change x.rmax ≤ q'.rmax + slope (q, q') * (x.z - q'.z) at h1
      simp only at h2
      nlinarith [mul_le_mul_of_nonneg_right h3 (show 0 ≤ x.z - q.z by linarith)]

/-- The line of the outer wall of a section. -/
noncomputable def wall (x : Plane × Plane) (z : ℝ) : ℝ := x.1.rmax + slope x * (z - x.1.z)

/-- The outer radii are below the lines of all sections. -/
theorem under_walls : ∀ (l : List Plane) (c : ℝ), Smooth l → contSlope c (pairs l) = true → ∀ x ∈ segs l, ∀ q ∈ l, q.rmax ≤ wall x q.z
  | [], _, _, _, x, h, _, _ => by simp [segs] at h
  | [_], _, _, _, x, h, _, _ => by simp [segs] at h
  | a :: b :: r, c, hs, h, x, hx, q, hq => by
    have hlt := hs a b (infix_cons2.mpr (Or.inl ⟨rfl, rfl⟩))
    rw [pairs, contSlope, Bool.and_eq_true, decide_eq_true_eq] at h
    have hsl := slope_mul (x := (a, b)) hlt
    simp only at hsl
    rw [segs, if_pos hlt] at hx
    rcases List.mem_cons.mp hx with rfl | hx'
    · rcases List.mem_cons.mp hq with rfl | hq
      · simp [wall]
      · have := under_slope r b _ hs.tail h.2 q hq
        change q.rmax ≤ b.rmax + slope (a, b) * (q.z - b.z) at this
        unfold wall
        simp only
        linarith
    · rcases List.mem_cons.mp hq with rfl | hq
      · have h1 := under_walls (b :: r) _ hs.tail h.2 x hx' b (by simp)
        have h2 : slope x ≤ slope (q, b) := slopes_le (b :: r) _ hs.tail h.2 x hx'
        unfold wall at h1 ⊢
        nlinarith [mul_le_mul_of_nonneg_right h2 (show 0 ≤ b.z - q.z by linarith)]
      · exact under_walls (b :: r) _ hs.tail h.2 x hx' q hq

theorem lerp_wall {x : Plane × Plane} (h : x.1.z < x.2.z) (z : ℝ) : lerp x.1.z x.1.rmax x.2.z x.2.rmax z = wall x z := by
  unfold lerp wall slope
  have : x.2.z - x.1.z ≠ 0 := by linarith
  field_simp

/-- C151: a polycone with different heights that is flagged as convex is convex. -/
theorem C151_convex_partial (hv : Valid s d ps) (ht : make s d ps = some t) (hs : Smooth ps) (h : detectConvexity t = true) :
    ∀ p q, Closed s d ps p → Closed s d ps q → ∀ u, 0 ≤ u → u ≤ 1 → Closed s d ps (between p q u) := by
  obtain ⟨n, ns, e, f1, f2, f3⟩ := make_flags hv ht
  obtain ⟨hdphi, -⟩ := make_angles hv ht
  obtain ⟨a, b, r, eps, -⟩ := hv.first
  have hred : reducedPlanes ps = pairs ps := by rw [eps] at hs ⊢; exact reducedPlanes_smooth hs
  rw [hred] at e
  have hmem : ∀ x ∈ ps, x ∈ n :: ns := fun x hx => e ▸ mem_pairs ps a b r eps x hx
  unfold detectConvexity at h
  rw [hdphi] at h
  by_cases hcp : t.convexPossible = true
  swap
  · rw [if_neg hcp] at h; simp at h
  rw [if_pos hcp] at h
  have hang : d ≤ π ∨ d = 2 * π := by
    by_contra hn
    rw [if_neg (fun hh => hn hh.2), if_neg hn] at h
    simp at h
  have hflag : t.equalRmax = true ∨ t.continuity = true := by
    by_cases h1 : t.equalRmax = true
    · exact Or.inl h1
    · right
      rw [if_neg (fun hh => h1 hh.1), if_pos hang] at h
      exact h
  have hmin : ∀ x ∈ ps, x.rmin = 0 := by
    intro x hx
    rw [f3, List.all_eq_true] at hcp
    have := hcp x (hmem x hx)
    simpa using this
  have hsupp : ∀ x ∈ segs ps, ∀ q ∈ ps, q.rmax ≤ wall x q.z := by
    rcases hflag with hq | hq
    · rw [f1] at hq
      have hall : ∀ x ∈ ps, x.rmax = n.rmax := by
        intro x hx
        rcases List.mem_cons.mp (hmem x hx) with rfl | hx
        · rfl
        · exact sameRmax_all _ _ hq x hx
      intro x hx q hq
      have hn := mem_segs.mp (show (x.1, x.2) ∈ segs ps from hx)
      unfold wall slope
      rw [hall q hq, hall x.1 (hn.1.subset (by simp)), hall x.2 (hn.1.subset (by simp))]
      simp
    · rw [f2, Bool.and_eq_true, ← e] at hq
      exact under_walls ps _ hs hq.2
  intro p q ⟨a1, b1, hn1, hp⟩ ⟨a2, b2, hn2, hq⟩ u h0 h1
  have key : ∀ {a b : Plane} {p : V3}, Next ps a b → ClosedPart s d a b p → ∀ x ∈ segs ps, rad p ≤ wall x p.z := by
    intro a b p hn hp x hx
    have g1 := hsupp x hx a (hn.1.subset (by simp))
    have g2 := hsupp x hx b (hn.1.subset (by simp))
    have hhi := hp.hi
    refine hhi.trans ?_
    have hlt := hn.2
    have w1 : 0 ≤ (b.z - p.z) / (b.z - a.z) := div_nonneg (by linarith [hp.z2]) (by linarith)
    have w2 : 0 ≤ (p.z - a.z) / (b.z - a.z) := div_nonneg (by linarith [hp.z1]) (by linarith)
    have hne : b.z - a.z ≠ 0 := by linarith
    have e1 : lerp a.z a.rmax b.z b.rmax p.z = a.rmax * ((b.z - p.z) / (b.z - a.z)) + b.rmax * ((p.z - a.z) / (b.z - a.z)) := by
      unfold lerp; field_simp; ring
    have e2 : wall x p.z = wall x a.z * ((b.z - p.z) / (b.z - a.z)) + wall x b.z * ((p.z - a.z) / (b.z - a.z)) := by
      unfold wall; field_simp; ring
    rw [e1, e2]
    exact add_le_add (mul_le_mul_of_nonneg_right g1 w1) (mul_le_mul_of_nonneg_right g2 w2)
  have hzm : (a1.z ≤ (between p q u).z ∧ (between p q u).z ≤ b2.z) ∨ (a2.z ≤ (between p q u).z ∧ (between p q u).z ≤ b1.z) := by
    have k1 := hp.z1; have k2 := hp.z2; have k3 := hq.z1; have k4 := hq.z2
    simp only [between]
    rcases le_total p.z q.z with hpq | hpq
    · left; constructor <;> nlinarith
    · right; constructor <;> nlinarith
  obtain ⟨i, hi, -, -, z1, z2⟩ := (C147_index hv ht (between p q u).z).2.2 (by
    rcases hzm with hz | hz
    · exact ⟨a1, hn1.1.subset (by simp), b2, hn2.1.subset (by simp), hz⟩
    · exact ⟨a2, hn2.1.subset (by simp), b1, hn1.1.subset (by simp), hz⟩)
  have hn := seg_next hi
  refine ⟨_, _, hn, z1, z2, ?_, ?_, ?_⟩
  · rw [hmin _ (hn.1.subset (by simp)), hmin _ (hn.1.subset (by simp))]
    have := rad_nonneg (between p q u)
    unfold lerp
    simpa using this
  · rw [lerp_wall (x := (segs ps)[i]) hn.2]
    refine (Cone.rad_between h0 h1).trans ?_
    have g1 := mul_le_mul_of_nonneg_left (key hn1 hp _ (List.getElem_mem hi)) (sub_nonneg.mpr h1)
    have g2 := mul_le_mul_of_nonneg_left (key hn2 hq _ (List.getElem_mem hi)) h0
    have e : wall (segs ps)[i] (between p q u).z = (1 - u) * wall (segs ps)[i] p.z + u * wall (segs ps)[i] q.z := by
      simp only [between, wall]; ring
    rw [e]
    linarith
  · have hR : 0 < max (rad p) (rad q) + 1 := by have := le_max_left (rad p) (rad q); linarith [rad_nonneg p]
    have hZ : 0 < max |p.z| |q.z| + 1 := by have := le_max_left |p.z| |q.z|; linarith [abs_nonneg p.z]
    have hdl : d ≤ 2 * π := by rcases hv.full with h | h <;> linarith
    have hT : (Tube.Par.mk 0 (max (rad p) (rad q) + 1) (max |p.z| |q.z| + 1) s d).Valid := ⟨le_refl _, hR, hZ, hv.pos, hdl⟩
    have := (C81_convex hT).mp (by
      unfold Tube.detectConvexity
      rw [decide_eq_true_eq, Tube.of_rmin (le_refl _), Tube.of_dphi]
      exact ⟨rfl, hang⟩) p q
        ⟨by have := le_max_left |p.z| |q.z|; simp only; linarith, rad_nonneg _, by have := le_max_left (rad p) (rad q); simp only; linarith, hp.phi⟩
        ⟨by have := le_max_right |p.z| |q.z|; simp only; linarith, rad_nonneg _, by have := le_max_right (rad p) (rad q); simp only; linarith, hq.phi⟩ u h0 h1
    exact this.phi

/-- Two cones, base to base. -/
noncomputable def spindle : List Plane := [⟨-1, 0, 1⟩, ⟨0, 0, 2⟩, ⟨1, 0, 1⟩]

theorem infix_spindle {a b : Plane} (h : [a, b] <:+: spindle) : (a = ⟨-1, 0, 1⟩ ∧ b = ⟨0, 0, 2⟩) ∨ (a = ⟨0, 0, 2⟩ ∧ b = ⟨1, 0, 1⟩) := by
  unfold spindle at h
  rw [infix_cons2, infix_cons2] at h
  rcases h with h | h | h
  · exact Or.inl h
  · exact Or.inr h
  · exact absurd h infix_one

theorem spindle_valid : Valid 0 (2 * π) spindle := by
  refine ⟨⟨_, _, _, rfl, by norm_num⟩, ?_, ?_, ?_, ?_, by positivity, Or.inr rfl⟩
  · intro a b h
    rcases infix_spindle h with ⟨rfl, rfl⟩ | ⟨rfl, rfl⟩ <;> right <;> norm_num
  · intro q hq; simp [spindle] at hq; rcases hq with rfl | rfl | rfl <;> norm_num
  · intro q hq; simp [spindle] at hq; rcases hq with rfl | rfl | rfl <;> norm_num
  · intro a b h
    rcases infix_spindle h.1 with ⟨rfl, rfl⟩ | ⟨rfl, rfl⟩ <;> norm_num

theorem spindle_smooth : Smooth spindle := by
  intro a b h
  rcases infix_spindle h with ⟨rfl, rfl⟩ | ⟨rfl, rfl⟩ <;> norm_num

example : ∃ t, make 0 (2 * π) spindle = some t ∧ detectConvexity t = true := by
  obtain ⟨t, ht⟩ := make_some spindle_valid
  obtain ⟨n, ns, e, f1, f2, f3⟩ := make_flags spindle_valid ht
  rw [spindle, reducedPlanes_smooth spindle_smooth] at e
  simp only [pairs, List.cons.injEq] at e
  obtain ⟨rfl, rfl⟩ := e
  have hi := kInfLength_large
  refine ⟨t, ht, ?_⟩
  unfold detectConvexity
  rw [(make_angles spindle_valid ht).1]
  have h1 : t.convexPossible = true := by rw [f3]; simp
  have h2 : t.continuity = true := by
    rw [f2]
    simp [contRmax, contSlope]
    norm_num
    linarith
  rw [if_pos h1]
  split
  · rfl
  · rw [if_pos (Or.inr rfl)]; exact h2

/-- A full cylinder with a bored one on top. -/
noncomputable def bottle : List Plane := [⟨0, 0, 1⟩, ⟨1, 0, 1⟩, ⟨1, 1 / 2, 1⟩, ⟨2, 1 / 2, 1⟩]

theorem infix_bottle {a b : Plane} (h : [a, b] <:+: bottle) :
    (a = ⟨0, 0, 1⟩ ∧ b = ⟨1, 0, 1⟩) ∨ (a = ⟨1, 0, 1⟩ ∧ b = ⟨1, 1 / 2, 1⟩) ∨ (a = ⟨1, 1 / 2, 1⟩ ∧ b = ⟨2, 1 / 2, 1⟩) := by
  unfold bottle at h
  rw [infix_cons2, infix_cons2, infix_cons2] at h
  rcases h with h | h | h | h
  · exact Or.inl h
  · exact Or.inr (Or.inl h)
  · exact Or.inr (Or.inr h)
  · exact absurd h infix_one

theorem bottle_valid : Valid 0 (2 * π) bottle := by
  refine ⟨⟨_, _, _, rfl, by norm_num⟩, ?_, ?_, ?_, ?_, by positivity, Or.inr rfl⟩
  · intro a b h
    rcases infix_bottle h with ⟨rfl, rfl⟩ | ⟨rfl, rfl⟩ | ⟨rfl, rfl⟩ <;> norm_num
  · intro q hq; simp [bottle] at hq; rcases hq with rfl | rfl | rfl | rfl <;> norm_num
  · intro q hq; simp [bottle] at hq; rcases hq with rfl | rfl | rfl | rfl <;> norm_num
  · intro a b h _
    rcases infix_bottle h.1 with ⟨rfl, rfl⟩ | ⟨rfl, rfl⟩ | ⟨rfl, rfl⟩ <;> norm_num

/-- C151 fails with two planes on one height: the check drops the section above, and its bore is not seen. -/
theorem C151_convex_counterexample : ∃ t, make 0 (2 * π) bottle = some t ∧ detectConvexity t = true ∧
    Closed 0 (2 * π) bottle ⟨3 / 4, 0, 3 / 2⟩ ∧ Closed 0 (2 * π) bottle ⟨-3 / 4, 0, 3 / 2⟩ ∧
    ¬ Closed 0 (2 * π) bottle (between ⟨3 / 4, 0, 3 / 2⟩ ⟨-3 / 4, 0, 3 / 2⟩ (1 / 2)) := by
  obtain ⟨t, ht⟩ := make_some bottle_valid
  obtain ⟨n, ns, e, f1, f2, f3⟩ := make_flags bottle_valid ht
  have hred : reducedPlanes bottle = [⟨0, 0, 1⟩, ⟨1, 0, 1⟩] := by
    unfold bottle
    rw [reducedPlanes, doubled, if_neg (by norm_num), doubled, if_pos (by norm_num), doubled, evened]
    simp [reduced]
  rw [hred] at e
  simp only [List.cons.injEq] at e
  obtain ⟨rfl, rfl⟩ := e
  have part : ∀ x : ℝ, |x| = 3 / 4 → Closed 0 (2 * π) bottle ⟨x, 0, 3 / 2⟩ := by
    intro x hx
    have hr : rad (⟨x, 0, 3 / 2⟩ : V3) = 3 / 4 := by
      unfold rad
      rw [show x ^ 2 + 0 ^ 2 = x ^ 2 by ring, sqrt_sq_eq_abs, hx]
    refine ⟨⟨1, 1 / 2, 1⟩, ⟨2, 1 / 2, 1⟩, ⟨⟨[⟨0, 0, 1⟩, ⟨1, 0, 1⟩], [], rfl⟩, by norm_num⟩, by norm_num, by norm_num, ?_, ?_, sector_full _ _ _⟩
    · rw [hr]; norm_num [lerp]
    · rw [hr]; norm_num [lerp]
  refine ⟨t, ht, ?_, part _ (by norm_num), part _ (by rw [abs_of_neg] <;> norm_num), ?_⟩
  · unfold detectConvexity
    rw [(make_angles bottle_valid ht).1]
    have h1 : t.convexPossible = true := by rw [f3]; simp
    have h2 : t.equalRmax = true := by rw [f1]; simp [sameRmax]
    rw [if_pos h1, if_pos ⟨h2, Or.inr rfl⟩]
  · rintro ⟨a, b, hn, hp⟩
    have e1 : between ⟨3 / 4, 0, 3 / 2⟩ ⟨-3 / 4, 0, 3 / 2⟩ (1 / 2) = (⟨0, 0, 3 / 2⟩ : V3) := by
      unfold between; norm_num
    rw [e1] at hp
    have hr : rad (⟨0, 0, 3 / 2⟩ : V3) = 0 := by unfold rad; norm_num
    have h1 := hp.lo
    have h2 := hp.z2
    rw [hr] at h1
    rcases infix_bottle hn.1 with ⟨rfl, rfl⟩ | ⟨rfl, rfl⟩ | ⟨rfl, rfl⟩
    · norm_num at h2
    · norm_num at h2
    · norm_num [lerp] at h1

/-! ## Extent -/

theorem foldl_max_mem {α : Type} (f : α → ℝ) : ∀ (l : List α) (m : ℝ), (l.foldl (fun m x => max m (f x)) m = m ∨ ∃ x ∈ l, l.foldl (fun m x => max m (f x)) m = f x) ∧
    m ≤ l.foldl (fun m x => max m (f x)) m ∧ ∀ x ∈ l, f x ≤ l.foldl (fun m x => max m (f x)) m
  | [], m => ⟨Or.inl rfl, le_refl _, by simp⟩
  | y :: l, m => by
    obtain ⟨h1, h2, h3⟩ := foldl_max_mem f l (max m (f y))
    rw [List.foldl_cons]
    refine ⟨?_, (le_max_left _ _).trans h2, ?_⟩
    · rcases h1 with h1 | ⟨x, hx, h1⟩
      · rcases max_choice m (f y) with h | h
        · left; rw [h1, h]
        · right; exact ⟨y, by simp, by rw [h1, h]⟩
      · right; exact ⟨x, by simp [hx], h1⟩
    · intro x hx
      rcases List.mem_cons.mp hx with rfl | hx
      · exact (le_max_right _ _).trans h2
      · exact h3 x hx

theorem foldl_min_mem {α : Type} (f : α → ℝ) : ∀ (l : List α) (m : ℝ), (l.foldl (fun m x => min m (f x)) m = m ∨ ∃ x ∈ l, l.foldl (fun m x => min m (f x)) m = f x) ∧
    l.foldl (fun m x => min m (f x)) m ≤ m ∧ ∀ x ∈ l, l.foldl (fun m x => min m (f x)) m ≤ f x
  | [], m => ⟨Or.inl rfl, le_refl _, by simp⟩
  | y :: l, m => by
    obtain ⟨h1, h2, h3⟩ := foldl_min_mem f l (min m (f y))
    rw [List.foldl_cons]
    refine ⟨?_, h2.trans (min_le_left _ _), ?_⟩
    · rcases h1 with h1 | ⟨x, hx, h1⟩
      · rcases min_choice m (f y) with h | h
        · left; rw [h1, h]
        · right; exact ⟨y, by simp, by rw [h1, h]⟩
      · right; exact ⟨x, by simp [hx], h1⟩
    · intro x hx
      rcases List.mem_cons.mp hx with rfl | hx
      · exact h2.trans (min_le_right _ _)
      · exact h3 x hx

theorem least_of {T P : Set V3} {g : V3 → ℝ} {v : ℝ} (hT : IsLeast (g '' T) v) (h1 : ∀ p ∈ P, ∃ w ∈ T, g w = g p)
    (h2 : ∀ w ∈ T, ∃ p ∈ P, g p ≤ g w) : IsLeast (g '' P) v := by
  obtain ⟨⟨w, hw, e⟩, hl⟩ := hT
  have hlow : ∀ p ∈ P, v ≤ g p := by
    intro p hp
    obtain ⟨w, hw, e⟩ := h1 p hp
    exact e ▸ hl ⟨w, hw, rfl⟩
  obtain ⟨p, hp, hle⟩ := h2 w hw
  refine ⟨⟨p, hp, le_antisymm (e ▸ hle) (hlow p hp)⟩, ?_⟩
  rintro _ ⟨p, hp, rfl⟩
  exact hlow p hp

theorem greatest_of {T P : Set V3} {g : V3 → ℝ} {v : ℝ} (hT : IsGreatest (g '' T) v) (h1 : ∀ p ∈ P, ∃ w ∈ T, g w = g p)
    (h2 : ∀ w ∈ T, ∃ p ∈ P, g w ≤ g p) : IsGreatest (g '' P) v := by
  obtain ⟨⟨w, hw, e⟩, hl⟩ := hT
  have hup : ∀ p ∈ P, g p ≤ v := by
    intro p hp
    obtain ⟨w, hw, e⟩ := h1 p hp
    exact e ▸ hl ⟨w, hw, rfl⟩
  obtain ⟨p, hp, hle⟩ := h2 w hw
  refine ⟨⟨p, hp, le_antisymm (hup p hp) (e ▸ hle)⟩, ?_⟩
  rintro _ ⟨p, hp, rfl⟩
  exact hup p hp

/-- C151: `Extent` is the smallest box around the polycone. -/
theorem C151_extent (hv : Valid s d ps) (ht : make s d ps = some t) (hfin : ∀ q ∈ ps, q.rmax < kInfLength) :
    IsLeast (V3.x '' {p | Closed s d ps p}) (extent t).1.x ∧ IsGreatest (V3.x '' {p | Closed s d ps p}) (extent t).2.x ∧
    IsLeast (V3.y '' {p | Closed s d ps p}) (extent t).1.y ∧ IsGreatest (V3.y '' {p | Closed s d ps p}) (extent t).2.y ∧
    IsLeast (V3.z '' {p | Closed s d ps p}) (extent t).1.z ∧ IsGreatest (V3.z '' {p | Closed s d ps p}) (extent t).2.z := by
  have hr := make_repr hv ht
  have hst := hr.steps hv
  obtain ⟨hdphi, hsec⟩ := make_angles hv ht
  have hl := hr.len
  have hne := hst.ne
  -- the radii
  obtain ⟨M, hM⟩ : ∃ M, M = t.secs.foldl (fun m s => max m (max s.solid.omax1 s.solid.omax2)) 0 := ⟨_, rfl⟩
  obtain ⟨m, hm⟩ : ∃ m, m = t.secs.foldl (fun m s => min m (min s.solid.omin1 s.solid.omin2)) kInfLength := ⟨_, rfl⟩
  have mem1 : ∀ x ∈ segs ps, x.1 ∈ ps := fun x hx => (mem_segs.mp (show (x.1, x.2) ∈ segs ps from hx)).1.subset (by simp)
  have mem2 : ∀ x ∈ segs ps, x.2 ∈ ps := fun x hx => (mem_segs.mp (show (x.1, x.2) ∈ segs ps from hx)).1.subset (by simp)
  have hsecs : ∀ y ∈ t.secs, ∃ x ∈ segs ps, y.solid.omax1 = x.1.rmax ∧ y.solid.omax2 = x.2.rmax ∧ y.solid.omin1 = x.1.rmin ∧ y.solid.omin2 = x.2.rmin := by
    intro y hy
    rw [hr.secs, List.mem_map] at hy
    obtain ⟨x, hx, rfl⟩ := hy
    have hcv := par_valid hv (mem_segs.mp (show (x.1, x.2) ∈ segs ps from hx))
    exact ⟨x, hx, Cone.of_omax1 hcv, Cone.of_omax2 hcv, Cone.of_omin1 hcv, Cone.of_omin2 hcv⟩
  have hsecs' : ∀ x ∈ segs ps, ∃ y ∈ t.secs, y.solid.omax1 = x.1.rmax ∧ y.solid.omax2 = x.2.rmax ∧ y.solid.omin1 = x.1.rmin ∧ y.solid.omin2 = x.2.rmin := by
    intro x hx
    have hcv := par_valid hv (mem_segs.mp (show (x.1, x.2) ∈ segs ps from hx))
    exact ⟨_, by rw [hr.secs]; exact List.mem_map_of_mem hx, Cone.of_omax1 hcv, Cone.of_omax2 hcv, Cone.of_omin1 hcv, Cone.of_omin2 hcv⟩
  obtain ⟨k1, k2, k3⟩ := foldl_max_mem (fun s : Section => max s.solid.omax1 s.solid.omax2) t.secs 0
  obtain ⟨j1, j2, j3⟩ := foldl_min_mem (fun s : Section => min s.solid.omin1 s.solid.omin2) t.secs kInfLength
  rw [← hM] at k1 k2 k3
  rw [← hm] at j1 j2 j3
  have hMge : ∀ x ∈ segs ps, x.1.rmax ≤ M ∧ x.2.rmax ≤ M := by
    intro x hx
    obtain ⟨y, hy, e1, e2, -⟩ := hsecs' x hx
    have := k3 y hy
    rw [e1, e2] at this
    exact ⟨(le_max_left _ _).trans this, (le_max_right _ _).trans this⟩
  have hmle : ∀ x ∈ segs ps, m ≤ x.1.rmin ∧ m ≤ x.2.rmin := by
    intro x hx
    obtain ⟨y, hy, -, -, e1, e2⟩ := hsecs' x hx
    have := j3 y hy
    rw [e1, e2] at this
    exact ⟨this.trans (min_le_left _ _), this.trans (min_le_right _ _)⟩
  obtain ⟨x0, hx0⟩ : ∃ x, x ∈ segs ps := ⟨(segs ps)[0]'(by omega), List.getElem_mem _⟩
  have hn0 := mem_segs.mp (show (x0.1, x0.2) ∈ segs ps from hx0)
  have hmM : m < M := by
    have a1 := hMge x0 hx0
    have a2 := hmle x0 hx0
    have b1 := hv.r _ (mem1 x0 hx0)
    have b2 := hv.r _ (mem2 x0 hx0)
    rcases lt_trichotomy x0.1.rmax x0.2.rmax with h | h | h
    · linarith
    · have := (hv.cyl _ _ hn0 h).1; linarith
    · linarith
  have hm0 : 0 ≤ m := by
    rcases j1 with h | ⟨y, hy, h⟩
    · rw [h]; exact kInfLength_pos.le
    · obtain ⟨x, hx, -, -, e1, e2⟩ := hsecs y hy
      rw [h]
      simp only [e1, e2]
      exact le_min (hv.rmin _ (mem1 x hx)) (hv.rmin _ (mem2 x hx))
  -- points at the radii
  have hat1 : ∀ x ∈ segs ps, ∀ ρ θ, x.1.rmin ≤ ρ → ρ ≤ x.1.rmax → 0 ≤ θ → θ ≤ d → Closed s d ps ⟨ρ * cos (s + θ), ρ * sin (s + θ), x.1.z⟩ := by
    intro x hx ρ θ g1 g2 g3 g4
    have hn := mem_segs.mp (show (x.1, x.2) ∈ segs ps from hx)
    have hρ := (hv.rmin _ (mem1 x hx)).trans g1
    have hrad : rad (⟨ρ * cos (s + θ), ρ * sin (s + θ), x.1.z⟩ : V3) = ρ := Cone.rad_polar hρ
    have hle : ∀ r1 r2, lerp x.1.z r1 x.2.z r2 x.1.z = r1 := by intro r1 r2; unfold lerp; simp
    exact ⟨_, _, hn, le_refl _, hn.2.le, by rw [hrad]; simp only [hle]; exact g1, by rw [hrad]; simp only [hle]; exact g2, ρ, θ, hρ, g3, g4, rfl, rfl⟩
  have hat2 : ∀ x ∈ segs ps, ∀ ρ θ, x.2.rmin ≤ ρ → ρ ≤ x.2.rmax → 0 ≤ θ → θ ≤ d → Closed s d ps ⟨ρ * cos (s + θ), ρ * sin (s + θ), x.2.z⟩ := by
    intro x hx ρ θ g1 g2 g3 g4
    have hn := mem_segs.mp (show (x.1, x.2) ∈ segs ps from hx)
    have hρ := (hv.rmin _ (mem2 x hx)).trans g1
    have hrad : rad (⟨ρ * cos (s + θ), ρ * sin (s + θ), x.2.z⟩ : V3) = ρ := Cone.rad_polar hρ
    have hne : x.2.z - x.1.z ≠ 0 := by have := hn.2; linarith
    have hle : ∀ r1 r2, lerp x.1.z r1 x.2.z r2 x.2.z = r2 := by intro r1 r2; unfold lerp; field_simp; ring
    exact ⟨_, _, hn, hn.2.le, le_refl _, by rw [hrad]; simp only [hle]; exact g1, by rw [hrad]; simp only [hle]; exact g2, ρ, θ, hρ, g3, g4, rfl, rfl⟩
  have atM : ∀ θ, 0 ≤ θ → θ ≤ d → ∃ z, Closed s d ps ⟨M * cos (s + θ), M * sin (s + θ), z⟩ := by
    intro θ g3 g4
    rcases k1 with h | ⟨y, hy, h⟩
    · exfalso; linarith
    · obtain ⟨x, hx, e1, e2, -⟩ := hsecs y hy
      simp only [e1, e2] at h
      rcases max_choice x.1.rmax x.2.rmax with h' | h'
      · exact ⟨_, hat1 x hx M θ (by rw [h, h']; exact hv.r _ (mem1 x hx)) (by rw [h, h']) g3 g4⟩
      · exact ⟨_, hat2 x hx M θ (by rw [h, h']; exact hv.r _ (mem2 x hx)) (by rw [h, h']) g3 g4⟩
  have atm : ∀ θ, 0 ≤ θ → θ ≤ d → ∃ z, Closed s d ps ⟨m * cos (s + θ), m * sin (s + θ), z⟩ := by
    intro θ g3 g4
    rcases j1 with h | ⟨y, hy, h⟩
    · exfalso
      have := (hmle x0 hx0).1.trans (hv.r _ (mem1 x0 hx0))
      linarith [hfin _ (mem1 x0 hx0)]
    · obtain ⟨x, hx, -, -, e1, e2⟩ := hsecs y hy
      simp only [e1, e2] at h
      rcases min_choice x.1.rmin x.2.rmin with h' | h'
      · exact ⟨_, hat1 x hx m θ (by rw [h, h']) (by rw [h, h']; exact hv.r _ (mem1 x hx)) g3 g4⟩
      · exact ⟨_, hat2 x hx m θ (by rw [h, h']) (by rw [h, h']; exact hv.r _ (mem2 x hx)) g3 g4⟩
  -- the cone around
  have hTv : (Cone.Par.mk m M m M 1 t.sphi t.dphi).Valid :=
    ⟨hm0, hm0, hmM.le, hmM.le, fun _ => ⟨hmM, hmM⟩, by norm_num, by rw [hdphi]; exact hv.pos, by rw [hdphi]; exact hv.full⟩
  obtain ⟨c1, c2, c3, c4, -, -⟩ := Cone.C145_extent hTv
  have e0 : (Cone.of ⟨m, M, m, M, 1, t.sphi, t.dphi⟩) = Cone.make m M m M 1 t.sphi t.dphi := rfl
  rw [e0] at c1 c2 c3 c4
  have hline : ∀ r z, Cone.line r r 1 z = r := fun r z => Cone.line_const _ _ _ (by norm_num)
  have toT : ∀ p ∈ {p | Closed s d ps p}, (⟨p.x, p.y, 0⟩ : V3) ∈ {p | (Cone.Par.mk m M m M 1 t.sphi t.dphi).Closed p} := by
    rintro p ⟨a, b, hn, hp⟩
    have hx : (a, b) ∈ segs ps := mem_segs.mpr hn
    have g1 := hMge _ hx
    have g2 := hmle _ hx
    have hlt := hn.2
    have w1 : 0 ≤ (b.z - p.z) / (b.z - a.z) := div_nonneg (by linarith [hp.z2]) (by linarith)
    have w2 : 0 ≤ (p.z - a.z) / (b.z - a.z) := div_nonneg (by linarith [hp.z1]) (by linarith)
    have hne : b.z - a.z ≠ 0 := by linarith
    have ws : (b.z - p.z) / (b.z - a.z) + (p.z - a.z) / (b.z - a.z) = 1 := by field_simp; ring
    have el : ∀ r1 r2, lerp a.z r1 b.z r2 p.z = r1 * ((b.z - p.z) / (b.z - a.z)) + r2 * ((p.z - a.z) / (b.z - a.z)) := by
      intro r1 r2; unfold lerp; field_simp; ring
    have hlo := hp.lo
    have hhi := hp.hi
    rw [el] at hlo hhi
    generalize (b.z - p.z) / (b.z - a.z) = u at *
    generalize (p.z - a.z) / (b.z - a.z) = v at *
    refine ⟨by simp, ?_, ?_, ?_⟩
    · simp only [Cone.Par.inner, hline]
      refine le_trans ?_ hlo
      have := mul_le_mul_of_nonneg_right g2.1 w1
      have := mul_le_mul_of_nonneg_right g2.2 w2
      have e : m = m * u + m * v := by rw [← mul_add, ws, mul_one]
      linarith
    · simp only [Cone.Par.outer, hline]
      refine le_trans hhi ?_
      have := mul_le_mul_of_nonneg_right g1.1 w1
      have := mul_le_mul_of_nonneg_right g1.2 w2
      have e : M = M * u + M * v := by rw [← mul_add, ws, mul_one]
      linarith
    · exact (hsec _ _).mpr hp.phi
  have fromT : ∀ w ∈ {p | (Cone.Par.mk m M m M 1 t.sphi t.dphi).Closed p}, ∃ r θ, m ≤ r ∧ r ≤ M ∧ 0 ≤ θ ∧ θ ≤ d ∧
      w.x = r * cos (s + θ) ∧ w.y = r * sin (s + θ) := by
    intro w hw
    obtain ⟨r, θ, g1, g2, g3, g4, g5⟩ := (hsec _ _).mp hw.phi
    have hwr : rad w = r := by
      have := Cone.rad_polar (z := w.z) (t := s + θ) g1
      rw [← g4, ← g5] at this
      exact this
    have h1 := hw.lo
    have h2 := hw.hi
    simp only [Cone.Par.inner, Cone.Par.outer, hline] at h1 h2
    exact ⟨r, θ, hwr ▸ h1, hwr ▸ h2, g2, g3, g4, g5⟩
  have low : ∀ {r c : ℝ}, m ≤ r → r ≤ M → m * c ≤ r * c ∨ M * c ≤ r * c := by
    intro r c h1 h2
    rcases le_total 0 c with h | h
    · exact Or.inl (mul_le_mul_of_nonneg_right h1 h)
    · exact Or.inr (mul_le_mul_of_nonpos_right h2 h)
  have high : ∀ {r c : ℝ}, m ≤ r → r ≤ M → r * c ≤ m * c ∨ r * c ≤ M * c := by
    intro r c h1 h2
    rcases le_total 0 c with h | h
    · exact Or.inr (mul_le_mul_of_nonneg_right h2 h)
    · exact Or.inl (mul_le_mul_of_nonpos_right h1 h)
  have hex : (extent t).1.x = (Cone.extent (Cone.make m M m M 1 t.sphi t.dphi)).1.x ∧ (extent t).2.x = (Cone.extent (Cone.make m M m M 1 t.sphi t.dphi)).2.x ∧
      (extent t).1.y = (Cone.extent (Cone.make m M m M 1 t.sphi t.dphi)).1.y ∧ (extent t).2.y = (Cone.extent (Cone.make m M m M 1 t.sphi t.dphi)).2.y := by
    unfold extent
    simp only [← hM, ← hm, and_self]
  have hz0 := hst.le (i := 0) (j := t.secs.length) (by omega) (le_refl _)
  have hez : (extent t).1.z = zAt t 0 ∧ (extent t).2.z = zAt t t.secs.length := by
    unfold extent
    simp only
    rw [if_neg (not_lt.mpr hz0), if_neg (not_lt.mpr hz0)]
    exact ⟨rfl, rfl⟩
  rw [hex.1, hex.2.1, hex.2.2.1, hex.2.2.2, hez.1, hez.2]
  have hheights : ∀ p, Closed s d ps p → zAt t 0 ≤ p.z ∧ p.z ≤ zAt t t.secs.length := by
    rintro p ⟨a, b, hn, hp⟩
    obtain ⟨j, hj, ej⟩ := List.getElem_of_mem (mem_segs.mpr hn)
    have q1 := hr.z1 hv hj
    have q2 := hr.z2 hv hj
    rw [ej] at q1 q2
    have g1 := hst.le (i := 0) (j := j) (by omega) (by omega)
    have g2 := hst.le (i := j + 1) (j := t.secs.length) (by omega) (le_refl _)
    have := hp.z1; have := hp.z2
    simp only at q1 q2
    constructor <;> linarith
  refine ⟨least_of c1 (fun p hp => ⟨_, toT p hp, rfl⟩) ?_, greatest_of c2 (fun p hp => ⟨_, toT p hp, rfl⟩) ?_,
    least_of c3 (fun p hp => ⟨_, toT p hp, rfl⟩) ?_, greatest_of c4 (fun p hp => ⟨_, toT p hp, rfl⟩) ?_, ?_, ?_⟩
  · intro w hw
    obtain ⟨r, θ, h1, h2, h3, h4, h5, h6⟩ := fromT w hw
    rw [h5]
    rcases low (c := cos (s + θ)) h1 h2 with h | h
    · obtain ⟨z, hz⟩ := atm θ h3 h4; exact ⟨_, hz, h⟩
    · obtain ⟨z, hz⟩ := atM θ h3 h4; exact ⟨_, hz, h⟩
  · intro w hw
    obtain ⟨r, θ, h1, h2, h3, h4, h5, h6⟩ := fromT w hw
    rw [h5]
    rcases high (c := cos (s + θ)) h1 h2 with h | h
    · obtain ⟨z, hz⟩ := atm θ h3 h4; exact ⟨_, hz, h⟩
    · obtain ⟨z, hz⟩ := atM θ h3 h4; exact ⟨_, hz, h⟩
  · intro w hw
    obtain ⟨r, θ, h1, h2, h3, h4, h5, h6⟩ := fromT w hw
    rw [h6]
    rcases low (c := sin (s + θ)) h1 h2 with h | h
    · obtain ⟨z, hz⟩ := atm θ h3 h4; exact ⟨_, hz, h⟩
    · obtain ⟨z, hz⟩ := atM θ h3 h4; exact ⟨_, hz, h⟩
  · intro w hw
    obtain ⟨r, θ, h1, h2, h3, h4, h5, h6⟩ := fromT w hw
    rw [h6]
    rcases high (c := sin (s + θ)) h1 h2 with h | h
    · obtain ⟨z, hz⟩ := atm θ h3 h4; exact ⟨_, hz, h⟩
    · obtain ⟨z, hz⟩ := atM θ h3 h4; exact ⟨_, hz, h⟩
  · refine ⟨⟨_, hat1 (segs ps)[0] (List.getElem_mem _) _ 0 (le_refl _) (hv.r _ (mem1 _ (List.getElem_mem _))) (le_refl _) hv.pos.le, ?_⟩, ?_⟩
    · exact (hr.z1 hv (by omega)).symm
    · rintro _ ⟨p, hp, rfl⟩; exact (hheights p hp).1
  · refine ⟨⟨_, hat2 ((segs ps)[t.secs.length - 1]'(by omega)) (List.getElem_mem _) _ 0 (le_refl _) (hv.r _ (mem2 _ (List.getElem_mem _))) (le_refl _) hv.pos.le, ?_⟩, ?_⟩
    · have := hr.z2 hv (i := t.secs.length - 1) (by omega)
      rw [show t.secs.length - 1 + 1 = t.secs.length by omega] at this
      exact this.symm
    · rintro _ ⟨p, hp, rfl⟩; exact (hheights p hp).2

example : ∀ q ∈ spindle, q.rmax < kInfLength := by
  intro q hq
  have := kInfLength_large
  simp [spindle] at hq
  rcases hq with rfl | rfl | rfl <;> norm_num <;> linarith

end Polycone
end VecGeom

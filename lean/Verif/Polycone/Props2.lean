import Verif.Polycone.Props

/-!
# Polycones: rebuilt, reset, thin and repeated planes; Inside
-/

namespace VecGeom
namespace Polycone

open Real Tube

variable {s d : ℝ} {ps : List Plane} {t : Struct} {ty : Cone.CType}

/-! ## Reconstructed planes -/

/-- The planes of the pairs, a lower plane only where it differs from the plane before. -/
theorem segs_cons_same {b : Plane} {l : List Plane} (h : ∀ c ∈ l.head?, b.z = c.z) : segs (b :: l) = segs l := by
  cases l with
  | nil => simp [segs]
  | cons c r => rw [segs, if_neg]; have := h c (by simp); linarith

/-- The planes that come out of sections, in terms of the planes that went in. -/
theorem reconstruct_segs (hd : 0 < d) (hd' : d < 2 * π - 1 / 10 ^ 9 ∨ d = 2 * π) : ∀ (L : List (Plane × Plane)),
    (∀ x ∈ L, (par s d x).Valid) → L.IsChain (fun x y => x.2.z = y.1.z) →
    (segs (reconstruct true (L.map fun x => mkSection s d x.1.z x.1 x.2)) = L.map (fun x => (x.1.fix, x.2.fix)) ∧
      ∀ c ∈ (reconstruct true (L.map fun x => mkSection s d x.1.z x.1 x.2)).head?, ∀ x ∈ L.head?, c = x.1.fix) ∧
    ∀ x ∈ L.head?, segs (x.1.fix :: reconstruct false (L.map fun x => mkSection s d x.1.z x.1 x.2)) = L.map (fun x => (x.1.fix, x.2.fix))
  | [], _, _ => by simp [reconstruct, segs]
  | x :: L, hv, hc => by
    have hx := hv x (by simp)
    have hz : x.1.z < x.2.z := by have := hx.z; simp only [par] at this; linarith
    obtain ⟨⟨i1, i1'⟩, i2⟩ := reconstruct_segs hd hd' L (fun y hy => hv y (by simp [hy])) hc.of_cons
    have hm : mkSection s d x.1.z x.1 x.2 = ⟨(x.1.z + x.2.z) / 2, Cone.of (par s d x)⟩ := by
      unfold mkSection Cone.of par; congr 1; ring
    have hfix := par_fix (s := s) (d := d) x
    have e1 : (⟨-(Cone.of (par s d x)).dz + (x.1.z + x.2.z) / 2, (Cone.of (par s d x)).rmin1, (Cone.of (par s d x)).rmax1⟩ : Plane) = x.1.fix := by
      rw [Cone.of_dz hx, Cone.of_rmin1 hx, Cone.of_rmax1 hx, hfix]
      unfold par Plane.fix
      congr 1; simp only; ring
    have e2 : (⟨(Cone.of (par s d x)).dz + (x.1.z + x.2.z) / 2, (Cone.of (par s d x)).rmin2, (Cone.of (par s d x)).rmax2⟩ : Plane) = x.2.fix := by
      rw [Cone.of_dz hx, Cone.of_rmin2 hx, Cone.of_rmax2 hx, hfix]
      unfold par Plane.fix
      congr 1; simp only; ring
    -- what follows the upper plane
    have tail : segs (x.2.fix :: reconstruct (match (L.map fun x => mkSection s d x.1.z x.1 x.2) with
          | [] => false
          | s' :: _ => open Classical in decide ((Cone.of (par s d x)).rmin2 ≠ s'.solid.rmin1 ∨ (Cone.of (par s d x)).rmax2 ≠ s'.solid.rmax1))
          (L.map fun x => mkSection s d x.1.z x.1 x.2)) = L.map (fun x => (x.1.fix, x.2.fix)) := by
      cases L with
      | nil => simp [reconstruct, segs]
      | cons y L =>
        have hy := hv y (by simp)
        have hxy : x.2.z = y.1.z := by
          have := List.isChain_cons_cons.mp hc
          exact this.1
        have hmy : mkSection s d y.1.z y.1 y.2 = ⟨(y.1.z + y.2.z) / 2, Cone.of (par s d y)⟩ := by
          unfold mkSection Cone.of par; congr 1; ring
        simp only [List.map_cons] at i1 i1' i2 ⊢
        rw [hmy] at i1 i1' i2 ⊢
        simp only
        by_cases hne : (Cone.of (par s d x)).rmin2 ≠ (Cone.of (par s d y)).rmin1 ∨ (Cone.of (par s d x)).rmax2 ≠ (Cone.of (par s d y)).rmax1
        · simp only [hne, decide_true]
          rw [segs_cons_same]
          · exact i1
          · intro c hc'
            rw [i1' c hc' y (by simp)]
            exact hxy
        · simp only [hne, decide_false]
          push Not at hne
          have hh : x.2.fix = y.1.fix := by
            rw [Cone.of_rmin2 hx, Cone.of_rmin1 hy, Cone.of_rmax2 hx, Cone.of_rmax1 hy, par_fix, par_fix] at hne
            have a1 : x.2.fix.rmin = y.1.fix.rmin := hne.1
            have a2 : x.2.fix.rmax = y.1.fix.rmax := hne.2
            have a3 : x.2.fix.z = y.1.fix.z := hxy
            rcases hA : x.2.fix with ⟨u, v, w⟩
            rcases hB : y.1.fix with ⟨u', v', w'⟩
            rw [hA, hB] at a1 a2 a3
            simp only at a1 a2 a3
            rw [a1, a2, a3]
          rw [hh]
          exact i2 y (by simp)
    have hlt : x.1.fix.z < x.2.fix.z := hz
    refine ⟨⟨?_, ?_⟩, ?_⟩
    · simp only [List.map_cons, hm, reconstruct, if_true, e1, e2, List.singleton_append]
      rw [segs, if_pos hlt]
      congr 1
    · intro c hc' y hy
      simp only [List.map_cons, hm, reconstruct, if_true, e1, List.singleton_append, List.head?_cons, Option.mem_def, Option.some.injEq] at hc' hy
      rw [← hc', ← hy]
    · intro y hy
      simp only [List.head?_cons, Option.mem_def, Option.some.injEq] at hy
      subst hy
      simp only [List.map_cons, hm, reconstruct, e2, List.nil_append, Bool.false_eq_true, if_false]
      rw [segs, if_pos hlt]
      congr 1

theorem segs_isChain {ps : List Plane} (hm : ∀ x y, [x, y] <:+: ps → x.z ≤ y.z) : (segs ps).IsChain (fun x y => x.2.z = y.1.z) := by
  have aux : ∀ (r : List Plane) (a : Plane), (∀ x y, [x, y] <:+: a :: r → x.z ≤ y.z) →
      (segs (a :: r)).IsChain (fun x y => x.2.z = y.1.z) ∧ ∀ x ∈ (segs (a :: r)).head?, a.z = x.1.z := by
    intro r
    induction r with
    | nil => intro a _; simp [segs]
    | cons b r ih =>
      intro a hm
      have hab := hm a b (infix_cons2.mpr (Or.inl ⟨rfl, rfl⟩))
      obtain ⟨i1, i2⟩ := ih b (fun x y h => hm x y (infix_cons2.mpr (Or.inr h)))
      rw [segs]
      split
      · refine ⟨?_, by simp⟩
        rw [List.isChain_cons]
        exact ⟨fun y hy => i2 y hy, i1⟩
      · refine ⟨i1, fun x hx => ?_⟩
        rw [← i2 x hx]; linarith
  cases ps with
  | nil => simp [segs]
  | cons a r => exact (aux r a hm).1

/-- C147: the planes that are given back describe the same polycone, with the outer radii that the object works with. -/
theorem C147_planes (hv : Valid s d ps) (ht : make s d ps = some t) (p : V3) :
    (Body s d (planes t) p ↔ Body s d (ps.map Plane.fix) p) ∧ (Closed s d (planes t) p ↔ Closed s d (ps.map Plane.fix) p) := by
  have hr := make_repr hv ht
  have h := (reconstruct_segs hv.pos hv.full (segs ps) (fun x hx => par_valid hv (mem_segs.mp hx)) (segs_isChain hv.mono)).1.1
  rw [← hr.secs, ← segs_map _ fix_z] at h
  have hn : ∀ a b, Next (planes t) a b ↔ Next (ps.map Plane.fix) a b := fun a b => by rw [← mem_segs, ← mem_segs, planes, h]
  unfold Body Closed
  simp only [hn, and_self]

example : ∃ t, make 0 (2 * π) stepped = some t := make_some stepped_valid

/-! ## Reset -/

/-- C147 fails after `Reset`: the sections are there twice. -/
theorem C147_reset_counterexample (hv : Valid s d ps) (ht : make s d ps = some t) :
    ∃ t', reset t = some t' ∧ t'.secs = t.secs ++ t.secs ∧ t'.zs = t.zs ++ t.zs ∧ 0 < t.secs.length := by
  obtain ⟨q, q', r, e, hu, hlt⟩ := hv.shape
  obtain ⟨l, hl⟩ := reducedPlanes_ne (r := r) hlt
  have hr := make_repr hv ht
  have hg : ∀ x y, [x, y] <:+: q :: (q' :: r) → x.z = y.z ∨ x.z + kTolerance < y.z := by
    intro x y h
    rcases hv.gap x y (by rw [e]; exact h) with h | h
    · exact Or.inl h
    · right; have := kTol2; have := kTolerance_pos; linarith
  have hf := fold_push (s := s) (d := d) hg t.zs t.secs
  have hup : (¬ q'.z < q.z) = True := eq_true (by linarith)
  have ho : t.orig = ps ∧ t.origS = s ∧ t.origD = d := by
    unfold make init at ht
    rw [hu, e] at ht
    simp only [hl, Option.some.injEq] at ht
    rw [← ht]
    exact ⟨e.symm, rfl, rfl⟩
  unfold reset init
  rw [ho.1, ho.2.1, ho.2.2, hu, e]
  simp only [hl, hup, hf, Option.some.injEq]
  refine ⟨_, rfl, ?_, ?_, (hr.steps hv).ne⟩
  · simp only [hr.secs, e]
  · simp only [hr.zs, e]
    simp

example : ∃ t, make 0 (2 * π) stepped = some t := make_some stepped_valid

/-! ## Thin parts and repeated planes -/

/-- A polycone with a part that is thicker than the tolerance, but not twice as thick. -/
noncomputable def thin : List Plane := [⟨0, 0, 1⟩, ⟨3 / 2 / 10 ^ 9, 0, 1⟩, ⟨1, 0, 1⟩]

/-- C147 fails for thin parts: a point far away is contained. -/
theorem C147_thin_counterexample : ∃ t, make 0 (2 * π) thin = some t ∧ t.secs.length = 2 ∧
    contains Cone.universal t ⟨1000, 0, 3 / 4 / 10 ^ 9⟩ = true ∧ ¬ Body 0 (2 * π) thin ⟨1000, 0, 3 / 4 / 10 ^ 9⟩ := by
  have hseg : segs thin = [(⟨0, 0, 1⟩, ⟨3 / 2 / 10 ^ 9, 0, 1⟩), (⟨3 / 2 / 10 ^ 9, 0, 1⟩, ⟨1, 0, 1⟩)] := by
    unfold thin
    rw [segs, if_pos (by norm_num), segs, if_pos (by norm_num), segs]
    simp
  have hu : upward thin = thin := by
    unfold upward thin
    rw [if_neg]
    simp
  obtain ⟨l, hl⟩ := reducedPlanes_ne (a := ⟨0, 0, 1⟩) (b := ⟨3 / 2 / 10 ^ 9, 0, 1⟩) (r := [⟨1, 0, 1⟩]) (by norm_num)
  have hg : ∀ x y : Plane, [x, y] <:+: ⟨0, 0, 1⟩ :: [⟨3 / 2 / 10 ^ 9, 0, 1⟩, ⟨1, 0, 1⟩] → x.z = y.z ∨ x.z + kTolerance < y.z := by
    intro x y h
    rw [infix_cons2, infix_cons2] at h
    rcases h with ⟨rfl, rfl⟩ | ⟨rfl, rfl⟩ | h
    · right; norm_num [kTolerance]
    · right; norm_num [kTolerance]
    · exact absurd h infix_one
  have hf := fold_push (s := 0) (d := 2 * π) hg [] []
  have hup : (¬ (⟨3 / 2 / 10 ^ 9, 0, 1⟩ : Plane).z < (⟨0, 0, 1⟩ : Plane).z) = True := eq_true (by norm_num)
  have hmk : ∃ t, make 0 (2 * π) thin = some t ∧
      t.secs = (segs thin).map (fun x => mkSection 0 (2 * π) x.1.z x.1 x.2) ∧ t.zs = [0] ++ (segs thin).map fun x => x.2.z := by
    unfold make init
    rw [hu]
    unfold thin
    simp only [hl, hup, fresh]
    simp only [List.nil_append] at hf ⊢
    refine ⟨_, rfl, ?_, ?_⟩ <;> simp only [hf]
  obtain ⟨t, ht, e1, e2⟩ := hmk
  have hlen : t.secs.length = 2 := by rw [e1, hseg]; rfl
  refine ⟨t, ht, hlen, ?_, ?_⟩
  · have z0 : zAt t 0 = 0 := by unfold zAt; rw [e2]; rfl
    have z1 : zAt t 1 = 3 / 2 / 10 ^ 9 := by unfold zAt; rw [e2, hseg]; rfl
    have z2 : zAt t 2 = 1 := by unfold zAt; rw [e2, hseg]; rfl
    have i1 : sectionIndex t (3 / 4 / 10 ^ 9 - kTolerance) = -1 := by
      unfold sectionIndex
      rw [if_pos (by rw [z0]; norm_num [kTolerance])]
    have i2 : sectionIndex t (3 / 4 / 10 ^ 9 + kTolerance) = 1 := by
      unfold sectionIndex
      rw [if_neg (by rw [z0]; norm_num [kTolerance]), hlen]
      have : (List.range 2).find? (fun i => open Classical in decide (3 / 4 / 10 ^ 9 + kTolerance ≥ zAt t i ∧ 3 / 4 / 10 ^ 9 + kTolerance ≤ zAt t (i + 1))) = some 1 := by
        rw [List.find?_range_eq_some]
        refine ⟨?_, by simp, ?_⟩
        · rw [decide_eq_true_eq, z1, z2]; norm_num [kTolerance]
        · intro j hj
          have : j = 0 := by omega
          subst this
          rw [z0, z1]
          norm_num [kTolerance]
      rw [this]; rfl
    have hk : kernel Cone.universal false t ⟨1000, 0, 3 / 4 / 10 ^ 9⟩ = (False, False) := by
      unfold kernel
      simp only [i1, i2]
      rw [if_neg (by norm_num), if_neg (by norm_num), if_neg (by norm_num), if_neg (by norm_num)]
    unfold contains
    rw [hk]
    simp
  · rintro ⟨a, b, hn, hp⟩
    have := mem_segs.mpr hn
    have hR : (1000 : ℝ) ≤ rad ⟨1000, 0, 3 / 4 / 10 ^ 9⟩ := by
      unfold rad; apply le_sqrt_of_sq_le; norm_num
    rw [hseg] at this
    have hi := hp.hi
    simp only [List.mem_cons, Prod.mk.injEq, List.not_mem_nil, or_false] at this
    rcases this with ⟨rfl, rfl⟩ | ⟨rfl, rfl⟩
    · norm_num [lerp] at hi; linarith
    · norm_num [lerp] at hi; linarith

/-- C147 fails for a first plane that is given three times: the constructor reads from an empty array. -/
theorem C147_repeated_counterexample : make 0 (2 * π) [⟨0, 0, 1⟩, ⟨0, 0, 1⟩, ⟨0, 0, 1⟩, ⟨1, 0, 1⟩] = none := by
  have hu : upward [⟨0, 0, 1⟩, ⟨0, 0, 1⟩, ⟨0, 0, 1⟩, ⟨1, 0, 1⟩] = [⟨0, 0, 1⟩, ⟨0, 0, 1⟩, ⟨0, 0, 1⟩, ⟨1, 0, 1⟩] := by
    unfold upward; rw [if_neg]; simp
  have hr : reducedPlanes [⟨0, 0, 1⟩, ⟨0, 0, 1⟩, ⟨0, 0, 1⟩, ⟨1, 0, 1⟩] = [] := by
    simp [reducedPlanes, doubled, evened, reduced]
  unfold make init
  rw [hu]
  simp only [hr]

end Polycone
end VecGeom

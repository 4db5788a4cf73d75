import Verif.MultiUnion.Lemmas

/-!
# The walk from component to component
-/

namespace VecGeom
namespace MultiUnion

open AABB Hybrid
open Boolean (Placed Solid Region Moved)

/-- The points of the ray up to `b` belong to the region or lie less than `kEps` behind a point of it. -/
def Followed (X : Region) (p d : V3) (b : ℝ) : Prop :=
  ∀ u, 0 ≤ u → u ≤ b → ∃ w, 0 ≤ w ∧ w ≤ u ∧ u - w ≤ 10 * kTolerance ∧ X (V3.at' p d w)

/-- How the walk ends: `D` is where a component `v` ends that was entered at `u`, and a bit further on no neighbour of it claims the
point as inside, unless the last step was not longer than the tolerance. -/
def EndsAt (l : List Placed) (p d : V3) (sm D : ℝ) : Prop :=
  ∃ (c : Nat) (v : Placed) (u : ℝ), l[c]? = some v ∧ 0 ≤ u ∧ u ≤ D ∧ v.inside (V3.at' p d u) ≠ .outside ∧
    v.placedDistanceToOut (V3.at' p d u) d sm = some (D - u) ∧
    (D - u ≤ kTolerance ∨ ∀ (i : Nat) (w : Placed), l[i]? = some w → i ≠ c → Touching (boxOf v) (boxOf w) →
      w.inside (V3.at' p d (D + 10 * kTolerance)) ≠ .inside)

section
variable {V : Nat} {M : ℝ} {l : List Placed} {m : MU} {a : Acc}

theorem Followed.mono {X : Region} {p d : V3} {a b : ℝ} (h : Followed X p d b) (hab : a ≤ b) : Followed X p d a :=
  fun u h0 h1 => h u h0 (h1.trans hab)

open Classical in
theorem outLoop_succ (m : MU) (d : V3) (stepMax : ℝ) (fuel : Nat) (distance dstep : ℝ) (pnew : V3) (comp : Option Nat) :
    outLoop m d stepMax (fuel + 1) distance dstep pnew comp =
    if dstep > kTolerance then
      match comp with
      | none => some distance
      | some c => m.vols[c]?.bind fun v =>
        (v.distanceToOut (v.trans.transform pnew) (v.trans.transformDirection d) stepMax).bind fun dstep =>
        if m.nb.cnt c = 0 then some (distance + (dstep + kEps))
        else
          (insideCluster m (pnew + V3.smul (dstep + kEps) d) c).bind fun comp =>
            outLoop m d stepMax fuel (distance + (dstep + kEps)) dstep (pnew + V3.smul (dstep + kEps) d) comp
    else some distance := rfl

theorem step_point (p d : V3) (s t : ℝ) : V3.at' p d s + V3.smul t d = V3.at' p d (s + t) := by
  ext <;> simp [V3.at', V3.smul] <;> ring

theorem Ready.out_loop (R : Ready V M l m a) (hT : ∀ v ∈ l, v.trans.Orthonormal) (hL : ∀ v ∈ l, Leaves v.solid) (X : Solid → Region)
    (hX : ∀ v ∈ l, Boolean.ExitOK v.solid (X v.solid)) {p d : V3} {sm : ℝ} : ∀ (fuel : Nat) (s distance dstep : ℝ) (pnew : V3)
    (comp : Option Nat) (r : ℝ), distance = s - kEps → pnew = V3.at' p d s → 0 ≤ s →
    (∀ u, 0 ≤ u → u < s → u ≤ sm → ∃ w, 0 ≤ w ∧ w ≤ u ∧ u - w ≤ 10 * kTolerance ∧ region X l (V3.at' p d w)) →
    (∀ c, comp = some c → ∃ v : Placed, l[c]? = some v ∧ v.inside (V3.at' p d s) ≠ .outside ∧
      ∃ t, v.placedDistanceToOut (V3.at' p d s) d sm = some t ∧ 0 ≤ t) →
    (dstep ≤ kTolerance ∨ comp = none → 0 ≤ s - kEps ∧ Followed (region X l) p d (min (s - kEps) sm) ∧ EndsAt l p d sm (s - kEps)) →
    outLoop m d sm fuel distance dstep pnew comp = some r →
    0 ≤ r ∧ Followed (region X l) p d (min r sm) ∧ EndsAt l p d sm r := by
  intro fuel
  induction fuel with
  | zero => intro s distance dstep pnew comp r _ _ _ _ _ _ hr; cases hr
  | succ fuel ih =>
    intro s distance dstep pnew comp r hd hp hs hcov hcomp hend hr
    rw [outLoop_succ] at hr
    by_cases hc : dstep > kTolerance
    · rw [if_pos hc] at hr
      cases hcm : comp with
      | none =>
        rw [hcm] at hr
        dsimp only at hr
        cases hr
        rw [hd]
        exact hend (Or.inr hcm)
      | some c =>
        rw [hcm] at hr
        dsimp only at hr
        obtain ⟨v, hv, hin, t, hpl, ht0⟩ := hcomp c hcm
        have ht : v.solid.distanceToOut (v.trans.transform (V3.at' p d s)) (v.trans.transformDirection d) sm = some t := hpl
        have hvl := List.mem_of_getElem? hv
        have hcl : c < l.length := (List.getElem?_eq_some_iff.mp hv).1
        have hlt : Placed.distanceToOut v (v.trans.transform pnew) (v.trans.transformDirection d) sm = some t := by rw [hp]; exact ht
        rw [R.vols, hv, Option.bind_some, hlt, Option.bind_some] at hr
        obtain ⟨hnb, hcnt⟩ := R.nb c hcl
        have hk : kEps = 10 * kTolerance := rfl
        have htol := kTolerance_pos
        -- what is covered up to the new distance
        have hfol : ∀ u, 0 ≤ u → u ≤ s + t → u ≤ sm →
            ∃ w, 0 ≤ w ∧ w ≤ u ∧ u - w ≤ 10 * kTolerance ∧ region X l (V3.at' p d w) := by
          intro u h0 h1 h2
          rcases lt_or_ge u s with h3 | h3
          · exact hcov u h0 h3 h2
          · refine ⟨u, h0, le_refl _, by linarith, v, hvl, ?_⟩
            have := Boolean.placed_exit (hT v hvl) (hX v hvl) hpl (u := u - s) (by linarith) (by linarith) (by linarith)
            rwa [Boolean.at_at, show s + (u - s) = u by ring] at this
        have hgood : (m.nb.cnt c = 0 ∨ t ≤ kTolerance ∨ ∀ (i : Nat) (w : Placed), l[i]? = some w → i ≠ c → Touching (boxOf v) (boxOf w) →
            w.inside (V3.at' p d (s + t + 10 * kTolerance)) ≠ .inside) →
            0 ≤ s + t ∧ Followed (region X l) p d (min (s + t) sm) ∧ EndsAt l p d sm (s + t) := by
          intro h
          refine ⟨by linarith, fun u h0 h1 => hfol u h0 (h1.trans (min_le_left _ _)) (h1.trans (min_le_right _ _)),
            c, v, s, hv, hs, by linarith, hin, ?_, ?_⟩
          · rw [show s + t - s = t by ring]; exact hpl
          · rw [show s + t - s = t by ring]
            rcases h with h | h
            · right
              intro i w hw hic hto
              exfalso
              have hil : i < l.length := (List.getElem?_eq_some_iff.mp hw).1
              have : i ∈ below (boxesOf l) c l.length := by
                rw [mem_below]
                refine ⟨hil, hic, ?_⟩
                rw [boxesOf_eq hcl, boxesOf_eq hil, (List.getElem?_eq_some_iff.mp hv).2, (List.getElem?_eq_some_iff.mp hw).2]
                exact hto
              rw [hcnt, List.length_eq_zero_iff] at h
              rw [h] at this
              cases this
            · exact h
        by_cases hz : m.nb.cnt c = 0
        · rw [if_pos hz] at hr
          cases hr
          rw [hd, show s - kEps + (t + kEps) = s + t by ring]
          exact hgood (Or.inl hz)
        · rw [if_neg hz] at hr
          obtain ⟨comp', ec, hc1, hc2⟩ := R.cluster hcl (pnew + V3.smul (t + kEps) d)
          rw [ec, Option.bind_some] at hr
          have hpn : pnew + V3.smul (t + kEps) d = V3.at' p d (s + t + kEps) := by
            rw [hp, step_point]
            congr 1
            ring
          refine ih (s + t + kEps) _ _ _ comp' r ?_ hpn (by rw [hk]; linarith) ?_ ?_ ?_ hr
          · rw [hd]; ring
          · intro u h0 h1 h2
            rcases le_or_gt u (s + t) with h3 | h3
            · exact hfol u h0 h3 h2
            · refine ⟨s + t, by linarith, h3.le, by rw [hk] at h1; linarith, v, hvl, ?_⟩
              have := Boolean.placed_exit (hT v hvl) (hX v hvl) hpl (u := t) ht0 (le_refl _) (by linarith)
              rwa [Boolean.at_at] at this
          · intro i hi
            obtain ⟨-, -, w, hw, hwi⟩ := hc1 i hi
            rw [hpn] at hwi
            exact ⟨w, hw, by rw [hwi]; simp, hL w (List.mem_of_getElem? hw) _ _ sm hwi⟩
          · intro h
            rw [show s + t + kEps - kEps = s + t by ring]
            refine hgood ?_
            rcases h with h | h
            · exact Or.inr (Or.inl h)
            · refine Or.inr (Or.inr fun i w hw hic hto => ?_)
              have hil : i < l.length := (List.getElem?_eq_some_iff.mp hw).1
              have := hc2 h i hil hic (by
                rw [boxesOf_eq hcl, boxesOf_eq hil, (List.getElem?_eq_some_iff.mp hv).2, (List.getElem?_eq_some_iff.mp hw).2]
                exact hto) w hw
              rwa [hpn, hk] at this
    · rw [if_neg hc] at hr
      cases hr
      rw [hd]
      exact hend (Or.inl (not_lt.mp hc))

/-! ### the walk comes to an end -/

theorem dist_at {p d : V3} (h : d.mag2 = 1) {s : ℝ} (hs : 0 ≤ s) : V3.dist p (V3.at' p d s) = s := by
  unfold V3.dist V3.dist2
  have e : (p.x - (V3.at' p d s).x) ^ 2 + (p.y - (V3.at' p d s).y) ^ 2 + (p.z - (V3.at' p d s).z) ^ 2 = s ^ 2 := by
    simp only [V3.at_x, V3.at_y, V3.at_z]
    unfold V3.mag2 V3.dot at h
    linear_combination s ^ 2 * h
  rw [e, Real.sqrt_sq hs]

theorem exists_bound (f : Placed → ℝ) : ∀ l : List Placed, ∃ B, ∀ v ∈ l, f v ≤ B := by
  intro l
  induction l with
  | nil => exact ⟨0, by simp⟩
  | cons x l ih =>
    obtain ⟨B, hB⟩ := ih
    refine ⟨max (f x) B, fun v hv => ?_⟩
    rcases List.mem_cons.mp hv with rfl | hv
    · exact le_max_left _ _
    · exact (hB v hv).trans (le_max_right _ _)

/-- On a ray the components are met on a bounded stretch only. -/
theorem ray_bound (hT : ∀ v ∈ l, v.trans.Orthonormal) (ht : ∀ v ∈ l, Tight v.solid) (p : V3) {d : V3} (hd : d.mag2 = 1) :
    ∃ B, ∀ s, 0 ≤ s → ∀ v ∈ l, v.inside (V3.at' p d s) ≠ .outside → s ≤ B := by
  obtain ⟨B, hB⟩ := exists_bound (fun v => Real.sqrt (far p (boxOf v))) l
  refine ⟨B, fun s hs v hv h => ?_⟩
  have hin := strictlyIn_inBox (claimed_strictlyIn (hT v hv) (ht v hv) (Or.inl h))
  have := Real.sqrt_le_sqrt ((C31_safety_range (boxOf v) p).2 _ hin)
  have e := dist_at (p := p) hd hs
  unfold V3.dist at e
  rw [e] at this
  exact this.trans (hB v hv)

theorem Ready.out_ends (R : Ready V M l m a) (hL : ∀ v ∈ l, Leaves v.solid) {p d : V3} {sm B : ℝ}
    (hB : ∀ s, 0 ≤ s → ∀ v ∈ l, v.inside (V3.at' p d s) ≠ .outside → s ≤ B) : ∀ (fuel : Nat) (s distance dstep : ℝ) (pnew : V3)
    (comp : Option Nat), pnew = V3.at' p d s → 0 ≤ s →
    (∀ c, comp = some c → ∃ v : Placed, l[c]? = some v ∧ v.inside (V3.at' p d s) ≠ .outside ∧
      ∃ t, v.placedDistanceToOut (V3.at' p d s) d sm = some t ∧ 0 ≤ t) →
    1 ≤ fuel → (comp ≠ none → B + kEps < s + fuel * kEps) →
    ∃ r, outLoop m d sm fuel distance dstep pnew comp = some r := by
  have hk : kEps = 10 * kTolerance := rfl
  have htol := kTolerance_pos
  intro fuel
  induction fuel with
  | zero => intro _ _ _ _ _ _ _ _ h; omega
  | succ fuel ih =>
    intro s distance dstep pnew comp hp hs hcomp _ hfuel
    rw [outLoop_succ]
    by_cases hc : dstep > kTolerance
    · rw [if_pos hc]
      cases hcm : comp with
      | none => exact ⟨_, rfl⟩
      | some c =>
        dsimp only
        obtain ⟨v, hv, hin, t, hpl, ht0⟩ := hcomp c hcm
        have ht : v.solid.distanceToOut (v.trans.transform (V3.at' p d s)) (v.trans.transformDirection d) sm = some t := hpl
        have hvl := List.mem_of_getElem? hv
        have hcl : c < l.length := (List.getElem?_eq_some_iff.mp hv).1
        have hsB := hB s hs v hvl hin
        have hf := hfuel (by rw [hcm]; simp)
        push_cast at hf
        have hlt : Placed.distanceToOut v (v.trans.transform pnew) (v.trans.transformDirection d) sm = some t := by rw [hp]; exact ht
        rw [R.vols, hv, Option.bind_some, hlt, Option.bind_some]
        by_cases hz : m.nb.cnt c = 0
        · rw [if_pos hz]; exact ⟨_, rfl⟩
        · rw [if_neg hz]
          obtain ⟨comp', ec, hc1, -⟩ := R.cluster hcl (pnew + V3.smul (t + kEps) d)
          rw [ec, Option.bind_some]
          have hpn : pnew + V3.smul (t + kEps) d = V3.at' p d (s + (t + kEps)) := by rw [hp, step_point]
          refine ih (s + (t + kEps)) _ _ _ comp' hpn (by rw [hk]; linarith) ?_ ?_ ?_
          · intro i hi
            obtain ⟨-, -, w, hw, hwi⟩ := hc1 i hi
            rw [hpn] at hwi
            exact ⟨w, hw, by rw [hwi]; simp, hL w (List.mem_of_getElem? hw) _ _ sm hwi⟩
          · rcases Nat.eq_zero_or_pos fuel with h0 | h0
            · subst h0
              push_cast at hf
              rw [hk] at hf
              linarith
            · exact h0
          · intro _
            linarith
    · rw [if_neg hc]; exact ⟨_, rfl⟩

theorem outLoop_mono {d : V3} {sm : ℝ} : ∀ (fuel : Nat) (distance dstep : ℝ) (pnew : V3) (comp : Option Nat) (r : ℝ),
    outLoop m d sm fuel distance dstep pnew comp = some r → outLoop m d sm (fuel + 1) distance dstep pnew comp = some r := by
  intro fuel
  induction fuel with
  | zero => intro _ _ _ _ _ h; cases h
  | succ fuel ih =>
    intro distance dstep pnew comp r h
    rw [outLoop_succ] at h ⊢
    by_cases hc : dstep > kTolerance
    · rw [if_pos hc] at h ⊢
      cases comp with
      | none => exact h
      | some c =>
        dsimp only at h ⊢
        cases hv : m.vols[c]? with
        | none => rw [hv] at h; cases h
        | some v =>
          rw [hv, Option.bind_some] at h
          rw [Option.bind_some]
          cases ht : Placed.distanceToOut v (v.trans.transform pnew) (v.trans.transformDirection d) sm with
          | none => rw [ht] at h; cases h
          | some t =>
            rw [ht, Option.bind_some] at h
            rw [Option.bind_some]
            by_cases hz : m.nb.cnt c = 0
            · rw [if_pos hz] at h ⊢; exact h
            · rw [if_neg hz] at h ⊢
              cases hi : insideCluster m (pnew + V3.smul (t + kEps) d) c with
              | none => rw [hi] at h; cases h
              | some comp' =>
                rw [hi, Option.bind_some] at h
                rw [Option.bind_some]
                exact ih _ _ _ _ _ h
    · rw [if_neg hc] at h ⊢; exact h

theorem outLoop_stable {d : V3} {sm : ℝ} {N : Nat} {distance dstep : ℝ} {pnew : V3} {comp : Option Nat} {r : ℝ}
    (h : outLoop m d sm N distance dstep pnew comp = some r) (k : Nat) :
    outLoop m d sm (N + k) distance dstep pnew comp = some r := by
  induction k with
  | zero => exact h
  | succ k ih => exact outLoop_mono _ _ _ _ _ _ ih

end

end MultiUnion
end VecGeom

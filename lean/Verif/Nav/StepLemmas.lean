import Verif.Nav.Props

/-! Helper lemmas for the navigation step. -/

namespace VecGeom
namespace Nav
variable {V : Type}
open NavPath

theorem transform_add (T : Trans3) (p d : V3) (t : ℝ) :
    T.transform (p + V3.smul t d) = T.transform p + V3.smul t (T.transformDirection d) := by
  rw [Trans3.transform_eq, Trans3.transform_eq, Trans3.transformDirection_eq]
  ext <;> simp [Trans3.rotGeneric, Trans3.doTranslation, V3.smul] <;> ring

/-- The matrix collected along a path is a rigid motion and converts points as the placements one after the other do. -/
theorem foldl_chain {g : NavGeom V} (hort : ∀ v, (g.trans v).Orthonormal) (hflags : ∀ v, (g.trans v).FlagsOk) :
    ∀ (l : List V) (w u : V) (m0 : Trans3), m0.Orthonormal → m0.FlagsOk → IsPath g.toGeom (w :: l) → (w :: l).getLast? = some u →
    ∀ x, Chain g w (m0.transform x) l u ((l.foldl (fun m v => m.mulRight (g.trans v)) m0).transform x) := by
  intro l
  induction l with
  | nil =>
    intro w u m0 _ _ _ hu x
    simp only [List.getLast?_singleton, Option.some.injEq] at hu
    subst hu
    exact .nil _ _
  | cons a l ih =>
    intro w u m0 h1 h2 hp hu x
    have h3 := Trans3.C24_closed h2 (hflags a)
    have := ih a u (m0.mulRight (g.trans a)) (h3.2 h1 (hort a)) h3.1 hp.2 (by rwa [List.getLast?_cons_cons] at hu) x
    rw [Trans3.C24_transform h1 (hflags a)] at this
    exact .cons hp.1 this

theorem topMatrix_chain {g : NavGeom V} (hort : ∀ v, (g.trans v).Orthonormal) (hflags : ∀ v, (g.trans v).FlagsOk)
    {s : NavPath V} {w u : V} {l : List V} (hr : Repr s (w :: l)) (hp : IsPath g.toGeom (w :: l)) (hu : (w :: l).getLast? = some u) :
    ∃ m, s.topMatrix g.toGeom .identity = some m ∧ ∀ x, Chain g w x l u (m.transform x) := by
  refine ⟨_, by
    unfold topMatrix
    rw [hr.cur, matrixLoop_eq hr _ _ _ (by simp [Nat.add_comm])], ?_⟩
  intro x
  have h := foldl_chain hort hflags l w u .identity (by constructor <;> simp [Trans3.identity]) Trans3.identity_flagsOk hp hu x
  have h0 : Trans3.identity.transform x = x := by
    rw [Trans3.transform_eq]
    ext <;> simp [Trans3.rotGeneric, Trans3.doTranslation, Trans3.identity]
  rw [h0] at h
  simpa using h

/-- What the daughters' `DistanceToIn` has to satisfy: `T d` is the distance to daughter `d`; a distance below the current step is
returned exactly, another answer is not below the step. -/
def DistInOK (D : Distances V) (ds : List V) (T : V → ℝ) (step0 : ℝ) : Prop :=
  ∀ d ∈ ds, ∀ s, s ≤ step0 → (T d < s → D.toIn d s = T d) ∧ (s ≤ T d → s ≤ D.toIn d s)

/-- A daughter that must not be hit: the volume last exited, unless it is ahead. -/
def Passed (last : Option V) (T : V → ℝ) (d : V) : Prop := T d ≤ 0 ∧ last = some d

theorem checkDaughters_spec [DecidableEq V] {D : Distances V} {last : Option V} {T : V → ℝ} :
    ∀ (ds : List V) (step0 : ℝ) (hit0 : Option V), DistInOK D ds T step0 →
    ∃ step hit, checkDaughters D last ds (step0, hit0) = (step, hit) ∧ step ≤ step0 ∧ (∀ d ∈ ds, ¬ Passed last T d → step ≤ T d) ∧
      ((step = step0 ∧ hit = hit0) ∨ ∃ d ∈ ds, hit = some d ∧ step = T d ∧ T d < step0 ∧ ¬ Passed last T d) := by
  intro ds
  induction ds with
  | nil => intro step0 hit0 _; exact ⟨step0, hit0, rfl, le_refl _, by simp, Or.inl ⟨rfl, rfl⟩⟩
  | cons d ds ih =>
    intro step0 hit0 hok
    obtain ⟨k1, k2⟩ := hok d (by simp) step0 (le_refl _)
    have tail : ∀ s, s ≤ step0 → DistInOK D ds T s := fun s hs d' hd' s' hs' => hok d' (by simp [hd']) s' (hs'.trans hs)
    by_cases hc : D.toIn d step0 < step0 ∧ ¬ (D.toIn d step0 ≤ 0 ∧ last = some d)
    · have hT : T d < step0 := by
        by_contra hno
        exact absurd hc.1 (not_lt.mpr (k2 (not_lt.mp hno)))
      have eT := k1 hT
      obtain ⟨step, hit, e, a1, a2, a3⟩ := ih (T d) (some d) (tail _ hT.le)
      refine ⟨step, hit, ?_, a1.trans hT.le, ?_, ?_⟩
      · rw [checkDaughters]
        simp only [if_pos hc]
        rw [eT]; exact e
      · intro d' hd' hn
        rcases List.mem_cons.mp hd' with rfl | hd'
        · exact a1
        · exact a2 d' hd' hn
      · rcases a3 with ⟨rfl, rfl⟩ | ⟨d', b1, b2, b3, b4, b5⟩
        · exact Or.inr ⟨d, by simp, rfl, rfl, hT, by rw [eT] at hc; exact hc.2⟩
        · exact Or.inr ⟨d', by simp [b1], b2, b3, b4.trans hT, b5⟩
    · obtain ⟨step, hit, e, a1, a2, a3⟩ := ih step0 hit0 (tail _ (le_refl _))
      refine ⟨step, hit, ?_, a1, ?_, ?_⟩
      · rw [checkDaughters]
        simp only [if_neg hc]
        exact e
      · intro d' hd' hn
        rcases List.mem_cons.mp hd' with rfl | hd'
        · by_contra hlt
          push Not at hlt
          have hT : T d' < step0 := hlt.trans_le a1
          have eT := k1 hT
          rw [eT] at hc
          exact hc ⟨hT, hn⟩
        · exact a2 d' hd' hn
      · rcases a3 with h | ⟨d', b1, b2⟩
        · exact Or.inl h
        · exact Or.inr ⟨d', by simp [b1], b2⟩

theorem checkDaughters_mem [DecidableEq V] {D : Distances V} {last : Option V} :
    ∀ (ds : List V) (step0 : ℝ) (hit0 : Option V) (step : ℝ) (hit : Option V), checkDaughters D last ds (step0, hit0) = (step, hit) →
      hit = hit0 ∨ ∃ d ∈ ds, hit = some d := by
  intro ds
  induction ds with
  | nil => intro step0 hit0 step hit e; cases e; exact Or.inl rfl
  | cons a ds ih =>
    intro step0 hit0 step hit e
    rw [checkDaughters] at e
    split at e
    · rcases ih _ _ _ _ e with h | ⟨d, hd, h⟩
      · exact Or.inr ⟨a, by simp, h⟩
      · exact Or.inr ⟨d, by simp [hd], h⟩
    · rcases ih _ _ _ _ e with h | ⟨d, hd, h⟩
      · exact Or.inl h
      · exact Or.inr ⟨d, by simp [hd], h⟩

theorem popLoop_spec {g : NavGeom V} {l1 : List V} {v : V} (hv : g.isAssembly v = false) :
    ∀ (fuel : Nat) (l2 : List V) (x : V) (s : NavPath V), (∀ a ∈ l2, g.isAssembly a = true) → l2.length < fuel →
      Repr s (l1 ++ v :: l2 ++ [x]) → ∃ s', popLoop g fuel s = some s' ∧ Repr s' (l1 ++ [v]) ∧ Same s s' := by
  intro fuel
  induction fuel with
  | zero => intro l2 x s _ h; omega
  | succ fuel ih =>
    intro l2 x s ha hl hr
    obtain ⟨h1, h2⟩ := pop_same hr
    rw [List.dropLast_concat] at h1
    have htop := h1.top
    rw [popLoop]
    rcases List.eq_nil_or_concat l2 with rfl | ⟨l3, b, rfl⟩
    · rw [List.getLast?_concat] at htop
      rw [htop, Option.bind_some, Option.bind_some, hv]
      exact ⟨_, rfl, h1, h2⟩
    · rw [List.concat_eq_append] at h1 ha hl htop
      rw [show l1 ++ v :: (l3 ++ [b]) = (l1 ++ v :: l3) ++ [b] by simp, List.getLast?_concat] at htop
      rw [htop, Option.bind_some, Option.bind_some, ha b (by simp), if_pos rfl]
      obtain ⟨s', e, k1, k2⟩ := ih l3 b s.pop (fun a h => ha a (by simp [h])) (by simp at hl; omega) (by simpa using h1)
      exact ⟨s', e, k1, h2.trans k2⟩

theorem popAssemblies_spec {g : NavGeom V} {s : NavPath V} {l : List V} {v : V} (hr : Repr s (l ++ [v])) (hv : g.isAssembly v = false)
    (fuel : Nat) : popAssemblies g (fuel + 1) s = some s := by
  have htop := hr.top
  rw [List.getLast?_append_of_ne_nil _ (by simp), List.getLast?_singleton] at htop
  rw [popAssemblies, htop, Option.bind_some, Option.bind_some, hv]
  rfl

end Nav
end VecGeom

import Verif.Visit.Lemmas
import Mathlib.Order.MinMax

/-!
# C20: geometry visitors

A *path* is a list of child numbers starting at the world; `PVol.follow` gives the placements on it.
-/

namespace VecGeom
namespace Visit

/-- Specification: `u` is the placement reached from `w` by the path `c`. -/
def EndsAt (w : PVol) (c : List Nat) (u : PVol) : Prop := ∃ l, w.follow c = some l ∧ l.getLast? = some u

/-- Visiting all placed volumes: there is one visit for each path of the geometry and no other.  The order is
lexicographic, hence a placement is visited before all placements below it and its daughters in their order;
the level passed along is the start level plus the length of the path.  The final visitor state is the one
obtained by applying the visitor to these visits in turn. -/
theorem C20_visit_each_path_once (w : PVol) (level : Int) :
    ∃ (cs : List (List Nat)) (xs : List (PVol × Int)),
      cs.Pairwise (· < ·) ∧ (∀ c, c ∈ cs ↔ (w.follow c).isSome) ∧
      List.Forall₂ (fun c x => EndsAt w c x.1 ∧ x.2 = level + c.length) cs xs ∧
      ∀ (σ : Type) (apply : σ → PVol → Int → σ) (s : σ),
        visitAll apply w level s = xs.foldl (fun s x => apply s x.1 x.2) s :=
  ⟨paths w, vlist w level, paths_sorted w, mem_paths w,
    (vlist_paths w level).imp (fun c x h => ⟨(target_follow c w x.1).mp h.1, h.2⟩),
    fun _ f s => visitAll_foldl f w level s⟩

/-- The node count stored when the geometry is closed is the number of paths. -/
theorem C20_total_node_count (w : PVol) (cs : List (List Nat)) (hn : cs.Nodup)
    (hc : ∀ c, c ∈ cs ↔ (w.follow c).isSome) : totalNodeCount w = cs.length := by
  have hperm : cs.Perm (paths w) :=
    (List.perm_ext_iff_of_nodup hn ((paths_sorted w).imp (fun h => ne_of_lt h))).mpr
      (fun c => (hc c).trans (mem_paths w c).symm)
  have key : ∀ (l : List (PVol × Int)) (n : Int), l.foldl (fun s x => countApply s x.1 x.2) n = n + l.length := by
    intro l
    induction l with
    | nil => simp
    | cons a l ih => intro n; rw [List.foldl_cons, ih, countApply]; push_cast [List.length_cons]; ring
  rw [totalNodeCount, visitAll_foldl, key, ← (vlist_paths w 1).length_eq, hperm.length_eq, Int.zero_add]

/-- The maximum depth stored when the geometry is closed: no path has more placements, and some path has as
many. -/
theorem C20_max_depth (w : PVol) :
    (∀ c l, w.follow c = some l → (l.length : Int) ≤ maxDepth w) ∧
    ∃ c l, w.follow c = some l ∧ (l.length : Int) = maxDepth w := by
  have key : ∀ (l : List (PVol × Int)) (n : Int),
      let r := l.foldl (fun s x => maxDepthApply s x.1 x.2) n
      n ≤ r ∧ (∀ x ∈ l, x.2 ≤ r) ∧ (r = n ∨ ∃ x ∈ l, x.2 = r) := by
    intro l
    induction l with
    | nil => intro n; simp
    | cons a l ih =>
      intro n
      dsimp only
      rw [List.foldl_cons]
      obtain ⟨h1, h2, h3⟩ := ih (maxDepthApply n a.1 a.2)
      have ha : n ≤ maxDepthApply n a.1 a.2 ∧ a.2 ≤ maxDepthApply n a.1 a.2 ∧
          (maxDepthApply n a.1 a.2 = n ∨ maxDepthApply n a.1 a.2 = a.2) := by
        unfold maxDepthApply; split <;> omega
      refine ⟨by omega, fun x hx => ?_, ?_⟩
      · rcases List.mem_cons.mp hx with rfl | hx
        · omega
        · exact h2 x hx
      · rcases h3 with h3 | ⟨x, hx, h3⟩
        · rcases ha.2.2 with h | h
          · left; omega
          · right; exact ⟨a, by simp, by omega⟩
        · right; exact ⟨x, List.mem_cons_of_mem _ hx, h3⟩
  have hf := vlist_paths w 1
  obtain ⟨h1, h2, h3⟩ := key (vlist w 1) 0
  have hm : maxDepth w = (vlist w 1).foldl (fun s x => maxDepthApply s x.1 x.2) 0 := by
    rw [maxDepth, visitAll_foldl]
  rw [hm]
  have hin : ∀ c l, w.follow c = some l → ∃ x ∈ vlist w 1, x.2 = l.length := by
    intro c l h
    obtain ⟨i, hi, e⟩ := List.getElem_of_mem ((mem_paths w c).mpr (by rw [h]; rfl))
    have hi2 : i < (vlist w 1).length := by rw [← hf.length_eq]; exact hi
    have := (List.forall₂_iff_get.mp hf).2 i hi hi2
    refine ⟨_, List.getElem_mem hi2, ?_⟩
    have h4 := this.2
    simp only [List.get_eq_getElem, e] at h4
    rw [h4, follow_length c w l h]; push_cast; ring
  refine ⟨fun c l h => ?_, ?_⟩
  · obtain ⟨x, hx, e⟩ := hin c l h
    rw [← e]
    exact h2 x hx
  · have hne : ∃ x ∈ vlist w 1, x.2 = (vlist w 1).foldl (fun s x => maxDepthApply s x.1 x.2) 0 := by
      rcases h3 with h3 | h3
      · obtain ⟨x, hx, e⟩ := hin [] [w] rfl
        have := h2 x hx
        rw [h3, e] at this
        simp at this
      · exact h3
    obtain ⟨x, hx, e⟩ := hne
    obtain ⟨i, hi, e2⟩ := List.getElem_of_mem hx
    have hi2 : i < (paths w).length := by rw [hf.length_eq]; exact hi
    have := (List.forall₂_iff_get.mp hf).2 i hi2 hi
    obtain ⟨l, hl⟩ := Option.isSome_iff_exists.mp ((mem_paths w (paths w)[i]).mp (List.getElem_mem hi2))
    refine ⟨_, l, hl, ?_⟩
    have h4 := this.2
    simp only [List.get_eq_getElem, e2] at h4
    rw [follow_length _ w l hl, ← e, h4]; push_cast; ring

/-- The list of placed volumes has one entry per path, in visiting order. -/
theorem C20_all_placed (w : PVol) :
    ∃ cs : List (List Nat), cs.Pairwise (· < ·) ∧ (∀ c, c ∈ cs ↔ (w.follow c).isSome) ∧
      List.Forall₂ (EndsAt w) cs (getAllPlacedVolumes w) := by
  refine ⟨paths w, paths_sorted w, mem_paths w, ?_⟩
  rw [getAllPlacedVolumes, visitAll_foldl]
  have : (vlist w 0).foldl (fun s x => placedApply s x.1 x.2) [] = (vlist w 0).map (·.1) := by
    have := foldl_snoc (fun x : PVol × Int => x.1) (vlist w 0) []
    simpa [placedApply] using this
  rw [this, List.forall₂_map_right_iff]
  exact (vlist_paths w 0).imp (fun c x h => (target_follow c w x.1).mp h.1)

/-- The list of logical volumes contains each logical volume in use exactly once, and no other. -/
theorem C20_all_logical (w : PVol) :
    (getAllLogicalVolumes w).Nodup ∧ ∀ n, n ∈ getAllLogicalVolumes w ↔ ∃ u, PVol.Sub w u ∧ u.lid = n := by
  have key : ∀ (l : List (PVol × Int)) (s : List Nat), s.Nodup →
      (l.foldl (fun s x => logicalApply s x.1 x.2) s).Nodup ∧
      ∀ n, n ∈ l.foldl (fun s x => logicalApply s x.1 x.2) s ↔ n ∈ s ∨ ∃ x ∈ l, x.1.lid = n := by
    intro l
    induction l with
    | nil => intro s hs; simpa using hs
    | cons a l ih =>
      intro s hs
      rw [List.foldl_cons]
      have h1 : (logicalApply s a.1 a.2).Nodup := by
        unfold logicalApply
        split
        · exact hs
        · rename_i h
          have h' : a.1.lid ∉ s := by simpa using h
          rw [List.nodup_append]
          exact ⟨hs, by simp, fun x hx y hy => by
            rw [List.mem_singleton] at hy; subst hy; exact fun e => h' (e ▸ hx)⟩
      obtain ⟨i1, i2⟩ := ih _ h1
      refine ⟨i1, fun n => ?_⟩
      rw [i2]
      have : n ∈ logicalApply s a.1 a.2 ↔ n ∈ s ∨ a.1.lid = n := by
        unfold logicalApply
        split
        · rename_i h
          have h' : a.1.lid ∈ s := by simpa using h
          exact ⟨Or.inl, fun h => h.elim id (fun e => e ▸ h')⟩
        · simp [eq_comm]
      rw [this]
      constructor
      · rintro ((h | h) | ⟨x, hx, h⟩)
        · exact Or.inl h
        · exact Or.inr ⟨a, by simp, h⟩
        · exact Or.inr ⟨x, List.mem_cons_of_mem _ hx, h⟩
      · rintro (h | ⟨x, hx, h⟩)
        · exact Or.inl (Or.inl h)
        · rcases List.mem_cons.mp hx with rfl | hx
          · exact Or.inl (Or.inr h)
          · exact Or.inr ⟨x, hx, h⟩
  have hsub : ∀ (c : List Nat) (v u : PVol), target v c = some u → PVol.Sub v u := by
    intro c
    induction c with
    | nil => intro v u h; simp [target] at h; subst h; exact .refl _
    | cons i c ih =>
      intro v u h
      rw [target] at h
      split at h
      · simp at h
      · rename_i d hd
        exact .step (List.mem_of_getElem? hd) (ih d u h)
  have hsub2 : ∀ v u, PVol.Sub v u → ∃ c, target v c = some u := by
    intro v u h
    induction h with
    | refl v => exact ⟨[], rfl⟩
    | step hd _ ih =>
      obtain ⟨c, hc⟩ := ih
      obtain ⟨i, hi, e⟩ := List.getElem_of_mem hd
      refine ⟨i :: c, ?_⟩
      rw [target, List.getElem?_eq_getElem hi, e]
      exact hc
  have hf := vlist_paths w 0
  rw [getAllLogicalVolumes, visitAll_foldl]
  obtain ⟨k1, k2⟩ := key (vlist w 0) [] List.nodup_nil
  refine ⟨k1, fun n => ?_⟩
  rw [k2]
  constructor
  · rintro (h | ⟨x, hx, h⟩)
    · simp at h
    · obtain ⟨i, hi, e2⟩ := List.getElem_of_mem hx
      have hi2 : i < (paths w).length := by rw [hf.length_eq]; exact hi
      have := ((List.forall₂_iff_get.mp hf).2 i hi2 hi).1
      simp only [List.get_eq_getElem, e2] at this
      exact ⟨x.1, hsub _ _ _ this, h⟩
  · rintro ⟨u, hu, h⟩
    obtain ⟨c, hc⟩ := hsub2 w u hu
    obtain ⟨l, hl, _⟩ := (target_follow c w u).mp hc
    obtain ⟨i, hi, e⟩ := List.getElem_of_mem ((mem_paths w c).mpr (by rw [hl]; rfl))
    have hi2 : i < (vlist w 0).length := by rw [← hf.length_eq]; exact hi
    have := ((List.forall₂_iff_get.mp hf).2 i hi hi2).1
    simp only [List.get_eq_getElem, e, hc, Option.some.injEq] at this
    exact Or.inr ⟨_, List.getElem_mem hi2, by rw [← this, h]⟩

/-- Collecting the paths of a logical volume in a closed geometry of at most 254 levels returns, in
lexicographic order, one state for each path that ends in a placement of this logical volume; the state holds
exactly the placements on the path. -/
theorem C20_paths_for_logical (w : PVol) (lv depth : Nat) (hd : (depth : Int) = maxDepth w) (h8 : depth < 255) :
    ∃ (cs : List (List Nat)) (res : List (NavPath PVol)),
      getAllPathForLogicalVolume w depth lv = some res ∧ cs.Pairwise (· < ·) ∧
      (∀ c, c ∈ cs ↔ ∃ u, EndsAt w c u ∧ u.lid = lv) ∧
      List.Forall₂ (fun c st => ∃ l, w.follow c = some l ∧ st.cur = l.length ∧
        st.slots.take l.length = l.map some) cs res := by
  have hlen : ∀ c ∈ paths w, c.length + 1 ≤ depth := by
    intro c hc
    obtain ⟨l, hl⟩ := Option.isSome_iff_exists.mp ((mem_paths w c).mp hc)
    have h1 := (C20_max_depth w).1 c l hl
    have h2 := follow_length c w l hl
    omega
  obtain ⟨st', res, e, _, hf⟩ := visitCtx_paths (depth + 1) lv w [] (NavPath.makeInstance depth).clear 0 []
    ⟨rfl, by simp, by simp [NavPath.makeInstance, NavPath.clear]⟩
    (fun c hc => by have := hlen c hc; simp only [List.length_nil]; omega)
  refine ⟨(paths w).filter (endsIn w lv), res, ?_, (paths_sorted w).filter _, fun c => ?_, ?_⟩
  · rw [getAllPathForLogicalVolume, e]; rfl
  · rw [List.mem_filter]
    constructor
    · rintro ⟨_, h⟩
      unfold endsIn at h
      split at h
      · rename_i u hu
        exact ⟨u, (target_follow c w u).mp hu, by simpa using h⟩
      · simp at h
    · rintro ⟨u, hu, h⟩
      refine ⟨(mem_paths w c).mpr ?_, ?_⟩
      · obtain ⟨l, hl, _⟩ := hu
        rw [hl]; rfl
      · unfold endsIn
        rw [(target_follow c w u).mpr hu]
        simpa using h
  · refine hf.imp (fun c st h => ?_)
    obtain ⟨l, h1, h2, h3⟩ := h
    simp only [List.length_nil, Nat.zero_add, List.nil_append] at h2 h3
    exact ⟨l, h1, h2, by rw [← h2]; exact h3⟩

/-! ### A concrete geometry: a world with two placements of the same logical volume, each with one daughter. -/

noncomputable def leaf : PVol := .mk 3 0 7 .identity false []
noncomputable def mid (i : Nat) (c : Int) : PVol := .mk i c 5 .identity false [leaf]
noncomputable def demo : PVol := .mk 0 (-1) 1 .identity false [mid 1 0, mid 2 1]

example : totalNodeCount demo = 5 := by
  simp [totalNodeCount, demo, mid, leaf, visitAll, visitDaughters, countApply]

example : maxDepth demo = 3 := by
  simp [maxDepth, demo, mid, leaf, visitAll, visitDaughters, maxDepthApply]

example : getAllLogicalVolumes demo = [1, 5, 7] := by
  simp [getAllLogicalVolumes, demo, mid, leaf, visitAll, visitDaughters, logicalApply, PVol.lid]

example : ∃ res, getAllPathForLogicalVolume demo 3 7 = some res ∧ res.length = 2 := by
  refine ⟨_, rfl, ?_⟩
  rfl

end Visit
end VecGeom

import Verif.Visit.Model
import Verif.NavIndex.Lemmas

/-! # Auxiliary facts about the visitors -/

namespace VecGeom
namespace Visit

mutual
/-- The preorder list of the paths (lists of child numbers) below a placement. -/
def paths : PVol → List (List Nat)
  | .mk _ _ _ _ _ ds => [] :: pathsList ds 0
def pathsList : List PVol → Nat → List (List Nat)
  | [], _ => []
  | d :: ds, i => (paths d).map (i :: ·) ++ pathsList ds (i + 1)
end

theorem paths_eq (v : PVol) : paths v = [] :: pathsList v.daughters 0 := by
  cases v; rw [paths]; rfl

theorem visitAll_eq {σ : Type} (f : σ → PVol → Int → σ) (v : PVol) (lv : Int) (s : σ) :
    visitAll f v lv s = visitDaughters f v.daughters (lv + 1) (f s v lv) := by
  cases v; rw [visitAll]; rfl

theorem visitCtx_eq {σ : Type} (f : σ → NavPath PVol → Int → Option σ) (v : PVol) (st : NavPath PVol) (lv : Int)
    (s : σ) : visitCtx f v st lv s = match st.push v with
      | none => none
      | some st1 => match f s st1 lv with
        | none => none
        | some s1 => match visitCtxDaughters f v.daughters st1 (lv + 1) s1 with
          | none => none
          | some (st2, s2) => some (st2.pop, s2) := by
  cases v; rw [visitCtx]; rfl

/-- The placement at the end of a path. -/
def target : PVol → List Nat → Option PVol
  | v, [] => some v
  | v, i :: c => match v.daughters[i]? with
    | none => none
    | some d => target d c

theorem target_follow (c : List Nat) : ∀ (v u : PVol),
    target v c = some u ↔ ∃ l, v.follow c = some l ∧ l.getLast? = some u := by
  induction c with
  | nil => intro v u; simp [target, PVol.follow]
  | cons i c ih =>
    intro v u
    rw [target, PVol.follow]
    cases h : v.daughters[i]? with
    | none => simp
    | some d =>
      simp only [ih d u]
      constructor
      · rintro ⟨l, h1, h2⟩
        refine ⟨v :: l, by rw [h1]; rfl, ?_⟩
        cases l with
        | nil => simp at h2
        | cons a l => simpa using h2
      · rintro ⟨l, h1, h2⟩
        cases h3 : d.follow c with
        | none => rw [h3] at h1; simp at h1
        | some l' =>
          rw [h3] at h1
          obtain rfl : v :: l' = l := by simpa using h1
          refine ⟨l', rfl, ?_⟩
          cases l' with
          | nil =>
            exfalso
            cases c with
            | nil => simp [PVol.follow] at h3
            | cons j c =>
              rw [PVol.follow] at h3
              split at h3
              · simp at h3
              · cases hh : PVol.follow _ c with
                | none => rw [hh] at h3; simp at h3
                | some x => rw [hh] at h3; simp at h3
          | cons a l => simpa using h2

theorem follow_length (c : List Nat) : ∀ (v : PVol) l, v.follow c = some l → l.length = c.length + 1 := by
  induction c with
  | nil => intro v l h; simp [PVol.follow] at h; subst h; rfl
  | cons i c ih =>
    intro v l h
    rw [PVol.follow] at h
    split at h
    · simp at h
    · rename_i d _
      cases hd : d.follow c with
      | none => rw [hd] at h; simp at h
      | some l' =>
        rw [hd] at h
        obtain rfl : v :: l' = l := by simpa using h
        simp [ih d l' hd]

theorem mem_pathsList (ds : List PVol) (ih : ∀ d ∈ ds, ∀ c, c ∈ paths d ↔ (d.follow c).isSome) :
    ∀ (i : Nat) (c : List Nat), c ∈ pathsList ds i ↔
      ∃ j c' d, c = (i + j) :: c' ∧ ds[j]? = some d ∧ (d.follow c').isSome := by
  induction ds with
  | nil => intro i c; simp [pathsList]
  | cons d ds ihl =>
    intro i c
    rw [pathsList, List.mem_append, ihl (fun d h => ih d (List.mem_cons_of_mem _ h))]
    constructor
    · rintro (h | ⟨j, c', d', rfl, h1, h2⟩)
      · obtain ⟨c', h1, rfl⟩ := List.mem_map.mp h
        exact ⟨0, c', d, by simp, by simp, (ih d (by simp) c').mp h1⟩
      · exact ⟨j + 1, c', d', by simp; omega, by simpa using h1, h2⟩
    · rintro ⟨j, c', d', rfl, h1, h2⟩
      cases j with
      | zero =>
        obtain rfl : d = d' := by simpa using h1
        exact Or.inl (List.mem_map.mpr ⟨c', (ih d (by simp) c').mpr h2, by simp⟩)
      | succ j => exact Or.inr ⟨j, c', d', by simp; omega, by simpa using h1, h2⟩

theorem mem_paths (v : PVol) : ∀ c, c ∈ paths v ↔ (v.follow c).isSome := by
  induction v using PVol.ind with
  | h v ih =>
    intro c
    rw [paths_eq, List.mem_cons, mem_pathsList _ ih]
    cases c with
    | nil => simp [PVol.follow]
    | cons i c =>
      rw [PVol.follow]
      constructor
      · rintro (h | ⟨j, c', d, h, h1, h2⟩)
        · simp at h
        · simp only [Nat.zero_add, List.cons.injEq] at h
          obtain ⟨rfl, rfl⟩ := h
          rw [h1]; simpa using h2
      · intro h
        cases h1 : v.daughters[i]? with
        | none => rw [h1] at h; simp at h
        | some d =>
          rw [h1] at h
          exact Or.inr ⟨i, c, d, by simp, h1, by simpa using h⟩

theorem mem_pathsList_head (ds : List PVol) : ∀ (i : Nat), ∀ c ∈ pathsList ds i, ∃ k c', c = k :: c' ∧ i ≤ k := by
  induction ds with
  | nil => intro i c h; simp [pathsList] at h
  | cons d ds ih =>
    intro i c h
    rw [pathsList, List.mem_append] at h
    rcases h with h | h
    · obtain ⟨c', _, rfl⟩ := List.mem_map.mp h
      exact ⟨i, c', rfl, Nat.le_refl _⟩
    · obtain ⟨k, c', rfl, hk⟩ := ih _ _ h
      exact ⟨k, c', rfl, by omega⟩

theorem pathsList_sorted (ds : List PVol) (ih : ∀ d ∈ ds, (paths d).Pairwise (· < ·)) :
    ∀ i, (pathsList ds i).Pairwise (· < ·) := by
  induction ds with
  | nil => intro i; rw [pathsList]; exact .nil
  | cons d ds ihl =>
    intro i
    rw [pathsList, List.pairwise_append]
    refine ⟨?_, ihl (fun d h => ih d (List.mem_cons_of_mem _ h)) _, ?_⟩
    · rw [List.pairwise_map]
      exact (ih d (by simp)).imp (fun h => List.cons_lt_cons_iff.mpr (Or.inr ⟨rfl, h⟩))
    · intro a ha b hb
      obtain ⟨a', _, rfl⟩ := List.mem_map.mp ha
      obtain ⟨k, c', rfl, hk⟩ := mem_pathsList_head _ _ _ hb
      exact List.cons_lt_cons_iff.mpr (Or.inl (by omega))

theorem paths_sorted (v : PVol) : (paths v).Pairwise (· < ·) := by
  induction v using PVol.ind with
  | h v ih =>
    rw [paths_eq, List.pairwise_cons]
    refine ⟨fun c hc => ?_, pathsList_sorted _ ih 0⟩
    obtain ⟨k, c', rfl, _⟩ := mem_pathsList_head _ _ _ hc
    exact List.nil_lt_cons k c'

/-! ### The visits -/

/-- The visits below a placement in order. -/
noncomputable def visits (v : PVol) (lv : Int) : List (PVol × Int) :=
  visitAll (fun s u l => s ++ [(u, l)]) v lv []

mutual
/-- The same list, built without a visitor. -/
def vlist : PVol → Int → List (PVol × Int)
  | .mk i c l t r ds, lv => (.mk i c l t r ds, lv) :: vlistL ds (lv + 1)
def vlistL : List PVol → Int → List (PVol × Int)
  | [], _ => []
  | d :: ds, lv => vlist d lv ++ vlistL ds lv
end

theorem vlist_eq (v : PVol) (lv : Int) : vlist v lv = (v, lv) :: vlistL v.daughters (lv + 1) := by
  cases v; rw [vlist]; rfl

theorem visitDaughters_foldl {σ : Type} (f : σ → PVol → Int → σ) (ds : List PVol)
    (ih : ∀ d ∈ ds, ∀ lv s, visitAll f d lv s = (vlist d lv).foldl (fun s x => f s x.1 x.2) s) :
    ∀ lv s, visitDaughters f ds lv s = (vlistL ds lv).foldl (fun s x => f s x.1 x.2) s := by
  induction ds with
  | nil => intro lv s; rw [visitDaughters, vlistL]; rfl
  | cons d ds ihl =>
    intro lv s
    rw [visitDaughters, vlistL, List.foldl_append, ih d (by simp), ihl (fun d h => ih d (List.mem_cons_of_mem _ h))]

theorem visitAll_foldl {σ : Type} (f : σ → PVol → Int → σ) (v : PVol) :
    ∀ lv s, visitAll f v lv s = (vlist v lv).foldl (fun s x => f s x.1 x.2) s := by
  induction v using PVol.ind with
  | h v ih =>
    intro lv s
    rw [visitAll_eq, vlist_eq, List.foldl_cons, visitDaughters_foldl f _ ih]

theorem foldl_snoc {α β : Type} (g : α → β) (l : List α) : ∀ s : List β,
    l.foldl (fun s x => s ++ [g x]) s = s ++ l.map g := by
  induction l with
  | nil => simp
  | cons a l ih => intro s; rw [List.foldl_cons, ih]; simp

theorem visits_eq (v : PVol) (lv : Int) : visits v lv = vlist v lv := by
  rw [visits, visitAll_foldl, foldl_snoc (fun x : PVol × Int => (x.1, x.2))]
  simp

/-- What the visit for path `c` (below the placement `v`, first visit at level `lv`) has to be. -/
def VisitOf (v : PVol) (lv : Int) (c : List Nat) (x : PVol × Int) : Prop :=
  target v c = some x.1 ∧ x.2 = lv + c.length

theorem vlistL_paths (ds : List PVol) (m : PVol)
    (ih : ∀ d ∈ ds, ∀ lv, List.Forall₂ (VisitOf d lv) (paths d) (vlist d lv)) :
    ∀ (i : Nat), (∀ j d, ds[j]? = some d → m.daughters[i + j]? = some d) → ∀ lv,
      List.Forall₂ (VisitOf m lv) (pathsList ds i) (vlistL ds (lv + 1)) := by
  induction ds with
  | nil => intro i _ lv; rw [pathsList, vlistL]; exact .nil
  | cons d ds ihl =>
    intro i hm lv
    rw [pathsList, vlistL]
    refine List.rel_append ?_ (ihl (fun d h => ih d (List.mem_cons_of_mem _ h)) (i + 1) (fun j d h => ?_) lv)
    · rw [List.forall₂_map_left_iff]
      refine (ih d (by simp) (lv + 1)).imp (fun c x h => ⟨?_, ?_⟩)
      · rw [target, show m.daughters[i]? = some d by simpa using hm 0 d (by simp)]
        exact h.1
      · rw [h.2]; push_cast [List.length_cons]; ring
    · have := hm (j + 1) d (by simpa using h)
      rwa [show i + (j + 1) = i + 1 + j by omega] at this

theorem vlist_paths (v : PVol) : ∀ lv, List.Forall₂ (VisitOf v lv) (paths v) (vlist v lv) := by
  induction v using PVol.ind with
  | h v ih =>
    intro lv
    rw [paths_eq, vlist_eq]
    refine .cons ⟨rfl, by simp⟩ (vlistL_paths _ v ih 0 (fun j d h => by simpa using h) lv)

/-! ### Visits with a path state -/

/-- The path below `v` ends in logical volume `lv`. -/
def endsIn (v : PVol) (lv : Nat) (c : List Nat) : Bool := match target v c with
  | some u => u.lid == lv
  | none => false

/-- `st` describes the placements `pre` followed by the path `c` from `v`. -/
def StateOf (pre : List PVol) (v : PVol) (c : List Nat) (st : NavPath PVol) : Prop :=
  ∃ l, v.follow c = some l ∧ st.cur = pre.length + l.length ∧ st.slots.take st.cur = (pre ++ l).map some

/-- `st` holds exactly the placements `pre`, with `n` slots allocated. -/
def Holds (n : Nat) (pre : List PVol) (st : NavPath PVol) : Prop :=
  st.cur = pre.length ∧ st.slots.take pre.length = pre.map some ∧ st.slots.length = n

theorem Holds.push {n : Nat} {pre : List PVol} {st : NavPath PVol} (h : Holds n pre st) (v : PVol)
    (hn : pre.length + 1 ≤ n) (h8 : pre.length + 1 < 256) :
    ∃ st1, st.push v = some st1 ∧ Holds n (pre ++ [v]) st1 ∧ st1.top = some (some v) := by
  obtain ⟨h1, h2, h3⟩ := h
  refine ⟨_, by rw [NavPath.push, if_pos (by omega)], ⟨?_, ?_, ?_⟩, ?_⟩
  · dsimp only; rw [Nat.mod_eq_of_lt (by omega), h1]; simp
  · dsimp only
    rw [List.length_append, List.length_singleton, h1, List.take_add_one, List.getElem?_set_self (by omega),
      List.take_set_of_le (Nat.le_refl _), h2]
    simp
  · simp [h3]
  · rw [NavPath.top]
    dsimp only
    rw [Nat.mod_eq_of_lt (by omega), if_pos (by omega), Nat.add_sub_cancel, List.getElem?_set_self (by omega)]

theorem Holds.pop {n : Nat} {pre : List PVol} {v : PVol} {st : NavPath PVol} (h : Holds n (pre ++ [v]) st) :
    Holds n pre st.pop := by
  obtain ⟨h1, h2, h3⟩ := h
  rw [List.length_append, List.length_singleton] at h1 h2
  rw [NavPath.pop, if_pos (by omega)]
  refine ⟨by dsimp only; omega, ?_, h3⟩
  dsimp only
  have := congrArg (List.take pre.length) h2
  rw [List.take_take, Nat.min_eq_left (by omega), List.map_append, List.take_append_of_le_length (by simp)] at this
  rw [this]
  simp

theorem visitCtxDaughters_paths (n lv : Nat) (m : PVol) (pre : List PVol) (ds : List PVol)
    (ih : ∀ d ∈ ds, ∀ (pre : List PVol) st level s, Holds n pre st →
      (∀ c ∈ paths d, pre.length + c.length + 1 ≤ n ∧ pre.length + c.length + 1 < 256) →
      ∃ st' res, visitCtx (pathsApply lv) d st level s = some (st', s ++ res) ∧ Holds n pre st' ∧
        List.Forall₂ (StateOf pre d) ((paths d).filter (endsIn d lv)) res) :
    ∀ (i : Nat) st level s, Holds n (pre ++ [m]) st →
      (∀ j d, ds[j]? = some d → m.daughters[i + j]? = some d) →
      (∀ c ∈ pathsList ds i, pre.length + c.length + 1 ≤ n ∧ pre.length + c.length + 1 < 256) →
      ∃ st' res, visitCtxDaughters (pathsApply lv) ds st level s = some (st', s ++ res) ∧
        Holds n (pre ++ [m]) st' ∧
        List.Forall₂ (StateOf pre m) ((pathsList ds i).filter (endsIn m lv)) res := by
  induction ds with
  | nil =>
    intro i st level s hs _ _
    exact ⟨st, [], by rw [visitCtxDaughters]; simp, hs, by rw [pathsList]; exact .nil⟩
  | cons d ds ihl =>
    intro i st level s hs hm hl
    have hd : m.daughters[i]? = some d := by simpa using hm 0 d (by simp)
    rw [pathsList] at hl
    obtain ⟨st1, r1, e1, hh1, f1⟩ := ih d (by simp) (pre ++ [m]) st level s hs (fun c hc => by
      have := hl (i :: c) (List.mem_append_left _ (List.mem_map.mpr ⟨c, hc, rfl⟩))
      simp only [List.length_append, List.length_cons, List.length_nil] at this ⊢
      omega)
    obtain ⟨st2, r2, e2, hh2, f2⟩ := ihl (fun d h => ih d (List.mem_cons_of_mem _ h)) (i + 1) st1 level (s ++ r1)
      hh1 (fun j d h => by
        have := hm (j + 1) d (by simpa using h)
        rwa [show i + (j + 1) = i + 1 + j by omega] at this)
      (fun c hc => hl c (List.mem_append_right _ hc))
    refine ⟨st2, r1 ++ r2, ?_, hh2, ?_⟩
    · rw [visitCtxDaughters, e1]
      dsimp only
      rw [e2, List.append_assoc]
    · rw [pathsList, List.filter_append, List.filter_map]
      refine List.rel_append ?_ f2
      rw [List.forall₂_map_left_iff]
      have hfe : (endsIn m lv ∘ (i :: ·)) = endsIn d lv := by
        funext c
        show endsIn m lv (i :: c) = endsIn d lv c
        unfold endsIn
        rw [target, hd]
      rw [hfe]
      refine f1.imp (fun c x h => ?_)
      obtain ⟨l, h1, h2, h3⟩ := h
      refine ⟨m :: l, by rw [PVol.follow, hd]; dsimp only; rw [h1]; rfl, ?_, ?_⟩
      · rw [h2]; simp; omega
      · rw [h3]; simp

theorem visitCtx_paths (n lv : Nat) (v : PVol) : ∀ (pre : List PVol) st level s, Holds n pre st →
      (∀ c ∈ paths v, pre.length + c.length + 1 ≤ n ∧ pre.length + c.length + 1 < 256) →
      ∃ st' res, visitCtx (pathsApply lv) v st level s = some (st', s ++ res) ∧ Holds n pre st' ∧
        List.Forall₂ (StateOf pre v) ((paths v).filter (endsIn v lv)) res := by
  induction v using PVol.ind with
  | h v ih =>
    intro pre st level s hs hl
    rw [paths_eq] at hl
    obtain ⟨st1, e1, hh1, ht⟩ := hs.push v (by simpa using (hl [] (by simp)).1) (by simpa using (hl [] (by simp)).2)
    obtain ⟨st2, r2, e2, hh2, f2⟩ := visitCtxDaughters_paths n lv v pre v.daughters ih 0 st1 (level + 1)
      (if v.lid = lv then s ++ [st1] else s) hh1 (fun j d h => by simpa using h)
      (fun c hc => hl c (List.mem_cons_of_mem _ hc))
    have hst : StateOf pre v [] st1 := ⟨[v], rfl, by rw [hh1.1]; simp, by rw [hh1.1, hh1.2.1]⟩
    have hen : endsIn v lv [] = (v.lid == lv) := rfl
    refine ⟨st2.pop, (if v.lid = lv then [st1] else []) ++ r2, ?_, hh2.pop, ?_⟩
    · rw [visitCtx_eq, e1]
      dsimp only
      rw [pathsApply, ht]
      dsimp only
      rw [e2]
      dsimp only
      by_cases h : v.lid = lv <;> simp [h]
    · rw [paths_eq, List.filter_cons, hen]
      by_cases h : v.lid = lv
      · rw [if_pos (by simp [h]), if_pos h]
        exact .cons hst f2
      · rw [if_neg (by simp [h]), if_neg h]
        exact f2

end Visit
end VecGeom

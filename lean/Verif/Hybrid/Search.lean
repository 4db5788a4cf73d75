import Verif.Hybrid.Scan
import Verif.BVH.Props

/-!
# Sorting, the early-exit loop, the padding lanes and the safety loop
-/

namespace VecGeom
namespace Hybrid

open AABB
open BVH (DistOK Ignored)

/-! ### insertion sort -/

theorem insertRev_perm (v : Nat × ℝ) (l : List (Nat × ℝ)) : (insertRev v l).Perm (v :: l) := by
  induction l with
  | nil => exact List.Perm.refl _
  | cons x l ih =>
    rw [insertRev]
    split
    · exact (ih.cons x).trans (List.Perm.swap v x l)
    · exact List.Perm.refl _

theorem insertRev_sorted (v : Nat × ℝ) {l : List (Nat × ℝ)} (h : l.Pairwise (fun a b => b.2 ≤ a.2)) :
    (insertRev v l).Pairwise (fun a b => b.2 ≤ a.2) := by
  induction l with
  | nil => exact List.pairwise_singleton _ _
  | cons x l ih =>
    rw [List.pairwise_cons] at h
    rw [insertRev]
    split
    · rename_i hv
      rw [List.pairwise_cons]
      refine ⟨?_, ih h.2⟩
      intro y hy
      rcases List.mem_cons.mp ((insertRev_perm v l).mem_iff.mp hy) with rfl | hy
      · exact hv.le
      · exact h.1 y hy
    · rename_i hv
      rw [List.pairwise_cons]
      refine ⟨?_, List.pairwise_cons.mpr h⟩
      intro y hy
      rcases List.mem_cons.mp hy with rfl | hy
      · exact not_lt.mp hv
      · exact (h.1 y hy).trans (not_lt.mp hv)

theorem sort_fold (l : List (Nat × ℝ)) : ∀ acc : List (Nat × ℝ), acc.Pairwise (fun a b => a.2 ≤ b.2) →
    (l.foldl (fun sorted v => (insertRev v sorted.reverse).reverse) acc).Perm (acc ++ l) ∧
    (l.foldl (fun sorted v => (insertRev v sorted.reverse).reverse) acc).Pairwise (fun a b => a.2 ≤ b.2) := by
  induction l with
  | nil => intro acc h; exact ⟨by simp, h⟩
  | cons v l ih =>
    intro acc h
    have h1 : (insertRev v acc.reverse).reverse.Pairwise (fun a b => a.2 ≤ b.2) := by
      rw [List.pairwise_reverse]
      exact insertRev_sorted v (List.pairwise_reverse.mpr h)
    obtain ⟨hp, hs⟩ := ih _ h1
    refine ⟨?_, hs⟩
    rw [List.foldl_cons]
    refine hp.trans ?_
    have h2 : (insertRev v acc.reverse).reverse.Perm (v :: acc) :=
      (List.reverse_perm _).trans ((insertRev_perm v _).trans ((List.reverse_perm acc).cons v))
    refine (h2.append_right l).trans ?_
    rw [List.cons_append]
    exact List.perm_middle.symm

theorem insertionSort_spec {l : List (Nat × ℝ)} (h : l.length ≤ 32768) :
    ∃ l', insertionSort l = some l' ∧ l'.Perm l ∧ l'.Pairwise (fun a b => a.2 ≤ b.2) := by
  obtain ⟨h1, h2⟩ := sort_fold l [] List.Pairwise.nil
  exact ⟨_, if_pos h, by simpa using h1, h2⟩

/-! ### the loop with early exit -/

theorem sortedLoop_spec {n : Nat} {dist : Nat → ℝ → ℝ} {T : Nat → ℝ} {last hit0 : Option Nat} {step0 : ℝ}
    (hd : DistOK n dist T step0) (l : List (Nat × ℝ)) : ∀ (s : ℝ) (hit : Option Nat),
    (∀ e ∈ l, e.1 < n) → l.Pairwise (fun a b => a.2 ≤ b.2) → s ≤ step0 →
    ((s = step0 ∧ hit = hit0) ∨ ∃ i, i < n ∧ hit = some i ∧ s = T i ∧ T i < step0 ∧ ¬ Ignored last T i) →
    (∀ i, i < n → ¬ Ignored last T i → s ≤ T i ∨ ∃ e ∈ l, e.1 = i ∧ e.2 ≤ T i) →
    ∃ s' hit', sortedLoop n dist last l s hit = some (s', hit') ∧ s' ≤ step0 ∧
      (∀ i, i < n → ¬ Ignored last T i → s' ≤ T i) ∧
      ((s' = step0 ∧ hit' = hit0) ∨ ∃ i, i < n ∧ hit' = some i ∧ s' = T i ∧ T i < step0 ∧ ¬ Ignored last T i) := by
  induction l with
  | nil =>
    intro s hit _ _ hs hI hC
    refine ⟨s, hit, rfl, hs, fun i hi hg => ?_, hI⟩
    rcases hC i hi hg with h | ⟨e, he, -⟩
    · exact h
    · cases he
  | cons e l ih =>
    intro s hit hn hsort hs hI hC
    obtain ⟨i, box⟩ := e
    rw [List.pairwise_cons] at hsort
    have hn' : ∀ e ∈ l, e.1 < n := fun e he => hn e (List.mem_cons_of_mem _ he)
    have hin : i < n := hn (i, box) List.mem_cons_self
    rw [sortedLoop]
    by_cases hb : s < box
    · rw [if_neg (by tauto)]
      refine ⟨s, hit, rfl, hs, fun j hj hg => ?_, hI⟩
      rcases hC j hj hg with h | ⟨e, he, h1, h2⟩
      · exact h
      · rcases List.mem_cons.mp he with rfl | he
        · exact hb.le.trans h2
        · exact hb.le.trans ((hsort.1 e he).trans h2)
    · rw [if_pos hb, if_pos hin]
      dsimp only
      -- what remains to be covered after a round that leaves a step `s' ≤ T i` unless `i` is ignored
      have cover : ∀ s', s' ≤ s → (¬ Ignored last T i → s' ≤ T i) →
          ∀ j, j < n → ¬ Ignored last T j → s' ≤ T j ∨ ∃ e ∈ l, e.1 = j ∧ e.2 ≤ T j := by
        intro s' hle hi' j hj hg
        rcases hC j hj hg with h | ⟨e, he, h1, h2⟩
        · exact Or.inl (hle.trans h)
        · rcases List.mem_cons.mp he with rfl | he
          · dsimp only at h1
            subst h1
            exact Or.inl (hi' hg)
          · exact Or.inr ⟨e, he, h1, h2⟩
      rcases lt_or_ge (T i) s with hT | hT
      · rw [(hd i hin s hs).1 hT]
        by_cases hig : T i ≤ 0 ∧ last = some i
        · rw [if_neg (by tauto)]
          exact ih s hit hn' hsort.2 hs hI (cover s (le_refl _) (fun h => absurd hig h))
        · rw [if_pos ⟨hT, hig⟩]
          exact ih (T i) (some i) hn' hsort.2 (by linarith) (Or.inr ⟨i, hin, rfl, rfl, by linarith, hig⟩)
            (cover (T i) hT.le (fun _ => le_refl _))
      · have h2 := (hd i hin s hs).2 hT
        rw [if_neg (by rintro ⟨h, -⟩; linarith)]
        exact ih s hit hn' hsort.2 hs hI (cover s (le_refl _) (fun _ => hT))

/-! ### node boxes and padding lanes -/

theorem foldl_union_mono (boxes : Nat → Box) (c : List Nat) (b : Box) {q : V3} (h : InBox b q) :
    InBox (c.foldl (fun b a => b.union (boxes a)) b) q := by
  induction c generalizing b with
  | nil => exact h
  | cons x c ih =>
    rw [List.foldl_cons]
    apply ih
    obtain ⟨⟨h1, h2⟩, ⟨h3, h4⟩, ⟨h5, h6⟩⟩ := h
    exact ⟨⟨(min_le_left _ _).trans h1, h2.trans (le_max_left _ _)⟩, ⟨(min_le_left _ _).trans h3, h4.trans (le_max_left _ _)⟩,
      ⟨(min_le_left _ _).trans h5, h6.trans (le_max_left _ _)⟩⟩

/-- Corners of the node against corners of a member. -/
theorem nodeBox_le (boxes : Nat → Box) {c : List Nat} {a : Nat} (ha : a ∈ c) (b : Box) :
    let u := c.foldl (fun b a => b.union (boxes a)) b
    (u.lo.x ≤ (boxes a).lo.x ∧ u.lo.y ≤ (boxes a).lo.y ∧ u.lo.z ≤ (boxes a).lo.z) ∧
    ((boxes a).hi.x ≤ u.hi.x ∧ (boxes a).hi.y ≤ u.hi.y ∧ (boxes a).hi.z ≤ u.hi.z) := by
  have mono : ∀ (c : List Nat) (b : Box), let u := c.foldl (fun b a => b.union (boxes a)) b
      (u.lo.x ≤ b.lo.x ∧ u.lo.y ≤ b.lo.y ∧ u.lo.z ≤ b.lo.z) ∧ (b.hi.x ≤ u.hi.x ∧ b.hi.y ≤ u.hi.y ∧ b.hi.z ≤ u.hi.z) := by
    intro c
    induction c with
    | nil => intro b; exact ⟨⟨le_refl _, le_refl _, le_refl _⟩, ⟨le_refl _, le_refl _, le_refl _⟩⟩
    | cons x c ih =>
      intro b
      obtain ⟨⟨h1, h2, h3⟩, ⟨h4, h5, h6⟩⟩ := ih (b.union (boxes x))
      exact ⟨⟨h1.trans (min_le_left _ _), h2.trans (min_le_left _ _), h3.trans (min_le_left _ _)⟩,
        ⟨(le_max_left _ _).trans h4, (le_max_left _ _).trans h5, (le_max_left _ _).trans h6⟩⟩
  induction c generalizing b with
  | nil => cases ha
  | cons x c ih =>
    rcases List.mem_cons.mp ha with rfl | ha
    · obtain ⟨⟨h1, h2, h3⟩, ⟨h4, h5, h6⟩⟩ := mono c (b.union (boxes a))
      exact ⟨⟨h1.trans (min_le_right _ _), h2.trans (min_le_right _ _), h3.trans (min_le_right _ _)⟩,
        ⟨(le_max_right _ _).trans h4, (le_max_right _ _).trans h5, (le_max_right _ _).trans h6⟩⟩
    · exact ih ha _

theorem nodeBox_inBox {boxes : Nat → Box} {c : List Nat} {a : Nat} (ha : a ∈ c) {q : V3} (h : InBox (boxes a) q) :
    InBox (nodeBox boxes c) q := by
  obtain ⟨⟨h1, h2, h3⟩, ⟨h4, h5, h6⟩⟩ := nodeBox_le boxes ha startBox
  obtain ⟨⟨a1, a2⟩, ⟨a3, a4⟩, ⟨a5, a6⟩⟩ := h
  exact ⟨⟨h1.trans a1, a2.trans h4⟩, ⟨h2.trans a3, a4.trans h5⟩, ⟨h3.trans a5, a6.trans h6⟩⟩

/-- The query point is far from the padding value and the direction is a unit vector. -/
structure Near (M : ℝ) (p : V3) : Prop where
  one_le : 1 ≤ M
  x : |p.x| ≤ M / 8
  y : |p.y| ≤ M / 8
  z : |p.z| ≤ M / 8

theorem padBox_inBox {M : ℝ} {q : V3} : InBox (padBox M) q ↔ q = padV M := by
  constructor
  · rintro ⟨⟨h1, h2⟩, ⟨h3, h4⟩, ⟨h5, h6⟩⟩
    ext
    · exact le_antisymm h2 h1
    · exact le_antisymm h4 h3
    · exact le_antisymm h6 h5
  · rintro rfl
    exact ⟨⟨le_refl _, le_refl _⟩, ⟨le_refl _, le_refl _⟩, ⟨le_refl _, le_refl _⟩⟩

theorem pad_ray {M : ℝ} {p d : V3} (hn : Near M p) (hfull : Full d) (hd : d.mag2 ≤ 11 / 10) {t1 : ℝ} (h0 : 0 ≤ t1)
    (h1 : t1 ≤ M) (hM : M ≤ kInfLength) : t1 ≤ kernel2 (padBox M) p d 0 t1 := by
  by_contra hc
  rw [not_le] at hc
  set r := kernel2 (padBox M) p d 0 t1 with hr
  have hv : Valid (padBox M) := ⟨le_refl _, le_refl _, le_refl _⟩
  obtain ⟨hin, t, ht0, -, -, hint⟩ := C30_cached_kernel2_sound hv hfull h0 (show r < kInfLength by linarith)
  rw [← hr] at hin
  rw [padBox_inBox] at hin hint
  have ex := congrArg V3.x hin
  have ey := congrArg V3.y hin
  have ez := congrArg V3.z hin
  have tx := congrArg V3.x hint
  simp only [V3.at_x, V3.at_y, V3.at_z, padV] at ex ey ez tx
  have htr : t = r := by
    have : (t - r) * d.x = 0 := by linarith
    rcases mul_eq_zero.mp this with h | h
    · linarith
    · exact absurd h hfull.1
  have hM1 := hn.one_le
  have htol : kTolerance ≤ 1 := by unfold kTolerance; norm_num
  have hr0 : -1 < r := by linarith
  obtain ⟨x1, x2⟩ := abs_le.mp hn.x
  obtain ⟨y1, y2⟩ := abs_le.mp hn.y
  obtain ⟨z1, z2⟩ := abs_le.mp hn.z
  have sq : ∀ q : ℝ, -(M / 8) ≤ q → 49 / 64 * (M * M) ≤ (-M - q) * (-M - q) := by
    intro q hq
    nlinarith
  have hx := sq _ x1
  have hy := sq _ y1
  have hz := sq _ z1
  have hsum : r * r * d.mag2 = (-M - p.x) * (-M - p.x) + (-M - p.y) * (-M - p.y) + (-M - p.z) * (-M - p.z) := by
    rw [show -M - p.x = r * d.x by linarith, show -M - p.y = r * d.y by linarith, show -M - p.z = r * d.z by linarith]
    unfold V3.mag2 V3.dot
    ring
  have hrr : r * r ≤ M * M := by
    rcases le_or_gt 0 r with h | h
    · nlinarith
    · nlinarith
  have hdn : 0 ≤ d.mag2 := by unfold V3.mag2 V3.dot; nlinarith [mul_self_nonneg d.x, mul_self_nonneg d.y, mul_self_nonneg d.z]
  have hle : r * r * d.mag2 ≤ M * M * (11 / 10) := by
    have := mul_self_nonneg r
    nlinarith
  nlinarith

theorem nonZero_mag2 {d : V3} (hd : d.mag2 = 1) : d.nonZero.mag2 ≤ 11 / 10 := by
  have key : ∀ x : ℝ, x * x ≤ 1 → VecGeom.nonZero x * VecGeom.nonZero x ≤ x * x + 1 / 100 := by
    intro x hx
    have h := abs_nonZero_sub x
    have ht : kTiny ≤ 1 / 1000 := kTiny_le
    have htp := kTiny_pos
    have hx1 : |x| ≤ 1 := by
      rw [abs_le]; constructor <;> nlinarith
    obtain ⟨a1, a2⟩ := abs_le.mp hx1
    obtain ⟨b1, b2⟩ := abs_le.mp (le_of_eq h)
    generalize VecGeom.nonZero x = y at *
    nlinarith
  have e : d.x * d.x + d.y * d.y + d.z * d.z = 1 := hd
  have h1 := key d.x (by nlinarith [mul_self_nonneg d.y, mul_self_nonneg d.z])
  have h2 := key d.y (by nlinarith [mul_self_nonneg d.x, mul_self_nonneg d.z])
  have h3 := key d.z (by nlinarith [mul_self_nonneg d.x, mul_self_nonneg d.y])
  change d.nonZero.x * d.nonZero.x + d.nonZero.y * d.nonZero.y + d.nonZero.z * d.nonZero.z ≤ 11 / 10
  simp only [V3.nonZero_x, V3.nonZero_y, V3.nonZero_z]
  linarith

theorem hitTest_pad {M : ℝ} {p d : V3} (hn : Near M p) (hd : d.mag2 = 1) {t1 : ℝ} (h0 : 0 ≤ t1) (h1 : t1 ≤ M)
    (hM : M ≤ kInfLength) : hitTest p d t1 (padBox M) = none := by
  unfold hitTest
  dsimp only
  rw [if_neg (not_lt.mpr (pad_ray hn (nonZero_full d) (nonZero_mag2 hd) h0 h1 hM))]

/-- A box hit below the limit makes every larger box hit below the limit. -/
theorem kernel2_mono {b u : Box} (hv : Valid b) (hsub : ∀ q, InBox b q → InBox u q) {p d : V3} (hd : Full d) {t1 : ℝ} (h0 : 0 ≤ t1)
    (hM : t1 ≤ kInfLength) (h : kernel2 b p d 0 t1 < t1) : kernel2 u p d 0 t1 < t1 := by
  obtain ⟨hin, t, a1, a2, -, a4⟩ := C30_cached_kernel2_sound hv hd h0 (show kernel2 b p d 0 t1 < kInfLength by linarith)
  exact ((C30_cached_kernel2 hd a1 a2 (hsub _ a4)).2 _ (hsub _ hin)).trans_lt h

theorem hitTest_mono {boxes : Nat → Box} {n : Nat} (hv : ∀ i, i < n → Valid (boxes i)) (p d : V3) {t1 : ℝ} (h0 : 0 ≤ t1)
    (hM : t1 ≤ kInfLength) : Monotone boxes n (hitTest p d t1) := by
  intro c hc a ha h
  unfold hitTest at h ⊢
  dsimp only at h ⊢
  by_cases hk : kernel2 (boxes a) p d.nonZero 0 t1 < t1
  · rw [if_pos (kernel2_mono (hv a (hc a ha)) (fun q hq => nodeBox_inBox ha hq) (nonZero_full d) h0 hM hk)]
    simp
  · rw [if_neg hk] at h
    exact absurd rfl h

/-! ### safety -/

theorem safetyTest_pad {M : ℝ} {p : V3} (hn : Near M p) {limit : ℝ} (hl : limit ≤ M * M) :
    safetyTest p limit (padBox M) = none := by
  have hM1 := hn.one_le
  have hv : Valid (padBox M) := ⟨le_refl _, le_refl _, le_refl _⟩
  obtain ⟨x1, x2⟩ := abs_le.mp hn.x
  obtain ⟨y1, y2⟩ := abs_le.mp hn.y
  obtain ⟨z1, z2⟩ := abs_le.mp hn.z
  have hout : ¬ InBox (padBox M) p := by
    rw [padBox_inBox]
    rintro rfl
    dsimp only [padV] at x1
    linarith
  obtain ⟨-, -, q, hq, e⟩ := C31_safety_sqr_outside hv hout
  rw [padBox_inBox] at hq
  subst hq
  unfold safetyTest
  dsimp only
  rw [if_neg]
  rw [not_lt, ← e]
  unfold V3.dist2 padV
  dsimp only
  have sq : ∀ q : ℝ, -(M / 8) ≤ q → 49 / 64 * (M * M) ≤ (q - -M) ^ 2 := by
    intro q hq
    nlinarith
  have hx := sq _ x1
  have hy := sq _ y1
  have hz := sq _ z1
  nlinarith

theorem safetySqr_mono {b u : Box} (hv : Valid b) (hsub : ∀ q, InBox b q → InBox u q) {p : V3} {limit : ℝ} (hl : 0 < limit)
    (h : b.safetySqr p < limit) : u.safetySqr p < limit := by
  by_cases hu : InBox u p
  · exact (C31_safety_sqr_inside hu).1.trans_lt hl
  · have hb : ¬ InBox b p := fun h => hu (hsub _ h)
    obtain ⟨-, -, q, hq, e⟩ := C31_safety_sqr_outside hv hb
    have hvu := (hsub q hq).valid
    have := (C31_safety_sqr_outside hvu hu).2.1 q (hsub q hq)
    linarith

theorem safetyTest_mono {boxes : Nat → Box} {n : Nat} (hv : ∀ i, i < n → Valid (boxes i)) (p : V3) {limit : ℝ} (hl : 0 < limit) :
    Monotone boxes n (safetyTest p limit) := by
  intro c hc a ha h
  unfold safetyTest at h ⊢
  dsimp only at h ⊢
  by_cases hk : (boxes a).safetySqr p < limit
  · rw [if_pos (safetySqr_mono (hv a (hc a ha)) (fun q hq => nodeBox_inBox ha hq) hl hk)]
    simp
  · rw [if_neg hk] at h
    exact absurd rfl h

/-- A box whose squared safety is not below the square of a number bounds the distance to its points by that number. -/
theorem le_dist_of_safetySqr {b : Box} {p q : V3} (hq : InBox b q) {s : ℝ} (h : s * s ≤ b.safetySqr p) : s ≤ V3.dist p q := by
  have h2 : s * s ≤ V3.dist2 p q := by
    by_cases hb : InBox b p
    · have := (C31_safety_sqr_inside hb).1
      have := V3.dist2_nonneg p q
      linarith
    · exact h.trans ((C31_safety_sqr_outside hq.valid hb).2.1 q hq)
  rcases le_or_gt s 0 with hs | hs
  · exact hs.trans (Real.sqrt_nonneg _)
  · exact Real.le_sqrt_of_sq_le (by rw [pow_two]; exact h2)

/-- The loop over the candidates gives a bound on the distance to all volumes that lie in their boxes. -/
theorem treatLoop_spec {n : Nat} {boxes : Nat → Box} {p : V3} {safeties : Nat → ℝ} {D : Nat → V3 → Prop} {out : ℝ}
    (hbox : ∀ i, i < n → ∀ q, D i q → InBox (boxes i) q) (hsaf : ∀ i, i < n → ∀ q, D i q → safeties i ≤ V3.dist p q)
    (l : List (Nat × ℝ)) : ∀ s, (∀ e ∈ l, e.1 < n ∧ e.2 = (boxes e.1).safetySqr p) → s ≤ out →
    (s = out ∨ ∃ i, i < n ∧ s = safeties i) →
    (∀ i, i < n → (∀ q, D i q → s ≤ V3.dist p q) ∨ ∃ e ∈ l, e.1 = i) →
    ∃ s', treatLoop n safeties l s = some s' ∧ s' ≤ s ∧ s' ≤ out ∧ (s' = out ∨ ∃ i, i < n ∧ s' = safeties i) ∧
      ∀ i, i < n → ∀ q, D i q → s' ≤ V3.dist p q := by
  induction l with
  | nil =>
    intro s _ hs hI hC
    refine ⟨s, rfl, le_refl _, hs, hI, fun i hi q hq => ?_⟩
    rcases hC i hi with h | ⟨e, he, -⟩
    · exact h q hq
    · cases he
  | cons e l ih =>
    intro s hl hs hI hC
    obtain ⟨i, box⟩ := e
    obtain ⟨hin, hbx⟩ := hl (i, box) List.mem_cons_self
    dsimp only at hin hbx
    have hl' : ∀ e ∈ l, e.1 < n ∧ e.2 = (boxes e.1).safetySqr p := fun e he => hl e (List.mem_cons_of_mem _ he)
    have cover : ∀ s', s' ≤ s → (∀ q, D i q → s' ≤ V3.dist p q) →
        ∀ j, j < n → (∀ q, D j q → s' ≤ V3.dist p q) ∨ ∃ e ∈ l, e.1 = j := by
      intro s' hle h j hj
      rcases hC j hj with h1 | ⟨e, he, h1⟩
      · exact Or.inl fun q hq => hle.trans (h1 q hq)
      · rcases List.mem_cons.mp he with rfl | he
        · dsimp only at h1
          subst h1
          exact Or.inl h
        · exact Or.inr ⟨e, he, h1⟩
    rw [treatLoop]
    by_cases hc : box < s * s
    · rw [if_pos hc, if_pos hin]
      by_cases hlt : safeties i < s
      · rw [if_pos hlt]
        obtain ⟨s', e1, h1, h2, h3, h4⟩ := ih (safeties i) hl' (by linarith) (Or.inr ⟨i, hin, rfl⟩)
          (cover _ hlt.le (hsaf i hin))
        exact ⟨s', e1, by linarith, h2, h3, h4⟩
      · rw [if_neg hlt]
        exact ih s hl' hs hI (cover s (le_refl _) (fun q hq => (not_lt.mp hlt).trans (hsaf i hin q hq)))
    · rw [if_neg hc]
      refine ih s hl' hs hI (cover s (le_refl _) (fun q hq => ?_))
      refine le_dist_of_safetySqr (hbox i hin q hq) ?_
      rw [← hbx]
      exact not_lt.mp hc

end Hybrid
end VecGeom

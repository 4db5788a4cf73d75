import Verif.Torus.Volume
import Verif.Tube.PropsMore
import Mathlib.Analysis.Real.Pi.Bounds

/-!
# Properties of tori: extent, convexity, setters, sampling
-/

namespace VecGeom
namespace Torus

open Real MeasureTheory

theorem rad_polar {k c s : ℝ} (hk : 0 ≤ k) (hcs : c ^ 2 + s ^ 2 = 1) (z : ℝ) : Tube.rad ⟨k * c, k * s, z⟩ = k := by
  unfold Tube.rad
  show √((k * c) ^ 2 + (k * s) ^ 2) = k
  rw [show (k * c) ^ 2 + (k * s) ^ 2 = k ^ 2 by linear_combination k ^ 2 * hcs, sqrt_sq hk]

section
variable {a : Par} (hv : a.Valid)
include hv

/-- The bounding tube, as parameters. -/
noncomputable def _root_.VecGeom.Torus.Par.box (a : Par) : Tube.Par :=
  ⟨max (a.rtor - a.rmax - kTolerance) 0, a.rtor + a.rmax + kTolerance, a.rmax, a.s, a.d⟩

omit hv in
theorem tube_eq : (un a).tube = Tube.of a.box := by
  show Tube.make (a.rtor - a.rmax - kTolerance) (a.rtor + a.rmax + kTolerance) a.rmax a.s a.d =
    Tube.make (max (a.rtor - a.rmax - kTolerance) 0) (a.rtor + a.rmax + kTolerance) a.rmax a.s a.d
  unfold Tube.make
  congr 2
  rcases lt_or_ge (a.rtor - a.rmax - kTolerance) 0 with h | h
  · rw [if_pos h, max_eq_right h.le, if_neg (lt_irrefl _)]
  · rw [if_neg (by linarith), max_eq_left h, if_neg (by linarith)]

theorem box_valid : a.box.Valid := by
  have hk := kTolerance_pos
  have hm : 0 < a.rmax := hv.rmin.trans_lt hv.rmax
  have h1 := hv.rtor
  exact ⟨le_max_right _ _, max_lt (by show _ < a.rtor + a.rmax + kTolerance; linarith) (by show _ < a.rtor + a.rmax + kTolerance; linarith),
    hm, hv.d, hv.d'⟩

theorem box_of (p : V3) (h : a.Closed p) : a.box.Closed p := by
  have hk := kTolerance_pos
  have hm : 0 < a.rmax := hv.rmin.trans_lt hv.rmax
  have hs := ringDist_sq a.rtor p
  have h0 := ringDist_nonneg a.rtor p
  have hle : (Tube.rad p - a.rtor) ^ 2 + p.z ^ 2 ≤ a.rmax ^ 2 := by rw [← hs]; exact pow_le_pow_left₀ h0 h.hi 2
  refine ⟨abs_le_of_sq_le_sq (show p.z ^ 2 ≤ a.rmax ^ 2 by nlinarith [sq_nonneg (Tube.rad p - a.rtor)]) hm.le, ?_, ?_, h.phi⟩
  · have := abs_le.mp (abs_le_of_sq_le_sq (show (Tube.rad p - a.rtor) ^ 2 ≤ a.rmax ^ 2 by nlinarith [sq_nonneg p.z]) hm.le)
    exact max_le (by linarith [this.1]) (Tube.rad_nonneg _)
  · have := abs_le.mp (abs_le_of_sq_le_sq (show (Tube.rad p - a.rtor) ^ 2 ≤ a.rmax ^ 2 by nlinarith [sq_nonneg p.z]) hm.le)
    show Tube.rad p ≤ a.rtor + a.rmax + kTolerance
    linarith [this.2]

/-- Near every point of the bounding tube there is one of the torus, up to its height. -/
theorem of_box (hr : a.Ring) (p : V3) (h : a.box.Closed p) :
    ∃ q, a.Closed q ∧ |q.x - p.x| ≤ kTolerance ∧ |q.y - p.y| ≤ kTolerance := by
  have hk := kTolerance_pos
  have hm : 0 < a.rmax := hv.rmin.trans_lt hv.rmax
  have hr' : a.rmax ≤ a.rtor := hr
  obtain ⟨k, t, hk0, ht0, ht1, hx, hy⟩ := h.phi
  have ht1 : t ≤ a.d := ht1
  have hx : p.x = k * cos (a.s + t) := hx
  have hy : p.y = k * sin (a.s + t) := hy
  have hcs : cos (a.s + t) ^ 2 + sin (a.s + t) ^ 2 = 1 := by rw [add_comm]; exact sin_sq_add_cos_sq _
  have hrad : Tube.rad p = k := by
    have := rad_polar hk0 hcs p.z
    rw [← hx, ← hy] at this
    exact this
  have hlo : a.rtor - a.rmax - kTolerance ≤ k := by rw [← hrad]; exact le_trans (le_max_left _ _) h.lo
  have hhi : k ≤ a.rtor + a.rmax + kTolerance := by rw [← hrad]; exact h.hi
  obtain ⟨l, hl1, hl2, hl3⟩ : ∃ l, a.rtor - a.rmax ≤ l ∧ l ≤ a.rtor + a.rmax ∧ |l - k| ≤ kTolerance := by
    rcases lt_or_ge k (a.rtor - a.rmax) with c | c
    · exact ⟨a.rtor - a.rmax, le_refl _, by linarith, abs_le.mpr ⟨by linarith, by linarith⟩⟩
    · rcases lt_or_ge (a.rtor + a.rmax) k with c' | c'
      · exact ⟨a.rtor + a.rmax, by linarith, le_refl _, abs_le.mpr ⟨by linarith, by linarith⟩⟩
      · exact ⟨k, c, c', by rw [sub_self, abs_zero]; exact hk.le⟩
  have hl0 : 0 ≤ l := by linarith
  have hsq : (l - a.rtor) ^ 2 ≤ a.rmax ^ 2 := sq_le_sq' (by linarith) (by linarith)
  have hd : ringDist a.rtor ⟨l * cos (a.s + t), l * sin (a.s + t), √(a.rmax ^ 2 - (l - a.rtor) ^ 2)⟩ = a.rmax := by
    unfold ringDist
    rw [rad_polar hl0 hcs]
    show √((l - a.rtor) ^ 2 + √(a.rmax ^ 2 - (l - a.rtor) ^ 2) ^ 2) = a.rmax
    rw [sq_sqrt (by linarith), show (l - a.rtor) ^ 2 + (a.rmax ^ 2 - (l - a.rtor) ^ 2) = a.rmax ^ 2 by ring, sqrt_sq hm.le]
  have hmul : ∀ c : ℝ, |c| ≤ 1 → |l * c - k * c| ≤ kTolerance := by
    intro c hc
    rw [← sub_mul, abs_mul]
    nlinarith [abs_nonneg (l - k), abs_nonneg c]
  refine ⟨_, ⟨by rw [hd]; exact hv.rmax.le, hd.le, l, t, hl0, ht0, ht1, rfl, rfl⟩, ?_, ?_⟩
  · show |l * cos (a.s + t) - p.x| ≤ kTolerance
    rw [hx]; exact hmul _ (abs_cos_le_one _)
  · show |l * sin (a.s + t) - p.y| ≤ kTolerance
    rw [hy]; exact hmul _ (abs_sin_le_one _)

/-- C180: the torus is in its box. -/
theorem C180_extent (p : V3) (h : a.Closed p) :
    (extent (un a)).1.x ≤ p.x ∧ p.x ≤ (extent (un a)).2.x ∧ (extent (un a)).1.y ≤ p.y ∧ p.y ≤ (extent (un a)).2.y ∧
    (extent (un a)).1.z ≤ p.z ∧ p.z ≤ (extent (un a)).2.z := by
  obtain ⟨e1, e2, e3, e4, e5, e6⟩ := Tube.C81_extent (box_valid hv)
  have hb := box_of hv p h
  unfold extent
  rw [tube_eq]
  exact ⟨e1.2 ⟨p, hb, rfl⟩, e2.2 ⟨p, hb, rfl⟩, e3.2 ⟨p, hb, rfl⟩, e4.2 ⟨p, hb, rfl⟩, e5.2 ⟨p, hb, rfl⟩, e6.2 ⟨p, hb, rfl⟩⟩

/-- C180: the box of a torus that does not meet itself is the smallest one up to the tolerance, and the smallest one along z. -/
theorem C180_tight (hr : a.Ring) :
    (∃ q, a.Closed q ∧ q.x ≤ (extent (un a)).1.x + kTolerance) ∧ (∃ q, a.Closed q ∧ (extent (un a)).2.x - kTolerance ≤ q.x) ∧
    (∃ q, a.Closed q ∧ q.y ≤ (extent (un a)).1.y + kTolerance) ∧ (∃ q, a.Closed q ∧ (extent (un a)).2.y - kTolerance ≤ q.y) ∧
    (∃ q, a.Closed q ∧ q.z = (extent (un a)).1.z) ∧ (∃ q, a.Closed q ∧ q.z = (extent (un a)).2.z) := by
  have hm : 0 < a.rmax := hv.rmin.trans_lt hv.rmax
  obtain ⟨⟨⟨p1, c1, e1⟩, -⟩, ⟨⟨p2, c2, e2⟩, -⟩, ⟨⟨p3, c3, e3⟩, -⟩, ⟨⟨p4, c4, e4⟩, -⟩, h5, h6⟩ := Tube.C81_extent (box_valid hv)
  have h5 : (Tube.extent (Tube.of a.box)).1.z = -a.rmax := by
    obtain ⟨⟨p, hc, e⟩, hl⟩ := h5
    refine le_antisymm (hl ⟨⟨(a.rtor) * cos a.s, a.rtor * sin a.s, -a.rmax⟩, box_of hv _ ?_, rfl⟩) (e ▸ (abs_le.mp hc.z).1)
    have hcs : cos a.s ^ 2 + sin a.s ^ 2 = 1 := by rw [add_comm]; exact sin_sq_add_cos_sq _
    have hd : ringDist a.rtor ⟨(a.rtor) * cos a.s, a.rtor * sin a.s, -a.rmax⟩ = a.rmax := by
      unfold ringDist
      rw [rad_polar hv.rtor hcs]
      show √((a.rtor - a.rtor) ^ 2 + (-a.rmax) ^ 2) = a.rmax
      rw [show (a.rtor - a.rtor) ^ 2 + (-a.rmax) ^ 2 = a.rmax ^ 2 by ring, sqrt_sq hm.le]
    exact ⟨by rw [hd]; exact hv.rmax.le, hd.le, a.rtor, 0, hv.rtor, le_refl _, hv.d.le, by rw [add_zero], by rw [add_zero]⟩
  have h6 : (Tube.extent (Tube.of a.box)).2.z = a.rmax := by
    obtain ⟨⟨p, hc, e⟩, hl⟩ := h6
    refine le_antisymm (e ▸ (abs_le.mp hc.z).2) (hl ⟨⟨(a.rtor) * cos a.s, a.rtor * sin a.s, a.rmax⟩, box_of hv _ ?_, rfl⟩)
    have hcs : cos a.s ^ 2 + sin a.s ^ 2 = 1 := by rw [add_comm]; exact sin_sq_add_cos_sq _
    have hd : ringDist a.rtor ⟨(a.rtor) * cos a.s, a.rtor * sin a.s, a.rmax⟩ = a.rmax := by
      unfold ringDist
      rw [rad_polar hv.rtor hcs]
      show √((a.rtor - a.rtor) ^ 2 + a.rmax ^ 2) = a.rmax
      rw [show (a.rtor - a.rtor) ^ 2 + a.rmax ^ 2 = a.rmax ^ 2 by ring, sqrt_sq hm.le]
    exact ⟨by rw [hd]; exact hv.rmax.le, hd.le, a.rtor, 0, hv.rtor, le_refl _, hv.d.le, by rw [add_zero], by rw [add_zero]⟩
  have hz : ∀ z, |z| = a.rmax → ∃ q, a.Closed q ∧ q.z = z := by
    intro z hz
    have hcs : cos a.s ^ 2 + sin a.s ^ 2 = 1 := by rw [add_comm]; exact sin_sq_add_cos_sq _
    have hd : ringDist a.rtor ⟨(a.rtor) * cos a.s, a.rtor * sin a.s, z⟩ = a.rmax := by
      unfold ringDist
      rw [rad_polar hv.rtor hcs]
      show √((a.rtor - a.rtor) ^ 2 + z ^ 2) = a.rmax
      rw [show (a.rtor - a.rtor) ^ 2 + z ^ 2 = z ^ 2 by ring, sqrt_sq_eq_abs, hz]
    exact ⟨_, ⟨by rw [hd]; exact hv.rmax.le, hd.le, a.rtor, 0, hv.rtor, le_refl _, hv.d.le, by rw [add_zero], by rw [add_zero]⟩, rfl⟩
  unfold extent
  rw [tube_eq, h5, h6]
  obtain ⟨q1, d1, x1, -⟩ := of_box hv hr p1 c1
  obtain ⟨q2, d2, x2, -⟩ := of_box hv hr p2 c2
  obtain ⟨q3, d3, -, x3⟩ := of_box hv hr p3 c3
  obtain ⟨q4, d4, -, x4⟩ := of_box hv hr p4 c4
  rw [← e1, ← e2, ← e3, ← e4]
  exact ⟨⟨q1, d1, by linarith [(abs_le.mp x1).2]⟩, ⟨q2, d2, by linarith [(abs_le.mp x2).1]⟩, ⟨q3, d3, by linarith [(abs_le.mp x3).2]⟩,
    ⟨q4, d4, by linarith [(abs_le.mp x4).1]⟩, hz _ (by rw [abs_neg, abs_of_pos hm]), hz _ (abs_of_pos hm)⟩

/-- C180: the convexity flag is set exactly for tori that are convex (balls and segments of balls). -/
theorem C180_convex : (un a).convex = true ↔
    ∀ p q, a.Closed p → a.Closed q → ∀ t, 0 ≤ t → t ≤ 1 → a.Closed (Tube.between p q t) := by
  have hp := pi_pos
  have hm : 0 < a.rmax := hv.rmin.trans_lt hv.rmax
  have hflag : (un a).convex = true ↔ a.rtor = 0 ∧ a.rmin = 0 ∧ (a.d ≤ π ∨ a.d = 2 * π) := by
    show decide (a.rtor = 0 ∧ a.rmin = 0 ∧ (a.d ≤ π ∨ a.d = 2 * π)) = true ↔ _
    exact decide_eq_true_iff
  have hball : a.rtor = 0 → ∀ p : V3, ringDist a.rtor p ^ 2 = p.x ^ 2 + p.y ^ 2 + p.z ^ 2 := by
    intro h p
    rw [ringDist_sq, h, sub_zero, Tube.rad_sq]
  rw [hflag]
  constructor
  · rintro ⟨h1, h2, h3⟩ p q hcp hcq t t0 t1
    refine ⟨by rw [h2]; exact ringDist_nonneg _ _, le_of_sq_le_sq ?_ hm.le, ?_⟩
    · have e1 := pow_le_pow_left₀ (ringDist_nonneg _ _) hcp.hi 2
      have e2 := pow_le_pow_left₀ (ringDist_nonneg _ _) hcq.hi 2
      rw [hball h1] at e1 e2 ⊢
      show (p.x + t * (q.x - p.x)) ^ 2 + (p.y + t * (q.y - p.y)) ^ 2 + (p.z + t * (q.z - p.z)) ^ 2 ≤ a.rmax ^ 2
      nlinarith [mul_nonneg t0 (sub_nonneg.mpr t1), mul_nonneg (mul_nonneg t0 (sub_nonneg.mpr t1)) (sq_nonneg (q.x - p.x)),
        mul_nonneg (mul_nonneg t0 (sub_nonneg.mpr t1)) (sq_nonneg (q.y - p.y)),
        mul_nonneg (mul_nonneg t0 (sub_nonneg.mpr t1)) (sq_nonneg (q.z - p.z)), mul_nonneg t0 (sub_nonneg.mpr e2),
        mul_nonneg (sub_nonneg.mpr t1) (sub_nonneg.mpr e1)]
    · rcases h3 with hf | hf
      · have hpr := Tube.rad_nonneg p
        have hqr := Tube.rad_nonneg q
        have hb : (⟨0, Tube.rad p + Tube.rad q + 1, 1, a.s, a.d⟩ : Tube.Par).Valid :=
          ⟨le_refl _, by show (0 : ℝ) < Tube.rad p + Tube.rad q + 1; linarith, by show (0 : ℝ) < 1; norm_num, hv.d, hv.d'⟩
        have hcon : Tube.detectConvexity (Tube.of ⟨0, Tube.rad p + Tube.rad q + 1, 1, a.s, a.d⟩) = true := by
          unfold Tube.detectConvexity
          rw [decide_eq_true_eq, Tube.of_rmin (le_refl _)]
          exact ⟨rfl, Or.inl hf⟩
        exact ((Tube.C81_convex hb).mp hcon ⟨p.x, p.y, 0⟩ ⟨q.x, q.y, 0⟩
          ⟨by show |(0 : ℝ)| ≤ 1; norm_num, hpr, by show Tube.rad p ≤ _; linarith, hcp.phi⟩
          ⟨by show |(0 : ℝ)| ≤ 1; norm_num, hqr, by show Tube.rad q ≤ _; linarith, hcq.phi⟩ t t0 t1).phi
      · rw [hf]; exact sector_full _ _ _
  · intro hc
    have h1 : a.rtor = 0 := by
      by_contra hne
      have hpos : 0 < a.rtor := lt_of_le_of_ne hv.rtor (Ne.symm hne)
      set δ := min a.d π with hδ
      have hδ0 : 0 < δ := lt_min hv.d hp
      have hδ1 : δ ≤ a.d := min_le_left _ _
      have hδ2 : δ ≤ π := min_le_right _ _
      have hd : ∀ t, ringDist a.rtor ⟨a.rtor * cos (a.s + t), a.rtor * sin (a.s + t), a.rmax⟩ = a.rmax := by
        intro t
        unfold ringDist
        rw [rad_polar hv.rtor (by rw [add_comm]; exact sin_sq_add_cos_sq _)]
        show √((a.rtor - a.rtor) ^ 2 + a.rmax ^ 2) = a.rmax
        rw [show (a.rtor - a.rtor) ^ 2 + a.rmax ^ 2 = a.rmax ^ 2 by ring, sqrt_sq hm.le]
      have hcl : ∀ t, 0 ≤ t → t ≤ a.d → a.Closed ⟨a.rtor * cos (a.s + t), a.rtor * sin (a.s + t), a.rmax⟩ := fun t t0 t1 =>
        ⟨by rw [hd]; exact hv.rmax.le, (hd t).le, a.rtor, t, hv.rtor, t0, t1, rfl, rfl⟩
      have h := (hc _ _ (hcl 0 (le_refl _) hv.d.le) (hcl δ hδ0.le hδ1) (1 / 2) (by norm_num) (by norm_num)).hi
      have h := pow_le_pow_left₀ (ringDist_nonneg _ _) h 2
      rw [ringDist_sq] at h
      have hz : (Tube.between ⟨a.rtor * cos (a.s + 0), a.rtor * sin (a.s + 0), a.rmax⟩
          ⟨a.rtor * cos (a.s + δ), a.rtor * sin (a.s + δ), a.rmax⟩ (1 / 2)).z = a.rmax := by
        show a.rmax + 1 / 2 * (a.rmax - a.rmax) = a.rmax
        ring
      rw [hz] at h
      have hr2 := Tube.rad_sq (Tube.between ⟨a.rtor * cos (a.s + 0), a.rtor * sin (a.s + 0), a.rmax⟩
          ⟨a.rtor * cos (a.s + δ), a.rtor * sin (a.s + δ), a.rmax⟩ (1 / 2))
      have he : Tube.rad (Tube.between ⟨a.rtor * cos (a.s + 0), a.rtor * sin (a.s + 0), a.rmax⟩
          ⟨a.rtor * cos (a.s + δ), a.rtor * sin (a.s + δ), a.rmax⟩ (1 / 2)) = a.rtor := by
        nlinarith [sq_nonneg (Tube.rad (Tube.between ⟨a.rtor * cos (a.s + 0), a.rtor * sin (a.s + 0), a.rmax⟩
          ⟨a.rtor * cos (a.s + δ), a.rtor * sin (a.s + δ), a.rmax⟩ (1 / 2)) - a.rtor)]
      rw [he] at hr2
      have hr3 : a.rtor ^ 2 = (a.rtor * cos (a.s + 0) + 1 / 2 * (a.rtor * cos (a.s + δ) - a.rtor * cos (a.s + 0))) ^ 2 +
          (a.rtor * sin (a.s + 0) + 1 / 2 * (a.rtor * sin (a.s + δ) - a.rtor * sin (a.s + 0))) ^ 2 := hr2
      rw [add_zero] at hr3
      have e1 := sin_sq_add_cos_sq a.s
      have e2 := sin_sq_add_cos_sq (a.s + δ)
      have e3 : cos (a.s + δ) * cos a.s + sin (a.s + δ) * sin a.s = cos δ := by
        rw [← cos_sub]; congr 1; ring
      have hlt : cos δ < 1 := by
        rw [← cos_zero]
        exact cos_lt_cos_of_nonneg_of_le_pi (le_refl _) hδ2 hδ0
      have hpos2 : 0 < a.rtor ^ 2 := by positivity
      have key : a.rtor ^ 2 = a.rtor ^ 2 * ((1 + cos δ) / 2) := by
        linear_combination hr3 + a.rtor ^ 2 / 4 * e1 + a.rtor ^ 2 / 4 * e2 + a.rtor ^ 2 / 2 * e3
      nlinarith
    have h2 : a.rmin = 0 := by
      have hd : ∀ z, ringDist a.rtor ⟨0, 0, z⟩ = |z| := by
        intro z
        unfold ringDist
        rw [rad_x (le_refl _), h1]
        show √((0 - 0) ^ 2 + z ^ 2) = |z|
        rw [show ((0 : ℝ) - 0) ^ 2 + z ^ 2 = z ^ 2 by ring, sqrt_sq_eq_abs]
      have hs : Sector a.s a.d 0 0 := ⟨0, 0, le_refl _, le_refl _, hv.d.le, by simp, by simp⟩
      have hcl : ∀ z, |z| = a.rmax → a.Closed ⟨0, 0, z⟩ := fun z hz => ⟨by rw [hd, hz]; exact hv.rmax.le, by rw [hd, hz], hs⟩
      have h := (hc _ _ (hcl a.rmax (abs_of_pos hm)) (hcl (-a.rmax) (by rw [abs_neg, abs_of_pos hm])) (1 / 2) (by norm_num) (by norm_num)).lo
      have e : Tube.between (⟨0, 0, a.rmax⟩ : V3) ⟨0, 0, -a.rmax⟩ (1 / 2) = ⟨0, 0, 0⟩ := by
        unfold Tube.between
        congr 1 <;> ring
      rw [e, hd, abs_zero] at h
      exact le_antisymm h hv.rmin
    refine ⟨h1, h2, ?_⟩
    have hb : (⟨0, a.rmax / 2, a.rmax / 2, a.s, a.d⟩ : Tube.Par).Valid :=
      ⟨le_refl _, by show (0 : ℝ) < a.rmax / 2; linarith, by show (0 : ℝ) < a.rmax / 2; linarith, hv.d, hv.d'⟩
    have hb2 : (⟨0, a.rmax / 2, a.rmax / 2, a.s, 2 * π⟩ : Tube.Par).Valid :=
      ⟨le_refl _, by show (0 : ℝ) < a.rmax / 2; linarith, by show (0 : ℝ) < a.rmax / 2; linarith, by show (0 : ℝ) < 2 * π; linarith, le_refl _⟩
    have hcyl : Tube.detectConvexity (Tube.of ⟨0, a.rmax / 2, a.rmax / 2, a.s, 2 * π⟩) = true := by
      unfold Tube.detectConvexity
      rw [decide_eq_true_eq, Tube.of_rmin (le_refl _)]
      exact ⟨rfl, Or.inr rfl⟩
    have hcv : Tube.detectConvexity (Tube.of ⟨0, a.rmax / 2, a.rmax / 2, a.s, a.d⟩) = true := by
      rw [Tube.C81_convex hb]
      intro p q cp cq t t0 t1
      have hin : ∀ p, (⟨0, a.rmax / 2, a.rmax / 2, a.s, a.d⟩ : Tube.Par).Closed p → a.Closed p := by
        rintro p ⟨c1, c2, c3, c4⟩
        refine ⟨by rw [h2]; exact ringDist_nonneg _ _, le_of_sq_le_sq ?_ hm.le, c4⟩
        rw [hball h1, ← Tube.rad_sq]
        have c1 : |p.z| ≤ a.rmax / 2 := c1
        have c3 : Tube.rad p ≤ a.rmax / 2 := c3
        have := Tube.rad_nonneg p
        have := abs_le.mp c1
        nlinarith
      have hfull := (Tube.C81_convex hb2).mp hcyl p q ⟨cp.z, cp.lo, cp.hi, sector_full _ _ _⟩ ⟨cq.z, cq.lo, cq.hi, sector_full _ _ _⟩ t t0 t1
      exact ⟨hfull.z, hfull.lo, hfull.hi, (hc p q (hin p cp) (hin q cq) t t0 t1).phi⟩
    unfold Tube.detectConvexity at hcv
    rw [decide_eq_true_eq] at hcv
    exact hcv.2

end

example : (un ⟨0, 1, 0, 0, π⟩).convex = true ∧ (un ring).convex = false := by
  constructor
  · show decide ((0 : ℝ) = 0 ∧ (0 : ℝ) = 0 ∧ (π ≤ π ∨ π = 2 * π)) = true
    exact decide_eq_true ⟨rfl, rfl, Or.inl (le_refl _)⟩
  · show decide ((5 : ℝ) = 0 ∧ (1 : ℝ) = 0 ∧ (2 * π ≤ π ∨ 2 * π = 2 * π)) = false
    exact decide_eq_false (fun h => by norm_num at h)

/-- The extent of the full ring. -/
example : (extent (un ring)).2.x = 7 + kTolerance := by
  unfold extent
  rw [tube_eq]
  unfold Tube.extent
  simp only []
  rw [if_pos (Or.inl (show (Tube.of ring.box).dphi = 2 * π from rfl))]
  show (5 : ℝ) + 2 + kTolerance = _
  ring

/-- C180, finding: after `SetRMax` the torus has the new radius, capacity and area, but containment still compares with the square of
the old one and the box is the old one; the torus that is constructed with the new radius contains the point and its box has it. -/
theorem C180_setters_counterexample :
    (setRMax (un ring) 4).t.rmax = 4 ∧ capacity (setRMax (un ring) 4) = capacity (un ⟨1, 4, 5, 0, 2 * π⟩) ∧
    contains (setRMax (un ring) 4).t ⟨8, 0, 0⟩ = false ∧ contains (un ⟨1, 4, 5, 0, 2 * π⟩).t ⟨8, 0, 0⟩ = true ∧
    extent (setRMax (un ring) 4) = extent (un ring) ∧ (extent (un ring)).2.x < 8 := by
  have hk := kTolerance_pos
  have ht := tol_pos
  have htl : tol < 1 / 10 := by unfold tol kTolerance; norm_num
  have hr : radsq (setRMax (un ring) 4).t ⟨8, 0, 0⟩ = 9 := by
    unfold radsq perp
    rw [Tube.rad_eq, rad_x (by norm_num)]
    show ((8 : ℝ) - 5) * (8 - 5) + 0 * 0 = 9
    norm_num
  refine ⟨rfl, rfl, ?_, ?_, rfl, ?_⟩
  · unfold contains
    rw [decide_eq_false_iff_not, not_not]
    left
    rw [hr]
    show (9 : ℝ) > tol * 4 + 2 * 2
    linarith
  · have hv : (⟨1, 4, 5, 0, 2 * π⟩ : Par).Valid :=
      ⟨by norm_num, by norm_num, by norm_num, by show (0 : ℝ) < 2 * π; positivity, le_refl _⟩
    refine (C176_contains_partial hv rfl _).1 ⟨?_, ?_, sector_full _ _ _⟩
    · show (1 : ℝ) ≤ ringDist 5 _; rw [ringDist_x (by norm_num)]; norm_num [abs_of_nonneg]
    · show ringDist 5 _ ≤ (4 : ℝ); rw [ringDist_x (by norm_num)]; norm_num [abs_of_nonneg]
  · unfold extent
    rw [tube_eq]
    unfold Tube.extent
    simp only []
    rw [if_pos (Or.inl (show (Tube.of ring.box).dphi = 2 * π from rfl))]
    show (5 : ℝ) + 2 + kTolerance < 8
    unfold kTolerance; norm_num

/-! ### Sampling -/

theorem tube_rad {R r : ℝ} (h0 : 0 ≤ r) (h1 : r ≤ R) (φ θ : ℝ) : Tube.rad (tubePoint R r φ θ) = R + r * cos θ := by
  have hl : 0 ≤ R + r * cos θ := by nlinarith [neg_one_le_cos θ]
  exact rad_polar hl (by rw [add_comm]; exact sin_sq_add_cos_sq _) _

theorem tube_dist {R r : ℝ} (h0 : 0 ≤ r) (h1 : r ≤ R) (φ θ : ℝ) : ringDist R (tubePoint R r φ θ) = r := by
  unfold ringDist
  rw [tube_rad h0 h1]
  show √((R + r * cos θ - R) ^ 2 + (r * sin θ) ^ 2) = r
  rw [show (R + r * cos θ - R) ^ 2 + (r * sin θ) ^ 2 = r ^ 2 by linear_combination r ^ 2 * sin_sq_add_cos_sq θ, sqrt_sq h0]

theorem ring_mem {x y u : ℝ} (hx : 0 ≤ x) (hxy : x < y) (h0 : 0 ≤ u) (h1 : u ≤ 1) : x ≤ radiusInRing x y u ∧ radiusInRing x y u ≤ y := by
  unfold radiusInRing
  have hy : 0 < y := hx.trans_lt hxy
  by_cases c : x ≤ 0
  · rw [if_pos c]
    have hx0 : x = 0 := le_antisymm c hx
    rw [hx0]
    exact ⟨by positivity, by nlinarith [sqrt_le_one.mpr h1, sqrt_nonneg u]⟩
  · rw [if_neg c, if_pos hxy.ne]
    constructor
    · have : 0 ≤ u * (y * y - x * x) := mul_nonneg h0 (by nlinarith)
      exact le_sqrt_of_sq_le (by nlinarith)
    · have : 0 ≤ (1 - u) * (y * y - x * x) := mul_nonneg (by linarith) (by nlinarith)
      rw [sqrt_le_left hy.le]; nlinarith

/-- C181: the points that are sampled are on the surface of the torus, if it is not a full torus with a start angle. -/
theorem C181_sample_partial {a : Par} (hv : a.Valid) (hr : a.Ring) (hf : a.d < 2 * π ∨ a.s = 0) {r1 r2 r3 r4 : ℝ} (h1 : 0 ≤ r1) (h1' : r1 < 1)
    (h3 : 0 ≤ r3) (h3' : r3 < 1) (h4 : 0 ≤ r4) (h4' : r4 < 1) :
    a.Closed (samplePoint (un a) r1 r2 r3 r4) ∧
    (ringDist a.rtor (samplePoint (un a) r1 r2 r3 r4) = a.rmax ∨
      (0 < a.rmin ∧ ringDist a.rtor (samplePoint (un a) r1 r2 r3 r4) = a.rmin) ∨
      (a.d < 2 * π ∧ (AboveRay a.s 0 (samplePoint (un a) r1 r2 r3 r4).x (samplePoint (un a) r1 r2 r3 r4).y ∨
        AboveRay (a.s + a.d) 0 (samplePoint (un a) r1 r2 r3 r4).x (samplePoint (un a) r1 r2 r3 r4).y))) := by
  have hp := pi_pos
  have hm : 0 < a.rmax := hv.rmin.trans_lt hv.rmax
  have hr' : a.rmax ≤ a.rtor := hr
  have hmr : a.rmin ≤ a.rtor := hv.rmax.le.trans hr
  obtain ⟨q1, q2⟩ := ring_mem hv.rmin hv.rmax h4 h4'.le
  set ρ := radiusInRing a.rmin a.rmax r4 with hρ
  have hρ0 : 0 ≤ ρ := hv.rmin.trans q1
  set θ := uniform 0 (2 * π) r2 with hθ
  have hφ : uniform a.s (a.s + a.d) r1 = a.s + a.d * r1 := by unfold uniform; ring
  have hpos : ∀ r, 0 ≤ r → r ≤ a.rtor → 0 ≤ a.rtor + r * cos θ := fun r e1 e2 => by nlinarith [neg_one_le_cos θ]
  have hcl : ∀ r t, a.rmin ≤ r → r ≤ a.rmax → 0 ≤ t → t ≤ a.d → a.Closed (tubePoint a.rtor r (a.s + t) θ) := by
    intro r t e1 e2 e3 e4
    have e0 : 0 ≤ r := hv.rmin.trans e1
    exact ⟨by rw [tube_dist e0 (e2.trans hr)]; exact e1, by rw [tube_dist e0 (e2.trans hr)]; exact e2,
      a.rtor + r * cos θ, t, hpos r e0 (e2.trans hr), e3, e4, rfl, rfl⟩
  have hs0 : 0 ≤ a.d * r1 := mul_nonneg hv.d.le h1
  have hs1 : a.d * r1 ≤ a.d := by nlinarith [hv.d]
  have hunf : samplePoint (un a) r1 r2 r3 r4 =
      (open Classical in if uniform 0 (a.d * (2 * π) * a.rtor * a.rmax + a.d * (2 * π) * a.rtor * a.rmin + 2 * sideArea (un a)) r3 < a.d * (2 * π) * a.rtor * a.rmax then
        tubePoint a.rtor a.rmax (uniform a.s (a.s + a.d) r1) θ
      else if uniform 0 (a.d * (2 * π) * a.rtor * a.rmax + a.d * (2 * π) * a.rtor * a.rmin + 2 * sideArea (un a)) r3 ≥ a.d * (2 * π) * a.rtor * a.rmax ∧
          uniform 0 (a.d * (2 * π) * a.rtor * a.rmax + a.d * (2 * π) * a.rtor * a.rmin + 2 * sideArea (un a)) r3 < a.d * (2 * π) * a.rtor * a.rmax + a.d * (2 * π) * a.rtor * a.rmin then
        tubePoint a.rtor a.rmin (uniform a.s (a.s + a.d) r1) θ
      else if uniform 0 (a.d * (2 * π) * a.rtor * a.rmax + a.d * (2 * π) * a.rtor * a.rmin + 2 * sideArea (un a)) r3 ≥ a.d * (2 * π) * a.rtor * a.rmax + a.d * (2 * π) * a.rtor * a.rmin ∧
          uniform 0 (a.d * (2 * π) * a.rtor * a.rmax + a.d * (2 * π) * a.rtor * a.rmin + 2 * sideArea (un a)) r3 < a.d * (2 * π) * a.rtor * a.rmax + a.d * (2 * π) * a.rtor * a.rmin + sideArea (un a) then
        tubePoint a.rtor ρ a.s θ
      else tubePoint a.rtor ρ (a.s + a.d) θ) := rfl
  rw [hunf]
  set A := a.d * (2 * π) * a.rtor * a.rmax with hA
  set B := a.d * (2 * π) * a.rtor * a.rmin with hB
  set C := sideArea (un a) with hC
  have hA0 : 0 < A := by
    have : 0 < a.rtor := by linarith
    have := hv.d
    positivity
  have hB0 : 0 ≤ B := by
    have := hv.d
    have := hv.rmin
    have := hv.rtor
    positivity
  have hch : uniform 0 (A + B + 2 * C) r3 = (A + B + 2 * C) * r3 := by unfold uniform; ring
  rw [hch, hφ]
  by_cases c1 : (A + B + 2 * C) * r3 < A
  · rw [if_pos c1]
    exact ⟨hcl _ _ hv.rmax.le (le_refl _) hs0 hs1, Or.inl (tube_dist hm.le hr _ _)⟩
  · rw [if_neg c1]
    by_cases c2 : (A + B + 2 * C) * r3 ≥ A ∧ (A + B + 2 * C) * r3 < A + B
    · rw [if_pos c2]
      refine ⟨hcl _ _ (le_refl _) hv.rmax.le hs0 hs1, Or.inr (Or.inl ⟨?_, tube_dist hv.rmin hmr _ _⟩)⟩
      refine lt_of_le_of_ne hv.rmin (fun h => ?_)
      have : B = 0 := by rw [hB, ← h, mul_zero]
      linarith [c2.1, c2.2]
    · rw [if_neg c2]
      have hd : a.d < 2 * π := by
        refine lt_of_le_of_ne hv.d' (fun h => ?_)
        have hs : a.s = 0 := by
          rcases hf with hf | hf
          · linarith
          · exact hf
        have : C = 0 := by
          rw [hC]; unfold sideArea
          rw [if_pos ⟨hs, h⟩]
        rw [this] at c1 c2
        apply c2
        refine ⟨not_lt.mp c1, ?_⟩
        nlinarith
      by_cases c3 : (A + B + 2 * C) * r3 ≥ A + B ∧ (A + B + 2 * C) * r3 < A + B + C
      · rw [if_pos c3]
        have h := hcl ρ 0 q1 q2 (le_refl _) hv.d.le
        rw [add_zero] at h
        exact ⟨h, Or.inr (Or.inr ⟨hd, Or.inl ⟨a.rtor + ρ * cos θ, hpos ρ hρ0 (q2.trans hr),
          by rw [zero_mul, sub_zero]; rfl, by rw [zero_mul, add_zero]; rfl⟩⟩)⟩
      · rw [if_neg c3]
        exact ⟨hcl ρ a.d q1 q2 hv.d.le (le_refl _), Or.inr (Or.inr ⟨hd, Or.inr ⟨a.rtor + ρ * cos θ, hpos ρ hρ0 (q2.trans hr),
          by rw [zero_mul, sub_zero]; rfl, by rw [zero_mul, add_zero]; rfl⟩⟩)⟩

example : half.Ring ∧ half.d < 2 * π := ⟨by norm_num [Par.Ring, half], by show π < 2 * π; linarith [pi_pos]⟩

/-- A full solid ring whose start angle is not 0. -/
noncomputable def turned : Par := ⟨0, 2, 2, 1, 2 * π⟩

/-- C181, finding: for a full torus with a start angle that is not 0 the faces are sampled, although there are none: the point is on the
central circle, in the middle of the tube. -/
theorem C181_full_counterexample :
    turned.Valid ∧ turned.Ring ∧ turned.d = 2 * π ∧ ringDist 2 (samplePoint (un turned) 0 0 (16 * π ^ 2 / (16 * π ^ 2 + 8 * π)) 0) = 0 ∧
    (0 ≤ 16 * π ^ 2 / (16 * π ^ 2 + 8 * π) ∧ 16 * π ^ 2 / (16 * π ^ 2 + 8 * π) < 1) := by
  have hp := pi_pos
  have hs : sideArea (un turned) = 4 * π := by
    unfold sideArea
    rw [if_neg (show ¬ ((un turned).t.sphi = 0 ∧ (un turned).t.dphi = 2 * π) from fun h => one_ne_zero h.1)]
    show π * (2 * 2 - 0 * 0) = 4 * π
    ring
  refine ⟨⟨le_refl _, by norm_num [turned], by norm_num [turned], by show (0 : ℝ) < 2 * π; positivity, le_refl _⟩, le_refl _, rfl, ?_, by positivity, ?_⟩
  · have hq : samplePoint (un turned) 0 0 (16 * π ^ 2 / (16 * π ^ 2 + 8 * π)) 0 = tubePoint 2 (radiusInRing 0 2 0) 1 (uniform 0 (2 * π) 0) := by
      have hc : uniform 0 (2 * π * (2 * π) * 2 * 2 + 2 * π * (2 * π) * 2 * 0 + 2 * sideArea (un turned)) (16 * π ^ 2 / (16 * π ^ 2 + 8 * π)) = 16 * π ^ 2 := by
        rw [hs]; unfold uniform
        field_simp
        ring
      unfold samplePoint
      simp only []
      show (if uniform 0 (2 * π * (2 * π) * 2 * 2 + 2 * π * (2 * π) * 2 * 0 + 2 * sideArea (un turned)) (16 * π ^ 2 / (16 * π ^ 2 + 8 * π)) < 2 * π * (2 * π) * 2 * 2 then _
        else if uniform 0 (2 * π * (2 * π) * 2 * 2 + 2 * π * (2 * π) * 2 * 0 + 2 * sideArea (un turned)) (16 * π ^ 2 / (16 * π ^ 2 + 8 * π)) ≥ 2 * π * (2 * π) * 2 * 2 ∧
          uniform 0 (2 * π * (2 * π) * 2 * 2 + 2 * π * (2 * π) * 2 * 0 + 2 * sideArea (un turned)) (16 * π ^ 2 / (16 * π ^ 2 + 8 * π)) < 2 * π * (2 * π) * 2 * 2 + 2 * π * (2 * π) * 2 * 0 then _
        else if uniform 0 (2 * π * (2 * π) * 2 * 2 + 2 * π * (2 * π) * 2 * 0 + 2 * sideArea (un turned)) (16 * π ^ 2 / (16 * π ^ 2 + 8 * π)) ≥ 2 * π * (2 * π) * 2 * 2 + 2 * π * (2 * π) * 2 * 0 ∧
          uniform 0 (2 * π * (2 * π) * 2 * 2 + 2 * π * (2 * π) * 2 * 0 + 2 * sideArea (un turned)) (16 * π ^ 2 / (16 * π ^ 2 + 8 * π)) < 2 * π * (2 * π) * 2 * 2 + 2 * π * (2 * π) * 2 * 0 + sideArea (un turned) then
          tubePoint 2 (radiusInRing 0 2 0) 1 (uniform 0 (2 * π) 0) else _) = _
      rw [hc, hs]
      rw [if_neg (by nlinarith), if_neg (fun h => by nlinarith [h.2]), if_pos ⟨by nlinarith, by nlinarith⟩]
    rw [hq, tube_dist]
    · unfold radiusInRing
      rw [if_pos (le_refl _), sqrt_zero, mul_zero]
    · exact (ring_mem (le_refl _) (by norm_num) (le_refl _) (by norm_num)).1
    · exact (ring_mem (le_refl _) (by norm_num) (le_refl _) (by norm_num)).2
  · rw [div_lt_one (by positivity)]
    linarith

/-- C181, finding: the angle around the tube is uniform, so that the inner and the outer half of the tube get as many points, although
the outer half is larger: whatever part of the tube of the ring of radius 5 is chosen, the point is in the half with distance at least 5
from the axis exactly for half of the random numbers, but that half of the outer tube has more than 60 % of its area. -/
theorem C181_uniform_counterexample :
    (∀ r φ r2, 0 < r → r ≤ 5 → 0 ≤ r2 → r2 < 1 → (5 ≤ Tube.rad (tubePoint 5 r φ (uniform 0 (2 * π) r2)) ↔ r2 ≤ 1 / 4 ∨ 3 / 4 ≤ r2)) ∧
    0.6 * (∫ φ in (0 : ℝ)..0 + 2 * π, ∫ θ in (0 : ℝ)..2 * π, areaElement 5 2 φ θ) <
      ∫ φ in (0 : ℝ)..2 * π, ∫ θ in -(π / 2)..π / 2, areaElement 5 2 φ θ := by
  have hp := pi_pos
  constructor
  · intro r φ r2 h0 h1 h2 h3
    rw [tube_rad h0.le h1]
    have hθ : uniform 0 (2 * π) r2 = 2 * π * r2 := by unfold uniform; ring
    rw [hθ]
    have : 5 ≤ 5 + r * cos (2 * π * r2) ↔ 0 ≤ cos (2 * π * r2) := by
      constructor
      · intro h; by_contra hc; nlinarith
      · intro h; nlinarith
    rw [this]
    constructor
    · intro h
      by_contra hc
      push Not at hc
      have : cos (2 * π * r2) < 0 := cos_neg_of_pi_div_two_lt_of_lt (by nlinarith) (by nlinarith)
      linarith
    · rintro (h | h)
      · exact cos_nonneg_of_neg_pi_div_two_le_of_le (by nlinarith) (by nlinarith)
      · rw [← cos_sub_two_pi]
        exact cos_nonneg_of_neg_pi_div_two_le_of_le (by nlinarith) (by nlinarith)
  · rw [patch_area (by norm_num) (by norm_num)]
    simp only [areaElement_eq (show (0 : ℝ) ≤ 2 by norm_num) (show (2 : ℝ) ≤ 5 by norm_num)]
    rw [intervalIntegral.integral_const, intervalIntegral.integral_const_mul]
    rw [intervalIntegral.integral_add (f := fun _ => (5 : ℝ)) (g := fun x => 2 * cos x) (by simp)
      (Continuous.intervalIntegrable (by fun_prop) _ _), intervalIntegral.integral_const_mul, integral_cos]
    simp only [intervalIntegral.integral_const, smul_eq_mul, sin_neg, sin_pi_div_two]
    nlinarith [pi_lt_d2]

end Torus
end VecGeom

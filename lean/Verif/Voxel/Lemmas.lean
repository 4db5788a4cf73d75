import Verif.Voxel.Model
import Mathlib.Tactic.Ring
import Mathlib.Tactic.Linarith
import Mathlib.Tactic.FieldSimp
import Mathlib.Tactic.Positivity
import Mathlib.Tactic.NormNum

namespace VecGeom
namespace Voxel

theorem int32_of {x : Int} (h : 0 ≤ x) (h' : x < 2 ^ 31) : int32 x = some x :=
  if_pos ⟨by omega, h'⟩

/-- The grid sizes are positive and the number of voxels fits an `int`. -/
structure Grid.Sized (g : Grid) : Prop where
  x : 0 < g.nx
  y : 0 < g.ny
  z : 0 < g.nz
  total : g.nx * g.ny * g.nz < 2 ^ 31

/-- A cell of the grid. -/
def Grid.IsCell (g : Grid) (c : Int × Int × Int) : Prop :=
  (0 ≤ c.1 ∧ c.1 < g.nx) ∧ (0 ≤ c.2.1 ∧ c.2.1 < g.ny) ∧ (0 ≤ c.2.2 ∧ c.2.2 < g.nz)

theorem key_of_cell {g : Grid} (h : g.Sized) {kx ky kz : Int} (hc : g.IsCell (kx, ky, kz)) :
    g.getKeyFromCells kx ky kz = some (kx + g.nx * (ky + kz * g.ny)) ∧
    0 ≤ kx + g.nx * (ky + kz * g.ny) ∧ kx + g.nx * (ky + kz * g.ny) < g.nx * g.ny * g.nz := by
  obtain ⟨⟨x0, x1⟩, ⟨y0, y1⟩, ⟨z0, z1⟩⟩ := hc
  simp only at x0 x1 y0 y1 z0 z1
  have hx := h.x; have hy := h.y; have hz := h.z; have ht := h.total
  have a0 : 0 ≤ kz * g.ny := mul_nonneg z0 hy.le
  have b1 : ky + kz * g.ny + 1 ≤ g.ny * g.nz := by nlinarith
  have c0 : 0 ≤ g.nx * (ky + kz * g.ny) := mul_nonneg hx.le (by omega)
  have c1 : g.nx * (ky + kz * g.ny) + g.nx ≤ g.nx * g.ny * g.nz := by nlinarith
  have d1 : ky + kz * g.ny ≤ g.nx * (ky + kz * g.ny) := by nlinarith
  refine ⟨?_, by omega, by omega⟩
  unfold Grid.getKeyFromCells
  rw [int32_of a0 (by omega), Option.bind_some, int32_of (by omega) (by omega), Option.bind_some,
    int32_of c0 (by omega), Option.bind_some, int32_of (by omega) (by omega)]

theorem nxy_lt {g : Grid} (h : g.Sized) : 0 < g.nx * g.ny ∧ g.nx * g.ny < 2 ^ 31 := by
  have hx := h.x; have hy := h.y; have hz := h.z; have ht := h.total
  have p : 0 < g.nx * g.ny := mul_pos hx hy
  exact ⟨p, by nlinarith⟩

theorem cell_of_key {g : Grid} (h : g.Sized) {key : Int} (k0 : 0 ≤ key) :
    g.keyToCell key = some (key % (g.nx * g.ny) % g.nx, key % (g.nx * g.ny) / g.nx, key / (g.nx * g.ny)) := by
  obtain ⟨p0, p1⟩ := nxy_lt h
  have hx := h.x
  have e : key - key / (g.nx * g.ny) * g.nx * g.ny = key % (g.nx * g.ny) := by
    rw [mul_assoc, Int.emod_def, mul_comm (key / _)]
  have hm := Int.emod_nonneg key p0.ne'
  unfold Grid.keyToCell
  rw [int32_of p0.le p1, Option.bind_some, if_neg (by omega)]
  simp only [Int.tdiv_eq_ediv_of_nonneg k0, e, Int.tdiv_eq_ediv_of_nonneg hm]
  rw [show key % (g.nx * g.ny) - key % (g.nx * g.ny) / g.nx * g.nx = key % (g.nx * g.ny) % g.nx by
    generalize key % (g.nx * g.ny) = w
    rw [Int.emod_def w, mul_comm g.nx]]

theorem isCell_of_key {g : Grid} (h : g.Sized) {key : Int} (k0 : 0 ≤ key) (k1 : key < g.nx * g.ny * g.nz) :
    g.IsCell (key % (g.nx * g.ny) % g.nx, key % (g.nx * g.ny) / g.nx, key / (g.nx * g.ny)) := by
  obtain ⟨p0, p1⟩ := nxy_lt h
  have hx := h.x
  have hm := Int.emod_nonneg key p0.ne'
  have hm' := Int.emod_lt_of_pos key p0
  refine ⟨⟨Int.emod_nonneg _ hx.ne', Int.emod_lt_of_pos _ hx⟩, ⟨Int.ediv_nonneg hm hx.le, ?_⟩,
    ⟨Int.ediv_nonneg k0 p0.le, ?_⟩⟩
  · exact Int.ediv_lt_of_lt_mul hx (by rw [mul_comm g.ny]; exact hm')
  · exact Int.ediv_lt_of_lt_mul p0 (by rw [mul_comm g.nz]; exact k1)

theorem key_of_cell_of_key {g : Grid} (key : Int) :
    key % (g.nx * g.ny) % g.nx + g.nx * (key % (g.nx * g.ny) / g.nx + key / (g.nx * g.ny) * g.ny) = key := by
  have e1 := Int.emod_add_mul_ediv (key % (g.nx * g.ny)) g.nx
  have e2 := Int.emod_add_mul_ediv key (g.nx * g.ny)
  linear_combination e1 + e2

theorem cell_of_key_of_cell {g : Grid} (h : g.Sized) {kx ky kz : Int} (hc : g.IsCell (kx, ky, kz)) :
    g.keyToCell (kx + g.nx * (ky + kz * g.ny)) = some (kx, ky, kz) := by
  obtain ⟨k, k0, k1⟩ := key_of_cell h hc
  obtain ⟨p0, p1⟩ := nxy_lt h
  obtain ⟨⟨x0, x1⟩, ⟨y0, y1⟩, ⟨z0, z1⟩⟩ := hc
  simp only at x0 x1 y0 y1 z0 z1
  have hx := h.x; have hy := h.y
  rw [cell_of_key h k0]
  have i0 : 0 ≤ kx + g.nx * ky := by have := mul_nonneg hx.le y0; omega
  have i1 : kx + g.nx * ky < g.nx * g.ny := by nlinarith
  have e : kx + g.nx * (ky + kz * g.ny) = kx + g.nx * ky + kz * (g.nx * g.ny) := by ring
  rw [e, Int.add_mul_emod_self_right, Int.add_mul_ediv_right _ _ p0.ne', Int.emod_eq_of_lt i0 i1, Int.ediv_eq_zero_of_lt i0 i1,
    Int.add_mul_emod_self_left, Int.emod_eq_of_lt x0 x1, Int.add_mul_ediv_left _ _ hx.ne', Int.ediv_eq_zero_of_lt x0 x1]
  simp

/-! ### Points -/

theorem trunc_of_nonneg {x : ℝ} (h : 0 ≤ x) : trunc x = ⌊x⌋ := if_pos h

theorem trunc_mono {x y : ℝ} (h : x ≤ y) : trunc x ≤ trunc y := by
  unfold trunc
  by_cases hx : 0 ≤ x
  · rw [if_pos hx, if_pos (hx.trans h)]
    exact Int.floor_mono h
  · rw [if_neg hx]
    by_cases hy : 0 ≤ y
    · rw [if_pos hy]
      have : ⌈x⌉ ≤ 0 := Int.ceil_le.2 (by push_cast; linarith)
      exact this.trans (Int.floor_nonneg.2 hy)
    · rw [if_neg hy]
      exact Int.ceil_mono h

/-- One coordinate: the cell number is in range and the point lies in the cell. -/
theorem coord_cell {lo len x : ℝ} {n : Int} (hn : 0 < n) (hlen : 0 < len) (h0 : lo ≤ x) (h1 : x < lo + len) :
    let k := trunc ((x - lo) * (1 / (len / n)))
    0 ≤ k ∧ k < n ∧ lo + k * (len / n) ≤ x ∧ x < lo + k * (len / n) + len / n := by
  intro k
  have hn' : (0 : ℝ) < n := by exact_mod_cast hn
  have hd : 0 < len / n := div_pos hlen hn'
  have hq : 0 ≤ (x - lo) * (1 / (len / n)) := mul_nonneg (by linarith) (by positivity)
  have hk : k = ⌊(x - lo) * (1 / (len / n))⌋ := trunc_of_nonneg hq
  have f0 := Int.floor_le ((x - lo) * (1 / (len / n)))
  have f1 := Int.lt_floor_add_one ((x - lo) * (1 / (len / n)))
  rw [← hk] at f0 f1
  have hx : (x - lo) * (1 / (len / n)) * (len / n) = x - lo := by field_simp
  have q1 : (x - lo) * (1 / (len / n)) < n := by
    have : (x - lo) * (1 / (len / n)) * (len / n) < n * (len / n) := by
      rw [hx, mul_div_cancel₀ _ hn'.ne']; linarith
    exact lt_of_mul_lt_mul_right this hd.le
  refine ⟨?_, ?_, ?_, ?_⟩
  · rw [hk]; exact Int.floor_nonneg.2 hq
  · rw [hk]; exact Int.floor_lt.2 q1
  · have := mul_le_mul_of_nonneg_right f0 hd.le
    rw [hx] at this; linarith
  · have := mul_lt_mul_of_pos_right f1 hd
    rw [hx] at this; linarith

/-! ### Map -/

namespace VMap
variable {P : Type}

theorem addAll_append (m : VMap P) (l l' : List (Int × P)) :
    m.addAll (l ++ l') = (m.addAll l).bind fun m' => m'.addAll l' := by
  induction l generalizing m with
  | nil => rfl
  | cons e l ih =>
    simp only [List.cons_append, addAll]
    cases m.addPropertyForKey e.1 e.2 with
    | none => rfl
    | some m' => simpa using ih m'

end VMap

/-- What is stored for a key, as a specification: the properties of the insertions `ins` with that key, in order. -/
def stored {P : Type} (ins : List (Int × P)) (key : Int) : List P :=
  (ins.filter fun e => e.1 == key).map Prod.snd

/-- The last key of a list of insertions. -/
def lastOf {P : Type} (ins : List (Int × P)) : Option Int := ins.getLast?.map Prod.fst

/-- Invariant linking the map with the insertions since the last `clear`. -/
structure Inv {P : Type} (m : VMap P) (ins : List (Int × P)) (last : Int) : Prop where
  lastKey : m.lastKey = last
  nonempty : ∀ k, lastOf ins = some k → k = last
  props : m.props = ins.map Prod.snd
  absent : ∀ key, key ∉ ins.map Prod.fst → m.map key = none
  present : ∀ key, key ∈ ins.map Prod.fst → ∃ pre mid post, ins = pre ++ mid ++ post ∧ mid ≠ [] ∧
    (∀ e ∈ pre, e.1 ≠ key) ∧ (∀ e ∈ mid, e.1 = key) ∧ (∀ e ∈ post, e.1 ≠ key) ∧ m.map key = some (pre.length, mid.length)

theorem inv_empty {P : Type} : Inv (VMap.empty : VMap P) [] (-1) :=
  ⟨rfl, fun k h => by simp [lastOf] at h, rfl, fun _ _ => rfl, fun _ h => by simp at h⟩

theorem inv_clear {P : Type} {m : VMap P} {ins : List (Int × P)} {last : Int} (h : Inv m ins last) :
    Inv m.clear [] last :=
  ⟨h.lastKey, fun k h => by simp [lastOf] at h, rfl, fun _ _ => rfl, fun _ h => by simp at h⟩

theorem lastOf_append {P : Type} (ins : List (Int × P)) (k : Int) (p : P) : lastOf (ins ++ [(k, p)]) = some k := by
  simp [lastOf]

/-- Adding a key that is new. -/
theorem inv_add_new {P : Type} {m : VMap P} {ins : List (Int × P)} {last : Int} (h : Inv m ins last) {k : Int} (p : P)
    (hk : k ∉ ins.map Prod.fst) (hl : k ≠ last) :
    ∃ m', m.addPropertyForKey k p = some m' ∧ Inv m' (ins ++ [(k, p)]) k := by
  refine ⟨⟨VMap.setKey m.map k (m.props.length, 1), m.props ++ [p], k⟩, ?_, ?_⟩
  · unfold VMap.addPropertyForKey
    rw [if_neg (by rw [h.lastKey]; exact hl)]
  · refine ⟨rfl, ?_, ?_, ?_, ?_⟩
    · intro k' h'
      rw [lastOf_append] at h'
      exact (Option.some.inj h').symm
    · simp [h.props]
    · intro key hkey
      have h1 : key ≠ k := by rintro rfl; simp at hkey
      have h2 : key ∉ ins.map Prod.fst := fun h => hkey (by simp at h ⊢; exact Or.inl h)
      simp only [VMap.setKey, if_neg h1, h.absent key h2]
    · intro key hkey
      by_cases e : key = k
      · subst e
        refine ⟨ins, [(key, p)], [], by simp, by simp, ?_, by simp, by simp, ?_⟩
        · intro e he h'; exact hk (h' ▸ List.mem_map_of_mem he)
        · simp [VMap.setKey, h.props]
      · have : key ∈ ins.map Prod.fst := by
          rw [List.map_append, List.mem_append] at hkey
          rcases hkey with h' | h'
          · exact h'
          · simp at h'; exact absurd h' e
        obtain ⟨pre, mid, post, e1, e2, e3, e4, e5, e6⟩ := h.present key this
        refine ⟨pre, mid, post ++ [(k, p)], by simp [e1], e2, e3, e4, ?_, ?_⟩
        · intro e' he'
          rcases List.mem_append.1 he' with h' | h'
          · exact e5 e' h'
          · simp at h'; subst h'; exact fun h'' => e h''.symm
        · simp only [VMap.setKey, if_neg e, e6]

/-- Adding the key that was added last. -/
theorem inv_add_same {P : Type} {m : VMap P} {ins : List (Int × P)} {last : Int} (h : Inv m ins last) {k : Int} (p : P)
    (hk : lastOf ins = some k) : ∃ m', m.addPropertyForKey k p = some m' ∧ Inv m' (ins ++ [(k, p)]) k := by
  have hl : k = last := h.nonempty k hk
  obtain ⟨e0, he0, hke0⟩ : ∃ e, ins.getLast? = some e ∧ e.1 = k := by
    simpa [lastOf] using hk
  have hmem : k ∈ ins.map Prod.fst := hke0 ▸ List.mem_map_of_mem (List.mem_of_getLast? he0)
  obtain ⟨pre, mid, post, e1, e2, e3, e4, e5, e6⟩ := h.present k hmem
  have hpost : post = [] := by
    by_contra hp
    have : (ins.getLast?) = post.getLast? := by rw [e1, List.getLast?_append_of_ne_nil _ hp]
    rw [this] at he0
    exact e5 e0 (List.mem_of_getLast? he0) hke0
  subst hpost
  refine ⟨{ m with map := VMap.setKey m.map k (pre.length, mid.length + 1), props := m.props ++ [p] }, ?_, ?_⟩
  · unfold VMap.addPropertyForKey
    rw [if_pos (by rw [h.lastKey]; exact hl), e6]
  · refine ⟨h.lastKey.trans hl.symm, ?_, by simp [h.props], ?_, ?_⟩
    · intro k' h'
      rw [lastOf_append] at h'
      exact (Option.some.inj h').symm
    · intro key hkey
      have h1 : key ≠ k := by rintro rfl; simp at hkey
      have h2 : key ∉ ins.map Prod.fst := fun h => hkey (by simp at h ⊢; exact Or.inl h)
      simp only [VMap.setKey, if_neg h1, h.absent key h2]
    · intro key hkey
      by_cases e : key = k
      · subst e
        refine ⟨pre, mid ++ [(key, p)], [], by simp [e1], by simp, e3, ?_, by simp, ?_⟩
        · intro e' he'
          rcases List.mem_append.1 he' with h' | h'
          · exact e4 e' h'
          · simp at h'; subst h'; rfl
        · simp [VMap.setKey]
      · have : key ∈ ins.map Prod.fst := by
          rw [List.map_append, List.mem_append] at hkey
          rcases hkey with h' | h'
          · exact h'
          · simp at h'; exact absurd h' e
        obtain ⟨pre', mid', post', f1, f2, f3, f4, f5, f6⟩ := h.present key this
        refine ⟨pre', mid', post' ++ [(k, p)], by rw [f1]; simp, f2, f3, f4, ?_, ?_⟩
        · intro e' he'
          rcases List.mem_append.1 he' with h' | h'
          · exact f5 e' h'
          · simp at h'; subst h'; exact fun h'' => e h''.symm
        · simp only [VMap.setKey, if_neg e, f6]

theorem inv_read {P : Type} {m : VMap P} {ins : List (Int × P)} {last : Int} (h : Inv m ins last) (key : Int) :
    m.readProperties key = some (stored ins key) ∧ (m.getProperties key).2 = (stored ins key).length ∧
    (m.isOccupied key = true ↔ key ∈ ins.map Prod.fst) := by
  by_cases hk : key ∈ ins.map Prod.fst
  · obtain ⟨pre, mid, post, e1, e2, e3, e4, e5, e6⟩ := h.present key hk
    have s : stored ins key = mid.map Prod.snd := by
      unfold stored
      rw [e1, List.filter_append, List.filter_append, List.filter_eq_nil_iff.2 (by simpa using e3),
        List.filter_eq_self.2 (by simpa using e4), List.filter_eq_nil_iff.2 (by simpa using e5)]
      simp
    refine ⟨?_, ?_, ?_⟩
    · unfold VMap.readProperties VMap.getProperties
      rw [e6]
      simp only
      rw [if_pos (by rw [h.props, e1]; simp), s, h.props, e1]
      simp
    · unfold VMap.getProperties
      rw [e6, s]; simp
    · simp [VMap.isOccupied, e6, hk]
  · have s : stored ins key = [] := by
      unfold stored
      rw [List.filter_eq_nil_iff.2 (by
        intro e he; simp; intro h'; exact hk (h' ▸ List.mem_map_of_mem he))]
      rfl
    have e := h.absent key hk
    refine ⟨?_, ?_, ?_⟩
    · unfold VMap.readProperties VMap.getProperties
      rw [e, s]
    · unfold VMap.getProperties
      rw [e, s]; rfl
    · simp [VMap.isOccupied, e, hk]

/-- Insertions with keys in non-decreasing order, all different from the stale last key. -/
theorem addAll_sorted {P : Type} (l : List (Int × P)) (hs : l.Pairwise fun a b => a.1 ≤ b.1) :
    ∀ (m : VMap P) (ins : List (Int × P)) (last : Int), Inv m ins last →
      (∀ a ∈ ins, ∀ b ∈ l, a.1 ≤ b.1) → ins.Pairwise (fun a b => a.1 ≤ b.1) → (ins = [] → ∀ b ∈ l, b.1 ≠ last) →
      ∃ m' last', m.addAll l = some m' ∧ Inv m' (ins ++ l) last' := by
  induction l with
  | nil => intro m ins last h _ _ _; exact ⟨m, last, rfl, by simpa using h⟩
  | cons e l ih =>
    intro m ins last h hle hsi hne
    have step : ∃ m', m.addPropertyForKey e.1 e.2 = some m' ∧ Inv m' (ins ++ [(e.1, e.2)]) e.1 := by
      by_cases hk : e.1 ∈ ins.map Prod.fst
      · -- then it is the last key
        apply inv_add_same h
        cases hg : ins.getLast? with
        | none => simp [List.getLast?_eq_none_iff.1 hg] at hk
        | some g =>
          obtain ⟨w, hw⟩ := List.getLast?_eq_some_iff.1 hg
          have g1 : g.1 ≤ e.1 := hle g (by rw [hw]; simp) e (by simp)
          have g2 : e.1 ≤ g.1 := by
            obtain ⟨a, ha, hae⟩ := List.mem_map.1 hk
            rw [hw] at ha hsi
            rcases List.mem_append.1 ha with h' | h'
            · rw [← hae]; exact (List.pairwise_append.1 hsi).2.2 a h' g (by simp)
            · simp at h'; rw [← hae, h']
          simp [lastOf, hg]; omega
      · apply inv_add_new h e.2 hk
        by_cases hi : ins = []
        · exact hne hi e (by simp)
        · intro he
          obtain ⟨g, hg⟩ := Option.isSome_iff_exists.1 (List.getLast?_isSome.2 hi)
          have := h.nonempty g.1 (by simp [lastOf, hg])
          exact hk (by rw [he, ← this]; exact List.mem_map_of_mem (List.mem_of_getLast? hg))
    obtain ⟨m', h1, h2⟩ := step
    obtain ⟨hs1, hs2⟩ := List.pairwise_cons.1 hs
    obtain ⟨m'', last', h3, h4⟩ := ih hs2 m' (ins ++ [(e.1, e.2)]) e.1 h2
      (by
        intro a ha b hb
        rcases List.mem_append.1 ha with h' | h'
        · exact hle a h' b (by simp [hb])
        · simp at h'; subst h'; exact hs1 b hb)
      (by
        rw [List.pairwise_append]
        refine ⟨hsi, by simp, ?_⟩
        intro a ha b hb
        simp at hb; subst hb; exact hle a ha b (by simp))
      (by intro h'; simp at h')
    refine ⟨m'', last', ?_, by simpa using h4⟩
    rw [VMap.addAll, h1]; exact h3

/-! ### Marking boxes -/

theorem mem_intRange {a b k : Int} : k ∈ intRange a b ↔ a ≤ k ∧ k ≤ b := by
  unfold intRange
  rw [List.mem_map]
  constructor
  · rintro ⟨i, hi, rfl⟩
    rw [List.mem_range] at hi
    omega
  · rintro ⟨h1, h2⟩
    refine ⟨(k - a).toNat, ?_, by omega⟩
    rw [List.mem_range]; omega

theorem nodup_intRange (a b : Int) : (intRange a b).Nodup :=
  List.Nodup.map (fun i j h => by simpa using h) List.nodup_range

theorem mem_cellsOf {g : Grid} {b : Box} {c : Int × Int × Int} :
    c ∈ cellsOf g b ↔
      (max (g.getVoxelCoordinates b.lo).1 0 ≤ c.1 ∧ c.1 ≤ min (g.getVoxelCoordinates b.up).1 (g.nx - 1)) ∧
      (max (g.getVoxelCoordinates b.lo).2.1 0 ≤ c.2.1 ∧ c.2.1 ≤ min (g.getVoxelCoordinates b.up).2.1 (g.ny - 1)) ∧
      (max (g.getVoxelCoordinates b.lo).2.2 0 ≤ c.2.2 ∧ c.2.2 ≤ min (g.getVoxelCoordinates b.up).2.2 (g.nz - 1)) := by
  obtain ⟨x, y, z⟩ := c
  unfold cellsOf
  simp only [List.mem_flatMap, List.mem_map, mem_intRange, Prod.mk.injEq]
  constructor
  · rintro ⟨kx, hx, ky, hy, kz, hz, rfl, rfl, rfl⟩
    exact ⟨hx, hy, hz⟩
  · rintro ⟨hx, hy, hz⟩
    exact ⟨x, hx, y, hy, z, hz, rfl, rfl, rfl⟩

theorem nodup_cellsOf (g : Grid) (b : Box) : (cellsOf g b).Nodup := by
  unfold cellsOf
  rw [List.nodup_flatMap]
  refine ⟨fun kx _ => ?_, ?_⟩
  · rw [List.nodup_flatMap]
    refine ⟨fun ky _ => List.Nodup.map (fun i j h => by simpa using h) (nodup_intRange _ _), ?_⟩
    refine List.Pairwise.imp ?_ (nodup_intRange _ _)
    intro a a' h c h1 h2
    obtain ⟨z, _, rfl⟩ := List.mem_map.1 h1
    obtain ⟨z', _, h3⟩ := List.mem_map.1 h2
    simp only [Prod.mk.injEq] at h3
    exact h h3.2.1.symm
  · refine List.Pairwise.imp ?_ (nodup_intRange _ _)
    intro a a' h c h1 h2
    simp only [List.mem_flatMap, List.mem_map] at h1 h2
    obtain ⟨y, _, z, _, rfl⟩ := h1
    obtain ⟨y', _, z', _, h3⟩ := h2
    simp only [Prod.mk.injEq] at h3
    exact h h3.1.symm

theorem isCell_of_mem {g : Grid} {b : Box} {c : Int × Int × Int} (h : c ∈ cellsOf g b) : g.IsCell c := by
  obtain ⟨⟨a1, a2⟩, ⟨b1, b2⟩, ⟨c1, c2⟩⟩ := mem_cellsOf.1 h
  refine ⟨⟨?_, ?_⟩, ⟨?_, ?_⟩, ⟨?_, ?_⟩⟩ <;> omega

/-- The key of a cell. -/
def cellKey (g : Grid) (c : Int × Int × Int) : Int := c.1 + g.nx * (c.2.1 + c.2.2 * g.ny)

theorem cellKey_inj {g : Grid} (h : g.Sized) {c c' : Int × Int × Int} (hc : g.IsCell c) (hc' : g.IsCell c')
    (e : cellKey g c = cellKey g c') : c = c' := by
  have e1 := cell_of_key_of_cell h (kx := c.1) (ky := c.2.1) (kz := c.2.2) hc
  have e2 := cell_of_key_of_cell h (kx := c'.1) (ky := c'.2.1) (kz := c'.2.2) hc'
  unfold cellKey at e
  rw [e, e2] at e1
  exact (Option.some.inj e1).symm

theorem mapM_keys {g : Grid} (h : g.Sized) (l : List (Int × Int × Int)) (hl : ∀ c ∈ l, g.IsCell c) :
    (l.mapM fun c => g.getKeyFromCells c.1 c.2.1 c.2.2) = some (l.map (cellKey g)) := by
  induction l with
  | nil => rfl
  | cons c l ih =>
    rw [List.mapM_cons, (key_of_cell h (hl c (by simp))).1, ih fun c hc => hl c (by simp [hc])]
    rfl

/-- The boxes whose cell range contains the cell `c`, as numbers from `d` on. -/
noncomputable def marks (g : Grid) (c : Int × Int × Int) : Nat → List Box → List Nat
  | _, [] => []
  | d, b :: bs => (open Classical in if c ∈ cellsOf g b then [d] else []) ++ marks g c (d + 1) bs

theorem stored_append {P : Type} (l l' : List (Int × P)) (k : Int) : stored (l ++ l') k = stored l k ++ stored l' k := by
  simp [stored]

theorem stored_keys {g : Grid} (h : g.Sized) {c : Int × Int × Int} (hc : g.IsCell c) (d : Nat)
    (l : List (Int × Int × Int)) (hl : ∀ c ∈ l, g.IsCell c) (hn : l.Nodup) :
    stored ((l.map (cellKey g)).map fun k => (k, d)) (cellKey g c) = open Classical in if c ∈ l then [d] else [] := by
  classical
  induction l with
  | nil => simp [stored]
  | cons a l ih =>
    obtain ⟨n1, n2⟩ := List.nodup_cons.1 hn
    have ih := ih (fun c hc => hl c (by simp [hc])) n2
    have e : stored (((a :: l).map (cellKey g)).map fun k => (k, d)) (cellKey g c)
        = (if cellKey g a = cellKey g c then [d] else []) ++ stored ((l.map (cellKey g)).map fun k => (k, d)) (cellKey g c) := by
      unfold stored
      by_cases hh : cellKey g a = cellKey g c <;> simp [hh]
    rw [e, ih]
    by_cases hac : a = c
    · subst hac
      rw [if_pos rfl, if_neg n1, if_pos (by simp)]; rfl
    · rw [if_neg (fun e' => hac (cellKey_inj h (hl a (by simp)) hc e'))]
      by_cases hm : c ∈ l
      · rw [if_pos hm, if_pos (by simp [hm])]; rfl
      · rw [if_neg hm, if_neg (by simp [hm]; exact fun e' => hac e'.symm)]; rfl

theorem keyToProp_spec {g : Grid} (h : g.Sized) (bs : List Box) : ∀ d, ∃ l, keyToProp g d bs = some l ∧
    (∀ e ∈ l, 0 ≤ e.1) ∧ ∀ c, g.IsCell c → stored l (cellKey g c) = marks g c d bs := by
  induction bs with
  | nil => intro d; exact ⟨[], rfl, by simp, fun c _ => rfl⟩
  | cons b bs ih =>
    intro d
    obtain ⟨l, h1, h2, h3⟩ := ih (d + 1)
    refine ⟨((cellsOf g b).map (cellKey g)).map (fun k => (k, d)) ++ l, ?_, ?_, ?_⟩
    · rw [keyToProp, mapM_keys h _ fun c hc => isCell_of_mem hc, Option.bind_some, h1]; rfl
    · intro e he
      rcases List.mem_append.1 he with h' | h'
      · simp only [List.mem_map] at h'
        obtain ⟨k, ⟨c, hc, rfl⟩, rfl⟩ := h'
        exact (key_of_cell h (isCell_of_mem hc)).2.1
      · exact h2 e h'
    · intro c hc
      rw [stored_append, h3 c hc, stored_keys h hc d _ (fun c hc => isCell_of_mem hc) (nodup_cellsOf g b)]
      rfl

theorem mem_marks {g : Grid} {c : Int × Int × Int} {bs : List Box} : ∀ {d j : Nat},
    j ∈ marks g c d bs ↔ ∃ i b, j = d + i ∧ bs[i]? = some b ∧ c ∈ cellsOf g b := by
  classical
  induction bs with
  | nil => intro d j; simp [marks]
  | cons b bs ih =>
    intro d j
    rw [marks, List.mem_append, ih]
    constructor
    · rintro (h | ⟨i, b', rfl, h2, h3⟩)
      · by_cases hc : c ∈ cellsOf g b
        · rw [if_pos hc] at h
          exact ⟨0, b, by simpa using h, rfl, hc⟩
        · rw [if_neg hc] at h; simp at h
      · exact ⟨i + 1, b', by omega, by simpa using h2, h3⟩
    · rintro ⟨i, b', rfl, h2, h3⟩
      cases i with
      | zero =>
        simp at h2; subst h2
        left; rw [if_pos h3]; simp
      | succ i => right; exact ⟨i, b', by omega, by simpa using h2, h3⟩

theorem nodup_marks {g : Grid} {c : Int × Int × Int} {bs : List Box} : ∀ {d : Nat}, (marks g c d bs).Nodup := by
  classical
  induction bs with
  | nil => intro d; simp [marks]
  | cons b bs ih =>
    intro d
    rw [marks, List.nodup_append]
    refine ⟨by split <;> simp, ih, ?_⟩
    intro a ha a' ha' e
    obtain ⟨i, _, h, _⟩ := mem_marks.1 ha'
    split at ha
    · simp at ha; omega
    · simp at ha

theorem trunc_le_iff {a : ℝ} {k : Int} (hk : 0 ≤ k) : trunc a ≤ k ↔ a < k + 1 := by
  unfold trunc
  by_cases h : 0 ≤ a
  · rw [if_pos h, Int.floor_le_iff]
  · rw [if_neg h]
    have hk' : (0 : ℝ) ≤ k := by exact_mod_cast hk
    constructor
    · intro _; linarith
    · intro _
      exact (Int.ceil_le.2 (by push_cast; linarith : a ≤ ((0 : Int) : ℝ))).trans hk

theorem le_trunc_iff {a : ℝ} {k : Int} (ha : 0 ≤ a) : k ≤ trunc a ↔ (k : ℝ) ≤ a := by
  rw [trunc_of_nonneg ha, Int.le_floor]

/-- One coordinate of a marked range: the voxel `[lo + k δ, lo + (k+1) δ)` meets `[a, b]`. -/
theorem coord_marks {lo len a b : ℝ} {n k : Int} (hn : 0 < n) (hlen : 0 < len) (hk : 0 ≤ k) (hkn : k < n) (hb : lo ≤ b) :
    (max (trunc ((a - lo) * (1 / (len / n)))) 0 ≤ k ∧ k ≤ min (trunc ((b - lo) * (1 / (len / n)))) (n - 1)) ↔
    (a < lo + k * (len / n) + len / n ∧ lo + k * (len / n) ≤ b) := by
  have hn' : (0 : ℝ) < n := by exact_mod_cast hn
  have hd : 0 < len / n := div_pos hlen hn'
  have hq : 0 ≤ (b - lo) * (1 / (len / n)) := mul_nonneg (by linarith) (by positivity)
  have e1 : (a - lo) * (1 / (len / n)) < k + 1 ↔ a < lo + k * (len / n) + len / n := by
    rw [mul_one_div, div_lt_iff₀ hd]
    constructor <;> intro h <;> linarith
  have e2 : (k : ℝ) ≤ (b - lo) * (1 / (len / n)) ↔ lo + k * (len / n) ≤ b := by
    rw [mul_one_div, le_div_iff₀ hd]
    constructor <;> intro h <;> linarith
  rw [max_le_iff, le_min_iff, trunc_le_iff hk, le_trunc_iff hq, e1, e2]
  constructor
  · rintro ⟨⟨h1, _⟩, h2, _⟩; exact ⟨h1, h2⟩
  · rintro ⟨h1, h2⟩; exact ⟨⟨h1, hk⟩, h2, by omega⟩

/-! ### Concurrent tasks -/

theorem getElem?_mid {ε : Type} (pre post : List ε) (x y : ε) (j : Nat) :
    (pre ++ x :: post)[j]? = if j = pre.length then some x else (pre ++ y :: post)[j]? := by
  by_cases h : j < pre.length
  · rw [if_neg (by omega), List.getElem?_append_left h, List.getElem?_append_left h]
  · rw [List.getElem?_append_right (by omega), List.getElem?_append_right (by omega)]
    by_cases h' : j = pre.length
    · subst h'; simp
    · rw [if_neg h']
      obtain ⟨i, hi⟩ : ∃ i, j - pre.length = i + 1 := ⟨j - pre.length - 1, by omega⟩
      rw [hi]; simp

theorem interleave_filter {ε : Type} {ls : List (List ε)} {r : List ε} (h : Interleave ls r) (p : ε → Bool) :
    ∀ (j : Nat) (l : List ε), ls[j]? = some l →
      (∀ j' l', j' ≠ j → ls[j']? = some l' → l'.filter p = []) → r.filter p = l.filter p := by
  induction h with
  | done h =>
    intro j l hj _
    rw [h l (List.mem_of_getElem? hj)]
  | @step pre post e l0 r _ ih =>
    intro j l hj ho
    by_cases hjp : j = pre.length
    · rw [getElem?_mid pre post _ l0, if_pos hjp] at hj
      obtain rfl := Option.some.inj hj
      rw [List.filter_cons, List.filter_cons]
      rw [ih j l0 (by rw [getElem?_mid pre post _ l0, if_pos hjp]) (fun j' l' h1 h2 => ho j' l' h1 (by
        rw [getElem?_mid pre post _ l0, if_neg (by omega)]; exact h2))]
    · have he := ho pre.length (e :: l0) (by omega) (by simp)
      rw [List.filter_cons] at he
      have hpe : ¬ p e = true := by intro hp; rw [if_pos hp] at he; simp at he
      rw [if_neg hpe] at he
      rw [List.filter_cons, if_neg hpe]
      refine ih j l (by rw [getElem?_mid pre post _ (e :: l0), if_neg hjp]; exact hj) fun j' l' h1 h2 => ?_
      by_cases h3 : j' = pre.length
      · rw [getElem?_mid pre post _ l0, if_pos h3] at h2
        obtain rfl := Option.some.inj h2
        exact he
      · exact ho j' l' h1 (by rw [getElem?_mid pre post _ l0, if_neg h3]; exact h2)

theorem interleave_none {ε : Type} {ls : List (List ε)} {r : List ε} (h : Interleave ls r) :
    ls = [] → r = [] := by
  cases h with
  | done _ => intro _; rfl
  | step h => intro h'; simp at h'

theorem slot_eq (r : List (Nat × Nat)) (i : Nat) : slot r i = (r.filter fun e => e.1 == i).map Prod.snd := by
  have : ∀ acc, r.foldl (fun acc e => if e.1 = i then acc ++ [e.2] else acc) acc
      = acc ++ (r.filter fun e => e.1 == i).map Prod.snd := by
    induction r with
    | nil => intro acc; simp
    | cons e r ih =>
      intro acc
      rw [List.foldl_cons, ih, List.filter_cons]
      by_cases h : e.1 = i <;> simp [h]
  simpa [slot] using this []

/-- The owner of index `i`. -/
theorem taskRange_partition {s n i : Nat} (hn : 0 < n) (hi : i < s) :
    ∃ t, t < n ∧ ∀ t', t' < n → (((taskRange s n t').1 ≤ i ∧ i < (taskRange s n t').2) ↔ t' = t) := by
  have hs : n * (s / n) + s % n = s := Nat.div_add_mod s n
  have hr : s % n < n := Nat.mod_lt s hn
  unfold taskRange
  simp only
  generalize s / n = c at hs ⊢
  by_cases hlast : (n - 1) * c ≤ i
  · refine ⟨n - 1, by omega, fun t' ht' => ?_⟩
    constructor
    · rintro ⟨_, h2⟩
      by_contra hne
      rw [if_neg hne] at h2
      have : (t' + 1) * c ≤ (n - 1) * c := Nat.mul_le_mul_right c (by omega)
      omega
    · rintro rfl
      rw [if_pos rfl, Nat.sub_add_cancel hn]
      exact ⟨hlast, by omega⟩
  · have hc : 0 < c := by
      rcases Nat.eq_zero_or_pos c with h | h
      · rw [h] at hlast; simp at hlast
      · exact h
    have hq : i / c < n - 1 := by rw [Nat.div_lt_iff_lt_mul hc]; omega
    have hd := Nat.div_add_mod i c
    have hm := Nat.mod_lt i hc
    refine ⟨i / c, by omega, fun t' ht' => ?_⟩
    constructor
    · rintro ⟨h1, h2⟩
      by_cases ht : t' = n - 1
      · rw [ht] at h1; omega
      · rw [if_neg ht, Nat.add_zero] at h2
        exact (Nat.div_eq_of_lt_le h1 h2).symm
    · rintro rfl
      rw [if_neg (by omega), Nat.add_mul, Nat.mul_comm]
      exact ⟨by omega, by omega⟩

theorem filter_taskEvents (ext : Nat → Box) (boxes : List Box) (s n t i : Nat) :
    (taskEvents ext boxes s n t).filter (fun e => e.1 == i) =
      if (taskRange s n t).1 ≤ i ∧ i < (taskRange s n t).2 then (candidatesOf boxes (ext i)).map fun b => (i, b) else [] := by
  unfold taskEvents
  simp only
  generalize (taskRange s n t).1 = a
  generalize (taskRange s n t).2 = b
  have key : ∀ m a, ((List.range' a m).flatMap fun i => (candidatesOf boxes (ext i)).map fun b => (i, b)).filter
      (fun e => e.1 == i) = if a ≤ i ∧ i < a + m then (candidatesOf boxes (ext i)).map fun b => (i, b) else [] := by
    intro m
    induction m with
    | zero => intro a; rw [if_neg (by omega)]; rfl
    | succ m ih =>
      intro a
      rw [List.range'_succ, List.flatMap_cons, List.filter_append, ih (a + 1)]
      by_cases h : a = i
      · subst h
        rw [if_neg (by omega), if_pos (by omega), List.append_nil, List.filter_eq_self]
        simp
      · rw [List.filter_eq_nil_iff.2 (by simp [h]), List.nil_append]
        by_cases h2 : a + 1 ≤ i ∧ i < a + 1 + m
        · rw [if_pos h2, if_pos (by omega)]
        · rw [if_neg h2, if_neg (by omega)]
  rw [key]
  by_cases h : a ≤ i ∧ i < b
  · rw [if_pos h, if_pos (by omega)]
  · rw [if_neg h, if_neg (by omega)]

/-! ### The locator -/

theorem locateLoop_find (boxes : List Box) (contains : Nat → V3 → Bool) (excl : Option Nat) (p : V3) (l : List Nat)
    (hl : ∀ d ∈ l, d < boxes.length) :
    locateLoop boxes contains excl p l = some (l.find? fun d =>
      (!decide (excl = some d)) && (match boxes[d]? with | some b => abboxContains b p | none => false) && contains d p) := by
  induction l with
  | nil => rfl
  | cons d l ih =>
    have ih := ih fun d hd => hl d (by simp [hd])
    have hb : boxes[d]? = some (boxes[d]'(hl d (by simp))) := List.getElem?_eq_getElem _
    rw [locateLoop, List.find?_cons, hb]
    simp only
    by_cases h1 : excl = some d
    · rw [if_pos h1, ih]; simp [h1]
    · rw [if_neg h1]
      by_cases h2 : abboxContains (boxes[d]'(hl d (by simp))) p = true
      · rw [if_neg (by simpa using h2)]
        by_cases h3 : contains d p = true
        · rw [if_pos h3]; simp [h1, h2, h3]
        · rw [if_neg h3, ih]; simp [h3]
      · rw [if_pos (by simpa using h2), ih]; simp [h2]

end Voxel
end VecGeom

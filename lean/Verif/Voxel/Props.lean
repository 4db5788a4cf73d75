import Verif.Voxel.Lemmas

/-!
# Properties of the voxel hash map, of marking boxes in it and of the voxel based locator
-/

namespace VecGeom
namespace Voxel

/-! ### C17: keys and cells -/

/-- From a cell to its key and back; the key is in range. -/
theorem C17_cell_key_cell {g : Grid} (h : g.Sized) {kx ky kz : Int} (hc : g.IsCell (kx, ky, kz)) :
    ∃ key, g.getKeyFromCells kx ky kz = some key ∧ 0 ≤ key ∧ key < g.nx * g.ny * g.nz ∧
      g.keyToCell key = some (kx, ky, kz) :=
  ⟨_, (key_of_cell h hc).1, (key_of_cell h hc).2.1, (key_of_cell h hc).2.2, cell_of_key_of_cell h hc⟩

/-- From a key to its cell and back; the cell is in the grid. -/
theorem C17_key_cell_key {g : Grid} (h : g.Sized) {key : Int} (k0 : 0 ≤ key) (k1 : key < g.nx * g.ny * g.nz) :
    ∃ kx ky kz, g.keyToCell key = some (kx, ky, kz) ∧ g.IsCell (kx, ky, kz) ∧
      g.getKeyFromCells kx ky kz = some key := by
  have hc := isCell_of_key h k0 k1
  refine ⟨_, _, _, cell_of_key h k0, hc, ?_⟩
  rw [(key_of_cell h hc).1, key_of_cell_of_key]

/-- Distinct cells have distinct keys. -/
theorem C17_injective {g : Grid} (h : g.Sized) {c c' : Int × Int × Int} (hc : g.IsCell c) (hc' : g.IsCell c')
    (e : g.getKeyFromCells c.1 c.2.1 c.2.2 = g.getKeyFromCells c'.1 c'.2.1 c'.2.2) : c = c' := by
  rw [(key_of_cell h hc).1, (key_of_cell h hc').1] at e
  exact cellKey_inj h hc hc' (Option.some.inj e)

/-- The hypothesis on the number of voxels is needed: on a grid with 2048³ voxels the key of the last cell overflows. -/
theorem C17_overflow : ∃ g : Grid, 0 < g.nx ∧ 0 < g.ny ∧ 0 < g.nz ∧ g.IsCell (2047, 2047, 2047) ∧
    g.getKeyFromCells 2047 2047 2047 = none :=
  ⟨⟨2048, 2048, 2048, 0, 0, 0⟩, by decide, by decide, by decide, by simp [Grid.IsCell], by
    simp [Grid.getKeyFromCells, int32]⟩

example : (⟨3, 4, 5, 0, 0, 0⟩ : Grid).Sized ∧ (⟨3, 4, 5, 0, 0, 0⟩ : Grid).IsCell (2, 1, 4) ∧
    (⟨3, 4, 5, 0, 0, 0⟩ : Grid).getKeyFromCells 2 1 4 = some 53 :=
  ⟨⟨by decide, by decide, by decide, by decide⟩, by simp [Grid.IsCell], by simp [Grid.getKeyFromCells, int32]⟩

/-! ### C18: points and voxels -/

/-- `p` lies in the half open region with corner `lo` and edge lengths `len`. -/
def InRegion (lo len p : V3) : Prop :=
  (lo.x ≤ p.x ∧ p.x < lo.x + len.x) ∧ (lo.y ≤ p.y ∧ p.y < lo.y + len.y) ∧ (lo.z ≤ p.z ∧ p.z < lo.z + len.z)

/-- `p` lies between the corners `lo` and `up` (upper faces excluded). -/
def InExtent (lo up p : V3) : Prop :=
  (lo.x ≤ p.x ∧ p.x < up.x) ∧ (lo.y ≤ p.y ∧ p.y < up.y) ∧ (lo.z ≤ p.z ∧ p.z < up.z)

/-- All edge lengths are positive. -/
def Pos (v : V3) : Prop := 0 < v.x ∧ 0 < v.y ∧ 0 < v.z

/-- Lower corner of a cell. -/
noncomputable def corner (g : Grid) (c : Int × Int × Int) : V3 :=
  ⟨g.lower.x + c.1 * g.delta.x, g.lower.y + c.2.1 * g.delta.y, g.lower.z + c.2.2 * g.delta.z⟩

/-- The position reported for a cell. -/
noncomputable def position (g : Grid) (c : Int × Int × Int) : V3 :=
  ⟨g.lower.x + c.1 * g.delta.x * 1.5, g.lower.y + c.2.1 * g.delta.y * 1.5, g.lower.z + c.2.2 * g.delta.z * 1.5⟩

theorem extent_of_cell {g : Grid} {key : Int} {c : Int × Int × Int} (h : g.keyToCell key = some c) :
    g.extent key = some (corner g c, corner g c + g.delta) := by
  unfold Grid.extent; rw [h]; rfl

theorem keyToPos_of_cell {g : Grid} {key : Int} {c : Int × Int × Int} (h : g.keyToCell key = some c) :
    g.keyToPos key = some (position g c) := by
  unfold Grid.keyToPos; rw [h]; rfl

theorem cell_of_point {lo len p : V3} {nx ny nz : Int} (h : (Grid.make lo len nx ny nz).Sized) (hl : Pos len)
    (hp : InRegion lo len p) :
    (Grid.make lo len nx ny nz).IsCell ((Grid.make lo len nx ny nz).getVoxelCoordinates p) := by
  obtain ⟨⟨x0, x1⟩, ⟨y0, y1⟩, ⟨z0, z1⟩⟩ := hp
  obtain ⟨lx, ly, lz⟩ := hl
  obtain ⟨a1, a2, _, _⟩ := coord_cell h.x lx x0 x1
  obtain ⟨b1, b2, _, _⟩ := coord_cell h.y ly y0 y1
  obtain ⟨c1, c2, _, _⟩ := coord_cell h.z lz z0 z1
  exact ⟨⟨a1, a2⟩, ⟨b1, b2⟩, ⟨c1, c2⟩⟩

/-- A point of the region gets a key in range, and the extent of that voxel contains the point. -/
theorem C18_point_in_voxel {lo len p : V3} {nx ny nz : Int} (h : (Grid.make lo len nx ny nz).Sized) (hl : Pos len)
    (hp : InRegion lo len p) :
    ∃ key a b, (Grid.make lo len nx ny nz).getKey p = some key ∧ 0 ≤ key ∧ key < nx * ny * nz ∧
      (Grid.make lo len nx ny nz).extent key = some (a, b) ∧ InExtent a b p := by
  have hc := cell_of_point h hl hp
  obtain ⟨k1, k2, k3⟩ := key_of_cell h hc
  obtain ⟨⟨x0, x1⟩, ⟨y0, y1⟩, ⟨z0, z1⟩⟩ := hp
  obtain ⟨lx, ly, lz⟩ := hl
  obtain ⟨_, _, a1, a2⟩ := coord_cell h.x lx x0 x1
  obtain ⟨_, _, b1, b2⟩ := coord_cell h.y ly y0 y1
  obtain ⟨_, _, c1, c2⟩ := coord_cell h.z lz z0 z1
  exact ⟨_, _, _, k1, k2, k3, extent_of_cell (cell_of_key_of_cell h hc), ⟨⟨a1, a2⟩, ⟨b1, b2⟩, ⟨c1, c2⟩⟩⟩

theorem coord_disjoint {lo d x : ℝ} {k k' : Int} (hd : 0 < d) (h1 : lo + k * d < x) (h2 : x < lo + k * d + d)
    (h3 : lo + k' * d < x) (h4 : x < lo + k' * d + d) : k = k' := by
  have a : (k : ℝ) < k' + 1 := by
    by_contra h; push Not at h
    nlinarith
  have b : (k' : ℝ) < k + 1 := by
    by_contra h; push Not at h
    nlinarith
  have a' : k < k' + 1 := by exact_mod_cast a
  have b' : k' < k + 1 := by exact_mod_cast b
  omega

/-- The open interior of the box between two corners. -/
def InInterior (lo up p : V3) : Prop :=
  (lo.x < p.x ∧ p.x < up.x) ∧ (lo.y < p.y ∧ p.y < up.y) ∧ (lo.z < p.z ∧ p.z < up.z)

/-- Interiors of different voxels do not meet. -/
theorem C18_disjoint {lo len : V3} {nx ny nz : Int} (h : (Grid.make lo len nx ny nz).Sized) (hl : Pos len)
    {key key' : Int} (k0 : 0 ≤ key) (k1 : key < nx * ny * nz) (k0' : 0 ≤ key') (k1' : key' < nx * ny * nz)
    {a b a' b' p : V3} (he : (Grid.make lo len nx ny nz).extent key = some (a, b))
    (he' : (Grid.make lo len nx ny nz).extent key' = some (a', b')) (hp : InInterior a b p) (hp' : InInterior a' b' p) :
    key = key' := by
  obtain ⟨kx, ky, kz, e1, e2, e3⟩ := C17_key_cell_key h k0 k1
  obtain ⟨kx', ky', kz', f1, f2, f3⟩ := C17_key_cell_key h k0' k1'
  rw [extent_of_cell e1] at he
  rw [extent_of_cell f1] at he'
  obtain ⟨rfl, rfl⟩ := Prod.mk.inj (Option.some.inj he)
  obtain ⟨rfl, rfl⟩ := Prod.mk.inj (Option.some.inj he')
  obtain ⟨⟨x0, x1⟩, ⟨y0, y1⟩, ⟨z0, z1⟩⟩ := hp
  obtain ⟨⟨x0', x1'⟩, ⟨y0', y1'⟩, ⟨z0', z1'⟩⟩ := hp'
  obtain ⟨lx, ly, lz⟩ := hl
  have hx : (0 : ℝ) < nx := by exact_mod_cast h.x
  have hy : (0 : ℝ) < ny := by exact_mod_cast h.y
  have hz : (0 : ℝ) < nz := by exact_mod_cast h.z
  have ex := coord_disjoint (div_pos lx hx) x0 x1 x0' x1'
  have ey := coord_disjoint (div_pos ly hy) y0 y1 y0' y1'
  have ez := coord_disjoint (div_pos lz hz) z0 z1 z0' z1'
  simp only at ex ey ez
  rw [ex, ey, ez, f3] at e3
  exact (Option.some.inj e3).symm

/-- What is true of the reported position: it lies in the (closed) voxel for the first three cells along each axis. -/
theorem C18_position_partial {lo len : V3} {nx ny nz : Int} (h : (Grid.make lo len nx ny nz).Sized) (hl : Pos len)
    {kx ky kz : Int} (hc : (Grid.make lo len nx ny nz).IsCell (kx, ky, kz)) (h2 : kx ≤ 2 ∧ ky ≤ 2 ∧ kz ≤ 2) :
    ∃ key a b q, (Grid.make lo len nx ny nz).getKeyFromCells kx ky kz = some key ∧
      (Grid.make lo len nx ny nz).extent key = some (a, b) ∧ (Grid.make lo len nx ny nz).keyToPos key = some q ∧
      (a.x ≤ q.x ∧ q.x ≤ b.x) ∧ (a.y ≤ q.y ∧ q.y ≤ b.y) ∧ (a.z ≤ q.z ∧ q.z ≤ b.z) := by
  obtain ⟨k1, k2, k3⟩ := key_of_cell h hc
  have aux : ∀ (k : Int) (l d : ℝ), 0 ≤ k → k ≤ 2 → 0 < d →
      l + k * d ≤ l + k * d * 1.5 ∧ l + k * d * 1.5 ≤ l + k * d + d := by
    intro k l d h0 h1 hd
    have h0' : (0 : ℝ) ≤ k := by exact_mod_cast h0
    have h1' : (k : ℝ) ≤ 2 := by exact_mod_cast h1
    constructor <;> nlinarith
  obtain ⟨lx, ly, lz⟩ := hl
  have hx : (0 : ℝ) < nx := by exact_mod_cast h.x
  have hy : (0 : ℝ) < ny := by exact_mod_cast h.y
  have hz : (0 : ℝ) < nz := by exact_mod_cast h.z
  refine ⟨_, _, _, _, k1, extent_of_cell (cell_of_key_of_cell h hc), keyToPos_of_cell (cell_of_key_of_cell h hc), ?_⟩
  · exact ⟨aux kx _ _ hc.1.1 h2.1 (div_pos lx hx), aux ky _ _ hc.2.1.1 h2.2.1 (div_pos ly hy),
      aux kz _ _ hc.2.2.1 h2.2.2 (div_pos lz hz)⟩

/-- From the fourth cell on the reported position lies outside the voxel. -/
theorem C18_position_counterexample {lo len : V3} {nx ny nz : Int} (h : (Grid.make lo len nx ny nz).Sized) (hl : Pos len)
    {kx ky kz : Int} (hc : (Grid.make lo len nx ny nz).IsCell (kx, ky, kz)) (h2 : 3 ≤ kx) :
    ∃ key a b q, (Grid.make lo len nx ny nz).getKeyFromCells kx ky kz = some key ∧
      (Grid.make lo len nx ny nz).extent key = some (a, b) ∧ (Grid.make lo len nx ny nz).keyToPos key = some q ∧
      b.x < q.x := by
  obtain ⟨k1, k2, k3⟩ := key_of_cell h hc
  obtain ⟨lx, ly, lz⟩ := hl
  have hx : (0 : ℝ) < nx := by exact_mod_cast h.x
  refine ⟨_, _, _, _, k1, extent_of_cell (cell_of_key_of_cell h hc), keyToPos_of_cell (cell_of_key_of_cell h hc), ?_⟩
  · have hd := div_pos lx hx
    have h2' : (3 : ℝ) ≤ kx := by exact_mod_cast h2
    show lo.x + kx * (len.x / nx) + len.x / nx < lo.x + kx * (len.x / nx) * 1.5
    nlinarith

/-- Points on the upper face of the region are outside every voxel along that axis: their key is that of a cell in the next row, whose
extent does not contain the point. -/
theorem C18_upper_face : ∃ (lo len p : V3), Pos len ∧ p.x = lo.x + len.x ∧ lo.y ≤ p.y ∧ p.y < lo.y + len.y ∧
    lo.z ≤ p.z ∧ p.z < lo.z + len.z ∧ ∃ key a b, (Grid.make lo len 2 2 2).getKey p = some key ∧
      (Grid.make lo len 2 2 2).extent key = some (a, b) ∧ b.x < p.x := by
  have t2 : trunc (2 : ℝ) = 2 := by rw [trunc_of_nonneg (by norm_num)]; norm_num
  have t0 : trunc (0 : ℝ) = 0 := by rw [trunc_of_nonneg (by norm_num)]; norm_num
  refine ⟨0, ⟨2, 2, 2⟩, ⟨2, 0, 0⟩, ⟨by norm_num, by norm_num, by norm_num⟩, by simp, by simp, by simp, by simp,
    by simp, 2, ⟨0, 1, 0⟩, ⟨1, 2, 1⟩, ?_, ?_, by norm_num⟩
  · simp [Grid.getKey, Grid.getVoxelCoordinates, Grid.make, t2, t0, Grid.getKeyFromCells, int32]
  · have hc : (Grid.make 0 (⟨2, 2, 2⟩ : V3) 2 2 2).keyToCell 2 = some (0, 1, 0) := by
      simp [Grid.keyToCell, Grid.make, int32]
    unfold Grid.extent
    rw [hc, Option.map_some]
    refine congrArg some (Prod.ext (V3.ext ?_ ?_ ?_) (V3.ext ?_ ?_ ?_)) <;> (simp [Grid.make]; try norm_num)

example : (Grid.make 0 ⟨2, 3, 4⟩ 2 3 4).Sized ∧ Pos ⟨2, 3, 4⟩ ∧ InRegion 0 ⟨2, 3, 4⟩ ⟨1, 2, 3.5⟩ :=
  ⟨⟨by simp [Grid.make], by simp [Grid.make], by simp [Grid.make], by simp [Grid.make]⟩,
    ⟨by norm_num, by norm_num, by norm_num⟩, by simp [InRegion]; norm_num⟩

/-! ### C19: the map as storage -/

/-- Operations of the interface. -/
inductive Op (P : Type)
  | add (key : Int) (p : P)
  | clear

/-- Running operations on the model. -/
def run {P : Type} : VMap P → List (Op P) → Option (VMap P)
  | m, [] => some m
  | m, .add k p :: l => (m.addPropertyForKey k p).bind fun m' => run m' l
  | m, .clear :: l => run m.clear l

/-- Specification: the insertions since the last `clear`, oldest first. -/
def inserted {P : Type} (h : List (Op P)) : List (Int × P) :=
  h.foldl (fun acc o => match o with | .add k p => acc ++ [(k, p)] | .clear => []) []

/-- Specification: the key inserted last, over all of the history; `-1` if there was none. -/
def lastInserted {P : Type} (h : List (Op P)) : Int :=
  h.foldl (fun acc o => match o with | .add k _ => k | .clear => acc) (-1)

/-- Histories in which equal keys are inserted consecutively (between clears), and the first insertion after creation or after a
`clear` does not use the key inserted last before. -/
inductive Grouped {P : Type} : List (Op P) → Prop
  | nil : Grouped []
  | clear {h} : Grouped h → Grouped (h ++ [.clear])
  | new {h k p} : Grouped h → k ∉ (inserted h).map Prod.fst → k ≠ lastInserted h → Grouped (h ++ [.add k p])
  | same {h k p} : Grouped h → lastOf (inserted h) = some k → Grouped (h ++ [.add k p])

theorem run_append {P : Type} (m : VMap P) (l l' : List (Op P)) : run m (l ++ l') = (run m l).bind fun m' => run m' l' := by
  induction l generalizing m with
  | nil => rfl
  | cons o l ih =>
    cases o with
    | add k p =>
      rw [List.cons_append, run, run]
      cases m.addPropertyForKey k p with
      | none => rfl
      | some m' => exact ih m'
    | clear => exact ih m.clear

theorem run_inv {P : Type} {h : List (Op P)} (hg : Grouped h) :
    ∃ m, run VMap.empty h = some m ∧ Inv m (inserted h) (lastInserted h) := by
  induction hg with
  | nil => exact ⟨_, rfl, inv_empty⟩
  | @clear h _ ih =>
    obtain ⟨m, h1, h2⟩ := ih
    refine ⟨m.clear, by rw [run_append, h1]; rfl, ?_⟩
    simpa [inserted, lastInserted] using inv_clear h2
  | @new h k p _ hk hl ih =>
    obtain ⟨m, h1, h2⟩ := ih
    obtain ⟨m', h3, h4⟩ := inv_add_new h2 p hk hl
    refine ⟨m', by rw [run_append, h1, Option.bind_some, run, h3]; rfl, ?_⟩
    simpa [inserted, lastInserted] using h4
  | @same h k p _ hk ih =>
    obtain ⟨m, h1, h2⟩ := ih
    obtain ⟨m', h3, h4⟩ := inv_add_same h2 p hk
    refine ⟨m', by rw [run_append, h1, Option.bind_some, run, h3]; rfl, ?_⟩
    simpa [inserted, lastInserted] using h4

/-- After any grouped history no undefined step was taken, a lookup returns exactly what was inserted for the key, in order, with the
right count, and the key is occupied exactly if something was inserted for it.

Missing for the full property: the first insertion after a `clear` with the same key as the last insertion before it (see
`C19_clear_counterexample`), and `-1` as the first key. -/
theorem C19_lookup_partial {P : Type} {h : List (Op P)} (hg : Grouped h) :
    ∃ m, run VMap.empty h = some m ∧ ∀ key,
      m.readProperties key = some (((inserted h).filter fun e => e.1 == key).map Prod.snd) ∧
      (m.getProperties key).2 = (((inserted h).filter fun e => e.1 == key).map Prod.snd).length ∧
      (m.isOccupied key = true ↔ ∃ p, (key, p) ∈ inserted h) := by
  obtain ⟨m, h1, h2⟩ := run_inv hg
  refine ⟨m, h1, fun key => ?_⟩
  obtain ⟨a, b, c⟩ := inv_read h2 key
  refine ⟨a, b, c.trans ?_⟩
  simp

/-- Inserting a key, clearing and inserting the same key again is undefined: the end iterator of the map is dereferenced.  The same
happens for the key `-1` in a new map. -/
theorem C19_clear_counterexample {P : Type} (k : Int) (p q : P) (hk : k ≠ -1) :
    run VMap.empty [.add k p, .clear, .add k q] = none ∧ run VMap.empty [.add (-1) p] = none := by
  constructor
  · simp [run, VMap.addPropertyForKey, VMap.empty, hk, VMap.clear]
  · simp [run, VMap.addPropertyForKey, VMap.empty]

/-- If equal keys are not inserted consecutively the earlier properties are lost. -/
theorem C19_ungrouped {P : Type} (p q r : P) : ∃ m, run VMap.empty [.add 1 p, .add 2 q, .add 1 r] = some m ∧
    m.readProperties 1 = some [r] :=
  ⟨_, rfl, rfl⟩

example : Grouped ([.add 3 true, .add 3 false, .add 5 true, .clear, .add 3 true] : List (Op Bool)) := by
  have h1 : Grouped ([.add 3 true] : List (Op Bool)) := Grouped.new (h := []) .nil (by decide) (by decide)
  have h2 := Grouped.same (p := false) (k := 3) h1 (by decide)
  have h3 := Grouped.new (p := true) (k := 5) h2 (by decide) (by decide)
  exact Grouped.new (p := true) (k := 3) (Grouped.clear h3) (by decide) (by decide)

/-- Running operations on a map with scalar properties. -/
def runS {P : Type} (m : SMap P) (h : List (Op P)) : SMap P :=
  h.foldl (fun m o => match o with | .add k p => m.addPropertyForKey k p | .clear => m.clear) m

/-- For scalar properties a lookup returns the first property inserted for the key, and nothing if there was none. -/
theorem C19_scalar_partial {P : Type} {h : List (Op P)} (hg : Grouped h) (key : Int) :
    (runS SMap.empty h).get key = (((inserted h).filter fun e => e.1 == key).map Prod.snd).head? := by
  have main : (runS SMap.empty h).lastKey = lastInserted h ∧
      (∀ k, lastOf (inserted h) = some k → k = lastInserted h) ∧
      ∀ key, (runS SMap.empty h).map key = (stored (inserted h) key).head? := by
    induction hg with
    | nil => exact ⟨rfl, fun k h => by simp [lastOf, inserted] at h, fun _ => rfl⟩
    | @clear h _ ih =>
      refine ⟨by simpa [runS, lastInserted, SMap.clear] using ih.1, ?_, ?_⟩
      · simp [inserted, lastOf]
      · intro key; simp [runS, SMap.clear, inserted, stored]
    | @new h k p _ hk hl ih =>
      have e : runS SMap.empty (h ++ [.add k p]) = ⟨VMap.setKey (runS SMap.empty h).map k p, k⟩ := by
        have : runS SMap.empty (h ++ [.add k p]) = (runS SMap.empty h).addPropertyForKey k p := by simp [runS]
        rw [this, SMap.addPropertyForKey, if_neg (by rw [ih.1]; exact hl)]
      have ei : inserted (h ++ [.add k p]) = inserted h ++ [(k, p)] := by simp [inserted]
      have el : lastInserted (h ++ [.add k p]) = k := by simp [lastInserted]
      refine ⟨by rw [e, el], ?_, fun key => ?_⟩
      · intro k' h'
        rw [ei, lastOf_append] at h'
        rw [el]; exact (Option.some.inj h').symm
      · rw [e, ei, stored_append]
        show VMap.setKey (runS SMap.empty h).map k p key = _
        unfold VMap.setKey
        by_cases hkey : key = k
        · subst hkey
          have : stored (inserted h) key = [] := by
            unfold stored
            rw [List.filter_eq_nil_iff.2 (by
              intro e he; simp; intro h'; exact hk (h' ▸ List.mem_map_of_mem he))]
            rfl
          rw [this, if_pos rfl]; simp [stored]
        · have : stored [(k, p)] key = [] := by simp [stored]; exact fun h => hkey h.symm
          rw [this, List.append_nil]
          simpa [hkey] using ih.2.2 key
    | @same h k p _ hk ih =>
      have hl : k = lastInserted h := ih.2.1 k hk
      have e : runS SMap.empty (h ++ [.add k p]) = runS SMap.empty h := by
        have : runS SMap.empty (h ++ [.add k p]) = (runS SMap.empty h).addPropertyForKey k p := by simp [runS]
        rw [this, SMap.addPropertyForKey, if_pos (by rw [ih.1]; exact hl)]
      have ei : inserted (h ++ [.add k p]) = inserted h ++ [(k, p)] := by simp [inserted]
      have el : lastInserted (h ++ [.add k p]) = k := by simp [lastInserted]
      refine ⟨by rw [e, el, ih.1, hl], ?_, fun key => ?_⟩
      · intro k' h'
        rw [ei, lastOf_append] at h'
        rw [el]; exact (Option.some.inj h').symm
      · rw [e, ei, stored_append, ih.2.2 key]
        by_cases hkey : key = k
        · subst hkey
          have : stored (inserted h) key ≠ [] := by
            unfold lastOf at hk
            obtain ⟨x, hx, hx'⟩ := Option.map_eq_some_iff.1 hk
            have hm : x.2 ∈ stored (inserted h) key := by
              unfold stored
              exact List.mem_map_of_mem (List.mem_filter.2 ⟨List.mem_of_getLast? hx, by simp [hx']⟩)
            exact List.ne_nil_of_mem hm
          cases hs : stored (inserted h) key with
          | nil => exact absurd hs this
          | cons a l => rfl
        · have : stored [(k, p)] key = [] := by simp [stored]; exact fun h => hkey h.symm
          rw [this, List.append_nil]
  exact main.2.2 key

/-- With scalar properties, inserting the same key again after a `clear` has no effect. -/
theorem C19_scalar_clear_counterexample {P : Type} (k : Int) (p q : P) (hk : k ≠ -1) :
    (runS SMap.empty [.add k p, .clear, .add k q]).get k = none := by
  simp [runS, SMap.addPropertyForKey, SMap.empty, hk, SMap.clear, SMap.get]

/-! ### C54: marking bounding boxes -/

/-- Marking always succeeds on a new map, whatever order the sort chooses for equal keys, and for each cell the lookup returns each box
at most once. -/
theorem mark_read {g : Grid} (h : g.Sized) {boxes : List Box} {r : Option (VMap Nat)}
    (hr : MarkResult g VMap.empty boxes r) :
    ∃ m, r = some m ∧ ∀ c, g.IsCell c → ∃ l, m.readProperties (cellKey g c) = some l ∧ l.Perm (marks g c 0 boxes) ∧
      (m.isOccupied (cellKey g c) = true ↔ l ≠ []) := by
  obtain ⟨l, h1, h2, h3⟩ := keyToProp_spec h boxes 0
  rcases hr with ⟨h', _⟩ | ⟨l', sorted, e1, e2, e3, rfl⟩
  · rw [h1] at h'; exact absurd h' (by simp)
  · rw [h1] at e1
    obtain rfl := Option.some.inj e1
    obtain ⟨m, last, f1, f2⟩ := addAll_sorted sorted e3 VMap.empty [] (-1) inv_empty (by simp) (by simp)
      (fun _ b hb => by have := h2 b (e2.mem_iff.1 hb); omega)
    refine ⟨m, f1, fun c hc => ?_⟩
    rw [List.nil_append] at f2
    obtain ⟨g1, g2, g3⟩ := inv_read f2 (cellKey g c)
    refine ⟨_, g1, ?_, ?_⟩
    · rw [← h3 c hc]
      exact (e2.filter _).map _
    · rw [g3]
      constructor
      · intro hm
        obtain ⟨e, he, hek⟩ := List.mem_map.1 hm
        exact List.ne_nil_of_mem (List.mem_map_of_mem (List.mem_filter.2 ⟨he, by simp [hek]⟩))
      · intro hne
        obtain ⟨x, hx⟩ := List.exists_mem_of_ne_nil _ hne
        unfold stored at hx
        obtain ⟨e, he, _⟩ := List.mem_map.1 hx
        obtain ⟨he1, he2⟩ := List.mem_filter.1 he
        exact List.mem_map.2 ⟨e, he1, by simpa using he2⟩

/-- The half open voxel `[a, b)` meets the closed box. -/
def Meets (a b : V3) (x : Box) : Prop :=
  (x.lo.x < b.x ∧ a.x ≤ x.up.x) ∧ (x.lo.y < b.y ∧ a.y ≤ x.up.y) ∧ (x.lo.z < b.z ∧ a.z ≤ x.up.z)

/-- For boxes that do not lie entirely below the region along some axis: a voxel lists precisely the boxes that meet it, each once. -/
theorem C54_mark_exact {lo len : V3} {nx ny nz : Int} (h : (Grid.make lo len nx ny nz).Sized) (hl : Pos len)
    {boxes : List Box} (hb : ∀ b ∈ boxes, lo.x ≤ b.up.x ∧ lo.y ≤ b.up.y ∧ lo.z ≤ b.up.z) {r : Option (VMap Nat)}
    (hr : MarkResult (Grid.make lo len nx ny nz) VMap.empty boxes r) :
    ∃ m, r = some m ∧ ∀ key, 0 ≤ key → key < nx * ny * nz → ∃ a b l,
      (Grid.make lo len nx ny nz).extent key = some (a, b) ∧ m.readProperties key = some l ∧ l.Nodup ∧
      ∀ j, j ∈ l ↔ ∃ x, boxes[j]? = some x ∧ Meets a b x := by
  obtain ⟨m, h1, h2⟩ := mark_read h hr
  refine ⟨m, h1, fun key k0 k1 => ?_⟩
  obtain ⟨kx, ky, kz, e1, e2, e3⟩ := C17_key_cell_key h k0 k1
  have ek : cellKey (Grid.make lo len nx ny nz) (kx, ky, kz) = key := by
    rw [(key_of_cell h e2).1] at e3
    exact Option.some.inj e3
  obtain ⟨l, f1, f2, _⟩ := h2 (kx, ky, kz) e2
  rw [ek] at f1
  refine ⟨_, _, l, extent_of_cell e1, f1, f2.nodup_iff.2 nodup_marks, fun j => ?_⟩
  rw [f2.mem_iff, mem_marks]
  have key : ∀ x ∈ boxes, ((kx, ky, kz) ∈ cellsOf (Grid.make lo len nx ny nz) x ↔ Meets
      (⟨lo.x + kx * (len.x / nx), lo.y + ky * (len.y / ny), lo.z + kz * (len.z / nz)⟩ : V3)
      ((⟨lo.x + kx * (len.x / nx), lo.y + ky * (len.y / ny), lo.z + kz * (len.z / nz)⟩ : V3) +
        (⟨len.x / nx, len.y / ny, len.z / nz⟩ : V3)) x) := by
    intro x hx
    obtain ⟨bx, by', bz⟩ := hb x hx
    rw [mem_cellsOf]
    exact and_congr (coord_marks h.x hl.1 e2.1.1 e2.1.2 bx)
      (and_congr (coord_marks h.y hl.2.1 e2.2.1.1 e2.2.1.2 by') (coord_marks h.z hl.2.2 e2.2.2.1 e2.2.2.2 bz))
  constructor
  · rintro ⟨i, x, hj, hx, hc⟩
    rw [Nat.zero_add] at hj; subst hj
    exact ⟨x, hx, (key x (List.mem_of_getElem? hx)).1 hc⟩
  · rintro ⟨x, hx, hc⟩
    exact ⟨j, x, by omega, hx, (key x (List.mem_of_getElem? hx)).2 hc⟩

/-- Completeness for arbitrary boxes: a point of the region that lies in a box finds this box in its voxel, and the voxel is reported
occupied. -/
theorem C54_mark_complete {lo len : V3} {nx ny nz : Int} (h : (Grid.make lo len nx ny nz).Sized) (hl : Pos len)
    {boxes : List Box} {r : Option (VMap Nat)} (hr : MarkResult (Grid.make lo len nx ny nz) VMap.empty boxes r) :
    ∃ m, r = some m ∧ ∀ (p : V3) (j : Nat) (x : Box), InRegion lo len p → boxes[j]? = some x →
      (x.lo.x ≤ p.x ∧ p.x ≤ x.up.x) → (x.lo.y ≤ p.y ∧ p.y ≤ x.up.y) → (x.lo.z ≤ p.z ∧ p.z ≤ x.up.z) →
      ∃ key l, (Grid.make lo len nx ny nz).getKey p = some key ∧ m.readProperties key = some l ∧ j ∈ l ∧
        m.isOccupied key = true := by
  obtain ⟨m, h1, h2⟩ := mark_read h hr
  refine ⟨m, h1, fun p j x hp hj hx hy hz => ?_⟩
  have hc := cell_of_point h hl hp
  obtain ⟨l, f1, f2, f3⟩ := h2 _ hc
  have hjl : j ∈ l := by
    rw [f2.mem_iff, mem_marks]
    refine ⟨j, x, by omega, hj, ?_⟩
    have ix : 0 ≤ 1 / (len.x / nx) := by
      have := h.x; have : (0 : ℝ) < nx := by exact_mod_cast h.x
      have := hl.1; positivity
    have iy : 0 ≤ 1 / (len.y / ny) := by
      have : (0 : ℝ) < ny := by exact_mod_cast h.y
      have := hl.2.1; positivity
    have iz : 0 ≤ 1 / (len.z / nz) := by
      have : (0 : ℝ) < nz := by exact_mod_cast h.z
      have := hl.2.2; positivity
    obtain ⟨⟨x0, x1⟩, ⟨y0, y1⟩, ⟨z0, z1⟩⟩ := hc
    rw [mem_cellsOf]
    refine ⟨⟨max_le (trunc_mono ?_) x0, le_min (trunc_mono ?_) (Int.le_sub_one_of_lt x1)⟩,
      ⟨max_le (trunc_mono ?_) y0, le_min (trunc_mono ?_) (Int.le_sub_one_of_lt y1)⟩,
      ⟨max_le (trunc_mono ?_) z0, le_min (trunc_mono ?_) (Int.le_sub_one_of_lt z1)⟩⟩
    · exact mul_le_mul_of_nonneg_right (sub_le_sub_right hx.1 _) ix
    · exact mul_le_mul_of_nonneg_right (sub_le_sub_right hx.2 _) ix
    · exact mul_le_mul_of_nonneg_right (sub_le_sub_right hy.1 _) iy
    · exact mul_le_mul_of_nonneg_right (sub_le_sub_right hy.2 _) iy
    · exact mul_le_mul_of_nonneg_right (sub_le_sub_right hz.1 _) iz
    · exact mul_le_mul_of_nonneg_right (sub_le_sub_right hz.2 _) iz
  exact ⟨_, l, (key_of_cell h hc).1, f1, hjl, f3.2 (List.ne_nil_of_mem hjl)⟩

/-- The result of marking exists: sorting is possible. -/
example (lo len : V3) (h : (Grid.make lo len 2 2 2).Sized) (b : Box) :
    ∃ r, MarkResult (Grid.make lo len 2 2 2) VMap.empty [b] r := by
  obtain ⟨l, h1, _, _⟩ := keyToProp_spec h [b] 0
  refine ⟨_, Or.inr ⟨l, l.mergeSort (fun a b => decide (a.1 ≤ b.1)), h1, List.mergeSort_perm _ _, ?_, rfl⟩⟩
  have := List.pairwise_mergeSort (le := fun (a b : Int × Nat) => decide (a.1 ≤ b.1))
    (fun a b c h1 h2 => by simp at *; omega) (fun a b => by simp; omega) l
  exact this.imp (by simp)

/-! ### C55: building the candidate lists with several tasks -/

/-- The index ranges of the tasks partition the keys: each index belongs to exactly one task. -/
theorem C55_tasks_partition {s n i : Nat} (hn : 0 < n) (hi : i < s) :
    ∃ t, t < n ∧ ∀ t', t' < n → (((taskRange s n t').1 ≤ i ∧ i < (taskRange s n t').2) ↔ t' = t) :=
  taskRange_partition hn hi

/-- No task touches an index past the end. -/
theorem C55_tasks_in_range {s n t : Nat} (ht : t < n) : (taskRange s n t).2 ≤ s := by
  have hs : n * (s / n) + s % n = s := Nat.div_add_mod s n
  unfold taskRange
  simp only
  generalize s / n = c at hs ⊢
  by_cases h : t = n - 1
  · rw [if_pos h, h, Nat.sub_add_cancel (by omega)]; omega
  · rw [if_neg h]
    have : (t + 1) * c ≤ n * c := Nat.mul_le_mul_right c (by omega)
    omega

/-- For every number of tasks and every interleaving of their writes, each slot ends up with precisely the boxes that intersect its voxel,
in increasing order. -/
theorem C55_schedule_independent (ext : Nat → Box) (boxes : List Box) {s n : Nat} (hn : 0 < n) {r : List (Nat × Nat)}
    (hr : Interleave ((List.range n).map (taskEvents ext boxes s n)) r) {i : Nat} (hi : i < s) :
    slot r i = (List.range boxes.length).filter fun j => match boxes[j]? with
      | some b => intersectionExist (ext i) b
      | none => false := by
  obtain ⟨t, ht, hp⟩ := taskRange_partition hn hi
  have := interleave_filter hr (fun e => e.1 == i) t (taskEvents ext boxes s n t) (by simp [ht])
    (by
      intro j' l' hne hj'
      rw [List.getElem?_map] at hj'
      obtain ⟨w, hw, rfl⟩ := Option.map_eq_some_iff.1 hj'
      obtain ⟨hw1, hw2⟩ := List.getElem?_eq_some_iff.1 hw
      rw [List.getElem_range] at hw2
      rw [List.length_range] at hw1
      subst hw2
      rw [filter_taskEvents, if_neg (fun h' => hne ((hp j' hw1).1 h'))])
  rw [slot_eq, this, filter_taskEvents, if_pos ((hp t ht).2 rfl), List.map_map]
  exact List.map_id _

theorem interleave_skip {ε : Type} {ls : List (List ε)} {r : List ε} (h : Interleave ls r) : Interleave ([] :: ls) r := by
  induction h with
  | done h => exact .done (by intro l hl; rcases List.mem_cons.1 hl with h' | h'; exacts [h', h l h'])
  | @step pre post e l r _ ih => exact Interleave.step (pre := [] :: pre) ih

/-- Executions exist: run the tasks one after the other. -/
theorem interleave_flatten {ε : Type} (ls : List (List ε)) : Interleave ls ls.flatten := by
  induction ls with
  | nil => exact .done (by simp)
  | cons l ls ih =>
    rw [List.flatten_cons]
    induction l with
    | nil => exact interleave_skip ih
    | cons e l ih' => exact Interleave.step (pre := []) ih'

example (ext : Nat → Box) (boxes : List Box) (s n : Nat) :
    ∃ r, Interleave ((List.range n).map (taskEvents ext boxes s n)) r := ⟨_, interleave_flatten _⟩

/-! ### C56: the voxel based locator -/

/-- Specification: the first daughter in the list that is not excluded, whose box holds the point and which contains the point. -/
noncomputable def firstDaughter (boxes : List Box) (contains : Nat → V3 → Bool) (excl : Option Nat) (p : V3) : Option Nat :=
  (List.range boxes.length).find? fun d =>
    (!decide (excl = some d)) && (match boxes[d]? with | some b => abboxContains b p | none => false) && contains d p

theorem register_read (cands : Nat → List Nat) (n : Nat) : ∃ m, register cands n = some m ∧
    ∀ i, i < n → m.readProperties (i : Int) = some (cands i) := by
  have hsort : ∀ n, ((List.range n).flatMap fun i => (cands i).map fun b => ((i : Int), b)).Pairwise fun a b => a.1 ≤ b.1 := by
    intro n
    induction n with
    | zero => simp
    | succ n ih =>
      rw [List.range_succ, List.flatMap_append, List.pairwise_append]
      refine ⟨ih, ?_, ?_⟩
      · simp only [List.flatMap_singleton, List.pairwise_map]
        exact List.pairwise_of_forall fun _ _ => le_refl _
      · intro a ha b hb
        simp only [List.mem_flatMap, List.mem_map, List.mem_range, List.mem_singleton] at ha hb
        obtain ⟨i, hi, _, _, rfl⟩ := ha
        obtain ⟨j, rfl, _, _, rfl⟩ := hb
        simp; omega
  obtain ⟨m, last, h1, h2⟩ := addAll_sorted _ (hsort n) VMap.empty [] (-1) inv_empty (by simp) (by simp) (by
    intro _ b hb
    simp only [List.mem_flatMap, List.mem_map] at hb
    obtain ⟨i, _, _, _, rfl⟩ := hb
    simp)
  refine ⟨m, h1, fun i hi => ?_⟩
  rw [(inv_read h2 (i : Int)).1, List.nil_append]
  congr 1
  have : ∀ n, stored ((List.range n).flatMap fun i => (cands i).map fun b => ((i : Int), b)) (i : Int) = if i < n then cands i else [] := by
    intro n
    induction n with
    | zero => simp [stored]
    | succ n ih =>
      rw [List.range_succ, List.flatMap_append, stored_append, ih]
      have e : stored ((([n] : List Nat).flatMap fun i => (cands i).map fun b => ((i : Int), b))) (i : Int) = if i = n then cands i else [] := by
        unfold stored
        by_cases h : i = n
        · subst h
          rw [if_pos rfl, List.filter_eq_self.2 (by simp)]
          simp [Function.comp_def]
        · rw [if_neg h, List.filter_eq_nil_iff.2 (by simp; omega)]; rfl
      rw [e]
      by_cases h : i < n
      · rw [if_pos h, if_neg (by omega), if_pos (by omega), List.append_nil]
      · rw [if_neg h, List.nil_append]
        by_cases h' : i = n
        · rw [if_pos h', if_pos (by omega)]
        · rw [if_neg h', if_neg (by omega)]
  rw [this n, if_pos hi]

theorem intersectionExist_of_mem {a b : Box} {p : V3} (ha : InExtent a.lo a.up p) (hb : abboxContains b p = true) :
    intersectionExist a b = true := by
  obtain ⟨⟨x0, x1⟩, ⟨y0, y1⟩, ⟨z0, z1⟩⟩ := ha
  have hb := of_decide_eq_true hb
  obtain ⟨b1, b2, b3, b4, b5, b6⟩ := hb
  unfold intersectionExist
  rw [if_neg (by linarith), if_neg (by linarith), if_neg (by linarith), if_neg (by linarith), if_neg (by linarith),
    if_neg (by linarith)]

/-- For every number of tasks and interleaving used to build the structure, every list of boxes and every point of the mother's
extent, the voxel based search gives the answer of a search through all daughters in order. -/
theorem C56_locate_exhaustive {lower upper : V3} (hlu : Pos (upper - lower)) (boxes : List Box) {n : Nat} (hn : 0 < n)
    {r : List (Nat × Nat)}
    (hr : Interleave ((List.range n).map (taskEvents (extentBox (locateGrid lower upper)) boxes 1000 n)) r)
    (contains : Nat → V3 → Bool) (excl : Option Nat) {p : V3}
    (hp : (lower.x ≤ p.x ∧ p.x ≤ upper.x) ∧ (lower.y ≤ p.y ∧ p.y ≤ upper.y) ∧ (lower.z ≤ p.z ∧ p.z ≤ upper.z)) :
    ∃ m, buildLocateVoxels r = some m ∧
      levelLocate (locateGrid lower upper) m boxes contains excl p = some (firstDaughter boxes contains excl p) := by
  obtain ⟨m, h1, h2⟩ := register_read (slot r) 1000
  refine ⟨m, h1, ?_⟩
  have hs : (locateGrid lower upper).Sized :=
    ⟨by simp [locateGrid, Grid.make], by simp [locateGrid, Grid.make], by simp [locateGrid, Grid.make],
      by simp [locateGrid, Grid.make]⟩
  obtain ⟨lx, ly, lz⟩ := hlu
  rw [V3.sub_x] at lx; rw [V3.sub_y] at ly; rw [V3.sub_z] at lz
  have hl : Pos (V3.smul 1.005 (upper - lower)) :=
    ⟨by rw [V3.smul_x, V3.sub_x]; positivity, by rw [V3.smul_y, V3.sub_y]; positivity,
      by rw [V3.smul_z, V3.sub_z]; positivity⟩
  have hreg : InRegion lower (V3.smul 1.005 (upper - lower)) p := by
    obtain ⟨⟨x0, x1⟩, ⟨y0, y1⟩, ⟨z0, z1⟩⟩ := hp
    refine ⟨⟨x0, ?_⟩, ⟨y0, ?_⟩, ⟨z0, ?_⟩⟩
    · rw [V3.smul_x, V3.sub_x]; linarith
    · rw [V3.smul_y, V3.sub_y]; linarith
    · rw [V3.smul_z, V3.sub_z]; linarith
  obtain ⟨key, a, b, k1, k2, k3, k4, k5⟩ := C18_point_in_voxel hs hl hreg
  obtain ⟨i, rfl⟩ := Int.eq_ofNat_of_zero_le k2
  have hi : i < 1000 := by norm_num at k3; omega
  have hext : extentBox (locateGrid lower upper) i = ⟨a, b⟩ := by
    unfold extentBox
    have k4' : (locateGrid lower upper).extent (i : Int) = some (a, b) := k4
    rw [k4']
  unfold levelLocate
  have k1' : (locateGrid lower upper).getKey p = some (i : Int) := k1
  rw [k1', Option.bind_some, h2 i hi, Option.bind_some, C55_schedule_independent _ boxes hn hr hi,
    locateLoop_find _ _ _ _ _ (fun d hd => List.mem_range.1 (List.mem_filter.1 hd).1), List.find?_filter]
  unfold firstDaughter
  refine congrArg some (congrArg (fun f => List.find? f _) (funext fun d => ?_))
  rw [hext]
  cases hb : boxes[d]? with
  | none => simp
  | some x =>
    simp only
    by_cases hx : abboxContains x p = true
    · simp [intersectionExist_of_mem (a := ⟨a, b⟩) k5 hx]
    · simp [hx]

/-- If the boxes enclose the daughters, the answer is the first daughter (not excluded) containing the point; in particular a daughter
is found exactly if one contains the point. -/
theorem C56_locate_correct {lower upper : V3} (hlu : Pos (upper - lower)) (boxes : List Box) {n : Nat} (hn : 0 < n)
    {r : List (Nat × Nat)}
    (hr : Interleave ((List.range n).map (taskEvents (extentBox (locateGrid lower upper)) boxes 1000 n)) r)
    (contains : Nat → V3 → Bool) (excl : Option Nat) {p : V3}
    (hp : (lower.x ≤ p.x ∧ p.x ≤ upper.x) ∧ (lower.y ≤ p.y ∧ p.y ≤ upper.y) ∧ (lower.z ≤ p.z ∧ p.z ≤ upper.z))
    (henc : ∀ d b, boxes[d]? = some b → contains d p = true → abboxContains b p = true) :
    ∃ m, buildLocateVoxels r = some m ∧
      levelLocate (locateGrid lower upper) m boxes contains excl p =
        some ((List.range boxes.length).find? fun d => (!decide (excl = some d)) && contains d p) := by
  obtain ⟨m, h1, h2⟩ := C56_locate_exhaustive hlu boxes hn hr contains excl hp
  refine ⟨m, h1, h2.trans (congrArg some ?_)⟩
  unfold firstDaughter
  apply List.find?_congr
  intro d hd
  rw [List.mem_range] at hd
  have hb : boxes[d]? = some boxes[d] := List.getElem?_eq_getElem _
  rw [hb]
  simp only
  by_cases hc : contains d p = true
  · rw [henc d _ hb hc]; simp
  · simp [hc]

/-- With no task at all (`std::thread::hardware_concurrency()` may return 0) nothing is registered, and no point is ever located in a
daughter. -/
theorem C56_no_tasks {lower upper : V3} (boxes : List Box) {r : List (Nat × Nat)}
    (hr : Interleave ((List.range 0).map (taskEvents (extentBox (locateGrid lower upper)) boxes 1000 0)) r)
    (contains : Nat → V3 → Bool) (excl : Option Nat) (p : V3) (key : Int)
    (hk : (locateGrid lower upper).getKey p = some key) :
    ∃ m, buildLocateVoxels r = some m ∧ levelLocate (locateGrid lower upper) m boxes contains excl p = some none := by
  have hr' : r = [] := interleave_none hr rfl
  subst hr'
  have e : buildLocateVoxels [] = some VMap.empty := by
    unfold buildLocateVoxels register
    have : ((List.range 1000).flatMap fun i => (slot [] i).map fun b => ((i : Int), b)) = [] := by
      rw [List.flatMap_eq_nil_iff]; intro i _; rfl
    rw [this]; rfl
  refine ⟨_, e, ?_⟩
  unfold levelLocate
  rw [hk]; rfl

/-- A concrete instance with one daughter and seven tasks. -/
example : ∃ r m, Interleave ((List.range 7).map (taskEvents (extentBox (locateGrid ⟨0, 0, 0⟩ ⟨1, 1, 1⟩))
      [⟨⟨0, 0, 0⟩, ⟨1, 1, 1⟩⟩] 1000 7)) r ∧ buildLocateVoxels r = some m ∧
    levelLocate (locateGrid ⟨0, 0, 0⟩ ⟨1, 1, 1⟩) m [⟨⟨0, 0, 0⟩, ⟨1, 1, 1⟩⟩] (fun _ _ => true) none ⟨0.5, 0.5, 0.5⟩
      = some (some 0) := by
  obtain ⟨m, h1, h2⟩ := C56_locate_correct (lower := ⟨0, 0, 0⟩) (upper := ⟨1, 1, 1⟩) (p := ⟨0.5, 0.5, 0.5⟩)
    ⟨by norm_num, by norm_num, by norm_num⟩ [⟨⟨0, 0, 0⟩, ⟨1, 1, 1⟩⟩] (n := 7) (by norm_num) (interleave_flatten _)
    (fun _ _ => true) none (by norm_num) (by
      intro d b hb _
      cases d with
      | zero =>
        obtain rfl := Option.some.inj hb
        simp [abboxContains]; norm_num
      | succ d => simp at hb)
  exact ⟨_, m, interleave_flatten _, h1, h2⟩

end Voxel
end VecGeom

import Verif.Base.Num

/-!
# Polygons in the plane

Model of `VecGeom/volumes/PlanarPolygon.h`.  `Precision` is `ℝ`.  The arrays are functions of the index, with the length `bs` of the
buffers; reading at or beyond it is undefined behaviour (`none`).  `k` is the number of lanes of a vector.
-/

namespace VecGeom
namespace Polygon

open Real

/-- The members (PlanarPolygon.h:24-44); the z components of `fVertices` are the slopes. -/
structure Poly where
  n : Nat
  bs : Nat
  x : Nat → ℝ
  y : Nat → ℝ
  slope : Nat → ℝ
  sx : Nat → ℝ
  sy : Nat → ℝ
  len2 : Nat → ℝ
  inv2 : Nat → ℝ
  a : Nat → ℝ
  b : Nat → ℝ
  d : Nat → ℝ
  minX : ℝ
  minY : ℝ
  maxX : ℝ
  maxY : ℝ
  convex : Bool

/-- `GetOrientation` (PlanarPolygon.h:387-398). -/
noncomputable def orientation (x y : Nat → ℝ) (n : Nat) : ℝ :=
  (List.range n).foldl (fun area i => area + (x i * y ((i + 1) % n) - y i * x ((i + 1) % n))) 0

/-- The index `(i * inc + fNVertices) % fNVertices` (PlanarPolygon.h:91), with `inc` converted to the unsigned 64-bit type. -/
def source (n inc i : Nat) : Nat := (i * inc % 2 ^ 64 + n) % 2 ^ 64 % n

/-- `inc` (PlanarPolygon.h:87), as an unsigned 64-bit number. -/
noncomputable def increment (x y : Nat → ℝ) (n : Nat) : Nat :=
  open Classical in if orientation x y n > 0 then 2 ^ 64 - 1 else 1

/-- The length of the buffers (PlanarPolygon.h:71-75). -/
def bufferSize (k n : Nat) : Nat := (n / k + n % k) * k

/-- The index of the vertex before: `j` in the loop PlanarPolygon.h:104. -/
def prev (n i : Nat) : Nat := if i = 0 then n - 1 else i - 1

open Classical in
/-- Values of less than the tolerance are set to 0 (PlanarPolygon.h:139-142). -/
noncomputable def chop (v : ℝ) : ℝ := if |v| < kTolerance then 0 else v

/-- The line through two vertices (PlanarPolygon.h:129-148). -/
noncomputable def line (xi yi xj yj : ℝ) : ℝ × ℝ × ℝ :=
  let a := -(yj - yi)
  let b := xj - xi
  let norm := 1 / √(a * a + b * b)
  let a := a * norm
  let b := b * norm
  let d := -(a * xi + b * yi)
  (chop a, chop b, chop d)

/-- `CalcConvexity` (PlanarPolygon.h:419-437): the counter of the turns. -/
noncomputable def turns (x y : Nat → ℝ) (n : Nat) : Int :=
  open Classical in
  (List.range n).foldl (fun c i =>
    let j := (i + 1) % n
    let k := (i + 2) % n
    c + if (x j - x i) * (y k - y j) - (y j - y i) * (x k - x j) < 0 then -1 else 1) 0

/-- The arrays that `Init` fills (PlanarPolygon.h:66-165), before the orientation is checked; the entries from `n` on repeat those from 0
on. -/
noncomputable def build (k n : Nat) (x y : Nat → ℝ) : Poly :=
  let inc := increment x y n
  let vx := fun i => x (source n inc i)
  let vy := fun i => y (source n inc i)
  let sx := fun i => vx (prev n i)
  let sy := fun i => vy (prev n i)
  let len2 := fun i => (vx i - sx i) * (vx i - sx i) + (vy i - sy i) * (vy i - sy i)
  let per := fun (f : Nat → ℝ) i => if i < n then f i else f (i % n)
  { n := n
    bs := bufferSize k n
    x := per vx
    y := per vy
    slope := per fun i => (sx i - vx i) / nonZero (sy i - vy i)
    sx := per sx
    sy := per sy
    len2 := per len2
    inv2 := per fun i => 1 / len2 i
    a := per fun i => (line (vx i) (vy i) (sx i) (sy i)).1
    b := per fun i => (line (vx i) (vy i) (sx i) (sy i)).2.1
    d := per fun i => (line (vx i) (vy i) (sx i) (sy i)).2.2
    minX := (List.range n).foldl (fun m i => min (vx i) m) kInfLength
    minY := (List.range n).foldl (fun m i => min (vy i) m) kInfLength
    maxX := (List.range n).foldl (fun m i => max (vx i) m) (-kInfLength)
    maxY := (List.range n).foldl (fun m i => max (vy i) m) (-kInfLength)
    convex := (turns vx vy n).natAbs == n }

/-- `Area` (PlanarPolygon.h:400-416). -/
noncomputable def area (p : Poly) : ℝ :=
  1 / 2 * (List.range p.n).foldl (fun s i => s + (p.x i * p.sy i - p.y i * p.sx i)) 0

open Classical in
/-- `Init`: `none` if the assertion on the length of the buffers fails or if the exception is thrown (PlanarPolygon.h:66-173). -/
noncomputable def init (k n : Nat) (x y : Nat → ℝ) : Option Poly :=
  if bufferSize k n = 0 then none
  else if area (build k n x y) < 0 then none
  else some (build k n x y)

/-! ## Contains -/

open Classical in
/-- The test of one edge (PlanarPolygon.h:268-278). -/
noncomputable def crosses (p : Poly) (px py : ℝ) (i : Nat) : Bool :=
  let condition1 := xor (decide (p.y i > py)) (decide (p.sy i > py))
  let condition2 := decide (px < p.slope i * (py - p.y i) + p.x i)
  condition1 && condition2

/-- `Contains` (PlanarPolygon.h:255-281), the general version. -/
noncomputable def contains (p : Poly) (px py : ℝ) : Bool :=
  (List.range p.n).foldl (fun result i => xor (crosses p px py i) result) false

/-- The vector part of the specialised `Contains` (PlanarPolygon.h:477-489), for one lane. -/
noncomputable def laneResult (k : Nat) (p : Poly) (px py : ℝ) (j : Nat) : Bool :=
  (List.range (p.n / k)).foldl (fun result c => xor result (crosses p px py (c * k + j))) false

/-- `Contains`, the specialised version with `k` lanes (PlanarPolygon.h:457-509). -/
noncomputable def containsVec (k : Nat) (p : Poly) (px py : ℝ) : Bool :=
  let reduction := (List.range k).foldl (fun r j => if laneResult k p px py j then !r else r) false
  (List.range (p.n % k)).foldl (fun r t => xor r (crosses p px py (p.n - p.n % k + t))) reduction

/-! ## Half planes -/

/-- The largest distance to a line (PlanarPolygon.h:449-453, 517-521, 534-538). -/
noncomputable def lineDistance (p : Poly) (px py : ℝ) : ℝ :=
  (List.range p.n).foldl (fun m i => max (-(p.a i * px + p.b i * py + p.d i)) m) (-kInfLength)

open Classical in
/-- `ContainsConvex` (PlanarPolygon.h:444-455). -/
noncomputable def containsConvex (p : Poly) (px py : ℝ) : Bool := decide (lineDistance p px py < 0)

open Classical in
/-- `InsideConvex` (PlanarPolygon.h:511-525). -/
noncomputable def insideConvex (p : Poly) (px py : ℝ) : Inside :=
  if lineDistance p px py > kTolerance then .outside
  else if lineDistance p px py < -kTolerance then .inside
  else .surface

/-- `SafetyConvex` (PlanarPolygon.h:528-541). -/
noncomputable def safetyConvex (p : Poly) (px py : ℝ) (inside : Bool) : ℝ :=
  if inside then lineDistance p px py * -1 else lineDistance p px py

/-! ## Distance to the edges -/

open Classical in
/-- The square of the distance to one edge (PlanarPolygon.h:561-595, one lane). -/
noncomputable def edgeSqr (p : Poly) (px py : ℝ) (i : Nat) : ℝ :=
  let dx := p.sx i - p.x i
  let dy := p.sy i - p.y i
  let dpx := px - p.x i
  let dpy := py - p.y i
  let lsq := dx * dx + dy * dy
  let u := dpx * dx + dpy * dy
  let q : ℝ × ℝ :=
    if u > lsq then (px - p.sx i, py - p.sy i)
    else if u ≥ 0 then (dpx - u * dx * (1 / lsq), dpy - u * dy * (1 / lsq))
    else (dpx, dpy)
  q.1 * q.1 + q.2 * q.2

open Classical in
/-- The serialised reduction (PlanarPolygon.h:607-613); the index -1 is `none`. -/
noncomputable def better (p : Poly) (px py : ℝ) (s : ℝ × Option Nat) (i : Nat) : ℝ × Option Nat :=
  if edgeSqr p px py i < s.1 then (edgeSqr p px py i, some i) else s

open Classical in
/-- The loop of `SafetySqr` over the chunks that start at the given indices (PlanarPolygon.h:560-618); `none` if it reads beyond the
buffers. -/
noncomputable def safetyLoop (k : Nat) (p : Poly) (px py : ℝ) : List Nat → ℝ × Option Nat → Option (ℝ × Option Nat)
  | [], s => some s
  | c :: rest, s =>
    if c * k + k ≤ p.bs then
      let s := (List.range k).foldl (fun s j => better p px py s (c * k + j)) s
      if |s.1| < kTolerance * kTolerance then some (0, s.2) else safetyLoop k p px py rest s
    else none

/-- `SafetySqr`, the specialised version (PlanarPolygon.h:544-621). -/
noncomputable def safetySqr (k : Nat) (p : Poly) (px py : ℝ) : Option (ℝ × Option Nat) :=
  safetyLoop k p px py (List.range ((p.n + k - 1) / k)) (10 ^ 30, none)

end Polygon
end VecGeom

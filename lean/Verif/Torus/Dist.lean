import Verif.Torus.Model
import Verif.Torus.Solve

/-!
# Distances of tori

Model of `ToBoundary`, `DistanceToOut` and `DistanceToIn` (TorusImplementation2.h), scalar code over `ℝ`.  A value that is not a number
is `none`.
-/

namespace VecGeom
namespace Torus

open Real

/-- `r0sq` (TorusImplementation2.h:387). -/
def r0sq (p : V3) : ℝ := p.x * p.x + p.y * p.y + p.z * p.z
/-- `rdotn` (TorusImplementation2.h:388). -/
def rdotn (p d : V3) : ℝ := p.x * d.x + p.y * d.y + p.z * d.z
/-- `rsumsq` (TorusImplementation2.h:389). -/
def rsumsq (t : Struct) (r : ℝ) : ℝ := t.rtor2 + r * r
/-- `a` (TorusImplementation2.h:390). -/
def qa (p d : V3) : ℝ := 4 * rdotn p d
/-- `b` (TorusImplementation2.h:391). -/
def qb (t : Struct) (r : ℝ) (p d : V3) : ℝ :=
  2 * (r0sq p + 2 * rdotn p d * rdotn p d - rsumsq t r + 2 * t.rtor2 * d.z * d.z)
/-- `c` (TorusImplementation2.h:392). -/
def qc (t : Struct) (r : ℝ) (p d : V3) : ℝ := 4 * (r0sq p * rdotn p d - rsumsq t r * rdotn p d + 2 * t.rtor2 * p.z * d.z)
/-- `d` (TorusImplementation2.h:393-394). -/
def qd (t : Struct) (r : ℝ) (p : V3) : ℝ :=
  r0sq p * r0sq p - 2 * r0sq p * rsumsq t r + 4 * t.rtor2 * p.z * p.z + (t.rtor2 - r * r) * (t.rtor2 - r * r)

/-- `x[i] = v`. -/
def A4.set (x : A4) (i : ℕ) (v : ℝ) : A4 :=
  match i with
  | 0 => { x with x0 := v }
  | 1 => { x with x1 := v }
  | 2 => { x with x2 := v }
  | _ => { x with x3 := v }

open Classical in
/-- `x[nsol] = v; if (x[nsol] > -tol) nsol++` (TorusImplementation2.h:407-408, 409-410, 416-417, 418-419). -/
noncomputable def put (v : ℝ) (s : ℕ × A4) : ℕ × A4 := if v > -tol then (s.1 + 1, s.2.set s.1 v) else (s.1, s.2.set s.1 v)

open Classical in
/-- The two solutions for a circle of radius `r0` (TorusImplementation2.h:402-411, 413-420). -/
noncomputable def circle (r0 : ℝ) (p d : V3) (s : ℕ × A4) : ℕ × A4 :=
  let invdirxy2 := 1 / (1 - d.z * d.z)
  let b0 := (p.x * d.x + p.y * d.y) * invdirxy2
  let c0 := (p.x * p.x + (p.y - r0) * (p.y + r0)) * invdirxy2
  let delta := b0 * b0 - c0
  if delta > 0 then put (-b0 + √delta) (put (-b0 - √delta) s) else s

open Classical in
/-- The special case of rays that are nearly in the plane of the central circle (TorusImplementation2.h:400-423). -/
noncomputable def special (t : Struct) (r : ℝ) (p d : V3) (x : A4) : ℕ × A4 :=
  let w := √((r - p.z) * (r + p.z))
  let s := circle (t.rtor + w) p d (circle (t.rtor - w) p d (0, x))
  if s.1 = 0 then s else (s.1, sort4 s.2)

/-- The condition of the special case (TorusImplementation2.h:400). -/
def Special (r : ℝ) (p d : V3) : Prop := |d.z| < 1e-3 ∧ |p.z| < 0.1 * r

/-- A quotient of two numbers in floating point: a number, infinite, or not a number. -/
inductive Quotient where
  | num (x : ℝ)
  | inf
  | nan

open Classical in
/-- `-delta / (4. * s * s * s + 3. * a * s * s + 2. * b * s + c)` (TorusImplementation2.h:460-461, 467-468). -/
noncomputable def newtonStep (a b c d s : ℝ) : Quotient :=
  let delta := s * s * s * s + a * s * s * s + b * s * s + c * s + d
  let deriv := 4 * s * s * s + 3 * a * s * s + 2 * b * s + c
  if deriv = 0 then (if delta = 0 then .nan else .inf) else .num (-delta / deriv)

open Classical in
/-- The loop of Newton iterations (TorusImplementation2.h:463-474), from `s` and `eps0`, with `k` = 101 - `ntry`.  Comparisons with
values that are not numbers fail: if `eps0` is one, then `s` becomes one too and the loop ends; if `eps` is one, then the loop ends. -/
noncomputable def newtonLoop (a b c d : ℝ) : ℕ → ℝ → Quotient → Option ℝ
  | _, _, .nan => none
  | _, s, .inf => some s
  | 0, s, .num _ => some s
  | k + 1, s, .num eps0 =>
    if |eps0| > 100 then some s
    else if |s + eps0 + eps0| < kTolerance then some (s + eps0)
    else match newtonStep a b c d (s + eps0) with
      | .nan => some (s + eps0)
      | .inf => some (s + eps0)
      | .num eps =>
        if |eps| ≥ |eps0| then some (s + eps0)
        else if k = 0 then some (s + eps0)
        else if |eps| > kTolerance then newtonLoop a b c d k (s + eps0) (.num eps)
        else some (s + eps0)

/-- The refinement of a solution (TorusImplementation2.h:457-474). -/
noncomputable def newton (a b c d x : ℝ) : Option ℝ := newtonLoop a b c d 101 x (newtonStep a b c d x)

/-- `ndotd` at the point `q` (TorusImplementation2.h:435-446). -/
noncomputable def ndotd (t : Struct) (q d : V3) : ℝ :=
  (q.x - t.rtor * (q.x / perp q)) * d.x + (q.y - t.rtor * (q.y / perp q)) * d.y + q.z * d.z

open Classical in
/-- The choice of a solution (TorusImplementation2.h:432-480) in the list of the first `nsol` elements; `flip` is `inner ^ out`.  The
direction of a point of the axis is not a number: comparisons with it fail, so the solution is not discarded by the normal.
Simplified: for the check of the sector the direction of such a point is the zero vector. -/
noncomputable def scan (t : Struct) (a b c d : ℝ) (p dir : V3) (flip : Bool) : List ℝ → Option ℝ
  | [] => some kInfLength
  | x :: l =>
    let q := V3.at' p dir x
    if x < -10 then scan t a b c d p dir flip l
    else if perp q ≠ 0 ∧ (if flip then ndotd t q dir < 0 else ndotd t q dir > 0) then scan t a b c d p dir flip l
    else if t.dphi < 2 * π ∧ t.wedge.containsWithBoundary ⟨t.rtor * (q.x / perp q), t.rtor * (q.y / perp q), 0⟩ = false then
      scan t a b c d p dir flip l
    else match newton a b c d x with
      | none => none
      | some s => if s < -tol then scan t a b c d p dir flip l else some (max 0 s)

/-- The array before the solutions are written (TorusImplementation2.h:396). -/
noncomputable def infs : A4 := ⟨kInfLength, kInfLength, kInfLength, kInfLength⟩

open Classical in
/-- `ToBoundary` (TorusImplementation2.h:373-482). -/
noncomputable def toBoundary (t : Struct) (p d : V3) (r : ℝ) (out : Bool) : Option ℝ :=
  let s := if Special r p d then special t r p d infs else solveQuartic (qa p d) (qb t r p d) (qc t r p d) (qd t r p) infs
  if s.1 = 0 then some kInfLength
  else scan t (qa p d) (qb t r p d) (qc t r p d) (qd t r p) p d (xor (decide (|r - t.rmin| < kTolerance)) out) (s.2.toList.take s.1)

open Classical in
/-- The inner tube, if there is one (TorusImplementation2.h:234-238, 626-629). -/
noncomputable def innerBoundary (t : Struct) (p d : V3) (out : Bool) : Option ℝ :=
  if t.rmin > 0 then toBoundary t p d t.rmin out else some kInfLength

/-- The first three checks in `DistanceToOut` (TorusImplementation2.h:209-218). -/
def FarOut (t : Struct) (p : V3) : Prop :=
  |p.z| - t.rmax > kHalfTolerance ∨
  p.x * p.x + p.y * p.y > (t.rtor + t.rmax + kHalfTolerance) * (t.rtor + t.rmax + kHalfTolerance) ∨
  p.x * p.x + p.y * p.y < (t.rtor - t.rmax - kHalfTolerance) * (t.rtor - t.rmax - kHalfTolerance)

open Classical in
/-- The check of one plane of the sector in `DistanceToOut` (TorusImplementation2.h:249-262, 264-277). -/
noncomputable def phiOut (t : Struct) (p d : V3) (ax ay dist distance : ℝ) : ℝ :=
  let q := V3.at' p d dist
  if dist < distance ∧ containsDisk t q = true ∧ q.x * ax + q.y * ay ≥ 0 then dist else distance

open Classical in
/-- `DistanceToOut` (TorusImplementation2.h:190-282). -/
noncomputable def distanceToOut (t : Struct) (p d : V3) : Option ℝ :=
  if FarOut t p then some (-1)
  else if inside t p = .outside then some (-1)
  else do
    let dout ← toBoundary t p d t.rmax true
    let din ← innerBoundary t p d true
    let dist0 := min dout din
    let phi := t.wedge.distanceToOut 0 p d
    let dist := if t.dphi < 2 * π then phiOut t p d t.wedge.a2x t.wedge.a2y phi.2 (phiOut t p d t.wedge.a1x t.wedge.a1y phi.1 dist0) else dist0
    return if dist ≥ kInfLength then -1 else dist

/-- The distance to a plane of the sector hits the face of the torus (TorusImplementation2.h:594-596, 606-608). -/
def HitsFace (t : Struct) (p d : V3) (dist : ℝ) : Prop :=
  dist ≠ kInfLength ∧ radsq t (V3.at' p d dist) ≥ t.rmin2 ∧ radsq t (V3.at' p d dist) < t.rmax2

open Classical in
/-- `DistanceToIn` (TorusImplementation2.h:521-636) with `VECGEOM_NO_SPECIALIZATION`, the default of the build (CMakeLists.txt). -/
noncomputable def distanceToIn (t : Struct) (p d : V3) : Option ℝ :=
  let inBounds := Tube.contains Tube.universal t.tube p
  let tubeDistance := if inBounds = true then 0 else Tube.distanceToIn Tube.universal t.tube p d
  if inBounds = true ∧ inside t p = .inside then some (-1)
  else if inBounds = false ∧ tubeDistance = kInfLength then some kInfLength
  else
    let q := V3.at' p d tubeDistance
    let phi := t.wedge.distanceToIn 0 q d
    -- the distances to the planes of the sector are used only if they are 0
    let dist1 := if HitsFace t q d phi.1 then phi.1 else kInfLength
    let dist2 := if HitsFace t q d phi.2 then min phi.2 dist1 else dist1
    if t.dphi < 2 * π ∧ HitsFace t q d phi.1 ∧ |dist1| < kTolerance then some (dist1 + tubeDistance)
    else if t.dphi < 2 * π ∧ HitsFace t q d phi.2 ∧ |dist2| < kTolerance then some (dist2 + tubeDistance)
    else do
      let dd ← toBoundary t q d t.rmax false
      let ddrmin ← innerBoundary t q d false
      let distance := min kInfLength (min dd ddrmin) + tubeDistance
      return if |distance| > kInfLength then kInfLength else distance

end Torus
end VecGeom

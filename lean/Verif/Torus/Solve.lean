import Verif.Base.Num
import Mathlib.Analysis.SpecialFunctions.Pow.Real
import Mathlib.Analysis.SpecialFunctions.Complex.Arg

/-!
# The solvers of cubic and quartic equations

Model of `SolveCubic`, `CmpAndSwap`, `Sort4` and `SolveQuartic` (TorusImplementation2.h:22-168).  Scalar code; `T` is `ℝ`.
-/

namespace VecGeom
namespace Torus

open Real

open Classical in
/-- `CopySign(T(1.), t) * Cbrt(Abs(t))` (TorusImplementation2.h:43); at 0 the sign does not matter. -/
noncomputable def signedCbrt (t : ℝ) : ℝ := (if t < 0 then -1 else 1) * |t| ^ ((1 : ℝ) / 3)

open Classical in
/-- `x[0]` of `SolveCubic` (TorusImplementation2.h:30-50). -/
noncomputable def cubicFirst (a b c : ℝ) : ℝ :=
  let ott := 1 / 3
  let sq3 := √3
  let inv6sq3 := 1 / (6 * sq3)
  let p := b - a * a * ott
  let q := c - a * b * ott + 2 * a * a * a * ott * ott * ott
  let delta := 4 * p * p * p + 27 * q * q
  if delta ≥ 0 then
    let t := (-3 * q * sq3 + √delta) * inv6sq3
    let u := (3 * q * sq3 + √delta) * inv6sq3
    signedCbrt t - signedCbrt u - a * ott
  else
    let t := -0.5 * q
    let u := √(-delta) * inv6sq3
    2 * (t * t + u * u) ^ (0.5 * ott) * cos (ott * Complex.arg ⟨t, u⟩) - a * ott

open Classical in
/-- `SolveCubic` (TorusImplementation2.h:23-63): the solutions that are written, as many as the value that is returned.  The callers read
no others. -/
noncomputable def solveCubic (a b c : ℝ) : List ℝ :=
  let x0 := cubicFirst a b c
  let t := x0 * x0 + a * x0 + b
  let u := a + x0
  let delta := u * u - 4 * t
  if delta ≥ 0 then [x0, 0.5 * (-u - √delta), 0.5 * (-u + √delta)] else [x0]

/-- An array with four elements. -/
structure A4 where
  x0 : ℝ
  x1 : ℝ
  x2 : ℝ
  x3 : ℝ

/-- The elements in order. -/
def A4.toList (x : A4) : List ℝ := [x.x0, x.x1, x.x2, x.x3]

open Classical in
/-- `CmpAndSwap<T, 0, 2>` (TorusImplementation2.h:65-73). -/
noncomputable def swap02 (x : A4) : A4 := if x.x0 > x.x2 then { x with x0 := x.x2, x2 := x.x0 } else x
open Classical in
/-- `CmpAndSwap<T, 1, 3>` (TorusImplementation2.h:65-73). -/
noncomputable def swap13 (x : A4) : A4 := if x.x1 > x.x3 then { x with x1 := x.x3, x3 := x.x1 } else x
open Classical in
/-- `CmpAndSwap<T, 0, 1>` (TorusImplementation2.h:65-73). -/
noncomputable def swap01 (x : A4) : A4 := if x.x0 > x.x1 then { x with x0 := x.x1, x1 := x.x0 } else x
open Classical in
/-- `CmpAndSwap<T, 2, 3>` (TorusImplementation2.h:65-73). -/
noncomputable def swap23 (x : A4) : A4 := if x.x2 > x.x3 then { x with x2 := x.x3, x3 := x.x2 } else x
open Classical in
/-- `CmpAndSwap<T, 1, 2>` (TorusImplementation2.h:65-73). -/
noncomputable def swap12 (x : A4) : A4 := if x.x1 > x.x2 then { x with x1 := x.x2, x2 := x.x1 } else x

/-- `Sort4` (TorusImplementation2.h:78-86). -/
noncomputable def sort4 (x : A4) : A4 := swap12 (swap23 (swap01 (swap13 (swap02 x))))

/-- `x[ireal++] = …` for the elements of a list (at most four), beginning at element 0. -/
def A4.write (x : A4) : List ℝ → A4
  | [] => x
  | [a] => { x with x0 := a }
  | [a, b] => { x with x0 := a, x1 := b }
  | [a, b, c] => { x with x0 := a, x1 := b, x2 := c }
  | a :: b :: c :: d :: _ => ⟨a, b, c, d⟩

open Classical in
/-- The pair of solutions `-h - shift`, `h - shift` of the special case (TorusImplementation2.h:112-116, 118-122). -/
noncomputable def pair (h a : ℝ) : List ℝ := if h ≥ 0 then [-√h - 0.25 * a, √h - 0.25 * a] else []

open Classical in
/-- The solutions of a factor `y ^ 2 + h * y + j` (TorusImplementation2.h:154-159, 160-165). -/
noncomputable def factor (h delta a : ℝ) : List ℝ :=
  if delta ≥ 0 then [0.5 * (h - √delta) - 0.25 * a, 0.5 * (h + √delta) - 0.25 * a] else []

open Classical in
/-- `h` before its root is taken (TorusImplementation2.h:139-151): the first solution of the resolvent that is not negative, or the last
one. -/
noncomputable def choose : List ℝ → ℝ
  | [x0, x1, x2] => if x0 ≥ 0 then x0 else if x1 ≥ 0 then x1 else x2
  | x0 :: _ => x0
  | [] => 0

open Classical in
/-- What `SolveQuartic` writes before it sorts (TorusImplementation2.h:98-165); `none` for `return 0` without sorting. -/
noncomputable def quarticWrites (a b c d : ℝ) : Option (List ℝ) :=
  let e := b - 3 * a * a / 8
  let f := c + a * a * a / 8 - 0.5 * a * b
  let g := d - 3 * a * a * a * a / 256 + a * a * b / 16 - a * c / 4
  if |f| < 1e-6 then
    let delta := e * e - 4 * g
    if delta < 0 then none
    else some (pair (0.5 * (-e - √delta)) a ++ pair (0.5 * (-e + √delta)) a)
  else if |g| < 1e-6 then some ((-0.25 * a) :: (solveCubic 0 e f).map (fun x => x - 0.25 * a))
  else
    let z := choose (solveCubic (2 * e) (e * e - 4 * g) (-f * f))
    if z ≤ 0 then none
    else
      let h := √z
      let j := 0.5 * (e + h * h - f / h)
      some (factor (-h) (h * h - 4 * j) a ++ factor h (h * h - 4 * g / j) a)

/-- `SolveQuartic` (TorusImplementation2.h:91-168): the number of solutions and the array. -/
noncomputable def solveQuartic (a b c d : ℝ) (x : A4) : ℕ × A4 :=
  match quarticWrites a b c d with
  | none => (0, x)
  | some l => (l.length, sort4 (x.write l))

end Torus
end VecGeom

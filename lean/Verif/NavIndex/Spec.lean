import Verif.NavIndex.Model

/-!
# Specification of the navigation table

`Enc` says what a correctly filled table has to contain for a subtree: one record per node of the *unfolded*
tree, laid out depth first, each record linked to its mother and its daughters.  It is written down as a predicate on
the final memory, independently of the order in which the code writes.
-/

namespace VecGeom
namespace NavIndex

/-- Global matrix of a path: product of the placements below the world. -/
def pathMatrix (path : List PVol) : Trans3 := path.tail.foldl (fun m v => m.mulRight v.trans) .identity

/-- Where the record of `v` (starting at `idx`) ends. -/
def recEnd (w : Nat) (lim : Int) (v : PVol) (lvl idx : Nat) : Nat :=
  if cacheTrans lim lvl v then dataIndex w idx v.daughters.length + 12 * w
  else idx + daughterIndices v.daughters.length

/- Where the records of a whole subtree end. -/
mutual
def subEnd (w : Nat) (lim : Int) : PVol → Nat → Nat → Nat
  | .mk i c l t r ds, lvl, idx => subEndL w lim ds (lvl + 1) (recEnd w lim (.mk i c l t r ds) lvl idx)
def subEndL (w : Nat) (lim : Int) : List PVol → Nat → Nat → Nat
  | [], _, idx => idx
  | d :: ds, lvl, idx => subEndL w lim ds lvl (subEnd w lim d lvl idx)
end

/-- The record of `v`, last element of the path `anc ++ [v]`, starting at `idx`. -/
structure Rec (w : Nat) (lim : Int) (m : Nat → Cell) (v : PVol) (anc : List PVol) (idx mother : Nat) : Prop where
  mother : m idx = .word mother
  pid : m (idx + 1) = .word v.id
  info : ∃ hasm, m (idx + 2) = .word (metaWord anc.length hasm v.daughters.length) ∧
    if cacheTrans lim anc.length v then
      hasm = 4 + 2 * (pathMatrix (anc ++ [v])).fHasTranslation.toNat + (pathMatrix (anc ++ [v])).fHasRotation.toNat ∧
      ∀ k (h : k < (matCells w (pathMatrix (anc ++ [v]))).length),
        m (dataIndex w idx v.daughters.length + k) = (matCells w (pathMatrix (anc ++ [v])))[k]
    else hasm = 0

/- The whole subtree. -/
mutual
def Enc (w : Nat) (lim : Int) (m : Nat → Cell) : PVol → List PVol → Nat → Nat → Prop
  | .mk i c l t r ds, anc, idx, mother =>
    Rec w lim m (.mk i c l t r ds) anc idx mother ∧
    EncL w lim m ds (anc ++ [.mk i c l t r ds]) (recEnd w lim (.mk i c l t r ds) anc.length idx) idx 0
/-- The daughters from number `i` on: slot `i` of the mother points to the record starting at `cur`. -/
def EncL (w : Nat) (lim : Int) (m : Nat → Cell) : List PVol → List PVol → Nat → Nat → Nat → Prop
  | [], _, _, _, _ => True
  | d :: ds, anc, cur, mother, i =>
    m (mother + 3 + i) = .word cur ∧ Enc w lim m d anc cur mother ∧
    EncL w lim m ds anc (subEnd w lim d anc.length cur) mother (i + 1)
end

/- Height and fan-out fit the record format: at most `depth` levels, fewer than 65535 daughters. -/
mutual
def Fits : PVol → Nat → Prop
  | .mk _ _ _ _ _ _, 0 => False
  | .mk _ _ _ _ _ ds, depth + 1 => ds.length < 65535 ∧ FitsL ds depth
def FitsL : List PVol → Nat → Prop
  | [], _ => True
  | d :: ds, depth => Fits d depth ∧ FitsL ds depth
end

/-- `Loc t world path idx`: following the table's daughter links from the world along `path` leads to `idx`. -/
inductive Loc (t : Tab) (world : PVol) : List PVol → Nat → Prop
  | root : Loc t world [world] 1
  | step {anc : List PVol} {mo i idx : Nat} {u d : PVol} : Loc t world (anc ++ [u]) mo → u.daughters[i]? = some d →
      t.mem (mo + 3 + i) = .word idx → Loc t world (anc ++ [u] ++ [d]) idx

/-- Abstract moves: enter daughter number `i` (or the world, from outside), or leave. -/
inductive Move where
  | push (i : Nat)
  | pop

/-- The placement entered by a push, if there is one. -/
def target (world : PVol) (path : List PVol) (i : Nat) : Option PVol :=
  match path.getLast? with
  | none => some world
  | some u => u.daughters[i]?

/-- Moves on paths (world first); `none`: no such daughter. -/
def absMove (world : PVol) (path : List PVol) : Move → Option (List PVol)
  | .push i => (target world path i).map fun d => path ++ [d]
  | .pop => some path.dropLast

def absMoves (world : PVol) : List PVol → List Move → Option (List PVol)
  | p, [] => some p
  | p, m :: ms => match absMove world p m with
    | none => none
    | some p' => absMoves world p' ms

/-- The same moves on an index state: the caller hands over the placement to enter. -/
def idxMoves (t : Tab) (world : PVol) : List PVol → Nat → List Move → Option Nat
  | _, nav, [] => some nav
  | p, nav, .push i :: ms => match target world p i with
    | none => none
    | some d => match pushI t nav d with
      | none => none
      | some nav' => idxMoves t world (p ++ [d]) nav' ms
  | p, nav, .pop :: ms => match popI t nav with
    | none => none
    | some nav' => idxMoves t world p.dropLast nav' ms

/-- State and path correspond: index 0 for outside, the located index otherwise. -/
def Stands (t : Tab) (world : PVol) (path : List PVol) (nav : Nat) : Prop :=
  (path = [] ∧ nav = 0) ∨ Loc t world path nav

/-- A table in working order for a world: what `createTable` is shown to produce. -/
structure Built (w : Nat) (lim : Int) (t : Tab) (world : PVol) : Prop where
  enc : Enc w lim t.mem world [] 1 0
  size : subEnd w lim world 0 1 < t.nelem
  fits : Fits world 255
  w12 : w = 1 ∨ w = 2

end NavIndex
end VecGeom

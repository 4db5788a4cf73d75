import Verif.Base.Loop

/-!
# The hash map `robin_hood::unordered_map`

Model of `VecGeom/base/robin_hood.h` (the map behind `FlatVoxelHashMap`), for a size of `size_t` of 64 bits and the default
maximal load factor of 80.  Bytes are natural numbers kept below 256 by `% 256`.  Slots know whether they hold an object, so
that constructing over an object, assigning to raw memory and using an object that has been moved away are errors.  The pools
of `NodeAllocator`, which only decide where objects live, are not modelled; loops that do not end within the given fuel are
errors as well.
-/

namespace VecGeom
namespace RobinHood

/-- What can go wrong: an exception (`overflow_error`, `bad_alloc`), or undefined behaviour (or a loop without end). -/
inductive Err where
  | thrown
  | bad
  deriving DecidableEq

/-- The memory of one entry. -/
inductive Slot (K V : Type) where
  | raw
  | moved
  | full (k : K) (v : V)
  deriving DecidableEq

/-- The members (robin_hood.h:2006-2015).  `info` holds the bytes behind `mInfo`, with the sentinel behind the last entry.  The
default values are those of an empty map, whose `mInfo` points to `mMask`, which is zero. -/
structure Map (K V : Type) where
  mask : Nat := 0
  info : Nat → Nat := fun _ => 0
  kv : Nat → Slot K V := fun _ => .raw
  num : Nat := 0
  maxAllowed : Nat := 0
  inc : Nat := 32
  shift : Nat := 59

variable {K V : Type}

/-- Change one cell. -/
def put {β : Type} (f : Nat → β) (i : Nat) (b : β) : Nat → β := fun j => if j = i then b else f j

/-- `calcMaxNumElementsAllowed` (robin_hood.h:1738-1746). -/
def calcMax (n : Nat) : Nat := if n ≤ (2 ^ 64 - 1) / 100 then n * 80 / 100 else n / 100 * 80

/-- The number of entries from which on an allocation fails; the code leaves it to `calloc`. -/
def allocLimit : Nat := 2 ^ 57

/-- `init_data` (robin_hood.h:1808-1824). -/
def initData (n : Nat) : Except Err (Map K V) :=
  if n ≤ allocLimit then
    .ok { mask := n - 1, info := fun i => if i = n then 1 else 0, kv := fun _ => .raw, num := 0, maxAllowed := calcMax n, inc := 32, shift := 59 }
  else .error .thrown

/-- `keyToIdx` (robin_hood.h:1121-1133): index and info of a key with the given hash. -/
def keyToIdx (m : Map K V) (h : BitVec 64) : Nat × Nat := (h.toNat &&& m.mask, m.inc + h.toNat >>> m.shift)

/-- The index after the next one (robin_hood.h:1136-1140). -/
def nextIdx (m : Map K V) (idx : Nat) : Nat := (idx + 1) &&& m.mask

/-- `nextWhileLess` (robin_hood.h:1142-1148). -/
def nextWhileLess (m : Map K V) : (fuel info idx : Nat) → Except Err (Nat × Nat)
  | 0, _, _ => .error .bad
  | f + 1, info, idx => if info < m.info idx then nextWhileLess m f (info + m.inc) (nextIdx m idx) else .ok (info, idx)

/-- Does the entry at `idx` have this key?  Reading the key of a slot without object is an error. -/
def keyAt [DecidableEq K] (m : Map K V) (key : K) (idx : Nat) : Except Err Bool :=
  match m.kv idx with
  | .full k _ => .ok (decide (key = k))
  | _ => .error .bad

/-- The comparison `info == mInfo[idx] && key == mKeyVals[idx].getFirst()`. -/
def hit [DecidableEq K] (m : Map K V) (key : K) (info idx : Nat) : Except Err Bool :=
  if info = m.info idx then keyAt m key idx else .ok false

/-- The loop of `doInsert` over entries that may be equal (robin_hood.h:1894-1901): the index of the key, or where the
search ended. -/
def matchLoop [DecidableEq K] (m : Map K V) (key : K) : (fuel info idx : Nat) → Except Err (Nat ⊕ Nat × Nat)
  | 0, _, _ => .error .bad
  | f + 1, info, idx =>
    if info = m.info idx then do
      if ← keyAt m key idx then .ok (.inl idx) else matchLoop m key f (info + m.inc) (nextIdx m idx)
    else .ok (.inr (info, idx))

/-- The loop that looks for an empty spot (robin_hood.h:1917-1919). -/
def emptySpot (m : Map K V) : (fuel idx : Nat) → Except Err Nat
  | 0, _ => .error .bad
  | f + 1, idx => if m.info idx ≠ 0 then emptySpot m f (nextIdx m idx) else .ok idx

/-- Raw memory? -/
def Slot.isRaw : Slot K V → Bool
  | .raw => true
  | _ => false

/-- The body of the loop of `shiftUp` (robin_hood.h:1155-1166); the entry is assigned if the info says that there is an
object, and constructed otherwise. -/
def shiftUpStep (m : Map K V) (idx prev : Nat) : Except Err (Map K V) :=
  match m.kv prev with
  | .full k v =>
    if (m.kv idx).isRaw = decide (m.info idx = 0) then
      let b := (m.info prev + m.inc) % 256
      .ok { m with
        kv := put (put m.kv idx (.full k v)) prev .moved
        info := put m.info idx b
        maxAllowed := if b + m.inc > 255 then 0 else m.maxAllowed }
    else .error .bad
  | _ => .error .bad

/-- `shiftUp` (robin_hood.h:1153-1168); `idx - 1` is done modulo `2 ^ 64`. -/
def shiftUp : (fuel : Nat) → (m : Map K V) → (idx ins : Nat) → Except Err (Map K V)
  | 0, _, _, _ => .error .bad
  | f + 1, m, idx, ins =>
    if idx ≠ ins then do
      let prev := (idx + (2 ^ 64 - 1)) % 2 ^ 64 &&& m.mask
      let m ← shiftUpStep m idx prev
      shiftUp f m prev ins
    else .ok m

/-- The end of `doInsert`, `doCreateByKey` and `insert_move` (robin_hood.h:1909-1934, 1851-1878, 1241-1266): a new entry at
`ins`. -/
def insertAt (m : Map K V) (info ins : Nat) (key : K) (v : V) : Except Err (Map K V) := do
  let m := if info + m.inc > 255 then { m with maxAllowed := 0 } else m
  let idx ← emptySpot m (m.mask + 2) ins
  let m ← if idx = ins then
      if (m.kv ins).isRaw then .ok m else .error .bad
    else do
      let m ← shiftUp (m.mask + 2) m idx ins
      if (m.kv ins).isRaw then .error .bad else .ok m
  .ok { m with kv := put m.kv ins (.full key v), info := put m.info ins (info % 256), num := m.num + 1 }

/-- `try_increase_info` (robin_hood.h:1937-1959); the loop over words of eight bytes is modelled byte by byte.  `none` is the
result `false`. -/
def tryIncreaseInfo (m : Map K V) : Option (Map K V) :=
  if m.inc ≤ 2 then none
  else some { m with
    inc := m.inc / 2
    shift := m.shift + 1
    info := fun i => if i < (m.mask + 1) / 8 * 8 then m.info i / 2 else m.info i
    maxAllowed := calcMax (m.mask + 1) }

/-- The loop of `insert_move` (robin_hood.h:1236-1239). -/
def nextWhileLe (m : Map K V) : (fuel info idx : Nat) → Except Err (Nat × Nat)
  | 0, _, _ => .error .bad
  | f + 1, info, idx => if info ≤ m.info idx then nextWhileLe m f (info + m.inc) (nextIdx m idx) else .ok (info, idx)

/-- `insert_move` (robin_hood.h:1223-1268). -/
def insertMove (hash : K → BitVec 64) (m : Map K V) (key : K) (v : V) : Except Err (Map K V) := do
  let m ← if m.maxAllowed = 0 then (match tryIncreaseInfo m with
    | some m => .ok m
    | none => .error .thrown) else .ok m
  let s := keyToIdx m (hash key)
  let p ← nextWhileLe m 257 s.2 s.1
  insertAt m (p.1 % 256) p.2 key v

/-- The loop of `rehashPowerOfTwo` over the old entries (robin_hood.h:1785-1791), from entry `i` on. -/
def moveAll (hash : K → BitVec 64) (old : Map K V) : (n i : Nat) → Map K V → Except Err (Map K V)
  | 0, _, m => .ok m
  | n + 1, i, m => do
    let m ← if old.info i ≠ 0 then (match old.kv i with
      | .full k v => insertMove hash m k v
      | _ => .error .bad) else .ok m
    moveAll hash old n (i + 1) m

/-- `rehashPowerOfTwo` (robin_hood.h:1774-1796). -/
def rehash (hash : K → BitVec 64) (m : Map K V) (n : Nat) : Except Err (Map K V) := do
  let new ← initData n
  if m.mask + 1 > 1 then moveAll hash m (m.mask + 1) 0 new else .ok new

/-- `increase_size` (robin_hood.h:1961-1982). -/
def increaseSize (hash : K → BitVec 64) (m : Map K V) : Except Err (Map K V) :=
  if m.mask = 0 then initData 8
  else
    let most := calcMax (m.mask + 1)
    match (if m.num < most then tryIncreaseInfo m else none) with
    | some m => .ok m
    | none => if m.num * 2 < most then .error .thrown else rehash hash m ((m.mask + 1) * 2)

/-- `doInsert` (robin_hood.h:1885-1935) and `doCreateByKey` (robin_hood.h:1827-1881), which are the same but for what they
return and for the value of a new entry; the result is the entry of the key and whether it is new.  `fuel` counts the rounds of
the outer loop. -/
def insertKey [DecidableEq K] (hash : K → BitVec 64) (key : K) (v : V) : (fuel : Nat) → Map K V → Except Err (Map K V × Nat × Bool)
  | 0, _ => .error .bad
  | f + 1, m => do
    let s := keyToIdx m (hash key)
    let p ← nextWhileLess m 257 s.2 s.1
    match ← matchLoop m key 257 p.1 p.2 with
    | .inl idx => .ok (m, idx, false)
    | .inr q =>
      if m.num ≥ m.maxAllowed then do
        let m ← increaseSize hash m
        insertKey hash key v f m
      else do
        let m ← insertAt m q.1 q.2 key v
        .ok (m, q.2, true)

/-- The rounds that the outer loop can need. -/
def rounds : Nat := 130

/-- `insert` (robin_hood.h:1519-1525). -/
def insert [DecidableEq K] (hash : K → BitVec 64) (m : Map K V) (key : K) (v : V) : Except Err (Map K V × Bool) := do
  let r ← insertKey hash key v rounds m
  .ok (r.1, r.2.2)

/-- `map[key] = v` (robin_hood.h:1484-1488): `operator[]` makes an entry with the default value `d` unless there is one, and
returns a reference to its value, to which `v` is assigned. -/
def assignKey [DecidableEq K] (hash : K → BitVec 64) (m : Map K V) (key : K) (d v : V) : Except Err (Map K V) := do
  let r ← insertKey hash key d rounds m
  match r.1.kv r.2.1 with
  | .full k _ => .ok { r.1 with kv := put r.1.kv r.2.1 (.full k v) }
  | _ => .error .bad

/-- The loop of `findIdx` (robin_hood.h:1200-1211), which looks at two entries in each round. -/
def findLoop [DecidableEq K] (m : Map K V) (key : K) : (fuel info idx : Nat) → Except Err (Option Nat)
  | 0, _, _ => .error .bad
  | f + 1, info, idx => do
    if ← hit m key info idx then .ok (some idx)
    else
      let info := info + m.inc
      let idx := nextIdx m idx
      if ← hit m key info idx then .ok (some idx)
      else
        let info := info + m.inc
        let idx := nextIdx m idx
        if info ≤ m.info idx then findLoop m key f info idx else .ok none

/-- `findIdx` (robin_hood.h:1194-1215). -/
def findIdx [DecidableEq K] (hash : K → BitVec 64) (m : Map K V) (key : K) : Except Err Nat := do
  let s := keyToIdx m (hash key)
  match ← findLoop m key 257 s.2 s.1 with
  | some i => .ok i
  | none => .ok (if m.mask = 0 then 0 else m.mask + 1)

/-- Is this index the one of `end()` (robin_hood.h:1613-1619)?  An empty map has `mKeyVals` and `mInfo` at the same place. -/
def isEnd (m : Map K V) (i : Nat) : Bool := if m.mask = 0 then decide (i = 0) else decide (i = m.mask + 1)

/-- `find` (robin_hood.h:1562-1567), `count` and `at` (L1528-1559): the value found. -/
def find [DecidableEq K] (hash : K → BitVec 64) (m : Map K V) (key : K) : Except Err (Option V) := do
  let i ← findIdx hash m key
  if isEnd m i then .ok none
  else match m.kv i with
    | .full _ v => .ok (some v)
    | _ => .error .bad

/-- The loop of `shiftDown` (robin_hood.h:1177-1183) and its end (L1185-1188). -/
def shiftDown : (fuel : Nat) → (m : Map K V) → (idx : Nat) → Except Err (Map K V)
  | 0, _, _ => .error .bad
  | f + 1, m, idx =>
    let next := nextIdx m idx
    if m.info next ≥ 2 * m.inc then
      match m.kv next with
      | .full k v =>
        if (m.kv idx).isRaw then .error .bad
        else shiftDown f { m with info := put m.info idx ((m.info next - m.inc) % 256), kv := put (put m.kv idx (.full k v)) next .moved } next
      | _ => .error .bad
    else if (m.kv idx).isRaw then .error .bad
    else .ok { m with info := put m.info idx 0, kv := put m.kv idx .raw }

/-- The loop of `erase(key)` (robin_hood.h:1666-1673): the entry to erase. -/
def eraseLoop [DecidableEq K] (m : Map K V) (key : K) : (fuel info idx : Nat) → Except Err (Option Nat)
  | 0, _, _ => .error .bad
  | f + 1, info, idx => do
    if ← hit m key info idx then .ok (some idx)
    else
      let info := info + m.inc
      let idx := nextIdx m idx
      if info ≤ m.info idx then eraseLoop m key f info idx else .ok none

/-- `erase(key)` (robin_hood.h:1659-1677). -/
def erase [DecidableEq K] (hash : K → BitVec 64) (m : Map K V) (key : K) : Except Err (Map K V × Nat) := do
  let s := keyToIdx m (hash key)
  match ← eraseLoop m key 257 s.2 s.1 with
  | some i => do
    let m ← shiftDown (m.mask + 2) m i
    .ok ({ m with num := m.num - 1 }, 1)
  | none => .ok (m, 0)

/-- `clear` (robin_hood.h:1434-1452). -/
def clear (m : Map K V) : Map K V :=
  if m.num = 0 then m
  else { m with
    num := 0
    kv := fun i => if i ≤ m.mask then .raw else m.kv i
    info := fun i => if i ≤ m.mask then 0 else m.info i
    inc := 32
    shift := 59 }

/-- The loop of `reserve` (robin_hood.h:1691-1693); zero stands for a size that does not fit into 64 bits. -/
def reserveLoop (least : Nat) : (fuel size : Nat) → Except Err Nat
  | 0, _ => .error .bad
  | f + 1, size => if calcMax size < least ∧ size ≠ 0 then reserveLoop least f (size * 2 % 2 ^ 64) else .ok size

/-- `reserve` (robin_hood.h:1686-1699). -/
def reserve (hash : K → BitVec 64) (m : Map K V) (c : Nat) : Except Err (Map K V) := do
  let size ← reserveLoop (max c m.num) 65 8
  if size = 0 then .error .thrown else rehash hash m size

/-- The copy constructor (robin_hood.h:1347-1366): nothing is copied from an empty map. -/
def copyOf (o : Map K V) : Map K V := if o.num = 0 then {} else o

/-- The copy assignment (robin_hood.h:1369-1423) from another map. -/
def assignFrom (m o : Map K V) : Map K V := if o.num = 0 then (if m.mask = 0 then m else {}) else o

/-- The move constructor (robin_hood.h:1301-1317): the new map and what is left. -/
def moveOf (o : Map K V) : Map K V × Map K V := if o.mask ≠ 0 then (o, {}) else ({}, o)

/-- The move assignment (robin_hood.h:1319-1345) from another map. -/
def moveFrom (m o : Map K V) : Map K V × Map K V := if o.mask ≠ 0 then (o, {}) else (clear m, o)

/-- The number of zero bytes before the first other one among eight (`COUNT_TRAILING_ZEROES(n) / 8`, robin_hood.h:1099-1101). -/
def zeros (info : Nat → Nat) (p : Nat) : Nat :=
  if info p ≠ 0 then 0 else if info (p + 1) ≠ 0 then 1 else if info (p + 2) ≠ 0 then 2 else if info (p + 3) ≠ 0 then 3
  else if info (p + 4) ≠ 0 then 4 else if info (p + 5) ≠ 0 then 5 else if info (p + 6) ≠ 0 then 6 else if info (p + 7) ≠ 0 then 7 else 8

/-- `fastForward` (robin_hood.h:1095-1108). The bytes end eight behind the entries; reading further is an error. -/
def fastForward (m : Map K V) : (fuel p : Nat) → Except Err Nat
  | 0, _ => .error .bad
  | f + 1, p =>
    if p + 7 < m.mask + 1 + 8 then
      if zeros m.info p = 8 then fastForward m f (p + 8) else .ok (p + zeros m.info p)
    else .error .bad

/-- The entries from the one at `p` on, as seen by `for (auto &e : map)`. -/
def entriesFrom (m : Map K V) : (fuel p : Nat) → Except Err (List (K × V))
  | 0, _ => .error .bad
  | f + 1, p =>
    if p = m.mask + 1 then .ok []
    else match m.kv p with
      | .full k v => do
        let q ← fastForward m (m.mask + 3) (p + 1)
        let l ← entriesFrom m f q
        .ok ((k, v) :: l)
      | _ => .error .bad

/-- `for (auto &e : map)` with `begin` (robin_hood.h:1592-1611), `++` and `!=` (L1069-1094). -/
def entries (m : Map K V) : Except Err (List (K × V)) :=
  if m.num = 0 then .ok []
  else do
    let p ← fastForward m (m.mask + 3) 0
    entriesFrom m (m.mask + 3) p

/-- The loop of `operator==` (robin_hood.h:1468-1473). -/
def equalLoop [DecidableEq K] [DecidableEq V] (hash : K → BitVec 64) (m : Map K V) : List (K × V) → Except Err Bool
  | [] => .ok true
  | e :: l => do
    match ← find hash m e.1 with
    | none => .ok false
    | some v => if v = e.2 then equalLoop hash m l else .ok false

/-- `operator==` (robin_hood.h:1462-1476). -/
def equal [DecidableEq K] [DecidableEq V] (hash : K → BitVec 64) (m o : Map K V) : Except Err Bool := do
  if o.num ≠ m.num then .ok false
  else do
    let l ← entries o
    equalLoop hash m l

/-- `erase(iterator)` (robin_hood.h:1641-1657): the map and the iterator behind the erased entry. -/
def eraseAt (m : Map K V) (pos : Nat) : Except Err (Map K V × Nat) := do
  let m ← shiftDown (m.mask + 2) m pos
  let m := { m with num := m.num - 1 }
  if m.info pos ≠ 0 then .ok (m, pos)
  else do
    let q ← fastForward m (m.mask + 3) (pos + 1)
    .ok (m, q)

/-- The loop `while (it != map.end()) if (drop(*it)) it = map.erase(it); else ++it;` from the entry at `pos` on: the map and
the entries seen. -/
def sweepFrom (drop : K → V → Bool) : (fuel : Nat) → Map K V → (pos : Nat) → Except Err (Map K V × List (K × V))
  | 0, _, _ => .error .bad
  | f + 1, m, pos =>
    if pos = m.mask + 1 then .ok (m, [])
    else match m.kv pos with
      | .full k v =>
        if drop k v then do
          let r ← eraseAt m pos
          let s ← sweepFrom drop f r.1 r.2
          .ok (s.1, (k, v) :: s.2)
        else do
          let q ← fastForward m (m.mask + 3) (pos + 1)
          let s ← sweepFrom drop f m q
          .ok (s.1, (k, v) :: s.2)
      | _ => .error .bad

/-- The same loop from `begin()` on. -/
def sweep (drop : K → V → Bool) (m : Map K V) : Except Err (Map K V × List (K × V)) :=
  if m.num = 0 then .ok (m, [])
  else do
    let p ← fastForward m (m.mask + 3) 0
    sweepFrom drop (m.mask + m.num + 3) m p

/-- What a program does with its maps, which are numbered. -/
inductive Op (K V : Type) where
  /-- `maps[s].insert({k, v})` -/
  | insert (s : Nat) (k : K) (v : V)
  /-- `maps[s][k] = v` -/
  | set (s : Nat) (k : K) (v : V)
  /-- `maps[s].erase(k)` -/
  | erase (s : Nat) (k : K)
  /-- `maps[s].find(k)` -/
  | find (s : Nat) (k : K)
  /-- `maps[s].size()` -/
  | size (s : Nat)
  /-- `maps[s].clear()` -/
  | clear (s : Nat)
  /-- `maps[s].reserve(c)` -/
  | reserve (s c : Nat)
  /-- `for (auto &e : maps[s])` -/
  | list (s : Nat)
  /-- erasing through iterators -/
  | sweep (s : Nat) (drop : K → V → Bool)
  /-- `maps[s] == maps[t]` -/
  | equal (s t : Nat)
  /-- `maps[s] = maps[t]` -/
  | copy (s t : Nat)
  /-- a new map `s`, constructed from `maps[t]` -/
  | copyNew (s t : Nat)
  /-- `maps[s] = std::move(maps[t])` -/
  | move (s t : Nat)
  /-- a new map `s`, constructed from `std::move(maps[t])` -/
  | moveNew (s t : Nat)

/-- What an operation returns. -/
inductive Out (K V : Type) where
  | unit
  | flag (b : Bool)
  | count (n : Nat)
  | value (v : Option V)
  | entries (l : List (K × V))
  deriving DecidableEq

/-- One operation on the maps; `d` is the default value.  A map assigned to itself stays as it is (robin_hood.h:1322, 1372). -/
def step [DecidableEq K] [DecidableEq V] (hash : K → BitVec 64) (d : V) (σ : Nat → Map K V) : Op K V → Except Err ((Nat → Map K V) × Out K V)
  | .insert s k v => do
    let r ← insert hash (σ s) k v
    .ok (put σ s r.1, .flag r.2)
  | .set s k v => do
    let m ← assignKey hash (σ s) k d v
    .ok (put σ s m, .unit)
  | .erase s k => do
    let r ← erase hash (σ s) k
    .ok (put σ s r.1, .count r.2)
  | .find s k => do
    let v ← find hash (σ s) k
    .ok (σ, .value v)
  | .size s => .ok (σ, .count (σ s).num)
  | .clear s => .ok (put σ s (clear (σ s)), .unit)
  | .reserve s c => do
    let m ← reserve hash (σ s) c
    .ok (put σ s m, .unit)
  | .list s => do
    let l ← entries (σ s)
    .ok (σ, .entries l)
  | .sweep s drop => do
    let r ← sweep drop (σ s)
    .ok (put σ s r.1, .entries r.2)
  | .equal s t => do
    let b ← equal hash (σ s) (σ t)
    .ok (σ, .flag b)
  | .copy s t => .ok (if s = t then σ else put σ s (assignFrom (σ s) (σ t)), .unit)
  | .copyNew s t => .ok (if s = t then σ else put σ s (copyOf (σ t)), .unit)
  | .move s t => .ok (if s = t then σ else put (put σ t (moveFrom (σ s) (σ t)).2) s (moveFrom (σ s) (σ t)).1, .unit)
  | .moveNew s t => .ok (if s = t then σ else put (put σ t (moveOf (σ t)).2) s (moveOf (σ t)).1, .unit)

/-- A program: operations one after the other. -/
def run [DecidableEq K] [DecidableEq V] (hash : K → BitVec 64) (d : V) : List (Op K V) → (Nat → Map K V) → Except Err ((Nat → Map K V) × List (Out K V))
  | [], σ => .ok (σ, [])
  | op :: ops, σ => do
    let r ← step hash d σ op
    let s ← run hash d ops r.1
    .ok (s.1, r.2 :: s.2)

end RobinHood
end VecGeom

/-! Model of `ast/src/source_location.rs` and `ast/src/multi_source_location.rs`. Positions are `u32` and depths `u16`
in the code; here they are naturals, and every operation that could leave the range of `u32` or violate a
`debug_assert!` returns `none`. -/
namespace Verif.SourceLoc

/-- `source_location.rs:3-8`; `depth` is `include_depth`, the index of the source -/
structure Loc where
  start : Nat
  stop : Nat
  depth : Nat
deriving DecidableEq, Repr

/-- the values a `u32`, `u32`, `u16` triple can hold -/
def Loc.Fits (l : Loc) : Prop := l.start < 2 ^ 32 ∧ l.stop < 2 ^ 32 ∧ l.depth < 2 ^ 16

/-- a `u32` result: `none` if out of range -/
def u32 (n : Int) : Option Nat := if 0 ≤ n ∧ n < 2 ^ 32 then some n.toNat else none

/-- `source_location.rs:11-14` — `new`, with its `debug_assert!` -/
def Loc.mk? (start stop depth : Nat) : Option Loc := if start ≤ stop then some ⟨start, stop, depth⟩ else none

/-- `source_location.rs:16-25` — `spanning` with its `debug_assert!`s -/
def Loc.spanning (a b : Loc) : Option Loc :=
  if a.start ≤ b.start ∧ a.stop ≤ b.stop ∧ a.depth = b.depth then some ⟨a.start, b.stop, a.depth⟩ else none

/-- `source_location.rs:27-30` — `extend`: the depth of the other location is not looked at -/
def Loc.extend (l m : Loc) : Loc := ⟨min l.start m.start, max l.stop m.stop, l.depth⟩

/-- moving both ends: the common shape of the operations below -/
def Loc.move (l : Loc) (ds de : Int) : Option Loc :=
  (u32 (l.start + ds)).bind fun s => (u32 (l.stop + de)).bind fun e => Loc.mk? s e l.depth

/-- `source_location.rs:32-34` -/
def Loc.addingToEnd (l : Loc) (n : Nat) : Option Loc := l.move 0 n
/-- `source_location.rs:36-38` -/
def Loc.subtractingFromStart (l : Loc) (n : Nat) : Option Loc := l.move (-n) 0
/-- `source_location.rs:40-42` -/
def Loc.settingEnd (l : Loc) (e : Nat) : Option Loc := Loc.mk? l.start e l.depth
/-- `source_location.rs:44-47` -/
def Loc.clampStart (l : Loc) : Loc := ⟨l.start, l.start, l.depth⟩
/-- `source_location.rs:49-52` -/
def Loc.clampEnd (l : Loc) : Loc := ⟨l.stop, l.stop, l.depth⟩
/-- `source_location.rs:54-57` -/
def Loc.decrEnd (l : Loc) : Option Loc := l.move 0 (-1)
/-- `source_location.rs:59-62` -/
def Loc.incrEnd (l : Loc) : Option Loc := l.move 0 1
/-- `source_location.rs:64-67` -/
def Loc.decrStart (l : Loc) : Option Loc := l.move (-1) 0
/-- `source_location.rs:69-72` -/
def Loc.incrStart (l : Loc) : Option Loc := l.move 1 0
/-- `source_location.rs:74-77` -/
def Loc.incr (l : Loc) : Option Loc := l.move 1 1
/-- `source_location.rs:79-82` -/
def Loc.decr (l : Loc) : Option Loc := l.move (-1) (-1)
/-- `source_location.rs:84-87` -/
def Loc.offset (l : Loc) (n : Nat) : Option Loc := l.move n n
/-- `source_location.rs:89-92` — panics on a reversed location -/
def Loc.size (l : Loc) : Option Nat := if l.start ≤ l.stop then some (l.stop - l.start) else none
/-- `source_location.rs:94-97` -/
def Loc.isEmpty (l : Loc) : Bool := l.start == l.stop
/-- `source_location.rs:99-102` -/
def Loc.uid (l : Loc) : Nat := (l.depth <<< 32) ||| l.start

/-- `multi_source_location.rs:6-12` -/
structure Multi where
  startPos : Nat
  startDepth : Nat
  endPos : Nat
  endDepth : Nat
deriving DecidableEq, Repr

/-- `multi_source_location.rs:25-32` -/
def Multi.spanning (a b : Loc) : Multi := ⟨a.start, a.depth, b.stop, b.depth⟩
/-- `multi_source_location.rs:34-41` -/
def Multi.settingStart (m : Multi) (a : Loc) : Multi := ⟨a.start, a.depth, m.endPos, m.endDepth⟩
/-- `multi_source_location.rs:43-50` -/
def Multi.settingEnd (m : Multi) (b : Loc) : Multi := ⟨m.startPos, m.startDepth, b.stop, b.depth⟩
/-- `multi_source_location.rs:52-55` -/
def Multi.extendEnd (m o : Multi) : Multi := ⟨m.startPos, m.startDepth, o.endPos, o.endDepth⟩
/-- `multi_source_location.rs:57-67` -/
def Multi.coalesce (m : Multi) : Option Loc :=
  if m.startDepth = m.endDepth then some ⟨m.startPos, m.endPos, m.startDepth⟩ else none
/-- `multi_source_location.rs:69-71` -/
def Multi.uid (m : Multi) : Nat := (m.startDepth <<< 32) ||| m.startPos
/-- `multi_source_location.rs:74-83` — `From<SourceLocation>` -/
def Multi.ofLoc (l : Loc) : Multi := ⟨l.start, l.depth, l.stop, l.depth⟩

end Verif.SourceLoc

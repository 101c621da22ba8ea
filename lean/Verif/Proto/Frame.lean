import Verif.Proto.Readers
import Verif.Agg.Model
/-
Model of collector/pkg/component/analyzer/network/protocol/protocol_parser.go:373-482: the parser trees.

Simplifications, for the whole file:
* a tree has a root and leaves only (none of the parsers in the repository nests deeper);
* the attribute map is a finite map from byte strings; the L4 protocol of the message is not kept.
-/
namespace Kindling.Proto
open Kindling Kindling.Agg

/-- collector/pkg/model/attribute_map.go:16-18, keys as bytes. -/
abbrev Attrs := AMap Bytes AttrVal

/-- protocol_parser.go:31-36 `PayloadMessage`. -/
structure Msg where
  data : Bytes
  offset : Nat
  attrs : Attrs
deriving DecidableEq, Repr

namespace Msg
/-- protocol_parser.go:54-56 `IsComplete`. -/
def isComplete (m : Msg) : Bool := m.data.length ≤ m.offset
/-- protocol_parser.go:106-108 `HasAttribute`. -/
def has (m : Msg) (k : Bytes) : Bool := (AMap.get m.attrs k).isSome
/-- protocol_parser.go:74-92, the `Add…Attribute` functions. -/
def add (m : Msg) (k : Bytes) (v : AttrVal) : Msg := { m with attrs := AMap.set m.attrs k v }
/-- `message.Data[message.Offset]`. -/
def cur (m : Msg) : Res UInt8 := idx m.data m.offset
end Msg

/-- protocol_parser.go:373 `FastFailFn`. -/
abbrev FastFail := Msg → Res Bool
/-- protocol_parser.go:374 `ParsePkgFn`: (success, complete) and the message as the function leaves it.  `.err` is
never returned. -/
abbrev ParseFn := Msg → Res ((Bool × Bool) × Msg)

/-- protocol_parser.go:15-17: the statuses. -/
inductive Status where
  | fail | ok | complete
deriving DecidableEq, Repr

/-- protocol_parser.go:423-427 `PkgParser` without children. -/
structure Leaf where
  fastFail : FastFail
  parse : ParseFn

/-- protocol_parser.go:423-427 `PkgParser`. -/
structure Tree where
  fastFail : FastFail
  parse : ParseFn
  children : List Leaf

/-- protocol_parser.go:458-469, 481: `parseOneFrame` of a parser without children. -/
def Leaf.run (l : Leaf) (m : Msg) : Res (Status × Msg) := do
  let ff ← l.fastFail m
  if ff then pure (.fail, m)
  else
    let ((ok, complete), m') ← l.parse m
    if !ok then pure (.fail, m')
    else if complete then pure (.complete, m')
    else pure (.ok, m')

/-- protocol_parser.go:472-479: the children in turn. -/
def runChildren : List Leaf → Msg → Res (Status × Msg)
  | [], m => pure (.fail, m)
  | l :: ls, m => do
    let (s, m') ← l.run m
    if s = .fail then runChildren ls m' else pure (s, m')

/-- protocol_parser.go:458-482 `parseOneFrame`. -/
def Tree.run (t : Tree) (m : Msg) : Res (Status × Msg) := do
  let ff ← t.fastFail m
  if ff then pure (.fail, m)
  else
    let ((ok, complete), m') ← t.parse m
    if !ok then pure (.fail, m')
    else if complete then pure (.complete, m')
    else if t.children.isEmpty then pure (.ok, m')
    else runChildren t.children m'

/-- protocol_parser.go:447-454: the loop over frames, `none` if it has not ended after `n` frames. -/
def Tree.frames (t : Tree) : Nat → Msg → Option (Res (Bool × Msg))
  | 0, _ => none
  | n + 1, m => match t.run m with
    | .panic => some .panic
    | .err => some .err
    | .ok (.ok, m') => Tree.frames t n m'
    | .ok (s, m') => some (.ok (s = .complete, m'))

/-- protocol_parser.go:455 `parsePayload` without multiple frames. -/
def Tree.single (t : Tree) (m : Msg) : Res (Bool × Msg) := do
  let (s, m') ← t.run m
  pure (s ≠ .fail, m')

/-- More rounds do not change a result. -/
theorem frames_mono (t : Tree) (n : Nat) : ∀ (m : Msg) (r : Res (Bool × Msg)), t.frames n m = some r → ∀ k, n ≤ k → t.frames k m = some r := by
  induction n with
  | zero => intro m r h; simp [Tree.frames] at h
  | succ n ih =>
    intro m r h k hk
    obtain ⟨k, rfl⟩ : ∃ j, k = j + 1 := ⟨k - 1, by omega⟩
    revert h
    simp only [Tree.frames]
    split
    · exact id
    · exact id
    · exact fun h => ih _ _ h k (by omega)
    · exact id

end Kindling.Proto

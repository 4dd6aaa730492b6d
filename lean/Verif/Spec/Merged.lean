import Verif.Spec.Movable
import Verif.Spec.Doc
import Verif.Model.Merge
/-
What a merged document should denote.
-/
namespace Sereal

/-- The array around the elements. -/
def topTree : TopLevel → List Tree → Tree
  | .arrayRef, ts => .ref (.arr ts)
  | _, ts => .arr ts

/-- The document `b` has the body `body` (decompressed), in which offsets count from the byte before the
body (that is, it is not of version 1). -/
def HasBody (cs : Codecs) (b body : Bytes) : Prop :=
  ∃ ver dt lf suf z dc, IsDoc b ver dt lf suf z ∧ ver ≠ 1 ∧ documentDecompressor ver dt = .ok dc ∧
    match dc with
    | none => body = z
    | some c => decompress cs c z = .ok body

/-- The document `b` holds the item `t`, and perhaps something behind it. -/
def DocHolds (cs : Codecs) (b : Bytes) (t : Tree) : Prop :=
  ∃ body y j, HasBody cs b body ∧ body.length + 1 < 2 ^ 31 ∧ Denotes wrtDialect (y :: body) 1 t j

/-- One call of `Append`: the document, what lies behind its body in memory, and the capacity of the
merger's buffer. -/
structure MCall where
  doc : Bytes
  extra : Bytes := []
  cap : Nat := 0

/-- Calls of `Append` in a row, all of which must succeed: what they return, and the merger afterwards. -/
def appendAll (c : MCfg) (cs : Codecs) : List MCall → MState → Option (List Nat × MState)
  | [], s => some ([], s)
  | k :: ks, s =>
    match mergeAppend c cs k.extra k.cap k.doc s with
    | (.ok n, s') => (appendAll c cs ks s').map fun r => (n :: r.1, r.2)
    | (.error _, _) => none

/-- Calls of `Append` in a row, whether they succeed or not. -/
def appendEach (c : MCfg) (cs : Codecs) : List MCall → MState → List (Res Nat) × MState
  | [], s => ([], s)
  | k :: ks, s =>
    let r := mergeAppend c cs k.extra k.cap k.doc s
    let rest := appendEach c cs ks r.2
    (r.1 :: rest.1, rest.2)

/-- `R` holds between the elements of two lists, one by one. -/
inductive Each {α β : Type} (R : α → β → Prop) : List α → List β → Prop
  | nil : Each R [] []
  | cons {a b as bs} : R a b → Each R as bs → Each R (a :: as) (b :: bs)

/-- With KeepFlat, what an item contributes. -/
def flatten : TopLevel → Tree → List Tree
  | .arrayRef, .ref (.arr ts) => ts
  | .array, .arr ts => ts
  | _, t => [t]

/-- The body has at least two bytes and does not begin with padding; no padding follows on a REFN at its
beginning. -/
def Bare (body : Bytes) : Prop :=
  ∃ b0 b1 rest, body = b0 :: b1 :: rest ∧ b0.toNat % 128 ≠ 0x3f ∧
    (b0.toNat % 128 = 0x28 → b1.toNat % 128 ≠ 0x3f)

/-- `DocHolds` for documents with such a body. -/
def DocHoldsBare (cs : Codecs) (b : Bytes) (t : Tree) : Prop :=
  ∃ body y j, HasBody cs b body ∧ body.length + 1 < 2 ^ 31 ∧ Denotes wrtDialect (y :: body) 1 t j ∧ Bare body

end Sereal

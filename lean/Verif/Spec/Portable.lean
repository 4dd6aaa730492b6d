import Verif.Spec.Tokens
import Verif.Spec.Merged
import Verif.Spec.Smooth
/-
Documents and values that stay mergeable when they are merged.
-/
namespace Sereal

/-- Tags of tokens the merger moves without changing what they mean: no references and no objects. -/
def TagC.carried : TagC → Bool
  | .refp | .alias | .object | .freeze | .objectv | .freezev => false
  | _ => true

/-- Tags of strings. -/
def TagC.textual : TagC → Bool
  | .binary | .strUtf8 | .short _ => true
  | _ => false

/-- Such tokens from `i` to `j`; the places of the strings among them are added to `vs`.  Offsets (of COPY) name
these places only. -/
inductive Portable (D : Bytes) : List Nat → Nat → List Nat → Nat → Prop
  | nil {vs i} : Portable D vs i vs i
  | cons {vs i b k vs' j} : D[i]? = some b → (classify (b.toNat % 128)).carried = true → Tok D vs i b k →
      Portable D (if (classify (b.toNat % 128)).textual then i :: vs else vs) k vs' j → Portable D vs i vs' j

/-- The document `b` (of version 2 or later, below 2 GB) is a row of such tokens. -/
def PortableDoc (cs : Codecs) (b : Bytes) : Prop :=
  ∃ body y vs, HasBody cs b body ∧ body.length + 1 < 2 ^ 31 ∧ Portable (y :: body) [] 1 vs (body.length + 1)

/-- A body of at least two bytes that begins neither with padding nor with a tracked tag, and does not do so behind a
REFN at its beginning either. -/
def Front (body : Bytes) : Prop :=
  ∃ b0 b1 rest, body = b0 :: b1 :: rest ∧ b0.toNat < 128 ∧ b0.toNat ≠ 0x3f ∧
    (b0.toNat = 0x28 → b1.toNat < 128 ∧ b1.toNat ≠ 0x3f)

/-- A document with such a body. -/
def FrontDoc (cs : Codecs) (b : Bytes) : Prop := ∃ body, HasBody cs b body ∧ Front body

/-- Values for which `Marshal` writes neither references nor objects. -/
def Loner : Val → Prop
  | .ptr _ _ | .obj _ _ | .frozen _ _ | .strct _ _ | .marshaler _ _ _ => False
  | _ => True

/-- `Smooth`, and without pointers, structs and objects. -/
def SmoothData (c : ECfg) (inp : Heap) (v : Val) : Prop :=
  ∃ S : Val → Prop, S v ∧ ∀ w, S w → SmoothAt c inp S w ∧ Loner w

/-! ### Merging in steps -/

/-- The items of a merged document, from the data of the documents it was made of. -/
def joined (c : MCfg) (ts : List Tree) : List Tree :=
  if c.keepFlat then (ts.map (flatten c.topLevel)).flatten else ts

/-- Mergers that write uncompressed documents of version 2 or 3 and leave strings alone. -/
structure PlainMerger (c : MCfg) : Prop where
  ver : c.ver ≤ 3
  notOne : c.version ≠ 1
  top : c.topLevel ≠ .invalid
  raw : c.compression = none
  verbatim : c.dedupeStrings = false

/-- The document `b` has been made from portable documents by such mergers, in any number of steps; `t` is what
one would expect it to hold. -/
inductive Assembled (cs : Codecs) : Bytes → Tree → Prop
  | given {b t} : PortableDoc cs b → DocHolds cs b t → Movable t → Assembled cs b t
  | merged {c : MCfg} {ps : List (MCall × Tree)} {ns : List Nat} {s s' : MState} {slack doc : Bytes} :
      PlainMerger c → (c.keepFlat = true → ∀ p ∈ ps, FrontDoc cs p.1.doc) → (∀ p ∈ ps, Assembled cs p.1.doc p.2) →
      appendAll c cs (ps.map Prod.fst) {} = some (ns, s) → mergeFinish c cs slack s = (.ok doc, s') →
      (joined c (ps.map Prod.snd)).length ≤ maxSize → doc.length < 2 ^ 31 →
      Assembled cs doc (topTree c.topLevel (joined c (ps.map Prod.snd)))

end Sereal

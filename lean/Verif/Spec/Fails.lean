import Verif.Spec.Support
/-
Items in which the first offence, in document order, is a COPY, REFP or ALIAS with a bad offset.
Everything before the offence must be well-formed (`G`) and satisfy a given predicate.
-/
namespace Sereal

/-- A key, class name, pattern or modifier that is a bad COPY: one inside a copied item, one that
names a later position, or one that leads to another COPY (itself, for instance). -/
inductive BadKey (buf : Bytes) : (cd : Bool) → (i : Nat) → Prop
  | nested {i k b} : TagAt buf i k b → classify (b.toNat % 128) = .copy → BadKey buf true i
  | ahead {cd i k b o j} : TagAt buf i k b → classify (b.toNat % 128) = .copy →
      Vint goDialect buf (k + 1) o j → k < o → BadKey buf cd i
  | again {cd i k b o j k' b'} : TagAt buf i k b → classify (b.toNat % 128) = .copy →
      Vint goDialect buf (k + 1) o j → o ≤ k → TagAt buf o k' b' →
      classify (b'.toNat % 128) = .copy → BadKey buf cd i

/-- Which offence. -/
inductive Offence
  | copy | ref

/-- `BadRef P buf off cd job i T`: the job at position `i` runs into an offence of kind `off`,
and the items completed before satisfy `P`. -/
inductive BadRef (P : Tree → Prop) (buf : Bytes) (off : Offence) : (cd : Bool) → Job → (i : Nat) → Seen → Prop
  /-- a COPY inside a copied item -/
  | copyNested {i T} : off = .copy → BadRef P buf off true (.body .copy) i T
  /-- a COPY that names a later position -/
  | copyAhead {cd i T o j} : off = .copy → Vint goDialect buf i o j → i ≤ o →
      BadRef P buf off cd (.body .copy) i T
  /-- a COPY of something bad -/
  | copyIn {i T o j} : Vint goDialect buf i o j → o < i → BadRef P buf off true .item o T →
      BadRef P buf off false (.body .copy) i T
  /-- a REFP or ALIAS to a later position, or to one that has not been seen with a track flag -/
  | refp {cd i T o j} : off = .ref → Vint goDialect buf i o j → (j ≤ o ∨ T o = none) →
      BadRef P buf off cd (.body .refp) i T
  | alias {cd i T o j} : off = .ref → Vint goDialect buf i o j → (j ≤ o ∨ T o = none) →
      BadRef P buf off cd (.body .alias) i T
  | plain {cd i k b T} : TagAt buf i k b → b.toNat < 128 →
      BadRef P buf off cd (.body (classify b.toNat)) (k + 1) T → BadRef P buf off cd .item i T
  | tracked {cd i k b T} : TagAt buf i k b → 128 ≤ b.toNat →
      BadRef P buf off cd (.body (classify (b.toNat - 128))) (k + 1) (T.put k none) →
      BadRef P buf off cd .item i T
  | hash {cd i T n j} : Vint goDialect buf i n j → n ≤ maxSize → j + 2 * n ≤ buf.length →
      BadRef P buf off cd (.pairs n) j T → BadRef P buf off cd (.body .hash) i T
  | hashref {cd i T n} : i + 2 * n ≤ buf.length → BadRef P buf off cd (.pairs n) i T →
      BadRef P buf off cd (.body (.hashref n)) i T
  | array {cd i T n j} : Vint goDialect buf i n j → n ≤ maxSize → j + n ≤ buf.length →
      BadRef P buf off cd (.items n) j T → BadRef P buf off cd (.body .array) i T
  | arrayref {cd i T n} : i + n ≤ buf.length → BadRef P buf off cd (.items n) i T →
      BadRef P buf off cd (.body (.arrayref n)) i T
  | refn {cd i T} : BadRef P buf off cd .item i T → BadRef P buf off cd (.body .refn) i T
  | weaken {cd i T} : BadRef P buf off cd .item i T → BadRef P buf off cd (.body .weaken) i T
  | regexpPat {cd i T} : off = .copy → BadKey buf cd i → BadRef P buf off cd (.body .regexp) i T
  | regexpMod {cd i T p j} : off = .copy → Strish goDialect buf cd i p j → BadKey buf cd j →
      BadRef P buf off cd (.body .regexp) i T
  | objectCls {cd i T} : off = .copy → BadKey buf cd i → BadRef P buf off cd (.body .object) i T
  | object {cd i T cls j} : Strish goDialect buf cd i cls j → BadRef P buf off cd .item j T →
      BadRef P buf off cd (.body .object) i T
  | objectvCls {cd i T o j} : off = .copy → Vint goDialect buf i o j → o < 2 ^ 63 → BadKey buf cd o →
      BadRef P buf off cd (.body .objectv) i T
  | objectv {cd i T o j cls x} : Vint goDialect buf i o j → o < 2 ^ 63 → Strish goDialect buf cd o cls x →
      BadRef P buf off cd .item j T → BadRef P buf off cd (.body .objectv) i T
  | freezeCls {cd i T} : off = .copy → BadKey buf cd i → BadRef P buf off cd (.body .freeze) i T
  | freeze {cd i T cls j} : Strish goDialect buf cd i cls j → Span buf j [0x28, 0x2b] (j + 2) →
      BadRef P buf off cd .item j T → BadRef P buf off cd (.body .freeze) i T
  | freezevCls {cd i T o j} : off = .copy → Vint goDialect buf i o j → o < 2 ^ 63 → BadKey buf cd o →
      BadRef P buf off cd (.body .freezev) i T
  | freezev {cd i T o j cls x} : Vint goDialect buf i o j → o < 2 ^ 63 → Strish goDialect buf cd o cls x →
      Span buf j [0x28, 0x2b] (j + 2) → BadRef P buf off cd .item j T →
      BadRef P buf off cd (.body .freezev) i T
  | itemsHead {cd n i T} : BadRef P buf off cd .item i T → BadRef P buf off cd (.items (n + 1)) i T
  | itemsTail {cd n i T t j T'} : G goDialect buf cd .item i T (.tree t) j T' → P t →
      BadRef P buf off cd (.items n) j T' → BadRef P buf off cd (.items (n + 1)) i T
  | pairsKey {cd n i T} : off = .copy → BadKey buf cd i → BadRef P buf off cd (.pairs (n + 1)) i T
  | pairsHead {cd n i T k x} : Strish goDialect buf cd i k x → BadRef P buf off cd .item x T →
      BadRef P buf off cd (.pairs (n + 1)) i T
  | pairsTail {cd n i T k x t j T'} : Strish goDialect buf cd i k x →
      G goDialect buf cd .item x T (.tree t) j T' → P t →
      BadRef P buf off cd (.pairs n) j T' → BadRef P buf off cd (.pairs (n + 1)) i T

end Sereal

import Verif.Spec.Graph
/-
When the contents of a variable in memory, with all that it leads to, are what a `TVal` says, and nothing of
it is shared.  Of the model only the types of Go types, contents, memory and configurations are used, and the
accessors of memory.
-/
namespace Sereal

/-- `Depicts tc m ty B w x`: in the memory `m` the contents `w` of a variable of type `ty` are as `x` says.  `B`
contains the numbers of the variables and maps that `w` extends to; each of them belongs to one place of `w`.
Pointers lead to whole variables, and slices to elements of whole variables. -/
inductive Depicts (tc : TCfg) (m : Mem) : Ty → (Nat → Prop) → MVal → TVal → Prop
  | zero {ty B} : Depicts tc m ty B .zero .zero
  | bool {B b} : Depicts tc m .bool B (.bool b) (.bool b)
  | int {B k i} : Depicts tc m (.int k) B (.int i) (.int i)
  | uint {B k n} : Depicts tc m (.uint k) B (.uint n) (.uint n)
  | f32 {B u} : Depicts tc m .f32 B (.f32 u) (.f32 u)
  | f64 {B u} : Depicts tc m .f64 B (.f64 u) (.f64 u)
  | str {B s} : Depicts tc m .str B (.str s) (.str s)
  | iface {B v} : Depicts tc m .iface B (.iface v) (.iface v)
  | thawed {B id d} : Depicts tc m (.strct id) B (.opaque d) (.opaque d)
  | arr {B n e w vs} (P : Nat → Nat → Prop) : vs.length = n → (∀ i b, P i b → B b) → (∀ i j b, P i b → P j b → i = j) →
      (∀ i, i < n → Depicts tc m e (P i) ((w.parts n).getD i .zero) (vs.getD i .zero)) →
      Depicts tc m (.arr n e) B w (.multi vs)
  | strct {B id w vs} (P : Nat → Nat → Prop) : vs.length = (tc.types id).fields.length → (∀ i b, P i b → B b) →
      (∀ i j b, P i b → P j b → i = j) →
      (∀ (i : Nat) f, (tc.types id).fields[i]? = some f →
        Depicts tc m f.ty (P i) ((w.parts (tc.types id).fields.length).getD i .zero) (vs.getD i .zero)) →
      Depicts tc m (.strct id) B w (.multi vs)
  | slice {B e a off n cap vs} (P : Nat → Nat → Prop) : vs.length = n → off + n ≤ cap → B a → (∀ i b, P i b → B b ∧ b ≠ a) →
      (∀ i j b, P i b → P j b → i = j) →
      (∀ i, i < n → Depicts tc m e (P i) (m.get (Spot.sub ⟨a, []⟩ (off + i) cap)) (vs.getD i .zero)) →
      Depicts tc m (.slice e) B (.slice ⟨a, []⟩ off n cap) (.slice vs)
  | map {B e a kvs} (P : Bytes → Nat → Prop) : B a → (∀ k b, P k b → B b ∧ b ≠ a) → (∀ k k' b, P k b → P k' b → k = k') →
      (∀ k, (mapLookup k (m.maps a)).isSome = (mapLookup k kvs).isSome) →
      (∀ k w x, mapLookup k (m.maps a) = some w → mapLookup k kvs = some x → Depicts tc m e (P k) w x) →
      Depicts tc m (.map e) B (.map a) (.map kvs)
  | ptr {B e a v} (P : Nat → Prop) : B a → (∀ b, P b → B b ∧ b ≠ a) → Depicts tc m e P (m.get ⟨a, []⟩) v →
      Depicts tc m (.ptr e) B (.ptr ⟨a, []⟩) (.ptr v)

/-- The present contents of a target. -/
def Target.now (t : Target) (m : Mem) : MVal :=
  match t.place with
  | .var l => m.get l
  | .tmp v => v

/-- The numbers of the parts of a place are in range. -/
def Spot.InRange (l : Spot) : Prop := ∀ x ∈ l.path, x.1 < x.2

/-- The variable of the target and the variables and maps in `B` exist, and the former is not in `B`. -/
structure Owned (t : Target) (B : Nat → Prop) (m : Mem) : Prop where
  here : ∀ l, t.place = .var l → l.InRange ∧ l.base < m.next ∧ ¬ B l.base
  below : ∀ b, B b → b < m.next

/-- From `m` to `m'` nothing has changed but the target, what is in `B`, and what is new. -/
structure Changed (t : Target) (B : Nat → Prop) (m m' : Mem) : Prop where
  next : m.next ≤ m'.next
  maps : ∀ b, b < m.next → ¬ B b → m'.maps b = m.maps b
  vars : ∀ b, b < m.next → ¬ B b → (∀ l, t.place = .var l → b ≠ l.base) → m'.vars b = m.vars b
  side : ∀ l z, t.place = .var l → z.base = l.base → Separate z l → m'.get z = m.get z

/-- A pointer, a map, or a slice that is not empty. -/
def MVal.isHandle : MVal → Prop
  | .ptr _ => True
  | .map _ => True
  | .slice _ _ n _ => n ≠ 0
  | _ => False

/-- Pointer, map and slice types. -/
def Ty.isRef : Ty → Prop
  | .ptr _ => True
  | .map _ => True
  | .slice _ => True
  | _ => False

/-- From `m` to `m'` the target has come to hold `x`.  Pointers, maps and slices stay unless they are set to nil. -/
structure Became (tc : TCfg) (t : Target) (B : Nat → Prop) (m m' : Mem) (x : TVal) : Prop where
  changed : Changed t B m m'
  stays : t.ty.isRef → (t.now m).isHandle → x = .zero ∨ t.now m' = t.now m
  holds : ∃ B', (∀ b, B' b → b < m'.next ∧ (B b ∨ m.next ≤ b)) ∧ Depicts tc m' t.ty B' (t.now m') x

end Sereal

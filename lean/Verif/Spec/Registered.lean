import Verif.Model.Registry
import Verif.Spec.View
/-
Which type belongs to a class name after a row of RegisterName calls.
-/
namespace Sereal

/-- Values RegisterName should take: those whose type has the method UnmarshalBinary. -/
def HasUnmarshal (value : Option GoType) : Prop := ∃ t u, value = some t ∧ t.method = some u

/-- The calls before the last one that is for `cls` and has a value of type `t` with the method; no later call
is for `cls` and has such a value. -/
def InForce (calls : List (Bytes × Option GoType)) (cls : Bytes) (t : GoType) : Prop :=
  ∃ before after, calls = before ++ (cls, some t) :: after ∧ t.method.isSome = true ∧
    ∀ v, (cls, v) ∈ after → ¬ HasUnmarshal v

/-- No call for `cls` has a value with the method. -/
def NotRegistered (calls : List (Bytes × Option GoType)) (cls : Bytes) : Prop :=
  ∀ v, (cls, v) ∈ calls → ¬ HasUnmarshal v

/-- The tree `x` stands somewhere in a tree. -/
inductive StandsIn (x : Tree) : Tree → Prop
  | here : StandsIn x x
  | arr {t ts} : t ∈ ts → StandsIn x t → StandsIn x (.arr ts)
  | map {k t kvs} : lastLookup k kvs = some t → StandsIn x t → StandsIn x (.map kvs)
  | ref {t} : StandsIn x t → StandsIn x (.ref t)
  | refp {t} : StandsIn x t → StandsIn x (.refp t)
  | alias {t} : StandsIn x t → StandsIn x (.alias t)
  | weak {t} : StandsIn x t → StandsIn x (.weak t)
  | obj {cls t} : StandsIn x t → StandsIn x (.obj cls t)

/-- A frozen object with class name and data. -/
abbrev frozenTree (cls data : Bytes) : Tree := .frz cls (.ref (.arr [.bin data]))

end Sereal

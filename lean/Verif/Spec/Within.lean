import Verif.Model.TypedMem
/-
How much memory is in use by typed variables.
-/
namespace Sereal

/-- The value contains a slice with more than `N` elements, or a string of more than `N` bytes, or what an
UnmarshalBinary method was given is longer than that. -/
inductive MVal.Over (N : Nat) : MVal → Prop
  | slice {l off len cap} : N < max len cap → MVal.Over N (.slice l off len cap)
  | str {s} : N < s.length → MVal.Over N (.str s)
  | opaque {s} : N < s.length → MVal.Over N (.opaque s)
  | ifaceStr {s} : N < s.length → MVal.Over N (.iface (.str s))
  | ifaceBin {s} : N < s.length → MVal.Over N (.iface (.bin s))
  | any {ty v} : MVal.Over N v → MVal.Over N (.any ty v)
  | multi {vs v} : v ∈ vs → MVal.Over N v → MVal.Over N (.multi vs)

/-- No variable and no map entry contains such a thing, and no key is longer than `N`. -/
structure Mem.Within (N : Nat) (m : Mem) : Prop where
  vars : ∀ b, ¬ (m.vars b).Over N
  maps : ∀ b k v, (k, v) ∈ m.maps b → k.length ≤ N ∧ ¬ v.Over N

/-- The number of pointers one finds before something else when following a type. -/
def Ty.ptrs : Ty → Nat
  | .ptr e => e.ptrs + 1
  | .slice e | .arr _ e | .map e => e.ptrs
  | _ => 0

/-- No type in use has more than `K` of them. -/
def Ty.PtrsUpTo (K : Nat) (tc : TCfg) (ty : Ty) : Prop :=
  ty.ptrs ≤ K ∧ ∀ id, ∀ f ∈ (tc.types id).fields, f.ty.ptrs ≤ K

end Sereal

import Verif.Model.TypedMem
/-
Which memory belongs to a variable.
-/
namespace Sereal

/-- The value contains a pointer to variable `n` or a part of it, a slice of it, or the map `n`. -/
inductive Mentions (n : Nat) : MVal → Prop
  | any {ty v} : Mentions n v → Mentions n (.any ty v)
  | slice {l off len cap} : l.base = n → Mentions n (.slice l off len cap)
  | multi {vs v} : v ∈ vs → Mentions n v → Mentions n (.multi vs)
  | map : Mentions n (.map n)
  | ptr {l} : l.base = n → Mentions n (.ptr l)

/-- Variable or map `n` can be reached from variable `a`. -/
inductive LeadsTo (m : Mem) (a : Nat) : Nat → Prop
  | self : LeadsTo m a a
  | var {b n} : LeadsTo m a b → Mentions n (m.vars b) → LeadsTo m a n
  | entry {b k v n} : LeadsTo m a b → (k, v) ∈ m.maps b → Mentions n v → LeadsTo m a n

/-- Numbers not in use have no contents. -/
def Mem.Tidy (m : Mem) : Prop := ∀ b, m.next ≤ b → m.vars b = .zero ∧ m.maps b = []

end Sereal

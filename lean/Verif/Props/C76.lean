import Verif.Proof.Moved
import Verif.Props.C01
/-
C76: what Marshal writes does not depend on where the data is in memory.
-/
namespace Sereal

/-- The claim, for MarshalWithHeader (Marshal: no header): all Encoders, all values, all orders of maps; the same document or the
same error.  The two memories contain the same data with the same sharing (`Relocation`): what is one variable in the first is one
in the second, what are two variables are two.  Addresses, also those of the bytes of strings, are otherwise arbitrary. -/
theorem C76 (cfg : ECfg) (cs : Codecs) (h h' : Heap) (dp' : Addr → Addr) (V K : Addr → Addr → Prop)
    (hr : Relocation cfg.ord h cfg.dataPtr h' dp' V K) (header header' : Option Val) (body body' : Val)
    (hh : Option.Rel (MovedTo V K) header header') (hb : MovedTo V K body body') :
    marshalWithHeader cfg cs h header body = marshalWithHeader { cfg with dataPtr := dp' } cs h' header' body' := by
  have hsuf : headerSuffix cfg h header = headerSuffix { cfg with dataPtr := dp' } h' header' := by
    cases hh with
    | none => rfl
    | some hm =>
      unfold headerSuffix
      dsimp only
      rw [encodeAfter_moved hr hm]
      rfl
  have hraw : marshalRaw cfg cs h header body = marshalRaw { cfg with dataPtr := dp' } cs h' header' body' := by
    unfold marshalRaw
    dsimp only
    rw [hsuf]
    congr 1
    funext suf
    rw [encodeAfter_moved hr hb]
    rfl
  unfold marshalWithHeader
  rw [hraw]

theorem C76_marshal (cfg : ECfg) (cs : Codecs) (h h' : Heap) (dp' : Addr → Addr) (V K : Addr → Addr → Prop)
    (hr : Relocation cfg.ord h cfg.dataPtr h' dp' V K) (body body' : Val) (hb : MovedTo V K body body') :
    marshal cfg cs h body = marshal { cfg with dataPtr := dp' } cs h' body' :=
  C76 cfg cs h h' dp' V K hr none none body body' .none hb

/-! Examples: an array of two pointers to one string, in two memories. -/

namespace Elsewhere

def here : Heap :=
  { mem := fun a => if a = 1 ∨ a = 2 then .cell (.ptr false 3) else if a = 3 then .cell (.str [97]) else .cell .nil, next := 4 }
def there : Heap :=
  { mem := fun a => if a = 10 ∨ a = 11 then .cell (.ptr false 7) else if a = 7 then .cell (.str [97]) else .cell .nil, next := 12 }
/-- The same array, but with pointers to two strings. -/
def apart : Heap :=
  { mem := fun a => if a = 10 then .cell (.ptr false 7) else if a = 11 then .cell (.ptr false 8)
      else if a = 7 ∨ a = 8 then .cell (.str [97]) else .cell .nil, next := 12 }

def V (a b : Addr) : Prop := (a = 1 ∧ b = 10) ∨ (a = 2 ∧ b = 11) ∨ (a = 3 ∧ b = 7)
/-- The byte of the string is at 20 in the first memory, at 5 in the second one. -/
def K (a b : Addr) : Prop := V a b ∨ (a = 0 ∧ b = 0) ∨ (a = 20 ∧ b = 5)
def dp (_ : Addr) : Addr := 20
def dp' (_ : Addr) : Addr := 5

theorem relocation : Relocation (fun _ ks => ks) here dp there dp' V K where
  one := by
    intro a b a' b' h1 h2
    unfold K V at h1 h2
    show (a : Nat) = a' ↔ (b : Nat) = b'
    omega
  zero := .inr (.inl ⟨rfl, rfl⟩)
  key h := .inl h
  cell := by
    rintro a b (⟨rfl, rfl⟩ | ⟨rfl, rfl⟩ | ⟨rfl, rfl⟩)
    · exact .ptr (.inr (.inr ⟨rfl, rfl⟩))
    · exact .ptr (.inr (.inr ⟨rfl, rfl⟩))
    · exact .flat (v := .str [97]) trivial
  data _ := .inr (.inr ⟨rfl, rfl⟩)
  size := by
    rintro a b (⟨rfl, rfl⟩ | ⟨rfl, rfl⟩ | ⟨rfl, rfl⟩) <;> rfl
  entry := by
    rintro a b (⟨rfl, rfl⟩ | ⟨rfl, rfl⟩ | ⟨rfl, rfl⟩) k <;> exact .flat (v := .nil) trivial
  order := by
    rintro a b (⟨rfl, rfl⟩ | ⟨rfl, rfl⟩ | ⟨rfl, rfl⟩) n <;> rfl
  fields := by
    rintro a b (⟨rfl, rfl⟩ | ⟨rfl, rfl⟩ | ⟨rfl, rfl⟩) <;> exact .nil

theorem moved : MovedTo V K (.slice 1 2) (.slice 10 2) := by
  refine .slice (.inl (.inl ⟨rfl, rfl⟩)) fun i hi => ?_
  unfold V
  show ((1 : Nat) + i = 1 ∧ (10 : Nat) + i = 10) ∨ ((1 : Nat) + i = 2 ∧ (10 : Nat) + i = 11) ∨ ((1 : Nat) + i = 3 ∧ (10 : Nat) + i = 7)
  omega

/-- The theorem applies; the document has a reference to the first pointer. -/
example (cs : Codecs) : marshal { dataPtr := dp } cs here (.slice 1 2) = marshal { dataPtr := dp' } cs there (.slice 10 2) :=
  C76_marshal { dataPtr := dp } cs here there dp' V K relocation _ _ moved
example : (match marshal { dataPtr := dp } noCodecs here (.slice 1 2) with
    | .ok doc => decide (doc = [0x3d, 0xf3, 0x72, 0x6c, 3, 0, 0x2b, 2, 0xa8, 0x27, 1, 97, 0x29, 3]) | _ => false) = true := by
  decide +kernel

/-- The premise about sharing is needed: two strings are written twice. -/
theorem sharing : (match marshal { dataPtr := id } noCodecs apart (.slice 10 2) with
    | .ok doc => decide (doc = [0x3d, 0xf3, 0x72, 0x6c, 3, 0, 0x2b, 2, 0x28, 0x27, 1, 97, 0x28, 0x27, 1, 97]) | _ => false) = true := by
  decide +kernel

end Elsewhere

end Sereal

import Verif.Props.C64
import Verif.Props.C50Mem
/-
C50 for documents of any kind: fields that the document does not name, and fields tagged "-", keep their contents.
-/
namespace Sereal

theorem findField_for {tc : TCfg} {fs : List TField} {k : Bytes} {i : Nat} (h : findField tc fs k = some i) :
    FieldFor tc fs k i := by
  rcases fieldFor_or tc fs k with ⟨j, hj⟩ | hn
  · rw [findField_some hj] at h
    cases h
    exact hj
  · rw [findField_none hn] at h
    cases h

theorem itemBuf_infix (ver : Nat) (hd body : Bytes) : (itemBuf ver hd body).1 <:+: hd ++ body := by
  unfold itemBuf
  split
  · exact List.infix_rfl
  · exact ⟨hd.take (hd.length - 1), [], by rw [List.append_nil, ← List.append_assoc, List.take_append_drop]⟩

/-- Whatever the document holds, REFP, ALIAS and errors included: a field of the struct for which no part of the document
is a key has its contents from before after Unmarshal, also if that fails.  As for C64, the type has no UnmarshalBinary and
nothing in the variable points at it.  (`FieldFor`: the field tagged with the key or untagged and so named, else the same for
the key in title case.) -/
theorem C50_unnamed (cfg : DCfg) (tc : TCfg) (cs : Codecs) (b : Bytes) (ver : Nat) (lenField suffix body : Bytes) (id : Nat)
    (l : Spot) (mem : Mem) (i : Nat) (hd : IsDoc b ver 0 lenField suffix body)
    (hm : mem.Tidy) (hl : l.base < mem.next) (hp : NotPointedAt mem l.base) (hu : (tc.types id).unmarshal = none)
    (hn : ∀ key, key <:+: b → ¬ FieldFor tc (tc.types id).fields key i) :
    (memoryAfter cfg tc cs b (.strct id) l mem).get (l.sub i (tc.types id).fields.length) =
      mem.get (l.sub i (tc.types id).fields.length) := by
  refine field_kept cfg tc cs b id l mem i hm hl hp hu (.inr fun buf j hb key hk h => ?_)
  rw [bodyOf_eq, bodyInput_raw hd] at hb
  injection hb with hb
  have h1 : key <:+: headBytes ver 0 lenField suffix ++ body :=
    hk.trans (by have := itemBuf_infix ver (headBytes ver 0 lenField suffix) body; rwa [hb] at this)
  exact hn key (by rw [hd.eq]; exact h1) (findField_for h)

/-- type T struct { X int; Y int; Z int `sereal:"-"` } -/
def dashTypes : TCfg :=
  { noFloats with
    title := id
    types := fun _ => ⟨[⟨[88], [], true, .int .int⟩, ⟨[89], [], true, .int .int⟩, ⟨[90], [45], true, .int .int⟩], none⟩ }

/-- A variable of type T: { 1, 2, 3 } -/
def memDash : Mem where
  vars := fun n => if n = 0 then .multi [.int 1, .int 2, .int 3] else .zero
  next := 1

/-- { "X": 7, "Z": 9, "X": ALIAS of the 7, "Q": a string cut off } -/
def docDash : Bytes := [0x3d, 0xf3, 0x72, 0x6c, 3, 0, 0x54, 0x61, 88, 0x87, 0x61, 90, 9, 0x61, 88, 0x2e, 4, 0x61, 81, 0x65, 65]

/-- `C50_unnamed` applies to field Y and `C50_dash` to field Z: X is set, the call fails, Y and Z keep 2 and 3. -/
example : memDash.Tidy ∧ NotPointedAt memDash 0 ∧ IsDoc docDash 3 0 [0] [] (docDash.drop 6) ∧
    (∀ key, key <:+: docDash → ¬ FieldFor dashTypes (dashTypes.types 0).fields key 1) ∧
    (unmarshalInto {} dashTypes noCodecs docDash (.strct 0) ⟨0, []⟩ memDash).isOk = false ∧
    (match (memoryAfter {} dashTypes noCodecs docDash (.strct 0) ⟨0, []⟩ memDash).vars 0 with
    | .multi [.int a, .int b, .int c] => some (a, b, c)
    | _ => none) = some (7, 2, 3) := by
  refine ⟨?_, fun b _ => ⟨?_, fun k v hk => by cases hk⟩, ?_, ?_, by decide +kernel, by decide +kernel⟩
  · intro b hb
    have hb : 1 ≤ b := hb
    refine ⟨?_, rfl⟩
    simp only [memDash]
    rw [if_neg (by omega)]
  · intro hn
    simp only [memDash] at hn
    split at hn
    · cases hn with
      | multi h1 h2 =>
        simp only [List.mem_cons, List.not_mem_nil, or_false] at h1
        rcases h1 with rfl | rfl | rfl <;> cases h2
    · cases hn
  · exact ⟨by decide, by decide, by decide, by simp [IsVarint], by decide, by decide, by decide⟩
  · intro key hk hf
    have : key = [89] := by
      rcases hf with ⟨⟨f, h1, h2⟩, -⟩ | ⟨-, ⟨f, h1, h2⟩, -⟩ <;> cases h1 <;> cases h2 <;> rfl
    subst this
    exact absurd hk (by decide)

/-- A field tagged "-" keeps its contents, whatever the document, compressed documents included. -/
theorem C50_dash (cfg : DCfg) (tc : TCfg) (cs : Codecs) (b : Bytes) (id : Nat) (l : Spot) (mem : Mem) (i : Nat) (f : TField)
    (hm : mem.Tidy) (hl : l.base < mem.next) (hp : NotPointedAt mem l.base) (hu : (tc.types id).unmarshal = none)
    (hf : (tc.types id).fields[i]? = some f) (ht : f.tag = [45]) :
    (memoryAfter cfg tc cs b (.strct id) l mem).get (l.sub i (tc.types id).fields.length) =
      mem.get (l.sub i (tc.types id).fields.length) := by
  have hk : f.key = none := by unfold TField.key; rw [if_pos ht]
  have no : ∀ k, ¬ FieldNamed (tc.types id).fields k i := by
    rintro k ⟨⟨g, hg, hgk⟩, -⟩
    rw [hf] at hg; cases hg
    rw [hk] at hgk; cases hgk
  refine field_kept cfg tc cs b id l mem i hm hl hp hu (.inr fun buf j hb key _ h => ?_)
  rcases findField_for h with h | ⟨-, h⟩
  · exact no _ h
  · exact no _ h

end Sereal

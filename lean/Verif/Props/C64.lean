import Verif.Props.C58
import Verif.Proof.Sealed
/-
C64: Unmarshal does not change unexported fields.
-/
namespace Sereal

/-- A path from a variable of the type, through fields of structs and elements of arrays, to an unexported field. -/
inductive LeadsToUnexported (tc : TCfg) : Ty → List (Nat × Nat) → Prop
  | here {id i f} : (tc.types id).fields[i]? = some f → f.exported = false →
      LeadsToUnexported tc (.strct id) [(i, (tc.types id).fields.length)]
  | field {id i f p} : (tc.types id).fields[i]? = some f → LeadsToUnexported tc f.ty p →
      LeadsToUnexported tc (.strct id) ((i, (tc.types id).fields.length) :: p)
  | elem {n i e p} : i < n → LeadsToUnexported tc e p → LeadsToUnexported tc (.arr n e) ((i, n) :: p)

/-- Nothing that can be reached from the variable points at it. -/
def NotPointedAt (m : Mem) (a : Nat) : Prop :=
  ∀ b, LeadsTo m a b → ¬ Mentions a (m.vars b) ∧ ∀ k v, (k, v) ∈ m.maps b → ¬ Mentions a v

/-- The full claim: whether `Unmarshal(b, &x)` succeeds or fails, the unexported fields in `x` are as before.  Types with
UnmarshalBinary, which may do what it likes, and pointers to `x` in what `x` leads to are excluded. -/
def UnexportedKept : Prop :=
  ∀ (cfg : DCfg) (tc : TCfg) (cs : Codecs) (b : Bytes) (ty : Ty) (l : Spot) (mem : Mem) (p : List (Nat × Nat)),
    mem.Tidy → l.base < mem.next → NotPointedAt mem l.base → (∀ id, (tc.types id).unmarshal = none) →
    LeadsToUnexported tc ty p →
    (memoryAfter cfg tc cs b ty l mem).get ⟨l.base, l.path ++ p⟩ = mem.get ⟨l.base, l.path ++ p⟩

/-- type T0 struct { A, C T1 };  type T1 struct { X int; y int } -/
def hiddenTypes : TCfg :=
  { noFloats with
    title := id
    types := fun id => if id = 0 then ⟨[⟨[65], [], true, .strct 1⟩, ⟨[67], [], true, .strct 1⟩], none⟩
      else ⟨[⟨[88], [], true, .int .int⟩, ⟨[121], [], false, .int .int⟩], none⟩ }

/-- A variable of type T0: { A: { 1, 2 }, C: { 3, 4 } } -/
def memHidden : Mem where
  vars := fun n => if n = 0 then .multi [.multi [.int 1, .int 2], .multi [.int 3, .int 4]] else .zero
  next := 1

/-- { "A": {}, "C": ALIAS of the value of "A" } -/
def docAlias : Bytes := [0x3d, 0xf3, 0x72, 0x6c, 3, 0, 0x52, 0x61, 65, 0x80 + 0x50, 0x61, 67, 0x2e, 4]

/-- The code does not satisfy it: ALIAS and REFP assign structs as a whole.  Here x.C.y becomes 2, the value of x.A.y. -/
theorem C64_fails :
    (match (memoryAfter {} hiddenTypes noCodecs docAlias (.strct 0) ⟨0, []⟩ memHidden).get ⟨0, [(1, 2), (1, 2)]⟩ with
      | .int i => some i
      | _ => none) = some 2 ∧ ¬ UnexportedKept := by
  have h1 : (match (memoryAfter {} hiddenTypes noCodecs docAlias (.strct 0) ⟨0, []⟩ memHidden).get ⟨0, [(1, 2), (1, 2)]⟩ with
      | .int i => some i
      | _ => none) = some 2 := by decide +kernel
  refine ⟨h1, fun h => ?_⟩
  have ht : memHidden.Tidy := by
    intro b hb
    have hb : 1 ≤ b := hb
    refine ⟨?_, rfl⟩
    simp only [memHidden]
    rw [if_neg (by omega)]
  have hm : ∀ n b, ¬ Mentions n (memHidden.vars b) := by
    intro n b hn
    simp only [memHidden] at hn
    split at hn
    · cases hn with
      | multi h1 h2 =>
        simp only [List.mem_cons, List.not_mem_nil, or_false] at h1
        rcases h1 with rfl | rfl <;> cases h2 with
        | multi h3 h4 =>
          simp only [List.mem_cons, List.not_mem_nil, or_false] at h3
          rcases h3 with rfl | rfl <;> cases h4
    · cases hn
  have hp : NotPointedAt memHidden 0 := fun b _ => ⟨hm 0 b, fun k v hk => by cases hk⟩
  have hx : (memoryAfter {} hiddenTypes noCodecs docAlias (.strct 0) ⟨0, []⟩ memHidden).get ⟨0, [(1, 2), (1, 2)]⟩ =
      memHidden.get ⟨0, [(1, 2), (1, 2)]⟩ :=
    h {} hiddenTypes noCodecs docAlias (.strct 0) ⟨0, []⟩ memHidden [(1, 2), (1, 2)] ht (by decide) hp
      (by intro id; simp only [hiddenTypes]; split <;> rfl)
      (.field (f := ⟨[67], [], true, .strct 1⟩) rfl (.here (f := ⟨[121], [], false, .int .int⟩) rfl rfl))
  rw [hx] at h1
  exact absurd h1 (by decide)

/-- Decoding into a struct does not change a field that is unexported or that no part of the buffer is a key for. -/
theorem field_kept (cfg : DCfg) (tc : TCfg) (cs : Codecs) (b : Bytes) (id : Nat) (l : Spot) (mem : Mem) (i : Nat)
    (hm : mem.Tidy) (hl : l.base < mem.next) (hp : NotPointedAt mem l.base) (hu : (tc.types id).unmarshal = none)
    (hf : (∀ f, (tc.types id).fields[i]? = some f → f.exported = false) ∨ ∀ buf j, bodyOf cs b = .ok (buf, j) →
      ∀ key, key <:+: buf → findField tc (tc.types id).fields key ≠ some i) :
    (memoryAfter cfg tc cs b (.strct id) l mem).get (l.sub i (tc.types id).fields.length) =
      mem.get (l.sub i (tc.types id).fields.length) := by
  let k : Lock := ⟨fun n => n ≠ l.base ∧ (LeadsTo mem l.base n ∨ mem.next ≤ n), l.base, (l.sub i (tc.types id).fields.length).path,
    mem.get (l.sub i (tc.types id).fields.length)⟩
  have h0 : Locked k { d := DState.init, mem := mem } := by
    refine ⟨?_, ?_, (fun _ _ _ h => by cases h), fun b hb => ⟨?_, Or.inr hb⟩, fun h => h.1 rfl, rfl⟩
    · intro b hb n hn
      have hb : LeadsTo mem l.base b ∨ mem.next ≤ b := by
        rcases hb with hb | hb
        · exact hb.2
        · exact Or.inl (hb ▸ .self)
      rcases hb with hb | hb
      · exact ⟨by rintro rfl; exact (hp b hb).1 hn, Or.inl (.var hb hn)⟩
      · rw [(hm b hb).1] at hn; cases hn
    · rintro b ⟨-, hb | hb⟩ key v hk n hn
      · exact ⟨by rintro rfl; exact (hp b hb).2 key v hk hn, Or.inl (.entry hb hk hn)⟩
      · rw [(hm b hb).2] at hk; cases hk
    · have hb : mem.next ≤ b := hb
      omega
  unfold memoryAfter
  cases hb : bodyOf cs b with
  | error e => rfl
  | ok p =>
    obtain ⟨buf, j⟩ := p
    have hh : Hides tc buf k ⟨id, l⟩ i := ⟨rfl, rfl, hf.imp_right fun h => h buf j hb, hu⟩
    exact (Begins.decode (cfg := cfg) (buf := buf) hh _ j _ ⟨h0, fun _ _ _ h => by cases h⟩).1.kept

/-- What holds: the claim for the fields of the struct itself, also if they are tagged with a name that the document uses
(then Unmarshal panics).  Other types may have UnmarshalBinary. -/
theorem C64_partial (cfg : DCfg) (tc : TCfg) (cs : Codecs) (b : Bytes) (id : Nat) (l : Spot) (mem : Mem) (i : Nat) (f : TField)
    (hm : mem.Tidy) (hl : l.base < mem.next) (hp : NotPointedAt mem l.base) (hu : (tc.types id).unmarshal = none)
    (hf : (tc.types id).fields[i]? = some f) (he : f.exported = false) :
    (memoryAfter cfg tc cs b (.strct id) l mem).get (l.sub i (tc.types id).fields.length) =
      mem.get (l.sub i (tc.types id).fields.length) :=
  field_kept cfg tc cs b id l mem i hm hl hp hu (.inl fun g hg => by rw [hf] at hg; cases hg; exact he)

/-- type T struct { X int; y int `sereal:"y"` } -/
def taggedTypes : TCfg :=
  { noFloats with
    title := id
    types := fun _ => ⟨[⟨[88], [], true, .int .int⟩, ⟨[121], [121], false, .int .int⟩], none⟩ }

def memTagged : Mem where
  vars := fun n => if n = 0 then .multi [.int 1, .int 2] else .zero
  next := 1

/-- `C64_partial` applies: { "X": 7, "y": 9 } into a variable { 1, 2 } sets X; y is not set, the call panics there. -/
example : memTagged.Tidy ∧ NotPointedAt memTagged 0 ∧
    (match (memoryAfter {} taggedTypes noCodecs [0x3d, 0xf3, 0x72, 0x6c, 3, 0, 0x52, 0x61, 88, 7, 0x61, 121, 9] (.strct 0) ⟨0, []⟩
      memTagged).vars 0 with
    | .multi [.int a, .int b] => some (a, b)
    | _ => none) = some (7, 2) := by
  refine ⟨?_, fun b _ => ⟨?_, fun k v hk => by cases hk⟩, by decide +kernel⟩
  · intro b hb
    have hb : 1 ≤ b := hb
    refine ⟨?_, rfl⟩
    simp only [memTagged]
    rw [if_neg (by omega)]
  · intro hn
    simp only [memTagged] at hn
    split at hn
    · cases hn with
      | multi h1 h2 =>
        simp only [List.mem_cons, List.not_mem_nil, or_false] at h1
        rcases h1 with rfl | rfl <;> cases h2
    · cases hn

end Sereal

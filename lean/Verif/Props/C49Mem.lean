import Verif.Props.C49
import Verif.Proof.MemSafe
/-
C49 again, for variables in memory (Model/TypedMem): references between typed variables.
-/
namespace Sereal

/-- The runtime error of Go for `m[k] = v` with a nil map. -/
def nilMapError : Exn := .crash "assignment to entry in nil map"

/-- C49 as stated: for every input (with the exceptions of C13_partial), every type, every contents of
memory and every variable, Unmarshal succeeds or returns an error. -/
def TypedNeverCrashes : Prop :=
  ∀ (cfg : DCfg) (tc : TCfg) (cs : Codecs) (b : Bytes) (ty : Ty) (l : Spot) (mem : Mem), SaneHeaderLength b → SaneZlibSize b →
    (∃ h m, unmarshalInto cfg tc cs b ty l mem = .ok (h, m)) ∨ ∃ er, unmarshalInto cfg tc cs b ty l mem = .error (.err er)

/-- What is true of it: the only runtime error that can reach the caller is the one for a nil map. -/
theorem C49_mem_partial (cfg : DCfg) (tc : TCfg) (cs : Codecs) (b : Bytes) (ty : Ty) (l : Spot) (mem : Mem)
    (hsane : SaneHeaderLength b) (hzl : SaneZlibSize b) :
    (∃ h m, unmarshalInto cfg tc cs b ty l mem = .ok (h, m)) ∨ (∃ er, unmarshalInto cfg tc cs b ty l mem = .error (.err er)) ∨
      unmarshalInto cfg tc cs b ty l mem = .error nilMapError := by
  have hT : TySet tc True (fun _ => True) :=
    ⟨fun _ _ => trivial, fun _ _ _ => trivial, fun _ _ => ⟨trivial, trivial⟩, fun _ _ => trivial, fun _ _ _ _ => trivial⟩
  rcases unmarshalInto_safe hT cfg cs b ty l mem trivial hsane hzl with ⟨⟨h, m⟩, hr⟩ | h | ⟨_, h⟩
  · exact .inl ⟨h, m, hr⟩
  · exact .inr (.inl h)
  · exact .inr (.inr h)

/-- Types that no map is in, as far as the type itself shows. -/
def Ty.noMap : Ty → Prop
  | .map _ => False
  | .slice e => e.noMap
  | .arr _ e => e.noMap
  | .ptr e => e.noMap
  | _ => True

/-- And not even that one if there are no maps in the types: neither in that of the variable nor in those
of struct fields. -/
theorem C49_noMaps (cfg : DCfg) (tc : TCfg) (cs : Codecs) (b : Bytes) (ty : Ty) (l : Spot) (mem : Mem)
    (hty : ty.noMap) (htc : ∀ id, ∀ f ∈ (tc.types id).fields, f.ty.noMap)
    (hsane : SaneHeaderLength b) (hzl : SaneZlibSize b) :
    (∃ h m, unmarshalInto cfg tc cs b ty l mem = .ok (h, m)) ∨ ∃ er, unmarshalInto cfg tc cs b ty l mem = .error (.err er) := by
  have hT : TySet tc False Ty.noMap :=
    ⟨fun _ h => h, fun _ _ h => h, fun _ h => h.elim, fun _ h => h, fun id f _ hf => htc id f hf⟩
  rcases unmarshalInto_safe hT cfg cs b ty l mem hty hsane hzl with ⟨⟨h, m⟩, hr⟩ | h | ⟨h, _⟩
  · exact .inl ⟨h, m, hr⟩
  · exact .inr h
  · exact h.elim

/-! ### The runtime error -/

/-- `type N struct { M map[string]*N }`. -/
def mapTypes : TCfg where
  types := fun i => if i = 0 then ⟨[⟨[77], [], true, .map (.ptr (.strct 0))⟩], none⟩ else ⟨[], none⟩
  widen := fun _ => 0
  narrow := fun _ => 0

/-- A document of 23 bytes: `x = {M: {a: x, a: {M: undef}, b: undef}}`.  The reference makes `x.M["a"]` equal to `x`, so
the second value for `a` is decoded into `x` itself and sets `x.M` to nil while the loop over the entries of `x.M` is
running; the loop goes on with `b`. -/
def docNilMap : Bytes :=
  [0x3d, 0xf3, 0x72, 0x6c, 3, 0,
   0xd1, 0x61, 77,                       -- HASHREF_1 (tracked), "M"
     0x53, 0x61, 97, 0x29, 1,            -- HASHREF_3, "a", REFP 1
           0x61, 97, 0x51, 0x61, 77, 0x25,  -- "a", HASHREF_1, "M", UNDEF
           0x61, 98, 0x25]               -- "b", UNDEF

def isNilMapError : Res (Heap × Mem) → Bool
  | .error e => decide (e = nilMapError)
  | _ => false

/-- `var x *N; Unmarshal(docNilMap, &x)` panics with a runtime error. -/
theorem docNilMap_crashes :
    unmarshalInto {} mapTypes noCodecs docNilMap (.ptr (.strct 0)) ⟨0, []⟩ { next := 1 } = .error nilMapError := by
  have h : isNilMapError (unmarshalInto {} mapTypes noCodecs docNilMap (.ptr (.strct 0)) ⟨0, []⟩ { next := 1 }) = true := by
    decide +kernel
  revert h
  generalize unmarshalInto {} mapTypes noCodecs docNilMap (.ptr (.strct 0)) ⟨0, []⟩ { next := 1 } = r
  cases r with
  | ok p => intro h; cases h
  | error e => intro h; rw [of_decide_eq_true h]

theorem docNilMap_sane : SaneHeaderLength docNilMap := by
  intro v r hv hi
  obtain ⟨rfl, rfl⟩ := IsVarint.head (a := 0) (by decide) hv hi
  decide

theorem docNilMap_zlib : SaneZlibSize docNilMap := by
  rintro ⟨t, ht, h3⟩
  cases ht
  exact absurd h3 (by decide)

/-- C49 is violated. -/
theorem C49_fails : ¬ TypedNeverCrashes := by
  intro h
  rcases h {} mapTypes noCodecs docNilMap (.ptr (.strct 0)) ⟨0, []⟩ { next := 1 } docNilMap_sane docNilMap_zlib with
    ⟨_, _, h⟩ | ⟨_, h⟩
  · rw [docNilMap_crashes] at h; cases h
  · rw [docNilMap_crashes] at h; cases h

/-- `type L struct { N *L }`: no maps, so `C49_noMaps` applies. -/
def listTypes : TCfg where
  types := fun i => if i = 0 then ⟨[⟨[78], [], true, .ptr (.strct 0)⟩], none⟩ else ⟨[], none⟩
  widen := fun _ => 0
  narrow := fun _ => 0

/-- `x = {N: x}`. -/
def docLoop : Bytes := [0x3d, 0xf3, 0x72, 0x6c, 3, 0, 0xd1, 0x61, 78, 0x29, 1]

/-- What a variable of type *L points at, and what the field N of that points at. -/
def loopIn : Res (Heap × Mem) → Option (Spot × Spot)
  | .ok (_, m) =>
    match m.get ⟨0, []⟩ with
    | .ptr l => match m.get (l.sub 0 1) with
      | .ptr l' => some (l, l')
      | _ => none
    | _ => none
  | _ => none

/-- A document with a reference in the place of a typed item: the pointer to `x` itself is put into `x`. -/
example : (∀ id, ∀ f ∈ (listTypes.types id).fields, f.ty.noMap) ∧
    loopIn (unmarshalInto {} listTypes noCodecs docLoop (.ptr (.strct 0)) ⟨0, []⟩ { next := 1 }) =
      some (⟨1, []⟩, ⟨1, []⟩) := by
  refine ⟨fun id f hf => ?_, by decide +kernel⟩
  unfold listTypes at hf
  dsimp only at hf
  split at hf
  · simp at hf; subst hf; exact trivial
  · simp at hf

end Sereal

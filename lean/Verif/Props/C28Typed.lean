import Verif.Props.C28
import Verif.Proof.CallMem
import Verif.Props.C42
/-
C28 for calls with typed variables: a Decoder can be reused.
-/
namespace Sereal

/-- The state of a program with a Decoder that has just been created; `h` and `m` are the rest of the program's memory. -/
def newTyped (h : Heap) (m : Mem) : MSt := { d := newDecoder h, mem := m }

/-- States of a program whose Decoder has been used for any number of UnmarshalHeaderBody, UnmarshalHeader and Unmarshal
calls, with any arguments, satisfying `P` (a condition on the outcome of the call), with arbitrary other memory
operations in between. -/
inductive UsedTyped (P : Except Exn Unit → Prop) (cfg : DCfg) (tc : TCfg) (cs : Codecs) : MSt → Prop
  | new (h : Heap) (m : Mem) : UsedTyped P cfg tc cs (newTyped h m)
  | call {s : MSt} (b : Bytes) (vh vb : Dest) : UsedTyped P cfg tc cs s → P (callRaw cfg tc cs b vh vb s).1 →
      UsedTyped P cfg tc cs (call cfg tc cs b vh vb s).2
  | other {s : MSt} (h : Heap) (m : Mem) (st al pk : Nat) : UsedTyped P cfg tc cs s →
      UsedTyped P cfg tc cs { s with d := { s.d with heap := h, steps := st, alloc := al, peak := pk }, mem := m }

/-- The full claim: a used Decoder behaves like a new one. -/
def TypedReusable : Prop :=
  ∀ (cfg : DCfg) (tc : TCfg) (cs : Codecs) (s : MSt), UsedTyped (fun _ => True) cfg tc cs s →
    ∀ b vh vb, (call cfg tc cs b vh vb s).1 = (call cfg tc cs b vh vb (newTyped s.d.heap s.mem)).1

/-- An array of two strings, the second a COPY of the byte 5 in the first: an integer, which does not fit into a Go
string. -/
def docIntInString : Bytes := [0x3d, 0xf3, 0x72, 0x6c, 3, 0, 0x42, 0x61, 5, 0x2f, 3]

/-- The code does not satisfy the full claim: after Unmarshal of `docIntInString` into a []string has returned an
error, the same Decoder rejects the valid document `docCopy` for the same variable, which a new one accepts. -/
theorem C28_typed_fails :
    let s := (call {} noFloats dummyCodecs docIntInString .none (.var (.slice .str) ⟨0, []⟩) (newTyped Heap.init { next := 1 })).2
    (∃ e, (call {} noFloats dummyCodecs docIntInString .none (.var (.slice .str) ⟨0, []⟩) (newTyped Heap.init { next := 1 })).1 =
      .error (.err e)) ∧
    (call {} noFloats dummyCodecs docCopy .none (.var (.slice .str) ⟨0, []⟩) s).1 = .error (.err (.corrupt .nestedCOPY)) ∧
    (call {} noFloats dummyCodecs docCopy .none (.var (.slice .str) ⟨0, []⟩) (newTyped s.d.heap s.mem)).1 = .ok () ∧
    ¬ TypedReusable := by
  have h1 : (match (call {} noFloats dummyCodecs docIntInString .none (.var (.slice .str) ⟨0, []⟩) (newTyped Heap.init { next := 1 })).1 with
    | .error (.err (.msg _)) => true
    | _ => false) = true := by decide +kernel
  refine ⟨?_, by decide +kernel, by decide +kernel, fun h => ?_⟩
  · split at h1
    · next heq => exact ⟨_, heq⟩
    · cases h1
  have := h {} noFloats dummyCodecs _ (UsedTyped.call docIntInString .none (.var (.slice .str) ⟨0, []⟩)
    (UsedTyped.new Heap.init { next := 1 }) trivial) docCopy .none (.var (.slice .str) ⟨0, []⟩)
  revert this
  decide +kernel

/-- What holds: as long as no earlier call panicked internally, the Decoder is exactly a new Decoder: every later call,
into whatever variables, has the same outcome and the same effect on memory.  Missing from the full claim: calls that
recovered a panic raised while expanding a COPY tag, which leave copyDepth at 1. -/
theorem C28_typed_partial (cfg : DCfg) (tc : TCfg) (cs : Codecs) (s : MSt) (h : UsedTyped Returned cfg tc cs s) :
    s.d.tracked = (newDecoder s.d.heap).tracked ∧ s.typed = (newTyped s.d.heap s.mem).typed ∧
    s.d.copyDepth = (newDecoder s.d.heap).copyDepth ∧
    ∀ b vh vb, s.d.steps = 0 ∧ s.d.alloc = 0 ∧ s.d.peak = 0 →
      call cfg tc cs b vh vb s = call cfg tc cs b vh vb (newTyped s.d.heap s.mem) := by
  have key : Rested s ∧ s.d.copyDepth = 0 := by
    induction h with
    | new h m => exact ⟨⟨fun _ => rfl, fun _ => rfl⟩, rfl⟩
    | call b vh vb hu hP ih =>
      exact ⟨Rests.callRaw cfg tc cs b vh vb _ ih.1, (KeepsM.callRaw cfg tc cs b vh vb _ hP).trans ih.2⟩
    | other h m st al pk hu ih => exact ih
  have h1 : s.d.tracked = fun _ => none := funext key.1.1
  have h2 : s.typed = fun _ => none := funext key.1.2
  refine ⟨h1, h2, key.2, fun b vh vb h0 => ?_⟩
  have : s = newTyped s.d.heap s.mem := by
    obtain ⟨h3, h4, h5⟩ := h0
    have h6 := key.2
    rcases s with ⟨⟨_, _, _, _, _, _⟩, _, _⟩
    simp only [newTyped, newDecoder] at *
    simp_all
  rw [← this]

/-- Non-vacuity: a Decoder that has rejected a truncated document and then filled a []string. -/
example : ∃ s, UsedTyped Returned {} noFloats dummyCodecs s ∧ s.mem.next = 2 ∧ s.d.copyDepth = 0 := by
  refine ⟨_, UsedTyped.call docCopy .none (.var (.slice .str) ⟨0, []⟩) (UsedTyped.call (docCopy.take 9) .none
    (.var (.slice .str) ⟨0, []⟩) (UsedTyped.new Heap.init { next := 1 }) ?_) ?_, ?_, ?_⟩
  · intro e he
    have : (callRaw {} noFloats dummyCodecs (docCopy.take 9) .none (.var (.slice .str) ⟨0, []⟩) (newTyped Heap.init { next := 1 })).1 =
        .error (.err .truncated) := by
      decide +kernel
    rw [this] at he; exact ⟨_, (Except.error.inj he).symm⟩
  · intro e he
    have : (callRaw {} noFloats dummyCodecs docCopy .none (.var (.slice .str) ⟨0, []⟩) (call {} noFloats dummyCodecs (docCopy.take 9) .none
        (.var (.slice .str) ⟨0, []⟩) (newTyped Heap.init { next := 1 })).2).1 = .ok () := by
      decide +kernel
    rw [this] at he; cases he
  · decide +kernel
  · decide +kernel

end Sereal

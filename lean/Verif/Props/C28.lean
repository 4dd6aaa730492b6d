import Verif.Proof.Header
import Verif.Proof.Depth
/-
C28: a Decoder can be reused.
-/
namespace Sereal

/-- The state of a program with a Decoder that has just been created; `h` is the rest of the
program's memory. -/
def newDecoder (h : Heap) : DState := { heap := h, tracked := fun _ => none, copyDepth := 0 }

/-- States of a program whose Decoder has been used for any number of UnmarshalHeaderBody calls
satisfying `P` (a condition on the outcome of the call), with arbitrary other memory operations in
between. -/
inductive Used (P : Except Exn Unit → Prop) (cfg : DCfg) (cs : Codecs) : DState → Prop
  | new (h : Heap) : Used P cfg cs (newDecoder h)
  | call {s : DState} (b : Bytes) (vh vb : Option Loc) : Used P cfg cs s →
      P (unmarshalRaw cfg cs b vh vb s).1 →
      Used P cfg cs (unmarshalHeaderBody cfg cs b vh vb s).2
  | other {s : DState} (h : Heap) (st al pk : Nat) : Used P cfg cs s →
      Used P cfg cs { s with heap := h, steps := st, alloc := al, peak := pk }

/-- The full claim: a used Decoder behaves like a new one. -/
def DecoderReusable : Prop :=
  ∀ (cfg : DCfg) (cs : Codecs) (s : DState), Used (fun _ => True) cfg cs s →
    ∀ b vh vb, (unmarshalHeaderBody cfg cs b vh vb s).1 =
      (unmarshalHeaderBody cfg cs b vh vb (newDecoder s.heap)).1

/-- An array holding a string and a COPY of an array hidden inside that string; the hidden array is
[undef, reference to that undef], and decoding it panics inside package reflect. -/
def docPanicInCopy : Bytes := [0x3d, 0xf3, 0x72, 0x6c, 3, 0, 0x42, 0x64, 0x42, 0xa5, 0x29, 4, 0x2f, 3]
/-- ["a", COPY of "a"]. -/
def docCopy : Bytes := [0x3d, 0xf3, 0x72, 0x6c, 3, 0, 0x42, 0x61, 0x61, 0x2f, 2]

def dummyCodecs : Codecs :=
  ⟨fun _ => .ok [], fun _ => .ok [], fun _ _ => .ok [], fun _ => .ok (), fun _ => .ok [],
    fun _ _ => .ok [], fun _ => .ok []⟩

/-- The code does not satisfy the full claim: after Unmarshal of `docPanicInCopy` has returned an
error, the same Decoder rejects the valid document `docCopy`, which a new one accepts. -/
theorem C28_fails :
    let s := (unmarshalHeaderBody {} dummyCodecs docPanicInCopy none (some (.cell 1)) DState.init).2
    let s2 := { s with heap := (s.heap.alloc (.cell .nil)).2 }
    (∃ e, (unmarshalHeaderBody {} dummyCodecs docPanicInCopy none (some (.cell 1)) DState.init).1 =
      .error (.err e)) ∧
    (unmarshalHeaderBody {} dummyCodecs docCopy none (some (.cell s.heap.next)) s2).1 =
      .error (.err (.corrupt .nestedCOPY)) ∧
    (unmarshalHeaderBody {} dummyCodecs docCopy none (some (.cell s.heap.next)) (newDecoder s2.heap)).1 =
      .ok () ∧
    ¬ DecoderReusable := by
  have h1 : (unmarshalHeaderBody {} dummyCodecs docPanicInCopy none (some (.cell 1)) DState.init).1 =
      .error (.err (.msg "reflect: call of method on zero Value")) := by decide +kernel
  refine ⟨⟨_, h1⟩, by decide +kernel, by decide +kernel, fun h => ?_⟩
  let s := (unmarshalHeaderBody {} dummyCodecs docPanicInCopy none (some (.cell 1)) DState.init).2
  have hu : Used (fun _ => True) {} dummyCodecs { s with heap := (s.heap.alloc (.cell .nil)).2 } :=
    .other _ s.steps s.alloc s.peak (.call _ _ _ (.new _) trivial)
  have := h {} dummyCodecs _ hu docCopy none (some (.cell s.heap.next))
  revert this
  decide +kernel

/-- Every decode call leaves `tracked` empty, whatever the outcome. -/
def Clean (x : D α) : Prop := ∀ s, (∀ i, s.tracked i = none) → ∀ i, (x s).2.tracked i = none

theorem Clean.bind {x : D α} {f : α → D β} (hx : Clean x) (hf : ∀ a, Clean (f a)) : Clean (x >>= f) := by
  intro s hs
  have h1 := hx s hs
  rw [D.bind_apply]
  split
  · rename_i a s1 he
    rw [he] at h1
    exact hf a s1 h1
  · rename_i e s1 he
    rw [he] at h1
    exact h1

theorem Clean.lift (r : Res α) : Clean (D.lift r) := fun _ h => h
theorem Clean.pure (a : α) : Clean (Pure.pure a : D α) := fun _ h => h
theorem Clean.failIf (c : Prop) [Decidable c] (e : Exn) : Clean (D.failIf c e) := by
  unfold D.failIf; split <;> exact fun _ h => h
theorem Clean.byteAt (b : Bytes) (i : Nat) : Clean (Sereal.byteAt b i) := by
  unfold Sereal.byteAt; split <;> exact fun _ h => h
theorem Clean.withTracked (x : D α) : Clean (Sereal.withTracked x) := fun _ _ _ => rfl
theorem Clean.ite {c : Prop} [Decidable c] {x y : D α} (h1 : Clean x) (h2 : Clean y) :
    Clean (if c then x else y) := by
  split
  · exact h1
  · exact h2

theorem unmarshalRaw_clean (cfg : DCfg) (cs : Codecs) (b : Bytes) (vh vb : Option Loc) :
    Clean (unmarshalRaw cfg cs b vh vb) := by
  rw [unmarshalRaw_eq]; unfold unmarshalRaw'
  refine Clean.bind (Clean.lift _) fun hd => Clean.bind (Clean.lift _) fun dc =>
    Clean.bind (Clean.failIf _ _) fun _ => ?_
  have body : ∀ n : Nat, Clean (match vb with
        | some ptr => do
          let b ← match dc with
            | some c => do
              let decompBody ← D.lift (decompress cs c (b.drop n))
              Pure.pure (b.take n ++ decompBody)
            | none => Pure.pure b
          if hd.version = 1 then
            let _ ← Sereal.withTracked (decode cfg b (fuelFor b.length) n ptr)
          else
            D.failIf (n = 0) (.crash "slice bounds out of range")
            let by_ := b.drop (n - 1)
            let _ ← Sereal.withTracked (decode cfg by_ (fuelFor by_.length) 1 ptr)
        | none => Pure.pure ()) := by
    intro n
    cases vb with
    | none => exact Clean.pure _
    | some ptr =>
      have fin : ∀ b' : Bytes, Clean (if hd.version = 1 then do
            let _ ← Sereal.withTracked (decode cfg b' (fuelFor b'.length) n ptr)
            Pure.pure ()
          else do
            D.failIf (n = 0) (.crash "slice bounds out of range")
            let by_ := b'.drop (n - 1)
            let _ ← Sereal.withTracked (decode cfg by_ (fuelFor by_.length) 1 ptr)
            Pure.pure ()) := fun b' =>
        Clean.ite (Clean.bind (Clean.withTracked _) fun _ => Clean.pure _)
          (Clean.bind (Clean.failIf _ _) fun _ => Clean.bind (Clean.withTracked _) fun _ => Clean.pure _)
      cases dc with
      | none => exact Clean.bind (Clean.pure _) fun _ => fin _
      | some c => exact Clean.bind (Clean.lift _) fun _ => Clean.bind (Clean.pure _) fun _ => fin _
  cases vh with
  | none => exact body _
  | some ptr =>
    dsimp only
    exact Clean.ite (Clean.bind (Clean.byteAt _ _) fun _ => Clean.ite
      (Clean.bind (Clean.withTracked _) fun _ => body _) (body _)) (body _)

/-- What holds: as long as no earlier call panicked internally (that is, each returned nil or an error
that was not produced by recovering a panic), the Decoder is exactly a new Decoder: every later call
has the same outcome and the same effect on memory.  Missing from the full claim: calls that
recovered a panic raised while expanding a COPY tag, which leave copyDepth at 1. -/
theorem C28_partial (cfg : DCfg) (cs : Codecs) (s : DState) (h : Used Returned cfg cs s) :
    s.tracked = (newDecoder s.heap).tracked ∧ s.copyDepth = (newDecoder s.heap).copyDepth ∧
    ∀ b vh vb, s.steps = 0 ∧ s.alloc = 0 ∧ s.peak = 0 →
      unmarshalHeaderBody cfg cs b vh vb s = unmarshalHeaderBody cfg cs b vh vb (newDecoder s.heap) := by
  have key : (∀ i, s.tracked i = none) ∧ s.copyDepth = 0 := by
    induction h with
    | new h => exact ⟨fun _ => rfl, rfl⟩
    | call b vh vb hu hP ih =>
      obtain ⟨h1, h2⟩ := ih
      exact ⟨unmarshalRaw_clean cfg cs b vh vb _ h1,
        (unmarshalRaw_keeps cfg cs b vh vb _ hP).trans h2⟩
    | other h st al pk hu ih => exact ih
  have ht : s.tracked = fun _ => none := funext key.1
  refine ⟨ht, key.2, fun b vh vb h0 => ?_⟩
  have : s = newDecoder s.heap := by
    obtain ⟨h1, h2, h3⟩ := h0
    cases s
    simp only [newDecoder] at *
    simp_all
  rw [← this]

/-- Non-vacuity: a Decoder that has rejected a truncated document and then accepted `docCopy`. -/
example : ∃ s, Used Returned {} dummyCodecs s ∧ s.heap.next = 4 ∧
    (unmarshalHeaderBody {} dummyCodecs docCopy none (some (.cell 1)) DState.init).1 = .ok () := by
  refine ⟨_, Used.call docCopy none (some (.cell 1)) (Used.call (docCopy.take 5) none none
    (Used.new DState.init.heap) ?_) ?_, ?_, by decide +kernel⟩
  · intro e he
    have : (unmarshalRaw {} dummyCodecs (docCopy.take 5) none none (newDecoder DState.init.heap)).1 =
        .error (.err .badHeader) := by
      decide +kernel
    rw [this] at he; exact ⟨_, (Except.error.inj he).symm⟩
  · intro e he
    have : (unmarshalRaw {} dummyCodecs docCopy none (some (.cell 1)) (unmarshalHeaderBody {} dummyCodecs
      (docCopy.take 5) none none (newDecoder DState.init.heap)).2).1 = .ok () := by
      decide +kernel
    rw [this] at he; cases he
  · decide +kernel

end Sereal

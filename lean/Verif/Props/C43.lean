import Verif.Model.TagsCache
/-
C43: Concurrent package-level Marshal.

Marshal uses the shared `defaultEncoder` (encode.go:65-70), whose tag cache has no lock.
-/
namespace Sereal

/-- Two accesses that must not happen at the same time. -/
def Access.conflict : Access → Access → Prop
  | .field w, .field w' => w = true ∨ w' = true
  | .map p w, .map q w' => p = q ∧ (w = true ∨ w' = true)
  | _, _ => False

/-- Two different goroutines are about to make conflicting accesses. -/
def World.race (w : World) : Prop :=
  ∃ (i j : Nat) (pc pc' : PC) (a a' : Access), i ≠ j ∧ w.pcs[i]? = some pc ∧ w.pcs[j]? = some pc' ∧
    pc.access = some a ∧ pc'.access = some a' ∧ a.conflict a'

/-- Every goroutine that has got a field map has got the one of its type. -/
def World.right (decls : Nat → List FieldDecl) (w : World) : Prop :=
  ∀ t m, PC.done t m ∈ w.pcs → m = indexTags (decls t) 0 []

/-- The full claim. -/
def ConcurrentMarshal : Prop :=
  ∀ (decls : Nat → List FieldDecl) (ts : List Nat) (w : World), Reaches decls (World.start ts) w →
    w.right decls ∧ ¬ w.race

/-! ### Each goroutine gets the map of its own type -/

def PC.Ok (decls : Nat → List FieldDecl) : PC → Prop
  | .reload t m | .store t _ m | .done t m => m = indexTags (decls t) 0 []
  | _ => True

structure World.Ok (decls : Nat → List FieldDecl) (w : World) : Prop where
  maps : ∀ p t m, w.shared.maps p t = some m → m = indexTags (decls t) 0 []
  pcs : ∀ pc ∈ w.pcs, pc.Ok decls

theorem GStep.ok {decls : Nat → List FieldDecl} {s s' : Shared} {pc pc' : PC} (h : GStep decls s pc s' pc')
    (hm : ∀ p t m, s.maps p t = some m → m = indexTags (decls t) 0 []) (hpc : pc.Ok decls) :
    (∀ p t m, s'.maps p t = some m → m = indexTags (decls t) 0 []) ∧ pc'.Ok decls := by
  cases h with
  | isNil _ => exact ⟨hm, trivial⟩
  | notNil _ => exact ⟨hm, trivial⟩
  | init => exact ⟨hm, trivial⟩
  | load _ => exact ⟨hm, trivial⟩
  | hit h => exact ⟨hm, hm _ _ _ h⟩
  | miss _ => exact ⟨hm, rfl⟩
  | reload _ => exact ⟨hm, hpc⟩
  | store =>
    refine ⟨?_, hpc⟩
    intro q t' m' h
    dsimp only at h
    split at h
    · unfold CMap.insert at h
      split at h
      · rename_i he
        cases h
        rw [he]; exact hpc
      · exact hm _ _ _ h
    · exact hm _ _ _ h
  | again => exact ⟨hm, trivial⟩

theorem Reaches.ok {decls : Nat → List FieldDecl} {w w' : World} (h : Reaches decls w w') (hw : w.Ok decls) :
    w'.Ok decls := by
  induction h with
  | refl => exact hw
  | tail _ hs ih =>
    cases hs with
    | @step s s' pre pc pc' post hg =>
      obtain ⟨h1, h2⟩ := hg.ok ih.maps (ih.pcs pc (by simp))
      refine ⟨h1, fun x hx => ?_⟩
      rcases List.mem_append.1 hx with hx | hx
      · exact ih.pcs x (by simp [hx])
      · rcases List.mem_cons.1 hx with rfl | hx
        · exact h2
        · exact ih.pcs x (by simp [hx])

/-- C43, first half: for every interleaving of any number of goroutines, each of them calling Get any
number of times, every field map used is that of its own type.  Missing from the full claim: freedom
from data races, which does not hold (`C43_fails`); because of the races, the Go runtime may also stop
the program ("concurrent map writes"), which this result (with atomic map operations) does not show. -/
theorem C43_partial (decls : Nat → List FieldDecl) (ts : List Nat) (w : World)
    (h : Reaches decls (World.start ts) w) : w.right decls := by
  have h0 : (World.start ts).Ok decls := by
    refine ⟨fun p t m h => (by cases h), fun pc hpc => ?_⟩
    obtain ⟨t, _, rfl⟩ := List.mem_map.1 hpc
    trivial
  intro t m hm
  exact (h.ok h0).pcs _ hm

/-! ### The race -/

theorem Reaches.step0 {decls : Nat → List FieldDecl} {w : World} {s s' : Shared} {pc pc' x : PC}
    (h : Reaches decls w ⟨s, [pc, x]⟩) (hg : GStep decls s pc s' pc') : Reaches decls w ⟨s', [pc', x]⟩ :=
  .tail h (.step (pre := []) hg)

theorem Reaches.step1 {decls : Nat → List FieldDecl} {w : World} {s s' : Shared} {pc pc' x : PC}
    (h : Reaches decls w ⟨s, [x, pc]⟩) (hg : GStep decls s pc s' pc') : Reaches decls w ⟨s', [x, pc']⟩ :=
  .tail h (.step (pre := [x]) hg)

/-- Two goroutines marshalling structs of two types reach a point where both are about to assign to the
same map ("fatal error: concurrent map writes"). -/
theorem C43_race (decls : Nat → List FieldDecl) :
    ∃ s m m', Reaches decls (World.start [0, 1]) ⟨s, [.store 0 0 m, .store 1 0 m']⟩ := by
  have h0 : Reaches decls (World.start [0, 1]) ⟨⟨none, fun _ _ => none, 0⟩, [.readField 0, .readField 1]⟩ := .refl
  have h1 := h0.step0 (.isNil rfl)
  have h2 := h1.step0 .init
  have h3 := h2.step0 (.load rfl)
  have h4 := h3.step0 (.miss rfl)
  have h5 := h4.step0 (.reload rfl)
  have h6 := h5.step1 (.notNil rfl)
  have h7 := h6.step1 (.load rfl)
  have h8 := h7.step1 (.miss rfl)
  exact ⟨_, _, _, h8.step1 (.reload rfl)⟩

theorem C43_fails : ¬ ConcurrentMarshal := by
  intro h
  obtain ⟨s, m, m', hr⟩ := C43_race (fun _ => [])
  exact (h _ _ _ hr).2 ⟨0, 1, _, _, _, _, by decide, rfl, rfl, rfl, rfl, rfl, .inl rfl⟩

/-- `C43_partial` applies to finished goroutines too: one goroutine running alone ends with its map. -/
example : ∃ s, Reaches (fun _ => [⟨[65], [], true⟩]) (World.start [7]) ⟨s, [.done 7 [([65], 0)]]⟩ := by
  have h0 : Reaches (fun _ => [⟨[65], [], true⟩]) (World.start [7])
      ⟨⟨none, fun _ _ => none, 0⟩, [.readField 7]⟩ := .refl
  have h1 := Reaches.tail h0 (.step (pre := []) (.isNil rfl))
  have h2 := Reaches.tail h1 (.step (pre := []) .init)
  have h3 := Reaches.tail h2 (.step (pre := []) (.load rfl))
  have h4 := Reaches.tail h3 (.step (pre := []) (.miss rfl))
  have h5 := Reaches.tail h4 (.step (pre := []) (.reload rfl))
  exact ⟨_, Reaches.tail h5 (.step (pre := []) .store)⟩

/-- With a single goroutine there is no race. -/
theorem single_goroutine (decls : Nat → List FieldDecl) (t : Nat) (w : World)
    (h : Reaches decls (World.start [t]) w) : ¬ w.race := by
  have hl : w.pcs.length = 1 := by
    have key : ∀ w0 w, Reaches decls w0 w → w.pcs.length = w0.pcs.length := by
      intro w0 w h
      induction h with
      | refl => rfl
      | tail _ hst ih =>
        cases hst with
        | step _ => simpa using ih
    exact key _ _ h
  rintro ⟨i, j, pc, pc', a, a', hne, hi, hj, _⟩
  have h1 := (List.getElem?_eq_some_iff.1 hi).1
  have h2 := (List.getElem?_eq_some_iff.1 hj).1
  omega

end Sereal

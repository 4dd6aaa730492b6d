import Verif.Props.C49Mem
import Verif.Proof.Fence
/-
C58: Unmarshal into a variable touches only what can be reached from it.
-/
namespace Sereal

/-- The memory that `unmarshalInto` returns. -/
theorem unmarshalInto_memory {cfg : DCfg} {tc : TCfg} {cs : Codecs} {b : Bytes} {ty : Ty} {l : Spot} {mem m : Mem} {h : Heap}
    (hu : unmarshalInto cfg tc cs b ty l mem = .ok (h, m)) : memoryAfter cfg tc cs b ty l mem = m := by
  unfold unmarshalInto at hu
  unfold memoryAfter
  cases hb : bodyOf cs b with
  | error e => rw [hb] at hu; cases hu
  | ok p =>
    obtain ⟨buf, i⟩ := p
    rw [hb] at hu
    dsimp only at hu ⊢
    split at hu
    · next heq => rw [heq]; cases hu; rfl
    · cases hu
    · cases hu

theorem after_fence (cfg : DCfg) (tc : TCfg) (cs : Codecs) (b : Bytes) (ty : Ty) (l : Spot) (mem : Mem) (hm : mem.Tidy) :
    ∃ d typed, Fence (fun n => LeadsTo mem l.base n ∨ mem.next ≤ n) mem
      { d := d, mem := memoryAfter cfg tc cs b ty l mem, typed := typed } := by
  have h0 : Fence (fun n => LeadsTo mem l.base n ∨ mem.next ≤ n) mem { d := DState.init, mem := mem } := by
    refine ⟨?_, ?_, (fun _ _ _ h => by cases h), fun b hb => Or.inr hb, fun _ _ => rfl, fun _ _ => rfl⟩
    · rintro b (h | h) n hn
      · exact Or.inl (.var h hn)
      · rw [(hm b h).1] at hn; cases hn
    · rintro b (h | h) k v hk n hn
      · exact Or.inl (.entry h hk hn)
      · rw [(hm b h).2] at hk; cases hk
  unfold memoryAfter
  cases hb : bodyOf cs b with
  | error e => exact ⟨_, _, h0⟩
  | ok p =>
    obtain ⟨buf, i⟩ := p
    have ht : Target.Inside (fun n => LeadsTo mem l.base n ∨ mem.next ≤ n) { ty := ty, place := .var l } :=
      show LeadsTo mem l.base l.base ∨ _ from Or.inl .self
    exact ⟨_, _, (Fenced.decode cfg tc buf _ i _ ht _ h0).1⟩

/-- C58.  For every input, every type and every contents of memory: whether `Unmarshal(b, &x)` succeeds or fails, all
variables and maps that cannot be reached from `x` through pointers, slices, maps and interfaces are as before. -/
theorem C58 (cfg : DCfg) (tc : TCfg) (cs : Codecs) (b : Bytes) (ty : Ty) (l : Spot) (mem : Mem) (hm : mem.Tidy) (n : Nat)
    (hn : n < mem.next) (hr : ¬ LeadsTo mem l.base n) :
    (memoryAfter cfg tc cs b ty l mem).vars n = mem.vars n ∧ (memoryAfter cfg tc cs b ty l mem).maps n = mem.maps n := by
  obtain ⟨d, typed, h⟩ := after_fence cfg tc cs b ty l mem hm
  have : ¬ (LeadsTo mem l.base n ∨ mem.next ≤ n) := by
    rintro (h | h)
    · exact hr h
    · omega
  exact ⟨h.outVars n this, h.outMaps n this⟩

/-- And afterwards `x` leads only to what it led to before and to new variables. -/
theorem C58_leads (cfg : DCfg) (tc : TCfg) (cs : Codecs) (b : Bytes) (ty : Ty) (l : Spot) (mem : Mem) (hm : mem.Tidy) (n : Nat)
    (hn : LeadsTo (memoryAfter cfg tc cs b ty l mem) l.base n) : LeadsTo mem l.base n ∨ mem.next ≤ n := by
  obtain ⟨d, typed, h⟩ := after_fence cfg tc cs b ty l mem hm
  induction hn with
  | self => exact Or.inl .self
  | var _ h1 ih => exact h.vars _ ih _ h1
  | entry _ h1 h2 ih => exact h.maps _ ih _ _ h1 _ h2

/-! ### Example -/

/-- Variable 0 is a pointer to the struct in variable 1; variable 2 is another struct, with a pointer to variable 1;
variable 3 is a pointer to variable 2. -/
def memFour : Mem where
  vars := fun n =>
    if n = 0 then .ptr ⟨1, []⟩
    else if n = 1 then .multi [.int 5, .str [104]]
    else if n = 2 then .multi [.int 6, .ptr ⟨1, []⟩]
    else if n = 3 then .ptr ⟨2, []⟩ else .zero
  next := 4

theorem memFour_tidy : memFour.Tidy := by
  intro b hb
  have hb : 4 ≤ b := hb
  refine ⟨?_, rfl⟩
  simp only [memFour]
  rw [if_neg (by omega), if_neg (by omega), if_neg (by omega), if_neg (by omega)]

/-- Non-vacuity: variable 2 cannot be reached from variable 0 and is not changed, variable 1 is. -/
example : ¬ LeadsTo memFour 0 2 ∧
    (match (memoryAfter {} pairTypes noCodecs docXZ (.ptr (.strct 0)) ⟨0, []⟩ memFour).vars 1,
        (memoryAfter {} pairTypes noCodecs docXZ (.ptr (.strct 0)) ⟨0, []⟩ memFour).vars 2 with
      | .multi [.int a, _], .multi [.int b, _] => some (a, b)
      | _, _ => none) = some (7, 6) := by
  constructor
  · intro h
    have key : ∀ n, LeadsTo memFour 0 n → n = 0 ∨ n = 1 := by
      intro n hn
      induction hn with
      | self => exact Or.inl rfl
      | var _ h1 ih =>
        rcases ih with rfl | rfl
        · cases h1 with
          | ptr h => exact Or.inr h.symm
        · cases h1 with
          | multi h2 h3 =>
            rcases List.mem_cons.1 h2 with rfl | h2
            · cases h3
            · rcases List.mem_cons.1 h2 with rfl | h2
              · cases h3
              · cases h2
      | entry _ h1 => cases h1
    rcases key 2 h with h | h <;> cases h
  · decide +kernel

end Sereal

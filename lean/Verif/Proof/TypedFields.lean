import Verif.Proof.SoundLoops
import Verif.Spec.Typed
/-
The field a key belongs to.
-/
namespace Sereal

theorem fieldIndex_cons (f : TField) (rest : List TField) (n : Nat) (m : List (Bytes × Nat)) :
    fieldIndex (f :: rest) n m =
      fieldIndex rest (n + 1) (match f.key with | none => m | some k => mapInsert k n m) := by
  rw [fieldIndex]
  unfold TField.key
  by_cases h1 : f.tag = [45]
  · rw [if_pos h1, if_pos h1]
  · rw [if_neg h1, if_neg h1]
    by_cases h2 : f.tag = []
    · cases h3 : f.exported <;> simp [h2]
    · rw [if_neg h2, if_pos h2]

theorem fieldIndex_none {fs : List TField} {k : Bytes} (h : ∀ f ∈ fs, f.key ≠ some k) (n : Nat)
    (m : List (Bytes × Nat)) : mapLookup k (fieldIndex fs n m) = mapLookup k m := by
  induction fs generalizing n m with
  | nil => rfl
  | cons f rest ih =>
    rw [fieldIndex_cons, ih (fun f hf => h f (List.mem_cons_of_mem _ hf))]
    have := h f (List.mem_cons_self ..)
    cases hk : f.key with
    | none => rfl
    | some k' =>
      dsimp only
      rw [mapLookup_insert, if_neg (by rintro rfl; exact this hk)]

theorem fieldIndex_some {fs : List TField} {k : Bytes} {i : Nat} (h : FieldNamed fs k i) (n : Nat)
    (m : List (Bytes × Nat)) : mapLookup k (fieldIndex fs n m) = some (n + i) := by
  induction fs generalizing n m i with
  | nil => obtain ⟨⟨f, hf, -⟩, -⟩ := h; simp at hf
  | cons f rest ih =>
    rw [fieldIndex_cons]
    obtain ⟨⟨f', hf, hk⟩, h2⟩ := h
    cases i with
    | zero =>
      simp only [List.getElem?_cons_zero, Option.some.injEq] at hf
      subst hf
      rw [hk, fieldIndex_none]
      · dsimp only; rw [mapLookup_insert, if_pos rfl]; rfl
      · intro g hg
        obtain ⟨j, hj⟩ := List.getElem?_of_mem hg
        exact h2 (j + 1) g (by omega) (by simpa using hj)
    | succ i =>
      rw [ih (i := i) ⟨⟨f', by simpa using hf, hk⟩, fun j g hj hg => h2 (j + 1) g (by omega) (by simpa using hg)⟩]
      congr 1; omega

theorem fieldNamed_or {fs : List TField} (k : Bytes) : (∃ i, FieldNamed fs k i) ∨ ∀ f ∈ fs, f.key ≠ some k := by
  induction fs with
  | nil => exact Or.inr (by simp)
  | cons f rest ih =>
    rcases ih with ⟨i, ⟨g, hg, hk⟩, h2⟩ | h
    · refine Or.inl ⟨i + 1, ⟨g, by simpa using hg, hk⟩, ?_⟩
      intro j g' hj hg'
      cases j with
      | zero => omega
      | succ j => exact h2 j g' (by omega) (by simpa using hg')
    · by_cases hk : f.key = some k
      · refine Or.inl ⟨0, ⟨f, rfl, hk⟩, ?_⟩
        intro j g' hj hg'
        cases j with
        | zero => omega
        | succ j => exact h g' (List.mem_of_getElem? (by simpa using hg'))
      · refine Or.inr ?_
        intro g hg
        rcases List.mem_cons.1 hg with rfl | hg
        · exact hk
        · exact h g hg

theorem findField_some {tc : TCfg} {fs : List TField} {k : Bytes} {i : Nat} (h : FieldFor tc fs k i) :
    findField tc fs k = some i := by
  unfold findField
  rcases h with h | ⟨h1, h2⟩
  · rw [fieldIndex_some h]; simp
  · rw [fieldIndex_none h1]
    show mapLookup (tc.title k) (fieldIndex fs 0 []) = some i
    rw [fieldIndex_some h2]; simp

theorem findField_none {tc : TCfg} {fs : List TField} {k : Bytes} (h : ∀ i, ¬ FieldFor tc fs k i) :
    findField tc fs k = none := by
  have h1 : ∀ f ∈ fs, f.key ≠ some k := by
    rcases fieldNamed_or (fs := fs) k with ⟨i, hi⟩ | h1
    · exact absurd (Or.inl hi) (h i)
    · exact h1
  have h2 : ∀ f ∈ fs, f.key ≠ some (tc.title k) := by
    rcases fieldNamed_or (fs := fs) (tc.title k) with ⟨i, hi⟩ | h2
    · exact absurd (Or.inr ⟨h1, hi⟩) (h i)
    · exact h2
  unfold findField
  rw [fieldIndex_none h1]
  show mapLookup (tc.title k) (fieldIndex fs 0 []) = none
  rw [fieldIndex_none h2]; rfl

theorem fieldFor_or (tc : TCfg) (fs : List TField) (k : Bytes) :
    (∃ i, FieldFor tc fs k i) ∨ ∀ i, ¬ FieldFor tc fs k i := by
  by_cases h : ∃ i, FieldFor tc fs k i
  · exact Or.inl h
  · exact Or.inr (fun i hi => h ⟨i, hi⟩)

theorem FieldFor.field {tc : TCfg} {fs : List TField} {k : Bytes} {i : Nat} (h : FieldFor tc fs k i) :
    ∃ f, fs[i]? = some f := by
  rcases h with ⟨⟨f, hf, -⟩, -⟩ | ⟨-, ⟨f, hf, -⟩, -⟩ <;> exact ⟨f, hf⟩

theorem FieldFor.unique {tc : TCfg} {fs : List TField} {k : Bytes} {i i' : Nat} (h : FieldFor tc fs k i)
    (h' : FieldFor tc fs k i') : i = i' := by
  have := findField_some h
  rw [findField_some h'] at this
  exact (Option.some.inj this).symm

end Sereal

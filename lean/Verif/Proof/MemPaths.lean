import Verif.Spec.Graph
/-
Reading and writing parts of variables.
-/
namespace Sereal

theorem MVal.parts_length (n : Nat) (v : MVal) : (v.parts n).length = n := by
  unfold MVal.parts; split <;> simp

/-- Part `i` of `n`. -/
theorem MVal.part_multi {vs : List MVal} {n i : Nat} (hi : i < n) : ((MVal.multi vs).parts n).getD i .zero = vs.getD i .zero := by
  unfold MVal.parts
  simp only [List.getD_eq_getElem?_getD, List.getElem?_map, List.getElem?_range hi, Option.map_some, Option.getD_some]

theorem MVal.part_zero (n i : Nat) : (MVal.zero.parts n).getD i .zero = .zero := by
  unfold MVal.parts
  rw [List.getD_eq_getElem?_getD, List.getElem?_replicate]
  split <;> rfl

theorem MVal.get_append (v : MVal) (p q : List (Nat × Nat)) : v.get (p ++ q) = (v.get p).get q := by
  induction p generalizing v with
  | nil => cases v <;> rfl
  | cons x p ih =>
    obtain ⟨i, n⟩ := x
    rw [List.cons_append, MVal.get, MVal.get, ih]

theorem MVal.get_nil (v : MVal) : v.get [] = v := by cases v <;> rfl
theorem MVal.put_nil (v w : MVal) : v.put [] w = w := by cases v <;> rfl

theorem MVal.get_zero (p : List (Nat × Nat)) : MVal.zero.get p = .zero := by
  induction p with
  | nil => rfl
  | cons x p ih => obtain ⟨i, n⟩ := x; rw [MVal.get, MVal.part_zero, ih]

/-- The numbers of the parts are in range. -/
def Spot.Ok (l : Spot) : Prop := ∀ x ∈ l.path, x.1 < x.2

theorem Spot.Ok.sub {l : Spot} (h : l.Ok) {i n : Nat} (hi : i < n) : (l.sub i n).Ok := by
  intro x hx
  rcases List.mem_append.1 hx with hx | hx
  · exact h x hx
  · cases List.mem_singleton.1 hx; exact hi

theorem Spot.Ok.nil (b : Nat) : Spot.Ok ⟨b, []⟩ := by intro x hx; cases hx

theorem MVal.set_part {v x : MVal} {n i j : Nat} (hi : i < n) :
    ((MVal.multi ((v.parts n).set i x)).parts n).getD j .zero = if j = i then x else (v.parts n).getD j .zero := by
  by_cases hj : j < n
  · rw [MVal.part_multi hj, List.getD_eq_getElem?_getD]
    by_cases he : j = i
    · subst he
      rw [List.getElem?_set_self (by rw [MVal.parts_length]; exact hj), if_pos rfl]; rfl
    · rw [List.getElem?_set_ne (Ne.symm he), if_neg he, List.getD_eq_getElem?_getD]
  · rw [if_neg (by omega), List.getD_eq_getElem?_getD, List.getD_eq_getElem?_getD,
      List.getElem?_eq_none (by rw [MVal.parts_length]; omega), List.getElem?_eq_none (by rw [MVal.parts_length]; omega)]

theorem MVal.get_put (v w : MVal) (p : List (Nat × Nat)) (h : ∀ x ∈ p, x.1 < x.2) : (v.put p w).get p = w := by
  induction p generalizing v with
  | nil => rw [MVal.put_nil, MVal.get_nil]
  | cons x p ih =>
    obtain ⟨i, n⟩ := x
    rw [MVal.put, MVal.get, MVal.set_part (h (i, n) (List.mem_cons_self ..)), if_pos rfl]
    exact ih _ (fun x hx => h x (List.mem_cons_of_mem _ hx))

theorem MVal.get_put_apart (v w : MVal) (q r r' : List (Nat × Nat)) {i i' n : Nat} (hi : i ≠ i')
    (h : ∀ x ∈ q ++ (i', n) :: r', x.1 < x.2) :
    (v.put (q ++ (i', n) :: r') w).get (q ++ (i, n) :: r) = v.get (q ++ (i, n) :: r) := by
  induction q generalizing v with
  | nil =>
    simp only [List.nil_append] at *
    rw [MVal.put, MVal.get, MVal.get, MVal.set_part (h (i', n) (List.mem_cons_self ..)), if_neg hi]
  | cons x q ih =>
    obtain ⟨j, m⟩ := x
    simp only [List.cons_append] at *
    rw [MVal.put, MVal.get, MVal.get, MVal.set_part (h (j, m) (List.mem_cons_self ..)), if_pos rfl]
    exact ih _ (fun x hx => h x (List.mem_cons_of_mem _ hx))

theorem Mem.get_sub (m : Mem) (l : Spot) (i n : Nat) : m.get (l.sub i n) = ((m.get l).parts n).getD i .zero := by
  show (m.vars l.base).get (l.path ++ [(i, n)]) = _
  rw [MVal.get_append, MVal.get, MVal.get_nil]
  rfl

theorem Mem.get_put (m : Mem) {l : Spot} (h : l.Ok) (v : MVal) : (m.put l v).get l = v := by
  show (if l.base = l.base then _ else _ : MVal).get l.path = v
  rw [if_pos rfl]
  exact MVal.get_put _ _ _ h

theorem Mem.get_put_apart (m : Mem) {l l' : Spot} (h : l'.Ok) (ha : Separate l l') (v : MVal) :
    (m.put l' v).get l = m.get l := by
  show (if l.base = l'.base then _ else _ : MVal).get l.path = _
  by_cases hb : l.base = l'.base
  · rw [if_pos hb]
    rcases ha with ha | ⟨q, i, i', n, r, r', h1, h2, h3⟩
    · exact absurd hb ha
    · rw [Spot.Ok, h2] at h
      rw [h1, h2, MVal.get_put_apart _ _ _ _ _ h3 h]
      show _ = (m.vars l.base).get l.path
      rw [h1]
  · rw [if_neg hb]; rfl

theorem Mem.get_new (m : Mem) (v : MVal) {l : Spot} (h : l.base < m.next) : (m.new v).get l = m.get l := by
  show (if l.base = m.next then _ else _ : MVal).get l.path = _
  rw [if_neg (by omega)]; rfl

theorem Mem.get_new_here (m : Mem) (v : MVal) : (m.new v).get ⟨m.next, []⟩ = v := by
  show (if m.next = m.next then _ else _ : MVal).get [] = _
  rw [if_pos rfl, MVal.get_nil]

theorem Separate.base {l l' : Spot} (h : l.base ≠ l'.base) : Separate l l' := .inl h

/-- `l` is `l0` or a part of it. -/
def Under (l l0 : Spot) : Prop := l.base = l0.base ∧ l0.path <+: l.path

theorem Under.refl (l : Spot) : Under l l := ⟨rfl, List.prefix_refl _⟩
theorem Under.sub (l : Spot) (i n : Nat) : Under (l.sub i n) l := ⟨rfl, List.prefix_append _ _⟩
theorem Under.trans {l l1 l2 : Spot} (h : Under l l1) (h' : Under l1 l2) : Under l l2 :=
  ⟨h.1.trans h'.1, h'.2.trans h.2⟩

theorem Separate.symm {l l' : Spot} (h : Separate l l') : Separate l' l := by
  rcases h with h | ⟨q, i, i', n, r, r', h1, h2, h3⟩
  · exact .inl (Ne.symm h)
  · exact .inr ⟨q, i', i, n, r', r, h2, h1, Ne.symm h3⟩

theorem Separate.under {l l0 l' : Spot} (h : Separate l l0) (hu : Under l' l0) : Separate l l' := by
  rcases h with h | ⟨q, i, i', n, r, r', h1, h2, h3⟩
  · exact .inl (by rw [hu.1]; exact h)
  · obtain ⟨z, hz⟩ := hu.2
    exact .inr ⟨q, i, i', n, r, r' ++ z, h1, by rw [← hz, h2]; simp, h3⟩

theorem Separate.sub {l : Spot} {i i' n : Nat} (h : i ≠ i') : Separate (l.sub i n) (l.sub i' n) :=
  .inr ⟨l.path, i, i', n, [], [], rfl, rfl, h⟩

end Sereal

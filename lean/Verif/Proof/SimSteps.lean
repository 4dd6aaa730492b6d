import Verif.Proof.SimMem
/-
The model with addresses follows the model without: one element, entry, field or pointee after another.
-/
namespace Sereal

section
variable {tc : TCfg} {t : Target} {B : Nat → Prop} {m m' : Mem}

/-- One element of a slice. -/
theorem Became.elem {e : Ty} {a off n cap i : Nat} {vs : List TVal} {v : TVal} (P : Nat → Nat → Prop) (ho : Owned t B m)
    (hty : t.ty = .slice e) (hw : t.now m = .slice ⟨a, []⟩ off n cap) (h1 : vs.length = n) (h2 : off + n ≤ cap) (h3 : B a)
    (h4 : ∀ i b, P i b → B b ∧ b ≠ a) (h5 : ∀ i j b, P i b → P j b → i = j)
    (h6 : ∀ i, i < n → Depicts tc m e (P i) (m.get (Spot.sub ⟨a, []⟩ (off + i) cap)) (vs.getD i .zero)) (hi : i < n)
    (hb : Became tc (t.at e (Spot.sub ⟨a, []⟩ (off + i) cap)) (P i) m m' v) : Became tc t B m m' (.slice (vs.set i v)) := by
  obtain ⟨hc, hnow⟩ := hb.changed.behind ho (l := Spot.sub ⟨a, []⟩ (off + i) cap) h3 fun b h => (h4 i b h).1
  obtain ⟨Bi, b1, b2⟩ := hb.holds
  have hn := hb.changed.next
  have ha := ho.below a h3
  have cross : ∀ j b, j ≠ i → P j b → Bi b → False := by
    intro j b hj hp hbi
    rcases (b1 b hbi).2 with h | h
    · exact hj (h5 j i b hp h)
    · have := ho.below b (h4 j b hp).1; omega
  refine ⟨hc, fun _ _ => .inr hnow, fun b => B b ∧ b < m.next ∨ Bi b, ?_, ?_⟩
  · rintro b (⟨hb', hl⟩ | hb')
    · exact ⟨by omega, .inl hb'⟩
    · exact ⟨(b1 b hb').1, (b1 b hb').2.imp_left fun h => (h4 i b h).1⟩
  rw [hnow, hw, hty]
  refine .slice (fun j b => (j ≠ i ∧ P j b) ∨ (j = i ∧ Bi b)) (by simpa using h1) h2 (.inl ⟨h3, ha⟩) ?_ ?_ ?_
  · rintro j b (⟨hj, hb'⟩ | ⟨-, hb'⟩)
    · exact ⟨.inl ⟨(h4 j b hb').1, ho.below b (h4 j b hb').1⟩, (h4 j b hb').2⟩
    · refine ⟨.inr hb', ?_⟩
      rintro rfl
      rcases (b1 _ hb').2 with h | h
      · exact (h4 i _ h).2 rfl
      · omega
  · rintro j j' b (⟨hj, hb1⟩ | ⟨rfl, hb1⟩) (⟨hj', hb2⟩ | ⟨rfl, hb2⟩)
    · exact h5 j j' b hb1 hb2
    · exact (cross j b hj hb1 hb2).elim
    · exact (cross j' b hj' hb2 hb1).elim
    · rfl
  · intro j hj
    by_cases hji : j = i
    · subst hji
      have hg : (vs.set j v).getD j .zero = v := by
        rw [List.getD_eq_getElem?_getD, List.getElem?_set_self (by omega)]; rfl
      rw [hg]
      exact b2.mono fun b hb => .inr ⟨rfl, hb⟩
    · have hg : (vs.set i v).getD j .zero = vs.getD j .zero := by
        rw [List.getD_eq_getElem?_getD, List.getD_eq_getElem?_getD, List.getElem?_set_ne (Ne.symm hji)]
      have hw' : m'.get (Spot.sub ⟨a, []⟩ (off + j) cap) = m.get (Spot.sub ⟨a, []⟩ (off + j) cap) :=
        hb.changed.side _ _ rfl rfl (Separate.sub (by omega))
      rw [hg, hw']
      refine ((h6 j hj).frame (hb.changed.keeps fun b hb' => ⟨ho.below b (h4 j b hb').1, fun hi' => hji (h5 j i b hb' hi'), ?_⟩)).mono
        fun b hb' => .inl ⟨hji, hb'⟩
      intro l hl
      cases hl
      exact (h4 j b hb').2

/-- What a pointer points at. -/
theorem Became.pointee {e : Ty} {a : Nat} {v : TVal} {P : Nat → Prop} (ho : Owned t B m) (hty : t.ty = .ptr e)
    (hw : t.now m = .ptr ⟨a, []⟩) (h1 : B a) (h2 : ∀ b, P b → B b ∧ b ≠ a) (hb : Became tc (t.at e ⟨a, []⟩) P m m' v) :
    Became tc t B m m' (.ptr v) := by
  obtain ⟨hc, hnow⟩ := hb.changed.behind ho (l := ⟨a, []⟩) h1 fun b h => (h2 b h).1
  obtain ⟨Bi, b1, b2⟩ := hb.holds
  have hn := hb.changed.next
  have ha := ho.below a h1
  refine ⟨hc, fun _ _ => .inr hnow, fun b => b = a ∨ Bi b, ?_, ?_⟩
  · rintro b (rfl | hb')
    · exact ⟨by omega, .inl h1⟩
    · exact ⟨(b1 b hb').1, (b1 b hb').2.imp_left fun h => (h2 b h).1⟩
  rw [hnow, hw, hty]
  refine .ptr Bi (.inl rfl) (fun b hb' => ⟨.inr hb', ?_⟩) b2
  rintro rfl
  rcases (b1 _ hb').2 with h | h
  · exact (h2 _ h).2 rfl
  · omega

/-- A part of an array. -/
theorem Became.item {n : Nat} {e : Ty} {vs : List TVal} {i : Nat} {v : TVal} {P : Nat → Nat → Prop} (ho : Owned t B m)
    (hty : t.ty = .arr n e) (hi : i < n) (h1 : vs.length = n) (h2 : ∀ i b, P i b → B b) (h3 : ∀ i j b, P i b → P j b → i = j)
    (h4 : ∀ i, i < n → Depicts tc m e (P i) (((t.now m).parts n).getD i .zero) (vs.getD i .zero))
    (hb : Became tc (t.part i n e true) (P i) m m' v) : Became tc t B m m' (.multi (vs.set i v)) := by
  obtain ⟨B', P', hB, k1, k2, k3, k4⟩ := DepictsAll.set (T := fun _ ty => ty = e) ho (fun _ h => h) hi
    ⟨h1, h2, h3, fun i ty hi h => by subst h; exact h4 i hi⟩ hb
  refine ⟨hb.changed.part (h2 i), fun h => by rw [hty] at h; exact h.elim, B', hB, ?_⟩
  rw [hty]
  exact .arr P' k1 k2 k3 fun i hi => k4 i e hi rfl

/-- A field of a struct. -/
theorem Became.field {id : Nat} {f : TField} {vs : List TVal} {i : Nat} {v : TVal} {P : Nat → Nat → Prop} (ho : Owned t B m)
    (hty : t.ty = .strct id) (hf : (tc.types id).fields[i]? = some f) (h1 : vs.length = (tc.types id).fields.length)
    (h2 : ∀ i b, P i b → B b) (h3 : ∀ i j b, P i b → P j b → i = j)
    (h4 : ∀ (i : Nat) f, (tc.types id).fields[i]? = some f →
      Depicts tc m f.ty (P i) (((t.now m).parts (tc.types id).fields.length).getD i .zero) (vs.getD i .zero))
    (hb : Became tc (t.part i (tc.types id).fields.length f.ty f.exported) (P i) m m' v) :
    Became tc t B m m' (.multi (vs.set i v)) := by
  obtain ⟨B', P', hB, k1, k2, k3, k4⟩ := DepictsAll.set (T := fun i ty => ∃ f, (tc.types id).fields[i]? = some f ∧ ty = f.ty) ho
    (fun _ ⟨f', h, h'⟩ => by rw [hf] at h; cases h; exact h') (List.getElem?_eq_some_iff.1 hf).1
    ⟨h1, h2, h3, fun i ty hi ⟨f, h, h'⟩ => by subst h'; exact h4 i f h⟩ hb
  refine ⟨hb.changed.part (h2 i), fun h => by rw [hty] at h; exact h.elim, B', hB, ?_⟩
  rw [hty]
  exact .strct P' k1 k2 k3 fun i f hf => k4 i f.ty (List.getElem?_eq_some_iff.1 hf).1 ⟨f, hf, rfl⟩

/-- The value of a key that a map has already: what it leads to changes. -/
theorem Became.entry {e : Ty} {a : Nat} {key : Bytes} {kvs : List (Bytes × TVal)} {w : MVal} {x v : TVal} {ro : Bool}
    {P : Bytes → Nat → Prop} (ho : Owned t B m) (hty : t.ty = .map e) (hw : t.now m = .map a) (h1 : B a)
    (h2 : ∀ k b, P k b → B b ∧ b ≠ a) (h3 : ∀ k k' b, P k b → P k' b → k = k')
    (h4 : ∀ k, (mapLookup k (m.maps a)).isSome = (mapLookup k kvs).isSome)
    (h5 : ∀ k w x, mapLookup k (m.maps a) = some w → mapLookup k kvs = some x → Depicts tc m e (P k) w x)
    (hk : mapLookup key (m.maps a) = some w) (hx : mapLookup key kvs = some x)
    (hb : Became tc { ty := e, place := .tmp w, ro := ro } (P key) m m' v) :
    Became tc t B m m' (.map (mapInsert key v kvs)) := by
  have hn := hb.changed.next
  have ha := ho.below a h1
  obtain ⟨Bi, b1, b2⟩ := hb.holds
  have vars : ∀ b, b < m.next → ¬ P key b → m'.vars b = m.vars b := fun b h h' => hb.changed.vars b h h' fun l hl => by cases hl
  have hnow : t.now m' = t.now m := by
    unfold Target.now
    cases hp : t.place with
    | tmp w => rfl
    | var l =>
      obtain ⟨-, k2, k3⟩ := ho.here l hp
      exact Mem.get_congr (vars _ k2 fun h => k3 (h2 _ _ h).1)
  have ema : m'.maps a = m.maps a := hb.changed.maps a ha fun h => (h2 _ _ h).2 rfl
  have cross : ∀ j b, j ≠ key → P j b → Bi b → False := by
    intro j b hj hp hbi
    rcases (b1 b hbi).2 with h | h
    · exact hj (h3 j key b hp h)
    · have := ho.below b (h2 j b hp).1; omega
  refine ⟨⟨hn, fun b hb' hnb => hb.changed.maps b hb' fun h => hnb (h2 _ _ h).1, fun b hb' hnb _ => vars b hb' fun h => hnb (h2 _ _ h).1,
    fun l z hl hz _ => ?_⟩, fun _ _ => .inr hnow, fun b => B b ∧ b < m.next ∨ Bi b, ?_, ?_⟩
  · obtain ⟨-, k2, k3⟩ := ho.here l hl
    exact Mem.get_congr (vars _ (by rw [hz]; exact k2) fun h => k3 (by rw [← hz]; exact (h2 _ _ h).1))
  · rintro b (⟨hb', hl⟩ | hb')
    · exact ⟨by omega, .inl hb'⟩
    · exact ⟨(b1 b hb').1, (b1 b hb').2.imp_left fun h => (h2 _ b h).1⟩
  rw [hnow, hw, hty]
  refine .map (fun k b => (k ≠ key ∧ P k b) ∨ (k = key ∧ Bi b)) (.inl ⟨h1, ha⟩) ?_ ?_ ?_ ?_
  · rintro j b (⟨hj, hb'⟩ | ⟨-, hb'⟩)
    · exact ⟨.inl ⟨(h2 j b hb').1, ho.below b (h2 j b hb').1⟩, (h2 j b hb').2⟩
    · refine ⟨.inr hb', ?_⟩
      rintro rfl
      rcases (b1 _ hb').2 with h | h
      · exact (h2 _ _ h).2 rfl
      · omega
  · rintro j j' b (⟨hj, hb1⟩ | ⟨rfl, hb1⟩) (⟨hj', hb2⟩ | ⟨rfl, hb2⟩)
    · exact h3 j j' b hb1 hb2
    · exact (cross j b hj hb1 hb2).elim
    · exact (cross j' b hj' hb2 hb1).elim
    · rfl
  · intro k
    rw [ema, mapLookup_insert]
    by_cases hkk : k = key
    · subst hkk; rw [hk]; simp
    · simp [hkk, h4 k]
  · intro k w' x' hw' hx'
    rw [ema] at hw'
    rw [mapLookup_insert] at hx'
    by_cases hkk : k = key
    · subst hkk
      rw [hk] at hw'
      simp at hw' hx'
      subst hw' hx'
      exact b2.mono fun b hb => .inr ⟨rfl, hb⟩
    · simp [hkk] at hx'
      refine ((h5 k w' x' hw' hx').frame (hb.changed.keeps fun b hb' => ⟨ho.below b (h2 k b hb').1,
        fun hi' => hkk (h3 k key b hb' hi'), fun l hl => by cases hl⟩)).mono fun b hb' => .inl ⟨hkk, hb'⟩

/-- A new key of a map. -/
theorem Became.newEntry {e : Ty} {a : Nat} {key : Bytes} {kvs : List (Bytes × TVal)} {v : TVal}
    {P : Bytes → Nat → Prop} (ho : Owned t B m) (hty : t.ty = .map e) (hw : t.now m = .map a) (h1 : B a)
    (h2 : ∀ k b, P k b → B b ∧ b ≠ a) (h3 : ∀ k k' b, P k b → P k' b → k = k')
    (h4 : ∀ k, (mapLookup k (m.maps a)).isSome = (mapLookup k kvs).isSome)
    (h5 : ∀ k w x, mapLookup k (m.maps a) = some w → mapLookup k kvs = some x → Depicts tc m e (P k) w x)
    (hb : Became tc { ty := e, place := .var ⟨m.next, []⟩ } (fun _ => False) (m.new .zero) m' v) :
    t.now m' = t.now m ∧ Became tc t B m (m'.insert a key (m'.get ⟨m.next, []⟩)) (.map (mapInsert key v kvs)) := by
  have hn : m.next + 1 ≤ m'.next := hb.changed.next
  have ha := ho.below a h1
  obtain ⟨Bi, b1, b2⟩ := hb.holds
  have b1' : ∀ b, Bi b → b < m'.next ∧ m.next < b := fun b h => ⟨(b1 b h).1, (b1 b h).2.elim False.elim id⟩
  have vars : ∀ b, b < m.next → m'.vars b = m.vars b := by
    intro b h
    rw [hb.changed.vars b (Nat.lt_succ_of_lt h) id fun l hl => by cases hl; exact Nat.ne_of_lt h]
    exact if_neg (by omega)
  have maps : ∀ b, b < m.next → m'.maps b = m.maps b := fun b h => hb.changed.maps b (Nat.lt_succ_of_lt h) id
  have hnow : ∀ m'' : Mem, (∀ b, b < m.next → m''.vars b = m.vars b) → t.now m'' = t.now m := by
    intro m'' hv
    unfold Target.now
    cases hp : t.place with
    | tmp w => rfl
    | var l => exact Mem.get_congr (hv _ (ho.here l hp).2.1)
  generalize hq : m'.get ⟨m.next, []⟩ = w'
  have imaps : ∀ b, b ≠ a → (m'.insert a key w').maps b = m'.maps b := fun b hb => if_neg hb
  have imap : (m'.insert a key w').maps a = mapInsert key w' (m.maps a) := by
    show (if a = a then _ else _) = _
    rw [if_pos rfl, maps a ha]
  have b2' : Depicts tc m' e Bi w' v := by rw [← hq]; exact b2
  refine ⟨hnow _ vars, ⟨by show m.next ≤ m'.next; omega, fun b hb' hnb => ?_, fun b hb' _ _ => vars b hb', fun l z hl hz _ => ?_⟩,
    fun _ _ => .inr (hnow _ vars), fun b => B b ∧ b < m.next ∨ Bi b, ?_, ?_⟩
  · rw [imaps b fun h => hnb (h ▸ h1)]; exact maps b hb'
  · exact Mem.get_congr (vars _ (by rw [hz]; exact (ho.here l hl).2.1))
  · rintro b (⟨hb', hl⟩ | hb')
    · exact ⟨by show b < m'.next; omega, .inl hb'⟩
    · exact ⟨(b1' b hb').1, .inr (Nat.le_of_lt (b1' b hb').2)⟩
  rw [hnow (m'.insert a key w') vars, hw, hty]
  refine .map (fun k b => (k ≠ key ∧ P k b) ∨ (k = key ∧ Bi b)) (.inl ⟨h1, ha⟩) ?_ ?_ ?_ ?_
  · rintro j b (⟨hj, hb'⟩ | ⟨-, hb'⟩)
    · exact ⟨.inl ⟨(h2 j b hb').1, ho.below b (h2 j b hb').1⟩, (h2 j b hb').2⟩
    · refine ⟨.inr hb', ?_⟩
      have := (b1' b hb').2
      omega
  · have cross : ∀ j b, P j b → Bi b → False := by
      intro j b hp hbi
      have := (b1' b hbi).2
      have := ho.below b (h2 j b hp).1; omega
    rintro j j' b (⟨hj, hb1⟩ | ⟨rfl, hb1⟩) (⟨hj', hb2⟩ | ⟨rfl, hb2⟩)
    · exact h3 j j' b hb1 hb2
    · exact (cross j b hb1 hb2).elim
    · exact (cross j' b hb2 hb1).elim
    · rfl
  · intro k
    rw [imap, mapLookup_insert, mapLookup_insert]
    by_cases hkk : k = key
    · subst hkk; simp
    · simp [hkk, h4 k]
  · intro k w'' x' hw' hx'
    rw [imap, mapLookup_insert] at hw'
    rw [mapLookup_insert] at hx'
    by_cases hkk : k = key
    · subst hkk
      simp at hw' hx'
      subst hw' hx'
      refine (Depicts.frame (m' := m'.insert a k w') b2' fun b hb => ⟨rfl, imaps b ?_⟩).mono fun b hb => .inr ⟨rfl, hb⟩
      have := (b1' b hb).2
      omega
    · simp [hkk] at hx' hw'
      refine ((h5 k w'' x' hw' hx').frame fun b hb' => ?_).mono fun b hb' => .inl ⟨hkk, hb'⟩
      have hlt := ho.below b (h2 k b hb').1
      exact ⟨vars b hlt, by rw [imaps b (h2 k b hb').2]; exact maps b hlt⟩

end

end Sereal

import Verif.Proof.SimSteps
/-
The model with addresses follows the model without: the loops.
-/
namespace Sereal

section
variable {tc : TCfg} {t : Target} {B : Nat → Prop} {m : Mem} {cfg : DCfg} {buf : Bytes} {rec : Rec} {mrec : MRec}

/-- Going on from contents that are not the zero value. -/
theorem Became.go {m' m'' : Mem} {x y : TVal} {B' : Nat → Prop} (h : Became tc t B m m' x) (hx : x ≠ .zero)
    (hB : ∀ b, B' b → b < m'.next ∧ (B b ∨ m.next ≤ b)) (h' : Became tc t B' m' m'' y) : Became tc t B m m'' y :=
  .trans h.changed hB (fun hr hh => (h.stays hr hh).resolve_left hx) h'

theorem sim_elems_rest {len n i idx : Nat} {e : Ty} {acc : Acc} {s : MSt} (hi : len ≤ i) :
    Sims (elemsLoop cfg buf rec e acc n [] idx) (elemsMem cfg buf mrec t len n i idx) s
      fun r j s' => j = r.1 ∧ r.2 = [] ∧ s'.mem = s.mem := by
  induction n generalizing i idx s with
  | zero => exact .pure ⟨rfl, rfl, rfl⟩
  | succ n ih =>
    unfold elemsLoop elemsMem
    rw [if_neg (by omega)]
    refine .both fun p s1 hs => ?_
    rw [← hs]
    exact ih (by omega)

theorem sim_elems_slice {e : Ty} (hrec : SimRec tc rec mrec) (ho : Owned t B m) (hty : t.ty = .slice e) (n : Nat) :
    ∀ (pre vs : List TVal) (idx : Nat) (s : MSt), Became tc t B m s.mem (.slice (pre ++ vs)) →
      Sims (elemsLoop cfg buf rec e t.acc.behind n vs idx) (elemsMem cfg buf mrec t (pre.length + vs.length) n pre.length idx) s
        fun r j s' => j = r.1 ∧ Became tc t B m s'.mem (.slice (pre ++ r.2)) := by
  induction n with
  | zero => intro pre vs idx s h; exact .pure ⟨rfl, h⟩
  | succ n ih =>
    intro pre vs idx s h
    cases vs with
    | nil =>
      refine .mono (sim_elems_rest (Nat.le_refl _)) fun r j s' h' => ⟨h'.1, ?_⟩
      rw [h'.2.1, h'.2.2]; exact h
    | cons v vs =>
      obtain ⟨B1, hB1, hd⟩ := h.holds
      have ho1 := ho.later h.changed.next hB1
      rw [hty] at hd
      generalize hw : t.now s.mem = w at hd
      cases hd with
      | @slice _ _ a off n' cap _ P h1 h2 h3 h4 h5 h6 =>
        have hlt : pre.length < n' := by rw [← h1]; simp
        unfold elemsLoop
        have run : elemsMem cfg buf mrec t (pre.length + (v :: vs).length) (n + 1) pre.length idx s =
            (mrec idx (t.at e (Spot.sub ⟨a, []⟩ (off + pre.length) cap)) >>= fun idx =>
              elemsMem cfg buf mrec t (pre.length + (v :: vs).length) n (pre.length + 1) idx) s := by
          conv => lhs; unfold elemsMem
          rw [if_pos (by simp), hty]
          refine (M.bind_eq (Target.read_now t s)).trans ?_
          rw [hw]
          exact M.bind_eq (M.failIf_pass (by omega))
        refine .congr run ?_
        have hr := hrec idx (t.at e (Spot.sub ⟨a, []⟩ (off + pre.length) cap)) v (P pre.length) s
          (ho1.behind (Spot.Ok.sub (Spot.Ok.nil a) (by omega)) h3 (h4 _)) (by
            have := h6 pre.length hlt
            rw [List.getD_eq_getElem?_getD, List.getElem?_append_right (Nat.le_refl _), Nat.sub_self] at this
            exact this)
        rw [Target.acc_at] at hr
        refine .bind hr ?_
        rintro ⟨j, v'⟩ i s1 ⟨rfl, hb⟩
        have hb' := Became.elem P ho1 hty hw h1 h2 h3 h4 h5 h6 hlt hb
        rw [List.set_append_right _ _ (Nat.le_refl _), Nat.sub_self, List.set_cons_zero] at hb'
        have hg := h.go (by intro h; cases h) hB1 hb'
        have hg' : Became tc t B m s1.mem (.slice ((pre ++ [v']) ++ vs)) := by simpa using hg
        have := ih (pre ++ [v']) vs i s1 hg'
        simp only [List.length_append, List.length_cons, List.length_nil, List.append_assoc, List.cons_append, List.nil_append] at this
        rw [show pre.length + (v :: vs).length = pre.length + (0 + 1) + vs.length by simp; omega]
        intro r d' hr
        obtain ⟨⟨i2, vs2⟩, d2, hr1, hr2⟩ := D.bind_ok.1 hr
        cases hr2
        exact this _ _ hr1

theorem sim_elems_arr {e : Ty} {k : Nat} (hrec : SimRec tc rec mrec) (ho : Owned t B m) (hty : t.ty = .arr k e) (n : Nat) :
    ∀ (pre vs : List TVal) (idx : Nat) (s : MSt), pre.length + vs.length = k → Became tc t B m s.mem (.multi (pre ++ vs)) →
      Sims (elemsLoop cfg buf rec e t.acc.inner n vs idx) (elemsMem cfg buf mrec t k n pre.length idx) s
        fun r j s' => j = r.1 ∧ Became tc t B m s'.mem (.multi (pre ++ r.2)) := by
  induction n with
  | zero => intro pre vs idx s _ h; exact .pure ⟨rfl, h⟩
  | succ n ih =>
    intro pre vs idx s hk h
    cases vs with
    | nil =>
      refine .mono (sim_elems_rest (by simp at hk; omega)) fun r j s' h' => ⟨h'.1, ?_⟩
      rw [h'.2.1, h'.2.2]; exact h
    | cons v vs =>
      obtain ⟨B1, hB1, hd⟩ := h.holds
      have ho1 := ho.later h.changed.next hB1
      rw [hty] at hd
      generalize hw : t.now s.mem = w at hd
      have hlt : pre.length < k := by simp at hk; omega
      cases hd with
      | arr P h1 h2 h3 h4 =>
        subst hw
        unfold elemsLoop
        have run : elemsMem cfg buf mrec t k (n + 1) pre.length idx s =
            (mrec idx (t.part pre.length k e true) >>= fun idx => elemsMem cfg buf mrec t k n (pre.length + 1) idx) s := by
          conv => lhs; unfold elemsMem
          rw [if_pos hlt, hty]
        refine .congr run ?_
        have hr := hrec idx (t.part pre.length k e true) v (P pre.length) s (ho1.part hlt (h2 _)) (by
          rw [Target.now_part]
          have := h4 pre.length hlt
          rw [List.getD_eq_getElem?_getD (l := pre ++ v :: vs), List.getElem?_append_right (Nat.le_refl _), Nat.sub_self] at this
          exact this)
        rw [Target.acc_part] at hr
        refine .bind hr ?_
        rintro ⟨j, v'⟩ i s1 ⟨rfl, hb⟩
        have hb' := Became.item ho1 hty hlt h1 h2 h3 h4 hb
        rw [List.set_append_right _ _ (Nat.le_refl _), Nat.sub_self, List.set_cons_zero] at hb'
        have hg := h.go (by intro h; cases h) hB1 hb'
        have hg' : Became tc t B m s1.mem (.multi ((pre ++ [v']) ++ vs)) := by simpa using hg
        have := ih (pre ++ [v']) vs i s1 (by simp at hk ⊢; omega) hg'
        simp only [List.length_append, List.length_cons, List.length_nil, List.append_assoc, List.cons_append, List.nil_append] at this
        intro r d' hr
        obtain ⟨⟨i2, vs2⟩, d2, hr1, hr2⟩ := D.bind_ok.1 hr
        cases hr2
        exact this _ _ hr1

theorem lookup_run {a : Nat} {key : Bytes} {s : MSt} (h : t.now s.mem = .map a) :
    t.lookup key s = (.ok (mapLookup key (s.mem.maps a)), s) := by
  refine (M.bind_eq (Target.read_now t s)).trans ?_
  rw [h]

theorem insert_run {a : Nat} {key : Bytes} {v : MVal} {s : MSt} (hro : ¬ t.ro = true) (h : t.now s.mem = .map a) :
    t.insert key v s = (.ok (), { s with mem := s.mem.insert a key v }) := by
  refine (M.bind_eq (M.failIf_pass hro)).trans ?_
  refine (M.bind_eq (Target.read_now t s)).trans ?_
  rw [h]

theorem sim_entries {e : Ty} (hrec : SimRec tc rec mrec) (ho : Owned t B m) (hty : t.ty = .map e) (n : Nat) :
    ∀ (kvs : List (Bytes × TVal)) (idx : Nat) (s : MSt), Became tc t B m s.mem (.map kvs) →
      Sims (entriesLoop buf rec e t.acc n kvs idx) (entriesMem buf mrec e t n idx) s
        fun r j s' => j = r.1 ∧ Became tc t B m s'.mem (.map r.2) := by
  induction n with
  | zero => intro kvs idx s h; exact .pure ⟨rfl, h⟩
  | succ n ih =>
    intro kvs idx s0 h
    unfold entriesLoop entriesMem
    refine .both ?_
    rintro ⟨key, idx⟩ s hs
    rw [← hs] at h
    clear hs s0
    obtain ⟨B1, hB1, hd⟩ := h.holds
    have ho1 := ho.later h.changed.next hB1
    rw [hty] at hd
    generalize hw : t.now s.mem = w at hd
    cases hd with
    | @map _ _ a _ P h1 h2 h3 h4 h5 =>
      dsimp only
      refine .right (lookup_run hw) rfl ?_
      have hk := h4 key
      cases hx : mapLookup key kvs with
      | some x =>
        rw [hx] at hk
        obtain ⟨w, hw'⟩ := Option.isSome_iff_exists.1 hk
        rw [hw']
        have hr := hrec idx { ty := e, place := .tmp w, ro := t.ro } x (P key) s
          ⟨fun l hl => (by cases hl), fun b hb => ho1.below b (h2 key b hb).1⟩ (h5 key w x hw' hx)
        have hacc : (Target.mk e (.tmp w) t.ro).acc = if t.acc = .ro then .ro else .noaddr := by
          by_cases h : t.ro = true
          · rw [if_pos (Target.acc_ro.2 h)]; exact Target.acc_ro.2 h
          · rw [if_neg fun h' => h (Target.acc_ro.1 h')]; exact if_neg h
        rw [hacc] at hr
        refine .bind hr ?_
        rintro ⟨j, v'⟩ i s1 ⟨rfl, hb⟩
        exact ih _ _ _ (h.go (by intro h; cases h) hB1 (Became.entry ho1 hty hw h1 h2 h3 h4 h5 hw' hx hb))
      | none =>
        rw [hx] at hk
        have hw' : mapLookup key (s.mem.maps a) = none := by simpa using hk
        rw [hw']
        refine .right (s1 := { s with mem := s.mem.new .zero }) (b := ⟨s.mem.next, []⟩) rfl rfl ?_
        have hr := hrec idx { ty := e, place := .var ⟨s.mem.next, []⟩ } .zero (fun _ => False) { s with mem := s.mem.new .zero }
          ⟨fun l hl => (by cases hl; exact ⟨Spot.Ok.nil _, Nat.lt_succ_self _, id⟩), fun b hb => hb.elim⟩
          (by
            show Depicts tc _ e _ ((s.mem.new .zero).get ⟨s.mem.next, []⟩) .zero
            rw [Mem.get_new_here]; exact .zero)
        refine .bind hr ?_
        rintro ⟨j, v'⟩ i s1 ⟨rfl, hb⟩
        obtain ⟨hnow, hnew⟩ := Became.newEntry (key := key) ho1 hty hw h1 h2 h3 h4 h5 hb
        intro r d' hr
        obtain ⟨u, d1, hr1, hr2⟩ := D.bind_ok.1 hr
        obtain ⟨hro, rfl⟩ := D.failIf_ok.1 hr1
        have hro' : ¬ t.ro = true := fun h => hro (Target.acc_ro.2 h)
        have hg := h.go (by intro h; cases h) hB1 hnew
        obtain ⟨b, s', e1, e2, e3⟩ := ih _ i { s1 with mem := s1.mem.insert a key (s1.mem.get ⟨s.mem.next, []⟩) } hg r d' hr2
        refine ⟨b, s', ?_, e2, e3⟩
        rw [M.bind_eq (Target.read_now _ s1), M.bind_eq (insert_run hro' (hnow.trans hw))]
        exact e1

theorem sim_fields {id : Nat} (hrec : SimRec tc rec mrec) (ho : Owned t B m) (hty : t.ty = .strct id) (n : Nat) :
    ∀ (vs : List TVal) (idx : Nat) (s : MSt), Became tc t B m s.mem (.multi vs) →
      Sims (fieldsLoop cfg tc buf rec (tc.types id).fields t.acc n vs idx) (fieldsMem cfg tc buf mrec (tc.types id).fields t n idx) s
        fun r j s' => j = r.1 ∧ Became tc t B m s'.mem (.multi r.2) := by
  induction n with
  | zero => intro kvs idx s h; exact .pure ⟨rfl, h⟩
  | succ n ih =>
    intro vs idx s0 h
    unfold fieldsLoop fieldsMem
    refine .both ?_
    rintro ⟨key, idx⟩ s hs
    rw [← hs] at h
    clear hs s0
    dsimp only
    cases hf : findField tc (tc.types id).fields key with
    | none =>
      dsimp only
      refine .both fun p s1 hs => ?_
      rw [← hs] at h
      exact ih _ _ _ h
    | some i =>
      dsimp only
      cases hfi : (tc.types id).fields[i]? with
      | none => exact .fail
      | some f =>
        dsimp only
        obtain ⟨B1, hB1, hd⟩ := h.holds
        have ho1 := ho.later h.changed.next hB1
        have hi := (List.getElem?_eq_some_iff.1 hfi).1
        rw [hty] at hd
        generalize hw : t.now s.mem = w at hd
        cases hd with
        | strct P h1 h2 h3 h4 =>
          subst hw
          have hr := hrec idx (t.part i (tc.types id).fields.length f.ty f.exported) (vs.getD i .zero) (P i) s
            (ho1.part hi (h2 _)) (by rw [Target.now_part]; exact h4 i f hfi)
          rw [Target.acc_part] at hr
          refine .bind hr ?_
          rintro ⟨j, v'⟩ i' s1 ⟨rfl, hb⟩
          exact ih _ _ _ (h.go (by intro h; cases h) hB1 (Became.field ho1 hty hfi h1 h2 h3 h4 hb))

end

end Sereal

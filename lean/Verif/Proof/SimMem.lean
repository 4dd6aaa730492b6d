import Verif.Proof.SimBase
/-
The model with addresses follows the model without, as long as nothing is shared: the decoder.
-/
namespace Sereal

/-- If `x` succeeds then so does `y`, with the same state of the decoder. -/
def Sims (x : D α) (y : M β) (s : MSt) (Q : α → β → MSt → Prop) : Prop :=
  ∀ a d', x s.d = (.ok a, d') → ∃ b s', y s = (.ok b, s') ∧ s'.d = d' ∧ Q a b s'

namespace Sims

theorem pure {a : α} {b : β} {s : MSt} {Q : α → β → MSt → Prop} (h : Q a b s) : Sims (Pure.pure a) (Pure.pure b) s Q := by
  intro a' d' h'
  cases h'
  exact ⟨b, s, rfl, rfl, h⟩

theorem fail {e : Exn} {y : M β} {s : MSt} {Q : α → β → MSt → Prop} : Sims (D.fail e) y s Q := by
  intro a' d' h'; cases h'

theorem err {e : Err} {y : M β} {s : MSt} {Q : α → β → MSt → Prop} : Sims (D.err e) y s Q := fail

theorem bind {x : D α} {y : M β} {f : α → D γ} {g : β → M δ} {s : MSt} {P : α → β → MSt → Prop} {Q : γ → δ → MSt → Prop}
    (h : Sims x y s P) (hf : ∀ a b s', P a b s' → Sims (f a) (g b) s' Q) : Sims (x >>= f) (y >>= g) s Q := by
  intro c d' hc
  obtain ⟨a, d1, h1, h2⟩ := D.bind_ok.1 hc
  obtain ⟨b, s1, h3, h4, h5⟩ := h a d1 h1
  rw [← h4] at h2
  obtain ⟨b', s2, h6, h7, h8⟩ := hf a b s1 h5 c d' h2
  exact ⟨b', s2, by rw [M.bind_eq h3]; exact h6, h7, h8⟩

theorem mono {x : D α} {y : M β} {s : MSt} {P Q : α → β → MSt → Prop} (h : Sims x y s P) (hPQ : ∀ a b s', P a b s' → Q a b s') :
    Sims x y s Q := by
  intro a d' ha
  obtain ⟨b, s', h1, h2, h3⟩ := h a d' ha
  exact ⟨b, s', h1, h2, hPQ _ _ _ h3⟩

theorem lift {x : D α} {s : MSt} : Sims x (M.lift x) s (fun a b s' => b = a ∧ s'.mem = s.mem) := by
  intro a d' ha
  exact ⟨a, _, M.lift_eq ha, rfl, rfl, rfl⟩

/-- A step that both make. -/
theorem both {x : D α} {f : α → D γ} {g : α → M δ} {s : MSt} {Q : γ → δ → MSt → Prop}
    (hf : ∀ a s', s'.mem = s.mem → Sims (f a) (g a) s' Q) : Sims (x >>= f) (M.lift x >>= g) s Q :=
  bind lift fun a b s' h => by rw [h.1]; exact hf a s' h.2

theorem failIf {c : Prop} [Decidable c] {c' : Prop} [Decidable c'] {e e' : Exn} {f : Unit → D γ} {g : Unit → M δ} {s : MSt}
    {Q : γ → δ → MSt → Prop} (hc : c' → c) (hf : ¬ c → Sims (f ()) (g ()) s Q) :
    Sims (D.failIf c e >>= f) (M.failIf c' e' >>= g) s Q := by
  intro a d' ha
  obtain ⟨u, d1, h1, h2⟩ := D.bind_ok.1 ha
  obtain ⟨h3, h4⟩ := D.failIf_ok.1 h1
  subst h4
  rw [M.bind_eq (M.failIf_pass fun h => h3 (hc h))]
  exact hf h3 a d' h2

/-- A step that only the model with addresses makes. -/
theorem right {x : D α} {y : M β} {g : β → M δ} {s s1 : MSt} {b : β} {Q : α → δ → MSt → Prop} (h : y s = (.ok b, s1))
    (hd : s1.d = s.d) (hg : Sims x (g b) s1 Q) : Sims x (y >>= g) s Q := by
  intro a d' ha
  rw [M.bind_eq h]
  exact hg a d' (by rw [hd]; exact ha)

theorem ite {c : Prop} [Decidable c] {x x' : D α} {y y' : M β} {s : MSt} {Q : α → β → MSt → Prop} (h1 : c → Sims x y s Q)
    (h2 : ¬ c → Sims x' y' s Q) : Sims (if c then x else x') (if c then y else y') s Q := by
  by_cases h : c
  · rw [if_pos h, if_pos h]; exact h1 h
  · rw [if_neg h, if_neg h]; exact h2 h

theorem congr {x : D α} {y y' : M β} {s : MSt} {Q : α → β → MSt → Prop} (h : y s = y' s) (h' : Sims x y' s Q) : Sims x y s Q := by
  intro a d' ha
  rw [h]; exact h' a d' ha

/-- The last step. -/
theorem last {x : D Nat} {v : TVal} {s : MSt} {Q : Nat × TVal → Nat → MSt → Prop} (h : ∀ j s', s'.mem = s.mem → Q (j, v) j s') :
    Sims (x >>= fun j => Pure.pure (j, v)) (M.lift x) s Q := by
  intro a d' ha
  obtain ⟨j, d1, h1, h2⟩ := D.bind_ok.1 ha
  cases h2
  exact ⟨j, _, M.lift_eq h1, rfl, h _ _ rfl⟩

end Sims

/-- What is left to show about a decode function. -/
abbrev Ends (tc : TCfg) (t : Target) (B : Nat → Prop) (m : Mem) : Nat × TVal → Nat → MSt → Prop :=
  fun r i s' => i = r.1 ∧ Became tc t B m s'.mem r.2

/-- The recursive calls correspond. -/
def SimRec (tc : TCfg) (rec : Rec) (mrec : MRec) : Prop :=
  ∀ idx t cur B s, Owned t B s.mem → Depicts tc s.mem t.ty B (t.now s.mem) cur →
    Sims (rec idx t.ty cur t.acc) (mrec idx t) s (Ends tc t B s.mem)

section
variable {tc : TCfg} {t : Target} {B : Nat → Prop} {s : MSt} {cur : TVal}

theorem Sims.fin {x : D TVal} {y : M Unit} {j : Nat} {m : Mem} (h : Sims x y s fun v _ s' => Became tc t B m s'.mem v) :
    Sims (x >>= fun v => Pure.pure (j, v)) (y >>= fun _ => Pure.pure j) s (Ends tc t B m) :=
  .bind h fun _ _ _ h => .pure ⟨rfl, h⟩

/-- Assignment in both models. -/
theorem sim_write {m : Mem} {w : MVal} {x : TVal} {B' : Nat → Prop} (ho : Owned t B m) (hc : Changed t B m s.mem)
    (hB : ∀ b, B' b → b < s.mem.next ∧ (B b ∨ m.next ≤ b)) (hd : Depicts tc s.mem t.ty B' w x)
    (hs : t.ty.isRef → (t.now m).isHandle → x = .zero ∨ w = t.now m) :
    Sims (assign t.acc x) (t.write w) s fun v _ s' => v = x ∧ Became tc t B m s'.mem v ∧ t.now s'.mem = w := by
  intro v d' hv
  unfold assign at hv
  split at hv
  · next ha =>
    cases hv
    obtain ⟨h1, l, h2⟩ := Target.acc_rw ha
    refine ⟨(), _, Target.write_var h2 h1 w s, rfl, rfl, Became.put ho h2 hc hB hd hs, ?_⟩
    unfold Target.now; rw [h2]; exact Mem.get_put _ (ho.here l h2).1 _
  · cases hv

/-- For values without pointers. -/
theorem sim_scalar {w : MVal} {x : TVal} (ho : Owned t B s.mem) (hd : Depicts tc s.mem t.ty (fun _ => False) w x)
    (hr : ¬ t.ty.isRef) : Sims (assign t.acc x) (t.write w) s fun v _ s' => Became tc t B s.mem s'.mem v :=
  .mono (sim_write ho (.refl ..) (fun _ h => h.elim) hd fun h => absurd h hr) fun _ _ _ h => h.2.1

theorem sim_setInt (ho : Owned t B s.mem) (i : Int64) :
    Sims (setInt t.ty t.acc i) (t.setInt i) s fun v _ s' => Became tc t B s.mem s'.mem v := by
  unfold setInt Target.setInt
  cases hty : t.ty <;> try exact .fail
  · exact sim_scalar ho (by rw [hty]; exact .int) (by rw [hty]; exact id)
  · exact sim_scalar ho (by rw [hty]; exact .uint) (by rw [hty]; exact id)

theorem sim_setFloat (ho : Owned t B s.mem) (u : UInt64) :
    Sims (setFloat tc t.ty t.acc u) (t.setFloat tc u) s fun v _ s' => Became tc t B s.mem s'.mem v := by
  unfold setFloat Target.setFloat
  cases hty : t.ty <;> try exact .fail
  · exact sim_scalar ho (by rw [hty]; exact .f32) (by rw [hty]; exact id)
  · exact sim_scalar ho (by rw [hty]; exact .f64) (by rw [hty]; exact id)

theorem sim_setBool (ho : Owned t B s.mem) (b : Bool) :
    Sims (setBool t.ty t.acc b) (t.setBool b) s fun v _ s' => Became tc t B s.mem s'.mem v := by
  unfold setBool Target.setBool
  cases hty : t.ty <;> try exact .fail
  · exact sim_scalar ho (by rw [hty]; exact .bool) (by rw [hty]; exact id)

theorem sim_setString (ho : Owned t B s.mem) (b : Bytes) :
    Sims (setString t.ty t.acc b) (t.setString b) s fun v _ s' => Became tc t B s.mem s'.mem v := by
  unfold setString Target.setString
  cases hty : t.ty <;> try exact .fail
  · exact sim_scalar ho (by rw [hty]; exact .str) (by rw [hty]; exact id)

theorem sim_setPerl (ho : Owned t B s.mem) (v : Val) :
    Sims (setPerl t.ty t.acc v) (t.setPerl v) s fun v _ s' => Became tc t B s.mem s'.mem v := by
  unfold setPerl Target.setPerl
  cases hty : t.ty <;> try exact .fail
  · exact sim_scalar ho (by rw [hty]; exact .iface) (by rw [hty]; exact id)

/-- Making a slice. -/
theorem sim_makeSlice {e : Ty} {vs : List MVal} {xs : List TVal} (ho : Owned t B s.mem) (hty : t.ty = .slice e)
    (hn : ¬ (t.now s.mem).isHandle) (hl : xs.length = vs.length)
    (hd : ∀ i, i < vs.length → ∀ m, Depicts tc m e (fun _ => False) (vs.getD i .zero) (xs.getD i .zero)) :
    Sims (assign t.acc (.slice xs)) (t.makeSlice vs) s fun v _ s' => v = .slice xs ∧ Became tc t B s.mem s'.mem v ∧
      ∃ a, t.now s'.mem = .slice ⟨a, []⟩ 0 vs.length vs.length := by
  unfold Target.makeSlice
  refine .right (s1 := { s with mem := s.mem.new (.multi vs) }) (b := ⟨s.mem.next, []⟩) rfl rfl ?_
  refine .mono (sim_write (s := { s with mem := s.mem.new (.multi vs) }) (m := s.mem) (B' := fun b => b = s.mem.next) ho
    ((Changed.refl ..).new ho _) ?_ ?_ fun _ h => absurd h hn) fun _ _ _ h => ⟨h.1, h.2.1, _, h.2.2⟩
  · rintro b rfl
    exact ⟨Nat.lt_succ_self _, .inr (Nat.le_refl _)⟩
  · rw [hty]
    refine .slice (fun _ _ => False) hl (by omega) rfl (fun _ _ h => h.elim) (fun _ _ _ h => h.elim) fun i hi => ?_
    rw [Mem.get_sub, Mem.get_new_here, Nat.zero_add, MVal.part_multi hi]
    exact hd i hi _

/-! ### Bytes -/

theorem overlay_get (xs : List TVal) (b : Bytes) (i : Nat) :
    (overlay xs b)[i]? = if i < xs.length ∧ i < b.length then (b[i]?).map .ofByte else xs[i]? := by
  induction xs generalizing b i with
  | nil => cases b <;> simp [overlay]
  | cons x xs ih =>
    cases b with
    | nil => simp [overlay]
    | cons c b =>
      cases i with
      | zero => simp [overlay]
      | succ i =>
        simp only [overlay, List.getElem?_cons_succ, ih, List.length_cons]
        simp only [Nat.add_lt_add_iff_right]

theorem overlay_length (xs : List TVal) (b : Bytes) : (overlay xs b).length = xs.length := by
  induction xs generalizing b with
  | nil => cases b <;> rfl
  | cons x xs ih => cases b <;> simp [overlay, ih]

theorem overlayMem_get {vs : List MVal} {off len i : Nat} (b : Bytes) (h : off + len ≤ vs.length) (hi : i < len) :
    (overlayMem vs off len b)[off + i]? = if i < b.length then (b[i]?).map .ofByte else vs[off + i]? := by
  unfold overlayMem
  rw [List.append_assoc, List.getElem?_append_right (by simp; omega)]
  rw [show off + i - (vs.take off).length = i by simp; omega]
  rw [List.take_of_length_le (l := b.take len) (by simp; omega)]
  by_cases hb : i < b.length
  · rw [if_pos hb, List.getElem?_append_left (by simp; omega), List.getElem?_map, List.getElem?_take, if_pos hi]
  · rw [if_neg hb, List.getElem?_append_right (by simp; omega), List.getElem?_drop]
    congr 1
    simp
    omega

theorem overlayMem_length {vs : List MVal} {off len : Nat} (b : Bytes) (h : off + len ≤ vs.length) :
    (overlayMem vs off len b).length = vs.length := by
  unfold overlayMem
  simp
  omega

/-- Bytes over bytes. -/
theorem depicts_overlay {m m' : Mem} {vs : List MVal} {xs : List TVal} {off len i : Nat} {k : UintK} {P : Nat → Prop} (b : Bytes)
    (h : off + len ≤ vs.length) (hi : i < len) (hx : xs.length = len)
    (hd : Depicts tc m (.uint k) P (vs.getD (off + i) .zero) (xs.getD i .zero)) :
    Depicts tc m' (.uint k) P ((overlayMem vs off len b).getD (off + i) .zero) ((overlay xs b).getD i .zero) := by
  rw [List.getD_eq_getElem?_getD, List.getD_eq_getElem?_getD, overlayMem_get b h hi, overlay_get]
  by_cases hb : i < b.length
  · rw [if_pos hb, if_pos ⟨by omega, hb⟩, List.getElem?_eq_getElem hb]
    exact .uint
  · rw [if_neg hb, if_neg (fun hh => hb hh.2), ← List.getD_eq_getElem?_getD, ← List.getD_eq_getElem?_getD]
    revert hd
    generalize vs.getD (off + i) .zero = w
    generalize xs.getD i .zero = x
    intro hd
    cases hd with
    | zero => exact .zero
    | uint => exact .uint

/-- Arrays, also those that are their zero value. -/
theorem depicts_arr {m : Mem} {n : Nat} {e : Ty} {w : MVal} (h : Depicts tc m (.arr n e) B w cur) :
    Depicts tc m (.arr n e) B w (.multi (cur.parts n)) ∧ (cur.parts n).length = n := by
  cases h with
  | zero =>
    refine ⟨.arr (fun _ _ => False) (by simp [TVal.parts]) (fun _ _ h => h.elim) (fun _ _ _ h => h.elim) fun i hi => ?_, by simp [TVal.parts]⟩
    rw [MVal.part_zero]
    simp only [TVal.parts]
    rw [List.getD_eq_getElem?_getD, List.getElem?_replicate, if_pos hi]
    exact .zero
  | arr P h1 h2 h3 h4 => exact ⟨.arr P h1 h2 h3 h4, h1⟩

/-- Structs, also those that are their zero value. -/
theorem depicts_strct {m : Mem} {id : Nat} {w : MVal} (h : Depicts tc m (.strct id) B w cur) :
    Depicts tc m (.strct id) B w (.multi (cur.parts (tc.types id).fields.length)) := by
  have zeros : ∀ w : MVal, (∀ i, (w.parts (tc.types id).fields.length).getD i .zero = .zero) →
      Depicts tc m (.strct id) B w (.multi (List.replicate (tc.types id).fields.length .zero)) := by
    intro w hw
    refine .strct (fun _ _ => False) (by simp) (fun _ _ h => h.elim) (fun _ _ _ h => h.elim) fun i f hf => ?_
    rw [hw, List.getD_eq_getElem?_getD, List.getElem?_replicate, if_pos (List.getElem?_eq_some_iff.1 hf).1]
    exact .zero
  cases h with
  | zero => exact zeros _ fun i => MVal.part_zero _ _
  | thawed =>
    refine zeros _ fun i => ?_
    show (List.replicate _ MVal.zero).getD i .zero = _
    rw [List.getD_eq_getElem?_getD, List.getElem?_replicate]
    split <;> rfl
  | strct P h1 h2 h3 h4 => exact .strct P h1 h2 h3 h4

theorem setBinary_over {l : Spot} {off n cap : Nat} {b : Bytes} (hty : t.ty = .slice (.uint .uint8)) (hro : ¬ t.ro = true)
    (hw : t.now s.mem = .slice l off n cap) :
    t.setBinary b s = (.ok (), { s with mem := s.mem.put l (.multi (overlayMem ((s.mem.get l).parts cap) off n b)) }) := by
  obtain ⟨ty, p, ro⟩ := t
  cases hty
  refine (M.bind_eq (Target.read_now _ s)).trans ?_
  rw [hw]
  exact M.bind_eq (M.failIf_pass hro)

theorem setBinary_new {b : Bytes} (hty : t.ty = .slice (.uint .uint8)) (hw : t.now s.mem = .zero) :
    t.setBinary b s = t.makeSlice (b.map .ofByte) s := by
  obtain ⟨ty, p, ro⟩ := t
  cases hty
  refine (M.bind_eq (Target.read_now _ s)).trans ?_
  rw [hw]

theorem setBinary_arr {b : Bytes} {n : Nat} (hty : t.ty = .arr n (.uint .uint8)) :
    t.setBinary b s = t.write (.multi (overlayMem ((t.now s.mem).parts n) 0 n b)) s := by
  obtain ⟨ty, p, ro⟩ := t
  cases hty
  exact M.bind_eq (Target.read_now _ s)

theorem setBinary_str {b : Bytes} (hty : t.ty = .str) : t.setBinary b s = t.write (.str b) s := by
  obtain ⟨ty, p, ro⟩ := t
  cases hty
  rfl

theorem sim_setBinary (ho : Owned t B s.mem) (hd : Depicts tc s.mem t.ty B (t.now s.mem) cur) (b : Bytes) :
    Sims (setBinary t.ty t.acc cur b) (t.setBinary b) s fun v _ s' => Became tc t B s.mem s'.mem v := by
  unfold setBinary
  split
  · next hty =>
    rw [hty] at hd
    generalize hw : t.now s.mem = w at hd
    cases hd with
    | zero =>
      refine .congr (setBinary_new hty hw) ?_
      show Sims (assign t.acc (.slice (b.map .ofByte))) _ s _
      refine .mono (sim_makeSlice ho hty (by rw [hw]; exact id) (by simp) ?_) fun _ _ _ h => h.2.1
      intro i hi m
      simp only [List.length_map] at hi
      rw [List.getD_eq_getElem?_getD, List.getD_eq_getElem?_getD, List.getElem?_map, List.getElem?_map, List.getElem?_eq_getElem hi]
      exact .uint
    | @slice _ _ a off n cap vs P h1 h2 h3 h4 h5 h6 =>
      show Sims (if t.acc = .ro then D.fail (.panic "reflect: using unexported field") else Pure.pure (TVal.slice (overlay vs b))) _ s _
      intro v d' hv
      split at hv
      · cases hv
      · next hro =>
        cases hv
        have hr : ¬ t.ro = true := fun h => hro (Target.acc_ro.2 h)
        refine ⟨(), _, setBinary_over hty hr hw, rfl, ?_⟩
        dsimp only
        have hlen : off + n ≤ ((s.mem.get ⟨a, []⟩).parts cap).length := by rw [MVal.parts_length]; exact h2
        have ha : a < s.mem.next := ho.below a h3
        have other : ∀ c, c ≠ a → (s.mem.put ⟨a, []⟩ (.multi (overlayMem ((s.mem.get ⟨a, []⟩).parts cap) off n b))).vars c = s.mem.vars c :=
          fun c hc => if_neg hc
        have hne : ∀ l, t.place = .var l → l.base ≠ a := fun l hl e => (ho.here l hl).2.2 (e ▸ h3)
        have hnow : t.now (s.mem.put ⟨a, []⟩ (.multi (overlayMem ((s.mem.get ⟨a, []⟩).parts cap) off n b))) = t.now s.mem := by
          unfold Target.now
          cases hp : t.place with
          | tmp w => rfl
          | var l => exact Mem.get_congr (other _ (hne l hp))
        refine ⟨⟨Nat.le_refl _, fun _ _ _ => rfl, fun c _ hc _ => other c fun e => hc (e ▸ h3), fun l z hl hz _ => ?_⟩,
          fun _ _ => .inr hnow, B, fun c hc => ⟨ho.below c hc, .inl hc⟩, ?_⟩
        · exact Mem.get_congr (other _ (by rw [hz]; exact hne l hl))
        · rw [hnow, hw, hty]
          refine .slice P (by rw [overlay_length]; exact h1) h2 h3 h4 h5 fun i hi => ?_
          rw [Mem.get_sub, Mem.get_put _ (Spot.Ok.nil a), MVal.part_multi (by omega)]
          refine depicts_overlay (m := s.mem) b hlen hi h1 ?_
          rw [← Mem.get_sub]
          exact h6 i hi
  · exact .fail
  · next n hty =>
    rw [hty] at hd
    refine .congr (setBinary_arr hty) ?_
    obtain ⟨h1, h2⟩ := depicts_arr hd
    refine .mono (sim_write ho (.refl ..) (fun c hc => ⟨ho.below c hc, .inl hc⟩) ?_ fun h => by rw [hty] at h; exact h.elim) fun _ _ _ h => h.2.1
    rw [hty]
    generalize t.now s.mem = w at h1 ⊢
    cases h1 with
    | arr P k1 k2 k3 k4 =>
      refine .arr P (by rw [overlay_length]; exact h2) k2 k3 fun i hi => ?_
      rw [MVal.part_multi hi]
      have := depicts_overlay (m' := s.mem) (vs := w.parts n) (off := 0) (len := n) b (by rw [MVal.parts_length]; omega) hi h2 (by rw [Nat.zero_add]; exact k4 i hi)
      rwa [Nat.zero_add] at this
  · exact .fail
  · next hty => exact .congr (setBinary_str hty) (sim_scalar ho (by rw [hty]; exact .str) (by rw [hty]; exact id))
  · exact .fail

theorem sim_undef (cfg : DCfg) (c : Bool) (ho : Owned t B s.mem) (hd : Depicts tc s.mem t.ty B (t.now s.mem) cur) :
    Sims (undefTyped cfg c t.ty cur t.acc) (undefMem cfg c t) s fun v _ s' => Became tc t B s.mem s'.mem v := by
  unfold undefTyped undefMem
  refine .ite (fun _ => sim_setPerl ho _) fun _ => .ite (fun _ => .both fun a s' hs => ?_) fun _ => ?_
  · rw [← hs]
    exact sim_setPerl (by rw [hs]; exact ho) _
  · have z : Sims (assign t.acc .zero) (t.write .zero) s fun v _ s' => Became tc t B s.mem s'.mem v :=
      .mono (sim_write ho (.refl ..) (B' := fun _ => False) (fun _ h => h.elim) .zero fun _ _ => .inl rfl) fun _ _ _ h => h.2.1
    have k : Sims (Pure.pure cur : D TVal) (Pure.pure () : M Unit) s fun v _ s' => Became tc t B s.mem s'.mem v := .pure (.refl ho hd)
    cases hty : t.ty <;> first | exact z | exact k

end

end Sereal

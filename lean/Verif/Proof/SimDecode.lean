import Verif.Proof.SimLoops
import Verif.Proof.MemTags
import Verif.Proof.MemSafe
import Verif.Proof.TypedApi
/-
The model with addresses follows the model without: arrays, hashes, objects, and the decode function.
-/
namespace Sereal

section
variable {tc : TCfg} {cfg : DCfg} {buf : Bytes} {rec : Rec} {mrec : MRec}

theorem sim_array {t : Target} {B : Nat → Prop} {s : MSt} {cur : TVal} (hrec : SimRec tc rec mrec) (ho : Owned t B s.mem)
    (hd : Depicts tc s.mem t.ty B (t.now s.mem) cur) (idx : Nat) (ln : Int) :
    Sims (arrayTyped cfg buf rec idx ln t.ty cur t.acc) (arrayMem cfg buf mrec idx ln t) s (Ends tc t B s.mem) := by
  unfold arrayTyped arrayMem
  refine .failIf id fun _ => .failIf id fun _ => ?_
  cases hty : t.ty <;> try exact .err
  · next e =>
    rw [hty] at hd
    refine .congr (y' := (if (t.now s.mem).len = 0 then t.makeSlice (List.replicate ln.toNat .zero) else Pure.pure ()) >>= fun _ =>
      t.read >>= fun v => elemsMem cfg buf mrec t v.len ln.toNat 0 idx) ?_ ?_
    · refine (M.bind_eq (Target.read_now t s)).trans ?_
      by_cases h : (t.now s.mem).len = 0
      · rw [if_pos h, if_pos h]
      · rw [if_neg h, if_neg h]; rfl
    refine .bind (P := fun c _ s' => ∃ vs, c = .slice vs ∧ Became tc t B s.mem s'.mem c) ?_ ?_
    · have make : ¬ (t.now s.mem).isHandle → Sims (assign t.acc (.slice (List.replicate ln.toNat .zero)))
          (t.makeSlice (List.replicate ln.toNat .zero)) s fun c _ s' => ∃ vs, c = .slice vs ∧ Became tc t B s.mem s'.mem c := by
        intro hn
        refine .mono (sim_makeSlice ho hty hn (by simp) ?_) fun c _ s' h => ⟨_, h.1, h.2.1⟩
        intro i hi m
        simp only [List.length_replicate] at hi
        rw [List.getD_eq_getElem?_getD, List.getD_eq_getElem?_getD, List.getElem?_replicate, List.getElem?_replicate, if_pos hi, if_pos hi]
        exact .zero
      have hd' := hd
      generalize hw : t.now s.mem = w at hd hd' make ⊢
      cases hd with
      | zero => exact make id
      | @slice _ _ a off n cap vs P h1 h2 h3 h4 h5 h6 =>
        cases vs with
        | nil =>
          have : n = 0 := h1.symm
          subst this
          exact make fun h => h rfl
        | cons v vs =>
          have hn : ¬ (MVal.slice ⟨a, []⟩ off n cap).len = 0 := by show ¬ n = 0; rw [← h1]; simp
          rw [if_neg hn]
          refine .pure ⟨_, rfl, .refl ho ?_⟩
          rw [hty, hw]; exact hd'
    · rintro c u s1 ⟨vs, rfl, hb⟩
      refine .right (Target.read_now t s1) rfl ?_
      obtain ⟨B1, hB1, hd1⟩ := hb.holds
      rw [hty] at hd1
      generalize hw : t.now s1.mem = w at hd1 ⊢
      cases hd1 with
      | @slice _ _ a off n cap _ P h1 h2 h3 h4 h5 h6 =>
        have := sim_elems_slice (cfg := cfg) (buf := buf) hrec ho hty ln.toNat [] vs idx s1 hb
        rw [List.length_nil, Nat.zero_add, h1] at this
        intro r d' hr
        obtain ⟨⟨i2, vs2⟩, d2, hr1, hr2⟩ := D.bind_ok.1 hr
        cases hr2
        exact this _ _ hr1
  · next k e =>
    rw [hty] at hd
    obtain ⟨h1, h2⟩ := depicts_arr hd
    have := sim_elems_arr (cfg := cfg) (buf := buf) hrec ho hty ln.toNat [] (cur.parts k) idx s (by simpa using h2)
      (.refl ho (by rw [hty]; exact h1))
    intro r d' hr
    obtain ⟨⟨i2, vs2⟩, d2, hr1, hr2⟩ := D.bind_ok.1 hr
    cases hr2
    exact this _ _ hr1

/-- Following a pointer. -/
theorem deref_run {t : Target} {B : Nat → Prop} {s : MSt} {cur : TVal} {e : Ty} (ho : Owned t B s.mem) (hty : t.ty = .ptr e)
    (hd : Depicts tc s.mem t.ty B (t.now s.mem) cur) (hz : cur.isZero = true → t.acc = .rw) :
    ∃ s1 a, t.deref e s = (.ok (t.at e ⟨a, []⟩), s1) ∧ s1.d = s.d ∧ Became tc t B s.mem s1.mem (.ptr cur.pointee) ∧
      t.now s1.mem = .ptr ⟨a, []⟩ := by
  have hd' := hd
  rw [hty] at hd
  generalize hw : t.now s.mem = w at hd
  cases hd with
  | zero =>
    obtain ⟨h1, l, h2⟩ := Target.acc_rw (hz rfl)
    refine ⟨{ s with mem := (s.mem.new .zero).put l (.ptr ⟨s.mem.next, []⟩) }, s.mem.next, ?_, rfl, ?_, ?_⟩
    · refine (M.bind_eq (Target.read_now t s)).trans ?_
      rw [hw]
      refine (M.bind_eq (show newVar .zero s = (.ok ⟨s.mem.next, []⟩, { s with mem := s.mem.new .zero }) from rfl)).trans ?_
      exact M.bind_eq (Target.write_var h2 h1 _ _)
    · refine Became.put (B' := fun b => b = s.mem.next) ho h2 ((Changed.refl ..).new ho _) ?_ ?_ fun _ h => by rw [hw] at h; exact h.elim
      · rintro b rfl; exact ⟨Nat.lt_succ_self _, .inr (Nat.le_refl _)⟩
      · rw [hty]
        refine .ptr (fun _ => False) rfl (fun _ h => h.elim) ?_
        rw [Mem.get_new_here]; exact .zero
    · unfold Target.now; rw [h2]; exact Mem.get_put _ (ho.here l h2).1 _
  | @ptr _ _ a v P h1 h2 h3 =>
    refine ⟨s, a, ?_, rfl, .refl ho hd', hw⟩
    refine (M.bind_eq (Target.read_now t s)).trans ?_
    rw [hw]
    rfl

theorem sim_hash (hrec : SimRec tc rec mrec) (idx n : Nat) (ty : Ty) :
    ∀ (t : Target) (B : Nat → Prop) (s : MSt) (cur : TVal), t.ty = ty → Owned t B s.mem →
      Depicts tc s.mem t.ty B (t.now s.mem) cur →
      Sims (hashTyped cfg tc buf rec idx n ty cur t.acc) (hashMem cfg tc buf mrec idx n ty t) s (Ends tc t B s.mem) := by
  induction ty with
  | map e ih =>
    intro t B s cur hty ho hd
    unfold hashTyped hashMem
    have hd' := hd
    rw [hty] at hd
    refine .congr (y' := (if (t.now s.mem).isZero = true then newMap >>= fun m => t.write (.map m) else Pure.pure ()) >>= fun _ =>
      entriesMem buf mrec e t n idx) ?_ ?_
    · refine (M.bind_eq (Target.read_now t s)).trans ?_
      by_cases h : (t.now s.mem).isZero = true
      · rw [if_pos h, if_pos h]; rfl
      · rw [if_neg h, if_neg h]; rfl
    refine .bind (P := fun c _ s' => ∃ kvs, c = .map kvs ∧ Became tc t B s.mem s'.mem c) ?_ ?_
    · generalize hw : t.now s.mem = w at hd ⊢
      cases hd with
      | zero =>
        show Sims (assign t.acc (.map [])) (newMap >>= fun m => t.write (.map m)) s _
        refine .right (s1 := { s with mem := s.mem.newMap }) (b := s.mem.next) rfl rfl ?_
        refine .mono (sim_write (s := { s with mem := s.mem.newMap }) (m := s.mem) (B' := fun b => b = s.mem.next) ho
          (Changed.refl ..).newMap ?_ ?_ fun _ h => by rw [hw] at h; exact h.elim) fun _ _ _ h => ⟨_, h.1, h.2.1⟩
        · rintro b rfl; exact ⟨Nat.lt_succ_self _, .inr (Nat.le_refl _)⟩
        · rw [hty]
          have : s.mem.newMap.maps s.mem.next = [] := if_pos rfl
          refine .map (fun _ _ => False) rfl (fun _ _ h => h.elim) (fun _ _ _ h => h.elim) (fun k => by rw [this]; rfl) ?_
          intro k w x hk
          rw [this] at hk
          cases hk
      | map P h1 h2 h3 h4 h5 => exact .pure ⟨_, rfl, .refl ho hd'⟩
    · rintro c u s1 ⟨kvs, rfl, hb⟩
      have := sim_entries (buf := buf) hrec ho hty n kvs idx s1 hb
      intro r d' hr
      obtain ⟨⟨i2, vs2⟩, d2, hr1, hr2⟩ := D.bind_ok.1 hr
      cases hr2
      exact this _ _ hr1
  | ptr e ih =>
    intro t B s cur hty ho hd
    unfold hashTyped hashMem
    intro r d' hr
    obtain ⟨c, d1, hr1, hr2⟩ := D.bind_ok.1 hr
    have hc : d1 = s.d ∧ c.pointee = cur.pointee ∧ (cur.isZero = true → t.acc = .rw) := by
      unfold orMake at hr1
      split at hr1
      · next hz =>
        unfold assign at hr1
        split at hr1
        · next ha =>
          cases hr1
          refine ⟨rfl, ?_, fun _ => ha⟩
          cases cur <;> first | rfl | cases hz
        · cases hr1
      · next hz =>
        cases hr1
        exact ⟨rfl, rfl, fun h => absurd h hz⟩
    obtain ⟨rfl, hp, hz⟩ := hc
    obtain ⟨s1, a, e1, e2, e3, e4⟩ := deref_run ho hty hd hz
    obtain ⟨⟨i2, v2⟩, d2, hr3, hr4⟩ := D.bind_ok.1 hr2
    cases hr4
    obtain ⟨B1, hB1, hd1⟩ := e3.holds
    have ho1 := ho.later e3.changed.next hB1
    rw [hty, e4] at hd1
    cases hd1 with
    | ptr P h1 h2 h3 =>
      have := ih (t.at e ⟨a, []⟩) P s1 cur.pointee rfl (ho1.behind (Spot.Ok.nil a) h1 h2) h3
      rw [Target.acc_at] at this
      rw [hp, ← e2] at hr3
      obtain ⟨b, s', k1, k2, k3, k4⟩ := this _ _ hr3
      refine ⟨b, s', ?_, k2, k3, e3.go (by intro h; cases h) hB1 (Became.pointee ho1 hty e4 h1 h2 k4)⟩
      rw [M.bind_eq e1]; exact k1
  | strct id =>
    intro t B s cur hty ho hd
    unfold hashTyped hashMem
    rw [hty] at hd
    have := sim_fields (cfg := cfg) (buf := buf) hrec ho hty n _ idx s (.refl ho (by rw [hty]; exact depicts_strct hd))
    intro r d' hr
    obtain ⟨⟨i2, vs2⟩, d2, hr1, hr2⟩ := D.bind_ok.1 hr
    cases hr2
    exact this _ _ hr1
  | _ => intros; exact .err

theorem unaddressable_rw {t : Target} (h : t.acc = .rw) : ¬ t.unaddressable := by
  obtain ⟨h1, l, h2⟩ := Target.acc_rw h
  rintro (h | ⟨v, h⟩)
  · rw [h1] at h; cases h
  · rw [h2] at h; cases h

theorem unmarshal_some {t : Target} {B : Nat → Prop} {s : MSt} {cur v : TVal} {data : Bytes} {d' : DState} (ho : Owned t B s.mem)
    (hd : Depicts tc s.mem t.ty B (t.now s.mem) cur) (h : unmarshalBinary tc t.ty cur t.acc data s.d = (.ok (some v), d')) :
    ∃ s', unmarshalMem tc t data s = (.ok true, s') ∧ s'.d = d' ∧ Became tc t B s.mem s'.mem v := by
  generalize hty : t.ty = ty at h
  generalize hacc : t.acc = acc at h
  unfold unmarshalBinary at h
  split at h
  · next id =>
    subst hacc
    split at h
    · cases h
    · next ha =>
      have ha' : t.acc = .rw := by simpa using ha
      cases hf : (tc.types id).unmarshal with
      | none => rw [hf] at h; cases h
      | some f =>
        rw [hf] at h
        dsimp only at h
        cases hn : f data with
        | some k => rw [hn] at h; cases h
        | none =>
          rw [hn] at h
          cases h
          obtain ⟨h1, l, h2⟩ := Target.acc_rw ha'
          refine ⟨{ s with mem := s.mem.put l (.opaque data) }, ?_, rfl, ?_⟩
          · unfold unmarshalMem
            rw [hty]
            refine (M.bind_eq (M.failIf_pass (unaddressable_rw ha'))).trans ?_
            rw [h2, hf]
            refine (M.bind_eq (show callUnmarshal f data l s = (.ok (), { s with mem := s.mem.put l (.opaque data) }) from ?_)).trans rfl
            unfold callUnmarshal; rw [hn]
          · exact Became.put (B' := fun _ => False) ho h2 (.refl ..) (fun _ h => h.elim) (by rw [hty]; exact .thawed)
              fun h => by rw [hty] at h; exact h.elim
  · next id =>
    subst hacc
    split at h
    · cases h
    · next ha =>
      have hro : ¬ t.ro = true := fun h => ha (.inl (Target.acc_ro.2 h))
      have hz : cur.isZero = true → t.acc = .rw := fun h => Decidable.byContradiction fun h' => ha (.inr ⟨h, h'⟩)
      cases hf : (tc.types id).unmarshal with
      | none =>
        rw [hf] at h
        dsimp only at h
        split at h <;> cases h
      | some f =>
        rw [hf] at h
        dsimp only at h
        cases hn : f data with
        | some k => rw [hn] at h; cases h
        | none =>
          rw [hn] at h
          cases h
          obtain ⟨s1, a, e1, e2, e3, e4⟩ := deref_run ho hty hd hz
          obtain ⟨B1, hB1, hd1⟩ := e3.holds
          have ho1 := ho.later e3.changed.next hB1
          rw [hty, e4] at hd1
          cases hd1 with
          | ptr P h1 h2 h3 =>
            refine ⟨{ s1 with mem := s1.mem.put ⟨a, []⟩ (.opaque data) }, ?_, e2, ?_⟩
            · unfold unmarshalMem
              rw [hty]
              refine (M.bind_eq e1).trans ?_
              refine (M.bind_eq (M.failIf_pass hro)).trans ?_
              show (match (tc.types id).unmarshal with
                | some f => _
                | none => _ : M Bool) s1 = _
              rw [hf]
              refine (M.bind_eq (show callUnmarshal f data ⟨a, []⟩ s1 = (.ok (), { s1 with mem := s1.mem.put ⟨a, []⟩ (.opaque data) }) from ?_)).trans rfl
              unfold callUnmarshal; rw [hn]
            · refine e3.go (by intro h; cases h) hB1 (Became.pointee ho1 hty e4 h1 h2 ?_)
              exact Became.put (t := t.at (.strct id) ⟨a, []⟩) (B' := fun _ => False) (ho1.behind (Spot.Ok.nil a) h1 h2) rfl (.refl ..)
                (fun _ h => h.elim) .thawed fun h => h.elim
  · cases h
  · split at h <;> cases h

theorem unmarshal_none {t : Target} {s : MSt} {cur : TVal} {data : Bytes} {d' : DState} (hty : t.ty = .slice (.uint .uint8))
    (h : unmarshalBinary tc t.ty cur t.acc data s.d = (.ok none, d')) :
    unmarshalMem tc t data s = (.ok false, s) ∧ s.d = d' := by
  rw [hty] at h
  have ha : t.acc = .rw := by
    refine Decidable.byContradiction fun hn => ?_
    have : unmarshalBinary tc (.slice (.uint .uint8)) cur t.acc data = D.fail (.panic "reflect: using unaddressable value or unexported field") := if_pos hn
    rw [this] at h
    cases h
  rw [ha] at h
  cases h
  refine ⟨?_, rfl⟩
  unfold unmarshalMem
  rw [hty]
  exact M.bind_eq (M.failIf_pass (unaddressable_rw ha))

theorem sim_freeze {t : Target} {B : Nat → Prop} {s : MSt} {cur : TVal} (ho : Owned t B s.mem)
    (hd : Depicts tc s.mem t.ty B (t.now s.mem) cur) (idx : Nat) (isV : Bool) :
    Sims (freezeTyped cfg tc buf idx t.ty cur t.acc isV) (freezeMem cfg tc buf idx t isV) s (Ends tc t B s.mem) := by
  unfold freezeTyped freezeMem
  refine .both ?_
  rintro ⟨cn, idx⟩ s1 e1
  refine .failIf id fun _ => ?_
  refine .both fun t0 s2 e2 => ?_
  refine .both fun t1 s3 e3 => ?_
  refine .failIf id fun _ => ?_
  refine .both ?_
  rintro ⟨idx, v⟩ s4 e4
  have e : s4.mem = s.mem := by rw [e4, e3, e2, e1]
  clear e4 e3 e2 e1
  dsimp only
  cases v <;> try exact .err
  dsimp only
  refine .failIf id fun _ => ?_
  refine .both fun x s5 e5 => ?_
  have e : s5.mem = s.mem := by rw [e5, e]
  clear e5
  rw [← e] at ho hd ⊢
  cases x <;> try exact .err
  next data =>
  refine .ite (fun _ => .both fun o s6 e6 => ?_) fun _ => ?_
  · rw [← e6] at ho hd ⊢
    exact .fin (sim_setPerl ho _)
  · intro r d' hr
    obtain ⟨o, d1, hr1, hr2⟩ := D.bind_ok.1 hr
    cases o with
    | some v =>
      cases hr2
      obtain ⟨s', k1, k2, k3⟩ := unmarshal_some ho hd hr1
      exact ⟨idx, s', (M.bind_eq k1).trans rfl, k2, rfl, k3⟩
    | none =>
      dsimp only at hr2
      split at hr2
      · next hc =>
        obtain ⟨k1, k2⟩ := unmarshal_none hc.1 hr1
        have hw : t.now s5.mem = .zero := by
          rw [hc.1] at hd
          generalize t.now s5.mem = w at hd
          cases hd with
          | zero => rfl
          | slice => cases hc.2
        have mk : Sims (assign t.acc (.slice (data.map .ofByte)) >>= fun v => Pure.pure (idx, v))
            (t.makeSlice (data.map .ofByte) >>= fun _ => Pure.pure idx) s5 (Ends tc t B s5.mem) := by
          refine .fin (.mono (sim_makeSlice ho hc.1 (by rw [hw]; exact id) (by simp) ?_) fun _ _ _ h => h.2.1)
          intro i hi m
          simp only [List.length_map] at hi
          rw [List.getD_eq_getElem?_getD, List.getD_eq_getElem?_getD, List.getElem?_map, List.getElem?_map, List.getElem?_eq_getElem hi]
          exact .uint
        rw [← k2] at hr2
        obtain ⟨b, s', q1, q2, q3⟩ := mk _ _ hr2
        refine ⟨b, s', ?_, q2, q3⟩
        refine (M.bind_eq k1).trans ?_
        refine (M.bind_eq (Target.read_now t s5)).trans ?_
        rw [if_pos ⟨hc.1, by rw [hw]; rfl⟩]
        exact q1
      · cases hr2

theorem Sims.withCopy {x : D α} {y : M β} {s : MSt} {Q : α → β → Mem → Prop}
    (h : Sims x y { s with d := { s.d with copyDepth := s.d.copyDepth + 1 } } fun a b s' => Q a b s'.mem) :
    Sims (Sereal.withCopy x) (withCopyMem y) s fun a b s' => Q a b s'.mem := by
  intro a d' ha
  unfold Sereal.withCopy at ha
  split at ha
  · next a1 d1 h1 =>
    cases ha
    obtain ⟨b, s', e1, e2, e3⟩ := h _ _ h1
    refine ⟨b, { s' with d := { s'.d with copyDepth := s'.d.copyDepth - 1 } }, ?_, by rw [← e2], e3⟩
    unfold withCopyMem
    rw [e1]
  · cases ha
  · cases ha

theorem sim_track {t : Target} {s : MSt} (i : Nat) :
    Sims (trackTyped i) (trackMem i t) s fun _ _ s' => s'.mem = s.mem := by
  unfold trackTyped trackMem
  refine .both fun a s1 e1 => ?_
  intro u d' h
  exact ⟨(), _, M.bind_eq (M.lift_eq h), rfl, e1⟩

theorem refpTyped_fails {i : Nat} {isREFP : Bool} {s s' : DState} {r : Nat × TVal} : refpTyped buf i isREFP s ≠ (.ok r, s') := by
  intro h
  obtain ⟨⟨offs, sz⟩, d1, h1, h2⟩ := D.bind_ok.1 h
  obtain ⟨u, d2, h3, h4⟩ := D.bind_ok.1 h2
  obtain ⟨st, d3, h5, h6⟩ := D.bind_ok.1 h4
  revert h6
  cases st.tracked offs.toNat with
  | none => cases isREFP <;> exact fun h => by cases h
  | some l => exact fun h => by cases h

theorem sim_tags {t : Target} {B : Nat → Prop} {s : MSt} {cur : TVal} (hrec : SimRec tc rec mrec) (ho : Owned t B s.mem)
    (hd : Depicts tc s.mem t.ty B (t.now s.mem) cur) (c : TagC) (idx tag : Nat) :
    Sims (typedC cfg tc buf rec c idx t.ty cur t.acc tag) (memC cfg tc buf mrec c idx t tag) s (Ends tc t B s.mem) := by
  have object : ∀ isV, Sims (decodeClassName buf idx isV >>= fun p =>
        if cfg.perlCompat = true then allocVar (.obj p.1 .nil) >>= fun a => setPerl t.ty t.acc (.ptr false a) >>= fun v =>
          Sereal.decode cfg buf (fuelFor buf.length) p.2 (.field a) >>= fun i => Pure.pure (i, v)
        else rec p.2 t.ty cur t.acc)
      (M.lift (decodeClassName buf idx isV) >>= fun p =>
        if cfg.perlCompat = true then M.lift (allocVar (.obj p.1 .nil)) >>= fun a => t.setPerl (.ptr false a) >>= fun _ =>
          M.lift (Sereal.decode cfg buf (fuelFor buf.length) p.2 (.field a))
        else mrec p.2 t) s (Ends tc t B s.mem) := by
    intro isV
    refine .both ?_
    rintro p s1 e1
    rw [← e1] at ho hd ⊢
    refine .ite (fun _ => ?_) fun _ => hrec _ _ _ _ _ ho hd
    refine .both fun a s2 e2 => ?_
    rw [← e2] at ho hd ⊢
    refine .bind (sim_setPerl (tc := tc) ho _) fun v _ s3 hb => .last fun j s4 e4 => ⟨rfl, ?_⟩
    rw [e4]; exact hb
  cases c with
  | int i => exact .fin (sim_setInt ho _)
  | varint =>
    refine .both ?_
    rintro ⟨v, sz⟩ s1 e1
    rw [← e1] at ho hd ⊢
    exact .fin (sim_setInt ho _)
  | zigzag =>
    refine .both ?_
    rintro ⟨v, sz⟩ s1 e1
    rw [← e1] at ho hd ⊢
    exact .fin (sim_setInt ho _)
  | float =>
    refine .both ?_
    rintro ⟨v, sz⟩ s1 e1
    rw [← e1] at ho hd ⊢
    exact .fin (sim_setFloat ho _)
  | double =>
    refine .both ?_
    rintro ⟨v, sz⟩ s1 e1
    rw [← e1] at ho hd ⊢
    exact .fin (sim_setFloat ho _)
  | true_ => exact .fin (sim_setBool ho _)
  | false_ => exact .fin (sim_setBool ho _)
  | binary =>
    refine .both ?_
    rintro ⟨v, sz⟩ s1 e1
    rw [← e1] at ho hd ⊢
    refine .both ?_
    rintro ⟨v, sz⟩ s2 e2
    rw [← e2] at ho hd ⊢
    exact .fin (sim_setBinary ho hd _)
  | short n =>
    refine .both ?_
    rintro ⟨v, sz⟩ s2 e2
    rw [← e2] at ho hd ⊢
    exact .fin (sim_setBinary ho hd _)
  | strUtf8 =>
    refine .both ?_
    rintro ⟨v, sz⟩ s1 e1
    rw [← e1] at ho hd ⊢
    refine .both ?_
    rintro ⟨v, sz⟩ s2 e2
    rw [← e2] at ho hd ⊢
    exact .fin (sim_setString ho _)
  | hash =>
    refine .both ?_
    rintro ⟨ln, sz⟩ s1 e1
    rw [← e1] at ho hd ⊢
    refine .both fun _ s2 e2 => ?_
    rw [← e2] at ho hd ⊢
    exact sim_hash hrec _ _ _ t B s2 cur rfl ho hd
  | hashref n =>
    refine .both fun _ s2 e2 => ?_
    rw [← e2] at ho hd ⊢
    exact sim_hash hrec _ _ _ t B s2 cur rfl ho hd
  | array =>
    refine .both ?_
    rintro ⟨ln, sz⟩ s1 e1
    rw [← e1] at ho hd ⊢
    exact sim_array hrec ho hd _ _
  | arrayref n => exact sim_array hrec ho hd _ _
  | undef => exact .fin (sim_undef cfg _ ho hd)
  | cundef => exact .fin (sim_undef cfg _ ho hd)
  | copy =>
    show Sims (D.get >>= fun st => D.failIf (st.copyDepth > 0) (.err (.corrupt .nestedCOPY)) >>= fun _ => _)
      (M.get >>= fun st => M.failIf (st.d.copyDepth > 0) (.err (.corrupt .nestedCOPY)) >>= fun _ => _) s _
    refine .bind (P := fun a b s' => a = b.d ∧ s' = s) (fun a d' h => ?_) ?_
    · cases h
      exact ⟨s, s, rfl, rfl, rfl, rfl⟩
    rintro a b s' ⟨rfl, rfl⟩
    refine .failIf id fun _ => ?_
    refine .both ?_
    rintro ⟨offs, sz⟩ s1 e1
    rw [← e1] at ho hd ⊢
    refine .failIf id fun _ => ?_
    refine .bind (P := fun r _ s' => Became tc t B s1.mem s'.mem r.2)
      (.withCopy (Q := fun r _ m' => Became tc t B s1.mem m' r.2) (.mono (hrec _ _ _ _ _ ho hd) fun _ _ _ h => h.2)) ?_
    rintro ⟨i, v⟩ _ s2 hb
    exact .pure ⟨rfl, hb⟩
  | refn => exact hrec _ _ _ _ _ ho hd
  | refp => exact fun a d' h => (refpTyped_fails h).elim
  | alias => exact fun a d' h => (refpTyped_fails h).elim
  | weaken =>
    refine .ite (fun _ => ?_) fun _ => hrec _ _ _ _ _ ho hd
    refine .both fun a s2 e2 => ?_
    rw [← e2] at ho hd ⊢
    refine .bind (sim_setPerl (tc := tc) ho _) fun v _ s3 hb => .last fun j s4 e4 => ⟨rfl, ?_⟩
    rw [e4]; exact hb
  | regexp =>
    refine .both ?_
    rintro ⟨p, q, i⟩ s1 e1
    rw [← e1] at ho hd ⊢
    refine .both fun a s2 e2 => ?_
    rw [← e2] at ho hd ⊢
    exact .fin (sim_setPerl ho _)
  | object => exact object false
  | objectv => exact object true
  | freeze => exact sim_freeze ho hd _ _
  | freezev => exact sim_freeze ho hd _ _
  | pad => exact .err
  | other => exact .err

/-- The decode functions correspond. -/
theorem sim_decode (f : Nat) : SimRec tc (decodeTyped cfg tc buf f) (decodeMem cfg tc buf f) := by
  induction f with
  | zero => intro idx t cur B s _ _; exact .fail
  | succ f ih =>
    intro idx t cur B s ho hd
    rw [decodeTyped_succ]
    unfold decodeMem
    refine .failIf id fun _ => ?_
    refine .right (Target.read_now t s) rfl ?_
    by_cases hc : t.ty = .iface ∧ cur.isZero = true
    · have hw : (t.now s.mem).isZero = true := by
        rw [hc.1] at hd
        generalize t.now s.mem = w at hd ⊢
        cases hd with
        | zero => rfl
        | iface => exact hc.2
      rw [if_pos hc, if_pos ⟨hc.1, hw⟩]
      refine .both ?_
      rintro ⟨i, v⟩ s1 e1
      rw [← e1] at ho hd ⊢
      by_cases hv : v = .nil
      · subst hv
        exact .pure ⟨rfl, .refl ho hd⟩
      · dsimp only
        rw [if_pos hv, if_pos hv]
        exact .fin (sim_scalar ho (by rw [hc.1]; exact .iface) (by rw [hc.1]; exact id))
    · have hw : ¬ (t.ty = .iface ∧ (t.now s.mem).isZero = true) := by
        rintro ⟨h1, h2⟩
        rw [h1] at hd
        generalize t.now s.mem = w at hd h2
        cases hd with
        | zero => exact hc ⟨h1, rfl⟩
        | iface => cases h2
      rw [if_neg hc, if_neg hw]
      refine .both ?_
      rintro ⟨i, tag⟩ s1 e1
      rw [← e1] at ho hd ⊢
      have rest : ∀ s2 : MSt, s2.mem = s1.mem → Sims (typedC cfg tc buf (decodeTyped cfg tc buf f) (classify (tag.toNat % 128)) (i + 1) t.ty cur t.acc (tag.toNat % 128))
          (tagMem cfg tc buf (decodeMem cfg tc buf f) (tag &&& ~~~ trackFlag) (i + 1) t) s2 (Ends tc t B s1.mem) := by
        intro s2 e2
        rw [tagMem_eq _ _ _ _ _ _ _ (untracked_lt _), and_not_track]
        rw [← e2] at ho hd ⊢
        exact sim_tags ih ho hd _ _ _
      by_cases ht : 128 ≤ tag.toNat
      · dsimp only
        rw [if_pos ht, if_pos ((and_track _).2 ht)]
        exact .bind (sim_track _) fun _ _ s2 e2 => rest s2 e2
      · dsimp only
        rw [if_neg ht, if_neg fun h => ht ((and_track _).1 h)]
        exact rest s1 rfl

/-- Unmarshal: the model with addresses follows the model without. -/
theorem unmarshalInto_follows {cs : Codecs} {b : Bytes} {ty : Ty} {l : Spot} {mem : Mem} {B : Nat → Prop} {cur v : TVal} {h : Heap}
    (ho : Owned { ty := ty, place := .var l } B mem) (hd : Depicts tc mem ty B (mem.get l) cur)
    (hu : unmarshalTyped cfg tc cs b ty cur = .ok (h, v)) :
    ∃ mem', unmarshalInto cfg tc cs b ty l mem = .ok (h, mem') ∧ Became tc { ty := ty, place := .var l } B mem mem' v := by
  obtain ⟨buf, i, j, s', h1, h2, h3⟩ := unmarshalTyped_ok.1 hu
  obtain ⟨j', s1, e1, e2, e3, e4⟩ := sim_decode (cfg := cfg) (tc := tc) (buf := buf) (fuelFor buf.length) i { ty := ty, place := .var l } cur B
    { d := DState.init, mem := mem } ho hd _ _ h2
  refine ⟨s1.mem, ?_, e4⟩
  unfold unmarshalInto
  rw [bodyOf_eq, h1]
  dsimp only
  rw [e1]
  dsimp only
  rw [e2, h3]

end

end Sereal

import Verif.Proof.PlacesC
/-
Places: references, objects, and the whole decoder.
-/
namespace Sereal

section
variable {c : ViewCfg} {buf : Bytes} {s : DState} {F : Addr → Prop} {opn : List Nat} {i : Nat} {loc : Loc} {K : Val → HObj}
  {u : Val}

/-- A final value is stored. -/
theorem Calm.put (C : Calm c s F opn) (hf : ¬ F loc.addr) (hlt : loc.addr < s.heap.next) (hc : Ctx loc K)
    (hm : s.heap.mem loc.addr = K u) (w : Val) :
    Moves c s F opn (· = loc.addr) { s with heap := s.heap.write loc w } (fun x => F x ∨ x = loc.addr) ∧
      (s.heap.write loc w).mem loc.addr = K w := by
  refine ⟨C.commit hf (Frame.write _ loc _) rfl rfl (fun _ h => Or.inl h) (Or.inr rfl) ?_ ?_, hc.write hm⟩
  · rintro a (h | rfl)
    · have := C.lt a h; dsimp only; rw [Heap.write_next]; exact this
    · dsimp only; rw [Heap.write_next]; exact hlt
  · rintro a (h | h)
    · exact Or.inl h
    · exact Or.inr (Or.inl h)

theorem box_frame {s : DState} {loc : Loc} (o : HObj) (w : Val) :
    Frame (· = loc.addr) s.heap ((s.heap.alloc o).2.write loc w) :=
  (Frame.alloc _ _ _).trans (Frame.write _ loc _) (fun _ _ h => h)

theorem box_mem {s : DState} {loc : Loc} {K : Val → HObj} {u : Val} (hlt : loc.addr < s.heap.next) (hc : Ctx loc K)
    (hm : s.heap.mem loc.addr = K u) (o : HObj) (w : Val) :
    ((s.heap.alloc o).2.write loc w).mem loc.addr = K w ∧ ((s.heap.alloc o).2.write loc w).mem s.heap.next = o ∧
      ((s.heap.alloc o).2.write loc w).next = s.heap.next + 1 :=
  ⟨hc.write (by rw [Heap.alloc_old _ _ hlt]; exact hm),
    by rw [Heap.write_mem _ _ _ _ (Nat.ne_of_gt hlt), Heap.alloc_mem], by rw [Heap.write_next, Heap.alloc_next]⟩

/-- A new variable, and a final pointer to it. -/
theorem Calm.box (C : Calm c s F opn) (hf : ¬ F loc.addr) (hlt : loc.addr < s.heap.next) (o : HObj) (w : Val) {s' : DState}
    (hs : s'.heap = (s.heap.alloc o).2.write loc w) (ht : s'.tracked = s.tracked) (hd : s'.copyDepth = s.copyDepth)
    (final : Bool) :
    Moves c s F opn (· = loc.addr) s' (fun x => F x ∨ x = loc.addr ∨ (final = true ∧ x = s.heap.next)) := by
  refine C.commit hf (by rw [hs]; exact box_frame _ _) ht hd (fun _ h => Or.inl h) (Or.inr (Or.inl rfl)) ?_ ?_
  · rw [hs, Heap.write_next, Heap.alloc_next]
    rintro a (h | rfl | ⟨-, rfl⟩)
    · have := C.lt a h; omega
    · omega
    · omega
  · rintro a (h | h | ⟨-, h⟩)
    · exact Or.inl h
    · exact Or.inr (Or.inl h)
    · exact Or.inr (Or.inr (by omega))

end

section
variable {cfg : DCfg} {buf : Bytes} {rec : Nat → Loc → D Nat}

theorem refpAlias_lands {isREFP tr : Bool} {i j : Nat} {opn : List Nat} {loc : Loc} {K : Val → HObj} {s s' : DState}
    {F : Addr → Prop} (r : Ready cfg.view s F opn loc K)
    (h : decodeRefpAlias cfg buf i isREFP loc s = (.ok j, s')) :
    Lands cfg.view buf s F opn loc K (.body (if isREFP then .refp else .alias) tr loc) i j s' := by
  unfold decodeRefpAlias at h
  obtain ⟨⟨val, sz⟩, s1, h1, h⟩ := D.bind_ok.1 h
  obtain ⟨rfl, o, hv, rfl, hn64⟩ := varintAt_ok_iff.1 h1
  dsimp only at h
  obtain ⟨_, s1, h1, h⟩ := D.bind_ok.1 h
  obtain ⟨hlt, rfl⟩ := D.failIf_ok.1 h1
  obtain ⟨hoj, hsg⟩ := lt_of_sgn hn64 hlt
  rw [hsg] at h
  simp only [Int.toNat_natCast] at h
  rw [D.bind_eq (D.get_apply _)] at h
  cases ht : s.tracked o with
  | none =>
    rw [ht] at h
    dsimp only at h
    cases isREFP with
    | true => rw [if_pos rfl] at h; exact (D.err_ok.1 h).elim
    | false => rw [if_neg (by simp)] at h; exact (D.err_ok.1 h).elim
  | some l =>
    rw [ht] at h
    dsimp only at h
    rw [D.bind_eq (readLoc_apply _ _)] at h
    obtain ⟨hl, hF⟩ := r.calm.known o l ht
    have hne : F l.addr → l.addr ≠ loc.addr := by intro hc he; rw [he] at hc; exact r.free hc
    cases isREFP with
    | true =>
      rw [if_pos rfl] at h
      by_cases hnil : s.heap.read l = .nil
      · rw [if_pos hnil] at h
        exact (D.fail_ok.1 h).elim
      · rw [if_neg hnil] at h
        by_cases hd : cfg.disableRefInt = true
        · rw [if_pos hd, D.bind_eq (writeLoc_apply _ _ _)] at h
          obtain ⟨rfl, rfl⟩ := D.pure_ok.1 h
          obtain ⟨M, hm⟩ := r.calm.put r.free r.lt r.ctx r.mem (s.heap.read l)
          refine ⟨_, M, Or.inr rfl, ⟨_, hm⟩, ?_⟩
          intro hp ha
          have e2 : hp.read loc = s.heap.read l := r.ctx.read (by rw [ha _ (Or.inr rfl)]; exact hm)
          rcases hF with hF | ⟨hop, hu⟩
          · have e1 : hp.read l = s.heap.read l := by
              rw [read_congr (ha _ (Or.inl hF))]
              exact read_congr (Heap.write_mem _ _ _ _ (hne hF))
            exact .refpI hd hv hoj ht (by rw [e1]; exact hnil) (by rw [e1, e2])
          · exact .refpOpen (a := 0) hv hoj ht hop hnil hu (by rw [if_pos (by exact hd)]; exact e2)
        · rw [if_neg hd, D.bind_eq (allocVar_apply _ _), D.bind_eq (writeLoc_apply _ _ _)] at h
          obtain ⟨rfl, rfl⟩ := D.pure_ok.1 h
          have M := r.calm.box r.free r.lt (.cell (s.heap.read l)) (.ptr false s.heap.next)
            (s' := { s with heap := (s.heap.alloc (.cell (s.heap.read l))).2.write loc (.ptr false s.heap.next) })
            rfl rfl rfl true
          obtain ⟨hm, hm2, -⟩ := box_mem r.lt r.ctx r.mem (.cell (s.heap.read l)) (.ptr false s.heap.next)
          refine ⟨_, M, Or.inr (Or.inl rfl), ⟨_, hm⟩, ?_⟩
          intro hp ha
          have e2 : hp.read loc = .ptr false s.heap.next :=
            r.ctx.read (by rw [ha _ (Or.inr (Or.inl rfl))]; exact hm)
          have e3 : hp.mem s.heap.next = .cell (s.heap.read l) := by
            rw [ha _ (Or.inr (Or.inr ⟨rfl, rfl⟩))]; exact hm2
          rcases hF with hF | ⟨hop, hu⟩
          · have e1 : hp.read l = s.heap.read l := by
              rw [read_congr (ha _ (Or.inl hF))]
              exact read_congr (M.agree _ hF)
            exact .refp (by simpa [DCfg.view] using hd) hv hoj ht (by rw [e1]; exact hnil) e2 (by rw [e1]; exact e3)
          · exact .refpOpen hv hoj ht hop hnil hu (by rw [if_neg (by exact hd)]; exact ⟨e2, e3⟩)
    | false =>
      rw [if_neg (by simp), D.bind_eq (writeLoc_apply _ _ _)] at h
      obtain ⟨rfl, rfl⟩ := D.pure_ok.1 h
      obtain ⟨M, hm⟩ := r.calm.put r.free r.lt r.ctx r.mem (s.heap.read l)
      refine ⟨_, M, Or.inr rfl, ⟨_, hm⟩, ?_⟩
      intro hp ha
      have e2 : hp.read loc = s.heap.read l := r.ctx.read (by rw [ha _ (Or.inr rfl)]; exact hm)
      rcases hF with hF | ⟨hop, hn⟩
      · have e1 : hp.read l = s.heap.read l := by
          rw [read_congr (ha _ (Or.inl hF))]
          exact read_congr (Heap.write_mem _ _ _ _ (hne hF))
        exact .alias hv hoj ht (by rw [e1, e2])
      · exact .aliasOpen hv hoj ht hop (by rw [e2]; exact hn)

/-- The contents of a container go to a fresh variable, to which a final pointer exists already. -/
theorem inner_lands {c : ViewCfg} (hrec : Lodges c buf rec) {i j : Nat} {opn : List Nat} {loc l : Loc}
    {K Kl : Val → HObj} {s s0 s' : DState} {F : Addr → Prop} {o : HObj} {w : Val}
    (h : rec i l s0 = (.ok j, s')) (C : Calm c s F opn) (hf : ¬ F loc.addr)
    (hlt : loc.addr < s.heap.next) (hc : Ctx loc K) (hm : s.heap.mem loc.addr = K .nil)
    (hs0 : s0.heap = (s.heap.alloc o).2.write loc w) (ht0 : s0.tracked = s.tracked) (hd0 : s0.copyDepth = s.copyDepth)
    (hl : l.addr = s.heap.next) (hcl : Ctx l Kl) (ho : o = Kl .nil) :
    ∃ F', Moves c s F opn (· = loc.addr) s' F' ∧ F' loc.addr ∧ F' s.heap.next ∧
      s'.heap.mem loc.addr = K w ∧ (∃ v, s'.heap.mem s.heap.next = Kl v) ∧
      LaidF c buf F' s'.heap s.cd opn (.item l) i s.tracked j s'.tracked := by
  have M := C.box hf hlt o w hs0 ht0 hd0 false
  obtain ⟨e1, e2, e3⟩ := box_mem hlt hc hm o w
  rw [← hs0] at e1 e2 e3
  obtain ⟨F1, M1, hF1, ⟨v, hv⟩, k1⟩ := hrec i opn l Kl s0 _ j s' ⟨M.calm, (by
      rw [hl]
      rintro (h | h | ⟨h, -⟩)
      · have := C.lt _ h; omega
      · omega
      · cases h), by rw [hl]; omega, hcl, by rw [hl, e2, ho], (by
      intro o l' ho' he
      rw [ht0] at ho'
      have := (C.known o l' ho').1
      omega)⟩ h
  rw [hl] at hF1 hv
  rw [M.cd_eq, ht0] at k1
  refine ⟨F1, M.trans M1 (fun x hx h => by omega), M1.sub _ (Or.inr (Or.inl rfl)), hF1, ?_, ⟨v, hv⟩, k1⟩
  rw [M1.agree _ (Or.inr (Or.inl rfl))]
  exact e1

theorem refn_lands (hrec : Lodges cfg.view buf rec) {i j : Nat} {tr : Bool} {opn : List Nat} {loc : Loc}
    {K : Val → HObj} {s s' : DState} {F : Addr → Prop} (r : Ready cfg.view s F opn loc K)
    (h : decodeRefn cfg rec tr i loc s = (.ok j, s')) :
    Lands cfg.view buf s F opn loc K (.body .refn tr loc) i j s' := by
  unfold decodeRefn at h
  by_cases hpc : cfg.perlCompat = true
  · rw [if_pos hpc, D.bind_eq (allocVar_apply _ _), D.bind_eq (writeLoc_apply _ _ _)] at h
    obtain ⟨i1, s2, h1, h⟩ := D.bind_ok.1 h
    cases tr with
    | true =>
      rw [if_pos rfl] at h
      obtain ⟨rfl, rfl⟩ := D.pure_ok.1 h
      obtain ⟨F', M, hF, hF2, hm, hv, k⟩ := inner_lands hrec (l := .cell s.heap.next) (Kl := .cell) h1 r.calm r.free r.lt
        r.ctx r.mem rfl rfl rfl rfl (.cell _) rfl
      refine ⟨F', M, hF, ⟨_, hm⟩, ?_⟩
      intro hp ha
      exact .refnT hpc (r.ctx.read (by rw [ha _ hF]; exact hm)) (k hp ha)
    | false =>
      rw [if_neg (by simp), D.bind_eq (readLoc_apply _ _)] at h
      by_cases hnil : s2.heap.read (.cell s.heap.next) = .nil
      · rw [if_pos hnil] at h; exact (D.fail_ok.1 h).elim
      rw [if_neg hnil, D.bind_eq (allocVar_apply _ _), D.bind_eq (writeLoc_apply _ _ _)] at h
      obtain ⟨rfl, rfl⟩ := D.pure_ok.1 h
      obtain ⟨e1, e2, e3⟩ := box_mem r.lt r.ctx r.mem (.cell .nil) (.ptr true s.heap.next)
      have hlt := r.lt
      have M0 : Moves cfg.view s F opn (· = loc.addr)
          { s with heap := (s.heap.alloc (.cell .nil)).2.write loc (.ptr true s.heap.next) } F := by
        refine r.calm.hold (by rintro a rfl; exact r.free) (box_frame _ _) rfl rfl ?_
        intro o l ho he
        rw [r.same o l ho he]
        exact Or.inr ⟨hpc, _, r.ctx.read e1⟩
      obtain ⟨F1, M1, hF1, ⟨v, hv⟩, k1⟩ := hrec i opn (.cell s.heap.next) .cell _ F i1 s2 ⟨M0.calm, (by
          intro h; have := r.calm.lt _ h; simp only [Loc.addr] at this; omega),
          (by show s.heap.next < _; dsimp only; omega), .cell _, e2, (by
          intro o l' ho' he
          have := (r.calm.known o l' ho').1
          have he' : l'.addr = s.heap.next := he
          omega)⟩ h1
      simp only [Loc.addr] at M1 hF1 hv
      have hfr := M1.frame.next
      dsimp only at hfr
      have hloc : ¬ F1 loc.addr := by
        intro hc
        rcases M1.new _ hc with h | h | h
        · exact r.free h
        · omega
        · dsimp only at h; omega
      have hm2 : s2.heap.mem loc.addr = K (.ptr true s.heap.next) := by
        rw [M1.frame.same _ (by dsimp only; omega) (by omega)]; exact e1
      have hrd : s2.heap.read (.cell s.heap.next) = v := Ctx.read (.cell _) hv
      have M2 := M1.calm.box hloc (by omega) (.cell v) (.ptr false s2.heap.next)
        (s' := { s2 with heap := (s2.heap.alloc (.cell v)).2.write loc (.ptr false s2.heap.next) }) rfl rfl rfl true
      obtain ⟨f1, f2, f3⟩ := box_mem (s := s2) (by omega) r.ctx hm2 (.cell v) (.ptr false s2.heap.next)
      rw [hrd]
      refine ⟨_, (M0.trans M1 (fun x hx h => by omega)).trans M2 (fun _ _ h => h), Or.inr (Or.inl rfl), ⟨_, f1⟩, ?_⟩
      intro hp ha
      refine .refnP (a := s.heap.next) (b := s2.heap.next) hpc (r.ctx.read (by rw [ha _ (Or.inr (Or.inl rfl))]; exact f1)) ?_
        (k1.moves M2 hp ha)
      have : hp.mem s.heap.next = .cell v := by rw [ha _ (Or.inl hF1), M2.agree _ hF1]; exact hv
      rw [ha _ (Or.inr (Or.inr ⟨rfl, rfl⟩))]
      unfold Heap.cellAt
      rw [this]
      exact f2
  · rw [if_neg hpc] at h
    exact (hrec i opn loc K s F j s' r h).map fun hp ρ ρ' k => .refn (by simpa [DCfg.view] using hpc) k

/-- The class name, as decoded. -/
theorem name_decoded {v : Bool} {i x : Nat} {cls : Bytes} {s s' : DState}
    (h : decodeClassName buf i v s = (.ok (cls, x), s')) : s.Eqv s' ∧ ObjName buf s.cd v i cls x := by
  obtain ⟨e, h1⟩ := decodeClassName_sound h
  refine ⟨e, ?_⟩
  rcases h1 with ⟨rfl, h1⟩ | ⟨rfl, h1⟩
  · exact h1
  · exact h1

theorem object_lands (hrec : Lodges cfg.view buf rec) {v tr : Bool} {i j : Nat} {opn : List Nat} {loc : Loc}
    {K : Val → HObj} {s s' : DState} {F : Addr → Prop} (r : Ready cfg.view s F opn loc K)
    (h : decodeObject cfg buf rec i loc v s = (.ok j, s')) :
    Lands cfg.view buf s F opn loc K (.body (if v then .objectv else .object) tr loc) i j s' := by
  unfold decodeObject at h
  obtain ⟨⟨cls, x⟩, s1, h1, h⟩ := D.bind_ok.1 h
  obtain ⟨e, hn⟩ := name_decoded h1
  rw [← e.cd] at hn
  dsimp only at h
  have r1 := r.eqv e
  suffices L : Lands cfg.view buf s1 F opn loc K (.body (if v then .objectv else .object) tr loc) i j s' from L.eqv e
  by_cases hpc : cfg.perlCompat = true
  · rw [if_pos hpc, D.bind_eq (charge_apply _ _), D.bind_eq (allocVar_apply _ _), D.bind_eq (writeLoc_apply _ _ _)] at h
    obtain ⟨F', M, hF, hF2, hm, ⟨w, hv⟩, k⟩ := inner_lands hrec (s := s1) (l := .field s1.heap.next) h r1.calm r1.free r1.lt
      r1.ctx r1.mem rfl rfl rfl rfl (.obj _ cls) rfl
    refine ⟨F', M, hF, ⟨_, hm⟩, ?_⟩
    intro hp ha
    exact .objectP hpc hn (r1.ctx.read (by rw [ha _ hF]; exact hm)) (by rw [ha _ hF2]; exact hv) (k hp ha)
  · rw [if_neg hpc] at h
    unfold decodeIface at h
    obtain ⟨_, s2, h2, h⟩ := D.bind_ok.1 h
    obtain ⟨-, rfl⟩ := D.failIf_ok.1 h2
    rw [D.bind_eq (readLoc_apply _ _)] at h
    obtain ⟨_, s2, h2, h⟩ := D.bind_ok.1 h
    obtain ⟨-, rfl⟩ := D.failIf_ok.1 h2
    rw [D.bind_eq (allocVar_apply _ _)] at h
    obtain ⟨i1, s2, h2, h⟩ := D.bind_ok.1 h
    rw [D.bind_eq (readLoc_apply _ _)] at h
    have C1 := r1.calm
    have hlt := r1.lt
    have M0 : Moves cfg.view s1 F opn (fun _ => False) { s1 with heap := (s1.heap.alloc (.cell .nil)).2 } F :=
      C1.hold (fun _ h => h.elim) (Frame.alloc _ _ _) rfl rfl (fun _ _ _ h => h.elim)
    obtain ⟨F1, M1, hFa, ⟨w, hma⟩, k1⟩ := hrec x opn (.cell s1.heap.next) .cell _ F i1 s2
      ⟨M0.calm, fun hc => by have := C1.lt _ hc; simp only [Loc.addr] at this; omega,
        by simp only [Loc.addr, Heap.alloc_next]; omega, .cell _, Heap.alloc_mem _ _, (by
          intro o l ho hc
          have := (C1.known o l ho).1
          have hc' : l.addr = s1.heap.next := hc
          omega)⟩ h2
    have hval : s2.heap.read (.cell s1.heap.next) = w := Ctx.read (.cell _) hma
    simp only [Loc.addr] at M1 hFa hma
    rw [hval] at h
    have hloc : ¬ F1 loc.addr := by
      intro hc
      rcases M1.new _ hc with h | h | h
      · exact r.free h
      · omega
      · dsimp only at h; rw [Heap.alloc_next] at h; omega
    have hfr := M1.frame.next
    dsimp only at hfr
    rw [Heap.alloc_next] at hfr
    have hm2 : s2.heap.mem loc.addr = K .nil := by
      rw [M1.frame.same _ (by dsimp only; rw [Heap.alloc_next]; omega) (by omega)]
      dsimp only
      rw [Heap.alloc_old _ _ hlt]
      exact r1.mem
    have M01 : Moves cfg.view s1 F opn (· = loc.addr) s2 F1 :=
      (M0.mono (W1 := (· = loc.addr)) (fun _ _ h => h.elim)).trans M1 (fun x hx hw => by omega)
    -- after `loc` has been set
    have fin : ∀ s3 : DState, Moves cfg.view s2 F1 opn (· = loc.addr) s3 (fun x => F1 x ∨ x = loc.addr) →
        s3.heap.mem loc.addr = K w → s3.tracked = s2.tracked →
        Lands cfg.view buf s1 F opn loc K (.body (if v then .objectv else .object) tr loc) i i1 s3 := by
      intro s3 M2 hm3 ht
      refine ⟨_, M01.trans M2 (fun _ _ h => h), Or.inr rfl, ⟨_, hm3⟩, ?_⟩
      intro hp ha
      rw [ht]
      refine .object (by simpa [DCfg.view] using hpc) hn ?_ (k1.moves M2 hp ha)
      rw [r1.ctx.read (by rw [ha _ (Or.inr rfl)]; exact hm3)]
      have : hp.mem s1.heap.next = .cell w := by rw [ha _ (Or.inl hFa), M2.agree _ hFa]; exact hma
      exact (Ctx.read (.cell _) this).symm
    by_cases hw : w = .nil
    · rw [if_neg (by simp [hw])] at h
      obtain ⟨rfl, rfl⟩ := D.pure_ok.1 h
      refine fin s2 ?_ (by rw [hw]; exact hm2) rfl
      refine M1.calm.commit hloc (Frame.refl _ _) rfl rfl (fun _ h => Or.inl h) (Or.inr rfl) ?_ ?_
      · rintro a (h | rfl)
        · exact M1.calm.lt a h
        · omega
      · rintro a (h | h)
        · exact Or.inl h
        · exact Or.inr (Or.inl h)
    · rw [if_pos hw, D.bind_eq (writeLoc_apply _ _ _)] at h
      obtain ⟨rfl, rfl⟩ := D.pure_ok.1 h
      obtain ⟨M2, hm3⟩ := M1.calm.put hloc (by omega) r1.ctx hm2 w
      exact fin _ M2 hm3 rfl

/-- The data of a frozen object are kept in one variable. -/
theorem Laid.freeze_elem {c : ViewCfg} {h : Heap} {cd : Bool} {ρ ρ' : Places} {opn : List Nat} {a p : Addr} {x j : Nat}
    (k : Laid c h buf cd opn (.item (.cell a)) x ρ j ρ') (e0 : buf[x]? = some 0x28) (e1 : buf[x + 1]? = some 0x2b)
    (hr : h.read (.cell a) = .slice p 1) : ∃ v, h.mem p = .cell v := by
  have inv : ∀ {opn : List Nat} {l : Loc} {x j : Nat} {ρ ρ' : Places} {b : UInt8}, Laid c h buf cd opn (.item l) x ρ j ρ' →
      buf[x]? = some b → b.toNat < 128 → b.toNat % 128 ≠ 0x3f →
      Laid c h buf cd opn (.body (classify b.toNat) false l) (x + 1) ρ j ρ' := by
    intro opn l x j ρ ρ' b k hb h1 h2
    cases k with
    | plain ht h3 k =>
      obtain ⟨rfl, rfl⟩ := tagAt_of_byte ht hb h2
      exact k
    | tracked ht h3 k =>
      obtain ⟨rfl, rfl⟩ := tagAt_of_byte ht hb h2
      omega
  have k := inv k e0 (by decide) (by decide)
  have hc : classify (0x28 : UInt8).toNat = .refn := rfl
  rw [hc] at k
  have k2 : Laid c h buf cd opn (.item (.cell a)) (x + 1) ρ j ρ' := by
    generalize hq : Part.body .refn false (.cell a) = q at k
    cases k with
    | refn _ k => cases hq; exact k
    | refnP _ h1 _ _ => cases hq; rw [hr] at h1; cases h1
    | @object _ _ _ _ _ v => cases v <;> cases hq
    | @objectP _ _ _ _ _ v => cases v <;> cases hq
    | @freeze _ _ _ _ _ v => cases v <;> cases hq
    | leaf h1 => cases hq; cases h1
    | _ => cases hq
  have k3 := inv k2 e1 (by decide) (by decide)
  have hc : classify (0x2b : UInt8).toNat = .array := rfl
  rw [hc] at k3
  generalize hq : Part.body .array false (.cell a) = q at k3
  cases k3 with
  | array _ h1 k4 =>
    cases hq
    rw [hr] at h1
    cases h1
    cases k4 with
    | itemsCons h2 => exact ⟨_, h2⟩
  | @object _ _ _ _ _ v => cases v <;> cases hq
  | @objectP _ _ _ _ _ v => cases v <;> cases hq
  | @freeze _ _ _ _ _ v => cases v <;> cases hq
  | leaf h1 => cases hq; cases h1
  | _ => cases hq

theorem freeze_lands (hrec : Lodges cfg.view buf rec) {v tr : Bool} {i j : Nat} {opn : List Nat} {loc : Loc}
    {K : Val → HObj} {s s' : DState} {F : Addr → Prop} (r : Ready cfg.view s F opn loc K)
    (h : decodeFreeze cfg buf rec i loc v s = (.ok j, s')) :
    Lands cfg.view buf s F opn loc K (.body (if v then .freezev else .freeze) tr loc) i j s' := by
  unfold decodeFreeze at h
  obtain ⟨⟨cls, x⟩, s1, h1, h⟩ := D.bind_ok.1 h
  obtain ⟨e, hn⟩ := name_decoded h1
  rw [← e.cd] at hn
  dsimp only at h
  have r1 := r.eqv e
  suffices L : Lands cfg.view buf s1 F opn loc K (.body (if v then .freezev else .freeze) tr loc) i j s' from L.eqv e
  obtain ⟨_, s2, h2, h⟩ := D.bind_ok.1 h
  obtain ⟨-, rfl⟩ := D.failIf_ok.1 h2
  obtain ⟨t0, s2, h2, h⟩ := D.bind_ok.1 h
  obtain ⟨e0, rfl⟩ := byteAt_ok.1 h2
  obtain ⟨t1, s2, h2, h⟩ := D.bind_ok.1 h
  obtain ⟨e1, rfl⟩ := byteAt_ok.1 h2
  obtain ⟨_, s2, h2, h⟩ := D.bind_ok.1 h
  obtain ⟨h3, rfl⟩ := D.failIf_ok.1 h2
  have ht0 : t0 = 0x28 := Decidable.byContradiction fun hc => h3 (Or.inl hc)
  have ht1 : t1 = 0x2b := Decidable.byContradiction fun hc => h3 (Or.inr hc)
  rw [ht0] at e0
  rw [ht1] at e1
  rw [D.bind_eq (allocVar_apply _ _)] at h
  obtain ⟨i1, s2, h2, h⟩ := D.bind_ok.1 h
  rw [D.bind_eq (readLoc_apply _ _)] at h
  have C1 := r1.calm
  have hlt := r1.lt
  have M0 : Moves cfg.view s1 F opn (fun _ => False) { s1 with heap := (s1.heap.alloc (.cell .nil)).2 } F :=
    C1.hold (fun _ h => h.elim) (Frame.alloc _ _ _) rfl rfl (fun _ _ _ h => h.elim)
  obtain ⟨F1, M1, hFa, ⟨w, hma⟩, k1⟩ := hrec x opn (.cell s1.heap.next) .cell _ F i1 s2
    ⟨M0.calm, fun hc => by have := C1.lt _ hc; simp only [Loc.addr] at this; omega,
      by simp only [Loc.addr, Heap.alloc_next]; omega, .cell _, Heap.alloc_mem _ _, (by
        intro o l ho hc
        have := (C1.known o l ho).1
        have hc' : l.addr = s1.heap.next := hc
        omega)⟩ h2
  have hval : s2.heap.read (.cell s1.heap.next) = w := Ctx.read (.cell _) hma
  simp only [Loc.addr] at M1 hFa hma
  rw [hval] at h
  have hloc : ¬ F1 loc.addr := by
    intro hc
    rcases M1.new _ hc with h | h | h
    · exact r.free h
    · omega
    · dsimp only at h; rw [Heap.alloc_next] at h; omega
  have hfr := M1.frame.next
  dsimp only at hfr
  rw [Heap.alloc_next] at hfr
  have hm2 : s2.heap.mem loc.addr = K .nil := by
    rw [M1.frame.same _ (by dsimp only; rw [Heap.alloc_next]; omega) (by omega)]
    dsimp only
    rw [Heap.alloc_old _ _ hlt]
    exact r1.mem
  have M01 : Moves cfg.view s1 F opn (· = loc.addr) s2 F1 :=
    (M0.mono (W1 := (· = loc.addr)) (fun _ _ h => h.elim)).trans M1 (fun x hx hw => by omega)
  cases w with
  | slice p n =>
    dsimp only at h
    obtain ⟨_, s3, h3, h⟩ := D.bind_ok.1 h
    obtain ⟨hn1, rfl⟩ := D.failIf_ok.1 h3
    have hn1 : n = 1 := Decidable.byContradiction hn1
    rw [hn1] at hval hma
    rw [D.bind_eq (readLoc_apply _ _)] at h
    -- the element is final
    have hFp : F1 p := by
      apply Classical.byContradiction
      intro hc
      have hag : Agree F1 s2.heap (s2.heap.set p (.mp [])) := by
        intro a ha
        simp only [Heap.set]
        rw [if_neg (by rintro rfl; exact hc ha)]
      have := k1 _ hag
      obtain ⟨u, hu⟩ := this.freeze_elem e0 e1 (by
        rw [show (s2.heap.set p (.mp [])).read (.cell s1.heap.next) = s2.heap.read (.cell s1.heap.next) from
          read_congr (hag _ hFa)]
        exact hval)
      simp [Heap.set] at hu
    cases hb : s2.heap.read (.cell p) with
    | bin data =>
      rw [hb] at h
      dsimp only at h
      rw [D.bind_eq (charge_apply _ _)] at h
      have hmp : s2.heap.mem p = .cell (.bin data) := by
        simp only [Heap.read, Heap.cellAt] at hb
        cases hx : s2.heap.mem p with
        | cell y => rw [hx] at hb; dsimp only at hb; rw [hb]
        | _ => rw [hx] at hb; cases hb
      have fin : ∀ (u : Val) (s3 : DState), s3.heap = (s2.heap.alloc (.cell u)).2.write loc (.ptr false s2.heap.next) →
          s3.tracked = s2.tracked → s3.copyDepth = s2.copyDepth →
          ((cfg.view.perlCompat = true ∨ cfg.view.registry cls = none) ∧ u = .frozen cls data ∨
            cfg.view.perlCompat = false ∧ (∃ m, cfg.view.registry cls = some m ∧ m data = none) ∧ u = .thawed cls data) →
          Lands cfg.view buf s1 F opn loc K (.body (if v then .freezev else .freeze) tr loc) i i1 s3 := by
        intro u s3 hh ht hd hu
        have M2 := M1.calm.box hloc (by omega) (.cell u) (.ptr false s2.heap.next) hh ht hd true
        obtain ⟨f1, f2, f3⟩ := box_mem (s := s2) (by omega) r1.ctx hm2 (.cell u) (.ptr false s2.heap.next)
        rw [← hh] at f1 f2
        refine ⟨_, M01.trans M2 (fun _ _ h => h), Or.inr (Or.inl rfl), ⟨_, f1⟩, ?_⟩
        intro hp ha
        rw [ht]
        refine .freeze (a := s1.heap.next) (p := p) (data := data) (o := s2.heap.next) (w := u) hn ?_ ?_
          (k1.moves M2 hp ha) (r1.ctx.read (by rw [ha _ (Or.inr (Or.inl rfl))]; exact f1)) ?_ hu
        · have : hp.mem s1.heap.next = .cell (.slice p 1) := by rw [ha _ (Or.inl hFa), M2.agree _ hFa]; exact hma
          exact Ctx.read (.cell _) this
        · rw [ha _ (Or.inl hFp), M2.agree _ hFp]; exact hmp
        · rw [ha _ (Or.inr (Or.inr ⟨rfl, rfl⟩))]; exact f2
      by_cases hpc : cfg.perlCompat = true
      · rw [if_pos hpc, D.bind_eq (allocVar_apply _ _), D.bind_eq (writeLoc_apply _ _ _)] at h
        obtain ⟨rfl, rfl⟩ := D.pure_ok.1 h
        exact fin _ _ rfl rfl rfl (Or.inl ⟨Or.inl hpc, rfl⟩)
      · rw [if_neg hpc, D.bind_eq (readLoc_apply _ _)] at h
        obtain ⟨_, s3, h3, h⟩ := D.bind_ok.1 h
        obtain ⟨-, rfl⟩ := D.failIf_ok.1 h3
        cases hreg : cfg.registry cls with
        | none =>
          rw [hreg] at h
          dsimp only at h
          rw [D.bind_eq (allocVar_apply _ _), D.bind_eq (writeLoc_apply _ _ _)] at h
          obtain ⟨rfl, rfl⟩ := D.pure_ok.1 h
          exact fin _ _ rfl rfl rfl (Or.inl ⟨Or.inr hreg, rfl⟩)
        | some m =>
          rw [hreg] at h
          dsimp only at h
          cases hm : m data with
          | some er => rw [hm] at h; exact (D.fail_ok.1 h).elim
          | none =>
            rw [hm] at h
            dsimp only at h
            rw [D.bind_eq (allocVar_apply _ _), D.bind_eq (writeLoc_apply _ _ _)] at h
            obtain ⟨rfl, rfl⟩ := D.pure_ok.1 h
            exact fin _ _ rfl rfl rfl (Or.inr ⟨by simpa [DCfg.view] using hpc, ⟨m, hreg, hm⟩, rfl⟩)
    | _ => rw [hb] at h; exact (D.err_ok.1 h).elim
  | _ => exact (D.err_ok.1 h).elim

/-- What follows a tag byte. -/
theorem decodeC_lands {f : Nat} (hrec : Lodges cfg.view buf (decode cfg buf f)) {tc : TagC} {tr : Bool} {tag i j : Nat}
    {opn : List Nat} {loc : Loc} {K : Val → HObj} {s s' : DState} {F : Addr → Prop}
    (hint : ∀ n, tc = .int n → -16 ≤ n ∧ n ≤ 15)
    (hnum : ∀ n, tc = .short n ∨ tc = .arrayref n ∨ tc = .hashref n → n < 32) (hi : i ≤ buf.length)
    (r : Ready cfg.view s F opn loc K) (h : decodeC cfg buf (decode cfg buf f) tc tr i loc tag s = (.ok j, s')) :
    Lands cfg.view buf s F opn loc K (.body tc tr loc) i j s' := by
  cases tc with
  | hash =>
    unfold decodeC at h
    dsimp only at h
    obtain ⟨⟨val, sz⟩, s1, h1, h⟩ := D.bind_ok.1 h
    obtain ⟨rfl, n, hv, rfl, hn64⟩ := varintAt_ok_iff.1 h1
    obtain ⟨F', m, as, M, hF, hm, k, hlen, hval⟩ := hash_lands hrec r hn64 h
    refine ⟨F', M, hF, hm, ?_⟩
    intro hp ha
    obtain ⟨h1, es, h2, h3, h4⟩ := hval hp ha
    exact .hash hv hlen (by simpa using h1) h2 h3 h4 (k hp ha)
  | hashref n =>
    have hn := hnum n (Or.inr (Or.inr rfl))
    have h : decodeHash buf (decode cfg buf f) i (sgn n) loc cfg.perlCompat s = (.ok j, s') := by
      rw [sgn_small (by omega)]; exact h
    obtain ⟨F', m, as, M, hF, hm, k, hlen, hval⟩ := hash_lands hrec r (by omega) h
    refine ⟨F', M, hF, hm, ?_⟩
    intro hp ha
    obtain ⟨h1, es, h2, h3, h4⟩ := hval hp ha
    exact .hashref hlen h1 h2 h3 h4 (k hp ha)
  | array =>
    unfold decodeC at h
    dsimp only at h
    obtain ⟨⟨val, sz⟩, s1, h1, h⟩ := D.bind_ok.1 h
    obtain ⟨rfl, n, hv, rfl, hn64⟩ := varintAt_ok_iff.1 h1
    obtain ⟨F', p, M, hF, hm, k, hval⟩ := array_lands hrec r hn64 h
    refine ⟨F', M, hF, hm, ?_⟩
    intro hp ha
    exact .array hv (by simpa using hval hp ha) (k hp ha)
  | arrayref n =>
    have hn := hnum n (Or.inr (Or.inl rfl))
    have h : decodeArray buf (decode cfg buf f) i (sgn n) loc cfg.perlCompat s = (.ok j, s') := by
      rw [sgn_small (by omega)]; exact h
    obtain ⟨F', p, M, hF, hm, k, hval⟩ := array_lands hrec r (by omega) h
    refine ⟨F', M, hF, hm, ?_⟩
    intro hp ha
    exact .arrayref (hval hp ha) (k hp ha)
  | refn => exact refn_lands hrec r h
  | refp => exact refpAlias_lands (isREFP := true) r h
  | alias => exact refpAlias_lands (isREFP := false) r h
  | weaken =>
    unfold decodeC at h
    dsimp only at h
    by_cases hpc : cfg.perlCompat = true
    · rw [if_pos hpc, D.bind_eq (allocVar_apply _ _), D.bind_eq (writeLoc_apply _ _ _)] at h
      obtain ⟨F', M, hF, hF2, hm, ⟨v, hv⟩, k⟩ := inner_lands hrec (l := .field s.heap.next) h r.calm r.free r.lt r.ctx
        r.mem rfl rfl rfl rfl (.weak _) rfl
      refine ⟨F', M, hF, ⟨_, hm⟩, ?_⟩
      intro hp ha
      exact .weakenP hpc (r.ctx.read (by rw [ha _ hF]; exact hm)) (by rw [ha _ hF2]; exact hv) (k hp ha)
    · rw [if_neg hpc] at h
      exact (hrec i opn loc K s F j s' r h).map fun hp ρ ρ' k => .weaken (by simpa [DCfg.view] using hpc) k
  | copy =>
    unfold decodeC at h
    dsimp only at h
    rw [D.bind_eq (D.get_apply _)] at h
    obtain ⟨_, s1, h1, h⟩ := D.bind_ok.1 h
    obtain ⟨hcd, rfl⟩ := D.failIf_ok.1 h1
    obtain ⟨⟨val, sz⟩, s1, h1, h⟩ := D.bind_ok.1 h
    obtain ⟨rfl, o, hv, rfl, hn64⟩ := varintAt_ok_iff.1 h1
    dsimp only at h
    obtain ⟨_, s1, h1, h⟩ := D.bind_ok.1 h
    obtain ⟨hsz, rfl⟩ := D.failIf_ok.1 h1
    obtain ⟨hlt, hs⟩ := lt_of_sgn hn64 hsz
    rw [hs, Int.toNat_natCast] at h
    obtain ⟨j', s2, h1, h⟩ := D.bind_ok.1 h
    obtain ⟨rfl, rfl⟩ := D.pure_ok.1 h
    obtain ⟨s3, h2, rfl⟩ := withCopy_ok.1 h1
    obtain ⟨F', M, hF, hm, k⟩ := hrec o opn loc K { s with copyDepth := s.copyDepth + 1 } F j' s3
      ⟨⟨r.calm.lt, r.calm.canon, r.calm.known⟩, r.free, r.lt, r.ctx, r.mem, r.same⟩ h2
    have hcd0 : s.cd = false := by simpa [DState.cd] using hcd
    have hcd1 : DState.cd { s with copyDepth := s.copyDepth + 1 } = true := by simp [DState.cd]
    rw [hcd1] at k
    refine ⟨F', ⟨⟨M.calm.lt, M.calm.canon, M.calm.known⟩, M.sub, M.new, M.agree, M.frame, ?_, M.fresh⟩, hF, hm, ?_⟩
    · have := M.depth
      dsimp only at this ⊢
      omega
    · intro hp ha
      rw [hcd0]
      exact .copy hv hlt (k hp ha)
  | object => exact object_lands hrec (v := false) r h
  | objectv => exact object_lands hrec (v := true) r h
  | freeze => exact freeze_lands hrec (v := false) r h
  | freezev => exact freeze_lands hrec (v := true) r h
  | pad => exact (D.err_ok.1 h).elim
  | other => exact (D.err_ok.1 h).elim
  | _ => exact leaf_lands rfl hint hnum hi r h

/-- Items are kept. -/
theorem decode_lodges (cfg : DCfg) (buf : Bytes) (f : Nat) : Lodges cfg.view buf (decode cfg buf f) := by
  induction f with
  | zero =>
    intro i opn loc K s F j s' r h
    unfold decode at h
    exact (D.fail_ok.1 h).elim
  | succ f ih =>
    intro i opn loc K s F j s' r h
    rw [decode_succ, D.bind_eq (tick_apply s)] at h
    obtain ⟨⟨k, b⟩, s1, h1, h⟩ := D.bind_ok.1 h
    obtain ⟨hsk, rfl⟩ := D.lift_ok.1 h1
    have ht := skipPad_ok.1 hsk
    have hkl := ht.lt
    dsimp only at h
    have hlt : b.toNat % 128 < 128 := by omega
    have r1 := r.eqv (s' := { s with steps := s.steps + 1 }) ⟨rfl, rfl, rfl⟩
    by_cases htr : 128 ≤ b.toNat
    · rw [if_pos htr, D.bind_eq (track_apply _ _ _)] at h
      rw [show decide (128 ≤ b.toNat) = true by simpa using htr] at h
      let s2 : DState := { s with steps := s.steps + 1, tracked := fun o => if o = k then some loc else s.tracked o }
      have r2 : Ready cfg.view s2 F (k :: opn) loc K := by
        refine ⟨⟨r.calm.lt, r.calm.canon, ?_⟩, r.free, r.lt, r.ctx, r.mem, ?_⟩
        · intro o l ho
          dsimp only [s2] at ho
          by_cases hok : o = k
          · rw [if_pos hok] at ho
            cases ho
            exact ⟨r.lt, Or.inr ⟨by simp [hok], Or.inl (r.ctx.read r.mem)⟩⟩
          · rw [if_neg hok] at ho
            obtain ⟨h2, h3⟩ := r.calm.known o l ho
            exact ⟨h2, h3.imp_right fun h => ⟨List.mem_cons_of_mem _ h.1, h.2⟩⟩
        · intro o l ho he
          dsimp only [s2] at ho
          by_cases hok : o = k
          · rw [if_pos hok] at ho
            cases ho
            rfl
          · rw [if_neg hok] at ho
            exact r.same o l ho he
      obtain ⟨F', M, hF, hm, kb⟩ := decodeC_lands ih (fun n hn => classify_int hlt hn)
        (fun n hn => classify_num hlt hn) hkl r2 h
      -- what is tracked afterwards
      have key : ∀ o l, s'.tracked o = some l → (o ≠ k ∧ s.tracked o = some l) ∨ F' l.addr := by
        intro o l ho
        rcases M.fresh o l ho with h1 | h1
        · dsimp only [s2] at h1
          by_cases hok : o = k
          · rw [if_pos hok] at h1
            cases h1
            exact Or.inr hF
          · rw [if_neg hok] at h1
            exact Or.inl ⟨hok, h1⟩
        · exact Or.inr h1
      refine ⟨F', ⟨⟨M.calm.lt, M.calm.canon, ?_⟩, M.sub, M.new, M.agree, M.frame, M.depth, ?_⟩, hF, hm, ?_⟩
      · intro o l ho
        obtain ⟨h2, h3⟩ := M.calm.known o l ho
        refine ⟨h2, ?_⟩
        rcases h3 with h3 | ⟨h3, h4⟩
        · exact Or.inl h3
        · rcases key o l ho with ⟨h5, -⟩ | h5
          · rcases List.mem_cons.1 h3 with h3 | h3
            · exact absurd h3 h5
            · exact Or.inr ⟨h3, h4⟩
          · exact Or.inl h5
      · intro o l ho
        exact (key o l ho).imp_left And.right
      · intro hp ha
        refine .tracked ht htr ?_
        rw [show b.toNat - 128 = b.toNat % 128 by have := b.toNat_lt; omega]
        exact kb hp ha
    · rw [if_neg htr] at h
      rw [show decide (128 ≤ b.toNat) = false by simpa using htr] at h
      have L := decodeC_lands ih (fun n hn => classify_int hlt hn)
        (fun n hn => classify_num hlt hn) hkl r1 h
      refine (L.eqv (s := s) ⟨rfl, rfl, rfl⟩).map fun hp ρ ρ' kb => .plain ht (by omega) ?_
      rw [show b.toNat % 128 = b.toNat by omega] at kb
      exact kb

end

end Sereal

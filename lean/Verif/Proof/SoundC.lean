import Verif.Proof.SoundLoops
/-
Soundness of every tag, and of decode.
-/
namespace Sereal

/-- Enlarge what is given up by `loc` and the fresh memory. -/
theorem finish {c : ViewCfg} {s s1 s' : DState} {T T' : Seen} {F F' V : Addr → Prop} {loc : Loc}
    {K : Val → HObj} {v0 v : Val} {t : Tree} (p : Pre c s T F loc K v0)
    (A : After c s T F (· = loc.addr) V s1 T' F') (hV : ∀ a, V a → a = loc.addr ∨ s.heap.next ≤ a)
    (f : Frame (· = loc.addr) s1.heap s'.heap) (hF : ¬ F' loc.addr)
    (ht : s'.tracked = s1.tracked) (hd : s'.copyDepth = s1.copyDepth)
    (hm : s'.heap.mem loc.addr = K v) (hs : ShowsF c (Full s F' loc s') s'.heap v t) :
    Done c s T F loc K t s' T' := by
  have hag : Agree F' s1.heap s'.heap := A.inv.agree f (by rintro a ha rfl; exact hF ha)
  refine ⟨Full s F' loc s', v, ⟨?_, ?_, ?_, ?_, ?_, ?_⟩, Or.inr (Or.inl rfl), hm, hs⟩
  · refine (A.inv.frame f (by rintro a ha rfl; exact hF ha) ht).grow (fun a h => Or.inl h) ?_
    rintro a (h | rfl | h)
    · exact Nat.lt_of_lt_of_le (A.inv.lt a h) f.next
    · exact Nat.lt_of_lt_of_le p.lt (Nat.le_trans A.frame.next f.next)
    · exact h.2
  · intro a h; exact Or.inl (A.sub a h)
  · rintro a (h | h | h)
    · rcases A.new a h with h | h | h
      · exact Or.inl h
      · rcases hV a h with h | h
        · exact Or.inr (Or.inl h)
        · exact Or.inr (Or.inr h)
      · exact Or.inr (Or.inr h)
    · exact Or.inr (Or.inl h)
    · exact Or.inr (Or.inr h.1)
  · exact A.frame.trans f (fun _ _ h => h)
  · exact hd.trans A.depth
  · rw [ht]; exact A.moves

section
variable {c : ViewCfg} {buf : Bytes} {rec : Nat → Loc → D Nat} (hrec : Sound c buf rec)
include hrec

theorem decodeArray_sound (i : Nat) (n : Nat) (loc : Loc) (isRef : Bool) (K : Val → HObj)
    (s : DState) (T : Seen) (F : Addr → Prop) (v0 : Val) (j : Nat) (s' : DState)
    (p : Pre c s T F loc K v0) (hn : n < 2 ^ 64)
    (h : decodeArray buf rec i (sgn n) loc isRef s = (.ok j, s')) :
    n ≤ maxSize ∧ ∃ ts T', G goDialect buf s.cd (.items n) i T (.trees ts) j T' ∧
      ∃ F' v, After c s T F (· = loc.addr) (· = loc.addr) s' T' F' ∧ F' loc.addr ∧
        s'.heap.mem loc.addr = K v ∧
        (isRef = false → ShowsF c F' s'.heap v (.arr ts)) ∧
        (isRef = true → ∃ a w, v = .ptr false a ∧ F' a ∧ s'.heap.mem a = .cell w ∧
          ShowsF c F' s'.heap w (.arr ts)) := by
  unfold decodeArray at h
  obtain ⟨_, s1, h1, h⟩ := D.bind_ok.1 h
  obtain ⟨hsz, rfl⟩ := D.failIf_ok.1 h1
  have hle := (sgn_size hn).1 hsz
  refine ⟨hle, ?_⟩
  have hsg : sgn n = n := sgn_small (by simp [maxSize] at hle; omega)
  rw [hsg] at h
  simp only [Int.toNat_natCast] at h
  obtain ⟨_, s1, h1, h⟩ := D.bind_ok.1 h
  obtain ⟨hlen, rfl⟩ := D.failIf_ok.1 h1
  rw [D.bind_eq (charge_apply _ _), D.bind_eq (allocSlice_apply _ _)] at h
  -- the rest, once the pointer is stored
  have key : ∀ (hp : Heap) (w : Val) (al pk : Nat), Frame (· = loc.addr) (s.heap.allocCells n).2 hp →
      hp.mem loc.addr = K w →
      arrayLoop rec n s.heap.next i { s with heap := hp, alloc := al, peak := pk } = (.ok j, s') →
      ∃ ts T', G goDialect buf s.cd (.items n) i T (.trees ts) j T' ∧
        ∃ F', After c s T F (· = loc.addr) (· = loc.addr) s' T' F' ∧ F' loc.addr ∧
          s'.heap.mem loc.addr = K w ∧ ShowsF c F' s'.heap (.slice s.heap.next n) (.arr ts) ∧
          (∀ a, s.heap.next + max n 1 ≤ a → a < hp.next → F' a ∧ s'.heap.mem a = hp.mem a) := by
    intro hp w al pk f hm h
    have f0 : Frame (· = loc.addr) s.heap hp :=
      (Frame.allocCells _ s.heap n).trans f (fun _ _ h => h)
    have hnext : s.heap.next + max n 1 ≤ hp.next := by
      have := f.next; simpa [Heap.allocCells] using this
    have hA : After c s T F (· = loc.addr) (· = loc.addr) { s with heap := hp, alloc := al, peak := pk }
        T F := by
      refine After.heap p.inv f0 ?_ rfl rfl (fun _ h => h) ?_ (fun _ h => Or.inl h)
      · rintro a ha rfl; exact p.free ha
      · intro a ha; exact Nat.lt_of_lt_of_le (p.inv.lt a ha) f0.next
    obtain ⟨ts, T', F', g, hG, hl, A, hcells, hshow⟩ := arrayLoop_sound hrec n s.heap.next i
      { s with heap := hp, alloc := al, peak := pk } T F j s' hA.inv (by dsimp only; omega) (by
        intro x hx hx'
        refine ⟨fun hc => by have := p.inv.lt x hc; omega, ?_⟩
        dsimp only
        rw [f.same x (by simp only [Heap.allocCells]; omega) (by have := p.lt; omega)]
        simp only [Heap.allocCells]
        rw [if_pos (by omega)]) h
    have hold : ∀ a, a < hp.next → ¬ (s.heap.next ≤ a ∧ a < s.heap.next + n) →
        s'.heap.mem a = hp.mem a := fun a h1 h2 => A.frame.same a h1 h2
    have hlt' : hp.next ≤ s'.heap.next := A.frame.next
    let F2 : Addr → Prop := fun a => F' a ∨ a = loc.addr ∨ (s.heap.next ≤ a ∧ a < s'.heap.next)
    have hsub : ∀ a, F' a → F2 a := fun a h => Or.inl h
    refine ⟨ts, T', hG, F2, ⟨A.inv.grow hsub ?_, fun a h => Or.inl (A.sub a h), ?_, ?_, A.depth,
      A.moves⟩, Or.inr (Or.inl rfl), ?_, ?_, ?_⟩
    · rintro a (h | rfl | h)
      · exact A.inv.lt a h
      · have := p.lt; omega
      · exact h.2
    · rintro a (h | h | h)
      · rcases A.new a h with h | h | h
        · exact Or.inl h
        · exact Or.inr (Or.inr h.1)
        · dsimp only at h; exact Or.inr (Or.inr (by omega))
      · exact Or.inr (Or.inl h)
      · exact Or.inr (Or.inr h.1)
    · exact f0.trans A.frame (fun a ha h => by omega)
    · rw [hold _ (by have := p.lt; omega) (by have := p.lt; omega)]; exact hm
    · intro h2 hag
      rw [show n = ts.length from hl.symm]
      refine Shows.arr g ?_ ?_
      · intro x hx
        rw [hag _ (Or.inl (hcells x (by omega)).1)]
        exact (hcells x (by omega)).2
      · intro x t hx
        exact hshow x t hx h2 (hag.mono hsub)
    · intro a h1 h2
      exact ⟨Or.inr (Or.inr ⟨by omega, by omega⟩), hold a h2 (by omega)⟩
  have hmem0 : (s.heap.allocCells n).2.mem loc.addr = K v0 := by
    simp only [Heap.allocCells]
    rw [if_neg (by have := p.lt; omega)]
    exact p.mem
  by_cases hr : isRef = true
  · rw [if_pos hr, D.bind_eq (allocVar_apply _ _), D.bind_eq (writeLoc_apply _ _ _)] at h
    have hltA : loc.addr < (s.heap.allocCells n).2.next := by
      simp only [Heap.allocCells]; have := p.lt; omega
    obtain ⟨ts, T', hG, F', A, h1, h2, h3, h4⟩ := key _ _ _ _
      ((Frame.alloc _ _ _).trans (Frame.write _ loc _) (fun _ _ h => h))
      (p.ctx.write (by rw [Heap.alloc_old _ _ hltA]; exact hmem0)) h
    refine ⟨ts, T', hG, F', _, A, h1, h2, by simp [hr], fun _ => ⟨_, .slice s.heap.next n, rfl, ?_⟩⟩
    have := h4 (s.heap.allocCells n).2.next (Nat.le_refl _)
      (by rw [Heap.write_next, Heap.alloc_next]; omega)
    refine ⟨this.1, ?_, h3⟩
    rw [this.2, Heap.write_mem _ _ _ _ (Nat.ne_of_gt hltA), Heap.alloc_mem]
  · rw [if_neg hr, D.bind_eq (writeLoc_apply _ _ _)] at h
    obtain ⟨ts, T', hG, F', A, h1, h2, h3, h4⟩ := key _ _ _ _ (Frame.write _ loc _)
      (p.ctx.write hmem0) h
    exact ⟨ts, T', hG, F', _, A, h1, h2, fun _ => h3, fun h => absurd h hr⟩

theorem decodeHash_sound (i : Nat) (n : Nat) (loc : Loc) (isRef : Bool) (K : Val → HObj)
    (s : DState) (T : Seen) (F : Addr → Prop) (v0 : Val) (j : Nat) (s' : DState)
    (p : Pre c s T F loc K v0) (hn : n < 2 ^ 64)
    (h : decodeHash buf rec i (sgn n) loc isRef s = (.ok j, s')) :
    n ≤ maxSize ∧ ∃ kvs T', G goDialect buf s.cd (.pairs n) i T (.pairs kvs) j T' ∧
      ∃ F' v, After c s T F (· = loc.addr) (· = loc.addr) s' T' F' ∧ F' loc.addr ∧
        s'.heap.mem loc.addr = K v ∧
        (isRef = false → ShowsF c F' s'.heap v (.map kvs)) ∧
        (isRef = true → ∃ a w, v = .ptr false a ∧ F' a ∧ s'.heap.mem a = .cell w ∧
          ShowsF c F' s'.heap w (.map kvs)) := by
  unfold decodeHash at h
  obtain ⟨_, s1, h1, h⟩ := D.bind_ok.1 h
  obtain ⟨hsz, rfl⟩ := D.failIf_ok.1 h1
  have hle := (sgn_size hn).1 hsz
  refine ⟨hle, ?_⟩
  have hsg : sgn n = n := sgn_small (by simp [maxSize] at hle; omega)
  rw [hsg] at h
  simp only [Int.toNat_natCast] at h
  obtain ⟨_, s1, h1, h⟩ := D.bind_ok.1 h
  obtain ⟨hlen, rfl⟩ := D.failIf_ok.1 h1
  rw [D.bind_eq (charge_apply _ _), D.bind_eq (allocObj_apply _ _)] at h
  have key : ∀ (hp : Heap) (w : Val) (al pk : Nat), Frame (· = loc.addr) (s.heap.alloc (.mp [])).2 hp →
      hp.mem loc.addr = K w →
      hashLoop buf rec s.heap.next n i { s with heap := hp, alloc := al, peak := pk } = (.ok j, s') →
      ∃ kvs T', G goDialect buf s.cd (.pairs n) i T (.pairs kvs) j T' ∧
        ∃ F', After c s T F (· = loc.addr) (· = loc.addr) s' T' F' ∧ F' loc.addr ∧
          s'.heap.mem loc.addr = K w ∧ ShowsF c F' s'.heap (.smap s.heap.next) (.map kvs) ∧
          (∀ a, s.heap.next + 1 ≤ a → a < hp.next → F' a ∧ s'.heap.mem a = hp.mem a) := by
    intro hp w al pk f hm h
    have hlt := p.lt
    have f0 : Frame (· = loc.addr) s.heap hp :=
      (Frame.alloc _ s.heap _).trans f (fun _ _ h => h)
    have hnext : s.heap.next + 1 ≤ hp.next := by
      have := f.next; rwa [Heap.alloc_next] at this
    have hA : After c s T F (· = loc.addr) (· = loc.addr) { s with heap := hp, alloc := al, peak := pk }
        T F := by
      refine After.heap p.inv f0 ?_ rfl rfl (fun _ h => h) ?_ (fun _ h => Or.inl h)
      · rintro a ha rfl; exact p.free ha
      · intro a ha; exact Nat.lt_of_lt_of_le (p.inv.lt a ha) f0.next
    obtain ⟨ks, T', F', hG, A, hfin, hshow⟩ := hashLoop_sound hrec s.heap.next n i
      { s with heap := hp, alloc := al, peak := pk } T F [] j s' hA.inv (by dsimp only; omega)
      (fun hc => by have := p.inv.lt _ hc; omega)
      (by
        dsimp only
        rw [f.same _ (by rw [Heap.alloc_next]; omega) (by omega), Heap.alloc_mem]) h
    have hold : ∀ a, a < hp.next → a ≠ s.heap.next →
        s'.heap.mem a = hp.mem a := fun a h1 h2 => A.frame.same a h1 h2
    have hlt' : hp.next ≤ s'.heap.next := A.frame.next
    let F2 : Addr → Prop := fun a => F' a ∨ a = loc.addr ∨ (s.heap.next ≤ a ∧ a < s'.heap.next)
    have hsub : ∀ a, F' a → F2 a := fun a h => Or.inl h
    refine ⟨_, T', hG, F2, ⟨A.inv.grow hsub ?_, fun a h => Or.inl (A.sub a h), ?_, ?_, A.depth,
      A.moves⟩, Or.inr (Or.inl rfl), ?_, ?_, ?_⟩
    · rintro a (h | rfl | h)
      · exact A.inv.lt a h
      · omega
      · exact h.2
    · rintro a (h | h | h)
      · rcases A.new a h with h | h | h
        · exact Or.inl h
        · exact h.elim
        · dsimp only at h; exact Or.inr (Or.inr (by omega))
      · exact Or.inr (Or.inl h)
      · exact Or.inr (Or.inr h.1)
    · exact f0.trans A.frame (fun a ha h => by omega)
    · rw [hold _ (by omega) (by omega)]; exact hm
    · intro h2 hag
      have hlook : ∀ k, mapLookup k (insertAll (ks.map fun x => (x.1, x.2.1)) []) =
          lastLookup k (ks.map fun x => (x.1, x.2.1)) := by
        intro k; rw [insertAll_lookup]; cases lastLookup k _ <;> rfl
      refine Shows.map (es := insertAll (ks.map fun x => (x.1, x.2.1)) []) ?_ ?_ ?_ ?_
      · rw [hag _ (Or.inr (Or.inr ⟨Nat.le_refl _, by omega⟩))]; exact hfin
      · exact insertAll_nodup _ _ (by simp)
      · intro k
        rw [hlook]
        rcases lastLookup_both k ks with ⟨h3, h4⟩ | ⟨a, b, _, h3, h4⟩ <;> rw [h3, h4] <;> rfl
      · intro k v t h3 h4
        rw [hlook] at h3
        rcases lastLookup_both k ks with ⟨h5, h6⟩ | ⟨a, b, hm', h5, h6⟩
        · rw [h5] at h3; cases h3
        · rw [h5] at h3; rw [h6] at h4
          cases h3; cases h4
          exact hshow _ hm' h2 (hag.mono hsub)
    · intro a h1 h2
      exact ⟨Or.inr (Or.inr ⟨by omega, by omega⟩), hold a h2 (by omega)⟩
  have hmem0 : (s.heap.alloc (.mp [])).2.mem loc.addr = K v0 := by
    rw [Heap.alloc_old _ _ p.lt]; exact p.mem
  by_cases hr : isRef = true
  · rw [if_pos hr, D.bind_eq (allocVar_apply _ _), D.bind_eq (writeLoc_apply _ _ _)] at h
    have hltA : loc.addr < (s.heap.alloc (.mp [])).2.next := by
      rw [Heap.alloc_next]; have := p.lt; omega
    obtain ⟨kvs, T', hG, F', A, h1, h2, h3, h4⟩ := key _ _ _ _
      ((Frame.alloc _ _ _).trans (Frame.write _ loc _) (fun _ _ h => h))
      (p.ctx.write (by rw [Heap.alloc_old _ _ hltA]; exact hmem0)) h
    refine ⟨kvs, T', hG, F', _, A, h1, h2, by simp [hr], fun _ => ⟨_, .smap s.heap.next, rfl, ?_⟩⟩
    have := h4 (s.heap.alloc (.mp [])).2.next (Nat.le_refl _)
      (by simp only [Heap.write_next, Heap.alloc_next]; omega)
    refine ⟨this.1, ?_, h3⟩
    rw [this.2, Heap.write_mem _ _ _ _ (Nat.ne_of_gt hltA), Heap.alloc_mem]
  · rw [if_neg hr, D.bind_eq (writeLoc_apply _ _ _)] at h
    obtain ⟨kvs, T', hG, F', A, h1, h2, h3, h4⟩ := key _ _ _ _ (Frame.write _ loc _)
      (p.ctx.write hmem0) h
    exact ⟨kvs, T', hG, F', _, A, h1, h2, fun _ => h3, fun h => absurd h hr⟩

omit hrec in
theorem decodeRefpAlias_sound {cfg : DCfg} (hc : c = cfg.view) (i : Nat) (isREFP : Bool) (loc : Loc)
    (K : Val → HObj) (s : DState) (T : Seen) (F : Addr → Prop) (v0 : Val) (j : Nat) (s' : DState)
    (p : Pre c s T F loc K v0) (h : decodeRefpAlias cfg buf i isREFP loc s = (.ok j, s')) :
    ∃ t, G goDialect buf s.cd (.body (if isREFP then .refp else .alias)) i T (.tree t) j T ∧
      Done c s T F loc K t s' T := by
  unfold decodeRefpAlias at h
  obtain ⟨⟨offs, sz⟩, s1, h1, h⟩ := D.bind_ok.1 h
  obtain ⟨rfl, o, hv, rfl, hn64⟩ := varintAt_ok_iff.1 h1
  dsimp only at h
  obtain ⟨_, s1, h3, h⟩ := D.bind_ok.1 h
  obtain ⟨hsz, rfl⟩ := D.failIf_ok.1 h3
  obtain ⟨hlt, hsg⟩ := lt_of_sgn hn64 hsz
  rw [hsg, Int.toNat_natCast, D.bind_eq (D.get_apply _)] at h
  cases htr : s.tracked o with
  | none =>
    rw [htr] at h
    dsimp only at h
    split at h <;> exact (D.err_ok.1 h).elim
  | some l =>
    rw [htr] at h
    dsimp only at h
    rw [D.bind_eq (readLoc_apply _ _)] at h
    cases hT : T o with
    | none => rw [(p.inv.none o).2 hT] at htr; cases htr
    | some ot =>
      cases ot with
      | none =>
        by_cases hR : isREFP = true
        · rw [if_pos hR] at h
          by_cases hnil : s.heap.read l = .nil
          · rw [if_pos hnil] at h; exact (D.fail_ok.1 h).elim
          · rw [if_neg hnil] at h
            by_cases hdi : cfg.disableRefInt = true
            · rw [if_pos hdi, D.bind_eq (writeLoc_apply _ _ _), D.pure_ok] at h
              obtain ⟨rfl, rfl⟩ := h
              rw [if_pos hR]
              exact ⟨_, .refpOpen hv hlt hT, p.store rfl rfl rfl (fun _ => .openRef)⟩
            · rw [if_neg hdi, D.bind_eq (allocVar_apply _ _), D.bind_eq (writeLoc_apply _ _ _),
                D.pure_ok] at h
              obtain ⟨rfl, rfl⟩ := h
              rw [if_pos hR]
              exact ⟨_, .refpOpen hv hlt hT, p.storeNew rfl rfl rfl (fun _ _ _ => .openRef)⟩
        · rw [if_neg hR, D.bind_eq (writeLoc_apply _ _ _), D.pure_ok] at h
          obtain ⟨rfl, rfl⟩ := h
          rw [if_neg hR]
          exact ⟨_, .aliasOpen hv hlt hT, p.store rfl rfl rfl (fun _ => .openRef)⟩
      | some t =>
        obtain ⟨l', K', v, h4, h5, h6, h7, h8⟩ := p.inv.done o t hT
        rw [htr] at h4; cases h4
        rw [h5.read h7] at h
        have hfr : ∀ w, Agree F s.heap (s.heap.write loc w) := fun w =>
          p.inv.agree (Frame.write _ _ _) (by rintro a ha rfl; exact p.free ha)
        by_cases hR : isREFP = true
        · rw [if_pos hR] at h
          by_cases hnil : v = .nil
          · rw [if_pos hnil] at h; exact (D.fail_ok.1 h).elim
          · rw [if_neg hnil] at h
            by_cases hdi : cfg.disableRefInt = true
            · rw [if_pos hdi, D.bind_eq (writeLoc_apply _ _ _), D.pure_ok] at h
              obtain ⟨rfl, rfl⟩ := h
              rw [if_pos hR]
              refine ⟨_, .refp hv hlt hT, p.leaf (v := v) (Frame.write _ _ _) rfl rfl
                (p.ctx.write p.mem) ?_⟩
              intro h' ha
              exact .refpI (by rw [hc]; exact hdi)
                (h8 h' ((hfr _).trans (ha.mono (fun a h => Or.inl h))))
            · rw [if_neg hdi, D.bind_eq (allocVar_apply _ _), D.bind_eq (writeLoc_apply _ _ _),
                D.pure_ok] at h
              obtain ⟨rfl, rfl⟩ := h
              rw [if_pos hR]
              refine ⟨_, .refp hv hlt hT, p.storeNew rfl rfl rfl (fun h' hm ha => ?_)⟩
              exact .refp (by rw [hc]; simpa [DCfg.view] using hdi) hm (h8 h' ha)
        · rw [if_neg hR, D.bind_eq (writeLoc_apply _ _ _), D.pure_ok] at h
          obtain ⟨rfl, rfl⟩ := h
          rw [if_neg hR]
          refine ⟨_, .alias hv hlt hT, p.leaf (v := v) (Frame.write _ _ _) rfl rfl
                (p.ctx.write p.mem) ?_⟩
          intro h' ha
          exact .alias (h8 h' ((hfr _).trans (ha.mono (fun a h => Or.inl h))))

end

section
variable {c : ViewCfg} {s s1 s2 : DState} {T T' : Seen} {F : Addr → Prop} {loc l : Loc}
  {K K' : Val → HObj} {v0 v1 w : Val} {t : Tree}

/-- Before decoding into a fresh variable. -/
theorem Pre.inner (p : Pre c s T F loc K v0) (f : Frame (· = loc.addr) s.heap s1.heap)
    (ht : s1.tracked = s.tracked) (hl : s.heap.next ≤ l.addr) (hl' : l.addr < s1.heap.next)
    (hc : Ctx l K') (hm : s1.heap.mem l.addr = K' w) : Pre c s1 T F l K' w := by
  refine ⟨p.inv.frame f ?_ ht, ?_, hl', hc, hm⟩
  · rintro a ha rfl; exact p.free ha
  · intro h; have := p.inv.lt _ h; omega

/-- After decoding into a fresh variable. -/
theorem Done.inner (d : Done c s1 T F l K' t s2 T') (p : Pre c s T F loc K v0)
    (f : Frame (· = loc.addr) s.heap s1.heap) (ht : s1.tracked = s.tracked)
    (hd : s1.copyDepth = s.copyDepth) (hl : s.heap.next ≤ l.addr)
    (hm : s1.heap.mem loc.addr = K v1) :
    ∃ F1 v, After c s T F (· = loc.addr) (fun _ => False) s2 T' F1 ∧ F1 l.addr ∧
      s2.heap.mem l.addr = K' v ∧ ShowsF c F1 s2.heap v t ∧ ¬ F1 loc.addr ∧
      s2.heap.mem loc.addr = K v1 := by
  obtain ⟨F1, v, A, h1, h2, h3⟩ := d
  have hlt := p.lt
  have hnext := f.next
  have A0 : After c s T F (· = loc.addr) (fun _ => False) s1 T F :=
    After.heap p.inv f (by rintro a ha rfl; exact p.free ha) ht hd (fun _ h => h)
      (fun a ha => Nat.lt_of_lt_of_le (p.inv.lt a ha) hnext) (fun _ h => Or.inl h)
  refine ⟨F1, v, A0.trans A (fun x hx h => by omega) (fun x hx h => by omega), h1, h2, h3, ?_, ?_⟩
  · intro h
    rcases A.new _ h with h | h | h
    · exact p.free h
    · omega
    · omega
  · rw [A.frame.same _ (by omega) (by omega)]; exact hm

end

section
variable {c : ViewCfg} {buf : Bytes} {rec : Nat → Loc → D Nat} (hrec : Sound c buf rec)
include hrec

theorem decodeIface_sound (i : Nat) (loc : Loc) (K : Val → HObj) (s : DState) (T : Seen)
    (F : Addr → Prop) (v0 : Val) (j : Nat) (s' : DState) (p : Pre c s T F loc K v0)
    (h : decodeIface buf rec i loc s = (.ok j, s')) :
    ∃ t T', G goDialect buf s.cd .item i T (.tree t) j T' ∧ Done c s T F loc K t s' T' := by
  unfold decodeIface at h
  obtain ⟨_, s1, h1, h⟩ := D.bind_ok.1 h
  obtain ⟨_, rfl⟩ := D.failIf_ok.1 h1
  rw [D.bind_eq (readLoc_apply _ _)] at h
  obtain ⟨_, s1, h1, h⟩ := D.bind_ok.1 h
  obtain ⟨hnil, rfl⟩ := D.failIf_ok.1 h1
  rw [p.ctx.read p.mem] at hnil
  have hnil : v0 = .nil := Classical.byContradiction hnil
  subst hnil
  rw [D.bind_eq (allocVar_apply _ _)] at h
  obtain ⟨i1, s1, h1, h⟩ := D.bind_ok.1 h
  rw [D.bind_eq (readLoc_apply _ _)] at h
  have f : Frame (· = loc.addr) s.heap (s.heap.alloc (.cell .nil)).2 := Frame.alloc _ _ _
  have hm0 : (s.heap.alloc (.cell .nil)).2.mem loc.addr = K .nil := by
    rw [Heap.alloc_old _ _ p.lt]; exact p.mem
  obtain ⟨t, T', g, d⟩ := hrec i (.cell s.heap.next) .cell
    { s with heap := (s.heap.alloc (.cell .nil)).2 } T F .nil i1 s1
    (p.inner f rfl (Nat.le_refl _) (Nat.lt_succ_self _) (.cell _) (Heap.alloc_mem _ _)) h1
  obtain ⟨F1, v, A, h2, h3, h4, h5, h6⟩ := d.inner p f rfl rfl (Nat.le_refl _) hm0
  simp only [Loc.addr] at h2 h3
  rw [(Ctx.cell s.heap.next).read (hp := s1.heap) h3] at h
  by_cases hv : v = .nil
  · subst hv
    rw [if_neg (by simp)] at h
    dsimp only at h
    rw [D.pure_ok] at h
    obtain ⟨rfl, rfl⟩ := h
    refine ⟨t, T', g, finish p A (fun _ h => h.elim) (Frame.refl _ _) h5 rfl rfl h6 ?_⟩
    exact h4.mono (fun a h => Or.inl h) (Agree.refl _ _)
  · rw [if_pos hv, D.bind_eq (writeLoc_apply _ _ _), D.pure_ok] at h
    obtain ⟨rfl, rfl⟩ := h
    refine ⟨t, T', g, finish p A (fun _ h => h.elim) (Frame.write _ _ _) h5 rfl rfl
      (p.ctx.write h6) ?_⟩
    exact h4.mono (fun a h => Or.inl h)
      (A.inv.agree (Frame.write _ _ _) (by rintro a ha rfl; exact h5 ha))

omit hrec in
theorem decodeClassName_sound {i : Nat} {v : Bool} {s s' : DState} {cls : Bytes} {j : Nat}
    (h : decodeClassName buf i v s = (.ok (cls, j), s')) :
    s.Eqv s' ∧ ((v = false ∧ Strish goDialect buf s.cd i cls j) ∨
      (v = true ∧ ∃ o x, Vint goDialect buf i o j ∧ o < 2 ^ 63 ∧ Strish goDialect buf s.cd o cls x)) := by
  unfold decodeClassName at h
  cases v with
  | false =>
    rw [if_neg (by simp)] at h
    obtain ⟨g, e, -⟩ := decodeStringish_ok h
    exact ⟨e, Or.inl ⟨rfl, g⟩⟩
  | true =>
    rw [if_pos rfl] at h
    obtain ⟨⟨offs, sz⟩, s1, h1, h⟩ := D.bind_ok.1 h
    obtain ⟨rfl, o, hv, rfl, hn64⟩ := varintAt_ok_iff.1 h1
    dsimp only at h
    obtain ⟨_, s1, h3, h⟩ := D.bind_ok.1 h
    obtain ⟨hsz, rfl⟩ := D.failIf_ok.1 h3
    have ho := (sgn_nonneg hn64).1 hsz
    rw [sgn_small ho, Int.toNat_natCast] at h
    obtain ⟨⟨cls', x⟩, s1, h1, h⟩ := D.bind_ok.1 h
    rw [D.pure_ok, Prod.mk.injEq] at h
    obtain ⟨⟨rfl, rfl⟩, rfl⟩ := h
    obtain ⟨g, e, -⟩ := decodeStringish_ok h1
    exact ⟨e, Or.inr ⟨rfl, o, x, hv, ho, g⟩⟩

theorem decodeObject_sound {cfg : DCfg} (hc : c = cfg.view) (i : Nat) (loc : Loc) (isV : Bool)
    (K : Val → HObj) (s : DState) (T : Seen) (F : Addr → Prop) (v0 : Val) (j : Nat) (s' : DState)
    (p : Pre c s T F loc K v0) (h : decodeObject cfg buf rec i loc isV s = (.ok j, s')) :
    ∃ t T', G goDialect buf s.cd (.body (if isV then .objectv else .object)) i T (.tree t) j T' ∧
      Done c s T F loc K t s' T' := by
  unfold decodeObject at h
  obtain ⟨⟨cls, i1⟩, s1, h1, h⟩ := D.bind_ok.1 h
  obtain ⟨e, hcls⟩ := decodeClassName_sound h1
  dsimp only at h
  have hG : ∀ t j T', G goDialect buf s.cd .item i1 T (.tree t) j T' →
      G goDialect buf s.cd (.body (if isV then .objectv else .object)) i T (.tree (.obj cls t)) j T' := by
    intro t j T' g
    rcases hcls with ⟨rfl, g1⟩ | ⟨rfl, o, x, g1, g2, g3⟩
    · exact .object g1 g
    · exact .objectv g1 ⟨g2, fun h => (by cases h)⟩ g3 g
  have p1 := p.eqv e
  by_cases hpc : cfg.perlCompat = true
  · rw [if_pos hpc, D.bind_eq (charge_apply _ _), D.bind_eq (allocVar_apply _ _),
      D.bind_eq (writeLoc_apply _ _ _)] at h
    have f : Frame (· = loc.addr) s1.heap ((s1.heap.alloc (.cell (.obj cls .nil))).2.write loc
        (.ptr false s1.heap.next)) := (Frame.alloc _ _ _).trans (Frame.write _ _ _) (fun _ _ h => h)
    have hm1 : ((s1.heap.alloc (.cell (.obj cls .nil))).2.write loc
        (.ptr false s1.heap.next)).mem loc.addr = K (.ptr false s1.heap.next) :=
      p1.ctx.write (by rw [Heap.alloc_old _ _ p1.lt]; exact p1.mem)
    have hr := fun q => hrec i1 (.field s1.heap.next) (fun v => .cell (.obj cls v)) _ T F .nil j s' q h
    obtain ⟨t, T', g, d⟩ := hr
      (p1.inner (l := .field s1.heap.next) (w := .nil) f rfl (Nat.le_refl _)
        (by dsimp only [Loc.addr]; rw [Heap.write_next]; exact Nat.lt_succ_self _) (.obj _ cls)
        (by
          dsimp only [Loc.addr]
          rw [Heap.write_mem _ _ _ _ (Nat.ne_of_gt p1.lt), Heap.alloc_mem]))
    obtain ⟨F1, v, A, h2, h3, h4, h5, h6⟩ := d.inner p1 f rfl rfl (Nat.le_refl _) hm1
    simp only [Loc.addr] at h2 h3
    have hcd : s1.cd = s.cd := e.cd
    refine ⟨.obj cls t, T', hG t j T' (by rw [← hcd]; exact g), ?_⟩
    refine Done.eqv (finish p1 A (fun _ h => h.elim) (Frame.refl _ _) h5 rfl rfl h6 ?_) e
      (DState.Eqv.refl _)
    intro h' ha
    refine .objP (by rw [hc]; exact hpc) ?_ (h4 h' (ha.mono (fun a h => Or.inl h)))
    rw [ha _ (Or.inl h2)]; exact h3
  · rw [if_neg hpc] at h
    obtain ⟨t, T', g, d⟩ := decodeIface_sound hrec i1 loc K s1 T F v0 j s' p1 h
    refine ⟨.obj cls t, T', hG t j T' (by rw [← e.cd]; exact g), ?_⟩
    obtain ⟨F', v, A, h2, h3, h4⟩ := d
    refine Done.eqv ⟨F', v, A, h2, h3, fun h' ha => ?_⟩ e (DState.Eqv.refl _)
    exact .obj (by rw [hc]; simpa [DCfg.view] using hpc) (h4 h' ha)

theorem decodeRefn_sound {cfg : DCfg} (hc : c = cfg.view) (trackme : Bool) (i : Nat) (loc : Loc)
    (K : Val → HObj) (s : DState) (T : Seen) (F : Addr → Prop) (v0 : Val) (j : Nat) (s' : DState)
    (p : Pre c s T F loc K v0) (h : decodeRefn cfg rec trackme i loc s = (.ok j, s')) :
    ∃ t T', G goDialect buf s.cd (.body .refn) i T (.tree t) j T' ∧
      Done c s T F loc K t s' T' := by
  unfold decodeRefn at h
  by_cases hpc : cfg.perlCompat = true
  · rw [if_pos hpc, D.bind_eq (allocVar_apply _ _), D.bind_eq (writeLoc_apply _ _ _)] at h
    obtain ⟨i1, s1, h1, h⟩ := D.bind_ok.1 h
    have f : Frame (· = loc.addr) s.heap ((s.heap.alloc (.cell .nil)).2.write loc
        (.ptr true s.heap.next)) := (Frame.alloc _ _ _).trans (Frame.write _ _ _) (fun _ _ h => h)
    have hm1 : ((s.heap.alloc (.cell .nil)).2.write loc
        (.ptr true s.heap.next)).mem loc.addr = K (.ptr true s.heap.next) :=
      p.ctx.write (by rw [Heap.alloc_old _ _ p.lt]; exact p.mem)
    have hr := fun q => hrec i (.cell s.heap.next) .cell _ T F .nil i1 s1 q h1
    obtain ⟨t, T', g, d⟩ := hr
      (p.inner (l := .cell s.heap.next) (w := .nil) f rfl (Nat.le_refl _)
        (by dsimp only [Loc.addr]; rw [Heap.write_next]; exact Nat.lt_succ_self _) (.cell _)
        (by
          dsimp only [Loc.addr]
          rw [Heap.write_mem _ _ _ _ (Nat.ne_of_gt p.lt), Heap.alloc_mem]))
    obtain ⟨F1, v, A, h2, h3, h4, h5, h6⟩ := d.inner p f rfl rfl (Nat.le_refl _) hm1
    simp only [Loc.addr] at h2 h3
    by_cases htr : trackme = true
    · rw [if_pos htr, D.pure_ok] at h
      obtain ⟨rfl, rfl⟩ := h
      refine ⟨.ref t, T', .refn g, finish p A (fun _ h => h.elim) (Frame.refl _ _) h5 rfl rfl h6 ?_⟩
      intro h' ha
      refine .refP (v := v) (by rw [hc]; exact hpc) ?_ (h4 h' (ha.mono (fun a h => Or.inl h)))
      rw [ha _ (Or.inl h2)]; exact h3
    · rw [if_neg htr, D.bind_eq (readLoc_apply _ _),
        (Ctx.cell s.heap.next).read (hp := s1.heap) h3] at h
      by_cases hv : v = .nil
      · rw [if_pos hv] at h; exact (D.fail_ok.1 h).elim
      · rw [if_neg hv, D.bind_eq (allocVar_apply _ _), D.bind_eq (writeLoc_apply _ _ _), D.pure_ok] at h
        obtain ⟨rfl, rfl⟩ := h
        have f2 : Frame (· = loc.addr) s1.heap ((s1.heap.alloc (.cell v)).2.write loc
            (.ptr false s1.heap.next)) :=
          (Frame.alloc _ _ _).trans (Frame.write _ _ _) (fun _ _ h => h)
        have hlt : loc.addr < s1.heap.next := Nat.lt_of_lt_of_le p.lt A.frame.next
        refine ⟨.ref t, T', .refn g, finish p A (fun _ h => h.elim) f2 h5 rfl rfl
          (p.ctx.write (by rw [Heap.alloc_old _ _ hlt]; exact h6)) ?_⟩
        intro h' ha
        refine .refP (v := v) (by rw [hc]; exact hpc) ?_ (h4 h' ?_)
        · rw [ha _ (Or.inr (Or.inr ⟨A.frame.next, by
            dsimp only; rw [Heap.write_next, Heap.alloc_next]; omega⟩))]
          dsimp only
          rw [Heap.write_mem _ _ _ _ (Nat.ne_of_gt hlt), Heap.alloc_mem]
        · exact (A.inv.agree f2 (by rintro a ha rfl; exact h5 ha)).trans
            (ha.mono (fun a h => Or.inl h))
  · rw [if_neg hpc] at h
    obtain ⟨t, T', g, F', v, A, h2, h3, h4⟩ := hrec i loc K s T F v0 j s' p h
    exact ⟨.ref t, T', .refn g, F', v, A, h2, h3, fun h' ha =>
      .ref (by rw [hc]; simpa [DCfg.view] using hpc) (h4 h' ha)⟩

omit hrec in
theorem tagAt_of_byte {i k : Nat} {b b' : UInt8} (h : TagAt buf i k b) (hb : buf[i]? = some b')
    (hp : b'.toNat % 128 ≠ 0x3f) : k = i ∧ b = b' := by
  have := h.unique ⟨Nat.le_refl _, fun x _ _ => by omega, hb, hp⟩
  exact this

omit hrec in
/-- The item after the class name of a frozen object. -/
theorem freeze_item {d : Dialect} {cd : Bool} {i j : Nat} {T T' : Seen} {t : Tree}
    (hs : Span buf i [0x28, 0x2b] (i + 2)) (g : G d buf cd .item i T (.tree t) j T') :
    ∃ ts, t = .ref (.arr ts) := by
  have e0 : buf[i]? = some 0x28 := by
    have := getElem?_of_span hs 0 (by simp); simpa using this
  have e1 : buf[i + 1]? = some 0x2b := by
    have := getElem?_of_span hs 1 (by simp); simpa using this
  cases g with
  | plain htag hb g =>
    obtain ⟨rfl, rfl⟩ := tagAt_of_byte htag e0 (by decide)
    have hcl : classify (UInt8.toNat 0x28) = .refn := by decide
    rw [hcl] at g
    cases g with
    | refn g =>
      cases g with
      | plain htag hb g =>
        obtain ⟨rfl, rfl⟩ := tagAt_of_byte htag e1 (by decide)
        have hcl : classify (UInt8.toNat 0x2b) = .array := by decide
        rw [hcl] at g
        cases g with
        | array _ _ _ => exact ⟨_, rfl⟩
      | tracked htag hb g =>
        obtain ⟨rfl, rfl⟩ := tagAt_of_byte htag e1 (by decide)
        exact absurd hb (by decide)
  | tracked htag hb g =>
    obtain ⟨rfl, rfl⟩ := tagAt_of_byte htag e0 (by decide)
    exact absurd hb (by decide)

omit hrec in
theorem ShowsF.first {F : Addr → Prop} {h : Heap} {p : Addr} {ts : List Tree}
    (hs : ShowsF c F h (.slice p 1) (.ref (.arr ts))) : F p := by
  refine Classical.byContradiction fun hp => ?_
  have hs' := hs (h.set p (.mp [])) (by
    intro a ha
    simp only [Heap.set]
    rw [if_neg (by rintro rfl; exact hp ha)])
  generalize hn : 1 = n at hs'
  cases hs' with
  | ref _ hs' =>
    cases hs' with
    | arr f h1 h2 =>
      have := h1 0 (by omega)
      simp [Heap.set] at this

theorem decodeFreeze_sound {cfg : DCfg} (hc : c = cfg.view) (i : Nat) (loc : Loc) (isV : Bool)
    (K : Val → HObj) (s : DState) (T : Seen) (F : Addr → Prop) (v0 : Val) (j : Nat) (s' : DState)
    (p : Pre c s T F loc K v0) (h : decodeFreeze cfg buf rec i loc isV s = (.ok j, s')) :
    ∃ t T', G goDialect buf s.cd (.body (if isV then .freezev else .freeze)) i T (.tree t) j T' ∧
      Done c s T F loc K t s' T' := by
  unfold decodeFreeze at h
  obtain ⟨⟨cls, i1⟩, s1, h1, h⟩ := D.bind_ok.1 h
  obtain ⟨e, hcls⟩ := decodeClassName_sound h1
  dsimp only at h
  obtain ⟨_, s2, h1, h⟩ := D.bind_ok.1 h
  obtain ⟨hlen, rfl⟩ := D.failIf_ok.1 h1
  obtain ⟨b0, s2, h1, h⟩ := D.bind_ok.1 h
  obtain ⟨e0, rfl⟩ := byteAt_ok.1 h1
  obtain ⟨b1, s2, h1, h⟩ := D.bind_ok.1 h
  obtain ⟨e1, rfl⟩ := byteAt_ok.1 h1
  obtain ⟨_, s2, h1, h⟩ := D.bind_ok.1 h
  obtain ⟨htags, rfl⟩ := D.failIf_ok.1 h1
  have hb0 : b0 = 0x28 := Classical.byContradiction fun hh => htags (Or.inl hh)
  have hb1 : b1 = 0x2b := Classical.byContradiction fun hh => htags (Or.inr hh)
  rw [hb0] at e0
  rw [hb1] at e1
  have hspan : Span buf i1 [0x28, 0x2b] (i1 + 2) :=
    ⟨⟨buf.drop (i1 + 2), by rw [drop_cons_of e0, drop_cons_of e1]; rfl⟩, rfl⟩
  rw [D.bind_eq (allocVar_apply _ _)] at h
  obtain ⟨i2, s2, h1, h⟩ := D.bind_ok.1 h
  have p1 := p.eqv e
  have f : Frame (· = loc.addr) s1.heap (s1.heap.alloc (.cell .nil)).2 := Frame.alloc _ _ _
  have hm1 : (s1.heap.alloc (.cell .nil)).2.mem loc.addr = K v0 := by
    rw [Heap.alloc_old _ _ p1.lt]; exact p1.mem
  obtain ⟨t, T', g, d⟩ := hrec i1 (.cell s1.heap.next) .cell
    { s1 with heap := (s1.heap.alloc (.cell .nil)).2 } T F .nil i2 s2
    (p1.inner f rfl (Nat.le_refl _) (Nat.lt_succ_self _) (.cell _) (Heap.alloc_mem _ _)) h1
  obtain ⟨ts, rfl⟩ := freeze_item hspan g
  obtain ⟨F1, v, A, h2, h3, h4, h5, h6⟩ := d.inner p1 f rfl rfl (Nat.le_refl _) hm1
  simp only [Loc.addr] at h2 h3
  have hG : G goDialect buf s.cd (.body (if isV then .freezev else .freeze)) i T
      (.tree (.frz cls (.ref (.arr ts)))) i2 T' := by
    have g' : G goDialect buf s.cd .item i1 T (.tree (.ref (.arr ts))) i2 T' := by
      rw [← e.cd]; exact g
    rcases hcls with ⟨rfl, g1⟩ | ⟨rfl, o, x, g1, g2, g3⟩
    · exact .freeze g1 hspan g'
    · exact .freezev g1 ⟨g2, fun h => (by cases h)⟩ g3 hspan g'
  rw [D.bind_eq (readLoc_apply _ _), (Ctx.cell s1.heap.next).read (hp := s2.heap) h3] at h
  cases v with
  | slice q n =>
    dsimp only at h
    replace h := D.bind_ok.1 h
    obtain ⟨_, s3, h7, h⟩ := h
    obtain ⟨hn1, rfl⟩ := D.failIf_ok.1 h7
    have hn1 : n = 1 := Classical.byContradiction hn1
    subst hn1
    have hFq := h4.first
    rw [D.bind_eq (readLoc_apply _ _)] at h
    cases hq : s2.heap.read (.cell q) with
    | bin data =>
      rw [hq] at h
      dsimp only at h
      have hmq : s2.heap.mem q = .cell (.bin data) := by
        simp only [Heap.read, Heap.cellAt] at hq
        split at hq
        · rename_i v hv; rw [hv, hq]
        · cases hq
      rw [D.bind_eq (charge_apply _ _)] at h
      have store : ∀ (o : Val) (st : DState), st.heap = (s2.heap.alloc (.cell o)).2.write loc
            (.ptr false s2.heap.next) → st.tracked = s2.tracked → st.copyDepth = s2.copyDepth →
          (∀ h', h'.mem s2.heap.next = .cell o → Shows c h' (.slice q 1) (.ref (.arr ts)) →
            h'.mem q = .cell (.bin data) →
            Shows c h' (.ptr false s2.heap.next) (.frz cls (.ref (.arr ts)))) →
          Done c s T F loc K (.frz cls (.ref (.arr ts))) st T' := by
        intro o st hst ht hd hsh
        have f2 : Frame (· = loc.addr) s2.heap st.heap := by
          rw [hst]; exact (Frame.alloc _ _ _).trans (Frame.write _ _ _) (fun _ _ h => h)
        have hlt : loc.addr < s2.heap.next := Nat.lt_of_lt_of_le p1.lt A.frame.next
        have hag := A.inv.agree f2 (by rintro a ha rfl; exact h5 ha)
        refine Done.eqv (finish p1 A (fun _ h => h.elim) f2 h5 ht hd (v := .ptr false s2.heap.next)
          ?_ ?_) e (DState.Eqv.refl _)
        · rw [hst]; exact p1.ctx.write (by rw [Heap.alloc_old _ _ hlt]; exact h6)
        · intro h' ha
          have ha' : Agree F1 s2.heap h' := hag.trans (ha.mono (fun a h => Or.inl h))
          refine hsh h' ?_ (h4 h' ha') ?_
          · rw [ha _ (Or.inr (Or.inr ⟨A.frame.next, by
              rw [hst, Heap.write_next, Heap.alloc_next]; omega⟩)), hst,
              Heap.write_mem _ _ _ _ (Nat.ne_of_gt hlt), Heap.alloc_mem]
          · rw [ha' _ hFq]; exact hmq
      by_cases hpc : cfg.perlCompat = true
      · rw [if_pos hpc, D.bind_eq (allocVar_apply _ _), D.bind_eq (writeLoc_apply _ _ _), D.pure_ok] at h
        obtain ⟨rfl, rfl⟩ := h
        exact ⟨_, T', hG, store _ _ rfl rfl rfl fun h' h8 h9 h10 =>
          .frozen (Or.inl (by rw [hc]; exact hpc)) h9 h10 h8⟩
      · rw [if_neg hpc, D.bind_eq (readLoc_apply _ _)] at h
        obtain ⟨_, s3, h7, h⟩ := D.bind_ok.1 h
        obtain ⟨-, rfl⟩ := D.failIf_ok.1 h7
        cases hreg : cfg.registry cls with
        | none =>
          rw [hreg] at h
          dsimp only at h
          rw [D.bind_eq (allocVar_apply _ _), D.bind_eq (writeLoc_apply _ _ _), D.pure_ok] at h
          obtain ⟨rfl, rfl⟩ := h
          exact ⟨_, T', hG, store _ _ rfl rfl rfl fun h' h8 h9 h10 =>
            .frozen (Or.inr (by rw [hc]; exact hreg)) h9 h10 h8⟩
        | some u =>
          rw [hreg] at h
          dsimp only at h
          cases hu : u data with
          | some n => rw [hu] at h; exact (D.fail_ok.1 h).elim
          | none =>
            rw [hu] at h
            dsimp only at h
            rw [D.bind_eq (allocVar_apply _ _), D.bind_eq (writeLoc_apply _ _ _), D.pure_ok] at h
            obtain ⟨rfl, rfl⟩ := h
            exact ⟨_, T', hG, store _ _ rfl rfl rfl fun h' h8 h9 h10 =>
              .thawed (by rw [hc]; simpa [DCfg.view] using hpc) (by rw [hc]; exact hreg) hu h9 h10 h8⟩
    | _ => rw [hq] at h; exact (D.err_ok.1 h).elim
  | _ => exact (D.err_ok.1 h).elim

end

end Sereal

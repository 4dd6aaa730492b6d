import Verif.Proof.SoundC
/-
Soundness of decode.
-/
namespace Sereal

section
variable {c : ViewCfg} {buf : Bytes} {rec : Nat → Loc → D Nat} (hrec : Sound c buf rec)
include hrec

omit hrec in
theorem Done.map {s s' : DState} {T T' : Seen} {F : Addr → Prop} {loc : Loc} {K : Val → HObj}
    {t t' : Tree} (d : Done c s T F loc K t s' T')
    (h : ∀ hp v, Shows c hp v t → Shows c hp v t') : Done c s T F loc K t' s' T' := by
  obtain ⟨F', v, A, h1, h2, h3⟩ := d
  exact ⟨F', v, A, h1, h2, fun h' ha => h _ _ (h3 h' ha)⟩

theorem decodeC_sound {cfg : DCfg} (hc : c = cfg.view) (tc : TagC) (trackme : Bool) (i : Nat)
    (loc : Loc) (tag : Nat) (K : Val → HObj) (s : DState) (T : Seen) (F : Addr → Prop) (v0 : Val)
    (j : Nat) (s' : DState) (htc : ∀ n, tc = .int n → -16 ≤ n ∧ n ≤ 15)
    (hshort : ∀ n, tc = .short n ∨ tc = .arrayref n ∨ tc = .hashref n → n < 32)
    (hi : i ≤ buf.length)
    (p : Pre c s T F loc K v0) (h : decodeC cfg buf rec tc trackme i loc tag s = (.ok j, s')) :
    ∃ t T', G goDialect buf s.cd (.body tc) i T (.tree t) j T' ∧ Done c s T F loc K t s' T' := by
  have hnc : cfg.perlCompat ≠ true → c.perlCompat = false := by
    intro hh; rw [hc]; simpa [DCfg.view] using hh
  have hpc' : cfg.perlCompat = true → c.perlCompat = true := by
    intro hh; rw [hc]; exact hh
  unfold decodeC at h
  cases tc with
  | int n =>
    dsimp only at h
    rw [D.bind_eq (writeLoc_apply _ _ _), D.pure_ok] at h
    obtain ⟨rfl, rfl⟩ := h
    refine ⟨_, T, .int, p.store rfl rfl rfl fun h => ?_⟩
    have hb := htc n rfl
    have := Shows.int (c := c) (h := h) (i := Int64.ofInt n)
    rwa [toInt_ofInt (by omega) (by omega)] at this
  | varint =>
    dsimp only at h
    obtain ⟨⟨val, sz⟩, s1, h1, h⟩ := D.bind_ok.1 h
    obtain ⟨rfl, n, hv, rfl, hn64⟩ := varintAt_ok_iff.1 h1
    dsimp only at h
    by_cases hneg : sgn n < 0
    · rw [if_pos hneg, D.bind_eq (writeLoc_apply _ _ _), D.pure_ok] at h
      obtain ⟨rfl, rfl⟩ := h
      refine ⟨_, T, .varint hv, p.store rfl rfl rfl fun h => ?_⟩
      have h63 : 2 ^ 63 ≤ n := by
        refine Nat.le_of_not_lt fun hlt => ?_
        exact (sgn_nonneg hn64).2 hlt hneg
      have := Shows.uint (c := c) (h := h) (u := UInt64.ofBitVec (BitVec.ofInt 64 (sgn n)))
      rw [ofBitVec_sgn hn64] at this
      exact this h63
    · rw [if_neg hneg, D.bind_eq (writeLoc_apply _ _ _), D.pure_ok] at h
      obtain ⟨rfl, rfl⟩ := h
      refine ⟨_, T, .varint hv, p.store rfl rfl rfl fun h => ?_⟩
      have h63 := (sgn_nonneg hn64).1 hneg
      rw [sgn_small h63]
      have := Shows.int (c := c) (h := h) (i := Int64.ofInt n)
      rwa [toInt_ofInt (by omega) (by omega)] at this
  | zigzag =>
    dsimp only at h
    obtain ⟨⟨val, sz⟩, s1, h1, h⟩ := D.bind_ok.1 h
    obtain ⟨rfl, n, hv, rfl, hn64⟩ := varintAt_ok_iff.1 h1
    dsimp only at h
    rw [D.bind_eq (writeLoc_apply _ _ _), D.pure_ok] at h
    obtain ⟨rfl, rfl⟩ := h
    refine ⟨_, T, .zigzag hv rfl, p.store rfl rfl rfl fun h => ?_⟩
    have := Shows.int (c := c) (h := h) (i := zigzagValue (sgn n))
    rwa [zigzag_toInt hn64] at this
  | float =>
    dsimp only at h
    obtain ⟨⟨u, i1⟩, s1, h1, h⟩ := D.bind_ok.1 h
    obtain ⟨rfl, b, hsp, hl, rfl⟩ := decodeFloat_ok h1
    dsimp only at h
    rw [D.bind_eq (writeLoc_apply _ _ _), D.pure_ok] at h
    obtain ⟨rfl, rfl⟩ := h
    exact ⟨_, T, .float hsp hl, p.store rfl rfl rfl fun h => .f32⟩
  | double =>
    dsimp only at h
    obtain ⟨⟨u, i1⟩, s1, h1, h⟩ := D.bind_ok.1 h
    obtain ⟨rfl, b, hsp, hl, rfl⟩ := decodeDouble_ok h1
    dsimp only at h
    rw [D.bind_eq (writeLoc_apply _ _ _), D.pure_ok] at h
    obtain ⟨rfl, rfl⟩ := h
    exact ⟨_, T, .double hsp hl, p.store rfl rfl rfl fun h => .f64⟩
  | true_ =>
    dsimp only at h
    rw [D.bind_eq (writeLoc_apply _ _ _), D.pure_ok] at h
    obtain ⟨rfl, rfl⟩ := h
    exact ⟨_, T, .true_, p.store rfl rfl rfl fun h => .bool⟩
  | false_ =>
    dsimp only at h
    rw [D.bind_eq (writeLoc_apply _ _ _), D.pure_ok] at h
    obtain ⟨rfl, rfl⟩ := h
    exact ⟨_, T, .false_, p.store rfl rfl rfl fun h => .bool⟩
  | undef =>
    dsimp only at h
    by_cases hpc : cfg.perlCompat = true
    · rw [if_pos hpc, D.bind_eq (allocVar_apply _ _), D.bind_eq (writeLoc_apply _ _ _), D.pure_ok] at h
      obtain ⟨rfl, rfl⟩ := h
      exact ⟨_, T, .undef, p.storeNew rfl rfl rfl fun h hm _ => .undefP (hpc' hpc) hm⟩
    · rw [if_neg hpc, D.bind_eq (writeLoc_apply _ _ _), D.pure_ok] at h
      obtain ⟨rfl, rfl⟩ := h
      exact ⟨_, T, .undef, p.store rfl rfl rfl fun h => .undef (hnc hpc)⟩
  | cundef =>
    dsimp only at h
    by_cases hpc : cfg.perlCompat = true
    · rw [if_pos hpc, D.bind_eq (writeLoc_apply _ _ _), D.pure_ok] at h
      obtain ⟨rfl, rfl⟩ := h
      refine ⟨_, T, .cundef, p.leaf (v := .ptr false canonicalUndefAddr) (Frame.write _ _ _) rfl rfl
        (p.ctx.write p.mem) fun h' ha => .cundefP (hpc' hpc) ?_⟩
      rw [ha _ (Or.inl p.inv.canon.1)]
      dsimp only
      rw [Heap.write_mem _ _ _ _ (by
        intro he; exact p.free (by rw [← he]; exact p.inv.canon.1))]
      exact p.inv.canon.2
    · rw [if_neg hpc, D.bind_eq (writeLoc_apply _ _ _), D.pure_ok] at h
      obtain ⟨rfl, rfl⟩ := h
      exact ⟨_, T, .cundef, p.store rfl rfl rfl fun h => .cundef (hnc hpc)⟩
  | binary =>
    dsimp only at h
    obtain ⟨⟨val, sz⟩, s1, h1, h⟩ := D.bind_ok.1 h
    obtain ⟨rfl, n, hv, rfl, hn64⟩ := varintAt_ok_iff.1 h1
    dsimp only at h
    obtain ⟨⟨b, i1⟩, s1, h1, h⟩ := D.bind_ok.1 h
    obtain ⟨hle, hsp, hl, rfl⟩ := (decodeBinary_ok hv.le_length hn64).1 h1
    dsimp only at h
    rw [D.bind_eq (writeLoc_apply _ _ _), D.pure_ok] at h
    obtain ⟨rfl, rfl⟩ := h
    exact ⟨_, T, .binary hv hle hsp hl, p.store rfl rfl rfl fun h => .bin⟩
  | strUtf8 =>
    dsimp only at h
    obtain ⟨⟨val, sz⟩, s1, h1, h⟩ := D.bind_ok.1 h
    obtain ⟨rfl, n, hv, rfl, hn64⟩ := varintAt_ok_iff.1 h1
    dsimp only at h
    obtain ⟨⟨b, i1⟩, s1, h1, h⟩ := D.bind_ok.1 h
    obtain ⟨hle, hsp, hl, rfl⟩ := (decodeBinary_ok hv.le_length hn64).1 h1
    dsimp only at h
    rw [D.bind_eq (writeLoc_apply _ _ _), D.pure_ok] at h
    obtain ⟨rfl, rfl⟩ := h
    exact ⟨_, T, .strUtf8 hv hle hsp hl, p.store rfl rfl rfl fun h => .str⟩
  | short n =>
    dsimp only at h
    have hn := hshort n (Or.inl rfl)
    obtain ⟨⟨b, i1⟩, s1, h1, h⟩ := D.bind_ok.1 h
    rw [← sgn_small (n := n) (by omega)] at h1
    obtain ⟨hle, hsp, hl, rfl⟩ := (decodeBinary_ok hi (by omega)).1 h1
    dsimp only at h
    rw [D.bind_eq (writeLoc_apply _ _ _), D.pure_ok] at h
    obtain ⟨rfl, rfl⟩ := h
    exact ⟨_, T, .short hsp hl, p.store rfl rfl rfl fun h => .bin⟩
  | hash =>
    dsimp only at h
    obtain ⟨⟨val, sz⟩, s1, h1, h⟩ := D.bind_ok.1 h
    obtain ⟨rfl, n, hv, rfl, hn64⟩ := varintAt_ok_iff.1 h1
    dsimp only at h
    obtain ⟨hle, kvs, T', g, F', v, A, h2, h3, h4, -⟩ :=
      decodeHash_sound hrec _ n loc false K s T F v0 j s' p hn64 h
    exact ⟨_, T', .hash hv hle g, F', v, A, h2, h3, h4 rfl⟩
  | array =>
    dsimp only at h
    obtain ⟨⟨val, sz⟩, s1, h1, h⟩ := D.bind_ok.1 h
    obtain ⟨rfl, n, hv, rfl, hn64⟩ := varintAt_ok_iff.1 h1
    dsimp only at h
    obtain ⟨hle, ts, T', g, F', v, A, h2, h3, h4, -⟩ :=
      decodeArray_sound hrec _ n loc false K s T F v0 j s' p hn64 h
    exact ⟨_, T', .array hv hle g, F', v, A, h2, h3, h4 rfl⟩
  | hashref n =>
    dsimp only at h
    have hn := hshort n (Or.inr (Or.inr rfl))
    rw [← sgn_small (n := n) (by omega)] at h
    obtain ⟨hle, kvs, T', g, F', v, A, h2, h3, h4, h5⟩ :=
      decodeHash_sound hrec _ n loc _ K s T F v0 j s' p (by omega) h
    refine ⟨_, T', .hashref g, F', v, A, h2, h3, ?_⟩
    by_cases hpc : cfg.perlCompat = true
    · obtain ⟨a, w, rfl, h6, h7, h8⟩ := h5 hpc
      intro h' ha
      exact .refP (hpc' hpc) (by rw [ha _ h6]; exact h7) (h8 h' ha)
    · intro h' ha
      exact .ref (hnc hpc) (h4 (by simpa using hpc) h' ha)
  | arrayref n =>
    dsimp only at h
    have hn := hshort n (Or.inr (Or.inl rfl))
    rw [← sgn_small (n := n) (by omega)] at h
    obtain ⟨hle, ts, T', g, F', v, A, h2, h3, h4, h5⟩ :=
      decodeArray_sound hrec _ n loc _ K s T F v0 j s' p (by omega) h
    refine ⟨_, T', .arrayref g, F', v, A, h2, h3, ?_⟩
    by_cases hpc : cfg.perlCompat = true
    · obtain ⟨a, w, rfl, h6, h7, h8⟩ := h5 hpc
      intro h' ha
      exact .refP (hpc' hpc) (by rw [ha _ h6]; exact h7) (h8 h' ha)
    · intro h' ha
      exact .ref (hnc hpc) (h4 (by simpa using hpc) h' ha)
  | copy =>
    dsimp only at h
    rw [D.bind_eq (D.get_apply _)] at h
    obtain ⟨_, s1, h1, h⟩ := D.bind_ok.1 h
    obtain ⟨hcd, rfl⟩ := D.failIf_ok.1 h1
    obtain ⟨⟨val, sz⟩, s1, h1, h⟩ := D.bind_ok.1 h
    obtain ⟨rfl, o, hv, rfl, hn64⟩ := varintAt_ok_iff.1 h1
    dsimp only at h
    obtain ⟨_, s1, h1, h⟩ := D.bind_ok.1 h
    obtain ⟨hsz, rfl⟩ := D.failIf_ok.1 h1
    obtain ⟨hlt, hs⟩ := lt_of_sgn hn64 hsz
    rw [hs, Int.toNat_natCast] at h
    obtain ⟨j', s2, h1, h⟩ := D.bind_ok.1 h
    rw [D.pure_ok] at h
    obtain ⟨rfl, rfl⟩ := h
    obtain ⟨s3, h2, rfl⟩ := withCopy_ok.1 h1
    have p1 : Pre c { s with copyDepth := s.copyDepth + 1 } T F loc K v0 :=
      ⟨⟨p.inv.lt, p.inv.canon, p.inv.none, p.inv.done⟩, p.free, p.lt, p.ctx, p.mem⟩
    obtain ⟨t, T', g, F', v, A, h3, h4, h5⟩ := hrec o loc K _ T F v0 j' s3 p1 h2
    have hcd0 : s.cd = false := by simpa [DState.cd] using hcd
    have hcd1 : DState.cd { s with copyDepth := s.copyDepth + 1 } = true := by simp [DState.cd]
    rw [hcd1] at g
    rw [hcd0]
    refine ⟨t, T', .copy rfl hv hlt g, F', v, ⟨⟨A.inv.lt, A.inv.canon, A.inv.none, A.inv.done⟩, A.sub,
      A.new, A.frame, ?_, A.moves⟩, h3, h4, h5⟩
    have := A.depth
    dsimp only at this ⊢
    omega
  | refn => exact decodeRefn_sound hrec hc trackme i loc K s T F v0 j s' p h
  | refp =>
    obtain ⟨t, g, d⟩ := decodeRefpAlias_sound hc i true loc K s T F v0 j s' p h
    exact ⟨t, T, g, d⟩
  | alias =>
    obtain ⟨t, g, d⟩ := decodeRefpAlias_sound hc i false loc K s T F v0 j s' p h
    exact ⟨t, T, g, d⟩
  | weaken =>
    dsimp only at h
    by_cases hpc : cfg.perlCompat = true
    · rw [if_pos hpc, D.bind_eq (allocVar_apply _ _), D.bind_eq (writeLoc_apply _ _ _)] at h
      have f : Frame (· = loc.addr) s.heap ((s.heap.alloc (.cell (.weak .nil))).2.write loc
          (.ptr false s.heap.next)) := (Frame.alloc _ _ _).trans (Frame.write _ _ _) (fun _ _ h => h)
      have hm1 : ((s.heap.alloc (.cell (.weak .nil))).2.write loc
          (.ptr false s.heap.next)).mem loc.addr = K (.ptr false s.heap.next) :=
        p.ctx.write (by rw [Heap.alloc_old _ _ p.lt]; exact p.mem)
      have hr := fun q => hrec i (.field s.heap.next) (fun v => .cell (.weak v)) _ T F .nil j s' q h
      obtain ⟨t, T', g, d⟩ := hr
        (p.inner (l := .field s.heap.next) (w := .nil) f rfl (Nat.le_refl _)
          (by dsimp only [Loc.addr]; rw [Heap.write_next]; exact Nat.lt_succ_self _) (.weak _)
          (by
            dsimp only [Loc.addr]
            rw [Heap.write_mem _ _ _ _ (Nat.ne_of_gt p.lt), Heap.alloc_mem]))
      obtain ⟨F1, v, A, h2, h3, h4, h5, h6⟩ := d.inner p f rfl rfl (Nat.le_refl _) hm1
      simp only [Loc.addr] at h2 h3
      refine ⟨.weak t, T', .weaken g, ?_⟩
      refine finish p A (fun _ h => h.elim) (Frame.refl _ _) h5 rfl rfl h6 ?_
      intro h' ha
      refine .weakP (hpc' hpc) ?_ (h4 h' (ha.mono (fun a h => Or.inl h)))
      rw [ha _ (Or.inl h2)]; exact h3
    · rw [if_neg hpc] at h
      obtain ⟨t, T', g, d⟩ := hrec i loc K s T F v0 j s' p h
      exact ⟨.weak t, T', .weaken g, Done.map d (fun _ _ h => .weak (hnc hpc) h)⟩
  | regexp =>
    dsimp only at h
    unfold decodeRegexp at h
    obtain ⟨⟨pat, mods, i2⟩, s2, h1, h⟩ := D.bind_ok.1 h
    obtain ⟨⟨pat', i1⟩, s1, h2, h1⟩ := D.bind_ok.1 h1
    dsimp only at h1
    obtain ⟨⟨mods', i2'⟩, s1', h3, h1⟩ := D.bind_ok.1 h1
    rw [D.pure_ok] at h1
    obtain ⟨he, rfl⟩ := h1
    simp only [Prod.mk.injEq] at he
    obtain ⟨rfl, rfl, rfl⟩ := he
    obtain ⟨g1, e1, -⟩ := decodeStringish_ok h2
    obtain ⟨g2, e2, -⟩ := decodeStringish_ok h3
    dsimp only at h
    rw [D.bind_eq (allocVar_apply _ _), D.bind_eq (writeLoc_apply _ _ _), D.pure_ok] at h
    obtain ⟨rfl, rfl⟩ := h
    rw [e1.cd] at g2
    have e := e1.trans e2
    have d : Done c s1' T F loc K (.regexp pat' mods')
        { s1' with heap := ((s1'.heap.alloc (.cell (.regexp pat' mods'))).2.write loc
                            (.ptr false s1'.heap.next)) } T :=
      (p.eqv e).storeNew (v := .ptr false s1'.heap.next)
        (o := .cell (.regexp pat' mods')) rfl rfl rfl fun h hm _ => .regexp hm
    exact ⟨_, T, .regexp g1 g2, Done.eqv d e (DState.Eqv.refl _)⟩
  | object => exact decodeObject_sound hrec hc i loc false K s T F v0 j s' p h
  | objectv => exact decodeObject_sound hrec hc i loc true K s T F v0 j s' p h
  | freeze => exact decodeFreeze_sound hrec hc i loc false K s T F v0 j s' p h
  | freezev => exact decodeFreeze_sound hrec hc i loc true K s T F v0 j s' p h
  | pad => exact (D.err_ok.1 h).elim
  | other => exact (D.err_ok.1 h).elim

end

/-- The numbers carried by tags. -/
def TagC.num? : TagC → Option Nat
  | .short n => some n
  | .arrayref n => some n
  | .hashref n => some n
  | _ => none

theorem classify_num {b n : Nat} (hb : b < 128)
    (h : classify b = .short n ∨ classify b = .arrayref n ∨ classify b = .hashref n) : n < 32 := by
  have key : ∀ n : Fin 128, ((classify n).num?.getD 0) < 32 := by decide
  have h1 := key ⟨b, hb⟩
  have h2 : (classify b).num? = some n := by
    rcases h with h | h | h <;> rw [h] <;> rfl
  dsimp only at h1
  rw [h2] at h1
  exact h1

theorem decode_sound (cfg : DCfg) (buf : Bytes) (f : Nat) : Sound cfg.view buf (decode cfg buf f) := by
  induction f with
  | zero =>
    intro i loc K s T F v0 j s' p h
    unfold decode at h
    exact (D.fail_ok.1 h).elim
  | succ f ih =>
    intro i loc K s T F v0 j s' p h
    rw [decode_succ, D.bind_eq (tick_apply s)] at h
    obtain ⟨⟨k, b⟩, s1, h1, h⟩ := D.bind_ok.1 h
    obtain ⟨hsk, rfl⟩ := D.lift_ok.1 h1
    have htag := skipPad_ok.1 hsk
    have hk := htag.lt
    dsimp only at h
    have hlt : b.toNat % 128 < 128 := by omega
    have e : s.Eqv { s with steps := s.steps + 1 } := ⟨rfl, rfl, rfl⟩
    by_cases htr : 128 ≤ b.toNat
    · rw [if_pos htr, D.bind_eq (track_apply _ _ _)] at h
      have p1 := p.eqv e
      let s2 : DState := { s with
        steps := s.steps + 1, tracked := fun o => if o = k then some loc else s.tracked o }
      have p2 : Pre cfg.view s2 (T.put k none) F loc K v0 := by
        refine ⟨⟨p.inv.lt, p.inv.canon, ?_, ?_⟩, p.free, p.lt, p.ctx, p.mem⟩
        · intro o
          dsimp only [s2, Seen.put]
          by_cases ho : o = k
          · rw [if_pos ho, if_pos ho]; simp
          · rw [if_neg ho, if_neg ho]; exact p.inv.none o
        · intro o t ht
          dsimp only [Seen.put] at ht
          by_cases ho : o = k
          · rw [if_pos ho] at ht; cases ht
          · rw [if_neg ho] at ht
            dsimp only [s2]
            rw [if_neg ho]
            exact p.inv.done o t ht
      obtain ⟨t, T', g, F', v, A, h3, h4, h5⟩ := decodeC_sound ih rfl _ _ _ loc _ K s2 _ F v0 j s'
        (fun n hn => classify_int hlt hn) (fun n hn => classify_num hlt hn) hk p2 h
      rw [show b.toNat % 128 = b.toNat - 128 by have := b.toNat_lt; omega] at g
      refine ⟨t, T'.close k t, .tracked htag htr g, F', v, ⟨⟨A.inv.lt, A.inv.canon, ?_, ?_⟩, A.sub,
        A.new, A.frame, A.depth, ?_⟩, h3, h4, h5⟩
      · intro o
        rw [A.inv.none o]
        unfold Seen.close
        cases hT : T' o with
        | none => simp
        | some ot =>
          cases ot with
          | none => dsimp only; by_cases ho : o = k <;> simp [ho]
          | some t => simp
      · intro o t' ht
        unfold Seen.close at ht
        cases hT : T' o with
        | none => rw [hT] at ht; cases ht
        | some ot =>
          rw [hT] at ht
          cases ot with
          | some t2 =>
            dsimp only at ht
            cases ht
            exact A.inv.done o _ hT
          | none =>
            dsimp only at ht
            by_cases ho : o = k
            · rw [if_pos ho] at ht
              cases ht
              rcases A.moves o with ⟨h6, h7⟩ | ⟨t2, h6⟩
              · refine ⟨loc, K, v, ?_, p.ctx, h3, h4, h5⟩
                rw [h7]; dsimp only [s2]; rw [if_pos ho]
              · rw [hT] at h6; cases h6
            · rw [if_neg ho] at ht; cases ht
      · intro o
        unfold Seen.close
        cases hT : T' o with
        | none =>
          rcases A.moves o with ⟨h6, h7⟩ | ⟨t2, h6⟩
          · by_cases ho : o = k
            · rw [hT] at h6; dsimp only [Seen.put] at h6; rw [if_pos ho] at h6; cases h6
            · rw [hT] at h6; dsimp only [Seen.put] at h6; rw [if_neg ho] at h6
              dsimp only [s2] at h7; rw [if_neg ho] at h7
              exact Or.inl ⟨h6, h7⟩
          · rw [hT] at h6; cases h6
        | some ot =>
          cases ot with
          | some t2 => exact Or.inr ⟨t2, rfl⟩
          | none =>
            by_cases ho : o = k
            · exact Or.inr ⟨t, by dsimp only; rw [if_pos ho]⟩
            · rcases A.moves o with ⟨h6, h7⟩ | ⟨t2, h6⟩
              · rw [hT] at h6; dsimp only [Seen.put] at h6; rw [if_neg ho] at h6
                dsimp only [s2] at h7; rw [if_neg ho] at h7
                exact Or.inl ⟨by dsimp only; rw [if_neg ho]; exact h6, h7⟩
              · rw [hT] at h6; cases h6
    · rw [if_neg htr] at h
      obtain ⟨t, T', g, d⟩ := decodeC_sound ih rfl _ _ _ loc _ K _ T F v0 j s'
        (fun n hn => classify_int hlt hn) (fun n hn => classify_num hlt hn) hk (p.eqv e) h
      rw [show b.toNat % 128 = b.toNat by omega] at g
      exact ⟨t, T', .plain htag (by omega) g, Done.eqv d e (DState.Eqv.refl _)⟩

end Sereal

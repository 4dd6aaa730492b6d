import Verif.Proof.SoundDecode
import Verif.Proof.ApiDoc
/-
References to data decoded before: what a REFP among the elements of an array finds.
-/
namespace Sereal

section
variable {d : Dialect} (hle : d.Le goDialect) {buf : Bytes}
include hle

theorem Vint.up {i n j : Nat} (h : Vint d buf i n j) : Vint goDialect buf i n j := by
  have := h.ext hle []
  rwa [List.append_nil] at this

theorem Strish.up {cd : Bool} {i j : Nat} {s : Bytes} (h : Strish d buf cd i s j) : Strish goDialect buf cd i s j := by
  have := h.ext hle []
  rwa [List.append_nil] at this

/-- Where an item ends does not depend on what was seen before; and items without COPY items inside leave alone
what is tracked before them. -/
theorem G.follow {cd : Bool} {job : Job} {i : Nat} {T U : Seen} {out out' : Out} {j j' : Nat} {T' U' : Seen}
    (h : G d buf cd job i T out j T') (h' : G goDialect buf cd job i U out' j' U') :
    j = j' ∧ (d.strictCopy = true → ∀ o, o < i → U' o = U o) := by
  have triv : ∀ {V : Seen} {i : Nat}, d.strictCopy = true → ∀ o, o < i → V o = V o := fun _ _ _ => rfl
  induction h generalizing out' j' U U' with
  | @plain cd i k b T t j T' ht hb _ ih =>
    have hk := ht.le
    cases h' with
    | plain ht' hb' g' =>
      obtain ⟨rfl, rfl⟩ := ht.unique ht'
      obtain ⟨h1, h2⟩ := ih g'
      exact ⟨h1, fun hs o ho => h2 hs o (by omega)⟩
    | tracked ht' hb' g' =>
      obtain ⟨rfl, rfl⟩ := ht.unique ht'
      omega
  | @tracked cd i k b T t j T' ht hb _ ih =>
    have hk := ht.le
    cases h' with
    | plain ht' hb' g' =>
      obtain ⟨rfl, rfl⟩ := ht.unique ht'
      omega
    | tracked ht' hb' g' =>
      obtain ⟨rfl, rfl⟩ := ht.unique ht'
      obtain ⟨h1, h2⟩ := ih g'
      refine ⟨h1, fun hs o ho => ?_⟩
      have := h2 hs o (by omega)
      unfold Seen.close
      rw [this]
      unfold Seen.put
      rw [if_neg (by omega)]
      cases hU : U o with
      | none => rfl
      | some x =>
        cases x with
        | none => dsimp only; rw [if_neg (by omega)]
        | some t => rfl
  | int => cases h'; exact ⟨rfl, triv⟩
  | varint hv =>
    cases h' with | varint hv' => exact ⟨((hv.up hle).unique hv').2, triv⟩
  | zigzag hv hz =>
    cases h' with | zigzag hv' hz' => exact ⟨((hv.up hle).unique hv').2, triv⟩
  | float hs hl =>
    cases h' with
    | float hs' hl' => exact ⟨(hs.unique hs' (hl.trans hl'.symm)).2, triv⟩
  | double hs hl =>
    cases h' with
    | double hs' hl' => exact ⟨(hs.unique hs' (hl.trans hl'.symm)).2, triv⟩
  | true_ => cases h'; exact ⟨rfl, triv⟩
  | false_ => cases h'; exact ⟨rfl, triv⟩
  | undef => cases h'; exact ⟨rfl, triv⟩
  | cundef => cases h'; exact ⟨rfl, triv⟩
  | binary hv hn hs hl =>
    cases h' with
    | binary hv' hn' hs' hl' =>
      obtain ⟨rfl, rfl⟩ := (hv.up hle).unique hv'
      exact ⟨(hs.unique hs' (hl.trans hl'.symm)).2, triv⟩
  | strUtf8 hv hn hs hl =>
    cases h' with
    | strUtf8 hv' hn' hs' hl' =>
      obtain ⟨rfl, rfl⟩ := (hv.up hle).unique hv'
      exact ⟨(hs.unique hs' (hl.trans hl'.symm)).2, triv⟩
  | short hs hl =>
    cases h' with
    | short hs' hl' => exact ⟨(hs.unique hs' (hl.trans hl'.symm)).2, triv⟩
  | hash hv hn _ ih =>
    cases h' with
    | hash hv' hn' g' =>
      have := hv.lt
      obtain ⟨rfl, rfl⟩ := (hv.up hle).unique hv'
      obtain ⟨h1, h2⟩ := ih g'
      exact ⟨h1, fun hs o ho => h2 hs o (by omega)⟩
  | hashref _ ih => cases h' with | hashref g' => exact ih g'
  | array hv hn _ ih =>
    cases h' with
    | array hv' hn' g' =>
      have := hv.lt
      obtain ⟨rfl, rfl⟩ := (hv.up hle).unique hv'
      obtain ⟨h1, h2⟩ := ih g'
      exact ⟨h1, fun hs o ho => h2 hs o (by omega)⟩
  | arrayref _ ih => cases h' with | arrayref g' => exact ih g'
  | refn _ ih => cases h' with | refn g' => exact ih g'
  | refp hv ho hT =>
    cases h' with
    | refp hv' ho' hT' => exact ⟨((hv.up hle).unique hv').2, triv⟩
    | refpOpen hv' ho' hT' => exact ⟨((hv.up hle).unique hv').2, triv⟩
  | refpOpen hv ho hT =>
    cases h' with
    | refp hv' ho' hT' => exact ⟨((hv.up hle).unique hv').2, triv⟩
    | refpOpen hv' ho' hT' => exact ⟨((hv.up hle).unique hv').2, triv⟩
  | alias hv ho hT =>
    cases h' with
    | alias hv' ho' hT' => exact ⟨((hv.up hle).unique hv').2, triv⟩
    | aliasOpen hv' ho' hT' => exact ⟨((hv.up hle).unique hv').2, triv⟩
  | aliasOpen hv ho hT =>
    cases h' with
    | alias hv' ho' hT' => exact ⟨((hv.up hle).unique hv').2, triv⟩
    | aliasOpen hv' ho' hT' => exact ⟨((hv.up hle).unique hv').2, triv⟩
  | copy hc hv ho _ ih =>
    cases h' with
    | copy _ hv' ho' g' => exact ⟨((hv.up hle).unique hv').2, fun hs => by rw [hs] at hc; cases hc⟩
  | weaken _ ih => cases h' with | weaken g' => exact ih g'
  | regexp hp hm =>
    cases h' with
    | regexp hp' hm' =>
      obtain ⟨rfl, rfl⟩ := (hp.up hle).unique hp'
      exact ⟨((hm.up hle).unique hm').2, triv⟩
  | object hc _ ih =>
    cases h' with
    | object hc' g' =>
      have := hc.lt
      obtain ⟨rfl, rfl⟩ := (hc.up hle).unique hc'
      obtain ⟨h1, h2⟩ := ih g'
      exact ⟨h1, fun hs o ho => h2 hs o (by omega)⟩
  | objectv hv ho hc _ ih =>
    cases h' with
    | objectv hv' ho' hc' g' =>
      have := hv.lt
      obtain ⟨rfl, rfl⟩ := (hv.up hle).unique hv'
      obtain ⟨h1, h2⟩ := ih g'
      exact ⟨h1, fun hs o ho => h2 hs o (by omega)⟩
  | freeze hc _ _ ih =>
    cases h' with
    | freeze hc' _ g' =>
      have := hc.lt
      obtain ⟨rfl, rfl⟩ := (hc.up hle).unique hc'
      obtain ⟨h1, h2⟩ := ih g'
      exact ⟨h1, fun hs o ho => h2 hs o (by omega)⟩
  | freezev hv ho hc _ _ ih =>
    cases h' with
    | freezev hv' ho' hc' _ g' =>
      have := hv.lt
      obtain ⟨rfl, rfl⟩ := (hv.up hle).unique hv'
      obtain ⟨h1, h2⟩ := ih g'
      exact ⟨h1, fun hs o ho => h2 hs o (by omega)⟩
  | itemsNil => cases h'; exact ⟨rfl, triv⟩
  | itemsCons g0 _ ih1 ih2 =>
    have := g0.lt
    simp only [Job.need] at this
    cases h' with
    | itemsCons g1 g2 =>
      obtain ⟨rfl, h2⟩ := ih1 g1
      obtain ⟨h3, h4⟩ := ih2 g2
      exact ⟨h3, fun hs o ho => (h4 hs o (by omega)).trans (h2 hs o ho)⟩
  | pairsNil => cases h'; exact ⟨rfl, triv⟩
  | pairsCons hk g0 _ ih1 ih2 =>
    have := g0.lt
    have := hk.lt
    simp only [Job.need] at *
    cases h' with
    | pairsCons hk' g1 g2 =>
      obtain ⟨rfl, rfl⟩ := (hk.up hle).unique hk'
      obtain ⟨rfl, h2⟩ := ih1 g1
      obtain ⟨h3, h4⟩ := ih2 g2
      exact ⟨h3, fun hs o ho => (h4 hs o (by omega)).trans (h2 hs o (by omega))⟩

end

/-- The step from `s` to `s'`, which wrote only to `W` and fresh memory; `F` and `F'` are the addresses given up
before and after. -/
structure DStep (c : ViewCfg) (s : DState) (F W : Addr → Prop) (s' : DState) (T' : Seen) (F' : Addr → Prop) : Prop where
  inv : Inv c s' T' F'
  sub : ∀ a, F a → F' a
  new : ∀ a, F' a → F a ∨ W a ∨ s.heap.next ≤ a
  frame : Frame W s.heap s'.heap
  depth : s'.copyDepth = s.copyDepth

theorem After.step {c : ViewCfg} {s s' : DState} {T T' : Seen} {F F' W : Addr → Prop}
    (a : After c s T F W W s' T' F') : DStep c s F W s' T' F' := ⟨a.inv, a.sub, a.new, a.frame, a.depth⟩

/-- The beginning of decode: the tag is found and tracked if it says so. -/
theorem decode_head {cfg : DCfg} {buf : Bytes} {f i j k : Nat} {b : UInt8} {loc : Loc} {K : Val → HObj} {s s' : DState}
    {T : Seen} {F : Addr → Prop} {v0 : Val} {c : ViewCfg} (p : Pre c s T F loc K v0)
    (h : decode cfg buf f i loc s = (.ok j, s')) (ht : TagAt buf i k b) :
    ∃ g s2 T0, decodeC cfg buf (decode cfg buf g) (classify (b.toNat % 128)) (128 ≤ b.toNat) (k + 1) loc
        (b.toNat % 128) s2 = (.ok j, s') ∧ s2.heap = s.heap ∧ s2.copyDepth = s.copyDepth ∧ Pre c s2 T0 F loc K v0 ∧
      (∀ o, o ≠ k → s2.tracked o = s.tracked o ∧ T0 o = T o) ∧
      (128 ≤ b.toNat → s2.tracked k = some loc ∧ T0 k = some none) := by
  cases f with
  | zero => unfold decode at h; exact (D.fail_ok.1 h).elim
  | succ f =>
    rw [decode_succ, D.bind_eq (tick_apply s)] at h
    obtain ⟨⟨k', b'⟩, s1, h1, h⟩ := D.bind_ok.1 h
    obtain ⟨hsk, rfl⟩ := D.lift_ok.1 h1
    obtain ⟨rfl, rfl⟩ := ht.unique (skipPad_ok.1 hsk)
    dsimp only at h
    by_cases htr : 128 ≤ b.toNat
    · rw [if_pos htr, D.bind_eq (track_apply _ _ _)] at h
      refine ⟨f, _, T.put k none, h, rfl, rfl, ⟨⟨p.inv.lt, p.inv.canon, ?_, ?_⟩, p.free, p.lt, p.ctx, p.mem⟩, ?_, ?_⟩
      · intro o
        dsimp only [Seen.put]
        by_cases ho : o = k
        · rw [if_pos ho, if_pos ho]; simp
        · rw [if_neg ho, if_neg ho]; exact p.inv.none o
      · intro o t ht
        dsimp only [Seen.put] at ht
        by_cases ho : o = k
        · rw [if_pos ho] at ht; cases ht
        · rw [if_neg ho] at ht
          dsimp only
          rw [if_neg ho]
          exact p.inv.done o t ht
      · intro o ho
        dsimp only [Seen.put]
        rw [if_neg ho, if_neg ho]
        exact ⟨rfl, rfl⟩
      · intro _
        dsimp only [Seen.put]
        rw [if_pos rfl, if_pos rfl]
        exact ⟨rfl, rfl⟩
    · rw [if_neg htr] at h
      exact ⟨f, _, T, h, rfl, rfl, p.eqv ⟨rfl, rfl, rfl⟩, fun o _ => ⟨rfl, rfl⟩, fun h => absurd h htr⟩

theorem wrtDialect_le_go : wrtDialect.Le goDialect :=
  ⟨fun v n h => coreDialect_le_go.vint v n (wrtDialect_le_core.vint v n h),
    fun n z hn h => coreDialect_le_go.zig n z hn (wrtDialect_le_core.zig n z hn h), wrtDialect_le_core.range,
    fun h => coreDialect_le_go.key (wrtDialect_le_core.key h), fun h => by cases h⟩

/-- Decoding of an item with the track bit set and no COPY items in it. -/
theorem decode_tracked {cfg : DCfg} {buf : Bytes} {f i j j' k : Nat} {b : UInt8} {loc : Loc} {K : Val → HObj}
    {s s' : DState} {T U U' : Seen} {F : Addr → Prop} {v0 : Val} {t : Tree} (p : Pre cfg.view s T F loc K v0)
    (h : decode cfg buf f i loc s = (.ok j, s')) (ht : TagAt buf i k b) (hb : 128 ≤ b.toNat)
    (hg : G wrtDialect buf s.cd .item i U (.tree t) j' U') :
    j = j' ∧ ∃ T' F' v, DStep cfg.view s F (· = loc.addr) s' T' F' ∧ T' k = some none ∧ s'.tracked k = some loc ∧
      F' loc.addr ∧ s'.heap.mem loc.addr = K v := by
  obtain ⟨g, s2, T0, h2, hh, hd, p2, -, htr⟩ := decode_head p h ht
  have hk := ht.lt
  have hlt : b.toNat % 128 < 128 := by omega
  obtain ⟨t', T', g', F', v, A, h3, h4, -⟩ := decodeC_sound (decode_sound cfg buf g) rfl _ _ _ loc _ K s2 _ F v0 j s'
    (fun n hn => classify_int hlt hn) (fun n hn => classify_num hlt hn) hk p2 h2
  have hcd : s2.cd = s.cd := by unfold DState.cd; rw [hd]
  have hle := wrtDialect_le_go
  rw [hcd] at g'
  generalize s.cd = cd at hg g'
  cases hg with
  | plain ht' hb' _ =>
    obtain ⟨rfl, rfl⟩ := ht.unique ht'
    omega
  | tracked ht' hb' hg =>
    obtain ⟨rfl, rfl⟩ := ht.unique ht'
    rw [show b.toNat - 128 = b.toNat % 128 by have := b.toNat_lt; omega] at hg
    obtain ⟨rfl, hT⟩ := hg.follow hle g'
    have hT := (hT rfl k (by omega)).trans (htr hb).2
    refine ⟨rfl, T', F', v, ⟨A.inv, A.sub, ?_, ?_, ?_⟩, hT, ?_, h3, h4⟩
    · rw [← hh]; exact A.new
    · rw [← hh]; exact A.frame
    · rw [← hd]; exact A.depth
    · rcases A.moves k with ⟨_, h6⟩ | ⟨t2, h6⟩
      · rw [h6]; exact (htr hb).1
      · rw [hT] at h6; cases h6

/-- The track bit is on the tag at `k`, which is that of the item at `i`, or of the item that a REFN there
refers to. -/
def TrackedAt (buf : Bytes) (refn : Bool) (i k : Nat) : Prop :=
  ∃ b : UInt8, 128 ≤ b.toNat ∧
    if refn then ∃ (k0 : Nat) (b0 : UInt8), TagAt buf i k0 b0 ∧ b0.toNat % 128 = 0x28 ∧ TagAt buf (k0 + 1) k b
    else TagAt buf i k b

/-- The variable `a` for the item holds `v`, the decoded data, or (for a REFN with PerlCompat) a pointer to `v`. -/
def Found (h : Heap) (ptr : Bool) (a : Addr) (v : Val) (G : Addr → Prop) : Prop :=
  if ptr then ∃ b x, h.mem a = .cell (.ptr b x) ∧ h.mem x = .cell v ∧ G a ∧ G x
  else h.mem a = .cell v ∧ G a

/-- Decoding of an element that is tracked, or refers to something tracked. -/
theorem decode_elem {cfg : DCfg} {buf : Bytes} {f i j j' k : Nat} {refn : Bool} {a : Addr}
    {s s' : DState} {T U U' : Seen} {F : Addr → Prop} {v0 : Val} {t : Tree} (p : Pre cfg.view s T F (.cell a) .cell v0)
    (h : decode cfg buf f i (.cell a) s = (.ok j, s')) (ht : TrackedAt buf refn i k)
    (hg : G wrtDialect buf s.cd .item i U (.tree t) j' U') :
    j = j' ∧ ∃ T' F' la v, DStep cfg.view s F (· = a) s' T' F' ∧ T' k = some none ∧ s'.tracked k = some (.cell la) ∧
      F' la ∧ s'.heap.mem la = .cell v ∧ Found s'.heap (refn && cfg.perlCompat) a v F' := by
  obtain ⟨b, hb, ht⟩ := ht
  cases refn with
  | false =>
    simp only [Bool.false_eq_true, if_false] at ht
    obtain ⟨rfl, T', F', v, h1, h2, h3, h4, h5⟩ := decode_tracked p h ht hb hg
    exact ⟨rfl, T', F', a, v, h1, h2, h3, h4, h5, by simp only [Found, Bool.false_and, Bool.false_eq_true, if_false]; exact ⟨h5, h4⟩⟩
  | true =>
    simp only [if_true] at ht
    obtain ⟨k0, b0, ht0, hb0, ht⟩ := ht
    obtain ⟨g, s2, T0, h2, hh, hd, p2, -, -⟩ := decode_head p h ht0
    have hcl : classify (b0.toNat % 128) = .refn := by rw [hb0]; rfl
    have hcd : s2.cd = s.cd := by unfold DState.cd; rw [hd]
    rw [hcl] at h2
    unfold decodeC at h2
    dsimp only at h2
    -- the derivation for the inner item
    have hg' : ∃ U t U', G wrtDialect buf s2.cd .item (k0 + 1) U (.tree t) j' U' := by
      rw [hcd]
      generalize s.cd = cd at hg
      have inner : ∀ {c' : Nat} {V t V'}, c' = 0x28 → G wrtDialect buf cd (.body (classify c')) (k0 + 1) V (.tree t) j' V' →
          ∃ U t U', G wrtDialect buf cd .item (k0 + 1) U (.tree t) j' U' := by
        rintro c' V t V' rfl hg
        rw [show classify 0x28 = .refn from rfl] at hg
        cases hg with
        | refn hg => exact ⟨_, _, _, hg⟩
      cases hg with
      | plain ht' hb' hg =>
        obtain ⟨rfl, rfl⟩ := ht0.unique ht'
        exact inner (by omega) hg
      | tracked ht' hb' hg =>
        obtain ⟨rfl, rfl⟩ := ht0.unique ht'
        exact inner (by have := b0.toNat_lt; omega) hg
    obtain ⟨U1, t1, U1', hg'⟩ := hg'
    unfold decodeRefn at h2
    by_cases hpc : cfg.perlCompat = true
    · rw [if_pos hpc, D.bind_eq (allocVar_apply _ _), D.bind_eq (writeLoc_apply _ _ _)] at h2
      obtain ⟨i1, s3, h3, h2⟩ := D.bind_ok.1 h2
      have hlt := p2.lt
      simp only [Loc.addr] at hlt
      have fr : Frame (· = a) s2.heap ((s2.heap.alloc (.cell .nil)).2.write (.cell a)
          (.ptr true s2.heap.next)) := (Frame.alloc _ _ _).trans (Frame.write _ (.cell a) _) (fun _ _ h => h)
      have hm1 : ((s2.heap.alloc (.cell .nil)).2.write (.cell a)
          (.ptr true s2.heap.next)).mem a = .cell (.ptr true s2.heap.next) :=
        p2.ctx.write (by rw [Heap.alloc_old _ _ p2.lt]; exact p2.mem)
      have pin : Pre cfg.view { s2 with heap := (s2.heap.alloc (.cell .nil)).2.write (.cell a) (.ptr true s2.heap.next) }
          T0 F (.cell s2.heap.next) .cell .nil :=
        p2.inner (l := .cell s2.heap.next) (w := .nil) fr rfl (Nat.le_refl _)
        (by dsimp only [Loc.addr]; rw [Heap.write_next]; exact Nat.lt_succ_self _) (.cell _)
        (by
          dsimp only [Loc.addr]
          rw [Heap.write_mem _ _ _ _ (Nat.ne_of_gt p2.lt), Heap.alloc_mem])
      obtain ⟨rfl, T', F', v, h4, h5, h6, h7, h8⟩ := decode_tracked pin h3 ht hb hg'
      simp only [Loc.addr] at h4 h7 h8
      have hfr := h4.frame
      dsimp only at hfr
      have hnext : s2.heap.next < s3.heap.next := by
        have := hfr.next
        rw [Heap.write_next, Heap.alloc_next] at this
        omega
      have hnF : ¬ F' a := by
        intro hF
        rcases h4.new a hF with h | h | h
        · exact p2.free h
        · omega
        · dsimp only at h; rw [Heap.write_next, Heap.alloc_next] at h; omega
      have hma : s3.heap.mem a = .cell (.ptr true s2.heap.next) := by
        rw [hfr.same a (by rw [Heap.write_next, Heap.alloc_next]; omega) (by omega)]; exact hm1
      have ffr : Frame (· = a) s.heap s3.heap := by
        rw [← hh]
        exact fr.trans hfr (fun x hx h => by omega)
      have hnew : ∀ x, F' x → F x ∨ x = a ∨ s.heap.next ≤ x := by
        intro x hx
        rcases h4.new x hx with h | h | h
        · exact Or.inl h
        · exact Or.inr (Or.inr (by rw [← hh]; omega))
        · refine Or.inr (Or.inr ?_)
          dsimp only at h
          rw [Heap.write_next, Heap.alloc_next] at h
          rw [← hh]; omega
      by_cases htr : 128 ≤ b0.toNat
      · rw [if_pos (by simpa using htr), D.pure_ok] at h2
        obtain ⟨rfl, rfl⟩ := h2
        refine ⟨rfl, T', fun x => F' x ∨ x = a, s2.heap.next, v,
          ⟨h4.inv.grow (fun _ h => Or.inl h) ?_, fun x hx => Or.inl (h4.sub x hx), ?_, ffr, ?_⟩,
          h5, h6, Or.inl h7, h8, ?_⟩
        · rintro x (hx | rfl)
          · exact h4.inv.lt x hx
          · omega
        · rintro x (hx | rfl)
          · exact hnew x hx
          · exact Or.inr (Or.inl rfl)
        · rw [← hd]; exact h4.depth
        · rw [Found, if_pos (by simp [hpc])]
          exact ⟨_, _, hma, h8, Or.inr rfl, Or.inl h7⟩
      · rw [if_neg (by simpa using htr), D.bind_eq (readLoc_apply _ _), (Ctx.cell s2.heap.next).read (hp := s3.heap) h8] at h2
        by_cases hv : v = .nil
        · rw [if_pos hv] at h2; exact (D.fail_ok.1 h2).elim
        · rw [if_neg hv, D.bind_eq (allocVar_apply _ _), D.bind_eq (writeLoc_apply _ _ _), D.pure_ok] at h2
          obtain ⟨rfl, rfl⟩ := h2
          have f2 : Frame (· = a) s3.heap ((s3.heap.alloc (.cell v)).2.write (.cell a)
              (.ptr false s3.heap.next)) :=
            (Frame.alloc _ _ _).trans (Frame.write _ (.cell a) _) (fun _ _ h => h)
          have hmx : ((s3.heap.alloc (.cell v)).2.write (.cell a) (.ptr false s3.heap.next)).mem s3.heap.next = .cell v := by
            rw [Heap.write_mem _ _ _ _ (by simp only [Loc.addr]; omega), Heap.alloc_mem]
          have hma2 : ((s3.heap.alloc (.cell v)).2.write (.cell a) (.ptr false s3.heap.next)).mem a =
              .cell (.ptr false s3.heap.next) :=
            (Ctx.cell a).write (by simp only [Loc.addr]; rw [Heap.alloc_old _ _ (by omega)]; exact hma)
          have hI := h4.inv.frame (s' := { s3 with heap := (s3.heap.alloc (.cell v)).2.write (.cell a) (.ptr false s3.heap.next) })
            f2 (by rintro x hx rfl; exact hnF hx) rfl
          refine ⟨rfl, T', fun x => F' x ∨ x = a ∨ x = s3.heap.next, s2.heap.next, v,
            ⟨hI.grow (fun _ h => Or.inl h) ?_, fun x hx => Or.inl (h4.sub x hx), ?_, ffr.trans f2 (fun _ _ h => h), ?_⟩,
            h5, h6, Or.inl h7, ?_, ?_⟩
          · dsimp only
            rw [Heap.write_next, Heap.alloc_next]
            rintro x (hx | rfl | rfl)
            · have := h4.inv.lt x hx; omega
            · omega
            · omega
          · rintro x (hx | rfl | rfl)
            · exact hnew x hx
            · exact Or.inr (Or.inl rfl)
            · exact Or.inr (Or.inr ffr.next)
          · rw [← hd]; exact h4.depth
          · dsimp only
            rw [f2.same _ (by omega) (by omega)]; exact h8
          · rw [Found, if_pos (by simp [hpc])]
            exact ⟨_, _, hma2, hmx, Or.inr (Or.inl rfl), Or.inr (Or.inr rfl)⟩
    · rw [if_neg hpc] at h2
      obtain ⟨rfl, T', F', v, h4, h5, h6, h7, h8⟩ := decode_tracked p2 h2 ht hb hg'
      simp only [Loc.addr] at h4 h7 h8
      refine ⟨rfl, T', F', a, v, ⟨h4.inv, h4.sub, by rw [← hh]; exact h4.new, by rw [← hh]; exact h4.frame,
        by rw [← hd]; exact h4.depth⟩, h5, h6, h7, h8, ?_⟩
      rw [Found, if_neg (by simp [hpc])]
      exact ⟨h8, h7⟩

theorem arrayLoop_add {rec : Nat → Loc → D Nat} {m n a i j : Nat} {s s' : DState}
    (h : arrayLoop rec (m + n) a i s = (.ok j, s')) :
    ∃ i1 s1, arrayLoop rec m a i s = (.ok i1, s1) ∧ arrayLoop rec n (a + m) i1 s1 = (.ok j, s') := by
  induction m generalizing a i s with
  | zero => exact ⟨i, s, rfl, by rwa [Nat.zero_add] at h⟩
  | succ m ih =>
    rw [show m + 1 + n = (m + n) + 1 by omega] at h
    unfold arrayLoop at h
    obtain ⟨i1, s1, h1, h⟩ := D.bind_ok.1 h
    obtain ⟨i2, s2, h2, h3⟩ := ih h
    refine ⟨i2, s2, ?_, by rwa [show a + (m + 1) = a + 1 + m by omega]⟩
    unfold arrayLoop
    exact D.bind_ok.2 ⟨i1, s1, h1, h2⟩

/-- The variables for the elements still to come. -/
def Empty (s : DState) (F : Addr → Prop) (a n : Nat) : Prop :=
  a + n ≤ s.heap.next ∧ ∀ x, a ≤ x → x < a + n → ¬ F x ∧ s.heap.mem x = .cell .nil

theorem Empty.step {c : ViewCfg} {s s' : DState} {T' : Seen} {F F' W : Addr → Prop} {a n a' n' : Nat}
    (e : Empty s F a n) (st : DStep c s F W s' T' F') (h1 : a ≤ a') (h2 : a' + n' ≤ a + n)
    (hW : ∀ x, W x → ¬ (a' ≤ x ∧ x < a' + n')) : Empty s' F' a' n' := by
  refine ⟨by have := st.frame.next; have := e.1; omega, fun x hx hx' => ?_⟩
  obtain ⟨h3, h4⟩ := e.2 x (by omega) (by omega)
  have := e.1
  constructor
  · intro h5
    rcases st.new x h5 with h | h | h
    · exact h3 h
    · exact hW x h ⟨hx, hx'⟩
    · omega
  · rw [st.frame.same x (by omega) (fun h => hW x h ⟨hx, hx'⟩)]; exact h4

theorem Found.agree {h h' : Heap} {b : Bool} {a : Addr} {v : Val} {F F' : Addr → Prop} (x : Found h b a v F)
    (ha : Agree F h h') (hs : ∀ a, F a → F' a) : Found h' b a v F' := by
  unfold Found at *
  cases b with
  | true =>
    rw [if_pos rfl] at *
    obtain ⟨b, y, h1, h2, h3, h4⟩ := x
    exact ⟨b, y, by rw [ha _ h3]; exact h1, by rw [ha _ h4]; exact h2, hs _ h3, hs _ h4⟩
  | false =>
    rw [if_neg (by simp)] at *
    exact ⟨by rw [ha _ x.2]; exact x.1, hs _ x.2⟩

/-- What REFP or ALIAS puts into the variable `a` when the item it names was decoded to `v`. -/
def Refers (h : Heap) (direct : Bool) (a : Addr) (v : Val) (G : Addr → Prop) : Prop :=
  if direct then h.mem a = .cell v ∧ G a
  else ∃ x, h.mem a = .cell (.ptr false x) ∧ h.mem x = .cell v ∧ G a ∧ G x

theorem Refers.agree {h h' : Heap} {b : Bool} {a : Addr} {v : Val} {F F' : Addr → Prop} (x : Refers h b a v F)
    (ha : Agree F h h') (hs : ∀ a, F a → F' a) : Refers h' b a v F' := by
  unfold Refers at *
  cases b with
  | true =>
    rw [if_pos rfl] at *
    exact ⟨by rw [ha _ x.2]; exact x.1, hs _ x.2⟩
  | false =>
    rw [if_neg (by simp)] at *
    obtain ⟨y, h1, h2, h3, h4⟩ := x
    exact ⟨y, by rw [ha _ h3]; exact h1, by rw [ha _ h4]; exact h2, hs _ h3, hs _ h4⟩

/-- The item at `i` is a REFP (ALIAS if `alias`) that names offset `k`. -/
def NamesAt (buf : Bytes) (alias : Bool) (i k : Nat) : Prop :=
  ∃ (x : Nat) (b : UInt8) (j : Nat), TagAt buf i x b ∧ b.toNat % 128 = (if alias then 0x2e else 0x29) ∧
    Vint goDialect buf (x + 1) k j

theorem Vint.go_lt {buf : Bytes} {i n j : Nat} (h : Vint goDialect buf i n j) : n < 2 ^ 64 := by
  obtain ⟨v, -, -, -, h4⟩ := h
  simp only [goDialect, Option.some.injEq] at h4
  omega

/-- The elements of an array, one of which is a REFP (or ALIAS) naming an earlier one. -/
theorem loop_shared {cfg : DCfg} {buf : Bytes} {f m1 m2 m3 a i j k k1 k2 : Nat} {refn alias : Bool} {s s' : DState}
    {T U U' V V' : Seen} {F : Addr → Prop} {ts1 ts2 : List Tree} (hI : Inv cfg.view s T F)
    (he : Empty s F a (m1 + ((m2 + 1) + (1 + m3)))) (hcd : s.cd = false)
    (h : arrayLoop (decode cfg buf f) (m1 + ((m2 + 1) + (1 + m3))) a i s = (.ok j, s'))
    (hA : G goDialect buf false (.items m1) i U (.trees ts1) k1 U')
    (hB : G wrtDialect buf false (.items (m2 + 1)) k1 V (.trees ts2) k2 V')
    (ht : TrackedAt buf refn k1 k) (hr : NamesAt buf alias k2 k) :
    ∃ v F', Found s'.heap (refn && cfg.perlCompat) (a + m1) v F' ∧
      Refers s'.heap (alias || cfg.disableRefInt) (a + m1 + (m2 + 1)) v F' ∧ (∀ x, F' x → F x ∨ a ≤ x) ∧
        (∀ x, F' x → x < s'.heap.next) := by
  -- the elements in front
  obtain ⟨i1, s1, h1, h⟩ := arrayLoop_add h
  obtain ⟨ts, T1, F1, -, g1, -, A1, -, -⟩ := arrayLoop_sound (decode_sound cfg buf f) m1 a i s T F i1 s1 hI
    (by have := he.1; omega) (fun x hx hx' => he.2 x hx (by omega)) h1
  rw [hcd] at g1
  obtain ⟨rfl, -⟩ := hA.follow Dialect.Le.refl_go g1
  have e1 : Empty s1 F1 (a + m1) ((m2 + 1) + (1 + m3)) := he.step A1.step (by omega) (by omega) (by omega)
  have hcd1 : s1.cd = false := by rw [← hcd]; unfold DState.cd; rw [A1.depth]
  -- the tracked one
  obtain ⟨i2, s3, h2, h⟩ := arrayLoop_add h
  unfold arrayLoop at h2
  obtain ⟨i3, s2, h3, h2⟩ := D.bind_ok.1 h2
  have p1 : Pre cfg.view s1 T1 F1 (.cell (a + m1)) .cell .nil :=
    ⟨A1.inv, (e1.2 _ (Nat.le_refl _) (by omega)).1, by have := e1.1; simp only [Loc.addr]; omega, .cell _,
      (e1.2 _ (Nat.le_refl _) (by omega)).2⟩
  cases hB with
  | itemsCons hB1 hB2 =>
  rw [← hcd1] at hB1
  obtain ⟨rfl, T2, F2, la, v, st2, hT2, htr2, hF2, hm2, hfd2⟩ := decode_elem p1 h3 ht hB1
  have e2 : Empty s2 F2 (a + m1 + 1) (m2 + (1 + m3)) := e1.step st2 (by omega) (by omega) (by omega)
  have hcd2 : s2.cd = false := by rw [← hcd1]; unfold DState.cd; rw [st2.depth]
  have hk : k < i3 := by
    have := hB1.lt
    obtain ⟨b, hb, ht⟩ := ht
    have : k < k1 + (i3 - k1) := by
      split at ht
      · obtain ⟨k0, b0, ht0, hb0, ht⟩ := ht
        have inner : ∀ {c' : Nat} {V t V'}, c' = 0x28 → G wrtDialect buf s1.cd (.body (classify c')) (k0 + 1) V (.tree t) i3 V' →
            k < i3 := by
          rintro c' V t V' rfl hg
          rw [show classify 0x28 = .refn from rfl] at hg
          generalize s1.cd = cd at hg
          cases hg with
          | refn hg =>
            cases hg with
            | plain ht' hb' hg =>
              obtain ⟨rfl, rfl⟩ := ht.unique ht'
              have := hg.lt; simp only [Job.need] at this; omega
            | tracked ht' hb' hg =>
              obtain ⟨rfl, rfl⟩ := ht.unique ht'
              have := hg.lt; simp only [Job.need] at this; omega
        have : k < i3 := by
          generalize s1.cd = cd at hB1 inner
          cases hB1 with
          | plain ht' hb' hg =>
            obtain ⟨rfl, rfl⟩ := ht0.unique ht'
            exact inner (by omega) hg
          | tracked ht' hb' hg =>
            obtain ⟨rfl, rfl⟩ := ht0.unique ht'
            exact inner (by have := b0.toNat_lt; omega) hg
        omega
      · have : k < i3 := by
          generalize s1.cd = cd at hB1
          cases hB1 with
          | plain ht' hb' hg =>
            obtain ⟨rfl, rfl⟩ := ht.unique ht'
            have := hg.lt; simp only [Job.need] at this; omega
          | tracked ht' hb' hg =>
            obtain ⟨rfl, rfl⟩ := ht.unique ht'
            have := hg.lt; simp only [Job.need] at this; omega
        omega
    simp only [Job.need] at *
    omega
  -- the elements between
  obtain ⟨ts3, T3, F3, -, g3, -, A3, -, -⟩ := arrayLoop_sound (decode_sound cfg buf f) m2 (a + m1 + 1) i3 s2 T2 F2 i2 s3
    st2.inv (by have := e2.1; omega) (fun x hx hx' => e2.2 x hx (by omega)) h2
  rw [hcd2] at g3
  obtain ⟨rfl, hT3⟩ := hB2.follow wrtDialect_le_go g3
  have hT3 := (hT3 rfl k hk).trans hT2
  have htr3 : s3.tracked k = some (.cell la) := by
    rcases A3.moves k with ⟨_, h6⟩ | ⟨t2, h6⟩
    · rw [h6]; exact htr2
    · rw [hT3] at h6; cases h6
  have e3 : Empty s3 F3 (a + m1 + (m2 + 1)) (1 + m3) := by
    have := e2.step A3.step (a' := a + m1 + (m2 + 1)) (n' := 1 + m3) (by omega) (by omega) (by omega)
    exact this
  have hag3 : Agree F2 s2.heap s3.heap := st2.inv.agree A3.frame (fun x hx hw => (e2.2 x hw.1 (by omega)).1 hx)
  have hm3 : s3.heap.mem la = .cell v := by rw [hag3 _ hF2]; exact hm2
  have hF3 : F3 la := A3.sub _ hF2
  have hfd3 := hfd2.agree hag3 A3.sub
  -- the reference
  obtain ⟨i4, s4, h4, h⟩ := arrayLoop_add h
  unfold arrayLoop at h4
  obtain ⟨i5, s5, h5, h4⟩ := D.bind_ok.1 h4
  unfold arrayLoop at h4
  obtain ⟨rfl, rfl⟩ := D.pure_ok.1 h4
  generalize hx0 : a + m1 + (m2 + 1) = x0 at *
  obtain ⟨hfree, hmem⟩ := e3.2 x0 (Nat.le_refl _) (by omega)
  have hlt3 := e3.1
  have p3 : Pre cfg.view s3 T3 F3 (.cell x0) .cell .nil :=
    ⟨A3.inv, hfree, by simp only [Loc.addr]; omega, .cell _, hmem⟩
  obtain ⟨x, b, jr, hr1, hr2, hr3⟩ := hr
  obtain ⟨g, s6, T6, h6, hh6, hd6, p6, htr6, htr6'⟩ := decode_head p3 h5 hr1
  have hkx : k ≠ x := by have := hr1.le; have := g3.lt; simp only [Job.need] at this; omega
  have hcl : classify (b.toNat % 128) = if alias then .alias else .refp := by
    rw [hr2]; cases alias <;> rfl
  have h7 : decodeRefpAlias cfg buf (x + 1) (!alias) (.cell x0) s6 = (.ok i5, s5) := by
    rw [hcl] at h6
    cases alias <;> exact h6
  clear h6
  unfold decodeRefpAlias at h7
  obtain ⟨⟨offs, sz⟩, s7, h8, h7⟩ := D.bind_ok.1 h7
  obtain ⟨rfl, o, hv, rfl, hn64⟩ := varintAt_ok_iff.1 h8
  obtain ⟨rfl, rfl⟩ := hr3.unique hv
  dsimp only at h7
  obtain ⟨_, s7, h9, h7⟩ := D.bind_ok.1 h7
  obtain ⟨hsz, rfl⟩ := D.failIf_ok.1 h9
  obtain ⟨-, hsg⟩ := lt_of_sgn hn64 hsz
  rw [hsg, Int.toNat_natCast, D.bind_eq (D.get_apply _), (htr6 k hkx).1, htr3] at h7
  dsimp only at h7
  rw [D.bind_eq (readLoc_apply _ _), (Ctx.cell la).read (hp := s6.heap) (by rw [hh6]; exact hm3)] at h7
  have fin : ∀ (hp : Heap) (w : Val), Frame (· = x0) s6.heap hp → hp.mem x0 = .cell w →
      (s5 = { s6 with heap := hp }) → (alias || cfg.disableRefInt) = true ∧ w = v ∨
        (alias || cfg.disableRefInt) = false ∧ w = .ptr false s6.heap.next ∧ hp.mem s6.heap.next = .cell v ∧
          s6.heap.next < hp.next →
      ∃ v F', Found s'.heap (refn && cfg.perlCompat) (a + m1) v F' ∧
        Refers s'.heap (alias || cfg.disableRefInt) x0 v F' ∧ (∀ x, F' x → F x ∨ a ≤ x) ∧
        (∀ x, F' x → x < s'.heap.next) := by
    intro hp w fr hmx hs5 hw
    subst hs5
    have hI5 : Inv cfg.view { s6 with heap := hp } T6 (Full s6 F3 (.cell x0) { s6 with heap := hp }) := by
      refine (p6.inv.frame (s' := { s6 with heap := hp }) fr (by rintro y hy rfl; exact hfree hy) rfl).grow (fun y h => Or.inl h) ?_
      rintro y (h | rfl | h)
      · exact Nat.lt_of_lt_of_le (p6.inv.lt y h) fr.next
      · have := fr.next; rw [hh6] at this; change _ < hp.next; omega
      · exact h.2
    have hst : DStep cfg.view s6 F3 (· = x0) { s6 with heap := hp } T6 (Full s6 F3 (.cell x0) { s6 with heap := hp }) := by
      refine ⟨hI5, fun y h => Or.inl h, ?_, fr, rfl⟩
      rintro y (h | h | h)
      · exact Or.inl h
      · exact Or.inr (Or.inl h)
      · exact Or.inr (Or.inr h.1)
    have e7 : Empty s6 F3 x0 (1 + m3) := by
      refine ⟨by rw [hh6]; exact e3.1, ?_⟩
      rw [hh6]; exact e3.2
    have e5 := e7.step hst (a' := x0 + 1) (n' := m3) (by omega) (by omega) (by omega)
    obtain ⟨_, T8, F8, _, _, _, A8, _, _⟩ := arrayLoop_sound (decode_sound cfg buf f) m3 (x0 + 1) _ _ T6 _ _ s' hI5
      e5.1 e5.2 h
    have hag8 : Agree (Full s6 F3 (.cell x0) { s6 with heap := hp }) hp s'.heap :=
      hI5.agree A8.frame (fun y hy hw => (e5.2 y hw.1 hw.2).1 hy)
    have hag7 : Agree F3 s3.heap hp := by
      have := p6.inv.agree fr (by rintro y hy rfl; exact hfree hy)
      rwa [hh6] at this
    refine ⟨v, F8, (hfd3.agree hag7 (F' := Full s6 F3 (.cell x0) { s6 with heap := hp }) (fun y h => Or.inl h)).agree hag8
      A8.sub, ?_, ?_, A8.inv.lt⟩
    rotate_left
    · have n0 := he.1
      have n1 := A1.frame.next
      have n2 := st2.frame.next
      have n3 := A3.frame.next
      have n5 := fr.next
      rw [hh6] at n5
      intro x hx
      rcases A8.new x hx with h | h | h
      · rcases hst.new x h with h | h | h
        · rcases A3.new x h with h | h | h
          · rcases st2.new x h with h | h | h
            · rcases A1.new x h with h | h | h
              · exact Or.inl h
              · exact Or.inr h.1
              · exact Or.inr (by omega)
            · exact Or.inr (by omega)
            · exact Or.inr (by omega)
          · exact Or.inr (by omega)
          · exact Or.inr (by omega)
        · exact Or.inr (by omega)
        · exact Or.inr (by rw [hh6] at h; omega)
      · exact Or.inr (by omega)
      · exact Or.inr (by dsimp only at h; omega)
    have hmx' : s'.heap.mem x0 = .cell w := (hag8 x0 (Or.inr (Or.inl rfl))).trans hmx
    unfold Refers
    rcases hw with ⟨h1, rfl⟩ | ⟨h1, rfl, h2, h3⟩
    · rw [if_pos h1]; exact ⟨hmx', A8.sub _ (Or.inr (Or.inl rfl))⟩
    · rw [if_neg (by rw [h1]; simp)]
      exact ⟨_, hmx', by rw [hag8 _ (Or.inr (Or.inr ⟨Nat.le_refl _, h3⟩))]; exact h2, A8.sub _ (Or.inr (Or.inl rfl)),
        A8.sub _ (Or.inr (Or.inr ⟨Nat.le_refl _, h3⟩))⟩
  have hlt6 : x0 < s6.heap.next := by rw [hh6]; omega
  have hm6 : s6.heap.mem x0 = .cell .nil := by rw [hh6]; exact hmem
  cases alias with
  | true =>
    rw [if_neg (by simp), D.bind_eq (writeLoc_apply _ _ _), D.pure_ok] at h7
    obtain ⟨rfl, rfl⟩ := h7
    exact fin _ v (Frame.write _ (.cell x0) _) ((Ctx.cell x0).write hm6) rfl (Or.inl ⟨rfl, rfl⟩)
  | false =>
    rw [if_pos (by simp)] at h7
    by_cases hnil : v = .nil
    · rw [if_pos hnil] at h7; exact (D.fail_ok.1 h7).elim
    · rw [if_neg hnil] at h7
      by_cases hdi : cfg.disableRefInt = true
      · rw [if_pos hdi, D.bind_eq (writeLoc_apply _ _ _), D.pure_ok] at h7
        obtain ⟨rfl, rfl⟩ := h7
        exact fin _ v (Frame.write _ (.cell x0) _) ((Ctx.cell x0).write hm6) rfl (Or.inl ⟨by simp [hdi], rfl⟩)
      · rw [if_neg hdi, D.bind_eq (allocVar_apply _ _), D.bind_eq (writeLoc_apply _ _ _), D.pure_ok] at h7
        obtain ⟨rfl, rfl⟩ := h7
        refine fin _ (.ptr false _) ((Frame.alloc _ _ _).trans (Frame.write _ (.cell x0) _) (fun _ _ h => h))
          ((Ctx.cell x0).write (by simp only [Loc.addr]; rw [Heap.alloc_old _ _ hlt6]; exact hm6)) rfl
          (Or.inr ⟨by simpa using hdi, rfl, ?_, ?_⟩)
        · rw [Heap.write_mem _ _ _ _ (by simp only [Loc.addr]; omega), Heap.alloc_mem]
        · rw [Heap.write_next, Heap.alloc_next]; omega

end Sereal

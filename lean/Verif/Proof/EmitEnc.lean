import Verif.Proof.EmitVal
/-
What the encoder writes: structs, frozen objects, pointers; the main theorem.
-/
namespace Sereal

variable {c : ECfg} {inp : Heap} {base : Nat} {R : Tree → Prop}

/-! ### Structs -/

theorem structTags_eq (fs : List Field) (m : List (Bytes × Field)) :
    structTags fs m = insertAll (fs.filterMap (fun f => (effName f).map (fun k => (k, f)))) m := by
  induction fs generalizing m with
  | nil => rfl
  | cons f fs ih =>
    unfold structTags
    by_cases h1 : f.tag = [45]
    · have he : effName f = none := by unfold effName; rw [if_pos h1]
      rw [if_pos h1, List.filterMap_cons, he]
      exact ih m
    · rw [if_neg h1]
      by_cases h2 : f.tag = []
      · rw [if_pos h2]
        cases h3 : f.exported with
        | true =>
          have he : effName f = some f.name := by
            unfold effName; rw [if_neg h1, if_neg (fun h => h h2), if_pos h3]
          rw [List.filterMap_cons, he]
          exact ih _
        | false =>
          have he : effName f = none := by
            unfold effName; rw [if_neg h1, if_neg (fun h => h h2), if_neg (by simp [h3])]
          rw [List.filterMap_cons, he]
          exact ih _
      · have he : effName f = some f.tag := by unfold effName; rw [if_neg h1, if_pos h2]
        rw [if_neg h2, List.filterMap_cons, he]
        exact ih _

theorem mapLookup_map {α β : Type} (f : α → β) (k : Bytes) (xs : List (Bytes × α)) :
    mapLookup k (xs.map (fun x => (x.1, f x.2))) = (mapLookup k xs).map f := by
  induction xs with
  | nil => rfl
  | cons e xs ih =>
    obtain ⟨k1, v1⟩ := e
    simp only [List.map_cons, mapLookup]
    split
    · rfl
    · exact ih

theorem mapLookup_isSome {α : Type} (k : Bytes) (xs : List (Bytes × α)) :
    (mapLookup k xs).isSome ↔ k ∈ xs.map Prod.fst := by
  induction xs with
  | nil => simp [mapLookup]
  | cons e xs ih =>
    obtain ⟨k1, v1⟩ := e
    simp only [mapLookup, List.map_cons, List.mem_cons]
    by_cases h : k1 = k
    · simp [h]
    · rw [if_neg h, ih]
      constructor
      · exact .inr
      · rintro (h2 | h2)
        · exact absurd h2.symm h
        · exact h2

theorem structTags_lookup (fs : List Field) (k : Bytes) :
    (mapLookup k (structTags fs [])).map Field.val = lastLookup k (fieldEntries fs) := by
  rw [structTags_eq, insertAll_lookup]
  have : fieldEntries fs = (fs.filterMap (fun f => (effName f).map (fun k => (k, f)))).map (fun x => (x.1, x.2.val)) := by
    unfold fieldEntries
    rw [List.map_filterMap]
    congr 1
    funext f
    cases effName f <;> rfl
  rw [this]
  unfold lastLookup
  rw [← List.map_reverse, mapLookup_map]
  simp [mapLookup]

theorem structTags_nodup (fs : List Field) : ((structTags fs []).map Prod.fst).Nodup := by
  rw [structTags_eq]
  exact insertAll_nodup _ _ (by simp)

/-- The fields of a struct one after the other. -/
theorem flds {rec : Val → E Unit} {W : Val → Tree → Prop} (hrec : ∀ v, EncItem c inp base (rec v) (W v))
    (tags : List (Bytes × Field)) :
    ∀ (ks : List Bytes) (s s' : EState) (g : Gh), (∀ k ∈ ks, k ∈ tags.map Prod.fst) → EInv c inp base s g →
      encodeFields c rec tags ks s = .ok ((), s') →
    ∃ g' kts, kts.map Prod.fst = ks ∧
      (∀ k t f, (k, t) ∈ kts → mapLookup k tags = some f → W f.val t) ∧
      Step c inp base (fun _ _ => False) s s' g g' (fun B T T' =>
        (∀ k t, (k, t) ∈ kts → k.length ≤ maxSize ∧ Fits maxSize t) →
        G wrtDialect B false (.pairs ks.length) g.raw.length T (.pairs kts) g'.raw.length T') ∧
      (∀ k t, (k, t) ∈ kts → k.length ≤ g'.raw.length ∧ Fits g'.raw.length t) ∧
      g.raw.length + kts.length ≤ g'.raw.length
  | [], s, s', g, _, hi, he => by
    obtain ⟨_, rfl⟩ := E.pure_ok.1 he
    exact ⟨g, [], rfl, by simp, (Step.refl hi).mono (by rintro B T T' rfl _; exact .pairsNil), by simp, by simp⟩
  | k :: ks, s, s', g, hks, hi, he => by
    obtain ⟨_, s0, h0, he⟩ := E.bind_ok.1 he
    have hk := (mapLookup_isSome k tags).2 (hks k (by simp))
    obtain ⟨f, hf⟩ := Option.isSome_iff_exists.1 hk
    rw [hf] at he
    dsimp only at he
    cases hex : f.exported with
    | false =>
      rw [hex] at he
      obtain ⟨_, _, h1, _⟩ := E.bind_ok.1 he
      cases h1
    | true =>
      rw [hex] at he
      obtain ⟨_, s1, h1, h2⟩ := E.bind_ok.1 he
      obtain ⟨g0, hst0, hk0⟩ := encKey_string k true s s0 g hi h0
      obtain ⟨g1, t, hW, hst, hs, hft⟩ := hrec _ s0 s1 g0 hst0.inv h1
      obtain ⟨g2, kts, hl, hWs, hst2, hfs, hlen⟩ :=
        flds hrec tags ks s1 s' g1 (fun k hk => hks k (by simp [hk])) hst.inv h2
      have hle0 := hst0.grows.le
      have hle1 := hst.lt hs
      have hle2 := hst2.grows.le
      refine ⟨g2, (k, t) :: kts, by simp [hl], ?_, ((hst0.comp hst).comp hst2).mono ?_, ?_, ?_⟩
      · intro k' t' f' ht' hf'
        rcases List.mem_cons.1 ht' with h | ht'
        · cases h; rw [hf] at hf'; cases hf'; exact hW
        · exact hWs k' t' f' ht' hf'
      · rintro B T T' ⟨T1, ⟨T0, ⟨rfl, h3⟩, h4⟩, h5⟩ hfit
        have hh := hfit k t (by simp)
        exact .pairsCons (h3 hh.1) (h4 hh.2) (h5 (fun k' t' ht' => hfit k' t' (by simp [ht'])))
      · intro k' t' ht'
        rcases List.mem_cons.1 ht' with h | ht'
        · cases h
          exact ⟨by omega, hft.mono hle2⟩
        · exact hfs k' t' ht'
      · simp only [List.length_cons]
        omega

theorem fieldsItem {rec : Val → E Unit} {W : Val → Tree → Prop} (hrec : ∀ v, EncItem c inp base (rec v) (W v))
    (hord : ∀ n ks, (c.ord n ks).Perm ks) (tags : List (Bytes × Field)) :
    EncItem c inp base (emit (typeHASH :: varint tags.length) >>= fun _ =>
        rangeKeys c (tags.map (·.1)) >>= fun ks => encodeFields c rec tags ks)
      (fun t => ∃ kts, t = .map kts ∧ (kts.map Prod.fst).Perm (tags.map Prod.fst) ∧
        ∀ k t f, (k, t) ∈ kts → mapLookup k tags = some f → W f.val t) := by
  intro s s' g hi he
  refine tagThen (by decide) hi he (Q := fun g2 t B T T' => ∀ kts, t = .map kts →
        (∀ k t, (k, t) ∈ kts → k.length ≤ maxSize ∧ Fits maxSize t) →
        G wrtDialect B false (.pairs tags.length) (g.start (typeHASH :: varint tags.length)).raw.length T
          (.pairs kts) g2.raw.length T') (fun s1 hi1 h1 => ?_)
  obtain ⟨ks, s2, h2, h3⟩ := E.bind_ok.1 h1
  have hs2 : s2 = { s1 with visits := s1.visits + 1 } ∧ ks = c.ord s1.visits (tags.map (·.1)) := by
    unfold rangeKeys at h2; cases h2; exact ⟨rfl, rfl⟩
  obtain ⟨hs2, hks⟩ := hs2
  have hi2 : EInv c inp base s2 (g.start (typeHASH :: varint tags.length)) := by
    rw [hs2]
    exact ⟨hi1.base_le, hi1.len, hi1.agree, hi1.flags, hi1.range, hi1.strs, hi1.ptrs⟩
  have hpk : ks.Perm (tags.map Prod.fst) := by rw [hks]; exact hord _ _
  obtain ⟨g2, kts, hl, hW, hst, hf, hlen⟩ := flds hrec tags ks s2 s' _ (fun k hk => hpk.mem_iff.1 hk) hi2 h3
  have hperm : (kts.map Prod.fst).Perm (tags.map Prod.fst) := by rw [hl]; exact hpk
  have hn : ks.length = tags.length := by simpa using hpk.length_eq
  have hn2 : kts.length = tags.length := by
    rw [← hn, ← hl]; simp
  refine ⟨g2, .map kts, ⟨kts, rfl, hperm, hW⟩, ?_, .map (by omega) (fun k t h => (hf k t h).1)
    (fun k t h => (hf k t h).2), ?_⟩
  · refine ⟨hst.inv, hst.grows, fun κ o ho => ?_, fun φ B hf => ?_⟩
    · have := hst.new κ o ho
      rw [hs2] at this
      exact this
    · intro kts' he
      cases he
      have := hst.reads φ B hf
      rw [hn] at this
      exact this
  · intro B T T' hQ _ hF hsp
    cases hF with
    | map hm hk hF =>
      rw [hn2] at hm
      have := hQ kts rfl (fun k t h => ⟨hk k t h, hF k t h⟩)
      exact .hash (Vint.of_span hsp (Nat.lt_of_le_of_lt hm (by decide))) hm this

/-- An optional reference tag in front of an item. -/
theorem optRef {x : E Unit} {R : Tree → Prop} (b : Bool) (h : EncItem c inp base x R) :
    EncItem c inp base (if b then (emit [typeREFN] >>= fun _ => x) else x)
      (fun t => ∃ t0, t = refWrap b t0 ∧ R t0) := by
  cases b with
  | true =>
    rw [if_pos rfl]
    exact refItem h (fun t ht => ⟨t, rfl, ht⟩)
  | false =>
    rw [if_neg (by simp)]
    intro s s' g hi he
    obtain ⟨g', t, hR, hrest⟩ := h s s' g hi he
    exact ⟨g', t, ⟨t, rfl, hR⟩, hrest⟩

theorem strctItem {rec : Val → E Unit} {W : Val → Tree → Prop} (hrec : ∀ v, EncItem c inp base (rec v) (W v))
    (hord : ∀ n ks, (c.ord n ks).Perm ks) (name : Bytes) (fs : List Field) :
    EncItem c inp base (encodeStrct c rec name fs)
      (fun t => ∃ kts, t = .obj name (refWrap c.perlCompat (.map kts)) ∧ (kts.map Prod.fst).Nodup ∧
        (∀ k, k ∈ kts.map Prod.fst ↔ k ∈ (fieldEntries fs).map Prod.fst) ∧
        ∀ k t v, (k, t) ∈ kts → lastLookup k (fieldEntries fs) = some v → W v t) := by
  unfold encodeStrct
  refine objItem (encKey_bytes name true) (optRef c.perlCompat (fieldsItem hrec hord (structTags fs []))) ?_
  rintro t ⟨t0, rfl, kts, rfl, hp, hW⟩
  refine ⟨kts, rfl, hp.nodup_iff.2 (structTags_nodup fs), fun k => ?_, fun k t v hk hv => ?_⟩
  · rw [hp.mem_iff, ← mapLookup_isSome]
    have h1 : k ∈ (fieldEntries fs).map Prod.fst ↔ (lastLookup k (fieldEntries fs)).isSome := by
      unfold lastLookup
      rw [mapLookup_isSome]
      simp
    rw [h1, ← structTags_lookup]
    simp
  · rw [← structTags_lookup] at hv
    obtain ⟨f, hf, rfl⟩ := Option.map_eq_some_iff.1 hv
    exact hW k t f hk hf

/-! ### Frozen objects -/

theorem frzItem {key : E Unit} {cls data : Bytes} {R : Tree → Prop} (hkey : EncKey c inp base key cls)
    (hr : R (.frz cls (.ref (.arr [.bin data])))) :
    EncItem c inp base (emit [typeOBJECT_FREEZE] >>= fun _ => key >>= fun _ => emit [typeREFN] >>= fun _ =>
      emit (typeARRAY :: varint 1) >>= fun _ => encodeBytes c data false) R := by
  intro s s' g hi he
  refine tagThen (by decide) hi he (Q := fun g2 _ B T T' => cls.length ≤ maxSize →
      T' = T ∧ ∃ j, Strish wrtDialect B false (g.start [typeOBJECT_FREEZE]).raw.length cls j ∧
        Span B j ([0x28, 0x2b, 1] ++ binItem data) g2.raw.length) (fun s1 hi1 h1 => ?_)
  obtain ⟨_, s2, h2, h3⟩ := E.bind_ok.1 h1
  obtain ⟨_, s3, h3, h4⟩ := E.bind_ok.1 h3
  obtain ⟨_, s4, h4, h5⟩ := E.bind_ok.1 h4
  rw [encodeBytes_false] at h5
  obtain ⟨g1, hst1, hl1⟩ := hkey s1 s2 _ hi1 h2
  have e5 : s' = { s2 with buf := s2.buf ++ ([0x28, 0x2b, 1] ++ binItem data) } := by
    rw [emit_ok.1 h5, emit_ok.1 h4, emit_ok.1 h3]
    have : varint 1 = [1] := varint_lt (by decide)
    simp only [this, List.append_assoc]
    rfl
  have hst2 := step_more hst1.inv ([0x28, 0x2b, 1] ++ binItem data)
  rw [← e5] at hst2
  have hd := binItem_length data
  have hlen : (g1.more ([0x28, 0x2b, 1] ++ binItem data)).raw.length = g1.raw.length + 3 + (binItem data).length := by
    simp [Gh.more]; omega
  refine ⟨_, .frz cls (.ref (.arr [.bin data])), hr, (hst1.comp hst2).mono ?_,
    .frz (Nat.le_trans hl1 hst2.grows.le) (.ref (.arr (by rw [hlen]; simp; omega) (by
      intro t ht; obtain rfl := List.mem_singleton.1 ht; exact .bin (by omega)))), ?_⟩
  · rintro B T T' ⟨T1, ⟨rfl, h6⟩, rfl, h7⟩ hc
    exact ⟨rfl, _, h6 hc, h7⟩
  · intro B T T' hQ _ hF _
    cases hF with
    | frz hc hF =>
      cases hF with
      | ref hF =>
        cases hF with
        | arr _ hF =>
          have hb := hF (.bin data) (by simp)
          cases hb with
          | bin hb =>
            obtain ⟨rfl, j, h6, h7⟩ := hQ hc
            rw [start_length] at h6
            obtain ⟨h8, h9⟩ := Span.head h7
            obtain ⟨h10, h11⟩ := Span.head h9
            obtain ⟨h12, h13⟩ := Span.split (s := varint 1) (t := binItem data) (by rw [varint_lt (by decide : 1 < 128)]; exact h11)
            have hsp : Span B j [0x28, 0x2b] (j + 2) := by
              have : Span B j ([0x28, 0x2b] ++ (1 :: binItem data))
                  (g1.more ([0x28, 0x2b, 1] ++ binItem data)).raw.length := h7
              exact (Span.split this).1
            refine .freeze h6 hsp (.plain (TagAt.here' h8 (by decide)) (by decide) (.refn
              (.plain (TagAt.here' h10 (by decide)) (by decide) (.array (n := 1)
                (Vint.of_span h12 (by decide)) (by decide) (.itemsCons ?_ .itemsNil)))))
            generalize (g1.more ([0x28, 0x2b, 1] ++ binItem data)).raw.length = e at h13
            generalize j + 1 + 1 + (varint 1).length = i at h13
            unfold binItem at h13
            by_cases hl : data.length < 32
            · rw [if_pos hl] at h13
              obtain ⟨h14, h15⟩ := Span.head h13
              have ht := binItem_tag hl
              refine .plain (TagAt.here' h14 (by omega)) (by omega) ?_
              rw [ht, classify_shortN hl]
              exact .short h15 rfl
            · rw [if_neg hl] at h13
              obtain ⟨h14, h15⟩ := Span.head h13
              obtain ⟨h16, h17⟩ := Span.split (s := varint data.length) (t := data) h15
              exact .plain (TagAt.here' h14 (by decide)) (by decide)
                (.binary (Vint.of_span h16 (Nat.lt_of_le_of_lt hb (by decide))) hb h17 rfl)

/-! ### Pointers -/

theorem getPointer_ok {iface : Bool} {a p : Addr} (h : getPointer c inp iface a = .ok p) :
    p = dataAddr c inp a := by
  unfold getPointer at h
  unfold dataAddr
  cases hv : inp.cellAt a <;> rw [hv] at h <;> dsimp only at h ⊢ <;>
    first
    | (cases h; rfl)
    | (split at h <;> cases h; rfl)

theorem EAgree.flag {φ : Nat → Bool} {X B : Bytes} {o : Nat} (h : EAgree base φ X B) :
    EAgree base (fun i => φ i || decide (i = o)) X (B.modify o (· ||| trackFlag)) := by
  intro i b hi hb
  have := h i b hi hb
  rw [List.getElem?_modify, this]
  by_cases he : o = i
  · subst he
    simp only [fl, decide_true, Bool.or_true, if_true]
    cases φ o with
    | false => rfl
    | true =>
      simp only [if_true]
      congr 1
      clear hb this
      revert b; apply u8_forall
      set_option maxRecDepth 8000 in decide
  · have h2 : decide (i = o) = false := by simp; exact fun h => he h.symm
    simp only [h2, Bool.or_false, if_neg he]
    rfl

/-- The track bit is set on an item written before. -/
theorem step_flag {s s' : EState} {g : Gh} {o : Nat} (hi : EInv c inp base s g)
    (he : setTrackFlag o s = .ok ((), s')) (ho : g.seen o ≠ none) :
    Step c inp base (fun _ _ => False) s s' g ⟨g.raw, g.seen, fun i => g.trk i || decide (i = o)⟩
      (fun _ T T' => T' = T ∧ T o = g.seen o) := by
  unfold setTrackFlag at he
  split at he
  · cases he
    refine ⟨⟨hi.base_le, by simp [hi.len], hi.agree.flag, ?_, hi.range, hi.strs, hi.ptrs⟩,
      ⟨List.prefix_refl _, fun _ _ => rfl, fun o h => by simp [h]⟩, fun _ _ h => .inl h, ?_⟩
    · intro o' ho'
      have : g.trk o' = true ∨ o' = o := by simpa using ho'
      rcases this with h | rfl
      · exact hi.flags o' h
      · exact ho
    · intro φ B hf
      refine ⟨rfl, ?_⟩
      unfold look
      rw [if_pos (hf.all o (by simp))]
  · cases he

/-- A reference to an item written before. -/
theorem refpItem {s s' : EState} {g : Gh} {o : Nat} {R : Tree → Prop} (hi : EInv c inp base s g)
    (he : (emit (typeREFP :: varint o) >>= fun _ => setTrackFlag o) s = .ok ((), s'))
    (ho : (g.seen o = some none ∧ R .openRef) ∨ ∃ t, g.seen o = some (some t) ∧ R (.refp t)) :
    ∃ g' t, R t ∧ Step c inp base (fun _ _ => False) s s' g g'
        (fun B T T' => Fits maxSize t →
          G wrtDialect B false .item g.raw.length T (.tree t) g'.raw.length T') ∧
      g'.seen g.raw.length = some (some t) ∧ Fits g'.raw.length t := by
  have hne : g.seen o ≠ none := by
    rcases ho with ⟨h, _⟩ | ⟨_, h, _⟩ <;> rw [h] <;> simp
  have hlt := (hi.range o hne).2
  have hs : (g.start (typeREFP :: varint o)).seen o = g.seen o := by
    show (if o = g.raw.length then _ else _) = _
    rw [if_neg (by omega)]
  refine tagThen (by decide) hi he (Q := fun _ _ _ T T' => T' = T ∧ T o = g.seen o) (fun s1 hi1 h1 => ?_)
  have hst := step_flag hi1 h1 (by rw [hs]; exact hne)
  rw [hs] at hst
  rcases ho with ⟨h2, hR⟩ | ⟨t, h2, hR⟩
  · refine ⟨_, .openRef, hR, hst, .openRef, ?_⟩
    rintro B T T' ⟨rfl, h3⟩ hsz _ hsp
    rw [h2] at h3
    have hl := start_length g typeREFP (varint o)
    dsimp only at hsz
    refine .refpOpen (Vint.of_span hsp (by omega)) ?_ h3
    show o < (g.start (typeREFP :: varint o)).raw.length
    omega
  · refine ⟨_, .refp t, hR, hst, .refp, ?_⟩
    rintro B T T' ⟨rfl, h3⟩ hsz _ hsp
    rw [h2] at h3
    have hl := start_length g typeREFP (varint o)
    dsimp only at hsz
    refine .refp (Vint.of_span hsp (by omega)) ?_ h3
    show o < (g.start (typeREFP :: varint o)).raw.length
    omega

theorem rememberPtr_ok {a : Addr} {o : Nat} {s s' : EState} {u : Unit}
    (h : rememberPtr a o s = .ok (u, s')) :
    s' = { s with ptrTable := fun a' => if a' = a then some o else s.ptrTable a' } := by
  unfold rememberPtr at h; cases h; rfl

/-- A pointer met for the first time. -/
theorem ptrFirst {x : E Unit} {Q : Tree → Prop} {a p : Addr} (hx : EncItem c inp base x Q)
    (hQ : ∀ t, Q t → Written c inp true (inp.cellAt a) t) (hpd : p = dataAddr c inp a) {s0 s' : EState} {g : Gh}
    (hi : EInv c inp base s0 g)
    (he : (emit [typeREFN] >>= fun _ => rememberPtr a s0.buf.length >>= fun _ => x >>= fun _ =>
      if p ≠ 0 then rememberPtr p (s0.buf.length + 1) else pure ()) s0 = .ok ((), s')) :
    ∃ g' t, Q t ∧ Step c inp base (fun _ _ => False) s0 s' g g'
        (fun B T T' => Fits maxSize (.ref t) →
          G wrtDialect B false .item g.raw.length T (.tree (.ref t)) g'.raw.length T') ∧
      g'.seen g.raw.length = some (some (.ref t)) ∧ Fits g'.raw.length (.ref t) := by
  obtain ⟨_, s1, h1, he⟩ := E.bind_ok.1 he
  obtain ⟨_, s2, h2, he⟩ := E.bind_ok.1 he
  obtain ⟨_, s3, h3, he⟩ := E.bind_ok.1 he
  have h1 := emit_ok.1 h1
  have h2 := rememberPtr_ok h2
  have hpt : ∀ κ o, s2.ptrTable κ = some o →
      s0.ptrTable κ = some o ∨ (κ = a ∧ o = g.raw.length) := by
    intro κ o ho
    rw [h2, h1] at ho
    have ho' : (if κ = a then some s0.buf.length else s0.ptrTable κ) = some o := ho
    split at ho'
    · rename_i hk
      cases ho'
      exact .inr ⟨hk, hi.len⟩
    · exact .inl ho'
  have hst1 := step_start (X := fun κ o => κ = a ∧ o = g.raw.length) (tag := typeREFN) (w := [])
    hi (by decide) (s1 := s2) (by rw [h2, h1]) (by rw [h2, h1]) hpt (fun κ o h => h.2)
  obtain ⟨g2, t, hW, hst2, hs2, hf2⟩ := hx s2 s3 _ hst1.inv h3
  obtain ⟨h5, h6⟩ := mk_item (X := fun κ o => κ = a ∧ o = g.raw.length) (F := Fits maxSize (.ref t))
    (t := .ref t) (tag := typeREFN) (w := []) (g2 := g2) hi (by decide) (s1 := s2) (s2 := s3)
    (by rw [h2, h1]) (by rw [h2, h1]) hpt
    (fun κ o h => ⟨h.2, .inl ⟨t, rfl, by rw [h.1]; exact hQ t hW⟩⟩) (fun _ => hst2)
    (by
      intro B T T' hQ _ hF _
      have := hQ (Fits.ref_iff.1 hF)
      rw [start_length] at this
      exact .refn this)
  have hfr : Fits (g2.done g.raw.length (.ref t)).raw.length (.ref t) := .ref hf2
  by_cases hp0 : p ≠ 0
  · rw [if_pos hp0] at he
    have h7 := rememberPtr_ok he
    have hin : (g2.done g.raw.length (.ref t)).seen (s0.buf.length + 1) = some (some t) := by
      show g2.seen.close _ _ _ = _
      rw [hi.len, Seen.close_other (by omega)]
      rw [start_length] at hs2
      exact hs2
    have hpk : PtrTree c inp p t := .inr ⟨a, hpd.symm, hp0, hQ t hW⟩
    refine ⟨_, t, hW, ⟨?_, h5.grows, ?_, h5.reads⟩, h6, hfr⟩
    · refine ⟨h5.inv.base_le, by rw [h7]; exact h5.inv.len, by rw [h7]; exact h5.inv.agree, h5.inv.flags,
        h5.inv.range, by rw [h7]; exact h5.inv.strs, ?_⟩
      intro κ o ho
      rw [h7] at ho
      have ho' : (if κ = p then some (s0.buf.length + 1) else s3.ptrTable κ) = some o := ho
      split at ho'
      · rename_i hk
        cases ho'
        exact .inr ⟨t, hin, by rw [hk]; exact hpk⟩
      · exact h5.inv.ptrs κ o ho'
    · intro κ o ho
      rw [h7] at ho
      have ho' : (if κ = p then some (s0.buf.length + 1) else s3.ptrTable κ) = some o := ho
      split at ho'
      · rename_i hk
        cases ho'
        exact .inr (.inr ⟨t, hin, by rw [hk]; exact hpk⟩)
      · exact h5.new κ o ho'
  · rw [if_neg hp0] at he
    obtain ⟨_, rfl⟩ := E.pure_ok.1 he
    exact ⟨_, t, hW, h5, h6, hfr⟩


theorem ptrItem {rec : Val → Bool → E Unit}
    (hrec : ∀ v rn, EncItem c inp base (rec v rn) (Written c inp rn v)) (iface : Bool) (a : Addr) (rn : Bool) :
    EncItem c inp base (encodePtr c inp rec iface a) (Written c inp rn (.ptr iface a)) := by
  intro s s' g hi he
  unfold encodePtr at he
  dsimp only at he
  by_cases hp : (!iface && isPerlStruct (inp.cellAt a)) = true
  · rw [if_pos hp] at he
    simp only [Bool.and_eq_true, Bool.not_eq_true'] at hp
    obtain ⟨g', t, hW, hrest⟩ := hrec _ _ s s' g hi he
    exact ⟨g', t, by rw [hp.1]; exact .ptrPerl hp.2 hW, hrest⟩
  · rw [if_neg hp] at he
    have hnp : iface = false → isPerlStruct (inp.cellAt a) = false := by
      intro hf
      rw [hf] at hp
      simpa using hp
    cases hgp : getPointer c inp iface a with
    | error e => rw [hgp] at he; cases he
    | ok p =>
      rw [hgp] at he
      dsimp only at he
      have hpd := getPointer_ok hgp
      obtain ⟨st, s0, h0, he2⟩ := E.bind_ok.1 he
      clear he
      obtain ⟨rfl, rfl⟩ := E.get_ok.1 h0
      have key : ∀ o, findPtr s0 a p = some o →
          ∃ κ, IsKey c inp a κ ∧ s0.ptrTable κ = some o := by
        intro o ho
        unfold findPtr at ho
        cases h1 : s0.ptrTable a with
        | some o' => rw [h1] at ho; cases ho; exact ⟨a, .inl rfl, h1⟩
        | none =>
          rw [h1] at ho
          dsimp only at ho
          split at ho
          · rename_i hne
            exact ⟨p, .inr ⟨hpd, hne⟩, ho⟩
          · cases ho
      generalize hfo : findPtr s0 a p = found at he2 key
      cases found with
      | some o =>
        obtain ⟨κ, hk, ho⟩ := key o rfl
        refine refpItem hi he2 ?_
        rcases hi.ptrs κ o ho with h1 | ⟨t, h1, ⟨t0, rfl, h2⟩ | ⟨a', h3, h4, h5⟩⟩
        · exact .inl ⟨h1, .ptrOpen hnp⟩
        · exact .inr ⟨_, h1, .ptrAgain hnp hk h2⟩
        · exact .inr ⟨_, h1, .ptrShare hnp (by rw [h3]; exact h4) (by rw [h3]; exact hk) h5⟩
      | none =>
        obtain ⟨g', t, hW, hrest⟩ := ptrFirst (hrec _ true) (fun t h => h) hpd hi he2
        exact ⟨g', .ref t, .ptr hnp hW, hrest⟩

end Sereal

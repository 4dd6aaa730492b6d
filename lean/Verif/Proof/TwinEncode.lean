import Verif.Proof.TwinEmit
import Verif.Proof.TwinDecode
/-
Two runs of the encoder on the same value, with the same map iteration order, write twins.
-/
namespace Sereal

section
variable {b1 b2 : Nat} {P P' : List (Nat × Nat)} {s1 s2 t1 t2 : EState}

/-! ### Items -/

/-- What follows from the tag of an item and its payload, for leaves. -/
def TwinLeaf (t : UInt8) (w1 w2 : Bytes) (P : List (Nat × Nat)) : Prop :=
  ∀ (B1 B2 : Bytes) (Q : List (Nat × Nat)) (i1 i2 : Nat) (b : UInt8), B1.length ≤ maxSize → B2.length ≤ maxSize →
    (∀ x, x ∈ P → x ∈ Q) →
    B1[i1]? = some b → B2[i2]? = some b → b.toNat % 128 = t.toNat % 128 →
    Span B1 (i1 + 1) w1 (i1 + 1 + w1.length) → Span B2 (i2 + 1) w2 (i2 + 1 + w2.length) →
    Twin B1 B2 .item Q i1 i2 (i1 + 1 + w1.length) (i2 + 1 + w2.length) ((i1, i2) :: Q)

theorem WroteTwin.leaf (h : EPair b1 b2 P s1 s2) {t : UInt8} {w1 w2 : Bytes} (hl : TwinLeaf t w1 w2 P) :
    WroteTwin b1 b2 .item P s1 s2 ((s1.buf.length, s2.buf.length) :: P)
      { s1 with buf := s1.buf ++ t :: w1 } { s2 with buf := s2.buf ++ t :: w2 } where
  inv := h.begin t w1 w2
  back B1 B2 hr := hr.begin_back
  sub x hx := List.mem_cons_of_mem _ hx
  head _ := List.mem_cons_self
  reads B1 B2 hr Q hQ := by
    obtain ⟨b, h1, h2, h3, h4, h5⟩ := hr.begin_read h
    refine ⟨(s1.buf.length, s2.buf.length) :: Q, fun x hx => ?_, ?_⟩
    · rcases List.mem_cons.1 hx with rfl | hx
      · exact List.mem_cons_self
      · exact List.mem_cons_of_mem _ (hQ x hx)
    · have e1 : (s1.buf ++ t :: w1).length = s1.buf.length + 1 + w1.length := by simp; omega
      have e2 : (s2.buf ++ t :: w2).length = s2.buf.length + 1 + w2.length := by simp; omega
      dsimp only
      rw [e1, e2]
      exact hl B1 B2 Q _ _ b hr.g1.size hr.g2.size hQ h1 h2 h3 h4 h5

/-- An item with children. -/
theorem WroteTwin.under (h : EPair b1 b2 P s1 s2) {t : UInt8} {w : Bytes} {job : TwinJob}
    (hc : WroteTwin b1 b2 job ((s1.buf.length, s2.buf.length) :: P)
      { s1 with buf := s1.buf ++ t :: w } { s2 with buf := s2.buf ++ t :: w } P' t1 t2)
    (hl : ∀ (B1 B2 : Bytes) (Q Q' : List (Nat × Nat)) (i1 i2 j1 j2 : Nat) (b : UInt8),
      B1.length ≤ maxSize → B2.length ≤ maxSize →
      B1[i1]? = some b → B2[i2]? = some b → b.toNat % 128 = t.toNat % 128 →
      Span B1 (i1 + 1) w (i1 + 1 + w.length) → Span B2 (i2 + 1) w (i2 + 1 + w.length) →
      Twin B1 B2 job ((i1, i2) :: Q) (i1 + 1 + w.length) (i2 + 1 + w.length) j1 j2 Q' →
      Twin B1 B2 .item Q i1 i2 j1 j2 Q') :
    WroteTwin b1 b2 .item P s1 s2 P' t1 t2 where
  inv := hc.inv
  back B1 B2 hr := (hc.back B1 B2 hr).begin_back
  sub x hx := hc.sub x (List.mem_cons_of_mem _ hx)
  head _ := hc.sub _ List.mem_cons_self
  reads B1 B2 hr Q hQ := by
    have hr0 := hc.back B1 B2 hr
    obtain ⟨b, h1, h2, h3, h4, h5⟩ := hr0.begin_read h
    obtain ⟨Q', hQ', ht⟩ := hc.reads B1 B2 hr ((s1.buf.length, s2.buf.length) :: Q) (fun x hx => by
      rcases List.mem_cons.1 hx with rfl | hx
      · exact List.mem_cons_self
      · exact List.mem_cons_of_mem _ (hQ x hx))
    have e1 : (s1.buf ++ t :: w).length = s1.buf.length + 1 + w.length := by simp; omega
    have e2 : (s2.buf ++ t :: w).length = s2.buf.length + 1 + w.length := by simp; omega
    dsimp only at ht
    rw [e1, e2] at ht
    exact ⟨Q', hQ', hl B1 B2 Q Q' _ _ _ _ b hr.g1.size hr.g2.size h1 h2 h3 h4 h5 ht⟩

theorem twin_emit {t : UInt8} {w : Bytes} (hl : TwinLeaf t w w []) :
    TwinEmit (emit (t :: w)) (emit (t :: w)) .item := by
  intro b1 b2 P s1 s2 h
  exact ⟨_, WroteTwin.leaf h (fun B1 B2 Q i1 i2 b a1 a2 _ => hl B1 B2 Q i1 i2 b a1 a2 (fun x hx => by cases hx))⟩

/-- An item that consists of a tag, a payload and further items. -/
theorem twin_under {t : UInt8} {w : Bytes} {job : TwinJob} {x1 x2 : E Unit} (hx : TwinEmit x1 x2 job)
    (hl : ∀ (B1 B2 : Bytes) (Q Q' : List (Nat × Nat)) (i1 i2 j1 j2 : Nat) (b : UInt8),
      B1.length ≤ maxSize → B2.length ≤ maxSize →
      B1[i1]? = some b → B2[i2]? = some b → b.toNat % 128 = t.toNat % 128 →
      Span B1 (i1 + 1) w (i1 + 1 + w.length) → Span B2 (i2 + 1) w (i2 + 1 + w.length) →
      Twin B1 B2 job ((i1, i2) :: Q) (i1 + 1 + w.length) (i2 + 1 + w.length) j1 j2 Q' →
      Twin B1 B2 .item Q i1 i2 j1 j2 Q') :
    TwinEmit (emit (t :: w) >>= fun _ => x1) (emit (t :: w) >>= fun _ => x2) .item := by
  intro b1 b2 P s1 s2 h
  refine BothEmit.bind (R := fun t1 t2 => t1 = { s1 with buf := s1.buf ++ t :: w } ∧
    t2 = { s2 with buf := s2.buf ++ t :: w }) ⟨rfl, rfl⟩ ?_
  rintro _ _ ⟨rfl, rfl⟩
  exact (hx _ _ _ _ _ (h.begin t w w)).imp (fun t1 t2 ⟨P', hc⟩ => ⟨P', WroteTwin.under h hc hl⟩)

theorem tw_num (t : UInt8) (n : Nat) (hn : n < 2 ^ 64)
    (ht : classify (t.toNat % 128) = .varint ∨ classify (t.toNat % 128) = .zigzag) : TwinLeaf t (varint n) (varint n) P := by
  intro B1 B2 Q i1 i2 b _ _ _ h1 h2 h3 h4 h5
  exact .num h1 h2 (by rw [h3]; exact ht) (Vint.of_span h4 hn) (Vint.of_span h5 hn)

theorem tw_bare (t : UInt8) (ht : (classify (t.toNat % 128)).bare = true) : TwinLeaf t [] [] P := by
  intro B1 B2 Q i1 i2 b _ _ _ h1 h2 h3 _ _
  exact .bare h1 h2 (by rw [h3]; exact ht)

theorem twin_int (isInt : Bool) (i : Int64) : TwinEmit (emit (encodeInt isInt i)) (emit (encodeInt isInt i)) .item := by
  have hlt := i.toUInt64.toNat_lt
  have hzl := ((i <<< 1) ^^^ (i >>> 63)).toUInt64.toNat_lt
  unfold encodeInt
  split
  · refine twin_emit (tw_bare _ ?_)
    have : (i.toUInt64.toUInt8 &&& 0x0f).toNat < 16 := by rw [and0f]; omega
    rw [Nat.mod_eq_of_lt (by omega), classify_pos this]; rfl
  · split
    · refine twin_emit (tw_bare _ ?_)
      have : (0x10 ||| (i.toUInt64.toUInt8 &&& 0x0f)).toNat < 32 ∧ 16 ≤ (0x10 ||| (i.toUInt64.toUInt8 &&& 0x0f)).toNat := by
        rw [or10]; omega
      rw [Nat.mod_eq_of_lt (by omega), classify_neg this.2 this.1]; rfl
    · split
      · exact twin_emit (tw_num _ _ hlt (by decide))
      · split
        · exact twin_emit (tw_num _ _ hzl (by decide))
        · exact twin_emit (tw_num _ _ hlt (by decide))

theorem tw_text (t : UInt8) (s : Bytes)
    (ht : classify (t.toNat % 128) = .binary ∨ classify (t.toNat % 128) = .strUtf8) :
    TwinLeaf t (varint s.length ++ s) (varint s.length ++ s) P := by
  intro B1 B2 Q i1 i2 b hs _ _ h1 h2 h3 h4 h5
  obtain ⟨v1, w1⟩ := Span.split h4
  obtain ⟨v2, w2⟩ := Span.split h5
  have hlt : s.length < 2 ^ 64 := by
    have h6 := h4.1.length_le
    rw [List.length_drop, List.length_append] at h6
    simp only [maxSize] at hs
    omega
  exact .str h1 h2 (by rw [h3]; exact ht) (Vint.of_span v1 hlt) (Vint.of_span v2 hlt) w1 w2

theorem twin_str (s : Bytes) : TwinEmit (emit (strItem s)) (emit (strItem s)) .item :=
  twin_emit (tw_text _ s (by decide))

theorem twin_bin (s : Bytes) : TwinEmit (emit (binItem s)) (emit (binItem s)) .item := by
  unfold binItem
  split
  · rename_i hl
    refine twin_emit ?_
    intro B1 B2 Q i1 i2 b _ _ _ h1 h2 h3 h4 h5
    refine .short h1 h2 ?_ h4 h5
    have ht := binItem_tag hl
    rw [h3, ht, Nat.mod_eq_of_lt (by omega), classify_shortN hl]
  · exact twin_emit (tw_text _ s (by decide))

theorem twin_float (u : UInt32) : TwinEmit (emit (encodeFloat u)) (emit (encodeFloat u)) .item := by
  refine twin_emit ?_
  intro B1 B2 Q i1 i2 b _ _ _ h1 h2 h3 h4 h5
  exact .float h1 h2 (by rw [h3]; decide) h4 h5 rfl

theorem twin_double (u : UInt64) : TwinEmit (emit (encodeDouble u)) (emit (encodeDouble u)) .item := by
  refine twin_emit ?_
  intro B1 B2 Q i1 i2 b _ _ _ h1 h2 h3 h4 h5
  exact .double h1 h2 (by rw [h3]; decide) h4 h5 rfl

theorem twin_fail (e : Exn) (job : TwinJob) : TwinEmit (E.fail e) (E.fail e) job := by
  intro b1 b2 P s1 s2 _; exact rfl

theorem wtwin_refn {x1 x2 : E Unit} (h : TwinEmit x1 x2 .item) :
    TwinEmit (emit [typeREFN] >>= fun _ => x1) (emit [typeREFN] >>= fun _ => x2) .item :=
  twin_under h (fun _ _ _ _ _ _ _ _ _ _ _ h1 h2 h3 _ _ h6 => .refn h1 h2 (by rw [h3]; decide) h6)

theorem twin_weaken {x1 x2 : E Unit} (h : TwinEmit x1 x2 .item) :
    TwinEmit (emit [typeWEAKEN] >>= fun _ => x1) (emit [typeWEAKEN] >>= fun _ => x2) .item :=
  twin_under h (fun _ _ _ _ _ _ _ _ _ _ _ h1 h2 h3 _ _ h6 => .weaken h1 h2 (by rw [h3]; decide) h6)

theorem twin_opt (b : Bool) {x1 x2 : E Unit} (h : TwinEmit x1 x2 .item) :
    TwinEmit (if b then (emit [typeREFN] >>= fun _ => x1) else x1)
      (if b then (emit [typeREFN] >>= fun _ => x2) else x2) .item := by
  cases b with
  | true => exact wtwin_refn h
  | false => exact h

/-- Sequencing. -/
theorem WroteTwin.then {job job1 job2 : TwinJob} {P1 : List (Nat × Nat)} {u1 u2 : EState}
    (h1 : WroteTwin b1 b2 job1 P s1 s2 P1 t1 t2) (h2 : WroteTwin b1 b2 job2 P1 t1 t2 P' u1 u2) (hj : job ≠ .item)
    (hc : ∀ (B1 B2 : Bytes) (Q Q1 Q' : List (Nat × Nat)) (i1 i2 k1 k2 j1 j2 : Nat),
      Twin B1 B2 job1 Q i1 i2 k1 k2 Q1 → Twin B1 B2 job2 Q1 k1 k2 j1 j2 Q' → Twin B1 B2 job Q i1 i2 j1 j2 Q') :
    WroteTwin b1 b2 job P s1 s2 P' u1 u2 where
  inv := h2.inv
  back B1 B2 hr := h1.back B1 B2 (h2.back B1 B2 hr)
  sub x hx := h2.sub x (h1.sub x hx)
  head he := absurd he hj
  reads B1 B2 hr Q hQ := by
    obtain ⟨Q1, hQ1, ht1⟩ := h1.reads B1 B2 (h2.back B1 B2 hr) Q hQ
    obtain ⟨Q', hQ', ht2⟩ := h2.reads B1 B2 hr Q1 hQ1
    exact ⟨Q', hQ', hc B1 B2 Q Q1 Q' _ _ _ _ _ _ ht1 ht2⟩

theorem twin_elems {r1 r2 : Val → E Unit} (hr : ∀ v, TwinEmit (r1 v) (r2 v) .item) :
    ∀ vs, TwinEmit (encodeElems r1 vs) (encodeElems r2 vs) (.items vs.length)
  | [] => by
    intro b1 b2 P s1 s2 h
    exact ⟨P, h, fun _ _ hr => hr, fun _ hx => hx, fun he => (by cases he), fun B1 B2 _ Q hQ => ⟨Q, hQ, .itemsNil⟩⟩
  | v :: vs => by
    intro b1 b2 P s1 s2 h
    refine BothEmit.bind (hr v b1 b2 P s1 s2 h) ?_
    rintro t1 t2 ⟨P1, h1⟩
    refine (twin_elems hr vs b1 b2 P1 t1 t2 h1.inv).imp ?_
    rintro u1 u2 ⟨P', h2⟩
    exact ⟨P', h1.then h2 (by simp) (fun _ _ _ _ _ _ _ _ _ _ _ a b => .itemsCons a b)⟩

/-- One entry of a hash. -/
theorem WroteTwin.entry {k : Bytes} {n : Nat} {P1 : List (Nat × Nat)} {u1 u2 v1 v2 : EState}
    (hk : WroteKey b1 b2 k P s1 s2 t1 t2) (h1 : WroteTwin b1 b2 .item P t1 t2 P1 u1 u2)
    (h2 : WroteTwin b1 b2 (.pairs n) P1 u1 u2 P' v1 v2) : WroteTwin b1 b2 (.pairs (n + 1)) P s1 s2 P' v1 v2 where
  inv := h2.inv
  back B1 B2 hr := hk.back B1 B2 (h1.back B1 B2 (h2.back B1 B2 hr))
  sub x hx := h2.sub x (h1.sub x hx)
  head he := by cases he
  reads B1 B2 hr Q hQ := by
    have hr1 := h2.back B1 B2 hr
    have hr0 := h1.back B1 B2 hr1
    obtain ⟨Q1, hQ1, ht1⟩ := h1.reads B1 B2 hr1 Q hQ
    obtain ⟨Q', hQ', ht2⟩ := h2.reads B1 B2 hr Q1 hQ1
    obtain ⟨k1, k2⟩ := hk.reads B1 B2 hr0
    exact ⟨Q', hQ', .pairsCons k1 k2 ht1 ht2⟩

theorem WroteTwin.noPairs (h : EPair b1 b2 P s1 s2) : WroteTwin b1 b2 (.pairs 0) P s1 s2 P s1 s2 :=
  ⟨h, fun _ _ hr => hr, fun _ hx => hx, fun he => (by cases he), fun _ _ _ Q hQ => ⟨Q, hQ, .pairsNil⟩⟩

theorem twin_pairs {r1 r2 : Val → E Unit} (hr : ∀ v, TwinEmit (r1 v) (r2 v) .item) {k1 k2 : Bytes → E Unit}
    (hk : ∀ k, TwinKey (k1 k) (k2 k) k) (kvs : List (Bytes × Val)) :
    ∀ ks, TwinEmit (encodePairs k1 r1 kvs ks) (encodePairs k2 r2 kvs ks) (.pairs ks.length)
  | [] => by
    intro b1 b2 P s1 s2 h
    exact ⟨P, WroteTwin.noPairs h⟩
  | k :: ks => by
    intro b1 b2 P s1 s2 h
    refine BothEmit.bind (hk k b1 b2 P s1 s2 h) (fun t1 t2 h0 => ?_)
    refine BothEmit.bind (hr _ b1 b2 P t1 t2 h0.inv) ?_
    rintro u1 u2 ⟨P1, h1⟩
    refine (twin_pairs hr hk kvs ks b1 b2 P1 u1 u2 h1.inv).imp ?_
    rintro v1 v2 ⟨P', h2⟩
    exact ⟨P', WroteTwin.entry h0 h1 h2⟩

theorem twin_fields {c1 c2 : ECfg} {r1 r2 : Val → E Unit} (hr : ∀ v, TwinEmit (r1 v) (r2 v) .item)
    (tags : List (Bytes × Field)) :
    ∀ ks, (∀ k ∈ ks, k ∈ tags.map Prod.fst) →
      TwinEmit (encodeFields c1 r1 tags ks) (encodeFields c2 r2 tags ks) (.pairs ks.length)
  | [], _ => by
    intro b1 b2 P s1 s2 h
    exact ⟨P, WroteTwin.noPairs h⟩
  | k :: ks, hks => by
    intro b1 b2 P s1 s2 h
    obtain ⟨f, hf⟩ := Option.isSome_iff_exists.1 ((mapLookup_isSome k tags).2 (hks k (by simp)))
    unfold encodeFields
    refine BothEmit.bind (twinKey_string c1 c2 k true b1 b2 P s1 s2 h) (fun t1 t2 h0 => ?_)
    rw [hf]
    dsimp only
    cases hex : f.exported with
    | false => exact rfl
    | true =>
      refine BothEmit.bind (hr _ b1 b2 P t1 t2 h0.inv) ?_
      rintro u1 u2 ⟨P1, h1⟩
      refine (twin_fields hr tags ks (fun k hk => hks k (by simp [hk])) b1 b2 P1 u1 u2 h1.inv).imp ?_
      rintro v1 v2 ⟨P', h2⟩
      exact ⟨P', WroteTwin.entry h0 h1 h2⟩

theorem EPair.visit (h : EPair b1 b2 P s1 s2) :
    EPair b1 b2 P { s1 with visits := s1.visits + 1 } { s2 with visits := s2.visits + 1 } :=
  ⟨⟨h.side1.base_le, h.side1.heads, h.side1.strs⟩, ⟨h.side2.base_le, h.side2.heads, h.side2.strs⟩,
    by dsimp only; rw [h.visits], h.ptrs, h.same, h.inj⟩

/-- Both runs range over the keys in the same order. -/
theorem twin_range {c1 c2 : ECfg} (ha : ECfg.Akin c1 c2) (hord : ∀ n ks, (c1.ord n ks).Perm ks) {ks : List Bytes}
    {f1 f2 : List Bytes → E Unit} (hf : ∀ ks', ks'.Perm ks → TwinEmit (f1 ks') (f2 ks') (.pairs ks'.length)) :
    TwinEmit (rangeKeys c1 ks >>= f1) (rangeKeys c2 ks >>= f2) (.pairs ks.length) := by
  intro b1 b2 P s1 s2 h
  have hp := hord s1.visits ks
  have := hf _ hp b1 b2 P _ _ h.visit
  rw [hp.length_eq] at this
  show BothEmit _ (f1 (c1.ord s1.visits ks) { s1 with visits := s1.visits + 1 })
    (f2 (c2.ord s2.visits ks) { s2 with visits := s2.visits + 1 })
  rw [← ha.ord, ← h.visits]
  rw [← h.visits] at this
  refine this.imp ?_
  rintro t1 t2 ⟨P', hw⟩
  exact ⟨P', hw.inv, fun B1 B2 hr => let r := hw.back B1 B2 hr; ⟨r.g1, r.g2, r.same⟩, hw.sub, hw.head, hw.reads⟩

theorem twin_hash_item {n : Nat} {x1 x2 : E Unit} (h : TwinEmit x1 x2 (.pairs n)) :
    TwinEmit (emit (typeHASH :: varint n) >>= fun _ => x1) (emit (typeHASH :: varint n) >>= fun _ => x2) .item := by
  refine twin_under h (fun B1 B2 Q Q' i1 i2 j1 j2 b hs _ h1 h2 h3 h4 h5 h6 => ?_)
  have hlt : n < 2 ^ 64 := by
    have h7 := h6.lt
    have h8 := h7.2.2.1 (h4.le_length (by have := (List.getElem?_eq_some_iff.1 h1).1; omega))
    simp only [TwinJob.need, maxSize] at h7 hs
    omega
  exact .hash h1 h2 (by rw [h3]; decide) (Vint.of_span h4 hlt) (Vint.of_span h5 hlt) h6

theorem twin_arr {c1 c2 : ECfg} (ha : ECfg.Akin c1 c2) {r1 r2 : Val → E Unit} (hr : ∀ v, TwinEmit (r1 v) (r2 v) .item)
    (vs : List Val) (rn : Bool) : TwinEmit (encodeArr c1 r1 vs rn) (encodeArr c2 r2 vs rn) .item := by
  unfold encodeArr
  rw [← ha.perlCompat]
  refine twin_opt _ (twin_under (twin_elems hr vs) (fun B1 B2 Q Q' i1 i2 j1 j2 b hs _ h1 h2 h3 h4 h5 h6 => ?_))
  have hlt : vs.length < 2 ^ 64 := by
    have h7 := h6.lt
    have h8 := h7.2.2.1 (h4.le_length (by have := (List.getElem?_eq_some_iff.1 h1).1; omega))
    simp only [TwinJob.need, maxSize] at h7 hs
    omega
  exact .array h1 h2 (by rw [h3]; decide) (Vint.of_span h4 hlt) (Vint.of_span h5 hlt) h6

theorem twin_mp {c1 c2 : ECfg} (ha : ECfg.Akin c1 c2) (hord : ∀ n ks, (c1.ord n ks).Perm ks) {r1 r2 : Val → E Unit}
    (hr : ∀ v, TwinEmit (r1 v) (r2 v) .item) (kvs : List (Bytes × Val)) (rn b : Bool) :
    TwinEmit (encodeMp c1 r1 kvs rn b) (encodeMp c2 r2 kvs rn b) .item := by
  unfold encodeMp
  rw [← ha.perlCompat]
  refine twin_opt _ (twin_hash_item ?_)
  have := twin_range ha hord (ks := kvs.map (·.1))
    (fun ks' _ => twin_pairs hr (fun k => twinKey_string c1 c2 k b) kvs ks')
  rw [List.length_map] at this
  exact this

/-- A tag, a name and an item. -/
theorem twin_named {t : UInt8} (ht : classify (t.toNat % 128) = .object) {y1 y2 x1 x2 : E Unit} {k : Bytes}
    (hy : TwinKey y1 y2 k) (hx : TwinEmit x1 x2 .item) :
    TwinEmit (emit [t] >>= fun _ => y1 >>= fun _ => x1) (emit [t] >>= fun _ => y2 >>= fun _ => x2) .item := by
  intro b1 b2 P s1 s2 h
  refine BothEmit.bind (R := fun t1 t2 => t1 = { s1 with buf := s1.buf ++ [t] } ∧
    t2 = { s2 with buf := s2.buf ++ [t] }) ⟨rfl, rfl⟩ ?_
  rintro _ _ ⟨rfl, rfl⟩
  refine BothEmit.bind (hy _ _ _ _ _ (h.begin t [] [])) (fun t1 t2 hk => ?_)
  refine (hx _ _ _ _ _ hk.inv).imp ?_
  rintro u1 u2 ⟨P', hw⟩
  refine ⟨P', hw.inv, fun B1 B2 hr => (hk.back B1 B2 (hw.back B1 B2 hr)).begin_back,
    fun x hx => hw.sub x (List.mem_cons_of_mem _ hx), fun _ => hw.sub _ List.mem_cons_self, ?_⟩
  intro B1 B2 hr Q hQ
  have hr1 := hw.back B1 B2 hr
  obtain ⟨b, h1, h2, h3, _, _⟩ := (hk.back B1 B2 hr1).begin_read h
  obtain ⟨k1, k2⟩ := hk.reads B1 B2 hr1
  obtain ⟨Q', hQ', htw⟩ := hw.reads B1 B2 hr ((s1.buf.length, s2.buf.length) :: Q) (fun x hx => by
      rcases List.mem_cons.1 hx with rfl | hx
      · exact List.mem_cons_self
      · exact List.mem_cons_of_mem _ (hQ x hx))
  dsimp only at k1 k2
  rw [List.length_append] at k1 k2
  exact ⟨Q', hQ', .object h1 h2 (by rw [h3]; exact ht) k1 k2 htw⟩

theorem twin_regexp {y1 y2 x1 x2 : E Unit} {k m : Bytes} (hy : TwinKey y1 y2 k) (hx : TwinKey x1 x2 m) :
    TwinEmit (emit [typeREGEXP] >>= fun _ => y1 >>= fun _ => x1) (emit [typeREGEXP] >>= fun _ => y2 >>= fun _ => x2) .item := by
  intro b1 b2 P s1 s2 h
  refine BothEmit.bind (R := fun t1 t2 => t1 = { s1 with buf := s1.buf ++ [typeREGEXP] } ∧
    t2 = { s2 with buf := s2.buf ++ [typeREGEXP] }) ⟨rfl, rfl⟩ ?_
  rintro _ _ ⟨rfl, rfl⟩
  refine BothEmit.bind (hy _ _ _ _ _ (h.begin typeREGEXP [] [])) (fun t1 t2 hk => ?_)
  refine (hx _ _ _ _ _ hk.inv).imp ?_
  intro u1 u2 hw
  refine ⟨_, hw.inv, fun B1 B2 hr => (hk.back B1 B2 (hw.back B1 B2 hr)).begin_back,
    fun x hx => List.mem_cons_of_mem _ hx, fun _ => List.mem_cons_self, ?_⟩
  intro B1 B2 hr Q hQ
  have hr1 := hw.back B1 B2 hr
  obtain ⟨b, h1, h2, h3, _, _⟩ := (hk.back B1 B2 hr1).begin_read h
  obtain ⟨k1, k2⟩ := hk.reads B1 B2 hr1
  obtain ⟨m1, m2⟩ := hw.reads B1 B2 hr
  dsimp only at k1 k2
  rw [List.length_append] at k1 k2
  refine ⟨(s1.buf.length, s2.buf.length) :: Q, fun x hx => ?_, .regexp h1 h2 (by rw [h3]; decide) k1 k2 m1 m2⟩
  rcases List.mem_cons.1 hx with rfl | hx
  · exact List.mem_cons_self
  · exact List.mem_cons_of_mem _ (hQ x hx)

theorem twin_strct {c1 c2 : ECfg} (ha : ECfg.Akin c1 c2) (hord : ∀ n ks, (c1.ord n ks).Perm ks) {r1 r2 : Val → E Unit}
    (hr : ∀ v, TwinEmit (r1 v) (r2 v) .item) (name : Bytes) (fs : List Field) :
    TwinEmit (encodeStrct c1 r1 name fs) (encodeStrct c2 r2 name fs) .item := by
  unfold encodeStrct
  rw [← ha.perlCompat]
  refine twin_named (by decide) (twinKey_bytes c1 c2 name true) (twin_opt _ (twin_hash_item ?_))
  have := twin_range ha hord (ks := (structTags fs []).map (·.1))
    (fun ks' hp => twin_fields (c1 := c1) (c2 := c2) hr (structTags fs []) ks' (fun k hk => hp.mem_iff.1 hk))
  rw [List.length_map] at this
  exact this

/-- A string as an item inside a frozen object. -/
theorem twin_of_binItem {B1 B2 : Bytes} {Q : List (Nat × Nat)} {s : Bytes} {i1 i2 j1 j2 : Nat} (hs : B1.length ≤ maxSize)
    (h1 : Span B1 i1 (binItem s) j1) (h2 : Span B2 i2 (binItem s) j2) :
    Twin B1 B2 .item Q i1 i2 j1 j2 ((i1, i2) :: Q) := by
  unfold binItem at h1 h2
  by_cases hl : s.length < 32
  · rw [if_pos hl] at h1 h2
    obtain ⟨h3, h4⟩ := Span.head h1
    obtain ⟨h5, h6⟩ := Span.head h2
    have ht := binItem_tag hl
    exact .short h3 h5 (by rw [ht, Nat.mod_eq_of_lt (by omega), classify_shortN hl]) h4 h6
  · rw [if_neg hl] at h1 h2
    obtain ⟨h3, h4⟩ := Span.head h1
    obtain ⟨h5, h6⟩ := Span.head h2
    obtain ⟨v1, w1⟩ := Span.split (s := varint s.length) (t := s) h4
    obtain ⟨v2, w2⟩ := Span.split (s := varint s.length) (t := s) h6
    have hlt : s.length < 2 ^ 64 := by
      have h7 := w1.1.length_le
      rw [List.length_drop] at h7
      simp only [maxSize] at hs
      omega
    exact .str h3 h5 (by decide) (Vint.of_span v1 hlt) (Vint.of_span v2 hlt) w1 w2

/-- A frozen object. -/
theorem twin_frz {c1 c2 : ECfg} {y1 y2 : E Unit} {k data : Bytes} (hy : TwinKey y1 y2 k) :
    TwinEmit
      (emit [typeOBJECT_FREEZE] >>= fun _ => y1 >>= fun _ => emit [typeREFN] >>= fun _ =>
        emit (typeARRAY :: varint 1) >>= fun _ => encodeBytes c1 data false)
      (emit [typeOBJECT_FREEZE] >>= fun _ => y2 >>= fun _ => emit [typeREFN] >>= fun _ =>
        emit (typeARRAY :: varint 1) >>= fun _ => encodeBytes c2 data false) .item := by
  intro b1 b2 P s1 s2 h
  refine BothEmit.bind (R := fun t1 t2 => t1 = { s1 with buf := s1.buf ++ [typeOBJECT_FREEZE] } ∧
    t2 = { s2 with buf := s2.buf ++ [typeOBJECT_FREEZE] }) ⟨rfl, rfl⟩ ?_
  rintro _ _ ⟨rfl, rfl⟩
  refine BothEmit.bind (hy _ _ _ _ _ (h.begin typeOBJECT_FREEZE [] [])) (fun t1 t2 hk => ?_)
  rw [encodeBytes_false, encodeBytes_false]
  have e : ∀ t : EState, (emit [typeREFN] >>= fun _ => emit (typeARRAY :: varint 1) >>= fun _ => emit (binItem data)) t =
      .ok ((), { t with buf := t.buf ++ ([0x28, 0x2b] ++ (varint 1 ++ binItem data)) }) := by
    intro t
    show Except.ok ((), { t with buf := ((t.buf ++ [typeREFN]) ++ (typeARRAY :: varint 1)) ++ binItem data }) = _
    simp only [List.append_assoc]
    rfl
  rw [e, e]
  generalize hw : [0x28, 0x2b] ++ (varint 1 ++ binItem data) = w
  refine ⟨_, hk.inv.more w w, fun B1 B2 hr => (hk.back B1 B2 hr.more_back).begin_back,
    fun x hx => List.mem_cons_of_mem _ hx, fun _ => List.mem_cons_self, ?_⟩
  intro B1 B2 hr Q hQ
  have hr1 : Ripe b1 b2 _ t1 t2 B1 B2 := hr.more_back
  obtain ⟨b, h1, h2, h3, _, _⟩ := (hk.back B1 B2 hr1).begin_read h
  obtain ⟨k1, k2⟩ := hk.reads B1 B2 hr1
  dsimp only at k1 k2
  rw [List.length_append] at k1 k2
  have sp1 : Span B1 t1.buf.length w (t1.buf.length + w.length) := by
    refine hr.g1.span ⟨by rw [List.drop_left]; exact List.prefix_refl _, rfl⟩ hk.inv.side1.base_le
      (fun x hx _ hX => by have := (hk.inv.side1.heads x hX).2; omega)
  have sp2 : Span B2 t2.buf.length w (t2.buf.length + w.length) := by
    refine hr.g2.span ⟨by rw [List.drop_left]; exact List.prefix_refl _, rfl⟩ hk.inv.side2.base_le
      (fun x hx _ hX => by have := (hk.inv.side2.heads x hX).2; omega)
  dsimp only
  rw [List.length_append, List.length_append]
  generalize t1.buf.length + w.length = j1 at sp1
  generalize t2.buf.length + w.length = j2 at sp2
  subst hw
  obtain ⟨a1, c1⟩ := Span.split sp1
  obtain ⟨a2, c2⟩ := Span.split sp2
  obtain ⟨d1, e1⟩ := Span.head a1
  obtain ⟨d2, e2⟩ := Span.head a2
  obtain ⟨d1', _⟩ := Span.head e1
  obtain ⟨d2', _⟩ := Span.head e2
  obtain ⟨v1, x1⟩ := Span.split c1
  obtain ⟨v2, x2⟩ := Span.split c2
  refine ⟨_, ?_, .freeze h1 h2 (by rw [h3]; decide) k1 k2 a1 a2 (.refn d1 d2 (by decide)
    (.array d1' d2' (by decide) (Vint.of_span v1 (by decide)) (Vint.of_span v2 (by decide))
      (.itemsCons (twin_of_binItem hr.g1.size x1 x2) .itemsNil)))⟩
  intro x hx
  refine List.mem_cons_of_mem _ (List.mem_cons_of_mem _ (List.mem_cons_of_mem _ ?_))
  rcases List.mem_cons.1 hx with rfl | hx
  · exact List.mem_cons_self
  · exact List.mem_cons_of_mem _ (hQ x hx)

/-! ### Pointers -/

theorem u8_flag (b : UInt8) : (b ||| trackFlag).toNat % 128 = b.toNat % 128 := by
  revert b; apply u8_forall; set_option maxRecDepth 8000 in decide

theorem modify_ne {B : Bytes} {o i : Nat} {f : UInt8 → UInt8} (h : o ≠ i) : (B.modify o f)[i]? = B[i]? := by
  rw [List.getElem?_modify]
  simp only [if_neg h]
  cases B[i]? <;> rfl

theorem modify_at {B : Bytes} {o : Nat} {f : UInt8 → UInt8} : (B.modify o f)[o]? = (B[o]?).map f := by
  rw [List.getElem?_modify]
  simp only [if_true]
  rfl

theorem Side.flag {base : Nat} {X : Nat → Prop} {s : EState} (h : Side base X s) {o : Nat} (ho : X o) :
    Side base X { s with buf := s.buf.modify o (· ||| trackFlag) } where
  base_le := by dsimp only; rw [List.length_modify]; exact h.base_le
  heads := by dsimp only; rw [List.length_modify]; exact h.heads
  strs k p hp := by
    obtain ⟨w, h1, h2, h3, h4⟩ := h.strs k p hp
    refine ⟨w, h1, h2, h3.congr (fun x hx hx' => ?_), h4⟩
    dsimp only
    exact modify_ne (fun he => h4 x hx hx' (he ▸ ho))

theorem Grown.unflag {base : Nat} {X : Nat → Prop} {buf B : Bytes} {o : Nat}
    (h : Grown base X (buf.modify o (· ||| trackFlag)) B) (ho : X o) : Grown base X buf B where
  size := h.size
  len := by have := h.len; rw [List.length_modify] at this; exact this
  body i hb hi hX := by
    rw [h.body i hb (by rw [List.length_modify]; exact hi) hX]
    exact modify_ne (fun he => hX (he ▸ ho))
  heads i b hX hi := by
    by_cases he : o = i
    · obtain ⟨c, h1, h2⟩ := h.heads i (b ||| trackFlag) hX (by rw [he, modify_at, hi]; rfl)
      exact ⟨c, h1, by rw [h2, u8_flag]⟩
    · exact h.heads i b hX (by rw [modify_ne he, hi])

theorem EPair.flag (h : EPair b1 b2 P s1 s2) {o1 o2 : Nat} (ho : (o1, o2) ∈ P) :
    EPair b1 b2 P { s1 with buf := s1.buf.modify o1 (· ||| trackFlag) }
      { s2 with buf := s2.buf.modify o2 (· ||| trackFlag) } where
  side1 := h.side1.flag ⟨o2, ho⟩
  side2 := h.side2.flag ⟨o1, ho⟩
  visits := h.visits
  ptrs := h.ptrs
  same p1 p2 hp := by
    dsimp only
    have := h.inj o1 o2 p1 p2 ho hp
    by_cases he : o1 = p1
    · rw [← he, ← this.1 he, modify_at, modify_at, h.same o1 o2 ho]
    · rw [modify_ne he, modify_ne (fun h => he (this.2 h)), h.same p1 p2 hp]
  inj := h.inj

/-- A reference to an item written before. -/
theorem wtwin_refp (h : EPair b1 b2 P s1 s2) {o1 o2 : Nat} (ho : (o1, o2) ∈ P) :
    BothEmit (fun t1 t2 => ∃ P', WroteTwin b1 b2 .item P s1 s2 P' t1 t2)
      ((emit (typeREFP :: varint o1) >>= fun _ => setTrackFlag o1) s1)
      ((emit (typeREFP :: varint o2) >>= fun _ => setTrackFlag o2) s2) := by
  refine BothEmit.bind (R := fun t1 t2 => t1 = { s1 with buf := s1.buf ++ typeREFP :: varint o1 } ∧
    t2 = { s2 with buf := s2.buf ++ typeREFP :: varint o2 }) ⟨rfl, rfl⟩ ?_
  rintro _ _ ⟨rfl, rfl⟩
  have l1 := (h.side1.heads o1 ⟨o2, ho⟩).2
  have l2 := (h.side2.heads o2 ⟨o1, ho⟩).2
  unfold setTrackFlag
  rw [if_pos (by dsimp only; rw [List.length_append]; omega), if_pos (by dsimp only; rw [List.length_append]; omega)]
  have hm : (o1, o2) ∈ (s1.buf.length, s2.buf.length) :: P := List.mem_cons_of_mem _ ho
  refine ⟨_, ((h.begin typeREFP (varint o1) (varint o2)).flag hm), fun B1 B2 hr => ?_,
    fun x hx => List.mem_cons_of_mem _ hx, fun _ => List.mem_cons_self, fun B1 B2 hr Q hQ => ?_⟩
  · exact Ripe.begin_back (t := typeREFP) (w1 := varint o1) (w2 := varint o2)
      ⟨hr.g1.unflag ⟨o2, hm⟩, hr.g2.unflag ⟨o1, hm⟩, hr.same⟩
  · have hr0 : Ripe b1 b2 ((s1.buf.length, s2.buf.length) :: P) { s1 with buf := s1.buf ++ typeREFP :: varint o1 }
        { s2 with buf := s2.buf ++ typeREFP :: varint o2 } B1 B2 :=
      ⟨hr.g1.unflag ⟨o2, hm⟩, hr.g2.unflag ⟨o1, hm⟩, hr.same⟩
    obtain ⟨b, h1, h2, h3, h4, h5⟩ := hr0.begin_read h
    refine ⟨(s1.buf.length, s2.buf.length) :: Q, fun x hx => ?_, ?_⟩
    · rcases List.mem_cons.1 hx with rfl | hx
      · exact List.mem_cons_self
      · exact List.mem_cons_of_mem _ (hQ x hx)
    · have q1 := hr.g1.size
      have q2 := hr.g2.size
      have r1 := hr0.g1.len
      have r2 := hr0.g2.len
      simp only [maxSize, List.length_append] at q1 q2 r1 r2
      have e1 : ((s1.buf ++ typeREFP :: varint o1).modify o1 (· ||| trackFlag)).length =
          s1.buf.length + 1 + (varint o1).length := by rw [List.length_modify]; simp; omega
      have e2 : ((s2.buf ++ typeREFP :: varint o2).modify o2 (· ||| trackFlag)).length =
          s2.buf.length + 1 + (varint o2).length := by rw [List.length_modify]; simp; omega
      dsimp only
      rw [e1, e2]
      exact .refp h1 h2 (by rw [h3]; decide) (Vint.of_span h4 (by omega)) (Vint.of_span h5 (by omega)) (hQ _ ho)

theorem EPair.remember (h : EPair b1 b2 P s1 s2) {o1 o2 : Nat} (ho : (o1, o2) ∈ P) (a : Addr) :
    EPair b1 b2 P { s1 with ptrTable := fun a' => if a' = a then some o1 else s1.ptrTable a' }
      { s2 with ptrTable := fun a' => if a' = a then some o2 else s2.ptrTable a' } where
  side1 := ⟨h.side1.base_le, h.side1.heads, h.side1.strs⟩
  side2 := ⟨h.side2.base_le, h.side2.heads, h.side2.strs⟩
  visits := h.visits
  ptrs a' := by
    dsimp only
    by_cases he : a' = a
    · rw [if_pos he, if_pos he]; exact .inr ⟨o1, o2, rfl, rfl, ho⟩
    · rw [if_neg he, if_neg he]; exact h.ptrs a'
  same := h.same
  inj := h.inj

theorem EPair.find (h : EPair b1 b2 P s1 s2) (a p : Addr) :
    (findPtr s1 a p = none ∧ findPtr s2 a p = none) ∨
      ∃ o1 o2, findPtr s1 a p = some o1 ∧ findPtr s2 a p = some o2 ∧ (o1, o2) ∈ P := by
  unfold findPtr
  rcases h.ptrs a with ⟨h1, h2⟩ | ⟨o1, o2, h1, h2, h3⟩
  · rw [h1, h2]
    dsimp only
    split
    · exact h.ptrs p
    · exact .inl ⟨rfl, rfl⟩
  · rw [h1, h2]
    exact .inr ⟨o1, o2, rfl, rfl, h3⟩

theorem twin_ptr {c1 c2 : ECfg} (ha : ECfg.Akin c1 c2) {inp : Heap} {r1 r2 : Val → Bool → E Unit}
    (hr : ∀ v rn, TwinEmit (r1 v rn) (r2 v rn) .item) (iface : Bool) (a : Addr) :
    TwinEmit (encodePtr c1 inp r1 iface a) (encodePtr c2 inp r2 iface a) .item := by
  intro b1 b2 P s1 s2 h
  unfold encodePtr
  dsimp only
  by_cases hp : (!iface && isPerlStruct (inp.cellAt a)) = true
  · rw [if_pos hp, if_pos hp]
    exact hr _ _ b1 b2 P s1 s2 h
  · rw [if_neg hp, if_neg hp]
    have hg : getPointer c2 inp iface a = getPointer c1 inp iface a := by unfold getPointer; rw [ha.dataPtr]
    rw [hg]
    cases hgp : getPointer c1 inp iface a with
    | error e => exact rfl
    | ok p =>
      dsimp only
      show BothEmit _ (E.bind E.get _ s1) (E.bind E.get _ s2)
      unfold E.bind E.get
      dsimp only
      rcases h.find a p with ⟨h1, h2⟩ | ⟨o1, o2, h1, h2, h3⟩
      · rw [h1, h2]
        dsimp only
        refine BothEmit.bind (R := fun t1 t2 => t1 = { s1 with buf := s1.buf ++ [typeREFN] } ∧
          t2 = { s2 with buf := s2.buf ++ [typeREFN] }) ⟨rfl, rfl⟩ ?_
        rintro _ _ ⟨rfl, rfl⟩
        have hb := h.begin typeREFN [] []
        refine BothEmit.bind (R := fun t1 t2 =>
          t1 = { s1 with buf := s1.buf ++ [typeREFN],
                         ptrTable := fun a' => if a' = a then some s1.buf.length else s1.ptrTable a' } ∧
          t2 = { s2 with buf := s2.buf ++ [typeREFN],
                         ptrTable := fun a' => if a' = a then some s2.buf.length else s2.ptrTable a' }) ⟨rfl, rfl⟩ ?_
        rintro _ _ ⟨rfl, rfl⟩
        refine BothEmit.bind (hr _ true b1 b2 _ _ _ (hb.remember List.mem_cons_self a)) ?_
        rintro t1 t2 ⟨P', hw⟩
        have hlen1 : (s1.buf ++ [typeREFN]).length = s1.buf.length + 1 := by simp
        have hlen2 : (s2.buf ++ [typeREFN]).length = s2.buf.length + 1 := by simp
        have hhead : (s1.buf.length + 1, s2.buf.length + 1) ∈ P' := by
          have := hw.head rfl
          dsimp only at this
          rw [hlen1, hlen2] at this
          exact this
        have hdone : WroteTwin b1 b2 .item P s1 s2 P' t1 t2 :=
          WroteTwin.under (t := typeREFN) (w := []) h
            ⟨hw.inv, fun B1 B2 hr => let r := hw.back B1 B2 hr; ⟨r.g1, r.g2, r.same⟩, hw.sub, hw.head, hw.reads⟩
            (fun _ _ _ _ _ _ _ _ _ _ _ h1 h2 h3 _ _ h6 => .refn h1 h2 (by rw [h3]; decide) h6)
        by_cases hne : p ≠ 0
        · rw [if_pos hne, if_pos hne]
          exact ⟨P', hdone.inv.remember hhead p,
            fun B1 B2 hr => hdone.back B1 B2 ⟨hr.g1, hr.g2, hr.same⟩, hdone.sub, hdone.head,
            fun B1 B2 hr => hdone.reads B1 B2 ⟨hr.g1, hr.g2, hr.same⟩⟩
        · rw [if_neg hne, if_neg hne]
          exact ⟨P', hdone⟩
      · rw [h1, h2]
        exact wtwin_refp h h3

/-! ### All values -/

theorem twin_jnum {c1 c2 : ECfg} (ha : ECfg.Akin c1 c2) (s : Bytes) :
    TwinEmit (encodeJsonNumber c1 s false) (encodeJsonNumber c2 s false) .item := by
  unfold encodeJsonNumber
  rw [← ha.parseFloat, encodeString_false, encodeString_false]
  split
  · exact twin_int _ _
  · exact twin_str s
  · split
    · exact twin_double _
    · exact twin_str s

theorem twin_nilptr : TwinEmit (emit [typeREFN, typeUNDEF]) (emit [typeREFN, typeUNDEF]) .item := by
  have := wtwin_refn (twin_emit (tw_bare (P := []) typeUNDEF (by decide)))
  intro b1 b2 P s1 s2 h
  have h1 := this b1 b2 P s1 s2 h
  have e : ∀ s : EState, (emit [typeREFN] >>= fun _ => emit [typeUNDEF]) s = emit [typeREFN, typeUNDEF] s := by
    intro s
    show Except.ok ((), { s with buf := (s.buf ++ [typeREFN]) ++ [typeUNDEF] }) = Except.ok ((), _)
    simp
  rw [e, e] at h1
  exact h1

theorem twin_encodeVal {c1 c2 : ECfg} (ha : ECfg.Akin c1 c2) (hord : ∀ n ks, (c1.ord n ks).Perm ks) {inp : Heap}
    {rec1 rec2 : Option (Val → Bool → Bool → E Unit)}
    (hrec : (rec1 = none ∧ rec2 = none) ∨ ∃ r1 r2, rec1 = some r1 ∧ rec2 = some r2 ∧
      ∀ v rn, TwinEmit (r1 v false rn) (r2 v false rn) .item) :
    ∀ (v : Val) (rn : Bool), TwinEmit (encodeVal c1 inp rec1 v false rn) (encodeVal c2 inp rec2 v false rn) .item := by
  intro v
  induction v with
  | nil => intro rn; exact twin_emit (tw_bare _ (by decide))
  | bool b => intro rn; cases b <;> exact twin_emit (tw_bare _ (by decide))
  | nbool b => intro rn; cases b <;> exact twin_emit (tw_bare _ (by decide))
  | int k i => intro rn; exact twin_int _ _
  | uint k n => intro rn; exact twin_int _ _
  | f32 u => intro rn; exact twin_float u
  | f64 u => intro rn; exact twin_double u
  | nf32 u => intro rn; exact twin_float u
  | nf64 u => intro rn; exact twin_double u
  | jnum s => intro rn; exact twin_jnum ha s
  | str s => intro rn; unfold encodeVal; rw [encodeString_false, encodeString_false]; exact twin_str s
  | nstr s => intro rn; unfold encodeVal; rw [encodeString_false, encodeString_false]; exact twin_str s
  | bin s => intro rn; unfold encodeVal; rw [encodeBytes_false, encodeBytes_false]; exact twin_bin s
  | slice p n =>
    intro rn
    unfold encodeVal
    rcases hrec with ⟨rfl, rfl⟩ | ⟨r1, r2, rfl, rfl, hr⟩
    · exact twin_fail _ _
    · exact twin_arr ha (fun v => hr v false) _ rn
  | rslice p n =>
    intro rn
    unfold encodeVal
    rcases hrec with ⟨rfl, rfl⟩ | ⟨r1, r2, rfl, rfl, hr⟩
    · exact twin_fail _ _
    · exact twin_arr ha (fun v => hr v false) _ rn
  | smap m =>
    intro rn
    unfold encodeVal
    rcases hrec with ⟨rfl, rfl⟩ | ⟨r1, r2, rfl, rfl, hr⟩
    · exact twin_fail _ _
    · exact twin_mp ha hord (fun v => hr v false) _ rn _
  | rmap m =>
    intro rn
    unfold encodeVal
    rcases hrec with ⟨rfl, rfl⟩ | ⟨r1, r2, rfl, rfl, hr⟩
    · exact twin_fail _ _
    · dsimp only
      rw [← ha.perlCompat]
      exact twin_mp ha hord (fun v => hr v false) _ rn _
  | undef b => intro rn; cases b <;> exact twin_emit (tw_bare _ (by decide))
  | obj cls ref ih =>
    intro rn
    exact twin_named (by decide) (twinKey_bytes c1 c2 cls true) (ih false)
  | regexp p m =>
    intro rn
    exact twin_regexp (twinKey_bytes c1 c2 p false) (twinKey_bytes c1 c2 m false)
  | weak ref ih => intro rn; exact twin_weaken (ih false)
  | frozen cls data =>
    intro rn
    unfold encodeVal
    rcases hrec with ⟨rfl, rfl⟩ | ⟨r1, r2, rfl, rfl, hr⟩
    · exact twin_fail _ _
    · exact twin_strct ha hord (fun v => hr v false) _ _
  | thawed cls data => intro rn; exact twin_fail _ _
  | ptr iface a =>
    intro rn
    unfold encodeVal
    rcases hrec with ⟨rfl, rfl⟩ | ⟨r1, r2, rfl, rfl, hr⟩
    · exact twin_fail _ _
    · exact twin_ptr ha hr iface a
  | nilptr =>
    intro rn
    unfold encodeVal
    rcases hrec with ⟨rfl, rfl⟩ | ⟨r1, r2, rfl, rfl, hr⟩
    · exact twin_fail _ _
    · exact twin_nilptr
  | nint k i => intro rn; exact twin_int _ _
  | nuint k n => intro rn; exact twin_fail _ _
  | strct name a =>
    intro rn
    unfold encodeVal
    rcases hrec with ⟨rfl, rfl⟩ | ⟨r1, r2, rfl, rfl, hr⟩
    · exact twin_fail _ _
    · exact twin_strct ha hord (fun v => hr v false) _ _
  | marshaler cls res under ih =>
    intro rn
    unfold encodeVal
    rw [← ha.disableFreeze]
    by_cases hd : c1.disableFreeze = true
    · rw [if_pos hd, if_pos hd]; exact ih rn
    · rw [if_neg hd, if_neg hd]
      cases res with
      | error n => exact twin_fail _ _
      | ok data => exact twin_frz (twinKey_string c1 c2 cls true)
  | unsupported => intro rn; exact twin_fail _ _

theorem twin_encode {c1 c2 : ECfg} (ha : ECfg.Akin c1 c2) (hord : ∀ n ks, (c1.ord n ks).Perm ks) {inp : Heap}
    (d : Nat) (v : Val) (rn : Bool) :
    TwinEmit (encode c1 inp d v false rn) (encode c2 inp d v false rn) .item := by
  induction d using Nat.strongRecOn generalizing v rn with
  | _ d ih =>
    match d with
    | 0 => exact twin_encodeVal ha hord (.inl ⟨rfl, rfl⟩) v rn
    | 1 => exact twin_encodeVal ha hord (.inl ⟨rfl, rfl⟩) v rn
    | d + 2 => exact twin_encodeVal ha hord (.inr ⟨_, _, rfl, rfl, fun v rn => ih (d + 1) (by omega) v rn⟩) v rn

/-- The bodies written for the same value after any two prefixes are twins, behind any prefixes of those
lengths; or both runs fail with the same error. -/
theorem twin_encodeAfter {c1 c2 : ECfg} (ha : ECfg.Akin c1 c2) (hord : ∀ n ks, (c1.ord n ks).Perm ks) {inp : Heap}
    (p1 p2 : Bytes) (v : Val) :
    match encodeAfter c1 inp p1 v, encodeAfter c2 inp p2 v with
    | .ok w1, .ok w2 => ∀ q1 q2 : Bytes, q1.length = p1.length → q2.length = p2.length →
        (q1 ++ w1).length ≤ maxSize → (q2 ++ w2).length ≤ maxSize →
        ∃ j1 j2 P, Twin (q1 ++ w1) (q2 ++ w2) .item [] q1.length q2.length j1 j2 P
    | .error e, .error e' => e = e'
    | _, _ => False := by
  have h0 : EPair p1.length p2.length [] { buf := p1 } { buf := p2 } :=
    ⟨⟨Nat.le_refl _, fun o ⟨_, h⟩ => (by cases h), fun k o h => by cases h⟩,
      ⟨Nat.le_refl _, fun o ⟨_, h⟩ => (by cases h), fun k o h => by cases h⟩, rfl, fun a => .inl ⟨rfl, rfl⟩,
      fun _ _ h => (by cases h), fun _ _ _ _ h => by cases h⟩
  have h := twin_encode ha hord (inp := inp) (remainingRecursion c1.maxRecursionDepth) v false _ _ _ _ _ h0
  unfold encodeAfter
  rw [← ha.maxRecursionDepth]
  cases h1 : encode c1 inp (remainingRecursion c1.maxRecursionDepth) v false false { buf := p1 } with
  | error e =>
    cases h2 : encode c2 inp (remainingRecursion c1.maxRecursionDepth) v false false { buf := p2 } with
    | error e' => rw [h1, h2] at h; exact h
    | ok r => rw [h1, h2] at h; exact absurd h id
  | ok r1 =>
    cases h2 : encode c2 inp (remainingRecursion c1.maxRecursionDepth) v false false { buf := p2 } with
    | error e' => rw [h1, h2] at h; exact absurd h id
    | ok r2 =>
      rw [h1, h2] at h
      obtain ⟨P', hw⟩ := h
      obtain ⟨_, t1⟩ := r1
      obtain ⟨_, t2⟩ := r2
      dsimp only at hw ⊢
      intro q1 q2 hq1 hq2 hl1 hl2
      have grow : ∀ (base : Nat) (X : Nat → Prop) (t : EState) (q : Bytes), Side base X t → q.length = base →
          (q ++ t.buf.drop base).length ≤ maxSize → Grown base X t.buf (q ++ t.buf.drop base) := by
        intro base X t q hs hq hl
        have key : ∀ i, base ≤ i → (q ++ t.buf.drop base)[i]? = t.buf[i]? := by
          intro i hi
          rw [List.getElem?_append_right (by omega), List.getElem?_drop, hq, show base + (i - base) = i by omega]
        have := hs.base_le
        exact ⟨hl, by rw [List.length_append, List.length_drop]; omega, fun i hb _ _ => key i hb,
          fun i b hX hb => ⟨b, by rw [key i (hs.heads i hX).1]; exact hb, rfl⟩⟩
      have g1 := grow _ _ t1 q1 hw.inv.side1 hq1 hl1
      have g2 := grow _ _ t2 q2 hw.inv.side2 hq2 hl2
      have hsame : ∀ o1 o2, (o1, o2) ∈ P' →
          (q1 ++ t1.buf.drop p1.length)[o1]? = (q2 ++ t2.buf.drop p2.length)[o2]? := by
        intro o1 o2 ho
        have a1 := (hw.inv.side1.heads o1 ⟨o2, ho⟩).1
        have a2 := (hw.inv.side2.heads o2 ⟨o1, ho⟩).1
        rw [List.getElem?_append_right (by omega), List.getElem?_drop, hq1, show p1.length + (o1 - p1.length) = o1 by omega,
          List.getElem?_append_right (by omega), List.getElem?_drop, hq2, show p2.length + (o2 - p2.length) = o2 by omega]
        exact hw.inv.same o1 o2 ho
      obtain ⟨Q', _, ht⟩ := hw.reads _ _ ⟨g1, g2, hsame⟩ [] (fun x hx => hx)
      rw [hq1, hq2]
      exact ⟨_, _, Q', ht⟩

end
end Sereal

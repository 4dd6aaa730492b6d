import Verif.Proof.MergeAgain
/-
What the merger makes of portable documents is a portable document.
-/
namespace Sereal

/-! ### The loop -/

theorem Rows.uncons {q : Bool} {D : Bytes} {vs vs' : List Nat} {i j : Nat} (h : Rows q D vs i vs' j) (hij : i < j)
    {b : UInt8} (hb : D[i]? = some b) :
    ∃ k, (q = true → (classify (b.toNat % 128)).carried = true) ∧ Tok D vs i b k ∧
      Rows q D (if q && !(classify (b.toNat % 128)).textual then vs else i :: vs) k vs' j := by
  cases h with
  | nil => omega
  | cons hb' hc ht hr =>
    rw [hb] at hb'
    cases hb'
    exact ⟨_, hc, ht, hr⟩

theorem Rowed.loop {c : MCfg} {dbuf slack : Bytes} {cap : Nat} {y : UInt8} {pre : Bytes} (hlen : dbuf.length < 2 ^ 62)
    (fuel : Nat) {us us' vs : List Nat} {s f : LState} (hs : Rowed pre us vs s)
    (hr : Rows true (y :: dbuf) us (s.didx + 1) us' (dbuf.length + 1))
    (h : mergeLoop c dbuf slack cap fuel s = (.ok (), f)) (hsz : f.mbuf.length < 2 ^ 31) :
    ∃ us vs', Rowed pre us vs' f := by
  induction fuel generalizing us vs s with
  | zero => rw [mergeLoop] at h; split at h <;> cases h <;> exact ⟨us, vs, hs⟩
  | succ fuel ih =>
    rw [mergeLoop] at h
    split at h
    · cases h; exact ⟨us, vs, hs⟩
    · next b hb =>
      split at h
      · cases h; exact ⟨us, vs, hs⟩
      · next top rest hp =>
        split at h
        · cases h
        · next m hm =>
          have hlt := (List.getElem?_eq_some_iff.1 hb).1
          obtain ⟨k, hc, ht, hr'⟩ := hr.uncons (by omega) (b := b) (by simpa using hb)
          obtain ⟨hf, hk⟩ := ht.fine hs hb hlen (hc rfl) hm
          have hle := mergeLoop_len _ _ _ h
          have hml : (s.move cap top rest m).mbuf.length = s.mbuf.length + m.out.length := by
            show (setFlag _ _).length = _
            rw [setFlag_length, List.length_append]
          obtain ⟨vs', hv⟩ := hs.move hf (cap := cap) (top := top) (rest := rest) (by omega)
          refine ih hv ?_ h
          subst hk
          rw [show (s.move cap top rest m).didx + 1 = s.didx + 1 + m.adv by show s.didx + m.adv + 1 = _; omega]
          exact hr'

/-! ### Between calls -/

/-- Between calls: the buffer is a row of portable tokens behind the room for the length. -/
structure MRow (c : MCfg) (s : MState) (vs : List Nat) : Prop where
  ver : c.ver ≤ 3
  head : ∃ tags items, topTags c.topLevel = some tags ∧ s.lenOffset = 6 + tags.length ∧
    s.buf = mergeHead c tags ++ fivePads ++ items
  inited : s.inited = true
  open_ : s.finished = false
  toks : Rows true (s.buf.drop 5) [] s.lenOffset vs (s.buf.length - 5)
  str : ∀ k o, mapLookup k s.strTable = some o → o ∈ vs ∧ o + 1 < s.buf.length - 5

theorem MRow.new {c : MCfg} {s : MState} (h : initMerger c {} = .ok s) : MRow c s [] := by
  have hg := initMerger_new h
  obtain ⟨tags, items, h1, h2, h3⟩ := hg.head
  have hb : s.buf.length = s.lenOffset + 5 ∧ s.strTable = [] := by
    unfold initMerger at h
    dsimp only at h
    rw [if_neg (by decide)] at h
    split at h
    · cases h
    · cases ht : topTags c.topLevel with
      | none => rw [ht] at h; cases h
      | some tags =>
        rw [ht] at h
        cases h
        exact ⟨by show (_ ++ List.replicate 5 typePAD).length = _; rw [List.length_append]; rfl, rfl⟩
  refine ⟨hg.ver, hg.head, hg.inited, hg.open_, ?_, ?_⟩
  · rw [hb.1, show s.lenOffset + 5 - 5 = s.lenOffset by omega]
    exact .nil
  · intro k o h; rw [hb.2] at h; cases h

theorem MRow.len {c : MCfg} {s : MState} {vs : List Nat} (h : MRow c s vs) : s.lenOffset + 5 ≤ s.buf.length := by
  obtain ⟨tags, items, -, h1, h2⟩ := h.head
  rw [h1, h2]
  simp [mergeHead_length, fivePads]

/-- One `Append`. -/
theorem MRow.append {c : MCfg} {s s' : MState} {vs : List Nat} (h : MRow c s vs) {cs : Codecs} {extra : Bytes}
    {cap : Nat} {b body : Bytes} {n : Nat} (hb : mergeBody cs b = .ok body)
    (ha : mergeAppend c cs extra cap b s = (.ok n, s')) {m : Int} {off : Nat}
    (he : expectedElements c body = .ok (m, off)) {y : UInt8} {us : List Nat}
    (hr : Rows true (y :: body) [] (off + 1) us (body.length + 1)) (hlen : body.length < 2 ^ 62)
    (hsz : s'.buf.length < 2 ^ 31) : ∃ vs', MRow c s' vs' := by
  obtain ⟨s0, body', keys, r, h1, h2, h3, h4, h5⟩ := mergeAppend_ok ha
  rw [initMerger_inited h.inited] at h1
  cases h1
  rw [hb] at h3
  cases h3
  obtain ⟨tags, items, t1, t2, t3⟩ := h.head
  unfold mergeItems at h4
  rw [he] at h4
  dsimp only at h4
  split at h4
  · cases h4
  · split at h4
    · next l hl =>
      cases h4
      have hpl : (mergeHead c tags ++ fivePads).length - 5 = s.lenOffset := by
        rw [t2]; simp [mergeHead_length, fivePads]
      obtain ⟨us', vs', hv⟩ := Rowed.loop (pre := mergeHead c tags ++ fivePads) (us := []) (vs := vs) hlen _
        ⟨by rw [t3]; exact List.prefix_append _ _, by simp [fivePads], by rw [hpl]; exact h.toks, h.str,
          (fun o p hop => by cases hop), (fun o ho => by cases ho)⟩ hr hl hsz
      obtain ⟨z, hz⟩ := hv.head
      refine ⟨vs', h.ver, ⟨tags, z, t1, t2, hz.symm⟩, h.inited, h.open_, ?_, hv.str⟩
      have := hv.toks
      rw [hpl] at this
      exact this
    · cases h4

/-! ### The finished document -/

theorem HasBody.raw {doc body : Bytes} {v : Nat} (h : IsDoc doc v 0 [0] [] body) (hv : v = 2 ∨ v = 3) (cs : Codecs) :
    HasBody cs doc body := ⟨v, 0, [0], [], body, none, h, by omega, rfl, rfl⟩

theorem pads_rows {D : Bytes} {vs : List Nat} (n : Nat) {i : Nat}
    (h : ∀ x, i ≤ x → x < i + n → D[x]? = some typePAD) : Rows true D vs i vs (i + n) := by
  induction n generalizing i with
  | zero => exact .nil
  | succ n ih =>
    rw [show i + (n + 1) = i + 1 + n by omega]
    exact .cons (h i (Nat.le_refl _) (by omega)) (fun _ => by decide) (.single (by decide))
      (ih fun x h1 h2 => h x (by omega) (by omega))

/-- `Finish` without compression. -/
theorem MRow.doc {c : MCfg} {s : MState} {vs : List Nat} (h : MRow c s vs) (hv : c.version ≠ 1)
    (hn : s.length ≤ maxSize) {doc : Bytes} (hp : putLength s.buf s.lenOffset s.length = .ok doc)
    (hl : doc.length < 2 ^ 31) (cs : Codecs) : PortableDoc cs doc ∧ FrontDoc cs doc := by
  obtain ⟨tags, items, h1, h2, h3⟩ := h.head
  have hv5 : (varint s.length).length ≤ 5 :=
    varint_length_le (by omega) (by simp only [maxSize] at hn; omega)
  have hsl : s.lenOffset + (varint s.length).length ≤ s.buf.length := by have := h.len; omega
  have hhl := mergeHead_length c tags
  have htake : s.buf.take s.lenOffset = mergeHead c tags := by
    rw [h3, h2, ← hhl, List.append_assoc, List.take_left]
  have hdrop : s.buf.drop (s.lenOffset + (varint s.length).length) =
      fivePads.drop (varint s.length).length ++ items := by
    rw [h3, h2, ← hhl, ← List.drop_drop, List.append_assoc, List.drop_left,
      List.drop_append_of_le_length (by simpa [fivePads] using hv5)]
  have hpl : (fivePads.drop (varint s.length).length).length = 5 - (varint s.length).length := by
    simp [fivePads]
  have hpad : ∀ q ∈ fivePads.drop (varint s.length).length, q = typePAD := by
    intro q hq
    exact List.eq_of_mem_replicate (List.mem_of_mem_drop hq)
  have hbl : s.buf.length = 11 + tags.length + items.length := by
    rw [h3]
    simp [hhl, fivePads]
    omega
  generalize fivePads.drop (varint s.length).length = ps at hdrop hpl hpad
  have hdoc : doc = mergeHead c tags ++ (varint s.length ++ ps ++ items) := by
    unfold putLength at hp
    rw [if_pos hsl, htake, hdrop] at hp
    cases hp
    simp
  subst hdoc
  obtain ⟨hver, hhead⟩ := ver_magic h.ver hv tags
  have hisd : IsDoc (mergeHead c tags ++ (varint s.length ++ ps ++ items)) c.ver 0 [0] []
      (tags ++ (varint s.length ++ ps ++ items)) :=
    ⟨by rw [hhead, List.append_assoc], ⟨by omega, by omega⟩, by omega, (by show (0 : UInt8).toNat < 128; decide),
      by decide, rfl, by omega⟩
  have hbody := HasBody.raw hisd hver cs
  have hlen : (tags ++ (varint s.length ++ ps ++ items)).length + 6 =
      (mergeHead c tags ++ (varint s.length ++ ps ++ items)).length := by
    simp [hhl]; omega
  have hvint : ∀ pre : Bytes, Vint wrtDialect (pre ++ (varint s.length ++ ps ++ items)) pre.length s.length
      (pre.length + (varint s.length).length) := by
    intro pre
    refine Vint.of_span ⟨?_, rfl⟩ (by simp only [maxSize] at hn; omega)
    rw [List.drop_left, List.append_assoc]
    exact List.prefix_append _ _
  have hvp := varint_pos s.length
  have hel : (tags ++ (varint s.length ++ ps ++ items)).length = s.buf.length - 6 := by
    rw [hbl]; simp; omega
  -- the padding behind the length, and the items
  have htail : Rows true (0 :: (tags ++ (varint s.length ++ ps ++ items))) [] (1 + tags.length + (varint s.length).length)
      vs ((tags ++ (varint s.length ++ ps ++ items)).length + 1) := by
    refine Rows.trans (vs' := []) (j := s.lenOffset) ?_ ?_
    · rw [show s.lenOffset = 1 + tags.length + (varint s.length).length + ps.length by omega]
      refine pads_rows _ fun x hx1 hx2 => ?_
      rw [show (0 :: (tags ++ (varint s.length ++ ps ++ items)) : Bytes) =
        ([0] ++ tags ++ varint s.length) ++ (ps ++ items) by simp,
        List.getElem?_append_right (by simp; omega), List.getElem?_append_left (by simp; omega)]
      have hlt : x - ([0] ++ tags ++ varint s.length).length < ps.length := by simp; omega
      rw [List.getElem?_eq_getElem hlt]
      exact congrArg some (hpad _ (List.getElem_mem _))
    · rw [hel, show s.buf.length - 6 + 1 = s.buf.length - 5 by omega]
      have hag : ∀ p, s.lenOffset ≤ p → (0 :: (tags ++ (varint s.length ++ ps ++ items)))[p]? = (s.buf.drop 5)[p]? := by
        intro p hp
        rw [List.getElem?_drop, h3, List.getElem?_append_right (by simp [hhl, fivePads]; omega),
          show (0 :: (tags ++ (varint s.length ++ ps ++ items)) : Bytes) =
          ([0] ++ tags ++ varint s.length ++ ps) ++ items by simp,
          List.getElem?_append_right (by simp; omega)]
        congr 1
        simp [hhl, fivePads]
        omega
      refine h.toks.congr (by simp) (by rw [List.length_cons, hel, List.length_drop]; omega) ?_ ?_
      · intro p hp1 _ _; exact hag p hp1
      · intro p _ hp1 b hb; exact ⟨b, by rw [hag p hp1]; exact hb, rfl⟩
  cases htop : c.topLevel with
  | invalid => rw [htop] at h1; cases h1
  | array =>
    rw [htop] at h1
    cases h1
    have hv1 := hvint [0, typeARRAY]
    refine ⟨⟨_, 0, vs, hbody, by omega, Rows.carried ?_⟩, _, hbody, ?_⟩
    · refine .cons (b := typeARRAY) rfl (fun _ => by decide) (.box (.inl (by decide)) hv1 hn) ?_
      exact htail
    · obtain ⟨v0, vr, hvr⟩ : ∃ v0 vr, varint s.length = v0 :: vr := by
        cases hvx : varint s.length with
        | nil => rw [hvx] at hvp; simp at hvp
        | cons a l => exact ⟨a, l, rfl⟩
      rw [hvr]
      exact ⟨typeARRAY, v0, _, rfl, by decide, by decide, fun h => absurd h (by decide)⟩
  | arrayRef =>
    rw [htop] at h1
    cases h1
    have hv1 := hvint [0, typeREFN, typeARRAY]
    refine ⟨⟨_, 0, vs, hbody, by omega, Rows.carried ?_⟩, _, hbody, ?_⟩
    · refine .cons (b := typeREFN) rfl (fun _ => by decide) (.single (by decide)) ?_
      refine .cons (b := typeARRAY) rfl (fun _ => by decide) (.box (.inl (by decide)) hv1 hn) ?_
      exact htail
    · exact ⟨typeREFN, typeARRAY, _, rfl, by decide, by decide, fun _ => by decide⟩

/-! ### Portable documents are accepted -/

theorem Tok.widen {D : Bytes} {vs vs' : List Nat} {i k : Nat} {b : UInt8} (h : Tok D vs i b k)
    (hv : ∀ x ∈ vs, x ∈ vs') : Tok D vs' i b k := by
  cases h with
  | single h => exact .single h
  | number h hv => exact .number h hv
  | float h h1 => exact .float h h1
  | double h h1 => exact .double h h1
  | long h hv hn h1 => exact .long h hv hn h1
  | short h h1 => exact .short h h1
  | box h hv hn => exact .box h hv hn
  | offset h hvi h1 h2 => exact .offset h hvi (hv _ h1) h2
  | object h hn => exact .object h hn
  | regexp h hn hn' => exact .regexp h hn hn'

theorem Rows.wide {q : Bool} {D : Bytes} {vs us vs' : List Nat} {i j : Nat} (h : Rows q D vs i vs' j)
    (hv : ∀ x ∈ vs, x ∈ us) : ∃ us', Toks D us i us' j := by
  induction h generalizing us with
  | nil => exact ⟨us, .nil⟩
  | @cons vs i b k vs' j hb _ ht _ ih =>
    obtain ⟨us', h⟩ := ih (us := i :: us) (fun x hx => by
      rcases pushed hx with rfl | hx
      · simp
      · simp [hv x hx])
    exact ⟨us', .cons hb (ht.widen hv) h⟩

/-- An untracked tag at the beginning: the first pass finds nothing there. -/
theorem Tok.head_scan {y : UInt8} {dbuf : Bytes} {idx k : Nat} {b : UInt8} (h : Tok (y :: dbuf) [] (idx + 1) b k)
    (hb : dbuf[idx]? = some b) (hlen : dbuf.length < 2 ^ 62) (hn : b.toNat < 128) : Scan dbuf idx [] (k - 1) [] := by
  obtain ⟨o, h1, h2, -⟩ := h.scan hb hlen []
  rw [if_neg (untracked hn)] at h1
  cases o with
  | none => exact h1
  | some x => cases h2 x rfl

theorem portable_merges {c : MCfg} {body : Bytes} {y : UInt8} {vs : List Nat}
    (h : Rows true (y :: body) [] 1 vs (body.length + 1)) (hlen : body.length + 1 < 2 ^ 31)
    (hf : c.keepFlat = true → Front body) :
    ∃ n off, Merges c body n off ∧ Rows true (y :: body) [] (off + 1) vs (body.length + 1) := by
  have mk : ∀ n off : Nat, expectedElements c body = .ok ((n : Int), off) → n ≤ maxUint32 → off ≤ body.length →
      Scan body 0 [] off [] → Rows true (y :: body) [] (off + 1) vs (body.length + 1) →
      ∃ n off, Merges c body n off ∧ Rows true (y :: body) [] (off + 1) vs (body.length + 1) := by
    intro n off h1 h2 h3 h4 h5
    obtain ⟨us, h6⟩ := h5.wide (us := []) (fun x hx => hx)
    exact ⟨n, off, ⟨h1, h2, by omega, h3, h4, y, us, h6⟩, h5⟩
  cases hkf : c.keepFlat with
  | false => exact mk 1 0 (expected_one hkf body) (by decide) (by omega) (.refl _ _ _) h
  | true =>
    obtain ⟨b0, b1, rest, rfl, hb0, hp0, hb1⟩ := hf hkf
    have hE : expectedElements c (b0 :: b1 :: rest) =
        (if c.topLevel = .array ∧ b0 &&& ~~~ trackFlag = typeARRAY then do
          let (ln, sz) ← varintdecode ((b0 :: b1 :: rest).drop 1)
          .ok (ln, sz + 1)
        else if c.topLevel = .arrayRef ∧ b0 &&& ~~~ trackFlag = typeREFN ∧ b1 &&& ~~~ trackFlag = typeARRAY then do
          let (ln, sz) ← varintdecode ((b0 :: b1 :: rest).drop 2)
          .ok (ln, sz + 2)
        else if c.topLevel = .arrayRef ∧ typeARRAYREF_0 ≤ b0 &&& ~~~ trackFlag ∧
            b0 &&& ~~~ trackFlag < typeARRAYREF_0 + 16 then
          .ok ((((b0 &&& ~~~ trackFlag) &&& 0xf).toNat : Int), 1)
        else .ok (1, 0)) := by
      unfold expectedElements
      rw [if_pos hkf]
      rfl
    have e1 : typeARRAY = UInt8.ofNat 0x2b := rfl
    have e2 : typeREFN = UInt8.ofNat 0x28 := rfl
    simp only [e1, e2, untracked_eq (show 0x2b < 128 by omega), untracked_eq (show 0x28 < 128 by omega),
      arrayref_range] at hE
    have hml : ∀ n : Nat, n ≤ maxSize → n ≤ maxUint32 := by intro n hn; simp only [maxSize, maxUint32] at *; omega
    by_cases hA : c.topLevel = .array ∧ b0.toNat % 128 = 0x2b
    · rw [if_pos hA] at hE
      obtain ⟨k, -, ht, hr⟩ := h.uncons (by simp) (b := b0) rfl
      have hsc := ht.head_scan (idx := 0) rfl (by omega) hb0
      have hkl := ht.lt (by simp)
      have hcl : classify (b0.toNat % 128) = .array := by rw [hA.2]; rfl
      rw [hcl] at hr
      cases ht with
      | single h => rw [hcl] at h; cases h
      | number h => rw [hcl] at h; rcases h with h | h <;> cases h
      | float h => rw [hcl] at h; cases h
      | double h => rw [hcl] at h; cases h
      | long h => rw [hcl] at h; rcases h with h | h <;> cases h
      | short h => rw [hcl] at h; cases h
      | offset h => rw [hcl] at h; cases h
      | object h => rw [hcl] at h; rcases h with h | h <;> cases h
      | regexp h => rw [hcl] at h; cases h
      | @box n _ _ hv hn =>
        have hvd := vint_small wrt_mergeable hv (by simp only [maxSize] at hn; omega)
        change varintdecode ((b0 :: b1 :: rest).drop 1) = _ at hvd
        have := hv.lt
        rw [hvd] at hE
        refine mk n (k - 2 + 1) hE (hml n hn) (by simp at hkl ⊢; omega) ?_ ?_
        · rw [show k - 2 + 1 = k - 1 by omega]; exact hsc
        · rw [show k - 2 + 1 + 1 = k by omega]; exact hr
    · rw [if_neg hA] at hE
      by_cases hR : c.topLevel = .arrayRef ∧ b0.toNat % 128 = 0x28 ∧ b1.toNat % 128 = 0x2b
      · rw [if_pos hR] at hE
        obtain ⟨k0, -, ht0, hr0⟩ := h.uncons (by simp) (b := b0) rfl
        have hc0 : classify (b0.toNat % 128) = .refn := by rw [hR.2.1]; rfl
        have hsc0 := ht0.head_scan (idx := 0) rfl (by omega) hb0
        have hk0 : k0 = 2 := by
          cases ht0 with
          | single h => rfl
          | number h => rw [hc0] at h; rcases h with h | h <;> cases h
          | float h => rw [hc0] at h; cases h
          | double h => rw [hc0] at h; cases h
          | long h => rw [hc0] at h; rcases h with h | h <;> cases h
          | short h => rw [hc0] at h; cases h
          | offset h => rw [hc0] at h; cases h
          | object h => rw [hc0] at h; rcases h with h | h <;> cases h
          | regexp h => rw [hc0] at h; cases h
          | box h => rw [hc0] at h; rcases h with h | h <;> cases h
        subst hk0
        rw [hc0] at hr0
        obtain ⟨k, -, ht, hr⟩ := hr0.uncons (by simp) (b := b1) rfl
        have hsc := Tok.head_scan (idx := 1) ht rfl (by omega) (hb1 (by omega)).1
        have hkl := ht.lt (by simp)
        have hcl : classify (b1.toNat % 128) = .array := by rw [hR.2.2]; rfl
        rw [hcl] at hr
        cases ht with
        | single h => rw [hcl] at h; cases h
        | number h => rw [hcl] at h; rcases h with h | h <;> cases h
        | float h => rw [hcl] at h; cases h
        | double h => rw [hcl] at h; cases h
        | long h => rw [hcl] at h; rcases h with h | h <;> cases h
        | short h => rw [hcl] at h; cases h
        | offset h => rw [hcl] at h; cases h
        | object h => rw [hcl] at h; rcases h with h | h <;> cases h
        | regexp h => rw [hcl] at h; cases h
        | @box n _ _ hv hn =>
          have hvd := vint_small wrt_mergeable hv (by simp only [maxSize] at hn; omega)
          change varintdecode ((b0 :: b1 :: rest).drop 2) = _ at hvd
          have := hv.lt
          rw [hvd] at hE
          refine mk n (k - 3 + 2) hE (hml n hn) (by simp at hkl ⊢; omega) ?_ ?_
          · rw [show k - 3 + 2 = k - 1 by omega]; exact hsc0.trans hsc
          · rw [show k - 3 + 2 + 1 = k by omega]; exact hr
      · rw [if_neg hR] at hE
        by_cases hF : c.topLevel = .arrayRef ∧ 64 ≤ b0.toNat % 128 ∧ b0.toNat % 128 < 80
        · rw [if_pos hF] at hE
          obtain ⟨h1, h2⟩ := arrayref_len b0 hF.2
          rw [h2] at hE
          obtain ⟨k, -, ht, hr⟩ := h.uncons (by simp) (b := b0) rfl
          have hsc := ht.head_scan (idx := 0) rfl (by omega) hb0
          have hk : k = 2 := by
            cases ht with
            | single h => rfl
            | number h => rw [h1] at h; rcases h with h | h <;> cases h
            | float h => rw [h1] at h; cases h
            | double h => rw [h1] at h; cases h
            | long h => rw [h1] at h; rcases h with h | h <;> cases h
            | short h => rw [h1] at h; cases h
            | offset h => rw [h1] at h; cases h
            | object h => rw [h1] at h; rcases h with h | h <;> cases h
            | regexp h => rw [h1] at h; cases h
            | box h => rw [h1] at h; rcases h with h | h <;> cases h
          subst hk
          rw [h1] at hr
          exact mk _ 1 hE (by simp only [maxUint32]; omega) (by simp) hsc hr
        · rw [if_neg hF] at hE
          exact mk 1 0 hE (by decide) (by omega) (.refl _ _ _) h

/-! ### Rows of calls -/

/-- `Append` accepts the document, and what it adds is a row again. -/
def Steps (c : MCfg) (cs : Codecs) (b : Bytes) (n : Nat) : Prop :=
  ∃ body off y vs, mergeBody cs b = .ok body ∧ Merges c body n off ∧
    Rows true (y :: body) [] (off + 1) vs (body.length + 1)

theorem PortableDoc.steps {c : MCfg} {cs : Codecs} {b : Bytes} (h : PortableDoc cs b)
    (hf : c.keepFlat = true → FrontDoc cs b) : ∃ n, Steps c cs b n := by
  obtain ⟨body, y, vs, h1, h2, h3⟩ := h
  obtain ⟨n, off, h4, h5⟩ := portable_merges (c := c) h3.rows h2 (fun hk => by
    obtain ⟨body', g1, g2⟩ := hf hk
    have := h1.mergeBody.symm.trans g1.mergeBody
    cases this
    exact g2)
  exact ⟨n, body, off, y, vs, h1.mergeBody, h4, h5⟩

theorem MRow.all {c : MCfg} {cs : Codecs} {ks : List MCall} {ns : List Nat}
    (hh : Each (fun k n => Steps c cs k.doc n) ks ns) {s s' : MState} {vs : List Nat} (hs : MRow c s vs)
    {ns' : List Nat} (h : appendAll c cs ks s = some (ns', s')) (hsz : s'.buf.length < 2 ^ 31) : ∃ vs', MRow c s' vs' := by
  induction hh generalizing s vs ns' with
  | nil => cases h; exact ⟨vs, hs⟩
  | cons hk _ ih =>
    rw [appendAll] at h
    split at h
    · next n s1 h1 =>
      cases h2 : appendAll c cs _ s1 with
      | none => rw [h2] at h; cases h
      | some r =>
        rw [h2] at h
        cases h
        have hle := appendAll_len (mergeAppend_inited h1) h2
        obtain ⟨body, off, y, us, a1, a2, a3⟩ := hk
        obtain ⟨vs', hv⟩ := hs.append a1 h1 a2.expects a3 a2.size (by omega)
        exact ih hv h2
    · cases h

end Sereal

import Verif.Proof.MergeRun
/-
`mergeItems` carries over strings and padding.
-/
namespace Sereal

/-- Dialects the merger can handle: 64-bit varints, COPY only as key or class name. -/
structure Mergeable (d : Dialect) : Prop where
  vint : d.vint = wrtDialect.vint
  strict : d.strictCopy = true

theorem Vint.of_span' {d : Dialect} (hd : Mergeable d) {buf : Bytes} {i j n : Nat} (h : Span buf i (varint n) j)
    (hn : n < 2 ^ 64) : Vint d buf i n j := by
  obtain ⟨v, h1, h2, h3, h4⟩ := Vint.of_span h hn
  exact ⟨v, h1, h2, h3, by rw [hd.vint]; exact h4⟩

/-- A varint of the document, as `varintdecode` reads it. -/
theorem vint_dec {d : Dialect} (hd : Mergeable d) {D : Bytes} {i n j : Nat} (h : Vint d D i n j) :
    varintdecode (D.drop i) = .ok (sgn n, j - i) ∧ n < 2 ^ 64 := by
  obtain ⟨v, h1, h2, ⟨⟨r, hr⟩, h3⟩, h4⟩ := h
  rw [hd.vint] at h4
  change (if groups v < 2 ^ 64 then some (groups v) else none) = some n at h4
  split at h4
  · next hlt =>
    cases h4
    rw [← hr, varintdecode_of_isVarint v r h1 h2, h3, Nat.add_sub_cancel_left]
    exact ⟨rfl, hlt⟩
  · cases h4

theorem vint_small {d : Dialect} (hd : Mergeable d) {D : Bytes} {i n j : Nat} (h : Vint d D i n j)
    (hn : n < 2 ^ 63) : varintdecode (D.drop i) = .ok ((n : Int), j - i) := by
  rw [(vint_dec hd h).1, sgn_small hn]

/-- The stack counter belongs to a container that is not complete. -/
structure Live (top : Nat) : Prop where
  ne : top % 2 ^ 31 ≠ 0
  lt : top < 2 ^ 32

theorem Live.pred {top : Nat} (h : Live top) : (top + 2 ^ 32 - 1) % 2 ^ 32 = top - 1 := by
  have h1 := h.ne
  have h2 := h.lt
  have : top ≠ 0 := by rintro rfl; simp at h1
  rw [show top + 2 ^ 32 - 1 = top - 1 + 2 ^ 32 by omega, Nat.add_mod_right, Nat.mod_eq_of_lt (by omega)]

section
variable {c : MCfg} {dbuf slack : Bytes} {cap : Nat} {d : Dialect} {base : Nat} {y : UInt8} {f : LState}

/-- A string or a COPY cannot start with another tag. -/
theorem not_strish {D : Bytes} {i : Nat} {b : UInt8} (hb : D[i]? = some b) (hp : b.toNat % 128 ≠ 0x3f)
    (h1 : classify (b.toNat % 128) ≠ .binary) (h2 : classify (b.toNat % 128) ≠ .strUtf8)
    (h3 : ∀ n, classify (b.toNat % 128) ≠ .short n) (h4 : classify (b.toNat % 128) ≠ .copy) {k : Bytes} {e : Nat}
    (h : Strish d D false i k e) : False := by
  have key : ∀ {k' b'}, TagAt D i k' b' → b' = b := fun ht => (ht.unique (.here' hb hp)).2
  cases h with
  | lit h =>
    cases h with
    | long ht hc => rw [key ht] at hc; rcases hc with hc | hc <;> contradiction
    | short ht hc => rw [key ht] at hc; exact h3 _ hc
  | copy _ ht hc => rw [key ht] at hc; exact h4 hc

/-- A tag that is no string, copied as it is. -/
theorem MInv.other {s : LState} (h : MInv d base (y :: dbuf) s) {b : UInt8} (hb : dbuf[s.didx]? = some b)
    (hc : b.toNat % 128 = 0x3f ∨ classify (b.toNat % 128) ≠ .binary ∧ classify (b.toNat % 128) ≠ .strUtf8 ∧
      (∀ n, classify (b.toNat % 128) ≠ .short n) ∧ classify (b.toNat % 128) ≠ .copy)
    {top : Nat} {rest : List Nat} {m : Moved} (hf : m.flip = none) (hs : m.strTable = s.strTable)
    (ho : m.objTable = s.objTable) : MInv d base (y :: dbuf) (s.move cap top rest m) := by
  have hD : (y :: dbuf)[s.didx + 1]? = some b := by simpa using hb
  refine h.move hf ?_ ?_ ?_
  · intro k o hk; rw [hs] at hk; exact (h.str k o hk).mono (List.prefix_append _ _)
  · intro k o hk; rw [ho] at hk; exact (h.obj k o hk).mono (List.prefix_append _ _)
  · intro hnp
    rcases hc with hc | ⟨h1, h2, h3, h4⟩
    · exact absurd hc (hnp b hD)
    · exact ⟨fun k e hl => (not_strish hD (hnp b hD) h1 h2 h3 h4 (.lit hl)).elim,
        fun k e hl => (not_strish hD (hnp b hD) h1 h2 h3 h4 hl).elim⟩

theorem pad_class {b : UInt8} (h : b.toNat % 128 = 0x3f) : classify (b.toNat % 128) = .pad := by
  rw [h]; rfl

/-- Padding is carried over. -/
theorem pads {top : Nat} {rest : List Nat} (ht : top % 2 ^ 31 ≠ 0) {k : Nat} {b : UInt8} (n : Nat) :
    ∀ (i : Nat) (s : LState), i + n = k → TagAt (y :: dbuf) i k b → s.didx + 1 = i → s.stack = top :: rest →
    MInv d base (y :: dbuf) s → Runs c dbuf slack cap s f →
    ∃ s1 ps, Runs c dbuf slack cap s1 f ∧ s1.didx + 1 = k ∧ s1.stack = top :: rest ∧
      MInv d base (y :: dbuf) s1 ∧ s1.mbuf = s.mbuf ++ ps ∧ (∀ p ∈ ps, p.toNat % 128 = 0x3f) ∧
      (i = k → s1 = s) := by
  induction n with
  | zero =>
    intro i s hik hta hd hst hI hr
    exact ⟨s, [], hr, by omega, hst, hI, by simp, by simp, fun _ => rfl⟩
  | succ n ih =>
    intro i s hik hta hd hst hI hr
    obtain ⟨p, hp, hpp⟩ := hta.2.1 i (Nat.le_refl _) (by omega)
    have hb : dbuf[s.didx]? = some p := by rw [← hd] at hp; simpa using hp
    obtain ⟨m, hm, hr1⟩ := hr.step hb hst ht
    rw [mergeTag_eq _ _ _ _ _ (by rw [pad_class hpp]; simp), pad_class hpp] at hm
    simp only [mergeC] at hm
    cases hm
    obtain ⟨s1, ps, h1, h2, h3, h4, h5, h6, h7⟩ := ih (i + 1) _ (by omega)
      ⟨by omega, fun x hx hx' => hta.2.1 x (by omega) hx', hta.2.2⟩ (by
        show s.didx + 1 + 1 = i + 1
        omega) rfl (hI.other hb (.inl hpp) rfl rfl rfl) hr1
    refine ⟨s1, p :: ps, h1, h2, h3, h4, ?_, ?_, fun h => by omega⟩
    · rw [h5]
      show s.mbuf ++ [p] ++ ps = _
      simp
    · intro q hq
      rcases List.mem_cons.1 hq with rfl | hq
      · exact hpp
      · exact h6 q hq

/-- Padding, then a tag, in the finished document. -/
theorem Agr.tag {F m ps m' : Bytes} {b : UInt8} (h : Agr base F m') (hm : m ++ ps <+: m')
    (hb : base + 5 ≤ m.length) (hps : ∀ p ∈ ps, p.toNat % 128 = 0x3f)
    (ht : TagAt F ((m ++ ps).length - 5) ((m ++ ps).length - 5) b) :
    TagAt F (m.length - 5) ((m ++ ps).length - 5) b := by
  rw [List.length_append] at ht ⊢
  refine ⟨by omega, fun x h1 h2 => ?_, ht.2.2⟩
  have hx : x - (m.length - 5) < ps.length := by omega
  refine ⟨ps[x - (m.length - 5)], ?_, hps _ (List.getElem_mem _)⟩
  refine (h.mono hm) _ _ (by omega) ?_
  rw [List.getElem?_append_right (by omega), show 5 + x - m.length = x - (m.length - 5) by omega,
    List.getElem?_eq_getElem hx]

/-- A literal copied as it is. -/
theorem LitAt.copied {D : Bytes} {i e : Nat} {k : Bytes} (h : Lit d D i k e) (hp : NotPad D i) {m : Bytes}
    (hb : base + 5 ≤ m.length) : LitAt d base (m ++ (D.drop i).take (e - i)) (m.length - 5) k := by
  have hlt := h.lt
  have hl : ((D.drop i).take (e - i)).length = e - i := by
    rw [List.length_take, List.length_drop]; omega
  refine ⟨by rw [List.length_append, hl]; omega, fun F hF => ?_⟩
  obtain ⟨h1, h2⟩ := (hF.win hb hlt.2).lit h hp
  exact ⟨⟨_, h1, by rw [List.length_append, hl]; omega⟩, h2⟩

/-- A COPY of a literal, in the finished document. -/
theorem StrAt.copied (hd : Mergeable d) {b : UInt8} (hc : classify (b.toNat % 128) = .copy) {m : Bytes} {o : Nat}
    {k : Bytes} (h : LitAt d base m o k) (hb : base + 5 ≤ m.length) (hm : m.length < 2 ^ 63) :
    (∀ F, Agr base F (m ++ tagVarint b o) →
      Strish d F false (m.length - 5) k (m.length - 5 + (tagVarint b o).length)) ∧
    StrAt d base (m ++ tagVarint b o) (m.length - 5) k := by
  have hp : b.toNat % 128 ≠ 0x3f := by intro h; rw [h] at hc; cases hc
  have key : ∀ F, Agr base F (m ++ tagVarint b o) →
      Strish d F false (m.length - 5) k (m.length - 5 + (tagVarint b o).length) ∧ NotPad F (m.length - 5) := by
    intro F hF
    obtain ⟨h1, h2⟩ := Span.head (hF.span hb)
    obtain ⟨⟨e, h3, h4⟩, h5⟩ := h.2 F (hF.mono (List.prefix_append _ _))
    have ho := h.1
    refine ⟨.copy (.inl rfl) (.here' h1 hp) hc (Vint.of_span' hd h2 (by omega)) (by omega) h3
      (fun _ => ⟨by omega, h5⟩), ?_⟩
    intro q hq
    rw [h1] at hq
    cases hq
    exact hp
  refine ⟨fun F hF => (key F hF).1, ?_, fun F hF => ⟨⟨_, (key F hF).1⟩, (key F hF).2⟩⟩
  rw [List.length_append]
  simp [tagVarint]
  omega

theorem mergeString_ok {s : LState} {dedup : Bool} {ln : Int} {sz : Nat} {m : Moved}
    (h : mergeString s dbuf dedup ln sz = .ok m) :
    0 ≤ ln ∧ s.didx + (sz + ln.toNat + 1) ≤ dbuf.length := by
  unfold mergeString at h
  split at h
  · cases h
  · dsimp only at h
    split at h
    · cases h
    · omega

/-- What `mergeString` does with a literal. -/
theorem mergeString_lit {s : LState} {dedup : Bool} {k : Bytes} {e : Nat} {sz : Nat} {m : Moved}
    (hI : MInv d base (y :: dbuf) s)
    (h : mergeString s dbuf dedup k.length sz = .ok m) (hl : Lit d (y :: dbuf) (s.didx + 1) k e)
    (hnp : NotPad (y :: dbuf) (s.didx + 1))
    (he : e = s.didx + 1 + (sz + k.length + 1)) (hk : (((y :: dbuf).drop (s.didx + 1 + (sz + 1))).take k.length) = k)
    {top : Nat} {rest : List Nat} :
    m.adv = sz + k.length + 1 ∧ m.push = none ∧ m.fake = false ∧ m.flip = none ∧
    MInv d base (y :: dbuf) (s.move cap top rest m) ∧
    ((∃ saved, dedup = true ∧ LitAt d base s.mbuf saved k ∧ m.out = tagVarint typeCOPY saved) ∨
      m.out = ((y :: dbuf).drop (s.didx + 1)).take (e - (s.didx + 1))) := by
  obtain ⟨-, hlen⟩ := mergeString_ok h
  unfold mergeString at h
  rw [Int.toNat_natCast] at h hlen
  have hraw : (dbuf.drop s.didx).take (sz + k.length + 1) =
      ((y :: dbuf).drop (s.didx + 1)).take (e - (s.didx + 1)) := by
    rw [List.drop_succ_cons]; congr 1; omega
  have hval : ((dbuf.drop s.didx).take (sz + k.length + 1)).drop (sz + 1) = k := by
    rw [List.drop_take, List.drop_drop, show sz + k.length + 1 - (sz + 1) = k.length by omega]
    rw [show s.didx + 1 + (sz + 1) = (s.didx + (sz + 1)) + 1 by omega, List.drop_succ_cons] at hk
    exact hk
  have lit := LitAt.copied (base := base) hl hnp hI.len
  have uniq : ∀ k' e', Lit d (y :: dbuf) (s.didx + 1) k' e' → k' = k := fun k' e' h' => (h'.unique hl).1
  have uniq' : ∀ k' e', Strish d (y :: dbuf) false (s.didx + 1) k' e' → k' = k := fun k' e' h' =>
    (h'.unique (.lit hl)).1
  split at h
  · cases h
  · dsimp only at h
    rw [if_neg (by omega)] at h
    rw [hval] at h
    split at h
    · split at h
      · next saved hs =>
        cases h
        have hsv := hI.str k saved hs
        refine ⟨rfl, rfl, rfl, rfl, hI.move rfl ?_ ?_ (fun _ => ⟨?_, ?_⟩), .inl ⟨saved, by assumption, hsv, rfl⟩⟩
        · exact fun k o hk => (hI.str k o hk).mono (List.prefix_append _ _)
        · exact fun k o hk => (hI.obj k o hk).mono (List.prefix_append _ _)
        · intro k' e' h'; rw [uniq k' e' h']; exact hsv.mono (List.prefix_append _ _)
        · intro k' e' h'; rw [uniq' k' e' h']; exact (hsv.mono (List.prefix_append _ _)).str
      · next hs =>
        cases h
        refine ⟨rfl, rfl, rfl, rfl, hI.move rfl ?_ ?_ (fun _ => ⟨?_, ?_⟩), .inr hraw⟩
        · intro k' o' hk'
          change mapLookup k' ((k, s.mrgIdx) :: s.strTable) = some o' at hk'
          rw [mapLookup] at hk'
          split at hk'
          · next e => subst e; cases hk'; show LitAt d base (s.mbuf ++ _) _ _; dsimp only [Moved.copy]; rw [hraw]; exact lit
          · exact (hI.str k' o' hk').mono (List.prefix_append _ _)
        · exact fun k o hk => (hI.obj k o hk).mono (List.prefix_append _ _)
        · intro k' e' h'; rw [uniq k' e' h']; dsimp only [Moved.copy]; rw [hraw]; exact lit
        · intro k' e' h'; rw [uniq' k' e' h']; dsimp only [Moved.copy]; rw [hraw]; exact lit.str
    · cases h
      refine ⟨rfl, rfl, rfl, rfl, hI.move rfl ?_ ?_ (fun _ => ⟨?_, ?_⟩), .inr hraw⟩
      · exact fun k o hk => (hI.str k o hk).mono (List.prefix_append _ _)
      · exact fun k o hk => (hI.obj k o hk).mono (List.prefix_append _ _)
      · intro k' e' h'; rw [uniq k' e' h']; dsimp only [Moved.copy]; rw [hraw]; exact lit
      · intro k' e' h'; rw [uniq' k' e' h']; dsimp only [Moved.copy]; rw [hraw]; exact lit.str

theorem LState.move_stack {s : LState} {top : Nat} {rest : List Nat} {m : Moved} (hl : Live top)
    (hp : m.push = none) (hf : m.fake = false) : (s.move cap top rest m).stack = (top - 1) :: rest := by
  show m.push.toList ++ (if m.fake then top else (top + 2 ^ 32 - 1) % 2 ^ 32) :: rest = _
  rw [hp, hf, hl.pred]
  rfl

theorem LState.move_mbuf {s : LState} {top : Nat} {rest : List Nat} {m : Moved} (hf : m.flip = none) :
    (s.move cap top rest m).mbuf = s.mbuf ++ m.out := by
  show setFlag (s.mbuf ++ m.out) m.flip = _
  rw [hf]
  rfl

/-- A string copied as it is keeps the invariant. -/
theorem MInv.lit {s : LState} (hI : MInv d base (y :: dbuf) s) {k : Bytes} {e : Nat}
    (hl : Lit d (y :: dbuf) (s.didx + 1) k e) (hnp : NotPad (y :: dbuf) (s.didx + 1)) {top : Nat}
    {rest : List Nat} {n : Nat} :
    MInv d base (y :: dbuf) (s.move cap top rest
      (Moved.copy s (((y :: dbuf).drop (s.didx + 1)).take (e - (s.didx + 1))) n)) := by
  have lit := LitAt.copied (base := base) hl hnp hI.len
  refine hI.move rfl ?_ ?_ (fun _ => ⟨?_, ?_⟩)
  · exact fun k o hk => (hI.str k o hk).mono (List.prefix_append _ _)
  · exact fun k o hk => (hI.obj k o hk).mono (List.prefix_append _ _)
  · intro k' e' h'; rw [(h'.unique hl).1]; exact lit
  · intro k' e' h'; rw [(h'.unique (.lit hl)).1]; exact lit.str

/-- A literal is carried over, or replaced by a COPY. -/
theorem lit_step (hd : Mergeable d) {s : LState} {k : Bytes} {e top : Nat} {rest : List Nat}
    (hl : Lit d (y :: dbuf) (s.didx + 1) k e) (hnp : NotPad (y :: dbuf) (s.didx + 1)) (hst : s.stack = top :: rest)
    (hlive : Live top) (hI : MInv d base (y :: dbuf) s) (hr : Runs c dbuf slack cap s f) :
    ∃ s1, Runs c dbuf slack cap s1 f ∧ s1.didx + 1 = e ∧ s1.stack = (top - 1) :: rest ∧
      MInv d base (y :: dbuf) s1 ∧
      ((∃ saved, dedupHere c top = true ∧ LitAt d base s.mbuf saved k ∧
          s1.mbuf = s.mbuf ++ tagVarint typeCOPY saved) ∨
        s1.mbuf = s.mbuf ++ ((y :: dbuf).drop (s.didx + 1)).take (e - (s.didx + 1))) := by
  have hlt := hl.lt
  have here : ∀ {k' b'}, TagAt (y :: dbuf) (s.didx + 1) k' b' → k' = s.didx + 1 ∧ dbuf[s.didx]? = some b' := by
    intro k' b' ht
    by_cases hki : k' = s.didx + 1
    · subst hki; exact ⟨rfl, by simpa using ht.2.2.1⟩
    · obtain ⟨q, hq, hq'⟩ := ht.2.1 (s.didx + 1) (Nat.le_refl _) (by have := ht.le; omega)
      exact absurd hq' (hnp q hq)
  have hl' := hl
  cases hl with
  | @long k' b n j _ _ ht hc hv hn hs hlen =>
    obtain ⟨rfl, hb⟩ := here ht
    obtain ⟨m, hm, hr1⟩ := hr.step hb hst hlive.ne
    have hj := hv.lt
    have hs2 := hs.2
    have hvd := vint_small hd hv (by simp [maxSize] at hn; omega)
    rw [List.drop_succ_cons] at hvd
    rw [mergeTag_eq _ _ _ _ _ (by rcases hc with hc | hc <;> rw [hc] <;> simp)] at hm
    have hm' : mergeString s dbuf (dedupHere c top) k.length (j - (s.didx + 1 + 1)) = .ok m := by
      rcases hc with hc | hc <;> rw [hc] at hm <;> simp only [mergeC] at hm <;> rw [hvd] at hm <;>
        subst hlen <;> exact hm
    have hk : ((y :: dbuf).drop (s.didx + 1 + (j - (s.didx + 1 + 1) + 1))).take k.length = k := by
      rw [show s.didx + 1 + (j - (s.didx + 1 + 1) + 1) = j by omega]
      exact (List.prefix_iff_eq_take.1 hs.1).symm
    obtain ⟨h1, h2, h3, h4, h5, h6⟩ := mergeString_lit (cap := cap) (top := top) (rest := rest) hI hm' hl' hnp
      (by omega) hk
    refine ⟨_, hr1, ?_, LState.move_stack hlive h2 h3, h5, ?_⟩
    · show s.didx + m.adv + 1 = e
      omega
    · rw [LState.move_mbuf h4]
      rcases h6 with ⟨saved, h6, h7, h8⟩ | h6
      · exact .inl ⟨saved, h6, h7, by rw [h8]⟩
      · exact .inr (by rw [h6])
  | @short k' b n _ _ ht hc hs hlen =>
    obtain ⟨rfl, hb⟩ := here ht
    obtain ⟨m, hm, hr1⟩ := hr.step hb hst hlive.ne
    have hs2 := hs.2
    rw [mergeTag_eq _ _ _ _ _ (by rw [hc]; simp), hc] at hm
    have hD : (y :: dbuf)[s.didx + 1]? = some b := by simpa using hb
    have hlen' : e ≤ dbuf.length + 1 := by simpa using hlt.2
    have plain : ∀ q, q = e - (s.didx + 1) → m = Moved.copy s ((dbuf.drop s.didx).take q) q →
        ∃ s1, Runs c dbuf slack cap s1 f ∧ s1.didx + 1 = e ∧ s1.stack = (top - 1) :: rest ∧
          MInv d base (y :: dbuf) s1 ∧
          ((∃ saved, dedupHere c top = true ∧ LitAt d base s.mbuf saved k ∧
              s1.mbuf = s.mbuf ++ tagVarint typeCOPY saved) ∨
            s1.mbuf = s.mbuf ++ ((y :: dbuf).drop (s.didx + 1)).take (e - (s.didx + 1))) := by
      intro q hq hmq
      have hmq' : m = Moved.copy s (((y :: dbuf).drop (s.didx + 1)).take (e - (s.didx + 1))) q := by
        rw [hmq, hq, List.drop_succ_cons]
      clear hmq
      subst hmq'
      refine ⟨_, hr1, ?_, LState.move_stack hlive rfl rfl, hI.lit hl' hnp, .inr rfl⟩
      show s.didx + q + 1 = e
      omega
    match n, hlen, hm with
    | 0, hlen, hm =>
      simp only [mergeC] at hm
      cases hm
      refine plain 1 (by omega) ?_
      congr 1
      obtain ⟨hlt', hb'⟩ := List.getElem?_eq_some_iff.1 hb
      rw [List.drop_eq_getElem_cons hlt', hb']
      rfl
    | 1, hlen, hm =>
      simp only [mergeC, cutCap, cut] at hm
      rw [if_pos (by rw [List.length_append]; omega)] at hm
      cases hm
      refine plain 2 (by omega) ?_
      congr 1
      rw [List.drop_append_of_le_length (by omega), show s.didx + 2 - s.didx = 2 by omega,
        List.take_append_of_le_length (by rw [List.length_drop]; omega)]
    | n + 2, hlen, hm =>
      simp only [mergeC] at hm
      rw [← hlen] at hm
      have hk : ((y :: dbuf).drop (s.didx + 1 + (0 + 1))).take k.length = k :=
        (List.prefix_iff_eq_take.1 hs.1).symm
      obtain ⟨h1, h2, h3, h4, h5, h6⟩ := mergeString_lit (cap := cap) (top := top) (rest := rest) hI hm hl' hnp
        (by omega) hk
      refine ⟨_, hr1, ?_, LState.move_stack hlive h2 h3, h5, ?_⟩
      · show s.didx + m.adv + 1 = e
        omega
      · rw [LState.move_mbuf h4]
        rcases h6 with ⟨saved, h6, h7, h8⟩ | h6
        · exact .inl ⟨saved, h6, h7, by rw [h8]⟩
        · exact .inr (by rw [h6])

/-- Padding in front of a string. -/
theorem Strish.pads {F : Bytes} {i k : Nat} {b : UInt8} {s : Bytes} {e : Nat} (ht : TagAt F i k b)
    (h : Strish d F false k s e) : Strish d F false i s e := by
  have key : ∀ {k' b'}, TagAt F k k' b' → TagAt F i k' b' := by
    intro k' b' h'
    obtain ⟨rfl, rfl⟩ := h'.unique (.here' ht.2.2.1 ht.2.2.2)
    exact ht
  cases h with
  | lit h =>
    cases h with
    | long ht' hc hv hn hs hl => exact .lit (.long (key ht') hc hv hn hs hl)
    | short ht' hc hs hl => exact .lit (.short (key ht') hc hs hl)
  | copy h1 ht' hc hv ho hl hj => exact .copy h1 (key ht') hc hv ho hl hj

/-- The first byte of a string that is not preceded by padding. -/
theorem Strish.first {F : Bytes} {k : Nat} {s : Bytes} {e : Nat} (h : Strish d F false k s e) (hnp : NotPad F k) :
    ∃ b, TagAt F k k b := by
  have hlt := h.lt
  exact ⟨_, .here' (List.getElem?_eq_getElem (by omega)) (hnp _ (List.getElem?_eq_getElem (by omega)))⟩

/-- What `mergeOffset` does with COPY, OBJECTV and OBJECTV_FREEZE. -/
theorem mergeOffset_ok (hd : Mergeable d) {s : LState} {b tag : UInt8} {m : Moved} {o j : Nat}
    (h : mergeOffset s dbuf b tag = .ok m) (hv : Vint d (y :: dbuf) (s.didx + 2) o j) (h63 : o < 2 ^ 63)
    (h1 : tag ≠ typeALIAS) (h2 : tag ≠ typeREFP) :
    ∃ target, idxLookup o s.trackTable = some target ∧
      m = Moved.copy s (tagVarint b target) (j - (s.didx + 2) + 1)
        (if tag = typeOBJECTV ∨ tag = typeOBJECTV_FREEZE then some 1 else none) := by
  unfold mergeOffset at h
  have hvd := vint_small hd hv h63
  rw [List.drop_succ_cons] at hvd
  rw [hvd] at h
  change (match (if (o : Int) < 0 then none else idxLookup (o : Int).toNat s.trackTable) with
    | none => _
    | some target => _) = _ at h
  rw [if_neg (by omega), Int.toNat_natCast] at h
  cases hl : idxLookup o s.trackTable with
  | none => rw [hl] at h; cases h
  | some target =>
    rw [hl] at h
    dsimp only at h
    rw [if_neg (by simp [h1, h2])] at h
    refine ⟨target, rfl, ?_⟩
    split at h
    · next ht => cases h; rw [if_pos ht]
    · next ht => cases h; rw [if_neg ht]

/-- A key is carried over, or replaced by a COPY. -/
theorem key_step (hd : Mergeable d) (hf : f.mbuf.length < 2 ^ 63) {i e : Nat} {k : Bytes}
    (h : Strish d (y :: dbuf) false i k e) {s : LState} {top : Nat} {rest : List Nat} (hi : s.didx + 1 = i)
    (hst : s.stack = top :: rest) (hlive : Live top) (hI : MInv d base (y :: dbuf) s)
    (hr : Runs c dbuf slack cap s f) :
    ∃ s1, Runs c dbuf slack cap s1 f ∧ s1.didx + 1 = e ∧ s1.stack = (top - 1) :: rest ∧
      MInv d base (y :: dbuf) s1 ∧ s.mbuf <+: s1.mbuf ∧
      ∀ F, Agr base F s1.mbuf → Strish d F false s.mrgIdx k s1.mrgIdx := by
  have hbase := hI.len
  cases h with
  | lit h =>
    have htag : ∃ k' b, TagAt (y :: dbuf) i k' b ∧ Lit d (y :: dbuf) k' k e := by
      cases h with
      | long ht hc hv hn hs hl => exact ⟨_, _, ht, .long (.here' ht.2.2.1 ht.2.2.2) hc hv hn hs hl⟩
      | short ht hc hs hl => exact ⟨_, _, ht, .short (.here' ht.2.2.1 ht.2.2.2) hc hs hl⟩
    obtain ⟨k', b, ht, hl⟩ := htag
    obtain ⟨s1, ps, hr1, hi1, hst1, hI1, hm1, hps, -⟩ := pads hlive.ne (k' - i) i s
      (by have := ht.le; omega) ht hi hst hI hr
    subst hi1
    have hnp : NotPad (y :: dbuf) (s1.didx + 1) := by
      intro q hq
      rw [ht.2.2.1] at hq
      cases hq
      exact ht.2.2.2
    obtain ⟨s2, hr2, hi2, hst2, hI2, hout⟩ := lit_step hd hl hnp hst1 hlive hI1 hr1
    have hpre : s1.mbuf <+: s2.mbuf := by
      rcases hout with ⟨_, _, _, he⟩ | he <;> rw [he] <;> exact List.prefix_append _ _
    refine ⟨s2, hr2, hi2, hst2, hI2, (List.prefix_append _ _).trans (hm1 ▸ hpre), fun F hF => ?_⟩
    have hkey : Strish d F false s1.mrgIdx k s2.mrgIdx ∧ NotPad F s1.mrgIdx := by
      rcases hout with ⟨saved, -, hlit, he⟩ | he
      · have hsz : s1.mbuf.length < 2 ^ 63 := Nat.lt_of_le_of_lt hr1.len hf
        rw [he] at hF
        obtain ⟨h1, h2⟩ := StrAt.copied hd (b := typeCOPY) (by decide) hlit hI1.len hsz
        have h1 := h1 F hF
        refine ⟨?_, (h2.2 F hF).2⟩
        show Strish d F false (s1.mbuf.length - 5) k (s2.mbuf.length - 5)
        rw [he, List.length_append]
        have := hI1.len
        rw [show s1.mbuf.length + (tagVarint typeCOPY saved).length - 5 =
          s1.mbuf.length - 5 + (tagVarint typeCOPY saved).length by omega]
        exact h1
      · have hlt := hl.lt
        rw [he] at hF
        obtain ⟨h1, h2⟩ := (hF.win hI1.len hlt.2).lit hl hnp
        refine ⟨.lit ?_, h2⟩
        show Lit d F (s1.mbuf.length - 5) k (s2.mbuf.length - 5)
        rw [he, List.length_append, List.length_take, List.length_drop, Nat.min_eq_left (by omega)]
        have := hI1.len
        rw [show s1.mbuf.length + (e - (s1.didx + 1)) - 5 = s1.mbuf.length - 5 + (e - (s1.didx + 1)) by omega]
        exact h1
    obtain ⟨b', hb'⟩ := hkey.1.first hkey.2
    have ht' : TagAt F s.mrgIdx s1.mrgIdx b' := by
      have := hF.tag (m := s.mbuf) (ps := ps) (b := b') (hm1 ▸ hpre) hbase hps (by rw [← hm1]; exact hb')
      rw [← hm1] at this
      exact this
    exact .pads ht' hkey.1
  | @copy k' b o _ _ j' h1 ht hc hv ho hl hj =>
    obtain ⟨s1, ps, hr1, hi1, hst1, hI1, hm1, hps, -⟩ := pads hlive.ne (k' - i) i s
      (by have := ht.le; omega) ht hi hst hI hr
    subst hi1
    have hb : dbuf[s1.didx]? = some b := by simpa using ht.2.2.1
    obtain ⟨m, hm, hr2⟩ := hr1.step hb hst1 hlive.ne
    rw [mergeTag_eq _ _ _ _ _ (by rw [hc]; simp), hc] at hm
    simp only [mergeC] at hm
    have hsz : s1.mbuf.length < 2 ^ 63 := Nat.lt_of_le_of_lt hr1.len hf
    obtain ⟨hj1, hj2⟩ := hj hd.strict
    have h63 : o < 2 ^ 63 := by
      obtain ⟨hvd, h64⟩ := vint_dec hd hv
      by_cases h : o < 2 ^ 63
      · exact h
      · exfalso
        have hneg := sgn_big (by omega) h64
        unfold mergeOffset at hm
        rw [List.drop_succ_cons] at hvd
        rw [hvd] at hm
        change (match (if sgn o < 0 then none else idxLookup (sgn o).toNat s1.trackTable) with
          | none => _
          | some target => _) = _ at hm
        rw [if_pos hneg] at hm
        cases hm
    obtain ⟨target, htg, rfl⟩ := mergeOffset_ok hd hm hv h63 (by decide) (by decide)
    rw [if_neg (by decide)] at hr2
    have hlit := (hI1.trk o target htg hj2).1 k j' hl
    obtain ⟨c1, c2⟩ := StrAt.copied hd (b := b) hc hlit hI1.len hsz
    have hjlt := hv.lt
    refine ⟨_, hr2, ?_, LState.move_stack hlive rfl rfl, ?_, ?_, ?_⟩
    · show s1.didx + (e - (s1.didx + 2) + 1) + 1 = e
      omega
    · refine hI1.move rfl ?_ ?_ (fun hnp => ⟨?_, ?_⟩)
      · exact fun k o hk => (hI1.str k o hk).mono (List.prefix_append _ _)
      · exact fun k o hk => (hI1.obj k o hk).mono (List.prefix_append _ _)
      · intro k2 e2 h2
        exact (h2.not_copy (.here' ht.2.2.1 ht.2.2.2) hc).elim
      · intro k2 e2 h2
        have : Strish d (y :: dbuf) false (s1.didx + 1) k e :=
          .copy h1 (.here' ht.2.2.1 ht.2.2.2) hc hv ho hl hj
        rw [(h2.unique this).1]
        exact c2
    · show s.mbuf <+: s1.mbuf ++ _
      rw [hm1, List.append_assoc]
      exact List.prefix_append _ _
    · intro F hF
      have hF' : Agr base F (s1.mbuf ++ tagVarint b target) := hF
      have h2 := c1 F hF'
      obtain ⟨b', hb'⟩ := h2.first (c2.2 F hF').2
      have ht' : TagAt F s.mrgIdx s1.mrgIdx b' := by
        have := hF'.tag (m := s.mbuf) (ps := ps) (b := b') (hm1 ▸ List.prefix_append _ _) hbase hps
          (by rw [← hm1]; exact hb')
        rw [← hm1] at this
        exact this
      have h3 := Strish.pads ht' h2
      show Strish d F false s.mrgIdx k ((s1.mbuf ++ tagVarint b target).length - 5)
      rw [List.length_append]
      have := hI1.len
      rw [show s1.mbuf.length + (tagVarint b target).length - 5 =
        s1.mbuf.length - 5 + (tagVarint b target).length by omega]
      exact h3

end

end Sereal

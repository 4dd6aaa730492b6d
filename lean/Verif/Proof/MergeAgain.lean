import Verif.Proof.EmitToks
import Verif.Proof.MergeOk
import Verif.Proof.MergeFlat
/-
What the merger writes is a row of tokens again.
-/
namespace Sereal

/-! ### Tokens moved to another place -/

theorem Span.shift {D D' : Bytes} {i j p : Nat} {s : Bytes} (h : Span D i s j)
    (ha : ∀ x, i + x < j → D'[p + x]? = D[i + x]?) : Span D' p s (p + (j - i)) := by
  obtain ⟨h1, rfl⟩ := h
  refine ⟨?_, by omega⟩
  rw [List.prefix_iff_getElem?] at h1 ⊢
  intro n hn
  have := h1 n hn
  rw [List.getElem?_drop] at this ⊢
  rw [ha n (by omega)]
  exact this

theorem Vint.shift {D D' : Bytes} {i j n p : Nat} (h : Vint wrtDialect D i n j)
    (ha : ∀ x, i + x < j → D'[p + x]? = D[i + x]?) : Vint wrtDialect D' p n (p + (j - i)) := by
  obtain ⟨v, h1, h2, h3, h4⟩ := h
  exact ⟨v, h1, h2, h3.shift ha, h4⟩

theorem Name.shift {D D' : Bytes} {i j p : Nat} (h : Name D i j)
    (ha : ∀ x, i + x < j → D'[p + x]? = D[i + x]?) : Name D' p (p + (j - i)) := by
  obtain ⟨b, s, h1, h2, h3, h4, h5⟩ := h
  have hlt := h5.lt
  have hb : D'[p]? = some b := by have := ha 0 (by omega); rw [Nat.add_zero, Nat.add_zero] at this; rw [this]; exact h1
  refine ⟨b, s, hb, h2, h3, h4, ?_⟩
  cases h5 with
  | @long i _ _ k _ _ ht hc hv hn hs hl =>
    obtain ⟨rfl, rfl⟩ := ht.same h1 h2 h3
    have hj := hv.lt
    have := hs.2
    have h6 := hv.shift (D' := D') (p := p + 1) (fun x hx => by
      rw [Nat.add_assoc, Nat.add_assoc]; exact ha (1 + x) (by omega))
    have h7 := hs.shift (D' := D') (p := p + 1 + (k - (i + 1))) (fun x hx => by
      rw [show p + 1 + (k - (i + 1)) + x = p + (k - i + x) by omega, ha (k - i + x) (by omega)]
      congr 1; omega)
    rw [show p + 1 + (k - (i + 1)) + (j - k) = p + (j - i) by omega] at h7
    exact .long (TagAt.here' hb (by omega)) hc h6 hn h7 hl
  | @short i _ _ _ _ ht hc hs hl =>
    obtain ⟨rfl, rfl⟩ := ht.same h1 h2 h3
    have := hs.2
    have h7 := hs.shift (D' := D') (p := p + 1) (fun x hx => by
      rw [Nat.add_assoc, Nat.add_assoc]; exact ha (1 + x) (by omega))
    rw [show p + 1 + (j - (i + 1)) = p + (j - i) by omega] at h7
    exact .short (TagAt.here' hb (by omega)) hc h7 hl

/-- The bytes of a token without offset, at any place. -/
theorem Tok.isTok {D : Bytes} {us : List Nat} {i k : Nat} {b : UInt8} (h : Tok D us i b k) (hb : D[i]? = some b)
    (hc : (classify (b.toNat % 128)).carried = true) (hp : (classify (b.toNat % 128)).points = false)
    (vs : List Nat) (p : Nat) : IsTok true vs p ((D.drop i).take (k - i)) := by
  have hi := (List.getElem?_eq_some_iff.1 hb).1
  obtain ⟨hlt, hle⟩ := h.lt hi
  have hd : D.drop i = b :: D.drop (i + 1) := by
    rw [List.drop_eq_getElem_cons hi, (List.getElem?_eq_some_iff.1 hb).2]
  have hlen : ((D.drop i).take (k - i)).length = k - i := by
    rw [List.length_take, List.length_drop]; omega
  refine ⟨b, (D.drop (i + 1)).take (k - i - 1), ?_, fun _ => hc, fun D' hs _ => ?_⟩
  · rw [hd, show k - i = (k - i - 1) + 1 by omega, List.take_succ_cons]; rfl
  · have hin := span_len hs (by intro e; rw [e] at hlen; simp at hlen; omega)
    rw [hlen] at hs hin ⊢
    have ha : ∀ x, i + x < k → D'[p + x]? = D[i + x]? := by
      intro x hx
      have h1 := hs.1
      rw [List.prefix_iff_getElem?] at h1
      have := h1 x (by omega)
      rw [List.getElem?_drop] at this
      rw [this, ← List.getElem?_eq_getElem, List.getElem?_take_of_lt (by omega), List.getElem?_drop]
    have hv : ∀ {n j}, Vint wrtDialect D (i + 1) n j → j ≤ k → Vint wrtDialect D' (p + 1) n (p + (j - i)) := by
      intro n j hv hj
      have := hv.lt
      have h6 := hv.shift (D' := D') (p := p + 1) (fun x hx => by
        rw [Nat.add_assoc, Nat.add_assoc]; exact ha (1 + x) (by omega))
      rw [show p + 1 + (j - (i + 1)) = p + (j - i) by omega] at h6
      exact h6
    cases h with
    | single h => rw [show p + (i + 1 - i) = p + 1 by omega]; exact .single h
    | number h hn => exact .number h (hv hn (Nat.le_refl _))
    | float h _ => rw [show p + (i + 5 - i) = p + 5 by omega] at hin ⊢; exact .float h hin
    | double h _ => rw [show p + (i + 9 - i) = p + 9 by omega] at hin ⊢; exact .double h hin
    | @long n j h hn hm _ =>
      have := hn.lt
      rw [show p + (j + n - i) = p + (j - i) + n by omega] at hin ⊢
      exact .long h (hv hn (by omega)) hm hin
    | @short n h _ =>
      rw [show p + (i + 1 + n - i) = p + 1 + n by omega] at hin ⊢
      exact .short h hin
    | box h hn hm => exact .box h (hv hn (Nat.le_refl _)) hm
    | offset h => rw [h] at hp; cases hp
    | object h => rcases h with h | h <;> rw [h] at hc <;> cases hc
    | @regexp j k h hn hn' =>
      have h1 := hn.lt
      have h2 := hn'.lt
      have g1 := hn.shift (D' := D') (p := p + 1) (fun x hx => by
        rw [Nat.add_assoc, Nat.add_assoc]; exact ha (1 + x) (by omega))
      have g2 := hn'.shift (D' := D') (p := p + 1 + (j - (i + 1))) (fun x hx => by
        rw [show p + 1 + (j - (i + 1)) + x = p + (j - i + x) by omega, ha (j - i + x) (by omega)]
        congr 1; omega)
      rw [show p + 1 + (j - (i + 1)) + (k - j) = p + (k - i) by omega] at g2
      exact .regexp h g1 g2

/-! ### One round -/

/-- What the merger has written behind `pre` is a row of tokens, and its tables name strings of this row.  `us` are
the strings of the document so far. -/
structure Rowed (pre : Bytes) (us vs : List Nat) (s : LState) : Prop where
  head : pre <+: s.mbuf
  len : 5 ≤ pre.length
  toks : Rows true (s.mbuf.drop 5) [] (pre.length - 5) vs (s.mbuf.length - 5)
  str : ∀ k o, mapLookup k s.strTable = some o → o ∈ vs ∧ o + 1 < s.mbuf.length - 5
  trk : ∀ o p, idxLookup o s.trackTable = some p → o ≤ s.didx ∧
    (o ∈ us → p ∈ vs ∧ (o < s.didx → p + 1 < s.mbuf.length - 5))
  past : ∀ o ∈ us, o ≤ s.didx

variable {pre : Bytes} {us vs : List Nat} {s : LState}

theorem Rowed.lt (h : Rowed pre us vs s) {o : Nat} (ho : o ∈ vs) : o < s.mbuf.length - 5 := by
  rcases h.toks.places.1 o ho with h | h
  · cases h
  · exact h.2

/-- What a round must do with a token that begins with `b`. -/
structure Fine (s : LState) (vs : List Nat) (b : UInt8) (m : Moved) : Prop where
  tok : IsTok true vs (s.mbuf.length - 5) m.out
  flip : m.flip = none
  idx : (classify (b.toNat % 128)).textual = true → (m.idx = s.mbuf.length - 5 ∧ m.out.head? = some b) ∨
    (m.idx ∈ vs ∧ m.idx + 1 < s.mbuf.length - 5)
  str : ∀ k o, mapLookup k m.strTable = some o → mapLookup k s.strTable = some o ∨
    (o = s.mbuf.length - 5 ∧ 2 ≤ m.out.length ∧ m.out.head? = some b ∧ (classify (b.toNat % 128)).textual = true)
  adv : 1 ≤ m.adv
  wide : 2 ≤ m.adv → 2 ≤ m.out.length

theorem Fine.copy {b : UInt8} {out : Bytes} {adv : Nat} {push : Option Nat} {fake : Bool}
    (h : IsTok true vs (s.mbuf.length - 5) out) (h1 : 1 ≤ adv) (h2 : 2 ≤ adv → 2 ≤ out.length)
    (h3 : (classify (b.toNat % 128)).textual = true → out.head? = some b) :
    Fine s vs b (Moved.copy s out adv push fake) :=
  ⟨h, rfl, fun ht => .inl ⟨rfl, h3 ht⟩, fun _ _ h => .inl h, h1, h2⟩

theorem Rowed.move (h : Rowed pre us vs s) {b : UInt8} {m : Moved} (hm : Fine s vs b m)
    {cap top : Nat} {rest : List Nat} (hsz : s.mbuf.length + m.out.length < 2 ^ 31) :
    ∃ vs', Rowed pre (if true && !(classify (b.toNat % 128)).textual then us else (s.didx + 1) :: us) vs'
      (s.move cap top rest m) := by
  have hle := h.head.length_le
  have hlen := h.len
  have hb : (s.move cap top rest m).mbuf = s.mbuf ++ m.out := by
    show setFlag (s.mbuf ++ m.out) m.flip = _
    rw [hm.flip]; rfl
  have hdl : (s.mbuf.drop 5).length = s.mbuf.length - 5 := by simp
  have hd : (s.mbuf ++ m.out).drop 5 = s.mbuf.drop 5 ++ m.out := List.drop_append_of_le_length (by omega)
  have hl : (s.mbuf ++ m.out).length = s.mbuf.length + m.out.length := List.length_append
  obtain ⟨x, w, hw, hk, ht⟩ := hm.tok
  have hpos : 1 ≤ m.out.length := by rw [hw]; simp
  have hsp : Span (s.mbuf.drop 5 ++ m.out) (s.mbuf.length - 5) m.out (s.mbuf.length - 5 + m.out.length) :=
    ⟨by rw [← hdl, List.drop_left]; exact List.prefix_refl _, rfl⟩
  have hhd : (s.mbuf.drop 5 ++ m.out)[s.mbuf.length - 5]? = some x := by
    have := hsp
    rw [hw] at this ⊢
    exact this.head.1
  have hnew : m.out.head? = some b → (classify (b.toNat % 128)).textual = true →
      (s.mbuf.length - 5) ∈ (if true && !(classify (x.toNat % 128)).textual then vs else (s.mbuf.length - 5) :: vs) := by
    intro h1 h2
    rw [hw] at h1
    cases h1
    exact pushed_new (.inr h2)
  refine ⟨if true && !(classify (x.toNat % 128)).textual then vs else (s.mbuf.length - 5) :: vs,
    by rw [hb]; exact h.head.trans (List.prefix_append _ _), hlen, ?_, ?_, ?_, ?_⟩
  · rw [hb, hd, hl]
    refine Rows.trans (vs' := vs) (j := s.mbuf.length - 5) ?_ ?_
    · refine h.toks.congr (by simp) (by simp) ?_ ?_
      · intro p _ h2 _; rw [List.getElem?_append_left (by omega)]
      · intro p h2 _ b hb
        exact ⟨b, by rw [List.getElem?_append_left (by have := h.lt h2; omega)]; exact hb, rfl⟩
    · rw [show s.mbuf.length + m.out.length - 5 = s.mbuf.length - 5 + m.out.length by omega]
      exact .cons hhd hk (ht _ hsp (by omega)) .nil
  · intro k o ho
    rw [hb, hl]
    rcases hm.str k o ho with h1 | ⟨rfl, h1, h2, h3⟩
    · obtain ⟨h2, h3⟩ := h.str k o h1
      exact ⟨pushed_old h2, by omega⟩
    · exact ⟨hnew h2 h3, by omega⟩
  · intro o p ho
    rw [hb, hl]
    have hadv := hm.adv
    have hwide := hm.wide
    show o ≤ s.didx + m.adv ∧ (_ → _ ∧ (o < s.didx + m.adv → _))
    have old : idxLookup o s.trackTable = some p → o ≤ s.didx + m.adv ∧
        (o ∈ (if true && !(classify (b.toNat % 128)).textual then us else (s.didx + 1) :: us) →
          p ∈ (if true && !(classify (x.toNat % 128)).textual then vs else (s.mbuf.length - 5) :: vs) ∧
          (o < s.didx + m.adv → p + 1 < s.mbuf.length + m.out.length - 5)) := by
      intro ho
      obtain ⟨h1, h2⟩ := h.trk o p ho
      refine ⟨by omega, fun h3 => ?_⟩
      rcases pushed h3 with h3 | h3
      · omega
      · obtain ⟨h4, h5⟩ := h2 h3
        have := h.lt h4
        exact ⟨pushed_old h4, fun _ => by omega⟩
    change idxLookup o (if s.trackIdxs.head? = some (s.didx + 1) then (s.didx + 1, m.idx) :: s.trackTable
      else s.trackTable) = some p at ho
    split at ho
    · rw [idxLookup] at ho
      split at ho
      · next he =>
        cases ho
        subst he
        refine ⟨by omega, fun h3 => ?_⟩
        cases hx : (classify (b.toNat % 128)).textual with
        | false =>
          rw [hx] at h3
          exact absurd (h.past _ h3) (by omega)
        | true =>
          rcases hm.idx hx with ⟨h1, h2⟩ | ⟨h1, h2⟩
          · rw [h1]
            exact ⟨hnew h2 hx, fun _ => by have := hwide (by omega); omega⟩
          · exact ⟨pushed_old h1, fun _ => by omega⟩
      · exact old ho
    · exact old ho
  · intro o ho
    have hadv := hm.adv
    show o ≤ s.didx + m.adv
    rcases pushed ho with rfl | ho
    · omega
    · have := h.past o ho; omega

theorem slice_head {D : Bytes} {i n : Nat} {b : UInt8} (h : D[i]? = some b) (hn : 1 ≤ n) :
    ((D.drop i).take n).head? = some b := by
  obtain ⟨n, rfl⟩ : ∃ m, n = m + 1 := ⟨n - 1, by omega⟩
  rw [List.drop_eq_getElem_cons (List.getElem?_eq_some_iff.1 h).1, (List.getElem?_eq_some_iff.1 h).2, List.take_succ_cons]
  rfl

theorem mergeString_fine (hs : Rowed pre us vs s) {b : UInt8} {dbuf : Bytes} {dd : Bool} {n sz : Nat} {m : Moved}
    (hx : (classify (b.toNat % 128)).textual = true) (hb : dbuf[s.didx]? = some b) (h : mergeString s dbuf dd n sz = .ok m) (h2 : 1 ≤ sz + n)
    (hi : IsTok true vs (s.mbuf.length - 5) ((dbuf.drop s.didx).take (sz + n + 1)))
    (hl : s.didx + (sz + n + 1) ≤ dbuf.length) : Fine s vs b m ∧ m.adv = sz + n + 1 := by
  have hlen : ((dbuf.drop s.didx).take (sz + n + 1)).length = sz + n + 1 := by simp; omega
  have hhd : ((dbuf.drop s.didx).take (sz + n + 1)).head? = some b := slice_head hb (by omega)
  unfold mergeString at h
  split at h
  · cases h
  · dsimp only at h
    rw [Int.toNat_natCast] at h
    split at h
    · cases h
    · split at h
      · split at h
        · next o ho =>
          cases h
          obtain ⟨h3, h4⟩ := hs.str _ _ ho
          have := varint_pos o
          exact ⟨⟨isTok_offset (b := typeCOPY) rfl (fun _ => by decide) h3 (by omega), rfl, fun _ => .inr ⟨h3, h4⟩, fun _ _ h => .inl h,
            by show 1 ≤ sz + n + 1; omega, fun _ => by show 2 ≤ (tagVarint _ _).length; simp [tagVarint]; omega⟩, rfl⟩
        · cases h
          refine ⟨⟨hi, rfl, fun _ => .inl ⟨rfl, hhd⟩, ?_, by show 1 ≤ sz + n + 1; omega, fun _ => by
            show 2 ≤ ((dbuf.drop s.didx).take _).length; omega⟩, rfl⟩
          intro k o ho
          change mapLookup k ((_, s.mrgIdx) :: s.strTable) = some o at ho
          rw [mapLookup] at ho
          split at ho
          · cases ho
            exact .inr ⟨rfl, by show 2 ≤ ((dbuf.drop s.didx).take _).length; omega, hhd, hx⟩
          · exact .inl ho
      · cases h
        exact ⟨Fine.copy hi (by omega) (fun _ => by omega) (fun _ => hhd), rfl⟩

/-- A carried token in the second pass. -/
theorem Tok.fine (hs : Rowed pre us vs s) {y : UInt8} {dbuf slack : Bytes}
    {k : Nat} {b : UInt8} (h : Tok (y :: dbuf) us (s.didx + 1) b k) (hb : dbuf[s.didx]? = some b)
    (hlen : dbuf.length < 2 ^ 62) (hc : (classify (b.toNat % 128)).carried = true) {dd : Bool} {m : Moved}
    (hm : mergeTag s dbuf slack dd b = .ok m) : Fine s vs b m ∧ s.didx + 1 + m.adv = k := by
  have hidx := (List.getElem?_eq_some_iff.1 hb).1
  have hlt := h.lt (by simp; omega)
  simp only [List.length_cons] at hlt
  have hd : Mergeable wrtDialect := ⟨rfl, rfl⟩
  have slice : (classify (b.toNat % 128)).points = false → ∀ n, s.didx + 1 + n = k →
      IsTok true vs (s.mbuf.length - 5) ((dbuf.drop s.didx).take n) := by
    intro hp n hn
    have := h.isTok (by simpa using hb) hc hp vs (s.mbuf.length - 5)
    rw [show k - (s.didx + 1) = n by omega] at this
    exact this
  have slen : ∀ n, s.didx + 1 + n = k → ((dbuf.drop s.didx).take n).length = n := by
    intro n hn; simp; omega
  have sl : ∀ (push : Option Nat) (fake : Bool), (classify (b.toNat % 128)).points = false → ∀ n, s.didx + 1 + n = k →
      Fine s vs b (Moved.copy s ((dbuf.drop s.didx).take n) n push fake) ∧ s.didx + 1 + n = k := by
    intro push fake hp n hn
    exact ⟨Fine.copy (slice hp n hn) (by omega) (fun h => by rw [slen n hn]; exact h)
      (fun _ => slice_head hb (by omega)), hn⟩
  have one : (dbuf.drop s.didx).take 1 = [b] := by
    rw [List.drop_eq_getElem_cons hidx, (List.getElem?_eq_some_iff.1 hb).2]; rfl
  cases h with
  | single hs1 =>
    have hp : (classify (b.toNat % 128)).points = false := by
      cases hcl : classify (b.toNat % 128) <;> rw [hcl] at hs1 <;> first | rfl | cases hs1
    have h1 : ∀ (push : Option Nat) (fake : Bool), Fine s vs b (Moved.copy s [b] 1 push fake) ∧
        s.didx + 1 + 1 = s.didx + 1 + 1 := by
      intro push fake
      have := sl push fake hp 1 rfl
      rw [one] at this
      exact this
    rw [mergeTag_eq _ _ _ _ _ (by intro e; rw [e] at hs1; cases hs1)] at hm
    cases hcl : classify (b.toNat % 128) <;> rw [hcl] at hs1 hm <;>
      first
      | (cases hm; exact h1 _ _)
      | cases hs1
  | @number n _ hcl hv =>
    have hvd := (vint_dec hd hv).1
    change varintdecode (dbuf.drop (s.didx + 1)) = _ at hvd
    have hj := hv.lt
    rw [mergeTag_eq _ _ _ _ _ (by rcases hcl with hc | hc <;> rw [hc] <;> simp)] at hm
    have hp : (classify (b.toNat % 128)).points = false := by rcases hcl with hc | hc <;> rw [hc] <;> rfl
    have := sl none false hp (k - (s.didx + 1 + 1) + 1) (by omega)
    rcases hcl with hc | hc <;> rw [hc] at hm <;> unfold mergeC at hm <;> rw [hvd] at hm <;> cases hm <;> exact this
  | float hcl hle =>
    rw [mergeTag_eq _ _ _ _ _ (by rw [hcl]; simp), hcl] at hm
    change (do .ok (Moved.copy s (← cutCap dbuf slack s.didx (s.didx + 5)) 5)) = _ at hm
    rw [cutCap_in (by omega) (by omega)] at hm
    cases hm
    have := sl none false (by rw [hcl]; rfl) 5 (by omega)
    rw [show s.didx + 5 - s.didx = 5 by omega]
    exact this
  | double hcl hle =>
    rw [mergeTag_eq _ _ _ _ _ (by rw [hcl]; simp), hcl] at hm
    change (do .ok (Moved.copy s (← cutCap dbuf slack s.didx (s.didx + 9)) 9)) = _ at hm
    rw [cutCap_in (by omega) (by omega)] at hm
    cases hm
    have := sl none false (by rw [hcl]; rfl) 9 (by omega)
    rw [show s.didx + 9 - s.didx = 9 by omega]
    exact this
  | @long n j hcl hv hn hle =>
    have hj := hv.lt
    have hvd := vint_small hd hv (by simp [maxSize] at hn; omega)
    change varintdecode (dbuf.drop (s.didx + 1)) = _ at hvd
    simp only [List.length_cons] at hle
    have hp : (classify (b.toNat % 128)).points = false := by rcases hcl with hc | hc <;> rw [hc] <;> rfl
    have key : mergeString s dbuf dd n (j - (s.didx + 1 + 1)) = .ok m := by
      rw [mergeTag_eq _ _ _ _ _ (by rcases hcl with hc | hc <;> rw [hc] <;> simp)] at hm
      rcases hcl with hc | hc <;> rw [hc] at hm <;> unfold mergeC at hm <;> rw [hvd] at hm <;> exact hm
    obtain ⟨hf, ha⟩ := mergeString_fine hs (by rcases hcl with hc | hc <;> rw [hc] <;> rfl) hb key (by omega) (slice hp _ (by omega)) (by omega)
    exact ⟨hf, by omega⟩
  | @short n hcl hle =>
    simp only [List.length_cons] at hle
    have hp : (classify (b.toNat % 128)).points = false := by rw [hcl]; rfl
    rw [mergeTag_eq _ _ _ _ _ (by rw [hcl]; simp), hcl] at hm
    match n, hle, hcl, hm, slice, sl with
    | 0, hle, _, hm, slice, sl =>
      cases hm
      have := sl none false hp 1 rfl
      rw [one] at this
      exact this
    | 1, hle, _, hm, slice, sl =>
      change (do .ok (Moved.copy s (← cutCap dbuf slack s.didx (s.didx + 2)) 2)) = _ at hm
      rw [cutCap_in (by omega) (by omega)] at hm
      cases hm
      have := sl none false hp 2 (by omega)
      rw [show s.didx + 2 - s.didx = 2 by omega]
      exact this
    | n + 2, hle, hcl, hm, slice, sl =>
      change mergeString s dbuf dd ((n + 2 : Nat) : Int) 0 = .ok m at hm
      obtain ⟨hf, ha⟩ := mergeString_fine hs (by rw [hcl]; rfl) hb hm (by omega) (slice hp _ (by omega)) (by omega)
      exact ⟨hf, by omega⟩
  | @box n _ hcl hv hn =>
    have hvd := vint_small hd hv (by simp [maxSize] at hn; omega)
    change varintdecode (dbuf.drop (s.didx + 1)) = _ at hvd
    have hj := hv.lt
    have hp : (classify (b.toNat % 128)).points = false := by rcases hcl with hc | hc <;> rw [hc] <;> rfl
    rw [mergeTag_eq _ _ _ _ _ (by rcases hcl with hc | hc <;> rw [hc] <;> simp)] at hm
    rcases hcl with hc | hc <;> rw [hc] at hm
    · change mergeContainer s dbuf typeARRAY = _ at hm
      rw [mergeContainer_eq hvd, if_neg (by decide)] at hm
      cases hm
      exact sl _ _ hp (k - (s.didx + 1 + 1) + 1) (by omega)
    · change mergeContainer s dbuf typeHASH = _ at hm
      rw [mergeContainer_eq hvd, if_pos rfl] at hm
      cases hm
      exact sl _ _ hp (k - (s.didx + 1 + 1) + 1) (by omega)
  | @offset o _ hp hv ho hoi =>
    have hj := hv.lt
    have hvd := vint_small hd hv (by omega)
    change varintdecode (dbuf.drop (s.didx + 1)) = _ at hvd
    have hcl : classify (b.toNat % 128) = .copy := by
      cases hcl : classify (b.toNat % 128) <;> rw [hcl] at hp hc <;> first | rfl | (cases hp; done) | (cases hc; done)
    rw [mergeTag_eq _ _ _ _ _ (by rw [hcl]; simp), hcl] at hm
    change mergeOffset s dbuf b typeCOPY = _ at hm
    unfold mergeOffset at hm
    rw [hvd] at hm
    simp only [bind, Except.bind] at hm
    rw [if_neg (by omega), Int.toNat_natCast] at hm
    cases hl : idxLookup o s.trackTable with
    | none => rw [hl] at hm; cases hm
    | some p =>
      rw [hl] at hm
      dsimp only at hm
      rw [if_neg (by decide), if_neg (by decide)] at hm
      cases hm
      obtain ⟨h1, h2⟩ := hs.trk o p hl
      obtain ⟨h2, h3⟩ := h2 ho
      have := varint_pos p
      refine ⟨Fine.copy (isTok_offset (by rw [hcl]; rfl) (fun _ => hc) h2 (h3 (by omega))) (by omega)
        (fun _ => ?_) (fun _ => rfl), ?_⟩
      · simp [tagVarint]; omega
      · show s.didx + 1 + (k - (s.didx + 1 + 1) + 1) = k; omega
  | object hcl hn => rcases hcl with h | h <;> rw [h] at hc <;> cases hc
  | @regexp j _ hcl hn hn' =>
    rw [mergeTag_eq _ _ _ _ _ (by rw [hcl]; simp), hcl] at hm
    obtain ⟨off, str, h1, h2⟩ := hn.read
    obtain ⟨j', rfl⟩ : ∃ j', j = j' + 1 := ⟨j - 1, by omega⟩
    obtain ⟨off', str', h3, h4⟩ := hn'.read
    unfold mergeC mergeRegexp at hm
    rw [h1] at hm
    simp only [bind, Except.bind] at hm
    rw [show s.didx + (off + str.length + 1) = j' by omega, h3] at hm
    cases hm
    exact sl _ _ (by rw [hcl]; rfl) (off + str.length + 1 + (off' + str'.length)) (by omega)

end Sereal

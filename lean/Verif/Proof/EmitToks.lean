import Verif.Proof.MergeAccepts
import Verif.Proof.EmitMain
import Verif.Spec.Portable
/-
What the encoder writes is a row of tokens.
-/
namespace Sereal

/-! ### Tokens in buffers that agree -/

theorem Span.congr {D D' : Bytes} {i j : Nat} {s : Bytes} (h : Span D i s j)
    (ha : ∀ p, i ≤ p → p < j → D'[p]? = D[p]?) : Span D' i s j := by
  obtain ⟨h1, h2⟩ := h
  refine ⟨?_, h2⟩
  rw [List.prefix_iff_getElem?] at h1 ⊢
  intro n hn
  have := h1 n hn
  rw [List.getElem?_drop] at this ⊢
  rw [ha (i + n) (by omega) (by omega)]
  exact this

theorem Vint.congr {D D' : Bytes} {i j n : Nat} (h : Vint wrtDialect D i n j)
    (ha : ∀ p, i ≤ p → p < j → D'[p]? = D[p]?) : Vint wrtDialect D' i n j := by
  obtain ⟨v, h1, h2, h3, h4⟩ := h
  exact ⟨v, h1, h2, h3.congr ha, h4⟩

theorem TagAt.same {D : Bytes} {i k : Nat} {b c : UInt8} (h : TagAt D i k b) (hc : D[i]? = some c)
    (hn : c.toNat < 128) (hp : c.toNat ≠ 0x3f) : k = i ∧ b = c := by
  obtain ⟨h1, h2, h3, h4⟩ := h
  by_cases hk : i < k
  · obtain ⟨p, h5, h6⟩ := h2 i (by omega) hk
    rw [hc] at h5
    cases h5
    omega
  · have : k = i := by omega
    subst this
    rw [hc] at h3
    cases h3
    exact ⟨rfl, rfl⟩

theorem Name.congr {D D' : Bytes} {i j : Nat} (h : Name D i j)
    (ha : ∀ p, i ≤ p → p < j → D'[p]? = D[p]?) : Name D' i j := by
  obtain ⟨b, s, h1, h2, h3, h4, h5⟩ := h
  have hlt := h5.lt
  have hb : D'[i]? = some b := by rw [ha i (by omega) hlt.1]; exact h1
  refine ⟨b, s, hb, h2, h3, h4, ?_⟩
  cases h5 with
  | long ht hc hv hn hs hl =>
    obtain ⟨rfl, rfl⟩ := ht.same h1 h2 h3
    have hj := hv.lt
    have := hs.2
    exact .long (TagAt.here' hb (by omega)) hc (hv.congr (fun p h6 h7 => ha p (by omega) (by omega))) hn
      (hs.congr (fun p h6 h7 => ha p (by omega) (by omega))) hl
  | short ht hc hs hl =>
    obtain ⟨rfl, rfl⟩ := ht.same h1 h2 h3
    exact .short (TagAt.here' hb (by omega)) hc (hs.congr (fun p h6 h7 => ha p (by omega) (by omega))) hl

theorem Name.lt {D : Bytes} {i k : Nat} (h : Name D i k) : i < k := by
  obtain ⟨_, _, _, _, _, _, h⟩ := h
  exact h.lt.1

theorem Tok.congr {D D' : Bytes} {vs : List Nat} {i k : Nat} {b b' : UInt8} (h : Tok D vs i b k)
    (hb : b'.toNat % 128 = b.toNat % 128) (hl : D.length ≤ D'.length)
    (ha : ∀ p, i < p → p < k → D'[p]? = D[p]?) : Tok D' vs i b' k := by
  cases h with
  | single h => exact .single (by rw [hb]; exact h)
  | number h hv => exact .number (by rw [hb]; exact h) (hv.congr fun p h1 h2 => ha p (by omega) h2)
  | float h h1 => exact .float (by rw [hb]; exact h) (by omega)
  | double h h1 => exact .double (by rw [hb]; exact h) (by omega)
  | long h hv hn h1 =>
    exact .long (by rw [hb]; exact h) (hv.congr fun p h1 h2 => ha p (by omega) (by omega)) hn (by omega)
  | short h h1 => exact .short (by rw [hb]; exact h) (by omega)
  | box h hv hn => exact .box (by rw [hb]; exact h) (hv.congr fun p h1 h2 => ha p (by omega) h2) hn
  | offset h hv h1 h2 =>
    exact .offset (by rw [hb]; exact h) (hv.congr fun p h1 h2 => ha p (by omega) h2) h1 h2
  | object h hn => exact .object (by rw [hb]; exact h) (hn.congr fun p h1 h2 => ha p (by omega) h2)
  | regexp h hn hn' =>
    have := hn.lt
    have := hn'.lt
    exact .regexp (by rw [hb]; exact h) (hn.congr fun p h1 h2 => ha p (by omega) (by omega))
      (hn'.congr fun p h1 h2 => ha p (by omega) h2)

theorem Toks.under {D : Bytes} {vs vs' : List Nat} {i j : Nat} (h : Toks D vs i vs' j) :
    ∀ x ∈ vs', x ∈ vs ∨ x < j := by
  induction h with
  | nil => exact fun x hx => .inl hx
  | @cons vs i b k vs' j hb ht hr ih =>
    intro x hx
    have := ht.lt (List.getElem?_eq_some_iff.1 hb).1
    have := hr.le
    rcases ih x hx with h | h
    · rcases List.mem_cons.1 h with rfl | h
      · exact .inr (by omega)
      · exact .inl h
    · exact .inr h

theorem Toks.congr {D D' : Bytes} {vs vs' : List Nat} {i j : Nat} (h : Toks D vs i vs' j) (hvs : ∀ x ∈ vs, x < i)
    (hl : D.length ≤ D'.length) (ha : ∀ p, i ≤ p → p < j → p ∉ vs' → D'[p]? = D[p]?)
    (hp : ∀ p ∈ vs', i ≤ p → ∀ b, D[p]? = some b → ∃ b', D'[p]? = some b' ∧ b'.toNat % 128 = b.toNat % 128) :
    Toks D' vs i vs' j := by
  induction h with
  | nil => exact .nil
  | @cons vs i b k vs' j hb ht hr ih =>
    have hlt := (ht.lt (List.getElem?_eq_some_iff.1 hb).1).1
    have hle := hr.le
    have hin : i ∈ vs' := hr.places.2 i (by simp)
    obtain ⟨b', h1, h2⟩ := hp i hin (Nat.le_refl _) b hb
    refine .cons h1 (ht.congr h2 hl fun p h3 h4 => ha p (by omega) (by omega) fun h5 => ?_) (ih ?_ ?_ ?_)
    · rcases hr.places.1 p h5 with h | h
      · rcases List.mem_cons.1 h with rfl | h
        · omega
        · have := hvs p h; omega
      · omega
    · intro x hx
      rcases List.mem_cons.1 hx with rfl | hx
      · exact hlt
      · have := hvs x hx; omega
    · exact fun p h3 h4 => ha p (by omega) h4
    · exact fun p h3 h4 => hp p h3 (by omega)

/-! ### Rows of two kinds -/

/-- Any tokens (`q` is false), or those the merger carries over. -/
inductive Rows (q : Bool) (D : Bytes) : List Nat → Nat → List Nat → Nat → Prop
  | nil {vs i} : Rows q D vs i vs i
  | cons {vs i b k vs' j} : D[i]? = some b → (q = true → (classify (b.toNat % 128)).carried = true) → Tok D vs i b k →
      Rows q D (if q && !(classify (b.toNat % 128)).textual then vs else i :: vs) k vs' j → Rows q D vs i vs' j

theorem Rows.toks {D : Bytes} {vs vs' : List Nat} {i j : Nat} (h : Rows false D vs i vs' j) : Toks D vs i vs' j := by
  induction h with
  | nil => exact .nil
  | cons hb _ ht _ ih => exact .cons hb ht ih

theorem Rows.carried {D : Bytes} {vs vs' : List Nat} {i j : Nat} (h : Rows true D vs i vs' j) : Portable D vs i vs' j := by
  induction h with
  | nil => exact .nil
  | @cons vs i b k vs' j hb hc ht _ ih =>
    refine .cons hb (hc rfl) ht ?_
    cases hx : (classify (b.toNat % 128)).textual <;> rw [hx] at ih <;> exact ih

theorem Portable.rows {D : Bytes} {vs vs' : List Nat} {i j : Nat} (h : Portable D vs i vs' j) : Rows true D vs i vs' j := by
  induction h with
  | nil => exact .nil
  | @cons vs i b k vs' j hb hc ht _ ih =>
    refine .cons hb (fun _ => hc) ht ?_
    cases hx : (classify (b.toNat % 128)).textual <;> rw [hx] at ih <;> exact ih

variable {q : Bool}

/-- The places known behind a token. -/
theorem pushed {b : UInt8} {i : Nat} {vs : List Nat} {x : Nat}
    (h : x ∈ (if q && !(classify (b.toNat % 128)).textual then vs else i :: vs)) : x = i ∨ x ∈ vs := by
  split at h
  · exact .inr h
  · exact List.mem_cons.1 h

theorem pushed_old {b : UInt8} {i : Nat} {vs : List Nat} {x : Nat} (h : x ∈ vs) :
    x ∈ (if q && !(classify (b.toNat % 128)).textual then vs else i :: vs) := by
  split
  · exact h
  · exact List.mem_cons_of_mem _ h

theorem pushed_new {b : UInt8} {i : Nat} {vs : List Nat} (h : q = false ∨ (classify (b.toNat % 128)).textual = true) :
    i ∈ (if q && !(classify (b.toNat % 128)).textual then vs else i :: vs) := by
  rw [if_neg]
  · exact List.mem_cons_self
  · rcases h with h | h <;> rw [h] <;> simp

theorem Rows.trans {D : Bytes} {vs vs' vs'' : List Nat} {i j k : Nat} (h : Rows q D vs i vs' j)
    (h' : Rows q D vs' j vs'' k) : Rows q D vs i vs'' k := by
  induction h with
  | nil => exact h'
  | cons hb hc ht _ ih => exact .cons hb hc ht (ih h')

theorem Rows.le {D : Bytes} {vs vs' : List Nat} {i j : Nat} (h : Rows q D vs i vs' j) : i ≤ j := by
  induction h with
  | nil => omega
  | cons hb _ ht _ ih => have := ht.lt (List.getElem?_eq_some_iff.1 hb).1; omega

theorem Rows.places {D : Bytes} {vs vs' : List Nat} {i j : Nat} (h : Rows q D vs i vs' j) :
    (∀ x ∈ vs', x ∈ vs ∨ (i ≤ x ∧ x < j)) ∧ ∀ x ∈ vs, x ∈ vs' := by
  induction h with
  | nil => exact ⟨fun x hx => .inl hx, fun x hx => hx⟩
  | @cons vs i b k vs' j hb _ ht hr ih =>
    have := ht.lt (List.getElem?_eq_some_iff.1 hb).1
    have := hr.le
    refine ⟨fun x hx => ?_, fun x hx => ih.2 x (pushed_old hx)⟩
    rcases ih.1 x hx with h | h
    · rcases pushed h with rfl | h
      · exact .inr (by omega)
      · exact .inl h
    · exact .inr (by omega)

/-- Bytes may change behind the row, and track bits at its places. -/
theorem Rows.congr {D D' : Bytes} {vs vs' : List Nat} {i j : Nat} (h : Rows q D vs i vs' j) (hvs : ∀ x ∈ vs, x < i)
    (hl : D.length ≤ D'.length) (ha : ∀ p, i ≤ p → p < j → p ∉ vs' → D'[p]? = D[p]?)
    (hp : ∀ p ∈ vs', i ≤ p → ∀ b, D[p]? = some b → ∃ b', D'[p]? = some b' ∧ b'.toNat % 128 = b.toNat % 128) :
    Rows q D' vs i vs' j := by
  induction h with
  | nil => exact .nil
  | @cons vs i b k vs' j hb hc ht hr ih =>
    have hlt := (ht.lt (List.getElem?_eq_some_iff.1 hb).1).1
    have hle := hr.le
    have hb' : ∃ b', D'[i]? = some b' ∧ b'.toNat % 128 = b.toNat % 128 := by
      by_cases hin : i ∈ vs'
      · exact hp i hin (Nat.le_refl _) b hb
      · exact ⟨b, by rw [ha i (Nat.le_refl _) (by omega) hin]; exact hb, rfl⟩
    obtain ⟨b', h1, h2⟩ := hb'
    have hx : ∀ x ∈ (if q && !(classify (b.toNat % 128)).textual then vs else i :: vs), x < k := by
      intro x hx
      rcases pushed hx with rfl | hx
      · exact hlt
      · have := hvs x hx; omega
    refine .cons h1 (by rw [h2]; exact hc) (ht.congr h2 hl fun p h3 h4 => ha p (by omega) (by omega) fun h5 => ?_) ?_
    · rcases hr.places.1 p h5 with h | h
      · rcases pushed h with rfl | h
        · omega
        · have := hvs p h; omega
      · omega
    · rw [h2]
      exact ih hx (fun p h3 h4 => ha p (by omega) h4) (fun p h3 h4 => hp p h3 (by omega))

/-! ### The encoder's state -/

/-- What has been written is a row of tokens, and the tables name tokens. -/
structure TInv (q : Bool) (s : EState) (vs : List Nat) : Prop where
  toks : Rows q s.buf [] 1 vs s.buf.length
  strs : ∀ k o, s.strTable k = some o → o ∈ vs ∧ o + 1 < s.buf.length
  ptrs : ∀ a o, s.ptrTable a = some o → o ∈ vs

/-- No pointer leads to the last byte. -/
def Strict (s : EState) : Prop := ∀ a o, s.ptrTable a = some o → o + 1 < s.buf.length

theorem TInv.lt {s : EState} {vs : List Nat} (h : TInv q s vs) {o : Nat} (ho : o ∈ vs) : 1 ≤ o ∧ o < s.buf.length := by
  rcases h.toks.places.1 o ho with h1 | h1
  · cases h1
  · exact h1

/-- The bytes `w` are a token when they stand at `p`, behind the tokens `vs`. -/
def IsTok (q : Bool) (vs : List Nat) (p : Nat) (w : Bytes) : Prop :=
  ∃ b w', w = b :: w' ∧ (q = true → (classify (b.toNat % 128)).carried = true) ∧ ∀ D, Span D p w (p + w.length) → p + w.length < 2 ^ 31 → Tok D vs p b (p + w.length)

theorem TInv.emit {s : EState} {vs : List Nat} (h : TInv q s vs) {w : Bytes} (hw : IsTok q vs s.buf.length w)
    (hsz : s.buf.length + w.length < 2 ^ 31) :
    ∃ vs', TInv q { s with buf := s.buf ++ w } vs' ∧ Strict { s with buf := s.buf ++ w } ∧ (∀ o ∈ vs, o ∈ vs') ∧
      ((q = false ∨ ∃ b, w.head? = some b ∧ (classify (b.toNat % 128)).textual = true) → s.buf.length ∈ vs') := by
  obtain ⟨b, w', rfl, hk, ht⟩ := hw
  have hl : (s.buf ++ b :: w').length = s.buf.length + (b :: w').length := List.length_append
  have hsp : Span (s.buf ++ b :: w') s.buf.length (b :: w') (s.buf.length + (b :: w').length) :=
    ⟨by rw [List.drop_left]; exact List.prefix_refl _, rfl⟩
  have hpos : 1 ≤ (b :: w').length := by simp
  refine ⟨_, ⟨?_, ?_, ?_⟩, ?_, fun o ho => pushed_old (q := q) (b := b) (i := s.buf.length) ho, ?_⟩
  · have h1 : Rows q (s.buf ++ b :: w') [] 1 vs s.buf.length := by
      refine h.toks.congr (by simp) (by simp) ?_ ?_
      · intro p _ h2 _; rw [List.getElem?_append_left h2]
      · intro p h2 _ b hb
        exact ⟨b, by rw [List.getElem?_append_left (h.lt h2).2]; exact hb, rfl⟩
    refine h1.trans ?_
    show Rows q _ vs _ _ (s.buf ++ b :: w').length
    rw [hl]
    exact .cons hsp.head.1 hk (ht _ hsp hsz) .nil
  · intro k o ho
    obtain ⟨h1, h2⟩ := h.strs k o ho
    refine ⟨pushed_old h1, ?_⟩
    show _ < (s.buf ++ b :: w').length
    omega
  · intro a o ho
    exact pushed_old (h.ptrs a o ho)
  · intro a o ho
    have := (h.lt (h.ptrs a o ho)).2
    show _ < (s.buf ++ b :: w').length
    omega
  · rintro (h1 | ⟨b', h1, h2⟩)
    · exact pushed_new (.inl h1)
    · cases h1; exact pushed_new (.inr h2)

/-- One item: at least `w` bytes. -/
def EncToks (q : Bool) (x : E Unit) (P : Prop) (w : Nat) : Prop :=
  ∀ s s', x s = .ok ((), s') → s.buf.length + w ≤ s'.buf.length ∧
    ∀ vs, TInv q s vs → (P → Strict s) → s'.buf.length < 2 ^ 31 →
      ∃ vs', TInv q s' vs' ∧ Strict s' ∧ (∀ o ∈ vs, o ∈ vs') ∧ (q = false → s.buf.length ∈ vs')

/-- Any number of items. -/
def EncRow (q : Bool) (x : E Unit) (w : Nat) : Prop :=
  ∀ s s', x s = .ok ((), s') → s.buf.length + w ≤ s'.buf.length ∧
    ∀ vs, TInv q s vs → Strict s → s'.buf.length < 2 ^ 31 →
      ∃ vs', TInv q s' vs' ∧ Strict s' ∧ ∀ o ∈ vs, o ∈ vs'

theorem EncToks.row {x : E Unit} {P : Prop} {w : Nat} (h : EncToks q x P w) : EncRow q x w := by
  intro s s' he
  obtain ⟨h1, h2⟩ := h s s' he
  refine ⟨h1, fun vs hi hs hl => ?_⟩
  obtain ⟨vs', h3, h4, h5, -⟩ := h2 vs hi (fun _ => hs) hl
  exact ⟨vs', h3, h4, h5⟩

theorem EncToks.weaken {x : E Unit} {P Q : Prop} {w v : Nat} (h : EncToks q x P w) (hp : P → Q) (hv : v ≤ w) :
    EncToks q x Q v := by
  intro s s' he
  obtain ⟨h1, h2⟩ := h s s' he
  exact ⟨by omega, fun vs hi hs hl => h2 vs hi (fun hq => hs (hp hq)) hl⟩

theorem EncRow.weaken {x : E Unit} {w v : Nat} (h : EncRow q x w) (hv : v ≤ w) : EncRow q x v := by
  intro s s' he
  obtain ⟨h1, h2⟩ := h s s' he
  exact ⟨by omega, h2⟩

theorem EncRow.nil : EncRow q (pure ()) 0 := by
  intro s s' he
  obtain ⟨-, rfl⟩ := E.pure_ok.1 he
  exact ⟨by omega, fun vs hi hs _ => ⟨vs, hi, hs, fun o ho => ho⟩⟩

theorem EncRow.seq {x y : E Unit} {v w : Nat} (hx : EncRow q x v) (hy : EncRow q y w) :
    EncRow q (x >>= fun _ => y) (v + w) := by
  intro s s' he
  obtain ⟨⟨⟩, s1, h1, h2⟩ := E.bind_ok.1 he
  obtain ⟨a1, a2⟩ := hx s s1 h1
  obtain ⟨b1, b2⟩ := hy s1 s' h2
  refine ⟨by omega, fun vs hi hs hl => ?_⟩
  obtain ⟨vs1, c1, c2, c3⟩ := a2 vs hi hs (by omega)
  obtain ⟨vs2, d1, d2, d3⟩ := b2 vs1 c1 c2 hl
  exact ⟨vs2, d1, d2, fun o ho => d3 o (c3 o ho)⟩

theorem EncToks.seq {x y : E Unit} {P : Prop} {v w : Nat} (hx : EncToks q x P v) (hy : EncRow q y w) :
    EncToks q (x >>= fun _ => y) P (v + w) := by
  intro s s' he
  obtain ⟨⟨⟩, s1, h1, h2⟩ := E.bind_ok.1 he
  obtain ⟨a1, a2⟩ := hx s s1 h1
  obtain ⟨b1, b2⟩ := hy s1 s' h2
  refine ⟨by omega, fun vs hi hs hl => ?_⟩
  obtain ⟨vs1, c1, c2, c3, c4⟩ := a2 vs hi hs (by omega)
  obtain ⟨vs2, d1, d2, d3⟩ := b2 vs1 c1 c2 hl
  exact ⟨vs2, d1, d2, fun o ho => d3 o (c3 o ho), fun hq => d3 _ (c4 hq)⟩

theorem encToks_emit {w : Bytes} {P : Prop} (hw : ∀ vs p, IsTok q vs p w) : EncToks q (emit w) P w.length := by
  intro s s' he
  obtain rfl := emit_ok.1 he
  have hl : (s.buf ++ w).length = s.buf.length + w.length := List.length_append
  refine ⟨by show _ ≤ (s.buf ++ w).length; omega, fun vs hi _ hsz => ?_⟩
  change (s.buf ++ w).length < _ at hsz
  obtain ⟨vs', h1, h2, h3, h4⟩ := hi.emit (hw vs _) (by omega)
  exact ⟨vs', h1, h2, h3, fun hq => h4 (.inl hq)⟩

/-- A tag with a payload, then items.  What the payload may be is known from what follows. -/
theorem encToks_open {w : Bytes} {P : Prop} {x : E Unit} {n : Nat} (hx : EncRow q x n)
    (hw : n < 2 ^ 31 → ∀ vs p, IsTok q vs p w) :
    EncToks q (emit w >>= fun _ => x) P (w.length + n) := by
  intro s s' he
  obtain ⟨⟨⟩, s1, h1, h2⟩ := E.bind_ok.1 he
  obtain rfl := emit_ok.1 h1
  obtain ⟨b1, b2⟩ := hx _ s' h2
  have hl : (s.buf ++ w).length = s.buf.length + w.length := List.length_append
  change (s.buf ++ w).length + n ≤ _ at b1
  refine ⟨by omega, fun vs hi hs hsz => ?_⟩
  obtain ⟨vs1, h3, h4, h5, h6⟩ := hi.emit (hw (by omega) vs _) (by omega)
  obtain ⟨vs2, d1, d2, d3⟩ := b2 _ h3 h4 hsz
  exact ⟨vs2, d1, d2, fun o ho => d3 o (h5 o ho), fun hq => d3 _ (h6 (.inl hq))⟩

/-! ### Tokens by kind -/

theorem single_carried {t : TagC} (h : t.single = true) : t.carried = true := by
  cases t <;> first | rfl | cases h

theorem isTok_single {b : UInt8} (h : (classify (b.toNat % 128)).single = true) (vs : List Nat) (p : Nat) : IsTok q vs p [b] :=
  ⟨b, [], rfl, fun _ => single_carried h, fun _ _ _ => .single h⟩

theorem isTok_number {b : UInt8} {n : Nat}
    (h : classify (b.toNat % 128) = .varint ∨ classify (b.toNat % 128) = .zigzag) (hn : n < 2 ^ 64) (vs : List Nat) (p : Nat) :
    IsTok q vs p (b :: varint n) :=
  ⟨b, _, rfl, fun _ => by rcases h with h | h <;> rw [h] <;> rfl, fun _ hs _ => .number h (Vint.of_span hs.head.2 hn)⟩

theorem span_len {D w : Bytes} {i j : Nat} (h : Span D i w j) (hw : w ≠ []) : j ≤ D.length := by
  obtain ⟨h1, rfl⟩ := h
  have h2 := h1.length_le
  rw [List.length_drop] at h2
  have : 0 < w.length := by cases w <;> simp_all
  omega

theorem isTok_strItem (s : Bytes) (vs : List Nat) (p : Nat) : IsTok q vs p (strItem s) := by
  refine ⟨_, _, rfl, fun _ => by decide, fun D hs hl => ?_⟩
  have hlen := strItem_length s
  have hin := span_len hs (by simp [strItem])
  obtain ⟨h1, h2⟩ := Span.split (s := varint s.length) (t := s) hs.head.2
  have := h2.2
  rw [show p + (strItem s).length = p + 1 + (varint s.length).length + s.length by simp [strItem]; omega] at hin ⊢
  exact .long (.inr (by decide)) (Vint.of_span h1 (by omega)) (by unfold maxSize; omega) hin

theorem isTok_binItem (s : Bytes) (vs : List Nat) (p : Nat) : IsTok q vs p (binItem s) := by
  have hlen := binItem_length s
  by_cases h : s.length < 32
  · have he : binItem s = (typeSHORT_BINARY_0 + UInt8.ofNat s.length) :: s := by unfold binItem; rw [if_pos h]
    have hcl : classify ((typeSHORT_BINARY_0 + UInt8.ofNat s.length).toNat % 128) = .short s.length := by
      rw [binItem_tag h, Nat.mod_eq_of_lt (by omega), classify_shortN h]
    refine ⟨_, _, he, fun _ => by rw [hcl]; rfl, fun D hs hl => ?_⟩
    have hin := span_len hs (by rw [he]; simp)
    rw [he, List.length_cons] at hin ⊢
    rw [show p + (s.length + 1) = p + 1 + s.length by omega] at hin ⊢
    exact .short hcl hin
  · have he : binItem s = typeBINARY :: varint s.length ++ s := by unfold binItem; rw [if_neg h]
    refine ⟨_, _, he, fun _ => by decide, fun D hs hl => ?_⟩
    have hin := span_len hs (by rw [he]; simp)
    have hl' : (binItem s).length = 1 + (varint s.length).length + s.length := by rw [he]; simp; omega
    have hs' : Span D p (typeBINARY :: (varint s.length ++ s)) (p + (binItem s).length) := by
      rw [he] at hs ⊢; exact hs
    obtain ⟨h1, h2⟩ := Span.split (s := varint s.length) (t := s) hs'.head.2
    rw [show p + (binItem s).length = p + 1 + (varint s.length).length + s.length by omega] at hin ⊢
    exact .long (.inl (by decide)) (Vint.of_span h1 (by omega)) (by unfold maxSize; omega) hin

theorem isTok_box {b : UInt8} {n : Nat} (h : classify (b.toNat % 128) = .array ∨ classify (b.toNat % 128) = .hash)
    (hn : n < 2 ^ 31) (vs : List Nat) (p : Nat) : IsTok q vs p (b :: varint n) :=
  ⟨b, _, rfl, fun _ => by rcases h with h | h <;> rw [h] <;> rfl, fun _ hs _ => .box h (Vint.of_span hs.head.2 (by omega)) (by unfold maxSize; omega)⟩

theorem isTok_offset {b : UInt8} {o p : Nat} (h : (classify (b.toNat % 128)).points = true) {vs : List Nat}
    (hk : q = true → (classify (b.toNat % 128)).carried = true) (ho : o ∈ vs) (hs : o + 1 < p) :
    IsTok q vs p (b :: varint o) :=
  ⟨b, _, rfl, hk, fun _ h1 h2 => .offset h (Vint.of_span h1.head.2 (by omega)) ho hs⟩

theorem name_strItem {D : Bytes} {p k : Nat} {s : Bytes} (h : Span D p (strItem s) k) (hs : s ≠ [])
    (hl : s.length ≤ maxSize) : Name D p k :=
  ⟨_, s, h.head.1, by decide, by decide, hs, Lit.of_strItem h hl⟩

theorem name_binItem {D : Bytes} {p k : Nat} {s : Bytes} (h : Span D p (binItem s) k) (hs : s ≠ [])
    (hl : s.length ≤ maxSize) : Name D p k := by
  have hL := Lit.of_binItem h hl
  unfold binItem at h
  split at h
  · next hlt =>
    have := binItem_tag hlt
    exact ⟨_, s, h.head.1, by omega, by omega, hs, hL⟩
  · exact ⟨_, s, (Span.head (s := varint s.length ++ s) h).1, by decide, by decide, hs, hL⟩

/-! ### Items -/

theorem varint_pos (n : Nat) : 1 ≤ (varint n).length := by rw [varint]; split <;> simp

theorem strItem_two (s : Bytes) : 2 ≤ (strItem s).length := by
  have := varint_pos s.length
  simp [strItem]; omega

theorem encToks_key (c : ECfg) (k : Bytes) (b : Bool) : EncToks q (encodeString c k b) False 2 := by
  have plain : EncToks q (emit (strItem k)) False 2 :=
    (encToks_emit (q := q) fun vs p => isTok_strItem k vs p).weaken (fun h => h) (strItem_two k)
  unfold encodeString
  split
  · intro s s' he
    obtain ⟨st, s1, h1, h2⟩ := E.bind_ok.1 he
    obtain ⟨rfl, rfl⟩ := E.get_ok.1 h1
    cases hk : s1.strTable k with
    | some o =>
      rw [hk] at h2
      obtain rfl := emit_ok.1 h2
      have hl : (s1.buf ++ copyItem o).length = s1.buf.length + (copyItem o).length := List.length_append
      have hl2 : 2 ≤ (copyItem o).length := by have := varint_pos o; simp [copyItem]; omega
      refine ⟨by show _ ≤ (s1.buf ++ _).length; omega, fun vs hi _ hsz => ?_⟩
      change (s1.buf ++ _).length < _ at hsz
      obtain ⟨o1, o2⟩ := hi.strs k o hk
      obtain ⟨vs', h3, h4, h5, h6⟩ := hi.emit (w := copyItem o)
        (isTok_offset (b := typeCOPY) rfl (fun _ => by decide) o1 o2) (by omega)
      exact ⟨vs', h3, h4, h5, fun hq => h6 (.inl hq)⟩
    | none =>
      rw [hk] at h2
      obtain ⟨⟨⟩, s2, h3, h4⟩ := E.bind_ok.1 h2
      cases h3
      obtain rfl := emit_ok.1 h4
      have hl : (s1.buf ++ strItem k).length = s1.buf.length + (strItem k).length := List.length_append
      have hl2 := strItem_two k
      refine ⟨by show _ ≤ (s1.buf ++ _).length; omega, fun vs hi _ hsz => ?_⟩
      change (s1.buf ++ _).length < _ at hsz
      obtain ⟨vs', h5, h6, h7, h8⟩ := hi.emit (isTok_strItem k vs _) (by omega)
      refine ⟨vs', ⟨h5.toks, ?_, h5.ptrs⟩, h6, h7, fun hq => h8 (.inl hq)⟩
      intro k' o ho
      change (if k' = k then some s1.buf.length else s1.strTable k') = some o at ho
      split at ho
      · cases ho
        refine ⟨h8 (.inr ⟨typeSTR_UTF8, rfl, by decide⟩), ?_⟩
        show _ < (s1.buf ++ _).length
        omega
      · exact h5.strs k' o ho
  · exact plain

theorem encRow_elems {rec : Val → E Unit} {vs : List Val} (h : ∀ v ∈ vs, EncRow q (rec v) 1) :
    EncRow q (encodeElems rec vs) vs.length := by
  induction vs with
  | nil => exact EncRow.nil
  | cons v vs ih =>
    have := (h v (by simp)).seq (ih fun v hv => h v (by simp [hv]))
    rw [Nat.add_comm] at this
    exact this

theorem encRow_pairs {key : Bytes → E Unit} {rec : Val → E Unit} {kvs : List (Bytes × Val)} {ks : List Bytes}
    (hk : ∀ k, EncRow q (key k) 2) (h : ∀ k ∈ ks, EncRow q (rec ((mapLookup k kvs).getD .nil)) 1) :
    EncRow q (encodePairs key rec kvs ks) ks.length := by
  induction ks with
  | nil => exact EncRow.nil
  | cons k ks ih =>
    have := (hk k).seq ((h k (by simp)).seq (ih fun k hk => h k (by simp [hk])))
    intro s s' he
    obtain ⟨h1, h2⟩ := this s s' he
    exact ⟨by rw [List.length_cons]; omega, h2⟩

theorem encRow_fields {c : ECfg} {rec : Val → E Unit} {tags : List (Bytes × Field)} {ks : List Bytes}
    (h : ∀ k ∈ ks, ∀ f, mapLookup k tags = some f → EncRow q (rec f.val) 1) :
    EncRow q (encodeFields c rec tags ks) ks.length := by
  induction ks with
  | nil => exact EncRow.nil
  | cons k ks ih =>
    have ih := ih fun k hk => h k (by simp [hk])
    have hk := (encToks_key (q := q) c k true).row
    suffices ∃ w, EncRow q (encodeFields c rec tags (k :: ks)) (2 + w + ks.length) by
      obtain ⟨w, hw⟩ := this
      intro s s' he
      obtain ⟨h1, h2⟩ := hw s s' he
      exact ⟨by rw [List.length_cons]; omega, h2⟩
    unfold encodeFields
    cases hf : mapLookup k tags with
    | none => exact ⟨0, (hk.seq (EncRow.nil.seq ih)).weaken (by omega)⟩
    | some f =>
      dsimp only
      split
      · refine ⟨0, ?_⟩
        intro s s' he
        obtain ⟨_, _, _, h2⟩ := E.bind_ok.1 he
        obtain ⟨_, _, h3, _⟩ := E.bind_ok.1 h2
        cases h3
      · exact ⟨1, (hk.seq ((h k (by simp) f hf).seq ih)).weaken (by omega)⟩

theorem encRow_range {c : ECfg} {ks : List Bytes} (hord : ∀ n ks, (c.ord n ks).Perm ks) {f : List Bytes → E Unit}
    (h : ∀ ks', ks'.Perm ks → EncRow q (f ks') ks'.length) : EncRow q (rangeKeys c ks >>= f) ks.length := by
  intro s s' he
  obtain ⟨ks', s1, h1, h2⟩ := E.bind_ok.1 he
  cases h1
  have hp := hord s.visits ks
  have := h _ hp _ s' h2
  rw [hp.length_eq] at this
  exact ⟨this.1, fun vs hi hs hl => this.2 vs ⟨hi.toks, hi.strs, hi.ptrs⟩ hs hl⟩

theorem encToks_opt (b : Bool) {x : E Unit} {P : Prop} {w : Nat} (h : EncToks q x P w) :
    EncToks q (if b then (emit [typeREFN] >>= fun _ => x) else x) P w := by
  cases b with
  | false => exact h
  | true =>
    exact ((encToks_emit (q := q) fun vs p => isTok_single (b := typeREFN) rfl vs p).seq h.row).weaken (fun h => h) (by simp)

theorem structTags_mem {fs : List Field} {k : Bytes} {f : Field} (h : mapLookup k (structTags fs []) = some f) :
    f ∈ fs := by
  rw [structTags_eq, insertAll_lookup] at h
  simp only [mapLookup, Option.or_none] at h
  have hm : ∀ {xs : List (Bytes × Field)}, mapLookup k xs = some f → (k, f) ∈ xs := by
    intro xs
    induction xs with
    | nil => intro h; cases h
    | cons e xs ih =>
      obtain ⟨k1, v1⟩ := e
      intro h
      simp only [mapLookup] at h
      split at h
      · next hk => cases h; subst hk; simp
      · exact List.mem_cons_of_mem _ (ih h)
  have := hm h
  rw [List.mem_reverse, List.mem_filterMap] at this
  obtain ⟨f', h1, h2⟩ := this
  cases he : effName f' with
  | none => rw [he] at h2; cases h2
  | some k' => rw [he] at h2; cases h2; exact h1

theorem encToks_arr {c : ECfg} {rec : Val → E Unit} {vs : List Val} (rn : Bool) (h : ∀ v ∈ vs, EncRow q (rec v) 1) :
    EncToks q (encodeArr c rec vs rn) False 2 := by
  unfold encodeArr
  refine encToks_opt _ ((encToks_open (encRow_elems h) fun hn vs p => isTok_box (b := typeARRAY) (.inl rfl) hn vs p).weaken
    (fun h => h) ?_)
  have := varint_pos vs.length
  simp; omega

theorem encToks_mp {c : ECfg} (hord : ∀ n ks, (c.ord n ks).Perm ks) {rec : Val → E Unit} {kvs : List (Bytes × Val)}
    (rn b : Bool) (h : ∀ k ∈ kvs.map (·.1), EncRow q (rec ((mapLookup k kvs).getD .nil)) 1) :
    EncToks q (encodeMp c rec kvs rn b) False 2 := by
  unfold encodeMp
  have hr := encRow_range hord (ks := kvs.map (·.1)) (f := fun ks => encodePairs (fun k => encodeString c k b) rec kvs ks)
    (fun ks' hp => encRow_pairs (fun k => (encToks_key c k b).row) fun k hk => h k (hp.mem_iff.1 hk))
  rw [List.length_map] at hr
  refine encToks_opt _ ((encToks_open hr fun hn vs p => isTok_box (b := typeHASH) (.inr rfl) hn vs p).weaken (fun h => h) ?_)
  have := varint_pos kvs.length
  simp; omega

theorem emit_emit {w v : Bytes} {x : E Unit} : (do emit w; emit v; x) = (do emit (w ++ v); x) := by
  funext s
  show E.bind (emit w) (fun _ => E.bind (emit v) fun _ => x) s = E.bind (emit (w ++ v)) (fun _ => x) s
  unfold E.bind emit
  simp

theorem emit_then {w v : Bytes} : (do emit w; emit v) = emit (w ++ v) := by
  funext s
  show E.bind (emit w) (fun _ => emit v) s = _
  unfold E.bind emit
  simp

theorem encodeBytes_off {c : ECfg} (hd : c.disableDedup = true) (s : Bytes) (b : Bool) :
    encodeBytes c s b = emit (binItem s) := by
  unfold encodeBytes; rw [hd]; rfl

theorem encodeString_off {c : ECfg} (hd : c.disableDedup = true) (s : Bytes) (b : Bool) :
    encodeString c s b = emit (strItem s) := by
  unfold encodeString; rw [hd]; rfl

theorem isTok_object {b : UInt8} {cls w : Bytes}
    (h : classify (b.toNat % 128) = .object ∨ classify (b.toNat % 128) = .freeze) (hc : cls ≠ [])
    (hk : q = false) (hw : w = binItem cls ∨ w = strItem cls) (vs : List Nat) (p : Nat) : IsTok q vs p ([b] ++ w) := by
  refine ⟨b, w, rfl, (fun h => by rw [hk] at h; cases h), fun D hs hl => ?_⟩
  have h2 := (Span.head (s := w) hs).2
  simp only [List.length_append, List.length_cons, List.length_nil] at hl
  refine .object h ?_
  rcases hw with rfl | rfl
  · have := binItem_length cls
    exact name_binItem h2 hc (by unfold maxSize; omega)
  · have := strItem_length cls
    exact name_strItem h2 hc (by unfold maxSize; omega)

theorem isTok_regexp {pat mods : Bytes} (hp : pat ≠ []) (hm : mods ≠ []) (vs : List Nat) (p : Nat) :
    IsTok q vs p ([typeREGEXP] ++ (binItem pat ++ binItem mods)) := by
  refine ⟨typeREGEXP, _, rfl, fun _ => by decide, fun D hs hl => ?_⟩
  have h2 := (Span.head (s := binItem pat ++ binItem mods) hs).2
  simp only [List.length_append, List.length_cons, List.length_nil] at hl
  obtain ⟨h3, h4⟩ := Span.split h2
  have := binItem_length pat
  have := binItem_length mods
  exact .regexp (by decide) (name_binItem h3 hp (by unfold maxSize; omega)) (name_binItem h4 hm (by unfold maxSize; omega))

theorem encToks_strct (hA : q = false) {c : ECfg} (hord : ∀ n ks, (c.ord n ks).Perm ks) (hd : c.disableDedup = true)
    {rec : Val → E Unit} {name : Bytes} (hn : name ≠ []) {fs : List Field} (h : ∀ f ∈ fs, EncRow q (rec f.val) 1) :
    EncToks q (encodeStrct c rec name fs) False 1 := by
  unfold encodeStrct
  rw [encodeBytes_off hd]
  dsimp only
  rw [emit_emit]
  have hr := encRow_range hord (ks := (structTags fs []).map (·.1))
    (f := fun ks => encodeFields c rec (structTags fs []) ks)
    (fun ks' hp => encRow_fields fun k hk f hf => h f (structTags_mem hf))
  rw [List.length_map] at hr
  have hb := encToks_opt c.perlCompat (encToks_open (P := False) hr fun hn vs p => isTok_box (b := typeHASH) (.inr rfl) hn vs p)
  exact ((encToks_emit (w := [typeOBJECT] ++ binItem name) fun vs p => isTok_object (b := typeOBJECT) (.inl rfl) hn hA (.inl rfl) vs p).seq hb.row).weaken
    (fun h => h) (by simp only [List.length_append, List.length_cons]; omega)

/-! ### Numbers -/

theorem isTok_int (isInt : Bool) (i : Int64) (vs : List Nat) (p : Nat) : IsTok q vs p (encodeInt isInt i) := by
  have h64 : ∀ n : UInt64, n.toNat < 2 ^ 64 := fun n => n.toNat_lt
  unfold encodeInt
  split
  · refine isTok_single ?_ vs p
    rw [and0f, Nat.mod_eq_of_lt (by omega), classify_pos (by omega)]
    rfl
  split
  · refine isTok_single ?_ vs p
    rw [or10, Nat.mod_eq_of_lt (by omega), classify_neg (by omega) (by omega)]
    rfl
  split
  · exact isTok_number (.inl (by decide)) (h64 _) vs p
  split
  · exact isTok_number (.inr (by decide)) (h64 _) vs p
  · exact isTok_number (.inl (by decide)) (h64 _) vs p

theorem isTok_float (u : UInt32) (vs : List Nat) (p : Nat) : IsTok q vs p (encodeFloat u) :=
  ⟨typeFLOAT, _, rfl, fun _ => by decide, fun _ hs _ => .float (by decide) (span_len hs (by simp [encodeFloat]))⟩

theorem isTok_double (u : UInt64) (vs : List Nat) (p : Nat) : IsTok q vs p (encodeDouble u) :=
  ⟨typeDOUBLE, _, rfl, fun _ => by decide, fun _ hs _ => .double (by decide) (span_len hs (by simp [encodeDouble]))⟩

theorem IsTok.pos {vs : List Nat} {p : Nat} {w : Bytes} (h : IsTok q vs p w) : 1 ≤ w.length := by
  obtain ⟨b, w', rfl, -, -⟩ := h
  simp

theorem encToks_leaf {w : Bytes} {P : Prop} (h : ∀ vs p, IsTok q vs p w) : EncToks q (emit w) P 1 :=
  (encToks_emit h).weaken (fun h => h) (h [] 0).pos

/-! ### Pointers -/

/-- How many bytes a value takes at least: two for those whose data a pointer may be recorded for. -/
def wide : Val → Nat
  | .slice _ _ | .rslice _ _ | .smap _ | .rmap _ | .str _ | .nstr _ | .bin (_ :: _) => 2
  | _ => 1

/-- The value may be written as a bare reference. -/
def Direct : Val → Prop
  | .ptr _ _ => True
  | .marshaler _ _ under => Direct under
  | _ => False

theorem aimable_direct {v : Val} (h : Aimable v) : ¬ Direct v := by
  cases v <;> first | exact fun h => h | exact h.elim

theorem aimable_wide {c : ECfg} {inp : Heap} {iface : Bool} {a r : Addr} (h : Aimable (inp.cellAt a))
    (hr : getPointer c inp iface a = .ok r) (hn : r ≠ 0) : wide (inp.cellAt a) = 2 := by
  unfold getPointer at hr
  cases hv : inp.cellAt a <;> rw [hv] at h hr <;> dsimp only at hr <;>
    first
    | rfl
    | exact h.elim
    | (cases hr; exact absurd rfl hn)
    | (rename_i s; cases s <;> first | rfl | exact h.elim)

theorem flag_mod (b : UInt8) : (b ||| trackFlag).toNat % 128 = b.toNat % 128 := by
  revert b
  apply u8_forall
  set_option maxRecDepth 8000 in decide

theorem TInv.flag {s s' : EState} {vs : List Nat} {o : Nat} (h : TInv q s vs) (ho : o ∈ vs)
    (he : setTrackFlag o s = .ok ((), s')) : TInv q s' vs ∧ s'.buf.length = s.buf.length ∧ s'.ptrTable = s.ptrTable := by
  unfold setTrackFlag at he
  split at he
  · cases he
    have hl : (s.buf.modify o (· ||| trackFlag)).length = s.buf.length := List.length_modify _ _ _
    refine ⟨⟨?_, ?_, h.ptrs⟩, hl, rfl⟩
    · show Rows q (s.buf.modify o (· ||| trackFlag)) [] 1 vs (s.buf.modify o (· ||| trackFlag)).length
      rw [hl]
      refine h.toks.congr (by simp) (by omega) ?_ ?_
      · intro p _ _ hp
        rw [List.getElem?_modify]
        have : o ≠ p := fun e => hp (e ▸ ho)
        simp [this]
      · intro p _ _ b hb
        rw [List.getElem?_modify, hb]
        by_cases hop : o = p
        · exact ⟨b ||| trackFlag, by simp [hop], flag_mod b⟩
        · exact ⟨b, by simp [hop], rfl⟩
    · intro k o' ho'
      obtain ⟨h1, h2⟩ := h.strs k o' ho'
      exact ⟨h1, by show _ < (s.buf.modify o _).length; rw [hl]; exact h2⟩
  · cases he

theorem encToks_ptr (hA : q = false) {c : ECfg} {inp : Heap} {rec : Val → Bool → E Unit} {iface : Bool} {a : Addr}
    (ha : Aimable (inp.cellAt a))
    (hrec : ∀ rn, EncToks q (rec (inp.cellAt a) rn) (Direct (inp.cellAt a)) (wide (inp.cellAt a))) :
    EncToks q (encodePtr c inp rec iface a) True 1 := by
  unfold encodePtr
  dsimp only
  have hw : 1 ≤ wide (inp.cellAt a) := by unfold wide; split <;> omega
  split
  · exact (hrec false).weaken (fun _ => trivial) hw
  · cases hg : getPointer c inp iface a with
    | error e => intro s s' he; cases he
    | ok r =>
      intro s s' he
      obtain ⟨st, s1, h1, h2⟩ := E.bind_ok.1 he
      obtain ⟨rfl, rfl⟩ := E.get_ok.1 h1
      cases hf : findPtr s1 a r with
      | some o =>
        rw [hf] at h2
        obtain ⟨⟨⟩, s2, h3, h4⟩ := E.bind_ok.1 h2
        obtain rfl := emit_ok.1 h3
        have hl : (s1.buf ++ typeREFP :: varint o).length = s1.buf.length + (typeREFP :: varint o).length :=
          List.length_append
        have hl' : s'.buf.length = (s1.buf ++ typeREFP :: varint o).length := by
          unfold setTrackFlag at h4
          split at h4
          · cases h4; exact List.length_modify _ _ _
          · cases h4
        refine ⟨by rw [hl', hl]; simp, fun vs hi hs hsz => ?_⟩
        have hin : ∃ κ, s1.ptrTable κ = some o := by
          unfold findPtr at hf
          split at hf
          · next h => cases hf; exact ⟨a, h⟩
          · split at hf
            · exact ⟨r, hf⟩
            · cases hf
        obtain ⟨κ, hκ⟩ := hin
        have ho := hi.ptrs κ o hκ
        obtain ⟨vs', h5, h6, e1, e2⟩ := hi.emit (w := typeREFP :: varint o)
          (isTok_offset (b := typeREFP) rfl (fun h => by rw [hA] at h; cases h) ho (hs trivial κ o hκ)) (by omega)
        obtain ⟨h7, h8, h9⟩ := h5.flag (e1 _ ho) h4
        refine ⟨vs', h7, ?_, e1, fun _ => e2 (.inl hA)⟩
        intro a' o' h10
        rw [h9] at h10
        rw [h8]
        exact h6 a' o' h10
      | none =>
        rw [hf] at h2
        obtain ⟨⟨⟩, s2, h3, h4⟩ := E.bind_ok.1 h2
        obtain rfl := emit_ok.1 h3
        obtain ⟨⟨⟩, s3, h5, h6⟩ := E.bind_ok.1 h4
        obtain rfl := rememberPtr_ok h5
        obtain ⟨⟨⟩, s4, h7, h8⟩ := E.bind_ok.1 h6
        obtain ⟨g1, g2⟩ := hrec true _ s4 h7
        have hl : (s1.buf ++ [typeREFN]).length = s1.buf.length + 1 := by simp
        change (s1.buf ++ [typeREFN]).length + _ ≤ _ at g1
        have hend : s'.buf = s4.buf ∧ s'.strTable = s4.strTable ∧ ∀ κ o, s'.ptrTable κ = some o →
            s4.ptrTable κ = some o ∨ (o = s1.buf.length + 1 ∧ r ≠ 0) := by
          split at h8
          · next hr =>
            obtain rfl := rememberPtr_ok h8
            refine ⟨rfl, rfl, fun κ o ho => ?_⟩
            change (if κ = r then some (s1.buf.length + 1) else s4.ptrTable κ) = some o at ho
            split at ho
            · cases ho; exact .inr ⟨rfl, hr⟩
            · exact .inl ho
          · obtain ⟨-, rfl⟩ := E.pure_ok.1 h8
            exact ⟨rfl, rfl, fun κ o ho => .inl ho⟩
        obtain ⟨e1, e2, e3⟩ := hend
        refine ⟨by rw [e1]; omega, fun vs hi hs hsz => ?_⟩
        rw [e1] at hsz
        obtain ⟨vs1, i1, i2, f1, f2⟩ := hi.emit (isTok_single (b := typeREFN) rfl vs _) (by simp; omega)
        have f2 := f2 (.inl hA)
        obtain ⟨vs', j1, j2, j3, j4⟩ := g2 vs1 ⟨i1.toks, i1.strs, by
          intro κ o ho
          change (if κ = a then some s1.buf.length else s1.ptrTable κ) = some o at ho
          split at ho
          · cases ho; exact f2
          · exact i1.ptrs κ o ho⟩ (fun hd => absurd hd (aimable_direct ha)) hsz
        have j4 := j4 hA
        change (s1.buf ++ [typeREFN]).length ∈ vs' at j4
        rw [hl] at j4
        refine ⟨vs', ⟨by rw [e1]; exact j1.toks, by rw [e1, e2]; exact j1.strs, ?_⟩, ?_,
          fun o ho => j3 o (f1 o ho), fun _ => j3 _ f2⟩
        · intro κ o ho
          rcases e3 κ o ho with h | ⟨rfl, -⟩
          · exact j1.ptrs κ o h
          · exact j4
        · intro κ o ho
          rw [e1]
          rcases e3 κ o ho with h | ⟨rfl, hr⟩
          · exact j2 κ o h
          · have := aimable_wide ha hg hr
            omega

/-! ### All values -/

theorem encodeVal_toks {c : ECfg} {inp : Heap} (hord : ∀ n ks, (c.ord n ks).Perm ks) {S : Val → Prop}
    (hS : ∀ v, S v → SmoothAt c inp S v) (hq : q = false ∨ ∀ v, S v → Loner v) (hnil : S .nil) (hstr : ∀ s, S (.str s)) (hbin : ∀ s, S (.bin s))
    (rec : Option (Val → Bool → Bool → E Unit))
    (hrec : ∀ r, rec = some r → ∀ v rn, S v → EncToks q (r v false rn) (Direct v) (wide v)) :
    ∀ (v : Val) (rn : Bool), S v → EncToks q (encodeVal c inp rec v false rn) (Direct v) (wide v) := by
  have hw : ∀ v, 1 ≤ wide v := fun v => by unfold wide; split <;> omega
  have fails : ∀ {e : Exn} {P : Prop} {w : Nat}, EncToks q (E.fail e) P w := fun s s' he => by cases he
  have str2 : ∀ {s : Bytes} {P : Prop}, EncToks q (emit (strItem s)) P 2 := fun {s P} =>
    (encToks_emit (q := q) fun vs p => isTok_strItem s vs p).weaken (fun h => h) (strItem_two s)
  have rrow : ∀ r, rec = some r → ∀ v, S v → EncRow q (r v false false) 1 := fun r hr v hv =>
    ((hrec r hr v false hv).weaken (fun h => h) (hw v)).row
  have arr : ∀ p n rn, (∀ i, i < n → S (inp.cellAt (p + i))) → ∀ r, rec = some r →
      EncToks q (encodeArr c (fun v => r v false false) (sliceVals inp p n) rn) False 2 := by
    intro p n rn h r hr
    refine encToks_arr rn fun v hv => rrow r hr v ?_
    unfold sliceVals at hv
    obtain ⟨i, h1, rfl⟩ := List.mem_map.1 hv
    exact h i (List.mem_range.1 h1)
  have mp : ∀ kvs rn b, (∀ k v, mapLookup k kvs = some v → S v) → ∀ r, rec = some r →
      EncToks q (encodeMp c (fun v => r v false false) kvs rn b) False 2 := by
    intro kvs rn b h r hr
    refine encToks_mp hord rn b fun k hk => rrow r hr _ ?_
    cases hl : mapLookup k kvs with
    | none => exact hnil
    | some v => exact h k v hl
  intro v
  induction v with
  | nil => intro rn _; exact encToks_leaf fun vs p => isTok_single (b := typeUNDEF) rfl vs p
  | bool b => intro rn _; exact encToks_leaf fun vs p => isTok_single (by cases b <;> rfl) vs p
  | nbool b => intro rn _; exact encToks_leaf fun vs p => isTok_single (by cases b <;> rfl) vs p
  | int k i => intro rn _; exact encToks_leaf fun vs p => isTok_int _ _ vs p
  | nint k i => intro rn _; exact encToks_leaf fun vs p => isTok_int _ _ vs p
  | uint k i => intro rn _; exact encToks_leaf fun vs p => isTok_int _ _ vs p
  | nuint k i => intro rn _; exact fails
  | f32 u => intro rn _; exact encToks_leaf fun vs p => isTok_float u vs p
  | f64 u => intro rn _; exact encToks_leaf fun vs p => isTok_double u vs p
  | nf32 u => intro rn _; exact encToks_leaf fun vs p => isTok_float u vs p
  | nf64 u => intro rn _; exact encToks_leaf fun vs p => isTok_double u vs p
  | jnum s =>
    intro rn _
    show EncToks q (encodeJsonNumber c s false) _ 1
    unfold encodeJsonNumber
    split
    · exact encToks_leaf fun vs p => isTok_int _ _ vs p
    · rw [encodeString_false]; exact str2.weaken (fun h => h) (by omega)
    · split
      · exact encToks_leaf fun vs p => isTok_double _ vs p
      · rw [encodeString_false]; exact str2.weaken (fun h => h) (by omega)
  | str s =>
    intro rn _
    show EncToks q (encodeString c s false) _ 2
    rw [encodeString_false]; exact str2
  | nstr s =>
    intro rn _
    show EncToks q (encodeString c s false) _ 2
    rw [encodeString_false]; exact str2
  | bin s =>
    intro rn _
    show EncToks q (encodeBytes c s false) _ _
    rw [encodeBytes_false]
    refine (encToks_emit (q := q) fun vs p => isTok_binItem s vs p).weaken (fun h => h) ?_
    have := binItem_length s
    cases s with
    | nil => exact this
    | cons x s => show 2 ≤ _; simp at this ⊢; omega
  | slice p n =>
    intro rn hv
    cases hr : rec with
    | none => exact fails
    | some r => exact arr p n rn (hS _ hv) r hr
  | rslice p n =>
    intro rn hv
    cases hr : rec with
    | none => exact fails
    | some r => exact arr p n rn (hS _ hv) r hr
  | smap m =>
    intro rn hv
    cases hr : rec with
    | none => exact fails
    | some r => exact mp _ rn _ (hS _ hv) r hr
  | rmap m =>
    intro rn hv
    cases hr : rec with
    | none => exact fails
    | some r => exact mp _ rn _ (hS _ hv) r hr
  | undef b => intro rn _; exact encToks_leaf fun vs p => isTok_single (by cases b <;> rfl) vs p
  | obj cls ref ih =>
    intro rn hv
    have hA := hq.resolve_right fun h => h _ hv
    obtain ⟨h1, h2, h3⟩ := hS _ hv
    show EncToks q (do emit [typeOBJECT]; encodeBytes c cls true; encodeVal c inp rec ref false false) _ 1
    rw [encodeBytes_off h1, emit_emit]
    exact ((encToks_emit (q := q) fun vs p => isTok_object (b := typeOBJECT) (.inl rfl) h2 hA (.inl rfl) vs p).seq
      (ih false h3).row).weaken (fun h => h) (by simp; omega)
  | regexp pat mods =>
    intro rn hv
    obtain ⟨h1, h2⟩ := hS _ hv
    show EncToks q (do emit [typeREGEXP]; encodeBytes c pat false; encodeBytes c mods false) _ 1
    rw [encodeBytes_false, encodeBytes_false, emit_then, emit_then]
    exact encToks_leaf fun vs p => isTok_regexp h1 h2 vs p
  | weak ref ih =>
    intro rn hv
    exact ((encToks_emit (q := q) fun vs p => isTok_single (b := typeWEAKEN) rfl vs p).seq
      (ih false (hS _ hv)).row).weaken (fun h => h) (by show 1 ≤ _; simp)
  | frozen cls data =>
    intro rn hv
    have hA := hq.resolve_right fun h => h _ hv
    cases hr : rec with
    | none => exact fails
    | some r =>
      refine encToks_strct hA hord (hS _ hv) (by decide) fun f hf => rrow r hr _ ?_
      simp only [List.mem_cons, List.not_mem_nil, or_false] at hf
      rcases hf with rfl | rfl
      · exact hstr _
      · exact hbin _
  | thawed a b => intro rn _; exact fails
  | ptr iface a =>
    intro rn hv
    have hA := hq.resolve_right fun h => h _ hv
    obtain ⟨h1, h2⟩ := hS _ hv
    cases hr : rec with
    | none => exact fails
    | some r => exact encToks_ptr hA (rec := fun v rn => r v false rn) h1 fun rn => hrec r hr _ rn h2
  | nilptr =>
    intro rn hv
    cases hr : rec with
    | none => exact fails
    | some r =>
      show EncToks q (emit [typeREFN, typeUNDEF]) _ 1
      rw [show emit [typeREFN, typeUNDEF] = (do emit [typeREFN]; emit [typeUNDEF]) from
        (emit_then (w := [typeREFN]) (v := [typeUNDEF])).symm]
      exact ((encToks_leaf (q := q) fun vs p => isTok_single (b := typeREFN) rfl vs p).seq
        (encToks_leaf (q := q) (P := False) fun vs p => isTok_single (b := typeUNDEF) rfl vs p).row).weaken (fun h => h) (by omega)
  | strct name a =>
    intro rn hv
    have hA := hq.resolve_right fun h => h _ hv
    obtain ⟨h1, h2, h3⟩ := hS _ hv
    cases hr : rec with
    | none => exact fails
    | some r => exact encToks_strct hA hord h1 h2 fun f hf => rrow r hr _ (h3 f hf)
  | marshaler cls res under ih =>
    intro rn hv
    have hA := hq.resolve_right fun h => h _ hv
    obtain ⟨h1, h2⟩ := hS _ hv
    cases hdf : c.disableFreeze with
    | true =>
      have : encodeVal c inp rec (.marshaler cls res under) false rn = encodeVal c inp rec under false rn := by
        show (if c.disableFreeze = true then _ else _) = _
        rw [if_pos hdf]
      rw [this]
      exact (ih rn h1).weaken (fun h => h) (hw _)
    | false =>
      obtain ⟨h3, h4⟩ := h2 hdf
      cases res with
      | error n =>
        have : encodeVal c inp rec (.marshaler cls (.error n) under) false rn = E.err (.user n) := by
          show (if c.disableFreeze = true then _ else _) = _
          rw [if_neg (by simp [hdf])]
        rw [this]
        exact fails
      | ok data =>
        have : encodeVal c inp rec (.marshaler cls (.ok data) under) false rn = (do
            emit [typeOBJECT_FREEZE]
            encodeString c cls true
            emit [typeREFN]
            emit (typeARRAY :: varint 1)
            encodeBytes c data false) := by
          show (if c.disableFreeze = true then _ else _) = _
          rw [if_neg (by simp [hdf])]
        rw [this, encodeString_off h3, encodeBytes_false, emit_emit]
        exact ((encToks_emit (q := q) fun vs p => isTok_object (b := typeOBJECT_FREEZE) (.inr rfl) h4
          hA (.inr rfl) vs p).seq
          ((encToks_leaf (q := q) (P := False) fun vs p => isTok_single (b := typeREFN) rfl vs p).row.seq
            ((encToks_leaf (q := q) (P := False) fun vs p => isTok_box (b := typeARRAY) (n := 1) (.inl rfl) (by omega) vs p).row.seq
              (encToks_leaf (q := q) (P := False) fun vs p => isTok_binItem data vs p).row))).weaken (P := False) (fun h => h.elim)
          (by show 1 ≤ _; simp)
  | unsupported => intro rn _; exact fails

theorem encode_toks {c : ECfg} {inp : Heap} (hord : ∀ n ks, (c.ord n ks).Perm ks) {S : Val → Prop}
    (hS : ∀ v, S v → SmoothAt c inp S v) (hq : q = false ∨ ∀ v, S v → Loner v) (hnil : S .nil) (hstr : ∀ s, S (.str s)) (hbin : ∀ s, S (.bin s))
    (d : Nat) (v : Val) (rn : Bool) (hv : S v) : EncToks q (encode c inp d v false rn) (Direct v) (wide v) := by
  induction d using Nat.strongRecOn generalizing v rn with
  | _ d ih =>
    match d with
    | 0 => exact encodeVal_toks hord hS hq hnil hstr hbin none (fun _ h => by cases h) v rn hv
    | 1 => exact encodeVal_toks hord hS hq hnil hstr hbin none (fun _ h => by cases h) v rn hv
    | d + 2 =>
      exact encodeVal_toks hord hS hq hnil hstr hbin _ (fun r h => by
        cases h
        exact fun v rn hv => ih (d + 1) (by omega) v rn hv) v rn hv

/-- The body written for a smooth value is a row of tokens. -/
theorem encodeAfter_rows {c : ECfg} {inp : Heap} (hord : ∀ n ks, (c.ord n ks).Perm ks) {v : Val}
    {S : Val → Prop} (h1 : S v) (h2 : ∀ w, S w → SmoothAt c inp S w) (hq : q = false ∨ ∀ v, S v → Loner v)
    {y : UInt8} {w : Bytes} (h : encodeAfter c inp [y] v = .ok w) (hsz : w.length + 1 < 2 ^ 31) :
    ∃ y' vs, Rows q (y' :: w) [] 1 vs (w.length + 1) := by
  unfold encodeAfter at h
  split at h
  · next s' he =>
    cases h
    have hS : ∀ w, (S w ∨ w = .nil ∨ (∃ s, w = .str s) ∨ ∃ s, w = .bin s) →
        SmoothAt c inp (fun w => S w ∨ w = .nil ∨ (∃ s, w = .str s) ∨ ∃ s, w = .bin s) w := by
      intro w hw
      rcases hw with hw | rfl | ⟨s, rfl⟩ | ⟨s, rfl⟩
      · have := h2 w hw
        cases w with
        | slice | rslice => exact fun i hi => .inl (this i hi)
        | smap | rmap => exact fun k v hk => .inl (this k v hk)
        | obj => exact ⟨this.1, this.2.1, .inl this.2.2⟩
        | weak => exact .inl this
        | strct => exact ⟨this.1, this.2.1, fun f hf => .inl (this.2.2 f hf)⟩
        | marshaler => exact ⟨.inl this.1, this.2⟩
        | ptr => exact ⟨this.1, .inl this.2⟩
        | _ => exact this
      · trivial
      · trivial
      · trivial
    have hq' : q = false ∨ ∀ w, (S w ∨ w = .nil ∨ (∃ s, w = .str s) ∨ ∃ s, w = .bin s) → Loner w := by
      refine hq.imp id fun h w hw => ?_
      rcases hw with hw | rfl | ⟨s, rfl⟩ | ⟨s, rfl⟩
      · exact h w hw
      · trivial
      · trivial
      · trivial
    obtain ⟨g1, g2⟩ := encode_toks hord hS hq'
      (.inr (.inl rfl)) (fun s => .inr (.inr (.inl ⟨s, rfl⟩))) (fun s => .inr (.inr (.inr ⟨s, rfl⟩))) _ v false
      (.inl h1) _ _ he
    have hl : 1 ≤ s'.buf.length := Nat.le_trans (by simp) (Nat.le_trans (Nat.le_add_right _ _) g1)
    have hd : (s'.buf.drop [y].length).length + 1 = s'.buf.length := by simp; omega
    obtain ⟨vs, i1, -⟩ := g2 [] ⟨.nil, fun k o h => (by cases h), fun k o h => (by cases h)⟩
      (fun _ a o h => (by cases h)) (by omega)
    have i1 := i1.toks
    rw [hd]
    match hb : s'.buf, hl with
    | y' :: w, _ =>
      rw [hb] at i1
      exact ⟨y', vs, i1⟩
  · cases h

theorem encodeAfter_toks {c : ECfg} {inp : Heap} (hord : ∀ n ks, (c.ord n ks).Perm ks) {v : Val} (hv : Smooth c inp v)
    {y : UInt8} {w : Bytes} (h : encodeAfter c inp [y] v = .ok w) (hsz : w.length + 1 < 2 ^ 31) :
    ∃ y' vs, Toks (y' :: w) [] 1 vs (w.length + 1) := by
  obtain ⟨S, h1, h2⟩ := hv
  obtain ⟨y', vs, h3⟩ := encodeAfter_rows (q := false) hord h1 h2 (.inl rfl) h hsz
  exact ⟨y', vs, h3.toks⟩

/-- Without pointers and objects. -/
theorem encodeAfter_carried {c : ECfg} {inp : Heap} (hord : ∀ n ks, (c.ord n ks).Perm ks) {v : Val}
    (hv : SmoothData c inp v) {y : UInt8} {w : Bytes} (h : encodeAfter c inp [y] v = .ok w) (hsz : w.length + 1 < 2 ^ 31) :
    ∃ y' vs, Portable (y' :: w) [] 1 vs (w.length + 1) := by
  obtain ⟨S, h1, h2⟩ := hv
  obtain ⟨y', vs, h3⟩ := encodeAfter_rows (q := true) hord h1 (fun w hw => (h2 w hw).1) (.inr fun w hw => (h2 w hw).2)
    h hsz
  exact ⟨y', vs, h3.carried⟩

end Sereal

import Verif.Spec.Written
import Verif.Proof.Gram
import Verif.Proof.Varint
/-
What the encoder writes is a well-formed item of the grammar: bookkeeping.

The encoder sets track bits on bytes it has already written, so positions are described by ghost data:
the bytes without track bits, the positions whose track bit is set, and the items written so far.
-/
namespace Sereal

/-- A tag byte with or without the track bit. -/
def fl (f : Bool) (b : UInt8) : UInt8 := if f then b ||| trackFlag else b

/-- From position `base` on, `B` starts with the bytes `X` with track bits at the positions in `φ`. -/
def EAgree (base : Nat) (φ : Nat → Bool) (X B : Bytes) : Prop :=
  ∀ i b, base ≤ i → X[i]? = some b → B[i]? = some (fl (φ i) b)

/-- What has been written so far: bytes without track bits, items by position, tracked positions. -/
structure Gh where
  raw : Bytes
  seen : Seen
  trk : Nat → Bool

/-- The tracked items among those seen. -/
def look (φ : Nat → Bool) (T : Seen) : Seen := fun o => if φ o then T o else none

/-- A literal for the string `k` was written at `o`. -/
def LitIn (base : Nat) (g : Gh) (k : Bytes) (o : Nat) : Prop :=
  ∃ w, (w = strItem k ∨ w = binItem k) ∧ base ≤ o ∧ w <+: g.raw.drop o ∧
    ∀ x, o ≤ x → x < o + w.length → g.seen x = none

/-- The tree `t` belongs to the pointer key `κ`. -/
def PtrTree (c : ECfg) (inp : Heap) (κ : Addr) (t : Tree) : Prop :=
  (∃ t0, t = .ref t0 ∧ Written c inp true (inp.cellAt κ) t0) ∨
  (∃ a, dataAddr c inp a = κ ∧ κ ≠ 0 ∧ Written c inp true (inp.cellAt a) t)

/-- The encoder's state matches what has been written. -/
structure EInv (c : ECfg) (inp : Heap) (base : Nat) (s : EState) (g : Gh) : Prop where
  base_le : base ≤ g.raw.length
  len : s.buf.length = g.raw.length
  agree : EAgree base g.trk g.raw s.buf
  flags : ∀ o, g.trk o = true → g.seen o ≠ none
  range : ∀ o, g.seen o ≠ none → base ≤ o ∧ o < g.raw.length
  strs : ∀ k o, s.strTable k = some o → LitIn base g k o
  ptrs : ∀ κ o, s.ptrTable κ = some o →
    g.seen o = some none ∨ ∃ t, g.seen o = some (some t) ∧ PtrTree c inp κ t

/-- More has been written. -/
structure Grows (g g' : Gh) : Prop where
  raw : g.raw <+: g'.raw
  seen : ∀ o, o < g.raw.length → g'.seen o = g.seen o
  trk : ∀ o, g.trk o = true → g'.trk o = true

/-- A buffer that may result when the encoder continues from `g`. -/
structure Final (base : Nat) (g : Gh) (φ : Nat → Bool) (B : Bytes) : Prop where
  agree : EAgree base φ g.raw B
  only : ∀ o, o < g.raw.length → φ o = true → g.seen o ≠ none
  all : ∀ o, g.trk o = true → φ o = true
  size : g.raw.length < 2 ^ 63

/-- From `s`, `g` to `s'`, `g'`: the state keeps matching; new pointer table entries belong to completed
items, or satisfy `X`; and in every buffer that may result, what was written reads as `P`. -/
structure Step (c : ECfg) (inp : Heap) (base : Nat) (X : Addr → Nat → Prop) (s s' : EState) (g g' : Gh)
    (P : Bytes → Seen → Seen → Prop) : Prop where
  inv : EInv c inp base s' g'
  grows : Grows g g'
  new : ∀ κ o, s'.ptrTable κ = some o → s.ptrTable κ = some o ∨ X κ o ∨
    ∃ t, g'.seen o = some (some t) ∧ PtrTree c inp κ t
  reads : ∀ φ B, Final base g' φ B → P B (look φ g.seen) (look φ g'.seen)

variable {c : ECfg} {inp : Heap} {base : Nat}

theorem Grows.refl (g : Gh) : Grows g g := ⟨List.prefix_refl _, fun _ _ => rfl, fun _ h => h⟩

theorem Grows.le {g g' : Gh} (h : Grows g g') : g.raw.length ≤ g'.raw.length := h.raw.length_le

theorem Grows.trans {g g' g'' : Gh} (h : Grows g g') (h' : Grows g' g'') : Grows g g'' :=
  ⟨h.raw.trans h'.raw, fun o ho => (h'.seen o (Nat.lt_of_lt_of_le ho h.le)).trans (h.seen o ho),
    fun o ho => h'.trk o (h.trk o ho)⟩

theorem prefix_get {x y : Bytes} (h : x <+: y) {i : Nat} {b : UInt8} (hb : x[i]? = some b) : y[i]? = some b := by
  obtain ⟨z, rfl⟩ := h
  have := (List.getElem?_eq_some_iff.1 hb).1
  rw [List.getElem?_append_left this]
  exact hb

theorem EAgree.mono {φ : Nat → Bool} {X Y B : Bytes} (h : EAgree base φ Y B) (hp : X <+: Y) : EAgree base φ X B :=
  fun i b hi hb => h i b hi (prefix_get hp hb)

theorem Final.prev {g g' : Gh} {φ : Nat → Bool} {B : Bytes} (h : Final base g' φ B) (hg : Grows g g') :
    Final base g φ B where
  agree := h.agree.mono hg.raw
  only o ho hφ := by
    rw [← hg.seen o ho]
    exact h.only o (Nat.lt_of_lt_of_le ho hg.le) hφ
  all o ho := h.all o (hg.trk o ho)
  size := Nat.lt_of_le_of_lt hg.le h.size

theorem Step.comp {X : Addr → Nat → Prop} {s s1 s2 : EState} {g g1 g2 : Gh} {P Q : Bytes → Seen → Seen → Prop}
    (h1 : Step c inp base X s s1 g g1 P) (h2 : Step c inp base X s1 s2 g1 g2 Q) :
    Step c inp base X s s2 g g2 (fun B T T' => ∃ T1, P B T T1 ∧ Q B T1 T') where
  inv := h2.inv
  grows := h1.grows.trans h2.grows
  new κ o h := by
    rcases h2.new κ o h with h | h | h
    · rcases h1.new κ o h with h | h | ⟨t, ht, hp⟩
      · exact .inl h
      · exact .inr (.inl h)
      · right; right
        refine ⟨t, ?_, hp⟩
        rw [h2.grows.seen o ((h1.inv.range o (by rw [ht]; simp)).2)]
        exact ht
    · exact .inr (.inl h)
    · exact .inr (.inr h)
  reads φ B h := ⟨look φ g1.seen, h1.reads φ B (h.prev h2.grows), h2.reads φ B h⟩

theorem Step.mono {X : Addr → Nat → Prop} {s s1 : EState} {g g1 : Gh} {P Q : Bytes → Seen → Seen → Prop}
    (h : Step c inp base X s s1 g g1 P) (hq : ∀ B T T', P B T T' → Q B T T') :
    Step c inp base X s s1 g g1 Q :=
  ⟨h.inv, h.grows, h.new, fun φ B hf => hq _ _ _ (h.reads φ B hf)⟩

theorem Step.weaken {X Y : Addr → Nat → Prop} {s s1 : EState} {g g1 : Gh} {P : Bytes → Seen → Seen → Prop}
    (h : Step c inp base X s s1 g g1 P) (hx : ∀ κ o, X κ o → Y κ o) :
    Step c inp base Y s s1 g g1 P :=
  ⟨h.inv, h.grows, fun κ o ho => (h.new κ o ho).imp_right (fun h => h.imp_left (hx κ o)), h.reads⟩

theorem EAgree.span {φ : Nat → Bool} {X B w : Bytes} {i : Nat} (h : EAgree base φ X B) (hi : base ≤ i)
    (hw : w <+: X.drop i) (hφ : ∀ x, i ≤ x → x < i + w.length → φ x = false) :
    Span B i w (i + w.length) := by
  refine ⟨?_, rfl⟩
  rw [List.prefix_iff_getElem?] at hw ⊢
  intro n hn
  have h1 := hw n hn
  rw [List.getElem?_drop] at h1 ⊢
  have h2 := h (i + n) _ (by omega) h1
  rw [hφ (i + n) (by omega) (by omega)] at h2
  exact h2

theorem Span.split {buf : Bytes} {i j : Nat} {s t : Bytes} (h : Span buf i (s ++ t) j) :
    Span buf i s (i + s.length) ∧ Span buf (i + s.length) t j := by
  obtain ⟨h1, h2⟩ := h
  refine ⟨⟨(List.prefix_append _ _).trans h1, rfl⟩, ?_, ?_⟩
  · obtain ⟨r, hr⟩ := h1
    refine ⟨r, ?_⟩
    rw [← List.drop_drop, ← hr, List.append_assoc, List.drop_left]
  · rw [h2, List.length_append]; omega

theorem Vint.of_span {buf : Bytes} {i j n : Nat} (h : Span buf i (varint n) j) (hn : n < 2 ^ 64) :
    Vint wrtDialect buf i n j :=
  ⟨varint n, isVarint_varint n, varint_length_le_ten hn, h, by
    show (if groups (varint n) < 2 ^ 64 then some (groups (varint n)) else none) = some n
    rw [groups_varint, if_pos hn]⟩

theorem Span.head {buf : Bytes} {i j : Nat} {b : UInt8} {s : Bytes} (h : Span buf i (b :: s) j) :
    buf[i]? = some b ∧ Span buf (i + 1) s j := by
  have := h.1
  rw [List.prefix_iff_getElem?] at this
  have h0 := this 0 (by simp)
  rw [List.getElem?_drop] at h0
  refine ⟨by simpa using h0, ?_⟩
  exact (Span.split (s := [b]) (t := s) h).2

theorem TagAt.here' {buf : Bytes} {i : Nat} {b : UInt8} (h : buf[i]? = some b) (hb : b.toNat % 128 ≠ 0x3f) :
    TagAt buf i i b :=
  ⟨Nat.le_refl _, fun x h1 h2 => absurd h1 (by omega), h, hb⟩

theorem binItem_tag {s : Bytes} (h : s.length < 32) :
    (typeSHORT_BINARY_0 + UInt8.ofNat s.length).toNat = 0x60 + s.length := by
  have : ∀ n : Fin 32, (typeSHORT_BINARY_0 + UInt8.ofNat n).toNat = 0x60 + n := by decide
  exact this ⟨s.length, h⟩

theorem classify_shortN {n : Nat} (h : n < 32) : classify (0x60 + n) = .short n := by
  have : ∀ n : Fin 32, classify (0x60 + n) = .short n := by decide
  exact this ⟨n, h⟩

theorem Lit.of_strItem {buf : Bytes} {i j : Nat} {s : Bytes} (h : Span buf i (strItem s) j)
    (hs : s.length ≤ maxSize) : Lit wrtDialect buf i s j := by
  obtain ⟨h1, h2⟩ := Span.head h
  obtain ⟨h3, h4⟩ := Span.split (s := varint s.length) (t := s) h2
  exact .long (TagAt.here' h1 (by decide)) (.inr (by decide))
    (Vint.of_span h3 (Nat.lt_of_le_of_lt hs (by decide))) hs h4 rfl

theorem Lit.of_binItem {buf : Bytes} {i j : Nat} {s : Bytes} (h : Span buf i (binItem s) j)
    (hs : s.length ≤ maxSize) : Lit wrtDialect buf i s j := by
  unfold binItem at h
  by_cases hl : s.length < 32
  · rw [if_pos hl] at h
    obtain ⟨h1, h2⟩ := Span.head h
    have ht := binItem_tag hl
    exact .short (TagAt.here' h1 (by omega))
      (by rw [ht, Nat.mod_eq_of_lt (by omega), classify_shortN hl]) h2 rfl
  · rw [if_neg hl] at h
    obtain ⟨h1, h2⟩ := Span.head h
    obtain ⟨h3, h4⟩ := Span.split (s := varint s.length) (t := s) h2
    exact .long (TagAt.here' h1 (by decide)) (.inl (by decide))
      (Vint.of_span h3 (Nat.lt_of_le_of_lt hs (by decide))) hs h4 rfl

theorem NotPad.of_strItem {buf : Bytes} {i j : Nat} {s : Bytes} (h : Span buf i (strItem s) j) : NotPad buf i := by
  intro p hp
  rw [(Span.head h).1] at hp
  cases hp
  decide

theorem NotPad.of_binItem {buf : Bytes} {i j : Nat} {s : Bytes} (h : Span buf i (binItem s) j) : NotPad buf i := by
  intro p hp
  unfold binItem at h
  by_cases hl : s.length < 32
  · rw [if_pos hl] at h
    rw [(Span.head h).1] at hp
    cases hp
    rw [binItem_tag hl]; omega
  · rw [if_neg hl] at h
    rw [(Span.head h).1] at hp
    cases hp
    decide

theorem LitIn.lit {g : Gh} {k : Bytes} {o : Nat} (h : LitIn base g k o) {φ : Nat → Bool} {B : Bytes}
    (hf : Final base g φ B) (hk : k.length ≤ maxSize) : ∃ j, (j ≤ g.raw.length ∧ NotPad B o) ∧ Lit wrtDialect B o k j := by
  obtain ⟨w, hw, hb, hp, hn⟩ := h
  have hlen : o + w.length ≤ g.raw.length := by
    have := hp.length_le
    rw [List.length_drop] at this
    have hw0 : 0 < w.length := by
      rcases hw with rfl | rfl
      · simp [strItem]
      · unfold binItem; split <;> simp
    omega
  have hs : Span B o w (o + w.length) := by
    refine hf.agree.span hb hp (fun x h1 h2 => ?_)
    cases hx : φ x with
    | false => rfl
    | true => exact absurd (hn x h1 h2) (hf.only x (by omega) hx)
  rcases hw with rfl | rfl
  · exact ⟨_, ⟨hlen, NotPad.of_strItem hs⟩, Lit.of_strItem hs hk⟩
  · exact ⟨_, ⟨hlen, NotPad.of_binItem hs⟩, Lit.of_binItem hs hk⟩

theorem LitIn.grows {g g' : Gh} {k : Bytes} {o : Nat} (h : LitIn base g k o) (hg : Grows g g') :
    LitIn base g' k o := by
  obtain ⟨w, hw, hb, hp, hn⟩ := h
  have hlen : o + w.length ≤ g.raw.length := by
    have := hp.length_le
    rw [List.length_drop] at this
    have hw0 : 0 < w.length := by
      rcases hw with rfl | rfl
      · simp [strItem]
      · unfold binItem; split <;> simp
    omega
  refine ⟨w, hw, hb, ?_, fun x h1 h2 => by rw [hg.seen x (by omega)]; exact hn x h1 h2⟩
  obtain ⟨z, hz⟩ := hg.raw
  rw [← hz, List.drop_append_of_le_length (by omega)]
  exact hp.trans (List.prefix_append _ _)

theorem E.bind_ok {α β : Type} {x : E α} {f : α → E β} {s s' : EState} {b : β} :
    (x >>= f) s = .ok (b, s') ↔ ∃ a s1, x s = .ok (a, s1) ∧ f a s1 = .ok (b, s') := by
  show E.bind x f s = _ ↔ _
  unfold E.bind
  cases h : x s with
  | error e => simp
  | ok p =>
    obtain ⟨a, s1⟩ := p
    constructor
    · intro hf; exact ⟨a, s1, rfl, hf⟩
    · rintro ⟨_, _, he, hf⟩; cases he; exact hf

theorem emit_ok {w : Bytes} {s s' : EState} {u : Unit} :
    emit w s = .ok (u, s') ↔ s' = { s with buf := s.buf ++ w } := by
  unfold emit
  constructor
  · intro h; cases h; rfl
  · rintro rfl; rfl

theorem E.pure_ok {α : Type} {a b : α} {s s' : EState} :
    (Pure.pure a : E α) s = .ok (b, s') ↔ a = b ∧ s = s' := by
  show Except.ok (a, s) = .ok (b, s') ↔ _
  constructor
  · intro h; cases h; exact ⟨rfl, rfl⟩
  · rintro ⟨rfl, rfl⟩; rfl

theorem Step.refl {X : Addr → Nat → Prop} {s : EState} {g : Gh} (h : EInv c inp base s g) :
    Step c inp base X s s g g (fun _ T T' => T' = T) :=
  ⟨h, Grows.refl g, fun _ _ ho => .inl ho, fun _ _ _ => rfl⟩

theorem fl_false (b : UInt8) : fl false b = b := rfl

theorem fl_toNat {f : Bool} {b : UInt8} (h : b.toNat < 128) :
    (fl f b).toNat % 128 = b.toNat ∧ (128 ≤ (fl f b).toNat ↔ f = true) := by
  cases f with
  | false => rw [fl_false]; constructor <;> simp <;> omega
  | true =>
    revert h; revert b; apply u8_forall
    set_option maxRecDepth 8000 in decide

theorem EAgree.append {φ : Nat → Bool} {X B w : Bytes} (h : EAgree base φ X B) (hl : B.length = X.length)
    (hφ : ∀ o, φ o = true → o < X.length) : EAgree base φ (X ++ w) (B ++ w) := by
  intro i b hi hb
  by_cases hx : i < X.length
  · rw [List.getElem?_append_left hx] at hb
    rw [List.getElem?_append_left (by omega)]
    exact h i b hi hb
  · rw [List.getElem?_append_right (by omega)] at hb
    rw [List.getElem?_append_right (by omega), hl]
    cases hf : φ i with
    | true => exact absurd (hφ i hf) hx
    | false => exact hb

/-- The ghost data after writing bytes that are not an item by themselves. -/
def Gh.more (g : Gh) (w : Bytes) : Gh := ⟨g.raw ++ w, g.seen, g.trk⟩

/-- The ghost data after writing the start of an item. -/
def Gh.start (g : Gh) (w : Bytes) : Gh := ⟨g.raw ++ w, g.seen.put g.raw.length none, g.trk⟩

/-- The ghost data after completing an item. -/
def Gh.done (g : Gh) (k : Nat) (t : Tree) : Gh := ⟨g.raw, g.seen.close k t, g.trk⟩

theorem Grows.more (g : Gh) (w : Bytes) : Grows g (g.more w) :=
  ⟨List.prefix_append _ _, fun _ _ => rfl, fun _ h => h⟩

theorem Grows.start (g : Gh) (w : Bytes) : Grows g (g.start w) :=
  ⟨List.prefix_append _ _, fun o ho => by
    show (if o = g.raw.length then _ else _) = _
    rw [if_neg (by omega)], fun _ h => h⟩

theorem EInv.more {s : EState} {g : Gh} (h : EInv c inp base s g) (w : Bytes) :
    EInv c inp base { s with buf := s.buf ++ w } (g.more w) where
  base_le := Nat.le_trans h.base_le (Grows.more g w).le
  len := by simp [Gh.more, h.len]
  agree := h.agree.append h.len (fun o ho => (h.range o (h.flags o ho)).2)
  flags := h.flags
  range o ho := ⟨(h.range o ho).1, Nat.lt_of_lt_of_le (h.range o ho).2 (Grows.more g w).le⟩
  strs k o ho := (h.strs k o ho).grows (Grows.more g w)
  ptrs := h.ptrs

/-- Emitting bytes that are not an item by themselves. -/
theorem step_more {s : EState} {g : Gh} (h : EInv c inp base s g) (w : Bytes) :
    Step c inp base (fun _ _ => False) s { s with buf := s.buf ++ w } g (g.more w)
      (fun B T T' => T' = T ∧ Span B g.raw.length w (g.more w).raw.length) where
  inv := h.more w
  grows := Grows.more g w
  new _ _ ho := .inl ho
  reads φ B hf := by
    refine ⟨rfl, ?_⟩
    have h1 : Span B g.raw.length w (g.raw.length + w.length) := by
      refine hf.agree.span h.base_le ?_ (fun x h1 h2 => ?_)
      · simp [Gh.more]
      · cases hx : φ x with
        | false => rfl
        | true =>
          have := hf.only x (by simp [Gh.more]; omega) hx
          have := (h.range x this).2
          omega
    simpa [Gh.more] using h1

/-- Emitting the start of an item: a tag and its payload. -/
theorem step_start {X : Addr → Nat → Prop} {s s1 : EState} {g : Gh} (h : EInv c inp base s g) {tag : UInt8}
    {w : Bytes} (ht : tag.toNat < 128) (hb : s1.buf = s.buf ++ tag :: w) (hst : s1.strTable = s.strTable)
    (hpt : ∀ κ o, s1.ptrTable κ = some o → s.ptrTable κ = some o ∨ X κ o)
    (hX : ∀ κ o, X κ o → o = g.raw.length) :
    Step c inp base X s s1 g (g.start (tag :: w))
      (fun B T T' => ∃ b, B[g.raw.length]? = some b ∧ b.toNat % 128 = tag.toNat ∧
        Span B (g.raw.length + 1) w (g.start (tag :: w)).raw.length ∧
        T' = if 128 ≤ b.toNat then T.put g.raw.length none else T) where
  inv :=
    { base_le := Nat.le_trans h.base_le (Grows.start g _).le
      len := by simp [Gh.start, hb, h.len]
      agree := by
        rw [hb]
        exact h.agree.append h.len (fun o ho => (h.range o (h.flags o ho)).2)
      flags := fun o ho => by
        show (if o = g.raw.length then _ else _) ≠ _
        split
        · simp
        · exact h.flags o ho
      range := fun o ho => by
        have ho' : (if o = g.raw.length then some none else g.seen o) ≠ none := ho
        split at ho'
        · rename_i he
          subst he
          exact ⟨h.base_le, by simp [Gh.start]⟩
        · exact ⟨(h.range o ho').1, Nat.lt_of_lt_of_le (h.range o ho').2 (Grows.start g _).le⟩
      strs := fun k o ho => by
        rw [hst] at ho
        exact (h.strs k o ho).grows (Grows.start g _)
      ptrs := fun κ o ho => by
        show (if o = g.raw.length then _ else _) = _ ∨ ∃ t, (if o = g.raw.length then _ else _) = _ ∧ _
        rcases hpt κ o ho with h1 | h1
        · split
          · exact .inl rfl
          · exact h.ptrs κ o h1
        · left; rw [if_pos (hX κ o h1)] }
  grows := Grows.start g _
  new κ o ho := (hpt κ o ho).imp_right .inl
  reads φ B hf := by
    have hk : (g.start (tag :: w)).raw[g.raw.length]? = some tag := by simp [Gh.start]
    have h1 := hf.agree _ _ h.base_le hk
    obtain ⟨h2, h3⟩ := fl_toNat (f := φ g.raw.length) ht
    refine ⟨_, h1, h2, ?_, ?_⟩
    · have h4 : Span B (g.raw.length + 1) w (g.raw.length + 1 + w.length) := by
        refine hf.agree.span (Nat.le_succ_of_le h.base_le) ?_ (fun x h1 h2 => ?_)
        · show w <+: (g.raw ++ tag :: w).drop (g.raw.length + 1)
          rw [← List.drop_drop, List.drop_left]
          simp
        · cases hx : φ x with
          | false => rfl
          | true =>
            have := hf.only x (by simp [Gh.start]; omega) hx
            have h5 : (if x = g.raw.length then some none else g.seen x) ≠ none := this
            rw [if_neg (by omega)] at h5
            have := (h.range x h5).2
            omega
      have : (g.start (tag :: w)).raw.length = g.raw.length + 1 + w.length := by
        simp [Gh.start]; omega
      rw [this]; exact h4
    · funext o
      show (if φ o then (if o = g.raw.length then some none else g.seen o) else none) = _
      by_cases hφ : φ g.raw.length = true
      · rw [if_pos (h3.2 hφ)]
        show _ = if o = g.raw.length then some none else _
        by_cases ho : o = g.raw.length
        · rw [if_pos ho, if_pos ho, ho, if_pos hφ]
        · rw [if_neg ho, if_neg ho]; rfl
      · rw [if_neg (fun h => hφ (h3.1 h))]
        show _ = if φ o then g.seen o else none
        by_cases ho : o = g.raw.length
        · rw [ho, if_neg hφ, if_neg hφ]
        · rw [if_neg ho]

theorem Seen.close_other {T : Seen} {k o : Nat} {t : Tree} (h : o ≠ k) : T.close k t o = T o := by
  unfold Seen.close
  split
  · rename_i he; rw [if_neg h, he]
  · rfl

theorem Seen.close_here {T : Seen} {k : Nat} {t : Tree} (h : T k = some none) : T.close k t k = some (some t) := by
  unfold Seen.close
  rw [h]
  simp

theorem Seen.close_none {T : Seen} {k o : Nat} {t : Tree} : T.close k t o = none ↔ T o = none := by
  unfold Seen.close
  split
  · rename_i he; rw [he]; split <;> simp
  · rfl

/-- Completing an item. -/
theorem step_done {X : Addr → Nat → Prop} {s s2 : EState} {g g2 : Gh} {P : Bytes → Seen → Seen → Prop}
    {k : Nat} {tag : UInt8} {t : Tree} (h0 : EInv c inp base s g) (h : Step c inp base X s s2 g g2 P) (hk : g.raw.length ≤ k)
    (ho : g2.seen k = some none) (htag : g2.raw[k]? = some tag) (ht : tag.toNat < 128)
    (hX : ∀ κ o, X κ o → o = k ∧ PtrTree c inp κ t) :
    Step c inp base (fun _ _ => False) s s2 g (g2.done k t)
      (fun B T T' => ∃ T2 b, P B T T2 ∧ B[k]? = some b ∧
        T' = if 128 ≤ b.toNat then T2.close k t else T2) where
  inv :=
    { base_le := h.inv.base_le
      len := h.inv.len
      agree := h.inv.agree
      flags := fun o ho hn => h.inv.flags o ho (Seen.close_none.1 hn)
      range := fun o ho => h.inv.range o (fun hn => ho (Seen.close_none.2 hn))
      strs := fun k' o hs => by
        obtain ⟨w, h1, h2, h3, h4⟩ := h.inv.strs k' o hs
        exact ⟨w, h1, h2, h3, fun x h5 h6 => Seen.close_none.2 (h4 x h5 h6)⟩
      ptrs := fun κ o hp => by
        show g2.seen.close k t o = _ ∨ ∃ t', g2.seen.close k t o = _ ∧ _
        by_cases hok : o = k
        · subst hok
          rcases h.new κ o hp with h1 | h1 | ⟨t', h1, _⟩
          · exfalso
            have h2 : g.seen o ≠ none := by
              rcases h0.ptrs κ o h1 with h2 | ⟨_, h2, _⟩ <;> rw [h2] <;> simp
            have := (h0.range o h2).2
            omega
          · exact .inr ⟨t, Seen.close_here ho, (hX κ o h1).2⟩
          · rw [ho] at h1; cases h1
        · rw [Seen.close_other hok]
          exact h.inv.ptrs κ o hp }
  grows := ⟨h.grows.raw, fun o hl => by
    show g2.seen.close k t o = _
    rw [Seen.close_other (by omega)]
    exact h.grows.seen o hl, h.grows.trk⟩
  new κ o hp := by
    rcases h.new κ o hp with h1 | h1 | ⟨t', h1, h2⟩
    · exact .inl h1
    · obtain ⟨rfl, h2⟩ := hX κ o h1
      exact .inr (.inr ⟨t, Seen.close_here ho, h2⟩)
    · refine .inr (.inr ⟨t', ?_, h2⟩)
      show g2.seen.close k t o = _
      rw [Seen.close_other (by rintro rfl; rw [ho] at h1; cases h1)]
      exact h1
  reads φ B hf := by
    have hf2 : Final base g2 φ B :=
      ⟨hf.agree, fun o hl hφ hn => hf.only o hl hφ (Seen.close_none.2 hn), hf.all, hf.size⟩
    have h1 := hf.agree _ _ (Nat.le_trans h0.base_le hk) htag
    obtain ⟨h2, h3⟩ := fl_toNat (f := φ k) ht
    refine ⟨look φ g2.seen, _, h.reads φ B hf2, h1, ?_⟩
    funext o
    show (if φ o then g2.seen.close k t o else none) = _
    by_cases hφ : φ k = true
    · rw [if_pos (h3.2 hφ)]
      by_cases hok : o = k
      · subst hok
        rw [if_pos hφ, Seen.close_here ho, Seen.close_here]
        show (if φ o then _ else _) = _
        rw [if_pos hφ, ho]
      · rw [Seen.close_other hok, Seen.close_other hok]; rfl
    · rw [if_neg (fun h => hφ (h3.1 h))]
      show _ = if φ o then g2.seen o else none
      by_cases hok : o = k
      · rw [hok, if_neg hφ, if_neg hφ]
      · rw [Seen.close_other hok]

/-- A tag is not padding. -/
abbrev PlainTag (tag : UInt8) : Prop := tag.toNat < 128 ∧ tag.toNat ≠ 0x3f

/-- Writing a complete item: a tag with its payload, then whatever `h2` writes. -/
theorem mk_item {X : Addr → Nat → Prop} {s s1 s2 : EState} {g g2 : Gh} {tag : UInt8} {w : Bytes} {t : Tree}
    {F : Prop} {Q : Bytes → Seen → Seen → Prop}
    (h : EInv c inp base s g) (ht : PlainTag tag) (hb : s1.buf = s.buf ++ tag :: w)
    (hst : s1.strTable = s.strTable)
    (hpt : ∀ κ o, s1.ptrTable κ = some o → s.ptrTable κ = some o ∨ X κ o)
    (hX : ∀ κ o, X κ o → o = g.raw.length ∧ PtrTree c inp κ t)
    (h2 : EInv c inp base s1 (g.start (tag :: w)) →
      Step c inp base (fun _ _ => False) s1 s2 (g.start (tag :: w)) g2 Q)
    (hbody : ∀ B T T', Q B T T' → g2.raw.length < 2 ^ 63 → F →
      Span B (g.raw.length + 1) w (g.start (tag :: w)).raw.length →
      G wrtDialect B false (.body (classify tag.toNat)) (g.raw.length + 1) T (.tree t) g2.raw.length T') :
    Step c inp base (fun _ _ => False) s s2 g (g2.done g.raw.length t)
      (fun B T T' => F → G wrtDialect B false .item g.raw.length T (.tree t) g2.raw.length T') ∧
    (g2.done g.raw.length t).seen g.raw.length = some (some t) := by
  have s1' := step_start h ht.1 hb hst hpt (fun κ o hx => (hX κ o hx).1)
  have s2' := (h2 s1'.inv).weaken (Y := X) (fun _ _ hf => hf.elim)
  have hlt : g.raw.length < (g.start (tag :: w)).raw.length := by simp [Gh.start]
  have hseen : g2.seen g.raw.length = some none := by
    rw [s2'.grows.seen _ hlt]
    show (if _ then _ else _) = _
    rw [if_pos rfl]
  have htag : g2.raw[g.raw.length]? = some tag :=
    prefix_get s2'.grows.raw (by simp [Gh.start])
  have s3 := step_done h (s1'.comp s2') (Nat.le_refl _) hseen htag ht.1 hX
  refine ⟨⟨s3.inv, s3.grows, s3.new, fun φ B hf hF => ?_⟩, Seen.close_here hseen⟩
  obtain ⟨T2, b, ⟨T1, ⟨b', hb1, hb2, hsp, hT1⟩, hQ⟩, hb3, hT'⟩ := s3.reads φ B hf
  have hG := hbody B T1 T2 hQ hf.size hF hsp
  rw [hb1] at hb3
  obtain rfl : b' = b := Option.some.inj hb3
  have hne : b'.toNat % 128 ≠ 0x3f := by rw [hb2]; exact ht.2
  have hta := TagAt.here' hb1 hne
  have hlt := b'.toNat_lt
  by_cases hf : 128 ≤ b'.toNat
  · rw [if_pos hf] at hT1 hT'
    rw [hT']
    refine G.tracked hta hf ?_
    rw [show b'.toNat - 128 = tag.toNat by omega, ← hT1]
    exact hG
  · rw [if_neg hf] at hT1 hT'
    rw [hT']
    refine G.plain hta (by omega) ?_
    rw [show b'.toNat = tag.toNat by omega, ← hT1]
    exact hG

/-- `x` writes one item whose tree satisfies `R`. -/
def EncItem (c : ECfg) (inp : Heap) (base : Nat) (x : E Unit) (R : Tree → Prop) : Prop :=
  ∀ s s' g, EInv c inp base s g → x s = .ok ((), s') →
    ∃ g' t, R t ∧ Step c inp base (fun _ _ => False) s s' g g'
        (fun B T T' => Fits maxSize t →
          G wrtDialect B false .item g.raw.length T (.tree t) g'.raw.length T') ∧
      g'.seen g.raw.length = some (some t) ∧ Fits g'.raw.length t

/-- `x` writes the string `k` as a key or class name. -/
def EncKey (c : ECfg) (inp : Heap) (base : Nat) (x : E Unit) (k : Bytes) : Prop :=
  ∀ s s' g, EInv c inp base s g → x s = .ok ((), s') →
    ∃ g', Step c inp base (fun _ _ => False) s s' g g'
        (fun B T T' => T' = T ∧ (k.length ≤ maxSize → Strish wrtDialect B false g.raw.length k g'.raw.length)) ∧
      k.length ≤ g'.raw.length

/-- An item without children. -/
theorem leaf {tag : UInt8} {w : Bytes} {R : Tree → Prop} {t : Tree} (ht : PlainTag tag) (hR : R t)
    (hfit : ∀ n, (tag :: w).length ≤ n → Fits n t)
    (hbody : ∀ B i T, Fits maxSize t → w.length < 2 ^ 63 → Span B i w (i + w.length) →
      G wrtDialect B false (.body (classify tag.toNat)) i T (.tree t) (i + w.length) T) :
    EncItem c inp base (emit (tag :: w)) R := by
  intro s s' g hi he
  have he := emit_ok.1 he
  subst he
  have hlen : (g.start (tag :: w)).raw.length = g.raw.length + 1 + w.length := by simp [Gh.start]; omega
  obtain ⟨h1, h2⟩ := mk_item (X := fun _ _ => False) (F := Fits maxSize t) (t := t)
    (s1 := { s with buf := s.buf ++ tag :: w }) hi ht rfl rfl
    (fun _ _ h => .inl h) (fun _ _ hf => hf.elim) (fun hi' => Step.refl hi')
    (by
      intro B T T' hT hs hF hsp
      rw [hT]
      rw [hlen] at hsp hs ⊢
      exact hbody B _ T hF (by omega) hsp)
  refine ⟨_, t, hR, h1, h2, hfit _ ?_⟩
  simp [Gh.done, Gh.start]

end Sereal

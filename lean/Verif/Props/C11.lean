import Verif.Proof.Header
/-
C11: which headers are accepted.  C12: documents accidentally re-encoded as UTF-8 are recognised.
-/
namespace Sereal

/-- Header errors end Unmarshal before anything else happens. -/
theorem unmarshal_header_error {cfg : DCfg} {cs : Codecs} {b : Bytes} {vh vb : Option Loc} {e : Err}
    (h : checkHeader b = .error (.err e)) (s : DState) :
    unmarshalHeaderBody cfg cs b vh vb s = (.error (.err e), s) := by
  unfold unmarshalHeaderBody; rw [unmarshalRaw_eq]; unfold unmarshalRaw'
  rw [h, D.bind_err (D.lift_error.2 ⟨rfl, rfl⟩)]
  rfl

/-- The table of the specification: magic string against version number. -/
def HeaderAllowed (magic : Bytes) (version : Nat) : Prop :=
  (magic = [0x3d, 0x73, 0x72, 0x6c] ∧ (version = 1 ∨ version = 2)) ∨
  (magic = [0x3d, 0xf3, 0x72, 0x6c] ∧ (version = 3 ∨ version = 4))

/-- A buffer passes the header checks iff it has an allowed combination of magic string and version
followed by a varint of at most ten bytes.  Every other buffer makes UnmarshalHeaderBody return the
documented error without touching anything (the Decoder, the heap, the targets):
too short or wrong magic or version/magic mismatch: ErrBadHeader; UTF-8 encoded
magic: ErrBadHeaderUTF8; version above 4: unsupported version; no varint: corrupt. -/
theorem C11 (b : Bytes) :
    ((∃ hd, checkHeader b = .ok hd) ↔
      ∃ magic t v rest, b = magic ++ t :: (v ++ rest) ∧ HeaderAllowed magic (t.toNat % 16) ∧
        IsVarint v ∧ v.length ≤ 10) ∧
    (b.length ≤ 5 → ∀ cfg cs vh vb s,
      unmarshalHeaderBody cfg cs b vh vb s = (.error (.err .badHeader), s)) ∧
    (∀ m0 m1 m2 m3 t c r, b = m0 :: m1 :: m2 :: m3 :: t :: c :: r → ∀ cfg cs vh vb s,
      ([m0, m1, m2, m3] = [0x3d, 0xc3, 0xb3, 0x72] →
        unmarshalHeaderBody cfg cs b vh vb s = (.error (.err .badHeaderUTF8), s)) ∧
      ([m0, m1, m2, m3] ≠ [0x3d, 0xc3, 0xb3, 0x72] →
        ¬ ([m0, m1, m2, m3] = [0x3d, 0xf3, 0x72, 0x6c] ∧ 5 ≤ t.toNat % 16) →
        ¬ HeaderAllowed [m0, m1, m2, m3] (t.toNat % 16) →
        unmarshalHeaderBody cfg cs b vh vb s = (.error (.err .badHeader), s)) ∧
      ([m0, m1, m2, m3] = [0x3d, 0xf3, 0x72, 0x6c] → 5 ≤ t.toNat % 16 →
        (∃ v rest, c :: r = v ++ rest ∧ IsVarint v ∧ v.length ≤ 10) →
        unmarshalHeaderBody cfg cs b vh vb s =
          (.error (.err (.versionUnsupported (t.toNat % 16))), s)) ∧
      (([m0, m1, m2, m3] = [0x3d, 0xf3, 0x72, 0x6c] ∧ 5 ≤ t.toNat % 16 ∨
          HeaderAllowed [m0, m1, m2, m3] (t.toNat % 16)) →
        (¬ ∃ v rest, c :: r = v ++ rest ∧ IsVarint v ∧ v.length ≤ 10) →
        unmarshalHeaderBody cfg cs b vh vb s = (.error (.err (.corrupt .badVarint)), s))) := by
  refine ⟨⟨?_, ?_⟩, ?_, ?_⟩
  · rintro ⟨hd, h⟩
    obtain ⟨ver, dt, v, rest, h1, h2, rfl⟩ := checkHeader_ok' h
    refine ⟨magicOf ver, UInt8.ofNat (ver + 16 * dt), v, rest, h1.eq, ?_, h1.varint, h1.short⟩
    have h3 := h1.ver1
    rw [ofNibbles h1.ver15 h1.dt15]
    by_cases hl : ver ≤ 2
    · left; rw [magicOf_low hl]; exact ⟨rfl, by omega⟩
    · right; rw [magicOf_high (by omega)]; exact ⟨rfl, by omega⟩
  · rintro ⟨m, t, v, rest, rfl, h1, h2, h3⟩
    have ht := t.toNat_lt
    refine ⟨_, checkHeader_head (ver := t.toNat % 16) (dt := t.toNat / 16) (v := v) (rest := rest)
      ⟨?_, by omega, by omega, h2, h3, ?_⟩ ?_⟩
    · rcases h1 with ⟨_, h⟩ | ⟨_, h⟩ <;> omega
    · rw [← nibbles]
      rcases h1 with ⟨h, hv⟩ | ⟨h, hv⟩
      · rw [magicOf_low (by omega), h]
      · rw [magicOf_high (by omega), h]
    · rcases h1 with ⟨_, h⟩ | ⟨_, h⟩ <;> omega
  · intro hl cfg cs vh vb s
    apply unmarshal_header_error
    unfold checkHeader
    rw [readHeader_short hl]; rfl
  · rintro m0 m1 m2 m3 t c r rfl cfg cs vh vb s
    have noV : (¬ ∃ v rest, c :: r = v ++ rest ∧ IsVarint v ∧ v.length ≤ 10) →
        varintdecode (c :: r) = .error (.err (.corrupt .badVarint)) := by
      intro hn
      cases h : varintdecode (c :: r) with
      | error e => rw [varintdecode_error h]
      | ok p =>
        obtain ⟨v, rest, h5, h6, h7, _, _⟩ := varintdecode_ok (r := p.1) (sz := p.2) h
        exact absurd ⟨v, rest, h5, h6, h7⟩ hn
    refine ⟨fun hm => ?_, fun h1 h2 h3 => ?_, fun hm h5 hv => ?_, fun hm hv => ?_⟩
    · apply unmarshal_header_error
      unfold checkHeader
      rw [readHeader_cons, if_pos hm]; rfl
    · apply unmarshal_header_error
      unfold checkHeader
      rw [readHeader_cons, if_neg h1, if_neg]
      · rfl
      · rintro (⟨h, h4, h5⟩ | ⟨h, h4⟩)
        · exact h3 (Or.inl ⟨h, by omega⟩)
        · by_cases h6 : 5 ≤ t.toNat % 16
          · exact h2 ⟨h, h6⟩
          · exact h3 (Or.inr ⟨h, by omega⟩)
    · obtain ⟨v, rest, e1, e2, e3⟩ := hv
      apply unmarshal_header_error
      have hm' : ([m0, m1, m2, m3] = [0x3d, 0xc3, 0xb3, 0x72]) = False := by rw [hm]; decide
      unfold checkHeader
      rw [readHeader_cons, if_neg (by rw [hm]; decide), if_pos (Or.inr ⟨hm, by omega⟩), e1,
        varintdecode_of_isVarint v rest e2 e3]
      show (if t.toNat % 16 = 1 ∨ t.toNat % 16 = 2 ∨ t.toNat % 16 = 3 ∨ t.toNat % 16 = 4 then _
        else (Except.error (.err (.versionUnsupported (t.toNat % 16))) : Res Hdr)) = _
      rw [if_neg (by omega)]
    · apply unmarshal_header_error
      unfold checkHeader
      rw [readHeader_cons, if_neg, if_pos, noV hv]
      · rfl
      · rcases hm with ⟨h, h5⟩ | ⟨h, h5⟩ | ⟨h, h5⟩
        · exact Or.inr ⟨h, by omega⟩
        · exact Or.inl ⟨h, by omega, by omega⟩
        · exact Or.inr ⟨h, by omega⟩
      · rcases hm with ⟨h, h5⟩ | ⟨h, h5⟩ | ⟨h, h5⟩ <;> rw [h] <;> decide

/-- Non-vacuity of each part. -/
example : HeaderAllowed [0x3d, 0xf3, 0x72, 0x6c] ((0x33 : UInt8).toNat % 16) := Or.inr ⟨rfl, Or.inl rfl⟩
example : ¬ HeaderAllowed [0x3d, 0x73, 0x72, 0x6c] 3 := by
  rintro (⟨_, h⟩ | ⟨h, _⟩)
  · omega
  · revert h; decide

/-- The UTF-8 encoding of the Latin-1 character with code `c`. -/
def latin1ToUtf8 (c : UInt8) : Bytes :=
  if c.toNat < 128 then [c] else [UInt8.ofNat (0xc0 + c.toNat / 64), UInt8.ofNat (0x80 + c.toNat % 64)]

/-- A document with the version 3 magic that was re-encoded from Latin-1 to UTF-8 is rejected with
ErrBadHeaderUTF8. -/
theorem C12 (b : Bytes) (hlen : 5 ≤ b.length) (hmagic : b.take 4 = [0x3d, 0xf3, 0x72, 0x6c])
    (cfg : DCfg) (cs : Codecs) (vh vb : Option Loc) (s : DState) :
    unmarshalHeaderBody cfg cs (b.flatMap latin1ToUtf8) vh vb s = (.error (.err .badHeaderUTF8), s) := by
  match b, hlen with
  | b0 :: b1 :: b2 :: b3 :: b4 :: r, _ =>
    simp only [List.take_succ_cons, List.take_zero, List.cons.injEq, and_true] at hmagic
    obtain ⟨rfl, rfl, rfl, rfl⟩ := hmagic
    obtain ⟨c, q, hq⟩ : ∃ c q, latin1ToUtf8 b4 ++ r.flatMap latin1ToUtf8 = c :: q := by
      unfold latin1ToUtf8
      split <;> exact ⟨_, _, rfl⟩
    have e : (0x3d :: 0xf3 :: 0x72 :: 0x6c :: b4 :: r : Bytes).flatMap latin1ToUtf8 =
        0x3d :: 0xc3 :: 0xb3 :: 0x72 :: 0x6c :: c :: q := by
      have h1 : latin1ToUtf8 0x3d = [0x3d] := by decide
      have h2 : latin1ToUtf8 0xf3 = [0xc3, 0xb3] := by decide
      have h3 : latin1ToUtf8 0x72 = [0x72] := by decide
      have h4 : latin1ToUtf8 0x6c = [0x6c] := by decide
      rw [List.flatMap_cons, List.flatMap_cons, List.flatMap_cons, List.flatMap_cons, List.flatMap_cons,
        h1, h2, h3, h4, hq]
      rfl
    rw [e]
    exact ((C11 _).2.2 _ _ _ _ _ _ _ rfl cfg cs vh vb s).1 rfl

/-- Non-vacuity: the UTF-8 form of a five-byte document prefix. -/
example : ([0x3d, 0xf3, 0x72, 0x6c, 0xe3] : Bytes).flatMap latin1ToUtf8 =
    [0x3d, 0xc3, 0xb3, 0x72, 0x6c, 0xc3, 0xa3] := by decide

end Sereal

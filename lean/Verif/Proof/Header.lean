import Verif.Proof.ApiSafe
/-
readHeader and checkHeader in terms of bytes.
-/
namespace Sereal

theorem uint32_eq {b0 b1 b2 b3 : UInt8} {t : Bytes} {c0 c1 c2 c3 : UInt8} :
    uint32 (b0 :: b1 :: b2 :: b3 :: t) = uint32 [c0, c1, c2, c3] ↔
      b0 = c0 ∧ b1 = c1 ∧ b2 = c2 ∧ b3 = c3 := by
  simp only [uint32, ← UInt8.toNat_inj]
  have := b0.toNat_lt; have := b1.toNat_lt; have := b2.toNat_lt; have := b3.toNat_lt
  have := c0.toNat_lt; have := c1.toNat_lt; have := c2.toNat_lt; have := c3.toNat_lt
  omega

theorem nibbles (t : UInt8) : t = UInt8.ofNat (t.toNat % 16 + 16 * (t.toNat / 16)) := by
  rw [show t.toNat % 16 + 16 * (t.toNat / 16) = t.toNat by omega]
  simp

theorem ofNibbles {v d : Nat} (hv : v < 16) (hd : d < 16) :
    (UInt8.ofNat (v + 16 * d)).toNat = v + 16 * d := by
  simp only [UInt8.toNat_ofNat']; omega

/-- readHeader on a buffer of at least six bytes. -/
theorem readHeader_cons (b0 b1 b2 b3 t c : UInt8) (r : Bytes) :
    readHeader (b0 :: b1 :: b2 :: b3 :: t :: c :: r) =
      if [b0, b1, b2, b3] = [0x3d, 0xc3, 0xb3, 0x72] then .error (.err .badHeaderUTF8)
      else if ([b0, b1, b2, b3] = [0x3d, 0x73, 0x72, 0x6c] ∧ 1 ≤ t.toNat % 16 ∧ t.toNat % 16 ≤ 2) ∨
          ([b0, b1, b2, b3] = [0x3d, 0xf3, 0x72, 0x6c] ∧ 3 ≤ t.toNat % 16) then
        match varintdecode (c :: r) with
        | .ok (ln, sz) => .ok { doctype := t.toNat / 16, version := t.toNat % 16,
                                suffixStart := 5 + sz, suffixSize := wrapInt (ln + sz) }
        | .error e => .error e
      else .error (.err .badHeader) := by
  rw [readHeader_eq]; unfold readHeader'
  rw [if_neg (by simp [headerSize])]
  dsimp only
  have ht : (b0 :: b1 :: b2 :: b3 :: t :: c :: r)[4]! = t := rfl
  have hdr : (b0 :: b1 :: b2 :: b3 :: t :: c :: r).drop 5 = c :: r := rfl
  rw [ht, hdr]
  have h1 : uint32 (b0 :: b1 :: b2 :: b3 :: t :: c :: r) = magicHeaderBytesHighBitUTF8 ↔
      [b0, b1, b2, b3] = [0x3d, 0xc3, 0xb3, 0x72] := by
    rw [show magicHeaderBytesHighBitUTF8 = uint32 [0x3d, 0xc3, 0xb3, 0x72] by decide, uint32_eq]; simp
  have h2 : uint32 (b0 :: b1 :: b2 :: b3 :: t :: c :: r) = magicHeaderBytes ↔
      [b0, b1, b2, b3] = [0x3d, 0x73, 0x72, 0x6c] := by
    rw [show magicHeaderBytes = uint32 [0x3d, 0x73, 0x72, 0x6c] by decide, uint32_eq]; simp
  have h3 : uint32 (b0 :: b1 :: b2 :: b3 :: t :: c :: r) = magicHeaderBytesHighBit ↔
      [b0, b1, b2, b3] = [0x3d, 0xf3, 0x72, 0x6c] := by
    rw [show magicHeaderBytesHighBit = uint32 [0x3d, 0xf3, 0x72, 0x6c] by decide, uint32_eq]; simp
  rw [and15, shift4]
  by_cases c1 : [b0, b1, b2, b3] = [0x3d, 0xc3, 0xb3, 0x72]
  · rw [if_pos c1, if_pos (h1.2 c1)]
  · rw [if_neg c1, if_neg (fun h => c1 (h1.1 h))]
    have h4 : ((uint32 (b0 :: b1 :: b2 :: b3 :: t :: c :: r) = magicHeaderBytes ∧ 1 ≤ t.toNat % 16 ∧ t.toNat % 16 ≤ 2) ∨
          (uint32 (b0 :: b1 :: b2 :: b3 :: t :: c :: r) = magicHeaderBytesHighBit ∧ 3 ≤ t.toNat % 16)) ↔
        (([b0, b1, b2, b3] = [0x3d, 0x73, 0x72, 0x6c] ∧ 1 ≤ t.toNat % 16 ∧ t.toNat % 16 ≤ 2) ∨
          ([b0, b1, b2, b3] = [0x3d, 0xf3, 0x72, 0x6c] ∧ 3 ≤ t.toNat % 16)) := by rw [h2, h3]
    by_cases c2 : ([b0, b1, b2, b3] = [0x3d, 0x73, 0x72, 0x6c] ∧ 1 ≤ t.toNat % 16 ∧ t.toNat % 16 ≤ 2) ∨
          ([b0, b1, b2, b3] = [0x3d, 0xf3, 0x72, 0x6c] ∧ 3 ≤ t.toNat % 16)
    · rw [if_pos c2, if_neg (not_not_intro (h4.2 c2))]
      cases varintdecode (c :: r) with
      | error e => rfl
      | ok p => rfl
    · rw [if_neg c2, if_pos (fun h => c2 (h4.1 h))]

theorem readHeader_short {b : Bytes} (h : b.length ≤ 5) : readHeader b = .error (.err .badHeader) := by
  rw [readHeader_eq]; unfold readHeader'
  exact if_pos h

theorem long_cases {b : Bytes} (h : 5 < b.length) :
    ∃ b0 b1 b2 b3 t c r, b = b0 :: b1 :: b2 :: b3 :: t :: c :: r := by
  match b, h with
  | b0 :: b1 :: b2 :: b3 :: t :: c :: r, _ => exact ⟨_, _, _, _, _, _, _, rfl⟩

theorem magicOf_low {v : Nat} (h : v ≤ 2) : magicOf v = [0x3d, 0x73, 0x72, 0x6c] := if_pos h
theorem magicOf_high {v : Nat} (h : 3 ≤ v) : magicOf v = [0x3d, 0xf3, 0x72, 0x6c] := if_neg (by omega)

/-- The header of a document and everything after its length field. -/
structure Head (b : Bytes) (ver dt : Nat) (v rest : Bytes) : Prop where
  ver1 : 1 ≤ ver
  ver15 : ver < 16
  dt15 : dt < 16
  varint : IsVarint v
  short : v.length ≤ 10
  eq : b = magicOf ver ++ UInt8.ofNat (ver + 16 * dt) :: (v ++ rest)

def Head.hdr (ver dt : Nat) (v : Bytes) : Hdr :=
  { doctype := dt, version := ver, suffixStart := 5 + v.length,
    suffixSize := wrapInt (sgn (groups v) + v.length) }

theorem readHeader_head {b : Bytes} {ver dt : Nat} {v rest : Bytes} (h : Head b ver dt v rest) :
    readHeader b = .ok (Head.hdr ver dt v) := by
  obtain ⟨h1, h2, h3, h4, h5, rfl⟩ := h
  have hn := ofNibbles h2 h3
  have hvd := varintdecode_of_isVarint v rest h4 h5
  obtain ⟨c, r, hcr⟩ : ∃ c r, v ++ rest = c :: r := by
    have := h4.length_pos
    cases v with
    | nil => simp at this
    | cons c r => exact ⟨c, r ++ rest, rfl⟩
  rw [hcr] at hvd ⊢
  by_cases hl : ver ≤ 2
  · rw [magicOf_low hl]
    show readHeader (0x3d :: 0x73 :: 0x72 :: 0x6c :: UInt8.ofNat (ver + 16 * dt) :: c :: r) = _
    rw [readHeader_cons, if_neg (by decide), if_pos (Or.inl ⟨rfl, by rw [hn]; omega, by rw [hn]; omega⟩),
      hvd, hn]
    simp only [Head.hdr, sgn]
    congr 2 <;> omega
  · rw [magicOf_high (by omega)]
    show readHeader (0x3d :: 0xf3 :: 0x72 :: 0x6c :: UInt8.ofNat (ver + 16 * dt) :: c :: r) = _
    rw [readHeader_cons, if_neg (by decide), if_pos (Or.inr ⟨rfl, by rw [hn]; omega⟩),
      hvd, hn]
    simp only [Head.hdr, sgn]
    congr 2 <;> omega

theorem readHeader_ok {b : Bytes} {hd : Hdr} (h : readHeader b = .ok hd) :
    ∃ ver dt v rest, Head b ver dt v rest ∧ hd = Head.hdr ver dt v := by
  by_cases hl : b.length ≤ 5
  · rw [readHeader_short hl] at h; cases h
  obtain ⟨b0, b1, b2, b3, t, c, r, rfl⟩ := long_cases (Nat.lt_of_not_le hl)
  rw [readHeader_cons] at h
  split at h
  · cases h
  split at h
  · rename_i hm
    split at h
    · rename_i ln sz hvd
      cases h
      obtain ⟨v, rest, h5, h6, h7, h8, h9⟩ := varintdecode_ok hvd
      have hm' : 1 ≤ t.toNat % 16 ∧ [b0, b1, b2, b3] = magicOf (t.toNat % 16) := by
        rcases hm with ⟨h1, h2, h3⟩ | ⟨h1, h2⟩
        · exact ⟨h2, by rw [magicOf_low h3]; exact h1⟩
        · exact ⟨by omega, by rw [magicOf_high h2]; exact h1⟩
      refine ⟨t.toNat % 16, t.toNat / 16, v, rest, ⟨hm'.1, by omega, by have := t.toNat_lt; omega, h6, h7, ?_⟩, ?_⟩
      · rw [← h5, ← hm'.2, ← nibbles]; rfl
      · simp only [Head.hdr, sgn]; rw [h9, h8]
    · cases h
  · cases h

theorem checkHeader_head {b : Bytes} {ver dt : Nat} {v rest : Bytes} (h : Head b ver dt v rest)
    (h4 : ver ≤ 4) : checkHeader b = .ok (Head.hdr ver dt v) := by
  unfold checkHeader
  rw [readHeader_head h]
  have := h.ver1
  show (if ver = 1 ∨ ver = 2 ∨ ver = 3 ∨ ver = 4 then _ else _) = _
  rw [if_pos (by omega)]

theorem checkHeader_ok' {b : Bytes} {hd : Hdr} (h : checkHeader b = .ok hd) :
    ∃ ver dt v rest, Head b ver dt v rest ∧ ver ≤ 4 ∧ hd = Head.hdr ver dt v := by
  unfold checkHeader at h
  obtain ⟨hd', h1, h2⟩ := Res.bind_ok.1 h
  obtain ⟨ver, dt, v, rest, h3, rfl⟩ := readHeader_ok h1
  split at h2
  · rename_i hv
    cases h2
    refine ⟨ver, dt, v, rest, h3, ?_, rfl⟩
    simp only [Head.hdr] at hv
    omega
  · cases h2

theorem Head.append {b : Bytes} {ver dt : Nat} {v rest : Bytes} (h : Head b ver dt v rest)
    (e : Bytes) : Head (b ++ e) ver dt v (rest ++ e) :=
  ⟨h.ver1, h.ver15, h.dt15, h.varint, h.short, by rw [h.eq]; simp⟩

theorem checkHeader_append {b : Bytes} {hd : Hdr} (h : checkHeader b = .ok hd) (e : Bytes) :
    checkHeader (b ++ e) = .ok hd := by
  obtain ⟨ver, dt, v, rest, h1, h2, rfl⟩ := checkHeader_ok' h
  exact checkHeader_head (h1.append e) h2

theorem magicOf_length (v : Nat) : (magicOf v).length = 4 := by
  unfold magicOf; split <;> rfl

theorem Head.drop {b : Bytes} {ver dt : Nat} {v rest : Bytes} (h : Head b ver dt v rest) :
    b.drop 5 = v ++ rest := by
  rw [h.eq, show 5 = (magicOf ver).length + 1 by rw [magicOf_length], ← List.drop_drop, List.drop_left]
  rfl

theorem Head.length {b : Bytes} {ver dt : Nat} {v rest : Bytes} (h : Head b ver dt v rest) :
    b.length = 5 + v.length + rest.length := by
  rw [h.eq]; simp [magicOf_length]; omega

end Sereal

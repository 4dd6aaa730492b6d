import Verif.Proof.Header
/-
C16: bytes after the body item are ignored.
-/
namespace Sereal

theorem bodyInput_append {cs : Codecs} {b buf : Bytes} {i : Nat} (e : Bytes)
    (hraw : ∃ t : UInt8, b[4]? = some t ∧ t.toNat / 16 = 0) (h : bodyInput cs b = .ok (buf, i)) :
    bodyInput cs (b ++ e) = .ok (buf ++ e, i) := by
  unfold bodyInput at h ⊢
  cases h1 : checkHeader b with
  | error e => rw [h1] at h; cases h
  | ok hd =>
    rw [h1] at h
    rw [checkHeader_append h1]
    obtain ⟨_, _, _, ⟨t, ht, hdt, _⟩, _⟩ := checkHeader_ok h1
    obtain ⟨t', ht', h0⟩ := hraw
    rw [ht] at ht'
    cases ht'
    have hd0 : hd.doctype = 0 := by rw [hdt, shift4]; exact h0
    have h2 : documentDecompressor hd.version hd.doctype = .ok none := by
      rw [hd0]; rfl
    dsimp only at h ⊢
    rw [h2] at h ⊢
    dsimp only at h ⊢
    split at h
    · cases h
    · rename_i hb
      rw [if_neg (by rw [List.length_append]; omega)]
      split at h
      · rename_i hv
        rw [if_pos hv]
        cases h; rfl
      · rename_i hv
        rw [if_neg hv]
        split at h
        · cases h
        · rename_i hz
          rw [if_neg hz]
          cases h
          rw [List.drop_append_of_le_length (by omega)]

/-- If Unmarshal of a raw document (type nibble 0) succeeds, Unmarshal of the document followed by
any bytes succeeds with exactly the same effect: same result, same memory, same Decoder. -/
theorem C16 (cfg : DCfg) (cs : Codecs) (b e : Bytes) (ptr : Loc) (s s' : DState)
    (hraw : ∃ t : UInt8, b[4]? = some t ∧ t.toNat / 16 = 0)
    (h : unmarshalHeaderBody cfg cs b none (some ptr) s = (.ok (), s')) :
    unmarshalHeaderBody cfg cs (b ++ e) none (some ptr) s = (.ok (), s') := by
  unfold unmarshalHeaderBody at h ⊢
  rw [unmarshalRaw_body] at h ⊢
  cases hb : bodyInput cs b with
  | error er =>
    rw [hb] at h
    cases er <;> simp [recovered] at h
  | ok p =>
    obtain ⟨buf, i⟩ := p
    rw [hb] at h
    rw [bodyInput_append e hraw hb]
    dsimp only at h ⊢
    unfold decodeBody at h ⊢
    have hd := decode_append cfg buf e (f := fuelFor buf.length) (f' := fuelFor (buf ++ e).length)
      (by unfold fuelFor; rw [List.length_append]; omega) i ptr
    unfold withTracked at h ⊢
    cases hr : decode cfg buf (fuelFor buf.length) i ptr { s with tracked := fun _ => none } with
    | mk r s1 =>
      rw [hr] at h
      cases r with
      | error er => cases er <;> simp [recovered] at h
      | ok j =>
        rw [hd _ _ _ hr]
        exact h

/-- The same for `unmarshal`, that is for a new Decoder. -/
theorem C16_new (cfg : DCfg) (cs : Codecs) (b e : Bytes) (r : Heap × Val)
    (hraw : ∃ t : UInt8, b[4]? = some t ∧ t.toNat / 16 = 0) (h : unmarshal cfg cs b = .ok r) :
    unmarshal cfg cs (b ++ e) = .ok r := by
  unfold unmarshal at h ⊢
  cases hr : unmarshalHeaderBody cfg cs b none (some (.cell 1)) DState.init with
  | mk q s' =>
    rw [hr] at h
    cases q with
    | error er => cases h
    | ok u => rw [C16 cfg cs b e (.cell 1) DState.init s' hraw hr]; exact h

/-- Non-vacuity: a document that decodes, a map with a nested array. -/
example : (unmarshalHeaderBody {} ⟨fun _ => .ok [], fun _ => .ok [], fun _ _ => .ok [], fun _ => .ok (),
      fun _ => .ok [], fun _ _ => .ok [], fun _ => .ok []⟩
    [0x3d, 0xf3, 0x72, 0x6c, 3, 0, 0x51, 0x61, 0x61, 0x42, 1, 2] none (some (.cell 1)) DState.init).1 =
    .ok () := by decide +kernel

end Sereal

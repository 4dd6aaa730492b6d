import Verif.Proof.Header
/-
C14: Unmarshal terminates, in a number of steps bounded by a polynomial in the size of its input.
C27: it does not allocate more than the input warrants.
-/
namespace Sereal

/-- `m` bounds the number of bytes Unmarshal works on: the document itself if it is raw (type nibble
0), the document plus whatever any codec makes of any of its suffixes otherwise. -/
def InputBound (cs : Codecs) (b : Bytes) (m : Nat) : Prop :=
  b.length ≤ m ∧
  ((∃ t : UInt8, b[4]? = some t ∧ t.toNat / 16 = 0) ∨
    ∀ c p d, p <:+ b → decompress cs c p = .ok d → b.length + d.length ≤ m)

theorem Head.tag {b : Bytes} {ver dt : Nat} {v rest : Bytes} (h : Head b ver dt v rest) :
    b[4]? = some (UInt8.ofNat (ver + 16 * dt)) := by
  rw [h.eq, List.getElem?_append_right (by rw [magicOf_length]; omega), magicOf_length]; rfl

theorem bodyInput_start {cs : Codecs} {b buf : Bytes} {i : Nat} (h : bodyInput cs b = .ok (buf, i)) :
    i ≤ buf.length + 1 := by
  unfold bodyInput at h
  split at h
  · cases h
  split at h
  · cases h
  split at h
  · cases h
  rename_i hd _ _ dc _ hbs
  generalize (wrapInt (headerSize + hd.suffixSize)) = B at *
  have fin : ∀ b' : Bytes, B.toNat ≤ b'.length →
      (if hd.version = 1 then .ok (b', B.toNat)
        else if B.toNat = 0 then .error (.crash "slice bounds out of range")
        else .ok (b'.drop (B.toNat - 1), 1) : Res (Bytes × Nat)) = .ok (buf, i) → i ≤ buf.length + 1 := by
    intro b' hb1 he
    split at he
    · cases he; omega
    · split at he
      · cases he
      · cases he; omega
  dsimp only at h
  cases dc with
  | none => exact fin b (by omega) h
  | some c =>
    dsimp only at h
    cases h3 : decompress cs c (b.drop B.toNat) with
    | error e => rw [h3] at h; cases h
    | ok d =>
      rw [h3] at h
      refine fin _ ?_ h
      rw [List.length_append, List.length_take]; omega

theorem bodyInput_ok {cs : Codecs} {b buf : Bytes} {i m : Nat} (h : bodyInput cs b = .ok (buf, i))
    (hm : InputBound cs b m) : buf.length ≤ m := by
  unfold bodyInput at h
  cases h1 : checkHeader b with
  | error e => rw [h1] at h; cases h
  | ok hd =>
    obtain ⟨ver, dt, v, rest, hh, hv4, rfl⟩ := checkHeader_ok' h1
    rw [h1] at h
    dsimp only at h
    cases h2 : documentDecompressor (Head.hdr ver dt v).version (Head.hdr ver dt v).doctype with
    | error e => rw [h2] at h; cases h
    | ok dc =>
      rw [h2] at h
      dsimp only at h
      split at h
      · cases h
      rename_i hbs
      generalize hB : (wrapInt (headerSize + (Head.hdr ver dt v).suffixSize)) = B at *
      have fin : ∀ b' : Bytes, b'.length ≤ m →
          (if (Head.hdr ver dt v).version = 1 then .ok (b', B.toNat)
            else if B.toNat = 0 then .error (.crash "slice bounds out of range")
            else .ok (b'.drop (B.toNat - 1), 1) : Res (Bytes × Nat)) = .ok (buf, i) →
          buf.length ≤ m := by
        intro b' hb2 he
        split at he
        · cases he; omega
        · split at he
          · cases he
          · cases he
            rw [List.length_drop]; omega
      cases dc with
      | none => exact fin b hm.1 h
      | some c =>
        dsimp only at h
        cases h3 : decompress cs c (b.drop B.toNat) with
        | error e => rw [h3] at h; cases h
        | ok d =>
          rw [h3] at h
          have hd : b.length + d.length ≤ m := by
            rcases hm.2 with ⟨t, ht, h0⟩ | hm2
            · exfalso
              rw [hh.tag] at ht
              cases ht
              rw [ofNibbles hh.ver15 hh.dt15] at h0
              have := hh.ver15
              have hdt : dt = 0 := by omega
              simp [documentDecompressor, Head.hdr, hdt, serealRaw] at h2
            · exact hm2 c _ d (List.drop_suffix _ _) h3
          refine fin _ ?_ h
          · rw [List.length_append, List.length_take]; omega

theorem bodyInput_error {cs : Codecs} {b : Bytes} {e : Exn} (h : bodyInput cs b = .error e) :
    e ≠ .fuel := by
  unfold bodyInput at h
  cases h1 : checkHeader b with
  | error e' =>
    rw [h1] at h
    obtain ⟨er, rfl⟩ := checkHeader_error h1
    cases h; simp
  | ok hd =>
    rw [h1] at h
    dsimp only at h
    cases h2 : documentDecompressor hd.version hd.doctype with
    | error e' =>
      rw [h2] at h
      obtain ⟨er, rfl⟩ := documentDecompressor_error h2
      cases h; simp
    | ok dc =>
      rw [h2] at h
      dsimp only at h
      split at h
      · cases h; simp
      have fin : ∀ (b' : Bytes) (n : Nat),
          (if hd.version = 1 then .ok (b', n)
            else if n = 0 then .error (.crash "slice bounds out of range")
            else .ok (b'.drop (n - 1), 1) : Res (Bytes × Nat)) = .error e → e ≠ .fuel := by
        intro b' n he
        split at he
        · cases he
        · split at he
          · cases he; simp
          · cases he
      cases dc with
      | none => exact fin _ _ h
      | some c =>
        dsimp only at h
        cases h3 : decompress cs c (b.drop (wrapInt (headerSize + hd.suffixSize)).toNat) with
        | error e' =>
          rw [h3] at h
          cases h
          rcases decompress_error h3 with ⟨er, rfl⟩ | ⟨l, m, _, rfl, _⟩ <;> simp
        | ok d => rw [h3] at h; exact fin _ _ h

/-- Cost of one Unmarshal call, for any state of the Decoder. -/
theorem unmarshal_cost (cfg : DCfg) (cs : Codecs) (b : Bytes) (ptr : Loc) (s : DState)
    (hp : ptr.addr < s.heap.next) (hnil : s.heap.read ptr = .nil) :
    (unmarshalHeaderBody cfg cs b none (some ptr) s).1 ≠ .error .fuel ∧
    ∀ m, InputBound cs b m →
      (unmarshalHeaderBody cfg cs b none (some ptr) s).2.cost ≤ s.cost + (m + 4) ^ 3 ∧
      (unmarshalHeaderBody cfg cs b none (some ptr) s).2.peak ≤ max s.peak m := by
  unfold unmarshalHeaderBody
  rw [unmarshalRaw_body]
  cases h : bodyInput cs b with
  | error e =>
    refine ⟨?_, fun m _ => ⟨Nat.le_add_right _ _, Nat.le_max_left _ _⟩⟩
    intro h2
    have hf : e = .fuel := by
      cases e <;> simp [recovered] at h2 ⊢
    exact bodyInput_error h hf
  | ok p =>
    obtain ⟨buf, i⟩ := p
    dsimp only
    have key : ∀ m, buf.length ≤ m → i ≤ buf.length + 1 →
        (decodeBody cfg buf i ptr s).1 ≠ .error .fuel ∧
        (decodeBody cfg buf i ptr s).2.cost ≤ s.cost + (m + 4) ^ 3 ∧
        (decodeBody cfg buf i ptr s).2.peak ≤ max s.peak m := by
      intro m hm hi
      have hpow : (buf.length + 4) ^ 3 ≤ (m + 4) ^ 3 := Nat.pow_le_pow_left (by omega) 3
      have hs := decodeCall_spec cfg buf i ptr s s.copyDepth hi rfl hp hnil
      unfold decodeBody
      cases hd : withTracked (decode cfg buf (fuelFor buf.length) i ptr) s with
      | mk r s1 =>
        cases r with
        | ok j =>
          obtain ⟨_, _, h3, h4, _⟩ := hs.1 _ _ hd
          refine ⟨by simp, ?_, ?_⟩
          · show s1.cost ≤ _; omega
          · show s1.peak ≤ _; omega
        | error e =>
          obtain ⟨_, h2, _, _, _, h3, h4⟩ := hs.2 _ _ hd
          refine ⟨by simpa using h2, ?_, ?_⟩
          · show s1.cost ≤ _; omega
          · show s1.peak ≤ _; omega
    have hb := bodyInput_start h
    refine ⟨?_, fun m hm => (key m (bodyInput_ok h hm) hb).2⟩
    intro h2
    have := (key buf.length (Nat.le_refl _) hb).1
    revert h2
    cases hr : (decodeBody cfg buf i ptr s).1 with
    | ok u => simp [recovered]
    | error e => rw [hr] at this; cases e <;> simp_all [recovered]

/-- On every byte string, with every decoder flag and in every state of the Decoder, Unmarshal into a
nil `interface{}` variable ends (the recursion fuel of the model, 2n+4 for n bytes, is never used
up), and the number of calls of decode and decodeStringish is at most (m+4)^3 where `m` bounds the
number of bytes of the (decompressed) document. -/
theorem C14 (cfg : DCfg) (cs : Codecs) (b : Bytes) (ptr : Loc) (s : DState)
    (hp : ptr.addr < s.heap.next) (hnil : s.heap.read ptr = .nil) (h0 : s.steps = 0 ∧ s.alloc = 0) :
    (unmarshalHeaderBody cfg cs b none (some ptr) s).1 ≠ .error .fuel ∧
    ∀ m, InputBound cs b m →
      (unmarshalHeaderBody cfg cs b none (some ptr) s).2.steps ≤ (m + 4) ^ 3 := by
  obtain ⟨h1, h2⟩ := unmarshal_cost cfg cs b ptr s hp hnil
  refine ⟨h1, fun m hm => ?_⟩
  have := (h2 m hm).1
  simp only [DState.cost] at this
  omega

/-- While decoding, no single container or string is allocated with more than `m` elements or bytes,
and the total number of elements and bytes allocated is at most (m+4)^3, where `m` bounds the number
of bytes of the (decompressed) document. -/
theorem C27 (cfg : DCfg) (cs : Codecs) (b : Bytes) (ptr : Loc) (s : DState)
    (hp : ptr.addr < s.heap.next) (hnil : s.heap.read ptr = .nil)
    (h0 : s.steps = 0 ∧ s.alloc = 0 ∧ s.peak = 0) (m : Nat) (hm : InputBound cs b m) :
    (unmarshalHeaderBody cfg cs b none (some ptr) s).2.peak ≤ m ∧
    (unmarshalHeaderBody cfg cs b none (some ptr) s).2.alloc ≤ (m + 4) ^ 3 := by
  obtain ⟨h1, h2⟩ := unmarshal_cost cfg cs b ptr s hp hnil
  obtain ⟨h3, h4⟩ := h2 m hm
  simp only [DState.cost] at h3
  constructor <;> omega

/-- Non-vacuity: a raw document announcing an array of 2^31-1 elements in ten bytes; the hypotheses
hold with `m` = 12. -/
example (cs : Codecs) :
    InputBound cs [0x3d, 0xf3, 0x72, 0x6c, 3, 0, 0x2b, 0xff, 0xff, 0xff, 0xff, 7] 12 ∧
      (Loc.cell 1).addr < DState.init.heap.next ∧ DState.init.heap.read (.cell 1) = .nil ∧
      DState.init.steps = 0 ∧ DState.init.alloc = 0 ∧ DState.init.peak = 0 :=
  ⟨⟨by decide, Or.inl ⟨3, rfl, by decide⟩⟩, by decide, rfl, rfl, rfl, rfl⟩

end Sereal

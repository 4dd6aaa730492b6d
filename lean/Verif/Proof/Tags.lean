import Verif.Proof.D
/-
`decodeTag` as a case distinction on the tag table.
-/
namespace Sereal

/-- `decodeTag` by tag class. -/
def decodeC (cfg : DCfg) (buf : Bytes) (rec : Nat → Loc → D Nat) (c : TagC) (trackme : Bool)
    (idx : Nat) (loc : Loc) (tag : Nat) : D Nat :=
  match c with
  | .int i => do
    writeLoc loc (.int .int (Int64.ofInt i))
    pure idx
  | .varint => do
    let (val, sz) ← varintAt buf idx
    if val < 0 then writeLoc loc (.uint .uint (UInt64.ofBitVec (BitVec.ofInt 64 val)))
    else writeLoc loc (.int .int (Int64.ofInt val))
    pure (idx + sz)
  | .zigzag => do
    let (i, sz) ← varintAt buf idx
    writeLoc loc (.int .int (zigzagValue i))
    pure (idx + sz)
  | .float => do
    let (f, idx) ← decodeFloat buf idx
    writeLoc loc (.f32 f)
    pure idx
  | .double => do
    let (f, idx) ← decodeDouble buf idx
    writeLoc loc (.f64 f)
    pure idx
  | .true_ => do
    writeLoc loc (.bool true)
    pure idx
  | .false_ => do
    writeLoc loc (.bool false)
    pure idx
  | .hash => do
    let (ln, sz) ← varintAt buf idx
    decodeHash buf rec (idx + sz) ln loc false
  | .hashref n => decodeHash buf rec idx n loc cfg.perlCompat
  | .array => do
    let (ln, sz) ← varintAt buf idx
    decodeArray buf rec (idx + sz) ln loc false
  | .arrayref n => decodeArray buf rec idx n loc cfg.perlCompat
  | .strUtf8 => do
    let (ln, sz) ← varintAt buf idx
    let (val, idx) ← decodeBinary buf (idx + sz) ln
    writeLoc loc (.str val)
    pure idx
  | .binary => do
    let (ln, sz) ← varintAt buf idx
    let (val, idx) ← decodeBinary buf (idx + sz) ln
    writeLoc loc (.bin val)
    pure idx
  | .short n => do
    let (val, idx) ← decodeBinary buf idx n
    writeLoc loc (.bin val)
    pure idx
  | .undef => do
    if cfg.perlCompat then
      let a ← allocVar (.undef false)
      writeLoc loc (.ptr false a)
    else writeLoc loc .nil
    pure idx
  | .cundef => do
    if cfg.perlCompat then writeLoc loc (.ptr false canonicalUndefAddr)
    else writeLoc loc .nil
    pure idx
  | .copy => do
    D.failIf ((← D.get).copyDepth > 0) (.err (.corrupt .nestedCOPY))
    let (offs, sz) ← varintAt buf idx
    D.failIf (offs < 0 ∨ offs ≥ idx) (.err (.corrupt .badOffset))
    let _ ← withCopy (rec offs.toNat loc)
    pure (idx + sz)
  | .refn => decodeRefn cfg rec trackme idx loc
  | .refp => decodeRefpAlias cfg buf idx true loc
  | .alias => decodeRefpAlias cfg buf idx false loc
  | .weaken => do
    if cfg.perlCompat then
      let a ← allocVar (.weak .nil)
      writeLoc loc (.ptr false a)
      rec idx (.field a)
    else rec idx loc
  | .regexp => do
    let (pattern, modifiers, idx) ← decodeRegexp buf idx
    let a ← allocVar (.regexp pattern modifiers)
    writeLoc loc (.ptr false a)
    pure idx
  | .object => decodeObject cfg buf rec idx loc false
  | .objectv => decodeObject cfg buf rec idx loc true
  | .freeze => decodeFreeze cfg buf rec idx loc false
  | .freezev => decodeFreeze cfg buf rec idx loc true
  | .pad => D.err (.unknownTag tag)
  | .other => D.err (.unknownTag tag)

theorem decodeInt_eq (tag : UInt8) (h : tag < typeVARINT) :
    ∃ i, classify tag.toNat = .int i ∧ decodeInt tag = Int64.ofInt i := by
  have hall : ∀ t : Fin 32,
      (if t.val < 16 then classify t.val = .int t.val else classify t.val = .int (t.val - 32)) := by
    intro t
    have := t.2
    split <;> simp [classify, *]
  have hlt : tag.toNat < 32 := by simpa [UInt8.lt_iff_toNat_lt, typeVARINT] using h
  have hc := hall ⟨tag.toNat, hlt⟩
  have hbit : ∀ b : UInt8, b < typeVARINT → ((b &&& 0x10 = 0x10) ↔ 16 ≤ b.toNat) := by
    apply u8_forall; set_option maxRecDepth 8000 in decide
  unfold decodeInt
  by_cases h16 : tag.toNat < 16
  · simp only [h16, ↓reduceIte] at hc
    rw [if_neg (by rw [hbit tag h]; omega)]
    exact ⟨_, hc, rfl⟩
  · simp only [h16, ↓reduceIte] at hc
    rw [if_pos (by rw [hbit tag h]; omega)]
    exact ⟨_, hc, rfl⟩

theorem tag_cases (tag : UInt8) (h : tag.toNat < 128) :
    tag < typeVARINT ∨ (32 ≤ tag.toNat ∧ tag.toNat < 64) ∨ (64 ≤ tag.toNat ∧ tag.toNat < 80) ∨
      (80 ≤ tag.toNat ∧ tag.toNat < 96) ∨ (96 ≤ tag.toNat ∧ tag.toNat < 128) := by
  have : tag < typeVARINT ↔ tag.toNat < 32 := by simp [UInt8.lt_iff_toNat_lt, typeVARINT]
  rw [this]
  omega

theorem decodeTag_eq (cfg : DCfg) (buf : Bytes) (rec : Nat → Loc → D Nat) (tag : UInt8)
    (trackme : Bool) (idx : Nat) (loc : Loc) (h : tag.toNat < 128) :
    decodeTag cfg buf rec tag trackme idx loc =
      decodeC cfg buf rec (classify tag.toNat) trackme idx loc tag.toNat := by
  rcases tag_cases tag h with h | ⟨h1, h2⟩ | ⟨h1, h2⟩ | ⟨h1, h2⟩ | ⟨h1, h2⟩
  · obtain ⟨i, hc, hi⟩ := decodeInt_eq tag h
    rw [hc]
    unfold decodeTag decodeC
    rw [if_pos h, hi]
  · have : ∃ n, n < 32 ∧ tag = UInt8.ofNat (32 + n) := ⟨tag.toNat - 32, by omega, by
      apply UInt8.toNat.inj; simp; omega⟩
    obtain ⟨n, hn, rfl⟩ := this
    clear h1 h2 h
    match n, hn with
    | 0, _ => rfl
    | 1, _ => rfl
    | 2, _ => rfl
    | 3, _ => rfl
    | 4, _ => rfl
    | 5, _ => rcases cfg with ⟨pc, dr, rg⟩; cases pc <;> rfl
    | 6, _ => rfl
    | 7, _ => rfl
    | 8, _ => rfl
    | 9, _ => rfl
    | 10, _ => rfl
    | 11, _ => rfl
    | 12, _ => rfl
    | 13, _ => rfl
    | 14, _ => rfl
    | 15, _ => rfl
    | 16, _ => rfl
    | 17, _ => rfl
    | 18, _ => rfl
    | 19, _ => rfl
    | 20, _ => rfl
    | 21, _ => rfl
    | 22, _ => rfl
    | 23, _ => rfl
    | 24, _ => rfl
    | 25, _ => rcases cfg with ⟨pc, dr, rg⟩; cases pc <;> rfl
    | 26, _ => rfl
    | 27, _ => rfl
    | 28, _ => rfl
    | 29, _ => rfl
    | 30, _ => rfl
    | 31, _ => rfl
    | n + 32, hn => omega
  · have hc : classify tag.toNat = .arrayref (tag.toNat - 64) := by
      unfold classify
      repeat rw [if_neg (by omega)]
      rw [if_pos (by omega)]
    have hm : ∀ b : UInt8, 64 ≤ b.toNat → b.toNat < 80 → (b &&& 0x0f).toNat = b.toNat - 64 ∧
        ¬ b < typeVARINT ∧ b ≠ typeVARINT ∧ b ≠ typeZIGZAG ∧ b ≠ typeFLOAT ∧ b ≠ typeDOUBLE ∧
        b ≠ typeTRUE ∧ b ≠ typeFALSE ∧ b ≠ typeHASH ∧
        ¬ (typeHASHREF_0 ≤ b ∧ b < typeHASHREF_0 + 16) ∧ b ≠ typeARRAY ∧
        (typeARRAYREF_0 ≤ b ∧ b < typeARRAYREF_0 + 16) := by
      apply u8_forall; set_option maxRecDepth 8000 in decide
    obtain ⟨e, n1, n2, n3, n4, n5, n6, n7, n8, n9, n10, p⟩ := hm tag h1 h2
    rw [hc]
    unfold decodeTag
    simp only [if_neg n1, if_neg n2, if_neg n3, if_neg n4, if_neg n5, if_neg n6, if_neg n7,
      if_neg n8, if_neg n9, if_neg n10, if_pos p, e]
    rfl
  · have hc : classify tag.toNat = .hashref (tag.toNat - 80) := by
      unfold classify
      repeat rw [if_neg (by omega)]
      rw [if_pos (by omega)]
    have hm : ∀ b : UInt8, 80 ≤ b.toNat → b.toNat < 96 → (b &&& 0x0f).toNat = b.toNat - 80 ∧
        ¬ b < typeVARINT ∧ b ≠ typeVARINT ∧ b ≠ typeZIGZAG ∧ b ≠ typeFLOAT ∧ b ≠ typeDOUBLE ∧
        b ≠ typeTRUE ∧ b ≠ typeFALSE ∧ b ≠ typeHASH ∧
        (typeHASHREF_0 ≤ b ∧ b < typeHASHREF_0 + 16) := by
      apply u8_forall; set_option maxRecDepth 8000 in decide
    obtain ⟨e, n1, n2, n3, n4, n5, n6, n7, n8, p⟩ := hm tag h1 h2
    rw [hc]
    unfold decodeTag
    simp only [if_neg n1, if_neg n2, if_neg n3, if_neg n4, if_neg n5, if_neg n6, if_neg n7,
      if_neg n8, if_pos p, e]
    rfl
  · have hc : classify tag.toNat = .short (tag.toNat - 96) := by
      unfold classify
      repeat rw [if_neg (by omega)]
    have hm : ∀ b : UInt8, 96 ≤ b.toNat → b.toNat < 128 → (b &&& 0x1f).toNat = b.toNat - 96 ∧
        ¬ b < typeVARINT ∧ b ≠ typeVARINT ∧ b ≠ typeZIGZAG ∧ b ≠ typeFLOAT ∧ b ≠ typeDOUBLE ∧
        b ≠ typeTRUE ∧ b ≠ typeFALSE ∧ b ≠ typeHASH ∧
        ¬ (typeHASHREF_0 ≤ b ∧ b < typeHASHREF_0 + 16) ∧ b ≠ typeARRAY ∧
        ¬ (typeARRAYREF_0 ≤ b ∧ b < typeARRAYREF_0 + 16) ∧ b ≠ typeSTR_UTF8 ∧ b ≠ typeBINARY ∧
        (typeSHORT_BINARY_0 ≤ b ∧ b < typeSHORT_BINARY_0 + 32) := by
      apply u8_forall; set_option maxRecDepth 8000 in decide
    obtain ⟨e, n1, n2, n3, n4, n5, n6, n7, n8, n9, n10, n11, n12, n13, p⟩ := hm tag h1 h2
    rw [hc]
    unfold decodeTag
    simp only [if_neg n1, if_neg n2, if_neg n3, if_neg n4, if_neg n5, if_neg n6, if_neg n7,
      if_neg n8, if_neg n9, if_neg n10, if_neg n11, if_neg n12, if_neg n13, if_pos p, e]
    rfl

theorem and_not_track (b : UInt8) : (b &&& ~~~ trackFlag).toNat = b.toNat % 128 := by
  revert b; apply u8_forall; set_option maxRecDepth 8000 in decide

theorem and_track (b : UInt8) : b &&& trackFlag = trackFlag ↔ 128 ≤ b.toNat := by
  revert b; apply u8_forall; set_option maxRecDepth 8000 in decide

/-- One level of `decode`. -/
theorem decode_succ (cfg : DCfg) (buf : Bytes) (f idx : Nat) (loc : Loc) :
    decode cfg buf (f + 1) idx loc = (do
      tick
      let p ← D.lift (skipPad buf idx)
      if 128 ≤ p.2.toNat then track p.1 loc
      decodeC cfg buf (decode cfg buf f) (classify (p.2.toNat % 128)) (128 ≤ p.2.toNat)
        (p.1 + 1) loc (p.2.toNat % 128)) := by
  rw [decode]
  congr 1; funext _; congr 1; funext p
  simp only [decide_eq_true_eq, and_track]
  rw [decodeTag_eq _ _ _ _ _ _ _ (by rw [and_not_track]; omega), and_not_track]

end Sereal

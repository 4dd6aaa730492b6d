import Verif.Proof.Tags
import Verif.Model.TypedMem
/-
`tagMem` as a case distinction on the tag table.
-/
namespace Sereal

/-- `tagMem` by tag class. -/
def memC (cfg : DCfg) (tc : TCfg) (buf : Bytes) (rec : MRec) (c : TagC) (idx : Nat) (t : Target) (tag : Nat) : M Nat :=
  match c with
  | .int i => do
    t.setInt (Int64.ofInt i)
    pure idx
  | .varint => do
    let (val, sz) ← M.lift (varintAt buf idx)
    t.setInt (Int64.ofInt val)
    pure (idx + sz)
  | .zigzag => do
    let (i, sz) ← M.lift (varintAt buf idx)
    t.setInt (zigzagValue i)
    pure (idx + sz)
  | .float => do
    let (f, idx) ← M.lift (decodeFloat buf idx)
    t.setFloat tc (tc.widen f)
    pure idx
  | .double => do
    let (f, idx) ← M.lift (decodeDouble buf idx)
    t.setFloat tc f
    pure idx
  | .true_ => do
    t.setBool true
    pure idx
  | .false_ => do
    t.setBool false
    pure idx
  | .binary => do
    let (ln, sz) ← M.lift (varintAt buf idx)
    let (val, idx) ← M.lift (decodeBinary buf (idx + sz) ln)
    t.setBinary val
    pure idx
  | .short n => do
    let (val, idx) ← M.lift (decodeBinary buf idx n)
    t.setBinary val
    pure idx
  | .strUtf8 => do
    let (ln, sz) ← M.lift (varintAt buf idx)
    let (val, idx) ← M.lift (decodeBinary buf (idx + sz) ln)
    t.setString val
    pure idx
  | .hash => do
    let (ln, sz) ← M.lift (varintAt buf idx)
    checkedHashMem cfg tc buf rec (idx + sz) ln t
  | .hashref n => checkedHashMem cfg tc buf rec idx n t
  | .array => do
    let (ln, sz) ← M.lift (varintAt buf idx)
    arrayMem cfg buf rec (idx + sz) ln t
  | .arrayref n => arrayMem cfg buf rec idx n t
  | .undef => do
    undefMem cfg false t
    pure idx
  | .cundef => do
    undefMem cfg true t
    pure idx
  | .copy => do
    M.failIf ((← M.get).d.copyDepth > 0) (.err (.corrupt .nestedCOPY))
    let (offs, sz) ← M.lift (varintAt buf idx)
    M.failIf (offs < 0 ∨ offs ≥ idx) (.err (.corrupt .badOffset))
    let _ ← withCopyMem (rec offs.toNat t)
    pure (idx + sz)
  | .refn => rec idx t
  | .refp => refpMem cfg buf idx true t
  | .alias => refpMem cfg buf idx false t
  | .weaken => do
    if cfg.perlCompat then
      let a ← M.lift (allocVar (.weak .nil))
      t.setPerl (.ptr false a)
      M.lift (decode cfg buf (fuelFor buf.length) idx (.field a))
    else rec idx t
  | .regexp => do
    let (pattern, modifiers, idx) ← M.lift (decodeRegexp buf idx)
    let a ← M.lift (allocVar (.regexp pattern modifiers))
    t.setPerl (.ptr false a)
    pure idx
  | .object => do
    let (className, idx) ← M.lift (decodeClassName buf idx false)
    if cfg.perlCompat then
      let a ← M.lift (allocVar (.obj className .nil))
      t.setPerl (.ptr false a)
      M.lift (decode cfg buf (fuelFor buf.length) idx (.field a))
    else rec idx t
  | .objectv => do
    let (className, idx) ← M.lift (decodeClassName buf idx true)
    if cfg.perlCompat then
      let a ← M.lift (allocVar (.obj className .nil))
      t.setPerl (.ptr false a)
      M.lift (decode cfg buf (fuelFor buf.length) idx (.field a))
    else rec idx t
  | .freeze => freezeMem cfg tc buf idx t false
  | .freezev => freezeMem cfg tc buf idx t true
  | .pad => M.err (.unknownTag tag)
  | .other => M.err (.unknownTag tag)

theorem tagMem_eq (cfg : DCfg) (tc : TCfg) (buf : Bytes) (rec : MRec) (tag : UInt8) (idx : Nat) (t : Target)
    (h : tag.toNat < 128) :
    tagMem cfg tc buf rec tag idx t = memC cfg tc buf rec (classify tag.toNat) idx t tag.toNat := by
  rcases tag_cases tag h with h | ⟨h1, h2⟩ | ⟨h1, h2⟩ | ⟨h1, h2⟩ | ⟨h1, h2⟩
  · obtain ⟨i, hc, hi⟩ := decodeInt_eq tag h
    rw [hc]
    unfold tagMem memC
    rw [if_pos h, hi]
  · have : ∃ n, n < 32 ∧ tag = UInt8.ofNat (32 + n) := ⟨tag.toNat - 32, by omega, by
      apply UInt8.toNat.inj; simp; omega⟩
    obtain ⟨n, hn, rfl⟩ := this
    clear h1 h2 h
    match n, hn with
    | 0, _ => rfl
    | 1, _ => rfl
    | 2, _ => rfl
    | 3, _ => rfl
    | 4, _ => rfl
    | 5, _ => rfl
    | 6, _ => rfl
    | 7, _ => rfl
    | 8, _ => rfl
    | 9, _ => rfl
    | 10, _ => rfl
    | 11, _ => rfl
    | 12, _ => rfl
    | 13, _ => rfl
    | 14, _ => rfl
    | 15, _ => rfl
    | 16, _ => rfl
    | 17, _ => rfl
    | 18, _ => rfl
    | 19, _ => rfl
    | 20, _ => rfl
    | 21, _ => rfl
    | 22, _ => rfl
    | 23, _ => rfl
    | 24, _ => rfl
    | 25, _ => rfl
    | 26, _ => rfl
    | 27, _ => rfl
    | 28, _ => rfl
    | 29, _ => rfl
    | 30, _ => rfl
    | 31, _ => rfl
    | n + 32, hn => omega
  · have hc : classify tag.toNat = .arrayref (tag.toNat - 64) := by
      unfold classify
      repeat rw [if_neg (by omega)]
      rw [if_pos (by omega)]
    have hm : ∀ b : UInt8, 64 ≤ b.toNat → b.toNat < 80 → (b &&& 0x0f).toNat = b.toNat - 64 ∧
        ¬ b < typeVARINT ∧ b ≠ typeVARINT ∧ b ≠ typeZIGZAG ∧ b ≠ typeFLOAT ∧ b ≠ typeDOUBLE ∧
        ¬ (b = typeTRUE ∨ b = typeFALSE) ∧ b ≠ typeBINARY ∧
        ¬ (typeSHORT_BINARY_0 ≤ b ∧ b < typeSHORT_BINARY_0 + 32) ∧ b ≠ typeSTR_UTF8 ∧ b ≠ typeHASH ∧
        ¬ (typeHASHREF_0 ≤ b ∧ b < typeHASHREF_0 + 16) ∧ b ≠ typeARRAY ∧
        (typeARRAYREF_0 ≤ b ∧ b < typeARRAYREF_0 + 16) := by
      apply u8_forall; set_option maxRecDepth 8000 in decide
    obtain ⟨e, n1, n2, n3, n4, n5, n6, n7, n8, n9, n10, n11, n12, p⟩ := hm tag h1 h2
    rw [hc]
    unfold tagMem
    simp only [if_neg n1, if_neg n2, if_neg n3, if_neg n4, if_neg n5, if_neg n6, if_neg n7,
      if_neg n8, if_neg n9, if_neg n10, if_neg n11, if_neg n12, if_pos p, e]
    rfl
  · have hc : classify tag.toNat = .hashref (tag.toNat - 80) := by
      unfold classify
      repeat rw [if_neg (by omega)]
      rw [if_pos (by omega)]
    have hm : ∀ b : UInt8, 80 ≤ b.toNat → b.toNat < 96 → (b &&& 0x0f).toNat = b.toNat - 80 ∧
        ¬ b < typeVARINT ∧ b ≠ typeVARINT ∧ b ≠ typeZIGZAG ∧ b ≠ typeFLOAT ∧ b ≠ typeDOUBLE ∧
        ¬ (b = typeTRUE ∨ b = typeFALSE) ∧ b ≠ typeBINARY ∧
        ¬ (typeSHORT_BINARY_0 ≤ b ∧ b < typeSHORT_BINARY_0 + 32) ∧ b ≠ typeSTR_UTF8 ∧ b ≠ typeHASH ∧
        (typeHASHREF_0 ≤ b ∧ b < typeHASHREF_0 + 16) := by
      apply u8_forall; set_option maxRecDepth 8000 in decide
    obtain ⟨e, n1, n2, n3, n4, n5, n6, n7, n8, n9, n10, p⟩ := hm tag h1 h2
    rw [hc]
    unfold tagMem
    simp only [if_neg n1, if_neg n2, if_neg n3, if_neg n4, if_neg n5, if_neg n6, if_neg n7,
      if_neg n8, if_neg n9, if_neg n10, if_pos p, e]
    rfl
  · have hc : classify tag.toNat = .short (tag.toNat - 96) := by
      unfold classify
      repeat rw [if_neg (by omega)]
    have hm : ∀ b : UInt8, 96 ≤ b.toNat → b.toNat < 128 → (b &&& 0x1f).toNat = b.toNat - 96 ∧
        ¬ b < typeVARINT ∧ b ≠ typeVARINT ∧ b ≠ typeZIGZAG ∧ b ≠ typeFLOAT ∧ b ≠ typeDOUBLE ∧
        ¬ (b = typeTRUE ∨ b = typeFALSE) ∧ b ≠ typeBINARY ∧
        (typeSHORT_BINARY_0 ≤ b ∧ b < typeSHORT_BINARY_0 + 32) := by
      apply u8_forall; set_option maxRecDepth 8000 in decide
    obtain ⟨e, n1, n2, n3, n4, n5, n6, n7, p⟩ := hm tag h1 h2
    rw [hc]
    unfold tagMem
    simp only [if_neg n1, if_neg n2, if_neg n3, if_neg n4, if_neg n5, if_neg n6, if_neg n7,
      if_pos p, e]
    rfl

end Sereal

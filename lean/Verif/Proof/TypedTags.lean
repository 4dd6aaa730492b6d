import Verif.Proof.Tags
import Verif.Model.Typed
/-
`tagTyped` as a case distinction on the tag table.
-/
namespace Sereal

/-- `tagTyped` by tag class. -/
def typedC (cfg : DCfg) (tc : TCfg) (buf : Bytes) (rec : Rec) (c : TagC) (idx : Nat) (ty : Ty) (cur : TVal)
    (acc : Acc) (tag : Nat) : D (Nat × TVal) :=
  match c with
  | .int i => do
    let v ← setInt ty acc (Int64.ofInt i)
    pure (idx, v)
  | .varint => do
    let (val, sz) ← varintAt buf idx
    let v ← setInt ty acc (Int64.ofInt val)
    pure (idx + sz, v)
  | .zigzag => do
    let (i, sz) ← varintAt buf idx
    let v ← setInt ty acc (zigzagValue i)
    pure (idx + sz, v)
  | .float => do
    let (f, idx) ← decodeFloat buf idx
    let v ← setFloat tc ty acc (tc.widen f)
    pure (idx, v)
  | .double => do
    let (f, idx) ← decodeDouble buf idx
    let v ← setFloat tc ty acc f
    pure (idx, v)
  | .true_ => do
    let v ← setBool ty acc true
    pure (idx, v)
  | .false_ => do
    let v ← setBool ty acc false
    pure (idx, v)
  | .binary => do
    let (ln, sz) ← varintAt buf idx
    let (val, idx) ← decodeBinary buf (idx + sz) ln
    let v ← setBinary ty acc cur val
    pure (idx, v)
  | .short n => do
    let (val, idx) ← decodeBinary buf idx n
    let v ← setBinary ty acc cur val
    pure (idx, v)
  | .strUtf8 => do
    let (ln, sz) ← varintAt buf idx
    let (val, idx) ← decodeBinary buf (idx + sz) ln
    let v ← setString ty acc val
    pure (idx, v)
  | .hash => do
    let (ln, sz) ← varintAt buf idx
    checkHash buf (idx + sz) ln
    hashTyped cfg tc buf rec (idx + sz) ln.toNat ty cur acc
  | .hashref n => do
    checkHash buf idx n
    hashTyped cfg tc buf rec idx n ty cur acc
  | .array => do
    let (ln, sz) ← varintAt buf idx
    arrayTyped cfg buf rec (idx + sz) ln ty cur acc
  | .arrayref n => arrayTyped cfg buf rec idx n ty cur acc
  | .undef => do
    let v ← undefTyped cfg false ty cur acc
    pure (idx, v)
  | .cundef => do
    let v ← undefTyped cfg true ty cur acc
    pure (idx, v)
  | .copy => do
    D.failIf ((← D.get).copyDepth > 0) (.err (.corrupt .nestedCOPY))
    let (offs, sz) ← varintAt buf idx
    D.failIf (offs < 0 ∨ offs ≥ idx) (.err (.corrupt .badOffset))
    let (_, v) ← withCopy (rec offs.toNat ty cur acc)
    pure (idx + sz, v)
  | .refn => rec idx ty cur acc
  | .refp => refpTyped buf idx true
  | .alias => refpTyped buf idx false
  | .weaken => do
    if cfg.perlCompat then
      let a ← allocVar (.weak .nil)
      let v ← setPerl ty acc (.ptr false a)
      let idx ← decode cfg buf (fuelFor buf.length) idx (.field a)
      pure (idx, v)
    else rec idx ty cur acc
  | .regexp => do
    let (pattern, modifiers, idx) ← decodeRegexp buf idx
    let a ← allocVar (.regexp pattern modifiers)
    let v ← setPerl ty acc (.ptr false a)
    pure (idx, v)
  | .object => do
    let (className, idx) ← decodeClassName buf idx false
    if cfg.perlCompat then
      let a ← allocVar (.obj className .nil)
      let v ← setPerl ty acc (.ptr false a)
      let idx ← decode cfg buf (fuelFor buf.length) idx (.field a)
      pure (idx, v)
    else rec idx ty cur acc
  | .objectv => do
    let (className, idx) ← decodeClassName buf idx true
    if cfg.perlCompat then
      let a ← allocVar (.obj className .nil)
      let v ← setPerl ty acc (.ptr false a)
      let idx ← decode cfg buf (fuelFor buf.length) idx (.field a)
      pure (idx, v)
    else rec idx ty cur acc
  | .freeze => freezeTyped cfg tc buf idx ty cur acc false
  | .freezev => freezeTyped cfg tc buf idx ty cur acc true
  | .pad => D.err (.unknownTag tag)
  | .other => D.err (.unknownTag tag)

theorem tagTyped_eq (cfg : DCfg) (tc : TCfg) (buf : Bytes) (rec : Rec) (tag : UInt8) (idx : Nat) (ty : Ty)
    (cur : TVal) (acc : Acc) (h : tag.toNat < 128) :
    tagTyped cfg tc buf rec tag idx ty cur acc =
      typedC cfg tc buf rec (classify tag.toNat) idx ty cur acc tag.toNat := by
  rcases tag_cases tag h with h | ⟨h1, h2⟩ | ⟨h1, h2⟩ | ⟨h1, h2⟩ | ⟨h1, h2⟩
  · obtain ⟨i, hc, hi⟩ := decodeInt_eq tag h
    rw [hc]
    unfold tagTyped typedC
    rw [if_pos h, hi]
  · have : ∃ n, n < 32 ∧ tag = UInt8.ofNat (32 + n) := ⟨tag.toNat - 32, by omega, by
      apply UInt8.toNat.inj; simp; omega⟩
    obtain ⟨n, hn, rfl⟩ := this
    clear h1 h2 h
    match n, hn with
    | 0, _ => rfl
    | 1, _ => rfl
    | 2, _ => rfl
    | 3, _ => rfl
    | 4, _ => rfl
    | 5, _ => rfl
    | 6, _ => rfl
    | 7, _ => rfl
    | 8, _ => rfl
    | 9, _ => rfl
    | 10, _ => rfl
    | 11, _ => rfl
    | 12, _ => rfl
    | 13, _ => rfl
    | 14, _ => rfl
    | 15, _ => rfl
    | 16, _ => rfl
    | 17, _ => rfl
    | 18, _ => rfl
    | 19, _ => rfl
    | 20, _ => rfl
    | 21, _ => rfl
    | 22, _ => rfl
    | 23, _ => rfl
    | 24, _ => rfl
    | 25, _ => rfl
    | 26, _ => rfl
    | 27, _ => rfl
    | 28, _ => rfl
    | 29, _ => rfl
    | 30, _ => rfl
    | 31, _ => rfl
    | n + 32, hn => omega
  · have hc : classify tag.toNat = .arrayref (tag.toNat - 64) := by
      unfold classify
      repeat rw [if_neg (by omega)]
      rw [if_pos (by omega)]
    have hm : ∀ b : UInt8, 64 ≤ b.toNat → b.toNat < 80 → (b &&& 0x0f).toNat = b.toNat - 64 ∧
        ¬ b < typeVARINT ∧ b ≠ typeVARINT ∧ b ≠ typeZIGZAG ∧ b ≠ typeFLOAT ∧ b ≠ typeDOUBLE ∧
        ¬ (b = typeTRUE ∨ b = typeFALSE) ∧ b ≠ typeBINARY ∧
        ¬ (typeSHORT_BINARY_0 ≤ b ∧ b < typeSHORT_BINARY_0 + 32) ∧ b ≠ typeSTR_UTF8 ∧ b ≠ typeHASH ∧
        ¬ (typeHASHREF_0 ≤ b ∧ b < typeHASHREF_0 + 16) ∧ b ≠ typeARRAY ∧
        (typeARRAYREF_0 ≤ b ∧ b < typeARRAYREF_0 + 16) := by
      apply u8_forall; set_option maxRecDepth 8000 in decide
    obtain ⟨e, n1, n2, n3, n4, n5, n6, n7, n8, n9, n10, n11, n12, p⟩ := hm tag h1 h2
    rw [hc]
    unfold tagTyped
    simp only [if_neg n1, if_neg n2, if_neg n3, if_neg n4, if_neg n5, if_neg n6, if_neg n7,
      if_neg n8, if_neg n9, if_neg n10, if_neg n11, if_neg n12, if_pos p, e]
    rfl
  · have hc : classify tag.toNat = .hashref (tag.toNat - 80) := by
      unfold classify
      repeat rw [if_neg (by omega)]
      rw [if_pos (by omega)]
    have hm : ∀ b : UInt8, 80 ≤ b.toNat → b.toNat < 96 → (b &&& 0x0f).toNat = b.toNat - 80 ∧
        ¬ b < typeVARINT ∧ b ≠ typeVARINT ∧ b ≠ typeZIGZAG ∧ b ≠ typeFLOAT ∧ b ≠ typeDOUBLE ∧
        ¬ (b = typeTRUE ∨ b = typeFALSE) ∧ b ≠ typeBINARY ∧
        ¬ (typeSHORT_BINARY_0 ≤ b ∧ b < typeSHORT_BINARY_0 + 32) ∧ b ≠ typeSTR_UTF8 ∧ b ≠ typeHASH ∧
        (typeHASHREF_0 ≤ b ∧ b < typeHASHREF_0 + 16) := by
      apply u8_forall; set_option maxRecDepth 8000 in decide
    obtain ⟨e, n1, n2, n3, n4, n5, n6, n7, n8, n9, n10, p⟩ := hm tag h1 h2
    rw [hc]
    unfold tagTyped
    simp only [if_neg n1, if_neg n2, if_neg n3, if_neg n4, if_neg n5, if_neg n6, if_neg n7,
      if_neg n8, if_neg n9, if_neg n10, if_pos p, e]
    rfl
  · have hc : classify tag.toNat = .short (tag.toNat - 96) := by
      unfold classify
      repeat rw [if_neg (by omega)]
    have hm : ∀ b : UInt8, 96 ≤ b.toNat → b.toNat < 128 → (b &&& 0x1f).toNat = b.toNat - 96 ∧
        ¬ b < typeVARINT ∧ b ≠ typeVARINT ∧ b ≠ typeZIGZAG ∧ b ≠ typeFLOAT ∧ b ≠ typeDOUBLE ∧
        ¬ (b = typeTRUE ∨ b = typeFALSE) ∧ b ≠ typeBINARY ∧
        (typeSHORT_BINARY_0 ≤ b ∧ b < typeSHORT_BINARY_0 + 32) := by
      apply u8_forall; set_option maxRecDepth 8000 in decide
    obtain ⟨e, n1, n2, n3, n4, n5, n6, n7, p⟩ := hm tag h1 h2
    rw [hc]
    unfold tagTyped
    simp only [if_neg n1, if_neg n2, if_neg n3, if_neg n4, if_neg n5, if_neg n6, if_neg n7,
      if_pos p, e]
    rfl

/-- One level of `decodeTyped`. -/
theorem decodeTyped_succ (cfg : DCfg) (tc : TCfg) (buf : Bytes) (f idx : Nat) (ty : Ty) (cur : TVal) (acc : Acc) :
    decodeTyped cfg tc buf (f + 1) idx ty cur acc = (do
      D.failIf (idx ≥ buf.length) (.err .truncated)
      if ty = .iface ∧ cur.isZero then
        let p ← decodeFresh cfg buf idx
        if p.2 ≠ .nil then
          let v ← assign acc (.iface p.2)
          pure (p.1, v)
        else pure (p.1, cur)
      else
        let p ← D.lift (skipPad buf idx)
        if 128 ≤ p.2.toNat then trackTyped p.1
        typedC cfg tc buf (decodeTyped cfg tc buf f) (classify (p.2.toNat % 128)) (p.1 + 1) ty cur acc
          (p.2.toNat % 128)) := by
  rw [decodeTyped]
  congr 1; funext _
  split
  · rfl
  · congr 1; funext p
    simp only [and_track]
    rw [tagTyped_eq _ _ _ _ _ _ _ _ _ (by rw [and_not_track]; omega), and_not_track]

end Sereal

import Verif.Proof.Emit
/-
What the encoder writes: items without children, and strings.
-/
namespace Sereal

theorem i64_toNat (i : Int64) : (i.toUInt64.toNat : Int) = if 0 ≤ i.toInt then i.toInt else 2 ^ 64 + i.toInt := by
  have h1 : i.toUInt64.toNat = i.toBitVec.toNat := rfl
  have h2 : i.toInt = i.toBitVec.toInt := rfl
  rw [h1, h2, BitVec.toInt_eq_toNat_cond]
  have := i.toBitVec.isLt
  split <;> split <;> omega

/-- The zigzag transform of a negative number. -/
theorem zig_neg (i : Int64) (h : i.toInt < 0) :
    (((i <<< 1) ^^^ (i >>> 63)).toUInt64.toNat : Int) = -2 * i.toInt - 1 := by
  have h1 : (((i <<< 1) ^^^ (i >>> 63)).toUInt64.toNat) = ((i <<< 1) ^^^ (i >>> 63)).toBitVec.toNat := rfl
  have h2 : i.toInt = i.toBitVec.toInt := rfl
  have hlo : -2 ^ 63 ≤ i.toBitVec.toInt := BitVec.le_toInt i.toBitVec
  have hr : (i >>> 63).toBitVec = BitVec.allOnes 64 := by
    rw [Int64.toBitVec_shiftRight]
    apply BitVec.eq_of_toInt_eq
    rw [BitVec.toInt_sshiftRight', show ((63 : Int64).toBitVec.smod 64).toNat = 63 by decide,
      Int.shiftRight_eq_div_pow]
    rw [h2] at h
    show i.toBitVec.toInt / 9223372036854775808 = -1
    omega
  have hl : (i <<< 1).toBitVec = i.toBitVec <<< 1 := by
    rw [Int64.toBitVec_shiftLeft]; rfl
  rw [h1, Int64.toBitVec_xor, hr, BitVec.xor_allOnes, BitVec.toNat_not, hl, BitVec.toNat_shiftLeft]
  have h3 := i64_toNat i
  have h4 : i.toUInt64.toNat = i.toBitVec.toNat := rfl
  rw [h4, if_neg (by omega)] at h3
  rw [Nat.shiftLeft_eq]
  omega

theorem and0f (b : UInt8) : (b &&& 0x0f).toNat = b.toNat % 16 := by
  revert b; apply u8_forall; set_option maxRecDepth 8000 in decide
theorem or10 (b : UInt8) : (0x10 ||| (b &&& 0x0f)).toNat = 16 + b.toNat % 16 := by
  revert b; apply u8_forall; set_option maxRecDepth 8000 in decide

theorem classify_pos {n : Nat} (h : n < 16) : classify n = .int n := by
  unfold classify; rw [if_pos h]
theorem classify_neg {n : Nat} (h1 : 16 ≤ n) (h2 : n < 32) : classify n = .int ((n : Int) - 32) := by
  unfold classify; rw [if_neg (by omega), if_pos h2]

variable {c : ECfg} {inp : Heap} {base : Nat} {R : Tree → Prop}

/-- A one-byte item. -/
theorem leaf0 {tag : UInt8} {t : Tree} (ht : PlainTag tag) (hR : R t) (hfit : ∀ n, Fits n t)
    (hbody : ∀ B i T, G wrtDialect B false (.body (classify tag.toNat)) i T (.tree t) i T) :
    EncItem c inp base (emit [tag]) R :=
  leaf ht hR (fun n _ => hfit n) (fun B i T _ _ _ => hbody B i T)

theorem leafVarint {n : Nat} (hn : n < 2 ^ 64) (hR : R (.int n)) :
    EncItem c inp base (emit (typeVARINT :: varint n)) R :=
  leaf (by decide) hR (fun _ _ => .int) (fun _ _ _ _ _ h => .varint (Vint.of_span h hn))

theorem leafInt {isInt : Bool} {i : Int64}
    (hR : R (.int (if isInt ∨ 0 ≤ i.toInt then i.toInt else 2 ^ 64 + i.toInt))) :
    EncItem c inp base (emit (encodeInt isInt i)) R := by
  have hu := i64_toNat i
  have hu8 : i.toUInt64.toUInt8.toNat = i.toUInt64.toNat % 256 := rfl
  have hlt := i.toUInt64.toNat_lt
  unfold encodeInt
  simp only [Int64.le_iff_toInt_le, Int64.lt_iff_toInt_lt, gt_iff_lt]
  have e0 : (0 : Int64).toInt = 0 := rfl
  have e15 : (15 : Int64).toInt = 15 := rfl
  have e16 : (-16 : Int64).toInt = -16 := rfl
  rw [e0, e15, e16]
  by_cases h1 : 0 ≤ i.toInt ∧ i.toInt ≤ 15
  · rw [if_pos h1]
    rw [if_pos h1.1] at hu
    rw [if_pos (.inr h1.1)] at hR
    have ht : (i.toUInt64.toUInt8 &&& 0x0f).toNat = i.toUInt64.toNat := by rw [and0f, hu8]; omega
    refine leaf0 ⟨by omega, by omega⟩ hR (fun _ => .int) (fun B j T => ?_)
    rw [ht, classify_pos (by omega), hu]
    exact .int
  · rw [if_neg h1]
    by_cases h2 : -16 ≤ i.toInt ∧ i.toInt < 0 ∧ isInt = true
    · rw [if_pos h2]
      rw [if_neg (by omega)] at hu
      rw [if_pos (.inl h2.2.2)] at hR
      have ht : ((0x10 ||| (i.toUInt64.toUInt8 &&& 0x0f)).toNat : Int) = i.toInt + 32 := by
        rw [or10, hu8]; omega
      refine leaf0 ⟨by omega, by omega⟩ hR (fun _ => .int) (fun B j T => ?_)
      rw [classify_neg (by omega) (by omega), ht, show i.toInt + 32 - 32 = i.toInt by omega]
      exact .int
    · rw [if_neg h2]
      by_cases h3 : 15 < i.toInt
      · rw [if_pos h3]
        rw [if_pos (by omega)] at hu
        rw [if_pos (.inr (by omega)), ← hu] at hR
        exact leafVarint hlt hR
      · rw [if_neg h3]
        have hneg : i.toInt < 0 := by omega
        by_cases h4 : isInt = true
        · rw [if_pos h4]
          rw [if_pos (.inl h4)] at hR
          have hz := zig_neg i hneg
          have hzl := ((i <<< 1) ^^^ (i >>> 63)).toUInt64.toNat_lt
          generalize ((i <<< 1) ^^^ (i >>> 63)).toUInt64.toNat = z at hz hzl
          refine leaf (by decide) hR (fun _ _ => .int) (fun B j T _ _ h => ?_)
          refine .zigzag (Vint.of_span h hzl) ?_
          show (if z % 2 = 0 then none else some (-((z / 2 : Nat) + 1) : Int)) = some i.toInt
          rw [if_neg (by omega)]
          congr 1
          omega
        · rw [if_neg h4]
          rw [if_neg (by omega)] at hu
          rw [if_neg (by rintro (h | h); exact h4 h; omega), ← hu] at hR
          exact leafVarint hlt hR

theorem u64_toInt (n : UInt64) : n.toInt64.toUInt64 = n := rfl

theorem leafUint {n : UInt64} (hR : R (.int n.toNat)) :
    EncItem c inp base (emit (encodeInt false n.toInt64)) R := by
  refine leafInt ?_
  have h := i64_toNat n.toInt64
  rw [u64_toInt] at h
  have : ((false = true) ∨ 0 ≤ n.toInt64.toInt) = (0 ≤ n.toInt64.toInt) := by simp
  simp only [this]
  rw [← h]
  exact hR

theorem u32_le (u : UInt32) :
    UInt32.ofNat (leNat [u.toUInt8, (u >>> 8).toUInt8, (u >>> 16).toUInt8, (u >>> 24).toUInt8]) = u := by
  apply UInt32.toNat.inj
  simp only [leNat, UInt32.toNat_toUInt8, UInt32.toNat_ofNat, UInt32.toNat_shiftRight, UInt32.toNat_ofNat']
  have := u.toNat_lt
  simp only [Nat.shiftRight_eq_div_pow]
  simp only [Nat.reducePow, Nat.reduceMod] at this ⊢
  omega

theorem u64_le (u : UInt64) :
    UInt64.ofNat (leNat [u.toUInt8, (u >>> 8).toUInt8, (u >>> 16).toUInt8, (u >>> 24).toUInt8,
      (u >>> 32).toUInt8, (u >>> 40).toUInt8, (u >>> 48).toUInt8, (u >>> 56).toUInt8]) = u := by
  apply UInt64.toNat.inj
  simp only [leNat, UInt64.toNat_toUInt8, UInt64.toNat_ofNat, UInt64.toNat_shiftRight, UInt64.toNat_ofNat']
  have := u.toNat_lt
  simp only [Nat.shiftRight_eq_div_pow]
  simp only [Nat.reducePow, Nat.reduceMod] at this ⊢
  omega

theorem leafFloat {u : UInt32} (hR : R (.f32 u)) : EncItem c inp base (emit (encodeFloat u)) R := by
  refine leaf (by decide) hR (fun _ _ => .f32) (fun B j T _ _ h => ?_)
  have := G.float (d := wrtDialect) (buf := B) (cd := false) (T := T) h rfl
  rw [u32_le] at this
  exact this

theorem leafDouble {u : UInt64} (hR : R (.f64 u)) : EncItem c inp base (emit (encodeDouble u)) R := by
  refine leaf (by decide) hR (fun _ _ => .f64) (fun B j T _ _ h => ?_)
  have := G.double (d := wrtDialect) (buf := B) (cd := false) (T := T) h rfl
  rw [u64_le] at this
  exact this

theorem Fits.mono {n m : Nat} {t : Tree} (h : Fits n t) (hm : n ≤ m) : Fits m t := by
  induction h with
  | undef => exact .undef
  | cundef => exact .cundef
  | bool => exact .bool
  | int => exact .int
  | f32 => exact .f32
  | f64 => exact .f64
  | str h => exact .str (by omega)
  | bin h => exact .bin (by omega)
  | arr h _ ih => exact .arr (by omega) ih
  | map h h2 _ ih => exact .map (by omega) (fun k t hk => Nat.le_trans (h2 k t hk) hm) ih
  | ref _ ih => exact .ref ih
  | refp => exact .refp
  | alias => exact .alias
  | openRef => exact .openRef
  | weak _ ih => exact .weak ih
  | obj h _ ih => exact .obj (by omega) ih
  | regexp h1 h2 => exact .regexp (by omega) (by omega)
  | frz h _ ih => exact .frz (by omega) ih

theorem leafStr {s : Bytes} (hR : R (.str s)) : EncItem c inp base (emit (strItem s)) R := by
  refine leaf (tag := typeSTR_UTF8) (w := varint s.length ++ s) (by decide) hR
    (fun n hn => .str (by simp at hn; omega)) (fun B j T hf hl h => ?_)
  cases hf with
  | str hs =>
    obtain ⟨h1, h2⟩ := Span.split h
    exact .strUtf8 (Vint.of_span h1 (Nat.lt_of_le_of_lt hs (by decide))) hs h2 rfl

theorem leafBin {s : Bytes} (hR : R (.bin s)) : EncItem c inp base (emit (binItem s)) R := by
  unfold binItem
  by_cases hl : s.length < 32
  · rw [if_pos hl]
    have ht := binItem_tag hl
    refine leaf ⟨by omega, by omega⟩ hR (fun n hn => .bin (by simp at hn; omega)) (fun B j T hf _ h => ?_)
    rw [ht, classify_shortN hl]
    exact .short h rfl
  · rw [if_neg hl]
    refine leaf (tag := typeBINARY) (w := varint s.length ++ s) (by decide) hR
      (fun n hn => .bin (by simp at hn; omega)) (fun B j T hf hl h => ?_)
    cases hf with
    | bin hs =>
      obtain ⟨h1, h2⟩ := Span.split h
      exact .binary (Vint.of_span h1 (Nat.lt_of_le_of_lt hs (by decide))) hs h2 rfl

theorem strItem_length (k : Bytes) : k.length < (strItem k).length := by simp [strItem]; omega
theorem binItem_length (k : Bytes) : k.length < (binItem k).length := by
  unfold binItem; split <;> simp <;> omega

/-- Writing a literal as key or class name. -/
theorem key_lit {s : EState} {g : Gh} {k w : Bytes} (hw : w = strItem k ∨ w = binItem k)
    (hi : EInv c inp base s g) :
    Step c inp base (fun _ _ => False) s { s with buf := s.buf ++ w } g (g.more w)
        (fun B T T' => T' = T ∧ (k.length ≤ maxSize →
          Strish wrtDialect B false g.raw.length k (g.more w).raw.length)) ∧
      k.length ≤ (g.more w).raw.length := by
  refine ⟨(step_more hi w).mono ?_, ?_⟩
  · rintro B T T' ⟨hT, hsp⟩
    refine ⟨hT, fun hk => .lit ?_⟩
    rcases hw with rfl | rfl
    · exact Lit.of_strItem hsp hk
    · exact Lit.of_binItem hsp hk
  · have : k.length < w.length := by
      rcases hw with rfl | rfl
      · exact strItem_length k
      · exact binItem_length k
    simp [Gh.more]; omega

theorem EInv.remember {s : EState} {g : Gh} {k w : Bytes} (hw : w = strItem k ∨ w = binItem k)
    (hi : EInv c inp base { s with buf := s.buf ++ w } (g.more w)) (hi0 : EInv c inp base s g) :
    EInv c inp base ⟨s.buf ++ w, fun k' => if k' = k then some s.buf.length else s.strTable k', s.ptrTable, s.visits⟩
      (g.more w) where
  base_le := hi.base_le
  len := hi.len
  agree := hi.agree
  flags := hi.flags
  range := hi.range
  ptrs := hi.ptrs
  strs k' o ho := by
    have ho' : (if k' = k then some s.buf.length else s.strTable k') = some o := ho
    split at ho'
    · rename_i he
      subst he
      cases ho'
      refine ⟨w, hw, by rw [hi0.len]; exact hi0.base_le, ?_, fun x h1 _ => ?_⟩
      · rw [hi0.len]; simp [Gh.more]
      · show g.seen x = none
        rw [hi0.len] at h1
        refine Classical.byContradiction (fun hn => ?_)
        have := (hi0.range x hn).2
        omega
    · exact hi.strs k' o ho'

theorem key_copy {s : EState} {g : Gh} {k : Bytes} {o : Nat} (hi : EInv c inp base s g)
    (ho : s.strTable k = some o) :
    Step c inp base (fun _ _ => False) s { s with buf := s.buf ++ copyItem o } g (g.more (copyItem o))
        (fun B T T' => T' = T ∧ (k.length ≤ maxSize →
          Strish wrtDialect B false g.raw.length k (g.more (copyItem o)).raw.length)) ∧
      k.length ≤ (g.more (copyItem o)).raw.length := by
  have hlit := hi.strs k o ho
  have hst := step_more hi (copyItem o)
  have hle : o + k.length ≤ g.raw.length := by
    obtain ⟨w, hw, _, hp, _⟩ := hlit
    have h1 := hp.length_le
    rw [List.length_drop] at h1
    have h2 : k.length < w.length := by
      rcases hw with rfl | rfl
      · exact strItem_length k
      · exact binItem_length k
    omega
  refine ⟨⟨hst.inv, hst.grows, hst.new, fun φ B hf => ?_⟩, ?_⟩
  · obtain ⟨hT, hsp⟩ := hst.reads φ B hf
    refine ⟨hT, fun hk => ?_⟩
    obtain ⟨j, hjl, hj⟩ := hlit.lit (hf.prev (Grows.more g (copyItem o))) hk
    obtain ⟨h1, h2⟩ := Span.head hsp
    have := (hf.prev (Grows.more g (copyItem o))).size
    exact .copy (.inl rfl) (TagAt.here' h1 (by decide)) (by decide)
      (Vint.of_span h2 (by omega)) (by omega) hj (fun _ => hjl)
  · have := (Grows.more g (copyItem o)).le
    omega

theorem E.get_ok {s s' t : EState} : E.get s = .ok (t, s') ↔ t = s ∧ s' = s := by
  show Except.ok (s, s) = .ok (t, s') ↔ _
  constructor
  · intro h; cases h; exact ⟨rfl, rfl⟩
  · rintro ⟨rfl, rfl⟩; rfl

/-- Writing a string as key or class name, with deduplication. -/
theorem encKey_aux {k w : Bytes} (hw : w = strItem k ∨ w = binItem k) {x : E Unit} {b : Bool}
    (hx : x = (do
      if b then
        match (← E.get).strTable k with
        | some offs => emit (copyItem offs)
        | none => do
          rememberStr k
          emit w
      else emit w)) : EncKey c inp base x k := by
  intro s s' g hi he
  rw [hx] at he
  cases b with
  | false =>
    rw [if_neg (by simp)] at he
    cases emit_ok.1 he
    exact ⟨_, key_lit hw hi⟩
  | true =>
    rw [if_pos rfl] at he
    obtain ⟨t, s1, h1, h2⟩ := E.bind_ok.1 he
    obtain ⟨rfl, rfl⟩ := E.get_ok.1 h1
    cases ho : s1.strTable k with
    | some o =>
      rw [ho] at h2
      cases emit_ok.1 h2
      exact ⟨_, key_copy hi ho⟩
    | none =>
      rw [ho] at h2
      obtain ⟨_, s2, h3, h4⟩ := E.bind_ok.1 h2
      cases h3
      cases emit_ok.1 h4
      obtain ⟨h5, h6⟩ := key_lit hw hi
      exact ⟨_, ⟨h5.inv.remember hw hi, h5.grows, h5.new, h5.reads⟩, h6⟩

theorem encKey_string (k : Bytes) (b : Bool) : EncKey c inp base (encodeString c k b) k :=
  encKey_aux (w := strItem k) (.inl rfl) (b := !c.disableDedup && b) rfl

theorem encKey_bytes (k : Bytes) (b : Bool) : EncKey c inp base (encodeBytes c k b) k :=
  encKey_aux (w := binItem k) (.inr rfl) (b := !c.disableDedup && b) rfl

theorem encodeString_false (s : Bytes) : encodeString c s false = emit (strItem s) := by
  unfold encodeString; rw [if_neg (by simp)]
theorem encodeBytes_false (s : Bytes) : encodeBytes c s false = emit (binItem s) := by
  unfold encodeBytes; rw [if_neg (by simp)]

end Sereal

import Verif.Props.C01
import Verif.Proof.TypedRound
/-
C42: decoding an integer into a variable of an integer type.
-/
namespace Sereal

/-- The 64 bits of a number. -/
theorem ofInt_dvd (z : Int) : (2 ^ 64 : Int) ∣ (Int64.ofInt z).toInt - z := by
  rw [Int64.toInt_ofInt]
  simp only [Int64.size, Int.reducePow]
  rw [bmod_eq]
  split <;> omega

theorem takes_int (c : ViewCfg) (tc : TCfg) (k : IntK) (cur : TVal) (z : Int) : Takes c tc (.int k) cur (.int z) :=
  ⟨_, .int (k.conv_wraps _ (ofInt_dvd z))⟩

theorem takes_uint (c : ViewCfg) (tc : TCfg) (k : UintK) (cur : TVal) (z : Int) : Takes c tc (.uint k) cur (.int z) :=
  ⟨_, .uint (k.conv_wraps _ (ofInt_dvd z))⟩

/-- A variable of a signed integer type. -/
theorem int_into {cfg : DCfg} {tc : TCfg} {cs : Codecs} {b buf : Bytes} {i j : Nat} {z : Int} (k : IntK) (cur : TVal)
    (hb : bodyInput cs b = .ok (buf, i)) (hlen : buf.length < 2 ^ 63) (hd : Denotes goDialect buf i (.int z) j) :
    ∃ h n, unmarshalTyped cfg tc cs b (.int k) cur = .ok (h, .int n) ∧
      -2 ^ (k.width - 1) ≤ n.toInt ∧ n.toInt < 2 ^ (k.width - 1) ∧ (2 ^ k.width : Int) ∣ n.toInt - z ∧
      (-2 ^ (k.width - 1) ≤ z → z < 2 ^ (k.width - 1) → n.toInt = z) := by
  obtain ⟨h, v, h1, h2⟩ := unmarshalTyped_complete (cfg := cfg) (tc := tc) hb hlen hd .int (takes_int _ _ k cur z)
  cases h2 with
  | @int _ _ _ n hw =>
    refine ⟨h, n, h1, ?_⟩
    obtain ⟨w1, w2, w3⟩ := hw
    generalize n.toInt = y at *
    cases k <;> simp only [IntK.width, IntK.bits, Nat.reducePow, Int.reducePow, Nat.reduceSub] at * <;> omega
  | undef _ h => rcases h with h | h <;> cases h

/-- A variable of an unsigned integer type. -/
theorem uint_into {cfg : DCfg} {tc : TCfg} {cs : Codecs} {b buf : Bytes} {i j : Nat} {z : Int} (k : UintK) (cur : TVal)
    (hb : bodyInput cs b = .ok (buf, i)) (hlen : buf.length < 2 ^ 63) (hd : Denotes goDialect buf i (.int z) j) :
    ∃ h n, unmarshalTyped cfg tc cs b (.uint k) cur = .ok (h, .uint n) ∧
      n.toNat < 2 ^ k.width ∧ (2 ^ k.width : Int) ∣ n.toNat - z ∧
      (0 ≤ z → z < 2 ^ k.width → (n.toNat : Int) = z) := by
  obtain ⟨h, v, h1, h2⟩ := unmarshalTyped_complete (cfg := cfg) (tc := tc) hb hlen hd .int (takes_uint _ _ k cur z)
  cases h2 with
  | @uint _ _ _ n hw =>
    refine ⟨h, n, h1, ?_⟩
    obtain ⟨w1, w2, w3⟩ := hw
    generalize n.toNat = y at *
    cases k <;> simp only [UintK.width, UintK.bits, Nat.reducePow, Int.reducePow] at * <;> omega
  | undef _ h => rcases h with h | h <;> cases h

/-- C42 for signed types.  In every document whose body is the integer `z` (as the decoder reads integers, see
C45 for the payloads it reads wrongly), decoded into a variable of any signed type, whatever it held: no error;
what is stored is in the range of the type, congruent to `z` modulo 2^bits, and `z` itself if it fits. -/
theorem C42 (cfg : DCfg) (tc : TCfg) (cs : Codecs) (b : Bytes) (ver : Nat) (lenField suffix body : Bytes) (z : Int)
    (j : Nat) (k : IntK) (cur : TVal) (hd : IsDoc b ver 0 lenField suffix body)
    (hz : Denotes goDialect (itemBuf ver (headBytes ver 0 lenField suffix) body).1
      (itemBuf ver (headBytes ver 0 lenField suffix) body).2 (.int z) j) :
    ∃ h n, unmarshalTyped cfg tc cs b (.int k) cur = .ok (h, .int n) ∧
      -2 ^ (k.width - 1) ≤ n.toInt ∧ n.toInt < 2 ^ (k.width - 1) ∧ (2 ^ k.width : Int) ∣ n.toInt - z ∧
      (-2 ^ (k.width - 1) ≤ z → z < 2 ^ (k.width - 1) → n.toInt = z) :=
  int_into k cur (bodyInput_raw hd) hd.buf_lt hz

/-- C42 for unsigned types. -/
theorem C42_unsigned (cfg : DCfg) (tc : TCfg) (cs : Codecs) (b : Bytes) (ver : Nat) (lenField suffix body : Bytes)
    (z : Int) (j : Nat) (k : UintK) (cur : TVal) (hd : IsDoc b ver 0 lenField suffix body)
    (hz : Denotes goDialect (itemBuf ver (headBytes ver 0 lenField suffix) body).1
      (itemBuf ver (headBytes ver 0 lenField suffix) body).2 (.int z) j) :
    ∃ h n, unmarshalTyped cfg tc cs b (.uint k) cur = .ok (h, .uint n) ∧
      n.toNat < 2 ^ k.width ∧ (2 ^ k.width : Int) ∣ n.toNat - z ∧
      (0 ≤ z → z < 2 ^ k.width → (n.toNat : Int) = z) :=
  uint_into k cur (bodyInput_raw hd) hd.buf_lt hz

/-- What Marshal wrote for an integer of type `k0` can be read into a variable of any signed type `k`. -/
theorem C42_marshal (cfg : ECfg) (dcfg : DCfg) (tc : TCfg) (cs : Codecs) (inp : Heap) (header : Option Val) (k0 k : IntK)
    (x : Int64) (cur : TVal) (doc : Bytes) (hver : cfg.version ≤ 3) (hord : ∀ n ks, (cfg.ord n ks).Perm ks)
    (hc : cfg.compression = none) (h : marshalWithHeader cfg cs inp header (.int k0 x) = .ok doc)
    (hsz : doc.length < 2 ^ 63) :
    ∃ h n, unmarshalTyped dcfg tc cs doc (.int k) cur = .ok (h, .int n) ∧
      -2 ^ (k.width - 1) ≤ n.toInt ∧ n.toInt < 2 ^ (k.width - 1) ∧ (2 ^ k.width : Int) ∣ n.toInt - x.toInt ∧
      (-2 ^ (k.width - 1) ≤ x.toInt → x.toInt < 2 ^ (k.width - 1) → n = x) := by
  obtain ⟨lf, suf, body, t, h1, _, h3, h4, h5⟩ := raw_denotes hord hver hc h hsz
  cases h3
  obtain ⟨T, g⟩ := h5 .int
  obtain ⟨h, n, a1, a2, a3, a4, a5⟩ := C42 dcfg tc cs doc _ lf suf body _ _ k cur h1 ⟨T, g.wrt_core.core_go⟩
  exact ⟨h, n, a1, a2, a3, a4, fun u1 u2 => Int64.toInt_inj.1 (a5 u1 u2)⟩

/-- Version 3, the integer 300. -/
def doc300 : Bytes := [0x3d, 0xf3, 0x72, 0x6c, 3, 0, 0x20, 0xac, 0x02]

theorem doc300_isDoc : IsDoc doc300 3 0 [0] [] [0x20, 0xac, 0x02] where
  eq := by decide
  version := by omega
  doctype := by omega
  varint := by simp [IsVarint]
  short := by simp
  len := by decide
  size := by decide

/-- Float conversions that play no role. -/
def noFloats : TCfg := { widen := fun u => u.toUInt64, narrow := fun u => u.toUInt32 }

/-- The document meets the hypotheses of C42. -/
example : Denotes goDialect (itemBuf 3 (headBytes 3 0 [0] []) [0x20, 0xac, 0x02]).1
    (itemBuf 3 (headBytes 3 0 [0] []) [0x20, 0xac, 0x02]).2 (.int 300) 4 :=
  ⟨_, .plain (i := 1) (.here rfl (by decide)) (by decide)
    (.varint (n := 300) ⟨[0xac, 0x02], by simp [IsVarint], by decide, ⟨by decide, by decide⟩, by decide⟩)⟩

/-- The number in a variable. -/
def numberIn : Res (Heap × TVal) → Option Int
  | .ok (_, .int i) => some i.toInt
  | .ok (_, .uint n) => some n.toNat
  | _ => none

/-- 300 fits an int16 variable, and becomes 44 in an int8 or byte variable. -/
example : numberIn (unmarshalTyped {} noFloats noCodecs doc300 (.int .int16) .zero) = some 300 ∧
    numberIn (unmarshalTyped {} noFloats noCodecs doc300 (.int .int8) (.int 7)) = some 44 ∧
    numberIn (unmarshalTyped {} noFloats noCodecs doc300 (.uint .uint8) .zero) = some 44 := by
  decide +kernel

end Sereal

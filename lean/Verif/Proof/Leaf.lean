import Verif.Proof.Strish
/-
Numbers: decodeFloat, decodeDouble, VARINT, ZIGZAG and the small integers against the grammar.
-/
namespace Sereal

theorem or_shift {a b k : Nat} (h : a < 2 ^ k) : a ||| b <<< k = a + 2 ^ k * b := by
  rw [Nat.shiftLeft_eq, Nat.mul_comm, Nat.or_comm, ← Nat.two_pow_add_eq_or_of_lt h, Nat.add_comm]

theorem le4 (b0 b1 b2 b3 : UInt8) :
    b0.toUInt32 ||| (b1.toUInt32 <<< 8) ||| (b2.toUInt32 <<< 16) ||| (b3.toUInt32 <<< 24) =
      UInt32.ofNat (leNat [b0, b1, b2, b3]) := by
  apply UInt32.toNat.inj
  have h0 := b0.toNat_lt
  have h1 := b1.toNat_lt
  have h2 := b2.toNat_lt
  have h3 := b3.toNat_lt
  simp only [UInt32.toNat_or, UInt32.toNat_shiftLeft, UInt8.toNat_toUInt32, UInt32.toNat_ofNat, leNat]
  rw [Nat.mod_eq_of_lt (a := b1.toNat <<< 8) (by rw [Nat.shiftLeft_eq]; omega),
    Nat.mod_eq_of_lt (a := b2.toNat <<< 16) (by rw [Nat.shiftLeft_eq]; omega),
    Nat.mod_eq_of_lt (a := b3.toNat <<< 24) (by rw [Nat.shiftLeft_eq]; omega),
    or_shift (k := 8) (by omega), or_shift (k := 16) (by omega), or_shift (k := 24) (by omega)]
  simp
  omega

theorem le8 (b0 b1 b2 b3 b4 b5 b6 b7 : UInt8) :
    b0.toUInt64 ||| (b1.toUInt64 <<< 8) ||| (b2.toUInt64 <<< 16) ||| (b3.toUInt64 <<< 24) |||
        (b4.toUInt64 <<< 32) ||| (b5.toUInt64 <<< 40) ||| (b6.toUInt64 <<< 48) |||
        (b7.toUInt64 <<< 56) =
      UInt64.ofNat (leNat [b0, b1, b2, b3, b4, b5, b6, b7]) := by
  apply UInt64.toNat.inj
  have h0 := b0.toNat_lt
  have h1 := b1.toNat_lt
  have h2 := b2.toNat_lt
  have h3 := b3.toNat_lt
  have h4 := b4.toNat_lt
  have h5 := b5.toNat_lt
  have h6 := b6.toNat_lt
  have h7 := b7.toNat_lt
  simp only [UInt64.toNat_or, UInt64.toNat_shiftLeft, UInt8.toNat_toUInt64, UInt64.toNat_ofNat, leNat]
  rw [Nat.mod_eq_of_lt (a := b1.toNat <<< 8) (by rw [Nat.shiftLeft_eq]; omega),
    Nat.mod_eq_of_lt (a := b2.toNat <<< 16) (by rw [Nat.shiftLeft_eq]; omega),
    Nat.mod_eq_of_lt (a := b3.toNat <<< 24) (by rw [Nat.shiftLeft_eq]; omega),
    Nat.mod_eq_of_lt (a := b4.toNat <<< 32) (by rw [Nat.shiftLeft_eq]; omega),
    Nat.mod_eq_of_lt (a := b5.toNat <<< 40) (by rw [Nat.shiftLeft_eq]; omega),
    Nat.mod_eq_of_lt (a := b6.toNat <<< 48) (by rw [Nat.shiftLeft_eq]; omega),
    Nat.mod_eq_of_lt (a := b7.toNat <<< 56) (by rw [Nat.shiftLeft_eq]; omega),
    or_shift (k := 8) (by omega), or_shift (k := 16) (by omega), or_shift (k := 24) (by omega),
    or_shift (k := 32) (by omega), or_shift (k := 40) (by omega), or_shift (k := 48) (by omega),
    or_shift (k := 56) (by omega)]
  simp
  omega

theorem drop_cons_of {buf : Bytes} {i : Nat} {b : UInt8} (h : buf[i]? = some b) :
    buf.drop i = b :: buf.drop (i + 1) := by
  obtain ⟨hi, rfl⟩ := List.getElem?_eq_some_iff.1 h
  exact List.drop_eq_getElem_cons hi

theorem decodeFloat_ok {buf : Bytes} {i : Nat} {u : UInt32} {j : Nat} {s s' : DState}
    (h : decodeFloat buf i s = (.ok (u, j), s')) :
    s' = s ∧ ∃ t, Span buf i t j ∧ t.length = 4 ∧ u = .ofNat (leNat t) := by
  unfold decodeFloat at h
  obtain ⟨_, s1, h1, h⟩ := D.bind_ok.1 h
  obtain ⟨_, rfl⟩ := D.failIf_ok.1 h1
  obtain ⟨b0, s1, h1, h⟩ := D.bind_ok.1 h
  obtain ⟨e0, rfl⟩ := byteAt_ok.1 h1
  obtain ⟨b1, s1, h1, h⟩ := D.bind_ok.1 h
  obtain ⟨e1, rfl⟩ := byteAt_ok.1 h1
  obtain ⟨b2, s1, h1, h⟩ := D.bind_ok.1 h
  obtain ⟨e2, rfl⟩ := byteAt_ok.1 h1
  obtain ⟨b3, s1, h1, h⟩ := D.bind_ok.1 h
  obtain ⟨e3, rfl⟩ := byteAt_ok.1 h1
  rw [D.pure_ok, Prod.mk.injEq] at h
  obtain ⟨⟨h1, rfl⟩, rfl⟩ := h
  refine ⟨rfl, [b0, b1, b2, b3], ⟨⟨buf.drop (i + 4), ?_⟩, rfl⟩, rfl, ?_⟩
  · rw [drop_cons_of e0, drop_cons_of e1, drop_cons_of e2, drop_cons_of e3]; rfl
  · rw [← h1, le4]

theorem decodeDouble_ok {buf : Bytes} {i : Nat} {u : UInt64} {j : Nat} {s s' : DState}
    (h : decodeDouble buf i s = (.ok (u, j), s')) :
    s' = s ∧ ∃ t, Span buf i t j ∧ t.length = 8 ∧ u = .ofNat (leNat t) := by
  unfold decodeDouble at h
  obtain ⟨_, s1, h1, h⟩ := D.bind_ok.1 h
  obtain ⟨_, rfl⟩ := D.failIf_ok.1 h1
  obtain ⟨b0, s1, h1, h⟩ := D.bind_ok.1 h
  obtain ⟨e0, rfl⟩ := byteAt_ok.1 h1
  obtain ⟨b1, s1, h1, h⟩ := D.bind_ok.1 h
  obtain ⟨e1, rfl⟩ := byteAt_ok.1 h1
  obtain ⟨b2, s1, h1, h⟩ := D.bind_ok.1 h
  obtain ⟨e2, rfl⟩ := byteAt_ok.1 h1
  obtain ⟨b3, s1, h1, h⟩ := D.bind_ok.1 h
  obtain ⟨e3, rfl⟩ := byteAt_ok.1 h1
  obtain ⟨b4, s1, h1, h⟩ := D.bind_ok.1 h
  obtain ⟨e4, rfl⟩ := byteAt_ok.1 h1
  obtain ⟨b5, s1, h1, h⟩ := D.bind_ok.1 h
  obtain ⟨e5, rfl⟩ := byteAt_ok.1 h1
  obtain ⟨b6, s1, h1, h⟩ := D.bind_ok.1 h
  obtain ⟨e6, rfl⟩ := byteAt_ok.1 h1
  obtain ⟨b7, s1, h1, h⟩ := D.bind_ok.1 h
  obtain ⟨e7, rfl⟩ := byteAt_ok.1 h1
  rw [D.pure_ok, Prod.mk.injEq] at h
  obtain ⟨⟨h1, rfl⟩, rfl⟩ := h
  refine ⟨rfl, [b0, b1, b2, b3, b4, b5, b6, b7], ⟨⟨buf.drop (i + 8), ?_⟩, rfl⟩, rfl, ?_⟩
  · rw [drop_cons_of e0, drop_cons_of e1, drop_cons_of e2, drop_cons_of e3, drop_cons_of e4,
      drop_cons_of e5, drop_cons_of e6, drop_cons_of e7]; rfl
  · rw [← h1, le8]

theorem getElem?_of_span {buf : Bytes} {i j : Nat} {t : Bytes} (h : Span buf i t j) (x : Nat)
    (hx : x < t.length) : buf[i + x]? = t[x]? := by
  obtain ⟨r, hr⟩ := h.1
  rw [← List.getElem?_drop, ← hr, List.getElem?_append_left hx]

theorem decodeFloat_of {buf : Bytes} {i j : Nat} {t : Bytes} (s : DState) (h : Span buf i t j)
    (hl : t.length = 4) : decodeFloat buf i s = (.ok (.ofNat (leNat t), j), s) := by
  match t, hl with
  | [b0, b1, b2, b3], _ =>
    have e0 := getElem?_of_span h 0 (by simp)
    have e1 := getElem?_of_span h 1 (by simp)
    have e2 := getElem?_of_span h 2 (by simp)
    have e3 := getElem?_of_span h 3 (by simp)
    simp only [Nat.add_zero, List.getElem?_cons_zero, List.getElem?_cons_succ] at e0 e1 e2 e3
    have hlen := (List.getElem?_eq_some_iff.1 e3).1
    unfold decodeFloat
    rw [D.bind_eq (D.failIf_pass (by omega)), D.bind_eq (byteAt_apply e0 s),
      D.bind_eq (byteAt_apply e1 s), D.bind_eq (byteAt_apply e2 s), D.bind_eq (byteAt_apply e3 s),
      D.pure_apply, le4, h.2]
    rfl

theorem decodeDouble_of {buf : Bytes} {i j : Nat} {t : Bytes} (s : DState) (h : Span buf i t j)
    (hl : t.length = 8) : decodeDouble buf i s = (.ok (.ofNat (leNat t), j), s) := by
  match t, hl with
  | [b0, b1, b2, b3, b4, b5, b6, b7], _ =>
    have e0 := getElem?_of_span h 0 (by simp)
    have e1 := getElem?_of_span h 1 (by simp)
    have e2 := getElem?_of_span h 2 (by simp)
    have e3 := getElem?_of_span h 3 (by simp)
    have e4 := getElem?_of_span h 4 (by simp)
    have e5 := getElem?_of_span h 5 (by simp)
    have e6 := getElem?_of_span h 6 (by simp)
    have e7 := getElem?_of_span h 7 (by simp)
    simp only [Nat.add_zero, List.getElem?_cons_zero, List.getElem?_cons_succ] at e0 e1 e2 e3 e4 e5 e6 e7
    have hlen := (List.getElem?_eq_some_iff.1 e7).1
    unfold decodeDouble
    rw [D.bind_eq (D.failIf_pass (by omega)), D.bind_eq (byteAt_apply e0 s),
      D.bind_eq (byteAt_apply e1 s), D.bind_eq (byteAt_apply e2 s), D.bind_eq (byteAt_apply e3 s),
      D.bind_eq (byteAt_apply e4 s), D.bind_eq (byteAt_apply e5 s), D.bind_eq (byteAt_apply e6 s),
      D.bind_eq (byteAt_apply e7 s), D.pure_apply, le8, h.2]
    rfl

theorem toInt_ofInt {i : Int} (h1 : -(2 : Int) ^ 63 ≤ i) (h2 : i < (2 : Int) ^ 63) :
    (Int64.ofInt i).toInt = i := by
  rw [Int64.toInt_ofInt]
  exact Int.bmod_eq_of_le (by simp only [Int64.size]; omega) (by simp only [Int64.size]; omega)

/-- The small integer of a tag. -/
def TagC.intVal? : TagC → Option Int
  | .int n => some n
  | _ => none

theorem classify_int {n : Nat} (hn : n < 128) {i : Int} (h : classify n = .int i) :
    -16 ≤ i ∧ i ≤ 15 := by
  have key : ∀ n : Fin 128, ((classify n).intVal?.getD 0) ≤ 15 ∧
      -16 ≤ ((classify n).intVal?.getD 0) := by decide
  have := key ⟨n, hn⟩
  dsimp only at this
  rw [h] at this
  exact ⟨this.2, this.1⟩

theorem ofBitVec_sgn {n : Nat} (h : n < 2 ^ 64) :
    (UInt64.ofBitVec (BitVec.ofInt 64 (sgn n))).toNat = n := by
  unfold sgn
  rw [BitVec.ofInt_toInt]
  show (BitVec.ofNat 64 n).toNat = n
  rw [BitVec.toNat_ofNat]
  exact Nat.mod_eq_of_lt h

theorem zigzag_toInt {n : Nat} (h : n < 2 ^ 64) :
    (zigzagValue (sgn n)).toInt = -((n / 2 : Nat) + 1) := by
  unfold zigzagValue sgn
  rw [BitVec.ofInt_toInt]
  have h1 : (1 + BitVec.ofNat 64 n >>> 1) = BitVec.ofNat 64 (n / 2 + 1) := by
    apply BitVec.eq_of_toNat_eq
    have e : ((1 : Nat) : BitVec 64).toNat = 1 := rfl
    simp only [BitVec.toNat_add, BitVec.toNat_ushiftRight, BitVec.toNat_ofNat,
      Nat.mod_eq_of_lt h, Nat.shiftRight_eq_div_pow, e]
    omega
  rw [h1]
  show (-(BitVec.ofNat 64 (n / 2 + 1))).toInt = _
  rw [BitVec.toInt_eq_toNat_cond, BitVec.toNat_neg, BitVec.toNat_ofNat]
  split <;> omega

end Sereal

import Verif.Model.Varint
import Verif.Spec.Varint
namespace Sereal

theorem u8_forall {P : UInt8 → Prop} (h : ∀ n : Fin 256, P (UInt8.ofNat n)) (b : UInt8) : P b := by
  have := h ⟨b.toNat, b.toNat_lt⟩
  simpa using this

theorem and7f (b : UInt8) : (b &&& 0x7f).toNat = b.toNat % 128 := by
  revert b; apply u8_forall; set_option maxRecDepth 8000 in decide
theorem and80_zero (b : UInt8) : b &&& 0x80 = 0 ↔ b.toNat < 128 := by
  revert b; apply u8_forall; set_option maxRecDepth 8000 in decide

theorem IsVarint.cons_cons {b c : UInt8} {r : Bytes} :
    IsVarint (b :: c :: r) ↔ 128 ≤ b.toNat ∧ IsVarint (c :: r) := Iff.rfl

theorem acc_step (m x s : Nat) (hm : m < 2 ^ s) (hs : s ≤ 63) :
    BitVec.ofNat 64 m ||| (BitVec.ofNat 64 x <<< s) = BitVec.ofNat 64 (m + x * 2 ^ s) := by
  apply BitVec.eq_of_toNat_eq
  simp only [BitVec.toNat_or, BitVec.toNat_shiftLeft, BitVec.toNat_ofNat]
  have hp : 2 ^ s ≤ 2 ^ 63 := Nat.pow_le_pow_right (by omega) hs
  have hm64 : m < 2 ^ 64 := by omega
  rw [Nat.mod_eq_of_lt hm64]
  have h64 : (2 : Nat) ^ 64 = 2 ^ s * 2 ^ (64 - s) := by rw [← Nat.pow_add]; congr 1; omega
  have hx : ((x % 2 ^ 64) <<< s) % 2 ^ 64 = 2 ^ s * (x % 2 ^ (64 - s)) := by
    rw [Nat.shiftLeft_eq, Nat.mul_comm, h64, Nat.mul_mod_mul_left]
    congr 1
    exact Nat.mod_mod_of_dvd _ ⟨2 ^ s, Nat.mul_comm _ _⟩
  rw [hx, Nat.or_comm, ← Nat.two_pow_add_eq_or_of_lt hm]
  rw [Nat.mul_comm x, h64]
  have hlt : m + 2 ^ s * (x % 2 ^ (64 - s)) < 2 ^ s * 2 ^ (64 - s) := by
    have : x % 2 ^ (64 - s) < 2 ^ (64 - s) := Nat.mod_lt _ (Nat.two_pow_pos _)
    calc m + 2 ^ s * (x % 2 ^ (64 - s)) < 2 ^ s * 1 + 2 ^ s * (x % 2 ^ (64 - s)) := by omega
      _ = 2 ^ s * (1 + x % 2 ^ (64 - s)) := by rw [Nat.mul_add]
      _ ≤ _ := Nat.mul_le_mul_left _ (by omega)
  have hd := Nat.div_add_mod x (2 ^ (64 - s))
  have key : m + 2 ^ s * x = (m + 2 ^ s * (x % 2 ^ (64 - s))) +
      (2 ^ s * 2 ^ (64 - s)) * (x / 2 ^ (64 - s)) := by
    conv => lhs; rw [← hd]
    rw [Nat.mul_add, Nat.mul_assoc]; omega
  rw [key, Nat.add_mul_mod_self_left, Nat.mod_eq_of_lt hlt, Nat.add_comm]

/-- Running the loop over a varint. -/
theorem varintLoop_of_isVarint (v rest : Bytes) (m i : Nat) (hv : IsVarint v)
    (hm : m < 2 ^ (7 * i)) (hlen : i + v.length ≤ 10) :
    varintLoop (v ++ rest) (BitVec.ofNat 64 m) (7 * i) i =
      .ok ((BitVec.ofNat 64 (m + groups v * 2 ^ (7 * i))).toInt, i + v.length) := by
  induction v generalizing m i with
  | nil => exact absurd hv (by simp [IsVarint])
  | cons b v ih =>
    have hi : i ≤ 9 := by simp at hlen; omega
    simp only [List.cons_append, varintLoop]
    rw [and7f, acc_step _ _ _ hm (by omega)]
    cases v with
    | nil =>
      have hb : b.toNat < 128 := hv
      rw [if_pos ((and80_zero b).2 hb)]
      simp [groups]
    | cons c r =>
      have hb : 128 ≤ b.toNat := hv.1
      rw [if_neg (by rw [and80_zero]; omega)]
      rw [if_neg (by simp at hlen; omega)]
      have h7 : 7 * i + 7 = 7 * (i + 1) := by omega
      rw [h7]
      rw [ih _ _ hv.2 ?_ (by simp at hlen ⊢; omega)]
      · simp only [groups, List.length_cons]
        have hpow : 2 ^ (7 * (i + 1)) = 128 * 2 ^ (7 * i) := by
          rw [Nat.mul_add, Nat.pow_add, Nat.mul_comm]
        rw [hpow]
        have e1 : m + b.toNat % 128 * 2 ^ (7 * i) +
            (c.toNat % 128 + 128 * groups r) * (128 * 2 ^ (7 * i)) =
            m + (b.toNat % 128 + 128 * (c.toNat % 128 + 128 * groups r)) * 2 ^ (7 * i) := by
          rw [Nat.add_mul (b.toNat % 128), Nat.mul_assoc 128, ← Nat.mul_assoc _ 128]
          rw [Nat.mul_comm _ 128, Nat.mul_assoc, Nat.add_assoc]
        have e2 : i + 1 + (r.length + 1) = i + (r.length + 1 + 1) := by omega
        rw [e1, e2]
      · have hpow : 2 ^ (7 * (i + 1)) = 128 * 2 ^ (7 * i) := by
          rw [Nat.mul_add, Nat.pow_add, Nat.mul_comm]
        rw [hpow]
        have : b.toNat % 128 ≤ 127 := by omega
        have := Nat.mul_le_mul_right (2 ^ (7 * i)) this
        omega

/-- A varint of at most ten bytes decodes to its value modulo 2^64, read as a signed number, and
consumes exactly its bytes. -/
theorem varintdecode_of_isVarint (v rest : Bytes) (hv : IsVarint v) (hlen : v.length ≤ 10) :
    varintdecode (v ++ rest) = .ok ((BitVec.ofNat 64 (groups v)).toInt, v.length) := by
  have := varintLoop_of_isVarint v rest 0 0 hv (by simp) (by omega)
  simpa [varintdecode] using this

/-- The loop succeeds only on a varint prefix. -/
theorem varintLoop_ok {by_ : Bytes} {n s i r sz} (h : varintLoop by_ n s i = .ok (r, sz))
    (hs : s = 7 * i) (hi : i ≤ 9) :
    ∃ v rest, by_ = v ++ rest ∧ IsVarint v ∧ sz = i + v.length ∧ i + v.length ≤ 10 := by
  induction by_ generalizing n s i with
  | nil => simp [varintLoop] at h
  | cons b by_ ih =>
    simp only [varintLoop] at h
    split at h
    · rename_i hb
      simp at h
      exact ⟨[b], by_, rfl, (and80_zero b).1 hb, by simp [h.2.symm], by simp; omega⟩
    · rename_i hb
      rw [and80_zero] at hb
      split at h
      · simp at h
      · obtain ⟨v, rest, h1, h2, h3, h4⟩ := ih h (by omega) (by omega)
        refine ⟨b :: v, rest, by simp [h1], ?_, by simp; omega, by simp; omega⟩
        cases v with
        | nil => simp [IsVarint] at h2
        | cons c r => exact ⟨by omega, h2⟩

theorem varintdecode_ok {by_ : Bytes} {r sz} (h : varintdecode by_ = .ok (r, sz)) :
    ∃ v rest, by_ = v ++ rest ∧ IsVarint v ∧ v.length ≤ 10 ∧ sz = v.length ∧
      r = (BitVec.ofNat 64 (groups v)).toInt := by
  obtain ⟨v, rest, h1, h2, h3, h4⟩ := varintLoop_ok (i := 0) h rfl (by omega)
  refine ⟨v, rest, h1, h2, by omega, by omega, ?_⟩
  rw [h1, varintdecode_of_isVarint v rest h2 (by omega)] at h
  simp at h; exact h.1.symm

/-- The only error of `varintdecode` is "corrupt: bad varint"; it never panics or crashes. -/
theorem varintLoop_error {by_ : Bytes} {n s i e} (h : varintLoop by_ n s i = .error e) :
    e = .err (.corrupt .badVarint) := by
  induction by_ generalizing n s i with
  | nil => simp [varintLoop] at h; exact h.symm
  | cons b by_ ih =>
    simp only [varintLoop] at h
    split at h
    · simp at h
    · split at h
      · simp at h; exact h.symm
      · exact ih h

theorem varintdecode_error {by_ : Bytes} {e} (h : varintdecode by_ = .error e) :
    e = .err (.corrupt .badVarint) := varintLoop_error h

/-! ### The encoder -/

theorem ofNat_or80 (n : Nat) : (UInt8.ofNat n ||| 0x80).toNat = 128 + n % 128 := by
  have h : ∀ b : UInt8, (b ||| 0x80).toNat = 128 + b.toNat % 128 := by
    apply u8_forall; set_option maxRecDepth 8000 in decide
  rw [h]
  simp

theorem varint_lt {n : Nat} (h : n < 128) : varint n = [UInt8.ofNat n] := by
  rw [varint, if_neg (by omega)]

theorem varint_ge {n : Nat} (h : 128 ≤ n) :
    varint n = (UInt8.ofNat n ||| 0x80) :: varint (n / 128) := by
  rw [varint, if_pos h]

theorem varint_ne_nil (n : Nat) : varint n ≠ [] := by
  rw [varint]; split <;> simp

theorem isVarint_varint (n : Nat) : IsVarint (varint n) := by
  induction n using Nat.strongRecOn with
  | _ n ih =>
    by_cases h : n < 128
    · rw [varint_lt h]; show (UInt8.ofNat n).toNat < 128; simp; omega
    · rw [varint_ge (by omega)]
      have := ih (n / 128) (by omega)
      cases hv : varint (n / 128) with
      | nil => exact absurd hv (varint_ne_nil _)
      | cons c r => rw [hv] at this; exact ⟨by rw [ofNat_or80]; omega, this⟩

theorem groups_varint (n : Nat) : groups (varint n) = n := by
  induction n using Nat.strongRecOn with
  | _ n ih =>
    by_cases h : n < 128
    · rw [varint_lt h]; simp [groups]; omega
    · rw [varint_ge (by omega)]
      simp only [groups]
      rw [ih _ (by omega), ofNat_or80]; omega

/-- Encoding is never longer than needed. -/
theorem varint_minimal (v : Bytes) (hv : IsVarint v) : (varint (groups v)).length ≤ v.length := by
  suffices h : ∀ v : Bytes, IsVarint v → ∀ n ≤ groups v, (varint n).length ≤ v.length from
    h v hv _ (Nat.le_refl _)
  intro v
  induction v with
  | nil => intro h; simp [IsVarint] at h
  | cons b v ih =>
    intro hv n hn
    by_cases h : n < 128
    · rw [varint_lt h]; simp
    · rw [varint_ge (by omega)]
      cases v with
      | nil => simp [groups] at hn; have : b.toNat < 128 := hv; omega
      | cons c r =>
        simp only [List.length_cons]
        have := ih hv.2 (n / 128) (by simp only [groups] at hn ⊢; omega)
        simpa using this

theorem varint_length_le {n k : Nat} (hk : 1 ≤ k) (h : n < 2 ^ (7 * k)) : (varint n).length ≤ k := by
  induction k generalizing n with
  | zero => omega
  | succ k ih =>
    by_cases h' : n < 128
    · rw [varint_lt h']; simp
    · rw [varint_ge (by omega)]
      cases k with
      | zero => simp at h; omega
      | succ k =>
        have := ih (n := n / 128) (by omega) (by
          have : 2 ^ (7 * (k + 1 + 1)) = 128 * 2 ^ (7 * (k + 1)) := by
            rw [Nat.mul_add _ (k+1), Nat.pow_add, Nat.mul_comm]
          omega)
        simpa using this

theorem varint_length_le_ten {n : Nat} (h : n < 2 ^ 64) : (varint n).length ≤ 10 :=
  varint_length_le (by omega) (Nat.lt_of_lt_of_le h (Nat.pow_le_pow_right (by omega) (by omega)))

/-- Encoding followed by decoding. -/
theorem varintdecode_varint (n : Nat) (rest : Bytes) (h : n < 2 ^ 64) :
    varintdecode (varint n ++ rest) = .ok ((BitVec.ofNat 64 n).toInt, (varint n).length) := by
  rw [varintdecode_of_isVarint _ _ (isVarint_varint n) (varint_length_le_ten h), groups_varint]

theorem toInt_ofNat_small {n : Nat} (h : n < 2 ^ 63) : (BitVec.ofNat 64 n).toInt = n := by
  rw [BitVec.toInt_eq_toNat_of_lt]
  · rw [BitVec.toNat_ofNat]; omega
  · rw [BitVec.toNat_ofNat]; omega

theorem varintdecode_varint_small (n : Nat) (rest : Bytes) (h : n < 2 ^ 63) :
    varintdecode (varint n ++ rest) = .ok ((n : Int), (varint n).length) := by
  rw [varintdecode_varint n rest (by omega), toInt_ofNat_small h]

end Sereal

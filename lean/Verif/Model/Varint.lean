import Verif.Model.Basic
/-
Varints: encode.go:675-683 (`varint`), decode.go:1240-1258 (`varintdecode`).
-/
namespace Sereal

/-- `varint(by, n)` appends these bytes to `by` (encode.go:675-683).  `n` is a Go `uint`; the model
takes it as a natural number (callers pass values below 2^64), `n >>= 7` is `n / 128`. -/
def varint (n : Nat) : Bytes :=
  if n ≥ 0x80 then (UInt8.ofNat n ||| 0x80) :: varint (n / 128) else [UInt8.ofNat n]
termination_by n

/-- The loop of `varintdecode` (decode.go:1242-1254): `n` is the accumulator (a 64-bit Go int, here
its bit pattern), `s` the shift count, `i` the loop index.  Bits shifted beyond bit 63 are lost, as
in Go. The result is the signed value and the number of bytes consumed. -/
def varintLoop : Bytes → (n : BitVec 64) → (s : Nat) → (i : Nat) → Res (Int × Nat)
  | [], _, _, _ => .error (.err (.corrupt .badVarint))           -- decode.go:1256-1257
  | b :: rest, n, s, i =>
    let n := n ||| (BitVec.ofNat 64 (b &&& 0x7f).toNat <<< s)     -- decode.go:1243
    let s := s + 7                                                -- decode.go:1244
    if b &&& 0x80 = 0 then .ok (n.toInt, i + 1)                   -- decode.go:1246-1248
    else if s > 63 then .error (.err (.corrupt .badVarint))       -- decode.go:1250-1253
    else varintLoop rest n s (i + 1)

/-- `varintdecode(by)` (decode.go:1240-1258).  On error the Go function also returns a size, which
no caller uses when the error is non-nil. -/
def varintdecode (by_ : Bytes) : Res (Int × Nat) := varintLoop by_ 0 0 0

end Sereal

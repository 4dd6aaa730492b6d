import Verif.Props.C59
/-
C60: UnmarshalHeader does not look at the body.
-/
namespace Sereal

/-- The full claim: the outcome of UnmarshalHeader is the same for every body.  A header is four bytes, a byte, a varint
(of at most ten bytes) and as many bytes as it states. -/
def HeaderAlone : Prop :=
  ∀ (cfg : DCfg) (tc : TCfg) (cs : Codecs) (m : Bytes) (t : UInt8) (v u x y : Bytes) (vh : Dest), m.length = 4 → IsVarint v →
    v.length ≤ 10 → groups v = u.length →
    call cfg tc cs (m ++ t :: (v ++ u ++ x)) vh .none = call cfg tc cs (m ++ t :: (v ++ u ++ y)) vh .none

/-- The code does not satisfy it: when the length zero is written with two bytes, the code takes the first byte of the
body for the flags of the user header.  UnmarshalHeader reports an error for a body that starts with an odd byte, and
none for one that starts with an even byte. -/
theorem C60_fails :
    (call {} noFloats dummyCodecs ([0x3d, 0xf3, 0x72, 0x6c] ++ 3 :: ([0x80, 0] ++ [] ++ [1])) (.var .str ⟨0, []⟩) .none
      { d := DState.init, mem := { next := 1 } }).1 = .error (.err .truncated) ∧
    (call {} noFloats dummyCodecs ([0x3d, 0xf3, 0x72, 0x6c] ++ 3 :: ([0x80, 0] ++ [] ++ [2])) (.var .str ⟨0, []⟩) .none
      { d := DState.init, mem := { next := 1 } }).1 = .ok () ∧
    ¬ HeaderAlone := by
  have h1 : (call {} noFloats dummyCodecs ([0x3d, 0xf3, 0x72, 0x6c] ++ 3 :: ([0x80, 0] ++ [] ++ [1])) (.var .str ⟨0, []⟩) .none
      { d := DState.init, mem := { next := 1 } }).1 = .error (.err .truncated) := by decide +kernel
  have h2 : (call {} noFloats dummyCodecs ([0x3d, 0xf3, 0x72, 0x6c] ++ 3 :: ([0x80, 0] ++ [] ++ [2])) (.var .str ⟨0, []⟩) .none
      { d := DState.init, mem := { next := 1 } }).1 = .ok () := by decide +kernel
  refine ⟨h1, h2, fun h => ?_⟩
  have := h {} noFloats dummyCodecs [0x3d, 0xf3, 0x72, 0x6c] 3 [0x80, 0] [] [1] [2] (.var .str ⟨0, []⟩) rfl
    ⟨by decide, by show (0 : UInt8).toNat < 128; decide⟩ (by decide) (by decide)
  rw [this, h2] at h1
  cases h1

/-- What holds: the claim for every header with at least one byte, and for the empty header if its length is written with
one byte.  Missing: the empty header with a longer varint (`C60_fails`); lengths of 2^62 and more, which do not fit
into memory. -/
theorem C60_partial (cfg : DCfg) (tc : TCfg) (cs : Codecs) (m : Bytes) (t : UInt8) (v u x y : Bytes) (vh : Dest)
    (hm : m.length = 4) (hv : IsVarint v) (hv10 : v.length ≤ 10) (hu : groups v = u.length) (hsmall : u.length < 2 ^ 62)
    (hempty : u = [] → v.length = 1) :
    call cfg tc cs (m ++ t :: (v ++ u ++ x)) vh .none = call cfg tc cs (m ++ t :: (v ++ u ++ y)) vh .none := by
  have hpos := hv.length_pos
  -- the checks of the header
  have hread : ∀ x, readHeader (m ++ t :: (v ++ u ++ x)) =
      if uint32 m = magicHeaderBytesHighBitUTF8 then .error (.err .badHeaderUTF8)
      else if ¬ ((uint32 m = magicHeaderBytes ∧ 1 ≤ (t &&& 0x0f).toNat ∧ (t &&& 0x0f).toNat ≤ 2) ∨
        (uint32 m = magicHeaderBytesHighBit ∧ 3 ≤ (t &&& 0x0f).toNat)) then .error (.err .badHeader)
      else .ok { doctype := (t >>> 4).toNat, version := (t &&& 0x0f).toNat, suffixSize := u.length + v.length,
                 suffixStart := 5 + v.length } := by
    intro x
    have hl : ¬ (m ++ t :: (v ++ u ++ x)).length ≤ headerSize := by
      simp only [List.length_append, List.length_cons, headerSize]; omega
    have hc : cut (m ++ t :: (v ++ u ++ x)) 0 4 = .ok m := by
      unfold cut
      rw [if_pos ⟨by omega, by simp only [List.length_append, List.length_cons]; omega⟩, List.drop_zero, ← hm]
      simp
    have hi : indexOf (m ++ t :: (v ++ u ++ x)) 4 = .ok t := by
      unfold indexOf
      rw [List.getElem?_append_right (by omega), hm]
      rfl
    have hf : cutFrom (m ++ t :: (v ++ u ++ x)) 5 = .ok (v ++ (u ++ x)) := by
      unfold cutFrom
      rw [if_pos (by simp only [List.length_append, List.length_cons]; omega)]
      rw [List.drop_append, List.drop_eq_nil_of_le (by omega), hm]
      simp
    have hvd : varintdecode (v ++ (u ++ x)) = .ok ((u.length : Int), v.length) := by
      rw [varintdecode_of_isVarint v (u ++ x) hv hv10, hu, ← sgn_small (n := u.length) (by omega)]
      rfl
    unfold readHeader
    rw [if_neg hl]
    simp only [hc, hi, hf, hvd, Bind.bind, Except.bind, headerSize]
    rw [wrapInt_small (by omega) (by omega)]
  have hcheck : ∀ x, checkHeader (m ++ t :: (v ++ u ++ x)) = checkHeader (m ++ t :: (v ++ u ++ [])) := by
    intro x; unfold checkHeader; rw [hread, hread]
  have hsuf : ∀ hd, checkHeader (m ++ t :: (v ++ u ++ [])) = .ok hd →
      hd.suffixStart = 5 + v.length ∧ hd.suffixSize = u.length + v.length := by
    intro hd h
    unfold checkHeader at h
    rw [hread] at h
    simp only [Bind.bind, Except.bind] at h
    split at h
    · cases h
    · next he =>
      split at he
      · cases he
      · split at he
        · cases he
        · cases he
          split at h
          · cases h; exact ⟨rfl, rfl⟩
          · cases h
  have main : ∀ x, call cfg tc cs (m ++ t :: (v ++ u ++ x)) vh .none = call cfg tc cs (m ++ t :: (v ++ u ++ [])) vh .none := by
    intro x
    funext s
    unfold call
    suffices h : callRaw cfg tc cs (m ++ t :: (v ++ u ++ x)) vh .none s = callRaw cfg tc cs (m ++ t :: (v ++ u ++ [])) vh .none s by
      rw [h]
    unfold callRaw
    rw [M.lift_then, M.lift_then, hcheck x]
    cases hk : checkHeader (m ++ t :: (v ++ u ++ [])) with
    | error e => rfl
    | ok hd =>
      obtain ⟨h1, h2⟩ := hsuf hd hk
      dsimp only
      rw [M.lift_then, M.lift_then]
      cases documentDecompressor hd.version hd.doctype with
      | error e => rfl
      | ok dc =>
        dsimp only
        rw [M.failIf_then, M.failIf_then]
        have hw : wrapInt (headerSize + hd.suffixSize) = 5 + u.length + v.length := by
          rw [h2]
          simp only [headerSize]
          rw [wrapInt_small (by omega) (by omega)]
          omega
        have hlen : ∀ x : Bytes, (m ++ t :: (v ++ u ++ x)).length = 5 + v.length + u.length + x.length := by
          intro x; simp only [List.length_append, List.length_cons]; omega
        rw [if_neg (by rw [hlen, hw]; omega), if_neg (by rw [hlen, hw]; omega)]
        have hn : (wrapInt (headerSize + hd.suffixSize)).toNat = 5 + v.length + u.length := by omega
        rw [hn]
        have hh : headerDest cfg tc (m ++ t :: (v ++ u ++ x)) hd (5 + v.length + u.length) vh =
            headerDest cfg tc (m ++ t :: (v ++ u ++ [])) hd (5 + v.length + u.length) vh := by
          unfold headerDest
          split
          · rfl
          · by_cases h3 : hd.suffixSize = 1
            · rw [if_pos h3, if_pos h3]
            · rw [if_neg h3, if_neg h3]
              have hu1 : u ≠ [] := by
                intro hu0
                have := hempty hu0
                rw [hu0] at h2
                simp at h2
                omega
              have hb : ∀ x : Bytes, byteAt (m ++ t :: (v ++ u ++ x)) hd.suffixStart = byteAt (m ++ t :: (v ++ u ++ [])) hd.suffixStart := by
                intro x
                have hup := List.length_pos_iff.2 hu1
                unfold byteAt
                have : (m ++ t :: (v ++ u ++ x))[hd.suffixStart]? = (m ++ t :: (v ++ u ++ []))[hd.suffixStart]? := by
                  rw [show m ++ t :: (v ++ u ++ x) = (m ++ t :: (v ++ u)) ++ x by simp, List.append_nil,
                    List.getElem?_append_left (by simp only [List.length_append, List.length_cons]; omega)]
                rw [this]
              have hs : ∀ x : Bytes, sliceRange (m ++ t :: (v ++ u ++ x)) 0 (5 + v.length + u.length) = Pure.pure (m ++ t :: (v ++ u)) := by
                intro x
                rw [sliceRange_zero (by rw [hlen]; omega)]
                rw [show m ++ t :: (v ++ u ++ x) = (m ++ t :: (v ++ u)) ++ x by simp, List.take_append_of_le_length
                  (by simp only [List.length_append, List.length_cons]; omega), List.take_of_length_le
                  (by simp only [List.length_append, List.length_cons]; omega)]
              rw [hb x, hs x, hs []]
        rw [hh]
        rfl
  rw [main x, main y]

/-- Non-vacuity: the header of `docHeaderBody`, with a body that cannot be decoded. -/
example :
    (match call {} noFloats dummyCodecs (docHeaderBody.take 10 ++ [0x3e]) (.var (.slice (.int .int)) ⟨0, []⟩) .none
        { d := DState.init, mem := { next := 1 } } with
      | (.ok _, s) => match s.mem.vars 1 with
        | .multi [.int a, .int b] => some (a, b)
        | _ => none
      | _ => none) = some (1, 2) := by
  decide +kernel

end Sereal

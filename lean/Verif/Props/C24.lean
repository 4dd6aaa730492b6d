import Verif.Model.Decompress
import Verif.Proof.ApiSafe
import Verif.Proof.Comp
import Verif.Props.C06
import Verif.Props.C13
/-
C24: DecompressDocument only changes the compression.  C25: DecompressDocument does not crash.
-/
namespace Sereal

theorem modify_four {ver dt : Nat} {rest : Bytes} (hv : ver < 16) (hd : dt < 16) :
    (magicOf ver ++ [UInt8.ofNat (ver + 16 * dt)] ++ rest).modify 4 (· &&& 0x0f) =
      magicOf ver ++ [UInt8.ofNat (ver + 16 * 0)] ++ rest := by
  have h : ∀ v d : Fin 16, UInt8.ofNat (v + 16 * d) &&& 0x0f = UInt8.ofNat (v + 16 * 0) := by decide
  have h1 := h ⟨ver, hv⟩ ⟨dt, hd⟩
  dsimp only at h1
  have h4 := magicOf_length ver
  match hm : magicOf ver, h4 with
  | [a, b, c, d], _ =>
    show a :: b :: c :: d :: (UInt8.ofNat (ver + 16 * dt) &&& 0x0f) :: rest = _
    rw [h1]; rfl

theorem clearType_head {ver dt : Nat} {lf suf body : Bytes} (hv : ver < 16) (hd : dt < 16) :
    clearType (headBytes ver dt lf suf ++ body) = .ok (headBytes ver 0 lf suf ++ body) := by
  have hl := headBytes_length ver dt lf suf
  unfold clearType
  rw [if_pos (by simp [hl]; omega)]
  unfold headBytes
  rw [List.append_assoc, List.append_assoc, modify_four hv hd]
  simp

/-- What DecompressDocument makes of a head and a decompressed body, wherever the codec put it. -/
theorem assemble_ok {slot : Slot} {dst : Buffer} {ver dt : Nat} {lf suf z body : Bytes}
    (hv : ver < 16) (hd : dt < 16) {r : Bytes}
    (h : assemble slot dst (headBytes ver dt lf suf ++ z) (headBytes ver dt lf suf).length body = .ok r) :
    r = headBytes ver 0 lf suf ++ body := by
  unfold assemble at h
  obtain ⟨same, _, h⟩ := Res.bind_ok.1 h
  have hc : cut (headBytes ver dt lf suf ++ z) 0 (headBytes ver dt lf suf).length = .ok (headBytes ver dt lf suf) := by
    unfold cut; rw [if_pos (by simp)]; simp
  rw [hc] at h
  replace h : (match same, slot with
    | true, .inPlace tail => do
      let doc ← cut (headBytes ver dt lf suf ++ body ++ tail) 0 ((headBytes ver dt lf suf).length + body.length)
      clearType doc
    | _, _ => clearType (headBytes ver dt lf suf ++ body)) = .ok r := h
  have h0 : clearType (headBytes ver dt lf suf ++ body) = .ok r := by
    cases same with
    | false => cases slot <;> exact h
    | true =>
      cases slot with
      | fresh cap => exact h
      | inPlace tail =>
        have hc' : cut (headBytes ver dt lf suf ++ body ++ tail) 0 ((headBytes ver dt lf suf).length + body.length) =
            .ok (headBytes ver dt lf suf ++ body) := by
          unfold cut
          rw [if_pos (by simp), ← List.length_append]
          simp only [List.drop_zero, Nat.sub_zero, List.take_left']
        dsimp only at h
        rw [hc'] at h
        exact h
  rw [clearType_head hv hd] at h0
  cases h0; rfl

/-- DecompressDocument on a document. -/
theorem decompressDocument_doc {cs : Codecs} {put : Placer} {dst : Buffer} {b r : Bytes} {ver dt : Nat}
    {lf suf body : Bytes} (h : IsDoc b ver dt lf suf body)
    (hr : decompressDocument cs put dst b = .ok r) :
    (documentDecompressor ver dt = .ok none ∧ r = b) ∨
    ∃ c body', documentDecompressor ver dt = .ok (some c) ∧ decompress cs c body = .ok body' ∧
      r = headBytes ver 0 lf suf ++ body' := by
  have hbs := h.bodyStart
  have hlen : b.length = (headBytes ver dt lf suf).length + body.length := by rw [h.eq_head]; simp
  unfold decompressDocument at hr
  rw [checkHeader_head h.head h.version.2] at hr
  replace hr := (Res.bind_ok (x := .ok _)).1 hr
  obtain ⟨_, h0, hr⟩ := hr
  cases h0
  obtain ⟨dc, h1, hr⟩ := Res.bind_ok.1 hr
  replace h1 : documentDecompressor ver dt = .ok dc := h1
  rw [hbs] at hr
  replace hr := hr
  rw [if_neg (by omega)] at hr
  cases dc with
  | none => left; exact ⟨h1, by cases hr; rfl⟩
  | some c =>
    right
    dsimp only at hr
    obtain ⟨into, _, hr⟩ := Res.bind_ok.1 hr
    obtain ⟨input, h3, hr⟩ := Res.bind_ok.1 hr
    rw [Int.toNat_natCast] at h3
    rw [h.eq_head] at h3
    unfold cutFrom at h3
    rw [if_pos (by simp)] at h3
    rw [List.drop_left] at h3
    cases h3
    obtain ⟨body', h4, hr⟩ := Res.bind_ok.1 hr
    rw [Int.toNat_natCast, h.eq_head] at hr
    have hv := h.version.2
    exact ⟨c, body', h1, h4, assemble_ok (by omega) h.doctype hr⟩

theorem documentDecompressor_none {v t : Nat} (h : documentDecompressor v t = .ok none) : t = 0 := by
  unfold documentDecompressor at h
  repeat' split at h
  all_goals first
    | (simp only [serealRaw] at *; assumption)
    | cases h

/-- What DecompressDocument accepts is a document. -/
theorem decompressDocument_isDoc {cs : Codecs} {put : Placer} {dst : Buffer} {b r : Bytes}
    (hsane : SaneHeaderLength b) (hsz : b.length < 2 ^ 63) (hr : decompressDocument cs put dst b = .ok r) :
    ∃ ver dt lf suf body, IsDoc b ver dt lf suf body := by
  unfold decompressDocument at hr
  obtain ⟨hd, h0, hr⟩ := Res.bind_ok.1 hr
  obtain ⟨ver, dt, lf, rest, hh, h4, rfl⟩ := checkHeader_ok' h0
  obtain ⟨dc, h1, hr⟩ := Res.bind_ok.1 hr
  have hlf : groups lf < 2 ^ 63 := hsane lf rest hh.drop hh.varint
  have hlen : b.length = 5 + lf.length + rest.length := by
    have := hh.eq
    rw [this]; simp [magicOf_length]; omega
  by_cases hc : wrapInt (headerSize + (Head.hdr ver dt lf).suffixSize) > b.length ∨
      wrapInt (headerSize + (Head.hdr ver dt lf).suffixSize) < 0
  · rw [if_pos hc] at hr; cases hr
  · obtain ⟨_, hg, _⟩ := bodyStart_eq hh.short hlf hc
    refine ⟨ver, dt, lf, rest.take (groups lf), rest.drop (groups lf), ?_, ⟨hh.ver1, h4⟩, hh.dt15, hh.varint, hh.short,
      ?_, hsz⟩
    · rw [hh.eq]; simp
    · rw [List.length_take]; omega

theorem headBytes_last {ver dt : Nat} {lf suf : Bytes} (hlf : 0 < lf.length) :
    (headBytes ver dt lf suf).drop ((headBytes ver dt lf suf).length - 1) =
      (lf ++ suf).drop (lf.length + suf.length - 1) := by
  rw [headBytes_length]
  unfold headBytes
  rw [List.append_assoc, List.drop_append]
  rw [List.drop_eq_nil_of_le (by simp [magicOf_length]; omega), List.nil_append]
  congr 1
  simp [magicOf_length]; omega

/-- The full claim. -/
def OnlyDecompresses : Prop :=
  ∀ (cs : Codecs) (put : Placer) (dst : Buffer) (b r : Bytes), put.Fits → SaneHeaderLength b → b.length < 2 ^ 63 →
    decompressDocument cs put dst b = .ok r → r.length < 2 ^ 63 →
    ∃ ver dt lf suf body body', IsDoc b ver dt lf suf body ∧ IsDoc r ver 0 lf suf body' ∧
      (dt = 0 → r = b) ∧
      (∀ cfg, unmarshal cfg cs r = unmarshal cfg cs b) ∧
      (∀ put' dst', decompressDocument cs put' dst' r = .ok r)

theorem decompressDocument_raw {cs : Codecs} {put : Placer} {dst : Buffer} {b : Bytes} {ver : Nat}
    {lf suf body : Bytes} (h : IsDoc b ver 0 lf suf body) : decompressDocument cs put dst b = .ok b := by
  have hlen : b.length = (headBytes ver 0 lf suf).length + body.length := by rw [h.eq_head]; simp
  unfold decompressDocument
  rw [checkHeader_head h.head h.version.2]
  show (do
    let decomp ← documentDecompressor ver 0
    _) = _
  show (if _ then _ else _) = _
  rw [h.bodyStart, if_neg (by omega)]

/-- C24 (DecompressDocument only changes the compression), for whatever buffer it is given and wherever
the codec puts its result.  Missing from the full claim: that version 1 documents decode to the same
result (they need not, `C24_fails`). -/
theorem C24_partial {cs : Codecs} {put : Placer} {dst : Buffer} {b r : Bytes}
    (hsane : SaneHeaderLength b) (hsz : b.length < 2 ^ 63)
    (hr : decompressDocument cs put dst b = .ok r) (hrsz : r.length < 2 ^ 63) :
    ∃ ver dt lf suf body body', IsDoc b ver dt lf suf body ∧ IsDoc r ver 0 lf suf body' ∧
      (dt = 0 → r = b) ∧
      (ver ≠ 1 → ∀ cfg, unmarshal cfg cs r = unmarshal cfg cs b) ∧
      (∀ put' dst', decompressDocument cs put' dst' r = .ok r) := by
  obtain ⟨ver, dt, lf, suf, body, h⟩ := decompressDocument_isDoc hsane hsz hr
  rcases decompressDocument_doc h hr with ⟨h1, rfl⟩ | ⟨c, body', h1, h2, rfl⟩
  · have := documentDecompressor_none h1
    subst this
    exact ⟨ver, 0, lf, suf, body, body, h, h, fun _ => rfl, fun _ _ => rfl, fun _ _ => decompressDocument_raw h⟩
  · have hd : IsDoc (headBytes ver 0 lf suf ++ body') ver 0 lf suf body' :=
      ⟨rfl, h.version, by omega, h.varint, h.short, h.len, hrsz⟩
    refine ⟨ver, dt, lf, suf, body, body', h, hd, ?_, fun hv cfg => ?_, fun _ _ => decompressDocument_raw hd⟩
    · rintro rfl
      have : documentDecompressor ver 0 = .ok none := rfl
      rw [this] at h1; cases h1
    · refine unmarshal_congr (x := itemBuf ver (headBytes ver 0 lf suf) body') (bodyInput_raw hd) ?_
      rw [bodyInput_doc (dc := some c) h h1 h2]
      unfold itemBuf
      rw [if_neg hv, if_neg hv, headBytes_last h.varint.length_pos, headBytes_last h.varint.length_pos]

theorem snappyPut_fits : snappyPut.Fits := by
  intro into body hn
  cases into with
  | none => exact Nat.le_refl _
  | some p =>
    obtain ⟨arr, n⟩ := p
    have := hn arr n rfl
    unfold snappyPut
    by_cases h : body.length ≤ n
    · dsimp only
      rw [if_pos h]
      exact ⟨arr, n, rfl, by simp; omega⟩
    · dsimp only
      rw [if_neg h]
      exact Nat.le_refl _

/-- A version 1 document marked as snappy-compressed whose (decompressed) body is a copy of the item at
offset 4, the version-type byte. -/
def docCopy4 : Bytes := [0x3d, 0x73, 0x72, 0x6c, 0x11, 0, 0x2f, 4]

def noBuffer : Buffer := ⟨[], 0, Nat.le_refl _⟩

theorem sane_zero {b rest : Bytes} (h : b.drop 5 = 0 :: rest) : SaneHeaderLength b := by
  intro v r hv hi
  obtain ⟨rfl, rfl⟩ := IsVarint.head (by decide) (h.symm.trans hv) hi
  decide

/-- The version 1 document `docCopy4` stands for -15 before and for 1 after decompression. -/
theorem C24_fails : ¬ OnlyDecompresses := by
  intro h
  have h1 : decompressDocument idCodecs snappyPut noBuffer docCopy4 =
      .ok [0x3d, 0x73, 0x72, 0x6c, 1, 0, 0x2f, 4] := by decide
  obtain ⟨ver, dt, lf, suf, body, body', _, _, _, hu, _⟩ := h idCodecs snappyPut noBuffer docCopy4 _ snappyPut_fits
    (sane_zero (rest := [0x2f, 4]) rfl) (by decide) h1 (by decide)
  have hb : yieldsInt (unmarshal {} idCodecs [0x3d, 0x73, 0x72, 0x6c, 1, 0, 0x2f, 4]) 1 = true := by decide +kernel
  have ha : yieldsInt (unmarshal {} idCodecs docCopy4) 1 = false := by decide +kernel
  rw [hu {}] at hb
  rw [ha] at hb
  cases hb

/-- A buffer large enough for in-place decompression, holding old data. -/
def bigBuffer : Buffer := ⟨List.replicate 20 9, 12, by decide⟩

/-- Version 3, snappy, user header of three bytes, body an empty array. -/
def docSnappy3 : Bytes := [0x3d, 0xf3, 0x72, 0x6c, 0x23, 3, 1, 0x61, 0x78, 2, 0x2b, 0]

/-- `C24_partial` applies both to decompression in place and to a new buffer. -/
example : decompressDocument idCodecs snappyPut bigBuffer docSnappy3 =
    .ok [0x3d, 0xf3, 0x72, 0x6c, 3, 3, 1, 0x61, 0x78, 0x2b, 0] := by decide
example : decompressDocument idCodecs snappyPut noBuffer docSnappy3 =
    .ok [0x3d, 0xf3, 0x72, 0x6c, 3, 3, 1, 0x61, 0x78, 0x2b, 0] := by decide

/-! ### C25 -/

/-- The full claim: DecompressDocument returns normally. -/
def DecompressReturns : Prop :=
  ∀ (cs : Codecs) (put : Placer) (dst : Buffer) (b : Bytes), put.Fits →
    ∀ m, decompressDocument cs put dst b ≠ .error (.crash m)

/-- Version 3, snappy, compressed body 00 (which snappy decompresses to nothing). -/
def docSnappyEmpty : Bytes := [0x3d, 0xf3, 0x72, 0x6c, 0x23, 0, 1, 0]

/-- A codec that decompresses 00 to the empty byte string, as snappy does. -/
def emptyCodecs : Codecs := { idCodecs with snappyDec := fun b => if b = [0] then .ok [] else .ok b }

/-- A non-empty buffer that is shorter than the document. -/
def smallBuffer : Buffer := ⟨[0], 1, by decide⟩

/-- hasSameBuffer indexes an empty array when the body decompresses to nothing. -/
theorem C25_empty_fails : decompressDocument emptyCodecs snappyPut smallBuffer docSnappyEmpty =
    .error (.crash "index out of range") := by decide

/-- Version 1, snappy, header length 2^64 - 12, so that the body starts at offset 3. -/
def docNegativeSnappy : Bytes :=
  [0x3d, 0x73, 0x72, 0x6c, 0x11, 0xf4, 0xff, 0xff, 0xff, 0xff, 0xff, 0xff, 0xff, 0xff, 1]

/-- The version-type byte of a document whose body starts before it and decompresses to nothing. -/
theorem C25_header_fails : decompressDocument { emptyCodecs with snappyDec := fun _ => .ok [] } snappyPut noBuffer
    docNegativeSnappy = .error (.crash "index out of range") := by decide

theorem C25_fails : ¬ DecompressReturns := fun h =>
  h emptyCodecs snappyPut smallBuffer docSnappyEmpty snappyPut_fits _ C25_empty_fails

/-- The body of `b` does not decompress to nothing. -/
def BodyNotEmpty (cs : Codecs) (b : Bytes) : Prop :=
  ∀ ver dt lf suf z c, IsDoc b ver dt lf suf z → documentDecompressor ver dt = .ok (some c) → decompress cs c z ≠ .ok []

theorem assemble_safe {slot : Slot} {dst : Buffer} {ver dt : Nat} {lf suf z body : Bytes}
    (hv : ver < 16) (hd : dt < 16) (hroom : dst.len = 0 ∨ body ≠ [])
    (hslot : ∀ cap, slot = .fresh cap → body.length ≤ cap) :
    ∃ r, assemble slot dst (headBytes ver dt lf suf ++ z) (headBytes ver dt lf suf).length body = .ok r := by
  have hdst := dst.fits
  unfold assemble
  have h1 : ∃ same, (if dst.len > 0 then hasSameBuffer slot body.length dst else .ok false) = .ok same := by
    split
    · have hne : 0 < body.length := List.length_pos_iff.2 (hroom.resolve_left (by omega))
      unfold hasSameBuffer
      cases slot with
      | inPlace tail => exact ⟨true, if_neg (by omega)⟩
      | fresh cap => exact ⟨false, if_neg (by have := hslot cap rfl; omega)⟩
    · exact ⟨false, rfl⟩
  obtain ⟨same, h1⟩ := h1
  rw [h1]
  have hc : cut (headBytes ver dt lf suf ++ z) 0 (headBytes ver dt lf suf).length = .ok (headBytes ver dt lf suf) := by
    unfold cut; rw [if_pos (by simp)]; simp
  rw [hc]
  show ∃ r, (match same, slot with
    | true, .inPlace tail => do
      let doc ← cut (headBytes ver dt lf suf ++ body ++ tail) 0 ((headBytes ver dt lf suf).length + body.length)
      clearType doc
    | _, _ => clearType (headBytes ver dt lf suf ++ body)) = .ok r
  have h0 : ∃ r, clearType (headBytes ver dt lf suf ++ body) = .ok r := ⟨_, clearType_head hv hd⟩
  cases same with
  | false => cases slot <;> exact h0
  | true =>
    cases slot with
    | fresh cap => exact h0
    | inPlace tail =>
      have hc' : cut (headBytes ver dt lf suf ++ body ++ tail) 0 ((headBytes ver dt lf suf).length + body.length) =
          .ok (headBytes ver dt lf suf ++ body) := by
        unfold cut
        rw [if_pos (by simp), ← List.length_append]
        simp only [List.drop_zero, Nat.sub_zero, List.take_left']
      dsimp only
      rw [hc']
      exact h0

/-- C25 (DecompressDocument returns normally) for sensible length fields and bodies that do not
decompress to nothing.  Missing from the full claim: those documents, on some of which it crashes
(`C25_empty_fails`, `C25_header_fails`). -/
theorem C25_partial (cs : Codecs) (put : Placer) (dst : Buffer) (b : Bytes) (hfit : put.Fits)
    (hsz : b.length < 2 ^ 63) (hlen : SaneHeaderLength b) (hzlib : SaneZlibSize b)
    (hroom : dst.len = 0 ∨ BodyNotEmpty cs b) :
    (∃ r, decompressDocument cs put dst b = .ok r) ∨ ∃ er, decompressDocument cs put dst b = .error (.err er) := by
  unfold decompressDocument
  cases h0 : checkHeader b with
  | error e =>
    obtain ⟨er, rfl⟩ := checkHeader_error h0
    exact .inr ⟨er, rfl⟩
  | ok hd =>
  obtain ⟨ver, dt, lf, rest, hh, h4, rfl⟩ := checkHeader_ok' h0
  show (∃ r, (documentDecompressor ver dt >>= _) = _) ∨ ∃ er, (documentDecompressor ver dt >>= _) = _
  cases h1 : documentDecompressor ver dt with
  | error e =>
    obtain ⟨er, rfl⟩ := documentDecompressor_error h1
    exact .inr ⟨er, rfl⟩
  | ok dc =>
  have hlf : groups lf < 2 ^ 63 := hlen lf rest hh.drop hh.varint
  have hblen := hh.length
  change (∃ r, (ite (wrapInt (headerSize + (Head.hdr ver dt lf).suffixSize) > b.length ∨
      wrapInt (headerSize + (Head.hdr ver dt lf).suffixSize) < 0) _ _) = _) ∨
    ∃ er, (ite (wrapInt (headerSize + (Head.hdr ver dt lf).suffixSize) > b.length ∨
      wrapInt (headerSize + (Head.hdr ver dt lf).suffixSize) < 0) _ _) = _
  by_cases hc : wrapInt (headerSize + (Head.hdr ver dt lf).suffixSize) > b.length ∨
      wrapInt (headerSize + (Head.hdr ver dt lf).suffixSize) < 0
  · rw [if_pos hc]; exact .inr ⟨_, rfl⟩
  rw [if_neg hc]
  obtain ⟨_, hg, _⟩ := bodyStart_eq hh.short hlf hc
  have h : IsDoc b ver dt lf (rest.take (groups lf)) (rest.drop (groups lf)) := by
    refine ⟨?_, ⟨hh.ver1, h4⟩, hh.dt15, hh.varint, hh.short, ?_, hsz⟩
    · rw [hh.eq]; simp
    · rw [List.length_take]; omega
  rw [h.bodyStart, Int.toNat_natCast]
  generalize rest.take (groups lf) = suf at h
  generalize hz : rest.drop (groups lf) = z at h
  have hl := headBytes_length ver dt lf suf
  have hbl : b.length = (headBytes ver dt lf suf).length + z.length := by rw [h.eq_head]; simp
  cases dc with
  | none => exact .inl ⟨_, rfl⟩
  | some c =>
  dsimp only
  have hdf := dst.fits
  have hinto : ∃ into, codecDst dst b (headBytes ver dt lf suf).length = .ok into ∧
      ∀ arr n, into = some (arr, n) → n ≤ arr.length := by
    unfold codecDst
    by_cases hd : dst.len ≥ b.length
    · rw [if_pos hd, if_pos (by omega)]
      refine ⟨_, rfl, ?_⟩
      rintro arr n hn
      cases hn
      rw [List.length_drop]; omega
    · rw [if_neg hd]
      exact ⟨none, rfl, by simp⟩
  obtain ⟨into, hi, hin⟩ := hinto
  rw [hi]
  show (∃ r, (cutFrom b _ >>= _) = _) ∨ ∃ er, (cutFrom b _ >>= _) = _
  have hcf : cutFrom b (headBytes ver dt lf suf).length = .ok z := by
    rw [cutFrom_ok (by omega), h.eq_head, List.drop_left]
  rw [hcf]
  show (∃ r, (decompress cs c z >>= _) = _) ∨ ∃ er, (decompress cs c z >>= _) = _
  cases h5 : decompress cs c z with
  | error e =>
    rcases decompress_error h5 with ⟨er, rfl⟩ | ⟨l, m, rfl, rfl, v, r, rfl, hv, hv10, hbig⟩
    · exact .inr ⟨er, rfl⟩
    · exfalso
      have h3 := documentDecompressor_zlib h1
      subst h3
      have := hzlib ?_ lf rest hh.drop hh.varint v r hz hv
      · rcases hbig with hbig | hbig
        · rw [sgn_small (by omega)] at hbig; omega
        · rw [sgn_small (by omega)] at hbig; omega
      · refine ⟨UInt8.ofNat (ver + 16 * 3), ?_, ?_⟩
        · rw [hh.eq]
          have := magicOf_length ver
          match magicOf ver, this with
          | [a, b, c, d], _ => rfl
        · have : ∀ v : Fin 5, (UInt8.ofNat (v + 16 * 3)).toNat / 16 = 3 := by decide
          exact this ⟨ver, by omega⟩
  | ok body =>
    left
    show ∃ r, assemble (put into body) dst b _ body = _
    rw [h.eq_head]
    refine assemble_safe (by omega) h.doctype ?_ ?_
    · rcases hroom with hroom | hroom
      · exact .inl hroom
      · right
        rintro rfl
        exact hroom _ _ _ _ _ _ h h1 h5
    · intro cap hcap
      have := hfit into body hin
      rw [hcap] at this
      exact this

/-- `C25_partial` applies to `docSnappy3`. -/
example : SaneHeaderLength docSnappy3 ∧ SaneZlibSize docSnappy3 ∧ snappyPut.Fits ∧ BodyNotEmpty idCodecs docSnappy3 := by
  have hsane : SaneHeaderLength docSnappy3 := by
    intro v r hv hi
    obtain ⟨rfl, rfl⟩ := IsVarint.head (a := 3) (by decide) hv hi
    decide
  refine ⟨hsane, ?_, snappyPut_fits, ?_⟩
  · rintro ⟨t, ht, h3⟩
    cases ht
    exact absurd h3 (by decide)
  · intro ver dt lf suf z c h h1 h2
    have hb : bodyInput idCodecs docSnappy3 = .ok ([0x78, 0x2b, 0], 1) := by decide
    rw [bodyInput_doc (dc := some c) h h1 h2] at hb
    have hl := headBytes_length ver dt lf suf
    unfold itemBuf at hb
    split at hb
    · have := congrArg (fun r => match r with | .ok p => p.2 | .error _ => 0) hb
      simp at this
      omega
    · have := congrArg (fun r => match r with | .ok p => p.1.length | .error _ => 0) hb
      simp at this
      omega

end Sereal
